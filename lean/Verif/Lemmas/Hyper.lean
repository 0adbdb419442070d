import Verif.Spec.Hyper
import Verif.Props.Param
import Std.Data.String.ToNat

/-! # Lemmas about named hyperparameters -/

namespace MuyGPyS
open Py

theorem vecName_inj {b : String} {i j : Nat} (h : vecName b i = vecName b j) : i = j := by
  unfold vecName at h
  have h' := congrArg String.toList h
  rw [String.toList_append, String.toList_append] at h'
  have h'' := List.append_cancel_left h'
  rw [Nat.toString_eq_repr, Nat.toString_eq_repr] at h''
  exact Nat.repr_injective (String.toList_inj.mp h'')

theorem toDigits_no_k (n : Nat) : 'k' ∉ Nat.toDigits 10 n := by
  intro h
  have := Nat.isDigit_of_mem_toDigits (by omega) (by omega) h
  revert this
  decide

theorem vecName_toList (i : Nat) :
    (vecName "length_scale" i).toList = "length_scale".toList ++ Nat.toDigits 10 i := by
  rw [vecName, String.toList_append, Nat.toString_eq_repr, Nat.toList_repr]

theorem hasKnot_mem {s : String} (h : hasKnot s) : 'k' ∈ s.toList := by
  obtain ⟨a, b, hab⟩ := h
  rw [← hab]
  simp

theorem vecName_no_knot (i : Nat) : ¬ hasKnot (vecName "length_scale" i) := by
  intro h
  have := hasKnot_mem h
  rw [vecName_toList, List.mem_append] at this
  rcases this with h | h
  · revert h; decide
  · exact toDigits_no_k i h

theorem vecName_ne_of_head {s : String} {i : Nat} (h : s.toList.head? ≠ some 'l') :
    vecName "length_scale" i ≠ s := by
  intro e
  apply h
  rw [← e, vecName_toList]
  rfl

theorem vecName_ne_smoothness (i : Nat) : vecName "length_scale" i ≠ "smoothness" :=
  vecName_ne_of_head (by decide)

theorem vecName_ne_noise (i : Nat) : vecName "length_scale" i ≠ "noise" :=
  vecName_ne_of_head (by decide)

theorem mem_namedFrom {b : String} {i : Nat} {ps : List Param} {np : String × Param}
    (h : np ∈ namedFrom b i ps) : ∃ j, i ≤ j ∧ np.1 = vecName b j := by
  induction ps generalizing i with
  | nil => simp [namedFrom] at h
  | cons p ps ih =>
    simp only [namedFrom, List.mem_cons] at h
    rcases h with rfl | h
    · exact ⟨i, le_refl _, rfl⟩
    · obtain ⟨j, h1, h2⟩ := ih h
      exact ⟨j, by omega, h2⟩

theorem namedFrom_nodup (b : String) (i : Nat) (ps : List Param) :
    ((namedFrom b i ps).map Prod.fst).Nodup := by
  induction ps generalizing i with
  | nil => simp [namedFrom]
  | cons p ps ih =>
    simp only [namedFrom, List.map_cons, List.nodup_cons]
    refine ⟨fun h => ?_, ih _⟩
    obtain ⟨np, hm, he⟩ := List.mem_map.mp h
    obtain ⟨j, h1, h2⟩ := mem_namedFrom hm
    rw [h2] at he
    have := vecName_inj he
    omega

/-- Names of kernel hyperparameters. -/
theorem kernel_name {k : Kernel} {np : String × Param} (h : np ∈ k.named) :
    np.1 ≠ "noise" ∧ ¬ hasKnot np.1 := by
  have hs : ∀ s : String, 'k' ∉ s.toList → ¬ hasKnot s := fun s hs hk => hs (hasKnot_mem hk)
  unfold Kernel.named at h
  rw [List.mem_append] at h
  rcases h with h | h
  · cases hl : k.ls with
    | scalar p =>
      rw [hl] at h
      simp only [LenScale.named, List.mem_singleton] at h
      subst h
      exact ⟨(by decide : "length_scale" ≠ "noise"), hs _ (by decide : 'k' ∉ "length_scale".toList)⟩
    | vector ps =>
      rw [hl] at h
      obtain ⟨j, _, h2⟩ := mem_namedFrom h
      rw [h2]
      exact ⟨vecName_ne_noise j, vecName_no_knot j⟩
  · cases hsm : k.smoothness with
    | none => rw [hsm] at h; simp at h
    | some p =>
      rw [hsm] at h
      simp at h
      subst h
      exact ⟨(by decide : "smoothness" ≠ "noise"), hs _ (by decide : 'k' ∉ "smoothness".toList)⟩

theorem kernel_names_nodup (k : Kernel) : (k.named.map Prod.fst).Nodup := by
  unfold Kernel.named
  rw [List.map_append, List.nodup_append]
  refine ⟨?_, ?_, ?_⟩
  · cases k.ls with
    | scalar p => simp [LenScale.named]
    | vector ps => exact namedFrom_nodup _ _ _
  · cases k.smoothness <;> simp
  · intro a ha c hb
    cases hsm : k.smoothness with
    | none => rw [hsm] at hb; simp at hb
    | some p =>
      rw [hsm] at hb
      simp at hb
      subst hb
      obtain ⟨np, hm, rfl⟩ := List.mem_map.mp ha
      cases hl : k.ls with
      | scalar q =>
        rw [hl] at hm
        simp only [LenScale.named, List.mem_singleton] at hm
        subst hm
        exact (by decide : "length_scale" ≠ "smoothness")
      | vector ps =>
        rw [hl] at hm
        obtain ⟨j, _, h2⟩ := mem_namedFrom hm
        rw [h2]
        exact vecName_ne_smoothness j

theorem params_names_nodup (m : GP) : (m.params.map Prod.fst).Nodup := by
  unfold GP.params
  rw [List.map_append, List.nodup_append]
  refine ⟨kernel_names_nodup _, ?_, ?_⟩
  · cases m.noise <;> simp
  · intro a ha c hb
    obtain ⟨np, hm, rfl⟩ := List.mem_map.mp ha
    cases hn : m.noise with
    | null => rw [hn] at hb; simp at hb
    | heteroscedastic xs => rw [hn] at hb; simp at hb
    | homoscedastic p =>
      rw [hn] at hb
      simp at hb
      subst hb
      exact (kernel_name hm).1

theorem dict_set_fresh {β : Type _} (d : Dict β) (k : String) (v : β) (h : k ∉ d.map Prod.fst) :
    Dict.set d k v = d ++ [(k, v)] := by
  induction d with
  | nil => rfl
  | cons a d ih =>
    obtain ⟨a1, a2⟩ := a
    simp only [List.map_cons, List.mem_cons, not_or] at h
    simp only [Dict.set, List.cons_append]
    rw [if_neg (by simpa using Ne.symm h.1)]
    rw [ih h.2]

theorem foldl_set_fresh {β : Type _} (l : List (String × β)) (d : Dict β)
    (h : ((d ++ l).map Prod.fst).Nodup) :
    l.foldl (fun d np => Dict.set d np.1 np.2) d = d ++ l := by
  induction l generalizing d with
  | nil => simp
  | cons a l ih =>
    simp only [List.foldl_cons]
    have hf : a.1 ∉ d.map Prod.fst := by
      rw [List.map_append, List.nodup_append] at h
      intro hm
      exact h.2.2 a.1 hm a.1 (by simp) rfl
    rw [dict_set_fresh d a.1 a.2 hf]
    rw [ih (d ++ [(a.1, a.2)]) (by simpa using h)]
    simp

theorem hyperparameters_eq (k : Kernel) : k.hyperparameters = k.named := by
  unfold Kernel.hyperparameters
  rw [foldl_set_fresh]
  · rfl
  · exact kernel_names_nodup k

theorem get?_of_mem {β : Type _} {d : Dict β} {n : String} {v : β} (hd : (d.map Prod.fst).Nodup)
    (h : (n, v) ∈ d) : Dict.get? d n = some v := by
  induction d with
  | nil => simp at h
  | cons a d ih =>
    unfold Dict.get?
    simp only [List.map_cons, List.nodup_cons] at hd
    rcases List.mem_cons.mp h with rfl | h
    · simp
    · have hne : a.1 ≠ n := by
        intro e
        apply hd.1
        rw [e]
        exact List.mem_map.mpr ⟨_, h, rfl⟩
      rw [List.find?_cons_of_neg (by simpa using hne)]
      exact ih hd.2 h

/-- The lists handed to the optimiser, in closed form. -/
theorem foldl_appendLists (l : List (String × Param)) (o : OptLists) :
    l.foldl appendLists o =
      ⟨o.names ++ (l.filter (fun np => !np.2.fixed)).map Prod.fst,
        o.params ++ (l.filter (fun np => !np.2.fixed)).map (fun np => np.2.val),
        o.bounds ++ (l.filter (fun np => !np.2.fixed)).map (fun np => (np.2.lb, np.2.ub))⟩ := by
  induction l generalizing o with
  | nil => simp
  | cons a l ih =>
    rw [List.foldl_cons, ih]
    unfold appendLists
    by_cases h : a.2.fixed
    · simp [h]
    · simp [h]

theorem kernel_getOptParams (k : Kernel) : k.getOptParams = k.named.foldl appendLists ⟨[], [], []⟩ := by
  unfold Kernel.getOptParams Kernel.named
  cases k.smoothness <;> simp

theorem getOptParams_eq (m : GP) (h : m.noise ≠ .null) :
    m.getOptParams = .ok (m.params.foldl appendLists ⟨[], [], []⟩) := by
  unfold GP.getOptParams GP.params
  rw [kernel_getOptParams]
  cases hn : m.noise with
  | null => exact absurd hn h
  | homoscedastic p => simp [NoiseObj.appendLists, List.foldl_append]
  | heteroscedastic xs => simp [NoiseObj.appendLists]

/-! ### `mapParams` -/

theorem namedFrom_mapNamed (b : String) (f : String → Param → Param) (i : Nat) (ps : List Param) :
    namedFrom b i (mapNamed b f i ps) = (namedFrom b i ps).map (fun np => (np.1, f np.1 np.2)) := by
  induction ps generalizing i with
  | nil => rfl
  | cons p ps ih => simp only [mapNamed, namedFrom, List.map_cons, ih]; rfl

theorem params_mapParams (f : String → Param → Param) (m : GP) :
    (m.mapParams f).params = m.params.map (fun np => (np.1, f np.1 np.2)) := by
  unfold GP.params GP.mapParams Kernel.named
  rw [List.map_append, List.map_append]
  congr 1
  · congr 1
    · cases m.kernel.ls with
      | scalar p => rfl
      | vector ps => exact namedFrom_mapNamed _ _ _ _
    · cases m.kernel.smoothness <;> simp
  · cases m.noise <;> simp

theorem mapNamed_congr {b : String} {f g : String → Param → Param} {i : Nat} {ps : List Param}
    (h : ∀ np ∈ namedFrom b i ps, f np.1 np.2 = g np.1 np.2) :
    mapNamed b f i ps = mapNamed b g i ps := by
  induction ps generalizing i with
  | nil => rfl
  | cons p ps ih =>
    simp only [mapNamed]
    rw [ih (fun np hnp => h np (List.mem_cons_of_mem _ hnp))]
    have := h (vecName b i, p) List.mem_cons_self
    simp only [vecName] at this
    rw [this]

theorem mapParams_congr {f g : String → Param → Param} {m : GP}
    (h : ∀ np ∈ m.params, f np.1 np.2 = g np.1 np.2) : m.mapParams f = m.mapParams g := by
  have hk : ∀ np ∈ m.kernel.named, f np.1 np.2 = g np.1 np.2 :=
    fun np hnp => h np (List.mem_append_left _ hnp)
  have hl : ∀ np ∈ m.kernel.ls.named, f np.1 np.2 = g np.1 np.2 :=
    fun np hnp => hk np (List.mem_append_left _ hnp)
  unfold GP.mapParams
  congr 1
  · congr 1
    · cases hls : m.kernel.ls with
      | scalar p =>
        rw [hls] at hl
        have := hl ("length_scale", p) (by simp [LenScale.named])
        simp only at this ⊢
        rw [this]
      | vector ps =>
        rw [hls] at hl
        simp only
        rw [mapNamed_congr hl]
    · cases hs : m.kernel.smoothness with
      | none => rfl
      | some p =>
        have := hk ("smoothness", p) (by unfold Kernel.named; rw [hs]; simp)
        simp only [Option.map_some] at this ⊢
        rw [this]
  · cases hn : m.noise with
    | null => rfl
    | heteroscedastic xs => rfl
    | homoscedastic p =>
      have := h ("noise", p) (by unfold GP.params; rw [hn]; simp)
      simp only at this ⊢
      rw [this]

theorem mapNamed_comp (b : String) (f g : String → Param → Param) (i : Nat) (ps : List Param) :
    mapNamed b f i (mapNamed b g i ps) = mapNamed b (fun n p => f n (g n p)) i ps := by
  induction ps generalizing i with
  | nil => rfl
  | cons p ps ih => simp only [mapNamed, ih]

theorem mapParams_comp (f g : String → Param → Param) (m : GP) :
    (m.mapParams g).mapParams f = m.mapParams (fun n p => f n (g n p)) := by
  unfold GP.mapParams
  congr 1
  · congr 1
    · cases m.kernel.ls with
      | scalar p => rfl
      | vector ps => simp only [mapNamed_comp]
    · cases m.kernel.smoothness <;> rfl
  · cases m.noise <;> rfl

theorem mapNamed_id (b : String) (i : Nat) (ps : List Param) :
    mapNamed b (fun _ p => p) i ps = ps := by
  induction ps generalizing i with
  | nil => rfl
  | cons p ps ih => simp only [mapNamed, ih]

theorem mapParams_id (m : GP) : m.mapParams (fun _ p => p) = m := by
  obtain ⟨⟨ls, sm⟩, n, sc⟩ := m
  unfold GP.mapParams
  congr 1
  · congr 1
    · cases ls with
      | scalar p => rfl
      | vector ps => simp only [mapNamed_id]
    · cases sm <;> rfl
  · cases n <;> rfl

theorem updNamed_eq (key b : String) (q : Param) (i : Nat) (ps : List Param) :
    updNamed key b q i ps = mapNamed b (fun n p => if n = key then q else p) i ps := by
  induction ps generalizing i with
  | nil => rfl
  | cons p ps ih => simp only [updNamed, mapNamed, ih]; rfl

theorem put_eq (m : GP) (key : String) (q : Param) (h : key ≠ "noise") :
    { m with kernel := m.kernel.put key q } =
      m.mapParams (fun n p => if n = key then q else p) := by
  unfold GP.mapParams Kernel.put
  congr 1
  · congr 1
    cases m.kernel.ls with
    | scalar p => rfl
    | vector ps => simp only [updNamed_eq]
  · cases m.noise with
    | null => rfl
    | heteroscedastic xs => rfl
    | homoscedastic p => simp only; rw [if_neg (Ne.symm h)]

theorem put_noise_eq (m : GP) (p q : Param) (h : m.noise = .homoscedastic p) :
    { m with noise := .homoscedastic q } =
      m.mapParams (fun n p => if n = "noise" then q else p) := by
  have : m.mapParams (fun n p => if n = "noise" then q else p) =
      { m.mapParams (fun n p => if n = "noise" then q else p) with
        kernel := (m.mapParams (fun n p => if n = "noise" then q else p)).kernel } := rfl
  have hk : (m.mapParams (fun n p => if n = "noise" then q else p)).kernel = m.kernel := by
    have h1 : m.mapParams (fun n p => if n = "noise" then q else p) =
        m.mapParams (fun n p => if n = "noise" then q else p) := rfl
    have := mapParams_congr (m := { m with noise := .null })
      (f := fun n p => if n = "noise" then q else p) (g := fun _ p => p) (by
        intro np hnp
        unfold GP.params at hnp
        simp only [List.append_nil] at hnp
        have := (kernel_name hnp).1
        simp [this])
    rw [mapParams_id] at this
    have h2 := congrArg (fun g : GP => g.kernel) this
    exact h2
  have hn : (m.mapParams (fun n p => if n = "noise" then q else p)).noise = .homoscedastic q := by
    unfold GP.mapParams
    simp [h]
  cases hm : m.mapParams (fun n p => if n = "noise" then q else p) with
  | mk k n s =>
    rw [hm] at hk hn
    have hs : s = m.scale := by
      have := congrArg GP.scale hm
      exact this.symm
    simp only at hk hn
    subst hk hn hs
    rfl

theorem clampFlt_some (l u x : EReal) (h : l ≤ u) :
    clampFlt (some l) (some u) (some x) = some (clampE l u x) := by
  unfold clampFlt clampE
  simp only [Flt.lt_some]
  split_ifs with h1 h2
  · rw [min_eq_left (le_trans h1.le h), max_eq_left h1.le]
  · rw [min_eq_right h2.le, max_eq_right h]
  · rw [min_eq_left (not_lt.mp h2), max_eq_right (not_lt.mp h1)]

theorem clampE_mem (l u x : EReal) (h : l ≤ u) : l ≤ clampE l u x ∧ clampE l u x ≤ u := by
  unfold clampE
  exact ⟨le_max_left _ _, max_le h (min_le_right _ _)⟩

theorem clampE_idem (l u x : EReal) (_h : l ≤ u) (h1 : l ≤ x) (h2 : x ≤ u) : clampE l u x = x := by
  unfold clampE
  rw [min_eq_left h2, max_eq_right h1]

theorem setVal_inside (env : Env) (p : Param) (l u x : EReal) (hf : p.fixed = false)
    (hl : p.lb = some l) (hu : p.ub = some u) (h1 : l ≤ x) (h2 : x ≤ u) :
    p.setVal env (.num (some x)) = .ok { p with val := some x } := by
  rw [C07_accepts_iff env p l u x hf hl hu, if_pos]
  constructor
  · calc l + ((-(1e-5) : ℝ) : EReal) ≤ l + 0 := by
          apply add_le_add_right; exact_mod_cast (by norm_num : (-(1e-5) : ℝ) ≤ 0)
      _ = l := add_zero l
      _ ≤ x := h1
  · calc x ≤ u := h2
      _ = u + 0 := (add_zero u).symm
      _ ≤ _ := by apply add_le_add_right; exact_mod_cast (by norm_num : (0 : ℝ) ≤ 1e-5)

/-- One iteration of the loop, for an unfixed parameter with sane bounds. -/
theorem newStep_ok (env : Env) (opt : Dict Flt) (m : GP) (n : String) (p : Param) (l u x : EReal)
    (hm : (n, p) ∈ m.params) (hf : p.fixed = false) (hl : p.lb = some l) (hu : p.ub = some u)
    (hlu : l ≤ u) (hx : Dict.get? opt n = some (some x)) :
    newStep env opt m (n, p.lb, p.ub) =
      .ok (m.mapParams fun n' p' => if n' = n then { p' with val := some (clampE l u x) } else p') := by
  have hc := clampE_mem l u x hlu
  have hsv := setVal_inside env p l u _ hf hl hu hc.1 hc.2
  have hcongr : m.mapParams (fun n' p' => if n' = n then { p with val := some (clampE l u x) } else p') =
      m.mapParams fun n' p' => if n' = n then { p' with val := some (clampE l u x) } else p' := by
    apply mapParams_congr
    rintro ⟨n', p'⟩ hnp
    simp only
    split_ifs with he
    · subst he
      have h1 := get?_of_mem (params_names_nodup m) hm
      have h2 := get?_of_mem (params_names_nodup m) hnp
      rw [h1] at h2
      simp at h2
      rw [h2]
    · rfl
  rw [← hcongr]
  unfold newStep
  have hcl : clampFlt p.lb p.ub (some x) = some (clampE l u x) := by
    rw [hl, hu, clampFlt_some l u x hlu]
  simp only [hx, hcl]
  by_cases hn : n = "noise"
  · rw [if_pos hn]
    subst hn
    unfold GP.params at hm
    rw [List.mem_append] at hm
    rcases hm with hm | hm
    · exact absurd rfl (kernel_name hm).1
    · cases hno : m.noise with
      | null => rw [hno] at hm; simp at hm
      | heteroscedastic xs => rw [hno] at hm; simp at hm
      | homoscedastic q =>
        rw [hno] at hm
        simp at hm
        subst hm
        rw [← put_noise_eq m p _ hno]
        simp only [NoiseObj.setVal, hsv, bind, Except.bind, pure, Except.pure]
  · rw [if_neg hn]
    unfold GP.params at hm
    rw [List.mem_append] at hm
    rcases hm with hm | hm
    · rw [if_neg (kernel_name hm).2]
      rw [← put_eq m n _ hn]
      unfold Kernel.setHyper
      rw [hyperparameters_eq, get?_of_mem (kernel_names_nodup _) hm]
      simp only [hsv, bind, Except.bind, pure, Except.pure]
    · cases hno : m.noise with
      | null => rw [hno] at hm; simp at hm
      | heteroscedastic xs => rw [hno] at hm; simp at hm
      | homoscedastic q =>
        rw [hno] at hm
        simp at hm
        exact absurd hm.1 hn

/-- The loop, for any list of unfixed parameters of the model. -/
theorem newLoop_ok (env : Env) (opt : Dict Flt) (ans : String → EReal) (L : List (String × Param))
    (m : GP) (hL : (L.map Prod.fst).Nodup)
    (h : ∀ np ∈ L, np ∈ m.params ∧ np.2.fixed = false ∧
      (∃ l u : EReal, np.2.lb = some l ∧ np.2.ub = some u ∧ l ≤ u) ∧
      Dict.get? opt np.1 = some (some (ans np.1))) :
    (L.map fun np => (np.1, np.2.lb, np.2.ub)).foldlM (newStep env opt) m =
      .ok (m.mapParams fun n p => if n ∈ L.map Prod.fst then prescribed ans n p else p) := by
  induction L generalizing m with
  | nil =>
    have : (fun (n : String) (p : Param) => if n ∈ List.map Prod.fst ([] : List (String × Param)) then
        prescribed ans n p else p) = fun _ p => p := by
      funext n p; simp
    rw [this, mapParams_id]; rfl
  | cons a L ih =>
    obtain ⟨n, p⟩ := a
    obtain ⟨hm, hf, ⟨l, u, hl, hu, hlu⟩, hx⟩ := h (n, p) List.mem_cons_self
    simp only at hf hl hu hx
    simp only [List.map_cons, List.nodup_cons] at hL
    rw [List.map_cons, List.foldlM_cons, newStep_ok env opt m n p l u (ans n) hm hf hl hu hlu hx]
    show List.foldlM _ _ _ = _
    rw [ih _ hL.2]
    · rw [mapParams_comp]
      congr 1
      apply mapParams_congr
      rintro ⟨n', p'⟩ hnp
      simp only [List.map_cons, List.mem_cons]
      by_cases he : n' = n
      · subst he
        rw [if_neg hL.1, if_pos rfl, if_pos (.inl rfl)]
        have h1 := get?_of_mem (params_names_nodup m) hm
        have h2 := get?_of_mem (params_names_nodup m) hnp
        rw [h1] at h2
        simp at h2
        subst h2
        unfold prescribed
        simp [hf, hl, hu]
      · rw [if_neg he]
        by_cases hin : n' ∈ List.map Prod.fst L
        · rw [if_pos hin, if_pos (.inr hin)]
        · rw [if_neg hin, if_neg (by simp only [not_or]; exact ⟨he, hin⟩)]
    · intro np hnp
      obtain ⟨h1, h2, h3, h4⟩ := h np (List.mem_cons_of_mem _ hnp)
      refine ⟨?_, h2, h3, h4⟩
      rw [params_mapParams]
      refine List.mem_map.mpr ⟨np, h1, ?_⟩
      have hne : np.1 ≠ n := fun he => hL.1 (List.mem_map.mpr ⟨np, hnp, he⟩)
      simp [hne]

end MuyGPyS
