import Verif.Lemmas.Hyper

/-!
# C09, C12, C13: optimisation parameters and models built from an optimiser's answer
-/

namespace MuyGPyS
open Py

/-! ### C12 -/

/-- C12: for every model whose noise is not `NullNoise`, the optimisation lists exist, are parallel,
name each hyperparameter at most once, in the order length scales, smoothness, noise, contain exactly
the unfixed hyperparameters with their current values and bounds, and are empty exactly when the
model reports itself fixed. -/
theorem C12_opt_lists (m : GP) (h : m.noise ≠ .null) :
    ∃ o, m.getOptParams = .ok o ∧
      o.params.length = o.names.length ∧ o.bounds.length = o.names.length ∧
      o.names.Nodup ∧ o.names.Sublist (m.params.map Prod.fst) ∧
      (∀ (i : Nat) n v b, o.names[i]? = some n → o.params[i]? = some v → o.bounds[i]? = some b →
        ∃ p, (n, p) ∈ m.params ∧ p.fixed = false ∧ v = p.val ∧ b = (p.lb, p.ub)) ∧
      (∀ np ∈ m.params, np.2.fixed = false → np.1 ∈ o.names) ∧
      (∀ np ∈ m.params, np.2.fixed = true → np.1 ∉ o.names) ∧
      m.fixed = .ok (decide (o.names = [])) := by
  refine ⟨_, getOptParams_eq m h, ?_⟩
  rw [foldl_appendLists]
  simp only [List.nil_append, List.length_map, true_and]
  have hsub : (m.params.filter (fun np => !np.2.fixed)).Sublist m.params := List.filter_sublist
  have hnd := params_names_nodup m
  refine ⟨?_, ?_, ?_, ?_, ?_, ?_⟩
  · exact List.Nodup.sublist (hsub.map Prod.fst) hnd
  · exact hsub.map Prod.fst
  · intro i n v b hn hv hb
    rw [List.getElem?_map, Option.map_eq_some_iff] at hn hv hb
    obtain ⟨np, h1, rfl⟩ := hn
    obtain ⟨np', h2, rfl⟩ := hv
    obtain ⟨np'', h3, rfl⟩ := hb
    rw [h1] at h2 h3
    simp only [Option.some.injEq] at h2 h3
    subst h2; subst h3
    have hm := List.mem_of_getElem? h1
    rw [List.mem_filter] at hm
    exact ⟨np.2, hm.1, by simpa using hm.2, rfl, rfl⟩
  · intro np hm hf
    exact List.mem_map.mpr ⟨np, List.mem_filter.mpr ⟨hm, by simp [hf]⟩, rfl⟩
  · intro np hm hf hin
    obtain ⟨np', hm', he⟩ := List.mem_map.mp hin
    rw [List.mem_filter] at hm'
    obtain ⟨n, p⟩ := np
    obtain ⟨n', p'⟩ := np'
    simp only at he hf hm'
    subst he
    have h1 := get?_of_mem hnd hm
    have h2 := get?_of_mem hnd hm'.1
    rw [h1] at h2
    simp only [Option.some.injEq] at h2
    subst h2
    simp [hf] at hm'
  · unfold GP.fixed
    rw [hyperparameters_eq]
    have hp : (decide (List.map Prod.fst (List.filter (fun np => !np.2.fixed) m.params) = [])) =
        m.params.all (fun np => np.2.fixed) := by
      rw [Bool.eq_iff_iff, decide_eq_true_iff, List.map_eq_nil_iff, List.filter_eq_nil_iff, List.all_eq_true]
      constructor
      · intro hh np hnp
        have := hh np hnp
        simpa using this
      · intro hh np hnp
        simp [hh np hnp]
    rw [hp]
    unfold GP.params
    rw [List.all_append]
    cases hk : m.kernel.named.all (fun np => np.2.fixed) with
    | false => simp [pure, Except.pure]
    | true =>
      simp only [if_true, Bool.true_and]
      cases hn : m.noise with
      | null => exact absurd hn h
      | homoscedastic p => simp [NoiseObj.fixed, bind, Except.bind, pure, Except.pure]
      | heteroscedastic xs => simp [NoiseObj.fixed, bind, Except.bind, pure, Except.pure]

/-- C12 fails in the code for `NullNoise`: the lists cannot be produced at all, and a model whose
kernel is fixed cannot be asked whether it is fixed. -/
theorem C12_null_noise_fails (m : GP) (h : m.noise = .null) :
    m.getOptParams = .error .notImplemented ∧
      ((∀ np ∈ m.kernel.named, np.2.fixed = true) → m.fixed = .error .attribute) := by
  constructor
  · unfold GP.getOptParams; rw [h]; rfl
  · intro hf
    unfold GP.fixed
    rw [hyperparameters_eq, if_pos (List.all_eq_true.mpr hf), h]
    rfl

/-- A model with two anisotropic length scales (one free), a free smoothness and a free noise. -/
noncomputable def exGP : GP where
  kernel := ⟨.vector [⟨Flt.fin 1, Flt.fin 0, Flt.fin 0, true⟩, ⟨Flt.fin 2, Flt.fin 1, Flt.fin 3, false⟩],
    some ⟨Flt.fin 0.5, Flt.fin 0.1, Flt.fin 4, false⟩⟩
  noise := .homoscedastic ⟨Flt.fin 0.1, Flt.fin 0, Flt.fin 1, false⟩
  scale := [Flt.fin 1]

/-- Non-vacuity of C12: the lists of the example model. -/
example : ∃ o, exGP.getOptParams = .ok o ∧ o.names = ["length_scale1", "smoothness", "noise"] := by
  refine ⟨_, getOptParams_eq exGP (by simp [exGP]), ?_⟩
  rw [foldl_appendLists]
  simp [exGP, GP.params, Kernel.named, LenScale.named, namedFrom, vecName]
  decide

/-! ### C13 -/

/-- C13: for every model (noise other than `NullNoise`) with sane hyperparameters and every NaN-free
answer to all of its unfixed hyperparameters — inside the bounds or not — the resulting model is the
input model with each unfixed hyperparameter set to its answer clamped into its bounds, and nothing
else changed. -/
theorem C13_model_from_answer (env : Env) (m : GP) (ans : String → EReal) (opt : Dict Flt)
    (h : m.noise ≠ .null) (hs : ∀ np ∈ m.params, np.2.WithinTolerance)
    (hopt : ∀ np ∈ m.params, np.2.fixed = false → Dict.get? opt np.1 = some (some (ans np.1))) :
    modelFromAnswer env m opt = .ok (m.mapParams (prescribed ans)) := by
  unfold modelFromAnswer
  rw [getOptParams_eq m h, foldl_appendLists]
  simp only [bind, Except.bind, List.nil_append]
  unfold newMuygps
  have hz : ∀ l : List (String × Param),
      (l.map Prod.fst).zip (l.map (fun np => (np.2.lb, np.2.ub))) =
        l.map (fun np => (np.1, np.2.lb, np.2.ub)) := by
    intro l; induction l with
    | nil => rfl
    | cons a l ih => simp only [List.map_cons, List.zip_cons_cons, ih]
  rw [hz]
  have hsub : (m.params.filter (fun np => !np.2.fixed)).Sublist m.params := List.filter_sublist
  rw [newLoop_ok env opt ans _ m (List.Nodup.sublist (hsub.map Prod.fst) (params_names_nodup m))]
  · congr 1
    apply mapParams_congr
    rintro ⟨n, p⟩ hnp
    simp only
    by_cases hin : n ∈ List.map Prod.fst (m.params.filter (fun np => !np.2.fixed))
    · rw [if_pos hin]
    · rw [if_neg hin]
      have hf : p.fixed = true := by
        by_contra hf
        exact hin (List.mem_map.mpr ⟨(n, p), List.mem_filter.mpr ⟨hnp, by simpa using hf⟩, rfl⟩)
      unfold prescribed
      rw [if_pos hf]
  · intro np hnp
    rw [List.mem_filter] at hnp
    have hf : np.2.fixed = false := by simpa using hnp.2
    refine ⟨hnp.1, hf, ?_, hopt np hnp.1 hf⟩
    rcases hs np hnp.1 with h1 | ⟨v, l, u, _, hl, hu, hlu, _, _⟩
    · rw [hf] at h1; simp at h1
    · exact ⟨l, u, hl, hu, hlu⟩

/-- C13: every unfixed hyperparameter of the resulting model lies inside its (unchanged) bounds, with
no tolerance, and equals the answer when the answer is inside. -/
theorem C13_in_bounds (env : Env) (m : GP) (ans : String → EReal) (opt : Dict Flt)
    (h : m.noise ≠ .null) (hs : ∀ np ∈ m.params, np.2.WithinTolerance)
    (hopt : ∀ np ∈ m.params, np.2.fixed = false → Dict.get? opt np.1 = some (some (ans np.1))) :
    ∃ m', modelFromAnswer env m opt = .ok m' ∧ m'.scale = m.scale ∧
      m'.params.map Prod.fst = m.params.map Prod.fst ∧
      ∀ n p', (n, p') ∈ m'.params → ∃ p, (n, p) ∈ m.params ∧ p'.fixed = p.fixed ∧
        p'.lb = p.lb ∧ p'.ub = p.ub ∧
        (p.fixed = true → p' = p) ∧
        (p.fixed = false → ∃ v l u : EReal, p'.val = some v ∧ p.lb = some l ∧ p.ub = some u ∧
          l ≤ v ∧ v ≤ u ∧ (l ≤ ans n → ans n ≤ u → v = ans n) ∧ (ans n < l → v = l) ∧
          (u < ans n → v = u)) := by
  refine ⟨_, C13_model_from_answer env m ans opt h hs hopt, rfl, ?_, ?_⟩
  · rw [params_mapParams, List.map_map]; rfl
  · intro n p' hp'
    rw [params_mapParams] at hp'
    obtain ⟨np, hnp, he⟩ := List.mem_map.mp hp'
    obtain ⟨n0, p⟩ := np
    simp only [Prod.mk.injEq] at he
    obtain ⟨rfl, rfl⟩ := he
    refine ⟨p, hnp, ?_⟩
    cases hf : p.fixed with
    | true => unfold prescribed; simp [hf]
    | false =>
      rcases hs _ hnp with h1 | ⟨v, l, u, _, hl, hu, hlu, _, _⟩
      · simp only at h1; rw [hf] at h1; simp at h1
      · simp only at hl hu
        have : prescribed ans n0 p = { p with val := some (clampE l u (ans n0)) } := by
          unfold prescribed
          simp [hf, hl, hu]
        rw [this]
        refine ⟨hf, rfl, rfl, by simp, fun _ => ⟨_, l, u, rfl, hl, hu, (clampE_mem l u _ hlu).1,
          (clampE_mem l u _ hlu).2, clampE_idem l u _ hlu, ?_, ?_⟩⟩
        · intro hlt; unfold clampE; rw [min_eq_left (le_trans hlt.le hlu), max_eq_left hlt.le]
        · intro hlt; unfold clampE; rw [min_eq_right hlt.le, max_eq_right hlu]

/-- C13: applying the same answer to the resulting model changes nothing. -/
theorem C13_idempotent (env : Env) (m m' : GP) (ans : String → EReal) (opt : Dict Flt)
    (h : m.noise ≠ .null) (hs : ∀ np ∈ m.params, np.2.WithinTolerance)
    (hopt : ∀ np ∈ m.params, np.2.fixed = false → Dict.get? opt np.1 = some (some (ans np.1)))
    (hm : modelFromAnswer env m opt = .ok m') : modelFromAnswer env m' opt = .ok m' := by
  rw [C13_model_from_answer env m ans opt h hs hopt] at hm
  simp only [Except.ok.injEq] at hm
  subst hm
  have hpre : ∀ np ∈ m.params, (prescribed ans np.1 np.2).WithinTolerance ∧
      ((prescribed ans np.1 np.2).fixed = np.2.fixed) := by
    rintro ⟨n, p⟩ hnp
    cases hf : p.fixed with
    | true => exact ⟨.inl (by unfold prescribed; simp [hf]), by unfold prescribed; simp [hf]⟩
    | false =>
      rcases hs _ hnp with h1 | ⟨v, l, u, _, hl, hu, hlu, _, _⟩
      · simp only at h1; rw [hf] at h1; simp at h1
      · simp only at hl hu
        have he : prescribed ans n p = { p with val := some (clampE l u (ans n)) } := by
          unfold prescribed
          simp [hf, hl, hu]
        have hc := clampE_mem l u (ans n) hlu
        refine ⟨.inr ⟨clampE l u (ans n), l, u, by simp [he], by simp [he, hl], by simp [he, hu], hlu, ?_, ?_⟩,
          by simp [he, hf]⟩
        · calc l + ((-(1e-5) : ℝ) : EReal) ≤ l + 0 := by
                apply add_le_add_right; exact_mod_cast (by norm_num : (-(1e-5) : ℝ) ≤ 0)
            _ = l := add_zero l
            _ ≤ _ := hc.1
        · calc clampE l u (ans n) ≤ u := hc.2
            _ = u + 0 := (add_zero u).symm
            _ ≤ _ := by apply add_le_add_right; exact_mod_cast (by norm_num : (0 : ℝ) ≤ 1e-5)
  rw [C13_model_from_answer env _ ans opt]
  · congr 1
    rw [mapParams_comp]
    apply mapParams_congr
    rintro ⟨n, p⟩ hnp
    simp only
    cases hf : p.fixed with
    | true => unfold prescribed; simp [hf]
    | false =>
      rcases hs _ hnp with h1 | ⟨v, l, u, _, hl, hu, hlu, _, _⟩
      · simp only at h1; rw [hf] at h1; simp at h1
      · simp only at hl hu
        unfold prescribed
        simp [hf, hl, hu]
  · unfold GP.mapParams
    cases hn : m.noise with
    | null => exact absurd hn h
    | homoscedastic p => simp
    | heteroscedastic xs => simp
  · intro np hnp
    rw [params_mapParams] at hnp
    obtain ⟨np', h1, rfl⟩ := List.mem_map.mp hnp
    exact (hpre np' h1).1
  · intro np hnp hf
    rw [params_mapParams] at hnp
    obtain ⟨np', h1, rfl⟩ := List.mem_map.mp hnp
    simp only at hf ⊢
    rw [(hpre np' h1).2] at hf
    exact hopt np' h1 hf

/-- Non-vacuity of C13: the example model is sane, and an answer with values below, inside and above
the bounds gives the clamped values. -/
example (env : Env) : ∃ m', modelFromAnswer env exGP
      [("smoothness", Flt.fin 2), ("noise", Flt.fin 9), ("length_scale1", Flt.fin 0)] = .ok m' ∧
    m'.params.map (fun np => (np.1, np.2.val)) =
      [("length_scale0", Flt.fin 1), ("length_scale1", Flt.fin 1), ("smoothness", Flt.fin 2),
        ("noise", Flt.fin 1)] := by
  have hpar : exGP.params = [("length_scale0", ⟨Flt.fin 1, Flt.fin 0, Flt.fin 0, true⟩),
      ("length_scale1", ⟨Flt.fin 2, Flt.fin 1, Flt.fin 3, false⟩),
      ("smoothness", ⟨Flt.fin 0.5, Flt.fin 0.1, Flt.fin 4, false⟩),
      ("noise", ⟨Flt.fin 0.1, Flt.fin 0, Flt.fin 1, false⟩)] := by
    have h0 : vecName "length_scale" 0 = "length_scale0" := by decide
    have h1 : vecName "length_scale" 1 = "length_scale1" := by decide
    simp [exGP, GP.params, Kernel.named, LenScale.named, namedFrom, h0, h1]
  let ans : String → EReal := fun n =>
    if n = "smoothness" then (2 : ℝ) else if n = "noise" then (9 : ℝ) else (0 : ℝ)
  have tol : ∀ v l u : ℝ, l ≤ u → l ≤ v → v ≤ u →
      (⟨Flt.fin v, Flt.fin l, Flt.fin u, false⟩ : Param).WithinTolerance := by
    intro v l u h1 h2 h3
    refine .inr ⟨v, l, u, rfl, rfl, rfl, by exact_mod_cast h1, ?_, ?_⟩
    · rw [← EReal.coe_add, EReal.coe_le_coe_iff]; linarith [show (0:ℝ) < 1e-5 by norm_num]
    · rw [← EReal.coe_add, EReal.coe_le_coe_iff]; linarith [show (0:ℝ) < 1e-5 by norm_num]
  refine ⟨_, C13_model_from_answer env exGP ans _ (by simp [exGP]) ?_ ?_, ?_⟩
  · intro np hnp
    rw [hpar] at hnp
    simp only [List.mem_cons, List.not_mem_nil, or_false] at hnp
    rcases hnp with rfl | rfl | rfl | rfl
    · exact .inl rfl
    · exact tol _ _ _ (by norm_num) (by norm_num) (by norm_num)
    · exact tol _ _ _ (by norm_num) (by norm_num) (by norm_num)
    · exact tol _ _ _ (by norm_num) (by norm_num) (by norm_num)
  · intro np hnp hf
    rw [hpar] at hnp
    simp only [List.mem_cons, List.not_mem_nil, or_false] at hnp
    rcases hnp with rfl | rfl | rfl | rfl
    · simp at hf
    · simp [Dict.get?, ans, Flt.fin]
    · simp [Dict.get?, ans, Flt.fin]
    · simp [Dict.get?, ans, Flt.fin]
  · rw [params_mapParams, hpar]
    have c1 : ∀ l u x : ℝ, clampE l u x = ((max l (min x u) : ℝ) : EReal) := by
      intro l u x; unfold clampE; push_cast; rfl
    simp only [List.map_cons, List.map_nil, prescribed, Flt.fin, ans]
    have e1 : max (1:ℝ) (min 0 3) = 1 := by norm_num
    have e2 : max (0.1:ℝ) (min 2 4) = 2 := by norm_num
    have e3 : max (0:ℝ) (min 9 1) = 1 := by norm_num
    simp only [Bool.false_eq_true, if_false, if_true, c1,
      show ("length_scale1" = "smoothness") = False from by simp,
      show ("length_scale1" = "noise") = False from by simp,
      show ("noise" = "smoothness") = False from by simp, e1, e2, e3]

/-- C13 fails in the code for a NaN answer: neither comparison of the clamp nor the range check of
`_set_val` fires, and the model is built with a NaN hyperparameter. -/
theorem C13_nan_answer_stored (env : Env) (l u v : ℝ) :
    let m : GP := ⟨⟨.scalar ⟨Flt.fin v, Flt.fin l, Flt.fin u, false⟩, none⟩, .heteroscedastic [], []⟩
    modelFromAnswer env m [("length_scale", none)] =
      .ok ⟨⟨.scalar ⟨none, Flt.fin l, Flt.fin u, false⟩, none⟩, .heteroscedastic [], []⟩ := by
  intro m
  have hk : ¬ hasKnot "length_scale" := fun h =>
    (by decide : 'k' ∉ "length_scale".toList) (hasKnot_mem h)
  have hc : clampFlt (Flt.fin l) (Flt.fin u) none = none := by
    unfold clampFlt
    simp [Flt.not_lt_nan_left, Flt.not_lt_nan_right]
  have hr : checkRange (Flt.fin l) (Flt.fin u) false none = .ok none := by
    unfold checkRange
    simp [Flt.not_lt_nan_left, Flt.not_lt_nan_right]
  have ho : m.getOptParams = .ok ⟨["length_scale"], [Flt.fin v], [(Flt.fin l, Flt.fin u)]⟩ := by
    rw [getOptParams_eq m (by simp [m]), foldl_appendLists]
    simp [m, GP.params, Kernel.named, LenScale.named]
  unfold modelFromAnswer
  rw [ho]
  simp only [bind, Except.bind]
  unfold newMuygps
  simp only [List.zip_cons_cons, List.zip_nil_right, List.foldlM_cons, List.foldlM_nil]
  unfold newStep
  simp only [Dict.get?, List.find?_cons_of_pos, beq_self_eq_true, Option.map_some, hc]
  rw [if_neg (by decide), if_neg hk]
  unfold Kernel.setHyper
  rw [hyperparameters_eq]
  simp [m, Kernel.named, LenScale.named, Dict.get?, Param.setVal, checkVal, hr, bind, Except.bind,
    pure, Except.pure, Kernel.put]

/-! ### C09 -/

/-- Frame of one iteration: whatever the answer, only the parameter called `key` can change. -/
theorem newStep_frame {env : Env} {opt : Dict Flt} {m m' : GP} {kb : String × Flt × Flt}
    (h : newStep env opt m kb = .ok m') :
    m'.scale = m.scale ∧ m'.params.map Prod.fst = m.params.map Prod.fst ∧
      ∀ np ∈ m.params, np.1 ≠ kb.1 → np ∈ m'.params := by
  obtain ⟨key, lb, ub⟩ := kb
  have frame : ∀ q : Param, ∀ m'' : GP,
      m'' = m.mapParams (fun n p => if n = key then q else p) →
      m''.scale = m.scale ∧ m''.params.map Prod.fst = m.params.map Prod.fst ∧
        ∀ np ∈ m.params, np.1 ≠ key → np ∈ m''.params := by
    rintro q m'' rfl
    refine ⟨rfl, ?_, ?_⟩
    · rw [params_mapParams, List.map_map]; rfl
    · intro np hnp hne
      rw [params_mapParams]
      exact List.mem_map.mpr ⟨np, hnp, by simp [hne]⟩
  unfold newStep at h
  simp only at h
  cases hx : Dict.get? opt key with
  | none => rw [hx] at h; simp at h
  | some v =>
    rw [hx] at h
    simp only at h
    split_ifs at h with h1 h2
    · subst h1
      cases hn : m.noise with
      | null => rw [hn] at h; simp [NoiseObj.setVal, bind, Except.bind] at h
      | heteroscedastic xs => rw [hn] at h; simp [NoiseObj.setVal, bind, Except.bind] at h
      | homoscedastic p =>
        rw [hn] at h
        simp only [NoiseObj.setVal, bind, Except.bind] at h
        cases hq : p.setVal env (.num (clampFlt lb ub v)) with
        | error e => rw [hq] at h; simp at h
        | ok q =>
          rw [hq] at h
          simp only [pure, Except.pure, Except.ok.injEq] at h
          exact frame q m' (by rw [← h, ← put_noise_eq m p q hn])
    · unfold Kernel.setHyper at h
      cases hg : Dict.get? m.kernel.hyperparameters key with
      | none => rw [hg] at h; simp [bind, Except.bind] at h
      | some p =>
        rw [hg] at h
        simp only [bind, Except.bind] at h
        cases hq : p.setVal env (.num (clampFlt lb ub v)) with
        | error e => rw [hq] at h; simp at h
        | ok q =>
          rw [hq] at h
          simp only [pure, Except.pure, Except.ok.injEq] at h
          exact frame q m' (by rw [← h, ← put_eq m key q h1])

/-- C09: a fixed hyperparameter never appears in the optimisation vectors, and no optimiser answer
whatsoever (NaN, infinite, incomplete or naming other parameters) changes its value, its bounds or its
status; names, number of hyperparameters and variance scale stay as they were. -/
theorem C09_fixed_untouched (env : Env) (m m' : GP) (opt : Dict Flt)
    (h : modelFromAnswer env m opt = .ok m') :
    (∀ np ∈ m.params, np.2.fixed = true → np ∈ m'.params) ∧
      m'.params.map Prod.fst = m.params.map Prod.fst ∧ m'.scale = m.scale ∧
      ∃ o, m.getOptParams = .ok o ∧ ∀ np ∈ m.params, np.2.fixed = true → np.1 ∉ o.names := by
  have hnull : m.noise ≠ .null := by
    intro hn
    unfold modelFromAnswer at h
    rw [(C12_null_noise_fails m hn).1] at h
    simp [bind, Except.bind] at h
  obtain ⟨o, ho, _, _, _, _, _, _, hfix, _⟩ := C12_opt_lists m hnull
  have key : ∀ (kbs : List (String × Flt × Flt)) (a b : GP),
      kbs.foldlM (newStep env opt) a = .ok b →
      b.scale = a.scale ∧ b.params.map Prod.fst = a.params.map Prod.fst ∧
        ∀ np ∈ a.params, np.1 ∉ kbs.map Prod.fst → np ∈ b.params := by
    intro kbs
    induction kbs with
    | nil =>
      intro a b hab
      simp [pure, Except.pure] at hab
      subst hab
      exact ⟨rfl, rfl, fun np hnp _ => hnp⟩
    | cons kb kbs ih =>
      intro a b hab
      rw [List.foldlM_cons] at hab
      cases hc : newStep env opt a kb with
      | error e => rw [hc] at hab; simp [bind, Except.bind] at hab
      | ok c =>
        rw [hc] at hab
        obtain ⟨f1, f2, f3⟩ := newStep_frame hc
        obtain ⟨g1, g2, g3⟩ := ih c b hab
        refine ⟨g1.trans f1, g2.trans f2, fun np hnp hni => ?_⟩
        simp only [List.map_cons, List.mem_cons, not_or] at hni
        exact g3 np (f3 np hnp hni.1) hni.2
  unfold modelFromAnswer at h
  rw [ho] at h
  simp only [bind, Except.bind] at h
  obtain ⟨h1, h2, h3⟩ := key _ _ _ h
  refine ⟨fun np hnp hf => h3 np hnp ?_, h2, h1, o, ho, hfix⟩
  intro hin
  apply hfix np hnp hf
  obtain ⟨kb, hkb, he⟩ := List.mem_map.mp hin
  obtain ⟨k1, k2⟩ := kb
  simp only at he
  subst he
  exact (List.of_mem_zip hkb).1

end MuyGPyS
