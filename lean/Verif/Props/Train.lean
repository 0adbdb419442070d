import Verif.Spec.Train
import Verif.Props.Hyper
import Verif.Props.Objective
import Verif.Props.BayesOpt

/-! # C60: an optimised model scores what the optimiser saw, never worse than before -/

namespace MuyGPyS
open Py

theorem get?_none_of_not_mem {β : Type} {d : Dict β} {n : String} (h : n ∉ d.map Prod.fst) : Dict.get? d n = none := by
  unfold Dict.get?
  rw [List.find?_eq_none.mpr]
  · rfl
  · intro x hx he
    exact h (List.mem_map.mpr ⟨x, hx, by simpa using he⟩)

theorem mapNamed_overrideFrom (kw : Dict Flt) (i : Nat) (ps : List Param) :
    mapNamed "length_scale" (fun n p => p.overridden kw n) i ps = overrideFrom kw i ps := by
  induction ps generalizing i with
  | nil => rfl
  | cons p ps ih => simp [mapNamed, overrideFrom, ih]

theorem freeNames_nodup (L : Learner) : L.freeNames.Nodup :=
  ((List.filter_sublist (p := fun np : String × Param => !np.2.fixed) (l := L.gp.params)).map Prod.fst).nodup
    (params_names_nodup L.gp)

theorem fixed_not_free (L : Learner) {np : String × Param} (h : np ∈ L.gp.params) (hf : np.2.fixed = true) :
    np.1 ∉ L.freeNames := by
  intro hm
  obtain ⟨np', hm', he⟩ := List.mem_map.mp hm
  obtain ⟨h1, h2⟩ := List.mem_filter.mp hm'
  have e1 := get?_of_mem (params_names_nodup L.gp) h
  have e2 := get?_of_mem (params_names_nodup L.gp) h1
  rw [he, e1] at e2
  have : np.2 = np'.2 := by simpa using e2
  rw [this] at hf
  simp [hf] at h2

theorem inBounds_tolerance {L : Learner} (h : L.InBounds) : ∀ np ∈ L.gp.params, np.2.WithinTolerance := by
  intro np hnp
  cases hf : np.2.fixed with
  | true => exact .inl hf
  | false =>
    obtain ⟨x, l, u, h1, h2, h3, h4, h5⟩ := h np hnp hf
    refine .inr ⟨x, l, u, h1, h2, h3, h4.trans h5, ?_, ?_⟩
    · calc l + ((-(1e-5) : ℝ) : EReal) ≤ l + 0 := by
            apply add_le_add_right; exact_mod_cast (by norm_num : (-(1e-5) : ℝ) ≤ 0)
        _ = l := add_zero l
        _ ≤ _ := h4
    · calc x ≤ u := h5
        _ = u + 0 := (add_zero u).symm
        _ ≤ _ := by apply add_le_add_right; exact_mod_cast (by norm_num : (0 : ℝ) ≤ 1e-5)

/-- The hyperparameters after a feasible answer: every one holds the value in force under the answer. -/
theorem newMuygps_feasible (env : Env) (L : Learner) (hn : L.noise ≠ .null) (hb : L.InBounds) (kw : Dict Flt)
    (hf : L.Feasible kw) :
    ∃ o, L.gp.getOptParams = .ok o ∧ o.names = L.freeNames ∧
      newMuygps env L.gp o.names o.bounds kw = .ok (L.gp.mapParams fun n p => p.overridden kw n) := by
  obtain ⟨o, ho⟩ : ∃ o, L.gp.getOptParams = .ok o := ⟨_, getOptParams_eq L.gp hn⟩
  have hnames : o.names = L.freeNames := by
    rw [getOptParams_eq L.gp hn, foldl_appendLists] at ho
    simp only [List.nil_append, Except.ok.injEq] at ho
    rw [← ho]; rfl
  refine ⟨o, ho, hnames, ?_⟩
  have h := C13_model_from_answer env L.gp (fun n => ((Dict.get? kw n).getD none).getD 0) kw hn (inBounds_tolerance hb)
    (fun np hnp hfx => by
      obtain ⟨v, h1, x, l, u, rfl, _⟩ := hf.2 np hnp hfx
      rw [h1]; rfl)
  unfold modelFromAnswer at h
  rw [ho] at h
  refine h.trans ?_
  congr 1
  apply mapParams_congr
  rintro ⟨n, p⟩ hnp
  simp only
  cases hfx : p.fixed with
  | true =>
    have : Dict.get? kw n = none := get?_none_of_not_mem fun hm => fixed_not_free L hnp hfx (hf.1.mem_iff.mp hm)
    unfold prescribed Param.overridden inForce
    obtain ⟨a, b, c, d⟩ := p
    simp only at hfx
    subst hfx
    simp [this]
  | false =>
    obtain ⟨v, h1, x, l, u, rfl, h2, h3, h4, h5⟩ := hf.2 _ hnp hfx
    simp only at h1 h2 h3
    unfold prescribed Param.overridden inForce
    simp only [hfx, Bool.false_eq_true, if_false, h2, h3, h1, Option.getD_some]
    rw [clampE_idem l u x (h4.trans h5) h4 h5]

/-- **The returned model is the trial model**: writing a feasible answer into a model gives the model the objective evaluated. -/
theorem newLearner_trial (env : Env) (L : Learner) (hn : L.noise ≠ .null) (hb : L.InBounds) (hs : L.boundScale = L.scale)
    (kw : Dict Flt) (hf : L.Feasible kw) :
    ∃ o L', L.gp.getOptParams = .ok o ∧ o.names = L.freeNames ∧ newLearner env L o.names o.bounds kw = .ok L' ∧
      L'.trainee = L.trainee.trial kw ∧ L'.Made ∧ L'.InBounds ∧ L'.scale = L.scale ∧
      L'.gp = L.gp.mapParams (fun n p => p.overridden kw n) ∧
      L' = ({ L with kernel := L'.kernel, noise := L'.noise } : Learner).make := by
  obtain ⟨o, ho, hnames, hnew⟩ := newMuygps_feasible env L hn hb kw hf
  let g := L.gp.mapParams fun n p => p.overridden kw n
  refine ⟨o, ({ L with kernel := g.kernel, noise := g.noise } : Learner).make, ho, hnames,
    by unfold newLearner; rw [hnew]; rfl, ?_, ?_, ?_, rfl, rfl, rfl⟩
  · unfold Learner.trainee Trainee.trial
    simp only [g, Learner.make, KernelObj.make, KernelObj.overridden, GP.mapParams, Learner.gp, Learner.deform]
    congr 1
    congr 1
    · cases hl : L.kernel.ls with
      | scalar p =>
        cases hd : L.difference <;> simp <;> rfl
      | vector ps => simp [mapNamed_overrideFrom]; rfl
    · rw [hs]
      congr 1
      cases hno : L.noise with
      | null => exact absurd hno hn
      | homoscedastic p =>
        simp only [NoiseObj.noise, Noise.trial, Param.overridden, inForce]
        cases Dict.get? kw "noise" <;> rfl
      | heteroscedastic xs => rfl
  · rfl
  · intro np hnp hfx
    have hnp' : np ∈ (L.gp.mapParams fun n p => p.overridden kw n).params := hnp
    rw [params_mapParams] at hnp'
    obtain ⟨np', h1, rfl⟩ := List.mem_map.mp hnp'
    obtain ⟨v, h2, h3⟩ := hf.2 np' h1 hfx
    show Param.Allows _ (inForce kw np'.1 np'.2)
    unfold inForce
    rw [h2]
    exact h3

/-! ## Accepted keywords -/

theorem free_name_cases (L : Learner) {n : String} (h : n ∈ L.freeNames) :
    n = "noise" ∨ n = "smoothness" ∨ n = "length_scale" ∨ ∃ i, n = vecName "length_scale" i := by
  obtain ⟨np, hm, rfl⟩ := List.mem_map.mp h
  have hm := (List.mem_filter.mp hm).1
  unfold GP.params at hm
  rcases List.mem_append.mp hm with hk | hn
  · unfold Kernel.named at hk
    rcases List.mem_append.mp hk with hl | hs
    · cases hls : L.gp.kernel.ls with
      | scalar p =>
        rw [hls] at hl
        simp only [LenScale.named, List.mem_singleton] at hl
        subst hl
        exact .inr (.inr (.inl rfl))
      | vector ps =>
        rw [hls] at hl
        obtain ⟨j, _, h2⟩ := mem_namedFrom hl
        exact .inr (.inr (.inr ⟨j, h2⟩))
    · cases hsm : L.gp.kernel.smoothness with
      | none => rw [hsm] at hs; simp at hs
      | some p => rw [hsm] at hs; simp at hs; subst hs; exact .inr (.inl rfl)
  · cases hno : L.gp.noise with
    | null => rw [hno] at hn; simp at hn
    | homoscedastic p => rw [hno] at hn; simp at hn; subst hn; exact .inl rfl
    | heteroscedastic xs => rw [hno] at hn; simp at hn

theorem vecName_reserved (i : Nat) : vecName "length_scale" i ≠ "self" ∧ vecName "length_scale" i ≠ "diffs" ∧
    vecName "length_scale" i ≠ "dists" ∧ vecName "length_scale" i ≠ "squared_dists" :=
  ⟨vecName_ne_of_head (by decide), vecName_ne_of_head (by decide), vecName_ne_of_head (by decide),
    vecName_ne_of_head (by decide)⟩

theorem feasible_unreserved {L : Learner} {kw : Dict Flt} (h : L.Feasible kw) : Unreserved kw := by
  intro a ha
  rcases free_name_cases L (h.1.mem_iff.mp (List.mem_map.mpr ⟨a, ha, rfl⟩)) with e | e | e | ⟨i, e⟩
  · rw [e]; decide
  · rw [e]; decide
  · rw [e]; decide
  · rw [e]; exact vecName_reserved i

/-- A feasible answer is accepted by the kernel if its anisotropic length scales come in order. -/
theorem accepts_of_feasible {L : Learner} {kw : Dict Flt} (h : L.Feasible kw)
    (ha : ∀ ps, L.kernel.ls = .vector ps → ∃ n ≤ ps.length,
      (kw.filter fun a => startsLS a.1).map Prod.fst = (List.range n).map fun i => vecName "length_scale" i) :
    L.trainee.R.kernel.Accepts kw := by
  refine ⟨feasible_unreserved h, ?_, ?_⟩
  · intro p hp
    cases hf : p.fixed with
    | false => exact .inl rfl
    | true =>
      right
      apply get?_none_of_not_mem
      intro hm
      have hp' : L.kernel.smoothness = some p := hp
      refine fixed_not_free L (np := ("smoothness", p)) ?_ hf (h.1.mem_iff.mp hm)
      unfold GP.params Kernel.named
      simp [Learner.gp, hp']
  · have hd : L.trainee.R.kernel.deform = L.deform := rfl
    rw [hd]
    unfold Learner.deform
    cases hl : L.kernel.ls with
    | scalar p => cases L.difference <;> trivial
    | vector ps => exact ⟨h.1.nodup_iff.mpr (freeNames_nodup L), ha ps hl⟩

/-- The anisotropic length scales among the free names. -/
theorem freeNames_startsLS (L : Learner) (ps : List Param) (hl : L.kernel.ls = .vector ps) :
    L.freeNames.filter startsLS = ((namedFrom "length_scale" 0 ps).filter fun np => !np.2.fixed).map Prod.fst := by
  have e : L.freeNames = ((namedFrom "length_scale" 0 ps).filter fun np => !np.2.fixed).map Prod.fst ++
      (((L.kernel.smoothness.map fun p => ("smoothness", p)).toList ++
        (match L.noise with | .homoscedastic p => [("noise", p)] | _ => [])).filter fun np => !np.2.fixed).map Prod.fst := by
    unfold Learner.freeNames GP.params Kernel.named
    simp only [Learner.gp, hl, LenScale.named, List.append_assoc, List.filter_append, List.map_append]
    rfl
  rw [e, List.filter_append]
  have h1 : (((namedFrom "length_scale" 0 ps).filter fun np => !np.2.fixed).map Prod.fst).filter startsLS =
      ((namedFrom "length_scale" 0 ps).filter fun np => !np.2.fixed).map Prod.fst := by
    rw [List.filter_eq_self]
    intro a ha
    obtain ⟨np, hm, rfl⟩ := List.mem_map.mp ha
    obtain ⟨j, _, h2⟩ := mem_namedFrom (List.mem_filter.mp hm).1
    rw [h2]
    exact startsLS_vecName j
  have h2 : ((((L.kernel.smoothness.map fun p => ("smoothness", p)).toList ++
        (match L.noise with | .homoscedastic p => [("noise", p)] | _ => [])).filter
          fun np => !np.2.fixed).map Prod.fst).filter startsLS = [] := by
    rw [List.filter_eq_nil_iff]
    intro a ha
    obtain ⟨np, hm, rfl⟩ := List.mem_map.mp ha
    rcases List.mem_append.mp (List.mem_filter.mp hm).1 with h | h
    · cases hs : L.kernel.smoothness with
      | none => rw [hs] at h; simp at h
      | some p => rw [hs] at h; simp at h; subst h; exact (by decide : ¬ startsLS "smoothness" = true)
    · cases hn : L.noise with
      | null => rw [hn] at h; simp at h
      | homoscedastic p => rw [hn] at h; simp at h; subst h; exact (by decide : ¬ startsLS "noise" = true)
      | heteroscedastic xs => rw [hn] at h; simp at h
  rw [h1, h2, List.append_nil]

theorem namedFrom_free_prefix (n : Nat) : ∀ (i : Nat) (ps : List Param), n ≤ ps.length →
    (∀ (j : Nat) p, ps[j]? = some p → (p.fixed = false ↔ j < n)) →
    ((namedFrom "length_scale" i ps).filter fun np => !np.2.fixed).map Prod.fst =
      (List.range n).map fun j => vecName "length_scale" (i + j) := by
  induction n with
  | zero =>
    intro i ps _ h
    simp only [List.range_zero, List.map_nil, List.map_eq_nil_iff, List.filter_eq_nil_iff]
    intro np hnp
    have hm : np.2 ∈ (namedFrom "length_scale" i ps).map Prod.snd := List.mem_map.mpr ⟨np, hnp, rfl⟩
    have hsnd : (namedFrom "length_scale" i ps).map Prod.snd = ps := by
      clear h hnp hm
      induction ps generalizing i with
      | nil => rfl
      | cons p ps ih => simp [namedFrom, ih]
    rw [hsnd] at hm
    obtain ⟨j, hj⟩ := List.getElem?_of_mem hm
    have := h j _ hj
    simp at this
    simp [this]
  | succ n ih =>
    intro i ps hn h
    cases ps with
    | nil => simp at hn
    | cons p ps =>
      have hp : p.fixed = false := (h 0 p rfl).mpr (by omega)
      rw [namedFrom, List.filter_cons_of_pos (by simp [hp]), List.map_cons, ih (i + 1) ps (by simpa using hn)
        (fun j q hq => by
          have := h (j + 1) q (by simpa using hq)
          rw [this]; omega)]
      rw [List.range_succ_eq_map]
      simp [Function.comp_def, Nat.add_assoc, Nat.add_comm 1]

/-- The scipy driver passes the free hyperparameters in the order of the model. -/
theorem accepts_in_order {L : Learner} {x : List Flt} (hx : x.length = L.freeNames.length)
    (h : L.Feasible (L.freeNames.zip x)) (hfree : L.FreeFirst) : L.trainee.R.kernel.Accepts (L.freeNames.zip x) := by
  refine accepts_of_feasible h fun ps hl => ?_
  obtain ⟨n, hn, hp⟩ := hfree ps hl
  refine ⟨n, hn, ?_⟩
  have e : ((L.freeNames.zip x).filter fun a => startsLS a.1).map Prod.fst = L.freeNames.filter startsLS := by
    conv_rhs => rw [← List.map_fst_zip (l₁ := L.freeNames) (l₂ := x) (by omega), List.filter_map]
    rfl
  rw [e, freeNames_startsLS L ps hl, namedFrom_free_prefix n 0 ps hn hp]
  simp

theorem sortedKeys_perm (l : List String) : (sortedKeys l).Perm l := List.perm_insertionSort _ _

theorem sortedKeys_sorted (l : List String) : (sortedKeys l).Pairwise fun a b => a.toList ≤ b.toList :=
  List.pairwise_insertionSort _ _

/-- The first ten anisotropic length scales are in lexicographic order. -/
theorem ten_sorted (n : Nat) (hn : n ≤ 10) :
    ((List.range n).map fun i => vecName "length_scale" i).Pairwise fun a b => a.toList ≤ b.toList := by
  have h : ((List.range 10).map fun i => vecName "length_scale" i).Pairwise fun a b => a.toList ≤ b.toList := by decide
  refine h.sublist (List.Sublist.map _ ?_)
  exact List.range_sublist.mpr hn

/-- The Bayesian driver passes them sorted by name: in the order of the model if there are at most ten. -/
theorem accepts_sorted {L : Learner} {x : List Flt} (hx : x.length = L.freeNames.length)
    (h : L.Feasible ((sortedKeys L.freeNames).zip x)) (hfree : L.FreeFirst) (h10 : L.AtMostTen) :
    L.trainee.R.kernel.Accepts ((sortedKeys L.freeNames).zip x) := by
  refine accepts_of_feasible h fun ps hl => ?_
  obtain ⟨n, hn, hp⟩ := hfree ps hl
  refine ⟨n, hn, ?_⟩
  have hlen : (sortedKeys L.freeNames).length = L.freeNames.length := (sortedKeys_perm _).length_eq
  have e : (((sortedKeys L.freeNames).zip x).filter fun a => startsLS a.1).map Prod.fst =
      (sortedKeys L.freeNames).filter startsLS := by
    conv_rhs => rw [← List.map_fst_zip (l₁ := sortedKeys L.freeNames) (l₂ := x) (by omega), List.filter_map]
    rfl
  rw [e]
  have e2 : ((sortedKeys L.freeNames).filter startsLS).Perm ((List.range n).map fun i => vecName "length_scale" i) := by
    have := (sortedKeys_perm L.freeNames).filter startsLS
    rw [freeNames_startsLS L ps hl, namedFrom_free_prefix n 0 ps hn hp] at this
    simpa using this
  refine e2.eq_of_pairwise (le := fun a b : String => a.toList ≤ b.toList) ?_ ?_ ?_
  · intro a b _ _ h1 h2
    exact String.toList_inj.mp (List.le_antisymm h1 h2)
  · exact (sortedKeys_sorted _).sublist List.filter_sublist
  · exact ten_sorted n (hn.trans (h10 ps hl))

theorem keys_perm (order : KeyOrder) (l : List String) : (order.keys l).Perm l := by
  cases order
  · exact sortedKeys_perm l
  · exact List.Perm.refl l

theorem accepts_keys (order : KeyOrder) {L : Learner} {x : List Flt} (hx : x.length = L.freeNames.length)
    (h : L.Feasible ((order.keys L.freeNames).zip x)) (hfree : L.FreeFirst) (h10 : order = .sorted → L.AtMostTen) :
    L.trainee.R.kernel.Accepts ((order.keys L.freeNames).zip x) := by
  cases order
  · exact accepts_sorted hx h hfree (h10 rfl)
  · exact accepts_in_order hx h hfree

/-! ## The theorems -/

theorem Learner.LossFits.trial {L : Learner} {l : LossKind} {d : TrainData} (h : L.LossFits l d) :
    l.raw = true ∨ l ≠ .loolUnscaled ∧ d.targets.shape.length = 1 ∧ (L.scaleKind = .fixed ∨ "noise" ∉ L.freeNames) :=
  h.imp_right fun h => ⟨h.1, h.2.1, h.2.2.imp_right (·.2)⟩

/-- The objective at accepted trial values is the score of the model holding them. -/
theorem objective_trial (bs : Flt → ℝ → ℝ) (L L' : Learner) (hmade : L.Made) (l : LossKind) (draws : List (List Nat)) (d : TrainData)
    (hl : l.raw = true ∨ l ≠ .loolUnscaled ∧ d.targets.shape.length = 1 ∧ (L.scaleKind = .fixed ∨ "noise" ∉ L.freeNames))
    (kw : Dict Flt) (hf : L.Feasible kw) (hk : L.trainee.R.kernel.Accepts kw)
    (ht : L'.trainee = L.trainee.trial kw) (a : ℝ) :
    L.objective bs l draws d kw = .ok (some a) ↔ L'.score bs l draws d = .ok (some a) := by
  have hm : L.trainee.R.kernel.make = L.trainee.R.kernel := by
    have h : L.make.trainee.R.kernel = L.trainee.R.kernel := by rw [hmade]
    exact h
  unfold Learner.objective Learner.score
  rw [ht]
  rcases hl with hl | ⟨hu, hts, hsc⟩
  · rw [if_pos hl, C40_raw bs L.trainee hm l hl none draws d.pairwise d.crosswise d.nnTargets d.targets kw hk]
  · by_cases hr : l.raw = true
    · rw [if_pos hr, C40_raw bs L.trainee hm l hr none draws d.pairwise d.crosswise d.nnTargets d.targets kw hk]
    · rw [if_neg hr]
      refine C40_variance_partial bs L.trainee hm l (by simpa using hr) draws d.pairwise d.crosswise d.nnTargets d.targets kw hk
        ?_ hu hts a
      rcases hsc with h | h
      · exact .inl h
      · right
        have hg : Dict.get? kw "noise" = none := get?_none_of_not_mem fun hm => h (hf.1.mem_iff.mp hm)
        show (L.noise.noise).trial kw = L.noise.noise
        cases L.noise <;> simp [NoiseObj.noise, Noise.trial, hg]

/-- C60 for the scipy driver: whatever the minimiser answers within the bounds, the returned model is scored exactly as the
answer was (the minimised function is minus the score), its free hyperparameters are within bounds, its scale and its fixed hyperparameters
are unchanged. Partial: anisotropic length scales must be fixed last, an analytic scale not be combined with a free noise. -/
theorem C60_scipy_partial (env : Env) (bs : Flt → ℝ → ℝ)
    (minimizer : (List Flt → Res (Option ℝ)) → List Flt → List (Flt × Flt) → Res (List Flt))
    (L : Learner) (hmade : L.Made) (hn : L.noise ≠ .null) (hb : L.InBounds) (hfree : L.FreeFirst)
    (l : LossKind) (draws : List (List Nat)) (d : TrainData) (hl : L.LossFits l d)
    (o : OptLists) (ho : L.gp.getOptParams = .ok o) (x : List Flt)
    (hx : minimizer (arrayObjFn (L.objective bs l draws d) L.freeNames) o.params o.bounds = .ok x)
    (hlen : x.length = L.freeNames.length) (hfeas : L.Feasible (L.freeNames.zip x)) :
    ∃ L', scipyLearn env bs minimizer L l draws d = .ok L' ∧ L'.Made ∧ L'.InBounds ∧ L'.scale = L.scale ∧ L.SameKind L' ∧
      L'.gp = L.gp.mapParams (fun n p => p.overridden (L.freeNames.zip x) n) ∧
      ∀ a, arrayObjFn (L.objective bs l draws d) L.freeNames x = .ok (some (-a)) ↔ L'.score bs l draws d = .ok (some a) := by
  have hbs : L.boundScale = L.scale := by
    have h : L.make.boundScale = L.boundScale := by rw [hmade]
    exact h.symm
  obtain ⟨o', L', ho', hnames, hnew, htr, hm', hb', hsc, hgp, hrest⟩ := newLearner_trial env L hn hb hbs _ hfeas
  rw [ho] at ho'
  simp only [Except.ok.injEq] at ho'
  subst ho'
  refine ⟨L', ?_, hm', hb', hsc, by rw [hrest]; exact ⟨rfl, rfl, rfl⟩, hgp, fun a => ?_⟩
  · unfold scipyLearn
    simp only [ho, bind, Except.bind]
    rw [hnames] at hnew ⊢
    simp only [hx]
    rw [if_neg (by omega)]
    exact hnew
  · rw [← objective_trial bs L L' hmade l draws d hl.trial _ hfeas (accepts_in_order hlen hfeas hfree) htr a]
    unfold arrayObjFn
    rw [if_neg (by omega)]
    cases L.objective bs l draws d (L.freeNames.zip x) with
    | error e => simp [bind, Except.bind]
    | ok v => cases v <;> simp [bind, Except.bind, pure, Except.pure]

/-- Where the Bayesian optimiser takes its points from. -/
theorem bayes_chosen_from {P : Type} (f : P → ℝ) (src : Opt.Source P) (x0 : P) (init nIter : Option Nat) :
    ∃ p, Opt.bayesOptimize f src x0 init nIter = .ok p ∧ f x0 ≤ f p ∧
      (p = x0 ∨ (∃ i, p = src.random i) ∨ ∃ s, p = src.suggest s) := by
  obtain ⟨p, rest, h1, h2, h3, h4⟩ := Opt.C56_bayes_never_worse f src x0 init nIter
  refine ⟨p, h1, h4 x0 (List.mem_cons_self ..), ?_⟩
  unfold Opt.bayesOptimize at h1
  obtain ⟨v, hv, _⟩ := Opt.maxParams_spec _ _ h1
  have hit : ∀ (n : Nat) (o : Opt.Bayes P), (∀ a ∈ o.space, a.1 = x0 ∨ (∃ i, a.1 = src.random i) ∨ ∃ s, a.1 = src.suggest s) →
      ∀ a ∈ (Opt.Bayes.iterate f src n o).space, a.1 = x0 ∨ (∃ i, a.1 = src.random i) ∨ ∃ s, a.1 = src.suggest s := by
    intro n
    induction n with
    | zero => intro o h; exact h
    | succ n ih =>
      intro o h
      refine ih _ fun a ha => ?_
      rcases List.mem_append.mp (show a ∈ o.space ++ [(src.suggest o.space, f (src.suggest o.space))] from ha) with ha | ha
      · exact h a ha
      · rw [List.mem_singleton.mp ha]; exact .inr (.inr ⟨_, rfl⟩)
  refine hit _ _ ?_ (p, v) hv
  intro a ha
  rw [show ({ (((Opt.Bayes.new.probe x0).queue ++ _) : List P).foldl (fun o p => o.register f p) (Opt.Bayes.new.probe x0)
    with queue := [] } : Opt.Bayes P).space = _ from Opt.register_all f _ _] at ha
  simp only [Opt.Bayes.probe, Opt.Bayes.new, List.nil_append, List.mem_map, List.mem_append, List.mem_singleton] at ha
  obtain ⟨q, hq, rfl⟩ := ha
  rcases hq with rfl | ⟨i, _, rfl⟩
  · exact .inl rfl
  · exact .inr (.inl ⟨i, rfl⟩)

/-- C60 for the Bayesian driver: when the optimiser draws its points within the bounds and the objective yields a number
there, the returned model scores at least as well as the initial one, whatever points are drawn; its free hyperparameters are
within bounds, its scale is unchanged. Partial: as for scipy, and at most ten anisotropic length scales if the package sorts the
names. -/
theorem C60_bayes_never_worse_partial (env : Env) (order : KeyOrder) (bs : Flt → ℝ → ℝ) (src : Opt.Source (List Flt)) (init nIter : Option Nat)
    (L : Learner) (hmade : L.Made) (hn : L.noise ≠ .null) (hb : L.InBounds) (hfree : L.FreeFirst) (h10 : order = .sorted → L.AtMostTen)
    (l : LossKind) (draws : List (List Nat)) (d : TrainData) (hl : L.LossFits l d)
    (box : List Flt → Prop) (hbox : ∀ x, box x ↔ x.length = L.freeNames.length ∧ L.Feasible ((order.keys L.freeNames).zip x))
    (hrand : ∀ i, box (src.random i)) (hsugg : ∀ s, box (src.suggest s))
    (hval : ∀ x, box x → ∃ a, L.objective bs l draws d ((order.keys L.freeNames).zip x) = .ok (some a)) :
    ∃ L' a a', bayesLearn env order bs src init nIter L l draws d = .ok L' ∧
      L.score bs l draws d = .ok (some a) ∧ L'.score bs l draws d = .ok (some a') ∧ a ≤ a' ∧
      L'.Made ∧ L'.InBounds ∧ L'.scale = L.scale ∧ L.SameKind L' ∧
      ∃ x, box x ∧ L'.gp = L.gp.mapParams (fun n p => p.overridden ((order.keys L.freeNames).zip x) n) := by
  have hbs : L.boundScale = L.scale := by
    have h : L.make.boundScale = L.boundScale := by rw [hmade]
    exact h.symm
  have hlen : (order.keys L.freeNames).length = L.freeNames.length := (keys_perm order _).length_eq
  have ho := getOptParams_eq L.gp hn
  rw [foldl_appendLists] at ho
  simp only [List.nil_append] at ho
  set free := L.gp.params.filter (fun np => !np.2.fixed) with hfreedef
  have hfn : L.freeNames = free.map Prod.fst := rfl
  -- the initial point
  let x0 : List Flt := (order.keys L.freeNames).map fun k => (Dict.get? (L.freeNames.zip (free.map fun np => np.2.val)) k).getD none
  have hx0l : x0.length = L.freeNames.length := by simp [x0, hlen]
  have hz : L.freeNames.zip (free.map fun np => np.2.val) = free.map fun np => (np.1, np.2.val) := by
    rw [hfn]
    clear_value free
    clear hfreedef hfn ho x0 hx0l
    induction free with
    | nil => rfl
    | cons a f ih => simp [ih]
  have hkeys : ((order.keys L.freeNames).zip x0).map Prod.fst = order.keys L.freeNames :=
    List.map_fst_zip (by omega)
  have hnd : (order.keys L.freeNames).Nodup := (keys_perm order _).nodup_iff.mpr (freeNames_nodup L)
  have hg0 : ∀ np ∈ L.gp.params, np.2.fixed = false → Dict.get? ((order.keys L.freeNames).zip x0) np.1 = some np.2.val := by
    intro np hnp hfx
    have hmem : np ∈ free := List.mem_filter.mpr ⟨hnp, by simp [hfx]⟩
    have hin : np.1 ∈ order.keys L.freeNames := (keys_perm order _).mem_iff.mpr (List.mem_map.mpr ⟨np, hmem, rfl⟩)
    have hval0 : Dict.get? (L.freeNames.zip (free.map fun np => np.2.val)) np.1 = some np.2.val := by
      rw [hz]
      refine get?_of_mem ?_ (List.mem_map.mpr ⟨np, hmem, rfl⟩)
      rw [List.map_map]
      exact freeNames_nodup L
    refine get?_of_mem (by rw [hkeys]; exact hnd) ?_
    have : (order.keys L.freeNames).zip x0 =
        (order.keys L.freeNames).map fun k => (k, (Dict.get? (L.freeNames.zip (free.map fun np => np.2.val)) k).getD none) := by
      simp only [x0]
      generalize order.keys L.freeNames = ks
      induction ks with
      | nil => rfl
      | cons a ks ih => simp [ih]
    rw [this]
    exact List.mem_map.mpr ⟨np.1, hin, by rw [hval0]; rfl⟩
  have hfeas0 : L.Feasible ((order.keys L.freeNames).zip x0) := by
    refine ⟨by rw [hkeys]; exact keys_perm order _, fun np hnp hfx => ⟨_, hg0 np hnp hfx, hb np hnp hfx⟩⟩
  have hbox0 : box x0 := (hbox x0).mpr ⟨hx0l, hfeas0⟩
  -- the initial point is the model itself
  have htr0 : L.trainee = L.trainee.trial ((order.keys L.freeNames).zip x0) := by
    obtain ⟨o, L', _, _, _, h1, h2, _, h3, h4, h5⟩ := newLearner_trial env L hn hb hbs _ hfeas0
    have : L.gp.mapParams (fun n p => p.overridden ((order.keys L.freeNames).zip x0) n) = L.gp := by
      conv_rhs => rw [← mapParams_id L.gp]
      apply mapParams_congr
      intro np hnp
      cases hfx : np.2.fixed with
      | true =>
        have : Dict.get? ((order.keys L.freeNames).zip x0) np.1 = none := get?_none_of_not_mem fun hm =>
          fixed_not_free L hnp hfx (hfeas0.1.mem_iff.mp hm)
        simp [Param.overridden, inForce, this]
      | false => simp [Param.overridden, inForce, hg0 np hnp hfx]
    rw [this] at h4
    have e1 : L'.kernel = L.kernel := congrArg GP.kernel h4
    have e2 : L'.noise = L.noise := congrArg GP.noise h4
    rw [e1, e2] at h5
    have e3 : L' = L := h5.trans hmade
    rw [e3] at h1
    exact h1
  -- the answer
  obtain ⟨x, hx, hle, hfrom⟩ := bayes_chosen_from
    (fun x => valueOf (L.objective bs l draws d ((order.keys L.freeNames).zip x))) src x0 init nIter
  have hbx : box x := by
    rcases hfrom with rfl | ⟨i, rfl⟩ | ⟨s, rfl⟩
    · exact hbox0
    · exact hrand i
    · exact hsugg s
  obtain ⟨a, ha⟩ := hval x0 hbox0
  obtain ⟨a', ha'⟩ := hval x hbx
  obtain ⟨hxl, hfx⟩ := (hbox x).mp hbx
  obtain ⟨o, L', ho', hnames, hnew, htr, hm', hb', hsc, hgp, hrest⟩ := newLearner_trial env L hn hb hbs _ hfx
  refine ⟨L', a, a', ?_, ?_, ?_, ?_, hm', hb', hsc, by rw [hrest]; exact ⟨rfl, rfl, rfl⟩, x, hbx, hgp⟩
  · unfold bayesLearn
    rw [ho] at ho'
    simp only [Except.ok.injEq] at ho'
    subst ho'
    rw [ho]
    have hx' : Opt.bayesOptimize (fun x => valueOf (L.objective bs l draws d ((order.keys (free.map Prod.fst)).zip x))) src
        ((order.keys (free.map Prod.fst)).map fun k =>
          (Dict.get? ((free.map Prod.fst).zip (free.map fun np => np.2.val)) k).getD none) init nIter = .ok x := hx
    simp only [bind, Except.bind, hx']
    exact hnew
  · exact (objective_trial bs L L hmade l draws d hl.trial _ hfeas0 (accepts_keys order hx0l hfeas0 hfree h10) htr0 a).mp ha
  · exact (objective_trial bs L L' hmade l draws d hl.trial _ hfx (accepts_keys order hxl hfx hfree h10) htr a').mp ha'
  · simp only [ha, ha', valueOf] at hle
    exact hle

end MuyGPyS
