import Verif.Props.Train
import Mathlib.Analysis.Complex.ExponentialBounds

/-! # C60: where training returns a model that is not the one the optimiser saw -/

namespace MuyGPyS
open Py Matrix

/-- An RBF model on squared distances with anisotropic length scales `ps`, no noise and unit scale. -/
noncomputable def aniLearner (ps : List Param) : Learner :=
  ⟨⟨.vector ps, none⟩, .homoscedastic ⟨Flt.fin 0, Flt.fin 0, Flt.fin 0, true⟩, .F2, false, .rbf, .fixed, 1, 1⟩

/-- Two batch points with one neighbour each, in `f` dimensions: the first differs from its neighbour by one unit in dimension
`i` and has response 0, the second by one unit in dimension `j` and has response 1; both neighbours have response 1. -/
noncomputable def aniData (f i j : Nat) : TrainData :=
  ⟨⟨[2, 1] ++ [f], fun k => if k = i ∨ k = f + j then 1 else 0⟩, ⟨[2, 1, 1] ++ [f], fun _ => 0⟩,
    ⟨[2], fun k => k⟩, ⟨[2, 1], fun _ => 1⟩⟩

/-- Minus the mean squared error on that data with length scale `u` in dimension `i` and `v` in dimension `j`. -/
noncomputable def aniScore (u v : ℝ) : ℝ :=
  -(((Real.exp (-(1 / u) ^ 2 / 2)) ^ 2 + (Real.exp (-(1 / v) ^ 2 / 2) - 1) ^ 2) / 2)

/-- A point that differs in one dimension only. -/
theorem dist_single {f : Nat} (i : Nat) (hi : i < f) (g : Fin f → ℝ) (len : Nat → ℝ) (hg : ∀ c : Fin f, g c = if (c : Nat) = i then 1 else 0) :
    distOf .F2 (fun c : Fin f => g c / len c) 0 = (1 / len i) ^ 2 := by
  rw [distOf_F2, Finset.sum_eq_single ⟨i, hi⟩]
  · simp [hg]
  · intro c _ hc
    have : (c : Nat) ≠ i := fun e => hc (Fin.ext e)
    simp [hg, this]
  · intro h; exact absurd (Finset.mem_univ _) h

/-- The objective on that data. -/
theorem ani_objective (bs : Flt → ℝ → ℝ) (ps : List Param) (i j : Nat) (hi : i < ps.length) (hj : j < ps.length) (draws : List (List Nat))
    (kw : Dict Flt) (hk : Unreserved kw) (hn : Dict.get? kw "noise" = none) (hl : (aniValues ps kw).length = ps.length) :
    (aniLearner ps).objective bs .mse draws (aniData ps.length i j) kw =
      .ok (some (aniScore ((aniValues ps kw).getD i none).toReal ((aniValues ps kw).getD j none).toReal)) := by
  set L := aniLearner ps with hL
  have hm : L.trainee.R.kernel.make = L.trainee.R.kernel := rfl
  have hk1 : ∀ s D, D.shape = s ++ [ps.length] → ∃ T, L.trainee.R.kernel.optFn bs D (("batch_features", none) :: kw) = .ok T ∧
      T.shape = s ∧ ∀ k, T.flat k = Real.exp (-(distOf .F2 (fun c : Fin ps.length =>
        D.flat (k * ps.length + c) / ((aniValues ps kw).getD c none).toReal) 0) / 2) := by
    intro s D hs
    obtain ⟨T, h1, h2, h3⟩ := C11_actual .F2 ps s D hs kw hl
    refine ⟨T.map (KFn.value bs (L.trainee.R.kernel.make.smoothInForce kw) .rbf), ?_, h2, fun k => ?_⟩
    · conv_lhs => rw [← hm]
      rw [batch_features_ignored bs _ kw hk, call_eq bs _ (make_wellBound _) D kw hk]
      have hd : L.trainee.R.kernel.make.deform = .anisotropy .F2 ps := rfl
      rw [hd, h1]
      rfl
    · simp only [Tensor.map, KFn.value, h3]
  obtain ⟨K, k1, k2, k3⟩ := hk1 [2, 1, 1] (aniData ps.length i j).pairwise rfl
  obtain ⟨C, c1, c2, c3⟩ := hk1 [2, 1] (aniData ps.length i j).crosswise rfl
  have hKf : ∀ k, K.flat k = 1 := by
    intro k
    rw [k3]
    simp [aniData, distOf_F2]
  have hC0 : C.flat 0 = Real.exp (-(1 / ((aniValues ps kw).getD i none).toReal) ^ 2 / 2) := by
    rw [c3, dist_single i hi _ (fun c => ((aniValues ps kw).getD c none).toReal)]
    intro c
    have := c.isLt
    simp only [aniData, Nat.zero_mul, Nat.zero_add]
    congr 1
    simp only [eq_iff_iff]
    constructor
    · rintro (h | h)
      · exact h
      · omega
    · exact .inl
  have hC1 : C.flat 1 = Real.exp (-(1 / ((aniValues ps kw).getD j none).toReal) ^ 2 / 2) := by
    rw [c3, dist_single j hj _ (fun c => ((aniValues ps kw).getD c none).toReal)]
    intro c
    have := c.isLt
    simp only [aniData, Nat.one_mul]
    congr 1
    simp only [eq_iff_iff]
    constructor
    · rintro (h | h)
      · omega
      · omega
    · intro h; right; omega
  have hcov : ∀ p, Spec.cov 1 K p = 1 := by
    intro p; ext a b
    rw [Subsingleton.elim a b, Matrix.one_apply_eq]; exact hKf _
  have hmat : ∀ p, Spec.cov 1 K p + (Noise.homoscedastic 0).mat 1 p = 1 := by
    intro p; rw [hcov]; show 1 + (0 : ℝ) • 1 = _; simp
  have hno : L.trainee.R.gp.noise = .homoscedastic 0 := rfl
  obtain ⟨μ, m1, m2, m3⟩ := C24_model_mean L.trainee.R.gp 2 1 trivial K C (aniData ps.length i j).nnTargets k2 c2 rfl
    (fun p _ => by rw [hno, hmat]; simp) (fun p _ => by rw [hcov, Matrix.transpose_one])
  have hμ : ∀ p < 2, μ.flat p = C.flat p := by
    intro p hp
    rw [← Tensor.get1 μ m2, m3 p hp, hno, hmat]
    simp only [Spec.krigingMean, inv_one, Matrix.one_mulVec]
    simp [dotProduct, Spec.vec, aniData, Tensor.get, c2, Tensor.ravel]
  have hopt : L.trainee.R.gp.optMean K C (aniData ps.length i j).nnTargets ((Dict.get? kw "noise").map Flt.toReal) = .ok μ := by
    rw [hn]; exact m1
  unfold Learner.objective objFn predictAndLoss
  simp only [LossKind.raw, if_true, k1, c1, bind, Except.bind, hopt, maskColumns, pure, Except.pure]
  have ht : μ.shape = (aniData ps.length i j).targets.shape := m2
  simp only [LossKind.runRaw, if_pos ht]
  have e1 : entries μ = [C.flat 0, C.flat 1] := by
    unfold entries; rw [m2]; simp [List.range_succ, hμ 0 (by omega), hμ 1 (by omega)]
  have e2 : entries (aniData ps.length i j).targets = [0, 1] := by
    unfold entries; simp [aniData, List.range_succ]
  rw [e1, e2]
  simp only [Loss.mse, Loss.mseUnnormalized, Loss.zip2, List.length_cons, List.length_nil, if_true, bind, Except.bind, pure,
    Except.pure, List.zipWith_cons_cons, List.zipWith_nil_right, List.sum_cons, List.sum_nil, hC0, hC1, aniScore]
  norm_num

theorem ani_made (ps : List Param) : (aniLearner ps).Made := rfl

theorem overrideFrom_nil (i : Nat) (ps : List Param) : overrideFrom [] i ps = ps := by
  induction ps generalizing i with
  | nil => rfl
  | cons p ps ih => rw [overrideFrom, ih]; rfl

/-- The score of a model on that data. -/
theorem ani_score (bs : Flt → ℝ → ℝ) (ps : List Param) (i j : Nat) (hi : i < ps.length) (hj : j < ps.length) (draws : List (List Nat)) :
    (aniLearner ps).score bs .mse draws (aniData ps.length i j) =
      .ok (some (aniScore ((ps.map Param.val).getD i none).toReal ((ps.map Param.val).getD j none).toReal)) := by
  have hv : aniValues ps [] = ps.map Param.val := aniValues_nil ps
  have h := ani_objective bs ps i j hi hj draws [] (by intro a ha; simp at ha) rfl (by rw [hv]; simp)
  rw [hv] at h
  rw [← h]
  unfold Learner.score Learner.objective
  rw [if_pos (show LossKind.mse.raw = true from rfl)]
  have hk : (aniLearner ps).trainee.R.kernel.Accepts [] := by
    refine ⟨by intro a ha; simp at ha, ?_, ?_⟩
    · intro p hp; right; rfl
    · exact ⟨by simp, 0, by omega, by simp⟩
  rw [C40_raw bs (aniLearner ps).trainee rfl .mse rfl none draws _ _ _ _ [] hk]
  have ht : (aniLearner ps).trainee.trial [] = (aniLearner ps).trainee := by
    unfold Trainee.trial KernelObj.overridden
    have hd : (aniLearner ps).trainee.R.kernel.deform = .anisotropy .F2 ps := rfl
    simp only [hd, overrideFrom_nil]
    rfl
  rw [ht]

theorem aniScore_mono {u u' v v' : ℝ} (hu : 0 < u') (huu : u' ≤ u) (hv : 0 < v) (hvv : v ≤ v') :
    aniScore u v ≤ aniScore u' v' := by
  unfold aniScore
  have h1 : Real.exp (-(1 / u') ^ 2 / 2) ≤ Real.exp (-(1 / u) ^ 2 / 2) := by
    apply Real.exp_le_exp.mpr
    have h0 : 0 < u := hu.trans_le huu
    have : (1 / u) ^ 2 ≤ (1 / u') ^ 2 := by
      apply pow_le_pow_left₀ (by positivity)
      exact one_div_le_one_div_of_le hu huu
    linarith
  have h2 : Real.exp (-(1 / v) ^ 2 / 2) ≤ Real.exp (-(1 / v') ^ 2 / 2) := by
    apply Real.exp_le_exp.mpr
    have h0 : 0 < v' := hv.trans_le hvv
    have : (1 / v') ^ 2 ≤ (1 / v) ^ 2 := by
      apply pow_le_pow_left₀ (by positivity)
      exact one_div_le_one_div_of_le hv hvv
    linarith
  have h3 : Real.exp (-(1 / v') ^ 2 / 2) ≤ 1 := Real.exp_le_one_iff.mpr (by have := sq_nonneg (1 / v'); linarith)
  have h4 := Real.exp_pos (-(1 / u') ^ 2 / 2)
  nlinarith

theorem aniScore_right_strict {u v v' : ℝ} (hv : 0 < v) (hvv : v < v') : aniScore u v < aniScore u v' := by
  unfold aniScore
  have h2 : Real.exp (-(1 / v) ^ 2 / 2) < Real.exp (-(1 / v') ^ 2 / 2) := by
    apply Real.exp_lt_exp.mpr
    have : (1 / v') ^ 2 < (1 / v) ^ 2 := by
      have h0 : 0 < v' := hv.trans hvv
      apply pow_lt_pow_left₀ (one_div_lt_one_div_of_lt hv hvv) (by positivity) (by norm_num)
    linarith
  have h3 : Real.exp (-(1 / v') ^ 2 / 2) ≤ 1 := Real.exp_le_one_iff.mpr (by have := sq_nonneg (1 / v'); linarith)
  nlinarith

theorem aniScore_left_strict {u u' v : ℝ} (hu : 0 < u') (huu : u' < u) : aniScore u v < aniScore u' v := by
  unfold aniScore
  have h2 : Real.exp (-(1 / u') ^ 2 / 2) < Real.exp (-(1 / u) ^ 2 / 2) := by
    apply Real.exp_lt_exp.mpr
    have : (1 / u) ^ 2 < (1 / u') ^ 2 := by
      have h0 : 0 < u := hu.trans huu
      apply pow_lt_pow_left₀ (one_div_lt_one_div_of_lt hu huu) (by positivity) (by norm_num)
    linarith
  have h4 := Real.exp_pos (-(1 / u') ^ 2 / 2)
  nlinarith

/-- Writing a feasible answer into the model. -/
theorem ani_answer (env : Env) (ps : List Param) (hb : (aniLearner ps).InBounds) (kw : Dict Flt) (hf : (aniLearner ps).Feasible kw) :
    ∃ o, (aniLearner ps).gp.getOptParams = .ok o ∧ o.names = (aniLearner ps).freeNames ∧
      newLearner env (aniLearner ps) o.names o.bounds kw = .ok (aniLearner (overrideFrom kw 0 ps)) := by
  obtain ⟨o, L', h1, h2, h3, _, _, _, _, h4, h5⟩ := newLearner_trial env (aniLearner ps) (by simp [aniLearner]) hb rfl kw hf
  refine ⟨o, h1, h2, h3.trans ?_⟩
  congr 1
  have hn : Dict.get? kw "noise" = none := get?_none_of_not_mem fun hm => by
    refine fixed_not_free (aniLearner ps) (np := ("noise", ⟨Flt.fin 0, Flt.fin 0, Flt.fin 0, true⟩)) ?_ rfl (hf.1.mem_iff.mp hm)
    simp [aniLearner, Learner.gp, GP.params]
  have e1 : L'.kernel = ⟨.vector (overrideFrom kw 0 ps), none⟩ := by
    refine (congrArg GP.kernel h4).trans ?_
    simp only [GP.mapParams, Learner.gp, aniLearner, mapNamed_overrideFrom]
    rfl
  have e2 : L'.noise = .homoscedastic ⟨Flt.fin 0, Flt.fin 0, Flt.fin 0, true⟩ := by
    refine (congrArg GP.noise h4).trans ?_
    simp only [GP.mapParams, Learner.gp, aniLearner]
    simp [Param.overridden, inForce, hn]
  rw [h5, e1, e2]
  rfl

/-- The Bayesian optimiser evaluates the first random point. -/
theorem bayes_sees_random {P : Type} (f : P → ℝ) (src : Opt.Source P) (x0 p : P) (init nIter : Option Nat) (hi : 0 < init.getD 5)
    (h : Opt.bayesOptimize f src x0 init nIter = .ok p) : f (src.random 0) ≤ f p := by
  have h1 := h
  unfold Opt.bayesOptimize at h
  obtain ⟨v, hv, hall⟩ := Opt.maxParams_spec _ _ h
  obtain ⟨rest, hs, _, _⟩ := Opt.maximize_spec f src (init.getD 5) (nIter.getD 20) ((Opt.Bayes.new : Opt.Bayes P).probe x0)
  have hpv : v = f p := by
    rw [hs] at hv
    simp only [Opt.Bayes.probe, Opt.Bayes.new, List.nil_append, List.mem_map] at hv
    obtain ⟨q, _, e⟩ := hv
    rw [← (Prod.mk.inj e).1, ← (Prod.mk.inj e).2]
  rw [← hpv]
  have hit : ∀ (n : Nat) (o : Opt.Bayes P) a, a ∈ o.space → a ∈ (Opt.Bayes.iterate f src n o).space := by
    intro n
    induction n with
    | zero => intro o a h; exact h
    | succ n ih => intro o a h; exact ih _ _ (List.mem_append_left _ h)
  refine hall (src.random 0, f (src.random 0)) (hit _ _ _ ?_)
  show _ ∈ (List.foldl (fun o p => Opt.Bayes.register f o p) ((Opt.Bayes.new : Opt.Bayes P).probe x0) _).space
  rw [Opt.register_all f _ _]
  refine List.mem_append_right _ (List.mem_map.mpr ⟨src.random 0, ?_, rfl⟩)
  refine List.mem_append_right _ (List.mem_map.mpr ⟨0, ?_, rfl⟩)
  simpa [Opt.Bayes.probe, Opt.Bayes.new] using hi

/-- If every point the optimiser draws is `y`, and `y` is better than the initial point, it answers `y`. -/
theorem bayes_takes {P : Type} (f : P → ℝ) (x0 y : P) (init nIter : Option Nat) (hi : 0 < init.getD 5) (h : f x0 < f y) :
    Opt.bayesOptimize f ⟨fun _ => y, fun _ => y⟩ x0 init nIter = .ok y := by
  obtain ⟨p, h1, _, h3⟩ := bayes_chosen_from f ⟨fun _ => y, fun _ => y⟩ x0 init nIter
  have h2 := bayes_sees_random f _ x0 p init nIter hi h1
  rcases h3 with rfl | ⟨_, rfl⟩ | ⟨_, rfl⟩
  · simp only at h2; linarith
  · exact h1
  · exact h1

/-- Two length scales: the first fixed at 1, the second free in `[1, 3]`. -/
noncomputable def fixedFirst (x : ℝ) : List Param := [⟨Flt.fin 1, Flt.fin 1, Flt.fin 3, true⟩, ⟨Flt.fin x, Flt.fin 1, Flt.fin 3, false⟩]

theorem fixedFirst_free (x : ℝ) : (aniLearner (fixedFirst x)).freeNames = ["length_scale1"] := by
  have e0 : vecName "length_scale" 1 = "length_scale1" := by decide
  simp [Learner.freeNames, aniLearner, Learner.gp, GP.params, Kernel.named, LenScale.named, fixedFirst, namedFrom, e0]

theorem fixedFirst_allows (x y : ℝ) (h1 : 1 ≤ y) (h3 : y ≤ 3) :
    ∀ np ∈ (aniLearner (fixedFirst x)).gp.params, np.2.fixed = false → np.1 = "length_scale1" ∧ np.2.Allows (Flt.fin y) := by
  have e0 : vecName "length_scale" 1 = "length_scale1" := by decide
  have ha : Param.Allows ⟨Flt.fin x, Flt.fin 1, Flt.fin 3, false⟩ (Flt.fin y) :=
    ⟨(y : EReal), (1 : ℝ), (3 : ℝ), rfl, rfl, rfl, EReal.coe_le_coe_iff.mpr h1, EReal.coe_le_coe_iff.mpr h3⟩
  intro np hnp hfx
  simp only [aniLearner, Learner.gp, GP.params, Kernel.named, LenScale.named, fixedFirst, namedFrom, e0, Option.map_none,
    Option.toList_none, List.append_nil, List.mem_append, List.mem_cons, List.not_mem_nil, or_false, List.cons_append,
    List.nil_append] at hnp
  rcases hnp with rfl | rfl | rfl
  · simp at hfx
  · exact ⟨rfl, ha⟩
  · simp at hfx

theorem fixedFirst_bounds (x : ℝ) (h1 : 1 ≤ x) (h3 : x ≤ 3) : (aniLearner (fixedFirst x)).InBounds := by
  intro np hnp hfx
  have h := (fixedFirst_allows x x h1 h3 np hnp hfx)
  have e0 : vecName "length_scale" 1 = "length_scale1" := by decide
  simp only [aniLearner, Learner.gp, GP.params, Kernel.named, LenScale.named, fixedFirst, namedFrom, e0, Option.map_none,
    Option.toList_none, List.append_nil, List.mem_append, List.mem_cons, List.not_mem_nil, or_false, List.cons_append,
    List.nil_append] at hnp
  rcases hnp with rfl | rfl | rfl
  · simp at hfx
  · exact h.2
  · simp at hfx

theorem fixedFirst_feasible (x y : ℝ) (h1 : 1 ≤ y) (h3 : y ≤ 3) :
    (aniLearner (fixedFirst x)).Feasible [("length_scale1", Flt.fin y)] := by
  refine ⟨by rw [fixedFirst_free]; exact List.Perm.refl _, fun np hnp hfx => ?_⟩
  obtain ⟨e, ha⟩ := fixedFirst_allows x y h1 h3 np hnp hfx
  exact ⟨Flt.fin y, by rw [e]; simp [Dict.get?], ha⟩

theorem fixedFirst_objective (bs : Flt → ℝ → ℝ) (draws : List (List Nat)) (x y : ℝ) :
    (aniLearner (fixedFirst x)).objective bs .mse draws (aniData 2 0 1) [("length_scale1", Flt.fin y)] =
      .ok (some (aniScore y 1)) := by
  have e0 : vecName "length_scale" 0 = "length_scale0" := by decide
  have e1 : vecName "length_scale" 1 = "length_scale1" := by decide
  have hst : startsLS "length_scale1" = true := by decide
  have hv : aniValues (fixedFirst x) [("length_scale1", Flt.fin y)] = [Flt.fin y, Flt.fin 1] := by
    simp [aniValues, fixedFirst, namedFrom, e0, e1, Dict.has, hst]
  have h := ani_objective bs (fixedFirst x) 0 1 (by simp [fixedFirst]) (by simp [fixedFirst]) draws [("length_scale1", Flt.fin y)]
    (by intro a ha; rw [List.mem_singleton.mp ha]; exact (by decide : "length_scale1" ≠ "self" ∧ "length_scale1" ≠ "diffs" ∧
      "length_scale1" ≠ "dists" ∧ "length_scale1" ≠ "squared_dists")) (by simp [Dict.get?])
    (by rw [hv]; rfl)
  rw [hv] at h
  exact h

/-- C60 fails when an anisotropic length scale is fixed and a later one is free. With two length scales, the first fixed at 1
and the second free in `[1, 3]`, initially 2, the objective exchanges the two dimensions; both optimisers, handed the exact
optimum `1` of the objective, return a model that scores strictly worse than the initial one. -/
theorem C60_fixed_first_fails (env : Env) (order : KeyOrder) (bs : Flt → ℝ → ℝ) (draws : List (List Nat)) :
    let L := aniLearner (fixedFirst 2)
    let d := aniData 2 0 1
    L.Made ∧ L.InBounds ∧ L.freeNames = ["length_scale1"] ∧
    (∃ best, L.objective bs .mse draws d [("length_scale1", Flt.fin 1)] = .ok (some best) ∧
      ∀ y, 1 ≤ y → y ≤ 3 → ∃ v, L.objective bs .mse draws d [("length_scale1", Flt.fin y)] = .ok (some v) ∧ v ≤ best) ∧
    ∃ L' a a', bayesLearn env order bs ⟨fun _ => [Flt.fin 1], fun _ => [Flt.fin 1]⟩ none none L .mse draws d = .ok L' ∧
      scipyLearn env bs (fun _ _ _ => .ok [Flt.fin 1]) L .mse draws d = .ok L' ∧
      L.score bs .mse draws d = .ok (some a) ∧ L'.score bs .mse draws d = .ok (some a') ∧ a' < a := by
  intro L d
  have hb : L.InBounds := fixedFirst_bounds 2 (by norm_num) (by norm_num)
  refine ⟨rfl, hb, fixedFirst_free 2, ⟨_, fixedFirst_objective bs draws 2 1, fun y h1 _ =>
    ⟨_, fixedFirst_objective bs draws 2 y, aniScore_mono one_pos h1 one_pos le_rfl⟩⟩, ?_⟩
  have hfeas : L.Feasible [("length_scale1", Flt.fin 1)] := fixedFirst_feasible 2 1 le_rfl (by norm_num)
  have hov : overrideFrom [("length_scale1", Flt.fin 1)] 0 (fixedFirst 2) = fixedFirst 1 := by
    have e0 : "length_scale" ++ toString 0 = "length_scale0" := by decide
    have e1 : "length_scale" ++ toString 1 = "length_scale1" := by decide
    simp only [fixedFirst, overrideFrom, e0, e1, Param.overridden, inForce, Dict.get?, Nat.zero_add]
    simp
  obtain ⟨o, ho, hnames, hnew⟩ := ani_answer env (fixedFirst 2) hb _ hfeas
  rw [hov] at hnew
  rw [fixedFirst_free] at hnames
  have hpar : o.params = [Flt.fin 2] := by
    have h := getOptParams_eq L.gp (by simp [L, Learner.gp, aniLearner])
    rw [ho, foldl_appendLists] at h
    simp only [Except.ok.injEq] at h
    rw [h]
    simp [L, aniLearner, Learner.gp, GP.params, Kernel.named, LenScale.named, fixedFirst, namedFrom]
  have hkeys : order.keys ["length_scale1"] = ["length_scale1"] := by
    cases order <;> rfl
  refine ⟨aniLearner (fixedFirst 1), aniScore 1 2, aniScore 1 1, ?_, ?_,
    ani_score bs (fixedFirst 2) 0 1 (by decide) (by decide) draws, ani_score bs (fixedFirst 1) 0 1 (by decide) (by decide) draws,
    aniScore_right_strict one_pos (by norm_num)⟩
  · unfold bayesLearn
    have ho' : L.gp.getOptParams = .ok o := ho
    have hx0 : (["length_scale1"].map fun k => (Dict.get? (["length_scale1"].zip [Flt.fin 2]) k).getD none) = [Flt.fin 2] := by
      simp [Dict.get?]
    have hbay := bayes_takes (fun x => valueOf (L.objective bs .mse draws d (["length_scale1"].zip x))) [Flt.fin 2] [Flt.fin 1]
      none none (by decide) (by
        simp only [List.zip_cons_cons, List.zip_nil_right]
        rw [fixedFirst_objective, fixedFirst_objective]
        simp only [valueOf]
        exact aniScore_left_strict one_pos (by norm_num))
    simp only [bind, Except.bind, ho', hnames, hpar, hkeys, hx0, hbay]
    rw [hnames] at hnew
    exact hnew
  · unfold scipyLearn
    have ho' : L.gp.getOptParams = .ok o := ho
    simp only [bind, Except.bind, ho', hnames]
    rw [hnames] at hnew
    exact hnew

/-! ## Eleven length scales -/

/-- Eleven free length scales in `[1, 3]` with the given values. -/
noncomputable def elevenScales (xs : List ℝ) : List Param := xs.map fun x => ⟨Flt.fin x, Flt.fin 1, Flt.fin 3, false⟩

/-- The names of eleven length scales in lexicographic order. -/
def elevenKeys : List String :=
  ["length_scale0", "length_scale1", "length_scale10", "length_scale2", "length_scale3", "length_scale4", "length_scale5",
    "length_scale6", "length_scale7", "length_scale8", "length_scale9"]

/-- The names of eleven length scales in the order of the dimensions. -/
def elevenNames : List String :=
  ["length_scale0", "length_scale1", "length_scale2", "length_scale3", "length_scale4", "length_scale5",
    "length_scale6", "length_scale7", "length_scale8", "length_scale9", "length_scale10"]

theorem eleven_sorted : sortedKeys elevenNames = elevenKeys := by
  have h1 : (sortedKeys elevenNames).Perm elevenKeys := (sortedKeys_perm _).trans (by decide)
  refine h1.eq_of_pairwise (le := fun a b : String => a.toList ≤ b.toList) ?_ (sortedKeys_sorted _) (by decide)
  intro a b _ _ h1 h2
  exact String.toList_inj.mp (List.le_antisymm h1 h2)

theorem eleven_names : (List.range 11).map (vecName "length_scale") = elevenNames := by decide

theorem eleven_named (xs : List ℝ) (h : xs.length = 11) :
    namedFrom "length_scale" 0 (elevenScales xs) = elevenNames.zip (elevenScales xs) := by
  have key : ∀ (i : Nat) (ps : List Param), namedFrom "length_scale" i ps =
      ((List.range ps.length).map fun j => vecName "length_scale" (i + j)).zip ps := by
    intro i ps
    induction ps generalizing i with
    | nil => rfl
    | cons p ps ih =>
      rw [namedFrom, ih, List.length_cons, List.range_succ_eq_map]
      simp [Function.comp_def, Nat.add_assoc, Nat.add_comm 1]
  rw [key, ← eleven_names]
  simp [elevenScales, h]

theorem eleven_params (xs : List ℝ) (h : xs.length = 11) :
    (aniLearner (elevenScales xs)).gp.params =
      elevenNames.zip (elevenScales xs) ++ [("noise", ⟨Flt.fin 0, Flt.fin 0, Flt.fin 0, true⟩)] := by
  rw [← eleven_named xs h]
  simp [aniLearner, Learner.gp, GP.params, Kernel.named, LenScale.named]

theorem eleven_zip_free (xs : List ℝ) {np : String × Param} (h : np ∈ elevenNames.zip (elevenScales xs)) :
    ∃ x ∈ xs, np.2 = ⟨Flt.fin x, Flt.fin 1, Flt.fin 3, false⟩ := by
  have := (List.of_mem_zip h).2
  obtain ⟨x, hx, e⟩ := List.mem_map.mp this
  exact ⟨x, hx, e.symm⟩

theorem eleven_filter (xs : List ℝ) (h : xs.length = 11) :
    ((aniLearner (elevenScales xs)).gp.params.filter fun np => !np.2.fixed) = elevenNames.zip (elevenScales xs) := by
  rw [eleven_params xs h, List.filter_append, List.filter_eq_self.mpr]
  · simp
  · intro np hnp
    obtain ⟨x, _, e⟩ := eleven_zip_free xs hnp
    rw [e]; rfl

theorem eleven_free (xs : List ℝ) (h : xs.length = 11) : (aniLearner (elevenScales xs)).freeNames = elevenNames := by
  unfold Learner.freeNames
  rw [eleven_filter xs h, List.map_fst_zip]
  rw [elevenScales, List.length_map, h]; decide

theorem eleven_bounds (xs : List ℝ) (h : xs.length = 11) (hb : ∀ x ∈ xs, 1 ≤ x ∧ x ≤ 3) :
    (aniLearner (elevenScales xs)).InBounds := by
  intro np hnp hfx
  have hm : np ∈ elevenNames.zip (elevenScales xs) := by
    rw [← eleven_filter xs h]; exact List.mem_filter.mpr ⟨hnp, by simp [hfx]⟩
  obtain ⟨x, hx, e⟩ := eleven_zip_free xs hm
  rw [e]
  exact ⟨(x : EReal), (1 : ℝ), (3 : ℝ), rfl, rfl, rfl, EReal.coe_le_coe_iff.mpr (hb x hx).1, EReal.coe_le_coe_iff.mpr (hb x hx).2⟩

theorem eleven_feasible (xs ys : List ℝ) (h : xs.length = 11) (hy : ys.length = 11) (hb : ∀ y ∈ ys, 1 ≤ y ∧ y ≤ 3) :
    (aniLearner (elevenScales xs)).Feasible (elevenKeys.zip (ys.map Flt.fin)) := by
  have hfst : (elevenKeys.zip (ys.map Flt.fin)).map Prod.fst = elevenKeys :=
    List.map_fst_zip (by rw [List.length_map, hy]; decide)
  refine ⟨by rw [hfst, eleven_free xs h]; decide, fun np hnp hfx => ?_⟩
  have hm : np ∈ elevenNames.zip (elevenScales xs) := by
    rw [← eleven_filter xs h]; exact List.mem_filter.mpr ⟨hnp, by simp [hfx]⟩
  obtain ⟨x, hx, e⟩ := eleven_zip_free xs hm
  have hk : np.1 ∈ elevenKeys := (by decide : elevenNames.Perm elevenKeys).mem_iff.mp (List.of_mem_zip hm).1
  rw [← hfst] at hk
  obtain ⟨a, ha, e1⟩ := List.mem_map.mp hk
  refine ⟨a.2, ?_, ?_⟩
  · rw [← e1]; exact get?_of_mem (by rw [hfst]; decide) ha
  · obtain ⟨y, hy', e2⟩ := List.mem_map.mp (List.of_mem_zip ha).2
    rw [e, ← e2]
    exact ⟨(y : EReal), (1 : ℝ), (3 : ℝ), rfl, rfl, rfl, EReal.coe_le_coe_iff.mpr (hb y hy').1,
      EReal.coe_le_coe_iff.mpr (hb y hy').2⟩

/-- The objective gives dimension 2 the value of the third name in lexicographic order, `length_scale10`, and dimension 10
the value of the last, `length_scale9`. -/
theorem eleven_objective (bs : Flt → ℝ → ℝ) (draws : List (List Nat)) (xs ys : List ℝ) (h : xs.length = 11) (hy : ys.length = 11) :
    (aniLearner (elevenScales xs)).objective bs .mse draws (aniData 11 2 10) (elevenKeys.zip (ys.map Flt.fin)) =
      .ok (some (aniScore (ys.getD 2 0) (ys.getD 10 0))) := by
  have hlen : (elevenScales xs).length = 11 := by simp [elevenScales, h]
  have hkl : elevenKeys.length = 11 := by decide
  have hfst : (elevenKeys.zip (ys.map Flt.fin)).map Prod.fst = elevenKeys :=
    List.map_fst_zip (by rw [List.length_map, hy]; decide)
  have hkey : ∀ a ∈ elevenKeys.zip (ys.map Flt.fin), a.1 ∈ elevenKeys := fun a ha => (List.of_mem_zip ha).1
  have hall : ∀ k ∈ elevenKeys, startsLS k = true ∧ k ≠ "self" ∧ k ≠ "diffs" ∧ k ≠ "dists" ∧ k ≠ "squared_dists" ∧ k ≠ "noise" := by
    decide
  have hv : aniValues (elevenScales xs) (elevenKeys.zip (ys.map Flt.fin)) = ys.map Flt.fin := by
    unfold aniValues
    rw [List.filter_eq_self.mpr fun a ha => (hall _ (hkey a ha)).1, List.map_snd_zip (by rw [List.length_map, hy, hkl]),
      List.filter_eq_nil_iff.mpr, List.map_nil, List.append_nil]
    intro np hnp
    rw [eleven_named xs h] at hnp
    have hk : np.1 ∈ elevenKeys := (by decide : elevenNames.Perm elevenKeys).mem_iff.mp (List.of_mem_zip hnp).1
    rw [← hfst] at hk
    obtain ⟨a, ha, e⟩ := List.mem_map.mp hk
    have : Dict.has (elevenKeys.zip (ys.map Flt.fin)) np.1 = true := by
      unfold Dict.has; exact List.any_eq_true.mpr ⟨a, ha, by simp [e]⟩
    simp [this]
  have hu : Unreserved (elevenKeys.zip (ys.map Flt.fin)) := fun a ha =>
    ⟨(hall _ (hkey a ha)).2.1, (hall _ (hkey a ha)).2.2.1, (hall _ (hkey a ha)).2.2.2.1, (hall _ (hkey a ha)).2.2.2.2.1⟩
  have hn : Dict.get? (elevenKeys.zip (ys.map Flt.fin)) "noise" = none := get?_none_of_not_mem (by rw [hfst]; decide)
  have hobj := ani_objective bs (elevenScales xs) 2 10 (by omega) (by omega) draws _ hu hn (by rw [hv, hlen, List.length_map, hy])
  rw [hv, hlen] at hobj
  rw [hobj]
  have hg : ∀ i, i < 11 → ((ys.map Flt.fin).getD i none).toReal = ys.getD i 0 := by
    intro i hi
    rw [List.getD_eq_getElem?_getD, List.getD_eq_getElem?_getD, List.getElem?_map, List.getElem?_eq_getElem (by omega)]
    rfl
  rw [hg 2 (by omega), hg 10 (by omega)]

/-- C60 fails for more than ten anisotropic length scales when the Bayesian optimiser sorts the names: `length_scale10` sorts
before `length_scale2`, and the objective uses the values by position. With eleven length scales, all 2 initially and free in
`[1, 3]`, the optimiser that finds the exact optimum of the objective over the whole box returns a model that scores strictly
worse than the initial one. -/
theorem C60_eleven_fails (env : Env) (bs : Flt → ℝ → ℝ) (draws : List (List Nat)) :
    let L := aniLearner (elevenScales (List.replicate 11 2))
    let d := aniData 11 2 10
    let best : List ℝ := [2, 2, 1, 2, 2, 2, 2, 2, 2, 2, 3]
    L.Made ∧ L.InBounds ∧ L.FreeFirst ∧ (∀ np ∈ L.gp.params, np.1 ∈ elevenNames → np.2.fixed = false) ∧
    (∃ v, L.objective bs .mse draws d (elevenKeys.zip (best.map Flt.fin)) = .ok (some v) ∧
      ∀ ys : List ℝ, ys.length = 11 → (∀ y ∈ ys, 1 ≤ y ∧ y ≤ 3) →
        ∃ w, L.objective bs .mse draws d (elevenKeys.zip (ys.map Flt.fin)) = .ok (some w) ∧ w ≤ v) ∧
    ∃ L' a a', bayesLearn env .sorted bs ⟨fun _ => best.map Flt.fin, fun _ => best.map Flt.fin⟩ none none L .mse draws d = .ok L' ∧
      L.score bs .mse draws d = .ok (some a) ∧ L'.score bs .mse draws d = .ok (some a') ∧ a' < a := by
  intro L d best
  have h11 : (List.replicate 11 (2 : ℝ)).length = 11 := by simp
  have hb11 : ∀ x ∈ List.replicate 11 (2 : ℝ), 1 ≤ x ∧ x ≤ 3 := by
    intro x hx
    rw [List.eq_of_mem_replicate hx]; norm_num
  have hbest : ∀ y ∈ best, 1 ≤ y ∧ y ≤ 3 := by
    intro y hy
    simp only [best, List.mem_cons, List.not_mem_nil, or_false] at hy
    rcases hy with rfl | rfl | rfl | rfl | rfl | rfl | rfl | rfl | rfl | rfl | rfl <;> norm_num
  have hfeas := eleven_feasible (List.replicate 11 2) best h11 rfl hbest
  have hb : L.InBounds := eleven_bounds _ h11 hb11
  obtain ⟨o, ho, hnames, hnew⟩ := ani_answer env _ hb _ hfeas
  have hov : overrideFrom (elevenKeys.zip (best.map Flt.fin)) 0 (elevenScales (List.replicate 11 2)) =
      elevenScales [2, 2, 2, 2, 2, 2, 2, 2, 2, 3, 1] := by
    have e0 : "length_scale" ++ toString 0 = "length_scale0" := by decide
    have e1 : "length_scale" ++ toString 1 = "length_scale1" := by decide
    have e2 : "length_scale" ++ toString 2 = "length_scale2" := by decide
    have e3 : "length_scale" ++ toString 3 = "length_scale3" := by decide
    have e4 : "length_scale" ++ toString 4 = "length_scale4" := by decide
    have e5 : "length_scale" ++ toString 5 = "length_scale5" := by decide
    have e6 : "length_scale" ++ toString 6 = "length_scale6" := by decide
    have e7 : "length_scale" ++ toString 7 = "length_scale7" := by decide
    have e8 : "length_scale" ++ toString 8 = "length_scale8" := by decide
    have e9 : "length_scale" ++ toString 9 = "length_scale9" := by decide
    have e10 : "length_scale" ++ toString 10 = "length_scale10" := by decide
    simp only [elevenScales, List.replicate, List.map_cons, List.map_nil, overrideFrom, e0, e1, e2, e3, e4, e5, e6, e7, e8, e9, e10,
      Param.overridden, inForce, Dict.get?, Nat.zero_add, Nat.reduceAdd, elevenKeys, best, List.zip_cons_cons, List.zip_nil_right]
    simp
  rw [hov] at hnew
  rw [eleven_free _ h11] at hnames
  have hfil : (L.gp.params.filter fun np => !np.2.fixed) = elevenNames.zip (elevenScales (List.replicate 11 2)) :=
    eleven_filter _ h11
  have hpar : o.params = (List.replicate 11 (2 : ℝ)).map Flt.fin := by
    have h := getOptParams_eq L.gp (by simp [L, Learner.gp, aniLearner])
    have ho' : L.gp.getOptParams = .ok o := ho
    rw [ho', foldl_appendLists, hfil] at h
    simp only [Except.ok.injEq] at h
    rw [h]
    simp [elevenNames, elevenScales, List.replicate]
  refine ⟨rfl, hb, ?_, ?_, ⟨_, eleven_objective bs draws _ best h11 rfl, fun ys hy hyb =>
    ⟨_, eleven_objective bs draws _ ys h11 hy, ?_⟩⟩, aniLearner (elevenScales [2, 2, 2, 2, 2, 2, 2, 2, 2, 3, 1]), aniScore 2 2,
    aniScore 2 1, ?_, ?_, ?_, aniScore_right_strict one_pos (by norm_num)⟩
  · intro ps hps
    have : elevenScales (List.replicate 11 2) = ps := by
      have h : LenScale.vector (elevenScales (List.replicate 11 2)) = .vector ps := hps
      exact LenScale.vector.inj h
    subst this
    refine ⟨11, by simp [elevenScales], fun i p hp => ?_⟩
    have hi : i < 11 := by
      have := (List.getElem?_eq_some_iff.mp hp).1
      simpa [elevenScales] using this
    have hm := List.mem_of_getElem? hp
    obtain ⟨x, _, e⟩ := List.mem_map.mp hm
    rw [← e]
    simpa using hi
  · intro np hnp hn
    rw [eleven_params _ h11] at hnp
    rcases List.mem_append.mp hnp with h | h
    · obtain ⟨x, _, e⟩ := eleven_zip_free _ h
      rw [e]
    · rw [List.mem_singleton.mp h] at hn
      exact absurd hn (by decide)
  · have h2 : ys.getD 2 0 ∈ ys := by
      rw [List.getD_eq_getElem?_getD, List.getElem?_eq_getElem (by omega)]; exact List.getElem_mem _
    have h10 : ys.getD 10 0 ∈ ys := by
      rw [List.getD_eq_getElem?_getD, List.getElem?_eq_getElem (by omega)]; exact List.getElem_mem _
    exact aniScore_mono one_pos (hyb _ h2).1 (by linarith [(hyb _ h10).1]) (hyb _ h10).2
  · unfold bayesLearn
    have ho' : L.gp.getOptParams = .ok o := ho
    have hx0 : (elevenKeys.map fun k => (Dict.get? (elevenNames.zip ((List.replicate 11 (2 : ℝ)).map Flt.fin)) k).getD none) =
        (List.replicate 11 (2 : ℝ)).map Flt.fin := by
      simp [elevenKeys, elevenNames, Dict.get?, List.replicate]
    have hbay := bayes_takes (fun x => valueOf (L.objective bs .mse draws d (elevenKeys.zip x)))
      ((List.replicate 11 (2 : ℝ)).map Flt.fin) (best.map Flt.fin) none none (by decide) (by
        rw [eleven_objective bs draws _ _ h11 h11, eleven_objective bs draws _ best h11 rfl]
        simp only [valueOf]
        exact (aniScore_left_strict one_pos (by norm_num) : aniScore 2 2 < aniScore 1 2).trans
          (aniScore_right_strict (by norm_num) (by norm_num) : aniScore 1 2 < aniScore 1 3))
    have hs : KeyOrder.sorted.keys elevenNames = elevenKeys := eleven_sorted
    simp only [bind, Except.bind, ho', hnames, hpar, hs, hx0, hbay]
    rw [hnames] at hnew
    exact hnew
  · have h := ani_score bs (elevenScales (List.replicate 11 2)) 2 10 (by simp [elevenScales]) (by simp [elevenScales]) draws
    exact h
  · have h := ani_score bs (elevenScales [2, 2, 2, 2, 2, 2, 2, 2, 2, 3, 1]) 2 10 (by simp [elevenScales]) (by simp [elevenScales]) draws
    exact h

/-! ## Non-vacuity -/

/-- One free length scale in `[1, 3]`. -/
noncomputable def oneScale (x : ℝ) : List Param := [⟨Flt.fin x, Flt.fin 1, Flt.fin 3, false⟩]

theorem oneScale_free (x : ℝ) : (aniLearner (oneScale x)).freeNames = ["length_scale0"] := by
  have e0 : vecName "length_scale" 0 = "length_scale0" := by decide
  simp [Learner.freeNames, aniLearner, Learner.gp, GP.params, Kernel.named, LenScale.named, oneScale, namedFrom, e0]

theorem oneScale_params (x : ℝ) {np : String × Param} (h : np ∈ (aniLearner (oneScale x)).gp.params) (hf : np.2.fixed = false) :
    np = ("length_scale0", ⟨Flt.fin x, Flt.fin 1, Flt.fin 3, false⟩) := by
  have e0 : vecName "length_scale" 0 = "length_scale0" := by decide
  simp only [aniLearner, Learner.gp, GP.params, Kernel.named, LenScale.named, oneScale, namedFrom, e0, Option.map_none,
    Option.toList_none, List.append_nil, List.mem_cons, List.not_mem_nil, or_false, List.cons_append,
    List.nil_append] at h
  rcases h with rfl | rfl
  · rfl
  · simp at hf

theorem oneScale_bounds (x : ℝ) (h1 : 1 ≤ x) (h3 : x ≤ 3) : (aniLearner (oneScale x)).InBounds := by
  intro np hnp hf
  rw [oneScale_params x hnp hf]
  exact ⟨(x : EReal), (1 : ℝ), (3 : ℝ), rfl, rfl, rfl, EReal.coe_le_coe_iff.mpr h1, EReal.coe_le_coe_iff.mpr h3⟩

theorem oneScale_feasible (x y : ℝ) (h1 : 1 ≤ y) (h3 : y ≤ 3) :
    (aniLearner (oneScale x)).Feasible [("length_scale0", Flt.fin y)] := by
  refine ⟨by rw [oneScale_free]; exact List.Perm.refl _, fun np hnp hf => ?_⟩
  rw [oneScale_params x hnp hf]
  exact ⟨Flt.fin y, by simp [Dict.get?], (y : EReal), (1 : ℝ), (3 : ℝ), rfl, rfl, rfl, EReal.coe_le_coe_iff.mpr h1,
    EReal.coe_le_coe_iff.mpr h3⟩

theorem oneScale_freeFirst (x : ℝ) : (aniLearner (oneScale x)).FreeFirst := by
  intro ps hps
  have : oneScale x = ps := by
    have h : LenScale.vector (oneScale x) = .vector ps := hps
    exact LenScale.vector.inj h
  subst this
  refine ⟨1, by simp [oneScale], fun i p hp => ?_⟩
  cases i with
  | zero => simp [oneScale] at hp; simp [← hp]
  | succ i => simp [oneScale] at hp

/-- Non-vacuity of `C60_scipy_partial`: a model with one free length scale and a minimiser that answers 1. -/
example (env : Env) (bs : Flt → ℝ → ℝ) (draws : List (List Nat)) :
    let L := aniLearner (oneScale 2)
    let d := aniData 1 0 0
    ∃ L', scipyLearn env bs (fun _ _ _ => .ok [Flt.fin 1]) L .mse draws d = .ok L' ∧ L'.Made ∧ L'.InBounds ∧
      ∀ a, arrayObjFn (L.objective bs .mse draws d) L.freeNames [Flt.fin 1] = .ok (some (-a)) ↔ L'.score bs .mse draws d = .ok (some a) := by
  intro L d
  obtain ⟨o, ho⟩ : ∃ o, L.gp.getOptParams = .ok o := ⟨_, getOptParams_eq L.gp (by simp [L, Learner.gp, aniLearner])⟩
  obtain ⟨L', h1, h2, h3, _, _, _, h6⟩ := C60_scipy_partial env bs (fun _ _ _ => .ok [Flt.fin 1]) L rfl (by simp [L, aniLearner])
    (oneScale_bounds 2 (by norm_num) (by norm_num)) (oneScale_freeFirst 2) .mse draws d (.inl rfl) o ho [Flt.fin 1] rfl
    (by rw [oneScale_free]; rfl)
    (by rw [oneScale_free]; exact oneScale_feasible 2 1 le_rfl (by norm_num))
  exact ⟨L', h1, h2, h3, h6⟩

/-- Non-vacuity of `C60_bayes_never_worse_partial`: one free length scale, all drawn points 1, 5 random points and 20 suggested
ones (the defaults). -/
example (env : Env) (order : KeyOrder) (bs : Flt → ℝ → ℝ) (draws : List (List Nat)) :
    let L := aniLearner (oneScale 2)
    let d := aniData 1 0 0
    ∃ L' a a', bayesLearn env order bs ⟨fun _ => [Flt.fin 1], fun _ => [Flt.fin 1]⟩ none none L .mse draws d = .ok L' ∧
      L.score bs .mse draws d = .ok (some a) ∧ L'.score bs .mse draws d = .ok (some a') ∧ a ≤ a' := by
  intro L d
  have hk : order.keys L.freeNames = ["length_scale0"] := by
    rw [oneScale_free]; cases order <;> rfl
  have hone : [Flt.fin 1].length = L.freeNames.length ∧ L.Feasible ((order.keys L.freeNames).zip [Flt.fin 1]) := by
    rw [hk]
    exact ⟨by rw [oneScale_free]; rfl, oneScale_feasible 2 1 le_rfl (by norm_num)⟩
  obtain ⟨L', a, a', h1, h2, h3, h4, _⟩ := C60_bayes_never_worse_partial env order bs ⟨fun _ => [Flt.fin 1], fun _ => [Flt.fin 1]⟩
    none none L rfl (by simp [L, aniLearner]) (oneScale_bounds 2 (by norm_num) (by norm_num)) (oneScale_freeFirst 2)
    (fun _ ps hps => by
      have : oneScale 2 = ps := by
        have h : LenScale.vector (oneScale 2) = .vector ps := hps
        exact LenScale.vector.inj h
      subst this; simp [oneScale])
    .mse draws d (.inl rfl) _ (fun _ => Iff.rfl) (fun _ => hone) (fun _ => hone)
    (fun x ⟨hx, hf⟩ => by
      rw [oneScale_free] at hx
      match x, hx with
      | [v], _ =>
        rw [hk]
        have e0 : vecName "length_scale" 0 = "length_scale0" := by decide
        have hst : startsLS "length_scale0" = true := by decide
        have hv : aniValues (oneScale 2) [("length_scale0", v)] = [v] := by
          simp [aniValues, oneScale, namedFrom, e0, Dict.has, hst]
        exact ⟨_, ani_objective bs (oneScale 2) 0 0 (by simp [oneScale]) (by simp [oneScale]) draws [("length_scale0", v)]
          (by intro a ha; rw [List.mem_singleton.mp ha]; exact (by decide : "length_scale0" ≠ "self" ∧ "length_scale0" ≠ "diffs" ∧
            "length_scale0" ≠ "dists" ∧ "length_scale0" ≠ "squared_dists")) (by simp [Dict.get?]) (by rw [hv]; rfl)⟩)
  exact ⟨L', a, a', h1, h2, h3, h4⟩

end MuyGPyS
