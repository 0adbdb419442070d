import Verif.Props.Update

/-!
# C80, C81: concrete models

Two neighbours at distance 1, a Matérn model with length scale 1 and no noise, and an analytic scale.
-/

namespace MuyGPyS
open Py Matrix

/-- A fixed parameter. -/
def fixedParam (v : Flt) : Param := ⟨v, Flt.fin 0, Flt.fin 0, true⟩

/-- `MuyGPS(Matern(Parameter(smoothness), Isotropy(l2, Parameter(1.0))), HomoscedasticNoise(0.0), AnalyticScale())`, with the
implementation `fn` bound. -/
noncomputable def pairLearner (smoothness : Flt) (fn : KFn) : Learner :=
  ⟨⟨.scalar (fixedParam (Flt.fin 1)), some (fixedParam smoothness)⟩, .homoscedastic (fixedParam (Flt.fin 0)), .l2, false, fn,
    .analytic 1, 1, 1⟩

/-- The distances among two neighbours at distance 1. -/
noncomputable def pairDists : Tensor ℝ := ⟨[1, 2, 2], fun k => if k = 1 ∨ k = 2 then 1 else 0⟩

theorem pair_call (bs : Flt → ℝ → ℝ) (s : Flt) (fn : KFn) (hfn : fn = .m05 ∨ fn = .m15) :
    (pairLearner s fn).trainee.R.kernel.call bs pairDists [] = .ok (pairDists.map fun d => fn.value bs none d) := by
  have h1 : Flt.toReal (Flt.fin 1) = 1 := by simp [Flt.toReal, Flt.fin]
  rcases hfn with rfl | rfl
  all_goals
    simp [pairLearner, Learner.trainee, Learner.deform, KernelObj.call, KernelObj.optFn, Dict.has, Deform.filter, filterScalar,
      Deform.call, Dict.get?, Dict.setdefault, KFn.run, fixedParam, Metric.scaleBy, h1]
    rfl

/-- `yᵀ K⁻¹ y / 2` for two equal targets `c` and correlation `ρ`. -/
theorem pair_estimate (gp : MuyGPS) (hn : gp.noise = .homoscedastic 0) (ρ c : ℝ) (h1 : 1 + ρ ≠ 0) (h2 : 1 - ρ ≠ 0) (K y : Tensor ℝ)
    (hK : K.shape = [1, 2, 2]) (hy : y.shape = [1, 2]) (k0 : K.flat 0 = 1) (k1 : K.flat 1 = ρ) (k2 : K.flat 2 = ρ) (k3 : K.flat 3 = 1)
    (y0 : y.flat 0 = c) (y1 : y.flat 1 = c) :
    scaleOptFn (.analytic 1) gp [] K y [] = .ok (some (c ^ 2 / (1 + ρ))) := by
  have hcov : Spec.cov 2 K 0 + gp.noise.mat 2 0 = !![1, ρ; ρ, 1] := by
    rw [hn]
    ext i j
    fin_cases i <;> fin_cases j <;>
      simp [Spec.cov, Tensor.get, hK, Tensor.ravel, k0, k1, k2, k3, Noise.mat]
  have hdet : (!![1, ρ; ρ, 1] : Matrix (Fin 2) (Fin 2) ℝ).det ≠ 0 := by
    rw [Matrix.det_fin_two_of]
    have : 1 * 1 - ρ * ρ = (1 + ρ) * (1 - ρ) := by ring
    rw [this]
    exact mul_ne_zero h1 h2
  have hvec : Spec.vec 2 y 0 = fun _ => c := by
    funext i
    fin_cases i <;> simp [Spec.vec, Tensor.get, hy, Tensor.ravel, y0, y1]
  have h := (C33_documented_formula gp.noise 1 2 (by rw [hn]; trivial) K y hK hy).1 (fun p hp => by
    obtain rfl : p = 0 := by omega
    rw [hcov]; exact hdet)
  show (do let s ← analyticOpt gp.noise 1 K y; return some s) = _
  rw [h]
  show Except.ok (some _) = Except.ok (some _)
  congr 2
  unfold Spec.scaleEstimate
  rw [Finset.sum_range_one]
  simp only [hcov, hvec]
  have hv : (!![1, ρ; ρ, 1] : Matrix (Fin 2) (Fin 2) ℝ)⁻¹ *ᵥ (fun _ => c) = fun _ => c / (1 + ρ) := by
    have hm : (!![1, ρ; ρ, 1] : Matrix (Fin 2) (Fin 2) ℝ) *ᵥ (fun _ => c / (1 + ρ)) = fun _ => c := by
      funext i
      fin_cases i <;> simp [Matrix.mulVec, dotProduct, Fin.sum_univ_two] <;> field_simp <;> ring
    rw [← hm, Matrix.mulVec_mulVec, Matrix.nonsing_inv_mul _ (isUnit_iff_ne_zero.2 hdet), Matrix.one_mulVec]
  unfold Spec.quadForm
  rw [hv]
  simp [dotProduct]
  field_simp

theorem pair_scale (bs : Flt → ℝ → ℝ) (s : Flt) (fn : KFn) (hfn : fn = .m05 ∨ fn = .m15) (y : Tensor ℝ) (hy : y.shape = [1, 2])
    (c : ℝ) (y0 : y.flat 0 = c) (y1 : y.flat 1 = c) (scale bound : ℝ) :
    ∃ Kin, (pairLearner s fn).trainee.R.kernel.call bs pairDists [] = .ok Kin ∧
      scaleOptFn (.analytic 1) ⟨.homoscedastic 0, KernelObj.kout, scale, bound⟩ [] Kin y [] =
        .ok (some (c ^ 2 / (1 + fn.value bs none 1))) := by
  refine ⟨_, pair_call bs s fn hfn, ?_⟩
  have hs : (0 : ℝ) < Real.sqrt 3 := by positivity
  have hone : fn.value bs none 0 = 1 := by rcases hfn with rfl | rfl <;> simp [KFn.value]
  have hpos : 0 < fn.value bs none 1 := by
    rcases hfn with rfl | rfl
    · exact Real.exp_pos _
    · simp only [KFn.value]; positivity
  have hlt : fn.value bs none 1 < 1 := by
    rcases hfn with rfl | rfl
    · simp only [KFn.value]; rw [Real.exp_lt_one_iff]; norm_num
    · simp only [KFn.value, one_mul]
      rw [Real.exp_neg, ← div_eq_mul_inv, div_lt_one (Real.exp_pos _), add_comm]
      exact Real.add_one_lt_exp hs.ne'
  refine pair_estimate _ rfl (fn.value bs none 1) c (by linarith) (by linarith) _ y rfl hy ?_ ?_ ?_ ?_ y0 y1
  all_goals simp [Tensor.map, pairDists, hone]

theorem pair_scaleOnlyIn (bs : Flt → ℝ → ℝ) (s : Flt) (fn : KFn) (hfn : fn = .m05 ∨ fn = .m15) (f : Nat → ℝ) (i : Nat) (hi : i < 2)
    (c : ℝ) (y0 : f i = c) (y1 : f (2 + i) = c) :
    (pairLearner s fn).scaleOnlyIn bs [] 2 pairDists ⟨[1, 2, 2], f⟩ i =
      (pairLearner s fn).storeScale (c ^ 2 / (1 + fn.value bs none 1)) := by
  obtain ⟨Kin, h1, h2⟩ := pair_scale bs s fn hfn ⟨[1, 2], fun k => f (k * 2 + i)⟩ rfl c (by simpa using y0) (by simpa using y1) 1 1
  unfold Learner.scaleOnlyIn
  rw [h1]
  have e1 : sliceLast ⟨[1, 2, 2], f⟩ i = .ok ⟨[1, 2], fun k => f (k * 2 + i)⟩ := by
    simp [sliceLast, hi]
  have e2 : Tensor.reshape (⟨[1, 2], fun k => f (k * 2 + i)⟩ : Tensor ℝ) [1, 2, 1] = .ok ⟨[1, 2, 1], fun k => f (k * 2 + i)⟩ :=
    Tensor.reshape_ok _ _ (by simp)
  simp only [e1, List.headD_cons, e2]
  have e3 : (pairLearner s fn).trainee.R.gp = ⟨.homoscedastic 0, KernelObj.kout, 1, 1⟩ := by
    simp [pairLearner, Learner.trainee, NoiseObj.noise, fixedParam, Flt.toReal, Flt.fin]
  rw [e3, show (pairLearner s fn).scaleKind = .analytic 1 from rfl, scaleOptFn_axis, h2]

theorem pair_made (a : ℝ) (fn : KFn) (h : setMaternFn (fixedParam (Flt.fin a)) = fn) : (pairLearner (Flt.fin a) fn).Made := by
  subst h; rfl

theorem form_half : setMaternFn (fixedParam (Flt.fin (1 / 2))) = .m05 := by
  simp [setMaternFn, fixedParam]

theorem form_three_halves : setMaternFn (fixedParam (Flt.fin (3 / 2))) = .m15 := by
  have h : ¬ Flt.fin (3 / 2) = Flt.fin (1 / 2) := by
    intro h; have := congrArg Flt.toReal h; simp [Flt.toReal, Flt.fin] at this; norm_num at this
  simp only [setMaternFn, fixedParam, if_true, if_neg h]

/-- C80 fails for a model with two outputs: two neighbours at distance 1, the first response is 1 at both, the second 0. The estimate
for the second output is 0, `optimize_scale` raises a `ValueError`, and the scale of the first output has changed. -/
theorem C80_multi_fails (bs : Flt → ℝ → ℝ) :
    let L := pairLearner (Flt.fin (1 / 2)) .m05
    let y : Tensor ℝ := ⟨[1, 2, 2], fun k => if k % 2 = 0 then 1 else 0⟩
    L.Made ∧
    multiOptimizeScaleIn bs (fun _ => []) pairDists y [L, L] = ([{ L with scale := 1 / (1 + Real.exp (-1)) }, L], .error .value) ∧
    (multiOptimizeScaleIn bs (fun _ => []) pairDists y [L, L]).1 ≠ [L, L] ∧
    ¬ AllOrNothing (multiOptimizeScaleIn bs (fun _ => []) pairDists y) := by
  intro L y
  have hpos := Real.exp_pos (-1)
  have a0 : L.scaleOnlyIn bs [] 2 pairDists y 0 = ({ L with scale := 1 / (1 + Real.exp (-1)) }, .ok ()) := by
    refine (pair_scaleOnlyIn bs _ .m05 (Or.inl rfl) _ 0 (by norm_num) 1 (by simp) (by simp)).trans ?_
    unfold Learner.storeScale
    rw [if_neg (by simp only [KFn.value]; push Not; positivity)]
    simp only [KFn.value, one_pow]
    rfl
  have a1 : L.scaleOnlyIn bs [] 2 pairDists y 1 = (L, .error .value) := by
    refine (pair_scaleOnlyIn bs _ .m05 (Or.inl rfl) _ 1 (by norm_num) 0 (by simp) (by simp)).trans ?_
    unfold Learner.storeScale
    rw [if_pos (by simp)]
  have e : multiOptimizeScaleIn bs (fun _ => []) pairDists y [L, L] =
      ([{ L with scale := 1 / (1 + Real.exp (-1)) }, L], .error .value) := by
    show (if (2 : Nat) ≠ 2 then ([L, L], Except.error Err.value) else scaleEachIn bs (fun _ => []) 2 pairDists y 0 [L, L]) = _
    rw [if_neg (by simp)]
    simp only [scaleEachIn, a0, a1]
  have hne : (multiOptimizeScaleIn bs (fun _ => []) pairDists y [L, L]).1 ≠ [L, L] := by
    rw [e]
    intro h
    have h1 : ({ L with scale := 1 / (1 + Real.exp (-1)) } : Learner) = L := (List.cons.inj h).1
    have h2 : 1 / (1 + Real.exp (-1)) = (1 : ℝ) := congrArg Learner.scale h1
    rw [div_eq_iff (by positivity)] at h2
    linarith
  exact ⟨pair_made _ _ form_half, e, hne, fun h => hne (h [L, L] ⟨.value, congrArg Prod.snd e⟩)⟩

/-- The hypotheses of `C80_set_params_fails` are met, for example by a Matérn kernel with a misspelt second name. -/
example (bs : Flt → ℝ → ℝ) :
    let L := pairLearner (Flt.fin (1 / 2)) .m05
    ((Change.setParams [("length_scale", fixedParam (Flt.fin 2)), ("smoothnes", fixedParam (Flt.fin 2))]).run bs L).2 = .error .key ∧
    ((Change.setParams [("length_scale", fixedParam (Flt.fin 2)), ("smoothnes", fixedParam (Flt.fin 2))]).run bs L).1 ≠ L := by
  intro L
  have h := C80_set_params_fails bs L ("length_scale", fixedParam (Flt.fin 1)) (by simp [L, pairLearner, Kernel.named, LenScale.named])
    "smoothnes" (by simp [L, pairLearner, Kernel.named, LenScale.named]) (fixedParam (Flt.fin 2)) (by
      intro h; have := congrArg (fun p => Flt.toReal p.val) h; simp [Flt.toReal, Flt.fin, fixedParam] at this)
  exact ⟨h.1, h.2.1⟩

end MuyGPyS
