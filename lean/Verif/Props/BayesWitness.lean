import Mathlib.Probability.Distributions.Gaussian.Multivariate
import Verif.Props.Bayes
import Verif.Props.Always

/-!
# C71: the statistical model exists for every model, data set and test set
-/

namespace MuyGPyS
open Py Matrix MeasureTheory ProbabilityTheory

/-- Coordinates of a measure-preserving image. -/
theorem gaussian_transfer {Ω ι : Type} [MeasurableSpace Ω] [Fintype ι] [DecidableEq ι] (P : Measure Ω) (S : Matrix ι ι ℝ) (hS : S.PosSemidef)
    (g : Ω → EuclideanSpace ℝ ι) (hg : MeasurePreserving g P (multivariateGaussian 0 S)) :
    HasGaussianLaw (fun ω a => g ω a) P ∧ (∀ a, ∫ ω, g ω a ∂P = 0) ∧
      ∀ a b, cov[fun ω => g ω a, fun ω => g ω b; P] = S a b := by
  have hgl : HasGaussianLaw g P := by
    refine ⟨?_⟩
    rw [hg.map_eq]; infer_instance
  refine ⟨?_, fun a => ?_, fun a b => ?_⟩
  · exact hgl.map_fun (EuclideanSpace.equiv ι ℝ).toContinuousLinearMap
  · have hm := measurePreserving_eval_multivariateGaussian (μ := (0 : EuclideanSpace ℝ ι)) hS (i := a)
    have := (hm.comp hg)
    have e : ∫ ω, g ω a ∂P = ∫ x, x ∂(gaussianReal 0 (S a a).toNNReal) := by
      rw [← show Measure.map ((fun x : EuclideanSpace ℝ ι => x a) ∘ g) P = gaussianReal 0 (S a a).toNNReal from by
        simpa using this.map_eq, integral_map this.measurable.aemeasurable (by fun_prop)]
      rfl
    rw [e, integral_id_gaussianReal]
  · rw [← covariance_eval_multivariateGaussian (μ := (0 : EuclideanSpace ℝ ι)) hS a b, ← hg.map_eq]
    exact (covariance_map (X := fun x : EuclideanSpace ℝ ι => x a) (Y := fun x : EuclideanSpace ℝ ι => x b)
      (Continuous.aestronglyMeasurable (by fun_prop)) (Continuous.aestronglyMeasurable (by fun_prop)) hg.measurable.aemeasurable).symm

theorem prior_exists_of_psd {f : Nat} {ι κ : Type} [Fintype ι] [DecidableEq ι] [Fintype κ] [DecidableEq κ]
    (k : (Fin f → ℝ) → (Fin f → ℝ) → ℝ) (s : ℝ) (z : ι → Fin f → ℝ) (hpsd : (Matrix.of fun a b => s * k (z a) (z b)).PosSemidef)
    (var : κ → ℝ) (hvar : ∀ i, 0 ≤ var i) :
    ∃ (Ω : Type) (_ : MeasurableSpace Ω) (P : Measure Ω) (_ : IsProbabilityMeasure P) (L : ι → Ω → ℝ) (e : κ → Ω → ℝ),
      ProcessAt P k s z L ∧ WhiteNoise P var e ∧ IndepFun (fun ω a => L a ω) (fun ω i => e i ω) P := by
  set S : Matrix ι ι ℝ := Matrix.of fun a b => s * k (z a) (z b) with hS
  have hD : (Matrix.diagonal var).PosSemidef := PosSemidef.diagonal hvar
  refine ⟨EuclideanSpace ℝ ι × EuclideanSpace ℝ κ, inferInstance,
    (multivariateGaussian 0 S).prod (multivariateGaussian 0 (Matrix.diagonal var)), inferInstance,
    fun a ω => ω.1 a, fun i ω => ω.2 i, ?_, ?_, ?_⟩
  · obtain ⟨h1, h2, h3⟩ := gaussian_transfer (S := S) (hS := hpsd) (g := Prod.fst) (hg := measurePreserving_fst)
      (P := (multivariateGaussian 0 S).prod (multivariateGaussian 0 (Matrix.diagonal var)))
    exact ⟨h1, h2, h3⟩
  · obtain ⟨h1, h2, h3⟩ := gaussian_transfer (S := Matrix.diagonal var) (hS := hD) (g := Prod.snd) (hg := measurePreserving_snd)
      (P := (multivariateGaussian 0 S).prod (multivariateGaussian 0 (Matrix.diagonal var)))
    exact ⟨h1, h2, fun i j => by rw [h3, Matrix.diagonal_apply]⟩
  · have := indepFun_prod (μ := multivariateGaussian 0 S) (ν := multivariateGaussian 0 (Matrix.diagonal var))
      (X := fun (x : EuclideanSpace ℝ ι) a => x a) (Y := fun (x : EuclideanSpace ℝ κ) i => x i) (by fun_prop) (by fun_prop)
    exact this

/-- The Gaussian process of every kernel that suits its metric, with any scale and noise level, exists at any points. -/
theorem prior_exists (bessel : Flt → ℝ → ℝ) (k : KernelObj) (hk : k.fn.Suits k.deform.metric) {f : Nat} (len : Fin f → ℝ)
    (s : ℝ) (hs : 0 ≤ s) {ι κ : Type} [Fintype ι] [DecidableEq ι] [Fintype κ] [DecidableEq κ] (z : ι → Fin f → ℝ)
    (var : κ → ℝ) (hvar : ∀ i, 0 ≤ var i) :
    ∃ (Ω : Type) (_ : MeasurableSpace Ω) (P : Measure Ω) (_ : IsProbabilityMeasure P) (L : ι → Ω → ℝ) (e : κ → Ω → ℝ),
      ProcessAt P (k.covFn bessel len) s z L ∧ WhiteNoise P var e ∧ IndepFun (fun ω a => L a ω) (fun ω i => e i ω) P := by
  refine prior_exists_of_psd _ s z ?_ var hvar
  let φ := Fintype.equivFin ι
  have := (value_definite bessel ((k.smoothness.map (·.val)).getD none) k.fn k.deform.metric hk
    fun i c => z (φ.symm i) c / len c).1
  have h2 := (this.submatrix φ).smul hs
  convert h2 using 1
  ext a b
  simp [KernelObj.covFn]

/-- Responses drawn from the statistical model exist for every kernel that suits its metric, scale, noise level, training set and test
points. -/
theorem observed_exists (bessel : Flt → ℝ → ℝ) (k : KernelObj) (hk : k.fn.Suits k.deform.metric) (w : NNWrapper) (len : Fin w.f → ℝ)
    (s τ : ℝ) (hs : 0 ≤ s) (hτ : 0 ≤ τ) {m : Nat} (q : Fin m → Fin w.f → ℝ) :
    ∃ (Ω : Type) (_ : MeasurableSpace Ω) (P : Measure Ω) (_ : IsProbabilityMeasure P) (G : Fin m → Ω → ℝ) (Y : Ω → Tensor ℝ),
      Observed P w (k.covFn bessel len) s τ q G Y := by
  obtain ⟨Ω, i1, P, i2, L, e, h1, h2, h3⟩ := prior_exists bessel k hk len s hs
    (Sum.elim (fun i : Fin w.N => rowPt w.train w.f i) q) (fun _ : Fin w.N => s * τ) fun _ => mul_nonneg hs hτ
  have hsum : (Sum.elim (fun i => L (.inl i)) (fun p => L (.inr p)) : Fin w.N ⊕ Fin m → Ω → ℝ) = L := by
    funext a; cases a <;> rfl
  refine ⟨Ω, i1, P, i2, fun p => L (.inr p), fun ω => ⟨[w.N], fun x => if h : x < w.N then L (.inl ⟨x, h⟩) ω + e ⟨x, h⟩ ω else 0⟩,
    fun i => L (.inl i), e, by rw [hsum]; exact h1, h2, by rw [hsum]; exact h3, fun _ => rfl, fun ω i => ?_⟩
  rw [Tensor.get1 _ rfl]
  simp

/-- Non-vacuity of `C71_posterior`: three training points on a line, two test points, two neighbours, noise. -/
example (bs : Flt → ℝ → ℝ) : ∃ (w : NNWrapper) (Ω : Type) (_ : MeasurableSpace Ω) (P : Measure Ω) (_ : IsProbabilityMeasure P)
    (G : Fin 2 → Ω → ℝ) (Y : Ω → Tensor ℝ) (μ : Ω → Tensor ℝ) (v : Tensor ℝ), w.train = lineTrain ∧
      (∀ ω, regressAny bs lineModel w lineTest lineTrain (Y ω) = .ok (μ ω, v)) ∧
      ∀ p, P.map (fun ω => G p ω - (μ ω).get [p]) = gaussianReal 0 (v.get [p]).toNNReal := by
  obtain ⟨answer, hw⟩ := line_exact
  set w : NNWrapper := ⟨3, 1, lineTrain, 2, fun x y => |x 0 - y 0|, false, answer⟩ with hwd
  obtain ⟨Ω, i1, P, i2, G, Y, h⟩ := observed_exists bs lineModel.kernel rfl w (fun _ => 1) 1 1 zero_le_one zero_le_one
    (fun p : Fin 2 => rowPt lineTest w.f p)
  obtain ⟨_, μ, v, -, h2, -, h4⟩ := C71_posterior bs lineModel rfl rfl rfl w hw lineTest 2 (fun _ => 1)
    ⟨1, one_pos, rfl, fun _ => rfl⟩ rfl two_pos two_pos (by show 2 ≤ 3; norm_num) 1 rfl (.inl one_pos) P G Y h
  exact ⟨w, Ω, i1, P, i2, G, Y, μ, v, rfl, fun ω => (h2 ω).1, fun p => (h4 p).2.2.2.2.1⟩

end MuyGPyS
