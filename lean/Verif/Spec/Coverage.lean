import Verif.Spec.Prior

/-! # Prediction intervals and their coverage -/

namespace MuyGPyS
open Py MeasureTheory ProbabilityTheory

/-- The nominal coverage of an interval of `z` standard deviations to either side: the probability that a standard normal variable is smaller than `z` in absolute value
(`0.95` for `z = 1.96`). -/
noncomputable def nominalCoverage (z : ℝ) : ENNReal := gaussianReal 0 1 {x | |x| < z}

/-- The value `y` lies in the interval of `z` predicted standard deviations around the predicted mean: `abs(mean - y) < z * sqrt(variance)`. -/
def Covered (z mean variance y : ℝ) : Prop := |mean - y| < z * Real.sqrt variance

open Classical in
/-- The number of covered test points: `count_nonzero(abs(means - y) < z * sqrt(variances))`. -/
noncomputable def coveredCount (z : ℝ) (m : Nat) (means variances : Tensor ℝ) (y : Fin m → ℝ) : Nat :=
  (Finset.univ.filter fun p : Fin m => Covered z (means.get [p]) (variances.get [p]) (y p)).card

/-- The intervals `regress_any` predicts for the test points `Q` from the responses `Y` have their nominal coverage of the values `G`: for every test point with a positive
variance, whatever the responses of its nearest neighbours turn out to be (event `A`), and on average over the test points. -/
def Calibrated (bessel : Flt → ℝ → ℝ) (R : Regressor) (w : NNWrapper) {m : Nat} (Q : Tensor ℝ) {Ω : Type*} [MeasurableSpace Ω] (P : Measure Ω)
    (G : Fin m → Ω → ℝ) (Y : Ω → Tensor ℝ) : Prop :=
  ∃ (nbr : Fin m → Fin w.nnCount → Fin w.N) (μ : Ω → Tensor ℝ) (v : Tensor ℝ),
    (∀ p : Fin m, Nearest (· < w.N) (fun j => w.dist (rowPt Q w.f p) (rowPt w.train w.f j)) w.nnCount (List.ofFn fun j => (nbr p j).1)) ∧
    (∀ ω, regressAny bessel R w Q w.train (Y ω) = .ok (μ ω, v)) ∧ v.shape = [m] ∧
    ∀ z, (∀ p : Fin m, 0 < v.get [p] → ∀ A : Set (Fin w.nnCount → ℝ), MeasurableSet A →
        P ({ω | (fun j => (Y ω).get [(nbr p j).1]) ∈ A} ∩ {ω | Covered z ((μ ω).get [p]) (v.get [p]) (G p ω)}) =
          P {ω | (fun j => (Y ω).get [(nbr p j).1]) ∈ A} * nominalCoverage z) ∧
      ((∀ p : Fin m, 0 < v.get [p]) → ∫⁻ ω, coveredCount z m (μ ω) v (fun p => G p ω) ∂P = m * nominalCoverage z)

/-- The responses `Y` of the training points and the responses `Z` of the test points `q` are values `L`, `G` of a centred Gaussian process with covariance function `s · k`,
all with independent noise of variance `s · τ`. -/
def ObservedTests {Ω : Type*} [MeasurableSpace Ω] (P : Measure Ω) (w : NNWrapper) (k : (Fin w.f → ℝ) → (Fin w.f → ℝ) → ℝ) (s τ : ℝ) {m : Nat}
    (q : Fin m → Fin w.f → ℝ) (Y : Ω → Tensor ℝ) (Z : Fin m → Ω → ℝ) : Prop :=
  ∃ (L : Fin w.N → Ω → ℝ) (G : Fin m → Ω → ℝ) (e : Fin w.N ⊕ Fin m → Ω → ℝ),
    ProcessAt P k s (Sum.elim (fun i : Fin w.N => rowPt w.train w.f i) q) (Sum.elim L G) ∧
    WhiteNoise P (fun _ => s * τ) e ∧
    IndepFun (fun ω a => (Sum.elim L G : Fin w.N ⊕ Fin m → Ω → ℝ) a ω) (fun ω i => e i ω) P ∧
    (∀ ω, (Y ω).shape = [w.N]) ∧ (∀ ω (i : Fin w.N), (Y ω).get [i] = L i ω + e (.inl i) ω) ∧ ∀ ω p, Z p ω = G p ω + e (.inr p) ω

end MuyGPyS
