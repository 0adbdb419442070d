import Mathlib.Probability.Distributions.Gaussian.HasGaussianLaw.Independence
import Mathlib.Probability.Kernel.CondDistrib
import Mathlib.Probability.Distributions.Gaussian.Real
import Verif.Spec.Workflow
import Verif.Model.Pipeline
import Verif.Spec.Bessel
import Verif.Model.Noise

/-! # The statistical model behind the predictions: a Gaussian process observed with noise -/

namespace MuyGPyS
open Py MeasureTheory ProbabilityTheory

/-- The random values `L a` are those of a centred Gaussian process with covariance function `s · k`, at the points `z a`. -/
structure ProcessAt {Ω ι : Type*} [MeasurableSpace Ω] (P : Measure Ω) {f : Nat} (k : (Fin f → ℝ) → (Fin f → ℝ) → ℝ) (s : ℝ)
    (z : ι → Fin f → ℝ) (L : ι → Ω → ℝ) : Prop where
  gaussian : HasGaussianLaw (fun ω a => L a ω) P
  mean : ∀ a, P[L a] = 0
  cov : ∀ a b, cov[L a, L b; P] = s * k (z a) (z b)

/-- The random values `e i` are uncorrelated centred Gaussian noise with variances `var i`. -/
structure WhiteNoise {Ω ι : Type*} [MeasurableSpace Ω] [DecidableEq ι] (P : Measure Ω) (var : ι → ℝ) (e : ι → Ω → ℝ) : Prop where
  gaussian : HasGaussianLaw (fun ω i => e i ω) P
  mean : ∀ i, P[e i] = 0
  cov : ∀ i j, cov[e i, e j; P] = if i = j then var i else 0

/-- The noise model adds the same variance `τ` to every response (none: zero). -/
def Noise.Level (ν : Noise) (τ : ℝ) : Prop :=
  match ν with
  | .homoscedastic v => v = τ
  | .null => τ = 0
  | _ => False

/-- The responses `Y` of the training points of `w` are values of a centred Gaussian process with covariance function `s · k`, the `i`th with
independent noise of variance `s · τ i`; `G` are the values of the process (without noise) at the points `q`. -/
def ObservedWith {Ω : Type*} [MeasurableSpace Ω] (P : Measure Ω) (w : NNWrapper) (k : (Fin w.f → ℝ) → (Fin w.f → ℝ) → ℝ) (s : ℝ) (τ : Nat → ℝ)
    {m : Nat} (q : Fin m → Fin w.f → ℝ) (G : Fin m → Ω → ℝ) (Y : Ω → Tensor ℝ) : Prop :=
  ∃ L e : Fin w.N → Ω → ℝ,
    ProcessAt P k s (Sum.elim (fun i : Fin w.N => rowPt w.train w.f i) q) (Sum.elim L G) ∧
    WhiteNoise P (fun i : Fin w.N => s * τ i) e ∧
    IndepFun (fun ω a => (Sum.elim L G : Fin w.N ⊕ Fin m → Ω → ℝ) a ω) (fun ω i => e i ω) P ∧
    (∀ ω, (Y ω).shape = [w.N]) ∧ ∀ ω (i : Fin w.N), (Y ω).get [i] = L i ω + e i ω

/-- The same with noise of variance `s · τ` in every response. -/
def Observed {Ω : Type*} [MeasurableSpace Ω] (P : Measure Ω) (w : NNWrapper) (k : (Fin w.f → ℝ) → (Fin w.f → ℝ) → ℝ) (s τ : ℝ) {m : Nat}
    (q : Fin m → Fin w.f → ℝ) (G : Fin m → Ω → ℝ) (Y : Ω → Tensor ℝ) : Prop :=
  ObservedWith P w k s (fun _ => τ) q G Y

/-- The random mean `μ` and the variance `v` describe the posterior of `G` given the random values `obs`: the conditional law of `G` is normal with this mean and
variance, and the error `G - μ` is normal with variance `v` whatever the values. -/
structure PosteriorOf {Ω : Type*} [MeasurableSpace Ω] (P : Measure Ω) [IsFiniteMeasure P] {n : Nat} (obs : Ω → Fin n → ℝ) (G μ : Ω → ℝ) (v : ℝ) :
    Prop where
  nonneg : 0 ≤ v
  linear : ∃ c : Fin n → ℝ, ∀ ω, μ ω = ∑ j, c j * obs ω j
  law : ∀ᵐ ω ∂P, condDistrib G obs P (obs ω) = gaussianReal (μ ω) v.toNNReal
  error : P.map (fun ω => G ω - μ ω) = gaussianReal 0 v.toNNReal
  indep : IndepFun obs (fun ω => G ω - μ ω) P

/-- `regress_any` of the model `R` predicts the values `G` of the test points `Q` from the responses `Y` of the training points: it always succeeds; for every test
point the predicted mean and variance are the posterior of the value given the responses of the nearest neighbours of the test point. -/
def RegressPosterior (bessel : Flt → ℝ → ℝ) (R : Regressor) (w : NNWrapper) {m : Nat} (Q : Tensor ℝ) {Ω : Type*} [MeasurableSpace Ω] (P : Measure Ω)
    [IsFiniteMeasure P] (G : Fin m → Ω → ℝ) (Y : Ω → Tensor ℝ) : Prop :=
  ∃ (nbr : Fin m → Fin w.nnCount → Fin w.N) (μ : Ω → Tensor ℝ) (v : Tensor ℝ),
    (∀ p : Fin m, Nearest (· < w.N) (fun j => w.dist (rowPt Q w.f p) (rowPt w.train w.f j)) w.nnCount (List.ofFn fun j => (nbr p j).1)) ∧
    (∀ ω, regressAny bessel R w Q w.train (Y ω) = .ok (μ ω, v) ∧ (μ ω).shape = [m]) ∧ v.shape = [m] ∧
    ∀ p : Fin m, PosteriorOf P (fun ω j => (Y ω).get [(nbr p j).1]) (G p) (fun ω => (μ ω).get [p]) (v.get [p])

open Classical in
/-- The correlation function of the Matérn process with smoothness `ν` and the length scales `len`. -/
noncomputable def maternProcess (ν : ℝ) {f : Nat} (len : Fin f → ℝ) (x y : Fin f → ℝ) : ℝ :=
  if x = y then 1 else maternCorrelation ν (distOf .l2 (fun c => x c / len c) (fun c => y c / len c))

end MuyGPyS
