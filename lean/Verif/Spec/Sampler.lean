import Verif.Model.Sampler
import Verif.Spec.Prior
import Verif.Spec.Neighbors
import Verif.Model.Workflow
import Mathlib.Probability.Kernel.CondDistrib

/-! # What a train/test split is -/

namespace MuyGPyS.Sampler
open Py MeasureTheory ProbabilityTheory

/-- The masks divide `n` points into `c` training points and the rest: every point is in exactly one of the two sets. -/
structure Split.Parts (S : Split) (n c : Nat) : Prop where
  train : S.train.length = n
  test : S.test.length = n
  apart : ∀ i < n, S.test.getD i false = !S.train.getD i false
  trainCount : S.train.count true = c
  testCount : S.test.count true = n - c

/-- The first `n` numbers of `z` and the first `c` of `e` are independent standard normal numbers (jointly Gaussian, centred, uncorrelated,
variance one). -/
def StandardNormals {Ω : Type*} [MeasurableSpace Ω] (P : Measure Ω) (n c : Nat) (z e : Ω → Nat → ℝ) : Prop :=
  WhiteNoise P (fun _ : Fin n ⊕ Fin c => 1) (Sum.elim (fun j ω => z ω j) (fun i ω => e ω i))

/-- The covariance matrix a `BenchmarkGP` uses for the points of a table: scale times (kernel matrix plus noise on the diagonal). -/
noncomputable def BenchmarkGP.cov (bessel : Flt → ℝ → ℝ) (gp : BenchmarkGP) (τ : ℝ) {f : Nat} (len : Fin f → ℝ) (x : Py.Tensor ℝ) (n : Nat) :
    Matrix (Fin n) (Fin n) ℝ :=
  Matrix.of fun i j => gp.scale * (gp.kernel.covFn bessel len (pt x f i) (pt x f j) + if i = j then τ else 0)

/-- What can be said about the responses a sampler `S` draws with `n` points, `c` of them for training, in a feature space of dimension `f`, for every
source of independent standard normal numbers: they are jointly Gaussian and centred, with the kernel's covariance at their points, and
the additional variances `a` of the training responses and `b` of the test responses. -/
def Obj.Draws (bessel : Flt → ℝ → ℝ) (S : Obj) (n c f : Nat) (len : Fin f → ℝ) (a b : ℝ) : Prop :=
  ∀ (Ω : Type) (_ : MeasurableSpace Ω) (P : Measure Ω) (z e : Ω → Nat → ℝ), StandardNormals P n c z e →
    ∃ Ytr Yte : Ω → Tensor ℝ, (∀ ω, S.sample bessel (z ω) (e ω) = .ok (Ytr ω, Yte ω)) ∧
      (∀ ω, (Ytr ω).shape = [c] ∧ (Yte ω).shape = [n - c]) ∧
      HasGaussianLaw (fun ω => (fun i : Fin c => (Ytr ω).get [i], fun p : Fin (n - c) => (Yte ω).get [p])) P ∧
      (∀ i : Fin c, ∫ ω, (Ytr ω).get [i] ∂P = 0) ∧ (∀ p : Fin (n - c), ∫ ω, (Yte ω).get [p] ∂P = 0) ∧
      (∀ i j : Fin c, cov[fun ω => (Ytr ω).get [i], fun ω => (Ytr ω).get [j]; P] =
        S.gp.kernel.covFn bessel len (pt S.trainFeatures f i) (pt S.trainFeatures f j) + if i = j then a else 0) ∧
      (∀ (i : Fin c) (p : Fin (n - c)), cov[fun ω => (Ytr ω).get [i], fun ω => (Yte ω).get [p]; P] =
        S.gp.kernel.covFn bessel len (pt S.trainFeatures f i) (pt S.testFeatures f p)) ∧
      ∀ p q : Fin (n - c), cov[fun ω => (Yte ω).get [p], fun ω => (Yte ω).get [q]; P] =
        S.gp.kernel.covFn bessel len (pt S.testFeatures f p) (pt S.testFeatures f q) + if p = q then b else 0

/-- What **C76** says about a sampler `S` of `n` points, `c` of them for training, in a feature space of dimension `f`: take the nearest neighbour
index of the training features and a regressor with the sampler's kernel, the variance scale 1 and the noise level `a`. Whatever the numbers drawn,
`regress_any` succeeds, and for every test point the prediction is the conditional law of the test response given the training responses of
the nearest neighbours, up to the noise `b` of the test response itself. -/
def Obj.Predicts (bessel : Flt → ℝ → ℝ) (S : Obj) (n c f : Nat) (a b : ℝ) : Prop :=
  ∀ w : NNWrapper, w.Exact → w.f = f → w.N = c → w.train = asTable S.trainFeatures → 0 < w.nnCount → w.nnCount ≤ c →
  ∀ R : Regressor, R.kernel = S.gp.kernel → R.gp.kout = KernelObj.kout → R.gp.boundScale = 1 → R.gp.noise.Level a →
  ∀ (Ω : Type) (_ : MeasurableSpace Ω) (P : Measure Ω) (_ : IsProbabilityMeasure P) (z e : Ω → Nat → ℝ), StandardNormals P n c z e →
    ∃ Ytr Yte : Ω → Tensor ℝ, (∀ ω, S.sample bessel (z ω) (e ω) = .ok (Ytr ω, Yte ω)) ∧
    ∃ (nbr : Fin (n - c) → Fin w.nnCount → Fin c) (μ : Ω → Tensor ℝ) (v : Tensor ℝ),
      (∀ p : Fin (n - c), Nearest (· < c) (fun j => w.dist (pt S.testFeatures w.f p) (pt S.trainFeatures w.f j)) w.nnCount
        (List.ofFn fun j => (nbr p j).1)) ∧
      (∀ ω, regressAny bessel R w S.testFeatures S.trainFeatures (Ytr ω) = .ok (μ ω, v) ∧ (μ ω).shape = [n - c]) ∧ v.shape = [n - c] ∧
      ∀ p : Fin (n - c), 0 ≤ v.get [p] + b ∧
        (∀ᵐ ω ∂P, condDistrib (fun ω => (Yte ω).get [p]) (fun ω j => (Ytr ω).get [(nbr p j).1]) P (fun j => (Ytr ω).get [(nbr p j).1]) =
          gaussianReal ((μ ω).get [p]) (v.get [p] + b).toNNReal) ∧
        P.map (fun ω => (Yte ω).get [p] - (μ ω).get [p]) = gaussianReal 0 (v.get [p] + b).toNNReal

end MuyGPyS.Sampler
