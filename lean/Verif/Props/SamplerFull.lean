import Verif.Props.SamplerDefault
import Verif.Props.ErrorBound

/-!
# C75: drawing for given test and training points
-/

namespace MuyGPyS.Sampler
open Py Matrix MeasureTheory ProbabilityTheory

/-- With a positive scale and noise the covariance matrix of a `BenchmarkGP` is positive definite. -/
theorem benchmark_definite (bessel : Flt → ℝ → ℝ) (gp : BenchmarkGP) (hs : gp.kernel.fn.Suits gp.kernel.deform.metric) (hpos : 0 < gp.scale)
    {τ : ℝ} (hτ : 0 < τ) {f : Nat} (len : Fin f → ℝ) (x : Tensor ℝ) (n : Nat) : (gp.cov bessel τ len x n).PosDef := by
  refine PosDef.of_dotProduct_mulVec_pos ?_ fun d hd => ?_
  · ext i j
    simp only [BenchmarkGP.cov, conjTranspose_apply, of_apply, star_trivial]
    rw [covFn_comm]
    simp only [eq_comm]
  · have h0 := covFn_psd bessel gp.kernel hs len (fun i : Fin n => pt x f i) d
    have h1 : 0 < ∑ i, d i ^ 2 := by
      obtain ⟨i, hi⟩ := Function.ne_iff.mp hd
      exact Finset.sum_pos' (fun i _ => sq_nonneg _) ⟨i, Finset.mem_univ _, by have : d i ≠ 0 := hi; positivity⟩
    have e : star d ⬝ᵥ (gp.cov bessel τ len x n *ᵥ d) =
        gp.scale * ((∑ i, ∑ j, d i * d j * gp.kernel.covFn bessel len (pt x f i) (pt x f j)) + τ * ∑ i, d i ^ 2) := by
      simp only [star_trivial, dotProduct, mulVec, BenchmarkGP.cov, of_apply, mul_add, add_mul, Finset.mul_sum, Finset.sum_add_distrib]
      congr 1
      · refine Finset.sum_congr rfl fun i _ => Finset.sum_congr rfl fun j _ => ?_
        ring
      · refine Finset.sum_congr rfl fun i _ => ?_
        simp only [mul_ite, ite_mul, mul_zero, zero_mul, Finset.sum_ite_eq, Finset.mem_univ, if_true]
        ring
    rw [e]
    positivity

/-- Rows of two tables stacked on one another. -/
theorem stack_rows (test train : Tensor ℝ) (a b f : Nat) (rest : List Nat) (h1 : test.shape = a :: rest) (h2 : train.shape = b :: rest)
    (ht : IsTable test a f) : ∃ x, IsTable x (a + b) f ∧
      (∀ (bessel : Flt → ℝ → ℝ) (gp : BenchmarkGP) (z : Nat → ℝ), benchmarkSampleFull bessel gp test train z = benchmarkSample bessel gp x z) ∧
      (∀ i < a, pt x f i = pt test f i) ∧ ∀ j < b, pt x f (a + j) = pt train f j := by
  rcases ht with h | ⟨h, rfl⟩
  · obtain rfl : rest = [f] := by rw [h1] at h; injection h
    refine ⟨⟨[a + b, f], fun k => if k < a * f then test.flat k else train.flat (k - a * f)⟩, .inl rfl, fun bessel gp z => ?_,
      fun i hi => ?_, fun j hj => ?_⟩
    · unfold benchmarkSampleFull
      simp only [h1, h2, if_true]
    · funext c
      have : i * f + c < a * f := calc i * f + c < i * f + f := by have := c.2; omega
        _ = (i + 1) * f := by ring
        _ ≤ a * f := Nat.mul_le_mul_right _ hi
      simp only [pt, feature, h1]
      rw [Tensor.get2 _ rfl, Tensor.get2 _ h1]
      simp only [this, if_true]
    · funext c
      have : (a + j) * f + c = a * f + (j * f + c) := by ring
      simp only [pt, feature, h2]
      rw [Tensor.get2 _ rfl, Tensor.get2 _ h2]
      simp only [this]
      rw [if_neg (by omega), Nat.add_sub_cancel_left]
  · obtain rfl : rest = [] := by rw [h1] at h; injection h
    refine ⟨⟨[a + b], fun k => if k < a then test.flat k else train.flat (k - a)⟩, .inr ⟨rfl, rfl⟩, fun bessel gp z => ?_,
      fun i hi => ?_, fun j hj => ?_⟩
    · unfold benchmarkSampleFull
      simp only [h1, h2]
    · funext c
      simp only [pt, feature, h1]
      rw [Tensor.get1 _ rfl, Tensor.get1 _ h1]
      simp only [hi, if_true]
    · funext c
      simp only [pt, feature, h2]
      rw [Tensor.get1 _ rfl, Tensor.get1 _ h2]
      simp only
      rw [if_neg (by omega), Nat.add_sub_cancel_left]

/-- **C75**, `benchmark_sample_full(gp, test, train)`: from independent standard normal numbers it draws, for two or more points in all, first the
responses of the test points and then those of the training points, jointly Gaussian and centred, with the covariances of the `BenchmarkGP` at those points: its
scale times the kernel, plus its scale times the noise for a response with itself. -/
theorem C75_sample_full (bessel : Flt → ℝ → ℝ) (gp : BenchmarkGP) (hk : gp.kernel.make = gp.kernel)
    (hs : gp.kernel.fn.Suits gp.kernel.deform.metric) (hpos : 0 < gp.scale) (τ : ℝ) (hτ : gp.noise.Level τ) (hτ0 : 0 < τ)
    (a b f : Nat) (hab : a + b ≠ 1) (rest : List Nat) (test train : Tensor ℝ) (h1 : test.shape = a :: rest) (h2 : train.shape = b :: rest)
    (ht : IsTable test a f) (len : Fin f → ℝ) (hlen : gp.kernel.deform.HasLengths f len)
    (Ω : Type) [MeasurableSpace Ω] (P : Measure Ω) (c : Nat) (z e : Ω → Nat → ℝ) (hz : StandardNormals P (a + b) c z e) :
    ∃ Y : Ω → Tensor ℝ, (∀ ω, benchmarkSampleFull bessel gp test train (z ω) = .ok (Y ω) ∧ (Y ω).shape = [a + b]) ∧
      HasGaussianLaw (fun ω (i : Fin (a + b)) => (Y ω).get [i]) P ∧ (∀ i < a + b, ∫ ω, (Y ω).get [i] ∂P = 0) ∧
      (∀ i < a, ∀ j < a, cov[fun ω => (Y ω).get [i], fun ω => (Y ω).get [j]; P] =
        gp.scale * (gp.kernel.covFn bessel len (pt test f i) (pt test f j) + if i = j then τ else 0)) ∧
      (∀ i < a, ∀ j < b, cov[fun ω => (Y ω).get [i], fun ω => (Y ω).get [a + j]; P] =
        gp.scale * gp.kernel.covFn bessel len (pt test f i) (pt train f j)) ∧
      ∀ i < b, ∀ j < b, cov[fun ω => (Y ω).get [a + i], fun ω => (Y ω).get [a + j]; P] =
        gp.scale * (gp.kernel.covFn bessel len (pt train f i) (pt train f j) + if i = j then τ else 0) := by
  obtain ⟨x, hx, hrun, r1, r2⟩ := stack_rows test train a b f rest h1 h2 ht
  obtain ⟨L, l1, l2, l3⟩ := (prepareCholK_spec bessel gp hk x (a + b) f hx len hlen τ hτ).1 (benchmark_definite bessel gp hs hpos hτ0 len x _)
  have hL : ∀ i j : Fin (a + b), ∑ u : Fin (a + b), L.get [(i : Nat), (u : Nat)] * L.get [(j : Nat), (u : Nat)] =
      gp.scale * (gp.kernel.covFn bessel len (pt x f i) (pt x f j) + if i = j then τ else 0) := fun i j => by
    have := congrFun (congrFun l3.2.2 i) j
    rw [mul_apply] at this
    exact this
  obtain ⟨g1, g2, g3⟩ := combination hz (fun (i : Fin (a + b)) u => match u with
      | .inl u => L.get [(i : Nat), (u : Nat)]
      | .inr _ => 0)
    (fun i ω => (⟨[a + b], fun i => ∑ j ∈ Finset.range (a + b), L.get [i, j] * z ω j⟩ : Tensor ℝ).get [(i : Nat)])
    (fun i ω => by
      rw [Tensor.get1 _ rfl]
      simp only [zero_mul, Finset.sum_const_zero, add_zero]
      rw [Finset.sum_range])
  have hc : ∀ i j : Fin (a + b), cov[fun ω => (⟨[a + b], fun i => ∑ j ∈ Finset.range (a + b), L.get [i, j] * z ω j⟩ : Tensor ℝ).get [(i : Nat)],
      fun ω => (⟨[a + b], fun i => ∑ j ∈ Finset.range (a + b), L.get [i, j] * z ω j⟩ : Tensor ℝ).get [(j : Nat)]; P] =
      gp.scale * (gp.kernel.covFn bessel len (pt x f i) (pt x f j) + if i = j then τ else 0) := fun i j => (g3 i j).trans (by
    rw [Fintype.sum_sum_type]
    simp only [mul_zero, Finset.sum_const_zero, add_zero]
    exact hL i j)
  refine ⟨fun ω => ⟨[a + b], fun i => ∑ j ∈ Finset.range (a + b), L.get [i, j] * z ω j⟩, fun ω => ⟨?_, rfl⟩, g1, fun i hi => g2 ⟨i, hi⟩,
    fun i hi j hj => ?_, fun i hi j hj => ?_, fun i hi j hj => ?_⟩
  · rw [hrun]
    unfold benchmarkSample sampleFromCholK
    simp only [l1, l2, bind, Except.bind, pure, Except.pure, if_true]
    simp [Tensor.squeeze, hab]
  · refine (hc ⟨i, by omega⟩ ⟨j, by omega⟩).trans ?_
    simp only [r1 i hi, r1 j hj, Fin.mk.injEq]
  · refine (hc ⟨i, by omega⟩ ⟨a + j, by omega⟩).trans ?_
    simp only [r1 i hi, r2 j hj, Fin.mk.injEq]
    rw [if_neg (by omega), add_zero]
  · refine (hc ⟨a + i, by omega⟩ ⟨a + j, by omega⟩).trans ?_
    simp only [r2 i hi, r2 j hj, Fin.mk.injEq, Nat.add_left_cancel_iff]

/-- Non-vacuity of `C75_sample_full`: one test point and two training points on a line, RBF kernel, scale 2, noise 1. -/
example (bessel : Flt → ℝ → ℝ) : ∃ (Ω : Type) (_ : MeasurableSpace Ω) (P : Measure Ω) (z : Ω → Nat → ℝ) (Y : Ω → Tensor ℝ),
    (∀ ω, benchmarkSampleFull bessel ⟨KernelObj.make ⟨.isotropy .F2 ⟨Flt.fin 1, Flt.fin 0, Flt.fin 0, true⟩, none, .rbf⟩, .homoscedastic 1, 2⟩
      ⟨[1], fun _ => 0⟩ ⟨[2], fun i => i⟩ (z ω) = .ok (Y ω) ∧ (Y ω).shape = [1 + 2]) := by
  obtain ⟨Ω, m, P, _, z, e, hz⟩ := standardNormals_exist (1 + 2) 0
  obtain ⟨Y, hY, -⟩ := C75_sample_full bessel
    ⟨KernelObj.make ⟨.isotropy .F2 ⟨Flt.fin 1, Flt.fin 0, Flt.fin 0, true⟩, none, .rbf⟩, .homoscedastic 1, 2⟩ rfl rfl two_pos 1 rfl one_pos
    1 2 1 (by norm_num) [] ⟨[1], fun _ => 0⟩ ⟨[2], fun i => i⟩ rfl rfl (.inr ⟨rfl, rfl⟩) (fun _ => 1) ⟨1, one_pos, rfl, fun _ => rfl⟩ Ω P 0 z e hz
  exact ⟨Ω, m, P, z, Y, hY⟩

end MuyGPyS.Sampler
