import Verif.Spec.Inexact
import Verif.Props.Influence

/-! # C117: predictions computed inexactly -/

namespace MuyGPyS
open Py Matrix

theorem size_nonneg {n : Nat} (x : Fin n → ℝ) : 0 ≤ Spec.size x := Real.sqrt_nonneg _

theorem size_sq {n : Nat} (x : Fin n → ℝ) : Spec.size x ^ 2 = x ⬝ᵥ x := by
  unfold Spec.size
  rw [Real.sq_sqrt (Finset.sum_nonneg fun _ _ => sq_nonneg _)]
  exact Finset.sum_congr rfl fun i _ => sq (x i)

theorem size_dot {n : Nat} (x : Fin n → ℝ) : Spec.size x = √(x ⬝ᵥ x) := by
  rw [← size_sq, Real.sqrt_sq (size_nonneg x)]

theorem dot_size {n : Nat} (x y : Fin n → ℝ) : |x ⬝ᵥ y| ≤ Spec.size x * Spec.size y := by
  rw [size_dot, size_dot]
  exact dot_le x y

theorem size_add {n : Nat} (x y : Fin n → ℝ) : Spec.size (x + y) ≤ Spec.size x + Spec.size y := by
  refine abs_le_of_sq_le_sq' ?_ (add_nonneg (size_nonneg x) (size_nonneg y)) |>.2
  rw [size_sq, add_sq, size_sq, size_sq, add_dotProduct, dotProduct_add, dotProduct_add, dotProduct_comm y x]
  have := (abs_le.1 (dot_size x y)).2
  linarith

theorem size_small {n : Nat} {x : Fin n → ℝ} {ε : ℝ} (hε : 0 ≤ ε) (h : ∀ i, |x i| ≤ ε) : Spec.size x ≤ √n * ε := by
  refine abs_le_of_sq_le_sq' ?_ (by positivity) |>.2
  rw [mul_pow, Real.sq_sqrt (Nat.cast_nonneg n), size_sq]
  calc x ⬝ᵥ x ≤ ∑ _i : Fin n, ε ^ 2 := Finset.sum_le_sum fun i _ => by
        have := h i
        rw [← sq, ← sq_abs (x i)]
        exact pow_le_pow_left₀ (abs_nonneg _) this 2
    _ = n * ε ^ 2 := by rw [Finset.sum_const, Finset.card_univ, Fintype.card_fin, nsmul_eq_mul]

/-- A matrix with small entries. -/
theorem size_mulVec {n : Nat} {E : Matrix (Fin n) (Fin n) ℝ} {δ : ℝ} (hδ : 0 ≤ δ) (h : ∀ i j, |E i j| ≤ δ) (x : Fin n → ℝ) :
    Spec.size (E *ᵥ x) ≤ n * δ * Spec.size x := by
  have h1 : ∀ i, |(E *ᵥ x) i| ≤ √n * δ * Spec.size x := fun i =>
    (dot_size (E i) x).trans (mul_le_mul_of_nonneg_right (size_small hδ (h i)) (size_nonneg x))
  refine (size_small (mul_nonneg (mul_nonneg (Real.sqrt_nonneg _) hδ) (size_nonneg x)) h1).trans (le_of_eq ?_)
  rw [← mul_assoc, ← mul_assoc, Real.mul_self_sqrt (Nat.cast_nonneg n)]

/-- The solution of a perturbed system is bounded. -/
theorem perturbed_bound {n : Nat} {K A' : Matrix (Fin n) (Fin n) ℝ} {τ δ : ℝ} (hK : K.PosSemidef) (hδ : 0 ≤ δ)
    (hA : ∀ i j, |A' i j - (K + τ • (1 : Matrix (Fin n) (Fin n) ℝ)) i j| ≤ δ) (hsmall : n * δ < τ) (x : Fin n → ℝ) :
    Spec.size x ≤ Spec.size (A' *ᵥ x) / (τ - n * δ) := by
  set A := K + τ • (1 : Matrix (Fin n) (Fin n) ℝ) with hAd
  have e : A' *ᵥ x = A *ᵥ x + (A' - A) *ᵥ x := by rw [← add_mulVec]; congr 1; abel
  have h1 : τ * (x ⬝ᵥ x) ≤ x ⬝ᵥ (A *ᵥ x) := by
    rw [hAd, Kriging.quad_add_smul_one]
    have := hK.dotProduct_mulVec_nonneg x
    simp only [star_trivial] at this
    linarith
  have h2 := (abs_le.1 ((dot_size x ((A' - A) *ᵥ x)).trans (mul_le_mul_of_nonneg_left (size_mulVec hδ (fun i j => hA i j) x) (size_nonneg x)))).1
  have h3 := (abs_le.1 (dot_size x (A' *ᵥ x))).2
  rw [e, dotProduct_add, ← e] at h3
  rw [← size_sq] at h1
  rw [le_div_iff₀ (by linarith)]
  rcases (size_nonneg x).eq_or_lt with h0 | h0
  · rw [← h0, zero_mul]; exact size_nonneg _
  · have : Spec.size x * (Spec.size x * (τ - n * δ)) ≤ Spec.size x * Spec.size (A' *ᵥ x) := by nlinarith
    exact le_of_mul_le_mul_left this h0

/-- A product with the solution of a perturbed system. -/
theorem perturbed_product {n : Nat} {K A' : Matrix (Fin n) (Fin n) ℝ} {τ δ η ε : ℝ} (hτ : 0 < τ) {k k' y y' x : Fin n → ℝ}
    (hj : (Kriging.joint K k 1).PosSemidef) (hK : K.PosSemidef) (hδ : 0 ≤ δ) (hη : 0 ≤ η) (hε : 0 ≤ ε)
    (hA : ∀ i j, |A' i j - (K + τ • (1 : Matrix (Fin n) (Fin n) ℝ)) i j| ≤ δ) (hsmall : n * δ < τ)
    (hk : ∀ i, |k' i - k i| ≤ η) (hy : ∀ i, |y' i - y i| ≤ ε) (hx : A' *ᵥ x = y') :
    |k' ⬝ᵥ x - Spec.krigingMean (K + τ • (1 : Matrix (Fin n) (Fin n) ℝ)) k y| ≤ Spec.computedError n τ δ η ε (Spec.size y') := by
  have hb := perturbed_bound hK hδ hA hsmall x
  rw [hx] at hb
  set A := K + τ • (1 : Matrix (Fin n) (Fin n) ℝ) with hAd
  have hpd : A.PosDef := Kriging.posdef_of_psd_add hK hτ
  have hdet := Kriging.det_ne_zero hpd
  have hw := Kriging.weights_bound hj hpd
  -- the residual of `x` in the exact system
  set r := (y' - y) + (A - A') *ᵥ x with hr
  have hAx : A *ᵥ x = y + r := by
    rw [hr, sub_mulVec, hx]; abel
  have hkx : k ⬝ᵥ x = Spec.krigingMean A k y + (A⁻¹ *ᵥ k) ⬝ᵥ r := by
    have : x = A⁻¹ *ᵥ (y + r) := by
      rw [← hAx, mulVec_mulVec, nonsing_inv_mul _ (isUnit_iff_ne_zero.2 hdet), one_mulVec]
    rw [this, mulVec_add, dotProduct_add]
    unfold Spec.krigingMean
    rw [Kriging.swap (Kriging.posdef_symm hpd) k r]
  have hrs : Spec.size r ≤ √n * ε + n * δ * (Spec.size y' / (τ - n * δ)) := by
    refine (size_add _ _).trans (add_le_add (size_small hε hy) ?_)
    refine (size_mulVec hδ (fun i j => ?_) x).trans (mul_le_mul_of_nonneg_left hb (by positivity))
    rw [Matrix.sub_apply, abs_sub_comm]
    exact hA i j
  have hws : Spec.size (A⁻¹ *ᵥ k) ≤ 1 / (2 * √τ) := by
    rw [size_dot, Real.sqrt_le_left (by positivity), div_pow, mul_pow, Real.sq_sqrt hτ.le, one_pow, le_div_iff₀ (by positivity)]
    linarith
  have e : k' ⬝ᵥ x - Spec.krigingMean A k y = (k' - k) ⬝ᵥ x + (A⁻¹ *ᵥ k) ⬝ᵥ r := by
    rw [sub_dotProduct, hkx]; ring
  rw [e]
  unfold Spec.computedError
  refine (abs_add_le _ _).trans (add_le_add ?_ ?_)
  · exact (dot_size _ _).trans (mul_le_mul (size_small hη hk) hb (size_nonneg _) (by positivity))
  · refine (dot_size _ _).trans ((mul_le_mul hws hrs (size_nonneg _) (by positivity)).trans (le_of_eq ?_))
    ring

/-- **C117**: let the covariances of the neighbours of a test point be computed with errors of at most `δ`, their covariances with the
test point with errors of at most `η`, and their responses with errors of at most `ε`. If `nn_count δ` is less than the noise variance,
the linear systems of the prediction stay solvable, and the mean and variance that follow from their solutions `x` and `u` differ from the exact
ones at most by the stated amounts, which do not depend on the training data otherwise. -/
theorem C117_inexact (bs : Flt → ℝ → ℝ) (R : Regressor) (hk : R.kernel.make = R.kernel) (hko : R.gp.kout = KernelObj.kout)
    (hsuit : R.kernel.fn.Suits R.kernel.deform.metric) (τ : ℝ) (hτ : 0 < τ) (hν : R.gp.noise = .homoscedastic τ)
    (w : NNWrapper) (hw : w.Exact) (Q : Tensor ℝ) (m : Nat) (len : Fin w.f → ℝ) (hlen : R.kernel.deform.HasLengths w.f len)
    (hQ : Q.shape = [m, w.f]) (hm : 0 < m) (hk0 : 0 < w.nnCount) (hkN : w.nnCount ≤ w.N) :
    ∃ nn : Tensor Int, (∀ i < m, ∃ l : List Nat, rowList nn w.nnCount i = l.map Int.ofNat ∧
        Nearest (· < w.N) (fun j => w.dist (rowPt Q w.f i) (rowPt w.train w.f j)) w.nnCount l) ∧
      ∀ Y : Tensor ℝ, Y.shape = [w.N] → ∃ μ v, regressAny bs R w Q w.train Y = .ok (μ, v) ∧ μ.shape = [m] ∧ v.shape = [m] ∧
        ∀ p < m, ∀ (δ η ε : ℝ), 0 ≤ δ → 0 ≤ η → 0 ≤ ε → w.nnCount * δ < τ →
          ∀ (A : Matrix (Fin w.nnCount) (Fin w.nnCount) ℝ) (c y : Fin w.nnCount → ℝ),
            (∀ i j, |A i j - (nbrCov bs R.kernel len w.train w.N w.nnCount nn p i j + if i = j then τ else 0)| ≤ δ) →
            (∀ i, |c i - nbrCross bs R.kernel len w.train w.N w.nnCount nn p (rowPt Q w.f p) i| ≤ η) →
            (∀ i, |y i - nbrTargets Y w.N w.nnCount nn p 0 i| ≤ ε) →
            A.det ≠ 0 ∧ ∀ x u, A *ᵥ x = y → A *ᵥ u = c →
              |c ⬝ᵥ x - μ.get [p]| ≤ Spec.computedError w.nnCount τ δ η ε (Spec.size y) ∧
              |R.gp.boundScale * (1 - c ⬝ᵥ u) - v.get [p]| ≤ |R.gp.boundScale| * Spec.computedError w.nnCount τ δ η η (Spec.size c) := by
  obtain ⟨nn, h1, h2⟩ := regress_uniform bs R hk hko hsuit w hw Q m len hlen hQ hm hk0 hkN (by rw [hν]; trivial)
    (by rw [hν]; exact .inl hτ)
  refine ⟨nn, h1, fun Y hY => ?_⟩
  obtain ⟨μ, v, r1, r2, r3, r4⟩ := h2 Y hY
  refine ⟨μ, v, r1, r2, r3, fun p hp δ η ε hδ hη hε hsmall A c y hA hc hy => ?_⟩
  have hmat : R.gp.noise.mat w.nnCount p = τ • 1 := by rw [hν]; rfl
  rw [(r4 p hp).1, (r4 p hp).2, hmat]
  have hlpos := hasLengths_pos hlen
  have hK := (nbrCov_definite bs R.kernel hsuit len hlpos w.train w.N w.nnCount nn p).1
  have hj := (nbrJoint bs R.kernel hsuit len hlpos w.train w.N w.nnCount nn p (rowPt Q w.f p)).1
  set K := nbrCov bs R.kernel len w.train w.N w.nnCount nn p
  set k := nbrCross bs R.kernel len w.train w.N w.nnCount nn p (rowPt Q w.f p)
  have hA' : ∀ i j, |A i j - (K + τ • (1 : Matrix (Fin w.nnCount) (Fin w.nnCount) ℝ)) i j| ≤ δ := fun i j => by
    rw [Matrix.add_apply, Matrix.smul_apply, Matrix.one_apply, smul_eq_mul, mul_ite, mul_one, mul_zero]
    exact hA i j
  refine ⟨fun hdet => ?_, fun x u hx hu => ⟨?_, ?_⟩⟩
  · obtain ⟨x, hx0, hx⟩ := Matrix.exists_mulVec_eq_zero_iff.2 hdet
    have := perturbed_bound hK hδ hA' hsmall x
    rw [hx] at this
    have h0 : Spec.size (0 : Fin w.nnCount → ℝ) = 0 := by unfold Spec.size; simp
    rw [h0, zero_div] at this
    have hz : x ⬝ᵥ x = 0 := by rw [← size_sq, le_antisymm this (size_nonneg x)]; norm_num
    exact hx0 (dotProduct_self_eq_zero.1 hz)
  · exact perturbed_product hτ hj hK hδ hη hε hA' hsmall hc hy hx
  · have h := perturbed_product hτ hj hK hδ hη hη hA' hsmall hc hc hu
    have e : R.gp.boundScale * (1 - c ⬝ᵥ u) - R.gp.boundScale * Spec.krigingVar 1 (K + τ • (1 : Matrix (Fin w.nnCount) (Fin w.nnCount) ℝ)) k =
        R.gp.boundScale * -(c ⬝ᵥ u - Spec.krigingMean (K + τ • (1 : Matrix (Fin w.nnCount) (Fin w.nnCount) ℝ)) k k) := by
      unfold Spec.krigingVar Spec.krigingMean
      ring
    rw [e, abs_mul, abs_neg]
    exact mul_le_mul_of_nonneg_left h (abs_nonneg _)

end MuyGPyS
