import Mathlib.Analysis.Matrix.Order
import Mathlib.Analysis.Normed.Algebra.Exponential
import Mathlib.Analysis.SpecialFunctions.Exponential
import Mathlib.Tactic.Linarith

/-! # Gaussian Gram matrices are positive semidefinite -/

namespace MuyGPyS
open Matrix Filter Topology

variable {ι κ : Type*} [Fintype ι] [Fintype κ]

/-- Positive semidefiniteness of a real matrix through its quadratic form. -/
theorem psd_iff (M : Matrix ι ι ℝ) :
    M.PosSemidef ↔ (∀ i j, M i j = M j i) ∧ ∀ v : ι → ℝ, 0 ≤ ∑ i, ∑ j, v i * M i j * v j := by
  rw [posSemidef_iff_dotProduct_mulVec]
  have e : ∀ v : ι → ℝ, star v ⬝ᵥ (M *ᵥ v) = ∑ i, ∑ j, v i * M i j * v j := by
    intro v
    simp only [dotProduct, mulVec, Finset.mul_sum, star_trivial]
    exact Finset.sum_congr rfl fun i _ => Finset.sum_congr rfl fun j _ => by ring
  constructor
  · rintro ⟨h1, h2⟩
    refine ⟨fun i j => ?_, fun v => e v ▸ h2 v⟩
    have := congrFun (congrFun h1 j) i
    simpa [conjTranspose_apply] using this
  · rintro ⟨h1, h2⟩
    refine ⟨?_, fun v => (e v).symm ▸ h2 v⟩
    ext i j
    simp [conjTranspose_apply, h1 i j]

/-- Entrywise limits of positive semidefinite matrices are positive semidefinite. -/
theorem psd_of_tendsto (F : ℕ → Matrix ι ι ℝ) (M : Matrix ι ι ℝ)
    (hF : ∀ n, (F n).PosSemidef) (hlim : ∀ i j, Tendsto (fun n => F n i j) atTop (𝓝 (M i j))) :
    M.PosSemidef := by
  rw [psd_iff]
  constructor
  · intro i j
    have h1 := hlim i j
    have h2 := hlim j i
    have : (fun n => F n i j) = fun n => F n j i := funext fun n => ((psd_iff _).mp (hF n)).1 i j
    rw [this] at h1
    exact tendsto_nhds_unique h1 h2
  · intro v
    have h : Tendsto (fun n => ∑ i, ∑ j, v i * F n i j * v j) atTop
        (𝓝 (∑ i, ∑ j, v i * M i j * v j)) :=
      tendsto_finsetSum _ fun i _ => tendsto_finsetSum _ fun j _ =>
        (((hlim i j).const_mul (v i)).mul_const (v j))
    exact ge_of_tendsto' h fun n => ((psd_iff _).mp (hF n)).2 v

theorem psd_pow (G : Matrix ι ι ℝ) (hG : G.PosSemidef) (n : ℕ) :
    (Matrix.of fun i j => G i j ^ n).PosSemidef := by
  induction n with
  | zero =>
    rw [psd_iff]
    refine ⟨fun _ _ => by simp, fun v => ?_⟩
    have : ∑ i, ∑ j, v i * (Matrix.of fun i j => G i j ^ 0) i j * v j = (∑ i, v i) ^ 2 := by
      simp only [of_apply, pow_zero, mul_one]
      rw [sq, Finset.sum_mul_sum]
    rw [this]; positivity
  | succ n ih =>
    have : (Matrix.of fun i j => G i j ^ (n + 1)) = (Matrix.of fun i j => G i j ^ n) ⊙ G := by
      ext i j; simp [hadamard_apply, pow_succ]
    rw [this]
    exact ih.hadamard hG

/-- The entrywise exponential of a positive semidefinite matrix is positive semidefinite. -/
theorem psd_exp (G : Matrix ι ι ℝ) (hG : G.PosSemidef) :
    (Matrix.of fun i j => Real.exp (G i j)).PosSemidef := by
  refine psd_of_tendsto
    (fun n => ∑ k ∈ Finset.range n, ((k.factorial : ℝ)⁻¹ • Matrix.of fun i j => G i j ^ k)) _ ?_ ?_
  · intro n
    induction n with
    | zero => simpa using PosSemidef.zero
    | succ n ih =>
      rw [Finset.sum_range_succ]
      exact ih.add ((psd_pow G hG n).smul (by positivity))
  · intro i j
    have h := (NormedSpace.expSeries_div_hasSum_exp (𝔸 := ℝ) (G i j)).tendsto_sum_nat
    rw [← Real.exp_eq_exp_ℝ] at h
    refine h.congr fun n => ?_
    rw [Matrix.sum_apply]
    refine Finset.sum_congr rfl fun k _ => ?_
    show _ = (k.factorial : ℝ)⁻¹ * G i j ^ k
    rw [div_eq_inv_mul]

/-- Rescaling rows and columns by the same weights. -/
theorem psd_scale (M : Matrix ι ι ℝ) (hM : M.PosSemidef) (a : ι → ℝ) :
    (Matrix.of fun i j => a i * a j * M i j).PosSemidef := by
  obtain ⟨h1, h2⟩ := (psd_iff M).mp hM
  rw [psd_iff]
  refine ⟨fun i j => by simp [h1 i j, mul_comm (a i)], fun v => ?_⟩
  have := h2 fun i => a i * v i
  refine this.trans_eq ?_
  exact Finset.sum_congr rfl fun i _ => Finset.sum_congr rfl fun j _ => by
    simp only [of_apply]; ring

/-- Gram matrices. -/
theorem psd_gram (y : ι → κ → ℝ) : (Matrix.of fun i j => ∑ c, y i c * y j c).PosSemidef := by
  have h := posSemidef_self_mul_conjTranspose (Matrix.of y)
  have e : (Matrix.of y) * (Matrix.of y)ᴴ = Matrix.of fun i j => ∑ c, y i c * y j c := by
    ext i j; simp [mul_apply]
  rwa [e] at h

/-- The Gaussian kernel of any finite family of points is positive semidefinite. -/
theorem gaussian_psd (y : ι → κ → ℝ) (t : ℝ) (ht : 0 ≤ t) :
    (Matrix.of fun i j => Real.exp (-(t * ∑ c, (y i c - y j c) ^ 2))).PosSemidef := by
  have h1 := psd_exp _ ((psd_gram y).smul (show (0 : ℝ) ≤ 2 * t by positivity))
  have h2 := psd_scale _ h1 fun i => Real.exp (-(t * ∑ c, y i c ^ 2))
  convert h2 using 1
  ext i j
  simp only [of_apply, Matrix.smul_apply, smul_eq_mul]
  rw [← Real.exp_add, ← Real.exp_add]
  congr 1
  have : ∑ c, (y i c - y j c) ^ 2 = ∑ c, y i c ^ 2 + ∑ c, y j c ^ 2 - 2 * ∑ c, y i c * y j c := by
    rw [Finset.mul_sum, ← Finset.sum_add_distrib, ← Finset.sum_sub_distrib]
    exact Finset.sum_congr rfl fun c _ => by ring
  rw [this]; ring

end MuyGPyS
