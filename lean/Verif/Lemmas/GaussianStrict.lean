import Verif.Lemmas.Matern
import Mathlib.LinearAlgebra.Vandermonde
import Mathlib.Algebra.Module.Submodule.Union
import Mathlib.Topology.Algebra.InfiniteSum.Order

/-! # Kernel matrices of different points are positive definite -/

namespace MuyGPyS
open Matrix

theorem posdef_iff {ι : Type*} [Fintype ι] (M : Matrix ι ι ℝ) :
    M.PosDef ↔ (∀ i j, M i j = M j i) ∧ ∀ v : ι → ℝ, v ≠ 0 → 0 < ∑ i, ∑ j, v i * M i j * v j := by
  rw [posDef_iff_dotProduct_mulVec]
  have e : ∀ v : ι → ℝ, star v ⬝ᵥ (M *ᵥ v) = ∑ i, ∑ j, v i * M i j * v j := by
    intro v
    simp only [dotProduct, mulVec, Finset.mul_sum, star_trivial]
    exact Finset.sum_congr rfl fun i _ => Finset.sum_congr rfl fun j _ => by ring
  constructor
  · rintro ⟨h1, h2⟩
    refine ⟨fun i j => ?_, fun v hv => e v ▸ h2 hv⟩
    have := congrFun (congrFun h1 j) i
    simpa [conjTranspose_apply] using this
  · rintro ⟨h1, h2⟩
    refine ⟨?_, fun v hv => (e v).symm ▸ h2 v hv⟩
    ext i j
    simp [conjTranspose_apply, h1 i j]

variable {κ : Type*} [Fintype κ]

/-- Different points have different projections on some direction. -/
theorem exists_separating {n : Nat} (y : Fin n → κ → ℝ) (hy : Function.Injective y) :
    ∃ z : κ → ℝ, Function.Injective fun i => ∑ c, y i c * z c := by
  classical
  let f : {p : Fin n × Fin n // p.1 ≠ p.2} → Module.Dual ℝ (κ → ℝ) := fun p =>
    ∑ c, (y p.1.1 c - y p.1.2 c) • LinearMap.proj c
  have hf : ∀ p z, f p z = ∑ c, (y p.1.1 c - y p.1.2 c) * z c := by
    intro p z
    simp [f, LinearMap.sum_apply]
  obtain ⟨z, hz⟩ := Module.Dual.exists_forall_ne_zero_of_forall_exists f (fun p => by
    refine ⟨fun c => y p.1.1 c - y p.1.2 c, ?_⟩
    rw [hf]
    intro h0
    apply p.2
    apply hy
    funext c
    have := (Finset.sum_eq_zero_iff_of_nonneg (fun c _ => mul_self_nonneg (y p.1.1 c - y p.1.2 c))).mp h0 c (Finset.mem_univ c)
    have := mul_self_eq_zero.mp this
    linarith)
  refine ⟨z, fun i j hij => ?_⟩
  by_contra hne
  apply hz ⟨(i, j), hne⟩
  rw [hf]
  simp only at hij
  simp only [sub_mul, Finset.sum_sub_distrib, hij, sub_self]

/-- If a Gram quadratic form with entries `⟨yᵢ, yⱼ⟩^k` vanishes, so does every functional `∑ wᵢ ⟨yᵢ, z⟩^k`. -/
theorem functional_zero {n : Nat} (y : Fin n → κ → ℝ) (w : Fin n → ℝ) (k : ℕ) (z : κ → ℝ)
    (h : ∑ i, ∑ j, w i * (∑ c, y i c * y j c) ^ k * w j = 0) : ∑ i, w i * (∑ c, y i c * z c) ^ k = 0 := by
  set y' : Option (Fin n) → κ → ℝ := fun o => o.elim z y with hy'
  have hpsd := (psd_iff _).mp (psd_pow _ (psd_gram y') k)
  have hq : ∀ s : ℝ, 0 ≤ s ^ 2 * (∑ c, z c * z c) ^ k + 2 * s * ∑ i, w i * (∑ c, y i c * z c) ^ k := by
    intro s
    have := hpsd.2 fun o => o.elim s w
    simp only [Fintype.sum_option, of_apply, hy', Option.elim_none, Option.elim_some] at this
    rw [Finset.sum_add_distrib, h] at this
    have e1 : ∑ i, s * (∑ c, z c * y i c) ^ k * w i = s * ∑ i, w i * (∑ c, y i c * z c) ^ k := by
      rw [Finset.mul_sum]
      refine Finset.sum_congr rfl fun i _ => ?_
      have : ∑ c, z c * y i c = ∑ c, y i c * z c := Finset.sum_congr rfl fun c _ => mul_comm _ _
      rw [this]; ring
    have e2 : ∑ i, w i * (∑ c, y i c * z c) ^ k * s = s * ∑ i, w i * (∑ c, y i c * z c) ^ k := by
      rw [Finset.mul_sum]
      exact Finset.sum_congr rfl fun i _ => by ring
    rw [e1, e2] at this
    linarith
  set L := ∑ i, w i * (∑ c, y i c * z c) ^ k
  set A := (∑ c, z c * z c) ^ k
  by_contra hL
  have hA : 0 ≤ A := pow_nonneg (Finset.sum_nonneg fun c _ => mul_self_nonneg _) k
  have h1 := hq (-L / (A + 1))
  have hA1 : 0 < A + 1 := by linarith
  have : (-L / (A + 1)) ^ 2 * A + 2 * (-L / (A + 1)) * L = -(L ^ 2 * (A + 2)) / (A + 1) ^ 2 := by
    field_simp; ring
  rw [this] at h1
  have hL2 : 0 < L ^ 2 := by positivity
  have : -(L ^ 2 * (A + 2)) / (A + 1) ^ 2 < 0 := div_neg_of_neg_of_pos (by nlinarith) (by positivity)
  linarith

/-- The Gaussian kernel matrix of different points is positive definite. -/
theorem gaussian_posdef {n : Nat} (y : Fin n → κ → ℝ) (hy : Function.Injective y) {t : ℝ} (ht : 0 < t) :
    (Matrix.of fun i j => Real.exp (-(t * ∑ c, (y i c - y j c) ^ 2))).PosDef := by
  obtain ⟨hs, hn⟩ := (psd_iff _).mp (gaussian_psd y t ht.le)
  rw [posdef_iff]
  refine ⟨hs, fun v hv => lt_of_le_of_ne (hn v) fun h0 => hv ?_⟩
  set w : Fin n → ℝ := fun i => v i * Real.exp (-(t * ∑ c, y i c ^ 2)) with hw
  have hform : ∑ i, ∑ j, v i * (Matrix.of fun i j => Real.exp (-(t * ∑ c, (y i c - y j c) ^ 2))) i j * v j =
      ∑ i, ∑ j, w i * Real.exp (2 * t * ∑ c, y i c * y j c) * w j := by
    refine Finset.sum_congr rfl fun i _ => Finset.sum_congr rfl fun j _ => ?_
    simp only [of_apply, hw]
    have : ∑ c, (y i c - y j c) ^ 2 = ∑ c, y i c ^ 2 + ∑ c, y j c ^ 2 - 2 * ∑ c, y i c * y j c := by
      rw [Finset.mul_sum, ← Finset.sum_add_distrib, ← Finset.sum_sub_distrib]
      exact Finset.sum_congr rfl fun c _ => by ring
    rw [this, show -(t * (∑ c, y i c ^ 2 + ∑ c, y j c ^ 2 - 2 * ∑ c, y i c * y j c)) =
      -(t * ∑ c, y i c ^ 2) + 2 * t * (∑ c, y i c * y j c) + -(t * ∑ c, y j c ^ 2) by ring, Real.exp_add, Real.exp_add]
    ring
  rw [hform] at h0
  have hsum : HasSum (fun k : ℕ => ∑ i, ∑ j, w i * ((2 * t * ∑ c, y i c * y j c) ^ k / k.factorial) * w j)
      (∑ i, ∑ j, w i * Real.exp (2 * t * ∑ c, y i c * y j c) * w j) := by
    refine hasSum_sum fun i _ => hasSum_sum fun j _ => ?_
    have h := NormedSpace.expSeries_div_hasSum_exp (𝔸 := ℝ) (2 * t * ∑ c, y i c * y j c)
    rw [← Real.exp_eq_exp_ℝ] at h
    exact (h.mul_left (w i)).mul_right (w j)
  have hterm : ∀ k : ℕ, ∑ i, ∑ j, w i * ((2 * t * ∑ c, y i c * y j c) ^ k / k.factorial) * w j =
      (2 * t) ^ k / k.factorial * ∑ i, ∑ j, w i * (∑ c, y i c * y j c) ^ k * w j := by
    intro k
    rw [Finset.mul_sum]
    refine Finset.sum_congr rfl fun i _ => ?_
    rw [Finset.mul_sum]
    exact Finset.sum_congr rfl fun j _ => by rw [mul_pow]; ring
  have hnn : ∀ k : ℕ, 0 ≤ ∑ i, ∑ j, w i * (∑ c, y i c * y j c) ^ k * w j := fun k =>
    ((psd_iff _).mp (psd_pow _ (psd_gram y) k)).2 w
  have hzero : ∀ k : ℕ, ∑ i, ∑ j, w i * (∑ c, y i c * y j c) ^ k * w j = 0 := by
    intro k
    have hle := le_hasSum hsum k fun k' _ => by
      rw [hterm]; exact mul_nonneg (by positivity) (hnn k')
    rw [hterm, ← h0] at hle
    have hpos : 0 < (2 * t) ^ k / (k.factorial : ℝ) := by positivity
    have := nonpos_of_mul_nonpos_right hle hpos
    exact le_antisymm this (hnn k)
  obtain ⟨z, hz⟩ := exists_separating y hy
  have hw0 : w = 0 := eq_zero_of_forall_pow_sum_mul_pow_eq_zero hz fun k => functional_zero y w k z (hzero k)
  funext i
  have := congrFun hw0 i
  simp only [hw, Pi.zero_apply, mul_eq_zero, Real.exp_ne_zero, or_false] at this
  exact this

namespace Matern
open MeasureTheory Set

/-- Matérn kernel matrices of different points are positive definite. -/
theorem mix_posdef {n : Nat} {ν : ℝ} (hν : 0 < ν) (y : Fin n → κ → ℝ) (hy : Function.Injective y) :
    (Matrix.of fun i j => mix ν (√(∑ c, (y i c - y j c) ^ 2) / 2)).PosDef := by
  rw [posdef_iff]
  refine ⟨((psd_iff _).mp (mix_psd hν y)).1, fun v hv => ?_⟩
  have hi : IntegrableOn (fun u => ∑ i, ∑ j, v i * mixInt ν (√(∑ c, (y i c - y j c) ^ 2) / 2) u * v j) (Ioi 0) :=
    integrable_finsetSum _ fun i _ => integrable_finsetSum _ fun j _ => ((mixInt_integrable hν _).const_mul _).mul_const _
  have hrw : ∑ i, ∑ j, v i * (Matrix.of fun i j => mix ν (√(∑ c, (y i c - y j c) ^ 2) / 2)) i j * v j =
      (∫ u in Ioi (0 : ℝ), ∑ i, ∑ j, v i * mixInt ν (√(∑ c, (y i c - y j c) ^ 2) / 2) u * v j) / Real.Gamma ν := by
    rw [integral_finsetSum _ fun i _ => integrable_finsetSum _ fun j _ =>
      ((mixInt_integrable hν _).const_mul _).mul_const _, Finset.sum_div]
    refine Finset.sum_congr rfl fun i _ => ?_
    rw [integral_finsetSum _ fun j _ => ((mixInt_integrable hν _).const_mul _).mul_const _, Finset.sum_div]
    refine Finset.sum_congr rfl fun j _ => ?_
    rw [integral_mul_const, integral_const_mul]
    simp only [Matrix.of_apply, mix]
    ring
  rw [hrw]
  refine div_pos ?_ (Real.Gamma_pos_of_pos hν)
  have hpos : ∀ u ∈ Ioi (0:ℝ), 0 < ∑ i, ∑ j, v i * mixInt ν (√(∑ c, (y i c - y j c) ^ 2) / 2) u * v j := by
    intro u hu
    have hu' : (0:ℝ) < u := hu
    have hg := ((posdef_iff _).mp (gaussian_posdef y hy (t := 1 / (4 * u)) (by positivity))).2 v hv
    have hw := Real.rpow_pos_of_pos hu' (ν - 1)
    have : ∑ i, ∑ j, v i * mixInt ν (√(∑ c, (y i c - y j c) ^ 2) / 2) u * v j = (u ^ (ν - 1) * Real.exp (-u)) *
        ∑ i, ∑ j, v i * (Matrix.of fun i j => Real.exp (-(1 / (4 * u) * ∑ c, (y i c - y j c) ^ 2))) i j * v j := by
      rw [Finset.mul_sum]
      refine Finset.sum_congr rfl fun i _ => ?_
      rw [Finset.mul_sum]
      refine Finset.sum_congr rfl fun j _ => ?_
      simp only [Matrix.of_apply, mixInt]
      rw [sub_eq_add_neg (-u), Real.exp_add, div_pow, Real.sq_sqrt (Finset.sum_nonneg fun c _ => sq_nonneg _)]
      have : -((∑ c, (y i c - y j c) ^ 2) / 2 ^ 2 / u) = -(1 / (4 * u) * ∑ c, (y i c - y j c) ^ 2) := by
        field_simp; norm_num
      rw [this]; ring
    rw [this]
    positivity
  rw [setIntegral_pos_iff_support_of_nonneg_ae]
  · have hsub : Ioi (0:ℝ) ⊆ (Function.support fun u =>
        ∑ i, ∑ j, v i * mixInt ν (√(∑ c, (y i c - y j c) ^ 2) / 2) u * v j) ∩ Ioi 0 := by
      intro u hu
      exact ⟨(hpos u hu).ne', hu⟩
    refine lt_of_lt_of_le ?_ (measure_mono hsub)
    simp
  · filter_upwards [ae_restrict_mem measurableSet_Ioi] with u hu
    exact (hpos u hu).le
  · exact hi

end Matern

end MuyGPyS
