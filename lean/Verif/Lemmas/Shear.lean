import Verif.Lemmas.GaussJet
import Verif.Model.Shear
import Verif.Spec.Shear

/-! # Derivatives of the Gaussian and the shear blocks -/

namespace MuyGPyS
namespace Shear
open Py

/-- `n`-th derivative of the one-dimensional Gaussian. -/
noncomputable def J (ℓ : ℝ) (n : ℕ) : ℝ → ℝ := iteratedDeriv n (gauss1 ℓ)

theorem J_hasDerivAt (ℓ : ℝ) (n : ℕ) (x : ℝ) : HasDerivAt (J ℓ n) (J ℓ (n + 1) x) x := by
  have hd : DifferentiableAt ℝ (iteratedDeriv n (gauss1 ℓ)) x :=
    ((gauss1_contDiff ℓ).differentiable_iteratedDeriv n (WithTop.coe_lt_top (n : ℕ∞))) x
  have : J ℓ (n + 1) x = deriv (J ℓ n) x := by
    unfold J; rw [iteratedDeriv_succ]
  rw [this]
  exact hd.hasDerivAt

theorem gauss_poly_deriv (ℓ : ℝ) (p p' : ℝ → ℝ) (x : ℝ) (hp : HasDerivAt p (p' x) x) :
    HasDerivAt (fun x => p x * gauss1 ℓ x) ((p' x - x / ℓ * p x) * gauss1 ℓ x) x := by
  have hg : HasDerivAt (gauss1 ℓ) (gauss1 ℓ x * (-(2 * x) / (2 * ℓ))) x := by
    unfold gauss1
    have h1 : HasDerivAt (fun x : ℝ => -(x ^ 2) / (2 * ℓ)) (-(2 * x) / (2 * ℓ)) x := by
      have := ((hasDerivAt_pow 2 x).neg).div_const (2 * ℓ)
      simpa using this
    exact h1.exp
  have h := hp.mul hg
  have : -(2 * x) / (2 * ℓ) = - (x / ℓ) := by
    rw [neg_div, mul_div_mul_left _ _ (two_ne_zero)]
  exact h.congr_deriv (by rw [this]; ring)

theorem J0 (ℓ : ℝ) : J ℓ 0 = gauss1 ℓ := by unfold J; exact iteratedDeriv_zero

theorem J_step (ℓ : ℝ) (n : ℕ) (p p' : ℝ → ℝ) (h : J ℓ n = fun x => p x * gauss1 ℓ x)
    (hp : ∀ x, HasDerivAt p (p' x) x) : J ℓ (n + 1) = fun x => (p' x - x / ℓ * p x) * gauss1 ℓ x := by
  funext x
  have h1 := J_hasDerivAt ℓ n x
  rw [h] at h1
  exact h1.unique (gauss_poly_deriv ℓ p p' x (hp x))

theorem J1 (ℓ : ℝ) : J ℓ 1 = fun x => (-(x / ℓ)) * gauss1 ℓ x := by
  rw [J_step ℓ 0 (fun _ => 1) (fun _ => 0) (by rw [J0]; funext x; ring) (fun x => hasDerivAt_const x 1)]
  funext x; ring

theorem J2 (ℓ : ℝ) : J ℓ 2 = fun x => (x ^ 2 / ℓ ^ 2 - 1 / ℓ) * gauss1 ℓ x := by
  rw [J_step ℓ 1 (fun x => -(x / ℓ)) (fun _ => -(1 / ℓ)) (J1 ℓ) (fun x => ((hasDerivAt_id x).div_const ℓ).neg)]
  funext x; ring

theorem J3 (ℓ : ℝ) : J ℓ 3 = fun x => (3 * x / ℓ ^ 2 - x ^ 3 / ℓ ^ 3) * gauss1 ℓ x := by
  rw [J_step ℓ 2 (fun x => x ^ 2 / ℓ ^ 2 - 1 / ℓ) (fun x => 2 * x / ℓ ^ 2) (J2 ℓ) (fun x => by
    have := ((hasDerivAt_pow 2 x).div_const (ℓ ^ 2)).sub_const (1 / ℓ)
    simpa using this)]
  funext x; ring

theorem J4 (ℓ : ℝ) : J ℓ 4 = fun x => (3 / ℓ ^ 2 - 6 * x ^ 2 / ℓ ^ 3 + x ^ 4 / ℓ ^ 4) * gauss1 ℓ x := by
  rw [J_step ℓ 3 (fun x => 3 * x / ℓ ^ 2 - x ^ 3 / ℓ ^ 3) (fun x => 3 / ℓ ^ 2 - 3 * x ^ 2 / ℓ ^ 3) (J3 ℓ) (fun x => by
    have := (((hasDerivAt_id x).const_mul 3).div_const (ℓ ^ 2)).sub ((hasDerivAt_pow 3 x).div_const (ℓ ^ 3))
    exact this.congr_deriv (by norm_num))]
  funext x; ring

/-- Products of derivatives of the two one-dimensional factors. -/
noncomputable def P (ℓ : ℝ) (m n : ℕ) (x y : ℝ) : ℝ := J ℓ m x * J ℓ n y

theorem dx_s (ℓ : ℝ) (m n : ℕ) (t₁ t₂ x y : ℝ) :
    HasDerivAt (fun u => P ℓ m n (u - t₁) (y - t₂)) (P ℓ (m + 1) n (x - t₁) (y - t₂)) x := by
  have := ((J_hasDerivAt ℓ m (x - t₁)).comp x ((hasDerivAt_id x).sub_const t₁)).mul_const (J ℓ n (y - t₂))
  simpa [P] using this

theorem dy_s (ℓ : ℝ) (m n : ℕ) (t₁ t₂ x y : ℝ) :
    HasDerivAt (fun u => P ℓ m n (x - t₁) (u - t₂)) (P ℓ m (n + 1) (x - t₁) (y - t₂)) y := by
  have := ((J_hasDerivAt ℓ n (y - t₂)).comp y ((hasDerivAt_id y).sub_const t₂)).const_mul (J ℓ m (x - t₁))
  simpa [P] using this

theorem dx_t (ℓ : ℝ) (m n : ℕ) (s₁ s₂ x y : ℝ) :
    HasDerivAt (fun u => P ℓ m n (s₁ - u) (s₂ - y)) (-P ℓ (m + 1) n (s₁ - x) (s₂ - y)) x := by
  have := ((J_hasDerivAt ℓ m (s₁ - x)).comp x ((hasDerivAt_id x).const_sub s₁)).mul_const (J ℓ n (s₂ - y))
  simpa [P] using this

theorem dy_t (ℓ : ℝ) (m n : ℕ) (s₁ s₂ x y : ℝ) :
    HasDerivAt (fun u => P ℓ m n (s₁ - x) (s₂ - u)) (-P ℓ m (n + 1) (s₁ - x) (s₂ - y)) y := by
  have := ((J_hasDerivAt ℓ n (s₂ - y)).comp y ((hasDerivAt_id y).const_sub s₂)).const_mul (J ℓ m (s₁ - x))
  simpa [P] using this

/-- The operator of an observable on the pair of orders `(m, n)`. -/
noncomputable def obsP (ℓ : ℝ) (a : Fin 3) (m n : ℕ) (x y : ℝ) : ℝ :=
  match a with
  | 0 => (P ℓ (m + 2) n x y + P ℓ m (n + 2) x y) / 2
  | 1 => (P ℓ (m + 2) n x y - P ℓ m (n + 2) x y) / 2
  | 2 => P ℓ (m + 1) (n + 1) x y

theorem observe_t (ℓ : ℝ) (c : Fin 3) (m n : ℕ) (s₁ s₂ t₁ t₂ : ℝ) :
    observe c (fun x y => P ℓ m n (s₁ - x) (s₂ - y)) t₁ t₂ = obsP ℓ c m n (s₁ - t₁) (s₂ - t₂) := by
  have h1 : dx (fun x y => P ℓ m n (s₁ - x) (s₂ - y)) = fun x y => -P ℓ (m + 1) n (s₁ - x) (s₂ - y) := by
    funext x y; exact (dx_t ℓ m n s₁ s₂ x y).deriv
  have h2 : dy (fun x y => P ℓ m n (s₁ - x) (s₂ - y)) = fun x y => -P ℓ m (n + 1) (s₁ - x) (s₂ - y) := by
    funext x y; exact (dy_t ℓ m n s₁ s₂ x y).deriv
  have h3 : dx (fun x y => -P ℓ (m + 1) n (s₁ - x) (s₂ - y)) = fun x y => P ℓ (m + 2) n (s₁ - x) (s₂ - y) := by
    funext x y; exact ((dx_t ℓ (m + 1) n s₁ s₂ x y).neg).deriv.trans (neg_neg _)
  have h4 : dy (fun x y => -P ℓ m (n + 1) (s₁ - x) (s₂ - y)) = fun x y => P ℓ m (n + 2) (s₁ - x) (s₂ - y) := by
    funext x y; exact ((dy_t ℓ m (n + 1) s₁ s₂ x y).neg).deriv.trans (neg_neg _)
  have h5 : dx (fun x y => -P ℓ m (n + 1) (s₁ - x) (s₂ - y)) = fun x y => P ℓ (m + 1) (n + 1) (s₁ - x) (s₂ - y) := by
    funext x y; exact ((dx_t ℓ m (n + 1) s₁ s₂ x y).neg).deriv.trans (neg_neg _)
  fin_cases c
  · simp [observe, obsP, h1, h2, h3, h4]
  · simp [observe, obsP, h1, h2, h3, h4]
  · simp [observe, obsP, h2, h5]

theorem observe_s_lin (ℓ : ℝ) (a : Fin 3) (α β : ℝ) (m n m' n' : ℕ) (s₁ s₂ t₁ t₂ : ℝ) :
    observe a (fun x y => α * P ℓ m n (x - t₁) (y - t₂) + β * P ℓ m' n' (x - t₁) (y - t₂)) s₁ s₂ =
      α * obsP ℓ a m n (s₁ - t₁) (s₂ - t₂) + β * obsP ℓ a m' n' (s₁ - t₁) (s₂ - t₂) := by
  have hx : ∀ m n m' n', dx (fun x y => α * P ℓ m n (x - t₁) (y - t₂) + β * P ℓ m' n' (x - t₁) (y - t₂)) =
      fun x y => α * P ℓ (m + 1) n (x - t₁) (y - t₂) + β * P ℓ (m' + 1) n' (x - t₁) (y - t₂) := by
    intro m n m' n'; funext x y
    exact (((dx_s ℓ m n t₁ t₂ x y).const_mul α).add ((dx_s ℓ m' n' t₁ t₂ x y).const_mul β)).deriv
  have hy : ∀ m n m' n', dy (fun x y => α * P ℓ m n (x - t₁) (y - t₂) + β * P ℓ m' n' (x - t₁) (y - t₂)) =
      fun x y => α * P ℓ m (n + 1) (x - t₁) (y - t₂) + β * P ℓ m' (n' + 1) (x - t₁) (y - t₂) := by
    intro m n m' n'; funext x y
    exact (((dy_s ℓ m n t₁ t₂ x y).const_mul α).add ((dy_s ℓ m' n' t₁ t₂ x y).const_mul β)).deriv
  fin_cases a
  · simp [observe, obsP, hx, hy]; ring
  · simp [observe, obsP, hx, hy]; ring
  · simp [observe, obsP, hx, hy]

theorem potential_P (ℓ : ℝ) (s t : ℝ × ℝ) : potential ℓ s t = P ℓ 0 0 (s.1 - t.1) (s.2 - t.2) := by
  unfold potential P
  rw [J0, gauss1, gauss1, ← Real.exp_add]
  congr 1; ring

/-- The coefficients of an observable: `α ∂ᵐ∂ⁿ + β ∂ᵐ'∂ⁿ'`. -/
noncomputable def coef (c : Fin 3) : ℝ × (ℕ × ℕ) × ℝ × (ℕ × ℕ) :=
  match c with
  | 0 => (1 / 2, (2, 0), 1 / 2, (0, 2))
  | 1 => (1 / 2, (2, 0), -1 / 2, (0, 2))
  | 2 => (1, (1, 1), 0, (1, 1))

theorem obsP_coef (ℓ : ℝ) (c : Fin 3) (m n : ℕ) (x y : ℝ) :
    obsP ℓ c m n x y = (coef c).1 * P ℓ (m + (coef c).2.1.1) (n + (coef c).2.1.2) x y +
      (coef c).2.2.1 * P ℓ (m + (coef c).2.2.2.1) (n + (coef c).2.2.2.2) x y := by
  fin_cases c
  · simp [obsP, coef]; ring
  · simp [obsP, coef]; ring
  · simp [obsP, coef]

theorem covariance_eq (ℓ : ℝ) (a c : Fin 3) (s t : ℝ × ℝ) :
    covariance ℓ a c s t =
      (coef c).1 * obsP ℓ a (coef c).2.1.1 (coef c).2.1.2 (s.1 - t.1) (s.2 - t.2) +
      (coef c).2.2.1 * obsP ℓ a (coef c).2.2.2.1 (coef c).2.2.2.2 (s.1 - t.1) (s.2 - t.2) := by
  unfold covariance
  simp only [potential_P]
  have h : (fun s₁ s₂ => observe c (fun t₁ t₂ => P ℓ 0 0 (s₁ - t₁) (s₂ - t₂)) t.1 t.2) =
      fun x y => (coef c).1 * P ℓ (coef c).2.1.1 (coef c).2.1.2 (x - t.1) (y - t.2) +
        (coef c).2.2.1 * P ℓ (coef c).2.2.2.1 (coef c).2.2.2.2 (x - t.1) (y - t.2) := by
    funext x y
    rw [observe_t, obsP_coef]
    simp
  rw [h, observe_s_lin]

/-- The code's block is the covariance of the observables. -/
theorem block33_covariance (ℓ : ℝ) (hℓ : ℓ ≠ 0) (a c : Fin 3) (s t : ℝ × ℝ) (d : Nat → ℝ)
    (h0 : d 0 = s.1 - t.1) (h1 : d 1 = s.2 - t.2) :
    block33 ℓ (stats 2 ℓ d) a c = covariance ℓ a c s t := by
  rw [covariance_eq, ← h0, ← h1]
  have he : (stats 2 ℓ d).e = gauss1 ℓ (d 0) * gauss1 ℓ (d 1) := by
    simp only [stats, gauss1, Finset.sum_range_succ, Finset.sum_range_zero]
    rw [← Real.exp_add]; congr 1; ring
  fin_cases a <;> fin_cases c <;>
    simp only [block33, kk, kg1, kg2, g1g1, g1g2, g2g2, he, coef, obsP, P, Nat.reduceAdd, J0, J1, J2, J3, J4] <;>
    simp only [stats, Finset.sum_range_succ, Finset.sum_range_zero, Finset.prod_range_succ, Finset.prod_range_zero] <;>
    field_simp <;> ring

/-- Order and coefficient of the two terms of an observable. -/
noncomputable def cf (c : Fin 3) (w : Fin 2) : ℝ := if w = 0 then (coef c).1 else (coef c).2.2.1

/-- See `cf`. -/
noncomputable def om (c : Fin 3) (w : Fin 2) : ℕ := if w = 0 then (coef c).2.1.1 else (coef c).2.2.2.1

/-- See `cf`. -/
noncomputable def on (c : Fin 3) (w : Fin 2) : ℕ := if w = 0 then (coef c).2.1.2 else (coef c).2.2.2.2

theorem om_on (c : Fin 3) (w : Fin 2) : om c w + on c w = 2 := by
  fin_cases c <;> fin_cases w <;> simp [om, on, coef]

theorem covariance_jet (ℓ : ℝ) (a c : Fin 3) (s t : ℝ × ℝ) :
    covariance ℓ a c s t = ∑ w : Fin 2, ∑ u : Fin 2, cf a w * cf c u *
      (((-1) ^ om c u * J ℓ (om a w + om c u) (s.1 - t.1)) * ((-1) ^ on c u * J ℓ (on a w + on c u) (s.2 - t.2))) := by
  have hs : ∀ u, (-1 : ℝ) ^ om c u * (-1) ^ on c u = 1 := by
    intro u; rw [← pow_add, om_on]; norm_num
  have h1 : ∀ w u, cf a w * cf c u *
      (((-1) ^ om c u * J ℓ (om a w + om c u) (s.1 - t.1)) * ((-1) ^ on c u * J ℓ (on a w + on c u) (s.2 - t.2))) =
      cf a w * cf c u * P ℓ (om a w + om c u) (on a w + on c u) (s.1 - t.1) (s.2 - t.2) := by
    intro w u
    unfold P
    calc _ = cf a w * cf c u * (((-1 : ℝ) ^ om c u * (-1) ^ on c u) *
          (J ℓ (om a w + om c u) (s.1 - t.1) * J ℓ (on a w + on c u) (s.2 - t.2))) := by ring
      _ = _ := by rw [hs, one_mul]
  simp only [h1]
  rw [covariance_eq, obsP_coef, obsP_coef]
  simp only [Fin.sum_univ_two, cf, om, on, if_true, Fin.isValue, one_ne_zero, if_false]
  simp only [Nat.add_comm]
  ring

/-- The joint covariance of any finite family of observables at any points is positive semidefinite. -/
theorem covariance_psd {ι : Type*} [Fintype ι] (ℓ : ℝ) (hℓ : 0 < ℓ) (a : ι → Fin 3) (s : ι → ℝ × ℝ) :
    (Matrix.of fun i j => covariance ℓ (a i) (a j) (s i) (s j)).PosSemidef := by
  have hB := (gaussJet_psd ℓ hℓ (fun k : ι × Fin 2 => om (a k.1) k.2) (fun k => (s k.1).1)).hadamard
    (gaussJet_psd ℓ hℓ (fun k : ι × Fin 2 => on (a k.1) k.2) (fun k => (s k.1).2))
  obtain ⟨h1, h2⟩ := (psd_iff _).mp hB
  rw [psd_iff]
  constructor
  · intro i j
    simp only [Matrix.of_apply, covariance_jet]
    rw [Finset.sum_comm]
    refine Finset.sum_congr rfl fun w _ => Finset.sum_congr rfl fun u _ => ?_
    have := h1 (i, u) (j, w)
    simp only [Matrix.hadamard_apply, Matrix.of_apply] at this
    rw [mul_comm (cf (a i) u)]
    congr 1
  · intro v
    have := h2 fun k => v k.1 * cf (a k.1) k.2
    refine this.trans_eq ?_
    simp only [Fintype.sum_prod_type, Matrix.hadamard_apply, Matrix.of_apply, covariance_jet]
    refine Finset.sum_congr rfl fun i _ => ?_
    rw [Finset.sum_comm]
    refine Finset.sum_congr rfl fun j _ => ?_
    rw [Finset.mul_sum, Finset.sum_mul]
    refine Finset.sum_congr rfl fun w _ => ?_
    rw [Finset.mul_sum, Finset.sum_mul]
    refine Finset.sum_congr rfl fun u _ => ?_
    simp only [J]
    ring

end Shear
end MuyGPyS
