import Verif.Props.Loss

/-! # C35, C37, continued: with a large boundary scale the robust losses are the quadratic ones -/

namespace MuyGPyS.Loss
open Py

/-- `√(1 + y)` to second order, from below. -/
theorem sqrt_one_add_ge {y : ℝ} (hy : 0 ≤ y) : 1 + y / 2 - y ^ 2 / 8 ≤ √(1 + y) := by
  by_cases h : 1 + y / 2 - y ^ 2 / 8 ≤ 0
  · exact h.trans (Real.sqrt_nonneg _)
  · refine Real.le_sqrt_of_sq_le ?_
    rw [not_le] at h
    have : 0 < 8 - y := by
      by_contra hc
      rw [not_lt] at hc
      nlinarith
    nlinarith [mul_nonneg (mul_nonneg hy hy) hy, mul_nonneg (mul_nonneg (mul_nonneg hy hy) hy) this.le]

theorem looph_gap (p t v δ : ℝ) (hv : 0 < v) (hδ : 0 < δ) : loolTerm p t v - loophTerm p t v δ ≤ ((p - t) ^ 2 / v) ^ 2 / (4 * δ ^ 2) := by
  unfold loolTerm loophTerm
  have hy : 0 ≤ (t - p) ^ 2 / (δ ^ 2 * v) := by positivity
  have h := sqrt_one_add_ge hy
  have e1 : (p - t) ^ 2 / v = δ ^ 2 * ((t - p) ^ 2 / (δ ^ 2 * v)) := by
    field_simp
    ring
  rw [e1]
  set y := (t - p) ^ 2 / (δ ^ 2 * v)
  have e2 : (δ ^ 2 * y) ^ 2 / (4 * δ ^ 2) = 2 * δ ^ 2 * (y ^ 2 / 8) := by
    field_simp
    ring
  rw [e2]
  have h2 : 0 ≤ 2 * δ ^ 2 := by positivity
  nlinarith [mul_le_mul_of_nonneg_left h h2]

/-- **C37**: looph is below lool by at most the sum of the fourth powers of the standardised residuals over four times the square of the boundary scale, so that with a large boundary
scale it is lool. -/
theorem C37_looph_close (ps : List Spec.Pred) (s δ : ℝ) (hs : 0 < s) (hδ : 0 < δ) (hv : ∀ p ∈ ps, 0 < p.var) :
    ∃ H L, looph (ps.map Spec.Pred.mean) (ps.map Spec.Pred.target) (ps.map Spec.Pred.var) s δ = .ok H ∧
      lool (ps.map Spec.Pred.mean) (ps.map Spec.Pred.target) (ps.map Spec.Pred.var) s = .ok L ∧ H ≤ L ∧
      L - H ≤ (ps.map fun p => ((p.mean - p.target) ^ 2 / (s * p.var)) ^ 2).sum / (4 * δ ^ 2) := by
  obtain ⟨H, L, h1, h2, h3⟩ := C37_looph_le_lool ps s δ hs hδ hv
  refine ⟨H, L, h1, h2, h3, ?_⟩
  rw [looph_preds] at h1
  rw [lool_preds] at h2
  rw [← Except.ok.inj h1, ← Except.ok.inj h2]
  clear h1 h2 h3
  induction ps with
  | nil => simp
  | cons p ps ih =>
    have i1 := ih fun q hq => hv q (List.mem_cons_of_mem _ hq)
    have i2 := looph_gap p.mean p.target (s * p.var) δ (mul_pos hs (hv p List.mem_cons_self)) hδ
    simp only [List.map_cons, List.sum_cons, add_div] at i1 ⊢
    linarith

/-- **C37**: as the boundary scale grows, looph tends to lool. -/
theorem C37_looph_tends (ps : List Spec.Pred) (s : ℝ) (hs : 0 < s) (hv : ∀ p ∈ ps, 0 < p.var) :
    ∃ (H : ℝ → ℝ) (L : ℝ), (∀ δ, looph (ps.map Spec.Pred.mean) (ps.map Spec.Pred.target) (ps.map Spec.Pred.var) s δ = .ok (H δ)) ∧
      lool (ps.map Spec.Pred.mean) (ps.map Spec.Pred.target) (ps.map Spec.Pred.var) s = .ok L ∧
      Filter.Tendsto H Filter.atTop (nhds L) := by
  have hL := lool_preds ps s
  refine ⟨_, _, fun δ => looph_preds ps s δ, hL, ?_⟩
  refine tendsto_of_tendsto_of_tendsto_of_le_of_le'
    (g := fun δ : ℝ => (ps.map fun p => loolTerm p.mean p.target (s * p.var)).sum - (ps.map fun p => ((p.mean - p.target) ^ 2 / (s * p.var)) ^ 2).sum / (4 * δ ^ 2)) ?_ tendsto_const_nhds ?_ ?_
  · have h1 : Filter.Tendsto (fun δ : ℝ => 4 * δ ^ 2) Filter.atTop Filter.atTop :=
      (Filter.tendsto_pow_atTop two_ne_zero).const_mul_atTop (by norm_num)
    have := (h1.const_div_atTop (ps.map fun p => ((p.mean - p.target) ^ 2 / (s * p.var)) ^ 2).sum).const_sub
      (ps.map fun p => loolTerm p.mean p.target (s * p.var)).sum
    simpa using this
  · filter_upwards [Filter.eventually_gt_atTop 0] with δ hδ
    obtain ⟨H, L, h1, h2, -, h4⟩ := C37_looph_close ps s δ hs hδ hv
    rw [looph_preds] at h1
    rw [lool_preds] at h2
    rw [← Except.ok.inj h1, ← Except.ok.inj h2] at h4
    linarith
  · filter_upwards [Filter.eventually_gt_atTop 0] with δ hδ
    obtain ⟨H, L, h1, h2, h3, -⟩ := C37_looph_close ps s δ hs hδ hv
    rw [looph_preds] at h1
    rw [lool_preds] at h2
    rwa [← Except.ok.inj h1, ← Except.ok.inj h2] at h3

/-- **C35**: the pseudo-Huber loss is below half the sum of the squared residuals by at most the sum of their fourth powers over eight times the square of the boundary scale. -/
theorem C35_pseudo_huber_close (p t : List ℝ) (δ : ℝ) (hδ : 0 < δ) (hl : p.length = t.length) :
    ∃ L, pseudoHuber p t δ = .ok L ∧ L ≤ (List.zipWith (fun a b => (a - b) ^ 2) p t).sum / 2 ∧
      (List.zipWith (fun a b => (a - b) ^ 2) p t).sum / 2 - L ≤ (List.zipWith (fun a b => (a - b) ^ 4) p t).sum / (8 * δ ^ 2) := by
  obtain ⟨L, h1, -, -, -, h5, -⟩ := (C35_pseudo_huber p t δ hδ).1 hl
  refine ⟨L, h1, h5, ?_⟩
  rw [pseudoHuber_eq δ hl] at h1
  rw [← Except.ok.inj h1]
  clear h1 h5
  have key : ∀ a b : ℝ, (a - b) ^ 2 / 2 - δ ^ 2 * (√(1 + ((b - a) / δ) ^ 2) - 1) ≤ (a - b) ^ 4 / (8 * δ ^ 2) := fun a b => by
    have h := sqrt_one_add_ge (sq_nonneg ((b - a) / δ))
    have hd : 0 ≤ δ ^ 2 := sq_nonneg δ
    have h2 := mul_le_mul_of_nonneg_left h hd
    have e1 : δ ^ 2 * ((b - a) / δ) ^ 2 = (a - b) ^ 2 := by
      field_simp
      ring
    have e2 : δ ^ 2 * (((b - a) / δ) ^ 2) ^ 2 = (a - b) ^ 4 / δ ^ 2 := by
      field_simp
      ring
    have e3 : (a - b) ^ 4 / (8 * δ ^ 2) = (a - b) ^ 4 / δ ^ 2 / 8 := by
      field_simp
    rw [e3]
    nlinarith
  induction p generalizing t with
  | nil => simp
  | cons a p ih =>
    cases t with
    | nil => simp at hl
    | cons b t =>
      have i1 := ih t (by simpa using hl)
      have i2 := key a b
      simp only [List.zipWith_cons_cons, List.sum_cons, add_div, mul_add] at i1 ⊢
      linarith

/-- Non-vacuity: one prediction `1` of the response `0`, variance 1, boundary scale 10. -/
example : ∃ H L, looph [1] [0] [1] 1 10 = .ok H ∧ lool [1] [0] [1] 1 = .ok L ∧ H ≤ L ∧ L - H ≤ 1 / 400 := by
  obtain ⟨H, L, h1, h2, h3, h4⟩ := C37_looph_close [⟨1, 0, 1⟩] 1 10 one_pos (by norm_num) (by simp)
  refine ⟨H, L, h1, h2, h3, h4.trans ?_⟩
  norm_num

end MuyGPyS.Loss
