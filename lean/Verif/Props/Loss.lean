import Verif.Model.Loss
import Verif.Spec.Loss
import Mathlib.Analysis.SpecialFunctions.Log.NegMulLog
import Mathlib.Tactic.FieldSimp
import Mathlib.Tactic.Positivity

/-!
# Properties C35–C39: loss functions
-/

namespace MuyGPyS.Loss
open Py

/-! ## helper facts about sums -/

theorem zipSum_nonneg {f : ℝ → ℝ → ℝ} (hf : ∀ a b, 0 ≤ f a b) (a b : List ℝ) :
    0 ≤ (List.zipWith f a b).sum := by
  induction a generalizing b with
  | nil => simp
  | cons x a ih =>
    cases b with
    | nil => simp
    | cons y b => simp only [List.zipWith_cons_cons, List.sum_cons]; exact add_nonneg (hf x y) (ih b)

theorem zipSum_eq_zero {f : ℝ → ℝ → ℝ} (hf : ∀ a b, 0 ≤ f a b) (h0 : ∀ a b, f a b = 0 ↔ a = b)
    (a b : List ℝ) (hl : a.length = b.length) : (List.zipWith f a b).sum = 0 ↔ a = b := by
  induction a generalizing b with
  | nil => cases b with
    | nil => simp
    | cons y b => simp at hl
  | cons x a ih =>
    cases b with
    | nil => simp at hl
    | cons y b =>
      simp only [List.length_cons, Nat.add_right_cancel_iff] at hl
      simp only [List.zipWith_cons_cons, List.sum_cons, List.cons.injEq]
      have h1 := hf x y
      have h2 := zipSum_nonneg hf a b
      constructor
      · intro h
        exact ⟨(h0 x y).1 (by linarith), (ih b hl).1 (by linarith)⟩
      · rintro ⟨rfl, rfl⟩
        rw [(h0 x x).2 rfl, (ih a rfl).2 rfl, add_zero]

theorem zipSum_comm {f : ℝ → ℝ → ℝ} (hf : ∀ a b, f a b = f b a) (a b : List ℝ) :
    (List.zipWith f a b).sum = (List.zipWith f b a).sum := by
  rw [List.zipWith_comm]
  congr 2
  ext x y; exact hf y x

theorem zipSum_le {f g : ℝ → ℝ → ℝ} (hf : ∀ a b, f a b ≤ g a b) (a b : List ℝ) :
    (List.zipWith f a b).sum ≤ (List.zipWith g a b).sum := by
  induction a generalizing b with
  | nil => simp
  | cons x a ih =>
    cases b with
    | nil => simp
    | cons y b => simp only [List.zipWith_cons_cons, List.sum_cons]; exact add_le_add (hf x y) (ih b)

theorem zipSum_mul (c : ℝ) (f : ℝ → ℝ → ℝ) (a b : List ℝ) :
    c * (List.zipWith f a b).sum = (List.zipWith (fun x y => c * f x y) a b).sum := by
  induction a generalizing b with
  | nil => simp
  | cons x a ih =>
    cases b with
    | nil => simp
    | cons y b => simp only [List.zipWith_cons_cons, List.sum_cons, mul_add, ih b]

theorem mse_eq {p t : List ℝ} (h : p.length = t.length) :
    mse p t = .ok ((List.zipWith (fun p t => (p - t) ^ 2) p t).sum / p.length) := by
  simp [mse, mseUnnormalized, zip2, h, bind, Except.bind, pure, Except.pure]

theorem pseudoHuber_eq {p t : List ℝ} (δ : ℝ) (h : p.length = t.length) :
    pseudoHuber p t δ = .ok (δ ^ 2 *
      (List.zipWith (fun p t => Real.sqrt (1 + ((t - p) / δ) ^ 2) - 1) p t).sum) := by
  simp [pseudoHuber, zip2, h, bind, Except.bind, pure, Except.pure]

/-! ## C35 -/

/-- **C35**, mean squared error: for all non-empty predictions and targets of the same shape it is
non-negative, symmetric, and zero exactly when every prediction equals its target; arrays of
different size are rejected. -/
theorem C35_mse (p t : List ℝ) :
    (p.length = t.length → p ≠ [] → ∃ L, mse p t = .ok L ∧ mse t p = .ok L ∧ 0 ≤ L ∧ (L = 0 ↔ p = t)) ∧
    (p.length ≠ t.length → mse p t = .error .value) := by
  refine ⟨fun h hne => ⟨_, mse_eq h, ?_, ?_, ?_⟩, fun h => ?_⟩
  · rw [mse_eq h.symm, ← h, zipSum_comm (fun a b => by ring)]
  · exact div_nonneg (zipSum_nonneg (fun a b => sq_nonneg _) _ _) (Nat.cast_nonneg _)
  · have hp : (p.length : ℝ) ≠ 0 := by
      rw [Nat.cast_ne_zero]; exact fun h => hne (List.length_eq_zero_iff.1 h)
    rw [div_eq_zero_iff, or_iff_left hp]
    exact zipSum_eq_zero (fun a b => sq_nonneg _) (fun a b => by
      rw [sq_eq_zero_iff, sub_eq_zero]) p t h
  · simp [mse, mseUnnormalized, zip2, h, bind, Except.bind]

theorem sqrt_sub_one_nonneg (x : ℝ) (hx : 0 ≤ x) : 0 ≤ Real.sqrt (1 + x) - 1 := by
  have : Real.sqrt 1 ≤ Real.sqrt (1 + x) := Real.sqrt_le_sqrt (by linarith)
  rw [Real.sqrt_one] at this; linarith

theorem sqrt_sub_one_eq_zero (x : ℝ) (hx : 0 ≤ x) : Real.sqrt (1 + x) - 1 = 0 ↔ x = 0 := by
  rw [sub_eq_zero, Real.sqrt_eq_one]
  constructor <;> intro h <;> linarith

theorem sqrt_sub_one_le_half (x : ℝ) (hx : 0 ≤ x) : Real.sqrt (1 + x) - 1 ≤ x / 2 := by
  have : Real.sqrt (1 + x) ≤ 1 + x / 2 := by
    rw [Real.sqrt_le_left (by linarith)]
    nlinarith [sq_nonneg x]
  linarith

theorem sqrt_sub_one_le_sqrt (x : ℝ) (hx : 0 ≤ x) : Real.sqrt (1 + x) - 1 ≤ Real.sqrt x := by
  have h0 := Real.sqrt_nonneg x
  have : Real.sqrt (1 + x) ≤ 1 + Real.sqrt x := by
    rw [Real.sqrt_le_left (by linarith)]
    nlinarith [Real.mul_self_sqrt hx]
  linarith

/-- **C35**, pseudo-Huber: for every positive boundary scale `δ` and all predictions and targets of
the same shape it is non-negative, symmetric, zero exactly at perfect prediction, at most half the
sum of squared errors, and at most `δ` times the sum of absolute errors; arrays of different size
are rejected. -/
theorem C35_pseudo_huber (p t : List ℝ) (δ : ℝ) (hδ : 0 < δ) :
    (p.length = t.length → ∃ L, pseudoHuber p t δ = .ok L ∧ pseudoHuber t p δ = .ok L ∧ 0 ≤ L ∧
      (L = 0 ↔ p = t) ∧
      L ≤ (List.zipWith (fun a b => (a - b) ^ 2) p t).sum / 2 ∧
      L ≤ δ * (List.zipWith (fun a b => |a - b|) p t).sum) ∧
    (p.length ≠ t.length → pseudoHuber p t δ = .error .value) := by
  have hd2 : 0 < δ ^ 2 := by positivity
  refine ⟨fun h => ⟨_, pseudoHuber_eq δ h, ?_, ?_, ?_, ?_, ?_⟩, fun h => ?_⟩
  · rw [pseudoHuber_eq δ h.symm, zipSum_comm (fun a b => by
      congr 2; congr 1; rw [div_pow, div_pow]; congr 1; ring)]
  · exact mul_nonneg hd2.le (zipSum_nonneg (fun a b => sqrt_sub_one_nonneg _ (sq_nonneg _)) _ _)
  · rw [mul_eq_zero, or_iff_right hd2.ne']
    exact zipSum_eq_zero (fun a b => sqrt_sub_one_nonneg _ (sq_nonneg _)) (fun a b => by
      rw [sqrt_sub_one_eq_zero _ (sq_nonneg _), sq_eq_zero_iff, div_eq_zero_iff, or_iff_left hδ.ne',
        sub_eq_zero]; exact eq_comm) p t h
  · rw [zipSum_mul]
    have : (List.zipWith (fun a b => (a - b) ^ 2) p t).sum / 2
        = (List.zipWith (fun a b => 1 / 2 * (a - b) ^ 2) p t).sum := by
      rw [← zipSum_mul]; ring
    rw [this]
    refine zipSum_le (fun a b => ?_) p t
    have := sqrt_sub_one_le_half (((b - a) / δ) ^ 2) (sq_nonneg _)
    calc δ ^ 2 * (Real.sqrt (1 + ((b - a) / δ) ^ 2) - 1) ≤ δ ^ 2 * (((b - a) / δ) ^ 2 / 2) :=
          mul_le_mul_of_nonneg_left this hd2.le
      _ = 1 / 2 * (a - b) ^ 2 := by rw [div_pow]; field_simp; ring
  · rw [zipSum_mul, zipSum_mul]
    refine zipSum_le (fun a b => ?_) p t
    have := sqrt_sub_one_le_sqrt (((b - a) / δ) ^ 2) (sq_nonneg _)
    rw [Real.sqrt_sq_eq_abs, abs_div, abs_of_pos hδ] at this
    calc δ ^ 2 * (Real.sqrt (1 + ((b - a) / δ) ^ 2) - 1) ≤ δ ^ 2 * (|b - a| / δ) :=
          mul_le_mul_of_nonneg_left this hd2.le
      _ = δ * |a - b| := by rw [abs_sub_comm a b]; field_simp
  · simp [pseudoHuber, zip2, h, bind, Except.bind]

example : ∃ L, mse [1, 2] [1, 4] = .ok L ∧ L = 2 := ⟨_, mse_eq rfl, by norm_num⟩

/-! ## C36 -/

open Spec in
theorem lool_preds (ps : List Pred) (s : ℝ) :
    lool (ps.map Pred.mean) (ps.map Pred.target) (ps.map Pred.var) s =
      .ok (ps.map fun p => loolTerm p.mean p.target (s * p.var)).sum := by
  unfold lool loolUnscaled
  rw [if_pos (by simp)]
  congr 2
  induction ps with
  | nil => rfl
  | cons p ps ih => simp at ih; simp [ih]

open Spec in
theorem gauss_pos (p : Pred) (s : ℝ) (hs : 0 < s) (hv : 0 < p.var) :
    0 < ProbabilityTheory.gaussianPDFReal p.mean (s * p.var).toNNReal p.target :=
  ProbabilityTheory.gaussianPDFReal_pos _ _ _ (by
    rw [ne_eq, Real.toNNReal_eq_zero, not_le]; positivity)

open Spec in
theorem gauss_log (p : Pred) (s : ℝ) (hs : 0 < s) (hv : 0 < p.var) :
    Real.log (ProbabilityTheory.gaussianPDFReal p.mean (s * p.var).toNNReal p.target)
      = -(loolTerm p.mean p.target (s * p.var) + Real.log (2 * Real.pi)) / 2 := by
  have hsv : 0 < s * p.var := by positivity
  have hpi := Real.pi_pos
  unfold ProbabilityTheory.gaussianPDFReal loolTerm
  rw [Real.coe_toNNReal _ hsv.le, Real.log_mul (by positivity) (Real.exp_pos _).ne', Real.log_exp,
    Real.log_inv, Real.log_sqrt (by positivity), Real.log_mul (by positivity) hsv.ne']
  rw [show (p.target - p.mean) ^ 2 = (p.mean - p.target) ^ 2 by ring]
  field_simp
  ring

/-- **C36**, likelihood: for positive variances and scale, the lool loss is minus twice the log of
the product of the Gaussian densities (with the predicted means and the scaled variances) of the
targets, minus `b * log(2π)`, which depends on the batch size only. -/
theorem C36_lool_is_likelihood (ps : List Spec.Pred) (s : ℝ) (hs : 0 < s)
    (hv : ∀ p ∈ ps, 0 < p.var) :
    lool (ps.map Spec.Pred.mean) (ps.map Spec.Pred.target) (ps.map Spec.Pred.var) s =
      .ok (-2 * Real.log (Spec.likelihood s ps) - ps.length * Real.log (2 * Real.pi)) := by
  rw [lool_preds]
  congr 1
  unfold Spec.likelihood
  induction ps with
  | nil => simp
  | cons p ps ih =>
    have h1 : 0 < p.var := hv p (by simp)
    have h2 := ih (fun q hq => hv q (by simp [hq]))
    simp only [List.map_cons, List.sum_cons, List.prod_cons, List.length_cons]
    have hpos : 0 < (ps.map fun p => ProbabilityTheory.gaussianPDFReal p.mean
        (s * p.var).toNNReal p.target).prod := by
      apply List.prod_pos
      intro x hx
      obtain ⟨q, hq, rfl⟩ := List.mem_map.1 hx
      exact gauss_pos q s hs (hv q (by simp [hq]))
    rw [Real.log_mul (gauss_pos p s hs h1).ne' hpos.ne', gauss_log p s hs h1, h2]
    push_cast
    ring

open Spec in
theorem lool_scale_form (ps : List Pred) (s : ℝ) (hs : 0 < s) (hv : ∀ p ∈ ps, 0 < p.var) :
    (ps.map fun p => loolTerm p.mean p.target (s * p.var)).sum =
      (ps.map fun p => (p.mean - p.target) ^ 2 / p.var).sum / s + ps.length * Real.log s
        + (ps.map fun p => Real.log p.var).sum := by
  induction ps with
  | nil => simp
  | cons p ps ih =>
    have h1 : 0 < p.var := hv p (by simp)
    have h2 := ih (fun q hq => hv q (by simp [hq]))
    simp only [List.map_cons, List.sum_cons, List.length_cons]
    rw [h2]
    have h3 : loolTerm p.mean p.target (s * p.var)
        = (p.mean - p.target) ^ 2 / p.var / s + (Real.log s + Real.log p.var) := by
      unfold loolTerm
      rw [Real.log_mul hs.ne' h1.ne']
      congr 1
      field_simp
    rw [h3]
    push_cast
    ring

/-- **C36**, best scale: for fixed predictions with positive variances that are not all perfect, the
lool loss as a function of the scale has a unique minimiser, the mean of the squared standardised
residuals. -/
theorem C36_lool_best_scale (ps : List Spec.Pred) (hne : ps ≠ []) (hv : ∀ p ∈ ps, 0 < p.var)
    (best : ℝ) (hbest : best = (ps.map fun p => (p.mean - p.target) ^ 2 / p.var).sum / ps.length)
    (hpos : 0 < best) (s : ℝ) (hs : 0 < s) :
    ∃ Lb Ls, lool (ps.map Spec.Pred.mean) (ps.map Spec.Pred.target) (ps.map Spec.Pred.var) best = .ok Lb ∧
      lool (ps.map Spec.Pred.mean) (ps.map Spec.Pred.target) (ps.map Spec.Pred.var) s = .ok Ls ∧
      Lb ≤ Ls ∧ (Ls = Lb → s = best) := by
  refine ⟨_, _, lool_preds ps best, lool_preds ps s, ?_⟩
  rw [lool_scale_form ps best hpos hv, lool_scale_form ps s hs hv]
  have hn : 0 < (ps.length : ℝ) := by
    rw [Nat.cast_pos]; exact List.length_pos_iff.2 hne
  set A := (ps.map fun p => (p.mean - p.target) ^ 2 / p.var).sum with hA
  have hAb : A = ps.length * best := by rw [hbest]; field_simp
  have hx : 0 < best / s := by positivity
  have e1 : A / best = ps.length := by rw [hAb]; field_simp
  have e2 : A / s = ps.length * (best / s) := by rw [hAb]; field_simp
  have e3 : Real.log (best / s) = Real.log best - Real.log s := Real.log_div hpos.ne' hs.ne'
  rw [e1, e2]
  constructor
  · have h1 := Real.log_le_sub_one_of_pos hx
    rw [e3] at h1
    nlinarith
  · intro heq
    by_contra hsb
    have hx1 : best / s ≠ 1 := by
      intro h; rw [div_eq_one_iff_eq hs.ne'] at h; exact hsb h.symm
    have h1 := Real.log_lt_sub_one_of_pos hx hx1
    rw [e3] at h1
    nlinarith

example : (∀ p ∈ [(⟨0, 1, 1⟩ : Spec.Pred), ⟨1, 3, 2⟩], 0 < p.var) ∧
    (0 : ℝ) < ([(⟨0, 1, 1⟩ : Spec.Pred), ⟨1, 3, 2⟩].map fun p => (p.mean - p.target) ^ 2 / p.var).sum / 2 := by
  constructor
  · intro p hp
    simp at hp
    rcases hp with rfl | rfl <;> norm_num
  · norm_num

/-! ## C37 -/

open Spec in
theorem looph_preds (ps : List Pred) (s δ : ℝ) :
    looph (ps.map Pred.mean) (ps.map Pred.target) (ps.map Pred.var) s δ =
      .ok (ps.map fun p => loophTerm p.mean p.target (s * p.var) δ).sum := by
  unfold looph loophUnscaled
  rw [if_pos (by simp)]
  congr 2
  induction ps with
  | nil => rfl
  | cons p ps ih => simp at ih; simp [ih]

theorem loophTerm_le (p t v δ : ℝ) (hv : 0 < v) (hδ : 0 < δ) : loophTerm p t v δ ≤ loolTerm p t v := by
  unfold loophTerm loolTerm
  have h1 : 0 < δ ^ 2 * v := by positivity
  have := sqrt_sub_one_le_half ((t - p) ^ 2 / (δ ^ 2 * v)) (div_nonneg (sq_nonneg _) h1.le)
  have h2 : 2 * δ ^ 2 * (Real.sqrt (1 + (t - p) ^ 2 / (δ ^ 2 * v)) - 1) ≤ 2 * δ ^ 2 * ((t - p) ^ 2 / (δ ^ 2 * v) / 2) :=
    mul_le_mul_of_nonneg_left this (by positivity)
  have h3 : 2 * δ ^ 2 * ((t - p) ^ 2 / (δ ^ 2 * v) / 2) = (p - t) ^ 2 / v := by
    field_simp; ring
  linarith

/-- **C37**, comparison with lool: looph never exceeds lool. -/
theorem C37_looph_le_lool (ps : List Spec.Pred) (s δ : ℝ) (hs : 0 < s) (hδ : 0 < δ)
    (hv : ∀ p ∈ ps, 0 < p.var) :
    ∃ H L, looph (ps.map Spec.Pred.mean) (ps.map Spec.Pred.target) (ps.map Spec.Pred.var) s δ = .ok H ∧
      lool (ps.map Spec.Pred.mean) (ps.map Spec.Pred.target) (ps.map Spec.Pred.var) s = .ok L ∧ H ≤ L := by
  refine ⟨_, _, looph_preds ps s δ, lool_preds ps s, ?_⟩
  refine List.sum_le_sum fun p hp => ?_
  exact loophTerm_le _ _ _ _ (mul_pos hs (hv p hp)) hδ

/-- **C37**, dependence on the residuals: if two sets of predictions have the same variances and the
absolute residuals of the first are at most those of the second, looph of the first is at most looph
of the second (so with equal absolute residuals — e.g. prediction and target exchanged — they are equal). -/
theorem C37_looph_monotone (ps : List (Spec.Pred × Spec.Pred)) (s δ : ℝ) (hs : 0 < s) (hδ : 0 < δ)
    (hv : ∀ q ∈ ps, 0 < q.1.var ∧ q.1.var = q.2.var)
    (hr : ∀ q ∈ ps, |q.1.mean - q.1.target| ≤ |q.2.mean - q.2.target|) :
    ∃ A B, looph (ps.map fun q => q.1.mean) (ps.map fun q => q.1.target) (ps.map fun q => q.1.var) s δ = .ok A ∧
      looph (ps.map fun q => q.2.mean) (ps.map fun q => q.2.target) (ps.map fun q => q.2.var) s δ = .ok B ∧
      A ≤ B := by
  have h1 := looph_preds (ps.map Prod.fst) s δ
  have h2 := looph_preds (ps.map Prod.snd) s δ
  simp only [List.map_map] at h1 h2
  refine ⟨_, _, h1, h2, ?_⟩
  refine List.sum_le_sum fun q hq => ?_
  obtain ⟨hv1, hv2⟩ := hv q hq
  have hrq := hr q hq
  simp only [Function.comp, loophTerm, ← hv2]
  have hsq : (q.1.target - q.1.mean) ^ 2 ≤ (q.2.target - q.2.mean) ^ 2 := by
    rw [sq_le_sq, abs_sub_comm, abs_sub_comm q.2.target]; exact hrq
  have h3 : Real.sqrt (1 + (q.1.target - q.1.mean) ^ 2 / (δ ^ 2 * (s * q.1.var)))
      ≤ Real.sqrt (1 + (q.2.target - q.2.mean) ^ 2 / (δ ^ 2 * (s * q.1.var))) := by
    apply Real.sqrt_le_sqrt
    have : 0 < δ ^ 2 * (s * q.1.var) := by positivity
    gcongr
  have h4 : 0 ≤ 2 * δ ^ 2 := by positivity
  nlinarith

/-- **C37**, growth: looph grows at most linearly in the absolute standardised residuals. -/
theorem C37_looph_linear_growth (ps : List Spec.Pred) (s δ : ℝ) (hs : 0 < s) (hδ : 0 < δ)
    (hv : ∀ p ∈ ps, 0 < p.var) :
    ∃ H, looph (ps.map Spec.Pred.mean) (ps.map Spec.Pred.target) (ps.map Spec.Pred.var) s δ = .ok H ∧
      H ≤ (ps.map fun p => 2 * δ * (|p.mean - p.target| / Real.sqrt (s * p.var))
            + Real.log (s * p.var)).sum := by
  refine ⟨_, looph_preds ps s δ, ?_⟩
  refine List.sum_le_sum fun p hp => ?_
  have hsv : 0 < s * p.var := mul_pos hs (hv p hp)
  unfold loophTerm
  have h1 : 0 < δ ^ 2 * (s * p.var) := by positivity
  have h2 := sqrt_sub_one_le_sqrt ((p.target - p.mean) ^ 2 / (δ ^ 2 * (s * p.var)))
    (div_nonneg (sq_nonneg _) h1.le)
  have h3 : Real.sqrt ((p.target - p.mean) ^ 2 / (δ ^ 2 * (s * p.var)))
      = |p.mean - p.target| / (δ * Real.sqrt (s * p.var)) := by
    rw [Real.sqrt_div (sq_nonneg _), Real.sqrt_sq_eq_abs, Real.sqrt_mul (by positivity),
      Real.sqrt_sq hδ.le, abs_sub_comm]
  rw [h3] at h2
  have hq : 0 < Real.sqrt (s * p.var) := Real.sqrt_pos.2 hsv
  have h4 : 2 * δ ^ 2 * (|p.mean - p.target| / (δ * Real.sqrt (s * p.var)))
      = 2 * δ * (|p.mean - p.target| / Real.sqrt (s * p.var)) := by
    field_simp
  have h5 : 0 ≤ 2 * δ ^ 2 := by positivity
  nlinarith

end MuyGPyS.Loss
