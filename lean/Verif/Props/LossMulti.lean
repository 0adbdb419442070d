import Verif.Props.Loss
import Verif.Lemmas.Kriging

/-!
# Properties C38 (cross entropy) and C39 (multi-output lool)
-/

namespace MuyGPyS.Loss
open Py Matrix

/-! ## C39 -/

/-- The documented multi-output leave-one-out likelihood: `Σ_i r_iᵀ (s Σ_i)⁻¹ r_i + log det (s Σ_i)`. -/
noncomputable def docLoolMulti {r : Nat} (items : List (Item r)) (s : ℝ) : ℝ :=
  (items.map fun it => it.1 ⬝ᵥ ((s • it.2)⁻¹ *ᵥ it.1) + Real.log (s • it.2).det).sum

theorem zipWith_add_map {α : Type _} (l : List α) (f g : α → ℝ) :
    (List.zipWith (· + ·) (l.map f) (l.map g)).sum = (l.map f).sum + (l.map g).sum := by
  induction l with
  | nil => simp
  | cons a l ih => simp only [List.map_cons, List.zipWith_cons_cons, List.sum_cons, ih]; ring

/-- **C39** (partial: what the code computes instead). For positive definite covariances and positive
scale, the multi-output lool loss is the documented loss *plus* a second copy of every quadratic
form *plus* one per batch element (the sign of the determinant). -/
theorem C39_value_partial {r : Nat} (items : List (Item r)) (s : ℝ) (hs : 0 < s)
    (hpd : ∀ it ∈ items, it.2.PosDef) :
    loolMulti items s = .ok (docLoolMulti items s
      + (items.map fun it => it.1 ⬝ᵥ ((s • it.2)⁻¹ *ᵥ it.1)).sum + items.length) := by
  have hpd' : ∀ it ∈ items, (s • it.2).PosDef := fun it h => (hpd it h).smul hs
  unfold loolMulti loolUnscaledMulti
  rw [if_pos (by
    intro it hit
    obtain ⟨jt, hj, rfl⟩ := List.mem_map.1 hit
    exact Kriging.det_ne_zero (hpd' jt hj))]
  simp only [List.map_map, Function.comp_def]
  congr 1
  rw [zipWith_add_map items (fun x => x.1 ⬝ᵥ ((s • x.2)⁻¹ *ᵥ x.1)) (fun x => Real.sign (s • x.2).det),
    zipWith_add_map items (fun x => x.1 ⬝ᵥ ((s • x.2)⁻¹ *ᵥ x.1)) (fun x => Real.log |(s • x.2).det|)]
  have h1 : (items.map fun x => Real.sign (s • x.2).det).sum = items.length := by
    have : items.map (fun x => Real.sign (s • x.2).det) = items.map (fun _ => (1 : ℝ)) :=
      List.map_congr_left fun it hit => Real.sign_of_pos (hpd' it hit).det_pos
    rw [this]; simp
  have h2 : docLoolMulti items s = (items.map fun x => x.1 ⬝ᵥ ((s • x.2)⁻¹ *ᵥ x.1)).sum
      + (items.map fun x => Real.log |(s • x.2).det|).sum := by
    unfold docLoolMulti
    rw [List.sum_map_add]
    congr 2
    refine List.map_congr_left fun it hit => ?_
    rw [abs_of_pos (hpd' it hit).det_pos]
  rw [h1, h2]; ring

/-- **C39, where the code fails.** For every non-empty batch of positive definite covariances the
value the code returns is strictly larger than the documented one, and the difference depends on
the residuals, so it is not a constant shift. -/
theorem C39_never_documented_value {r : Nat} (items : List (Item r)) (hne : items ≠ []) (s : ℝ)
    (hs : 0 < s) (hpd : ∀ it ∈ items, it.2.PosDef) :
    ∃ L, loolMulti items s = .ok L ∧ docLoolMulti items s < L := by
  refine ⟨_, C39_value_partial items s hs hpd, ?_⟩
  have h1 : 0 ≤ (items.map fun it => it.1 ⬝ᵥ ((s • it.2)⁻¹ *ᵥ it.1)).sum := by
    apply List.sum_nonneg
    intro x hx
    obtain ⟨it, hit, rfl⟩ := List.mem_map.1 hx
    exact Kriging.quad_nonneg ((hpd it hit).smul hs) _
  have h2 : 0 < (items.length : ℝ) := by
    rw [Nat.cast_pos]; exact List.length_pos_iff.2 hne
  linarith

/-- **C39**, rejected input: a singular covariance raises. -/
theorem C39_singular {r : Nat} (items : List (Item r)) (s : ℝ) (it : Item r) (hit : it ∈ items)
    (h : (s • it.2).det = 0) : loolMulti items s = .error .linAlg := by
  unfold loolMulti loolUnscaledMulti
  rw [if_neg]
  intro hall
  exact hall _ (List.mem_map.2 ⟨it, hit, rfl⟩) h

/-- witness: one prediction with two outputs, identity covariance, residual (1, 0): documented loss 1,
computed loss 3. -/
theorem C39_witness : docLoolMulti [((![1, 0], 1) : Item 2)] 1 = 1 ∧
    loolMulti [((![1, 0], 1) : Item 2)] 1 = .ok 3 := by
  have h : docLoolMulti [((![1, 0], 1) : Item 2)] 1 = 1 := by
    simp [docLoolMulti, dotProduct]
  refine ⟨h, ?_⟩
  rw [C39_value_partial _ 1 one_pos (by
    intro it hit
    simp at hit
    rw [hit]; exact PosDef.one), h]
  congr 1
  simp [dotProduct]
  norm_num

/-! ## C38 -/

theorem softmax_shift (row : List ℝ) (c : ℝ) : softmax (row.map (· + c)) = softmax row := by
  unfold softmax
  rw [List.map_map, List.map_map]
  have h1 : (row.map (Real.exp ∘ (· + c))).sum = (row.map Real.exp).sum * Real.exp c := by
    rw [← List.sum_map_mul_right]
    congr 1
    refine List.map_congr_left fun x _ => ?_
    simp [Real.exp_add]
  refine List.map_congr_left fun x _ => ?_
  simp only [Function.comp]
  rw [h1, Real.exp_add]
  exact mul_div_mul_right _ _ (Real.exp_pos c).ne'

theorem clip_mem {ε p : ℝ} (h0 : 0 ≤ ε) (h1 : ε ≤ 1 / 2) : 0 ≤ clip ε p ∧ clip ε p ≤ 1 := by
  unfold clip
  constructor
  · exact le_min (h0.trans (le_max_right _ _)) (by linarith)
  · exact (min_le_right _ _).trans (by linarith)

theorem clip_id {ε p : ℝ} (h0 : ε ≤ p) (h1 : p ≤ 1 - ε) : clip ε p = p := by
  unfold clip; rw [max_eq_left h0, min_eq_left h1]

theorem logLossRow_nonneg {ε : ℝ} (h0 : 0 ≤ ε) (h1 : ε ≤ 1 / 2) (t p : List ℝ) :
    0 ≤ logLossRow ε (oneHot t) p := by
  unfold logLossRow oneHot
  rw [neg_nonneg]
  induction t generalizing p with
  | nil => simp
  | cons a t ih =>
    cases p with
    | nil => simp
    | cons b p =>
      simp only [List.map_cons, List.zipWith_cons_cons, List.sum_cons]
      have hl : Real.log (clip ε b) ≤ 0 := Real.log_nonpos (clip_mem h0 h1).1 (clip_mem h0 h1).2
      have : (if 0 < a then (1 : ℝ) else 0) * Real.log (clip ε b) ≤ 0 := by
        split <;> simp [hl]
      linarith [ih p]

/-- **C38**, sign: for every batch and every clipping constant in `[0, 1/2]` the (numpy) classification
loss is non-negative; an empty batch or rows of different widths are rejected. -/
theorem C38_nonneg (ε : ℝ) (h0 : 0 ≤ ε) (h1 : ε ≤ 1 / 2) (rows : List (List ℝ × List ℝ)) :
    (rows ≠ [] → (∀ r ∈ rows, r.1.length = r.2.length) →
      ∃ L, crossEntropy ε rows = .ok L ∧ 0 ≤ L) ∧
    (rows = [] ∨ (∃ r ∈ rows, r.1.length ≠ r.2.length) → crossEntropy ε rows = .error .value) := by
  constructor
  · intro hne hl
    refine ⟨_, by unfold crossEntropy; rw [if_neg hne, if_pos hl], ?_⟩
    apply List.sum_nonneg
    intro x hx
    obtain ⟨r, _, rfl⟩ := List.mem_map.1 hx
    exact logLossRow_nonneg h0 h1 _ _
  · rintro (h | ⟨r, hr, hl⟩)
    · unfold crossEntropy; rw [if_pos h]
    · unfold crossEntropy
      split
      · rfl
      · rw [if_neg (fun h => hl (h r hr))]

/-- **C38**, invariance: adding to all the predictions of each sample its own constant changes nothing. -/
theorem C38_shift_invariant (ε : ℝ) (rows : List (ℝ × List ℝ × List ℝ)) :
    crossEntropy ε (rows.map fun r => (r.2.1.map (· + r.1), r.2.2)) =
      crossEntropy ε (rows.map fun r => r.2) := by
  unfold crossEntropy
  simp only [List.map_eq_nil_iff, List.mem_map, forall_exists_index, and_imp,
    forall_apply_eq_imp_iff₂, List.length_map, List.map_map, Function.comp_def, softmax_shift]

/-- **C38**, dependence on the targets: only the set of positive entries matters. -/
theorem C38_targets_by_sign (ε : ℝ) (rows : List (List ℝ × List ℝ × List ℝ))
    (h : ∀ r ∈ rows, List.Forall₂ (fun a b => 0 < a ↔ 0 < b) r.2.1 r.2.2) :
    crossEntropy ε (rows.map fun r => (r.1, r.2.1)) = crossEntropy ε (rows.map fun r => (r.1, r.2.2)) := by
  have e1 : ∀ r ∈ rows, oneHot r.2.1 = oneHot r.2.2 := by
    intro r hr
    unfold oneHot
    have := h r hr
    generalize r.2.1 = a at *
    generalize r.2.2 = b at *
    induction this with
    | nil => rfl
    | cons hab _ ih => simp only [List.map_cons, hab, ih]
  have e2 : ∀ r ∈ rows, r.2.1.length = r.2.2.length := fun r hr => (h r hr).length_eq
  unfold crossEntropy
  simp only [List.map_eq_nil_iff, List.mem_map, forall_exists_index, and_imp,
    forall_apply_eq_imp_iff₂, List.map_map, Function.comp_def]
  have c1 : (∀ a ∈ rows, a.1.length = a.2.1.length) ↔ (∀ a ∈ rows, a.1.length = a.2.2.length) := by
    constructor <;> intro hh r hr <;> have := hh r hr <;> have := e2 r hr <;> omega
  have c2 : rows.map (fun x => logLossRow ε (oneHot x.2.1) (softmax x.1))
      = rows.map (fun x => logLossRow ε (oneHot x.2.2) (softmax x.1)) :=
    List.map_congr_left fun r hr => by rw [e1 r hr]
  simp only [c1, c2]

theorem softmax_sum (row : List ℝ) (h : row ≠ []) : (softmax row).sum = 1 := by
  unfold softmax
  have hpos : 0 < (row.map Real.exp).sum := by
    apply List.sum_pos
    · intro x hx
      obtain ⟨y, _, rfl⟩ := List.mem_map.1 hx
      exact Real.exp_pos y
    · simpa using h
  have : (row.map fun x => Real.exp x / (row.map Real.exp).sum).sum
      = (row.map Real.exp).sum / (row.map Real.exp).sum := by
    simp only [div_eq_mul_inv]
    rw [List.sum_map_mul_right]
  rw [this, div_self hpos.ne']

/-- **C38**, numpy and jax agree whenever no probability is clipped by either of them. -/
theorem C38_numpy_eq_jax (εn εj : ℝ) (rows : List (List ℝ × List ℝ)) (hne : rows ≠ [])
    (hl : ∀ r ∈ rows, r.1 ≠ [] ∧ r.1.length = r.2.length)
    (hc : ∀ r ∈ rows, ∀ p ∈ softmax r.1, εn ≤ p ∧ p ≤ 1 - εn ∧ εj ≤ p ∧ p ≤ 1 - εj) :
    crossEntropy εn rows = .ok (crossEntropyJax εj rows) := by
  unfold crossEntropy crossEntropyJax
  rw [if_neg hne, if_pos (fun r hr => (hl r hr).2)]
  congr 2
  refine List.map_congr_left fun r hr => ?_
  have h1 : (softmax r.1).map (clip εj) = softmax r.1 := by
    conv_rhs => rw [← List.map_id (softmax r.1)]
    exact List.map_congr_left fun p hp => clip_id (hc r hr p hp).2.2.1 (hc r hr p hp).2.2.2
  have h2 : ∀ y q : List ℝ, (∀ p ∈ q, εn ≤ p ∧ p ≤ 1 - εn) →
      List.zipWith (fun y p => y * Real.log (clip εn p)) y q
        = List.zipWith (fun y p => y * Real.log (p / 1)) y q := by
    intro y
    induction y with
    | nil => intro q _; rfl
    | cons a y ih =>
      intro q hq
      cases q with
      | nil => rfl
      | cons b q =>
        simp only [List.zipWith_cons_cons, div_one]
        rw [clip_id (hq b (by simp)).1 (hq b (by simp)).2]
        have := ih q (fun p hp => hq p (by simp [hp]))
        simp only [div_one] at this
        rw [this]
  unfold logLossRow logLossRowJax
  simp only [h1, softmax_sum r.1 (hl r hr).1]
  rw [h2 _ _ (fun p hp => ⟨(hc r hr p hp).1, (hc r hr p hp).2.1⟩)]

/-- **C38**, numpy and torch agree for two classes with one-hot targets (no clipping). -/
theorem C38_torch_two_classes_partial (ε : ℝ) (rows : List (List ℝ × List ℝ)) (hne : rows ≠ [])
    (hrow : ∀ r ∈ rows, ∃ a b t u : ℝ, r = ([a, b], [t, u]) ∧ ((0 < t ∧ u ≤ 0) ∨ (t ≤ 0 ∧ 0 < u)))
    (hc : ∀ r ∈ rows, ∀ p ∈ softmax r.1, ε ≤ p ∧ p ≤ 1 - ε) :
    crossEntropy ε rows = .ok (crossEntropyTorch rows) := by
  have hrowT : ∀ r ∈ rows, (List.zipWith (fun y p => y * Real.log p + (1 - y) * Real.log (1 - p))
      (oneHot r.2) (softmax r.1)).sum = -2 * logLossRow ε (oneHot r.2) (softmax r.1)
      ∧ (List.zipWith (fun y p => y * Real.log p + (1 - y) * Real.log (1 - p))
      (oneHot r.2) (softmax r.1)).length = 2 ∧ r.1.length = r.2.length := by
    intro r hr
    obtain ⟨a, b, t, u, rfl, htu⟩ := hrow r hr
    have hs := softmax_sum [a, b] (by simp)
    have hcc := hc _ hr
    simp only [softmax, List.map_cons, List.map_nil, List.sum_cons, List.sum_nil, add_zero] at hs hcc ⊢
    set p := Real.exp a / (Real.exp a + Real.exp b)
    set q := Real.exp b / (Real.exp a + Real.exp b)
    have hq : q = 1 - p := by linarith
    have c1 : clip ε p = p := clip_id (hcc p (by simp)).1 (hcc p (by simp)).2
    have c2 : clip ε q = q := clip_id (hcc q (by simp)).1 (hcc q (by simp)).2
    rw [hq] at c2
    refine ⟨?_, by simp [oneHot], by simp⟩
    rcases htu with ⟨ht, hu⟩ | ⟨ht, hu⟩
    · simp only [logLossRow, oneHot, List.map_cons, List.map_nil, if_pos ht, if_neg (not_lt.2 hu),
        List.zipWith_cons_cons, List.zipWith_nil_left, List.sum_cons, List.sum_nil, c1, c2, hq]
      rw [show (1 : ℝ) - (1 - p) = p by ring]
      ring
    · simp only [logLossRow, oneHot, List.map_cons, List.map_nil, if_pos hu, if_neg (not_lt.2 ht),
        List.zipWith_cons_cons, List.zipWith_nil_left, List.sum_cons, List.sum_nil, c1, c2, hq]
      ring
  unfold crossEntropy crossEntropyTorch
  rw [if_neg hne, if_pos (fun r hr => (hrowT r hr).2.2)]
  congr 1
  simp only []
  have hn : (rows.length : ℝ) ≠ 0 := by
    rw [Nat.cast_ne_zero]; exact fun h => hne (List.length_eq_zero_iff.1 h)
  have e1 : (rows.map fun r => List.zipWith (fun y p => y * Real.log p + (1 - y) * Real.log (1 - p))
      (oneHot r.2) (softmax r.1)).flatten.sum
      = -2 * (rows.map fun r => logLossRow ε (oneHot r.2) (softmax r.1)).sum := by
    rw [List.sum_flatten, List.map_map, ← List.sum_map_mul_left]
    congr 1
    exact List.map_congr_left fun r hr => (hrowT r hr).1
  have e2 : (rows.map fun r => List.zipWith (fun y p => y * Real.log p + (1 - y) * Real.log (1 - p))
      (oneHot r.2) (softmax r.1)).flatten.length = 2 * rows.length := by
    rw [List.length_flatten, List.map_map]
    have : rows.map (List.length ∘ fun r => List.zipWith (fun y p => y * Real.log p + (1 - y) * Real.log (1 - p))
      (oneHot r.2) (softmax r.1)) = rows.map fun _ => 2 :=
      List.map_congr_left fun r hr => (hrowT r hr).2.1
    rw [this]; simp [mul_comm]
  rw [e1, e2]
  push_cast
  field_simp

/-- **C38, where the backends differ.** Three classes, uniform predictions, one-hot target: numpy (and
jax) return `log 3`, torch returns `log(27/4) / 3`. -/
theorem C38_torch_three_classes_differs :
    crossEntropy 0 [([0, 0, 0], [1, 0, 0])] = .ok (Real.log 3) ∧
    crossEntropyTorch [([0, 0, 0], [1, 0, 0])] = Real.log (27 / 4) / 3 ∧
    Real.log (27 / 4) / 3 < Real.log 3 := by
  have hl3 : Real.log (1 / 3) = -Real.log 3 := by rw [one_div, Real.log_inv]
  refine ⟨?_, ?_, ?_⟩
  · unfold crossEntropy
    rw [if_neg (by simp), if_pos (by simp)]
    congr 1
    have h3 : (1 : ℝ) + (1 + 1) = 3 := by norm_num
    simp [logLossRow, oneHot, softmax, clip, h3]
    norm_num [hl3]
  · have h3 : (1 : ℝ) + (1 + 1) = 3 := by norm_num
    have h4 : Real.log (1 - 3⁻¹) = Real.log 2 - Real.log 3 := by
      rw [show (1 : ℝ) - 3⁻¹ = 2 / 3 by norm_num, Real.log_div (by norm_num) (by norm_num)]
    have h5 : Real.log (27 / 4) = 3 * Real.log 3 - 2 * Real.log 2 := by
      rw [Real.log_div (by norm_num) (by norm_num), show (27 : ℝ) = 3 ^ 3 by norm_num,
        show (4 : ℝ) = 2 ^ 2 by norm_num, Real.log_pow, Real.log_pow]
      push_cast; ring
    simp [crossEntropyTorch, oneHot, softmax, h3, h4, h5]
    ring
  · rw [div_lt_iff₀ (by norm_num)]
    have : Real.log 3 * 3 = Real.log 27 := by
      rw [show (27 : ℝ) = 3 ^ 3 by norm_num, Real.log_pow]; push_cast; ring
    rw [this]
    exact Real.log_lt_log (by norm_num) (by norm_num)

end MuyGPyS.Loss
