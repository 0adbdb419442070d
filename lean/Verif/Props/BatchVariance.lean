import Verif.Props.BatchAverage
import Verif.Props.TruthWitness

/-! # C112: a larger batch gives a more accurate objective -/

namespace MuyGPyS
open Py Matrix

theorem draw_card {b N : Nat} (hb : b ≤ N) : (Fintype.card (Fin b ↪ Fin N) : ℝ) ≠ 0 := by
  rw [Fintype.card_embedding_eq]
  simp only [Fintype.card_fin, ne_eq, Nat.cast_eq_zero]
  rw [Nat.descFactorial_eq_zero_iff_lt]
  omega

theorem perm_two {N : Nat} {x y x' y' : Fin N} (h : x ≠ y) (h' : x' ≠ y') : ∃ τ : Equiv.Perm (Fin N), τ x = x' ∧ τ y = y' := by
  refine ⟨(Equiv.swap x x').trans (Equiv.swap (Equiv.swap x x' y) y'), ?_, ?_⟩
  · rw [Equiv.trans_apply, Equiv.swap_apply_left]
    refine Equiv.swap_apply_of_ne_of_ne (fun e => h ?_) h'
    have : Equiv.swap x x' x = Equiv.swap x x' y := by rw [Equiv.swap_apply_left]; exact e
    exact (Equiv.swap x x').injective this
  · rw [Equiv.trans_apply, Equiv.swap_apply_left]

/-- Every two drawn points are, on average, an average pair of different points. -/
theorem draw_pair {b N : Nat} {i j : Fin b} (hij : i ≠ j) (g : Fin N → Fin N → ℝ) :
    (N * (N - 1) : ℝ) * ∑ e : Fin b ↪ Fin N, g (e i) (e j) = Fintype.card (Fin b ↪ Fin N) * ∑ x, ∑ y, if x = y then 0 else g x y := by
  set S := ∑ e : Fin b ↪ Fin N, g (e i) (e j) with hS
  set f : ℝ := (Fintype.card (Equiv.Perm (Fin N)) : ℝ) with hf
  have hf0 : f ≠ 0 := by rw [hf]; exact_mod_cast Fintype.card_ne_zero
  have h1 : ∀ σ : Equiv.Perm (Fin N), ∑ e : Fin b ↪ Fin N, g (σ (e i)) (σ (e j)) = S := fun σ =>
    Fintype.sum_equiv (Equiv.embeddingCongr (Equiv.refl _) σ) _ _ fun e => rfl
  set h : Fin N → Fin N → ℝ := fun x y => ∑ σ : Equiv.Perm (Fin N), g (σ x) (σ y) with hh
  have hconst : ∀ x y x' y', x ≠ y → x' ≠ y' → h x' y' = h x y := fun x y x' y' hxy hxy' => by
    obtain ⟨τ, t1, t2⟩ := perm_two hxy hxy'
    rw [hh]
    beta_reduce
    rw [← t1, ← t2]
    exact Fintype.sum_equiv (Equiv.mulRight τ) _ _ fun σ => rfl
  have h2 : f * S = ∑ e : Fin b ↪ Fin N, h (e i) (e j) := by
    rw [hh]
    beta_reduce
    rw [Finset.sum_comm, Finset.sum_congr rfl fun σ _ => h1 σ, Finset.sum_const, nsmul_eq_mul, Finset.card_univ]
  have h3 : ∑ x, ∑ y, (if x = y then 0 else h x y) = f * ∑ x, ∑ y, if x = y then 0 else g x y := by
    have : ∀ σ : Equiv.Perm (Fin N), ∑ x, ∑ y, (if x = y then 0 else g (σ x) (σ y)) = ∑ x, ∑ y, if x = y then 0 else g x y := fun σ =>
      Fintype.sum_equiv σ _ _ fun x => Fintype.sum_equiv σ _ _ fun y => by simp
    have h4 : ∑ σ : Equiv.Perm (Fin N), ∑ x, ∑ y, (if x = y then 0 else g (σ x) (σ y)) = f * ∑ x, ∑ y, if x = y then 0 else g x y := by
      rw [Finset.sum_congr rfl fun σ _ => this σ, Finset.sum_const, nsmul_eq_mul, Finset.card_univ]
    rw [← h4]
    refine (Finset.sum_comm.trans (Finset.sum_congr rfl fun x _ => Finset.sum_comm.trans (Finset.sum_congr rfl fun y _ => ?_))).symm
    by_cases hxy : x = y
    · simp [hxy]
    · simp [hxy, hh]
  rcases isEmpty_or_nonempty (Fin b ↪ Fin N) with he | ⟨⟨e⟩⟩
  · simp [hS]
  have hne : e i ≠ e j := fun h => hij (e.injective h)
  have h5 : ∑ e' : Fin b ↪ Fin N, h (e' i) (e' j) = Fintype.card (Fin b ↪ Fin N) * h (e i) (e j) := by
    rw [Finset.sum_congr rfl fun e' _ => hconst (e i) (e j) (e' i) (e' j) hne fun h => hij (e'.injective h), Finset.sum_const, nsmul_eq_mul, Finset.card_univ]
  have h6 : ∑ x, ∑ y, (if x = y then 0 else h x y) = (N * (N - 1) : ℝ) * h (e i) (e j) := by
    have : ∀ x : Fin N, ∑ y, (if x = y then 0 else h x y) = ((N : ℝ) - 1) * h (e i) (e j) := fun x => by
      have e1 : ∀ y : Fin N, (if x = y then 0 else h x y) = h (e i) (e j) - if x = y then h (e i) (e j) else 0 := fun y => by
        split
        · ring
        · next hxy => rw [hconst (e i) (e j) x y hne hxy, sub_zero]
      rw [Finset.sum_congr rfl fun y _ => e1 y, Finset.sum_sub_distrib, Finset.sum_const, Finset.card_univ, Fintype.card_fin, nsmul_eq_mul,
        Finset.sum_ite_eq Finset.univ x]
      simp
      ring
    rw [Finset.sum_congr rfl fun x _ => this x, Finset.sum_const, Finset.card_univ, Fintype.card_fin, nsmul_eq_mul]
    ring
  have h7 : f * ((N * (N - 1) : ℝ) * S) = f * (Fintype.card (Fin b ↪ Fin N) * ∑ x, ∑ y, if x = y then 0 else g x y) := by
    calc _ = (N * (N - 1) : ℝ) * (f * S) := by ring
      _ = Fintype.card (Fin b ↪ Fin N) * ((N * (N - 1) : ℝ) * h (e i) (e j)) := by rw [h2, h5]; ring
      _ = _ := by rw [← h6, h3]; ring
  exact mul_left_cancel₀ hf0 h7

/-- The variance over all draws of a sum over the drawn points. -/
theorem drawVariance_sum {b N : Nat} (hb : b ≤ N) (hN : 2 ≤ N) (c : ℝ) (t : Nat → ℝ) :
    Spec.drawVariance N b (fun l => c * (l.map t).sum) =
      c ^ 2 * (b * (N - b) / (N * (N - 1)) * ∑ x : Fin N, (t x - (∑ y : Fin N, t y) / N) ^ 2) := by
  have hNr : (2 : ℝ) ≤ N := by exact_mod_cast hN
  have : NeZero N := ⟨by omega⟩
  set m := (∑ y : Fin N, t y) / N with hm
  set u : Fin N → ℝ := fun x => t x - m with hu
  have hu0 : ∑ x, u x = 0 := by
    rw [hu]
    simp only [Finset.sum_sub_distrib, Finset.sum_const, Finset.card_univ, Fintype.card_fin, nsmul_eq_mul, hm]
    field_simp
    ring
  have hav : Spec.drawAverage N b (fun l => c * (l.map t).sum) = c * (b * m) := by
    rw [drawAverage_sum hb (by omega)]
    have e2 : ((List.range N).map t).sum = ∑ x : Fin N, t x := by
      rw [← List.sum_toFinset _ List.nodup_range, List.toFinset_range, Finset.sum_range]
    rw [e2, hm]
    ring
  set C : ℝ := (Fintype.card (Fin b ↪ Fin N) : ℝ) with hC
  have hC0 : C ≠ 0 := draw_card hb
  have e1 : ∀ e : Fin b ↪ Fin N, (c * ((List.ofFn fun i => (e i : Nat)).map t).sum - c * (b * m)) ^ 2 =
      c ^ 2 * ∑ i, ∑ j, u (e i) * u (e j) := fun e => by
    have : ((List.ofFn fun i => (e i : Nat)).map t).sum - b * m = ∑ i, u (e i) := by
      rw [List.map_ofFn, List.sum_ofFn, hu]
      simp [Finset.sum_sub_distrib]
    rw [← mul_sub, mul_pow, this, sq (∑ i, u (e i)), Finset.sum_mul_sum]
  have hP : ∑ x, ∑ y, (if x = y then 0 else u x * u y) = -∑ x, u x ^ 2 := by
    have : ∀ x, ∑ y, (if x = y then 0 else u x * u y) = -u x ^ 2 := fun x => by
      have e3 : ∀ y, (if x = y then 0 else u x * u y) = u x * u y - if x = y then u x ^ 2 else 0 := fun y => by
        split
        · next h => rw [h]; ring
        · ring
      rw [Finset.sum_congr rfl fun y _ => e3 y, Finset.sum_sub_distrib, ← Finset.mul_sum, hu0, Finset.sum_ite_eq Finset.univ x]
      simp
    rw [Finset.sum_congr rfl fun x _ => this x, Finset.sum_neg_distrib]
  set Q := ∑ x, u x ^ 2 with hQ
  have hd : ∀ i : Fin b, ∑ e : Fin b ↪ Fin N, u (e i) * u (e i) = C / N * Q := fun i => by
    have := draw_point (b := b) i fun x => u x * u x
    have h2 : ∑ x, u x * u x = Q := Finset.sum_congr rfl fun x _ => (sq _).symm
    rw [h2] at this
    rw [div_mul_eq_mul_div, eq_div_iff (by linarith), mul_comm]
    exact this
  have ho : ∀ i j : Fin b, i ≠ j → ∑ e : Fin b ↪ Fin N, u (e i) * u (e j) = -(C / (N * (N - 1)) * Q) := fun i j hij => by
    have := draw_pair hij fun x y => u x * u y
    rw [hP] at this
    have hN1 : (N : ℝ) * (N - 1) ≠ 0 := mul_ne_zero (by linarith) (by linarith)
    rw [div_mul_eq_mul_div, ← neg_div, eq_div_iff hN1, mul_comm]
    exact this.trans (by ring)
  have hall : ∑ e : Fin b ↪ Fin N, ∑ i, ∑ j, u (e i) * u (e j) = C * (b * (N - b) / (N * (N - 1)) * Q) := by
    rw [Finset.sum_comm]
    have : ∀ i : Fin b, ∑ e : Fin b ↪ Fin N, ∑ j, u (e i) * u (e j) = C / N * Q - ((b : ℝ) - 1) * (C / (N * (N - 1)) * Q) := fun i => by
      rw [Finset.sum_comm]
      have e4 : ∀ j : Fin b, ∑ e : Fin b ↪ Fin N, u (e i) * u (e j) =
          -(C / (N * (N - 1)) * Q) + if i = j then C / N * Q + C / (N * (N - 1)) * Q else 0 := fun j => by
        split
        · next h => rw [← h, hd i]; ring
        · next h => rw [ho i j h]; ring
      rw [Finset.sum_congr rfl fun j _ => e4 j, Finset.sum_add_distrib, Finset.sum_const, Finset.card_univ, Fintype.card_fin, nsmul_eq_mul,
        Finset.sum_ite_eq Finset.univ i]
      simp
      ring
    rw [Finset.sum_congr rfl fun i _ => this i, Finset.sum_const, Finset.card_univ, Fintype.card_fin, nsmul_eq_mul]
    have hN1 : (N : ℝ) - 1 ≠ 0 := by linarith
    field_simp
    ring
  unfold Spec.drawVariance
  rw [hav]
  unfold Spec.drawAverage
  rw [Finset.sum_congr rfl fun e _ => e1 e, ← Finset.mul_sum, hall, ← hC]
  rw [mul_left_comm, mul_div_cancel_left₀ _ hC0]

theorem drawAverage_congr {b N : Nat} {F G : List Nat → ℝ} (h : ∀ l : List Nat, l.length = b → F l = G l) :
    Spec.drawAverage N b F = Spec.drawAverage N b G := by
  unfold Spec.drawAverage
  congr 1
  exact Finset.sum_congr rfl fun e _ => h _ List.length_ofFn

theorem drawVariance_congr {b N : Nat} {F G : List Nat → ℝ} (h : ∀ l : List Nat, l.length = b → F l = G l) :
    Spec.drawVariance N b F = Spec.drawVariance N b G := by
  unfold Spec.drawVariance
  rw [drawAverage_congr h]
  exact drawAverage_congr fun l hl => by rw [h l hl]

/-- An average over a random batch: unbiased, and its variance is that of a single point divided by the size of the batch and corrected for drawing
without repetition. -/
theorem draw_mean {N : Nat} (hN : 2 ≤ N) (a : ℝ) (t : Nat → ℝ) (R : List Nat → ℝ) (hR : ∀ l, R l = a / l.length * (l.map t).sum) (b : Nat) (hb : 0 < b)
    (hbN : b ≤ N) :
    Spec.drawAverage N b R = R (List.range N) ∧
    Spec.drawVariance N b R = (N - b) / (b * (N - 1)) * Spec.drawVariance N 1 R ∧
      ∀ b', b ≤ b' → b' ≤ N → Spec.drawVariance N b' R ≤ Spec.drawVariance N b R := by
  have hNr : (2 : ℝ) ≤ N := by exact_mod_cast hN
  have hN1 : (0 : ℝ) < N - 1 := by linarith
  have hN0 : (0 : ℝ) < N := by linarith
  set Q := ∑ x : Fin N, (t x - (∑ y : Fin N, t y) / N) ^ 2 with hQ
  have hQ0 : 0 ≤ Q := Finset.sum_nonneg fun _ _ => sq_nonneg _
  have key : ∀ b, 0 < b → b ≤ N → Spec.drawVariance N b R = a ^ 2 * ((N - b) / (b * (N - 1)) * (Q / N)) := fun b hb hbN => by
    have hb' : (0 : ℝ) < b := by exact_mod_cast hb
    rw [drawVariance_congr (G := fun l => a / b * (l.map t).sum) fun l hl => by rw [hR, hl], drawVariance_sum hbN hN, ← hQ]
    field_simp
  have hb' : (0 : ℝ) < b := by exact_mod_cast hb
  refine ⟨?_, ?_, fun b' hbb hbN' => ?_⟩
  · rw [drawAverage_congr (G := fun l => a / b * (l.map t).sum) fun l hl => by rw [hR, hl], drawAverage_sum hbN (by omega), hR, List.length_range]
    field_simp
  · rw [key b hb hbN, key 1 one_pos (by omega)]
    push_cast
    field_simp
  · rw [key b hb hbN, key b' (by omega) hbN']
    have hbb' : (b : ℝ) ≤ b' := by exact_mod_cast hbb
    have hbN'' : (b' : ℝ) ≤ N := by exact_mod_cast hbN'
    refine mul_le_mul_of_nonneg_left (mul_le_mul_of_nonneg_right ?_ (by positivity)) (sq_nonneg a)
    refine div_le_div₀ (by linarith) (by linarith) (by positivity) ?_
    exact mul_le_mul_of_nonneg_right hbb' hN1.le

/-- **C112**: the objective per batch point (`R`: the objective itself for mse, which averages over the batch, and the objective divided by the size of the
batch for the losses that are sums), at any hyperparameters, on a random batch of `b` of the `N` training points: on average it is that of all training
points, and its variance over the draws is that for batches of one point times `(N - b) / (b (N - 1))`. So a larger batch is never less accurate. -/
theorem C112_objective (bs : Flt → ℝ → ℝ) (M L : Learner) (hmadeM : M.Made) (kw : Dict Flt)
    (hf : M.Feasible kw) (hk : M.trainee.R.kernel.Accepts kw) (ht : L.trainee = M.trainee.trial kw)
    (hkind : L.deform.kind = M.deform.kind ∧ L.deform.metric = M.deform.metric)
    (hmade : L.Made) (w : NNWrapper) (hw : w.Exact)
    (len : Fin w.f → ℝ) (hlen : L.deform.HasLengths w.f len) (hk0 : 0 < w.nnCount) (hkN : w.nnCount + 1 ≤ w.N) (τ : ℝ)
    (hτ : L.trainee.R.gp.noise.Level τ) (hreg : L.WellPosed bs w τ) (Y : Tensor ℝ) (hY : Y.shape = [w.N]) (l : LossKind)
    (hl : M.AdditiveLoss l) (draws : List (List Nat)) :
    ∃ (S : List Nat → ℝ) (T : ℝ) (R : List Nat → ℝ),
      (∀ bc draw, 0 < bc → bc < w.N → IsDraw w.N bc draw → M.batchObjective bs l draws w Y kw bc draw = .ok (some (S draw))) ∧
      (∀ bc draw, w.N ≤ bc → M.batchObjective bs l draws w Y kw bc draw = .ok (some T)) ∧
      (l = .mse → R (List.range w.N) = T ∧ ∀ draw, R draw = S draw) ∧
      (l ≠ .mse → R (List.range w.N) = T / w.N ∧ ∀ draw, R draw = S draw / draw.length) ∧
      ∀ b, 0 < b → b ≤ w.N → Spec.drawAverage w.N b R = R (List.range w.N) ∧
        Spec.drawVariance w.N b R = (w.N - b) / (b * (w.N - 1)) * Spec.drawVariance w.N 1 R ∧
        ∀ b', b ≤ b' → b' ≤ w.N → Spec.drawVariance w.N b' R ≤ Spec.drawVariance w.N b R := by
  have one := batchObjective_sum bs M L hmadeM kw hf hk ht hkind hmade w hw len hlen hkN τ hτ hreg Y hY l hl draws
  set t := L.contribution bs w len Y l with htdef
  refine ⟨fun draw => -(l.factor draw.length * (draw.map t).sum), -(l.factor w.N * ((List.range w.N).map t).sum),
    fun draw => -1 / draw.length * (draw.map t).sum, fun bc draw hbc hlt hd => ?_, fun bc draw hle => ?_, fun h => ⟨?_, fun draw => ?_⟩,
    fun h => ⟨?_, fun draw => ?_⟩, fun b hb hbN => draw_mean (by omega) (-1) t _ (fun _ => rfl) b hb hbN⟩
  · obtain ⟨idx, h1, h2⟩ := one bc draw hbc fun _ => hd
    rw [if_pos hlt] at h1
    rw [h2, h1]
  · obtain ⟨idx, h1, h2⟩ := one bc draw (by omega) fun h => absurd h (by omega)
    rw [if_neg (by omega)] at h1
    rw [h2, h1, List.length_range]
  · rw [h]
    simp only [LossKind.factor, List.length_range]
    ring
  · rw [h]
    simp only [LossKind.factor]
    ring
  · have hfac : ∀ n, l.factor n = 1 := fun n => by cases l <;> first | rfl | exact absurd rfl h
    beta_reduce
    rw [hfac, List.length_range]
    ring
  · have hfac : ∀ n, l.factor n = 1 := fun n => by cases l <;> first | rfl | exact absurd rfl h
    beta_reduce
    rw [hfac]
    ring

/-- **C112** for the variance scale estimated by `AnalyticScale` (with one iteration, the default) from a random batch. -/
theorem C112_scale (bs : Flt → ℝ → ℝ) (L : Learner) (hmade : L.Made) (hsk : L.scaleKind = .analytic 1)
    (w : NNWrapper) (hw : w.Exact) (hk0 : 0 < w.nnCount)
    (len : Fin w.f → ℝ) (hlen : L.deform.HasLengths w.f len) (hkN : w.nnCount + 1 ≤ w.N) (τ : ℝ)
    (hτ : L.trainee.R.gp.noise.Level τ) (hreg : L.WellPosed bs w τ) (Y : Tensor ℝ) (hY : Y.shape = [w.N])
    (hY0 : ∀ i < w.N, Y.get [i] ≠ 0) (sd : List (List Nat)) :
    ∃ (S : List Nat → ℝ) (T : ℝ),
      (∀ bc draw, 0 < bc → bc < w.N → IsDraw w.N bc draw → ∃ L', L.batchScale bs sd w Y bc draw = .ok L' ∧ L'.scale = S draw) ∧
      (∀ bc draw, w.N ≤ bc → ∃ L', L.batchScale bs sd w Y bc draw = .ok L' ∧ L'.scale = T) ∧
      ∀ b, 0 < b → b ≤ w.N → Spec.drawAverage w.N b S = T ∧
        Spec.drawVariance w.N b S = (w.N - b) / (b * (w.N - 1)) * Spec.drawVariance w.N 1 S ∧
        ∀ b', b ≤ b' → b' ≤ w.N → Spec.drawVariance w.N b' S ≤ Spec.drawVariance w.N b S := by
  obtain ⟨t, one⟩ := batchScale_sum bs L hmade hsk w hw hk0 len hlen hkN τ hτ hreg Y hY hY0 sd
  have hn : (w.nnCount : ℝ) ≠ 0 := by exact_mod_cast hk0.ne'
  refine ⟨fun draw => 1 / ((draw.length : ℝ) * w.nnCount) * (draw.map t).sum, 1 / ((w.N : ℝ) * w.nnCount) * ((List.range w.N).map t).sum,
    fun bc draw hbc hlt hd => ?_, fun bc draw hle => ?_, fun b hb hbN => ?_⟩
  · obtain ⟨idx, h1, h2⟩ := one bc draw hbc fun _ => hd
    rw [if_pos hlt] at h1
    subst h1
    exact h2
  · obtain ⟨idx, h1, h2⟩ := one bc draw (by omega) fun h => absurd h (by omega)
    rw [if_neg (by omega)] at h1
    subst h1
    rw [List.length_range] at h2
    exact h2
  · have := draw_mean (by omega) (1 / (w.nnCount : ℝ)) t (fun draw => 1 / ((draw.length : ℝ) * w.nnCount) * (draw.map t).sum)
      (fun l => by rw [div_div, mul_comm (w.nnCount : ℝ)]) b hb hbN
    refine ⟨this.1.trans ?_, this.2⟩
    rw [List.length_range]

/-- Non-vacuity of `C112_objective`: `lineLearner` at length scale 2; batches of two of the three training points have a quarter of the variance. -/
example (bs : Flt → ℝ → ℝ) : ∃ (w : NNWrapper) (S : List Nat → ℝ), w.train = lineTrain ∧
    lineLearner.batchObjective bs .mse [] w lineTargets [("length_scale", Flt.fin 2)] 2 [2, 0] = .ok (some (S [2, 0])) ∧
    lineLearner.batchObjective bs .mse [] w lineTargets [("length_scale", Flt.fin 2)] 1 [2] = .ok (some (S [2])) ∧
    Spec.drawVariance 3 2 S = 1 / 4 * Spec.drawVariance 3 1 S := by
  obtain ⟨answer, hw⟩ := line_exact
  obtain ⟨S, T, R, h1, -, h3, -, h4⟩ := C112_objective bs lineLearner lineLearner2 rfl [("length_scale", Flt.fin 2)]
    (line_feasible 2 one_le_two (by norm_num)) (line_accepts 2 one_le_two (by norm_num)) rfl ⟨rfl, rfl⟩ rfl
    ⟨3, 1, lineTrain, 2, fun x y => |x 0 - y 0|, false, answer⟩ hw (fun _ => 2) ⟨2, two_pos, rfl, fun _ => rfl⟩ two_pos le_rfl 1 rfl (.inl ⟨rfl, .inl one_pos⟩)
    lineTargets rfl .mse trivial []
  obtain rfl : R = S := funext (h3 rfl).2
  refine ⟨⟨3, 1, lineTrain, 2, fun x y => |x 0 - y 0|, false, answer⟩, R, rfl, h1 2 [2, 0] two_pos (by norm_num)
    ⟨rfl, by decide, fun x hx => by show x < 3; fin_cases hx <;> norm_num⟩, h1 1 [2] one_pos (by norm_num)
    ⟨rfl, by decide, fun x hx => by show x < 3; fin_cases hx; norm_num⟩, ?_⟩
  refine (h4 2 two_pos (by norm_num)).2.1.trans ?_
  norm_num

/-- Non-vacuity of `C112_scale`: all responses 1. -/
example (bs : Flt → ℝ → ℝ) : ∃ (w : NNWrapper) (S : List Nat → ℝ) (L' : Learner), w.train = lineTrain ∧
    lineLearner.batchScale bs [] w ⟨[3], fun _ => 1⟩ 2 [2, 0] = .ok L' ∧ L'.scale = S [2, 0] ∧ Spec.drawVariance 3 2 S = 1 / 4 * Spec.drawVariance 3 1 S := by
  obtain ⟨answer, hw⟩ := line_exact
  obtain ⟨S, T, h1, -, h4⟩ := C112_scale bs lineLearner rfl rfl
    ⟨3, 1, lineTrain, 2, fun x y => |x 0 - y 0|, false, answer⟩ hw two_pos (fun _ => 1) ⟨1, one_pos, rfl, fun _ => rfl⟩ le_rfl 1 rfl (.inl ⟨rfl, .inl one_pos⟩)
    ⟨[3], fun _ => 1⟩ rfl (fun i _ => one_ne_zero) []
  obtain ⟨L', l1, l2⟩ := h1 2 [2, 0] two_pos (by norm_num) ⟨rfl, by decide, fun x hx => by show x < 3; fin_cases hx <;> norm_num⟩
  refine ⟨_, S, L', rfl, l1, l2, (h4 2 two_pos (by norm_num)).2.1.trans ?_⟩
  norm_num

end MuyGPyS
