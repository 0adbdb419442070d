import Verif.Spec.BatchAverage
import Verif.Props.Smooth
import Verif.Props.WellPosed

/-! # The objective of a batch, the order of the batch, and the average over all batches (C97) -/

namespace MuyGPyS
open Py Matrix

/-- Shifting all drawn points. -/
def shiftDraw {b N : Nat} [NeZero N] (s : Fin N) : (Fin b ↪ Fin N) ≃ (Fin b ↪ Fin N) where
  toFun e := e.trans (Equiv.addRight s).toEmbedding
  invFun e := e.trans (Equiv.addRight (-s)).toEmbedding
  left_inv e := by ext i; simp
  right_inv e := by ext i; simp

/-- Every drawn point is, on average, an average point. -/
theorem draw_point {b N : Nat} [NeZero N] (i : Fin b) (t : Fin N → ℝ) :
    N * ∑ e : Fin b ↪ Fin N, t (e i) = Fintype.card (Fin b ↪ Fin N) * ∑ x, t x := by
  have h : ∀ s : Fin N, ∑ e : Fin b ↪ Fin N, t (e i + s) = ∑ e : Fin b ↪ Fin N, t (e i) := fun s =>
    Fintype.sum_equiv (shiftDraw s) _ _ fun e => rfl
  have h1 : ∑ s : Fin N, ∑ e : Fin b ↪ Fin N, t (e i + s) = N * ∑ e : Fin b ↪ Fin N, t (e i) := by
    rw [Finset.sum_congr rfl fun s _ => h s]
    simp
  rw [← h1, Finset.sum_comm]
  have h2 : ∀ e : Fin b ↪ Fin N, ∑ s, t (e i + s) = ∑ x, t x := fun e =>
    Fintype.sum_equiv (Equiv.addLeft (e i)) _ _ fun s => rfl
  rw [Finset.sum_congr rfl fun e _ => h2 e]
  simp

/-- The average over all draws of a sum over the drawn points. -/
theorem drawAverage_sum {b N : Nat} (hb : b ≤ N) (hN : 0 < N) (c : ℝ) (t : Nat → ℝ) :
    Spec.drawAverage N b (fun l => c * (l.map t).sum) = c * (b / N * ((List.range N).map t).sum) := by
  haveI : NeZero N := ⟨hN.ne'⟩
  have hcard : (Fintype.card (Fin b ↪ Fin N) : ℝ) ≠ 0 := by
    rw [Fintype.card_embedding_eq]
    simp only [Fintype.card_fin, ne_eq, Nat.cast_eq_zero]
    rw [Nat.descFactorial_eq_zero_iff_lt]
    omega
  have hNr : (N : ℝ) ≠ 0 := by exact_mod_cast hN.ne'
  have e1 : ∀ e : Fin b ↪ Fin N, ((List.ofFn fun i => (e i : Nat)).map t).sum = ∑ i, t (e i) := fun e => by
    rw [List.map_ofFn, List.sum_ofFn]; rfl
  have e2 : ((List.range N).map t).sum = ∑ x : Fin N, t x := by
    rw [← List.sum_toFinset _ List.nodup_range, List.toFinset_range, Finset.sum_range]
  unfold Spec.drawAverage
  simp only [e1, e2, ← Finset.mul_sum]
  rw [Finset.sum_comm]
  have h : ∀ i : Fin b, ∑ e : Fin b ↪ Fin N, t (e i) = Fintype.card (Fin b ↪ Fin N) * (∑ x : Fin N, t x) / N := fun i => by
    rw [eq_div_iff hNr, mul_comm, draw_point i fun x => t x]
  rw [Finset.sum_congr rfl fun i _ => h i]
  simp only [Finset.sum_const, Finset.card_univ, Fintype.card_fin, nsmul_eq_mul]
  field_simp

/-- The neighbours of training point `x` when it is in a batch. -/
def NNWrapper.batchAt (w : NNWrapper) (x : Nat) : Tensor Int :=
  ⟨[1, w.nnCount], fun j => Int.ofNat ((w.answer (rowPt w.train w.f x) (w.nnCount + 1)).tail.getD j 0)⟩

theorem sum_range_list (l : List Nat) (t : Nat → ℝ) (F : Nat → ℝ) (h : ∀ p x, l[p]? = some x → F p = t x) :
    ∑ p ∈ Finset.range l.length, F p = (l.map t).sum := by
  rw [Finset.sum_range, ← List.sum_ofFn]
  congr 1
  refine List.ext_getElem (by simp) fun j h1 h2 => ?_
  rw [List.getElem_ofFn, List.getElem_map]
  rw [List.length_ofFn] at h1
  exact h j _ (List.getElem?_eq_getElem h1)

/-- The rows of the neighbours of a batch depend on the batch points only. -/
theorem batch_same (w : NNWrapper) (hw : w.Exact) (bc : Nat) (hbc : 0 < bc) (hN : 0 < w.N) (draw : List Nat)
    (hd : bc < w.N → IsDraw w.N bc draw) (hkN : w.nnCount + 1 ≤ w.N) (idx : List Nat) (nn : Tensor Int)
    (h : sampleBatch w bc w.N draw = .ok (idx, nn)) :
    idx = (if bc < w.N then draw else List.range w.N) ∧
    ∀ p x, idx[p]? = some x → ∀ j < w.nnCount, nn.get [p, j] = (w.batchAt x).get [0, j] := by
  obtain ⟨idx', nn', D, h1, h2, h3, h4, h5, h6, h7⟩ := sampleBatch_ok w hw bc hbc hN draw hd hkN
  rw [h] at h1
  obtain ⟨rfl, rfl⟩ := Prod.mk.inj (Except.ok.inj h1)
  refine ⟨h2, fun p x hx j hj => ?_⟩
  obtain ⟨I, D', i1, -, -, i4⟩ := batch_ok w hw (ofNats idx) idx.length rfl (ofNats_valid h5) h4 hkN
  rw [h3] at i1
  obtain ⟨rfl, rfl⟩ := Prod.mk.inj (Except.ok.inj i1)
  have hp : p < idx.length := (List.getElem?_eq_some_iff.mp hx).1
  have hr := (i4 p hp).1
  rw [ofNats_get, List.getD_eq_getElem?_getD, hx, Option.getD_some, pointOf_nat] at hr
  obtain ⟨y, y1, y2⟩ := rowList_get hr hj
  rw [y2, Tensor.get2 _ (show (w.batchAt x).shape = [1, w.nnCount] from rfl)]
  show (y : Int) = Int.ofNat ((w.answer (rowPt w.train w.f x) (w.nnCount + 1)).tail.getD (0 * w.nnCount + j) 0)
  rw [Nat.zero_mul, Nat.zero_add, List.getD_eq_getElem?_getD, y1]
  rfl

/-- What training point `x` contributes to the loss of a batch. -/
noncomputable def Learner.contribution (bs : Flt → ℝ → ℝ) (L : Learner) (w : NNWrapper) (len : Fin w.f → ℝ) (Y : Tensor ℝ) (l : LossKind) (x : Nat) : ℝ :=
  let K := L.batchCov bs w len (w.batchAt x) 0
  let k := nbrCross bs L.trainee.R.kernel len w.train w.N w.nnCount (w.batchAt x) 0 (rowPt w.train w.f x)
  let m := Spec.krigingMean K k (nbrTargets Y w.N w.nnCount (w.batchAt x) 0 0)
  match l.term with
  | some term => term m (Y.get [x]) (L.scale * Spec.krigingVar 1 K k)
  | none => l.errorLoss (Y.get [x] - m)

/-- Everything about a batch, point by point. -/
theorem batch_uniform (bs : Flt → ℝ → ℝ) (L : Learner) (w : NNWrapper) (hw : w.Exact)
    (len : Fin w.f → ℝ) (hlen : L.deform.HasLengths w.f len) (hkN : w.nnCount + 1 ≤ w.N) (τ : ℝ)
    (hτ : L.trainee.R.gp.noise.Level τ) (hreg : L.WellPosed bs w τ) (Y : Tensor ℝ) (hY : Y.shape = [w.N])
    (bc : Nat) (hbc : 0 < bc) (draw : List Nat) (hd : bc < w.N → IsDraw w.N bc draw) :
    ∃ idx nn d, sampleBatch w bc w.N draw = .ok (idx, nn) ∧ idx = (if bc < w.N then draw else List.range w.N) ∧ idx.length = min bc w.N ∧
      (∀ x ∈ idx, x < w.N) ∧ nn.shape = [idx.length, w.nnCount] ∧ AllValid w.N nn ∧
      L.trainData (idx, nn) w.train Y = .ok d ∧ L.deform.pairwise w.train nn = .ok d.pairwise ∧
      L.deform.crosswise w.train w.train (ofNats idx) nn = .ok d.crosswise ∧ d.targets.shape = [idx.length] ∧
      d.nnTargets.shape = [idx.length, w.nnCount] ∧ (∀ p < idx.length, (L.batchCov bs w len nn p).PosDef) ∧
      ∀ p x, idx[p]? = some x → L.batchCov bs w len nn p = L.batchCov bs w len (w.batchAt x) 0 ∧
        L.batchCross bs w len idx nn p = nbrCross bs L.trainee.R.kernel len w.train w.N w.nnCount (w.batchAt x) 0 (rowPt w.train w.f x) ∧
        Spec.vec w.nnCount d.nnTargets p = nbrTargets Y w.N w.nnCount (w.batchAt x) 0 0 ∧ d.targets.get [p] = Y.get [x] := by
  have hN : 0 < w.N := by omega
  obtain ⟨idx, nn, d, g1, g1', g1'', h4, h5, hv, g2, g3, g3', g4t, g4, g6, g5⟩ := regressor_data L w hw len hlen bc hbc draw hd hN hkN Y hY
  obtain ⟨e1, e2⟩ := batch_same w hw bc hbc hN draw hd hkN idx nn g1
  have hrows : ∀ p < idx.length, ∃ l : List Nat, rowList nn w.nnCount p = l.map Int.ofNat ∧ l.length = w.nnCount ∧ l.Nodup ∧
      ∀ j ∈ l, j < w.N := by
    intro p hp
    obtain ⟨idx', nn', b1, -, -, -, -, -, b2⟩ := C42_batch w hw bc hbc hN draw hd hkN
    rw [g1] at b1
    obtain ⟨rfl, rfl⟩ := Prod.mk.inj (Except.ok.inj b1)
    obtain ⟨l, e1, e2, e3, e4, _⟩ := b2 p idx[p] (List.getElem?_eq_getElem hp)
    exact ⟨l, e1, e2, e3, e4⟩
  refine ⟨idx, nn, d, g1, e1, g1', h4, h5, hv, g2, g3, g3', g4t, g4,
    fun p hp => hreg.posdef hw hlen hτ idx.length nn hrows p hp, fun p x hx => ⟨?_, ?_, ?_, g6 p x hx⟩⟩
  · unfold Learner.batchCov
    rw [hτ.mat, hτ.mat, (nbr_congr bs L.trainee.R.kernel len w.train Y w.N w.nnCount nn (w.batchAt x) p 0 (e2 p x hx)).1]
  · unfold Learner.batchCross
    rw [(nbr_congr bs L.trainee.R.kernel len w.train Y w.N w.nnCount nn (w.batchAt x) p 0 (e2 p x hx)).2.1,
      List.getD_eq_getElem?_getD, hx, Option.getD_some]
  · rw [g5 p (List.getElem?_eq_some_iff.mp hx).1,
      (nbr_congr bs L.trainee.R.kernel len w.train Y w.N w.nnCount nn (w.batchAt x) p 0 (e2 p x hx)).2.2]

/-- The score of a batch is a sum (or average) of contributions of its points, whatever else is in the batch. -/
theorem batch_additive (bs : Flt → ℝ → ℝ) (L : Learner) (hmade : L.Made) (w : NNWrapper) (hw : w.Exact)
    (len : Fin w.f → ℝ) (hlen : L.deform.HasLengths w.f len) (hkN : w.nnCount + 1 ≤ w.N) (τ : ℝ)
    (hτ : L.trainee.R.gp.noise.Level τ) (hreg : L.WellPosed bs w τ) (Y : Tensor ℝ) (hY : Y.shape = [w.N]) (l : LossKind)
    (hl : L.AdditiveLoss l) (draws : List (List Nat)) (bc : Nat) (hbc : 0 < bc) (draw : List Nat) (hd : bc < w.N → IsDraw w.N bc draw) :
    ∃ idx nn d, sampleBatch w bc w.N draw = .ok (idx, nn) ∧ idx = (if bc < w.N then draw else List.range w.N) ∧ idx.length = min bc w.N ∧
      L.trainData (idx, nn) w.train Y = .ok d ∧ d.targets.shape = [idx.length] ∧
      L.score bs l draws d = .ok (some (-(l.factor idx.length * (idx.map (L.contribution bs w len Y l)).sum))) := by
  obtain ⟨idx, nn, d, g1, e1, g1', h4, h5, hv, g2, g3, g3', g4t, g4, hposd, hx⟩ := batch_uniform bs L w hw len hlen hkN τ hτ hreg Y hY bc hbc draw hd
  have hpd := fun p hp => Kriging.det_ne_zero (hposd p hp)
  refine ⟨idx, nn, d, g1, e1, g1', g2, g4t, ?_⟩
  have raw : l = .mse ∨ (∃ δ, l = .pseudoHuber δ) → L.score bs l draws d =
      .ok (some (-(l.factor idx.length * (idx.map (L.contribution bs w len Y l)).sum))) := fun h => by
    rw [score_means bs L hmade w hw len hlen idx nn h4 h5 hv d g3 g3' g4t g4 (hτ.fits _ _) hpd l h draws]
    congr 4
    refine sum_range_list idx _ _ fun p x hpx => ?_
    obtain ⟨x1, x2, x3, x4⟩ := hx p x hpx
    have ht : l.term = none := by rcases h with rfl | ⟨δ, rfl⟩ <;> rfl
    simp only [Learner.contribution, ht, x1, x2, x3, x4]
  have var : ∀ term, l.term = some term → L.scaleKind = .fixed → l.factor idx.length = 1 → L.score bs l draws d =
      .ok (some (-(l.factor idx.length * (idx.map (L.contribution bs w len Y l)).sum))) := fun term ht hsk hf => by
    rw [score_variances bs L hmade w hw len hlen idx nn h4 h5 hv d g3 g3' g4t g4 (hτ.fits _ _) hpd draws l term ht (.inl hsk), hf, one_mul]
    congr 3
    refine sum_range_list idx _ _ fun p x hpx => ?_
    obtain ⟨x1, x2, x3, x4⟩ := hx p x hpx
    have hrs : L.reportedScale idx.length (fun p => L.batchCov bs w len nn p) (Spec.vec w.nnCount d.nnTargets) = L.scale := by
      unfold Learner.reportedScale
      rw [hsk]
    simp only [Learner.contribution, ht, x1, x2, x3, x4, hrs]
  cases l with
  | mse => exact raw (.inl rfl)
  | pseudoHuber δ => exact raw (.inr ⟨δ, rfl⟩)
  | lool => exact var _ rfl hl rfl
  | looph δ => exact var _ rfl hl rfl
  | _ => exact hl.elim

/-- The objective of a batch is a sum over its points. -/
theorem batchObjective_sum (bs : Flt → ℝ → ℝ) (M L : Learner) (hmadeM : M.Made) (kw : Dict Flt)
    (hf : M.Feasible kw) (hk : M.trainee.R.kernel.Accepts kw) (ht : L.trainee = M.trainee.trial kw)
    (hkind : L.deform.kind = M.deform.kind ∧ L.deform.metric = M.deform.metric)
    (hmade : L.Made) (w : NNWrapper) (hw : w.Exact)
    (len : Fin w.f → ℝ) (hlen : L.deform.HasLengths w.f len) (hkN : w.nnCount + 1 ≤ w.N) (τ : ℝ)
    (hτ : L.trainee.R.gp.noise.Level τ) (hreg : L.WellPosed bs w τ) (Y : Tensor ℝ) (hY : Y.shape = [w.N]) (l : LossKind)
    (hl : M.AdditiveLoss l) (draws : List (List Nat)) :
    ∀ bc draw, 0 < bc → (bc < w.N → IsDraw w.N bc draw) → ∃ idx : List Nat, idx = (if bc < w.N then draw else List.range w.N) ∧
      M.batchObjective bs l draws w Y kw bc draw =
        .ok (some (-(l.factor idx.length * (idx.map (L.contribution bs w len Y l)).sum))) := by
  have hN : 0 < w.N := by omega
  have hsk : L.scaleKind = M.scaleKind := congrArg Trainee.scaleKind ht
  have hl' : L.AdditiveLoss l := by
    cases l <;> first | exact hl | exact hsk.trans hl
  intro bc draw hbc hd
  obtain ⟨idx, nn, d, h1, h2, -, h3, h3', h4⟩ := batch_additive bs L hmade w hw len hlen hkN τ hτ hreg Y hY l hl' draws bc hbc draw hd
  refine ⟨idx, h2, ?_⟩
  have h3M : M.trainData (idx, nn) w.train Y = .ok d := by
    rw [← h3]
    unfold Learner.trainData
    rw [hkind.1, hkind.2]
  have hfit : M.LossFits l d := by
    cases l with
    | mse => exact .inl rfl
    | pseudoHuber δ => exact .inl rfl
    | lool => exact .inr ⟨by simp, by rw [h3']; rfl, .inl hl⟩
    | looph δ => exact .inr ⟨by simp, by rw [h3']; rfl, .inl hl⟩
    | _ => exact hl.elim
  unfold Learner.batchObjective
  simp only [h1, h3M, bind, Except.bind]
  exact (objective_trial bs M L hmadeM l draws d hfit.trial kw hf hk ht _).mpr h4

/-- **C97**: at any hyperparameters (`L` is the model with the values `kw`), the objective on a batch does not depend on the order in which the batch was drawn,
and the average over all draws of the batch is the objective on all training points — for `mse`, which is an average over the batch — or the fraction `b / N`
of it — for the losses that are sums. -/
theorem C97_random_batch (bs : Flt → ℝ → ℝ) (M L : Learner) (hmadeM : M.Made) (kw : Dict Flt)
    (hf : M.Feasible kw) (hk : M.trainee.R.kernel.Accepts kw) (ht : L.trainee = M.trainee.trial kw)
    (hkind : L.deform.kind = M.deform.kind ∧ L.deform.metric = M.deform.metric)
    (hmade : L.Made) (w : NNWrapper) (hw : w.Exact)
    (len : Fin w.f → ℝ) (hlen : L.deform.HasLengths w.f len) (hkN : w.nnCount + 1 ≤ w.N) (τ : ℝ)
    (hτ : L.trainee.R.gp.noise.Level τ) (hreg : L.WellPosed bs w τ) (Y : Tensor ℝ) (hY : Y.shape = [w.N]) (l : LossKind)
    (hl : M.AdditiveLoss l) (draws : List (List Nat)) :
    ∃ (S : List Nat → ℝ) (T : ℝ),
      (∀ bc draw, 0 < bc → bc < w.N → IsDraw w.N bc draw → M.batchObjective bs l draws w Y kw bc draw = .ok (some (S draw))) ∧
      (∀ bc draw, w.N ≤ bc → M.batchObjective bs l draws w Y kw bc draw = .ok (some T)) ∧
      (∀ draw draw', draw.Perm draw' → S draw = S draw') ∧
      ∀ b, 0 < b → b ≤ w.N →
        (l = .mse → Spec.drawAverage w.N b S = T) ∧ (l ≠ .mse → Spec.drawAverage w.N b S = b / w.N * T) := by
  have hN : 0 < w.N := by omega
  have hsk : L.scaleKind = M.scaleKind := congrArg Trainee.scaleKind ht
  have hl' : L.AdditiveLoss l := by
    cases l <;> first | exact hl | exact hsk.trans hl
  have one := batchObjective_sum bs M L hmadeM kw hf hk ht hkind hmade w hw len hlen hkN τ hτ hreg Y hY l hl draws
  refine ⟨fun draw => -(l.factor draw.length * (draw.map (L.contribution bs w len Y l)).sum),
    -(l.factor w.N * ((List.range w.N).map (L.contribution bs w len Y l)).sum), fun bc draw hbc hlt hd => ?_, fun bc draw hle => ?_,
    fun draw draw' hp => ?_, fun b hb hbN => ?_⟩
  · obtain ⟨idx, h1, h2⟩ := one bc draw hbc fun _ => hd
    rw [if_pos hlt] at h1
    rw [h2, h1]
  · obtain ⟨idx, h1, h2⟩ := one bc draw (by omega) fun h => absurd h (by omega)
    rw [if_neg (by omega)] at h1
    rw [h2, h1, List.length_range]
  · beta_reduce
    rw [hp.length_eq, (hp.map _).sum_eq]
  · have hlenb : ∀ e : Fin b ↪ Fin w.N, (List.ofFn fun i => (e i : Nat)).length = b := fun e => List.length_ofFn
    have hav : Spec.drawAverage w.N b (fun draw => -(l.factor draw.length * (draw.map (L.contribution bs w len Y l)).sum)) =
        Spec.drawAverage w.N b fun draw => (-l.factor b) * (draw.map (L.contribution bs w len Y l)).sum := by
      unfold Spec.drawAverage
      congr 1
      refine Finset.sum_congr rfl fun e _ => ?_
      beta_reduce
      rw [hlenb, neg_mul]
    have hbr : (b : ℝ) ≠ 0 := by exact_mod_cast hb.ne'
    rw [hav, drawAverage_sum hbN hN]
    refine ⟨fun h => ?_, fun h => ?_⟩
    · rw [h]
      simp only [LossKind.factor]
      field_simp
    · have hfac : ∀ n, l.factor n = 1 := fun n => by cases l <;> first | rfl | exact absurd rfl h
      rw [hfac, hfac]
      ring

/-- The scale estimated from a batch is a sum over its points. -/
theorem batchScale_sum (bs : Flt → ℝ → ℝ) (L : Learner) (hmade : L.Made) (hsk : L.scaleKind = .analytic 1)
    (w : NNWrapper) (hw : w.Exact) (hk0 : 0 < w.nnCount)
    (len : Fin w.f → ℝ) (hlen : L.deform.HasLengths w.f len) (hkN : w.nnCount + 1 ≤ w.N) (τ : ℝ)
    (hτ : L.trainee.R.gp.noise.Level τ) (hreg : L.WellPosed bs w τ) (Y : Tensor ℝ) (hY : Y.shape = [w.N])
    (hY0 : ∀ i < w.N, Y.get [i] ≠ 0) (sd : List (List Nat)) :
    ∃ t : Nat → ℝ, ∀ bc draw, 0 < bc → (bc < w.N → IsDraw w.N bc draw) → ∃ idx : List Nat, idx = (if bc < w.N then draw else List.range w.N) ∧
      ∃ L', L.batchScale bs sd w Y bc draw = .ok L' ∧ L'.scale = 1 / ((idx.length : ℝ) * w.nnCount) * (idx.map t).sum := by
  have hN : 0 < w.N := by omega
  set t : Nat → ℝ := fun x => Spec.quadForm (L.batchCov bs w len (w.batchAt x) 0) (nbrTargets Y w.N w.nnCount (w.batchAt x) 0 0) with htdef
  refine ⟨t, fun bc draw hbc hd => ?_⟩
  obtain ⟨idx, nn, d, g1, e1, g1', h4, h5, hv, g2, g3, g3', g4t, g4, hposd, hx⟩ := batch_uniform bs L w hw len hlen hkN τ hτ hreg Y hY bc hbc draw hd
  refine ⟨idx, e1, ?_⟩
  obtain ⟨D, K, k1, k2, k3, k4⟩ := kernel_pairwise bs L.trainee.R.kernel (made_kernel hmade) w.train nn w.N w.f idx.length w.nnCount len
    hlen (.inl hw.1) h5 hv
  have hD : D = d.pairwise := Except.ok.inj ((show L.deform.pairwise w.train nn = .ok D from k1).symm.trans g3)
  rw [hD] at k2
  have hcov : ∀ p < idx.length, Spec.cov w.nnCount K p + L.trainee.R.gp.noise.mat w.nnCount p = L.batchCov bs w len nn p :=
    fun p hp => by rw [k4 p hp]; rfl
  have hest := scaleEstimate_congr (y := Spec.vec w.nnCount d.nnTargets) (y' := Spec.vec w.nnCount d.nnTargets) hcov fun _ _ => rfl
  have hl0 : 0 < idx.length := by omega
  have hpos : 0 < Spec.scaleEstimate idx.length (fun p => L.batchCov bs w len nn p) (Spec.vec w.nnCount d.nnTargets) := by
    obtain ⟨s1, s2⟩ := estimate_sign hk0 hl0 hposd (Spec.vec w.nnCount d.nnTargets)
    refine lt_of_le_of_ne s1 fun h => ?_
    have h0 := congrFun (s2.mp h.symm 0 hl0) ⟨0, hk0⟩
    rw [(hx 0 idx[0] (List.getElem?_eq_getElem hl0)).2.2.1] at h0
    have hlt : pointOf w.N ((w.batchAt idx[0]).get [0, 0]) < w.N := by
      obtain ⟨idx', nn', b1, -, -, -, -, -, b2⟩ := C42_batch w hw bc hbc hN draw hd hkN
      rw [g1] at b1
      obtain ⟨rfl, rfl⟩ := Prod.mk.inj (Except.ok.inj b1)
      obtain ⟨l, e1, -, -, e4, _⟩ := b2 0 idx[0] (List.getElem?_eq_getElem hl0)
      have hbs := (batch_same w hw bc hbc hN draw hd hkN idx nn g1).2 0 idx[0] (List.getElem?_eq_getElem hl0) 0 hk0
      obtain ⟨y, y1, y2⟩ := rowList_get e1 hk0
      rw [← hbs, y2, pointOf_nat]
      exact e4 y (List.mem_of_getElem? y1)
    refine hY0 _ hlt ?_
    rw [← (show nbrTargets Y w.N w.nnCount (w.batchAt idx[0]) 0 0 ⟨0, hk0⟩ = Y.get [pointOf w.N ((w.batchAt idx[0]).get [0, 0])] by
      simp only [nbrTargets, feature, hY])]
    exact h0
  have han := analyticOpt_heron L.trainee.R.gp.noise idx.length w.nnCount 1 (hτ.fits _ _) K d.nnTargets k3 g4
    (fun p hp => by rw [hcov p hp]; exact Kriging.det_ne_zero (hposd p hp)) (by rw [hest]; exact hpos)
  rw [hest] at han
  have hsc : scaleOptFn L.scaleKind L.trainee.R.gp sd K d.nnTargets [] =
      .ok (some (Spec.scaleEstimate idx.length (fun p => L.batchCov bs w len nn p) (Spec.vec w.nnCount d.nnTargets))) := by
    rw [hsk]
    simp only [scaleOptFn, han, bind, Except.bind, pure, Except.pure]
    rfl
  refine ⟨({ L with scale := Spec.scaleEstimate idx.length (fun p => L.batchCov bs w len nn p) (Spec.vec w.nnCount d.nnTargets) } : Learner).make,
    ?_, ?_⟩
  · unfold Learner.batchScale
    simp only [g1, g2, bind, Except.bind]
    unfold Learner.optimizeScale
    simp only [k2, hsc, bind, Except.bind, if_neg (not_le.2 hpos)]
    rfl
  · show Spec.scaleEstimate idx.length (fun p => L.batchCov bs w len nn p) (Spec.vec w.nnCount d.nnTargets) = _
    unfold Spec.scaleEstimate
    congr 1
    refine sum_range_list idx _ _ fun p x hpx => ?_
    obtain ⟨x1, -, x3, -⟩ := hx p x hpx
    simp only [htdef, x1, x3]

/-- **C97**: the variance scale estimated by `AnalyticScale` (with one iteration, the default) from a random batch does not depend on the order of the batch,
and its average over all draws is the estimate from all training points. -/
theorem C97_random_scale (bs : Flt → ℝ → ℝ) (L : Learner) (hmade : L.Made) (hsk : L.scaleKind = .analytic 1)
    (w : NNWrapper) (hw : w.Exact) (hk0 : 0 < w.nnCount)
    (len : Fin w.f → ℝ) (hlen : L.deform.HasLengths w.f len) (hkN : w.nnCount + 1 ≤ w.N) (τ : ℝ)
    (hτ : L.trainee.R.gp.noise.Level τ) (hreg : L.WellPosed bs w τ) (Y : Tensor ℝ) (hY : Y.shape = [w.N])
    (hY0 : ∀ i < w.N, Y.get [i] ≠ 0) (sd : List (List Nat)) :
    ∃ (S : List Nat → ℝ) (T : ℝ),
      (∀ bc draw, 0 < bc → bc < w.N → IsDraw w.N bc draw → ∃ L', L.batchScale bs sd w Y bc draw = .ok L' ∧ L'.scale = S draw) ∧
      (∀ bc draw, w.N ≤ bc → ∃ L', L.batchScale bs sd w Y bc draw = .ok L' ∧ L'.scale = T) ∧
      (∀ draw draw', draw.Perm draw' → S draw = S draw') ∧
      ∀ b, 0 < b → b ≤ w.N → Spec.drawAverage w.N b S = T := by
  have hN : 0 < w.N := by omega
  obtain ⟨t, one⟩ := batchScale_sum bs L hmade hsk w hw hk0 len hlen hkN τ hτ hreg Y hY hY0 sd
  refine ⟨fun draw => 1 / ((draw.length : ℝ) * w.nnCount) * (draw.map t).sum,
    1 / ((w.N : ℝ) * w.nnCount) * ((List.range w.N).map t).sum, fun bc draw hbc hlt hd => ?_, fun bc draw hle => ?_,
    fun draw draw' hp => ?_, fun b hb hbN => ?_⟩
  · obtain ⟨idx, h1, h2⟩ := one bc draw hbc fun _ => hd
    rw [if_pos hlt] at h1
    rw [h1] at h2
    exact h2
  · obtain ⟨idx, h1, h2⟩ := one bc draw (by omega) fun h => absurd h (by omega)
    rw [if_neg (by omega)] at h1
    rw [h1, List.length_range] at h2
    exact h2
  · beta_reduce
    rw [hp.length_eq, (hp.map _).sum_eq]
  · have hlenb : ∀ e : Fin b ↪ Fin w.N, (List.ofFn fun i => (e i : Nat)).length = b := fun e => List.length_ofFn
    have hav : Spec.drawAverage w.N b (fun draw => 1 / ((draw.length : ℝ) * w.nnCount) * (draw.map t).sum) =
        Spec.drawAverage w.N b fun draw => 1 / ((b : ℝ) * w.nnCount) * (draw.map t).sum := by
      unfold Spec.drawAverage
      congr 1
      refine Finset.sum_congr rfl fun e _ => ?_
      beta_reduce
      rw [hlenb]
    have hbr : (b : ℝ) ≠ 0 := by exact_mod_cast hb.ne'
    have hkr : (w.nnCount : ℝ) ≠ 0 := by exact_mod_cast hk0.ne'
    have hNr : (w.N : ℝ) ≠ 0 := by exact_mod_cast hN.ne'
    rw [hav, drawAverage_sum hbN hN]
    field_simp

end MuyGPyS
