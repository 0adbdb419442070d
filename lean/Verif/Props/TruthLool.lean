import Verif.Props.Truth
import Verif.Props.FastPipeline

/-!
# C73: the leave-one-out likelihood: the truth scores best without noise, and never with noise
-/

namespace MuyGPyS
open Py Matrix MeasureTheory ProbabilityTheory

theorem schur_pos_joint {ι : Type*} [Fintype ι] [DecidableEq ι] {K D : Matrix ι ι ℝ} {k : ι → ℝ} {c : ℝ} (h : (Kriging.joint K k c).PosDef)
    (hD : D.PosSemidef) (hp : (K + D).PosDef) : 0 < c - k ⬝ᵥ ((K + D)⁻¹ *ᵥ k) := by
  set x := (K + D)⁻¹ *ᵥ k with hx
  have hne : (Sum.elim x fun _ : Unit => (-1 : ℝ)) ≠ 0 := fun h0 => by
    have := congrFun h0 (.inr ())
    simp at this
  have h1 := h.dotProduct_mulVec_pos hne
  have h2 := Kriging.variational_eq (Kriging.det_ne_zero hp) k
  rw [← hx] at h2
  have h0 := Kriging.joint_quad_eq K k c x
  simp only [star_trivial] at h1
  rw [h0] at h1
  have h3 : x ⬝ᵥ ((K + D) *ᵥ x) = x ⬝ᵥ (K *ᵥ x) + x ⬝ᵥ (D *ᵥ x) := by rw [add_mulVec, dotProduct_add]
  have h4 : 0 ≤ x ⬝ᵥ (D *ᵥ x) := by
    have := hD.dotProduct_mulVec_nonneg x
    simpa using this
  linarith

/-- A model reports a positive variance for every batch point. -/
theorem batch_variance_pos (bs : Flt → ℝ → ℝ) (L : Learner) (hsuit : L.fn.Suits L.deform.metric) (w : NNWrapper) (hw : w.Exact)
    (hsep : w.Separated) (len : Fin w.f → ℝ) (hlen : L.deform.HasLengths w.f len) (idx : List Nat) (nn : Tensor Int)
    (h4 : ∀ x ∈ idx, x < w.N)
    (hrows : ∀ p < idx.length, ∃ l : List Nat, rowList nn w.nnCount p = l.map Int.ofNat ∧ l.length = w.nnCount ∧ l.Nodup ∧
      ∀ j ∈ l, j < w.N)
    (hother : ∀ p < idx.length, ∀ j < w.nnCount, pointOf w.N (nn.get [p, j]) < w.N ∧ pointOf w.N (nn.get [p, j]) ≠ idx.getD p 0)
    (hreg : L.trainee.R.gp.noise.Suffices idx.length w.nnCount (DistinctRows w.train w.N w.f)) (p : Nat) (hp : p < idx.length) :
    0 < Spec.krigingVar 1 (L.batchCov bs w len nn p) (L.batchCross bs w len idx nn p) := by
  have hpd := batch_posdef bs L hsuit w len hlen idx.length nn hrows hreg p hp
  obtain ⟨l, e1, e2, e3, e4⟩ := hrows p hp
  have hdist := separated_distinct hw hsep
  have hx : idx.getD p 0 < w.N := by
    rw [List.getD_eq_getElem?_getD, List.getElem?_eq_getElem hp, Option.getD_some]
    exact h4 _ (List.getElem_mem _)
  have hrow : ∀ x, pt w.train w.f x = rowPt w.train w.f x := fun x => by
    funext c; simp only [pt, feature, hw.1, rowPt]
  have hj := (nbrJoint bs L.trainee.R.kernel hsuit len (hasLengths_pos hlen) w.train w.N w.nnCount nn p
    (rowPt w.train w.f (idx.getD p 0))).2 (distinct_of_nodup e1 e3 e4 hdist) fun j hj he => by
      obtain ⟨c, hc, hne⟩ := hdist _ hx _ (hother p hp j hj).1 (hother p hp j hj).2.symm
      apply hne
      rw [← hrow] at he
      exact congrFun he ⟨c, hc⟩
  exact schur_pos_joint hj (L.trainee.R.gp.noise.mat_psd (Noise.nonneg_of_suffices hreg) hp) hpd

/-- Mean squared prediction errors under the true model: that of the true model is the variance it reports plus the noise, any other model's
is at least as large. -/
theorem batch_errors (bs : Flt → ℝ → ℝ) (L : Learner) (hsuit : L.fn.Suits L.deform.metric)
    (w : NNWrapper) (hw : w.Exact) (len : Fin w.f → ℝ) (τ : ℝ) (hτ : L.trainee.R.gp.noise.Level τ)
    (s : ℝ) {Ω : Type*} [MeasurableSpace Ω] (P : Measure Ω) [IsProbabilityMeasure P] {m : Nat} (q : Fin m → Fin w.f → ℝ)
    (G : Fin m → Ω → ℝ) (Y : Ω → Tensor ℝ) (hobs : Observed P w (L.trainee.R.kernel.covFn bs len) s τ q G Y)
    (idx : List Nat) (nn : Tensor Int) (h4 : ∀ x ∈ idx, x < w.N)
    (hrows : ∀ p < idx.length, ∃ l : List Nat, rowList nn w.nnCount p = l.map Int.ofNat ∧ l.length = w.nnCount ∧ l.Nodup ∧
      ∀ j ∈ l, j < w.N)
    (hother : ∀ p < idx.length, ∀ j < w.nnCount, pointOf w.N (nn.get [p, j]) < w.N ∧ pointOf w.N (nn.get [p, j]) ≠ idx.getD p 0)
    (p : Nat) (hp : p < idx.length) (hdet : (L.batchCov bs w len nn p).det ≠ 0) :
    let E : Matrix (Fin w.nnCount) (Fin w.nnCount) ℝ → (Fin w.nnCount → ℝ) → Ω → ℝ := fun K k ω =>
      ((Y ω).get [idx.getD p 0] - Spec.krigingMean K k fun j => (Y ω).get [pointOf w.N (nn.get [p, j])]) ^ 2
    (∀ K k, Integrable (E K k) P) ∧
    ∫ ω, E (L.batchCov bs w len nn p) (L.batchCross bs w len idx nn p) ω ∂P =
      s * (Spec.krigingVar 1 (L.batchCov bs w len nn p) (L.batchCross bs w len idx nn p) + τ) ∧
    ∀ K k, ∫ ω, E (L.batchCov bs w len nn p) (L.batchCross bs w len idx nn p) ω ∂P ≤ ∫ ω, E K k ω ∂P := by
  intro E
  obtain ⟨b1, b2, b3, b4, b5, b6⟩ := batch_law bs L hsuit w hw len τ hτ s P q G Y hobs idx nn h4 hrows hother p hp
  have hbest := fun K' k' => prediction_best b1 b2 b3 _ _ (1 + τ) s b4 b5 b6 hdet (ℓ := fun x => x ^ 2) (by fun_prop)
    (fun x => by ring) even_two.convexOn_pow (fun x => by rw [abs_of_nonneg (sq_nonneg x)]) K' k'
  refine ⟨fun K k => (hbest K k).2.1, ?_, fun K k => (hbest K k).2.2⟩
  have mF : ∀ j : Fin w.nnCount, MemLp (fun ω => (Y ω).get [pointOf w.N (nn.get [p, j])]) 2 P := fun j => (b1.fst.eval j).memLp_two
  have mG : MemLp (fun ω => (Y ω).get [idx.getD p 0]) 2 P := b1.snd.memLp_two
  have hres := (kriging_residual mF mG _ _ (1 + τ) s b4 b5 b6 hdet).2
  have mM : MemLp (fun ω => Spec.krigingMean (L.batchCov bs w len nn p) (L.batchCross bs w len idx nn p)
      fun j : Fin w.nnCount => (Y ω).get [pointOf w.N (nn.get [p, j])]) 2 P := by
    simp only [krigingMean_sum]
    exact memLp_finsetSum _ fun j _ => (mF j).const_mul _
  have hz : ∫ ω, ((Y ω).get [idx.getD p 0] - Spec.krigingMean (L.batchCov bs w len nn p) (L.batchCross bs w len idx nn p)
      fun j : Fin w.nnCount => (Y ω).get [pointOf w.N (nn.get [p, j])]) ∂P = 0 := by
    rw [integral_sub (mG.integrable one_le_two) (mM.integrable one_le_two), b3]
    simp only [krigingMean_sum]
    rw [integral_finsetSum _ fun j _ => ((mF j).integrable one_le_two).const_mul _]
    simp [integral_const_mul, b2]
  refine (variance_of_integral_eq_zero (mG.sub mM).aestronglyMeasurable.aemeasurable hz).symm.trans (hres.trans ?_)
  unfold Spec.krigingVar
  ring

/-- Expected leave-one-out score of a model with a fixed scale. -/
theorem expected_lool (bs : Flt → ℝ → ℝ) (L M : Learner) (hsuit : L.fn.Suits L.deform.metric) (hmadeM : M.Made)
    (hM : M.scaleKind = .fixed) (hkind : M.deform.kind = L.deform.kind ∧ M.deform.metric = L.deform.metric)
    (w : NNWrapper) (hw : w.Exact) (len lenM : Fin w.f → ℝ) (hlen : L.deform.HasLengths w.f len) (hlenM : M.deform.HasLengths w.f lenM)
    (bc : Nat) (hbc : 0 < bc) (draw : List Nat) (hd : bc < w.N → IsDraw w.N bc draw) (hN : 0 < w.N) (hkN : w.nnCount + 1 ≤ w.N)
    (τ : ℝ) (hτ : L.trainee.R.gp.noise.Level τ) (s : ℝ) {Ω : Type*} [MeasurableSpace Ω] (P : Measure Ω) [IsProbabilityMeasure P] {m : Nat}
    (q : Fin m → Fin w.f → ℝ)
    (G : Fin m → Ω → ℝ) (Y : Ω → Tensor ℝ) (hobs : Observed P w (L.trainee.R.kernel.covFn bs len) s τ q G Y) (draws : List (List Nat))
    (idx : List Nat) (nn : Tensor Int) (h1 : sampleBatch w bc w.N draw = .ok (idx, nn)) (h4 : ∀ x ∈ idx, x < w.N)
    (h5 : nn.shape = [idx.length, w.nnCount]) (hv : AllValid w.N nn)
    (hrows : ∀ p < idx.length, ∃ l : List Nat, rowList nn w.nnCount p = l.map Int.ofNat ∧ l.length = w.nnCount ∧ l.Nodup ∧
      ∀ j ∈ l, j < w.N)
    (hother : ∀ p < idx.length, ∀ j < w.nnCount, pointOf w.N (nn.get [p, j]) < w.N ∧ pointOf w.N (nn.get [p, j]) ≠ idx.getD p 0)
    (hνM : M.trainee.R.gp.noise.Fits idx.length w.nnCount)
    (hdet : ∀ p < idx.length, (L.batchCov bs w len nn p).det ≠ 0) (hdetM : ∀ p < idx.length, (M.batchCov bs w lenM nn p).det ≠ 0) :
    ∃ S : Ω → ℝ, Integrable S P ∧
      (∀ ω d, L.trainData (idx, nn) w.train (Y ω) = .ok d → M.score bs .lool draws d = .ok (some (S ω))) ∧
      ∫ ω, S ω ∂P = -∑ p ∈ Finset.range idx.length,
        ((∫ ω, ((Y ω).get [idx.getD p 0] - Spec.krigingMean (M.batchCov bs w lenM nn p) (M.batchCross bs w lenM idx nn p)
            fun j => (Y ω).get [pointOf w.N (nn.get [p, j])]) ^ 2 ∂P) /
          (M.scale * Spec.krigingVar 1 (M.batchCov bs w lenM nn p) (M.batchCross bs w lenM idx nn p)) +
          Real.log (M.scale * Spec.krigingVar 1 (M.batchCov bs w lenM nn p) (M.batchCross bs w lenM idx nn p))) := by
  have hY := hobs.facts.2.2.2.2.2.2
  have hYf : ∀ ω x, feature (Y ω) x 0 = (Y ω).get [x] := fun ω x => by simp only [feature, hY]
  let E : Nat → Ω → ℝ := fun p ω => ((Y ω).get [idx.getD p 0] - Spec.krigingMean (M.batchCov bs w lenM nn p) (M.batchCross bs w lenM idx nn p)
    fun j => (Y ω).get [pointOf w.N (nn.get [p, j])]) ^ 2
  let V : Nat → ℝ := fun p => M.scale * Spec.krigingVar 1 (M.batchCov bs w lenM nn p) (M.batchCross bs w lenM idx nn p)
  have hint : ∀ p < idx.length, Integrable (E p) P := fun p hp =>
    (batch_errors bs L hsuit w hw len τ hτ s P q G Y hobs idx nn h4 hrows hother p hp (hdet p hp)).1 _ _
  have hterm : ∀ p ∈ Finset.range idx.length, Integrable (fun ω => E p ω / V p + Real.log (V p)) P := fun p hp =>
    ((hint p (Finset.mem_range.1 hp)).div_const _).add (integrable_const _)
  refine ⟨fun ω => -∑ p ∈ Finset.range idx.length, (E p ω / V p + Real.log (V p)), (integrable_finsetSum _ hterm).neg, fun ω d hdat => ?_, ?_⟩
  · obtain ⟨idx', nn', d', g1, -, -, -, -, -, g2, g3, g3', g4t, g4, g6, g5⟩ :=
      regressor_data L w hw len hlen bc hbc draw hd hN hkN (Y ω) (hY ω)
    rw [h1] at g1
    obtain ⟨rfl, rfl⟩ := Prod.mk.inj (Except.ok.inj g1)
    rw [hdat] at g2
    obtain rfl := Except.ok.inj g2
    have hp' : M.deform.pairwise w.train nn = .ok d.pairwise := by
      rw [← g3]; unfold Deform.pairwise; rw [hkind.1, hkind.2]
    have hc' : M.deform.crosswise w.train w.train (ofNats idx) nn = .ok d.crosswise := by
      rw [← g3']; unfold Deform.crosswise; rw [hkind.1, hkind.2]
    rw [score_lool bs M hmadeM hM w hw lenM hlenM idx nn h4 h5 hv d hp' hc' g4t g4 hνM hdetM draws]
    congr 3
    refine Finset.sum_congr rfl fun p hp => ?_
    have hp := Finset.mem_range.1 hp
    rw [g5 p hp, g6 p (idx.getD p 0) (by rw [List.getD_eq_getElem?_getD, List.getElem?_eq_getElem hp, Option.getD_some])]
    have : nbrTargets (Y ω) w.N w.nnCount nn p 0 = fun j : Fin w.nnCount => (Y ω).get [pointOf w.N (nn.get [p, j])] :=
      funext fun j => hYf ω _
    rw [this]
  · rw [integral_neg, integral_finsetSum _ hterm]
    congr 1
    refine Finset.sum_congr rfl fun p hp => ?_
    rw [integral_add ((hint p (Finset.mem_range.1 hp)).div_const _) (integrable_const _), integral_div, integral_const]
    simp [E, V]

/-- **C73**, the leave-one-out likelihood without noise: if the responses are drawn from the noise-free model `L` with its fixed scale, no
model of the same kind with other hyperparameters, noise or scale has a higher expected score. Partial: no noise (with noise it
is false: `C73_lool_fails`), fixed scales, separated training points. -/
theorem C73_lool_partial (bs : Flt → ℝ → ℝ) (L L' : Learner) (hmade : L.Made) (hmade' : L'.Made)
    (hsk : L.scaleKind = .fixed) (hsk' : L'.scaleKind = .fixed)
    (hkind : L'.deform.kind = L.deform.kind ∧ L'.deform.metric = L.deform.metric)
    (hsuit : L.fn.Suits L.deform.metric) (hsuit' : L'.fn.Suits L'.deform.metric)
    (w : NNWrapper) (hw : w.Exact) (hsep : w.Separated) (len len' : Fin w.f → ℝ) (hlen : L.deform.HasLengths w.f len)
    (hlen' : L'.deform.HasLengths w.f len')
    (bc : Nat) (hbc : 0 < bc) (draw : List Nat) (hd : bc < w.N → IsDraw w.N bc draw) (hN : 0 < w.N) (hkN : w.nnCount + 1 ≤ w.N)
    (hτ : L.trainee.R.gp.noise.Level 0)
    (hν' : L'.trainee.R.gp.noise.Fits (min bc w.N) w.nnCount)
    (hreg' : L'.trainee.R.gp.noise.Suffices (min bc w.N) w.nnCount (DistinctRows w.train w.N w.f))
    (hs : 0 < L.scale) (hs' : 0 < L'.scale)
    {Ω : Type*} [MeasurableSpace Ω] (P : Measure Ω) [IsProbabilityMeasure P] {m : Nat} (q : Fin m → Fin w.f → ℝ)
    (G : Fin m → Ω → ℝ) (Y : Ω → Tensor ℝ) (hobs : Observed P w (L.trainee.R.kernel.covFn bs len) L.scale 0 q G Y)
    (draws : List (List Nat)) :
    ∃ idx nn, sampleBatch w bc w.N draw = .ok (idx, nn) ∧
      ∃ S S' : Ω → ℝ, Integrable S P ∧ Integrable S' P ∧
        (∀ ω, ∃ d, L.trainData (idx, nn) w.train (Y ω) = .ok d ∧
          L.score bs .lool draws d = .ok (some (S ω)) ∧ L'.score bs .lool draws d = .ok (some (S' ω))) ∧
        ∫ ω, S' ω ∂P ≤ ∫ ω, S ω ∂P := by
  obtain ⟨idx, nn, h1, h2, h4, h5, hv, hrows, hother⟩ := batch_rows w hw hsep bc hbc draw hd hN hkN
  have hY := hobs.facts.2.2.2.2.2.2
  have hreg : L.trainee.R.gp.noise.Suffices idx.length w.nnCount (DistinctRows w.train w.N w.f) := by
    have hd := separated_distinct hw hsep
    revert hτ
    cases L.trainee.R.gp.noise with
    | homoscedastic v => intro h; exact .inr ⟨ge_of_eq h, hd⟩
    | null => intro _; exact hd
    | heteroscedastic v => intro h; exact h.elim
    | shear33 v => intro h; exact h.elim
  have hdet := fun p hp => Kriging.det_ne_zero (batch_posdef bs L hsuit w len hlen idx.length nn hrows hreg p hp)
  have hdet' := fun p hp => Kriging.det_ne_zero (batch_posdef bs L' hsuit' w len' hlen' idx.length nn hrows (h2 ▸ hreg') p hp)
  obtain ⟨S, s1, s2, s3⟩ := expected_lool bs L L hsuit hmade hsk ⟨rfl, rfl⟩ w hw len len hlen hlen bc hbc draw hd hN hkN 0 hτ L.scale P q G Y
    hobs draws idx nn h1 h4 h5 hv hrows hother (Noise.level_fits hτ _ _) hdet hdet
  obtain ⟨S', s1', s2', s3'⟩ := expected_lool bs L L' hsuit hmade' hsk' hkind w hw len len' hlen hlen' bc hbc draw hd hN hkN 0 hτ L.scale P q
    G Y hobs draws idx nn h1 h4 h5 hv hrows hother (h2 ▸ hν') hdet hdet'
  refine ⟨idx, nn, h1, S, S', s1, s1', fun ω => ?_, ?_⟩
  · obtain ⟨idx', nn', d, g1, -, -, -, -, -, g2, -⟩ := regressor_data L w hw len hlen bc hbc draw hd hN hkN (Y ω) (hY ω)
    rw [h1] at g1
    obtain ⟨rfl, rfl⟩ := Prod.mk.inj (Except.ok.inj g1)
    exact ⟨d, g2, s2 ω d g2, s2' ω d g2⟩
  · rw [s3, s3', neg_le_neg_iff]
    refine Finset.sum_le_sum fun p hp => ?_
    have hp := Finset.mem_range.1 hp
    obtain ⟨-, e2, e3⟩ := batch_errors bs L hsuit w hw len 0 hτ L.scale P q G Y hobs idx nn h4 hrows hother p hp (hdet p hp)
    have e3' := e3 (L'.batchCov bs w len' nn p) (L'.batchCross bs w len' idx nn p)
    rw [add_zero] at e2
    simp only at e2 e3'
    rw [e2] at e3' ⊢
    have v1 := mul_pos hs (batch_variance_pos bs L hsuit w hw hsep len hlen idx nn h4 hrows hother hreg p hp)
    have v2 := mul_pos hs' (batch_variance_pos bs L' hsuit' w hw hsep len' hlen' idx nn h4 hrows hother (h2 ▸ hreg') p hp)
    set a := L.scale * Spec.krigingVar 1 (L.batchCov bs w len nn p) (L.batchCross bs w len idx nn p)
    set b := L'.scale * Spec.krigingVar 1 (L'.batchCov bs w len' nn p) (L'.batchCross bs w len' idx nn p)
    have hlog := Real.log_le_sub_one_of_pos (div_pos v1 v2)
    rw [Real.log_div v1.ne' v2.ne'] at hlog
    rw [div_self v1.ne']
    have : a / b ≤ (∫ ω, ((Y ω).get [idx.getD p 0] - Spec.krigingMean (L'.batchCov bs w len' nn p) (L'.batchCross bs w len' idx nn p)
      fun j => (Y ω).get [pointOf w.N (nn.get [p, j])]) ^ 2 ∂P) / b := by gcongr
    linarith

/-- C73 is false of the leave-one-out likelihood with noise, for every model: if the responses are drawn from the model `L` with noise, the
same model with some larger scale has a strictly higher expected score on the batch. (The code leaves the noise out of the variance of
the response it compares with.) -/
theorem C73_lool_fails (bs : Flt → ℝ → ℝ) (L : Learner) (hmade : L.Made) (hsk : L.scaleKind = .fixed)
    (hsuit : L.fn.Suits L.deform.metric)
    (w : NNWrapper) (hw : w.Exact) (hsep : w.Separated) (len : Fin w.f → ℝ) (hlen : L.deform.HasLengths w.f len)
    (bc : Nat) (hbc : 0 < bc) (draw : List Nat) (hd : bc < w.N → IsDraw w.N bc draw) (hN : 0 < w.N) (hkN : w.nnCount + 1 ≤ w.N)
    (τ : ℝ) (hτ : L.trainee.R.gp.noise.Level τ) (hτ0 : 0 < τ) (hs : 0 < L.scale)
    {Ω : Type*} [MeasurableSpace Ω] (P : Measure Ω) [IsProbabilityMeasure P] {m : Nat} (q : Fin m → Fin w.f → ℝ)
    (G : Fin m → Ω → ℝ) (Y : Ω → Tensor ℝ) (hobs : Observed P w (L.trainee.R.kernel.covFn bs len) L.scale τ q G Y)
    (draws : List (List Nat)) :
    ∃ idx nn, sampleBatch w bc w.N draw = .ok (idx, nn) ∧ ∃ c : ℝ, 1 < c ∧
      ∃ S S' : Ω → ℝ, Integrable S P ∧ Integrable S' P ∧
        (∀ ω, ∃ d, L.trainData (idx, nn) w.train (Y ω) = .ok d ∧
          L.score bs .lool draws d = .ok (some (S ω)) ∧
          ({ L with scale := c * L.scale, boundScale := c * L.scale } : Learner).score bs .lool draws d = .ok (some (S' ω))) ∧
        ∫ ω, S ω ∂P < ∫ ω, S' ω ∂P := by
  obtain ⟨idx, nn, h1, h2, h4, h5, hv, hrows, hother⟩ := batch_rows w hw hsep bc hbc draw hd hN hkN
  have hY := hobs.facts.2.2.2.2.2.2
  have hreg : L.trainee.R.gp.noise.Suffices idx.length w.nnCount (DistinctRows w.train w.N w.f) := by
    revert hτ
    cases L.trainee.R.gp.noise with
    | homoscedastic v => intro h; exact .inl (lt_of_lt_of_eq hτ0 (show v = τ from h).symm)
    | null => intro h; exact absurd (show τ = 0 from h) hτ0.ne'
    | heteroscedastic v => intro h; exact h.elim
    | shear33 v => intro h; exact h.elim
  have hdet := fun p hp => Kriging.det_ne_zero (batch_posdef bs L hsuit w len hlen idx.length nn hrows hreg p hp)
  have hb0 : 0 < idx.length := by rw [h2]; exact lt_min hbc hN
  set v : Nat → ℝ := fun p => Spec.krigingVar 1 (L.batchCov bs w len nn p) (L.batchCross bs w len idx nn p) with hvdef
  have hvp : ∀ p < idx.length, 0 < v p := batch_variance_pos bs L hsuit w hw hsep len hlen idx nn h4 hrows hother hreg
  set c : ℝ := (∑ p ∈ Finset.range idx.length, (v p + τ) / v p) / idx.length with hc
  have hc1 : 1 < c := by
    rw [hc, lt_div_iff₀ (by exact_mod_cast hb0), one_mul]
    calc (idx.length : ℝ) = ∑ p ∈ Finset.range idx.length, (1 : ℝ) := by simp
      _ < _ := by
        refine Finset.sum_lt_sum_of_nonempty (Finset.nonempty_range_iff.mpr hb0.ne') fun p hp => ?_
        have := hvp p (Finset.mem_range.1 hp)
        rw [lt_div_iff₀ this]; linarith
  have hmade' : ({ L with scale := c * L.scale, boundScale := c * L.scale } : Learner).Made := by
    have hfn : L.make.fn = L.fn := by rw [hmade]
    show Learner.make _ = _
    unfold Learner.make
    simp only [Learner.mk.injEq, true_and, and_true]
    exact hfn
  obtain ⟨S, s1, s2, s3⟩ := expected_lool bs L L hsuit hmade hsk ⟨rfl, rfl⟩ w hw len len hlen hlen bc hbc draw hd hN hkN τ hτ L.scale P q G Y
    hobs draws idx nn h1 h4 h5 hv hrows hother (Noise.level_fits hτ _ _) hdet hdet
  obtain ⟨S', s1', s2', s3'⟩ := expected_lool bs L { L with scale := c * L.scale, boundScale := c * L.scale } hsuit hmade' hsk ⟨rfl, rfl⟩ w hw
    len len hlen hlen bc hbc draw hd hN hkN τ hτ L.scale P q G Y hobs draws idx nn h1 h4 h5 hv hrows hother (Noise.level_fits hτ _ _) hdet hdet
  refine ⟨idx, nn, h1, c, hc1, S, S', s1, s1', fun ω => ?_, ?_⟩
  · obtain ⟨idx', nn', d, g1, -, -, -, -, -, g2, -⟩ := regressor_data L w hw len hlen bc hbc draw hd hN hkN (Y ω) (hY ω)
    rw [h1] at g1
    obtain ⟨rfl, rfl⟩ := Prod.mk.inj (Except.ok.inj g1)
    exact ⟨d, g2, s2 ω d g2, s2' ω d g2⟩
  · have hE : ∀ p < idx.length, ∫ ω, ((Y ω).get [idx.getD p 0] - Spec.krigingMean (L.batchCov bs w len nn p) (L.batchCross bs w len idx nn p)
        fun j => (Y ω).get [pointOf w.N (nn.get [p, j])]) ^ 2 ∂P = L.scale * (v p + τ) := fun p hp =>
      (batch_errors bs L hsuit w hw len τ hτ L.scale P q G Y hobs idx nn h4 hrows hother p hp (hdet p hp)).2.1
    have t1 : ∫ ω, S ω ∂P = -∑ p ∈ Finset.range idx.length, ((v p + τ) / v p + Real.log (L.scale * v p)) := by
      rw [s3]
      congr 1
      refine Finset.sum_congr rfl fun p hp => ?_
      have hp := Finset.mem_range.1 hp
      rw [hE p hp]
      congr 1
      rw [mul_div_mul_left _ _ hs.ne']
    have t2 : ∫ ω, S' ω ∂P = -∑ p ∈ Finset.range idx.length, ((v p + τ) / v p / c + (Real.log c + Real.log (L.scale * v p))) := by
      refine s3'.trans ?_
      congr 1
      refine Finset.sum_congr rfl fun p hp => ?_
      have hp := Finset.mem_range.1 hp
      have hvv := hvp p hp
      have e := hE p hp
      have e' : ∫ ω, ((Y ω).get [idx.getD p 0] - Spec.krigingMean
          (({ L with scale := c * L.scale, boundScale := c * L.scale } : Learner).batchCov bs w len nn p)
          (({ L with scale := c * L.scale, boundScale := c * L.scale } : Learner).batchCross bs w len idx nn p)
          fun j => (Y ω).get [pointOf w.N (nn.get [p, j])]) ^ 2 ∂P = L.scale * (v p + τ) := e
      rw [e']
      show L.scale * (v p + τ) / (c * L.scale * v p) + Real.log (c * L.scale * v p) = _
      have hcp : 0 < c := by linarith
      rw [mul_assoc c, Real.log_mul hcp.ne' (mul_pos hs hvv).ne']
      congr 1
      field_simp
    rw [t1, t2, neg_lt_neg_iff]
    simp only [Finset.sum_add_distrib, ← Finset.sum_div, Finset.sum_const, Finset.card_range, nsmul_eq_mul]
    have hb : (0 : ℝ) < idx.length := by exact_mod_cast hb0
    have hsum : ∑ p ∈ Finset.range idx.length, (v p + τ) / v p = idx.length * c := by
      rw [hc]; field_simp
    rw [hsum]
    have hcp : 0 < c := by linarith
    have hlog : Real.log c < c - 1 := Real.log_lt_sub_one_of_pos hcp hc1.ne'
    have : (idx.length : ℝ) * c / c = idx.length := by field_simp
    rw [this]
    nlinarith

end MuyGPyS
