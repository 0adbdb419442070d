import Verif.Props.Pipeline
import Verif.Props.Definite
import Verif.Props.FastWitness

/-!
# C61 without assumptions on covariances: what training and prediction do for real kernels, and a concrete case
-/

namespace MuyGPyS
open Py Matrix

/-- The analytic estimate is non-negative, and zero exactly if all neighbour responses are. -/
theorem estimate_sign {n b : Nat} (hn : 0 < n) (hb : 0 < b) {K : Nat → Matrix (Fin n) (Fin n) ℝ} (hK : ∀ p < b, (K p).PosDef)
    (y : Nat → Fin n → ℝ) :
    0 ≤ Spec.scaleEstimate b K y ∧ (Spec.scaleEstimate b K y = 0 ↔ ∀ p < b, y p = 0) := by
  have h0 : ∀ p ∈ Finset.range b, 0 ≤ Spec.quadForm (K p) (y p) := fun p hp =>
    Kriging.quad_nonneg (hK p (Finset.mem_range.1 hp)) _
  unfold Spec.scaleEstimate
  refine ⟨mul_nonneg (by positivity) (Finset.sum_nonneg h0), ?_⟩
  rw [mul_eq_zero, or_iff_right (by positivity), Finset.sum_eq_zero_iff_of_nonneg h0]
  constructor
  · intro h p hp
    by_contra hne
    exact (Kriging.quad_pos (hK p hp) hne).ne' (h p (Finset.mem_range.2 hp))
  · intro h p hp
    rw [h p (Finset.mem_range.1 hp)]
    simp [Spec.quadForm]

/-- **C61**, training with a suitable kernel and noise: if the optimiser's answer has a suitable kernel and the noise suffices,
`make_regressor` fails in exactly one case: an analytic scale and responses that are zero at all neighbours of the batch
(`ValueError`). Otherwise it returns the optimiser's answer with a positive scale. -/
theorem C61_training_succeeds (bs : Flt → ℝ → ℝ) (opt : Learner → TrainData → Res Learner) (L : Learner) (hn : L.noise ≠ .null)
    (hfree : ∃ np ∈ L.gp.params, np.2.fixed = false) (w : NNWrapper) (hw : w.Exact) (len0 : Fin w.f → ℝ)
    (hlen0 : L.deform.HasLengths w.f len0)
    (bc : Nat) (hbc : 0 < bc) (draw : List Nat) (hd : bc < w.N → IsDraw w.N bc draw) (sd : List (List Nat)) (hN : 0 < w.N)
    (hk0 : 0 < w.nnCount) (hkN : w.nnCount + 1 ≤ w.N) (Y : Tensor ℝ) (hY : Y.shape = [w.N])
    (hopt : ∀ d, ∃ L1, opt L d = .ok L1 ∧ L1.Made ∧ L1.deform.kind = L.deform.kind ∧ L1.deform.metric = L.deform.metric ∧
      L1.scaleKind = .analytic 1 ∧ (∃ len : Fin w.f → ℝ, L1.deform.HasLengths w.f len) ∧ L1.fn.Suits L1.deform.metric ∧
      ∀ b, L1.trainee.R.gp.noise.Fits b w.nnCount ∧
        L1.trainee.R.gp.noise.Suffices b w.nnCount (DistinctRows w.train w.N w.f)) :
    ∃ idx nn, sampleBatch w bc w.N draw = .ok (idx, nn) ∧
      ((∃ p < idx.length, ∃ j < w.nnCount, Y.get [pointOf w.N (nn.get [p, j])] ≠ 0) →
        ∃ d L1 s, opt L d = .ok L1 ∧ 0 < s ∧
          makeRegressor bs opt draw sd bc w L Y = .ok { L1 with scale := s, boundScale := s }) ∧
      ((∀ p < idx.length, ∀ j < w.nnCount, Y.get [pointOf w.N (nn.get [p, j])] = 0) →
        makeRegressor bs opt draw sd bc w L Y = .error .value) := by
  obtain ⟨idx, nn, d, h1, h2, h3, h4, -, -, -, -, -, -, h5⟩ :=
    C61_make_regressor bs opt L hn hfree w hw len0 hlen0 bc hbc draw hd sd hN hkN Y hY
  obtain ⟨L1, o1, o2, o3, o4, o5, ⟨len, o6⟩, o7, o8⟩ := hopt d
  obtain ⟨idx', nn', c1, -, -, -, -, -, c2⟩ := C42_batch w hw bc hbc hN draw hd hkN
  rw [h1] at c1
  obtain ⟨rfl, rfl⟩ := Prod.mk.inj (Except.ok.inj c1)
  have hdist : DistinctRows w.train w.N w.f → ∀ p < idx.length, DistinctNeighbours w.train w.N w.f w.nnCount nn p := by
    intro hdr p hp
    obtain ⟨l, l1, l2, l3, l4, l5⟩ := c2 p idx[p] (List.getElem?_eq_getElem hp)
    exact distinct_of_nodup l1 l3 l4 hdr
  have hpos := hasLengths_pos o6
  have hsuit : L1.trainee.R.kernel.fn.Suits L1.trainee.R.kernel.deform.metric := o7
  have hpd : ∀ p < idx.length, (nbrCov bs L1.trainee.R.kernel len w.train w.N w.nnCount nn p
      + L1.trainee.R.gp.noise.mat w.nnCount p).PosDef := fun p hp => by
    have hdef := nbrCov_definite bs L1.trainee.R.kernel hsuit len hpos w.train w.N w.nnCount nn p
    exact Noise.posdef_of_suffices ((o8 idx.length).2.mono fun h => hdist h p hp) hp hdef.1 hdef.2
  have hb : 0 < idx.length := by rw [h2]; exact lt_min hbc hN
  have hmain := h5 L1 o1 o2 o3 o4 (.inr o5) len o6 (o8 _).1 fun p hp => Kriging.det_ne_zero (hpd p hp)
  have hest : L1.estimateOn bs len w.train Y w.N w.nnCount idx.length nn = Spec.scaleEstimate idx.length
      (fun p => nbrCov bs L1.trainee.R.kernel len w.train w.N w.nnCount nn p + L1.trainee.R.gp.noise.mat w.nnCount p)
      (fun p => nbrTargets Y w.N w.nnCount nn p 0) := by
    unfold Learner.estimateOn; rw [o5]
  obtain ⟨s1, s2⟩ := estimate_sign hk0 hb hpd fun p => nbrTargets Y w.N w.nnCount nn p 0
  rw [← hest] at s1 s2
  have hresp : ∀ p j, nbrTargets Y w.N w.nnCount nn p 0 j = Y.get [pointOf w.N (nn.get [p, j])] := fun p j => by
    simp only [nbrTargets, feature, hY]
  refine ⟨idx, nn, h1, fun ⟨p, hp, j, hj, hne⟩ => ?_, fun hall => ?_⟩
  · have hs0 : L1.estimateOn bs len w.train Y w.N w.nnCount idx.length nn ≠ 0 := fun h0 => by
      have := congrFun (s2.mp h0 p hp) ⟨j, hj⟩
      rw [hresp] at this
      exact hne this
    have hs := lt_of_le_of_ne s1 hs0.symm
    exact ⟨d, L1, _, o1, hs, hmain.1 hs⟩
  · refine hmain.2 (le_of_eq (s2.mpr fun p hp => funext fun j => ?_))
    rw [hresp]
    exact hall p hp j j.2

/-- C61 fails for responses that are all zero when the variance scale is to be estimated: `make_regressor` raises `ValueError`. -/
theorem C61_zero_responses_fails (bs : Flt → ℝ → ℝ) (opt : Learner → TrainData → Res Learner) (L : Learner) (hn : L.noise ≠ .null)
    (hfree : ∃ np ∈ L.gp.params, np.2.fixed = false) (w : NNWrapper) (hw : w.Exact) (len0 : Fin w.f → ℝ)
    (hlen0 : L.deform.HasLengths w.f len0)
    (bc : Nat) (hbc : 0 < bc) (draw : List Nat) (hd : bc < w.N → IsDraw w.N bc draw) (sd : List (List Nat)) (hN : 0 < w.N)
    (hk0 : 0 < w.nnCount) (hkN : w.nnCount + 1 ≤ w.N) (test : Tensor ℝ)
    (hopt : ∀ d, ∃ L1, opt L d = .ok L1 ∧ L1.Made ∧ L1.deform.kind = L.deform.kind ∧ L1.deform.metric = L.deform.metric ∧
      L1.scaleKind = .analytic 1 ∧ (∃ len : Fin w.f → ℝ, L1.deform.HasLengths w.f len) ∧ L1.fn.Suits L1.deform.metric ∧
      ∀ b, L1.trainee.R.gp.noise.Fits b w.nnCount ∧
        L1.trainee.R.gp.noise.Suffices b w.nnCount (DistinctRows w.train w.N w.f)) :
    makeRegressor bs opt draw sd bc w L ⟨[w.N], fun _ => 0⟩ = .error .value ∧
    doRegress bs opt draw sd bc w L test ⟨[w.N], fun _ => 0⟩ = .error .value := by
  obtain ⟨idx, nn, -, -, h⟩ := C61_training_succeeds bs opt L hn hfree w hw len0 hlen0 bc hbc draw hd sd hN hk0 hkN
    ⟨[w.N], fun _ => 0⟩ rfl hopt
  have h1 := h fun p _ j _ => rfl
  refine ⟨h1, ?_⟩
  unfold doRegress
  rw [h1]; rfl

/-- **C61**, `do_regress` with a suitable kernel and noise: whenever training returns a model, every test point is predicted with
that model from its nearest training points, and its variance lies between zero and the variance scale of the model. -/
theorem C61_do_regress_always (bs : Flt → ℝ → ℝ) (opt : Learner → TrainData → Res Learner) (draw : List Nat)
    (sd : List (List Nat)) (bc : Int) (w : NNWrapper) (hw : w.Exact) (L L' : Learner) (Q Y : Tensor ℝ)
    (h : makeRegressor bs opt draw sd bc w L Y = .ok L') (hmade : L'.Made) (hsuit : L'.fn.Suits L'.deform.metric)
    (m : Nat) (len : Fin w.f → ℝ) (hlen : L'.deform.HasLengths w.f len)
    (hQ : Q.shape = [m, w.f]) (hY : Y.shape = [w.N]) (hm : 0 < m) (hk0 : 0 < w.nnCount)
    (hkN : w.nnCount ≤ w.N) (hν : L'.trainee.R.gp.noise.Fits m w.nnCount)
    (hreg : L'.trainee.R.gp.noise.Suffices m w.nnCount (DistinctRows w.train w.N w.f)) :
    ∃ nn μ v, (∀ i < m, ∃ l : List Nat, rowList nn w.nnCount i = l.map Int.ofNat ∧
        Nearest (· < w.N) (fun j => w.dist (rowPt Q w.f i) (rowPt w.train w.f j)) w.nnCount l) ∧
      doRegress bs opt draw sd bc w L Q Y = .ok (L', μ, v) ∧ μ.shape = [m] ∧ v.shape = [m] ∧
      ∀ p < m,
        μ.get [p] = Spec.krigingMean
          (nbrCov bs L'.trainee.R.kernel len w.train w.N w.nnCount nn p + L'.trainee.R.gp.noise.mat w.nnCount p)
          (nbrCross bs L'.trainee.R.kernel len w.train w.N w.nnCount nn p (rowPt Q w.f p))
          (nbrTargets Y w.N w.nnCount nn p 0) ∧
        v.get [p] = L'.scale * Spec.krigingVar 1
          (nbrCov bs L'.trainee.R.kernel len w.train w.N w.nnCount nn p + L'.trainee.R.gp.noise.mat w.nnCount p)
          (nbrCross bs L'.trainee.R.kernel len w.train w.N w.nnCount nn p (rowPt Q w.f p)) ∧
        (0 < L'.scale → 0 ≤ v.get [p] ∧ v.get [p] < L'.scale) := by
  obtain ⟨nn, μ, v, h1, h2, h3, h4, h5⟩ := C54_regress_always bs L'.trainee.R (made_kernel hmade) rfl hsuit w hw Q Y m len hlen hQ hY
    hm hk0 hkN hν hreg
  have hbs : L'.trainee.R.gp.boundScale = L'.scale := by
    have h : L'.make.boundScale = L'.boundScale := by rw [hmade]
    exact h.symm
  refine ⟨nn, μ, v, h1, ?_, h3, h4, fun p hp => ?_⟩
  · unfold doRegress
    rw [h]
    show (regressAny bs L'.trainee.R w Q w.train Y).bind _ = _
    rw [h2]; rfl
  · have := h5 p hp
    rw [hbs] at this
    exact ⟨this.1, this.2.1, fun hs => ⟨(this.2.2 hs).1, (this.2.2 hs).2.1⟩⟩

end MuyGPyS
