import Verif.Props.WellPosed
import Verif.Props.FreeSmoothness

/-! # C73 with the general Matérn implementation -/

namespace MuyGPyS
open Py Matrix MeasureTheory ProbabilityTheory

/-- **C73** for a model `L` with the general Matérn implementation of smoothness `ν`: let the responses be drawn from the Matérn process,
observed with the noise of the model less what the implementation lacks at distance zero (C62). Then no model of the same kind with other
hyperparameters, another smoothness or a closed-form kernel has a higher expected score under the mean squared error or the pseudo-Huber
loss. Partial as `C73_means_partial`. -/
theorem C73_matern_partial (L L' : Learner) (hmade : L.Made) (hmade' : L'.Made)
    (hkind : L'.deform.kind = L.deform.kind ∧ L'.deform.metric = L.deform.metric) (hg : L.fn = .gen) (hm2 : L.deform.metric = .l2)
    (par : Param) (ν : ℝ) (hsm : L.kernel.smoothness = some par) (hpar : par.val = Flt.fin ν) (hν : 0 < ν)
    (w : NNWrapper) (hw : w.Exact) (hsep : w.Separated) (hdr : DistinctRows w.train w.N w.f)
    (len len' : Fin w.f → ℝ) (hlen : L.deform.HasLengths w.f len) (hlen' : L'.deform.HasLengths w.f len')
    (bc : Nat) (hbc : 0 < bc) (draw : List Nat) (hd : bc < w.N → IsDraw w.N bc draw) (hN : 0 < w.N) (hkN : w.nnCount + 1 ≤ w.N)
    (τ τ' : ℝ) (hτ : L.trainee.R.gp.noise.Level τ) (hdef : deficit ν < τ)
    (hτ' : L'.trainee.R.gp.noise.Level τ') (hwell : L'.WellPosed maternGen w τ')
    (s : ℝ) {Ω : Type*} [MeasurableSpace Ω] (P : Measure Ω) [IsProbabilityMeasure P] {m : Nat} (q : Fin m → Fin w.f → ℝ)
    (G : Fin m → Ω → ℝ) (Y : Ω → Tensor ℝ) (hobs : Observed P w (maternProcess ν len) s (τ - deficit ν) q G Y)
    (l : LossKind) (hl : l = .mse ∨ ∃ δ, l = .pseudoHuber δ) (draws : List (List Nat)) :
    ∃ idx nn, sampleBatch w bc w.N draw = .ok (idx, nn) ∧
      ∃ S S' : Ω → ℝ, Integrable S P ∧ Integrable S' P ∧
        (∀ ω, ∃ d, L.trainData (idx, nn) w.train (Y ω) = .ok d ∧
          L.score maternGen l draws d = .ok (some (S ω)) ∧ L'.score maternGen l draws d = .ok (some (S' ω))) ∧
        ∫ ω, S' ω ∂P ≤ ∫ ω, S ω ∂P := by
  have hpos := hasLengths_pos hlen
  refine means_truth maternGen L L' hmade hmade' hkind w hw hsep len len' hlen hlen' bc hbc draw hd hN hkN (maternProcess ν len) (τ - deficit ν)
    (maternProcess_comm ν len) (maternProcess_self ν len) (reflects_gen L hg hm2 w hw len hlen hdr par ν hν hsm hpar τ hτ hdef)
    (fun idx nn p hp hj j => ?_) (hτ'.fits _ _) (fun nn hrows => hwell.posdef hw hlen' hτ' _ nn hrows) s P q G Y hobs l hl draws
  unfold Learner.batchCross nbrCross
  have hrow := rowPt_pt hw.1
  rw [hrow]
  refine (gen_covFn L.trainee.R.kernel hg hm2 par ν hsm hpar len hpos _ _).1 fun hh => ?_
  obtain ⟨c, hc, hx⟩ := hdr _ hp _ (hj j j.2).1 (hj j j.2).2.symm
  have := congrFun hh ⟨c, hc⟩
  rw [← hrow, ← hrow] at this
  exact hx this

/-- **C73** for the general Matérn implementation as the optimisers see it: `M` is the model being trained, `L` and `L'` the models with the
hyperparameters `kw` (the true ones) and `kw'`, which may differ in the smoothness. -/
theorem C73_matern_objective_partial (M L L' : Learner) (hmadeM : M.Made) (kw kw' : Dict Flt)
    (hf : M.Feasible kw) (hk : M.trainee.R.kernel.Accepts kw) (ht : L.trainee = M.trainee.trial kw)
    (hf' : M.Feasible kw') (hk' : M.trainee.R.kernel.Accepts kw') (ht' : L'.trainee = M.trainee.trial kw')
    (hmade : L.Made) (hmade' : L'.Made)
    (hkindM : L.deform.kind = M.deform.kind ∧ L.deform.metric = M.deform.metric)
    (hkind : L'.deform.kind = L.deform.kind ∧ L'.deform.metric = L.deform.metric) (hg : L.fn = .gen) (hm2 : L.deform.metric = .l2)
    (par : Param) (ν : ℝ) (hsm : L.kernel.smoothness = some par) (hpar : par.val = Flt.fin ν) (hν : 0 < ν)
    (w : NNWrapper) (hw : w.Exact) (hsep : w.Separated) (hdr : DistinctRows w.train w.N w.f)
    (len len' : Fin w.f → ℝ) (hlen : L.deform.HasLengths w.f len) (hlen' : L'.deform.HasLengths w.f len')
    (bc : Nat) (hbc : 0 < bc) (draw : List Nat) (hd : bc < w.N → IsDraw w.N bc draw) (hN : 0 < w.N) (hkN : w.nnCount + 1 ≤ w.N)
    (τ τ' : ℝ) (hτ : L.trainee.R.gp.noise.Level τ) (hdef : deficit ν < τ)
    (hτ' : L'.trainee.R.gp.noise.Level τ') (hwell : L'.WellPosed maternGen w τ')
    (s : ℝ) {Ω : Type*} [MeasurableSpace Ω] (P : Measure Ω) [IsProbabilityMeasure P] {m : Nat} (q : Fin m → Fin w.f → ℝ)
    (G : Fin m → Ω → ℝ) (Y : Ω → Tensor ℝ) (hobs : Observed P w (maternProcess ν len) s (τ - deficit ν) q G Y)
    (l : LossKind) (hl : l = .mse ∨ ∃ δ, l = .pseudoHuber δ) (draws : List (List Nat)) :
    ∃ idx nn, sampleBatch w bc w.N draw = .ok (idx, nn) ∧
      ∃ S S' : Ω → ℝ, Integrable S P ∧ Integrable S' P ∧
        (∀ ω, ∃ d, M.trainData (idx, nn) w.train (Y ω) = .ok d ∧
          M.objective maternGen l draws d kw = .ok (some (S ω)) ∧ M.objective maternGen l draws d kw' = .ok (some (S' ω))) ∧
        ∫ ω, S' ω ∂P ≤ ∫ ω, S ω ∂P := by
  obtain ⟨idx, nn, h1, S, S', i1, i2, h2, h3⟩ := C73_matern_partial L L' hmade hmade' hkind hg hm2 par ν hsm hpar hν w hw hsep hdr len len' hlen hlen'
    bc hbc draw hd hN hkN τ τ' hτ hdef hτ' hwell s P q G Y hobs l hl draws
  refine ⟨idx, nn, h1, S, S', i1, i2, fun ω => ?_, h3⟩
  obtain ⟨d, d1, d2, d3⟩ := h2 ω
  have hraw : l.raw = true := by rcases hl with rfl | ⟨δ, rfl⟩ <;> rfl
  refine ⟨d, ?_, (objective_trial maternGen M L hmadeM l draws d (.inl hraw) kw hf hk ht _).mpr d2,
    (objective_trial maternGen M L' hmadeM l draws d (.inl hraw) kw' hf' hk' ht' _).mpr d3⟩
  rw [← d1]
  unfold Learner.trainData
  rw [hkindM.1, hkindM.2]

end MuyGPyS
