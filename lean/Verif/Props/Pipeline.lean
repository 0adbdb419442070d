import Verif.Spec.Pipeline
import Verif.Props.Train
import Verif.Props.Workflow
import Verif.Props.Batch
import Verif.Props.Scale
import Verif.Props.Classify
import Verif.Props.ClassifyUq
import Verif.Props.Multivariate

/-! # C61: `make_regressor`, `do_regress`, `make_classifier` and `do_classify` -/

namespace MuyGPyS
open Py Matrix

/-! ## Fixed models -/

theorem fixed_of_params {L : Learner} (hn : L.noise ≠ .null) (h : ∀ np ∈ L.gp.params, np.2.fixed = true) :
    L.gp.fixed = .ok true := by
  obtain ⟨o, _, _, _, _, hs, _, _, h7, h8⟩ := C12_opt_lists L.gp hn
  rw [h8]
  have : o.names = [] := by
    rw [List.eq_nil_iff_forall_not_mem]
    intro n hm
    obtain ⟨np, hnp, rfl⟩ := List.mem_map.mp (hs.subset hm)
    exact h7 np hnp (h np hnp) hm
  simp [this]

theorem fixed_of_free {L : Learner} (hn : L.noise ≠ .null) (h : ∃ np ∈ L.gp.params, np.2.fixed = false) :
    L.gp.fixed = .ok false := by
  obtain ⟨o, _, _, _, _, hs, _, h6, h7, h8⟩ := C12_opt_lists L.gp hn
  rw [h8]
  obtain ⟨np, hnp, hf⟩ := h
  have : o.names ≠ [] := List.ne_nil_of_mem (h6 np hnp hf)
  simp [this]

/-- C61, fixed hyperparameters: a model all of whose hyperparameters are fixed comes back exactly as it was given, whatever
the optimiser, the loss, the batch and the responses; `do_regress` and `do_classify` predict with it. -/
theorem C61_fixed (bs : Flt → ℝ → ℝ) (opt : Learner → TrainData → Res Learner) (draw : List Nat) (sd cd : List (List Nat)) (bc : Int)
    (w : NNWrapper) (L : Learner) (hn : L.noise ≠ .null) (hfix : ∀ np ∈ L.gp.params, np.2.fixed = true) (test Y : Tensor ℝ) :
    makeRegressor bs opt draw sd bc w L Y = .ok L ∧ makeClassifier opt cd bc w L Y = .ok L ∧
    doRegress bs opt draw sd bc w L test Y = (do
      let r ← regressAny bs L.trainee.R w test w.train Y
      return (L, r.1, r.2)) ∧
    doClassify bs opt cd bc w L test Y = (do
      let p ← classifyAny (fun idx nn => posteriorMeanFromIndices bs L.trainee.R idx nn test w.train Y) w test Y
      return (L, p)) := by
  have h := fixed_of_params hn hfix
  have h1 : makeRegressor bs opt draw sd bc w L Y = .ok L := by
    unfold makeRegressor; rw [h]; rfl
  have h2 : makeClassifier opt cd bc w L Y = .ok L := by
    unfold makeClassifier; rw [h]; rfl
  refine ⟨h1, h2, ?_, ?_⟩
  · unfold doRegress; rw [h1]; rfl
  · unfold doClassify; rw [h2]; rfl

/-- C61 fails for models without a noise model (`NullNoise`): with fixed kernel hyperparameters neither function can build the
model at all. -/
theorem C61_null_noise_fails (bs : Flt → ℝ → ℝ) (opt : Learner → TrainData → Res Learner) (draw : List Nat)
    (sd cd : List (List Nat)) (bc : Int) (w : NNWrapper) (L : Learner) (hn : L.noise = .null)
    (hfix : ∀ np ∈ L.kernel.named, np.2.fixed = true) (Y : Tensor ℝ) :
    makeRegressor bs opt draw sd bc w L Y = .error .attribute ∧ makeClassifier opt cd bc w L Y = .error .attribute := by
  have h := (C12_null_noise_fails L.gp hn).2 hfix
  constructor
  · unfold makeRegressor; rw [h]; rfl
  · unfold makeClassifier; rw [h]; rfl

/-! ## The training data -/

/-- The training data made from a batch: differences (or distances) of the batch points and their neighbours, and their
responses. -/
theorem trainData_ok (L : Learner) (idx : List Nat) (nn : Tensor Int) (X Y : Tensor ℝ) (N f n r : Nat)
    (hX : X.shape = [N, f]) (hY : IsTable Y N r) (hnn : nn.shape = [idx.length, n]) (hi : ∀ x ∈ idx, x < N) (hv : AllValid N nn)
    (hpw : ∃ D, L.deform.pairwise X nn = .ok D) (hcw : ∃ D, L.deform.crosswise X X (ofNats idx) nn = .ok D) :
    ∃ d, L.trainData (idx, nn) X Y = .ok d ∧ L.deform.pairwise X nn = .ok d.pairwise ∧
      L.deform.crosswise X X (ofNats idx) nn = .ok d.crosswise ∧
      d.targets.shape = idx.length :: Y.shape.tail ∧ d.nnTargets.shape = [idx.length, n] ++ Y.shape.tail ∧
      (∀ p x, idx[p]? = some x → ∀ c < r, d.targets.flat (p * r + c) = feature Y x c) ∧
      ∀ p < idx.length, ∀ j < n, ∀ c < r,
        d.nnTargets.flat ((p * n + j) * r + c) = feature Y (pointOf N (nn.get [p, j])) c := by
  obtain ⟨P, hP⟩ := hpw
  obtain ⟨C, hC⟩ := hcw
  obtain ⟨Z, z1, z2, z3⟩ := take_targets hY hv
  obtain ⟨T, t1, t2, t3⟩ := take_targets hY (ofNats_valid hi)
  refine ⟨⟨C, P, T, Z⟩, ?_, hP, hC, ?_, ?_, ?_, ?_⟩
  · unfold Learner.trainData makeTrainTensors
    unfold Deform.pairwise at hP
    unfold Deform.crosswise at hC
    simp only [hP, hC, z1, t1, bind, Except.bind, pure, Except.pure]
  · rw [t2]; rfl
  · rw [z2, hnn]
  · intro p x hx c hc
    rw [t3 p c hc]
    have : (ofNats idx).flat p = (x : Int) := by
      show ((idx.getD p 0 : Nat) : Int) = x
      rw [List.getD_eq_getElem?_getD, hx]; rfl
    rw [this, pointOf_nat]
  · intro p hp j hj c hc
    rw [z3 _ c hc, Tensor.get2 nn hnn]

theorem deform_trial_kind {L L' : Learner} (h : L.SameKind L') (g : String → Param → Param) (hg : L'.gp = L.gp.mapParams g) :
    L'.deform.kind = L.deform.kind ∧ L'.deform.metric = L.deform.metric := by
  obtain ⟨h1, h2, _⟩ := h
  have hk : L'.kernel = (L.gp.mapParams g).kernel := congrArg GP.kernel hg
  unfold Learner.deform
  rw [hk, h1, h2]
  unfold GP.mapParams Learner.gp
  cases L.kernel.ls <;> simp only
  · cases L.difference <;> exact ⟨rfl, rfl⟩
  · exact ⟨rfl, rfl⟩

theorem made_kernel {L : Learner} (h : L.Made) : L.trainee.R.kernel.make = L.trainee.R.kernel := by
  have h' : L.make.trainee.R.kernel = L.trainee.R.kernel := by rw [h]
  exact h'

/-! ## Training -/

/-- The batch and the training data of `make_regressor` and what follows from them. -/
theorem regressor_data (L : Learner) (w : NNWrapper) (hw : w.Exact) (len0 : Fin w.f → ℝ) (hlen0 : L.deform.HasLengths w.f len0)
    (bc : Nat) (hbc : 0 < bc) (draw : List Nat) (hd : bc < w.N → IsDraw w.N bc draw) (hN : 0 < w.N) (hkN : w.nnCount + 1 ≤ w.N)
    (Y : Tensor ℝ) (hY : Y.shape = [w.N]) :
    ∃ idx nn d, sampleBatch w bc w.N draw = .ok (idx, nn) ∧
      idx.length = min bc w.N ∧ idx.Nodup ∧ (∀ x ∈ idx, x < w.N) ∧ nn.shape = [idx.length, w.nnCount] ∧ AllValid w.N nn ∧
      L.trainData (idx, nn) w.train Y = .ok d ∧ L.deform.pairwise w.train nn = .ok d.pairwise ∧
      L.deform.crosswise w.train w.train (ofNats idx) nn = .ok d.crosswise ∧
      d.targets.shape = [idx.length] ∧ d.nnTargets.shape = [idx.length, w.nnCount] ∧
      (∀ p x, idx[p]? = some x → d.targets.get [p] = Y.get [x]) ∧
      ∀ p < idx.length, Spec.vec w.nnCount d.nnTargets p = nbrTargets Y w.N w.nnCount nn p 0 := by
  obtain ⟨idx, nn, h1, h2, h3, h4, _, h5, h6⟩ := C42_batch w hw bc hbc hN draw hd hkN
  have hv : AllValid w.N nn := valid_of_rows h5 fun i hi j hj => by
    obtain ⟨l, e1, _, _, e2, _⟩ := h6 i idx[i] (List.getElem?_eq_getElem hi)
    obtain ⟨x, x1, x2⟩ := rowList_get e1 hj
    exact ⟨x, x2, e2 x (List.mem_of_getElem? x1)⟩
  obtain ⟨P, _, p1, _⟩ := pairwise_entries L.deform w.train nn w.N w.f idx.length w.nnCount len0 hlen0 (.inl hw.1) h5 hv
  obtain ⟨C, _, c1, _⟩ := crosswise_entries L.deform w.train w.train (ofNats idx) nn w.N w.N w.f idx.length w.nnCount len0 hlen0
    (.inl hw.1) (.inl hw.1) rfl rfl h5 (ofNats_valid h4) hv
  obtain ⟨d, d1, d2, d3, d4, d5, d6, d7⟩ := trainData_ok L idx nn w.train Y w.N w.f w.nnCount 1 hw.1 (.inr ⟨hY, rfl⟩) h5 h4 hv
    ⟨P, p1⟩ ⟨C, c1⟩
  rw [hY] at d4 d5
  have d4' : d.targets.shape = [idx.length] := d4
  have d5' : d.nnTargets.shape = [idx.length, w.nnCount] := d5
  refine ⟨idx, nn, d, h1, h2, h3, h4, h5, hv, d1, d2, d3, d4', d5', fun p x hx => ?_, fun p hp => ?_⟩
  · have := d6 p x hx 0 (by omega)
    rw [Nat.mul_one, Nat.add_zero] at this
    rw [Tensor.get1 _ d4', this, feature, hY]
  · funext j
    have := d7 p hp j j.2 0 (by omega)
    rw [Nat.mul_one, Nat.add_zero] at this
    rw [Spec.vec, Tensor.get2 _ d5', this]
    rfl

theorem scaleEstimate_congr {n b : Nat} {K K' : Nat → Matrix (Fin n) (Fin n) ℝ} {y y' : Nat → Fin n → ℝ}
    (hK : ∀ p < b, K p = K' p) (hy : ∀ p < b, y p = y' p) : Spec.scaleEstimate b K y = Spec.scaleEstimate b K' y' := by
  unfold Spec.scaleEstimate
  congr 1
  refine Finset.sum_congr rfl fun p hp => ?_
  rw [hK p (Finset.mem_range.mp hp), hy p (Finset.mem_range.mp hp)]

theorem batch_neighbours (w : NNWrapper) (hw : w.Exact) (bc : Nat) (hbc : 0 < bc) (hN : 0 < w.N)
    (draw : List Nat) (hd : bc < w.N → IsDraw w.N bc draw) (hkN : w.nnCount + 1 ≤ w.N) (hsep : w.Separated)
    (idx : List Nat) (nn : Tensor Int) (h : sampleBatch w bc w.N draw = .ok (idx, nn)) : NearestOthers w idx nn := by
  obtain ⟨idx', nn', h1, h2⟩ := C42_neighbours_partial w hw bc hbc hN draw hd hkN hsep.1 hsep.2
  rw [h] at h1
  obtain ⟨rfl, rfl⟩ := Prod.mk.inj (Except.ok.inj h1)
  exact h2

/-- **C61**, training a regressor with a free hyperparameter: a batch of different training points is drawn, each with its
neighbours; the optimiser gets the model and the data of that batch; the returned model has the hyperparameters the optimiser
answered, and its variance scale is the documented estimate from the same neighbourhoods under those hyperparameters (an
estimate that is not positive is a `ValueError`). If the optimiser raises, so does `make_regressor`. -/
theorem C61_make_regressor (bs : Flt → ℝ → ℝ) (opt : Learner → TrainData → Res Learner) (L : Learner) (hn : L.noise ≠ .null)
    (hfree : ∃ np ∈ L.gp.params, np.2.fixed = false) (w : NNWrapper) (hw : w.Exact) (len0 : Fin w.f → ℝ)
    (hlen0 : L.deform.HasLengths w.f len0)
    (bc : Nat) (hbc : 0 < bc) (draw : List Nat) (hd : bc < w.N → IsDraw w.N bc draw) (sd : List (List Nat)) (hN : 0 < w.N)
    (hkN : w.nnCount + 1 ≤ w.N) (Y : Tensor ℝ) (hY : Y.shape = [w.N]) :
    ∃ idx nn d, sampleBatch w bc w.N draw = .ok (idx, nn) ∧
      idx.length = min bc w.N ∧ idx.Nodup ∧ (∀ x ∈ idx, x < w.N) ∧ (w.Separated → NearestOthers w idx nn) ∧
      L.deform.pairwise w.train nn = .ok d.pairwise ∧ L.deform.crosswise w.train w.train (ofNats idx) nn = .ok d.crosswise ∧
      (∀ p x, idx[p]? = some x → d.targets.get [p] = Y.get [x]) ∧
      (∀ p < idx.length, Spec.vec w.nnCount d.nnTargets p = nbrTargets Y w.N w.nnCount nn p 0) ∧
      (∀ e, opt L d = .error e → makeRegressor bs opt draw sd bc w L Y = .error e) ∧
      ∀ L1, opt L d = .ok L1 → L1.Made → L1.deform.kind = L.deform.kind → L1.deform.metric = L.deform.metric →
        (L1.scaleKind = .fixed ∨ L1.scaleKind = .analytic 1) →
        ∀ len : Fin w.f → ℝ, L1.deform.HasLengths w.f len → L1.trainee.R.gp.noise.Fits idx.length w.nnCount →
        (∀ p < idx.length, (nbrCov bs L1.trainee.R.kernel len w.train w.N w.nnCount nn p
          + L1.trainee.R.gp.noise.mat w.nnCount p).det ≠ 0) →
        let s := L1.estimateOn bs len w.train Y w.N w.nnCount idx.length nn
        (0 < s → makeRegressor bs opt draw sd bc w L Y = .ok { L1 with scale := s, boundScale := s }) ∧
        (s ≤ 0 → makeRegressor bs opt draw sd bc w L Y = .error .value) := by
  obtain ⟨idx, nn, d, h1, h2, h3, h4, h5, hv, d1, d2, d3, d4, d5, d6, d7⟩ :=
    regressor_data L w hw len0 hlen0 bc hbc draw hd hN hkN Y hY
  have hfx := fixed_of_free hn hfree
  have hrun : makeRegressor bs opt draw sd bc w L Y =
      (opt L d).bind fun L' => L'.optimizeScale bs sd d.pairwise d.nnTargets := by
    unfold makeRegressor
    rw [hfx]
    show (sampleBatch w bc w.N draw).bind _ = _
    rw [h1]
    show (L.trainData (idx, nn) w.train Y).bind _ = _
    rw [d1]
    rfl
  refine ⟨idx, nn, d, h1, h2, h3, h4,
    fun hsep => batch_neighbours w hw bc hbc hN draw hd hkN hsep idx nn h1, d2, d3, d6, d7, fun e he => by rw [hrun, he]; rfl, ?_⟩
  intro L1 hopt hmade hkind hmetric hsk len hlen hν hdet s
  have hk1 := made_kernel hmade
  obtain ⟨D, K, k1, k2, k3, k4⟩ := kernel_pairwise bs L1.trainee.R.kernel hk1 w.train nn w.N w.f idx.length w.nnCount len hlen
    (.inl hw.1) h5 hv
  have hD : D = d.pairwise := by
    have : L1.deform.pairwise w.train nn = .ok D := k1
    unfold Deform.pairwise at this d2
    rw [hkind, hmetric, d2] at this
    exact (Except.ok.inj this).symm
  subst hD
  have hs : scaleOptFn L1.scaleKind L1.trainee.R.gp sd K d.nnTargets [] = .ok (some s) := by
    rcases hsk with h | h
    · simp only [scaleOptFn, h, s, Learner.estimateOn]; rfl
    · simp only [scaleOptFn, h, s, Learner.estimateOn]
      have := (C33_documented_formula L1.trainee.R.gp.noise idx.length w.nnCount hν K d.nnTargets k3 d5).1
        (fun p hp => by rw [k4 p hp]; exact hdet p hp)
      rw [this, scaleEstimate_congr (fun p hp => by rw [k4 p hp]) d7]
      rfl
  have hopt' : makeRegressor bs opt draw sd bc w L Y =
      if s ≤ 0 then .error .value else .ok ({ L1 with scale := s } : Learner).make := by
    rw [hrun, hopt]
    show L1.optimizeScale bs sd d.pairwise d.nnTargets = _
    unfold Learner.optimizeScale
    simp only [k2, hs, bind, Except.bind, pure, Except.pure]
  refine ⟨fun hp => ?_, fun hle => by rw [hopt', if_pos hle]⟩
  rw [hopt', if_neg (not_le.mpr hp)]
  have hfn : L1.fn = L1.make.fn := by rw [hmade]
  show Except.ok _ = Except.ok _
  congr 1
  show ({ L1 with scale := s } : Learner).make = { L1 with scale := s, boundScale := s }
  unfold Learner.make
  simp only [Learner.mk.injEq, true_and, and_true]
  exact hfn.symm

/-! ## Scores -/

/-- Estimating the variance scale does not change the score of a model on the same data. -/
theorem score_rescaled (bs : Flt → ℝ → ℝ) (L : Learner) (hmade : L.Made) (l : LossKind) (draws : List (List Nat)) (d : TrainData)
    (s : ℝ) (hs : L.scaleKind = .fixed → s = L.scale) :
    (({ L with scale := s } : Learner).make).score bs l draws d = L.score bs l draws d := by
  have hfn : ({ L with scale := s } : Learner).make.fn = L.fn := by
    have h : L.make.fn = L.fn := by rw [hmade]
    exact h
  have hker : ({ L with scale := s } : Learner).make.trainee.R.kernel = L.trainee.R.kernel := by
    show KernelObj.mk _ _ _ = KernelObj.mk _ _ _
    rw [hfn]
    rfl
  unfold Learner.score
  split
  · unfold promisedRaw
    rw [hker]
    rfl
  · unfold promisedVar
    rw [hker]
    have hps : ∀ K y, ({ L with scale := s } : Learner).make.trainee.promisedScale draws K y = L.trainee.promisedScale draws K y := by
      intro K y
      unfold Trainee.promisedScale
      have hsk : ({ L with scale := s } : Learner).make.trainee.scaleKind = L.trainee.scaleKind := rfl
      rw [hsk]
      cases hk : L.trainee.scaleKind with
      | fixed =>
        have : s = L.scale := hs hk
        show Except.ok (some s) = Except.ok (some L.scale)
        rw [this]
      | analytic n => rfl
      | downSample c => rfl
    simp only [hps]
    rfl

theorem optimizeScale_spec {bs : Flt → ℝ → ℝ} {sd : List (List Nat)} {L L' : Learner} {P y : Tensor ℝ}
    (h : L.optimizeScale bs sd P y = .ok L') :
    ∃ s, 0 < s ∧ L' = ({ L with scale := s } : Learner).make ∧ (L.scaleKind = .fixed → s = L.scale) := by
  unfold Learner.optimizeScale at h
  cases hk : L.trainee.R.kernel.call bs P [] with
  | error e => rw [hk] at h; cases h
  | ok K =>
    simp only [hk, bind, Except.bind] at h
    cases hs : scaleOptFn L.scaleKind L.trainee.R.gp sd K y [] with
    | error e => rw [hs] at h; cases h
    | ok o =>
      simp only [hs] at h
      cases o with
      | none => cases h
      | some s =>
        simp only at h
        by_cases h0 : s ≤ 0
        · rw [if_pos h0] at h; cases h
        · rw [if_neg h0] at h
          refine ⟨s, not_le.mp h0, (Except.ok.inj h).symm, fun hf => ?_⟩
          simp only [scaleOptFn, hf, Except.ok.injEq, Option.some.injEq] at hs
          exact hs.symm

/-- What a successful `make_regressor` did. -/
theorem makeRegressor_spec {bs : Flt → ℝ → ℝ} {opt : Learner → TrainData → Res Learner} {draw : List Nat} {sd : List (List Nat)}
    {bc : Int} {w : NNWrapper} {L L' : Learner} {Y : Tensor ℝ} (hn : L.noise ≠ .null)
    (hfree : ∃ np ∈ L.gp.params, np.2.fixed = false) (h : makeRegressor bs opt draw sd bc w L Y = .ok L') :
    ∃ batch d L1, sampleBatch w bc w.N draw = .ok batch ∧ L.trainData batch w.train Y = .ok d ∧ opt L d = .ok L1 ∧
      L1.optimizeScale bs sd d.pairwise d.nnTargets = .ok L' := by
  unfold makeRegressor at h
  rw [fixed_of_free hn hfree] at h
  simp only [bind, Except.bind, Bool.false_eq_true, if_false] at h
  cases hb : sampleBatch w bc w.N draw with
  | error e => rw [hb] at h; cases h
  | ok batch =>
    simp only [hb] at h
    cases hd : L.trainData batch w.train Y with
    | error e => rw [hd] at h; cases h
    | ok d =>
      simp only [hd] at h
      cases ho : opt L d with
      | error e => rw [ho] at h; cases h
      | ok L1 =>
        simp only [ho] at h
        exact ⟨batch, d, L1, rfl, hd, ho, h⟩

/-- **C61**, training never makes the model worse: with the Bayesian optimiser (whose proposals stay within the bounds), the
model `make_regressor` returns scores at least as high on its training data as the model it was given.
Partial: as for C60 (`C60_bayes_never_worse_partial`), the model's free anisotropic length scales come first and, depending on
the version of `bayes_opt`, there are at most ten of them; the objective has a value at all points within the bounds; variance
losses need one response per point and a scale that is not estimated together with an optimised noise level. -/
theorem C61_never_worse_partial (env : Env) (order : KeyOrder) (bs : Flt → ℝ → ℝ) (src : Opt.Source (List Flt)) (init nIter : Option Nat)
    (l : LossKind) (draws : List (List Nat))
    (L : Learner) (hmade : L.Made) (hn : L.noise ≠ .null) (hb : L.InBounds) (hff : L.FreeFirst) (h10 : order = .sorted → L.AtMostTen)
    (hfree : ∃ np ∈ L.gp.params, np.2.fixed = false)
    (w : NNWrapper) (draw : List Nat) (sd : List (List Nat)) (bc : Int) (Y : Tensor ℝ)
    (batch : List Nat × Tensor Int) (hbatch : sampleBatch w bc w.N draw = .ok batch)
    (d : TrainData) (hdata : L.trainData batch w.train Y = .ok d) (hl : L.LossFits l d)
    (box : List Flt → Prop) (hbox : ∀ x, box x ↔ x.length = L.freeNames.length ∧ L.Feasible ((order.keys L.freeNames).zip x))
    (hrand : ∀ i, box (src.random i)) (hsugg : ∀ s, box (src.suggest s))
    (hval : ∀ x, box x → ∃ a, L.objective bs l draws d ((order.keys L.freeNames).zip x) = .ok (some a))
    (L' : Learner)
    (h : makeRegressor bs (fun L d => bayesLearn env order bs src init nIter L l draws d) draw sd bc w L Y = .ok L') :
    ∃ a a', L.score bs l draws d = .ok (some a) ∧ L'.score bs l draws d = .ok (some a') ∧ a ≤ a' ∧
      L'.Made ∧ L'.InBounds ∧ L.SameKind L' ∧
      ∃ x, box x ∧ ∀ np ∈ L'.gp.params, ∃ np' ∈ L.gp.params, np = (np'.1, np'.2.overridden ((order.keys L.freeNames).zip x) np'.1) := by
  obtain ⟨batch', d', L1, s1, s2, s3, s4⟩ := makeRegressor_spec hn hfree h
  rw [hbatch] at s1
  obtain rfl := Except.ok.inj s1
  rw [hdata] at s2
  obtain rfl := Except.ok.inj s2
  obtain ⟨L2, a, a', t1, t2, t3, t4, t5, t6, t7, t8, x, t9, t10⟩ := C60_bayes_never_worse_partial env order bs src init nIter L hmade hn hb
    hff h10 l draws d hl box hbox hrand hsugg hval
  obtain rfl : L2 = L1 := Except.ok.inj (t1.symm.trans s3)
  obtain ⟨s, e1, e2, e3⟩ := optimizeScale_spec s4
  have hp : L'.gp.params = L2.gp.params := by rw [e2]; rfl
  refine ⟨a, a', t2, ?_, t4, ?_, ?_, ?_, x, t9, fun np hnp => ?_⟩
  · rw [e2, score_rescaled bs L2 t5 l draws d s e3]; exact t3
  · rw [e2]; rfl
  · intro np hnp
    rw [hp] at hnp
    exact t6 np hnp
  · rw [e2]; exact t8
  · rw [hp, t10, params_mapParams] at hnp
    obtain ⟨np', h1, h2⟩ := List.mem_map.mp hnp
    exact ⟨np', h1, h2.symm⟩

/-! ## Prediction -/

/-- **C61**, `do_regress`: it returns the model `make_regressor` returns, and predicts each test point with *that* model — its
hyperparameters and its variance scale — from the `nn_count` nearest training points of the test point. -/
theorem C61_do_regress (bs : Flt → ℝ → ℝ) (opt : Learner → TrainData → Res Learner) (draw : List Nat) (sd : List (List Nat))
    (bc : Int) (w : NNWrapper) (hw : w.Exact) (L L' : Learner) (Q Y : Tensor ℝ)
    (h : makeRegressor bs opt draw sd bc w L Y = .ok L') (hmade : L'.Made)
    (m : Nat) (len : Fin w.f → ℝ) (hlen : L'.deform.HasLengths w.f len)
    (hQ : Q.shape = [m, w.f]) (hY : Y.shape = [w.N]) (hm : 0 < m) (hk0 : 0 < w.nnCount)
    (hkN : w.nnCount ≤ w.N) (hν : L'.trainee.R.gp.noise.Fits m w.nnCount) :
    ∃ nn : Tensor Int,
      (∀ i < m, ∃ l : List Nat, rowList nn w.nnCount i = l.map Int.ofNat ∧
        Nearest (· < w.N) (fun j => w.dist (rowPt Q w.f i) (rowPt w.train w.f j)) w.nnCount l) ∧
      ((∀ p < m, (nbrCov bs L'.trainee.R.kernel len w.train w.N w.nnCount nn p + L'.trainee.R.gp.noise.mat w.nnCount p).det ≠ 0) →
        ∃ μ v, doRegress bs opt draw sd bc w L Q Y = .ok (L', μ, v) ∧ μ.shape = [m] ∧ v.shape = [m] ∧
          ∀ p < m,
            μ.get [p] = Spec.krigingMean
              (nbrCov bs L'.trainee.R.kernel len w.train w.N w.nnCount nn p + L'.trainee.R.gp.noise.mat w.nnCount p)
              (nbrCross bs L'.trainee.R.kernel len w.train w.N w.nnCount nn p (rowPt Q w.f p))
              (nbrTargets Y w.N w.nnCount nn p 0) ∧
            v.get [p] = L'.scale * Spec.krigingVar 1
              (nbrCov bs L'.trainee.R.kernel len w.train w.N w.nnCount nn p + L'.trainee.R.gp.noise.mat w.nnCount p)
              (nbrCross bs L'.trainee.R.kernel len w.train w.N w.nnCount nn p (rowPt Q w.f p))) := by
  obtain ⟨nn, h1, h2⟩ := C54_regress_any bs L'.trainee.R (made_kernel hmade) rfl w hw Q Y m len hlen hQ hY hm hk0 hkN hν
  have hbs : L'.boundScale = L'.scale := by
    have h : L'.make.boundScale = L'.boundScale := by rw [hmade]
    exact h.symm
  refine ⟨nn, h1, fun hdet => ?_⟩
  obtain ⟨μ, v, r1, r2, r3, r4⟩ := h2 hdet
  refine ⟨μ, v, ?_, r2, r3, fun p hp => ⟨(r4 p hp).1, ?_⟩⟩
  · unfold doRegress
    rw [h]
    show (regressAny bs L'.trainee.R w Q w.train Y).bind _ = _
    rw [r1]
    rfl
  · rw [(r4 p hp).2, ← hbs]; rfl

/-! ## Classification -/

theorem classLabels_ok (labels : Tensor ℝ) (N r : Nat) (hl : labels.shape = [N, r]) (hr : 0 < r) :
    ∃ c, classLabels labels = .ok c ∧ c.shape = [N] ∧ IntegerLabels c N ∧
      ∀ i < N, ∃ k : Nat, c.get [i] = k ∧ IsFirstMax (fun j => labels.get [i, j]) r k := by
  have hform : ∀ i < N, (Tensor.get (⟨[N], fun i => ((argmaxRows labels N r).getD i 0 : ℕ)⟩ : Tensor ℝ) [i]) =
      ((argmaxRow ((List.range r).map fun j => labels.get [i, j]) : ℕ) : ℝ) := by
    intro i hi
    rw [Tensor.get1 _ rfl]
    simp only [argmaxRows]
    rw [List.getD_eq_getElem?_getD, List.getElem?_map, List.getElem?_range hi]
    rfl
  refine ⟨_, by unfold classLabels; rw [hl]; simp only; rw [if_neg (by omega)], rfl, fun i hi => ?_, fun i hi => ?_⟩
  · exact ⟨((argmaxRow ((List.range r).map fun j => labels.get [i, j]) : ℕ) : ℤ), by rw [hform i hi]; simp⟩
  · exact ⟨_, hform i hi, argmaxRow_spec (fun j => labels.get [i, j]) r hr⟩

/-- Whatever the draws: the indices of a balanced batch are training points, and row `q` of its neighbour tensor lists the
neighbours `get_batch_nns` reports for batch point `q`. -/
theorem balanced_valid (w : NNWrapper) (hw : w.Exact) (hn : 0 < w.nnCount) (hkN : w.nnCount + 1 ≤ w.N) (c : Tensor ℝ)
    (hc : c.shape = [w.N]) (bc : Int) (draws : List (List Nat)) (idx : List Nat) (nn : Tensor Int)
    (h : getBalancedBatch w c bc draws = .ok (idx, nn)) :
    (∀ x ∈ idx, x < w.N) ∧ nn.shape = [idx.length, w.nnCount] ∧ AllValid w.N nn ∧
      ∃ I D, w.getBatchNns (arange w.N) = .ok (I, D) ∧
        ∀ q x, idx[q]? = some x → rowList nn w.nnCount q = rowList I w.nnCount x := by
  obtain ⟨F, I, D, h1, h2, h3, h4, h5, h6⟩ := filteredIndices_ok w hw c hc hn hkN
  have hsel : ∀ l : List Nat, (∀ x ∈ l, x < w.N) → idx = l → nn = selectRows I w.nnCount l →
      (∀ x ∈ idx, x < w.N) ∧ nn.shape = [idx.length, w.nnCount] ∧ AllValid w.N nn ∧
      ∃ I D, w.getBatchNns (arange w.N) = .ok (I, D) ∧
        ∀ q x, idx[q]? = some x → rowList nn w.nnCount q = rowList I w.nnCount x := by
    rintro l hl rfl rfl
    refine ⟨hl, rfl, selectRows_valid (fun p hp j hj => ⟨_, (h5 p hp j hj).1.symm, (h5 p hp j hj).2⟩) hl, I, D, h1, ?_⟩
    intro q x hq
    exact selectRows_row I w.nnCount idx q x hq
  unfold getBalancedBatch at h
  rw [hc] at h
  simp only at h
  split at h
  · unfold sampleBalancedBatch at h
    rw [h3] at h
    simp only [bind, Except.bind] at h
    split at h
    · cases h
    · rename_i parts hp
      obtain ⟨e1, e2⟩ := Prod.mk.inj (Except.ok.inj h)
      refine hsel parts.flatten ?_ e1.symm e2.symm
      intro x hx
      obtain ⟨part, hpart, hxp⟩ := List.mem_flatten.mp hx
      obtain ⟨q1, q2⟩ := mapM_zipIdx_get _ _ 0 _ hp
      obtain ⟨i, hi, hie⟩ := List.mem_iff_getElem.mp hpart
      have hi' : i < (classesOf c).length := by omega
      obtain ⟨b, b1, b2⟩ := q2 i (classesOf c)[i] (List.getElem?_eq_getElem hi')
      have hb : b = part := by
        rw [List.getElem?_eq_getElem hi, hie] at b1
        exact (Option.some.inj b1).symm
      subst hb
      cases hch : choice (classIndices c F (classesOf c)[i]).length
        (min ((classIndices c F (classesOf c)[i]).length : Int) (bc.tdiv (classesOf c).length)) (draws.getD (0 + i) []) with
      | error e => simp only [hch] at b2; cases b2
      | ok pos =>
        simp only [hch, pure, Except.pure] at b2
        rw [← Except.ok.inj b2] at hxp
        obtain ⟨p, hp1, rfl⟩ := List.mem_map.mp hxp
        rw [List.getD_eq_getElem?_getD]
        cases hg : (classIndices c F (classesOf c)[i])[p]? with
        | none => simp only [Option.getD_none]; omega
        | some y =>
          simp only [Option.getD_some]
          have := List.mem_of_getElem? hg
          unfold classIndices at this
          exact ((h6 y).mp (List.mem_filter.mp this).1).1
  · unfold fullFilteredBatch at h
    rw [h3] at h
    obtain ⟨e1, e2⟩ := Prod.mk.inj (Except.ok.inj h)
    exact hsel F (fun x hx => ((h6 x).mp hx).1) e1.symm e2.symm

/-- **C61**, training a classifier with a free hyperparameter: a balanced batch is drawn for the classes of the points (the
position of the largest entry of their label vectors); the optimiser gets the model, the differences (or distances) of the batch
points and their neighbours and their label vectors; its answer is returned as it is — in particular the variance scale is not
estimated — and so is its exception, or the batch's. -/
theorem C61_make_classifier (opt : Learner → TrainData → Res Learner) (cd : List (List Nat)) (bc : Int) (w : NNWrapper)
    (hw : w.Exact) (L : Learner) (hn : L.noise ≠ .null) (hfree : ∃ np ∈ L.gp.params, np.2.fixed = false)
    (len0 : Fin w.f → ℝ) (hlen0 : L.deform.HasLengths w.f len0)
    (labels : Tensor ℝ) (r : Nat) (hl : labels.shape = [w.N, r]) (hr : 0 < r) (hk0 : 0 < w.nnCount) (hkN : w.nnCount + 1 ≤ w.N) :
    ∃ classes : Tensor ℝ, classes.shape = [w.N] ∧
      (∀ i < w.N, ∃ k : Nat, classes.get [i] = k ∧ IsFirstMax (fun j => labels.get [i, j]) r k) ∧
      (∀ e, getBalancedBatch w classes bc cd = .error e → makeClassifier opt cd bc w L labels = .error e) ∧
      ∀ idx nn, getBalancedBatch w classes bc cd = .ok (idx, nn) →
        ∃ d, makeClassifier opt cd bc w L labels = opt L d ∧
          L.deform.pairwise w.train nn = .ok d.pairwise ∧ L.deform.crosswise w.train w.train (ofNats idx) nn = .ok d.crosswise ∧
          d.targets.shape = [idx.length, r] ∧ d.nnTargets.shape = [idx.length, w.nnCount, r] ∧
          (∀ p x, idx[p]? = some x → x < w.N ∧ ∀ c < r, d.targets.get [p, c] = labels.get [x, c]) ∧
          ∀ p < idx.length, ∀ j < w.nnCount, ∃ x : Nat, nn.get [p, j] = x ∧ x < w.N ∧
            ∀ c < r, d.nnTargets.get [p, j, c] = labels.get [x, c] := by
  obtain ⟨c, c1, c2, c3, c4⟩ := classLabels_ok labels w.N r hl hr
  have hrun : ∀ b, getBalancedBatch w c bc cd = b → makeClassifier opt cd bc w L labels =
      b.bind fun batch => (L.trainData batch w.train labels).bind fun d => opt L d := by
    rintro b rfl
    unfold makeClassifier
    rw [fixed_of_free hn hfree, c1]
    rfl
  refine ⟨c, c2, c4, fun e he => by rw [hrun _ he]; rfl, fun idx nn hb => ?_⟩
  obtain ⟨b1, b2, b3, I, D, b4, b5⟩ := balanced_valid w hw hk0 hkN c c2 bc cd idx nn hb
  obtain ⟨P, _, p1, _⟩ := pairwise_entries L.deform w.train nn w.N w.f idx.length w.nnCount len0 hlen0 (.inl hw.1) b2 b3
  obtain ⟨C, _, q1, _⟩ := crosswise_entries L.deform w.train w.train (ofNats idx) nn w.N w.N w.f idx.length w.nnCount len0 hlen0
    (.inl hw.1) (.inl hw.1) rfl rfl b2 (ofNats_valid b1) b3
  obtain ⟨d, d1, d2, d3, d4, d5, d6, d7⟩ := trainData_ok L idx nn w.train labels w.N w.f w.nnCount r hw.1 (.inl hl) b2 b1 b3
    ⟨P, p1⟩ ⟨C, q1⟩
  rw [hl] at d4 d5
  have d4' : d.targets.shape = [idx.length, r] := d4
  have d5' : d.nnTargets.shape = [idx.length, w.nnCount, r] := d5
  have hfeat : ∀ x k, feature labels x k = labels.get [x, k] := by
    intro x k
    rw [feature, hl]
  refine ⟨d, ?_, d2, d3, d4', d5', fun p x hx => ⟨b1 x (List.mem_of_getElem? hx), fun k hk => ?_⟩, fun p hp j hj => ?_⟩
  · rw [hrun _ hb]
    show (L.trainData (idx, nn) w.train labels).bind _ = _
    rw [d1]; rfl
  · rw [Tensor.get2 _ d4', d6 p x hx k hk, hfeat]
  · obtain ⟨F, I', D', h1, h2, h3, h4, h5, h6⟩ := filteredIndices_ok w hw c c2 hk0 hkN
    obtain ⟨rfl, rfl⟩ := Prod.mk.inj (Except.ok.inj (b4.symm.trans h1))
    have hx := List.getElem?_eq_getElem hp
    have hrow := b5 p idx[p] hx
    have hget : nn.get [p, j] = I.get [idx[p], j] := by
      have e := congrArg (fun l => l[j]?) hrow
      simpa [rowList, List.getElem?_range hj] using e
    obtain ⟨g1, g2⟩ := h5 idx[p] (b1 _ (List.getElem_mem hp)) j hj
    refine ⟨(I.get [idx[p], j]).toNat, by rw [hget, g1], g2, fun k hk => ?_⟩
    rw [Tensor.get3 _ d5', show p * (w.nnCount * r) + j * r + k = (p * w.nnCount + j) * r + k by ring, d7 p hp j hj k hk, hfeat,
      hget, ← g1, pointOf_nat]
    rfl

/-- **C61**, `do_classify`: it returns the model `make_classifier` returns and predicts with *that* model: a test point whose
neighbours' label vectors all start alike gets the label vector of its nearest neighbour, any other the posterior mean of the
returned model. (The number of classes must differ from the number of neighbours, see C44.) -/
theorem C61_do_classify (bs : Flt → ℝ → ℝ) (opt : Learner → TrainData → Res Learner) (cd : List (List Nat)) (bc : Int)
    (w : NNWrapper) (hw : w.Exact) (L L' : Learner) (test labels : Tensor ℝ)
    (h : makeClassifier opt cd bc w L labels = .ok L') (hmade : L'.Made)
    (m r : Nat) (len : Fin w.f → ℝ) (hlen : L'.deform.HasLengths w.f len) (ht : test.shape = [m, w.f])
    (hl : labels.shape = [w.N, r]) (hr : 0 < r) (hrn : r ≠ w.nnCount) (hm : 0 < m) (hk0 : 0 < w.nnCount) (hkN : w.nnCount ≤ w.N)
    (hν : ∀ b, L'.trainee.R.gp.noise.Fits b w.nnCount) :
    ∃ nn : Tensor Int,
      (∀ i < m, ∃ l : List Nat, rowList nn w.nnCount i = l.map Int.ofNat ∧
        Nearest (· < w.N) (fun j => w.dist (rowPt test w.f i) (rowPt w.train w.f j)) w.nnCount l) ∧
      ((∀ p < m, (nbrCov bs L'.trainee.R.kernel len w.train w.N w.nnCount nn p + L'.trainee.R.gp.noise.mat w.nnCount p).det ≠ 0) →
        ∃ P, doClassify bs opt cd bc w L test labels = .ok (L', P) ∧ P.shape = [m, r] ∧ ∀ p < m,
          (¬ FirstMixed labels nn w.nnCount p → ∀ c < r, P.get [p, c] = nbrLabel labels nn p 0 c) ∧
          (FirstMixed labels nn w.nnCount p → ∀ c < r, P.get [p, c] = Spec.krigingMean
            (nbrCov bs L'.trainee.R.kernel len w.train w.N w.nnCount nn p + L'.trainee.R.gp.noise.mat w.nnCount p)
            (nbrCross bs L'.trainee.R.kernel len w.train w.N w.nnCount nn p (rowPt test w.f p))
            (nbrTargets labels w.N w.nnCount nn p c))) := by
  obtain ⟨I, D, h1, h2, h3, h4⟩ := C44_actual bs L'.trainee.R (made_kernel hmade) w hw test labels m r len hlen ht hl hr hrn hm hk0
    hkN hν
  refine ⟨I, h3, fun hdet => ?_⟩
  obtain ⟨P, p1, p2, p3⟩ := h4 hdet
  refine ⟨P, ?_, p2, p3⟩
  unfold doClassify
  rw [h]
  show (classifyAny (fun idx nn => posteriorMeanFromIndices bs L'.trainee.R idx nn test w.train labels) w test labels).bind _ = _
  rw [p1]
  rfl

end MuyGPyS
