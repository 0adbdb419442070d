import Verif.Spec.MultiPipeline
import Verif.Props.PipelineAlways
import Verif.Props.MultiWorkflow
import Verif.Props.Always
import Verif.Props.Definite

/-! # C64: the end-to-end functions with one model per response -/

namespace MuyGPyS
open Py Matrix

theorem responseColumn_get (Y : Tensor ℝ) (N r c : Nat) (hY : Y.shape = [N, r]) (x : Nat) :
    (responseColumn Y c).shape = [N, 1] ∧ (responseColumn Y c).get [x, 0] = Y.get [x, c] := by
  unfold responseColumn
  rw [hY]
  refine ⟨rfl, ?_⟩
  rw [Tensor.get2 (⟨[N, 1], fun k => Y.flat (k * r + c)⟩ : Tensor ℝ) rfl, Tensor.get2 Y hY]
  simp

theorem not_free_iff (L : Learner) : ¬ L.Free ↔ L.AllFixed := by
  unfold Learner.Free Learner.AllFixed
  push Not
  simp

/-! ## Which models are trained -/

/-- `fixed()` of a multi-output model without `NullNoise`. -/
theorem multiFixed_eq (Ls : List Learner) (hn : ∀ L ∈ Ls, L.noise ≠ .null) :
    ((∀ L ∈ Ls, L.AllFixed) → multiFixed Ls = .ok true) ∧ ((∃ L ∈ Ls, L.Free) → multiFixed Ls = .ok false) := by
  have key : ∀ Ls : List Learner, (∀ L ∈ Ls, L.noise ≠ .null) → ∃ bs : List Bool, Ls.mapM (fun L => L.gp.fixed) = .ok bs ∧
      ((∀ L ∈ Ls, L.AllFixed) → bs.all id = true) ∧ ((∃ L ∈ Ls, L.Free) → bs.all id = false) := by
    intro Ls
    induction Ls with
    | nil => intro _; exact ⟨[], rfl, fun _ => rfl, by simp⟩
    | cons L Ls ih =>
      intro hn
      obtain ⟨bs, h1, h2, h3⟩ := ih fun L hL => hn L (List.mem_cons_of_mem _ hL)
      have hn0 := hn L List.mem_cons_self
      by_cases hf : L.Free
      · refine ⟨false :: bs, ?_, ?_, fun _ => by simp⟩
        · simp only [List.mapM_cons, fixed_of_free hn0 hf, h1, bind, Except.bind, pure, Except.pure]
        · intro h
          exact absurd hf ((not_free_iff L).mpr (h L List.mem_cons_self))
      · refine ⟨true :: bs, ?_, ?_, ?_⟩
        · simp only [List.mapM_cons, fixed_of_params hn0 ((not_free_iff L).mp hf), h1, bind, Except.bind, pure, Except.pure]
        · intro h
          simpa using h2 fun L hL => h L (List.mem_cons_of_mem _ hL)
        · rintro ⟨L', hL', hf'⟩
          rcases List.mem_cons.mp hL' with rfl | hm
          · exact absurd hf' hf
          · simpa using h3 ⟨L', hm, hf'⟩
  obtain ⟨bs, h1, h2, h3⟩ := key Ls hn
  unfold multiFixed
  rw [h1]
  exact ⟨fun h => congrArg Except.ok (h2 h), fun h => congrArg Except.ok (h3 h)⟩

/-- **C64**, the number of models: it must be the number of responses, otherwise there is a `ValueError`, whatever the models. -/
theorem C64_count (bs : Flt → ℝ → ℝ) (opt : Learner → TrainData → Res Learner) (draw : List Nat) (sd : Nat → List (List Nat))
    (cd : List (List Nat)) (bc : Int) (w : NNWrapper) (Ls : List Learner) (Q Y : Tensor ℝ) (N r : Nat) (hY : Y.shape = [N, r])
    (hr : r ≠ Ls.length) :
    makeMultiRegressor bs opt draw sd bc w Ls Y = .error .value ∧ makeMultiClassifier opt cd bc w Ls Y = .error .value ∧
    doRegressModel bs opt draw sd bc w (.list Ls) Q Y = .error .value ∧
    doClassifyModel bs opt cd bc w (.list Ls) Q Y = .error .value := by
  have h1 : makeMultiRegressor bs opt draw sd bc w Ls Y = .error .value := by
    unfold makeMultiRegressor; rw [hY]; simp only; rw [if_pos hr]
  have h2 : makeMultiClassifier opt cd bc w Ls Y = .error .value := by
    unfold makeMultiClassifier; rw [hY]; simp only; rw [if_pos hr]
  refine ⟨h1, h2, ?_, ?_⟩
  · unfold doRegressModel decideRegressor; simp only [h1]; rfl
  · unfold doClassifyModel decideClassifier; simp only [h2]; rfl

/-- **C64**, fixed hyperparameters: when every model is fixed, the models come back exactly as they were given — in particular
no variance scale is estimated. -/
theorem C64_fixed (bs : Flt → ℝ → ℝ) (opt : Learner → TrainData → Res Learner) (draw : List Nat) (sd : Nat → List (List Nat))
    (cd : List (List Nat)) (bc : Int) (w : NNWrapper) (Ls : List Learner) (hn : ∀ L ∈ Ls, L.noise ≠ .null)
    (hfix : ∀ L ∈ Ls, L.AllFixed) (Y : Tensor ℝ) (N : Nat) (hY : Y.shape = [N, Ls.length]) :
    makeMultiRegressor bs opt draw sd bc w Ls Y = .ok Ls ∧ makeMultiClassifier opt cd bc w Ls Y = .ok Ls := by
  have h := (multiFixed_eq Ls hn).1 hfix
  constructor
  · unfold makeMultiRegressor; rw [hY]; simp only; rw [if_neg (by simp), h]; rfl
  · unfold makeMultiClassifier; rw [hY]; simp only; rw [if_neg (by simp), h]; rfl

/-- C64 fails for a tuple of keyword arguments: `do_regress` takes it like a list, `do_classify` raises a `ValueError`, although
both document a list or tuple. -/
theorem C64_tuple_fails (bs : Flt → ℝ → ℝ) (opt : Learner → TrainData → Res Learner) (draw : List Nat) (sd : Nat → List (List Nat))
    (cd : List (List Nat)) (bc : Int) (w : NNWrapper) (Ls : List Learner) (Q Y : Tensor ℝ) :
    doRegressModel bs opt draw sd bc w (.tuple Ls) Q Y = doRegressModel bs opt draw sd bc w (.list Ls) Q Y ∧
    doClassifyModel bs opt cd bc w (.tuple Ls) Q Y = .error .value :=
  ⟨rfl, rfl⟩

/-- The other arguments: a dictionary makes the single-output functions run; anything else is a `ValueError`. -/
theorem C64_arguments (bs : Flt → ℝ → ℝ) (opt : Learner → TrainData → Res Learner) (draw : List Nat) (sd : Nat → List (List Nat))
    (cd : List (List Nat)) (bc : Int) (w : NNWrapper) (L : Learner) (Q Y : Tensor ℝ) :
    doRegressModel bs opt draw sd bc w (.dict L) Q Y =
      (doRegress bs opt draw (sd 0) bc w L Q Y).map (fun p => (AnyModel.one p.1, p.2.1, p.2.2)) ∧
    doClassifyModel bs opt cd bc w (.dict L) Q Y = (doClassify bs opt cd bc w L Q Y).map (fun p => (AnyModel.one p.1, p.2)) ∧
    doRegressModel bs opt draw sd bc w .other Q Y = .error .value ∧ doClassifyModel bs opt cd bc w .other Q Y = .error .value := by
  refine ⟨?_, ?_, rfl, rfl⟩
  · unfold doRegressModel decideRegressor doRegress
    simp only
    cases makeRegressor bs opt draw (sd 0) bc w L Y with
    | error e => rfl
    | ok L' =>
      simp only [bind, Except.bind, pure, Except.pure, regressAnyModel]
      cases regressAny bs L'.trainee.R w Q w.train Y <;> rfl
  · unfold doClassifyModel decideClassifier doClassify
    simp only
    cases makeClassifier opt cd bc w L Y with
    | error e => rfl
    | ok L' =>
      simp only [bind, Except.bind, pure, Except.pure]
      cases classifyAny (fun idx nn => posteriorMeanFromIndices bs L'.trainee.R idx nn Q w.train Y) w Q Y <;> rfl

/-! ## The data each model is trained on -/

theorem take_column (Y : Tensor ℝ) (N r c : Nat) (hY : Y.shape = [N, r]) (hc : c < r) (idx : Tensor Int) :
    (responseColumn Y c).take idx =
      (Y.take idx).map fun t => ⟨idx.shape ++ [1], fun k => t.flat (k * r + c)⟩ := by
  unfold responseColumn Tensor.take
  rw [hY]
  simp only
  split
  · simp only [Except.map]
    congr 2
    funext k
    have h1 : (k * r + c) / r = k := by rw [Nat.mul_comm, Nat.mul_add_div (by omega)]; simp [Nat.div_eq_of_lt hc]
    have h2 : (k * r + c) % r = c := by rw [Nat.mul_comm, Nat.mul_add_mod]; exact Nat.mod_eq_of_lt hc
    simp [h1, h2, Nat.mod_one]
  · rfl

/-- The data of response `c` is the data a single-output model gets whose responses are column `c`. -/
theorem trainData_column (L : Learner) (idx : List Nat) (nn : Tensor Int) (X Y : Tensor ℝ) (N r c n : Nat)
    (hY : Y.shape = [N, r]) (hc : c < r) (hnn : nn.shape = [idx.length, n]) :
    L.trainData (idx, nn) X (responseColumn Y c) = (L.trainData (idx, nn) X Y).bind fun d => d.column n c := by
  unfold Learner.trainData makeTrainTensors
  cases defCrosswise L.deform.kind L.deform.metric X X (ofNats idx) nn with
  | error e => rfl
  | ok C =>
  cases defPairwise L.deform.kind L.deform.metric X nn with
  | error e => rfl
  | ok P =>
  simp only [bind, Except.bind, pure, Except.pure, take_column Y N r c hY hc]
  cases hz : Y.take nn with
  | error e => rfl
  | ok Z =>
  simp only [Except.map]
  cases ht : Y.take (ofNats idx) with
  | error e => rfl
  | ok T =>
  have hZ : Z.shape = [idx.length, n, r] := by
    unfold Tensor.take at hz
    rw [hY] at hz
    simp only at hz
    split at hz
    · rw [← Except.ok.inj hz, hnn]; rfl
    · cases hz
  have hT : T.shape = [idx.length, r] := by
    unfold Tensor.take at ht
    rw [hY] at ht
    simp only at ht
    split at ht
    · rw [← Except.ok.inj ht]; rfl
    · cases ht
  simp only [TrainData.column, columnOf, sliceLast, hZ, hT, hc, if_true, bind, Except.bind, pure, Except.pure, hnn]
  simp [Tensor.reshape]
  rfl

theorem trainData_kind {L L' : Learner} (h : L.deform.kind = L'.deform.kind ∧ L.deform.metric = L'.deform.metric)
    (batch : List Nat × Tensor Int) (X Y : Tensor ℝ) : L.trainData batch X Y = L'.trainData batch X Y := by
  unfold Learner.trainData
  rw [h.1, h.2]

theorem scaleOnly_make (bs : Flt → ℝ → ℝ) (draws : List (List Nat)) (n i : Nat) (P y y1 y2 : Tensor ℝ) (L : Learner)
    (h1 : sliceLast y i = .ok y1) (h2 : y1.reshape [y1.shape.headD 0, n, 1] = .ok y2) :
    L.optimizeScale bs draws P y2 = (L.scaleOnly bs draws n P y i).map Learner.make := by
  unfold Learner.optimizeScale Learner.scaleOnly
  cases L.trainee.R.kernel.call bs P [] with
  | error e => rfl
  | ok K =>
  simp only [bind, Except.bind, h1, h2]
  cases scaleOptFn L.scaleKind L.trainee.R.gp draws K y2 [] with
  | error e => rfl
  | ok o =>
  cases o with
  | none => rfl
  | some s =>
  simp only
  split <;> rfl

theorem scaleOnly_spec {bs : Flt → ℝ → ℝ} {draws : List (List Nat)} {n i : Nat} {P y : Tensor ℝ} {L L' : Learner}
    (h : L.scaleOnly bs draws n P y i = .ok L') :
    ∃ s, 0 < s ∧ L' = { L with scale := s } ∧ (L.scaleKind = .fixed → s = L.scale) := by
  unfold Learner.scaleOnly at h
  cases hk : L.trainee.R.kernel.call bs P [] with
  | error e => rw [hk] at h; cases h
  | ok K =>
    simp only [hk, bind, Except.bind] at h
    cases h1 : sliceLast y i with
    | error e => rw [h1] at h; cases h
    | ok y1 =>
    simp only [h1] at h
    cases h2 : y1.reshape [y1.shape.headD 0, n, 1] with
    | error e => rw [h2] at h; cases h
    | ok y2 =>
    simp only [h2] at h
    cases hs : scaleOptFn L.scaleKind L.trainee.R.gp draws K y2 [] with
    | error e => rw [hs] at h; cases h
    | ok o =>
      simp only [hs] at h
      cases o with
      | none => cases h
      | some s =>
        simp only at h
        by_cases h0 : s ≤ 0
        · rw [if_pos h0] at h; cases h
        · rw [if_neg h0] at h
          refine ⟨s, not_le.mp h0, (Except.ok.inj h).symm, fun hf => ?_⟩
          simp only [scaleOptFn, hf, Except.ok.injEq, Option.some.injEq] at hs
          exact hs.symm

/-- The batch of `make_multivariate_regressor`: the one `make_regressor` draws. -/
theorem multi_batch (w : NNWrapper) (hw : w.Exact) (bc : Nat) (hbc : 0 < bc) (draw : List Nat)
    (hd : bc < w.N → IsDraw w.N bc draw) (hN : 0 < w.N) (hkN : w.nnCount + 1 ≤ w.N) :
    ∃ idx nn, sampleBatch w bc w.N draw = .ok (idx, nn) ∧ idx.length = min bc w.N ∧ idx.Nodup ∧ (∀ x ∈ idx, x < w.N) ∧
      nn.shape = [idx.length, w.nnCount] ∧ AllValid w.N nn := by
  obtain ⟨idx, nn, h1, h2, h3, h4, _, h5, h6⟩ := C42_batch w hw bc hbc hN draw hd hkN
  refine ⟨idx, nn, h1, h2, h3, h4, h5, valid_of_rows h5 fun i hi j hj => ?_⟩
  obtain ⟨l, e1, _, _, e2, _⟩ := h6 i idx[i] (List.getElem?_eq_getElem hi)
  obtain ⟨x, x1, x2⟩ := rowList_get e1 hj
  exact ⟨x, x2, e2 x (List.mem_of_getElem? x1)⟩

theorem mapM_zipIdx_of {α β : Type} (f : α × Nat → Res β) (l : List α) (k : Nat)
    (h : ∀ i a, l[i]? = some a → ∃ b, f (a, k + i) = .ok b) : ∃ l', (l.zipIdx k).mapM f = .ok l' := by
  induction l generalizing k with
  | nil => exact ⟨[], rfl⟩
  | cons a l ih =>
    obtain ⟨b, hb⟩ := h 0 a rfl
    obtain ⟨bs, hbs⟩ := ih (k + 1) fun i a' ha => by
      obtain ⟨b', hb'⟩ := h (i + 1) a' (by simpa using ha)
      exact ⟨b', by rwa [show k + 1 + i = k + (i + 1) by omega]⟩
    refine ⟨b :: bs, ?_⟩
    have hb' : f (a, k) = .ok b := hb
    simp only [List.zipIdx_cons, List.mapM_cons, bind, Except.bind, pure, Except.pure, hb', hbs]

/-- Shapes of the training data. -/
theorem trainData_shapes {L : Learner} {idx : List Nat} {nn : Tensor Int} {X Y : Tensor ℝ} {N r n : Nat} (hY : Y.shape = [N, r])
    (hnn : nn.shape = [idx.length, n]) {d : TrainData} (h : L.trainData (idx, nn) X Y = .ok d) :
    d.targets.shape = [idx.length, r] ∧ d.nnTargets.shape = [idx.length, n, r] := by
  unfold Learner.trainData makeTrainTensors at h
  cases hC : defCrosswise L.deform.kind L.deform.metric X X (ofNats idx) nn with
  | error e => rw [hC] at h; cases h
  | ok C =>
  cases hP : defPairwise L.deform.kind L.deform.metric X nn with
  | error e => simp only [hC, hP] at h; cases h
  | ok P =>
  cases hZ : Y.take nn with
  | error e => simp only [hC, hP, hZ] at h; cases h
  | ok Z =>
  cases hT : Y.take (ofNats idx) with
  | error e => simp only [hC, hP, hZ, hT] at h; cases h
  | ok T =>
  simp only [hC, hP, hZ, hT, bind, Except.bind, pure, Except.pure] at h
  rw [← Except.ok.inj h]
  unfold Tensor.take at hT hZ
  rw [hY] at hT hZ
  simp only at hT hZ
  constructor
  · split at hT
    · rw [← Except.ok.inj hT]; rfl
    · cases hT
  · split at hZ
    · rw [← Except.ok.inj hZ, hnn]; rfl
    · cases hZ

theorem column_ok {d : TrainData} {b n r c : Nat} (h1 : d.targets.shape = [b, r]) (h2 : d.nnTargets.shape = [b, n, r]) (hc : c < r) :
    ∃ dc, d.column n c = .ok dc := by
  unfold TrainData.column
  simp only [columnOf, sliceLast, h1, h2, hc, if_true, bind, Except.bind, pure, Except.pure]
  simp [Tensor.reshape]

/-- One batch, one kind of tensors: the run of `make_multivariate_regressor`. -/
theorem multiRegressor_run (bs : Flt → ℝ → ℝ) (opt : Learner → TrainData → Res Learner) (draw : List Nat)
    (sd : Nat → List (List Nat)) (bc : Int) (w : NNWrapper) (Ls : List Learner)
    (hn : ∀ L ∈ Ls, L.noise ≠ .null) (hfree : ∃ L ∈ Ls, L.Free) (hsame : SameTensors Ls)
    (Y : Tensor ℝ) (hY : Y.shape = [w.N, Ls.length]) (idx : List Nat) (nn : Tensor Int)
    (hb : sampleBatch w bc w.N draw = .ok (idx, nn)) (hnn : nn.shape = [idx.length, w.nnCount])
    (d : TrainData) (hd : ∀ L ∈ Ls, L.trainData (idx, nn) w.train Y = .ok d) :
    d.nnTargets.shape = [idx.length, w.nnCount, Ls.length] ∧
    makeMultiRegressor bs opt draw sd bc w Ls Y = (trainEach opt d w.nnCount Ls).bind fun Ls' =>
      multiLearnScale bs sd d.pairwise d.nnTargets Ls' := by
  obtain ⟨L₀, hL₀, hf⟩ := hfree
  have hfx := (multiFixed_eq Ls hn).2 ⟨L₀, hL₀, hf⟩
  have hshape := (trainData_shapes hY hnn (hd L₀ hL₀)).2
  refine ⟨hshape, ?_⟩
  unfold makeMultiRegressor
  rw [hY]
  simp only
  rw [if_neg (by simp), hfx]
  simp only [bind, Except.bind, Bool.false_eq_true, if_false, hb]
  have hm : multiTrainData Ls (idx, nn) w.train Y = .ok d := by
    cases Ls with
    | nil => cases hL₀
    | cons L Ls => exact hd L List.mem_cons_self
  rw [hm]

theorem trainEach_spec {opt : Learner → TrainData → Res Learner} {d : TrainData} {n : Nat} {Ls Ls1 : List Learner}
    (hn : ∀ L ∈ Ls, L.noise ≠ .null) (h : trainEach opt d n Ls = .ok Ls1) :
    Ls1.length = Ls.length ∧ ∀ c L, Ls[c]? = some L → ∃ L1, Ls1[c]? = some L1 ∧
      ((L.AllFixed ∧ L1 = L) ∨ (L.Free ∧ ∃ dc, d.column n c = .ok dc ∧ opt L dc = .ok L1)) := by
  obtain ⟨h1, h2⟩ := mapM_zipIdx_get _ _ 0 _ h
  refine ⟨h1, fun c L hc => ?_⟩
  obtain ⟨L1, e1, e2⟩ := h2 c L hc
  refine ⟨L1, e1, ?_⟩
  have hn0 := hn L (List.mem_of_getElem? hc)
  by_cases hf : L.Free
  · refine .inr ⟨hf, ?_⟩
    simp only [fixed_of_free hn0 hf, bind, Except.bind, Bool.false_eq_true, if_false, Nat.zero_add] at e2
    cases hd : d.column n c with
    | error e => rw [hd] at e2; cases e2
    | ok dc => rw [hd] at e2; exact ⟨dc, rfl, e2⟩
  · have hx := (not_free_iff L).mp hf
    refine .inl ⟨hx, ?_⟩
    simp only [fixed_of_params hn0 hx, bind, Except.bind, if_true, pure, Except.pure] at e2
    exact (Except.ok.inj e2).symm

/-- The neighbours' responses `optimize_scale` passes to model `c`. -/
theorem column_slices {d dc : TrainData} {n c : Nat} (h : d.column n c = .ok dc) :
    dc.pairwise = d.pairwise ∧ ∃ y1, sliceLast d.nnTargets c = .ok y1 ∧ y1.reshape [y1.shape.headD 0, n, 1] = .ok dc.nnTargets := by
  unfold TrainData.column at h
  cases h1 : columnOf d.targets c with
  | error e => rw [h1] at h; cases h
  | ok t =>
  cases h2 : sliceLast d.nnTargets c with
  | error e => simp only [h1, h2] at h; cases h
  | ok y1 =>
  cases h3 : y1.reshape [y1.shape.headD 0, n, 1] with
  | error e => simp only [h1, h2, h3, bind, Except.bind] at h; cases h
  | ok y2 =>
  simp only [h1, h2, h3, bind, Except.bind, pure, Except.pure] at h
  obtain rfl := Except.ok.inj h
  exact ⟨rfl, y1, rfl, h3⟩

/-- Training alone: `make_regressor` on a drawn batch. -/
theorem makeRegressor_run (bs : Flt → ℝ → ℝ) (opt : Learner → TrainData → Res Learner) (draw : List Nat) (sd : List (List Nat))
    (bc : Int) (w : NNWrapper) (L : Learner) (hn : L.noise ≠ .null) (hfree : L.Free) (Y : Tensor ℝ)
    (batch : List Nat × Tensor Int) (hb : sampleBatch w bc w.N draw = .ok batch) :
    makeRegressor bs opt draw sd bc w L Y = (L.trainData batch w.train Y).bind fun d => (opt L d).bind fun L' =>
      L'.optimizeScale bs sd d.pairwise d.nnTargets := by
  unfold makeRegressor
  rw [fixed_of_free hn hfree]
  simp only [bind, Except.bind, Bool.false_eq_true, if_false, hb]

/-- **C64**, training one model per response: the models are trained independently of each other. If the models agree on the
kind of difference tensors, every returned model with a free hyperparameter is the model `make_regressor` returns for it when it
is given that response alone (`L'.make`: up to the variance scale its variance function has captured, see `C64_variance_fails`),
for the same batch. The answers of the optimiser are kept; only the variance scale is estimated anew — also for models without
free hyperparameters, from the same batch. -/
theorem C64_alone (bs : Flt → ℝ → ℝ) (opt : Learner → TrainData → Res Learner) (draw : List Nat) (sd : Nat → List (List Nat))
    (bc : Nat) (hbc : 0 < bc) (w : NNWrapper) (hw : w.Exact) (hdraw : bc < w.N → IsDraw w.N bc draw) (hN : 0 < w.N)
    (hkN : w.nnCount + 1 ≤ w.N) (Ls Ls' : List Learner) (hn : ∀ L ∈ Ls, L.noise ≠ .null) (hfree : ∃ L ∈ Ls, L.Free)
    (hsame : SameTensors Ls) (Y : Tensor ℝ) (hY : Y.shape = [w.N, Ls.length])
    (h : makeMultiRegressor bs opt draw sd bc w Ls Y = .ok Ls') :
    Ls'.length = Ls.length ∧ ∃ batch, sampleBatch w bc w.N draw = .ok batch ∧
      ∀ c L, Ls[c]? = some L → ∃ L' L1 s d, Ls'[c]? = some L' ∧ L.trainData batch w.train (responseColumn Y c) = .ok d ∧
        ((L.AllFixed ∧ L1 = L) ∨ (L.Free ∧ opt L d = .ok L1)) ∧
        0 < s ∧ L' = { L1 with scale := s } ∧ (L1.scaleKind = .fixed → s = L1.scale) ∧
        L1.optimizeScale bs (sd c) d.pairwise d.nnTargets = .ok L'.make ∧
        (L.Free → makeRegressor bs opt draw (sd c) bc w L (responseColumn Y c) = .ok L'.make) := by
  obtain ⟨idx, nn, b1, b2, b3, b4, b5, b6⟩ := multi_batch w hw bc hbc draw hdraw hN hkN
  obtain ⟨L₀, hL₀, hf₀⟩ := hfree
  -- the data
  obtain ⟨d, hd⟩ : ∃ d, L₀.trainData (idx, nn) w.train Y = .ok d := by
    cases hd : L₀.trainData (idx, nn) w.train Y with
    | ok d => exact ⟨d, rfl⟩
    | error e =>
      exfalso
      have hm : multiTrainData Ls (idx, nn) w.train Y = .error e := by
        cases Ls with
        | nil => cases hL₀
        | cons L Ls =>
          show L.trainData (idx, nn) w.train Y = _
          rw [trainData_kind (hsame L List.mem_cons_self L₀ hL₀), hd]
      unfold makeMultiRegressor at h
      rw [hY] at h
      simp only at h
      rw [if_neg (by simp), (multiFixed_eq Ls hn).2 ⟨L₀, hL₀, hf₀⟩] at h
      simp only [bind, Except.bind, Bool.false_eq_true, if_false, b1, hm] at h
      cases h
  have hdall : ∀ L ∈ Ls, L.trainData (idx, nn) w.train Y = .ok d := fun L hL => by
    rw [trainData_kind (hsame L hL L₀ hL₀), hd]
  obtain ⟨hshape, hrun⟩ := multiRegressor_run bs opt draw sd bc w Ls hn ⟨L₀, hL₀, hf₀⟩ hsame Y hY idx nn b1 b5 d hdall
  rw [hrun] at h
  cases ht : trainEach opt d w.nnCount Ls with
  | error e => rw [ht] at h; cases h
  | ok Ls1 =>
  rw [ht] at h
  obtain ⟨t1, t2⟩ := trainEach_spec hn ht
  have h' : multiLearnScale bs sd d.pairwise d.nnTargets Ls1 = .ok Ls' := h
  unfold multiLearnScale at h'
  rw [hshape] at h'
  simp only at h'
  rw [if_neg (by rw [t1]; simp)] at h'
  obtain ⟨s1, s2⟩ := mapM_zipIdx_get _ _ 0 _ h'
  refine ⟨by rw [s1, t1], (idx, nn), b1, fun c L hc => ?_⟩
  have hLm := List.mem_of_getElem? hc
  have hcr : c < Ls.length := (List.getElem?_eq_some_iff.mp hc).1
  obtain ⟨L1, u1, u2⟩ := t2 c L hc
  obtain ⟨L', v1, v2⟩ := s2 c L1 u1
  rw [Nat.zero_add] at v2
  have hcol := trainData_column L idx nn w.train Y w.N Ls.length c w.nnCount hY hcr b5
  rw [hdall L hLm] at hcol
  obtain ⟨s, w1, w2, w3⟩ := scaleOnly_spec v2
  obtain ⟨q1, q2⟩ := trainData_shapes hY b5 (hdall L hLm)
  obtain ⟨dc, hdc⟩ := column_ok q1 q2 hcr
  have hcol' : L.trainData (idx, nn) w.train (responseColumn Y c) = .ok dc := hcol.trans hdc
  obtain ⟨p1, y1, p2, p3⟩ := column_slices hdc
  have hsc : L1.optimizeScale bs (sd c) dc.pairwise dc.nnTargets = .ok L'.make := by
    rw [p1, scaleOnly_make bs (sd c) w.nnCount c d.pairwise d.nnTargets y1 dc.nnTargets L1 p2 p3, v2]
    rfl
  have hcase : (L.AllFixed ∧ L1 = L) ∨ (L.Free ∧ opt L dc = .ok L1) := by
    rcases u2 with u | ⟨uf, dc', e1, e2⟩
    · exact .inl u
    · rw [hdc] at e1
      obtain rfl := Except.ok.inj e1
      exact .inr ⟨uf, e2⟩
  refine ⟨L', L1, s, dc, v1, hcol', hcase, w1, w2, w3, hsc, fun hfr => ?_⟩
  rcases hcase with ⟨hx, _⟩ | ⟨_, ho⟩
  · exact absurd hfr ((not_free_iff L).mpr hx)
  · rw [makeRegressor_run bs opt draw (sd c) bc w L (hn L hLm) hfr (responseColumn Y c) (idx, nn) b1, hcol']
    show (opt L dc).bind _ = _
    rw [ho]
    exact hsc

/-- C64, the converse: if every model has a free hyperparameter and each of them can be trained alone on its response, then
together they can. With `C64_alone` the result is the list of the models trained alone (up to the captured scales). -/
theorem C64_alone_converse (bs : Flt → ℝ → ℝ) (opt : Learner → TrainData → Res Learner) (draw : List Nat) (sd : Nat → List (List Nat))
    (bc : Nat) (hbc : 0 < bc) (w : NNWrapper) (hw : w.Exact) (hdraw : bc < w.N → IsDraw w.N bc draw) (hN : 0 < w.N)
    (hkN : w.nnCount + 1 ≤ w.N) (Ls : List Learner) (hne : Ls ≠ []) (hn : ∀ L ∈ Ls, L.noise ≠ .null) (hfree : ∀ L ∈ Ls, L.Free)
    (hsame : SameTensors Ls) (Y : Tensor ℝ) (hY : Y.shape = [w.N, Ls.length])
    (h : ∀ c L, Ls[c]? = some L → ∃ A, makeRegressor bs opt draw (sd c) bc w L (responseColumn Y c) = .ok A) :
    ∃ Ls', makeMultiRegressor bs opt draw sd bc w Ls Y = .ok Ls' := by
  obtain ⟨idx, nn, b1, b2, b3, b4, b5, b6⟩ := multi_batch w hw bc hbc draw hdraw hN hkN
  obtain ⟨L₀, rest, rfl⟩ := List.exists_cons_of_ne_nil hne
  have hL₀ : L₀ ∈ L₀ :: rest := List.mem_cons_self
  have hrunc : ∀ c L, (L₀ :: rest)[c]? = some L → ∃ d, L.trainData (idx, nn) w.train Y = .ok d ∧ ∃ dc L1 A,
      d.column w.nnCount c = .ok dc ∧ opt L dc = .ok L1 ∧ L1.optimizeScale bs (sd c) dc.pairwise dc.nnTargets = .ok A := by
    intro c L hc
    have hLm := List.mem_of_getElem? hc
    obtain ⟨A, hA⟩ := h c L hc
    rw [makeRegressor_run bs opt draw (sd c) bc w L (hn L hLm) (hfree L hLm) _ (idx, nn) b1,
      trainData_column L idx nn w.train Y w.N _ c w.nnCount hY (List.getElem?_eq_some_iff.mp hc).1 b5] at hA
    cases hd : L.trainData (idx, nn) w.train Y with
    | error e => rw [hd] at hA; cases hA
    | ok d =>
    simp only [hd, Except.bind] at hA
    cases hdc : d.column w.nnCount c with
    | error e => rw [hdc] at hA; cases hA
    | ok dc =>
    simp only [hdc] at hA
    cases ho : opt L dc with
    | error e => rw [ho] at hA; cases hA
    | ok L1 =>
    simp only [ho] at hA
    exact ⟨d, rfl, dc, L1, A, hdc, ho, hA⟩
  obtain ⟨d, hd, -⟩ := hrunc 0 L₀ rfl
  have hdall : ∀ L ∈ L₀ :: rest, L.trainData (idx, nn) w.train Y = .ok d := fun L hL => by
    rw [trainData_kind (hsame L hL L₀ hL₀), hd]
  obtain ⟨hshape, hrun⟩ := multiRegressor_run bs opt draw sd bc w _ hn ⟨L₀, hL₀, hfree L₀ hL₀⟩ hsame Y hY idx nn b1 b5 d hdall
  have hrunc' : ∀ c L, (L₀ :: rest)[c]? = some L → ∃ dc L1 A,
      d.column w.nnCount c = .ok dc ∧ opt L dc = .ok L1 ∧ L1.optimizeScale bs (sd c) dc.pairwise dc.nnTargets = .ok A := by
    intro c L hc
    obtain ⟨d', e1, e2⟩ := hrunc c L hc
    rw [hdall L (List.mem_of_getElem? hc)] at e1
    obtain rfl := Except.ok.inj e1
    exact e2
  obtain ⟨Ls1, ht⟩ : ∃ Ls1, trainEach opt d w.nnCount (L₀ :: rest) = .ok Ls1 := by
    refine mapM_zipIdx_of _ _ 0 fun c L hc => ?_
    obtain ⟨dc, L1, A, e1, e2, e3⟩ := hrunc' c L hc
    have hLm := List.mem_of_getElem? hc
    refine ⟨L1, ?_⟩
    simp only [fixed_of_free (hn L hLm) (hfree L hLm), bind, Except.bind, Bool.false_eq_true, if_false, Nat.zero_add, e1, e2]
  obtain ⟨t1, t2⟩ := trainEach_spec hn ht
  rw [hrun, ht]
  show ∃ Ls', multiLearnScale bs sd d.pairwise d.nnTargets Ls1 = .ok Ls'
  unfold multiLearnScale
  rw [hshape]
  simp only
  rw [if_neg (by rw [t1]; simp)]
  refine mapM_zipIdx_of _ _ 0 fun c L1 hc => ?_
  have hcl : c < (L₀ :: rest).length := by rw [← t1]; exact (List.getElem?_eq_some_iff.mp hc).1
  obtain ⟨L1', e1, e2⟩ := t2 c _ (List.getElem?_eq_getElem hcl)
  rw [hc] at e1
  obtain rfl := Option.some.inj e1
  obtain ⟨dc, L2, A, f1, f2, f3⟩ := hrunc' c _ (List.getElem?_eq_getElem hcl)
  rcases e2 with ⟨hx, _⟩ | ⟨_, dc', g1, g2⟩
  · exact absurd (hfree _ (List.getElem_mem hcl)) ((not_free_iff _).mpr hx)
  rw [f1] at g1
  obtain rfl := Except.ok.inj g1
  rw [f2] at g2
  obtain rfl := Except.ok.inj g2
  obtain ⟨p1, y1, p2, p3⟩ := column_slices f1
  rw [p1, scaleOnly_make bs (sd c) w.nnCount c d.pairwise d.nnTargets y1 dc.nnTargets L2 p2 p3] at f3
  rw [Nat.zero_add]
  cases hs : L2.scaleOnly bs (sd c) w.nnCount d.pairwise d.nnTargets c with
  | error e => rw [hs] at f3; cases f3
  | ok L3 => exact ⟨L3, rfl⟩

/-! ## The estimated scales -/

/-- The scale estimated from responses of shape `(N, 1)`. -/
theorem optimizeScale_table (bs : Flt → ℝ → ℝ) (sd : List (List Nat)) (w : NNWrapper) (hw : w.Exact) (L L1 : Learner)
    (hk1 : L1.trainee.R.kernel.make = L1.trainee.R.kernel) (hkind : L1.deform.kind = L.deform.kind)
    (hmetric : L1.deform.metric = L.deform.metric) (hsk : L1.scaleKind = .fixed ∨ L1.scaleKind = .analytic 1)
    (Z : Tensor ℝ) (hZ : Z.shape = [w.N, 1]) (idx : List Nat) (nn : Tensor Int) (hi : ∀ x ∈ idx, x < w.N)
    (hnn : nn.shape = [idx.length, w.nnCount]) (hv : AllValid w.N nn)
    (d : TrainData) (hd : L.trainData (idx, nn) w.train Z = .ok d)
    (len : Fin w.f → ℝ) (hlen : L1.deform.HasLengths w.f len) (hν : L1.trainee.R.gp.noise.Fits idx.length w.nnCount)
    (hdet : ∀ p < idx.length, (nbrCov bs L1.trainee.R.kernel len w.train w.N w.nnCount nn p
      + L1.trainee.R.gp.noise.mat w.nnCount p).det ≠ 0) :
    L1.optimizeScale bs sd d.pairwise d.nnTargets =
      if L1.estimateOn bs len w.train Z w.N w.nnCount idx.length nn ≤ 0 then .error .value
      else .ok ({ L1 with scale := L1.estimateOn bs len w.train Z w.N w.nnCount idx.length nn } : Learner).make := by
  obtain ⟨D, K, k1, k2, k3, k4⟩ := kernel_pairwise bs L1.trainee.R.kernel hk1 w.train nn w.N w.f idx.length w.nnCount len hlen
    (.inl hw.1) hnn hv
  have hP : L.deform.pairwise w.train nn = .ok D := by
    have : L1.deform.pairwise w.train nn = .ok D := k1
    unfold Deform.pairwise at this ⊢
    rwa [hkind, hmetric] at this
  obtain ⟨C, hC⟩ : ∃ C, L.deform.crosswise w.train w.train (ofNats idx) nn = .ok C := by
    obtain ⟨C, _, c1, _⟩ := crosswise_entries L1.deform w.train w.train (ofNats idx) nn w.N w.N w.f idx.length w.nnCount len hlen
      (.inl hw.1) (.inl hw.1) rfl rfl hnn (ofNats_valid hi) hv
    refine ⟨C, ?_⟩
    unfold Deform.crosswise at c1 ⊢
    rwa [hkind, hmetric] at c1
  obtain ⟨d', d1, d2, _, _, d5, _, d7⟩ := trainData_ok L idx nn w.train Z w.N w.f w.nnCount 1 hw.1 (.inl hZ) hnn hi hv ⟨D, hP⟩ ⟨C, hC⟩
  obtain rfl : d = d' := Except.ok.inj (hd.symm.trans d1)
  have hD : D = d.pairwise := Except.ok.inj (hP.symm.trans d2)
  subst hD
  have d5' : d.nnTargets.shape = [idx.length, w.nnCount, 1] := by rw [d5, hZ]; rfl
  set s := L1.estimateOn bs len w.train Z w.N w.nnCount idx.length nn with hs0
  have hy : d.nnTargets = ⟨[idx.length, w.nnCount, 1], d.nnTargets.flat⟩ := by rw [← d5']
  have hvec : ∀ p < idx.length, Spec.vec w.nnCount (⟨[idx.length, w.nnCount], d.nnTargets.flat⟩ : Tensor ℝ) p =
      nbrTargets Z w.N w.nnCount nn p 0 := fun p hp => by
    funext j
    have := d7 p hp j j.2 0 (by omega)
    rw [Nat.mul_one, Nat.add_zero] at this
    rw [Spec.vec, Tensor.get2 (⟨[idx.length, w.nnCount], d.nnTargets.flat⟩ : Tensor ℝ) rfl]
    exact this
  have hs : scaleOptFn L1.scaleKind L1.trainee.R.gp sd K d.nnTargets [] = .ok (some s) := by
    rw [hy, scaleOptFn_axis]
    rcases hsk with h | h
    · simp only [scaleOptFn, h, hs0, Learner.estimateOn]; rfl
    · simp only [scaleOptFn, h, hs0, Learner.estimateOn]
      have := (C33_documented_formula L1.trainee.R.gp.noise idx.length w.nnCount hν K
        (⟨[idx.length, w.nnCount], d.nnTargets.flat⟩ : Tensor ℝ) k3 rfl).1 (fun p hp => by rw [k4 p hp]; exact hdet p hp)
      rw [this, scaleEstimate_congr (fun p hp => by rw [k4 p hp]) hvec]
      rfl
  unfold Learner.optimizeScale
  simp only [k2, hs, bind, Except.bind, pure, Except.pure]

/-- **C64**, the scales: the scale of each returned model is the documented estimate from its own response at the neighbours of
the batch, under the hyperparameters of that model (its own scale if that is fixed). -/
theorem C64_scale (bs : Flt → ℝ → ℝ) (opt : Learner → TrainData → Res Learner) (draw : List Nat) (sd : Nat → List (List Nat))
    (bc : Nat) (hbc : 0 < bc) (w : NNWrapper) (hw : w.Exact) (hdraw : bc < w.N → IsDraw w.N bc draw) (hN : 0 < w.N)
    (hkN : w.nnCount + 1 ≤ w.N) (Ls Ls' : List Learner) (hn : ∀ L ∈ Ls, L.noise ≠ .null) (hfree : ∃ L ∈ Ls, L.Free)
    (hsame : SameTensors Ls) (Y : Tensor ℝ) (hY : Y.shape = [w.N, Ls.length])
    (h : makeMultiRegressor bs opt draw sd bc w Ls Y = .ok Ls') :
    ∃ idx nn, sampleBatch w bc w.N draw = .ok (idx, nn) ∧
      ∀ (k : Nat) (L L' : Learner), Ls[k]? = some L → Ls'[k]? = some L' →
        L'.make.fn = L'.fn → L'.deform.kind = L.deform.kind → L'.deform.metric = L.deform.metric →
        (L'.scaleKind = .fixed ∨ L'.scaleKind = .analytic 1) → ∀ len : Fin w.f → ℝ, L'.deform.HasLengths w.f len →
        L'.trainee.R.gp.noise.Fits idx.length w.nnCount →
        (∀ p < idx.length, (nbrCov bs L'.trainee.R.kernel len w.train w.N w.nnCount nn p
          + L'.trainee.R.gp.noise.mat w.nnCount p).det ≠ 0) →
        0 < L'.scale ∧ L'.scale = L'.estimateOn bs len w.train (responseColumn Y k) w.N w.nnCount idx.length nn := by
  obtain ⟨idx, nn, b1, b2, b3, b4, b5, b6⟩ := multi_batch w hw bc hbc draw hdraw hN hkN
  obtain ⟨-, batch, c1, c2⟩ := C64_alone bs opt draw sd bc hbc w hw hdraw hN hkN Ls Ls' hn hfree hsame Y hY h
  obtain rfl := Except.ok.inj (b1.symm.trans c1)
  refine ⟨idx, nn, b1, ?_⟩
  intro k L L' hL hL' hfn hkind hmetric hsk len hlen hν hdet
  obtain ⟨L'', L1, s, d, e1, e2, e3, e4, e5, e6, e7, -⟩ := c2 k L hL
  rw [hL'] at e1
  obtain rfl := Option.some.inj e1
  have hsc : L'.scale = s := by rw [e5]
  refine ⟨by rw [hsc]; exact e4, ?_⟩
  have hker : L1.trainee.R.kernel = L'.trainee.R.kernel := by rw [e5]; rfl
  have hker' : L'.trainee.R.kernel.make = L'.trainee.R.kernel := congrArg (KernelObj.mk L'.deform L'.kernel.smoothness) hfn
  have hno : L1.trainee.R.gp.noise = L'.trainee.R.gp.noise := by rw [e5]; rfl
  have hdef : L1.deform = L'.deform := by rw [e5]; rfl
  have hskk : L1.scaleKind = L'.scaleKind := by rw [e5]
  have hopt := optimizeScale_table bs (sd k) w hw L L1 (by rw [hker]; exact hker') (by rw [hdef]; exact hkind)
    (by rw [hdef]; exact hmetric) (by rw [hskk]; exact hsk) (responseColumn Y k) (responseColumn_get Y w.N _ k hY 0).1 idx nn b4 b5 b6
    d e2 len (by rw [hdef]; exact hlen) (by rw [hno]; exact hν) (by rw [hker, hno]; exact hdet)
  rw [e7] at hopt
  split at hopt
  · cases hopt
  · have hx := congrArg Learner.scale (Except.ok.inj hopt)
    have hx' : L'.scale = L1.estimateOn bs len w.train (responseColumn Y k) w.N w.nnCount idx.length nn := hx
    unfold Learner.estimateOn at hx' ⊢
    rw [hskk] at hx'
    rcases hsk with hf | hf
    · rw [hf]
    · rw [hf] at hx' ⊢
      simp only at hx' ⊢
      rw [hx', hker, hno]

/-- **C64**, training succeeds: if every model has a free hyperparameter and the optimiser's answers have suitable kernels and
noise and an estimated scale, training succeeds whenever every response is non-zero at some neighbour of the batch. -/
theorem C64_training_succeeds (bs : Flt → ℝ → ℝ) (opt : Learner → TrainData → Res Learner) (draw : List Nat)
    (sd : Nat → List (List Nat)) (bc : Nat) (hbc : 0 < bc) (w : NNWrapper) (hw : w.Exact) (hdraw : bc < w.N → IsDraw w.N bc draw)
    (hN : 0 < w.N) (hk0 : 0 < w.nnCount) (hkN : w.nnCount + 1 ≤ w.N) (Ls : List Learner) (hne : Ls ≠ [])
    (hn : ∀ L ∈ Ls, L.noise ≠ .null) (hfree : ∀ L ∈ Ls, L.Free) (hsame : SameTensors Ls)
    (Y : Tensor ℝ) (hY : Y.shape = [w.N, Ls.length])
    (hopt : ∀ L ∈ Ls, ∀ d, ∃ L1, opt L d = .ok L1 ∧ L1.Made ∧ L1.deform.kind = L.deform.kind ∧ L1.deform.metric = L.deform.metric ∧
      L1.scaleKind = .analytic 1 ∧ (∃ len : Fin w.f → ℝ, L1.deform.HasLengths w.f len) ∧ ∀ b, L1.Usable w b) :
    ∃ idx nn, sampleBatch w bc w.N draw = .ok (idx, nn) ∧
      ((∀ c < Ls.length, ∃ p < idx.length, ∃ j < w.nnCount, Y.get [pointOf w.N (nn.get [p, j]), c] ≠ 0) →
        ∃ Ls', makeMultiRegressor bs opt draw sd bc w Ls Y = .ok Ls') := by
  obtain ⟨idx, nn, b1, b2, b3, b4, b5, b6⟩ := multi_batch w hw bc hbc draw hdraw hN hkN
  refine ⟨idx, nn, b1, fun hnz => ?_⟩
  refine C64_alone_converse bs opt draw sd bc hbc w hw hdraw hN hkN Ls hne hn hfree hsame Y hY fun c L hc => ?_
  have hLm := List.mem_of_getElem? hc
  have hcl := (List.getElem?_eq_some_iff.mp hc).1
  obtain ⟨hZ, -⟩ := responseColumn_get Y w.N Ls.length c hY 0
  -- the data
  obtain ⟨A1, -, -, a3, a4, -, ⟨lenA, a6⟩, -⟩ := hopt L hLm ⟨Y, Y, Y, Y⟩
  obtain ⟨P, _, p1, _⟩ := pairwise_entries A1.deform w.train nn w.N w.f idx.length w.nnCount lenA a6 (.inl hw.1) b5 b6
  obtain ⟨C, _, q1, _⟩ := crosswise_entries A1.deform w.train w.train (ofNats idx) nn w.N w.N w.f idx.length w.nnCount lenA a6
    (.inl hw.1) (.inl hw.1) rfl rfl b5 (ofNats_valid b4) b6
  unfold Deform.pairwise at p1
  unfold Deform.crosswise at q1
  rw [a3, a4] at p1 q1
  obtain ⟨d, d1, -⟩ := trainData_ok L idx nn w.train (responseColumn Y c) w.N w.f w.nnCount 1 hw.1 (.inl hZ) b5 b4 b6
    ⟨P, p1⟩ ⟨C, q1⟩
  obtain ⟨L1, o1, o2, o3, o4, o5, ⟨len, o6⟩, o7⟩ := hopt L hLm d
  obtain ⟨idx', nn', c1, -, -, -, -, -, c2⟩ := C42_batch w hw bc hbc hN draw hdraw hkN
  rw [b1] at c1
  obtain ⟨rfl, rfl⟩ := Prod.mk.inj (Except.ok.inj c1)
  have hpd : ∀ p < idx.length, (nbrCov bs L1.trainee.R.kernel len w.train w.N w.nnCount nn p
      + L1.trainee.R.gp.noise.mat w.nnCount p).PosDef := fun p hp => by
    have hdef := nbrCov_definite bs L1.trainee.R.kernel (o7 idx.length).2.1 len (hasLengths_pos o6) w.train w.N w.nnCount nn p
    obtain ⟨l, l1, l2, l3, l4, l5⟩ := c2 p idx[p] (List.getElem?_eq_getElem hp)
    exact Noise.posdef_of_suffices ((o7 idx.length).2.2.2.mono fun h => distinct_of_nodup l1 l3 l4 h) hp hdef.1 hdef.2
  have hsc := optimizeScale_table bs (sd c) w hw L L1 (made_kernel o2) o3 o4 (.inr o5) (responseColumn Y c) hZ idx nn b4 b5 b6 d d1
    len o6 (o7 _).2.2.1 fun p hp => Kriging.det_ne_zero (hpd p hp)
  have hb : 0 < idx.length := by rw [b2]; exact lt_min hbc hN
  obtain ⟨s1, s2⟩ := estimate_sign hk0 hb hpd fun p => nbrTargets (responseColumn Y c) w.N w.nnCount nn p 0
  have hest : L1.estimateOn bs len w.train (responseColumn Y c) w.N w.nnCount idx.length nn = Spec.scaleEstimate idx.length
      (fun p => nbrCov bs L1.trainee.R.kernel len w.train w.N w.nnCount nn p + L1.trainee.R.gp.noise.mat w.nnCount p)
      (fun p => nbrTargets (responseColumn Y c) w.N w.nnCount nn p 0) := by
    unfold Learner.estimateOn; rw [o5]
  rw [← hest] at s1 s2
  obtain ⟨p, hp, j, hj, hne'⟩ := hnz c hcl
  have hs0 : L1.estimateOn bs len w.train (responseColumn Y c) w.N w.nnCount idx.length nn ≠ 0 := fun h0 => by
    have := congrFun (s2.mp h0 p hp) ⟨j, hj⟩
    simp only [nbrTargets, feature, hZ] at this
    rw [(responseColumn_get Y w.N _ c hY _).2] at this
    exact hne' this
  have hs := lt_of_le_of_ne s1 hs0.symm
  rw [if_neg (not_le.mpr hs)] at hsc
  refine ⟨({ L1 with scale := L1.estimateOn bs len w.train (responseColumn Y c) w.N w.nnCount idx.length nn } : Learner).make, ?_⟩
  rw [makeRegressor_run bs opt draw (sd c) bc w L (hn L hLm) (hfree L hLm) (responseColumn Y c) (idx, nn) b1, d1]
  show (opt L d).bind _ = _
  rw [o1]
  exact hsc

/-! ## Prediction -/

theorem hasLengths_unique {df : Deform} {f : Nat} {len len' : Fin f → ℝ} (h : df.HasLengths f len) (h' : df.HasLengths f len') :
    len = len' := by
  have inj : ∀ {a b : ℝ}, Flt.fin a = Flt.fin b → a = b := fun e => EReal.coe_injective (Option.some.inj e)
  cases df with
  | isotropy m p =>
    obtain ⟨l, _, h2, h3⟩ := h
    obtain ⟨l', _, h2', h3'⟩ := h'
    funext c
    rw [h3, h3', inj (h2.symm.trans h2')]
  | difference m p =>
    obtain ⟨l, _, h2, h3⟩ := h
    obtain ⟨l', _, h2', h3'⟩ := h'
    funext c
    rw [h3, h3', inj (h2.symm.trans h2')]
  | anisotropy m ps =>
    funext c
    have hc : (c : Nat) < ps.length := by rw [h.1]; exact c.2
    exact inj (((h.2 c).2 _ (List.getElem?_eq_getElem hc)).symm.trans ((h'.2 c).2 _ (List.getElem?_eq_getElem hc)))

/-- The means with one model per response. -/
theorem multiMean_ok (bs : Flt → ℝ → ℝ) (Ls : List Learner) (hne : Ls ≠ []) (hsame : SameTensors Ls)
    (hk : ∀ L ∈ Ls, L.trainee.R.kernel.make = L.trainee.R.kernel) (Q X Y : Tensor ℝ) (idx nn : Tensor Int) (M N f b n : Nat)
    (hbn : n ≠ 1 ∨ b = 1) (len : Learner → Fin f → ℝ) (hlen : ∀ L ∈ Ls, L.deform.HasLengths f (len L))
    (hQ : IsTable Q M f) (hX : IsTable X N f) (hY : Y.shape = [N, Ls.length]) (hrank : Q.shape.length = X.shape.length)
    (hi : idx.shape = [b]) (hnn : nn.shape = [b, n]) (hvi : AllValid M idx) (hv : AllValid N nn)
    (hν : ∀ L ∈ Ls, L.trainee.R.gp.noise.Fits b n)
    (hinv : ∀ L ∈ Ls, ∀ p < b, (nbrCov bs L.trainee.R.kernel (len L) X N n nn p + L.trainee.R.gp.noise.mat n p).det ≠ 0) :
    ∃ μ v, multiRegressFromIndices bs (Ls.map Learner.trainee) idx nn Q X Y = .ok (μ, v) ∧
      multiMeanFromIndices bs (Ls.map Learner.trainee) idx nn Q X Y = .ok μ ∧
      μ.shape = [b, Ls.length] ∧ v.shape = [b, Ls.length] ∧
      ∀ c L, Ls[c]? = some L → ∀ p < b,
        μ.get [p, c] = Spec.krigingMean (nbrCov bs L.trainee.R.kernel (len L) X N n nn p + L.trainee.R.gp.noise.mat n p)
          (nbrCross bs L.trainee.R.kernel (len L) X N n nn p (pt Q f (pointOf M (idx.get [p])))) (nbrTargets Y N n nn p c) ∧
        v.get [p, c] = L.scale * (L.boundScale *
          Spec.krigingVar 1 (nbrCov bs L.trainee.R.kernel (len L) X N n nn p + L.trainee.R.gp.noise.mat n p)
            (nbrCross bs L.trainee.R.kernel (len L) X N n nn p (pt Q f (pointOf M (idx.get [p]))))) := by
  obtain ⟨L₀, rest, rfl⟩ := List.exists_cons_of_ne_nil hne
  have hmem : ∀ T ∈ (L₀ :: rest).map Learner.trainee, ∃ L ∈ L₀ :: rest, L.trainee = T := fun T hT => List.mem_map.mp hT
  let inv : Trainee → Fin f → ℝ := fun T => by
    classical
    exact if hT : ∃ L ∈ L₀ :: rest, L.trainee = T then len hT.choose else fun _ => 1
  have hdef : ∀ L ∈ L₀ :: rest, L.deform.HasLengths f (inv L.trainee) := by
    intro L hL
    have hT : ∃ L' ∈ L₀ :: rest, L'.trainee = L.trainee := ⟨L, hL, rfl⟩
    have e : L.deform = hT.choose.deform := by
      have := congrArg (fun T => T.R.kernel.deform) hT.choose_spec.2
      exact this.symm
    rw [e]
    simp only [inv, dif_pos hT]
    exact hlen _ hT.choose_spec.1
  have hlenEq : ∀ L ∈ L₀ :: rest, inv L.trainee = len L := fun L hL => hasLengths_unique (hdef L hL) (hlen L hL)
  obtain ⟨μ, v, r1, r2, r3, r4⟩ := C54_multi_output_partial bs L₀.trainee ((L₀ :: rest).map Learner.trainee) rfl
    (by
      intro T hT
      obtain ⟨L, hL, rfl⟩ := hmem T hT
      exact hsame L hL L₀ List.mem_cons_self)
    (by
      intro T hT
      obtain ⟨L, hL, rfl⟩ := hmem T hT
      exact hk L hL)
    (by
      intro T hT
      obtain ⟨L, hL, rfl⟩ := hmem T hT
      rfl)
    Q X Y idx nn M N f b n hbn inv
    (by
      intro T hT
      obtain ⟨L, hL, rfl⟩ := hmem T hT
      exact hdef L hL)
    hQ hX (by rw [hY]; simp) hrank hi hnn hvi hv
    (by
      intro T hT
      obtain ⟨L, hL, rfl⟩ := hmem T hT
      exact hν L hL)
    (by
      intro T hT
      obtain ⟨L, hL, rfl⟩ := hmem T hT
      rw [hlenEq L hL]
      exact hinv L hL)
  refine ⟨μ, v, r1, ?_, by simpa using r2, by simpa using r3, fun c L hc p hpm => ?_⟩
  · unfold multiRegressFromIndices at r1
    unfold multiMeanFromIndices
    cases ht : multiPredictTensors ((L₀ :: rest).map Learner.trainee) idx nn Q X Y with
    | error e => rw [ht] at r1; cases r1
    | ok t =>
    simp only [ht, bind, Except.bind] at r1 ⊢
    cases hμ : multiPosteriorMean bs ((L₀ :: rest).map Learner.trainee) t.2.1 t.1 t.2.2 with
    | error e => rw [hμ] at r1; cases r1
    | ok μ' =>
    simp only [hμ] at r1
    cases hv' : multiPosteriorVariance bs ((L₀ :: rest).map Learner.trainee) t.2.1 t.1 with
    | error e => rw [hv'] at r1; cases r1
    | ok v' =>
    simp only [hv', pure, Except.pure] at r1
    rw [(Prod.mk.inj (Except.ok.inj r1)).1]
  · have := r4 c L.trainee (by rw [List.getElem?_map, hc]; rfl) p hpm
    rw [hlenEq L (List.mem_of_getElem? hc)] at this
    exact this

/-- What `regress_any` computes with one model per response. -/
theorem regressAnyModel_ok (bs : Flt → ℝ → ℝ) (Ls : List Learner) (hne : Ls ≠ []) (hsame : SameTensors Ls)
    (hk : ∀ L ∈ Ls, L.trainee.R.kernel.make = L.trainee.R.kernel) (w : NNWrapper) (hw : w.Exact) (Q Y : Tensor ℝ) (m : Nat)
    (len : Learner → Fin w.f → ℝ) (hlen : ∀ L ∈ Ls, L.deform.HasLengths w.f (len L))
    (hQ : Q.shape = [m, w.f]) (hY : Y.shape = [w.N, Ls.length]) (hm : 0 < m) (hk0 : 0 < w.nnCount) (hk1 : w.nnCount ≠ 1 ∨ m = 1)
    (hkN : w.nnCount ≤ w.N) (hν : ∀ L ∈ Ls, L.trainee.R.gp.noise.Fits m w.nnCount) :
    ∃ nn : Tensor Int,
      (∀ i < m, ∃ l : List Nat, rowList nn w.nnCount i = l.map Int.ofNat ∧
        Nearest (· < w.N) (fun j => w.dist (rowPt Q w.f i) (rowPt w.train w.f j)) w.nnCount l) ∧
      ((∀ L ∈ Ls, ∀ p < m,
          (nbrCov bs L.trainee.R.kernel (len L) w.train w.N w.nnCount nn p + L.trainee.R.gp.noise.mat w.nnCount p).det ≠ 0) →
        ∃ μ v, regressAnyModel bs (.multi Ls) w Q w.train Y = .ok (μ, v) ∧ μ.shape = [m, Ls.length] ∧ v.shape = [m, Ls.length] ∧
          ∀ c L, Ls[c]? = some L → ∀ p < m,
            μ.get [p, c] = Spec.krigingMean
              (nbrCov bs L.trainee.R.kernel (len L) w.train w.N w.nnCount nn p + L.trainee.R.gp.noise.mat w.nnCount p)
              (nbrCross bs L.trainee.R.kernel (len L) w.train w.N w.nnCount nn p (rowPt Q w.f p))
              (nbrTargets Y w.N w.nnCount nn p c) ∧
            v.get [p, c] = L.scale * (L.boundScale * Spec.krigingVar 1
              (nbrCov bs L.trainee.R.kernel (len L) w.train w.N w.nnCount nn p + L.trainee.R.gp.noise.mat w.nnCount p)
              (nbrCross bs L.trainee.R.kernel (len L) w.train w.N w.nnCount nn p (rowPt Q w.f p)))) := by
  obtain ⟨I, D, h1, h2, h3, h4, h5⟩ := C41_plain w hw Q m hQ hm hk0 hkN
  refine ⟨I, h4, fun hinv => ?_⟩
  have hv : AllValid w.N I := valid_of_rows h2 fun i hi j hj => by
    obtain ⟨l, e1, e2⟩ := h4 i hi
    obtain ⟨x, x1, x2⟩ := rowList_get e1 hj
    exact ⟨x, x2, e2.mem x (List.mem_of_getElem? x1)⟩
  have hp : ∀ p, pt Q w.f (pointOf m ((arange m).get [p])) = rowPt Q w.f p := by
    intro p
    rw [arange_get, pointOf_nat]
    funext c
    simp only [pt, feature, hQ, rowPt]
  obtain ⟨μ, v, r1, -, r2, r3, r4⟩ := multiMean_ok bs Ls hne hsame hk Q w.train Y (arange m) I m w.N w.f m w.nnCount hk1 len hlen
    (.inl hQ) (.inl hw.1) hY (by rw [hQ, hw.1]; rfl) rfl h2 (arange_valid m) hv hν hinv
  refine ⟨μ, v, ?_, r2, r3, fun c L hc p hpm => ?_⟩
  · unfold regressAnyModel
    rw [hQ]
    simp only [h1, bind, Except.bind, r1]
  · have := r4 c L hc p hpm
    rw [hp] at this
    exact this

/-- The neighbourhood matrices of a usable model are invertible. -/
theorem usable_regular (bs : Flt → ℝ → ℝ) {L : Learner} {w : NNWrapper} {m : Nat} (hu : L.Usable w m) {len : Fin w.f → ℝ}
    (hlen : L.deform.HasLengths w.f len) (nn : Tensor Int)
    (hnn : ∀ i < m, ∃ l : List Nat, rowList nn w.nnCount i = l.map Int.ofNat ∧ l.Nodup ∧ ∀ x ∈ l, x < w.N) :
    ∀ p < m, (nbrCov bs L.trainee.R.kernel len w.train w.N w.nnCount nn p + L.trainee.R.gp.noise.mat w.nnCount p).det ≠ 0 :=
  nbr_regular bs L.trainee.R hu.2.1 len hlen w.train w.N w.nnCount m nn hnn hu.2.2.2

theorem usable_make {L : Learner} {w : NNWrapper} {m : Nat} (hu : L.Usable w m) :
    L.trainee.R.kernel.make = L.trainee.R.kernel := by
  have h : L.make.fn = L.fn := hu.1
  exact congrArg (KernelObj.mk L.deform L.kernel.smoothness) h

/-- **C64**, `do_regress` with one model per response: it returns the models `make_multivariate_regressor` returns, and column
`c` of the means is the kriging mean of model `c` for response `c` from the `nn_count` nearest training points of each test point.
The variances are the kriging variances times the scale of the model times the scale its variance function has captured. -/
theorem C64_do_regress (bs : Flt → ℝ → ℝ) (opt : Learner → TrainData → Res Learner) (draw : List Nat) (sd : Nat → List (List Nat))
    (bc : Int) (w : NNWrapper) (hw : w.Exact) (Ls Ls' : List Learner) (Q Y : Tensor ℝ)
    (h : makeMultiRegressor bs opt draw sd bc w Ls Y = .ok Ls') (hne : Ls' ≠ []) (hsame : SameTensors Ls')
    (m : Nat) (hu : ∀ L ∈ Ls', L.Usable w m) (len : Learner → Fin w.f → ℝ) (hlen : ∀ L ∈ Ls', L.deform.HasLengths w.f (len L))
    (hQ : Q.shape = [m, w.f]) (hY : Y.shape = [w.N, Ls'.length]) (hm : 0 < m) (hk0 : 0 < w.nnCount) (hk1 : w.nnCount ≠ 1 ∨ m = 1)
    (hkN : w.nnCount ≤ w.N) :
    ∃ nn μ v, (∀ i < m, ∃ l : List Nat, rowList nn w.nnCount i = l.map Int.ofNat ∧
        Nearest (· < w.N) (fun j => w.dist (rowPt Q w.f i) (rowPt w.train w.f j)) w.nnCount l) ∧
      doRegressModel bs opt draw sd bc w (.list Ls) Q Y = .ok (.multi Ls', μ, v) ∧
      μ.shape = [m, Ls'.length] ∧ v.shape = [m, Ls'.length] ∧
      ∀ c L, Ls'[c]? = some L → ∀ p < m,
        μ.get [p, c] = Spec.krigingMean
          (nbrCov bs L.trainee.R.kernel (len L) w.train w.N w.nnCount nn p + L.trainee.R.gp.noise.mat w.nnCount p)
          (nbrCross bs L.trainee.R.kernel (len L) w.train w.N w.nnCount nn p (rowPt Q w.f p))
          (nbrTargets Y w.N w.nnCount nn p c) ∧
        v.get [p, c] = L.scale * (L.boundScale * Spec.krigingVar 1
          (nbrCov bs L.trainee.R.kernel (len L) w.train w.N w.nnCount nn p + L.trainee.R.gp.noise.mat w.nnCount p)
          (nbrCross bs L.trainee.R.kernel (len L) w.train w.N w.nnCount nn p (rowPt Q w.f p))) ∧
        0 ≤ Spec.krigingVar 1
          (nbrCov bs L.trainee.R.kernel (len L) w.train w.N w.nnCount nn p + L.trainee.R.gp.noise.mat w.nnCount p)
          (nbrCross bs L.trainee.R.kernel (len L) w.train w.N w.nnCount nn p (rowPt Q w.f p)) ∧
        ((L.trainee.R.gp.noise.mat w.nnCount p).PosDef → 0 < Spec.krigingVar 1
          (nbrCov bs L.trainee.R.kernel (len L) w.train w.N w.nnCount nn p + L.trainee.R.gp.noise.mat w.nnCount p)
          (nbrCross bs L.trainee.R.kernel (len L) w.train w.N w.nnCount nn p (rowPt Q w.f p))) := by
  obtain ⟨nn, h1, h2⟩ := regressAnyModel_ok bs Ls' hne hsame (fun L hL => usable_make (hu L hL)) w hw Q Y m len hlen hQ hY hm hk0 hk1
    hkN (fun L hL => (hu L hL).2.2.1)
  have hnn : ∀ i < m, ∃ l : List Nat, rowList nn w.nnCount i = l.map Int.ofNat ∧ l.Nodup ∧ ∀ x ∈ l, x < w.N := fun i hi => by
    obtain ⟨l, e1, e2⟩ := h1 i hi
    exact ⟨l, e1, e2.nodup, e2.mem⟩
  obtain ⟨μ, v, r1, r2, r3, r4⟩ := h2 fun L hL => usable_regular bs (hu L hL) (hlen L hL) nn hnn
  refine ⟨nn, μ, v, h1, ?_, r2, r3, fun c L hc p hp => ?_⟩
  · unfold doRegressModel decideRegressor
    simp only [h]
    simp only [bind, Except.bind, pure, Except.pure, r1]
  · have hL := List.mem_of_getElem? hc
    obtain ⟨l, e1, e2⟩ := h1 p hp
    have hv := nbr_variance bs L.trainee.R.kernel (hu L hL).2.1 (len L) (hasLengths_pos (hlen L hL)) w.train w.N w.nnCount nn p m hp
      (rowPt Q w.f p) L.trainee.R.gp.noise ((hu L hL).2.2.2.mono fun hd => distinct_of_nodup e1 e2.nodup e2.mem hd)
    exact ⟨(r4 c L hc p hp).1, (r4 c L hc p hp).2, hv.1, hv.2.2.2.1 hk0⟩

/-- What the variance function of a trained model has captured: the scale the model had before training. -/
theorem C64_captured (bs : Flt → ℝ → ℝ) (opt : Learner → TrainData → Res Learner) (draw : List Nat) (sd : Nat → List (List Nat))
    (bc : Nat) (hbc : 0 < bc) (w : NNWrapper) (hw : w.Exact) (hdraw : bc < w.N → IsDraw w.N bc draw) (hN : 0 < w.N)
    (hkN : w.nnCount + 1 ≤ w.N) (Ls Ls' : List Learner) (hn : ∀ L ∈ Ls, L.noise ≠ .null) (hfree : ∃ L ∈ Ls, L.Free)
    (hsame : SameTensors Ls) (Y : Tensor ℝ) (hY : Y.shape = [w.N, Ls.length])
    (hmade : ∀ L ∈ Ls, L.boundScale = L.scale) (hopt : ∀ L ∈ Ls, ∀ d L1, opt L d = .ok L1 → L1.boundScale = L.scale)
    (h : makeMultiRegressor bs opt draw sd bc w Ls Y = .ok Ls') :
    ∀ (c : Nat) (L : Learner), Ls[c]? = some L → ∃ L' : Learner, Ls'[c]? = some L' ∧ L'.boundScale = L.scale := by
  obtain ⟨_, batch, _, h2⟩ := C64_alone bs opt draw sd bc hbc w hw hdraw hN hkN Ls Ls' hn hfree hsame Y hY h
  intro c L hc
  obtain ⟨L', L1, s, d, e1, e2, e3, e4, e5, -⟩ := h2 c L hc
  have hL := List.mem_of_getElem? hc
  refine ⟨L', e1, ?_⟩
  rw [e5]
  show L1.boundScale = _
  rcases e3 with ⟨_, rfl⟩ | ⟨_, ho⟩
  · exact hmade _ hL
  · exact hopt _ hL d L1 ho

/-- The optimisers of the library return models whose variance function has captured the scale of the model they were given. -/
theorem C64_optimisers_capture (env : Env) (order : KeyOrder) (bs : Flt → ℝ → ℝ)
    (minimizer : (List Flt → Res (Option ℝ)) → List Flt → List (Flt × Flt) → Res (List Flt)) (src : Opt.Source (List Flt))
    (init nIter : Option Nat) (l : LossKind) (draws : List (List Nat)) (L L1 : Learner) (d : TrainData) :
    (scipyLearn env bs minimizer L l draws d = .ok L1 → L1.boundScale = L.scale ∧ L1.scale = L.scale ∧ L1.Made) ∧
    (bayesLearn env order bs src init nIter L l draws d = .ok L1 → L1.boundScale = L.scale ∧ L1.scale = L.scale ∧ L1.Made) := by
  have hnew : ∀ names bounds kw, newLearner env L names bounds kw = .ok L1 →
      L1.boundScale = L.scale ∧ L1.scale = L.scale ∧ L1.Made := by
    intro names bounds kw h
    unfold newLearner at h
    cases hg : newMuygps env L.gp names bounds kw with
    | error e => rw [hg] at h; cases h
    | ok g =>
      rw [hg] at h
      have h' : (Except.ok ({ L with kernel := g.kernel, noise := g.noise } : Learner).make : Res Learner) = .ok L1 := h
      rw [← Except.ok.inj h']
      exact ⟨rfl, rfl, rfl⟩
  constructor
  · intro h
    unfold scipyLearn at h
    cases ho : L.gp.getOptParams with
    | error e => rw [ho] at h; cases h
    | ok o =>
    simp only [ho, bind, Except.bind] at h
    split at h
    · cases h
    · split at h
      · cases h
      · exact hnew _ _ _ h
  · intro h
    unfold bayesLearn at h
    cases ho : L.gp.getOptParams with
    | error e => rw [ho] at h; cases h
    | ok o =>
    simp only [ho, bind, Except.bind] at h
    split at h
    · cases h
    · exact hnew _ _ _ h

/-- **C64**, the variances: if the models were built with scale 1 (the default), the variances `do_regress` returns are the
kriging variances times the estimated scales.
Partial: false for any other initial scale (`C64_variance_fails`). -/
theorem C64_variance_partial (bs : Flt → ℝ → ℝ) (opt : Learner → TrainData → Res Learner) (draw : List Nat)
    (sd : Nat → List (List Nat)) (bc : Nat) (hbc : 0 < bc) (w : NNWrapper) (hw : w.Exact) (hdraw : bc < w.N → IsDraw w.N bc draw)
    (hN : 0 < w.N) (hkN : w.nnCount + 1 ≤ w.N) (Ls Ls' : List Learner) (hn : ∀ L ∈ Ls, L.noise ≠ .null) (hfree : ∃ L ∈ Ls, L.Free)
    (hsame : SameTensors Ls) (Q Y : Tensor ℝ) (hY : Y.shape = [w.N, Ls.length])
    (hone : ∀ L ∈ Ls, L.scale = 1) (hmade : ∀ L ∈ Ls, L.boundScale = L.scale)
    (hopt : ∀ L ∈ Ls, ∀ d L1, opt L d = .ok L1 → L1.boundScale = L.scale)
    (h : makeMultiRegressor bs opt draw sd bc w Ls Y = .ok Ls') (hne : Ls' ≠ []) (hsame' : SameTensors Ls')
    (m : Nat) (hu : ∀ L ∈ Ls', L.Usable w m) (len : Learner → Fin w.f → ℝ) (hlen : ∀ L ∈ Ls', L.deform.HasLengths w.f (len L))
    (hQ : Q.shape = [m, w.f]) (hm : 0 < m) (hk0 : 0 < w.nnCount) (hk1 : w.nnCount ≠ 1 ∨ m = 1) :
    ∃ nn μ v, (∀ i < m, ∃ l : List Nat, rowList nn w.nnCount i = l.map Int.ofNat ∧
        Nearest (· < w.N) (fun j => w.dist (rowPt Q w.f i) (rowPt w.train w.f j)) w.nnCount l) ∧
      doRegressModel bs opt draw sd bc w (.list Ls) Q Y = .ok (.multi Ls', μ, v) ∧
      ∀ c L, Ls'[c]? = some L → ∀ p < m,
        v.get [p, c] = L.scale * Spec.krigingVar 1
          (nbrCov bs L.trainee.R.kernel (len L) w.train w.N w.nnCount nn p + L.trainee.R.gp.noise.mat w.nnCount p)
          (nbrCross bs L.trainee.R.kernel (len L) w.train w.N w.nnCount nn p (rowPt Q w.f p)) := by
  have hlen' := (C64_alone bs opt draw sd bc hbc w hw hdraw hN hkN Ls Ls' hn hfree hsame Y hY h).1
  have hcap := C64_captured bs opt draw sd bc hbc w hw hdraw hN hkN Ls Ls' hn hfree hsame Y hY hmade hopt h
  obtain ⟨nn, μ, v, h1, h2, h3, h4, h5⟩ := C64_do_regress bs opt draw sd bc w hw Ls Ls' Q Y h hne hsame' m hu len hlen hQ
    (by rw [hlen']; exact hY) hm hk0 hk1 (by omega)
  refine ⟨nn, μ, v, h1, h2, fun c L hc p hp => ?_⟩
  rw [(h5 c L hc p hp).2.1]
  have hcl : c < Ls.length := by rw [← hlen']; exact (List.getElem?_eq_some_iff.mp hc).1
  obtain ⟨L', e1, e2⟩ := hcap c _ (List.getElem?_eq_getElem hcl)
  rw [hc] at e1
  obtain rfl := Option.some.inj e1
  rw [e2, hone _ (List.getElem_mem hcl), one_mul]

/-- C64 fails for the variances of models whose scale is not 1: with positive noise, every variance `do_regress` returns for a
fixed model of scale `s ∉ {0, 1}` is `s²` times the kriging variance instead of `s` times — not what `do_regress` returns for
that model and response alone (`C61_do_regress`). -/
theorem C64_variance_fails (bs : Flt → ℝ → ℝ) (opt : Learner → TrainData → Res Learner) (draw : List Nat) (sd : Nat → List (List Nat))
    (bc : Int) (w : NNWrapper) (hw : w.Exact) (Ls : List Learner) (Q Y : Tensor ℝ) (hn : ∀ L ∈ Ls, L.noise ≠ .null)
    (hfix : ∀ L ∈ Ls, L.AllFixed) (hmade : ∀ L ∈ Ls, L.boundScale = L.scale) (hne : Ls ≠ []) (hsame : SameTensors Ls)
    (m : Nat) (hu : ∀ L ∈ Ls, L.Usable w m) (len : Learner → Fin w.f → ℝ) (hlen : ∀ L ∈ Ls, L.deform.HasLengths w.f (len L))
    (hQ : Q.shape = [m, w.f]) (hY : Y.shape = [w.N, Ls.length]) (hm : 0 < m) (hk0 : 0 < w.nnCount) (hk1 : w.nnCount ≠ 1 ∨ m = 1)
    (hkN : w.nnCount ≤ w.N) :
    ∃ nn μ v, (∀ i < m, ∃ l : List Nat, rowList nn w.nnCount i = l.map Int.ofNat ∧
        Nearest (· < w.N) (fun j => w.dist (rowPt Q w.f i) (rowPt w.train w.f j)) w.nnCount l) ∧
      doRegressModel bs opt draw sd bc w (.list Ls) Q Y = .ok (.multi Ls, μ, v) ∧
      ∀ c L, Ls[c]? = some L → L.scale ≠ 0 → L.scale ≠ 1 → ∀ p < m, (L.trainee.R.gp.noise.mat w.nnCount p).PosDef →
        v.get [p, c] = L.scale ^ 2 * Spec.krigingVar 1
          (nbrCov bs L.trainee.R.kernel (len L) w.train w.N w.nnCount nn p + L.trainee.R.gp.noise.mat w.nnCount p)
          (nbrCross bs L.trainee.R.kernel (len L) w.train w.N w.nnCount nn p (rowPt Q w.f p)) ∧
        v.get [p, c] ≠ L.scale * Spec.krigingVar 1
          (nbrCov bs L.trainee.R.kernel (len L) w.train w.N w.nnCount nn p + L.trainee.R.gp.noise.mat w.nnCount p)
          (nbrCross bs L.trainee.R.kernel (len L) w.train w.N w.nnCount nn p (rowPt Q w.f p)) := by
  have h := (C64_fixed bs opt draw sd [] bc w Ls hn hfix Y w.N hY).1
  obtain ⟨nn, μ, v, h1, h2, -, -, h5⟩ := C64_do_regress bs opt draw sd bc w hw Ls Ls Q Y h hne hsame m hu len hlen hQ hY hm hk0 hk1 hkN
  refine ⟨nn, μ, v, h1, h2, fun c L hc hs0 hs1 p hp hpd => ?_⟩
  obtain ⟨-, hv, -, hpos⟩ := h5 c L hc p hp
  have hk := hpos hpd
  rw [hmade L (List.mem_of_getElem? hc)] at hv
  refine ⟨by rw [hv]; ring, fun heq => ?_⟩
  rw [hv] at heq
  have := mul_left_cancel₀ hs0 heq
  exact hs1 (mul_right_cancel₀ hk.ne' (by rw [this, one_mul]))

/-! ## Classification -/

/-- **C64**, training a classifier with one model per class: one balanced batch is drawn for the classes of the points; each
model with a free hyperparameter is the optimiser's answer for that model and its own column of the label vectors on that batch —
the data it would get alone; models without free hyperparameters come back as they were. No variance scale is estimated. -/
theorem C64_make_classifier (opt : Learner → TrainData → Res Learner) (cd : List (List Nat)) (bc : Int) (w : NNWrapper)
    (hw : w.Exact) (Ls Ls' : List Learner) (hn : ∀ L ∈ Ls, L.noise ≠ .null) (hfree : ∃ L ∈ Ls, L.Free) (hsame : SameTensors Ls)
    (labels : Tensor ℝ) (hl : labels.shape = [w.N, Ls.length]) (hk0 : 0 < w.nnCount) (hkN : w.nnCount + 1 ≤ w.N)
    (h : makeMultiClassifier opt cd bc w Ls labels = .ok Ls') :
    ∃ classes : Tensor ℝ, classes.shape = [w.N] ∧
      (∀ i < w.N, ∃ k : Nat, classes.get [i] = k ∧ IsFirstMax (fun j => labels.get [i, j]) Ls.length k) ∧
      ∃ batch, getBalancedBatch w classes bc cd = .ok batch ∧ Ls'.length = Ls.length ∧
      ∀ c L, Ls[c]? = some L → ∃ L' d, Ls'[c]? = some L' ∧ L.trainData batch w.train (responseColumn labels c) = .ok d ∧
        ((L.AllFixed ∧ L' = L) ∨ (L.Free ∧ opt L d = .ok L')) := by
  obtain ⟨L₀, hL₀, hf₀⟩ := hfree
  have hpos : 0 < Ls.length := List.length_pos_of_mem hL₀
  obtain ⟨c, c1, c2, c3, c4⟩ := classLabels_ok labels w.N Ls.length hl hpos
  refine ⟨c, c2, c4, ?_⟩
  unfold makeMultiClassifier at h
  rw [hl] at h
  simp only at h
  rw [if_neg (by simp), (multiFixed_eq Ls hn).2 ⟨L₀, hL₀, hf₀⟩] at h
  simp only [bind, Except.bind, Bool.false_eq_true, if_false, c1] at h
  cases hb : getBalancedBatch w c bc cd with
  | error e => rw [hb] at h; cases h
  | ok batch =>
  simp only [hb] at h
  obtain ⟨idx, nn⟩ := batch
  obtain ⟨b1, b2, b3, -⟩ := balanced_valid w hw hk0 hkN c c2 bc cd idx nn hb
  refine ⟨(idx, nn), rfl, ?_⟩
  cases hd : multiTrainData Ls (idx, nn) w.train labels with
  | error e => rw [hd] at h; cases h
  | ok d =>
  simp only [hd] at h
  obtain ⟨t1, t2⟩ := trainEach_spec hn h
  refine ⟨t1, fun k L hk => ?_⟩
  have hLm := List.mem_of_getElem? hk
  have hkl := (List.getElem?_eq_some_iff.mp hk).1
  have hdL : L.trainData (idx, nn) w.train labels = .ok d := by
    cases Ls with
    | nil => cases hL₀
    | cons A As =>
      rw [trainData_kind (hsame L hLm A List.mem_cons_self)]
      exact hd
  obtain ⟨q1, q2⟩ := trainData_shapes hl b2 hdL
  obtain ⟨dc, hdc⟩ := column_ok q1 q2 hkl
  obtain ⟨L', e1, e2⟩ := t2 k L hk
  refine ⟨L', dc, e1, ?_, ?_⟩
  · rw [trainData_column L idx nn w.train labels w.N Ls.length k w.nnCount hl hkl b2, hdL]
    exact hdc
  · rcases e2 with e | ⟨ef, dc', g1, g2⟩
    · exact .inl e
    · rw [hdc] at g1
      obtain rfl := Except.ok.inj g1
      exact .inr ⟨ef, g2⟩

/-- C64, training a classifier succeeds when a batch can be drawn and the optimiser answers. -/
theorem C64_classifier_converse (opt : Learner → TrainData → Res Learner) (cd : List (List Nat)) (bc : Int) (w : NNWrapper)
    (hw : w.Exact) (Ls : List Learner) (hn : ∀ L ∈ Ls, L.noise ≠ .null) (hfree : ∃ L ∈ Ls, L.Free)
    (hlen : ∀ L ∈ Ls, ∃ len : Fin w.f → ℝ, L.deform.HasLengths w.f len)
    (labels : Tensor ℝ) (hl : labels.shape = [w.N, Ls.length]) (hk0 : 0 < w.nnCount) (hkN : w.nnCount + 1 ≤ w.N)
    (hopt : ∀ L ∈ Ls, L.Free → ∀ d, ∃ L1, opt L d = .ok L1) :
    ∃ classes : Tensor ℝ, classes.shape = [w.N] ∧
      (∀ i < w.N, ∃ k : Nat, classes.get [i] = k ∧ IsFirstMax (fun j => labels.get [i, j]) Ls.length k) ∧
      (∀ e, getBalancedBatch w classes bc cd = .error e → makeMultiClassifier opt cd bc w Ls labels = .error e) ∧
      ∀ batch, getBalancedBatch w classes bc cd = .ok batch → ∃ Ls', makeMultiClassifier opt cd bc w Ls labels = .ok Ls' := by
  obtain ⟨L₀, hL₀, hf₀⟩ := hfree
  have hpos : 0 < Ls.length := List.length_pos_of_mem hL₀
  obtain ⟨c, c1, c2, c3, c4⟩ := classLabels_ok labels w.N Ls.length hl hpos
  have hrun : makeMultiClassifier opt cd bc w Ls labels = (getBalancedBatch w c bc cd).bind fun batch =>
      (multiTrainData Ls batch w.train labels).bind fun d => trainEach opt d w.nnCount Ls := by
    unfold makeMultiClassifier
    rw [hl]
    simp only
    rw [if_neg (by simp), (multiFixed_eq Ls hn).2 ⟨L₀, hL₀, hf₀⟩]
    simp only [bind, Except.bind, Bool.false_eq_true, if_false, c1]
  refine ⟨c, c2, c4, fun e he => by rw [hrun, he]; rfl, ?_⟩
  rintro ⟨idx, nn⟩ hb
  obtain ⟨b1, b2, b3, -⟩ := balanced_valid w hw hk0 hkN c c2 bc cd idx nn hb
  obtain ⟨A, As, rfl⟩ := List.exists_cons_of_ne_nil (List.ne_nil_of_length_pos hpos)
  obtain ⟨len, hlen⟩ := hlen A List.mem_cons_self
  obtain ⟨P, _, p1, _⟩ := pairwise_entries A.deform w.train nn w.N w.f idx.length w.nnCount len hlen (.inl hw.1) b2 b3
  obtain ⟨C, _, q1, _⟩ := crosswise_entries A.deform w.train w.train (ofNats idx) nn w.N w.N w.f idx.length w.nnCount len hlen
    (.inl hw.1) (.inl hw.1) rfl rfl b2 (ofNats_valid b1) b3
  obtain ⟨d, d1, -⟩ := trainData_ok A idx nn w.train labels w.N w.f w.nnCount _ hw.1 (.inl hl) b2 b1 b3 ⟨P, p1⟩ ⟨C, q1⟩
  obtain ⟨g1, g2⟩ := trainData_shapes hl b2 d1
  rw [hrun, hb]
  show ∃ Ls', (A.trainData (idx, nn) w.train labels).bind _ = .ok Ls'
  rw [d1]
  refine mapM_zipIdx_of _ _ 0 fun k L hk => ?_
  have hLm := List.mem_of_getElem? hk
  by_cases hf : L.Free
  · obtain ⟨dc, hdc⟩ := column_ok g1 g2 (List.getElem?_eq_some_iff.mp hk).1
    obtain ⟨L1, ho⟩ := hopt L hLm hf dc
    exact ⟨L1, by simp only [fixed_of_free (hn L hLm) hf, bind, Except.bind, Bool.false_eq_true, if_false, Nat.zero_add, hdc, ho]⟩
  · exact ⟨L, by simp only [fixed_of_params (hn L hLm) ((not_free_iff L).mp hf), bind, Except.bind, if_true, pure, Except.pure]⟩

/-- **C64**, `do_classify` with one model per class: it returns the models `make_multivariate_classifier` returns; a test point
whose neighbours' label vectors all start alike gets the label vector of its nearest neighbour, any other gets in column `c` the
kriging mean of model `c`. (Unlike for a single model, the number of classes may equal the number of neighbours.) -/
theorem C64_do_classify (bs : Flt → ℝ → ℝ) (opt : Learner → TrainData → Res Learner) (cd : List (List Nat)) (bc : Int)
    (w : NNWrapper) (hw : w.Exact) (Ls Ls' : List Learner) (test labels : Tensor ℝ)
    (h : makeMultiClassifier opt cd bc w Ls labels = .ok Ls') (hne : Ls' ≠ []) (hsame : SameTensors Ls') (m : Nat)
    (hu : ∀ L ∈ Ls', ∀ b, L.Usable w b) (len : Learner → Fin w.f → ℝ) (hlen : ∀ L ∈ Ls', L.deform.HasLengths w.f (len L))
    (ht : test.shape = [m, w.f]) (hl : labels.shape = [w.N, Ls'.length]) (hm : 0 < m) (hk0 : 0 < w.nnCount) (hkN : w.nnCount ≤ w.N) :
    ∃ (nn : Tensor Int) (P : Tensor ℝ),
      (∀ i < m, ∃ l : List Nat, rowList nn w.nnCount i = l.map Int.ofNat ∧
        Nearest (· < w.N) (fun j => w.dist (rowPt test w.f i) (rowPt w.train w.f j)) w.nnCount l) ∧
      doClassifyModel bs opt cd bc w (.list Ls) test labels = .ok (.multi Ls', P) ∧ P.shape = [m, Ls'.length] ∧ ∀ p < m,
        (¬ FirstMixed labels nn w.nnCount p → ∀ c < Ls'.length, P.get [p, c] = nbrLabel labels nn p 0 c) ∧
        (FirstMixed labels nn w.nnCount p → ∀ c L, Ls'[c]? = some L → P.get [p, c] = Spec.krigingMean
          (nbrCov bs L.trainee.R.kernel (len L) w.train w.N w.nnCount nn p + L.trainee.R.gp.noise.mat w.nnCount p)
          (nbrCross bs L.trainee.R.kernel (len L) w.train w.N w.nnCount nn p (rowPt test w.f p))
          (nbrTargets labels w.N w.nnCount nn p c)) := by
  have hpos : 0 < Ls'.length := List.length_pos_of_ne_nil hne
  obtain ⟨I, D, h1, h2, h3, idx, i1, i2, i3, h4⟩ := classifyAny_ok
    (fun idx nn => multiMeanFromIndices bs (Ls'.map Learner.trainee) idx nn test w.train labels) w hw test labels m Ls'.length ht hl
    hpos hm hk0 hkN
  have hnn : ∀ i < m, ∃ l : List Nat, rowList I w.nnCount i = l.map Int.ofNat ∧ l.Nodup ∧ ∀ x ∈ l, x < w.N := fun i hi => by
    obtain ⟨l, e1, e2⟩ := h3 i hi
    exact ⟨l, e1, e2.nodup, e2.mem⟩
  have hsel : ∀ q x, idx[q]? = some x → ∀ j < w.nnCount, (selectRows I w.nnCount idx).get [q, j] = I.get [x, j] :=
    fun q x hq j hj => selectRows_get I w.nnCount idx q x hq j hj
  have hlt : ∀ p ∈ idx, p < m := fun p hp => ((i1 p).mp hp).1
  have hfin : ∀ P, classifyAny (fun idx nn => multiMeanFromIndices bs (Ls'.map Learner.trainee) idx nn test w.train labels) w test
      labels = .ok P → doClassifyModel bs opt cd bc w (.list Ls) test labels = .ok (.multi Ls', P) := fun P hP => by
    unfold doClassifyModel decideClassifier
    simp only [h, bind, Except.bind, pure, Except.pure, hP]
  by_cases hk1 : w.nnCount = 1
  · -- a single neighbour: no test point has mixed neighbours
    have hnil : idx = [] := by
      rw [List.eq_nil_iff_forall_not_mem]
      intro p hp
      obtain ⟨j, hj, j', hj', hd⟩ := ((i1 p).mp hp).2
      rw [hk1] at hj hj'
      obtain rfl : j = j' := by omega
      exact hd rfl
    obtain ⟨P, p1, p2, p3⟩ := h4 ⟨[], fun _ => 0⟩ fun hx => absurd hnil hx
    refine ⟨I, P, h3, hfin P p1, p2, fun p hp => ⟨(p3 p hp).1, fun hM => ?_⟩⟩
    have := (i1 p).mpr ⟨hp, hM⟩
    rw [hnil] at this
    cases this
  have hfits : ∀ L ∈ Ls', ∀ b, L.trainee.R.gp.noise.Fits b w.nnCount := fun L hL b => (hu L hL b).2.2.1
  obtain ⟨μ, v, -, m1, m2, -, m3⟩ := multiMean_ok bs Ls' hne hsame (fun L hL => usable_make (hu L hL m)) test w.train labels (ofNats idx)
    (selectRows I w.nnCount idx) m w.N w.f idx.length w.nnCount (.inl hk1) len hlen (.inl ht) (.inl hw.1) hl
    (by rw [ht, hw.1]; rfl) rfl rfl (ofNats_valid hlt) (selectRows_valid (nearest_nat h3) hlt) (fun L hL => hfits L hL _)
    (fun L hL q hq => by
      obtain ⟨a, -, -⟩ := nbr_congr bs L.trainee.R.kernel (len L) w.train labels w.N w.nnCount _ I q idx[q]
        (hsel q _ (List.getElem?_eq_getElem hq))
      rw [a, Noise.mat_indep (hfits L hL) q idx[q]]
      exact usable_regular bs (hu L hL m) (hlen L hL) I hnn _ (hlt _ (List.getElem_mem _)))
  obtain ⟨P, p1, p2, p3⟩ := h4 μ fun _ => ⟨m1, m2⟩
  refine ⟨I, P, h3, hfin P p1, p2, fun p hp => ⟨(p3 p hp).1, fun hM c L hc => ?_⟩⟩
  rw [(p3 p hp).2 hM c (List.getElem?_eq_some_iff.mp hc).1]
  have hpi := i2 p ((i1 p).mpr ⟨hp, hM⟩)
  have hq : idx.idxOf p < idx.length := (List.getElem?_eq_some_iff.mp hpi).1
  obtain ⟨a, b, d⟩ := nbr_congr bs L.trainee.R.kernel (len L) w.train labels w.N w.nnCount _ I _ p (hsel _ _ hpi)
  rw [(m3 c L hc _ hq).1, a, b, d, Noise.mat_indep (hfits L (List.mem_of_getElem? hc)) _ p, ofNats_get, List.getD_eq_getElem?_getD, hpi,
    Option.getD_some, pointOf_nat, rowPt_pt ht]

end MuyGPyS
