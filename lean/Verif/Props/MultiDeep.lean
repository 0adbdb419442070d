import Verif.Model.MultiDeep
import Verif.Props.DeepKernel
import Verif.Props.MultiWorkflow
import Verif.Props.Always

/-!
# Property C68: deep kernels with one Gaussian process per response
-/

namespace MuyGPyS
namespace Deep
open Py

variable {Θ S : Type}

/-! ### specification -/

/-- The loss of the `k`-th training step as a function of the embedding's parameters, with the neighbours the layer was built with. -/
noncomputable def initialMultiLoss (env : Env Θ S) (loss : Tensor ℝ → Tensor ℝ → Tensor ℝ → Res ℝ) (m : MultiModule Θ)
    (train batchResponses : Tensor ℝ) (k : Nat) (θ : Θ) : Res ℝ := do
  let out ← m.layer.forward env.bessel (env.embed true (m.tick + k) θ train)
  loss out.1 batchResponses out.2

/-- Training of the embedding with the neighbours the layer was built with. -/
noncomputable def initialMultiTraining (env : Env Θ S) (step : S → Θ → (Θ → Res ℝ) → S × Θ)
    (loss : Tensor ℝ → Tensor ℝ → Tensor ℝ → Res ℝ) (m : MultiModule Θ) (train batchResponses : Tensor ℝ) (s : S) : Nat → S × Θ
  | 0 => (s, m.θ)
  | k + 1 =>
    let r := initialMultiTraining env step loss m train batchResponses s k
    step r.1 r.2 (initialMultiLoss env loss m train batchResponses k)

/-- Response `c` of every point, as a vector. -/
def responseVector (Y : Tensor ℝ) (N r c : Nat) : Tensor ℝ := ⟨[N], fun k => Y.flat (k * r + c)⟩

/-- The module with the same embedding and a single Gaussian process. -/
def MultiModule.alone (m : MultiModule Θ) (T : Trainee) : Module Θ :=
  ⟨m.θ, ⟨T.R, m.layer.batch, m.layer.nn, m.layer.targets, m.layer.nnTargets⟩, m.training, none, none, m.tick⟩

/-! ### frame lemmas -/

theorem multiRefresh_frame {env : Env Θ S} {m : MultiModule Θ} {train responses : Tensor ℝ} {batch : Tensor Int} {k : Nat} {w : NNWrapper}
    {m' : MultiModule Θ} (h : multiRefresh env m train responses batch k = .ok (w, m')) :
    m'.θ = m.θ ∧ m'.layer = m.layer ∧ m'.training = m.training ∧ (m.training = false → m'.tick = m.tick) ∧
      env.build (env.embed m.training m.tick m.θ train) k = .ok w := by
  unfold multiRefresh at h
  simp only [bind, Except.bind, pure, Except.pure] at h
  cases h1 : train.take batch with
  | error e => rw [h1] at h; cases h
  | ok bf =>
    rw [h1] at h
    simp only at h
    cases h2 : env.build (m.embedding env train).1 k with
    | error e => rw [h2] at h; cases h
    | ok w' =>
      rw [h2] at h
      simp only at h
      cases h3 : w'.query ((m.embedding env train).2.embedding env bf).1 k with
      | error e => rw [h3] at h; cases h
      | ok q =>
        rw [h3] at h
        simp only at h
        cases h4 : responses.take q.1 with
        | error e => rw [h4] at h; cases h
        | ok t =>
          rw [h4] at h
          simp only [Except.ok.injEq, Prod.mk.injEq] at h
          obtain ⟨rfl, rfl⟩ := h
          unfold MultiModule.embedding at h2 ⊢
          cases ht : m.training <;> simp_all

theorem multiIteration_frame {env : Env Θ S} {step : S → Θ → (Θ → Res ℝ) → S × Θ} {loss : Tensor ℝ → Tensor ℝ → Tensor ℝ → Res ℝ}
    {train responses : Tensor ℝ} {batch : Tensor Int} {br : Tensor ℝ} {k u i : Nat} {m m' : MultiModule Θ} {s s' : S}
    (h : multiIteration env step loss train responses batch br k u (m, s) i = .ok (m', s')) :
    let r := step s m.θ (multiObjective env loss { m with training := true } train br)
    s' = r.1 ∧ m'.θ = r.2 ∧ m'.layer = m.layer ∧ m'.tick = m.tick + 1 ∧ m'.training = (if npMod i u = 0 then false else true) := by
  unfold multiIteration at h
  simp only [bind, Except.bind, pure, Except.pure] at h
  cases h1 : multiObjective env loss { m with training := true } train br m.θ with
  | error e => rw [h1] at h; cases h
  | ok x =>
    rw [h1] at h
    simp only at h
    split at h
    next h0 =>
      split at h
      · cases h
      next v hv =>
        cases h
        obtain ⟨f1, f2, f3, f4, _⟩ := multiRefresh_frame (w := v.1) (m' := v.2) hv
        refine ⟨rfl, f1, f2, f4 rfl, ?_⟩
        rw [if_pos h0]; exact f3
    next h0 =>
      cases h
      refine ⟨rfl, rfl, rfl, rfl, ?_⟩
      rw [if_neg h0]

theorem multiLoop_frame (env : Env Θ S) (step : S → Θ → (Θ → Res ℝ) → S × Θ) (loss : Tensor ℝ → Tensor ℝ → Tensor ℝ → Res ℝ)
    (train responses : Tensor ℝ) (batch : Tensor Int) (br : Tensor ℝ) (k u : Nat) (m : MultiModule Θ) (s : S)
    (T : Nat) (m' : MultiModule Θ) (s' : S)
    (h : (List.range T).foldlM (multiIteration env step loss train responses batch br k u) (m, s) = .ok (m', s')) :
    (s', m'.θ) = initialMultiTraining env step loss m train br s T ∧ m'.layer = m.layer ∧ m'.tick = m.tick + T ∧
      m'.training = (if T = 0 then m.training else if npMod (T - 1) u = 0 then false else true) := by
  induction T generalizing m' s' with
  | zero =>
    simp only [List.range_zero, List.foldlM_nil, pure, Except.pure, Except.ok.injEq, Prod.mk.injEq] at h
    obtain ⟨rfl, rfl⟩ := h
    exact ⟨rfl, rfl, rfl, by simp⟩
  | succ T ih =>
    rw [List.range_succ, List.foldlM_append] at h
    simp only [bind, Except.bind] at h
    cases h1 : (List.range T).foldlM (multiIteration env step loss train responses batch br k u) (m, s) with
    | error e => rw [h1] at h; cases h
    | ok ms =>
      obtain ⟨m1, s1⟩ := ms
      rw [h1] at h
      simp only [List.foldlM_cons, List.foldlM_nil, bind, Except.bind, pure, Except.pure] at h
      cases h2 : multiIteration env step loss train responses batch br k u (m1, s1) T with
      | error e => rw [h2] at h; cases h
      | ok ms =>
        rw [h2] at h
        cases h
        obtain ⟨e1, e3, e4, e5⟩ := ih m1 s1 h1
        obtain ⟨g1, g2, g3, g4, g5⟩ := multiIteration_frame h2
        have hobj : multiObjective env loss { m1 with training := true } train br = initialMultiLoss env loss m train br T := by
          funext p'
          unfold multiObjective initialMultiLoss
          simp only [e3, e4]
        rw [hobj] at g1 g2
        refine ⟨?_, by rw [g3, e3], by rw [g4, e4]; ring, by simpa using g5⟩
        rw [g1, g2]
        unfold initialMultiTraining
        rw [← e1]

theorem trainMultiDeep_parts {env : Env Θ S} {step : S → Θ → (Θ → Res ℝ) → S × Θ} {m m' : MultiModule Θ} {s s' : S}
    {train responses : Tensor ℝ} {batch : Tensor Int} {w w' : NNWrapper} {T u : Nat} {name : String}
    (h : trainMultiDeep env step m s train responses batch w T name u = .ok (w', m', s')) :
    ∃ br loss m1, responses.take batch = .ok br ∧ lossOf env name = .ok loss ∧
      (List.range T).foldlM (multiIteration env step loss train responses batch br w.nnCount u) (m, s) = .ok (m1, s') ∧
      multiRefresh env m1 train responses batch w.nnCount = .ok (w', m') := by
  unfold trainMultiDeep at h
  simp only [bind, Except.bind, pure, Except.pure] at h
  cases h0 : train.take batch with
  | error e => rw [h0] at h; cases h
  | ok bf =>
    rw [h0] at h
    simp only at h
    cases h1 : responses.take batch with
    | error e => rw [h1] at h; cases h
    | ok br =>
      rw [h1] at h
      simp only at h
      cases h2 : lossOf env name with
      | error e => rw [h2] at h; cases h
      | ok loss =>
        rw [h2] at h
        simp only at h
        cases h3 : (List.range T).foldlM (multiIteration env step loss train responses batch br w.nnCount u) (m, s) with
        | error e => rw [h3] at h; cases h
        | ok ms =>
          obtain ⟨m1, s1⟩ := ms
          rw [h3] at h
          simp only at h
          cases h4 : multiRefresh env m1 train responses batch w.nnCount with
          | error e => rw [h4] at h; cases h
          | ok q =>
            rw [h4] at h
            cases h
            exact ⟨br, loss, m1, rfl, rfl, h3, h4⟩

/-! ### C68 -/

/-- **C68 fails of the code**, training: whatever the optimiser, loss, data and number of iterations, the returned layer is the one
passed in: no hyperparameter of any of the models (length scale, noise) is trained, although the layer is documented to train them; and
the refreshed neighbours are not used: the embedding is trained with the loss of the predictions from the initial neighbours, whatever
the update frequency. -/
theorem C68_untrained_fails (env : Env Θ S) (step : S → Θ → (Θ → Res ℝ) → S × Θ) (m m' : MultiModule Θ) (s s' : S)
    (train responses br : Tensor ℝ) (batch : Tensor Int) (w w' : NNWrapper) (T u : Nat) (name : String)
    (loss : Tensor ℝ → Tensor ℝ → Tensor ℝ → Res ℝ) (hl : lossOf env name = .ok loss) (hb : responses.take batch = .ok br)
    (h : trainMultiDeep env step m s train responses batch w T name u = .ok (w', m', s')) :
    m'.layer = m.layer ∧ (s', m'.θ) = initialMultiTraining env step loss m train br s T := by
  obtain ⟨br', loss', m1, h1, h2, h3, h4⟩ := trainMultiDeep_parts h
  rw [hb] at h1; cases h1
  rw [hl] at h2; cases h2
  obtain ⟨f1, f2, f3, f4, f5⟩ := multiRefresh_frame h4
  obtain ⟨g1, g3, g4, g5⟩ := multiLoop_frame env step loss train responses batch br w.nnCount u m s T m1 s' h3
  exact ⟨by rw [f2, g3], by rw [f1, g1]⟩

/-- **C68**, the returned lookup indexes the embedding of the training features under the returned parameters, in the mode the returned
model is in, which is evaluation mode if the last iteration refreshed the neighbours. -/
theorem C68_returned_lookup (env : Env Θ S) (step : S → Θ → (Θ → Res ℝ) → S × Θ) (m m' : MultiModule Θ) (s s' : S)
    (train responses : Tensor ℝ) (batch : Tensor Int) (w w' : NNWrapper) (T u : Nat) (name : String)
    (h : trainMultiDeep env step m s train responses batch w T name u = .ok (w', m', s')) :
    env.build (env.embed m'.training (m.tick + T) m'.θ train) w.nnCount = .ok w' ∧
      (0 < T → (m'.training = false ↔ u = 0 ∨ u ∣ T - 1)) := by
  obtain ⟨br, loss, m1, h1, h2, h3, h4⟩ := trainMultiDeep_parts h
  obtain ⟨f1, f2, f3, f4, f5⟩ := multiRefresh_frame h4
  obtain ⟨g1, g3, g4, g5⟩ := multiLoop_frame env step loss train responses batch br w.nnCount u m s T m1 s' h3
  refine ⟨by rw [f1, f3, ← g4]; exact f5, fun hT => ?_⟩
  rw [f3, g5, if_neg (by omega)]
  unfold npMod
  by_cases hu : u = 0
  · simp [hu]
  · rw [if_neg hu, Nat.dvd_iff_mod_eq_zero]
    by_cases h0 : (T - 1) % u = 0
    · simp [h0]
    · simp [h0, hu]

theorem multiForward_of_regress (bessel : Flt → ℝ → ℝ) (l : MultiLayer) (x y : Tensor ℝ) (out : Tensor ℝ × Tensor ℝ)
    (hy : y.take l.nn = .ok l.nnTargets) (h : multiRegressFromIndices bessel l.models l.batch l.nn x x y = .ok out) :
    l.forward bessel x = .ok out := by
  unfold multiRegressFromIndices multiPredictTensors at h
  unfold MultiLayer.forward
  cases hm : l.models with
  | nil => rw [hm] at h; cases h
  | cons T rest =>
    rw [hm] at h
    unfold makePredictTensors at h
    simp only [Deform.crosswise, Deform.pairwise, bind, Except.bind, pure, Except.pure, Option.getD_some] at h ⊢
    cases h1 : defCrosswise T.R.kernel.deform.kind T.R.kernel.deform.metric x x l.batch l.nn with
    | error e => rw [h1] at h; cases h
    | ok c =>
      rw [h1] at h
      simp only at h ⊢
      cases h2 : defPairwise T.R.kernel.deform.kind T.R.kernel.deform.metric x l.nn with
      | error e => rw [h2] at h; cases h
      | ok p =>
        rw [h2, hy] at h
        simp only at h ⊢
        cases h3 : multiPosteriorMean bessel (T :: rest) p c l.nnTargets with
        | error e => rw [h3] at h; cases h
        | ok μ =>
          rw [h3] at h
          simp only at h
          cases h4 : multiPosteriorVariance bessel (T :: rest) p c with
          | error e => rw [h4] at h; cases h
          | ok v =>
            rw [h4] at h
            exact h

/-- **C68**, the layer: column `c` of a forward pass is the kriging mean in the embedded space, by model `c`, of response `c` of the batch
points from their stored neighbours, with the kriging variance times the scale of the model and times the scale its variance function
has captured. Partial: the factor should be one scale (`C46_variance_fails`), and the models must share the deformation kind and the
metric (`C46_metric_mismatch_fails`). -/
theorem C68_forward_partial (bessel : Flt → ℝ → ℝ) (l : MultiLayer) (T₀ : Trainee) (hhead : l.models.head? = some T₀)
    (hsame : ∀ T ∈ l.models, T.R.kernel.deform.kind = T₀.R.kernel.deform.kind ∧ T.R.kernel.deform.metric = T₀.R.kernel.deform.metric)
    (hk : ∀ T ∈ l.models, T.R.kernel.make = T.R.kernel) (hko : ∀ T ∈ l.models, T.R.gp.kout = KernelObj.kout)
    (X Y : Tensor ℝ) (N f b n : Nat) (hbn : n ≠ 1 ∨ b = 1) (len : Trainee → Fin f → ℝ)
    (hlen : ∀ T ∈ l.models, T.R.kernel.deform.HasLengths f (len T))
    (hX : X.shape = [N, f]) (hY : Y.shape = [N, l.models.length]) (hi : l.batch.shape = [b]) (hnn : l.nn.shape = [b, n])
    (hvi : AllValid N l.batch) (hv : AllValid N l.nn) (hy : Y.take l.nn = .ok l.nnTargets)
    (hν : ∀ T ∈ l.models, T.R.gp.noise.Fits b n)
    (hinv : ∀ T ∈ l.models, ∀ p < b, (nbrCov bessel T.R.kernel (len T) X N n l.nn p + T.R.gp.noise.mat n p).det ≠ 0) :
    ∃ μ v, l.forward bessel X = .ok (μ, v) ∧ μ.shape = [b, l.models.length] ∧ v.shape = [b, l.models.length] ∧
      ∀ c T, l.models[c]? = some T → ∀ p < b,
        μ.get [p, c] = Spec.krigingMean (nbrCov bessel T.R.kernel (len T) X N n l.nn p + T.R.gp.noise.mat n p)
          (nbrCross bessel T.R.kernel (len T) X N n l.nn p (pt X f (pointOf N (l.batch.get [p])))) (nbrTargets Y N n l.nn p c) ∧
        v.get [p, c] = T.R.gp.scale * (T.R.gp.boundScale * Spec.krigingVar 1
          (nbrCov bessel T.R.kernel (len T) X N n l.nn p + T.R.gp.noise.mat n p)
          (nbrCross bessel T.R.kernel (len T) X N n l.nn p (pt X f (pointOf N (l.batch.get [p]))))) := by
  obtain ⟨μ, v, r1, r2, r3, r4⟩ := C54_multi_output_partial bessel T₀ l.models hhead hsame hk hko X X Y l.batch l.nn N N f b n hbn len
    hlen (.inl hX) (.inl hX) hY rfl hi hnn hvi hv hν hinv
  exact ⟨μ, v, multiForward_of_regress bessel l X Y _ hy r1, r2, r3, r4⟩

/-- **C68**, prediction with a trained module: after a training run that ends in evaluation mode, `predict_model` with the returned lookup
predicts column `c` by model `c` (the one passed in): the kriging mean of response `c` from the `nn_count` nearest training points in the
trained embedding, with the kriging variance times the two scales. It does not fail when the noise suffices (or the embedded training
points are different, for noise-free models). Partial as `C68_forward_partial`. -/
theorem C68_predict_partial (env : Env Θ S) (step : S → Θ → (Θ → Res ℝ) → S × Θ)
    (hbuild : ∀ X k w, env.build X k = .ok w → w.train = X ∧ w.nnCount = k ∧ w.Exact)
    (hdet : ∀ t t', env.embed false t = env.embed false t')
    (m m' : MultiModule Θ) (s s' : S) (train test responses : Tensor ℝ) (batch : Tensor Int)
    (w w' : NNWrapper) (T u : Nat) (name : String)
    (h : trainMultiDeep env step m s train responses batch w T name u = .ok (w', m', s')) (hev : m'.training = false)
    (T₀ : Trainee) (hhead : m.layer.models.head? = some T₀)
    (hsame : ∀ T ∈ m.layer.models, T.R.kernel.deform.kind = T₀.R.kernel.deform.kind ∧
      T.R.kernel.deform.metric = T₀.R.kernel.deform.metric)
    (hk : ∀ T ∈ m.layer.models, T.R.kernel.make = T.R.kernel) (hko : ∀ T ∈ m.layer.models, T.R.gp.kout = KernelObj.kout)
    (hsuit : ∀ T ∈ m.layer.models, T.R.kernel.fn.Suits T.R.kernel.deform.metric)
    (M : Nat) (hM : 0 < M) (hM1 : w.nnCount ≠ 1 ∨ M = 1) (len : Trainee → Fin w'.f → ℝ)
    (hlen : ∀ T ∈ m.layer.models, T.R.kernel.deform.HasLengths w'.f (len T))
    (hQ : (env.embed false 0 m'.θ test).shape = [M, w'.f]) (hY : responses.shape = [w'.N, m.layer.models.length]) (hn0 : 0 < w.nnCount)
    (hnN : w.nnCount ≤ w'.N) (hν : ∀ T ∈ m.layer.models, T.R.gp.noise.Fits M w.nnCount)
    (hreg : ∀ T ∈ m.layer.models, T.R.gp.noise.Suffices M w.nnCount (DistinctRows (env.embed false 0 m'.θ train) w'.N w'.f)) :
    let X := env.embed false 0 m'.θ train
    let Q := env.embed false 0 m'.θ test
    let n := w.nnCount
    ∃ nn μ v, (∀ i < M, ∃ l : List Nat, rowList nn n i = l.map Int.ofNat ∧
        Nearest (· < w'.N) (fun j => w'.dist (rowPt Q w'.f i) (rowPt X w'.f j)) n l) ∧
      predictModel env (.multiple m') test train responses w' n = .ok (μ, v) ∧
      μ.shape = [M, m.layer.models.length] ∧ v.shape = [M, m.layer.models.length] ∧
      ∀ c T, m.layer.models[c]? = some T → ∀ p < M,
        μ.get [p, c] = Spec.krigingMean (nbrCov env.bessel T.R.kernel (len T) X w'.N n nn p + T.R.gp.noise.mat n p)
          (nbrCross env.bessel T.R.kernel (len T) X w'.N n nn p (rowPt Q w'.f p)) (nbrTargets responses w'.N n nn p c) ∧
        v.get [p, c] = T.R.gp.scale * (T.R.gp.boundScale *
          Spec.krigingVar 1 (nbrCov env.bessel T.R.kernel (len T) X w'.N n nn p + T.R.gp.noise.mat n p)
            (nbrCross env.bessel T.R.kernel (len T) X w'.N n nn p (rowPt Q w'.f p))) := by
  intro X Q n
  obtain ⟨br, loss, _, b1, l1, -, -⟩ := trainMultiDeep_parts h
  have hlay := (C68_untrained_fails env step m m' s s' train responses br batch w w' T u name loss l1 b1 h).1
  have hb := (C68_returned_lookup env step m m' s s' train responses batch w w' T u name h).1
  rw [hev, hdet _ 0] at hb
  obtain ⟨t1, t2, t3⟩ := hbuild _ _ _ hb
  have hX : X.shape = [w'.N, w'.f] := by show (env.embed false 0 m'.θ train).shape = _; rw [← t1]; exact t3.1
  obtain ⟨I, D, h1, h2, h3, h4, h5⟩ := C41_plain w' t3 Q M hQ hM (by rw [t2]; exact hn0) (by rw [t2]; exact hnN)
  rw [t2, t1] at h4
  rw [t2] at h2
  have hrows : ∀ i < M, ∃ l : List Nat, rowList I n i = l.map Int.ofNat ∧ l.Nodup ∧ ∀ x ∈ l, x < w'.N := fun i hi => by
    obtain ⟨l, e1, e2⟩ := h4 i hi; exact ⟨l, e1, e2.nodup, e2.mem⟩
  have hv : AllValid w'.N I := valid_of_rows h2 fun i hi j hj => by
    obtain ⟨l, e1, e2⟩ := h4 i hi
    obtain ⟨x, x1, x2⟩ := rowList_get e1 hj
    exact ⟨x, x2, e2.mem x (List.mem_of_getElem? x1)⟩
  have hp : ∀ p, pt Q w'.f (pointOf M ((arange M).get [p])) = rowPt Q w'.f p := by
    intro p
    rw [arange_get, pointOf_nat]
    funext c
    have hQ' : Q.shape = [M, w'.f] := hQ
    simp only [pt, feature, hQ', rowPt]
  obtain ⟨μ, v, r1, r2, r3, r4⟩ := C54_multi_output_partial env.bessel T₀ m.layer.models hhead hsame hk hko Q X responses (arange M) I M
    w'.N w'.f M n hM1 len hlen (.inl hQ) (.inl hX) hY (by rw [hX]; exact (congrArg List.length hQ).trans rfl) rfl h2 (arange_valid M) hv hν
    (fun T hT => nbr_regular env.bessel T.R (hsuit T hT) (len T) (hlen T hT) X w'.N n M I hrows (hreg T hT))
  refine ⟨I, μ, v, h4, ?_, r2, r3, fun c T hc p hpM => ?_⟩
  · unfold predictModel predictMultiple MultiModule.embedding
    simp only [hev, Bool.false_eq_true, if_false]
    rw [hdet m'.tick 0, hlay, hQ]
    have hq : w'.query (env.embed false 0 m'.θ test) n = .ok (I, D) := by
      show w'.query (env.embed false 0 m'.θ test) w.nnCount = .ok (I, D)
      rw [← t2]; exact h1
    simp only [bind, Except.bind]
    rw [hq]
    exact r1
  · have := r4 c T hc p hpM
    rw [hp] at this
    exact this

/-- **C68**, each model predicts as it would alone: for a module in evaluation mode and an exact lookup of its embedded training features,
column `c` of `predict_model` is the prediction of the module with the same embedding and model `c` only, for response `c`; the
variance is that prediction's variance times the scale of the model (so it is the same for models of scale 1). Partial: the
additional factor (`C46_variance_fails`). -/
theorem C68_alone_partial (env : Env Θ S) (m : MultiModule Θ) (hev : m.training = false) (train test responses : Tensor ℝ) (w : NNWrapper)
    (hw : w.Exact) (hX : env.embed false m.tick m.θ train = w.train)
    (T₀ : Trainee) (hhead : m.layer.models.head? = some T₀)
    (hsame : ∀ T ∈ m.layer.models, T.R.kernel.deform.kind = T₀.R.kernel.deform.kind ∧
      T.R.kernel.deform.metric = T₀.R.kernel.deform.metric)
    (hk : ∀ T ∈ m.layer.models, T.R.kernel.make = T.R.kernel) (hko : ∀ T ∈ m.layer.models, T.R.gp.kout = KernelObj.kout)
    (hsuit : ∀ T ∈ m.layer.models, T.R.kernel.fn.Suits T.R.kernel.deform.metric)
    (M : Nat) (hM : 0 < M) (n : Nat) (hM1 : n ≠ 1 ∨ M = 1) (len : Trainee → Fin w.f → ℝ)
    (hlen : ∀ T ∈ m.layer.models, T.R.kernel.deform.HasLengths w.f (len T))
    (hQ : (env.embed false m.tick m.θ test).shape = [M, w.f]) (hY : responses.shape = [w.N, m.layer.models.length]) (hn0 : 0 < n)
    (hnN : n ≤ w.N) (hν : ∀ T ∈ m.layer.models, T.R.gp.noise.Fits M n)
    (hreg : ∀ T ∈ m.layer.models, T.R.gp.noise.Suffices M n (DistinctRows w.train w.N w.f)) :
    ∃ μ v, predictModel env (.multiple m) test train responses w n = .ok (μ, v) ∧
      μ.shape = [M, m.layer.models.length] ∧ v.shape = [M, m.layer.models.length] ∧
      ∀ c T, m.layer.models[c]? = some T → ∃ μ₁ v₁,
        predictModel env (.single (m.alone T)) test train (responseVector responses w.N m.layer.models.length c) w n = .ok (μ₁, v₁) ∧
        ∀ p < M, μ.get [p, c] = μ₁.get [p] ∧ v.get [p, c] = T.R.gp.scale * v₁.get [p] := by
  set Q := env.embed false m.tick m.θ test with hQdef
  have hwn : ({ w with nnCount := n } : NNWrapper).Exact := hw
  obtain ⟨I, D, h1, h2, h3, h4, h5⟩ := C41_plain { w with nnCount := n } hwn Q M hQ hM hn0 hnN
  have hrows : ∀ i < M, ∃ l : List Nat, rowList I n i = l.map Int.ofNat ∧ l.Nodup ∧ ∀ x ∈ l, x < w.N := fun i hi => by
    obtain ⟨l, e1, e2⟩ := h4 i hi; exact ⟨l, e1, e2.nodup, e2.mem⟩
  have hv : AllValid w.N I := valid_of_rows h2 fun i hi j hj => by
    obtain ⟨l, e1, e2⟩ := h4 i hi
    obtain ⟨x, x1, x2⟩ := rowList_get e1 hj
    exact ⟨x, x2, e2.mem x (List.mem_of_getElem? x1)⟩
  have hinv : ∀ T ∈ m.layer.models, ∀ p < M, (nbrCov env.bessel T.R.kernel (len T) w.train w.N n I p + T.R.gp.noise.mat n p).det ≠ 0 :=
    fun T hT => nbr_regular env.bessel T.R (hsuit T hT) (len T) (hlen T hT) w.train w.N n M I hrows (hreg T hT)
  have hrank : Q.shape.length = w.train.shape.length := by rw [hQ, hw.1]; rfl
  have hq : w.query Q n = .ok (I, D) := h1
  obtain ⟨μ, v, r1, r2, r3, r4⟩ := C54_multi_output_partial env.bessel T₀ m.layer.models hhead hsame hk hko Q w.train responses (arange M) I M
    w.N w.f M n hM1 len hlen (.inl hQ) (.inl hw.1) hY hrank rfl h2 (arange_valid M) hv hν hinv
  refine ⟨μ, v, ?_, r2, r3, fun c T hc => ?_⟩
  · unfold predictModel predictMultiple MultiModule.embedding
    simp only [hev, Bool.false_eq_true, if_false]
    rw [← hQdef, hQ, hX]
    simp only [bind, Except.bind]
    rw [hq]
    exact r1
  · have hT := List.mem_of_getElem? hc
    obtain ⟨μ₁, v₁, a1, a2, a3, a4⟩ := C54_regress env.bessel T.R (hk T hT) (hko T hT) Q w.train
      (responseVector responses w.N m.layer.models.length c) (arange M) I M w.N w.f M n (len T) (hlen T hT) (.inl hQ) (.inl hw.1) rfl
      hrank rfl h2 (arange_valid M) hv (hν T hT) (hinv T hT)
    refine ⟨μ₁, v₁, ?_, fun p hp => ?_⟩
    · unfold predictModel predictSingle Module.embedding MultiModule.alone
      simp only [hev, Bool.false_eq_true, if_false]
      rw [← hQdef, hX]
      unfold regressAny
      rw [hQ]
      simp only [bind, Except.bind]
      rw [show NNWrapper.getNns { w with nnCount := n } Q = .ok (I, D) from h1]
      exact a1
    · obtain ⟨x1, x2⟩ := r4 c T hc p hp
      obtain ⟨y1, y2⟩ := a4 p hp
      rw [x1, x2, y1, y2]
      refine ⟨?_, rfl⟩
      congr 1
      funext j
      unfold nbrTargets feature
      rw [hY]
      show responses.get [_, c] = Tensor.get (responseVector responses w.N m.layer.models.length c) [_]
      rw [Tensor.get2 _ hY, Tensor.get1 (responseVector responses w.N m.layer.models.length c) rfl]
      rfl

/-! ### the default loss -/

theorem ravel_clip (s : List Nat) (k : Nat) (hk : k < s.prod) : Tensor.ravel s (Tensor.clipIdx s (Tensor.unravel s k)) = k := by
  induction s generalizing k with
  | nil => simp at hk; subst hk; rfl
  | cons a s ih =>
    rw [List.prod_cons] at hk
    have hs : 0 < s.prod := Nat.pos_of_ne_zero fun h => by rw [h] at hk; omega
    have e : Tensor.clipIdx (a :: s) (Tensor.unravel (a :: s) k) =
        (if a = 1 then 0 else k / s.prod) :: Tensor.clipIdx s (Tensor.unravel s (k % s.prod)) := rfl
    rw [e]
    show (if a = 1 then 0 else k / s.prod) * s.prod + Tensor.ravel s (Tensor.clipIdx s (Tensor.unravel s (k % s.prod))) = k
    rw [ih _ (Nat.mod_lt _ hs)]
    by_cases ha : a = 1
    · subst ha
      rw [if_pos rfl, Nat.mod_eq_of_lt (by omega)]
      omega
    · rw [if_neg ha, Nat.mul_comm]
      exact Nat.div_add_mod k s.prod

theorem bcShape_self (s : List Nat) : Tensor.bcShape s s = some s := by
  induction s with
  | nil => rfl
  | cons a s ih => simp [Tensor.bcShape, Tensor.bcAxis, ih]

theorem bopPad_same (f : ℝ → ℝ → ℝ) (s : List Nat) (x y : Nat → ℝ) :
    ∃ z, bopPad f ⟨s, x⟩ ⟨s, y⟩ = .ok z ∧ z.shape = s ∧ ∀ i < s.prod, z.flat i = f (x i) (y i) := by
  refine ⟨Tensor.ofFn s fun idx => f (Tensor.get ⟨s, x⟩ (Tensor.clipIdx s idx)) (Tensor.get ⟨s, y⟩ (Tensor.clipIdx s idx)), ?_, rfl, ?_⟩
  · unfold bopPad padTo Tensor.bop
    simp only [max_self, Nat.sub_self, List.replicate_zero, List.nil_append, bcShape_self]
  · intro i hi
    show f (x (Tensor.ravel s _)) (y (Tensor.ravel s _)) = _
    rw [ravel_clip s i hi]

theorem filter_prod (s : List Nat) : (s.filter (· ≠ 1)).prod = s.prod := by
  induction s with
  | nil => rfl
  | cons a s ih =>
    by_cases ha : a = 1
    · subst ha; simpa using ih
    · rw [List.filter_cons_of_pos (by simpa using ha), List.prod_cons, ih, List.prod_cons]

theorem sum_rows (g : Nat → ℝ) (b r : Nat) :
    ∑ k ∈ Finset.range (b * r), g k = ∑ i ∈ Finset.range b, ∑ c ∈ Finset.range r, g (i * r + c) := by
  induction b with
  | zero => simp
  | succ b ih => rw [Finset.sum_range_succ, ← ih, Nat.succ_mul, Finset.sum_range_add]

/-- **C68**, default loss: the layer returns one variance per point and response, and the loss `"lool"` is the sum of the contributions of
all batch points and responses (for the single layer it raises, `C57_lool_responses_fails`). -/
theorem C68_lool_value (env : Env Θ S) (b r : Nat) (p t v : Tensor ℝ) (hp : p.shape = [b, r]) (ht : t.shape = [b, r]) (hv : v.shape = [b, r]) :
    ∃ loss, lossOf env "lool" = .ok loss ∧
      loss p t v = .ok (∑ i ∈ Finset.range b, ∑ c ∈ Finset.range r,
        ((p.get [i, c] - t.get [i, c]) ^ 2 / v.get [i, c] + Real.log (v.get [i, c]))) := by
  refine ⟨_, rfl, ?_⟩
  have hs : ∀ i c, i < b → c < r → i * r + c < b * r := fun i c hi hc => by
    calc i * r + c < i * r + r := by omega
      _ = (i + 1) * r := by ring
      _ ≤ b * r := Nat.mul_le_mul_right _ hi
  set s := ([b, r] : List Nat).filter (· ≠ 1) with hsdef
  have hprod : s.prod = b * r := by rw [hsdef, filter_prod]; simp
  have sq : ∀ x : Tensor ℝ, x.shape = [b, r] → x.squeeze = ⟨s, x.flat⟩ := by
    intro x hx
    unfold Tensor.squeeze
    rw [hx]
  rw [sq p hp, sq t ht, sq v hv]
  unfold loolSum
  obtain ⟨d, d1, d2, d3⟩ := bopPad_same (fun p t => (p - t) ^ 2) s p.flat t.flat
  obtain ⟨q, q1, q2, q3⟩ := bopPad_same (· / ·) s d.flat v.flat
  obtain ⟨e, e1, e2, e3⟩ := bopPad_same (fun q v => q + Real.log v) s q.flat v.flat
  obtain ⟨ds, df⟩ := d
  obtain ⟨qs, qf⟩ := q
  simp only at d2 q2
  subst d2 q2
  rw [d1]
  simp only [bind, Except.bind, pure, Except.pure]
  rw [q1]
  simp only
  rw [e1]
  simp only [e2, hprod, Except.ok.injEq]
  have key : ∀ i c, i < b → c < r → e.flat (i * r + c) =
      (p.get [i, c] - t.get [i, c]) ^ 2 / v.get [i, c] + Real.log (v.get [i, c]) := by
    intro i c hi hc
    have hlt := hs i c hi hc
    rw [← hprod] at hlt
    rw [e3 _ hlt, q3 _ hlt, d3 _ hlt, Tensor.get2 p hp, Tensor.get2 t ht, Tensor.get2 v hv]
  rw [sum_rows]
  exact Finset.sum_congr rfl fun i hi => Finset.sum_congr rfl fun c hc => key i c (Finset.mem_range.mp hi) (Finset.mem_range.mp hc)

end Deep
end MuyGPyS
