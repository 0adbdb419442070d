import Verif.Model.DeepKernel
import Verif.Props.Workflow
import Verif.Props.Neighbors
import Verif.Props.FastWitness

/-!
# Properties C57, C58, C59: deep kernel training and prediction
-/

namespace MuyGPyS
namespace Deep
open Py

variable {Θ S : Type}

/-! ### specification -/

/-- The loss of the `k`-th training step as a function of the trained parameters, with the neighbours the layer was
built with. -/
noncomputable def initialNeighbourLoss (env : Env Θ S) (loss : Tensor ℝ → Tensor ℝ → Tensor ℝ → Res ℝ) (m : Module Θ)
    (train batchResponses : Tensor ℝ) (k : Nat) (p : Params Θ) : Res ℝ := do
  let l : Layer := { m.layer with R := setLength m.layer.R p.2 }
  let out ← l.forward env.bessel (env.embed true (m.tick + k) p.1 train)
  loss out.1 batchResponses out.2

/-- Training with the neighbours the layer was built with: parameters and optimiser state after `k` steps, each step
being given the loss of the predictions from those neighbours. -/
noncomputable def initialNeighbourTraining (env : Env Θ S) (loss : Tensor ℝ → Tensor ℝ → Tensor ℝ → Res ℝ) (m : Module Θ)
    (train batchResponses : Tensor ℝ) (p : Params Θ) (s : S) : Nat → S × Params Θ
  | 0 => (s, p)
  | k + 1 =>
    let r := initialNeighbourTraining env loss m train batchResponses p s k
    env.step r.1 r.2 (initialNeighbourLoss env loss m train batchResponses k)

/-! ### frame lemmas -/

theorem setLength_setLength (R : Regressor) (a b : Flt) : setLength (setLength R a) b = setLength R b := by
  unfold setLength
  cases h : R.kernel.deform <;> simp

theorem lengthParam_setLength (R : Regressor) (v : Flt) :
    lengthParam (setLength R v) = (lengthParam R).map fun p => { p with val := v } := by
  unfold setLength lengthParam
  cases h : R.kernel.deform <;> simp

theorem setLength_self {R : Regressor} {p : Param} (h : lengthParam R = some p) : setLength R p.val = R := by
  obtain ⟨⟨df, sm, fn⟩, gp⟩ := R
  unfold setLength
  unfold lengthParam at h
  cases df <;> simp_all

/-- What a refresh leaves alone. -/
theorem refresh_frame {env : Env Θ S} {m : Module Θ} {train responses : Tensor ℝ} {batch : Tensor Int} {k : Nat} {w : NNWrapper}
    {m' : Module Θ} (h : refresh env m train responses batch k = .ok (w, m')) :
    m'.θ = m.θ ∧ m'.layer = m.layer ∧ m'.training = m.training ∧ (m.training = false → m'.tick = m.tick) ∧
      env.build (env.embed m.training m.tick m.θ train) k = .ok w := by
  unfold refresh at h
  simp only [bind, Except.bind, pure, Except.pure] at h
  cases h1 : train.take batch with
  | error e => rw [h1] at h; cases h
  | ok bf =>
    rw [h1] at h
    simp only at h
    cases h2 : env.build (m.embedding env train).1 k with
    | error e => rw [h2] at h; cases h
    | ok w' =>
      rw [h2] at h
      simp only at h
      cases h3 : w'.query ((m.embedding env train).2.embedding env bf).1 k with
      | error e => rw [h3] at h; cases h
      | ok q =>
        rw [h3] at h
        simp only at h
        cases h4 : responses.take q.1 with
        | error e => rw [h4] at h; cases h
        | ok t =>
          rw [h4] at h
          simp only [Except.ok.injEq, Prod.mk.injEq] at h
          obtain ⟨rfl, rfl⟩ := h
          unfold Module.embedding at h2 ⊢
          cases ht : m.training <;> simp_all

/-- One iteration: the optimiser sees the loss from the layer's neighbours; the refresh changes none of the trained
parameters, the layer or the draw count. -/
theorem iteration_frame {env : Env Θ S} {loss : Tensor ℝ → Tensor ℝ → Tensor ℝ → Res ℝ} {train responses : Tensor ℝ}
    {batch : Tensor Int} {br : Tensor ℝ} {k u i : Nat} {m m' : Module Θ} {s s' : S} {q : Param}
    (hq : lengthParam m.layer.R = some q)
    (h : iteration env loss train responses batch br k u (m, s) i = .ok (m', s')) :
    let r := env.step s (m.θ, q.val) (objective env loss { m with training := true } train br)
    s' = r.1 ∧ m'.θ = r.2.1 ∧ m'.layer = { m.layer with R := setLength m.layer.R r.2.2 } ∧ m'.tick = m.tick + 1 ∧
      m'.training = (if npMod i u = 0 then false else true) := by
  unfold iteration at h
  have hp : ({ m with training := true } : Module Θ).params = some (m.θ, q.val) := by
    unfold Module.params; rw [hq]; rfl
  simp only [hp, bind, Except.bind, pure, Except.pure] at h
  cases h1 : objective env loss { m with training := true } train br (m.θ, q.val) with
  | error e => rw [h1] at h; cases h
  | ok x =>
    rw [h1] at h
    simp only at h
    split at h
    next h0 =>
      split at h
      · cases h
      next v hv =>
        cases h
        obtain ⟨f1, f2, f3, f4, _⟩ := refresh_frame (w := v.1) (m' := v.2) hv
        refine ⟨rfl, f1, f2, f4 rfl, ?_⟩
        rw [if_pos h0]; exact f3
    next h0 =>
      cases h
      refine ⟨rfl, rfl, rfl, rfl, ?_⟩
      rw [if_neg h0]; rfl

/-- The loop: induction on the number of iterations. -/
theorem loop_frame (env : Env Θ S) (loss : Tensor ℝ → Tensor ℝ → Tensor ℝ → Res ℝ) (train responses : Tensor ℝ)
    (batch : Tensor Int) (br : Tensor ℝ) (k u : Nat) (m : Module Θ) (s : S) (q : Param) (hq : lengthParam m.layer.R = some q)
    (T : Nat) (m' : Module Θ) (s' : S)
    (h : (List.range T).foldlM (iteration env loss train responses batch br k u) (m, s) = .ok (m', s')) :
    let r := initialNeighbourTraining env loss m train br (m.θ, q.val) s T
    s' = r.1 ∧ m'.θ = r.2.1 ∧ m'.layer = { m.layer with R := setLength m.layer.R r.2.2 } ∧ m'.tick = m.tick + T ∧
      m'.training = (if T = 0 then m.training else if npMod (T - 1) u = 0 then false else true) := by
  induction T generalizing m' s' with
  | zero =>
    simp only [List.range_zero, List.foldlM_nil, pure, Except.pure, Except.ok.injEq, Prod.mk.injEq] at h
    obtain ⟨rfl, rfl⟩ := h
    refine ⟨rfl, rfl, ?_, rfl, by simp⟩
    simp only [initialNeighbourTraining]
    rw [setLength_self hq]
  | succ T ih =>
    rw [List.range_succ, List.foldlM_append] at h
    simp only [bind, Except.bind] at h
    cases h1 : (List.range T).foldlM (iteration env loss train responses batch br k u) (m, s) with
    | error e => rw [h1] at h; cases h
    | ok ms =>
      obtain ⟨m1, s1⟩ := ms
      rw [h1] at h
      simp only [List.foldlM_cons, List.foldlM_nil, bind, Except.bind, pure, Except.pure] at h
      cases h2 : iteration env loss train responses batch br k u (m1, s1) T with
      | error e => rw [h2] at h; cases h
      | ok ms =>
        rw [h2] at h
        cases h
        obtain ⟨e1, e2, e3, e4, e5⟩ := ih m1 s1 h1
        have hq1 : lengthParam m1.layer.R = some { q with val := (initialNeighbourTraining env loss m train br (m.θ, q.val) s T).2.2 } := by
          rw [e3, lengthParam_setLength, hq]; rfl
        obtain ⟨g1, g2, g3, g4, g5⟩ := iteration_frame hq1 h2
        have hobj : objective env loss { m1 with training := true } train br = initialNeighbourLoss env loss m train br T := by
          funext p'
          unfold objective Module.setParams initialNeighbourLoss
          simp only [e3, e4, setLength_setLength]
        rw [hobj, e2, e1] at g1 g2 g3
        refine ⟨g1, g2, ?_, by rw [g4, e4]; ring, by simpa using g5⟩
        rw [g3, e3]
        simp only [setLength_setLength]
        rfl

/-- The pieces of a successful training run. -/
theorem trainDeep_parts {env : Env Θ S} {m m' : Module Θ} {s s' : S} {train responses : Tensor ℝ} {batch : Tensor Int}
    {w w' : NNWrapper} {T u : Nat} {name : String}
    (h : trainDeep env m s train responses batch w T name u = .ok (w', m', s')) :
    ∃ br loss m1, responses.take batch = .ok br ∧ lossOf env name = .ok loss ∧
      (List.range T).foldlM (iteration env loss train responses batch br w.nnCount u) (m, s) = .ok (m1, s') ∧
      refresh env m1 train responses batch w.nnCount = .ok (w', m') := by
  unfold trainDeep at h
  simp only [bind, Except.bind, pure, Except.pure] at h
  cases h0 : train.take batch with
  | error e => rw [h0] at h; cases h
  | ok bf =>
    rw [h0] at h
    simp only at h
    cases h1 : responses.take batch with
    | error e => rw [h1] at h; cases h
    | ok br =>
      rw [h1] at h
      simp only at h
      cases h2 : lossOf env name with
      | error e => rw [h2] at h; cases h
      | ok loss =>
        rw [h2] at h
        simp only at h
        cases h3 : (List.range T).foldlM (iteration env loss train responses batch br w.nnCount u) (m, s) with
        | error e => rw [h3] at h; cases h
        | ok ms =>
          obtain ⟨m1, s1⟩ := ms
          rw [h3] at h
          simp only at h
          cases h4 : refresh env m1 train responses batch w.nnCount with
          | error e => rw [h4] at h; cases h
          | ok q =>
            rw [h4] at h
            cases h
            exact ⟨br, loss, m1, rfl, rfl, h3, h4⟩

/-! ### C57 -/

/-- **C57.** The returned lookup indexes the embedding of the training features under the returned parameters, in the
mode (training or evaluation) the returned model is in, with the neighbour count of the lookup passed in. -/
theorem C57_returned_lookup (env : Env Θ S) (m m' : Module Θ) (s s' : S) (train responses : Tensor ℝ) (batch : Tensor Int)
    (w w' : NNWrapper) (T u : Nat) (name : String) (q : Param) (hq : lengthParam m.layer.R = some q)
    (h : trainDeep env m s train responses batch w T name u = .ok (w', m', s')) :
    env.build (env.embed m'.training (m.tick + T) m'.θ train) w.nnCount = .ok w' := by
  obtain ⟨br, loss, m1, h1, h2, h3, h4⟩ := trainDeep_parts h
  obtain ⟨f1, f2, f3, f4, f5⟩ := refresh_frame h4
  obtain ⟨g1, g2, g3, g4, g5⟩ := loop_frame env loss train responses batch br w.nnCount u m s q hq T m1 s' h3
  rw [f1, f3, ← g4]
  exact f5

/-- **C57**, what holds of the mode: when the last iteration was one of the refreshing ones (in particular for
`update_frequency = 1`), the model is returned in evaluation mode, so the lookup indexes the deterministic embedding.
Partial: see `C57_training_mode_fails`. -/
theorem C57_evaluation_mode_partial (env : Env Θ S) (m m' : Module Θ) (s s' : S) (train responses : Tensor ℝ)
    (batch : Tensor Int) (w w' : NNWrapper) (T u : Nat) (name : String) (q : Param) (hq : lengthParam m.layer.R = some q)
    (h : trainDeep env m s train responses batch w T name u = .ok (w', m', s')) (hT : 0 < T)
    (hu : u = 0 ∨ u ∣ T - 1) : m'.training = false := by
  obtain ⟨br, loss, m1, h1, h2, h3, h4⟩ := trainDeep_parts h
  obtain ⟨f1, f2, f3, f4, f5⟩ := refresh_frame h4
  obtain ⟨g1, g2, g3, g4, g5⟩ := loop_frame env loss train responses batch br w.nnCount u m s q hq T m1 s' h3
  rw [f3, g5, if_neg (by omega), if_pos]
  unfold npMod
  rcases hu with hu | hu
  · simp [hu]
  · split
    · rfl
    · exact Nat.mod_eq_zero_of_dvd hu

/-- **C57 fails of the code.** When the number of iterations is not one more than a multiple of the update frequency the
model is returned in training mode, and the returned lookup was built from a training-mode embedding (a random one, if
the embedding has dropout layers, as those of the documentation do). -/
theorem C57_training_mode_fails (env : Env Θ S) (m m' : Module Θ) (s s' : S) (train responses : Tensor ℝ) (batch : Tensor Int)
    (w w' : NNWrapper) (T u : Nat) (name : String) (q : Param) (hq : lengthParam m.layer.R = some q)
    (h : trainDeep env m s train responses batch w T name u = .ok (w', m', s')) (hT : 0 < T) (hu0 : 0 < u)
    (hu : ¬ u ∣ T - 1) :
    m'.training = true ∧ env.build (env.embed true (m.tick + T) m'.θ train) w.nnCount = .ok w' := by
  have hb := C57_returned_lookup env m m' s s' train responses batch w w' T u name q hq h
  obtain ⟨br, loss, m1, h1, h2, h3, h4⟩ := trainDeep_parts h
  obtain ⟨f1, f2, f3, f4, f5⟩ := refresh_frame h4
  obtain ⟨g1, g2, g3, g4, g5⟩ := loop_frame env loss train responses batch br w.nnCount u m s q hq T m1 s' h3
  have ht : m'.training = true := by
    rw [f3, g5, if_neg (by omega), if_neg]
    unfold npMod
    rw [if_neg (by omega)]
    exact fun h => hu (Nat.dvd_of_mod_eq_zero h)
  rw [ht] at hb
  exact ⟨ht, hb⟩

/-- **C57 fails of the code.** The refreshed neighbours are not used: whatever the update frequency and the neighbour
construction, every training step is given the loss of the predictions from the neighbours the layer was built with, and
the layer still holds those neighbours at the end. -/
theorem C57_refresh_unused_fails (env : Env Θ S) (m m' : Module Θ) (s s' : S) (train responses br : Tensor ℝ) (batch : Tensor Int)
    (w w' : NNWrapper) (T u : Nat) (name : String) (loss : Tensor ℝ → Tensor ℝ → Tensor ℝ → Res ℝ) (q : Param)
    (hq : lengthParam m.layer.R = some q) (hl : lossOf env name = .ok loss) (hb : responses.take batch = .ok br)
    (h : trainDeep env m s train responses batch w T name u = .ok (w', m', s')) :
    (s', m'.params) =
      ((initialNeighbourTraining env loss m train br (m.θ, q.val) s T).1,
        some (initialNeighbourTraining env loss m train br (m.θ, q.val) s T).2) ∧
      m'.layer.nn = m.layer.nn ∧ m'.layer.nnTargets = m.layer.nnTargets := by
  obtain ⟨br', loss', m1, h1, h2, h3, h4⟩ := trainDeep_parts h
  rw [hb] at h1; cases h1
  rw [hl] at h2; cases h2
  obtain ⟨f1, f2, f3, f4, f5⟩ := refresh_frame h4
  obtain ⟨g1, g2, g3, g4, g5⟩ := loop_frame env loss train responses batch br w.nnCount u m s q hq T m1 s' h3
  refine ⟨?_, by rw [f2, g3], by rw [f2, g3]⟩
  unfold Module.params
  rw [f1, f2, g3, lengthParam_setLength, hq, g1, g2]
  rfl

/-- The consequence: two runs that differ in update frequency and in the neighbour construction train the same
parameters. -/
theorem C57_frequency_irrelevant_fails (env : Env Θ S) (build₂ : Tensor ℝ → Nat → Res NNWrapper) (m m₁ m₂ : Module Θ)
    (s s₁ s₂ : S) (train responses : Tensor ℝ) (batch : Tensor Int) (w w₁ w₂ : NNWrapper) (T u₁ u₂ : Nat) (name : String) (q : Param)
    (hq : lengthParam m.layer.R = some q)
    (h₁ : trainDeep env m s train responses batch w T name u₁ = .ok (w₁, m₁, s₁))
    (h₂ : trainDeep { env with build := build₂ } m s train responses batch w T name u₂ = .ok (w₂, m₂, s₂)) :
    m₁.params = m₂.params ∧ s₁ = s₂ := by
  obtain ⟨br, loss, _, b1, l1, _, _⟩ := trainDeep_parts h₁
  have l2 : lossOf { env with build := build₂ } name = .ok loss := l1
  have e1 := (C57_refresh_unused_fails env m m₁ s s₁ train responses br batch w w₁ T u₁ name loss q hq l1 b1 h₁).1
  have e2 := (C57_refresh_unused_fails _ m m₂ s s₂ train responses br batch w w₂ T u₂ name loss q hq l2 b1 h₂).1
  have e3 : ∀ k, initialNeighbourTraining { env with build := build₂ } loss m train br (m.θ, q.val) s k
      = initialNeighbourTraining env loss m train br (m.θ, q.val) s k := by
    intro k
    induction k with
    | zero => rfl
    | succ k ih => simp only [initialNeighbourTraining, ih]; rfl
  rw [e3] at e2
  exact ⟨(Prod.mk.inj e1).2.trans (Prod.mk.inj e2).2.symm, (Prod.mk.inj e1).1.trans (Prod.mk.inj e2).1.symm⟩

/-- **C57 fails of the code.** The refreshed neighbours of a training point contain the point itself: if row `j` of the
embedded training set is the embedding of the `i`-th batch point and no other embedded training point coincides
with it, then `j` is among its refreshed neighbours. -/
theorem C57_self_neighbour_fails (env : Env Θ S) (m m' : Module Θ) (train responses bf : Tensor ℝ) (batch : Tensor Int) (k b : Nat)
    (w : NNWrapper) (hw : w.Exact) (hev : m.training = false) (hbf : train.take batch = .ok bf)
    (h : refresh env m train responses batch k = .ok (w, m')) (hk : 0 < k) (hkN : k ≤ w.N)
    (hs : (env.embed false m.tick m.θ bf).shape = [b, w.f]) (i : Nat) (hi : i < b) (j : Nat) (hj : j < w.N)
    (hrow : rowPt (env.embed false m.tick m.θ bf) w.f i = rowPt w.train w.f j)
    (hself : w.dist (rowPt w.train w.f j) (rowPt w.train w.f j) = 0)
    (hpos : ∀ j' < w.N, j' ≠ j → 0 < w.dist (rowPt w.train w.f j) (rowPt w.train w.f j')) :
    ∃ I, m'.attrNN = some I ∧ (j : Int) ∈ rowList I k i := by
  have hb : 0 < b := by omega
  unfold refresh at h
  simp only [bind, Except.bind, pure, Except.pure, hbf] at h
  cases h2 : env.build (m.embedding env train).1 k with
  | error e => rw [h2] at h; cases h
  | ok w' =>
    rw [h2] at h
    simp only at h
    have e2 : ((m.embedding env train).2.embedding env bf).1 = env.embed false m.tick m.θ bf := by
      simp [Module.embedding, hev]
    rw [e2] at h
    cases h3 : w'.query (env.embed false m.tick m.θ bf) k with
    | error e => rw [h3] at h; cases h
    | ok q =>
      rw [h3] at h
      simp only at h
      cases h4 : responses.take q.1 with
      | error e => rw [h4] at h; cases h
      | ok t =>
        rw [h4] at h
        simp only [Except.ok.injEq, Prod.mk.injEq] at h
        obtain ⟨rfl, rfl⟩ := h
        obtain ⟨I, D, q1, q2, q3, q4, _⟩ := query_ok w' hw _ b k hs hb hk hkN
        rw [h3] at q1
        cases q1
        refine ⟨I, rfl, ?_⟩
        rw [q4 i hi, hrow]
        have hN := hw.2 (rowPt w'.train w'.f j) k hkN
        refine List.mem_map.2 ⟨j, ?_, rfl⟩
        by_contra hnot
        obtain ⟨x, hx⟩ : ∃ x, x ∈ w'.answer (rowPt w'.train w'.f j) k := by
          cases hl : w'.answer (rowPt w'.train w'.f j) k with
          | nil => have := hN.length; rw [hl] at this; simp at this; omega
          | cons x l => exact ⟨x, by simp⟩
        have h5 := hN.nearest x hx j hj hnot
        have h6 := hpos x (hN.mem x hx) (by rintro rfl; exact hnot hx)
        simp only [hself] at h5
        linarith

/-- **C57**, losses: the four names the code knows are accepted, and the documented name `"l1"` is refused before any
training. -/
theorem C57_loss_names (env : Env Θ S) (m : Module Θ) (s : S) (train responses bf br : Tensor ℝ) (batch : Tensor Int)
    (w : NNWrapper) (T u : Nat) (hbf : train.take batch = .ok bf) (hbr : responses.take batch = .ok br) :
    (∀ name ∈ ["lool", "mse", "ce", "bce"], ∃ loss, lossOf env name = .ok loss) ∧
    trainDeep env m s train responses batch w T "l1" u = .error .value := by
  constructor
  · intro name hn
    simp only [List.mem_cons, List.not_mem_nil, or_false] at hn
    rcases hn with rfl | rfl | rfl | rfl <;> exact ⟨_, rfl⟩
  · unfold trainDeep
    rw [hbf, hbr]
    rfl

/-- **C57 fails of the code**, default loss: the layer returns one variance per point. With `r` responses per point the
default loss `lool` raises unless the batch has exactly `r` points (or one). -/
theorem C57_lool_responses_fails (env : Env Θ S) (b r : Nat) (hb : b ≠ 1) (hr : r ≠ 1) (hbr : b ≠ r) (p t v : Tensor ℝ)
    (hp : p.shape = [b, r]) (ht : t.shape = [b, r]) (hv : v.shape = [b]) :
    ∃ loss, lossOf env "lool" = .ok loss ∧ loss p t v = .error .value := by
  refine ⟨_, rfl, ?_⟩
  obtain ⟨ps, pf⟩ := p
  obtain ⟨ts, tf⟩ := t
  obtain ⟨vs, vf⟩ := v
  simp only at hp ht hv
  subst hp ht hv
  simp [loolSum, Tensor.squeeze, List.filter_cons, hb, hr, bopPad, padTo, Tensor.bop, Tensor.bcShape, Tensor.bcAxis, hbr.symm,
    bind, Except.bind, Tensor.ofFn]

theorem bopPad_vec (f : ℝ → ℝ → ℝ) (b : Nat) (x y : Nat → ℝ) :
    ∃ z, bopPad f ⟨[b], x⟩ ⟨[b], y⟩ = .ok z ∧ z.shape = [b] ∧ ∀ i < b, z.flat i = f (x i) (y i) := by
  obtain ⟨t, t1, t2, t3⟩ := Tensor.bop_get f (⟨[b], x⟩ : Tensor ℝ) (⟨[b], y⟩ : Tensor ℝ) [b] (by simp [Tensor.bcShape, Tensor.bcAxis])
  refine ⟨t, t1, t2, fun i hi => ?_⟩
  obtain ⟨ts, tf⟩ := t
  simp only at t2
  subst t2
  have h := t3 [i] (.cons hi .nil)
  simp only [Tensor.get, Tensor.ravel, Tensor.clipIdx, List.zipWith_cons_cons, List.zipWith_nil_left, List.prod_nil, Nat.mul_one, Nat.add_zero] at h
  refine h.trans ?_
  by_cases hb : b = 1
  · have : i = 0 := by omega
    simp [this]
  · simp [hb]

/-- **C57**, default loss: for one response per point, given as a vector or as a column, the loss `"lool"` is the sum of the
contributions of the batch points (minus twice the log likelihood up to a constant). -/
theorem C57_lool_value (env : Env Θ S) (b : Nat) (hb : b ≠ 1) (p t v : Tensor ℝ) (hp : p.shape = [b] ∨ p.shape = [b, 1])
    (ht : t.shape = [b] ∨ t.shape = [b, 1]) (hv : v.shape = [b]) :
    ∃ loss, lossOf env "lool" = .ok loss ∧
      loss p t v = .ok (∑ i ∈ Finset.range b, ((p.flat i - t.flat i) ^ 2 / v.flat i + Real.log (v.flat i))) := by
  refine ⟨_, rfl, ?_⟩
  have sq : ∀ x : Tensor ℝ, (x.shape = [b] ∨ x.shape = [b, 1]) → x.squeeze = ⟨[b], x.flat⟩ := by
    intro x hx
    unfold Tensor.squeeze
    rcases hx with hx | hx <;> rw [hx] <;> simp [List.filter_cons, hb]
  rw [sq p hp, sq t ht, sq v (.inl hv)]
  unfold loolSum
  obtain ⟨d, d1, d2, d3⟩ := bopPad_vec (fun p t => (p - t) ^ 2) b p.flat t.flat
  obtain ⟨q, q1, q2, q3⟩ := bopPad_vec (· / ·) b d.flat v.flat
  obtain ⟨e, e1, e2, e3⟩ := bopPad_vec (fun q v => q + Real.log v) b q.flat v.flat
  obtain ⟨ds, df⟩ := d
  obtain ⟨qs, qf⟩ := q
  simp only at d2 q2
  subst d2 q2
  rw [d1]
  simp only [bind, Except.bind, pure, Except.pure]
  rw [q1]
  simp only
  rw [e1]
  simp only [e2, List.prod_singleton, Except.ok.injEq]
  refine Finset.sum_congr rfl fun i hi => ?_
  have hi := Finset.mem_range.mp hi
  rw [e3 i hi, q3 i hi, d3 i hi]

/-! ### C58: hyperparameter declarations -/

/-- The same model with other declared bounds and another fixed flag of the length scale. -/
def redeclare (R : Regressor) (lb ub : Flt) (fixed : Bool) : Regressor :=
  { R with kernel := { R.kernel with deform :=
      match R.kernel.deform with
      | .isotropy m p => .isotropy m ⟨p.val, lb, ub, fixed⟩
      | .difference m p => .difference m ⟨p.val, lb, ub, fixed⟩
      | .anisotropy m ps => .anisotropy m ps } }

theorem forward_redeclare (bessel : Flt → ℝ → ℝ) (l : Layer) (lb ub : Flt) (fixed : Bool) (x : Tensor ℝ) :
    Layer.forward bessel { l with R := redeclare l.R lb ub fixed } x = l.forward bessel x := by
  obtain ⟨⟨⟨df, sm, fn⟩, gp⟩, b, nn, t, nt⟩ := l
  cases df <;> rfl

theorem setLength_redeclare (R : Regressor) (lb ub : Flt) (fixed : Bool) (v : Flt) :
    setLength (redeclare R lb ub fixed) v = redeclare (setLength R v) lb ub fixed := by
  obtain ⟨⟨df, sm, fn⟩, gp⟩ := R
  cases df <;> rfl

/-- **C58**, what holds: training changes nothing of the Gaussian process but the value of its length scale: noise,
scale, smoothness and all declarations are those of the model passed in. -/
theorem C58_only_length_scale (env : Env Θ S) (m m' : Module Θ) (s s' : S) (train responses : Tensor ℝ) (batch : Tensor Int)
    (w w' : NNWrapper) (T u : Nat) (name : String) (q : Param) (hq : lengthParam m.layer.R = some q)
    (h : trainDeep env m s train responses batch w T name u = .ok (w', m', s')) :
    m'.layer.R.gp = m.layer.R.gp ∧ m'.layer.R.kernel.smoothness = m.layer.R.kernel.smoothness ∧
      ∃ v, lengthParam m'.layer.R = some ⟨v, q.lb, q.ub, q.fixed⟩ := by
  obtain ⟨br, loss, m1, h1, h2, h3, h4⟩ := trainDeep_parts h
  obtain ⟨f1, f2, f3, f4, f5⟩ := refresh_frame h4
  obtain ⟨g1, g2, g3, g4, g5⟩ := loop_frame env loss train responses batch br w.nnCount u m s q hq T m1 s' h3
  rw [f2, g3]
  refine ⟨rfl, rfl, (initialNeighbourTraining env loss m train br (m.θ, q.val) s T).2.2, ?_⟩
  rw [lengthParam_setLength, hq]
  rfl

/-- **C58 fails of the code.** The declared bounds and the fixed flag of the length scale have no influence: every
optimiser trains the same value whatever they are. -/
theorem C58_declarations_unused_fails (env : Env Θ S) (m m₁ m₂ : Module Θ) (s s₁ s₂ : S) (train responses : Tensor ℝ)
    (batch : Tensor Int) (w w₁ w₂ : NNWrapper) (T u : Nat) (name : String) (q : Param) (hq : lengthParam m.layer.R = some q)
    (lb ub : Flt) (fixed : Bool)
    (h₁ : trainDeep env m s train responses batch w T name u = .ok (w₁, m₁, s₁))
    (h₂ : trainDeep env { m with layer := { m.layer with R := redeclare m.layer.R lb ub fixed } } s train responses batch w T name u
      = .ok (w₂, m₂, s₂)) :
    m₁.params = m₂.params ∧ lengthParam m₂.layer.R = (lengthParam m₁.layer.R).map fun p => ⟨p.val, lb, ub, fixed⟩ := by
  obtain ⟨br, loss, _, b1, l1, _, _⟩ := trainDeep_parts h₁
  have hq2 : lengthParam (redeclare m.layer.R lb ub fixed) = some ⟨q.val, lb, ub, fixed⟩ := by
    obtain ⟨θ, ⟨⟨⟨df, sm, fn⟩, gp⟩, b, nn, t, nt⟩, tr, a1, a2, tk⟩ := m
    unfold lengthParam at hq ⊢
    cases df <;> simp_all [redeclare]
  have e1 := (C57_refresh_unused_fails env m m₁ s s₁ train responses br batch w w₁ T u name loss q hq l1 b1 h₁).1
  have e2 := (C57_refresh_unused_fails env _ m₂ s s₂ train responses br batch w w₂ T u name loss _ hq2 l1 b1 h₂).1
  have e3 : ∀ k, initialNeighbourTraining env loss { m with layer := { m.layer with R := redeclare m.layer.R lb ub fixed } }
      train br (m.θ, q.val) s k = initialNeighbourTraining env loss m train br (m.θ, q.val) s k := by
    intro k
    have e4 : ∀ k, initialNeighbourLoss env loss { m with layer := { m.layer with R := redeclare m.layer.R lb ub fixed } } train br k
        = initialNeighbourLoss env loss m train br k := by
      intro k
      funext p
      unfold initialNeighbourLoss
      simp only [setLength_redeclare]
      rw [show (Layer.forward env.bessel { m.layer with R := redeclare (setLength m.layer.R p.2) lb ub fixed }) =
        Layer.forward env.bessel { m.layer with R := setLength m.layer.R p.2 } from
        funext fun x => forward_redeclare env.bessel { m.layer with R := setLength m.layer.R p.2 } lb ub fixed x]
    induction k with
    | zero => rfl
    | succ k ih => simp only [initialNeighbourTraining, ih, e4]
  simp only [e3] at e2
  have hp : m₁.params = m₂.params := (Prod.mk.inj e1).2.trans (Prod.mk.inj e2).2.symm
  refine ⟨hp, ?_⟩
  obtain ⟨_, _, v₁, c1⟩ := C58_only_length_scale env m m₁ s s₁ train responses batch w w₁ T u name q hq h₁
  obtain ⟨_, _, v₂, c2⟩ := C58_only_length_scale env _ m₂ s s₂ train responses batch w w₂ T u name _ hq2 h₂
  unfold Module.params at hp
  rw [c1, c2] at hp ⊢
  simp only [Option.map_some, Option.some.injEq, Prod.mk.injEq] at hp ⊢
  rw [hp.2]

/-! ### C59: prediction -/

theorem forward_of_regress (bessel : Flt → ℝ → ℝ) (l : Layer) (x y : Tensor ℝ) (out : Tensor ℝ × Tensor ℝ)
    (hy : y.take l.nn = .ok l.nnTargets) (h : regressFromIndices bessel l.R l.batch l.nn x x y = .ok out) :
    l.forward bessel x = .ok out := by
  unfold regressFromIndices tensorsFromIndices makePredictTensors at h
  unfold Layer.forward Deform.crosswise Deform.pairwise
  simp only [bind, Except.bind, pure, Except.pure, Option.getD_some] at h ⊢
  cases h1 : defCrosswise l.R.kernel.deform.kind l.R.kernel.deform.metric x x l.batch l.nn with
  | error e => rw [h1] at h; cases h
  | ok c =>
    rw [h1] at h
    simp only at h ⊢
    cases h2 : defPairwise l.R.kernel.deform.kind l.R.kernel.deform.metric x l.nn with
    | error e => rw [h2] at h; cases h
    | ok p =>
      rw [h2, hy] at h
      simp only at h ⊢
      cases h3 : l.R.kernel.call bessel p [] with
      | error e => rw [h3] at h; cases h
      | ok K =>
        rw [h3] at h
        simp only at h ⊢
        cases h4 : l.R.kernel.call bessel c [] with
        | error e => rw [h4] at h; cases h
        | ok C =>
          rw [h4] at h
          simp only at h ⊢
          exact h

/-- **C59**, the layer: a forward pass returns the kriging means and variances in the embedded space of the batch points
from their stored neighbours. -/
theorem C59_forward (bessel : Flt → ℝ → ℝ) (l : Layer) (hk : l.R.kernel.make = l.R.kernel) (hko : l.R.gp.kout = KernelObj.kout)
    (X Y : Tensor ℝ) (N f b n : Nat) (len : Fin f → ℝ) (hlen : l.R.kernel.deform.HasLengths f len)
    (hX : X.shape = [N, f]) (hY : Y.shape = [N]) (hi : l.batch.shape = [b]) (hnn : l.nn.shape = [b, n]) (hvi : AllValid N l.batch)
    (hv : AllValid N l.nn) (hy : Y.take l.nn = .ok l.nnTargets) (hν : l.R.gp.noise.Fits b n)
    (hinv : ∀ p < b, (nbrCov bessel l.R.kernel len X N n l.nn p + l.R.gp.noise.mat n p).det ≠ 0) :
    ∃ μ v, l.forward bessel X = .ok (μ, v) ∧ μ.shape = [b] ∧ v.shape = [b] ∧ ∀ p < b,
      μ.get [p] = Spec.krigingMean (nbrCov bessel l.R.kernel len X N n l.nn p + l.R.gp.noise.mat n p)
        (nbrCross bessel l.R.kernel len X N n l.nn p (pt X f (pointOf N (l.batch.get [p])))) (nbrTargets Y N n l.nn p 0) ∧
      v.get [p] = l.R.gp.boundScale * Spec.krigingVar 1
        (nbrCov bessel l.R.kernel len X N n l.nn p + l.R.gp.noise.mat n p)
        (nbrCross bessel l.R.kernel len X N n l.nn p (pt X f (pointOf N (l.batch.get [p])))) := by
  obtain ⟨μ, v, r1, r2, r3, r4⟩ := C54_regress bessel l.R hk hko X X Y l.batch l.nn N N f b n
    len hlen (.inl hX) (.inl hX) hY rfl hi hnn hvi hv hν hinv
  exact ⟨μ, v, forward_of_regress bessel l X Y _ hy r1, r2, r3, r4⟩

/-- **C59**, prediction with a trained model: after a training run that ends in evaluation mode, predictions made with the
returned lookup are the kriging means and variances, with the trained parameters, from the `nn_count` nearest training
points in the trained embedding. -/
theorem C59_predict (env : Env Θ S)
    (hbuild : ∀ X k w, env.build X k = .ok w → w.train = X ∧ w.nnCount = k ∧ w.Exact)
    (hdet : ∀ t t', env.embed false t = env.embed false t')
    (m m' : Module Θ) (s s' : S) (train test responses : Tensor ℝ) (batch : Tensor Int)
    (w w' : NNWrapper) (T u : Nat) (name : String) (q : Param) (hq : lengthParam m.layer.R = some q)
    (h : trainDeep env m s train responses batch w T name u = .ok (w', m', s')) (hev : m'.training = false)
    (hk : m'.layer.R.kernel.make = m'.layer.R.kernel) (hko : m'.layer.R.gp.kout = KernelObj.kout)
    (M : Nat) (hM : 0 < M) (len : Fin w'.f → ℝ) (hlen : m'.layer.R.kernel.deform.HasLengths w'.f len)
    (hQ : (env.embed false 0 m'.θ test).shape = [M, w'.f]) (hY : responses.shape = [w'.N]) (hn0 : 0 < w.nnCount)
    (hnN : w.nnCount ≤ w'.N) (hν : m'.layer.R.gp.noise.Fits M w.nnCount) :
    let X := env.embed false 0 m'.θ train
    let Q := env.embed false 0 m'.θ test
    let R := m'.layer.R
    let n := w.nnCount
    ∃ nn : Tensor Int,
      (∀ i < M, ∃ l : List Nat, rowList nn n i = l.map Int.ofNat ∧
        Nearest (· < w'.N) (fun j => w'.dist (rowPt Q w'.f i) (rowPt X w'.f j)) n l) ∧
      ((∀ p < M, (nbrCov env.bessel R.kernel len X w'.N n nn p + R.gp.noise.mat n p).det ≠ 0) →
        ∃ μ v, predictSingle env m' test train responses w' n = .ok (μ, v) ∧ μ.shape = [M] ∧ v.shape = [M] ∧
          ∀ p < M,
            μ.get [p] = Spec.krigingMean (nbrCov env.bessel R.kernel len X w'.N n nn p + R.gp.noise.mat n p)
              (nbrCross env.bessel R.kernel len X w'.N n nn p (rowPt Q w'.f p)) (nbrTargets responses w'.N n nn p 0) ∧
            v.get [p] = R.gp.boundScale * Spec.krigingVar 1 (nbrCov env.bessel R.kernel len X w'.N n nn p + R.gp.noise.mat n p)
              (nbrCross env.bessel R.kernel len X w'.N n nn p (rowPt Q w'.f p))) := by
  intro X Q R n
  have hb := C57_returned_lookup env m m' s s' train responses batch w w' T u name q hq h
  rw [hev, hdet _ 0] at hb
  obtain ⟨b1, b2, b3⟩ := hbuild _ _ _ hb
  obtain ⟨nn, n1, n2⟩ := C54_regress_any env.bessel R hk hko w' b3 Q responses M len hlen hQ hY hM (by rw [b2]; exact hn0)
    (by rw [b2]; exact hnN) (by rw [b2]; exact hν)
  rw [b2, b1] at n1 n2
  refine ⟨nn, n1, fun hinv => ?_⟩
  obtain ⟨μ, v, r1, r2, r3, r4⟩ := n2 hinv
  refine ⟨μ, v, ?_, r2, r3, r4⟩
  unfold predictSingle Module.embedding
  simp only [hev, Bool.false_eq_true, if_false]
  have e1 : ({ w' with nnCount := n } : NNWrapper) = w' := by
    have : n = w'.nnCount := b2.symm
    rw [this]
  rw [e1, hdet m'.tick 0]
  exact r1

/-! ### a concrete run -/

open Classical in
/-- The identity embedding, exact search on a line, and an optimiser whose step sets the length scale to 2. -/
noncomputable def lineEnv (answer : (Fin 1 → ℝ) → Nat → List Nat) : Env Unit Unit where
  bessel := fun _ _ => 0
  embed := fun _ _ _ x => x
  build := fun X k => if X = lineTrain then .ok ⟨3, 1, X, k, fun x y => |x 0 - y 0|, false, answer⟩ else .error .value
  mse := fun _ _ => .ok 0
  bce := fun _ _ => .ok 0
  ce := fun _ _ => .ok 0
  step := fun _ _ _ => ((), ((), Flt.fin 2))

/-- The module: batch point 0 with neighbours 1 and 2 (and their responses `t`); the length scale is 1 and declared fixed. -/
noncomputable def lineModule (t : Tensor ℝ) : Module Unit where
  θ := ()
  layer := ⟨lineModel, ⟨[1], fun _ => 0⟩, ⟨[1, 2], fun k => if k = 0 then 1 else 2⟩, ⟨[1], fun _ => 0⟩, t⟩
  training := true
  attrNN := none
  attrTargets := none
  tick := 0

theorem line_refresh (answer : (Fin 1 → ℝ) → Nat → List Nat)
    (hw : NNWrapper.Exact ⟨3, 1, lineTrain, 2, fun x y => |x 0 - y 0|, false, answer⟩) (m : Module Unit) :
    ∃ r, refresh (lineEnv answer) m lineTrain lineTargets ⟨[1], fun _ => 0⟩ 2 = .ok r := by
  obtain ⟨bf, b1, b2, b3⟩ := take_mat (data := lineTrain) (N := 3) (f := 1) rfl (idx := ⟨[1], fun _ => 0⟩) (fun k hk => by
    show -(3:Int) ≤ 0 ∧ (0:Int) < 3
    omega)
  obtain ⟨I, D, q1, q2, q3, q4, q5⟩ := query_ok _ hw bf 1 2 b2 (by omega) (by omega) (by show 2 ≤ 3; omega)
  have hv : AllValid 3 I := by
    refine valid_of_rows (m := 1) (k := 2) q2 fun i hi j hj => ?_
    obtain ⟨x, x1, x2⟩ := rowList_get (q4 i hi) hj
    exact ⟨x, x2, (hw.2 _ 2 (by show 2 ≤ 3; omega)).mem x (List.mem_of_getElem? x1)⟩
  obtain ⟨t, t1, _⟩ := take_vec (data := lineTargets) (N := 3) rfl (idx := I) hv
  obtain ⟨θ, l, tr, a1, a2, tk⟩ := m
  unfold refresh
  simp only [bind, Except.bind, pure, Except.pure]
  rw [b1]
  cases tr <;> (simp only [lineEnv, Module.embedding, Bool.false_eq_true, if_true, if_false]; rw [q1]; simp only; rw [t1]; exact ⟨_, rfl⟩)

/-- The training run. -/
theorem line_run (answer : (Fin 1 → ℝ) → Nat → List Nat)
    (hw : NNWrapper.Exact ⟨3, 1, lineTrain, 2, fun x y => |x 0 - y 0|, false, answer⟩) :
    ∃ nt br w2 m2, lineTargets.take ⟨[1], fun _ => 0⟩ = .ok br ∧
      trainDeep (lineEnv answer) (lineModule nt) () lineTrain lineTargets ⟨[1], fun _ => 0⟩
        ⟨3, 1, lineTrain, 2, fun x y => |x 0 - y 0|, false, answer⟩ 1 "mse" 1 = .ok (w2, m2, ()) := by
  have hv0 : AllValid 3 ⟨[1], fun _ => 0⟩ := fun k hk => by show -(3:Int) ≤ 0 ∧ (0:Int) < 3; omega
  have hvn : AllValid 3 ⟨[1, 2], fun k => if k = 0 then 1 else 2⟩ := fun k hk => by
    show -(3:Int) ≤ (if k = 0 then 1 else 2) ∧ (if k = 0 then 1 else 2) < (3:Int)
    split <;> omega
  obtain ⟨nt, n1, n2, n3⟩ := take_vec (data := lineTargets) (N := 3) rfl hvn
  obtain ⟨μ, v, f1, f2, f3, f4⟩ := C59_forward (lineEnv answer).bessel (lineModule nt).layer rfl rfl lineTrain lineTargets 3 1 1 2
    (fun _ => 1) ⟨1, one_pos, rfl, fun _ => rfl⟩ rfl rfl rfl rfl hv0 hvn n1 trivial (fun p _ => line_det _ _ _)
  obtain ⟨bf, b1, b2, b3⟩ := take_mat (data := lineTrain) (N := 3) (f := 1) rfl hv0
  obtain ⟨br, c1, c2, c3⟩ := take_vec (data := lineTargets) (N := 3) rfl hv0
  obtain ⟨⟨w1, m1⟩, r1⟩ := line_refresh answer hw
    { (lineModule nt).setParams ((), Flt.fin 2) with training := false, tick := 1 }
  obtain ⟨⟨w2, m2⟩, r2⟩ := line_refresh answer hw m1
  have hobj : objective (lineEnv answer) (fun p t _ => (lineEnv answer).mse p t) (lineModule nt) lineTrain br ((), Flt.fin 1)
      = .ok 0 := by
    unfold objective
    have : ((lineModule nt).setParams ((), Flt.fin 1)).layer = (lineModule nt).layer := rfl
    simp only [bind, Except.bind, this]
    rw [show ∀ a b c, (lineEnv answer).embed a b c lineTrain = lineTrain from fun _ _ _ => rfl, f1]
    rfl
  have hrun : trainDeep (lineEnv answer) (lineModule nt) () lineTrain lineTargets ⟨[1], fun _ => 0⟩
      ⟨3, 1, lineTrain, 2, fun x y => |x 0 - y 0|, false, answer⟩ 1 "mse" 1 = .ok (w2, m2, ()) := by
    have hit : iteration (lineEnv answer) (fun p t _ => (lineEnv answer).mse p t) lineTrain lineTargets ⟨[1], fun _ => 0⟩ br 2 1
        (lineModule nt, ()) 0 = .ok (m1, ()) := by
      unfold iteration
      show (match (lineModule nt).params with
        | none => Except.error Err.attribute
        | some p => _) = _
      have hp : (lineModule nt).params = some ((), Flt.fin 1) := rfl
      rw [hp]
      simp only [bind, Except.bind, pure, Except.pure]
      rw [show ({ lineModule nt with training := true } : Module Unit) = lineModule nt from rfl, hobj]
      simp only [npMod, Nat.zero_mod, ite_self, if_true]
      split
      · rename_i h
        have := h.symm.trans r1
        cases this
      · rename_i h
        have := h.symm.trans r1
        cases this
        rfl
    unfold trainDeep
    simp only [bind, Except.bind, pure, Except.pure]
    rw [b1, c1]
    simp only [lossOf, if_true, List.range_one, List.foldlM_cons, List.foldlM_nil, bind, Except.bind, pure, Except.pure]
    rw [hit]
    simp only
    rw [r2]
  exact ⟨nt, br, w2, m2, c1, hrun⟩

/-- **C58 fails of the code**, witness: a training run that changes a length scale declared fixed. -/
theorem C58_fixed_changes_fails : ∃ (env : Env Unit Unit) (m : Module Unit) (w : NNWrapper) (train responses : Tensor ℝ)
    (batch : Tensor Int) (w' : NNWrapper) (m' : Module Unit) (s' : Unit), w.Exact ∧
    trainDeep env m () train responses batch w 1 "mse" 1 = .ok (w', m', s') ∧
    lengthParam m.layer.R = some ⟨Flt.fin 1, Flt.fin 0, Flt.fin 0, true⟩ ∧
    lengthParam m'.layer.R = some ⟨Flt.fin 2, Flt.fin 0, Flt.fin 0, true⟩ := by
  obtain ⟨answer, hw⟩ := exact_index_exists 3 1 2 lineTrain rfl (fun x y => |x 0 - y 0|) false
  obtain ⟨nt, br, w2, m2, c1, hrun⟩ := line_run answer hw
  refine ⟨lineEnv answer, lineModule nt, _, lineTrain, lineTargets, ⟨[1], fun _ => 0⟩, w2, m2, (), hw, hrun, rfl, ?_⟩
  have := (C57_refresh_unused_fails (lineEnv answer) (lineModule nt) m2 () () lineTrain lineTargets br ⟨[1], fun _ => 0⟩ _ w2 1 1 "mse"
    (fun p t _ => (lineEnv answer).mse p t) ⟨Flt.fin 1, Flt.fin 0, Flt.fin 0, true⟩ rfl rfl c1 hrun).1
  obtain ⟨_, _, v', hv'⟩ := C58_only_length_scale (lineEnv answer) (lineModule nt) m2 () () lineTrain lineTargets ⟨[1], fun _ => 0⟩ _ w2 1 1
    "mse" ⟨Flt.fin 1, Flt.fin 0, Flt.fin 0, true⟩ rfl hrun
  rw [hv']
  unfold Module.params at this
  rw [hv'] at this
  simp only [initialNeighbourTraining, lineEnv, Option.map_some, Prod.mk.injEq, Option.some.injEq, true_and] at this
  rw [this]

end Deep
end MuyGPyS
