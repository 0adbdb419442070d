import Verif.Spec.FreshDraws
import Verif.Props.Train

/-! # C108: the training objective is a function of the hyperparameters -/

namespace MuyGPyS
open Py

namespace Opt
variable {P : Type}

theorem iterateFresh_const (f : P → ℝ) (src : Source P) (n : Nat) (o : Bayes P) :
    Bayes.iterateFresh (fun _ => f) src n o = Bayes.iterate f src n o := by
  induction n generalizing o with
  | zero => rfl
  | succ n ih => exact ih _

theorem bayesOptimizeFresh_const (f : P → ℝ) (src : Source P) (x0 : P) (init nIter : Option Nat) :
    bayesOptimizeFresh (fun _ => f) src x0 init nIter = bayesOptimize f src x0 init nIter := by
  unfold bayesOptimizeFresh bayesOptimize Bayes.maximizeFresh Bayes.maximize
  simp only [iterateFresh_const]
  rfl

end Opt

theorem objective_draws (bs : Flt → ℝ → ℝ) (L : Learner) (l : LossKind) (h : L.Deterministic l) (d : TrainData) (s s' : List (List Nat)) :
    L.objective bs l s d = L.objective bs l s' d := by
  funext kw
  unfold Learner.objective objFn predictAndLoss
  rcases h with h | h
  · simp only [h, if_true]
  · have : ∀ K y, scaleOptFn L.trainee.scaleKind L.trainee.R.gp s K y kw = scaleOptFn L.trainee.scaleKind L.trainee.R.gp s' K y kw := by
      intro K y
      have h' : ∀ m, L.trainee.scaleKind ≠ .downSample m := h
      cases hk : L.trainee.scaleKind with
      | downSample m => exact absurd hk (h' m)
      | _ => rfl
    simp only [this]

theorem score_draws (bs : Flt → ℝ → ℝ) (L : Learner) (l : LossKind) (h : L.Deterministic l) (d : TrainData) (s s' : List (List Nat)) :
    L.score bs l s d = L.score bs l s' d := by
  unfold Learner.score
  rcases h with h | h
  · simp only [h, if_true]
  · have : ∀ K y, L.trainee.promisedScale s K y = L.trainee.promisedScale s' K y := by
      intro K y
      have h' : ∀ m, L.trainee.scaleKind ≠ .downSample m := h
      unfold Trainee.promisedScale
      cases hk : L.trainee.scaleKind with
      | downSample m => exact absurd hk (h' m)
      | _ => rfl
    unfold promisedVar
    simp only [this]

/-- **C108**: unless a variance loss is combined with a variance scale estimated from random samples, evaluating the objective again gives the same
value, whatever was drawn in between, and training does not depend on what the evaluations draw: it is training with one function of the
hyperparameters. Partial: see `C108_downsample_fails`. -/
theorem C108_repeatable_partial (env : Env) (order : KeyOrder) (bs : Flt → ℝ → ℝ) (src : Opt.Source (List Flt)) (init nIter : Option Nat)
    (minimizer : (Nat → List Flt → Res (Option ℝ)) → List Flt → List (Flt × Flt) → Res (List Flt))
    (L : Learner) (l : LossKind) (h : L.Deterministic l) (d : TrainData) (draws : Nat → List (List Nat)) :
    (∀ k k' kw, L.objective bs l (draws k) d kw = L.objective bs l (draws k') d kw) ∧
    bayesLearnFresh env order bs src init nIter L l draws d = bayesLearn env order bs src init nIter L l (draws 0) d ∧
    scipyLearnFresh env bs minimizer L l draws d = scipyLearn env bs (fun f => minimizer fun _ => f) L l (draws 0) d := by
  refine ⟨fun k k' kw => by rw [objective_draws bs L l h d (draws k) (draws k')], ?_, ?_⟩
  · unfold bayesLearnFresh bayesLearn
    have : ∀ k, L.objective bs l (draws k) d = L.objective bs l (draws 0) d := fun k => objective_draws bs L l h d _ _
    simp only [this, Opt.bayesOptimizeFresh_const]
  · unfold scipyLearnFresh scipyLearn
    have : ∀ k, L.objective bs l (draws k) d = L.objective bs l (draws 0) d := fun k => objective_draws bs L l h d _ _
    simp only [this]

theorem Learner.LossFits.deterministic {L : Learner} {l : LossKind} {d : TrainData} (h : L.LossFits l d) : L.Deterministic l :=
  h.imp_right fun h m hm => by
    rcases h.2.2 with h | ⟨⟨m', h⟩, -⟩ <;> rw [h] at hm <;> cases hm

/-- **C108**: with fresh draws in every evaluation the Bayesian driver returns a model that scores at least as well as the initial one, on whatever
draws they are compared. Partial: as for C60 (`C60_bayes_never_worse_partial`), and not for a variance loss with a scale estimated from random samples
(`C108_downsample_fails`). -/
theorem C108_never_worse_partial (env : Env) (order : KeyOrder) (bs : Flt → ℝ → ℝ) (src : Opt.Source (List Flt)) (init nIter : Option Nat)
    (L : Learner) (hmade : L.Made) (hn : L.noise ≠ .null) (hb : L.InBounds) (hfree : L.FreeFirst) (h10 : order = .sorted → L.AtMostTen)
    (l : LossKind) (draws : Nat → List (List Nat)) (d : TrainData) (hl : L.LossFits l d)
    (box : List Flt → Prop) (hbox : ∀ x, box x ↔ x.length = L.freeNames.length ∧ L.Feasible ((order.keys L.freeNames).zip x))
    (hrand : ∀ i, box (src.random i)) (hsugg : ∀ s, box (src.suggest s))
    (hval : ∀ x, box x → ∃ a, L.objective bs l (draws 0) d ((order.keys L.freeNames).zip x) = .ok (some a)) :
    ∃ L', bayesLearnFresh env order bs src init nIter L l draws d = .ok L' ∧
      ∃ a a', a ≤ a' ∧ ∀ samples, L.score bs l samples d = .ok (some a) ∧ L'.score bs l samples d = .ok (some a') := by
  obtain ⟨L', a, a', h1, h2, h3, h4, -, -, -, h5, -⟩ := C60_bayes_never_worse_partial env order bs src init nIter L hmade hn hb hfree h10 l (draws 0) d hl
    box hbox hrand hsugg hval
  have hdet := hl.deterministic
  have hdet' : L'.Deterministic l := hdet.imp_right fun h m hm => h m (h5.2.2 ▸ hm)
  exact ⟨L', ((C108_repeatable_partial env order bs src init nIter (fun _ _ _ => .error .type) L l hdet d draws).2.1).trans h1, a, a', h4, fun samples =>
    ⟨(score_draws bs L l hdet d _ _).trans h2, (score_draws bs L' l hdet' d _ _).trans h3⟩⟩

/-- If the first evaluation, of the initial point, is unlucky and every point drawn is `y`, the optimiser answers `y`. -/
theorem bayesFresh_takes {P : Type} (f : Nat → P → ℝ) (x0 y : P) (init nIter : Option Nat) (hi : 0 < init.getD 5) (h : f 0 x0 < f 1 y) :
    Opt.bayesOptimizeFresh f ⟨fun _ => y, fun _ => y⟩ x0 init nIter = .ok y := by
  let Inv : Opt.Bayes P → Prop := fun o => (y, f 1 y) ∈ o.space ∧ ∀ a ∈ o.space, a = (x0, f 0 x0) ∨ a.1 = y
  have hreg : ∀ o : Opt.Bayes P, Inv o → Inv (o.registerFresh f y) := fun o ho => by
    refine ⟨List.mem_append_left _ ho.1, fun a ha => ?_⟩
    rcases List.mem_append.1 ha with ha | ha
    · exact ho.2 a ha
    · rw [List.mem_singleton.1 ha]; exact .inr rfl
  have hfold : ∀ (l : List P), (∀ p ∈ l, p = y) → ∀ o : Opt.Bayes P, Inv o → Inv (l.foldl (fun o p => o.registerFresh f p) o) := by
    intro l
    induction l with
    | nil => intro _ o ho; exact ho
    | cons p l ih =>
      intro hp o ho
      refine ih (fun q hq => hp q (List.mem_cons_of_mem _ hq)) _ ?_
      rw [hp p List.mem_cons_self]
      exact hreg o ho
  have hit : ∀ (n : Nat) (o : Opt.Bayes P), Inv o → Inv (Opt.Bayes.iterateFresh f ⟨fun _ => y, fun _ => y⟩ n o) := by
    intro n
    induction n with
    | zero => intro o ho; exact ho
    | succ n ih => intro o ho; exact ih _ (hreg o ho)
  have hinv : Inv ((Opt.Bayes.new.probe x0).maximizeFresh f ⟨fun _ => y, fun _ => y⟩ (init.getD 5) (nIter.getD 20)) := by
    unfold Opt.Bayes.maximizeFresh
    refine hit _ _ ?_
    obtain ⟨n, hn⟩ : ∃ n, init.getD 5 = n + 1 := ⟨init.getD 5 - 1, by omega⟩
    simp only [Opt.Bayes.probe, Opt.Bayes.new, List.nil_append, hn, List.isEmpty_cons, Bool.false_and, Bool.false_eq_true, if_false,
      List.range_succ_eq_map, List.map_cons, List.cons_append, List.foldl_cons]
    refine (?_ : Inv { List.foldl (fun o p => Opt.Bayes.registerFresh f o p) _ _ with queue := [] })
    have := hfold (List.map (fun _ => y) (List.map Nat.succ (List.range n))) (fun p hp => by
        obtain ⟨_, -, rfl⟩ := List.mem_map.1 hp; rfl)
      ((Opt.Bayes.registerFresh f ⟨[], [x0]⟩ x0).registerFresh f y) ⟨by
        simp [Opt.Bayes.registerFresh], fun a ha => by
        simp only [Opt.Bayes.registerFresh, List.nil_append, List.length_nil, List.length_cons, List.cons_append, List.mem_cons,
          List.not_mem_nil, or_false] at ha
        rcases ha with rfl | rfl
        · exact .inl rfl
        · exact .inr rfl⟩
    exact this
  unfold Opt.bayesOptimizeFresh
  cases hm : ((Opt.Bayes.new.probe x0).maximizeFresh f ⟨fun _ => y, fun _ => y⟩ (init.getD 5) (nIter.getD 20)).maxParams with
  | error e =>
    exfalso
    unfold Opt.Bayes.maxParams at hm
    cases hb : Opt.best ((Opt.Bayes.new.probe x0).maximizeFresh f ⟨fun _ => y, fun _ => y⟩ (init.getD 5) (nIter.getD 20)).space with
    | none =>
      have := hinv.1
      cases hs : ((Opt.Bayes.new.probe x0).maximizeFresh f ⟨fun _ => y, fun _ => y⟩ (init.getD 5) (nIter.getD 20)).space with
      | nil => rw [hs] at this; cases this
      | cons a l =>
        rw [hs] at hb
        simp only [Opt.best] at hb
        split at hb
        · cases hb
        · split at hb <;> cases hb
    | some a => rw [hb] at hm; cases hm
  | ok p =>
    obtain ⟨v, hv, hall⟩ := Opt.maxParams_spec _ _ hm
    rcases hinv.2 _ hv with h' | h'
    · have := hall _ hinv.1
      rw [(Prod.mk.inj h').2] at this
      exact absurd h (not_lt.2 this)
    · rw [show p = y from h']

end MuyGPyS
