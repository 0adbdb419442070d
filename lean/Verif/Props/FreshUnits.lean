import Verif.Props.UnitsTrain
import Verif.Props.FreshDraws

/-! # C108 / C83: training with fresh draws in another unit -/

namespace MuyGPyS
open Py

theorem iterateFresh_affine {P : Type} {a b : ℝ} (ha : 0 < a) (f f' : Nat → P → ℝ) (box : P → Prop) (hf : ∀ k x, box x → f' k x = a * f k x + b)
    (src : Opt.Source P) (hs : ∀ s, box (src.suggest s)) (hst : src.Standardised) (n : Nat) (o o' : Opt.Bayes P)
    (h : o'.space = affinely a b o.space) :
    (Opt.Bayes.iterateFresh f' src n o').space = affinely a b (Opt.Bayes.iterateFresh f src n o).space := by
  induction n generalizing o o' with
  | zero => exact h
  | succ n ih =>
    refine ih _ _ ?_
    unfold Opt.Bayes.registerFresh affinely
    simp only [List.map_append, List.map_cons, List.map_nil]
    have e : src.suggest o'.space = src.suggest o.space := by rw [h]; exact hst a b ha o.space
    have el : o'.space.length = o.space.length := by rw [h]; exact List.length_map _
    rw [e, hf _ _ (hs _), el, h]
    rfl

theorem foldlFresh_affine {P : Type} {a b : ℝ} (f f' : Nat → P → ℝ) (box : P → Prop) (hf : ∀ k x, box x → f' k x = a * f k x + b)
    (l : List P) (hl : ∀ x ∈ l, box x) (o o' : Opt.Bayes P) (h : o'.space = affinely a b o.space) :
    (l.foldl (fun o p => o.registerFresh f' p) o').space = affinely a b (l.foldl (fun o p => o.registerFresh f p) o).space := by
  induction l generalizing o o' with
  | nil => exact h
  | cons x l ih =>
    refine ih (fun y hy => hl y (by simp [hy])) _ _ ?_
    unfold Opt.Bayes.registerFresh affinely
    simp only [List.map_append, List.map_cons, List.map_nil]
    have el : o'.space.length = o.space.length := by rw [h]; exact List.length_map _
    rw [hf _ x (hl x (by simp)), el, h]
    rfl

theorem bayesOptimizeFresh_affine {P : Type} {a b : ℝ} (ha : 0 < a) (f f' : Nat → P → ℝ) (box : P → Prop)
    (hf : ∀ k x, box x → f' k x = a * f k x + b)
    (src : Opt.Source P) (hr : ∀ i, box (src.random i)) (hs : ∀ s, box (src.suggest s)) (hst : src.Standardised) (x0 : P) (h0 : box x0)
    (init n : Option Nat) : Opt.bayesOptimizeFresh f' src x0 init n = Opt.bayesOptimizeFresh f src x0 init n := by
  unfold Opt.bayesOptimizeFresh Opt.Bayes.maxParams
  have h : (((Opt.Bayes.new.probe x0).maximizeFresh f' src (init.getD 5) (n.getD 20))).space =
      affinely a b (((Opt.Bayes.new.probe x0).maximizeFresh f src (init.getD 5) (n.getD 20))).space := by
    unfold Opt.Bayes.maximizeFresh
    refine iterateFresh_affine ha f f' box hf src hs hst _ _ _ ?_
    refine foldlFresh_affine f f' box hf _ ?_ _ _ rfl
    intro x hx
    rcases List.mem_append.mp hx with hx | hx
    · have : x = x0 := by simpa [Opt.Bayes.new, Opt.Bayes.probe] using hx
      rw [this]; exact h0
    · obtain ⟨i, -, rfl⟩ := List.mem_map.mp hx
      exact hr i
  rw [h, best_affine ha]
  cases Opt.best (((Opt.Bayes.new.probe x0).maximizeFresh f src (init.getD 5) (n.getD 20))).space <;> rfl

/-- **C83**, Bayesian optimisation with fresh random samples in every evaluation: if the same samples are drawn in both units, the optimiser (one that
standardises the values it sees) chooses the same hyperparameters, for every loss, also when the variance scale is estimated from the samples. -/
theorem C83_bayes_fresh {c : ℝ} (hc : c ≠ 0) (env : Env) (order : KeyOrder) (bs : Flt → ℝ → ℝ) (src : Opt.Source (List Flt))
    (hst : src.Standardised) (init nIter : Option Nat) (L : Learner) (hk : L.scaleKind.Documented) (l : LossKind) (hl : l.Regression)
    (draws : Nat → List (List Nat)) (d : TrainData) (n : Nat) (hn : l.raw = false → d.targets.shape = [n])
    (box : List Flt → Prop) (hrand : ∀ i, box (src.random i)) (hsugg : ∀ s, box (src.suggest s))
    (hbox : ∀ o, L.gp.getOptParams = .ok o → box (o.start order) ∧ ∀ k x, box x →
      (∃ a, L.objective bs l (draws k) d ((order.keys o.names).zip x) = .ok (some a)) ∧
      (l.raw = false → L.Uncertain bs (draws k) d ((order.keys o.names).zip x))) :
    bayesLearnFresh env order bs src init nIter (L.inUnits c) (l.inUnits c) draws (d.inUnits c) =
      (bayesLearnFresh env order bs src init nIter L l draws d).map (Learner.inUnits c) := by
  unfold bayesLearnFresh
  rw [show (L.inUnits c).gp.getOptParams = L.gp.getOptParams from rfl]
  cases ho : L.gp.getOptParams with
  | error e => rfl
  | ok o =>
    obtain ⟨h0, hv⟩ := hbox o ho
    simp only [bind, Except.bind]
    have hx : Opt.bayesOptimizeFresh (fun k x => valueOf ((L.inUnits c).objective bs (l.inUnits c) (draws k) (d.inUnits c)
        ((order.keys o.names).zip x))) src (o.start order) init nIter =
        Opt.bayesOptimizeFresh (fun k x => valueOf (L.objective bs l (draws k) d ((order.keys o.names).zip x))) src (o.start order) init nIter := by
      refine bayesOptimizeFresh_affine (b := l.unitShift c n) (unitFactor_pos hc l) _ _ box ?_ src hrand hsugg hst _ h0 init nIter
      intro k x hx
      obtain ⟨⟨a, ha⟩, hu⟩ := hv k x hx
      rw [C83_objective hc bs L hk l hl (draws k) d n hn _ hu, ha]
      rfl
    unfold OptLists.start at hx
    rw [hx]
    cases Opt.bayesOptimizeFresh (fun k x => valueOf (L.objective bs l (draws k) d ((order.keys o.names).zip x))) src
      ((order.keys o.names).map fun k => (Dict.get? (o.names.zip o.params) k).getD none) init nIter with
    | error e => rfl
    | ok x => exact newLearner_units c env L _ _ _

/-- Non-vacuity of `C83_bayes_fresh`: the model and data of the example of `C60_bayes_never_worse_partial`, in a unit three times as large. -/
example (env : Env) (order : KeyOrder) (bs : Flt → ℝ → ℝ) (draws : Nat → List (List Nat)) :
    let L := aniLearner (oneScale 2)
    let d := aniData 1 0 0
    bayesLearnFresh env order bs ⟨fun _ => [Flt.fin 1], fun _ => [Flt.fin 1]⟩ none none (L.inUnits (1 / 3)) .mse draws (d.inUnits (1 / 3)) =
      (bayesLearnFresh env order bs ⟨fun _ => [Flt.fin 1], fun _ => [Flt.fin 1]⟩ none none L .mse draws d).map (Learner.inUnits (1 / 3)) := by
  intro L d
  have hnames : ∀ o, L.gp.getOptParams = .ok o → o.names = ["length_scale0"] := by
    intro o ho
    have hfree : (oneScale 2).length = 1 := by simp [oneScale]
    have h := getOptParams_eq L.gp (by simp [L, aniLearner, Learner.gp])
    rw [foldl_appendLists] at h
    rw [h] at ho
    rw [← Except.ok.inj ho]
    simp only [List.nil_append]
    exact oneScale_free 2
  refine C83_bayes_fresh (by norm_num) env order bs _ (fun _ _ _ _ => rfl) none none L trivial .mse trivial draws d 0 (by simp [LossKind.raw])
    (fun x => ∃ v, x = [v]) (fun _ => ⟨_, rfl⟩) (fun _ => ⟨_, rfl⟩) (fun o ho => ?_)
  have hk : order.keys o.names = ["length_scale0"] := by
    rw [hnames o ho]; cases order <;> rfl
  unfold OptLists.start
  rw [hk]
  refine ⟨⟨_, rfl⟩, ?_⟩
  rintro k x ⟨v, rfl⟩
  refine ⟨?_, fun h => absurd h (by simp [LossKind.raw])⟩
  have e0 : vecName "length_scale" 0 = "length_scale0" := by decide
  have hst : startsLS "length_scale0" = true := by decide
  have hv : aniValues (oneScale 2) [("length_scale0", v)] = [v] := by
    simp [aniValues, oneScale, namedFrom, e0, Dict.has, hst]
  exact ⟨_, ani_objective bs (oneScale 2) 0 0 (by simp [oneScale]) (by simp [oneScale]) (draws k) [("length_scale0", v)]
    (by intro a ha; rw [List.mem_singleton.mp ha]; exact (by decide : "length_scale0" ≠ "self" ∧ "length_scale0" ≠ "diffs" ∧
      "length_scale0" ≠ "dists" ∧ "length_scale0" ≠ "squared_dists")) (by simp [Dict.get?]) (by rw [hv]; rfl)⟩

/-- Non-vacuity of `C108_repeatable_partial` and `C108_never_worse_partial`: one free length scale, all drawn points 1, 5 random points and 20 suggested
ones (the defaults). -/
example (env : Env) (order : KeyOrder) (bs : Flt → ℝ → ℝ) (draws : Nat → List (List Nat)) :
    let L := aniLearner (oneScale 2)
    let d := aniData 1 0 0
    L.Deterministic .mse ∧ ∃ L', bayesLearnFresh env order bs ⟨fun _ => [Flt.fin 1], fun _ => [Flt.fin 1]⟩ none none L .mse draws d = .ok L' ∧ ∃ a a', a ≤ a' ∧
      ∀ samples, L.score bs .mse samples d = .ok (some a) ∧ L'.score bs .mse samples d = .ok (some a') := by
  intro L d
  have hk : order.keys L.freeNames = ["length_scale0"] := by
    rw [oneScale_free]; cases order <;> rfl
  have hone : [Flt.fin 1].length = L.freeNames.length ∧ L.Feasible ((order.keys L.freeNames).zip [Flt.fin 1]) := by
    rw [hk]
    exact ⟨by rw [oneScale_free]; rfl, oneScale_feasible 2 1 le_rfl (by norm_num)⟩
  refine ⟨.inl rfl, C108_never_worse_partial env order bs ⟨fun _ => [Flt.fin 1], fun _ => [Flt.fin 1]⟩
    none none L rfl (by simp [L, aniLearner]) (oneScale_bounds 2 (by norm_num) (by norm_num)) (oneScale_freeFirst 2)
    (fun _ ps hps => by
      have : oneScale 2 = ps := by
        have h : LenScale.vector (oneScale 2) = .vector ps := hps
        exact LenScale.vector.inj h
      subst this; simp [oneScale])
    .mse draws d (.inl rfl) _ (fun _ => Iff.rfl) (fun _ => hone) (fun _ => hone)
    (fun x ⟨hx, hf⟩ => by
      rw [oneScale_free] at hx
      match x, hx with
      | [v], _ =>
        rw [hk]
        have e0 : vecName "length_scale" 0 = "length_scale0" := by decide
        have hst : startsLS "length_scale0" = true := by decide
        have hv : aniValues (oneScale 2) [("length_scale0", v)] = [v] := by
          simp [aniValues, oneScale, namedFrom, e0, Dict.has, hst]
        exact ⟨_, ani_objective bs (oneScale 2) 0 0 (by simp [oneScale]) (by simp [oneScale]) (draws 0) [("length_scale0", v)]
          (by intro a ha; rw [List.mem_singleton.mp ha]; exact (by decide : "length_scale0" ≠ "self" ∧ "length_scale0" ≠ "diffs" ∧
            "length_scale0" ≠ "dists" ∧ "length_scale0" ≠ "squared_dists")) (by simp [Dict.get?]) (by rw [hv]; rfl)⟩)⟩


end MuyGPyS
