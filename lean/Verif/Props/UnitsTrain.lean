import Verif.Props.Units
import Verif.Props.PipelineWitness
import Verif.Props.UpdateWitness
import Verif.Props.TrainWitness

/-! # C83: training and predicting in another unit -/

namespace MuyGPyS
open Py Matrix

/-! ### the optimisers -/

theorem newStep_scale (env : Env) (opt : Dict Flt) (s : List Flt) (g : GP) (kb : String × Flt × Flt) :
    newStep env opt { g with scale := s } kb = (newStep env opt g kb).map fun g => { g with scale := s } := by
  unfold newStep
  cases Dict.get? opt kb.1 with
  | none => rfl
  | some v =>
    simp only
    split
    · cases NoiseObj.setVal env (clampFlt kb.2.1 kb.2.2 v) g.noise <;> rfl
    · split
      · rfl
      · cases Kernel.setHyper env g.kernel kb.1 (clampFlt kb.2.1 kb.2.2 v) <;> rfl

theorem newMuygps_scale (env : Env) (opt : Dict Flt) (s : List Flt) (names : List String) (bounds : List (Flt × Flt)) (g : GP) :
    newMuygps env { g with scale := s } names bounds opt = (newMuygps env g names bounds opt).map fun g => { g with scale := s } := by
  unfold newMuygps
  induction names.zip bounds generalizing g with
  | nil => rfl
  | cons kb l ih =>
    simp only [List.foldlM_cons]
    rw [newStep_scale]
    cases newStep env opt g kb with
    | error e => rfl
    | ok g' => exact ih g'

theorem newLearner_units (c : ℝ) (env : Env) (L : Learner) (names : List String) (bounds : List (Flt × Flt)) (opt : Dict Flt) :
    newLearner env (L.inUnits c) names bounds opt = (newLearner env L names bounds opt).map (Learner.inUnits c) := by
  unfold newLearner
  have h : newMuygps env (L.inUnits c).gp names bounds opt = _ := newMuygps_scale env opt [Flt.fin (c ^ 2 * L.scale)] names bounds L.gp
  rw [h]
  cases newMuygps env L.gp names bounds opt <;> rfl

theorem newLearner_kind {env : Env} {L L' : Learner} {names : List String} {bounds : List (Flt × Flt)} {opt : Dict Flt}
    (h : newLearner env L names bounds opt = .ok L') : L'.scaleKind = L.scaleKind := by
  unfold newLearner at h
  cases hg : newMuygps env L.gp names bounds opt with
  | error e => rw [hg] at h; cases h
  | ok g => rw [hg] at h; obtain rfl := Except.ok.inj h; rfl

/-- The observations of an optimiser in another unit. -/
def affinely {P : Type} (a b : ℝ) (s : List (P × ℝ)) : List (P × ℝ) := s.map fun e => (e.1, a * e.2 + b)

theorem best_affine {P : Type} {a b : ℝ} (ha : 0 < a) (s : List (P × ℝ)) :
    Opt.best (affinely a b s) = (Opt.best s).map fun e => (e.1, a * e.2 + b) := by
  induction s with
  | nil => rfl
  | cons e s ih =>
    show Opt.best ((e.1, a * e.2 + b) :: affinely a b s) = _
    unfold Opt.best
    rw [ih]
    cases Opt.best s with
    | none => rfl
    | some e' =>
      simp only [Option.map_some]
      have : a * e'.2 + b ≤ a * e.2 + b ↔ e'.2 ≤ e.2 := by
        rw [add_le_add_iff_right, mul_le_mul_iff_right₀ ha]
      simp only [this]
      split <;> rfl

theorem iterate_affine {P : Type} {a b : ℝ} (ha : 0 < a) (f f' : P → ℝ) (box : P → Prop) (hf : ∀ x, box x → f' x = a * f x + b)
    (src : Opt.Source P) (hs : ∀ s, box (src.suggest s)) (hst : src.Standardised) (n : Nat) (o o' : Opt.Bayes P)
    (h : o'.space = affinely a b o.space) :
    (Opt.Bayes.iterate f' src n o').space = affinely a b (Opt.Bayes.iterate f src n o).space := by
  induction n generalizing o o' with
  | zero => exact h
  | succ n ih =>
    refine ih _ _ ?_
    unfold Opt.Bayes.register affinely
    simp only [List.map_append, List.map_cons, List.map_nil]
    have e : src.suggest o'.space = src.suggest o.space := by rw [h]; exact hst a b ha o.space
    rw [e, hf _ (hs _), h]
    rfl

theorem foldl_affine {P : Type} {a b : ℝ} (f f' : P → ℝ) (box : P → Prop) (hf : ∀ x, box x → f' x = a * f x + b)
    (l : List P) (hl : ∀ x ∈ l, box x) (o o' : Opt.Bayes P) (h : o'.space = affinely a b o.space) :
    (l.foldl (fun o p => o.register f' p) o').space = affinely a b (l.foldl (fun o p => o.register f p) o).space := by
  induction l generalizing o o' with
  | nil => exact h
  | cons x l ih =>
    refine ih (fun y hy => hl y (by simp [hy])) _ _ ?_
    unfold Opt.Bayes.register affinely
    simp only [List.map_append, List.map_cons, List.map_nil]
    rw [hf x (hl x (by simp)), h]
    rfl

/-- A Bayesian optimisation that standardises the values it sees makes the same choice for an objective in other units. -/
theorem bayesOptimize_affine {P : Type} {a b : ℝ} (ha : 0 < a) (f f' : P → ℝ) (box : P → Prop) (hf : ∀ x, box x → f' x = a * f x + b)
    (src : Opt.Source P) (hr : ∀ i, box (src.random i)) (hs : ∀ s, box (src.suggest s)) (hst : src.Standardised) (x0 : P) (h0 : box x0)
    (init n : Option Nat) : Opt.bayesOptimize f' src x0 init n = Opt.bayesOptimize f src x0 init n := by
  unfold Opt.bayesOptimize Opt.Bayes.maxParams
  have h : (((Opt.Bayes.new.probe x0).maximize f' src (init.getD 5) (n.getD 20))).space =
      affinely a b (((Opt.Bayes.new.probe x0).maximize f src (init.getD 5) (n.getD 20))).space := by
    unfold Opt.Bayes.maximize
    refine iterate_affine ha f f' box hf src hs hst _ _ _ ?_
    refine foldl_affine f f' box hf _ ?_ _ _ rfl
    intro x hx
    rcases List.mem_append.mp hx with hx | hx
    · have : x = x0 := by simpa [Opt.Bayes.new, Opt.Bayes.probe] using hx
      rw [this]; exact h0
    · obtain ⟨i, -, rfl⟩ := List.mem_map.mp hx
      exact hr i
  rw [h, best_affine ha]
  cases Opt.best (((Opt.Bayes.new.probe x0).maximize f src (init.getD 5) (n.getD 20))).space <;> rfl

theorem unitFactor_pos {c : ℝ} (hc : c ≠ 0) (l : LossKind) : 0 < l.unitFactor c := by
  unfold LossKind.unitFactor
  split <;> positivity

/-- **C83**, Bayesian optimisation: in the other unit the optimiser (one that standardises the values it sees) chooses the same
hyperparameters, for every loss. -/
theorem C83_bayes {c : ℝ} (hc : c ≠ 0) (env : Env) (order : KeyOrder) (bs : Flt → ℝ → ℝ) (src : Opt.Source (List Flt))
    (hst : src.Standardised) (init nIter : Option Nat) (L : Learner) (hk : L.scaleKind.Documented) (l : LossKind) (hl : l.Regression)
    (draws : List (List Nat)) (d : TrainData) (n : Nat) (hn : l.raw = false → d.targets.shape = [n])
    (box : List Flt → Prop) (hrand : ∀ i, box (src.random i)) (hsugg : ∀ s, box (src.suggest s))
    (hbox : ∀ o, L.gp.getOptParams = .ok o → box (o.start order) ∧ ∀ x, box x →
      (∃ a, L.objective bs l draws d ((order.keys o.names).zip x) = .ok (some a)) ∧
      (l.raw = false → L.Uncertain bs draws d ((order.keys o.names).zip x))) :
    bayesLearn env order bs src init nIter (L.inUnits c) (l.inUnits c) draws (d.inUnits c) =
      (bayesLearn env order bs src init nIter L l draws d).map (Learner.inUnits c) := by
  unfold bayesLearn
  rw [show (L.inUnits c).gp.getOptParams = L.gp.getOptParams from rfl]
  cases ho : L.gp.getOptParams with
  | error e => rfl
  | ok o =>
    obtain ⟨h0, hv⟩ := hbox o ho
    simp only [bind, Except.bind]
    have hx : Opt.bayesOptimize (fun x => valueOf ((L.inUnits c).objective bs (l.inUnits c) draws (d.inUnits c) ((order.keys o.names).zip x)))
        src (o.start order) init nIter =
        Opt.bayesOptimize (fun x => valueOf (L.objective bs l draws d ((order.keys o.names).zip x))) src (o.start order) init nIter := by
      refine bayesOptimize_affine (b := l.unitShift c n) (unitFactor_pos hc l) _ _ box ?_ src hrand hsugg hst _ h0 init nIter
      intro x hx
      obtain ⟨⟨a, ha⟩, hu⟩ := hv x hx
      rw [C83_objective hc bs L hk l hl draws d n hn _ hu, ha]
      rfl
    unfold OptLists.start at hx
    rw [hx]
    cases Opt.bayesOptimize (fun x => valueOf (L.objective bs l draws d ((order.keys o.names).zip x))) src
      ((order.keys o.names).map fun k => (Dict.get? (o.names.zip o.params) k).getD none) init nIter with
    | error e => rfl
    | ok x => exact newLearner_units c env L _ _ _

/-- **C83**, SciPy optimisation of the mean squared error or pseudo-Huber loss: a minimiser whose answer does not depend on the unit of
the function it minimises chooses the same hyperparameters. -/
theorem C83_scipy {c : ℝ} (hc : c ≠ 0) (env : Env) (bs : Flt → ℝ → ℝ)
    (minimizer : (List Flt → Res (Option ℝ)) → List Flt → List (Flt × Flt) → Res (List Flt))
    (hmin : ∀ (a : ℝ) f x b, 0 < a → minimizer (fun x => (f x).map (Option.map (a * ·))) x b = minimizer f x b)
    (L : Learner) (hk : L.scaleKind.Documented) (l : LossKind) (hl : l.Regression) (hraw : l.raw = true) (draws : List (List Nat))
    (d : TrainData) :
    scipyLearn env bs minimizer (L.inUnits c) (l.inUnits c) draws (d.inUnits c) =
      (scipyLearn env bs minimizer L l draws d).map (Learner.inUnits c) := by
  unfold scipyLearn
  rw [show (L.inUnits c).gp.getOptParams = L.gp.getOptParams from rfl]
  cases ho : L.gp.getOptParams with
  | error e => rfl
  | ok o =>
    simp only [bind, Except.bind]
    have hf : arrayObjFn ((L.inUnits c).objective bs (l.inUnits c) draws (d.inUnits c)) o.names =
        fun x => (arrayObjFn (L.objective bs l draws d) o.names x).map (Option.map (c ^ 2 * ·)) := by
      funext x
      unfold arrayObjFn
      split
      · rfl
      · rw [C83_objective hc bs L hk l hl draws d 0 (by simp [hraw]) _ (by simp [hraw])]
        cases L.objective bs l draws d (o.names.zip x) with
        | error e => rfl
        | ok v =>
          cases v with
          | none => rfl
          | some v =>
            simp only [Except.map, bind, Except.bind, pure, Except.pure, Option.map_some, LossKind.unitFactor, LossKind.unitShift, hraw, if_true]
            congr 2
            ring
    rw [hf, hmin _ _ _ _ (by positivity)]
    cases minimizer (arrayObjFn (L.objective bs l draws d) o.names) o.params o.bounds with
    | error e => rfl
    | ok x =>
      simp only
      split
      · rfl
      · exact newLearner_units c env L _ _ _

/-! ### the end-to-end functions -/

/-- **C83**, `do_regress`: with all responses multiplied by `c` (and a fixed variance scale by `c²`), training chooses the same
hyperparameters, the variance scale and all variances are multiplied by `c²`, and all means by `c`; where one call raises, so does the
other, with the same exception. The optimiser is one that is not misled by units, see `C83_bayes` and `C83_scipy`.
Partial: not with `AnalyticScale(iteration_count > 1)`, see `C83_iterations_fail`. -/
theorem C83_do_regress_partial {c : ℝ} (hc : c ≠ 0) (bs : Flt → ℝ → ℝ) (opt opt' : Learner → TrainData → Res Learner) (draw : List Nat)
    (sd : List (List Nat)) (bc : Int) (w : NNWrapper) (L : Learner) (Q Y : Tensor ℝ)
    (hopt : ∀ batch d, sampleBatch w bc w.N draw = .ok batch → L.trainData batch w.train Y = .ok d →
      opt' (L.inUnits c) (d.inUnits c) = (opt L d).map (Learner.inUnits c))
    (hkind : ∀ d L1, opt L d = .ok L1 → L1.scaleKind.Documented) :
    doRegress bs opt' draw sd bc w (L.inUnits c) Q (inUnits c Y) =
      (doRegress bs opt draw sd bc w L Q Y).map fun r => (r.1.inUnits c, inUnits c r.2.1, inUnits (c ^ 2) r.2.2) := by
  have h : makeRegressor bs opt' draw sd bc w (L.inUnits c) (inUnits c Y) =
      (makeRegressor bs opt draw sd bc w L Y).map (Learner.inUnits c) := by
    unfold makeRegressor
    rw [show (L.inUnits c).gp.fixed = L.gp.fixed from rfl]
    cases L.gp.fixed with
    | error e => rfl
    | ok b =>
      simp only [bind, Except.bind]
      cases b with
      | true => rfl
      | false =>
        simp only [Bool.false_eq_true, if_false]
        cases hbatch : sampleBatch w bc w.N draw with
        | error e => rfl
        | ok batch =>
          simp only
          rw [trainData_units]
          cases hd : L.trainData batch w.train Y with
          | error e => rfl
          | ok d =>
            simp only [Except.map]
            rw [hopt batch d hbatch hd]
            cases ho : opt L d with
            | error e => rfl
            | ok L1 => exact optimizeScale_units hc bs sd L1 (hkind d L1 ho) _ _
  unfold doRegress
  rw [h]
  cases makeRegressor bs opt draw sd bc w L Y with
  | error e => rfl
  | ok L' =>
    simp only [bind, Except.bind, Except.map]
    rw [regressAny_units]
    cases regressAny bs L'.trainee.R w Q w.train Y <;> rfl

theorem bayesLearn_kind {env : Env} {order : KeyOrder} {bs : Flt → ℝ → ℝ} {src : Opt.Source (List Flt)} {init nIter : Option Nat}
    {L L' : Learner} {l : LossKind} {draws : List (List Nat)} {d : TrainData}
    (h : bayesLearn env order bs src init nIter L l draws d = .ok L') : L'.scaleKind = L.scaleKind := by
  unfold bayesLearn at h
  cases ho : L.gp.getOptParams with
  | error e => rw [ho] at h; cases h
  | ok o =>
    simp only [ho, bind, Except.bind] at h
    split at h
    · cases h
    · exact newLearner_kind h

/-- **C83**, `do_regress` with Bayesian optimisation of any regression loss, whose proposals stay where the objective has a value.
Partial: as `C83_do_regress_partial`. -/
theorem C83_do_regress_bayes_partial {c : ℝ} (hc : c ≠ 0) (env : Env) (order : KeyOrder) (bs : Flt → ℝ → ℝ) (src : Opt.Source (List Flt))
    (hst : src.Standardised) (init nIter : Option Nat) (l : LossKind) (hl : l.Regression) (draws : List (List Nat)) (draw : List Nat)
    (sd : List (List Nat)) (bc : Int) (w : NNWrapper) (L : Learner) (hk : L.scaleKind.Documented) (Q Y : Tensor ℝ) (hY : Y.shape = [w.N])
    (box : List Flt → Prop) (hrand : ∀ i, box (src.random i)) (hsugg : ∀ s, box (src.suggest s))
    (hbox : ∀ batch d o, sampleBatch w bc w.N draw = .ok batch → L.trainData batch w.train Y = .ok d → L.gp.getOptParams = .ok o →
      box (o.start order) ∧ ∀ x, box x →
      (∃ a, L.objective bs l draws d ((order.keys o.names).zip x) = .ok (some a)) ∧
      (l.raw = false → L.Uncertain bs draws d ((order.keys o.names).zip x))) :
    doRegress bs (fun L d => bayesLearn env order bs src init nIter L (l.inUnits c) draws d) draw sd bc w (L.inUnits c) Q (inUnits c Y) =
      (doRegress bs (fun L d => bayesLearn env order bs src init nIter L l draws d) draw sd bc w L Q Y).map
        fun r => (r.1.inUnits c, inUnits c r.2.1, inUnits (c ^ 2) r.2.2) := by
  refine C83_do_regress_partial hc bs _ _ draw sd bc w L Q Y ?_ ?_
  · intro batch d hb hd
    have hsh : d.targets.shape = [batch.1.length] := by
      unfold Learner.trainData makeTrainTensors at hd
      simp only [bind, Except.bind, pure, Except.pure] at hd
      cases h1 : defCrosswise L.deform.kind L.deform.metric w.train w.train (ofNats batch.1) batch.2 with
      | error e => rw [h1] at hd; cases hd
      | ok cr =>
        simp only [h1] at hd
        cases h2 : defPairwise L.deform.kind L.deform.metric w.train batch.2 with
        | error e => rw [h2] at hd; cases hd
        | ok pw =>
          simp only [h2] at hd
          cases h3 : Y.take batch.2 with
          | error e => rw [h3] at hd; cases hd
          | ok a =>
            simp only [h3] at hd
            cases h4 : Y.take (ofNats batch.1) with
            | error e => rw [h4] at hd; cases hd
            | ok t =>
              simp only [h4] at hd
              obtain rfl := Except.ok.inj hd
              simp only
              unfold Tensor.take at h4
              rw [hY] at h4
              simp only at h4
              split at h4
              · rw [← Except.ok.inj h4]; simp [ofNats]
              · cases h4
    exact C83_bayes hc env order bs src hst init nIter L hk l hl draws d _ (fun _ => hsh) box hrand hsugg
      (fun o ho => hbox batch d o hb hd ho)
  · intro d L1 h
    rw [bayesLearn_kind h]
    exact hk

/-- Non-vacuity of `C83_bayes`: the model and data of the example of `C60_bayes_never_worse_partial`, in a unit three times as large. -/
example (env : Env) (order : KeyOrder) (bs : Flt → ℝ → ℝ) (draws : List (List Nat)) :
    let L := aniLearner (oneScale 2)
    let d := aniData 1 0 0
    bayesLearn env order bs ⟨fun _ => [Flt.fin 1], fun _ => [Flt.fin 1]⟩ none none (L.inUnits (1 / 3)) .mse draws (d.inUnits (1 / 3)) =
      (bayesLearn env order bs ⟨fun _ => [Flt.fin 1], fun _ => [Flt.fin 1]⟩ none none L .mse draws d).map (Learner.inUnits (1 / 3)) := by
  intro L d
  have hnames : ∀ o, L.gp.getOptParams = .ok o → o.names = ["length_scale0"] := by
    intro o ho
    have hfree : (oneScale 2).length = 1 := by simp [oneScale]
    have h := getOptParams_eq L.gp (by simp [L, aniLearner, Learner.gp])
    rw [foldl_appendLists] at h
    rw [h] at ho
    rw [← Except.ok.inj ho]
    simp only [List.nil_append]
    exact oneScale_free 2
  refine C83_bayes (by norm_num) env order bs _ (fun _ _ _ _ => rfl) none none L trivial .mse trivial draws d 0 (by simp [LossKind.raw])
    (fun x => ∃ v, x = [v]) (fun _ => ⟨_, rfl⟩) (fun _ => ⟨_, rfl⟩) (fun o ho => ?_)
  have hk : order.keys o.names = ["length_scale0"] := by
    rw [hnames o ho]; cases order <;> rfl
  unfold OptLists.start
  rw [hk]
  refine ⟨⟨_, rfl⟩, ?_⟩
  rintro x ⟨v, rfl⟩
  refine ⟨?_, fun h => absurd h (by simp [LossKind.raw])⟩
  have e0 : vecName "length_scale" 0 = "length_scale0" := by decide
  have hst : startsLS "length_scale0" = true := by decide
  have hv : aniValues (oneScale 2) [("length_scale0", v)] = [v] := by
    simp [aniValues, oneScale, namedFrom, e0, Dict.has, hst]
  exact ⟨_, ani_objective bs (oneScale 2) 0 0 (by simp [oneScale]) (by simp [oneScale]) draws [("length_scale0", v)]
    (by intro a ha; rw [List.mem_singleton.mp ha]; exact (by decide : "length_scale0" ≠ "self" ∧ "length_scale0" ≠ "diffs" ∧
      "length_scale0" ≠ "dists" ∧ "length_scale0" ≠ "squared_dists")) (by simp [Dict.get?]) (by rw [hv]; rfl)⟩

theorem optimizeScale_analytic_any {bs : Flt → ℝ → ℝ} {draws : List (List Nat)} {L : Learner} {k : Nat} (hk : L.scaleKind = .analytic k)
    {P y Kin : Tensor ℝ} (hcall : L.trainee.R.kernel.call bs P [] = .ok Kin) {s : ℝ} (hs : analyticOpt L.trainee.R.gp.noise k Kin y = .ok s)
    (h0 : 0 < s) : L.optimizeScale bs draws P y = .ok ({ L with scale := s } : Learner).make := by
  unfold Learner.optimizeScale
  simp only [hcall, bind, Except.bind, hk, scaleOptFn, hs, pure, Except.pure]
  rw [if_neg (not_le.mpr h0)]

/-- C83 fails with `AnalyticScale(iteration_count=2)`: whenever the documented estimate is a positive number, measuring the responses
in a unit other than `±1` gives a scale that is not the old scale in the new unit. -/
theorem C83_iterations_fail {c : ℝ} (hc : c ≠ 0) (hc1 : c ^ 2 ≠ 1) (bs : Flt → ℝ → ℝ) (draws : List (List Nat)) (L : Learner)
    (hk : L.scaleKind = .analytic 2) (P y Kin : Tensor ℝ) (hcall : L.trainee.R.kernel.call bs P [] = .ok Kin) (b n : Nat)
    (hν : L.trainee.R.gp.noise.Fits b n) (hK : Kin.shape = [b, n, n]) (hy : y.shape = [b, n])
    (hinv : ∀ p < b, (Spec.cov n Kin p + L.trainee.R.gp.noise.mat n p).det ≠ 0)
    (hpos : 0 < Spec.scaleEstimate b (fun p => Spec.cov n Kin p + L.trainee.R.gp.noise.mat n p) (Spec.vec n y)) :
    ∃ s s', L.optimizeScale bs draws P y = .ok ({ L with scale := s } : Learner).make ∧
      (L.inUnits c).optimizeScale bs draws P (inUnits c y) = .ok ({ L with scale := s' } : Learner).make ∧ s' ≠ c ^ 2 * s := by
  set e := Spec.scaleEstimate b (fun p => Spec.cov n Kin p + L.trainee.R.gp.noise.mat n p) (Spec.vec n y) with he
  have h2 : (0 : ℝ) < c ^ 2 := by positivity
  have he' : c ^ 2 * e = Spec.scaleEstimate b (fun p => Spec.cov n Kin p + L.trainee.R.gp.noise.mat n p) (Spec.vec n (inUnits c y)) := by
    have h1 := (C33_documented_formula _ b n hν Kin y hK hy).1 hinv
    have h3 := (C33_documented_formula _ b n hν Kin (inUnits c y) hK hy).1 hinv
    rw [analyticOpt_units c _ 1 le_rfl, h1] at h3
    exact Except.ok.inj h3
  have hs := (C33_iterations_not_documented _ b n hν Kin y hK hy e hpos hinv he).1 1
  have hs' := (C33_iterations_not_documented _ b n hν Kin (inUnits c y) hK hy (c ^ 2 * e) (by positivity) hinv he').1 1
  refine ⟨heron e 1, heron (c ^ 2 * e) 1, optimizeScale_analytic_any hk hcall hs (heron_pos hpos 1),
    optimizeScale_analytic_any (L := L.inUnits c) hk hcall hs' (heron_pos (by positivity) 1), ?_⟩
  have e1 : ∀ x : ℝ, 0 < x → heron x 1 = 0.5 * (x + 1) := by
    intro x hx
    show 0.5 * (x + x / x) = _
    rw [div_self hx.ne']
  rw [e1 e hpos, e1 _ (by positivity)]
  intro h
  exact hc1 (by linarith)

/-- The hypotheses of `C83_iterations_fail` are met: two neighbours at distance 1 with response 1, in a unit half as large. -/
example (bs : Flt → ℝ → ℝ) :
    let L : Learner := { pairLearner (Flt.fin (1 / 2)) .m05 with scaleKind := .analytic 2 }
    ∃ s s', L.optimizeScale bs [] pairDists ⟨[1, 2], fun _ => 1⟩ = .ok ({ L with scale := s } : Learner).make ∧
      (L.inUnits 2).optimizeScale bs [] pairDists (inUnits 2 ⟨[1, 2], fun _ => 1⟩) = .ok ({ L with scale := s' } : Learner).make ∧
      s' ≠ 2 ^ 2 * s := by
  intro L
  obtain ⟨Kin, h1, h2⟩ := pair_scale bs (Flt.fin (1 / 2)) .m05 (.inl rfl) ⟨[1, 2], fun _ => 1⟩ rfl 1 rfl rfl 1 1
  have hKe := pair_call bs (Flt.fin (1 / 2)) .m05 (.inl rfl)
  have hK : Kin.shape = [1, 2, 2] := by
    rw [hKe] at h1
    rw [← Except.ok.inj h1]; rfl
  have hn : L.trainee.R.gp.noise = .homoscedastic 0 := by
    simp [L, pairLearner, Learner.trainee, NoiseObj.noise, fixedParam, Flt.toReal, Flt.fin]
  have hopt : analyticOpt (.homoscedastic 0) 1 Kin ⟨[1, 2], fun _ => 1⟩ = .ok (1 ^ 2 / (1 + KFn.m05.value bs none 1)) := by
    simp only [scaleOptFn, bind, Except.bind] at h2
    cases ha : analyticOpt (.homoscedastic 0) 1 Kin ⟨[1, 2], fun _ => 1⟩ with
    | error e => rw [ha] at h2; cases h2
    | ok s =>
      rw [ha] at h2
      simp only [pure, Except.pure, Except.ok.injEq, Option.some.injEq] at h2
      rw [h2]
  have hform := C33_documented_formula (.homoscedastic 0) 1 2 trivial Kin ⟨[1, 2], fun _ => 1⟩ hK rfl
  have hinv : ∀ p < 1, (Spec.cov 2 Kin p + (Noise.homoscedastic 0).mat 2 p).det ≠ 0 := by
    intro p hp h0
    rw [hform.2 ⟨p, hp, h0⟩] at hopt
    cases hopt
  have hest := Except.ok.inj ((hform.1 hinv).symm.trans hopt)
  refine C83_iterations_fail two_ne_zero (by norm_num) bs [] L rfl pairDists _ Kin h1 1 2 ?_ hK rfl ?_ ?_
  · rw [hn]; trivial
  · rw [hn]; exact hinv
  · rw [hn, hest]
    have : 0 < KFn.m05.value bs none 1 := Real.exp_pos _
    positivity

/-- Non-vacuity of `C83_do_regress_partial`: `lineLearner` is trained on three points (the optimiser answers length scale 2) and
predicts at two test points; in a unit a thousand times smaller, with the sign reversed, the means are multiplied by `-1000`. -/
example (bs : Flt → ℝ → ℝ) : ∃ w : NNWrapper, w.Exact ∧ w.N = 3 ∧ w.nnCount = 2 ∧ ∃ L μ v,
    doRegress bs lineOpt [] [] 3 w lineLearner lineTest ⟨[3], fun _ => 1⟩ = .ok (L, μ, v) ∧ 0 < L.scale ∧
    doRegress bs lineOpt [] [] 3 w (lineLearner.inUnits (-1000)) lineTest (inUnits (-1000) ⟨[3], fun _ => 1⟩) =
      .ok (L.inUnits (-1000), inUnits (-1000) μ, inUnits ((-1000) ^ 2) v) := by
  obtain ⟨w, hw, h1, h2, s, μ, v, hs, h, -⟩ := line_trained bs
  refine ⟨w, hw, h1, h2, _, μ, v, h, hs, ?_⟩
  rw [C83_do_regress_partial (by norm_num) bs lineOpt lineOpt [] [] 3 w lineLearner lineTest ⟨[3], fun _ => 1⟩ (fun _ d _ _ => rfl)
    (fun d L1 hL => by obtain rfl := Except.ok.inj hL; exact le_rfl), h]
  rfl

end MuyGPyS
