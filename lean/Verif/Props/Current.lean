import Verif.Props.UpdateWitness

/-!
# C81: a changed hyperparameter takes effect
-/

namespace MuyGPyS
open Py

theorem made_iff (L : Learner) :
    L.Made ↔ (match L.kernel.smoothness with | none => KFn.rbf | some p => setMaternFn p) = L.fn ∧ L.scale = L.boundScale := by
  obtain ⟨k, n, m, d, fn, sk, s, b⟩ := L
  unfold Learner.Made Learner.make
  simp only [Learner.mk.injEq, true_and]
  exact Iff.rfl

/-- A made model with implementation `form`, and whether its kernel has a smoothness. -/
def MadeWith (form : KFn) (rbf : Bool) (L : Learner) : Prop := L.Made ∧ L.fn = form ∧ L.kernel.smoothness.isNone = rbf

theorem setParams_made (form : KFn) (rbf : Bool) (kws : List (String × Param)) :
    (rbf = true ∨ ∀ q, ("smoothness", q) ∈ kws → setMaternFn q = form) → ∀ L, MadeWith form rbf L →
      MadeWith form rbf (L.setParams kws).1 := by
  induction kws with
  | nil => intro _ L h; exact h
  | cons kq rest ih =>
    intro hk L hL
    obtain ⟨key, q⟩ := kq
    unfold Learner.setParams
    cases hg : Dict.get? L.kernel.hyperparameters key with
    | none => exact hL
    | some p =>
      refine ih (hk.imp_right fun h q' hq' => h q' (List.mem_cons_of_mem _ hq')) _ ?_
      obtain ⟨h1, h2, h3⟩ := hL
      rw [made_iff] at h1
      refine ⟨?_, h2, ?_⟩
      · rw [made_iff]
        refine ⟨?_, h1.2⟩
        show (match L.kernel.smoothness.map fun p' => if "smoothness" = key then p.setFrom q else p' with
          | none => KFn.rbf | some p => setMaternFn p) = L.fn
        cases hs : L.kernel.smoothness with
        | none => rw [hs] at h1; exact h1.1
        | some p' =>
          rw [hs] at h1
          simp only [Option.map_some]
          split_ifs with hkey
          · rcases hk with rfl | hk
            · rw [hs] at h3; simp at h3
            · rw [h2]; exact hk q (by rw [hkey]; exact List.mem_cons_self)
          · exact h1.1
      · show (L.kernel.smoothness.map _).isNone = rbf
        rw [Option.isNone_map]; exact h3

theorem change_made (bs : Flt → ℝ → ℝ) (form : KFn) (rbf : Bool) (c : Change) (hc : rbf = true ∨ c.KeepsForm form) (L : Learner)
    (hL : MadeWith form rbf L) : MadeWith form rbf (c.run bs L).1 := by
  cases c with
  | setParams kws => exact setParams_made form rbf kws hc L hL
  | setVal env key v =>
    show MadeWith form rbf (L.setKernelVal env key v).1
    unfold Learner.setKernelVal
    cases Dict.get? L.kernel.hyperparameters key with
    | none => exact hL
    | some p =>
      simp only
      cases p.setVal env v with
      | error e => exact hL
      | ok q =>
        obtain ⟨h1, h2, h3⟩ := hL
        rw [made_iff] at h1
        refine ⟨?_, h2, ?_⟩
        · rw [made_iff]
          refine ⟨?_, h1.2⟩
          show (match L.kernel.smoothness.map fun p' => if "smoothness" = key then q else p' with
            | none => KFn.rbf | some p => setMaternFn p) = L.fn
          cases hs : L.kernel.smoothness with
          | none => rw [hs] at h1; exact h1.1
          | some p' =>
            rw [hs] at h1
            rw [hs] at h3
            rcases hc with rfl | hc
            · simp at h3
            · simp only [Option.map_some, if_neg (Ne.symm hc)]
              exact h1.1
        · show (L.kernel.smoothness.map _).isNone = rbf
          rw [Option.isNone_map]; exact h3
  | setNoise env v =>
    show MadeWith form rbf (L.setNoiseVal env v).1
    unfold Learner.setNoiseVal
    cases L.noise.setVal env v with
    | error e => exact hL
    | ok n =>
      obtain ⟨h1, h2, h3⟩ := hL
      rw [made_iff] at h1
      exact ⟨by rw [made_iff]; exact h1, h2, h3⟩
  | optimizeScale draws pw y =>
    show MadeWith form rbf (L.optimizeScaleIn bs draws pw y).1
    by_cases hf : Failed (L.optimizeScaleIn bs draws pw y).2
    · have h : (L.optimizeScaleIn bs draws pw y).1 = L := C80_change_partial bs (.optimizeScale draws pw y) trivial L hf
      rw [h]; exact hL
    · rcases hr : L.optimizeScaleIn bs draws pw y with ⟨L', o⟩
      cases o with
      | error e => exact absurd ⟨e, by rw [hr]⟩ hf
      | ok u =>
        obtain ⟨s, -, h2, -⟩ := optimizeScale_spec ((optimizeScaleIn_iff bs draws L L' pw y).1 hr)
        obtain ⟨h3, h4, h5⟩ := hL
        rw [made_iff] at h3
        subst h2
        refine ⟨rfl, ?_, h5⟩
        rw [← h4]; exact h3.1

/-- **C81.** After any history of changes, successful or not, the model computes as one newly constructed from the hyperparameters it
reports: for every kernel without a smoothness, and for every Matérn kernel as long as no change of its smoothness calls for another
implementation than the one in use.

What is missing are the other changes of the smoothness, see `C81_smoothness_fails`. -/
theorem C81_current_partial (bs : Flt → ℝ → ℝ) (L : Learner) (hL : L.Made) (cs : List Change)
    (hc : L.kernel.smoothness = none ∨ ∀ c ∈ cs, c.KeepsForm L.fn) : (L.changes bs cs).1.Made := by
  have key : ∀ (cs : List Change) (form : KFn) (rbf : Bool), (∀ c ∈ cs, rbf = true ∨ c.KeepsForm form) →
      ∀ L, MadeWith form rbf L → MadeWith form rbf (L.changes bs cs).1 := by
    intro cs form rbf
    induction cs with
    | nil => intro _ L h; exact h
    | cons c cs ih =>
      intro h L hL
      exact ih (fun c' h' => h c' (List.mem_cons_of_mem _ h')) _ (change_made bs form rbf c (h c List.mem_cons_self) L hL)
  refine (key cs L.fn L.kernel.smoothness.isNone (fun c h => ?_) L ⟨hL, rfl, rfl⟩).1
  rcases hc with h1 | h2
  · left; rw [h1]; rfl
  · right; exact h2 c h

theorem hyper_some {k : Kernel} {key : String} {p : Param} (h : Dict.get? k.hyperparameters key = some p) : (key, p) ∈ k.named := by
  rw [hyperparameters_eq] at h
  unfold Dict.get? at h
  obtain ⟨a, ha, rfl⟩ := Option.map_eq_some_iff.mp h
  have h1 := List.find?_some ha
  have h2 := List.mem_of_find?_eq_some ha
  rwa [show a = (key, a.2) from Prod.ext (by simpa using h1) rfl] at h2

/-- The value a list of assignments leaves under a name: the last one assigned to it, else the old one. -/
def lastAssigned (kws : List (String × Param)) (key : String) (p : Param) : Param :=
  (((kws.filter fun kq => kq.1 = key).getLast?).map Prod.snd).getD p

/-- **C81**: what a successful change stores. `set_params`: every named hyperparameter becomes the last parameter assigned to its name. `_set_val` of a
number: the hyperparameter of that name takes the number and keeps its bounds. The same for the noise. `optimize_scale`: the scale the model promises (C33) is both reported and used.
Nothing else changes (but for the implementation `optimize_scale` rebinds). -/
theorem C81_stored (bs : Flt → ℝ → ℝ) (L : Learner) :
    (∀ kws, ((Change.setParams kws).run bs L).2 = .ok () →
      ((Change.setParams kws).run bs L).1 = { L with kernel := ((Change.setParams kws).run bs L).1.kernel } ∧
      ((Change.setParams kws).run bs L).1.kernel.named = L.kernel.named.map fun np => (np.1, lastAssigned kws np.1 np.2)) ∧
    (∀ env key x, ((Change.setVal env key (.num x)).run bs L).2 = .ok () →
      ((Change.setVal env key (.num x)).run bs L).1 = { L with kernel := ((Change.setVal env key (.num x)).run bs L).1.kernel } ∧
      ∃ p, (key, p) ∈ L.kernel.named ∧ ((Change.setVal env key (.num x)).run bs L).1.kernel.named =
        L.kernel.named.map fun np => (np.1, if np.1 = key then { p with val := x } else np.2)) ∧
    (∀ env v, ((Change.setNoise env v).run bs L).2 = .ok () → ∃ p, L.noise = .homoscedastic p ∧
      ((Change.setNoise env v).run bs L).1 = { L with noise := .homoscedastic { p with val := v } }) ∧
    ∀ draws pw y, ((Change.optimizeScale draws pw y).run bs L).2 = .ok () →
      ∃ K s, L.trainee.R.kernel.call bs pw [] = .ok K ∧ L.trainee.promisedScale draws K y = .ok (some s) ∧
        ((Change.optimizeScale draws pw y).run bs L).1 =
          { L with scale := s, boundScale := s, fn := ((Change.optimizeScale draws pw y).run bs L).1.fn } := by
  have hset : ∀ (env : Env) (p q : Param) (x : Flt), p.setVal env (.num x) = .ok q → q = { p with val := x } := by
    intro env p q x h
    unfold Param.setVal checkVal checkRange at h
    simp only [bind, Except.bind, pure, Except.pure] at h
    split_ifs at h <;> first | (cases h; done) | (cases h; rfl) | skip
  refine ⟨fun kws h => ?_, fun env key x h => ?_, fun env v h => ?_, fun draws pw y h => ?_⟩
  · refine ⟨(setParams_frame kws L).1, ?_⟩
    have key : ∀ (kws : List (String × Param)) (L : Learner), (L.setParams kws).2 = .ok () →
        (L.setParams kws).1.kernel.named = L.kernel.named.map fun np => (np.1, lastAssigned kws np.1 np.2) := by
      intro kws
      induction kws with
      | nil =>
        intro L _
        show L.kernel.named = _
        conv_lhs => rw [← List.map_id L.kernel.named]
        rfl
      | cons kq rest ih =>
        intro L h
        obtain ⟨key, q⟩ := kq
        unfold Learner.setParams at h ⊢
        cases hg : Dict.get? L.kernel.hyperparameters key with
        | none => rw [hg] at h; cases h
        | some p =>
          rw [hg] at h
          refine (ih _ h).trans ?_
          show (L.kernel.put key (p.setFrom q)).named.map _ = _
          rw [put_named, List.map_map]
          refine List.map_congr_left fun np _ => ?_
          simp only [Function.comp_apply, Prod.mk.injEq, true_and]
          unfold lastAssigned
          by_cases hk : np.1 = key
          · rw [List.filter_cons_of_pos (by simp [hk])]
            rw [if_pos hk]
            cases hl : (rest.filter fun kq => decide (kq.1 = np.1)) with
            | nil => rfl
            | cons a l => simp [List.getLast?_cons]
          · rw [List.filter_cons_of_neg (by simpa using fun h => hk h.symm)]
            rw [if_neg hk]
    exact key kws L h
  · change (L.setKernelVal env key (.num x)).2 = _ at h
    show (L.setKernelVal env key (.num x)).1 = { L with kernel := (L.setKernelVal env key (.num x)).1.kernel } ∧
      ∃ p, (key, p) ∈ L.kernel.named ∧ (L.setKernelVal env key (.num x)).1.kernel.named = _
    unfold Learner.setKernelVal at h ⊢
    cases hg : Dict.get? L.kernel.hyperparameters key with
    | none => rw [hg] at h; cases h
    | some p =>
      rw [hg] at h
      simp only at h ⊢
      cases hv : p.setVal env (.num x) with
      | error e => rw [hv] at h; cases h
      | ok q =>
        refine ⟨rfl, p, hyper_some hg, ?_⟩
        rw [← hset env p q x hv]
        exact put_named _ _ _
  · change (L.setNoiseVal env v).2 = _ at h
    show ∃ p, L.noise = .homoscedastic p ∧ (L.setNoiseVal env v).1 = _
    unfold Learner.setNoiseVal at h ⊢
    cases hn : L.noise with
    | null => rw [hn] at h; cases h
    | heteroscedastic t => rw [hn] at h; cases h
    | homoscedastic p =>
      rw [hn] at h
      unfold NoiseObj.setVal at h ⊢
      simp only [bind, Except.bind, pure, Except.pure] at h ⊢
      cases hv : p.setVal env (.num v) with
      | error e => rw [hv] at h; cases h
      | ok q =>
        refine ⟨p, rfl, ?_⟩
        rw [← hset env p q v hv]
  · rcases hr : L.optimizeScaleIn bs draws pw y with ⟨L', o⟩
    have e : (Change.optimizeScale draws pw y).run bs L = (L', o) := hr
    rw [e] at h ⊢
    simp only at h ⊢
    subst h
    unfold Learner.optimizeScaleIn at hr
    cases hK : L.trainee.R.kernel.call bs pw [] with
    | error e => rw [hK] at hr; cases hr
    | ok K =>
      rw [hK] at hr
      simp only at hr
      cases hs : scaleOptFn L.scaleKind L.trainee.R.gp draws K y [] with
      | error e => rw [hs] at hr; cases hr
      | ok so =>
        rw [hs] at hr
        cases so with
        | none => cases hr
        | some s =>
          refine ⟨K, s, rfl, ?_, ?_⟩
          · rw [← hs]
            unfold Trainee.promisedScale scaleOptFn
            show (match L.scaleKind with
              | .fixed => _
              | .analytic n => _
              | .downSample d => _) = _
            cases L.scaleKind with
            | fixed => rfl
            | analytic n =>
              simp only [bind, Except.bind, pure, Except.pure]
              cases analyticOpt L.trainee.R.gp.noise n K y <;> rfl
            | downSample d => rfl
          · simp only [Learner.storeScale] at hr
            split_ifs at hr with h0
            · exact absurd (Prod.mk.inj hr).2 (by simp)
            · have := (Prod.mk.inj hr).1
              subst this
              rfl

/-- **C81**: whatever was done before, a model whose `optimize_scale` succeeded computes as newly constructed. -/
theorem C81_after_optimize_scale (bs : Flt → ℝ → ℝ) (L : Learner) (cs : List Change) (draws : List (List Nat)) (pw y : Tensor ℝ)
    (h : ((Change.optimizeScale draws pw y).run bs (L.changes bs cs).1).2 = .ok ()) :
    ((Change.optimizeScale draws pw y).run bs (L.changes bs cs).1).1.Made := by
  rcases hr : (L.changes bs cs).1.optimizeScaleIn bs draws pw y with ⟨L', o⟩
  have e : (Change.optimizeScale draws pw y).run bs (L.changes bs cs).1 = (L', o) := hr
  rw [e] at h ⊢
  simp only at h
  subst h
  obtain ⟨s, -, h2, -⟩ := optimizeScale_spec ((optimizeScaleIn_iff bs draws _ L' pw y).1 hr)
  subst h2
  rfl

theorem rho_lt (bs : Flt → ℝ → ℝ) : KFn.value bs none .m05 1 < KFn.value bs none .m15 1 := by
  have h3 : Real.sqrt 3 < 1.8 := by
    rw [Real.sqrt_lt' (by norm_num)]; norm_num
  have h3' : 1.73 < Real.sqrt 3 := by
    rw [Real.lt_sqrt (by norm_num)]; norm_num
  simp only [KFn.value, one_mul]
  have e : Real.exp (-1) = Real.exp (Real.sqrt 3 - 1) * Real.exp (-Real.sqrt 3) := by
    rw [← Real.exp_add]; congr 1; ring
  rw [e]
  refine mul_lt_mul_of_pos_right ?_ (Real.exp_pos _)
  have h1 : Real.exp (Real.sqrt 3 - 1) < Real.exp 1 := Real.exp_lt_exp.2 (by linarith)
  have h2 := Real.exp_one_lt_d9
  linarith

theorem pair_reset (bs : Flt → ℝ → ℝ) :
    (Change.setParams [("smoothness", fixedParam (Flt.fin (3 / 2)))]).run bs (pairLearner (Flt.fin (1 / 2)) .m05) =
      (pairLearner (Flt.fin (3 / 2)) .m05, .ok ()) := by
  have : Dict.get? (pairLearner (Flt.fin (1 / 2)) .m05).kernel.hyperparameters "smoothness" = some (fixedParam (Flt.fin (1 / 2))) := by
    rw [hyperparameters_eq]
    simp [pairLearner, Kernel.named, LenScale.named, Dict.get?]
  show (match Dict.get? (pairLearner (Flt.fin (1 / 2)) .m05).kernel.hyperparameters "smoothness" with
      | none => (pairLearner (Flt.fin (1 / 2)) .m05, Except.error Err.key)
      | some p => Learner.setParams { pairLearner (Flt.fin (1 / 2)) .m05 with
          kernel := (pairLearner (Flt.fin (1 / 2)) .m05).kernel.put "smoothness" (p.setFrom (fixedParam (Flt.fin (3 / 2)))) } []) = _
  rw [this]
  simp [Learner.setParams, pairLearner, Kernel.put, Param.setFrom, fixedParam]

theorem pair_optimizeScale (bs : Flt → ℝ → ℝ) (fn : KFn) (hfn : fn = .m05 ∨ fn = .m15) (s b : ℝ) :
    (Change.optimizeScale [] pairDists ⟨[1, 2], fun _ => 1⟩).run bs { pairLearner (Flt.fin (3 / 2)) fn with scale := s, boundScale := b } =
      ({ pairLearner (Flt.fin (3 / 2)) .m15 with
          scale := 1 / (1 + fn.value bs none 1), boundScale := 1 / (1 + fn.value bs none 1) }, .ok ()) := by
  obtain ⟨Kin, h1, h2⟩ := pair_scale bs (Flt.fin (3 / 2)) fn hfn ⟨[1, 2], fun _ => 1⟩ rfl 1 rfl rfl s b
  have h1' : ({ pairLearner (Flt.fin (3 / 2)) fn with scale := s, boundScale := b } : Learner).trainee.R.kernel.call bs pairDists [] =
      .ok Kin := h1
  have e3 : ({ pairLearner (Flt.fin (3 / 2)) fn with scale := s, boundScale := b } : Learner).trainee.R.gp =
      ⟨.homoscedastic 0, KernelObj.kout, s, b⟩ := by
    simp [pairLearner, Learner.trainee, NoiseObj.noise, fixedParam, Flt.toReal, Flt.fin]
  have hpos : 0 < fn.value bs none 1 := by
    rcases hfn with rfl | rfl <;> simp only [KFn.value] <;> positivity
  have hnot : ¬ (1 : ℝ) ^ 2 / (1 + fn.value bs none 1) ≤ 0 := by push Not; positivity
  show Learner.optimizeScaleIn bs [] _ pairDists ⟨[1, 2], fun _ => 1⟩ = _
  unfold Learner.optimizeScaleIn
  rw [h1', e3]
  simp only [show (pairLearner (Flt.fin (3 / 2)) fn).scaleKind = .analytic 1 from rfl, h2, Learner.storeScale, if_neg hnot]
  refine Prod.ext ?_ rfl
  show ({ pairLearner (Flt.fin (3 / 2)) fn with
    scale := (1 : ℝ) ^ 2 / (1 + fn.value bs none 1), fn := setMaternFn (fixedParam (Flt.fin (3 / 2))),
    boundScale := (1 : ℝ) ^ 2 / (1 + fn.value bs none 1) } : Learner) = _
  rw [form_three_halves, one_pow]
  rfl

/-- C81 fails for the smoothness: a Matérn model with smoothness 1/2 whose kernel is given the smoothness 3/2 by `set_params` reports
3/2 but goes on computing the exponential kernel; a model constructed with the parameters it reports computes something else. -/
theorem C81_smoothness_fails (bs : Flt → ℝ → ℝ) :
    let L := pairLearner (Flt.fin (1 / 2)) .m05
    let c := Change.setParams [("smoothness", fixedParam (Flt.fin (3 / 2)))]
    let L' := (c.run bs L).1
    L.Made ∧ (c.run bs L).2 = .ok () ∧ L'.kernel.smoothness = some (fixedParam (Flt.fin (3 / 2))) ∧ ¬ L'.Made ∧
    L'.trainee.R.kernel.call bs pairDists [] = .ok (pairDists.map fun d => Real.exp (-d)) ∧
    L'.make.trainee.R.kernel.call bs pairDists [] = .ok (pairDists.map fun d => (1 + d * Real.sqrt 3) * Real.exp (-(d * Real.sqrt 3))) ∧
    L'.trainee.R.kernel.call bs pairDists [] ≠ L'.make.trainee.R.kernel.call bs pairDists [] := by
  intro L c L'
  have e : c.run bs L = (pairLearner (Flt.fin (3 / 2)) .m05, .ok ()) := pair_reset bs
  have hL' : L' = pairLearner (Flt.fin (3 / 2)) .m05 := congrArg Prod.fst e
  have hmk : L'.make = pairLearner (Flt.fin (3 / 2)) .m15 := by
    rw [hL']
    show ({ pairLearner (Flt.fin (3 / 2)) .m05 with fn := setMaternFn (fixedParam (Flt.fin (3 / 2))), boundScale := 1 } : Learner) = _
    rw [form_three_halves]; rfl
  have c1 := pair_call bs (Flt.fin (3 / 2)) .m05 (Or.inl rfl)
  have c2 := pair_call bs (Flt.fin (3 / 2)) .m15 (Or.inr rfl)
  refine ⟨pair_made _ _ form_half, congrArg Prod.snd e, by rw [hL']; rfl, ?_, ?_, ?_, ?_⟩
  · intro h
    have h1 : L'.make.fn = L'.fn := congrArg Learner.fn h
    rw [hmk, hL'] at h1
    cases h1
  · rw [hL']; exact c1
  · rw [hmk]; exact c2
  · rw [hmk, hL', c1, c2]
    intro h
    have h1 := congrArg (fun t => t.flat 1) (Except.ok.inj h)
    have h2 : KFn.value bs none .m05 1 = KFn.value bs none .m15 1 := by
      simpa [Tensor.map, pairDists] using h1
    exact absurd h2 (rho_lt bs).ne

/-- C81 fails for the scale: after `set_params` with smoothness 3/2 as above, `optimize_scale` estimates the scale with the exponential
kernel and only then switches to the kernel with smoothness 3/2. The same call on a model constructed with the same parameters, and the
same call made a second time, give a different scale. -/
theorem C81_scale_fails (bs : Flt → ℝ → ℝ) :
    let L := pairLearner (Flt.fin (1 / 2)) .m05
    let y : Tensor ℝ := ⟨[1, 2], fun _ => 1⟩
    let L1 := ((Change.setParams [("smoothness", fixedParam (Flt.fin (3 / 2)))]).run bs L).1
    let L2 := ((Change.optimizeScale [] pairDists y).run bs L1).1
    let fresh := ((Change.optimizeScale [] pairDists y).run bs L1.make).1
    let again := ((Change.optimizeScale [] pairDists y).run bs L2).1
    L2.scale = 1 / (1 + Real.exp (-1)) ∧ L2.fn = .m15 ∧
    fresh.scale = 1 / (1 + (1 + Real.sqrt 3) * Real.exp (-Real.sqrt 3)) ∧ fresh.fn = .m15 ∧
    again.scale = fresh.scale ∧ fresh.scale < L2.scale := by
  have e1 : (Change.setParams [("smoothness", fixedParam (Flt.fin (3 / 2)))]).run bs (pairLearner (Flt.fin (1 / 2)) .m05) = _ :=
    pair_reset bs
  have e2 := pair_optimizeScale bs .m05 (Or.inl rfl) 1 1
  have e3 := pair_optimizeScale bs .m15 (Or.inr rfl) 1 1
  have e4 := pair_optimizeScale bs .m15 (Or.inr rfl) (1 / (1 + KFn.value bs none .m05 1)) (1 / (1 + KFn.value bs none .m05 1))
  have hmk : (pairLearner (Flt.fin (3 / 2)) .m05).make = { pairLearner (Flt.fin (3 / 2)) .m15 with scale := 1, boundScale := 1 } := by
    show ({ pairLearner (Flt.fin (3 / 2)) .m05 with fn := setMaternFn (fixedParam (Flt.fin (3 / 2))), boundScale := 1 } : Learner) = _
    rw [form_three_halves]; rfl
  have e2' : (Change.optimizeScale [] pairDists ⟨[1, 2], fun _ => 1⟩).run bs (pairLearner (Flt.fin (3 / 2)) .m05) = _ := e2
  simp only [e1, e2', hmk, e3, e4]
  have hpos : 0 < KFn.value bs none .m05 1 := Real.exp_pos _
  refine ⟨by simp [KFn.value], rfl, by simp [KFn.value], rfl, trivial, ?_⟩
  exact one_div_lt_one_div_of_lt (by linarith) (by linarith [rho_lt bs])

/-- A history to which `C81_current_partial` and `C80_history_partial` apply: a length scale, a misspelt name and the scale. Only the second call raises. -/
example (bs : Flt → ℝ → ℝ) :
    let L := pairLearner (Flt.fin (1 / 2)) .m05
    let cs := [Change.setParams [("length_scale", fixedParam (Flt.fin 2))], .setParams [("length", fixedParam (Flt.fin 3))],
      .optimizeScale [] pairDists ⟨[1, 2], fun _ => 1⟩]
    (∀ c ∈ cs, c.OneAtATime) ∧ (∀ c ∈ cs, c.KeepsForm L.fn) ∧ L.Made ∧ (L.changes bs cs).1.Made ∧
    (L.changes bs cs).2[1]? = some (.error .key) := by
  intro L cs
  have h2 : ∀ c ∈ cs, c.KeepsForm L.fn := by simp [cs, Change.KeepsForm]
  refine ⟨by simp [cs, Change.OneAtATime], h2, pair_made _ _ form_half,
    C81_current_partial bs L (pair_made _ _ form_half) cs (Or.inr h2), ?_⟩
  have h : ∀ M : Learner, M.kernel.named.map Prod.fst = ["length_scale", "smoothness"] →
      ((Change.setParams [("length", fixedParam (Flt.fin 3))]).run bs M).2 = .error .key := by
    intro M hM
    show (match Dict.get? M.kernel.hyperparameters "length" with
      | none => (M, Except.error Err.key)
      | some p => Learner.setParams { M with kernel := M.kernel.put "length" (p.setFrom (fixedParam (Flt.fin 3))) } []).2 = _
    rw [(hyper_none M.kernel "length").2 (by rw [hM]; simp)]
  show some ((Change.setParams [("length", fixedParam (Flt.fin 3))]).run bs
    ((Change.setParams [("length_scale", fixedParam (Flt.fin 2))]).run bs L).1).2 = _
  rw [h]
  exact (setParams_frame [("length_scale", fixedParam (Flt.fin 2))] L).2

/-- `C81_stored`: changes of each kind that succeed. -/
example (bs : Flt → ℝ → ℝ) (env : Env) :
    let L := pairLearner (Flt.fin (1 / 2)) .m05
    let M : Learner := { L with noise := .homoscedastic (fixedParam (Flt.fin 1)) }
    ((Change.setParams [("length_scale", fixedParam (Flt.fin 2)), ("length_scale", fixedParam (Flt.fin 3))]).run bs L).2 = .ok () ∧
    ((Change.setVal env "length_scale" (.num (Flt.fin 2))).run bs L).2 = .ok () ∧
    ((Change.setNoise env (Flt.fin 2)).run bs M).2 = .ok () := by
  refine ⟨rfl, ?_, ?_⟩
  · show (Learner.setKernelVal env _ "length_scale" (.num (Flt.fin 2))).2 = _
    unfold Learner.setKernelVal
    rw [show Dict.get? (pairLearner (Flt.fin (1 / 2)) .m05).kernel.hyperparameters "length_scale" = some (fixedParam (Flt.fin 1)) from rfl]
    simp [Param.setVal, checkVal, checkRange, fixedParam, bind, Except.bind, pure, Except.pure]
  · show (Learner.setNoiseVal env _ (Flt.fin 2)).2 = _
    simp [Learner.setNoiseVal, NoiseObj.setVal, Param.setVal, checkVal, checkRange, fixedParam, bind, Except.bind, pure, Except.pure]

end MuyGPyS
