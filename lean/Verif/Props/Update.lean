import Verif.Spec.Update
import Verif.Lemmas.Hyper
import Verif.Props.MultiPipeline

/-!
# C80: a call that raises leaves the model as it was
-/

namespace MuyGPyS
open Py

theorem put_named (k : Kernel) (key : String) (q : Param) :
    (k.put key q).named = k.named.map fun np => (np.1, if np.1 = key then q else np.2) := by
  have hv : ∀ (ps : List Param) (i : Nat), namedFrom "length_scale" i (updNamed key "length_scale" q i ps) =
      (namedFrom "length_scale" i ps).map fun np => (np.1, if np.1 = key then q else np.2) := by
    intro ps
    induction ps with
    | nil => intro i; rfl
    | cons p ps ih => intro i; simp only [updNamed, namedFrom, List.map_cons, ih]
  obtain ⟨ls, sm⟩ := k
  unfold Kernel.named Kernel.put
  rw [List.map_append]
  congr 1
  · cases ls with
    | scalar p => rfl
    | vector ps => exact hv ps 0
  · cases sm <;> rfl

theorem hyper_none (k : Kernel) (key : String) :
    Dict.get? k.hyperparameters key = none ↔ key ∉ k.named.map Prod.fst := by
  rw [Dict.get?_none_iff, hyperparameters_eq, ← not_iff_not, not_not, Bool.not_eq_false, Dict.has_iff]
  rfl

theorem put_keys (k : Kernel) (key : String) (q : Param) : (k.put key q).named.map Prod.fst = k.named.map Prod.fst := by
  rw [put_named, List.map_map]; rfl

theorem setParams_frame (kws : List (String × Param)) : ∀ L : Learner,
    (L.setParams kws).1 = { L with kernel := (L.setParams kws).1.kernel } ∧
    (L.setParams kws).1.kernel.named.map Prod.fst = L.kernel.named.map Prod.fst := by
  induction kws with
  | nil => intro L; exact ⟨rfl, rfl⟩
  | cons kq rest ih =>
    intro L
    obtain ⟨key, q⟩ := kq
    unfold Learner.setParams
    cases Dict.get? L.kernel.hyperparameters key with
    | none => exact ⟨rfl, rfl⟩
    | some p =>
      obtain ⟨h1, h2⟩ := ih { L with kernel := L.kernel.put key (p.setFrom q) }
      exact ⟨h1, h2.trans (put_keys _ _ _)⟩

/-- **C80**, several hyperparameters at once: `set_params` with names of hyperparameters of the kernel never raises, every named
hyperparameter gets the value, bounds and status given, and nothing else changes. -/
theorem C80_set_params (L : Learner) (kws : List (String × Param)) (hnd : (kws.map Prod.fst).Nodup)
    (hk : ∀ kq ∈ kws, kq.1 ∈ L.kernel.named.map Prod.fst) :
    ∃ k', L.setParams kws = ({ L with kernel := k' }, .ok ()) ∧
      k'.named = L.kernel.named.map fun np => (np.1, (Dict.get? kws np.1).getD np.2) := by
  induction kws generalizing L with
  | nil =>
    refine ⟨L.kernel, rfl, ?_⟩
    rw [List.map_congr_left (g := id) (fun np _ => by rfl), List.map_id]
  | cons kq rest ih =>
    obtain ⟨key, q⟩ := kq
    have hkey : Dict.get? L.kernel.hyperparameters key ≠ none := by
      rw [Ne, hyper_none, not_not]; exact hk _ List.mem_cons_self
    obtain ⟨p, hp⟩ := Option.ne_none_iff_exists'.mp hkey
    rw [List.map_cons, List.nodup_cons] at hnd
    obtain ⟨k', h1, h2⟩ := ih { L with kernel := L.kernel.put key (p.setFrom q) } hnd.2
      (fun kq h => by rw [put_keys]; exact hk kq (List.mem_cons_of_mem _ h))
    refine ⟨k', ?_, ?_⟩
    · show (match Dict.get? L.kernel.hyperparameters key with
        | none => (L, Except.error Err.key)
        | some p => Learner.setParams { L with kernel := L.kernel.put key (p.setFrom q) } rest) = _
      rw [hp]
      exact h1
    · rw [h2, put_named, List.map_map]
      refine List.map_congr_left fun np _ => ?_
      simp only [Function.comp]
      by_cases hn : np.1 = key
      · have : Dict.get? rest np.1 = none := by
          rw [Dict.get?_none_iff, ← Bool.not_eq_true, Dict.has_iff, hn]; exact hnd.1
        rw [this, if_pos hn]
        simp [Dict.get?, hn, Param.setFrom]
      · rw [if_neg hn]
        have : Dict.get? ((key, q) :: rest) np.1 = Dict.get? rest np.1 := by
          simp [Dict.get?, Ne.symm hn]
        rw [this]

/-- **C80.** A change that raises leaves the model as it was: setting one hyperparameter, assigning a value to a hyperparameter or to
the noise, `optimize_scale` with any tensors.

What is missing is `set_params` with several hyperparameters of which one is unknown (`C80_set_params_fails`) and models with
several outputs (`C80_multi_fails`). -/
theorem C80_change_partial (bs : Flt → ℝ → ℝ) (c : Change) (hc : c.OneAtATime) : AllOrNothing fun L => c.run bs L := by
  rintro L ⟨e, he⟩
  cases c with
  | setParams kws =>
    match kws, hc with
    | [], _ => rfl
    | [(key, q)], _ =>
      show (Learner.setParams L [(key, q)]).1 = L
      replace he : (Learner.setParams L [(key, q)]).2 = .error e := he
      revert he
      unfold Learner.setParams
      cases Dict.get? L.kernel.hyperparameters key with
      | none => intro _; rfl
      | some p => intro h; cases h
  | setVal env key v =>
    show (L.setKernelVal env key v).1 = L
    replace he : (L.setKernelVal env key v).2 = .error e := he
    revert he
    unfold Learner.setKernelVal
    cases Dict.get? L.kernel.hyperparameters key with
    | none => intro _; rfl
    | some p =>
      simp only
      cases p.setVal env v with
      | error e' => intro _; rfl
      | ok q => intro h; cases h
  | setNoise env v =>
    show (L.setNoiseVal env v).1 = L
    replace he : (L.setNoiseVal env v).2 = .error e := he
    revert he
    unfold Learner.setNoiseVal
    cases L.noise.setVal env v with
    | error e' => intro _; rfl
    | ok q => intro h; cases h
  | optimizeScale draws pw y =>
    show (L.optimizeScaleIn bs draws pw y).1 = L
    replace he : (L.optimizeScaleIn bs draws pw y).2 = .error e := he
    revert he
    unfold Learner.optimizeScaleIn
    cases L.trainee.R.kernel.call bs pw [] with
    | error e' => intro _; rfl
    | ok Kin =>
      simp only
      cases scaleOptFn L.scaleKind L.trainee.R.gp draws Kin y [] with
      | error e' => intro _; rfl
      | ok s =>
        cases s with
        | none => intro _; rfl
        | some s =>
          simp only [Learner.storeScale]
          by_cases hs : s ≤ 0
          · simp only [if_pos hs]; intro _; trivial
          · simp only [if_neg hs]; intro h; cases h

/-- **C80**, every history: when the user catches the exceptions and goes on, the model at the end is the one the calls that did not
raise produce without the others, and those calls do not raise then either. -/
theorem C80_history_partial (bs : Flt → ℝ → ℝ) (cs : List Change) (hc : ∀ c ∈ cs, c.OneAtATime) : ∀ L : Learner,
    L.changes bs (succeeded cs (L.changes bs cs).2) = ((L.changes bs cs).1, (succeeded cs (L.changes bs cs).2).map fun _ => .ok ()) := by
  induction cs with
  | nil => intro L; rfl
  | cons c cs ih =>
    intro L
    have h := C80_change_partial bs c (hc c List.mem_cons_self) L
    have ih := ih fun c' h' => hc c' (List.mem_cons_of_mem _ h')
    cases ho : (c.run bs L).2 with
    | error e =>
      have hL : (c.run bs L).1 = L := h ⟨e, ho⟩
      have e1 : (L.changes bs (c :: cs)) = ((L.changes bs cs).1, .error e :: (L.changes bs cs).2) := by
        show ((Learner.changes bs (c.run bs L).1 cs).1, (c.run bs L).2 :: (Learner.changes bs (c.run bs L).1 cs).2) = _
        rw [hL, ho]
      rw [e1]
      exact ih L
    | ok u =>
      have e1 : (L.changes bs (c :: cs)) =
          (((c.run bs L).1.changes bs cs).1, .ok () :: ((c.run bs L).1.changes bs cs).2) := by
        show ((Learner.changes bs (c.run bs L).1 cs).1, (c.run bs L).2 :: (Learner.changes bs (c.run bs L).1 cs).2) = _
        rw [ho]
      rw [e1]
      show L.changes bs (c :: succeeded cs ((c.run bs L).1.changes bs cs).2) = (_, .ok () :: _)
      have e2 : (L.changes bs (c :: succeeded cs ((c.run bs L).1.changes bs cs).2)) =
          (((c.run bs L).1.changes bs (succeeded cs ((c.run bs L).1.changes bs cs).2)).1,
            .ok () :: ((c.run bs L).1.changes bs (succeeded cs ((c.run bs L).1.changes bs cs).2)).2) := by
        show ((Learner.changes bs (c.run bs L).1 _).1, (c.run bs L).2 :: (Learner.changes bs (c.run bs L).1 _).2) = _
        rw [ho]
      rw [e2, ih (c.run bs L).1]
      rfl

/-- C80 fails for `set_params` with several names: every kernel accepts `length_scale` or `length_scale0` or has no length scale, so for
every kernel with a hyperparameter `n` there is a call that raises and still has changed the model. -/
theorem C80_set_params_fails (bs : Flt → ℝ → ℝ) (L : Learner) (np : String × Param) (hn : np ∈ L.kernel.named)
    (unknown : String) (hu : unknown ∉ L.kernel.named.map Prod.fst) (q : Param) (hq : q ≠ np.2) :
    ((Change.setParams [(np.1, q), (unknown, q)]).run bs L).2 = .error .key ∧
    ((Change.setParams [(np.1, q), (unknown, q)]).run bs L).1 ≠ L ∧
    (np.1, q) ∈ ((Change.setParams [(np.1, q), (unknown, q)]).run bs L).1.kernel.named ∧
    ¬ AllOrNothing fun L => (Change.setParams [(np.1, q), (unknown, q)]).run bs L := by
  have hget : Dict.get? L.kernel.hyperparameters np.1 = some np.2 := by
    rw [hyperparameters_eq]; exact get?_of_mem (kernel_names_nodup _) hn
  have hu' : Dict.get? (L.kernel.put np.1 (np.2.setFrom q)).hyperparameters unknown = none := by
    rw [hyper_none, put_keys]; exact hu
  have e : (Change.setParams [(np.1, q), (unknown, q)]).run bs L =
      ({ L with kernel := L.kernel.put np.1 (np.2.setFrom q) }, .error .key) := by
    show (match Dict.get? L.kernel.hyperparameters np.1 with
        | none => (L, Except.error Err.key)
        | some p => Learner.setParams { L with kernel := L.kernel.put np.1 (p.setFrom q) } [(unknown, q)]) = _
    rw [hget]
    show (match Dict.get? (L.kernel.put np.1 (np.2.setFrom q)).hyperparameters unknown with
        | none => _
        | some p => _) = _
    rw [hu']
  have hm : (np.1, q) ∈ (L.kernel.put np.1 (np.2.setFrom q)).named := by
    rw [put_named]
    exact List.mem_map.2 ⟨np, hn, by simp [Param.setFrom]⟩
  have hne : ({ L with kernel := L.kernel.put np.1 (np.2.setFrom q) } : Learner) ≠ L := by
    intro h
    rw [show L.kernel.put np.1 (np.2.setFrom q) = L.kernel from congrArg Learner.kernel h] at hm
    have := get?_of_mem (kernel_names_nodup _) hm
    rw [← hyperparameters_eq, hget] at this
    exact hq (Option.some.inj this).symm
  rw [e]
  refine ⟨rfl, hne, hm, fun h => hne ?_⟩
  have := h L ⟨.key, congrArg Prod.snd e⟩
  exact (congrArg Prod.fst e).symm.trans this

/-! ## Agreement with the pure functions used elsewhere -/

/-- In-place `optimize_scale` succeeds exactly when the function used in the other theorems does, with the same model. -/
theorem optimizeScaleIn_iff (bs : Flt → ℝ → ℝ) (draws : List (List Nat)) (L L' : Learner) (pw y : Tensor ℝ) :
    L.optimizeScaleIn bs draws pw y = (L', .ok ()) ↔ L.optimizeScale bs draws pw y = .ok L' := by
  unfold Learner.optimizeScaleIn Learner.optimizeScale
  cases L.trainee.R.kernel.call bs pw [] with
  | error e => simp [bind, Except.bind]
  | ok Kin =>
    simp only [bind, Except.bind]
    cases scaleOptFn L.scaleKind L.trainee.R.gp draws Kin y [] with
    | error e => simp
    | ok s =>
      cases s with
      | none => simp
      | some s =>
        simp only [Learner.storeScale]
        by_cases hs : s ≤ 0
        · simp [hs]
        · simp [hs, pure, Except.pure]

theorem scaleOnlyIn_iff (bs : Flt → ℝ → ℝ) (draws : List (List Nat)) (n : Nat) (L L' : Learner) (pw y : Tensor ℝ) (i : Nat) :
    L.scaleOnlyIn bs draws n pw y i = (L', .ok ()) ↔ L.scaleOnly bs draws n pw y i = .ok L' := by
  unfold Learner.scaleOnlyIn Learner.scaleOnly
  cases L.trainee.R.kernel.call bs pw [] with
  | error e => simp [bind, Except.bind]
  | ok Kin =>
    simp only [bind, Except.bind]
    cases sliceLast y i with
    | error e => simp
    | ok y =>
      simp only
      cases y.reshape [y.shape.headD 0, n, 1] with
      | error e => simp
      | ok y =>
        simp only
        cases scaleOptFn L.scaleKind L.trainee.R.gp draws Kin y [] with
        | error e => simp
        | ok s =>
          cases s with
          | none => simp
          | some s =>
            simp only [Learner.storeScale]
            by_cases hs : s ≤ 0
            · simp [hs]
            · simp [hs, pure, Except.pure]

theorem scaleOnlyIn_atomic (bs : Flt → ℝ → ℝ) (draws : List (List Nat)) (n : Nat) (L : Learner) (pw y : Tensor ℝ) (i : Nat) (e : Err)
    (h : (L.scaleOnlyIn bs draws n pw y i).2 = .error e) : (L.scaleOnlyIn bs draws n pw y i).1 = L := by
  revert h
  unfold Learner.scaleOnlyIn
  cases L.trainee.R.kernel.call bs pw [] with
  | error e => intro _; rfl
  | ok Kin =>
    simp only
    cases sliceLast y i with
    | error e => intro _; rfl
    | ok y =>
      simp only
      cases y.reshape [y.shape.headD 0, n, 1] with
      | error e => intro _; rfl
      | ok y =>
        simp only
        cases scaleOptFn L.scaleKind L.trainee.R.gp draws Kin y [] with
        | error e => intro _; rfl
        | ok s =>
          cases s with
          | none => intro _; rfl
          | some s =>
            simp only [Learner.storeScale]
            by_cases hs : s ≤ 0
            · simp only [if_pos hs]; intro _; trivial
            · simp only [if_neg hs]; intro h; cases h

/-- The loop over the outputs, from output `i` on: either all models are optimised, or those before the first failure are and the
others are untouched. -/
theorem scaleEachIn_spec (bs : Flt → ℝ → ℝ) (draws : Nat → List (List Nat)) (n : Nat) (pw y : Tensor ℝ) : ∀ (Ls : List Learner) (i : Nat),
    ((scaleEachIn bs draws n pw y i Ls).2 = .ok () ∧ (scaleEachIn bs draws n pw y i Ls).1.length = Ls.length ∧
      ∀ (c : Nat) (L : Learner), Ls[c]? = some L → ∃ L', (scaleEachIn bs draws n pw y i Ls).1[c]? = some L' ∧
        L.scaleOnly bs (draws (i + c)) n pw y (i + c) = .ok L') ∨
    (∃ k e, k < Ls.length ∧ (scaleEachIn bs draws n pw y i Ls).2 = .error e ∧
      (scaleEachIn bs draws n pw y i Ls).1.length = Ls.length ∧
      (∀ c L, c < k → Ls[c]? = some L → ∃ L', (scaleEachIn bs draws n pw y i Ls).1[c]? = some L' ∧
        L.scaleOnly bs (draws (i + c)) n pw y (i + c) = .ok L') ∧
      (∀ c, k ≤ c → (scaleEachIn bs draws n pw y i Ls).1[c]? = Ls[c]?)) := by
  intro Ls
  induction Ls with
  | nil => intro i; left; exact ⟨rfl, rfl, fun c L h => by simp at h⟩
  | cons L Ls ih =>
    intro i
    rcases hr : L.scaleOnlyIn bs (draws i) n pw y i with ⟨L1, o⟩
    cases o with
    | error e =>
      have hL1 : L1 = L := by
        have := scaleOnlyIn_atomic bs (draws i) n L pw y i e (by rw [hr])
        rw [hr] at this
        exact this
      have e1 : scaleEachIn bs draws n pw y i (L :: Ls) = (L :: Ls, .error e) := by
        unfold scaleEachIn; rw [hr]; simp only [hL1]
      right
      refine ⟨0, e, by simp, by rw [e1], by rw [e1], fun c L h => by omega, fun c _ => by rw [e1]⟩
    | ok u =>
      have hone : L.scaleOnly bs (draws i) n pw y i = .ok L1 := (scaleOnlyIn_iff bs (draws i) n L L1 pw y i).1 hr
      have e1 : scaleEachIn bs draws n pw y i (L :: Ls) =
          (L1 :: (scaleEachIn bs draws n pw y (i + 1) Ls).1, (scaleEachIn bs draws n pw y (i + 1) Ls).2) := by
        conv_lhs => unfold scaleEachIn
        rw [hr]
      rw [e1]
      rcases ih (i + 1) with ⟨h1, h2, h3⟩ | ⟨k, e, hk, h1, h2, h3, h4⟩
      · left
        refine ⟨h1, by simp [h2], ?_⟩
        intro c L' hc
        cases c with
        | zero =>
          rw [List.getElem?_cons_zero, Option.some.injEq] at hc
          subst hc
          exact ⟨L1, by simp, hone⟩
        | succ c =>
          rw [List.getElem?_cons_succ] at hc
          obtain ⟨A, a1, a2⟩ := h3 c L' hc
          refine ⟨A, by simpa using a1, ?_⟩
          rw [show i + (c + 1) = i + 1 + c by omega]
          exact a2
      · right
        refine ⟨k + 1, e, by simpa using hk, h1, by simp [h2], ?_, ?_⟩
        · intro c L' hck hc
          cases c with
          | zero =>
            rw [List.getElem?_cons_zero, Option.some.injEq] at hc
            subst hc
            exact ⟨L1, by simp, hone⟩
          | succ c =>
            rw [List.getElem?_cons_succ] at hc
            obtain ⟨A, a1, a2⟩ := h3 c L' (by omega) hc
            refine ⟨A, by simpa using a1, ?_⟩
            rw [show i + (c + 1) = i + 1 + c by omega]
            exact a2
        · intro c hc
          cases c with
          | zero => omega
          | succ c => simpa using h4 c (by omega)

/-- **C80**, several outputs: `optimize_scale` of a multivariate model that raises leaves the models before the one it failed at
optimised, each as it would be alone, and the others as they were; with targets of the wrong shape or number nothing changes. -/
theorem C80_multi_partial (bs : Flt → ℝ → ℝ) (draws : Nat → List (List Nat)) (pw y : Tensor ℝ) (Ls : List Learner)
    (hf : Failed (multiOptimizeScaleIn bs draws pw y Ls).2) :
    (multiOptimizeScaleIn bs draws pw y Ls).1 = Ls ∨
    ∃ b n k, y.shape = [b, n, Ls.length] ∧ k < Ls.length ∧ (multiOptimizeScaleIn bs draws pw y Ls).1.length = Ls.length ∧
      (∀ c L, c < k → Ls[c]? = some L → ∃ L', (multiOptimizeScaleIn bs draws pw y Ls).1[c]? = some L' ∧
        L.scaleOnly bs (draws c) n pw y c = .ok L') ∧
      (∀ c, k ≤ c → (multiOptimizeScaleIn bs draws pw y Ls).1[c]? = Ls[c]?) := by
  obtain ⟨e, he⟩ := hf
  by_cases hs : ∃ b n, y.shape = [b, n, Ls.length]
  · obtain ⟨b, n, hs⟩ := hs
    have e1 : multiOptimizeScaleIn bs draws pw y Ls = scaleEachIn bs draws n pw y 0 Ls := by
      unfold multiOptimizeScaleIn; rw [hs]; simp
    rw [e1] at he ⊢
    rcases scaleEachIn_spec bs draws n pw y Ls 0 with ⟨h1, -⟩ | ⟨k, e', hk, h1, h2, h3, h4⟩
    · rw [h1] at he; cases he
    · right
      refine ⟨b, n, k, hs, hk, h2, ?_, h4⟩
      intro c L hc hL
      have := h3 c L hc hL
      rwa [Nat.zero_add] at this
  · left
    unfold multiOptimizeScaleIn
    split
    · rename_i b n r heq
      rw [if_pos]
      intro h
      exact hs ⟨b, n, by rw [heq, h]⟩
    · rfl

/-- In-place `optimize_scale` of a multivariate model succeeds exactly when the function used in the other theorems does. -/
theorem multiOptimizeScaleIn_iff (bs : Flt → ℝ → ℝ) (draws : Nat → List (List Nat)) (pw y : Tensor ℝ) (Ls Ls' : List Learner) :
    multiOptimizeScaleIn bs draws pw y Ls = (Ls', .ok ()) ↔ multiLearnScale bs draws pw y Ls = .ok Ls' := by
  have key : ∀ (n : Nat) (Ls : List Learner) (i : Nat) (Ls' : List Learner),
      scaleEachIn bs draws n pw y i Ls = (Ls', .ok ()) ↔
        (Ls.zipIdx i).mapM (fun Li => Li.1.scaleOnly bs (draws Li.2) n pw y Li.2) = .ok Ls' := by
    intro n Ls
    induction Ls with
    | nil => intro i Ls'; simp [scaleEachIn, pure, Except.pure]
    | cons L Ls ih =>
      intro i Ls'
      rw [List.zipIdx_cons, List.mapM_cons]
      unfold scaleEachIn
      rcases hr : L.scaleOnlyIn bs (draws i) n pw y i with ⟨L1, o⟩
      cases o with
      | error e =>
        cases hq : L.scaleOnly bs (draws i) n pw y i with
        | error e' => simp [bind, Except.bind]
        | ok L2 =>
          rw [(scaleOnlyIn_iff bs (draws i) n L L2 pw y i).2 hq] at hr
          cases hr
      | ok u =>
        rw [(scaleOnlyIn_iff bs (draws i) n L L1 pw y i).1 hr]
        simp only [bind, Except.bind]
        have ih := ih (i + 1)
        rcases hq : scaleEachIn bs draws n pw y (i + 1) Ls with ⟨Ms, o'⟩
        cases o' with
        | ok u' =>
          rw [(ih Ms).1 hq]
          simp [pure, Except.pure]
        | error e =>
          cases hm : (Ls.zipIdx (i + 1)).mapM (fun Li => Li.1.scaleOnly bs (draws Li.2) n pw y Li.2) with
          | error e' => simp
          | ok Ms' =>
            rw [(ih Ms').2 hm] at hq
            cases hq
  unfold multiOptimizeScaleIn multiLearnScale
  rcases hs : y.shape with _ | ⟨b, _ | ⟨n, _ | ⟨r, _ | ⟨x, xs⟩⟩⟩⟩
  · simp
  · simp
  · simp
  · by_cases h : r ≠ Ls.length
    · simp [if_pos h]
    · simp only [if_neg h]
      exact key n Ls 0 Ls'
  · simp

end MuyGPyS
