import Verif.Model.BayesOpt
import Mathlib.Tactic.Ring
import Mathlib.Tactic.Linarith
import Mathlib.Tactic.Common

/-! # C55: mini-batch optimisation; C56: Bayesian optimisation -/

namespace MuyGPyS.Opt
open Py

variable {P : Type}

theorem best_spec : ∀ (l : List (P × ℝ)) (a : P × ℝ), best l = some a → a ∈ l ∧ ∀ b ∈ l, b.2 ≤ a.2
  | [], a, h => by simp [best] at h
  | x :: l, a, h => by
    unfold best at h
    cases hb : best l with
    | none =>
      rw [hb] at h
      simp only [Option.some.injEq] at h
      subst h
      refine ⟨List.mem_cons_self .., fun b hbm => ?_⟩
      rcases List.mem_cons.1 hbm with rfl | hm
      · exact le_rfl
      · cases l with
        | nil => simp at hm
        | cons y l' =>
          simp only [best] at hb
          split at hb
          · cases hb
          · split_ifs at hb
    | some c =>
      rw [hb] at h
      obtain ⟨h1, h2⟩ := best_spec l c hb
      simp only at h
      split_ifs at h with hle
      · obtain rfl := Option.some.inj h
        refine ⟨List.mem_cons_self .., fun b hbm => ?_⟩
        rcases List.mem_cons.1 hbm with rfl | hm
        · exact le_rfl
        · exact le_trans (h2 b hm) hle
      · obtain rfl := Option.some.inj h
        refine ⟨List.mem_cons_of_mem _ h1, fun b hbm => ?_⟩
        rcases List.mem_cons.1 hbm with rfl | hm
        · exact le_of_lt (not_le.1 hle)
        · exact h2 b hm

theorem best_some (l : List (P × ℝ)) (h : l ≠ []) : ∃ a, best l = some a := by
  cases l with
  | nil => exact absurd rfl h
  | cons x l =>
    unfold best
    cases best l with
    | none => exact ⟨_, rfl⟩
    | some b =>
      simp only
      split_ifs
      · exact ⟨_, rfl⟩
      · exact ⟨_, rfl⟩

theorem register_all (f : P → ℝ) (ps : List P) (o : Bayes P) :
    (ps.foldl (fun o p => o.register f p) o).space = o.space ++ ps.map fun p => (p, f p) := by
  induction ps generalizing o with
  | nil => simp
  | cons p ps ih =>
    rw [List.foldl_cons, ih]
    simp [Bayes.register]

theorem iterate_space (f : P → ℝ) (src : Source P) (n : Nat) (o : Bayes P) :
    ∃ more : List P, more.length = n ∧
      (Bayes.iterate f src n o).space = o.space ++ more.map (fun p => (p, f p)) ∧
      (Bayes.iterate f src n o).queue = o.queue := by
  induction n generalizing o with
  | zero => exact ⟨[], rfl, by simp [Bayes.iterate], rfl⟩
  | succ n ih =>
    obtain ⟨more, h1, h2, h3⟩ := ih (o.register f (src.suggest o.space))
    refine ⟨src.suggest o.space :: more, by simp [h1], ?_, h3⟩
    show (Bayes.iterate f src n _).space = _
    rw [h2]
    simp [Bayes.register]

theorem probe_all (ps : List P) (o : Bayes P) :
    ps.foldl Bayes.probe o = ⟨o.space, o.queue ++ ps⟩ := by
  induction ps generalizing o with
  | nil => simp
  | cons p ps ih => simp [ih, Bayes.probe]

/-- What `maximize` evaluates: the queue, `init` random points (at least one on a fresh optimiser) and `n`
suggestions. -/
theorem maximize_spec (f : P → ℝ) (src : Source P) (init n : Nat) (o : Bayes P) :
    ∃ rest : List P, (o.maximize f src init n).space = o.space ++ (o.queue ++ rest).map (fun p => (p, f p)) ∧
      rest.length = (if o.queue.isEmpty && o.space.isEmpty then max init 1 else init) + n ∧
      (o.maximize f src init n).queue = [] := by
  unfold Bayes.maximize
  simp only
  generalize (if o.queue.isEmpty && o.space.isEmpty then max init 1 else init) = i
  obtain ⟨more, h1, h2, h3⟩ := iterate_space f src n
    { List.foldl (fun o p => o.register f p) o (o.queue ++ (List.range i).map src.random) with queue := [] }
  refine ⟨(List.range i).map src.random ++ more, ?_, by simp [h1], h3⟩
  rw [h2, register_all]
  simp

theorem maxParams_spec (o : Bayes P) (p : P) (h : o.maxParams = .ok p) :
    ∃ v, (p, v) ∈ o.space ∧ ∀ b ∈ o.space, b.2 ≤ v := by
  unfold Bayes.maxParams at h
  cases hb : best o.space with
  | none => rw [hb] at h; cases h
  | some a =>
    rw [hb] at h
    simp only [Except.ok.injEq] at h
    obtain ⟨h1, h2⟩ := best_spec _ _ hb
    subst h
    exact ⟨a.2, h1, h2⟩

theorem maxParams_ok (o : Bayes P) (h : o.space ≠ []) : ∃ p, o.maxParams = .ok p := by
  obtain ⟨a, ha⟩ := best_some _ h
  exact ⟨a.1, by unfold Bayes.maxParams; rw [ha]⟩

/-! ## C56 -/

/-- C56: Bayesian optimisation evaluates the initial values, `init_points` and `n_iter` further points
(5 and 20 by default) and answers with the best of them, whatever the objective, the random points
and the suggestions; in particular the answer is never worse than the initial values. -/
theorem C56_bayes_never_worse (f : P → ℝ) (src : Source P) (x0 : P) (init nIter : Option Nat) :
    ∃ (p : P) (rest : List P), bayesOptimize f src x0 init nIter = .ok p ∧
      rest.length = init.getD 5 + nIter.getD 20 ∧ p ∈ x0 :: rest ∧ ∀ q ∈ x0 :: rest, f q ≤ f p := by
  obtain ⟨rest, h1, h2, _⟩ := maximize_spec f src (init.getD 5) (nIter.getD 20) ((Bayes.new : Bayes P).probe x0)
  have hs : (((Bayes.new : Bayes P).probe x0).maximize f src (init.getD 5) (nIter.getD 20)).space
      = (x0 :: rest).map fun p => (p, f p) := by
    rw [h1]; simp [Bayes.probe, Bayes.new]
  obtain ⟨p, hp⟩ := maxParams_ok (((Bayes.new : Bayes P).probe x0).maximize f src (init.getD 5) (nIter.getD 20))
    (by rw [hs]; simp)
  obtain ⟨v, hv, hall⟩ := maxParams_spec _ _ hp
  rw [hs] at hv hall
  obtain ⟨q, hq, e⟩ := List.mem_map.1 hv
  obtain ⟨rfl, rfl⟩ := Prod.mk.inj e
  refine ⟨q, rest, hp, by simpa [Bayes.probe, Bayes.new] using h2, hq, fun r hr => ?_⟩
  exact hall (r, f r) (List.mem_map.2 ⟨r, hr, rfl⟩)

/-! ## C55 -/

/-- The loss an epoch uses. -/
def epochBatch (c : MiniBatch) (draw : Nat → List Nat) (e : Nat) (old : List Nat) : List Nat :=
  if !c.keepState && c.batchCount < c.trainCount then draw e else old

/-- The points an epoch probes. -/
def epochPoints (c : MiniBatch) (e : Nat) (toProbe : List P) : List P :=
  if c.probePrevious then toProbe else if e = 0 then toProbe.take 1 else []

/-- One epoch in detail. -/
theorem step_spec (c : MiniBatch) (objective : List Nat → P → ℝ) (draw : Nat → List Nat)
    (src : Nat → Source P) (init n e : Nat) (s : Loop P) (hq : s.opt.queue = [])
    (ha : (c.anisotropic && decide (e + 1 < c.epochs)) = false) :
    ∃ (m : P) (rest : List P) (s' : Loop P), epochStep c objective draw src init n e s = .ok s' ∧
      s'.opt.queue = [] ∧ s'.batch = epochBatch c draw e s.batch ∧ s'.toProbe = s.toProbe ++ [m] ∧
      s'.opt.maxParams = .ok m ∧
      s'.probed = s.probed + (epochPoints c e s.toProbe).length ∧
      s'.opt.space = (if c.keepState then s.opt.space else []) ++
        (epochPoints c e s.toProbe ++ rest).map (fun p => (p, objective (epochBatch c draw e s.batch) p)) ∧
      s'.trace = s.trace ++ (epochPoints c e s.toProbe ++ rest).map (fun p => (e, p)) ∧
      rest.length = (if (epochPoints c e s.toProbe).isEmpty &&
        (if c.keepState then s.opt.space else []).isEmpty then max init 1 else init) + n := by
  set opt : Bayes P := if c.keepState then s.opt else Bayes.new with hopt
  have hoq : opt.queue = [] := by
    rw [hopt]; split_ifs
    · exact hq
    · rfl
  have hos : opt.space = if c.keepState then s.opt.space else [] := by
    rw [hopt]; split_ifs <;> rfl
  set pts := epochPoints c e s.toProbe with hpts
  set f := objective (epochBatch c draw e s.batch) with hf
  obtain ⟨rest, h1, h2, h3⟩ := maximize_spec f (src e) init n (pts.foldl Bayes.probe opt)
  rw [probe_all] at h1 h2 h3
  simp only [hoq, List.nil_append] at h1 h2 h3
  set done := Bayes.maximize f (src e) init n ⟨opt.space, pts⟩ with hdone
  have hne : done.space ≠ [] := by
    rw [h1]
    intro h
    rw [List.append_eq_nil_iff] at h
    obtain ⟨ho, hp⟩ := h
    rw [List.map_eq_nil_iff, List.append_eq_nil_iff] at hp
    obtain ⟨hp, hr⟩ := hp
    rw [ho, hp, hr] at h2
    simp at h2
    omega
  obtain ⟨m, hm⟩ := maxParams_ok _ hne
  refine ⟨m, rest, ⟨done, s.toProbe ++ [m], s.probed + pts.length, epochBatch c draw e s.batch,
    s.trace ++ (done.space.drop opt.space.length).map fun a => (e, a.1)⟩, ?_, h3, rfl, rfl, hm, rfl, ?_, ?_, ?_⟩
  · unfold epochStep
    simp only [ha, Bool.false_eq_true, if_false]
    have e1 : (if (!c.keepState && decide (c.batchCount < c.trainCount)) = true then draw e else s.batch)
        = epochBatch c draw e s.batch := rfl
    have e2 : (if c.probePrevious = true then s.toProbe else if e = 0 then List.take 1 s.toProbe else [])
        = pts := rfl
    rw [e1, e2, ← hf, ← hopt, probe_all, hoq, List.nil_append, ← hdone, hm]
    rfl
  · rw [← hos]; exact h1
  · show s.trace ++ (done.space.drop opt.space.length).map (fun a => (e, a.1)) = _
    rw [h1, List.drop_left, List.map_map]
    rfl
  · rw [← hos]; exact h2

theorem epochs_snoc (c : MiniBatch) (objective : List Nat → P → ℝ) (draw : Nat → List Nat)
    (src : Nat → Source P) (init nIter : Nat) (n e : Nat) (s : Loop P) :
    epochsFrom c objective draw src init nIter e (n + 1) s =
      (epochsFrom c objective draw src init nIter e n s).bind
        (epochStep c objective draw src init nIter (e + n)) := by
  induction n generalizing e s with
  | zero =>
    simp only [epochsFrom, bind, Except.bind, Nat.add_zero]
    cases epochStep c objective draw src init nIter e s <;> rfl
  | succ n ih =>
    show (epochStep c objective draw src init nIter e s).bind _ = _
    conv_rhs => unfold epochsFrom
    cases hs : epochStep c objective draw src init nIter e s with
    | error err => rfl
    | ok s' =>
      simp only [Except.bind, bind]
      rw [ih (e + 1) s']
      have : e + 1 + n = e + (n + 1) := by omega
      rw [this]
      rfl

/-- The state in which the loop starts. -/
def Loop.start (c : MiniBatch) (init : Nat) (x0 : P) : Loop P :=
  ⟨Bayes.new, [x0], c.epochs * init, List.range c.trainCount, []⟩

/-- Number of points probed in `k` epochs, besides the random ones. -/
def probes (c : MiniBatch) (k : Nat) : Nat :=
  if c.probePrevious then k * (k + 1) / 2 else min k 1

/-- Random points drawn although none were asked for. -/
def unasked (c : MiniBatch) (init k : Nat) : Nat :=
  if init = 0 && !c.keepState && !c.probePrevious then k - 1 else 0

/-- What holds after `k` epochs. -/
structure Inv (c : MiniBatch) (objective : List Nat → P → ℝ) (init n : Nat) (x0 : P) (k : Nat) (s : Loop P) :
    Prop where
  queue : s.opt.queue = []
  probe : ∃ ms : List P, s.toProbe = x0 :: ms ∧ ms.length = k
  chosen : 0 < k → ∃ m, s.toProbe.getLast? = some m ∧ s.opt.maxParams = .ok m
  probed : s.probed = c.epochs * init + probes c k
  count : s.trace.length = probes c k + k * (init + n) + unasked c init k
  last : 0 < k → ∀ m, s.opt.maxParams = .ok m → ∀ q, (k - 1, q) ∈ s.trace →
    objective s.batch q ≤ objective s.batch m
  again : 0 < k → c.probePrevious = true → ∀ q ∈ s.toProbe.dropLast, (k - 1, q) ∈ s.trace
  bound : ∀ a ∈ s.trace, a.1 < k
  keepBatch : c.keepState = true → s.batch = List.range c.trainCount
  keepSpace : c.keepState = true →
    s.opt.space = s.trace.map fun a => (a.2, objective (List.range c.trainCount) a.2)

theorem probes_succ (c : MiniBatch) (k : Nat) (x0 : P) (ms : List P) (h : ms.length = k) :
    probes c k + (epochPoints c k (x0 :: ms)).length = probes c (k + 1) := by
  unfold probes epochPoints
  by_cases hp : c.probePrevious = true
  · simp only [hp, if_true, List.length_cons, h]
    have : (k + 1) * (k + 1 + 1) = k * (k + 1) + (k + 1) * 2 := by ring
    rw [this, Nat.add_mul_div_right _ _ (by omega)]
  · simp only [hp, Bool.false_eq_true, if_false]
    by_cases hk : k = 0
    · simp [hk]
    · simp only [hk, if_false, List.length_nil]; omega

theorem inv_step (c : MiniBatch) (objective : List Nat → P → ℝ) (draw : Nat → List Nat)
    (src : Nat → Source P) (init n : Nat) (x0 : P) (k : Nat) (s : Loop P)
    (ha : (c.anisotropic && decide (k + 1 < c.epochs)) = false) (h : Inv c objective init n x0 k s) :
    ∃ s' m, epochStep c objective draw src init n k s = .ok s' ∧ Inv c objective init n x0 (k + 1) s' ∧
      s'.toProbe = s.toProbe ++ [m] := by
  obtain ⟨m, rest, s', h1, h2, h3, h4, h5, h6, h7, h8, h9⟩ := step_spec c objective draw src init n k s h.queue ha
  obtain ⟨ms, p1, p2⟩ := h.probe
  have hps := probes_succ c k x0 ms p2
  rw [← p1] at hps
  have hval : ∀ b ∈ s'.opt.space, b.2 = objective s'.batch b.1 := by
    intro b hb
    rw [h7] at hb
    rcases List.mem_append.1 hb with hb | hb
    · by_cases hk : c.keepState = true
      · rw [if_pos hk, h.keepSpace hk] at hb
        obtain ⟨a, _, rfl⟩ := List.mem_map.1 hb
        rw [h3, epochBatch]
        simp [hk, h.keepBatch hk]
      · rw [if_neg hk] at hb; simp at hb
    · obtain ⟨q, _, rfl⟩ := List.mem_map.1 hb
      rw [h3]
  refine ⟨s', m, h1, ⟨h2, ⟨ms ++ [m], by rw [h4, p1]; rfl, by simp [p2]⟩, fun _ => ⟨m, by simp [h4], h5⟩, ?_, ?_, ?_, ?_,
    ?_, ?_, ?_⟩, h4⟩
  · rw [h6, h.probed, Nat.add_assoc, hps]
  · rw [h8, List.length_append, List.length_map, List.length_append, h.count, h9, ← hps]
    have hun : unasked c init (k + 1) = unasked c init k +
        ((if ((epochPoints c k s.toProbe).isEmpty && (if c.keepState = true then s.opt.space else []).isEmpty) = true
          then max init 1 else init) - init) := by
      unfold unasked epochPoints
      by_cases hp : c.probePrevious = true
      · simp [hp, p1]
      · by_cases hk0 : k = 0
        · simp [hk0, p1, hp]
        · by_cases hk : c.keepState = true
          · have hne : s.opt.space ≠ [] := by
              intro e
              have := h.keepSpace hk
              rw [e] at this
              have hl := congrArg List.length this
              rw [List.length_map, h.count] at hl
              have : probes c k = 1 := by simp [probes, hp]; omega
              simp at hl
              omega
            simp [hk, hne]
          · by_cases hi : init = 0
            · simp [hi, hp, hk, hk0]; omega
            · have : max init 1 = init := by omega
              simp [hi, hp, hk, hk0, this]
    rw [hun]
    have hle : init ≤ (if ((epochPoints c k s.toProbe).isEmpty &&
        (if c.keepState = true then s.opt.space else []).isEmpty) = true then max init 1 else init) := by
      split_ifs <;> omega
    have hmul : (k + 1) * (init + n) = k * (init + n) + (init + n) := by ring
    rw [hmul]
    omega
  · intro _ m' hm' q hq
    obtain ⟨v, v1, v2⟩ := maxParams_spec _ _ hm'
    have hv := hval _ v1
    simp only at hv
    rw [← hv]
    rw [h8] at hq
    rcases List.mem_append.1 hq with hq | hq
    · have := h.bound _ hq
      simp at this
    · obtain ⟨r, hr, e⟩ := List.mem_map.1 hq
      obtain rfl := (Prod.mk.inj e).2
      have := v2 (r, objective (epochBatch c draw k s.batch) r) (by
        rw [h7]; exact List.mem_append_right _ (List.mem_map.2 ⟨r, hr, rfl⟩))
      rw [h3]; exact this
  · intro _ hp q hq
    rw [h4, List.dropLast_concat] at hq
    rw [h8]
    refine List.mem_append_right _ (List.mem_map.2 ⟨q, List.mem_append_left _ ?_, rfl⟩)
    rw [epochPoints, if_pos hp]; exact hq
  · intro a hm
    rw [h8] at hm
    rcases List.mem_append.1 hm with hm | hm
    · have := h.bound a hm; omega
    · obtain ⟨q, _, rfl⟩ := List.mem_map.1 hm
      simp
  · intro hk
    rw [h3, epochBatch]
    simp [hk, h.keepBatch hk]
  · intro hk
    rw [h7, h8, if_pos hk, h.keepSpace hk, epochBatch]
    simp [hk, h.keepBatch hk, Function.comp_def]

theorem inv_start (c : MiniBatch) (objective : List Nat → P → ℝ) (init n : Nat) (x0 : P) :
    Inv c objective init n x0 0 (Loop.start c init x0) := by
  refine ⟨rfl, ⟨[], rfl, rfl⟩, fun h => absurd h (by simp), ?_, ?_, fun h => absurd h (by simp),
    fun h => absurd h (by simp), fun a h => absurd h (by simp [Loop.start]), fun _ => rfl, fun _ => rfl⟩
  · simp [Loop.start, probes]
  · simp [Loop.start, probes, unasked]

/-- After any number of epochs, for a model whose deformation is not anisotropic (or in the last epoch). -/
theorem run_inv (c : MiniBatch) (objective : List Nat → P → ℝ) (draw : Nat → List Nat)
    (src : Nat → Source P) (init n : Nat) (x0 : P) (k : Nat)
    (ha : ∀ e < k, (c.anisotropic && decide (e + 1 < c.epochs)) = false) :
    ∃ s, epochsFrom c objective draw src init n 0 k (Loop.start c init x0) = .ok s ∧
      Inv c objective init n x0 k s := by
  induction k with
  | zero => exact ⟨_, rfl, inv_start c objective init n x0⟩
  | succ k ih =>
    obtain ⟨s, h1, h2⟩ := ih fun e he => ha e (by omega)
    obtain ⟨s', m, h3, h4, _⟩ := inv_step c objective draw src init n x0 k s (ha k (by omega)) h2
    refine ⟨s', ?_, h4⟩
    rw [epochs_snoc, h1]
    simpa [Except.bind] using h3

/-- The run of the whole function in terms of the loop. -/
theorem miniBatch_ok (c : MiniBatch) (objective : List Nat → P → ℝ) (draw : Nat → List Nat)
    (src : Nat → Source P) (init n : Nat) (x0 : P) (hi : c.init = some init) (hn : c.nIter = some n)
    (hE : 0 < c.epochs) (ha : c.anisotropic = false ∨ c.epochs = 1) :
    ∃ s m, epochsFrom c objective draw src init n 0 c.epochs (Loop.start c init x0) = .ok s ∧
      Inv c objective init n x0 c.epochs s ∧ s.toProbe.getLast? = some m ∧ s.opt.maxParams = .ok m ∧
      miniBatch c objective draw src x0 = .ok ⟨m, s.probed, c.epochs * n, s.trace, s.batch⟩ := by
  obtain ⟨s, h1, h2⟩ := run_inv c objective draw src init n x0 c.epochs (by
    intro e he
    rcases ha with ha | ha
    · simp [ha]
    · simp [ha])
  obtain ⟨m, h3, h4⟩ := h2.chosen hE
  refine ⟨s, m, h1, h2, h3, h4, ?_⟩
  unfold miniBatch
  rw [hi, hn]
  show (epochsFrom c objective draw src init n 0 c.epochs (Loop.start c init x0)).bind _ = _
  rw [h1]
  simp only [Except.bind, h4, bind, pure, Except.pure]

/-- C55, the counts: an isotropic run reports `E·init_points` plus the probed points — one, or
`1 + 2 + … + E` with `probe_previous` — and `E·n_iter` steps, and exactly that many objective
evaluations are made, provided `init_points ≥ 1` (or one of the two options is used). -/
theorem C55_counts_partial (c : MiniBatch) (objective : List Nat → P → ℝ) (draw : Nat → List Nat)
    (src : Nat → Source P) (init n : Nat) (x0 : P) (hi : c.init = some init) (hn : c.nIter = some n)
    (hE : 0 < c.epochs) (ha : c.anisotropic = false ∨ c.epochs = 1)
    (h : 0 < init ∨ c.keepState = true ∨ c.probePrevious = true) :
    ∃ R, miniBatch c objective draw src x0 = .ok R ∧
      R.probed = c.epochs * init + (if c.probePrevious then c.epochs * (c.epochs + 1) / 2 else 1) ∧
      R.steps = c.epochs * n ∧ R.trace.length = R.probed + R.steps := by
  obtain ⟨s, m, _, inv, _, _, hR⟩ := miniBatch_ok c objective draw src init n x0 hi hn hE ha
  have hu : unasked c init c.epochs = 0 := by
    unfold unasked
    rcases h with h | h | h
    · have : ¬ init = 0 := by omega
      simp [this]
    · simp [h]
    · simp [h]
  have hp : probes c c.epochs = if c.probePrevious then c.epochs * (c.epochs + 1) / 2 else 1 := by
    unfold probes
    have : min c.epochs 1 = 1 := by omega
    rw [this]
  refine ⟨_, hR, ?_, rfl, ?_⟩
  · rw [← hp]; exact inv.probed
  · show s.trace.length = s.probed + c.epochs * n
    rw [inv.count, inv.probed, hu]
    ring

/-- C55 fails of the code: with `init_points = 0` and neither option, every epoch but the first draws a
random point that is not reported. -/
theorem C55_counts_fails (c : MiniBatch) (objective : List Nat → P → ℝ) (draw : Nat → List Nat)
    (src : Nat → Source P) (n : Nat) (x0 : P) (hi : c.init = some 0) (hn : c.nIter = some n)
    (hE : 0 < c.epochs) (ha : c.anisotropic = false ∨ c.epochs = 1)
    (hk : c.keepState = false) (hp : c.probePrevious = false) :
    ∃ R, miniBatch c objective draw src x0 = .ok R ∧
      R.trace.length = R.probed + R.steps + (c.epochs - 1) := by
  obtain ⟨s, m, _, inv, _, _, hR⟩ := miniBatch_ok c objective draw src 0 n x0 hi hn hE ha
  refine ⟨_, hR, ?_⟩
  show s.trace.length = s.probed + c.epochs * n + (c.epochs - 1)
  rw [inv.count, inv.probed]
  simp [unasked, hk, hp]

/-- C55: the answer is the best of the points evaluated in the last epoch, under the objective of that
epoch, whatever the optimiser suggests and whatever batches are drawn. -/
theorem C55_last_epoch_best (c : MiniBatch) (objective : List Nat → P → ℝ) (draw : Nat → List Nat)
    (src : Nat → Source P) (init n : Nat) (x0 : P) (hi : c.init = some init) (hn : c.nIter = some n)
    (hE : 0 < c.epochs) (ha : c.anisotropic = false ∨ c.epochs = 1) :
    ∃ R, miniBatch c objective draw src x0 = .ok R ∧
      ∀ q, (c.epochs - 1, q) ∈ R.trace → objective R.batch q ≤ objective R.batch R.chosen := by
  obtain ⟨s, m, _, inv, _, hm, hR⟩ := miniBatch_ok c objective draw src init n x0 hi hn hE ha
  exact ⟨_, hR, inv.last hE m hm⟩

/-- C55: with `keep_state` the objective is the loss over the whole training set in every epoch, and the
answer is the best point evaluated in any epoch — the initial values included. -/
theorem C55_keep_state (c : MiniBatch) (objective : List Nat → P → ℝ) (draw : Nat → List Nat)
    (src : Nat → Source P) (init n : Nat) (x0 : P) (hi : c.init = some init) (hn : c.nIter = some n)
    (hE : 0 < c.epochs) (ha : c.anisotropic = false ∨ c.epochs = 1) (hk : c.keepState = true) :
    ∃ R, miniBatch c objective draw src x0 = .ok R ∧ R.batch = List.range c.trainCount ∧
      (∃ e, (e, R.chosen) ∈ R.trace) ∧
      ∀ e q, (e, q) ∈ R.trace → objective R.batch q ≤ objective R.batch R.chosen := by
  obtain ⟨s, m, _, inv, _, hm, hR⟩ := miniBatch_ok c objective draw src init n x0 hi hn hE ha
  obtain ⟨v, v1, v2⟩ := maxParams_spec _ _ hm
  have hs := inv.keepSpace hk
  rw [hs] at v1 v2
  obtain ⟨a, a1, e⟩ := List.mem_map.1 v1
  obtain ⟨rfl, rfl⟩ := Prod.mk.inj e
  refine ⟨_, hR, inv.keepBatch hk, ⟨a.1, a1⟩, fun e q hq => ?_⟩
  show objective s.batch q ≤ objective s.batch a.2
  rw [inv.keepBatch hk]
  exact v2 (q, objective (List.range c.trainCount) q) (List.mem_map.2 ⟨(e, q), hq, rfl⟩)

/-- The points to probe only grow. -/
theorem toProbe_mono (c : MiniBatch) (objective : List Nat → P → ℝ) (draw : Nat → List Nat)
    (src : Nat → Source P) (init n : Nat) (x0 : P) (j : Nat) (ha : c.anisotropic = false) :
    ∀ k, j ≤ k → ∀ sj sk, epochsFrom c objective draw src init n 0 j (Loop.start c init x0) = .ok sj →
      epochsFrom c objective draw src init n 0 k (Loop.start c init x0) = .ok sk →
      sj.toProbe <+: sk.toProbe := by
  intro k hk
  induction k, hk using Nat.le_induction with
  | base =>
    intro sj sk h1 h2
    rw [h1] at h2
    cases h2
    exact List.prefix_rfl
  | succ k hk ih =>
    intro sj sk h1 h2
    obtain ⟨s, h3, inv⟩ := run_inv c objective draw src init n x0 k (by simp [ha])
    obtain ⟨s', m, h4, _, h5⟩ := inv_step c objective draw src init n x0 k s (by simp [ha]) inv
    rw [epochs_snoc, h3] at h2
    simp only [Except.bind, Nat.zero_add] at h2
    rw [h4] at h2
    cases h2
    rw [h5]
    exact (ih sj s h1 h3).trans (List.prefix_append _ _)

/-- The loop does not look at the number of epochs, except to report. -/
theorem epochs_irrelevant (c : MiniBatch) (E : Nat) (objective : List Nat → P → ℝ) (draw : Nat → List Nat)
    (src : Nat → Source P) (init n : Nat) (ha : c.anisotropic = false) (k e : Nat) (s : Loop P) :
    epochsFrom { c with epochs := E } objective draw src init n e k s
      = epochsFrom c objective draw src init n e k s := by
  induction k generalizing e s with
  | zero => rfl
  | succ k ih =>
    have : epochStep { c with epochs := E } objective draw src init n e s
        = epochStep c objective draw src init n e s := by
      unfold epochStep
      simp [ha]
    show (epochStep _ objective draw src init n e s).bind _ = (epochStep _ objective draw src init n e s).bind _
    rw [this]
    cases epochStep c objective draw src init n e s with
    | error err => rfl
    | ok s' => exact ih (e + 1) s'

/-- The reported count does not influence the loop. -/
theorem probed_irrelevant (c : MiniBatch) (objective : List Nat → P → ℝ) (draw : Nat → List Nat)
    (src : Nat → Source P) (init n : Nat) (k e : Nat) (s : Loop P) (z : Nat) (r : Loop P)
    (h : epochsFrom c objective draw src init n e k s = .ok r) :
    ∃ z', epochsFrom c objective draw src init n e k { s with probed := z } = .ok { r with probed := z' } := by
  induction k generalizing e s z with
  | zero =>
    obtain rfl := Except.ok.inj h
    exact ⟨z, rfl⟩
  | succ k ih =>
    have hb : (epochStep c objective draw src init n e s).bind
        (epochsFrom c objective draw src init n (e + 1) k) = .ok r := h
    cases hs : epochStep c objective draw src init n e s with
    | error err => rw [hs] at hb; cases hb
    | ok s' =>
      rw [hs] at hb
      have h2 : ∃ w, epochStep c objective draw src init n e { s with probed := z } = .ok { s' with probed := w } := by
        revert hs
        unfold epochStep
        simp only [bind, Except.bind]
        cases Bayes.maxParams _ with
        | error err => intro hs; cases hs
        | ok m =>
          simp only
          split_ifs <;> intro hs
          · cases hs
          all_goals
            obtain rfl := Except.ok.inj hs
            exact ⟨_, rfl⟩
      obtain ⟨w, hw⟩ := h2
      obtain ⟨z', hz⟩ := ih (e + 1) s' w hb
      refine ⟨z', ?_⟩
      show (epochStep c objective draw src init n e { s with probed := z }).bind _ = _
      rw [hw]
      exact hz

/-- C55: with `probe_previous` the initial values and the answer of every shorter run (same draws, same
suggestions) are evaluated again in the last epoch, and the final answer is at least as good as each of
them under the objective of that epoch. -/
theorem C55_probe_previous (c : MiniBatch) (objective : List Nat → P → ℝ) (draw : Nat → List Nat)
    (src : Nat → Source P) (init n : Nat) (x0 : P) (hi : c.init = some init) (hn : c.nIter = some n)
    (hE : 0 < c.epochs) (ha : c.anisotropic = false) (hp : c.probePrevious = true) :
    ∃ R, miniBatch c objective draw src x0 = .ok R ∧
      (c.epochs - 1, x0) ∈ R.trace ∧ objective R.batch x0 ≤ objective R.batch R.chosen ∧
      ∀ k, 0 < k → k < c.epochs → ∃ R', miniBatch { c with epochs := k } objective draw src x0 = .ok R' ∧
        (c.epochs - 1, R'.chosen) ∈ R.trace ∧
        objective R.batch R'.chosen ≤ objective R.batch R.chosen := by
  obtain ⟨s, m, hs, inv, _, hm, hR⟩ := miniBatch_ok c objective draw src init n x0 hi hn hE (.inl ha)
  obtain ⟨ms, p1, p2⟩ := inv.probe
  have hx : x0 ∈ s.toProbe.dropLast := by
    rw [p1]
    cases ms with
    | nil => simp at p2; omega
    | cons y ys => simp
  have hx' := inv.again hE hp _ hx
  refine ⟨_, hR, hx', inv.last hE m hm _ hx', fun k hk hkE => ?_⟩
  obtain ⟨s', m', hs', inv', hl, _, hR'⟩ := miniBatch_ok { c with epochs := k } objective draw src init n x0 hi hn hk
    (.inl ha)
  rw [epochs_irrelevant c k objective draw src init n ha] at hs'
  obtain ⟨z, hz⟩ := probed_irrelevant c objective draw src init n k 0 _ (c.epochs * init) s' hs'
  have hpre := toProbe_mono c objective draw src init n x0 k ha (c.epochs) (by omega) _ _ hz hs
  simp only at hpre
  have hlen : s'.toProbe.length < s.toProbe.length := by
    obtain ⟨ms', q1, q2⟩ := inv'.probe
    rw [q1, p1]
    simp only [List.length_cons, q2, p2]
    omega
  have hmem : m' ∈ s.toProbe.dropLast := by
    obtain ⟨t, ht⟩ := hpre
    have hne : t ≠ [] := by
      rintro rfl
      rw [List.append_nil] at ht
      rw [ht] at hlen
      omega
    rw [← ht, List.dropLast_append_of_ne_nil hne]
    exact List.mem_append_left _ (List.mem_of_getLast? hl)
  have := inv.again hE hp _ hmem
  exact ⟨_, hR', this, inv.last hE m hm _ this⟩

/-- C55 fails of the code: an anisotropic model cannot be optimised for more than one epoch — the code
calls a method that does not exist (`AttributeError`). -/
theorem C55_anisotropic_fails (c : MiniBatch) (objective : List Nat → P → ℝ) (draw : Nat → List Nat)
    (src : Nat → Source P) (init n : Nat) (x0 : P) (hi : c.init = some init) (hn : c.nIter = some n)
    (hE : 1 < c.epochs) (ha : c.anisotropic = true) :
    miniBatch c objective draw src x0 = .error .attribute := by
  obtain ⟨_, _, s', h1, _⟩ := step_spec { c with anisotropic := false } objective draw src init n 0
    (Loop.start c init x0) rfl (by simp)
  have hstep : epochStep c objective draw src init n 0 (Loop.start c init x0) = .error .attribute := by
    revert h1
    unfold epochStep
    simp only [bind, Except.bind]
    cases Bayes.maxParams _ with
    | error err => intro h; cases h
    | ok m =>
      intro _
      have : (c.anisotropic && decide (0 + 1 < c.epochs)) = true := by simp [ha, hE]
      simp only [this, if_true]
  obtain ⟨k, hk⟩ : ∃ k, c.epochs = k + 1 := ⟨c.epochs - 1, by omega⟩
  have hrun : epochsFrom c objective draw src init n 0 (k + 1) (Loop.start c init x0) = .error .attribute := by
    show (epochStep c objective draw src init n 0 _).bind _ = _
    rw [hstep]; rfl
  rw [← hk] at hrun
  unfold miniBatch
  rw [hi, hn]
  show (epochsFrom c objective draw src init n 0 c.epochs (Loop.start c init x0)).bind _ = _
  rw [hrun]; rfl

/-- C55: unlike the ordinary optimiser, the mini-batch one has no defaults for `init_points` and
`n_iter`: leaving one out is a `KeyError`. -/
theorem C55_keywords_needed (c : MiniBatch) (objective : List Nat → P → ℝ) (draw : Nat → List Nat)
    (src : Nat → Source P) (x0 : P) (h : c.init = none ∨ c.nIter = none) :
    miniBatch c objective draw src x0 = .error .key := by
  unfold miniBatch
  rcases h with h | h
  · rw [h]
  · rw [h]
    cases c.init <;> rfl

/-- C55 fails of the code with the default options: the best point of an epoch is forgotten. Two epochs
on the whole training set (the same objective both times): the initial value 10 is evaluated, and the
answer is 0. -/
theorem C55_forgets_fails : ∃ (c : MiniBatch) (objective : List Nat → ℝ → ℝ) (draw : Nat → List Nat)
    (src : Nat → Source ℝ) (R : Report ℝ), c.keepState = false ∧ c.probePrevious = false ∧
    c.batchCount = c.trainCount ∧ c.anisotropic = false ∧ miniBatch c objective draw src 10 = .ok R ∧
    (0, 10) ∈ R.trace ∧ objective R.batch R.chosen < objective R.batch 10 := by
  refine ⟨⟨2, false, false, false, 1, 1, some 1, some 0⟩, fun _ p => p, fun _ => [], fun _ => ⟨fun _ => 0, fun _ => 0⟩,
    ⟨0, 3, 0, [(0, 10), (0, 0), (1, 0)], [0]⟩, rfl, rfl, rfl, rfl, ?_, ?_, ?_⟩
  · have hle : ¬ (10 : ℝ) ≤ 0 := by norm_num
    simp [miniBatch, epochsFrom, epochStep, Bayes.maximize, Bayes.iterate, Bayes.register, Bayes.maxParams, best,
      Bayes.new, Bayes.probe, bind, Except.bind, pure, Except.pure, hle]
  · simp
  · norm_num

/-! ## Non-vacuity -/

/-- Three epochs with 2 random points and 4 suggestions each, carrying the best points over: 12 probed
points (6 random, 1 + 2 + 3 carried), 12 steps and 24 evaluations, whatever the objective. -/
example (objective : List Nat → ℝ → ℝ) (draw : Nat → List Nat) (src : Nat → Source ℝ) (x0 : ℝ) :
    ∃ R, miniBatch ⟨3, false, true, false, 100, 10, some 2, some 4⟩ objective draw src x0 = .ok R ∧
      R.probed = 12 ∧ R.steps = 12 ∧ R.trace.length = 24 := by
  obtain ⟨R, h1, h2, h3, h4⟩ := C55_counts_partial ⟨3, false, true, false, 100, 10, some 2, some 4⟩ objective draw src
    2 4 x0 rfl rfl (by norm_num) (.inl rfl) (.inl (by norm_num))
  refine ⟨R, h1, by simpa using h2, by simpa using h3, ?_⟩
  rw [h4, h2, h3]
  simp

end MuyGPyS.Opt
