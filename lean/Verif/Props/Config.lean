import Verif.Spec.Config
import Mathlib.Tactic.Common

/-!
# C49: configuration scopes restore the previous configuration
-/

namespace MuyGPyS.Conf
open Py

/-! ## Dictionaries -/

theorem get?_set {β : Type} (d : Dict β) (k k' : String) (v : β) :
    (d.set k v).get? k' = if k' = k then some v else d.get? k' := by
  induction d with
  | nil => by_cases h : k' = k
           · subst h; simp [Dict.set, Dict.get?]
           · have : ¬ k = k' := fun e => h e.symm
             simp [Dict.set, Dict.get?, h, this]
  | cons x d ih =>
    obtain ⟨a, b⟩ := x
    unfold Dict.set
    by_cases ha : a = k
    · subst ha
      by_cases h : k' = a
      · subst h; simp [Dict.get?]
      · have : ¬ a = k' := fun e => h e.symm
        simp [Dict.get?, h, this]
    · have hab : (a == k) = false := by simpa using ha
      rw [hab]
      simp only [Bool.false_eq_true, if_false]
      by_cases h : a = k'
      · subst h
        simp [Dict.get?, ha]
      · have h1 : (a == k') = false := by simpa using h
        have e1 : ∀ (m : Dict β), Dict.get? ((a, b) :: m) k' = m.get? k' := by
          intro m; simp [Dict.get?, List.find?_cons, h1]
        rw [e1, e1, ih]

theorem has_iff {β : Type} (d : Dict β) (k : String) : d.has k = (d.get? k).isSome := by
  induction d with
  | nil => simp [Dict.has, Dict.get?]
  | cons x d ih =>
    obtain ⟨a, b⟩ := x
    simp only [Dict.has, Dict.get?, List.any_cons, List.find?_cons] at ih ⊢
    by_cases h : a = k
    · simp [h]
    · have h1 : (a == k) = false := by simpa using h
      simp only [h1, Bool.false_or]; exact ih

/-- Setting an absent key and deleting it again gives back the dictionary. -/
theorem pop_set {β : Type} (d : Dict β) (k : String) (v : β) (h : d.get? k = none) :
    (d.set k v).pop k = d := by
  induction d with
  | nil => simp [Dict.set, Dict.pop]
  | cons x d ih =>
    obtain ⟨a, b⟩ := x
    by_cases ha : a = k
    · subst ha; simp [Dict.get?] at h
    · have h1 : (a == k) = false := by simpa using ha
      have h2 : Dict.get? d k = none := by
        simpa [Dict.get?, List.find?_cons, h1] using h
      have := ih h2
      unfold Dict.set
      simp only [h1, Bool.false_eq_true, if_false]
      simp only [Dict.pop, List.filter_cons, h1, Bool.not_false, if_true] at this ⊢
      rw [this]

/-- Overwriting a key and writing its old value again gives back the dictionary. -/
theorem set_set {β : Type} (d : Dict β) (k : String) (v w : β) (h : d.get? k = some w) :
    (d.set k v).set k w = d := by
  induction d with
  | nil => simp [Dict.get?] at h
  | cons x d ih =>
    obtain ⟨a, b⟩ := x
    by_cases ha : a = k
    · subst ha
      simp [Dict.get?] at h
      subst h
      simp [Dict.set]
    · have h1 : (a == k) = false := by simpa using ha
      have h2 : Dict.get? d k = some w := by
        simpa [Dict.get?, List.find?_cons, h1] using h
      simp [Dict.set, h1, ih h2]

/-! ## Single steps -/

@[simp] theorem hook_tls (c : Config) (n : String) (v : CVal) : (c.hook n v).tls = c.tls := by
  unfold Config.hook; split <;> rfl
@[simp] theorem hook_values (c : Config) (n : String) (v : CVal) : (c.hook n v).values = c.values := by
  unfold Config.hook; split <;> rfl
@[simp] theorem hook_defs (c : Config) (n : String) (v : CVal) : (c.hook n v).defs = c.defs := by
  unfold Config.hook; split <;> rfl

theorem hook_state (c : Config) (n : String) (v : CVal) (a : String) :
    (c.hook n v).state.get? a =
      if (c.defs.get? n).map (·.attr) = some a then some v else c.state.get? a := by
  unfold Config.hook
  cases h : c.defs.get? n with
  | none => simp
  | some d =>
    simp only [get?_set, Option.map_some, Option.some.injEq]
    by_cases e : a = d.attr
    · simp [e]
    · have : ¬ d.attr = a := fun x => e x.symm
      simp [e, this]

@[simp] theorem leave_defs (c : Config) (t : Nat) (n : String) (p : Option CVal) :
    (c.leave t n p).defs = c.defs := by unfold Config.leave; cases p <;> simp
@[simp] theorem leave_values (c : Config) (t : Nat) (n : String) (p : Option CVal) :
    (c.leave t n p).values = c.values := by unfold Config.leave; cases p <;> simp

theorem leave_tls (c : Config) (t : Nat) (n : String) (p : Option CVal) (u : Nat) :
    (c.leave t n p).tls u = if u = t then
      (match p with | none => (c.tls u).pop n | some v => (c.tls u).set n v) else c.tls u := by
  unfold Config.leave; cases p <;> simp

theorem leave_state (c : Config) (t : Nat) (n : String) (p : Option CVal) (a : String) :
    (c.leave t n p).state.get? a =
      if (c.defs.get? n).map (·.attr) = some a then some (p.getD .none) else c.state.get? a := by
  unfold Config.leave; cases p <;> simp [hook_state]

/-- Everything a successful entry does. -/
theorem enter_ok {c : Config} {t : Nat} {n : String} {arg : Option CVal} {r : Config × Option CVal}
    (h : c.enter t n arg = .ok r) : ∃ v, (arg = some v ∨ arg = none ∧ v = .bool true) ∧
      r.2 = (c.tls t).get? n ∧ r.1.defs = c.defs ∧ r.1.values = c.values ∧
      (∀ u, r.1.tls u = if u = t then (c.tls u).set n v else c.tls u) ∧
      (∀ a, r.1.state.get? a =
        if (c.defs.get? n).map (·.attr) = some a then some v else c.state.get? a) := by
  unfold Config.enter at h
  cases hd : c.defs.get? n with
  | none => simp [hd] at h
  | some d =>
    simp only [hd, bind, Except.bind] at h
    cases hv : d.kind.argument arg with
    | error e => simp [hv] at h
    | ok v =>
      cases hw : d.kind.validate v with
      | error e => simp [hv, hw] at h
      | ok u =>
        simp only [hv, hw] at h
        injection h with h
        subst h
        refine ⟨v, ?_, rfl, by simp, by simp, by simp, fun a => ?_⟩
        · cases arg with
          | some w => left; simp [Kind.argument] at hv; simp [hv]
          | none =>
            right
            refine ⟨rfl, ?_⟩
            cases hk : d.kind with
            | bool => simp [hk, Kind.argument] at hv; exact hv.symm
            | enum vs => simp [hk, Kind.argument] at hv
        · rw [hook_state]; simp [hd]

theorem update_ok {c c' : Config} {n : String} {v : CVal} (h : c.update n v = .ok c') :
    c'.tls = c.tls ∧ c'.defs = c.defs ∧ c'.values = c.values.set n v ∧
      (∀ a, c'.state.get? a =
        if (c.defs.get? n).map (·.attr) = some a then some v else c.state.get? a) := by
  unfold Config.update at h
  split at h
  · injection h with h
    subst h
    exact ⟨by simp, by simp, by simp, fun a => by rw [hook_state]⟩
  · simp at h

theorem step_other (c : Config) (e : Event) (t : Nat) (h : e.thread ≠ t) :
    (c.step e).tls t = c.tls t := by
  have h' : t ≠ e.thread := fun x => h x.symm
  cases e with
  | update u n v =>
    simp only [Config.step]
    split
    · rename_i c' hc; rw [(update_ok hc).1]
    · rfl
  | enter u n arg =>
    simp only [Config.step]
    split
    · rename_i r hr
      obtain ⟨v, _, _, _, _, ht, _⟩ := enter_ok hr
      simp only
      rw [ht]; exact if_neg h'
    · rfl
  | leave u =>
    simp only [Config.step]
    split
    · rfl
    · simp only
      rw [leave_tls]; exact if_neg h'

theorem step_defs (c : Config) (e : Event) : (c.step e).defs = c.defs := by
  cases e with
  | update u n v =>
    simp only [Config.step]
    split
    · rename_i c' hc; exact (update_ok hc).2.1
    · rfl
  | enter u n arg =>
    simp only [Config.step]
    split
    · rename_i r hr
      obtain ⟨v, _, _, hd, _⟩ := enter_ok hr
      exact hd
    · rfl
  | leave u =>
    simp only [Config.step]
    split <;> simp

theorem step_value (c : Config) (e : Event) (name : String)
    (h : ∀ u n v, e = .update u n v → n ≠ name) :
    (c.step e).values.get? name = c.values.get? name := by
  cases e with
  | update u n v =>
    simp only [Config.step]
    split
    · rename_i c' hc
      rw [(update_ok hc).2.2.1, get?_set, if_neg (fun e => h u n v rfl e.symm)]
    · rfl
  | enter u n arg =>
    simp only [Config.step]
    split
    · rename_i r hr
      obtain ⟨v, _, _, _, hv, _⟩ := enter_ok hr
      simp only
      rw [hv]
    · rfl
  | leave u =>
    simp only [Config.step]
    split <;> simp

theorem steps_other (t : Nat) (evs : List Event) (c : Config) (h : ∀ e ∈ evs, e.thread ≠ t) :
    (evs.foldl Config.step c).tls t = c.tls t := by
  induction evs generalizing c with
  | nil => rfl
  | cons e evs ih =>
    rw [List.foldl_cons, ih _ (fun x hx => h x (List.mem_cons_of_mem _ hx)),
      step_other _ _ _ (h e List.mem_cons_self)]

theorem steps_defs (evs : List Event) (c : Config) : (evs.foldl Config.step c).defs = c.defs := by
  induction evs generalizing c with
  | nil => rfl
  | cons e evs ih => rw [List.foldl_cons, ih, step_defs]

theorem steps_value (name : String) (evs : List Event) (c : Config)
    (h : ∀ e ∈ evs, ∀ u n v, e = .update u n v → n ≠ name) :
    (evs.foldl Config.step c).values.get? name = c.values.get? name := by
  induction evs generalizing c with
  | nil => rfl
  | cons e evs ih =>
    rw [List.foldl_cons, ih _ (fun x hx => h x (List.mem_cons_of_mem _ hx)),
      step_value _ _ _ (h e List.mem_cons_self)]

/-! ## Programs -/

theorem exec_defs (t : Nat) (p : Prog) (c : Config) : (p.exec t c).1.defs = c.defs := by
  induction p generalizing c with
  | skip => rfl
  | raise e => rfl
  | update n v =>
    simp only [Prog.exec]
    split
    · rename_i c' hc; exact (update_ok hc).2.1
    · rfl
  | scope n arg b ih =>
    simp only [Prog.exec]
    split
    · rfl
    · rename_i r hr
      obtain ⟨v, _, _, hd, _⟩ := enter_ok hr
      simp [ih, hd]
  | seq p q ihp ihq =>
    simp only [Prog.exec]
    split
    · rw [ihq, ihp]
    · exact ihp c
  | attempt p h ihp ihh =>
    simp only [Prog.exec]
    split
    · exact ihp c
    · rw [ihh, ihp]
  | others evs => exact steps_defs evs c

/-- Overrides of a thread are exactly as before after any program of that thread. -/
theorem exec_tls (t : Nat) (p : Prog) (c : Config) (hp : p.Mine t) :
    (p.exec t c).1.tls t = c.tls t := by
  induction p generalizing c with
  | skip => rfl
  | raise e => rfl
  | update n v =>
    simp only [Prog.exec]
    split
    · rename_i c' hc; rw [(update_ok hc).1]
    · rfl
  | scope n arg b ih =>
    simp only [Prog.exec]
    split
    · rfl
    · rename_i r hr
      obtain ⟨v, _, hprev, _, _, ht, _⟩ := enter_ok hr
      simp only
      rw [leave_tls, if_pos rfl, ih _ hp, ht, if_pos rfl, hprev]
      cases hg : (c.tls t).get? n with
      | none => simp only; exact pop_set _ _ _ hg
      | some w => simp only; exact set_set _ _ _ _ hg
  | seq p q ihp ihq =>
    simp only [Prog.exec]
    split
    · rw [ihq _ hp.2, ihp _ hp.1]
    · exact ihp c hp.1
  | attempt p h ihp ihh =>
    simp only [Prog.exec]
    split
    · exact ihp c hp.1
    · rw [ihh _ hp.2, ihp _ hp.1]
  | others evs => exact steps_other t evs c hp

theorem exec_value (t : Nat) (name : String) (p : Prog) (c : Config) (hp : p.NoUpdate name) :
    (p.exec t c).1.values.get? name = c.values.get? name := by
  induction p generalizing c with
  | skip => rfl
  | raise e => rfl
  | update n v =>
    simp only [Prog.exec]
    split
    · rename_i c' hc
      rw [(update_ok hc).2.2.1, get?_set, if_neg (fun e => hp e.symm)]
    · rfl
  | scope n arg b ih =>
    simp only [Prog.exec]
    split
    · rfl
    · rename_i r hr
      obtain ⟨v, _, _, _, hv, _⟩ := enter_ok hr
      simp [ih _ hp, hv]
  | seq p q ihp ihq =>
    simp only [Prog.exec]
    split
    · rw [ihq _ hp.2, ihp _ hp.1]
    · exact ihp c hp.1
  | attempt p h ihp ihh =>
    simp only [Prog.exec]
    split
    · exact ihp c hp.1
    · rw [ihh _ hp.2, ihp _ hp.1]
  | others evs => exact steps_value name evs c hp

theorem read_congr {c c' : Config} {t : Nat} {name : String} (hd : c'.defs = c.defs)
    (ht : c'.tls t = c.tls t) (hv : c'.values.get? name = c.values.get? name) :
    c'.read t name = c.read t name := by
  unfold Config.read Config.readGlobal
  rw [hd, ht, hv]

/-- **C49** (options). Take any program of a thread — any nesting of scopes and updates, bodies and
handlers that raise, steps of other threads in between — and any option it does not call
`config.update` on. Then `config.<option>` reads after the program exactly what it read before,
whether the program ends normally or by an exception. -/
theorem C49_options_restored (t : Nat) (p : Prog) (c : Config) (name : String)
    (hmine : p.Mine t) (hupd : p.NoUpdate name) :
    (p.exec t c).1.read t name = c.read t name :=
  read_congr (exec_defs t p c) (exec_tls t p c hmine) (exec_value t name p c hupd)

/-- An option the thread has overridden reads the override after any program whatsoever of that
thread, even one that updates the option. -/
theorem C49_override_restored (t : Nat) (p : Prog) (c : Config) (name : String) (v : CVal)
    (hmine : p.Mine t) (hname : c.defs.has name) (hov : (c.tls t).get? name = some v) :
    (p.exec t c).1.read t name = .ok v := by
  unfold Config.read
  rw [exec_defs, hname, exec_tls t p c hmine, hov]
  rfl

/-- **C49** (inside a scope). From the entry to the exit of `with <option>(v)` the option reads `v` in
that thread, whatever the thread (in well-nested code) and other threads do meanwhile. -/
theorem C49_scope_visible (t : Nat) (name : String) (v : CVal) (c : Config) (r : Config × Option CVal)
    (h : c.enter t name (some v) = .ok r) (p : Prog) (hmine : p.Mine t) :
    (p.exec t r.1).1.read t name = .ok v := by
  obtain ⟨w, hw, _, hd, _, ht, _⟩ := enter_ok h
  have hv : w = v := by
    rcases hw with hw | hw
    · simpa using hw.symm
    · simp at hw
  subst hv
  refine C49_override_restored t p r.1 name w hmine ?_ ?_
  · rw [hd, has_iff]
    unfold Config.enter at h
    cases hg : c.defs.get? name with
    | none => simp [hg] at h
    | some d => rfl
  · rw [ht, if_pos rfl, get?_set, if_pos rfl]

/-- A scope changes no global value: what `config.update` sets inside a scope stays set. -/
theorem C49_update_survives_scope (t : Nat) (name : String) (v w : CVal) (c : Config)
    (hov : (c.tls t).get? name = none) (r : Config × Option CVal)
    (h : c.enter t name (some v) = .ok r) (hval : c.values.has name) :
    ((Prog.scope name (some v) (.update name w)).exec t c).1.read t name = .ok w ∧
      ((Prog.update name w).exec t r.1).1.read t name = .ok v := by
  refine ⟨?_, C49_scope_visible t name v c r h _ trivial⟩
  have htls := exec_tls t (.scope name (some v) (.update name w)) c trivial
  have hdefs := exec_defs t (.scope name (some v) (.update name w)) c
  obtain ⟨_, _, _, hd, hv, _⟩ := enter_ok h
  have hdef : c.defs.has name = true := by
    rw [has_iff]
    unfold Config.enter at h
    cases hg : c.defs.get? name with
    | none => simp [hg] at h
    | some d => rfl
  have hvals : ((Prog.scope name (some v) (.update name w)).exec t c).1.values.get? name = some w := by
    simp only [Prog.exec, h]
    have hu : ∃ c', r.1.update name w = .ok c' := by
      unfold Config.update; rw [hv, hval]; exact ⟨_, rfl⟩
    obtain ⟨c', hc⟩ := hu
    simp only [hc, leave_values, (update_ok hc).2.2.1, get?_set, if_pos]
  unfold Config.read Config.readGlobal
  rw [htls, hdefs, hdef, hov, hvals]
  rfl

/-- **C49** (invalid values). A scope of an enumerated option called with anything that is neither
`None` nor one of the listed strings raises a `ValueError`, runs none of its body and changes
nothing. -/
theorem C49_scope_rejects (t : Nat) (name : String) (v : CVal) (body : Prog) (c : Config) (d : OptDef)
    (vs : List String) (hd : c.defs.get? name = some d) (hk : d.kind = .enum vs)
    (hv : v ≠ .none) (hbad : ∀ s ∈ vs, v ≠ .str s) :
    (Prog.scope name (some v) body).exec t c = (c, some .value) := by
  have : c.enter t name (some v) = .error .value := by
    unfold Config.enter
    simp only [hd, bind, Except.bind, hk]
    cases v with
    | none => exact absurd rfl hv
    | bool b => rfl
    | other n => rfl
    | str s =>
      have hs : s ∉ vs := fun hm => hbad s hm rfl
      simp [Kind.validate, Kind.argument, hs]
  simp only [Prog.exec, this]

/-- An update of an option that was never registered raises an `AttributeError` and changes nothing. -/
theorem C49_unknown_rejected (t : Nat) (name : String) (v : CVal) (c : Config)
    (h : c.values.has name = false) :
    (Prog.update name v).exec t c = (c, some .attribute) := by
  simp [Prog.exec, Config.update, h]

/-! ## Importing the library -/

/-- The value of a boolean environment variable is acceptable. -/
def BoolWord (env : String → Option String) (name : String) : Prop :=
  ∀ s, env name = some s → pyLower s ∈ ["y", "yes", "t", "true", "on", "1"] ∨
    pyLower s ∈ ["n", "no", "f", "false", "off", "0"]

theorem boolEnv_cases (env : String → Option String) (name : String) :
    (BoolWord env name ∧ ∃ b, boolEnv (env name) false = .ok b) ∨
      (¬ BoolWord env name ∧ boolEnv (env name) false = .error .value) := by
  unfold boolEnv BoolWord
  cases h : env name with
  | none => exact .inl ⟨fun s hs => by simp at hs, false, rfl⟩
  | some s =>
    simp only [Option.getD_some, Option.some.injEq, forall_eq']
    by_cases h1 : pyLower s ∈ ["y", "yes", "t", "true", "on", "1"]
    · exact .inl ⟨.inl h1, true, if_pos h1⟩
    · by_cases h2 : pyLower s ∈ ["n", "no", "f", "false", "off", "0"]
      · exact .inl ⟨.inr h2, false, by rw [if_neg h1, if_pos h2]⟩
      · refine .inr ⟨fun h => h.elim h1 h2, by rw [if_neg h1, if_neg h2]⟩

/-- The configuration after a successful import. -/
def imported (inst : Installed) (backend ftype : String) : Config where
  values := [("muygpys_jax_enabled", .bool false), ("muygpys_gpu_enabled", .bool false),
    ("muygpys_hnswlib_enabled", .bool inst.hnswlib), ("muygpys_mpi_enabled", .bool inst.mpi),
    ("muygpys_torch_enabled", .bool inst.torch), ("muygpys_backend", .str backend),
    ("muygpys_ftype", .str ftype)]
  defs := [("muygpys_jax_enabled", ⟨.bool, "jax_enabled"⟩), ("muygpys_gpu_enabled", ⟨.bool, "gpu_enabled"⟩),
    ("muygpys_hnswlib_enabled", ⟨.bool, "hnswlib_enabled"⟩), ("muygpys_mpi_enabled", ⟨.bool, "mpi_enabled"⟩),
    ("muygpys_torch_enabled", ⟨.bool, "torch_enabled"⟩),
    ("muygpys_backend", ⟨.enum ["numpy", "jax", "torch", "mpi"], "backend"⟩),
    ("muygpys_ftype", ⟨.enum ["32", "64"], "ftype"⟩)]
  state := [("jax_enabled", .bool false), ("torch_enabled", .bool inst.torch),
    ("hnswlib_enabled", .bool inst.hnswlib), ("gpu_enabled", .bool false), ("mpi_enabled", .bool inst.mpi),
    ("backend", .str backend), ("ftype", .str ftype)]
  tls := fun _ => []
  open_ := fun _ => []

/-- The optional package a backend needs is installed (where JAX is not). -/
def Installed.supports (inst : Installed) (backend : String) : Prop :=
  backend = "numpy" ∨ (backend = "torch" ∧ inst.torch = true) ∨ (backend = "mpi" ∧ inst.mpi = true)

/-- **C49** (import). Importing succeeds exactly when the flag variables hold truth words, the backend
variable names an installed backend and the precision variable is 32 or 64; otherwise it raises a
`ValueError`. The result is determined by the two enumerated variables and the installed packages. -/
theorem C49_import (env : String → Option String) (inst : Installed) :
    let backend := (env "MUYGPYS_BACKEND").getD "numpy"
    let ftype := (env "MUYGPYS_FTYPE").getD "64"
    let good := (∀ n ∈ ["MUYGPYS_JAX_ENABLED", "MUYGPYS_GPU_ENABLED", "MUYGPYS_HNSWLIB_ENABLED",
        "MUYGPYS_MPI_ENABLED", "MUYGPYS_TORCH_ENABLED"], BoolWord env n) ∧
      inst.supports backend ∧ ftype ∈ ["32", "64"]
    (good → importConfig env inst = .ok (imported inst backend ftype)) ∧
      (¬ good → importConfig env inst = .error .value) := by
  have hu1 : pyUpper "muygpys_jax_enabled" = "MUYGPYS_JAX_ENABLED" := by decide
  have hu2 : pyUpper "muygpys_gpu_enabled" = "MUYGPYS_GPU_ENABLED" := by decide
  have hu3 : pyUpper "muygpys_hnswlib_enabled" = "MUYGPYS_HNSWLIB_ENABLED" := by decide
  have hu4 : pyUpper "muygpys_mpi_enabled" = "MUYGPYS_MPI_ENABLED" := by decide
  have hu5 : pyUpper "muygpys_torch_enabled" = "MUYGPYS_TORCH_ENABLED" := by decide
  have hu6 : pyUpper "muygpys_backend" = "MUYGPYS_BACKEND" := by decide
  have hu7 : pyUpper "muygpys_ftype" = "MUYGPYS_FTYPE" := by decide
  intro backend ftype good
  have hflag := boolEnv_cases env
  unfold importConfig Config.defineBool
  simp only [hu1, hu2, hu3, hu4, hu5]
  have bad : ∀ n ∈ ["MUYGPYS_JAX_ENABLED", "MUYGPYS_GPU_ENABLED", "MUYGPYS_HNSWLIB_ENABLED",
        "MUYGPYS_MPI_ENABLED", "MUYGPYS_TORCH_ENABLED"], ¬ BoolWord env n → ¬ good :=
    fun n hn hb hg => hb (hg.1 n hn)
  rcases hflag "MUYGPYS_JAX_ENABLED" with ⟨w1, b1, e1⟩ | ⟨w1, e1⟩
  swap
  · have := bad _ (by simp) w1
    refine ⟨fun h => absurd h this, fun _ => ?_⟩
    rw [e1]; rfl
  rcases hflag "MUYGPYS_GPU_ENABLED" with ⟨w2, b2, e2⟩ | ⟨w2, e2⟩
  swap
  · have := bad _ (by simp) w2
    refine ⟨fun h => absurd h this, fun _ => ?_⟩
    rw [e1, e2]; rfl
  rcases hflag "MUYGPYS_HNSWLIB_ENABLED" with ⟨w3, b3, e3⟩ | ⟨w3, e3⟩
  swap
  · have := bad _ (by simp) w3
    refine ⟨fun h => absurd h this, fun _ => ?_⟩
    rw [e1, e2, e3]; rfl
  rcases hflag "MUYGPYS_MPI_ENABLED" with ⟨w4, b4, e4⟩ | ⟨w4, e4⟩
  swap
  · have := bad _ (by simp) w4
    refine ⟨fun h => absurd h this, fun _ => ?_⟩
    rw [e1, e2, e3, e4]; rfl
  rcases hflag "MUYGPYS_TORCH_ENABLED" with ⟨w5, b5, e5⟩ | ⟨w5, e5⟩
  swap
  · have := bad _ (by simp) w5
    refine ⟨fun h => absurd h this, fun _ => ?_⟩
    rw [e1, e2, e3, e4, e5]; rfl
  rw [e1, e2, e3, e4, e5]
  have hwords : ∀ n ∈ ["MUYGPYS_JAX_ENABLED", "MUYGPYS_GPU_ENABLED", "MUYGPYS_HNSWLIB_ENABLED",
        "MUYGPYS_MPI_ENABLED", "MUYGPYS_TORCH_ENABLED"], BoolWord env n := by
    intro n hn
    simp only [List.mem_cons, List.not_mem_nil, or_false] at hn
    rcases hn with rfl | rfl | rfl | rfl | rfl <;> assumption
  unfold Config.defineEnum
  simp only [hu6, hu7]
  have hgood : good ↔ inst.supports backend ∧ ftype ∈ ["32", "64"] := ⟨fun h => h.2, fun h => ⟨hwords, h⟩⟩
  rw [hgood]
  simp only [backend, ftype]
  generalize (env "MUYGPYS_BACKEND").getD "numpy" = bk
  generalize (env "MUYGPYS_FTYPE").getD "64" = ft
  clear hgood hwords w1 w2 w3 w4 w5 e1 e2 e3 e4 e5 bad hflag hu1 hu2 hu3 hu4 hu5 hu6 hu7 good ftype backend
  obtain ⟨ih, im, it⟩ := inst
  by_cases hb : bk ∈ ["numpy", "jax", "torch", "mpi"]
  swap
  · refine ⟨fun h => absurd ?_ hb, fun _ => ?_⟩
    · rcases h.1 with h | ⟨h, _⟩ | ⟨h, _⟩ <;> simp [h]
    · simp only [bind, Except.bind, Config.addOption, Config.update, Config.hook, Config.blank]
      simp [hb, Dict.set, Dict.has, Dict.get?]
  simp only [List.mem_cons, List.not_mem_nil, or_false] at hb
  by_cases hf : ft ∈ ["32", "64"]
  · rcases hb with rfl | rfl | rfl | rfl <;> cases it <;> cases im <;>
      simp [Installed.supports, hf, bind, Except.bind, Config.addOption, Config.update, Config.hook,
        Config.blank, Dict.set, Dict.has, Dict.get?, Config.backendMissing, imported, throw,
        throwThe, MonadExceptOf.throw, pure, Except.pure]
  · refine ⟨fun h => absurd h.2 hf, fun _ => ?_⟩
    rcases hb with rfl | rfl | rfl | rfl <;> cases it <;> cases im <;>
      simp [hf, bind, Except.bind, Config.addOption, Config.update, Config.hook,
        Config.blank, Dict.set, Dict.has, Dict.get?, Config.backendMissing, imported, throw,
        throwThe, MonadExceptOf.throw, pure, Except.pure]

/-- After an import the configuration is consistent in every thread, and the backend it names can be
loaded. -/
theorem C49_import_consistent (env : String → Option String) (inst : Installed) (c : Config)
    (h : importConfig env inst = .ok c) :
    (∀ t, Consistent c t) ∧
      c.implementation = .ok ((env "MUYGPYS_BACKEND").getD "numpy") ∧
      inst.supports ((env "MUYGPYS_BACKEND").getD "numpy") := by
  have key := C49_import env inst
  simp only at key
  by_cases hg : (∀ n ∈ ["MUYGPYS_JAX_ENABLED", "MUYGPYS_GPU_ENABLED", "MUYGPYS_HNSWLIB_ENABLED",
        "MUYGPYS_MPI_ENABLED", "MUYGPYS_TORCH_ENABLED"], BoolWord env n) ∧
      inst.supports ((env "MUYGPYS_BACKEND").getD "numpy") ∧
      ((env "MUYGPYS_FTYPE").getD "64") ∈ ["32", "64"]
  swap
  · rw [key.2 hg] at h; simp at h
  · rw [key.1 hg] at h
    injection h with h
    subst h
    obtain ⟨_, hs, hf⟩ := hg
    revert hs hf
    generalize (env "MUYGPYS_BACKEND").getD "numpy" = bk
    generalize (env "MUYGPYS_FTYPE").getD "64" = ft
    intro hs hf
    have hbk : bk ∈ ["numpy", "jax", "torch", "mpi"] := by
      rcases hs with h | ⟨h, _⟩ | ⟨h, _⟩ <;> simp [h]
    refine ⟨fun t => ?_, ?_, hs⟩
    · intro o ho
      simp only [registered, List.mem_cons, List.not_mem_nil, or_false] at ho
      rcases ho with rfl | rfl | rfl | rfl | rfl | rfl | rfl
      · exact ⟨_, rfl, rfl, _, rfl⟩
      · exact ⟨_, rfl, rfl, _, rfl⟩
      · exact ⟨_, rfl, rfl, _, rfl⟩
      · exact ⟨_, rfl, rfl, _, rfl⟩
      · exact ⟨_, rfl, rfl, _, rfl⟩
      · refine ⟨.str bk, rfl, rfl, ?_⟩
        simpa using hbk
      · refine ⟨.str ft, rfl, rfl, ?_⟩
        simpa using hf
    · have hst : (imported inst bk ft).state.get? "backend" = some (.str bk) := rfl
      simp only [List.mem_cons, List.not_mem_nil, or_false] at hbk
      unfold Config.implementation
      rw [hst]
      rcases hbk with rfl | rfl | rfl | rfl <;> simp

/-- The five `..._ENABLED` environment variables and their documented effect: whatever acceptable words
they hold, the imported configuration is the same — they cannot switch a feature on or off. -/
theorem C49_enabled_variables_ignored (env env' : String → Option String) (inst : Installed)
    (c c' : Config) (hb : env "MUYGPYS_BACKEND" = env' "MUYGPYS_BACKEND")
    (hf : env "MUYGPYS_FTYPE" = env' "MUYGPYS_FTYPE")
    (h : importConfig env inst = .ok c) (h' : importConfig env' inst = .ok c') : c = c' := by
  have key : ∀ (e : String → Option String) (d : Config), importConfig e inst = .ok d →
      d = imported inst ((e "MUYGPYS_BACKEND").getD "numpy") ((e "MUYGPYS_FTYPE").getD "64") := by
    intro e d hd
    have := C49_import e inst
    simp only at this
    by_cases hg : (∀ n ∈ ["MUYGPYS_JAX_ENABLED", "MUYGPYS_GPU_ENABLED", "MUYGPYS_HNSWLIB_ENABLED",
        "MUYGPYS_MPI_ENABLED", "MUYGPYS_TORCH_ENABLED"], BoolWord e n) ∧
        inst.supports ((e "MUYGPYS_BACKEND").getD "numpy") ∧
        ((e "MUYGPYS_FTYPE").getD "64") ∈ ["32", "64"]
    · rw [this.1 hg] at hd; injection hd with hd; exact hd.symm
    · rw [this.2 hg] at hd; simp at hd
  rw [key env c h, key env' c' h', hb, hf]

/-! ## Reachable configurations -/

/-- A configuration the library can be in: after an import, any steps of any threads. -/
def Reachable (c : Config) : Prop :=
  ∃ (env : String → Option String) (inst : Installed) (c₀ : Config) (evs : List Event),
    importConfig env inst = .ok c₀ ∧ c = evs.foldl Config.step c₀

theorem reachable_defs {c : Config} (h : Reachable c) :
    c.defs = (imported ⟨false, false, false⟩ "numpy" "64").defs := by
  obtain ⟨env, inst, c₀, evs, h0, rfl⟩ := h
  rw [steps_defs]
  have := C49_import env inst
  simp only at this
  by_cases hg : (∀ n ∈ ["MUYGPYS_JAX_ENABLED", "MUYGPYS_GPU_ENABLED", "MUYGPYS_HNSWLIB_ENABLED",
        "MUYGPYS_MPI_ENABLED", "MUYGPYS_TORCH_ENABLED"], BoolWord env n) ∧
        inst.supports ((env "MUYGPYS_BACKEND").getD "numpy") ∧
        ((env "MUYGPYS_FTYPE").getD "64") ∈ ["32", "64"]
  · rw [this.1 hg] at h0; injection h0 with h0; subst h0; rfl
  · rw [this.2 hg] at h0; simp at h0

theorem steps_has (name : String) (evs : List Event) (c : Config) (h : c.values.has name) :
    (evs.foldl Config.step c).values.has name = true := by
  induction evs generalizing c with
  | nil => exact h
  | cons e evs ih =>
    rw [List.foldl_cons]
    apply ih
    cases e with
    | update u n v =>
      simp only [Config.step]
      split
      · rename_i c' hc
        rw [(update_ok hc).2.2.1, has_iff, get?_set]
        split
        · rfl
        · rw [← has_iff]; exact h
      · exact h
    | enter u n arg =>
      simp only [Config.step]
      split
      · rename_i r hr
        obtain ⟨v, _, _, _, hv, _⟩ := enter_ok hr
        simp only
        rw [hv]; exact h
      · exact h
    | leave u =>
      simp only [Config.step]
      split
      · exact h
      · simp only [leave_values]; exact h

theorem reachable_values {c : Config} (h : Reachable c) (o) (ho : o ∈ registered) :
    c.values.has o.1 = true := by
  obtain ⟨env, inst, c₀, evs, h0, rfl⟩ := h
  apply steps_has
  have := C49_import env inst
  simp only at this
  by_cases hg : (∀ n ∈ ["MUYGPYS_JAX_ENABLED", "MUYGPYS_GPU_ENABLED", "MUYGPYS_HNSWLIB_ENABLED",
        "MUYGPYS_MPI_ENABLED", "MUYGPYS_TORCH_ENABLED"], BoolWord env n) ∧
        inst.supports ((env "MUYGPYS_BACKEND").getD "numpy") ∧
        ((env "MUYGPYS_FTYPE").getD "64") ∈ ["32", "64"]
  · rw [this.1 hg] at h0; injection h0 with h0; subst h0
    simp only [registered, List.mem_cons, List.not_mem_nil, or_false] at ho
    rcases ho with rfl | rfl | rfl | rfl | rfl | rfl | rfl <;> rfl
  · rw [this.2 hg] at h0; simp at h0

/-- The attribute an option's hooks assign, in a reachable configuration. -/
theorem reachable_attr {c : Config} (h : Reachable c) (o) (ho : o ∈ registered) :
    (c.defs.get? o.1).map (·.attr) = some o.2.1 := by
  rw [reachable_defs h]
  simp only [registered, List.mem_cons, List.not_mem_nil, or_false] at ho
  rcases ho with rfl | rfl | rfl | rfl | rfl | rfl | rfl <;> rfl

/-- Only an option's own hooks assign its attribute. -/
theorem reachable_attr_inj {c : Config} (h : Reachable c) (o) (ho : o ∈ registered) (n : String)
    (hn : (c.defs.get? n).map (·.attr) = some o.2.1) : n = o.1 := by
  have hd := reachable_defs h
  by_contra hne
  have hmem : ∃ d, c.defs.get? n = some d ∧ d.attr = o.2.1 := by
    cases hg : c.defs.get? n with
    | none => simp [hg] at hn
    | some d => exact ⟨d, rfl, by simpa [hg] using hn⟩
  obtain ⟨d, hg, hat⟩ := hmem
  have hm : (n, d) ∈ c.defs := by
    unfold Dict.get? at hg
    cases hf : c.defs.find? (·.1 == n) with
    | none => simp [hf] at hg
    | some x =>
      have h1 := List.mem_of_find?_eq_some hf
      have h2 := List.find?_some hf
      simp [hf] at hg h2
      subst hg h2
      exact h1
  rw [hd] at hm
  simp only [imported, List.mem_cons, List.not_mem_nil, or_false, Prod.mk.injEq] at hm
  simp only [registered, List.mem_cons, List.not_mem_nil, or_false] at ho
  rcases ho with rfl | rfl | rfl | rfl | rfl | rfl | rfl <;>
    rcases hm with ⟨rfl, rfl⟩ | ⟨rfl, rfl⟩ | ⟨rfl, rfl⟩ | ⟨rfl, rfl⟩ | ⟨rfl, rfl⟩ | ⟨rfl, rfl⟩ | ⟨rfl, rfl⟩ <;>
    first
      | exact absurd rfl hne
      | exact absurd hat (by decide)

/-! ## The derived state -/

/-- How a program of a thread without interference acts on the derived attribute of an option. -/
theorem exec_state (t : Nat) (o : String × String × (CVal → Prop)) (ho : o ∈ registered) (c₀ : Config)
    (hr : Reachable c₀) (p : Prog) (c : Config) (hd : c.defs = c₀.defs) (ha : p.Alone)
    (hu : p.NoUpdate o.1) (v : CVal)
    (hcase : (c.tls t).get? o.1 = some v ∨ p.NoScope o.1)
    (hs : c.state.get? o.2.1 = some v) :
    (p.exec t c).1.state.get? o.2.1 = some v := by
  have hattr : ∀ n, (c₀.defs.get? n).map (·.attr) = some o.2.1 → n = o.1 :=
    reachable_attr_inj hr o ho
  have hown := reachable_attr hr o ho
  have hmine : ∀ q : Prog, q.Alone → q.Mine t := by
    intro q hq
    induction q with
    | skip => trivial
    | raise e => trivial
    | update n v => trivial
    | scope n a b ih => exact ih hq
    | seq p q ihp ihq => exact ⟨ihp hq.1, ihq hq.2⟩
    | attempt p q ihp ihq => exact ⟨ihp hq.1, ihq hq.2⟩
    | others evs => simp only [Prog.Alone] at hq; subst hq; intro e he; simp at he
  induction p generalizing c v with
  | skip => exact hs
  | raise e => exact hs
  | others evs => simp only [Prog.Alone] at ha; subst ha; exact hs
  | update n w =>
    simp only [Prog.exec]
    split
    · rename_i c' hc
      simp only
      rw [(update_ok hc).2.2.2, hd, if_neg (fun e => hu (hattr _ e)), hs]
    · exact hs
  | scope n arg b ih =>
    simp only [Prog.exec]
    split
    · exact hs
    · rename_i r hrr
      obtain ⟨w, _, hprev, hd', _, ht, hst⟩ := enter_ok hrr
      simp only
      rw [leave_state, exec_defs, hd', hd]
      by_cases hn : n = o.1
      · subst hn
        rw [if_pos hown, hprev]
        rcases hcase with h | h
        · simp [h]
        · exact absurd rfl h.1
      · have hne : ¬ (c₀.defs.get? n).map (·.attr) = some o.2.1 := fun e => hn (hattr _ e)
        rw [if_neg hne]
        refine ih _ (hd'.trans hd) ha hu v ?_ ?_
        · rcases hcase with h | h
          · left
            rw [ht, if_pos rfl, get?_set, if_neg (fun e => hn e.symm), h]
          · exact .inr h.2
        · rw [hst, hd, if_neg hne, hs]
  | seq p q ihp ihq =>
    have h1 := ihp c hd ha.1 hu.1 v (hcase.imp id (·.1)) hs
    simp only [Prog.exec]
    split
    · refine ihq _ ((exec_defs t p c).trans hd) ha.2 hu.2 v ?_ h1
      rw [exec_tls t p c (hmine p ha.1)]
      exact hcase.imp id (·.2)
    · exact h1
  | attempt p q ihp ihq =>
    have h1 := ihp c hd ha.1 hu.1 v (hcase.imp id (·.1)) hs
    simp only [Prog.exec]
    split
    · exact h1
    · refine ihq _ ((exec_defs t p c).trans hd) ha.2 hu.2 v ?_ h1
      rw [exec_tls t p c (hmine p ha.1)]
      exact hcase.imp id (·.2)

/-- **C49** (derived state, part). In a reachable configuration, a program of one thread running
alone leaves the derived `config.state` attribute of an option equal to what `config.<option>` reads,
if it was so before, provided the program does not call `config.update` on the option and either the
thread already has the option overridden by an enclosing scope, or the program opens no scope for the
option. Missing from the full property: scopes that are the outermost for their option
(`C49_outermost_scope_loses_state`), updates inside a scope (`C49_update_in_scope_inconsistent`) and
other threads (`C49_threads_share_state`), where the claim is false of the code. -/
theorem C49_derived_state_partial (c : Config) (hr : Reachable c) (t : Nat) (p : Prog)
    (o : String × String × (CVal → Prop)) (ho : o ∈ registered) (ha : p.Alone) (hu : p.NoUpdate o.1)
    (v : CVal) (hcase : (c.tls t).get? o.1 = some v ∨ p.NoScope o.1)
    (hread : c.read t o.1 = .ok v) (hs : c.state.get? o.2.1 = some v) :
    (p.exec t c).1.read t o.1 = .ok v ∧ (p.exec t c).1.state.get? o.2.1 = some v := by
  refine ⟨?_, exec_state t o ho c hr p c rfl ha hu v hcase hs⟩
  rw [C49_options_restored t p c o.1 ?_ hu, hread]
  revert ha
  generalize p = q
  intro hq
  induction q with
  | skip => trivial
  | raise e => trivial
  | update n v => trivial
  | scope n a b ih => exact ih hq
  | seq p q ihp ihq => exact ⟨ihp hq.1, ihq hq.2⟩
  | attempt p q ihp ihq => exact ⟨ihp hq.1, ihq hq.2⟩
  | others evs => simp only [Prog.Alone] at hq; subst hq; intro e he; simp at he

/-- An update outside any scope keeps the derived state in step. -/
theorem C49_update_consistent (c : Config) (hr : Reachable c) (t : Nat)
    (o : String × String × (CVal → Prop)) (ho : o ∈ registered) (v : CVal)
    (hov : (c.tls t).get? o.1 = none) :
    let c' := ((Prog.update o.1 v).exec t c).1
    ((Prog.update o.1 v).exec t c).2 = none ∧ c'.read t o.1 = .ok v ∧ c'.state.get? o.2.1 = some v := by
  have hval := reachable_values hr o ho
  have hattr := reachable_attr hr o ho
  have hu : ∃ c', c.update o.1 v = .ok c' := by
    unfold Config.update; rw [hval]; exact ⟨_, rfl⟩
  obtain ⟨c', hc⟩ := hu
  obtain ⟨htl, hdf, hvl, hst⟩ := update_ok hc
  have hdef : c.defs.has o.1 = true := by
    rw [has_iff]
    cases hg : c.defs.get? o.1 with
    | none => simp [hg] at hattr
    | some d => rfl
  simp only [Prog.exec, hc]
  refine ⟨trivial, ?_, ?_⟩
  · unfold Config.read Config.readGlobal
    rw [hdf, hdef, htl, hov, hvl, get?_set]
    simp
  · rw [hst, if_pos hattr]

/-- **C49 is false of the code** for the derived state: leaving a scope that is the outermost one for
its option sets the option's `config.state` attribute to `None` — for every option, every reachable
configuration, every accepted argument and every body (which may raise, and during which other threads
may run). The option itself reads as before. -/
theorem C49_outermost_scope_loses_state (c : Config) (hr : Reachable c) (t : Nat)
    (o : String × String × (CVal → Prop)) (ho : o ∈ registered) (arg : Option CVal) (body : Prog)
    (hov : (c.tls t).get? o.1 = none) (r : Config × Option CVal) (hin : c.enter t o.1 arg = .ok r) :
    ((Prog.scope o.1 arg body).exec t c).1.state.get? o.2.1 = some .none := by
  obtain ⟨v, _, hprev, hd, _⟩ := enter_ok hin
  simp only [Prog.exec, hin]
  rw [leave_state, exec_defs, hd, if_pos (reachable_attr hr o ho), hprev, hov]
  rfl

/-- After any outermost `with backend(...)` the library can no longer be loaded: collecting an
implementation raises a `ValueError`, although `config.muygpys_backend` reads as before. -/
theorem C49_backend_scope_breaks_library (c : Config) (hr : Reachable c) (t : Nat) (arg : Option CVal)
    (body : Prog) (hmine : body.Mine t) (hupd : body.NoUpdate "muygpys_backend")
    (hov : (c.tls t).get? "muygpys_backend" = none) (r : Config × Option CVal)
    (hin : c.enter t "muygpys_backend" arg = .ok r) :
    let s := ((Prog.scope "muygpys_backend" arg body).exec t c).1
    s.read t "muygpys_backend" = c.read t "muygpys_backend" ∧ s.implementation = .error .value := by
  refine ⟨C49_options_restored t _ c _ hmine hupd, ?_⟩
  have := C49_outermost_scope_loses_state c hr t
    ("muygpys_backend", "backend",
      fun v => v ∈ [CVal.str "numpy", CVal.str "jax", CVal.str "torch", CVal.str "mpi"])
    (by simp [registered]) arg body hov r hin
  simp only at this
  simp only [Config.implementation, this]
  simp

/-- After any outermost `with ftype(...)` the floating type the library selects is `None`, without an
exception. -/
theorem C49_ftype_scope_loses_type {α : Type} (c : Config) (hr : Reachable c) (t : Nat)
    (arg : Option CVal) (body : Prog) (hov : (c.tls t).get? "muygpys_ftype" = none)
    (r : Config × Option CVal) (hin : c.enter t "muygpys_ftype" arg = .ok r) (t64 t32 : α) :
    ((Prog.scope "muygpys_ftype" arg body).exec t c).1.setType t64 t32 = none := by
  have := C49_outermost_scope_loses_state c hr t
    ("muygpys_ftype", "ftype", fun v => v ∈ [CVal.str "32", CVal.str "64"])
    (by simp [registered]) arg body hov r hin
  simp only at this
  simp [Config.setType, this]

/-- **C49 is false of the code**: `config.update` does not validate; any value is accepted for the
backend and the next collection of an implementation raises. -/
theorem C49_update_unvalidated_fails (c : Config) (hr : Reachable c) (t : Nat) (v : CVal)
    (hbad : ∀ s ∈ ["numpy", "jax", "torch", "mpi"], v ≠ .str s) :
    let s := (Prog.update "muygpys_backend" v).exec t c
    s.2 = none ∧ s.1.implementation = .error .value ∧ ¬ Consistent s.1 t := by
  have hval := reachable_values hr ("muygpys_backend", "backend",
      fun v => v ∈ [CVal.str "numpy", CVal.str "jax", CVal.str "torch", CVal.str "mpi"])
    (by simp [registered])
  have hattr := reachable_attr hr ("muygpys_backend", "backend",
      fun v => v ∈ [CVal.str "numpy", CVal.str "jax", CVal.str "torch", CVal.str "mpi"])
    (by simp [registered])
  have hu : ∃ c', c.update "muygpys_backend" v = .ok c' := by
    unfold Config.update; simp only at hval; rw [hval]; exact ⟨_, rfl⟩
  obtain ⟨c', hc⟩ := hu
  have hst := (update_ok hc).2.2.2 "backend"
  simp only at hattr
  rw [if_pos hattr] at hst
  have h1 := hbad "numpy" (by simp)
  have h2 := hbad "jax" (by simp)
  have h3 := hbad "torch" (by simp)
  have h4 := hbad "mpi" (by simp)
  simp only [Prog.exec, hc]
  refine ⟨trivial, ?_, ?_⟩
  · simp [Config.implementation, hst, h1, h2, h3, h4]
  · intro hcon
    obtain ⟨w, _, hw, hok⟩ := hcon ("muygpys_backend", "backend",
      fun v => v ∈ [CVal.str "numpy", CVal.str "jax", CVal.str "torch", CVal.str "mpi"])
      (by simp [registered])
    simp only [hst, Option.some.injEq] at hw
    subst hw
    simp [h1, h2, h3, h4] at hok

/-- **C49 is false of the code**: an update inside a scope makes the derived state show the global
value while the option reads the override. -/
theorem C49_update_in_scope_inconsistent (c : Config) (hr : Reachable c) (t : Nat)
    (o : String × String × (CVal → Prop)) (ho : o ∈ registered) (v w : CVal)
    (r : Config × Option CVal) (hin : c.enter t o.1 (some v) = .ok r) :
    let s := ((Prog.update o.1 w).exec t r.1).1
    s.read t o.1 = .ok v ∧ s.state.get? o.2.1 = some w := by
  refine ⟨C49_scope_visible t o.1 v c r hin _ trivial, ?_⟩
  obtain ⟨_, _, _, hd, hv, _⟩ := enter_ok hin
  have hu : ∃ c', r.1.update o.1 w = .ok c' := by
    unfold Config.update; rw [hv, reachable_values hr o ho]; exact ⟨_, rfl⟩
  obtain ⟨c', hc⟩ := hu
  simp only [Prog.exec, hc]
  rw [(update_ok hc).2.2.2, hd, if_pos (reachable_attr hr o ho)]

/-- **C49**, definitions: an option can be defined once; defining it gives it its default, in `values`, in its attribute of the
state, and in every thread that has no scope open for that name, and touches no other option. -/
theorem C49_define (c : Config) (name : String) (v : CVal) (d : OptDef) :
    (c.values.has name → c.addOption name v d = .error .value) ∧
    (c.values.has name = false → ∃ c', c.addOption name v d = .ok c' ∧ c'.values.has name ∧ c'.flagsRead name = .error .attribute ∧
      (∀ t, (c.tls t).get? name = none → c'.read t name = .ok v) ∧ c'.state.get? d.attr = some v ∧
      (∀ t n, n ≠ name → c'.read t n = c.read t n) ∧ (∀ a, a ≠ d.attr → c'.state.get? a = c.state.get? a) ∧
      c'.addOption name v d = .error .value) := by
  refine ⟨fun h => by unfold Config.addOption; rw [if_pos h], fun h => ?_⟩
  have hd : (c.defs.set name d).get? name = some d := by rw [get?_set, if_pos rfl]
  have hv : (c.values.set name v).get? name = some v := by rw [get?_set, if_pos rfl]
  have hvh : (c.values.set name v).has name = true := by rw [has_iff, hv]; rfl
  have hdh : (c.defs.set name d).has name = true := by rw [has_iff, hd]; rfl
  refine ⟨⟨c.values.set name v, c.defs.set name d, c.state.set d.attr v, c.tls, c.open_⟩, ?_, hvh, ?_, ?_, ?_, ?_, ?_, ?_⟩
  · unfold Config.addOption Config.hook
    rw [h]
    simp only [Bool.false_eq_true, if_false, hd]
  · unfold Config.flagsRead
    simp only [hdh, if_true]
  · intro t ht
    unfold Config.read Config.readGlobal
    simp only [hdh, if_true, ht, hv]
  · show (c.state.set d.attr v).get? d.attr = some v
    rw [get?_set, if_pos rfl]
  · intro t n hn
    unfold Config.read Config.readGlobal
    have e1 : (c.defs.set name d).get? n = c.defs.get? n := by rw [get?_set, if_neg hn]
    have e2 : (c.values.set name v).get? n = c.values.get? n := by rw [get?_set, if_neg hn]
    have e3 : (c.defs.set name d).has n = c.defs.has n := by rw [has_iff, has_iff, e1]
    simp only [e2, e3]
  · intro a ha
    show (c.state.set d.attr v).get? a = _
    rw [get?_set, if_neg ha]
  · unfold Config.addOption
    rw [if_pos hvh]

/-- **C49 is false of the code** for threads: another thread entering a scope changes the state this
thread's library calls consult, while this thread's option reads as before. -/
theorem C49_threads_share_state (c : Config) (hr : Reachable c) (t u : Nat) (htu : u ≠ t)
    (o : String × String × (CVal → Prop)) (ho : o ∈ registered) (v : CVal)
    (r : Config × Option CVal) (hin : c.enter u o.1 (some v) = .ok r) :
    let s := ((Prog.others [.enter u o.1 (some v)]).exec t c).1
    s.read t o.1 = c.read t o.1 ∧ s.state.get? o.2.1 = some v := by
  constructor
  · apply C49_options_restored
    · intro e he
      simp only [List.mem_singleton] at he
      subst he
      exact htu
    · intro e he u' n' v' heq
      simp only [List.mem_singleton] at he
      subst he
      simp at heq
  · obtain ⟨w, hw, _, _, _, _, hst⟩ := enter_ok hin
    have hwv : w = v := by
      rcases hw with hw | hw
      · simpa using hw.symm
      · simp at hw
    subst hwv
    simp only [Prog.exec, List.foldl_cons, List.foldl_nil, Config.step, hin]
    rw [hst, if_pos (reachable_attr hr o ho)]

/-- In a consistent configuration the library loads the backend the option names and computes in the
precision the option names. -/
theorem C49_consistent_selects {α : Type} (c : Config) (t : Nat) (h : Consistent c t) (t64 t32 : α) :
    (∃ b, c.read t "muygpys_backend" = .ok (.str b) ∧ c.implementation = .ok b) ∧
    (c.read t "muygpys_ftype" = .ok (.str "64") ∧ c.setType t64 t32 = some t64 ∧ c.lowPrecision = false ∨
      c.read t "muygpys_ftype" = .ok (.str "32") ∧ c.setType t64 t32 = some t32 ∧
        c.lowPrecision = true) := by
  constructor
  · obtain ⟨v, hr, hs, hv⟩ := h ("muygpys_backend", "backend",
      fun v => v ∈ [CVal.str "numpy", CVal.str "jax", CVal.str "torch", CVal.str "mpi"])
      (by simp [registered])
    simp only [List.mem_cons, List.not_mem_nil, or_false] at hr hs hv
    rcases hv with rfl | rfl | rfl | rfl
    · exact ⟨_, hr, by simp [Config.implementation, hs]⟩
    · exact ⟨_, hr, by simp [Config.implementation, hs]⟩
    · exact ⟨_, hr, by simp [Config.implementation, hs]⟩
    · exact ⟨_, hr, by simp [Config.implementation, hs]⟩
  · obtain ⟨v, hr, hs, hv⟩ := h ("muygpys_ftype", "ftype", fun v => v ∈ [CVal.str "32", CVal.str "64"])
      (by simp [registered])
    simp only [List.mem_cons, List.not_mem_nil, or_false] at hr hs hv
    rcases hv with rfl | rfl
    · right; exact ⟨hr, by simp [Config.setType, hs], by simp [Config.lowPrecision, hs]⟩
    · left; exact ⟨hr, by simp [Config.setType, hs], by simp [Config.lowPrecision, hs]⟩

/-- Reading a registered option through `config.FLAGS` is an `AttributeError`, in every reachable
configuration, so a stale global value cannot be read by mistake. -/
theorem C49_flags_read (c : Config) (hr : Reachable c) (o) (ho : o ∈ registered) :
    c.flagsRead o.1 = .error .attribute := by
  have hattr := reachable_attr hr o ho
  unfold Config.flagsRead
  rw [has_iff]
  cases hg : c.defs.get? o.1 with
  | none => simp [hg] at hattr
  | some d => rfl

/-! ## Non-vacuity -/

/-- An environment with torch installed and chosen. -/
def exEnv : String → Option String := fun n =>
  if n = "MUYGPYS_BACKEND" then some "torch" else if n = "MUYGPYS_JAX_ENABLED" then some "Yes" else none

def exConfig : Config := imported ⟨true, false, true⟩ "torch" "64"

theorem exConfig_import : importConfig exEnv ⟨true, false, true⟩ = .ok exConfig := by
  refine (C49_import exEnv ⟨true, false, true⟩).1 ⟨?_, ?_, ?_⟩
  · intro n hn s hs
    simp only [List.mem_cons, List.not_mem_nil, or_false] at hn
    rcases hn with rfl | rfl | rfl | rfl | rfl
    · have : s = "Yes" := by simpa [exEnv] using hs.symm
      subst this
      decide
    all_goals simp [exEnv] at hs
  · right; left; exact ⟨rfl, rfl⟩
  · decide

theorem exConfig_reachable : Reachable exConfig := ⟨exEnv, _, exConfig, [], exConfig_import, rfl⟩

/-- Reachable with an override in force: the hypotheses of `C49_derived_state_partial` are met, with a
non-trivial program: a nested scope whose body raises, inside a handler. -/
def exNested : Config := exConfig.step (.enter 0 "muygpys_backend" (some (.str "numpy")))

theorem exNested_reachable : Reachable exNested :=
  ⟨exEnv, _, exConfig, [.enter 0 "muygpys_backend" (some (.str "numpy"))], exConfig_import, rfl⟩

def exProg : Prog :=
  .attempt (.scope "muygpys_backend" (some (.str "mpi")) (.seq (.update "muygpys_ftype" (.str "32"))
    (.raise .key))) .skip

example : (exProg.exec 0 exNested).1.read 0 "muygpys_backend" = .ok (.str "numpy") ∧
    (exProg.exec 0 exNested).1.state.get? "backend" = some (.str "numpy") := by
  refine C49_derived_state_partial exNested exNested_reachable 0 exProg
    ("muygpys_backend", "backend",
      fun v => v ∈ [CVal.str "numpy", CVal.str "jax", CVal.str "torch", CVal.str "mpi"])
    (by simp [registered]) ?_ ?_ (.str "numpy") (.inl rfl) rfl rfl
  · exact ⟨⟨trivial, trivial⟩, trivial⟩
  · exact ⟨⟨by simp [Prog.NoUpdate], trivial⟩, trivial⟩

/-- The whole claim, refuted: a balanced program of one thread from a consistent configuration after
which the configuration is not consistent. -/
theorem C49_full_fails : ∃ (c : Config) (p : Prog), Reachable c ∧ Consistent c 0 ∧ p.Alone ∧
    (∀ n, p.NoUpdate n) ∧ (p.exec 0 c).2 = none ∧ ¬ Consistent (p.exec 0 c).1 0 := by
  refine ⟨exConfig, .scope "muygpys_backend" (some (.str "numpy")) .skip, exConfig_reachable,
    (C49_import_consistent _ _ _ exConfig_import).1 0, trivial, fun _ => trivial, rfl, ?_⟩
  intro hcon
  obtain ⟨w, hread, hst, _⟩ := hcon ("muygpys_backend", "backend",
      fun v => v ∈ [CVal.str "numpy", CVal.str "jax", CVal.str "torch", CVal.str "mpi"])
      (by simp [registered])
  have h1 : ((Prog.scope "muygpys_backend" (some (.str "numpy")) .skip).exec 0 exConfig).1.state.get?
      "backend" = some .none := rfl
  have h2 : ((Prog.scope "muygpys_backend" (some (.str "numpy")) .skip).exec 0 exConfig).1.read 0
      "muygpys_backend" = .ok (.str "torch") := rfl
  simp only [h1, h2] at hread hst
  simp at hread hst
  rw [← hread] at hst
  simp at hst

example : (Prog.scope "muygpys_backend" (some (.str "cupy")) exProg).exec 0 exConfig
    = (exConfig, some .value) :=
  C49_scope_rejects 0 _ _ _ _ ⟨.enum ["numpy", "jax", "torch", "mpi"], "backend"⟩ _ rfl rfl (by simp)
    (by intro s hs; simp at hs; rcases hs with rfl | rfl | rfl | rfl <;> decide)

example : ∃ r, exConfig.enter 1 "muygpys_backend" (some (.str "mpi")) = .ok r := ⟨_, rfl⟩

end MuyGPyS.Conf
