import Verif.Spec.ConfigAbsl
import Verif.Props.Config
import Mathlib.Data.Fin.VecNotation

/-!
# C103: command-line flags set the options they name
-/

namespace MuyGPyS.Conf
open Py

/-! ## The specification -/

theorem Meaning.unique {o s : String} {v w : CVal} (hv : Meaning o s v) (hw : Meaning o s w) : v = w := by
  have hne : ∀ vs, (o, vs) ∈ choices → o ∉ switches := by
    intro vs h
    simp only [choices, List.mem_cons, Prod.mk.injEq, List.not_mem_nil, or_false] at h
    rcases h with ⟨rfl, _⟩ | ⟨rfl, _⟩ <;> decide
  have hword : ∀ x : String, x ∈ ["true", "t", "1"] → x ∉ ["false", "f", "0"] := by
    intro x hx
    simp only [List.mem_cons, List.not_mem_nil, or_false] at hx
    rcases hx with rfl | rfl | rfl <;> decide
  rcases hv with ⟨h1, h2⟩ | ⟨vs, h1, h2, rfl⟩ <;> rcases hw with ⟨g1, g2⟩ | ⟨ws, g1, g2, rfl⟩
  · rcases h2 with ⟨h2, rfl⟩ | ⟨h2, rfl⟩ <;> rcases g2 with ⟨g2, rfl⟩ | ⟨g2, rfl⟩
    · rfl
    · exact absurd g2 (hword _ h2)
    · exact absurd h2 (hword _ g2)
    · rfl
  · exact absurd h1 (hne _ g1)
  · exact absurd g1 (hne _ h1)
  · rfl

theorem Word.Gives.unique {o : String} {v w : CVal} {x : Word} (hv : x.Gives o v) (hw : x.Gives o w) :
    v = w := by
  cases x with
  | setting p s => exact hv.2.unique hw.2
  | switch p => exact hv.2.trans hw.2.symm
  | foreign p => exact absurd hv id

/-- The specification determines the value. -/
theorem Leaves.unique {ws : List Word} {o : String} {old v w : CVal} (hv : Leaves ws o old v)
    (hw : Leaves ws o old w) : v = w := by
  rcases hv with ⟨p, x, q, rfl, hx, hq⟩ | ⟨hn, rfl⟩
  · rcases hw with ⟨p', x', q', he, hx', hq'⟩ | ⟨hn, rfl⟩
    · rcases List.append_eq_append_iff.mp he with ⟨m, h1, h2⟩ | ⟨m, h1, h2⟩
      · cases m with
        | nil => simp at h2; obtain ⟨rfl, rfl⟩ := h2; exact hx.unique hx'
        | cons y m =>
          simp only [List.cons_append, List.cons.injEq] at h2
          exact absurd hx' (hq x' (by rw [h2.2]; simp) _)
      · cases m with
        | nil => simp at h2; obtain ⟨rfl, rfl⟩ := h2; exact hx.unique hx'
        | cons y m =>
          simp only [List.cons_append, List.cons.injEq] at h2
          exact absurd hx (hq' x (by rw [h2.2]; simp) _)
    · exact absurd hx (hn x (by simp) _)
  · rcases hw with ⟨p', x', q', he, hx', hq'⟩ | ⟨_, rfl⟩
    · exact absurd hx' (hn x' (by rw [he]; simp) _)
    · rfl

theorem Leaves.cons_given {ws : List Word} {x : Word} {o : String} {old v w : CVal}
    (hx : x.Gives o w) (h : Leaves ws o w v) : Leaves (x :: ws) o old v := by
  rcases h with ⟨p, y, q, rfl, hy, hq⟩ | ⟨hn, rfl⟩
  · exact .inl ⟨x :: p, y, q, rfl, hy, hq⟩
  · exact .inl ⟨[], x, ws, rfl, hx, hn⟩

theorem Leaves.cons_other {ws : List Word} {x : Word} {o : String} {old v : CVal}
    (hx : ∀ w, ¬ x.Gives o w) (h : Leaves ws o old v) : Leaves (x :: ws) o old v := by
  rcases h with ⟨p, y, q, rfl, hy, hq⟩ | ⟨hn, rfl⟩
  · exact .inl ⟨x :: p, y, q, rfl, hy, hq⟩
  · refine .inr ⟨?_, rfl⟩
    intro y hy v'
    rcases List.mem_cons.mp hy with rfl | hy
    · exact hx v'
    · exact hn y hy v'

/-! ## Splitting the words -/

theorem splitFlag_setting (o s : String) (ho : '=' ∉ o.toList) :
    splitFlag ("--" ++ o ++ "=" ++ s) = (o, some s) := by
  have hb : ("--" ++ o ++ "=" ++ s).toList.drop 2 = o.toList ++ '=' :: s.toList := by
    simp [String.toList_append]
  have ht : (o.toList ++ '=' :: s.toList).takeWhile (· ≠ '=') = o.toList := by
    rw [List.takeWhile_append_of_pos (by intro a ha; simp; rintro rfl; exact ho ha)]
    simp
  simp only [splitFlag, hb, ht]
  simp

theorem splitFlag_switch (o : String) (ho : '=' ∉ o.toList) : splitFlag ("--" ++ o) = (o, none) := by
  have hb : ("--" ++ o).toList.drop 2 = o.toList := by simp [String.toList_append]
  have ht : o.toList.takeWhile (· ≠ '=') = o.toList := by
    have := List.takeWhile_append_of_pos (p := (· ≠ '=')) (l₁ := o.toList) (l₂ := [])
      (by intro a ha; simp; rintro rfl; exact ho ha)
    simpa using this
  simp only [splitFlag, hb, ht]
  simp [ho]

/-- The definitions a reachable configuration has. -/
def theDefs : Dict OptDef := (imported ⟨false, false, false⟩ "numpy" "64").defs

def names : List String := registered.map (·.1)

theorem switch_facts {o : String} (h : o ∈ switches) :
    o ∈ names ∧ '=' ∉ o.toList ∧ "--muygpys".toList <+: ("--" ++ o).toList ∧
      (∃ d, theDefs.get? o = some d ∧ d.kind = .bool) := by
  simp only [switches, List.mem_cons, List.not_mem_nil, or_false] at h
  rcases h with rfl | rfl | rfl | rfl | rfl <;>
    exact ⟨by simp [names, registered], by decide, by decide, _, rfl, rfl⟩

theorem choice_facts {o : String} {vs : List String} (h : (o, vs) ∈ choices) :
    o ∈ names ∧ '=' ∉ o.toList ∧ "--muygpys".toList <+: ("--" ++ o).toList ∧
      (∃ d, theDefs.get? o = some d ∧ d.kind = .enum vs) := by
  simp only [choices, List.mem_cons, Prod.mk.injEq, List.not_mem_nil, or_false] at h
  rcases h with ⟨rfl, rfl⟩ | ⟨rfl, rfl⟩ <;>
    exact ⟨by simp [names, registered], by decide, by decide, _, rfl, rfl⟩

theorem meaning_facts {o s : String} {v : CVal} (h : Meaning o s v) :
    o ∈ names ∧ '=' ∉ o.toList ∧ "--muygpys".toList <+: ("--" ++ o).toList ∧
      (∃ d, theDefs.get? o = some d ∧ d.kind.parse s = .ok v) := by
  rcases h with ⟨h1, h2⟩ | ⟨vs, h1, h2, rfl⟩
  · obtain ⟨a, b, c, d, e, f⟩ := switch_facts h1
    refine ⟨a, b, c, d, e, ?_⟩
    rw [f]
    have hword : ∀ x : String, x ∈ ["false", "f", "0"] → x ∉ ["true", "t", "1"] := by
      intro x hx
      simp only [List.mem_cons, List.not_mem_nil, or_false] at hx
      rcases hx with rfl | rfl | rfl <;> decide
    rcases h2 with ⟨h2, rfl⟩ | ⟨h2, rfl⟩
    · simp only [Kind.parse, abslBool, if_pos h2]; rfl
    · simp only [Kind.parse, abslBool, if_neg (hword _ h2), if_pos h2]; rfl
  · obtain ⟨a, b, c, d, e, f⟩ := choice_facts h1
    refine ⟨a, b, c, d, e, ?_⟩
    rw [f]
    simp [Kind.parse, h2]

theorem ne_dashes {a : String} (h : "--muygpys".toList <+: a.toList) : a ≠ "--" := by
  rintro rfl
  revert h
  decide

theorem muygpysArgs_keep {a : String} (l : List String) (h : "--muygpys".toList <+: a.toList) :
    muygpysArgs (a :: l) = a :: muygpysArgs l := by
  have h1 := ne_dashes h
  simp only [muygpysArgs]
  rw [List.takeWhile_cons_of_pos (by simpa using h1),
    List.filter_cons_of_pos (by simpa [List.isPrefixOf_iff_prefix] using h)]

theorem muygpysArgs_drop {a : String} (l : List String) (h1 : a ≠ "--")
    (h : ¬ "--muygpys".toList <+: a.toList) : muygpysArgs (a :: l) = muygpysArgs l := by
  simp only [muygpysArgs]
  rw [List.takeWhile_cons_of_pos (by simpa using h1),
    List.filter_cons_of_neg (by simpa [List.isPrefixOf_iff_prefix] using h)]

theorem muygpysArgs_end (rest : List String) (h : rest = [] ∨ ∃ r, rest = "--" :: r) :
    muygpysArgs rest = [] := by
  rcases h with rfl | ⟨r, rfl⟩ <;> simp [muygpysArgs]

/-! ## Reading the command line -/

theorem keys_set {β : Type} (d : Dict β) (k : String) (v : β) (h : k ∈ d.keys) :
    (d.set k v).keys = d.keys := by
  induction d with
  | nil => simp [Dict.keys] at h
  | cons x d ih =>
    obtain ⟨a, b⟩ := x
    by_cases hk : a = k
    · subst hk; simp [Dict.set, Dict.keys]
    · have h' : k ∈ Dict.keys d := by
        simp only [Dict.keys, List.map_cons, List.mem_cons] at h
        rcases h with h | h
        · exact absurd h.symm hk
        · exact h
      have := ih h'
      simp only [Dict.keys] at this ⊢
      simp [Dict.set, hk, this]

theorem parse_words (ws : List Word) (hw : ∀ w ∈ ws, w.Proper) (rest : List String)
    (hrest : rest = [] ∨ ∃ r, rest = "--" :: r) (f : Dict CVal) (hk : f.keys = names) :
    ∃ f', parseArgs theDefs (muygpysArgs (ws.map Word.written ++ rest)) f = .ok f' ∧ f'.keys = names ∧
      ∀ o old, f.get? o = some old → ∃ v, f'.get? o = some v ∧ Leaves ws o old v := by
  induction ws generalizing f with
  | nil =>
    refine ⟨f, ?_, hk, ?_⟩
    · rw [List.map_nil, List.nil_append, muygpysArgs_end _ hrest]; rfl
    · intro o old h
      exact ⟨old, h, .inr ⟨by simp, rfl⟩⟩
  | cons w ws ih =>
    have hw' : ∀ w ∈ ws, w.Proper := fun x hx => hw x (List.mem_cons_of_mem _ hx)
    have hp := hw w List.mem_cons_self
    -- a word that sets option `o₀` to `v₀`
    have step : ∀ (o₀ : String) (v₀ : CVal), o₀ ∈ names → w.Gives o₀ v₀ →
        (∀ o, o ≠ o₀ → ∀ v, ¬ w.Gives o v) →
        parseArgs theDefs (muygpysArgs ((w :: ws).map Word.written ++ rest)) f =
          parseArgs theDefs (muygpysArgs (ws.map Word.written ++ rest)) (f.set o₀ v₀) →
        ∃ f', parseArgs theDefs (muygpysArgs ((w :: ws).map Word.written ++ rest)) f = .ok f' ∧
          f'.keys = names ∧
          ∀ o old, f.get? o = some old → ∃ v, f'.get? o = some v ∧ Leaves (w :: ws) o old v := by
      intro o₀ v₀ hn hg hother heq
      obtain ⟨f', h1, h2, h3⟩ := ih hw' (f.set o₀ v₀) (by rw [keys_set _ _ _ (by rw [hk]; exact hn), hk])
      refine ⟨f', heq.trans h1, h2, ?_⟩
      intro o old hold
      by_cases ho : o = o₀
      · subst ho
        obtain ⟨v, hv, hl⟩ := h3 o v₀ (by rw [get?_set, if_pos rfl])
        exact ⟨v, hv, hl.cons_given hg⟩
      · obtain ⟨v, hv, hl⟩ := h3 o old (by rw [get?_set, if_neg ho, hold])
        exact ⟨v, hv, hl.cons_other (hother o ho)⟩
    cases w with
    | setting o s =>
      obtain ⟨v, hm⟩ := hp
      obtain ⟨hn, heq, hpre, d, hd, hparse⟩ := meaning_facts hm
      refine step o v hn ⟨rfl, hm⟩ (fun o' ho' v' hg => ho' hg.1.symm) ?_
      have hpre' : "--muygpys".toList <+: (Word.setting o s).written.toList := by
        refine hpre.trans ⟨"=".toList ++ s.toList, ?_⟩
        simp [Word.written, String.toList_append]
      rw [List.map_cons, List.cons_append, muygpysArgs_keep _ hpre', parseArgs, Word.written,
        splitFlag_setting o s heq]
      simp only [hd, hparse]
      rfl
    | switch o =>
      obtain ⟨hn, heq, hpre, d, hd, hkind⟩ := switch_facts hp
      refine step o (.bool true) hn ⟨rfl, rfl⟩ (fun o' ho' v' hg => ho' hg.1.symm) ?_
      rw [List.map_cons, List.cons_append, muygpysArgs_keep _ (a := (Word.switch o).written) hpre,
        parseArgs, Word.written, splitFlag_switch o heq]
      simp only [hd, hkind, if_true]
    | foreign x =>
      obtain ⟨f', h1, h2, h3⟩ := ih hw' f hk
      refine ⟨f', ?_, h2, ?_⟩
      · rw [List.map_cons, List.cons_append, muygpysArgs_drop _ (a := (Word.foreign x).written) hp.1 hp.2]
        exact h1
      · intro o old hold
        obtain ⟨v, hv, hl⟩ := h3 o old hold
        exact ⟨v, hv, hl.cons_other (fun _ h => h)⟩

/-! ## The configurations the flags are applied to -/

theorem has_mem {β : Type} (d : Dict β) (k : String) : d.has k = true ↔ k ∈ d.keys := by
  simp [Dict.has, Dict.keys]

theorem step_keys (c : Config) (e : Event) : (c.step e).values.keys = c.values.keys := by
  cases e with
  | update u n v =>
    simp only [Config.step]
    cases h : c.update n v with
    | error e => rfl
    | ok c' =>
      have hh : c.values.has n = true := by
        unfold Config.update at h
        by_contra hn
        simp [hn] at h
      rw [(update_ok h).2.2.1, keys_set _ _ _ ((has_mem _ _).mp hh)]
  | enter u n arg =>
    simp only [Config.step]
    cases h : c.enter u n arg with
    | error e => rfl
    | ok r => obtain ⟨_, _, _, _, hv, _⟩ := enter_ok h; simp only [hv]
  | leave u =>
    simp only [Config.step]
    cases h : c.open_ u with
    | nil => rfl
    | cons s rest => simp only [leave_values]

theorem reachable_keys {c : Config} (h : Reachable c) : c.values.keys = names := by
  obtain ⟨env, inst, c₀, evs, h0, rfl⟩ := h
  have h1 : c₀.values.keys = names := by
    have := C49_import env inst
    simp only at this
    by_cases hg : (∀ n ∈ ["MUYGPYS_JAX_ENABLED", "MUYGPYS_GPU_ENABLED", "MUYGPYS_HNSWLIB_ENABLED",
          "MUYGPYS_MPI_ENABLED", "MUYGPYS_TORCH_ENABLED"], BoolWord env n) ∧
          inst.supports ((env "MUYGPYS_BACKEND").getD "numpy") ∧
          ((env "MUYGPYS_FTYPE").getD "64") ∈ ["32", "64"]
    · rw [this.1 hg] at h0; injection h0 with h0; subst h0; rfl
    · rw [this.2 hg] at h0; simp at h0
  have : ∀ (evs : List Event) (c : Config), (evs.foldl Config.step c).values.keys = c.values.keys := by
    intro evs
    induction evs with
    | nil => intro c; rfl
    | cons e evs ih => intro c; rw [List.foldl_cons, ih, step_keys]
  rw [this, h1]

/-- A dictionary over the registered options. -/
def table (v : Fin 7 → CVal) : Dict CVal :=
  [("muygpys_jax_enabled", v 0), ("muygpys_gpu_enabled", v 1), ("muygpys_hnswlib_enabled", v 2),
   ("muygpys_mpi_enabled", v 3), ("muygpys_torch_enabled", v 4), ("muygpys_backend", v 5),
   ("muygpys_ftype", v 6)]

theorem table_of_keys {d : Dict CVal} (h : d.keys = names) : ∃ v, d = table v := by
  have hl : d.length = 7 := by
    have := congrArg List.length h
    simpa [Dict.keys, names, registered] using this
  match d, hl with
  | [(a0, b0), (a1, b1), (a2, b2), (a3, b3), (a4, b4), (a5, b5), (a6, b6)], _ =>
    refine ⟨![b0, b1, b2, b3, b4, b5, b6], ?_⟩
    simp only [Dict.keys, names, registered, List.map_cons, List.map_nil, List.cons.injEq, and_true] at h
    obtain ⟨rfl, rfl, rfl, rfl, rfl, rfl, rfl⟩ := h
    rfl

/-- Every option has an admissible value. -/
def Good (f : Dict CVal) : Prop :=
  f.keys = names ∧ ∀ o ∈ registered, ∃ v, f.get? o.1 = some v ∧ o.2.2 v

/-- What absl accepts for an option is admissible for it. -/
theorem parse_admissible {o} (ho : o ∈ registered) {d : OptDef} (hd : theDefs.get? o.1 = some d)
    {s : String} {v : CVal} (h : d.kind.parse s = .ok v) : o.2.2 v := by
  simp only [registered, List.mem_cons, List.not_mem_nil, or_false] at ho
  have hb : ∀ {s : String} {v : CVal}, Kind.parse .bool s = .ok v → ∃ b, v = .bool b := by
    intro s v h
    simp only [Kind.parse] at h
    cases hb : abslBool s with
    | error e => rw [hb] at h; cases h
    | ok b => rw [hb] at h; cases h; exact ⟨b, rfl⟩
  have he : ∀ {vs : List String} {s : String} {v : CVal}, Kind.parse (.enum vs) s = .ok v →
      s ∈ vs ∧ v = .str s := by
    intro vs s v h
    simp only [Kind.parse] at h
    by_cases hs : s ∈ vs
    · rw [if_pos hs] at h; cases h; exact ⟨hs, rfl⟩
    · rw [if_neg hs] at h; cases h
  rcases ho with rfl | rfl | rfl | rfl | rfl | rfl | rfl <;> cases hd
  · exact hb h
  · exact hb h
  · exact hb h
  · exact hb h
  · exact hb h
  · obtain ⟨h1, rfl⟩ := he h
    simpa using h1
  · obtain ⟨h1, rfl⟩ := he h
    simpa using h1

theorem defs_names {n : String} {d : OptDef} (h : theDefs.get? n = some d) :
    ∃ o ∈ registered, o.1 = n := by
  have h1 : theDefs.has n = true := by rw [has_iff, h]; rfl
  have h2 := (has_mem _ _).mp h1
  have h3 : theDefs.keys = names := rfl
  rw [h3, names, List.mem_map] at h2
  obtain ⟨o, ho, rfl⟩ := h2
  exact ⟨o, ho, rfl⟩

theorem registered_inj {o p} (ho : o ∈ registered) (hp : p ∈ registered) (h : o.1 = p.1) : o = p := by
  simp only [registered, List.mem_cons, List.not_mem_nil, or_false] at ho hp
  rcases ho with rfl | rfl | rfl | rfl | rfl | rfl | rfl <;>
    rcases hp with rfl | rfl | rfl | rfl | rfl | rfl | rfl <;>
    first
      | rfl
      | exact absurd h (by decide)

theorem Good.set {f : Dict CVal} (hf : Good f) {o} (ho : o ∈ registered) {v : CVal} (hv : o.2.2 v) :
    Good (f.set o.1 v) := by
  refine ⟨?_, ?_⟩
  · rw [keys_set _ _ _ (by rw [hf.1]; exact List.mem_map_of_mem ho), hf.1]
  · intro p hp
    by_cases h : p.1 = o.1
    · obtain rfl := registered_inj hp ho h
      exact ⟨v, by rw [get?_set, if_pos rfl], hv⟩
    · obtain ⟨w, h1, h2⟩ := hf.2 p hp
      exact ⟨w, by rw [get?_set, if_neg h, h1], h2⟩

theorem bool_true {o} (ho : o ∈ registered) {d : OptDef} (hd : theDefs.get? o.1 = some d)
    (h : d.kind = .bool) : o.2.2 (.bool true) :=
  parse_admissible ho hd (s := "true") (by rw [h]; rfl)

/-- However the command line reads, absl either refuses it or leaves admissible values. -/
theorem parseArgs_good (l : List String) (f : Dict CVal) (hf : Good f) :
    (∃ f', parseArgs theDefs l f = .ok f' ∧ Good f') ∨ parseArgs theDefs l f = .error .value := by
  have key : ∀ (k : Nat) (l : List String) (f : Dict CVal), l.length ≤ k → Good f →
      (∃ f', parseArgs theDefs l f = .ok f' ∧ Good f') ∨ parseArgs theDefs l f = .error .value := by
    intro k
    induction k with
    | zero =>
      intro l f hl hf
      obtain rfl : l = [] := List.length_eq_zero_iff.mp (by omega)
      exact .inl ⟨f, rfl, hf⟩
    | succ k ih =>
      intro l f hl hf
      cases l with
      | nil => exact .inl ⟨f, rfl, hf⟩
      | cons a rest =>
        have hlr : rest.length ≤ k := by simpa using hl
        rw [parseArgs]
        cases hd : theDefs.get? (splitFlag a).1 with
        | none => exact ih rest f hlr hf
        | some d =>
          obtain ⟨o, ho, hon⟩ := defs_names hd
          rw [← hon] at hd ⊢
          have perr : ∀ s e, d.kind.parse s = .error e → e = .value := by
            intro s e h
            cases hk : d.kind with
            | bool =>
              rw [hk] at h
              simp only [Kind.parse, abslBool] at h
              split_ifs at h <;> cases h <;> rfl
            | enum vs =>
              rw [hk] at h
              simp only [Kind.parse] at h
              split_ifs at h <;> cases h <;> rfl
          cases ht : (splitFlag a).2 with
          | some text =>
            simp only
            cases hp : d.kind.parse text with
            | error e => obtain rfl := perr _ _ hp; exact .inr rfl
            | ok v => exact ih rest _ hlr (hf.set ho (parse_admissible ho hd hp))
          | none =>
            simp only
            by_cases hk : d.kind = .bool
            · rw [if_pos hk]
              exact ih rest _ hlr (hf.set ho (bool_true ho hd hk))
            · rw [if_neg hk]
              cases rest with
              | nil => exact .inr rfl
              | cons text rest' =>
                simp only
                cases hp : d.kind.parse text with
                | error e => obtain rfl := perr _ _ hp; exact .inr rfl
                | ok v =>
                  exact ih rest' _ (by simp at hlr; omega) (hf.set ho (parse_admissible ho hd hp))
  exact key l.length l f le_rfl hf

/-- Admissible values survive being made the flags' defaults. -/
theorem define_good {f : Dict CVal} (hf : Good f) : defineFlags theDefs f [] = .ok f := by
  obtain ⟨v, rfl⟩ := table_of_keys hf.1
  have g := hf.2
  simp only [registered, List.mem_cons, List.not_mem_nil, or_false, forall_eq_or_imp, forall_eq] at g
  obtain ⟨⟨w0, e0, b0, h0⟩, ⟨w1, e1, b1, h1⟩, ⟨w2, e2, b2, h2⟩, ⟨w3, e3, b3, h3⟩, ⟨w4, e4, b4, h4⟩,
    ⟨w5, e5, h5⟩, ⟨w6, e6, h6⟩⟩ := g
  have e0 : v 0 = w0 := Option.some.inj e0
  have e1 : v 1 = w1 := Option.some.inj e1
  have e2 : v 2 = w2 := Option.some.inj e2
  have e3 : v 3 = w3 := Option.some.inj e3
  have e4 : v 4 = w4 := Option.some.inj e4
  have e5 : v 5 = w5 := Option.some.inj e5
  have e6 : v 6 = w6 := Option.some.inj e6
  simp only [table, e0, e1, e2, e3, e4, e5, e6, h0, h1, h2, h3, h4]
  rcases h5 with rfl | rfl | rfl | rfl <;> rcases h6 with rfl | rfl <;> rfl

/-! ## The configuration in absl mode -/

/-- In absl mode reading and updating work as they do without it. -/
theorem view_read (a : AConfig) (t : Nat) (n : String) : a.read t n = a.view.read t n := by
  unfold AConfig.read Config.read AConfig.readGlobal Config.readGlobal AConfig.view
  cases a.flags <;> rfl

theorem view_update (a : AConfig) (n : String) (v : CVal) :
    (a.update n v).map AConfig.view = a.view.update n v := by
  obtain ⟨⟨vals, defs, st, tls, op⟩, fl, cf⟩ := a
  cases fl with
  | none =>
    simp only [AConfig.update, AConfig.view, Config.update, Option.getD]
    by_cases h : vals.has n = true
    · simp only [h, if_true]; rfl
    · simp only [h, if_false, Bool.false_eq_true]; rfl
  | some f =>
    simp only [AConfig.update, AConfig.view, Config.update, Option.getD]
    by_cases h : f.has n = true
    · simp only [h, if_true]
      simp only [Except.map, Config.hook]
      cases Dict.get? defs n <;> rfl
    · simp only [h, if_false, Bool.false_eq_true]; rfl

/-- `Good` in terms of the configuration. -/
theorem good_of_admissible {c : Config} (hr : Reachable c)
    (hadm : ∀ o ∈ registered, ∃ v, c.readGlobal o.1 = .ok v ∧ o.2.2 v) : Good c.values := by
  refine ⟨reachable_keys hr, ?_⟩
  intro o ho
  obtain ⟨v, h1, h2⟩ := hadm o ho
  refine ⟨v, ?_, h2⟩
  unfold Config.readGlobal at h1
  cases hg : c.values.get? o.1 with
  | none => rw [hg] at h1; cases h1
  | some w => rw [hg] at h1; cases h1; rfl

theorem set_same {β : Type} (d : Dict β) (k : String) (v : β) (h : d.get? k = some v) : d.set k v = d := by
  induction d with
  | nil => simp [Dict.get?] at h
  | cons x d ih =>
    obtain ⟨a, b⟩ := x
    by_cases hk : a = k
    · subst hk
      simp [Dict.get?] at h
      simp [Dict.set, h]
    · have h' : Dict.get? d k = some v := by simpa [Dict.get?, hk] using h
      simp [Dict.set, hk, ih h']

theorem complete_hooks (l : List String) (c : Config) (f : Dict CVal) (b : Bool)
    (h : ∀ n ∈ l, ∃ v, f.get? n = some v) :
    AConfig.complete ⟨c, some f, b⟩ l =
      .ok ⟨l.foldl (fun c n => c.hook n ((f.get? n).getD .none)) c, some f, b⟩ := by
  induction l generalizing c with
  | nil => rfl
  | cons n l ih =>
    obtain ⟨v, hv⟩ := h n List.mem_cons_self
    have hh : f.has n = true := by rw [has_iff, hv]; rfl
    rw [List.foldl_cons, ← ih (c.hook n ((f.get? n).getD .none))
      (fun m hm => h m (List.mem_cons_of_mem _ hm))]
    rw [AConfig.complete]
    simp only [AConfig.readGlobal, hv]
    show ((AConfig.update _ _ _).bind _) = _
    simp only [AConfig.update, hh, if_true, set_same f n v hv]
    rfl

theorem hook_swap (c : Config) (d : Dict CVal) (n : String) (v : CVal) :
    ({ c with values := d }).hook n v = { c.hook n v with values := d } := by
  unfold Config.hook
  cases h : c.defs.get? n <;> simp [h]

theorem update_steps (ps : Dict CVal) (c : Config) (h : ∀ p ∈ ps, p.1 ∈ c.values.keys) :
    (ps.map fun p => Event.update 0 p.1 p.2).foldl Config.step c =
      { ps.foldl (fun c p => c.hook p.1 p.2) c with
        values := ps.foldl (fun d p => Dict.set d p.1 p.2) c.values } := by
  induction ps generalizing c with
  | nil => rfl
  | cons p ps ih =>
    have hp := h p List.mem_cons_self
    have hs : c.step (.update 0 p.1 p.2) = { c.hook p.1 p.2 with values := c.values.set p.1 p.2 } := by
      simp only [Config.step, Config.update, (has_mem _ _).mpr hp, if_true, hook_swap]
    have hf : ∀ (ps : Dict CVal) (c : Config) (d : Dict CVal),
        ps.foldl (fun c p => c.hook p.1 p.2) { c with values := d } =
          { ps.foldl (fun c p => c.hook p.1 p.2) c with values := d } := by
      intro ps
      induction ps with
      | nil => intro c d; rfl
      | cons q ps ih => intro c d; rw [List.foldl_cons, hook_swap, ih]; rfl
    rw [List.map_cons, List.foldl_cons, hs, ih, hf]
    · rfl
    · intro q hq
      show q.1 ∈ (c.values.set p.1 p.2).keys
      rw [keys_set _ _ _ hp]
      exact h q (List.mem_cons_of_mem _ hq)

theorem table_values (v w : Fin 7 → CVal) :
    (table w).foldl (fun d p => Dict.set d p.1 p.2) (table v) = table w := by
  simp [table, Dict.set]

theorem table_hooks (w : Fin 7 → CVal) (c : Config) :
    names.foldl (fun c n => c.hook n (((table w).get? n).getD .none)) c =
      (table w).foldl (fun c p => c.hook p.1 p.2) c := by
  simp [names, registered, table, Dict.get?]

/-- Once the flags are read, the result is what updating every option to its flag gives. -/
theorem complete_spec {c : Config} (hr : Reachable c) (f : Dict CVal) (hf : f.keys = names) :
    ∃ a, AConfig.complete ⟨c, some f, false⟩ names = .ok a ∧ a.flags = some f ∧ a.configured = false ∧
      a.base = f.foldl (fun c p => c.hook p.1 p.2) c ∧
      a.view = (f.map fun p => Event.update 0 p.1 p.2).foldl Config.step c := by
  have hk := reachable_keys hr
  obtain ⟨v, hv⟩ := table_of_keys hk
  have hcomp := complete_hooks names c f false (by
    intro n hn
    have h1 : f.has n = true := (has_mem _ _).mpr (by rw [hf]; exact hn)
    rw [has_iff] at h1
    exact Option.isSome_iff_exists.mp h1)
  obtain ⟨w, rfl⟩ := table_of_keys hf
  refine ⟨_, hcomp, rfl, rfl, table_hooks w c, ?_⟩
  rw [update_steps _ _ (by
    intro p hp
    rw [hk, ← hf]
    exact List.mem_map_of_mem hp), hv, table_values, ← table_hooks]
  rfl

theorem reachable_steps {c : Config} (hr : Reachable c) (evs : List Event) :
    Reachable (evs.foldl Config.step c) := by
  obtain ⟨env, inst, c₀, es, h0, rfl⟩ := hr
  exact ⟨env, inst, c₀, es ++ evs, h0, by rw [List.foldl_append]⟩

/-- Reading the flags `f` from the command line. -/
theorem parseFlags_spec {c : Config} (hr : Reachable c)
    (hadm : ∀ o ∈ registered, ∃ v, c.readGlobal o.1 = .ok v ∧ o.2.2 v) (argv : List String)
    (f : Dict CVal) (hp : parseArgs theDefs (muygpysArgs argv) c.values = .ok f) (hf : Good f) :
    ∃ a, (AConfig.plain c).parseFlags argv = .ok a ∧ a.flags = some f ∧ a.configured = true ∧
      Reachable a.view ∧ a.base.tls = c.tls ∧
      ∀ o ∈ registered, ∀ v, f.get? o.1 = some v → a.base.state.get? o.2.1 = some v := by
  obtain ⟨a, h1, h2, h3, h5, h4⟩ := complete_spec hr f hf.1
  refine ⟨{ a with configured := true }, ?_, h2, rfl, ?_, ?_, ?_⟩
  · simp only [AConfig.parseFlags, AConfig.plain, Bool.false_eq_true, if_false, reachable_defs hr,
      reachable_keys hr]
    have hd := define_good (good_of_admissible hr hadm)
    simp only [theDefs] at hd hp
    rw [hd]
    show ((parseArgs _ (muygpysArgs argv) c.values).bind _) = _
    rw [hp]
    show ((AConfig.complete ⟨c, some f, false⟩ names).bind _) = _
    rw [h1]
    rfl
  · show Reachable a.view
    rw [h4]
    exact reachable_steps hr _
  · show a.base.tls = c.tls
    have : a.view.tls = c.tls := by
      rw [h4]
      generalize f = g
      have : ∀ (g : Dict CVal) (c : Config),
          ((g.map fun p => Event.update 0 p.1 p.2).foldl Config.step c).tls = c.tls := by
        intro g
        induction g with
        | nil => intro c; rfl
        | cons p g ih =>
          intro c
          rw [List.map_cons, List.foldl_cons, ih]
          simp only [Config.step]
          cases h : c.update p.1 p.2 with
          | error e => rfl
          | ok c' => exact (update_ok h).1
      exact this g c
    exact this
  · intro o ho v hv
    show a.base.state.get? o.2.1 = some v
    rw [h5]
    obtain ⟨w, rfl⟩ := table_of_keys hf.1
    have hat := reachable_attr hr
    simp only [registered, List.mem_cons, List.not_mem_nil, or_false, forall_eq_or_imp, forall_eq] at hat
    obtain ⟨a0, a1, a2, a3, a4, a5, a6⟩ := hat
    simp only [registered, List.mem_cons, List.not_mem_nil, or_false] at ho
    rcases ho with rfl | rfl | rfl | rfl | rfl | rfl | rfl <;>
      · rw [← hv]
        simp only [table, List.foldl_cons, List.foldl_nil, hook_state, hook_defs, a0, a1, a2, a3, a4, a5, a6]
        simp [Dict.get?]

/-! ## The property -/

/-- **C103** (flags are obeyed). From every configuration in which each option has an admissible value,
and for every command line of properly written words, `parse_flags_with_absl` succeeds; each option then
has the value its last flag before `--` gives, or its previous value when there is none; `config.state`,
which the library consults, shows that value, and every thread without an override reads it, while
overrides stay. -/
theorem C103_flags_obeyed (c : Config) (hr : Reachable c)
    (hadm : ∀ o ∈ registered, ∃ v, c.readGlobal o.1 = .ok v ∧ o.2.2 v)
    (ws : List Word) (hw : ∀ w ∈ ws, w.Proper) (rest : List String)
    (hrest : rest = [] ∨ ∃ r, rest = "--" :: r) :
    ∃ a, (AConfig.plain c).parseFlags (ws.map Word.written ++ rest) = .ok a ∧
      ∀ o ∈ registered, ∀ old, c.readGlobal o.1 = .ok old →
        ∃ v, Leaves ws o.1 old v ∧ o.2.2 v ∧ a.base.state.get? o.2.1 = some v ∧
          ∀ t, a.read t o.1 = .ok (((c.tls t).get? o.1).getD v) := by
  have hg := good_of_admissible hr hadm
  obtain ⟨f, h1, h2, h3⟩ := parse_words ws hw rest hrest c.values hg.1
  have hf : Good f := by
    rcases parseArgs_good (muygpysArgs (ws.map Word.written ++ rest)) c.values hg with ⟨f', h, hf⟩ | h
    · rw [h1] at h; cases h; exact hf
    · rw [h1] at h; cases h
  obtain ⟨a, ha, hfl, hcf, hre, htl, hst⟩ := parseFlags_spec hr hadm _ f h1 hf
  refine ⟨a, ha, ?_⟩
  intro o ho old hold
  have hold' : c.values.get? o.1 = some old := by
    unfold Config.readGlobal at hold
    cases hg : c.values.get? o.1 with
    | none => rw [hg] at hold; cases hold
    | some w => rw [hg] at hold; cases hold; rfl
  obtain ⟨v, hv, hl⟩ := h3 o.1 old hold'
  obtain ⟨w, hw1, hw2⟩ := hf.2 o ho
  rw [hv] at hw1
  cases hw1
  refine ⟨v, hl, hw2, hst o ho v hv, ?_⟩
  intro t
  have hdef : a.base.defs.has o.1 = true := by
    have h := reachable_attr hre o ho
    rw [has_iff]
    show (a.view.defs.get? o.1).isSome = true
    cases hg : a.view.defs.get? o.1 with
    | none => simp [hg] at h
    | some d => rfl
  unfold AConfig.read AConfig.readGlobal
  rw [hdef, htl, hfl]
  simp only [if_true]
  cases (c.tls t).get? o.1 with
  | none => simp only [hv]; rfl
  | some u => rfl

/-- **C103** (every command line). Whatever the command line, reading it either raises or leaves a
configuration in which every option has an admissible value and agrees with `config.state`, and whose
options are read and updated as before (so that what C49 and C50 say of the configuration continues to
hold). -/
theorem C103_always_consistent (c : Config) (hr : Reachable c)
    (hadm : ∀ o ∈ registered, ∃ v, c.readGlobal o.1 = .ok v ∧ o.2.2 v) (argv : List String) :
    (AConfig.plain c).parseFlags argv = .error .value ∨
    ∃ a, (AConfig.plain c).parseFlags argv = .ok a ∧ Reachable a.view ∧
      (∀ t, c.tls t = [] → Consistent a.view t) ∧
      (∀ t n, a.read t n = a.view.read t n) ∧
      (∀ n v, (a.update n v).map AConfig.view = a.view.update n v) := by
  have hg := good_of_admissible hr hadm
  rcases parseArgs_good (muygpysArgs argv) c.values hg with ⟨f, h1, hf⟩ | h1
  · right
    obtain ⟨a, ha, hfl, hcf, hre, htl, hst⟩ := parseFlags_spec hr hadm argv f h1 hf
    refine ⟨a, ha, hre, ?_, view_read a, view_update a⟩
    intro t ht o ho
    obtain ⟨v, hv, hok⟩ := hf.2 o ho
    refine ⟨v, ?_, hst o ho v hv, hok⟩
    rw [← view_read]
    have hdef : a.base.defs.has o.1 = true := by
      have h := reachable_attr hre o ho
      rw [has_iff]
      show (a.view.defs.get? o.1).isSome = true
      cases hg : a.view.defs.get? o.1 with
      | none => simp [hg] at h
      | some d => rfl
    unfold AConfig.read AConfig.readGlobal
    rw [hdef, htl, hfl, ht]
    simp only [if_true, hv]
    rfl
  · left
    simp only [AConfig.parseFlags, AConfig.plain, Bool.false_eq_true, if_false, reachable_defs hr]
    have hd := define_good hg
    simp only [theDefs] at hd h1
    rw [hd]
    show ((parseArgs _ (muygpysArgs argv) c.values).bind _) = _
    rw [h1]
    rfl

/-- **C103** (once). A second call changes nothing, whatever the command line says by then. -/
theorem C103_once (c : Config) (argv argv' : List String) (a : AConfig)
    (h : (AConfig.plain c).parseFlags argv = .ok a) : a.parseFlags argv' = .ok a := by
  have hc : a.configured = true := by
    simp only [AConfig.parseFlags, AConfig.plain, Bool.false_eq_true, if_false] at h
    cases h1 : defineFlags c.defs c.values [] with
    | error e => rw [h1] at h; cases h
    | ok f =>
      rw [h1] at h
      change ((parseArgs _ (muygpysArgs argv) f).bind _) = _ at h
      cases h2 : parseArgs c.defs (muygpysArgs argv) f with
      | error e => rw [h2] at h; cases h
      | ok f' =>
        rw [h2] at h
        change ((AConfig.complete _ _).bind _) = _ at h
        cases h3 : AConfig.complete ⟨c, some f', false⟩ c.values.keys with
        | error e => rw [h3] at h; cases h
        | ok a' => rw [h3] at h; cases h; rfl
  simp [AConfig.parseFlags, hc]

/-- **C103** (words for others). Words that do not begin with `--muygpys`, and everything from the first
`--` on, have no influence. -/
theorem C103_foreign (a : AConfig) (pre post : List String) (w : String) (hw : w ≠ "--")
    (hf : ¬ "--muygpys".toList <+: w.toList) :
    a.parseFlags (pre ++ w :: post) = a.parseFlags (pre ++ post) ∧
      ∀ post', a.parseFlags (pre ++ "--" :: post') = a.parseFlags pre := by
  have h1 : muygpysArgs (pre ++ w :: post) = muygpysArgs (pre ++ post) := by
    induction pre with
    | nil => exact muygpysArgs_drop _ hw hf
    | cons p pre ih =>
      simp only [List.cons_append]
      by_cases hp : p = "--"
      · subst hp; simp [muygpysArgs]
      · by_cases hq : "--muygpys".toList <+: p.toList
        · rw [muygpysArgs_keep _ hq, muygpysArgs_keep _ hq, ih]
        · rw [muygpysArgs_drop _ hp hq, muygpysArgs_drop _ hp hq, ih]
  have h2 : ∀ post', muygpysArgs (pre ++ "--" :: post') = muygpysArgs pre := by
    intro post'
    clear h1
    induction pre with
    | nil => simp [muygpysArgs]
    | cons p pre ih =>
      simp only [List.cons_append]
      by_cases hp : p = "--"
      · subst hp; simp [muygpysArgs]
      · by_cases hq : "--muygpys".toList <+: p.toList
        · rw [muygpysArgs_keep _ hq, muygpysArgs_keep _ hq, ih]
        · rw [muygpysArgs_drop _ hp hq, muygpysArgs_drop _ hp hq, ih]
  exact ⟨by simp only [AConfig.parseFlags, h1], fun post' => by simp only [AConfig.parseFlags, h2]⟩

/-! ## Where the flags do not do what a user expects -/

/-- **C103 fails** for a value in a word of its own, as in `--muygpys_backend torch`: the value is
filtered away before absl sees it, so any command line with such a flag raises, whatever follows it. -/
theorem C103_separate_value_fails (c : Config) (hr : Reachable c)
    (hadm : ∀ o ∈ registered, ∃ v, c.readGlobal o.1 = .ok v ∧ o.2.2 v)
    (o : String) (vs : List String) (ho : (o, vs) ∈ choices) (pre post : List String)
    (hpre : "--" ∉ pre) :
    (AConfig.plain c).parseFlags (pre ++ ("--" ++ o) :: post) = .error .value := by
  have hg := good_of_admissible hr hadm
  obtain ⟨hn, heq, hpf, d, hd, hk⟩ := choice_facts ho
  have hmem : ("--" ++ o) ∈ muygpysArgs (pre ++ ("--" ++ o) :: post) := by
    induction pre with
    | nil => rw [List.nil_append, muygpysArgs_keep _ hpf]; simp
    | cons p pre ih =>
      have ih := ih (fun h => hpre (List.mem_cons_of_mem _ h))
      have hp : p ≠ "--" := fun h => hpre (by rw [h]; exact List.mem_cons_self)
      rw [List.cons_append]
      by_cases hq : "--muygpys".toList <+: p.toList
      · rw [muygpysArgs_keep _ hq]; exact List.mem_cons_of_mem _ ih
      · rw [muygpysArgs_drop _ hp hq]; exact ih
  have hall : ∀ x ∈ muygpysArgs (pre ++ ("--" ++ o) :: post), "--muygpys".toList <+: x.toList := by
    intro x hx
    simpa [List.isPrefixOf_iff_prefix] using (List.mem_filter.mp hx).2
  -- no such word is a value of an enumeration
  have hbad : ∀ d' : OptDef, (∃ n, theDefs.get? n = some d') → d'.kind ≠ .bool →
      ∀ x : String, "--muygpys".toList <+: x.toList → d'.kind.parse x = .error .value := by
    rintro d' ⟨n, hn'⟩ hne x hx
    obtain ⟨p, hp, rfl⟩ := defs_names hn'
    have hno : ∀ us : List String, (∀ u ∈ us, ¬ "--muygpys".toList <+: u.toList) →
        (Kind.enum us).parse x = .error .value := by
      intro us hus
      simp only [Kind.parse]
      rw [if_neg (fun h => hus x h hx)]
    simp only [registered, List.mem_cons, List.not_mem_nil, or_false] at hp
    rcases hp with rfl | rfl | rfl | rfl | rfl | rfl | rfl <;> cases hn' <;>
      first
        | exact absurd rfl hne
        | exact hno _ (by decide)
  have key : ∀ (l : List String) (f : Dict CVal), Good f → ("--" ++ o) ∈ l →
      (∀ x ∈ l, "--muygpys".toList <+: x.toList) → parseArgs theDefs l f = .error .value := by
    intro l
    induction l with
    | nil => intro f hf h; cases h
    | cons a rest ih =>
      intro f hf hm ha
      have har : ∀ x ∈ rest, "--muygpys".toList <+: x.toList :=
        fun x hx => ha x (List.mem_cons_of_mem _ hx)
      -- a bare enumeration flag at the front
      have front : ∀ d', theDefs.get? (splitFlag a).1 = some d' → d'.kind ≠ .bool →
          (splitFlag a).2 = none → parseArgs theDefs (a :: rest) f = .error .value := by
        intro d' hd' hne hs
        rw [parseArgs]
        simp only [hd', hs, hne, if_false]
        cases rest with
        | nil => rfl
        | cons x rest' =>
          simp only
          rw [hbad d' ⟨_, hd'⟩ hne x (har x List.mem_cons_self)]
          rfl
      rcases List.mem_cons.mp hm with hao | hm'
      · refine front d ?_ ?_ ?_
        · rw [← hao, splitFlag_switch o heq]; exact hd
        · rw [hk]; simp
        · rw [← hao, splitFlag_switch o heq]
      · cases hd' : theDefs.get? (splitFlag a).1 with
        | none => rw [parseArgs]; simp only [hd']; exact ih f hf hm' har
        | some d' =>
          obtain ⟨p, hp, hpn⟩ := defs_names hd'
          cases hs : (splitFlag a).2 with
          | none =>
            by_cases hb : d'.kind = .bool
            · rw [parseArgs]
              simp only [hd', hs, hb, if_true]
              rw [← hpn]
              exact ih _ (hf.set hp (bool_true hp (by rw [hpn]; exact hd') hb)) hm' har
            · exact front d' hd' hb hs
          | some text =>
            rcases parseArgs_good (a :: rest) f hf with ⟨f', h, _⟩ | h
            · rw [parseArgs] at h
              simp only [hd', hs] at h
              cases hp' : d'.kind.parse text with
              | error e => rw [hp'] at h; cases h
              | ok v =>
                rw [hp'] at h
                change parseArgs theDefs rest _ = _ at h
                rw [← hpn] at h
                rw [ih _ (hf.set hp (parse_admissible hp (by rw [hpn]; exact hd') hp')) hm' har] at h
                cases h
            · exact h
  rcases C103_always_consistent c hr hadm (pre ++ ("--" ++ o) :: post) with h | ⟨a, h, _⟩
  · exact h
  · exfalso
    have h1 := key _ c.values hg hmem hall
    simp only [AConfig.parseFlags, AConfig.plain, Bool.false_eq_true, if_false, reachable_defs hr] at h
    have hd := define_good hg
    simp only [theDefs] at hd h1
    rw [hd] at h
    change ((parseArgs _ (muygpysArgs _) c.values).bind _) = _ at h
    rw [h1] at h
    cases h

/-- **C103 fails** for absl's negated form of an on/off flag: `--nomuygpys_...` is filtered away, so it
silently has no effect. -/
theorem C103_negated_ignored (a : AConfig) (o : String) (pre post : List String) :
    a.parseFlags (pre ++ ("--no" ++ o) :: post) = a.parseFlags (pre ++ post) := by
  refine (C103_foreign a pre post _ ?_ ?_).1
  · intro h
    have := congrArg (fun s => s.toList.drop 2) h
    simp [String.toList_append] at this
  · rintro ⟨l, hl⟩
    have := congrArg (fun s => s.drop 2) hl
    simp [String.toList_append] at this

/-- A configuration just imported is one the flags can be applied to. -/
theorem import_ready {env : String → Option String} {inst : Installed} {c : Config}
    (h : importConfig env inst = .ok c) :
    Reachable c ∧ (∀ o ∈ registered, ∃ v, c.readGlobal o.1 = .ok v ∧ o.2.2 v) ∧ (∀ t, c.tls t = []) ∧
      c.readGlobal "muygpys_torch_enabled" = .ok (.bool inst.torch) := by
  have hr : Reachable c := ⟨env, inst, c, [], h, rfl⟩
  have hshape : c = imported inst ((env "MUYGPYS_BACKEND").getD "numpy") ((env "MUYGPYS_FTYPE").getD "64") := by
    have := C49_import env inst
    simp only at this
    by_cases hg : (∀ n ∈ ["MUYGPYS_JAX_ENABLED", "MUYGPYS_GPU_ENABLED", "MUYGPYS_HNSWLIB_ENABLED",
          "MUYGPYS_MPI_ENABLED", "MUYGPYS_TORCH_ENABLED"], BoolWord env n) ∧
          inst.supports ((env "MUYGPYS_BACKEND").getD "numpy") ∧
          ((env "MUYGPYS_FTYPE").getD "64") ∈ ["32", "64"]
    · rw [this.1 hg] at h; injection h with h; exact h.symm
    · rw [this.2 hg] at h; cases h
  have htls : ∀ t, c.tls t = [] := by rw [hshape]; intro t; rfl
  refine ⟨hr, ?_, htls, by rw [hshape]; rfl⟩
  intro o ho
  obtain ⟨v, h1, _, h2⟩ := (C49_import_consistent env inst c h).1 0 o ho
  refine ⟨v, ?_, h2⟩
  unfold Config.read at h1
  rw [htls] at h1
  split_ifs at h1
  exact h1

/-- **C103 fails** for the promise the import makes: a backend chosen by flag is not required to be
installed. Wherever the import succeeded without PyTorch, the flag selects it, although the same choice
made by the environment variable is refused. -/
theorem C103_not_installed_fails (env : String → Option String) (inst : Installed) (c : Config)
    (h : importConfig env inst = .ok c) (ht : inst.torch = false) :
    (∃ a, (AConfig.plain c).parseFlags ["script.py", "--muygpys_backend=torch"] = .ok a ∧
      a.view.implementation = .ok "torch" ∧ a.base.state.get? "torch_enabled" = some (.bool false)) ∧
    importConfig (fun n => if n = "MUYGPYS_BACKEND" then some "torch" else env n) inst
        = .error .value := by
  constructor
  · obtain ⟨hr, hadm, htls, htorch⟩ := import_ready h
    obtain ⟨a, ha, hall⟩ := C103_flags_obeyed c hr hadm
      [.foreign "script.py", .setting "muygpys_backend" "torch"] (by
        intro w hw
        simp only [List.mem_cons, List.not_mem_nil, or_false] at hw
        rcases hw with rfl | rfl
        · exact ⟨by decide, by decide⟩
        · exact ⟨.str "torch", .inr ⟨["numpy", "jax", "torch", "mpi"], by simp [choices], by simp, rfl⟩⟩)
      [] (.inl rfl)
    refine ⟨a, ha, ?_, ?_⟩
    · obtain ⟨old, hold, _⟩ := hadm ("muygpys_backend", "backend",
        fun v => v ∈ [CVal.str "numpy", CVal.str "jax", CVal.str "torch", CVal.str "mpi"])
        (by simp [registered])
      obtain ⟨v, hl, _, hs, _⟩ := hall ("muygpys_backend", "backend",
        fun v => v ∈ [CVal.str "numpy", CVal.str "jax", CVal.str "torch", CVal.str "mpi"])
        (by simp [registered]) old hold
      have hv : v = .str "torch" := hl.unique (.inl ⟨[.foreign "script.py"],
        .setting "muygpys_backend" "torch", [], rfl,
        ⟨rfl, .inr ⟨["numpy", "jax", "torch", "mpi"], by simp [choices], by simp, rfl⟩⟩, by simp⟩)
      subst hv
      have hs' : a.view.state.get? "backend" = some (.str "torch") := hs
      simp [Config.implementation, hs']
    · obtain ⟨v, hl, _, hs, _⟩ := hall ("muygpys_torch_enabled", "torch_enabled", fun v => ∃ b, v = CVal.bool b)
        (by simp [registered]) _ htorch
      have hv : v = .bool inst.torch := hl.unique (.inr ⟨by
        intro w hw v'
        simp only [List.mem_cons, List.not_mem_nil, or_false] at hw
        rcases hw with rfl | rfl
        · exact id
        · exact fun h => absurd h.1 (by decide), rfl⟩)
      rw [hv, ht] at hs
      exact hs
  · refine (C49_import _ inst).2 ?_
    rintro ⟨_, hb, _⟩
    simp [Installed.supports, ht] at hb

/-! ## The hypotheses are met -/

/-- A command line with flags, a repeated one, a foreign word and a tail. -/
def exWords : List Word :=
  [.foreign "script.py", .setting "muygpys_ftype" "64", .switch "muygpys_mpi_enabled",
   .foreign "--verbose", .setting "muygpys_ftype" "32", .setting "muygpys_mpi_enabled" "False"]

theorem exWords_proper : ∀ w ∈ exWords, w.Proper := by
  have hf : ∀ s ∈ ["32", "64"], Meaning "muygpys_ftype" s (.str s) := fun s hs =>
    .inr ⟨["32", "64"], by simp [choices], hs, rfl⟩
  intro w hw
  simp only [exWords, List.mem_cons, List.not_mem_nil, or_false] at hw
  rcases hw with rfl | rfl | rfl | rfl | rfl | rfl
  · exact ⟨by decide, by decide⟩
  · exact ⟨_, hf "64" (by simp)⟩
  · show _ ∈ switches; simp [switches]
  · exact ⟨by decide, by decide⟩
  · exact ⟨_, hf "32" (by simp)⟩
  · exact ⟨.bool false, .inl ⟨by simp [switches], .inr ⟨by decide, rfl⟩⟩⟩

example : exWords.map Word.written ++ ["--", "--muygpys_backend=numpy"] =
    ["script.py", "--muygpys_ftype=64", "--muygpys_mpi_enabled", "--verbose", "--muygpys_ftype=32",
     "--muygpys_mpi_enabled=False", "--", "--muygpys_backend=numpy"] := by decide

/-- On it the last flags win and the tail is left alone. -/
example : ∃ a, (AConfig.plain exConfig).parseFlags
      (exWords.map Word.written ++ ["--", "--muygpys_backend=numpy"]) = .ok a ∧
    a.read 0 "muygpys_ftype" = .ok (.str "32") ∧ a.read 0 "muygpys_mpi_enabled" = .ok (.bool false) := by
  obtain ⟨hr, hadm, htls, -⟩ := import_ready exConfig_import
  obtain ⟨a, ha, hall⟩ := C103_flags_obeyed exConfig hr hadm exWords exWords_proper
    ["--", "--muygpys_backend=numpy"] (.inr ⟨_, rfl⟩)
  refine ⟨a, ha, ?_, ?_⟩
  · obtain ⟨v, hl, _, _, hv⟩ := hall ("muygpys_ftype", "ftype", fun v => v ∈ [CVal.str "32", CVal.str "64"])
      (by simp [registered]) (.str "64") rfl
    have : v = .str "32" := hl.unique (.inl ⟨exWords.take 4, .setting "muygpys_ftype" "32",
      [.setting "muygpys_mpi_enabled" "False"], rfl,
      ⟨rfl, .inr ⟨["32", "64"], by simp [choices], by simp, rfl⟩⟩, by
        intro w hw v' hg
        simp only [List.mem_singleton] at hw
        subst hw
        exact absurd hg.1 (by decide)⟩)
    rw [hv 0, htls, this]
    rfl
  · obtain ⟨v, hl, _, _, hv⟩ := hall ("muygpys_mpi_enabled", "mpi_enabled", fun v => ∃ b, v = CVal.bool b)
      (by simp [registered]) (.bool false) rfl
    have : v = .bool false := hl.unique (.inl ⟨exWords.take 5, .setting "muygpys_mpi_enabled" "False",
      [], rfl, ⟨rfl, .inl ⟨by simp [switches], .inr ⟨by decide, rfl⟩⟩⟩, by simp⟩)
    rw [hv 0, htls, this]
    rfl

end MuyGPyS.Conf
