import Verif.Spec.Param
import Mathlib.Tactic.Linarith
import Mathlib.Tactic.Positivity
import Mathlib.Tactic.NormNum

/-!
# C07, C08, C23: scalar hyperparameters and noise values
-/

namespace MuyGPyS
open Py

/-! ### helpers -/

theorem Flt.lt_some (x y : EReal) : Flt.lt (some x) (some y) ↔ x < y := by
  simp [Flt.lt]

theorem Flt.not_lt_nan_left (y : Flt) : ¬ Flt.lt none y := by simp [Flt.lt]

theorem Flt.not_lt_nan_right (y : Flt) : ¬ Flt.lt y none := by simp [Flt.lt]

theorem checkRange_ok {lb ub x v : Flt} {f : Bool} (h : checkRange lb ub f x = .ok v) :
    v = x ∧ (f = true ∨ (¬ Flt.lt x (lb.addC (-(1e-5))) ∧ ¬ Flt.lt (ub.addC 1e-5) x)) := by
  unfold checkRange at h
  cases f with
  | true => simp at h; exact ⟨h.symm, .inl rfl⟩
  | false =>
    simp only [Bool.false_eq_true, if_false] at h
    split_ifs at h with h1 h2
    · simp at h; exact ⟨h.symm, .inr ⟨h1, h2⟩⟩

/-- The bounds check: what can come out of it. -/
theorem checkBounds_ok {b : PyBounds} {l u : Flt} {f : Bool} (h : checkBounds b = .ok (l, u, f)) :
    (b = .str "fixed" ∧ f = true ∧ l = Flt.fin 0 ∧ u = Flt.fin 0) ∨
      (b = .seq [.num l, .num u] ∧ f = false ∧ ¬ Flt.lt u l) := by
  cases b with
  | str s =>
    simp only [checkBounds] at h
    split_ifs at h with hs
    simp at h; subst hs; obtain ⟨h1, h2, h3⟩ := h; subst h1 h2 h3; left; exact ⟨rfl, rfl, rfl, rfl⟩
  | nonIterable => simp [checkBounds] at h
  | unsized => simp [checkBounds] at h
  | seq xs =>
    match xs with
    | [] => simp [checkBounds] at h
    | [_] => simp [checkBounds] at h
    | _ :: _ :: _ :: _ => simp [checkBounds] at h
    | [a, b] =>
      cases a <;> cases b <;> simp only [checkBounds] at h <;> try (simp at h; done)
      split_ifs at h with hlt
      simp at h
      obtain ⟨rfl, rfl, rfl⟩ := h
      right; exact ⟨rfl, rfl, hlt⟩

theorem npUniform_ok {l h v : Flt} {u : ℝ} (e : npUniform l h u = .ok v) :
    ∃ a b : ℝ, l = some (a : EReal) ∧ h = some (b : EReal) ∧ v = Flt.fin (a + (b - a) * u) := by
  cases l with
  | none => simp [npUniform] at e
  | some l =>
    cases h with
    | none => simp [npUniform] at e
    | some h =>
      simp only [npUniform] at e
      split_ifs at e with hc
      simp at e
      obtain ⟨h1, h2, h3, h4⟩ := hc
      exact ⟨l.toReal, h.toReal, by rw [EReal.coe_toReal h1 h2], by rw [EReal.coe_toReal h3 h4], e.symm⟩

theorem npUniform_real (a b u : ℝ) :
    npUniform (Flt.fin a) (Flt.fin b) u = .ok (Flt.fin (a + (b - a) * u)) := by
  simp [npUniform, Flt.fin]

theorem Flt.log_fin {x : EReal} {a : ℝ} (h : Flt.log (some x) = some (a : EReal)) :
    ∃ r : ℝ, 0 < r ∧ x = (r : EReal) ∧ a = Real.log r := by
  simp only [Flt.log, Option.bind_some] at h
  split_ifs at h with h1 h2 h3
  · simp at h
  · simp at h
  · simp at h
    have h0 : 0 < x := lt_of_le_of_ne (not_lt.mp h1) (Ne.symm h2)
    have hb : x ≠ ⊥ := fun hb => by rw [hb] at h0; exact absurd h0 (by simp)
    refine ⟨x.toReal, ?_, (EReal.coe_toReal h3 hb).symm, h.symm⟩
    exact EReal.toReal_pos h0 h3

theorem Flt.log_real {r : ℝ} (h : 0 < r) : Flt.log (Flt.fin r) = Flt.fin (Real.log r) := by
  have h1 : ¬ ((r : EReal) < 0) := by
    rw [not_lt]; exact_mod_cast h.le
  have h2 : ¬ ((r : EReal) = 0) := by
    intro e; have : r = 0 := by exact_mod_cast e
    exact h.ne' this
  simp [Flt.log, Flt.fin, h1, h2]

theorem uniform_mem {a b u : ℝ} (hab : a ≤ b) (h0 : 0 ≤ u) (h1 : u < 1) :
    a ≤ a + (b - a) * u ∧ a + (b - a) * u ≤ b := by
  constructor <;> nlinarith

/-- A sampled value is a real number inside real bounds. -/
theorem sampleLocal_mem {lb ub v : Flt} {f : Bool} {s : String} {u : ℝ}
    (h : sampleLocal lb ub f s u = .ok v) (hle : ¬ Flt.lt ub lb) (h0 : 0 ≤ u) (h1 : u < 1) :
    f = false ∧ ∃ a b x : ℝ, lb = Flt.fin a ∧ ub = Flt.fin b ∧ v = Flt.fin x ∧ a ≤ x ∧ x ≤ b := by
  unfold sampleLocal at h
  cases f with
  | true => simp at h
  | false =>
    refine ⟨rfl, ?_⟩
    simp only [Bool.false_eq_true, if_false] at h
    split_ifs at h with hs hl
    · obtain ⟨a, b, rfl, rfl, rfl⟩ := npUniform_ok h
      rw [Flt.lt_some] at hle
      have hab : a ≤ b := by exact_mod_cast (not_lt.mp hle)
      exact ⟨a, b, _, rfl, rfl, rfl, uniform_mem hab h0 h1⟩
    · cases hu : npUniform (Flt.log lb) (Flt.log ub) u with
      | error e => rw [hu] at h; simp [bind, Except.bind] at h
      | ok y =>
        rw [hu] at h
        simp only [bind, Except.bind, pure, Except.pure, Except.ok.injEq] at h
        obtain ⟨a, b, ha, hb, rfl⟩ := npUniform_ok hu
        cases lb with
        | none => simp [Flt.log] at ha
        | some lb =>
          cases ub with
          | none => simp [Flt.log] at hb
          | some ub =>
            obtain ⟨r, hr, rfl, rfl⟩ := Flt.log_fin ha
            obtain ⟨t, ht, rfl, rfl⟩ := Flt.log_fin hb
            rw [Flt.lt_some] at hle
            have hab : r ≤ t := by exact_mod_cast (not_lt.mp hle)
            have hlog : Real.log r ≤ Real.log t := Real.log_le_log hr hab
            obtain ⟨g1, g2⟩ := uniform_mem hlog h0 h1
            refine ⟨r, t, Real.exp (Real.log r + (Real.log t - Real.log r) * u), rfl, rfl, ?_, ?_, ?_⟩
            · rw [← h]; simp only [Flt.exp, Flt.fin, Option.map_some, EReal.toReal_coe]
            · calc r = Real.exp (Real.log r) := (Real.exp_log hr).symm
                _ ≤ _ := Real.exp_le_exp.mpr g1
            · calc _ ≤ Real.exp (Real.log t) := Real.exp_le_exp.mpr g2
                _ = t := Real.exp_log ht

theorem sampleVal_local {mpi : Bool} {draws : Nat → ℝ} {rank : Nat} {lb ub v : Flt} {f : Bool}
    {s : String} (h : sampleVal mpi draws rank lb ub f s = .ok v) :
    ∃ r, sampleLocal lb ub f s (draws r) = .ok v := by
  unfold sampleVal at h
  cases hl : sampleLocal lb ub f s (draws rank) with
  | error e => rw [hl] at h; simp [bind, Except.bind] at h
  | ok x =>
    rw [hl] at h
    simp only [bind, Except.bind, pure, Except.pure] at h
    cases mpi with
    | true => exact ⟨0, by simpa using h⟩
    | false => exact ⟨rank, by rw [hl]; simpa using h⟩

theorem withinTolerance_of_checkVal {env : Env} {l u : EReal} {v : PyVal} {x : Flt}
    (hlu : l ≤ u) (hv : v.NoNaN) (he : env.Valid)
    (h : checkVal env (some l) (some u) false v = .ok x) :
    (⟨x, some l, some u, false⟩ : Param).WithinTolerance := by
  right
  have key : ∀ y : EReal, checkRange (some l) (some u) false (some y) = .ok x →
      ∃ v l' u' : EReal, x = some v ∧ some l = some l' ∧ some u = some u' ∧ l' ≤ u' ∧
        l' + ((-(1e-5) : ℝ) : EReal) ≤ v ∧ v ≤ u' + ((1e-5 : ℝ) : EReal) := by
    intro y hy
    obtain ⟨rfl, h2⟩ := checkRange_ok hy
    rcases h2 with h2 | ⟨h2, h3⟩
    · simp at h2
    · simp only [Flt.addC, Option.map_some, Flt.lt_some, not_lt] at h2 h3
      exact ⟨y, l, u, rfl, rfl, rfl, hlu, h2, h3⟩
  cases v with
  | num y =>
    cases y with
    | none => exact absurd rfl hv
    | some y => exact key y h
  | sized => simp [checkVal] at h
  | other => simp [checkVal] at h
  | str s =>
    simp only [checkVal] at h
    cases hs : sampleVal env.mpi env.draws env.rank (some l) (some u) false s with
    | error e => rw [hs] at h; simp [bind, Except.bind] at h
    | ok y =>
      rw [hs] at h
      simp only [bind, Except.bind] at h
      obtain ⟨r, hr⟩ := sampleVal_local hs
      obtain ⟨_, a, b, z, _, _, rfl, _, _⟩ := sampleLocal_mem hr (by rw [Flt.lt_some]; exact not_lt.mpr hlu)
        (he r).1 (he r).2
      exact key _ h

/-- The state after a parameter was accepted: fixed, or ordered non-NaN bounds (for NaN-free
arguments). -/
theorem withinTolerance_new {env : Env} {v : PyVal} {b : PyBounds} {p : Param}
    (h : Param.new env v b = .ok p) (hv : v.NoNaN) (hb : b.NoNaN) (he : env.Valid) :
    p.WithinTolerance := by
  unfold Param.new at h
  cases hc : checkBounds b with
  | error e => rw [hc] at h; simp [bind, Except.bind] at h
  | ok t =>
    obtain ⟨l, u, f⟩ := t
    rw [hc] at h
    simp only [bind, Except.bind] at h
    cases hx : checkVal env l u f v with
    | error e => rw [hx] at h; simp at h
    | ok x =>
      rw [hx] at h
      simp only [pure, Except.pure, Except.ok.injEq] at h
      subst h
      rcases checkBounds_ok hc with ⟨_, rfl, _, _⟩ | ⟨rfl, rfl, hlt⟩
      · exact .inl rfl
      · cases l with
        | none => exact absurd rfl (hb (.num none) (by simp))
        | some l =>
          cases u with
          | none => exact absurd rfl (hb (.num none) (by simp))
          | some u =>
            rw [Flt.lt_some, not_lt] at hlt
            exact withinTolerance_of_checkVal hlt hv he hx

theorem withinTolerance_setVal {env : Env} {v : PyVal} {p q : Param}
    (h : p.setVal env v = .ok q) (hp : p.WithinTolerance) (hv : v.NoNaN) (he : env.Valid) :
    q.WithinTolerance := by
  unfold Param.setVal at h
  cases hx : checkVal env p.lb p.ub p.fixed v with
  | error e => rw [hx] at h; simp [bind, Except.bind] at h
  | ok x =>
    rw [hx] at h
    simp only [bind, Except.bind, pure, Except.pure, Except.ok.injEq] at h
    subst h
    rcases hp with hp | ⟨_, l, u, _, hl, hu, hlu, _, _⟩
    · exact .inl hp
    · by_cases hf : p.fixed = true
      · exact .inl hf
      · have hf : p.fixed = false := by simpa using hf
        rw [hl, hu, hf] at hx
        have := withinTolerance_of_checkVal hlu hv he hx
        rw [← hl, ← hu, ← hf] at this
        exact this

/-! ### C07 -/

/-- The operations a model's user performs on a stored parameter through the documented interface:
assigning a value, or replacing it by a freshly constructed parameter (`set_params`); arguments are
free of NaN. -/
def ParamOp.Ok : ParamOp → Prop
  | .setVal env v => env.Valid ∧ v.NoNaN
  | .setBounds _ => False
  | .assign env v b => env.Valid ∧ v.NoNaN ∧ b.NoNaN

/-- C07 (partial): after any construction and any sequence of value assignments and replacements,
accepted or rejected, the parameter is fixed or has ordered bounds and a value within them up to the
code's tolerance of 1e-5. Missing from C07: exact containment, strict order of the bounds and the
`_set_bounds` operation, all of which the code violates (`C07_documented_fails`,
`C07_set_bounds_fails`). -/
theorem C07_within_tolerance_partial (env : Env) (v : PyVal) (b : PyBounds) (p : Param)
    (h : Param.new env v b = .ok p) (he : env.Valid) (hv : v.NoNaN) (hb : b.NoNaN)
    (ops : List ParamOp) (hops : ∀ op ∈ ops, op.Ok) :
    (ops.foldl ParamOp.run p).WithinTolerance := by
  have h0 := withinTolerance_new h hv hb he
  clear h
  induction ops generalizing p with
  | nil => exact h0
  | cons op ops ih =>
    apply ih _ (fun o ho => hops o (List.mem_cons_of_mem _ ho))
    have hop := hops op List.mem_cons_self
    cases op with
    | setVal env' v' =>
      simp only [ParamOp.run]
      cases hq : p.setVal env' v' with
      | error e => exact h0
      | ok q => exact withinTolerance_setVal hq h0 hop.2 hop.1
    | setBounds b' => exact absurd hop id
    | assign env' v' b' =>
      simp only [ParamOp.run]
      cases hq : Param.new env' v' b' with
      | error e => exact h0
      | ok q => exact withinTolerance_new hq hop.2.1 hop.2.2 hop.1

/-- C07: exactly which numbers an unfixed parameter accepts, and what accepting does. -/
theorem C07_accepts_iff (env : Env) (p : Param) (l u x : EReal) (hf : p.fixed = false)
    (hl : p.lb = some l) (hu : p.ub = some u) :
    p.setVal env (.num (some x)) =
      if l + ((-(1e-5) : ℝ) : EReal) ≤ x ∧ x ≤ u + ((1e-5 : ℝ) : EReal) then
        .ok { p with val := some x } else .error .value := by
  unfold Param.setVal checkVal checkRange
  rw [hf, hl, hu]
  simp only [Flt.addC, Option.map_some, Flt.lt_some, Bool.false_eq_true, if_false]
  by_cases h1 : x < l + ((-(1e-5) : ℝ) : EReal)
  · rw [if_pos h1, if_neg (fun h => absurd h.1 (not_le.mpr h1))]; rfl
  · rw [if_neg h1]
    by_cases h2 : u + ((1e-5 : ℝ) : EReal) < x
    · rw [if_pos h2, if_neg (fun h => absurd h.2 (not_le.mpr h2))]; rfl
    · rw [if_neg h2, if_pos ⟨not_lt.mp h1, not_lt.mp h2⟩]
      simp only [bind, Except.bind, pure, Except.pure]

/-- C07: a fixed parameter accepts every number, and keeps its status. -/
theorem C07_fixed_accepts (env : Env) (p : Param) (x : Flt) (hf : p.fixed = true) :
    p.setVal env (.num x) = .ok { p with val := x } := by
  unfold Param.setVal checkVal checkRange
  rw [hf]; rfl

/-- C07: exactly which bounds are accepted: the string "fixed", or two real numbers of which the
second is not below the first. -/
theorem C07_bounds_accepted_iff (b : PyBounds) :
    (∃ r, checkBounds b = .ok r) ↔
      b = .str "fixed" ∨ ∃ l u : Flt, b = .seq [.num l, .num u] ∧ ¬ Flt.lt u l := by
  constructor
  · rintro ⟨⟨l, u, f⟩, h⟩
    rcases checkBounds_ok h with ⟨h, _⟩ | ⟨h, _, h2⟩
    · exact .inl h
    · exact .inr ⟨l, u, h, h2⟩
  · rintro (rfl | ⟨l, u, rfl, h⟩)
    · exact ⟨_, rfl⟩
    · exact ⟨(l, u, false), by simp only [checkBounds]; rw [if_neg h]⟩

/-- C07: sequences and arrays, unknown strings, any string for a fixed parameter and non-numbers
raise, whatever the bounds. -/
theorem C07_rejections (env : Env) (p : Param) :
    p.setVal env .sized = .error .value ∧ p.setVal env .other = .error .type ∧
      (∀ s, s ≠ "sample" → s ≠ "log_sample" → p.setVal env (.str s) = .error .value) ∧
      (p.fixed = true → ∀ s, p.setVal env (.str s) = .error .value) := by
  refine ⟨rfl, rfl, fun s h1 h2 => ?_, fun hf s => ?_⟩
  · unfold Param.setVal checkVal sampleVal sampleLocal
    cases p.fixed <;> simp [h1, h2, bind, Except.bind]
  · unfold Param.setVal checkVal sampleVal sampleLocal
    rw [hf]; simp [bind, Except.bind]

/-- C07 fails in the code: a value above the upper bound, equal bounds and NaN are all accepted. -/
theorem C07_documented_fails (env : Env) :
    (∃ p, Param.new env (.num (Flt.fin (1 + 1e-6))) (.seq [.num (Flt.fin 0), .num (Flt.fin 1)]) = .ok p ∧
      ¬ p.Documented) ∧
    (∃ p, Param.new env (.num (Flt.fin 1)) (.seq [.num (Flt.fin 1), .num (Flt.fin 1)]) = .ok p ∧
      ¬ p.Documented) ∧
    (∃ p, Param.new env (.num none) (.seq [.num (Flt.fin 0), .num (Flt.fin 1)]) = .ok p ∧
      ¬ p.Documented) := by
  have hb : ∀ a b : ℝ, a ≤ b → checkBounds (.seq [.num (Flt.fin a), .num (Flt.fin b)]) =
      .ok (Flt.fin a, Flt.fin b, false) := by
    intro a b h
    simp only [checkBounds]
    rw [if_neg]
    rw [Flt.fin, Flt.fin, Flt.lt_some, not_lt]; exact_mod_cast h
  have hr : ∀ a b x : ℝ, a - 1e-5 ≤ x → x ≤ b + 1e-5 →
      checkRange (Flt.fin a) (Flt.fin b) false (Flt.fin x) = .ok (Flt.fin x) := by
    intro a b x h1 h2
    unfold checkRange
    simp only [Bool.false_eq_true, if_false, Flt.fin, Flt.addC, Option.map_some, Flt.lt_some]
    rw [if_neg, if_neg]
    · rw [not_lt]; exact_mod_cast h2
    · rw [not_lt, ← EReal.coe_add]; exact_mod_cast (by linarith)
  refine ⟨⟨⟨Flt.fin (1 + 1e-6), Flt.fin 0, Flt.fin 1, false⟩, ?_, ?_⟩,
    ⟨⟨Flt.fin 1, Flt.fin 1, Flt.fin 1, false⟩, ?_, ?_⟩, ⟨⟨none, Flt.fin 0, Flt.fin 1, false⟩, ?_, ?_⟩⟩
  · unfold Param.new; rw [hb 0 1 (by norm_num)]
    simp only [bind, Except.bind, checkVal]
    rw [hr 0 1 _ (by norm_num) (by norm_num)]
    rfl
  · rintro (h | ⟨v, l, u, hv, hl, hu, h1, h2, h3⟩)
    · simp at h
    · simp only [Flt.fin, Option.some.injEq] at hv hu
      subst hv; subst hu
      have : (1 + 1e-6 : ℝ) ≤ 1 := by exact_mod_cast h3
      norm_num at this
  · unfold Param.new; rw [hb 1 1 (by norm_num)]
    simp only [bind, Except.bind, checkVal]
    rw [hr 1 1 _ (by norm_num) (by norm_num)]
    rfl
  · rintro (h | ⟨v, l, u, hv, hl, hu, h1, h2, h3⟩)
    · simp at h
    · simp only [Flt.fin, Option.some.injEq] at hl hu
      subst hl; subst hu
      exact lt_irrefl _ h1
  · unfold Param.new; rw [hb 0 1 (by norm_num)]
    simp only [bind, Except.bind, checkVal]
    have : checkRange (Flt.fin 0) (Flt.fin 1) false none = .ok none := by
      unfold checkRange
      simp [Flt.not_lt_nan_left, Flt.not_lt_nan_right]
    rw [this]
    rfl
  · rintro (h | ⟨v, l, u, hv, hl, hu, h1, h2, h3⟩)
    · simp at h
    · simp at hv

/-- C07 fails in the code: `_set_bounds` never rechecks the stored value, so a later change of the
bounds leaves a value outside them, by any amount. -/
theorem C07_set_bounds_fails (v l u : ℝ) (hlu : l < u) (hv : v < l) :
    ∃ q, (⟨Flt.fin v, Flt.fin 0, Flt.fin 0, true⟩ : Param).setBounds
      (.seq [.num (Flt.fin l), .num (Flt.fin u)]) = .ok q ∧ q.val = Flt.fin v ∧ ¬ q.Documented := by
  refine ⟨⟨Flt.fin v, Flt.fin l, Flt.fin u, false⟩, ?_, rfl, ?_⟩
  · unfold Param.setBounds
    simp only [checkBounds]
    rw [if_neg]
    · rfl
    · rw [Flt.fin, Flt.fin, Flt.lt_some, not_lt]; exact_mod_cast hlu.le
  · rintro (h | ⟨v', l', u', h1, h2, h3, _, h5, _⟩)
    · simp at h
    · simp only [Flt.fin, Option.some.injEq] at h1 h2
      subst h1; subst h2
      have : l ≤ v := by exact_mod_cast h5
      linarith

/-- Non-vacuity of C07: a parameter is constructed, one assignment is accepted, one rejected. -/
example (env : Env) (he : env.Valid) :
    ∃ p, Param.new env (.str "sample") (.seq [.num (Flt.fin 0.1), .num (Flt.fin 5)]) = .ok p ∧
      ∀ op ∈ [ParamOp.setVal env (.num (Flt.fin 7)), .assign env (.num (Flt.fin 1)) (.str "fixed")],
        op.Ok := by
  refine ⟨⟨Flt.fin (0.1 + (5 - 0.1) * env.draws (if env.mpi then 0 else env.rank)),
    Flt.fin 0.1, Flt.fin 5, false⟩, ?_, ?_⟩
  · have hd := he (if env.mpi then 0 else env.rank)
    have hb : checkBounds (.seq [.num (Flt.fin 0.1), .num (Flt.fin 5)]) =
        .ok (Flt.fin 0.1, Flt.fin 5, false) := by
      simp only [checkBounds]
      rw [if_neg]
      rw [Flt.fin, Flt.fin, Flt.lt_some, not_lt]; exact_mod_cast (by norm_num)
    unfold Param.new
    rw [hb]
    have hs : sampleVal env.mpi env.draws env.rank (Flt.fin 0.1) (Flt.fin 5) false "sample" =
        .ok (Flt.fin (0.1 + (5 - 0.1) * env.draws (if env.mpi then 0 else env.rank))) := by
      unfold sampleVal sampleLocal
      simp only [Bool.false_eq_true, if_false, if_true, npUniform_real, bind, Except.bind]
      cases env.mpi <;> rfl
    simp only [bind, Except.bind, checkVal, hs]
    have hr : checkRange (Flt.fin 0.1) (Flt.fin 5) false
        (Flt.fin (0.1 + (5 - 0.1) * env.draws (if env.mpi then 0 else env.rank))) =
        .ok (Flt.fin (0.1 + (5 - 0.1) * env.draws (if env.mpi then 0 else env.rank))) := by
      unfold checkRange
      simp only [Bool.false_eq_true, if_false, Flt.fin, Flt.addC, Option.map_some, Flt.lt_some]
      rw [if_neg, if_neg]
      · rw [not_lt, ← EReal.coe_add, EReal.coe_le_coe_iff]; nlinarith [hd.1, hd.2]
      · rw [not_lt, ← EReal.coe_add, EReal.coe_le_coe_iff]; nlinarith [hd.1, hd.2]
    rw [hr]
    rfl
  · intro op hop
    simp only [List.mem_cons, List.not_mem_nil, or_false] at hop
    rcases hop with rfl | rfl
    · exact ⟨he, by simp [PyVal.NoNaN, Flt.fin]⟩
    · exact ⟨he, by simp [PyVal.NoNaN, Flt.fin], trivial⟩

/-! ### C08 -/

/-- C08: whenever sampling succeeds — on any rank, with or without MPI, for either prompt and
whatever the generators return — the parameter is unfixed, its bounds are real and the value lies
within them, exactly. -/
theorem C08_sample_in_bounds (env : Env) (he : env.Valid) (s : String) (b : PyBounds) (p : Param)
    (h : Param.new env (.str s) b = .ok p) :
    ∃ l u v : ℝ, p = ⟨Flt.fin v, Flt.fin l, Flt.fin u, false⟩ ∧ l ≤ v ∧ v ≤ u := by
  unfold Param.new at h
  cases hc : checkBounds b with
  | error e => rw [hc] at h; simp [bind, Except.bind] at h
  | ok t =>
    obtain ⟨l, u, f⟩ := t
    rw [hc] at h
    simp only [bind, Except.bind, checkVal] at h
    cases hs : sampleVal env.mpi env.draws env.rank l u f s with
    | error e => rw [hs] at h; simp at h
    | ok x =>
      rw [hs] at h
      simp only at h
      cases hx : checkRange l u f x with
      | error e => rw [hx] at h; simp at h
      | ok y =>
        rw [hx] at h
        simp only [pure, Except.pure, Except.ok.injEq] at h
        obtain ⟨rfl, _⟩ := checkRange_ok hx
        obtain ⟨r, hr⟩ := sampleVal_local hs
        have hle : ¬ Flt.lt u l := by
          rcases checkBounds_ok hc with ⟨_, _, rfl, rfl⟩ | ⟨_, _, hlt⟩
          · rw [Flt.fin, Flt.lt_some]; exact lt_irrefl _
          · exact hlt
        obtain ⟨rfl, a, c, z, rfl, rfl, rfl, h1, h2⟩ := sampleLocal_mem hr hle (he r).1 (he r).2
        exact ⟨a, c, z, h.symm, h1, h2⟩

/-- C08: `sample` succeeds for all real ordered bounds, `log_sample` for all positive ones; the value
is the stated function of the draw of the deciding rank (rank 0 under MPI). -/
theorem C08_sample_succeeds (env : Env) (he : env.Valid) (l u : ℝ) (hlu : l ≤ u) :
    (Param.new env (.str "sample") (.seq [.num (Flt.fin l), .num (Flt.fin u)]) =
      .ok ⟨Flt.fin (l + (u - l) * env.draws (if env.mpi then 0 else env.rank)),
        Flt.fin l, Flt.fin u, false⟩) ∧
    (0 < l → Param.new env (.str "log_sample") (.seq [.num (Flt.fin l), .num (Flt.fin u)]) =
      .ok ⟨Flt.fin (Real.exp (Real.log l +
          (Real.log u - Real.log l) * env.draws (if env.mpi then 0 else env.rank))),
        Flt.fin l, Flt.fin u, false⟩) := by
  have hd := he (if env.mpi then 0 else env.rank)
  have hb : checkBounds (.seq [.num (Flt.fin l), .num (Flt.fin u)]) =
      .ok (Flt.fin l, Flt.fin u, false) := by
    simp only [checkBounds]
    rw [if_neg]
    rw [Flt.fin, Flt.fin, Flt.lt_some, not_lt]; exact_mod_cast hlu
  have hr : ∀ x : ℝ, l ≤ x → x ≤ u →
      checkRange (Flt.fin l) (Flt.fin u) false (Flt.fin x) = .ok (Flt.fin x) := by
    intro x h1 h2
    unfold checkRange
    simp only [Bool.false_eq_true, if_false, Flt.fin, Flt.addC, Option.map_some, Flt.lt_some]
    rw [if_neg, if_neg]
    · rw [not_lt, ← EReal.coe_add, EReal.coe_le_coe_iff]; linarith [show (0:ℝ) < 1e-5 by norm_num]
    · rw [not_lt, ← EReal.coe_add, EReal.coe_le_coe_iff]; linarith [show (0:ℝ) < 1e-5 by norm_num]
  constructor
  · unfold Param.new
    rw [hb]
    have hs : sampleVal env.mpi env.draws env.rank (Flt.fin l) (Flt.fin u) false "sample" =
        .ok (Flt.fin (l + (u - l) * env.draws (if env.mpi then 0 else env.rank))) := by
      unfold sampleVal sampleLocal
      simp only [Bool.false_eq_true, if_false, if_true, npUniform_real, bind, Except.bind]
      cases env.mpi <;> rfl
    have hm := uniform_mem hlu hd.1 hd.2
    simp only [bind, Except.bind, checkVal, hs]
    rw [hr _ hm.1 hm.2]
    rfl
  · intro hl
    have hu : 0 < u := lt_of_lt_of_le hl hlu
    unfold Param.new
    rw [hb]
    have hs : sampleVal env.mpi env.draws env.rank (Flt.fin l) (Flt.fin u) false "log_sample" =
        .ok (Flt.fin (Real.exp (Real.log l + (Real.log u - Real.log l) *
          env.draws (if env.mpi then 0 else env.rank)))) := by
      unfold sampleVal sampleLocal
      simp only [Bool.false_eq_true, if_false, if_true, Flt.log_real hl, Flt.log_real hu,
        npUniform_real, bind, Except.bind, pure, Except.pure]
      cases env.mpi <;>
        simp only [Flt.exp, Flt.fin, Option.map_some, EReal.toReal_coe, if_true, Bool.false_eq_true, if_false,
          show ("log_sample" = "sample") = False from by simp]
    have hm := uniform_mem (Real.log_le_log hl hlu) hd.1 hd.2
    simp only [bind, Except.bind, checkVal, hs]
    rw [hr _ _ _]
    · rfl
    · calc l = Real.exp (Real.log l) := (Real.exp_log hl).symm
        _ ≤ _ := Real.exp_le_exp.mpr hm.1
    · calc _ ≤ Real.exp (Real.log u) := Real.exp_le_exp.mpr hm.2
        _ = u := Real.exp_log hu

/-- C08: sampling a fixed parameter is a `ValueError`, and `log_sample` with a non-positive lower
bound is refused for every draw. -/
theorem C08_sample_rejected (env : Env) (s : String) :
    Param.new env (.str s) (.str "fixed") = .error .value ∧
      ∀ l u : ℝ, l ≤ u → l ≤ 0 →
        Param.new env (.str "log_sample") (.seq [.num (Flt.fin l), .num (Flt.fin u)]) =
          .error .overflow := by
  constructor
  · unfold Param.new
    simp [checkBounds, checkVal, sampleVal, sampleLocal, bind, Except.bind]
  · intro l u hlu hl
    have hb : checkBounds (.seq [.num (Flt.fin l), .num (Flt.fin u)]) =
        .ok (Flt.fin l, Flt.fin u, false) := by
      simp only [checkBounds]
      rw [if_neg]
      rw [Flt.fin, Flt.fin, Flt.lt_some, not_lt]; exact_mod_cast hlu
    have hlog : Flt.log (Flt.fin l) = none ∨ Flt.log (Flt.fin l) = some ⊥ := by
      simp only [Flt.log, Flt.fin, Option.bind_some]
      rcases lt_or_eq_of_le hl with h | h
      · left; rw [if_pos]; exact_mod_cast h
      · right; subst h; simp
    have hs : ∀ d, sampleLocal (Flt.fin l) (Flt.fin u) false "log_sample" d = .error .overflow := by
      intro d
      unfold sampleLocal
      have : npUniform (Flt.log (Flt.fin l)) (Flt.log (Flt.fin u)) d = .error .overflow := by
        rcases hlog with h | h <;> rw [h]
        · rfl
        · cases Flt.log (Flt.fin u) <;> simp [npUniform]
      simp [this, bind, Except.bind]
    unfold Param.new
    rw [hb]
    simp only [bind, Except.bind, checkVal, sampleVal, hs]

/-- C08: under MPI all ranks end with the same parameter, whatever each of them drew. -/
theorem C08_ranks_agree (draws : Nat → ℝ) (v : PyVal) (b : PyBounds) (r r' : Nat) :
    Param.new ⟨true, r, draws⟩ v b = Param.new ⟨true, r', draws⟩ v b := by
  unfold Param.new
  cases hc : checkBounds b with
  | error e => rfl
  | ok t =>
    obtain ⟨l, u, f⟩ := t
    simp only [bind, Except.bind]
    cases v with
    | num x => rfl
    | sized => rfl
    | other => rfl
    | str s =>
      have hrank : sampleVal true draws r l u f s = sampleVal true draws r' l u f s := by
        have herr : ∀ d d' : ℝ, ∀ e, sampleLocal l u f s d = .error e → sampleLocal l u f s d' = .error e := by
          intro d d' e
          have hn : ∀ a b : Flt, npUniform a b d = .error e → npUniform a b d' = .error e := by
            intro a b
            cases a with
            | none => exact id
            | some a =>
              cases b with
              | none => exact id
              | some b =>
                simp only [npUniform]
                split_ifs
                · intro h; simp at h
                · exact id
          unfold sampleLocal
          split_ifs
          · exact id
          · exact hn _ _
          · cases h1 : npUniform (Flt.log l) (Flt.log u) d with
            | error e1 =>
              intro h
              simp only [bind, Except.bind, Except.error.injEq] at h
              subst h
              rw [hn _ _ h1]; rfl
            | ok x => intro h; simp [bind, Except.bind, pure, Except.pure] at h
          · exact id
        unfold sampleVal
        cases h1 : sampleLocal l u f s (draws r) with
        | error e => rw [herr _ (draws r') _ h1]
        | ok x =>
          cases h2 : sampleLocal l u f s (draws r') with
          | error e => rw [herr _ (draws r) _ h2] at h1; simp at h1
          | ok y => rfl
      simp only [checkVal, hrank]

example : (⟨false, 0, fun _ => 0.5⟩ : Env).Valid := fun _ => by
  constructor <;> norm_num

/-! ### C23 -/

/-- C23 (partial): an unfixed homoscedastic noise (NaN-free arguments) has non-negative bounds, and
its value is above -1e-5; a heteroscedastic noise has only non-negative entries. Missing: fixed
homoscedastic noise may be negative (`C23_negative_fixed_accepted`) and the tolerance of C07 lets
an unfixed one be slightly negative (`C23_negative_unfixed_accepted`). -/
theorem C23_nonneg_partial (env : Env) (v : PyVal) (b : PyBounds) (he : env.Valid) (hv : v.NoNaN)
    (hb : b.NoNaN) (p : Param) (h : newHomoscedastic env v b = .ok p) (hf : p.fixed = false) :
    ∃ l u x : EReal, p.lb = some l ∧ p.ub = some u ∧ p.val = some x ∧ 0 ≤ l ∧ 0 ≤ u ∧
      ((-(1e-5) : ℝ) : EReal) ≤ x := by
  unfold newHomoscedastic at h
  cases hq : Param.new env v b with
  | error e => rw [hq] at h; simp [bind, Except.bind] at h
  | ok q =>
    rw [hq] at h
    simp only [bind, Except.bind] at h
    split_ifs at h with hc
    simp only [pure, Except.pure, Except.ok.injEq] at h
    subst h
    rcases withinTolerance_new hq hv hb he with h1 | ⟨x, l, u, hx, hl, hu, hlu, h1, h2⟩
    · rw [hf] at h1; simp at h1
    · have hc' := not_and.mp hc hf
      rw [hl, hu, Flt.fin, Flt.lt_some, Flt.lt_some, not_or, not_lt, not_lt] at hc'
      refine ⟨l, u, x, hl, hu, hx, by simpa using hc'.1, by simpa using hc'.2, le_trans ?_ h1⟩
      calc ((-(1e-5) : ℝ) : EReal) = 0 + ((-(1e-5) : ℝ) : EReal) := by simp
        _ ≤ l + ((-(1e-5) : ℝ) : EReal) := add_le_add_left (by simpa using hc'.1) _

/-- C23: heteroscedastic noise with a negative entry is refused, and what is accepted has none. -/
theorem C23_heteroscedastic (xs : List Flt) :
    (newHeteroscedastic (.array xs) = .ok xs ∧ ∀ x : EReal, some x ∈ xs → 0 ≤ x) ∨
      (newHeteroscedastic (.array xs) = .error .value ∧ ∃ x : EReal, some x ∈ xs ∧ x < 0) := by
  by_cases h : ∃ x ∈ xs, Flt.lt x (Flt.fin 0)
  · right
    refine ⟨by simp only [newHeteroscedastic]; rw [if_pos h], ?_⟩
    obtain ⟨x, hx, a, b, rfl, hb, hab⟩ := h
    simp only [Flt.fin, Option.some.injEq] at hb
    subst hb
    exact ⟨a, hx, by simpa using hab⟩
  · left
    refine ⟨by simp only [newHeteroscedastic]; rw [if_neg h], fun x hx => ?_⟩
    by_contra hn
    exact h ⟨some x, hx, by rw [Flt.fin, Flt.lt_some]; simpa using hn⟩

/-- C23: negative optimisation bounds are refused. -/
theorem C23_negative_bounds_refused (env : Env) (v : PyVal) (l u : ℝ) (hl : l < 0) :
    ∃ e, newHomoscedastic env v (.seq [.num (Flt.fin l), .num (Flt.fin u)]) = .error e := by
  unfold newHomoscedastic
  cases hq : Param.new env v (.seq [.num (Flt.fin l), .num (Flt.fin u)]) with
  | error e => exact ⟨e, rfl⟩
  | ok q =>
    refine ⟨.value, ?_⟩
    simp only [bind, Except.bind]
    rw [if_pos]
    unfold Param.new at hq
    simp only [checkBounds] at hq
    split_ifs at hq with hlt
    · simp [bind, Except.bind] at hq
    · simp only [bind, Except.bind] at hq
      cases hx : checkVal env (Flt.fin l) (Flt.fin u) false v with
      | error e => rw [hx] at hq; simp at hq
      | ok x =>
        rw [hx] at hq
        simp only [pure, Except.pure, Except.ok.injEq] at hq
        subst hq
        refine ⟨rfl, .inl ?_⟩
        show Flt.lt (Flt.fin l) (Flt.fin 0)
        rw [Flt.fin, Flt.fin, Flt.lt_some]; exact_mod_cast hl

/-- C23 fails in the code: every negative number is accepted as a fixed noise variance. -/
theorem C23_negative_fixed_accepted (env : Env) (x : ℝ) :
    newHomoscedastic env (.num (Flt.fin x)) (.str "fixed") =
      .ok ⟨Flt.fin x, Flt.fin 0, Flt.fin 0, true⟩ := by
  unfold newHomoscedastic Param.new
  simp [checkBounds, checkVal, checkRange, bind, Except.bind, pure, Except.pure]

/-- C23 fails in the code: with bounds (0, 1) the value -1e-6 is accepted. -/
theorem C23_negative_unfixed_accepted (env : Env) :
    newHomoscedastic env (.num (Flt.fin (-1e-6))) (.seq [.num (Flt.fin 0), .num (Flt.fin 1)]) =
      .ok ⟨Flt.fin (-1e-6), Flt.fin 0, Flt.fin 1, false⟩ := by
  have hb : checkBounds (.seq [.num (Flt.fin 0), .num (Flt.fin 1)]) =
      .ok (Flt.fin 0, Flt.fin 1, false) := by
    simp only [checkBounds]
    rw [if_neg]
    rw [Flt.fin, Flt.fin, Flt.lt_some, not_lt]; exact_mod_cast zero_le_one
  have hr : checkRange (Flt.fin 0) (Flt.fin 1) false (Flt.fin (-1e-6)) = .ok (Flt.fin (-1e-6)) := by
    unfold checkRange
    simp only [Bool.false_eq_true, if_false, Flt.fin, Flt.addC, Option.map_some, Flt.lt_some]
    rw [if_neg, if_neg]
    · rw [not_lt, ← EReal.coe_add, EReal.coe_le_coe_iff]; norm_num
    · rw [not_lt, ← EReal.coe_add, EReal.coe_le_coe_iff]; norm_num
  unfold newHomoscedastic Param.new
  rw [hb]
  simp only [bind, Except.bind, checkVal]
  rw [hr]
  simp only [pure, Except.pure]
  rw [if_neg]
  simp [Flt.fin, Flt.lt_some]

/-- C23 fails in the code: `NullNoise` cannot be asked whether it is fixed, the others can. -/
theorem C23_null_noise_not_queryable :
    NoiseObj.null.fixed = .error .attribute ∧
      ∀ n : NoiseObj, n ≠ .null → ∃ b, n.fixed = .ok b := by
  refine ⟨rfl, fun n hn => ?_⟩
  cases n with
  | null => exact absurd rfl hn
  | homoscedastic p => exact ⟨_, rfl⟩
  | heteroscedastic xs => exact ⟨_, rfl⟩

end MuyGPyS
