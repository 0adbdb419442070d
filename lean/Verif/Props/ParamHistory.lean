import Verif.Props.Param

/-!
# C07, continued: what `_set_bounds` does in a history of operations

The bounds and the value of a parameter after any history: the bounds are those of the last accepted bounds, the value is that of the last accepted value.
-/

namespace MuyGPyS
open Py

/-- Assigning values never changes the bounds of a parameter, nor whether it is fixed. -/
theorem setVals_bounds (p : Param) (ops : List ParamOp) (h : ∀ op ∈ ops, ∃ env v, op = .setVal env v) :
    (ops.foldl ParamOp.run p).lb = p.lb ∧ (ops.foldl ParamOp.run p).ub = p.ub ∧ (ops.foldl ParamOp.run p).fixed = p.fixed := by
  induction ops generalizing p with
  | nil => exact ⟨rfl, rfl, rfl⟩
  | cons op ops ih =>
    obtain ⟨env, v, rfl⟩ := h _ List.mem_cons_self
    have h1 := ih (ParamOp.run p (.setVal env v)) (fun o ho => h o (List.mem_cons_of_mem _ ho))
    have h2 : (ParamOp.run p (.setVal env v)).lb = p.lb ∧ (ParamOp.run p (.setVal env v)).ub = p.ub ∧
        (ParamOp.run p (.setVal env v)).fixed = p.fixed := by
      simp only [ParamOp.run]
      cases hq : p.setVal env v with
      | error e => exact ⟨rfl, rfl, rfl⟩
      | ok q =>
        unfold Param.setVal at hq
        cases hx : checkVal env p.lb p.ub p.fixed v with
        | error e => rw [hx] at hq; simp [bind, Except.bind] at hq
        | ok x =>
          rw [hx] at hq
          simp only [bind, Except.bind, pure, Except.pure, Except.ok.injEq] at hq
          subst hq
          exact ⟨rfl, rfl, rfl⟩
    rw [List.foldl_cons]
    exact ⟨h1.1.trans h2.1, h1.2.1.trans h2.2.1, h1.2.2.trans h2.2.2⟩

/-- **C07**: after any history, bounds `(l, u)` with `l ≤ u` are accepted, make the parameter free and leave its value alone; and they stay its bounds
whatever values are assigned, accepted or refused, afterwards. -/
theorem C07_set_bounds_history (p : Param) (before after : List ParamOp) (l u : EReal) (hlu : l ≤ u)
    (hafter : ∀ op ∈ after, ∃ env v, op = .setVal env v) :
    let q := before.foldl ParamOp.run p
    let q' := (before ++ [ParamOp.setBounds (.seq [.num (some l), .num (some u)])]).foldl ParamOp.run p
    let q'' := (before ++ [ParamOp.setBounds (.seq [.num (some l), .num (some u)])] ++ after).foldl ParamOp.run p
    q' = ⟨q.val, some l, some u, false⟩ ∧ q''.lb = some l ∧ q''.ub = some u ∧ q''.fixed = false := by
  have hb : ∀ q : Param, ParamOp.run q (.setBounds (.seq [.num (some l), .num (some u)])) = ⟨q.val, some l, some u, false⟩ := fun q => by
    simp only [ParamOp.run, Param.setBounds, checkBounds]
    rw [if_neg (by rw [Flt.lt_some, not_lt]; exact hlu)]
    rfl
  have h1 : (before ++ [ParamOp.setBounds (.seq [.num (some l), .num (some u)])]).foldl ParamOp.run p =
      ⟨(before.foldl ParamOp.run p).val, some l, some u, false⟩ := by
    rw [List.foldl_append, List.foldl_cons, List.foldl_nil, hb]
  refine ⟨h1, ?_⟩
  have h2 := setVals_bounds ⟨(before.foldl ParamOp.run p).val, some l, some u, false⟩ after hafter
  show _ ∧ _ ∧ _
  rw [List.foldl_append, h1]
  exact h2

/-- **C07**: after any history, the bounds `"fixed"` fix the parameter at the value it has, and any number can be assigned to it afterwards. -/
theorem C07_fix_history (p : Param) (before : List ParamOp) (env : Env) (x : Flt) :
    let q := before.foldl ParamOp.run p
    (before ++ [ParamOp.setBounds (.str "fixed")]).foldl ParamOp.run p = ⟨q.val, Flt.fin 0, Flt.fin 0, true⟩ ∧
      (before ++ [ParamOp.setBounds (.str "fixed"), .setVal env (.num x)]).foldl ParamOp.run p = ⟨x, Flt.fin 0, Flt.fin 0, true⟩ := by
  have hb : ∀ q : Param, ParamOp.run q (.setBounds (.str "fixed")) = ⟨q.val, Flt.fin 0, Flt.fin 0, true⟩ := fun q => by
    simp only [ParamOp.run, Param.setBounds, checkBounds]
    rfl
  constructor
  · rw [List.foldl_append, List.foldl_cons, List.foldl_nil, hb]
  · rw [List.foldl_append, List.foldl_cons, List.foldl_cons, List.foldl_nil, hb]
    simp only [ParamOp.run]
    rw [C07_fixed_accepts env _ x rfl]

/-- **C07**: bounds which are refused (C07_bounds_accepted_iff) change nothing. -/
theorem C07_refused_bounds_history (p : Param) (before : List ParamOp) (b : PyBounds) (hb : ¬ ∃ r, checkBounds b = .ok r) :
    (before ++ [ParamOp.setBounds b]).foldl ParamOp.run p = before.foldl ParamOp.run p := by
  rw [List.foldl_append, List.foldl_cons, List.foldl_nil]
  generalize before.foldl ParamOp.run p = q
  cases hc : checkBounds b with
  | ok r => exact absurd ⟨r, hc⟩ hb
  | error e => simp only [ParamOp.run, Param.setBounds, hc, bind, Except.bind]

/-- Non-vacuity: a value is assigned, new bounds are set, a value outside them is refused, one inside accepted. -/
example (env : Env) (p : Param) : ∃ before after : List ParamOp, before ≠ [] ∧ (∀ op ∈ after, ∃ env v, op = .setVal env v) ∧
    (before ++ [ParamOp.setBounds (.seq [.num (some ((1 : ℝ) : EReal)), .num (some ((2 : ℝ) : EReal))])] ++ after).foldl ParamOp.run p =
      ⟨Flt.fin (3 / 2), Flt.fin 1, Flt.fin 2, false⟩ := by
  refine ⟨[ParamOp.setVal env (.num (Flt.fin 1))], [ParamOp.setVal env (.num (Flt.fin 7)), .setVal env (.num (Flt.fin (3 / 2)))], by simp,
    fun op ho => ?_, ?_⟩
  · simp only [List.mem_cons, List.not_mem_nil, or_false] at ho
    rcases ho with rfl | rfl <;> exact ⟨_, _, rfl⟩
  · have h := (C07_set_bounds_history p [ParamOp.setVal env (.num (Flt.fin 1))] [] ((1 : ℝ) : EReal) ((2 : ℝ) : EReal)
      (by exact_mod_cast (by norm_num : (1 : ℝ) ≤ 2)) (by simp)).1
    rw [List.foldl_append, h]
    generalize (List.foldl ParamOp.run p [ParamOp.setVal env (.num (Flt.fin 1))]).val = x
    have a1 : (⟨x, some ((1 : ℝ) : EReal), some ((2 : ℝ) : EReal), false⟩ : Param).setVal env (.num (Flt.fin 7)) = .error .value := by
      rw [Flt.fin, C07_accepts_iff env _ _ _ _ rfl rfl rfl, if_neg]
      intro h
      have h2 := h.2
      rw [← EReal.coe_add] at h2
      have := EReal.coe_le_coe_iff.mp h2
      norm_num at this
    have a2 : (⟨x, some ((1 : ℝ) : EReal), some ((2 : ℝ) : EReal), false⟩ : Param).setVal env (.num (Flt.fin (3 / 2))) =
        .ok ⟨Flt.fin (3 / 2), some ((1 : ℝ) : EReal), some ((2 : ℝ) : EReal), false⟩ := by
      rw [Flt.fin, C07_accepts_iff env _ _ _ _ rfl rfl rfl, if_pos]
      · rw [← EReal.coe_add, ← EReal.coe_add]
        exact ⟨EReal.coe_le_coe_iff.mpr (by norm_num), EReal.coe_le_coe_iff.mpr (by norm_num)⟩
    simp only [List.foldl_cons, List.foldl_nil, ParamOp.run, a1, a2]
    rfl

end MuyGPyS
