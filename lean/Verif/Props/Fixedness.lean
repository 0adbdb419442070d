import Verif.Model.Fixedness

/-! # C122: `fixed()` tells whether the optimisers leave a hyperparameter alone -/

namespace MuyGPyS
open Py

/-- `fixed()` answers, its answer is a truth value usable in `if` and in `is` tests, and it is `True` exactly if the optimisers are given nothing to change. -/
def Spec.ReportsFixed (lib : MathLib) (name : String) (h : HyperObj) : Prop :=
  ∃ a, h.fixed lib = .ok a ∧ (a.truthy = true ↔ (h.optimised name).names = []) ∧ ∀ b, a.isBool b = true ↔ a.truthy = b

theorem folded_names (l : List (String × Param)) (o : OptLists) :
    (l.foldl appendLists o).names = o.names ++ (l.filter fun np => !np.2.fixed).map Prod.fst := by
  induction l generalizing o with
  | nil => simp
  | cons np l ih =>
    rw [List.foldl_cons, ih]
    unfold appendLists
    cases h : np.2.fixed <;> simp [h]

theorem namedFrom_free (base : String) (i : Nat) (ps : List Param) :
    ((namedFrom base i ps).filter fun np => !np.2.fixed) = [] ↔ ∀ p ∈ ps, p.fixed = true := by
  induction ps generalizing i with
  | nil => simp [namedFrom]
  | cons p ps ih =>
    rw [namedFrom, List.filter_cons]
    cases h : p.fixed <;> simp [h, ih]

theorem vector_names (base : String) (ps : List Param) :
    ((namedFrom base 0 ps).foldl appendLists ⟨[], [], []⟩).names = [] ↔ ∀ p ∈ ps, p.fixed = true := by
  rw [folded_names, List.nil_append, List.map_eq_nil_iff, namedFrom_free]

/-- **C122** holds of scalar and tensor hyperparameters, with every array library. -/
theorem C122_scalar_tensor_partial (lib : MathLib) (name : String) :
    (∀ p, Spec.ReportsFixed lib name (.scalar p)) ∧ ∀ xs, Spec.ReportsFixed lib name (.tensor xs) := by
  constructor
  · intro p
    refine ⟨.bool p.fixed, rfl, ?_, fun b => by simp [Answer.isBool, Answer.truthy]⟩
    unfold HyperObj.optimised appendLists
    cases h : p.fixed <;> simp [Answer.truthy, h]
  · exact fun xs => ⟨.bool true, rfl, by simp [Answer.truthy, HyperObj.optimised], fun b => by simp [Answer.isBool, Answer.truthy]⟩

/-- **C122 fails of the code** for vectors (the anisotropic length scales) and for knot-based hyperparameters, whatever the components and the array library. -/
theorem C122_vector_fails (lib : MathLib) (name : String) (ps : List Param) :
    ¬ Spec.ReportsFixed lib name (.vector ps) ∧ ¬ Spec.ReportsFixed lib name (.hier ps) ∧ ¬ Spec.ReportsFixed lib name (.namedHier ps) := by
  have key : ∀ a, allOfGenerator lib = .ok a → ¬ ∀ b, a.isBool b = true ↔ a.truthy = b := by
    intro a ha h
    cases lib with
    | numpy => cases ha; simpa [Answer.isBool, Answer.truthy] using h true
    | jax => cases ha
    | torch => cases ha
  refine ⟨?_, ?_, ?_⟩
  · rintro ⟨a, h1, -, h3⟩; exact key a h1 h3
  · rintro ⟨a, h1, -, h3⟩; exact key a h1 h3
  · rintro ⟨a, h1, -, -⟩; cases h1

/-- **C122**, what vectors and knot-based hyperparameters report: with NumPy `if h.fixed():` takes the branch for fixed hyperparameters, which is right exactly if all components are
fixed (so wrong whenever the optimisers do change one), while `h.fixed() is True` and `h.fixed() is False` are both false; with JAX and PyTorch the call raises `TypeError`; and after
the hyperparameter was made part of a kernel a knot-based one raises `AttributeError`. -/
theorem C122_vector_actual (lib : MathLib) (name : String) (ps : List Param) :
    (lib = .numpy → ∀ h ∈ [HyperObj.vector ps, HyperObj.hier ps], ∃ a, h.fixed lib = .ok a ∧ a.truthy = true ∧ (∀ b, a.isBool b = false) ∧
      ((a.truthy = true ↔ (h.optimised name).names = []) ↔ ∀ p ∈ ps, p.fixed = true)) ∧
    (lib ≠ .numpy → (HyperObj.vector ps).fixed lib = .error .type ∧ (HyperObj.hier ps).fixed lib = .error .type) ∧
    (HyperObj.namedHier ps).fixed lib = .error .attribute := by
  refine ⟨?_, ?_, rfl⟩
  · rintro rfl h hh
    have hn : (h.optimised name).names = [] ↔ ∀ p ∈ ps, p.fixed = true := by
      rcases List.mem_pair.1 hh with rfl | rfl <;> exact vector_names name ps
    refine ⟨.generator, ?_, rfl, fun _ => rfl, ?_⟩
    · rcases List.mem_pair.1 hh with rfl | rfl <;> rfl
    · rw [hn]; simp [Answer.truthy]
  · intro hl
    cases lib with
    | numpy => exact absurd rfl hl
    | jax => exact ⟨rfl, rfl⟩
    | torch => exact ⟨rfl, rfl⟩

/-- The case that misleads: one length scale is free and is optimised under its name, and the vector reports that it is fixed. -/
example (p q : Param) (hq : q.fixed = false) : ∃ a, (HyperObj.vector [p, q]).fixed .numpy = .ok a ∧ a.truthy = true ∧
    (((HyperObj.vector [p, q]).optimised "length_scale").names = [] → False) :=
  ⟨.generator, rfl, rfl, fun h => by
    have := (vector_names "length_scale" [p, q]).1 h q (by simp)
    rw [hq] at this
    cases this⟩

end MuyGPyS
