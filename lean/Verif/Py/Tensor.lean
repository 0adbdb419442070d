import Verif.Py.Basic
import Mathlib.Algebra.BigOperators.Group.List.Basic
import Mathlib.LinearAlgebra.Matrix.NonsingularInverse
import Mathlib.Data.Real.Basic
import Mathlib.Tactic.Ring

/-!
# Row-major tensors with explicit shapes (the part of NumPy the code uses)

`flat` is the row-major buffer; only the entries below `shape.prod` are meaningful.
-/

namespace Py

/-- An n-dimensional array: shape and row-major buffer. -/
structure Tensor (α : Type _) where
  shape : List Nat
  flat : Nat → α

namespace Tensor
variable {α β γ : Type _}

/-- Row-major position of a multi-index. -/
def ravel : List Nat → List Nat → Nat
  | _ :: s, i :: is => i * s.prod + ravel s is
  | _, _ => 0

/-- Multi-index of a row-major position. -/
def unravel : List Nat → Nat → List Nat
  | [], _ => []
  | _ :: s, k => k / s.prod :: unravel s (k % s.prod)

/-- Element at a multi-index, `t[i, j, …]`. -/
def get (t : Tensor α) (idx : List Nat) : α := t.flat (ravel t.shape idx)

/-- The tensor with the given entries. -/
def ofFn (shape : List Nat) (f : List Nat → α) : Tensor α := ⟨shape, fun k => f (unravel shape k)⟩

/-- `t.ndim` -/
def ndim (t : Tensor α) : Nat := t.shape.length

/-- `t.reshape(s)`: `ValueError` unless the sizes agree. -/
def reshape (t : Tensor α) (s : List Nat) : Res (Tensor α) :=
  if s.prod = t.shape.prod then .ok ⟨s, t.flat⟩ else .error .value

/-- `np.squeeze(t)`: drop the axes of length one. -/
def squeeze (t : Tensor α) : Tensor α := ⟨t.shape.filter (· ≠ 1), t.flat⟩

/-- `np.atleast_3d(t)` (NumPy's axis placement: `(n,) → (1,n,1)`, `(m,n) → (m,n,1)`). -/
def atleast3d (t : Tensor α) : Tensor α :=
  match t.shape with
  | [] => ⟨[1, 1, 1], t.flat⟩
  | [n] => ⟨[1, n, 1], t.flat⟩
  | [m, n] => ⟨[m, n, 1], t.flat⟩
  | _ => t

/-- Elementwise map. -/
def map (f : α → β) (t : Tensor α) : Tensor β := ⟨t.shape, fun k => f (t.flat k)⟩

/-- Elementwise combination of two tensors of the same shape. (NumPy broadcasting of unequal shapes
is not modelled here; the callers below only combine equal shapes.) -/
def zipWith (f : α → β → γ) (a : Tensor α) (b : Tensor β) : Res (Tensor γ) :=
  if a.shape = b.shape then .ok ⟨a.shape, fun k => f (a.flat k) (b.flat k)⟩ else .error .value

/-- The `n × m` matrix number `p` of a stack of matrices (row-major, leading axes flattened). -/
def matAt (t : Tensor α) (n m p : Nat) : Matrix (Fin n) (Fin m) α :=
  fun i j => t.flat (p * (n * m) + i * m + j)

/-- The vector number `p` of a stack of vectors. -/
def vecAt (t : Tensor α) (n p : Nat) : Fin n → α := fun i => t.flat (p * n + i)

/-- The stack (leading shape `bs`) of `n × m` matrices `f p`. -/
def ofMats (bs : List Nat) (n m : Nat) (f : Nat → Matrix (Fin n) (Fin m) α) [Zero α] : Tensor α :=
  ⟨bs ++ [n, m], fun k =>
    if h : (k % (n * m)) / m < n ∧ k % m < m then
      f (k / (n * m)) ⟨(k % (n * m)) / m, h.1⟩ ⟨k % m, h.2⟩
    else 0⟩

open Classical in
/-- `np.linalg.solve(A, B)` for `A : bs + (n, n)` and `B : bs + (n, m)`: a stack of solves;
`LinAlgError` when one of the matrices is singular, `ValueError` when the shapes do not match.
(NumPy would also broadcast different leading shapes; the modelled callers never do that.) -/
noncomputable def solve (bs : List Nat) (n m : Nat) (A B : Tensor ℝ) : Res (Tensor ℝ) :=
  if A.shape = bs ++ [n, n] ∧ B.shape = bs ++ [n, m] then
    if ∀ p < bs.prod, (A.matAt n n p).det ≠ 0 then
      .ok (ofMats bs n m fun p => (A.matAt n n p)⁻¹ * B.matAt n m p)
    else .error .linAlg
  else .error .value

/-- `A.swapaxes(-2, -1) @ B` for `A : bs + (n, m)` and `B : bs + (n, e)`, giving `bs + (m, e)`. -/
noncomputable def matmulT (bs : List Nat) (n m e : Nat) (A B : Tensor ℝ) : Res (Tensor ℝ) :=
  if A.shape = bs ++ [n, m] ∧ B.shape = bs ++ [n, e] then
    .ok (ofMats bs m e fun p => (A.matAt n m p).transpose * B.matAt n e p)
  else .error .value

/-! ### elementary facts -/

theorem ravel_unravel (s : List Nat) (k : Nat) (h : k < s.prod) : ravel s (unravel s k) = k := by
  induction s generalizing k with
  | nil => simp at h; simp [ravel, h]
  | cons a s ih =>
    have hp : 0 < s.prod := by
      rcases Nat.eq_zero_or_pos s.prod with h0 | h0
      · simp [h0] at h
      · exact h0
    simp only [unravel, ravel]
    rw [ih _ (Nat.mod_lt _ hp)]
    rw [Nat.mul_comm]; exact Nat.div_add_mod k s.prod

theorem ravel_lt : ∀ (s idx : List Nat), List.Forall₂ (· < ·) idx s → ravel s idx < s.prod := by
  intro s idx h
  induction h with
  | nil => simp [ravel]
  | @cons i a is s h1 _ ih =>
    simp only [ravel, List.prod_cons]
    calc i * s.prod + ravel s is < i * s.prod + s.prod := by omega
      _ = (i + 1) * s.prod := by ring
      _ ≤ a * s.prod := Nat.mul_le_mul_right _ h1

theorem unravel_ravel (s idx : List Nat) (h : List.Forall₂ (· < ·) idx s) :
    unravel s (ravel s idx) = idx := by
  induction h with
  | nil => rfl
  | @cons i a is s h1 h2 ih =>
    have hl := ravel_lt s is h2
    have hp : 0 < s.prod := by omega
    simp only [ravel, unravel]
    rw [Nat.add_comm, Nat.add_mul_div_right _ _ hp, Nat.div_eq_of_lt hl, Nat.add_mul_mod_self_right,
      Nat.mod_eq_of_lt hl, ih, Nat.zero_add]

theorem get_ofFn (s : List Nat) (f : List Nat → α) (idx : List Nat)
    (h : List.Forall₂ (· < ·) idx s) : (ofFn s f).get idx = f idx := by
  simp [get, ofFn, unravel_ravel s idx h]

theorem get1 (t : Tensor α) {b : Nat} (h : t.shape = [b]) (i : Nat) : t.get [i] = t.flat i := by
  simp [get, h, ravel]

theorem get2 (t : Tensor α) {b n : Nat} (h : t.shape = [b, n]) (i j : Nat) :
    t.get [i, j] = t.flat (i * n + j) := by
  simp [get, h, ravel]

theorem get3 (t : Tensor α) {b n m : Nat} (h : t.shape = [b, n, m]) (i j k : Nat) :
    t.get [i, j, k] = t.flat (i * (n * m) + j * m + k) := by
  simp [get, h, ravel, Nat.add_assoc]

theorem matAt_apply (t : Tensor α) {b n m : Nat} (h : t.shape = [b, n, m]) (p : Nat)
    (i : Fin n) (j : Fin m) : t.matAt n m p i j = t.get [p, i, j] := by
  rw [get3 t h]; rfl

theorem ofMats_flat [Zero α] (bs : List Nat) (n m : Nat) (f : Nat → Matrix (Fin n) (Fin m) α) (p : Nat)
    (i : Fin n) (j : Fin m) : (ofMats bs n m f).flat (p * (n * m) + i * m + j) = f p i j := by
  have hm : 0 < m := Nat.lt_of_le_of_lt (Nat.zero_le _) j.2
  have hij : (i : Nat) * m + j < n * m := by
    calc (i : Nat) * m + j < i * m + m := by omega
      _ = (i + 1) * m := by ring
      _ ≤ n * m := Nat.mul_le_mul_right _ i.2
  have hnm : 0 < n * m := by omega
  have e1 : (p * (n * m) + i * m + j) / (n * m) = p := by
    rw [Nat.add_assoc, Nat.add_comm, Nat.add_mul_div_right _ _ hnm, Nat.div_eq_of_lt hij,
      Nat.zero_add]
  have e2 : (p * (n * m) + i * m + j) % (n * m) = i * m + j := by
    rw [Nat.add_assoc, Nat.add_comm, Nat.add_mul_mod_self_right, Nat.mod_eq_of_lt hij]
  have e3 : (p * (n * m) + i * m + j) % m = j := by
    have : p * (n * m) + i * m + j = j + (p * n + i) * m := by ring
    rw [this, Nat.add_mul_mod_self_right, Nat.mod_eq_of_lt j.2]
  have e4 : ((i : Nat) * m + j) / m = i := by
    rw [Nat.add_comm, Nat.add_mul_div_right _ _ hm, Nat.div_eq_of_lt j.2, Nat.zero_add]
  unfold ofMats
  simp only [e2, e3, e4]
  rw [dif_pos ⟨i.2, j.2⟩]
  simp [e1]

theorem matAt_ofMats [Zero α] (bs : List Nat) (n m : Nat) (f : Nat → Matrix (Fin n) (Fin m) α) (p : Nat) :
    (ofMats bs n m f).matAt n m p = f p := by
  ext i j; exact ofMats_flat bs n m f p i j

theorem reshape_ok (t : Tensor α) (s : List Nat) (h : s.prod = t.shape.prod) :
    t.reshape s = .ok ⟨s, t.flat⟩ := if_pos h

theorem reshape_err (t : Tensor α) (s : List Nat) (h : s.prod ≠ t.shape.prod) :
    t.reshape s = .error .value := if_neg h

@[simp] theorem matAt_mk (t : Tensor α) (s : List Nat) (n m p : Nat) :
    (⟨s, t.flat⟩ : Tensor α).matAt n m p = t.matAt n m p := rfl

theorem solve_ok (bs : List Nat) (n m : Nat) (A B : Tensor ℝ) (hA : A.shape = bs ++ [n, n])
    (hB : B.shape = bs ++ [n, m]) (hd : ∀ p < bs.prod, (A.matAt n n p).det ≠ 0) :
    ∃ F, solve bs n m A B = .ok F ∧ F.shape = bs ++ [n, m] ∧
      ∀ p, F.matAt n m p = (A.matAt n n p)⁻¹ * B.matAt n m p := by
  unfold solve
  rw [if_pos ⟨hA, hB⟩, if_pos hd]
  exact ⟨_, rfl, rfl, fun p => matAt_ofMats bs n m _ p⟩

theorem solve_sing (bs : List Nat) (n m : Nat) (A B : Tensor ℝ) (hA : A.shape = bs ++ [n, n])
    (hB : B.shape = bs ++ [n, m]) (p : Nat) (hp : p < bs.prod) (hd : (A.matAt n n p).det = 0) :
    solve bs n m A B = .error .linAlg := by
  unfold solve
  rw [if_pos ⟨hA, hB⟩, if_neg (fun h => h p hp hd)]

theorem matmulT_ok (bs : List Nat) (n m e : Nat) (A B : Tensor ℝ) (hA : A.shape = bs ++ [n, m])
    (hB : B.shape = bs ++ [n, e]) :
    ∃ F, matmulT bs n m e A B = .ok F ∧ F.shape = bs ++ [m, e] ∧
      ∀ p, F.matAt m e p = (A.matAt n m p).transpose * B.matAt n e p := by
  unfold matmulT
  rw [if_pos ⟨hA, hB⟩]
  exact ⟨_, rfl, rfl, fun p => matAt_ofMats bs m e _ p⟩

end Tensor
end Py
