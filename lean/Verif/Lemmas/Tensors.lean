import Verif.Model.Tensors
import Mathlib.Tactic.Ring

/-! # Lemmas about indexing and broadcasting -/

namespace Py.Tensor
variable {α β γ : Type _}

theorem take_ok (data : Tensor α) (idx : Tensor Int) (N : Nat) (rest : List Nat)
    (hd : data.shape = N :: rest) (hv : ∀ k < idx.shape.prod, validIndex N (idx.flat k)) :
    data.take idx = .ok ⟨idx.shape ++ rest,
      fun k => data.flat (wrapIndex N (idx.flat (k / rest.prod)) * rest.prod + k % rest.prod)⟩ := by
  unfold take
  rw [hd]
  simp only
  rw [if_pos hv]

theorem take_bad (data : Tensor α) (idx : Tensor Int) (N : Nat) (rest : List Nat)
    (hd : data.shape = N :: rest) (k : Nat) (hk : k < idx.shape.prod)
    (hv : ¬ validIndex N (idx.flat k)) : data.take idx = .error .index := by
  unfold take
  rw [hd]
  simp only
  rw [if_neg (fun h => hv (h k hk))]

theorem wrapIndex_lt {N : Nat} {i : Int} (h : validIndex N i) : wrapIndex N i < N := by
  unfold validIndex at h
  unfold wrapIndex
  split_ifs with h0
  · omega
  · omega

theorem wrapIndex_nonneg {N : Nat} {i : Nat} : wrapIndex N (i : Int) = i := by
  unfold wrapIndex
  rw [if_neg (by omega)]
  simp

theorem div_aux {i f c : Nat} (h : c < f) : (i * f + c) / f = i := by
  rw [Nat.add_comm, Nat.add_mul_div_right _ _ (by omega), Nat.div_eq_of_lt h, Nat.zero_add]

theorem mod_aux {i f c : Nat} (h : c < f) : (i * f + c) % f = c := by
  rw [Nat.add_comm, Nat.add_mul_mod_self_right, Nat.mod_eq_of_lt h]

@[simp] theorem bcAxis_self (a : Nat) : bcAxis a a = some a := by simp [bcAxis]

@[simp] theorem bcAxis_one_left (a : Nat) : bcAxis 1 a = some a := by
  by_cases h : a = 1 <;> simp [bcAxis, h, eq_comm]

@[simp] theorem bcAxis_one_right (a : Nat) : bcAxis a 1 = some a := by
  by_cases h : a = 1 <;> simp [bcAxis, h]

theorem clip_of_lt {a i : Nat} (h : i < a) : (if a = 1 then 0 else i) = i := by
  split_ifs with h1
  · omega
  · rfl

theorem bop_get (f : α → β → γ) (a : Tensor α) (b : Tensor β) (s : List Nat)
    (hs : bcShape a.shape b.shape = some s) :
    ∃ t, bop f a b = .ok t ∧ t.shape = s ∧ ∀ idx, List.Forall₂ (· < ·) idx s →
      t.get idx = f (a.get (clipIdx a.shape idx)) (b.get (clipIdx b.shape idx)) := by
  refine ⟨ofFn s fun idx => f (a.get (clipIdx a.shape idx)) (b.get (clipIdx b.shape idx)), ?_, rfl, ?_⟩
  · unfold bop; rw [hs]
  · intro idx h
    exact get_ofFn s _ idx h

theorem lt3 {i j k a b c : Nat} (h1 : i < a) (h2 : j < b) (h3 : k < c) :
    List.Forall₂ (· < ·) [i, j, k] [a, b, c] := .cons h1 (.cons h2 (.cons h3 .nil))

theorem lt4 {i j k l a b c d : Nat} (h1 : i < a) (h2 : j < b) (h3 : k < c) (h4 : l < d) :
    List.Forall₂ (· < ·) [i, j, k, l] [a, b, c, d] :=
  .cons h1 (.cons h2 (.cons h3 (.cons h4 .nil)))

theorem get4 (t : Tensor α) {a b c d : Nat} (h : t.shape = [a, b, c, d]) (i j k l : Nat) :
    t.get [i, j, k, l] = t.flat (i * (b * (c * d)) + (j * (c * d) + (k * d + l))) := by
  simp [get, h, ravel]

end Py.Tensor
