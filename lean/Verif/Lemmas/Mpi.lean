import Verif.Model.Mpi
import Mathlib.Data.List.Basic
import Mathlib.Algebra.BigOperators.Group.List.Basic
import Mathlib.Tactic.Ring
import Mathlib.Tactic.Linarith

namespace MuyGPyS.Mpi
open Py

theorem sum_step (n k f : Nat) :
    ((List.range n).map fun i => if i ≥ k then f + 1 else f).sum = n * f + (n - k) := by
  induction n with
  | zero => simp
  | succ n ih =>
    rw [List.range_succ, List.map_append, List.sum_append, ih]
    simp only [List.map_cons, List.map_nil, List.sum_cons, List.sum_nil, Nat.add_zero]
    split <;> rename_i h
    · rw [Nat.succ_mul]; omega
    · rw [Nat.succ_mul]; omega

theorem getChunkSizes_ok {count size : Nat} (h : 0 < size) :
    getChunkSizes count size = .ok ((List.range size).map fun i =>
      if i ≥ size - (count - count / size * size) then count / size + 1 else count / size) := by
  unfold getChunkSizes
  rw [if_neg (by omega)]

theorem chunk_sum {count size : Nat} (h : 0 < size) :
    ((List.range size).map fun i =>
      if i ≥ size - (count - count / size * size) then count / size + 1 else count / size).sum
      = count := by
  rw [sum_step]
  have h1 : count % size < size := Nat.mod_lt _ h
  have h2 := Nat.div_add_mod count size
  have h3 : size * (count / size) = count / size * size := Nat.mul_comm _ _
  omega

theorem flatten_slices {α : Type _} (cs : List Nat) (arg : List α) (n : Nat) (hn : n ≤ cs.length) :
    ((List.range n).map fun i =>
      pySlice arg ((cs.take i).sum) ((cs.take i).sum + cs.getD i 0)).flatten
      = arg.take ((cs.take n).sum) := by
  induction n with
  | zero => simp
  | succ n ih =>
    rw [List.range_succ, List.map_append, List.flatten_append, ih (by omega)]
    have hlt : n < cs.length := by omega
    have : (cs.take (n+1)).sum = (cs.take n).sum + cs.getD n 0 := by
      rw [List.take_add_one, List.sum_append]
      simp [List.getD, hlt]
    rw [this]
    simp only [List.map_cons, List.map_nil, List.flatten_cons, List.flatten_nil, List.append_nil,
      pySlice]
    conv_rhs => rw [← List.take_append_drop (cs.take n).sum
      (arg.take ((cs.take n).sum + cs.getD n 0))]
    rw [List.take_take, Nat.min_eq_left (by omega)]

theorem slices_eq {α : Type _} (size : Nat) (cs : List Nat) (args : List (List α)) :
    prepareParallelData size cs args = args.map fun arg =>
      (List.range size).map fun i =>
        pySlice arg ((cs.take i).sum) ((cs.take i).sum + cs.getD i 0) := by
  unfold prepareParallelData
  refine List.map_congr_left fun arg _ => ?_
  refine List.map_congr_left fun i hi => ?_
  have hi' : i < size := List.mem_range.1 hi
  simp [List.getD, hi']

theorem take_sum_le (cs : List Nat) (i : Nat) : (cs.take (i+1)).sum ≤ cs.sum := by
  conv_rhs => rw [← List.take_append_drop (i+1) cs]
  rw [List.sum_append]; omega

/-! ### protocol lemmas -/

/-- what rank `r` must receive in total -/
def expected {μ : Type _} (size : Nat) (tc : List (List μ)) (r : Nat) : List μ :=
  if 1 ≤ r ∧ r < size then tc.filterMap (fun chunks => chunks[r]?) else []

def toR {μ : Type _} (r : Nat) (l : List (Nat × μ)) : List μ :=
  l.filterMap fun p => if p.1 = r then some p.2 else none

theorem toR_append {μ : Type _} (r : Nat) (l m : List (Nat × μ)) :
    toR r (l ++ m) = toR r l ++ toR r m := by simp [toR]

theorem toR_chunk {μ : Type _} (r : Nat) (hr : r ≠ 0) (chunks : List μ) :
    toR r ((chunks.zipIdx.filter fun p => p.2 ≠ 0).map fun p => (p.2, p.1))
      = (chunks[r]?).toList := by
  have gen : ∀ (l : List μ) (k : Nat), toR r (((l.zipIdx k).filter fun p => p.2 ≠ 0).map fun p => (p.2, p.1))
      = if k ≤ r then (l[r - k]?).toList else [] := by
    intro l
    induction l with
    | nil => intro k; simp [toR]
    | cons a l ih =>
      intro k
      have ih' := ih (k+1)
      simp only [List.zipIdx_cons, List.filter_cons]
      by_cases hk0 : k = 0
      · subst hk0
        simp only [ne_eq, not_true_eq_false, decide_false, Bool.false_eq_true, if_false]
        simp only [ne_eq] at ih'
        rw [ih']
        have : 1 ≤ r := by omega
        simp only [Nat.zero_add, this, if_true, Nat.zero_le, Nat.sub_zero]
        obtain ⟨r', rfl⟩ : ∃ r', r = r' + 1 := ⟨r - 1, by omega⟩
        simp
      · simp only [ne_eq, hk0, not_false_eq_true, decide_true, if_true, List.map_cons]
        by_cases hkr : k = r
        · subst hkr
          have h2 : ¬ (k + 1 ≤ k) := by omega
          rw [if_neg h2] at ih'
          simp only [toR, List.filterMap_cons] at ih' ⊢
          simp only [ne_eq] at ih'
          rw [ih']; simp
        · have : toR r ((k, a) :: List.map (fun p => (p.2, p.1)) (List.filter (fun p => decide ¬p.2 = 0) (l.zipIdx (k + 1))))
            = toR r (List.map (fun p => (p.2, p.1)) (List.filter (fun p => decide ¬p.2 = 0) (l.zipIdx (k + 1)))) := by
            simp [toR, hkr]
          simp only [ne_eq] at ih'
          rw [this, ih']
          by_cases h3 : k ≤ r
          · have h4 : k + 1 ≤ r := by omega
            rw [if_pos h3, if_pos h4]
            have : r - k = (r - (k+1)) + 1 := by omega
            rw [this]; simp
          · rw [if_neg h3, if_neg (by omega)]
  have := gen chunks 0
  simpa using this

theorem toR_rootSends {μ : Type _} (r : Nat) (hr : r ≠ 0) (tc : List (List μ)) :
    toR r (rootSends tc) = tc.filterMap (fun chunks => chunks[r]?) := by
  induction tc with
  | nil => simp [rootSends, toR]
  | cons c tc ih =>
    have : rootSends (c :: tc) = ((c.zipIdx.filter fun p => p.2 ≠ 0).map fun p => (p.2, p.1)) ++ rootSends tc := by
      simp [rootSends]
    rw [this, toR_append, toR_chunk r hr, ih]
    cases h : c[r]? <;> simp [h]

theorem dest_rootSends {μ : Type _} {size : Nat} {tc : List (List μ)}
    (hlen : ∀ c ∈ tc, c.length = size) {p : Nat × μ} (hp : p ∈ rootSends tc) :
    1 ≤ p.1 ∧ p.1 < size := by
  simp only [rootSends, List.mem_flatMap, List.mem_map, List.mem_filter] at hp
  obtain ⟨c, hc, q, ⟨hq, hq0⟩, rfl⟩ := hp
  obtain ⟨v, i⟩ := q
  have := List.mem_zipIdx hq
  have := hlen c hc
  simp at hq0 ⊢
  omega

structure Inv {μ : Type _} (size : Nat) (tc : List (List μ)) (s : Net μ) : Prop where
  flow : ∀ r, 1 ≤ r → r < size →
    s.got r ++ s.chan r ++ toR r s.pending = tc.filterMap (fun chunks => chunks[r]?)
  count : ∀ r, 1 ≤ r → r < size →
    s.toRecv r + (s.got r).length = (tc.filterMap (fun chunks => chunks[r]?)).length
  dest : ∀ p ∈ s.pending, 1 ≤ p.1 ∧ p.1 < size
  out : ∀ r, ¬ (1 ≤ r ∧ r < size) → s.chan r = [] ∧ s.toRecv r = 0 ∧ s.got r = []

theorem filterMap_len {μ : Type _} {size r : Nat} {tc : List (List μ)} (hr : r < size)
    (hlen : ∀ c ∈ tc, c.length = size) :
    (tc.filterMap (fun chunks => chunks[r]?)).length = tc.length := by
  induction tc with
  | nil => simp
  | cons c tc ih =>
    have hc : c.length = size := hlen c (by simp)
    have h1 : c[r]? = some (c[r]'(by omega)) := List.getElem?_eq_getElem _
    rw [List.filterMap_cons, h1]
    simp [ih (fun c' h' => hlen c' (by simp [h']))]

theorem inv_init {μ : Type _} {size : Nat} {tc : List (List μ)}
    (hlen : ∀ c ∈ tc, c.length = size) : Inv size tc (initNet size tc.length tc) := by
  constructor
  · intro r h1 h2
    simp only [initNet, List.nil_append]
    exact toR_rootSends r (by omega) tc
  · intro r h1 h2
    simp only [initNet, h1, h2, and_self, if_true, List.length_nil, Nat.add_zero]
    exact (filterMap_len h2 hlen).symm
  · intro p hp; exact dest_rootSends hlen hp
  · intro r hr; simp [initNet, hr]

theorem inv_step {μ : Type _} {size : Nat} {tc : List (List μ)} {s t : Net μ}
    (hi : Inv size tc s) (hs : Step s t) : Inv size tc t := by
  cases hs with
  | @buffer r m rest h =>
    have hd := hi.dest (r, m) (by rw [h]; simp)
    refine ⟨?_, ?_, ?_, ?_⟩
    · intro q h1 h2
      have := hi.flow q h1 h2
      rw [h] at this
      by_cases hq : q = r
      · subst hq; simp [upd]; simp [toR] at this ⊢; simpa using this
      · have hq' : ¬ r = q := fun e => hq e.symm
        simp [upd, hq]; simp [toR, hq'] at this ⊢; simpa using this
    · intro q h1 h2; exact hi.count q h1 h2
    · intro p hp; exact hi.dest p (by rw [h]; simp [hp])
    · intro q hq
      have hqr : q ≠ r := by rintro rfl; exact hq hd
      have := hi.out q hq
      simpa [upd, hqr] using this
  | @rendezvous r m rest h hc hr =>
    have hd := hi.dest (r, m) (by rw [h]; simp)
    refine ⟨?_, ?_, ?_, ?_⟩
    · intro q h1 h2
      have := hi.flow q h1 h2
      rw [h] at this
      by_cases hq : q = r
      · subst hq; simp [upd, hc]; simp [toR, hc] at this ⊢; simpa using this
      · have hq' : ¬ r = q := fun e => hq e.symm
        simp [upd, hq]; simp [toR, hq'] at this ⊢; simpa using this
    · intro q h1 h2
      have := hi.count q h1 h2
      by_cases hq : q = r
      · subst hq; simp [upd]; omega
      · simp [upd, hq]; exact this
    · intro p hp; exact hi.dest p (by rw [h]; simp [hp])
    · intro q hq
      have hqr : q ≠ r := by rintro rfl; exact hq hd
      have := hi.out q hq
      simpa [upd, hqr] using this
  | @recv r m ms hc hr =>
    have hd : 1 ≤ r ∧ r < size := by
      by_contra hn
      have := hi.out r hn
      omega
    refine ⟨?_, ?_, ?_, ?_⟩
    · intro q h1 h2
      have := hi.flow q h1 h2
      by_cases hq : q = r
      · subst hq; simp [upd]; simp [hc] at this ⊢; simpa using this
      · simp [upd, hq]; simpa using this
    · intro q h1 h2
      have := hi.count q h1 h2
      by_cases hq : q = r
      · subst hq; simp [upd]; omega
      · simp [upd, hq]; exact this
    · intro p hp; exact hi.dest p hp
    · intro q hq
      have hqr : q ≠ r := by rintro rfl; exact hq hd
      have := hi.out q hq
      simpa [upd, hqr] using this

theorem inv_reach {μ : Type _} {size : Nat} {tc : List (List μ)} (hlen : ∀ c ∈ tc, c.length = size)
    {s : Net μ} (h : Reach (initNet size tc.length tc) s) : Inv size tc s := by
  induction h with
  | refl => exact inv_init hlen
  | step _ hs ih => exact inv_step ih hs

/-- messages still to be handled, counted over ranks `< size` -/
def measure {μ : Type _} (size : Nat) (s : Net μ) : Nat :=
  2 * s.pending.length + ((List.range size).map fun r => (s.chan r).length).sum

theorem sum_upd_lt {size r : Nat} (f g : Nat → Nat) (hr : r < size)
    (hne : ∀ q, q ≠ r → g q = f q) :
    ((List.range size).map g).sum + f r = ((List.range size).map f).sum + g r := by
  induction size with
  | zero => omega
  | succ n ih =>
    rw [List.range_succ, List.map_append, List.map_append, List.sum_append, List.sum_append]
    simp only [List.map_cons, List.map_nil, List.sum_cons, List.sum_nil, Nat.add_zero]
    by_cases h : r = n
    · subst h
      have : (List.range r).map g = (List.range r).map f := by
        refine List.map_congr_left fun q hq => hne q ?_
        have := List.mem_range.1 hq; omega
      rw [this]; omega
    · have h1 := ih (by omega)
      have h2 := hne n (fun e => h e.symm)
      omega

theorem measure_step {μ : Type _} {size : Nat} {tc : List (List μ)} {s t : Net μ}
    (hi : Inv size tc s) (hs : Step s t) : measure size t < measure size s := by
  cases hs with
  | @buffer r m rest h =>
    have hd := hi.dest (r, m) (by rw [h]; simp)
    have := sum_upd_lt (size := size) (r := r) (fun q => (s.chan q).length)
      (fun q => (upd s.chan r (s.chan r ++ [m]) q).length) hd.2
      (by intro q hq; simp [upd, hq])
    simp [upd] at this
    simp [measure, h, upd]
    omega
  | @rendezvous r m rest h hc hr =>
    simp [measure, h]
  | @recv r m ms hc hr =>
    have hd : 1 ≤ r ∧ r < size := by
      by_contra hn
      have := hi.out r hn
      omega
    have := sum_upd_lt (size := size) (r := r) (fun q => (s.chan q).length)
      (fun q => (upd s.chan r ms q).length) hd.2
      (by intro q hq; simp [upd, hq])
    simp [upd, hc] at this
    simp [measure, upd]
    omega

theorem run_reach {μ : Type _} {n : Nat} {s t : Net μ} (h : Run n s t) : Reach s t := by
  induction h with
  | zero => exact .refl
  | succ _ hs ih => exact .step ih hs

theorem run_measure {μ : Type _} {size : Nat} {tc : List (List μ)}
    (hlen : ∀ c ∈ tc, c.length = size) {n : Nat} {s : Net μ}
    (h : Run n (initNet size tc.length tc) s) :
    n + measure size s ≤ measure size (initNet size tc.length tc) := by
  generalize hs0 : initNet size tc.length tc = s0 at h
  induction h with
  | zero => omega
  | @succ n s t u hr hs ih =>
    have h1 := ih hs0
    have h2 : Reach (initNet size tc.length tc) t := hs0 ▸ run_reach hr
    have := measure_step (inv_reach hlen h2) hs
    omega

theorem rootSends_length {μ : Type _} {size : Nat} (hs : 1 ≤ size) {tc : List (List μ)}
    (hlen : ∀ c ∈ tc, c.length = size) : (rootSends tc).length = tc.length * (size - 1) := by
  induction tc with
  | nil => simp [rootSends]
  | cons c tc ih =>
    have : rootSends (c :: tc) = ((c.zipIdx.filter fun p => p.2 ≠ 0).map fun p => (p.2, p.1)) ++ rootSends tc := by
      simp [rootSends]
    rw [this, List.length_append, ih (fun c' h' => hlen c' (by simp [h'])), List.length_map]
    have hc : c.length = size := hlen c (by simp)
    have key : (c.zipIdx.filter fun p => p.2 ≠ 0).length = size - 1 := by
      cases c with
      | nil => simp at hc; omega
      | cons a l =>
        simp only [List.zipIdx_cons, List.filter_cons]
        simp only [ne_eq, not_true_eq_false, decide_false, Bool.false_eq_true, if_false]
        rw [List.filter_eq_self.2]
        · simp at hc ⊢; omega
        · rintro ⟨v, i⟩ hv
          have := List.mem_zipIdx hv
          simp; omega
    rw [key]; simp [Nat.succ_mul, Nat.add_comm]

/-! ### schedule-independent facts for arbitrary send programs -/

structure GInv {μ : Type _} (s0 s : Net μ) : Prop where
  flow : ∀ r, s.got r ++ s.chan r ++ toR r s.pending = s0.got r ++ s0.chan r ++ toR r s0.pending
  count : ∀ r, s.toRecv r + (s.got r).length = s0.toRecv r + (s0.got r).length

theorem ginv_reach {μ : Type _} {s0 s : Net μ} (h : Reach s0 s) : GInv s0 s := by
  induction h with
  | refl => exact ⟨fun _ => rfl, fun _ => rfl⟩
  | @step s t _ hs hi =>
    cases hs with
    | @buffer r m rest h =>
      refine ⟨?_, fun q => hi.count q⟩
      intro q
      have := hi.flow q
      rw [h] at this
      by_cases hq : q = r
      · subst hq; rw [← this]; simp [upd, toR]
      · have hq' : ¬ r = q := fun e => hq e.symm
        rw [← this]; simp [upd, hq, toR, hq']
    | @rendezvous r m rest h hc hr =>
      refine ⟨?_, ?_⟩
      · intro q
        have := hi.flow q
        rw [h] at this
        by_cases hq : q = r
        · subst hq; rw [← this]; simp [upd, hc, toR]
        · have hq' : ¬ r = q := fun e => hq e.symm
          rw [← this]; simp [upd, hq, toR, hq']
      · intro q
        have := hi.count q
        by_cases hq : q = r
        · subst hq; simp [upd]; omega
        · simp [upd, hq]; exact this
    | @recv r m ms hc hr =>
      refine ⟨?_, ?_⟩
      · intro q
        have := hi.flow q
        by_cases hq : q = r
        · subst hq; rw [← this]; simp [upd, hc]
        · rw [← this]; simp [upd, hq]
      · intro q
        have := hi.count q
        by_cases hq : q = r
        · subst hq; simp [upd]; omega
        · simp [upd, hq]; exact this

theorem stuck_pending {μ : Type _} {s : Net μ} (h : ∀ t, ¬ Step s t) : s.pending = [] := by
  match hp : s.pending with
  | [] => rfl
  | (r, m) :: rest => exact absurd (Step.buffer hp) (h _)

theorem stuck_recv {μ : Type _} {s : Net μ} (h : ∀ t, ¬ Step s t) (r : Nat) :
    s.toRecv r = 0 ∨ s.chan r = [] := by
  match hc : s.chan r with
  | [] => right; rfl
  | m :: ms =>
    left
    by_contra hr
    exact h _ (Step.recv hc (by omega))

theorem slice_length {α : Type _} (cs : List Nat) (arg : List α) (i : Nat)
    (hs : cs.sum = arg.length) (hi : i < cs.length) :
    (pySlice arg ((cs.take i).sum) ((cs.take i).sum + cs.getD i 0)).length = cs.getD i 0 := by
  have h1 : (cs.take (i+1)).sum = (cs.take i).sum + cs.getD i 0 := by
    rw [List.take_add_one, List.sum_append]
    simp [List.getD, hi]
  have h2 := take_sum_le cs i
  simp only [pySlice, List.length_drop, List.length_take]
  omega

/-- the chunk list of a single tensor -/
def chunksOf {α : Type _} (size : Nat) (t : List α) : List (List α) :=
  let cs := (List.range size).map fun i =>
      if i ≥ size - (t.length - t.length / size * size) then t.length / size + 1
      else t.length / size
  (List.range size).map fun i => pySlice t ((cs.take i).sum) ((cs.take i).sum + cs.getD i 0)

theorem chunksOf_length {α : Type _} (size : Nat) (t : List α) :
    (chunksOf size t).length = size := by simp [chunksOf]

theorem chunksOf_flatten {α : Type _} {size : Nat} (h : 0 < size) (t : List α) :
    (chunksOf size t).flatten = t := by
  unfold chunksOf
  rw [flatten_slices _ _ _ (by simp)]
  have hc := chunk_sum (count := t.length) h
  rw [show ∀ l : List Nat, l.length = size → l.take size = l from
    fun l hl => List.take_of_length_le (by omega)]
  · rw [hc, List.take_length]
  · simp

theorem rootChunks_eq {α : Type _} {size : Nat} (h : 0 < size) (t : List α)
    (ts : List (List α)) (hl : ∀ u ∈ ts, u.length = t.length) :
    rootChunks size (t :: ts) = .ok ((t :: ts).map (chunksOf size)) := by
  show (do
    let chunkSizes ← getChunkSizes t.length size
    pure (prepareParallelData size chunkSizes (t :: ts)) : Res _) = _
  rw [getChunkSizes_ok h]
  show Except.ok _ = _
  rw [slices_eq]
  congr 1
  refine List.map_congr_left fun u hu => ?_
  have : u.length = t.length := by
    rcases List.mem_cons.1 hu with rfl | hu
    · rfl
    · exact hl u hu
  simp only [chunksOf, this]

theorem zipWith_slices {α β γ : Type _} (f : α → β → γ) (a : List α) (b : List β)
    (i j : Nat) : List.zipWith f (pySlice a i j) (pySlice b i j) = pySlice (List.zipWith f a b) i j := by
  simp [pySlice, List.drop_zipWith, List.take_zipWith]

theorem chunksOf_zipWith {α β γ : Type _} (f : α → β → γ) (size : Nat) (a : List α) (b : List β)
    (h : a.length = b.length) :
    List.zipWith (List.zipWith f) (chunksOf size a) (chunksOf size b)
      = chunksOf size (List.zipWith f a b) := by
  have hz : (List.zipWith f a b).length = a.length := by simp [h]
  simp only [chunksOf, ← h, hz]
  rw [List.zipWith_map, List.zipWith_self]
  refine List.map_congr_left fun i _ => ?_
  exact zipWith_slices f a b _ _

theorem chunksOf_map {α β : Type _} (f : α → β) (size : Nat) (a : List α) :
    (chunksOf size a).map (List.map f) = chunksOf size (a.map f) := by
  simp only [chunksOf, List.length_map, List.map_map]
  refine List.map_congr_left fun i _ => ?_
  simp [pySlice, List.map_drop, List.map_take]

end MuyGPyS.Mpi
