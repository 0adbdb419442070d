import Verif.Spec.Neighbors
import Verif.Props.Tensors

/-! # C41: neighbour queries; C32: neighbourhood updates -/

namespace MuyGPyS
open Py

theorem ofFn_get2 {α : Type} {m k : Nat} (g : List Nat → α) {i j : Nat} (hi : i < m) (hj : j < k) :
    (Tensor.ofFn [m, k] g).get [i, j] = g [i, j] :=
  Tensor.get_ofFn _ _ _ (.cons hi (.cons hj .nil))

theorem map_range_getD (l : List Nat) :
    ((List.range l.length).map fun j => ((l.getD j 0 : Nat) : Int)) = l.map Int.ofNat := by
  apply List.ext_getElem
  · simp
  · intro i h1 h2
    simp only [List.length_map, List.length_range] at h1
    simp [List.getD_eq_getElem?_getD, List.getElem?_eq_getElem h1]

/-- The result of a query: each row is the index's answer, and distances belong to the listed
indices. -/
theorem query_ok (w : NNWrapper) (hw : w.Exact) (s : Tensor ℝ) (m k : Nat) (hs : s.shape = [m, w.f])
    (hm : 0 < m) (hk : 0 < k) (hkN : k ≤ w.N) :
    ∃ I D, w.query s k = .ok (I, D) ∧ I.shape = [m, k] ∧ D.shape = [m, k] ∧
      (∀ i < m, rowList I k i = (w.answer (rowPt s w.f i) k).map Int.ofNat) ∧
      ∀ i < m, ∀ j < k, D.get [i, j] =
        (if w.squared then (w.dist (rowPt s w.f i) (rowPt w.train w.f (I.get [i, j]).toNat)) ^ 2
          else w.dist (rowPt s w.f i) (rowPt w.train w.f (I.get [i, j]).toNat)) := by
  have hT : asTable s = s := by unfold asTable; rw [hs]
  unfold NNWrapper.query
  simp only [hT, hs]
  rw [if_neg (by rintro (h | h | h | h) <;> first | omega | exact h rfl)]
  refine ⟨_, _, rfl, rfl, rfl, fun i hi => ?_, fun i hi j hj => ?_⟩
  · have hl := (hw.2 (rowPt s w.f i) k hkN).length
    unfold rowList
    rw [← map_range_getD, hl]
    refine List.map_congr_left fun j hj => ?_
    rw [ofFn_get2 _ hi (List.mem_range.mp hj)]
    rfl
  · rw [ofFn_get2 _ hi hj, ofFn_get2 _ hi hj]
    simp

/-- C41, plain queries: for every table of test points, `get_nns` returns for each of them `k`
different training indices, nearest first and no unlisted point nearer, and each distance is the
(squared, for the Euclidean metric) distance to the index in the same position. -/
theorem C41_plain (w : NNWrapper) (hw : w.Exact) (test : Tensor ℝ) (m : Nat)
    (ht : test.shape = [m, w.f]) (hm : 0 < m) (hk : 0 < w.nnCount) (hkN : w.nnCount ≤ w.N) :
    ∃ I D, w.getNns test = .ok (I, D) ∧ I.shape = [m, w.nnCount] ∧ D.shape = [m, w.nnCount] ∧
      (∀ i < m, ∃ l : List Nat, rowList I w.nnCount i = l.map Int.ofNat ∧
        Nearest (· < w.N) (fun j => w.dist (rowPt test w.f i) (rowPt w.train w.f j)) w.nnCount l) ∧
      ∀ i < m, ∀ j < w.nnCount, D.get [i, j] =
        (if w.squared then (w.dist (rowPt test w.f i) (rowPt w.train w.f (I.get [i, j]).toNat)) ^ 2
          else w.dist (rowPt test w.f i) (rowPt w.train w.f (I.get [i, j]).toNat)) := by
  obtain ⟨I, D, h1, h2, h3, h4, h5⟩ := query_ok w hw test m _ ht hm hk hkN
  exact ⟨I, D, h1, h2, h3, fun i hi => ⟨_, h4 i hi, hw.2 _ _ hkN⟩, h5⟩

/-- C41: queries for more neighbours than training points (or none, or with the wrong number of
features) are refused. -/
theorem C41_rejected (w : NNWrapper) (test : Tensor ℝ) (m g : Nat) (ht : test.shape = [m, g])
    (h : w.N < w.nnCount ∨ w.nnCount = 0 ∨ g ≠ w.f ∨ m = 0) : w.getNns test = .error .value := by
  have hT : asTable test = test := by unfold asTable; rw [ht]
  unfold NNWrapper.getNns NNWrapper.query
  simp only [hT, ht]
  rw [if_pos (by tauto)]

/-- C41: queries that are neither a vector nor a table are refused. -/
theorem C41_wrong_rank (w : NNWrapper) (test : Tensor ℝ) (h : test.shape.length ≠ 1 ∧ test.shape.length ≠ 2) :
    w.getNns test = .error .value := by
  obtain ⟨s, g⟩ := test
  unfold NNWrapper.getNns NNWrapper.query asTable
  match s, h with
  | [], _ => rfl
  | [_], h => simp at h
  | [_, _], h => simp at h
  | _ :: _ :: _ :: _, _ => rfl

theorem tail_pairwise {α : Type} {R : α → α → Prop} {l : List α} (h : l.Pairwise R) : l.tail.Pairwise R := by
  cases l with
  | nil => exact h
  | cons a l => exact (List.pairwise_cons.mp h).2

/-- The rows of `get_batch_nns`, whatever the data: the index's answer without its first entry. -/
theorem batch_ok (w : NNWrapper) (hw : w.Exact) (batch : Tensor Int) (b : Nat) (hb : batch.shape = [b])
    (hv : AllValid w.N batch) (hb0 : 0 < b) (hkN : w.nnCount + 1 ≤ w.N) :
    ∃ I D, w.getBatchNns batch = .ok (I, D) ∧ I.shape = [b, w.nnCount] ∧ D.shape = [b, w.nnCount] ∧
      ∀ i < b,
        let p := rowPt w.train w.f (pointOf w.N (batch.get [i]))
        rowList I w.nnCount i = ((w.answer p (w.nnCount + 1)).tail).map Int.ofNat ∧
        ∀ j < w.nnCount, D.get [i, j] =
          (if w.squared then (w.dist p (rowPt w.train w.f (I.get [i, j]).toNat)) ^ 2
            else w.dist p (rowPt w.train w.f (I.get [i, j]).toNat)) := by
  obtain ⟨S, s1, s2, s3⟩ := take_mat hw.1 hv
  rw [hb] at s2
  have s2' : S.shape = [b, w.f] := s2
  obtain ⟨I, D, h1, h2, h3, h4, h5⟩ := query_ok w hw S b (w.nnCount + 1) s2' hb0 (by omega) hkN
  have hrow : ∀ i < b, rowPt S w.f i = rowPt w.train w.f (pointOf w.N (batch.get [i])) := by
    intro i hi
    funext c
    unfold rowPt
    rw [Tensor.get2 S s2', Tensor.get1 _ hb, s3 i c c.2]
    unfold feature
    rw [hw.1]
  have d1 : dropFirstCol I = Tensor.ofFn [b, w.nnCount] fun idx => I.get [idx.getD 0 0, idx.getD 1 0 + 1] := by
    unfold dropFirstCol; rw [h2]; rfl
  have d2 : dropFirstCol D = Tensor.ofFn [b, w.nnCount] fun idx => D.get [idx.getD 0 0, idx.getD 1 0 + 1] := by
    unfold dropFirstCol; rw [h3]; rfl
  refine ⟨dropFirstCol I, dropFirstCol D, ?_, by rw [d1]; rfl, by rw [d2]; rfl, fun i hi => ⟨?_, ?_⟩⟩
  · unfold NNWrapper.getBatchNns
    rw [s1]
    simp only [bind, Except.bind, pure, Except.pure, h1]
  · have := h4 i hi
    rw [hrow i hi] at this
    rw [List.map_tail, ← this]
    unfold rowList
    rw [d1, ← List.map_tail, List.range_succ_eq_map, List.tail_cons, List.map_map]
    refine List.map_congr_left fun j hj => ?_
    rw [ofFn_get2 _ hi (List.mem_range.mp hj)]
    rfl
  · intro j hj
    rw [d1, d2, ofFn_get2 _ hi hj, ofFn_get2 _ hi hj]
    have := h5 i hi (j + 1) (by omega)
    rw [hrow i hi] at this
    exact this

/-- C41, batch queries when no other training point coincides with a batch point: each row lists the
`k` nearest *other* training points, all different, nearest first.
Partial: see `C41_duplicates_fail` for coincident training points. -/
theorem C41_batch_partial (w : NNWrapper) (hw : w.Exact) (batch : Tensor Int) (b : Nat)
    (hb : batch.shape = [b]) (hv : AllValid w.N batch) (hb0 : 0 < b) (hkN : w.nnCount + 1 ≤ w.N)
    (hself : ∀ x, w.dist x x = 0)
    (hsep : ∀ i < b, ∀ j < w.N, j ≠ pointOf w.N (batch.get [i]) →
      0 < w.dist (rowPt w.train w.f (pointOf w.N (batch.get [i]))) (rowPt w.train w.f j)) :
    ∃ I D, w.getBatchNns batch = .ok (I, D) ∧ I.shape = [b, w.nnCount] ∧ D.shape = [b, w.nnCount] ∧
      ∀ i < b,
        let self := pointOf w.N (batch.get [i])
        let p := rowPt w.train w.f self
        (∃ l : List Nat, rowList I w.nnCount i = l.map Int.ofNat ∧
          Nearest (fun j => j < w.N ∧ j ≠ self) (fun j => w.dist p (rowPt w.train w.f j)) w.nnCount l) ∧
        ∀ j < w.nnCount, D.get [i, j] =
          (if w.squared then (w.dist p (rowPt w.train w.f (I.get [i, j]).toNat)) ^ 2
            else w.dist p (rowPt w.train w.f (I.get [i, j]).toNat)) := by
  obtain ⟨I, D, h1, h2, h3, h4⟩ := batch_ok w hw batch b hb hv hb0 hkN
  refine ⟨I, D, h1, h2, h3, fun i hi => ⟨⟨_, (h4 i hi).1, ?_⟩, (h4 i hi).2⟩⟩
  set self := pointOf w.N (batch.get [i]) with hdef
  have hsl : self < w.N := by
    have hv1 := valid1 hb hv hi
    rw [hdef, pointOf, Tensor.wrapIndex]
    rw [Tensor.get1 _ hb] at *
    unfold Tensor.validIndex at hv1
    split <;> omega
  have hA := hw.2 (rowPt w.train w.f self) _ hkN
  generalize w.answer (rowPt w.train w.f self) (w.nnCount + 1) = l at hA
  match l, hA with
  | [], hA => exact absurd hA.length (by simp)
  | a :: t, hA =>
    have ha : a = self := by
      by_contra hne
      have haN := hA.mem a (by simp)
      have hpos := hsep i hi a haN hne
      by_cases hin : self ∈ a :: t
      · have : self ∈ t := by
          rcases List.mem_cons.mp hin with h | h
          · exact absurd h.symm hne
          · exact h
        have := (List.pairwise_cons.mp hA.sorted).1 self this
        simp only [hself] at this
        linarith
      · have := hA.nearest a (by simp) self hsl hin
        simp only [hself] at this
        linarith
    subst ha
    refine ⟨by simpa using hA.length, (List.nodup_cons.mp hA.nodup).2, fun j hj => ⟨hA.mem j (by simp [show j ∈ t from hj]), ?_⟩,
      (List.pairwise_cons.mp hA.sorted).2, fun x hx j hj hjn => ?_⟩
    · rintro rfl
      exact (List.nodup_cons.mp hA.nodup).1 hj
    · exact hA.nearest x (by simp [show x ∈ t from hx]) j hj.1 (by
        intro hm
        rcases List.mem_cons.mp hm with h | h
        · exact hj.2 h
        · exact hjn h)

/-- C41 without the assumption: the rows still hold `k` different valid indices in order of distance. -/
theorem C41_batch_always (w : NNWrapper) (hw : w.Exact) (batch : Tensor Int) (b : Nat)
    (hb : batch.shape = [b]) (hv : AllValid w.N batch) (hb0 : 0 < b) (hkN : w.nnCount + 1 ≤ w.N) :
    ∃ I D, w.getBatchNns batch = .ok (I, D) ∧ I.shape = [b, w.nnCount] ∧ D.shape = [b, w.nnCount] ∧
      ∀ i < b, ∃ l : List Nat, rowList I w.nnCount i = l.map Int.ofNat ∧ l.length = w.nnCount ∧ l.Nodup ∧
        (∀ j ∈ l, j < w.N) ∧
        l.Pairwise fun x y => w.dist (rowPt w.train w.f (pointOf w.N (batch.get [i]))) (rowPt w.train w.f x)
          ≤ w.dist (rowPt w.train w.f (pointOf w.N (batch.get [i]))) (rowPt w.train w.f y) := by
  obtain ⟨I, D, h1, h2, h3, h4⟩ := batch_ok w hw batch b hb hv hb0 hkN
  refine ⟨I, D, h1, h2, h3, fun i hi => ⟨_, (h4 i hi).1, ?_⟩⟩
  have hA := hw.2 (rowPt w.train w.f (pointOf w.N (batch.get [i]))) _ hkN
  refine ⟨by simp [hA.length], tail_pairwise hA.nodup, fun j hj => hA.mem j (List.mem_of_mem_tail hj),
    tail_pairwise hA.sorted⟩

/-- C41 is false of the code when training points coincide: for `N ≥ 2` equal training points and any
metric there is an exact nearest-neighbour index for which the neighbours returned for a training
point start with that very point. -/
theorem C41_duplicates_fail (N f k : Nat) (hk : 0 < k) (hkN : k + 1 ≤ N) (c : ℝ)
    (dist : (Fin f → ℝ) → (Fin f → ℝ) → ℝ) (sq : Bool) :
    ∃ answer, let w : NNWrapper := ⟨N, f, ⟨[N, f], fun _ => c⟩, k, dist, sq, answer⟩
      w.Exact ∧ ∃ I D, w.getBatchNns ⟨[1], fun _ => ((N - 2 : Nat) : Int)⟩ = .ok (I, D) ∧
        I.get [0, 0] = ((N - 2 : Nat) : Int) := by
  let w : NNWrapper := ⟨N, f, ⟨[N, f], fun _ => c⟩, k, dist, sq, fun _ k => (List.range N).reverse.take k⟩
  have hsame : ∀ i, rowPt w.train f i = fun _ => c := fun i => by funext x; rfl
  have hw : w.Exact := by
    refine ⟨rfl, fun q k hk => ⟨?_, ?_, ?_, ?_, ?_⟩⟩
    · show ((List.range N).reverse.take k).length = k
      simp only [List.length_take, List.length_reverse, List.length_range]
      exact Nat.min_eq_left hk
    · exact (List.nodup_reverse.mpr List.nodup_range).sublist (List.take_sublist _ _)
    · intro i hi
      have := List.mem_of_mem_take hi
      simpa using this
    · apply List.pairwise_of_forall
      intro a b
      show dist q (rowPt w.train f a) ≤ dist q (rowPt w.train f b)
      rw [hsame, hsame]
    · intro i _ j _ _
      show dist q (rowPt w.train f i) ≤ dist q (rowPt w.train f j)
      rw [hsame, hsame]
  refine ⟨fun _ k => (List.range N).reverse.take k, hw, ?_⟩
  obtain ⟨I, D, h1, h2, _, h4⟩ := batch_ok w hw ⟨[1], fun _ => ((N - 2 : Nat) : Int)⟩ 1 rfl
    (fun j _ => by show Tensor.validIndex N _; unfold Tensor.validIndex; simp only; omega) (by omega) hkN
  refine ⟨I, D, h1, ?_⟩
  have h := congrArg (fun l => l[0]?) (h4 0 (by omega)).1
  simp only [rowList, List.getElem?_map, List.getElem?_range (show 0 < w.nnCount from hk)] at h
  have e : ((w.answer (rowPt w.train w.f (pointOf w.N (Tensor.get ⟨[1], fun _ => ((N - 2 : Nat) : Int)⟩ [0])))
      (w.nnCount + 1)).tail)[0]? = some (N - 2) := by
    show (((List.range N).reverse.take (k + 1)).tail)[0]? = some (N - 2)
    rw [List.getElem?_tail, List.getElem?_take, if_pos (by omega),
      List.getElem?_reverse (by simp; omega), List.length_range, List.getElem?_range (by omega)]
    congr 1
  rw [e] at h
  simpa using h

/-- An exact index: sort the training points by distance; among equidistant points the lower index comes first (the sort is stable). -/
noncomputable def lowestFirst (N f : Nat) (train : Tensor ℝ) (dist : (Fin f → ℝ) → (Fin f → ℝ) → ℝ) (q : Fin f → ℝ) (k : Nat) : List Nat :=
  ((List.range N).mergeSort fun a b => decide (dist q (rowPt train f a) ≤ dist q (rowPt train f b))).take k

theorem lowestFirst_exact (N f k : Nat) (train : Tensor ℝ) (ht : train.shape = [N, f])
    (dist : (Fin f → ℝ) → (Fin f → ℝ) → ℝ) (sq : Bool) : NNWrapper.Exact ⟨N, f, train, k, dist, sq, lowestFirst N f train dist⟩ := by
  let le (q : Fin f → ℝ) (a b : Nat) : Bool := decide (dist q (rowPt train f a) ≤ dist q (rowPt train f b))
  refine ⟨ht, fun q k hk => ?_⟩
  show Nearest _ _ k (((List.range N).mergeSort (le q)).take k)
  have hperm := List.mergeSort_perm (List.range N) (le q)
  have hsort : ((List.range N).mergeSort (le q)).Pairwise fun a b => le q a b = true :=
    List.pairwise_mergeSort (fun a b c h1 h2 => by simp only [le, decide_eq_true_eq] at *; linarith)
      (fun a b => by simp only [le, Bool.or_eq_true, decide_eq_true_eq]; exact le_total _ _) _
  have hsort' : ((List.range N).mergeSort (le q)).Pairwise fun a b =>
      dist q (rowPt train f a) ≤ dist q (rowPt train f b) :=
    hsort.imp fun h => by simpa [le] using h
  refine ⟨?_, ?_, ?_, ?_, ?_⟩
  · simp only [List.length_take, hperm.length_eq, List.length_range]
    exact Nat.min_eq_left hk
  · exact (hperm.nodup_iff.mpr List.nodup_range).sublist (List.take_sublist _ _)
  · intro i hi
    exact List.mem_range.mp (hperm.mem_iff.mp (List.mem_of_mem_take hi))
  · exact hsort'.sublist (List.take_sublist _ _)
  · intro i hi j hj hjn
    have hj' : j ∈ (List.range N).mergeSort (le q) := hperm.mem_iff.mpr (List.mem_range.mpr hj)
    rw [← List.take_append_drop k ((List.range N).mergeSort (le q)), List.pairwise_append] at hsort'
    rw [← List.take_append_drop k ((List.range N).mergeSort (le q)), List.mem_append] at hj'
    exact hsort'.2.2 i hi j (hj'.resolve_left hjn)

/-- Every training table, metric and neighbour count has an exact index (non-vacuity of `Exact`). -/
theorem exact_index_exists (N f k : Nat) (train : Tensor ℝ) (ht : train.shape = [N, f])
    (dist : (Fin f → ℝ) → (Fin f → ℝ) → ℝ) (sq : Bool) :
    ∃ answer, NNWrapper.Exact ⟨N, f, train, k, dist, sq, answer⟩ := ⟨_, lowestFirst_exact N f k train ht dist sq⟩

/-- Non-vacuity of C41: three different points on the line, two neighbours. -/
example : ∃ answer, let w : NNWrapper := ⟨3, 1, ⟨[3, 1], fun k => (k : ℝ)⟩, 2, fun x y => |x 0 - y 0|, false, answer⟩
    w.Exact ∧ (∀ x, w.dist x x = 0) ∧ w.nnCount + 1 ≤ w.N ∧
      ∀ i < w.N, ∀ j < w.N, j ≠ i → 0 < w.dist (rowPt w.train w.f i) (rowPt w.train w.f j) := by
  obtain ⟨answer, h⟩ := exact_index_exists 3 1 2 ⟨[3, 1], fun k => (k : ℝ)⟩ rfl (fun x y => |x 0 - y 0|) false
  refine ⟨answer, h, fun x => by simp, by simp, fun i _ j _ hji => ?_⟩
  simp only [rowPt, Tensor.get, Tensor.ravel]
  rw [abs_pos, sub_ne_zero]
  simpa using fun h => hji h.symm

end MuyGPyS
