import Verif.Lemmas.Mpi

/-!
# Properties C01–C04: distribution of tensors over MPI ranks
-/

namespace MuyGPyS.Mpi
open Py

/-- **C01.** For every row count and every positive number of ranks the library computes one size
per rank; they add up to the row count, differ by at most one, never decrease with the rank (so the
surplus goes to the highest ranks), and exactly `count % size` ranks get a surplus row. Zero ranks is an error. -/
theorem C01_chunk_sizes (count size : Nat) (h : 0 < size) :
    ∃ cs, getChunkSizes count size = .ok cs ∧ cs.length = size ∧ cs.sum = count ∧
      (∀ a ∈ cs, ∀ b ∈ cs, a ≤ b + 1) ∧ cs.Pairwise (· ≤ ·) ∧
      cs.count (count / size + 1) = count % size := by
  refine ⟨_, getChunkSizes_ok h, by simp, chunk_sum h, ?_, ?_, ?_⟩
  · intro a ha b hb
    simp only [List.mem_map] at ha hb
    obtain ⟨i, _, rfl⟩ := ha
    obtain ⟨j, _, rfl⟩ := hb
    split <;> split <;> omega
  · rw [List.pairwise_map]
    refine List.Pairwise.imp ?_ (List.pairwise_lt_range)
    intro a b hab
    split <;> split <;> omega
  · have hm : count - count / size * size = count % size := by
      have h2 := Nat.div_add_mod count size
      have h3 : size * (count / size) = count / size * size := Nat.mul_comm _ _
      omega
    rw [hm]
    have hlt := Nat.mod_lt count h
    generalize count % size = r at *
    generalize count / size = f
    have gen : ∀ n k, ((List.range n).map fun i => if i ≥ k then f + 1 else f).count (f+1) = n - k := by
      intro n k
      induction n with
      | zero => simp
      | succ n ih =>
        rw [List.range_succ, List.map_append, List.count_append, ih]
        simp only [List.map_cons, List.map_nil]
        split
        · simp; omega
        · simp; omega
    rw [gen]; omega

/-- C01, rejected input: zero ranks raises instead of returning sizes. -/
theorem C01_zero_ranks (count : Nat) : getChunkSizes count 0 = .error .zeroDivision := rfl

example : getChunkSizes 11 4 = .ok [2, 3, 3, 3] := by decide
example : getChunkSizes 2 4 = .ok [0, 0, 1, 1] := by decide

/-- **C02.** For every positive number of ranks and every non-empty list of tensors with the same
number of rows, chunking succeeds, produces one chunk per rank for every tensor, with the sizes of
C01, and gathering the chunks in rank order gives back every tensor. -/
theorem C02_chunk_unchunk {α : Type _} (size : Nat) (h : 0 < size) (t : List α)
    (ts : List (List α)) (hl : ∀ u ∈ ts, u.length = t.length) :
    ∃ chunks sizes, rootChunks size (t :: ts) = .ok chunks ∧
      getChunkSizes t.length size = .ok sizes ∧
      chunks.map unchunk = t :: ts ∧
      (∀ c ∈ chunks, c.map List.length = sizes) := by
  refine ⟨_, _, rootChunks_eq h t ts hl, getChunkSizes_ok h, ?_, ?_⟩
  · rw [List.map_map]
    conv_rhs => rw [← List.map_id (t :: ts)]
    refine List.map_congr_left fun u _ => ?_
    exact chunksOf_flatten h u
  · intro c hc
    obtain ⟨u, hu, rfl⟩ := List.mem_map.1 hc
    have hul : u.length = t.length := by
      rcases List.mem_cons.1 hu with rfl | hu
      · rfl
      · exact hl u hu
    simp only [chunksOf, hul, List.map_map]
    refine List.map_congr_left fun i hi => ?_
    have hi' := List.mem_range.1 hi
    simp only [Function.comp]
    rw [slice_length _ _ _ (by rw [hul]; exact chunk_sum h) (by simpa using hi')]
    simp [List.getD, hi']

/-- C02, rejected input: chunking no tensors raises. -/
theorem C02_no_tensor {α : Type _} (size : Nat) :
    rootChunks size ([] : List (List α)) = .error .index := rfl

example : rootChunks 3 [[1, 2, 3, 4], [5, 6, 7, 8]] =
    .ok [[[1], [2], [3, 4]], [[5], [6], [7, 8]]] := by decide

/-- **C03.** Let rank 0 hold `tc`, the chunks (one per rank) of `tc.length` tensors, and let all
ranks execute the scatter. Under every schedule:
(1) in every reachable state from which no step is possible, every rank `1 ≤ r < size` has received
exactly its own chunk of every tensor in tensor order, no receive is outstanding, no message is in
transit or unsent; rank 0's own result is its own chunk of every tensor;
(2) no reachable state with work left is stuck, even if sends never buffer (rendezvous only);
(3) every run has at most `2 * tensors * (size - 1)` steps, so the scatter always terminates. -/
theorem C03_scatter_all_schedules {μ : Type _} (size : Nat) (hs : 1 ≤ size) (tc : List (List μ))
    (hlen : ∀ c ∈ tc, c.length = size) :
    (∀ s, Reach (initNet size tc.length tc) s → (∀ t, ¬ Step s t) →
      (∀ r, 1 ≤ r → r < size → (s.got r).map some = tc.map (fun c => c[r]?)) ∧
      (∀ r, s.toRecv r = 0 ∧ s.chan r = []) ∧ s.pending = []) ∧
    (rootLocal tc).map some = tc.map (fun c => c[0]?) ∧
    (∀ s, Reach (initNet size tc.length tc) s →
      (s.pending ≠ [] ∨ ∃ r, s.chan r ≠ [] ∨ s.toRecv r ≠ 0) →
      (∃ r m ms, s.chan r = m :: ms ∧ 0 < s.toRecv r) ∨
      (∃ r m rest, s.pending = (r, m) :: rest ∧ s.chan r = [] ∧ 0 < s.toRecv r)) ∧
    (∀ n s, Run n (initNet size tc.length tc) s → n ≤ 2 * (tc.length * (size - 1))) := by
  have hmap : ∀ r, r < size →
      (tc.filterMap (fun chunks => chunks[r]?)).map some = tc.map (fun c => c[r]?) := by
    intro r hr
    clear hs
    induction tc with
    | nil => simp
    | cons c tc ih =>
      have hc : c.length = size := hlen c (by simp)
      have h1 : c[r]? = some (c[r]'(by omega)) := List.getElem?_eq_getElem _
      rw [List.filterMap_cons, List.map_cons, h1]
      simp [ih (fun c' h' => hlen c' (by simp [h']))]
  have hprog : ∀ s, Reach (initNet size tc.length tc) s →
      (s.pending ≠ [] ∨ ∃ r, s.chan r ≠ [] ∨ s.toRecv r ≠ 0) →
      (∃ r m ms, s.chan r = m :: ms ∧ 0 < s.toRecv r) ∨
      (∃ r m rest, s.pending = (r, m) :: rest ∧ s.chan r = [] ∧ 0 < s.toRecv r) := by
    intro s hr hw
    have hi := inv_reach hlen hr
    by_cases hch : ∃ r, s.chan r ≠ []
    · obtain ⟨r, hr'⟩ := hch
      left
      obtain ⟨m, ms, hm⟩ := List.exists_cons_of_ne_nil hr'
      refine ⟨r, m, ms, hm, ?_⟩
      have hd : 1 ≤ r ∧ r < size := by
        by_contra hn
        exact hr' (hi.out r hn).1
      have h1 := hi.flow r hd.1 hd.2
      have h2 := hi.count r hd.1 hd.2
      rw [← h1, hm] at h2
      simp at h2; omega
    · right
      have hch' : ∀ r, s.chan r = [] := by
        intro r; by_contra hn; exact hch ⟨r, hn⟩
      match hp : s.pending with
      | [] =>
        exfalso
        rcases hw with hw | ⟨r, hw | hw⟩
        · exact hw hp
        · exact hw (hch' r)
        · have hd : 1 ≤ r ∧ r < size := by
            by_contra hn
            exact hw (hi.out r hn).2.1
          have h1 := hi.flow r hd.1 hd.2
          have h2 := hi.count r hd.1 hd.2
          rw [← h1, hch' r, hp] at h2
          simp [toR] at h2; omega
      | (r, m) :: rest =>
        refine ⟨r, m, rest, rfl, hch' r, ?_⟩
        have hd := hi.dest (r, m) (by rw [hp]; simp)
        have h1 := hi.flow r hd.1 hd.2
        have h2 := hi.count r hd.1 hd.2
        rw [← h1, hch' r, hp] at h2
        simp [toR] at h2; omega
  refine ⟨?_, ?_, hprog, ?_⟩
  · intro s hr hstuck
    have hi := inv_reach hlen hr
    have hno : ¬ (s.pending ≠ [] ∨ ∃ r, s.chan r ≠ [] ∨ s.toRecv r ≠ 0) := by
      intro hw
      rcases hprog s hr hw with ⟨r, m, ms, hc, h0⟩ | ⟨r, m, rest, hp, hc, h0⟩
      · exact hstuck _ (Step.recv hc h0)
      · exact hstuck _ (Step.rendezvous hp hc h0)
    have hp : s.pending = [] := by
      by_contra hn; exact hno (Or.inl hn)
    have hc : ∀ r, s.toRecv r = 0 ∧ s.chan r = [] := by
      intro r
      constructor
      · by_contra hn; exact hno (Or.inr ⟨r, Or.inr hn⟩)
      · by_contra hn; exact hno (Or.inr ⟨r, Or.inl hn⟩)
    refine ⟨?_, hc, hp⟩
    intro r h1 h2
    have := hi.flow r h1 h2
    rw [(hc r).2, hp] at this
    simp [toR] at this
    rw [this]
    exact hmap r h2
  · have := hmap 0 (by omega)
    simpa [rootLocal, List.head?_eq_getElem?] using this
  · intro n s hrun
    have := run_measure hlen hrun
    have h2 : measure size (initNet size tc.length tc) = 2 * (tc.length * (size - 1)) := by
      simp [measure, initNet, rootSends_length hs hlen]
    omega

example : ∀ c ∈ [[[1], [2], [3, 4]], [[5], [6], [7, 8]]], c.length = 3 := by decide

/-- **C04.** For every row-wise operation on one tensor, computing it on the local chunks and
gathering equals computing it on the whole tensor. -/
theorem C04_rowwise {α β : Type _} (f : α → β) (size : Nat) (h : 0 < size) (t : List α) :
    ∃ chunks, rootChunks size [t] = .ok [chunks] ∧
      unchunk (chunks.map (List.map f)) = t.map f := by
  refine ⟨chunksOf size t, rootChunks_eq h t [] (by simp), ?_⟩
  rw [chunksOf_map]
  exact chunksOf_flatten h _

/-- **C04**, several argument tensors: for every row-wise operation on two tensors with equally many
rows (iterate for more), chunking the two tensors, computing locally and gathering equals computing
on the whole tensors. -/
theorem C04_rowwise_two {α β γ : Type _} (f : α → β → γ) (size : Nat) (h : 0 < size)
    (a : List α) (b : List β) (hab : a.length = b.length) :
    ∃ ca cb, rootChunks size [a] = .ok [ca] ∧ rootChunks size [b] = .ok [cb] ∧
      unchunk (List.zipWith (List.zipWith f) ca cb) = List.zipWith f a b := by
  refine ⟨chunksOf size a, chunksOf size b, rootChunks_eq h a [] (by simp),
    rootChunks_eq h b [] (by simp), ?_⟩
  rw [chunksOf_zipWith f size a b hab]
  exact chunksOf_flatten h _

example : ∃ ca cb, rootChunks 2 [[1, 2, 3]] = .ok [ca] ∧ rootChunks 2 [[10, 20, 30]] = .ok [cb] ∧
    unchunk (List.zipWith (List.zipWith (· + ·)) ca cb) = [11, 22, 33] :=
  ⟨_, _, rfl, rfl, rfl⟩

/-- **C04, where the code fails.** With at least two ranks and at least as many rows as ranks,
calling a deformation's `pairwise_tensor`/`crosswise_tensor` in the MPI backend chunks twice: in
every completed schedule every other rank holds the *unmeasured* chunk of the numpy tensor and
leaves one message unreceived, and the rows held by all ranks together are fewer than the rows of
the serial result. So the property fails for these methods. -/
theorem C04_nested_chunk_fails {α : Type _} (metric : α → α) (size : Nat) (h : 2 ≤ size)
    (rows : List α) (hr : size ≤ rows.length) :
    ∃ inner outer net, rootChunks size [rows] = .ok [inner] ∧
      nestedOuter metric size rows = .ok outer ∧ nestedInit metric size rows = .ok net ∧
      (∀ s, Reach net s → (∀ t, ¬ Step s t) →
        (∀ r, 1 ≤ r → r < size →
          (s.got r).map some = [inner[r]?] ∧ (s.chan r).map some = [outer[r]?])) ∧
      (outer.headD []).length + ((inner.drop 1).map List.length).sum < rows.length := by
  have h0 : 0 < size := by omega
  have e1 := rootChunks_eq h0 rows [] (by simp)
  have hin : (rootLocal [chunksOf size rows]).flatten = (chunksOf size rows).headD [] := by
    have hl := chunksOf_length size rows
    cases hc : chunksOf size rows with
    | nil => rw [hc] at hl; simp at hl; omega
    | cons a l => simp [rootLocal]
  have e2 : nestedOuter metric size rows
      = .ok (chunksOf size (((chunksOf size rows).headD []).map metric)) := by
    unfold nestedOuter
    rw [e1]
    show (do
      let outer ← rootChunks size [((rootLocal [chunksOf size rows]).flatten).map metric]
      pure (outer.headD [])) = _
    rw [hin, rootChunks_eq h0 _ [] (by simp)]
    rfl
  refine ⟨chunksOf size rows, _, { initNet size 1 [chunksOf size rows] with
      pending := rootSends [chunksOf size rows] ++
        rootSends [chunksOf size (((chunksOf size rows).headD []).map metric)] }, e1, e2, ?_, ?_, ?_⟩
  · unfold nestedInit
    rw [e1, e2]
    rfl
  · intro s hrch hst r h1 h2
    generalize hout : chunksOf size (((chunksOf size rows).headD []).map metric) = outer at *
    have gi := ginv_reach hrch
    have hp := stuck_pending hst
    have hf := gi.flow r
    have hc := gi.count r
    rw [hp, toR_append, toR_rootSends r (by omega), toR_rootSends r (by omega)] at hf
    have l1 : r < (chunksOf size rows).length := by rw [chunksOf_length]; omega
    have l2 : r < outer.length := by
      rw [← hout, chunksOf_length]; omega
    simp only [initNet, h1, h2, and_self, if_true, List.length_nil, Nat.add_zero] at hc
    have hf' : s.got r ++ s.chan r = [(chunksOf size rows)[r], outer[r]] := by
      simpa [initNet, toR, l1, l2] using hf
    have hgl : (s.got r).length = 1 := by
      rcases stuck_recv hst r with h' | h'
      · omega
      · rw [h'] at hf'
        have := congrArg List.length hf'
        simp at this
        omega
    match hg : s.got r, hgl with
    | [x], _ =>
      rw [hg] at hf'
      simp only [List.cons_append, List.nil_append, List.cons.injEq] at hf'
      rw [hf'.1, hf'.2]
      simp [l1, l2]
  · have hfl := congrArg List.length (chunksOf_flatten h0 rows)
    rw [List.length_flatten] at hfl
    have hl := chunksOf_length size rows
    cases hc : chunksOf size rows with
    | nil => rw [hc] at hl; simp at hl; omega
    | cons a l =>
      rw [hc] at hfl
      simp only [List.map_cons, List.sum_cons] at hfl
      simp only [List.headD_cons, List.drop_succ_cons, List.drop_zero]
      -- size of the first chunk
      have hfirst : ∀ {β : Type _} (u : List β), ((chunksOf size u).headD []).length = u.length / size := by
        intro β u
        have : (chunksOf size u).headD [] = pySlice u 0 (0 +
          (if 0 ≥ size - (u.length - u.length / size * size) then u.length / size + 1
            else u.length / size)) := by
          unfold chunksOf
          obtain ⟨n, rfl⟩ : ∃ n, size = n + 1 := ⟨size - 1, by omega⟩
          simp [List.range_succ_eq_map, pySlice, Nat.sub_eq_zero_iff_le]
        rw [this]
        have h5 := Nat.div_add_mod u.length size
        have h6 : size * (u.length / size) = u.length / size * size := Nat.mul_comm _ _
        have h7 := Nat.mod_lt u.length h0
        rw [if_neg (by omega)]
        have h8 := Nat.div_le_self u.length size
        simp [pySlice]; omega
      have ha : a.length = rows.length / size := by
        have := hfirst rows
        rwa [hc] at this
      have ho := hfirst (a.map metric)
      rw [List.length_map] at ho
      have hapos : 0 < a.length := by
        rw [ha]; exact Nat.div_pos hr h0
      have : a.length / size < a.length := Nat.div_lt_self hapos (by omega)
      omega

end MuyGPyS.Mpi
