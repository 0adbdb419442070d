import Verif.Props.Mpi
import Verif.Spec.MpiCalls

/-!
# C77: tensors made by a model in the MPI backend; C78: sequences of scatters
-/

namespace MuyGPyS.Mpi
open Py

/-- what rank `r` is sent by a program -/
def column {μ : Type _} (r : Nat) (tc : List (List μ)) : List μ := tc.filterMap fun c => c[r]?

theorem toR_program {μ : Type _} (r : Nat) (hr : r ≠ 0) (calls : List (Call μ)) :
    toR r (calls.flatMap fun c => rootSends c.sends) = column r (calls.flatMap Call.sends) := by
  induction calls with
  | nil => simp [toR, column]
  | cons c cs ih =>
    rw [List.flatMap_cons, toR_append, ih, toR_rootSends r hr, List.flatMap_cons]
    simp [column]

/-- the state of every rank when nothing can move: it has taken its first messages, in order -/
theorem terminal_state {μ : Type _} {size : Nat} {calls : List (Call μ)} {s : Net μ}
    (hr : Reach (programNet size calls) s) (ht : s.Terminal) (r : Nat) (h1 : 1 ≤ r) (h2 : r < size) :
    s.got r = (column r (calls.flatMap Call.sends)).take (calls.map Call.recvs).sum ∧
    s.chan r = (column r (calls.flatMap Call.sends)).drop (calls.map Call.recvs).sum := by
  have gi := ginv_reach hr
  have hf := gi.flow r
  have hc := gi.count r
  rw [stuck_pending ht] at hf
  simp only [programNet, List.nil_append, List.append_nil, toR_program r (by omega : r ≠ 0),
    h1, h2, and_self, if_true, List.length_nil, Nat.add_zero] at hf hc
  have hf' : s.got r ++ s.chan r = column r (calls.flatMap Call.sends) := by
    simpa [toR] using hf
  rw [← hf']
  rcases stuck_recv ht r with h0 | h0
  · have hl : (s.got r).length = (calls.map Call.recvs).sum := by omega
    rw [← hl]; simp
  · rw [h0, List.append_nil]
    have hl : (s.got r).length ≤ (calls.map Call.recvs).sum := by omega
    rw [List.take_of_length_le hl, List.drop_eq_nil_of_le hl]
    exact ⟨rfl, rfl⟩

/-- some schedule reaches a terminal state -/
theorem terminal_exists {μ : Type _} (size : Nat) (calls : List (Call μ)) :
    ∃ s, Reach (programNet size calls) s ∧ s.Terminal := by
  have gen : ∀ n (s : Net μ), Reach (programNet size calls) s →
      s.pending.length + ((List.range size).map s.toRecv).sum = n →
      (∀ r, size ≤ r → s.toRecv r = 0) → ∃ t, Reach (programNet size calls) t ∧ t.Terminal := by
    intro n
    induction n using Nat.strong_induction_on with
    | _ n ih =>
      intro s hs hn hout
      by_cases ht : s.Terminal
      · exact ⟨s, hs, ht⟩
      · simp only [Net.Terminal, not_forall, not_not] at ht
        obtain ⟨t, ht⟩ := ht
        have hdec : ∀ r, 0 < s.toRecv r →
            ((List.range size).map (upd s.toRecv r (s.toRecv r - 1))).sum + 1
              = ((List.range size).map s.toRecv).sum ∧
            ∀ q, size ≤ q → upd s.toRecv r (s.toRecv r - 1) q = 0 := by
          intro r h0
          have hlt : r < size := by
            by_contra hge
            have := hout r (by omega)
            omega
          constructor
          · have := sum_upd_lt (size := size) (r := r) s.toRecv
              (upd s.toRecv r (s.toRecv r - 1)) hlt (by intro q hq; simp [upd, hq])
            simp only [upd, if_true] at this ⊢
            omega
          · intro q hq
            have hne : q ≠ r := by omega
            simp [upd, hne, hout q hq]
        refine ih (t.pending.length + ((List.range size).map t.toRecv).sum) ?_ t (.step hs ht) rfl ?_
        · cases ht with
          | @buffer r m rest h => simp only [h, List.length_cons] at hn; simp only; omega
          | @rendezvous r m rest h hc hr =>
            have := (hdec r hr).1
            simp only [h, List.length_cons] at hn; simp only; omega
          | @recv r m ms hc hr =>
            have := (hdec r hr).1
            simp only; omega
        · cases ht with
          | @buffer r m rest h => exact hout
          | @rendezvous r m rest h hc hr => exact (hdec r hr).2
          | @recv r m ms hc hr => exact (hdec r hr).2
  refine gen _ _ .refl rfl ?_
  intro r hr
  have : ¬ (1 ≤ r ∧ r < size) := by omega
  simp [programNet, this]

theorem column_length {μ : Type _} {size r : Nat} {tc : List (List μ)} (hr : r < size)
    (hlen : ∀ c ∈ tc, c.length = size) : (column r tc).length = tc.length := filterMap_len hr hlen

theorem column_some {μ : Type _} {size r : Nat} {tc : List (List μ)} (hr : r < size)
    (hlen : ∀ c ∈ tc, c.length = size) : (column r tc).map some = tc.map fun c => c[r]? := by
  induction tc with
  | nil => simp [column]
  | cons c tc ih =>
    have hc : c.length = size := hlen c (by simp)
    have h1 : c[r]? = some (c[r]'(by omega)) := List.getElem?_eq_getElem _
    have := ih fun c' h' => hlen c' (by simp [h'])
    simp only [column] at this ⊢
    rw [List.filterMap_cons, List.map_cons, h1]
    simp [this]

theorem column_append {μ : Type _} (r : Nat) (a b : List (List μ)) :
    column r (a ++ b) = column r a ++ column r b := by simp [column]

/-- **C78.** A program in which every rank executes the same sequence of scatters, each posting one
receive per tensor: under every schedule, however far some ranks run ahead of others, when no rank
can move every message has been received and what rank `r` received is, call by call and tensor by
tensor, its own chunk. -/
theorem C78_sequence {μ : Type _} (size : Nat) (calls : List (Call μ))
    (hmatch : ∀ c ∈ calls, c.recvs = c.sends.length)
    (hlen : ∀ c ∈ calls, ∀ t ∈ c.sends, t.length = size) :
    (∃ s, Reach (programNet size calls) s ∧ s.Terminal) ∧
    ∀ s, Reach (programNet size calls) s → s.Terminal →
      s.pending = [] ∧
      ∀ r, 1 ≤ r → r < size → s.toRecv r = 0 ∧ s.chan r = [] ∧
        (s.got r).map some = calls.flatMap fun c => c.sends.map fun t => t[r]? := by
  refine ⟨terminal_exists size calls, fun s hr ht => ⟨stuck_pending ht, fun r h1 h2 => ?_⟩⟩
  have hl : ∀ t ∈ calls.flatMap Call.sends, t.length = size := by
    intro t ht
    obtain ⟨c, hc, htc⟩ := List.mem_flatMap.1 ht
    exact hlen c hc t htc
  have hsum : (calls.map Call.recvs).sum = (column r (calls.flatMap Call.sends)).length := by
    rw [column_length h2 hl, List.length_flatMap]
    congr 1
    exact List.map_congr_left fun c hc => hmatch c hc
  obtain ⟨hg, hc⟩ := terminal_state hr ht r h1 h2
  rw [hsum, List.take_length] at hg
  rw [hsum, List.drop_length] at hc
  have hcount := (ginv_reach hr).count r
  simp only [programNet, h1, h2, and_self, if_true, List.length_nil, Nat.add_zero] at hcount
  refine ⟨by rw [hg] at hcount; omega, hc, ?_⟩
  rw [hg, column_some h2 hl, List.map_flatMap]

/-- the first chunk is a prefix of `rows / ranks` rows -/
theorem chunksOf_head {α : Type _} {size : Nat} (h : 0 < size) (u : List α) :
    (chunksOf size u).head? = some (u.take (u.length / size)) := by
  unfold chunksOf
  obtain ⟨n, rfl⟩ : ∃ n, size = n + 1 := ⟨size - 1, by omega⟩
  have h5 := Nat.div_add_mod u.length (n + 1)
  have h6 : (n + 1) * (u.length / (n + 1)) = u.length / (n + 1) * (n + 1) := Nat.mul_comm _ _
  have h7 := Nat.mod_lt u.length h
  have h9 : ¬ (0 ≥ n + 1 - (u.length - u.length / (n + 1) * (n + 1))) := by omega
  simp only [List.range_succ_eq_map, List.map_cons, List.head?_cons, List.take_zero, List.sum_nil,
    List.getD_cons_zero, pySlice, List.drop_zero, Nat.zero_add]
  rw [if_neg h9]

theorem rootLocal_chunksOf {α : Type _} {size : Nat} (h : 0 < size) (ts : List (List α)) :
    rootLocal (ts.map (chunksOf size)) = ts.map fun u => u.take (u.length / size) := by
  induction ts with
  | nil => rfl
  | cons t ts ih =>
    simp only [rootLocal, List.map_cons, List.filterMap_cons, chunksOf_head h t] at ih ⊢
    rw [ih]

/-- tensors longer than the first are cut to the rows of the first -/
theorem rootChunks_cut {α : Type _} {size : Nat} (h : 0 < size) (t : List α)
    (ts : List (List α)) (hl : ∀ u ∈ ts, t.length ≤ u.length) :
    rootChunks size (t :: ts) = .ok ((t :: ts.map (List.take t.length)).map (chunksOf size)) := by
  rw [← rootChunks_eq h t (ts.map (List.take t.length)) (by
    intro u hu
    obtain ⟨v, hv, rfl⟩ := List.mem_map.1 hu
    have := hl v hv
    simp; omega)]
  show (do
    let chunkSizes ← getChunkSizes t.length size
    pure (prepareParallelData size chunkSizes (t :: ts)) : Res _) = (do
    let chunkSizes ← getChunkSizes t.length size
    pure (prepareParallelData size chunkSizes (t :: ts.map (List.take t.length))) : Res _)
  rw [getChunkSizes_ok h]
  show Except.ok _ = Except.ok _
  rw [slices_eq, slices_eq]
  simp only [List.map_cons, List.map_map]
  congr 2
  refine List.map_congr_left fun u _ => ?_
  refine List.map_congr_left fun i hi => ?_
  have hi' := List.mem_range.1 hi
  set cs := (List.range size).map fun i =>
    if i ≥ size - (t.length - t.length / size * size) then t.length / size + 1
    else t.length / size with hcs
  have hcl : i < cs.length := by simp [hcs, hi']
  have hsum : cs.sum = t.length := chunk_sum h
  have h1 : (cs.take (i+1)).sum = (cs.take i).sum + cs.getD i 0 := by
    rw [List.take_add_one, List.sum_append]
    simp [List.getD, hcl]
  have h2 := take_sum_le cs i
  simp only [pySlice, List.take_take]
  rw [Nat.min_eq_left (by omega)]

/-- **C78, one scatter.** Scattering equally long tensors behaves like the serial call for every
number of ranks and every schedule: gathering what the ranks hold gives back each tensor. -/
theorem C78_chunk_like_serial {α : Type _} (size : Nat) (h : 0 < size) (t : List α)
    (ts : List (List α)) (hl : ∀ u ∈ ts, u.length = t.length) :
    ∃ calls local0, chunkTensor size (t :: ts) = .ok (calls, local0) ∧
      LikeSerial size calls local0 (t :: ts) := by
  refine ⟨[⟨(t :: ts).map (chunksOf size), (t :: ts).length⟩],
    rootLocal ((t :: ts).map (chunksOf size)), ?_, ?_⟩
  · unfold chunkTensor
    rw [rootChunks_eq h t ts hl]
    rfl
  generalize t :: ts = us
  intro s hs ht
  have hlen : ∀ c ∈ us.map (chunksOf size), c.length = size := by
    intro c hc
    obtain ⟨u, _, rfl⟩ := List.mem_map.1 hc
    exact chunksOf_length _ _
  have hseq := (C78_sequence size [⟨us.map (chunksOf size), us.length⟩] (by simp) (by
    intro c hc
    rw [List.mem_singleton.1 hc]
    exact hlen)).2 s hs ht
  have hgot : ∀ r, 1 ≤ r → r < size →
      (s.got r).map some = us.map fun u => (chunksOf size u)[r]? := by
    intro r h1 h2
    rw [(hseq.2 r h1 h2).2.2]
    simp
  refine ⟨by rw [rootLocal_chunksOf h]; simp, fun r h1 h2 => ⟨(hseq.2 r h1 h2).2.1, ?_⟩, ?_⟩
  · have := congrArg List.length (hgot r h1 h2)
    simpa using this
  intro j hj
  have hparts : (List.range (size - 1)).map (fun i => (s.got (i + 1)).getD j [])
      = (chunksOf size us[j]).drop 1 := by
    refine List.ext_getElem (by simp [chunksOf_length]) fun i h1 h2 => ?_
    simp only [List.length_map, List.length_range] at h1
    simp only [List.getElem_map, List.getElem_range, List.getElem_drop]
    have e := congrArg (fun l => l[j]?) (hgot (i + 1) (by omega) (by omega))
    have hi : i + 1 < (chunksOf size us[j]).length := by rw [chunksOf_length]; omega
    simp only [List.getElem?_map, List.getElem?_eq_getElem hj, Option.map_some,
      List.getElem?_eq_getElem hi] at e
    rw [List.getD_eq_getElem?_getD]
    cases hq : (s.got (i + 1))[j]? with
    | none => rw [hq] at e; simp at e
    | some x => rw [hq] at e; simp only [Option.map_some, Option.some.injEq] at e; simp [e, Nat.add_comm]
  rw [gathered, hparts, rootLocal_chunksOf h]
  have hf := chunksOf_flatten h us[j]
  have hh := chunksOf_head h us[j]
  cases hc : chunksOf size us[j] with
  | nil => rw [hc] at hh; simp at hh
  | cons a l =>
    rw [hc] at hf hh
    simp only [List.head?_cons, Option.some.injEq] at hh
    conv_rhs => rw [← hf]
    simp [List.getD, hj, hh]

example : ∀ c ∈ ([⟨[[[1], [2]], [[3], [4]]], 2⟩, ⟨[[[5], [6, 7]]], 1⟩] : List (Call (List ℕ))),
    c.recvs = c.sends.length ∧ ∀ t ∈ c.sends, t.length = 2 := by simp

theorem makeTensors_ok {α : Type _} (metric : α → α) {size : Nat} (h : 0 < size)
    (cross pair : List α) (others : List (List α)) (hp : pair.length = cross.length)
    (ho : ∀ u ∈ others, u.length = cross.length) :
    ∃ outer,
      rootChunks size ((cross.take (cross.length / size)).map metric ::
        (pair.take (cross.length / size)).map metric :: others) = .ok outer ∧
      outer = ((cross.take (cross.length / size)).map metric ::
        (pair.take (cross.length / size)).map metric ::
        others.map (List.take (cross.length / size))).map (chunksOf size) ∧
      makeTensors metric size cross pair others =
        .ok ([⟨[chunksOf size cross], 0⟩, ⟨[chunksOf size pair], 0⟩, ⟨outer, others.length + 2⟩],
          rootLocal outer) := by
  have hdiv := Nat.div_le_self cross.length size
  have hl0 : ((cross.take (cross.length / size)).map metric).length = cross.length / size := by
    simp; omega
  have e3 := rootChunks_cut h ((cross.take (cross.length / size)).map metric)
    ((pair.take (cross.length / size)).map metric :: others) (by
      intro u hu
      rw [hl0]
      rcases List.mem_cons.1 hu with rfl | hu
      · simp; omega
      · rw [ho u hu]; exact hdiv)
  rw [hl0] at e3
  have hcut : List.map (List.take (cross.length / size))
      ((pair.take (cross.length / size)).map metric :: others)
      = (pair.take (cross.length / size)).map metric ::
        others.map (List.take (cross.length / size)) := by
    rw [List.map_cons]
    congr 1
    rw [← List.map_take, List.take_take, Nat.min_self]
  rw [hcut] at e3
  refine ⟨_, e3, rfl, ?_⟩
  unfold makeTensors
  rw [rootChunks_eq h cross [] (by simp), rootChunks_eq h pair [] (by simp)]
  have l1 := rootLocal_chunksOf h [cross]
  have l2 := rootLocal_chunksOf h [pair]
  simp only [List.map_cons, List.map_nil] at l1 l2
  simp only [bind, Except.bind, List.map_cons, List.map_nil, l1, l2,
    List.flatten_cons, List.flatten_nil, List.append_nil, hp, pure, Except.pure] at e3 ⊢
  rw [e3]
  simp

/-- **C77, one rank.** With a single rank the tensors a model makes in the MPI backend are the
serial ones. -/
theorem C77_single_rank_partial {α : Type _} (metric : α → α) (cross pair : List α)
    (others : List (List α)) (hp : pair.length = cross.length)
    (ho : ∀ u ∈ others, u.length = cross.length) :
    ∃ calls local0, makeTensors metric 1 cross pair others = .ok (calls, local0) ∧
      LikeSerial 1 calls local0 (serialTensors metric cross pair others) := by
  obtain ⟨outer, _, hout, hm⟩ := makeTensors_ok metric (size := 1) (by omega) cross pair others hp ho
  refine ⟨_, _, hm, ?_⟩
  have hloc : rootLocal outer = serialTensors metric cross pair others := by
    rw [hout, rootLocal_chunksOf (by omega)]
    simp only [Nat.div_one, List.take_length, List.map_id'', serialTensors, List.map_cons]
    rw [← hp, List.take_length]
    congr 2
    rw [List.map_map]
    conv_rhs => rw [← List.map_id others]
    refine List.map_congr_left fun u hu => ?_
    simp [ho u hu, hp]
  intro s _ _
  refine ⟨by rw [hloc], fun r h1 h2 => by omega, fun j hj => ?_⟩
  rw [hloc]
  simp [gathered, List.getD, hj]

/-- **C77, where the code fails.** With at least two ranks and at least as many batch elements as
ranks, `make_predict_tensors` (one further tensor: the neighbours' targets) and `make_train_tensors`
(two further tensors) do not behave like the serial call, under any schedule:
* every rank `r ≥ 1` gets the *unmeasured* chunk of the crosswise and pairwise differences, and in
  place of its targets it gets pieces of the distances of rank 0's own chunk;
* two messages per rank are never received;
* the targets gathered from all ranks have `rows / ranks` rows instead of `rows`;
* if sends do not buffer, rank 0 never finishes the call. -/
theorem C77_model_tensors_fail {α : Type _} (metric : α → α) (size : Nat) (h : 2 ≤ size)
    (cross pair : List α) (others : List (List α)) (hp : pair.length = cross.length)
    (ho : ∀ u ∈ others, u.length = cross.length) (hne : others ≠ []) (hb : size ≤ cross.length) :
    ∃ calls local0 cc cp outer, makeTensors metric size cross pair others = .ok (calls, local0) ∧
      rootChunks size [cross] = .ok [cc] ∧ rootChunks size [pair] = .ok [cp] ∧
      rootChunks size ((cc.headD []).map metric :: (cp.headD []).map metric :: others) = .ok outer ∧
      (∀ s, Reach (programNet size calls) s → s.Terminal →
        (∀ r, 1 ≤ r → r < size →
          (s.got r).map some = ([cc, cp] ++ outer.take others.length).map (fun c => c[r]?) ∧
          (s.chan r).map some = (outer.drop others.length).map (fun c => c[r]?) ∧
          (s.chan r).length = 2) ∧
        (gathered size local0 s (others.length + 1)).length = cross.length / size) ∧
      ¬ LikeSerial size calls local0 (serialTensors metric cross pair others) ∧
      ∀ s, SyncReach (programNet size calls) s → s.pending ≠ [] := by
  have h0 : 0 < size := by omega
  obtain ⟨outer, hrc, hout, hm⟩ := makeTensors_ok metric h0 cross pair others hp ho
  have hcl : ∀ {β : Type _} (u : List β), (chunksOf size u).headD [] = u.take (u.length / size) := by
    intro β u
    rw [List.headD_eq_head?_getD, chunksOf_head h0]; rfl
  have hol : outer.length = others.length + 2 := by rw [hout]; simp
  have hlen : ∀ c ∈ [chunksOf size cross, chunksOf size pair] ++ outer, c.length = size := by
    intro c hc
    rw [hout] at hc
    simp only [List.cons_append, List.nil_append, List.mem_cons, List.mem_map] at hc
    rcases hc with rfl | rfl | ⟨u, _, rfl⟩ <;> exact chunksOf_length _ _
  set calls : List (Call (List α)) :=
    [⟨[chunksOf size cross], 0⟩, ⟨[chunksOf size pair], 0⟩, ⟨outer, others.length + 2⟩] with hcalls
  have hsends : calls.flatMap Call.sends = [chunksOf size cross, chunksOf size pair] ++ outer := by
    simp [hcalls]
  have hrecv : (calls.map Call.recvs).sum = others.length + 2 := by simp [hcalls]
  have key : ∀ s, Reach (programNet size calls) s → s.Terminal → ∀ r, 1 ≤ r → r < size →
      (s.got r).map some = ([chunksOf size cross, chunksOf size pair] ++
        outer.take others.length).map (fun c => c[r]?) ∧
      (s.chan r).map some = (outer.drop others.length).map (fun c => c[r]?) ∧
      (s.chan r).length = 2 := by
    intro s hs ht r h1 h2
    obtain ⟨hg, hc⟩ := terminal_state hs ht r h1 h2
    rw [hsends, hrecv] at hg hc
    have hd : (s.chan r).map some = (outer.drop others.length).map (fun c => c[r]?) := by
      rw [hc, List.map_drop, column_some h2 hlen, ← List.map_drop]
      congr 1
    refine ⟨?_, hd, ?_⟩
    · rw [hg, List.map_take, column_some h2 hlen, ← List.map_take]
      congr 1
    · have := congrArg List.length hd
      simp only [List.length_map, List.length_drop, hol] at this
      omega
  have hrows : ∀ s, Reach (programNet size calls) s → s.Terminal →
      (gathered size (rootLocal outer) s (others.length + 1)).length = cross.length / size := by
    intro s hs ht
    have hdiv := Nat.div_le_self cross.length size
    -- every outer tensor has `rows / ranks` rows
    have hrow : ∀ j, (hj : j < outer.length) → ∃ u : List α, u.length = cross.length / size ∧
        outer[j] = chunksOf size u := by
      intro j hj
      have hmem := List.getElem_mem hj
      obtain ⟨u, hu, he⟩ := List.mem_map.1 ((congrArg (outer[j] ∈ ·) hout).mp hmem)
      refine ⟨u, ?_, ?_⟩
      · simp only [List.mem_cons, List.mem_map] at hu
        rcases hu with rfl | rfl | ⟨v, hv, rfl⟩
        · simp; omega
        · simp; omega
        · have := ho v hv
          simp; omega
      · exact he.symm
    have hlast : others.length + 1 < outer.length := by omega
    have hprev : others.length - 1 < outer.length := by omega
    have hpos : 0 < others.length := List.length_pos_iff.2 hne
    obtain ⟨u, hul, hu⟩ := hrow _ hlast
    obtain ⟨v, hvl, hv⟩ := hrow _ hprev
    have hlocal : ((rootLocal outer).getD (others.length + 1) []).length
        = cross.length / size / size := by
      have : ∀ (tc : List (List (List α))) (j : Nat) (hj : j < tc.length),
          (∀ c ∈ tc, c.length = size) → (rootLocal tc).getD j [] = (tc[j]).headD [] := by
        intro tc
        induction tc with
        | nil => intro j hj; simp at hj
        | cons c tc ih =>
          intro j hj hl
          have hc := hl c (by simp)
          obtain ⟨a, l, rfl⟩ : ∃ a l, c = a :: l := by
            cases c with
            | nil => simp at hc; omega
            | cons a l => exact ⟨a, l, rfl⟩
          cases j with
          | zero => simp [rootLocal]
          | succ j =>
            have := ih j (by simpa using hj) fun c hc => hl c (by simp [hc])
            simpa [rootLocal] using this
      rw [this outer _ hlast fun c hc => hlen c (by simp [hc]), hu, hcl, List.length_take, hul]
      exact Nat.min_eq_left (Nat.div_le_self _ _)
    have hgot : ∀ i, i < size - 1 →
        ((s.got (i + 1)).getD (others.length + 1) []) = (chunksOf size v).getD (i + 1) [] := by
      intro i hi
      obtain ⟨hg, -, -⟩ := key s hs ht (i + 1) (by omega) (by omega)
      have e := congrArg (fun l => l[others.length + 1]?) hg
      have hidx : ([chunksOf size cross, chunksOf size pair] ++ outer.take others.length)[others.length + 1]?
          = some (chunksOf size v) := by
        rw [List.getElem?_append_right (by simp; omega)]
        have : others.length + 1 - [chunksOf size cross, chunksOf size pair].length
            = others.length - 1 := by simp
        rw [this, List.getElem?_take, if_pos (by omega), List.getElem?_eq_getElem hprev, hv]
      simp only [List.getElem?_map, hidx, Option.map_some] at e
      rw [List.getD_eq_getElem?_getD, List.getD_eq_getElem?_getD]
      cases hq : (s.got (i + 1))[others.length + 1]? with
      | none => rw [hq] at e; simp at e
      | some x => rw [hq] at e; simp at e; rw [← e]
    rw [gathered, List.length_append, hlocal]
    have hmapeq : (List.range (size - 1)).map (fun i => (s.got (i + 1)).getD (others.length + 1) [])
        = (chunksOf size v).drop 1 := by
      refine List.ext_getElem (by simp [chunksOf_length]) fun i h1 h2 => ?_
      simp only [List.length_map, List.length_range] at h1
      simp only [List.getElem_map, List.getElem_range, List.getElem_drop]
      rw [hgot i h1, List.getD_eq_getElem?_getD, List.getElem?_eq_getElem (by
        rw [chunksOf_length]; omega)]
      simp [Nat.add_comm]
    rw [hmapeq]
    have hflat := congrArg List.length (chunksOf_flatten h0 v)
    have hhead := hcl v
    have hlv := chunksOf_length size v
    cases hcv : chunksOf size v with
    | nil => rw [hcv] at hlv; simp at hlv; omega
    | cons a l =>
      rw [hcv] at hflat hhead
      simp only [List.headD_cons] at hhead
      simp only [List.flatten_cons, List.length_append] at hflat
      simp only [List.drop_succ_cons, List.drop_zero]
      rw [hhead, List.length_take, Nat.min_eq_left (Nat.div_le_self _ _), hvl] at hflat
      exact hflat
  refine ⟨calls, rootLocal outer, chunksOf size cross, chunksOf size pair, outer, hm,
    rootChunks_eq h0 cross [] (by simp), rootChunks_eq h0 pair [] (by simp), ?_,
    fun s hs ht => ⟨key s hs ht, hrows s hs ht⟩, ?_, ?_⟩
  · rw [hcl, hcl, hp]; exact hrc
  · intro hlike
    obtain ⟨s, hs, ht⟩ := terminal_exists size calls
    obtain ⟨-, hch, -⟩ := hlike s hs ht
    have := (key s hs ht 1 (by omega) (by omega)).2.2
    rw [(hch 1 (by omega) (by omega)).1] at this
    simp at this
  · intro s hs
    -- the channels stay empty, so a rank has been sent no more than it received
    have hinv : (∀ r, s.chan r = []) ∧ Reach (programNet size calls) s := by
      induction hs with
      | refl => exact ⟨fun _ => rfl, .refl⟩
      | @rendezvous s r m rest _ hpd hr ih =>
        exact ⟨ih.1, .step ih.2 (.rendezvous hpd (ih.1 r) hr)⟩
    intro hpd
    have gi := ginv_reach hinv.2
    have hf := gi.flow 1
    have hc := gi.count 1
    rw [hpd, hinv.1 1] at hf
    have h12 : 1 < size := by omega
    simp only [programNet, List.nil_append, List.append_nil, toR_program 1 (by omega : 1 ≠ 0),
      le_refl, h12, and_self, if_true, List.length_nil, Nat.add_zero, hsends, hrecv] at hf hc
    have hf' := congrArg List.length hf
    rw [column_length h12 hlen] at hf'
    simp [toR, hol] at hf'
    omega

/-- **C77, the next call.** The two unreceived messages are taken by whatever is scattered next: if
the ranks go on to scatter any tensors `ts`, rank `r` receives in their place the leftovers of the
previous call. -/
theorem C77_next_call_fails {α : Type _} (metric : α → α) (size : Nat) (h : 2 ≤ size)
    (cross pair : List α) (others : List (List α)) (hp : pair.length = cross.length)
    (ho : ∀ u ∈ others, u.length = cross.length) (t : List α) :
    ∃ calls local0 next local1 outer ct, makeTensors metric size cross pair others = .ok (calls, local0) ∧
      rootChunks size ((cross.take (cross.length / size)).map metric ::
        (pair.take (cross.length / size)).map metric :: others) = .ok outer ∧
      chunkTensor size [t] = .ok (next, local1) ∧ rootChunks size [t] = .ok [ct] ∧
      ∀ s, Reach (programNet size (calls ++ next)) s → s.Terminal → ∀ r, 1 ≤ r → r < size →
        ((s.got r).drop (others.length + 2)).map some
          = ((outer.drop others.length).take 1).map (fun c => c[r]?) ∧
        (s.chan r).map some
          = ((outer.drop (others.length + 1)) ++ [ct]).map (fun c => c[r]?) := by
  have h0 : 0 < size := by omega
  obtain ⟨outer, hrc, hout, hm⟩ := makeTensors_ok metric h0 cross pair others hp ho
  have hol : outer.length = others.length + 2 := by rw [hout]; simp
  refine ⟨_, _, [⟨[chunksOf size t], 1⟩], rootLocal [chunksOf size t], outer, chunksOf size t, hm,
    hrc, ?_, rootChunks_eq h0 t [] (by simp), ?_⟩
  · unfold chunkTensor
    rw [rootChunks_eq h0 t [] (by simp)]
    rfl
  intro s hs ht r h1 h2
  set tc := [chunksOf size cross, chunksOf size pair] ++ (outer ++ [chunksOf size t]) with htc
  have hlen : ∀ c ∈ tc, c.length = size := by
    intro c hc
    rw [htc, hout] at hc
    simp only [List.cons_append, List.nil_append, List.mem_cons, List.mem_append, List.mem_map,
      List.not_mem_nil, or_false] at hc
    rcases hc with rfl | rfl | ⟨u, _, rfl⟩ | rfl <;> exact chunksOf_length _ _
  obtain ⟨hg, hc⟩ := terminal_state hs ht r h1 h2
  simp only [List.flatMap_cons, List.flatMap_nil, List.append_nil, List.map_cons, List.map_nil,
    List.sum_cons, List.sum_nil, List.cons_append, List.nil_append] at hg hc
  have htc' : chunksOf size cross :: chunksOf size pair :: (outer ++ [chunksOf size t]) = tc := rfl
  rw [htc'] at hg hc
  constructor
  · rw [hg, List.map_drop, List.map_take, column_some h2 hlen, ← List.map_take, ← List.map_drop]
    congr 1
    rw [List.drop_take]
    have e1 : 0 + (0 + (others.length + 2 + (1 + 0))) - (others.length + 2) = 1 := by omega
    rw [e1, htc, List.drop_append, List.drop_eq_nil_of_le (by simp)]
    simp only [List.length_cons, List.length_nil, List.nil_append]
    rw [List.drop_append_of_le_length (by omega), List.take_append_of_le_length (by simp; omega)]
    rfl
  · rw [hc, List.map_drop, column_some h2 hlen, ← List.map_drop]
    congr 1
    rw [htc, List.drop_append, List.drop_eq_nil_of_le (by simp)]
    have e1 : 0 + (0 + (others.length + 2 + (1 + 0)))
      - [chunksOf size cross, chunksOf size pair].length = others.length + 1 := by simp
    rw [e1, List.nil_append, List.drop_append_of_le_length (by omega)]

/-- A two-rank prediction over four points, one neighbour each: rank 1 takes unmeasured differences,
and a distance of rank 0's chunk in place of its two targets. -/
example : ∃ calls local0, makeTensors (fun x : ℤ => x * x) 2 [1, -2, 3, -4] [0, 0, 0, 0]
    [[10, 20, 30, 40]] = .ok (calls, local0) ∧
    ∀ s, Reach (programNet 2 calls) s → s.Terminal → s.got 1 = [[3, -4], [0, 0], [4]] := by
  refine ⟨_, _, rfl, fun s hs ht => ?_⟩
  exact (terminal_state hs ht 1 (by omega) (by omega)).1.trans (by decide)

end MuyGPyS.Mpi
