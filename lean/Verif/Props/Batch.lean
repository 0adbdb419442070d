import Verif.Spec.Batch
import Verif.Props.Workflow
import Verif.Props.MpiLoss

/-! # C42, C43: batches -/

namespace MuyGPyS
open Py

theorem max_ne_min (r : List ℤ) : (r.max? != r.min?) = true ↔ ∃ a ∈ r, ∃ b ∈ r, a ≠ b := by
  rw [bne_iff_ne]
  cases hM : r.max? with
  | none =>
    have : r = [] := by simpa using hM
    subst this
    simp
  | some M =>
    cases hm : r.min? with
    | none =>
      have : r = [] := by simpa using hm
      subst this
      simp at hM
    | some m =>
      obtain ⟨h1, h2⟩ := List.max?_eq_some_iff.mp hM
      obtain ⟨h3, h4⟩ := List.min?_eq_some_iff.mp hm
      constructor
      · intro h
        exact ⟨M, h1, m, h3, fun e => h (by rw [e])⟩
      · rintro ⟨a, ha, b, hb, hab⟩ h
        have e : M = m := by simpa using h
        have := h2 a ha; have := h2 b hb; have := h4 a ha; have := h4 b hb
        omega

theorem truncInt_int (z : ℤ) : truncInt (z : ℝ) = z := by
  unfold truncInt; split <;> simp

theorem truncInt_small (x : ℝ) (h1 : -1 < x) (h2 : x < 1) : truncInt x = 0 := by
  unfold truncInt
  split_ifs with h
  · exact Int.floor_eq_zero_iff.mpr ⟨h, h2⟩
  · rw [Int.ceil_eq_iff]; push_cast; constructor <;> linarith

theorem ofNats_shape (l : List Nat) : (ofNats l).shape = [l.length] := rfl

theorem ofNats_get (l : List Nat) (k : Nat) : (ofNats l).get [k] = (l.getD k 0 : Int) := by
  rw [Tensor.get1 _ rfl]; rfl

theorem ofNats_valid {N : Nat} {l : List Nat} (h : ∀ x ∈ l, x < N) : AllValid N (ofNats l) := by
  intro k hk
  have hk' : k < l.length := by simpa [ofNats] using hk
  have : l.getD k 0 < N := by
    rw [List.getD_eq_getElem?_getD, List.getElem?_eq_getElem hk']
    exact h _ (List.getElem_mem _)
  show Tensor.validIndex N ((l.getD k 0 : Nat) : Int)
  unfold Tensor.validIndex
  omega

/-- The batch drawn by `sample_batch`, given the positions drawn. -/
theorem sampleBatch_ok (w : NNWrapper) (hw : w.Exact) (bc : Nat) (hbc : 0 < bc) (hN : 0 < w.N) (draw : List Nat)
    (hd : bc < w.N → IsDraw w.N bc draw) (hkN : w.nnCount + 1 ≤ w.N) :
    ∃ idx nn D, sampleBatch w bc w.N draw = .ok (idx, nn) ∧ idx = (if bc < w.N then draw else List.range w.N) ∧
      w.getBatchNns (ofNats idx) = .ok (nn, D) ∧ 0 < idx.length ∧ (∀ x ∈ idx, x < w.N) ∧ idx.Nodup ∧
      idx.length = min bc w.N := by
  set idx := if bc < w.N then draw else List.range w.N with hidx
  have hlen : idx.length = min bc w.N := by
    rw [hidx]; split_ifs with h
    · rw [(hd h).1]; omega
    · rw [List.length_range]; omega
  have hlt : ∀ x ∈ idx, x < w.N := by
    rw [hidx]; split_ifs with h
    · exact (hd h).2.2
    · intro x hx; simpa using hx
  have hnd : idx.Nodup := by
    rw [hidx]; split_ifs with h
    · exact (hd h).2.1
    · exact List.nodup_range
  have h0 : 0 < idx.length := by omega
  obtain ⟨I, D, i1, -⟩ := C41_batch_always w hw (ofNats idx) idx.length rfl (ofNats_valid hlt) h0 hkN
  refine ⟨idx, I, D, ?_, rfl, i1, h0, hlt, hnd, hlen⟩
  unfold sampleBatch choice
  have hc : ((bc : Int) < (w.N : Int)) ↔ bc < w.N := by omega
  by_cases h : bc < w.N
  · have he : idx = draw := by rw [hidx, if_pos h]
    simp only [hc, h, if_true, bind, Except.bind]
    rw [if_neg (by omega)]
    rw [← he]
    simp only [i1, pure, Except.pure]
  · have he : idx = List.range w.N := by rw [hidx, if_neg h]
    simp only [hc, h, if_false, bind, Except.bind]
    rw [← he]
    simp only [i1, pure, Except.pure]

/-- **C42.** For every training set, batch size and random draw the sampled batch has
`min(batch_count, train_count)` different indices of training points, the drawn ones when there are more
training points than that and all of them otherwise; row `k` of the returned neighbour tensor lists
`nn_count` different training points in order of distance from batch point `k`. -/
theorem C42_batch (w : NNWrapper) (hw : w.Exact) (bc : Nat) (hbc : 0 < bc) (hN : 0 < w.N) (draw : List Nat)
    (hd : bc < w.N → IsDraw w.N bc draw) (hkN : w.nnCount + 1 ≤ w.N) :
    ∃ idx nn, sampleBatch w bc w.N draw = .ok (idx, nn) ∧
      idx.length = min bc w.N ∧ idx.Nodup ∧ (∀ x ∈ idx, x < w.N) ∧ (bc < w.N → idx = draw) ∧
      nn.shape = [idx.length, w.nnCount] ∧
      ∀ k x, idx[k]? = some x → ∃ l : List Nat, rowList nn w.nnCount k = l.map Int.ofNat ∧
        l.length = w.nnCount ∧ l.Nodup ∧ (∀ j ∈ l, j < w.N) ∧
        l.Pairwise fun a b => w.dist (rowPt w.train w.f x) (rowPt w.train w.f a)
          ≤ w.dist (rowPt w.train w.f x) (rowPt w.train w.f b) := by
  obtain ⟨idx, nn, D, h1, h2, h3, h4, h5, h6, h7⟩ := sampleBatch_ok w hw bc hbc hN draw hd hkN
  obtain ⟨I, D', i1, i2, -, i3⟩ := C41_batch_always w hw (ofNats idx) idx.length rfl (ofNats_valid h5) h4 hkN
  rw [h3] at i1
  obtain ⟨rfl, rfl⟩ := Prod.mk.inj (Except.ok.inj i1)
  refine ⟨idx, nn, h1, h7, h6, h5, fun h => by rw [h2, if_pos h], i2, fun k x hx => ?_⟩
  have hk : k < idx.length := (List.getElem?_eq_some_iff.mp hx).1
  have := i3 k hk
  rw [ofNats_get, List.getD_eq_getElem?_getD, hx, Option.getD_some, pointOf_nat] at this
  exact this

/-- **C42**, the neighbours: when the training points are separated, row `k` lists the nearest training
points of batch point `k` other than itself. Partial: without separation the point itself may be listed
(`C41_duplicates_fail`). -/
theorem C42_neighbours_partial (w : NNWrapper) (hw : w.Exact) (bc : Nat) (hbc : 0 < bc) (hN : 0 < w.N)
    (draw : List Nat) (hd : bc < w.N → IsDraw w.N bc draw) (hkN : w.nnCount + 1 ≤ w.N)
    (hself : ∀ x, w.dist x x = 0)
    (hsep : ∀ i < w.N, ∀ j < w.N, j ≠ i → 0 < w.dist (rowPt w.train w.f i) (rowPt w.train w.f j)) :
    ∃ idx nn, sampleBatch w bc w.N draw = .ok (idx, nn) ∧
      ∀ k x, idx[k]? = some x → ∃ l : List Nat, rowList nn w.nnCount k = l.map Int.ofNat ∧
        Nearest (fun j => j < w.N ∧ j ≠ x) (fun j => w.dist (rowPt w.train w.f x) (rowPt w.train w.f j)) w.nnCount l := by
  obtain ⟨idx, nn, D, h1, h2, h3, h4, h5, h6, h7⟩ := sampleBatch_ok w hw bc hbc hN draw hd hkN
  have hpt : ∀ i < idx.length, ∃ x, idx[i]? = some x ∧ pointOf w.N ((ofNats idx).get [i]) = x ∧ x < w.N := by
    intro i hi
    refine ⟨idx[i], List.getElem?_eq_getElem hi, ?_, h5 _ (List.getElem_mem _)⟩
    rw [ofNats_get, List.getD_eq_getElem?_getD, List.getElem?_eq_getElem hi, Option.getD_some, pointOf_nat]
  obtain ⟨I, D', i1, i2, -, i3⟩ := C41_batch_partial w hw (ofNats idx) idx.length rfl (ofNats_valid h5) h4 hkN hself
    (fun i hi j hj hne => by
      obtain ⟨x, -, e, hx⟩ := hpt i hi
      rw [e] at hne ⊢
      exact hsep x hx j hj hne)
  rw [h3] at i1
  obtain ⟨rfl, rfl⟩ := Prod.mk.inj (Except.ok.inj i1)
  refine ⟨idx, nn, h1, fun k x hx => ?_⟩
  have hk : k < idx.length := (List.getElem?_eq_some_iff.mp hx).1
  obtain ⟨y, y1, y2, -⟩ := hpt k hk
  obtain rfl : x = y := by rw [hx] at y1; exact Option.some.inj y1
  have := (i3 k hk).1
  rw [y2] at this
  exact this

/-- **C42**, refused requests: an empty or negative batch is a `ValueError`. -/
theorem C42_rejected (w : NNWrapper) (hw : w.Exact) (bc : Int) (hbc : bc ≤ 0) (trainCount : Nat) (draw : List Nat)
    (hd' : IsDraw trainCount bc.toNat draw) :
    sampleBatch w bc trainCount draw = .error .value := by
  have hempty : w.getBatchNns (ofNats []) = .error .value := by
    unfold NNWrapper.getBatchNns
    obtain ⟨S, s1, s2, -⟩ := take_mat (idx := ofNats []) hw.1 (ofNats_valid (by simp))
    rw [s1]
    simp only [bind, Except.bind]
    have hs : S.shape = [0, w.f] := by rw [s2]; rfl
    unfold NNWrapper.query asTable
    simp only [hs]
    rw [if_pos (Or.inl trivial)]
  unfold sampleBatch choice
  by_cases h : bc < (trainCount : Int)
  · rw [if_pos h]
    by_cases h0 : bc < 0
    · rw [if_pos (Or.inl h0)]; rfl
    · rw [if_neg (by omega)]
      have : bc = 0 := by omega
      subst this
      have : draw = [] := by simpa using hd'.1
      subst this
      simp only [bind, Except.bind, hempty]
  · have : trainCount = 0 := by omega
    subst this
    rw [if_neg h]
    simp only [bind, Except.bind, List.range_zero, hempty]

/-- What the filter computes. -/
theorem filteredIndices_ok (w : NNWrapper) (hw : w.Exact) (labels : Tensor ℝ) (hl : labels.shape = [w.N])
    (hn : 0 < w.nnCount) (hkN : w.nnCount + 1 ≤ w.N) :
    ∃ F I D, w.getBatchNns (arange w.N) = .ok (I, D) ∧ I.shape = [w.N, w.nnCount] ∧
      filteredIndices w labels = .ok (F, I) ∧ F.Pairwise (· < ·) ∧
      (∀ i < w.N, ∀ j < w.nnCount, ((I.get [i, j]).toNat : Int) = I.get [i, j] ∧ (I.get [i, j]).toNat < w.N) ∧
      ∀ i, i ∈ F ↔ i < w.N ∧ ∃ j < w.nnCount, ∃ j' < w.nnCount,
        truncInt (labels.get [(I.get [i, j]).toNat]) ≠ truncInt (labels.get [(I.get [i, j']).toNat]) := by
  obtain ⟨I, D, i1, i2, -, i3⟩ := C41_batch_always w hw (arange w.N) w.N rfl (arange_valid _) (by omega) hkN
  have hrows : ∀ i < w.N, ∀ j < w.nnCount, ∃ x : Nat, I.get [i, j] = (x : Int) ∧ x < w.N := by
    intro i hi j hj
    obtain ⟨l, e1, e2, e3, e4, e5⟩ := i3 i hi
    obtain ⟨x, x1, x2⟩ := rowList_get e1 hj
    exact ⟨x, x2, e4 x (List.mem_of_getElem? x1)⟩
  have hv : AllValid w.N I := valid_of_rows i2 hrows
  obtain hnl := Tensor.take_ok labels I w.N [] hl hv
  set nl : Tensor ℝ := ⟨I.shape ++ [], fun k => labels.flat (Tensor.wrapIndex w.N (I.flat (k / [].prod)) * [].prod + k % [].prod)⟩ with hnldef
  have hnls : nl.shape = [w.N, w.nnCount] := by rw [hnldef]; simp [i2]
  have hget : ∀ i < w.N, ∀ j < w.nnCount, nl.get [i, j] = labels.get [(I.get [i, j]).toNat] := by
    intro i hi j hj
    obtain ⟨x, hx, hxN⟩ := hrows i hi j hj
    rw [Tensor.get2 nl hnls, hx, Int.toNat_natCast, Tensor.get1 labels hl, hnldef]
    rw [Tensor.get2 I i2] at hx
    simp [hx, Tensor.wrapIndex_nonneg, Nat.mod_one]
  refine ⟨(List.range w.N).filter (fun i => nonconstantRow ((List.range w.nnCount).map fun j => nl.get [i, j])),
    I, D, i1, i2, ?_, ?_, ?_, ?_⟩
  · unfold filteredIndices
    rw [hl]
    simp only [i1, hnl, bind, Except.bind]
    rw [if_neg (by omega)]
  · exact List.Pairwise.filter _ List.pairwise_lt_range
  · intro i hi j hj
    obtain ⟨x, hx, hxN⟩ := hrows i hi j hj
    rw [hx]; simp [hxN]
  · intro i
    rw [List.mem_filter, List.mem_range]
    unfold nonconstantRow
    rw [max_ne_min]
    constructor
    · rintro ⟨hi, a, ha, b, hb, hab⟩
      simp only [List.map_map, List.mem_map, List.mem_range, Function.comp] at ha hb
      obtain ⟨j, hj, rfl⟩ := ha
      obtain ⟨j', hj', rfl⟩ := hb
      rw [hget i hi j hj, hget i hi j' hj'] at hab
      exact ⟨hi, j, hj, j', hj', hab⟩
    · rintro ⟨hi, j, hj, j', hj', hab⟩
      refine ⟨hi, truncInt (nl.get [i, j]), ?_, truncInt (nl.get [i, j']), ?_, ?_⟩
      · simp only [List.map_map, List.mem_map, List.mem_range, Function.comp]
        exact ⟨j, hj, rfl⟩
      · simp only [List.map_map, List.mem_map, List.mem_range, Function.comp]
        exact ⟨j', hj', rfl⟩
      · rw [hget i hi j hj, hget i hi j' hj']; exact hab

theorem selectRows_get {α : Type} (t : Tensor α) (k : Nat) (l : List Nat) (q x : Nat) (hq : l[q]? = some x) (j : Nat)
    (hj : j < k) : (selectRows t k l).get [q, j] = t.get [x, j] := by
  have hlt : q < l.length := (List.getElem?_eq_some_iff.mp hq).1
  unfold selectRows
  rw [Tensor.get_ofFn _ _ _ (.cons hlt (.cons hj .nil))]
  simp [List.getD_eq_getElem?_getD, hq]

theorem selectRows_row {α : Type} (t : Tensor α) (k : Nat) (l : List Nat) (q x : Nat) (hq : l[q]? = some x) :
    rowList (selectRows t k l) k q = rowList t k x := by
  unfold rowList
  apply List.map_congr_left
  intro j hj
  exact selectRows_get t k l q x hq j (List.mem_range.mp hj)

/-- **C43**, filtered batch: for every integer-valued label vector the batch consists, in increasing order,
of exactly the training points whose neighbours (as `get_batch_nns` reports them) do not all carry the same
label, and row `q` of the neighbour tensor belongs to batch point `q`. Partial: labels must be integers, see
`C43_fractional_labels_fail`. -/
theorem C43_filtered_partial (w : NNWrapper) (hw : w.Exact) (labels : Tensor ℝ) (hl : labels.shape = [w.N])
    (hint : IntegerLabels labels w.N) (hn : 0 < w.nnCount) (hkN : w.nnCount + 1 ≤ w.N) :
    ∃ F nn I D, w.getBatchNns (arange w.N) = .ok (I, D) ∧ fullFilteredBatch w labels = .ok (F, nn) ∧
      F.Pairwise (· < ·) ∧ (∀ i, i ∈ F ↔ i < w.N ∧ MixedNeighbours labels I w.nnCount i) ∧
      nn.shape = [F.length, w.nnCount] ∧
      ∀ q x, F[q]? = some x → rowList nn w.nnCount q = rowList I w.nnCount x := by
  obtain ⟨F, I, D, h1, h2, h3, h4, h5, h6⟩ := filteredIndices_ok w hw labels hl hn hkN
  refine ⟨F, _, I, D, h1, ?_, h4, fun i => ?_, ?_, fun q x hq => selectRows_row I w.nnCount F q x hq⟩
  · unfold fullFilteredBatch
    rw [h3]; rfl
  · rw [h6 i]
    constructor
    · rintro ⟨hi, j, hj, j', hj', hne⟩
      exact ⟨hi, j, hj, j', hj', fun e => hne (by rw [e])⟩
    · rintro ⟨hi, j, hj, j', hj', hne⟩
      refine ⟨hi, j, hj, j', hj', ?_⟩
      obtain ⟨z, hz⟩ := hint _ (h5 i hi j hj).2
      obtain ⟨z', hz'⟩ := hint _ (h5 i hi j' hj').2
      rw [hz, hz'] at hne ⊢
      rw [truncInt_int, truncInt_int]
      exact fun e => hne (by rw [e])
  · rfl

/-- **C43 fails for fractional labels**: labels are converted to integers before they are compared, so
with labels strictly between -1 and 1 (such as 0.1 and 0.9) the filtered batch is empty, whatever the
neighbours are. -/
theorem C43_fractional_labels_fail (w : NNWrapper) (hw : w.Exact) (labels : Tensor ℝ) (hl : labels.shape = [w.N])
    (hsmall : ∀ i < w.N, -1 < labels.get [i] ∧ labels.get [i] < 1) (hn : 0 < w.nnCount) (hkN : w.nnCount + 1 ≤ w.N) :
    ∃ nn, fullFilteredBatch w labels = .ok ([], nn) := by
  obtain ⟨F, I, D, h1, h2, h3, h4, h5, h6⟩ := filteredIndices_ok w hw labels hl hn hkN
  have : F = [] := by
    rw [List.eq_nil_iff_forall_not_mem]
    intro i hi
    obtain ⟨hi, j, hj, j', hj', hne⟩ := (h6 i).mp hi
    apply hne
    have a := hsmall _ (h5 i hi j hj).2
    have b := hsmall _ (h5 i hi j' hj').2
    rw [truncInt_small _ a.1 a.2, truncInt_small _ b.1 b.2]
  subst this
  exact ⟨_, by unfold fullFilteredBatch; rw [h3]; rfl⟩

theorem classesOf_eq (labels : Tensor ℝ) (N : Nat) (hl : labels.shape = [N]) (classes : List ℝ)
    (h : IsClasses labels N classes) : classesOf labels = classes := by
  classical
  unfold classesOf
  rw [hl]
  apply List.Perm.eq_of_pairwise' (r := (· ≤ ·))
  · exact Finset.pairwise_sort _ _
  · exact h.1.imp le_of_lt
  · refine (List.perm_ext_iff_of_nodup (Finset.sort_nodup _ _) (h.1.imp ne_of_lt)).mpr fun c => ?_
    rw [Finset.mem_sort, h.2 c]
    simp only [List.mem_toFinset, List.mem_map, List.mem_range, List.getD_cons_zero, Tensor.get1 labels hl]

open Classical in
theorem flatten_parts (lab : Nat → ℝ) (L : List (ℝ × Nat)) (hL : (L.map Prod.fst).Nodup) (g : ℝ × Nat → List Nat)
    (hnd : ∀ ci ∈ L, (g ci).Nodup) (hlab : ∀ ci ∈ L, ∀ x ∈ g ci, lab x = ci.1) :
    (L.map g).flatten.Nodup ∧ ∀ ci ∈ L, (L.map g).flatten.filter (fun x => lab x = ci.1) = g ci := by
  induction L with
  | nil => simp
  | cons a L ih =>
    rw [List.map_cons, List.nodup_cons] at hL
    obtain ⟨i1, i2⟩ := ih hL.2 (fun ci h => hnd ci (List.mem_cons_of_mem _ h)) (fun ci h => hlab ci (List.mem_cons_of_mem _ h))
    have hmem : ∀ x ∈ (L.map g).flatten, ∃ ci ∈ L, lab x = ci.1 := by
      intro x hx
      simp only [List.mem_flatten, List.mem_map] at hx
      obtain ⟨_, ⟨ci, h1, rfl⟩, h2⟩ := hx
      exact ⟨ci, h1, hlab ci (List.mem_cons_of_mem _ h1) x h2⟩
    have hself : ∀ x ∈ g a, lab x = a.1 := hlab a (by simp)
    refine ⟨?_, ?_⟩
    · rw [List.map_cons, List.flatten_cons, List.nodup_append]
      refine ⟨hnd a (by simp), i1, ?_⟩
      rintro x hx y hy rfl
      obtain ⟨ci, h1, h2⟩ := hmem x hy
      exact hL.1 (List.mem_map.mpr ⟨ci, h1, by rw [← h2, hself x hx]⟩)
    · intro ci hci
      rw [List.map_cons, List.flatten_cons, List.filter_append]
      rcases List.mem_cons.mp hci with rfl | h
      · rw [List.filter_eq_self.mpr (by intro x hx; simpa using hself x hx), List.filter_eq_nil_iff.mpr, List.append_nil]
        intro x hx e
        obtain ⟨cj, h1, h2⟩ := hmem x hx
        refine hL.1 (List.mem_map.mpr ⟨cj, h1, ?_⟩)
        rw [← h2]; simpa using e
      · rw [i2 ci h, List.filter_eq_nil_iff.mpr, List.nil_append]
        intro x hx e
        refine hL.1 (List.mem_map.mpr ⟨ci, h, ?_⟩)
        rw [← hself x hx]; exact (by simpa using e : lab x = ci.1).symm

/-- **C43**, balanced batch: for every integer-valued label vector, batch count and random draws the balanced
batch consists of different points of the filtered batch, `min (available, batch_count / classes)` of every
class, at most `batch_count` in total, and row `q` of the neighbour tensor belongs to batch point `q`. -/
theorem C43_balanced_actual (w : NNWrapper) (hw : w.Exact) (labels : Tensor ℝ) (hl : labels.shape = [w.N])
    (hn : 0 < w.nnCount) (hkN : w.nnCount + 1 ≤ w.N) (bc : Nat) (draws : List (List Nat)) (classes : List ℝ)
    (hc : IsClasses labels w.N classes) (F : List Nat) (nnF I : Tensor Int) (D : Tensor ℝ)
    (hI : w.getBatchNns (arange w.N) = .ok (I, D)) (hF : fullFilteredBatch w labels = .ok (F, nnF))
    (hd : ∀ i c, classes[i]? = some c → IsDraw (countClass labels F c) (min (countClass labels F c) (bc / classes.length))
      (draws.getD i [])) :
    ∃ idx nn, sampleBalancedBatch w labels bc draws = .ok (idx, nn) ∧ idx.Nodup ∧ (∀ i ∈ idx, i ∈ F) ∧
      (∀ c ∈ classes, countClass labels idx c = min (countClass labels F c) (bc / classes.length)) ∧
      idx.length ≤ bc ∧ nn.shape = [idx.length, w.nnCount] ∧
      ∀ q x, idx[q]? = some x → rowList nn w.nnCount q = rowList I w.nnCount x := by
  classical
  obtain ⟨F', I', D', h1, h2, h3, h4, h5, h6⟩ := filteredIndices_ok w hw labels hl hn hkN
  obtain ⟨rfl, rfl⟩ := Prod.mk.inj (Except.ok.inj (hI.symm.trans h1))
  obtain rfl : F = F' := by
    unfold fullFilteredBatch at hF
    rw [h3] at hF
    exact (Prod.mk.inj (Except.ok.inj hF)).1.symm
  have hcl := classesOf_eq labels w.N hl classes hc
  set cands : ℝ → List Nat := fun c => classIndices labels F c with hcands
  have hclen : ∀ c, (cands c).length = countClass labels F c := by
    intro c
    simp only [hcands, classIndices, countClass, Tensor.get1 labels hl]
  set g : ℝ × Nat → List Nat := fun ci => (draws.getD ci.2 []).map fun p => (cands ci.1).getD p 0 with hg
  have hnzc : ∀ (c : ℝ) (i : Nat), (c, i) ∈ classes.zipIdx → classes[i]? = some c := by
    intro c i h
    exact List.mem_zipIdx_iff_getElem?.mp h
  have hmapM : classes.zipIdx.mapM (fun ci => (do
      let cands := classIndices labels F ci.1
      let pos ← choice cands.length (min (cands.length : Int) ((bc : Int).tdiv classes.length)) (draws.getD ci.2 [])
      return pos.map fun p => cands.getD p 0 : Res (List Nat))) = .ok (classes.zipIdx.map g) := by
    apply Mpi.mapM_ok
    rintro ⟨c, i⟩ hci
    have hdr := hd i c (hnzc c i hci)
    have hq : ((bc : Int).tdiv classes.length) = ((bc / classes.length : Nat) : Int) := by
      rw [Int.tdiv_eq_ediv_of_nonneg (by omega)]; rfl
    simp only [hq, choice]
    rw [if_neg (not_or.mpr ⟨not_lt.mpr (le_min (Int.natCast_nonneg _) (Int.natCast_nonneg _)),
      not_lt.mpr (min_le_left _ _)⟩)]
    rfl
  have hcand_nd : ∀ c, (cands c).Nodup := fun c => by
    have : F.Nodup := h4.imp ne_of_lt
    exact this.filter _
  have hcand_mem : ∀ c x, x ∈ cands c → x ∈ F ∧ labels.get [x] = c := by
    intro c x hx
    simp only [hcands, classIndices, List.mem_filter, decide_eq_true_eq] at hx
    exact ⟨hx.1, by rw [Tensor.get1 labels hl]; exact hx.2⟩
  have hgprop : ∀ ci ∈ classes.zipIdx, (g ci).Nodup ∧ (∀ x ∈ g ci, x ∈ F ∧ labels.get [x] = ci.1) ∧
      (g ci).length = min (countClass labels F ci.1) (bc / classes.length) := by
    rintro ⟨c, i⟩ hci
    obtain ⟨d1, d2, d3⟩ := hd i c (hnzc c i hci)
    rw [← hclen c] at d3
    have hgd : ∀ p < (cands c).length, (cands c)[p]? = some ((cands c).getD p 0) := by
      intro p hp
      rw [List.getD_eq_getElem?_getD, List.getElem?_eq_getElem hp, Option.getD_some]
    refine ⟨?_, ?_, ?_⟩
    · refine List.Nodup.map_on ?_ d2
      intro p hp p' hp' e
      have a := hgd p (d3 p hp)
      have b := hgd p' (d3 p' hp')
      have hp1 : p < (cands c).length := d3 p hp
      rw [← e] at b
      have hab : (cands c)[p]? = (cands c)[p']? := a.trans b.symm
      exact (List.getElem?_inj hp1 (hcand_nd c)).mp hab
    · intro x hx
      simp only [hg, List.mem_map] at hx
      obtain ⟨p, hp, rfl⟩ := hx
      exact hcand_mem c _ (List.mem_of_getElem? (hgd p (d3 p hp)))
    · simp only [hg, List.length_map]; exact d1
  have hfst : (classes.zipIdx.map Prod.fst) = classes := by simp
  obtain ⟨f1, f2⟩ := flatten_parts (fun x => labels.get [x]) classes.zipIdx (by rw [hfst]; exact hc.1.imp ne_of_lt) g
    (fun ci h => (hgprop ci h).1) (fun ci h x hx => ((hgprop ci h).2.1 x hx).2)
  refine ⟨(classes.zipIdx.map g).flatten, _, ?_, f1, ?_, ?_, ?_, rfl, fun q x hq => selectRows_row I w.nnCount _ q x hq⟩
  · unfold sampleBalancedBatch
    rw [h3]
    simp only [bind, Except.bind] at hmapM ⊢
    rw [hcl, hmapM]
    rfl
  · intro x hx
    simp only [List.mem_flatten, List.mem_map] at hx
    obtain ⟨_, ⟨ci, a1, rfl⟩, a2⟩ := hx
    exact ((hgprop ci a1).2.1 x a2).1
  · intro c hcm
    obtain ⟨i, hi⟩ := List.getElem?_of_mem hcm
    have hz : (c, i) ∈ classes.zipIdx := List.mem_zipIdx_iff_getElem?.mpr hi
    rw [← (hgprop (c, i) hz).2.2, ← f2 (c, i) hz, countClass]
  · rw [List.length_flatten, List.map_map]
    calc (classes.zipIdx.map (List.length ∘ g)).sum ≤ (classes.zipIdx.map fun _ => bc / classes.length).sum := by
          apply List.sum_le_sum
          intro ci hci
          rw [Function.comp, (hgprop ci hci).2.2]
          exact min_le_right _ _
      _ = classes.length * (bc / classes.length) := by simp
      _ ≤ bc := Nat.mul_div_le _ _

/-- **C43**, equal representation: with at least `batch_count / classes` filtered points in every class, the
balanced batch has equally many points of every class. Partial: see `C43_short_class_fails`. -/
theorem C43_balanced_partial (w : NNWrapper) (hw : w.Exact) (labels : Tensor ℝ) (hl : labels.shape = [w.N])
    (hn : 0 < w.nnCount) (hkN : w.nnCount + 1 ≤ w.N) (bc : Nat) (draws : List (List Nat)) (classes : List ℝ)
    (hc : IsClasses labels w.N classes) (F : List Nat) (nnF : Tensor Int) (hF : fullFilteredBatch w labels = .ok (F, nnF))
    (hd : ∀ i c, classes[i]? = some c → IsDraw (countClass labels F c) (min (countClass labels F c) (bc / classes.length))
      (draws.getD i []))
    (henough : ∀ c ∈ classes, bc / classes.length ≤ countClass labels F c) :
    ∃ idx nn, sampleBalancedBatch w labels bc draws = .ok (idx, nn) ∧ idx.Nodup ∧ (∀ i ∈ idx, i ∈ F) ∧
      idx.length ≤ bc ∧ ∀ c ∈ classes, ∀ c' ∈ classes, countClass labels idx c = countClass labels idx c' := by
  obtain ⟨I, D, i1, -⟩ := C41_batch_always w hw (arange w.N) w.N rfl (arange_valid _) (by omega) hkN
  obtain ⟨idx, nn, h1, h2, h3, h4, h5, -⟩ := C43_balanced_actual w hw labels hl hn hkN bc draws classes hc F nnF I D i1 hF hd
  refine ⟨idx, nn, h1, h2, h3, h5, fun c hc c' hc' => ?_⟩
  rw [h4 c hc, h4 c' hc', min_eq_right (henough c hc), min_eq_right (henough c' hc')]

/-- **C43 fails when a class has too few filtered points**: a class with fewer than `batch_count / classes`
filtered points has fewer points in the balanced batch than a class that has more. -/
theorem C43_short_class_fails (w : NNWrapper) (hw : w.Exact) (labels : Tensor ℝ) (hl : labels.shape = [w.N])
    (hn : 0 < w.nnCount) (hkN : w.nnCount + 1 ≤ w.N) (bc : Nat) (draws : List (List Nat)) (classes : List ℝ)
    (hc : IsClasses labels w.N classes) (F : List Nat) (nnF : Tensor Int) (hF : fullFilteredBatch w labels = .ok (F, nnF))
    (hd : ∀ i c, classes[i]? = some c → IsDraw (countClass labels F c) (min (countClass labels F c) (bc / classes.length))
      (draws.getD i [])) (c c' : ℝ) (h : c ∈ classes) (h' : c' ∈ classes)
    (hshort : countClass labels F c < bc / classes.length) (hmore : countClass labels F c < countClass labels F c') :
    ∃ idx nn, sampleBalancedBatch w labels bc draws = .ok (idx, nn) ∧
      countClass labels idx c < countClass labels idx c' := by
  obtain ⟨I, D, i1, -⟩ := C41_batch_always w hw (arange w.N) w.N rfl (arange_valid _) (by omega) hkN
  obtain ⟨idx, nn, h1, h2, h3, h4, h5, -⟩ := C43_balanced_actual w hw labels hl hn hkN bc draws classes hc F nnF I D i1 hF hd
  refine ⟨idx, nn, h1, ?_⟩
  rw [h4 c h, h4 c' h']
  omega

/-- **C43**, tiny batches: a balanced batch of fewer points than there are classes is empty. -/
theorem C43_fewer_than_classes_empty (w : NNWrapper) (hw : w.Exact) (labels : Tensor ℝ) (hl : labels.shape = [w.N])
    (hn : 0 < w.nnCount) (hkN : w.nnCount + 1 ≤ w.N) (bc : Nat) (draws : List (List Nat)) (classes : List ℝ)
    (hc : IsClasses labels w.N classes) (hfew : bc < classes.length)
    (hd : ∀ i, i < classes.length → draws.getD i [] = []) :
    ∃ nn, sampleBalancedBatch w labels bc draws = .ok ([], nn) := by
  obtain ⟨I, D, i1, -⟩ := C41_batch_always w hw (arange w.N) w.N rfl (arange_valid _) (by omega) hkN
  obtain ⟨F, I', D', -, -, h3, -⟩ := filteredIndices_ok w hw labels hl hn hkN
  have hF : fullFilteredBatch w labels = .ok (F, selectRows I' w.nnCount F) := by
    unfold fullFilteredBatch; rw [h3]; rfl
  have hz : bc / classes.length = 0 := Nat.div_eq_of_lt hfew
  obtain ⟨idx, nn, h1, -, h3', h4, -⟩ := C43_balanced_actual w hw labels hl hn hkN bc draws classes hc F _ I D i1 hF
    (fun i c hi => by
      rw [hd i (List.getElem?_eq_some_iff.mp hi).1, hz, Nat.min_zero]
      exact ⟨rfl, List.nodup_nil, by simp⟩)
  have : idx = [] := by
    classical
    rw [List.eq_nil_iff_forall_not_mem]
    intro x hx
    have hxN : x < w.N := by
      obtain ⟨_, _, _, -, -, g3, -, -, g6⟩ := filteredIndices_ok w hw labels hl hn hkN
      rw [h3] at g3
      obtain ⟨rfl, rfl⟩ := Prod.mk.inj (Except.ok.inj g3)
      exact ((g6 x).mp (h3' x hx)).1
    have hcx : labels.get [x] ∈ classes := (hc.2 _).mpr ⟨x, hxN, rfl⟩
    have := h4 _ hcx
    rw [hz, Nat.min_zero, countClass, List.length_eq_zero_iff, List.filter_eq_nil_iff] at this
    exact this x hx (by simp)
  subst this
  exact ⟨nn, h1⟩

/-- **C43**, which batch: `get_balanced_batch` returns the whole filtered batch when `batch_count` is at least
the number of labels, a balanced sample otherwise. -/
theorem C43_choice (w : NNWrapper) (labels : Tensor ℝ) (N : Nat) (hl : labels.shape = [N]) (bc : Int)
    (draws : List (List Nat)) :
    (bc < N → getBalancedBatch w labels bc draws = sampleBalancedBatch w labels bc draws) ∧
    ((N : Int) ≤ bc → getBalancedBatch w labels bc draws = fullFilteredBatch w labels) := by
  unfold getBalancedBatch
  rw [hl]
  exact ⟨fun h => by simp only; rw [if_pos h], fun h => by simp only; rw [if_neg (by omega)]⟩

/-- With `nn_count = train_count - 1` the neighbours of a point are all other points. -/
theorem all_others {N i n : Nat} (hn : n + 1 = N) (hi : i < N) {l : List Nat} {d : Nat → ℝ}
    (h : Nearest (fun j => j < N ∧ j ≠ i) d n l) (x : Nat) (hx : x < N) (hne : x ≠ i) : x ∈ l := by
  by_contra hnot
  have hcard : (l.toFinset ∪ {x, i}).card ≤ N := by
    have hsub : l.toFinset ∪ {x, i} ⊆ Finset.range N := by
      intro y hy
      simp only [Finset.mem_union, List.mem_toFinset, Finset.mem_insert, Finset.mem_singleton] at hy
      rw [Finset.mem_range]
      rcases hy with hy | rfl | rfl
      · exact (h.mem y hy).1
      · exact hx
      · exact hi
    simpa using Finset.card_le_card hsub
  have hdisj : Disjoint l.toFinset {x, i} := by
    rw [Finset.disjoint_left]
    intro y hy hy'
    simp only [Finset.mem_insert, Finset.mem_singleton] at hy'
    rw [List.mem_toFinset] at hy
    rcases hy' with rfl | rfl
    · exact hnot hy
    · exact (h.mem y hy).2 rfl
  rw [Finset.card_union_of_disjoint hdisj, List.toFinset_card_of_nodup h.nodup, h.length,
    Finset.card_pair hne] at hcard
  omega

/-- Concrete training set for the batch properties: points 0, 1, 2 on the line with labels 0, 1, 1. -/
noncomputable def batchTrain : Tensor ℝ := ⟨[3, 1], fun k => k⟩

/-- Labels 0, 1, 1. -/
noncomputable def batchLabels : Tensor ℝ := ⟨[3], fun k => if k = 0 then 0 else 1⟩

/-- The neighbours of each of the three points are the other two, so point 0 is filtered out (its
neighbours both have label 1): a balanced batch of two points has no point of class 0 and one of class 1.
This also shows that the hypotheses of the theorems above can be met. -/
theorem C43_witness (answer : (Fin 1 → ℝ) → Nat → List Nat) (draw : List Nat) (hdraw : IsDraw 2 1 draw) :
    let w : NNWrapper := ⟨3, 1, batchTrain, 2, fun x y => |x 0 - y 0|, false, answer⟩
    w.Exact → IsClasses batchLabels 3 [0, 1] ∧ IntegerLabels batchLabels 3 ∧
      (∃ nn, fullFilteredBatch w batchLabels = .ok ([1, 2], nn)) ∧
      ∃ idx nn, getBalancedBatch w batchLabels 2 [[], draw] = .ok (idx, nn) ∧
        countClass batchLabels idx 0 = 0 ∧ countClass batchLabels idx 1 = 1 := by
  intro w hw
  have hr : ∀ i, rowPt batchTrain 1 i 0 = i := by
    intro i; simp [rowPt, batchTrain, Tensor.get, Tensor.ravel]
  have hsep : ∀ i < w.N, ∀ j < w.N, j ≠ i → 0 < w.dist (rowPt w.train w.f i) (rowPt w.train w.f j) := by
    intro i hi j hj hji
    show 0 < |rowPt batchTrain 1 i 0 - rowPt batchTrain 1 j 0|
    rw [hr, hr, abs_pos, sub_ne_zero]
    exact_mod_cast Ne.symm hji
  have hlab : ∀ i, batchLabels.get [i] = if i = 0 then 0 else 1 := by
    intro i; rw [Tensor.get1 batchLabels rfl]; rfl
  have hcl : IsClasses batchLabels 3 [0, 1] := by
    refine ⟨by simp, fun c => ?_⟩
    simp only [hlab, List.mem_cons, List.not_mem_nil, or_false]
    constructor
    · rintro (rfl | rfl)
      · exact ⟨0, by omega, by simp⟩
      · exact ⟨1, by omega, by simp⟩
    · rintro ⟨i, -, h⟩
      split_ifs at h <;> simp [← h]
  have hint : IntegerLabels batchLabels 3 := by
    intro i _
    rw [hlab]
    split_ifs
    · exact ⟨0, by simp⟩
    · exact ⟨1, by simp⟩
  obtain ⟨F, nn, I, D, f1, f2, f3, f4, f5, f6⟩ := C43_filtered_partial w hw batchLabels rfl hint (by show 0 < 2; omega) (le_refl 3)
  obtain ⟨I', D', g1, -, -, g2⟩ := C41_batch_partial w hw (arange w.N) w.N rfl (arange_valid _) (by show 0 < 3; omega) (le_refl 3)
    (fun x => by simp [w]) (fun i hi j hj hne => by
      rw [arange_get, pointOf_nat] at hne ⊢
      exact hsep i hi j hj hne)
  obtain ⟨rfl, rfl⟩ := Prod.mk.inj (Except.ok.inj (f1.symm.trans g1))
  have hrow : ∀ i < 3, ∃ l : List Nat, rowList I 2 i = l.map Int.ofNat ∧ (∀ x ∈ l, x < 3 ∧ x ≠ i) ∧
      (∀ x < 3, x ≠ i → x ∈ l) ∧ l.length = 2 := by
    intro i hi
    obtain ⟨⟨l, l1, l2⟩, -⟩ := g2 i hi
    rw [arange_get, pointOf_nat] at l2
    exact ⟨l, l1, fun x hx => l2.mem x hx, fun x hx hne => all_others rfl hi l2 x hx hne, l2.length⟩
  have hpos : ∀ i < 3, ∀ x < 3, x ≠ i → ∃ j < 2, I.get [i, j] = (x : Int) := by
    intro i hi x hx hne
    obtain ⟨l, l1, -, l3, l4⟩ := hrow i hi
    obtain ⟨j, hj⟩ := List.getElem?_of_mem (l3 x hx hne)
    have hj2 : j < 2 := by rw [← l4]; exact (List.getElem?_eq_some_iff.mp hj).1
    obtain ⟨y, y1, y2⟩ := rowList_get l1 hj2
    rw [hj] at y1
    exact ⟨j, hj2, by rw [y2, ← Option.some.inj y1]⟩
  have hF : ∀ i, i ∈ F ↔ i = 1 ∨ i = 2 := by
    intro i
    rw [f4 i]
    constructor
    · rintro ⟨hi, j, hj, j', hj', hne⟩
      have hi3 : i < 3 := hi
      obtain ⟨l, l1, l2, -, -⟩ := hrow i hi3
      obtain ⟨x, x1, x2⟩ := rowList_get l1 hj
      obtain ⟨x', x1', x2'⟩ := rowList_get l1 hj'
      have a := l2 x (List.mem_of_getElem? x1)
      have a' := l2 x' (List.mem_of_getElem? x1')
      rw [x2, x2', Int.toNat_natCast, Int.toNat_natCast, hlab, hlab] at hne
      by_contra hno
      have : i = 0 := by omega
      subst this
      rw [if_neg a.2, if_neg a'.2] at hne
      exact hne rfl
    · intro hi
      have hi3 : i < 3 := by omega
      obtain ⟨j, hj, e⟩ := hpos i hi3 0 (by omega) (by omega)
      obtain ⟨j', hj', e'⟩ := hpos i hi3 (3 - i) (by omega) (by omega)
      refine ⟨hi3, j, hj, j', hj', ?_⟩
      rw [e, e', Int.toNat_natCast, Int.toNat_natCast, hlab, hlab, if_pos rfl, if_neg (by omega)]
      norm_num
  have hF2 : F = [1, 2] := by
    apply List.Perm.eq_of_pairwise' (r := (· ≤ ·)) (f3.imp le_of_lt) (by simp)
    refine (List.perm_ext_iff_of_nodup (f3.imp ne_of_lt) (by simp)).mpr fun i => ?_
    rw [hF i]; simp
  subst hF2
  have hc0 : countClass batchLabels [1, 2] 0 = 0 := by simp [countClass, hlab]
  have hc1 : countClass batchLabels [1, 2] 1 = 2 := by simp [countClass, hlab]
  obtain ⟨idx, nn', h1, -, -, h4, -⟩ := C43_balanced_actual w hw batchLabels rfl (by show 0 < 2; omega) (le_refl 3) 2 [[], draw] [0, 1]
    hcl [1, 2] nn I D f1 f2 (by
      intro i c hi
      match i with
      | 0 =>
        obtain rfl : (0 : ℝ) = c := by simpa using hi
        rw [hc0]; exact ⟨rfl, List.nodup_nil, by simp⟩
      | 1 =>
        obtain rfl : (1 : ℝ) = c := by simpa using hi
        rw [hc1]; exact hdraw
      | i + 2 => simp at hi)
  refine ⟨hcl, hint, ⟨nn, f2⟩, idx, nn', ?_, ?_, ?_⟩
  · rw [(C43_choice w batchLabels 3 rfl 2 _).1 (by norm_num)]; exact h1
  · rw [h4 0 (by simp), hc0]; rfl
  · rw [h4 1 (by simp), hc1]; rfl

/-- Such an index exists. -/
example : ∃ answer, NNWrapper.Exact ⟨3, 1, batchTrain, 2, fun x y => |x 0 - y 0|, false, answer⟩ :=
  exact_index_exists 3 1 2 batchTrain rfl _ _

end MuyGPyS
