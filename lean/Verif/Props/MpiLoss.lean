import Verif.Model.MpiLoss
import Verif.Lemmas.Mpi
import Verif.Props.Loss

/-!
# Property C05: MPI losses equal the serial losses
-/

namespace MuyGPyS.Mpi
open Py Loss

theorem mapM_ok {α β : Type _} (f : α → Res β) (g : α → β) (l : List α)
    (h : ∀ a ∈ l, f a = .ok (g a)) : l.mapM f = .ok (l.map g) := by
  induction l with
  | nil => rfl
  | cons a l ih =>
    rw [List.mapM_cons, h a (by simp), ih fun b hb => h b (by simp [hb])]
    rfl

theorem allreduceSum_eq (l : List ℝ) : allreduceSum l = l.sum := by
  induction l with
  | nil => rfl
  | cons a l ih => rw [List.sum_cons, ← ih]; rfl

theorem reduceLocal_ok {α : Type} (f : α → Res ℝ) (g : α → ℝ) (l : List α)
    (h : ∀ a ∈ l, f a = .ok (g a)) : reduceLocal f l = .ok (l.map g).sum := by
  unfold reduceLocal
  rw [mapM_ok f g l h]
  show Except.ok _ = _
  rw [allreduceSum_eq]

theorem chunksOf_zip {α β : Type _} (size : Nat) (a : List α) (b : List β) (h : a.length = b.length) :
    ((chunksOf size a).zip (chunksOf size b)).map (fun c => c.1.zip c.2)
      = chunksOf size (a.zip b) := by
  rw [List.zip_eq_zipWith, List.map_zipWith]
  exact chunksOf_zipWith Prod.mk size a b h

/-- the chunks of two tensors with equally many rows have equally many rows on every rank -/
theorem chunk_len {α β : Type _} (size : Nat) (a : List α) (b : List β) (h : a.length = b.length)
    (c : List α × List β) (hc : c ∈ (chunksOf size a).zip (chunksOf size b)) :
    c.1.length = c.2.length := by
  have := congrArg (List.map List.length) (show (chunksOf size a).map (List.map fun _ => ()) =
    (chunksOf size b).map (List.map fun _ => ()) by
      rw [chunksOf_map, chunksOf_map]; congr 1
      apply List.ext_getElem <;> simp [h])
  simp only [List.map_map, Function.comp_def, List.length_map] at this
  obtain ⟨i, hi, rfl⟩ := List.mem_iff_getElem.1 hc
  simp only [List.getElem_zip]
  have h2 := congrArg (fun l => l[i]?) this
  simp only [List.length_zip, lt_inf_iff] at hi
  simpa [hi.1, hi.2] using h2

/-- rows of chunks are rows of the tensor -/
theorem chunk_mem {α : Type _} {size : Nat} (h : 0 < size) (t : List α) {c : List α}
    (hc : c ∈ chunksOf size t) {x : α} (hx : x ∈ c) : x ∈ t := by
  rw [← chunksOf_flatten h t]
  exact List.mem_flatten.2 ⟨c, hc, hx⟩

theorem flatten_len (a b : List (List ℝ)) (h : List.Forall₂ (fun x y => x.length = y.length) a b) :
    a.flatten.length = b.flatten.length := by
  induction h with
  | nil => rfl
  | cons h _ ih => simp [h, ih]

theorem zipWith_flatten_sum (f : ℝ → ℝ → ℝ) (a b : List (List ℝ))
    (h : List.Forall₂ (fun x y => x.length = y.length) a b) :
    (List.zipWith f a.flatten b.flatten).sum
      = ((a.zip b).map fun r => (List.zipWith f r.1 r.2).sum).sum := by
  induction h with
  | nil => rfl
  | @cons x y a b h _ ih =>
    simp only [List.flatten_cons, List.zip_cons_cons, List.map_cons, List.sum_cons]
    rw [List.zipWith_append h, List.sum_append, ih]

theorem forall2_of_cols {k : Nat} (a b : List (List ℝ)) (hl : a.length = b.length)
    (ha : ∀ r ∈ a, r.length = k) (hb : ∀ r ∈ b, r.length = k) :
    List.Forall₂ (fun x y => x.length = y.length) a b := by
  rw [List.forall₂_iff_get]
  refine ⟨hl, fun i h1 h2 => ?_⟩
  rw [ha _ (List.get_mem _ _), hb _ (List.get_mem _ _)]

/-- sum over ranks of a sum over the rank's rows = sum over all rows -/
theorem sum_chunks {β : Type} {size : Nat} (h : 0 < size) (t : List β) (g : β → ℝ) :
    ((chunksOf size t).map fun c => (c.map g).sum).sum = (t.map g).sum := by
  conv_rhs => rw [← chunksOf_flatten h t]
  rw [List.map_flatten, List.sum_flatten, List.map_map]
  rfl

/-- per-rank sums of an elementwise function over 2-D chunks add up to the serial sum -/
theorem sum_rank_entries {size k : Nat} (h : 0 < size) (f : ℝ → ℝ → ℝ) (p t : List (List ℝ))
    (hl : p.length = t.length) (hp : ∀ r ∈ p, r.length = k) (ht : ∀ r ∈ t, r.length = k) :
    (((chunksOf size p).zip (chunksOf size t)).map fun c =>
      (List.zipWith f c.1.flatten c.2.flatten).sum).sum
      = (List.zipWith f p.flatten t.flatten).sum := by
  rw [zipWith_flatten_sum f p t (forall2_of_cols p t hl hp ht),
    ← sum_chunks h (p.zip t) fun r => (List.zipWith f r.1 r.2).sum, ← chunksOf_zip size p t hl,
    List.map_map]
  congr 1
  refine List.map_congr_left fun c hc => ?_
  have hm := List.of_mem_zip (show (c.1, c.2) ∈ _ from hc)
  exact zipWith_flatten_sum f _ _ (forall2_of_cols _ _ (chunk_len size p t hl c hc)
    (fun r hr => hp r (chunk_mem h p hm.1 hr)) (fun r hr => ht r (chunk_mem h t hm.2 hr)))

theorem rank_flatten_len {size k : Nat} (h : 0 < size) (p t : List (List ℝ))
    (hl : p.length = t.length) (hp : ∀ r ∈ p, r.length = k) (ht : ∀ r ∈ t, r.length = k)
    (c : List (List ℝ) × List (List ℝ)) (hc : c ∈ (chunksOf size p).zip (chunksOf size t)) :
    c.1.flatten.length = c.2.flatten.length := by
  have hm := List.of_mem_zip (show (c.1, c.2) ∈ _ from hc)
  exact flatten_len _ _ (forall2_of_cols _ _ (chunk_len size p t hl c hc)
    (fun r hr => hp r (chunk_mem h p hm.1 hr)) (fun r hr => ht r (chunk_mem h t hm.2 hr)))

/-- **C05**, mean squared error and pseudo-Huber: for every number of ranks, every number of rows
(also fewer rows than ranks, or none) and of columns, distributing predictions and targets and
calling the MPI loss gives the serial loss of the undistributed arrays. -/
theorem C05_mse_pseudo_huber (size : Nat) (h : 0 < size) (k : Nat) (p t : List (List ℝ)) (δ : ℝ)
    (hl : p.length = t.length) (hp : ∀ r ∈ p, r.length = k) (ht : ∀ r ∈ t, r.length = k) :
    ∃ cp ct, rootChunks size [p, t] = .ok [cp, ct] ∧
      mseMpi (cp.zip ct) = mse p.flatten t.flatten ∧
      pseudoHuberMpi δ (cp.zip ct) = pseudoHuber p.flatten t.flatten δ ∧
      (mse p.flatten t.flatten).isOk ∧ (pseudoHuber p.flatten t.flatten δ).isOk := by
  have hfl : p.flatten.length = t.flatten.length :=
    flatten_len p t (forall2_of_cols p t hl hp ht)
  refine ⟨chunksOf size p, chunksOf size t, rootChunks_eq h p [t] (by simp [hl]), ?_, ?_,
    by rw [mse_eq hfl]; rfl, by rw [pseudoHuber_eq δ hfl]; rfl⟩
  · rw [mse_eq hfl]
    unfold mseMpi
    rw [reduceLocal_ok _ (fun c => (List.zipWith (fun p t => (p - t) ^ 2) c.1.flatten c.2.flatten).sum)]
    rw [reduceLocal_ok (fun c : List (List ℝ) × List (List ℝ) => .ok (c.1.flatten.length : ℝ))
      (fun c => (c.1.flatten.length : ℝ)) _ fun _ _ => rfl]
    · show Except.ok _ = _
      congr 2
      · exact sum_rank_entries h _ p t hl hp ht
      · have : ((chunksOf size p).zip (chunksOf size t)).map
            (fun c => (c.1.flatten.length : ℝ)) = (chunksOf size p).map
            fun c => (c.map fun r => (r.length : ℝ)).sum := by
          rw [List.zip_eq_zipWith, List.map_zipWith]
          apply List.ext_getElem
          · simp [chunksOf_length]
          · intro i h1 h2
            simp [List.length_flatten, Nat.cast_list_sum, Function.comp_def]
        rw [this, sum_chunks h p fun r => (r.length : ℝ)]
        simp [List.length_flatten, Nat.cast_list_sum, Function.comp_def]
    · intro c hc
      have := rank_flatten_len h p t hl hp ht c hc
      unfold mseUnnormalized zip2
      rw [if_pos this]; rfl
  · rw [pseudoHuber_eq δ hfl]
    unfold pseudoHuberMpi
    rw [reduceLocal_ok _ (fun c => δ ^ 2 *
      (List.zipWith (fun p t => Real.sqrt (1 + ((t - p) / δ) ^ 2) - 1) c.1.flatten c.2.flatten).sum)]
    · rw [List.sum_map_mul_left, sum_rank_entries h _ p t hl hp ht]
    · intro c hc
      exact pseudoHuber_eq δ (rank_flatten_len h p t hl hp ht c hc)

theorem chunksOf_zip3 {α β γ : Type _} (size : Nat) (a : List α) (b : List β) (c : List γ)
    (h : a.length = b.length) (h2 : b.length = c.length) :
    ((chunksOf size a).zip ((chunksOf size b).zip (chunksOf size c))).map
      (fun r => r.1.zip (r.2.1.zip r.2.2)) = chunksOf size (a.zip (b.zip c)) := by
  rw [← chunksOf_zip size a (b.zip c) (by simp [h, h2]), ← chunksOf_zip size b c h2]
  rw [List.zip_map_right, List.map_map]
  rfl

theorem chunk_len3 {α β γ : Type _} (size : Nat) (a : List α) (b : List β) (c : List γ)
    (h : a.length = b.length) (h2 : b.length = c.length) (r : List α × List β × List γ)
    (hr : r ∈ (chunksOf size a).zip ((chunksOf size b).zip (chunksOf size c))) :
    r.1.length = r.2.1.length ∧ r.2.1.length = r.2.2.length := by
  have hm := List.of_mem_zip (show (r.1, r.2) ∈ _ from hr)
  have e2 := chunk_len size b c h2 r.2 hm.2
  refine ⟨?_, e2⟩
  refine chunk_len size a b h (r.1, r.2.1) ?_
  obtain ⟨i, hi, hri⟩ := List.mem_iff_getElem.1 hr
  simp only [List.getElem_zip] at hri
  rw [← hri]
  simp only [List.length_zip, lt_inf_iff] at hi
  exact List.mem_iff_getElem.2 ⟨i, by simp [hi], by simp⟩

theorem zip3_sum (f : ℝ → ℝ → ℝ → ℝ) (p t v : List ℝ) :
    (List.zipWith (fun pt v => f pt.1 pt.2 v) (p.zip t) v).sum
      = ((p.zip (t.zip v)).map fun r => f r.1 r.2.1 r.2.2).sum := by
  induction p generalizing t v with
  | nil => simp
  | cons x p ih =>
    cases t with
    | nil => simp
    | cons y t =>
      cases v with
      | nil => simp
      | cons z v => simp [ih]

/-- the serial losses with variances are sums of one term per batch element; so are their MPI
versions, over the ranks' elements -/
theorem reduce_terms {size : Nat} (h : 0 < size) (F : List ℝ → List ℝ → List ℝ → Res ℝ)
    (f : ℝ → ℝ → ℝ → ℝ)
    (hF : ∀ p t v : List ℝ, p.length = t.length → t.length = v.length →
      F p t v = .ok ((p.zip (t.zip v)).map fun r => f r.1 r.2.1 r.2.2).sum)
    (p t v : List ℝ) (h1 : p.length = t.length) (h2 : t.length = v.length) :
    reduceLocal (fun c => F c.1 c.2.1 c.2.2)
      ((chunksOf size p).zip ((chunksOf size t).zip (chunksOf size v))) = F p t v := by
  rw [reduceLocal_ok _ (fun c => ((c.1.zip (c.2.1.zip c.2.2)).map fun r => f r.1 r.2.1 r.2.2).sum),
    hF p t v h1 h2]
  · congr 1
    rw [← sum_chunks h (p.zip (t.zip v)) fun r => f r.1 r.2.1 r.2.2,
      ← chunksOf_zip3 size p t v h1 h2, List.map_map]
    rfl
  · intro c hc
    have := chunk_len3 size p t v h1 h2 c hc
    exact hF _ _ _ this.1 this.2

/-- **C05**, lool and looph: for every number of ranks, batch, scale and boundary scale,
distributing predictions, targets and variances and calling the MPI loss gives the serial loss. -/
theorem C05_lool_looph (size : Nat) (h : 0 < size) (p t v : List ℝ) (scale δ : ℝ)
    (h1 : p.length = t.length) (h2 : t.length = v.length) :
    ∃ cp ct cv, rootChunks size [p, t, v] = .ok [cp, ct, cv] ∧
      loolMpi scale (cp.zip (ct.zip cv)) = lool p t v scale ∧
      loophMpi scale δ (cp.zip (ct.zip cv)) = looph p t v scale δ ∧
      (lool p t v scale).isOk ∧ (looph p t v scale δ).isOk := by
  have e1 : ∀ p t v : List ℝ, p.length = t.length → t.length = v.length →
      lool p t v scale
        = .ok ((p.zip (t.zip v)).map fun r => loolTerm r.1 r.2.1 (scale * r.2.2)).sum := by
    intro p t v h1 h2
    unfold lool loolUnscaled
    rw [if_pos ⟨h1, by simp [h2]⟩, List.zipWith_map_right]
    exact congrArg _ (zip3_sum (fun a b c => loolTerm a b (scale * c)) p t v)
  have e2 : ∀ p t v : List ℝ, p.length = t.length → t.length = v.length →
      looph p t v scale δ
        = .ok ((p.zip (t.zip v)).map fun r => loophTerm r.1 r.2.1 (scale * r.2.2) δ).sum := by
    intro p t v h1 h2
    unfold looph loophUnscaled
    rw [if_pos ⟨h1, by simp [h2]⟩, List.zipWith_map_right]
    exact congrArg _ (zip3_sum (fun a b c => loophTerm a b (scale * c) δ) p t v)
  refine ⟨_, _, _, rootChunks_eq h p [t, v] (by simp [h1, h2]), ?_, ?_, ?_, ?_⟩
  · exact reduce_terms h (fun p t v => lool p t v scale)
      (fun a b c => loolTerm a b (scale * c)) e1 p t v h1 h2
  · exact reduce_terms h (fun p t v => looph p t v scale δ)
      (fun a b c => loophTerm a b (scale * c) δ) e2 p t v h1 h2
  · rw [e1 p t v h1 h2]; rfl
  · rw [e2 p t v h1 h2]; rfl

/-- a rank's chunk is empty exactly when ... (only needed: no chunk is empty with enough rows) -/
theorem chunk_nonempty {α : Type _} {size : Nat} (h : 0 < size) (t : List α) (hs : size ≤ t.length)
    (c : List α) (hc : c ∈ chunksOf size t) : c ≠ [] := by
  unfold chunksOf at hc
  simp only [List.mem_map, List.mem_range] at hc
  obtain ⟨i, hi, rfl⟩ := hc
  intro h0
  have hl := congrArg List.length h0
  rw [slice_length _ _ _ (chunk_sum h) (by simpa using hi)] at hl
  have hdiv : 0 < t.length / size := Nat.div_pos hs h
  simp only [List.getD, List.getElem?_map, List.getElem?_range hi, Option.map_some,
    Option.getD_some, List.length_nil] at hl
  generalize t.length / size = q at *
  clear h0
  by_cases hc : i ≥ size - (t.length - q * size)
  · rw [if_pos hc] at hl; exact Nat.succ_ne_zero _ hl
  · rw [if_neg hc] at hl; exact (Nat.ne_of_gt hdiv) hl

theorem chunk_empty {α : Type _} {size : Nat} (h : 0 < size) (t : List α) (hs : t.length < size) :
    ∃ cs, chunksOf size t = [] :: cs := by
  have h0 : t.length / size = 0 := Nat.div_eq_of_lt hs
  obtain ⟨n, rfl⟩ : ∃ n, size = n + 1 := ⟨size - 1, by omega⟩
  unfold chunksOf
  rw [List.range_succ_eq_map, List.map_cons]
  refine ⟨_, congrArg₂ _ ?_ rfl⟩
  simp only [h0]
  simp [pySlice]
  omega

/-- **C05**, cross entropy, proved for batches with at least one row per rank (see
`C05_cross_entropy_empty_rank_fails` for the rest). -/
theorem C05_cross_entropy_partial (ε : ℝ) (size : Nat) (h : 0 < size) (p t : List (List ℝ))
    (hl : p.length = t.length) (hs : size ≤ p.length) (hrow : ∀ r ∈ p.zip t, r.1.length = r.2.length) :
    ∃ cp ct, rootChunks size [p, t] = .ok [cp, ct] ∧
      crossEntropyMpi ε (cp.zip ct) = crossEntropy ε (p.zip t) ∧
      (crossEntropy ε (p.zip t)).isOk := by
  have hne : p.zip t ≠ [] := by
    intro h0
    have := congrArg List.length h0
    rw [List.length_zip, List.length_nil] at this; omega
  have e0 : crossEntropy ε (p.zip t) = .ok
      ((p.zip t).map fun r => logLossRow ε (oneHot r.2) (softmax r.1)).sum := by
    unfold crossEntropy
    rw [if_neg hne, if_pos hrow]
  refine ⟨chunksOf size p, chunksOf size t, rootChunks_eq h p [t] (by simp [hl]), ?_, by rw [e0]; rfl⟩
  rw [e0]
  unfold crossEntropyMpi
  rw [reduceLocal_ok _ (fun c => ((c.1.zip c.2).map fun r =>
    logLossRow ε (oneHot r.2) (softmax r.1)).sum)]
  · rw [← sum_chunks h (p.zip t), ← chunksOf_zip size p t hl, List.map_map]
    rfl
  · intro c hc
    have hc2 : c.1.zip c.2 ∈ chunksOf size (p.zip t) := by
      rw [← chunksOf_zip size p t hl]
      exact List.mem_map_of_mem hc
    unfold crossEntropy
    rw [if_neg (chunk_nonempty h _ (by simp [← hl, hs]) _ hc2),
      if_pos fun r hr => hrow r (chunk_mem h _ hc2 hr)]

/-- **C05, where the code fails.** With fewer (but some) rows than ranks, the MPI cross entropy
raises although the serial one returns a value: rank 0's chunk is empty and scikit-learn rejects an
empty sample. -/
theorem C05_cross_entropy_empty_rank_fails (ε : ℝ) (size : Nat) (p t : List (List ℝ))
    (hl : p.length = t.length) (hp : p ≠ []) (hs : p.length < size)
    (hrow : ∀ r ∈ p.zip t, r.1.length = r.2.length) :
    ∃ cp ct, rootChunks size [p, t] = .ok [cp, ct] ∧
      crossEntropyMpi ε (cp.zip ct) = .error .value ∧ (crossEntropy ε (p.zip t)).isOk := by
  have h : 0 < size := by omega
  obtain ⟨cp, hcp⟩ := chunk_empty h p hs
  obtain ⟨ct, hct⟩ := chunk_empty h t (hl ▸ hs)
  refine ⟨_, _, rootChunks_eq h p [t] (by simp [hl]), ?_, ?_⟩
  · rw [hcp, hct]
    simp [crossEntropyMpi, reduceLocal, crossEntropy, bind, Except.bind]
  · have hne : p.zip t ≠ [] := by
      intro h0
      have := congrArg List.length h0
      have h2 := List.length_pos_of_ne_nil hp
      rw [List.length_zip, List.length_nil] at this; omega
    unfold crossEntropy
    rw [if_neg hne, if_pos hrow]; rfl

/-- **C05, where the code fails.** The MPI `lool_fn_unscaled` never returns a value: whatever the
recursion limit and the arguments, the call ends in a `RecursionError`, while the serial function
returns a value for all arguments of equal length. -/
theorem C05_lool_unscaled_diverges (depth : Nat) (p t v : List ℝ) (h1 : p.length = t.length)
    (h2 : t.length = v.length) :
    loolUnscaledMpi depth (p, t, v) = .error .recursion ∧ (loolUnscaled p t v).isOk := by
  constructor
  · induction depth with
    | zero => rfl
    | succ n ih => rw [loolUnscaledMpi, ih]; rfl
  · unfold loolUnscaled
    rw [if_pos ⟨h1, h2⟩]; rfl

/-! a concrete case: three rows of two columns over two ranks -/
example : ∃ cp ct, rootChunks 2 [[[1, 2], [3, 4], [5, 6]], [[1, 2], [3, 5], [5, 8]]] = .ok [cp, ct] ∧
    mseMpi (cp.zip ct) = .ok (5 / 6) := by
  obtain ⟨cp, ct, h1, h2, -⟩ := C05_mse_pseudo_huber 2 (by norm_num) 2
    [[1, 2], [3, 4], [5, 6]] [[1, 2], [3, 5], [5, 8]] 1 rfl (by simp) (by simp)
  refine ⟨cp, ct, h1, ?_⟩
  rw [h2, mse_eq (by simp)]
  norm_num

end MuyGPyS.Mpi
