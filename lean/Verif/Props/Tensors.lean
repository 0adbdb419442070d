import Verif.Lemmas.Tensors
import Verif.Spec.Tensors
import Mathlib.Tactic.Linarith
import Mathlib.Analysis.InnerProductSpace.PiL2

/-!
# C14, C15, C16, C17: difference and distance tensors
-/

namespace MuyGPyS
open Py Py.Tensor

/-! ### helpers -/

theorem valid1 {N b : Nat} {idx : Tensor Int} (hs : idx.shape = [b]) (hv : AllValid N idx) {i : Nat}
    (hi : i < b) : validIndex N (idx.get [i]) := by
  rw [get1 idx hs]
  exact hv i (by rw [hs]; simpa using hi)

theorem idx2_lt {b n i j : Nat} (hi : i < b) (hj : j < n) : i * n + j < b * n := by
  calc i * n + j < i * n + n := by omega
    _ = (i + 1) * n := by ring
    _ ≤ b * n := Nat.mul_le_mul_right _ hi

theorem valid2 {N b n : Nat} {nn : Tensor Int} (hs : nn.shape = [b, n]) (hv : AllValid N nn)
    {i j : Nat} (hi : i < b) (hj : j < n) : validIndex N (nn.get [i, j]) := by
  rw [get2 nn hs]
  exact hv _ (by rw [hs]; simpa using idx2_lt hi hj)

theorem take_vec {data : Tensor ℝ} {N : Nat} (hd : data.shape = [N]) {idx : Tensor Int}
    (hv : AllValid N idx) :
    ∃ t, data.take idx = .ok t ∧ t.shape = idx.shape ∧
      ∀ k, t.flat k = feature data (pointOf N (idx.flat k)) 0 := by
  refine ⟨_, take_ok data idx N [] hd hv, by simp, fun k => ?_⟩
  simp only [List.prod_nil, Nat.mul_one, Nat.div_one, Nat.mod_one, Nat.add_zero]
  unfold feature
  rw [hd]
  simp only
  rw [get1 data hd]; rfl

theorem take_mat {data : Tensor ℝ} {N f : Nat} (hd : data.shape = [N, f]) {idx : Tensor Int}
    (hv : AllValid N idx) :
    ∃ t, data.take idx = .ok t ∧ t.shape = idx.shape ++ [f] ∧
      ∀ k c, c < f → t.flat (k * f + c) = feature data (pointOf N (idx.flat k)) c := by
  refine ⟨_, take_ok data idx N [f] hd hv, rfl, fun k c hc => ?_⟩
  simp only [List.prod_singleton]
  rw [div_aux hc, mod_aux hc]
  unfold feature
  rw [hd]
  simp only
  rw [get2 data hd]; rfl

/-! ### C14 -/

/-- C14: for tables of equal rank and feature count and matching index tensors, entry `(i, j, c)` of
the crosswise tensor is feature `c` of the `i`-th queried point minus feature `c` of its `j`-th listed
neighbour. -/
theorem C14_crosswise (data nnData : Tensor ℝ) (idx nn : Tensor Int) (N M f b n : Nat)
    (hd : IsTable data N f) (hn : IsTable nnData M f)
    (hrank : data.shape.length = nnData.shape.length)
    (hi : idx.shape = [b]) (hnn : nn.shape = [b, n])
    (hvi : AllValid N idx) (hvn : AllValid M nn) :
    ∃ T, crosswiseTensor data nnData idx nn = .ok T ∧ T.shape = [b, n, f] ∧
      ∀ i j c, i < b → j < n → c < f →
        T.get [i, j, c] = feature data (pointOf N (idx.get [i])) c
          - feature nnData (pointOf M (nn.get [i, j])) c := by
  rcases hd with hd | ⟨hd, hf⟩
  · have hn' : nnData.shape = [M, f] := by
      rcases hn with hn | ⟨hn, _⟩
      · exact hn
      · rw [hd, hn] at hrank; simp at hrank
    obtain ⟨tl, h1, h2, h3⟩ := take_mat hd hvi
    obtain ⟨tp, g1, g2, g3⟩ := take_mat hn' hvn
    rw [hi] at h2
    rw [hnn] at g2
    obtain ⟨T, e1, e2, e3⟩ := bop_get (· - ·) (⟨[b, 1, f], tl.flat⟩ : Tensor ℝ)
      (⟨[b, n, f], tp.flat⟩ : Tensor ℝ) [b, n, f] (by simp [bcShape])
    refine ⟨T, ?_, e2, ?_⟩
    · unfold crosswiseTensor
      simp only [h1, g1, hd, h2, g2, List.cons_append, List.nil_append]
      exact e1
    · intro i j c hib hjn hcf
      rw [e3 [i, j, c] (lt3 hib hjn hcf)]
      simp only [clipIdx, List.zipWith_cons_cons, List.zipWith_nil_left, clip_of_lt hib,
        clip_of_lt hjn, clip_of_lt hcf, if_true]
      congr 1
      · rw [get3 _ rfl]
        simp only [Nat.one_mul, Nat.zero_mul, Nat.add_zero]
        rw [h3 i c hcf, get1 idx hi]
      · rw [get3 _ rfl]
        simp only
        have : i * (n * f) + j * f + c = (i * n + j) * f + c := by ring
        rw [this, g3 _ c hcf, get2 nn hnn]
  · subst hf
    have hn' : nnData.shape = [M] := by
      rcases hn with hn | ⟨hn, _⟩
      · rw [hd, hn] at hrank; simp at hrank
      · exact hn
    obtain ⟨tl, h1, h2, h3⟩ := take_vec hd hvi
    obtain ⟨tp, g1, g2, g3⟩ := take_vec hn' hvn
    rw [hi] at h2
    rw [hnn] at g2
    obtain ⟨T, e1, e2, e3⟩ := bop_get (· - ·) (⟨[b, 1, 1], tl.flat⟩ : Tensor ℝ)
      (⟨[b, n, 1], tp.flat⟩ : Tensor ℝ) [b, n, 1] (by simp [bcShape])
    refine ⟨T, ?_, e2, ?_⟩
    · unfold crosswiseTensor
      simp only [h1, g1, hd, h2, g2]
      exact e1
    · intro i j c hib hjn hcf
      obtain rfl : c = 0 := by omega
      rw [e3 [i, j, 0] (lt3 hib hjn hcf)]
      simp only [clipIdx, List.zipWith_cons_cons, List.zipWith_nil_left, clip_of_lt hib,
        clip_of_lt hjn, if_true]
      congr 1
      · rw [get3 _ rfl]
        simp only [Nat.mul_one, Nat.zero_mul, Nat.add_zero]
        rw [h3 i, get1 idx hi]
      · rw [get3 _ rfl]
        simp only [Nat.mul_one, Nat.add_zero]
        rw [g3, get2 nn hnn]

/-- C14: an index outside `-N ≤ i < N` in either index tensor is an `IndexError`. -/
theorem C14_out_of_range (data nnData : Tensor ℝ) (idx nn : Tensor Int) (N M : Nat)
    (rest rest' : List Nat) (hd : data.shape = N :: rest) (hn : nnData.shape = M :: rest')
    (h : ¬ AllValid N idx ∨ ¬ AllValid M nn) :
    crosswiseTensor data nnData idx nn = .error .index := by
  have bad : ∀ (d : Tensor ℝ) (ix : Tensor Int) K r, d.shape = K :: r → ¬ AllValid K ix →
      d.take ix = .error .index := by
    intro d ix K r hK hbad
    unfold AllValid at hbad
    simp only [not_forall] at hbad
    obtain ⟨k, hk, hv⟩ := hbad
    exact take_bad d ix K r hK k hk hv
  unfold crosswiseTensor
  by_cases h1 : AllValid N idx
  · have h2 := h.resolve_left (fun hh => hh h1)
    rw [take_ok data idx N rest hd h1, bad nnData nn M rest' hn h2]
  · rw [bad data idx N rest hd h1]

/-- C14 fails in the code where shapes do not match but broadcast: a single query index is silently
reused for every row of the neighbour indices. -/
theorem C14_mismatch_broadcast (data nnData : Tensor ℝ) (idx nn : Tensor Int) (N M f b n : Nat)
    (hd : data.shape = [N, f]) (hn : nnData.shape = [M, f])
    (hi : idx.shape = [1]) (hnn : nn.shape = [b, n])
    (hvi : AllValid N idx) (hvn : AllValid M nn) :
    ∃ T, crosswiseTensor data nnData idx nn = .ok T ∧ T.shape = [b, n, f] := by
  obtain ⟨tl, h1, h2, _⟩ := take_mat hd hvi
  obtain ⟨tp, g1, g2, _⟩ := take_mat hn hvn
  rw [hi] at h2
  rw [hnn] at g2
  obtain ⟨T, e1, e2, _⟩ := bop_get (· - ·) (⟨[1, 1, f], tl.flat⟩ : Tensor ℝ)
    (⟨[b, n, f], tp.flat⟩ : Tensor ℝ) [b, n, f] (by simp [bcShape])
  refine ⟨T, ?_, e2⟩
  unfold crosswiseTensor
  simp only [h1, g1, hd, h2, g2, List.cons_append, List.nil_append]
  exact e1

/-- Non-vacuity of C14: three points in the plane, two queries with two neighbours each, one index
given from the end. -/
example : ∃ T, crosswiseTensor ⟨[3, 2], fun k => (k : ℝ)⟩ ⟨[3, 2], fun k => (k : ℝ)⟩
      ⟨[2], fun k => if k = 0 then 0 else -1⟩ ⟨[2, 2], fun k => if k < 2 then 1 else (k : Int) - 2⟩ = .ok T ∧
    T.get [1, 0, 1] = 5 - 1 := by
  obtain ⟨T, h1, _, h3⟩ := C14_crosswise ⟨[3, 2], fun k => (k : ℝ)⟩ ⟨[3, 2], fun k => (k : ℝ)⟩
    ⟨[2], fun k => if k = 0 then 0 else -1⟩ ⟨[2, 2], fun k => if k < 2 then 1 else (k : Int) - 2⟩
    3 3 2 2 2 (.inl rfl) (.inl rfl) rfl rfl rfl
    (by
      intro k hk
      simp only [List.prod_singleton] at hk
      unfold validIndex
      simp only
      split_ifs <;> omega)
    (by
      intro k hk
      simp at hk
      unfold validIndex
      simp only
      split_ifs <;> omega)
  refine ⟨T, h1, ?_⟩
  rw [h3 1 0 1 (by omega) (by omega) (by omega)]
  simp [feature, pointOf, wrapIndex, Tensor.get, ravel]

/-! ### C15 -/

/-- C15: entry `(i, j, k, c)` of the pairwise tensor is neighbour `j` minus neighbour `k` of query
`i`, for vectors and matrices. -/
theorem C15_pairwise (data : Tensor ℝ) (nn : Tensor Int) (N f b n : Nat)
    (hd : IsTable data N f) (hnn : nn.shape = [b, n]) (hv : AllValid N nn) :
    ∃ T, pairwiseTensor data nn = .ok T ∧ T.shape = [b, n, n, f] ∧
      ∀ i j k c, i < b → j < n → k < n → c < f →
        T.get [i, j, k, c] = feature data (pointOf N (nn.get [i, j])) c
          - feature data (pointOf N (nn.get [i, k])) c := by
  rcases hd with hd | ⟨hd, hf⟩
  · obtain ⟨tp, g1, g2, g3⟩ := take_mat hd hv
    rw [hnn] at g2
    obtain ⟨T, e1, e2, e3⟩ := bop_get (· - ·) (⟨[b, n, 1, f], tp.flat⟩ : Tensor ℝ)
      (⟨[b, 1, n, f], tp.flat⟩ : Tensor ℝ) [b, n, n, f] (by simp [bcShape])
    refine ⟨T, ?_, e2, ?_⟩
    · unfold pairwiseTensor
      simp only [g1, hd, g2, List.cons_append, List.nil_append]
      exact e1
    · intro i j k c hib hjn hkn hcf
      rw [e3 [i, j, k, c] (lt4 hib hjn hkn hcf)]
      simp only [clipIdx, List.zipWith_cons_cons, List.zipWith_nil_left, clip_of_lt hib,
        clip_of_lt hjn, clip_of_lt hkn, clip_of_lt hcf, if_true]
      congr 1
      · rw [get4 _ rfl]
        simp only
        have : i * (n * (1 * f)) + (j * (1 * f) + (0 * f + c)) = (i * n + j) * f + c := by ring
        rw [this, g3 _ c hcf, get2 nn hnn]
      · rw [get4 _ rfl]
        simp only
        have : i * (1 * (n * f)) + (0 * (n * f) + (k * f + c)) = (i * n + k) * f + c := by ring
        rw [this, g3 _ c hcf, get2 nn hnn]
  · subst hf
    obtain ⟨tp, g1, g2, g3⟩ := take_vec hd hv
    rw [hnn] at g2
    obtain ⟨T, e1, e2, e3⟩ := bop_get (· - ·) (⟨[b, n, 1, 1], tp.flat⟩ : Tensor ℝ)
      (⟨[b, 1, n, 1], tp.flat⟩ : Tensor ℝ) [b, n, n, 1] (by simp [bcShape])
    refine ⟨T, ?_, e2, ?_⟩
    · unfold pairwiseTensor
      simp only [g1, hd, g2]
      exact e1
    · intro i j k c hib hjn hkn hcf
      obtain rfl : c = 0 := by omega
      rw [e3 [i, j, k, 0] (lt4 hib hjn hkn hcf)]
      simp only [clipIdx, List.zipWith_cons_cons, List.zipWith_nil_left, clip_of_lt hib,
        clip_of_lt hjn, clip_of_lt hkn, if_true]
      congr 1
      · rw [get4 _ rfl]
        simp only
        have : i * (n * (1 * 1)) + (j * (1 * 1) + (0 * 1 + 0)) = i * n + j := by ring
        rw [this, g3, get2 nn hnn]
      · rw [get4 _ rfl]
        simp only
        have : i * (1 * (n * 1)) + (0 * (n * 1) + (k * 1 + 0)) = i * n + k := by ring
        rw [this, g3, get2 nn hnn]

/-- C15: a neighbour index outside `-N ≤ i < N` is an `IndexError`. -/
theorem C15_out_of_range (data : Tensor ℝ) (nn : Tensor Int) (N : Nat) (rest : List Nat)
    (hd : data.shape = N :: rest) (h : ¬ AllValid N nn) : pairwiseTensor data nn = .error .index := by
  unfold AllValid at h
  simp only [not_forall] at h
  obtain ⟨k, hk, hv⟩ := h
  unfold pairwiseTensor
  rw [take_bad data nn N rest hd k hk hv]

/-- C15: the pairwise tensor is antisymmetric and zero on the diagonal. -/
theorem C15_antisymmetric (data : Tensor ℝ) (nn : Tensor Int) (N f b n : Nat)
    (hd : IsTable data N f) (hnn : nn.shape = [b, n]) (hv : AllValid N nn) (T : Tensor ℝ)
    (h : pairwiseTensor data nn = .ok T) (i j k c : Nat) (hi : i < b) (hj : j < n) (hk : k < n)
    (hc : c < f) :
    T.get [i, j, k, c] = - T.get [i, k, j, c] ∧ T.get [i, j, j, c] = 0 := by
  obtain ⟨T', h', _, hg⟩ := C15_pairwise data nn N f b n hd hnn hv
  rw [h] at h'
  simp only [Except.ok.injEq] at h'
  subst h'
  rw [hg i j k c hi hj hk hc, hg i k j c hi hk hj hc, hg i j j c hi hj hj hc]
  constructor <;> ring

/-- Distance at a position of a tensor of difference vectors. -/
theorem F2_get4 (D : Tensor ℝ) {a b c f : Nat} (hs : D.shape = [a, b, c, f]) :
    ∃ S, F2 D = .ok S ∧ S.shape = [a, b, c] ∧ ∀ i j k,
      S.get [i, j, k] = ∑ x : Fin f, D.get [i, j, k, x] ^ 2 := by
  refine ⟨⟨[a, b, c], fun k => ∑ x : Fin f, D.flat (k * f + x) ^ 2⟩, ?_, rfl, fun i j k => ?_⟩
  · unfold F2; rw [hs]; rfl
  · rw [get3 _ rfl]
    simp only
    refine Finset.sum_congr rfl fun x _ => ?_
    rw [get4 D hs]
    congr 2; ring

theorem F2_get3 (D : Tensor ℝ) {a b f : Nat} (hs : D.shape = [a, b, f]) :
    ∃ S, F2 D = .ok S ∧ S.shape = [a, b] ∧ ∀ i j,
      S.get [i, j] = ∑ x : Fin f, D.get [i, j, x] ^ 2 := by
  refine ⟨⟨[a, b], fun k => ∑ x : Fin f, D.flat (k * f + x) ^ 2⟩, ?_, rfl, fun i j => ?_⟩
  · unfold F2; rw [hs]; rfl
  · rw [get2 _ rfl]
    simp only
    refine Finset.sum_congr rfl fun x _ => ?_
    rw [get3 D hs]
    congr 2; ring

theorem l2_of_F2 {D S : Tensor ℝ} (h : F2 D = .ok S) : l2 D = .ok (S.map Real.sqrt) := by
  unfold l2; rw [h]; rfl

theorem map_get (g : ℝ → ℝ) (S : Tensor ℝ) (idx : List Nat) : (S.map g).get idx = g (S.get idx) := rfl

/-- C15: the distances of both metrics induced by the pairwise tensor are symmetric with zero
diagonal. -/
theorem C15_distances_symmetric (m : Metric) (data : Tensor ℝ) (nn : Tensor Int) (N f b n : Nat)
    (hd : IsTable data N f) (hnn : nn.shape = [b, n]) (hv : AllValid N nn) :
    ∃ D, defPairwise .isotropy m data nn = .ok D ∧ D.shape = [b, n, n] ∧
      ∀ i j k, i < b → j < n → k < n →
        D.get [i, j, k] = D.get [i, k, j] ∧ D.get [i, j, j] = 0 := by
  obtain ⟨T, h, hs, hg⟩ := C15_pairwise data nn N f b n hd hnn hv
  obtain ⟨S, s1, s2, s3⟩ := F2_get4 T hs
  have key : ∀ i j k, i < b → j < n → k < n → S.get [i, j, k] = S.get [i, k, j] ∧ S.get [i, j, j] = 0 := by
    intro i j k hi hj hk
    rw [s3, s3, s3]
    constructor
    · refine Finset.sum_congr rfl fun x _ => ?_
      rw [(C15_antisymmetric data nn N f b n hd hnn hv T h i j k x hi hj hk x.2).1]; ring
    · refine Finset.sum_eq_zero fun x _ => ?_
      rw [(C15_antisymmetric data nn N f b n hd hnn hv T h i j j x hi hj hj x.2).2]; ring
  cases m with
  | F2 =>
    refine ⟨S, ?_, s2, key⟩
    simp only [defPairwise, h, bind, Except.bind, Metric.apply, s1]
  | l2 =>
    refine ⟨S.map Real.sqrt, ?_, s2, fun i j k hi hj hk => ?_⟩
    · simp only [defPairwise, h, bind, Except.bind, Metric.apply, l2_of_F2 s1]
    · rw [map_get, map_get, map_get, (key i j k hi hj hk).1, (key i j j hi hj hj).2]
      simp

/-- C15: slice `j` of the pairwise tensor is the crosswise tensor from each query's `j`-th neighbour
to its whole neighbourhood. -/
theorem C15_matches_crosswise (data : Tensor ℝ) (nn : Tensor Int) (N f b n : Nat)
    (hd : IsTable data N f) (hnn : nn.shape = [b, n]) (hv : AllValid N nn) (j : Nat) (hj : j < n) :
    ∃ T C, pairwiseTensor data nn = .ok T ∧
      crosswiseTensor data data ⟨[b], fun i => nn.get [i, j]⟩ nn = .ok C ∧
      ∀ i k c, i < b → k < n → c < f → T.get [i, j, k, c] = C.get [i, k, c] := by
  obtain ⟨T, h, _, hg⟩ := C15_pairwise data nn N f b n hd hnn hv
  obtain ⟨C, h', _, hg'⟩ := C14_crosswise data data ⟨[b], fun i => nn.get [i, j]⟩ nn N N f b n hd hd rfl
    rfl hnn (by
      intro k hk
      simp only [List.prod_singleton] at hk
      exact valid2 hnn hv hk hj) hv
  refine ⟨T, C, h, h', fun i k c hi hk hc => ?_⟩
  rw [hg i j k c hi hj hk hc, hg' i k c hi hk hc, get1 (⟨[b], fun i => nn.get [i, j]⟩ : Tensor Int) rfl i]

/-! ### C16 -/

/-- Entries of a target tensor selected by an index tensor. -/
theorem take_targets {Y : Tensor ℝ} {M r : Nat} (hY : IsTable Y M r) {idx : Tensor Int}
    (hv : AllValid M idx) :
    ∃ t, Y.take idx = .ok t ∧ (t.shape = idx.shape ++ Y.shape.tail) ∧
      ∀ k c, c < r → t.flat (k * r + c) = feature Y (pointOf M (idx.flat k)) c := by
  rcases hY with h | ⟨h, rfl⟩
  · obtain ⟨t, h1, h2, h3⟩ := take_mat h hv
    exact ⟨t, h1, by rw [h2, h]; rfl, h3⟩
  · obtain ⟨t, h1, h2, h3⟩ := take_vec h hv
    refine ⟨t, h1, by rw [h2, h]; simp, fun k c hc => ?_⟩
    obtain rfl : c = 0 := by omega
    rw [Nat.mul_one, Nat.add_zero, h3]

/-- C16: prediction tensors of the difference deformations. Entry `j` of the crosswise tensor,
row/column `j` of the pairwise tensor and entry `j` of the neighbour targets all refer to the `j`-th
listed neighbour; the query comes from the test features when given, else from the training
features. -/
theorem C16_predict_tensors (kind : DeformKind) (hkind : kind ≠ .isotropy) (m : Metric)
    (idx nn : Tensor Int) (test : Option (Tensor ℝ)) (X Y : Tensor ℝ) (N M f r b n : Nat)
    (ht : IsTable (test.getD X) N f) (hX : IsTable X M f) (hY : IsTable Y M r)
    (hrank : (test.getD X).shape.length = X.shape.length)
    (hi : idx.shape = [b]) (hnn : nn.shape = [b, n]) (hvi : AllValid N idx) (hvn : AllValid M nn) :
    ∃ C P Z, makePredictTensors kind m idx nn test X Y = .ok (C, P, Z) ∧
      C.shape = [b, n, f] ∧ P.shape = [b, n, n, f] ∧ Z.shape = [b, n] ++ Y.shape.tail ∧
      (∀ i j c, i < b → j < n → c < f → C.get [i, j, c] =
        feature (test.getD X) (pointOf N (idx.get [i])) c - feature X (pointOf M (nn.get [i, j])) c) ∧
      (∀ i j k c, i < b → j < n → k < n → c < f → P.get [i, j, k, c] =
        feature X (pointOf M (nn.get [i, j])) c - feature X (pointOf M (nn.get [i, k])) c) ∧
      (∀ i j c, i < b → j < n → c < r →
        Z.flat ((i * n + j) * r + c) = feature Y (pointOf M (nn.get [i, j])) c) := by
  obtain ⟨C, c1, c2, c3⟩ := C14_crosswise (test.getD X) X idx nn N M f b n ht hX hrank hi hnn hvi hvn
  obtain ⟨P, p1, p2, p3⟩ := C15_pairwise X nn M f b n hX hnn hvn
  obtain ⟨Z, z1, z2, z3⟩ := take_targets hY hvn
  refine ⟨C, P, Z, ?_, c2, p2, by rw [z2, hnn], c3, p3, ?_⟩
  · unfold makePredictTensors defCrosswise defPairwise
    simp only [c1, p1, z1, bind, Except.bind]
    cases kind with
    | isotropy => exact absurd rfl hkind
    | differenceIsotropy => rfl
    | anisotropy => rfl
  · intro i j c hib hjn hc
    rw [z3 _ c hc, get2 nn hnn]

/-- C16: training tensors: as for prediction from the training features, and batch target `i` is the
target of batch point `i` itself. -/
theorem C16_train_tensors (kind : DeformKind) (hkind : kind ≠ .isotropy) (m : Metric)
    (idx nn : Tensor Int) (X Y : Tensor ℝ) (M f r b n : Nat)
    (hX : IsTable X M f) (hY : IsTable Y M r)
    (hi : idx.shape = [b]) (hnn : nn.shape = [b, n]) (hvi : AllValid M idx) (hvn : AllValid M nn) :
    ∃ C P Bt Z, makeTrainTensors kind m idx nn X Y = .ok (C, P, Bt, Z) ∧
      makePredictTensors kind m idx nn none X Y = .ok (C, P, Z) ∧
      Bt.shape = [b] ++ Y.shape.tail ∧
      (∀ i j c, i < b → j < n → c < f → C.get [i, j, c] =
        feature X (pointOf M (idx.get [i])) c - feature X (pointOf M (nn.get [i, j])) c) ∧
      (∀ i j k c, i < b → j < n → k < n → c < f → P.get [i, j, k, c] =
        feature X (pointOf M (nn.get [i, j])) c - feature X (pointOf M (nn.get [i, k])) c) ∧
      (∀ i j c, i < b → j < n → c < r →
        Z.flat ((i * n + j) * r + c) = feature Y (pointOf M (nn.get [i, j])) c) ∧
      (∀ i c, i < b → c < r → Bt.flat (i * r + c) = feature Y (pointOf M (idx.get [i])) c) := by
  obtain ⟨C, P, Z, h1, _, _, _, h2, h3, h4⟩ := C16_predict_tensors kind hkind m idx nn none X Y M M f r b n
    hX hX hY rfl hi hnn hvi hvn
  obtain ⟨Bt, b1, b2, b3⟩ := take_targets hY hvi
  refine ⟨C, P, Bt, Z, ?_, h1, by rw [b2, hi], h2, h3, h4, ?_⟩
  · unfold makePredictTensors at h1
    unfold makeTrainTensors
    simp only [Option.getD_none, bind, Except.bind] at h1 ⊢
    cases e1 : defCrosswise kind m X X idx nn with
    | error e => rw [e1] at h1; simp at h1
    | ok C' =>
      rw [e1] at h1
      cases e2 : defPairwise kind m X nn with
      | error e => rw [e2] at h1; simp at h1
      | ok P' =>
        rw [e2] at h1
        cases e3 : Y.take nn with
        | error e => rw [e3] at h1; simp at h1
        | ok Z' =>
          rw [e3] at h1
          simp only [pure, Except.pure, Except.ok.injEq, Prod.mk.injEq] at h1 ⊢
          obtain ⟨rfl, rfl, rfl⟩ := h1
          rw [b1]
  · intro i c hib hc
    rw [b3 i c hc, get1 idx hi]

/-- C16: for the distance deformation the same alignment holds: crosswise and pairwise entries are
the metric applied to the aligned difference vectors. -/
theorem C16_predict_distances (m : Metric) (idx nn : Tensor Int) (test : Option (Tensor ℝ))
    (X Y : Tensor ℝ) (N M f r b n : Nat)
    (ht : IsTable (test.getD X) N f) (hX : IsTable X M f) (hY : IsTable Y M r)
    (hrank : (test.getD X).shape.length = X.shape.length)
    (hi : idx.shape = [b]) (hnn : nn.shape = [b, n]) (hvi : AllValid N idx) (hvn : AllValid M nn) :
    ∃ C P Z, makePredictTensors .isotropy m idx nn test X Y = .ok (C, P, Z) ∧
      C.shape = [b, n] ∧ P.shape = [b, n, n] ∧ Z.shape = [b, n] ++ Y.shape.tail ∧
      (∀ i j, i < b → j < n → C.get [i, j] =
        (match m with | .l2 => Real.sqrt | .F2 => id)
          (∑ c : Fin f, (feature (test.getD X) (pointOf N (idx.get [i])) c
            - feature X (pointOf M (nn.get [i, j])) c) ^ 2)) ∧
      (∀ i j k, i < b → j < n → k < n → P.get [i, j, k] =
        (match m with | .l2 => Real.sqrt | .F2 => id)
          (∑ c : Fin f, (feature X (pointOf M (nn.get [i, j])) c
            - feature X (pointOf M (nn.get [i, k])) c) ^ 2)) ∧
      (∀ i j c, i < b → j < n → c < r →
        Z.flat ((i * n + j) * r + c) = feature Y (pointOf M (nn.get [i, j])) c) := by
  obtain ⟨C, c1, c2, c3⟩ := C14_crosswise (test.getD X) X idx nn N M f b n ht hX hrank hi hnn hvi hvn
  obtain ⟨P, p1, p2, p3⟩ := C15_pairwise X nn M f b n hX hnn hvn
  obtain ⟨Z, z1, z2, z3⟩ := take_targets hY hvn
  obtain ⟨SC, s1, s2, s3⟩ := F2_get3 C c2
  obtain ⟨SP, t1, t2, t3⟩ := F2_get4 P p2
  have hz : ∀ i j c, i < b → j < n → c < r →
      Z.flat ((i * n + j) * r + c) = feature Y (pointOf M (nn.get [i, j])) c := by
    intro i j c hib hjn hc
    rw [z3 _ c hc, get2 nn hnn]
  have hC : ∀ i j, i < b → j < n → SC.get [i, j] =
      ∑ c : Fin f, (feature (test.getD X) (pointOf N (idx.get [i])) c
        - feature X (pointOf M (nn.get [i, j])) c) ^ 2 := by
    intro i j hib hjn
    rw [s3]
    exact Finset.sum_congr rfl fun x _ => by rw [c3 i j x hib hjn x.2]
  have hP : ∀ i j k, i < b → j < n → k < n → SP.get [i, j, k] =
      ∑ c : Fin f, (feature X (pointOf M (nn.get [i, j])) c
        - feature X (pointOf M (nn.get [i, k])) c) ^ 2 := by
    intro i j k hib hjn hkn
    rw [t3]
    exact Finset.sum_congr rfl fun x _ => by rw [p3 i j k x hib hjn hkn x.2]
  cases m with
  | F2 =>
    refine ⟨SC, SP, Z, ?_, s2, t2, by rw [z2, hnn], hC, hP, hz⟩
    unfold makePredictTensors defCrosswise defPairwise
    simp only [c1, p1, z1, bind, Except.bind, Metric.apply, s1, t1]
    rfl
  | l2 =>
    refine ⟨SC.map Real.sqrt, SP.map Real.sqrt, Z, ?_, s2, t2, by rw [z2, hnn], ?_, ?_, hz⟩
    · unfold makePredictTensors defCrosswise defPairwise
      simp only [c1, p1, z1, bind, Except.bind, Metric.apply, l2_of_F2 s1, l2_of_F2 t1]
      rfl
    · intro i j hib hjn
      rw [map_get, hC i j hib hjn]
    · intro i j k hib hjn hkn
      rw [map_get, hP i j k hib hjn hkn]

/-! ### C17 -/

/-- The distance the library computes between two points given as coordinate vectors: the metric
applied to the difference tensor of shape `(feature_count,)`. -/
noncomputable def distOf (m : Metric) {f : Nat} (x y : Fin f → ℝ) : ℝ :=
  match m.apply ⟨[f], fun k => if h : k < f then x ⟨k, h⟩ - y ⟨k, h⟩ else 0⟩ with
  | .ok t => t.get []
  | .error _ => 0

theorem distOf_F2 {f : Nat} (x y : Fin f → ℝ) : distOf .F2 x y = ∑ c, (x c - y c) ^ 2 := by
  unfold distOf Metric.apply F2
  simp only [List.getLast?_singleton, Tensor.get]
  have h0 : ravel [] [] = 0 := rfl
  refine Finset.sum_congr rfl fun c _ => ?_
  simp [h0]

theorem distOf_l2 {f : Nat} (x y : Fin f → ℝ) :
    distOf .l2 x y = dist (WithLp.toLp 2 x : EuclideanSpace ℝ (Fin f)) (WithLp.toLp 2 y) := by
  rw [EuclideanSpace.dist_eq]
  unfold distOf Metric.apply l2 F2
  simp only [List.getLast?_singleton, bind, Except.bind, pure, Except.pure, Tensor.map, Tensor.get]
  have h0 : ravel [] [] = 0 := rfl
  congr 1
  refine Finset.sum_congr rfl fun c _ => ?_
  simp [Real.dist_eq, h0]

/-- C17: on a difference tensor of any rank, each entry of the metric's result is that distance
between the origin and the difference vector stored at the corresponding position. -/
theorem C17_any_rank (m : Metric) (s : List Nat) (f : Nat) (D : Tensor ℝ) (hs : D.shape = s ++ [f]) :
    ∃ S, m.apply D = .ok S ∧ S.shape = s ∧
      ∀ k, S.flat k = distOf m (fun c : Fin f => D.flat (k * f + c)) 0 := by
  have hF : F2 D = .ok ⟨s, fun k => ∑ c : Fin f, D.flat (k * f + c) ^ 2⟩ := by
    unfold F2; rw [hs]; simp
  cases m with
  | F2 =>
    refine ⟨_, hF, rfl, fun k => ?_⟩
    rw [distOf_F2]; simp
  | l2 =>
    refine ⟨_, l2_of_F2 hF, rfl, fun k => ?_⟩
    rw [distOf_l2, EuclideanSpace.dist_eq]
    simp [Tensor.map, Real.dist_eq]

/-- C17: in every dimension the library's F2 is the square of its l2, and l2 is a metric: it is
non-negative, zero exactly for coincident points, symmetric and satisfies the triangle inequality. -/
theorem C17_metrics {f : Nat} (x y z : Fin f → ℝ) :
    distOf .F2 x y = distOf .l2 x y ^ 2 ∧ 0 ≤ distOf .l2 x y ∧
      (distOf .l2 x y = 0 ↔ x = y) ∧ distOf .l2 x y = distOf .l2 y x ∧
      distOf .l2 x z ≤ distOf .l2 x y + distOf .l2 y z := by
  refine ⟨?_, ?_, ?_, ?_, ?_⟩
  · rw [distOf_l2, distOf_F2, EuclideanSpace.dist_eq, Real.sq_sqrt (Finset.sum_nonneg fun _ _ => sq_nonneg _)]
    refine Finset.sum_congr rfl fun c _ => ?_
    simp [Real.dist_eq]
  · rw [distOf_l2]; exact dist_nonneg
  · rw [distOf_l2, dist_eq_zero]
    constructor
    · intro h
      exact (WithLp.toLp_injective 2) h
    · rintro rfl; rfl
  · rw [distOf_l2, distOf_l2, dist_comm]
  · rw [distOf_l2, distOf_l2, distOf_l2]; exact dist_triangle _ _ _

end MuyGPyS
