import Verif.Model.Backends
import Verif.Props.Posterior
import Verif.Props.Fast
import Verif.Props.Scale
import Verif.Props.Hierarchical

/-!
# Property C53: the torch and jax implementations compute the functions of the NumPy one
-/

namespace MuyGPyS
open Py Py.Tensor Matrix

/-! ### difference tensors -/

/-- **C53**, difference tensors of feature tables `(N, f)`: the three implementations give the same answer,
errors included. -/
theorem C53_difference_tensors (N f N' f' b b' n : Nat) (data nnData : Tensor ℝ) (idx nn : Tensor Int)
    (hd : data.shape = [N, f]) (hn : nnData.shape = [N', f']) (hi : idx.shape = [b]) (hnn : nn.shape = [b', n]) :
    Backend.crosswise data nnData idx nn = crosswiseTensor data nnData idx nn ∧
    Backend.pairwise data nn = pairwiseTensor data nn := by
  constructor
  · unfold Backend.crosswise crosswiseTensor
    cases h1 : data.take idx with
    | error e => rfl
    | ok locs =>
      cases h2 : nnData.take nn with
      | error e => rfl
      | ok pts =>
        have s1 : locs.shape = [b, f] := by
          unfold Tensor.take at h1; rw [hd] at h1
          simp only at h1
          split at h1
          · cases h1; simp [hi]
          · cases h1
        have s2 : pts.shape = [b', n, f'] := by
          unfold Tensor.take at h2; rw [hn] at h2
          simp only at h2
          split at h2
          · cases h2; simp [hnn]
          · cases h2
        simp only [bind, Except.bind, hd, s1, s2]
  · unfold Backend.pairwise pairwiseTensor
    cases h1 : data.take nn with
    | error e => rfl
    | ok pts =>
      have s1 : pts.shape = [b', n, f] := by
        unfold Tensor.take at h1; rw [hd] at h1
        simp only at h1
        split at h1
        · cases h1; simp [hnn]
        · cases h1
      simp only [bind, Except.bind, hd, s1, Backend.pairwiseDifferences]

/-- **C53, where the backends differ.** Feature vectors `(N,)` (one-dimensional data), which the NumPy functions
accept: torch and jax refuse the crosswise tensor with an `IndexError`, and silently return a pairwise tensor of
another shape, `(b, b, n)` instead of `(b, n, n, 1)`: differences between *neighbourhoods*. -/
theorem C53_vector_features_fails (N b n : Nat) (data : Tensor ℝ) (idx nn : Tensor Int)
    (hd : data.shape = [N]) (hi : idx.shape = [b]) (hnn : nn.shape = [b, n])
    (hv : ∀ k < b, validIndex N (idx.flat k)) (hvn : ∀ k < b * n, validIndex N (nn.flat k)) :
    (∃ T, crosswiseTensor data data idx nn = .ok T) ∧ Backend.crosswise data data idx nn = .error .index ∧
    (∃ T, pairwiseTensor data nn = .ok T ∧ T.shape = [b, n, n, 1]) ∧
    (∃ T, Backend.pairwise data nn = .ok T ∧ T.shape = [b, b, n] ∧
      ∀ p < b, ∀ q < b, ∀ j < n, T.get [p, q, j] =
        data.flat (wrapIndex N (nn.get [p, j])) - data.flat (wrapIndex N (nn.get [q, j]))) := by
  have t1 : data.take idx = .ok ⟨[b], fun k => data.flat (wrapIndex N (idx.flat (k / 1)) * 1 + k % 1)⟩ := by
    unfold Tensor.take; rw [hd]
    simp only [hi, List.prod_cons, List.prod_nil, Nat.mul_one, List.append_nil]
    rw [if_pos hv]
  have t2 : data.take nn = .ok ⟨[b, n], fun k => data.flat (wrapIndex N (nn.flat (k / 1)) * 1 + k % 1)⟩ := by
    unfold Tensor.take; rw [hd]
    simp only [hnn, List.prod_cons, List.prod_nil, Nat.mul_one, List.append_nil]
    rw [if_pos hvn]
  have ax1 : ∀ m, bcAxis m 1 = some m := fun m => by
    unfold bcAxis; by_cases h : m = 1 <;> simp [h]
  have ax2 : ∀ m, bcAxis 1 m = some m := fun m => by
    unfold bcAxis; by_cases h : 1 = m <;> simp [h]
  have ax3 : ∀ m, bcAxis m m = some m := fun m => by simp [bcAxis]
  refine ⟨?_, ?_, ?_, ?_⟩
  · unfold crosswiseTensor
    rw [t1, t2]
    simp only [hd, Tensor.bop, bcShape, ax1, ax2, ax3, Option.bind_some, Option.map_some]
    exact ⟨_, rfl⟩
  · unfold Backend.crosswise
    rw [t1, t2]; rfl
  · unfold pairwiseTensor
    rw [t2]
    simp only [hd, Tensor.bop, bcShape, ax1, ax2, ax3, Option.bind_some, Option.map_some]
    exact ⟨_, rfl, rfl⟩
  · unfold Backend.pairwise
    rw [t2]
    simp only [bind, Except.bind, Backend.pairwiseDifferences, Tensor.bop, bc_outer]
    refine ⟨_, rfl, rfl, fun p hp q hq j hj => ?_⟩
    rw [Tensor.get_ofFn _ _ _ (.cons hp (.cons hq (.cons hj .nil)))]
    have e1 : (if b = 1 then 0 else p) = p := by split <;> omega
    have e2 : (if b = 1 then 0 else q) = q := by split <;> omega
    have e3 : (if n = 1 then 0 else j) = j := by split <;> omega
    simp [Tensor.get, Tensor.ravel, Tensor.clipIdx, e1, e2, e3, hnn, Nat.mod_one]

/-! ### heteroscedastic noise -/

theorem fold_buffered (t vals : Nat → ℝ) (L : List (Nat × Nat)) (hL : (L.map (·.1)).Nodup) (acc : Nat → ℝ) (q : Nat) :
    (∀ i, (q, i) ∈ L →
      L.foldl (fun acc p => Function.update acc p.1 (t p.1 + vals p.2)) acc q = t q + vals i) ∧
    ((∀ i, (q, i) ∉ L) → L.foldl (fun acc p => Function.update acc p.1 (t p.1 + vals p.2)) acc q = acc q) := by
  induction L generalizing acc with
  | nil => simp
  | cons a L ih =>
    simp only [List.map_cons, List.nodup_cons] at hL
    obtain ⟨h1, h2⟩ := hL
    specialize ih h2 (Function.update acc a.1 (t a.1 + vals a.2))
    simp only [List.foldl_cons]
    refine ⟨fun i hi => ?_, fun hi => ?_⟩
    · rcases List.mem_cons.1 hi with h | h
      · subst h
        rw [ih.2 (fun j hj => h1 (List.mem_map.2 ⟨_, hj, rfl⟩)), Function.update_self]
      · exact ih.1 i h
    · rw [ih.2 (fun i h => hi i (List.mem_cons_of_mem _ h)), Function.update_of_ne]
      rintro rfl
      exact hi a.2 List.mem_cons_self

theorem fold_accumulate (vals : Nat → ℝ) (L : List (Nat × Nat)) (hL : (L.map (·.1)).Nodup) (acc : Nat → ℝ) (q : Nat) :
    (∀ i, (q, i) ∈ L →
      L.foldl (fun acc p => Function.update acc p.1 (acc p.1 + vals p.2)) acc q = acc q + vals i) ∧
    ((∀ i, (q, i) ∉ L) → L.foldl (fun acc p => Function.update acc p.1 (acc p.1 + vals p.2)) acc q = acc q) := by
  induction L generalizing acc with
  | nil => simp
  | cons a L ih =>
    simp only [List.map_cons, List.nodup_cons] at hL
    obtain ⟨h1, h2⟩ := hL
    specialize ih h2 (Function.update acc a.1 (acc a.1 + vals a.2))
    simp only [List.foldl_cons]
    refine ⟨fun i hi => ?_, fun hi => ?_⟩
    · rcases List.mem_cons.1 hi with h | h
      · subst h
        rw [ih.2 (fun j hj => h1 (List.mem_map.2 ⟨_, hj, rfl⟩)), Function.update_self]
      · rw [ih.1 i h, Function.update_of_ne]
        rintro rfl
        exact h1 (List.mem_map.2 ⟨_, h, rfl⟩)
    · rw [ih.2 (fun i h => hi i (List.mem_cons_of_mem _ h)), Function.update_of_ne]
      rintro rfl
      exact hi a.2 List.mem_cons_self

theorem diagPos_decode {n m p j : Nat} (hj : j < n) (hm : n ≤ m) :
    (p * (n * m) + j * m + j) / (n * m) = p ∧ (p * (n * m) + j * m + j) % (n * m) / m = j ∧
      (p * (n * m) + j * m + j) % m = j := by
  have hjm : j < m := by omega
  have h1 : j * m + j < n * m := idx_lt hj hjm
  have h2 : 0 < n * m := by omega
  refine ⟨?_, ?_, ?_⟩
  · rw [Nat.add_assoc, dec_row h1]
  · rw [Nat.add_assoc, mul_add_mod_lt h1, dec_row hjm]
  · have : p * (n * m) + j * m + j = (p * n + j) * m + j := by ring
    rw [this, mul_add_mod_lt hjm]

theorem diagPositions_nodup (b n m : Nat) (hm : n ≤ m) : (Backend.diagPositions b n m).Nodup := by
  unfold Backend.diagPositions
  refine List.Nodup.map_on ?_ List.nodup_range
  intro x hx y hy h
  have hx' := List.mem_range.1 hx
  have hn : 0 < n := by
    rcases Nat.eq_zero_or_pos n with h0 | h0
    · simp [h0] at hx'
    · exact h0
  have dx := diagPos_decode (p := x / n) (Nat.mod_lt x hn) hm
  have dy := diagPos_decode (p := y / n) (Nat.mod_lt y hn) hm
  rw [h] at dx
  have e1 : x / n = y / n := dx.1.symm.trans dy.1
  have e2 : x % n = y % n := dx.2.2.symm.trans dy.2.2
  rw [← Nat.div_add_mod x n, ← Nat.div_add_mod y n, e1, e2]

/-- **C53**, heteroscedastic noise: NumPy and torch store buffered sums, jax accumulates; because every diagonal
entry is addressed once, both are the perturbation of the model used everywhere else (C22). -/
theorem C53_heteroscedastic (b n m : Nat) (hm : n ≤ m) (Kin noise : Tensor ℝ) (hK : Kin.shape = [b, n, m])
    (hν : noise.shape.prod = b * n) :
    ∃ P Q R, Backend.heteroscedastic Backend.addBuffered Kin noise = .ok P ∧
      Backend.heteroscedastic Backend.addAccumulate Kin noise = .ok Q ∧ heteroscedasticPerturb Kin noise = .ok R ∧
      P.shape = [b, n, m] ∧ Q.shape = [b, n, m] ∧ R.shape = [b, n, m] ∧
      ∀ k < b * n * m, P.flat k = R.flat k ∧ Q.flat k = R.flat k := by
  have hlt : ¬ m < n := by omega
  refine ⟨⟨[b, n, m], Backend.addBuffered (Backend.diagPositions b n m) noise.flat Kin.flat⟩,
    ⟨[b, n, m], Backend.addAccumulate (Backend.diagPositions b n m) noise.flat Kin.flat⟩,
    ⟨[b, n, m], fun k =>
      Kin.flat k + (if k % (n * m) / m = k % m then noise.flat (k / (n * m) * n + k % m) else 0)⟩,
    ?_, ?_, ?_, rfl, rfl, rfl, ?_⟩
  · unfold Backend.heteroscedastic; rw [hK]; simp only [if_neg hlt, if_pos hν]
  · unfold Backend.heteroscedastic; rw [hK]; simp only [if_neg hlt, if_pos hν]
  · unfold heteroscedasticPerturb; rw [hK]; simp only [if_neg hlt, if_pos hν]
  · intro k hk
    have hnd : ((Backend.diagPositions b n m).zipIdx.map (·.1)).Nodup := by
      have : (Backend.diagPositions b n m).zipIdx.map (·.1) = Backend.diagPositions b n m := by
        exact List.zipIdx_map_fst 0 _
      rw [this]; exact diagPositions_nodup b n m hm
    have fb := fold_buffered Kin.flat noise.flat _ hnd Kin.flat k
    have fa := fold_accumulate noise.flat _ hnd Kin.flat k
    have mem : ∀ i, (k, i) ∈ (Backend.diagPositions b n m).zipIdx ↔
        i < b * n ∧ k = i / n * (n * m) + i % n * m + i % n := by
      intro i
      rw [List.mem_zipIdx_iff_getElem?]
      unfold Backend.diagPositions
      simp only [List.getElem?_map]
      by_cases hi : i < b * n
      · simp [hi, eq_comm]
      · simp [hi]
    by_cases hdiag : k % (n * m) / m = k % m
    · -- a diagonal entry
      have hnm : 0 < n * m := by
        rcases Nat.eq_zero_or_pos (n * m) with h0 | h0
        · rw [Nat.mul_assoc, h0] at hk; simp at hk
        · exact h0
      have hm0 : 0 < m := Nat.pos_of_mul_pos_left hnm
      have hn0 : 0 < n := Nat.pos_of_mul_pos_right hnm
      have hj : k % m < n := by
        rw [← hdiag]
        exact Nat.div_lt_of_lt_mul (by rw [Nat.mul_comm m n]; exact Nat.mod_lt _ hnm)
      have hp : k / (n * m) < b := Nat.div_lt_of_lt_mul (by rw [Nat.mul_comm, ← Nat.mul_assoc]; exact hk)
      have hmem : (k, k / (n * m) * n + k % m) ∈ (Backend.diagPositions b n m).zipIdx := by
        rw [mem]
        refine ⟨idx_lt hp hj, ?_⟩
        rw [dec_row hj, mul_add_mod_lt hj]
        have h1 := Nat.div_add_mod k (n * m)
        have h2 := Nat.div_add_mod (k % (n * m)) m
        rw [hdiag, Nat.mod_mul_left_mod] at h2
        calc k = n * m * (k / (n * m)) + k % (n * m) := h1.symm
          _ = n * m * (k / (n * m)) + (m * (k % m) + k % m) := by rw [h2]
          _ = _ := by ring
      simp only [hdiag, if_true]
      exact ⟨fb.1 _ hmem, fa.1 _ hmem⟩
    · have hno : ∀ i, (k, i) ∉ (Backend.diagPositions b n m).zipIdx := by
        intro i hi
        rw [mem] at hi
        have hn : 0 < n := by
          rcases Nat.eq_zero_or_pos n with h0 | h0
          · simp [h0] at hi
          · exact h0
        have d := diagPos_decode (p := i / n) (Nat.mod_lt i hn) hm
        rw [← hi.2] at d
        exact hdiag (d.2.1.trans d.2.2.symm)
      simp only [if_neg hdiag, add_zero]
      exact ⟨fb.2 hno, fa.2 hno⟩

/-! ### posterior -/

/-- **C53**, posterior mean and variance of single-output models: jax gives the NumPy (and torch) answer, errors
included. -/
theorem C53_jax_posterior (b n : Nat) (Kin Kcross y Kout : Tensor ℝ) (hK : Kin.shape = [b, n, n])
    (hC : Kcross.shape = [b, n]) (hy : y.shape = [b, n] ∨ ∃ r, r ≠ n ∧ y.shape = [b, n, r]) :
    Backend.jaxMean Kin Kcross y = posteriorMean Kin Kcross y ∧
    Backend.jaxVariance Kin Kcross Kout = diagonalVariance Kin Kcross Kout := by
  obtain ⟨ks, kf⟩ := Kin
  obtain ⟨cs, cf⟩ := Kcross
  obtain ⟨ys, yf⟩ := y
  simp only at hK hC hy
  subst hK hC
  constructor
  · rcases hy with rfl | ⟨r, hr, rfl⟩
    · simp [Backend.jaxMean, Backend.jaxMeanUnivariate, posteriorMean, findMatchingNdim, dropTail2, Tensor.ndim,
        Tensor.reshape, bind, Except.bind]
    · have hr' : ¬ r = n := hr
      simp [Backend.jaxMean, Backend.jaxMeanDiagonal, posteriorMean, findMatchingNdim, dropTail2, Tensor.ndim,
        Tensor.reshape, bind, Except.bind, hr']
  · simp [Backend.jaxVariance, diagonalVariance, Tensor.ndim, Tensor.reshape, bind, Except.bind]

/-- **C53**, posterior variance of multi-output models. -/
theorem C53_jax_multi_variance (b o n q : Nat) (Kin Kcross Kout : Tensor ℝ) (hK : Kin.shape = [b, o, n, o, n])
    (hC : Kcross.shape = [b, o, n, q]) :
    Backend.jaxVariance Kin Kcross Kout = diagonalVariance Kin Kcross Kout := by
  obtain ⟨ks, kf⟩ := Kin
  obtain ⟨cs, cf⟩ := Kcross
  simp only at hK hC
  subst hK hC
  simp [Backend.jaxVariance, diagonalVariance, Tensor.ndim, Tensor.reshape, bind, Except.bind]

/-- **C53, where the backends differ.** Multi-output posterior means: NumPy and torch return the kriging means
(C24), jax raises for every model with at least two observations per neighbourhood. -/
theorem C53_jax_multi_mean_fails (b o n q : Nat) (hb : 0 < b) (hq : 0 < q) (hon : 2 ≤ o * n) (Kin Kcross y : Tensor ℝ)
    (hK : Kin.shape = [b, o, n, o, n]) (hC : Kcross.shape = [b, o, n, q]) (hy : y.shape = [b, o, n])
    (hinv : ∀ p < b, (Spec.cov5 o n Kin p).det ≠ 0) :
    (∃ T, posteriorMean Kin Kcross y = .ok T ∧ T.shape = [b, q]) ∧ Backend.jaxMean Kin Kcross y = .error .value := by
  constructor
  · obtain ⟨T, hT, hs, _⟩ := posteriorMean_core' (N := o * n) (O := q) (E := 1) [b] [o, n] [q] []
      Kin Kcross y (by simp) (by simp) (by simp) (by simp) hK (by simpa using hC) (by simpa using hy)
      (by simp) (by simpa [matAt_cov5 Kin hK] using hinv)
    exact ⟨T, hT, by simpa using hs⟩
  · obtain ⟨F, hF, hFs, _⟩ := Tensor.solve_ok [b] (o * n) q ⟨[b, o * n, o * n], Kin.flat⟩ ⟨[b, o * n, q], Kcross.flat⟩
      rfl rfl (fun p hp => by
        rw [Tensor.matAt_mk, matAt_cov5 Kin hK]; exact hinv p (by simpa using hp))
    have r1 : Kin.reshape [b, o * n, o * n] = .ok ⟨[b, o * n, o * n], Kin.flat⟩ :=
      Tensor.reshape_ok _ _ (by rw [hK]; simp only [List.prod_cons, List.prod_nil, Nat.mul_one]; ring)
    have r2 : Kcross.reshape [b, o * n, q] = .ok ⟨[b, o * n, q], Kcross.flat⟩ :=
      Tensor.reshape_ok _ _ (by rw [hC]; simp only [List.prod_cons, List.prod_nil, Nat.mul_one]; ring)
    have r3 : y.reshape [b, o * n] = .ok ⟨[b, o * n], y.flat⟩ :=
      Tensor.reshape_ok _ _ (by rw [hy]; simp)
    have h3 : Kin.ndim ≠ 3 := by simp [Tensor.ndim, hK]
    unfold Backend.jaxMean
    rw [if_neg h3]
    unfold Backend.jaxMeanMultivariate
    rw [hK, hC]
    simp only [List.getLast?_cons_cons, List.getLast?_singleton, r1, r2, r3, hF, bind, Except.bind]
    by_cases hm : o * n = b
    · simp only [Backend.matmulTMatrix]
      rw [if_pos ⟨by simpa using hFs, hm⟩]
      refine Tensor.reshape_err _ _ ?_
      simp only [Tensor.ofFn, List.prod_cons, List.prod_nil, Nat.mul_one]
      intro h
      have h1 := Nat.eq_of_mul_eq_mul_left hb h
      have h2 : q * 1 = q * (o * n) := by rw [Nat.mul_one]; exact h1
      have h3 := Nat.eq_of_mul_eq_mul_left hq h2
      omega
    · simp only [Backend.matmulTMatrix]
      rw [if_neg (fun h => hm h.2)]

/-- **C53**, fast coefficients: after removing axes of length one, the coefficients of torch and jax are those of
NumPy, errors included. -/
theorem C53_fast_coefficients (Kin y : Tensor ℝ) :
    fastPrecompute Kin y = (Backend.precompute Kin y).map Tensor.squeeze := by
  obtain ⟨ys, yf⟩ := y
  unfold fastPrecompute Backend.precompute
  rcases ys with _ | ⟨b, _ | ⟨n, _ | ⟨r, _ | ⟨_, _⟩⟩⟩⟩
  · rfl
  · rfl
  · simp only [bind, Except.bind, pure, Except.pure]
    cases h : Tensor.solve [b] n 1 Kin ⟨[b, n, 1], yf⟩ with
    | error e => rfl
    | ok s =>
      have hs : s.shape = [b, n, 1] := by
        unfold Tensor.solve at h
        split at h
        · split at h
          · cases h; rfl
          · cases h
        · cases h
      simp [Except.map, Tensor.squeeze, hs]
      by_cases hb : b = 1 <;> by_cases hn : n = 1 <;> simp [hb, hn]
  · simp only [bind, Except.bind, pure, Except.pure]
    cases Tensor.solve [b] n r Kin ⟨[b, n, r], yf⟩ <;> rfl
  · rfl

/-- **C53 / C31.** The coefficients of torch and jax keep their axes, so the fast posterior mean built from them is
the kriging mean for every number of neighbours, one included (where the NumPy coefficients give a wrong answer,
`C31_one_neighbour_wrong`). -/
theorem C53_fast_mean (b n : Nat) (hb : b ≠ 1) (Kin y Kcross : Tensor ℝ) (hK : Kin.shape = [b, n, n])
    (hy : y.shape = [b, n]) (hC : Kcross.shape = [b, n]) (hinv : ∀ p < b, (Spec.cov n Kin p).det ≠ 0) :
    ∃ D T, Backend.precompute Kin y = .ok D ∧ D.shape = [b, n] ∧ fastPosteriorMean Kcross D = .ok T ∧ T.shape = [b] ∧
      ∀ q < b, T.get [q] = Spec.krigingMean (Spec.cov n Kin q) (Spec.vec n Kcross q) (Spec.vec n y q) := by
  obtain ⟨S, hS, hSs, hSm⟩ := Tensor.solve_ok [b] n 1 Kin ⟨[b, n, 1], y.flat⟩ hK rfl (fun p hp => by
    rw [matAt_cov Kin hK]; exact hinv p (by simpa using hp))
  obtain ⟨E, e1, e2, e3⟩ := einsum_core Kcross ⟨[b, n, 1], S.flat⟩ hC rfl
  refine ⟨⟨[b, n], S.flat⟩, E.squeeze, ?_, rfl, ?_, ?_, fun q hq => ?_⟩
  · unfold Backend.precompute
    rw [hy]
    simp only [bind, Except.bind, hS]; rfl
  · unfold fastPosteriorMean
    simp only [Tensor.atleast3d, bind, Except.bind, e1]; rfl
  · simp [Tensor.squeeze, e2, hb]
  · have hs : E.squeeze.shape = [b] := by simp [Tensor.squeeze, e2, hb]
    rw [Tensor.get1 _ hs]
    have h5 : E.squeeze.flat q = E.flat (q * 1 + 0) := by simp [Tensor.squeeze]
    rw [h5, e3 q hq 0 (by omega)]
    unfold Spec.krigingMean
    simp only [dotProduct]
    refine Finset.sum_congr rfl fun x _ => ?_
    have h6 := congrFun (congrFun (hSm q) x) 0
    rw [matAt_cov Kin hK] at h6
    have h7 : S.flat (q * (n * 1) + x * 1 + 0) = S.matAt n 1 q x 0 := by simp [Tensor.matAt]
    rw [h7, h6, Spec.vec, Tensor.get2 Kcross hC]
    congr 1
    simp only [Matrix.mul_apply, Matrix.mulVec, dotProduct]
    refine Finset.sum_congr rfl fun j _ => ?_
    rw [Spec.vec, Tensor.get2 y hy]
    simp [Tensor.matAt]

/-! ### analytic scale -/

/-- **C53**, analytic scale of single-output models: jax gives the NumPy (and torch) answer, errors included. -/
theorem C53_jax_scale (b n : Nat) (Kin y : Tensor ℝ) (hK : Kin.shape = [b, n, n]) (hy : y.shape = [b, n]) :
    Backend.jaxScale Kin y = analyticScale Kin y := by
  obtain ⟨ks, kf⟩ := Kin
  obtain ⟨ys, yf⟩ := y
  simp only at hK hy
  subst hK hy
  simp [Backend.jaxScale, analyticScale, Tensor.ndim, Tensor.reshape, bind, Except.bind, scaleUnnormalized,
    Tensor.atleast3d]

/-- **C53, where the backends differ.** Multi-output covariances `(b, o, n, o, n)`: jax divides by `b * o` where
NumPy and torch divide by `b * o * n`, so its estimate is `n` times theirs. -/
theorem C53_jax_multi_scale (b o n : Nat) (hn : 0 < n) (Kin y : Tensor ℝ) (hK : Kin.shape = [b, o, n, o, n])
    (hy : y.shape = [b, o, n]) (hinv : ∀ p < b, (Spec.cov5 o n Kin p).det ≠ 0) :
    ∃ s, analyticScale Kin y = .ok s ∧ Backend.jaxScale Kin y = .ok (n * s) := by
  have hN := C33_multi_output b o n Kin y hK hy hinv
  obtain ⟨ks, kf⟩ := Kin
  obtain ⟨ys, yf⟩ := y
  simp only at hK hy
  subst hK hy
  refine ⟨_, hN, ?_⟩
  have key : ∃ u, analyticScale ⟨[b, o, n, o, n], kf⟩ ⟨[b, o, n], yf⟩ = .ok (u / ((b * (o * n) : Nat) : ℝ)) ∧
      Backend.jaxScale ⟨[b, o, n, o, n], kf⟩ ⟨[b, o, n], yf⟩ = .ok (u / ((b * o : Nat) : ℝ)) := by
    have e1 : b * (o * n * (o * n)) = b * (o * (n * (o * n))) := by ring
    simp only [Backend.jaxScale, analyticScale, Tensor.ndim, Tensor.reshape, bind, Except.bind, scaleUnnormalized,
      Tensor.atleast3d] at hN ⊢
    simp [e1] at hN ⊢
    cases h : Tensor.solve [b] (o * n) 1 ⟨[b, o * n, o * n], kf⟩ ⟨[b, o * n, 1], yf⟩ with
    | error e => rw [h] at hN; simp at hN
    | ok F =>
      simp only
      exact ⟨_, rfl, rfl⟩
  obtain ⟨u, h1, h2⟩ := key
  rw [hN] at h1
  rw [h2]
  have h3 := Except.ok.inj h1
  rw [h3]
  congr 1
  have hn' : (n : ℝ) ≠ 0 := by exact_mod_cast hn.ne'
  push_cast
  by_cases hbo : (b : ℝ) * o = 0
  · have : (b : ℝ) * (o * n) = 0 := by rw [← mul_assoc, hbo, zero_mul]
    rw [hbo, this]; simp
  · field_simp

/-! ### concrete cases -/

/-- a multi-output covariance: two outputs, one neighbour, identity matrix -/
def exBackK : Tensor ℝ := ⟨[1, 2, 1, 2, 1], fun k => if k = 0 ∨ k = 3 then 1 else 0⟩

theorem exBackK_cov : Spec.cov5 2 1 exBackK 0 = 1 := by
  rw [← matAt_cov5 exBackK rfl]
  ext i j
  fin_cases i <;> fin_cases j <;> simp [Tensor.matAt, exBackK]

example : exBackK.shape = [1, 2, 1, 2, 1] ∧ 2 ≤ 2 * 1 ∧ ∀ p < 1, (Spec.cov5 2 1 exBackK p).det ≠ 0 := by
  refine ⟨rfl, le_refl _, fun p hp => ?_⟩
  obtain rfl : p = 0 := by omega
  rw [exBackK_cov]; simp

example : (∃ T, posteriorMean exBackK ⟨[1, 2, 1, 2], fun _ => 1⟩ ⟨[1, 2, 1], fun _ => 1⟩ = .ok T ∧ T.shape = [1, 2]) ∧
    Backend.jaxMean exBackK ⟨[1, 2, 1, 2], fun _ => 1⟩ ⟨[1, 2, 1], fun _ => 1⟩ = .error .value :=
  C53_jax_multi_mean_fails 1 2 1 2 (by decide) (by decide) (by decide) _ _ _ rfl rfl rfl (fun p hp => by
    obtain rfl : p = 0 := by omega
    rw [exBackK_cov]; simp)

/-- one-dimensional data: three points, two queries with two neighbours each -/
example : (∀ k < 2, validIndex 3 ((⟨[2], fun k => (k : Int)⟩ : Tensor Int).flat k)) ∧
    (∀ k < 2 * 2, validIndex 3 ((⟨[2, 2], fun k => if k < 3 then (k : Int) else 0⟩ : Tensor Int).flat k)) := by
  constructor
  · intro k hk; interval_cases k <;> decide
  · intro k hk; interval_cases k <;> decide

end MuyGPyS
