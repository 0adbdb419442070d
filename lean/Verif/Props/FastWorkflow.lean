import Verif.Props.Workflow

/-! # C32: neighbourhoods of fast prediction -/

namespace MuyGPyS
open Py Matrix

/-- `u` inserted in front of a neighbour list whose last element is dropped. -/
def insertSelf (u : Int) (l : List Int) : List Int := u :: l.dropLast

theorem update_ok (nn : Tensor Int) (N k : Nat) (hk : 0 < k) (h : nn.shape = [N, k]) :
    ∃ U, fastNnUpdate nn = .ok U ∧ U.shape = [N, k] ∧
      ∀ i < N, ∀ j < k, U.get [i, j] = if j = 0 then (i : Int) else nn.get [i, j - 1] := by
  unfold fastNnUpdate
  rw [h]
  have hk1 : 1 + (k - 1) = k := by omega
  simp only [hk1]
  exact ⟨_, rfl, rfl, fun i hi j hj => by rw [ofFn_get2 _ hi hj]; rfl⟩

/-- C32: the updated neighbourhood of training point `i` is `i` followed by all but the last of its
listed neighbours, with the same width. -/
theorem C32_update (nn : Tensor Int) (N k : Nat) (hk : 0 < k) (h : nn.shape = [N, k]) :
    ∃ U, fastNnUpdate nn = .ok U ∧ U.shape = [N, k] ∧
      ∀ i < N, rowList U k i = insertSelf i (rowList nn k i) := by
  obtain ⟨U, h1, h2, h3⟩ := update_ok nn N k hk h
  refine ⟨U, h1, h2, fun i hi => ?_⟩
  obtain ⟨k, rfl⟩ : ∃ k', k = k' + 1 := ⟨k - 1, by omega⟩
  unfold rowList insertSelf
  rw [List.range_succ_eq_map, List.map_cons, h3 i hi 0 (by omega), if_pos rfl, List.map_map]
  congr 1
  have : ((0 :: List.map Nat.succ (List.range k)).map fun j => nn.get [i, j]) =
      (List.range (k + 1)).map fun j => nn.get [i, j] := by rw [List.range_succ_eq_map]
  rw [List.range_succ] at this
  rw [this, List.map_append, List.map_cons, List.map_nil,
    List.dropLast_concat]
  refine List.map_congr_left fun j hj => ?_
  have := List.mem_range.mp hj
  show U.get [i, j + 1] = _
  rw [h3 i hi (j + 1) (by omega), if_neg (by omega)]
  rfl

theorem insertSelf_nodup {i : Int} {l : List Int} (hn : l.Nodup) (hi : i ∉ l) : (insertSelf i l).Nodup := by
  unfold insertSelf
  exact List.nodup_cons.mpr ⟨fun h => hi (List.mem_of_mem_dropLast h), hn.sublist (List.dropLast_sublist _)⟩

/-- C32: starting from neighbour rows as `get_batch_nns` returns them for separated training points
(different indices, not the point itself, nearest first), the updated rows have no repetitions and
are the point itself followed by its `k - 1` nearest others. -/
theorem C32_nearest_first (w : NNWrapper) (hw : w.Exact) (hk : 0 < w.nnCount) (hkN : w.nnCount + 1 ≤ w.N)
    (hself : ∀ x, w.dist x x = 0)
    (hsep : ∀ i < w.N, ∀ j < w.N, j ≠ i → 0 < w.dist (rowPt w.train w.f i) (rowPt w.train w.f j)) :
    ∃ I D U, w.getBatchNns (arange w.N) = .ok (I, D) ∧ fastNnUpdate I = .ok U ∧ U.shape = [w.N, w.nnCount] ∧
      ∀ i < w.N, ∃ l : List Nat, rowList U w.nnCount i = (i :: l).map Int.ofNat ∧ (i :: l).Nodup ∧
        Nearest (fun j => j < w.N ∧ j ≠ i) (fun j => w.dist (rowPt w.train w.f i) (rowPt w.train w.f j))
          (w.nnCount - 1) l := by
  obtain ⟨I, D, h1, h2, h3, h4⟩ := C41_batch_partial w hw (arange w.N) w.N rfl (arange_valid _) (by omega) hkN hself
    (fun i hi j hj hne => by
      rw [arange_get, pointOf_nat] at hne ⊢
      exact hsep i hi j hj hne)
  obtain ⟨U, u1, u2, u3⟩ := C32_update I w.N w.nnCount hk h2
  refine ⟨I, D, U, h1, u1, u2, fun i hi => ?_⟩
  obtain ⟨⟨l, l1, l2⟩, _⟩ := h4 i hi
  simp only [arange_get, pointOf_nat] at l2
  refine ⟨l.dropLast, ?_, ?_, ?_⟩
  · rw [u3 i hi, l1]
    unfold insertSelf
    rw [List.map_cons, List.map_dropLast]
    rfl
  · exact List.nodup_cons.mpr ⟨fun h => (l2.mem i (List.mem_of_mem_dropLast h)).2 rfl,
      l2.nodup.sublist (List.dropLast_sublist _)⟩
  · refine ⟨by rw [List.length_dropLast, l2.length], l2.nodup.sublist (List.dropLast_sublist _),
      fun j hj => l2.mem j (List.mem_of_mem_dropLast hj), l2.sorted.sublist (List.dropLast_sublist _),
      fun x hx j hj hjn => ?_⟩
    have hne : l ≠ [] := by rintro rfl; simp at hx
    by_cases hjl : j ∈ l
    · have hs := l2.sorted
      rw [← List.dropLast_append_getLast hne, List.pairwise_append] at hs
      rw [← List.dropLast_append_getLast hne, List.mem_append] at hjl
      exact hs.2.2 x hx j (hjl.resolve_left hjn)
    · exact l2.nearest x (List.mem_of_mem_dropLast hx) j hj hjl

/-- C32 is false of repeated updates: applying the update to rows that already start with the point
itself (as `fast_posterior_mean_any` does, and as the documented combination of `fast_nn_update` and
`make_fast_predict_tensors` does) lists the point twice. -/
theorem C32_double_update_repeats (nn : Tensor Int) (N k : Nat) (hk : 2 ≤ k) (h : nn.shape = [N, k]) :
    ∃ U V, fastNnUpdate nn = .ok U ∧ fastNnUpdate U = .ok V ∧ V.shape = [N, k] ∧
      ∀ i < N, ¬ (rowList V k i).Nodup ∧
        rowList V k i = (i : Int) :: (i : Int) :: (rowList nn k i).dropLast.dropLast := by
  obtain ⟨U, u1, u2, u3⟩ := C32_update nn N k (by omega) h
  obtain ⟨V, v1, v2, v3⟩ := C32_update U N k (by omega) u2
  have key : ∀ i < N, rowList V k i = (i : Int) :: (i : Int) :: (rowList nn k i).dropLast.dropLast := by
    intro i hi
    rw [v3 i hi, u3 i hi]
    unfold insertSelf
    rw [List.dropLast_cons_of_ne_nil]
    intro h0
    have := congrArg List.length h0
    simp [rowList] at this
    omega
  exact ⟨U, V, u1, v1, v2, fun i hi => ⟨by rw [key i hi]; simp, key i hi⟩⟩

theorem valid_nat {N z : Nat} (h : z < N) : Tensor.validIndex N (z : Int) := by
  unfold Tensor.validIndex; omega

/-- C32, `make_fast_predict_tensors`: given neighbour rows as `get_batch_nns` returns them, its
difference and target tensors belong to the updated neighbourhoods. -/
theorem C32_fast_predict_tensors (nn : Tensor Int) (X Y : Tensor ℝ) (N f r k : Nat) (hk : 0 < k)
    (hnn : nn.shape = [N, k]) (hv : AllValid N nn) (hX : X.shape = [N, f]) (hY : IsTable Y N r) :
    ∃ P Z, makeFastPredictTensors nn X Y = .ok (P, Z) ∧ P.shape = [N, k, k, f] ∧
      Z.shape = [N, k] ++ Y.shape.tail ∧
      let nbr (i j : Nat) : Nat := if j = 0 then i else pointOf N (nn.get [i, j - 1])
      (∀ i < N, ∀ j < k, ∀ j' < k, ∀ c < f, P.get [i, j, j', c] =
        feature X (nbr i j) c - feature X (nbr i j') c) ∧
      ∀ i < N, ∀ j < k, ∀ c < r, Z.flat ((i * k + j) * r + c) = feature Y (nbr i j) c := by
  obtain ⟨U, u1, u2, u3⟩ := update_ok nn N k hk hnn
  have hrow : ∀ i < N, ∀ j < k, pointOf N (U.get [i, j]) = if j = 0 then i else pointOf N (nn.get [i, j - 1]) := by
    intro i hi j hj
    rw [u3 i hi j hj]
    split_ifs with h0
    · exact pointOf_nat N i
    · rfl
  have hvU : AllValid N U := by
    intro q hq
    rw [u2] at hq
    have hq' : q < N * k := by simpa using hq
    have hqi : q / k < N := Nat.div_lt_of_lt_mul (by rwa [Nat.mul_comm] at hq')
    have hqj := Nat.mod_lt q hk
    have := u3 (q / k) hqi (q % k) hqj
    rw [Tensor.get2 U u2, Nat.div_add_mod'] at this
    by_cases h0 : q % k = 0
    · rw [this, if_pos h0]
      exact valid_nat hqi
    · rw [this, if_neg h0]
      exact valid2 hnn hv hqi (by omega)
  obtain ⟨P, p1, p2, p3⟩ := C15_pairwise X U N f N k (.inl hX) u2 hvU
  obtain ⟨Z, z1, z2, z3⟩ := take_targets hY hvU
  refine ⟨P, Z, ?_, p2, by rw [z2, u2], fun i hi j hj j' hj' c hc => ?_, fun i hi j hj c hc => ?_⟩
  · unfold makeFastPredictTensors
    rw [hX, hnn]
    simp only [ne_eq, not_true_eq_false, if_false, u1, p1, z1, bind, Except.bind, pure, Except.pure]
  · rw [p3 i j j' c hi hj hj' hc, hrow i hi j hj, hrow i hi j' hj']
  · rw [z3 _ c hc, ← Tensor.get2 U u2, hrow i hi j hj]

theorem update_valid {nn U : Tensor Int} {N k : Nat} (hk : 0 < k) (hnn : nn.shape = [N, k]) (hv : AllValid N nn)
    (u1 : fastNnUpdate nn = .ok U) : AllValid N U := by
  obtain ⟨U', u1', u2, u3⟩ := update_ok nn N k hk hnn
  obtain rfl : U = U' := by rw [u1] at u1'; exact Except.ok.inj u1'
  intro q hq
  rw [u2] at hq
  have hq' : q < N * k := by simpa using hq
  have hqi : q / k < N := Nat.div_lt_of_lt_mul (by rwa [Nat.mul_comm] at hq')
  have hqj := Nat.mod_lt q hk
  have := u3 (q / k) hqi (q % k) hqj
  rw [Tensor.get2 U u2, Nat.div_add_mod'] at this
  by_cases h0 : q % k = 0
  · rw [this, if_pos h0]
    exact valid_nat hqi
  · rw [this, if_neg h0]
    exact valid2 hnn hv hqi (by omega)

theorem take_rows {α : Type} {t : Tensor α} {N k m : Nat} (ht : t.shape = [N, k]) {idx : Tensor Int}
    (hi : idx.shape = [m]) (hv : AllValid N idx) :
    ∃ s, t.take idx = .ok s ∧ s.shape = [m, k] ∧
      ∀ i < m, ∀ j < k, s.get [i, j] = t.get [pointOf N (idx.get [i]), j] := by
  refine ⟨_, Tensor.take_ok t idx N [k] ht hv, by rw [hi]; rfl, fun i hi' j hj => ?_⟩
  rw [Tensor.get2 _ (show _ = [m, k] by rw [hi]; rfl), Tensor.get2 t ht, Tensor.get1 idx hi]
  simp only [List.prod_singleton]
  rw [Tensor.div_aux hj, Tensor.mod_aux hj]
  rfl

/-- C32, what the end-to-end fast workflow computes: with `c` the nearest training point of test
point `q`, the coefficients belong to the neighbourhood of `c` (`c` and its nearest others, rows of
`U`) but the cross-covariances are taken with the points in the rows of `V`, the neighbourhood
updated once more. -/
theorem C32_workflow_actual (bessel : Flt → ℝ → ℝ) (R : Regressor) (hk : R.kernel.make = R.kernel)
    (w : NNWrapper) (hw : w.Exact) (Q Y : Tensor ℝ) (m : Nat) (len : Fin w.f → ℝ)
    (hlen : R.kernel.deform.HasLengths w.f len)
    (hQ : Q.shape = [m, w.f]) (hY : Y.shape = [w.N]) (hm : 2 ≤ m) (hk0 : 2 ≤ w.nnCount)
    (hkN : w.nnCount + 1 ≤ w.N) (hν : R.gp.noise.Fits w.N w.nnCount) :
    ∃ (nn U V I : Tensor Int) (D D' : Tensor ℝ), w.getBatchNns (arange w.N) = .ok (nn, D) ∧ fastNnUpdate nn = .ok U ∧
      fastNnUpdate U = .ok V ∧ w.getNns Q = .ok (I, D') ∧
      ((∀ p < w.N, (nbrCov bessel R.kernel len w.train w.N w.nnCount U p + R.gp.noise.mat w.nnCount p).det ≠ 0) →
        ∃ μ coeffs, fastPosteriorMeanAny bessel R w Q w.train Y = .ok (μ, coeffs) ∧ μ.shape = [m] ∧
          ∀ q < m, let c := pointOf w.N (I.get [q, 0])
            μ.get [q] = Spec.krigingMean
              (nbrCov bessel R.kernel len w.train w.N w.nnCount U c + R.gp.noise.mat w.nnCount c)
              (nbrCross bessel R.kernel len w.train w.N w.nnCount V c (rowPt Q w.f q))
              (nbrTargets Y w.N w.nnCount U c 0)) := by
  obtain ⟨nn, D, h1, h2, h3, h4⟩ := C41_batch_always w hw (arange w.N) w.N rfl (arange_valid _) (by omega) hkN
  have hvnn : AllValid w.N nn := valid_of_rows h2 fun i hi j hj => by
    obtain ⟨l, e1, e2, e3, e4, _⟩ := h4 i hi
    obtain ⟨x, x1, x2⟩ := rowList_get e1 hj
    exact ⟨x, x2, e4 x (List.mem_of_getElem? x1)⟩
  obtain ⟨U, u1, u2, u3⟩ := update_ok nn w.N w.nnCount (by omega) h2
  have hvU := update_valid (by omega) h2 hvnn u1
  obtain ⟨V, v1, v2, v3⟩ := update_ok U w.N w.nnCount (by omega) u2
  have hvV := update_valid (by omega) u2 hvU v1
  obtain ⟨I, D', i1, i2, i3, i4, i5⟩ := C41_plain w hw Q m hQ (by omega) (by omega) (by omega)
  refine ⟨nn, U, V, I, D, D', h1, u1, v1, i1, fun hinv => ?_⟩
  have hvI : AllValid w.N I := valid_of_rows i2 fun i hi j hj => by
    obtain ⟨l, e1, e2⟩ := i4 i hi
    obtain ⟨x, x1, x2⟩ := rowList_get e1 hj
    exact ⟨x, x2, e2.mem x (List.mem_of_getElem? x1)⟩
  have hF : firstCol I = ⟨[m], fun k => I.get [k, 0]⟩ := by unfold firstCol; rw [i2]
  have hFs : (firstCol I).shape = [m] := by rw [hF]
  have hFg : ∀ q, (firstCol I).get [q] = I.get [q, 0] := fun q => by
    rw [Tensor.get1 _ hFs, hF]
  have hvF : AllValid w.N (firstCol I) := by
    intro q hq
    have hq' : q < m := by rw [hFs] at hq; simpa using hq
    rw [hF]
    exact valid2 i2 hvI hq' (by omega)
  obtain ⟨S, s1, s2, s3⟩ := take_rows v2 hFs hvF
  have hvS : AllValid w.N S := by
    intro q hq
    rw [s2] at hq
    have hq' : q < m * w.nnCount := by simpa using hq
    have hqi : q / w.nnCount < m := Nat.div_lt_of_lt_mul (by rwa [Nat.mul_comm] at hq')
    have hqj := Nat.mod_lt q (show 0 < w.nnCount by omega)
    have := s3 (q / w.nnCount) hqi (q % w.nnCount) hqj
    rw [Tensor.get2 S s2, Nat.div_add_mod'] at this
    rw [this]
    have hc := Tensor.wrapIndex_lt (valid1 hFs hvF hqi)
    exact valid2 v2 hvV hc hqj
  -- coefficients
  obtain ⟨E, K, k1, k2, k3, k4⟩ := kernel_pairwise bessel R.kernel hk w.train U w.N w.f w.N w.nnCount len hlen
    (.inl hw.1) u2 hvU
  obtain ⟨Z, z1, z2, z3⟩ := take_targets (.inr ⟨hY, rfl⟩ : IsTable Y w.N 1) hvU
  have z2' : Z.shape = [w.N, w.nnCount] := by rw [z2, u2, hY]; rfl
  -- crosswise kernel
  obtain ⟨E', C, c1, c2, c3, c4⟩ := kernel_crosswise bessel R.kernel hk Q w.train (arange m) S m w.N w.f m w.nnCount
    len hlen (.inl hQ) (.inl hw.1) (by rw [hQ, hw.1]; rfl) rfl s2 (arange_valid m) hvS
  obtain ⟨co, o1, o2, o3⟩ := C31_fast_mean_partial R.gp w.N m w.nnCount (by omega) (by omega) (by omega) hν
    K Z C k3 z2' c3 (fun p hp => by rw [k4 p hp]; exact hinv p hp) (fun q => pointOf w.N (I.get [q, 0]))
  obtain ⟨G, g1, g2, g3⟩ := take_rows o2 hFs hvF
  obtain ⟨μ, t1, t2, t3⟩ := o3 G g2 (fun q hq i hi => by rw [g3 q hq i hi, hFg])
  refine ⟨μ, co, ?_, t2, fun q hq => ?_⟩
  · unfold fastPosteriorMeanAny makeFastRegressor fastPosteriorMeanFromIndices
    rw [hw.1, hQ]
    simp only [h1, u1, z1, k1, k2, o1, v1, i1, s1, c1, c2, g1, t1, bind, Except.bind, pure, Except.pure]
  · have hcN : pointOf w.N (I.get [q, 0]) < w.N := Tensor.wrapIndex_lt (valid2 i2 hvI hq (by omega))
    rw [t3 q hq, k4 _ hcN, c4 q hq]
    congr 1
    · funext j
      simp only [nbrCross]
      rw [s3 q hq j j.2, hFg, arange_get, pointOf_nat]
      congr 1
      funext c
      simp only [pt, feature, hQ, rowPt]
    · funext j
      have := z3 (pointOf w.N (I.get [q, 0]) * w.nnCount + j) 0 (by omega)
      rw [Nat.mul_one, Nat.add_zero] at this
      rw [Spec.vec, Tensor.get2 Z z2', this, ← Tensor.get2 U u2]
      rfl

end MuyGPyS
