import Verif.Spec.FastPipeline
import Verif.Props.FastWorkflow
import Verif.Props.MultiFast
import Verif.Props.MultiPipeline

/-!
# Property C65: the end-to-end fast posterior mean
-/

namespace MuyGPyS
open Py Matrix

/-- The shape of an array of vectors of `r` responses: the axis of a single response is squeezed away. -/
def withResponses (s : List Nat) (r : Nat) : List Nat := if r = 1 then s else s ++ [r]

theorem coefficients_any {t n r : Nat} (m : MuyGPS) (ht : t ≠ 1) (hn : n ≠ 1) (hν : m.noise.Fits t n) (Kin Z : Tensor ℝ)
    (hK : Kin.shape = [t, n, n]) (hZ : Z.shape = [t, n, r] ∨ (Z.shape = [t, n] ∧ r = 1))
    (hinv : ∀ p < t, (Spec.cov n Kin p + m.noise.mat n p).det ≠ 0) :
    ∃ C, m.fastCoefficients Kin Z = .ok C ∧ C.shape = withResponses [t, n] r ∧
      ∀ p, ∀ i : Fin n, ∀ c < r, C.flat (p * (n * r) + i * r + c) =
        ((Spec.cov n Kin p + m.noise.mat n p)⁻¹ *ᵥ fun j : Fin n => Z.flat ((p * n + j) * r + c)) i := by
  obtain ⟨P, h1, h2, h3⟩ := m.noise.perturb_cov hν Kin hK
  have hinv' : ∀ p < t, (Spec.cov n P p).det ≠ 0 := fun p hp => by rw [h3]; exact hinv p hp
  rcases hZ with hZ | ⟨hZ, rfl⟩
  · obtain ⟨C, c1, c2, c3⟩ := fastPrecompute_multi P Z h2 hZ hinv'
    refine ⟨C, ?_, ?_, fun p i c hc => ?_⟩
    · unfold MuyGPS.fastCoefficients Noise.perturbFn
      rw [h1]; exact c1
    · rw [c2]; unfold withResponses
      split <;> simp [*]
    · rw [c3 p i ⟨c, hc⟩, h3]
      congr 2
      funext j
      show Z.get [p, j, c] = _
      rw [Tensor.get3 Z hZ]
      congr 1
      ring
  · obtain ⟨C, c1, c2, c3⟩ := fastPrecompute_single P Z h2 hZ hinv'
    refine ⟨C, ?_, ?_, fun p i c hc => ?_⟩
    · unfold MuyGPS.fastCoefficients Noise.perturbFn
      rw [h1]; exact c1
    · rw [c2]; simp [withResponses, ht, hn]
    · obtain rfl : c = 0 := by omega
      rw [Nat.mul_one, Nat.mul_one, Nat.add_zero, c3 p i, h3]
      congr 2
      funext j
      show Z.get [p, j] = _
      rw [Tensor.get2 Z hZ]
      simp

theorem fastMean_any {b n r : Nat} (m : MuyGPS) (hb : b ≠ 1) (Kcross D : Tensor ℝ)
    (hC : Kcross.shape = [b, n]) (hD : D.shape = withResponses [b, n] r) :
    ∃ T, m.fastPosteriorMean Kcross D = .ok T ∧ T.shape = withResponses [b] r ∧
      ∀ q < b, ∀ c < r, T.flat (q * r + c) = ∑ x : Fin n, Kcross.flat (q * n + x) * D.flat (q * (n * r) + x * r + c) := by
  have ha : D.atleast3d = ⟨[b, n, r], D.flat⟩ := by
    obtain ⟨s, g⟩ := D
    unfold withResponses at hD
    simp only at hD
    split at hD <;> subst hD
    · subst r; rfl
    · rfl
  obtain ⟨E, e1, e2, e3⟩ := einsum_core Kcross ⟨[b, n, r], D.flat⟩ hC rfl
  refine ⟨E.squeeze, ?_, ?_, fun q hq c hc => e3 q hq c hc⟩
  · unfold MuyGPS.fastPosteriorMean MuyGPyS.fastPosteriorMean
    rw [ha, e1]; rfl
  · simp only [Tensor.squeeze, e2, withResponses]
    split <;> simp [*]

theorem take_responses {N n r b : Nat} (C : Tensor ℝ) (hC : C.shape = withResponses [N, n] r) (idx : Tensor Int) (hi : idx.shape = [b])
    (hv : AllValid N idx) :
    ∃ D, C.take idx = .ok D ∧ D.shape = withResponses [b, n] r ∧
      ∀ q u, u < n * r → D.flat (q * (n * r) + u) = C.flat (pointOf N (idx.flat q) * (n * r) + u) := by
  have key : ∀ rest : List Nat, C.shape = N :: rest → rest.prod = n * r → ∃ D, C.take idx = .ok D ∧ D.shape = b :: rest ∧
      ∀ q u, u < n * r → D.flat (q * (n * r) + u) = C.flat (pointOf N (idx.flat q) * (n * r) + u) := by
    intro rest hs hp
    refine ⟨_, Tensor.take_ok C idx N rest hs hv, by rw [hi]; rfl, fun q u hu => ?_⟩
    simp only [hp]
    rw [Tensor.div_aux hu, Tensor.mod_aux hu]
    rfl
  unfold withResponses at hC ⊢
  split at hC
  · subst r
    simpa using key [n] hC (by simp)
  · rw [if_neg (by assumption)]
    exact key [n, r] hC (by simp)

theorem closest_of_row {w : NNWrapper} {Q : Tensor ℝ} {I : Tensor Int} {q : Nat} {l : List Nat} (hk : 0 < w.nnCount)
    (h1 : rowList I w.nnCount q = l.map Int.ofNat)
    (h2 : Nearest (· < w.N) (fun j => w.dist (rowPt Q w.f q) (rowPt w.train w.f j)) w.nnCount l) :
    IsClosest w Q q (pointOf w.N (I.get [q, 0])) ∧ I.get [q, 0] = (pointOf w.N (I.get [q, 0]) : Int) := by
  obtain ⟨x, x1, x2⟩ := rowList_get h1 hk
  rw [x2, pointOf_nat]
  refine ⟨⟨h2.mem x (List.mem_of_getElem? x1), fun j hj => ?_⟩, rfl⟩
  cases l with
  | nil => simp at x1
  | cons a l =>
    obtain rfl : a = x := by simpa using x1
    by_cases hjl : j ∈ a :: l
    · rcases List.mem_cons.mp hjl with rfl | hjl
      · exact le_refl _
      · exact (List.pairwise_cons.mp h2.sorted).1 j hjl
    · exact h2.nearest a List.mem_cons_self j hj hjl

/-- The neighbourhoods of the training points, and the closest training point of every test point. -/
theorem fast_indices (w : NNWrapper) (hw : w.Exact) (hk0 : 2 ≤ w.nnCount) (hkN : w.nnCount + 1 ≤ w.N) (hsep : w.Separated)
    (Q : Tensor ℝ) (m : Nat) (hQ : Q.shape = [m, w.f]) (hm : 0 < m) :
    ∃ (nn U V S I : Tensor Int) (D D' : Tensor ℝ), w.getBatchNns (arange w.N) = .ok (nn, D) ∧ fastNnUpdate nn = .ok U ∧
      fastNnUpdate U = .ok V ∧ w.getNns Q = .ok (I, D') ∧ V.take (firstCol I) = .ok S ∧
      OwnNeighbourhoods w U ∧ AllValid w.N U ∧ (firstCol I).shape = [m] ∧ AllValid w.N (firstCol I) ∧
      S.shape = [m, w.nnCount] ∧ AllValid w.N S ∧
      (∀ q < m, IsClosest w Q q (pointOf w.N ((firstCol I).flat q))) ∧
      ∀ q < m, ∀ j < w.nnCount, S.get [q, j] = U.get [pointOf w.N ((firstCol I).flat q), j - 1] := by
  obtain ⟨nn, D, U, h1, u1, u2, u3⟩ := C32_nearest_first w hw (by omega) hkN hsep.1 hsep.2
  have hvU : AllValid w.N U := valid_of_rows u2 fun i hi j hj => by
    obtain ⟨l, e1, e2, e3⟩ := u3 i hi
    obtain ⟨x, x1, x2⟩ := rowList_get e1 hj
    refine ⟨x, x2, ?_⟩
    rcases List.mem_cons.mp (List.mem_of_getElem? x1) with rfl | h
    · exact hi
    · exact (e3.mem x h).1
  obtain ⟨V, v1, v2, v3⟩ := update_ok U w.N w.nnCount (by omega) u2
  have hvV := update_valid (by omega) u2 hvU v1
  obtain ⟨I, D', i1, i2, i3, i4, i5⟩ := C41_plain w hw Q m hQ hm (by omega) (by omega)
  have hvI : AllValid w.N I := valid_of_rows i2 fun i hi j hj => by
    obtain ⟨l, e1, e2⟩ := i4 i hi
    obtain ⟨x, x1, x2⟩ := rowList_get e1 hj
    exact ⟨x, x2, e2.mem x (List.mem_of_getElem? x1)⟩
  have hF : firstCol I = ⟨[m], fun k => I.get [k, 0]⟩ := by unfold firstCol; rw [i2]
  have hFs : (firstCol I).shape = [m] := by rw [hF]
  have hFf : ∀ q, (firstCol I).flat q = I.get [q, 0] := fun q => by rw [hF]
  have hvF : AllValid w.N (firstCol I) := by
    intro q hq
    have hq' : q < m := by rw [hFs] at hq; simpa using hq
    rw [hFf]
    exact valid2 i2 hvI hq' (by omega)
  obtain ⟨S, s1, s2, s3⟩ := take_rows v2 hFs hvF
  have hcl : ∀ q < m, IsClosest w Q q (pointOf w.N ((firstCol I).flat q)) := fun q hq => by
    obtain ⟨l, e1, e2⟩ := i4 q hq
    rw [hFf]
    exact (closest_of_row (by omega) e1 e2).1
  have hvS : AllValid w.N S := by
    intro q hq
    rw [s2] at hq
    have hq' : q < m * w.nnCount := by simpa using hq
    have hqi : q / w.nnCount < m := Nat.div_lt_of_lt_mul (by rwa [Nat.mul_comm] at hq')
    have hqj := Nat.mod_lt q (show 0 < w.nnCount by omega)
    have := s3 (q / w.nnCount) hqi (q % w.nnCount) hqj
    rw [Tensor.get2 S s2, Nat.div_add_mod'] at this
    rw [this]
    exact valid2 v2 hvV (Tensor.wrapIndex_lt (valid1 hFs hvF hqi)) hqj
  refine ⟨nn, U, V, S, I, D, D', h1, u1, v1, i1, s1, ⟨u2, u3⟩, hvU, hFs, hvF, s2, hvS, hcl, fun q hq j hj => ?_⟩
  have hc := (hcl q hq).1
  rw [s3 q hq j hj, Tensor.get1 _ hFs, v3 _ hc j hj]
  split_ifs with h0
  · subst h0
    obtain ⟨l, e1, e2, e3⟩ := u3 _ hc
    obtain ⟨x, x1, x2⟩ := rowList_get e1 (show 0 < w.nnCount by omega)
    rw [x2]
    simpa using x1
  · rfl

theorem fastAnyModel_one (bs : Flt → ℝ → ℝ) (L : Learner) (w : NNWrapper) (Q X Y : Tensor ℝ) :
    fastAnyModel bs (.one L) w Q X Y = fastPosteriorMeanAny bs L.trainee.R w Q X Y := by
  unfold fastAnyModel fastPosteriorMeanAny decideFastRegressor
  rfl

/-- **C65**, what `fast_posterior_mean_any` does with one model, for any number of responses. The coefficients of every training
point are those of its own neighbourhood: the point and its nearest others. Each test point uses the coefficients of its closest
training point, but the correlations they multiply are *shifted*: coefficient `j` multiplies the correlation with neighbour `j - 1`
(coefficients 0 and 1 both that with the closest point itself, and the last neighbour is never looked at). Nothing fails. -/
theorem C65_actual (bs : Flt → ℝ → ℝ) (w : NNWrapper) (hw : w.Exact) (hk0 : 2 ≤ w.nnCount) (hkN : w.nnCount + 1 ≤ w.N)
    (hsep : w.Separated) (Q : Tensor ℝ) (m : Nat) (hQ : Q.shape = [m, w.f]) (hm : 2 ≤ m) :
    ∃ (U : Tensor Int) (cl : Nat → Nat), OwnNeighbourhoods w U ∧ (∀ q < m, IsClosest w Q q (cl q)) ∧
      ∀ (L : Learner) (len : Fin w.f → ℝ) (Y : Tensor ℝ) (r : Nat), L.Usable w w.N → L.deform.HasLengths w.f len → 0 < r →
        IsTable Y w.N r →
        ∃ μ C, fastAnyModel bs (.one L) w Q w.train Y = .ok (μ, C) ∧ μ.shape = withResponses [m] r ∧
          C.shape = withResponses [w.N, w.nnCount] r ∧
          (∀ i < w.N, ∀ c < r, ∀ j : Fin w.nnCount, C.flat ((i * w.nnCount + j) * r + c) =
            ((nbrCov bs L.trainee.R.kernel len w.train w.N w.nnCount U i + L.trainee.R.gp.noise.mat w.nnCount i)⁻¹ *ᵥ
              nbrTargets Y w.N w.nnCount U i c) j) ∧
          ∀ q < m, ∀ c < r, μ.flat (q * r + c) = Spec.krigingMean
            (nbrCov bs L.trainee.R.kernel len w.train w.N w.nnCount U (cl q) + L.trainee.R.gp.noise.mat w.nnCount (cl q))
            (shifted (nbrCross bs L.trainee.R.kernel len w.train w.N w.nnCount U (cl q) (rowPt Q w.f q)))
            (nbrTargets Y w.N w.nnCount U (cl q) c) := by
  obtain ⟨nn, U, V, S, I, D, D', h1, u1, v1, i1, s1, hU, hvU, hFs, hvF, s2, hvS, hcl, s3⟩ :=
    fast_indices w hw hk0 hkN hsep Q m hQ (by omega)
  refine ⟨U, fun q => pointOf w.N ((firstCol I).flat q), hU, hcl, fun L len Y r hu hlen hr hY => ?_⟩
  have hk := usable_make hu
  have hinv := usable_regular bs hu hlen U fun i hi => by
    obtain ⟨l, e1, e2, e3⟩ := hU.2 i hi
    refine ⟨_, e1, e2, fun x hx => ?_⟩
    rcases List.mem_cons.mp hx with rfl | h
    · exact hi
    · exact (e3.mem x h).1
  obtain ⟨E, K, k1, k2, k3, k4⟩ := kernel_pairwise bs L.trainee.R.kernel hk w.train U w.N w.f w.N w.nnCount len hlen
    (.inl hw.1) hU.1 hvU
  obtain ⟨Z, z1, z2, z3⟩ := take_targets hY hvU
  have hZ : Z.shape = [w.N, w.nnCount, r] ∨ (Z.shape = [w.N, w.nnCount] ∧ r = 1) := by
    rcases hY with h | ⟨h, h'⟩
    · left; rw [z2, hU.1, h]; rfl
    · right; exact ⟨by rw [z2, hU.1, h]; rfl, h'⟩
  obtain ⟨E', C, c1, c2, c3, c4⟩ := kernel_crosswise bs L.trainee.R.kernel hk Q w.train (arange m) S m w.N w.f m w.nnCount
    len hlen (.inl hQ) (.inl hw.1) (by rw [hQ, hw.1]; rfl) rfl s2 (arange_valid m) hvS
  obtain ⟨co, o1, o2, o3⟩ := coefficients_any L.trainee.R.gp (t := w.N) (n := w.nnCount) (r := r) (by omega) (by omega) hu.2.2.1
    K Z k3 hZ (fun p hp => by rw [k4 p hp]; exact hinv p hp)
  obtain ⟨G, g1, g2, g3⟩ := take_responses co o2 (firstCol I) hFs hvF
  obtain ⟨μ, t1, t2, t3⟩ := fastMean_any L.trainee.R.gp (show m ≠ 1 by omega) C G c3 g2
  have htar : ∀ i < w.N, ∀ c < r, (fun j : Fin w.nnCount => Z.flat ((i * w.nnCount + j) * r + c)) =
      nbrTargets Y w.N w.nnCount U i c := by
    intro i hi c hc
    funext j
    rw [z3 _ c hc, ← Tensor.get2 U hU.1]
    rfl
  have hco : ∀ i < w.N, ∀ c < r, ∀ j : Fin w.nnCount, co.flat (i * (w.nnCount * r) + j * r + c) =
      ((nbrCov bs L.trainee.R.kernel len w.train w.N w.nnCount U i + L.trainee.R.gp.noise.mat w.nnCount i)⁻¹ *ᵥ
        nbrTargets Y w.N w.nnCount U i c) j := by
    intro i hi c hc j
    rw [o3 i j c hc, k4 i hi, htar i hi c hc]
  refine ⟨μ, co, ?_, t2, o2, fun i hi c hc j => ?_, fun q hq c hc => ?_⟩
  · rw [fastAnyModel_one]
    unfold fastPosteriorMeanAny makeFastRegressor fastPosteriorMeanFromIndices
    rw [hw.1, hQ]
    simp only [h1, u1, z1, k1, k2, o1, v1, i1, s1, c1, c2, g1, t1, bind, Except.bind, pure, Except.pure]
  · rw [← hco i hi c hc j]
    congr 1
    ring
  · have hcN := (hcl q hq).1
    rw [t3 q hq c hc]
    unfold Spec.krigingMean dotProduct
    refine Finset.sum_congr rfl fun j _ => ?_
    congr 1
    · have := congrFun (c4 q hq) j
      rw [Spec.vec, Tensor.get2 C c3] at this
      rw [this]
      unfold shifted nbrCross
      rw [s3 q hq j j.2, arange_get, pointOf_nat]
      congr 1
      funext x
      simp only [pt, feature, hQ, rowPt]
    · rw [Nat.add_assoc, g3 q (j * r + c) (by
        calc (j : Nat) * r + c < j * r + r := by omega
          _ = (j + 1) * r := by ring
          _ ≤ w.nnCount * r := Nat.mul_le_mul_right _ j.2), ← Nat.add_assoc]
      exact hco _ hcN c hc j

/-- Any values can be the responses of the neighbours of a training point. -/
theorem targets_exist {w : NNWrapper} {U : Tensor Int} {i : Nat} {l : List Nat} (hl : rowList U w.nnCount i = l.map Int.ofNat)
    (hn : l.Nodup) (v : Fin w.nnCount → ℝ) : ∃ Y : Tensor ℝ, Y.shape = [w.N] ∧ nbrTargets Y w.N w.nnCount U i 0 = v := by
  refine ⟨⟨[w.N], fun x => if h : l.idxOf x < w.nnCount then v ⟨l.idxOf x, h⟩ else 0⟩, rfl, ?_⟩
  funext j
  obtain ⟨x, x1, x2⟩ := rowList_get hl j.2
  have hx : l.idxOf x = j := by
    obtain ⟨a1, a2⟩ := List.getElem?_eq_some_iff.mp x1
    rw [← a2]
    exact hn.idxOf_getElem _ _
  unfold nbrTargets
  rw [x2, pointOf_nat]
  show Tensor.get _ [x] = v j
  rw [Tensor.get1 _ rfl]
  simp only [hx]
  rw [dif_pos j.2]

theorem shifted_sub {n : Nat} (K : Matrix (Fin n) (Fin n) ℝ) (hK : K.det ≠ 0) (k : Fin n → ℝ) (j : Fin n) :
    Spec.krigingMean K (shifted k) (K *ᵥ Pi.single j 1) = k ⟨j - 1, by omega⟩ ∧
    Spec.krigingMean K k (K *ᵥ Pi.single j 1) = k j := by
  have : K⁻¹ *ᵥ (K *ᵥ Pi.single j 1) = Pi.single j 1 := by
    rw [Matrix.mulVec_mulVec, Matrix.nonsing_inv_mul _ (isUnit_iff_ne_zero.mpr hK), Matrix.one_mulVec]
  unfold Spec.krigingMean
  rw [this]
  simp [shifted]

/-- **C65 fails**, exactly where: the fast prediction of test point `q` is the documented kriging mean for all responses if and only
if `q` is equally correlated with all the neighbours of its closest training point. -/
theorem C65_right_iff (bs : Flt → ℝ → ℝ) (w : NNWrapper) (hw : w.Exact) (hk0 : 2 ≤ w.nnCount) (hkN : w.nnCount + 1 ≤ w.N)
    (hsep : w.Separated) (Q : Tensor ℝ) (m : Nat) (hQ : Q.shape = [m, w.f]) (hm : 2 ≤ m) :
    ∃ (U : Tensor Int) (cl : Nat → Nat), OwnNeighbourhoods w U ∧ (∀ q < m, IsClosest w Q q (cl q)) ∧
      ∀ (L : Learner) (len : Fin w.f → ℝ), L.Usable w w.N → L.deform.HasLengths w.f len → ∀ q < m,
        ((∀ Y μ C : Tensor ℝ, Y.shape = [w.N] → fastAnyModel bs (.one L) w Q w.train Y = .ok (μ, C) →
            μ.get [q] = fastDocumented bs L.trainee.R w len U Y (cl q) 0 (rowPt Q w.f q)) ↔
          ∀ i j : Fin w.nnCount, nbrCross bs L.trainee.R.kernel len w.train w.N w.nnCount U (cl q) (rowPt Q w.f q) i =
            nbrCross bs L.trainee.R.kernel len w.train w.N w.nnCount U (cl q) (rowPt Q w.f q) j) := by
  obtain ⟨U, cl, hU, hcl, h⟩ := C65_actual bs w hw hk0 hkN hsep Q m hQ hm
  refine ⟨U, cl, hU, hcl, fun L len hu hlen q hq => ⟨fun hall => ?_, fun hc Y μ C hY hf => ?_⟩⟩
  · obtain ⟨l, e1, e2, e3⟩ := hU.2 _ (hcl q hq).1
    have hdet := usable_regular bs hu hlen U (fun i hi => by
      obtain ⟨l, e1, e2, e3⟩ := hU.2 i hi
      refine ⟨_, e1, e2, fun x hx => ?_⟩
      rcases List.mem_cons.mp hx with rfl | h
      · exact hi
      · exact (e3.mem x h).1) (cl q) (hcl q hq).1
    set K := nbrCov bs L.trainee.R.kernel len w.train w.N w.nnCount U (cl q) + L.trainee.R.gp.noise.mat w.nnCount (cl q) with hKdef
    set k := nbrCross bs L.trainee.R.kernel len w.train w.N w.nnCount U (cl q) (rowPt Q w.f q) with hkdef
    have step : ∀ j : Fin w.nnCount, k ⟨j - 1, by omega⟩ = k j := by
      intro j
      obtain ⟨Y, y1, y2⟩ := targets_exist e1 e2 (K *ᵥ Pi.single j 1)
      obtain ⟨μ, C, f1, f2, f3, f4, f5⟩ := h L len Y 1 hu hlen one_pos (.inr ⟨y1, rfl⟩)
      have a := hall Y μ C y1 f1
      have b := f5 q hq 0 one_pos
      rw [Nat.mul_one, Nat.add_zero] at b
      rw [Tensor.get1 μ f2, b] at a
      unfold fastDocumented at a
      rw [y2, ← hKdef, ← hkdef, (shifted_sub K hdet k j).1, (shifted_sub K hdet k j).2] at a
      exact a
    have hz : ∀ (j : Nat) (hj : j < w.nnCount), k ⟨j, hj⟩ = k ⟨0, by omega⟩ := by
      intro j
      induction j with
      | zero => intro _; rfl
      | succ j ih => intro hj; rw [← ih (by omega)]; exact (step ⟨j + 1, hj⟩).symm
    intro i j
    rw [hz i i.2, hz j j.2]
  · obtain ⟨μ', C', f1, f2, f3, f4, f5⟩ := h L len Y 1 hu hlen one_pos (.inr ⟨hY, rfl⟩)
    rw [f1] at hf
    obtain ⟨rfl, rfl⟩ := Prod.mk.inj (Except.ok.inj hf)
    have b := f5 q hq 0 one_pos
    rw [Nat.mul_one, Nat.add_zero] at b
    rw [Tensor.get1 _ f2, b]
    unfold fastDocumented
    congr 1
    funext j
    exact hc _ _

theorem posdef_apart {n : Nat} {K : Matrix (Fin n) (Fin n) ℝ} (hK : K.PosDef) {a b : Fin n} (hab : a ≠ b) (h1 : K a a = K b b)
    (h2 : K a a = K a b) : False := by
  have hsym : K b a = K a b := by simpa using hK.isHermitian.apply a b
  have hv : (Pi.single a 1 - Pi.single b 1 : Fin n → ℝ) ≠ 0 := by
    intro h
    have := congrFun h a
    simp [Pi.single_eq_of_ne hab] at this
  have := hK.dotProduct_mulVec_pos hv
  rw [star_trivial, Matrix.mulVec_sub, sub_dotProduct, dotProduct_sub, dotProduct_sub] at this
  simp only [single_one_dotProduct, Matrix.mulVec_single_one, Matrix.col_apply] at this
  rw [hsym, ← h1, ← h2] at this
  simp at this

theorem separated_distinct {w : NNWrapper} (hw : w.Exact) (hsep : w.Separated) : DistinctRows w.train w.N w.f := by
  intro i hi j hj hij
  by_contra hcon
  push Not at hcon
  have : rowPt w.train w.f i = rowPt w.train w.f j := by
    rw [← rowPt_pt hw.1, ← rowPt_pt hw.1]
    funext c
    exact hcon c c.2
  have h := hsep.2 i hi j hj (Ne.symm hij)
  rw [this, hsep.1] at h
  exact lt_irrefl _ h

/-- Without noise, the documented fast prediction at a training point is its response. -/
theorem documented_at_training (bs : Flt → ℝ → ℝ) {w : NNWrapper} (hw : w.Exact) (hk0 : 2 ≤ w.nnCount) (hsep : w.Separated)
    {L : Learner} (hu : L.Usable w w.N) {len : Fin w.f → ℝ} (hlen : L.deform.HasLengths w.f len) {U : Tensor Int}
    (hU : OwnNeighbourhoods w U) {i : Nat} (hi : i < w.N) (hz : L.trainee.R.gp.noise.mat w.nnCount i = 0) {x : Fin w.f → ℝ}
    (heq : x = rowPt w.train w.f i) (Y : Tensor ℝ) (c : Nat) : fastDocumented bs L.trainee.R w len U Y i c x = feature Y i c := by
  obtain ⟨l, e1, e2, e3⟩ := hU.2 i hi
  obtain ⟨x, x1, x2⟩ := rowList_get e1 (show 0 < w.nnCount by omega)
  obtain rfl : i = x := by simpa using x1
  have hK : (nbrCov bs L.trainee.R.kernel len w.train w.N w.nnCount U i).det ≠ 0 := by
    refine Kriging.det_ne_zero ((nbrCov_definite bs L.trainee.R.kernel hu.2.1 len (hasLengths_pos hlen) w.train w.N w.nnCount U i).2
      (distinct_of_nodup e1 e2 ?_ (separated_distinct hw hsep)))
    intro x hx
    rcases List.mem_cons.mp hx with rfl | h
    · exact hi
    · exact (e3.mem x h).1
  have hcross : nbrCross bs L.trainee.R.kernel len w.train w.N w.nnCount U i (rowPt w.train w.f i) =
      nbrCov bs L.trainee.R.kernel len w.train w.N w.nnCount U i ⟨0, by omega⟩ := by
    funext j
    unfold nbrCross nbrCov
    rw [← rowPt_pt hw.1]
    simp only
    rw [x2, pointOf_nat]
  unfold fastDocumented Spec.krigingMean
  rw [hz, add_zero, heq, hcross]
  have := congrFun (show nbrCov bs L.trainee.R.kernel len w.train w.N w.nnCount U i *ᵥ
    ((nbrCov bs L.trainee.R.kernel len w.train w.N w.nnCount U i)⁻¹ *ᵥ nbrTargets Y w.N w.nnCount U i c) =
    nbrTargets Y w.N w.nnCount U i c by
      rw [Matrix.mulVec_mulVec, Matrix.mul_nonsing_inv _ (isUnit_iff_ne_zero.mpr hK), Matrix.one_mulVec]) ⟨0, by omega⟩
  refine (show _ = _ from this).trans ?_
  unfold nbrTargets
  simp only
  rw [x2, pointOf_nat]

/-- **C65 fails** for interpolation: without noise, at a test point that coincides with a training point, the documented value is the
response of that training point — but for every data set there are responses for which the fast prediction is something else. -/
theorem C65_interpolation_fails (bs : Flt → ℝ → ℝ) (w : NNWrapper) (hw : w.Exact) (hk0 : 2 ≤ w.nnCount) (hkN : w.nnCount + 1 ≤ w.N)
    (hsep : w.Separated) (Q : Tensor ℝ) (m : Nat) (hQ : Q.shape = [m, w.f]) (hm : 2 ≤ m) (L : Learner) (hu : L.Usable w w.N)
    (len : Fin w.f → ℝ) (hlen : L.deform.HasLengths w.f len)
    (q i : Nat) (hq : q < m) (hi : i < w.N) (hz : L.trainee.R.gp.noise.mat w.nnCount i = 0)
    (heq : rowPt Q w.f q = rowPt w.train w.f i) :
    (∃ U, OwnNeighbourhoods w U ∧ ∀ Y : Tensor ℝ, Y.shape = [w.N] →
      fastDocumented bs L.trainee.R w len U Y i 0 (rowPt Q w.f q) = Y.get [i]) ∧
    ∃ Y μ C : Tensor ℝ, Y.shape = [w.N] ∧ fastAnyModel bs (.one L) w Q w.train Y = .ok (μ, C) ∧ μ.get [q] ≠ Y.get [i] := by
  obtain ⟨U, cl, hU, hcl, h⟩ := C65_right_iff bs w hw hk0 hkN hsep Q m hQ hm
  obtain ⟨U', cl', hU', hcl', h'⟩ := C65_actual bs w hw hk0 hkN hsep Q m hQ hm
  have hci : cl q = i := by
    by_contra hne
    obtain ⟨a1, a2⟩ := hcl q hq
    have := a2 i hi
    rw [heq, hsep.1] at this
    exact absurd (hsep.2 i hi _ a1 hne) (not_lt.mpr this)
  have hdoc : ∀ Y : Tensor ℝ, Y.shape = [w.N] → fastDocumented bs L.trainee.R w len U Y i 0 (rowPt Q w.f q) = Y.get [i] := by
    intro Y hY
    rw [documented_at_training bs hw hk0 hsep hu hlen hU hi hz heq]
    unfold feature
    rw [hY]
  refine ⟨⟨U, hU, hdoc⟩, ?_⟩
  by_contra hcon
  push Not at hcon
  have hall := (h L len hu hlen q hq).1 fun Y μ C hY hf => by
    rw [hci, hdoc Y hY]
    exact hcon Y μ C hY hf
  have h01 := hall ⟨0, by omega⟩ ⟨1, by omega⟩
  rw [hci] at h01
  -- the covariance matrix of the first two neighbours is singular then
  obtain ⟨l, e1, e2, e3⟩ := hU.2 i hi
  have hpd := (nbrCov_definite bs L.trainee.R.kernel hu.2.1 len (hasLengths_pos hlen) w.train w.N w.nnCount U i).2
    (distinct_of_nodup e1 e2 (fun x hx => by
      rcases List.mem_cons.mp hx with rfl | h
      · exact hi
      · exact (e3.mem x h).1) (separated_distinct hw hsep))
  set K := nbrCov bs L.trainee.R.kernel len w.train w.N w.nnCount U i with hKdef
  obtain ⟨x, x1, x2⟩ := rowList_get e1 (show 0 < w.nnCount by omega)
  obtain rfl : i = x := by simpa using x1
  have hcross : nbrCross bs L.trainee.R.kernel len w.train w.N w.nnCount U i (rowPt Q w.f q) = K ⟨0, by omega⟩ := by
    funext j
    rw [hKdef]
    unfold nbrCross nbrCov
    rw [heq, ← rowPt_pt hw.1]
    simp only
    rw [x2, pointOf_nat]
  rw [hcross] at h01
  refine posdef_apart hpd (a := ⟨0, by omega⟩) (b := ⟨1, by omega⟩) (by simp) ?_ h01
  rw [hKdef, nbrCov_value]
  simp only [Matrix.of_apply]
  rw [distOf_self, distOf_self]

/-- **C65**, the model: `do_fast_posterior_mean` trains exactly as `do_regress` does — with the same arguments and random choices both
return the same model, and an error of the training is an error of the call — and predicts with `fast_posterior_mean_any`. -/
theorem C65_model (bs : Flt → ℝ → ℝ) (opt : Learner → TrainData → Res Learner) (draw : List Nat) (sd : Nat → List (List Nat))
    (bc : Int) (w : NNWrapper) (args : ModelArgs) (Q Y : Tensor ℝ) :
    (∀ M μ C, doFastPosteriorMean bs opt draw sd bc w args Q Y = .ok (M, μ, C) →
      fastAnyModel bs M w Q w.train Y = .ok (μ, C) ∧
      ∀ M' μ' v, doRegressModel bs opt draw sd bc w args Q Y = .ok (M', μ', v) → M' = M) ∧
    ∀ M' μ' v μ C, doRegressModel bs opt draw sd bc w args Q Y = .ok (M', μ', v) → fastAnyModel bs M' w Q w.train Y = .ok (μ, C) →
      doFastPosteriorMean bs opt draw sd bc w args Q Y = .ok (M', μ, C) := by
  unfold doFastPosteriorMean doRegressModel
  cases hd : decideRegressor bs opt draw sd bc w args Y with
  | error e =>
    constructor
    · intro M μ C h; cases h
    · intro M' μ' v μ C h; cases h
  | ok M =>
    simp only [bind, Except.bind, pure, Except.pure]
    constructor
    · intro M₁ μ C h
      cases hf : fastAnyModel bs M w Q w.train Y with
      | error e => rw [hf] at h; cases h
      | ok r =>
        rw [hf] at h
        obtain ⟨rfl, h2⟩ := Prod.mk.inj (Except.ok.inj h)
        obtain ⟨rfl, rfl⟩ := Prod.mk.inj h2
        refine ⟨hf, fun M' μ' v h => ?_⟩
        cases hr : regressAnyModel bs M w Q w.train Y with
        | error e => rw [hr] at h; cases h
        | ok r => rw [hr] at h; exact (congrArg Prod.fst (Except.ok.inj h)).symm
    · intro M' μ' v μ C h hf
      cases hr : regressAnyModel bs M w Q w.train Y with
      | error e => rw [hr] at h; cases h
      | ok r =>
        rw [hr] at h
        obtain rfl : M = M' := congrArg Prod.fst (Except.ok.inj h)
        rw [hf]

/-- **C65**, `do_fast_posterior_mean` with one model: the model `make_regressor` returns, and its predictions and coefficients as in
`C65_actual`. -/
theorem C65_do_fast (bs : Flt → ℝ → ℝ) (opt : Learner → TrainData → Res Learner) (draw : List Nat) (sd : Nat → List (List Nat))
    (bc : Int) (w : NNWrapper) (hw : w.Exact) (hk0 : 2 ≤ w.nnCount) (hkN : w.nnCount + 1 ≤ w.N) (hsep : w.Separated)
    (Q : Tensor ℝ) (m : Nat) (hQ : Q.shape = [m, w.f]) (hm : 2 ≤ m) :
    ∃ (U : Tensor Int) (cl : Nat → Nat), OwnNeighbourhoods w U ∧ (∀ q < m, IsClosest w Q q (cl q)) ∧
      ∀ (L L' : Learner) (len : Fin w.f → ℝ) (Y : Tensor ℝ) (r : Nat), makeRegressor bs opt draw (sd 0) bc w L Y = .ok L' →
        L'.Usable w w.N → L'.deform.HasLengths w.f len → 0 < r → IsTable Y w.N r →
        ∃ μ C, doFastPosteriorMean bs opt draw sd bc w (.dict L) Q Y = .ok (.one L', μ, C) ∧ μ.shape = withResponses [m] r ∧
          C.shape = withResponses [w.N, w.nnCount] r ∧
          (∀ i < w.N, ∀ c < r, ∀ j : Fin w.nnCount, C.flat ((i * w.nnCount + j) * r + c) =
            ((nbrCov bs L'.trainee.R.kernel len w.train w.N w.nnCount U i + L'.trainee.R.gp.noise.mat w.nnCount i)⁻¹ *ᵥ
              nbrTargets Y w.N w.nnCount U i c) j) ∧
          ∀ q < m, ∀ c < r, μ.flat (q * r + c) = Spec.krigingMean
            (nbrCov bs L'.trainee.R.kernel len w.train w.N w.nnCount U (cl q) + L'.trainee.R.gp.noise.mat w.nnCount (cl q))
            (shifted (nbrCross bs L'.trainee.R.kernel len w.train w.N w.nnCount U (cl q) (rowPt Q w.f q)))
            (nbrTargets Y w.N w.nnCount U (cl q) c) := by
  obtain ⟨U, cl, hU, hcl, h⟩ := C65_actual bs w hw hk0 hkN hsep Q m hQ hm
  refine ⟨U, cl, hU, hcl, fun L L' len Y r hL hu hlen hr hY => ?_⟩
  obtain ⟨μ, C, h1, h2⟩ := h L' len Y r hu hlen hr hY
  refine ⟨μ, C, ?_, h2⟩
  unfold doFastPosteriorMean decideRegressor
  simp only [hL, bind, Except.bind, pure, Except.pure, h1]

/-- **C65**, linearity: with the model unchanged, the fast predictions and the coefficients are linear in the responses. -/
theorem C65_linear (bs : Flt → ℝ → ℝ) (w : NNWrapper) (hw : w.Exact) (hk0 : 2 ≤ w.nnCount) (hkN : w.nnCount + 1 ≤ w.N)
    (hsep : w.Separated) (Q : Tensor ℝ) (m : Nat) (hQ : Q.shape = [m, w.f]) (hm : 2 ≤ m) (L : Learner) (len : Fin w.f → ℝ)
    (hu : L.Usable w w.N) (hlen : L.deform.HasLengths w.f len) (Y₁ Y₂ Y₃ : Tensor ℝ) (r : Nat) (hr : 0 < r)
    (h₁ : IsTable Y₁ w.N r) (h₂ : IsTable Y₂ w.N r) (h₃ : IsTable Y₃ w.N r) (a b : ℝ)
    (h : ∀ i < w.N, ∀ c < r, feature Y₃ i c = a * feature Y₁ i c + b * feature Y₂ i c) :
    ∃ μ₁ C₁ μ₂ C₂ μ₃ C₃, fastAnyModel bs (.one L) w Q w.train Y₁ = .ok (μ₁, C₁) ∧ fastAnyModel bs (.one L) w Q w.train Y₂ = .ok (μ₂, C₂) ∧
      fastAnyModel bs (.one L) w Q w.train Y₃ = .ok (μ₃, C₃) ∧ μ₁.shape = μ₃.shape ∧ μ₂.shape = μ₃.shape ∧
      (∀ k < m * r, μ₃.flat k = a * μ₁.flat k + b * μ₂.flat k) ∧
      ∀ k < w.N * w.nnCount * r, C₃.flat k = a * C₁.flat k + b * C₂.flat k := by
  obtain ⟨U, cl, hU, hcl, hall⟩ := C65_actual bs w hw hk0 hkN hsep Q m hQ hm
  obtain ⟨μ₁, C₁, a1, a2, a3, a4, a5⟩ := hall L len Y₁ r hu hlen hr h₁
  obtain ⟨μ₂, C₂, b1, b2, b3, b4, b5⟩ := hall L len Y₂ r hu hlen hr h₂
  obtain ⟨μ₃, C₃, c1, c2, c3, c4, c5⟩ := hall L len Y₃ r hu hlen hr h₃
  have htar : ∀ i < w.N, ∀ c < r, nbrTargets Y₃ w.N w.nnCount U i c =
      a • nbrTargets Y₁ w.N w.nnCount U i c + b • nbrTargets Y₂ w.N w.nnCount U i c := by
    intro i hi c hc
    funext j
    obtain ⟨l, e1, e2, e3⟩ := hU.2 i hi
    obtain ⟨x, x1, x2⟩ := rowList_get e1 j.2
    have hx : x < w.N := by
      rcases List.mem_cons.mp (List.mem_of_getElem? x1) with rfl | h
      · exact hi
      · exact (e3.mem x h).1
    simp only [nbrTargets, Pi.add_apply, Pi.smul_apply, smul_eq_mul, x2, pointOf_nat]
    exact h x hx c hc
  refine ⟨μ₁, C₁, μ₂, C₂, μ₃, C₃, a1, b1, c1, by rw [a2, c2], by rw [b2, c2], fun k hk => ?_, fun k hk => ?_⟩
  · have hq : k / r < m := Nat.div_lt_of_lt_mul (by rwa [Nat.mul_comm] at hk)
    have hc := Nat.mod_lt k hr
    have e := Nat.div_add_mod' k r
    have f1 := a5 (k / r) hq (k % r) hc
    have f2 := b5 (k / r) hq (k % r) hc
    have f3 := c5 (k / r) hq (k % r) hc
    rw [e] at f1 f2 f3
    rw [f1, f2, f3, htar _ (hcl _ hq).1 _ hc]
    unfold Spec.krigingMean
    rw [Matrix.mulVec_add, Matrix.mulVec_smul, Matrix.mulVec_smul, dotProduct_add, dotProduct_smul, dotProduct_smul]
    rfl
  · have hc := Nat.mod_lt k hr
    have hk1 : k / r < w.N * w.nnCount := Nat.div_lt_of_lt_mul (by rwa [Nat.mul_comm] at hk)
    have hi : k / r / w.nnCount < w.N := Nat.div_lt_of_lt_mul (by rwa [Nat.mul_comm] at hk1)
    have hj := Nat.mod_lt (k / r) (show 0 < w.nnCount by omega)
    have e1 := Nat.div_add_mod' k r
    have e2 := Nat.div_add_mod' (k / r) w.nnCount
    have f1 := a4 _ hi _ hc ⟨_, hj⟩
    have f2 := b4 _ hi _ hc ⟨_, hj⟩
    have f3 := c4 _ hi _ hc ⟨_, hj⟩
    simp only [e2, e1] at f1 f2 f3
    rw [f1, f2, f3, htar _ hi _ hc, Matrix.mulVec_add, Matrix.mulVec_smul, Matrix.mulVec_smul]
    rfl

theorem foldlM_unit {α : Type} (f : Unit → α → Res Unit) (l : List α) (h : ∀ x ∈ l, f () x = .ok ()) : l.foldlM f () = .ok () := by
  induction l with
  | nil => rfl
  | cons a l ih =>
    rw [List.foldlM_cons, h a List.mem_cons_self]
    exact ih fun x hx => h x (List.mem_cons_of_mem _ hx)

/-- **C65 fails** with one model per response: the call always succeeds, and every prediction and every coefficient is zero, whatever
the models and the responses. -/
theorem C65_multi_zero (bs : Flt → ℝ → ℝ) (w : NNWrapper) (hw : w.Exact) (hk0 : 2 ≤ w.nnCount) (hkN : w.nnCount + 1 ≤ w.N)
    (hsep : w.Separated) (Q : Tensor ℝ) (m : Nat) (hQ : Q.shape = [m, w.f]) (hm : 0 < m) (Ls : List Learner) (hne : Ls ≠ [])
    (hsame : SameTensors Ls) (hu : ∀ L ∈ Ls, L.Usable w w.N) (len : Learner → Fin w.f → ℝ)
    (hlen : ∀ L ∈ Ls, L.deform.HasLengths w.f (len L)) (Y : Tensor ℝ) (hY : Y.shape = [w.N, Ls.length]) :
    ∃ μ C, fastAnyModel bs (.multi Ls) w Q w.train Y = .ok (μ, C) ∧ μ.shape = [m, Ls.length] ∧
      C.shape = [w.N, w.nnCount, Ls.length] ∧ (∀ k, μ.flat k = 0) ∧ ∀ k, C.flat k = 0 := by
  obtain ⟨nn, U, V, S, I, D, D', h1, u1, v1, i1, s1, hU, hvU, hFs, hvF, s2, hvS, hcl, s3⟩ :=
    fast_indices w hw hk0 hkN hsep Q m hQ hm
  obtain ⟨L₀, rest, rfl⟩ := List.exists_cons_of_ne_nil hne
  set r := (L₀ :: rest).length with hr
  have hL₀ : L₀ ∈ L₀ :: rest := List.mem_cons_self
  obtain ⟨E, K₀, k1, -⟩ := kernel_pairwise bs L₀.trainee.R.kernel (usable_make (hu L₀ hL₀)) w.train U w.N w.f w.N w.nnCount (len L₀)
    (hlen L₀ hL₀) (.inl hw.1) hU.1 hvU
  obtain ⟨E', C₀, c1, -⟩ := kernel_crosswise bs L₀.trainee.R.kernel (usable_make (hu L₀ hL₀)) Q w.train (arange m) S m w.N w.f m
    w.nnCount (len L₀) (hlen L₀ hL₀) (.inl hQ) (.inl hw.1) (by rw [hQ, hw.1]; rfl) rfl s2 (arange_valid m) hvS
  obtain ⟨Z, z1, z2, z3⟩ := take_targets (.inl hY : IsTable Y w.N r) hvU
  have hZ : Z.shape = [w.N, w.nnCount, r] := by rw [z2, hU.1, hY]; rfl
  -- every model does its part
  have hper : ∀ (L : Learner) (i : Nat), (L, i) ∈ (L₀ :: rest).zipIdx → L ∈ L₀ :: rest ∧ i < r := by
    intro L i h
    obtain ⟨-, h2, h3⟩ := List.mem_zipIdx h
    simp only [Nat.zero_add, Nat.sub_zero] at h2 h3
    exact ⟨h3 ▸ List.getElem_mem _, h2⟩
  have hcoef : multiFastCoefficients bs ((L₀ :: rest).map Learner.trainee) E Z = .ok (zeros [w.N, w.nnCount, r]) := by
    unfold multiFastCoefficients
    rw [hZ]
    simp only
    rw [foldlM_unit]
    · rfl
    intro ⟨T, i⟩ hTi
    rw [List.zipIdx_map] at hTi
    obtain ⟨⟨L, i'⟩, hLi, heq⟩ := List.mem_map.mp hTi
    obtain ⟨rfl, rfl⟩ := Prod.mk.inj heq
    obtain ⟨hL, hi⟩ := hper L i' hLi
    obtain ⟨E₁, K, a1, a2, a3, a4⟩ := kernel_pairwise bs L.trainee.R.kernel (usable_make (hu L hL)) w.train U w.N w.f w.N w.nnCount
      (len L) (hlen L hL) (.inl hw.1) hU.1 hvU
    obtain rfl : E = E₁ := by
      have : L.trainee.R.kernel.deform.pairwise w.train U = L₀.trainee.R.kernel.deform.pairwise w.train U := by
        unfold Deform.pairwise
        have h1 : L.trainee.R.kernel.deform.kind = L₀.trainee.R.kernel.deform.kind := (hsame L hL L₀ hL₀).1
        have h2 : L.trainee.R.kernel.deform.metric = L₀.trainee.R.kernel.deform.metric := (hsame L hL L₀ hL₀).2
        rw [h1, h2]
      rw [this, k1] at a1
      exact Except.ok.inj a1
    obtain ⟨P, p1, p2, p3⟩ := L.trainee.R.gp.noise.perturb_cov (hu L hL).2.2.1 K a3
    have hdet : ∀ p < w.N, (Spec.cov w.nnCount P p + L.trainee.R.gp.noise.mat w.nnCount p).det ≠ 0 := by
      intro p hp
      rw [p3 p, a4 p hp]
      have hdef := nbrCov_definite bs L.trainee.R.kernel (hu L hL).2.1 (len L) (hasLengths_pos (hlen L hL)) w.train w.N w.nnCount U p
      obtain ⟨l, e1, e2, e3⟩ := hU.2 p hp
      have hpd := Noise.posdef_of_suffices ((hu L hL).2.2.2.mono fun hd => distinct_of_nodup e1 e2 (fun x hx => by
        rcases List.mem_cons.mp hx with rfl | h
        · exact hp
        · exact (e3.mem x h).1) hd) hp hdef.1 hdef.2
      exact Kriging.det_ne_zero (hpd.add_posSemidef (L.trainee.R.gp.noise.mat_psd (Noise.nonneg_of_suffices (hu L hL).2.2.2) hp))
    obtain ⟨co, o1, o2, -⟩ := coefficients_any L.trainee.R.gp (t := w.N) (n := w.nnCount) (r := 1) (by omega) (by omega)
      (hu L hL).2.2.1 P ⟨[w.N, w.nnCount], fun k => Z.flat (k * r + i')⟩ p2 (.inr ⟨rfl, rfl⟩) hdet
    have hs : sliceLast Z i' = .ok ⟨[w.N, w.nnCount], fun k => Z.flat (k * r + i')⟩ := by
      unfold sliceLast; rw [hZ]; simp only; rw [if_pos hi]
    simp only [id_eq, a2, p1, hs, o1, bind, Except.bind]
    unfold assignLastDropped zeros
    simp only
    rw [if_neg (by omega), o2]
    simp [withResponses, broadcastsTo2]
  obtain ⟨G, g1, g2, g3⟩ : ∃ G, (zeros [w.N, w.nnCount, r]).take (firstCol I) = .ok G ∧ G.shape = [m, w.nnCount, r] ∧ ∀ k, G.flat k = 0 :=
    ⟨_, Tensor.take_ok _ _ w.N [w.nnCount, r] rfl hvF, by rw [hFs]; rfl, fun k => rfl⟩
  have hmean : ∃ μ, multiFastPosteriorMean bs ((L₀ :: rest).map Learner.trainee) E' G = .ok μ := by
    unfold multiFastPosteriorMean
    simp only
    rw [foldlM_unit]
    · unfold mmFastPosteriorMean
      rw [if_pos (show (zeros G.shape).shape = G.shape from rfl), g2]
      exact ⟨_, rfl⟩
    intro ⟨T, i⟩ hTi
    rw [List.zipIdx_map] at hTi
    obtain ⟨⟨L, i'⟩, hLi, heq⟩ := List.mem_map.mp hTi
    obtain ⟨rfl, rfl⟩ := Prod.mk.inj heq
    obtain ⟨hL, hi⟩ := hper L i' hLi
    obtain ⟨E₁, K, a1, a2, a3, a4⟩ := kernel_crosswise bs L.trainee.R.kernel (usable_make (hu L hL)) Q w.train (arange m) S m w.N w.f m
      w.nnCount (len L) (hlen L hL) (.inl hQ) (.inl hw.1) (by rw [hQ, hw.1]; rfl) rfl s2 (arange_valid m) hvS
    obtain rfl : E' = E₁ := by
      have : L.trainee.R.kernel.deform.crosswise Q w.train (arange m) S = L₀.trainee.R.kernel.deform.crosswise Q w.train (arange m) S := by
        unfold Deform.crosswise
        have h1 : L.trainee.R.kernel.deform.kind = L₀.trainee.R.kernel.deform.kind := (hsame L hL L₀ hL₀).1
        have h2 : L.trainee.R.kernel.deform.metric = L₀.trainee.R.kernel.deform.metric := (hsame L hL L₀ hL₀).2
        rw [h1, h2]
      rw [this, c1] at a1
      exact Except.ok.inj a1
    simp only [id_eq, a2, bind, Except.bind]
    unfold assignLastDropped
    rw [show (zeros G.shape).shape = [m, w.nnCount, r] from g2]
    simp only
    rw [if_neg (by omega), a3]
    simp [broadcastsTo2]
  obtain ⟨μ, hμ⟩ := hmean
  obtain ⟨t1, t2⟩ := C47_mean_actual bs _ m w.nnCount r E' G μ g2 hμ
  refine ⟨μ, zeros [w.N, w.nnCount, r], ?_, t1, rfl, t2, fun _ => rfl⟩
  unfold fastAnyModel decideFastRegressor makeFastMultiRegressor multiFastMeanFromIndices
  simp only [List.map_cons]
  simp only [List.map_cons] at hcoef hμ
  rw [hw.1, hQ]
  simp only [h1, u1, k1, z1, hcoef, v1, i1, s1, c1, g1, hμ, bind, Except.bind, pure, Except.pure]

/-- **C65 fails** with one model per response, the consequence: without noise, at a test point that coincides with a training point
whose response is not zero, the documented value is that response and the returned one is zero. -/
theorem C65_multi_fails (bs : Flt → ℝ → ℝ) (w : NNWrapper) (hw : w.Exact) (hk0 : 2 ≤ w.nnCount) (hkN : w.nnCount + 1 ≤ w.N)
    (hsep : w.Separated) (Q : Tensor ℝ) (m : Nat) (hQ : Q.shape = [m, w.f]) (hm : 0 < m) (Ls : List Learner)
    (hsame : SameTensors Ls) (hu : ∀ L ∈ Ls, L.Usable w w.N) (len : Learner → Fin w.f → ℝ)
    (hlen : ∀ L ∈ Ls, L.deform.HasLengths w.f (len L)) (Y : Tensor ℝ) (hY : Y.shape = [w.N, Ls.length])
    (q i c : Nat) (L : Learner) (hL : Ls[c]? = some L) (hi : i < w.N) (hz : L.trainee.R.gp.noise.mat w.nnCount i = 0)
    (heq : rowPt Q w.f q = rowPt w.train w.f i) (hne : Y.get [i, c] ≠ 0) :
    ∃ U μ C, OwnNeighbourhoods w U ∧ fastAnyModel bs (.multi Ls) w Q w.train Y = .ok (μ, C) ∧
      fastDocumented bs L.trainee.R w (len L) U Y i c (rowPt Q w.f q) = Y.get [i, c] ∧
      μ.get [q, c] ≠ fastDocumented bs L.trainee.R w (len L) U Y i c (rowPt Q w.f q) := by
  obtain ⟨nn, U, V, S, I, D, D', h1, u1, v1, i1, s1, hU, -⟩ := fast_indices w hw hk0 hkN hsep Q m hQ hm
  have hmem := List.mem_of_getElem? hL
  obtain ⟨μ, C, h2, -, -, h3, -⟩ := C65_multi_zero bs w hw hk0 hkN hsep Q m hQ hm Ls (List.ne_nil_of_mem hmem) hsame hu len hlen Y hY
  have hdoc : fastDocumented bs L.trainee.R w (len L) U Y i c (rowPt Q w.f q) = Y.get [i, c] := by
    rw [documented_at_training bs hw hk0 hsep (hu L hmem) (hlen L hmem) hU hi hz heq]
    unfold feature
    rw [hY]
  refine ⟨U, μ, C, hU, h2, hdoc, ?_⟩
  rw [hdoc]
  intro h
  exact hne (h.symm.trans (h3 _))

end MuyGPyS
