import Verif.Props.Posterior

/-!
# Property C31: fast prediction equals regular prediction on the same neighbourhoods
-/

namespace MuyGPyS
open Py Matrix

theorem sum_range_fin (n : Nat) (f : Nat → ℝ) :
    ((List.range n).map f).sum = ∑ i : Fin n, f i := by
  induction n with
  | zero => simp
  | succ n ih => rw [List.range_succ, Fin.sum_univ_castSucc]; simp [ih]

theorem fastPrecompute_single {b n : Nat} (Kin y : Tensor ℝ) (hK : Kin.shape = [b, n, n])
    (hy : y.shape = [b, n]) (hinv : ∀ p < b, (Spec.cov n Kin p).det ≠ 0) :
    ∃ C, fastPrecompute Kin y = .ok C ∧ C.shape = [b, n, 1].filter (· ≠ 1) ∧
      ∀ p, ∀ i : Fin n, C.flat (p * n + i) = ((Spec.cov n Kin p)⁻¹ *ᵥ Spec.vec n y p) i := by
  obtain ⟨F, h1, h2, h3⟩ := Tensor.solve_ok [b] n 1 Kin ⟨[b, n, 1], y.flat⟩ hK rfl
    (by simpa [matAt_cov Kin hK] using hinv)
  refine ⟨F.squeeze, ?_, ?_, fun p i => ?_⟩
  · unfold fastPrecompute
    rw [hy]
    simp only []
    rw [h1]; rfl
  · simp [Tensor.squeeze, h2]
  · have h4 := congrFun (congrFun (h3 p) i) 0
    rw [matAt_cov Kin hK] at h4
    have h5 : F.matAt n 1 p i 0 = F.flat (p * n + i) := by simp [Tensor.matAt]
    rw [h5] at h4
    show F.flat _ = _
    rw [h4]
    have h6 : Spec.vec n y p = fun a => (⟨[b, n, 1], y.flat⟩ : Tensor ℝ).matAt n 1 p a 0 := by
      ext a
      rw [Spec.vec, Tensor.get2 y hy]; simp [Tensor.matAt]
    rw [h6]; rfl

theorem fastPrecompute_multi {b n r : Nat} (Kin y : Tensor ℝ) (hK : Kin.shape = [b, n, n])
    (hy : y.shape = [b, n, r]) (hinv : ∀ p < b, (Spec.cov n Kin p).det ≠ 0) :
    ∃ C, fastPrecompute Kin y = .ok C ∧ C.shape = [b, n, r].filter (· ≠ 1) ∧
      ∀ p, ∀ i : Fin n, ∀ c : Fin r, C.flat (p * (n * r) + i * r + c)
        = ((Spec.cov n Kin p)⁻¹ *ᵥ Spec.vecR n y p c) i := by
  obtain ⟨F, h1, h2, h3⟩ := Tensor.solve_ok [b] n r Kin y hK hy
    (by simpa [matAt_cov Kin hK] using hinv)
  refine ⟨F.squeeze, ?_, ?_, fun p i c => ?_⟩
  · unfold fastPrecompute
    rw [hy]
    simp only []
    rw [hy]
    simp only []
    rw [h1]; rfl
  · simp [Tensor.squeeze, h2]
  · have h4 := congrFun (congrFun (h3 p) i) c
    rw [matAt_cov Kin hK] at h4
    have h5 : F.matAt n r p i c = F.flat (p * (n * r) + i * r + c) := rfl
    rw [h5] at h4
    show F.flat _ = _
    rw [h4]
    have h6 : Spec.vecR n y p c = fun a => y.matAt n r p a c := by
      ext a
      exact (matAt_vecR y hy p a c).symm
    rw [h6]; rfl

/-- `einsum("ij,ijk->ik")` on `(b, n)` and `(b, n, k)` arrays -/
theorem einsum_core {b n k : Nat} (A B : Tensor ℝ) (hA : A.shape = [b, n]) (hB : B.shape = [b, n, k]) :
    ∃ T, einsumFast A B = .ok T ∧ T.shape = [b, k] ∧
      ∀ q < b, ∀ c < k, T.flat (q * k + c) =
        ∑ x : Fin n, A.flat (q * n + x) * B.flat (q * (n * k) + x * k + c) := by
  unfold einsumFast
  rw [hA, hB]
  simp only [true_or, and_self, if_true]
  refine ⟨_, rfl, by simp, fun q hq c hc => ?_⟩
  have hq' : (q * k + c) / k = q := dec_row hc
  have hc' : (q * k + c) % k = c := mul_add_mod_lt hc
  simp only [hq', hc', ite_self]
  rw [sum_range_fin]
  refine Finset.sum_congr rfl fun x _ => ?_
  have e1 : (if b = 1 then 0 else q) = q := by split <;> omega
  have e2 : (if n = 1 then 0 else (x : Nat)) = x := by split <;> omega
  rw [e1, e2]

/-- **C31**, single response.  Precompute the coefficients of `t` training neighbourhoods, select
for each of `b` queries the coefficients of training point `sel q` (the query's nearest neighbour)
and combine with the cross-covariances: the result has shape `(b,)` and entry `q` is the kriging
mean with the neighbourhood of `sel q`, noise included.
Partial: needs at least two training points, queries and neighbours; see the failure theorems. -/
theorem C31_fast_mean_partial (m : MuyGPS) (t b n : Nat) (ht : t ≠ 1) (hb : b ≠ 1) (hn : n ≠ 1)
    (hν : m.noise.Fits t n) (Kin y Kcross : Tensor ℝ)
    (hK : Kin.shape = [t, n, n]) (hy : y.shape = [t, n]) (hC : Kcross.shape = [b, n])
    (hinv : ∀ p < t, (Spec.cov n Kin p + m.noise.mat n p).det ≠ 0)
    (sel : Nat → Nat) :
    ∃ C, m.fastCoefficients Kin y = .ok C ∧ C.shape = [t, n] ∧
      ∀ D : Tensor ℝ, D.shape = [b, n] → (∀ q < b, ∀ i < n, D.get [q, i] = C.get [sel q, i]) →
        ∃ T, m.fastPosteriorMean Kcross D = .ok T ∧ T.shape = [b] ∧
          ∀ q < b, T.get [q] = Spec.krigingMean (Spec.cov n Kin (sel q) + m.noise.mat n (sel q))
            (Spec.vec n Kcross q) (Spec.vec n y (sel q)) := by
  obtain ⟨P, h1, h2, h3⟩ := m.noise.perturb_cov hν Kin hK
  obtain ⟨C, c1, c2, c3⟩ := fastPrecompute_single P y h2 hy
    (fun p hp => by rw [h3]; exact hinv p hp)
  have hCs : C.shape = [t, n] := by rw [c2]; simp [ht, hn]
  refine ⟨C, ?_, hCs, fun D hD hsel => ?_⟩
  · unfold MuyGPS.fastCoefficients Noise.perturbFn
    rw [h1]; exact c1
  · obtain ⟨E, e1, e2, e3⟩ := einsum_core Kcross ⟨[b, n, 1], D.flat⟩ hC rfl
    refine ⟨E.squeeze, ?_, ?_, fun q hq => ?_⟩
    · unfold MuyGPS.fastPosteriorMean MuyGPyS.fastPosteriorMean
      have : D.atleast3d = ⟨[b, n, 1], D.flat⟩ := by
        unfold Tensor.atleast3d; rw [hD]
      rw [this, e1]; rfl
    · simp [Tensor.squeeze, e2, hb]
    · have h5 : E.squeeze.get [q] = E.flat (q * 1 + 0) := by
        have hs : E.squeeze.shape = [b] := by simp [Tensor.squeeze, e2, hb]
        rw [Tensor.get1 _ hs]; simp [Tensor.squeeze]
      rw [h5, e3 q hq 0 (by omega)]
      unfold Spec.krigingMean
      rw [← h3]
      simp only [dotProduct]
      refine Finset.sum_congr rfl fun x _ => ?_
      have d1 := hsel q hq x x.2
      rw [Tensor.get2 D hD, Tensor.get2 C hCs, c3] at d1
      rw [Spec.vec, Tensor.get2 Kcross hC, ← d1]
      simp

/-- **C31**, several responses (`r ≥ 2`), same reading. -/
theorem C31_fast_mean_multi_partial (m : MuyGPS) (t b n r : Nat) (ht : t ≠ 1) (hb : b ≠ 1)
    (hn : n ≠ 1) (hr : r ≠ 1)
    (hν : m.noise.Fits t n) (Kin y Kcross : Tensor ℝ)
    (hK : Kin.shape = [t, n, n]) (hy : y.shape = [t, n, r]) (hC : Kcross.shape = [b, n])
    (hinv : ∀ p < t, (Spec.cov n Kin p + m.noise.mat n p).det ≠ 0)
    (sel : Nat → Nat) :
    ∃ C, m.fastCoefficients Kin y = .ok C ∧ C.shape = [t, n, r] ∧
      ∀ D : Tensor ℝ, D.shape = [b, n, r] →
        (∀ q < b, ∀ i < n, ∀ c < r, D.get [q, i, c] = C.get [sel q, i, c]) →
        ∃ T, m.fastPosteriorMean Kcross D = .ok T ∧ T.shape = [b, r] ∧
          ∀ q < b, ∀ c < r, T.get [q, c] =
            Spec.krigingMean (Spec.cov n Kin (sel q) + m.noise.mat n (sel q))
              (Spec.vec n Kcross q) (Spec.vecR n y (sel q) c) := by
  obtain ⟨P, h1, h2, h3⟩ := m.noise.perturb_cov hν Kin hK
  obtain ⟨C, c1, c2, c3⟩ := fastPrecompute_multi P y h2 hy
    (fun p hp => by rw [h3]; exact hinv p hp)
  have hCs : C.shape = [t, n, r] := by rw [c2]; simp [ht, hn, hr]
  refine ⟨C, ?_, hCs, fun D hD hsel => ?_⟩
  · unfold MuyGPS.fastCoefficients Noise.perturbFn
    rw [h1]; exact c1
  · obtain ⟨E, e1, e2, e3⟩ := einsum_core Kcross D hC hD
    have hs : E.squeeze.shape = [b, r] := by simp [Tensor.squeeze, e2, hb, hr]
    refine ⟨E.squeeze, ?_, hs, fun q hq c hc => ?_⟩
    · unfold MuyGPS.fastPosteriorMean MuyGPyS.fastPosteriorMean
      have : D.atleast3d = D := by
        unfold Tensor.atleast3d; rw [hD]
      rw [this, e1]; rfl
    · have h5 : E.squeeze.get [q, c] = E.flat (q * r + c) := Tensor.get2 _ hs q c
      rw [h5, e3 q hq c hc]
      unfold Spec.krigingMean
      rw [← h3]
      simp only [dotProduct]
      refine Finset.sum_congr rfl fun x _ => ?_
      have d1 := hsel q hq x x.2 c hc
      have d2 := c3 (sel q) x ⟨c, hc⟩
      rw [Tensor.get3 D hD, Tensor.get3 C hCs, d2] at d1
      rw [Spec.vec, Tensor.get2 Kcross hC, d1]

/-- **C31**, the two prediction paths agree: on the very same neighbourhoods fast prediction and
regular prediction return arrays of the same shape with the same entries. -/
theorem C31_fast_eq_regular_partial (m : MuyGPS) (b n : Nat) (hb : b ≠ 1) (hn : n ≠ 1)
    (hν : m.noise.Fits b n) (Kin y Kcross : Tensor ℝ)
    (hK : Kin.shape = [b, n, n]) (hy : y.shape = [b, n]) (hC : Kcross.shape = [b, n])
    (hinv : ∀ p < b, (Spec.cov n Kin p + m.noise.mat n p).det ≠ 0)
    (hsym : ∀ p < b, (Spec.cov n Kin p).transpose = Spec.cov n Kin p) :
    ∃ C T T', m.fastCoefficients Kin y = .ok C ∧ m.fastPosteriorMean Kcross C = .ok T ∧
      m.posteriorMean Kin Kcross y = .ok T' ∧ T.shape = T'.shape ∧
      ∀ q < b, T.get [q] = T'.get [q] := by
  obtain ⟨C, c1, c2, c3⟩ := C31_fast_mean_partial m b b n hb hb hn hν Kin y Kcross hK hy hC hinv id
  obtain ⟨T, t1, t2, t3⟩ := c3 C c2 (fun _ _ _ _ => rfl)
  obtain ⟨T', r1, r2, r3⟩ := C24_model_mean m b n hν Kin Kcross y hK hC hy hinv hsym
  exact ⟨C, T, T', c1, t1, r1, by rw [t2, r2], fun q hq => by rw [t3 q hq, r3 q hq]; rfl⟩

/-- **C31, where the code fails (1).** With a single query the fast posterior mean is a 0-dimensional
array, not of the documented shape `(1,)` (which regular prediction returns). -/
theorem C31_single_query_shape_fails (m : MuyGPS) (n : Nat) (Kcross D : Tensor ℝ)
    (hC : Kcross.shape = [1, n]) (hD : D.shape = [1, n]) :
    ∃ T, m.fastPosteriorMean Kcross D = .ok T ∧ T.shape = [] := by
  obtain ⟨E, e1, e2, e3⟩ := einsum_core Kcross ⟨[1, n, 1], D.flat⟩ hC rfl
  refine ⟨E.squeeze, ?_, ?_⟩
  · unfold MuyGPS.fastPosteriorMean MuyGPyS.fastPosteriorMean
    have : D.atleast3d = ⟨[1, n, 1], D.flat⟩ := by
      unfold Tensor.atleast3d; rw [hD]
    rw [this, e1]; rfl
  · simp [Tensor.squeeze, e2]

/-- **C31, where the code fails (2).** With one neighbour per point and `b ≥ 2` points, the
coefficients collapse to shape `(b,)` and are then mistaken for `b` neighbours: entry `q` of the
fast mean is the cross-covariance of `q` times the sum of *all* the coefficients. -/
theorem C31_one_neighbour_wrong (m : MuyGPS) (b : Nat) (hb : b ≠ 1)
    (hν : m.noise.Fits b 1) (Kin y Kcross : Tensor ℝ)
    (hK : Kin.shape = [b, 1, 1]) (hy : y.shape = [b, 1]) (hC : Kcross.shape = [b, 1])
    (hinv : ∀ p < b, (Spec.cov 1 Kin p + m.noise.mat 1 p).det ≠ 0) :
    ∃ C T, m.fastCoefficients Kin y = .ok C ∧ C.shape = [b] ∧ m.fastPosteriorMean Kcross C = .ok T ∧
      T.shape = [b] ∧ ∀ q < b, T.get [q] = Kcross.get [q, 0] *
        ∑ x : Fin b, ((Spec.cov 1 Kin x + m.noise.mat 1 x)⁻¹ *ᵥ Spec.vec 1 y x) 0 := by
  obtain ⟨P, h1, h2, h3⟩ := m.noise.perturb_cov hν Kin hK
  obtain ⟨C, c1, c2, c3⟩ := fastPrecompute_single P y h2 hy
    (fun p hp => by rw [h3]; exact hinv p hp)
  have hCs : C.shape = [b] := by rw [c2]; simp [hb]
  have ha : C.atleast3d = ⟨[1, b, 1], C.flat⟩ := by unfold Tensor.atleast3d; rw [hCs]
  have hE : einsumFast Kcross ⟨[1, b, 1], C.flat⟩ = .ok ⟨[b, 1], fun q =>
      ((List.range b).map fun x => Kcross.flat q * C.flat x).sum⟩ := by
    unfold einsumFast
    rw [hC]
    simp [hb, Nat.mod_one]
  refine ⟨C, ⟨[b], fun q => ((List.range b).map fun x => Kcross.flat q * C.flat x).sum⟩,
    ?_, hCs, ?_, rfl, fun q hq => ?_⟩
  · unfold MuyGPS.fastCoefficients Noise.perturbFn
    rw [h1]; exact c1
  · unfold MuyGPS.fastPosteriorMean MuyGPyS.fastPosteriorMean
    rw [ha, hE]
    simp [bind, Except.bind, Tensor.squeeze, hb, pure, Except.pure]
  · rw [Tensor.get1 _ rfl]
    simp only []
    rw [sum_range_fin, Tensor.get2 Kcross hC, Finset.mul_sum]
    refine Finset.sum_congr rfl fun x _ => ?_
    have := c3 x 0
    rw [h3] at this
    rw [← this]
    simp

/-- witness for failure (2): two queries, unit covariance and targets, no noise: the fast mean is 2
where the regular mean is 1. -/
theorem C31_one_neighbour_witness :
    ∃ (m : MuyGPS) (Kin y Kcross C T T' : Tensor ℝ),
      m.fastCoefficients Kin y = .ok C ∧ m.fastPosteriorMean Kcross C = .ok T ∧
      m.posteriorMean Kin Kcross y = .ok T' ∧ T.get [0] = 2 ∧ T'.get [0] = 1 := by
  let m := MuyGPS.make .null ⟨[], fun _ => 1⟩ 1
  let Kin : Tensor ℝ := ⟨[2, 1, 1], fun _ => 1⟩
  let y : Tensor ℝ := ⟨[2, 1], fun _ => 1⟩
  have hcov : ∀ p, Spec.cov 1 Kin p + m.noise.mat 1 p = 1 := by
    intro p; ext i j
    fin_cases i; fin_cases j
    simp [Spec.cov, Kin, Tensor.get, m, MuyGPS.make, Noise.mat]
  obtain ⟨C, T, h1, _, h2, _, h3⟩ := C31_one_neighbour_wrong m 2 (by decide) trivial Kin y y rfl rfl rfl
    (fun p _ => by rw [hcov]; simp)
  obtain ⟨T', r1, r2, r3⟩ := C24_model_mean m 2 1 trivial Kin y y rfl rfl rfl
    (fun p _ => by rw [hcov]; simp)
    (fun p _ => by ext i j; fin_cases i; fin_cases j; rfl)
  refine ⟨m, Kin, y, y, C, T, T', h1, h2, r1, ?_, ?_⟩
  · rw [h3 0 (by decide)]
    simp only [hcov]
    simp [Spec.vec, y, Tensor.get]
  · rw [r3 0 (by decide), hcov]
    simp [Spec.krigingMean, y]
    simp [dotProduct, Spec.vec, Tensor.get]

end MuyGPyS
