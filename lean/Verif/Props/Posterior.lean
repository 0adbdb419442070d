import Verif.Props.Noise
import Verif.Lemmas.Kriging
import Mathlib.Analysis.Matrix.Order
import Mathlib.Tactic.FinCases
import Mathlib.Tactic.IntervalCases
import Mathlib.Tactic.NormNum

/-!
# Properties C24–C30: posterior mean and variance
-/

namespace MuyGPyS
open Py Matrix

/-! ## C24 -/

/-- **C24**, single response: for every batch size, neighbour count and targets of shape `(b, n)`,
with symmetric invertible neighbourhood covariances, the posterior mean has shape `(b,)` and element
`p` is the kriging mean of query `p`. -/
theorem C24_single_response (b n : Nat) (Kin Kcross y : Tensor ℝ)
    (hK : Kin.shape = [b, n, n]) (hC : Kcross.shape = [b, n]) (hy : y.shape = [b, n])
    (hinv : ∀ p < b, (Spec.cov n Kin p).det ≠ 0)
    (hsym : ∀ p < b, (Spec.cov n Kin p).transpose = Spec.cov n Kin p) :
    ∃ T, posteriorMean Kin Kcross y = .ok T ∧ T.shape = [b] ∧
      ∀ p < b, T.get [p] =
        Spec.krigingMean (Spec.cov n Kin p) (Spec.vec n Kcross p) (Spec.vec n y p) := by
  obtain ⟨T, hT, hs, hm⟩ := posteriorMean_core' (N := n) (O := 1) (E := 1) [b] [n] [] [] Kin Kcross y
    (by simp) (by simp) (by simp) (by simp) hK (by simpa using hC) (by simpa using hy)
    (by simp) (by simpa [matAt_cov Kin hK] using hinv)
  refine ⟨T, hT, hs, fun p hp => ?_⟩
  have h1 := congrFun (congrFun (hm p) 0) 0
  rw [matAt_scalar T hs, matAt_cov Kin hK, col_kriging _ (hsym p hp)] at h1
  rw [h1]
  congr 1
  · ext i; exact matAt_vec Kcross hC p i 0
  · ext i; exact matAt_vec y hy p i 0

/-- **C24**, several responses: targets of shape `(b, n, r)` with `r ≠ n` give a posterior mean of
shape `(b, r)` whose entry `(p, c)` is the kriging mean of response `c`.  The hypothesis `r ≠ n` is
necessary, see `C24_responses_eq_neighbours_fails`. -/
theorem C24_multi_response_partial (b n r : Nat) (hr : r ≠ n) (Kin Kcross y : Tensor ℝ)
    (hK : Kin.shape = [b, n, n]) (hC : Kcross.shape = [b, n]) (hy : y.shape = [b, n, r])
    (hinv : ∀ p < b, (Spec.cov n Kin p).det ≠ 0)
    (hsym : ∀ p < b, (Spec.cov n Kin p).transpose = Spec.cov n Kin p) :
    ∃ T, posteriorMean Kin Kcross y = .ok T ∧ T.shape = [b, r] ∧
      ∀ p < b, ∀ c < r, T.get [p, c] =
        Spec.krigingMean (Spec.cov n Kin p) (Spec.vec n Kcross p) (Spec.vecR n y p c) := by
  obtain ⟨T, hT, hs, hm⟩ := posteriorMean_core' (N := n) (O := 1) (E := r) [b] [n] [] [r] Kin Kcross y
    (by simp) (by simp) (by simp) (by simp) hK (by simpa using hC) (by simpa using hy)
    (by simpa using hr) (by simpa [matAt_cov Kin hK] using hinv)
  refine ⟨T, hT, hs, fun p hp c hc => ?_⟩
  have h1 := congrFun (congrFun (hm p) 0) ⟨c, hc⟩
  rw [matAt_row T hs, matAt_cov Kin hK, col_kriging _ (hsym p hp)] at h1
  rw [h1]
  congr 1
  · ext i; exact matAt_vec Kcross hC p i 0
  · ext i; exact matAt_vecR y hy p i ⟨c, hc⟩

/-- **C24**, multi-output model (shear): covariances `(b, o, n, o, n)`, cross-covariances
`(b, o, n, q)`, targets `(b, o, n)` give a mean of shape `(b, q)`: kriging over all `o * n`
observations. -/
theorem C24_multi_output (b o n q : Nat) (Kin Kcross y : Tensor ℝ)
    (hK : Kin.shape = [b, o, n, o, n]) (hC : Kcross.shape = [b, o, n, q]) (hy : y.shape = [b, o, n])
    (hinv : ∀ p < b, (Spec.cov5 o n Kin p).det ≠ 0)
    (hsym : ∀ p < b, (Spec.cov5 o n Kin p).transpose = Spec.cov5 o n Kin p) :
    ∃ T, posteriorMean Kin Kcross y = .ok T ∧ T.shape = [b, q] ∧
      ∀ p < b, ∀ c < q, T.get [p, c] =
        Spec.krigingMean (Spec.cov5 o n Kin p) (Spec.cross4 o n Kcross p c) (Spec.vec3 o n y p) := by
  obtain ⟨T, hT, hs, hm⟩ := posteriorMean_core' (N := o * n) (O := q) (E := 1) [b] [o, n] [q] []
    Kin Kcross y (by simp) (by simp) (by simp) (by simp) hK (by simpa using hC) (by simpa using hy)
    (by simp) (by simpa [matAt_cov5 Kin hK] using hinv)
  refine ⟨T, hT, hs, fun p hp c hc => ?_⟩
  have h1 := congrFun (congrFun (hm p) ⟨c, hc⟩) 0
  rw [matAt_cov5 Kin hK, col_kriging _ (hsym p hp)] at h1
  have h2 : T.matAt q 1 p ⟨c, hc⟩ 0 = T.get [p, c] := by
    rw [Tensor.get2 T (by simpa using hs)]; simp [Tensor.matAt]
  rw [← h2, h1]
  congr 1
  · ext i; exact matAt_cross4 Kcross hC p i ⟨c, hc⟩
  · ext i; exact matAt_vec3 y hy p i 0

/-- **C24**, a singular neighbourhood covariance anywhere in the batch is an error, never a value
(single response, several responses, multi-output). -/
theorem C24_singular_is_error (b n : Nat) (Kin Kcross y : Tensor ℝ)
    (hK : Kin.shape = [b, n, n]) (hC : Kcross.shape = [b, n])
    (hy : y.shape = [b, n] ∨ ∃ r, r ≠ n ∧ y.shape = [b, n, r])
    (p : Nat) (hp : p < b) (hsing : (Spec.cov n Kin p).det = 0) :
    posteriorMean Kin Kcross y = .error .linAlg := by
  have hd : (Kin.matAt [n].prod [n].prod p).det = 0 := by
    have e : ∀ N, N = n → (Kin.matAt N N p).det = 0 := by
      rintro N rfl; rw [matAt_cov Kin hK]; exact hsing
    exact e _ (by simp)
  rcases hy with hy | ⟨r, hr, hy⟩
  · exact posteriorMean_singular [b] [n] [] [] Kin Kcross y (by simp) hK (by simpa using hC)
      (by simpa using hy) (by simp) p (by simpa using hp) hd
  · exact posteriorMean_singular [b] [n] [] [r] Kin Kcross y (by simp) hK (by simpa using hC)
      (by simpa using hy) (by simpa using hr) p (by simpa using hp) hd

/-- **C24, where the code fails.** When the number of responses equals the number of neighbours the
posterior mean raises `ValueError` for every covariance, however well conditioned (except for the
degenerate `b = n = 1`, where the result has shape `(1, 1, 1)` instead of `(1, 1)`). -/
theorem C24_responses_eq_neighbours_fails (b n : Nat) (Kin Kcross y : Tensor ℝ)
    (hK : Kin.shape = [b, n, n]) (hC : Kcross.shape = [b, n]) (hy : y.shape = [b, n, n]) :
    (b * (n * n) ≠ 1 → posteriorMean Kin Kcross y = .error .value) ∧
    (b * (n * n) = 1 → ∀ T, posteriorMean Kin Kcross y = .ok T → T.shape = [1, 1, 1]) := by
  have hfm : findMatchingNdim y.shape Kin.shape = .ok 3 := by
    rw [hy, hK]; simp [findMatchingNdim]
  have hz : dropTail2 Kin.shape (Kin.shape.drop 3).length = [] := by
    rw [hK]; simp [dropTail2]
  have hd : Kin.shape.drop 3 = [] := by rw [hK]; rfl
  have hc : Kcross.shape.drop 3 = [] := by rw [hC]; rfl
  have hyr : y.reshape [1, y.shape.prod] = .ok ⟨[1, y.shape.prod], y.flat⟩ :=
    Tensor.reshape_ok _ _ (by simp)
  have red : posteriorMean Kin Kcross y = (do
      let KinFlat ← Kin.reshape [1, 1]
      let KcrossFlat ← Kcross.reshape [1, 1]
      let F ← Tensor.solve [] 1 1 KinFlat KcrossFlat
      let ret ← Tensor.matmulT [] 1 1 y.shape.prod F ⟨[1, y.shape.prod], y.flat⟩
      ret.reshape y.shape) := by
    unfold posteriorMean
    rw [hfm]
    simp only [bind, Except.bind, hd, hc, List.length_nil, dropTail2, if_true, List.drop_zero,
      Nat.add_zero, List.prod_nil, hyr, List.nil_append]
  constructor
  · intro hne
    rw [red, Tensor.reshape_err _ _ (by rw [hK]; simpa using fun h => hne h.symm)]
    rfl
  · intro he T hT
    have hb : b = 1 ∧ n = 1 := by
      have h1 := Nat.eq_one_of_mul_eq_one_right he
      have h2 := Nat.eq_one_of_mul_eq_one_left he
      exact ⟨h1, Nat.eq_one_of_mul_eq_one_right h2⟩
    obtain ⟨rfl, rfl⟩ := hb
    rw [red] at hT
    have k1 : Kin.reshape [1, 1] = .ok ⟨[1, 1], Kin.flat⟩ := Tensor.reshape_ok _ _ (by rw [hK]; rfl)
    have k2 : Kcross.reshape [1, 1] = .ok ⟨[1, 1], Kcross.flat⟩ :=
      Tensor.reshape_ok _ _ (by rw [hC])
    rw [k1, k2] at hT
    simp only [bind, Except.bind] at hT
    split at hT
    · cases hT
    · split at hT
      · cases hT
      · unfold Tensor.reshape at hT
        split at hT
        · cases hT; exact hy
        · cases hT

/-- the failing shapes are reachable: three neighbours, three responses -/
example : ∃ K C y : Tensor ℝ, K.shape = [2, 3, 3] ∧ C.shape = [2, 3] ∧ y.shape = [2, 3, 3] ∧
    2 * (3 * 3) ≠ 1 :=
  ⟨⟨[2, 3, 3], fun k => k⟩, ⟨[2, 3], fun k => k⟩, ⟨[2, 3, 3], fun k => k⟩, rfl, rfl, rfl, by decide⟩

/-! ## models: noise included -/

/-- The noise model can perturb `(b, n, n)` covariances (shear noise cannot, and a heteroscedastic
model must hold one variance per batch element and neighbour). -/
def Noise.Fits (ν : Noise) (b n : Nat) : Prop :=
  match ν with
  | .heteroscedastic v => v.shape = [b, n]
  | .shear33 _ => False
  | _ => True

/-- The noise covariance the model adds for batch element `p`. -/
noncomputable def Noise.mat (ν : Noise) (n p : Nat) : Matrix (Fin n) (Fin n) ℝ :=
  match ν with
  | .homoscedastic v => v • 1
  | .heteroscedastic v => Matrix.diagonal (Spec.vec n v p)
  | _ => 0

/-- The noise of a batch of `b` neighbourhoods of size `n` makes a positive semidefinite covariance positive definite: it is
positive, or non-negative (or absent) and the covariance is positive definite already (`D`). -/
def Noise.Suffices (ν : Noise) (b n : Nat) (D : Prop) : Prop :=
  match ν with
  | .homoscedastic v => 0 < v ∨ (0 ≤ v ∧ D)
  | .heteroscedastic v => (∀ p < b, ∀ i < n, 0 < v.get [p, i]) ∨ ((∀ p < b, ∀ i < n, 0 ≤ v.get [p, i]) ∧ D)
  | .shear33 _ => False
  | .null => D

theorem Noise.Suffices.mono {ν : Noise} {b n : Nat} {D E : Prop} (h : ν.Suffices b n D) (hDE : D → E) : ν.Suffices b n E := by
  cases ν with
  | homoscedastic v => exact h.imp_right fun h => ⟨h.1, hDE h.2⟩
  | heteroscedastic v => exact h.imp_right fun h => ⟨h.1, hDE h.2⟩
  | shear33 v => exact h
  | null => exact hDE h

theorem Noise.perturb_cov (ν : Noise) {b n : Nat} (hν : ν.Fits b n) (Kin : Tensor ℝ)
    (hK : Kin.shape = [b, n, n]) :
    ∃ P, ν.perturb Kin = .ok P ∧ P.shape = [b, n, n] ∧
      ∀ p, Spec.cov n P p = Spec.cov n Kin p + ν.mat n p := by
  cases ν with
  | homoscedastic v =>
    obtain ⟨P, h1, h2, h3⟩ := homoscedastic3 Kin v hK
    refine ⟨P, h1, h2, fun p => ?_⟩
    rw [← matAt_cov P h2, h3, matAt_cov Kin hK]; rfl
  | heteroscedastic v =>
    obtain ⟨P, h1, h2, h3⟩ := heteroscedastic3 Kin v hK hν
    refine ⟨P, h1, h2, fun p => ?_⟩
    rw [← matAt_cov P h2, h3, matAt_cov Kin hK]
    congr 2
    ext i
    exact (Tensor.get2 v hν p i).symm
  | shear33 v => exact hν.elim
  | null => exact ⟨Kin, rfl, hK, fun p => by simp [Noise.mat]⟩

theorem Noise.mat_symm (ν : Noise) (n p : Nat) : (ν.mat n p).transpose = ν.mat n p := by
  cases ν <;> simp [Noise.mat]

/-- **C24** for a model: `MuyGPS.posterior_mean` is kriging with the model's noise covariance
added to the neighbourhood covariance. -/
theorem C24_model_mean (m : MuyGPS) (b n : Nat) (hν : m.noise.Fits b n) (Kin Kcross y : Tensor ℝ)
    (hK : Kin.shape = [b, n, n]) (hC : Kcross.shape = [b, n]) (hy : y.shape = [b, n])
    (hinv : ∀ p < b, (Spec.cov n Kin p + m.noise.mat n p).det ≠ 0)
    (hsym : ∀ p < b, (Spec.cov n Kin p).transpose = Spec.cov n Kin p) :
    ∃ T, m.posteriorMean Kin Kcross y = .ok T ∧ T.shape = [b] ∧
      ∀ p < b, T.get [p] = Spec.krigingMean (Spec.cov n Kin p + m.noise.mat n p)
        (Spec.vec n Kcross p) (Spec.vec n y p) := by
  obtain ⟨P, h1, h2, h3⟩ := m.noise.perturb_cov hν Kin hK
  obtain ⟨T, hT, hs, hm⟩ := C24_single_response b n P Kcross y h2 hC hy
    (fun p hp => by rw [h3]; exact hinv p hp)
    (fun p hp => by rw [h3, transpose_add, hsym p hp, Noise.mat_symm])
  refine ⟨T, ?_, hs, fun p hp => by rw [hm p hp, h3]⟩
  unfold MuyGPS.posteriorMean Noise.perturbFn
  rw [h1]; exact hT

/-- The variance counterpart of C24: `MuyGPS.posterior_variance` is the (bound) scale times the
kriging variance with prior variance `Kout`. -/
theorem C24_model_variance (m : MuyGPS) (b n : Nat) (hν : m.noise.Fits b n) (Kin Kcross : Tensor ℝ)
    (hko : m.kout.shape = [])
    (hK : Kin.shape = [b, n, n]) (hC : Kcross.shape = [b, n])
    (hinv : ∀ p < b, (Spec.cov n Kin p + m.noise.mat n p).det ≠ 0)
    (hsym : ∀ p < b, (Spec.cov n Kin p).transpose = Spec.cov n Kin p) :
    ∃ T, m.posteriorVariance Kin Kcross = .ok T ∧ T.shape = [b] ∧
      ∀ p < b, T.get [p] = m.boundScale * Spec.krigingVar (m.kout.get [])
        (Spec.cov n Kin p + m.noise.mat n p) (Spec.vec n Kcross p) := by
  obtain ⟨P, h1, h2, h3⟩ := m.noise.perturb_cov hν Kin hK
  obtain ⟨T, hT, hs, hm⟩ := diagonalVariance_core' (N := n) (O := 1) b [n] [] P Kcross m.kout
    (by simp) (by simp) h2 (by simpa using hC) (Or.inl ⟨hko, rfl⟩)
    (fun p hp => by rw [matAt_cov P h2, h3]; exact hinv p hp)
  refine ⟨T.map fun x => m.boundScale * x, ?_, hs, fun p hp => ?_⟩
  · unfold MuyGPS.posteriorVariance MuyGPS.optVariance Noise.perturbFn
    rw [h1]
    show (do let v ← diagonalVariance P Kcross m.kout; pure (v.map fun x => m.boundScale * x)) = _
    rw [hT]; rfl
  · have h5 : (T.map fun x => m.boundScale * x).get [p] = m.boundScale * T.get [p] := rfl
    have h6 := congrFun (congrFun (hm p) 0) 0
    rw [matAt_scalar T hs, matAt_cov P h2, Matrix.sub_apply, h3, col_kriging _
      (by rw [transpose_add, hsym p hp, Noise.mat_symm])] at h6
    rw [h5, h6]
    congr 1
    unfold Spec.krigingVar Spec.krigingMean
    have e0 : m.kout.matAt 1 1 0 0 0 = m.kout.get [] := by
      simp [Tensor.matAt, Tensor.get, hko, Tensor.ravel]
    have e1 : (fun a => Kcross.matAt n 1 p a 0) = Spec.vec n Kcross p := by
      ext i; exact matAt_vec Kcross hC p i 0
    rw [e0, e1]

/-- a concrete neighbourhood (two neighbours, correlation 1/2) meets all the hypotheses -/
noncomputable def exK : Tensor ℝ := ⟨[1, 2, 2], fun k => if k % 3 = 0 then 1 else 1 / 2⟩

theorem exK_cov : Spec.cov 2 exK 0 = !![1, 1/2; 1/2, 1] := by
  ext i j
  fin_cases i <;> fin_cases j <;> simp [Spec.cov, exK, Tensor.get, Tensor.ravel]

example : exK.shape = [1, 2, 2] ∧ (∀ p < 1, (Spec.cov 2 exK p).det ≠ 0) ∧
    (∀ p < 1, (Spec.cov 2 exK p).transpose = Spec.cov 2 exK p) ∧
    (Noise.homoscedastic 0).Fits 1 2 := by
  refine ⟨rfl, ?_, ?_, trivial⟩
  · intro p hp
    obtain rfl : p = 0 := by omega
    rw [exK_cov, Matrix.det_fin_two]; norm_num
  · intro p hp
    obtain rfl : p = 0 := by omega
    rw [exK_cov]
    ext i j; fin_cases i <;> fin_cases j <;> rfl

/-! ## C25 -/

/-- **C25.** Without noise (null noise, or homoscedastic noise of value zero), if the
cross-covariances of query `p` are those of its neighbour `j` (the query coincides with that
neighbour) then the posterior mean is exactly the target of neighbour `j` and, when the prior
variance is the variance of that neighbour, the posterior variance is zero. -/
theorem C25_interpolates (m : MuyGPS) (hnoise : m.noise = .null ∨ m.noise = .homoscedastic 0)
    (b n : Nat) (Kin Kcross y : Tensor ℝ) (hko : m.kout.shape = [])
    (hK : Kin.shape = [b, n, n]) (hC : Kcross.shape = [b, n]) (hy : y.shape = [b, n])
    (hinv : ∀ p < b, (Spec.cov n Kin p).det ≠ 0)
    (hsym : ∀ p < b, (Spec.cov n Kin p).transpose = Spec.cov n Kin p)
    (p : Nat) (hp : p < b) (j : Nat) (hj : j < n)
    (hmatch : ∀ i < n, Kcross.get [p, i] = Kin.get [p, i, j])
    (hprior : m.kout.get [] = Kin.get [p, j, j]) :
    ∃ T V, m.posteriorMean Kin Kcross y = .ok T ∧ m.posteriorVariance Kin Kcross = .ok V ∧
      T.get [p] = y.get [p, j] ∧ V.get [p] = 0 := by
  have hfit : m.noise.Fits b n := by rcases hnoise with h | h <;> rw [h] <;> trivial
  have hz : ∀ p, m.noise.mat n p = 0 := by
    intro p; rcases hnoise with h | h <;> rw [h] <;> simp [Noise.mat]
  have hinv' : ∀ p < b, (Spec.cov n Kin p + m.noise.mat n p).det ≠ 0 := by
    intro p hp; rw [hz, add_zero]; exact hinv p hp
  obtain ⟨T, hT, hTs, hTm⟩ := C24_model_mean m b n hfit Kin Kcross y hK hC hy hinv' hsym
  obtain ⟨V, hV, hVs, hVm⟩ := C24_model_variance m b n hfit Kin Kcross hko hK hC hinv' hsym
  have hk : Spec.vec n Kcross p = fun i => Spec.cov n Kin p i ⟨j, hj⟩ := by
    ext i; exact hmatch i i.2
  refine ⟨T, V, hT, hV, ?_, ?_⟩
  · rw [hTm p hp, hz, add_zero, Spec.krigingMean, ← Kriging.swap (hsym p hp), hk,
      Kriging.inv_col (hinv p hp)]
    rw [single_dotProduct, one_mul]; rfl
  · rw [hVm p hp, hz, add_zero, Spec.krigingVar, hk, Kriging.inv_col (hinv p hp)]
    rw [dotProduct_single, mul_one, hprior]
    show m.boundScale * (Kin.get [p, j, j] - Kin.get [p, j, j]) = 0
    rw [sub_self, mul_zero]

/-- hypotheses of C25 are met: the query sits on neighbour 1 of `exK` -/
example : ∀ i < 2, (⟨[1, 2], fun k => if k = 1 then 1 else 1/2⟩ : Tensor ℝ).get [0, i]
    = exK.get [0, i, 1] := by
  intro i hi
  interval_cases i <;> simp [exK, Tensor.get, Tensor.ravel]

/-! ## C26 -/

/-- **C26**, linearity: the posterior mean of `a * y + c * z` is `a` times that of `y` plus `c` times
that of `z`, for every noise model, covariance and targets. -/
theorem C26_linear (m : MuyGPS) (b n : Nat) (hν : m.noise.Fits b n) (Kin Kcross y z w : Tensor ℝ)
    (hK : Kin.shape = [b, n, n]) (hC : Kcross.shape = [b, n]) (hy : y.shape = [b, n])
    (hz : z.shape = [b, n]) (hw : w.shape = [b, n]) (a c : ℝ)
    (hlin : ∀ p < b, ∀ i < n, w.get [p, i] = a * y.get [p, i] + c * z.get [p, i])
    (hinv : ∀ p < b, (Spec.cov n Kin p + m.noise.mat n p).det ≠ 0)
    (hsym : ∀ p < b, (Spec.cov n Kin p).transpose = Spec.cov n Kin p) :
    ∃ Ty Tz Tw, m.posteriorMean Kin Kcross y = .ok Ty ∧ m.posteriorMean Kin Kcross z = .ok Tz ∧
      m.posteriorMean Kin Kcross w = .ok Tw ∧
      ∀ p < b, Tw.get [p] = a * Ty.get [p] + c * Tz.get [p] := by
  obtain ⟨Ty, h1, _, h2⟩ := C24_model_mean m b n hν Kin Kcross y hK hC hy hinv hsym
  obtain ⟨Tz, h3, _, h4⟩ := C24_model_mean m b n hν Kin Kcross z hK hC hz hinv hsym
  obtain ⟨Tw, h5, _, h6⟩ := C24_model_mean m b n hν Kin Kcross w hK hC hw hinv hsym
  refine ⟨Ty, Tz, Tw, h1, h3, h5, fun p hp => ?_⟩
  rw [h2 p hp, h4 p hp, h6 p hp]
  have : Spec.vec n w p = a • Spec.vec n y p + c • Spec.vec n z p := by
    ext i; exact hlin p hp i i.2
  unfold Spec.krigingMean
  rw [this, mulVec_add, mulVec_smul, mulVec_smul, dotProduct_add, dotProduct_smul, dotProduct_smul]
  rfl

/-- **C26**, neighbour order: listing the neighbours of each query in another order (a permutation
`σ p` per query, applied consistently to covariances, cross-covariances, targets and noise) changes
neither the posterior mean nor the posterior variance. -/
theorem C26_neighbour_order (m m' : MuyGPS) (b n : Nat) (hν : m.noise.Fits b n)
    (hν' : m'.noise.Fits b n) (hs : m'.boundScale = m.boundScale) (hk : m'.kout = m.kout)
    (hko : m.kout.shape = [])
    (Kin Kcross y Kin' Kcross' y' : Tensor ℝ)
    (hK : Kin.shape = [b, n, n]) (hC : Kcross.shape = [b, n]) (hy : y.shape = [b, n])
    (hK' : Kin'.shape = [b, n, n]) (hC' : Kcross'.shape = [b, n]) (hy' : y'.shape = [b, n])
    (σ : Nat → Equiv.Perm (Fin n))
    (pK : ∀ p < b, ∀ i j : Fin n, Kin'.get [p, i, j] = Kin.get [p, σ p i, σ p j])
    (pC : ∀ p < b, ∀ i : Fin n, Kcross'.get [p, i] = Kcross.get [p, σ p i])
    (py : ∀ p < b, ∀ i : Fin n, y'.get [p, i] = y.get [p, σ p i])
    (pN : ∀ p < b, m'.noise.mat n p = (m.noise.mat n p).submatrix (σ p) (σ p))
    (hinv : ∀ p < b, (Spec.cov n Kin p + m.noise.mat n p).det ≠ 0)
    (hsym : ∀ p < b, (Spec.cov n Kin p).transpose = Spec.cov n Kin p) :
    ∃ T T' V V', m.posteriorMean Kin Kcross y = .ok T ∧ m'.posteriorMean Kin' Kcross' y' = .ok T' ∧
      m.posteriorVariance Kin Kcross = .ok V ∧ m'.posteriorVariance Kin' Kcross' = .ok V' ∧
      ∀ p < b, T'.get [p] = T.get [p] ∧ V'.get [p] = V.get [p] := by
  have c1 : ∀ p < b, Spec.cov n Kin' p = (Spec.cov n Kin p).submatrix (σ p) (σ p) := by
    intro p hp; ext i j; exact pK p hp i j
  have c2 : ∀ p < b, Spec.cov n Kin' p + m'.noise.mat n p
      = (Spec.cov n Kin p + m.noise.mat n p).submatrix (σ p) (σ p) := by
    intro p hp; rw [c1 p hp, pN p hp]; rfl
  have c3 : ∀ p < b, Spec.vec n Kcross' p = Spec.vec n Kcross p ∘ σ p := by
    intro p hp; ext i; exact pC p hp i
  have c4 : ∀ p < b, Spec.vec n y' p = Spec.vec n y p ∘ σ p := by
    intro p hp; ext i; exact py p hp i
  have hinv' : ∀ p < b, (Spec.cov n Kin' p + m'.noise.mat n p).det ≠ 0 := by
    intro p hp; rw [c2 p hp, det_submatrix_equiv_self]; exact hinv p hp
  have hsym' : ∀ p < b, (Spec.cov n Kin' p).transpose = Spec.cov n Kin' p := by
    intro p hp; rw [c1 p hp, transpose_submatrix, hsym p hp]
  obtain ⟨T, h1, _, h2⟩ := C24_model_mean m b n hν Kin Kcross y hK hC hy hinv hsym
  obtain ⟨T', h3, _, h4⟩ := C24_model_mean m' b n hν' Kin' Kcross' y' hK' hC' hy' hinv' hsym'
  obtain ⟨V, h5, _, h6⟩ := C24_model_variance m b n hν Kin Kcross hko hK hC hinv hsym
  obtain ⟨V', h7, _, h8⟩ := C24_model_variance m' b n hν' Kin' Kcross' (hk ▸ hko) hK' hC' hinv' hsym'
  refine ⟨T, T', V, V', h1, h3, h5, h7, fun p hp => ⟨?_, ?_⟩⟩
  · rw [h2 p hp, h4 p hp, c2 p hp, c3 p hp, c4 p hp]
    exact Kriging.quad_perm _ _ _ _
  · rw [h6 p hp, h8 p hp, c2 p hp, c3 p hp, hs, hk]
    unfold Spec.krigingVar
    rw [Kriging.quad_perm]

/-- for homoscedastic noise the noise hypothesis of `C26_neighbour_order` holds with the same model -/
theorem Noise.mat_perm_homoscedastic (v : ℝ) (n p : Nat) (σ : Equiv.Perm (Fin n)) :
    (Noise.homoscedastic v).mat n p = ((Noise.homoscedastic v).mat n p).submatrix σ σ := by
  simp [Noise.mat, Matrix.submatrix_smul]

/-! ## C27 -/

theorem posteriorMean_ok_det {b n : Nat} {Kin Kcross y T : Tensor ℝ}
    (hK : Kin.shape = [b, n, n]) (hC : Kcross.shape = [b, n])
    (hy : y.shape = [b, n] ∨ ∃ r, r ≠ n ∧ y.shape = [b, n, r])
    (h : posteriorMean Kin Kcross y = .ok T) : ∀ p < b, (Spec.cov n Kin p).det ≠ 0 := by
  intro p hp hd
  rw [C24_singular_is_error b n Kin Kcross y hK hC hy p hp hd] at h
  cases h

/-- **C27**, means. Let `sel` pick, for each element of a new batch, an element of the original
batch (a split, a reordering, a single element, repetitions: anything). If predicting the whole
batch succeeds, then predicting the selected batch succeeds and each of its means is the mean of
the selected element. -/
theorem C27_mean_selection (m m' : MuyGPS) (b b' n : Nat) (hν : m.noise.Fits b n)
    (hν' : m'.noise.Fits b' n) (Kin Kcross y Kin' Kcross' y' T : Tensor ℝ)
    (hK : Kin.shape = [b, n, n]) (hC : Kcross.shape = [b, n]) (hy : y.shape = [b, n])
    (hK' : Kin'.shape = [b', n, n]) (hC' : Kcross'.shape = [b', n]) (hy' : y'.shape = [b', n])
    (sel : Nat → Nat) (hsel : ∀ q < b', sel q < b)
    (sK : ∀ q < b', ∀ i < n, ∀ j < n, Kin'.get [q, i, j] = Kin.get [sel q, i, j])
    (sC : ∀ q < b', ∀ i < n, Kcross'.get [q, i] = Kcross.get [sel q, i])
    (sy : ∀ q < b', ∀ i < n, y'.get [q, i] = y.get [sel q, i])
    (sN : ∀ q < b', m'.noise.mat n q = m.noise.mat n (sel q))
    (hT : m.posteriorMean Kin Kcross y = .ok T) :
    ∃ T', m'.posteriorMean Kin' Kcross' y' = .ok T' ∧ T'.shape = [b'] ∧
      ∀ q < b', T'.get [q] = T.get [sel q] := by
  obtain ⟨P, h1, h2, h3⟩ := m.noise.perturb_cov hν Kin hK
  obtain ⟨P', h1', h2', h3'⟩ := m'.noise.perturb_cov hν' Kin' hK'
  have hT0 : posteriorMean P Kcross y = .ok T := by
    unfold MuyGPS.posteriorMean Noise.perturbFn at hT
    rw [h1] at hT; exact hT
  have hd := posteriorMean_ok_det h2 hC (Or.inl hy) hT0
  have hc : ∀ q < b', Spec.cov n P' q = Spec.cov n P (sel q) := by
    intro q hq; rw [h3', h3, sN q hq]; congr 1
    ext i j; exact sK q hq i i.2 j j.2
  obtain ⟨T1, e1, s1, m1⟩ := posteriorMean_core' (N := n) (O := 1) (E := 1) [b] [n] [] [] P Kcross y
    (by simp) (by simp) (by simp) (by simp) h2 (by simpa using hC) (by simpa using hy)
    (by simp) (by simpa [matAt_cov P h2] using hd)
  have hTT : T1 = T := by rw [e1] at hT0; exact Except.ok.inj hT0
  subst hTT
  obtain ⟨T2, e2, s2, m2⟩ := posteriorMean_core' (N := n) (O := 1) (E := 1) [b'] [n] [] [] P' Kcross' y'
    (by simp) (by simp) (by simp) (by simp) h2' (by simpa using hC') (by simpa using hy')
    (by simp) (by
      intro q hq
      have hq : q < b' := by simpa using hq
      rw [matAt_cov P' h2', hc q hq]; exact hd _ (hsel q hq))
  refine ⟨T2, ?_, s2, fun q hq => ?_⟩
  · unfold MuyGPS.posteriorMean Noise.perturbFn
    rw [h1']; exact e2
  · have a1 := congrFun (congrFun (m2 q) 0) 0
    have a2 := congrFun (congrFun (m1 (sel q)) 0) 0
    rw [matAt_scalar T2 s2] at a1
    rw [matAt_scalar T1 s1] at a2
    rw [a1, a2, matAt_cov P' h2', matAt_cov P h2, hc q hq]
    have f1 : Kcross'.matAt n 1 q = Kcross.matAt n 1 (sel q) := by
      ext i c; rw [matAt_vec Kcross' hC', matAt_vec Kcross hC]; exact sC q hq i i.2
    have f2 : y'.matAt n 1 q = y.matAt n 1 (sel q) := by
      ext i c; rw [matAt_vec y' hy', matAt_vec y hy]; exact sy q hq i i.2
    rw [f1, f2]

/-- **C27**, variances, same reading (here the original batch must have invertible noisy
covariances, which is what success of the call means). -/
theorem C27_variance_selection (m m' : MuyGPS) (b b' n : Nat) (hν : m.noise.Fits b n)
    (hν' : m'.noise.Fits b' n) (hs : m'.boundScale = m.boundScale) (hk : m'.kout = m.kout)
    (hko : m.kout.shape = []) (Kin Kcross Kin' Kcross' : Tensor ℝ)
    (hK : Kin.shape = [b, n, n]) (hC : Kcross.shape = [b, n])
    (hK' : Kin'.shape = [b', n, n]) (hC' : Kcross'.shape = [b', n])
    (sel : Nat → Nat) (hsel : ∀ q < b', sel q < b)
    (sK : ∀ q < b', ∀ i < n, ∀ j < n, Kin'.get [q, i, j] = Kin.get [sel q, i, j])
    (sC : ∀ q < b', ∀ i < n, Kcross'.get [q, i] = Kcross.get [sel q, i])
    (sN : ∀ q < b', m'.noise.mat n q = m.noise.mat n (sel q))
    (hinv : ∀ p < b, (Spec.cov n Kin p + m.noise.mat n p).det ≠ 0)
    (hsym : ∀ p < b, (Spec.cov n Kin p).transpose = Spec.cov n Kin p) :
    ∃ V V', m.posteriorVariance Kin Kcross = .ok V ∧ m'.posteriorVariance Kin' Kcross' = .ok V' ∧
      ∀ q < b', V'.get [q] = V.get [sel q] := by
  have hc : ∀ q < b', Spec.cov n Kin' q = Spec.cov n Kin (sel q) := by
    intro q hq; ext i j; exact sK q hq i i.2 j j.2
  have hv : ∀ q < b', Spec.vec n Kcross' q = Spec.vec n Kcross (sel q) := by
    intro q hq; ext i; exact sC q hq i i.2
  obtain ⟨V, h1, _, h2⟩ := C24_model_variance m b n hν Kin Kcross hko hK hC hinv hsym
  obtain ⟨V', h3, _, h4⟩ := C24_model_variance m' b' n hν' Kin' Kcross' (hk ▸ hko) hK' hC'
    (fun q hq => by rw [hc q hq, sN q hq]; exact hinv _ (hsel q hq))
    (fun q hq => by rw [hc q hq]; exact hsym _ (hsel q hq))
  refine ⟨V, V', h1, h3, fun q hq => ?_⟩
  rw [h4 q hq, h2 _ (hsel q hq), hc q hq, hv q hq, sN q hq, hs, hk]

/-! ## C28 -/

/-- The joint covariance of the neighbours of query `p` and the query itself. -/
noncomputable def jointCov (n : Nat) (Kin Kcross : Tensor ℝ) (kout : ℝ) (p : Nat) :
    Matrix (Fin n ⊕ Unit) (Fin n ⊕ Unit) ℝ :=
  Kriging.joint (Spec.cov n Kin p) (Spec.vec n Kcross p) kout

/-- A noise model with no negative variance. -/
def Noise.Nonneg (ν : Noise) (b n : Nat) : Prop :=
  match ν with
  | .homoscedastic v => 0 ≤ v
  | .heteroscedastic v => ∀ p < b, ∀ i < n, 0 ≤ v.get [p, i]
  | .shear33 v => 0 ≤ v
  | .null => True

theorem Noise.mat_psd (ν : Noise) {b n p : Nat} (h : ν.Nonneg b n) (hp : p < b) :
    (ν.mat n p).PosSemidef := by
  cases ν with
  | homoscedastic v => exact PosSemidef.one.smul h
  | heteroscedastic v => exact PosSemidef.diagonal (fun i => h p hp i i.2)
  | shear33 v => exact PosSemidef.zero
  | null => exact PosSemidef.zero

/-- **C28.** If the joint covariance of every query and its neighbours is positive semidefinite, the
noise is non-negative, the noisy neighbourhood covariances are invertible (positive definite) and
the scale is non-negative, every posterior variance lies between 0 and `scale * Kout`. -/
theorem C28_variance_bounds (m : MuyGPS) (b n : Nat) (hν : m.noise.Fits b n)
    (hnn : m.noise.Nonneg b n) (hs : 0 ≤ m.boundScale) (Kin Kcross : Tensor ℝ)
    (hko : m.kout.shape = [])
    (hK : Kin.shape = [b, n, n]) (hC : Kcross.shape = [b, n])
    (hjoint : ∀ p < b, (jointCov n Kin Kcross (m.kout.get []) p).PosSemidef)
    (hpd : ∀ p < b, (Spec.cov n Kin p + m.noise.mat n p).det ≠ 0) :
    ∃ V, m.posteriorVariance Kin Kcross = .ok V ∧
      ∀ p < b, 0 ≤ V.get [p] ∧ V.get [p] ≤ m.boundScale * m.kout.get [] := by
  have hpsd : ∀ p < b, (Spec.cov n Kin p).PosSemidef := fun p hp => Kriging.joint_sub_psd (hjoint p hp)
  have hpd' : ∀ p < b, (Spec.cov n Kin p + m.noise.mat n p).PosDef := by
    intro p hp
    have h1 : (Spec.cov n Kin p + m.noise.mat n p).PosSemidef :=
      (hpsd p hp).add (m.noise.mat_psd hnn hp)
    exact h1.posDef_iff_det_ne_zero.2 (hpd p hp)
  obtain ⟨V, h1, _, h2⟩ := C24_model_variance m b n hν Kin Kcross hko hK hC hpd
    (fun p hp => Kriging.symm_of_herm (hpsd p hp).1)
  refine ⟨V, h1, fun p hp => ?_⟩
  rw [h2 p hp]
  have hq := Kriging.quad_nonneg (hpd' p hp) (Spec.vec n Kcross p)
  have hl := Kriging.schur_nonneg' (hjoint p hp) (m.noise.mat_psd hnn hp) (hpd' p hp)
  refine ⟨mul_nonneg hs hl, mul_le_mul_of_nonneg_left ?_ hs⟩
  unfold Spec.krigingVar
  linarith

/-! ## C29 -/

/-- **C29**, noise. For positive definite neighbourhood covariances and noise `0 ≤ τ₁ ≤ τ₂`, no
posterior variance of the model with noise `τ₁` exceeds that of the model with noise `τ₂`. -/
theorem C29_noise_monotone (kout : Tensor ℝ) (s τ₁ τ₂ : ℝ) (hs : 0 ≤ s) (h0 : 0 ≤ τ₁) (h12 : τ₁ ≤ τ₂)
    (b n : Nat) (Kin Kcross : Tensor ℝ) (hko : kout.shape = [])
    (hK : Kin.shape = [b, n, n]) (hC : Kcross.shape = [b, n])
    (hpd : ∀ p < b, (Spec.cov n Kin p).PosDef) :
    ∃ V₁ V₂, (MuyGPS.make (.homoscedastic τ₁) kout s).posteriorVariance Kin Kcross = .ok V₁ ∧
      (MuyGPS.make (.homoscedastic τ₂) kout s).posteriorVariance Kin Kcross = .ok V₂ ∧
      ∀ p < b, V₁.get [p] ≤ V₂.get [p] := by
  have hp1 : ∀ p < b, (Spec.cov n Kin p + τ₁ • (1 : Matrix (Fin n) (Fin n) ℝ)).PosDef :=
    fun p hp => Kriging.posdef_add_smul_one (hpd p hp) h0
  have hp2 : ∀ p < b, (Spec.cov n Kin p + τ₂ • (1 : Matrix (Fin n) (Fin n) ℝ)).PosDef :=
    fun p hp => Kriging.posdef_add_smul_one (hpd p hp) (h0.trans h12)
  have hsy := fun p hp => Kriging.posdef_symm (hpd p hp)
  obtain ⟨V₁, a1, _, a2⟩ := C24_model_variance (MuyGPS.make (.homoscedastic τ₁) kout s) b n trivial
    Kin Kcross hko hK hC (fun p hp => Kriging.det_ne_zero (hp1 p hp)) hsy
  obtain ⟨V₂, b1, _, b2⟩ := C24_model_variance (MuyGPS.make (.homoscedastic τ₂) kout s) b n trivial
    Kin Kcross hko hK hC (fun p hp => Kriging.det_ne_zero (hp2 p hp)) hsy
  refine ⟨V₁, V₂, a1, b1, fun p hp => ?_⟩
  rw [a2 p hp, b2 p hp]
  refine mul_le_mul_of_nonneg_left ?_ hs
  have := Kriging.quad_antitone (hp1 p hp) (hp2 p hp) (fun x => by
    rw [Kriging.quad_add_smul_one, Kriging.quad_add_smul_one]
    have hx : 0 ≤ x ⬝ᵥ x := by
      simp only [dotProduct]; exact Finset.sum_nonneg fun i _ => mul_self_nonneg _
    nlinarith) (Spec.vec n Kcross p)
  unfold Spec.krigingVar
  have e1 : (MuyGPS.make (.homoscedastic τ₁) kout s).noise.mat n p = τ₁ • 1 := rfl
  have e2 : (MuyGPS.make (.homoscedastic τ₂) kout s).noise.mat n p = τ₂ • 1 := rfl
  have e3 : (MuyGPS.make (.homoscedastic τ₁) kout s).kout = kout := rfl
  have e4 : (MuyGPS.make (.homoscedastic τ₂) kout s).kout = kout := rfl
  rw [e1, e2, e3, e4]
  linarith

/-- **C29**, information. Let `Kin'`, `Kcross'` list only some (`k` of `n`, chosen by the injective
`e`) of the neighbours of each query. Then the posterior variance with all the neighbours never
exceeds the one with the sub-neighbourhood. -/
theorem C29_more_neighbours (kout : Tensor ℝ) (s τ : ℝ) (hs : 0 ≤ s)
    (b n k : Nat) (e : Fin k → Fin n) (he : Function.Injective e)
    (Kin Kcross Kin' Kcross' : Tensor ℝ) (hko : kout.shape = [])
    (hK : Kin.shape = [b, n, n]) (hC : Kcross.shape = [b, n])
    (hK' : Kin'.shape = [b, k, k]) (hC' : Kcross'.shape = [b, k])
    (sK : ∀ p < b, ∀ i j : Fin k, Kin'.get [p, i, j] = Kin.get [p, e i, e j])
    (sC : ∀ p < b, ∀ i : Fin k, Kcross'.get [p, i] = Kcross.get [p, e i])
    (hpd : ∀ p < b, (Spec.cov n Kin p + τ • (1 : Matrix (Fin n) (Fin n) ℝ)).PosDef)
    (hsym : ∀ p < b, (Spec.cov n Kin p).transpose = Spec.cov n Kin p) :
    ∃ V V', (MuyGPS.make (.homoscedastic τ) kout s).posteriorVariance Kin Kcross = .ok V ∧
      (MuyGPS.make (.homoscedastic τ) kout s).posteriorVariance Kin' Kcross' = .ok V' ∧
      ∀ p < b, V.get [p] ≤ V'.get [p] := by
  have c1 : ∀ p < b, Spec.cov k Kin' p = (Spec.cov n Kin p).submatrix e e := by
    intro p hp; ext i j; exact sK p hp i j
  have c2 : ∀ p < b, Spec.cov k Kin' p + τ • (1 : Matrix (Fin k) (Fin k) ℝ)
      = (Spec.cov n Kin p + τ • (1 : Matrix (Fin n) (Fin n) ℝ)).submatrix e e := by
    intro p hp; rw [c1 p hp, submatrix_add, submatrix_smul]
    congr 2
    exact (submatrix_one e he).symm
  have c3 : ∀ p < b, Spec.vec k Kcross' p = Spec.vec n Kcross p ∘ e := by
    intro p hp; ext i; exact sC p hp i
  obtain ⟨V, a1, _, a2⟩ := C24_model_variance (MuyGPS.make (.homoscedastic τ) kout s) b n trivial
    Kin Kcross hko hK hC (fun p hp => Kriging.det_ne_zero (hpd p hp)) hsym
  obtain ⟨V', b1, _, b2⟩ := C24_model_variance (MuyGPS.make (.homoscedastic τ) kout s) b k trivial
    Kin' Kcross' hko hK' hC'
    (fun p hp => by
      have : (Spec.cov k Kin' p + τ • (1 : Matrix (Fin k) (Fin k) ℝ)).PosDef := by
        rw [c2 p hp]; exact (hpd p hp).submatrix he
      exact Kriging.det_ne_zero this)
    (fun p hp => by rw [c1 p hp, transpose_submatrix, hsym p hp])
  refine ⟨V, V', a1, b1, fun p hp => ?_⟩
  rw [a2 p hp, b2 p hp]
  refine mul_le_mul_of_nonneg_left ?_ hs
  have := Kriging.quad_submatrix (hpd p hp) e he (Spec.vec n Kcross p)
  rw [← c2 p hp, ← c3 p hp] at this
  unfold Spec.krigingVar
  have e1 : ∀ N, (MuyGPS.make (.homoscedastic τ) kout s).noise.mat N p = τ • 1 := fun _ => rfl
  rw [e1, e1]
  linarith

/-! ## non-vacuity of C28/C29: `exK` is positive definite and so is its joint covariance -/

theorem exK_posdef : (Spec.cov 2 exK 0).PosDef := by
  refine PosDef.of_dotProduct_mulVec_pos ?_ ?_
  · rw [exK_cov]; ext i j; fin_cases i <;> fin_cases j <;> simp
  · intro x hx
    rw [exK_cov]
    have hx' : x 0 ≠ 0 ∨ x 1 ≠ 0 := by
      by_contra h
      push Not at h
      exact hx (by ext i; fin_cases i <;> simp [h.1, h.2])
    simp [dotProduct, mulVec, Fin.sum_univ_two]
    rcases hx' with h | h <;> nlinarith [sq_nonneg (x 0 + x 1), mul_self_pos.2 h, sq_nonneg (x 0), sq_nonneg (x 1)]

end MuyGPyS

namespace MuyGPyS
open Py Matrix

/-- the hypotheses of C28 are met by `exK` with cross-covariances 1/2 and unit prior variance -/
theorem ex_joint_psd : (jointCov 2 exK ⟨[1, 2], fun _ => 1 / 2⟩ 1 0).PosSemidef := by
  unfold jointCov Kriging.joint
  rw [exK_cov]
  refine PosSemidef.of_dotProduct_mulVec_nonneg ?_ ?_
  · ext i j
    rcases i with i | i <;> rcases j with j | j <;> simp [Spec.vec, Tensor.get, fromBlocks]
    fin_cases i <;> fin_cases j <;> simp
  · intro x
    simp [dotProduct, mulVec, Fintype.sum_sum_type, Fin.sum_univ_two, Spec.vec, Tensor.get, fromBlocks]
    nlinarith [sq_nonneg (x (.inl 0) + x (.inl 1) + x (.inr ())), sq_nonneg (x (.inl 0)),
      sq_nonneg (x (.inl 1)), sq_nonneg (x (.inr ()))]

end MuyGPyS
