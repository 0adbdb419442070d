import Verif.Props.ShearReference

/-!
# C98: posterior of the conventional shear Gaussian process
-/

namespace MuyGPyS
namespace Shear
open Py Py.Tensor Matrix

/-- The covariance of the posterior of quantity `c` at `z` and quantity `c'` at `z'`, given noisy observations of the quantities `obs` at the points
`x 0, …, x (n-1)`. -/
noncomputable def jointPosterior {o : Nat} (ℓ : ℝ) (obs : Fin o → Fin 3) (n : Nat) (N : Matrix (Fin (o * n)) (Fin (o * n)) ℝ) (x : Nat → ℝ × ℝ)
    (z z' : ℝ × ℝ) (c c' : Fin 3) : ℝ :=
  covariance ℓ c c' z z' - (fun i => queryCov ℓ obs n x z i c) ⬝ᵥ
    ((neighbourCov ℓ obs n x + N)⁻¹ *ᵥ fun i => queryCov ℓ obs n x z' i c')

theorem nugget_eq {o : Nat} (ℓ : ℝ) (obs : Fin o → Fin 3) (n : Nat) (x : Nat → ℝ × ℝ) (A : Tensor ℝ)
    (hA : ∀ a c : Fin o, ∀ i < n, ∀ j < n, A.get [a * n + i, c * n + j] = covariance ℓ (obs a) (obs c) (x i) (x j)) (nug : Nat → ℝ) :
    nuggetMat (o * n) A nug = neighbourCov ℓ obs n x + Matrix.diagonal fun i : Fin (o * n) => nug i := by
  ext i j
  have h := hA (obsOf i) (obsOf j) (i % n) (mod_lt_of i) (j % n) (mod_lt_of j)
  have e : ∀ i : Fin (o * n), ((obsOf i : Fin o) : Nat) * n + (i : Nat) % n = i := fun i => Nat.div_add_mod' _ _
  rw [e, e] at h
  unfold nuggetMat
  rw [Matrix.add_apply, Matrix.of_apply, h, Matrix.diagonal_apply]
  rfl

theorem nugget_homoscedastic (m : Nat) (τ : ℝ) : (Matrix.diagonal fun _ : Fin m => τ) = τ • (1 : Matrix (Fin m) (Fin m) ℝ) :=
  (Matrix.smul_one_eq_diagonal τ).symm

theorem nugget_shear (n : Nat) (τ : ℝ) : (Matrix.diagonal fun i : Fin (3 * n) => nugget33 (3 * n) τ i) = shearNoiseMat n τ := by
  unfold shearNoiseMat nugget33
  congr 1
  funext i
  have h3 : 3 * n / 3 = n := by omega
  have hn0 : 0 < n := lt_of_le_of_lt (Nat.zero_le _) (mod_lt_of i)
  have : ((i : Nat) < 3 * n / 3) = (obsOf i = 0) := by
    rw [h3, Fin.ext_iff]
    show _ = ((i : Nat) / n = 0)
    rw [Nat.div_eq_zero_iff_lt hn0]
  simp only [this]

theorem matT_get {A : Tensor ℝ} {r c : Nat} (hA : A.shape = [r, c]) :
    (matT A).shape = [c, r] ∧ ∀ i < r, ∀ j < c, (matT A).get [j, i] = A.get [i, j] := by
  unfold matT
  simp only [hA]
  refine ⟨rfl, fun i hi j hj => ?_⟩
  rw [get_ofFn _ _ _ (.cons hj (.cons hi .nil))]
  rfl

theorem flatTargets_get {Y : Tensor ℝ} {n r : Nat} (hY : Y.shape = [n, r]) :
    (flatTargets Y).shape = [r * n] ∧ ∀ i : Fin (r * n), (flatTargets Y).get [i] = nbrObs r n Y id i := by
  unfold flatTargets
  simp only [hY]
  refine ⟨rfl, fun i => ?_⟩
  rw [get_ofFn _ _ _ (.cons i.2 .nil)]
  rfl

/-- Crosswise covariances of the reference, transposed. -/
theorem cross_get {o : Nat} (ℓ : ℝ) (obs : Fin o → Fin 3) (n t : Nat) (x z : Nat → ℝ × ℝ) (B : Tensor ℝ) (hB : B.shape = [o * n, 3 * t])
    (hBv : ∀ a : Fin o, ∀ c : Fin 3, ∀ i < n, ∀ p < t, B.get [a * n + i, c * t + p] = covariance ℓ (obs a) c (x i) (z p))
    (c : Fin 3) (p : Nat) (hp : p < t) :
    (fun j : Fin (o * n) => (matT B).get [c * t + p, j]) = fun j => queryCov ℓ obs n x (z p) j c := by
  funext j
  rw [(matT_get hB).2 _ j.2 _ (flat_lt hp)]
  have h := hBv (obsOf j) c (j % n) (mod_lt_of j) p hp
  have e : ((obsOf j : Fin o) : Nat) * n + (j : Nat) % n = j := Nat.div_add_mod' _ _
  rw [e] at h
  exact h

theorem mean_core {o : Nat} (ℓ : ℝ) (hℓ : 0 < ℓ) (obs : Fin o → Fin 3) (n t : Nat) (x z : Nat → ℝ × ℝ) (A B y : Tensor ℝ) (w : Fin (o * n) → ℝ)
    (hA : A.shape = [o * n, o * n])
    (hAv : ∀ a c : Fin o, ∀ i < n, ∀ j < n, A.get [a * n + i, c * n + j] = covariance ℓ (obs a) (obs c) (x i) (x j))
    (hB : B.shape = [o * n, 3 * t])
    (hBv : ∀ a : Fin o, ∀ c : Fin 3, ∀ i < n, ∀ p < t, B.get [a * n + i, c * t + p] = covariance ℓ (obs a) c (x i) (z p))
    (hy : y.shape = [o * n]) (hyv : ∀ i : Fin (o * n), y.get [i] = w i)
    (nug : Nat → ℝ) (N : Matrix (Fin (o * n)) (Fin (o * n)) ℝ) (hN : (Matrix.diagonal fun i : Fin (o * n) => nug i) = N) (hpd : N.PosDef) :
    ∃ M, convMean nug A (matT B) y = .ok M ∧ M.shape = [t, 3] ∧ ∀ p < t, ∀ c : Fin 3,
      M.get [p, c] = Spec.krigingMean (neighbourCov ℓ obs n x + N) (fun i => queryCov ℓ obs n x (z p) i c) w := by
  have hm : nuggetMat (o * n) A nug = neighbourCov ℓ obs n x + N := by rw [nugget_eq ℓ obs n x A hAv, hN]
  have hd : (neighbourCov ℓ obs n x + N).det ≠ 0 :=
    Kriging.det_ne_zero (Matrix.PosDef.posSemidef_add (neighbourCov_psd ℓ hℓ obs n x) hpd)
  have h3 : 3 * t / 3 = t := by omega
  unfold convMean
  simp only [hA, (matT_get hB).1, hy, hm, and_self, if_true, if_neg hd, h3]
  refine ⟨_, rfl, rfl, fun p hp c => ?_⟩
  rw [get_ofFn _ _ _ (.cons hp (.cons c.2 .nil))]
  simp only [List.getD_cons_zero, List.getD_cons_succ]
  rw [cross_get ℓ obs n t x z B hB hBv c p hp]
  unfold Spec.krigingMean
  congr 3
  funext i
  exact hyv i

theorem variance_core {o : Nat} (ℓ : ℝ) (hℓ : 0 < ℓ) (obs : Fin o → Fin 3) (n t : Nat) (x z : Nat → ℝ × ℝ) (A B Kout : Tensor ℝ)
    (hA : A.shape = [o * n, o * n])
    (hAv : ∀ a c : Fin o, ∀ i < n, ∀ j < n, A.get [a * n + i, c * n + j] = covariance ℓ (obs a) (obs c) (x i) (x j))
    (hB : B.shape = [o * n, 3 * t])
    (hBv : ∀ a : Fin o, ∀ c : Fin 3, ∀ i < n, ∀ p < t, B.get [a * n + i, c * t + p] = covariance ℓ (obs a) c (x i) (z p))
    (hO : ∀ a c : Fin 3, ∀ s, Kout.get [a, c] = covariance ℓ a c s s)
    (nug : Nat → ℝ) (N : Matrix (Fin (o * n)) (Fin (o * n)) ℝ) (hN : (Matrix.diagonal fun i : Fin (o * n) => nug i) = N) (hpd : N.PosDef) :
    ∃ V, convVariance nug A (matT B) (conventionalKout Kout t) = .ok V ∧ V.shape = [3 * t, 3 * t] ∧
      ∀ p < t, ∀ q < t, ∀ c c' : Fin 3,
        V.get [c * t + p, c' * t + q] = jointPosterior ℓ obs n N x (z p) (z q) c c' + (covariance ℓ c c' (z p) (z p) - covariance ℓ c c' (z p) (z q)) := by
  have hm : nuggetMat (o * n) A nug = neighbourCov ℓ obs n x + N := by rw [nugget_eq ℓ obs n x A hAv, hN]
  have hd : (neighbourCov ℓ obs n x + N).det ≠ 0 :=
    Kriging.det_ne_zero (Matrix.PosDef.posSemidef_add (neighbourCov_psd ℓ hℓ obs n x) hpd)
  have hk : (conventionalKout Kout t).shape = [3 * t, 3 * t] := rfl
  unfold convVariance
  simp only [hA, (matT_get hB).1, hk, hm, and_self, if_true, if_neg hd]
  refine ⟨_, rfl, rfl, fun p hp q hq c c' => ?_⟩
  rw [get_ofFn _ _ _ (.cons (flat_lt hp) (.cons (flat_lt hq) .nil))]
  simp only [List.getD_cons_zero, List.getD_cons_succ]
  rw [cross_get ℓ obs n t x z B hB hBv c p hp, cross_get ℓ obs n t x z B hB hBv c' q hq]
  have e : (conventionalKout Kout t).get [c * t + p, c' * t + q] = covariance ℓ c c' (z p) (z p) := by
    unfold conventionalKout
    rw [get_ofFn _ _ _ (.cons (flat_lt hp) (.cons (flat_lt hq) .nil))]
    simp only [List.getD_cons_zero, List.getD_cons_succ, div_aux hp, div_aux hq]
    rw [hO c c (z p), cov_same ℓ hℓ, cov_same ℓ hℓ, if_pos rfl]
    simp only [Fin.ext_iff]
  rw [e]
  unfold jointPosterior
  ring

/-- The conventional mean for the two noise models of `_test/shear.py`. -/
noncomputable def refMean (shearNoise : Bool) (Kin Kcross y : Tensor ℝ) (τ : ℝ) : Res (Tensor ℝ) :=
  if shearNoise then conventionalMean33 Kin Kcross y τ else conventionalMean Kin Kcross y τ

/-- The conventional variance for the two noise models of `_test/shear.py`. -/
noncomputable def refVariance (shearNoise : Bool) (Kin Kcross Kout : Tensor ℝ) (τ : ℝ) : Res (Tensor ℝ) :=
  if shearNoise then conventionalVariance33 Kin Kcross Kout τ else conventionalVariance Kin Kcross Kout τ

/-- What the conventional Gaussian process predicts at the points of `Z` from the observations `Y` at the points of `X`. -/
theorem reference_posterior (k : Kern) (hℓ : 0 < k.lengthScale) (τ : ℝ) (hτ : 0 < τ) (sn : Bool) (X Z Y : Tensor ℝ) (N t : Nat)
    (hX : X.shape = [N, 2]) (hZ : Z.shape = [t, 2]) (hY : Y.shape = [N, 3]) :
    ∃ A B Kout M V, conventionalShear X none k.lengthScale = .ok A ∧ conventionalShear X (some Z) k.lengthScale = .ok B ∧ k.kout = .ok Kout ∧
      refMean sn A (matT B) (flatTargets Y) τ = .ok M ∧ refVariance sn A (matT B) (conventionalKout Kout t) τ = .ok V ∧
      M.shape = [t, 3] ∧ V.shape = [3 * t, 3 * t] ∧
      (∀ p < t, ∀ c : Fin 3, M.get [p, c] = Spec.krigingMean (neighbourCov k.lengthScale id N (planePt X) + (noiseOf N τ sn).2)
        (fun i => queryCov k.lengthScale id N (planePt X) (planePt Z p) i c) (nbrObs 3 N Y id)) ∧
      ∀ p < t, ∀ q < t, ∀ c c' : Fin 3, V.get [c * t + p, c' * t + q] =
        jointPosterior k.lengthScale id N (noiseOf N τ sn).2 (planePt X) (planePt Z p) (planePt Z q) c c' +
          (covariance k.lengthScale c c' (planePt Z p) (planePt Z p) - covariance k.lengthScale c c' (planePt Z p) (planePt Z q)) := by
  obtain ⟨-, A, a1, a2, a3⟩ := C98_covariance X X N N hX hX k.lengthScale hℓ.ne'
  obtain ⟨-, B, b1, b2, b3⟩ := C98_covariance X Z N t hX hZ k.lengthScale hℓ.ne'
  obtain ⟨Kout, o1, -, -, o2, -⟩ := C48_kout k hℓ.ne'
  obtain ⟨y1, y2⟩ := flatTargets_get hY
  have hpd := noiseOf_posdef N hτ sn
  have hmod : 3 * N % 3 = 0 := by omega
  have main : ∀ nug : Nat → ℝ, (Matrix.diagonal fun i : Fin (3 * N) => nug i) = (noiseOf N τ sn).2 →
      (∀ Kc y, refMean sn A Kc y τ = convMean nug A Kc y) → (∀ Kc K, refVariance sn A Kc K τ = convVariance nug A Kc K) →
      ∃ A B Kout M V, conventionalShear X none k.lengthScale = .ok A ∧ conventionalShear X (some Z) k.lengthScale = .ok B ∧ k.kout = .ok Kout ∧
      refMean sn A (matT B) (flatTargets Y) τ = .ok M ∧ refVariance sn A (matT B) (conventionalKout Kout t) τ = .ok V ∧
      M.shape = [t, 3] ∧ V.shape = [3 * t, 3 * t] ∧
      (∀ p < t, ∀ c : Fin 3, M.get [p, c] = Spec.krigingMean (neighbourCov k.lengthScale id N (planePt X) + (noiseOf N τ sn).2)
        (fun i => queryCov k.lengthScale id N (planePt X) (planePt Z p) i c) (nbrObs 3 N Y id)) ∧
      ∀ p < t, ∀ q < t, ∀ c c' : Fin 3, V.get [c * t + p, c' * t + q] =
        jointPosterior k.lengthScale id N (noiseOf N τ sn).2 (planePt X) (planePt Z p) (planePt Z q) c c' +
          (covariance k.lengthScale c c' (planePt Z p) (planePt Z p) - covariance k.lengthScale c c' (planePt Z p) (planePt Z q)) :=
    fun nug hnug e1 e2 => by
      obtain ⟨M, m1, m2, m3⟩ := mean_core k.lengthScale hℓ id N t (planePt X) (planePt Z) A B (flatTargets Y) (nbrObs 3 N Y id) a2
        (fun a c i hi j hj => a3 a c i hi j hj) b2 (fun a c i hi p hp => b3 a c i hi p hp) y1 y2 nug _ hnug hpd
      obtain ⟨V, v1, v2, v3⟩ := variance_core k.lengthScale hℓ id N t (planePt X) (planePt Z) A B Kout a2
        (fun a c i hi j hj => a3 a c i hi j hj) b2 (fun a c i hi p hp => b3 a c i hi p hp) o2 nug _ hnug hpd
      exact ⟨A, B, Kout, M, V, a1, b1, o1, (e1 _ _).trans m1, (e2 _ _).trans v1, m2, v2, m3, v3⟩
  cases sn
  · exact main (fun _ => τ) (nugget_homoscedastic _ τ) (fun _ _ => rfl) fun _ _ => rfl
  · refine main (nugget33 (3 * N) τ) (nugget_shear N τ) (fun _ _ => ?_) fun _ _ => ?_
    · unfold refMean conventionalMean33
      simp only [if_true, a2, hmod]
    · unfold refVariance conventionalVariance33
      simp only [if_true, a2, hmod]

/-! ## the library with all points as neighbours -/

/-- Reordering the points, observable by observable. -/
def reorder {n : Nat} (o : Nat) (π : Equiv.Perm (Fin n)) : Equiv.Perm (Fin (o * n)) :=
  finProdFinEquiv.symm.trans ((Equiv.prodCongr (Equiv.refl _) π).trans finProdFinEquiv)

theorem reorder_val {n o : Nat} (π : Equiv.Perm (Fin n)) (i : Fin (o * n)) :
    obsOf (reorder o π i) = obsOf i ∧ ((reorder o π i : Fin (o * n)) : Nat) % n = π ⟨i % n, mod_lt_of i⟩ := by
  have h : ((reorder o π i : Fin (o * n)) : Nat) = (π ⟨i % n, mod_lt_of i⟩ : Nat) + n * (i / n) := by
    unfold reorder
    simp [finProdFinEquiv, Fin.divNat, Fin.modNat]
  have hlt : (π ⟨i % n, mod_lt_of i⟩ : Nat) < n := (π _).2
  refine ⟨Fin.ext ?_, ?_⟩
  · show ((reorder o π i : Fin (o * n)) : Nat) / n = i / n
    rw [h, Nat.add_mul_div_left _ _ (lt_of_le_of_lt (Nat.zero_le _) hlt), Nat.div_eq_of_lt hlt, zero_add]
  · rw [h, Nat.add_mul_mod_self_left, Nat.mod_eq_of_lt hlt]

theorem solve_reorder {ι : Type*} [Fintype ι] [DecidableEq ι] (e : Equiv.Perm ι) (K : Matrix ι ι ℝ) (u v : ι → ℝ) :
    (u ∘ e) ⬝ᵥ ((K.submatrix e e)⁻¹ *ᵥ (v ∘ e)) = u ⬝ᵥ (K⁻¹ *ᵥ v) := by
  rw [Matrix.inv_submatrix_equiv, Matrix.submatrix_mulVec_equiv]
  simp only [Function.comp_assoc, Equiv.self_comp_symm, Function.comp_id]
  exact Equiv.sum_comp e fun i => u i * (K⁻¹ *ᵥ v) i

theorem cov_reorder {o n : Nat} (ℓ : ℝ) (obs : Fin o → Fin 3) (x x' : Nat → ℝ × ℝ) (π : Equiv.Perm (Fin n)) (hx : ∀ i : Fin n, x' i = x (π i)) :
    neighbourCov ℓ obs n x' = (neighbourCov ℓ obs n x).submatrix (reorder o π) (reorder o π) := by
  ext i j
  obtain ⟨i1, i2⟩ := reorder_val π i
  obtain ⟨j1, j2⟩ := reorder_val π j
  simp only [neighbourCov, Matrix.of_apply, Matrix.submatrix_apply, i1, i2, j1, j2]
  rw [← hx, ← hx]

theorem query_reorder {o n : Nat} (ℓ : ℝ) (obs : Fin o → Fin 3) (x x' : Nat → ℝ × ℝ) (π : Equiv.Perm (Fin n)) (hx : ∀ i : Fin n, x' i = x (π i))
    (z : ℝ × ℝ) (c : Fin 3) :
    (fun i => queryCov ℓ obs n x' z i c) = (fun i => queryCov ℓ obs n x z i c) ∘ reorder o π := by
  funext i
  obtain ⟨i1, i2⟩ := reorder_val π i
  simp only [queryCov, Matrix.of_apply, Function.comp, i1, i2]
  rw [← hx]

theorem noise_reorder {n : Nat} (τ : ℝ) (sn : Bool) (π : Equiv.Perm (Fin n)) :
    (noiseOf n τ sn).2.submatrix (reorder 3 π) (reorder 3 π) = (noiseOf n τ sn).2 := by
  cases sn
  · ext i j
    simp [noiseOf, Matrix.one_apply]
  · ext i j
    simp only [noiseOf, if_true, shearNoiseMat, Matrix.submatrix_apply, Matrix.diagonal_apply, EmbeddingLike.apply_eq_iff_eq, (reorder_val π i).1]

/-- **C98**: with all training points as neighbours of every test point, in any order, the library's shear model predicts exactly what the conventional
Gaussian process of `_test/shear.py` predicts: the same means, and as covariance of the three quantities at each test point the corresponding
entries of the conventional covariance matrix. At least two test and two training points, in different numbers (see C48). -/
theorem C98_library_partial (k : Kern) (hℓ : 0 < k.lengthScale) (τ : ℝ) (hτ : 0 < τ) (sn : Bool) (sk : ScaleKind) (X Z Y : Tensor ℝ) (N t : Nat)
    (hX : X.shape = [N, 2]) (hZ : Z.shape = [t, 2]) (hY : Y.shape = [N, 3]) (ht : t ≠ 1) (hN : N ≠ 1) (htN : t ≠ N)
    (nn : Tensor Int) (hnn : nn.shape = [t, N]) (π : Nat → Equiv.Perm (Fin N)) (hπ : ∀ p < t, ∀ i : Fin N, nn.get [p, i] = ((π p i : Nat) : Int)) :
    ∃ A B Kout M V μ W, conventionalShear X none k.lengthScale = .ok A ∧ conventionalShear X (some Z) k.lengthScale = .ok B ∧ k.kout = .ok Kout ∧
      refMean sn A (matT B) (flatTargets Y) τ = .ok M ∧ refVariance sn A (matT B) (conventionalKout Kout t) τ = .ok V ∧
      shearRegress ⟨k, false, (noiseOf N τ sn).1, 1, sk⟩ (arange t) nn Z X Y = .ok (μ, W) ∧
      M.shape = [t, 3] ∧ μ.shape = [t, 3] ∧ V.shape = [3 * t, 3 * t] ∧ W.shape = [t, 3, 3] ∧
      ∀ p < t, ∀ c : Fin 3, μ.get [p, c] = M.get [p, c] ∧ ∀ c' : Fin 3, W.get [p, c, c'] = V.get [c * t + p, c' * t + p] := by
  obtain ⟨A, B, Kout, M, V, a1, b1, o1, m1, v1, m2, v2, m3, v3⟩ := reference_posterior k hℓ τ hτ sn X Z Y N t hX hZ hY
  have hv : AllValid N nn := by
    intro q hq
    rw [hnn] at hq
    simp only [List.prod_cons, List.prod_nil, mul_one] at hq
    have hN0 : 0 < N := Nat.pos_of_ne_zero fun h => by subst h; simp at hq
    have hp : q / N < t := Nat.div_lt_of_lt_mul (by rwa [Nat.mul_comm])
    have := hπ (q / N) hp ⟨q % N, Nat.mod_lt _ hN0⟩
    rw [Tensor.get2 nn hnn, Nat.div_add_mod'] at this
    rw [this]
    unfold Tensor.validIndex
    have := (π (q / N) ⟨q % N, Nat.mod_lt _ hN0⟩).2
    constructor <;> push_cast <;> omega
  obtain ⟨μ, W, r1, r2, r3, r4⟩ := C87_predict_partial k hℓ τ 1 hτ sn sk (arange t) nn Z X Y t N t N ht hN htN hZ hX hY rfl hnn (arange_valid t) hv
  refine ⟨A, B, Kout, M, V, μ, W, a1, b1, o1, m1, v1, r1, m2, r2, v2, r3, fun p hp c => ?_⟩
  have hz : queryAt Z t (arange t) p = planePt Z p := by
    unfold queryAt
    rw [arange_get]
    exact congrArg (planePt Z) (pointOf_nat t p)
  have hpt : ∀ i : Fin N, pointOf N (nn.get [p, i]) = π p i := fun i => by rw [hπ p hp i]; exact pointOf_nat N _
  have hx : ∀ i : Fin N, nbrAt X N nn p i = planePt X (π p i) := fun i => by unfold nbrAt; rw [hpt]
  have hK : neighbourCov k.lengthScale id N (nbrAt X N nn p) + (noiseOf N τ sn).2 =
      (neighbourCov k.lengthScale id N (planePt X) + (noiseOf N τ sn).2).submatrix (reorder 3 (π p)) (reorder 3 (π p)) := by
    conv_lhs => rw [cov_reorder k.lengthScale id (planePt X) _ (π p) hx, ← noise_reorder τ sn (π p)]
    rfl
  have hobs : (nbrObs 3 N Y fun i => pointOf N (nn.get [p, i])) = nbrObs 3 N Y id ∘ reorder 3 (π p) := by
    funext i
    obtain ⟨i1, i2⟩ := reorder_val (π p) i
    unfold nbrObs
    simp only [Function.comp, i1, i2, id]
    rw [← hpt]
  obtain ⟨g1, g2⟩ := r4 p hp c
  refine ⟨?_, fun c' => ?_⟩
  · rw [g1, m3 p hp c, hz, hK]
    beta_reduce
    rw [hobs, query_reorder k.lengthScale id (planePt X) _ (π p) hx]
    exact solve_reorder _ _ _ _
  · rw [g2 c', v3 p hp p hp c c', hz, one_mul, sub_self, add_zero]
    unfold Spec.krigingCov jointPosterior
    rw [Matrix.sub_apply, hK]
    congr 1
    rw [Matrix.mul_assoc]
    have := solve_reorder (reorder 3 (π p)) (neighbourCov k.lengthScale id N (planePt X) + (noiseOf N τ sn).2)
      (fun i => queryCov k.lengthScale id N (planePt X) (planePt Z p) i c) (fun i => queryCov k.lengthScale id N (planePt X) (planePt Z p) i c')
    rw [← this, ← query_reorder k.lengthScale id (planePt X) _ (π p) hx, ← query_reorder k.lengthScale id (planePt X) _ (π p) hx]
    rfl

end Shear
end MuyGPyS
