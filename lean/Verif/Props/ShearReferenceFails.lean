import Verif.Props.ShearReferencePredict
import Verif.Props.Cholesky

/-!
# C98: two shears only, the joint covariance of several points, synthetic observations
-/

namespace MuyGPyS
namespace Shear
open Py Py.Tensor Matrix

/-- **C98**, two shears: the same for the model that observes the two shears only, against the corresponding blocks of the conventional matrices. -/
theorem C98_library_two_partial (k : Kern) (hℓ : 0 < k.lengthScale) (τ : ℝ) (hτ : 0 < τ) (sk : ScaleKind) (X Z Y : Tensor ℝ) (N t : Nat)
    (hX : X.shape = [N, 2]) (hZ : Z.shape = [t, 2]) (hY : Y.shape = [N, 2]) (ht : t ≠ 1) (hN : N ≠ 1) (htN : t ≠ N)
    (nn : Tensor Int) (hnn : nn.shape = [t, N]) (π : Nat → Equiv.Perm (Fin N)) (hπ : ∀ p < t, ∀ i : Fin N, nn.get [p, i] = ((π p i : Nat) : Int)) :
    ∃ A B Kout M V μ W, conventionalShear X none k.lengthScale = .ok A ∧ conventionalShear X (some Z) k.lengthScale = .ok B ∧ k.kout23 = .ok Kout ∧
      conventionalMean (dropBlock N N A) (matT (dropBlock N 0 B)) (flatTargets Y) τ = .ok M ∧
      conventionalVariance (dropBlock N N A) (matT (dropBlock N 0 B)) (conventionalKout Kout t) τ = .ok V ∧
      shearRegress ⟨k, true, .homoscedastic τ, 1, sk⟩ (arange t) nn Z X Y = .ok (μ, W) ∧
      M.shape = [t, 3] ∧ μ.shape = [t, 3] ∧ V.shape = [3 * t, 3 * t] ∧ W.shape = [t, 3, 3] ∧
      ∀ p < t, ∀ c : Fin 3, μ.get [p, c] = M.get [p, c] ∧ ∀ c' : Fin 3, W.get [p, c, c'] = V.get [c * t + p, c' * t + p] := by
  obtain ⟨-, A, a1, a2, a3⟩ := C98_covariance X X N N hX hX k.lengthScale hℓ.ne'
  obtain ⟨-, B, b1, b2, b3⟩ := C98_covariance X Z N t hX hZ k.lengthScale hℓ.ne'
  obtain ⟨Kout, -, o1, -, o2, -⟩ := C48_kout k hℓ.ne'
  obtain ⟨y1, y2⟩ := flatTargets_get hY
  have hsub : 3 * N - N = 2 * N := by omega
  obtain ⟨d1, d2⟩ := dropBlock_get a2 N N
  obtain ⟨f1, f2⟩ := dropBlock_get b2 N 0
  rw [hsub] at d1 d2 f1 f2
  rw [Nat.sub_zero] at f1 f2
  have hAv : ∀ a c : Fin 2, ∀ i < N, ∀ j < N, (dropBlock N N A).get [a * N + i, c * N + j] =
      covariance k.lengthScale a.succ c.succ (planePt X i) (planePt X j) := fun a c i hi j hj => by
    have ha := a.2
    have hc := c.2
    rw [d2 _ (by nlinarith) _ (by nlinarith), ← a3 a.succ c.succ i hi j hj]
    simp only [Fin.val_succ]
    congr 2
    · ring
    · congr 1; ring
  have hBv : ∀ a : Fin 2, ∀ c : Fin 3, ∀ i < N, ∀ p < t, (dropBlock N 0 B).get [a * N + i, c * t + p] =
      covariance k.lengthScale a.succ c (planePt X i) (planePt Z p) := fun a c i hi p hp => by
    have ha := a.2
    rw [f2 _ (by nlinarith) _ (flat_lt hp), ← b3 a.succ c i hi p hp]
    simp only [Fin.val_succ]
    congr 2
    · ring
    · congr 1; ring
  have hpd : (τ • (1 : Matrix (Fin (2 * N)) (Fin (2 * N)) ℝ)).PosDef := PosDef.one.smul hτ
  obtain ⟨M, m1, m2, m3⟩ := mean_core k.lengthScale hℓ Fin.succ N t (planePt X) (planePt Z) _ _ (flatTargets Y) (nbrObs 2 N Y id) d1
    hAv f1 hBv y1 y2 (fun _ => τ) _ (nugget_homoscedastic _ τ) hpd
  obtain ⟨V, v1, v2, v3⟩ := variance_core k.lengthScale hℓ Fin.succ N t (planePt X) (planePt Z) _ _ Kout d1
    hAv f1 hBv o2 (fun _ => τ) _ (nugget_homoscedastic _ τ) hpd
  have hv : AllValid N nn := by
    intro q hq
    rw [hnn] at hq
    simp only [List.prod_cons, List.prod_nil, mul_one] at hq
    have hN0 : 0 < N := Nat.pos_of_ne_zero fun h => by subst h; simp at hq
    have hp : q / N < t := Nat.div_lt_of_lt_mul (by rwa [Nat.mul_comm])
    have := hπ (q / N) hp ⟨q % N, Nat.mod_lt _ hN0⟩
    rw [Tensor.get2 nn hnn, Nat.div_add_mod'] at this
    rw [this]
    unfold Tensor.validIndex
    have := (π (q / N) ⟨q % N, Nat.mod_lt _ hN0⟩).2
    constructor <;> push_cast <;> omega
  obtain ⟨μ, W, r1, r2, r3, r4⟩ := C87_predict_two_partial k hℓ τ 1 hτ sk (arange t) nn Z X Y t N t N ht hN htN hZ hX hY rfl hnn (arange_valid t) hv
  refine ⟨A, B, Kout, M, V, μ, W, a1, b1, o1, m1, v1, r1, m2, r2, v2, r3, fun p hp c => ?_⟩
  have hz : queryAt Z t (arange t) p = planePt Z p := by
    unfold queryAt
    rw [arange_get]
    exact congrArg (planePt Z) (pointOf_nat t p)
  have hpt : ∀ i : Fin N, pointOf N (nn.get [p, i]) = π p i := fun i => by rw [hπ p hp i]; exact pointOf_nat N _
  have hx : ∀ i : Fin N, nbrAt X N nn p i = planePt X (π p i) := fun i => by unfold nbrAt; rw [hpt]
  have hn : (τ • (1 : Matrix (Fin (2 * N)) (Fin (2 * N)) ℝ)).submatrix (reorder 2 (π p)) (reorder 2 (π p)) = τ • 1 := by
    ext i j
    simp [Matrix.one_apply]
  have hK : neighbourCov k.lengthScale Fin.succ N (nbrAt X N nn p) + τ • (1 : Matrix (Fin (2 * N)) (Fin (2 * N)) ℝ) =
      (neighbourCov k.lengthScale Fin.succ N (planePt X) + τ • (1 : Matrix (Fin (2 * N)) (Fin (2 * N)) ℝ)).submatrix
        (reorder 2 (π p)) (reorder 2 (π p)) := by
    conv_lhs => rw [cov_reorder k.lengthScale Fin.succ (planePt X) _ (π p) hx, ← hn]
    rfl
  have hobs : (nbrObs 2 N Y fun i => pointOf N (nn.get [p, i])) = nbrObs 2 N Y id ∘ reorder 2 (π p) := by
    funext i
    obtain ⟨i1, i2⟩ := reorder_val (π p) i
    unfold nbrObs
    simp only [Function.comp, i1, i2, id]
    rw [← hpt]
  obtain ⟨g1, g2⟩ := r4 p hp c
  refine ⟨?_, fun c' => ?_⟩
  · rw [g1, m3 p hp c, hz, hK]
    beta_reduce
    rw [hobs, query_reorder k.lengthScale Fin.succ (planePt X) _ (π p) hx]
    exact solve_reorder _ _ _ _
  · rw [g2 c', v3 p hp p hp c c', hz, one_mul, sub_self, add_zero]
    unfold Spec.krigingCov jointPosterior
    rw [Matrix.sub_apply, hK]
    congr 1
    rw [Matrix.mul_assoc]
    have := solve_reorder (reorder 2 (π p)) (neighbourCov k.lengthScale Fin.succ N (planePt X) + τ • (1 : Matrix (Fin (2 * N)) (Fin (2 * N)) ℝ))
      (fun i => queryCov k.lengthScale Fin.succ N (planePt X) (planePt Z p) i c)
      (fun i => queryCov k.lengthScale Fin.succ N (planePt X) (planePt Z p) i c')
    rw [← this, ← query_reorder k.lengthScale Fin.succ (planePt X) _ (π p) hx, ← query_reorder k.lengthScale Fin.succ (planePt X) _ (π p) hx]
    rfl

/-! ## the joint covariance of several test points -/

/-- `(8 - 8s + s²) exp (-s/2) < 8` for positive `s`. -/
theorem convergence_decays {s : ℝ} (hs : 0 < s) : (8 - 8 * s + s ^ 2) * Real.exp (-s / 2) < 8 := by
  have h1 : 1 + s / 2 + (s / 2) ^ 2 / 2 ≤ Real.exp (s / 2) := Real.quadratic_le_exp_of_nonneg (by positivity)
  have h2 : 0 < Real.exp (s / 2) := Real.exp_pos _
  have h3 : Real.exp (-s / 2) = (Real.exp (s / 2))⁻¹ := by rw [← Real.exp_neg]; congr 1; ring
  rw [h3, ← div_eq_mul_inv, div_lt_iff₀ h2]
  nlinarith

/-- The convergences of different points are less correlated than equal ones. -/
theorem convergence_less {ℓ : ℝ} (hℓ : 0 < ℓ) {s t : ℝ × ℝ} (h : s ≠ t) : covariance ℓ 0 0 s t < covariance ℓ 0 0 s s := by
  rw [← kernelF_covariance ℓ hℓ.ne', ← kernelF_covariance ℓ hℓ.ne']
  simp only [shearKernelF, kkF, Fin.val_zero]
  set S : ℝ := (s.1 - t.1) ^ 2 + (s.2 - t.2) ^ 2 with hS
  have hpos : 0 < S := by
    rcases eq_or_ne s.1 t.1 with h1 | h1
    · have h2 : s.2 ≠ t.2 := fun h2 => h (Prod.ext h1 h2)
      have := sq_pos_of_ne_zero (sub_ne_zero.2 h2)
      have := sq_nonneg (s.1 - t.1)
      rw [hS]; linarith
    · have := sq_pos_of_ne_zero (sub_ne_zero.2 h1)
      have := sq_nonneg (s.2 - t.2)
      rw [hS]; linarith
  have hd := convergence_decays (div_pos hpos hℓ)
  have he : -S / (2 * ℓ) = -(S / ℓ) / 2 := by field_simp
  rw [he]
  set E := Real.exp (-(S / ℓ) / 2) with hE
  have e1 : 8 * ℓ ^ 2 - 8 * ℓ * S + (s.1 - t.1) ^ 4 + 2 * (s.1 - t.1) ^ 2 * (s.2 - t.2) ^ 2 + (s.2 - t.2) ^ 4 =
      ℓ ^ 2 * (8 - 8 * (S / ℓ) + (S / ℓ) ^ 2) := by
    have : S ^ 2 = (s.1 - t.1) ^ 4 + 2 * (s.1 - t.1) ^ 2 * (s.2 - t.2) ^ 2 + (s.2 - t.2) ^ 4 := by rw [hS]; ring
    field_simp
    linarith
  rw [e1]
  simp only [sub_self, ne_eq, OfNat.ofNat_ne_zero, not_false_eq_true, zero_pow, add_zero, mul_zero, sub_zero, neg_zero, zero_div, Real.exp_zero,
    mul_one, one_mul]
  have : 0 < ℓ ^ 4 := by positivity
  have h4 : ℓ ^ 2 * (8 - 8 * (S / ℓ) + (S / ℓ) ^ 2) * E / ℓ ^ 4 < 8 * ℓ ^ 2 / ℓ ^ 4 := by
    refine div_lt_div_of_pos_right ?_ this
    have : 0 < ℓ ^ 2 := by positivity
    have h5 := mul_lt_mul_of_pos_left hd this
    linarith
  linarith

/-- **C98** is false of the joint covariance of several test points: `conventional_Kout` fills whole blocks with the variance of a single point, so that
the entry of `conventional_variance` for the convergences at two different test points always exceeds their posterior covariance. The
repository's tests use the same matrix on both sides and cannot see it. -/
theorem C98_joint_covariance_fails (k : Kern) (hℓ : 0 < k.lengthScale) (τ : ℝ) (hτ : 0 < τ) (sn : Bool) (X Z Y : Tensor ℝ) (N t : Nat)
    (hX : X.shape = [N, 2]) (hZ : Z.shape = [t, 2]) (hY : Y.shape = [N, 3]) (p q : Nat) (hp : p < t) (hq : q < t)
    (hpq : planePt Z p ≠ planePt Z q) :
    ∃ A B Kout V, conventionalShear X none k.lengthScale = .ok A ∧ conventionalShear X (some Z) k.lengthScale = .ok B ∧ k.kout = .ok Kout ∧
      refVariance sn A (matT B) (conventionalKout Kout t) τ = .ok V ∧
      jointPosterior k.lengthScale id N (noiseOf N τ sn).2 (planePt X) (planePt Z p) (planePt Z q) 0 0 < V.get [p, q] := by
  obtain ⟨A, B, Kout, M, V, a1, b1, o1, m1, v1, m2, v2, m3, v3⟩ := reference_posterior k hℓ τ hτ sn X Z Y N t hX hZ hY
  refine ⟨A, B, Kout, V, a1, b1, o1, v1, ?_⟩
  have h := v3 p hp q hq 0 0
  simp only [Fin.val_zero, zero_mul, zero_add] at h
  rw [h]
  have := convergence_less hℓ hpq
  linarith

/-! ## synthetic observations -/

open MeasureTheory ProbabilityTheory Sampler

/-- **C98**, synthetic observations: `targets_from_GP` draws, at `n²` points of the plane, convergences and shears with the covariances of the derivatives of
the Gaussian potential, plus independent noise of variance `noise`: jointly Gaussian and centred. -/
theorem C98_targets (X : Tensor ℝ) (n : Nat) (hX : X.shape = [n ^ 2, 2]) (ls noise : ℝ) (hls : 0 < ls) (hnoise : 0 < noise)
    {Ω : Type*} [MeasurableSpace Ω] (P : Measure Ω) (e : Ω → Nat → ℝ) (he : StandardNormals P (3 * n ^ 2) 0 e e) :
    ∃ Y : Ω → Tensor ℝ, (∀ ω, targetsFromGP X n ls noise (e ω) = .ok (Y ω) ∧ (Y ω).shape = [n ^ 2, 3]) ∧
      HasGaussianLaw (fun ω => fun u : Fin (n ^ 2) × Fin 3 => (Y ω).get [u.1, u.2]) P ∧
      (∀ (i : Fin (n ^ 2)) (a : Fin 3), ∫ ω, (Y ω).get [i, a] ∂P = 0) ∧
      ∀ (i j : Fin (n ^ 2)) (a c : Fin 3), cov[fun ω => (Y ω).get [i, a], fun ω => (Y ω).get [j, c]; P] =
        covariance ls a c (planePt X i) (planePt X j) + if i = j ∧ a = c then noise else 0 := by
  set N := n ^ 2 with hN
  obtain ⟨D, d1, d2, d3⟩ := pairwiseVector_plane hX
  obtain ⟨K, F, k1, k2, k3, k4⟩ := assemble_flat 3 3 (block33 ls) ls N N D d2
  set A : Tensor ℝ := ⟨[3 * N, 3 * N], fun k => 1 * F.flat k + noise * eye (k / (3 * N)) (k % (3 * N))⟩ with hA
  have hF : ∀ i j : Fin (3 * N), F.get [i, j] = neighbourCov ls id N (planePt X) i j := fun i j => by
    have h := k4 (obsOf i) (obsOf i).2 (i % N) (mod_lt_of i) (obsOf j) (obsOf j).2 (j % N) (mod_lt_of j)
    have e : ∀ i : Fin (3 * N), ((obsOf i : Fin 3) : Nat) * N + (i : Nat) % N = i := fun i => Nat.div_add_mod' _ _
    rw [e, e] at h
    rw [h]
    exact block33_covariance _ hls.ne' _ _ _ _ _ (d3 _ (mod_lt_of i) _ (mod_lt_of j)).1 (d3 _ (mod_lt_of i) _ (mod_lt_of j)).2
  set C : Matrix (Fin (3 * N)) (Fin (3 * N)) ℝ := neighbourCov ls id N (planePt X) + noise • 1 with hC
  have hget : ∀ i j : Fin (3 * N), A.get [i, j] = C i j := fun i j => by
    rw [Tensor.get2 A rfl]
    show 1 * F.flat (i * (3 * N) + j) + noise * eye ((i * (3 * N) + j) / (3 * N)) ((i * (3 * N) + j) % (3 * N)) = _
    rw [Tensor.div_aux j.2, Tensor.mod_aux j.2, one_mul, ← Tensor.get2 F k3, hF, hC, Matrix.add_apply, Matrix.smul_apply, Matrix.one_apply]
    unfold eye
    simp only [Fin.ext_iff, smul_eq_mul]
  have hpd : C.PosDef := Matrix.PosDef.posSemidef_add (neighbourCov_psd ls hls id N (planePt X)) (PosDef.one.smul hnoise)
  have hsym : ∀ i j, C i j = C j i := fun i j => by
    have := hpd.isHermitian.apply i j
    simpa using this.symm
  have hlow : (Matrix.of fun i j : Fin (3 * N) => A.get [max (i : Nat) j, min (i : Nat) j]) = C := by
    ext i j
    simp only [Matrix.of_apply]
    rcases le_total (i : Nat) j with h | h
    · rw [max_eq_right h, min_eq_left h, hget j i, hsym]
    · rw [max_eq_left h, min_eq_right h, hget i j]
  have hex := cholesky_exists hpd
  obtain ⟨L, l1, l2⟩ : ∃ L : Tensor ℝ, cholesky A = .ok L ∧ IsCholesky C (Matrix.of fun i j : Fin (3 * N) => L.get [i, j]) := by
    unfold cholesky
    simp only [hA, if_true]
    rw [hlow, dif_pos hex]
    refine ⟨_, rfl, ?_⟩
    have : (Matrix.of fun i j : Fin (3 * N) => (⟨[3 * N, 3 * N], fun k => if hk : k / (3 * N) < 3 * N ∧ k % (3 * N) < 3 * N then
        (hex.choose : Matrix (Fin (3 * N)) (Fin (3 * N)) ℝ) ⟨k / (3 * N), hk.1⟩ ⟨k % (3 * N), hk.2⟩ else 0⟩ :
        Tensor ℝ).get [(i : Nat), (j : Nat)]) = hex.choose := by
      ext i j
      rw [Matrix.of_apply, Tensor.get2 _ rfl]
      simp only [Tensor.div_aux j.2, Tensor.mod_aux j.2]
      rw [dif_pos ⟨i.2, j.2⟩]
    rw [this]
    exact hex.choose_spec
  have hrun : ∀ ω, targetsFromGP X n ls noise (e ω) = .ok (Tensor.ofFn [N, 3] fun q =>
      ∑ j ∈ Finset.range (3 * N), L.get [q.getD 1 0 * N + q.getD 0 0, j] * e ω j) := fun ω => by
    unfold targetsFromGP Kern.call33
    have k1' : shear33 D ls = .ok K := k1
    simp only [hX, d1, bind, Except.bind, Bool.false_eq_true, if_false, Option.getD_none, k1', ← hN, k2, ← hA, l1]
    rfl
  have hval : ∀ ω (u : Fin N × Fin 3), (Tensor.ofFn [N, 3] fun q =>
      ∑ j ∈ Finset.range (3 * N), L.get [q.getD 1 0 * N + q.getD 0 0, j] * e ω j).get [u.1, u.2] =
      ∑ j : Fin (3 * N), L.get [(u.2 : Nat) * N + u.1, j] * e ω j := fun ω u => by
    rw [get_ofFn _ _ _ (.cons u.1.2 (.cons u.2.2 .nil))]
    simp only [List.getD_cons_zero, List.getD_cons_succ]
    rw [Finset.sum_range]
  refine ⟨_, fun ω => ⟨hrun ω, rfl⟩, ?_⟩
  let B : Fin N × Fin 3 → Fin (3 * N) ⊕ Fin 0 → ℝ := fun u v =>
    match v with
    | .inl j => L.get [(u.2 : Nat) * N + u.1, j]
    | .inr _ => 0
  obtain ⟨g1, g2, g3⟩ := Sampler.combination he B (fun u ω => (Tensor.ofFn [N, 3] fun q =>
      ∑ j ∈ Finset.range (3 * N), L.get [q.getD 1 0 * N + q.getD 0 0, j] * e ω j).get [u.1, u.2]) (fun u ω => by
    rw [hval]
    simp [B])
  refine ⟨g1, fun i a => g2 (i, a), fun i j a c => (g3 (i, a) (j, c)).trans ?_⟩
  rw [Fintype.sum_sum_type]
  simp only [B, Finset.univ_eq_empty, Finset.sum_empty, add_zero]
  have hLL := congrFun (congrFun l2.2.2 ⟨a * N + i, flat_lt i.2⟩) ⟨c * N + j, flat_lt j.2⟩
  rw [Matrix.mul_apply] at hLL
  simp only [Matrix.of_apply, Matrix.transpose_apply] at hLL
  rw [hLL, hC, Matrix.add_apply, Matrix.smul_apply, Matrix.one_apply]
  unfold neighbourCov obsOf
  simp only [Matrix.of_apply, id, Tensor.div_aux i.2, Tensor.div_aux j.2, Tensor.mod_aux i.2, Tensor.mod_aux j.2, Fin.eta, smul_eq_mul, mul_ite,
    mul_one, mul_zero, Fin.mk.injEq]
  congr 1
  refine if_congr ⟨fun h => ?_, fun h => by rw [h.1, h.2]⟩ rfl rfl
  have h1 := congrArg (· % N) h
  have h2 := congrArg (· / N) h
  simp only [Tensor.div_aux i.2, Tensor.div_aux j.2, Tensor.mod_aux i.2, Tensor.mod_aux j.2] at h1 h2
  exact ⟨Fin.ext h1, Fin.ext h2⟩

/-- **C98** is false when the number of points is not the square of the argument `n`: nothing is drawn (`ValueError`). -/
theorem C98_targets_count_fails (X : Tensor ℝ) (N n : Nat) (hX : X.shape = [N, 2]) (hn : N ≠ n ^ 2) (ls noise : ℝ) (e : Nat → ℝ) :
    targetsFromGP X n ls noise e = .error .value := by
  obtain ⟨D, d1, d2, d3⟩ := pairwiseVector_plane hX
  obtain ⟨U, h1, h2, -⟩ := assemble_ok 3 3 (block33 ls) ls [] N N 2 (le_refl _) D d2
  have h1' : shear33 D ls = .ok U.squeeze := h1
  have hr : U.squeeze.reshape [3 * n ^ 2, 3 * n ^ 2] = .error .value := by
    refine reshape_err _ _ ?_
    show _ ≠ (U.shape.filter (· ≠ 1)).prod
    rw [filter_ne_one_prod, h2]
    simp only [List.nil_append, List.prod_cons, List.prod_nil]
    intro h
    have : (n ^ 2) ^ 2 = N ^ 2 := by nlinarith
    exact hn (Nat.pow_left_injective (n := 2) (by omega) this).symm
  unfold targetsFromGP Kern.call33
  simp only [hX, d1, bind, Except.bind, Bool.false_eq_true, if_false, Option.getD_none, h1', hr]

end Shear
end MuyGPyS
