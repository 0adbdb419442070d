import Verif.Spec.FreeSmoothness
import Verif.Props.InexactDistances
import Verif.Props.BayesMore
import Verif.Props.ErrorBound
import Verif.Props.Dense

/-! # C118: what a free smoothness costs -/

namespace MuyGPyS
open Py Matrix

theorem deficit_pos {ν : ℝ} (hν : 0 < ν) : 0 < deficit ν := by
  have := ((C62_correlation ν hν).1 machEps machEps_pos).2
  unfold deficit
  linarith

theorem maternProcess_comm (ν : ℝ) {f : Nat} (len x y : Fin f → ℝ) : maternProcess ν len x y = maternProcess ν len y x := by
  unfold maternProcess
  rw [distOf_comm]
  by_cases h : x = y
  · rw [if_pos h, if_pos h.symm]
  · rw [if_neg h, if_neg (Ne.symm h)]

theorem maternProcess_self (ν : ℝ) {f : Nat} (len x : Fin f → ℝ) : maternProcess ν len x x = 1 := if_pos rfl

theorem maternProcess_range {ν : ℝ} (hν : 0 < ν) {f : Nat} (len : Fin f → ℝ) (hlen : ∀ c, 0 < len c) (x y : Fin f → ℝ) :
    0 < maternProcess ν len x y ∧ maternProcess ν len x y ≤ 1 := by
  unfold maternProcess
  split
  · exact ⟨one_pos, le_rfl⟩
  · rename_i h
    have hd : 0 < distOf .l2 (fun c => x c / len c) (fun c => y c / len c) := by
      refine lt_of_le_of_ne (C17_metrics _ _ (fun c => x c / len c)).2.1 fun h' => h ?_
      have := (C17_metrics _ _ (fun c => x c / len c)).2.2.1.mp h'.symm
      funext c
      exact (div_left_inj' (hlen c).ne').mp (congrFun this c)
    have := (C62_correlation ν hν).1 _ hd
    exact ⟨this.1, this.2.le⟩

/-- The correlations of the Matérn process among the neighbours of test point `p`. -/
noncomputable def trueCov (ν : ℝ) (w : NNWrapper) (len : Fin w.f → ℝ) (nn : Tensor Int) (p : Nat) : Matrix (Fin w.nnCount) (Fin w.nnCount) ℝ :=
  Matrix.of fun i j => maternProcess ν len (rowPt w.train w.f (pointOf w.N (nn.get [p, i]))) (rowPt w.train w.f (pointOf w.N (nn.get [p, j])))

/-- The correlations of the Matérn process between `q` and the neighbours of test point `p`. -/
noncomputable def trueCross (ν : ℝ) (w : NNWrapper) (len : Fin w.f → ℝ) (nn : Tensor Int) (p : Nat) (q : Fin w.f → ℝ) : Fin w.nnCount → ℝ :=
  fun j => maternProcess ν len q (rowPt w.train w.f (pointOf w.N (nn.get [p, j])))

theorem trueCov_psd {ν : ℝ} (hν : 0 < ν) (w : NNWrapper) (len : Fin w.f → ℝ) (hlen : ∀ c, 0 < len c) (nn : Tensor Int) (p : Nat) :
    (trueCov ν w len nn p).PosSemidef := maternProcess_psd hν len hlen _

theorem trueJoint_psd {ν : ℝ} (hν : 0 < ν) (w : NNWrapper) (len : Fin w.f → ℝ) (hlen : ∀ c, 0 < len c) (nn : Tensor Int) (p : Nat)
    (q : Fin w.f → ℝ) : (Kriging.joint (trueCov ν w len nn p) (trueCross ν w len nn p q) 1).PosSemidef := by
  have := maternProcess_psd hν len hlen
    (Sum.elim (fun j : Fin w.nnCount => rowPt w.train w.f (pointOf w.N (nn.get [p, j]))) fun _ : Unit => q)
  convert this using 1
  ext i j
  rcases i with i | i <;> rcases j with j | j <;>
    simp [Kriging.joint, trueCov, trueCross, maternProcess_self, maternProcess_comm ν len q, Matrix.fromBlocks]

/-- `C118_true_process`, and the covariances the implementation uses. -/
theorem gen_uniform (R : Regressor) (w : NNWrapper) (hw : w.Exact) (Q : Tensor ℝ) (m : Nat) (ν τ σ : ℝ) (len : Fin w.f → ℝ)
    (hR : R.GeneralMatern ν len τ σ) (hν : 0 < ν) (hτ : deficit ν < τ) (hQ : Q.shape = [m, w.f]) (hm : 0 < m) (hk0 : 0 < w.nnCount)
    (hkN : w.nnCount ≤ w.N) (hd : DistinctRows w.train w.N w.f) (hnew : w.New Q m) :
    ∃ nn : Tensor Int, (∃ D, w.getNns Q = .ok (nn, D)) ∧ (∀ i < m, ∃ l : List Nat, rowList nn w.nnCount i = l.map Int.ofNat ∧
        Nearest (· < w.N) (fun j => w.dist (rowPt Q w.f i) (rowPt w.train w.f j)) w.nnCount l) ∧
      (∀ p < m, ∀ j < w.nnCount, pointOf w.N (nn.get [p, j]) < w.N) ∧
      (∀ p < m, nbrCov maternGen R.kernel len w.train w.N w.nnCount nn p + τ • (1 : Matrix (Fin w.nnCount) (Fin w.nnCount) ℝ) =
          trueCov ν w len nn p + (τ - deficit ν) • (1 : Matrix (Fin w.nnCount) (Fin w.nnCount) ℝ) ∧
        nbrCross maternGen R.kernel len w.train w.N w.nnCount nn p (rowPt Q w.f p) = trueCross ν w len nn p (rowPt Q w.f p)) ∧
      ∀ Y : Tensor ℝ, Y.shape = [w.N] → ∃ μ v, regressAny maternGen R w Q w.train Y = .ok (μ, v) ∧ μ.shape = [m] ∧ v.shape = [m] ∧
        ∀ p < m,
          μ.get [p] = Spec.krigingMean (trueCov ν w len nn p + (τ - deficit ν) • (1 : Matrix (Fin w.nnCount) (Fin w.nnCount) ℝ))
            (trueCross ν w len nn p (rowPt Q w.f p)) (nbrTargets Y w.N w.nnCount nn p 0) ∧
          v.get [p] = σ * Spec.krigingVar 1 (trueCov ν w len nn p + (τ - deficit ν) • (1 : Matrix (Fin w.nnCount) (Fin w.nnCount) ℝ))
            (trueCross ν w len nn p (rowPt Q w.f p)) := by
  obtain ⟨q, hsm, hq⟩ := hR.smooth
  have hpos := hasLengths_pos hR.lengths
  obtain ⟨nn, D, hD, -, h1, h2, h3⟩ := regress_cases_nns maternGen R hR.made hR.kout w hw Q m len hR.lengths hQ hm hk0 hkN
    (by rw [hR.noise]; trivial)
  have hrow : ∀ x, pt w.train w.f x = rowPt w.train w.f x := rowPt_pt hw.1
  have hcov := gen_covFn R.kernel hR.fn hR.metric q ν hsm hq len hpos
  have hmat : ∀ p < m, nbrCov maternGen R.kernel len w.train w.N w.nnCount nn p + τ • (1 : Matrix (Fin w.nnCount) (Fin w.nnCount) ℝ) =
      trueCov ν w len nn p + (τ - deficit ν) • (1 : Matrix (Fin w.nnCount) (Fin w.nnCount) ℝ) := fun p hp => by
    obtain ⟨l, e1, e2⟩ := h1 p hp
    have hdn := distinct_of_nodup e1 e2.nodup e2.mem hd
    ext i j
    simp only [Matrix.add_apply, Matrix.smul_apply, Matrix.one_apply, smul_eq_mul, trueCov, nbrCov, Matrix.of_apply, hrow]
    by_cases hij : i = j
    · subst hij
      rw [if_pos rfl, (hcov _ (rowPt w.train w.f (pointOf w.N (nn.get [p, i])))).2, maternProcess_self]
      ring
    · have hne : rowPt w.train w.f (pointOf w.N (nn.get [p, i])) ≠ rowPt w.train w.f (pointOf w.N (nn.get [p, j])) := fun hh => by
        obtain ⟨c, hc, hx⟩ := hdn i j hij
        refine hx ?_
        have := congrFun hh ⟨c, hc⟩
        rw [← hrow, ← hrow] at this
        exact this
      rw [if_neg hij, (hcov _ _).1 hne, mul_zero, mul_zero]
  have hvec : ∀ p < m, nbrCross maternGen R.kernel len w.train w.N w.nnCount nn p (rowPt Q w.f p) = trueCross ν w len nn p (rowPt Q w.f p) :=
    fun p hp => by
      ext j
      simp only [nbrCross, trueCross, hrow]
      exact (hcov _ _).1 (hnew p hp _ (h2 p hp j j.2))
  have hno : ∀ p, R.gp.noise.mat w.nnCount p = τ • (1 : Matrix (Fin w.nnCount) (Fin w.nnCount) ℝ) := fun p => by rw [hR.noise]; rfl
  refine ⟨nn, ⟨D, hD⟩, h1, h2, fun p hp => ⟨hmat p hp, hvec p hp⟩, fun Y hY => ?_⟩
  rcases h3 Y hY with ⟨⟨p, hp, hdet⟩, -⟩ | ⟨-, μ, v, r1, r2, r3, r4⟩
  · rw [hno, hmat p hp] at hdet
    exact absurd hdet (Kriging.det_ne_zero (Kriging.posdef_of_psd_add (trueCov_psd hν w len hpos nn p) (by linarith)))
  · refine ⟨μ, v, r1, r2, r3, fun p hp => ?_⟩
    have := r4 p hp
    rwa [hno, hmat p hp, hvec p hp, hR.scale] at this

/-- **C118**: at new test points, for different training points and a noise variance `τ` above the deficit of the general Matérn implementation, a
model with that implementation predicts the exact Gaussian process with the true Matérn correlations — with noise variance `τ - deficit`. -/
theorem C118_true_process (R : Regressor) (w : NNWrapper) (hw : w.Exact) (Q : Tensor ℝ) (m : Nat) (ν τ σ : ℝ) (len : Fin w.f → ℝ)
    (hR : R.GeneralMatern ν len τ σ) (hν : 0 < ν) (hτ : deficit ν < τ) (hQ : Q.shape = [m, w.f]) (hm : 0 < m) (hk0 : 0 < w.nnCount)
    (hkN : w.nnCount ≤ w.N) (hd : DistinctRows w.train w.N w.f) (hnew : w.New Q m) :
    ∃ nn : Tensor Int, (∀ i < m, ∃ l : List Nat, rowList nn w.nnCount i = l.map Int.ofNat ∧
        Nearest (· < w.N) (fun j => w.dist (rowPt Q w.f i) (rowPt w.train w.f j)) w.nnCount l) ∧
      (∀ p < m, ∀ j < w.nnCount, pointOf w.N (nn.get [p, j]) < w.N) ∧
      ∀ Y : Tensor ℝ, Y.shape = [w.N] → ∃ μ v, regressAny maternGen R w Q w.train Y = .ok (μ, v) ∧ μ.shape = [m] ∧ v.shape = [m] ∧
        ∀ p < m,
          μ.get [p] = Spec.krigingMean (trueCov ν w len nn p + (τ - deficit ν) • (1 : Matrix (Fin w.nnCount) (Fin w.nnCount) ℝ))
            (trueCross ν w len nn p (rowPt Q w.f p)) (nbrTargets Y w.N w.nnCount nn p 0) ∧
          v.get [p] = σ * Spec.krigingVar 1 (trueCov ν w len nn p + (τ - deficit ν) • (1 : Matrix (Fin w.nnCount) (Fin w.nnCount) ℝ))
            (trueCross ν w len nn p (rowPt Q w.f p)) := by
  obtain ⟨nn, -, h1, h2, -, h3⟩ := gen_uniform R w hw Q m ν τ σ len hR hν hτ hQ hm hk0 hkN hd hnew
  exact ⟨nn, h1, h2, h3⟩

/-- **C118**: reported variances are between the variance of `nn_count` measurements at the test point itself and the variance of the process. -/
theorem C118_variance (R : Regressor) (w : NNWrapper) (hw : w.Exact) (Q Y : Tensor ℝ) (m : Nat) (ν τ σ : ℝ) (len : Fin w.f → ℝ)
    (hR : R.GeneralMatern ν len τ σ) (hν : 0 < ν) (hτ : deficit ν < τ) (hσ : 0 ≤ σ) (hQ : Q.shape = [m, w.f]) (hY : Y.shape = [w.N])
    (hm : 0 < m) (hk0 : 0 < w.nnCount) (hkN : w.nnCount ≤ w.N) (hd : DistinctRows w.train w.N w.f) (hnew : w.New Q m) :
    ∃ μ v, regressAny maternGen R w Q w.train Y = .ok (μ, v) ∧ μ.shape = [m] ∧ v.shape = [m] ∧
      ∀ p < m, σ * ((τ - deficit ν) / (w.nnCount + (τ - deficit ν))) ≤ v.get [p] ∧ v.get [p] ≤ σ := by
  obtain ⟨nn, -, -, h⟩ := C118_true_process R w hw Q m ν τ σ len hR hν hτ hQ hm hk0 hkN hd hnew
  obtain ⟨μ, v, r1, r2, r3, r4⟩ := h Y hY
  refine ⟨μ, v, r1, r2, r3, fun p hp => ?_⟩
  have hpos := hasLengths_pos hR.lengths
  have hK := trueCov_psd hν w len hpos nn p
  rw [(r4 p hp).2]
  constructor
  · refine mul_le_mul_of_nonneg_left (kriging_floor (trueJoint_psd hν w len hpos nn p _) hK (by linarith) fun j => ?_) hσ
    have := maternProcess_range hν len hpos (rowPt Q w.f p) (rowPt w.train w.f (pointOf w.N (nn.get [p, j])))
    exact (abs_of_pos this.1).trans_le this.2
  · have hpd := Kriging.posdef_of_psd_add hK (τ := τ - deficit ν) (by linarith)
    have := Kriging.quad_nonneg hpd (trueCross ν w len nn p (rowPt Q w.f p))
    unfold Spec.krigingVar
    nlinarith

/-- **C118**: one observation moves a prediction by a bounded amount, with the noise variance reduced by the deficit in the bound (cf. C85). -/
theorem C118_influence (R : Regressor) (w : NNWrapper) (hw : w.Exact) (Q Y Y' : Tensor ℝ) (m : Nat) (ν τ σ : ℝ) (len : Fin w.f → ℝ)
    (hR : R.GeneralMatern ν len τ σ) (hν : 0 < ν) (hτ : deficit ν < τ) (hQ : Q.shape = [m, w.f]) (hY : Y.shape = [w.N]) (hY' : Y'.shape = [w.N])
    (hm : 0 < m) (hk0 : 0 < w.nnCount) (hkN : w.nnCount ≤ w.N) (hd : DistinctRows w.train w.N w.f) (hnew : w.New Q m) :
    ∃ μ v μ' v', regressAny maternGen R w Q w.train Y = .ok (μ, v) ∧ regressAny maternGen R w Q w.train Y' = .ok (μ', v') ∧
      ∀ p < m, v'.get [p] = v.get [p] ∧
        |μ'.get [p] - μ.get [p]| ≤ √(∑ i ∈ w.candidates (rowPt Q w.f p), (Y'.get [i] - Y.get [i]) ^ 2) / (2 * √(τ - deficit ν)) := by
  obtain ⟨nn, h1, -, h⟩ := C118_true_process R w hw Q m ν τ σ len hR hν hτ hQ hm hk0 hkN hd hnew
  obtain ⟨μ, v, r1, -, -, r4⟩ := h Y hY
  obtain ⟨μ', v', s1, -, -, s4⟩ := h Y' hY'
  refine ⟨μ, v, μ', v', r1, s1, fun p hp => ⟨by rw [(r4 p hp).2, (s4 p hp).2], ?_⟩⟩
  obtain ⟨l, e1, e2⟩ := h1 p hp
  have hpos := hasLengths_pos hR.lengths
  rw [(r4 p hp).1, (s4 p hp).1]
  exact kriging_influence (trueJoint_psd hν w len hpos nn p _) (trueCov_psd hν w len hpos nn p) (by linarith) w Q hY hY' e1 e2 rfl

/-- The error of a kriging prediction from noisy values of a function of bounded energy. -/
theorem kriging_noisy_error {X : Type*} {k : X → X → ℝ} (hs : ∀ x y, k x y = k y x) (h1 : ∀ x, k x x = 1) {n : Nat} (x : Fin n → X) (q : X)
    {τ : ℝ} (hτ : 0 < τ) (hK : (Matrix.of fun i j => k (x i) (x j)).PosSemidef)
    (hj : (Kriging.joint (Matrix.of fun i j => k (x i) (x j)) (fun j => k q (x j)) 1).PosSemidef) {E : ℝ} {g : X → ℝ}
    (hg : Spec.EnergyAtMost k E g) {ε : ℝ} {y : Fin n → ℝ} (hy : ∀ j, |y j - g (x j)| ≤ ε) :
    (Spec.krigingMean ((Matrix.of fun i j => k (x i) (x j)) + τ • (1 : Matrix (Fin n) (Fin n) ℝ)) (fun j => k q (x j)) y - g q) ^ 2 ≤
      (E + n * ε ^ 2 / τ) * Spec.krigingVar 1 ((Matrix.of fun i j => k (x i) (x j)) + τ • (1 : Matrix (Fin n) (Fin n) ℝ)) (fun j => k q (x j)) := by
  haveI : Nonempty X := ⟨q⟩
  have hE := energy_nonneg h1 hg
  have hpd := Kriging.posdef_of_psd_add hK hτ
  obtain ⟨hmean, herr⟩ := kriging_error hs x q _ hpd
  have h4 := herr E g hg
  set K := Matrix.of fun i j => k (x i) (x j)
  set A := K + τ • (1 : Matrix (Fin n) (Fin n) ℝ) with hA
  set c := A⁻¹ *ᵥ fun j => k q (x j) with hc
  set V := Spec.krigingVar 1 A (fun j => k q (x j)) with hV
  rw [h1] at h4
  have ec : c ⬝ᵥ ((τ • (1 : Matrix (Fin n) (Fin n) ℝ)) *ᵥ c) = τ * ∑ j, c j ^ 2 := by
    rw [smul_mulVec, one_mulVec, dotProduct_smul, smul_eq_mul, dotProduct]
    simp only [sq]
  rw [ec] at h4
  have h3 : 0 ≤ V - τ * ∑ j, c j ^ 2 := by
    -- the variance of the error without the noise
    have hAc : A *ᵥ c = fun j => k q (x j) := Kriging.mulVec_inv_cancel (Kriging.det_ne_zero hpd) _
    have hq : (fun j => k q (x j)) ⬝ᵥ c = c ⬝ᵥ (K *ᵥ c) + τ * ∑ j, c j ^ 2 := by
      rw [← hAc, dotProduct_comm, hA, add_mulVec, dotProduct_add, ec]
    have hjq := Kriging.joint_quad hj c
    have hVq : V = 1 - (fun j => k q (x j)) ⬝ᵥ c := rfl
    have hsw : c ⬝ᵥ (fun j => k q (x j)) = (fun j => k q (x j)) ⬝ᵥ c := dotProduct_comm _ _
    linarith
  set e : Fin n → ℝ := fun j => y j - g (x j) with he
  have hsum : ∑ j, e j ^ 2 ≤ n * ε ^ 2 := by
    have : ∑ j, e j ^ 2 ≤ ∑ _j : Fin n, ε ^ 2 := Finset.sum_le_sum fun j _ =>
      sq_le_sq' (by linarith [(abs_le.mp (hy j)).1]) (abs_le.mp (hy j)).2
    simpa using this
  have hce : (∑ j, c j * e j) ^ 2 ≤ (n * ε ^ 2 / τ) * (τ * ∑ j, c j ^ 2) := by
    have h := Finset.sum_mul_sq_le_sq_mul_sq Finset.univ c e
    have hc2 : 0 ≤ ∑ j, c j ^ 2 := Finset.sum_nonneg fun _ _ => sq_nonneg _
    calc _ ≤ (∑ j, c j ^ 2) * ∑ j, e j ^ 2 := h
      _ ≤ (∑ j, c j ^ 2) * (n * ε ^ 2) := mul_le_mul_of_nonneg_left hsum hc2
      _ = _ := by field_simp
  have e1 : Spec.krigingMean A (fun j => k q (x j)) y - g q = -(g q - ∑ j, c j * g (x j)) + ∑ j, c j * e j := by
    have : ∑ j, c j * e j = ∑ j, c j * y j - ∑ j, c j * g (x j) := by
      rw [← Finset.sum_sub_distrib]
      exact Finset.sum_congr rfl fun j _ => by rw [he]; ring
    rw [this, hmean]; ring
  rw [e1]
  refine (sq_add_le hE (by positivity) h3 (by positivity) (by rw [neg_sq]; exact h4) hce).trans_eq ?_
  ring

/-- **C118**: the error bound of C95, for functions that the Matérn process can explain. -/
theorem C118_error_bound (R : Regressor) (w : NNWrapper) (hw : w.Exact) (Q Y : Tensor ℝ) (m : Nat) (ν τ σ : ℝ) (len : Fin w.f → ℝ)
    (hR : R.GeneralMatern ν len τ σ) (hν : 0 < ν) (hτ : deficit ν < τ) (hσ : 0 < σ) (hQ : Q.shape = [m, w.f]) (hY : Y.shape = [w.N])
    (hm : 0 < m) (hk0 : 0 < w.nnCount) (hkN : w.nnCount ≤ w.N) (hd : DistinctRows w.train w.N w.f) (hnew : w.New Q m) (E : ℝ)
    (g : (Fin w.f → ℝ) → ℝ) (hg : Spec.EnergyAtMost (maternProcess ν len) E g) (ε : ℝ)
    (hYg : ∀ i < w.N, |Y.get [i] - g (rowPt w.train w.f i)| ≤ ε) :
    ∃ μ v, regressAny maternGen R w Q w.train Y = .ok (μ, v) ∧ μ.shape = [m] ∧ v.shape = [m] ∧
      ∀ p < m, (μ.get [p] - g (rowPt Q w.f p)) ^ 2 ≤ (E + w.nnCount * ε ^ 2 / (τ - deficit ν)) * (v.get [p] / σ) := by
  obtain ⟨nn, -, h2, h⟩ := C118_true_process R w hw Q m ν τ σ len hR hν hτ hQ hm hk0 hkN hd hnew
  obtain ⟨μ, v, r1, r2, r3, r4⟩ := h Y hY
  refine ⟨μ, v, r1, r2, r3, fun p hp => ?_⟩
  have hpos := hasLengths_pos hR.lengths
  rw [(r4 p hp).1, (r4 p hp).2, mul_div_cancel_left₀ _ hσ.ne']
  refine kriging_noisy_error (maternProcess_comm ν len) (maternProcess_self ν len) _ (rowPt Q w.f p) (by linarith)
    (trueCov_psd hν w len hpos nn p) (trueJoint_psd hν w len hpos nn p _) hg fun j => ?_
  have := hYg _ (h2 p hp j j.2)
  simpa only [nbrTargets, feature, hY] using this

/-- **C118**: the bound of C117 for predictions computed inexactly. -/
theorem C118_inexact (R : Regressor) (w : NNWrapper) (hw : w.Exact) (Q : Tensor ℝ) (m : Nat) (ν τ σ : ℝ) (len : Fin w.f → ℝ)
    (hR : R.GeneralMatern ν len τ σ) (hν : 0 < ν) (hτ : deficit ν < τ) (hQ : Q.shape = [m, w.f])
    (hm : 0 < m) (hk0 : 0 < w.nnCount) (hkN : w.nnCount ≤ w.N) (hd : DistinctRows w.train w.N w.f) (hnew : w.New Q m) :
    ∃ nn : Tensor Int, (∀ i < m, ∃ l : List Nat, rowList nn w.nnCount i = l.map Int.ofNat ∧
        Nearest (· < w.N) (fun j => w.dist (rowPt Q w.f i) (rowPt w.train w.f j)) w.nnCount l) ∧
      ∀ Y : Tensor ℝ, Y.shape = [w.N] → ∃ μ v, regressAny maternGen R w Q w.train Y = .ok (μ, v) ∧ μ.shape = [m] ∧ v.shape = [m] ∧
        ∀ p < m, ∀ (δ η ε : ℝ), 0 ≤ δ → 0 ≤ η → 0 ≤ ε → w.nnCount * δ < τ - deficit ν →
          ∀ (A : Matrix (Fin w.nnCount) (Fin w.nnCount) ℝ) (c y : Fin w.nnCount → ℝ),
            (∀ i j, |A i j - (nbrCov maternGen R.kernel len w.train w.N w.nnCount nn p i j + if i = j then τ else 0)| ≤ δ) →
            (∀ i, |c i - nbrCross maternGen R.kernel len w.train w.N w.nnCount nn p (rowPt Q w.f p) i| ≤ η) →
            (∀ i, |y i - nbrTargets Y w.N w.nnCount nn p 0 i| ≤ ε) →
            ∀ x, A *ᵥ x = y →
              |c ⬝ᵥ x - μ.get [p]| ≤ Spec.computedError w.nnCount (τ - deficit ν) δ η ε (Spec.size y) := by
  obtain ⟨nn, -, h1, -, h2, h3⟩ := gen_uniform R w hw Q m ν τ σ len hR hν hτ hQ hm hk0 hkN hd hnew
  refine ⟨nn, h1, fun Y hY => ?_⟩
  obtain ⟨μ, v, r1, r2, r3, r4⟩ := h3 Y hY
  refine ⟨μ, v, r1, r2, r3, fun p hp δ η ε hδ hη hε hsmall A c y hA hc hy x hx => ?_⟩
  have hpos := hasLengths_pos hR.lengths
  rw [(r4 p hp).1]
  rw [(h2 p hp).2] at hc
  refine perturbed_product (by linarith) (trueJoint_psd hν w len hpos nn p _) (trueCov_psd hν w len hpos nn p) hδ hη hε (fun i j => ?_) hsmall hc hy hx
  rw [← (h2 p hp).1, Matrix.add_apply, Matrix.smul_apply, Matrix.one_apply, smul_eq_mul, mul_ite, mul_one, mul_zero]
  exact hA i j

/-- The closed forms are the Matérn correlations. -/
theorem closed_covFn (bs : Flt → ℝ → ℝ) {R : Regressor} {ν τ σ : ℝ} {f : Nat} {len : Fin f → ℝ} (hR : R.ClosedMatern ν len τ σ) (x y : Fin f → ℝ) :
    R.kernel.covFn bs len x y = maternProcess ν len x y := by
  have hlen := hasLengths_pos hR.lengths
  by_cases h : x = y
  · subst h
    rw [maternProcess_self]
    unfold KernelObj.covFn
    rw [hR.metric, distOf_self]
    rcases hR.fn with ⟨-, h⟩ | ⟨-, h⟩ | ⟨-, h⟩ <;> rw [h] <;> simp [KFn.value]
  · unfold KernelObj.covFn maternProcess
    rw [if_neg h, hR.metric]
    have hd : 0 < distOf .l2 (fun c => x c / len c) (fun c => y c / len c) := by
      refine lt_of_le_of_ne (C17_metrics _ _ (fun c => x c / len c)).2.1 fun h' => h ?_
      have := (C17_metrics _ _ (fun c => x c / len c)).2.2.1.mp h'.symm
      funext c
      exact (div_left_inj' (hlen c).ne').mp (congrFun this c)
    generalize distOf .l2 (fun c => x c / len c) (fun c => y c / len c) = d at hd
    have e3 : d * √3 = √3 * d := by ring
    have e5 : (d * √5) ^ 2 = 5 * d ^ 2 := by rw [mul_pow, Real.sq_sqrt (by norm_num)]; ring
    rcases hR.fn with ⟨e, h⟩ | ⟨e, h⟩ | ⟨e, h⟩ <;> rw [h, e]
    · exact (C62_special_cases d hd).1.symm
    · rw [(C62_special_cases d hd).2.1]; simp only [KFn.value, e3]
    · rw [(C62_special_cases d hd).2.2.1]; simp only [KFn.value, e5]; rw [mul_comm d √5]

theorem ClosedMatern.nu_pos {R : Regressor} {ν τ σ : ℝ} {f : Nat} {len : Fin f → ℝ} (hR : R.ClosedMatern ν len τ σ) : 0 < ν := by
  rcases hR.fn with ⟨e, -⟩ | ⟨e, -⟩ | ⟨e, -⟩ <;> rw [e] <;> norm_num

/-- **C118**: a model with free smoothness predicts what the model with the same smoothness, fixed, predicts with the noise variance `τ - deficit`. -/
theorem C118_free_is_fixed_partial (bs : Flt → ℝ → ℝ) (R R' : Regressor) (w : NNWrapper) (hw : w.Exact) (Q Y : Tensor ℝ) (m : Nat) (ν τ σ : ℝ)
    (len : Fin w.f → ℝ) (hR : R.GeneralMatern ν len τ σ) (hR' : R'.ClosedMatern ν len (τ - deficit ν) σ) (hτ : deficit ν < τ)
    (hQ : Q.shape = [m, w.f]) (hY : Y.shape = [w.N]) (hm : 0 < m) (hk0 : 0 < w.nnCount) (hkN : w.nnCount ≤ w.N)
    (hd : DistinctRows w.train w.N w.f) (hnew : w.New Q m) :
    ∃ μ v μ' v', regressAny maternGen R w Q w.train Y = .ok (μ, v) ∧ regressAny bs R' w Q w.train Y = .ok (μ', v') ∧
      μ.shape = [m] ∧ v.shape = [m] ∧ μ'.shape = [m] ∧ v'.shape = [m] ∧ ∀ p < m, μ'.get [p] = μ.get [p] ∧ v'.get [p] = v.get [p] := by
  have hν := ClosedMatern.nu_pos hR'
  have hpos := hasLengths_pos hR.lengths
  obtain ⟨nn, ⟨D, hD⟩, -, -, -, h⟩ := gen_uniform R w hw Q m ν τ σ len hR hν hτ hQ hm hk0 hkN hd hnew
  obtain ⟨μ, v, r1, r2, r3, r4⟩ := h Y hY
  obtain ⟨nn', D', hD', -, -, -, h'⟩ := regress_cases_nns bs R' hR'.made hR'.kout w hw Q m len hR'.lengths hQ hm hk0 hkN
    (by rw [hR'.noise]; trivial)
  rw [hD] at hD'
  cases hD'
  have hno : ∀ p, R'.gp.noise.mat w.nnCount p = (τ - deficit ν) • (1 : Matrix (Fin w.nnCount) (Fin w.nnCount) ℝ) := fun p => by
    rw [hR'.noise]; rfl
  have hrow : ∀ x, pt w.train w.f x = rowPt w.train w.f x := rowPt_pt hw.1
  have hK : ∀ p, nbrCov bs R'.kernel len w.train w.N w.nnCount nn p = trueCov ν w len nn p := fun p => by
    ext i j
    simp only [nbrCov, trueCov, Matrix.of_apply, hrow, closed_covFn bs hR']
  have hc : ∀ p q, nbrCross bs R'.kernel len w.train w.N w.nnCount nn p q = trueCross ν w len nn p q := fun p q => by
    ext j
    simp only [nbrCross, trueCross, hrow, closed_covFn bs hR']
  rcases h' Y hY with ⟨⟨p, hp, hdet⟩, -⟩ | ⟨-, μ', v', s1, s2, s3, s4⟩
  · rw [hno, hK] at hdet
    exact absurd hdet (Kriging.det_ne_zero (Kriging.posdef_of_psd_add (trueCov_psd hν w len hpos nn p) (by linarith)))
  · refine ⟨μ, v, μ', v', r1, s1, r2, r3, s2, s3, fun p hp => ?_⟩
    have := s4 p hp
    rw [hno, hK, hc, hR'.scale] at this
    rw [this.1, this.2, (r4 p hp).1, (r4 p hp).2]
    exact ⟨rfl, rfl⟩

/-- The deficit of the smoothness values with a closed form is at most the machine epsilon. -/
theorem C118_deficit {ν : ℝ} (hν : ν = 1 / 2 ∨ ν = 3 / 2 ∨ ν = 5 / 2) : 0 < deficit ν ∧ deficit ν ≤ machEps := by
  have h0 := machEps_pos
  refine ⟨deficit_pos (by rcases hν with h | h | h <;> rw [h] <;> norm_num), ?_⟩
  have e3 : machEps * √3 = √3 * machEps := by ring
  have e5 : (machEps * √5) ^ 2 = 5 * machEps ^ 2 := by rw [mul_pow, Real.sq_sqrt (by norm_num)]; ring
  have key : ∀ fn : KFn, fn ≠ .gen → fn.value maternGen none 0 = 1 → fn.value maternGen none machEps = maternCorrelation ν machEps →
      deficit ν ≤ machEps := fun fn hg h1 h2 => by
    have := value_lipschitz maternGen none hg le_rfl h0.le
    rw [h1, h2, zero_sub, abs_neg, abs_of_pos h0] at this
    exact (le_abs_self _).trans this
  rcases hν with h | h | h
  · refine key .m05 (by decide) (by simp [KFn.value]) ?_
    rw [h, (C62_special_cases _ h0).1]; rfl
  · refine key .m15 (by decide) (by simp [KFn.value]) ?_
    rw [h, (C62_special_cases _ h0).2.1]; simp only [KFn.value, e3]
  · refine key .m25 (by decide) (by simp [KFn.value]) ?_
    rw [h, (C62_special_cases _ h0).2.2.1]; simp only [KFn.value, e5]; rw [mul_comm machEps √5]

end MuyGPyS
