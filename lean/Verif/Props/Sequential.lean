import Verif.Props.FullGP
import Verif.Spec.Sequential

/-!
# C99: one more observation
-/

namespace MuyGPyS
open Py Matrix

/-- Adding one row and column to a positive definite matrix: the new kriging weights. -/
theorem update_weights {N : Nat} (A' : Matrix (Fin (N + 1)) (Fin (N + 1)) ℝ) (hA' : A'.PosDef) (c' y' : Fin (N + 1) → ℝ) :
    let A : Matrix (Fin N) (Fin N) ℝ := A'.submatrix Fin.castSucc Fin.castSucc
    let c : Fin N → ℝ := fun i => c' i.castSucc
    let b : Fin N → ℝ := fun i => A' (Fin.last N) i.castSucc
    let y : Fin N → ℝ := fun i => y' i.castSucc
    let s := A' (Fin.last N) (Fin.last N) - b ⬝ᵥ (A⁻¹ *ᵥ b)
    let g := (c' (Fin.last N) - b ⬝ᵥ (A⁻¹ *ᵥ c)) / s
    0 < s ∧ c' ⬝ᵥ (A'⁻¹ *ᵥ y') = c ⬝ᵥ (A⁻¹ *ᵥ y) + g * (y' (Fin.last N) - b ⬝ᵥ (A⁻¹ *ᵥ y)) ∧
      c' ⬝ᵥ (A'⁻¹ *ᵥ c') = c ⬝ᵥ (A⁻¹ *ᵥ c) + g ^ 2 * s := by
  intro A c b y s g
  have hA : A.PosDef := hA'.submatrix (Fin.castSucc_injective N)
  have hsym := Kriging.posdef_symm hA
  have hsym' := Kriging.posdef_symm hA'
  have hdet := Kriging.det_ne_zero hA
  have hb : ∀ i : Fin N, A' i.castSucc (Fin.last N) = b i := fun i => by
    have := congrFun (congrFun hsym' (Fin.last N)) i.castSucc
    exact this
  -- the complement is positive
  have hs : 0 < s := by
    have h := hA'.dotProduct_mulVec_pos (x := Fin.snoc (-(A⁻¹ *ᵥ b)) (1 : ℝ)) (by
      intro h
      have := congrFun h (Fin.last N)
      simp at this)
    have e : A' *ᵥ (Fin.snoc (-(A⁻¹ *ᵥ b)) (1 : ℝ) : Fin (N + 1) → ℝ) = Fin.snoc (0 : Fin N → ℝ) s := by
      funext i
      refine Fin.lastCases ?_ (fun i => ?_) i
      · simp only [mulVec, dotProduct, Fin.sum_univ_castSucc, Fin.snoc_castSucc, Fin.snoc_last, Pi.neg_apply, mul_neg, mul_one,
          Finset.sum_neg_distrib, s, b]
        ring
      · have h1 := congrFun (Kriging.mulVec_inv_cancel hdet b) i
        simp only [mulVec, dotProduct] at h1
        simp only [mulVec, dotProduct, Fin.sum_univ_castSucc, Fin.snoc_castSucc, Fin.snoc_last, Pi.neg_apply, mul_neg, mul_one,
          Finset.sum_neg_distrib, hb, Pi.zero_apply]
        rw [← h1]
        simp only [A, submatrix_apply]
        ring
    rw [e] at h
    simpa [dotProduct, Fin.sum_univ_castSucc] using h
  -- the new weights
  have hw : A'⁻¹ *ᵥ c' = Fin.snoc (A⁻¹ *ᵥ c - g • (A⁻¹ *ᵥ b)) g := by
    have e : A' *ᵥ (Fin.snoc (A⁻¹ *ᵥ c - g • (A⁻¹ *ᵥ b)) g : Fin (N + 1) → ℝ) = c' := by
      funext i
      refine Fin.lastCases ?_ (fun i => ?_) i
      · have h1 : b ⬝ᵥ (A⁻¹ *ᵥ c - g • (A⁻¹ *ᵥ b)) + A' (Fin.last N) (Fin.last N) * g = c' (Fin.last N) := by
          rw [dotProduct_sub, dotProduct_smul, smul_eq_mul]
          have h2 : g * s = c' (Fin.last N) - b ⬝ᵥ (A⁻¹ *ᵥ c) := div_mul_cancel₀ _ hs.ne'
          have h3 : A' (Fin.last N) (Fin.last N) = s + b ⬝ᵥ (A⁻¹ *ᵥ b) := by simp only [s]; ring
          rw [h3]
          linarith
        rw [← h1]
        simp only [mulVec, dotProduct, Fin.sum_univ_castSucc, Fin.snoc_castSucc, Fin.snoc_last]
        rfl
      · have h1 : (A *ᵥ (A⁻¹ *ᵥ c - g • (A⁻¹ *ᵥ b))) i + b i * g = c' i.castSucc := by
          rw [mulVec_sub, mulVec_smul, Kriging.mulVec_inv_cancel hdet, Kriging.mulVec_inv_cancel hdet]
          simp only [Pi.sub_apply, Pi.smul_apply, smul_eq_mul, c]
          ring
        rw [← h1]
        simp only [mulVec, dotProduct, Fin.sum_univ_castSucc, Fin.snoc_castSucc, Fin.snoc_last, hb]
        rfl
    rw [← e, Kriging.inv_mulVec_cancel (Kriging.det_ne_zero hA')]
  have hdot : ∀ x' : Fin (N + 1) → ℝ, c' ⬝ᵥ (A'⁻¹ *ᵥ x') = c ⬝ᵥ (A⁻¹ *ᵥ fun i => x' i.castSucc) +
      g * (x' (Fin.last N) - b ⬝ᵥ (A⁻¹ *ᵥ fun i => x' i.castSucc)) := by
    intro x'
    rw [← Kriging.swap hsym', hw, ← Kriging.swap hsym, ← Kriging.swap hsym b]
    have : (Fin.snoc (A⁻¹ *ᵥ c - g • (A⁻¹ *ᵥ b)) g : Fin (N + 1) → ℝ) ⬝ᵥ x' =
        (A⁻¹ *ᵥ c - g • (A⁻¹ *ᵥ b)) ⬝ᵥ (fun i : Fin N => x' i.castSucc) + g * x' (Fin.last N) := by
      simp only [dotProduct, Fin.sum_univ_castSucc, Fin.snoc_castSucc, Fin.snoc_last]
    rw [this, sub_dotProduct, smul_dotProduct, smul_eq_mul]
    ring
  refine ⟨hs, hdot y', (hdot c').trans ?_⟩
  have h2 : g * s = c' (Fin.last N) - b ⬝ᵥ (A⁻¹ *ᵥ c) := div_mul_cancel₀ _ hs.ne'
  rw [show (c' (Fin.last N) - b ⬝ᵥ A⁻¹ *ᵥ fun i => c' i.castSucc) = g * s from h2.symm]
  ring

/-- **C99.** Exact Gaussian process regression (all training points are neighbours), before and after one more observation: the point `s` with response `y`. The model's
predictions `μ`, `v` at the test points change by a gain that depends on neither the old nor the new responses:
the new mean is the old mean plus gain times surprise (the difference between `y` and the response `μs` predicted for `s` before), and
the new variance is the old one minus the squared gain times the predictive variance of the new observation (its reported variance plus the scaled noise). Hence an observation that
is exactly as predicted changes no mean, no observation increases a variance, and at `s` itself the new mean is the average of the old mean and `y` weighted by their
precisions, and the new variance the harmonic sum of the old one and the scaled noise. -/
theorem C99_update (bessel : Flt → ℝ → ℝ) (R : Regressor) (hk : R.kernel.make = R.kernel)
    (hko : R.gp.kout = KernelObj.kout) (hsuit : R.kernel.fn.Suits R.kernel.deform.metric) (hscale : 0 < R.gp.boundScale)
    (w w' : NNWrapper) (hw : w.Exact) (hw' : w'.Exact) (hall : w.nnCount = w.N) (hall' : w'.nnCount = w'.N) (hN : 0 < w.N) (hN' : w'.N = w.N + 1)
    (hf : w'.f = w.f) (len : Fin w.f → ℝ) (hlen : R.kernel.deform.HasLengths w.f len)
    (τ : ℝ) (hτ : R.gp.noise.Level τ) (hreg : 0 < τ ∨ (0 ≤ τ ∧ DistinctRows w'.train w'.N w.f))
    (m : Nat) (hm : 0 < m) (Q S : Tensor ℝ) (hQ : Q.shape = [m, w.f]) (hS : S.shape = [1, w.f]) :
    ∃ gain : Nat → ℝ, ∀ (Y Y' : Tensor ℝ) (y : ℝ), Y.shape = [w.N] → Y'.shape = [w'.N] →
      Appended w.train Y w'.train Y' w.N w.f (rowPt S w.f 0) y →
      ∃ μ v μs vs μ' v', regressAny bessel R w Q w.train Y = .ok (μ, v) ∧ regressAny bessel R w S w.train Y = .ok (μs, vs) ∧
        regressAny bessel R w' Q w'.train Y' = .ok (μ', v') ∧ 0 < vs.get [0] + R.gp.boundScale * τ ∧ ∀ p < m,
          μ'.get [p] = μ.get [p] + gain p * (y - μs.get [0]) ∧
          v'.get [p] = v.get [p] - gain p ^ 2 * (vs.get [0] + R.gp.boundScale * τ) ∧
          (y = μs.get [0] → μ'.get [p] = μ.get [p]) ∧ v'.get [p] ≤ v.get [p] ∧
          (rowPt Q w.f p = rowPt S w.f 0 →
            μ'.get [p] = (R.gp.boundScale * τ * μs.get [0] + vs.get [0] * y) / (vs.get [0] + R.gp.boundScale * τ) ∧
            v'.get [p] = vs.get [0] * (R.gp.boundScale * τ) / (vs.get [0] + R.gp.boundScale * τ)) := by
  obtain ⟨N, f, X, k, dist, sq, answer⟩ := w
  obtain ⟨N', f', X', k', dist', sq', answer'⟩ := w'
  dsimp only at hall hall' hN hN' hf hQ hS hreg len hlen ⊢
  subst hall hall' hN' hf
  set A' := fullCov bessel R.kernel len X' (k + 1) + τ • (1 : Matrix (Fin (k + 1)) (Fin (k + 1)) ℝ) with hA'
  set c' : Nat → Fin (k + 1) → ℝ := fun p => fullCross bessel R.kernel len X' (k + 1) (rowPt Q f' p) with hc'
  have hpd : A'.PosDef := fullCov_posdef bessel R.kernel hsuit len (hasLengths_pos hlen) X' (k + 1) hw'.1 τ hreg
  let A : Matrix (Fin k) (Fin k) ℝ := A'.submatrix Fin.castSucc Fin.castSucc
  let b : Fin k → ℝ := fun i => A' (Fin.last k) i.castSucc
  let g : Nat → ℝ := fun p => (c' p (Fin.last k) - b ⬝ᵥ (A⁻¹ *ᵥ fun i : Fin k => c' p i.castSucc)) /
    (A' (Fin.last k) (Fin.last k) - b ⬝ᵥ (A⁻¹ *ᵥ b))
  refine ⟨g, fun Y Y' y hY hY' hap => ?_⟩
  have hreg0 : 0 < τ ∨ (0 ≤ τ ∧ DistinctRows X k f') := by
    rcases hreg with h | ⟨h0, h⟩
    · exact .inl h
    · refine .inr ⟨h0, fun i hi j hj hij => ?_⟩
      obtain ⟨c, hc, hne⟩ := h i (by omega) j (by omega) hij
      have e1 := congrFun (hap.rows i hi) ⟨c, hc⟩
      have e2 := congrFun (hap.rows j hj) ⟨c, hc⟩
      have s1 : X.shape = [k, f'] := hw.1
      have s2 : X'.shape = [k + 1, f'] := hw'.1
      refine ⟨c, hc, ?_⟩
      simp only [feature, s1, s2, rowPt] at hne e1 e2 ⊢
      rwa [← e1, ← e2]
  obtain ⟨μ, v, r1, -, -, r2⟩ := C89_regress bessel R hk hko hsuit _ hw rfl Q Y m len hlen hQ hY hm hN τ hτ hreg0
  obtain ⟨μs, vs, s1, -, -, s2⟩ := C89_regress bessel R hk hko hsuit _ hw rfl S Y 1 len hlen hS hY one_pos hN τ hτ hreg0
  obtain ⟨μ', v', t1, -, -, t2⟩ := C89_regress bessel R hk hko hsuit _ hw' rfl Q Y' m len hlen hQ hY' hm (Nat.succ_pos _) τ hτ hreg
  dsimp only at r1 r2 s1 s2 t1 t2
  have eA : fullCov bessel R.kernel len X k + τ • 1 = A := by
    ext i j
    simp only [A, hA', submatrix_apply, Matrix.add_apply, Matrix.smul_apply, Matrix.one_apply, fullCov, Fin.val_castSucc, hap.rows i i.2, hap.rows j j.2,
      (Fin.castSucc_injective k).eq_iff]
  have ec : ∀ p, fullCross bessel R.kernel len X k (rowPt Q f' p) = fun i : Fin k => c' p i.castSucc := fun p => by
    funext i
    simp only [hc', fullCross, Fin.val_castSucc, hap.rows i i.2]
  have eb : fullCross bessel R.kernel len X k (rowPt S f' 0) = b := by
    funext i
    simp only [b, hA', Matrix.add_apply, Matrix.smul_apply, Matrix.one_apply, fullCov, fullCross, Fin.val_castSucc, hap.rows i i.2, Fin.val_last, hap.row,
      (Fin.castSucc_lt_last i).ne', if_false, smul_zero, add_zero]
  have eY : responses Y k = fun i : Fin k => responses Y' (k + 1) i.castSucc := by
    funext i
    simp only [responses, Fin.val_castSucc, hap.values i i.2]
  have ey : responses Y' (k + 1) (Fin.last k) = y := by
    simp only [responses, Fin.val_last, hap.value]
  have ed : A' (Fin.last k) (Fin.last k) = 1 + τ := by
    simp only [hA', Matrix.add_apply, Matrix.smul_apply, Matrix.one_apply, fullCov, covFn_self bessel R.kernel hsuit, if_true, smul_eq_mul, mul_one]
  obtain ⟨m1, m2⟩ := s2 0 one_pos
  simp only [eA, eb, eY] at m1 m2
  have hs : vs.get [0] + R.gp.boundScale * τ = R.gp.boundScale * (A' (Fin.last k) (Fin.last k) - b ⬝ᵥ (A⁻¹ *ᵥ b)) := by
    rw [m2, ed]
    unfold Spec.krigingVar
    ring
  have hspos : 0 < A' (Fin.last k) (Fin.last k) - b ⬝ᵥ (A⁻¹ *ᵥ b) := (update_weights A' hpd (c' 0) (responses Y' (k + 1))).1
  have hpos : 0 < vs.get [0] + R.gp.boundScale * τ := by rw [hs]; positivity
  refine ⟨μ, v, μs, vs, μ', v', r1, s1, t1, hpos, fun p hp => ?_⟩
  obtain ⟨-, u1, u2⟩ := update_weights A' hpd (c' p) (responses Y' (k + 1))
  obtain ⟨a1, a2⟩ := r2 p hp
  obtain ⟨b1, b2⟩ := t2 p hp
  simp only [eA, ec, eY] at a1 a2
  have e1 : μ'.get [p] = μ.get [p] + g p * (y - μs.get [0]) := by
    rw [b1, a1, m1]
    unfold Spec.krigingMean
    refine u1.trans ?_
    rw [ey]
  have e2 : v'.get [p] = v.get [p] - g p ^ 2 * (vs.get [0] + R.gp.boundScale * τ) := by
    rw [b2, a2, hs]
    unfold Spec.krigingVar
    rw [show fullCross bessel R.kernel len X' (k + 1) (rowPt Q f' p) ⬝ᵥ
      ((fullCov bessel R.kernel len X' (k + 1) + τ • (1 : Matrix (Fin (k + 1)) (Fin (k + 1)) ℝ))⁻¹ *ᵥ fullCross bessel R.kernel len X' (k + 1) (rowPt Q f' p)) = _ from u2]
    ring
  refine ⟨e1, e2, fun h => by rw [e1, h]; ring, ?_, fun h => ?_⟩
  · rw [e2]
    have : 0 ≤ g p ^ 2 * (vs.get [0] + R.gp.boundScale * τ) := by positivity
    linarith
  · have h1 : (fun i : Fin k => c' p i.castSucc) = b := by rw [← ec, h, eb]
    have h2 : c' p (Fin.last k) = 1 := by
      simp only [hc', fullCross, Fin.val_last, hap.row, h, covFn_self bessel R.kernel hsuit]
    have hμ : μ.get [p] = μs.get [0] := by rw [a1, m1, h1]
    have hv : v.get [p] = vs.get [0] := by rw [a2, m2, h1]
    have hg : g p = vs.get [0] / (vs.get [0] + R.gp.boundScale * τ) := by
      have : g p = (1 - b ⬝ᵥ (A⁻¹ *ᵥ b)) / (A' (Fin.last k) (Fin.last k) - b ⬝ᵥ (A⁻¹ *ᵥ b)) := by
        simp only [g, h1, h2]
      rw [this, hs, m2]
      unfold Spec.krigingVar
      rw [mul_div_mul_left _ _ hscale.ne']
    rw [e1, e2, hμ, hv, hg]
    constructor
    · field_simp
      ring
    · field_simp
      ring

end MuyGPyS
