import Verif.Props.Unbiased
import Verif.Props.Cholesky
import Mathlib.Algebra.Order.Chebyshev

/-! # C111: how accurate the estimated variance scale is -/

namespace MuyGPyS
open Py Matrix MeasureTheory ProbabilityTheory

theorem gaussian_fourth (v : NNReal) : ∫ x, x ^ 4 ∂gaussianReal 0 v = 3 * (v : ℝ) ^ 2 := by
  have h : ∫ x, x ^ 4 ∂gaussianReal 0 v = iteratedDeriv 4 (mgf (fun x => x) (gaussianReal 0 v)) 0 := by
    rw [iteratedDeriv_mgf_zero] <;> simp
  rw [h, mgf_fun_id_gaussianReal]
  simp only [zero_mul, zero_add]
  set e : ℝ → ℝ := fun t => Real.exp (v * t ^ 2 / 2) with he
  have de : ∀ t, HasDerivAt e (v * t * e t) t := fun t => by
    have h1 : HasDerivAt (fun t : ℝ => (v : ℝ) * t ^ 2 / 2) (v * t) t := by
      have := ((hasDerivAt_pow 2 t).const_mul (v : ℝ)).div_const 2
      refine this.congr_deriv ?_
      norm_num
      ring
    refine h1.exp.congr_deriv ?_
    simp only [he]; ring
  have d1 : deriv e = fun t => v * t * e t := funext fun t => (de t).deriv
  have dp : ∀ (p : ℝ → ℝ) (p' t : ℝ), HasDerivAt p p' t → HasDerivAt (fun t => p t * e t) ((p' + p t * (v * t)) * e t) t := fun p p' t hp => by
    refine (hp.mul (de t)).congr_deriv ?_
    ring
  have d2 : deriv (fun t => v * t * e t) = fun t => (v + v ^ 2 * t ^ 2) * e t := funext fun t => by
    rw [(dp (fun t => v * t) v t (by simpa using (hasDerivAt_id t).const_mul (v : ℝ))).deriv]
    ring
  have d3 : deriv (fun t => (v + v ^ 2 * t ^ 2) * e t) = fun t => (3 * v ^ 2 * t + v ^ 3 * t ^ 3) * e t := funext fun t => by
    have h2 : HasDerivAt (fun t : ℝ => (v : ℝ) + v ^ 2 * t ^ 2) (v ^ 2 * (2 * t)) t := by
      have := ((hasDerivAt_pow 2 t).const_mul ((v : ℝ) ^ 2)).const_add (v : ℝ)
      simpa using this
    rw [(dp _ _ t h2).deriv]
    ring
  have d4 : deriv (fun t => (3 * v ^ 2 * t + v ^ 3 * t ^ 3) * e t) 0 = 3 * (v : ℝ) ^ 2 := by
    have h3 : HasDerivAt (fun t : ℝ => 3 * (v : ℝ) ^ 2 * t + v ^ 3 * t ^ 3) (3 * (v : ℝ) ^ 2 + (v : ℝ) ^ 3 * (3 * 0 ^ 2)) 0 := by
      have := ((hasDerivAt_id (0 : ℝ)).const_mul (3 * (v : ℝ) ^ 2)).add ((hasDerivAt_pow 3 (0 : ℝ)).const_mul ((v : ℝ) ^ 3))
      refine this.congr_deriv ?_
      norm_num
    rw [(dp _ _ 0 h3).deriv]
    simp [he]
  show iteratedDeriv 4 e 0 = _
  rw [iteratedDeriv_succ', iteratedDeriv_succ', iteratedDeriv_succ', iteratedDeriv_one, d1, d2, d3, d4]

/-- The square of a centred normal variable of variance `s`: mean `s`, variance `2 s²`. -/
theorem gaussian_sq {Ω : Type*} [MeasurableSpace Ω] {P : Measure Ω} {Z : Ω → ℝ} (hZ : HasGaussianLaw Z P) (h0 : P[Z] = 0) {s : ℝ}
    (hv : Var[Z; P] = s) : MemLp (fun ω => Z ω ^ 2) 2 P ∧ ∫ ω, Z ω ^ 2 ∂P = s ∧ Var[fun ω => Z ω ^ 2; P] = 2 * s ^ 2 := by
  have := hZ.isProbabilityMeasure
  have hs : 0 ≤ s := hv ▸ variance_nonneg _ _
  have hlaw : P.map Z = gaussianReal 0 s.toNNReal := by rw [hZ.map_eq_gaussianReal, h0, hv]
  have m4 : MemLp Z 4 P := by
    have : MemLp id 4 (P.map Z) := by rw [hlaw]; exact memLp_id_gaussianReal' 4 (by norm_num)
    exact (memLp_map_measure_iff (by fun_prop) hZ.aemeasurable).mp this
  have m2 : MemLp (fun ω => Z ω ^ 2) 2 P := by
    rw [memLp_two_iff_integrable_sq (hZ.aemeasurable.pow_const 2).aestronglyMeasurable]
    have : Integrable (fun ω => ‖Z ω‖ ^ 4) P := m4.integrable_norm_pow (by norm_num)
    refine this.congr (Filter.Eventually.of_forall fun ω => ?_)
    show |Z ω| ^ 4 = (Z ω ^ 2) ^ 2
    rw [← pow_mul, (show Even 4 by decide).pow_abs]
  have e2 : ∫ ω, Z ω ^ 2 ∂P = s := by
    rw [← hv, variance_eq_integral hZ.aemeasurable, h0]; simp
  refine ⟨m2, e2, ?_⟩
  rw [variance_eq_sub m2, e2]
  have e4 : ∫ ω, Z ω ^ 4 ∂P = 3 * s ^ 2 := by
    have := gaussian_fourth s.toNNReal
    rw [← hlaw, integral_map hZ.aemeasurable (by fun_prop), Real.coe_toNNReal _ hs] at this
    exact this
  have : (fun ω => Z ω ^ 2) ^ 2 = fun ω => Z ω ^ 4 := by funext ω; simp only [Pi.pow_apply]; ring
  rw [this, e4]; ring

/-- `yᵀ K⁻¹ y` for centred jointly normal `y` with covariance `s K`: mean `s n`, variance `2 s² n`. -/
theorem quadForm_variance {Ω : Type*} [MeasurableSpace Ω] {P : Measure Ω} {n : Nat} {F : Fin n → Ω → ℝ}
    (hF : HasGaussianLaw (fun ω i => F i ω) P) (zF : ∀ i, P[F i] = 0) (K : Matrix (Fin n) (Fin n) ℝ) (s : ℝ)
    (hFF : ∀ i j, cov[F i, F j; P] = s * K i j) (hpd : K.PosDef) :
    MemLp (fun ω => Spec.quadForm K fun i => F i ω) 2 P ∧ ∫ ω, Spec.quadForm K (fun i => F i ω) ∂P = s * n ∧
      Var[fun ω => Spec.quadForm K fun i => F i ω; P] = 2 * s ^ 2 * n := by
  have := hF.isProbabilityMeasure
  obtain ⟨L, hL⟩ := Sampler.cholesky_exists hpd
  have hLu : IsUnit L.det := isUnit_iff_ne_zero.mpr hL.det_ne_zero
  set B := L⁻¹ with hB
  have hKB : K⁻¹ = Bᵀ * B := by
    rw [← hL.2.2, Matrix.mul_inv_rev, hB, transpose_nonsing_inv]
  have hBKB : B * K * Bᵀ = 1 := by
    rw [← hL.2.2, hB, ← Matrix.mul_assoc, nonsing_inv_mul _ hLu, Matrix.one_mul, ← transpose_mul, nonsing_inv_mul _ hLu, transpose_one]
  let Z : Fin n → Ω → ℝ := fun i ω => ∑ j, B i j * F j ω
  have mF : ∀ j, MemLp (F j) 2 P := fun j => (hF.eval j).memLp_two
  have hq : ∀ ω, Spec.quadForm K (fun i => F i ω) = ∑ i, Z i ω ^ 2 := fun ω => by
    unfold Spec.quadForm
    rw [hKB, ← mulVec_mulVec, dotProduct_mulVec, vecMul_transpose]
    simp only [dotProduct, mulVec, Z, sq]
  have hZ : HasGaussianLaw (fun ω i => Z i ω) P := by
    have := hF.map_fun (LinearMap.toContinuousLinearMap (Matrix.toLin' B))
    exact this
  have zZ : ∀ i, P[Z i] = 0 := fun i => by
    show ∫ ω, ∑ j, B i j * F j ω ∂P = 0
    rw [integral_finsetSum _ fun j _ => ((mF j).integrable one_le_two).const_mul _]
    simp only [integral_const_mul, zF, mul_zero, Finset.sum_const_zero]
  have cZ : ∀ i k, cov[Z i, Z k; P] = if i = k then s else 0 := fun i k => by
    show cov[fun ω => ∑ j, B i j * F j ω, fun ω => ∑ j, B k j * F j ω; P] = _
    rw [covariance_fun_sum_fun_sum (fun j => (mF j).const_mul _) (fun j => (mF j).const_mul _)]
    simp only [covariance_const_mul_left, covariance_const_mul_right, hFF]
    have := congrFun (congrFun hBKB i) k
    simp only [Matrix.mul_apply, Matrix.transpose_apply, Matrix.one_apply, Finset.sum_mul] at this
    calc _ = s * ∑ x, ∑ x_1, B i x_1 * K x_1 x * B k x := by
          rw [Finset.sum_comm]
          simp only [Finset.mul_sum]
          exact Finset.sum_congr rfl fun _ _ => Finset.sum_congr rfl fun _ _ => by ring
      _ = _ := by rw [this]; split <;> simp
  have hZi : ∀ i, HasGaussianLaw (Z i) P := fun i => hZ.eval i
  have hind : iIndepFun Z P := hZ.iIndepFun_of_covariance_eq_zero fun i j hij => by rw [cZ, if_neg hij]
  have sq := fun i => gaussian_sq (hZi i) (zZ i) (s := s) (by rw [← covariance_self (hZi i).aemeasurable, cZ, if_pos rfl])
  simp only [hq]
  refine ⟨memLp_finsetSum _ fun i _ => (sq i).1, ?_, ?_⟩
  · rw [integral_finsetSum _ fun i _ => (sq i).1.integrable one_le_two]
    simp only [(sq _).2.1, Finset.sum_const, Finset.card_univ, Fintype.card_fin, nsmul_eq_mul]
    ring
  · have := IndepFun.variance_sum (μ := P) (X := fun i ω => Z i ω ^ 2) (s := Finset.univ) (fun i _ => (sq i).1)
      (fun i _ j _ hij => (hind.indepFun hij).comp (φ := fun x : ℝ => x ^ 2) (ψ := fun x : ℝ => x ^ 2) (by fun_prop) (by fun_prop))
    have e : (fun ω => ∑ i, Z i ω ^ 2) = ∑ i, fun ω => Z i ω ^ 2 := by funext ω; simp
    rw [e, this]
    simp only [(sq _).2.2, Finset.sum_const, Finset.card_univ, Fintype.card_fin, nsmul_eq_mul]
    ring

/-- The variance of an average is at most the largest variance. -/
theorem variance_average {Ω : Type*} [MeasurableSpace Ω] {P : Measure Ω} [IsProbabilityMeasure P] {b : Nat} (hb : 0 < b) {X : Nat → Ω → ℝ} {a V : ℝ}
    (mX : ∀ p < b, MemLp (X p) 2 P) (eX : ∀ p < b, P[X p] = a) (vX : ∀ p < b, Var[X p; P] = V) :
    MemLp (fun ω => (1 / (b : ℝ)) * ∑ p ∈ Finset.range b, X p ω) 2 P ∧ ∫ ω, (1 / (b : ℝ)) * ∑ p ∈ Finset.range b, X p ω ∂P = a ∧
      Var[fun ω => (1 / (b : ℝ)) * ∑ p ∈ Finset.range b, X p ω; P] ≤ V := by
  have hb' : (0 : ℝ) < b := Nat.cast_pos.mpr hb
  have m : MemLp (fun ω => (1 / (b : ℝ)) * ∑ p ∈ Finset.range b, X p ω) 2 P :=
    (memLp_finsetSum _ fun p hp => mX p (Finset.mem_range.mp hp)).const_mul _
  have e : ∫ ω, (1 / (b : ℝ)) * ∑ p ∈ Finset.range b, X p ω ∂P = a := by
    rw [integral_const_mul, integral_finsetSum _ fun p hp => (mX p (Finset.mem_range.mp hp)).integrable one_le_two,
      Finset.sum_congr rfl fun p hp => eX p (Finset.mem_range.mp hp)]
    simp only [Finset.sum_const, Finset.card_range, nsmul_eq_mul]
    field_simp
  refine ⟨m, e, ?_⟩
  have hsq : ∀ p < b, Integrable (fun ω => (X p ω - a) ^ 2) P := fun p hp => ((mX p hp).sub (memLp_const a)).integrable_sq
  rw [variance_eq_integral m.aemeasurable, e]
  calc ∫ ω, ((1 / (b : ℝ)) * ∑ p ∈ Finset.range b, X p ω - a) ^ 2 ∂P ≤ ∫ ω, (1 / (b : ℝ)) * ∑ p ∈ Finset.range b, (X p ω - a) ^ 2 ∂P := by
        refine integral_mono ((m.sub (memLp_const a)).integrable_sq)
          ((integrable_finsetSum _ fun p hp => hsq p (Finset.mem_range.mp hp)).const_mul _) fun ω => ?_
        have h1 := sq_sum_le_card_mul_sum_sq (s := Finset.range b) (f := fun p => X p ω - a)
        rw [Finset.card_range, Finset.sum_sub_distrib, Finset.sum_const, Finset.card_range, nsmul_eq_mul] at h1
        have h2 : (1 / (b : ℝ)) * ∑ p ∈ Finset.range b, X p ω - a = (1 / (b : ℝ)) * (∑ p ∈ Finset.range b, X p ω - b * a) := by
          field_simp
        show ((1 / (b : ℝ)) * ∑ p ∈ Finset.range b, X p ω - a) ^ 2 ≤ _
        rw [h2, mul_pow]
        calc _ ≤ (1 / (b : ℝ)) ^ 2 * (b * ∑ p ∈ Finset.range b, (X p ω - a) ^ 2) := mul_le_mul_of_nonneg_left h1 (by positivity)
          _ = _ := by field_simp
    _ = V := by
        rw [integral_const_mul, integral_finsetSum _ fun p hp => hsq p (Finset.mem_range.mp hp)]
        rw [Finset.sum_congr rfl fun p hp => show ∫ ω, (X p ω - a) ^ 2 ∂P = V by
          have hp := Finset.mem_range.mp hp
          rw [← vX p hp, variance_eq_integral (mX p hp).aemeasurable, eX p hp]]
        simp only [Finset.sum_const, Finset.card_range, nsmul_eq_mul]
        field_simp

/-- The lemma behind `C111_accuracy_partial` and `C111_matern_partial`. -/
theorem scale_accuracy (bs : Flt → ℝ → ℝ) (L : Learner) (hmade : L.Made) (hsk : L.scaleKind = .analytic 1)
    (w : NNWrapper) (hw : w.Exact) (len : Fin w.f → ℝ) (hlen : L.deform.HasLengths w.f len)
    (bc : Nat) (hbc : 0 < bc) (draw : List Nat) (hd : bc < w.N → IsDraw w.N bc draw) (sd : List (List Nat)) (hN : 0 < w.N)
    (hk0 : 0 < w.nnCount) (hkN : w.nnCount + 1 ≤ w.N)
    (C : (Fin w.f → ℝ) → (Fin w.f → ℝ) → ℝ) (τ : ℝ) (hC : L.Reflects bs w len C τ)
    (s : ℝ) (hs : 0 < s) {Ω : Type*} [MeasurableSpace Ω] (P : Measure Ω) [IsProbabilityMeasure P] {m : Nat} (q : Fin m → Fin w.f → ℝ)
    (G : Fin m → Ω → ℝ) (Y : Ω → Tensor ℝ) (hobs : Observed P w C s τ q G Y) :
    ∃ idx nn, sampleBatch w bc w.N draw = .ok (idx, nn) ∧
      ∃ est : Ω → ℝ, MemLp est 2 P ∧ ∫ ω, est ω ∂P = s ∧ Var[est; P] ≤ 2 * s ^ 2 / w.nnCount ∧
        (min bc w.N = 1 → Var[est; P] = 2 * s ^ 2 / w.nnCount) ∧
        (∀ ε > 0, P {ω | ε * s ≤ |est ω - s|} ≤ ENNReal.ofReal (2 / (w.nnCount * ε ^ 2))) ∧
        ∀ᵐ ω ∂P, 0 < est ω ∧ ∃ d, L.trainData (idx, nn) w.train (Y ω) = .ok d ∧
          L.optimizeScale bs sd d.pairwise d.nnTargets = .ok { L with scale := est ω, boundScale := est ω } := by
  obtain ⟨idx, nn, h1, hb0, hb, K, F, hF, hae⟩ := scale_sample bs L hmade w hw len hlen bc hbc draw hd sd hN hk0 hkN C τ hC s hs P q G Y hobs
  have hn : (0 : ℝ) < w.nnCount := Nat.cast_pos.mpr hk0
  have hb' : (0 : ℝ) < idx.length := Nat.cast_pos.mpr hb0
  set X : Nat → Ω → ℝ := fun p ω => (1 / (w.nnCount : ℝ)) * Spec.quadForm (K p) fun j => F p j ω with hX
  have key := fun p (hp : p < idx.length) => quadForm_variance (hF p hp).2.1 (hF p hp).2.2.1 (K p) s (hF p hp).2.2.2 (hF p hp).1
  have mX : ∀ p < idx.length, MemLp (X p) 2 P := fun p hp => (key p hp).1.const_mul _
  have eX : ∀ p < idx.length, P[X p] = s := fun p hp => by
    rw [hX]
    simp only
    rw [integral_const_mul, (key p hp).2.1]
    field_simp
  have vX : ∀ p < idx.length, Var[X p; P] = 2 * s ^ 2 / w.nnCount := fun p hp => by
    rw [hX]
    simp only
    rw [variance_const_mul, (key p hp).2.2]
    field_simp
  obtain ⟨a1, a2, a3⟩ := variance_average hb0 mX eX vX
  have hest : (fun ω => Spec.scaleEstimate idx.length K (fun p j => F p j ω)) = fun ω => (1 / (idx.length : ℝ)) * ∑ p ∈ Finset.range idx.length, X p ω := by
    funext ω
    simp only [Spec.scaleEstimate, hX, ← Finset.mul_sum]
    field_simp
  refine ⟨idx, nn, h1, fun ω => Spec.scaleEstimate idx.length K (fun p j => F p j ω), ?_, ?_, ?_, fun h => ?_, fun ε hε => ?_, hae.mono fun ω ⟨a, d, b, c⟩ => ⟨a, d, b, c 0 hsk⟩⟩
  · rw [hest]; exact a1
  · rw [show (∫ ω, Spec.scaleEstimate idx.length K (fun p j => F p j ω) ∂P) = ∫ ω, (1 / (idx.length : ℝ)) * ∑ p ∈ Finset.range idx.length, X p ω ∂P from
      congrArg (fun f : Ω → ℝ => ∫ ω, f ω ∂P) hest]
    exact a2
  · rw [hest]; exact a3
  · rw [hest, hb, h]
    simpa using vX 0 hb0
  · have hm : MemLp (fun ω => Spec.scaleEstimate idx.length K (fun p j => F p j ω)) 2 P := by rw [hest]; exact a1
    have he : ∫ ω, Spec.scaleEstimate idx.length K (fun p j => F p j ω) ∂P = s := by
      refine Eq.trans ?_ a2
      exact congrArg (fun f : Ω → ℝ => ∫ ω, f ω ∂P) hest
    have hc := meas_ge_le_variance_div_sq hm (mul_pos hε hs)
    rw [he] at hc
    refine hc.trans (ENNReal.ofReal_le_ofReal ?_)
    have hv : Var[fun ω => Spec.scaleEstimate idx.length K (fun p j => F p j ω); P] ≤ 2 * s ^ 2 / w.nnCount := by rw [hest]; exact a3
    calc _ ≤ 2 * s ^ 2 / w.nnCount / (ε * s) ^ 2 := div_le_div_of_nonneg_right hv (by positivity)
      _ = _ := by field_simp

/-- **C111**: let the responses of the training points be the values of a Gaussian process with the model's kernel and noise level, of unknown variance
scale `s`. Then on every batch `sample_batch` returns, the scale `optimize_scale` sets has mean `s` and variance at most `2 s² / nn_count`, with equality for
a batch of one point, so that it misses `s` by the fraction `ε` or more with probability at most `2 / (nn_count ε²)`. -/
theorem C111_accuracy_partial (bs : Flt → ℝ → ℝ) (L : Learner) (hmade : L.Made) (hsk : L.scaleKind = .analytic 1)
    (hsuit : L.fn.Suits L.deform.metric) (w : NNWrapper) (hw : w.Exact) (len : Fin w.f → ℝ) (hlen : L.deform.HasLengths w.f len)
    (bc : Nat) (hbc : 0 < bc) (draw : List Nat) (hd : bc < w.N → IsDraw w.N bc draw) (sd : List (List Nat)) (hN : 0 < w.N)
    (hk0 : 0 < w.nnCount) (hkN : w.nnCount + 1 ≤ w.N)
    (τ : ℝ) (hτ : L.trainee.R.gp.noise.Level τ)
    (hreg : L.trainee.R.gp.noise.Suffices (min bc w.N) w.nnCount (DistinctRows w.train w.N w.f))
    (s : ℝ) (hs : 0 < s) {Ω : Type*} [MeasurableSpace Ω] (P : Measure Ω) [IsProbabilityMeasure P] {m : Nat} (q : Fin m → Fin w.f → ℝ)
    (G : Fin m → Ω → ℝ) (Y : Ω → Tensor ℝ) (hobs : Observed P w (L.trainee.R.kernel.covFn bs len) s τ q G Y) :
    ∃ idx nn, sampleBatch w bc w.N draw = .ok (idx, nn) ∧
      ∃ est : Ω → ℝ, MemLp est 2 P ∧ ∫ ω, est ω ∂P = s ∧ Var[est; P] ≤ 2 * s ^ 2 / w.nnCount ∧
        (min bc w.N = 1 → Var[est; P] = 2 * s ^ 2 / w.nnCount) ∧
        (∀ ε > 0, P {ω | ε * s ≤ |est ω - s|} ≤ ENNReal.ofReal (2 / (w.nnCount * ε ^ 2))) ∧
        ∀ᵐ ω ∂P, 0 < est ω ∧ ∃ d, L.trainData (idx, nn) w.train (Y ω) = .ok d ∧
          L.optimizeScale bs sd d.pairwise d.nnTargets = .ok { L with scale := est ω, boundScale := est ω } := by
  exact scale_accuracy bs L hmade hsk w hw len hlen bc hbc draw hd sd hN hk0 hkN _ τ (reflects_closed bs L hsuit w hw len hlen τ hτ _ hreg) s hs P q G Y hobs

/-- **C111** with the general Matérn implementation: the responses come from the true Matérn process, with the noise variance `τ` minus the deficit (C62). -/
theorem C111_matern_partial (L : Learner) (hmade : L.Made) (hsk : L.scaleKind = .analytic 1)
    (hg : L.fn = .gen) (hm2 : L.deform.metric = .l2) (w : NNWrapper) (hw : w.Exact) (len : Fin w.f → ℝ) (hlen : L.deform.HasLengths w.f len)
    (bc : Nat) (hbc : 0 < bc) (draw : List Nat) (hd : bc < w.N → IsDraw w.N bc draw) (sd : List (List Nat)) (hN : 0 < w.N)
    (hk0 : 0 < w.nnCount) (hkN : w.nnCount + 1 ≤ w.N)
    (q : Param) (ν : ℝ) (hν : 0 < ν) (hsm : L.kernel.smoothness = some q) (hq : q.val = Flt.fin ν) (hdis : DistinctRows w.train w.N w.f)
    (τ : ℝ) (hτ : L.trainee.R.gp.noise.Level τ) (hdef : deficit ν < τ)
    (s : ℝ) (hs : 0 < s) {Ω : Type*} [MeasurableSpace Ω] (P : Measure Ω) [IsProbabilityMeasure P] {m : Nat} (z : Fin m → Fin w.f → ℝ)
    (G : Fin m → Ω → ℝ) (Y : Ω → Tensor ℝ) (hobs : Observed P w (maternProcess ν len) s (τ - deficit ν) z G Y) :
    ∃ idx nn, sampleBatch w bc w.N draw = .ok (idx, nn) ∧
      ∃ est : Ω → ℝ, MemLp est 2 P ∧ ∫ ω, est ω ∂P = s ∧ Var[est; P] ≤ 2 * s ^ 2 / w.nnCount ∧
        (min bc w.N = 1 → Var[est; P] = 2 * s ^ 2 / w.nnCount) ∧
        (∀ ε > 0, P {ω | ε * s ≤ |est ω - s|} ≤ ENNReal.ofReal (2 / (w.nnCount * ε ^ 2))) ∧
        ∀ᵐ ω ∂P, 0 < est ω ∧ ∃ d, L.trainData (idx, nn) w.train (Y ω) = .ok d ∧
          L.optimizeScale maternGen sd d.pairwise d.nnTargets = .ok { L with scale := est ω, boundScale := est ω } := by
  exact scale_accuracy maternGen L hmade hsk w hw len hlen bc hbc draw hd sd hN hk0 hkN _ _ (reflects_gen L hg hm2 w hw len hlen hdis q ν hν hsm hq τ hτ hdef)
    s hs P z G Y hobs

/-- Non-vacuity of `C111_accuracy_partial`: three training points on a line, two neighbours, noise, true scale 5; the estimate is off by more than a factor 3 with
probability at most a quarter. -/
example (bs : Flt → ℝ → ℝ) : ∃ (w : NNWrapper) (Ω : Type) (_ : MeasurableSpace Ω) (P : Measure Ω) (_ : IsProbabilityMeasure P)
    (Y : Ω → Tensor ℝ) (nn : Tensor Int) (est : Ω → ℝ), w.train = lineTrain ∧ Var[est; P] ≤ 25 ∧ P {ω | 2 * 5 ≤ |est ω - 5|} ≤ ENNReal.ofReal (1 / 4) ∧
      ∀ᵐ ω ∂P, ∃ d, lineLearner.trainData ([0, 1, 2], nn) lineTrain (Y ω) = .ok d ∧
        lineLearner.optimizeScale bs [] d.pairwise d.nnTargets = .ok { lineLearner with scale := est ω, boundScale := est ω } := by
  obtain ⟨answer, hw⟩ := line_exact
  set w : NNWrapper := ⟨3, 1, lineTrain, 2, fun x y => |x 0 - y 0|, false, answer⟩ with hwd
  obtain ⟨Ω, i1, P, i2, G, Y, h⟩ := observed_exists bs lineLearner.trainee.R.kernel rfl w (fun _ => 1) 5 1 (by norm_num) zero_le_one
    (fun p : Fin 2 => rowPt lineTest w.f p)
  obtain ⟨idx, nn, h1, est, -, -, h3, -, h5, h4⟩ := C111_accuracy_partial bs lineLearner rfl rfl rfl w hw (fun _ => 1) ⟨1, one_pos, rfl, fun _ => rfl⟩
    3 (by norm_num) [] (fun h => absurd h (lt_irrefl 3)) [] (by norm_num [hwd]) (by norm_num [hwd]) (by norm_num [hwd]) 1 rfl
    (.inl one_pos) 5 (by norm_num) P _ G Y h
  have hidx : idx = [0, 1, 2] := by
    unfold sampleBatch at h1
    rw [if_neg (by norm_num [hwd])] at h1
    simp only [bind, Except.bind] at h1
    cases hg : w.getBatchNns (ofNats (List.range w.N)) with
    | error z => rw [hg] at h1; cases h1
    | ok r => rw [hg] at h1; exact (congrArg Prod.fst (Except.ok.inj h1)).symm
  subst hidx
  have h6 := h5 2 two_pos
  norm_num [hwd] at h3 h6
  refine ⟨w, Ω, i1, P, i2, Y, nn, est, rfl, h3, ?_, h4.mono fun ω h => h.2⟩
  norm_num
  exact h6

/-- The lemma behind `C111_iterations_fail` and `C111_matern_iterations_fail`. -/
theorem scale_inaccurate (bs : Flt → ℝ → ℝ) (L : Learner) (hmade : L.Made) (t : Nat) (hsk : L.scaleKind = .analytic (t + 2))
    (w : NNWrapper) (hw : w.Exact) (len : Fin w.f → ℝ) (hlen : L.deform.HasLengths w.f len)
    (bc : Nat) (hbc : 0 < bc) (draw : List Nat) (hd : bc < w.N → IsDraw w.N bc draw) (sd : List (List Nat)) (hN : 0 < w.N)
    (hk0 : 0 < w.nnCount) (hkN : w.nnCount + 1 ≤ w.N)
    (C : (Fin w.f → ℝ) → (Fin w.f → ℝ) → ℝ) (τ : ℝ) (hC : L.Reflects bs w len C τ)
    (s : ℝ) (hs : 9 ≤ s) {Ω : Type*} [MeasurableSpace Ω] (P : Measure Ω) [IsProbabilityMeasure P] {m : Nat} (q : Fin m → Fin w.f → ℝ)
    (G : Fin m → Ω → ℝ) (Y : Ω → Tensor ℝ) (hobs : Observed P w C s τ q G Y) :
    ∃ idx nn, sampleBatch w bc w.N draw = .ok (idx, nn) ∧
      ∃ est : Ω → ℝ, (∀ᵐ ω ∂P, ∃ d, L.trainData (idx, nn) w.train (Y ω) = .ok d ∧
          L.optimizeScale bs sd d.pairwise d.nnTargets = .ok { L with scale := est ω, boundScale := est ω }) ∧
        1 / 4 ≤ P.real {ω | est ω < 3 / 4 * s} := by
  obtain ⟨idx, nn, h1, est, hi, hae, hle, -, -, hpos⟩ :=
    scale_iterated bs L hmade t hsk w hw len hlen bc hbc draw hd sd hN hk0 hkN C τ hC s (by linarith) P q G Y hobs
  refine ⟨idx, nn, h1, est, hae, ?_⟩
  have hmk := mul_meas_ge_le_integral_of_nonneg (hpos.mono fun ω h => h.le) hi (3 / 4 * s)
  have hA : MeasureTheory.NullMeasurableSet {ω | 3 / 4 * s ≤ est ω} P := nullMeasurableSet_le aemeasurable_const hi.aemeasurable
  have hc : P.real {ω | est ω < 3 / 4 * s} = 1 - P.real {ω | 3 / 4 * s ≤ est ω} := by
    rw [← probReal_compl_eq_one_sub₀ hA]
    congr 1
    ext ω
    simp
  have : P.real {ω | 3 / 4 * s ≤ est ω} ≤ 3 / 4 := by
    have h2 : 3 / 4 * s * P.real {ω | 3 / 4 * s ≤ est ω} ≤ (s + 1) / 2 := hmk.trans hle
    by_contra hlt
    push Not at hlt
    nlinarith
  rw [hc]
  linarith

/-- **C111 is false of the code for two or more iterations**: for every model with `iteration_count = t + 2` and every true scale `s ≥ 9`, the estimate is
more than a quarter too small with probability at least a quarter — however many neighbours and batch points there are. -/
theorem C111_iterations_fail (bs : Flt → ℝ → ℝ) (L : Learner) (hmade : L.Made) (t : Nat) (hsk : L.scaleKind = .analytic (t + 2))
    (hsuit : L.fn.Suits L.deform.metric) (w : NNWrapper) (hw : w.Exact) (len : Fin w.f → ℝ) (hlen : L.deform.HasLengths w.f len)
    (bc : Nat) (hbc : 0 < bc) (draw : List Nat) (hd : bc < w.N → IsDraw w.N bc draw) (sd : List (List Nat)) (hN : 0 < w.N)
    (hk0 : 0 < w.nnCount) (hkN : w.nnCount + 1 ≤ w.N)
    (τ : ℝ) (hτ : L.trainee.R.gp.noise.Level τ)
    (hreg : L.trainee.R.gp.noise.Suffices (min bc w.N) w.nnCount (DistinctRows w.train w.N w.f))
    (s : ℝ) (hs : 9 ≤ s) {Ω : Type*} [MeasurableSpace Ω] (P : Measure Ω) [IsProbabilityMeasure P] {m : Nat} (q : Fin m → Fin w.f → ℝ)
    (G : Fin m → Ω → ℝ) (Y : Ω → Tensor ℝ) (hobs : Observed P w (L.trainee.R.kernel.covFn bs len) s τ q G Y) :
    ∃ idx nn, sampleBatch w bc w.N draw = .ok (idx, nn) ∧
      ∃ est : Ω → ℝ, (∀ᵐ ω ∂P, ∃ d, L.trainData (idx, nn) w.train (Y ω) = .ok d ∧
          L.optimizeScale bs sd d.pairwise d.nnTargets = .ok { L with scale := est ω, boundScale := est ω }) ∧
        1 / 4 ≤ P.real {ω | est ω < 3 / 4 * s} := by
  exact scale_inaccurate bs L hmade t hsk w hw len hlen bc hbc draw hd sd hN hk0 hkN _ τ (reflects_closed bs L hsuit w hw len hlen τ hτ _ hreg) s hs P q G Y hobs

/-- `C111_iterations_fail` with the general Matérn implementation. -/
theorem C111_matern_iterations_fail (L : Learner) (hmade : L.Made) (t : Nat) (hsk : L.scaleKind = .analytic (t + 2))
    (hg : L.fn = .gen) (hm2 : L.deform.metric = .l2) (w : NNWrapper) (hw : w.Exact) (len : Fin w.f → ℝ) (hlen : L.deform.HasLengths w.f len)
    (bc : Nat) (hbc : 0 < bc) (draw : List Nat) (hd : bc < w.N → IsDraw w.N bc draw) (sd : List (List Nat)) (hN : 0 < w.N)
    (hk0 : 0 < w.nnCount) (hkN : w.nnCount + 1 ≤ w.N)
    (q : Param) (ν : ℝ) (hν : 0 < ν) (hsm : L.kernel.smoothness = some q) (hq : q.val = Flt.fin ν) (hdis : DistinctRows w.train w.N w.f)
    (τ : ℝ) (hτ : L.trainee.R.gp.noise.Level τ) (hdef : deficit ν < τ)
    (s : ℝ) (hs : 9 ≤ s) {Ω : Type*} [MeasurableSpace Ω] (P : Measure Ω) [IsProbabilityMeasure P] {m : Nat} (z : Fin m → Fin w.f → ℝ)
    (G : Fin m → Ω → ℝ) (Y : Ω → Tensor ℝ) (hobs : Observed P w (maternProcess ν len) s (τ - deficit ν) z G Y) :
    ∃ idx nn, sampleBatch w bc w.N draw = .ok (idx, nn) ∧
      ∃ est : Ω → ℝ, (∀ᵐ ω ∂P, ∃ d, L.trainData (idx, nn) w.train (Y ω) = .ok d ∧
          L.optimizeScale maternGen sd d.pairwise d.nnTargets = .ok { L with scale := est ω, boundScale := est ω }) ∧
        1 / 4 ≤ P.real {ω | est ω < 3 / 4 * s} := by
  exact scale_inaccurate maternGen L hmade t hsk w hw len hlen bc hbc draw hd sd hN hk0 hkN _ _ (reflects_gen L hg hm2 w hw len hlen hdis q ν hν hsm hq τ hτ hdef)
    s hs P z G Y hobs

/-- Non-vacuity of `C111_iterations_fail`: true scale 9, two iterations. -/
example (bs : Flt → ℝ → ℝ) : ∃ (w : NNWrapper) (Ω : Type) (_ : MeasurableSpace Ω) (P : Measure Ω) (_ : IsProbabilityMeasure P)
    (est : Ω → ℝ), w.train = lineTrain ∧ 1 / 4 ≤ P.real {ω | est ω < 3 / 4 * 9} ∧
      ∀ᵐ ω ∂P, ∃ d : TrainData, ({ lineLearner with scaleKind := .analytic 2 } : Learner).optimizeScale bs [] d.pairwise d.nnTargets =
        .ok { lineLearner with scaleKind := .analytic 2, scale := est ω, boundScale := est ω } := by
  obtain ⟨answer, hw⟩ := line_exact
  set w : NNWrapper := ⟨3, 1, lineTrain, 2, fun x y => |x 0 - y 0|, false, answer⟩ with hwd
  obtain ⟨Ω, i1, P, i2, G, Y, h⟩ := observed_exists bs lineLearner.trainee.R.kernel rfl w (fun _ => 1) 9 1 (by norm_num) zero_le_one
    (fun p : Fin 2 => rowPt lineTest w.f p)
  obtain ⟨idx, nn, h1, est, h3, h4⟩ := C111_iterations_fail bs { lineLearner with scaleKind := .analytic 2 } rfl 0 rfl rfl w hw (fun _ => 1)
    ⟨1, one_pos, rfl, fun _ => rfl⟩ 3 (by norm_num) [] (fun h => absurd h (lt_irrefl 3)) [] (by norm_num [hwd]) (by norm_num [hwd])
    (by norm_num [hwd]) 1 rfl (.inl one_pos) 9 le_rfl P _ G Y h
  exact ⟨w, Ω, i1, P, i2, est, rfl, h4, h3.mono fun ω ⟨d, _, b⟩ => ⟨d, b⟩⟩

end MuyGPyS
