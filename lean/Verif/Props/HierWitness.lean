import Verif.Props.HierWorkflow
import Verif.Props.UpdateWitness
import Mathlib.Analysis.Complex.ExponentialBounds

/-! # C82: positive knots, negative length scale, negative variance -/

namespace MuyGPyS
open Py Py.Tensor Matrix

theorem scaleBy_one (m : Metric) (x : ℝ) : m.scaleBy x 1 = x := by cases m <;> simp [Metric.scaleBy]

/-- The distances a nonstationary kernel starts from, and its entries, whatever the sign of the length scales. -/
theorem hier_entries (bessel : Flt → ℝ → ℝ) (m : Metric) (h : Hier) (sm : Option Param) (gp : MuyGPS)
    (Q X Y B len : Tensor ℝ) (idx nn : Tensor Int) (M N f r b n : Nat) (hQ : IsTable Q M f) (hX : IsTable X N f)
    (hY : IsTable Y N r) (hrank : Q.shape.length = X.shape.length) (hi : idx.shape = [b]) (hnn : nn.shape = [b, n])
    (hvi : AllValid M idx) (hv : AllValid N nn) (ℓ : Nat → ℝ) (hc : h.call bessel B [] = .ok len) (hl : OnePer len b ℓ) :
    ∃ K C Z, hierTensors bessel ⟨HierKernel.create m h sm, gp⟩ (some B) idx nn Q X Y = .ok (K, C, Z) ∧
      K.shape = [b, n, n] ∧ C.shape = [b, n] ∧ Z.shape = [b, n] ++ Y.shape.tail ∧
      (∀ p i j, p < b → i < n → j < n → K.get [p, i, j] =
        KFn.value bessel ((sm.map Param.val).getD none) (HierKernel.create m h sm).fn
          (m.scaleBy (distOf m (pt X f (pointOf N (nn.get [p, i]))) (pt X f (pointOf N (nn.get [p, j])))) (ℓ p))) ∧
      ∀ p j, p < b → j < n → C.get [p, j] =
        KFn.value bessel ((sm.map Param.val).getD none) (HierKernel.create m h sm).fn
          (m.scaleBy (distOf m (pt Q f (pointOf M (idx.get [p]))) (pt X f (pointOf N (nn.get [p, j])))) (ℓ p)) := by
  set R : HierRegressor := ⟨HierKernel.create m h sm, gp⟩ with hR
  obtain ⟨D, T₁, d1, d2, d3, d4⟩ := pairwise_entries (R.stationary 1).kernel.deform X nn N f b n (fun _ => 1)
    (stationary_lengths R 1 one_pos f) hX hnn hv
  obtain ⟨E, T₂, e1, e2, e3, e4⟩ := crosswise_entries (R.stationary 1).kernel.deform Q X idx nn M N f b n (fun _ => 1)
    (stationary_lengths R 1 one_pos f) hQ hX hrank hi hnn hvi hv
  have hcall : ∀ D : Tensor ℝ, (R.stationary 1).kernel.deform.call D ((R.stationary 1).kernel.deform.filter []).1 = .ok D := by
    intro D
    have e : (D.map fun x => m.scaleBy x 1) = D := by
      cases D
      simp [Tensor.map, scaleBy_one]
    simp only [HierRegressor.stationary, Deform.call, Deform.filter, filterScalar, Dict.setdefault, Dict.has, Dict.get?,
      HierKernel.create, hR]
    simp [fin_toReal, e]
  have hs : ∀ (Z : Tensor ℝ) (N i), scaledPoint Z N f (fun _ => 1) i = pt Z f (pointOf N i) := by
    intro Z N i
    funext c
    simp [scaledPoint, pt]
  obtain rfl : D = T₁ := Except.ok.inj ((hcall D).symm.trans d2)
  obtain rfl : E = T₂ := Except.ok.inj ((hcall E).symm.trans e2)
  obtain ⟨K, k1, k2, k3⟩ := C52_kernel bessel m h sm D B len b [n, n] d3 ℓ hc hl
  obtain ⟨C, c1, c2, c3⟩ := C52_kernel bessel m h sm E B len b [n] e3 ℓ hc hl
  obtain ⟨Z, z1, z2, z3⟩ := take_targets hY hv
  refine ⟨K, C, Z, ?_, k2, c2, by rw [z2, hnn], fun p i j hp hi' hj => ?_, fun p j hp hj => ?_⟩
  · unfold hierTensors makePredictTensors
    have d1' : defPairwise .isotropy m X nn = .ok D := d1
    have e1' : defCrosswise .isotropy m Q X idx nn = .ok E := e1
    have hm : R.kernel.metric = m := rfl
    have hk : R.kernel = HierKernel.create m h sm := rfl
    simp only [Option.getD_some, hm, d1', e1', z1, bind, Except.bind, pure, Except.pure]
    simp only [hk, k1, c1]
  · rw [block_get3 k2, k3 p hp _ (by
      simp only [List.prod_cons, List.prod_nil, Nat.mul_one]
      calc i * n + j < i * n + n := by omega
        _ = (i + 1) * n := by ring
        _ ≤ n * n := Nat.mul_le_mul_right _ (by omega)), ← block_get3 d3, d4 p i j hp hi' hj, hs, hs]
    rfl
  · rw [block_get2 c2, c3 p hp _ (by simpa using hj), ← block_get2 e3, e4 p j hp hj, hs, hs]
    rfl

/-- Kriging from two points. -/
theorem kriging_pair (a ρ c₀ c₁ v₀ v₁ : ℝ) (h : a * a - ρ * ρ ≠ 0) :
    Spec.krigingMean !![a, ρ; ρ, a] ![c₀, c₁] ![v₀, v₁] =
      (c₀ * (a * v₀ - ρ * v₁) + c₁ * (a * v₁ - ρ * v₀)) / (a * a - ρ * ρ) := by
  unfold Spec.krigingMean
  have hdet : (!![a, ρ; ρ, a] : Matrix (Fin 2) (Fin 2) ℝ).det ≠ 0 := by
    rw [Matrix.det_fin_two_of]; exact h
  have hv : (!![a, ρ; ρ, a] : Matrix (Fin 2) (Fin 2) ℝ)⁻¹ *ᵥ ![v₀, v₁] =
      ![(a * v₀ - ρ * v₁) / (a * a - ρ * ρ), (a * v₁ - ρ * v₀) / (a * a - ρ * ρ)] := by
    have hm : (!![a, ρ; ρ, a] : Matrix (Fin 2) (Fin 2) ℝ) *ᵥ
        ![(a * v₀ - ρ * v₁) / (a * a - ρ * ρ), (a * v₁ - ρ * v₀) / (a * a - ρ * ρ)] = ![v₀, v₁] := by
      funext i
      fin_cases i
      · simp [Matrix.mulVec, dotProduct, Fin.sum_univ_two]
        rw [← mul_div_assoc, ← mul_div_assoc, ← add_div, div_eq_iff h]
        ring
      · simp [Matrix.mulVec, dotProduct, Fin.sum_univ_two]
        rw [← mul_div_assoc, ← mul_div_assoc, ← add_div, div_eq_iff h]
        ring
    rw [← hm, Matrix.mulVec_mulVec, Matrix.nonsing_inv_mul _ (isUnit_iff_ne_zero.2 hdet), Matrix.one_mulVec]
  rw [hv]
  simp [dotProduct, Fin.sum_univ_two]
  ring

/-- Two knots at 0 and 1. -/
noncomputable def twoKnots : Tensor ℝ := ⟨[2, 1], fun k => k⟩

/-- Their values: 1 and 10. -/
def twoValues : List Param := [⟨Flt.fin 1, Flt.fin 1, Flt.fin 20, false⟩, ⟨Flt.fin 10, Flt.fin 1, Flt.fin 20, false⟩]

theorem exHigher_cov (bessel : Flt → ℝ → ℝ) (x y : Fin 1 → ℝ) :
    exHigher.covFn bessel (fun _ => 1) x y = Real.exp (-(x 0 - y 0) ^ 2 / 2) := by
  simp [KernelObj.covFn, exHigher, KFn.value, Deform.metric, distOf_F2]

theorem two_length (bessel : Flt → ℝ → ℝ) (q : Fin 1 → ℝ) (hq : q 0 = -1) :
    knotLength bessel exHigher (fun _ => 1) twoKnots 2 (1 / 100000) (knotValues twoValues 2) q < 0 := by
  set ρ : ℝ := Real.exp (-1 / 2) with hρ
  have hρ0 : 0 < ρ := Real.exp_pos _
  have h4 : Real.exp (-2) = ρ ^ 4 := by rw [hρ, ← Real.exp_nat_mul]; norm_num
  have h2 : ρ ^ 2 = Real.exp (-1) := by rw [hρ, ← Real.exp_nat_mul]; norm_num
  have hlo : (0.36 : ℝ) < ρ ^ 2 := by
    rw [h2]; have := Real.exp_neg_one_gt_d9; linarith
  have hhi : ρ ^ 2 < 0.37 := by
    rw [h2]; have := Real.exp_neg_one_lt_d9; linarith
  have hρ1 : ρ < 0.61 := by nlinarith
  have e1 : knotCov bessel exHigher (fun _ : Fin 1 => 1) twoKnots 2 + (1 / 100000 : ℝ) • (1 : Matrix (Fin 2) (Fin 2) ℝ) =
      !![1 + 1 / 100000, ρ; ρ, 1 + 1 / 100000] := by
    ext i j
    fin_cases i <;> fin_cases j <;>
      simp [knotCov, exHigher_cov, pt, feature, twoKnots, Tensor.get, Tensor.ravel, hρ]
  have e2 : knotCross bessel exHigher (fun _ : Fin 1 => 1) twoKnots 2 q = ![ρ, ρ ^ 4] := by
    funext j
    fin_cases j
    · simp [knotCross, exHigher_cov, pt, feature, twoKnots, Tensor.get, Tensor.ravel, hq, hρ]
    · simp [knotCross, exHigher_cov, pt, feature, twoKnots, Tensor.get, Tensor.ravel, hq, ← h4]
      norm_num
  have e3 : knotValues twoValues 2 = ![1, 10] := by
    funext j
    fin_cases j <;> simp [knotValues, twoValues, fin_toReal]
  unfold knotLength
  rw [e1, e2, e3, kriging_pair _ _ _ _ _ _ (by nlinarith)]
  refine div_neg_of_neg_of_pos ?_ (by nlinarith)
  have : ρ ^ 4 = (ρ ^ 2) ^ 2 := by ring
  rw [this]
  nlinarith [sq_nonneg ρ]

/-- **C82** fails of the code: positive knot values do not keep the length scale positive. With the default higher-level kernel
and noise, knots at 0 and 1 with values 1 and 10 (bounds 1 and 20), the length scale at the point −1 is negative. A Matérn model
(`ν = 1/2`, no noise, unit scale) predicts there without an error, the covariance with a training point at 0 is above 1, and the
reported variance is negative. -/
theorem C82_positive_fails (bessel : Flt → ℝ → ℝ) (y : ℝ) :
    ∃ h, Hier.create bessel twoKnots twoValues exHigher Hier.defaultNoise = .ok h ∧
      (∃ L, h.call bessel ⟨[1, 1], fun _ => -1⟩ [] = .ok L ∧ L.shape = [] ∧ L.flat 0 < 0) ∧
      ∃ μ v, hierRegress bessel
          ⟨HierKernel.create .l2 h (some (fixedParam (Flt.fin (1 / 2)))), ⟨.homoscedastic 0, KernelObj.kout, 1, 1⟩⟩
          (arange 1) ⟨[1, 1], fun _ => 0⟩ ⟨[1, 1], fun _ => -1⟩ ⟨[1, 1], fun _ => 0⟩ ⟨[1], fun _ => y⟩ = .ok (μ, v) ∧
        v.get [0] < 0 := by
  set Q : Tensor ℝ := ⟨[1, 1], fun _ => -1⟩ with hQ
  set X : Tensor ℝ := ⟨[1, 1], fun _ => 0⟩ with hX
  set Y : Tensor ℝ := ⟨[1], fun _ => y⟩ with hY
  set nn : Tensor Int := ⟨[1, 1], fun _ => 0⟩ with hnn
  have hε : (0 : ℝ) < 1 / 100000 := by norm_num
  have hdet := Kriging.det_ne_zero (Kriging.posdef_of_psd_add (knotCov_definite bessel exHigher rfl twoKnots 2 1 (fun _ => 1)
    fun _ => one_pos).1 hε)
  have hQ1 : IsTable Q 1 1 := .inl rfl
  have hvi : AllValid 1 (arange 1) := arange_valid 1
  have hv : AllValid 1 nn := fun k _ => ⟨by simp [hnn], by simp [hnn]⟩
  obtain ⟨B, b1, b2, b3, b4⟩ := batchFeatures_ok Q (arange 1) 1 1 1 hQ1 rfl hvi
  have hpt : ∀ i, pt Q 1 i 0 = -1 := fun i => by simp [pt, feature, hQ, Tensor.get]
  obtain ⟨h, L, h1, h2, h3⟩ := C52_value bessel exHigher rfl twoKnots B twoValues (1 / 100000) 2 1 1 (fun _ => 1)
    (exHigher_lengths 1) (.inl rfl) b2 (by rw [b3]; rfl) rfl hdet
  obtain ⟨h', L', h1', h2', h3'⟩ := C52_value bessel exHigher rfl twoKnots Q twoValues (1 / 100000) 2 1 1 (fun _ => 1)
    (exHigher_lengths 1) (.inl rfl) hQ1 rfl rfl hdet
  obtain rfl : h = h' := Except.ok.inj (h1.symm.trans h1')
  have hlen := two_length bessel (pt Q 1 (pointOf 1 ((arange 1).get [0]))) (hpt _)
  set ℓ : ℝ := knotLength bessel exHigher (fun _ => 1) twoKnots 2 (1 / 100000) (knotValues twoValues 2)
    (pt Q 1 (pointOf 1 ((arange 1).get [0]))) with hℓ
  have hone : OnePer L 1 fun _ => ℓ := by
    refine ⟨h3.1, fun p hp => ?_⟩
    obtain rfl : p = 0 := by omega
    rw [h3.2 0 hp, hℓ, ← b4]
    rfl
  refine ⟨h, h1, ⟨L', h2', h3'.1, ?_⟩, ?_⟩
  · rw [h3'.2 0 one_pos]
    exact two_length bessel (pt Q 1 0) (hpt _)
  · have hfn : ∀ g, (HierKernel.create .l2 g (some (fixedParam (Flt.fin (1 / 2))))).fn = .m05 := fun g => form_half
    obtain ⟨K, C, Z, t1, t2, t3, t4, t5, t6⟩ := hier_entries bessel .l2 h (some (fixedParam (Flt.fin (1 / 2))))
      ⟨.homoscedastic 0, KernelObj.kout, 1, 1⟩ Q X Y B L (arange 1) nn 1 1 1 1 1 1 hQ1 (.inl rfl) (.inr ⟨rfl, rfl⟩) rfl rfl rfl hvi hv
      (fun _ => ℓ) h2 hone
    have hx : ∀ i, pt X 1 i = fun _ => 0 := fun i => by
      funext c
      simp [pt, feature, hX, Tensor.get]
    have hq : ∀ i, pt Q 1 i = fun _ => -1 := fun i => by
      funext c
      simp [pt, feature, hQ, Tensor.get]
    have hK : Spec.cov 1 K 0 = 1 := by
      ext i j
      obtain rfl : i = 0 := Subsingleton.elim _ _
      obtain rfl : j = 0 := Subsingleton.elim _ _
      have := t5 0 0 0 one_pos one_pos one_pos
      rw [hfn, hx, distOf_self] at this
      simp only [Spec.cov, Fin.val_zero, this, Matrix.one_apply_eq]
      simp [KFn.value, Metric.scaleBy]
    have hC : 1 < C.get [0, 0] := by
      have := t6 0 0 one_pos one_pos
      have hd : distOf .l2 (fun _ : Fin 1 => (-1 : ℝ)) (fun _ => 0) = 1 := by
        rw [distOf_l2_sqrt]; simp
      rw [hfn, hx, hq, hd] at this
      rw [this]
      simp only [KFn.value, Metric.scaleBy]
      rw [Real.one_lt_exp_iff]
      have : 1 / ℓ < 0 := one_div_neg.2 hlen
      linarith
    have hcov : Spec.cov 1 K 0 + (Noise.homoscedastic 0).mat 1 0 = 1 := by
      rw [hK]; simp [Noise.mat]
    have hd : ∀ p < 1, (Spec.cov 1 K p + (Noise.homoscedastic 0).mat 1 p).det ≠ 0 := fun p hp => by
      obtain rfl : p = 0 := by omega
      rw [hcov]; simp
    have hs : ∀ p < 1, (Spec.cov 1 K p).transpose = Spec.cov 1 K p := fun p hp => by
      obtain rfl : p = 0 := by omega
      rw [hK]; simp
    obtain ⟨μ, m1, -⟩ := C24_model_mean ⟨.homoscedastic 0, KernelObj.kout, 1, 1⟩ 1 1 trivial K C Z t2 t3 t4 hd hs
    obtain ⟨v, v1, -, v3⟩ := C24_model_variance ⟨.homoscedastic 0, KernelObj.kout, 1, 1⟩ 1 1 trivial K C rfl t2 t3 hd hs
    refine ⟨μ, v, ?_, ?_⟩
    · unfold hierRegress
      simp only [b1, t1, bind, Except.bind, m1, v1, pure, Except.pure]
    · rw [v3 0 one_pos]
      show 1 * Spec.krigingVar (KernelObj.kout.get []) (Spec.cov 1 K 0 + (Noise.homoscedastic 0).mat 1 0) _ < 0
      rw [hcov]
      have hk : KernelObj.kout.get [] = 1 := rfl
      rw [hk]
      simp only [Spec.krigingVar, Spec.krigingMean, inv_one, one_mulVec, one_mul]
      have : Spec.vec 1 C 0 ⬝ᵥ Spec.vec 1 C 0 = C.get [0, 0] * C.get [0, 0] := by
        simp [dotProduct, Spec.vec]
      rw [this]
      nlinarith

/-- Two knots with equal values: the length scale is positive everywhere. -/
theorem equal_length (bessel : Flt → ℝ → ℝ) (p₀ p₁ : Param) (h₀ : p₀.val = Flt.fin 3) (h₁ : p₁.val = Flt.fin 3) (q : Fin 1 → ℝ) :
    0 < knotLength bessel exHigher (fun _ => 1) twoKnots 2 (1 / 100000) (knotValues [p₀, p₁] 2) q := by
  set ρ : ℝ := Real.exp (-1 / 2) with hρ
  have hρ0 : 0 < ρ := Real.exp_pos _
  have hρ1 : ρ < 1 := by rw [hρ, Real.exp_lt_one_iff]; norm_num
  have e1 : knotCov bessel exHigher (fun _ : Fin 1 => 1) twoKnots 2 + (1 / 100000 : ℝ) • (1 : Matrix (Fin 2) (Fin 2) ℝ) =
      !![1 + 1 / 100000, ρ; ρ, 1 + 1 / 100000] := by
    ext i j
    fin_cases i <;> fin_cases j <;>
      simp [knotCov, exHigher_cov, pt, feature, twoKnots, Tensor.get, Tensor.ravel, hρ]
  have e2 : ∃ c₀ c₁ : ℝ, 0 < c₀ ∧ 0 < c₁ ∧ knotCross bessel exHigher (fun _ : Fin 1 => 1) twoKnots 2 q = ![c₀, c₁] := by
    refine ⟨knotCross bessel exHigher (fun _ : Fin 1 => 1) twoKnots 2 q 0, knotCross bessel exHigher (fun _ : Fin 1 => 1) twoKnots 2 q 1,
      ?_, ?_, ?_⟩
    · unfold knotCross; rw [exHigher_cov]; exact Real.exp_pos _
    · unfold knotCross; rw [exHigher_cov]; exact Real.exp_pos _
    · funext j
      fin_cases j <;> rfl
  obtain ⟨c₀, c₁, hc₀, hc₁, e2⟩ := e2
  have e3 : knotValues [p₀, p₁] 2 = ![3, 3] := by
    funext j
    fin_cases j <;> simp [knotValues, h₀, h₁, fin_toReal]
  unfold knotLength
  have hd : 0 < (1 + 1 / 100000 : ℝ) * (1 + 1 / 100000) - ρ * ρ := by nlinarith
  rw [e1, e2, e3, kriging_pair _ _ _ _ _ _ hd.ne']
  have hp : (0 : ℝ) < (1 + 1 / 100000) * 3 - ρ * 3 := by linarith
  positivity

/-- `C82_local_partial` applies: a Matérn model (`ν = 1/2`) on two training points with two knots of value 3 (the default
higher-level kernel and noise), queried at two points, one of them far from the knots. -/
example (bessel : Flt → ℝ → ℝ) (y : Nat → ℝ) : ∃ h μ v,
    Hier.create bessel twoKnots [⟨Flt.fin 3, Flt.fin 1, Flt.fin 5, false⟩, ⟨Flt.fin 3, Flt.fin 1, Flt.fin 5, false⟩] exHigher
      Hier.defaultNoise = .ok h ∧
    hierRegress bessel ⟨HierKernel.create .l2 h (some (fixedParam (Flt.fin (1 / 2)))), ⟨.homoscedastic 0, KernelObj.kout, 1, 1⟩⟩
      (arange 2) ⟨[2, 2], fun k => if k = 0 ∨ k = 3 then 0 else 1⟩ ⟨[2, 1], fun k => if k = 0 then 1 / 2 else 7⟩ twoKnots
      ⟨[2], y⟩ = .ok (μ, v) ∧ ∀ p < 2, 0 ≤ v.get [p] ∧ v.get [p] < 1 := by
  set nn : Tensor Int := ⟨[2, 2], fun k => if k = 0 ∨ k = 3 then 0 else 1⟩ with hnn
  set Q : Tensor ℝ := ⟨[2, 1], fun k => if k = 0 then 1 / 2 else 7⟩ with hQ
  have hv : AllValid 2 nn := fun k _ => by
    simp only [hnn]
    split <;> exact ⟨by norm_num, by norm_num⟩
  have hdn : ∀ p < 2, DistinctNeighbours twoKnots 2 1 2 nn p := by
    intro p hp
    have h2 : p = 0 ∨ p = 1 := by omega
    intro i j hij
    refine ⟨0, one_pos, ?_⟩
    rcases h2 with rfl | rfl <;> fin_cases i <;> fin_cases j <;>
      first
      | exact absurd rfl hij
      | simp [feature, twoKnots, hnn, Tensor.get, Tensor.ravel, pointOf, wrapIndex]
  obtain ⟨h, μ, v, h1, h2, -, -, h5⟩ := C82_local_partial bessel .l2 (some (fixedParam (Flt.fin (1 / 2))))
    ⟨.homoscedastic 0, KernelObj.kout, 1, 1⟩ rfl (fun h => by
      have : (HierKernel.create .l2 h (some (fixedParam (Flt.fin (1 / 2))))).fn = .m05 := form_half
      rw [this]; rfl)
    exHigher rfl rfl twoKnots [⟨Flt.fin 3, Flt.fin 1, Flt.fin 5, false⟩, ⟨Flt.fin 3, Flt.fin 1, Flt.fin 5, false⟩] (1 / 100000) 2 1
    (fun _ => 1) (exHigher_lengths 1) (.inl rfl) rfl (.inl (by norm_num)) Q twoKnots ⟨[2], y⟩ (arange 2) nn 2 2 2 2 (.inl rfl)
    (.inl rfl) rfl rfl rfl rfl rfl (arange_valid 2) hv trivial (.inr ⟨le_refl _, hdn⟩) (by norm_num) _ (fun _ => rfl)
    (fun p _ => equal_length bessel _ _ rfl rfl _)
  exact ⟨h, μ, v, h1, h2, fun p hp => (h5 p hp).2 one_pos⟩

end MuyGPyS
