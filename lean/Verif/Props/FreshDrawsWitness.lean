import Verif.Props.FreshDraws
import Verif.Props.Smooth
import Verif.Props.DownSample
import Verif.Props.FastWitness

/-! # C108: a variance scale estimated from random samples makes the objective random -/

namespace MuyGPyS
open Py Matrix

/-! ### the estimate -/

theorem subForm_singleton {n : Nat} (K : Matrix (Fin n) (Fin n) ℝ) (y : Fin n → ℝ) (a : Fin n) : Spec.subForm K y {a} = y a ^ 2 / K a a := by
  unfold Spec.subForm Spec.quadForm
  have h : ∀ i : Fin ({a} : Finset (Fin n)).card, Finset.orderEmbOfFin {a} rfl i = a := fun i => Finset.mem_singleton.1 (Finset.orderEmbOfFin_mem _ _ i)
  have hs : Subsingleton (Fin ({a} : Finset (Fin n)).card) := by rw [Finset.card_singleton]; infer_instance
  simp only [dotProduct, mulVec, Matrix.inv_subsingleton, diagonal_apply, Ring.inverse_eq_inv', submatrix_apply, h, Function.comp_apply]
  rw [Finset.sum_congr rfl fun i _ => congrArg _ (Finset.sum_congr rfl fun j _ => by rw [if_pos (Subsingleton.elim i j)])]
  simp only [Finset.sum_const, Finset.card_univ, Fintype.card_fin, Finset.card_singleton, one_smul]
  ring

theorem downSample_value (ν : Noise) (b n d : Nat) (hν : ν.Fits b n) (Kin y : Tensor ℝ) (hK : Kin.shape = [b, n, n]) (hy : y.shape = [b, n])
    (samples : List (List Nat)) (hdn : d < n) (hd : 0 < d) (hb : 0 < b) (hpd : ∀ p < b, (Spec.cov n Kin p + ν.mat n p).PosDef)
    (hsamp : ∀ s ∈ samples, s.length = d ∧ s.Nodup ∧ ∀ i ∈ s, i < n) :
    downSampleOpt ν d samples Kin y = .ok ((median (samples.map fun s => ∑ p ∈ Finset.range b,
      Spec.subForm (Spec.cov n Kin p + ν.mat n p) (Spec.vec n y p) (Finset.univ.filter fun i : Fin n => (i : Nat) ∈ s))).map
        fun m => m / ((d * b : Nat) : ℝ)) := by
  obtain ⟨P, h1, h2, h3⟩ := ν.perturb_cov hν Kin hK
  have hpdP : ∀ p < b, (Spec.cov n P p).PosDef := fun p hp => by rw [h3]; exact hpd p hp
  have hmap : ∀ s ∈ samples, downSampleOne b d P y s = .ok (∑ p ∈ Finset.range b, Spec.subForm (Spec.cov n P p) (Spec.vec n y p)
          (Finset.univ.filter fun i : Fin n => (i : Nat) ∈ s)) := fun s hs =>
    downSample_one P y h2 hy s (hsamp s hs).1 (hsamp s hs).2.1 (hsamp s hs).2.2 hpdP
  have hmm := Mpi.mapM_ok _ _ samples hmap
  unfold downSampleOpt
  simp only [hK, if_neg (Nat.not_le.2 hdn), h1]
  simp only [bind, Except.bind]
  rw [hmm]
  simp only [pure, Except.pure]
  rw [if_neg (by positivity : d * b ≠ 0)]
  simp only [h3]

/-! ### the data -/

/-- Three training points: `0` and twice `1`. -/
def repeatTrain : Tensor ℝ := ⟨[3, 1], fun k => if k = 0 then 0 else 1⟩

/-- Their responses: `exp (-1/2)`, `1` and `2`. -/
noncomputable def twinTargets : Tensor ℝ := ⟨[3], fun k => if k = 0 then Real.exp (-1 / 2) else k⟩

/-- The neighbours of the first point. -/
def twinNbrs : Tensor Int := ⟨[1, 2], fun k => (k : Int) + 1⟩

/-- RBF with a free length scale within `[1/2, 1]`, unit noise, and a variance scale estimated from random samples of one neighbour. -/
noncomputable def sampled (ℓ : ℝ) : Learner :=
  ⟨⟨.scalar ⟨Flt.fin ℓ, Flt.fin (1 / 2), Flt.fin 1, false⟩, none⟩, .homoscedastic ⟨Flt.fin 1, Flt.fin 0, Flt.fin 0, true⟩, .F2, false, .rbf,
    .downSample 1, 1, 1⟩

/-- Correlation of points at distance 1. -/
noncomputable def unitCorr (ℓ : ℝ) : ℝ := Real.exp (-(1 / ℓ ^ 2) / 2)

theorem sampled_cov (bs : Flt → ℝ → ℝ) (ℓ : ℝ) (x y : Fin 1 → ℝ) :
    (sampled ℓ).trainee.R.kernel.covFn bs (fun _ => ℓ) x y = Real.exp (-((x 0 - y 0) ^ 2 / ℓ ^ 2) / 2) := by
  unfold KernelObj.covFn
  show KFn.value bs _ .rbf _ = _
  simp only [KFn.value]
  show Real.exp (-(distOf .F2 _ _) / 2) = _
  rw [distOf_F2, Fin.sum_univ_one, ← sub_div, div_pow]

/-- The scale estimated from the samples. -/
noncomputable def sampledScale (samples : List (List Nat)) : ℝ := ((median (samples.map fun s => if s = [0] then (1 : ℝ) / 2 else 2)).getD 0)

theorem median_between {l : List ℝ} (hl : l ≠ []) : ∃ v, median l = some v ∧ (∃ x ∈ l, x ≤ v) ∧ ∃ x ∈ l, v ≤ x := by
  obtain ⟨v, h1, h2, h3⟩ := median_spec l hl
  have hp := List.length_pos_of_ne_nil hl
  have p2 : 0 < l.countP (fun x => decide (x ≤ v)) := by omega
  have p3 : 0 < l.countP (fun x => decide (v ≤ x)) := by omega
  obtain ⟨x, hx, hxv⟩ := List.countP_pos_iff.1 p2
  obtain ⟨y, hy, hyv⟩ := List.countP_pos_iff.1 p3
  exact ⟨v, h1, ⟨x, hx, by simpa using hxv⟩, y, hy, by simpa using hyv⟩

theorem samples_nonempty {k : Nat} (hk : 0 < k) {samples : List (List Nat)} (h : samples.length = k) (g : List Nat → ℝ) : samples.map g ≠ [] := by
  intro h0
  have := congrArg List.length h0
  rw [List.length_map, h, List.length_nil] at this
  omega

theorem sampledScale_bounds {k : Nat} (hk : 0 < k) {samples : List (List Nat)} (h : AreSamples 2 1 k samples) :
    1 / 2 ≤ sampledScale samples ∧ sampledScale samples ≤ 2 := by
  obtain ⟨v, h1, ⟨x, hx, hxv⟩, y, hy, hyv⟩ := median_between (samples_nonempty hk h.1 fun s => if s = [0] then (1 : ℝ) / 2 else 2)
  unfold sampledScale
  rw [h1, Option.getD_some]
  have hm : ∀ x ∈ samples.map (fun s => if s = [0] then (1 : ℝ) / 2 else 2), 1 / 2 ≤ x ∧ x ≤ 2 := by
    intro x hx
    obtain ⟨s, -, rfl⟩ := List.mem_map.1 hx
    split <;> norm_num
  exact ⟨(hm x hx).1.trans hxv, hyv.trans (hm y hy).2⟩

/-- All samples are of neighbour `i`. -/
theorem sampledScale_const {k : Nat} (hk : 0 < k) (i : Nat) : sampledScale (List.replicate k [i]) = if i = 0 then 1 / 2 else 2 := by
  obtain ⟨v, h1, ⟨x, hx, hxv⟩, y, hy, hyv⟩ := median_between
    (samples_nonempty hk (List.length_replicate (n := k) (a := [i])) fun s => if s = [0] then (1 : ℝ) / 2 else 2)
  unfold sampledScale
  rw [h1, Option.getD_some]
  have hm : ∀ x ∈ (List.replicate k [i]).map (fun s => if s = [0] then (1 : ℝ) / 2 else 2), x = if i = 0 then 1 / 2 else 2 := by
    intro x hx
    rw [List.map_replicate] at hx
    rw [List.eq_of_mem_replicate hx]
    by_cases hi : i = 0 <;> simp [hi]
  rw [hm x hx] at hxv
  rw [hm y hy] at hyv
  exact le_antisymm hyv hxv

theorem replicate_samples (k i : Nat) (hi : i < 2) : AreSamples 2 1 k (List.replicate k [i]) :=
  ⟨List.length_replicate, fun s hs => by rw [List.eq_of_mem_replicate hs]; simpa using hi⟩

/-- The loss of `sampled ℓ` when the scale is estimated as `σ`. -/
noncomputable def sampledLoss (ℓ σ : ℝ) : ℝ :=
  (unitCorr ℓ - Real.exp (-1 / 2)) ^ 2 / (σ * (1 - 2 / 3 * unitCorr ℓ ^ 2)) + Real.log (σ * (1 - 2 / 3 * unitCorr ℓ ^ 2))

theorem twin_rows : rowPt repeatTrain 1 0 0 = 0 ∧ rowPt repeatTrain 1 1 0 = 1 ∧ rowPt repeatTrain 1 2 0 = 1 := by
  refine ⟨?_, ?_, ?_⟩ <;> simp [rowPt, repeatTrain, Tensor.get, Tensor.ravel]

/-- The score of `sampled ℓ` on the samples of one evaluation. -/
theorem sampled_score (bs : Flt → ℝ → ℝ) (ℓ : ℝ) (hℓ : 0 < ℓ) : ∃ d, (∀ ℓ', (sampled ℓ').trainData ([0], twinNbrs) repeatTrain twinTargets = .ok d) ∧
    d.targets.shape.length = 1 ∧
    ∀ k samples, 0 < k → AreSamples 2 1 k samples → (sampled ℓ).score bs .lool samples d = .ok (some (-sampledLoss ℓ (sampledScale samples))) := by
  obtain ⟨answer, hw⟩ := exact_index_exists 3 1 2 repeatTrain rfl (fun x y => |x 0 - y 0|) false
  set w : NNWrapper := ⟨3, 1, repeatTrain, 2, fun x y => |x 0 - y 0|, false, answer⟩ with hwd
  have hv : AllValid 3 twinNbrs := by
    intro k hk
    have hk2 : k < 2 := hk
    show -3 ≤ (k : Int) + 1 ∧ (k : Int) + 1 < 3
    omega
  have hlen : ∀ ℓ, 0 < ℓ → (sampled ℓ).deform.HasLengths 1 fun _ => ℓ := fun ℓ h => ⟨ℓ, h, rfl, fun _ => rfl⟩
  obtain ⟨D, K, k1, k2, k3, k4⟩ := kernel_pairwise bs (sampled ℓ).trainee.R.kernel rfl repeatTrain twinNbrs 3 1 1 2 (fun _ => ℓ) (hlen ℓ hℓ) (.inl rfl) rfl hv
  obtain ⟨E, C, c1, c2, c3, c4⟩ := kernel_crosswise bs (sampled ℓ).trainee.R.kernel rfl repeatTrain repeatTrain (ofNats [0]) twinNbrs 3 3 1 1 2 (fun _ => ℓ)
    (hlen ℓ hℓ) (.inl rfl) (.inl rfl) rfl rfl rfl (ofNats_valid (by simp)) hv
  obtain ⟨d, d1, d2, d3, d4, d5, d6, d7⟩ := trainData_ok (sampled ℓ) [0] twinNbrs repeatTrain twinTargets 3 1 2 1 rfl (.inr ⟨rfl, rfl⟩) rfl (by simp) hv
    ⟨D, k1⟩ ⟨E, c1⟩
  have hpos : ∀ j, j < 2 → pointOf 3 (twinNbrs.get [0, j]) = j + 1 := by
    intro j hj
    interval_cases j <;> rfl
  refine ⟨d, fun ℓ' => d1, by rw [d4]; rfl, fun k samples hk hsamp => ?_⟩
  obtain ⟨r0, r1, r2⟩ := twin_rows
  have hat : ∀ j, j < 2 → pt repeatTrain 1 (pointOf 3 (twinNbrs.get [0, j])) 0 = 1 := by
    intro j hj
    rw [hpos j hj]
    interval_cases j
    · show rowPt repeatTrain 1 1 0 = 1; exact r1
    · show rowPt repeatTrain 1 2 0 = 1; exact r2
  have hnc : nbrCov bs (sampled ℓ).trainee.R.kernel (fun _ : Fin 1 => ℓ) repeatTrain 3 2 twinNbrs 0 = !![1, 1; 1, 1] := by
    ext i j
    show (sampled ℓ).trainee.R.kernel.covFn bs (fun _ => ℓ) _ _ = _
    rw [sampled_cov, hat i i.2, hat j j.2]
    fin_cases i <;> fin_cases j <;> simp
  have hA : nbrCov bs (sampled ℓ).trainee.R.kernel (fun _ : Fin 1 => ℓ) repeatTrain 3 2 twinNbrs 0 + (sampled ℓ).trainee.R.gp.noise.mat 2 0 =
      !![2, 1; 1, 2] := by
    rw [hnc]
    show _ + (Flt.toReal (Flt.fin 1)) • (1 : Matrix (Fin 2) (Fin 2) ℝ) = _
    rw [fin_toReal, one_smul, Matrix.one_fin_two]
    ext i j
    fin_cases i <;> fin_cases j <;> norm_num
  have hcross : nbrCross bs (sampled ℓ).trainee.R.kernel (fun _ : Fin 1 => ℓ) repeatTrain 3 2 twinNbrs 0 (rowPt repeatTrain 1 0) = fun _ => unitCorr ℓ := by
    funext j
    show (sampled ℓ).trainee.R.kernel.covFn bs (fun _ => ℓ) _ _ = _
    rw [sampled_cov, hat j j.2, r0]
    unfold unitCorr
    norm_num
  have hAinv : (!![2, 1; 1, 2] : Matrix (Fin 2) (Fin 2) ℝ)⁻¹ = !![2 / 3, -1 / 3; -1 / 3, 2 / 3] := by
    refine Matrix.inv_eq_right_inv ?_
    rw [Matrix.one_fin_two]
    ext i j
    fin_cases i <;> fin_cases j <;> norm_num [Matrix.mul_apply, Fin.sum_univ_two]
  have hApd : (!![2, 1; 1, 2] : Matrix (Fin 2) (Fin 2) ℝ).PosDef := by
    rw [posdef_iff]
    refine ⟨?_, fun x hx => ?_⟩
    · intro i j; fin_cases i <;> fin_cases j <;> rfl
    · have h0 : x 0 ≠ 0 ∨ x 1 ≠ 0 := by
        by_contra h
        push Not at h
        exact hx (funext fun i => by fin_cases i <;> simp [h.1, h.2])
      simp [Fin.sum_univ_two]
      rcases h0 with h | h
      · nlinarith [sq_nonneg (x 0 + x 1), sq_nonneg (x 1), pow_pos (abs_pos.2 h) 2, sq_abs (x 0)]
      · nlinarith [sq_nonneg (x 0 + x 1), sq_nonneg (x 0), pow_pos (abs_pos.2 h) 2, sq_abs (x 1)]
  have hy : ∀ j : Fin 2, Spec.vec 2 d.nnTargets 0 j = (j : ℝ) + 1 := by
    intro j
    show d.nnTargets.get [0, j] = _
    rw [Tensor.get2 _ d5]
    have := d7 0 (by norm_num) j j.2 0 (by norm_num)
    rw [mul_one, add_zero] at this
    rw [this, hpos j j.2]
    fin_cases j <;> simp [feature, twinTargets, Tensor.get, Tensor.ravel] <;> norm_num
  have ht : d.targets.get [0] = Real.exp (-1 / 2) := by
    rw [Tensor.get1 _ d4]
    have := d6 0 0 rfl 0 (by norm_num)
    rw [zero_mul, add_zero] at this
    rw [this]
    simp [feature, twinTargets, Tensor.get, Tensor.ravel]
  have hbc : ∀ p, p < 1 → (sampled ℓ).batchCov bs w (fun _ => ℓ) twinNbrs p = !![2, 1; 1, 2] := fun p hp => by
    obtain rfl : p = 0 := by omega
    exact hA
  obtain ⟨K', C', μ, e1, e2, e3, e4, e5, e6⟩ := batch_predictions bs (sampled ℓ) rfl w hw (fun _ => ℓ) (hlen ℓ hℓ) [0] twinNbrs (by simp [hwd]) rfl hv d d2 d3 d5
    trivial (fun p hp => by rw [hbc p hp]; exact hApd.det_pos.ne')
  have hD : D = d.pairwise := Except.ok.inj (k1.symm.trans d2)
  rw [hD, e1] at k2
  obtain rfl := Except.ok.inj k2
  obtain ⟨v, v1, v2, v3⟩ := e6 (sampledScale samples)
  have hscale : (sampled ℓ).trainee.promisedScale samples K' d.nnTargets = .ok (some (sampledScale samples)) := by
    show downSampleOpt (sampled ℓ).trainee.R.gp.noise 1 samples K' d.nnTargets = _
    have hcov : Spec.cov 2 K' 0 + (sampled ℓ).trainee.R.gp.noise.mat 2 0 = !![2, 1; 1, 2] := by rw [k4 0 (by norm_num)]; exact hA
    rw [downSample_value (sampled ℓ).trainee.R.gp.noise 1 2 1 trivial K' d.nnTargets k3 d5 samples (by norm_num) (by norm_num) (by norm_num)
      (fun p hp => by obtain rfl : p = 0 := by omega
                      rw [hcov]; exact hApd) hsamp.2]
    have hmap : (samples.map fun s => ∑ p ∈ Finset.range 1, Spec.subForm (Spec.cov 2 K' p + (sampled ℓ).trainee.R.gp.noise.mat 2 p)
        (Spec.vec 2 d.nnTargets p) (Finset.univ.filter fun i : Fin 2 => (i : Nat) ∈ s)) = samples.map fun s => if s = [0] then (1 : ℝ) / 2 else 2 := by
      refine List.map_congr_left fun s hs => ?_
      obtain ⟨s1, -, s3⟩ := hsamp.2 s hs
      obtain ⟨i, rfl⟩ := List.length_eq_one_iff.1 s1
      have hi : i < 2 := s3 i (by simp)
      have hfil : (Finset.univ.filter fun j : Fin 2 => (j : Nat) ∈ [i]) = {⟨i, hi⟩} := by
        ext j
        simp [Fin.ext_iff]
      rw [Finset.sum_range_one, hcov, hfil, subForm_singleton, hy]
      interval_cases i <;> norm_num
    rw [hmap]
    unfold sampledScale
    obtain ⟨m, hm, -⟩ := median_between (samples_nonempty hk hsamp.1 fun s => if s = [0] then (1 : ℝ) / 2 else 2)
    rw [hm]
    simp
  have hterm : LossKind.lool.term = some fun μ t v => (μ - t) ^ 2 / v + Real.log v := rfl
  unfold Learner.score promisedVar
  simp only [LossKind.raw, Bool.false_eq_true, if_false, e1, e2, e3, hscale, v1, bind, Except.bind, pure, Except.pure, LossKind.ofVariances,
    hterm, e4, v2, d4]
  simp only [List.length_singleton]
  rw [if_pos ⟨rfl, trivial⟩]
  rw [Finset.sum_range_one, e5 0 (by norm_num), v3 0 (by norm_num), ht, hbc 0 (by norm_num)]
  have hcr : (sampled ℓ).batchCross bs w (fun _ => ℓ) [0] twinNbrs 0 = fun _ => unitCorr ℓ := hcross
  rw [hcr]
  have hmean : Spec.krigingMean (!![2, 1; 1, 2] : Matrix (Fin 2) (Fin 2) ℝ) (fun _ => unitCorr ℓ) (Spec.vec 2 d.nnTargets 0) = unitCorr ℓ := by
    unfold Spec.krigingMean
    rw [hAinv]
    simp only [dotProduct, mulVec, Fin.sum_univ_two, hy]
    norm_num
  have hvar : Spec.krigingVar 1 (!![2, 1; 1, 2] : Matrix (Fin 2) (Fin 2) ℝ) (fun _ => unitCorr ℓ) = 1 - 2 / 3 * unitCorr ℓ ^ 2 := by
    unfold Spec.krigingVar
    rw [hAinv]
    simp only [dotProduct, mulVec, Fin.sum_univ_two]
    norm_num
    ring
  refine (congrArg (fun m => (Except.ok (some (-((m - Real.exp (-1 / 2)) ^ 2 / (sampledScale samples * Spec.krigingVar 1
    (!![2, 1; 1, 2] : Matrix (Fin 2) (Fin 2) ℝ) fun _ => unitCorr ℓ) + Real.log (sampledScale samples * Spec.krigingVar 1
    (!![2, 1; 1, 2] : Matrix (Fin 2) (Fin 2) ℝ) fun _ => unitCorr ℓ)))) : Res (Option ℝ))) hmean).trans ?_
  rw [hvar]
  rfl

/-! ### the loss -/

theorem unitCorr_facts : unitCorr 1 = Real.exp (-1 / 2) ∧ unitCorr (1 / 2) ≤ unitCorr 1 ∧ unitCorr 1 ≤ 5 / 8 ∧ 1 / 8 ≤ unitCorr (1 / 2) ∧
    unitCorr (1 / 2) ≤ 1 / 2 ∧ 3 / 5 ≤ unitCorr 1 := by
  have e1 : unitCorr 1 = Real.exp (-1 / 2) := by unfold unitCorr; norm_num
  have e2 : unitCorr (1 / 2) = Real.exp (-2) := by unfold unitCorr; norm_num
  have hh : Real.exp (1 / 2) * Real.exp (1 / 2) = Real.exp 1 := by rw [← Real.exp_add]; norm_num
  have hp := Real.exp_pos (1 / 2)
  have b1 := Real.exp_one_gt_d9
  have b2 := Real.exp_one_lt_d9
  have l1 : 8 / 5 ≤ Real.exp (1 / 2) := by nlinarith
  have l2 : Real.exp (1 / 2) ≤ 5 / 3 := by nlinarith
  have i1 : Real.exp (-1 / 2) * Real.exp (1 / 2) = 1 := by rw [← Real.exp_add]; norm_num
  have i2 : Real.exp (-2) * (Real.exp 1 * Real.exp 1) = 1 := by rw [← Real.exp_add, ← Real.exp_add]; norm_num
  have q1 := Real.exp_pos (-1 / 2)
  have q2 := Real.exp_pos (-2)
  have u1 : Real.exp 1 * Real.exp 1 ≤ 8 := by nlinarith
  have u2 : 2 ≤ Real.exp 1 * Real.exp 1 := by nlinarith
  rw [e2, e1]
  refine ⟨rfl, Real.exp_le_exp.2 (by norm_num), ?_, ?_, ?_, ?_⟩
  · nlinarith
  · nlinarith
  · nlinarith
  · nlinarith

/-- On whatever samples: the length scale `1/2` has a larger loss than `1`. -/
theorem sampledLoss_worse {σ : ℝ} (hσ : 0 < σ) : sampledLoss 1 σ < sampledLoss (1 / 2) σ := by
  obtain ⟨e, h1, h2, h3, h4, h5⟩ := unitCorr_facts
  unfold sampledLoss
  rw [← e, sub_self]
  have v0 : 0 < 1 - 2 / 3 * unitCorr 1 ^ 2 := by nlinarith
  have v1 : 1 - 2 / 3 * unitCorr 1 ^ 2 < 1 - 2 / 3 * unitCorr (1 / 2) ^ 2 := by nlinarith
  have l := Real.log_lt_log (mul_pos hσ v0) (mul_lt_mul_of_pos_left v1 hσ)
  have r : 0 ≤ (unitCorr (1 / 2) - unitCorr 1) ^ 2 / (σ * (1 - 2 / 3 * unitCorr (1 / 2) ^ 2)) :=
    div_nonneg (sq_nonneg _) (mul_pos hσ (v0.trans v1)).le
  have z : (0 : ℝ) ^ 2 / (σ * (1 - 2 / 3 * unitCorr 1 ^ 2)) = 0 := by rw [zero_pow two_ne_zero, zero_div]
  rw [z]
  linarith

/-- With a lucky sample it has a smaller loss than `1` with an unlucky one. -/
theorem sampledLoss_luck : sampledLoss (1 / 2) (1 / 2) < sampledLoss 1 2 := by
  obtain ⟨e, h1, h2, h3, h4, h5⟩ := unitCorr_facts
  unfold sampledLoss
  rw [← e, sub_self]
  have v0 : 7 / 10 < 1 - 2 / 3 * unitCorr 1 ^ 2 := by nlinarith
  have v1 : 5 / 6 ≤ 1 - 2 / 3 * unitCorr (1 / 2) ^ 2 := by nlinarith
  have v2 : 1 - 2 / 3 * unitCorr (1 / 2) ^ 2 < 1 := by nlinarith
  set a := 1 - 2 / 3 * unitCorr 1 ^ 2
  set b := 1 - 2 / 3 * unitCorr (1 / 2) ^ 2
  have z : (0 : ℝ) ^ 2 / (2 * a) = 0 := by rw [zero_pow two_ne_zero, zero_div]
  have r : (unitCorr (1 / 2) - unitCorr 1) ^ 2 / (1 / 2 * b) ≤ 3 / 5 := by
    rw [div_le_iff₀ (by linarith)]
    nlinarith
  have l : Real.log (2 * a) - Real.log (1 / 2 * b) = Real.log (2 * a / (1 / 2 * b)) := (Real.log_div (by linarith) (by linarith)).symm
  have l2 := Real.one_sub_inv_le_log_of_pos (show 0 < 2 * a / (1 / 2 * b) from div_pos (by linarith) (by linarith))
  have l3 : (2 * a / (1 / 2 * b))⁻¹ < 2 / 5 := by
    rw [inv_div, div_lt_iff₀ (by linarith)]
    linarith
  rw [z]
  linarith

theorem sampled_params (ℓ : ℝ) : (sampled ℓ).gp.params = [("length_scale", ⟨Flt.fin ℓ, Flt.fin (1 / 2), Flt.fin 1, false⟩),
    ("noise", ⟨Flt.fin 1, Flt.fin 0, Flt.fin 0, true⟩)] := by
  simp [sampled, Learner.gp, GP.params, Kernel.named, LenScale.named]

theorem sampled_names (ℓ : ℝ) : (sampled ℓ).freeNames = ["length_scale"] := by
  simp [Learner.freeNames, sampled_params]

theorem sampled_bounds (ℓ : ℝ) (h1 : 1 / 2 ≤ ℓ) (h2 : ℓ ≤ 1) : (sampled ℓ).InBounds := by
  intro np hnp hf
  rw [sampled_params] at hnp
  simp only [List.mem_cons, List.not_mem_nil, or_false] at hnp
  rcases hnp with rfl | rfl
  · exact ⟨(ℓ : ℝ), ((1 / 2 : ℝ) : EReal), (1 : ℝ), rfl, rfl, rfl, EReal.coe_le_coe_iff.2 h1, EReal.coe_le_coe_iff.2 h2⟩
  · simp at hf

theorem sampled_feasible (ℓ y : ℝ) (h1 : 1 / 2 ≤ y) (h2 : y ≤ 1) : (sampled ℓ).Feasible [("length_scale", Flt.fin y)] := by
  refine ⟨by rw [sampled_names]; simp, fun np hnp hf => ?_⟩
  rw [sampled_params] at hnp
  simp only [List.mem_cons, List.not_mem_nil, or_false] at hnp
  rcases hnp with rfl | rfl
  · exact ⟨Flt.fin y, by simp [Dict.get?], (y : EReal), ((1 / 2 : ℝ) : EReal), (1 : ℝ), rfl, rfl, rfl, EReal.coe_le_coe_iff.2 h1, EReal.coe_le_coe_iff.2 h2⟩
  · simp at hf

theorem sampled_accepts (ℓ y : ℝ) (h1 : 1 / 2 ≤ y) (h2 : y ≤ 1) : (sampled ℓ).trainee.R.kernel.Accepts [("length_scale", Flt.fin y)] :=
  ⟨feasible_unreserved (sampled_feasible ℓ y h1 h2), fun _ h => (nomatch h), trivial⟩

/-- **C108, where the claim fails**: with a variance scale estimated from random samples (`DownSampleScale`) and the likelihood loss the objective is
not a function. Two evaluations of the initial model give different values; and an unlucky evaluation of the initial model makes the Bayesian
driver return a model that has a strictly lower score on all samples on which the two are compared. -/
theorem C108_downsample_fails (env : Env) (order : KeyOrder) (bs : Flt → ℝ → ℝ) (init nIter : Option Nat) (hi : 0 < init.getD 5) (k : Nat) (hk : 0 < k) :
    ∃ (L L' : Learner) (X Y : Tensor ℝ) (nn : Tensor Int) (d : TrainData) (src : Opt.Source (List Flt)) (draws : Nat → List (List Nat)),
      L.Made ∧ L.InBounds ∧ L.scaleKind = .downSample 1 ∧ L.noise.noise = .homoscedastic 1 ∧ L.freeNames = ["length_scale"] ∧
      L.trainData ([0], nn) X Y = .ok d ∧ (∀ e, AreSamples 2 1 k (draws e)) ∧
      L.objective bs .lool (draws 0) d [("length_scale", Flt.fin 1)] ≠ L.objective bs .lool (draws 1) d [("length_scale", Flt.fin 1)] ∧
      bayesLearnFresh env order bs src init nIter L .lool draws d = .ok L' ∧
      ∀ samples, AreSamples 2 1 k samples → ∃ a a', L.score bs .lool samples d = .ok (some a) ∧ L'.score bs .lool samples d = .ok (some a') ∧ a' < a := by
  obtain ⟨d, d1, d2, s1⟩ := sampled_score bs 1 one_pos
  obtain ⟨d', d1', -, s2⟩ := sampled_score bs (1 / 2) (by norm_num)
  obtain rfl : d = d' := Except.ok.inj ((d1 1).symm.trans (d1' 1))
  have hfits : LossKind.lool.raw = true ∨ LossKind.lool ≠ .loolUnscaled ∧ d.targets.shape.length = 1 ∧
      ((sampled 1).scaleKind = .fixed ∨ "noise" ∉ (sampled 1).freeNames) :=
    .inr ⟨by simp, d2, .inr (by rw [sampled_names]; simp)⟩
  have hobj : ∀ samples, AreSamples 2 1 k samples →
      (sampled 1).objective bs .lool samples d [("length_scale", Flt.fin 1)] = .ok (some (-sampledLoss 1 (sampledScale samples))) ∧
      (sampled 1).objective bs .lool samples d [("length_scale", Flt.fin (1 / 2))] = .ok (some (-sampledLoss (1 / 2) (sampledScale samples))) :=
    fun samples hs => ⟨(objective_trial bs (sampled 1) (sampled 1) rfl .lool samples d hfits _ (sampled_feasible 1 1 (by norm_num) le_rfl)
        (sampled_accepts 1 1 (by norm_num) le_rfl) rfl _).2 (s1 k samples hk hs),
      (objective_trial bs (sampled 1) (sampled (1 / 2)) rfl .lool samples d hfits _ (sampled_feasible 1 (1 / 2) le_rfl (by norm_num))
        (sampled_accepts 1 (1 / 2) le_rfl (by norm_num)) rfl _).2 (s2 k samples hk hs)⟩
  let draws : Nat → List (List Nat) := fun e => List.replicate k [if e = 0 then 1 else 0]
  have hdraws : ∀ e, AreSamples 2 1 k (draws e) := fun e => replicate_samples k _ (by split <;> norm_num)
  have hs0 : sampledScale (draws 0) = 2 := (sampledScale_const hk 1).trans (by norm_num)
  have hs1 : sampledScale (draws 1) = 1 / 2 := (sampledScale_const hk 0).trans (by norm_num)
  refine ⟨sampled 1, sampled (1 / 2), repeatTrain, twinTargets, twinNbrs, d, ⟨fun _ => [Flt.fin (1 / 2)], fun _ => [Flt.fin (1 / 2)]⟩, draws, rfl,
    sampled_bounds 1 (by norm_num) le_rfl, rfl, ?_, sampled_names 1, d1 1, hdraws, ?_, ?_, fun samples hs => ?_⟩
  · show Noise.homoscedastic (Flt.toReal (Flt.fin 1)) = _
    rw [fin_toReal]
  · rw [(hobj _ (hdraws 0)).1, (hobj _ (hdraws 1)).1, hs0, hs1]
    intro h
    have h' := Option.some.inj (Except.ok.inj h)
    have := sampledLoss_luck
    have := sampledLoss_worse (σ := 1 / 2) (by norm_num)
    linarith
  · obtain ⟨o, L', ho, hnames, hnew, -, -, -, -, hgp, hL'⟩ := newLearner_trial env (sampled 1) (by simp [sampled]) (sampled_bounds 1 (by norm_num) le_rfl) rfl
      _ (sampled_feasible 1 (1 / 2) le_rfl (by norm_num))
    have hpar : o.params = [Flt.fin 1] := by
      have h := getOptParams_eq (sampled 1).gp (by simp [Learner.gp, sampled])
      rw [ho, foldl_appendLists, sampled_params] at h
      simp only [Except.ok.injEq] at h
      rw [h]
      simp
    have hkeys : order.keys ["length_scale"] = ["length_scale"] := by cases order <;> rfl
    rw [sampled_names] at hnames
    have hbay := bayesFresh_takes (fun e x => valueOf ((sampled 1).objective bs .lool (draws e) d (["length_scale"].zip x))) [Flt.fin 1] [Flt.fin (1 / 2)]
      init nIter hi (by
        simp only [List.zip_cons_cons, List.zip_nil_right]
        rw [(hobj _ (hdraws 0)).1, (hobj _ (hdraws 1)).2, hs0, hs1]
        simp only [valueOf]
        exact neg_lt_neg sampledLoss_luck)
    have hx0 : (["length_scale"].map fun k => (Dict.get? (["length_scale"].zip [Flt.fin 1]) k).getD none) = [Flt.fin 1] := by
      simp [Dict.get?]
    unfold bayesLearnFresh
    simp only [bind, Except.bind, ho, hnames, hpar, hkeys, hx0, hbay]
    rw [hnames] at hnew
    refine hnew.trans (congrArg Except.ok ?_)
    have e1 : L'.kernel = (sampled (1 / 2)).kernel := (congrArg GP.kernel hgp).trans (by
      simp [GP.mapParams, Learner.gp, sampled, Param.overridden, inForce, Dict.get?])
    have e2 : L'.noise = (sampled (1 / 2)).noise := (congrArg GP.noise hgp).trans (by
      simp [GP.mapParams, Learner.gp, sampled, Param.overridden, inForce, Dict.get?])
    rw [hL', e1, e2]
    rfl
  · obtain ⟨b1, -⟩ := sampledScale_bounds hk hs
    exact ⟨_, _, s1 k samples hk hs, s2 k samples hk hs, neg_lt_neg (sampledLoss_worse (by linarith))⟩

end MuyGPyS
