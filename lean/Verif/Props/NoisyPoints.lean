import Verif.Spec.NoisyPoints
import Verif.Lemmas.Noisy
import Verif.Props.BayesMore
import Verif.Props.FullGP

/-!
# C120: an observation counts according to the noise declared for it
-/

namespace MuyGPyS
open Py Matrix

/-- Predictions of a model with one noise variance per training point. -/
theorem declares_predicts (bs : Flt → ℝ → ℝ) (R : Regressor) (w : NNWrapper) (hw : w.Exact) (Q : Tensor ℝ) (m : Nat) (len : Fin w.f → ℝ) (σ : ℝ)
    (noise : Tensor ℝ) (hR : R.Declares w Q len σ noise) (hQ : Q.shape = [m, w.f]) (hm : 0 < m) (hk0 : 0 < w.nnCount) (hkN : w.nnCount ≤ w.N) :
    ∃ nb : Nat → Fin w.nnCount → Nat,
      (∀ p < m, Nearest (· < w.N) (fun j => w.dist (rowPt Q w.f p) (rowPt w.train w.f j)) w.nnCount (List.ofFn (nb p))) ∧
      ∀ Y : Tensor ℝ, Y.shape = [w.N] → ∃ μ v, regressAny bs R w Q w.train Y = .ok (μ, v) ∧ μ.shape = [m] ∧ v.shape = [m] ∧
        ∀ p < m,
          μ.get [p] = Spec.krigingMean
            ((Matrix.of fun i j => R.kernel.covFn bs len (rowPt w.train w.f (nb p i)) (rowPt w.train w.f (nb p j))) +
              diagonal fun j => noise.get [nb p j])
            (fun j => R.kernel.covFn bs len (rowPt Q w.f p) (rowPt w.train w.f (nb p j))) (fun j => Y.get [nb p j]) ∧
          v.get [p] = σ * Spec.krigingVar 1
            ((Matrix.of fun i j => R.kernel.covFn bs len (rowPt w.train w.f (nb p i)) (rowPt w.train w.f (nb p j))) +
              diagonal fun j => noise.get [nb p j])
            (fun j => R.kernel.covFn bs len (rowPt Q w.f p) (rowPt w.train w.f (nb p j))) := by
  obtain ⟨nn, D, T, hnn, hT, hRn⟩ := hR.noise
  obtain ⟨I, D', a1, a2, a3, a4, -⟩ := C41_plain w hw Q m hQ hm hk0 hkN
  rw [hnn] at a1
  cases a1
  have hin : ∀ i < m, ∀ j < w.nnCount, ∃ x : Nat, nn.get [i, j] = x ∧ x < w.N := fun i hi j hj => by
    obtain ⟨l, e1, e2⟩ := a4 i hi
    obtain ⟨x, x1, x2⟩ := rowList_get e1 hj
    exact ⟨x, x2, e2.mem x (List.mem_of_getElem? x1)⟩
  have hv : AllValid w.N nn := valid_of_rows a2 hin
  obtain ⟨T', t1, t2, t3⟩ := take_vec hR.table hv
  unfold makeHeteroscedasticTensor at hT
  rw [hT] at t1
  cases t1
  have hTs : T.shape = [m, w.nnCount] := t2.trans a2
  have hTv : ∀ p < m, ∀ j < w.nnCount, T.get [p, j] = noise.get [pointOf w.N (nn.get [p, j])] := fun p hp j hj => by
    rw [Tensor.get2 T hTs, t3, Tensor.get2 nn a2]
    simp only [feature, hR.table]
  have hin' : ∀ p < m, ∀ j < w.nnCount, pointOf w.N (nn.get [p, j]) < w.N := fun p hp j hj => by
    obtain ⟨x, x1, x2⟩ := hin p hp j hj
    rw [x1, pointOf_nat]; exact x2
  obtain ⟨nn', D'', g1, g2, g3, g4, g5⟩ := regress_cases_nns bs R hR.made hR.kout w hw Q m len hR.lengths hQ hm hk0 hkN
    (by rw [hRn]; exact hTs)
  rw [hnn] at g1
  cases g1
  have hrow : ∀ x, pt w.train w.f x = rowPt w.train w.f x := rowPt_pt hw.1
  have hmat : ∀ p < m, R.gp.noise.mat w.nnCount p = diagonal fun j : Fin w.nnCount => noise.get [pointOf w.N (nn.get [p, j])] := fun p hp => by
    rw [hRn]
    show diagonal _ = _
    congr 1
    funext j
    exact hTv p hp j j.2
  have eK : ∀ p, nbrCov bs R.kernel len w.train w.N w.nnCount nn p =
      Matrix.of fun i j : Fin w.nnCount => R.kernel.covFn bs len (rowPt w.train w.f (pointOf w.N (nn.get [p, i])))
        (rowPt w.train w.f (pointOf w.N (nn.get [p, j]))) := by
    intro p
    ext i j
    simp only [nbrCov, of_apply, hrow]
  have ek : ∀ p, nbrCross bs R.kernel len w.train w.N w.nnCount nn p (rowPt Q w.f p) =
      fun j : Fin w.nnCount => R.kernel.covFn bs len (rowPt Q w.f p) (rowPt w.train w.f (pointOf w.N (nn.get [p, j]))) := by
    intro p; ext j
    simp only [nbrCross, hrow]
  refine ⟨fun p j => pointOf w.N (nn.get [p, j]), fun p hp => ?_, fun Y hY => ?_⟩
  · obtain ⟨l, e1, e2⟩ := a4 p hp
    exact nearest_ofFn e1 e2
  · rcases g5 Y hY with ⟨⟨p, hp, hd⟩, -⟩ | ⟨-, μ, v, r1, r2, r3, r4⟩
    · refine absurd hd (Kriging.det_ne_zero ?_)
      rw [hmat p hp]
      exact PosDef.posSemidef_add (nbrCov_definite bs R.kernel hR.suits len (hasLengths_pos hR.lengths) w.train w.N w.nnCount nn p).1
        (PosDef.diagonal fun j => hR.positive _ (hin' p hp j j.2))
    · refine ⟨μ, v, r1, r2, r3, fun p hp => ?_⟩
      have := r4 p hp
      rwa [hmat p hp, eK, ek, nbrTargets_get hY, hR.scale] at this

/-- A sum over the neighbours is at most the sum over the points that can be neighbours. -/
theorem sum_candidates {w : NNWrapper} {q : Fin w.f → ℝ} {nb : Fin w.nnCount → Nat}
    (h : Nearest (· < w.N) (fun j => w.dist q (rowPt w.train w.f j)) w.nnCount (List.ofFn nb)) (F : Nat → ℝ) (hF : ∀ i < w.N, 0 ≤ F i) :
    ∑ j, F (nb j) ≤ ∑ i ∈ w.candidates q, F i := by
  have hinj : Function.Injective nb := List.nodup_ofFn.mp h.nodup
  rw [← Finset.sum_image (f := F) fun a _ b _ hab => hinj hab]
  refine Finset.sum_le_sum_of_subset_of_nonneg (fun i hi => ?_) fun i hi _ => hF i ?_
  · obtain ⟨j, -, rfl⟩ := Finset.mem_image.mp hi
    exact nearest_candidate h ((List.mem_ofFn' _ _).mpr ⟨j, rfl⟩)
  · classical
    unfold NNWrapper.candidates at hi
    exact Finset.mem_range.mp (Finset.mem_filter.mp hi).1

/-- **C120**: change the training responses in any way. The variances stay the same. Each mean moves by at most half the root of the sum of (change)² / noise over the
training points that can be among the neighbours, and by at most the predicted standard deviation (in units of the variance scale) times the sum of |change| / noise: an
outlier whose noise variance is declared large has little effect. -/
theorem C120_influence (bs : Flt → ℝ → ℝ) (R : Regressor) (w : NNWrapper) (hw : w.Exact) (Q Y Y' : Tensor ℝ) (m : Nat) (len : Fin w.f → ℝ) (σ : ℝ)
    (noise : Tensor ℝ) (hR : R.Declares w Q len σ noise) (hσ : 0 < σ) (hQ : Q.shape = [m, w.f]) (hY : Y.shape = [w.N]) (hY' : Y'.shape = [w.N])
    (hm : 0 < m) (hk0 : 0 < w.nnCount) (hkN : w.nnCount ≤ w.N) :
    ∃ μ v μ' v', regressAny bs R w Q w.train Y = .ok (μ, v) ∧ regressAny bs R w Q w.train Y' = .ok (μ', v') ∧
      μ.shape = [m] ∧ v.shape = [m] ∧ μ'.shape = [m] ∧ v'.shape = [m] ∧ ∀ p < m, v'.get [p] = v.get [p] ∧
        |μ'.get [p] - μ.get [p]| ≤ √(∑ i ∈ w.candidates (rowPt Q w.f p), (Y'.get [i] - Y.get [i]) ^ 2 / noise.get [i]) / 2 ∧
        |μ'.get [p] - μ.get [p]| ≤ √(v.get [p] / σ) * ∑ i ∈ w.candidates (rowPt Q w.f p), |Y'.get [i] - Y.get [i]| / noise.get [i] := by
  obtain ⟨nb, n1, n2⟩ := declares_predicts bs R w hw Q m len σ noise hR hQ hm hk0 hkN
  obtain ⟨μ, v, r1, r2, r3, r4⟩ := n2 Y hY
  obtain ⟨μ', v', s1, s2, s3, s4⟩ := n2 Y' hY'
  refine ⟨μ, v, μ', v', r1, s1, r2, r3, s2, s3, fun p hp => ?_⟩
  have hlt : ∀ j, nb p j < w.N := fun j => (n1 p hp).mem _ ((List.mem_ofFn' _ _).mpr ⟨j, rfl⟩)
  have ht : ∀ j : Fin w.nnCount, 0 < noise.get [nb p j] := fun j => hR.positive _ (hlt j)
  obtain ⟨c, c1, c2, c3⟩ := noisy_weights (covFn_comm bs R.kernel len) (covFn_self bs R.kernel hR.suits len)
    (fun n x d => covFn_psd bs R.kernel hR.suits len x d) (fun j => rowPt w.train w.f (nb p j)) (rowPt Q w.f p) ht
  have hV : v.get [p] / σ = Spec.krigingVar 1
      ((Matrix.of fun i j => R.kernel.covFn bs len (rowPt w.train w.f (nb p i)) (rowPt w.train w.f (nb p j))) +
        diagonal fun j => noise.get [nb p j])
      (fun j => R.kernel.covFn bs len (rowPt Q w.f p) (rowPt w.train w.f (nb p j))) := by
    rw [(r4 p hp).2]
    field_simp
  have hd : μ'.get [p] - μ.get [p] = ∑ j, c j * (Y'.get [nb p j] - Y.get [nb p j]) := by
    rw [(s4 p hp).1, (r4 p hp).1, c1, c1, ← Finset.sum_sub_distrib]
    exact Finset.sum_congr rfl fun j _ => by ring
  refine ⟨by rw [(s4 p hp).2, (r4 p hp).2], ?_, ?_⟩
  · have h := Finset.sum_mul_sq_le_sq_mul_sq Finset.univ (fun j => √(noise.get [nb p j]) * c j)
      fun j => (Y'.get [nb p j] - Y.get [nb p j]) / √(noise.get [nb p j])
    have e1 : ∀ j, √(noise.get [nb p j]) * c j * ((Y'.get [nb p j] - Y.get [nb p j]) / √(noise.get [nb p j])) =
        c j * (Y'.get [nb p j] - Y.get [nb p j]) := fun j => by
      have := (Real.sqrt_pos.mpr (ht j)).ne'
      field_simp
    have e2 : ∀ j, (√(noise.get [nb p j]) * c j) ^ 2 = noise.get [nb p j] * c j ^ 2 := fun j => by rw [mul_pow, Real.sq_sqrt (ht j).le]
    have e3 : ∀ j, ((Y'.get [nb p j] - Y.get [nb p j]) / √(noise.get [nb p j])) ^ 2 = (Y'.get [nb p j] - Y.get [nb p j]) ^ 2 / noise.get [nb p j] :=
      fun j => by rw [div_pow, Real.sq_sqrt (ht j).le]
    simp only [e1, e2, e3] at h
    rw [← hd] at h
    have h5 := sum_candidates (n1 p hp) (fun i => (Y'.get [i] - Y.get [i]) ^ 2 / noise.get [i])
      fun i hi => div_nonneg (sq_nonneg _) (hR.positive i hi).le
    have h6 : (0 : ℝ) ≤ ∑ j, (Y'.get [nb p j] - Y.get [nb p j]) ^ 2 / noise.get [nb p j] :=
      Finset.sum_nonneg fun j _ => div_nonneg (sq_nonneg _) (ht j).le
    rw [le_div_iff₀ two_pos]
    have h7 : ((μ'.get [p] - μ.get [p]) * 2) ^ 2 ≤ ∑ i ∈ w.candidates (rowPt Q w.f p), (Y'.get [i] - Y.get [i]) ^ 2 / noise.get [i] := by
      rw [mul_pow]
      nlinarith
    have h8 := Real.abs_le_sqrt h7
    rwa [abs_mul, abs_two] at h8
  · rw [hd, hV]
    refine (Finset.abs_sum_le_sum_abs _ _).trans ?_
    refine le_trans ?_ (mul_le_mul_of_nonneg_left (sum_candidates (n1 p hp) (fun i => |Y'.get [i] - Y.get [i]| / noise.get [i])
      fun i hi => div_nonneg (abs_nonneg _) (hR.positive i hi).le) (Real.sqrt_nonneg _))
    rw [Finset.mul_sum]
    refine Finset.sum_le_sum fun j _ => ?_
    rw [abs_mul]
    refine (mul_le_mul_of_nonneg_right (c3 j) (abs_nonneg _)).trans_eq ?_
    ring

/-- **C120**: two exact models (all training points are neighbours), the second with additional training points. No variance of the second is larger, and it is smaller by at most the
fraction `∑ 1 / noise` over the additional points; the square of the difference of the means is at most the difference of the variances (over the variance scale) times what it takes
to explain the responses — the energy of any function plus its squared residuals, each over its noise. -/
theorem C120_drop (bs : Flt → ℝ → ℝ) (R R' : Regressor) (w : NNWrapper) (N' : Nat) (X' : Tensor ℝ) (answer' : (Fin w.f → ℝ) → Nat → List Nat)
    (hw : w.Exact) (hw' : ({ w with N := N', nnCount := N', train := X', answer := answer' } : NNWrapper).Exact) (hall : w.nnCount = w.N) (hN : 0 < w.N)
    (hNN : w.N ≤ N') (Q Y Y' : Tensor ℝ) (m : Nat) (len : Fin w.f → ℝ) (σ : ℝ) (noise noise' : Tensor ℝ) (hR : R.Declares w Q len σ noise)
    (hR' : R'.Declares { w with N := N', nnCount := N', train := X', answer := answer' } Q len σ noise') (hker : R'.kernel = R.kernel) (hσ : 0 < σ)
    (hQ : Q.shape = [m, w.f]) (hm : 0 < m) (hY : Y.shape = [w.N]) (hY' : Y'.shape = [N'])
    (hsame : ∀ i < w.N, rowPt X' w.f i = rowPt w.train w.f i ∧ noise'.get [i] = noise.get [i] ∧ Y'.get [i] = Y.get [i]) :
    ∃ μ v μ' v', regressAny bs R w Q w.train Y = .ok (μ, v) ∧
      regressAny bs R' { w with N := N', nnCount := N', train := X', answer := answer' } Q X' Y' = .ok (μ', v') ∧
      μ.shape = [m] ∧ v.shape = [m] ∧ μ'.shape = [m] ∧ v'.shape = [m] ∧ ∀ p < m, v'.get [p] ≤ v.get [p] ∧
        v.get [p] - v'.get [p] ≤ v.get [p] * ∑ i ∈ Finset.Ico w.N N', 1 / noise'.get [i] ∧
        ∀ (E : ℝ) (g : (Fin w.f → ℝ) → ℝ), Spec.EnergyAtMost (R.kernel.covFn bs len) E g →
          (μ'.get [p] - μ.get [p]) ^ 2 ≤
            (E + ∑ i ∈ Finset.range N', (Y'.get [i] - g (rowPt X' w.f i)) ^ 2 / noise'.get [i]) * ((v.get [p] - v'.get [p]) / σ) := by
  obtain ⟨nn, D, T, hnn, hT, hRn⟩ := hR.noise
  obtain ⟨nn', D', T', hnn', hT', hRn'⟩ := hR'.noise
  obtain ⟨μ, v, r1, r2, r3, r4⟩ := C89_heteroscedastic bs R hR.made hR.kout hR.suits w hw hall Q Y m len hR.lengths hQ hY hm hN noise hR.table nn D T
    hnn hT hRn (.inl hR.positive)
  obtain ⟨μ', v', s1, s2, s3, s4⟩ := C89_heteroscedastic bs R' hR'.made hR'.kout hR'.suits _ hw' rfl Q Y' m len hR'.lengths hQ hY' hm (hN.trans_le hNN)
    noise' hR'.table nn' D' T' hnn' hT' hRn' (.inl hR'.positive)
  refine ⟨μ, v, μ', v', r1, s1, r2, r3, s2, s3, fun p hp => ?_⟩
  obtain ⟨r5, r6⟩ := r4 p hp
  obtain ⟨s5, s6⟩ := s4 p hp
  simp only at s5 s6
  have hpos' : ∀ i : Fin N', 0 < responses noise' N' i := fun i => hR'.positive i i.2
  obtain ⟨⟨d1, d2⟩, d3⟩ := noisy_drop (covFn_comm bs R.kernel len) (covFn_self bs R.kernel hR.suits len)
    (fun n x d => covFn_psd bs R.kernel hR.suits len x d) (fun j : Fin N' => rowPt X' w.f j) (rowPt Q w.f p) hpos'
    (Fin.castLE hNN) (Fin.castLE_injective hNN)
  have eA' : fullCov bs R'.kernel len X' N' + diagonal (responses noise' N') =
      (Matrix.of fun i j : Fin N' => R.kernel.covFn bs len (rowPt X' w.f i) (rowPt X' w.f j)) + diagonal (responses noise' N') := by
    rw [hker]; rfl
  have eA : fullCov bs R.kernel len w.train w.N + diagonal (responses noise w.N) =
      (Matrix.of fun i j : Fin w.N => R.kernel.covFn bs len (rowPt X' w.f (Fin.castLE hNN i : Fin N')) (rowPt X' w.f (Fin.castLE hNN j : Fin N'))) +
        diagonal (responses noise' N' ∘ Fin.castLE hNN) := by
    congr 1
    · ext i j
      simp only [fullCov, of_apply, Fin.val_castLE]
      rw [(hsame i i.2).1, (hsame j j.2).1]
    · congr 1
      funext i
      simp only [responses, Function.comp, Fin.val_castLE, (hsame i i.2).2.1]
  have ec' : fullCross bs R'.kernel len X' N' (rowPt Q w.f p) = fun j : Fin N' => R.kernel.covFn bs len (rowPt Q w.f p) (rowPt X' w.f j) := by
    rw [hker]; rfl
  have ec : fullCross bs R.kernel len w.train w.N (rowPt Q w.f p) =
      fun j : Fin w.N => R.kernel.covFn bs len (rowPt Q w.f p) (rowPt X' w.f (Fin.castLE hNN j : Fin N')) := by
    funext j
    simp only [fullCross, Fin.val_castLE]
    rw [(hsame j j.2).1]
  have ey : responses Y w.N = responses Y' N' ∘ Fin.castLE hNN := by
    funext j
    simp only [responses, Function.comp, Fin.val_castLE, (hsame j j.2).2.2]
  rw [hR.scale, eA, ec] at r6
  rw [eA, ec, ey] at r5
  rw [hR'.scale, eA', ec'] at s6
  rw [eA', ec'] at s5
  have hsum : ∑ i ∈ (Finset.univ.image (Fin.castLE hNN))ᶜ, 1 / responses noise' N' i = ∑ i ∈ Finset.Ico w.N N', 1 / noise'.get [i] := by
    refine Finset.sum_bij (fun i _ => (i : Nat)) (fun i hi => ?_) (fun a _ b _ h => Fin.ext h) (fun b hb => ?_) fun i _ => rfl
    · rw [Finset.mem_compl, Finset.mem_image] at hi
      rw [Finset.mem_Ico]
      refine ⟨not_lt.mp fun h => hi ⟨⟨i, h⟩, Finset.mem_univ _, Fin.ext rfl⟩, i.2⟩
    · rw [Finset.mem_Ico] at hb
      refine ⟨⟨b, hb.2⟩, ?_, rfl⟩
      rw [Finset.mem_compl, Finset.mem_image]
      rintro ⟨j, -, hj⟩
      have : (j : Nat) = b := congrArg Fin.val hj
      exact absurd j.2 (by omega)
  refine ⟨?_, ?_, fun E g hg => ?_⟩
  · rw [r6, s6]
    exact mul_le_mul_of_nonneg_left d1 hσ.le
  · rw [r6, s6, ← hsum, ← mul_sub, mul_assoc]
    exact mul_le_mul_of_nonneg_left d2 hσ.le
  · rw [r5, s5, r6, s6, ← mul_sub, mul_div_cancel_left₀ _ hσ.ne', Finset.sum_range]
    exact d3 E g (responses Y' N') (energy_nonneg (covFn_self bs R.kernel hR.suits len) hg) hg

/-- **C120**: when the noise declared for the additional training points grows without bound, the predictions of the model with all points tend to those of the model without the
additional ones, whatever their responses. -/
theorem C120_limit (bs : Flt → ℝ → ℝ) (R : Regressor) (w : NNWrapper) (N' : Nat) (X' : Tensor ℝ) (answer' : (Fin w.f → ℝ) → Nat → List Nat)
    (hw : w.Exact) (hw' : ({ w with N := N', nnCount := N', train := X', answer := answer' } : NNWrapper).Exact) (hall : w.nnCount = w.N) (hN : 0 < w.N)
    (hNN : w.N ≤ N') (Q Y Y' : Tensor ℝ) (m : Nat) (len : Fin w.f → ℝ) (σ : ℝ) (noise : Tensor ℝ) (hR : R.Declares w Q len σ noise) (hσ : 0 < σ)
    {ι : Type*} (l : Filter ι) (R' : ι → Regressor) (noise' : ι → Tensor ℝ)
    (hR' : ∀ s, (R' s).Declares { w with N := N', nnCount := N', train := X', answer := answer' } Q len σ (noise' s)) (hker : ∀ s, (R' s).kernel = R.kernel)
    (hQ : Q.shape = [m, w.f]) (hm : 0 < m) (hY : Y.shape = [w.N]) (hY' : Y'.shape = [N'])
    (hsame : ∀ i < w.N, rowPt X' w.f i = rowPt w.train w.f i ∧ (∀ s, (noise' s).get [i] = noise.get [i]) ∧ Y'.get [i] = Y.get [i])
    (hgrow : ∀ i, w.N ≤ i → i < N' → Filter.Tendsto (fun s => (noise' s).get [i]) l Filter.atTop) :
    ∃ (μ v : Tensor ℝ) (μ' v' : ι → Tensor ℝ), regressAny bs R w Q w.train Y = .ok (μ, v) ∧
      (∀ s, regressAny bs (R' s) { w with N := N', nnCount := N', train := X', answer := answer' } Q X' Y' = .ok (μ' s, v' s)) ∧
      ∀ p < m, Filter.Tendsto (fun s => (μ' s).get [p]) l (nhds (μ.get [p])) ∧ Filter.Tendsto (fun s => (v' s).get [p]) l (nhds (v.get [p])) := by
  have h := fun s => C120_drop bs R (R' s) w N' X' answer' hw hw' hall hN hNN Q Y Y' m len σ noise (noise' s) hR (hR' s) (hker s) hσ hQ hm hY hY'
    fun i hi => ⟨(hsame i hi).1, (hsame i hi).2.1 s, (hsame i hi).2.2⟩
  obtain ⟨nn, D, T, hnn, hT, hRn⟩ := hR.noise
  obtain ⟨μ, v, r1, -, -, -⟩ := C89_heteroscedastic bs R hR.made hR.kout hR.suits w hw hall Q Y m len hR.lengths hQ hY hm hN noise hR.table nn D T
    hnn hT hRn (.inl hR.positive)
  have h' : ∀ s, ∃ μ' v' : Tensor ℝ, regressAny bs (R' s) { w with N := N', nnCount := N', train := X', answer := answer' } Q X' Y' = .ok (μ', v') ∧
      ∀ p < m, v'.get [p] ≤ v.get [p] ∧ v.get [p] - v'.get [p] ≤ v.get [p] * ∑ i ∈ Finset.Ico w.N N', 1 / (noise' s).get [i] ∧
        (μ'.get [p] - μ.get [p]) ^ 2 ≤
          (∑ i ∈ Finset.range N', Y'.get [i] ^ 2 / (noise' s).get [i]) * ((v.get [p] - v'.get [p]) / σ) := fun s => by
    obtain ⟨μ₀, v₀, μ', v', a1, a2, -, -, -, -, a3⟩ := h s
    rw [r1] at a1
    cases a1
    refine ⟨μ', v', a2, fun p hp => ⟨(a3 p hp).1, (a3 p hp).2.1, ?_⟩⟩
    have := (a3 p hp).2.2 0 (fun _ => 0) (fun n x d => by simp)
    simpa using this
  choose μ' v' a1 a2 using h'
  refine ⟨μ, v, μ', v', r1, a1, fun p hp => ?_⟩
  have hinv : ∀ i, w.N ≤ i → i < N' → Filter.Tendsto (fun s => 1 / (noise' s).get [i]) l (nhds 0) := fun i h1 h2 => by
    simp only [one_div]
    exact (hgrow i h1 h2).inv_tendsto_atTop
  have hsum : Filter.Tendsto (fun s => v.get [p] * ∑ i ∈ Finset.Ico w.N N', 1 / (noise' s).get [i]) l (nhds 0) := by
    have := (tendsto_finsetSum (Finset.Ico w.N N') fun i hi => hinv i (Finset.mem_Ico.mp hi).1 (Finset.mem_Ico.mp hi).2).const_mul (v.get [p])
    simpa using this
  have hdv : Filter.Tendsto (fun s => v.get [p] - (v' s).get [p]) l (nhds 0) :=
    squeeze_zero (fun s => sub_nonneg.mpr (a2 s p hp).1) (fun s => (a2 s p hp).2.1) hsum
  -- what the responses cost
  have hcost : ∀ s, (∑ i ∈ Finset.range N', Y'.get [i] ^ 2 / (noise' s).get [i]) =
      (∑ i ∈ Finset.range w.N, Y'.get [i] ^ 2 / noise.get [i]) + ∑ i ∈ Finset.Ico w.N N', Y'.get [i] ^ 2 * (1 / (noise' s).get [i]) := fun s => by
    rw [← Finset.sum_range_add_sum_Ico _ hNN]
    congr 1
    · exact Finset.sum_congr rfl fun i hi => by rw [(hsame i (Finset.mem_range.mp hi)).2.1 s]
    · exact Finset.sum_congr rfl fun i hi => by rw [mul_one_div]
  have hc : Filter.Tendsto (fun s => ∑ i ∈ Finset.range N', Y'.get [i] ^ 2 / (noise' s).get [i]) l
      (nhds (∑ i ∈ Finset.range w.N, Y'.get [i] ^ 2 / noise.get [i])) := by
    simp only [hcost]
    have := (tendsto_finsetSum (Finset.Ico w.N N') fun i hi => (hinv i (Finset.mem_Ico.mp hi).1 (Finset.mem_Ico.mp hi).2).const_mul
      (Y'.get [i] ^ 2)).const_add (∑ i ∈ Finset.range w.N, Y'.get [i] ^ 2 / noise.get [i])
    simpa using this
  have hsq : Filter.Tendsto (fun s => ((μ' s).get [p] - μ.get [p]) ^ 2) l (nhds 0) := by
    refine squeeze_zero (fun s => sq_nonneg _) (fun s => (a2 s p hp).2.2) ?_
    have := hc.mul (hdv.div_const σ)
    simpa using this
  constructor
  · have habs : Filter.Tendsto (fun s => |(μ' s).get [p] - μ.get [p]|) l (nhds 0) := by
      have := (Real.continuous_sqrt.tendsto 0).comp hsq
      simpa [Function.comp_def, Real.sqrt_sq_eq_abs] using this
    have := (tendsto_zero_iff_abs_tendsto_zero _).mpr habs
    simpa using this.add_const (μ.get [p])
  · have := hdv.const_sub (v.get [p])
    simpa using this

end MuyGPyS
