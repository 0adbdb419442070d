import Mathlib.Analysis.Complex.Norm
import Mathlib.Analysis.Convex.SpecificFunctions.Basic
import Verif.Props.Unbiased

/-!
# C73: on average, the true hyperparameters score best
-/

namespace MuyGPyS
open Py Matrix MeasureTheory ProbabilityTheory

/-! ## Losses of one prediction error -/

/-- The pseudo-Huber loss of one error. -/
noncomputable def huber (δ x : ℝ) : ℝ := δ ^ 2 * (Real.sqrt (1 + (x / δ) ^ 2) - 1)

theorem huber_convex (δ : ℝ) : ConvexOn ℝ Set.univ (huber δ) := by
  have h1 : ConvexOn ℝ Set.univ fun x : ℝ => ‖(⟨1, x / δ⟩ : ℂ)‖ := by
    refine ⟨convex_univ, fun x _ y _ a b ha hb hab => ?_⟩
    have e : (⟨1, (a • x + b • y) / δ⟩ : ℂ) = (a : ℂ) * ⟨1, x / δ⟩ + (b : ℂ) * ⟨1, y / δ⟩ := by
      apply Complex.ext
      · simp [hab]
      · simp; ring
    show ‖(⟨1, (a • x + b • y) / δ⟩ : ℂ)‖ ≤ _
    rw [e]
    refine (norm_add_le _ _).trans ?_
    rw [norm_mul, norm_mul, Complex.norm_real, Complex.norm_real, Real.norm_of_nonneg ha, Real.norm_of_nonneg hb]
    rfl
  have h2 : huber δ = fun x => δ ^ 2 * (‖(⟨1, x / δ⟩ : ℂ)‖ + -1) := by
    funext x
    unfold huber
    rw [Complex.norm_def, Complex.normSq_mk]
    ring_nf
  rw [h2]
  have h3 := (h1.add_const (-1)).smul (sq_nonneg δ)
  exact h3

theorem huber_bound (δ x : ℝ) : |huber δ x| ≤ x ^ 2 := by
  have hs : 1 ≤ Real.sqrt (1 + (x / δ) ^ 2) := Real.one_le_sqrt.mpr (by nlinarith [sq_nonneg (x / δ)])
  have hu : Real.sqrt (1 + (x / δ) ^ 2) - 1 ≤ (x / δ) ^ 2 := by
    have : Real.sqrt (1 + (x / δ) ^ 2) ≤ 1 + (x / δ) ^ 2 := by
      rw [Real.sqrt_le_left (by positivity)]
      nlinarith [sq_nonneg (x / δ), sq_nonneg ((x / δ) ^ 2)]
    linarith
  unfold huber
  rw [abs_of_nonneg (mul_nonneg (sq_nonneg _) (by linarith))]
  by_cases hδ : δ = 0
  · subst hδ; simp; positivity
  · calc δ ^ 2 * (Real.sqrt (1 + (x / δ) ^ 2) - 1) ≤ δ ^ 2 * (x / δ) ^ 2 := mul_le_mul_of_nonneg_left hu (sq_nonneg _)
      _ = x ^ 2 := by rw [div_pow]; field_simp

/-- A response and the best linear prediction of it: no other linear prediction has a smaller expected loss, for any even convex loss. -/
theorem prediction_best {Ω : Type*} [MeasurableSpace Ω] {P : Measure Ω} {n : Nat} {F : Fin n → Ω → ℝ} {G : Ω → ℝ}
    (hg : HasGaussianLaw (fun ω => (fun i => F i ω, G ω)) P) (zF : ∀ i, P[F i] = 0) (zG : P[G] = 0)
    (K : Matrix (Fin n) (Fin n) ℝ) (k : Fin n → ℝ) (c s : ℝ) (hFF : ∀ i j, cov[F i, F j; P] = s * K i j)
    (hFG : ∀ i, cov[F i, G; P] = s * k i) (hGG : Var[G; P] = s * c) (hdet : K.det ≠ 0)
    {ℓ : ℝ → ℝ} (hℓ : Measurable ℓ) (heven : ∀ x, ℓ (-x) = ℓ x) (hconv : ConvexOn ℝ Set.univ ℓ) (hbd : ∀ x, |ℓ x| ≤ x ^ 2)
    (K' : Matrix (Fin n) (Fin n) ℝ) (k' : Fin n → ℝ) :
    Integrable (fun ω => ℓ (G ω - Spec.krigingMean K k fun i => F i ω)) P ∧
    Integrable (fun ω => ℓ (G ω - Spec.krigingMean K' k' fun i => F i ω)) P ∧
    ∫ ω, ℓ (G ω - Spec.krigingMean K k fun i => F i ω) ∂P ≤ ∫ ω, ℓ (G ω - Spec.krigingMean K' k' fun i => F i ω) ∂P := by
  have hP := hg.isProbabilityMeasure
  obtain ⟨-, h2, h3⟩ := gaussian_posterior hg zF zG K k c s hFF hFG hGG hdet
  have mF : ∀ i, MemLp (F i) 2 P := fun i => (hg.fst.eval i).memLp_two
  have mG : MemLp G 2 P := hg.snd.memLp_two
  have mM : ∀ (K : Matrix (Fin n) (Fin n) ℝ) k, MemLp (fun ω => Spec.krigingMean K k fun i => F i ω) 2 P := fun K k => by
    simp only [krigingMean_sum]
    exact memLp_finsetSum _ fun j _ => (mF j).const_mul _
  have hint : ∀ X : Ω → ℝ, MemLp X 2 P → Integrable (fun ω => ℓ (X ω)) P := fun X mX =>
    mX.integrable_sq.mono' (hℓ.comp_aemeasurable mX.aestronglyMeasurable.aemeasurable).aestronglyMeasurable
      (Filter.Eventually.of_forall fun ω => hbd _)
  have mR : ∀ (K : Matrix (Fin n) (Fin n) ℝ) k, MemLp (fun ω => G ω - Spec.krigingMean K k fun i => F i ω) 2 P := fun K k =>
    mG.sub (mM K k)
  have i1 := hint _ (mR K k)
  have i2 := hint _ (mR K' k')
  refine ⟨i1, i2, ?_⟩
  have mD : MemLp (fun ω => (Spec.krigingMean K k fun i => F i ω) - Spec.krigingMean K' k' fun i => F i ω) 2 P :=
    (mM K k).sub (mM K' k')
  have hmeas : Measurable fun y : Fin n → ℝ => Spec.krigingMean K k y - Spec.krigingMean K' k' y := by
    simp only [krigingMean_sum]; fun_prop
  have hsym : P.map (fun ω => G ω - Spec.krigingMean K k fun i => F i ω) =
      P.map (fun ω => -(G ω - Spec.krigingMean K k fun i => F i ω)) := by
    have e : P.map (fun ω => -(G ω - Spec.krigingMean K k fun i => F i ω)) =
        (P.map (fun ω => G ω - Spec.krigingMean K k fun i => F i ω)).map fun x => -x := by
      rw [AEMeasurable.map_map_of_aemeasurable (by fun_prop) (mR K k).aestronglyMeasurable.aemeasurable]; rfl
    rw [e, h2, gaussianReal_map_neg, neg_zero]
  have key := even_convex_optimal (R := fun ω => G ω - Spec.krigingMean K k fun i => F i ω)
    (D := fun ω => (Spec.krigingMean K k fun i => F i ω) - Spec.krigingMean K' k' fun i => F i ω)
    (mR K k).aestronglyMeasurable.aemeasurable mD.aestronglyMeasurable.aemeasurable hsym
    (h3.comp hmeas measurable_id) hℓ heven hconv i1 (by
      refine i2.congr (Filter.Eventually.of_forall fun ω => ?_)
      simp only; congr 1; ring)
  refine key.trans (le_of_eq (integral_congr_ae (Filter.Eventually.of_forall fun ω => ?_)))
  simp only; congr 1; ring

/-! ## The score as a sum over the batch -/

theorem entries_vector (t : Tensor ℝ) (b : Nat) (h : t.shape = [b]) : entries t = (List.range b).map fun p => t.get [p] := by
  unfold entries
  rw [h]
  simp only [List.prod_cons, List.prod_nil, Nat.mul_one]
  exact List.map_congr_left fun p _ => (Tensor.get1 t h p).symm

theorem zip2_range (f : ℝ → ℝ → ℝ) (b : Nat) (x y : Nat → ℝ) :
    Loss.zip2 f ((List.range b).map x) ((List.range b).map y) = .ok ((List.range b).map fun p => f (x p) (y p)) := by
  unfold Loss.zip2
  rw [if_pos (by simp)]
  congr 1
  rw [List.zipWith_map_left, List.zipWith_map_right, List.zipWith_self]

/-- Covariances between batch point `p` and its neighbours under the model. -/
noncomputable def Learner.batchCross (bs : Flt → ℝ → ℝ) (L : Learner) (w : NNWrapper) (len : Fin w.f → ℝ) (idx : List Nat) (nn : Tensor Int)
    (p : Nat) : Fin w.nnCount → ℝ :=
  nbrCross bs L.trainee.R.kernel len w.train w.N w.nnCount nn p (rowPt w.train w.f (idx.getD p 0))

/-- The predictions of a model on the batch, and their variances. -/
theorem batch_predictions (bs : Flt → ℝ → ℝ) (L : Learner) (hmade : L.Made) (w : NNWrapper) (hw : w.Exact) (len : Fin w.f → ℝ)
    (hlen : L.deform.HasLengths w.f len) (idx : List Nat) (nn : Tensor Int) (h4 : ∀ x ∈ idx, x < w.N)
    (h5 : nn.shape = [idx.length, w.nnCount]) (hv : AllValid w.N nn) (d : TrainData)
    (hp : L.deform.pairwise w.train nn = .ok d.pairwise) (hc : L.deform.crosswise w.train w.train (ofNats idx) nn = .ok d.crosswise)
    (hy : d.nnTargets.shape = [idx.length, w.nnCount]) (hν : L.trainee.R.gp.noise.Fits idx.length w.nnCount)
    (hdet : ∀ p < idx.length, (L.batchCov bs w len nn p).det ≠ 0) :
    ∃ K C μ, L.trainee.R.kernel.call bs d.pairwise [] = .ok K ∧ L.trainee.R.kernel.call bs d.crosswise [] = .ok C ∧
      L.trainee.R.gp.posteriorMean K C d.nnTargets = .ok μ ∧ μ.shape = [idx.length] ∧
      (∀ p < idx.length, μ.get [p] =
        Spec.krigingMean (L.batchCov bs w len nn p) (L.batchCross bs w len idx nn p) (Spec.vec w.nnCount d.nnTargets p)) ∧
      ∀ σ : ℝ, ∃ v, ({ L.trainee.R.gp with scale := σ, boundScale := σ } : MuyGPS).posteriorVariance K C = .ok v ∧
        v.shape = [idx.length] ∧ ∀ p < idx.length, v.get [p] =
          σ * Spec.krigingVar 1 (L.batchCov bs w len nn p) (L.batchCross bs w len idx nn p) := by
  obtain ⟨D, K, k1, k2, k3, k4⟩ := kernel_pairwise bs L.trainee.R.kernel (made_kernel hmade) w.train nn w.N w.f idx.length w.nnCount len
    hlen (.inl hw.1) h5 hv
  obtain ⟨E, C, c1, c2, c3, c4⟩ := kernel_crosswise bs L.trainee.R.kernel (made_kernel hmade) w.train w.train (ofNats idx) nn w.N w.N w.f
    idx.length w.nnCount len hlen (.inl hw.1) (.inl hw.1) rfl rfl h5 (ofNats_valid h4) hv
  have hD : D = d.pairwise := Except.ok.inj ((show L.deform.pairwise w.train nn = .ok D from k1).symm.trans hp)
  have hE : E = d.crosswise := Except.ok.inj ((show L.deform.crosswise w.train w.train (ofNats idx) nn = .ok E from c1).symm.trans hc)
  rw [hD] at k2
  rw [hE] at c2
  have hrow : ∀ x, pt w.train w.f x = rowPt w.train w.f x := fun x => by
    funext c; simp only [pt, feature, hw.1, rowPt]
  have hcross : ∀ p < idx.length, Spec.vec w.nnCount C p = L.batchCross bs w len idx nn p := fun p hp => by
    rw [c4 p hp, hrow, ofNats_get, pointOf_nat]; rfl
  have hcov : ∀ p < idx.length, Spec.cov w.nnCount K p + L.trainee.R.gp.noise.mat w.nnCount p = L.batchCov bs w len nn p :=
    fun p hp => by rw [k4 p hp]; rfl
  have hsym : ∀ p < idx.length, (Spec.cov w.nnCount K p).transpose = Spec.cov w.nnCount K p := fun p hp => by
    rw [k4 p hp, nbrCov_symm]
  have hinv : ∀ p < idx.length, (Spec.cov w.nnCount K p + L.trainee.R.gp.noise.mat w.nnCount p).det ≠ 0 := fun p hp => by
    rw [hcov p hp]; exact hdet p hp
  obtain ⟨μ, m1, m2, m3⟩ := C24_model_mean L.trainee.R.gp idx.length w.nnCount hν K C d.nnTargets k3 c3 hy hinv hsym
  refine ⟨K, C, μ, k2, c2, m1, m2, fun p hp => by rw [m3 p hp, hcov p hp, hcross p hp], fun σ => ?_⟩
  obtain ⟨v, v1, v2, v3⟩ := C24_model_variance { L.trainee.R.gp with scale := σ, boundScale := σ } idx.length w.nnCount hν K C rfl k3 c3
    hinv hsym
  refine ⟨v, v1, v2, fun p hp => ?_⟩
  rw [v3 p hp, ← hcov p hp, ← hcross p hp]
  rfl

/-- The loss of one prediction error, and the factor in front of the sum over the batch. -/
noncomputable def LossKind.errorLoss : LossKind → ℝ → ℝ
  | .pseudoHuber δ => huber δ
  | _ => fun x => x ^ 2

/-- see above -/
noncomputable def LossKind.factor (b : Nat) : LossKind → ℝ
  | .mse => 1 / b
  | _ => 1

/-- The score of a model: minus the loss of its prediction errors. -/
theorem score_means (bs : Flt → ℝ → ℝ) (L : Learner) (hmade : L.Made) (w : NNWrapper) (hw : w.Exact) (len : Fin w.f → ℝ)
    (hlen : L.deform.HasLengths w.f len) (idx : List Nat) (nn : Tensor Int) (h4 : ∀ x ∈ idx, x < w.N)
    (h5 : nn.shape = [idx.length, w.nnCount]) (hv : AllValid w.N nn) (d : TrainData)
    (hp : L.deform.pairwise w.train nn = .ok d.pairwise) (hc : L.deform.crosswise w.train w.train (ofNats idx) nn = .ok d.crosswise)
    (ht : d.targets.shape = [idx.length])
    (hy : d.nnTargets.shape = [idx.length, w.nnCount]) (hν : L.trainee.R.gp.noise.Fits idx.length w.nnCount)
    (hdet : ∀ p < idx.length, (L.batchCov bs w len nn p).det ≠ 0) (l : LossKind) (hl : l = .mse ∨ ∃ δ, l = .pseudoHuber δ)
    (draws : List (List Nat)) :
    L.score bs l draws d = .ok (some (-(l.factor idx.length * ∑ p ∈ Finset.range idx.length, l.errorLoss (d.targets.get [p] -
      Spec.krigingMean (L.batchCov bs w len nn p) (L.batchCross bs w len idx nn p) (Spec.vec w.nnCount d.nnTargets p))))) := by
  obtain ⟨K, C, μ, e1, e2, e3, e4, e5, -⟩ := batch_predictions bs L hmade w hw len hlen idx nn h4 h5 hv d hp hc hy hν hdet
  have hsum : ∀ g : ℝ → ℝ → ℝ, ((List.range idx.length).map fun p => g (μ.get [p]) (d.targets.get [p])).sum =
      ∑ p ∈ Finset.range idx.length, g (Spec.krigingMean (L.batchCov bs w len nn p) (L.batchCross bs w len idx nn p)
        (Spec.vec w.nnCount d.nnTargets p)) (d.targets.get [p]) := fun g => by
    rw [← List.sum_toFinset _ List.nodup_range, List.toFinset_range]
    exact Finset.sum_congr rfl fun p hp => by rw [e5 p (Finset.mem_range.1 hp)]
  unfold Learner.score promisedRaw
  rcases hl with rfl | ⟨δ, rfl⟩
  · simp only [LossKind.raw, if_true, e1, e2, e3, bind, Except.bind, pure, Except.pure, pickOutputs, LossKind.ofMeans, e4, ht,
      Loss.mse, Loss.mseUnnormalized, entries_vector μ _ e4, entries_vector d.targets _ ht, zip2_range, List.length_map,
      List.length_range, LossKind.factor, LossKind.errorLoss]
    congr 3
    rw [div_eq_mul_one_div, mul_comm]
    congr 1
    rw [hsum fun a b => (a - b) ^ 2]
    exact Finset.sum_congr rfl fun p _ => by ring
  · simp only [LossKind.raw, if_true, e1, e2, e3, bind, Except.bind, pure, Except.pure, pickOutputs, LossKind.ofMeans, e4, ht,
      Loss.pseudoHuber, entries_vector μ _ e4, entries_vector d.targets _ ht, zip2_range, LossKind.factor,
      LossKind.errorLoss, huber, one_mul]
    rw [hsum fun a b => Real.sqrt (1 + ((b - a) / δ) ^ 2) - 1, Finset.mul_sum]

/-- The score of a model with a fixed scale under the leave-one-out likelihood. -/
theorem score_lool (bs : Flt → ℝ → ℝ) (L : Learner) (hmade : L.Made) (hsk : L.scaleKind = .fixed)
    (w : NNWrapper) (hw : w.Exact) (len : Fin w.f → ℝ)
    (hlen : L.deform.HasLengths w.f len) (idx : List Nat) (nn : Tensor Int) (h4 : ∀ x ∈ idx, x < w.N)
    (h5 : nn.shape = [idx.length, w.nnCount]) (hv : AllValid w.N nn) (d : TrainData)
    (hp : L.deform.pairwise w.train nn = .ok d.pairwise) (hc : L.deform.crosswise w.train w.train (ofNats idx) nn = .ok d.crosswise)
    (ht : d.targets.shape = [idx.length])
    (hy : d.nnTargets.shape = [idx.length, w.nnCount]) (hν : L.trainee.R.gp.noise.Fits idx.length w.nnCount)
    (hdet : ∀ p < idx.length, (L.batchCov bs w len nn p).det ≠ 0) (draws : List (List Nat)) :
    L.score bs .lool draws d = .ok (some (-∑ p ∈ Finset.range idx.length,
      ((d.targets.get [p] -
        Spec.krigingMean (L.batchCov bs w len nn p) (L.batchCross bs w len idx nn p) (Spec.vec w.nnCount d.nnTargets p)) ^ 2 /
        (L.scale * Spec.krigingVar 1 (L.batchCov bs w len nn p) (L.batchCross bs w len idx nn p)) +
        Real.log (L.scale * Spec.krigingVar 1 (L.batchCov bs w len nn p) (L.batchCross bs w len idx nn p))))) := by
  obtain ⟨K, C, μ, e1, e2, e3, e4, e5, e6⟩ := batch_predictions bs L hmade w hw len hlen idx nn h4 h5 hv d hp hc hy hν hdet
  obtain ⟨v, v1, v2, v3⟩ := e6 L.scale
  unfold Learner.score promisedVar
  have hps : L.trainee.promisedScale draws K d.nnTargets = .ok (some L.scale) := by
    unfold Trainee.promisedScale
    have : L.trainee.scaleKind = .fixed := hsk
    rw [this]; rfl
  simp only [LossKind.raw, Bool.false_eq_true, if_false, e1, e2, e3, hps, v1, bind, Except.bind, pure, Except.pure, LossKind.ofVariances,
    LossKind.term, e4, v2, ht, and_self, if_true]
  congr 3
  refine Finset.sum_congr rfl fun p hp => ?_
  rw [e5 p (Finset.mem_range.1 hp), v3 p (Finset.mem_range.1 hp)]
  congr 2
  ring

/-! ## The batch under the true model -/

/-- What `sample_batch` returns: valid indices, and for every batch point different other training points. -/
theorem batch_rows (w : NNWrapper) (hw : w.Exact) (hsep : w.Separated) (bc : Nat) (hbc : 0 < bc) (draw : List Nat)
    (hd : bc < w.N → IsDraw w.N bc draw) (hN : 0 < w.N) (hkN : w.nnCount + 1 ≤ w.N) :
    ∃ idx nn, sampleBatch w bc w.N draw = .ok (idx, nn) ∧ idx.length = min bc w.N ∧ (∀ x ∈ idx, x < w.N) ∧
      nn.shape = [idx.length, w.nnCount] ∧ AllValid w.N nn ∧
      (∀ p < idx.length, ∃ l : List Nat, rowList nn w.nnCount p = l.map Int.ofNat ∧ l.length = w.nnCount ∧ l.Nodup ∧ ∀ j ∈ l, j < w.N) ∧
      ∀ p < idx.length, ∀ j < w.nnCount, pointOf w.N (nn.get [p, j]) < w.N ∧ pointOf w.N (nn.get [p, j]) ≠ idx.getD p 0 := by
  obtain ⟨idx, nn, h1, h2, h3, h4, _, h5, h6⟩ := C42_batch w hw bc hbc hN draw hd hkN
  have hno := batch_neighbours w hw bc hbc hN draw hd hkN hsep idx nn h1
  have hrows : ∀ p < idx.length, ∃ l : List Nat, rowList nn w.nnCount p = l.map Int.ofNat ∧ l.length = w.nnCount ∧ l.Nodup ∧
      ∀ j ∈ l, j < w.N := fun p hp => by
    obtain ⟨l, e1, e2, e3, e4, _⟩ := h6 p idx[p] (List.getElem?_eq_getElem hp)
    exact ⟨l, e1, e2, e3, e4⟩
  refine ⟨idx, nn, h1, h2, h4, h5, valid_of_rows h5 fun i hi j hj => ?_, hrows, fun p hp j hj => ?_⟩
  · obtain ⟨l, e1, _, _, e2⟩ := hrows i hi
    obtain ⟨x, x1, x2⟩ := rowList_get e1 hj
    exact ⟨x, x2, e2 x (List.mem_of_getElem? x1)⟩
  · obtain ⟨l, e1, e2⟩ := hno p idx[p] (List.getElem?_eq_getElem hp)
    obtain ⟨x, x1, x2⟩ := rowList_get e1 hj
    have := e2.mem x (List.mem_of_getElem? x1)
    rw [x2, pointOf_nat, List.getD_eq_getElem?_getD, List.getElem?_eq_getElem hp, Option.getD_some]
    exact this

/-- A model with a suitable kernel and noise has positive definite covariances on every batch. -/
theorem batch_posdef (bs : Flt → ℝ → ℝ) (L : Learner) (hsuit : L.fn.Suits L.deform.metric) (w : NNWrapper) (len : Fin w.f → ℝ)
    (hlen : L.deform.HasLengths w.f len) (b : Nat) (nn : Tensor Int)
    (hrows : ∀ p < b, ∃ l : List Nat, rowList nn w.nnCount p = l.map Int.ofNat ∧ l.length = w.nnCount ∧ l.Nodup ∧ ∀ j ∈ l, j < w.N)
    (hreg : L.trainee.R.gp.noise.Suffices b w.nnCount (DistinctRows w.train w.N w.f)) (p : Nat) (hp : p < b) :
    (L.batchCov bs w len nn p).PosDef := by
  obtain ⟨l, e1, e2, e3, e4⟩ := hrows p hp
  have hc := nbrCov_definite bs L.trainee.R.kernel hsuit len (hasLengths_pos hlen) w.train w.N w.nnCount nn p
  exact Noise.posdef_of_suffices (hreg.mono fun hd => distinct_of_nodup e1 e3 e4 hd) hp hc.1 hc.2

/-- The law of the responses of a batch point and of its neighbours, if the covariances of the model are those of the process `C`. -/
theorem batch_law_of (bs : Flt → ℝ → ℝ) (L : Learner)
    (w : NNWrapper) (len : Fin w.f → ℝ) (C : (Fin w.f → ℝ) → (Fin w.f → ℝ) → ℝ) (τ : ℝ) (hC : ∀ x y, C x y = C y x) (hC1 : ∀ x, C x x = 1)
    (s : ℝ) {Ω : Type*} [MeasurableSpace Ω] (P : Measure Ω) [IsProbabilityMeasure P] {m : Nat} (q : Fin m → Fin w.f → ℝ)
    (G : Fin m → Ω → ℝ) (Y : Ω → Tensor ℝ) (hobs : Observed P w C s τ q G Y)
    (idx : List Nat) (nn : Tensor Int) (h4 : ∀ x ∈ idx, x < w.N)
    (hrows : ∀ p < idx.length, ∃ l : List Nat, rowList nn w.nnCount p = l.map Int.ofNat ∧ l.length = w.nnCount ∧ l.Nodup ∧
      ∀ j ∈ l, j < w.N)
    (hother : ∀ p < idx.length, ∀ j < w.nnCount, pointOf w.N (nn.get [p, j]) < w.N ∧ pointOf w.N (nn.get [p, j]) ≠ idx.getD p 0)
    (p : Nat) (hp : p < idx.length)
    (hcov : ∀ i j : Fin w.nnCount, L.batchCov bs w len nn p i j =
      C (rowPt w.train w.f (pointOf w.N (nn.get [p, i]))) (rowPt w.train w.f (pointOf w.N (nn.get [p, j]))) + if i = j then τ else 0)
    (hcross : ∀ j : Fin w.nnCount, L.batchCross bs w len idx nn p j =
      C (rowPt w.train w.f (idx.getD p 0)) (rowPt w.train w.f (pointOf w.N (nn.get [p, j])))) :
    HasGaussianLaw (fun ω => (fun j : Fin w.nnCount => (Y ω).get [pointOf w.N (nn.get [p, j])], (Y ω).get [idx.getD p 0])) P ∧
    (∀ j : Fin w.nnCount, ∫ ω, (Y ω).get [pointOf w.N (nn.get [p, j])] ∂P = 0) ∧ ∫ ω, (Y ω).get [idx.getD p 0] ∂P = 0 ∧
    (∀ i j : Fin w.nnCount, cov[fun ω => (Y ω).get [pointOf w.N (nn.get [p, i])], fun ω => (Y ω).get [pointOf w.N (nn.get [p, j])]; P] =
      s * L.batchCov bs w len nn p i j) ∧
    (∀ i : Fin w.nnCount, cov[fun ω => (Y ω).get [pointOf w.N (nn.get [p, i])], fun ω => (Y ω).get [idx.getD p 0]; P] =
      s * L.batchCross bs w len idx nn p i) ∧
    Var[fun ω => (Y ω).get [idx.getD p 0]; P] = s * (1 + τ) := by
  obtain ⟨o1, o2, o3, o4, o5, o6, hY⟩ := hobs.facts
  have hx : idx.getD p 0 < w.N := by
    rw [List.getD_eq_getElem?_getD, List.getElem?_eq_getElem hp, Option.getD_some]
    exact h4 _ (List.getElem_mem _)
  let x : Fin w.N := ⟨idx.getD p 0, hx⟩
  let nbr : Fin w.nnCount → Fin w.N := fun j => ⟨pointOf w.N (nn.get [p, j]), (hother p hp j j.2).1⟩
  have hne : ∀ j, nbr j ≠ x := fun j h => (hother p hp j j.2).2 (congrArg Fin.val h)
  have hinj : Function.Injective nbr := by
    obtain ⟨l, e1, e2, e3, e4⟩ := hrows p hp
    intro a b hab
    obtain ⟨y, x1, x2⟩ := rowList_get e1 a.2
    obtain ⟨z, y1, y2⟩ := rowList_get e1 b.2
    have : y = z := by
      have := congrArg Fin.val hab
      simpa only [nbr, x2, y2, pointOf_nat] using this
    subst this
    have ha : (a : Nat) < l.length := by rw [e2]; exact a.2
    exact Fin.ext ((List.getElem?_inj ha e3).mp (x1.trans y1.symm))
  refine ⟨?_, fun j => o2 (nbr j), o2 x, fun i j => ?_, fun i => ?_, ?_⟩
  · let A : (Fin w.N → ℝ) × (Fin m → ℝ) →L[ℝ] (Fin w.nnCount → ℝ) × ℝ :=
      ContinuousLinearMap.prod (ContinuousLinearMap.pi fun j =>
        (ContinuousLinearMap.proj (R := ℝ) (φ := fun _ : Fin w.N => ℝ) (nbr j)).comp (ContinuousLinearMap.fst ℝ _ _))
        ((ContinuousLinearMap.proj (R := ℝ) (φ := fun _ : Fin w.N => ℝ) x).comp (ContinuousLinearMap.fst ℝ _ _))
    exact o1.map_fun A
  · refine (o4 (nbr i) (nbr j)).trans ?_
    rw [hcov]
    simp only [hinj.eq_iff]
    rfl
  · refine (o4 (nbr i) x).trans ?_
    rw [if_neg (hne i), add_zero, hcross, hC]
  · have hg : HasGaussianLaw (fun ω => (Y ω).get [idx.getD p 0]) P := o1.fst.eval x
    rw [← covariance_self hg.aemeasurable]
    refine (o4 x x).trans ?_
    rw [if_pos rfl, hC1]

/-- The law of the responses of a batch point and of its neighbours. -/
theorem batch_law (bs : Flt → ℝ → ℝ) (L : Learner) (hsuit : L.fn.Suits L.deform.metric)
    (w : NNWrapper) (hw : w.Exact) (len : Fin w.f → ℝ) (τ : ℝ) (hτ : L.trainee.R.gp.noise.Level τ)
    (s : ℝ) {Ω : Type*} [MeasurableSpace Ω] (P : Measure Ω) [IsProbabilityMeasure P] {m : Nat} (q : Fin m → Fin w.f → ℝ)
    (G : Fin m → Ω → ℝ) (Y : Ω → Tensor ℝ) (hobs : Observed P w (L.trainee.R.kernel.covFn bs len) s τ q G Y)
    (idx : List Nat) (nn : Tensor Int) (h4 : ∀ x ∈ idx, x < w.N)
    (hrows : ∀ p < idx.length, ∃ l : List Nat, rowList nn w.nnCount p = l.map Int.ofNat ∧ l.length = w.nnCount ∧ l.Nodup ∧
      ∀ j ∈ l, j < w.N)
    (hother : ∀ p < idx.length, ∀ j < w.nnCount, pointOf w.N (nn.get [p, j]) < w.N ∧ pointOf w.N (nn.get [p, j]) ≠ idx.getD p 0)
    (p : Nat) (hp : p < idx.length) :
    HasGaussianLaw (fun ω => (fun j : Fin w.nnCount => (Y ω).get [pointOf w.N (nn.get [p, j])], (Y ω).get [idx.getD p 0])) P ∧
    (∀ j : Fin w.nnCount, ∫ ω, (Y ω).get [pointOf w.N (nn.get [p, j])] ∂P = 0) ∧ ∫ ω, (Y ω).get [idx.getD p 0] ∂P = 0 ∧
    (∀ i j : Fin w.nnCount, cov[fun ω => (Y ω).get [pointOf w.N (nn.get [p, i])], fun ω => (Y ω).get [pointOf w.N (nn.get [p, j])]; P] =
      s * L.batchCov bs w len nn p i j) ∧
    (∀ i : Fin w.nnCount, cov[fun ω => (Y ω).get [pointOf w.N (nn.get [p, i])], fun ω => (Y ω).get [idx.getD p 0]; P] =
      s * L.batchCross bs w len idx nn p i) ∧
    Var[fun ω => (Y ω).get [idx.getD p 0]; P] = s * (1 + τ) := by
  have hrow : ∀ x, pt w.train w.f x = rowPt w.train w.f x := rowPt_pt hw.1
  refine batch_law_of bs L w len _ τ (fun x y => covFn_comm bs _ len x y) (fun x => covFn_self bs L.trainee.R.kernel hsuit len x) s P q G Y hobs idx nn
    h4 hrows hother p hp (fun i j => ?_) fun j => ?_
  · unfold Learner.batchCov
    rw [Noise.level_mat hτ, Matrix.add_apply, Matrix.smul_apply, Matrix.one_apply]
    simp only [nbrCov, hrow, smul_eq_mul, Matrix.of_apply]
    split <;> simp
  · unfold Learner.batchCross nbrCross
    rw [hrow]

/-- `C73_means_partial` for a model whose covariances are those of the process `C` with noise `τ`, and any other model that does not fail. -/
theorem means_truth (bs : Flt → ℝ → ℝ) (L L' : Learner) (hmade : L.Made) (hmade' : L'.Made)
    (hkind : L'.deform.kind = L.deform.kind ∧ L'.deform.metric = L.deform.metric)
    (w : NNWrapper) (hw : w.Exact) (hsep : w.Separated) (len len' : Fin w.f → ℝ) (hlen : L.deform.HasLengths w.f len)
    (hlen' : L'.deform.HasLengths w.f len')
    (bc : Nat) (hbc : 0 < bc) (draw : List Nat) (hd : bc < w.N → IsDraw w.N bc draw) (hN : 0 < w.N) (hkN : w.nnCount + 1 ≤ w.N)
    (C : (Fin w.f → ℝ) → (Fin w.f → ℝ) → ℝ) (τ : ℝ) (hC : ∀ x y, C x y = C y x) (hC1 : ∀ x, C x x = 1) (hR : L.Reflects bs w len C τ)
    (hX : ∀ (idx : List Nat) (nn : Tensor Int) (p : Nat), idx.getD p 0 < w.N →
      (∀ j < w.nnCount, pointOf w.N (nn.get [p, j]) < w.N ∧ pointOf w.N (nn.get [p, j]) ≠ idx.getD p 0) →
      ∀ j : Fin w.nnCount, L.batchCross bs w len idx nn p j =
        C (rowPt w.train w.f (idx.getD p 0)) (rowPt w.train w.f (pointOf w.N (nn.get [p, j]))))
    (hν' : L'.trainee.R.gp.noise.Fits (min bc w.N) w.nnCount)
    (hpos' : ∀ nn : Tensor Int, (∀ p < min bc w.N, ∃ l : List Nat, rowList nn w.nnCount p = l.map Int.ofNat ∧ l.length = w.nnCount ∧ l.Nodup ∧
      ∀ j ∈ l, j < w.N) → ∀ p < min bc w.N, (L'.batchCov bs w len' nn p).PosDef)
    (s : ℝ) {Ω : Type*} [MeasurableSpace Ω] (P : Measure Ω) [IsProbabilityMeasure P] {m : Nat} (q : Fin m → Fin w.f → ℝ)
    (G : Fin m → Ω → ℝ) (Y : Ω → Tensor ℝ) (hobs : Observed P w C s τ q G Y)
    (l : LossKind) (hl : l = .mse ∨ ∃ δ, l = .pseudoHuber δ) (draws : List (List Nat)) :
    ∃ idx nn, sampleBatch w bc w.N draw = .ok (idx, nn) ∧
      ∃ S S' : Ω → ℝ, Integrable S P ∧ Integrable S' P ∧
        (∀ ω, ∃ d, L.trainData (idx, nn) w.train (Y ω) = .ok d ∧
          L.score bs l draws d = .ok (some (S ω)) ∧ L'.score bs l draws d = .ok (some (S' ω))) ∧
        ∫ ω, S' ω ∂P ≤ ∫ ω, S ω ∂P := by
  obtain ⟨idx, nn, h1, h2, h4, h5, hv, hrows, hother⟩ := batch_rows w hw hsep bc hbc draw hd hN hkN
  have hY := hobs.facts.2.2.2.2.2.2
  have hpd : ∀ p < idx.length, (L.batchCov bs w len nn p).PosDef := fun p hp => by
    obtain ⟨l, e1, e2, e3, e4⟩ := hrows p hp
    exact (hR.2 nn p l e1 e2 e3 e4).1
  have hpd' : ∀ p < idx.length, (L'.batchCov bs w len' nn p).PosDef := by
    rw [h2]
    exact hpos' nn (h2 ▸ hrows)
  have hYf : ∀ ω x, feature (Y ω) x 0 = (Y ω).get [x] := fun ω x => by simp only [feature, hY]
  have hfac : 0 ≤ l.factor idx.length := by
    rcases hl with rfl | ⟨δ, rfl⟩
    · exact div_nonneg zero_le_one (Nat.cast_nonneg _)
    · exact zero_le_one
  have hloss : Measurable l.errorLoss ∧ (∀ x, l.errorLoss (-x) = l.errorLoss x) ∧ ConvexOn ℝ Set.univ l.errorLoss ∧
      ∀ x, |l.errorLoss x| ≤ x ^ 2 := by
    rcases hl with rfl | ⟨δ, rfl⟩
    · refine ⟨?_, fun x => ?_, even_two.convexOn_pow, fun x => ?_⟩
      · show Measurable fun x : ℝ => x ^ 2; fun_prop
      · show (-x) ^ 2 = x ^ 2; ring
      · show |x ^ 2| ≤ x ^ 2; rw [abs_of_nonneg (sq_nonneg x)]
    · refine ⟨?_, fun x => ?_, huber_convex δ, huber_bound δ⟩
      · show Measurable fun x => huber δ x; unfold huber; fun_prop
      · show huber δ (-x) = huber δ x; unfold huber; rw [neg_div, neg_sq]
  let err : Learner → (Fin w.f → ℝ) → Nat → Ω → ℝ := fun M ln p ω => l.errorLoss ((Y ω).get [idx.getD p 0] -
    Spec.krigingMean (M.batchCov bs w ln nn p) (M.batchCross bs w ln idx nn p) fun j => (Y ω).get [pointOf w.N (nn.get [p, j])])
  have key : ∀ p < idx.length, Integrable (err L len p) P ∧ Integrable (err L' len' p) P ∧
      ∫ ω, err L len p ω ∂P ≤ ∫ ω, err L' len' p ω ∂P := fun p hp => by
    obtain ⟨b1, b2, b3, b4, b5, b6⟩ := batch_law_of bs L w len C τ hC hC1 s P q G Y hobs idx nn h4 hrows hother p hp
      (by obtain ⟨l, e1, e2, e3, e4⟩ := hrows p hp; exact (hR.2 nn p l e1 e2 e3 e4).2)
      (hX idx nn p (by
        rw [List.getD_eq_getElem?_getD, List.getElem?_eq_getElem hp, Option.getD_some]
        exact h4 _ (List.getElem_mem _)) (hother p hp))
    exact prediction_best b1 b2 b3 _ _ (1 + τ) s b4 b5 b6 (Kriging.det_ne_zero (hpd p hp)) hloss.1 hloss.2.1 hloss.2.2.1 hloss.2.2.2 _ _
  let S : Learner → (Fin w.f → ℝ) → Ω → ℝ := fun M ln ω => -(l.factor idx.length * ∑ p ∈ Finset.range idx.length, err M ln p ω)
  refine ⟨idx, nn, h1, S L len, S L' len', ?_, ?_, fun ω => ?_, ?_⟩
  · exact ((integrable_finsetSum _ fun p hp => (key p (Finset.mem_range.1 hp)).1).const_mul _).neg
  · exact ((integrable_finsetSum _ fun p hp => (key p (Finset.mem_range.1 hp)).2.1).const_mul _).neg
  · obtain ⟨idx', nn', d, g1, -, -, -, -, -, g2, g3, g3', g4t, g4, g6, g5⟩ :=
      regressor_data L w hw len hlen bc hbc draw hd hN hkN (Y ω) (hY ω)
    rw [h1] at g1
    obtain ⟨rfl, rfl⟩ := Prod.mk.inj (Except.ok.inj g1)
    have hval : ∀ (M : Learner) ln, (∑ p ∈ Finset.range idx.length, l.errorLoss (d.targets.get [p] -
        Spec.krigingMean (M.batchCov bs w ln nn p) (M.batchCross bs w ln idx nn p) (Spec.vec w.nnCount d.nnTargets p))) =
        ∑ p ∈ Finset.range idx.length, err M ln p ω := fun M ln => by
      refine Finset.sum_congr rfl fun p hp => ?_
      have hp := Finset.mem_range.1 hp
      rw [g5 p hp, g6 p (idx.getD p 0) (by rw [List.getD_eq_getElem?_getD, List.getElem?_eq_getElem hp, Option.getD_some])]
      have : nbrTargets (Y ω) w.N w.nnCount nn p 0 = fun j : Fin w.nnCount => (Y ω).get [pointOf w.N (nn.get [p, j])] :=
        funext fun j => hYf ω _
      rw [this]
    have hp' : L'.deform.pairwise w.train nn = .ok d.pairwise := by
      rw [← g3]; unfold Deform.pairwise; rw [hkind.1, hkind.2]
    have hc' : L'.deform.crosswise w.train w.train (ofNats idx) nn = .ok d.crosswise := by
      rw [← g3']; unfold Deform.crosswise; rw [hkind.1, hkind.2]
    refine ⟨d, g2, ?_, ?_⟩
    · rw [score_means bs L hmade w hw len hlen idx nn h4 h5 hv d g3 g3' g4t g4 (hR.1 _)
        (fun p hp => Kriging.det_ne_zero (hpd p hp)) l hl draws, hval]
    · rw [score_means bs L' hmade' w hw len' hlen' idx nn h4 h5 hv d hp' hc' g4t g4 (h2 ▸ hν')
        (fun p hp => Kriging.det_ne_zero (hpd' p hp)) l hl draws, hval]
  · simp only [S]
    rw [integral_neg, integral_neg, neg_le_neg_iff, integral_const_mul, integral_const_mul,
      integral_finsetSum _ fun p hp => (key p (Finset.mem_range.1 hp)).1,
      integral_finsetSum _ fun p hp => (key p (Finset.mem_range.1 hp)).2.1]
    exact mul_le_mul_of_nonneg_left (Finset.sum_le_sum fun p hp => (key p (Finset.mem_range.1 hp)).2.2) hfac

/-- **C73**: let the responses of the training points be drawn from the model `L` (a Gaussian process with its kernel and noise, of any
variance scale). Then on every batch `sample_batch` returns, no model of the same kind with other hyperparameters has a higher expected score
under the mean squared error or the pseudo-Huber loss. Partial: the training points are pairwise different for the index (otherwise a batch
point may be listed as its own neighbour: C41, C42), and the other losses are treated separately (`C73_lool_partial`, `C73_lool_fails`). -/
theorem C73_means_partial (bs : Flt → ℝ → ℝ) (L L' : Learner) (hmade : L.Made) (hmade' : L'.Made)
    (hkind : L'.deform.kind = L.deform.kind ∧ L'.deform.metric = L.deform.metric)
    (hsuit : L.fn.Suits L.deform.metric) (hsuit' : L'.fn.Suits L'.deform.metric)
    (w : NNWrapper) (hw : w.Exact) (hsep : w.Separated) (len len' : Fin w.f → ℝ) (hlen : L.deform.HasLengths w.f len)
    (hlen' : L'.deform.HasLengths w.f len')
    (bc : Nat) (hbc : 0 < bc) (draw : List Nat) (hd : bc < w.N → IsDraw w.N bc draw) (hN : 0 < w.N) (hkN : w.nnCount + 1 ≤ w.N)
    (τ : ℝ) (hτ : L.trainee.R.gp.noise.Level τ)
    (hreg : L.trainee.R.gp.noise.Suffices (min bc w.N) w.nnCount (DistinctRows w.train w.N w.f))
    (hν' : L'.trainee.R.gp.noise.Fits (min bc w.N) w.nnCount)
    (hreg' : L'.trainee.R.gp.noise.Suffices (min bc w.N) w.nnCount (DistinctRows w.train w.N w.f))
    (s : ℝ) {Ω : Type*} [MeasurableSpace Ω] (P : Measure Ω) [IsProbabilityMeasure P] {m : Nat} (q : Fin m → Fin w.f → ℝ)
    (G : Fin m → Ω → ℝ) (Y : Ω → Tensor ℝ) (hobs : Observed P w (L.trainee.R.kernel.covFn bs len) s τ q G Y)
    (l : LossKind) (hl : l = .mse ∨ ∃ δ, l = .pseudoHuber δ) (draws : List (List Nat)) :
    ∃ idx nn, sampleBatch w bc w.N draw = .ok (idx, nn) ∧
      ∃ S S' : Ω → ℝ, Integrable S P ∧ Integrable S' P ∧
        (∀ ω, ∃ d, L.trainData (idx, nn) w.train (Y ω) = .ok d ∧
          L.score bs l draws d = .ok (some (S ω)) ∧ L'.score bs l draws d = .ok (some (S' ω))) ∧
        ∫ ω, S' ω ∂P ≤ ∫ ω, S ω ∂P := by
  refine means_truth bs L L' hmade hmade' hkind w hw hsep len len' hlen hlen' bc hbc draw hd hN hkN _ τ (fun x y => covFn_comm bs _ len x y)
    (fun x => covFn_self bs L.trainee.R.kernel hsuit len x) (reflects_closed bs L hsuit w hw len hlen τ hτ (min bc w.N) hreg)
    (fun idx nn p _ _ j => ?_) hν' (fun nn hrows => batch_posdef bs L' hsuit' w len' hlen' _ nn hrows hreg') s P q G Y hobs l hl draws
  unfold Learner.batchCross nbrCross
  rw [rowPt_pt hw.1]

/-- **C73** as the optimisers see it: let `M` be the model being trained, and `L` and `L'` the models with the hyperparameters `kw` and `kw'`
within the bounds. If the responses are drawn from `L`, the expected value of the objective at `kw` is at least that at `kw'`.
Partial as `C73_means_partial`. -/
theorem C73_objective_partial (bs : Flt → ℝ → ℝ) (M L L' : Learner) (hmadeM : M.Made) (kw kw' : Dict Flt)
    (hf : M.Feasible kw) (hk : M.trainee.R.kernel.Accepts kw) (ht : L.trainee = M.trainee.trial kw)
    (hf' : M.Feasible kw') (hk' : M.trainee.R.kernel.Accepts kw') (ht' : L'.trainee = M.trainee.trial kw')
    (hmade : L.Made) (hmade' : L'.Made)
    (hkindM : L.deform.kind = M.deform.kind ∧ L.deform.metric = M.deform.metric)
    (hkind : L'.deform.kind = L.deform.kind ∧ L'.deform.metric = L.deform.metric)
    (hsuit : L.fn.Suits L.deform.metric) (hsuit' : L'.fn.Suits L'.deform.metric)
    (w : NNWrapper) (hw : w.Exact) (hsep : w.Separated) (len len' : Fin w.f → ℝ) (hlen : L.deform.HasLengths w.f len)
    (hlen' : L'.deform.HasLengths w.f len')
    (bc : Nat) (hbc : 0 < bc) (draw : List Nat) (hd : bc < w.N → IsDraw w.N bc draw) (hN : 0 < w.N) (hkN : w.nnCount + 1 ≤ w.N)
    (τ : ℝ) (hτ : L.trainee.R.gp.noise.Level τ)
    (hreg : L.trainee.R.gp.noise.Suffices (min bc w.N) w.nnCount (DistinctRows w.train w.N w.f))
    (hν' : L'.trainee.R.gp.noise.Fits (min bc w.N) w.nnCount)
    (hreg' : L'.trainee.R.gp.noise.Suffices (min bc w.N) w.nnCount (DistinctRows w.train w.N w.f))
    (s : ℝ) {Ω : Type*} [MeasurableSpace Ω] (P : Measure Ω) [IsProbabilityMeasure P] {m : Nat} (q : Fin m → Fin w.f → ℝ)
    (G : Fin m → Ω → ℝ) (Y : Ω → Tensor ℝ) (hobs : Observed P w (L.trainee.R.kernel.covFn bs len) s τ q G Y)
    (l : LossKind) (hl : l = .mse ∨ ∃ δ, l = .pseudoHuber δ) (draws : List (List Nat)) :
    ∃ idx nn, sampleBatch w bc w.N draw = .ok (idx, nn) ∧
      ∃ S S' : Ω → ℝ, Integrable S P ∧ Integrable S' P ∧
        (∀ ω, ∃ d, M.trainData (idx, nn) w.train (Y ω) = .ok d ∧
          M.objective bs l draws d kw = .ok (some (S ω)) ∧ M.objective bs l draws d kw' = .ok (some (S' ω))) ∧
        ∫ ω, S' ω ∂P ≤ ∫ ω, S ω ∂P := by
  obtain ⟨idx, nn, h1, S, S', i1, i2, h2, h3⟩ := C73_means_partial bs L L' hmade hmade' hkind hsuit hsuit' w hw hsep len len' hlen hlen' bc
    hbc draw hd hN hkN τ hτ hreg hν' hreg' s P q G Y hobs l hl draws
  refine ⟨idx, nn, h1, S, S', i1, i2, fun ω => ?_, h3⟩
  obtain ⟨d, d1, d2, d3⟩ := h2 ω
  have hraw : l.raw = true := by rcases hl with rfl | ⟨δ, rfl⟩ <;> rfl
  refine ⟨d, ?_, (objective_trial bs M L hmadeM l draws d (.inl hraw) kw hf hk ht _).mpr d2,
    (objective_trial bs M L' hmadeM l draws d (.inl hraw) kw' hf' hk' ht' _).mpr d3⟩
  rw [← d1]
  unfold Learner.trainData
  rw [hkindM.1, hkindM.2]

end MuyGPyS
