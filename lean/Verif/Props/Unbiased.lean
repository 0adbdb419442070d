import Verif.Props.Bayes
import Verif.Props.Reflects
import Verif.Props.PipelineAlways
import Verif.Props.BayesWitness
import Verif.Props.PipelineWitness

/-!
# C72: the estimated variance scale is unbiased
-/

namespace MuyGPyS
open Py Matrix MeasureTheory ProbabilityTheory

/-- The mean of `yᵀ K⁻¹ y` for centred `y` with covariance `s K` is `s` times the dimension. -/
theorem quadForm_mean {Ω : Type*} [MeasurableSpace Ω] {P : Measure Ω} [IsProbabilityMeasure P] {n : Nat} {F : Fin n → Ω → ℝ}
    (mF : ∀ i, MemLp (F i) 2 P) (zF : ∀ i, P[F i] = 0) (K : Matrix (Fin n) (Fin n) ℝ) (s : ℝ)
    (hFF : ∀ i j, cov[F i, F j; P] = s * K i j) (hdet : K.det ≠ 0) :
    Integrable (fun ω => Spec.quadForm K fun i => F i ω) P ∧ ∫ ω, Spec.quadForm K (fun i => F i ω) ∂P = s * n := by
  have e : ∀ ω, Spec.quadForm K (fun i => F i ω) = ∑ i, ∑ j, K⁻¹ i j * (F i ω * F j ω) := fun ω => by
    unfold Spec.quadForm
    simp only [dotProduct, mulVec, Finset.mul_sum]
    refine Finset.sum_congr rfl fun i _ => Finset.sum_congr rfl fun j _ => by ring
  have hint : ∀ i j, Integrable (fun ω => K⁻¹ i j * (F i ω * F j ω)) P := fun i j => ((mF i).integrable_mul (mF j)).const_mul _
  have hm : ∀ i j, ∫ ω, F i ω * F j ω ∂P = s * K j i := fun i j => by
    have := covariance_eq_sub (mF i) (mF j)
    rw [zF, zero_mul, sub_zero, covariance_comm, hFF] at this
    exact this.symm
  simp only [e]
  refine ⟨integrable_finsetSum _ fun i _ => integrable_finsetSum _ fun j _ => hint i j, ?_⟩
  rw [integral_finsetSum _ fun i _ => integrable_finsetSum _ fun j _ => hint i j]
  simp only [integral_finsetSum _ fun j _ => hint _ j, integral_const_mul, hm]
  have h1 : ∑ i, ∑ j, K⁻¹ i j * (s * K j i) = s * (K⁻¹ * K).trace := by
    simp only [Matrix.trace, Matrix.diag, Matrix.mul_apply, Finset.mul_sum]
    refine Finset.sum_congr rfl fun i _ => Finset.sum_congr rfl fun j _ => by ring
  rw [h1, nonsing_inv_mul _ (isUnit_iff_ne_zero.mpr hdet), Matrix.trace_one, Fintype.card_fin]

/-- `optimize_scale` of a model with an analytic scale. -/
theorem optimizeScale_analytic (bs : Flt → ℝ → ℝ) (L : Learner) (hmade : L.Made) (hsk : L.scaleKind = .analytic 1)
    (w : NNWrapper) (hw : w.Exact) (len : Fin w.f → ℝ) (hlen : L.deform.HasLengths w.f len) (b : Nat) (nn : Tensor Int)
    (h5 : nn.shape = [b, w.nnCount]) (hv : AllValid w.N nn) (D y : Tensor ℝ) (hD : L.deform.pairwise w.train nn = .ok D)
    (hy : y.shape = [b, w.nnCount]) (hν : L.trainee.R.gp.noise.Fits b w.nnCount)
    (hdet : ∀ p < b, (nbrCov bs L.trainee.R.kernel len w.train w.N w.nnCount nn p + L.trainee.R.gp.noise.mat w.nnCount p).det ≠ 0)
    (sd : List (List Nat)) :
    let s := Spec.scaleEstimate b (fun p => nbrCov bs L.trainee.R.kernel len w.train w.N w.nnCount nn p +
      L.trainee.R.gp.noise.mat w.nnCount p) (Spec.vec w.nnCount y)
    L.optimizeScale bs sd D y = if s ≤ 0 then .error .value else .ok { L with scale := s, boundScale := s } := by
  intro s
  obtain ⟨D', K, k1, k2, k3, k4⟩ := kernel_pairwise bs L.trainee.R.kernel (made_kernel hmade) w.train nn w.N w.f b w.nnCount len hlen
    (.inl hw.1) h5 hv
  have hDD : D' = D := by
    have : L.deform.pairwise w.train nn = .ok D' := k1
    rw [hD] at this
    exact (Except.ok.inj this).symm
  subst hDD
  have hs : scaleOptFn L.scaleKind L.trainee.R.gp sd K y [] = .ok (some s) := by
    simp only [scaleOptFn, hsk, s]
    have := (C33_documented_formula L.trainee.R.gp.noise b w.nnCount hν K y k3 hy).1
      (fun p hp => by rw [k4 p hp]; exact hdet p hp)
    rw [this, scaleEstimate_congr (fun p hp => by rw [k4 p hp]) fun _ _ => rfl]
    rfl
  have hfn : L.fn = L.make.fn := by rw [hmade]
  have hm : ({ L with scale := s } : Learner).make = { L with scale := s, boundScale := s } := by
    unfold Learner.make
    simp only [Learner.mk.injEq, true_and, and_true]
    exact hfn.symm
  unfold Learner.optimizeScale
  simp only [k2, hs, bind, Except.bind, pure, Except.pure, hm]

/-- `optimize_scale` of a model with an analytic scale and any number of iterations, when the documented estimate is positive. -/
theorem optimizeScale_iterated (bs : Flt → ℝ → ℝ) (L : Learner) (hmade : L.Made) (t : Nat) (hsk : L.scaleKind = .analytic (t + 1))
    (w : NNWrapper) (hw : w.Exact) (len : Fin w.f → ℝ) (hlen : L.deform.HasLengths w.f len) (b : Nat) (nn : Tensor Int)
    (h5 : nn.shape = [b, w.nnCount]) (hv : AllValid w.N nn) (D y : Tensor ℝ) (hD : L.deform.pairwise w.train nn = .ok D)
    (hy : y.shape = [b, w.nnCount]) (hν : L.trainee.R.gp.noise.Fits b w.nnCount)
    (hdet : ∀ p < b, (nbrCov bs L.trainee.R.kernel len w.train w.N w.nnCount nn p + L.trainee.R.gp.noise.mat w.nnCount p).det ≠ 0)
    (sd : List (List Nat)) (hpos : 0 < Spec.scaleEstimate b (fun p => nbrCov bs L.trainee.R.kernel len w.train w.N w.nnCount nn p +
      L.trainee.R.gp.noise.mat w.nnCount p) (Spec.vec w.nnCount y)) :
    let s := heron (Spec.scaleEstimate b (fun p => nbrCov bs L.trainee.R.kernel len w.train w.N w.nnCount nn p +
      L.trainee.R.gp.noise.mat w.nnCount p) (Spec.vec w.nnCount y)) t
    L.optimizeScale bs sd D y = .ok { L with scale := s, boundScale := s } := by
  intro s
  obtain ⟨D', K, k1, k2, k3, k4⟩ := kernel_pairwise bs L.trainee.R.kernel (made_kernel hmade) w.train nn w.N w.f b w.nnCount len hlen
    (.inl hw.1) h5 hv
  have hDD : D' = D := by
    have : L.deform.pairwise w.train nn = .ok D' := k1
    rw [hD] at this
    exact (Except.ok.inj this).symm
  subst hDD
  have e := scaleEstimate_congr (b := b) (y := Spec.vec w.nnCount y) (y' := Spec.vec w.nnCount y)
    (K := fun p => Spec.cov w.nnCount K p + L.trainee.R.gp.noise.mat w.nnCount p)
    (K' := fun p => nbrCov bs L.trainee.R.kernel len w.train w.N w.nnCount nn p + L.trainee.R.gp.noise.mat w.nnCount p)
    (fun p hp => by rw [k4 p hp]) fun _ _ => rfl
  have hs : scaleOptFn L.scaleKind L.trainee.R.gp sd K y [] = .ok (some s) := by
    simp only [scaleOptFn, hsk]
    have := (C33_iterations_not_documented L.trainee.R.gp.noise b w.nnCount hν K y k3 hy _ (by rw [e]; exact hpos)
      (fun p hp => by rw [k4 p hp]; exact hdet p hp) rfl).1 t
    rw [this, e]
    rfl
  have hfn : L.fn = L.make.fn := by rw [hmade]
  have hm : ({ L with scale := s } : Learner).make = { L with scale := s, boundScale := s } := by
    unfold Learner.make
    simp only [Learner.mk.injEq, true_and, and_true]
    exact hfn.symm
  have hs0 : ¬ s ≤ 0 := not_le.2 (heron_pos hpos t)
  unfold Learner.optimizeScale
  simp only [k2, hs, bind, Except.bind, pure, Except.pure, hm, if_neg hs0]

/-- A centred normal variable of positive variance is almost surely not zero. -/
theorem gaussian_ne_zero {Ω : Type*} [MeasurableSpace Ω] {P : Measure Ω} {X : Ω → ℝ} (hX : HasGaussianLaw X P) (hv : Var[X; P] ≠ 0) :
    ∀ᵐ ω ∂P, X ω ≠ 0 := by
  have h0 : P.map X {0} = 0 := by
    rw [hX.map_eq_gaussianReal]
    have : (Var[X; P]).toNNReal ≠ 0 := by
      intro h
      exact hv (le_antisymm (Real.toNNReal_eq_zero.mp h) (variance_nonneg _ _))
    haveI := noAtoms_gaussianReal (μ := P[X]) this
    exact measure_singleton 0
  have : ∀ᵐ x ∂(P.map X), x ≠ 0 := by
    rw [ae_iff]; simpa using h0
  exact ae_of_ae_map hX.aemeasurable this

/-- What `optimize_scale` computes from a batch when the responses are the values of a Gaussian process: the documented estimate, from neighbours whose
responses are jointly normal with the covariance the model uses, times the scale of the process. -/
theorem scale_sample (bs : Flt → ℝ → ℝ) (L : Learner) (hmade : L.Made)
    (w : NNWrapper) (hw : w.Exact) (len : Fin w.f → ℝ) (hlen : L.deform.HasLengths w.f len)
    (bc : Nat) (hbc : 0 < bc) (draw : List Nat) (hd : bc < w.N → IsDraw w.N bc draw) (sd : List (List Nat)) (hN : 0 < w.N)
    (hk0 : 0 < w.nnCount) (hkN : w.nnCount + 1 ≤ w.N)
    (C : (Fin w.f → ℝ) → (Fin w.f → ℝ) → ℝ) (τ : ℝ) (hC : L.Reflects bs w len C τ)
    (s : ℝ) (hs : 0 < s) {Ω : Type*} [MeasurableSpace Ω] (P : Measure Ω) [IsProbabilityMeasure P] {m : Nat} (q : Fin m → Fin w.f → ℝ)
    (G : Fin m → Ω → ℝ) (Y : Ω → Tensor ℝ) (hobs : Observed P w C s τ q G Y) :
    ∃ idx nn, sampleBatch w bc w.N draw = .ok (idx, nn) ∧ 0 < idx.length ∧ idx.length = min bc w.N ∧
      ∃ (K : Nat → Matrix (Fin w.nnCount) (Fin w.nnCount) ℝ) (F : Nat → Fin w.nnCount → Ω → ℝ),
        (∀ p < idx.length, (K p).PosDef ∧ HasGaussianLaw (fun ω j => F p j ω) P ∧ (∀ j, P[F p j] = 0) ∧ ∀ i j, cov[F p i, F p j; P] = s * K p i j) ∧
        ∀ᵐ ω ∂P, 0 < Spec.scaleEstimate idx.length K (fun p j => F p j ω) ∧ ∃ d, L.trainData (idx, nn) w.train (Y ω) = .ok d ∧
          ∀ t, L.scaleKind = .analytic (t + 1) → L.optimizeScale bs sd d.pairwise d.nnTargets = .ok { L with
            scale := heron (Spec.scaleEstimate idx.length K (fun p j => F p j ω)) t,
            boundScale := heron (Spec.scaleEstimate idx.length K (fun p j => F p j ω)) t } := by
  obtain ⟨o1, o2, o3, o4, o5, o6, hY⟩ := hobs.facts
  obtain ⟨idx, nn, h1, h2, h3, h4, _, h5, h6⟩ := C42_batch w hw bc hbc hN draw hd hkN
  have hpos := hasLengths_pos hlen
  have hb : idx.length = min bc w.N := h2
  have hrows : ∀ p < idx.length, ∃ l : List Nat, rowList nn w.nnCount p = l.map Int.ofNat ∧ l.length = w.nnCount ∧ l.Nodup ∧
      ∀ j ∈ l, j < w.N := fun p hp => by
    obtain ⟨l, e1, e2, e3, e4, _⟩ := h6 p idx[p] (List.getElem?_eq_getElem hp)
    exact ⟨l, e1, e2, e3, e4⟩
  have hv : AllValid w.N nn := valid_of_rows h5 fun i hi j hj => by
    obtain ⟨l, e1, _, _, e2⟩ := hrows i hi
    obtain ⟨x, x1, x2⟩ := rowList_get e1 hj
    exact ⟨x, x2, e2 x (List.mem_of_getElem? x1)⟩
  have hlt : ∀ p < idx.length, ∀ j < w.nnCount, pointOf w.N (nn.get [p, j]) < w.N := fun p hp j hj => by
    obtain ⟨l, e1, _, _, e2⟩ := hrows p hp
    obtain ⟨x, x1, x2⟩ := rowList_get e1 hj
    rw [x2, pointOf_nat]
    exact e2 x (List.mem_of_getElem? x1)
  have hpd : ∀ p < idx.length,
      (nbrCov bs L.trainee.R.kernel len w.train w.N w.nnCount nn p + L.trainee.R.gp.noise.mat w.nnCount p).PosDef := by
    intro p hp
    obtain ⟨l, e1, e2, e3, e4⟩ := hrows p hp
    exact (hC.2 nn p l e1 e2 e3 e4).1
  have hrow : ∀ x, pt w.train w.f x = rowPt w.train w.f x := fun x => by
    funext c; simp only [pt, feature, hw.1, rowPt]
  have hYf : ∀ ω x, feature (Y ω) x 0 = (Y ω).get [x] := fun ω x => by simp only [feature, hY]
  set K : Nat → Matrix (Fin w.nnCount) (Fin w.nnCount) ℝ := fun p =>
    nbrCov bs L.trainee.R.kernel len w.train w.N w.nnCount nn p + L.trainee.R.gp.noise.mat w.nnCount p with hK
  -- the responses of the neighbours of batch point `p`
  have hb0 : 0 < idx.length := by rw [hb]; exact lt_min hbc hN
  let F : Nat → Fin w.nnCount → Ω → ℝ := fun p j ω => (Y ω).get [pointOf w.N (nn.get [p, j])]
  have hgF : ∀ p < idx.length, ∀ j, HasGaussianLaw (F p j) P := fun p hp j =>
    o1.fst.eval (⟨pointOf w.N (nn.get [p, j]), hlt p hp j j.2⟩ : Fin w.N)
  have zF : ∀ p < idx.length, ∀ j, P[F p j] = 0 := fun p hp j => o2 ⟨pointOf w.N (nn.get [p, j]), hlt p hp j j.2⟩
  have cF : ∀ p < idx.length, ∀ i j, cov[F p i, F p j; P] = s * K p i j := fun p hp i j => by
    have h := o4 ⟨pointOf w.N (nn.get [p, i]), hlt p hp i i.2⟩ ⟨pointOf w.N (nn.get [p, j]), hlt p hp j j.2⟩
    refine h.trans ?_
    obtain ⟨l, e1, e2, e3, e4⟩ := hrows p hp
    rw [show K p i j = _ from (hC.2 nn p l e1 e2 e3 e4).2 i j]
    have hinj : pointOf w.N (nn.get [p, i]) = pointOf w.N (nn.get [p, j]) ↔ i = j := by
      refine ⟨fun hab => ?_, fun h => by rw [h]⟩
      obtain ⟨l, e1, e2, e3, e4⟩ := hrows p hp
      obtain ⟨x, x1, x2⟩ := rowList_get e1 i.2
      obtain ⟨y, y1, y2⟩ := rowList_get e1 j.2
      have hxy : x = y := by simpa only [x2, y2, pointOf_nat] using hab
      subst hxy
      have ha : (i : Nat) < l.length := by rw [e2]; exact i.2
      exact Fin.ext ((List.getElem?_inj ha e3).mp (x1.trans y1.symm))
    simp only [Fin.mk.injEq, hinj]
  have hgJ : ∀ p < idx.length, HasGaussianLaw (fun ω j => F p j ω) P := fun p hp => by
    let A : (Fin w.N → ℝ) →L[ℝ] (Fin w.nnCount → ℝ) := ContinuousLinearMap.pi fun j =>
      ContinuousLinearMap.proj (R := ℝ) (φ := fun _ : Fin w.N => ℝ) ⟨pointOf w.N (nn.get [p, j]), hlt p hp j j.2⟩
    exact o1.fst.map_fun A
  refine ⟨idx, nn, h1, hb0, hb, K, F, fun p hp => ⟨hpd p hp, hgJ p hp, zF p hp, cF p hp⟩, ?_⟩
  · have hne := gaussian_ne_zero (hgF 0 hb0 ⟨0, hk0⟩) (by
      rw [← covariance_self (hgF 0 hb0 ⟨0, hk0⟩).aemeasurable, cF 0 hb0]
      exact (mul_pos hs (hpd 0 hb0).diag_pos).ne')
    filter_upwards [hne] with ω hω
    have hsign := estimate_sign hk0 hb0 hpd (fun p j => F p j ω)
    have hp : 0 < Spec.scaleEstimate idx.length K (fun p j => F p j ω) := by
      refine lt_of_le_of_ne hsign.1 fun h0 => hω ?_
      exact congrFun (hsign.2.mp h0.symm 0 hb0) ⟨0, hk0⟩
    refine ⟨hp, ?_⟩
    obtain ⟨idx', nn', d, g1, -, -, -, -, -, g2, g3, -, -, g4, -, g5⟩ :=
      regressor_data L w hw len hlen bc hbc draw hd hN hkN (Y ω) (hY ω)
    rw [h1] at g1
    obtain ⟨rfl, rfl⟩ := Prod.mk.inj (Except.ok.inj g1)
    refine ⟨d, g2, fun t hsk => ?_⟩
    have e : Spec.scaleEstimate idx.length K (Spec.vec w.nnCount d.nnTargets) =
        Spec.scaleEstimate idx.length K (fun p j => F p j ω) := by
      refine scaleEstimate_congr (fun _ _ => rfl) fun p hp => ?_
      rw [g5 p hp]
      funext j
      exact hYf ω _
    have := optimizeScale_iterated bs L hmade t hsk w hw len hlen idx.length nn h5 hv d.pairwise d.nnTargets g3 g4 (hC.1 _)
      (fun p hp => Kriging.det_ne_zero (hpd p hp)) sd (e ▸ hp)
    rw [this]
    show Except.ok { L with
            scale := heron (Spec.scaleEstimate idx.length K (Spec.vec w.nnCount d.nnTargets)) t,
            boundScale := heron (Spec.scaleEstimate idx.length K (Spec.vec w.nnCount d.nnTargets)) t } = _
    rw [e]

/-- The lemma behind `C72_unbiased_partial` and `C72_matern_partial`. -/
theorem scale_unbiased (bs : Flt → ℝ → ℝ) (L : Learner) (hmade : L.Made) (hsk : L.scaleKind = .analytic 1)
    (w : NNWrapper) (hw : w.Exact) (len : Fin w.f → ℝ) (hlen : L.deform.HasLengths w.f len)
    (bc : Nat) (hbc : 0 < bc) (draw : List Nat) (hd : bc < w.N → IsDraw w.N bc draw) (sd : List (List Nat)) (hN : 0 < w.N)
    (hk0 : 0 < w.nnCount) (hkN : w.nnCount + 1 ≤ w.N)
    (C : (Fin w.f → ℝ) → (Fin w.f → ℝ) → ℝ) (τ : ℝ) (hC : L.Reflects bs w len C τ)
    (s : ℝ) (hs : 0 < s) {Ω : Type*} [MeasurableSpace Ω] (P : Measure Ω) [IsProbabilityMeasure P] {m : Nat} (q : Fin m → Fin w.f → ℝ)
    (G : Fin m → Ω → ℝ) (Y : Ω → Tensor ℝ) (hobs : Observed P w C s τ q G Y) :
    ∃ idx nn, sampleBatch w bc w.N draw = .ok (idx, nn) ∧
      ∃ est : Ω → ℝ, Integrable est P ∧ ∫ ω, est ω ∂P = s ∧
        ∀ᵐ ω ∂P, 0 < est ω ∧ ∃ d, L.trainData (idx, nn) w.train (Y ω) = .ok d ∧
          L.optimizeScale bs sd d.pairwise d.nnTargets = .ok { L with scale := est ω, boundScale := est ω } := by
  obtain ⟨idx, nn, h1, hb0, -, K, F, hF, hae⟩ := scale_sample bs L hmade w hw len hlen bc hbc draw hd sd hN hk0 hkN C τ hC s hs P q G Y hobs
  have key := fun p (hp : p < idx.length) =>
    quadForm_mean (fun j => ((hF p hp).2.1.eval j).memLp_two) (hF p hp).2.2.1 (K p) s (hF p hp).2.2.2 (Kriging.det_ne_zero (hF p hp).1)
  have hest : ∀ ω, Spec.scaleEstimate idx.length K (fun p j => F p j ω) =
      1 / ((idx.length : ℝ) * w.nnCount) * ∑ p ∈ Finset.range idx.length, Spec.quadForm (K p) fun j => F p j ω := fun ω => by
    unfold Spec.scaleEstimate
    rfl
  refine ⟨idx, nn, h1, fun ω => Spec.scaleEstimate idx.length K (fun p j => F p j ω), ?_, ?_, hae.mono fun ω ⟨a, d, b, c⟩ => ⟨a, d, b, c 0 hsk⟩⟩
  · simp only [hest]
    exact (integrable_finsetSum _ fun p hp => (key p (Finset.mem_range.1 hp)).1).const_mul _
  · simp only [hest]
    rw [integral_const_mul, integral_finsetSum _ fun p hp => (key p (Finset.mem_range.1 hp)).1,
      Finset.sum_congr rfl fun p hp => (key p (Finset.mem_range.1 hp)).2]
    simp only [Finset.sum_const, Finset.card_range, nsmul_eq_mul]
    field_simp

/-- **C72**: let the responses of the training points be the values of a Gaussian process with the model's kernel and noise level, of
unknown variance scale `s`. Then on every batch `sample_batch` returns, `optimize_scale` almost surely succeeds with a positive scale, and
the mean of the scale it sets is `s`: the estimate is unbiased, for every model, training set, batch size, draw and neighbour count. -/
theorem C72_unbiased_partial (bs : Flt → ℝ → ℝ) (L : Learner) (hmade : L.Made) (hsk : L.scaleKind = .analytic 1)
    (hsuit : L.fn.Suits L.deform.metric) (w : NNWrapper) (hw : w.Exact) (len : Fin w.f → ℝ) (hlen : L.deform.HasLengths w.f len)
    (bc : Nat) (hbc : 0 < bc) (draw : List Nat) (hd : bc < w.N → IsDraw w.N bc draw) (sd : List (List Nat)) (hN : 0 < w.N)
    (hk0 : 0 < w.nnCount) (hkN : w.nnCount + 1 ≤ w.N)
    (τ : ℝ) (hτ : L.trainee.R.gp.noise.Level τ)
    (hreg : L.trainee.R.gp.noise.Suffices (min bc w.N) w.nnCount (DistinctRows w.train w.N w.f))
    (s : ℝ) (hs : 0 < s) {Ω : Type*} [MeasurableSpace Ω] (P : Measure Ω) [IsProbabilityMeasure P] {m : Nat} (q : Fin m → Fin w.f → ℝ)
    (G : Fin m → Ω → ℝ) (Y : Ω → Tensor ℝ) (hobs : Observed P w (L.trainee.R.kernel.covFn bs len) s τ q G Y) :
    ∃ idx nn, sampleBatch w bc w.N draw = .ok (idx, nn) ∧
      ∃ est : Ω → ℝ, Integrable est P ∧ ∫ ω, est ω ∂P = s ∧
        ∀ᵐ ω ∂P, 0 < est ω ∧ ∃ d, L.trainData (idx, nn) w.train (Y ω) = .ok d ∧
          L.optimizeScale bs sd d.pairwise d.nnTargets = .ok { L with scale := est ω, boundScale := est ω } := by
  exact scale_unbiased bs L hmade hsk w hw len hlen bc hbc draw hd sd hN hk0 hkN _ τ (reflects_closed bs L hsuit w hw len hlen τ hτ _ hreg) s hs P q G Y hobs

/-- **C72** with the general Matérn implementation: the responses come from the true Matérn process, with the noise variance `τ` minus the deficit (C62). -/
theorem C72_matern_partial (L : Learner) (hmade : L.Made) (hsk : L.scaleKind = .analytic 1)
    (hg : L.fn = .gen) (hm2 : L.deform.metric = .l2) (w : NNWrapper) (hw : w.Exact) (len : Fin w.f → ℝ) (hlen : L.deform.HasLengths w.f len)
    (bc : Nat) (hbc : 0 < bc) (draw : List Nat) (hd : bc < w.N → IsDraw w.N bc draw) (sd : List (List Nat)) (hN : 0 < w.N)
    (hk0 : 0 < w.nnCount) (hkN : w.nnCount + 1 ≤ w.N)
    (q : Param) (ν : ℝ) (hν : 0 < ν) (hsm : L.kernel.smoothness = some q) (hq : q.val = Flt.fin ν) (hdis : DistinctRows w.train w.N w.f)
    (τ : ℝ) (hτ : L.trainee.R.gp.noise.Level τ) (hdef : deficit ν < τ)
    (s : ℝ) (hs : 0 < s) {Ω : Type*} [MeasurableSpace Ω] (P : Measure Ω) [IsProbabilityMeasure P] {m : Nat} (z : Fin m → Fin w.f → ℝ)
    (G : Fin m → Ω → ℝ) (Y : Ω → Tensor ℝ) (hobs : Observed P w (maternProcess ν len) s (τ - deficit ν) z G Y) :
    ∃ idx nn, sampleBatch w bc w.N draw = .ok (idx, nn) ∧
      ∃ est : Ω → ℝ, Integrable est P ∧ ∫ ω, est ω ∂P = s ∧
        ∀ᵐ ω ∂P, 0 < est ω ∧ ∃ d, L.trainData (idx, nn) w.train (Y ω) = .ok d ∧
          L.optimizeScale maternGen sd d.pairwise d.nnTargets = .ok { L with scale := est ω, boundScale := est ω } := by
  exact scale_unbiased maternGen L hmade hsk w hw len hlen bc hbc draw hd sd hN hk0 hkN _ _ (reflects_gen L hg hm2 w hw len hlen hdis q ν hν hsm hq τ hτ hdef)
    s hs P z G Y hobs

/-- More iterations do not increase the value. -/
theorem heron_le_first {c : ℝ} (hc : 0 < c) (t : Nat) : heron c (t + 1) ≤ (c + 1) / 2 := by
  induction t with
  | zero =>
    show 0.5 * (c + c / c) ≤ _
    rw [div_self hc.ne']
    norm_num
    linarith
  | succ t ih => exact (heron_step_le hc t).trans ih

theorem heron_measurable (t : Nat) : Measurable fun c : ℝ => heron c t := by
  induction t with
  | zero => exact measurable_id
  | succ t ih => exact (ih.add (measurable_id.div ih)).const_mul _

/-- The lemma behind `C72_iterations_fail` and `C72_matern_iterations_fail`. -/
theorem scale_iterated (bs : Flt → ℝ → ℝ) (L : Learner) (hmade : L.Made) (t : Nat) (hsk : L.scaleKind = .analytic (t + 2))
    (w : NNWrapper) (hw : w.Exact) (len : Fin w.f → ℝ) (hlen : L.deform.HasLengths w.f len)
    (bc : Nat) (hbc : 0 < bc) (draw : List Nat) (hd : bc < w.N → IsDraw w.N bc draw) (sd : List (List Nat)) (hN : 0 < w.N)
    (hk0 : 0 < w.nnCount) (hkN : w.nnCount + 1 ≤ w.N)
    (C : (Fin w.f → ℝ) → (Fin w.f → ℝ) → ℝ) (τ : ℝ) (hC : L.Reflects bs w len C τ)
    (s : ℝ) (hs : 0 < s) {Ω : Type*} [MeasurableSpace Ω] (P : Measure Ω) [IsProbabilityMeasure P] {m : Nat} (q : Fin m → Fin w.f → ℝ)
    (G : Fin m → Ω → ℝ) (Y : Ω → Tensor ℝ) (hobs : Observed P w C s τ q G Y) :
    ∃ idx nn, sampleBatch w bc w.N draw = .ok (idx, nn) ∧
      ∃ est : Ω → ℝ, Integrable est P ∧ (∀ᵐ ω ∂P, ∃ d, L.trainData (idx, nn) w.train (Y ω) = .ok d ∧
          L.optimizeScale bs sd d.pairwise d.nnTargets = .ok { L with scale := est ω, boundScale := est ω }) ∧
        ∫ ω, est ω ∂P ≤ (s + 1) / 2 ∧ (t = 0 → ∫ ω, est ω ∂P = (s + 1) / 2) ∧ (1 < s → ∫ ω, est ω ∂P < s) ∧ ∀ᵐ ω ∂P, 0 < est ω := by
  obtain ⟨idx, nn, h1, hb0, -, K, F, hF, hae⟩ := scale_sample bs L hmade w hw len hlen bc hbc draw hd sd hN hk0 hkN C τ hC s hs P q G Y hobs
  have key := fun p (hp : p < idx.length) =>
    quadForm_mean (fun j => ((hF p hp).2.1.eval j).memLp_two) (hF p hp).2.2.1 (K p) s (hF p hp).2.2.2 (Kriging.det_ne_zero (hF p hp).1)
  set est₁ : Ω → ℝ := fun ω => Spec.scaleEstimate idx.length K (fun p j => F p j ω) with hest₁
  have hest : ∀ ω, est₁ ω =
      1 / ((idx.length : ℝ) * w.nnCount) * ∑ p ∈ Finset.range idx.length, Spec.quadForm (K p) fun j => F p j ω := fun ω => by
    rw [hest₁]
    unfold Spec.scaleEstimate
    rfl
  have hi : Integrable est₁ P := by
    rw [show est₁ = fun ω => _ from funext hest]
    exact (integrable_finsetSum _ fun p hp => (key p (Finset.mem_range.1 hp)).1).const_mul _
  have hm : ∫ ω, est₁ ω ∂P = s := by
    simp only [hest]
    rw [integral_const_mul, integral_finsetSum _ fun p hp => (key p (Finset.mem_range.1 hp)).1,
      Finset.sum_congr rfl fun p hp => (key p (Finset.mem_range.1 hp)).2]
    simp only [Finset.sum_const, Finset.card_range, nsmul_eq_mul]
    field_simp
  have hpos : ∀ᵐ ω ∂P, 0 < est₁ ω := hae.mono fun ω h => h.1
  have hbi : Integrable (fun ω => (est₁ ω + 1) / 2) P := (hi.add (integrable_const 1)).div_const 2
  have hbm : ∫ ω, (est₁ ω + 1) / 2 ∂P = (s + 1) / 2 := by
    rw [integral_div, integral_add hi (integrable_const 1), hm]
    simp
  have hle : ∀ᵐ ω ∂P, heron (est₁ ω) (t + 1) ≤ (est₁ ω + 1) / 2 := hpos.mono fun ω h => heron_le_first h t
  have hint : Integrable (fun ω => heron (est₁ ω) (t + 1)) P := by
    refine hbi.mono ((heron_measurable (t + 1)).comp_aemeasurable hi.aemeasurable).aestronglyMeasurable ?_
    filter_upwards [hpos] with ω h
    rw [Real.norm_of_nonneg (heron_pos h _).le, Real.norm_of_nonneg (by positivity)]
    exact heron_le_first h t
  have hmain : ∫ ω, heron (est₁ ω) (t + 1) ∂P ≤ (s + 1) / 2 := hbm ▸ integral_mono_ae hint hbi hle
  refine ⟨idx, nn, h1, fun ω => heron (est₁ ω) (t + 1), hint, hae.mono fun ω ⟨_, d, a, b⟩ => ⟨d, a, b (t + 1) hsk⟩, hmain, fun ht => ?_,
    fun h1s => hmain.trans_lt (by linarith), hpos.mono fun ω h => heron_pos h _⟩
  subst ht
  rw [← hbm]
  refine integral_congr_ae (hpos.mono fun ω h => ?_)
  show (0.5 : ℝ) * (est₁ ω + est₁ ω / est₁ ω) = (est₁ ω + 1) / 2
  rw [div_self h.ne']
  norm_num
  ring

/-- **C72 is false of the code for two or more iterations**: under the conditions of `C72_unbiased_partial`, with `iteration_count = t + 2`, the mean of the
estimated scale is at most `(s + 1) / 2`, and equal to it for two iterations; so every true scale `s > 1` is under-estimated on average. -/
theorem C72_iterations_fail (bs : Flt → ℝ → ℝ) (L : Learner) (hmade : L.Made) (t : Nat) (hsk : L.scaleKind = .analytic (t + 2))
    (hsuit : L.fn.Suits L.deform.metric) (w : NNWrapper) (hw : w.Exact) (len : Fin w.f → ℝ) (hlen : L.deform.HasLengths w.f len)
    (bc : Nat) (hbc : 0 < bc) (draw : List Nat) (hd : bc < w.N → IsDraw w.N bc draw) (sd : List (List Nat)) (hN : 0 < w.N)
    (hk0 : 0 < w.nnCount) (hkN : w.nnCount + 1 ≤ w.N)
    (τ : ℝ) (hτ : L.trainee.R.gp.noise.Level τ)
    (hreg : L.trainee.R.gp.noise.Suffices (min bc w.N) w.nnCount (DistinctRows w.train w.N w.f))
    (s : ℝ) (hs : 0 < s) {Ω : Type*} [MeasurableSpace Ω] (P : Measure Ω) [IsProbabilityMeasure P] {m : Nat} (q : Fin m → Fin w.f → ℝ)
    (G : Fin m → Ω → ℝ) (Y : Ω → Tensor ℝ) (hobs : Observed P w (L.trainee.R.kernel.covFn bs len) s τ q G Y) :
    ∃ idx nn, sampleBatch w bc w.N draw = .ok (idx, nn) ∧
      ∃ est : Ω → ℝ, Integrable est P ∧ (∀ᵐ ω ∂P, ∃ d, L.trainData (idx, nn) w.train (Y ω) = .ok d ∧
          L.optimizeScale bs sd d.pairwise d.nnTargets = .ok { L with scale := est ω, boundScale := est ω }) ∧
        ∫ ω, est ω ∂P ≤ (s + 1) / 2 ∧ (t = 0 → ∫ ω, est ω ∂P = (s + 1) / 2) ∧ (1 < s → ∫ ω, est ω ∂P < s) ∧ ∀ᵐ ω ∂P, 0 < est ω := by
  exact scale_iterated bs L hmade t hsk w hw len hlen bc hbc draw hd sd hN hk0 hkN _ τ (reflects_closed bs L hsuit w hw len hlen τ hτ _ hreg) s hs P q G Y hobs

/-- `C72_iterations_fail` with the general Matérn implementation. -/
theorem C72_matern_iterations_fail (L : Learner) (hmade : L.Made) (t : Nat) (hsk : L.scaleKind = .analytic (t + 2))
    (hg : L.fn = .gen) (hm2 : L.deform.metric = .l2) (w : NNWrapper) (hw : w.Exact) (len : Fin w.f → ℝ) (hlen : L.deform.HasLengths w.f len)
    (bc : Nat) (hbc : 0 < bc) (draw : List Nat) (hd : bc < w.N → IsDraw w.N bc draw) (sd : List (List Nat)) (hN : 0 < w.N)
    (hk0 : 0 < w.nnCount) (hkN : w.nnCount + 1 ≤ w.N)
    (q : Param) (ν : ℝ) (hν : 0 < ν) (hsm : L.kernel.smoothness = some q) (hq : q.val = Flt.fin ν) (hdis : DistinctRows w.train w.N w.f)
    (τ : ℝ) (hτ : L.trainee.R.gp.noise.Level τ) (hdef : deficit ν < τ)
    (s : ℝ) (hs : 0 < s) {Ω : Type*} [MeasurableSpace Ω] (P : Measure Ω) [IsProbabilityMeasure P] {m : Nat} (z : Fin m → Fin w.f → ℝ)
    (G : Fin m → Ω → ℝ) (Y : Ω → Tensor ℝ) (hobs : Observed P w (maternProcess ν len) s (τ - deficit ν) z G Y) :
    ∃ idx nn, sampleBatch w bc w.N draw = .ok (idx, nn) ∧
      ∃ est : Ω → ℝ, Integrable est P ∧ (∀ᵐ ω ∂P, ∃ d, L.trainData (idx, nn) w.train (Y ω) = .ok d ∧
          L.optimizeScale maternGen sd d.pairwise d.nnTargets = .ok { L with scale := est ω, boundScale := est ω }) ∧
        ∫ ω, est ω ∂P ≤ (s + 1) / 2 ∧ (t = 0 → ∫ ω, est ω ∂P = (s + 1) / 2) ∧ (1 < s → ∫ ω, est ω ∂P < s) ∧ ∀ᵐ ω ∂P, 0 < est ω := by
  exact scale_iterated maternGen L hmade t hsk w hw len hlen bc hbc draw hd sd hN hk0 hkN _ _ (reflects_gen L hg hm2 w hw len hlen hdis q ν hν hsm hq τ hτ hdef)
    s hs P z G Y hobs

/-- Non-vacuity of `C72_iterations_fail`: the true scale is 5, two iterations; the mean estimate is 3. -/
example (bs : Flt → ℝ → ℝ) : ∃ (w : NNWrapper) (Ω : Type) (_ : MeasurableSpace Ω) (P : Measure Ω) (_ : IsProbabilityMeasure P)
    (est : Ω → ℝ), w.train = lineTrain ∧ ∫ ω, est ω ∂P = 3 ∧
      ∀ᵐ ω ∂P, ∃ d : TrainData, ({ lineLearner with scaleKind := .analytic 2 } : Learner).optimizeScale bs [] d.pairwise d.nnTargets =
        .ok { lineLearner with scaleKind := .analytic 2, scale := est ω, boundScale := est ω } := by
  obtain ⟨answer, hw⟩ := line_exact
  set w : NNWrapper := ⟨3, 1, lineTrain, 2, fun x y => |x 0 - y 0|, false, answer⟩ with hwd
  obtain ⟨Ω, i1, P, i2, G, Y, h⟩ := observed_exists bs lineLearner.trainee.R.kernel rfl w (fun _ => 1) 5 1 (by norm_num) zero_le_one
    (fun p : Fin 2 => rowPt lineTest w.f p)
  obtain ⟨idx, nn, h1, est, -, h3, -, h4, -⟩ := C72_iterations_fail bs { lineLearner with scaleKind := .analytic 2 } rfl 0 rfl rfl w hw (fun _ => 1)
    ⟨1, one_pos, rfl, fun _ => rfl⟩ 3 (by norm_num) [] (fun h => absurd h (lt_irrefl 3)) [] (by norm_num [hwd]) (by norm_num [hwd])
    (by norm_num [hwd]) 1 rfl (.inl one_pos) 5 (by norm_num) P _ G Y h
  exact ⟨w, Ω, i1, P, i2, est, rfl, (h4 rfl).trans (by norm_num), h3.mono fun ω ⟨d, _, b⟩ => ⟨d, b⟩⟩

/-- Non-vacuity of `C72_unbiased_partial`: three training points on a line, two neighbours, noise, true scale 5. -/
example (bs : Flt → ℝ → ℝ) : ∃ (w : NNWrapper) (Ω : Type) (_ : MeasurableSpace Ω) (P : Measure Ω) (_ : IsProbabilityMeasure P)
    (Y : Ω → Tensor ℝ) (nn : Tensor Int) (est : Ω → ℝ), w.train = lineTrain ∧ ∫ ω, est ω ∂P = 5 ∧
      ∀ᵐ ω ∂P, ∃ d, lineLearner.trainData ([0, 1, 2], nn) lineTrain (Y ω) = .ok d ∧
        lineLearner.optimizeScale bs [] d.pairwise d.nnTargets = .ok { lineLearner with scale := est ω, boundScale := est ω } := by
  obtain ⟨answer, hw⟩ := line_exact
  set w : NNWrapper := ⟨3, 1, lineTrain, 2, fun x y => |x 0 - y 0|, false, answer⟩ with hwd
  obtain ⟨Ω, i1, P, i2, G, Y, h⟩ := observed_exists bs lineLearner.trainee.R.kernel rfl w (fun _ => 1) 5 1 (by norm_num) zero_le_one
    (fun p : Fin 2 => rowPt lineTest w.f p)
  obtain ⟨idx, nn, h1, est, -, h3, h4⟩ := C72_unbiased_partial bs lineLearner rfl rfl rfl w hw (fun _ => 1) ⟨1, one_pos, rfl, fun _ => rfl⟩
    3 (by norm_num) [] (fun h => absurd h (lt_irrefl 3)) [] (by norm_num [hwd]) (by norm_num [hwd]) (by norm_num [hwd]) 1 rfl
    (.inl one_pos) 5 (by norm_num) P _ G Y h
  have hidx : idx = [0, 1, 2] := by
    unfold sampleBatch at h1
    rw [if_neg (by norm_num [hwd])] at h1
    simp only [bind, Except.bind] at h1
    cases hg : w.getBatchNns (ofNats (List.range w.N)) with
    | error z => rw [hg] at h1; cases h1
    | ok r => rw [hg] at h1; exact (congrArg Prod.fst (Except.ok.inj h1)).symm
  subst hidx
  exact ⟨w, Ω, i1, P, i2, Y, nn, est, rfl, h3, h4.mono fun ω h => h.2⟩

end MuyGPyS
