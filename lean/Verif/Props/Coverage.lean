import Verif.Spec.Coverage
import Verif.Props.BayesMore
import Verif.Props.BayesWitness
import Verif.Props.Information

/-!
# C91: prediction intervals have their nominal coverage
-/

namespace MuyGPyS
open Py Matrix MeasureTheory ProbabilityTheory

/-- An error with a centred normal law of variance `V` is smaller than `t` with the nominal probability of `t / √V` standard deviations. -/
theorem cover_law {Ω : Type*} [MeasurableSpace Ω] {P : Measure Ω} {E : Ω → ℝ} {V : ℝ} (hV : 0 < V) (h : P.map E = gaussianReal 0 V.toNNReal) (t : ℝ) :
    P {ω | |E ω| < t} = nominalCoverage (t / Real.sqrt V) := by
  have hm : AEMeasurable E P := aemeasurable_of_map_neZero (by rw [h]; infer_instance)
  have hs : 0 < Real.sqrt V := Real.sqrt_pos.mpr hV
  have hset : ∀ t : ℝ, MeasurableSet {x : ℝ | |x| < t} := fun t => measurableSet_lt (by fun_prop) measurable_const
  have h1 : P {ω | |E ω| < t} = gaussianReal 0 V.toNNReal {x | |x| < t} := by
    rw [← h, Measure.map_apply_of_aemeasurable hm (hset t)]
    rfl
  have h2 : (gaussianReal 0 1).map (Real.sqrt V * ·) = gaussianReal 0 V.toNNReal := by
    rw [gaussianReal_map_const_mul]
    congr 1
    · rw [mul_zero]
    · rw [mul_one]
      ext
      simp [Real.sq_sqrt hV.le, hV.le]
  rw [h1, ← h2, Measure.map_apply (by fun_prop) (hset t)]
  unfold nominalCoverage
  congr 1
  ext x
  simp only [Set.mem_preimage, Set.mem_setOf_eq, abs_mul, abs_of_pos hs]
  rw [lt_div_iff₀ hs, mul_comm]

theorem nominal_strictMono {a b : ℝ} (ha : 0 ≤ a) (hab : a < b) : nominalCoverage a < nominalCoverage b := by
  have hset : ∀ t : ℝ, MeasurableSet {x : ℝ | |x| < t} := fun t => measurableSet_lt (by fun_prop) measurable_const
  have hsub : {x : ℝ | |x| < a} ⊆ {x | |x| < b} := fun x hx => lt_trans hx hab
  have hne : gaussianReal 0 1 (Set.Ioo a b) ≠ 0 := fun h0 => by
    have := gaussianReal_absolutelyContinuous' 0 (one_ne_zero : (1 : NNReal) ≠ 0) h0
    rw [Real.volume_Ioo, ENNReal.ofReal_eq_zero] at this
    linarith
  have hdisj : Disjoint {x : ℝ | |x| < a} (Set.Ioo a b) := Set.disjoint_left.mpr fun x hx hx' => by
    have h1 : |x| < a := hx
    have := lt_of_le_of_lt (le_abs_self x) h1
    exact absurd this (not_lt.mpr hx'.1.le)
  unfold nominalCoverage
  calc gaussianReal 0 1 {x | |x| < a} < gaussianReal 0 1 {x | |x| < a} + gaussianReal 0 1 (Set.Ioo a b) :=
        ENNReal.lt_add_right (measure_ne_top _ _) hne
    _ = gaussianReal 0 1 ({x | |x| < a} ∪ Set.Ioo a b) := (measure_union hdisj measurableSet_Ioo).symm
    _ ≤ gaussianReal 0 1 {x | |x| < b} := measure_mono (Set.union_subset hsub fun x hx => by
        show |x| < b
        rw [abs_of_nonneg (ha.trans hx.1.le)]
        exact hx.2)

theorem covered_iff {z μ v g : ℝ} : Covered z μ v g ↔ |g - μ| < z * Real.sqrt v := by
  unfold Covered; rw [abs_sub_comm]

/-- The number of covered points, on average. -/
theorem count_mean {Ω : Type*} [MeasurableSpace Ω] (P : Measure Ω) {m : Nat} (z : ℝ) (μ : Ω → Tensor ℝ) (v : Tensor ℝ) (y : Fin m → Ω → ℝ) (c : Fin m → ENNReal)
    (hm : ∀ p, AEMeasurable (fun ω => y p ω - (μ ω).get [p]) P) (h : ∀ p : Fin m, P {ω | Covered z ((μ ω).get [p]) (v.get [p]) (y p ω)} = c p) :
    ∫⁻ ω, coveredCount z m (μ ω) v (fun p => y p ω) ∂P = ∑ p, c p := by
  classical
  have hn : ∀ p : Fin m, NullMeasurableSet {ω | Covered z ((μ ω).get [p]) (v.get [p]) (y p ω)} P := fun p => by
    have hset : MeasurableSet {x : ℝ | |x| < z * Real.sqrt (v.get [p])} := measurableSet_lt (by fun_prop) measurable_const
    have := (hm p).nullMeasurable hset
    simp only [covered_iff]
    exact this
  have hc : ∀ ω, ((coveredCount z m (μ ω) v (fun p => y p ω) : Nat) : ENNReal) =
      ∑ p : Fin m, Set.indicator {ω | Covered z ((μ ω).get [p]) (v.get [p]) (y p ω)} (fun _ => (1 : ENNReal)) ω := fun ω => by
    unfold coveredCount
    rw [Finset.card_filter, Nat.cast_sum]
    refine Finset.sum_congr rfl fun p _ => ?_
    simp only [Set.indicator, Set.mem_setOf_eq]
    split_ifs <;> simp
  simp only [hc]
  rw [lintegral_finsetSum' _ fun p _ => (aemeasurable_const.indicator₀ (hn p))]
  refine Finset.sum_congr rfl fun p _ => ?_
  rw [lintegral_indicator₀ (hn p), setLIntegral_const, one_mul, h p]

/-- The posterior is calibrated. -/
theorem calibrated_of_posterior (bessel : Flt → ℝ → ℝ) (R : Regressor) (w : NNWrapper) {m : Nat} (Q : Tensor ℝ) {Ω : Type*} [MeasurableSpace Ω] (P : Measure Ω)
    [IsProbabilityMeasure P] (G : Fin m → Ω → ℝ) (Y : Ω → Tensor ℝ) (h : RegressPosterior bessel R w Q P G Y) : Calibrated bessel R w Q P G Y := by
  obtain ⟨nbr, μ, v, h1, h2, h3, h4⟩ := h
  have hcov : ∀ z, ∀ p : Fin m, 0 < v.get [p] → P {ω | Covered z ((μ ω).get [p]) (v.get [p]) (G p ω)} = nominalCoverage z := fun z p hv => by
    simp only [covered_iff]
    rw [cover_law hv (h4 p).error, mul_div_assoc, div_self (Real.sqrt_pos.mpr hv).ne', mul_one]
  refine ⟨nbr, μ, v, h1, fun ω => (h2 ω).1, h3, fun z => ⟨fun p hv A hA => ?_, fun hv => ?_⟩⟩
  · have hset : MeasurableSet {x : ℝ | |x| < z * Real.sqrt (v.get [p])} := measurableSet_lt (by fun_prop) measurable_const
    rw [← hcov z p hv]
    have := (h4 p).indep.measure_inter_preimage_eq_mul A _ hA hset
    simp only [covered_iff]
    exact this
  · rw [count_mean P z μ v G (fun _ => nominalCoverage z)
      (fun p => aemeasurable_of_map_neZero (by rw [(h4 p).error]; infer_instance)) fun p => hcov z p (hv p)]
    simp

/-- **C91**: the intervals cover the values of the process with their nominal probability. Partial: see `C91_observations_fail` for responses of test points. -/
theorem C91_values_partial (bessel : Flt → ℝ → ℝ) (R : Regressor) (hk : R.kernel.make = R.kernel)
    (hko : R.gp.kout = KernelObj.kout) (hsuit : R.kernel.fn.Suits R.kernel.deform.metric)
    (w : NNWrapper) (hw : w.Exact) (Q : Tensor ℝ) (m : Nat) (len : Fin w.f → ℝ) (hlen : R.kernel.deform.HasLengths w.f len)
    (hQ : Q.shape = [m, w.f]) (hm : 0 < m) (hk0 : 0 < w.nnCount) (hkN : w.nnCount ≤ w.N)
    (τ : ℝ) (hτ : R.gp.noise.Level τ) (hreg : R.gp.noise.Suffices m w.nnCount (DistinctRows w.train w.N w.f))
    {Ω : Type*} [MeasurableSpace Ω] (P : Measure Ω) [IsProbabilityMeasure P] (G : Fin m → Ω → ℝ) (Y : Ω → Tensor ℝ)
    (hobs : Observed P w (R.kernel.covFn bessel len) R.gp.boundScale τ (fun p : Fin m => rowPt Q w.f p) G Y) :
    Calibrated bessel R w Q P G Y := by
  obtain ⟨nbr, μ, v, h1, h2, h3, h4⟩ := C71_posterior bessel R hk hko hsuit w hw Q m len hlen hQ hm hk0 hkN τ hτ hreg P G Y hobs
  exact calibrated_of_posterior bessel R w Q P G Y ⟨nbr, μ, v, h1, h2, h3, fun p =>
    ⟨(h4 p).1, (h4 p).2.1, (h4 p).2.2.1, (h4 p).2.2.2.2.1, (h4 p).2.2.2.2.2⟩⟩

/-- **C91** for heteroscedastic noise, with the noise tensor made for these test points (C88). -/
theorem C91_heteroscedastic_partial (bessel : Flt → ℝ → ℝ) (R : Regressor) (hk : R.kernel.make = R.kernel)
    (hko : R.gp.kout = KernelObj.kout) (hsuit : R.kernel.fn.Suits R.kernel.deform.metric)
    (w : NNWrapper) (hw : w.Exact) (Q : Tensor ℝ) (m : Nat) (len : Fin w.f → ℝ) (hlen : R.kernel.deform.HasLengths w.f len)
    (hQ : Q.shape = [m, w.f]) (hm : 0 < m) (hk0 : 0 < w.nnCount) (hkN : w.nnCount ≤ w.N)
    (noise : Tensor ℝ) (hnoise : noise.shape = [w.N]) (nn : Tensor Int) (D T : Tensor ℝ) (hnn : w.getNns Q = .ok (nn, D))
    (hT : makeHeteroscedasticTensor noise nn = .ok T) (hR : R.gp.noise = .heteroscedastic T)
    (hpos : (∀ i < w.N, 0 < noise.get [i]) ∨ ((∀ i < w.N, 0 ≤ noise.get [i]) ∧ DistinctRows w.train w.N w.f))
    {Ω : Type*} [MeasurableSpace Ω] (P : Measure Ω) [IsProbabilityMeasure P] (G : Fin m → Ω → ℝ) (Y : Ω → Tensor ℝ)
    (hobs : ObservedWith P w (R.kernel.covFn bessel len) R.gp.boundScale (fun i => noise.get [i]) (fun p : Fin m => rowPt Q w.f p) G Y) :
    Calibrated bessel R w Q P G Y :=
  calibrated_of_posterior bessel R w Q P G Y
    (C71_heteroscedastic bessel R hk hko hsuit w hw Q m len hlen hQ hm hk0 hkN noise hnoise nn D T hnn hT hR hpos P G Y hobs)

/-- **C91** for the general Matérn kernel, at new points. -/
theorem C91_matern_partial (R : Regressor) (hk : R.kernel.make = R.kernel) (hko : R.gp.kout = KernelObj.kout)
    (hg : R.kernel.fn = .gen) (hm2 : R.kernel.deform.metric = .l2) (q : Param) (ν : ℝ) (hν0 : 0 < ν)
    (hsm : R.kernel.smoothness = some q) (hq : q.val = Flt.fin ν) (τ : ℝ) (hnoise : R.gp.noise = .homoscedastic τ) (hτ : deficit ν < τ)
    (w : NNWrapper) (hw : w.Exact) (Q : Tensor ℝ) (m : Nat) (len : Fin w.f → ℝ) (hlen : R.kernel.deform.HasLengths w.f len)
    (hQ : Q.shape = [m, w.f]) (hm : 0 < m) (hk0 : 0 < w.nnCount) (hkN : w.nnCount ≤ w.N)
    (hd : DistinctRows w.train w.N w.f) (hnew : ∀ p < m, ∀ i < w.N, rowPt Q w.f p ≠ rowPt w.train w.f i)
    {Ω : Type*} [MeasurableSpace Ω] (P : Measure Ω) [IsProbabilityMeasure P] (G : Fin m → Ω → ℝ) (Y : Ω → Tensor ℝ)
    (hobs : Observed P w (maternProcess ν len) R.gp.boundScale (τ - deficit ν) (fun p : Fin m => rowPt Q w.f p) G Y) :
    Calibrated maternGen R w Q P G Y :=
  calibrated_of_posterior maternGen R w Q P G Y
    (C71_matern R hk hko hg hm2 q ν hν0 hsm hq τ hnoise hτ w hw Q m len hlen hQ hm hk0 hkN hd hnew P G Y hobs)

/-- C91 is false of the code for responses of test points, which have noise like those of the training points: for every data set, kernel, scale and positive noise variance the
intervals cover them with a probability smaller than the nominal one, namely that of intervals shortened by the factor `√(v / (v + s τ))`. -/
theorem C91_observations_fail (bessel : Flt → ℝ → ℝ) (R : Regressor) (hk : R.kernel.make = R.kernel)
    (hko : R.gp.kout = KernelObj.kout) (hsuit : R.kernel.fn.Suits R.kernel.deform.metric)
    (w : NNWrapper) (hw : w.Exact) (Q : Tensor ℝ) (m : Nat) (len : Fin w.f → ℝ) (hlen : R.kernel.deform.HasLengths w.f len)
    (hQ : Q.shape = [m, w.f]) (hm : 0 < m) (hk0 : 0 < w.nnCount) (hkN : w.nnCount ≤ w.N)
    (τ : ℝ) (hτ : R.gp.noise.Level τ) (hpos : 0 < τ) (hs : 0 < R.gp.boundScale)
    {Ω : Type*} [MeasurableSpace Ω] (P : Measure Ω) [IsProbabilityMeasure P] (Y : Ω → Tensor ℝ) (Z : Fin m → Ω → ℝ)
    (hobs : ObservedTests P w (R.kernel.covFn bessel len) R.gp.boundScale τ (fun p : Fin m => rowPt Q w.f p) Y Z) :
    ∃ (μ : Ω → Tensor ℝ) (v : Tensor ℝ), (∀ ω, regressAny bessel R w Q w.train (Y ω) = .ok (μ ω, v)) ∧
      ∀ z > 0, (∀ p : Fin m, 0 < v.get [p] ∧
        P {ω | Covered z ((μ ω).get [p]) (v.get [p]) (Z p ω)} = nominalCoverage (z * Real.sqrt (v.get [p] / (v.get [p] + R.gp.boundScale * τ))) ∧
        P {ω | Covered z ((μ ω).get [p]) (v.get [p]) (Z p ω)} < nominalCoverage z) ∧
      ∫⁻ ω, coveredCount z m (μ ω) v (fun p => Z p ω) ∂P < m * nominalCoverage z := by
  obtain ⟨L, G, e, hL, he, hi, hY, hYv, hZv⟩ := hobs
  obtain ⟨o1, o2, o3, o4⟩ := observed hL he hi id
  have hYZ : HasGaussianLaw (fun ω => (fun i : Fin w.N => (Y ω).get [i], fun p => Z p ω)) P := by
    simp only [hYv, hZv]
    let A : (Fin w.N ⊕ Fin m → ℝ) × (Fin w.N ⊕ Fin m → ℝ) →L[ℝ] (Fin w.N → ℝ) × (Fin m → ℝ) :=
      (ContinuousLinearMap.prod (ContinuousLinearMap.pi fun i =>
        ContinuousLinearMap.proj (R := ℝ) (φ := fun _ : Fin w.N ⊕ Fin m => ℝ) (.inl i)) (ContinuousLinearMap.pi fun p =>
        ContinuousLinearMap.proj (R := ℝ) (φ := fun _ : Fin w.N ⊕ Fin m => ℝ) (.inr p))).comp (ContinuousLinearMap.fst ℝ _ _)
    exact o1.map_fun A
  have zY : ∀ i : Fin w.N, ∫ ω, (Y ω).get [i] ∂P = 0 := fun i => by simp only [hYv]; exact o2 (.inl i)
  have eZ : ∀ p, Z p = fun ω => (Sum.elim L G : Fin w.N ⊕ Fin m → Ω → ℝ) (.inr p) ω + e (.inr p) ω := fun p => funext fun ω => hZv ω p
  have zZ : ∀ p, P[Z p] = 0 := fun p => by rw [eZ]; exact o2 (.inr p)
  have sup := (hτ.suffices_iff m w.nnCount (DistinctRows w.train w.N w.f)).mpr (.inl hpos)
  obtain ⟨nbr, μ, v, h1, h2, h3, h4⟩ := posterior_core bessel R hk hko hsuit w hw Q m len hlen hQ hm hk0 hkN τ hτ sup P Z Y τ hYZ zY zZ
    (fun i j => by
      simp only [hYv]
      refine (o3 (.inl i) (.inl j)).trans ?_
      rw [mul_add]
      congr 1
      simp only [Sum.inl.injEq]
      split <;> simp)
    (fun i p => by
      rw [eZ]
      simp only [hYv]
      refine (o3 (.inl i) (.inr p)).trans ?_
      simp)
    (fun p => by
      rw [← covariance_self (hYZ.snd.eval p).aemeasurable, eZ]
      refine (o3 (.inr p) (.inr p)).trans ?_
      rw [if_pos rfl, mul_add]
      simp only [id, Sum.elim_inr]
      rw [covFn_self bessel R.kernel hsuit])
    hY
  obtain ⟨ω₀⟩ : Nonempty Ω := P.nonempty_of_neZero
  have hv : ∀ p : Fin m, 0 < v.get [p] := fun p => by
    obtain ⟨_, μ', v', -, g1, -, -, g2⟩ := C54_regress_always bessel R hk hko hsuit w hw Q (Y ω₀) m len hlen hQ (hY ω₀) hm hk0 hkN (hτ.fits _ _) sup
    rw [(h2 ω₀).1] at g1
    cases g1
    exact ((g2 p p.2).2.2 hs).2.2 (by rw [hτ.mat]; exact PosDef.one.smul hpos)
  have hsτ : 0 < R.gp.boundScale * τ := mul_pos hs hpos
  refine ⟨μ, v, fun ω => (h2 ω).1, fun z hz => ?_⟩
  have key : ∀ p : Fin m, P {ω | Covered z ((μ ω).get [p]) (v.get [p]) (Z p ω)} = nominalCoverage (z * Real.sqrt (v.get [p] / (v.get [p] + R.gp.boundScale * τ))) :=
    fun p => by
      simp only [covered_iff]
      rw [cover_law (add_pos (hv p) hsτ) (h4 p).2.2.2.2.1, mul_div_assoc, Real.sqrt_div (hv p).le]
  have less : ∀ p : Fin m, nominalCoverage (z * Real.sqrt (v.get [p] / (v.get [p] + R.gp.boundScale * τ))) < nominalCoverage z := fun p => by
    refine nominal_strictMono (by positivity) ?_
    have : Real.sqrt (v.get [p] / (v.get [p] + R.gp.boundScale * τ)) < 1 := by
      rw [Real.sqrt_lt' one_pos, one_pow, div_lt_one (add_pos (hv p) hsτ)]
      linarith
    nlinarith
  refine ⟨fun p => ⟨hv p, key p, by rw [key p]; exact less p⟩, ?_⟩
  rw [count_mean P z μ v Z _ (fun p => aemeasurable_of_map_neZero (by rw [(h4 p).2.2.2.2.1]; infer_instance)) key]
  have : (m : ENNReal) * nominalCoverage z = ∑ _p : Fin m, nominalCoverage z := by simp
  rw [this]
  refine ENNReal.sum_lt_sum_of_nonempty ⟨⟨0, hm⟩, Finset.mem_univ _⟩ fun p _ => less p

/-- Training and test responses drawn from the statistical model exist. -/
theorem observedTests_exist (bessel : Flt → ℝ → ℝ) (k : KernelObj) (hk : k.fn.Suits k.deform.metric) (w : NNWrapper) (len : Fin w.f → ℝ)
    (s τ : ℝ) (hs : 0 ≤ s) (hτ : 0 ≤ τ) {m : Nat} (q : Fin m → Fin w.f → ℝ) :
    ∃ (Ω : Type) (_ : MeasurableSpace Ω) (P : Measure Ω) (_ : IsProbabilityMeasure P) (Y : Ω → Tensor ℝ) (Z : Fin m → Ω → ℝ),
      ObservedTests P w (k.covFn bessel len) s τ q Y Z := by
  obtain ⟨Ω, i1, P, i2, L, e, h1, h2, h3⟩ := prior_exists bessel k hk len s hs
    (Sum.elim (fun i : Fin w.N => rowPt w.train w.f i) q) (fun _ : Fin w.N ⊕ Fin m => s * τ) fun _ => mul_nonneg hs hτ
  have hsum : (Sum.elim (fun i => L (.inl i)) (fun p => L (.inr p)) : Fin w.N ⊕ Fin m → Ω → ℝ) = L := by
    funext a; cases a <;> rfl
  refine ⟨Ω, i1, P, i2, fun ω => ⟨[w.N], fun x => if h : x < w.N then L (.inl ⟨x, h⟩) ω + e (.inl ⟨x, h⟩) ω else 0⟩, fun p ω => L (.inr p) ω + e (.inr p) ω,
    fun i => L (.inl i), fun p => L (.inr p), e, by rw [hsum]; exact h1, h2, by rw [hsum]; exact h3, fun _ => rfl, fun ω i => ?_, fun _ _ => rfl⟩
  rw [Tensor.get1 _ rfl]
  simp

/-- Non-vacuity of `C91_values_partial`: three training points on a line, two test points, two neighbours, noise. -/
example (bs : Flt → ℝ → ℝ) : ∃ (w : NNWrapper) (Ω : Type) (_ : MeasurableSpace Ω) (P : Measure Ω) (_ : IsProbabilityMeasure P)
    (G : Fin 2 → Ω → ℝ) (Y : Ω → Tensor ℝ), w.train = lineTrain ∧ w.nnCount = 2 ∧ Calibrated bs lineModel w lineTest P G Y := by
  obtain ⟨answer, hw⟩ := line_exact
  set w : NNWrapper := ⟨3, 1, lineTrain, 2, fun x y => |x 0 - y 0|, false, answer⟩ with hwd
  obtain ⟨Ω, i1, P, i2, G, Y, h⟩ := observed_exists bs lineModel.kernel rfl w (fun _ => 1) 1 1 zero_le_one zero_le_one
    (fun p : Fin 2 => rowPt lineTest w.f p)
  exact ⟨w, Ω, i1, P, i2, G, Y, rfl, rfl, C91_values_partial bs lineModel rfl rfl rfl w hw lineTest 2 (fun _ => 1)
    ⟨1, one_pos, rfl, fun _ => rfl⟩ rfl two_pos two_pos (by show 2 ≤ 3; norm_num) 1 rfl (.inl one_pos) P G Y h⟩

/-- Non-vacuity of `C91_observations_fail`: the same; fewer than two of two test responses times the nominal probability are covered on average. -/
example (bs : Flt → ℝ → ℝ) : ∃ (w : NNWrapper) (Ω : Type) (_ : MeasurableSpace Ω) (P : Measure Ω) (_ : IsProbabilityMeasure P)
    (Y : Ω → Tensor ℝ) (Z : Fin 2 → Ω → ℝ) (μ : Ω → Tensor ℝ) (v : Tensor ℝ), w.train = lineTrain ∧
      (∀ ω, regressAny bs lineModel w lineTest lineTrain (Y ω) = .ok (μ ω, v)) ∧
      ∫⁻ ω, coveredCount 1.96 2 (μ ω) v (fun p => Z p ω) ∂P < 2 * nominalCoverage 1.96 := by
  obtain ⟨answer, hw⟩ := line_exact
  set w : NNWrapper := ⟨3, 1, lineTrain, 2, fun x y => |x 0 - y 0|, false, answer⟩ with hwd
  obtain ⟨Ω, i1, P, i2, Y, Z, h⟩ := observedTests_exist bs lineModel.kernel rfl w (fun _ => 1) 1 1 zero_le_one zero_le_one
    (fun p : Fin 2 => rowPt lineTest w.f p)
  obtain ⟨μ, v, h1, h2⟩ := C91_observations_fail bs lineModel rfl rfl rfl w hw lineTest 2 (fun _ => 1)
    ⟨1, one_pos, rfl, fun _ => rfl⟩ rfl two_pos two_pos (by show 2 ≤ 3; norm_num) 1 rfl one_pos one_pos P Y Z h
  exact ⟨w, Ω, i1, P, i2, Y, Z, μ, v, rfl, h1, (h2 1.96 (by norm_num)).2⟩

end MuyGPyS
