import Verif.Props.BayesMore
import Verif.Props.FreeSmoothness

/-! # C119: the price of using few neighbours -/

namespace MuyGPyS
open Py Matrix MeasureTheory ProbabilityTheory Complex

/-- Two posteriors of one quantity, the second given more: they differ by a normal variable with the difference of their variances. -/
theorem posterior_difference {Ω : Type*} [MeasurableSpace Ω] (P : Measure Ω) [IsProbabilityMeasure P] {n n' : Nat} {obs : Ω → Fin n → ℝ}
    {obs' : Ω → Fin n' → ℝ} {e : Fin n → Fin n'} (he : ∀ ω j, obs ω j = obs' ω (e j)) {G μ μ' : Ω → ℝ} {v v' : ℝ}
    (h : PosteriorOf P obs G μ v) (h' : PosteriorOf P obs' G μ' v') :
    v' ≤ v ∧ P.map (fun ω => μ' ω - μ ω) = gaussianReal 0 (v - v').toNNReal ∧ IndepFun (fun ω => μ' ω - μ ω) (fun ω => G ω - μ' ω) P ∧
      ∫ ω, (μ' ω - μ ω) ^ 2 ∂P = v - v' := by
  obtain ⟨c, hc⟩ := h.linear
  obtain ⟨c', hc'⟩ := h'.linear
  have a1 : AEMeasurable (fun ω => G ω - μ ω) P := aemeasurable_of_map_neZero (by rw [h.error]; infer_instance)
  have a2 : AEMeasurable (fun ω => G ω - μ' ω) P := aemeasurable_of_map_neZero (by rw [h'.error]; infer_instance)
  have eD : (fun ω => μ' ω - μ ω) = fun ω => (G ω - μ ω) - (G ω - μ' ω) := by funext ω; ring
  have a3 : AEMeasurable (fun ω => μ' ω - μ ω) P := by rw [eD]; exact a1.sub a2
  have hφ : Measurable fun y : Fin n' → ℝ => (∑ j, c' j * y j) - ∑ j, c j * y (e j) := by fun_prop
  have hind : IndepFun (fun ω => μ' ω - μ ω) (fun ω => G ω - μ' ω) P := by
    have := h'.indep.comp hφ measurable_id
    have e1 : (fun ω => μ' ω - μ ω) = (fun y : Fin n' → ℝ => (∑ j, c' j * y j) - ∑ j, c j * y (e j)) ∘ obs' := by
      funext ω
      simp only [Function.comp_apply, hc, hc', he]
    rw [e1]
    exact this
  have hsum : (fun ω => (μ' ω - μ ω) + (G ω - μ' ω)) = fun ω => G ω - μ ω := by funext ω; ring
  have hchar := hind.charFun_map_fun_add_eq_mul a3 a2
  rw [hsum, h.error, h'.error] at hchar
  have hD : ∀ t : ℝ, charFun (P.map fun ω => μ' ω - μ ω) t = cexp ((-((v - v') * t ^ 2 / 2) : ℝ)) := fun t => by
    have := congrFun hchar t
    rw [Pi.mul_apply, charFun_gaussianReal, charFun_gaussianReal, Real.coe_toNNReal _ h.nonneg, Real.coe_toNNReal _ h'.nonneg] at this
    rw [eq_comm, ← eq_div_iff (Complex.exp_ne_zero _), ← Complex.exp_sub] at this
    rw [this]
    congr 1
    push_cast
    ring
  haveI : IsProbabilityMeasure (P.map fun ω => μ' ω - μ ω) := Measure.isProbabilityMeasure_map a3
  have hle : v' ≤ v := by
    have h1 := norm_charFun_le_one (μ := P.map fun ω => μ' ω - μ ω) (t := (1:ℝ))
    rw [hD, ← Complex.ofReal_exp, Complex.norm_real, Real.norm_eq_abs, abs_of_pos (Real.exp_pos _), Real.exp_le_one_iff] at h1
    linarith
  have hlaw : P.map (fun ω => μ' ω - μ ω) = gaussianReal 0 (v - v').toNNReal := by
    refine Measure.ext_of_charFun ?_
    funext t
    rw [hD, charFun_gaussianReal, Real.coe_toNNReal _ (sub_nonneg.mpr hle)]
    congr 1
    push_cast
    ring
  refine ⟨hle, hlaw, hind, ?_⟩
  have h1 : ∫ ω, (μ' ω - μ ω) ^ 2 ∂P = ∫ x, x ^ 2 ∂(P.map fun ω => μ' ω - μ ω) := by
    rw [integral_map a3 (by fun_prop)]
  have h2 : Var[fun x => x; gaussianReal 0 (v - v').toNNReal] = v - v' := by
    rw [variance_fun_id_gaussianReal, Real.coe_toNNReal _ (sub_nonneg.mpr hle)]
  rw [variance_of_integral_eq_zero (by fun_prop) integral_id_gaussianReal] at h2
  rw [h1, hlaw, h2]

/-- With more neighbours, the nearest points contain the nearest points with fewer, if no two are equally far or all are asked for. -/
theorem nearest_nested {N k k' : Nat} {d : Nat → ℝ} (hties : (∀ i < N, ∀ j < N, i ≠ j → d i ≠ d j) ∨ k' = N) (hk : k ≤ k') {l l' : List Nat}
    (h : Nearest (· < N) d k l) (h' : Nearest (· < N) d k' l') : ∀ x ∈ l, x ∈ l' := by
  rcases hties with ht | rfl
  · exact nearest_subset (σ := id) (fun i hi => hi) (fun i _ j _ hij => hij) (fun i _ => rfl) ht (by omega) h h'
  · intro x hx
    have hsub : l'.toFinset = Finset.range k' := by
      refine Finset.eq_of_subset_of_card_le (fun y hy => Finset.mem_range.mpr (h'.mem y (List.mem_toFinset.mp hy))) ?_
      rw [Finset.card_range, List.toFinset_card_of_nodup h'.nodup, h'.length]
    rw [← List.mem_toFinset, hsub]
    exact Finset.mem_range.mpr (h.mem x hx)

/-- `C119_average`, for any two models whose predictions are posteriors. -/
theorem regress_difference (bs : Flt → ℝ → ℝ) (R R' : Regressor) (w : NNWrapper) (k' : Nat) (answer' : (Fin w.f → ℝ) → Nat → List Nat)
    (Q : Tensor ℝ) {m : Nat} (hk : w.nnCount ≤ k') (hties : w.NoTies Q m ∨ k' = w.N)
    {Ω : Type*} [MeasurableSpace Ω] (P : Measure Ω) [IsProbabilityMeasure P] (G : Fin m → Ω → ℝ) (Y : Ω → Tensor ℝ)
    (h : RegressPosterior bs R w Q P G Y) (h' : RegressPosterior bs R' { w with nnCount := k', answer := answer' } Q P G Y) :
    ∃ (μ μ' : Ω → Tensor ℝ) (v v' : Tensor ℝ), (∀ ω, regressAny bs R w Q w.train (Y ω) = .ok (μ ω, v)) ∧
      (∀ ω, regressAny bs R' { w with nnCount := k', answer := answer' } Q w.train (Y ω) = .ok (μ' ω, v')) ∧
      (∀ ω, (μ ω).shape = [m] ∧ (μ' ω).shape = [m]) ∧ v.shape = [m] ∧ v'.shape = [m] ∧
      ∀ p : Fin m, v'.get [p] ≤ v.get [p] ∧
        P.map (fun ω => (μ' ω).get [p] - (μ ω).get [p]) = gaussianReal 0 (v.get [p] - v'.get [p]).toNNReal ∧
        ∫ ω, ((μ' ω).get [p] - (μ ω).get [p]) ^ 2 ∂P = v.get [p] - v'.get [p] := by
  obtain ⟨nbr, μ, v, n1, n2, n3, n4⟩ := h
  obtain ⟨nbr', μ', v', n1', n2', n3', n4'⟩ := h'
  refine ⟨μ, μ', v, v', fun ω => (n2 ω).1, fun ω => (n2' ω).1, fun ω => ⟨(n2 ω).2, (n2' ω).2⟩, n3, n3', fun p => ?_⟩
  have hsub := nearest_nested (k' := k') (hties.imp (fun ht i hi j hj hij => ht p p.2 i hi j hj hij) id) hk (n1 p) (n1' p)
  have hpos : ∀ j : Fin w.nnCount, ∃ i : Fin k', (nbr p j).1 = (nbr' p i).1 := fun j => by
    obtain ⟨i, hi⟩ := List.mem_ofFn.mp (hsub _ (List.mem_ofFn.mpr ⟨j, rfl⟩))
    exact ⟨i, hi.symm⟩
  choose e he using hpos
  obtain ⟨r1, r2, -, r4⟩ := posterior_difference P (e := e) (fun ω j => by rw [he]) (n4 p) (n4' p)
  exact ⟨r1, r2, r4⟩

/-- `C71_posterior` as a `RegressPosterior`. -/
theorem regressPosterior_closed (bessel : Flt → ℝ → ℝ) (R : Regressor) (hk : R.kernel.make = R.kernel)
    (hko : R.gp.kout = KernelObj.kout) (hsuit : R.kernel.fn.Suits R.kernel.deform.metric)
    (w : NNWrapper) (hw : w.Exact) (Q : Tensor ℝ) (m : Nat) (len : Fin w.f → ℝ) (hlen : R.kernel.deform.HasLengths w.f len)
    (hQ : Q.shape = [m, w.f]) (hm : 0 < m) (hk0 : 0 < w.nnCount) (hkN : w.nnCount ≤ w.N)
    (τ : ℝ) (hτ : R.gp.noise.Level τ) (hreg : R.gp.noise.Suffices m w.nnCount (DistinctRows w.train w.N w.f))
    {Ω : Type*} [MeasurableSpace Ω] (P : Measure Ω) [IsProbabilityMeasure P] (G : Fin m → Ω → ℝ) (Y : Ω → Tensor ℝ)
    (hobs : Observed P w (R.kernel.covFn bessel len) R.gp.boundScale τ (fun p : Fin m => rowPt Q w.f p) G Y) :
    RegressPosterior bessel R w Q P G Y := by
  obtain ⟨nbr, μ, v, h1, h2, h3, h4⟩ := C71_posterior bessel R hk hko hsuit w hw Q m len hlen hQ hm hk0 hkN τ hτ hreg P G Y hobs
  exact ⟨nbr, μ, v, h1, h2, h3, fun p => ⟨(h4 p).1, (h4 p).2.1, (h4 p).2.2.1, (h4 p).2.2.2.2.1, (h4 p).2.2.2.2.2⟩⟩

/-- **C119**: for data drawn from the model, how far the predictions from `nn_count` neighbours are from those with more neighbours — or all
training points, the exact Gaussian process (C89) — is normal with mean zero, and its variance is the difference of the reported variances. -/
theorem C119_average (bs : Flt → ℝ → ℝ) (R : Regressor) (hk : R.kernel.make = R.kernel)
    (hko : R.gp.kout = KernelObj.kout) (hsuit : R.kernel.fn.Suits R.kernel.deform.metric)
    (w : NNWrapper) (hw : w.Exact) (k' : Nat) (answer' : (Fin w.f → ℝ) → Nat → List Nat)
    (hw' : NNWrapper.Exact { w with nnCount := k', answer := answer' }) (Q : Tensor ℝ) (m : Nat) (len : Fin w.f → ℝ)
    (hlen : R.kernel.deform.HasLengths w.f len) (hQ : Q.shape = [m, w.f]) (hm : 0 < m) (hk0 : 0 < w.nnCount) (hkk : w.nnCount ≤ k')
    (hkN : k' ≤ w.N) (hties : w.NoTies Q m ∨ k' = w.N) (τ : ℝ) (hτ : R.gp.noise.Level τ)
    (hreg : 0 < τ ∨ (0 ≤ τ ∧ DistinctRows w.train w.N w.f))
    {Ω : Type*} [MeasurableSpace Ω] (P : Measure Ω) [IsProbabilityMeasure P] (G : Fin m → Ω → ℝ) (Y : Ω → Tensor ℝ)
    (hobs : Observed P w (R.kernel.covFn bs len) R.gp.boundScale τ (fun p : Fin m => rowPt Q w.f p) G Y) :
    ∃ (μ μ' : Ω → Tensor ℝ) (v v' : Tensor ℝ), (∀ ω, regressAny bs R w Q w.train (Y ω) = .ok (μ ω, v)) ∧
      (∀ ω, regressAny bs R { w with nnCount := k', answer := answer' } Q w.train (Y ω) = .ok (μ' ω, v')) ∧
      (∀ ω, (μ ω).shape = [m] ∧ (μ' ω).shape = [m]) ∧ v.shape = [m] ∧ v'.shape = [m] ∧
      ∀ p : Fin m, v'.get [p] ≤ v.get [p] ∧
        P.map (fun ω => (μ' ω).get [p] - (μ ω).get [p]) = gaussianReal 0 (v.get [p] - v'.get [p]).toNNReal ∧
        ∫ ω, ((μ' ω).get [p] - (μ ω).get [p]) ^ 2 ∂P = v.get [p] - v'.get [p] := by
  have hs := (hτ.suffices_iff m w.nnCount (DistinctRows w.train w.N w.f)).mpr hreg
  have hs' := (hτ.suffices_iff m k' (DistinctRows w.train w.N w.f)).mpr hreg
  exact regress_difference bs R R w k' answer' Q hkk hties P G Y
    (regressPosterior_closed bs R hk hko hsuit w hw Q m len hlen hQ hm hk0 (hkk.trans hkN) τ hτ hs P G Y hobs)
    (regressPosterior_closed bs R hk hko hsuit { w with nnCount := k', answer := answer' } hw' Q m len hlen hQ hm (hk0.trans_le hkk) hkN τ hτ hs' P G Y
      hobs)

/-- **C119** with the general Matérn implementation, for data drawn from the true Matérn process with the noise variance `τ - deficit`. -/
theorem C119_average_matern (R : Regressor) (ν τ σ : ℝ) (hν : 0 < ν) (hτ : deficit ν < τ)
    (w : NNWrapper) (hw : w.Exact) (k' : Nat) (answer' : (Fin w.f → ℝ) → Nat → List Nat)
    (hw' : NNWrapper.Exact { w with nnCount := k', answer := answer' }) (Q : Tensor ℝ) (m : Nat) (len : Fin w.f → ℝ)
    (hR : R.GeneralMatern ν len τ σ) (hQ : Q.shape = [m, w.f]) (hm : 0 < m) (hk0 : 0 < w.nnCount) (hkk : w.nnCount ≤ k')
    (hkN : k' ≤ w.N) (hties : w.NoTies Q m ∨ k' = w.N) (hd : DistinctRows w.train w.N w.f) (hnew : w.New Q m)
    {Ω : Type*} [MeasurableSpace Ω] (P : Measure Ω) [IsProbabilityMeasure P] (G : Fin m → Ω → ℝ) (Y : Ω → Tensor ℝ)
    (hobs : Observed P w (maternProcess ν len) σ (τ - deficit ν) (fun p : Fin m => rowPt Q w.f p) G Y) :
    ∃ (μ μ' : Ω → Tensor ℝ) (v v' : Tensor ℝ), (∀ ω, regressAny maternGen R w Q w.train (Y ω) = .ok (μ ω, v)) ∧
      (∀ ω, regressAny maternGen R { w with nnCount := k', answer := answer' } Q w.train (Y ω) = .ok (μ' ω, v')) ∧
      (∀ ω, (μ ω).shape = [m] ∧ (μ' ω).shape = [m]) ∧ v.shape = [m] ∧ v'.shape = [m] ∧
      ∀ p : Fin m, v'.get [p] ≤ v.get [p] ∧
        P.map (fun ω => (μ' ω).get [p] - (μ ω).get [p]) = gaussianReal 0 (v.get [p] - v'.get [p]).toNNReal ∧
        ∫ ω, ((μ' ω).get [p] - (μ ω).get [p]) ^ 2 ∂P = v.get [p] - v'.get [p] := by
  obtain ⟨q, hsm, hq⟩ := hR.smooth
  rw [← hR.scale] at hobs
  exact regress_difference maternGen R R w k' answer' Q hkk hties P G Y
    (C71_matern R hR.made hR.kout hR.fn hR.metric q ν hν hsm hq τ hR.noise hτ w hw Q m len hR.lengths hQ hm hk0 (hkk.trans hkN) hd hnew P G Y hobs)
    (C71_matern R hR.made hR.kout hR.fn hR.metric q ν hν hsm hq τ hR.noise hτ { w with nnCount := k', answer := answer' } hw' Q m len hR.lengths hQ hm
      (hk0.trans_le hkk) hkN hd hnew P G Y hobs)

end MuyGPyS
