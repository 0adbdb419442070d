import Verif.Props.FullGP
import Verif.Props.ErrorBound
import Verif.Spec.Replicates

/-!
# C100: repeated measurements count as their average
-/

namespace MuyGPyS
open Py Matrix

/-- Kriging with repeated sites is kriging with averaged sites. -/
theorem kriging_replicates {N M : Nat} (site : Fin N → Fin M) (hsurj : ∀ m, ∃ i, site i = m) (K : Matrix (Fin M) (Fin M) ℝ)
    (τ : Fin N → ℝ) (hτ : ∀ i, 0 < τ i) (c : Fin M → ℝ) (y : Fin N → ℝ)
    (A : Matrix (Fin N) (Fin N) ℝ) (hA : A = K.submatrix site site + diagonal τ) (hApd : A.PosDef)
    (B : Matrix (Fin M) (Fin M) ℝ) (hB : B = K + diagonal fun m => 1 / ∑ i with site i = m, 1 / τ i) (hBpd : B.PosDef) :
    Spec.krigingMean A (c ∘ site) y =
      Spec.krigingMean B c (fun m => (∑ i with site i = m, y i / τ i) / ∑ i with site i = m, 1 / τ i) ∧
      Spec.krigingVar 1 A (c ∘ site) = Spec.krigingVar 1 B c := by
  set P : Fin M → ℝ := fun m => ∑ i with site i = m, 1 / τ i with hP
  have hPpos : ∀ m, 0 < P m := fun m => by
    obtain ⟨i, hi⟩ := hsurj m
    refine Finset.sum_pos (fun j _ => one_div_pos.mpr (hτ j)) ⟨i, by simp [hi]⟩
  set g : Fin M → ℝ := B⁻¹ *ᵥ c with hg
  have hBg : B *ᵥ g = c := Kriging.mulVec_inv_cancel (Kriging.det_ne_zero hBpd) c
  -- sums over measurements, site by site
  have hfib : ∀ h : Fin M → Fin N → ℝ, ∑ i, h (site i) i = ∑ m, ∑ i with site i = m, h m i := fun h => by
    rw [← Finset.sum_fiberwise Finset.univ site]
    refine Finset.sum_congr rfl fun m _ => Finset.sum_congr rfl fun i hi => ?_
    rw [(Finset.mem_filter.mp hi).2]
  set u : Fin N → ℝ := fun i => g (site i) / (P (site i) * τ i) with hu
  have hdot : ∀ h : Fin M → ℝ, ∑ i, h (site i) * u i = ∑ m, h m * g m := fun h => by
    rw [hfib fun m i => h m * (g m / (P m * τ i))]
    refine Finset.sum_congr rfl fun m _ => ?_
    rw [← Finset.mul_sum]
    congr 1
    have : ∀ i, g m / (P m * τ i) = g m / P m * (1 / τ i) := fun i => by
      rw [div_mul_div_comm, mul_one]
    simp only [this]
    rw [← Finset.mul_sum]
    exact div_mul_cancel₀ _ (hPpos m).ne'
  have hAu : A *ᵥ u = c ∘ site := by
    funext i
    rw [hA, add_mulVec, Pi.add_apply, mulVec_diagonal]
    have h1 : (K.submatrix site site *ᵥ u) i = (K *ᵥ g) (site i) := hdot fun m => K (site i) m
    have h2 : τ i * u i = 1 / P (site i) * g (site i) := by
      simp only [hu]
      have := (hτ i).ne'
      have := (hPpos (site i)).ne'
      field_simp
    rw [h1, h2]
    have h3 := congrFun hBg (site i)
    rw [hB, add_mulVec, Pi.add_apply, mulVec_diagonal] at h3
    exact h3
  have hw : A⁻¹ *ᵥ (c ∘ site) = u := by
    rw [← hAu, Kriging.inv_mulVec_cancel (Kriging.det_ne_zero hApd)]
  constructor
  · unfold Spec.krigingMean
    rw [← Kriging.swap (Kriging.posdef_symm hApd), hw, ← Kriging.swap (Kriging.posdef_symm hBpd)]
    show ∑ i, g (site i) / (P (site i) * τ i) * y i = ∑ m, g m * _
    rw [hfib fun m i => g m / (P m * τ i) * y i]
    refine Finset.sum_congr rfl fun m _ => ?_
    rw [← mul_div_assoc, Finset.mul_sum, Finset.sum_div]
    refine Finset.sum_congr rfl fun i _ => ?_
    have := (hτ i).ne'
    have := (hPpos m).ne'
    show g m / (P m * τ i) * y i = g m * (y i / τ i) / P m
    field_simp
  · unfold Spec.krigingVar
    rw [hw]
    congr 1
    refine Eq.trans ?_ (hdot c)
    rfl

theorem fullCov_psd (bessel : Flt → ℝ → ℝ) (k : KernelObj) (hk : k.fn.Suits k.deform.metric) {f : Nat} (len : Fin f → ℝ) (X : Tensor ℝ) (N : Nat) :
    (fullCov bessel k len X N).PosSemidef := by
  refine PosSemidef.of_dotProduct_mulVec_nonneg ?_ fun d => ?_
  · ext i j
    simp only [fullCov, conjTranspose_apply, star_trivial]
    exact covFn_comm ..
  · refine (covFn_psd bessel k hk len (fun i : Fin N => rowPt X f i) d).trans_eq ?_
    simp only [star_trivial, dotProduct, mulVec, fullCov, Finset.mul_sum]
    refine Finset.sum_congr rfl fun i _ => Finset.sum_congr rfl fun j _ => ?_
    ring

theorem fullCov_diagonal_posdef (bessel : Flt → ℝ → ℝ) (k : KernelObj) (hk : k.fn.Suits k.deform.metric) {f : Nat} (len : Fin f → ℝ) (X : Tensor ℝ) (N : Nat)
    (τ : Fin N → ℝ) (hτ : ∀ i, 0 < τ i) : (fullCov bessel k len X N + diagonal τ).PosDef :=
  PosDef.posSemidef_add (fullCov_psd bessel k hk len X N) (PosDef.diagonal hτ)

/-- The formulas of the two models agree. -/
theorem averaged_formulas (bessel : Flt → ℝ → ℝ) (k : KernelObj) (hk : k.fn.Suits k.deform.metric) {f : Nat} (len : Fin f → ℝ) {N M : Nat}
    {X Y noise Z Ybar T : Tensor ℝ} {site : Fin N → Fin M} (h : Averaged N M f X Y noise Z Ybar T site) (hpos : ∀ i < N, 0 < noise.get [i]) (q : Fin f → ℝ) :
    (∀ m < M, 0 < T.get [m]) ∧
    Spec.krigingMean (fullCov bessel k len X N + diagonal (responses noise N)) (fullCross bessel k len X N q) (responses Y N) =
      Spec.krigingMean (fullCov bessel k len Z M + diagonal (responses T M)) (fullCross bessel k len Z M q) (responses Ybar M) ∧
    Spec.krigingVar 1 (fullCov bessel k len X N + diagonal (responses noise N)) (fullCross bessel k len X N q) =
      Spec.krigingVar 1 (fullCov bessel k len Z M + diagonal (responses T M)) (fullCross bessel k len Z M q) := by
  have hn : ∀ i : Fin N, 0 < responses noise N i := fun i => hpos i i.2
  have hT : ∀ m : Fin M, 0 < responses T M m := fun m => by
    show 0 < T.get [(m : Nat)]
    rw [h.variances m]
    obtain ⟨i, hi⟩ := h.measured m
    exact one_div_pos.mpr (Finset.sum_pos (fun j _ => one_div_pos.mpr (hn j)) ⟨i, by simp [hi]⟩)
  have e1 : fullCov bessel k len X N = (fullCov bessel k len Z M).submatrix site site := by
    ext i j
    simp only [fullCov, submatrix_apply, h.points]
  have e2 : fullCross bessel k len X N q = fullCross bessel k len Z M q ∘ site := by
    funext i
    simp only [fullCross, Function.comp_apply, h.points]
  have e3 : responses T M = fun m => 1 / ∑ i with site i = m, 1 / responses noise N i := funext fun m => h.variances m
  have e4 : responses Ybar M = fun m => (∑ i with site i = m, responses Y N i / responses noise N i) / ∑ i with site i = m, 1 / responses noise N i :=
    funext fun m => h.averages m
  refine ⟨fun m hm => hT ⟨m, hm⟩, ?_⟩
  have := kriging_replicates site h.measured (fullCov bessel k len Z M) (responses noise N) hn (fullCross bessel k len Z M q) (responses Y N)
    (fullCov bessel k len X N + diagonal (responses noise N)) (by rw [e1]) (fullCov_diagonal_posdef bessel k hk len X N _ hn)
    (fullCov bessel k len Z M + diagonal (responses T M)) (by rw [e3]) (fullCov_diagonal_posdef bessel k hk len Z M _ hT)
  rw [e2, e4]
  exact this

/-- **C100**, measurements with individual noise variances (all training points are neighbours): the model of all the measurements and the model of one averaged measurement per site predict the same. -/
theorem C100_averaged (bessel : Flt → ℝ → ℝ) (R R' : Regressor) (hker : R'.kernel = R.kernel) (hsc : R'.gp.boundScale = R.gp.boundScale)
    (hk : R.kernel.make = R.kernel) (hko : R.gp.kout = KernelObj.kout) (hko' : R'.gp.kout = KernelObj.kout)
    (hsuit : R.kernel.fn.Suits R.kernel.deform.metric)
    (w w' : NNWrapper) (hw : w.Exact) (hw' : w'.Exact) (hall : w.nnCount = w.N) (hall' : w'.nnCount = w'.N) (hN : 0 < w.N) (hf : w'.f = w.f)
    (len : Fin w.f → ℝ) (hlen : R.kernel.deform.HasLengths w.f len)
    (m : Nat) (hm : 0 < m) (Q : Tensor ℝ) (hQ : Q.shape = [m, w.f])
    (Y noise Ybar T : Tensor ℝ) (hY : Y.shape = [w.N]) (hn : noise.shape = [w.N]) (hYb : Ybar.shape = [w'.N]) (hT : T.shape = [w'.N])
    (hpos : ∀ i < w.N, 0 < noise.get [i]) (site : Fin w.N → Fin w'.N) (h : Averaged w.N w'.N w.f w.train Y noise w'.train Ybar T site)
    (nn nn' : Tensor Int) (D D' S S' : Tensor ℝ) (hnn : w.getNns Q = .ok (nn, D)) (hnn' : w'.getNns Q = .ok (nn', D'))
    (hS : makeHeteroscedasticTensor noise nn = .ok S) (hS' : makeHeteroscedasticTensor T nn' = .ok S')
    (hR : R.gp.noise = .heteroscedastic S) (hR' : R'.gp.noise = .heteroscedastic S') :
    ∃ μ v μ' v', regressAny bessel R w Q w.train Y = .ok (μ, v) ∧ regressAny bessel R' w' Q w'.train Ybar = .ok (μ', v') ∧
      μ.shape = [m] ∧ μ'.shape = [m] ∧ v.shape = [m] ∧ v'.shape = [m] ∧ ∀ p < m, μ'.get [p] = μ.get [p] ∧ v'.get [p] = v.get [p] := by
  obtain ⟨N, f, X, k, dist, sq, answer⟩ := w
  obtain ⟨M, f', Z, k', dist', sq', answer'⟩ := w'
  dsimp only at hall hall' hN hf hQ len hlen hY hn hYb hT hpos site h ⊢
  subst hf
  have hM : 0 < M := Nat.lt_of_le_of_lt (Nat.zero_le _) (site ⟨0, hN⟩).2
  have hA := fun q => averaged_formulas bessel R.kernel hsuit len h hpos q
  obtain ⟨μ, v, r1, r2, r3, r4⟩ := C89_heteroscedastic bessel R hk hko hsuit _ hw hall Q Y m len hlen hQ hY hm hN noise hn nn D S hnn hS hR (.inl hpos)
  obtain ⟨μ', v', s1, s2, s3, s4⟩ := C89_heteroscedastic bessel R' (by rw [hker]; exact hk) hko' (by rw [hker]; exact hsuit) _ hw' hall' Q Ybar m len
    (by rw [hker]; exact hlen) hQ hYb hm hM T hT nn' D' S' hnn' hS' hR' (.inl (hA fun _ => 0).1)
  refine ⟨μ, v, μ', v', r1, s1, r2, s2, r3, s3, fun p hp => ?_⟩
  obtain ⟨a1, a2⟩ := r4 p hp
  obtain ⟨b1, b2⟩ := s4 p hp
  obtain ⟨-, c1, c2⟩ := hA (rowPt Q f' p)
  dsimp only at a1 a2 b1 b2
  rw [hker] at b1 b2
  rw [hsc] at b2
  exact ⟨by rw [b1, a1, c1], by rw [b2, a2, c2]⟩

/-- **C100**, measurements with one noise variance `τ`, as many at each site: the model of all the measurements and the model of one measurement per site, their mean, with the noise variance
`τ` divided by their number, predict the same. -/
theorem C100_equal_counts (bessel : Flt → ℝ → ℝ) (R R' : Regressor) (hker : R'.kernel = R.kernel) (hsc : R'.gp.boundScale = R.gp.boundScale)
    (hk : R.kernel.make = R.kernel) (hko : R.gp.kout = KernelObj.kout) (hko' : R'.gp.kout = KernelObj.kout)
    (hsuit : R.kernel.fn.Suits R.kernel.deform.metric)
    (w w' : NNWrapper) (hw : w.Exact) (hw' : w'.Exact) (hall : w.nnCount = w.N) (hall' : w'.nnCount = w'.N) (hN : 0 < w.N) (hf : w'.f = w.f)
    (len : Fin w.f → ℝ) (hlen : R.kernel.deform.HasLengths w.f len)
    (m : Nat) (hm : 0 < m) (Q : Tensor ℝ) (hQ : Q.shape = [m, w.f])
    (Y Ybar : Tensor ℝ) (hY : Y.shape = [w.N]) (hYb : Ybar.shape = [w'.N]) (τ : ℝ) (hτ : 0 < τ) (count : Nat) (hcount : 0 < count)
    (hR : R.gp.noise.Level τ) (hR' : R'.gp.noise.Level (τ / count)) (site : Fin w.N → Fin w'.N)
    (hsite : ∀ s, (Finset.univ.filter fun i => site i = s).card = count) (hpts : ∀ i : Fin w.N, rowPt w.train w.f i = rowPt w'.train w.f (site i))
    (hmean : ∀ s : Fin w'.N, Ybar.get [s] = (∑ i with site i = s, Y.get [i]) / count) :
    ∃ μ v μ' v', regressAny bessel R w Q w.train Y = .ok (μ, v) ∧ regressAny bessel R' w' Q w'.train Ybar = .ok (μ', v') ∧
      μ.shape = [m] ∧ μ'.shape = [m] ∧ v.shape = [m] ∧ v'.shape = [m] ∧ ∀ p < m, μ'.get [p] = μ.get [p] ∧ v'.get [p] = v.get [p] := by
  obtain ⟨N, f, X, k, dist, sq, answer⟩ := w
  obtain ⟨M, f', Z, k', dist', sq', answer'⟩ := w'
  dsimp only at hall hall' hN hf hQ len hlen hY hYb site hsite hpts hmean ⊢
  subst hf
  have hM : 0 < M := Nat.lt_of_le_of_lt (Nat.zero_le _) (site ⟨0, hN⟩).2
  have hc : (0 : ℝ) < count := Nat.cast_pos.mpr hcount
  have h : Averaged N M f' X Y ⟨[N], fun _ => τ⟩ Z Ybar ⟨[M], fun _ => τ / count⟩ site := by
    refine ⟨fun s => ?_, hpts, fun s => ?_, fun s => ?_⟩
    · have : (Finset.univ.filter fun i => site i = s).Nonempty := by rw [← Finset.card_pos, hsite]; exact hcount
      obtain ⟨i, hi⟩ := this
      exact ⟨i, (Finset.mem_filter.mp hi).2⟩
    · simp only [Tensor.get1 (⟨[N], fun _ => τ⟩ : Tensor ℝ) rfl, Tensor.get1 (⟨[M], fun _ => τ / count⟩ : Tensor ℝ) rfl, Finset.sum_const, hsite, nsmul_eq_mul]
      field_simp
    · simp only [Tensor.get1 (⟨[N], fun _ => τ⟩ : Tensor ℝ) rfl, Finset.sum_const, hsite, nsmul_eq_mul]
      rw [hmean, ← Finset.sum_div]
      field_simp
  have hA := fun q => averaged_formulas bessel R.kernel hsuit len h (fun i _ => by rw [Tensor.get1 _ rfl]; exact hτ) q
  have hd : ∀ (n : Nat) (t : ℝ), diagonal (responses (⟨[n], fun _ => t⟩ : Tensor ℝ) n) = t • (1 : Matrix (Fin n) (Fin n) ℝ) := fun n t => by
    rw [smul_one_eq_diagonal]
    congr 1
  simp only [hd] at hA
  obtain ⟨μ, v, r1, r2, r3, r4⟩ := C89_regress bessel R hk hko hsuit _ hw hall Q Y m len hlen hQ hY hm hN τ hR (.inl hτ)
  obtain ⟨μ', v', s1, s2, s3, s4⟩ := C89_regress bessel R' (by rw [hker]; exact hk) hko' (by rw [hker]; exact hsuit) _ hw' hall' Q Ybar m len
    (by rw [hker]; exact hlen) hQ hYb hm hM (τ / count) hR' (.inl (by positivity))
  refine ⟨μ, v, μ', v', r1, s1, r2, s2, r3, s3, fun p hp => ?_⟩
  obtain ⟨a1, a2⟩ := r4 p hp
  obtain ⟨b1, b2⟩ := s4 p hp
  obtain ⟨-, c1, c2⟩ := hA (rowPt Q f' p)
  dsimp only at a1 a2 b1 b2
  rw [hker] at b1 b2
  rw [hsc] at b2
  exact ⟨by rw [b1, a1, c1], by rw [b2, a2, c2]⟩

end MuyGPyS
