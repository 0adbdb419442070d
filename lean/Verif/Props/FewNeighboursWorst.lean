import Verif.Props.ErrorBound
import Verif.Props.FreeSmoothnessMore
import Verif.Props.FewNeighbours
import Verif.Spec.FewNeighbours

/-! # C119: the price of using few neighbours, whatever the function -/

namespace MuyGPyS
open Py Matrix

/-- Fewer weights, placed where they belong among more. -/
noncomputable def placed {k k' : Nat} (e : Fin k → Fin k') (u : Fin k → ℝ) (i : Fin k') : ℝ := ∑ j, if e j = i then u j else 0

theorem placed_dot {k k' : Nat} (e : Fin k → Fin k') (u : Fin k → ℝ) (y : Fin k' → ℝ) : placed e u ⬝ᵥ y = u ⬝ᵥ (y ∘ e) := by
  simp only [dotProduct, placed, Finset.sum_mul, Function.comp_apply]
  rw [Finset.sum_comm]
  refine Finset.sum_congr rfl fun j _ => ?_
  simp

theorem placed_quad {k k' : Nat} (e : Fin k → Fin k') (u : Fin k → ℝ) (A : Matrix (Fin k') (Fin k') ℝ) :
    placed e u ⬝ᵥ (A *ᵥ placed e u) = u ⬝ᵥ (A.submatrix e e *ᵥ u) := by
  rw [placed_dot]
  congr 1
  funext j
  show A (e j) ⬝ᵥ placed e u = (fun i => A (e j) (e i)) ⬝ᵥ u
  rw [dotProduct_comm, placed_dot, dotProduct_comm]
  rfl

/-- Two kriging predictions, one from some of the observations of the other: their difference is a combination of the observations, whose quadratic
form is the difference of the kriging variances. -/
theorem kriging_price {k k' : Nat} {A : Matrix (Fin k') (Fin k') ℝ} (hA : A.PosDef) (e : Fin k → Fin k') (he : Function.Injective e)
    (c : Fin k' → ℝ) (b : ℝ) : ∃ d : Fin k' → ℝ,
      (∀ y, Spec.krigingMean A c y - Spec.krigingMean (A.submatrix e e) (c ∘ e) (y ∘ e) = d ⬝ᵥ y) ∧
      Spec.krigingVar b (A.submatrix e e) (c ∘ e) - Spec.krigingVar b A c = d ⬝ᵥ (A *ᵥ d) := by
  have hB : (A.submatrix e e).PosDef := hA.submatrix he
  set B := A.submatrix e e with hBd
  set g := A⁻¹ *ᵥ c with hg
  set u := B⁻¹ *ᵥ (c ∘ e) with hu
  have hAg : A *ᵥ g = c := Kriging.mulVec_inv_cancel (Kriging.det_ne_zero hA) _
  have hBu : B *ᵥ u = c ∘ e := Kriging.mulVec_inv_cancel (Kriging.det_ne_zero hB) _
  refine ⟨g - placed e u, fun y => ?_, ?_⟩
  · rw [Spec.krigingMean, Spec.krigingMean, ← Kriging.swap (Kriging.posdef_symm hA), ← Kriging.swap (Kriging.posdef_symm hB), sub_dotProduct,
      placed_dot]
  · have h1 : placed e u ⬝ᵥ (A *ᵥ g) = (c ∘ e) ⬝ᵥ u := by rw [hAg, placed_dot, dotProduct_comm]
    have h2 : g ⬝ᵥ (A *ᵥ placed e u) = (c ∘ e) ⬝ᵥ u := by rw [Kriging.quad_symm (Kriging.posdef_symm hA), h1]
    have h3 : placed e u ⬝ᵥ (A *ᵥ placed e u) = (c ∘ e) ⬝ᵥ u := by rw [placed_quad, ← hBd, hBu, dotProduct_comm]
    have h4 : g ⬝ᵥ (A *ᵥ g) = c ⬝ᵥ g := by rw [hAg, dotProduct_comm]
    rw [mulVec_sub, sub_dotProduct, dotProduct_sub, dotProduct_sub, h1, h2, h3, h4, Spec.krigingVar, Spec.krigingVar, ← hg, ← hu]
    ring

/-- The difference of two kriging predictions from responses `y' i`, which differ from the values of `g`, of energy at most `E`. -/
theorem kriging_price_error {X : Type*} {κ : X → X → ℝ} {k k' : Nat} (x' : Fin k' → X) (q : X) {τ : ℝ} (hτ : 0 ≤ τ)
    (hA : ((Matrix.of fun i j => κ (x' i) (x' j)) + τ • (1 : Matrix (Fin k') (Fin k') ℝ)).PosDef) (e : Fin k → Fin k') (he : Function.Injective e)
    (hpsd : (Matrix.of fun i j => κ (x' i) (x' j)).PosSemidef) :
    let M' := fun y => Spec.krigingMean ((Matrix.of fun i j => κ (x' i) (x' j)) + τ • (1 : Matrix (Fin k') (Fin k') ℝ)) (fun j => κ q (x' j)) y
    let M := fun y : Fin k' → ℝ => Spec.krigingMean ((Matrix.of fun i j => κ (x' (e i)) (x' (e j))) + τ • (1 : Matrix (Fin k) (Fin k) ℝ))
      (fun j => κ q (x' (e j))) (y ∘ e)
    let V' := Spec.krigingVar 1 ((Matrix.of fun i j => κ (x' i) (x' j)) + τ • (1 : Matrix (Fin k') (Fin k') ℝ)) (fun j => κ q (x' j))
    let V := Spec.krigingVar 1 ((Matrix.of fun i j => κ (x' (e i)) (x' (e j))) + τ • (1 : Matrix (Fin k) (Fin k) ℝ)) (fun j => κ q (x' (e j)))
    (∀ (E : ℝ) (g : X → ℝ) (y : Fin k' → ℝ), 0 ≤ E → Spec.EnergyAtMost κ E g → (0 < τ ∨ ∀ i, y i = g (x' i)) →
      (M' y - M y) ^ 2 ≤ (E + (∑ i, (y i - g (x' i)) ^ 2) / τ) * (V - V')) ∧
    ∃ d : Fin k' → ℝ, (∑ i, ∑ j, d i * d j * κ (x' i) (x' j)) + τ * ∑ i, d i ^ 2 = V - V' ∧
      ∀ y : Fin k' → ℝ, (∀ i, y i = (∑ j, d j * κ (x' i) (x' j)) + τ * d i) → M' y - M y = V - V' := by
  intro M' M V' V
  have hsub : ((Matrix.of fun i j => κ (x' i) (x' j)) + τ • (1 : Matrix (Fin k') (Fin k') ℝ)).submatrix e e =
      (Matrix.of fun i j => κ (x' (e i)) (x' (e j))) + τ • (1 : Matrix (Fin k) (Fin k) ℝ) := by
    ext i j
    simp only [submatrix_apply, Matrix.add_apply, Matrix.smul_apply, Matrix.one_apply, he.eq_iff, of_apply]
  obtain ⟨d, h1, h2⟩ := kriging_price hA e he (fun j => κ q (x' j)) 1
  rw [hsub] at h2
  have hM : ∀ y, M' y - M y = ∑ i, d i * y i := fun y => by
    have := h1 y
    rw [hsub] at this
    exact this
  have hV : V - V' = (∑ i, ∑ j, d i * d j * κ (x' i) (x' j)) + τ * ∑ i, d i ^ 2 := by
    refine h2.trans ?_
    rw [add_mulVec, dotProduct_add, smul_mulVec, one_mulVec, dotProduct_smul, smul_eq_mul]
    congr 1
    · simp only [dotProduct, mulVec, of_apply, Finset.mul_sum]
      exact Finset.sum_congr rfl fun i _ => Finset.sum_congr rfl fun j _ => by ring
    · rw [dotProduct]
      simp only [sq]
  refine ⟨fun E g y hE hg hy => ?_, d, hV.symm, fun y hy => ?_⟩
  · have h3 : 0 ≤ ∑ i, ∑ j, d i * d j * κ (x' i) (x' j) := by
      have := hpsd.dotProduct_mulVec_nonneg d
      refine this.trans_eq ?_
      simp only [star_trivial, dotProduct, mulVec, of_apply, Finset.mul_sum]
      exact Finset.sum_congr rfl fun i _ => Finset.sum_congr rfl fun j _ => by ring
    have hd2 : 0 ≤ ∑ i, d i ^ 2 := Finset.sum_nonneg fun _ _ => sq_nonneg _
    have hy2 : 0 ≤ ∑ i, (y i - g (x' i)) ^ 2 := Finset.sum_nonneg fun _ _ => sq_nonneg _
    have h4 := hg k' x' d
    have e1 : M' y - M y = ∑ i, d i * g (x' i) + ∑ i, d i * (y i - g (x' i)) := by
      rw [hM, ← Finset.sum_add_distrib]
      exact Finset.sum_congr rfl fun i _ => by ring
    rw [e1, hV]
    refine sq_add_le hE (div_nonneg hy2 hτ) h3 (mul_nonneg hτ hd2) h4 ?_
    rcases hy with hτ' | hy
    · have h := Finset.sum_mul_sq_le_sq_mul_sq Finset.univ d fun i => y i - g (x' i)
      refine h.trans_eq ?_
      field_simp
    · simp only [hy, sub_self, mul_zero, Finset.sum_const_zero]
      norm_num
  · rw [hM, hV]
    simp only [hy, mul_add, Finset.mul_sum, Finset.sum_add_distrib]
    congr 1
    · exact Finset.sum_congr rfl fun i _ => Finset.sum_congr rfl fun j _ => by ring
    · exact Finset.sum_congr rfl fun i _ => by ring

/-- Predictions are kriging with the covariance function `κ`, noise variance `τ` and scale `σ` from the nearest training points. -/
def PredictsWith (bs : Flt → ℝ → ℝ) (R : Regressor) (w : NNWrapper) (Q : Tensor ℝ) (m : Nat) (κ : (Fin w.f → ℝ) → (Fin w.f → ℝ) → ℝ) (τ σ : ℝ) :
    Prop :=
  ∃ nb : Nat → Fin w.nnCount → Nat,
    (∀ p < m, Nearest (· < w.N) (fun j => w.dist (rowPt Q w.f p) (rowPt w.train w.f j)) w.nnCount (List.ofFn (nb p))) ∧
    (∀ p < m, ((Matrix.of fun i j => κ (rowPt w.train w.f (nb p i)) (rowPt w.train w.f (nb p j))) +
      τ • (1 : Matrix (Fin w.nnCount) (Fin w.nnCount) ℝ)).PosDef) ∧
    ∀ Y : Tensor ℝ, Y.shape = [w.N] → ∃ μ v, regressAny bs R w Q w.train Y = .ok (μ, v) ∧ μ.shape = [m] ∧ v.shape = [m] ∧
      ∀ p < m, μ.get [p] = Spec.krigingMean ((Matrix.of fun i j => κ (rowPt w.train w.f (nb p i)) (rowPt w.train w.f (nb p j))) +
          τ • (1 : Matrix (Fin w.nnCount) (Fin w.nnCount) ℝ)) (fun j => κ (rowPt Q w.f p) (rowPt w.train w.f (nb p j))) (fun j => Y.get [nb p j]) ∧
        v.get [p] = σ * Spec.krigingVar 1 ((Matrix.of fun i j => κ (rowPt w.train w.f (nb p i)) (rowPt w.train w.f (nb p j))) +
          τ • (1 : Matrix (Fin w.nnCount) (Fin w.nnCount) ℝ)) (fun j => κ (rowPt Q w.f p) (rowPt w.train w.f (nb p j)))

theorem nearest_ofFn {w : NNWrapper} {nn : Tensor Int} {p : Nat} {l : List Nat} {d : Nat → ℝ} (e1 : rowList nn w.nnCount p = l.map Int.ofNat)
    (e2 : Nearest (· < w.N) d w.nnCount l) :
    Nearest (· < w.N) d w.nnCount (List.ofFn fun j : Fin w.nnCount => pointOf w.N (nn.get [p, j])) := by
  have : (List.ofFn fun j : Fin w.nnCount => pointOf w.N (nn.get [p, j])) = l := by
    refine List.ext_getElem (by rw [List.length_ofFn, e2.length]) fun i h1 h2 => ?_
    rw [List.length_ofFn] at h1
    obtain ⟨x, x1, x2⟩ := rowList_get e1 h1
    rw [List.getElem?_eq_getElem h2] at x1
    rw [List.getElem_ofFn, Option.some.inj x1, x2, pointOf_nat]
  rw [this]
  exact e2

theorem nbrTargets_get {w : NNWrapper} {Y : Tensor ℝ} (hY : Y.shape = [w.N]) (nn : Tensor Int) (p : Nat) :
    nbrTargets Y w.N w.nnCount nn p 0 = fun j : Fin w.nnCount => Y.get [pointOf w.N (nn.get [p, j])] := by
  funext j
  simp only [nbrTargets, feature, hY]

theorem predictsWith_closed (bs : Flt → ℝ → ℝ) (R : Regressor) (hk : R.kernel.make = R.kernel) (hko : R.gp.kout = KernelObj.kout)
    (hsuit : R.kernel.fn.Suits R.kernel.deform.metric) (w : NNWrapper) (hw : w.Exact) (Q : Tensor ℝ) (m : Nat) (len : Fin w.f → ℝ)
    (hlen : R.kernel.deform.HasLengths w.f len) (hQ : Q.shape = [m, w.f]) (hm : 0 < m) (hk0 : 0 < w.nnCount) (hkN : w.nnCount ≤ w.N)
    (τ : ℝ) (hτ : R.gp.noise.Level τ) (hreg : 0 < τ ∨ (0 ≤ τ ∧ DistinctRows w.train w.N w.f)) :
    PredictsWith bs R w Q m (R.kernel.covFn bs len) τ R.gp.boundScale := by
  obtain ⟨nn, h1, h2, h3⟩ := regress_cases_uniform bs R hk hko w hw Q m len hlen hQ hm hk0 hkN (hτ.fits _ _)
  have hrow : ∀ x, pt w.train w.f x = rowPt w.train w.f x := rowPt_pt hw.1
  have hpos := hasLengths_pos hlen
  have hpd : ∀ p < m, (nbrCov bs R.kernel len w.train w.N w.nnCount nn p + R.gp.noise.mat w.nnCount p).PosDef := fun p hp => by
    obtain ⟨l, e1, e2⟩ := h1 p hp
    have hdef := nbrCov_definite bs R.kernel hsuit len hpos w.train w.N w.nnCount nn p
    exact Noise.posdef_of_suffices (((hτ.suffices_iff m w.nnCount _).mpr hreg).mono fun hd => distinct_of_nodup e1 e2.nodup e2.mem hd) hp hdef.1 hdef.2
  have eK : ∀ p, nbrCov bs R.kernel len w.train w.N w.nnCount nn p + R.gp.noise.mat w.nnCount p =
      (Matrix.of fun i j : Fin w.nnCount => R.kernel.covFn bs len (rowPt w.train w.f (pointOf w.N (nn.get [p, i])))
        (rowPt w.train w.f (pointOf w.N (nn.get [p, j])))) + τ • (1 : Matrix (Fin w.nnCount) (Fin w.nnCount) ℝ) := by
    intro p
    rw [hτ.mat]
    congr 1
    ext i j
    simp only [nbrCov, of_apply, hrow]
  have ek : ∀ p, nbrCross bs R.kernel len w.train w.N w.nnCount nn p (rowPt Q w.f p) =
      fun j : Fin w.nnCount => R.kernel.covFn bs len (rowPt Q w.f p) (rowPt w.train w.f (pointOf w.N (nn.get [p, j]))) := by
    intro p; ext j
    simp only [nbrCross, hrow]
  refine ⟨fun p j => pointOf w.N (nn.get [p, j]), fun p hp => ?_, fun p hp => eK p ▸ hpd p hp, fun Y hY => ?_⟩
  · obtain ⟨l, e1, e2⟩ := h1 p hp
    exact nearest_ofFn e1 e2
  · rcases h3 Y hY with ⟨⟨p, hp, hd⟩, -⟩ | ⟨-, μ, v, r1, r2, r3, r4⟩
    · exact absurd hd (Kriging.det_ne_zero (hpd p hp))
    · refine ⟨μ, v, r1, r2, r3, fun p hp => ?_⟩
      have := r4 p hp
      rwa [eK, ek, nbrTargets_get hY] at this

theorem predictsWith_gen (R : Regressor) (w : NNWrapper) (hw : w.Exact) (Q : Tensor ℝ) (m : Nat) (ν τ σ : ℝ) (len : Fin w.f → ℝ)
    (hR : R.GeneralMatern ν len τ σ) (hν : 0 < ν) (hτ : deficit ν < τ) (hQ : Q.shape = [m, w.f]) (hm : 0 < m) (hk0 : 0 < w.nnCount)
    (hkN : w.nnCount ≤ w.N) (hd : DistinctRows w.train w.N w.f) (hnew : w.New Q m) :
    PredictsWith maternGen R w Q m (maternProcess ν len) (τ - deficit ν) σ := by
  obtain ⟨nn, h1, h2, h3⟩ := C118_true_process R w hw Q m ν τ σ len hR hν hτ hQ hm hk0 hkN hd hnew
  refine ⟨fun p j => pointOf w.N (nn.get [p, j]), fun p hp => ?_, fun p hp => ?_, fun Y hY => ?_⟩
  · obtain ⟨l, e1, e2⟩ := h1 p hp
    exact nearest_ofFn e1 e2
  · exact Kriging.posdef_of_psd_add (trueCov_psd hν w len (hasLengths_pos hR.lengths) nn p) (sub_pos.mpr hτ)
  · obtain ⟨μ, v, r1, r2, r3, r4⟩ := h3 Y hY
    refine ⟨μ, v, r1, r2, r3, fun p hp => ?_⟩
    have := r4 p hp
    rwa [nbrTargets_get hY] at this

theorem price_bound (bs : Flt → ℝ → ℝ) (R : Regressor) (w : NNWrapper) (k' : Nat) (answer' : (Fin w.f → ℝ) → Nat → List Nat) (Q : Tensor ℝ) (m : Nat)
    (hkk : w.nnCount ≤ k') (hties : w.NoTies Q m ∨ k' = w.N) (κ : (Fin w.f → ℝ) → (Fin w.f → ℝ) → ℝ) (hs : ∀ x y, κ x y = κ y x) (h1 : ∀ x, κ x x = 1)
    (hp : ∀ (n : Nat) (x : Fin n → Fin w.f → ℝ) (d : Fin n → ℝ), 0 ≤ ∑ i, ∑ j, d i * d j * κ (x i) (x j)) (τ σ : ℝ) (hτ : 0 ≤ τ) (hσ : 0 < σ)
    (h : PredictsWith bs R w Q m κ τ σ) (h' : PredictsWith bs R { w with nnCount := k', answer := answer' } Q m κ τ σ) :
    PriceBound bs R w { w with nnCount := k', answer := answer' } Q m κ τ σ := by
  obtain ⟨nb, n1, n2, n3⟩ := h
  obtain ⟨nb', n1', n2', n3'⟩ := h'
  simp only at nb' n1' n2' n3'
  have hpsd : ∀ p, (Matrix.of fun i j : Fin k' => κ (rowPt w.train w.f (nb' p i)) (rowPt w.train w.f (nb' p j))).PosSemidef := fun p => by
    refine PosSemidef.of_dotProduct_mulVec_nonneg (by ext i j; simp [hs]) fun x => ?_
    refine (hp k' (fun i => rowPt w.train w.f (nb' p i)) x).trans_eq ?_
    simp only [star_trivial, dotProduct, mulVec, of_apply, Finset.mul_sum]
    exact Finset.sum_congr rfl fun i _ => Finset.sum_congr rfl fun j _ => by ring
  have hsub : ∀ p < m, ∃ e : Fin w.nnCount → Fin k', Function.Injective e ∧ ∀ j, nb p j = nb' p (e j) := fun p hp => by
    have hin := nearest_nested (k' := k') (hties.imp (fun ht i hi j hj hij => ht p hp i hi j hj hij) id) hkk (n1 p hp) (n1' p hp)
    have hpos : ∀ j : Fin w.nnCount, ∃ i : Fin k', nb p j = nb' p i := fun j => by
      obtain ⟨i, hi⟩ := List.mem_ofFn.mp (hin _ (List.mem_ofFn.mpr ⟨j, rfl⟩))
      exact ⟨i, hi.symm⟩
    choose e he using hpos
    refine ⟨e, fun a b hab => ?_, he⟩
    have := List.nodup_ofFn.mp (n1 p hp).nodup
    exact this ((he a).trans ((congrArg _ hab).trans (he b).symm))
  have hinj' : ∀ p < m, Function.Injective (nb' p) := fun p hp => List.nodup_ofFn.mp (n1' p hp).nodup
  have hlt' : ∀ p < m, ∀ j, nb' p j < w.N := fun p hp j => (n1' p hp).mem _ (List.mem_ofFn.mpr ⟨j, rfl⟩)
  -- sums over the neighbours and over all training points
  have himg : ∀ p < m, ∀ F : Nat → ℝ, ∑ j, F (nb' p j) = ∑ i ∈ Finset.univ.image (nb' p), F i := fun p hp F =>
    (Finset.sum_image fun a _ b _ hab => hinj' p hp hab).symm
  have himgsub : ∀ p < m, Finset.univ.image (nb' p) ⊆ Finset.range w.N := fun p hp i hi => by
    obtain ⟨j, -, rfl⟩ := Finset.mem_image.mp hi
    exact Finset.mem_range.mpr (hlt' p hp j)
  refine ⟨fun Y hY => ?_, fun p hp0 => ?_⟩
  · obtain ⟨μ, v, r1, r2, r3, r4⟩ := n3 Y hY
    obtain ⟨μ', v', s1, s2, s3, s4⟩ := n3' Y hY
    refine ⟨μ, v, μ', v', r1, s1, r2, r3, s2, s3, fun p hp0 => ?_⟩
    obtain ⟨e, he, hej⟩ := hsub p hp0
    obtain ⟨k1, d, k2, -⟩ := kriging_price_error (κ := κ) (fun i => rowPt w.train w.f (nb' p i)) (rowPt Q w.f p) hτ (n2' p hp0) e he (hpsd p)
    obtain ⟨a1, a2⟩ := r4 p hp0
    obtain ⟨b1, b2⟩ := s4 p hp0
    simp only [hej] at a1 a2
    constructor
    · rw [a2, b2]
      refine mul_le_mul_of_nonneg_left (sub_nonneg.mp ?_) hσ.le
      refine le_of_le_of_eq ?_ k2
      exact add_nonneg (hp _ _ d) (mul_nonneg hτ (Finset.sum_nonneg fun _ _ => sq_nonneg _))
    · intro E g hg hy
      haveI : Nonempty (Fin w.f → ℝ) := ⟨rowPt Q w.f p⟩
      have hE := energy_nonneg h1 hg
      have := k1 E g (fun j => Y.get [nb' p j]) hE hg (hy.imp id fun hy i => hy _ (hlt' p hp0 i))
      rw [a1, a2, b1, b2, ← mul_sub, mul_div_cancel_left₀ _ hσ.ne']
      refine this.trans (mul_le_mul_of_nonneg_right ?_ ?_)
      · refine add_le_add le_rfl (div_le_div_of_nonneg_right ?_ hτ)
        rw [himg p hp0 fun i => (Y.get [i] - g (rowPt w.train w.f i)) ^ 2]
        exact Finset.sum_le_sum_of_subset_of_nonneg (himgsub p hp0) fun _ _ _ => sq_nonneg _
      · refine le_of_le_of_eq ?_ k2
        exact add_nonneg (hp _ _ d) (mul_nonneg hτ (Finset.sum_nonneg fun _ _ => sq_nonneg _))
  · obtain ⟨e, he, hej⟩ := hsub p hp0
    obtain ⟨-, d, k2, k3⟩ := kriging_price_error (κ := κ) (fun i => rowPt w.train w.f (nb' p i)) (rowPt Q w.f p) hτ (n2' p hp0) e he (hpsd p)
    set g := Spec.combination κ (fun i => rowPt w.train w.f (nb' p i)) d with hgd
    have hg := combination_energy hs hp (fun i => rowPt w.train w.f (nb' p i)) d
    -- the residual at a training point
    set res : Nat → ℝ := fun i => ∑ j, if nb' p j = i then τ * d j else 0 with hres
    have hresn : ∀ j, res (nb' p j) = τ * d j := fun j => by
      rw [hres]
      simp only [(hinj' p hp0).eq_iff]
      simp
    have hres0 : ∀ i, i ∉ Finset.univ.image (nb' p) → res i = 0 := fun i hi =>
      Finset.sum_eq_zero fun j _ => if_neg fun hj => hi (Finset.mem_image.mpr ⟨j, Finset.mem_univ _, hj⟩)
    set Y : Tensor ℝ := ⟨[w.N], fun i => g (rowPt w.train w.f i) + res i⟩ with hYd
    have hYg : ∀ i, Y.get [i] = g (rowPt w.train w.f i) + res i := fun i => by
      rw [Tensor.get1 Y rfl]
    obtain ⟨μ, v, r1, r2, r3, r4⟩ := n3 Y rfl
    obtain ⟨μ', v', s1, s2, s3, s4⟩ := n3' Y rfl
    obtain ⟨a1, a2⟩ := r4 p hp0
    obtain ⟨b1, b2⟩ := s4 p hp0
    simp only [hej] at a1 a2
    refine ⟨Y, μ, v, μ', v', _, g, rfl, r1, s1, hg, ?_, ?_, ?_⟩
    · rcases hτ.eq_or_lt with h0 | h0
      · refine .inr fun i _ => ?_
        rw [hYg, hres]
        simp [← h0]
      · exact .inl h0
    · rw [a2, b2, ← mul_sub, mul_div_cancel_left₀ _ hσ.ne', ← k2]
      congr 1
      have hsum : ∑ i ∈ Finset.range w.N, (Y.get [i] - g (rowPt w.train w.f i)) ^ 2 = ∑ j, (τ * d j) ^ 2 := by
        rw [← Finset.sum_subset (himgsub p hp0) fun i _ hi => by rw [hYg, hres0 i hi, add_zero, sub_self, zero_pow two_ne_zero],
          ← himg p hp0 fun i => (Y.get [i] - g (rowPt w.train w.f i)) ^ 2]
        exact Finset.sum_congr rfl fun j _ => by rw [hYg, hresn, add_sub_cancel_left]
      rw [hsum]
      rcases hτ.eq_or_lt with h0 | h0
      · simp [← h0]
      · simp only [mul_pow, ← Finset.mul_sum]
        field_simp
    · rw [a1, a2, b1, b2, ← mul_sub, mul_div_cancel_left₀ _ hσ.ne']
      refine k3 (fun j => Y.get [nb' p j]) fun i => ?_
      rw [hYg, hresn, hgd, Spec.combination]
      congr 1
      exact Finset.sum_congr rfl fun j _ => by rw [hs]

/-- **C119**: whatever the data, the predictions from `nn_count` neighbours and those from more — or all training points, the exact Gaussian process
(C89) — differ by no more than the square root of the difference of the reported variances times what it takes to explain the responses: the energy of
any function, plus its squared residuals over the noise variance. For every test point there are responses for which this is attained. -/
theorem C119_worst (bs : Flt → ℝ → ℝ) (R : Regressor) (hk : R.kernel.make = R.kernel) (hko : R.gp.kout = KernelObj.kout)
    (hsuit : R.kernel.fn.Suits R.kernel.deform.metric) (hs : 0 < R.gp.boundScale) (w : NNWrapper) (hw : w.Exact) (k' : Nat)
    (answer' : (Fin w.f → ℝ) → Nat → List Nat) (hw' : NNWrapper.Exact { w with nnCount := k', answer := answer' }) (Q : Tensor ℝ) (m : Nat)
    (len : Fin w.f → ℝ) (hlen : R.kernel.deform.HasLengths w.f len) (hQ : Q.shape = [m, w.f]) (hm : 0 < m) (hk0 : 0 < w.nnCount)
    (hkk : w.nnCount ≤ k') (hkN : k' ≤ w.N) (hties : w.NoTies Q m ∨ k' = w.N) (τ : ℝ) (hτ : R.gp.noise.Level τ)
    (hreg : 0 < τ ∨ (0 ≤ τ ∧ DistinctRows w.train w.N w.f)) :
    PriceBound bs R w { w with nnCount := k', answer := answer' } Q m (R.kernel.covFn bs len) τ R.gp.boundScale :=
  price_bound bs R w k' answer' Q m hkk hties _ (covFn_comm bs R.kernel len) (covFn_self bs R.kernel hsuit len)
    (fun _ x d => covFn_psd bs R.kernel hsuit len x d) τ _ (hreg.elim (fun h => h.le) fun h => h.1) hs
    (predictsWith_closed bs R hk hko hsuit w hw Q m len hlen hQ hm hk0 (hkk.trans hkN) τ hτ hreg)
    (predictsWith_closed bs R hk hko hsuit { w with nnCount := k', answer := answer' } hw' Q m len hlen hQ hm (hk0.trans_le hkk) hkN τ hτ hreg)

/-- **C119** with the general Matérn implementation. -/
theorem C119_worst_matern (R : Regressor) (ν τ σ : ℝ) (hν : 0 < ν) (hτ : deficit ν < τ) (hσ : 0 < σ)
    (w : NNWrapper) (hw : w.Exact) (k' : Nat) (answer' : (Fin w.f → ℝ) → Nat → List Nat)
    (hw' : NNWrapper.Exact { w with nnCount := k', answer := answer' }) (Q : Tensor ℝ) (m : Nat) (len : Fin w.f → ℝ)
    (hR : R.GeneralMatern ν len τ σ) (hQ : Q.shape = [m, w.f]) (hm : 0 < m) (hk0 : 0 < w.nnCount) (hkk : w.nnCount ≤ k')
    (hkN : k' ≤ w.N) (hties : w.NoTies Q m ∨ k' = w.N) (hd : DistinctRows w.train w.N w.f) (hnew : w.New Q m) :
    PriceBound maternGen R w { w with nnCount := k', answer := answer' } Q m (maternProcess ν len) (τ - deficit ν) σ := by
  have hpos := hasLengths_pos hR.lengths
  refine price_bound maternGen R w k' answer' Q m hkk hties _ (maternProcess_comm ν len) (maternProcess_self ν len) (fun n x d => ?_) _ σ (sub_pos.mpr hτ).le hσ
    (predictsWith_gen R w hw Q m ν τ σ len hR hν hτ hQ hm hk0 (hkk.trans hkN) hd hnew)
    (predictsWith_gen R { w with nnCount := k', answer := answer' } hw' Q m ν τ σ len hR hν hτ hQ hm (hk0.trans_le hkk) hkN hd hnew)
  have := (maternProcess_psd hν len hpos x).dotProduct_mulVec_nonneg d
  simp only [dotProduct, mulVec, star_trivial, Finset.mul_sum, of_apply] at this
  exact this.trans_eq (Finset.sum_congr rfl fun i _ => Finset.sum_congr rfl fun j _ => by ring)

end MuyGPyS
