import Verif.Props.Extremes
import Verif.Props.ErrorBound
import Verif.Spec.Invariance

/-! # C106: what dense data can and cannot achieve -/

namespace MuyGPyS
open Py Matrix Topology

/-- `n` measurements with noise variance `τ` leave at least `τ / (n + τ)` of the variance. -/
theorem kriging_floor {n : Nat} {K : Matrix (Fin n) (Fin n) ℝ} {k : Fin n → ℝ} (hj : (Kriging.joint K k 1).PosSemidef) (hK : K.PosSemidef) {τ : ℝ}
    (hτ : 0 < τ) (hk : ∀ j, |k j| ≤ 1) : τ / (n + τ) ≤ Spec.krigingVar 1 (K + τ • (1 : Matrix (Fin n) (Fin n) ℝ)) k := by
  have hpd : (K + τ • (1 : Matrix (Fin n) (Fin n) ℝ)).PosDef := Kriging.posdef_of_psd_add hK hτ
  set A := K + τ • (1 : Matrix (Fin n) (Fin n) ℝ) with hA
  set x := A⁻¹ *ᵥ k with hx
  set q := k ⬝ᵥ x with hq
  -- `(k ⬝ x)² ≤ x K x`
  have h1 : (k ⬝ᵥ x) ^ 2 ≤ x ⬝ᵥ (K *ᵥ x) := by
    have hd : ∀ t : ℝ, 0 ≤ (x ⬝ᵥ (K *ᵥ x)) * (t * t) + (-(2 * (k ⬝ᵥ x))) * t + 1 := fun t => by
      have h := hj.dotProduct_mulVec_nonneg (Sum.elim (t • x) fun _ => (-1 : ℝ))
      rw [star_trivial, Kriging.joint_quad_eq, mulVec_smul, dotProduct_smul, smul_dotProduct, dotProduct_smul] at h
      simp only [smul_eq_mul] at h
      linarith
    have := discrim_le_zero hd
    unfold discrim at this
    nlinarith
  have hAx : A *ᵥ x = k := Kriging.mulVec_inv_cancel (Kriging.det_ne_zero hpd) k
  have h2 : x ⬝ᵥ (K *ᵥ x) + τ * (x ⬝ᵥ x) = q := by
    have : x ⬝ᵥ (A *ᵥ x) = q := by rw [hAx, dotProduct_comm]
    rw [← this, hA, Kriging.quad_add_smul_one]
  have h3 : q ^ 2 ≤ n * (x ⬝ᵥ x) := by
    have hc := Finset.sum_mul_sq_le_sq_mul_sq Finset.univ k x
    have hkk : ∑ j, k j ^ 2 ≤ n := by
      calc ∑ j, k j ^ 2 ≤ ∑ _ : Fin n, (1 : ℝ) := Finset.sum_le_sum fun j _ => by
            rw [← sq_abs]; exact pow_le_one₀ (abs_nonneg _) (hk j)
        _ = n := by simp
    have hxx : x ⬝ᵥ x = ∑ j, x j ^ 2 := Finset.sum_congr rfl fun j _ => (sq _).symm
    rw [hxx]
    exact hc.trans (mul_le_mul_of_nonneg_right hkk (Finset.sum_nonneg fun _ _ => sq_nonneg _))
  have hq0 : 0 ≤ q := Kriging.quad_nonneg hpd k
  have hn : (0 : ℝ) < n + τ := by positivity
  show τ / (n + τ) ≤ 1 - q
  rw [div_le_iff₀ hn]
  by_cases hz : q = 0
  · rw [hz]; have : (0 : ℝ) ≤ n := Nat.cast_nonneg n
    linarith
  · have hqp : 0 < q := lt_of_le_of_ne hq0 (Ne.symm hz)
    rw [← hq] at h1
    -- `n q² + τ q² ≤ n (xKx) + τ n (x x) = n q`
    have hn0 : (0 : ℝ) ≤ n := Nat.cast_nonneg n
    have : (n + τ) * q * q ≤ n * q := by nlinarith
    have := le_of_mul_le_mul_right this hqp
    linarith

/-- `r` measurements almost perfectly correlated with a point leave little more than `τ / (r + τ)` of its variance. -/
theorem kriging_dense {n : Nat} {K : Matrix (Fin n) (Fin n) ℝ} {k : Fin n → ℝ} {τ η : ℝ} (hpd : (K + τ • (1 : Matrix (Fin n) (Fin n) ℝ)).PosDef)
    (hτ : 0 ≤ τ) (hK : ∀ i j, K i j ≤ 1) (S : Finset (Fin n)) (hS : 0 < S.card) (hk : ∀ j ∈ S, 1 - η ≤ k j) :
    Spec.krigingVar 1 (K + τ • (1 : Matrix (Fin n) (Fin n) ℝ)) k ≤ (τ + 2 * S.card * η) / (S.card + τ) := by
  set r : ℝ := (S.card : ℝ) with hr
  have hr0 : 0 < r := by rw [hr]; exact_mod_cast hS
  have hrt : 0 < r + τ := by linarith
  set c : Fin n → ℝ := fun j => if j ∈ S then 1 / (r + τ) else 0 with hc
  have hv := Kriging.variational hpd k c
  have hck : r * (1 - η) / (r + τ) ≤ k ⬝ᵥ c := by
    have : k ⬝ᵥ c = ∑ j ∈ S, k j * (1 / (r + τ)) := by
      simp only [dotProduct, hc, mul_ite, mul_zero, Finset.sum_ite_mem, Finset.univ_inter]
    rw [this]
    calc r * (1 - η) / (r + τ) = ∑ _ ∈ S, (1 - η) * (1 / (r + τ)) := by rw [Finset.sum_const, nsmul_eq_mul, ← hr]; ring
      _ ≤ _ := Finset.sum_le_sum fun j hj => mul_le_mul_of_nonneg_right (hk j hj) (by positivity)
  have hcc : c ⬝ᵥ c = r / (r + τ) ^ 2 := by
    simp only [dotProduct, hc, mul_ite, ite_mul, zero_mul, mul_zero]
    have : ∀ j, (if j ∈ S then (if j ∈ S then 1 / (r + τ) * (1 / (r + τ)) else 0) else 0) = if j ∈ S then 1 / (r + τ) * (1 / (r + τ)) else 0 := fun j => by
      split <;> simp_all
    simp only [this, Finset.sum_ite_mem, Finset.univ_inter, Finset.sum_const, nsmul_eq_mul, ← hr]
    field_simp
  have hcK : c ⬝ᵥ (K *ᵥ c) ≤ r ^ 2 / (r + τ) ^ 2 := by
    have h1 : ∀ i, (K *ᵥ c) i ≤ r / (r + τ) := fun i => by
      have : (K *ᵥ c) i = ∑ j ∈ S, K i j * (1 / (r + τ)) := by
        simp only [mulVec, dotProduct, hc, mul_ite, mul_zero, Finset.sum_ite_mem, Finset.univ_inter]
      rw [this]
      calc _ ≤ ∑ _ ∈ S, 1 * (1 / (r + τ)) := Finset.sum_le_sum fun j _ => mul_le_mul_of_nonneg_right (hK i j) (by positivity)
        _ = _ := by rw [Finset.sum_const, nsmul_eq_mul, ← hr]; ring
    have : c ⬝ᵥ (K *ᵥ c) = ∑ j ∈ S, 1 / (r + τ) * (K *ᵥ c) j := by
      simp only [dotProduct, hc, ite_mul, zero_mul, Finset.sum_ite_mem, Finset.univ_inter]
    rw [this]
    calc _ ≤ ∑ _ ∈ S, 1 / (r + τ) * (r / (r + τ)) := Finset.sum_le_sum fun j _ => mul_le_mul_of_nonneg_left (h1 j) (by positivity)
      _ = _ := by rw [Finset.sum_const, nsmul_eq_mul, ← hr]; field_simp
  rw [Kriging.quad_add_smul_one, hcc] at hv
  unfold Spec.krigingVar
  have e1 : r ^ 2 / (r + τ) ^ 2 + τ * (r / (r + τ) ^ 2) = r / (r + τ) := by field_simp
  have e2 : 1 - 2 * (r * (1 - η) / (r + τ)) + r / (r + τ) = (τ + 2 * r * η) / (r + τ) := by field_simp; ring
  rw [← e2, ← e1]
  linarith

theorem covFn_le_one (bs : Flt → ℝ → ℝ) (k : KernelObj) (hs : k.fn.Suits k.deform.metric) {f : Nat} (len x y : Fin f → ℝ) :
    0 < k.covFn bs len x y ∧ k.covFn bs len x y ≤ 1 := by
  unfold KernelObj.covFn
  have h := C19_correlation bs ((k.smoothness.map Param.val).getD none) k.fn (suits_closed hs)
    (distOf k.deform.metric (fun c => x c / len c) fun c => y c / len c) (by
      cases k.deform.metric with
      | F2 => rw [distOf_F2]; exact Finset.sum_nonneg fun _ _ => sq_nonneg _
      | l2 => exact (C17_metrics _ _ 0).2.1)
  exact ⟨h.1, h.2.1⟩

/-- **C106**: no data can push the reported variance below what the noise leaves: with noise variance `τ` and `n` neighbours every variance is at least
`σ τ / (n + τ)`, for every training set, test point, kernel and length scales. -/
theorem C106_floor (bs : Flt → ℝ → ℝ) (k : KernelObj) (hsuit : k.fn.Suits k.deform.metric) (w : NNWrapper) (hw : w.Exact) (Q Y : Tensor ℝ) (m : Nat)
    (hQ : Q.shape = [m, w.f]) (hY : Y.shape = [w.N]) (hm : 0 < m) (hk0 : 0 < w.nnCount) (hkN : w.nnCount ≤ w.N) (R : Regressor) (len : Fin w.f → ℝ)
    (τ σ : ℝ) (hR : R.Has k len τ σ) (hτ : 0 < τ) (hσ : 0 ≤ σ) :
    ∃ μ v, regressAny bs R w Q w.train Y = .ok (μ, v) ∧ μ.shape = [m] ∧ v.shape = [m] ∧ ∀ p < m, σ * (τ / (w.nnCount + τ)) ≤ v.get [p] := by
  obtain ⟨nn, h1, h2, h3⟩ := family_closed bs k hsuit w hw Q m hQ hm hk0 hkN
  obtain ⟨μ, v, r1, r2, r3, r4⟩ := h3 Y hY R len τ σ hR (.inl hτ)
  refine ⟨μ, v, r1, r2, r3, fun p hp => ?_⟩
  rw [(r4 p hp).2]
  have hlp := hasLengths_pos hR.lengths
  refine mul_le_mul_of_nonneg_left (kriging_floor (nbrJoint bs k hsuit len hlp w.train w.N w.nnCount nn p _).1
    (nbrCov_definite bs k hsuit len hlp w.train w.N w.nnCount nn p).1 hτ fun j => ?_) hσ
  have := covFn_le_one bs k hsuit len (rowPt Q w.f p) (pt w.train w.f (pointOf w.N (nn.get [p, j])))
  exact (abs_of_pos this.1).trans_le this.2

/-- If `r` candidates are within `d` of a point, so are `r` of the at least `r` nearest candidates. -/
theorem nearest_within {N n : Nat} {dist : Nat → ℝ} {l : List Nat} (h : Nearest (· < N) dist n l) {ρ : ℝ} (T : Finset Nat)
    (hT : ∀ i ∈ T, i < N ∧ dist i ≤ ρ) (hn : T.card ≤ n) : ∃ U : Finset Nat, U.card = T.card ∧ ∀ i ∈ U, i ∈ l ∧ dist i ≤ ρ := by
  by_cases hsub : ∀ i ∈ T, i ∈ l
  · exact ⟨T, rfl, fun i hi => ⟨hsub i hi, (hT i hi).2⟩⟩
  · push Not at hsub
    obtain ⟨s, hs, hsl⟩ := hsub
    have hcard : l.toFinset.card = n := by rw [List.toFinset_card_of_nodup h.nodup, h.length]
    obtain ⟨U, hU, hUc⟩ := Finset.exists_subset_card_eq (s := l.toFinset) (n := T.card) (by rw [hcard]; exact hn)
    refine ⟨U, hUc, fun i hi => ?_⟩
    have hil : i ∈ l := List.mem_toFinset.1 (hU hi)
    exact ⟨hil, (h.nearest i hil s (hT s hs).1 hsl).trans (hT s hs).2⟩

/-- **C106**: dense data is used: if `r ≤ nn_count` training points lie within the squared distance `ρ` of a test point, and points that close have a
correlation of at least `1 - η`, the reported variance is at most `σ (τ + 2 r η) / (r + τ)` — for `η = 0` the variance of the average of `r`
measurements. -/
theorem C106_dense (bs : Flt → ℝ → ℝ) (k : KernelObj) (hsuit : k.fn.Suits k.deform.metric) (w : NNWrapper) (hw : w.Exact) (he : w.Euclidean)
    (Q Y : Tensor ℝ) (m : Nat)
    (hQ : Q.shape = [m, w.f]) (hY : Y.shape = [w.N]) (hm : 0 < m) (hk0 : 0 < w.nnCount) (hkN : w.nnCount ≤ w.N) (R : Regressor) (len : Fin w.f → ℝ)
    (τ σ : ℝ) (hR : R.Has k len τ σ) (hτ : 0 < τ ∨ 0 ≤ τ ∧ DistinctRows w.train w.N w.f) (hσ : 0 ≤ σ) :
    ∃ μ v, regressAny bs R w Q w.train Y = .ok (μ, v) ∧ μ.shape = [m] ∧ v.shape = [m] ∧
      ∀ p < m, ∀ (T : Finset Nat) (ρ η : ℝ), 0 < T.card → T.card ≤ w.nnCount →
        (∀ i ∈ T, i < w.N ∧ sqDist (rowPt Q w.f p) (rowPt w.train w.f i) ≤ ρ) →
        (∀ y, sqDist (rowPt Q w.f p) y ≤ ρ → 1 - η ≤ k.covFn bs len (rowPt Q w.f p) y) →
        v.get [p] ≤ σ * ((τ + 2 * T.card * η) / (T.card + τ)) := by
  obtain ⟨nn, h1, h2, h3⟩ := family_closed bs k hsuit w hw Q m hQ hm hk0 hkN
  obtain ⟨μ, v, r1, r2, r3, r4⟩ := h3 Y hY R len τ σ hR hτ
  refine ⟨μ, v, r1, r2, r3, fun p hp T ρ η hT0 hTn hT hη => ?_⟩
  rw [(r4 p hp).2]
  refine mul_le_mul_of_nonneg_left ?_ hσ
  have hlp := hasLengths_pos hR.lengths
  obtain ⟨l, e1, e2⟩ := h1 p hp
  have hτ0 : 0 ≤ τ := hτ.elim le_of_lt fun h => h.1
  obtain ⟨φ, hφ, hd⟩ := he
  have hsq : ∀ x y : Fin w.f → ℝ, sqDist x y ∈ Set.Ici (0 : ℝ) := fun x y =>
    Set.mem_Ici.2 (by unfold sqDist; exact Finset.sum_nonneg fun _ _ => sq_nonneg _)
  have hnear : Nearest (· < w.N) (fun j => sqDist (rowPt Q w.f p) (rowPt w.train w.f j)) w.nnCount l :=
    ⟨e2.length, e2.nodup, e2.mem, e2.sorted.imp fun h => by
        simp only [hd] at h
        exact (hφ.le_iff_le (hsq _ _) (hsq _ _)).1 h,
      fun i hi j hj hjl => by
        have h := e2.nearest i hi j hj hjl
        simp only [hd] at h
        exact (hφ.le_iff_le (hsq _ _) (hsq _ _)).1 h⟩
  obtain ⟨U, hU, hUl⟩ := nearest_within hnear T hT hTn
  have hrow : ∀ x, pt w.train w.f x = rowPt w.train w.f x := fun x => by
    funext c; simp only [pt, feature, hw.1, rowPt]
  classical
  set S : Finset (Fin w.nnCount) := Finset.univ.filter fun j => pointOf w.N (nn.get [p, j]) ∈ U with hS
  have hinj : Function.Injective fun j : Fin w.nnCount => pointOf w.N (nn.get [p, j]) := by
    intro i j hij
    obtain ⟨x, x1, x2⟩ := rowList_get e1 i.2
    obtain ⟨y, y1, y2⟩ := rowList_get e1 j.2
    simp only [x2, y2, pointOf_nat] at hij
    subst hij
    obtain ⟨a1, a2⟩ := List.getElem?_eq_some_iff.mp x1
    obtain ⟨b1, b2⟩ := List.getElem?_eq_some_iff.mp y1
    exact Fin.ext ((List.Nodup.getElem_inj_iff e2.nodup).mp (a2.trans b2.symm))
  have himg : S.image (fun j : Fin w.nnCount => pointOf w.N (nn.get [p, j])) = U := by
    ext x
    rw [Finset.mem_image]
    constructor
    · rintro ⟨j, hj, rfl⟩
      exact (Finset.mem_filter.1 hj).2
    · intro hx
      obtain ⟨j, hj, hjx⟩ := List.getElem_of_mem (hUl x hx).1
      have hj' : j < w.nnCount := by rw [← e2.length]; exact hj
      obtain ⟨y, y1, y2⟩ := rowList_get e1 hj'
      rw [List.getElem?_eq_getElem hj, hjx] at y1
      have hy : pointOf w.N (nn.get [p, j]) = x := by rw [y2, pointOf_nat]; exact (Option.some.inj y1).symm
      exact ⟨⟨j, hj'⟩, Finset.mem_filter.2 ⟨Finset.mem_univ _, by rw [hy]; exact hx⟩, hy⟩
  have hcard : S.card = T.card := by rw [← hU, ← himg, Finset.card_image_of_injective _ hinj]
  rw [← hcard]
  refine kriging_dense (h2 len τ hlp hτ p hp) hτ0 (fun i j => (covFn_le_one bs k hsuit len _ _).2) S (by omega) fun j hj => ?_
  have := hUl _ (Finset.mem_filter.1 hj).2
  unfold nbrCross
  rw [hrow]
  exact hη _ this.2

/-- Points that are close have a correlation close to one. -/
theorem covFn_close (bs : Flt → ℝ → ℝ) (k : KernelObj) (hs : k.fn.Suits k.deform.metric) {f : Nat} (len : Fin f → ℝ) (hlen : ∀ c, 0 < len c)
    {η : ℝ} (hη : 0 < η) : ∃ ρ > 0, ∀ x y, sqDist x y ≤ ρ → 1 - η ≤ k.covFn bs len x y := by
  have hg : k.fn ≠ .gen := fun h => by rw [h] at hs; exact hs
  have hm : k.deform.metric = .F2 ∨ k.deform.metric = .l2 := by
    cases hf : k.fn <;> rw [hf] at hs <;> first | exact .inl hs | exact .inr hs | exact hs.elim
  have hc : Continuous (KFn.value bs ((k.smoothness.map Param.val).getD none) k.fn) := (value_smooth bs _ hg).continuous
  have h0 : KFn.value bs ((k.smoothness.map Param.val).getD none) k.fn 0 = 1 := value_zero _ _ _ (suits_closed hs)
  obtain ⟨δ, hδ, hv⟩ := Metric.continuous_iff.1 hc 0 η hη
  have hδ' : 0 < min δ (δ ^ 2) := lt_min hδ (pow_pos hδ 2)
  set B := ∑ c, 1 / len c ^ 2 with hB
  have hB0 : 0 ≤ B := Finset.sum_nonneg fun c _ => by positivity
  refine ⟨min δ (δ ^ 2) / (B + 1), by positivity, fun x y hxy => ?_⟩
  have hS : ∑ c, (x c / len c - y c / len c) ^ 2 < min δ (δ ^ 2) := by
    rw [sum_scaled]
    have h1 : ∀ c, (x c - y c) ^ 2 / len c ^ 2 ≤ sqDist x y * (1 / len c ^ 2) := fun c => by
      rw [div_eq_mul_one_div]
      refine mul_le_mul_of_nonneg_right ?_ (by positivity)
      exact Finset.single_le_sum (f := fun c => (x c - y c) ^ 2) (fun _ _ => sq_nonneg _) (Finset.mem_univ c)
    have hq0 : 0 ≤ sqDist x y := Finset.sum_nonneg fun _ _ => sq_nonneg _
    calc ∑ c, (x c - y c) ^ 2 / len c ^ 2 ≤ ∑ c, sqDist x y * (1 / len c ^ 2) := Finset.sum_le_sum fun c _ => h1 c
      _ = sqDist x y * B := by rw [← Finset.mul_sum]
      _ ≤ min δ (δ ^ 2) / (B + 1) * B := mul_le_mul_of_nonneg_right hxy hB0
      _ < min δ (δ ^ 2) := by
        rw [div_mul_eq_mul_div, div_lt_iff₀ (by positivity)]
        nlinarith
  have hS0 : 0 ≤ ∑ c, (x c / len c - y c / len c) ^ 2 := Finset.sum_nonneg fun c _ => sq_nonneg _
  have := hv (distOf k.deform.metric (fun c => x c / len c) fun c => y c / len c) (by
    rw [Real.dist_eq, sub_zero]
    rcases hm with h | h
    · rw [h, distOf_F2, abs_of_nonneg hS0]
      exact hS.trans_le (min_le_left _ _)
    · rw [h, distOf_l2_sqrt, abs_of_nonneg (Real.sqrt_nonneg _), Real.sqrt_lt' hδ]
      exact hS.trans_le (min_le_right _ _))
  rw [h0, Real.dist_eq] at this
  unfold KernelObj.covFn
  linarith [(abs_lt.1 this).1]

/-- **C106**: consistency. For every kernel, length scales, energy and tolerance there is a distance such that, for every training set of exact responses
of any function of at most that energy, any number of neighbours and all test points: a prediction is within the tolerance of the true value as soon as
there is a single training point within that distance of the test point, and so is the reported variance of zero. -/
theorem C106_consistent (bs : Flt → ℝ → ℝ) (k : KernelObj) (hsuit : k.fn.Suits k.deform.metric) {f : Nat} (len : Fin f → ℝ)
    (hlen : ∀ c, 0 < len c) (σ E : ℝ) (hσ : 0 < σ) (ε : ℝ) (hε : 0 < ε) :
    ∃ ρ > 0, ∀ (g : (Fin f → ℝ) → ℝ), Spec.EnergyAtMost (k.covFn bs len) E g →
      ∀ (N nnCount : Nat) (X : Tensor ℝ) (dist : (Fin f → ℝ) → (Fin f → ℝ) → ℝ) (sq : Bool) (answer : (Fin f → ℝ) → Nat → List Nat),
        let w : NNWrapper := ⟨N, f, X, nnCount, dist, sq, answer⟩
        w.Exact → w.Euclidean → DistinctRows X N f → 0 < nnCount → nnCount ≤ N →
        ∀ (R : Regressor) (Q Y : Tensor ℝ) (m : Nat), R.Has k len 0 σ → Q.shape = [m, f] → 0 < m → Y.shape = [N] →
          (∀ i < N, Y.get [i] = g (rowPt X f i)) →
          ∃ μ v, regressAny bs R w Q X Y = .ok (μ, v) ∧ μ.shape = [m] ∧ v.shape = [m] ∧
            ∀ p < m, (∃ i < N, sqDist (rowPt Q f p) (rowPt X f i) ≤ ρ) → |μ.get [p] - g (rowPt Q f p)| < ε ∧ v.get [p] < ε := by
  set η : ℝ := min (ε / (4 * σ)) (ε ^ 2 / (4 * (|E| + 1))) with hη
  have hη0 : 0 < η := lt_min (by positivity) (by positivity)
  obtain ⟨ρ, hρ, hclose⟩ := covFn_close bs k hsuit len hlen hη0
  refine ⟨ρ, hρ, fun g hg N nnCount X dist sq answer => ?_⟩
  intro w hw he hdist hk0 hkN R Q Y m hR hQ hm hY hYg
  obtain ⟨μ, v, r1, r2, r3, r4⟩ := C106_dense bs k hsuit w hw he Q Y m hQ hY hm hk0 hkN R len 0 σ hR (.inr ⟨le_rfl, hdist⟩) hσ.le
  have hcov : R.kernel.covFn bs len = k.covFn bs len := by
    funext x y; exact covFn_formula bs k R.kernel hsuit hR.fn hR.metric _ _ _
  obtain ⟨μ', v', q1, -, -, q4⟩ := C95_exact_responses bs R hR.made hR.kout (by rw [hR.fn, hR.metric]; exact hsuit) (by rw [hR.scale]; exact hσ) w hw Q Y m
    len hR.lengths hQ hY hm hk0 hkN (by rw [hR.noise]; trivial) (by rw [hR.noise]; exact .inr ⟨le_rfl, hdist⟩) E g (by rw [hcov]; exact hg) hYg
  rw [r1] at q1
  obtain ⟨rfl, rfl⟩ := Prod.mk.inj (Except.ok.inj q1)
  refine ⟨μ, v, r1, r2, r3, fun p hp ⟨i, hi, hid⟩ => ?_⟩
  have hv := r4 p hp {i} ρ η (by simp) (by rw [Finset.card_singleton]; exact hk0) (by simpa using ⟨hi, hid⟩) (fun y hy => hclose _ _ hy)
  have hq := q4 p hp
  rw [hR.scale] at hq
  simp only [Finset.card_singleton, Nat.cast_one, zero_add, mul_one, add_zero, div_one] at hv
  have hvs : v.get [p] / σ ≤ 2 * η := by rw [div_le_iff₀ hσ]; linarith
  have hE := energy_nonneg (covFn_self bs k hsuit len) hg
  constructor
  · have h1 : (μ.get [p] - g (rowPt Q f p)) ^ 2 ≤ E * (2 * η) := hq.trans (mul_le_mul_of_nonneg_left hvs hE)
    have h2 : E * (2 * η) < ε ^ 2 := by
      have : η ≤ ε ^ 2 / (4 * (|E| + 1)) := min_le_right _ _
      rw [le_div_iff₀ (by positivity)] at this
      nlinarith [le_abs_self E, abs_nonneg E, pow_pos hε 2]
    exact abs_lt_of_sq_lt_sq (h1.trans_lt h2) hε.le
  · have : η ≤ ε / (4 * σ) := min_le_left _ _
    rw [le_div_iff₀ (by positivity)] at this
    nlinarith

end MuyGPyS
