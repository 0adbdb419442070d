import Verif.Spec.TestSmooth
import Verif.Props.Continuity
import Verif.Props.Extremes
import Mathlib.MeasureTheory.Integral.IntervalIntegral.FundThmCalculus

/-! # C107: smoothness of predictions in the test point -/

namespace MuyGPyS
open Py Matrix Topology
open scoped ContDiff

/-! ## The Matérn functions of the squared distance -/

/-- `(1 + a √s) exp (-a √s)` for `s ≥ 0`, continued differentiably. -/
noncomputable def bridge (a s : ℝ) : ℝ := 1 - a ^ 2 / 2 * ∫ t in (0 : ℝ)..s, Real.exp (-(a * √t))

theorem bridge_deriv (a s : ℝ) : HasDerivAt (bridge a) (-(a ^ 2 / 2 * Real.exp (-(a * √s)))) s := by
  have hc : Continuous fun t : ℝ => Real.exp (-(a * √t)) := by fun_prop
  exact ((hc.integral_hasStrictDerivAt 0 s).hasDerivAt.const_mul _).const_sub 1

theorem bridge_smooth (a : ℝ) : ContDiff ℝ 1 (bridge a) := by
  rw [contDiff_one_iff_deriv]
  refine ⟨fun s => (bridge_deriv a s).differentiableAt, ?_⟩
  rw [show deriv (bridge a) = fun s => -(a ^ 2 / 2 * Real.exp (-(a * √s))) from funext fun s => (bridge_deriv a s).deriv]
  fun_prop

theorem bridge_eq (a : ℝ) {s : ℝ} (hs : 0 ≤ s) : bridge a s = (1 + a * √s) * Real.exp (-(a * √s)) := by
  have hc : Continuous fun t : ℝ => Real.exp (-(a * √t)) := by fun_prop
  have h := intervalIntegral.integral_eq_sub_of_hasDeriv_right_of_le (f := fun t => (1 + a * √t) * Real.exp (-(a * √t)))
    (f' := fun t => -(a ^ 2 / 2) * Real.exp (-(a * √t))) hs (by fun_prop) (fun t ht => by
      have ht0 : 0 < t := ht.1
      have h1 : HasDerivAt (fun t : ℝ => a * √t) (a * (1 / (2 * √t))) t := (Real.hasDerivAt_sqrt ht0.ne').const_mul a
      have h2 := (h1.const_add 1).mul h1.neg.exp
      refine (h2.congr_deriv ?_).hasDerivWithinAt
      have h3 : √t ≠ 0 := (Real.sqrt_pos.2 ht0).ne'
      simp only [Pi.neg_apply]
      field_simp
      ring) ((continuous_const.mul hc).intervalIntegrable _ _)
  simp only [Real.sqrt_zero, mul_zero, add_zero, neg_zero, Real.exp_zero, mul_one, intervalIntegral.integral_const_mul] at h
  unfold bridge
  linarith

/-- `(1 + a √s + a² s / 3) exp (-a √s)` for `s ≥ 0`, continued differentiably. -/
noncomputable def bridge2 (a s : ℝ) : ℝ := 1 - a ^ 2 / 6 * ∫ t in (0 : ℝ)..s, bridge a t

theorem bridge2_deriv (a s : ℝ) : HasDerivAt (bridge2 a) (-(a ^ 2 / 6 * bridge a s)) s :=
  (((bridge_smooth a).continuous.integral_hasStrictDerivAt 0 s).hasDerivAt.const_mul _).const_sub 1

theorem bridge2_smooth (a : ℝ) : ContDiff ℝ 2 (bridge2 a) := by
  rw [show (2 : WithTop ℕ∞) = 1 + 1 from by norm_num, contDiff_succ_iff_deriv]
  refine ⟨fun s => (bridge2_deriv a s).differentiableAt, fun h => by simp at h, ?_⟩
  rw [show deriv (bridge2 a) = fun s => -(a ^ 2 / 6 * bridge a s) from funext fun s => (bridge2_deriv a s).deriv]
  exact (contDiff_const.mul (bridge_smooth a)).neg

theorem bridge2_eq (a : ℝ) {s : ℝ} (hs : 0 ≤ s) : bridge2 a s = (1 + a * √s + (a * √s) ^ 2 / 3) * Real.exp (-(a * √s)) := by
  have h := intervalIntegral.integral_eq_sub_of_hasDeriv_right_of_le (f := fun t => (1 + a * √t + (a * √t) ^ 2 / 3) * Real.exp (-(a * √t)))
    (f' := fun t => -(a ^ 2 / 6) * bridge a t) hs (by fun_prop) (fun t ht => by
      have ht0 : 0 < t := ht.1
      have h1 : HasDerivAt (fun t : ℝ => a * √t) (a * (1 / (2 * √t))) t := (Real.hasDerivAt_sqrt ht0.ne').const_mul a
      have h2 := ((h1.const_add 1).add ((h1.pow 2).div_const 3)).mul h1.neg.exp
      refine (h2.congr_deriv ?_).hasDerivWithinAt
      have h3 : √t ≠ 0 := (Real.sqrt_pos.2 ht0).ne'
      rw [bridge_eq a ht0.le]
      simp only [Pi.neg_apply, Pi.add_apply, Pi.pow_apply]
      field_simp
      ring) ((continuous_const.mul (bridge_smooth a).continuous).intervalIntegrable _ _)
  simp only [Real.sqrt_zero, mul_zero, add_zero, neg_zero, Real.exp_zero, mul_one, intervalIntegral.integral_const_mul,
    ne_eq, OfNat.ofNat_ne_zero, not_false_eq_true, zero_pow, zero_div] at h
  unfold bridge2
  linarith

theorem scaled_smooth {f : Nat} (len x : Fin f → ℝ) {n : WithTop ℕ∞} :
    ContDiff ℝ n fun q : Fin f → ℝ => ∑ c, (q c / len c - x c / len c) ^ 2 := by
  refine ContDiff.sum fun c _ => ContDiff.pow (ContDiff.sub ?_ contDiff_const) 2
  exact (contDiff_apply ℝ ℝ c).div_const _

/-- The kernel as a function of one of its points. -/
theorem covFn_order (bs : Flt → ℝ → ℝ) (k : KernelObj) (hs : k.fn.Suits k.deform.metric) {f : Nat} (len x : Fin f → ℝ) :
    ContDiff ℝ k.fn.order fun q => k.covFn bs len q x := by
  have h0 : ∀ q : Fin f → ℝ, 0 ≤ ∑ c, (q c / len c - x c / len c) ^ 2 := fun q => Finset.sum_nonneg fun _ _ => sq_nonneg _
  unfold KernelObj.covFn
  cases hf : k.fn with
  | gen => rw [hf] at hs; exact hs.elim
  | rbf =>
    rw [hf] at hs; rw [show k.deform.metric = .F2 from hs]
    simp only [distOf_F2, KFn.order]
    exact (show ContDiff ℝ ∞ fun d : ℝ => Real.exp (-d / 2) by fun_prop).comp (scaled_smooth len x)
  | minf =>
    rw [hf] at hs; rw [show k.deform.metric = .l2 from hs]
    simp only [distOf_l2_sqrt, KFn.order]
    show ContDiff ℝ ∞ fun q : Fin f → ℝ => Real.exp (-(√(∑ c, (q c / len c - x c / len c) ^ 2) ^ 2) / 2)
    simp only [Real.sq_sqrt (h0 _)]
    exact (show ContDiff ℝ ∞ fun d : ℝ => Real.exp (-d / 2) by fun_prop).comp (scaled_smooth len x)
  | m15 =>
    rw [hf] at hs; rw [show k.deform.metric = .l2 from hs]
    simp only [distOf_l2_sqrt, KFn.order]
    have : (fun q : Fin f → ℝ => KFn.value bs ((k.smoothness.map Param.val).getD none) .m15 √(∑ c, (q c / len c - x c / len c) ^ 2)) =
        fun q => bridge √3 (∑ c, (q c / len c - x c / len c) ^ 2) := by
      funext q
      rw [bridge_eq _ (h0 q), mul_comm √3]; rfl
    rw [this]
    exact (bridge_smooth _).comp (scaled_smooth len x)
  | m25 =>
    rw [hf] at hs; rw [show k.deform.metric = .l2 from hs]
    simp only [distOf_l2_sqrt, KFn.order]
    have : (fun q : Fin f → ℝ => KFn.value bs ((k.smoothness.map Param.val).getD none) .m25 √(∑ c, (q c / len c - x c / len c) ^ 2)) =
        fun q => bridge2 √5 (∑ c, (q c / len c - x c / len c) ^ 2) := by
      funext q
      rw [bridge2_eq _ (h0 q), mul_comm √5]; rfl
    rw [this]
    exact (bridge2_smooth _).comp (scaled_smooth len x)
  | m05 =>
    rw [hf] at hs; rw [show k.deform.metric = .l2 from hs]
    simp only [distOf_l2_sqrt, KFn.order]
    rw [contDiff_zero]
    have : Continuous fun q : Fin f → ℝ => ∑ c, (q c / len c - x c / len c) ^ 2 := (scaled_smooth len x (n := 0)).continuous
    show Continuous fun q : Fin f → ℝ => Real.exp (-√(∑ c, (q c / len c - x c / len c) ^ 2))
    fun_prop

/-- Away from its second point the kernel is infinitely differentiable. -/
theorem covFn_away (bs : Flt → ℝ → ℝ) (k : KernelObj) (hs : k.fn.Suits k.deform.metric) {f : Nat} (len x : Fin f → ℝ) (hlen : ∀ c, 0 < len c) :
    ContDiffOn ℝ ∞ (fun q => k.covFn bs len q x) {x}ᶜ := by
  have hg : k.fn ≠ .gen := fun h => by rw [h] at hs; exact hs
  have hm : k.deform.metric = .F2 ∨ k.deform.metric = .l2 := by
    cases hf : k.fn <;> rw [hf] at hs <;> first | exact .inl hs | exact .inr hs | exact hs.elim
  refine (value_smooth bs _ hg).comp_contDiffOn ?_
  rcases hm with h | h <;> rw [h]
  · simp only [distOf_F2]; exact (scaled_smooth len x).contDiffOn
  · simp only [distOf_l2_sqrt]
    refine (scaled_smooth len x).contDiffOn.sqrt fun q hq h0 => hq ?_
    rw [Set.mem_singleton_iff]
    funext c
    have h1 := (Finset.sum_eq_zero_iff_of_nonneg fun c _ => sq_nonneg (q c / len c - x c / len c)).1 h0 c (Finset.mem_univ c)
    have h2 := sub_eq_zero.1 ((pow_eq_zero_iff two_ne_zero).1 h1)
    exact (div_left_inj' (hlen c).ne').mp h2

/-- The test points with unambiguous nearest training points `S` form an open set. -/
theorem clear_open (w : NNWrapper) (S : Finset Nat) : IsOpen {q | w.ClearAt q S} :=
  isOpen_iff_mem_nhds.2 fun _ hq => clear_near w hq

/-- The prediction from the training points `S` as a function of the test point: kriging, whatever the batch the test point belongs to. -/
theorem cell_predictions (bs : Flt → ℝ → ℝ) (R : Regressor) (hk : R.kernel.make = R.kernel) (hko : R.gp.kout = KernelObj.kout)
    (hsuit : R.kernel.fn.Suits R.kernel.deform.metric) (τ : ℝ) (hτ : R.gp.noise.Level τ) (w : NNWrapper) (hw : w.Exact) (heuc : w.Euclidean)
    (hreg : 0 < τ ∨ (0 ≤ τ ∧ DistinctRows w.train w.N w.f)) (Y : Tensor ℝ) (len : Fin w.f → ℝ)
    (hlen : R.kernel.deform.HasLengths w.f len) (hY : Y.shape = [w.N]) (hk0 : 0 < w.nnCount) (hkN : w.nnCount ≤ w.N) (S : Finset Nat) :
    ∃ (g : Fin w.nnCount → Nat) (A : Matrix (Fin w.nnCount) (Fin w.nnCount) ℝ) (y : Fin w.nnCount → ℝ),
      (∀ q, w.ClearAt q S → Function.Injective g ∧ S = Finset.univ.image g) ∧
      ∀ (Q : Tensor ℝ) (m : Nat), Q.shape = [m, w.f] → 0 < m →
        ∃ μ v, regressAny bs R w Q w.train Y = .ok (μ, v) ∧ μ.shape = [m] ∧ v.shape = [m] ∧
          ∀ p < m, w.ClearAt (rowPt Q w.f p) S →
            μ.get [p] = ∑ j, R.kernel.covFn bs len (rowPt Q w.f p) (rowPt w.train w.f (g j)) * (A *ᵥ y) j ∧
            v.get [p] = R.gp.boundScale * (1 - ∑ j, R.kernel.covFn bs len (rowPt Q w.f p) (rowPt w.train w.f (g j)) *
              ∑ i, A j i * R.kernel.covFn bs len (rowPt Q w.f p) (rowPt w.train w.f (g i))) := by
  have hlp := hasLengths_pos hlen
  have hrow : ∀ x, pt w.train w.f x = rowPt w.train w.f x := fun x => by
    funext c; simp only [pt, feature, hw.1, rowPt]
  have hmat : ∀ n p, R.gp.noise.mat n p = τ • (1 : Matrix (Fin n) (Fin n) ℝ) := fun n p => by
    cases hR : R.gp.noise with
    | homoscedastic v => rw [hR] at hτ; rw [show v = τ from hτ]; rfl
    | null => rw [hR] at hτ; rw [show τ = 0 from hτ]; simp [Noise.mat]
    | heteroscedastic v => rw [hR] at hτ; exact hτ.elim
    | shear33 v => rw [hR] at hτ; exact hτ.elim
  have hfit : ∀ m, R.gp.noise.Fits m w.nnCount := fun m => by
    cases hR : R.gp.noise with
    | homoscedastic v => trivial
    | null => trivial
    | heteroscedastic v => rw [hR] at hτ; exact hτ.elim
    | shear33 v => rw [hR] at hτ; exact hτ.elim
  have hok : ∀ (Q : Tensor ℝ) (m : Nat), Q.shape = [m, w.f] → 0 < m →
      ∃ nn : Tensor Int, (∀ p < m, ∃ l : List Nat, rowList nn w.nnCount p = l.map Int.ofNat ∧
        Nearest (· < w.N) (fun j => w.dist (rowPt Q w.f p) (rowPt w.train w.f j)) w.nnCount l) ∧
        ∃ μ v, regressAny bs R w Q w.train Y = .ok (μ, v) ∧ μ.shape = [m] ∧ v.shape = [m] ∧
          ∀ p < m,
            μ.get [p] = Spec.krigingMean (nbrCov bs R.kernel len w.train w.N w.nnCount nn p + R.gp.noise.mat w.nnCount p)
              (nbrCross bs R.kernel len w.train w.N w.nnCount nn p (rowPt Q w.f p)) (nbrTargets Y w.N w.nnCount nn p 0) ∧
            v.get [p] = R.gp.boundScale * Spec.krigingVar 1 (nbrCov bs R.kernel len w.train w.N w.nnCount nn p + R.gp.noise.mat w.nnCount p)
              (nbrCross bs R.kernel len w.train w.N w.nnCount nn p (rowPt Q w.f p)) := fun Q m hQ hm => by
    obtain ⟨nn, h1, h2⟩ := regress_family bs w hw Q m hQ hm hk0 hkN
    refine ⟨nn, h1, h2 R len Y hk hko hlen (hfit m) hY fun p hp => ?_⟩
    obtain ⟨l, e1, e2⟩ := h1 p hp
    have hc := nbrCov_definite bs R.kernel hsuit len hlp w.train w.N w.nnCount nn p
    have hsuf : (Noise.homoscedastic τ).Suffices m w.nnCount (DistinctNeighbours w.train w.N w.f w.nnCount nn p) :=
      hreg.imp_right fun h => ⟨h.1, distinct_of_nodup e1 e2.nodup e2.mem h.2⟩
    rw [hmat]
    exact Kriging.det_ne_zero (Noise.posdef_of_suffices hsuf hp hc.1 hc.2)
  by_cases hcard : S.card = w.nnCount
  · let eS := S.equivFinOfCardEq hcard
    let g : Fin w.nnCount → Nat := fun i => (eS.symm i : Nat)
    have hg : Function.Injective g := fun a b h => eS.symm.injective (Subtype.ext h)
    have hgS : ∀ x, x ∈ S ↔ x ∈ Set.range g := by
      intro x
      constructor
      · intro hx; exact ⟨eS ⟨x, hx⟩, by simp [g]⟩
      · rintro ⟨i, rfl⟩; exact (eS.symm i).2
    refine ⟨g, ((Matrix.of fun i j => R.kernel.covFn bs len (pt w.train w.f (g i)) (pt w.train w.f (g j))) + R.gp.noise.mat w.nnCount 0)⁻¹,
      fun j => feature Y (g j) 0, fun q _ => ⟨hg, ?_⟩, fun Q m hQ hm => ?_⟩
    · ext x
      rw [hgS, Finset.mem_image]
      exact ⟨fun ⟨j, hj⟩ => ⟨j, Finset.mem_univ _, hj⟩, fun ⟨j, _, hj⟩ => ⟨j, hj⟩⟩
    · obtain ⟨nn, h1, μ, v, r1, r2, r3, r4⟩ := hok Q m hQ hm
      refine ⟨μ, v, r1, r2, r3, fun p hp hc => ?_⟩
      obtain ⟨l, e1, e2⟩ := h1 p hp
      obtain ⟨φ, f1, f2⟩ := heuc
      have hmem := nearest_clear e2 hc.1 hc.2.1 (fun i hi j hj hjS => by
        rw [f2, f2]
        exact f1 (sqDist_nonneg _ _) (sqDist_nonneg _ _) (hc.2.2 i hi j hj hjS))
      obtain ⟨a, b⟩ := kriging_enum bs R.kernel hfit len w.train Y w.N nn p (rowPt Q w.f p) g hg e1 e2.nodup
        fun x => (hmem x).trans (hgS x)
      rw [(r4 p hp).1, (r4 p hp).2, a, b]
      simp only [← hrow]
      exact ⟨rfl, rfl⟩
  · refine ⟨fun _ => 0, 0, 0, fun q hq => absurd hq.1 hcard, fun Q m hQ hm => ?_⟩
    obtain ⟨nn, h1, μ, v, r1, r2, r3, r4⟩ := hok Q m hQ hm
    exact ⟨μ, v, r1, r2, r3, fun p hp hc => absurd hc.1 hcard⟩

/-- **C107**: the test points whose nearest training points are unambiguously `S` form an open region. There the predictions are one function of the
test point, the mean a combination of the kernel functions at the points of `S`. Away from the training points it is infinitely differentiable, and at
them as often as the kernel is documented to be. Partial: see `C107_kink_fails`, and `C70_switch_fails` for the borders of the regions. -/
theorem C107_smooth_partial (bs : Flt → ℝ → ℝ) (R : Regressor) (hk : R.kernel.make = R.kernel) (hko : R.gp.kout = KernelObj.kout)
    (hsuit : R.kernel.fn.Suits R.kernel.deform.metric) (τ : ℝ) (hτ : R.gp.noise.Level τ) (w : NNWrapper) (hw : w.Exact) (heuc : w.Euclidean)
    (hreg : 0 < τ ∨ (0 ≤ τ ∧ DistinctRows w.train w.N w.f)) (Y : Tensor ℝ) (len : Fin w.f → ℝ)
    (hlen : R.kernel.deform.HasLengths w.f len) (hY : Y.shape = [w.N]) (hk0 : 0 < w.nnCount) (hkN : w.nnCount ≤ w.N) (S : Finset Nat) :
    ∃ M V : (Fin w.f → ℝ) → ℝ,
      (∀ (Q : Tensor ℝ) (m : Nat), Q.shape = [m, w.f] → 0 < m →
        ∃ μ v, regressAny bs R w Q w.train Y = .ok (μ, v) ∧ μ.shape = [m] ∧ v.shape = [m] ∧
          ∀ p < m, w.ClearAt (rowPt Q w.f p) S → μ.get [p] = M (rowPt Q w.f p) ∧ v.get [p] = V (rowPt Q w.f p)) ∧
      IsOpen {q | w.ClearAt q S} ∧
      (∃ α : Nat → ℝ, ∀ q, w.ClearAt q S → M q = ∑ i ∈ S, α i * R.kernel.covFn bs len q (rowPt w.train w.f i)) ∧
      ContDiff ℝ R.kernel.fn.order M ∧ ContDiff ℝ R.kernel.fn.order V ∧
      ContDiffOn ℝ ∞ M {q | w.ClearAt q S ∧ ∀ i ∈ S, q ≠ rowPt w.train w.f i} ∧
      ContDiffOn ℝ ∞ V {q | w.ClearAt q S ∧ ∀ i ∈ S, q ≠ rowPt w.train w.f i} := by
  obtain ⟨g, A, y, hgS, hpred⟩ := cell_predictions bs R hk hko hsuit τ hτ w hw heuc hreg Y len hlen hY hk0 hkN S
  have hlp := hasLengths_pos hlen
  have h1 := fun j => covFn_order bs R.kernel hsuit len (rowPt w.train w.f (g j))
  have h2 : ∀ j, ContDiffOn ℝ ∞ (fun q => R.kernel.covFn bs len q (rowPt w.train w.f (g j)))
      {q | w.ClearAt q S ∧ ∀ i ∈ S, q ≠ rowPt w.train w.f i} := fun j =>
    (covFn_away bs R.kernel hsuit len (rowPt w.train w.f (g j)) hlp).mono fun q hq => by
      refine fun h => hq.2 (g j) ?_ (Set.mem_singleton_iff.1 h)
      rw [(hgS q hq.1).2]
      exact Finset.mem_image_of_mem _ (Finset.mem_univ j)
  refine ⟨fun q => ∑ j, R.kernel.covFn bs len q (rowPt w.train w.f (g j)) * (A *ᵥ y) j,
    fun q => R.gp.boundScale * (1 - ∑ j, R.kernel.covFn bs len q (rowPt w.train w.f (g j)) *
      ∑ i, A j i * R.kernel.covFn bs len q (rowPt w.train w.f (g i))), hpred, clear_open w S, ?_, ?_, ?_, ?_, ?_⟩
  · classical
    refine ⟨fun i => ∑ j, if g j = i then (A *ᵥ y) j else 0, fun q hq => ?_⟩
    obtain ⟨hg, hS⟩ := hgS q hq
    rw [hS, Finset.sum_image fun a _ b _ h => hg h]
    refine Finset.sum_congr rfl fun j _ => ?_
    simp only [hg.eq_iff, Finset.sum_ite_eq', Finset.mem_univ, if_true]
    exact mul_comm _ _
  · exact ContDiff.sum fun j _ => (h1 j).mul contDiff_const
  · exact contDiff_const.mul (contDiff_const.sub (ContDiff.sum fun j _ => (h1 j).mul (ContDiff.sum fun i _ => contDiff_const.mul (h1 i))))
  · exact ContDiffOn.sum fun j _ => (h2 j).mul contDiffOn_const
  · exact contDiffOn_const.mul (contDiffOn_const.sub (ContDiffOn.sum fun j _ => (h2 j).mul
      (ContDiffOn.sum fun i _ => contDiffOn_const.mul (h2 i))))

/-- The partial derivatives of the RBF kernel function. -/
theorem rbf_gradient (bs : Flt → ℝ → ℝ) (k : KernelObj) (hf : k.fn = .rbf) (hm : k.deform.metric = .F2) {f : Nat} (len x q : Fin f → ℝ)
    (hlen : ∀ c, 0 < len c) (c : Fin f) :
    HasDerivAt (fun t => k.covFn bs len (Function.update q c t) x) (k.covFn bs len q x * ((x c - q c) / len c ^ 2)) (q c) := by
  unfold KernelObj.covFn
  rw [hf, hm]
  simp only [distOf_F2]
  show HasDerivAt (fun t => Real.exp (-(∑ d, (Function.update q c t d / len d - x d / len d) ^ 2) / 2))
    (Real.exp (-(∑ d, (q d / len d - x d / len d) ^ 2) / 2) * ((x c - q c) / len c ^ 2)) (q c)
  have h1 : ∀ d ∈ (Finset.univ : Finset (Fin f)), HasDerivAt (fun t => (Function.update q c t d / len d - x d / len d) ^ 2)
      (if d = c then 2 * (q c / len c - x c / len c) / len c else 0) (q c) := fun d _ => by
    by_cases h : d = c
    · subst h
      simp only [Function.update_self, if_true]
      have := (((hasDerivAt_id (q d)).div_const (len d)).sub_const (x d / len d)).pow 2
      refine this.congr_deriv ?_
      simp; ring
    · simp only [Function.update_of_ne h, h, if_false]
      exact hasDerivAt_const _ _
  have h2 := ((HasDerivAt.fun_sum h1).neg.div_const 2).exp
  simp only [Finset.sum_ite_eq', Finset.mem_univ, if_true, Pi.neg_apply, Function.update_eq_self] at h2
  refine h2.congr_deriv ?_
  have := (hlen c).ne'
  field_simp
  ring

/-- **C107**: the gradient of the mean of an RBF model: every kernel function contributes its weight times its value times the scaled direction to its
training point. -/
theorem C107_rbf_gradient (bs : Flt → ℝ → ℝ) (R : Regressor) (hk : R.kernel.make = R.kernel) (hko : R.gp.kout = KernelObj.kout)
    (hf : R.kernel.fn = .rbf) (hm : R.kernel.deform.metric = .F2) (τ : ℝ) (hτ : R.gp.noise.Level τ) (w : NNWrapper) (hw : w.Exact) (heuc : w.Euclidean)
    (hreg : 0 < τ ∨ (0 ≤ τ ∧ DistinctRows w.train w.N w.f)) (Y : Tensor ℝ) (len : Fin w.f → ℝ)
    (hlen : R.kernel.deform.HasLengths w.f len) (hY : Y.shape = [w.N]) (hk0 : 0 < w.nnCount) (hkN : w.nnCount ≤ w.N) (S : Finset Nat) :
    ∃ (M : (Fin w.f → ℝ) → ℝ) (α : Nat → ℝ),
      (∀ (Q : Tensor ℝ) (m : Nat), Q.shape = [m, w.f] → 0 < m →
        ∃ μ v, regressAny bs R w Q w.train Y = .ok (μ, v) ∧ μ.shape = [m] ∧
          ∀ p < m, w.ClearAt (rowPt Q w.f p) S → μ.get [p] = M (rowPt Q w.f p)) ∧
      ∀ q, w.ClearAt q S → M q = ∑ i ∈ S, α i * R.kernel.covFn bs len q (rowPt w.train w.f i) ∧
        ∀ c, HasDerivAt (fun t => M (Function.update q c t))
          (∑ i ∈ S, α i * R.kernel.covFn bs len q (rowPt w.train w.f i) * ((rowPt w.train w.f i c - q c) / len c ^ 2)) (q c) := by
  obtain ⟨M, V, h1, h2, ⟨α, h3⟩, -⟩ := C107_smooth_partial bs R hk hko (by rw [hf, hm]; rfl) τ hτ w hw heuc hreg Y len hlen hY hk0 hkN S
  refine ⟨M, α, fun Q m hQ hm => ?_, fun q hq => ⟨h3 q hq, fun c => ?_⟩⟩
  · obtain ⟨μ, v, r1, r2, -, r4⟩ := h1 Q m hQ hm
    exact ⟨μ, v, r1, r2, fun p hp hc => (r4 p hp hc).1⟩
  · have hd : HasDerivAt (fun t => ∑ i ∈ S, α i * R.kernel.covFn bs len (Function.update q c t) (rowPt w.train w.f i))
        (∑ i ∈ S, α i * (R.kernel.covFn bs len q (rowPt w.train w.f i) * ((rowPt w.train w.f i c - q c) / len c ^ 2))) (q c) :=
      HasDerivAt.fun_sum fun i _ => (rbf_gradient bs R.kernel hf hm len _ q (hasLengths_pos hlen) c).const_mul _
    refine (hd.congr_of_eventuallyEq ?_).congr_deriv (Finset.sum_congr rfl fun i _ => (mul_assoc _ _ _).symm)
    have hc : ContinuousAt (fun t => Function.update q c t) (q c) := (continuous_const.update c continuous_id).continuousAt
    have : ∀ᶠ t in 𝓝 (q c), w.ClearAt (Function.update q c t) S := hc.eventually (p := fun q' => w.ClearAt q' S) (by
      beta_reduce
      rw [Function.update_eq_self]
      exact clear_near w hq)
    exact this.mono fun t ht => h3 _ ht

end MuyGPyS
