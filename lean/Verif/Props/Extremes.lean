import Verif.Props.SmoothGen
import Verif.Props.Reversion
import Verif.Spec.Extremes

/-!
# C104: predictions as functions of the hyperparameters, and at their extremes
-/

namespace MuyGPyS
open Py Matrix Topology
open scoped ContDiff

/-- The neighbours of test points do not depend on the model; every sensible closed-form model predicts by kriging from them. -/
theorem regress_family (bs : Flt → ℝ → ℝ) (w : NNWrapper) (hw : w.Exact) (Q : Tensor ℝ) (m : Nat)
    (hQ : Q.shape = [m, w.f]) (hm : 0 < m) (hk0 : 0 < w.nnCount) (hkN : w.nnCount ≤ w.N) :
    ∃ nn : Tensor Int, (∀ p < m, ∃ l : List Nat, rowList nn w.nnCount p = l.map Int.ofNat ∧
        Nearest (· < w.N) (fun j => w.dist (rowPt Q w.f p) (rowPt w.train w.f j)) w.nnCount l) ∧
      ∀ (R : Regressor) (len : Fin w.f → ℝ) (Y : Tensor ℝ), R.kernel.make = R.kernel → R.gp.kout = KernelObj.kout →
        R.kernel.deform.HasLengths w.f len → R.gp.noise.Fits m w.nnCount → Y.shape = [w.N] →
        (∀ p < m, (nbrCov bs R.kernel len w.train w.N w.nnCount nn p + R.gp.noise.mat w.nnCount p).det ≠ 0) →
        ∃ μ v, regressAny bs R w Q w.train Y = .ok (μ, v) ∧ μ.shape = [m] ∧ v.shape = [m] ∧
          ∀ p < m,
            μ.get [p] = Spec.krigingMean (nbrCov bs R.kernel len w.train w.N w.nnCount nn p + R.gp.noise.mat w.nnCount p)
              (nbrCross bs R.kernel len w.train w.N w.nnCount nn p (rowPt Q w.f p)) (nbrTargets Y w.N w.nnCount nn p 0) ∧
            v.get [p] = R.gp.boundScale * Spec.krigingVar 1 (nbrCov bs R.kernel len w.train w.N w.nnCount nn p + R.gp.noise.mat w.nnCount p)
              (nbrCross bs R.kernel len w.train w.N w.nnCount nn p (rowPt Q w.f p)) := by
  obtain ⟨nn, D, h1, h2, h3, h4, -⟩ := C41_plain w hw Q m hQ hm hk0 hkN
  refine ⟨nn, h4, fun R len Y hk hko hlen hfit hY hdet => ?_⟩
  · obtain ⟨nn', D', g1, -, -, -, g⟩ := regress_cases_nns bs R hk hko w hw Q m len hlen hQ hm hk0 hkN hfit
    rw [h1] at g1
    obtain ⟨rfl, rfl⟩ := Prod.mk.inj (Except.ok.inj g1)
    rcases g Y hY with ⟨⟨p, hp, h0⟩, -⟩ | ⟨-, h⟩
    · exact absurd h0 (hdet p hp)
    · exact h

/-- What matters of a closed-form kernel are its formula and metric. -/
theorem nbr_formula (bs : Flt → ℝ → ℝ) (k k' : KernelObj) (hs : k.fn.Suits k.deform.metric) (hf : k'.fn = k.fn)
    (hm : k'.deform.metric = k.deform.metric) {f : Nat} (len : Fin f → ℝ) (X : Tensor ℝ) (N n : Nat) (nn : Tensor Int) (p : Nat) (q : Fin f → ℝ) :
    nbrCov bs k' len X N n nn p = nbrCov bs k len X N n nn p ∧ nbrCross bs k' len X N n nn p q = nbrCross bs k len X N n nn p q :=
  ⟨by funext i j; exact covFn_formula bs k k' hs hf hm _ _ _, by funext i; exact covFn_formula bs k k' hs hf hm _ _ _⟩

theorem family_closed (bs : Flt → ℝ → ℝ) (k : KernelObj) (hsuit : k.fn.Suits k.deform.metric)
    (w : NNWrapper) (hw : w.Exact) (Q : Tensor ℝ) (m : Nat)
    (hQ : Q.shape = [m, w.f]) (hm : 0 < m) (hk0 : 0 < w.nnCount) (hkN : w.nnCount ≤ w.N) :
    ∃ nn : Tensor Int, (∀ p < m, ∃ l : List Nat, rowList nn w.nnCount p = l.map Int.ofNat ∧
        Nearest (· < w.N) (fun j => w.dist (rowPt Q w.f p) (rowPt w.train w.f j)) w.nnCount l) ∧
      (∀ (len : Fin w.f → ℝ) (τ : ℝ), (∀ c, 0 < len c) → (0 < τ ∨ 0 ≤ τ ∧ DistinctRows w.train w.N w.f) → ∀ p < m,
        (nbrCov bs k len w.train w.N w.nnCount nn p + τ • (1 : Matrix (Fin w.nnCount) (Fin w.nnCount) ℝ)).PosDef) ∧
      ∀ (Y : Tensor ℝ), Y.shape = [w.N] → ∀ (R : Regressor) (len : Fin w.f → ℝ) (τ σ : ℝ), R.Has k len τ σ →
        (0 < τ ∨ 0 ≤ τ ∧ DistinctRows w.train w.N w.f) →
        ∃ μ v, regressAny bs R w Q w.train Y = .ok (μ, v) ∧ μ.shape = [m] ∧ v.shape = [m] ∧
          ∀ p < m,
            μ.get [p] = Spec.krigingMean (nbrCov bs k len w.train w.N w.nnCount nn p + τ • (1 : Matrix (Fin w.nnCount) (Fin w.nnCount) ℝ))
              (nbrCross bs k len w.train w.N w.nnCount nn p (rowPt Q w.f p)) (nbrTargets Y w.N w.nnCount nn p 0) ∧
            v.get [p] = σ * Spec.krigingVar 1 (nbrCov bs k len w.train w.N w.nnCount nn p + τ • (1 : Matrix (Fin w.nnCount) (Fin w.nnCount) ℝ))
              (nbrCross bs k len w.train w.N w.nnCount nn p (rowPt Q w.f p)) := by
  obtain ⟨nn, h1, h2⟩ := regress_family bs w hw Q m hQ hm hk0 hkN
  have hpd : ∀ (len : Fin w.f → ℝ) (τ : ℝ), (∀ c, 0 < len c) → (0 < τ ∨ 0 ≤ τ ∧ DistinctRows w.train w.N w.f) → ∀ p < m,
        (nbrCov bs k len w.train w.N w.nnCount nn p + τ • (1 : Matrix (Fin w.nnCount) (Fin w.nnCount) ℝ)).PosDef := fun len τ hl hτ p hp => by
    obtain ⟨l, e1, e2⟩ := h1 p hp
    have hc := nbrCov_definite bs k hsuit len hl w.train w.N w.nnCount nn p
    have hsuf : (Noise.homoscedastic τ).Suffices m w.nnCount (DistinctNeighbours w.train w.N w.f w.nnCount nn p) :=
      hτ.imp_right fun h => ⟨h.1, distinct_of_nodup e1 e2.nodup e2.mem h.2⟩
    exact Noise.posdef_of_suffices hsuf hp hc.1 hc.2
  refine ⟨nn, h1, hpd, fun Y hY R len τ σ hR hτ => ?_⟩
  have hmat : ∀ p, R.gp.noise.mat w.nnCount p = τ • (1 : Matrix (Fin w.nnCount) (Fin w.nnCount) ℝ) := fun p => by rw [hR.noise]; rfl
  have hform := fun p => nbr_formula bs k R.kernel hsuit hR.fn hR.metric len w.train w.N w.nnCount nn p (rowPt Q w.f p)
  obtain ⟨μ, v, r1, r2, r3, r4⟩ := h2 R len Y hR.made hR.kout hR.lengths (by rw [hR.noise]; trivial) hY fun p hp => by
    rw [hmat, (hform p).1]
    exact Kriging.det_ne_zero (hpd len τ (hasLengths_pos hR.lengths) hτ p hp)
  refine ⟨μ, v, r1, r2, r3, fun p hp => ?_⟩
  have := r4 p hp
  rw [hmat, (hform p).1, (hform p).2, hR.scale] at this
  exact this

/-- **C104**, closed-form kernels: for every training set, index and test points, the predictions are infinitely differentiable functions of the length
scales and the noise — for all positive ones, down to noise zero if the training points are pairwise different — and the variances are the
variance scale times such a function. -/
theorem C104_smooth (bs : Flt → ℝ → ℝ) (k : KernelObj) (hsuit : k.fn.Suits k.deform.metric)
    (w : NNWrapper) (hw : w.Exact) (Q Y : Tensor ℝ) (m : Nat)
    (hQ : Q.shape = [m, w.f]) (hY : Y.shape = [w.N]) (hm : 0 < m) (hk0 : 0 < w.nnCount) (hkN : w.nnCount ≤ w.N) :
    ∃ M V : Nat → (Fin w.f → ℝ) × ℝ → ℝ,
      (∀ p < m, ContDiffOn ℝ ∞ (M p) (w.hyperDomain) ∧ ContDiffOn ℝ ∞ (V p) (w.hyperDomain)) ∧
      ∀ (R : Regressor) (len : Fin w.f → ℝ) (τ σ : ℝ), R.Has k len τ σ → (len, τ) ∈ w.hyperDomain →
        ∃ μ v, regressAny bs R w Q w.train Y = .ok (μ, v) ∧ μ.shape = [m] ∧ v.shape = [m] ∧
          ∀ p < m, μ.get [p] = M p (len, τ) ∧ v.get [p] = σ * V p (len, τ) := by
  obtain ⟨nn, h1, h2, h3⟩ := family_closed bs k hsuit w hw Q m hQ hm hk0 hkN
  let A : Nat → (Fin w.f → ℝ) × ℝ → Matrix (Fin w.nnCount) (Fin w.nnCount) ℝ := fun p x =>
    nbrCov bs k x.1 w.train w.N w.nnCount nn p + x.2 • (1 : Matrix (Fin w.nnCount) (Fin w.nnCount) ℝ)
  let κ : Nat → (Fin w.f → ℝ) × ℝ → Fin w.nnCount → ℝ := fun p x => nbrCross bs k x.1 w.train w.N w.nnCount nn p (rowPt Q w.f p)
  have hl : ∀ c, ContDiffOn ℝ ∞ (fun x : (Fin w.f → ℝ) × ℝ => x.1 c) w.hyperDomain := fun c => by fun_prop
  have hcs : ∀ a b : Fin w.f → ℝ, ContDiffOn ℝ ∞ (fun x : (Fin w.f → ℝ) × ℝ => k.covFn bs x.1 a b) w.hyperDomain := fun a b =>
    covFn_smooth bs k hsuit a b hl fun x hx => hx.1
  have hAs : ∀ p i j, ContDiffOn ℝ ∞ (fun x => A p x i j) w.hyperDomain := fun p i j =>
    (hcs _ _).add (contDiffOn_snd.mul contDiffOn_const)
  have hks : ∀ p i, ContDiffOn ℝ ∞ (fun x => κ p x i) w.hyperDomain := fun p i => hcs _ _
  have hdet : ∀ p < m, ∀ x ∈ w.hyperDomain, (A p x).det ≠ 0 := fun p hp x hx => Kriging.det_ne_zero (h2 x.1 x.2 hx.1 hx.2 p hp)
  refine ⟨fun p x => Spec.krigingMean (A p x) (κ p x) (nbrTargets Y w.N w.nnCount nn p 0), fun p x => Spec.krigingVar 1 (A p x) (κ p x),
    fun p hp => ⟨?_, ?_⟩, fun R len τ σ hR hx => h3 Y hY R len τ σ hR hx.2⟩
  · exact quad_smooth (hAs p) (hdet p hp) (hks p) fun i => contDiffOn_const
  · exact contDiffOn_const.sub (quad_smooth (hAs p) (hdet p hp) (hks p) (hks p))

/-- **C104**, general Matérn kernel: on pairwise different training points the predictions are infinitely differentiable functions of the smoothness, the
length scales and the noise, for every positive smoothness and every noise above the defect of the kernel at distance zero (C62). -/
theorem C104_smooth_matern (w : NNWrapper) (hw : w.Exact) (hdist : DistinctRows w.train w.N w.f) (Q Y : Tensor ℝ) (m : Nat)
    (hQ : Q.shape = [m, w.f]) (hY : Y.shape = [w.N]) (hm : 0 < m) (hk0 : 0 < w.nnCount) (hkN : w.nnCount ≤ w.N) :
    ∃ M V : Nat → ℝ × (Fin w.f → ℝ) × ℝ → ℝ,
      (∀ p < m, ContDiffOn ℝ ∞ (M p) (w.maternDomain) ∧ ContDiffOn ℝ ∞ (V p) (w.maternDomain)) ∧
      ∀ (R : Regressor) (ν : ℝ) (len : Fin w.f → ℝ) (τ σ : ℝ) (q : Param), R.kernel.smoothness = some q → q.val = Flt.fin ν →
        R.kernel.fn = .gen → R.kernel.deform.metric = .l2 → R.Has R.kernel len τ σ → (ν, len, τ) ∈ w.maternDomain →
        ∃ μ v, regressAny maternGen R w Q w.train Y = .ok (μ, v) ∧ μ.shape = [m] ∧ v.shape = [m] ∧
          ∀ p < m, μ.get [p] = M p (ν, len, τ) ∧ v.get [p] = σ * V p (ν, len, τ) := by
  obtain ⟨nn, h1, h2⟩ := regress_family maternGen w hw Q m hQ hm hk0 hkN
  let c : ℝ × (Fin w.f → ℝ) × ℝ → (Fin w.f → ℝ) → (Fin w.f → ℝ) → ℝ := fun x a b =>
    maternGen (Flt.fin x.1) (distOf .l2 (fun c => a c / x.2.1 c) fun c => b c / x.2.1 c)
  let P : Nat → Fin w.nnCount → Fin w.f → ℝ := fun p j => pt w.train w.f (pointOf w.N (nn.get [p, j]))
  let G : Nat → ℝ × (Fin w.f → ℝ) × ℝ → Matrix (Fin w.nnCount) (Fin w.nnCount) ℝ := fun p x => Matrix.of fun i j => c x (P p i) (P p j)
  let A : Nat → ℝ × (Fin w.f → ℝ) × ℝ → Matrix (Fin w.nnCount) (Fin w.nnCount) ℝ := fun p x =>
    G p x + x.2.2 • (1 : Matrix (Fin w.nnCount) (Fin w.nnCount) ℝ)
  let κ : Nat → ℝ × (Fin w.f → ℝ) × ℝ → Fin w.nnCount → ℝ := fun p x j => c x (rowPt Q w.f p) (P p j)
  have hl : ∀ c, ContDiffOn ℝ ∞ (fun x : ℝ × (Fin w.f → ℝ) × ℝ => x.2.1 c) w.maternDomain := fun c => by fun_prop
  have hcs : ∀ a b : Fin w.f → ℝ, ContDiffOn ℝ ∞ (fun x => c x a b) w.maternDomain := fun a b =>
    gen_smooth a b contDiffOn_fst (fun x hx => hx.1) hl fun x hx => hx.2.1
  have hτs : ContDiffOn ℝ ∞ (fun x : ℝ × (Fin w.f → ℝ) × ℝ => x.2.2) w.maternDomain := by fun_prop
  have hAs : ∀ p i j, ContDiffOn ℝ ∞ (fun x => A p x i j) w.maternDomain := fun p i j => (hcs _ _).add (hτs.mul contDiffOn_const)
  have hpd : ∀ p < m, ∀ x ∈ w.maternDomain, (A p x).PosDef := fun p hp x hx => by
    obtain ⟨l, e1, e2⟩ := h1 p hp
    have hdn := distinct_of_nodup e1 e2.nodup e2.mem hdist
    refine (gen_kriging hx.1 hx.2.2 hk0 (fun j : Fin w.nnCount => fun c => P p j c / x.2.1 c) (fun i j h => ?_) (G p x) fun i j => rfl).1
    by_contra hij
    obtain ⟨c, hc, hne⟩ := hdn i j hij
    exact hne ((div_left_inj' (hx.2.1 ⟨c, hc⟩).ne').1 (congrFun h ⟨c, hc⟩))
  have hdet : ∀ p < m, ∀ x ∈ w.maternDomain, (A p x).det ≠ 0 := fun p hp x hx => Kriging.det_ne_zero (hpd p hp x hx)
  refine ⟨fun p x => Spec.krigingMean (A p x) (κ p x) (nbrTargets Y w.N w.nnCount nn p 0), fun p x => Spec.krigingVar 1 (A p x) (κ p x),
    fun p hp => ⟨?_, ?_⟩, fun R ν len τ σ q hsm hq hfn hme hR hx => ?_⟩
  · exact quad_smooth (hAs p) (hdet p hp) (fun i => hcs _ _) fun i => contDiffOn_const
  · exact contDiffOn_const.sub (quad_smooth (hAs p) (hdet p hp) (fun i => hcs _ _) (fun i => hcs _ _))
  · have hcov : ∀ a b, R.kernel.covFn maternGen len a b = c (ν, len, τ) a b := fun a b => by
      unfold KernelObj.covFn
      rw [hfn, hme, hsm, Option.map_some, Option.getD_some, hq]; rfl
    have e1 : ∀ p, nbrCov maternGen R.kernel len w.train w.N w.nnCount nn p + R.gp.noise.mat w.nnCount p = A p (ν, len, τ) := fun p => by
      rw [hR.noise]
      show _ = G p (ν, len, τ) + τ • (1 : Matrix (Fin w.nnCount) (Fin w.nnCount) ℝ)
      congr 1
      funext i j
      exact hcov _ _
    have e2 : ∀ p, nbrCross maternGen R.kernel len w.train w.N w.nnCount nn p (rowPt Q w.f p) = κ p (ν, len, τ) := fun p => by
      funext i
      exact hcov _ _
    obtain ⟨μ, v, r1, r2, r3, r4⟩ := h2 R len Y hR.made hR.kout hR.lengths (by rw [hR.noise]; trivial) hY fun p hp => by
      rw [e1]; exact hdet p hp _ hx
    refine ⟨μ, v, r1, r2, r3, fun p hp => ?_⟩
    have := r4 p hp
    rw [e1, e2, hR.scale] at this
    exact this

/-- The prediction from given neighbours, if the covariances are close to given ones. -/
theorem kriging_near {n : Nat} (A₀ : Matrix (Fin n) (Fin n) ℝ) (hd : A₀.det ≠ 0) (k₀ y : Fin n → ℝ) (σ : ℝ) {ε : ℝ} (hε : 0 < ε) :
    ∃ δ > 0, ∀ (A : Matrix (Fin n) (Fin n) ℝ) (k : Fin n → ℝ), (∀ i j, |A i j - A₀ i j| < δ) → (∀ i, |k i - k₀ i| < δ) →
      |Spec.krigingMean A k y - Spec.krigingMean A₀ k₀ y| < ε ∧ |σ * Spec.krigingVar 1 A k - σ * Spec.krigingVar 1 A₀ k₀| < ε := by
  let S : Set ((Fin n → Fin n → ℝ) × (Fin n → ℝ)) := {x | (Matrix.of x.1).det ≠ 0}
  have hcd : Continuous fun x : (Fin n → Fin n → ℝ) × (Fin n → ℝ) => (Matrix.of x.1).det := by
    simp only [Matrix.det_apply, Matrix.of_apply]
    fun_prop
  have hS : IsOpen S := isOpen_ne_fun hcd continuous_const
  have h0 : ((fun i j => A₀ i j, k₀) : (Fin n → Fin n → ℝ) × (Fin n → ℝ)) ∈ S := hd
  have hA : ∀ i j, ContDiffOn ℝ ∞ (fun x : (Fin n → Fin n → ℝ) × (Fin n → ℝ) => (Matrix.of x.1) i j) S := fun i j => by
    simp only [Matrix.of_apply]; fun_prop
  have hk : ∀ i, ContDiffOn ℝ ∞ (fun x : (Fin n → Fin n → ℝ) × (Fin n → ℝ) => x.2 i) S := fun i => by fun_prop
  have c1 := (quad_smooth hA (fun x hx => hx) hk fun i => contDiffOn_const (c := y i)).continuousOn.continuousAt (hS.mem_nhds h0)
  have c2 := ((contDiffOn_const (c := σ)).mul ((contDiffOn_const (c := (1 : ℝ))).sub
    (quad_smooth hA (fun x hx => hx) hk hk))).continuousOn.continuousAt (hS.mem_nhds h0)
  obtain ⟨δ1, hδ1, g1⟩ := Metric.continuousAt_iff.1 c1 ε hε
  obtain ⟨δ2, hδ2, g2⟩ := Metric.continuousAt_iff.1 c2 ε hε
  refine ⟨min δ1 δ2, lt_min hδ1 hδ2, fun A k e1 e2 => ?_⟩
  have hdist : ∀ δ > 0, min δ1 δ2 ≤ δ → dist ((fun i j => A i j, k) : (Fin n → Fin n → ℝ) × (Fin n → ℝ)) (fun i j => A₀ i j, k₀) < δ := fun δ hδ hle => by
    rw [Prod.dist_eq, max_lt_iff]
    refine ⟨(dist_pi_lt_iff hδ).2 fun i => (dist_pi_lt_iff hδ).2 fun j => ?_, (dist_pi_lt_iff hδ).2 fun i => ?_⟩
    · rw [Real.dist_eq]; exact (e1 i j).trans_le hle
    · rw [Real.dist_eq]; exact (e2 i).trans_le hle
  exact ⟨g1 (hdist δ1 hδ1 (min_le_left _ _)), g2 (hdist δ2 hδ2 (min_le_right _ _))⟩

theorem sum_scaled {f : Nat} (x y len : Fin f → ℝ) : ∑ c, (x c / len c - y c / len c) ^ 2 = ∑ c, (x c - y c) ^ 2 / len c ^ 2 :=
  Finset.sum_congr rfl fun c _ => by rw [← sub_div, div_pow]

/-- With long length scales any two points are almost perfectly correlated. -/
theorem covFn_long (bs : Flt → ℝ → ℝ) (k : KernelObj) (hs : k.fn.Suits k.deform.metric) {f : Nat} (x y : Fin f → ℝ) {δ : ℝ} (hδ : 0 < δ) :
    ∃ L, ∀ len : Fin f → ℝ, (∀ c, L ≤ len c) → |k.covFn bs len x y - 1| < δ := by
  have hg : k.fn ≠ .gen := fun h => by rw [h] at hs; exact hs
  have hm : k.deform.metric = .F2 ∨ k.deform.metric = .l2 := by
    cases hf : k.fn <;> rw [hf] at hs <;> first | exact .inl hs | exact .inr hs | exact hs.elim
  have hc : Continuous (KFn.value bs ((k.smoothness.map Param.val).getD none) k.fn) := (value_smooth bs _ hg).continuous
  have h0 : KFn.value bs ((k.smoothness.map Param.val).getD none) k.fn 0 = 1 := value_zero _ _ _ (suits_closed hs)
  obtain ⟨η, hη, hv⟩ := Metric.continuous_iff.1 hc 0 δ hδ
  set D := ∑ c, (x c - y c) ^ 2 with hD
  have hD0 : 0 ≤ D := Finset.sum_nonneg fun c _ => sq_nonneg _
  set L := D / (min η (η ^ 2)) + 1 with hL
  have hη' : 0 < min η (η ^ 2) := lt_min hη (pow_pos hη 2)
  have hL1 : 1 ≤ L := by rw [hL]; linarith [div_nonneg hD0 hη'.le]
  refine ⟨L, fun len hlen => ?_⟩
  have hS : ∑ c, (x c / len c - y c / len c) ^ 2 < min η (η ^ 2) := by
    rw [sum_scaled]
    have h1 : ∑ c, (x c - y c) ^ 2 / len c ^ 2 ≤ D / L := by
      rw [hD, Finset.sum_div]
      refine Finset.sum_le_sum fun c _ => div_le_div_of_nonneg_left (sq_nonneg _) (by linarith) ?_
      have := hlen c
      nlinarith
    refine h1.trans_lt ?_
    rw [div_lt_iff₀ (by linarith), hL, mul_add, mul_div_cancel₀ _ hη'.ne']
    linarith
  have hS0 : 0 ≤ ∑ c, (x c / len c - y c / len c) ^ 2 := Finset.sum_nonneg fun c _ => sq_nonneg _
  have := hv (distOf k.deform.metric (fun c => x c / len c) fun c => y c / len c) (by
    rw [Real.dist_eq, sub_zero]
    rcases hm with h | h
    · rw [h, distOf_F2, abs_of_nonneg hS0]
      exact hS.trans_le (min_le_left _ _)
    · rw [h, distOf_l2_sqrt, abs_of_nonneg (Real.sqrt_nonneg _), Real.sqrt_lt' hη]
      exact hS.trans_le (min_le_right _ _))
  rw [h0, Real.dist_eq] at this
  exact this

/-- With short length scales any two different points are almost uncorrelated. -/
theorem covFn_short (bs : Flt → ℝ → ℝ) (k : KernelObj) (hs : k.fn.Suits k.deform.metric) {f : Nat} (x y : Fin f → ℝ) (hxy : x ≠ y) {δ : ℝ} (hδ : 0 < δ) :
    ∃ t > 0, ∀ len : Fin f → ℝ, (∀ c, 0 < len c ∧ len c ≤ t) → |k.covFn bs len x y - 0| < δ := by
  have hg : k.fn ≠ .gen := fun h => by rw [h] at hs; exact hs
  have hm : k.deform.metric = .F2 ∨ k.deform.metric = .l2 := by
    cases hf : k.fn <;> rw [hf] at hs <;> first | exact .inl hs | exact .inr hs | exact hs.elim
  have hbs : KFn.value bs ((k.smoothness.map Param.val).getD none) k.fn = KFn.value maternGen ((k.smoothness.map Param.val).getD none) k.fn := by
    cases hf : k.fn <;> first | rfl | exact absurd hf hg
  obtain ⟨T, hT⟩ := Filter.eventually_atTop.1 ((value_tendsto k fun h => absurd h hg).eventually (Metric.ball_mem_nhds 0 hδ))
  obtain ⟨c, hc⟩ := Function.ne_iff.1 hxy
  have hd : 0 < |x c - y c| := abs_pos.2 (sub_ne_zero.2 hc)
  refine ⟨|x c - y c| / (|T| + 1), by positivity, fun len hlen => ?_⟩
  have h1 : (|T| + 1) ^ 2 ≤ ∑ c, (x c / len c - y c / len c) ^ 2 := by
    rw [sum_scaled]
    refine le_trans ?_ (Finset.single_le_sum (f := fun c => (x c - y c) ^ 2 / len c ^ 2) (fun _ _ => by positivity) (Finset.mem_univ c))
    obtain ⟨l0, l1⟩ := hlen c
    rw [le_div_iff₀ (by positivity), ← mul_pow, ← sq_abs (x c - y c)]
    refine pow_le_pow_left₀ (by positivity) ?_ 2
    rw [le_div_iff₀ (by positivity)] at l1
    linarith
  have hTd : T ≤ distOf k.deform.metric (fun c => x c / len c) fun c => y c / len c := by
    have hT1 : T ≤ |T| + 1 := by linarith [le_abs_self T]
    rcases hm with h | h
    · rw [h, distOf_F2]
      refine hT1.trans (le_trans ?_ h1)
      nlinarith [abs_nonneg T]
    · rw [h, distOf_l2_sqrt]
      exact hT1.trans (Real.le_sqrt_of_sq_le h1)
  have := hT _ hTd
  rw [Real.dist_eq] at this
  unfold KernelObj.covFn
  rw [hbs]
  exact this

/-- Sums over the neighbours in a row. -/
theorem nbr_sum {Y : Tensor ℝ} {N n : Nat} (hY : Y.shape = [N]) {nn : Tensor Int} {p : Nat} {l : List Nat} (h : rowList nn n p = l.map Int.ofNat)
    (hl : l.length = n) (F : ℝ → ℝ) : ∑ j, F (nbrTargets Y N n nn p 0 j) = (l.map fun x => F (Y.get [x])).sum := by
  rw [← List.sum_ofFn]
  congr 1
  refine List.ext_getElem (by simp [hl]) fun i h1 h2 => ?_
  simp only [List.getElem_ofFn, List.getElem_map]
  have hi : i < n := by simpa using h1
  obtain ⟨x, x1, x2⟩ := rowList_get h hi
  rw [List.getElem?_eq_getElem (by omega)] at x1
  show F (feature Y (pointOf N (nn.get [p, i])) 0) = _
  rw [x2, pointOf_nat, ← Option.some.inj x1]
  simp only [feature, hY]

theorem quad_cauchy {n : Nat} {A : Matrix (Fin n) (Fin n) ℝ} (h : A.PosDef) (κ y : Fin n → ℝ) :
    (κ ⬝ᵥ (A⁻¹ *ᵥ y)) ^ 2 ≤ (κ ⬝ᵥ (A⁻¹ *ᵥ κ)) * (y ⬝ᵥ (A⁻¹ *ᵥ y)) := by
  have hs : y ⬝ᵥ (A⁻¹ *ᵥ κ) = κ ⬝ᵥ (A⁻¹ *ᵥ y) := by
    rw [dotProduct_comm]; exact Kriging.swap (Kriging.posdef_symm h) κ y
  have hq : ∀ t : ℝ, 0 ≤ (κ ⬝ᵥ (A⁻¹ *ᵥ κ)) * (t * t) + (2 * (κ ⬝ᵥ (A⁻¹ *ᵥ y))) * t + y ⬝ᵥ (A⁻¹ *ᵥ y) := fun t => by
    have := Kriging.quad_nonneg h (t • κ + y)
    rw [mulVec_add, mulVec_smul, add_dotProduct, dotProduct_add, dotProduct_add, smul_dotProduct, smul_dotProduct, dotProduct_smul, dotProduct_smul,
      hs] at this
    simp only [smul_eq_mul] at this
    linarith
  have := discrim_le_zero hq
  unfold discrim at this
  linarith

theorem flat_kriging {n : Nat} (τ : ℝ) (hτ : 0 < τ) (y : Fin n → ℝ) :
    let A₀ : Matrix (Fin n) (Fin n) ℝ := (Matrix.of fun _ _ => 1) + τ • (1 : Matrix (Fin n) (Fin n) ℝ)
    A₀.det ≠ 0 ∧ Spec.krigingMean A₀ (fun _ => 1) y = (∑ j, y j) / (n + τ) ∧ Spec.krigingVar 1 A₀ (fun _ => 1) = τ / (n + τ) := by
  intro A₀
  have hpsd : (Matrix.of fun (_ _ : Fin n) => (1 : ℝ)).PosSemidef := by
    rw [psd_iff]
    refine ⟨fun _ _ => rfl, fun v => ?_⟩
    have : ∑ i, ∑ j, v i * (Matrix.of fun (_ _ : Fin n) => (1 : ℝ)) i j * v j = (∑ i, v i) ^ 2 := by
      simp only [of_apply, mul_one, ← Finset.mul_sum, ← Finset.sum_mul, sq]
    rw [this]; positivity
  have hpd : A₀.PosDef := Kriging.posdef_of_psd_add hpsd hτ
  have hdet := Kriging.det_ne_zero hpd
  have hn : 0 < (n : ℝ) + τ := by positivity
  have hone : A₀⁻¹ *ᵥ (fun _ => 1) = fun _ => 1 / ((n : ℝ) + τ) := by
    have : A₀ *ᵥ (fun _ => 1 / ((n : ℝ) + τ)) = fun _ => 1 := by
      funext i
      show (((Matrix.of fun (_ _ : Fin n) => (1 : ℝ)) + τ • (1 : Matrix (Fin n) (Fin n) ℝ)) *ᵥ (fun _ => 1 / ((n : ℝ) + τ))) i = 1
      rw [add_mulVec, smul_mulVec, one_mulVec]
      simp only [Pi.add_apply, mulVec, dotProduct, of_apply, Finset.sum_const, Finset.card_univ, Fintype.card_fin, Pi.smul_apply, smul_eq_mul,
        nsmul_eq_mul]
      field_simp
    rw [← this, Kriging.inv_mulVec_cancel hdet]
  refine ⟨hdet, ?_, ?_⟩
  · rw [Spec.krigingMean, ← Kriging.swap (Kriging.posdef_symm hpd), hone]
    simp only [dotProduct, ← Finset.mul_sum]
    ring
  · rw [Spec.krigingVar, hone]
    simp only [dotProduct, Finset.sum_const, Finset.card_univ, Fintype.card_fin, nsmul_eq_mul, one_mul]
    field_simp; ring

theorem diag_kriging {n : Nat} (τ : ℝ) (hτ : 0 ≤ τ) (k y : Fin n → ℝ) :
    let A₀ : Matrix (Fin n) (Fin n) ℝ := 1 + τ • (1 : Matrix (Fin n) (Fin n) ℝ)
    A₀.det ≠ 0 ∧ Spec.krigingMean A₀ k y = (k ⬝ᵥ y) / (1 + τ) ∧ Spec.krigingVar 1 A₀ k = 1 - (k ⬝ᵥ k) / (1 + τ) := by
  intro A₀
  have hpd : A₀.PosDef := Kriging.posdef_add_smul_one PosDef.one hτ
  have hdet := Kriging.det_ne_zero hpd
  have hn : 0 < 1 + τ := by positivity
  have hinv : ∀ z : Fin n → ℝ, A₀⁻¹ *ᵥ z = (1 / (1 + τ)) • z := fun z => by
    have : A₀ *ᵥ ((1 / (1 + τ)) • z) = z := by
      show (1 + τ • (1 : Matrix (Fin n) (Fin n) ℝ)) *ᵥ _ = z
      rw [add_mulVec, smul_mulVec, one_mulVec]
      funext i
      simp only [Pi.add_apply, Pi.smul_apply, smul_eq_mul]
      field_simp
    conv_lhs => rw [← this]
    rw [Kriging.inv_mulVec_cancel hdet]
  refine ⟨hdet, ?_, ?_⟩
  · rw [Spec.krigingMean, hinv, dotProduct_smul, smul_eq_mul]; ring
  · rw [Spec.krigingVar, hinv, dotProduct_smul, smul_eq_mul]; ring

/-- **C104**: with long length scales a prediction approaches the shrunken average of the neighbours' responses, `∑ y / (n + τ)`, with the variance
`σ τ / (n + τ)`, whatever the kernel, the data and the test points. -/
theorem C104_long_length_scales (bs : Flt → ℝ → ℝ) (k : KernelObj) (hsuit : k.fn.Suits k.deform.metric)
    (w : NNWrapper) (hw : w.Exact) (Q Y : Tensor ℝ) (m : Nat)
    (hQ : Q.shape = [m, w.f]) (hY : Y.shape = [w.N]) (hm : 0 < m) (hk0 : 0 < w.nnCount) (hkN : w.nnCount ≤ w.N) (τ σ : ℝ) (hτ : 0 < τ) :
    ∃ l : Nat → List Nat, (∀ p < m, Nearest (· < w.N) (fun j => w.dist (rowPt Q w.f p) (rowPt w.train w.f j)) w.nnCount (l p)) ∧
      ∀ ε > 0, ∃ L, ∀ (R : Regressor) (len : Fin w.f → ℝ), R.Has k len τ σ → (∀ c, L ≤ len c) →
        ∃ μ v, regressAny bs R w Q w.train Y = .ok (μ, v) ∧ μ.shape = [m] ∧ v.shape = [m] ∧
          ∀ p < m, |μ.get [p] - ((l p).map fun x => Y.get [x]).sum / (w.nnCount + τ)| < ε ∧ |v.get [p] - σ * (τ / (w.nnCount + τ))| < ε := by
  obtain ⟨nn, h1, h2, h3⟩ := family_closed bs k hsuit w hw Q m hQ hm hk0 hkN
  choose! l l1 l2 using h1
  refine ⟨l, l2, fun ε hε => ?_⟩
  have hev : ∀ p : Fin m, ∃ L, ∀ len : Fin w.f → ℝ, (∀ c, L ≤ len c) →
      |Spec.krigingMean (nbrCov bs k len w.train w.N w.nnCount nn p + τ • (1 : Matrix (Fin w.nnCount) (Fin w.nnCount) ℝ))
        (nbrCross bs k len w.train w.N w.nnCount nn p (rowPt Q w.f p)) (nbrTargets Y w.N w.nnCount nn p 0) -
        ((l p).map fun x => Y.get [x]).sum / (w.nnCount + τ)| < ε ∧
      |σ * Spec.krigingVar 1 (nbrCov bs k len w.train w.N w.nnCount nn p + τ • (1 : Matrix (Fin w.nnCount) (Fin w.nnCount) ℝ))
        (nbrCross bs k len w.train w.N w.nnCount nn p (rowPt Q w.f p)) - σ * (τ / (w.nnCount + τ))| < ε := fun p => by
    obtain ⟨f1, f2, f3⟩ := flat_kriging τ hτ (nbrTargets Y w.N w.nnCount nn p 0)
    obtain ⟨δ, hδ, hn⟩ := kriging_near _ f1 (fun _ => 1) (nbrTargets Y w.N w.nnCount nn p 0) σ hε
    have hA : ∀ i j : Fin w.nnCount, ∃ L, ∀ len : Fin w.f → ℝ, (∀ c, L ≤ len c) → |nbrCov bs k len w.train w.N w.nnCount nn p i j - 1| < δ :=
      fun i j => covFn_long bs k hsuit _ _ hδ
    have hk : ∀ j : Fin w.nnCount, ∃ L, ∀ len : Fin w.f → ℝ, (∀ c, L ≤ len c) →
        |nbrCross bs k len w.train w.N w.nnCount nn p (rowPt Q w.f p) j - 1| < δ := fun j => covFn_long bs k hsuit _ _ hδ
    choose LA hLA using hA
    choose Lk hLk using hk
    refine ⟨(∑ i, ∑ j, |LA i j|) + ∑ j, |Lk j|, fun len hlen => ?_⟩
    have g1 : ∀ i j, LA i j ≤ (∑ i, ∑ j, |LA i j|) + ∑ j, |Lk j| := fun i j => by
      have a1 : |LA i j| ≤ ∑ j, |LA i j| := Finset.single_le_sum (f := fun j => |LA i j|) (fun _ _ => abs_nonneg _) (Finset.mem_univ j)
      have a2 : ∑ j, |LA i j| ≤ ∑ i, ∑ j, |LA i j| :=
        Finset.single_le_sum (f := fun i => ∑ j, |LA i j|) (fun _ _ => Finset.sum_nonneg fun _ _ => abs_nonneg _) (Finset.mem_univ i)
      have a3 : 0 ≤ ∑ j, |Lk j| := Finset.sum_nonneg fun _ _ => abs_nonneg _
      linarith [le_abs_self (LA i j)]
    have g2 : ∀ j, Lk j ≤ (∑ i, ∑ j, |LA i j|) + ∑ j, |Lk j| := fun j => by
      have a1 : |Lk j| ≤ ∑ j, |Lk j| := Finset.single_le_sum (f := fun j => |Lk j|) (fun _ _ => abs_nonneg _) (Finset.mem_univ j)
      have a3 : 0 ≤ ∑ i, ∑ j, |LA i j| := Finset.sum_nonneg fun _ _ => Finset.sum_nonneg fun _ _ => abs_nonneg _
      linarith [le_abs_self (Lk j)]
    have := hn (nbrCov bs k len w.train w.N w.nnCount nn p + τ • (1 : Matrix (Fin w.nnCount) (Fin w.nnCount) ℝ))
      (nbrCross bs k len w.train w.N w.nnCount nn p (rowPt Q w.f p)) (fun i j => by
        rw [Matrix.add_apply, Matrix.add_apply, add_sub_add_right_eq_sub]
        exact hLA i j len fun c => (g1 i j).trans (hlen c)) (fun j => hLk j len fun c => (g2 j).trans (hlen c))
    have hs : ∑ j, nbrTargets Y w.N w.nnCount nn p 0 j = ((l p).map fun x => Y.get [x]).sum := nbr_sum hY (l1 p p.2) (l2 p p.2).length fun z => z
    rw [f2, f3, hs] at this
    exact this
  choose L hL using hev
  refine ⟨∑ p, |L p|, fun R len hR hlen => ?_⟩
  obtain ⟨μ, v, r1, r2, r3, r4⟩ := h3 Y hY R len τ σ hR (.inl hτ)
  refine ⟨μ, v, r1, r2, r3, fun p hp => ?_⟩
  rw [(r4 p hp).1, (r4 p hp).2]
  refine hL ⟨p, hp⟩ len fun c => le_trans ?_ (hlen c)
  exact (le_abs_self _).trans (Finset.single_le_sum (f := fun p => |L p|) (fun _ _ => abs_nonneg _) (Finset.mem_univ (⟨p, hp⟩ : Fin m)))

/-- **C104**: with short length scales on pairwise different training points a prediction approaches the prior at every other point, and at a training
point its own response shrunken by `1 + τ` with the variance `σ τ / (1 + τ)`. -/
theorem C104_short_length_scales (bs : Flt → ℝ → ℝ) (k : KernelObj) (hsuit : k.fn.Suits k.deform.metric)
    (w : NNWrapper) (hw : w.Exact) (hsep : w.Separated) (hdist : DistinctRows w.train w.N w.f) (Q Y : Tensor ℝ) (m : Nat)
    (hQ : Q.shape = [m, w.f]) (hY : Y.shape = [w.N]) (hm : 0 < m) (hk0 : 0 < w.nnCount) (hkN : w.nnCount ≤ w.N) (τ σ : ℝ) (hτ : 0 ≤ τ) :
    ∀ ε > 0, ∃ t > 0, ∀ (R : Regressor) (len : Fin w.f → ℝ), R.Has k len τ σ → (∀ c, len c ≤ t) →
      ∃ μ v, regressAny bs R w Q w.train Y = .ok (μ, v) ∧ μ.shape = [m] ∧ v.shape = [m] ∧
        ∀ p < m, ((∀ x < w.N, rowPt Q w.f p ≠ rowPt w.train w.f x) → |μ.get [p]| < ε ∧ |v.get [p] - σ| < ε) ∧
          ∀ x < w.N, rowPt Q w.f p = rowPt w.train w.f x → |μ.get [p] - Y.get [x] / (1 + τ)| < ε ∧ |v.get [p] - σ * (τ / (1 + τ))| < ε := by
  obtain ⟨nn, h1, h2, h3⟩ := family_closed bs k hsuit w hw Q m hQ hm hk0 hkN
  intro ε hε
  have hrow : ∀ x, pt w.train w.f x = rowPt w.train w.f x := fun x => by
    funext c; simp only [pt, feature, hw.1, rowPt]
  have hinj : ∀ x < w.N, ∀ y < w.N, rowPt w.train w.f x = rowPt w.train w.f y → x = y := fun x hx y hy h => by
    by_contra hne
    obtain ⟨c, hc, hcne⟩ := hdist x hx y hy hne
    rw [← hrow, ← hrow] at h
    exact hcne (congrFun h ⟨c, hc⟩)
  have hev : ∀ p : Fin m, ∀ κ : Fin w.nnCount → ℝ, (∀ j, κ j = if rowPt Q w.f p = pt w.train w.f (pointOf w.N (nn.get [p, j])) then 1 else 0) →
      ∃ t > 0, ∀ len : Fin w.f → ℝ, (∀ c, 0 < len c ∧ len c ≤ t) →
      |Spec.krigingMean (nbrCov bs k len w.train w.N w.nnCount nn p + τ • (1 : Matrix (Fin w.nnCount) (Fin w.nnCount) ℝ))
        (nbrCross bs k len w.train w.N w.nnCount nn p (rowPt Q w.f p)) (nbrTargets Y w.N w.nnCount nn p 0) -
        (κ ⬝ᵥ nbrTargets Y w.N w.nnCount nn p 0) / (1 + τ)| < ε ∧
      |σ * Spec.krigingVar 1 (nbrCov bs k len w.train w.N w.nnCount nn p + τ • (1 : Matrix (Fin w.nnCount) (Fin w.nnCount) ℝ))
        (nbrCross bs k len w.train w.N w.nnCount nn p (rowPt Q w.f p)) - σ * (1 - (κ ⬝ᵥ κ) / (1 + τ))| < ε := fun p κ hκ => by
    obtain ⟨lp, e1, e2⟩ := h1 p p.2
    have hdn := distinct_of_nodup e1 e2.nodup e2.mem hdist
    obtain ⟨f1, f2, f3⟩ := diag_kriging τ hτ κ (nbrTargets Y w.N w.nnCount nn p 0)
    obtain ⟨δ, hδ, hn⟩ := kriging_near _ f1 κ (nbrTargets Y w.N w.nnCount nn p 0) σ hε
    have hA : ∀ i j : Fin w.nnCount, ∀ᶠ t in 𝓝[>] (0 : ℝ), ∀ len : Fin w.f → ℝ, (∀ c, 0 < len c ∧ len c ≤ t) →
        |nbrCov bs k len w.train w.N w.nnCount nn p i j - (1 : Matrix (Fin w.nnCount) (Fin w.nnCount) ℝ) i j| < δ := fun i j => by
      by_cases hij : i = j
      · subst hij
        refine Filter.Eventually.of_forall fun t len _ => ?_
        rw [Matrix.one_apply_eq, show nbrCov bs k len w.train w.N w.nnCount nn p i i = 1 from covFn_self bs k hsuit _ _, sub_self, abs_zero]
        exact hδ
      · obtain ⟨t, ht, h⟩ := covFn_short bs k hsuit (pt w.train w.f (pointOf w.N (nn.get [p, i]))) (pt w.train w.f (pointOf w.N (nn.get [p, j])))
          (fun he => by obtain ⟨c, hc, hne⟩ := hdn i j hij; exact hne (congrFun he ⟨c, hc⟩)) hδ
        filter_upwards [Ioc_mem_nhdsGT ht] with t' ht' len hlen
        rw [Matrix.one_apply_ne hij]
        exact h len fun c => ⟨(hlen c).1, (hlen c).2.trans ht'.2⟩
    have hk : ∀ j : Fin w.nnCount, ∀ᶠ t in 𝓝[>] (0 : ℝ), ∀ len : Fin w.f → ℝ, (∀ c, 0 < len c ∧ len c ≤ t) →
        |nbrCross bs k len w.train w.N w.nnCount nn p (rowPt Q w.f p) j - κ j| < δ := fun j => by
      rw [hκ]
      by_cases hq : rowPt Q w.f p = pt w.train w.f (pointOf w.N (nn.get [p, j]))
      · refine Filter.Eventually.of_forall fun t len _ => ?_
        rw [if_pos hq, show nbrCross bs k len w.train w.N w.nnCount nn p (rowPt Q w.f p) j = 1 by
          unfold nbrCross; rw [hq]; exact covFn_self bs k hsuit _ _, sub_self, abs_zero]
        exact hδ
      · obtain ⟨t, ht, h⟩ := covFn_short bs k hsuit _ _ hq hδ
        filter_upwards [Ioc_mem_nhdsGT ht] with t' ht' len hlen
        rw [if_neg hq]
        exact h len fun c => ⟨(hlen c).1, (hlen c).2.trans ht'.2⟩
    have hall := (Filter.eventually_all.2 fun i => Filter.eventually_all.2 fun j => hA i j).and
      ((Filter.eventually_all.2 hk).and (self_mem_nhdsWithin (a := (0 : ℝ)) (s := Set.Ioi 0)))
    obtain ⟨t, t1, t2, t3⟩ := hall.exists
    refine ⟨t, t3, fun len hlen => ?_⟩
    have := hn (nbrCov bs k len w.train w.N w.nnCount nn p + τ • (1 : Matrix (Fin w.nnCount) (Fin w.nnCount) ℝ))
      (nbrCross bs k len w.train w.N w.nnCount nn p (rowPt Q w.f p)) (fun i j => by
        rw [Matrix.add_apply, Matrix.add_apply, add_sub_add_right_eq_sub]
        exact t1 i j len hlen) (fun j => t2 j len hlen)
    rw [f2, f3] at this
    exact this
  classical
  choose t ht0 ht using fun p : Fin m => hev p (fun j => if rowPt Q w.f p = pt w.train w.f (pointOf w.N (nn.get [p, j])) then 1 else 0) fun j => rfl
  have hev' : ∀ᶠ s in 𝓝[>] (0 : ℝ), ∀ p : Fin m, s ≤ t p := Filter.eventually_all.2 fun p => by
    filter_upwards [Ioc_mem_nhdsGT (ht0 p)] with s hs using hs.2
  obtain ⟨s, s1, s2⟩ := (hev'.and (self_mem_nhdsWithin (a := (0 : ℝ)) (s := Set.Ioi 0))).exists
  refine ⟨s, s2, fun R len hR hlen => ?_⟩
  obtain ⟨μ, v, r1, r2, r3, r4⟩ := h3 Y hY R len τ σ hR (.inr ⟨hτ, hdist⟩)
  refine ⟨μ, v, r1, r2, r3, fun p hp => ?_⟩
  have hp' := ht ⟨p, hp⟩ len fun c => ⟨hasLengths_pos hR.lengths c, (hlen c).trans (s1 _)⟩
  simp only at hp'
  rw [← (r4 p hp).1, ← (r4 p hp).2] at hp'
  obtain ⟨lp, e1, e2⟩ := h1 p hp
  constructor
  · intro hne
    have : (fun j : Fin w.nnCount => if rowPt Q w.f p = pt w.train w.f (pointOf w.N (nn.get [p, j])) then (1 : ℝ) else 0) = 0 := by
      funext j
      obtain ⟨x, x1, x2⟩ := rowList_get e1 j.2
      rw [x2, pointOf_nat, hrow, if_neg (hne x (e2.mem x (List.mem_of_getElem? x1)))]; rfl
    rw [this] at hp'
    simpa using hp'
  · intro x hx hqx
    have hmem : x ∈ lp := by
      by_contra hnot
      obtain ⟨y, hy⟩ := List.exists_mem_of_length_pos (l := lp) (by rw [e2.length]; exact hk0)
      have hle := e2.nearest y hy x hx hnot
      rw [hqx, hsep.1] at hle
      exact absurd (hsep.2 x hx y (e2.mem y hy) (fun h => hnot (h ▸ hy))) (not_lt.mpr hle)
    obtain ⟨j, hjl, hjx⟩ := List.getElem_of_mem hmem
    have hj : j < w.nnCount := by rw [← e2.length]; exact hjl
    have : (fun i : Fin w.nnCount => if rowPt Q w.f p = pt w.train w.f (pointOf w.N (nn.get [p, i])) then (1 : ℝ) else 0) =
        Pi.single ⟨j, hj⟩ 1 := by
      funext i
      obtain ⟨y, y1, y2⟩ := rowList_get e1 i.2
      rw [y2, pointOf_nat, hrow, hqx]
      have hil : (i : Nat) < lp.length := by rw [e2.length]; exact i.2
      rw [List.getElem?_eq_getElem hil] at y1
      have hy := Option.some.inj y1
      by_cases hij : i = ⟨j, hj⟩
      · subst hij
        rw [← hy, hjx, if_pos rfl, Pi.single_eq_same]
      · rw [Pi.single_eq_of_ne hij, if_neg fun h => hij (Fin.ext ?_)]
        have := hinj x hx y (e2.mem y (hy ▸ List.getElem_mem hil)) h
        exact (List.Nodup.getElem_inj_iff e2.nodup).1 (hy.trans (this.symm.trans hjx.symm))
    rw [this, single_dotProduct, single_dotProduct, Pi.single_eq_same, one_mul, one_mul] at hp'
    have ey : nbrTargets Y w.N w.nnCount nn p 0 ⟨j, hj⟩ = Y.get [x] := by
      obtain ⟨x', x1, x2⟩ := rowList_get e1 hj
      rw [List.getElem?_eq_getElem hjl, hjx] at x1
      show feature Y (pointOf w.N (nn.get [p, j])) 0 = _
      rw [x2, pointOf_nat, ← Option.some.inj x1]
      simp only [feature, hY]
    have e2 : (1 : ℝ) - 1 / (1 + τ) = τ / (1 + τ) := by
      have : (1 + τ) ≠ 0 := by positivity
      field_simp; ring
    rw [ey, e2] at hp'
    exact hp'

/-- **C104**: a large noise silences the data: whatever the kernel, its length scales, the data and the test points, the mean is at most
`√n |y| / τ`, and the variance is within `n / τ` of the variance scale. -/
theorem C104_large_noise (bs : Flt → ℝ → ℝ) (k : KernelObj) (hsuit : k.fn.Suits k.deform.metric)
    (w : NNWrapper) (hw : w.Exact) (Q Y : Tensor ℝ) (m : Nat)
    (hQ : Q.shape = [m, w.f]) (hY : Y.shape = [w.N]) (hm : 0 < m) (hk0 : 0 < w.nnCount) (hkN : w.nnCount ≤ w.N) :
    ∃ l : Nat → List Nat, (∀ p < m, Nearest (· < w.N) (fun j => w.dist (rowPt Q w.f p) (rowPt w.train w.f j)) w.nnCount (l p)) ∧
      ∀ (R : Regressor) (len : Fin w.f → ℝ) (τ σ : ℝ), R.Has k len τ σ → 0 < τ →
        ∃ μ v, regressAny bs R w Q w.train Y = .ok (μ, v) ∧ μ.shape = [m] ∧ v.shape = [m] ∧
          ∀ p < m, (μ.get [p]) ^ 2 ≤ w.nnCount * ((l p).map fun x => (Y.get [x]) ^ 2).sum / τ ^ 2 ∧
            |v.get [p] - σ| ≤ |σ| * (w.nnCount / τ) := by
  obtain ⟨nn, h1, h2, h3⟩ := family_closed bs k hsuit w hw Q m hQ hm hk0 hkN
  choose! l l1 l2 using h1
  refine ⟨l, l2, fun R len τ σ hR hτ => ?_⟩
  obtain ⟨μ, v, r1, r2, r3, r4⟩ := h3 Y hY R len τ σ hR (.inl hτ)
  refine ⟨μ, v, r1, r2, r3, fun p hp => ?_⟩
  have hlp := hasLengths_pos hR.lengths
  set A := nbrCov bs k len w.train w.N w.nnCount nn p + τ • (1 : Matrix (Fin w.nnCount) (Fin w.nnCount) ℝ) with hA
  set κ := nbrCross bs k len w.train w.N w.nnCount nn p (rowPt Q w.f p) with hκ
  have hpd : A.PosDef := h2 len τ hlp (.inl hτ) p hp
  have hbound : ∀ z : Fin w.nnCount → ℝ, z ⬝ᵥ (A⁻¹ *ᵥ z) ≤ (z ⬝ᵥ z) / τ := fun z => by
    have hq := Kriging.quad_antitone (PosDef.one.smul hτ) hpd (fun x => by
      rw [hA, Kriging.quad_add_smul_one, smul_mulVec, one_mulVec, dotProduct_smul, smul_eq_mul]
      have := (nbrCov_definite bs k hsuit len hlp w.train w.N w.nnCount nn p).1.dotProduct_mulVec_nonneg x
      simp only [star_trivial] at this
      linarith) z
    refine hq.trans (le_of_eq ?_)
    have : (τ • (1 : Matrix (Fin w.nnCount) (Fin w.nnCount) ℝ))⁻¹ *ᵥ z = (1 / τ) • z := by
      have h : (τ • (1 : Matrix (Fin w.nnCount) (Fin w.nnCount) ℝ)) *ᵥ ((1 / τ) • z) = z := by
        rw [smul_mulVec, one_mulVec, smul_smul, mul_one_div_cancel hτ.ne', one_smul]
      conv_lhs => rw [← h]
      rw [Kriging.inv_mulVec_cancel (Kriging.det_ne_zero (PosDef.one.smul hτ))]
    rw [this, dotProduct_smul, smul_eq_mul]; ring
  have hκκ : κ ⬝ᵥ κ ≤ w.nnCount := by
    have : ∀ j, κ j * κ j ≤ 1 := fun j => by
      have h0 := nbrCross_pos bs k hsuit len w.train w.N w.nnCount nn p (rowPt Q w.f p) j
      have h1 : κ j ≤ 1 := by
        rw [hκ]
        unfold nbrCross KernelObj.covFn
        refine (C19_correlation bs _ k.fn (suits_closed hsuit) _ ?_).2.1
        cases k.deform.metric with
        | F2 => rw [distOf_F2]; exact Finset.sum_nonneg fun _ _ => sq_nonneg _
        | l2 => exact (C17_metrics _ _ 0).2.1
      have h0 : 0 < κ j := h0
      nlinarith
    calc κ ⬝ᵥ κ ≤ ∑ _ : Fin w.nnCount, (1 : ℝ) := Finset.sum_le_sum fun j _ => this j
      _ = w.nnCount := by simp
  have hτ' : 0 < τ⁻¹ := inv_pos.2 hτ
  set y := nbrTargets Y w.N w.nnCount nn p 0 with hy
  have hq1 : κ ⬝ᵥ (A⁻¹ *ᵥ κ) ≤ w.nnCount / τ := (hbound κ).trans (div_le_div_of_nonneg_right hκκ hτ.le)
  have hq0 := Kriging.quad_nonneg hpd κ
  have hy0 := Kriging.quad_nonneg hpd y
  constructor
  · have hs : ∑ j, y j ^ 2 = ((l p).map fun x => (Y.get [x]) ^ 2).sum := nbr_sum hY (l1 p hp) (l2 p hp).length fun z => z ^ 2
    rw [(r4 p hp).1, ← hs]
    have hyy : y ⬝ᵥ y = ∑ j, y j ^ 2 := Finset.sum_congr rfl fun j _ => (sq _).symm
    have hc : (κ ⬝ᵥ (A⁻¹ *ᵥ y)) ^ 2 ≤ (κ ⬝ᵥ (A⁻¹ *ᵥ κ)) * (y ⬝ᵥ (A⁻¹ *ᵥ y)) := quad_cauchy hpd κ y
    refine hc.trans ((mul_le_mul hq1 (hbound y) hy0 (by positivity)).trans (le_of_eq ?_))
    rw [hyy]; field_simp
  · rw [(r4 p hp).2, Spec.krigingVar, show σ * (1 - κ ⬝ᵥ (A⁻¹ *ᵥ κ)) - σ = -(σ * (κ ⬝ᵥ (A⁻¹ *ᵥ κ))) by ring, abs_neg, abs_mul, abs_of_nonneg hq0]
    exact mul_le_mul_of_nonneg_left hq1 (abs_nonneg _)

end MuyGPyS
