import Verif.Props.GaussCond
import Verif.Props.Reversion
import Verif.Spec.Prior

/-!
# C71: predictions are Bayesian posteriors
-/

namespace MuyGPyS
open Py Matrix MeasureTheory ProbabilityTheory

section observed

variable {Ω ι κ : Type*} [MeasurableSpace Ω] {P : Measure Ω} [Fintype ι] [Fintype κ] [DecidableEq κ]
  {f : Nat} {k : (Fin f → ℝ) → (Fin f → ℝ) → ℝ} {s : ℝ} {z : ι → Fin f → ℝ} {var : κ → ℝ} {L : ι → Ω → ℝ} {e : κ → Ω → ℝ}

/-- Noisy observations of a process, together with the process: jointly Gaussian, centred, and their covariances. -/
theorem observed (hL : ProcessAt P k s z L) (he : WhiteNoise P var e)
    (hi : IndepFun (fun ω a => L a ω) (fun ω i => e i ω) P) (u : κ → ι) :
    HasGaussianLaw (fun ω => (fun i => L (u i) ω + e i ω, fun a => L a ω)) P ∧
    (∀ i, P[fun ω => L (u i) ω + e i ω] = 0) ∧
    (∀ i j, cov[fun ω => L (u i) ω + e i ω, fun ω => L (u j) ω + e j ω; P] =
      s * k (z (u i)) (z (u j)) + if i = j then var i else 0) ∧
    (∀ i a, cov[fun ω => L (u i) ω + e i ω, L a; P] = s * k (z (u i)) (z a)) := by
  have hP := hL.gaussian.isProbabilityMeasure
  have mL : ∀ a, MemLp (L a) 2 P := fun a => (hL.gaussian.eval a).memLp_two
  have me : ∀ i, MemLp (e i) 2 P := fun i => (he.gaussian.eval i).memLp_two
  have c0 : ∀ a i, cov[L a, e i; P] = 0 := fun a i => by
    have h1 : Measurable fun y : ι → ℝ => y a := measurable_pi_apply a
    have h2 : Measurable fun y : κ → ℝ => y i := measurable_pi_apply i
    exact (hi.comp h1 h2).covariance_eq_zero (mL a) (me i)
  refine ⟨?_, fun i => ?_, fun i j => ?_, fun i a => ?_⟩
  · have hg := hi.hasGaussianLaw hL.gaussian he.gaussian
    let A : (ι → ℝ) × (κ → ℝ) →L[ℝ] (κ → ℝ) × (ι → ℝ) :=
      ContinuousLinearMap.prod (ContinuousLinearMap.pi fun i =>
        (ContinuousLinearMap.proj (R := ℝ) (φ := fun _ : ι => ℝ) (u i)).comp (ContinuousLinearMap.fst ℝ _ _) +
        (ContinuousLinearMap.proj (R := ℝ) (φ := fun _ : κ => ℝ) i).comp (ContinuousLinearMap.snd ℝ _ _)) (ContinuousLinearMap.fst ℝ _ _)
    exact hg.map_fun A
  · rw [integral_add ((mL _).integrable one_le_two) ((me _).integrable one_le_two), hL.mean, he.mean, add_zero]
  · have : cov[fun ω => L (u i) ω + e i ω, fun ω => L (u j) ω + e j ω; P] =
        cov[L (u i) + e i, L (u j) + e j; P] := rfl
    rw [this, covariance_add_left (mL _) (me _) ((mL _).add (me _)), covariance_add_right (mL _) (mL _) (me _),
      covariance_add_right (me _) (mL _) (me _), c0, covariance_comm (e i), c0, hL.cov, he.cov]
    ring
  · have : cov[fun ω => L (u i) ω + e i ω, L a; P] = cov[L (u i) + e i, L a; P] := rfl
    rw [this, covariance_add_left (mL _) (me _) (mL _), covariance_comm (e i), c0, hL.cov, add_zero]

end observed

/-- What the statistical model says about the responses and the latent values. -/
theorem ObservedWith.facts {Ω : Type*} [MeasurableSpace Ω] {P : Measure Ω} {w : NNWrapper} {k : (Fin w.f → ℝ) → (Fin w.f → ℝ) → ℝ} {s : ℝ}
    {τ : Nat → ℝ} {m : Nat} {q : Fin m → Fin w.f → ℝ} {G : Fin m → Ω → ℝ} {Y : Ω → Tensor ℝ} (h : ObservedWith P w k s τ q G Y) :
    HasGaussianLaw (fun ω => (fun i : Fin w.N => (Y ω).get [i], fun p => G p ω)) P ∧
    (∀ i : Fin w.N, ∫ ω, (Y ω).get [i] ∂P = 0) ∧ (∀ p, P[G p] = 0) ∧
    (∀ i j : Fin w.N, cov[fun ω => (Y ω).get [i], fun ω => (Y ω).get [j]; P] =
      s * (k (rowPt w.train w.f i) (rowPt w.train w.f j) + if i = j then τ i else 0)) ∧
    (∀ (i : Fin w.N) p, cov[fun ω => (Y ω).get [i], G p; P] = s * k (rowPt w.train w.f i) (q p)) ∧
    (∀ p p', cov[G p, G p'; P] = s * k (q p) (q p')) ∧ ∀ ω, (Y ω).shape = [w.N] := by
  obtain ⟨L, e, hL, he, hi, hY, hYv⟩ := h
  obtain ⟨o1, o2, o3, o4⟩ := observed hL he hi (Sum.inl : Fin w.N → Fin w.N ⊕ Fin m)
  simp only [hYv]
  refine ⟨?_, o2, fun p => hL.mean (.inr p), fun i j => ?_, fun i p => o4 i (.inr p), fun p p' => hL.cov (.inr p) (.inr p'), hY⟩
  · let A : (Fin w.N → ℝ) × (Fin w.N ⊕ Fin m → ℝ) →L[ℝ] (Fin w.N → ℝ) × (Fin m → ℝ) :=
      ContinuousLinearMap.prod (ContinuousLinearMap.fst ℝ _ _) ((ContinuousLinearMap.pi fun p =>
        ContinuousLinearMap.proj (R := ℝ) (φ := fun _ : Fin w.N ⊕ Fin m => ℝ) (.inr p)).comp (ContinuousLinearMap.snd ℝ _ _))
    exact o1.map_fun A
  · refine (o3 i j).trans ?_
    rw [mul_add]
    congr 1
    split <;> simp

theorem Observed.facts {Ω : Type*} [MeasurableSpace Ω] {P : Measure Ω} {w : NNWrapper} {k : (Fin w.f → ℝ) → (Fin w.f → ℝ) → ℝ} {s τ : ℝ}
    {m : Nat} {q : Fin m → Fin w.f → ℝ} {G : Fin m → Ω → ℝ} {Y : Ω → Tensor ℝ} (h : Observed P w k s τ q G Y) :
    HasGaussianLaw (fun ω => (fun i : Fin w.N => (Y ω).get [i], fun p => G p ω)) P ∧
    (∀ i : Fin w.N, ∫ ω, (Y ω).get [i] ∂P = 0) ∧ (∀ p, P[G p] = 0) ∧
    (∀ i j : Fin w.N, cov[fun ω => (Y ω).get [i], fun ω => (Y ω).get [j]; P] =
      s * (k (rowPt w.train w.f i) (rowPt w.train w.f j) + if i = j then τ else 0)) ∧
    (∀ (i : Fin w.N) p, cov[fun ω => (Y ω).get [i], G p; P] = s * k (rowPt w.train w.f i) (q p)) ∧
    (∀ p p', cov[G p, G p'; P] = s * k (q p) (q p')) ∧ ∀ ω, (Y ω).shape = [w.N] :=
  ObservedWith.facts h

theorem Noise.level_mat {ν : Noise} {τ : ℝ} (h : ν.Level τ) (n p : Nat) : ν.mat n p = τ • 1 := by
  cases ν with
  | homoscedastic v => rw [← show v = τ from h]; rfl
  | null => rw [show τ = 0 from h, zero_smul]; rfl
  | heteroscedastic v => exact h.elim
  | shear33 v => exact h.elim

theorem Noise.level_fits {ν : Noise} {τ : ℝ} (h : ν.Level τ) (b n : Nat) : ν.Fits b n := by
  cases ν with
  | homoscedastic v => trivial
  | null => trivial
  | heteroscedastic v => exact h.elim
  | shear33 v => exact h.elim

theorem covFn_comm (bessel : Flt → ℝ → ℝ) (k : KernelObj) {f : Nat} (len x y : Fin f → ℝ) :
    k.covFn bessel len x y = k.covFn bessel len y x := by
  unfold KernelObj.covFn
  rw [distOf_comm]

theorem covFn_self (bessel : Flt → ℝ → ℝ) (k : KernelObj) (hk : k.fn.Suits k.deform.metric) {f : Nat} (len x : Fin f → ℝ) :
    k.covFn bessel len x x = 1 := by
  unfold KernelObj.covFn
  rw [distOf_self]
  exact value_zero _ _ _ (suits_closed hk)

/-- The predicted variances do not depend on the responses. -/
theorem regress_variance_same (bessel : Flt → ℝ → ℝ) (R : Regressor) (w : NNWrapper) (Q X Y Y' μ v μ' v' : Tensor ℝ)
    (h : regressAny bessel R w Q X Y = .ok (μ, v)) (h' : regressAny bessel R w Q X Y' = .ok (μ', v')) : v = v' := by
  unfold regressAny regressFromIndices tensorsFromIndices makePredictTensors at h h'
  cases hq : Q.shape with
  | nil => rw [hq] at h; cases h
  | cons m t =>
    rw [hq] at h h'
    simp only [bind, Except.bind, pure, Except.pure] at h h'
    cases hn : w.getNns Q with
    | error z => rw [hn] at h; cases h
    | ok nn =>
      simp only [hn] at h h'
      cases hc : defCrosswise R.kernel.deform.kind R.kernel.deform.metric Q X (arange m) nn.1 with
      | error z => simp only [Option.getD_some, hc] at h; cases h
      | ok c =>
        cases hp : defPairwise R.kernel.deform.kind R.kernel.deform.metric X nn.1 with
        | error z => simp only [Option.getD_some, hc, hp] at h; cases h
        | ok d =>
          cases hy : Y.take nn.1 with
          | error z => simp only [Option.getD_some, hc, hp, hy] at h; cases h
          | ok y =>
            cases hy' : Y'.take nn.1 with
            | error z => simp only [Option.getD_some, hc, hp, hy'] at h'; cases h'
            | ok y' =>
              simp only [Option.getD_some, hc, hp, hy, hy'] at h h'
              cases hk : R.kernel.call bessel d [] with
              | error z => simp only [hk] at h; cases h
              | ok K =>
                cases hx : R.kernel.call bessel c [] with
                | error z => simp only [hk, hx] at h; cases h
                | ok C =>
                  simp only [hk, hx] at h h'
                  cases h1 : R.gp.posteriorMean K C y with
                  | error z => rw [h1] at h; cases h
                  | ok a =>
                    cases h2 : R.gp.posteriorMean K C y' with
                    | error z => rw [h2] at h'; cases h'
                    | ok b =>
                      simp only [h1] at h
                      simp only [h2] at h'
                      cases h3 : R.gp.posteriorVariance K C with
                      | error z => rw [h3] at h; cases h
                      | ok u =>
                        rw [h3] at h h'
                        cases h; cases h'; rfl

/-- What `regress_any` predicts about variables `G` that are jointly Gaussian with the responses: with the covariances of the model (and an additional
variance `s · τ₀` of the `G` themselves), the conditional law of `G` given the responses of the nearest neighbours. -/
theorem posterior_general (bessel : Flt → ℝ → ℝ) (R : Regressor) (hk : R.kernel.make = R.kernel)
    (hko : R.gp.kout = KernelObj.kout)
    (w : NNWrapper) (hw : w.Exact) (Q : Tensor ℝ) (m : Nat) (len : Fin w.f → ℝ) (hlen : R.kernel.deform.HasLengths w.f len)
    (hQ : Q.shape = [m, w.f]) (hm : 0 < m) (hk0 : 0 < w.nnCount) (hkN : w.nnCount ≤ w.N)
    (hfit : R.gp.noise.Fits m w.nnCount) (τ : Nat → ℝ)
    (hnn : ∀ nn D, w.getNns Q = .ok (nn, D) → nn.shape = [m, w.nnCount] →
      (∀ i < m, ∃ l : List Nat, rowList nn w.nnCount i = l.map Int.ofNat ∧
        Nearest (· < w.N) (fun j => w.dist (rowPt Q w.f i) (rowPt w.train w.f j)) w.nnCount l) →
      ∀ p < m, R.gp.noise.mat w.nnCount p = Matrix.diagonal (fun j : Fin w.nnCount => τ (pointOf w.N (nn.get [p, j]))) ∧
        (nbrCov bessel R.kernel len w.train w.N w.nnCount nn p + R.gp.noise.mat w.nnCount p).det ≠ 0)
    {Ω : Type*} [MeasurableSpace Ω] (P : Measure Ω) [IsProbabilityMeasure P] (G : Fin m → Ω → ℝ) (Y : Ω → Tensor ℝ) (τ₀ : ℝ)
    (o1 : HasGaussianLaw (fun ω => (fun i : Fin w.N => (Y ω).get [i], fun p => G p ω)) P)
    (o2 : ∀ i : Fin w.N, ∫ ω, (Y ω).get [i] ∂P = 0) (o3 : ∀ p, P[G p] = 0)
    (o4 : ∀ i j : Fin w.N, cov[fun ω => (Y ω).get [i], fun ω => (Y ω).get [j]; P] =
      R.gp.boundScale * (R.kernel.covFn bessel len (rowPt w.train w.f i) (rowPt w.train w.f j) + if i = j then τ i else 0))
    (o5 : ∀ (i : Fin w.N) p, cov[fun ω => (Y ω).get [i], G p; P] =
      R.gp.boundScale * R.kernel.covFn bessel len (rowPt w.train w.f i) (rowPt Q w.f p))
    (o6 : ∀ p, Var[G p; P] = R.gp.boundScale * (1 + τ₀)) (hY : ∀ ω, (Y ω).shape = [w.N]) :
    ∃ (nbr : Fin m → Fin w.nnCount → Fin w.N) (μ : Ω → Tensor ℝ) (v : Tensor ℝ),
      (∀ p : Fin m, Nearest (· < w.N) (fun j => w.dist (rowPt Q w.f p) (rowPt w.train w.f j)) w.nnCount (List.ofFn fun j => (nbr p j).1)) ∧
      (∀ ω, regressAny bessel R w Q w.train (Y ω) = .ok (μ ω, v) ∧ (μ ω).shape = [m]) ∧ v.shape = [m] ∧
      ∀ p : Fin m, 0 ≤ v.get [p] + R.gp.boundScale * τ₀ ∧ (∃ c : Fin w.nnCount → ℝ, ∀ ω, (μ ω).get [p] = ∑ j, c j * (Y ω).get [(nbr p j).1]) ∧
        (∀ᵐ ω ∂P, condDistrib (G p) (fun ω j => (Y ω).get [(nbr p j).1]) P (fun j => (Y ω).get [(nbr p j).1]) =
          gaussianReal ((μ ω).get [p]) (v.get [p] + R.gp.boundScale * τ₀).toNNReal) ∧
        (∀ j, MemLp (fun ω => (Y ω).get [(nbr p j).1]) 2 P) ∧
        P.map (fun ω => G p ω - (μ ω).get [p]) = gaussianReal 0 (v.get [p] + R.gp.boundScale * τ₀).toNNReal ∧
        IndepFun (fun ω j => (Y ω).get [(nbr p j).1]) (fun ω => G p ω - (μ ω).get [p]) P := by
  obtain ⟨nn, D, g1, g2, h1, h2, h3⟩ := regress_cases_nns bessel R hk hko w hw Q m len hlen hQ hm hk0 hkN hfit
  have hdet := fun p hp => (hnn nn D g1 g2 h1 p hp).2
  have hmat := fun p hp => (hnn nn D g1 g2 h1 p hp).1
  have hrow : ∀ x, pt w.train w.f x = rowPt w.train w.f x := fun x => by
    funext c; simp only [pt, feature, hw.1, rowPt]
  let nbr : Fin m → Fin w.nnCount → Fin w.N := fun p j => ⟨pointOf w.N (nn.get [p, j]), h2 p p.2 j j.2⟩
  have hYf : ∀ ω x, feature (Y ω) x 0 = (Y ω).get [x] := fun ω x => by simp only [feature, hY]
  have hrun : ∀ ω, ∃ μ v, regressAny bessel R w Q w.train (Y ω) = .ok (μ, v) ∧ μ.shape = [m] ∧ v.shape = [m] ∧
      ∀ p < m,
        μ.get [p] = Spec.krigingMean
          (nbrCov bessel R.kernel len w.train w.N w.nnCount nn p + R.gp.noise.mat w.nnCount p)
          (nbrCross bessel R.kernel len w.train w.N w.nnCount nn p (rowPt Q w.f p))
          (nbrTargets (Y ω) w.N w.nnCount nn p 0) ∧
        v.get [p] = R.gp.boundScale * Spec.krigingVar 1
          (nbrCov bessel R.kernel len w.train w.N w.nnCount nn p + R.gp.noise.mat w.nnCount p)
          (nbrCross bessel R.kernel len w.train w.N w.nnCount nn p (rowPt Q w.f p)) := by
    intro ω
    rcases h3 (Y ω) (hY ω) with ⟨⟨p, hp, hd⟩, -⟩ | ⟨-, h⟩
    · exact absurd hd (hdet p hp)
    · exact h
  choose μ v r1 r2 r3 r4 using hrun
  obtain ⟨ω₀⟩ : Nonempty Ω := by
    by_contra hne
    rw [not_nonempty_iff] at hne
    have h0 : P = 0 := Measure.eq_zero_of_isEmpty P
    exact (IsProbabilityMeasure.ne_zero P) h0
  have hv : ∀ ω, v ω = v ω₀ := fun ω => regress_variance_same bessel R w Q w.train _ _ _ _ _ _ (r1 ω) (r1 ω₀)
  refine ⟨nbr, μ, v ω₀, fun p => ?_, fun ω => ⟨by rw [r1, hv], r2 ω⟩, r3 _, fun p => ?_⟩
  · obtain ⟨l, e1, e2⟩ := h1 p p.2
    have : (List.ofFn fun j => (nbr p j).1) = l := by
      apply List.ext_getElem?
      intro j
      rw [List.getElem?_ofFn]
      by_cases hj : j < w.nnCount
      · obtain ⟨x, x1, x2⟩ := rowList_get e1 hj
        rw [dif_pos hj, x1]
        simp only [nbr, x2, pointOf_nat]
      · rw [dif_neg hj, List.getElem?_eq_none (by rw [e2.length]; omega)]
    rw [this]; exact e2
  · have hinj : Function.Injective (nbr p) := by
      obtain ⟨l, e1, e2⟩ := h1 p p.2
      intro a b hab
      obtain ⟨x, x1, x2⟩ := rowList_get e1 a.2
      obtain ⟨y, y1, y2⟩ := rowList_get e1 b.2
      have : x = y := by
        have := congrArg Fin.val hab
        simpa only [nbr, x2, y2, pointOf_nat] using this
      subst this
      have ha : (a : Nat) < l.length := by rw [e2.length]; exact a.2
      exact Fin.ext ((List.getElem?_inj ha e2.nodup).mp (x1.trans y1.symm))
    set K := nbrCov bessel R.kernel len w.train w.N w.nnCount nn p + R.gp.noise.mat w.nnCount p with hK
    set kc := nbrCross bessel R.kernel len w.train w.N w.nnCount nn p (rowPt Q w.f p) with hkc
    have hmean : ∀ ω, (μ ω).get [p] = Spec.krigingMean K kc (fun j => (Y ω).get [(nbr p j).1]) := fun ω => by
      rw [(r4 ω p p.2).1]
      congr 1
      funext j
      rw [← hYf]; rfl
    have hvar : (v ω₀).get [p] + R.gp.boundScale * τ₀ = R.gp.boundScale * Spec.krigingVar (1 + τ₀) K kc := by
      rw [(r4 ω₀ p p.2).2, ← mul_add]
      congr 1
      unfold Spec.krigingVar
      rw [← hK, ← hkc]; ring
    let A : (Fin w.N → ℝ) × (Fin m → ℝ) →L[ℝ] (Fin w.nnCount → ℝ) × ℝ :=
      ContinuousLinearMap.prod (ContinuousLinearMap.pi fun j =>
        (ContinuousLinearMap.proj (R := ℝ) (φ := fun _ : Fin w.N => ℝ) (nbr p j)).comp (ContinuousLinearMap.fst ℝ _ _))
        ((ContinuousLinearMap.proj (R := ℝ) (φ := fun _ : Fin m => ℝ) p).comp (ContinuousLinearMap.snd ℝ _ _))
    have hg : HasGaussianLaw (fun ω => (fun j => (Y ω).get [(nbr p j).1], G p ω)) P := o1.map_fun A
    have hpost := gaussian_posterior (F := fun j ω => (Y ω).get [(nbr p j).1]) (G := G p) hg
      (fun j => o2 _) (o3 _) K kc (1 + τ₀) R.gp.boundScale (fun i j => ?_) (fun j => ?_) ?_ (hdet p p.2)
    · simp only [hmean, hvar]
      refine ⟨hpost.1, ⟨_, fun ω => krigingMean_sum _ _ _⟩, ?_, fun j => (hg.fst.eval j).memLp_two, hpost.2.1, hpost.2.2⟩
      have aF : AEMeasurable (fun ω (j : Fin w.nnCount) => (Y ω).get [(nbr p j).1]) P := hg.fst.aemeasurable
      have hm : Measurable fun y : Fin w.nnCount → ℝ => Spec.krigingMean K kc y := by
        simp only [krigingMean_sum]; fun_prop
      exact ae_of_ae_map aF (condDistrib_of_indep aF hg.snd.aemeasurable hm _ hpost.2.1 hpost.2.2)
    · rw [o4, hK, hmat p p.2, Matrix.add_apply, Matrix.diagonal_apply]
      simp only [hinj.eq_iff]
      show _ = R.gp.boundScale * (R.kernel.covFn bessel len (pt w.train w.f (nbr p i)) (pt w.train w.f (nbr p j)) + _)
      rw [hrow, hrow]
    · rw [o5, hkc]
      show _ = R.gp.boundScale * R.kernel.covFn bessel len (rowPt Q w.f p) (pt w.train w.f (nbr p j))
      rw [hrow, covFn_comm]
    · exact o6 p

/-- `posterior_general` for the kernels with a closed form and homoscedastic noise. -/
theorem posterior_core (bessel : Flt → ℝ → ℝ) (R : Regressor) (hk : R.kernel.make = R.kernel)
    (hko : R.gp.kout = KernelObj.kout) (hsuit : R.kernel.fn.Suits R.kernel.deform.metric)
    (w : NNWrapper) (hw : w.Exact) (Q : Tensor ℝ) (m : Nat) (len : Fin w.f → ℝ) (hlen : R.kernel.deform.HasLengths w.f len)
    (hQ : Q.shape = [m, w.f]) (hm : 0 < m) (hk0 : 0 < w.nnCount) (hkN : w.nnCount ≤ w.N)
    (τ : ℝ) (hτ : R.gp.noise.Level τ) (hreg : R.gp.noise.Suffices m w.nnCount (DistinctRows w.train w.N w.f))
    {Ω : Type*} [MeasurableSpace Ω] (P : Measure Ω) [IsProbabilityMeasure P] (G : Fin m → Ω → ℝ) (Y : Ω → Tensor ℝ) (τ₀ : ℝ)
    (o1 : HasGaussianLaw (fun ω => (fun i : Fin w.N => (Y ω).get [i], fun p => G p ω)) P)
    (o2 : ∀ i : Fin w.N, ∫ ω, (Y ω).get [i] ∂P = 0) (o3 : ∀ p, P[G p] = 0)
    (o4 : ∀ i j : Fin w.N, cov[fun ω => (Y ω).get [i], fun ω => (Y ω).get [j]; P] =
      R.gp.boundScale * (R.kernel.covFn bessel len (rowPt w.train w.f i) (rowPt w.train w.f j) + if i = j then τ else 0))
    (o5 : ∀ (i : Fin w.N) p, cov[fun ω => (Y ω).get [i], G p; P] =
      R.gp.boundScale * R.kernel.covFn bessel len (rowPt w.train w.f i) (rowPt Q w.f p))
    (o6 : ∀ p, Var[G p; P] = R.gp.boundScale * (1 + τ₀)) (hY : ∀ ω, (Y ω).shape = [w.N]) :
    ∃ (nbr : Fin m → Fin w.nnCount → Fin w.N) (μ : Ω → Tensor ℝ) (v : Tensor ℝ),
      (∀ p : Fin m, Nearest (· < w.N) (fun j => w.dist (rowPt Q w.f p) (rowPt w.train w.f j)) w.nnCount (List.ofFn fun j => (nbr p j).1)) ∧
      (∀ ω, regressAny bessel R w Q w.train (Y ω) = .ok (μ ω, v) ∧ (μ ω).shape = [m]) ∧ v.shape = [m] ∧
      ∀ p : Fin m, 0 ≤ v.get [p] + R.gp.boundScale * τ₀ ∧ (∃ c : Fin w.nnCount → ℝ, ∀ ω, (μ ω).get [p] = ∑ j, c j * (Y ω).get [(nbr p j).1]) ∧
        (∀ᵐ ω ∂P, condDistrib (G p) (fun ω j => (Y ω).get [(nbr p j).1]) P (fun j => (Y ω).get [(nbr p j).1]) =
          gaussianReal ((μ ω).get [p]) (v.get [p] + R.gp.boundScale * τ₀).toNNReal) ∧
        (∀ j, MemLp (fun ω => (Y ω).get [(nbr p j).1]) 2 P) ∧
        P.map (fun ω => G p ω - (μ ω).get [p]) = gaussianReal 0 (v.get [p] + R.gp.boundScale * τ₀).toNNReal ∧
        IndepFun (fun ω j => (Y ω).get [(nbr p j).1]) (fun ω => G p ω - (μ ω).get [p]) P := by
  refine posterior_general bessel R hk hko w hw Q m len hlen hQ hm hk0 hkN (Noise.level_fits hτ _ _) (fun _ => τ)
    (fun nn D _ _ h1 p hp => ⟨by rw [Noise.level_mat hτ, Matrix.smul_one_eq_diagonal], ?_⟩) P G Y τ₀ o1 o2 o3 o4 o5 o6 hY
  have hpos := hasLengths_pos hlen
  obtain ⟨l, e1, e2⟩ := h1 p hp
  have hc := nbrCov_definite bessel R.kernel hsuit len hpos w.train w.N w.nnCount nn p
  exact Kriging.det_ne_zero (Noise.posdef_of_suffices
    (hreg.mono fun hd => distinct_of_nodup e1 e2.nodup e2.mem hd) hp hc.1 hc.2)

/-- **C71**: let the responses of the training points be the values of a Gaussian process with the model's kernel and variance scale, plus
independent noise (of variance scale times the model's noise parameter). Then `regress_any` predicts for every test point the
posterior of the latent value there given the responses of its nearest neighbours: the conditional law is normal with the predicted mean
and variance; the prediction error is normal with the predicted variance whatever the neighbours' responses turn out to be. -/
theorem C71_posterior (bessel : Flt → ℝ → ℝ) (R : Regressor) (hk : R.kernel.make = R.kernel)
    (hko : R.gp.kout = KernelObj.kout) (hsuit : R.kernel.fn.Suits R.kernel.deform.metric)
    (w : NNWrapper) (hw : w.Exact) (Q : Tensor ℝ) (m : Nat) (len : Fin w.f → ℝ) (hlen : R.kernel.deform.HasLengths w.f len)
    (hQ : Q.shape = [m, w.f]) (hm : 0 < m) (hk0 : 0 < w.nnCount) (hkN : w.nnCount ≤ w.N)
    (τ : ℝ) (hτ : R.gp.noise.Level τ) (hreg : R.gp.noise.Suffices m w.nnCount (DistinctRows w.train w.N w.f))
    {Ω : Type*} [MeasurableSpace Ω] (P : Measure Ω) [IsProbabilityMeasure P] (G : Fin m → Ω → ℝ) (Y : Ω → Tensor ℝ)
    (hobs : Observed P w (R.kernel.covFn bessel len) R.gp.boundScale τ (fun p : Fin m => rowPt Q w.f p) G Y) :
    ∃ (nbr : Fin m → Fin w.nnCount → Fin w.N) (μ : Ω → Tensor ℝ) (v : Tensor ℝ),
      (∀ p : Fin m, Nearest (· < w.N) (fun j => w.dist (rowPt Q w.f p) (rowPt w.train w.f j)) w.nnCount (List.ofFn fun j => (nbr p j).1)) ∧
      (∀ ω, regressAny bessel R w Q w.train (Y ω) = .ok (μ ω, v) ∧ (μ ω).shape = [m]) ∧ v.shape = [m] ∧
      ∀ p : Fin m, 0 ≤ v.get [p] ∧ (∃ c : Fin w.nnCount → ℝ, ∀ ω, (μ ω).get [p] = ∑ j, c j * (Y ω).get [(nbr p j).1]) ∧
        (∀ᵐ ω ∂P, condDistrib (G p) (fun ω j => (Y ω).get [(nbr p j).1]) P (fun j => (Y ω).get [(nbr p j).1]) =
          gaussianReal ((μ ω).get [p]) (v.get [p]).toNNReal) ∧
        (∀ j, MemLp (fun ω => (Y ω).get [(nbr p j).1]) 2 P) ∧
        P.map (fun ω => G p ω - (μ ω).get [p]) = gaussianReal 0 (v.get [p]).toNNReal ∧
        IndepFun (fun ω j => (Y ω).get [(nbr p j).1]) (fun ω => G p ω - (μ ω).get [p]) P := by
  obtain ⟨o1, o2, o3, o4, o5, o6, hY⟩ := hobs.facts
  have := posterior_core bessel R hk hko hsuit w hw Q m len hlen hQ hm hk0 hkN τ hτ hreg P G Y 0 o1 o2 o3 o4 o5
    (fun p => by
      rw [← covariance_self (o1.snd.eval p).aemeasurable, o6, covFn_self bessel R.kernel hsuit, add_zero]) hY
  simpa only [mul_zero, add_zero] using this

/-- No other way of predicting the latent value from the responses of the same neighbours does better on average: its mean
squared error exceeds the predicted variance by the mean squared difference from the predicted mean. -/
theorem posterior_optimal {Ω : Type*} [MeasurableSpace Ω] (P : Measure Ω) [IsProbabilityMeasure P] {n : Nat} (obs : Ω → Fin n → ℝ)
    (mobs : ∀ j, MemLp (fun ω => obs ω j) 2 P)
    (G μ : Ω → ℝ) (v : ℝ) (hv : 0 ≤ v) (hlin : ∃ c : Fin n → ℝ, ∀ ω, μ ω = ∑ j, c j * obs ω j)
    (hlaw : P.map (fun ω => G ω - μ ω) = gaussianReal 0 v.toNNReal) (hind : IndepFun obs (fun ω => G ω - μ ω) P)
    (rule : (Fin n → ℝ) → ℝ) (hrule : Measurable rule) (mrule : MemLp (fun ω => rule (obs ω)) 2 P) :
    ∫ ω, (G ω - rule (obs ω)) ^ 2 ∂P = v + ∫ ω, (μ ω - rule (obs ω)) ^ 2 ∂P := by
  obtain ⟨c, hc⟩ := hlin
  have gR : HasGaussianLaw (fun ω => G ω - μ ω) P := ⟨by rw [hlaw]; infer_instance⟩
  have mμ : MemLp (fun ω => ∑ j, c j * obs ω j) 2 P := memLp_finsetSum _ fun j _ => (mobs j).const_mul _
  have zR : ∫ ω, (G ω - μ ω) ∂P = 0 := by
    have h1 : ∫ ω, (G ω - μ ω) ∂P = ∫ x, x ∂(P.map fun ω => G ω - μ ω) := by
      rw [integral_map gR.aemeasurable (by fun_prop)]
    rw [h1, hlaw, integral_id_gaussianReal]
  have hsq : ∫ ω, (G ω - μ ω) ^ 2 ∂P = v := by
    have h1 : Var[fun ω => G ω - μ ω; P] = v := by
      have : Var[fun x => x; P.map fun ω => G ω - μ ω] = v := by
        rw [hlaw, variance_fun_id_gaussianReal, Real.coe_toNNReal _ hv]
      rw [variance_map (by fun_prop) gR.aemeasurable] at this
      exact this
    rw [variance_of_integral_eq_zero gR.aemeasurable zR] at h1
    exact h1
  have key := indep_pythagoras gR.memLp_two zR hind (h := fun y => (∑ j, c j * y j) - rule y)
    (by fun_prop) (mμ.sub mrule)
  rw [hsq] at key
  have e1 : ∀ ω, G ω - rule (obs ω) = G ω - μ ω + ((∑ j, c j * obs ω j) - rule (obs ω)) := fun ω => by rw [hc]; ring
  have e2 : ∀ ω, μ ω - rule (obs ω) = (∑ j, c j * obs ω j) - rule (obs ω) := fun ω => by rw [hc]
  simp only [e1, e2]
  exact key

/-- **C71**, optimality: no rule for predicting the latent value from the responses of the same neighbours does better on average than
`regress_any`: the mean squared error of `regress_any` is the variance it reports, and that of any other rule is larger by the mean
squared difference between the two predictions. -/
theorem C71_optimal (bessel : Flt → ℝ → ℝ) (R : Regressor) (hk : R.kernel.make = R.kernel)
    (hko : R.gp.kout = KernelObj.kout) (hsuit : R.kernel.fn.Suits R.kernel.deform.metric)
    (w : NNWrapper) (hw : w.Exact) (Q : Tensor ℝ) (m : Nat) (len : Fin w.f → ℝ) (hlen : R.kernel.deform.HasLengths w.f len)
    (hQ : Q.shape = [m, w.f]) (hm : 0 < m) (hk0 : 0 < w.nnCount) (hkN : w.nnCount ≤ w.N)
    (τ : ℝ) (hτ : R.gp.noise.Level τ) (hreg : R.gp.noise.Suffices m w.nnCount (DistinctRows w.train w.N w.f))
    {Ω : Type*} [MeasurableSpace Ω] (P : Measure Ω) [IsProbabilityMeasure P] (G : Fin m → Ω → ℝ) (Y : Ω → Tensor ℝ)
    (hobs : Observed P w (R.kernel.covFn bessel len) R.gp.boundScale τ (fun p : Fin m => rowPt Q w.f p) G Y) :
    ∃ (nbr : Fin m → Fin w.nnCount → Fin w.N) (μ : Ω → Tensor ℝ) (v : Tensor ℝ),
      (∀ p : Fin m, Nearest (· < w.N) (fun j => w.dist (rowPt Q w.f p) (rowPt w.train w.f j)) w.nnCount
        (List.ofFn fun j => (nbr p j).1)) ∧
      (∀ ω, regressAny bessel R w Q w.train (Y ω) = .ok (μ ω, v)) ∧
      ∀ p : Fin m, ∫ ω, (G p ω - (μ ω).get [p]) ^ 2 ∂P = v.get [p] ∧
        ∀ rule : (Fin w.nnCount → ℝ) → ℝ, Measurable rule → MemLp (fun ω => rule fun j => (Y ω).get [(nbr p j).1]) 2 P →
          ∫ ω, (G p ω - rule fun j => (Y ω).get [(nbr p j).1]) ^ 2 ∂P =
            v.get [p] + ∫ ω, ((μ ω).get [p] - rule fun j => (Y ω).get [(nbr p j).1]) ^ 2 ∂P := by
  obtain ⟨nbr, μ, v, h1, h2, -, h4⟩ :=
    C71_posterior bessel R hk hko hsuit w hw Q m len hlen hQ hm hk0 hkN τ hτ hreg P G Y hobs
  refine ⟨nbr, μ, v, h1, fun ω => (h2 ω).1, fun p => ?_⟩
  obtain ⟨a, ⟨c, hc⟩, -, d, e, f⟩ := h4 p
  have key := fun rule hr mr => posterior_optimal P (fun ω j => (Y ω).get [(nbr p j).1]) d (G p) (fun ω => (μ ω).get [p])
    (v.get [p]) a ⟨c, hc⟩ e f rule hr mr
  refine ⟨?_, key⟩
  have := key (fun y => ∑ j, c j * y j) (by fun_prop) (memLp_finsetSum _ fun j _ => (d j).const_mul _)
  simp only [← hc, sub_self] at this
  simpa using this

end MuyGPyS
