import Verif.Props.Classify
import Verif.Spec.Pipeline

/-!
# Covariances of real kernels never fail, and what that means for predictions (C21, C25, C28, C54, C44)

The theorems of `Props/Workflow.lean` and `Props/Classify.lean` assume non-singular covariances. Here that is a consequence of
the kernel, the noise and the training data.
-/

namespace MuyGPyS
open Py Matrix

theorem suits_closed {fn : KFn} {m : Metric} (h : fn.Suits m) : fn.closed := by
  cases fn <;> first | exact h.elim | (unfold KFn.closed; simp)

theorem nbrCov_value (bessel : Flt → ℝ → ℝ) (k : KernelObj) {f : Nat} (len : Fin f → ℝ) (X : Tensor ℝ) (N n : Nat)
    (nn : Tensor Int) (p : Nat) : nbrCov bessel k len X N n nn p = Matrix.of fun i j : Fin n =>
      KFn.value bessel ((k.smoothness.map (·.val)).getD none) k.fn (distOf k.deform.metric
        (scaledPoint X N f len (nn.get [p, i])) (scaledPoint X N f len (nn.get [p, j]))) := rfl

/-- Neighbourhood covariances are positive semidefinite, and positive definite for different neighbours. -/
theorem nbrCov_definite (bessel : Flt → ℝ → ℝ) (k : KernelObj) (hk : k.fn.Suits k.deform.metric) {f : Nat} (len : Fin f → ℝ)
    (hlen : ∀ c, 0 < len c) (X : Tensor ℝ) (N n : Nat) (nn : Tensor Int) (p : Nat) :
    (nbrCov bessel k len X N n nn p).PosSemidef ∧
      (DistinctNeighbours X N f n nn p → (nbrCov bessel k len X N n nn p).PosDef) := by
  have hg := value_definite bessel ((k.smoothness.map (·.val)).getD none) k.fn k.deform.metric hk
    (fun i : Fin n => scaledPoint X N f len (nn.get [p, i]))
  rw [nbrCov_value]
  exact ⟨hg.1, fun h => hg.2 (scaled_injective hlen h)⟩

theorem Noise.nonneg_of_suffices {ν : Noise} {b n : Nat} {D : Prop} (h : ν.Suffices b n D) : ν.Nonneg b n := by
  cases ν with
  | homoscedastic v => exact h.elim le_of_lt And.left
  | heteroscedastic v => exact h.elim (fun h p hp i hi => (h p hp i hi).le) And.left
  | shear33 v => exact h.elim
  | null => trivial

theorem Noise.posdef_of_suffices {ν : Noise} {b n p : Nat} {D : Prop} (h : ν.Suffices b n D) (hp : p < b)
    {K : Matrix (Fin n) (Fin n) ℝ} (hK : K.PosSemidef) (hD : D → K.PosDef) : (K + ν.mat n p).PosDef := by
  cases ν with
  | homoscedastic v =>
    rcases h with h | ⟨h, hd⟩
    · exact PosDef.posSemidef_add hK (PosDef.one.smul h)
    · exact (hD hd).add_posSemidef (PosSemidef.one.smul h)
  | heteroscedastic v =>
    rcases h with h | ⟨h, hd⟩
    · exact PosDef.posSemidef_add hK (PosDef.diagonal fun i => h p hp i i.2)
    · exact (hD hd).add_posSemidef (PosSemidef.diagonal fun i => h p hp i i.2)
  | shear33 v => exact h.elim
  | null => exact (hD h).add_posSemidef PosSemidef.zero

/-- The joint covariance of the neighbours and another point. -/
theorem nbrJoint (bessel : Flt → ℝ → ℝ) (k : KernelObj) (hk : k.fn.Suits k.deform.metric) {f : Nat} (len : Fin f → ℝ)
    (hlen : ∀ c, 0 < len c) (X : Tensor ℝ) (N n : Nat) (nn : Tensor Int) (p : Nat) (q : Fin f → ℝ) :
    (Kriging.joint (nbrCov bessel k len X N n nn p) (nbrCross bessel k len X N n nn p q) 1).PosSemidef ∧
    (DistinctNeighbours X N f n nn p → (∀ j < n, q ≠ pt X f (pointOf N (nn.get [p, j]))) →
      (Kriging.joint (nbrCov bessel k len X N n nn p) (nbrCross bessel k len X N n nn p q) 1).PosDef) := by
  set x : Fin (n + 1) → Fin f → ℝ := fun i => if h : (i : Nat) < n then scaledPoint X N f len (nn.get [p, i])
    else fun c => q c / len c with hx
  set s := (k.smoothness.map (·.val)).getD none with hs
  have hg := value_definite bessel s k.fn k.deform.metric hk x
  let e : Fin n ⊕ Unit → Fin (n + 1) := Sum.elim Fin.castSucc fun _ => Fin.last n
  have he : Function.Injective e := by
    rintro (a | a) (b | b) hab
    · simpa [e] using hab
    · have : (a : Nat) = n := congrArg Fin.val hab
      exact absurd a.2 (by omega)
    · have : n = (b : Nat) := congrArg Fin.val hab
      exact absurd b.2 (by omega)
    · rfl
  have xl : ∀ i : Fin n, x (e (.inl i)) = scaledPoint X N f len (nn.get [p, i]) := by
    intro i; simp [hx, e]
  have xr : x (e (.inr ())) = fun c => q c / len c := by simp [hx, e]
  have ej : Kriging.joint (nbrCov bessel k len X N n nn p) (nbrCross bessel k len X N n nn p q) 1 =
      (Matrix.of fun i j => KFn.value bessel s k.fn (distOf k.deform.metric (x i) (x j))).submatrix e e := by
    ext a b
    rcases a with a | a <;> rcases b with b | b
    · simp only [submatrix_apply, of_apply, xl]; rfl
    · simp only [submatrix_apply, of_apply, xl, xr]
      rw [distOf_comm]; rfl
    · simp only [submatrix_apply, of_apply, xl, xr]; rfl
    · simp only [submatrix_apply, of_apply, xr, distOf_self, value_zero bessel s k.fn (suits_closed hk)]
      simp [Kriging.joint]
  rw [ej]
  refine ⟨hg.1.submatrix e, fun hd hq => (hg.2 ?_).submatrix he⟩
  have hinj := scaled_injective hlen hd
  have hne : ∀ j : Fin n, scaledPoint X N f len (nn.get [p, j]) ≠ fun c => q c / len c := by
    intro j h
    refine hq j j.2 (funext fun c => ?_)
    exact ((div_left_inj' (hlen c).ne').mp (congrFun h c)).symm
  intro a b hab
  have hlast : ∀ c : Fin (n + 1), ¬ (c : Nat) < n → (c : Nat) = n := fun c hc => by omega
  by_cases ha : (a : Nat) < n <;> by_cases hb : (b : Nat) < n
  · simp only [hx, ha, hb, dif_pos] at hab
    have := hinj (a₁ := ⟨a, ha⟩) (a₂ := ⟨b, hb⟩) hab
    exact Fin.ext (congrArg (fun c : Fin n => (c : Nat)) this)
  · simp only [hx, ha, hb, dif_pos, dif_neg, not_false_eq_true] at hab
    exact absurd hab (hne ⟨a, ha⟩)
  · simp only [hx, ha, hb, dif_pos, dif_neg, not_false_eq_true] at hab
    exact absurd hab.symm (hne ⟨b, hb⟩)
  · exact Fin.ext ((hlast a ha).trans (hlast b hb).symm)

theorem nbrCross_pos (bessel : Flt → ℝ → ℝ) (k : KernelObj) (hk : k.fn.Suits k.deform.metric) {f : Nat} (len : Fin f → ℝ)
    (X : Tensor ℝ) (N n : Nat) (nn : Tensor Int) (p : Nat) (q : Fin f → ℝ) (j : Fin n) :
    0 < nbrCross bessel k len X N n nn p q j := by
  unfold nbrCross KernelObj.covFn
  refine (C19_correlation bessel _ k.fn (suits_closed hk) _ ?_).1
  cases k.deform.metric with
  | F2 => rw [distOf_F2]; exact Finset.sum_nonneg fun _ _ => sq_nonneg _
  | l2 => exact (C17_metrics _ _ 0).2.1

/-- The kriging variance (at unit scale) from real covariances: within `[0, 1]`, below 1 if there is a neighbour, positive if the
noise is positive or the point is none of the (different) neighbours. -/
theorem nbr_variance (bessel : Flt → ℝ → ℝ) (k : KernelObj) (hk : k.fn.Suits k.deform.metric) {f : Nat} (len : Fin f → ℝ)
    (hlen : ∀ c, 0 < len c) (X : Tensor ℝ) (N n : Nat) (nn : Tensor Int) (p b : Nat) (hp : p < b) (q : Fin f → ℝ) (ν : Noise)
    (hν : ν.Suffices b n (DistinctNeighbours X N f n nn p)) :
    let v := Spec.krigingVar 1 (nbrCov bessel k len X N n nn p + ν.mat n p) (nbrCross bessel k len X N n nn p q)
    0 ≤ v ∧ v ≤ 1 ∧ (0 < n → v < 1) ∧ (0 < n → (ν.mat n p).PosDef → 0 < v) ∧
    (ν.mat n p = 0 → DistinctNeighbours X N f n nn p → (0 < v ↔ ∀ j < n, q ≠ pt X f (pointOf N (nn.get [p, j])))) := by
  intro v
  have hc := nbrCov_definite bessel k hk len hlen X N n nn p
  have hpd := Noise.posdef_of_suffices hν hp hc.1 hc.2
  have hj := nbrJoint bessel k hk len hlen X N n nn p q
  have hnn := ν.mat_psd (Noise.nonneg_of_suffices hν) hp
  have hq := Kriging.quad_nonneg hpd (nbrCross bessel k len X N n nn p q)
  have hne : 0 < n → nbrCross bessel k len X N n nn p q ≠ 0 := fun h0 h => by
    have h1 := nbrCross_pos bessel k hk len X N n nn p q ⟨0, h0⟩
    rw [h] at h1
    exact lt_irrefl _ h1
  refine ⟨Kriging.schur_nonneg' hj.1 hnn hpd, ?_, fun h0 => ?_, fun h0 hD => Kriging.schur_pos (hne h0) hj.1 hD hpd,
    fun hz hd => ⟨fun hv j hjn hqe => ?_, fun hall => ?_⟩⟩
  · show 1 - _ ≤ (1:ℝ); linarith
  · have := Kriging.quad_pos hpd (hne h0)
    show 1 - _ < (1:ℝ); linarith
  · -- the point is a neighbour: the variance vanishes
    have hdet := Kriging.det_ne_zero (hc.2 hd)
    have e : nbrCross bessel k len X N n nn p q = fun i => nbrCov bessel k len X N n nn p i ⟨j, hjn⟩ := by
      ext i
      unfold nbrCross nbrCov KernelObj.covFn
      rw [hqe, distOf_comm]
    have hv' : v = 0 := by
      show Spec.krigingVar 1 (nbrCov bessel k len X N n nn p + ν.mat n p) (nbrCross bessel k len X N n nn p q) = 0
      rw [hz, add_zero, Spec.krigingVar, e, Kriging.inv_col hdet, dotProduct_single, mul_one]
      show 1 - nbrCov bessel k len X N n nn p ⟨j, hjn⟩ ⟨j, hjn⟩ = 0
      rw [nbrCov_value, of_apply, distOf_self, value_zero bessel _ k.fn (suits_closed hk), sub_self]
    rw [hv'] at hv
    exact lt_irrefl _ hv
  · show 0 < Spec.krigingVar 1 (nbrCov bessel k len X N n nn p + ν.mat n p) (nbrCross bessel k len X N n nn p q)
    rw [hz, add_zero]
    exact Kriging.joint_schur_pos (hj.2 hd hall) (hc.2 hd)

/-- Different indices list different points if the training data has no repeated rows. -/
theorem distinct_of_nodup {X : Tensor ℝ} {N f n : Nat} {nn : Tensor Int} {p : Nat} {l : List Nat}
    (hl : rowList nn n p = l.map Int.ofNat) (hnd : l.Nodup) (hmem : ∀ x ∈ l, x < N) (hd : DistinctRows X N f) :
    DistinctNeighbours X N f n nn p := by
  intro i j hij
  obtain ⟨x, x1, x2⟩ := rowList_get hl i.2
  obtain ⟨y, y1, y2⟩ := rowList_get hl j.2
  rw [x2, y2, pointOf_nat, pointOf_nat]
  refine hd x (hmem x (List.mem_of_getElem? x1)) y (hmem y (List.mem_of_getElem? y1)) fun hxy => ?_
  subst hxy
  obtain ⟨a1, a2⟩ := List.getElem?_eq_some_iff.mp x1
  obtain ⟨b1, b2⟩ := List.getElem?_eq_some_iff.mp y1
  exact hij (Fin.ext ((List.Nodup.getElem_inj_iff hnd).mp (a2.trans b2.symm)))

/-- **C54, C28**: with `RBF` on squared distances or a closed-form Matérn kernel on distances, positive noise — or non-negative
noise and no repeated training points — `regress_any` never fails: every test point is predicted by kriging from its nearest
training points, and its variance lies between 0 and the variance scale. -/
theorem C54_regress_always (bessel : Flt → ℝ → ℝ) (R : Regressor) (hk : R.kernel.make = R.kernel)
    (hko : R.gp.kout = KernelObj.kout) (hsuit : R.kernel.fn.Suits R.kernel.deform.metric)
    (w : NNWrapper) (hw : w.Exact) (Q Y : Tensor ℝ)
    (m : Nat) (len : Fin w.f → ℝ) (hlen : R.kernel.deform.HasLengths w.f len)
    (hQ : Q.shape = [m, w.f]) (hY : Y.shape = [w.N]) (hm : 0 < m) (hk0 : 0 < w.nnCount)
    (hkN : w.nnCount ≤ w.N) (hν : R.gp.noise.Fits m w.nnCount)
    (hreg : R.gp.noise.Suffices m w.nnCount (DistinctRows w.train w.N w.f)) :
    ∃ nn μ v, (∀ i < m, ∃ l : List Nat, rowList nn w.nnCount i = l.map Int.ofNat ∧
        Nearest (· < w.N) (fun j => w.dist (rowPt Q w.f i) (rowPt w.train w.f j)) w.nnCount l) ∧
      regressAny bessel R w Q w.train Y = .ok (μ, v) ∧ μ.shape = [m] ∧ v.shape = [m] ∧
      ∀ p < m,
        μ.get [p] = Spec.krigingMean
          (nbrCov bessel R.kernel len w.train w.N w.nnCount nn p + R.gp.noise.mat w.nnCount p)
          (nbrCross bessel R.kernel len w.train w.N w.nnCount nn p (rowPt Q w.f p))
          (nbrTargets Y w.N w.nnCount nn p 0) ∧
        v.get [p] = R.gp.boundScale * Spec.krigingVar 1
          (nbrCov bessel R.kernel len w.train w.N w.nnCount nn p + R.gp.noise.mat w.nnCount p)
          (nbrCross bessel R.kernel len w.train w.N w.nnCount nn p (rowPt Q w.f p)) ∧
        (0 < R.gp.boundScale → 0 ≤ v.get [p] ∧ v.get [p] < R.gp.boundScale ∧
          ((R.gp.noise.mat w.nnCount p).PosDef → 0 < v.get [p])) := by
  obtain ⟨nn, h1, h2⟩ := C54_regress_any bessel R hk hko w hw Q Y m len hlen hQ hY hm hk0 hkN hν
  have hpos := hasLengths_pos hlen
  have hreg' : ∀ p < m, R.gp.noise.Suffices m w.nnCount (DistinctNeighbours w.train w.N w.f w.nnCount nn p) := fun p hp => by
    obtain ⟨l, e1, e2⟩ := h1 p hp
    exact hreg.mono fun hd => distinct_of_nodup e1 e2.nodup e2.mem hd
  have hdef := fun p => nbrCov_definite bessel R.kernel hsuit len hpos w.train w.N w.nnCount nn p
  obtain ⟨μ, v, r1, r2, r3, r4⟩ := h2 fun p hp =>
    Kriging.det_ne_zero (Noise.posdef_of_suffices (hreg' p hp) hp (hdef p).1 (hdef p).2)
  refine ⟨nn, μ, v, h1, r1, r2, r3, fun p hp => ⟨(r4 p hp).1, (r4 p hp).2, fun hs => ?_⟩⟩
  obtain ⟨b1, b2, b3, b4, -⟩ := nbr_variance bessel R.kernel hsuit len hpos w.train w.N w.nnCount nn p m hp (rowPt Q w.f p)
    R.gp.noise (hreg' p hp)
  rw [(r4 p hp).2]
  exact ⟨mul_nonneg hs.le b1, by have := mul_lt_mul_of_pos_left (b3 hk0) hs; rwa [mul_one] at this,
    fun hD => mul_pos hs (b4 hk0 hD)⟩

/-- **C25, end to end**: without noise, a test point that is one of the (different) training points is predicted to have exactly
its response, with variance zero; and any other test point has a positive variance. -/
theorem C25_regress_any (bessel : Flt → ℝ → ℝ) (R : Regressor) (hk : R.kernel.make = R.kernel)
    (hko : R.gp.kout = KernelObj.kout) (hsuit : R.kernel.fn.Suits R.kernel.deform.metric)
    (hnoise : R.gp.noise = .null ∨ R.gp.noise = .homoscedastic 0) (hs : 0 < R.gp.boundScale)
    (w : NNWrapper) (hw : w.Exact) (hsep : w.Separated) (hd : DistinctRows w.train w.N w.f) (Q Y : Tensor ℝ)
    (m : Nat) (len : Fin w.f → ℝ) (hlen : R.kernel.deform.HasLengths w.f len)
    (hQ : Q.shape = [m, w.f]) (hY : Y.shape = [w.N]) (hm : 0 < m) (hk0 : 0 < w.nnCount) (hkN : w.nnCount ≤ w.N) :
    ∃ μ v, regressAny bessel R w Q w.train Y = .ok (μ, v) ∧ μ.shape = [m] ∧ v.shape = [m] ∧
      ∀ p < m,
        (∀ x < w.N, rowPt Q w.f p = rowPt w.train w.f x → μ.get [p] = Y.get [x] ∧ v.get [p] = 0) ∧
        ((∀ x < w.N, rowPt Q w.f p ≠ rowPt w.train w.f x) → 0 < v.get [p]) := by
  have hz : ∀ p, R.gp.noise.mat w.nnCount p = 0 := by
    intro p; rcases hnoise with h | h <;> rw [h] <;> simp [Noise.mat]
  have hfit : R.gp.noise.Fits m w.nnCount := by rcases hnoise with h | h <;> rw [h] <;> trivial
  have hreg : R.gp.noise.Suffices m w.nnCount (DistinctRows w.train w.N w.f) := by
    rcases hnoise with h | h <;> rw [h]
    · exact hd
    · exact .inr ⟨le_rfl, hd⟩
  obtain ⟨nn, μ, v, h1, h2, h3, h4, h5⟩ := C54_regress_always bessel R hk hko hsuit w hw Q Y m len hlen hQ hY hm hk0 hkN hfit hreg
  have hpos := hasLengths_pos hlen
  refine ⟨μ, v, h2, h3, h4, fun p hp => ?_⟩
  obtain ⟨l, e1, e2⟩ := h1 p hp
  have hdn := distinct_of_nodup e1 e2.nodup e2.mem hd
  have hdef := nbrCov_definite bessel R.kernel hsuit len hpos w.train w.N w.nnCount nn p
  have hreg' : R.gp.noise.Suffices m w.nnCount (DistinctNeighbours w.train w.N w.f w.nnCount nn p) := hreg.mono fun _ => hdn
  have hvar := (nbr_variance bessel R.kernel hsuit len hpos w.train w.N w.nnCount nn p m hp (rowPt Q w.f p)
    R.gp.noise hreg').2.2.2.2 (hz p) hdn
  have hvar0 := (nbr_variance bessel R.kernel hsuit len hpos w.train w.N w.nnCount nn p m hp (rowPt Q w.f p)
    R.gp.noise hreg').1
  obtain ⟨m1, m2, -⟩ := h5 p hp
  have hrow : ∀ x, pt w.train w.f x = rowPt w.train w.f x := fun x => by
    funext c; simp only [pt, feature, hw.1, rowPt]
  constructor
  · intro x hx hqx
    -- the training point is in its own neighbourhood
    have hmem : x ∈ l := by
      by_contra hnot
      obtain ⟨y, hy⟩ := List.exists_mem_of_length_pos (l := l) (by rw [e2.length]; exact hk0)
      have hyN := e2.mem y hy
      have hle := e2.nearest y hy x hx hnot
      rw [hqx, hsep.1] at hle
      exact absurd (hsep.2 x hx y hyN (fun h => hnot (h ▸ hy))) (not_lt.mpr hle)
    obtain ⟨j, hjl, hjx⟩ := List.getElem_of_mem hmem
    have hj : j < w.nnCount := by rw [← e2.length]; exact hjl
    obtain ⟨x', x1, x2⟩ := rowList_get e1 hj
    obtain rfl : x' = x := by
      rw [List.getElem?_eq_getElem hjl, hjx] at x1
      exact (Option.some.inj x1).symm
    have hpt : rowPt Q w.f p = pt w.train w.f (pointOf w.N (nn.get [p, j])) := by
      rw [x2, pointOf_nat, hrow, hqx]
    have hdet := Kriging.det_ne_zero (hdef.2 hdn)
    have e : nbrCross bessel R.kernel len w.train w.N w.nnCount nn p (rowPt Q w.f p) =
        fun i => nbrCov bessel R.kernel len w.train w.N w.nnCount nn p i ⟨j, hj⟩ := by
      ext i
      unfold nbrCross nbrCov KernelObj.covFn
      rw [hpt, distOf_comm]
    constructor
    · rw [m1, hz, add_zero, Spec.krigingMean,
        ← Kriging.swap (Kriging.posdef_symm (hdef.2 hdn)), e, Kriging.inv_col hdet, single_dotProduct, one_mul]
      show feature Y (pointOf w.N (nn.get [p, j])) 0 = _
      rw [x2, pointOf_nat]
      simp only [feature, hY]
    · rw [m2]
      have : ¬ 0 < Spec.krigingVar 1 (nbrCov bessel R.kernel len w.train w.N w.nnCount nn p + R.gp.noise.mat w.nnCount p)
          (nbrCross bessel R.kernel len w.train w.N w.nnCount nn p (rowPt Q w.f p)) := fun h => hvar.mp h j hj hpt
      rw [le_antisymm (not_lt.mp this) hvar0, mul_zero]
  · intro hall
    rw [m2]
    refine mul_pos hs (hvar.mpr fun j hj h => ?_)
    obtain ⟨x, x1, x2⟩ := rowList_get e1 hj
    rw [x2, pointOf_nat, hrow] at h
    exact hall x (e2.mem x (List.mem_of_getElem? x1)) h

end MuyGPyS
