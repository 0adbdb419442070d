import Verif.Props.Reversion
import Verif.Props.Invariance
import Verif.Spec.Continuity

/-!
# C70: where predictions are continuous functions of the test point
-/

namespace MuyGPyS
open Py Matrix Topology
open Filter (Tendsto Eventually)

theorem kriging_perm {n : Nat} (A : Matrix (Fin n) (Fin n) ℝ) (k y : Fin n → ℝ) (e : Fin n ≃ Fin n) :
    Spec.krigingMean (A.submatrix e e) (k ∘ e) (y ∘ e) = Spec.krigingMean A k y ∧
    Spec.krigingVar 1 (A.submatrix e e) (k ∘ e) = Spec.krigingVar 1 A k := by
  have key : ∀ z : Fin n → ℝ, (k ∘ e) ⬝ᵥ ((A.submatrix e e)⁻¹ *ᵥ (z ∘ e)) = k ⬝ᵥ (A⁻¹ *ᵥ z) := by
    intro z
    rw [Matrix.inv_submatrix_equiv, Matrix.submatrix_mulVec_equiv]
    have : (z ∘ e) ∘ e.symm = z := by funext i; simp
    rw [this, comp_equiv_dotProduct_comp_equiv]
  exact ⟨key y, by unfold Spec.krigingVar; rw [key k]⟩

/-- Two enumerations of the same set differ by a permutation. -/
theorem exists_perm {n : Nat} (g g' : Fin n → Nat) (hg : Function.Injective g) (hg' : Function.Injective g')
    (h : Set.range g = Set.range g') : ∃ e : Fin n ≃ Fin n, g' = g ∘ e := by
  refine ⟨(Equiv.ofInjective g' hg').trans ((Equiv.setCongr h.symm).trans (Equiv.ofInjective g hg).symm), ?_⟩
  funext i
  simp only [Function.comp, Equiv.trans_apply]
  rw [Equiv.apply_ofInjective_symm hg]
  rfl

/-- If the nearest points are unambiguous, any list of nearest points enumerates them. -/
theorem nearest_clear {N k : Nat} {d : Nat → ℝ} {l : List Nat} (h : Nearest (· < N) d k l) {S : Finset Nat} (hc : S.card = k)
    (hlt : ∀ i ∈ S, i < N) (hS : ∀ i ∈ S, ∀ j < N, j ∉ S → d i < d j) : ∀ x, x ∈ l ↔ x ∈ S := by
  have hl : l.toFinset.card = k := by rw [List.toFinset_card_of_nodup h.nodup, h.length]
  have hsub : S ⊆ l.toFinset := by
    intro x hx
    by_contra hn
    have : ∃ y ∈ l.toFinset, y ∉ S := by
      by_contra hall
      push Not at hall
      have hsub : l.toFinset ⊆ S := hall
      have := Finset.eq_of_subset_of_card_le hsub (by rw [hc, hl])
      exact hn (this ▸ hx)
    obtain ⟨y, hy, hyS⟩ := this
    have hy' := List.mem_toFinset.mp hy
    have h1 := h.nearest y hy' x (hlt x hx) fun hm => hn (List.mem_toFinset.mpr hm)
    exact absurd (hS x hx y (h.mem y hy') hyS) (not_lt.mpr h1)
  have heq := Finset.eq_of_subset_of_card_le hsub (by rw [hc, hl])
  intro x
  rw [heq, List.mem_toFinset]

theorem sqDist_continuous {f : Nat} (x : Fin f → ℝ) : Continuous fun q : Fin f → ℝ => sqDist q x := by
  unfold sqDist
  fun_prop

/-- Unambiguous nearest points stay the nearest points around a point. -/
theorem clear_near (w : NNWrapper) {q : Fin w.f → ℝ} {S : Finset Nat} (h : w.ClearAt q S) : ∀ᶠ q' in 𝓝 q, w.ClearAt q' S := by
  obtain ⟨h1, h2, h3⟩ := h
  have : ∀ᶠ q' in 𝓝 q, ∀ i ∈ S, ∀ j ∈ Finset.range w.N, j ∉ S →
      sqDist q' (rowPt w.train w.f i) < sqDist q' (rowPt w.train w.f j) := by
    rw [Filter.eventually_all_finset]
    intro i hi
    rw [Filter.eventually_all_finset]
    intro j hj
    by_cases hjS : j ∈ S
    · exact Eventually.of_forall fun _ h => absurd hjS h
    · have := (sqDist_continuous (rowPt w.train w.f i)).continuousAt.eventually_lt
        (sqDist_continuous (rowPt w.train w.f j)).continuousAt (h3 i hi j (Finset.mem_range.mp hj) hjS)
      exact this.mono fun _ h _ => h
  exact this.mono fun q' h => ⟨h1, h2, fun i hi j hj => h i hi j (Finset.mem_range.mpr hj)⟩

theorem distOf_continuous (m : Metric) {f : Nat} (len x : Fin f → ℝ) :
    Continuous fun q : Fin f → ℝ => distOf m (fun c => q c / len c) x := by
  cases m with
  | F2 => simp only [distOf_F2]; fun_prop
  | l2 => simp only [distOf_l2_sqrt]; fun_prop

/-- Kernel functions are continuous; the general Matérn implementation at positive distances. -/
theorem value_continuousAt (k : KernelObj) (hp : k.Proper) {d : ℝ} (hd : k.fn = .gen → 0 < d) :
    ContinuousAt (KFn.value maternGen ((k.smoothness.map (·.val)).getD none) k.fn) d := by
  cases hf : k.fn with
  | rbf => unfold KFn.value; fun_prop
  | m05 => unfold KFn.value; fun_prop
  | m15 => unfold KFn.value; fun_prop
  | m25 => unfold KFn.value; fun_prop
  | minf => unfold KFn.value; fun_prop
  | gen =>
    obtain ⟨q, ν, h1, h2, h3⟩ := hp hf
    have hs' : (k.smoothness.map (·.val)).getD none = Flt.fin ν := by rw [h1, ← h2]; rfl
    rw [hs']
    have hc : Continuous fun d : ℝ => Matern.mix ν (√(2 * ν) * d / 2) := (Matern.mix_continuous h3).comp (by fun_prop)
    refine hc.continuousAt.congr ?_
    filter_upwards [lt_mem_nhds (hd hf)] with t ht
    exact ((maternGen_pos ν ht).trans (Matern.maternCorrelation_mix h3 ht)).symm

/-- Covariances with a fixed point are continuous; those of the general Matérn kernel except at the point itself. -/
theorem covFn_continuousAt (k : KernelObj) (hp : k.Proper) {f : Nat} (len : Fin f → ℝ) (hlen : ∀ c, 0 < len c) (q x : Fin f → ℝ)
    (hq : k.fn = .gen → k.deform.metric = .l2 ∧ q ≠ x) : ContinuousAt (fun q => k.covFn maternGen len q x) q := by
  have hpos : k.fn = .gen → 0 < distOf k.deform.metric (fun c => q c / len c) (fun c => x c / len c) := by
    intro h
    obtain ⟨h1, h2⟩ := hq h
    rw [h1]
    obtain ⟨-, m2, m3, -⟩ := C17_metrics (fun c => q c / len c) (fun c => x c / len c) (fun c => x c / len c)
    refine lt_of_le_of_ne m2 fun h0 => h2 ?_
    have := m3.mp h0.symm
    funext c
    exact (div_left_inj' (hlen c).ne').mp (congrFun this c)
  have hd := (distOf_continuous k.deform.metric len fun c => x c / len c).continuousAt (x := q)
  have hv := value_continuousAt k hp hpos
  exact Filter.Tendsto.comp hv hd

theorem Noise.mat_same {ν : Noise} {n : Nat} (h : ∀ b, ν.Fits b n) (p : Nat) :
    ν.mat n p = ν.mat n 0 ∧ ∀ e : Fin n ≃ Fin n, (ν.mat n 0).submatrix e e = ν.mat n 0 := by
  cases ν with
  | homoscedastic v =>
    refine ⟨rfl, fun e => ?_⟩
    show ((v • 1 : Matrix (Fin n) (Fin n) ℝ)).submatrix e e = v • 1
    rw [submatrix_smul]
    show v • ((1 : Matrix (Fin n) (Fin n) ℝ).submatrix e e) = v • 1
    rw [submatrix_one_equiv]
  | heteroscedastic v =>
    have h1 : v.shape = [0, n] := h 0
    have h2 : v.shape = [1, n] := h 1
    rw [h1] at h2; simp at h2
  | shear33 v => exact (h 0).elim
  | null => exact ⟨rfl, fun e => rfl⟩

/-- Listing the neighbours in another order permutes the kriging system. -/
theorem nbr_enum (bs : Flt → ℝ → ℝ) (k : KernelObj) {ν : Noise} {n : Nat} (hν : ∀ b, ν.Fits b n) {f : Nat} (len : Fin f → ℝ)
    (X Y : Tensor ℝ) (N : Nat) (nn : Tensor Int) (p : Nat) (q : Fin f → ℝ) (g : Fin n → Nat) (hg : Function.Injective g)
    {l : List Nat} (hl : rowList nn n p = l.map Int.ofNat) (hnd : l.Nodup) (hmem : ∀ x, x ∈ l ↔ x ∈ Set.range g) :
    ∃ e : Fin n ≃ Fin n, nbrCov bs k len X N n nn p + ν.mat n p =
        ((Matrix.of fun i j => k.covFn bs len (pt X f (g i)) (pt X f (g j))) + ν.mat n 0).submatrix e e ∧
      nbrCross bs k len X N n nn p q = (fun j => k.covFn bs len q (pt X f (g j))) ∘ e ∧
      nbrTargets Y N n nn p 0 = (fun j => feature Y (g j) 0) ∘ e := by
  have hlen : l.length = n := by
    have := congrArg List.length hl
    simpa [rowList] using this.symm
  let g' : Fin n → Nat := fun i => l.get (i.cast hlen.symm)
  have hg' : Function.Injective g' := by
    intro a b hab
    have := (List.Nodup.get_inj_iff hnd).mp hab
    exact Fin.ext (by simpa using congrArg Fin.val this)
  have hget : ∀ j : Fin n, pointOf N (nn.get [p, j]) = g' j := by
    intro j
    obtain ⟨x, x1, x2⟩ := rowList_get hl j.2
    rw [x2, pointOf_nat]
    obtain ⟨a, b⟩ := List.getElem?_eq_some_iff.mp x1
    exact b.symm
  have hr : Set.range g = Set.range g' := by
    ext x
    rw [← hmem]
    constructor
    · intro hx
      obtain ⟨i, hi, e⟩ := List.getElem_of_mem hx
      exact ⟨⟨i, hlen ▸ hi⟩, e⟩
    · rintro ⟨i, rfl⟩
      exact List.get_mem _ _
  obtain ⟨e, he⟩ := exists_perm g g' hg hg' hr
  have hge : ∀ j, g' j = g (e j) := fun j => congrFun he j
  obtain ⟨m1, m2⟩ := Noise.mat_same hν p
  have ecov : nbrCov bs k len X N n nn p + ν.mat n p =
      ((Matrix.of fun i j => k.covFn bs len (pt X f (g i)) (pt X f (g j))) + ν.mat n 0).submatrix e e := by
    rw [m1, submatrix_add, Pi.add_apply, Pi.add_apply, m2 e]
    congr 1
    ext i j
    simp only [nbrCov, submatrix_apply, of_apply, hget, hge]
  have ecr : nbrCross bs k len X N n nn p q = (fun j => k.covFn bs len q (pt X f (g j))) ∘ e := by
    funext j; simp only [nbrCross, Function.comp, hget, hge]
  have ety : nbrTargets Y N n nn p 0 = (fun j => feature Y (g j) 0) ∘ e := by
    funext j; simp only [nbrTargets, Function.comp, hget, hge]
  exact ⟨e, ecov, ecr, ety⟩

/-- Kriging does not depend on the order in which the neighbours are listed. -/
theorem kriging_enum (bs : Flt → ℝ → ℝ) (k : KernelObj) {ν : Noise} {n : Nat} (hν : ∀ b, ν.Fits b n) {f : Nat} (len : Fin f → ℝ)
    (X Y : Tensor ℝ) (N : Nat) (nn : Tensor Int) (p : Nat) (q : Fin f → ℝ) (g : Fin n → Nat) (hg : Function.Injective g)
    {l : List Nat} (hl : rowList nn n p = l.map Int.ofNat) (hnd : l.Nodup) (hmem : ∀ x, x ∈ l ↔ x ∈ Set.range g) :
    Spec.krigingMean (nbrCov bs k len X N n nn p + ν.mat n p) (nbrCross bs k len X N n nn p q) (nbrTargets Y N n nn p 0) =
      Spec.krigingMean ((Matrix.of fun i j => k.covFn bs len (pt X f (g i)) (pt X f (g j))) + ν.mat n 0)
        (fun j => k.covFn bs len q (pt X f (g j))) (fun j => feature Y (g j) 0) ∧
    Spec.krigingVar 1 (nbrCov bs k len X N n nn p + ν.mat n p) (nbrCross bs k len X N n nn p q) =
      Spec.krigingVar 1 ((Matrix.of fun i j => k.covFn bs len (pt X f (g i)) (pt X f (g j))) + ν.mat n 0)
        (fun j => k.covFn bs len q (pt X f (g j))) := by
  obtain ⟨e, ecov, ecr, ety⟩ := nbr_enum bs k hν len X Y N nn p q g hg hl hnd hmem
  rw [ecov, ecr, ety]
  exact kriging_perm _ _ _ e

/-- **C70**: predictions are continuous in the test point wherever its nearest training points are unambiguous (and, for the
general Matérn implementation, at points that are not training points): around such a point, test points of any batch are
predicted nearly the same. Partial: see `C70_switch_fails`, `C70_matern_jump`. -/
theorem C70_continuous_partial (R : Regressor) (hk : R.kernel.make = R.kernel) (hko : R.gp.kout = KernelObj.kout) (hp : R.kernel.Proper)
    (w : NNWrapper) (hw : w.Exact) (heuc : w.Euclidean) (Y : Tensor ℝ) (len : Fin w.f → ℝ)
    (hlen : R.kernel.deform.HasLengths w.f len) (hY : Y.shape = [w.N]) (hk0 : 0 < w.nnCount) (hkN : w.nnCount ≤ w.N)
    (hν : ∀ b, R.gp.noise.Fits b w.nnCount) (q : Fin w.f → ℝ) (S : Finset Nat) (hq : w.ClearAt q S)
    (hgen : R.kernel.fn = .gen → R.kernel.deform.metric = .l2 ∧ ∀ i < w.N, q ≠ rowPt w.train w.f i) (ε : ℝ) (hε : 0 < ε) :
    ∃ δ, 0 < δ ∧ ∀ (m m' : Nat) (Q Q' μ v μ' v' : Tensor ℝ), Q.shape = [m, w.f] → Q'.shape = [m', w.f] →
      regressAny maternGen R w Q w.train Y = .ok (μ, v) → regressAny maternGen R w Q' w.train Y = .ok (μ', v') →
      ∀ p < m, ∀ p' < m', rowPt Q w.f p = q → (∀ c, |rowPt Q' w.f p' c - q c| < δ) →
        |μ'.get [p'] - μ.get [p]| < ε ∧ |v'.get [p'] - v.get [p]| < ε := by
  have hrow : ∀ x, pt w.train w.f x = rowPt w.train w.f x := fun x => by
    funext c; simp only [pt, feature, hw.1, rowPt]
  -- an enumeration of the neighbours
  let eS := S.equivFinOfCardEq hq.1
  let g : Fin w.nnCount → Nat := fun i => (eS.symm i : Nat)
  have hg : Function.Injective g := fun a b h => eS.symm.injective (Subtype.ext h)
  have hgS : ∀ x, x ∈ S ↔ x ∈ Set.range g := by
    intro x
    constructor
    · intro hx; exact ⟨eS ⟨x, hx⟩, by simp [g]⟩
    · rintro ⟨i, rfl⟩; exact (eS.symm i).2
  let A := (Matrix.of fun i j => R.kernel.covFn maternGen len (pt w.train w.f (g i)) (pt w.train w.f (g j))) + R.gp.noise.mat w.nnCount 0
  let kq : (Fin w.f → ℝ) → Fin w.nnCount → ℝ := fun q j => R.kernel.covFn maternGen len q (pt w.train w.f (g j))
  let F : (Fin w.f → ℝ) → ℝ := fun q => Spec.krigingMean A (kq q) (fun j => feature Y (g j) 0)
  let G : (Fin w.f → ℝ) → ℝ := fun q => R.gp.boundScale * Spec.krigingVar 1 A (kq q)
  have hpred : ∀ (m : Nat) (Q μ v : Tensor ℝ), Q.shape = [m, w.f] → regressAny maternGen R w Q w.train Y = .ok (μ, v) →
      ∀ p < m, w.ClearAt (rowPt Q w.f p) S → μ.get [p] = F (rowPt Q w.f p) ∧ v.get [p] = G (rowPt Q w.f p) := by
    intro m Q μ v hQ hrun p hpm hc
    obtain ⟨nn, h1, -, h⟩ := regress_cases maternGen R hk hko w hw Q Y m len hlen hQ hY (by omega) hk0 hkN (hν m)
    rcases h with ⟨-, h⟩ | ⟨-, μ', v', r1, -, -, r4⟩
    · rw [h] at hrun; cases hrun
    · rw [r1] at hrun
      cases hrun
      obtain ⟨l, e1, e2⟩ := h1 p hpm
      obtain ⟨φ, f1, f2⟩ := heuc
      have hmem := nearest_clear e2 hc.1 hc.2.1 (fun i hi j hj hjS => by
        rw [f2, f2]
        exact f1 (sqDist_nonneg _ _) (sqDist_nonneg _ _) (hc.2.2 i hi j hj hjS))
      obtain ⟨a, b⟩ := kriging_enum maternGen R.kernel hν len w.train Y w.N nn p (rowPt Q w.f p) g hg e1 e2.nodup
        fun x => (hmem x).trans (hgS x)
      rw [(r4 p hpm).1, (r4 p hpm).2]
      exact ⟨a, congrArg (R.gp.boundScale * ·) b⟩
  have hkc : ∀ j, ContinuousAt (fun q => kq q j) q := fun j =>
    covFn_continuousAt R.kernel hp len (hasLengths_pos hlen) q _ fun h => by
      obtain ⟨a, b⟩ := hgen h
      exact ⟨a, by rw [hrow]; exact b _ (hq.2.1 _ ((hgS _).mpr ⟨j, rfl⟩))⟩
  have hF : ContinuousAt F q := by
    show ContinuousAt (fun q => ∑ j, kq q j * (A⁻¹ *ᵥ fun j => feature Y (g j) 0) j) q
    exact tendsto_finsetSum _ fun j _ => (hkc j).mul continuousAt_const
  have hG : ContinuousAt G q := by
    show ContinuousAt (fun q => R.gp.boundScale * (1 - ∑ j, kq q j * ∑ i, A⁻¹ j i * kq q i)) q
    refine continuousAt_const.mul (continuousAt_const.sub ?_)
    exact tendsto_finsetSum _ fun j _ => (hkc j).mul (tendsto_finsetSum _ fun i _ => continuousAt_const.mul (hkc i))
  have hall : ∀ᶠ q' in 𝓝 q, w.ClearAt q' S ∧ |F q' - F q| < ε ∧ |G q' - G q| < ε := by
    refine (clear_near w hq).and (Filter.Eventually.and ?_ ?_)
    · exact hF.eventually (Metric.ball_mem_nhds (F q) hε)
    · exact hG.eventually (Metric.ball_mem_nhds (G q) hε)
  obtain ⟨δ, hδ, hball⟩ := Metric.eventually_nhds_iff.mp hall
  refine ⟨δ, hδ, fun m m' Q Q' μ v μ' v' hQ hQ' hr hr' p hpm p' hpm' hpq hnear => ?_⟩
  have hd : dist (rowPt Q' w.f p') q < δ := (dist_pi_lt_iff hδ).mpr fun c => by rw [Real.dist_eq]; exact hnear c
  obtain ⟨c1, c2, c3⟩ := hball hd
  obtain ⟨a1, a2⟩ := hpred m Q μ v hQ hr p hpm (by rw [hpq]; exact hq)
  obtain ⟨b1, b2⟩ := hpred m' Q' μ' v' hQ' hr' p' hpm' c1
  rw [a1, a2, b1, b2, hpq]
  exact ⟨c2, c3⟩

end MuyGPyS
