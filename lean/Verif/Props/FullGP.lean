import Verif.Spec.FullGP
import Verif.Props.Truth
import Verif.Props.Heteroscedastic
import Verif.Props.Information

/-!
# C89: with all training points as neighbours the model is the exact Gaussian process
-/

namespace MuyGPyS
open Py Matrix

/-! ## Linear algebra of leaving one out -/

section
variable {ι κ : Type*} [Fintype ι] [DecidableEq ι] [Fintype κ] [DecidableEq κ]

theorem sum_others (x : ι) (e : κ → ι) (he : Function.Injective e) (hr : ∀ i, i ≠ x ↔ ∃ j, e j = i) (f : ι → ℝ) :
    ∑ i, f i = f x + ∑ j, f (e j) := by
  rw [Fintype.sum_eq_add_sum_compl x f]
  congr 1
  have : ({x}ᶜ : Finset ι) = Finset.univ.image e := by
    ext i
    simp only [Finset.mem_compl, Finset.mem_singleton, Finset.mem_image, Finset.mem_univ, true_and]
    exact hr i
  rw [this, Finset.sum_image fun a _ b _ h => he h]

/-- Predicting entry `x` from the others. -/
theorem loo_mean (A : Matrix ι ι ℝ) (hA : A.PosDef) (x : ι) (e : κ → ι) (he : Function.Injective e) (hr : ∀ i, i ≠ x ↔ ∃ j, e j = i) (y : ι → ℝ) :
    (fun j => A x (e j)) ⬝ᵥ ((A.submatrix e e)⁻¹ *ᵥ (y ∘ e)) = y x - (A⁻¹ *ᵥ y) x / A⁻¹ x x := by
  have hd := Kriging.det_ne_zero hA
  have hB : (A.submatrix e e).PosDef := hA.submatrix he
  have hxx : A⁻¹ x x ≠ 0 := (hA.inv.diag_pos).ne'
  set z := y x - (A⁻¹ *ᵥ y) x / A⁻¹ x x with hz
  set β : ι → ℝ := Function.update y x z with hβ
  set u : ι → ℝ := A⁻¹ *ᵥ β with hu
  have hAu : A *ᵥ u = β := by rw [hu]; exact Kriging.mulVec_inv_cancel hd β
  have hux : u x = 0 := by
    have : β = y + Pi.single x (z - y x) := by
      funext i
      by_cases h : i = x
      · subst h; simp [hβ]
      · simp [hβ, h]
    rw [hu, this, mulVec_add, Pi.add_apply, mulVec_single]
    simp only [MulOpposite.op_sub, Pi.smul_apply, Matrix.col_apply, hz]
    simp
    field_simp
    ring
  have hrow : ∀ r, ∑ j, A r (e j) * u (e j) = β r := fun r => by
    have h := congrFun hAu r
    simp only [mulVec, dotProduct] at h
    rw [sum_others x e he hr fun i => A r i * u i, hux, mul_zero, zero_add] at h
    exact h
  have hsub : (A.submatrix e e) *ᵥ (u ∘ e) = y ∘ e := by
    funext j
    have h := hrow (e j)
    simp only [mulVec, dotProduct, submatrix_apply, Function.comp]
    rw [h, hβ, Function.update_of_ne ((hr _).mpr ⟨j, rfl⟩)]
  rw [← hsub, Kriging.inv_mulVec_cancel (Kriging.det_ne_zero hB)]
  have h := hrow x
  rw [hβ, Function.update_self] at h
  simpa [dotProduct] using h

/-- The variance of entry `x` given the others. -/
theorem loo_var (A : Matrix ι ι ℝ) (hA : A.PosDef) (x : ι) (e : κ → ι) (he : Function.Injective e) (hr : ∀ i, i ≠ x ↔ ∃ j, e j = i) :
    A x x - (fun j => A x (e j)) ⬝ᵥ ((A.submatrix e e)⁻¹ *ᵥ fun j => A x (e j)) = 1 / A⁻¹ x x := by
  have hd := Kriging.det_ne_zero hA
  have hB : (A.submatrix e e).PosDef := hA.submatrix he
  have hxx : A⁻¹ x x ≠ 0 := (hA.inv.diag_pos).ne'
  have hsymm : ∀ i j, A i j = A j i := fun i j => by
    have := congrFun (congrFun hA.isHermitian j) i
    simpa using this
  set u : ι → ℝ := A⁻¹ *ᵥ Pi.single x 1 with hu
  have hAu : A *ᵥ u = Pi.single x 1 := by rw [hu]; exact Kriging.mulVec_inv_cancel hd _
  have hux : u x = A⁻¹ x x := by rw [hu, mulVec_single_one]; rfl
  have hrow : ∀ r, A r x * A⁻¹ x x + ∑ j, A r (e j) * u (e j) = Pi.single (M := fun _ => ℝ) x 1 r := fun r => by
    have h := congrFun hAu r
    simp only [mulVec, dotProduct] at h
    rw [sum_others x e he hr fun i => A r i * u i, hux] at h
    exact h
  have hsub : (A.submatrix e e) *ᵥ (u ∘ e) = (-A⁻¹ x x) • fun j => A x (e j) := by
    funext j
    have h := hrow (e j)
    rw [Pi.single_eq_of_ne ((hr _).mpr ⟨j, rfl⟩)] at h
    simp only [mulVec, dotProduct, submatrix_apply, Function.comp, Pi.smul_apply, smul_eq_mul]
    rw [hsymm x (e j)]
    linarith
  have hinv : (A.submatrix e e)⁻¹ *ᵥ (fun j => A x (e j)) = (-(A⁻¹ x x)⁻¹) • (u ∘ e) := by
    have h : (fun j => A x (e j)) = (A.submatrix e e) *ᵥ ((-(A⁻¹ x x)⁻¹) • (u ∘ e)) := by
      rw [mulVec_smul, hsub, smul_smul, neg_mul_neg, inv_mul_cancel₀ hxx, one_smul]
    rw [h, Kriging.inv_mulVec_cancel (Kriging.det_ne_zero hB)]
  rw [hinv, dotProduct_smul, smul_eq_mul]
  have h := hrow x
  rw [Pi.single_eq_same] at h
  have h' : (fun j => A x (e j)) ⬝ᵥ (u ∘ e) = 1 - A x x * A⁻¹ x x := by
    rw [← h]
    simp only [dotProduct, Function.comp]
    ring
  rw [h']
  field_simp
  ring

end

/-! ## Prediction -/

/-- A list of `N` different numbers below `N` is a permutation. -/
theorem perm_of_row {N : Nat} {nn : Tensor Int} {p : Nat} {l : List Nat} (h1 : rowList nn N p = l.map Int.ofNat) (hlen : l.length = N) (hnd : l.Nodup)
    (hmem : ∀ i ∈ l, i < N) : ∃ σ : Equiv.Perm (Fin N), ∀ j : Fin N, nn.get [p, j] = ((σ j : ℕ) : ℤ) := by
  have hg : ∀ j : Fin N, ∃ x, l[(j : ℕ)]? = some x ∧ nn.get [p, j] = (x : ℤ) := fun j => rowList_get h1 j.2
  choose x hx1 hx2 using hg
  have hxN : ∀ j, x j < N := fun j => hmem _ (List.mem_of_getElem? (hx1 j))
  have hinj : Function.Injective fun j => (⟨x j, hxN j⟩ : Fin N) := by
    intro a b hab
    have hxab : x a = x b := congrArg Fin.val hab
    have ha := hx1 a
    have hb := hx1 b
    rw [hxab] at ha
    obtain ⟨a1, a2⟩ := List.getElem?_eq_some_iff.mp ha
    obtain ⟨b1, b2⟩ := List.getElem?_eq_some_iff.mp hb
    exact Fin.ext ((List.Nodup.getElem_inj_iff hnd).mp (a2.trans b2.symm))
  exact ⟨Equiv.ofBijective _ (Finite.injective_iff_bijective.mp hinj), fun j => hx2 j⟩

/-- **C89**: if every training point is a neighbour, `regress_any` is ordinary Gaussian process regression with all training data — whatever the index, the metric it uses, its
order of equidistant points. -/
theorem C89_regress (bessel : Flt → ℝ → ℝ) (R : Regressor) (hk : R.kernel.make = R.kernel)
    (hko : R.gp.kout = KernelObj.kout) (hsuit : R.kernel.fn.Suits R.kernel.deform.metric)
    (w : NNWrapper) (hw : w.Exact) (hall : w.nnCount = w.N) (Q Y : Tensor ℝ)
    (m : Nat) (len : Fin w.f → ℝ) (hlen : R.kernel.deform.HasLengths w.f len)
    (hQ : Q.shape = [m, w.f]) (hY : Y.shape = [w.N]) (hm : 0 < m) (hN : 0 < w.N)
    (τ : ℝ) (hτ : R.gp.noise.Level τ) (hreg : 0 < τ ∨ (0 ≤ τ ∧ DistinctRows w.train w.N w.f)) :
    ∃ μ v, regressAny bessel R w Q w.train Y = .ok (μ, v) ∧ μ.shape = [m] ∧ v.shape = [m] ∧
      ∀ p < m,
        μ.get [p] = Spec.krigingMean (fullCov bessel R.kernel len w.train w.N + τ • 1) (fullCross bessel R.kernel len w.train w.N (rowPt Q w.f p))
          (responses Y w.N) ∧
        v.get [p] = R.gp.boundScale * Spec.krigingVar 1 (fullCov bessel R.kernel len w.train w.N + τ • 1)
          (fullCross bessel R.kernel len w.train w.N (rowPt Q w.f p)) := by
  obtain ⟨N, f, X, k, dist, sq, answer⟩ := w
  dsimp only at hall hY hN hQ hreg
  subst hall
  obtain ⟨nn, μ, v, h1, h2, h3, h4, h5⟩ := C54_regress_always bessel R hk hko hsuit _ hw Q Y m len hlen hQ hY hm hN le_rfl (hτ.fits _ _)
    ((hτ.suffices_iff _ _ _).mpr hreg)
  refine ⟨μ, v, h2, h3, h4, fun p hp => ?_⟩
  obtain ⟨l, e1, e2⟩ := h1 p hp
  obtain ⟨σ, hσ⟩ := perm_of_row e1 e2.length e2.nodup e2.mem
  have hpt : ∀ x, pt X f x = rowPt X f x := fun x => by
    funext c
    have : X.shape = [_, f] := hw.1
    simp only [pt, feature, this, rowPt]
  have hA : nbrCov bessel R.kernel len X k k nn p + R.gp.noise.mat k p = (fullCov bessel R.kernel len X k + τ • 1).submatrix σ σ := by
    rw [hτ.mat]
    ext i j
    simp only [Matrix.add_apply, Matrix.smul_apply, Matrix.one_apply, submatrix_apply, σ.injective.eq_iff]
    congr 1
    simp only [nbrCov, fullCov, hσ, pointOf_nat, hpt]
  have hc : nbrCross bessel R.kernel len X k k nn p (rowPt Q f p) = fullCross bessel R.kernel len X k (rowPt Q f p) ∘ σ := by
    funext j
    simp only [nbrCross, fullCross, hσ, pointOf_nat, hpt, Function.comp]
  have hy : nbrTargets Y k k nn p 0 = responses Y k ∘ σ := by
    funext j
    simp only [nbrTargets, responses, hσ, pointOf_nat, Function.comp, feature, hY]
  obtain ⟨m1, m2, -⟩ := h5 p hp
  simp only at m1 m2
  rw [hA, hc] at m1 m2
  rw [hy] at m1
  constructor
  · rw [m1]
    exact Kriging.quad_perm _ _ _ _
  · rw [m2]
    unfold Spec.krigingVar
    rw [Kriging.quad_perm]

/-- **C89** for heteroscedastic noise made for the test points: ordinary Gaussian process regression in which every observation has its own noise. -/
theorem C89_heteroscedastic (bessel : Flt → ℝ → ℝ) (R : Regressor) (hk : R.kernel.make = R.kernel)
    (hko : R.gp.kout = KernelObj.kout) (hsuit : R.kernel.fn.Suits R.kernel.deform.metric)
    (w : NNWrapper) (hw : w.Exact) (hall : w.nnCount = w.N) (Q Y : Tensor ℝ)
    (m : Nat) (len : Fin w.f → ℝ) (hlen : R.kernel.deform.HasLengths w.f len)
    (hQ : Q.shape = [m, w.f]) (hY : Y.shape = [w.N]) (hm : 0 < m) (hN : 0 < w.N)
    (noise : Tensor ℝ) (hnoise : noise.shape = [w.N]) (nn : Tensor Int) (D T : Tensor ℝ) (hnn : w.getNns Q = .ok (nn, D))
    (hT : makeHeteroscedasticTensor noise nn = .ok T) (hR : R.gp.noise = .heteroscedastic T)
    (hpos : (∀ i < w.N, 0 < noise.get [i]) ∨ ((∀ i < w.N, 0 ≤ noise.get [i]) ∧ DistinctRows w.train w.N w.f)) :
    ∃ μ v, regressAny bessel R w Q w.train Y = .ok (μ, v) ∧ μ.shape = [m] ∧ v.shape = [m] ∧
      ∀ p < m,
        μ.get [p] = Spec.krigingMean (fullCov bessel R.kernel len w.train w.N + diagonal (responses noise w.N))
          (fullCross bessel R.kernel len w.train w.N (rowPt Q w.f p)) (responses Y w.N) ∧
        v.get [p] = R.gp.boundScale * Spec.krigingVar 1 (fullCov bessel R.kernel len w.train w.N + diagonal (responses noise w.N))
          (fullCross bessel R.kernel len w.train w.N (rowPt Q w.f p)) := by
  obtain ⟨N, f, X, k, dist, sq, answer⟩ := w
  simp only at *
  subst hall
  obtain ⟨μ, v, h1, h2, h3, h4, h5⟩ := C88_regress_partial bessel R hk hko hsuit _ hw Q Y m len hlen hQ hY hm hN le_rfl noise hnoise nn D T hnn hT hR hpos
  refine ⟨μ, v, h2, h3, h4, fun p hp => ?_⟩
  obtain ⟨l, e1, e2⟩ := h1 p hp
  obtain ⟨σ, hσ⟩ := perm_of_row e1 e2.length e2.nodup e2.mem
  have hpt : ∀ x, pt X f x = rowPt X f x := fun x => by
    funext c
    have : X.shape = [_, f] := hw.1
    simp only [pt, feature, this, rowPt]
  have hA : (nbrCov bessel R.kernel len X k k nn p + diagonal fun j : Fin k => noise.get [pointOf k (nn.get [p, j])]) =
      (fullCov bessel R.kernel len X k + diagonal (responses noise k)).submatrix σ σ := by
    ext i j
    simp only [Matrix.add_apply, diagonal_apply, submatrix_apply, σ.injective.eq_iff]
    congr 1
    · simp only [nbrCov, fullCov, hσ, pointOf_nat, hpt]
    · simp only [hσ, pointOf_nat, responses]
  have hc : nbrCross bessel R.kernel len X k k nn p (rowPt Q f p) = fullCross bessel R.kernel len X k (rowPt Q f p) ∘ σ := by
    funext j
    simp only [nbrCross, fullCross, hσ, pointOf_nat, hpt, Function.comp]
  have hy : nbrTargets Y k k nn p 0 = responses Y k ∘ σ := by
    funext j
    simp only [nbrTargets, responses, hσ, pointOf_nat, Function.comp, feature, hY]
  obtain ⟨m1, m2⟩ := h5 p hp
  simp only at m1 m2
  rw [hA, hc] at m1 m2
  rw [hy] at m1
  constructor
  · rw [m1]
    exact Kriging.quad_perm _ _ _ _
  · rw [m2]
    unfold Spec.krigingVar
    rw [Kriging.quad_perm]

/-! ## Training -/

/-- A list of `N - 1` different numbers below `N`, none of them `x`, lists all numbers but `x`. -/
theorem others_of_row {N n : Nat} (hn : n + 1 = N) {nn : Tensor Int} {p : Nat} {l : List Nat} (h1 : rowList nn n p = l.map Int.ofNat) (hnd : l.Nodup)
    (hmem : ∀ i ∈ l, i < N) (x : Fin N) (hx : (x : ℕ) ∉ l) : ∃ e : Fin n → Fin N, Function.Injective e ∧ (∀ i, i ≠ x ↔ ∃ j, e j = i) ∧
      ∀ j : Fin n, nn.get [p, j] = ((e j : ℕ) : ℤ) := by
  have hg : ∀ j : Fin n, ∃ x, l[(j : ℕ)]? = some x ∧ nn.get [p, j] = (x : ℤ) := fun j => rowList_get h1 j.2
  choose y hy1 hy2 using hg
  have hyN : ∀ j, y j < N := fun j => hmem _ (List.mem_of_getElem? (hy1 j))
  have hinj : Function.Injective fun j => (⟨y j, hyN j⟩ : Fin N) := by
    intro a b hab
    have hxab : y a = y b := congrArg Fin.val hab
    have ha := hy1 a
    have hb := hy1 b
    rw [hxab] at ha
    obtain ⟨a1, a2⟩ := List.getElem?_eq_some_iff.mp ha
    obtain ⟨b1, b2⟩ := List.getElem?_eq_some_iff.mp hb
    exact Fin.ext ((List.Nodup.getElem_inj_iff hnd).mp (a2.trans b2.symm))
  have hne : ∀ j, (⟨y j, hyN j⟩ : Fin N) ≠ x := fun j h => hx (by rw [← h]; exact List.mem_of_getElem? (hy1 j))
  refine ⟨fun j => ⟨y j, hyN j⟩, hinj, fun i => ⟨fun hi => ?_, ?_⟩, hy2⟩
  · have himg : Finset.univ.image (fun j => (⟨y j, hyN j⟩ : Fin N)) = {x}ᶜ := by
      refine Finset.eq_of_subset_of_card_le (fun a ha => ?_) ?_
      · obtain ⟨j, -, rfl⟩ := Finset.mem_image.mp ha
        simpa using hne j
      · rw [Finset.card_image_of_injective _ hinj, Finset.card_compl, Finset.card_singleton, Finset.card_univ, Fintype.card_fin, Fintype.card_fin]
        omega
    have : i ∈ Finset.univ.image (fun j => (⟨y j, hyN j⟩ : Fin N)) := by rw [himg]; simpa using hi
    obtain ⟨j, -, hj⟩ := Finset.mem_image.mp this
    exact ⟨j, hj⟩
  · rintro ⟨j, rfl⟩
    exact hne j

theorem fullCov_posdef (bessel : Flt → ℝ → ℝ) (k : KernelObj) (hsuit : k.fn.Suits k.deform.metric) {f : Nat} (len : Fin f → ℝ) (hlen : ∀ c, 0 < len c)
    (X : Tensor ℝ) (N : Nat) (hX : X.shape = [N, f]) (τ : ℝ) (hreg : 0 < τ ∨ (0 ≤ τ ∧ DistinctRows X N f)) :
    (fullCov bessel k len X N + τ • 1).PosDef := by
  have hc := nbrCov_definite bessel k hsuit len hlen X N N (⟨[1, N], fun i => (i : ℤ)⟩ : Tensor Int) 0
  have hget : ∀ j : Fin N, (⟨[1, N], fun i => (i : ℤ)⟩ : Tensor Int).get [0, j] = ((j : ℕ) : ℤ) := fun j => by
    rw [Tensor.get2 _ rfl]; simp
  have hpt : ∀ x, pt X f x = rowPt X f x := fun x => by
    funext c; simp only [pt, feature, hX, rowPt]
  have hK : nbrCov bessel k len X N N (⟨[1, N], fun i => (i : ℤ)⟩ : Tensor Int) 0 = fullCov bessel k len X N := by
    ext i j
    simp only [nbrCov, fullCov, hget, pointOf_nat, hpt]
  have h := Noise.posdef_of_suffices (ν := .homoscedastic τ) (b := 1) (n := N) (p := 0)
    (D := DistinctNeighbours X N f N (⟨[1, N], fun i => (i : ℤ)⟩ : Tensor Int) 0) (hreg.imp_right fun h => ⟨h.1, fun i j hij => by
      rw [hget, hget, pointOf_nat, pointOf_nat]
      exact h.2 i i.2 j j.2 fun e => hij (Fin.ext e)⟩) one_pos hc.1 hc.2
  rw [hK] at h
  exact h

/-- The predictions of the batch, when every point is predicted from all the others. -/
theorem loo_batch (bs : Flt → ℝ → ℝ) (L : Learner) (w : NNWrapper) (hw : w.Exact) (hall : w.nnCount + 1 = w.N)
    (len : Fin w.f → ℝ) (τ : ℝ) (hτ : L.trainee.R.gp.noise.Level τ)
    (hpd : (fullCov bs L.trainee.R.kernel len w.train w.N + τ • 1).PosDef) (κ : ℝ)
    (hself : ∀ x, fullCov bs L.trainee.R.kernel len w.train w.N x x = κ) (idx : List Nat) (nn : Tensor Int) (p : Nat)
    (l : List Nat) (h1 : rowList nn w.nnCount p = l.map Int.ofNat) (hnd : l.Nodup) (hmem : ∀ i ∈ l, i < w.N) (x : Fin w.N) (hx : idx.getD p 0 = x)
    (hxl : (x : ℕ) ∉ l) (y : Fin w.N → ℝ) (z : Fin w.nnCount → ℝ) (hz : ∀ j, z j = y ⟨pointOf w.N (nn.get [p, j]), by
      obtain ⟨a, a1, a2⟩ := rowList_get h1 j.2
      rw [a2, pointOf_nat]; exact hmem a (List.mem_of_getElem? a1)⟩) :
    y x - Spec.krigingMean (L.batchCov bs w len nn p) (L.batchCross bs w len idx nn p) z =
      looError (fullCov bs L.trainee.R.kernel len w.train w.N + τ • 1) y x ∧
    Spec.krigingVar 1 (L.batchCov bs w len nn p) (L.batchCross bs w len idx nn p) =
      looVar (fullCov bs L.trainee.R.kernel len w.train w.N + τ • 1) x - (τ - (1 - κ)) := by
  obtain ⟨e, he, hr, hnn⟩ := others_of_row hall h1 hnd hmem x hxl
  set A := fullCov bs L.trainee.R.kernel len w.train w.N + τ • 1 with hA
  have hpt : ∀ x, pt w.train w.f x = rowPt w.train w.f x := fun x => by
    funext c; simp only [pt, feature, hw.1, rowPt]
  have hcov : L.batchCov bs w len nn p = A.submatrix e e := by
    unfold Learner.batchCov
    rw [hτ.mat]
    ext i j
    simp only [hA, Matrix.add_apply, Matrix.smul_apply, Matrix.one_apply, submatrix_apply, he.eq_iff]
    congr 1
    simp only [nbrCov, fullCov, hnn, pointOf_nat, hpt]
  have hcross : L.batchCross bs w len idx nn p = fun j => A x (e j) := by
    funext j
    have hne : x ≠ e j := fun h => ((hr (e j)).mpr ⟨j, rfl⟩) h.symm
    simp only [hA, Matrix.add_apply, Matrix.smul_apply, Matrix.one_apply, if_neg hne, smul_zero, add_zero]
    simp only [Learner.batchCross, nbrCross, fullCov, hnn, pointOf_nat, hpt, hx]
  have hzy : z = y ∘ e := by
    funext j
    rw [hz]
    simp only [Function.comp, hnn, pointOf_nat]
  constructor
  · unfold Spec.krigingMean
    rw [hcov, hcross, hzy, loo_mean A hpd x e he hr y]
    unfold looError
    ring
  · unfold Spec.krigingVar looVar
    rw [hcov, hcross, ← loo_var A hpd x e he hr]
    have : A x x = κ + τ := by
      rw [hA, Matrix.add_apply, hself, Matrix.smul_apply, Matrix.one_apply_eq, smul_eq_mul, mul_one]
    rw [this]
    ring

/-- The objective by the closed formulas for the left-out responses, for any kernel whose full covariance is positive definite; `κ` is its value at coinciding points. -/
theorem loo_objective (bs : Flt → ℝ → ℝ) (L : Learner) (hmade : L.Made)
    (w : NNWrapper) (hw : w.Exact) (hsep : w.Separated) (hall : w.nnCount + 1 = w.N) (len : Fin w.f → ℝ) (hlen : L.deform.HasLengths w.f len)
    (bc : Nat) (hbc : 0 < bc) (draw : List Nat) (hd : bc < w.N → IsDraw w.N bc draw)
    (τ : ℝ) (hτ : L.trainee.R.gp.noise.Level τ) (hfull : (fullCov bs L.trainee.R.kernel len w.train w.N + τ • 1).PosDef) (κ : ℝ)
    (hself : ∀ x, fullCov bs L.trainee.R.kernel len w.train w.N x x = κ)
    (hbatch : ∀ (b : Nat) (nn : Tensor Int), (∀ p < b, ∃ l : List Nat, rowList nn w.nnCount p = l.map Int.ofNat ∧ l.length = w.nnCount ∧ l.Nodup ∧
      ∀ j ∈ l, j < w.N) → ∀ p < b, (L.batchCov bs w len nn p).PosDef)
    (Y : Tensor ℝ) (hY : Y.shape = [w.N]) (draws : List (List Nat)) :
    ∃ (idx : List (Fin w.N)) (nn : Tensor Int) (d : TrainData), sampleBatch w bc w.N draw = .ok (idx.map Fin.val, nn) ∧ idx.length = min bc w.N ∧ idx.Nodup ∧
      L.trainData (idx.map Fin.val, nn) w.train Y = .ok d ∧
      let A := fullCov bs L.trainee.R.kernel len w.train w.N + τ • 1
      L.score bs .mse draws d = .ok (some (-((idx.map fun x => looError A (responses Y w.N) x ^ 2).sum / idx.length))) ∧
      (∀ δ, L.score bs (.pseudoHuber δ) draws d = .ok (some (-(idx.map fun x => huber δ (looError A (responses Y w.N) x)).sum))) ∧
      (L.scaleKind = .fixed → L.score bs .lool draws d = .ok (some (-(idx.map fun x =>
        looError A (responses Y w.N) x ^ 2 / (L.scale * (looVar A x - (τ - (1 - κ)))) + Real.log (L.scale * (looVar A x - (τ - (1 - κ))))).sum))) := by
  have hN : 0 < w.N := by omega
  have hkN : w.nnCount + 1 ≤ w.N := hall.le
  obtain ⟨idx, nn, h1, h2, h4, h5, hv, hrows, hother⟩ := batch_rows w hw hsep bc hbc draw hd hN hkN
  obtain ⟨idx', nn', d, g1, -, -, -, -, -, g2, g3, g3', g4t, g4, g6, g5⟩ := regressor_data L w hw len hlen bc hbc draw hd hN hkN Y hY
  rw [h1] at g1
  obtain ⟨rfl, rfl⟩ := Prod.mk.inj (Except.ok.inj g1)
  have hnd : idx.Nodup := by
    obtain ⟨_, _, _, s1, _, _, _, _, s6, _⟩ := sampleBatch_ok w hw bc hbc hN draw hd hkN
    rw [h1] at s1
    cases s1
    exact s6
  have hpd := hbatch idx.length nn hrows
  -- the batch as a list of training points
  let xs : List (Fin w.N) := idx.attach.map fun x => ⟨x.1, h4 x.1 x.2⟩
  have hxs : xs.map Fin.val = idx := by
    show (idx.attach.map _).map Fin.val = idx
    rw [List.map_map]
    exact List.attach_map_subtype_val idx
  have hxl : xs.length = idx.length := (List.length_map (as := xs) Fin.val).symm.trans (congrArg List.length hxs)
  set A := fullCov bs L.trainee.R.kernel len w.train w.N + τ • 1 with hA
  have hp : ∀ p (hp : p < idx.length), ∃ x : Fin w.N, xs[p]? = some x ∧ d.targets.get [p] = responses Y w.N x ∧
      d.targets.get [p] - Spec.krigingMean (L.batchCov bs w len nn p) (L.batchCross bs w len idx nn p) (Spec.vec w.nnCount d.nnTargets p) =
        looError A (responses Y w.N) x ∧
      Spec.krigingVar 1 (L.batchCov bs w len nn p) (L.batchCross bs w len idx nn p) = looVar A x - (τ - (1 - κ)) := fun p hp => by
    have hpx : p < xs.length := by rw [hxl]; exact hp
    have hval : ((xs[p] : Fin w.N) : ℕ) = idx.getD p 0 := by
      have : (xs.map Fin.val)[p]? = idx[p]? := by rw [hxs]
      rw [List.getElem?_map, List.getElem?_eq_getElem hpx] at this
      rw [List.getD_eq_getElem?_getD, ← this]
      rfl
    have hidx : idx[p]? = some (idx.getD p 0) := by
      rw [List.getD_eq_getElem?_getD, List.getElem?_eq_getElem hp, Option.getD_some]
    have ht : d.targets.get [p] = responses Y w.N xs[p] := by
      rw [g6 p _ hidx, responses, hval]
    obtain ⟨l, l1, l2, l3, l4⟩ := hrows p hp
    have hnot : ((xs[p] : Fin w.N) : ℕ) ∉ l := fun hmem => by
      obtain ⟨j, hj, hjx⟩ := List.getElem_of_mem hmem
      have hjn : j < w.nnCount := by rw [← l2]; exact hj
      obtain ⟨y, y1, y2⟩ := rowList_get l1 hjn
      rw [List.getElem?_eq_getElem hj, hjx] at y1
      have := (hother p hp j hjn).2
      rw [y2, pointOf_nat, ← hval, ← Option.some.inj y1] at this
      exact this rfl
    have := loo_batch bs L w hw hall len τ hτ hfull κ hself idx nn p l l1 l3 l4 xs[p] hval.symm hnot (responses Y w.N)
      (Spec.vec w.nnCount d.nnTargets p) fun j => by
        rw [g5 p hp]
        simp only [nbrTargets, feature, hY, responses]
    exact ⟨xs[p], List.getElem?_eq_getElem hpx, ht, by rw [ht]; exact this.1, this.2⟩
  have hsum : ∀ (F : Nat → ℝ) (G : Fin w.N → ℝ), (∀ p < idx.length, ∀ x, xs[p]? = some x → F p = G x) →
      ∑ p ∈ Finset.range idx.length, F p = (xs.map G).sum := fun F G h => by
    rw [← hxl, Finset.sum_range, ← Fin.sum_ofFn (n := xs.length) (f := fun p => F p)]
    congr 1
    refine List.ext_getElem (by simp) fun n a b => ?_
    simp only [List.getElem_ofFn, List.getElem_map]
    simp only [List.length_map] at b
    exact h n (by omega) _ (List.getElem?_eq_getElem b)
  refine ⟨xs, nn, d, by rw [hxs]; exact h1, by rw [hxl]; exact h2, List.Nodup.of_map Fin.val (by rw [hxs]; exact hnd), by rw [hxs]; exact g2, ?_, ?_, ?_⟩
  · rw [score_means bs L hmade w hw len hlen idx nn h4 h5 hv d g3 g3' g4t g4 (hτ.fits _ _)
      (fun p hp => Kriging.det_ne_zero (hpd p hp)) .mse (.inl rfl) draws,
      hsum _ (fun x => looError A (responses Y w.N) x ^ 2) fun p hp' x hx => by
        obtain ⟨x', y1, -, y3, -⟩ := hp p hp'
        rw [hx] at y1
        cases y1
        rw [y3]; rfl]
    rw [hxl, div_eq_mul_one_div, mul_comm]
    rfl
  · intro δ
    rw [score_means bs L hmade w hw len hlen idx nn h4 h5 hv d g3 g3' g4t g4 (hτ.fits _ _)
      (fun p hp => Kriging.det_ne_zero (hpd p hp)) (.pseudoHuber δ) (.inr ⟨δ, rfl⟩) draws,
      hsum _ (fun x => huber δ (looError A (responses Y w.N) x)) fun p hp' x hx => by
        obtain ⟨x', y1, -, y3, -⟩ := hp p hp'
        rw [hx] at y1
        cases y1
        rw [y3]; rfl]
    simp only [LossKind.factor, one_mul]
  · intro hsk
    rw [score_lool bs L hmade hsk w hw len hlen idx nn h4 h5 hv d g3 g3' g4t g4 (hτ.fits _ _)
      (fun p hp => Kriging.det_ne_zero (hpd p hp)) draws,
      hsum _ (fun x => looError A (responses Y w.N) x ^ 2 / (L.scale * (looVar A x - (τ - (1 - κ)))) + Real.log (L.scale * (looVar A x - (τ - (1 - κ))))) fun p hp' x hx => by
        obtain ⟨x', y1, -, y3, y4⟩ := hp p hp'
        rw [hx] at y1
        cases y1
        rw [y3, y4]]

/-- **C89**, training: if every other training point is a neighbour (`nn_count = N - 1`), the objective is exact leave-one-out cross-validation of the Gaussian process with all
training data, by the closed formulas for the left-out responses: mean squared error, pseudo-Huber loss, and (for a model with a fixed scale) the likelihood `lool_fn`, whose
variances are those of the noise-free values. -/
theorem C89_objective (bs : Flt → ℝ → ℝ) (L : Learner) (hmade : L.Made) (hsuit : L.fn.Suits L.deform.metric)
    (w : NNWrapper) (hw : w.Exact) (hsep : w.Separated) (hall : w.nnCount + 1 = w.N) (len : Fin w.f → ℝ) (hlen : L.deform.HasLengths w.f len)
    (bc : Nat) (hbc : 0 < bc) (draw : List Nat) (hd : bc < w.N → IsDraw w.N bc draw)
    (τ : ℝ) (hτ : L.trainee.R.gp.noise.Level τ) (hreg : 0 < τ ∨ (0 ≤ τ ∧ DistinctRows w.train w.N w.f))
    (Y : Tensor ℝ) (hY : Y.shape = [w.N]) (draws : List (List Nat)) :
    ∃ (idx : List (Fin w.N)) (nn : Tensor Int) (d : TrainData), sampleBatch w bc w.N draw = .ok (idx.map Fin.val, nn) ∧ idx.length = min bc w.N ∧ idx.Nodup ∧
      L.trainData (idx.map Fin.val, nn) w.train Y = .ok d ∧
      let A := fullCov bs L.trainee.R.kernel len w.train w.N + τ • 1
      L.score bs .mse draws d = .ok (some (-((idx.map fun x => looError A (responses Y w.N) x ^ 2).sum / idx.length))) ∧
      (∀ δ, L.score bs (.pseudoHuber δ) draws d = .ok (some (-(idx.map fun x => huber δ (looError A (responses Y w.N) x)).sum))) ∧
      (L.scaleKind = .fixed → L.score bs .lool draws d = .ok (some (-(idx.map fun x =>
        looError A (responses Y w.N) x ^ 2 / (L.scale * (looVar A x - τ)) + Real.log (L.scale * (looVar A x - τ))).sum))) := by
  obtain ⟨idx, nn, d, h1, h2, h3, h4, h5, h6, h7⟩ := loo_objective bs L hmade w hw hsep hall len hlen bc hbc draw hd τ hτ
    (fullCov_posdef bs L.trainee.R.kernel hsuit len (hasLengths_pos hlen) w.train w.N hw.1 τ hreg) 1
    (fun x => covFn_self bs L.trainee.R.kernel hsuit _ _)
    (fun b nn hrows => batch_posdef bs L hsuit w len hlen b nn hrows ((hτ.suffices_iff _ _ _).mpr hreg)) Y hY draws
  simp only [sub_self, sub_zero] at h7
  exact ⟨idx, nn, d, h1, h2, h3, h4, h5, h6, h7⟩

end MuyGPyS
