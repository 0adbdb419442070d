import Verif.Spec.Locality
import Verif.Props.PointFunction

/-!
# C93: training data farther away than the neighbours has no influence
-/

namespace MuyGPyS
open Py Matrix

/-- If exactly `k` candidates are closer than `ρ`, they are the nearest ones. -/
theorem nearest_ball {S : Nat → Prop} {d : Nat → ℝ} {k : Nat} {l : List Nat} (h : Nearest S d k l) {ρ : ℝ} (hfin : {i | S i ∧ d i < ρ}.Finite)
    (hc : {i | S i ∧ d i < ρ}.ncard = k) : ∀ i, i ∈ l ↔ S i ∧ d i < ρ := by
  have hl : (l.toFinset : Set ℕ).ncard = k := by
    rw [Set.ncard_coe_finset, List.toFinset_card_of_nodup h.nodup, h.length]
  have hsub : (l.toFinset : Set ℕ) ⊆ {i | S i ∧ d i < ρ} := by
    intro x hx
    have hx : x ∈ l := by simpa using hx
    refine ⟨h.mem x hx, ?_⟩
    by_contra hn
    have : ∃ s ∈ {i | S i ∧ d i < ρ}, s ∉ l := by
      by_contra hall
      push Not at hall
      have hsub : {i | S i ∧ d i < ρ} ⊆ (l.toFinset : Set ℕ) := fun s hs => by simpa using hall s hs
      have := Set.eq_of_subset_of_ncard_le hsub (by rw [hl, hc]) (Finset.finite_toSet _)
      have hx' : x ∈ {i | S i ∧ d i < ρ} := by rw [this]; simpa using hx
      exact hn hx'.2
    obtain ⟨s, hs, hsl⟩ := this
    exact hn (lt_of_le_of_lt (h.nearest x hx s hs.1 hsl) hs.2)
  have heq := Set.eq_of_subset_of_ncard_le hsub (by rw [hl, hc]) hfin
  intro i
  rw [show (S i ∧ d i < ρ) ↔ i ∈ {i | S i ∧ d i < ρ} from Iff.rfl, ← heq]
  simp

theorem ball_finite (w : NNWrapper) (q : Fin w.f → ℝ) (ρ : ℝ) : (w.ball q ρ).Finite :=
  (Set.finite_lt_nat w.N).subset fun _ h => h.1

/-- The neighbours in two data sets that agree near a point correspond, up to their order. -/
theorem nbrs_correspond (w : NNWrapper) (hw : w.Exact) (Y : Tensor ℝ) (N' : Nat) (X' Y' : Tensor ℝ) (answer' : (Fin w.f → ℝ) → Nat → List Nat)
    (hw' : (w.withData N' X' answer').Exact) (hkN : w.nnCount ≤ w.N) (hkN' : w.nnCount ≤ N') (q : Fin w.f → ℝ) (ρ : ℝ)
    (hρ : (w.ball q ρ).ncard = w.nnCount) (h : AgreeNear w Y N' X' answer' Y' q ρ) :
    ∃ π : Equiv.Perm (Fin w.nnCount), ∀ j : Fin w.nnCount, ∃ x y : Nat, (w.nbrsAt q).get [0, j] = (x : Int) ∧
      ((w.withData N' X' answer').nbrsAt q).get [0, (π j : Fin w.nnCount)] = (y : Int) ∧
      rowPt X' w.f y = rowPt w.train w.f x ∧ ∀ c, feature Y' y c = feature Y x c := by
  obtain ⟨σ, hb, hσ⟩ := h
  have hn := hw.2 q w.nnCount hkN
  have hn' := hw'.2 q w.nnCount hkN'
  have hmem := nearest_ball hn (ball_finite w q ρ) hρ
  have hρ' : ((w.withData N' X' answer').ball q ρ).ncard = w.nnCount := by
    rw [← hb.image_eq, Set.ncard_image_of_injOn hb.injOn, hρ]
  have hmem' := nearest_ball hn' (ball_finite (w.withData N' X' answer') q ρ) hρ'
  set l := w.answer q w.nnCount with hl
  set l' := (w.withData N' X' answer').answer q w.nnCount with hl'
  have hget : ∀ (l : List Nat) (hlen : l.length = w.nnCount) (j : Fin w.nnCount), l.getD j 0 = l[(j : ℕ)]'(by rw [hlen]; exact j.2) := fun l hlen j => by
    rw [List.getD_eq_getElem?_getD, List.getElem?_eq_getElem (by rw [hlen]; exact j.2), Option.getD_some]
  have hin : ∀ j : Fin w.nnCount, σ (l.getD j 0) ∈ l' := fun j => by
    have : l.getD j 0 ∈ l := by rw [hget l hn.length]; exact List.getElem_mem _
    exact (hmem' _).mpr (hb.mapsTo ((hmem _).mp this))
  let g : Fin w.nnCount → Fin w.nnCount := fun j => ⟨l'.idxOf (σ (l.getD j 0)), by
    have := List.idxOf_lt_length_of_mem (hin j)
    rwa [hn'.length] at this⟩
  have hg : ∀ j, l'.getD (g j) 0 = σ (l.getD j 0) := fun j => by
    rw [hget l' hn'.length]
    exact List.getElem_idxOf _
  have hinj : Function.Injective g := by
    intro a b hab
    have h1 : σ (l.getD a 0) = σ (l.getD b 0) := by rw [← hg a, ← hg b, hab]
    have ma : l.getD a 0 ∈ l := by rw [hget l hn.length]; exact List.getElem_mem _
    have mb : l.getD b 0 ∈ l := by rw [hget l hn.length]; exact List.getElem_mem _
    have h2 := hb.injOn ((hmem _).mp ma) ((hmem _).mp mb) h1
    rw [hget l hn.length, hget l hn.length] at h2
    exact Fin.ext ((hn.nodup.getElem_inj_iff).mp h2)
  refine ⟨Equiv.ofBijective g (Finite.injective_iff_bijective.mp hinj), fun j => ⟨l.getD j 0, σ (l.getD j 0), ?_, ?_, ?_⟩⟩
  · rw [Tensor.get2 _ rfl]
    simp [NNWrapper.nbrsAt, ← hl]
  · show ((w.withData N' X' answer').nbrsAt q).get [0, (g j : ℕ)] = _
    rw [Tensor.get2 _ rfl, ← hg j]
    simp [NNWrapper.nbrsAt, ← hl', NNWrapper.withData]
    rfl
  · have mj : l.getD j 0 ∈ l := by rw [hget l hn.length]; exact List.getElem_mem _
    exact hσ _ ((hmem _).mp mj)

/-- Predictions at a point agree if the training data near it agree. -/
theorem predictAt_local (bessel : Flt → ℝ → ℝ) (R : Regressor) (w : NNWrapper) (hw : w.Exact) (Y : Tensor ℝ) (N' : Nat) (X' Y' : Tensor ℝ)
    (answer' : (Fin w.f → ℝ) → Nat → List Nat) (hw' : (w.withData N' X' answer').Exact) (hkN : w.nnCount ≤ w.N) (hkN' : w.nnCount ≤ N')
    (q : Fin w.f → ℝ) (ρ : ℝ) (hρ : (w.ball q ρ).ncard = w.nnCount) (h : AgreeNear w Y N' X' answer' Y' q ρ) (len : Fin w.f → ℝ) (τ : ℝ) (r : Nat) :
    predictAt bessel R (w.withData N' X' answer') len Y' τ r q = predictAt bessel R w len Y τ r q := by
  obtain ⟨π, hπ⟩ := nbrs_correspond w hw Y N' X' Y' answer' hw' hkN hkN' q ρ hρ h
  set nn' := (w.withData N' X' answer').nbrsAt q with hnn'
  have hX' : X'.shape = [N', w.f] := hw'.1
  have e1 : nbrCov bessel R.kernel len w.train w.N w.nnCount (w.nbrsAt q) 0 = (nbrCov bessel R.kernel len X' N' w.nnCount nn' 0).submatrix π π := by
    ext i j
    obtain ⟨x, y, a1, a2, a3, -⟩ := hπ i
    obtain ⟨x', y', b1, b2, b3, -⟩ := hπ j
    simp only [nbrCov, submatrix_apply]
    rw [a1, a2, b1, b2, pointOf_nat, pointOf_nat, pointOf_nat, pointOf_nat, rowPt_pt hw.1, rowPt_pt hw.1, rowPt_pt hX', rowPt_pt hX', a3, b3]
  have e2 : nbrCross bessel R.kernel len w.train w.N w.nnCount (w.nbrsAt q) 0 q = nbrCross bessel R.kernel len X' N' w.nnCount nn' 0 q ∘ π := by
    funext j
    obtain ⟨x, y, a1, a2, a3, -⟩ := hπ j
    simp only [nbrCross, Function.comp]
    rw [a1, a2, pointOf_nat, pointOf_nat, rowPt_pt hw.1, rowPt_pt hX', a3]
  have e3 : ∀ c, nbrTargets Y w.N w.nnCount (w.nbrsAt q) 0 c = nbrTargets Y' N' w.nnCount nn' 0 c ∘ π := fun c => by
    funext j
    obtain ⟨x, y, a1, a2, -, a3⟩ := hπ j
    simp only [nbrTargets, Function.comp]
    rw [a1, a2, pointOf_nat, pointOf_nat, a3]
  have e4 : nbrCov bessel R.kernel len w.train w.N w.nnCount (w.nbrsAt q) 0 + τ • 1 =
      (nbrCov bessel R.kernel len X' N' w.nnCount nn' 0 + τ • 1).submatrix π π := by
    rw [e1]
    ext i j
    simp [Matrix.one_apply, π.injective.eq_iff]
  unfold predictAt
  simp only
  rw [e4, det_submatrix_equiv_self]
  have hm : ∀ c, Spec.krigingMean ((nbrCov bessel R.kernel len X' N' w.nnCount nn' 0 + τ • 1).submatrix π π)
      (nbrCross bessel R.kernel len w.train w.N w.nnCount (w.nbrsAt q) 0 q) (nbrTargets Y w.N w.nnCount (w.nbrsAt q) 0 c) =
      Spec.krigingMean (nbrCov bessel R.kernel len X' N' w.nnCount nn' 0 + τ • 1) (nbrCross bessel R.kernel len X' N' w.nnCount nn' 0 q)
        (nbrTargets Y' N' w.nnCount nn' 0 c) := fun c => by
    rw [e2, e3]
    exact Kriging.quad_perm _ _ _ _
  have hv : Spec.krigingVar 1 ((nbrCov bessel R.kernel len X' N' w.nnCount nn' 0 + τ • 1).submatrix π π)
      (nbrCross bessel R.kernel len w.train w.N w.nnCount (w.nbrsAt q) 0 q) =
      Spec.krigingVar 1 (nbrCov bessel R.kernel len X' N' w.nnCount nn' 0 + τ • 1) (nbrCross bessel R.kernel len X' N' w.nnCount nn' 0 q) := by
    rw [e2]
    unfold Spec.krigingVar
    rw [Kriging.quad_perm]
  simp only [hm, hv]
  rfl

/-- **C93**: let exactly `nn_count` training points be closer to a test point than `ρ`, and let another training set contain the same points (with the same responses) closer than `ρ`, in any
order, and anything farther away. Then `regress_any` predicts the same mean and variance for the test point from both training sets, whatever the other test points. -/
theorem C93_regress (bessel : Flt → ℝ → ℝ) (R : Regressor) (hk : R.kernel.make = R.kernel) (hko : R.gp.kout = KernelObj.kout)
    (w : NNWrapper) (hw : w.Exact) (Y : Tensor ℝ) (len : Fin w.f → ℝ) (hlen : R.kernel.deform.HasLengths w.f len) (τ : ℝ)
    (hτ : R.gp.noise.Level τ) (hY : Y.shape = [w.N]) (hk0 : 0 < w.nnCount) (hkN : w.nnCount ≤ w.N)
    (N' : Nat) (X' Y' : Tensor ℝ) (answer' : (Fin w.f → ℝ) → Nat → List Nat) (hw' : (w.withData N' X' answer').Exact) (hY' : Y'.shape = [N'])
    (hkN' : w.nnCount ≤ N') (m m' : Nat) (Q Q' μ v μ' v' : Tensor ℝ) (hQ : Q.shape = [m, w.f]) (hQ' : Q'.shape = [m', w.f])
    (h : regressAny bessel R w Q w.train Y = .ok (μ, v)) (h' : regressAny bessel R (w.withData N' X' answer') Q' X' Y' = .ok (μ', v'))
    (p p' : Nat) (hp : p < m) (hp' : p' < m') (he : rowPt Q w.f p = rowPt Q' w.f p')
    (ρ : ℝ) (hρ : (w.ball (rowPt Q w.f p) ρ).ncard = w.nnCount) (hnear : AgreeNear w Y N' X' answer' Y' (rowPt Q w.f p) ρ) :
    μ.get [p] = μ'.get [p'] ∧ v.get [p] = v'.get [p'] := by
  have hF := predict_pointwise bessel R hk hko w hw Y len hlen τ hτ hY hk0 hkN
  have hF' := predict_pointwise bessel R hk hko (w.withData N' X' answer') hw' Y' len hlen τ hτ hY' hk0 hkN'
  rcases hF m Q (by omega) hQ with ⟨-, e⟩ | ⟨a, b, e, -, -, f1⟩
  · simp only at e; rw [e] at h; cases h
  simp only at e; rw [e] at h; cases h
  rcases hF' m' Q' (by omega) hQ' with ⟨-, e'⟩ | ⟨a', b', e', -, -, f2⟩
  · replace e' : regressAny bessel R (w.withData N' X' answer') Q' X' Y' = _ := e'
    rw [e'] at h'; cases h'
  replace e' : regressAny bessel R (w.withData N' X' answer') Q' X' Y' = _ := e'
  rw [e'] at h'; cases h'
  have g1 := f1 p hp
  have g2 := f2 p' hp'
  have g3 := predictAt_local bessel R w hw Y N' X' Y' answer' hw' hkN hkN' _ ρ hρ hnear len τ 1
  have g4 : rowPt Q' (w.withData N' X' answer').f p' = rowPt Q w.f p := he.symm
  rw [g4] at g2
  have g5 := g2.symm.trans ((congrArg (Option.map fun a : (Fin 1 → ℝ) × ℝ => (a.1 0, a.2)) g3).trans g1)
  simp only [Option.some.injEq, Prod.mk.injEq] at g5
  exact ⟨g5.1.symm, g5.2.symm⟩

/-- **C93**, several responses. Partial: their number must differ from the number of neighbours (`C79_as_many_responses_as_neighbours_fails`). -/
theorem C93_multi_partial (bessel : Flt → ℝ → ℝ) (R : Regressor) (hk : R.kernel.make = R.kernel) (hko : R.gp.kout = KernelObj.kout)
    (w : NNWrapper) (hw : w.Exact) (Y : Tensor ℝ) (r : Nat) (len : Fin w.f → ℝ) (hlen : R.kernel.deform.HasLengths w.f len) (τ : ℝ)
    (hτ : R.gp.noise.Level τ) (hY : Y.shape = [w.N, r]) (hr : r ≠ w.nnCount) (hk0 : 0 < w.nnCount) (hkN : w.nnCount ≤ w.N)
    (N' : Nat) (X' Y' : Tensor ℝ) (answer' : (Fin w.f → ℝ) → Nat → List Nat) (hw' : (w.withData N' X' answer').Exact) (hY' : Y'.shape = [N', r])
    (hkN' : w.nnCount ≤ N') (m m' : Nat) (Q Q' μ v μ' v' : Tensor ℝ) (hQ : Q.shape = [m, w.f]) (hQ' : Q'.shape = [m', w.f])
    (h : regressAny bessel R w Q w.train Y = .ok (μ, v)) (h' : regressAny bessel R (w.withData N' X' answer') Q' X' Y' = .ok (μ', v'))
    (p p' : Nat) (hp : p < m) (hp' : p' < m') (he : rowPt Q w.f p = rowPt Q' w.f p')
    (ρ : ℝ) (hρ : (w.ball (rowPt Q w.f p) ρ).ncard = w.nnCount) (hnear : AgreeNear w Y N' X' answer' Y' (rowPt Q w.f p) ρ) :
    (∀ c < r, μ.get [p, c] = μ'.get [p', c]) ∧ v.get [p] = v'.get [p'] := by
  have hF := multi_pointwise bessel R hk hko w hw Y r len hlen τ hτ hY hr hk0 hkN
  have hF' := multi_pointwise bessel R hk hko (w.withData N' X' answer') hw' Y' r len hlen τ hτ hY' hr hk0 hkN'
  rcases hF m Q (by omega) hQ with ⟨-, e⟩ | ⟨a, b, e, -, -, f1⟩
  · simp only at e; rw [e] at h; cases h
  simp only at e; rw [e] at h; cases h
  rcases hF' m' Q' (by omega) hQ' with ⟨-, e'⟩ | ⟨a', b', e', -, -, f2⟩
  · replace e' : regressAny bessel R (w.withData N' X' answer') Q' X' Y' = _ := e'
    rw [e'] at h'; cases h'
  replace e' : regressAny bessel R (w.withData N' X' answer') Q' X' Y' = _ := e'
  rw [e'] at h'; cases h'
  have g1 := f1 p hp
  have g2 := f2 p' hp'
  have g3 := predictAt_local bessel R w hw Y N' X' Y' answer' hw' hkN hkN' _ ρ hρ hnear len τ r
  have g4 : rowPt Q' (w.withData N' X' answer').f p' = rowPt Q w.f p := he.symm
  rw [g4] at g2
  have g5 := g2.symm.trans (g3.trans g1)
  simp only [Option.some.injEq, Prod.mk.injEq] at g5
  exact ⟨fun c hc => (congrFun g5.1 ⟨c, hc⟩).symm, g5.2.symm⟩

/-- **C93**, far responses: changing the responses of training points other than the `nn_count` nearest ones of a test point changes nothing there. -/
theorem C93_far_responses (bessel : Flt → ℝ → ℝ) (R : Regressor) (hk : R.kernel.make = R.kernel) (hko : R.gp.kout = KernelObj.kout)
    (w : NNWrapper) (hw : w.Exact) (Y Y' : Tensor ℝ) (len : Fin w.f → ℝ) (hlen : R.kernel.deform.HasLengths w.f len) (τ : ℝ)
    (hτ : R.gp.noise.Level τ) (hY : Y.shape = [w.N]) (hY' : Y'.shape = [w.N]) (hk0 : 0 < w.nnCount) (hkN : w.nnCount ≤ w.N)
    (m : Nat) (Q μ v μ' v' : Tensor ℝ) (hQ : Q.shape = [m, w.f])
    (h : regressAny bessel R w Q w.train Y = .ok (μ, v)) (h' : regressAny bessel R w Q w.train Y' = .ok (μ', v'))
    (p : Nat) (hp : p < m) (ρ : ℝ) (hρ : (w.ball (rowPt Q w.f p) ρ).ncard = w.nnCount)
    (hnear : ∀ i ∈ w.ball (rowPt Q w.f p) ρ, Y'.get [i] = Y.get [i]) :
    μ.get [p] = μ'.get [p] ∧ v.get [p] = v'.get [p] :=
  C93_regress bessel R hk hko w hw Y len hlen τ hτ hY hk0 hkN w.N w.train Y' w.answer hw hY' hkN m m Q Q μ v μ' v' hQ hQ h h' p p hp hp rfl ρ hρ
    ⟨id, Set.bijOn_id _, fun i hi => ⟨rfl, fun c => by simp only [feature, hY, hY']; exact hnear i hi⟩⟩

/-- **C93**, more data: training points appended farther away from a test point than its `nn_count` nearest ones change nothing there. -/
theorem C93_appended (bessel : Flt → ℝ → ℝ) (R : Regressor) (hk : R.kernel.make = R.kernel) (hko : R.gp.kout = KernelObj.kout)
    (w : NNWrapper) (hw : w.Exact) (Y : Tensor ℝ) (len : Fin w.f → ℝ) (hlen : R.kernel.deform.HasLengths w.f len) (τ : ℝ)
    (hτ : R.gp.noise.Level τ) (hY : Y.shape = [w.N]) (hk0 : 0 < w.nnCount) (hkN : w.nnCount ≤ w.N)
    (N' : Nat) (X' Y' : Tensor ℝ) (answer' : (Fin w.f → ℝ) → Nat → List Nat) (hw' : (w.withData N' X' answer').Exact) (hY' : Y'.shape = [N'])
    (hN : w.N ≤ N') (hX : ∀ i < w.N, rowPt X' w.f i = rowPt w.train w.f i ∧ Y'.get [i] = Y.get [i])
    (m : Nat) (Q μ v μ' v' : Tensor ℝ) (hQ : Q.shape = [m, w.f])
    (h : regressAny bessel R w Q w.train Y = .ok (μ, v)) (h' : regressAny bessel R (w.withData N' X' answer') Q X' Y' = .ok (μ', v'))
    (p : Nat) (hp : p < m) (ρ : ℝ) (hρ : (w.ball (rowPt Q w.f p) ρ).ncard = w.nnCount)
    (hfar : ∀ i, w.N ≤ i → i < N' → ρ ≤ w.dist (rowPt Q w.f p) (rowPt X' w.f i)) :
    μ.get [p] = μ'.get [p] ∧ v.get [p] = v'.get [p] := by
  refine C93_regress bessel R hk hko w hw Y len hlen τ hτ hY hk0 hkN N' X' Y' answer' hw' hY' (hkN.trans hN) m m Q Q μ v μ' v' hQ hQ h h' p p hp hp rfl ρ hρ
    ⟨id, ⟨fun i hi => ⟨lt_of_lt_of_le hi.1 hN, ?_⟩, Set.injOn_id _, fun i hi => ⟨i, ?_, rfl⟩⟩, fun i hi => ⟨(hX i hi.1).1, fun c => ?_⟩⟩
  · show w.dist _ (rowPt X' w.f i) < ρ
    rw [(hX i hi.1).1]; exact hi.2
  · have h2 : w.dist (rowPt Q w.f p) (rowPt X' w.f i) < ρ := hi.2
    have hlt : i < w.N := by
      by_contra hn
      exact absurd h2 (not_lt.mpr (hfar i (not_lt.mp hn) hi.1))
    refine ⟨hlt, ?_⟩
    rwa [(hX i hlt).1] at h2
  · simp only [feature, hY, hY']
    exact (hX i hi.1).2

/-- Non-vacuity of `C93_regress` and `C93_far_responses`: training points `0, 1, 3`, two neighbours; the test point `0` has two training points closer than 2, so the response at `3` has no
influence (here it is changed from `0` to `5`). -/
example (bs : Flt → ℝ → ℝ) : ∃ (w : NNWrapper) (μ v μ' v' : Tensor ℝ), w.Exact ∧ w.N = 3 ∧ w.nnCount = 2 ∧
    regressAny bs lineModel w lineTest w.train lineTargets = .ok (μ, v) ∧
    regressAny bs lineModel w lineTest w.train ⟨[3], fun k => if k = 2 then 5 else lineTargets.flat k⟩ = .ok (μ', v') ∧
    μ.get [0] = μ'.get [0] ∧ v.get [0] = v'.get [0] := by
  obtain ⟨answer, hw⟩ := line_exact
  obtain ⟨nn, μ, v, -, h2, -⟩ := C54_regress_always bs lineModel rfl rfl rfl _ hw lineTest lineTargets 2 (fun _ => 1)
    ⟨1, one_pos, rfl, fun _ => rfl⟩ rfl rfl two_pos two_pos (by norm_num) trivial (.inl one_pos)
  obtain ⟨nn', μ', v', -, h2', -⟩ := C54_regress_always bs lineModel rfl rfl rfl _ hw lineTest ⟨[3], fun k => if k = 2 then 5 else lineTargets.flat k⟩ 2 (fun _ => 1)
    ⟨1, one_pos, rfl, fun _ => rfl⟩ rfl rfl two_pos two_pos (by norm_num) trivial (.inl one_pos)
  have hq : rowPt lineTest 1 0 0 = 0 := by
    show lineTest.get [0, 0] = _; rw [Tensor.get2 lineTest rfl]; rfl
  have hball : NNWrapper.ball ⟨3, 1, lineTrain, 2, fun x y => |x 0 - y 0|, false, answer⟩ (rowPt lineTest 1 0) 2 = {0, 1} := by
    ext i
    simp only [NNWrapper.ball, Set.mem_setOf_eq, hq, Set.mem_insert_iff, Set.mem_singleton_iff]
    constructor
    · rintro ⟨h1, h2⟩
      by_contra hn
      obtain rfl : i = 2 := by omega
      rw [line_rows.2.2] at h2
      norm_num at h2
    · rintro (rfl | rfl)
      · rw [line_rows.1]; norm_num
      · rw [line_rows.2.1]; norm_num
  refine ⟨_, μ, v, μ', v', hw, rfl, rfl, h2, h2', C93_far_responses bs lineModel rfl rfl _ hw _ _ (fun _ => 1) ⟨1, one_pos, rfl, fun _ => rfl⟩ 1 rfl rfl rfl two_pos
    (by norm_num) 2 lineTest _ _ _ _ rfl h2 h2' 0 two_pos 2 ?_ fun i hi => ?_⟩
  · rw [show (_ : Set ℕ) = {0, 1} from hball, Set.ncard_pair (by norm_num)]
  · rw [show (_ : Set ℕ) = {0, 1} from hball] at hi
    have hi2 : i ≠ 2 := by rcases hi with rfl | rfl <;> norm_num
    rw [Tensor.get1 _ rfl, Tensor.get1 lineTargets rfl]
    simp [hi2]

/-- The training points `0, 1, 3, 5` and their responses `0, 1, 0, 7`. -/
def lineTrain4 : Tensor ℝ := ⟨[4, 1], fun k => if k = 3 then 5 else lineTrain.flat k⟩

@[inherit_doc lineTrain4] def lineTargets4 : Tensor ℝ := ⟨[4], fun k => if k = 3 then 7 else lineTargets.flat k⟩

/-- Non-vacuity of `C93_appended`: a fourth training point at `5` with response `7` is appended; the index of the four points is exact. -/
example (bs : Flt → ℝ → ℝ) : ∃ (w : NNWrapper) (answer' : (Fin w.f → ℝ) → Nat → List Nat), w.Exact ∧ w.N = 3 ∧ w.nnCount = 2 ∧ w.train = lineTrain ∧
    (w.withData 4 lineTrain4 answer').Exact ∧
    ∃ μ v μ' v', regressAny bs lineModel w lineTest w.train lineTargets = .ok (μ, v) ∧
    regressAny bs lineModel (w.withData 4 lineTrain4 answer') lineTest
      lineTrain4 lineTargets4 = .ok (μ', v') ∧
    μ.get [0] = μ'.get [0] ∧ v.get [0] = v'.get [0] := by
  obtain ⟨answer, hw⟩ := line_exact
  obtain ⟨answer', hw'⟩ := exact_index_exists 4 1 2 lineTrain4 rfl (fun x y => |x 0 - y 0|) false
  obtain ⟨nn, μ, v, -, h2, -⟩ := C54_regress_always bs lineModel rfl rfl rfl _ hw lineTest lineTargets 2 (fun _ => 1)
    ⟨1, one_pos, rfl, fun _ => rfl⟩ rfl rfl two_pos two_pos (by norm_num) trivial (.inl one_pos)
  obtain ⟨nn', μ', v', -, h2', -⟩ := C54_regress_always bs lineModel rfl rfl rfl _ hw' lineTest lineTargets4 2 (fun _ => 1)
    ⟨1, one_pos, rfl, fun _ => rfl⟩ rfl rfl two_pos two_pos (by norm_num) trivial (.inl one_pos)
  have hq : rowPt lineTest 1 0 0 = 0 := by
    show lineTest.get [0, 0] = _; rw [Tensor.get2 lineTest rfl]; rfl
  have hball : NNWrapper.ball ⟨3, 1, lineTrain, 2, fun x y => |x 0 - y 0|, false, answer⟩ (rowPt lineTest 1 0) 2 = {0, 1} := by
    ext i
    simp only [NNWrapper.ball, Set.mem_setOf_eq, hq, Set.mem_insert_iff, Set.mem_singleton_iff]
    constructor
    · rintro ⟨h1, h2⟩
      by_contra hn
      obtain rfl : i = 2 := by omega
      rw [line_rows.2.2] at h2
      norm_num at h2
    · rintro (rfl | rfl)
      · rw [line_rows.1]; norm_num
      · rw [line_rows.2.1]; norm_num
  have hrow : ∀ (i : Nat) (c : Fin 1), rowPt lineTrain4 1 i c = if i = 3 then 5 else lineTrain.flat i := fun i c => by
    show lineTrain4.get [i, (c : ℕ)] = _
    rw [Tensor.get2 lineTrain4 rfl]
    simp [lineTrain4]
  refine ⟨⟨3, 1, lineTrain, 2, fun x y => |x 0 - y 0|, false, answer⟩, answer', hw, rfl, rfl, rfl, hw', μ, v, μ', v', h2, h2', C93_appended bs lineModel rfl rfl _ hw _ (fun _ => 1) ⟨1, one_pos, rfl, fun _ => rfl⟩ 1 rfl rfl two_pos
    (by norm_num) 4 _ _ answer' hw' rfl (by norm_num) (fun i hi => ⟨?_, ?_⟩) 2 lineTest _ _ _ _ rfl h2 h2' 0 two_pos 2 ?_ fun i hi hi' => ?_⟩
  · have hi : i < 3 := hi
    funext c
    have hc : (c : ℕ) = 0 := by have : (c : ℕ) < 1 := c.2; omega
    refine (hrow i c).trans ?_
    show _ = lineTrain.get [i, c]
    rw [if_neg (by omega), Tensor.get2 lineTrain rfl, hc]
    simp
  · have hi : i < 3 := hi
    rw [Tensor.get1 lineTargets4 rfl, Tensor.get1 lineTargets rfl]
    simp [lineTargets4, show i ≠ 3 by omega]
  · rw [show (_ : Set ℕ) = {0, 1} from hball, Set.ncard_pair (by norm_num)]
  · have hi : 3 ≤ i := hi
    obtain rfl : i = 3 := by omega
    show 2 ≤ |rowPt lineTest 1 0 0 - rowPt _ 1 3 0|
    rw [hq, hrow]
    norm_num

end MuyGPyS
