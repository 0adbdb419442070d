import Verif.Spec.PointFunction
import Verif.Props.MultiResponse
import Verif.Props.Always
import Verif.Props.Heteroscedastic
import Verif.Props.Information

/-!
# C92: a prediction is a function of the test point
-/

namespace MuyGPyS
open Py Matrix

/-- The neighbours of a single point, as a table with one row. -/
def NNWrapper.nbrsAt (w : NNWrapper) (q : Fin w.f → ℝ) : Tensor Int :=
  ⟨[1, w.nnCount], fun j => (((w.answer q w.nnCount).getD j 0 : Nat) : Int)⟩

theorem single_row {f : Nat} (q : Fin f → ℝ) : rowPt (single q) f 0 = q := by
  funext c
  show (single q).get [0, c] = _
  rw [Tensor.get2 (single q) rfl]
  simp [single]

/-- The neighbours of a row of test points are those of the point. -/
theorem nns_point (w : NNWrapper) (hw : w.Exact) (Q : Tensor ℝ) (m : Nat) (hQ : Q.shape = [m, w.f]) (hm : 0 < m) (hk0 : 0 < w.nnCount)
    (hkN : w.nnCount ≤ w.N) (nn : Tensor Int) (D : Tensor ℝ) (h : w.getNns Q = .ok (nn, D)) :
    ∀ p < m, ∀ j < w.nnCount, nn.get [p, j] = (w.nbrsAt (rowPt Q w.f p)).get [0, j] := by
  obtain ⟨I, D', h1, h2, h3, h4, -⟩ := query_ok w hw Q m _ hQ hm hk0 hkN
  have h' : w.getNns Q = .ok (I, D') := h1
  rw [h] at h'
  cases h'
  intro p hp j hj
  obtain ⟨x, x1, x2⟩ := rowList_get (h4 p hp) hj
  rw [x2, Tensor.get2 _ rfl]
  simp [NNWrapper.nbrsAt, List.getD_eq_getElem?_getD, x1]

/-- What `regress_any` predicts at a point (nothing if the covariance of the neighbours is singular). -/
noncomputable def predictAt (bessel : Flt → ℝ → ℝ) (R : Regressor) (w : NNWrapper) (len : Fin w.f → ℝ) (Y : Tensor ℝ) (τ : ℝ) (r : Nat)
    (q : Fin w.f → ℝ) : Option ((Fin r → ℝ) × ℝ) :=
  open Classical in
  let A := nbrCov bessel R.kernel len w.train w.N w.nnCount (w.nbrsAt q) 0 + τ • 1
  let k := nbrCross bessel R.kernel len w.train w.N w.nnCount (w.nbrsAt q) 0 q
  if A.det = 0 then none
  else some (fun c => Spec.krigingMean A k (nbrTargets Y w.N w.nnCount (w.nbrsAt q) 0 c), R.gp.boundScale * Spec.krigingVar 1 A k)

theorem predict_pointwise (bessel : Flt → ℝ → ℝ) (R : Regressor) (hk : R.kernel.make = R.kernel) (hko : R.gp.kout = KernelObj.kout)
    (w : NNWrapper) (hw : w.Exact) (Y : Tensor ℝ) (len : Fin w.f → ℝ) (hlen : R.kernel.deform.HasLengths w.f len) (τ : ℝ)
    (hτ : R.gp.noise.Level τ) (hY : Y.shape = [w.N]) (hk0 : 0 < w.nnCount) (hkN : w.nnCount ≤ w.N) :
    PredictsPointwise (fun Q => regressAny bessel R w Q w.train Y) w.f
      fun q => (predictAt bessel R w len Y τ 1 q).map fun a => (a.1 0, a.2) := by
  intro m Q hm hQ
  obtain ⟨nn, D, h1, -, -, -, h2⟩ := regress_cases_nns bessel R hk hko w hw Q m len hlen hQ hm hk0 hkN (hτ.fits _ _)
  have hpt := nns_point w hw Q m hQ hm hk0 hkN nn D h1
  have hc : ∀ p < m, _ := fun p hp => nbr_congr bessel R.kernel len w.train Y w.N w.nnCount nn (w.nbrsAt (rowPt Q w.f p)) p 0 (hpt p hp)
  rcases h2 Y hY with ⟨⟨p, hp, hd⟩, h⟩ | ⟨hd, μ, v, r1, r2, r3, r4⟩
  · refine .inl ⟨⟨p, hp, ?_⟩, h⟩
    rw [(hc p hp).1, hτ.mat] at hd
    simp only [predictAt, if_pos hd, Option.map_none]
  · refine .inr ⟨μ, v, r1, r2, r3, fun p hp => ?_⟩
    have hd' := hd p hp
    obtain ⟨e1, e2⟩ := r4 p hp
    rw [(hc p hp).1, hτ.mat] at hd' e1 e2
    rw [(hc p hp).2.1] at e1 e2
    rw [(hc p hp).2.2] at e1
    simp only [predictAt, if_neg hd', Option.map_some, e1, e2]
    rfl

/-- **C92**: for every model with one noise level (or none), index and training data there is a function of a single point that says everything `regress_any` does, for all
tables of test points: a table is predicted exactly if each of its points can be, and each point is predicted the value of the function there — whatever the other
test points, their number and order. -/
theorem C92_regress (bessel : Flt → ℝ → ℝ) (R : Regressor) (hk : R.kernel.make = R.kernel) (hko : R.gp.kout = KernelObj.kout)
    (w : NNWrapper) (hw : w.Exact) (Y : Tensor ℝ) (len : Fin w.f → ℝ) (hlen : R.kernel.deform.HasLengths w.f len) (τ : ℝ)
    (hτ : R.gp.noise.Level τ) (hY : Y.shape = [w.N]) (hk0 : 0 < w.nnCount) (hkN : w.nnCount ≤ w.N) :
    ∃ F, PredictsPointwise (fun Q => regressAny bessel R w Q w.train Y) w.f F :=
  ⟨_, predict_pointwise bessel R hk hko w hw Y len hlen τ hτ hY hk0 hkN⟩

/-- **C92**, two predictions: whenever two calls of `regress_any` with the same model and training data — on tables of any sizes — contain the same test point, they predict the same mean and
variance for it. -/
theorem C92_agree (bessel : Flt → ℝ → ℝ) (R : Regressor) (hk : R.kernel.make = R.kernel) (hko : R.gp.kout = KernelObj.kout)
    (w : NNWrapper) (hw : w.Exact) (Y : Tensor ℝ) (len : Fin w.f → ℝ) (hlen : R.kernel.deform.HasLengths w.f len) (τ : ℝ)
    (hτ : R.gp.noise.Level τ) (hY : Y.shape = [w.N]) (hk0 : 0 < w.nnCount) (hkN : w.nnCount ≤ w.N)
    (m m' : Nat) (Q Q' μ v μ' v' : Tensor ℝ) (hQ : Q.shape = [m, w.f]) (hQ' : Q'.shape = [m', w.f])
    (h : regressAny bessel R w Q w.train Y = .ok (μ, v)) (h' : regressAny bessel R w Q' w.train Y = .ok (μ', v'))
    (p p' : Nat) (hp : p < m) (hp' : p' < m') (he : rowPt Q w.f p = rowPt Q' w.f p') :
    μ.get [p] = μ'.get [p'] ∧ v.get [p] = v'.get [p'] := by
  obtain ⟨F, hF⟩ := C92_regress bessel R hk hko w hw Y len hlen τ hτ hY hk0 hkN
  rcases hF m Q (by omega) hQ with ⟨-, e⟩ | ⟨a, b, e, -, -, f1⟩
  · simp only at e; rw [e] at h; cases h
  simp only at e; rw [e] at h; cases h
  rcases hF m' Q' (by omega) hQ' with ⟨-, e'⟩ | ⟨a', b', e', -, -, f2⟩
  · simp only at e'; rw [e'] at h'; cases h'
  simp only at e'; rw [e'] at h'; cases h'
  have := (f1 p hp).symm.trans ((congrArg F he).trans (f2 p' hp'))
  simp only [Option.some.injEq, Prod.mk.injEq] at this
  exact this

/-- **C92**, together or separately: a table of test points is predicted exactly if each of them is predicted alone, and then with the same values. -/
theorem C92_alone (bessel : Flt → ℝ → ℝ) (R : Regressor) (hk : R.kernel.make = R.kernel) (hko : R.gp.kout = KernelObj.kout)
    (w : NNWrapper) (hw : w.Exact) (Y : Tensor ℝ) (len : Fin w.f → ℝ) (hlen : R.kernel.deform.HasLengths w.f len) (τ : ℝ)
    (hτ : R.gp.noise.Level τ) (hY : Y.shape = [w.N]) (hk0 : 0 < w.nnCount) (hkN : w.nnCount ≤ w.N)
    (m : Nat) (Q : Tensor ℝ) (hm : 0 < m) (hQ : Q.shape = [m, w.f]) :
    (∃ μ v, regressAny bessel R w Q w.train Y = .ok (μ, v) ∧ μ.shape = [m] ∧ v.shape = [m] ∧
      ∀ p < m, ∃ μ' v', regressAny bessel R w (single (rowPt Q w.f p)) w.train Y = .ok (μ', v') ∧ μ'.shape = [1] ∧ v'.shape = [1] ∧
        μ'.get [0] = μ.get [p] ∧ v'.get [0] = v.get [p]) ∨
    (regressAny bessel R w Q w.train Y = .error .linAlg ∧
      ∃ p < m, regressAny bessel R w (single (rowPt Q w.f p)) w.train Y = .error .linAlg) := by
  obtain ⟨F, hF⟩ := C92_regress bessel R hk hko w hw Y len hlen τ hτ hY hk0 hkN
  have h1 : ∀ q, _ := fun q => hF 1 (single q) one_pos rfl
  simp only at h1
  rcases hF m Q hm hQ with ⟨⟨p, hp, e1⟩, e⟩ | ⟨μ, v, e, s1, s2, f1⟩
  · refine .inr ⟨e, p, hp, ?_⟩
    rcases h1 (rowPt Q w.f p) with ⟨-, h⟩ | ⟨a, b, -, -, -, h⟩
    · exact h
    · have := h 0 one_pos
      rw [single_row, e1] at this
      cases this
  · refine .inl ⟨μ, v, e, s1, s2, fun p hp => ?_⟩
    rcases h1 (rowPt Q w.f p) with ⟨⟨p', hp', h⟩, -⟩ | ⟨a, b, h, g1, g2, g3⟩
    · obtain rfl : p' = 0 := by omega
      rw [single_row, f1 p hp] at h
      cases h
    · have := g3 0 one_pos
      rw [single_row, f1 p hp] at this
      simp only [Option.some.injEq, Prod.mk.injEq] at this
      exact ⟨a, b, h, g1, g2, this.1.symm, this.2.symm⟩

/-- **C92**, order, selection and repetition: predicting a table made of rows of another table — in any order, some left out, some repeated — succeeds if the other table can be predicted, and
gives the corresponding rows of its predictions. -/
theorem C92_select (bessel : Flt → ℝ → ℝ) (R : Regressor) (hk : R.kernel.make = R.kernel) (hko : R.gp.kout = KernelObj.kout)
    (w : NNWrapper) (hw : w.Exact) (Y : Tensor ℝ) (len : Fin w.f → ℝ) (hlen : R.kernel.deform.HasLengths w.f len) (τ : ℝ)
    (hτ : R.gp.noise.Level τ) (hY : Y.shape = [w.N]) (hk0 : 0 < w.nnCount) (hkN : w.nnCount ≤ w.N)
    (m m' : Nat) (Q Q' μ v : Tensor ℝ) (hm' : 0 < m') (hQ : Q.shape = [m, w.f]) (hQ' : Q'.shape = [m', w.f])
    (σ : Nat → Nat) (hσ : ∀ p < m', σ p < m) (he : ∀ p < m', rowPt Q' w.f p = rowPt Q w.f (σ p))
    (h : regressAny bessel R w Q w.train Y = .ok (μ, v)) :
    ∃ μ' v', regressAny bessel R w Q' w.train Y = .ok (μ', v') ∧ μ'.shape = [m'] ∧ v'.shape = [m'] ∧
      ∀ p < m', μ'.get [p] = μ.get [σ p] ∧ v'.get [p] = v.get [σ p] := by
  obtain ⟨F, hF⟩ := C92_regress bessel R hk hko w hw Y len hlen τ hτ hY hk0 hkN
  have hm : 0 < m := lt_of_le_of_lt (Nat.zero_le _) (hσ 0 hm')
  rcases hF m Q hm hQ with ⟨-, e⟩ | ⟨a, b, e, -, -, f1⟩
  · simp only at e; rw [e] at h; cases h
  simp only at e; rw [e] at h; cases h
  rcases hF m' Q' hm' hQ' with ⟨⟨p, hp, e'⟩, -⟩ | ⟨a', b', e', s1, s2, f2⟩
  · rw [he p hp, f1 _ (hσ p hp)] at e'; cases e'
  · refine ⟨a', b', e', s1, s2, fun p hp => ?_⟩
    have := (f2 p hp).symm.trans ((congrArg F (he p hp)).trans (f1 _ (hσ p hp)))
    simp only [Option.some.injEq, Prod.mk.injEq] at this
    exact this

theorem multi_pointwise (bessel : Flt → ℝ → ℝ) (R : Regressor) (hk : R.kernel.make = R.kernel) (hko : R.gp.kout = KernelObj.kout)
    (w : NNWrapper) (hw : w.Exact) (Y : Tensor ℝ) (r : Nat) (len : Fin w.f → ℝ) (hlen : R.kernel.deform.HasLengths w.f len) (τ : ℝ)
    (hτ : R.gp.noise.Level τ) (hY : Y.shape = [w.N, r]) (hr : r ≠ w.nnCount) (hk0 : 0 < w.nnCount) (hkN : w.nnCount ≤ w.N) :
    PredictsPointwiseMulti (fun Q => regressAny bessel R w Q w.train Y) w.f r (predictAt bessel R w len Y τ r) := by
  intro m Q hm hQ
  obtain ⟨nn, D, h1, h2, hv, -, hrun⟩ := regress_run bessel R w hw Q m hQ hm hk0 hkN
  have hpt := nns_point w hw Q m hQ hm hk0 hkN nn D h1
  have hc : ∀ p < m, _ := fun p hp => nbr_congr bessel R.kernel len w.train Y w.N w.nnCount nn (w.nbrsAt (rowPt Q w.f p)) p 0 (hpt p hp)
  have hrk : Q.shape.length = w.train.shape.length := by rw [hQ, hw.1]; rfl
  simp only [hrun]
  by_cases hs : ∃ p < m, (nbrCov bessel R.kernel len w.train w.N w.nnCount nn p + R.gp.noise.mat w.nnCount p).det = 0
  · obtain ⟨p, hp, hd⟩ := hs
    refine .inl ⟨⟨p, hp, ?_⟩, regress_singular_multi bessel R hk Q w.train Y (arange m) nn m w.N w.f r m w.nnCount hr len hlen (.inl hQ) (.inl hw.1)
        hY hrk rfl h2 (arange_valid m) hv (hτ.fits _ _) p hp hd⟩
    rw [(hc p hp).1, hτ.mat] at hd
    simp only [predictAt, if_pos hd]
  · push Not at hs
    obtain ⟨μ, v, r1, -, r2, r3, r4⟩ := C54_regress_multi_variance_partial bessel R hk hko Q w.train Y (arange m) nn m w.N w.f r m w.nnCount hr
      len hlen (.inl hQ) (.inl hw.1) hY hrk rfl h2 (arange_valid m) hv (hτ.fits _ _) hs
    refine .inr ⟨μ, v, r1, r2, r3, fun p hp => ?_⟩
    have hd := hs p hp
    have e1 := (r4 p hp).1
    have e2 := (r4 p hp).2
    rw [arange_get, pointOf_nat, rowPt_pt hQ, hτ.mat, (hc p hp).1, (hc p hp).2.1] at e1 e2
    rw [hτ.mat, (hc p hp).1] at hd
    simp only [(hc p hp).2.2] at e1
    simp only [predictAt, if_neg hd, e2]
    congr 2
    funext c
    exact (e1 c c.2).symm

/-- **C92**, several responses. Partial: their number must differ from the number of neighbours (`C79_as_many_responses_as_neighbours_fails`). -/
theorem C92_multi_partial (bessel : Flt → ℝ → ℝ) (R : Regressor) (hk : R.kernel.make = R.kernel) (hko : R.gp.kout = KernelObj.kout)
    (w : NNWrapper) (hw : w.Exact) (Y : Tensor ℝ) (r : Nat) (len : Fin w.f → ℝ) (hlen : R.kernel.deform.HasLengths w.f len) (τ : ℝ)
    (hτ : R.gp.noise.Level τ) (hY : Y.shape = [w.N, r]) (hr : r ≠ w.nnCount) (hk0 : 0 < w.nnCount) (hkN : w.nnCount ≤ w.N) :
    ∃ F, PredictsPointwiseMulti (fun Q => regressAny bessel R w Q w.train Y) w.f r F :=
  ⟨_, multi_pointwise bessel R hk hko w hw Y r len hlen τ hτ hY hr hk0 hkN⟩

/-- **C92**, classification: `classify_any` gives every test point a row that depends on the point only. Partial: the number of classes must differ from the number of neighbours. -/
theorem C92_classify_partial (bessel : Flt → ℝ → ℝ) (R : Regressor) (hk : R.kernel.make = R.kernel)
    (hsuit : R.kernel.fn.Suits R.kernel.deform.metric) (w : NNWrapper) (hw : w.Exact) (labels : Tensor ℝ) (r : Nat) (len : Fin w.f → ℝ)
    (hlen : R.kernel.deform.HasLengths w.f len) (hl : labels.shape = [w.N, r]) (hr : 0 < r) (hrn : r ≠ w.nnCount) (hn : 0 < w.nnCount)
    (hkN : w.nnCount ≤ w.N) (τ : ℝ) (hτ : R.gp.noise.Level τ) (hpos : 0 < τ ∨ (0 ≤ τ ∧ DistinctRows w.train w.N w.f)) :
    ∃ F : (Fin w.f → ℝ) → Fin r → ℝ, ∀ (m : Nat) (test : Tensor ℝ), 0 < m → test.shape = [m, w.f] →
      ∃ P, classifyAny (fun idx nn => posteriorMeanFromIndices bessel R idx nn test w.train labels) w test labels = .ok P ∧
        P.shape = [m, r] ∧ ∀ p < m, ∀ c : Fin r, P.get [p, c] = F (rowPt test w.f p) c := by
  classical
  refine ⟨fun q c => if FirstMixed labels (w.nbrsAt q) w.nnCount 0 then
      Spec.krigingMean (nbrCov bessel R.kernel len w.train w.N w.nnCount (w.nbrsAt q) 0 + τ • 1)
        (nbrCross bessel R.kernel len w.train w.N w.nnCount (w.nbrsAt q) 0 q) (nbrTargets labels w.N w.nnCount (w.nbrsAt q) 0 c)
    else nbrLabel labels (w.nbrsAt q) 0 0 c, fun m test hm ht => ?_⟩
  obtain ⟨I, D, h1, -, h3, h4⟩ := C44_actual bessel R hk w hw test labels m r len hlen ht hl hr hrn hm hn hkN fun _ => hτ.fits _ _
  obtain ⟨P, p1, p2, p3⟩ := h4 (nbr_regular bessel R hsuit len hlen w.train w.N w.nnCount m I
    (fun i hi => by obtain ⟨l, e1, e2⟩ := h3 i hi; exact ⟨l, e1, e2.nodup, e2.mem⟩) ((hτ.suffices_iff _ _ _).mpr hpos))
  have hpt := nns_point w hw test m ht hm hn hkN I D h1
  refine ⟨P, p1, p2, fun p hp c => ?_⟩
  have hc := nbr_congr bessel R.kernel len w.train labels w.N w.nnCount I (w.nbrsAt (rowPt test w.f p)) p 0 (hpt p hp)
  have hlab : ∀ j < w.nnCount, ∀ c, nbrLabel labels I p j c = nbrLabel labels (w.nbrsAt (rowPt test w.f p)) 0 j c := fun j hj c => by
    unfold nbrLabel; rw [hpt p hp j hj]
  have hmix : FirstMixed labels I w.nnCount p ↔ FirstMixed labels (w.nbrsAt (rowPt test w.f p)) w.nnCount 0 := by
    unfold FirstMixed
    refine exists_congr fun j => and_congr_right fun hj => exists_congr fun j' => and_congr_right fun hj' => ?_
    rw [hlab j hj, hlab j' hj']
  by_cases hM : FirstMixed labels I w.nnCount p <;> beta_reduce
  · rw [if_pos (hmix.mp hM), (p3 p hp).2 hM c c.2, hc.1, hc.2.1, hc.2.2, hτ.mat]
  · rw [if_neg fun h => hM (hmix.mpr h), (p3 p hp).1 hM c c.2, hlab 0 hn]

/-- **C92, where the code fails**: with heteroscedastic noise the prediction for a test point depends on its place in the table. (See `C88_moved_fails`: the noise belongs to
positions.) The same point is predicted `1/3` in the second place and `1/2` in the first. -/
theorem C92_heteroscedastic_fails (bs : Flt → ℝ → ℝ) : ∃ (R : Regressor) (w : NNWrapper), w.Exact ∧
    ¬ ∃ F, PredictsPointwise (fun Q => regressAny bs R w Q w.train lineTargets) w.f F := by
  obtain ⟨w, nn, D, T, μ, v, μ', v', hw, hN, hk, ht, -, -, e, e', m1, m2⟩ := C88_moved_fails bs
  refine ⟨⟨lineModel.kernel, MuyGPS.make (.heteroscedastic T) KernelObj.kout 1⟩, w, hw, fun ⟨F, hF⟩ => ?_⟩
  have hf : w.f = 1 := by
    have := hw.1
    rw [ht] at this
    have h : [3, 1] = [w.N, w.f] := this
    simp only [List.cons.injEq, and_true] at h
    exact h.2.symm
  have hs : ∀ x y, (twoTests x y).shape = [2, w.f] := fun x y => by rw [hf]; rfl
  have hrow : rowPt (twoTests 0 1) w.f 1 = rowPt (twoTests 1 0) w.f 0 := by
    funext c
    have hc : (c : ℕ) = 0 := by have := c.2; omega
    show (twoTests 0 1).get [1, c] = (twoTests 1 0).get [0, c]
    rw [hc, Tensor.get2 _ (show (twoTests 0 1).shape = [2, 1] from rfl), Tensor.get2 _ (show (twoTests 1 0).shape = [2, 1] from rfl)]
    simp [twoTests]
  rcases hF 2 _ two_pos (hs 0 1) with ⟨-, h⟩ | ⟨a, b, h, -, -, f1⟩
  · simp only at h; rw [h] at e; cases e
  simp only at h; rw [h] at e; cases e
  rcases hF 2 _ two_pos (hs 1 0) with ⟨-, h'⟩ | ⟨a', b', h', -, -, f2⟩
  · simp only at h'; rw [h'] at e'; cases e'
  simp only at h'; rw [h'] at e'; cases e'
  have := (f1 1 one_lt_two).symm.trans ((congrArg F hrow).trans (f2 0 two_pos))
  simp only [Option.some.injEq, Prod.mk.injEq] at this
  rw [m1, m2] at this
  norm_num at this

/-- Three training points at `0`, `0` and `1`. -/
def twinTrain : Tensor ℝ := ⟨[3, 1], fun k => if k = 2 then 1 else 0⟩

/-- **C92, where the code fails**: one test point that cannot be predicted takes all others with it. Without noise and with two training points in the same place `0`, the test point `1` is predicted
alone, but not in one call with the test point `0`: the call raises and returns nothing. -/
theorem C92_one_singular_fails (bs : Flt → ℝ → ℝ) : ∃ w : NNWrapper, w.Exact ∧ w.N = 3 ∧ w.nnCount = 2 ∧
    (∃ μ v, regressAny bs lineModel0 w (oneTest 1) w.train lineTargets = .ok (μ, v) ∧ μ.shape = [1] ∧ v.shape = [1]) ∧
    regressAny bs lineModel0 w (twoTests 1 0) w.train lineTargets = .error .linAlg := by
  obtain ⟨answer, hw⟩ := exact_index_exists 3 1 2 twinTrain rfl (fun x y => |x 0 - y 0|) false
  have hrow : ∀ i < 3, rowPt twinTrain 1 i 0 = if i = 2 then 1 else 0 := fun i hi => by
    show twinTrain.get [i, 0] = _
    rw [Tensor.get2 twinTrain rfl]
    simp [twinTrain]
  have hpt : ∀ i < 3, pt twinTrain 1 i 0 = if i = 2 then 1 else 0 := fun i hi => by
    rw [rowPt_pt rfl]; exact hrow i hi
  have hcov : ∀ x y, lineModel.kernel.covFn bs (fun _ => 1) x y = Real.exp (-(x 0 - y 0) ^ 2 / 2) := line_cov bs
  -- two different numbers
  have hlist : ∀ {nn : Tensor Int} {p : Nat} {l : List Nat}, rowList nn 2 p = l.map Int.ofNat → l.Nodup → (∀ x ∈ l, x < 3) →
      ∃ a b, l = [a, b] ∧ a ≠ b ∧ a < 3 ∧ b < 3 ∧ nn.get [p, 0] = (a : Int) ∧ nn.get [p, 1] = (b : Int) := by
    intro nn p l e1 e2 e3
    obtain ⟨a, a1, a2⟩ := rowList_get e1 (j := 0) two_pos
    obtain ⟨b, b1, b2⟩ := rowList_get e1 (j := 1) one_lt_two
    have hl : l.length = 2 := by have := congrArg List.length e1; simpa [rowList] using this.symm
    match l, hl with
    | [x, y], _ =>
      simp at a1 b1
      subst a1; subst b1
      exact ⟨x, y, rfl, by simpa using e2, e3 x (by simp), e3 y (by simp), a2, b2⟩
  refine ⟨_, hw, rfl, rfl, ?_, ?_⟩
  · obtain ⟨nn, h1, -, h⟩ := regress_cases bs lineModel0 rfl rfl _ hw (oneTest 1) lineTargets 1 (fun _ => 1) ⟨1, one_pos, rfl, fun _ => rfl⟩ rfl rfl
      one_pos two_pos (by norm_num) trivial
    rcases h with ⟨⟨p, hp, hd⟩, -⟩ | ⟨-, μ, v, r1, r2, r3, -⟩
    · exfalso
      obtain rfl : p = 0 := by omega
      obtain ⟨l, e1, e2⟩ := h1 0 one_pos
      obtain ⟨a, b, rfl, hab, ha, hb, n0, n1⟩ := hlist e1 e2.nodup e2.mem
      have h2 : a = 2 ∨ b = 2 := by
        by_contra hn
        push Not at hn
        have := e2.nearest a (by simp) 2 (show 2 < 3 by norm_num) (by simp; exact ⟨fun h => hn.1 h.symm, fun h => hn.2 h.symm⟩)
        have hq : rowPt (oneTest 1) 1 0 0 = 1 := by
          show (oneTest 1).get [0, 0] = _; rw [Tensor.get2 (oneTest 1) rfl]; rfl
        simp only [hq, hrow a ha, hrow 2 (by norm_num), if_neg hn.1] at this
        norm_num at this
      have hval : (pt twinTrain 1 a 0 - pt twinTrain 1 b 0) ^ 2 = 1 := by
        rw [hpt a ha, hpt b hb]
        rcases h2 with h | h
        · rw [if_pos h, if_neg fun h' => hab (h.trans h'.symm)]; norm_num
        · rw [if_pos h, if_neg fun h' => hab (h'.trans h.symm)]; norm_num
      have hval' : (pt twinTrain 1 b 0 - pt twinTrain 1 a 0) ^ 2 = 1 := by rw [← hval]; ring
      rw [det_fin_two] at hd
      simp only [Matrix.add_apply, nbrCov, hcov, Fin.val_zero, Fin.val_one, n0, n1, pointOf_nat, hval, hval', sub_self, lineModel0, MuyGPS.make, Noise.mat,
        Matrix.zero_apply, add_zero] at hd
      rw [← Real.exp_add, ← Real.exp_add, sub_eq_zero, Real.exp_eq_exp] at hd
      norm_num at hd
    · exact ⟨μ, v, r1, r2, r3⟩
  · obtain ⟨nn, h1, -, h⟩ := regress_cases bs lineModel0 rfl rfl _ hw (twoTests 1 0) lineTargets 2 (fun _ => 1) ⟨1, one_pos, rfl, fun _ => rfl⟩ rfl rfl
      two_pos two_pos (by norm_num) trivial
    rcases h with ⟨-, h⟩ | ⟨hd, -⟩
    · exact h
    · exfalso
      have hd := hd 1 one_lt_two
      obtain ⟨l, e1, e2⟩ := h1 1 one_lt_two
      obtain ⟨a, b, rfl, hab, ha, hb, n0, n1⟩ := hlist e1 e2.nodup e2.mem
      have hq : rowPt (twoTests 1 0) 1 1 0 = 0 := by
        show (twoTests 1 0).get [1, 0] = _; rw [Tensor.get2 (twoTests 1 0) rfl]; rfl
      have h2 : a ≠ 2 ∧ b ≠ 2 := by
        by_contra hn
        obtain ⟨c, hc3, hca, hcb, hc2⟩ : ∃ c < 3, c ≠ a ∧ c ≠ b ∧ c ≠ 2 := by
          by_cases h : a = 0 ∨ b = 0
          · exact ⟨1, by omega, by omega, by omega, by omega⟩
          · exact ⟨0, by omega, by omega, by omega, by omega⟩
        have hm : (2 : ℕ) ∈ [a, b] := by simp; omega
        have := e2.nearest 2 hm c hc3 (by simp [hca, hcb])
        simp only [hq, hrow c hc3, hrow 2 (by norm_num), if_neg hc2] at this
        norm_num at this
      refine hd ?_
      rw [det_fin_two]
      simp only [Matrix.add_apply, nbrCov, hcov, Fin.val_zero, Fin.val_one, n0, n1, pointOf_nat, hpt a ha, hpt b hb, if_neg h2.1, if_neg h2.2, lineModel0, MuyGPS.make,
        Noise.mat, Matrix.zero_apply, add_zero]
      ring

/-- Non-vacuity of `C92_regress`, `C92_agree`, `C92_alone` and `C92_select`: the point `0` alone and twice in a table. -/
example (bs : Flt → ℝ → ℝ) : ∃ (w : NNWrapper) (μ v μ' v' : Tensor ℝ), w.Exact ∧ w.nnCount = 2 ∧
    regressAny bs lineModel w lineTest w.train lineTargets = .ok (μ, v) ∧ regressAny bs lineModel w (oneTest 0) w.train lineTargets = .ok (μ', v') ∧
    μ'.get [0] = μ.get [1] ∧ v'.get [0] = v.get [1] := by
  obtain ⟨answer, hw⟩ := line_exact
  obtain ⟨nn, μ, v, -, h2, -⟩ := C54_regress_always bs lineModel rfl rfl rfl _ hw lineTest lineTargets 2 (fun _ => 1)
    ⟨1, one_pos, rfl, fun _ => rfl⟩ rfl rfl two_pos two_pos (by norm_num) trivial (.inl one_pos)
  obtain ⟨μ', v', h3, -, -, h4⟩ := C92_select bs lineModel rfl rfl _ hw lineTargets (fun _ => 1) ⟨1, one_pos, rfl, fun _ => rfl⟩ 1 rfl rfl two_pos (by norm_num)
    2 1 lineTest (oneTest 0) μ v one_pos rfl rfl (fun _ => 1) (fun _ _ => one_lt_two) (fun p hp => by
      funext c
      have hc : (c : ℕ) = 0 := by have : (c : ℕ) < 1 := c.2; omega
      show (oneTest 0).get [p, c] = lineTest.get [1, c]
      rw [hc, Tensor.get2 (oneTest 0) rfl, Tensor.get2 lineTest rfl]; rfl) h2
  exact ⟨_, μ, v, μ', v', hw, rfl, h2, h3, h4 0 one_pos⟩

/-- Non-vacuity of `C92_multi_partial` and `C92_classify_partial`: three responses (or classes), two neighbours. -/
example (bs : Flt → ℝ → ℝ) : ∃ w : NNWrapper, w.Exact ∧ w.N = 3 ∧ w.nnCount = 2 ∧
    (∃ F, PredictsPointwiseMulti (fun Q => regressAny bs lineModel w Q w.train ⟨[3, 3], fun k => (k : ℝ)⟩) w.f 3 F) ∧
    ∃ F : (Fin w.f → ℝ) → Fin 3 → ℝ, ∀ (m : Nat) (test : Tensor ℝ), 0 < m → test.shape = [m, w.f] →
      ∃ P, classifyAny (fun idx nn => posteriorMeanFromIndices bs lineModel idx nn test w.train ⟨[3, 3], fun k => if k % 4 = 0 then 1 else 0⟩)
          w test ⟨[3, 3], fun k => if k % 4 = 0 then 1 else 0⟩ = .ok P ∧
        P.shape = [m, 3] ∧ ∀ p < m, ∀ c : Fin 3, P.get [p, c] = F (rowPt test w.f p) c := by
  obtain ⟨answer, hw⟩ := line_exact
  exact ⟨_, hw, rfl, rfl,
    C92_multi_partial bs lineModel rfl rfl _ hw _ 3 (fun _ => 1) ⟨1, one_pos, rfl, fun _ => rfl⟩ 1 rfl rfl (by norm_num) two_pos (by norm_num),
    C92_classify_partial bs lineModel rfl rfl _ hw _ 3 (fun _ => 1) ⟨1, one_pos, rfl, fun _ => rfl⟩ rfl (by norm_num) (by norm_num) two_pos (by norm_num)
      1 rfl (.inl one_pos)⟩

end MuyGPyS
