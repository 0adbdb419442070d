import Verif.Props.Invariance
import Verif.Props.PipelineWitness

/-! # C66: where predictions do depend on the presentation of the data -/

namespace MuyGPyS
open Py Matrix

/-- `regress_any` with one neighbour and unit noise, in terms of the index's answer. -/
theorem regress_one (bs : Flt → ℝ → ℝ) (R : Regressor) (hk : R.kernel.make = R.kernel) (hsuit : R.kernel.fn.Suits R.kernel.deform.metric)
    (hgp : R.gp = MuyGPS.make (.homoscedastic 1) KernelObj.kout 1)
    (w : NNWrapper) (hw : w.Exact) (Q Y : Tensor ℝ) (len : Fin w.f → ℝ) (hlen : R.kernel.deform.HasLengths w.f len)
    (hQ : Q.shape = [1, w.f]) (hY : Y.shape = [w.N]) (hk1 : w.nnCount = 1) (hN : 0 < w.N) (x : Nat) (hx : w.answer (rowPt Q w.f 0) 1 = [x]) :
    ∃ μ v, regressAny bs R w Q w.train Y = .ok (μ, v) ∧
      μ.get [0] = R.kernel.covFn bs len (rowPt Q w.f 0) (rowPt w.train w.f x) *
        ((R.kernel.covFn bs len (rowPt w.train w.f x) (rowPt w.train w.f x) + 1)⁻¹ * Y.get [x]) := by
  obtain ⟨N, f, X, k, dist, sq, ans⟩ := w
  simp only at hk1 hN hx hQ hY hlen len
  subst hk1
  set w : NNWrapper := ⟨N, f, X, 1, dist, sq, ans⟩ with hwd
  obtain ⟨I, D, h1, h2, h3, h4, h5⟩ := query_ok w hw Q 1 1 hQ one_pos one_pos hN
  have e1 : rowList I 1 0 = [x].map Int.ofNat := by rw [h4 0 one_pos, ← hx]
  have e2 := hw.2 (rowPt Q f 0) 1 hN
  have hx' : w.answer (rowPt Q f 0) 1 = [x] := hx
  rw [hx'] at e2
  obtain ⟨y, y1, y2⟩ := rowList_get e1 one_pos
  obtain rfl : x = y := by simpa using y1
  have hxN : x < N := e2.mem x (by simp)
  have hv : AllValid N I := valid_of_rows h2 fun i hi j hj => by
    obtain rfl : i = 0 := by omega
    obtain rfl : j = 0 := by omega
    exact ⟨x, y2, hxN⟩
  have hK : nbrCov bs R.kernel len X N 1 I 0 + R.gp.noise.mat 1 0 =
      Matrix.of fun _ _ => R.kernel.covFn bs len (rowPt X f x) (rowPt X f x) + 1 := by
    ext i j
    fin_cases i; fin_cases j
    rw [hgp]
    show R.kernel.covFn bs len (pt X f (pointOf N (I.get [0, 0]))) (pt X f (pointOf N (I.get [0, 0]))) + (1 : ℝ) * 1 = _
    rw [y2, pointOf_nat, rowPt_pt hw.1, mul_one]
    rfl
  have hpos : (nbrCov bs R.kernel len X N 1 I 0 + R.gp.noise.mat 1 0).PosDef := by
    rw [hgp]
    exact PosDef.posSemidef_add (nbrCov_definite bs R.kernel hsuit len (hasLengths_pos hlen) X N 1 I 0).1 (PosDef.one.smul one_pos)
  obtain ⟨μ, v, r1, r2, r3, r4⟩ := C54_regress bs R hk (by rw [hgp]; rfl) Q X Y (arange 1) I 1 N f 1 1 len hlen (.inl hQ) (.inl hw.1) hY
    (by rw [hQ, show X.shape = [N, f] from hw.1]; rfl) rfl h2 (arange_valid 1) hv (by rw [hgp]; trivial)
    (fun p hp => by
      obtain rfl : p = 0 := by omega
      exact Kriging.det_ne_zero hpos)
  refine ⟨μ, v, ?_, ?_⟩
  · unfold regressAny
    rw [hQ]
    have h1' : NNWrapper.getNns ⟨N, f, X, 1, dist, sq, ans⟩ Q = .ok (I, D) := h1
    simp only [h1', bind, Except.bind]
    exact r1
  · rw [(r4 0 one_pos).1, hK]
    unfold Spec.krigingMean nbrCross nbrTargets
    rw [Matrix.inv_subsingleton]
    simp only [Matrix.mulVec, dotProduct, Fin.sum_univ_one, Matrix.of_apply, Matrix.diagonal_apply_eq, Ring.inverse_eq_inv']
    have hi0 : ((0 : Fin 1) : ℕ) = 0 := rfl
    rw [hi0, y2, pointOf_nat, arange_get, pointOf_nat, rowPt_pt hw.1, rowPt_pt hQ]
    unfold feature
    rw [hY]

/-- Two training points `-1, 1` on a line and their responses `0, 1`; the test point `0`. -/
def tieTrain : Tensor ℝ := ⟨[2, 1], fun k => if k = 0 then -1 else 1⟩
def tieTargets : Tensor ℝ := ⟨[2], fun k => if k = 0 then 0 else 1⟩
def tieTest : Tensor ℝ := ⟨[1, 1], fun _ => 0⟩

/-- The same data in the opposite order. -/
def tieTrain' : Tensor ℝ := ⟨[2, 1], fun k => if k = 0 then 1 else -1⟩
def tieTargets' : Tensor ℝ := ⟨[2], fun k => if k = 0 then 1 else 0⟩

/-- An index with one neighbour that prefers the lower index among equidistant points. -/
noncomputable def tieIndex (X : Tensor ℝ) : NNWrapper := ⟨2, 1, X, 1, sqDist, false, lowestFirst 2 1 X sqDist⟩

/-- **C66 fails** with ties: for a test point halfway between two training points, listing the training points in the opposite order
changes the prediction, with the same exact index (the lower index first among equidistant points). -/
theorem C66_ties_fails (bs : Flt → ℝ → ℝ) :
    (tieIndex tieTrain).Exact ∧ (tieIndex tieTrain').Exact ∧
    (∀ i < 2, tieTrain'.get [i, 0] = tieTrain.get [1 - i, 0] ∧ tieTargets'.get [i] = tieTargets.get [1 - i]) ∧
    ∃ μ v μ' v', regressAny bs lineModel (tieIndex tieTrain) tieTest tieTrain tieTargets = .ok (μ, v) ∧
      regressAny bs lineModel (tieIndex tieTrain') tieTest tieTrain' tieTargets' = .ok (μ', v') ∧
      μ.get [0] = 0 ∧ 0 < μ'.get [0] := by
  have hans : ∀ X : Tensor ℝ, (∀ i < 2, sqDist (rowPt tieTest 1 0) (rowPt X 1 i) = 1) → lowestFirst 2 1 X sqDist (rowPt tieTest 1 0) 1 = [0] := by
    intro X h
    unfold lowestFirst
    rw [List.mergeSort_of_pairwise]
    · rfl
    · have : List.range 2 = [0, 1] := rfl
      rw [this]
      simp [h 0 (by norm_num), h 1 (by norm_num)]
  have e1 : (tieIndex tieTrain).Exact := lowestFirst_exact 2 1 1 tieTrain rfl sqDist false
  have e2 : (tieIndex tieTrain').Exact := lowestFirst_exact 2 1 1 tieTrain' rfl sqDist false
  obtain ⟨μ, v, h1, h2⟩ := regress_one bs lineModel rfl rfl rfl (tieIndex tieTrain) e1 tieTest tieTargets (fun _ => 1)
    ⟨1, one_pos, rfl, fun _ => rfl⟩ rfl rfl rfl two_pos 0 (hans tieTrain (by
      intro i hi
      interval_cases i <;> simp [sqDist, rowPt, tieTest, tieTrain, Tensor.get, Tensor.ravel]))
  obtain ⟨μ', v', h1', h2'⟩ := regress_one bs lineModel rfl rfl rfl (tieIndex tieTrain') e2 tieTest tieTargets' (fun _ => 1)
    ⟨1, one_pos, rfl, fun _ => rfl⟩ rfl rfl rfl two_pos 0 (hans tieTrain' (by
      intro i hi
      interval_cases i <;> simp [sqDist, rowPt, tieTest, tieTrain', Tensor.get, Tensor.ravel]))
  refine ⟨e1, e2, ?_, μ, v, μ', v', h1, h1', ?_, ?_⟩
  · intro i hi
    interval_cases i <;> simp [tieTrain, tieTrain', tieTargets, tieTargets', Tensor.get, Tensor.ravel]
  · rw [h2]
    simp [tieTargets, Tensor.get, Tensor.ravel]
  · rw [h2']
    have : tieTargets'.get [0] = 1 := by simp [tieTargets', Tensor.get, Tensor.ravel]
    rw [this]
    have c1 := line_cov bs (rowPt tieTest 1 0) (rowPt tieTrain' 1 0)
    have c2 := line_cov bs (rowPt tieTrain' 1 0) (rowPt tieTrain' 1 0)
    refine mul_pos (lt_of_lt_of_eq (Real.exp_pos _) c1.symm) (mul_pos (inv_pos.mpr ?_) one_pos)
    have := lt_of_lt_of_eq (Real.exp_pos _) c2.symm
    exact add_pos this one_pos

/-- RBF on squared distances with fixed length scales `a, b` for two features and unit noise. -/
noncomputable def unitsModel (a b : ℝ) : Regressor :=
  ⟨⟨.anisotropy .F2 [⟨Flt.fin a, Flt.fin 0, Flt.fin 0, true⟩, ⟨Flt.fin b, Flt.fin 0, Flt.fin 0, true⟩], none, .rbf⟩,
    MuyGPS.make (.homoscedastic 1) KernelObj.kout 1⟩

/-- Training points `(s, 0)` and `(0, 2)` with responses `1, 0`; the test point is the origin. -/
def unitsTrain (s : ℝ) : Tensor ℝ := ⟨[2, 2], fun k => if k = 0 then s else if k = 3 then 2 else 0⟩
def unitsTargets : Tensor ℝ := ⟨[2], fun k => if k = 0 then 1 else 0⟩
def unitsTest : Tensor ℝ := ⟨[1, 2], fun _ => 0⟩

/-- **C66 fails** for the unit of a single feature: expressing the first feature — of all data, together with its length scale — in a
unit a third as large changes the prediction, whatever exact Euclidean index is used, because the nearest training point is another one. -/
theorem C66_single_unit_fails (bs : Flt → ℝ → ℝ) (ans ans' : (Fin 2 → ℝ) → Nat → List Nat) :
    let w : NNWrapper := ⟨2, 2, unitsTrain 1, 1, sqDist, false, ans⟩
    let w' : NNWrapper := ⟨2, 2, unitsTrain 3, 1, sqDist, false, ans'⟩
    w.Exact → w'.Exact →
      (∀ i < 2, (unitsTrain 3).get [i, 0] = 3 * (unitsTrain 1).get [i, 0] ∧ (unitsTrain 3).get [i, 1] = (unitsTrain 1).get [i, 1]) ∧
      w.NoTies unitsTest 1 ∧ w'.NoTies unitsTest 1 ∧
      ∃ μ v μ' v', regressAny bs (unitsModel 1 1) w unitsTest w.train unitsTargets = .ok (μ, v) ∧
        regressAny bs (unitsModel 3 1) w' unitsTest w'.train unitsTargets = .ok (μ', v') ∧ 0 < μ.get [0] ∧ μ'.get [0] = 0 := by
  intro w w' hw hw'
  have hd : ∀ s : ℝ, sqDist (rowPt unitsTest 2 0) (rowPt (unitsTrain s) 2 0) = s ^ 2 ∧
      sqDist (rowPt unitsTest 2 0) (rowPt (unitsTrain s) 2 1) = 4 := by
    intro s
    constructor
    · simp [sqDist, rowPt, unitsTest, unitsTrain, Tensor.get, Tensor.ravel, Fin.sum_univ_two]
    · simp [sqDist, rowPt, unitsTest, unitsTrain, Tensor.get, Tensor.ravel, Fin.sum_univ_two]; norm_num
  have hone : ∀ {w : NNWrapper} (hw : w.Exact) (q : Fin w.f → ℝ), 1 ≤ w.N → ∃ x, w.answer q 1 = [x] ∧ x < w.N ∧
      ∀ j < w.N, j ≠ x → w.dist q (rowPt w.train w.f x) ≤ w.dist q (rowPt w.train w.f j) := by
    intro w hw q hN
    have h := hw.2 q 1 hN
    obtain ⟨x, hx⟩ := List.length_eq_one_iff.mp h.length
    rw [hx] at h
    exact ⟨x, hx, h.mem x (by simp), fun j hj hne => h.nearest x (by simp) j hj (by simpa using hne)⟩
  obtain ⟨x, x1, x2, x3⟩ := hone hw (rowPt unitsTest 2 0) one_le_two
  obtain ⟨x', x1', x2', x3'⟩ := hone hw' (rowPt unitsTest 2 0) one_le_two
  have hx : x = 0 := by
    by_contra hne
    have hx1 : x = 1 := by have : x < 2 := x2; omega
    subst hx1
    have := x3 0 two_pos (by norm_num)
    change sqDist (rowPt unitsTest 2 0) (rowPt (unitsTrain 1) 2 1) ≤ sqDist (rowPt unitsTest 2 0) (rowPt (unitsTrain 1) 2 0) at this
    rw [(hd 1).1, (hd 1).2] at this
    norm_num at this
  have hx' : x' = 1 := by
    by_contra hne
    have hx1 : x' = 0 := by have : x' < 2 := x2'; omega
    subst hx1
    have := x3' 1 one_lt_two (by norm_num)
    change sqDist (rowPt unitsTest 2 0) (rowPt (unitsTrain 3) 2 0) ≤ sqDist (rowPt unitsTest 2 0) (rowPt (unitsTrain 3) 2 1) at this
    rw [(hd 3).1, (hd 3).2] at this
    norm_num at this
  subst hx hx'
  have hlen : ∀ a b : ℝ, 0 < a → 0 < b → (unitsModel a b).kernel.deform.HasLengths 2 ![a, b] := by
    intro a b ha hb
    refine ⟨rfl, fun c => ?_⟩
    fin_cases c
    · exact ⟨ha, fun p hp => by obtain rfl := Option.some.inj hp; rfl⟩
    · exact ⟨hb, fun p hp => by obtain rfl := Option.some.inj hp; rfl⟩
  obtain ⟨μ, v, h1, h2⟩ := regress_one bs (unitsModel 1 1) rfl rfl rfl w hw unitsTest unitsTargets ![1, 1] (hlen 1 1 one_pos one_pos)
    rfl rfl rfl two_pos 0 x1
  obtain ⟨μ', v', h1', h2'⟩ := regress_one bs (unitsModel 3 1) rfl rfl rfl w' hw' unitsTest unitsTargets ![3, 1]
    (hlen 3 1 (by norm_num) one_pos) rfl rfl rfl two_pos 1 x1'
  have hties : ∀ s : ℝ, s ^ 2 ≠ 4 → ∀ a, NNWrapper.NoTies ⟨2, 2, unitsTrain s, 1, sqDist, false, a⟩ unitsTest 1 := by
    intro s hs a q hq i hi j hj hij
    obtain rfl : q = 0 := by omega
    show sqDist (rowPt unitsTest 2 0) (rowPt (unitsTrain s) 2 i) ≠ sqDist (rowPt unitsTest 2 0) (rowPt (unitsTrain s) 2 j)
    have hi' : i < 2 := hi
    have hj' : j < 2 := hj
    interval_cases i <;> interval_cases j <;> first | exact absurd rfl hij | skip
    · rw [(hd s).1, (hd s).2]; exact hs
    · rw [(hd s).1, (hd s).2]; exact hs.symm
  refine ⟨?_, hties 1 (by norm_num) _, hties 3 (by norm_num) _, μ, v, μ', v', h1, h1', ?_, ?_⟩
  · intro i hi
    interval_cases i <;> simp [unitsTrain, Tensor.get, Tensor.ravel]
  · rw [h2]
    have : unitsTargets.get [0] = 1 := by simp [unitsTargets, Tensor.get, Tensor.ravel]
    rw [this]
    have hc : ∀ x y : Fin 2 → ℝ, 0 < (unitsModel 1 1).kernel.covFn bs ![1, 1] x y := by
      intro x y
      unfold KernelObj.covFn unitsModel
      simp only [KFn.value]
      exact Real.exp_pos _
    exact mul_pos (hc _ _) (mul_pos (inv_pos.mpr (add_pos (hc _ _) one_pos)) one_pos)
  · rw [h2']
    simp [unitsTargets, Tensor.get, Tensor.ravel]

end MuyGPyS
