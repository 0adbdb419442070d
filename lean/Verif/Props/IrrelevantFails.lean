import Verif.Props.Irrelevant
import Verif.Props.ContinuityFails

/-! # C114: where an ignored feature still matters, and non-vacuity -/

namespace MuyGPyS
open Py Matrix

/-- Two points with two features: `(0, 10)` and `(1, 0)`. -/
def crossTrain : Tensor ℝ := ⟨[2, 2], fun k => if k = 1 then 10 else if k = 2 then 1 else 0⟩

/-- Their first features. -/
def crossFirst : Tensor ℝ := ⟨[2, 1], fun k => if k = 1 then 1 else 0⟩

/-- Responses `1` and `0`. -/
def crossTargets : Tensor ℝ := ⟨[2], fun k => if k = 0 then 1 else 0⟩

/-- The origin. -/
def crossTest : Tensor ℝ := ⟨[1, 2], fun _ => 0⟩

theorem crossTrain_get (i c : Nat) : crossTrain.get [i, c] = if i * 2 + c = 1 then 10 else if i * 2 + c = 2 then 1 else 0 := by
  rw [Tensor.get2 crossTrain rfl]; rfl

theorem crossFirst_get (i : Nat) : crossFirst.get [i, 0] = if i = 1 then 1 else 0 := by
  rw [Tensor.get2 crossFirst rfl]
  simp [crossFirst]

theorem crossTargets_get (i : Nat) : crossTargets.get [i] = if i = 0 then 1 else 0 := by
  rw [Tensor.get1 _ rfl]; rfl

/-- Anisotropic RBF model with the given length scales and noise 1. -/
noncomputable def ardModel (ls : List ℝ) : Regressor :=
  ⟨⟨.anisotropy .F2 (ls.map fun l => ⟨Flt.fin l, Flt.fin 0, Flt.fin 0, true⟩), none, .rbf⟩, MuyGPS.make (.homoscedastic 1) KernelObj.kout 1⟩

theorem ard_has {f : Nat} (ls : List ℝ) (len : Fin f → ℝ) (hl : ls.length = f) (h : ∀ c : Fin f, 0 < len c ∧ ls[(c : Nat)]? = some (len c)) :
    (ardModel ls).Has (ardModel [1]).kernel len 1 1 := by
  refine ⟨rfl, rfl, rfl, rfl, ⟨by simp [hl], fun c => ⟨(h c).1, fun p hp => ?_⟩⟩, rfl, rfl⟩
  rw [List.getElem?_map, (h c).2] at hp
  cases hp
  rfl

theorem ard_self {f : Nat} (ls : List ℝ) (len : Fin f → ℝ) (x : Fin f → ℝ) :
    (ardModel ls).kernel.covFn maternGen len x x + (ardModel ls).gp.noise.mat 1 0 0 0 = 2 := by
  rw [covFn_self maternGen _ (by trivial)]
  show (1:ℝ) + ((1:ℝ) • (1 : Matrix (Fin 1) (Fin 1) ℝ)) 0 0 = 2
  rw [one_smul, Matrix.one_apply_eq]
  norm_num

/-- An exact Euclidean index. -/
theorem euclid_index (N f k : Nat) (X : Tensor ℝ) (hX : X.shape = [N, f]) :
    ∃ answer, NNWrapper.Exact ⟨N, f, X, k, fun x y => √(sqDist x y), false, answer⟩ ∧
      NNWrapper.Euclidean ⟨N, f, X, k, fun x y => √(sqDist x y), false, answer⟩ := by
  obtain ⟨answer, hw⟩ := exact_index_exists N f k X hX (fun x y => √(sqDist x y)) false
  exact ⟨answer, hw, Real.sqrt, fun a ha b hb hab => Real.sqrt_lt_sqrt ha hab, fun x y => rfl⟩

/-- **C114, where the code fails**: however long the length scale of a feature is, it still decides which training points are the
nearest, because neighbours are found by unscaled distances. With the training points `(0, 10)`, `(1, 0)`, responses `1`, `0`, one
neighbour and the test point `(0, 0)`, the mean is `0` for every length scale of the second feature, and `1/2` for the model without
that feature. -/
theorem C114_neighbours_fails : ∃ (k : KernelObj) (w₀ w : NNWrapper) (Q₀ Q Y : Tensor ℝ) (ι : Fin w₀.f → Fin w.f) (len₀ : Fin w₀.f → ℝ),
    k.fn = .rbf ∧ w₀.Exact ∧ w.Exact ∧ w₀.Euclidean ∧ w.Euclidean ∧ w.N = w₀.N ∧ w.nnCount = w₀.nnCount ∧ Function.Injective ι ∧
    Q₀.shape = [1, w₀.f] ∧ Q.shape = [1, w.f] ∧ Y.shape = [w₀.N] ∧ Extends ι w₀.N w₀.train w.train ∧ Extends ι 1 Q₀ Q ∧
    ∀ L > 0, ∃ (R₀ R : Regressor) (len : Fin w.f → ℝ), R₀.Has k len₀ 1 1 ∧ R.Has k len 1 1 ∧ (∀ c, len (ι c) = len₀ c) ∧
      (∀ c, (∀ d, ι d ≠ c) → L ≤ len c) ∧
      ∃ μ₀ v₀ μ v, regressAny maternGen R₀ w₀ Q₀ w₀.train Y = .ok (μ₀, v₀) ∧ regressAny maternGen R w Q w.train Y = .ok (μ, v) ∧
        μ₀.get [0] = 1 / 2 ∧ μ.get [0] = 0 := by
  obtain ⟨ans₀, hw₀, he₀⟩ := euclid_index 2 1 1 crossFirst rfl
  obtain ⟨ans, hw, he⟩ := euclid_index 2 2 1 crossTrain rfl
  refine ⟨(ardModel [1]).kernel, _, _, oneTest 0, crossTest, crossTargets, (fun _ => (0 : Fin 2)), fun _ => 1, rfl, hw₀, hw, he₀, he, rfl,
    rfl, fun a b _ => Subsingleton.elim (α := Fin 1) a b, rfl, rfl, rfl, ?_, ?_, fun L hL => ?_⟩
  · intro i hi c
    have hi2 : i < 2 := hi
    obtain rfl : c = (0 : Fin 1) := Subsingleton.elim (α := Fin 1) _ _
    show crossTrain.get [i, 0] = crossFirst.get [i, 0]
    rw [crossTrain_get, crossFirst_get]
    interval_cases i <;> norm_num
  · intro i hi c
    rfl
  · refine ⟨ardModel [1], ardModel [1, L], fun c : Fin 2 => if c = 0 then 1 else L, ?_, ?_, fun c => rfl, ?_, ?_⟩
    · exact ard_has [1] _ rfl fun c => ⟨one_pos, by obtain rfl : c = (0 : Fin 1) := Subsingleton.elim (α := Fin 1) _ _; rfl⟩
    · refine ard_has [1, L] _ rfl fun c => ?_
      have hc : ∀ c : Fin 2, 0 < (if c = 0 then 1 else L) ∧ [1, L][(c : Nat)]? = some (if c = 0 then 1 else L) := by
        intro c
        fin_cases c
        · exact ⟨one_pos, rfl⟩
        · exact ⟨hL, rfl⟩
      exact hc c
    · intro c hc
      have : c ≠ (0 : Fin 2) := fun h => hc (0 : Fin 1) h.symm
      show L ≤ if c = (0 : Fin 2) then 1 else L
      rw [if_neg this]
    · have hr₀ : ∀ i : Nat, sqDist (rowPt (oneTest 0) 1 0) (rowPt crossFirst 1 i) = (if i = 1 then 1 else 0 : ℝ) ^ 2 := by
        intro i
        unfold sqDist
        rw [Fin.sum_univ_one]
        show ((0:ℝ) - crossFirst.get [i, 0]) ^ 2 = _
        rw [crossFirst_get]; ring
      have hr : ∀ i : Nat, sqDist (rowPt crossTest 2 0) (rowPt crossTrain 2 i) = (crossTrain.get [i, 0]) ^ 2 + (crossTrain.get [i, 1]) ^ 2 := by
        intro i
        unfold sqDist
        rw [Fin.sum_univ_two]
        show ((0:ℝ) - crossTrain.get [i, 0]) ^ 2 + ((0:ℝ) - crossTrain.get [i, 1]) ^ 2 = _
        ring
      obtain ⟨μ₀, v₀, a1, -, -, a4⟩ := single_prediction maternGen (ardModel [1]) rfl rfl 2 1 crossFirst _ _ ans₀ hw₀ he₀ crossTargets
        (fun _ => 1) (ard_has [1] _ rfl fun c => ⟨one_pos, by obtain rfl : c = (0 : Fin 1) := Subsingleton.elim (α := Fin 1) _ _; rfl⟩).lengths rfl
        (fun _ => trivial) (oneTest 0) rfl 0 (by norm_num)
        (by
          intro j hj hj0
          obtain rfl : j = 1 := by omega
          rw [hr₀, hr₀]; norm_num)
        (by rw [ard_self]; norm_num)
      obtain ⟨μ, v, b1, -, -, b4⟩ := single_prediction maternGen (ardModel [1, L]) rfl rfl 2 2 crossTrain _ _ ans hw he crossTargets
        (fun c : Fin 2 => if c = 0 then 1 else L) (ard_has [1, L] _ rfl fun c : Fin 2 => by
          fin_cases c
          · exact ⟨one_pos, rfl⟩
          · exact ⟨hL, rfl⟩).lengths rfl
        (fun _ => trivial) crossTest rfl 1 (by norm_num)
        (by
          intro j hj hj0
          obtain rfl : j = 0 := by omega
          rw [hr, hr, crossTrain_get, crossTrain_get, crossTrain_get, crossTrain_get]; norm_num)
        (by rw [ard_self]; norm_num)
      refine ⟨μ₀, v₀, μ, v, a1, b1, ?_, ?_⟩
      · rw [a4, ard_self, crossTargets_get, if_pos rfl]
        have : rowPt (oneTest 0) 1 0 = rowPt crossFirst 1 0 := by
          funext c
          obtain rfl : c = (0 : Fin 1) := Subsingleton.elim (α := Fin 1) _ _
          show (0:ℝ) = crossFirst.get [0, 0]
          rw [crossFirst_get]; norm_num
        rw [this, covFn_self maternGen _ (by trivial)]
        norm_num
      · rw [b4, crossTargets_get, if_neg one_ne_zero]
        norm_num

/-- Non-vacuity of `C114_long_exact`: the same data with both training points as neighbours. -/
example : ∃ (w₀ w : NNWrapper), w₀.Exact ∧ w.Exact ∧ w₀.f = 1 ∧ w.f = 2 ∧ ∃ (ι : Fin w₀.f → Fin w.f),
    ∀ ε > 0, ∃ L, ∀ (R₀ R : Regressor) (len : Fin w.f → ℝ), R₀.Has (ardModel [1]).kernel (fun _ : Fin w₀.f => 1) 1 1 →
      R.Has (ardModel [1]).kernel len 1 1 → (∀ c, len (ι c) = 1) → (∀ c, (∀ d, ι d ≠ c) → L ≤ len c) →
      ∃ μ₀ v₀ μ v, regressAny maternGen R₀ w₀ (oneTest 0) w₀.train crossTargets = .ok (μ₀, v₀) ∧
        regressAny maternGen R w crossTest w.train crossTargets = .ok (μ, v) ∧
        μ₀.shape = [1] ∧ v₀.shape = [1] ∧ μ.shape = [1] ∧ v.shape = [1] ∧
        ∀ p < 1, |μ.get [p] - μ₀.get [p]| < ε ∧ |v.get [p] - v₀.get [p]| < ε := by
  obtain ⟨ans₀, hw₀, he₀⟩ := euclid_index 2 1 2 crossFirst rfl
  obtain ⟨ans, hw, he⟩ := euclid_index 2 2 2 crossTrain rfl
  refine ⟨_, _, hw₀, hw, rfl, rfl, (fun _ => (0 : Fin 2)), ?_⟩
  refine C114_long_exact maternGen (ardModel [1]).kernel (by trivial) _ _ hw₀ hw he₀ he rfl rfl rfl (oneTest 0) crossTest crossTargets 1
    (fun _ => (0 : Fin 2)) (fun a b _ => Subsingleton.elim (α := Fin 1) a b) (fun _ => 1) rfl rfl rfl one_pos (by show 0 < 2; norm_num)
    ?_ ?_ 1 1 one_pos
  · intro i hi c
    have hi2 : i < 2 := hi
    obtain rfl : c = (0 : Fin 1) := Subsingleton.elim (α := Fin 1) _ _
    show crossTrain.get [i, 0] = crossFirst.get [i, 0]
    rw [crossTrain_get, crossFirst_get]
    interval_cases i <;> norm_num
  · intro i hi c
    rfl

/-- The points `(0, 7)` and `(1, 7)`. -/
def flatTrain : Tensor ℝ := ⟨[2, 2], fun k => if k = 2 then 1 else if k = 0 then 0 else 7⟩

/-- The point `(1/4, 7)`. -/
noncomputable def flatTest : Tensor ℝ := ⟨[1, 2], fun k => if k = 0 then 1 / 4 else 7⟩

theorem flatTrain_get (i c : Nat) : flatTrain.get [i, c] = if i * 2 + c = 2 then 1 else if i * 2 + c = 0 then 0 else 7 := by
  rw [Tensor.get2 flatTrain rfl]; rfl

theorem flatTest_get (c : Nat) : flatTest.get [0, c] = if c = 0 then 1 / 4 else 7 := by
  rw [Tensor.get2 flatTest rfl]
  simp [flatTest]

/-- Non-vacuity of `C114_constant`: a second feature that is `7` everywhere, with the length scale `3`. -/
example : ∃ (w w' : NNWrapper), w.Exact ∧ w'.Exact ∧ w.f = 1 ∧ w'.f = 2 ∧
    ∃ μ v μ' v', regressAny maternGen (ardModel [1]) w (oneTest (1 / 4)) w.train crossTargets = .ok (μ, v) ∧
      regressAny maternGen (ardModel [1, 3]) w' flatTest w'.train crossTargets = .ok (μ', v') ∧
      μ.shape = [1] ∧ v.shape = [1] ∧ μ'.shape = [1] ∧ v'.shape = [1] ∧ ∀ q < 1, μ'.get [q] = μ.get [q] ∧ v'.get [q] = v.get [q] := by
  obtain ⟨ans₀, hw₀, he₀⟩ := euclid_index 2 1 1 crossFirst rfl
  obtain ⟨ans, hw, he⟩ := euclid_index 2 2 1 flatTrain rfl
  refine ⟨_, _, hw₀, hw, rfl, rfl, ?_⟩
  refine C114_constant maternGen (ardModel [1]) (ardModel [1, 3]) rfl rfl ⟨rfl, rfl, rfl⟩ rfl (by trivial) _ _ hw₀ hw he₀ he rfl rfl
    (oneTest (1 / 4)) flatTest crossTargets 1 (fun _ => (0 : Fin 2)) (fun a b _ => Subsingleton.elim (α := Fin 1) a b)
    (fun _ => 1) (fun c : Fin 2 => if c = 0 then 1 else 3)
    (ard_has [1] _ rfl fun c => ⟨one_pos, by obtain rfl : c = (0 : Fin 1) := Subsingleton.elim (α := Fin 1) _ _; rfl⟩).lengths
    (ard_has [1, 3] _ rfl fun c : Fin 2 => by
      fin_cases c
      · exact ⟨one_pos, rfl⟩
      · exact ⟨by norm_num, rfl⟩).lengths
    (fun _ => rfl) rfl rfl rfl one_pos one_pos (by show 1 ≤ 2; norm_num) (fun _ => trivial) (Or.inl one_pos) ?_
    (fun _ => 7) ?_ ?_ ?_ ?_
  · intro q hq i hi j hj hij
    obtain rfl : q = 0 := by omega
    have hd : ∀ i : Nat, sqDist (rowPt (oneTest (1 / 4)) 1 0) (rowPt crossFirst 1 i) = ((1 / 4 : ℝ) - if i = 1 then 1 else 0) ^ 2 := by
      intro i
      unfold sqDist
      rw [Fin.sum_univ_one, oneTest_row]
      show ((1 / 4 : ℝ) - crossFirst.get [i, 0]) ^ 2 = _
      rw [crossFirst_get]
    show √(sqDist (rowPt (oneTest (1 / 4)) 1 0) (rowPt crossFirst 1 i)) ≠ √(sqDist (rowPt (oneTest (1 / 4)) 1 0) (rowPt crossFirst 1 j))
    intro h
    rw [Real.sqrt_inj (sqDist_nonneg _ _) (sqDist_nonneg _ _), hd, hd] at h
    have hi2 : i < 2 := hi
    have hj2 : j < 2 := hj
    interval_cases i <;> interval_cases j <;> first | exact hij rfl | norm_num at h
  · intro i hi c
    have hi2 : i < 2 := hi
    obtain rfl : c = (0 : Fin 1) := Subsingleton.elim (α := Fin 1) _ _
    show flatTrain.get [i, 0] = crossFirst.get [i, 0]
    rw [flatTrain_get, crossFirst_get]
    interval_cases i <;> norm_num
  · intro i hi c
    obtain rfl : i = 0 := by omega
    obtain rfl : c = (0 : Fin 1) := Subsingleton.elim (α := Fin 1) _ _
    show flatTest.get [0, 0] = (oneTest (1 / 4)).get [0, 0]
    rw [flatTest_get, if_pos rfl]
    exact (oneTest_row (1 / 4) 0).symm
  · intro i hi c hc
    have hi2 : i < 2 := hi
    have hc0 : (c : Nat) ≠ 0 := fun h => hc (0 : Fin 1) (Fin.ext h.symm)
    have hc2 : (c : Nat) < 2 := c.2
    have hc1 : (c : Nat) = 1 := by omega
    show flatTrain.get [i, (c : Nat)] = 7
    rw [flatTrain_get, hc1]
    interval_cases i <;> norm_num
  · intro i hi c hc
    obtain rfl : i = 0 := by omega
    have hc0 : (c : Nat) ≠ 0 := fun h => hc (0 : Fin 1) (Fin.ext h.symm)
    show flatTest.get [0, (c : Nat)] = 7
    rw [flatTest_get, if_neg hc0]

end MuyGPyS
