import Verif.Props.InvarianceFails

/-! # C66: concrete data that meets the hypotheses -/

namespace MuyGPyS
open Py Matrix

/-- RBF on squared distances with one fixed length scale and unit noise. -/
noncomputable def simModel (l : ℝ) : Regressor :=
  ⟨⟨.isotropy .F2 ⟨Flt.fin l, Flt.fin 0, Flt.fin 0, true⟩, none, .rbf⟩, MuyGPS.make (.homoscedastic 1) KernelObj.kout 1⟩

/-- The data of `unitsTrain 1` turned by a right angle, doubled, moved by `(5, 7)` and listed in the opposite order. -/
def simTrain : Tensor ℝ := ⟨[2, 2], fun k => if k = 0 then 1 else if k = 1 then 7 else if k = 2 then 5 else 9⟩
def simTargets : Tensor ℝ := ⟨[2], fun k => if k = 0 then 0 else 1⟩
def simTest : Tensor ℝ := ⟨[1, 2], fun k => if k = 0 then 5 else 7⟩

/-- The data of `unitsTrain 1` with the features exchanged, doubled, moved by `(5, 7)` and listed in the opposite order. -/
def affTrain : Tensor ℝ := ⟨[2, 2], fun k => if k = 0 then 9 else if k = 1 then 7 else if k = 2 then 5 else 9⟩

/-- An index with one neighbour for two points of the plane. -/
noncomputable def planeIndex (X : Tensor ℝ) : NNWrapper := ⟨2, 2, X, 1, sqDist, false, lowestFirst 2 2 X sqDist⟩

theorem plane_euclidean (X : Tensor ℝ) : (planeIndex X).Euclidean := ⟨id, strictMono_id.strictMonoOn _, fun _ _ => rfl⟩

theorem plane_exact (X : Tensor ℝ) (h : X.shape = [2, 2]) : (planeIndex X).Exact := lowestFirst_exact 2 2 1 X h sqDist false

theorem swap_permutes : Permutes (fun i => 1 - i) 2 := by
  constructor
  · intro i hi; simp only; omega
  · intro i hi j hj h; simp only at h; omega

theorem plane_noTies : (planeIndex (unitsTrain 1)).NoTies unitsTest 1 := by
  intro q hq i hi j hj hij
  obtain rfl : q = 0 := by omega
  have hi' : i < 2 := hi
  have hj' : j < 2 := hj
  show sqDist (rowPt unitsTest 2 0) (rowPt (unitsTrain 1) 2 i) ≠ sqDist (rowPt unitsTest 2 0) (rowPt (unitsTrain 1) 2 j)
  interval_cases i <;> interval_cases j <;>
    first | exact absurd rfl hij | (simp [sqDist, rowPt, unitsTest, unitsTrain, Tensor.get, Tensor.ravel, Fin.sum_univ_two]; try norm_num)

/-- Non-vacuity of `C66_similar`: a rotation, a reordering, a shift and a change of units at once. -/
example (bs : Flt → ℝ → ℝ) : ∃ μ v μ' v',
    regressAny bs (simModel 1) (planeIndex (unitsTrain 1)) unitsTest (unitsTrain 1) unitsTargets = .ok (μ, v) ∧
    regressAny bs (simModel 2) (planeIndex simTrain) simTest simTrain simTargets = .ok (μ', v') ∧
      μ.shape = [1] ∧ v.shape = [1] ∧ μ'.shape = [1] ∧ v'.shape = [1] ∧
      ∀ q < 1, μ'.get [q] = μ.get [q] ∧ v'.get [q] = v.get [q] := by
  refine C66_similar bs (simModel 1) (simModel 2) rfl rfl ⟨rfl, rfl, rfl⟩ rfl rfl (planeIndex (unitsTrain 1)) (planeIndex simTrain)
    (plane_exact _ rfl) (plane_exact _ rfl) (plane_euclidean _) (plane_euclidean _) rfl rfl unitsTest simTest unitsTargets simTargets
    1 1 2 1 two_pos ⟨1, one_pos, rfl, fun _ => rfl⟩ ⟨2, two_pos, rfl, fun _ => by norm_num⟩ rfl rfl rfl rfl one_pos one_pos one_pos
    one_le_two (fun _ => trivial) (.inl one_pos) (fun i => 1 - i) id swap_permutes (fun q hq => hq) plane_noTies ?_ ?_ ?_
  · intro i hi
    have hi' : i < 2 := hi
    interval_cases i <;> simp [simTargets, unitsTargets, Tensor.get, Tensor.ravel]
  · intro i hi j hj
    have hi' : i < 2 := hi
    have hj' : j < 2 := hj
    show sqDist (rowPt simTrain 2 i) (rowPt simTrain 2 j) = 2 ^ 2 * sqDist (rowPt (unitsTrain 1) 2 (1 - i)) (rowPt (unitsTrain 1) 2 (1 - j))
    interval_cases i <;> interval_cases j <;>
      (simp [sqDist, rowPt, simTrain, unitsTrain, Tensor.get, Tensor.ravel, Fin.sum_univ_two]; try norm_num)
  · intro q hq i hi
    obtain rfl : q = 0 := by omega
    have hi' : i < 2 := hi
    show sqDist (rowPt simTest 2 0) (rowPt simTrain 2 i) = 2 ^ 2 * sqDist (rowPt unitsTest 2 0) (rowPt (unitsTrain 1) 2 (1 - i))
    interval_cases i <;>
      (simp [sqDist, rowPt, simTest, unitsTest, simTrain, unitsTrain, Tensor.get, Tensor.ravel, Fin.sum_univ_two]; try norm_num)

/-- Exchange of two features. -/
def exch : Fin 2 ≃ Fin 2 := Equiv.swap 0 1

theorem exch_0 : exch 0 = 1 := rfl
theorem exch_1 : exch 1 = 0 := rfl

/-- Non-vacuity of `C66_affine`: two length scales, exchanged together with their features. -/
example (bs : Flt → ℝ → ℝ) : ∃ μ v μ' v',
    regressAny bs (unitsModel 1 3) (planeIndex (unitsTrain 1)) unitsTest (unitsTrain 1) unitsTargets = .ok (μ, v) ∧
    regressAny bs (unitsModel 6 2) (planeIndex affTrain) simTest affTrain simTargets = .ok (μ', v') ∧
      μ.shape = [1] ∧ v.shape = [1] ∧ μ'.shape = [1] ∧ v'.shape = [1] ∧
      ∀ q < 1, μ'.get [q] = μ.get [q] ∧ v'.get [q] = v.get [q] := by
  refine C66_affine bs (unitsModel 1 3) (unitsModel 6 2) rfl rfl ⟨rfl, rfl, rfl⟩ rfl rfl (planeIndex (unitsTrain 1)) (planeIndex affTrain)
    (plane_exact _ rfl) (plane_exact _ rfl) (plane_euclidean _) (plane_euclidean _) rfl rfl unitsTest simTest unitsTargets simTargets
    1 1 ![1, 3] 2 two_pos exch ![5, 7] ⟨rfl, fun c => ?_⟩ ⟨rfl, fun c => ?_⟩ rfl rfl rfl rfl one_pos one_pos one_pos
    one_le_two (fun _ => trivial) (.inl one_pos) (fun i => 1 - i) id swap_permutes (fun q hq => hq) plane_noTies ?_ ?_ ?_
  · change Fin 2 at c
    fin_cases c
    · exact ⟨one_pos, fun p hp => by obtain rfl := Option.some.inj hp; rfl⟩
    · exact ⟨three_pos, fun p hp => by obtain rfl := Option.some.inj hp; rfl⟩
  · change Fin 2 at c
    fin_cases c
    · refine ⟨show (0 : ℝ) < 2 * 3 by norm_num, fun p hp => ?_⟩
      obtain rfl := Option.some.inj hp
      show Flt.fin 6 = Flt.fin (2 * 3)
      norm_num
    · refine ⟨show (0 : ℝ) < 2 * 1 by norm_num, fun p hp => ?_⟩
      obtain rfl := Option.some.inj hp
      show Flt.fin 2 = Flt.fin (2 * 1)
      norm_num
  · intro i hi
    have hi' : i < 2 := hi
    interval_cases i <;> simp [simTargets, unitsTargets, Tensor.get, Tensor.ravel]
  · intro i hi c
    have hi' : i < 2 := hi
    change Fin 2 at c
    show affTrain.get [i, (c : Nat)] = 2 * (unitsTrain 1).get [1 - i, (exch c : Nat)] + ![5, 7] c
    fin_cases c <;> interval_cases i <;> (simp [exch_0, exch_1, affTrain, unitsTrain, Tensor.get, Tensor.ravel]; try norm_num)
  · intro q hq c
    obtain rfl : q = 0 := by omega
    change Fin 2 at c
    show simTest.get [0, (c : Nat)] = 2 * unitsTest.get [0, (exch c : Nat)] + ![5, 7] c
    fin_cases c <;> simp [exch_0, exch_1, simTest, unitsTest, Tensor.get, Tensor.ravel]

end MuyGPyS
