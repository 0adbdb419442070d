import Verif.Props.ShearTrain

/-!
# C87: a concrete survey

Three galaxies and two queries at the same position, the convergence observed as one, both shears as zero, everywhere; unit length scale,
unit noise. The correct prediction of the first shear is zero.
-/

namespace MuyGPyS
namespace Shear
open Py Py.Tensor Matrix

/-- Positions of `N` galaxies, all at the origin. -/
def origin (N : Nat) : Tensor ℝ := ⟨[N, 2], fun _ => 0⟩

/-- Convergence one, shears zero. -/
def flatSurvey : Tensor ℝ := Tensor.ofFn [3, 3] fun i => if i.getD 1 0 = 0 then 1 else 0

/-- The two queries. -/
def twoQueries : Tensor Int := ⟨[2], fun k => k⟩

/-- Each query has the three galaxies as neighbours. -/
def threeNbrs : Tensor Int := ⟨[2, 3], fun k => (k % 3 : Nat)⟩

theorem twoQueries_valid : AllValid 3 twoQueries := by
  intro k hk
  simp [twoQueries] at hk ⊢
  unfold Tensor.validIndex
  constructor <;> push_cast <;> omega

theorem threeNbrs_valid : AllValid 3 threeNbrs := by
  intro k hk
  simp only [threeNbrs]
  unfold Tensor.validIndex
  constructor <;> push_cast <;> omega

theorem origin_pt (N i : Nat) : planePt (origin N) i = (0, 0) := rfl

theorem survey_get (i c : Nat) (hi : i < 3) (hc : c < 3) : flatSurvey.get [i, c] = if c = 0 then 1 else 0 := by
  unfold flatSurvey
  rw [get_ofFn _ _ _ (.cons hi (.cons hc .nil))]
  rfl

/-- The noisy covariance of the survey. -/
noncomputable def surveyCov : Matrix (Fin (3 * 3)) (Fin (3 * 3)) ℝ := neighbourCov 1 id 3 (fun _ => (0, 0)) + (1 : ℝ) • 1

theorem surveyCov_posdef : surveyCov.PosDef :=
  Matrix.PosDef.posSemidef_add (neighbourCov_psd 1 one_pos id 3 _) (PosDef.one.smul one_pos)

theorem surveyCov_apply (i j : Fin (3 * 3)) : surveyCov i j =
    (if (i : Nat) / 3 = (j : Nat) / 3 then (if (i : Nat) / 3 = 0 then 2 else 1) else 0) + if (i : Nat) = j then 1 else 0 := by
  unfold surveyCov neighbourCov
  simp only [Matrix.add_apply, Matrix.of_apply, id, cov_same 1 one_pos, Matrix.smul_apply, Matrix.one_apply, smul_eq_mul, Fin.ext_iff,
    obsOf, one_pow, div_one, mul_one, one_mul, Fin.val_zero]

theorem surveyCov_mulVec (f : Nat → ℝ) (i : Fin (3 * 3)) : (surveyCov *ᵥ fun j => f j) i =
    ∑ j ∈ Finset.range 9, ((if (i : Nat) / 3 = j / 3 then (if (i : Nat) / 3 = 0 then 2 else 1) else 0) + if (i : Nat) = j then 1 else 0) *
      f j := by
  rw [Finset.sum_range]
  simp only [mulVec, dotProduct, surveyCov_apply]

/-- Weights of the correctly ordered observations. -/
noncomputable def goodWeights : Fin (3 * 3) → ℝ := fun i => if (i : Nat) / 3 = 0 then 1 / 7 else 0

/-- Weights of the mis-ordered observations. -/
noncomputable def badWeights : Fin (3 * 3) → ℝ := fun i =>
  (if (i : Nat) % 3 = 0 then 1 else 0) - if (i : Nat) / 3 = 0 then 2 / 7 else 1 / 4

/-- The observation vector of the survey. -/
def goodObs : Fin (3 * 3) → ℝ := fun i => if (i : Nat) / 3 = 0 then 1 else 0

/-- The transposed observation vector. -/
def badObs : Fin (3 * 3) → ℝ := fun i => if (i : Nat) % 3 = 0 then 1 else 0

theorem good_solve : surveyCov⁻¹ *ᵥ goodObs = goodWeights := by
  have h : surveyCov *ᵥ goodWeights = goodObs := by
    funext i
    refine (surveyCov_mulVec (fun i => if i / 3 = 0 then 1 / 7 else 0) i).trans ?_
    unfold goodObs
    have := i.2
    simp only [Finset.sum_range_succ, Finset.range_zero, Finset.sum_empty]
    fin_cases i <;> norm_num
  rw [← h]
  exact Kriging.inv_mulVec_cancel (Kriging.det_ne_zero surveyCov_posdef) _

theorem bad_solve : surveyCov⁻¹ *ᵥ badObs = badWeights := by
  have h : surveyCov *ᵥ badWeights = badObs := by
    funext i
    refine (surveyCov_mulVec (fun i => (if i % 3 = 0 then 1 else 0) - if i / 3 = 0 then 2 / 7 else 1 / 4) i).trans ?_
    unfold badObs
    simp only [Finset.sum_range_succ, Finset.range_zero, Finset.sum_empty]
    fin_cases i <;> norm_num
  rw [← h]
  exact Kriging.inv_mulVec_cancel (Kriging.det_ne_zero surveyCov_posdef) _

theorem queryCov_origin (i : Fin (3 * 3)) (c : Fin 3) : queryCov 1 id 3 (fun _ => (0, 0)) (0, 0) i c =
    if (i : Nat) / 3 = c then (if (i : Nat) / 3 = 0 then 2 else 1) else 0 := by
  unfold queryCov
  simp only [Matrix.of_apply, id, cov_same 1 one_pos, Fin.ext_iff, obsOf, one_pow, div_one, Fin.val_zero]

theorem dot_range (f g : Nat → ℝ) : ((fun i : Fin (3 * 3) => f i) ⬝ᵥ fun i : Fin (3 * 3) => g i) = ∑ j ∈ Finset.range 9, f j * g j := by
  rw [Finset.sum_range]
  rfl

/-- The correct prediction of the first shear is zero, of the convergence `6/7`. -/
theorem good_mean : Spec.krigingMean surveyCov (fun i => queryCov 1 id 3 (fun _ => (0, 0)) (0, 0) i 1) goodObs = 0 ∧
    Spec.krigingMean surveyCov (fun i => queryCov 1 id 3 (fun _ => (0, 0)) (0, 0) i 0) goodObs = 6 / 7 := by
  unfold Spec.krigingMean
  rw [good_solve]
  constructor
  all_goals
    simp only [queryCov_origin]
    unfold goodWeights
    rw [dot_range (fun i => if i / 3 = _ then (if i / 3 = 0 then 2 else 1) else 0) (fun i => if i / 3 = 0 then 1 / 7 else 0)]
    simp only [Finset.sum_range_succ, Finset.range_zero, Finset.sum_empty]
    norm_num

theorem bad_mean : Spec.krigingMean surveyCov (fun i => queryCov 1 id 3 (fun _ => (0, 0)) (0, 0) i 1) badObs = 1 / 4 := by
  unfold Spec.krigingMean
  rw [bad_solve]
  simp only [queryCov_origin]
  unfold badWeights
  rw [dot_range (fun i => if i / 3 = _ then (if i / 3 = 0 then 2 else 1) else 0)
    (fun i => (if i % 3 = 0 then 1 else 0) - if i / 3 = 0 then 2 / 7 else 1 / 4)]
  simp only [Finset.sum_range_succ, Finset.range_zero, Finset.sum_empty]
  norm_num

theorem good_quad : Spec.quadForm surveyCov goodObs = 3 / 7 := by
  unfold Spec.quadForm
  rw [good_solve]
  unfold goodWeights goodObs
  rw [dot_range (fun i => if i / 3 = 0 then 1 else 0) (fun i => if i / 3 = 0 then 1 / 7 else 0)]
  simp only [Finset.sum_range_succ, Finset.range_zero, Finset.sum_empty]
  norm_num

theorem bad_quad : Spec.quadForm surveyCov badObs = 31 / 14 := by
  unfold Spec.quadForm
  rw [bad_solve]
  unfold badWeights badObs
  rw [dot_range (fun i => if i % 3 = 0 then 1 else 0) (fun i => (if i % 3 = 0 then 1 else 0) - if i / 3 = 0 then 2 / 7 else 1 / 4)]
  simp only [Finset.sum_range_succ, Finset.range_zero, Finset.sum_empty]
  norm_num

theorem nbr_point (p i : Nat) (hp : p < 2) (hi : i < 3) : pointOf 3 (threeNbrs.get [p, i]) = i := by
  rw [get2 threeNbrs rfl]
  unfold pointOf Tensor.wrapIndex threeNbrs
  simp only
  split <;> push_cast at * <;> omega

/-- The model of the witness. -/
noncomputable def surveyModel : ShearModel := ⟨⟨1⟩, false, (noiseOf 3 1 false).1, 1, .fixed⟩

/-- **C87 is false of `regress_from_indices`, silently.** Where the observed shears are zero everywhere, it predicts a shear of `1/4`; the
kriging prediction (which the hand-written pipeline of the repository's tests returns, `C87_predict_partial`) is zero. -/
theorem C87_workflow_wrong :
    (∃ μ V, shearRegressFromIndices surveyModel twoQueries threeNbrs (origin 3) (origin 3) flatSurvey = .ok (μ, V) ∧
      ∀ p < 2, μ.get [p, 1] = 1 / 4) ∧
    ∃ μ V, shearRegress surveyModel twoQueries threeNbrs (origin 3) (origin 3) flatSurvey = .ok (μ, V) ∧
      ∀ p < 2, μ.get [p, 1] = 0 ∧ μ.get [p, 0] = 6 / 7 := by
  constructor
  · obtain ⟨μ, V, h1, h2⟩ := C87_workflow_silent ⟨1⟩ one_pos 1 1 one_pos false .fixed twoQueries threeNbrs (origin 3) (origin 3) flatSurvey
      3 3 2 (by decide) (by decide) rfl rfl rfl rfl rfl twoQueries_valid threeNbrs_valid
    refine ⟨μ, V, h1, fun p hp => ?_⟩
    refine ((h2.2.2 p hp 1).1).trans (Eq.trans ?_ bad_mean)
    congr 1
    funext i
    beta_reduce
    rw [nbr_point p _ hp (obsOf i).2, survey_get _ _ (obsOf i).2 (Nat.mod_lt _ (by omega))]
    rfl
  · obtain ⟨μ, V, h1, h2⟩ := C87_predict_partial ⟨1⟩ one_pos 1 1 one_pos false .fixed twoQueries threeNbrs (origin 3) (origin 3) flatSurvey
      3 3 2 3 (by decide) (by decide) (by decide) rfl rfl rfl rfl rfl twoQueries_valid threeNbrs_valid
    refine ⟨μ, V, h1, fun p hp => ?_⟩
    have e : nbrObs 3 3 flatSurvey (fun i => pointOf 3 (threeNbrs.get [p, i])) = goodObs := by
      funext i
      unfold nbrObs
      beta_reduce
      rw [nbr_point p _ hp (mod_lt_of i), survey_get _ _ (mod_lt_of i) (obsOf i).2]
      rfl
    have g0 := (h2.2.2 p hp 0).1
    have g1 := (h2.2.2 p hp 1).1
    simp only [e] at g0 g1
    exact ⟨g1.trans good_mean.1, g0.trans good_mean.2⟩

/-- **C87 is false of the scale estimated from the tensors of `make_train_tensors`, silently**: here it is more than five times the
estimate it should be. -/
theorem C87_scale_wrong :
    ∃ u t T Z, makeTrainTensors .differenceIsotropy .F2 twoQueries threeNbrs (origin 3) flatSurvey = .ok (u, t, T, Z) ∧
      shearScale surveyModel 1 t (swapLast Z) = .ok (1 / 21) ∧ shearScale surveyModel 1 t Z = .ok (31 / 126) := by
  obtain ⟨u, t, T, Z, h1, h2⟩ := C87_scale_partial ⟨1⟩ one_pos 1 1 one_pos false .fixed twoQueries threeNbrs (origin 3) flatSurvey
    3 2 3 (by decide) (by decide) rfl rfl rfl rfl twoQueries_valid threeNbrs_valid
  obtain ⟨_, _, _, _, g1, g2⟩ := C87_scale_silent ⟨1⟩ one_pos 1 1 one_pos false .fixed twoQueries threeNbrs (origin 3) flatSurvey
    3 2 3 (by decide) (by decide) rfl rfl rfl rfl twoQueries_valid threeNbrs_valid
  rw [h1] at g1; cases g1
  refine ⟨u, t, T, Z, h1, h2.trans ?_, g2.trans ?_⟩
  · congr 1
    unfold Spec.scaleEstimate
    have : ∀ p ∈ Finset.range 2, Spec.quadForm (neighbourCov 1 id 3 (nbrAt (origin 3) 3 threeNbrs p) + (noiseOf 3 1 false).2)
        (nbrObs 3 3 flatSurvey fun i => pointOf 3 (threeNbrs.get [p, i])) = 3 / 7 := by
      intro p hp
      refine Eq.trans ?_ good_quad
      congr 1
      funext i
      unfold nbrObs
      beta_reduce
      rw [nbr_point p _ (Finset.mem_range.1 hp) (mod_lt_of i), survey_get _ _ (mod_lt_of i) (obsOf i).2]
      rfl
    rw [Finset.sum_congr rfl this]
    norm_num
  · congr 1
    unfold Spec.scaleEstimate
    have : ∀ p ∈ Finset.range 2, Spec.quadForm (neighbourCov 1 id 3 (nbrAt (origin 3) 3 threeNbrs p) + (noiseOf 3 1 false).2)
        (fun i => flatSurvey.get [pointOf 3 (threeNbrs.get [p, (i : Nat) / 3]), (i : Nat) % 3]) = 31 / 14 := by
      intro p hp
      refine Eq.trans ?_ bad_quad
      congr 1
      funext i
      have hi : (i : Nat) / 3 < 3 := (obsOf i).2
      rw [nbr_point p _ (Finset.mem_range.1 hp) hi, survey_get _ _ hi (Nat.mod_lt _ (by omega))]
      rfl
    rw [Finset.sum_congr rfl this]
    norm_num

/-! ## the hypotheses of the other theorems are met -/

/-- Three queries with two neighbours each. -/
def threeQueries : Tensor Int := ⟨[3], fun k => k⟩

/-- See `threeQueries`. -/
def twoNbrs : Tensor Int := ⟨[3, 2], fun k => (k % 2 : Nat)⟩

theorem threeQueries_valid : AllValid 3 threeQueries := by
  intro k hk
  simp [threeQueries] at hk ⊢
  unfold Tensor.validIndex
  constructor <;> push_cast <;> omega

theorem twoNbrs_valid : AllValid 3 twoNbrs := by
  intro k hk
  simp only [twoNbrs]
  unfold Tensor.validIndex
  constructor <;> push_cast <;> omega

/-- With two neighbours the survey cannot be predicted at all. -/
example : shearRegressFromIndices ⟨⟨1⟩, false, (noiseOf 2 1 true).1, 1, .fixed⟩ threeQueries twoNbrs (origin 3) (origin 3) flatSurvey =
    .error .value :=
  C87_workflow_raises ⟨1⟩ one_pos 1 1 true .fixed threeQueries twoNbrs (origin 3) (origin 3) flatSurvey 3 3 3 2 (by decide) (by decide)
    (by decide) (by decide) rfl rfl rfl rfl rfl threeQueries_valid twoNbrs_valid

/-- … nor from the two shears with three neighbours. -/
example : shearRegressFromIndices ⟨⟨1⟩, true, .homoscedastic 1, 1, .fixed⟩ twoQueries threeNbrs (origin 3) (origin 3) (origin 3) =
    .error .value :=
  C87_workflow_two_raises ⟨1⟩ one_pos 1 1 .fixed twoQueries threeNbrs (origin 3) (origin 3) (origin 3) 3 3 2 3 (by decide) (by decide)
    (by decide) (by decide) rfl rfl rfl rfl rfl twoQueries_valid threeNbrs_valid

/-- A trial with length scale two, the noise not being optimised. -/
theorem trial_example : TrialKw [("length_scale", .fin 2)] ⟨1⟩ 1 2 1 := ⟨rfl, rfl⟩

example := C87_objective_partial ⟨1⟩ one_pos 1 1 2 1 two_pos one_pos true .fixed _ trial_example twoQueries threeNbrs (origin 3) flatSurvey
  3 2 3 (by decide) (by decide) (by decide) rfl rfl rfl rfl twoQueries_valid threeNbrs_valid

example := C87_objective_two_partial ⟨1⟩ one_pos 1 1 2 1 two_pos one_pos .fixed _ trial_example twoQueries threeNbrs (origin 3) (origin 3)
  3 2 3 (by decide) (by decide) (by decide) rfl rfl rfl rfl twoQueries_valid threeNbrs_valid

example := C87_predict_two_partial ⟨1⟩ one_pos 1 1 one_pos .fixed twoQueries threeNbrs (origin 3) (origin 3) (origin 3)
  3 3 2 3 (by decide) (by decide) (by decide) rfl rfl rfl rfl rfl twoQueries_valid threeNbrs_valid

example := C87_lool_fails ⟨1⟩ one_pos 1 1 1 one_pos one_pos true [] ⟨rfl, rfl⟩ twoQueries threeNbrs (origin 3) flatSurvey
  3 2 3 (by decide) (by decide) (by decide) rfl rfl rfl rfl twoQueries_valid threeNbrs_valid

example := C87_masked_lool_raises ⟨1⟩ one_pos 1 1 1 one_pos true [] ⟨rfl, rfl⟩ threeQueries twoNbrs (origin 3) flatSurvey
  3 3 2 (by decide) (by decide) (by decide) rfl rfl rfl rfl threeQueries_valid twoNbrs_valid [1, 2] (by simp) (by decide)

end Shear
end MuyGPyS
