import Verif.Props.FreeSmoothnessFails
import Verif.Props.ErrorBound

/-! # C118: concrete cases -/

namespace MuyGPyS
open Py Matrix

/-- Matérn with the smoothness fixed at 3/2, on distances, length scale 1, noise variance `τ`. -/
noncomputable def lineClosed (τ : ℝ) : Regressor :=
  ⟨⟨.isotropy .l2 ⟨Flt.fin 1, Flt.fin 0, Flt.fin 0, true⟩, some ⟨Flt.fin (3 / 2), Flt.fin (3 / 4), Flt.fin 3, true⟩, .m15⟩,
    MuyGPS.make (.homoscedastic τ) KernelObj.kout 1⟩

theorem lineMaternAt_general (ν : ℝ) : (lineMaternAt ν).GeneralMatern ν (fun _ : Fin 1 => 1) 1 1 :=
  ⟨rfl, rfl, rfl, rfl, ⟨_, rfl, rfl⟩, ⟨1, one_pos, rfl, fun _ => rfl⟩, rfl, rfl⟩

theorem lineClosed_made (τ : ℝ) : (lineClosed τ).kernel.make = (lineClosed τ).kernel := by
  have h : Flt.fin (3 / 2) ≠ Flt.fin (1 / 2) := fun h => by
    have := congrArg (Option.map EReal.toReal) h
    simp [Flt.fin] at this
    norm_num at this
  show ({ (lineClosed τ).kernel with fn := setMaternFn _ } : KernelObj) = _
  have e : setMaternFn ⟨Flt.fin (3 / 2), Flt.fin (3 / 4), Flt.fin 3, true⟩ = .m15 := by
    unfold setMaternFn
    rw [if_pos rfl, if_neg h, if_pos rfl]
  rw [e]
  rfl

theorem lineClosed_closed (τ : ℝ) : (lineClosed τ).ClosedMatern (3 / 2) (fun _ : Fin 1 => 1) τ 1 :=
  ⟨lineClosed_made τ, rfl, .inr (.inl ⟨rfl, rfl⟩), rfl, ⟨1, one_pos, rfl, fun _ => rfl⟩, rfl, rfl⟩

theorem deficit_lt_one {ν : ℝ} (hν : 0 < ν) : deficit ν < 1 := by
  have := ((C62_correlation ν hν).1 _ machEps_pos).1
  unfold deficit; linarith

theorem line_new (answer : (Fin 1 → ℝ) → Nat → List Nat) :
    NNWrapper.New ⟨3, 1, lineTrain, 2, fun x y => |x 0 - y 0|, false, answer⟩ (oneTest 2) 1 := fun p _ i hi hh => by
  have h0 : rowPt (oneTest 2) 1 p 0 = rowPt lineTrain 1 i 0 := congrFun hh (0 : Fin 1)
  have hi' : i < 3 := hi
  have e1 : rowPt (oneTest 2) 1 p 0 = 2 := rfl
  have e2 : rowPt lineTrain 1 i 0 = lineTrain.flat i := by
    show lineTrain.get [i, 0] = _
    rw [Tensor.get2 lineTrain rfl]; simp
  rw [e1, e2] at h0
  interval_cases i <;> norm_num [lineTrain] at h0

/-- The hypotheses of `C118_free_is_fixed_partial` are met: training points 0, 1, 3, the test point 2, noise 1. -/
example (bs : Flt → ℝ → ℝ) : ∃ (w : NNWrapper) (μ v μ' v' : Tensor ℝ), w.train = lineTrain ∧ w.nnCount = 2 ∧
    regressAny maternGen (lineMaternAt (3 / 2)) w (oneTest 2) lineTrain lineTargets = .ok (μ, v) ∧
    regressAny bs (lineClosed (1 - deficit (3 / 2))) w (oneTest 2) lineTrain lineTargets = .ok (μ', v') ∧
    μ'.get [0] = μ.get [0] ∧ v'.get [0] = v.get [0] := by
  obtain ⟨answer, hw⟩ := line_exact
  obtain ⟨μ, v, μ', v', h1, h2, -, -, -, -, h3⟩ := C118_free_is_fixed_partial bs (lineMaternAt (3 / 2)) (lineClosed (1 - deficit (3 / 2))) _ hw
    (oneTest 2) lineTargets 1 (3 / 2) 1 1 (fun _ => 1) (lineMaternAt_general _) (lineClosed_closed _) (deficit_lt_one (by norm_num)) rfl rfl one_pos
    two_pos (by show 2 ≤ 3; norm_num) line_distinct (line_new answer)
  exact ⟨_, μ, v, μ', v', rfl, rfl, h1, h2, h3 0 one_pos⟩

/-- The hypotheses of `C118_variance` and `C118_error_bound` are met by every smoothness: the covariance with the point 2 has energy 1, and the
responses are its values at 0, 1 and 3 up to 1. -/
example (ν : ℝ) (hν : 0 < ν) : ∃ (w : NNWrapper) (μ v : Tensor ℝ), w.train = lineTrain ∧ w.nnCount = 2 ∧
    regressAny maternGen (lineMaternAt ν) w (oneTest 2) lineTrain lineTargets = .ok (μ, v) ∧
    ((1 - deficit ν) / (2 + (1 - deficit ν)) ≤ v.get [0] ∧ v.get [0] ≤ 1) ∧
    (μ.get [0] - 1) ^ 2 ≤ (1 + 2 * 1 ^ 2 / (1 - deficit ν)) * v.get [0] := by
  obtain ⟨answer, hw⟩ := line_exact
  set w : NNWrapper := ⟨3, 1, lineTrain, 2, fun x y => |x 0 - y 0|, false, answer⟩ with hwd
  have hδ := deficit_lt_one hν
  have hg : Spec.EnergyAtMost (maternProcess ν fun _ : Fin 1 => 1) 1
      (Spec.combination (maternProcess ν fun _ => 1) (fun _ : Fin 1 => fun _ => 2) fun _ => 1) := by
    have := combination_energy (k := maternProcess ν fun _ : Fin 1 => 1) (maternProcess_comm ν _) (fun n x d => ?_)
      (fun _ : Fin 1 => fun _ => 2) (fun _ => 1)
    · simpa [maternProcess_self] using this
    · have := (maternProcess_psd hν (fun _ : Fin 1 => 1) (fun _ => one_pos) x).dotProduct_mulVec_nonneg d
      simp only [dotProduct, mulVec, star_trivial, Finset.mul_sum, of_apply] at this
      refine this.trans_eq (Finset.sum_congr rfl fun i _ => Finset.sum_congr rfl fun j _ => by ring)
  have hgx : ∀ x, Spec.combination (maternProcess ν fun _ : Fin 1 => 1) (fun _ : Fin 1 => fun _ => 2) (fun _ => 1) x =
      maternProcess ν (fun _ => 1) x fun _ => 2 := fun x => by
    simp [Spec.combination, maternProcess_comm ν _ (fun _ => 2)]
  obtain ⟨μ, v, h1, -, -, h2⟩ := C118_error_bound (lineMaternAt ν) w hw (oneTest 2) lineTargets 1 ν 1 1 (fun _ => 1) (lineMaternAt_general ν) hν hδ one_pos
    rfl rfl one_pos two_pos (by show 2 ≤ 3; norm_num) line_distinct (line_new answer) 1 _ hg 1 fun i hi => by
      have hi' : i < 3 := hi
      have h := maternProcess_range hν (fun _ : Fin 1 => 1) (fun _ => one_pos) (rowPt lineTrain 1 i) fun _ => 2
      show |lineTargets.get [i] - Spec.combination _ _ _ (rowPt lineTrain 1 i)| ≤ 1
      rw [hgx, Tensor.get1 _ rfl, abs_le]
      interval_cases i <;> simp [lineTargets] <;> constructor <;> linarith
  obtain ⟨μ', v', s1, -, -, s2⟩ := C118_variance (lineMaternAt ν) w hw (oneTest 2) lineTargets 1 ν 1 1 (fun _ => 1) (lineMaternAt_general ν) hν hδ
    zero_le_one rfl rfl one_pos two_pos (by show 2 ≤ 3; norm_num) line_distinct (line_new answer)
  rw [h1] at s1
  cases s1
  refine ⟨w, μ, v, rfl, rfl, h1, ?_, ?_⟩
  · simpa [hwd] using s2 0 one_pos
  · have := h2 0 one_pos
    rw [hgx, show rowPt (oneTest 2) w.f 0 = fun _ => 2 from rfl, show maternProcess ν (fun _ : Fin w.f => 1) (fun _ => 2) (fun _ => 2) = 1 from
      maternProcess_self ν _ _] at this
    simpa [hwd] using this

/-- The hypotheses of `C118_same_noise_fails` and of `C118_training_point_fails` are met. -/
example (bs : Flt → ℝ → ℝ) : ∃ (w w' : NNWrapper) (μ v μ' v' α a α' a' : Tensor ℝ),
    regressAny maternGen (lineMaternAt (3 / 2)) w (oneTest 1) originTrain originTargets = .ok (μ, v) ∧
    regressAny bs (lineClosed 1) w (oneTest 1) originTrain originTargets = .ok (μ', v') ∧ μ'.get [0] < μ.get [0] ∧
    regressAny maternGen (lineMaternAt (3 / 2)) w' (oneTest 0) originTrain originTargets = .ok (α, a) ∧
    regressAny bs (lineClosed (1 - deficit (3 / 2))) w' (oneTest 0) originTrain originTargets = .ok (α', a') ∧ α.get [0] < α'.get [0] := by
  obtain ⟨_, μ, v, μ', v', -, -, h1, h2, h3⟩ := C118_same_noise_fails bs _ _ _ _ _ (lineMaternAt_general (3 / 2)) (lineClosed_closed 1)
    (deficit_lt_one (by norm_num))
  obtain ⟨_, α, a, α', a', -, g1, g2, g3⟩ := C118_training_point_fails bs _ _ _ _ _ (lineMaternAt_general (3 / 2)) (lineClosed_closed _)
    (deficit_lt_one (by norm_num))
  exact ⟨_, _, μ, v, μ', v', α, a, α', a', h1, h2, h3, g1, g2, g3⟩

end MuyGPyS
