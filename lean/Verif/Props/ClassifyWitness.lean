import Verif.Props.Definite
import Verif.Props.Locality
import Verif.Props.MultiWorkflow

/-! # Non-vacuity of the theorems on classification and on several outputs -/

namespace MuyGPyS
open Py Matrix

/-- Every covariance of the line model, with its unit noise, is invertible, for any neighbours among any training points. -/
theorem lineModel_det (bs : Flt → ℝ → ℝ) (X : Tensor ℝ) (N n : Nat) (nn : Tensor Int) (p : Nat) :
    (nbrCov bs lineModel.kernel (fun _ : Fin 1 => 1) X N n nn p + lineModel.gp.noise.mat n p).det ≠ 0 :=
  Kriging.det_ne_zero (Kriging.posdef_of_psd_add (τ := 1)
    (nbrCov_definite bs lineModel.kernel rfl (fun _ => 1) (fun _ => one_pos) X N n nn p).1 one_pos)

/-- The encoding of two classes: the points `0`, `1` of `lineTrain4` in the first, `3`, `5` in the second. -/
def lineLabels : Tensor ℝ := Tensor.ofFn [4, 2] fun q => if decide (q.getD 0 0 < 2) = (q.getD 1 0 == 0) then (1 : ℝ) else -1

theorem lineLabels_decide : FirstColumnDecides lineLabels 4 2 := by
  intro i hi k hk h c hc
  unfold lineLabels at h ⊢
  rw [ofFn_get2 _ hi (by omega), ofFn_get2 _ hk (by omega)] at h
  rw [ofFn_get2 _ hi hc, ofFn_get2 _ hk hc]
  interval_cases c <;> interval_cases i <;> interval_cases k <;> simp at h ⊢ <;> norm_num at h

/-- Non-vacuity of `C44_two_class_partial` and `C44_uq_partial`: four training points of two classes, three neighbours, two test
points; every point is either labelled by its neighbours, with variance zero, or predicted by kriging. -/
example (bs : Flt → ℝ → ℝ) : ∃ (w : NNWrapper) (I : Tensor Int) (P P' V : Tensor ℝ), w.Exact ∧ w.train = lineTrain4 ∧ w.nnCount = 3 ∧
    classifyAny (fun idx nn => posteriorMeanFromIndices bs lineModel idx nn lineTest w.train lineLabels) w lineTest lineLabels = .ok P ∧
    classifyTwoClassUq (fun idx nn => regressFromIndices bs lineModel idx nn lineTest w.train lineLabels) w lineTest lineLabels
      = .ok (P', V) ∧ P.shape = [2, 2] ∧ V.shape = [2] ∧
    (∀ p < 2, SameLabel lineLabels I 3 2 p → P.get [p, 0] = nbrLabel lineLabels I p 0 0 ∧ V.get [p] = 0) ∧
    ∀ p < 2, ¬ SameLabel lineLabels I 3 2 p → P.get [p, 1] = P'.get [p, 1] := by
  obtain ⟨answer, hw⟩ := exact_index_exists 4 1 3 lineTrain4 rfl (fun x y => |x 0 - y 0|) false
  have hlen : lineModel.kernel.deform.HasLengths 1 (fun _ => 1) := ⟨1, one_pos, rfl, fun _ => rfl⟩
  obtain ⟨I, D, h1, -, h3⟩ := C44_two_class_partial bs lineModel rfl _ hw lineTest lineLabels 2 2 (fun _ => 1) hlen rfl rfl
    two_pos (by norm_num) two_pos (by norm_num) (by norm_num) (fun _ => trivial) lineLabels_decide
  obtain ⟨I', D', h1', -, h3'⟩ := C44_uq_partial bs lineModel rfl rfl _ hw lineTest lineLabels 2 (fun _ => 1) hlen rfl rfl
    (by norm_num) two_pos (by norm_num) (by norm_num) (fun _ => trivial) lineLabels_decide
  rw [h1] at h1'
  obtain ⟨rfl, rfl⟩ := Prod.mk.inj (Except.ok.inj h1')
  obtain ⟨P, p1, p2, p3⟩ := h3 fun p _ => lineModel_det bs lineTrain4 4 3 I p
  obtain ⟨P', V, q1, -, q2, q3⟩ := h3' fun p _ => lineModel_det bs lineTrain4 4 3 I p
  exact ⟨_, I, P, P', V, hw, rfl, rfl, p1, q1, p2, q2,
    fun p hp hs => ⟨(p3 p hp).1 hs 0 (by norm_num) 0 two_pos, ((q3 p hp).1 hs).2⟩,
    fun p hp hs => by rw [(p3 p hp).2 hs 1 one_lt_two, ((q3 p hp).2 hs).1 1 one_lt_two]⟩

/-- Non-vacuity of `C54_regress_multi_partial`: two test points, two neighbours each, three responses. -/
example (bs : Flt → ℝ → ℝ) (y : Nat → ℝ) : ∃ μ, posteriorMeanFromIndices bs lineModel ⟨[2], fun k => k⟩ ⟨[2, 2], fun k => (k % 3 : Nat)⟩
    lineTest lineTrain ⟨[3, 3], y⟩ = .ok μ ∧ μ.shape = [2, 3] := by
  obtain ⟨μ, h1, h2, -⟩ := C54_regress_multi_partial bs lineModel rfl lineTest lineTrain ⟨[3, 3], y⟩ ⟨[2], fun k => k⟩
    ⟨[2, 2], fun k => (k % 3 : Nat)⟩ 2 3 1 3 2 2 (by decide) (fun _ => 1) ⟨1, one_pos, rfl, fun _ => rfl⟩ (.inl rfl) (.inl rfl) rfl rfl
    rfl rfl
    (fun k hk => by
      have hk : k < 2 := hk
      interval_cases k <;> decide) (fun k hk => by
      have hk : k < 4 := hk
      interval_cases k <;> decide) trivial fun p _ => lineModel_det bs lineTrain 3 2 _ p
  exact ⟨μ, h1, h2⟩

theorem ones_psd {t n : Nat} (p : Nat) : (Spec.cov n ⟨[t, n, n], fun _ => 1⟩ p).PosSemidef := by
  have : Spec.cov n ⟨[t, n, n], fun _ => 1⟩ p = vecMulVec (star fun _ : Fin n => (1 : ℝ)) fun _ => 1 := by
    ext i j
    simp [Spec.cov, Tensor.get, vecMulVec]
  rw [this]
  exact posSemidef_vecMulVec_star_self _

/-- Non-vacuity of `C46_mean_partial` and `C46_independent_partial`: two models of different noise, two predictions from three
neighbours each at coinciding features. -/
example (bs : Flt → ℝ → ℝ) (y : Nat → ℝ) : ∃ M t u,
    multiPosteriorMean bs [noisyModel 1, noisyModel 2] ⟨[2, 3, 3], fun _ => 0⟩ ⟨[2, 3], fun _ => 0⟩ ⟨[2, 3, 2], y⟩ = .ok M ∧
    M.shape = [2, 2] ∧
    univariateMean bs (noisyModel 1).R ⟨[2, 3, 3], fun _ => 0⟩ ⟨[2, 3], fun _ => 0⟩ (targetColumn ⟨[2, 3, 2], y⟩ 0) = .ok t ∧
    univariateMean bs (noisyModel 2).R ⟨[2, 3, 3], fun _ => 0⟩ ⟨[2, 3], fun _ => 0⟩ (targetColumn ⟨[2, 3, 2], y⟩ 1) = .ok u ∧
    M.get [1, 0] = t.get [1] ∧ M.get [1, 1] = u.get [1] := by
  have hk : ∀ (τ : ℝ) (s : List Nat), (noisyModel τ).R.kernel.call bs ⟨s, fun _ => 0⟩ [] = .ok ⟨s, fun _ => 1⟩ := fun τ s =>
    noisy_kernel bs τ s [] (fun a ha => by simp at ha) rfl
  have hr : ∀ τ : ℝ, (noisyModel τ).R.Realizes bs ⟨[2, 3, 3], fun _ => 0⟩ ⟨[2, 3], fun _ => 0⟩ 2 3 := fun τ =>
    ⟨_, _, hk τ _, rfl, hk τ _, rfl⟩
  have hu : ∀ (τ : ℝ), 0 < τ → ∀ c < 2, ∃ t, univariateMean bs (noisyModel τ).R ⟨[2, 3, 3], fun _ => 0⟩ ⟨[2, 3], fun _ => 0⟩
      (targetColumn ⟨[2, 3, 2], y⟩ c) = .ok t := fun τ hτ c hc => by
    obtain ⟨μ, a1, -, -⟩ := C24_model_mean (noisyModel τ).R.gp 2 3 trivial ⟨[2, 3, 3], fun _ => 1⟩ ⟨[2, 3], fun _ => 1⟩
      (targetColumn ⟨[2, 3, 2], y⟩ c) rfl rfl (by rw [(targetColumn_eq 2 3 2 c ⟨[2, 3, 2], y⟩ rfl hc).2])
      (fun p _ => Kriging.det_ne_zero (Kriging.posdef_of_psd_add (τ := τ) (ones_psd p) hτ))
      (fun p _ => by ext i j; rfl)
    exact ⟨μ, by unfold univariateMean; simp only [hk, bind, Except.bind]; exact a1⟩
  obtain ⟨h1, h2⟩ := C46_mean_partial bs [noisyModel 1, noisyModel 2] 2 3 2 (.inl (by decide)) _ _ ⟨[2, 3, 2], y⟩ rfl rfl
    (fun T hT => by
      rcases List.mem_pair.1 hT with rfl | rfl <;> exact hr _)
  obtain ⟨t, ht⟩ := hu 1 one_pos 0 two_pos
  obtain ⟨u, hu'⟩ := hu 2 two_pos 1 one_lt_two
  obtain ⟨M, hM⟩ := h1.2 fun c T hT => by
    match c, hT with
    | 0, hT => cases hT; exact ⟨t, ht⟩
    | 1, hT => cases hT; exact ⟨u, hu'⟩
  obtain ⟨h3, h4⟩ := h2 M hM
  exact ⟨M, t, u, hM, h3, ht, hu', (h4 0 _ t rfl ht).2 1 one_lt_two, (h4 1 _ u rfl hu').2 1 one_lt_two⟩

end MuyGPyS
