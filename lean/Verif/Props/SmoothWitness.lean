import Verif.Props.SmoothGen
import Verif.Props.TruthWitness

/-! # C94: concrete cases -/

namespace MuyGPyS
open Py
open scoped ContDiff

/-- A model with a free length scale within `[1, 3]`, a free noise within `[0, 1]` and a fixed variance scale 2. -/
noncomputable def lineFree : Learner :=
  ⟨⟨.scalar ⟨Flt.fin 1, Flt.fin 1, Flt.fin 3, false⟩, none⟩, .homoscedastic ⟨Flt.fin 1, Flt.fin 0, Flt.fin 1, false⟩, .F2, false, .rbf,
    .fixed, 2, 2⟩

theorem lineFree_bounds : lineFree.InBounds := by
  intro np hnp _
  have hp : lineFree.gp.params = [("length_scale", ⟨Flt.fin 1, Flt.fin 1, Flt.fin 3, false⟩),
      ("noise", ⟨Flt.fin 1, Flt.fin 0, Flt.fin 1, false⟩)] := by
    simp [lineFree, Learner.gp, GP.params, Kernel.named, LenScale.named]
  rw [hp] at hnp
  simp only [List.mem_cons, List.not_mem_nil, or_false] at hnp
  rcases hnp with rfl | rfl
  · exact ⟨(1 : ℝ), (1 : ℝ), (3 : ℝ), rfl, rfl, rfl, le_rfl, by exact_mod_cast (by norm_num : (1 : ℝ) ≤ 3)⟩
  · exact ⟨(1 : ℝ), (0 : ℝ), (1 : ℝ), rfl, rfl, rfl, by exact_mod_cast (by norm_num : (0 : ℝ) ≤ 1), le_rfl⟩

theorem line_within : (⟨Flt.fin 1, Flt.fin 1, Flt.fin 3, false⟩ : Param).Within (Set.Ioi 0) :=
  ⟨1, 3, rfl, rfl, fun _ h => lt_of_lt_of_le one_pos h.1⟩

/-- Non-vacuity of `C94_smooth_partial`: two free hyperparameters, the likelihood loss. -/
example (bs : Flt → ℝ → ℝ) : ∃ (w : NNWrapper) (batch : List Nat × Tensor Int) (d : TrainData) (o : OptLists)
    (g : (Fin lineFree.freeNames.length → ℝ) → ℝ), w.train = lineTrain ∧ lineFree.freeNames = ["length_scale", "noise"] ∧
      lineFree.trainData batch lineTrain lineTargets = .ok d ∧ lineFree.gp.getOptParams = .ok o ∧
      (∀ x ∈ lineFree.searchBox, arrayObjFn (lineFree.objective bs .lool [] d) o.names (lineFree.point x) = .ok (some (g x))) ∧
      ContDiffOn ℝ ∞ g lineFree.searchBox ∧ ∃ x ∈ lineFree.searchBox, ∀ y ∈ lineFree.searchBox, g x ≤ g y := by
  obtain ⟨answer, hw⟩ := line_exact
  have hsep := line_separated answer
  obtain ⟨batch, d, o, -, h1, h2, g, h3, h4, h5⟩ := C94_smooth_partial bs lineFree rfl rfl
    ⟨3, 1, lineTrain, 2, fun x y => |x 0 - y 0|, false, answer⟩ hw (by norm_num)
    ⟨fun p hp => by obtain rfl := LenScale.scalar.inj hp; exact line_within, fun ps hp => (nomatch hp),
      ⟨_, rfl, .inr ⟨⟨0, 1, rfl, rfl, fun _ h => h.1⟩, hsep, line_distinct⟩⟩⟩
    lineFree_bounds (fun ps hp => (nomatch hp)) 3 (by norm_num) [] (fun h => absurd h (lt_irrefl 3)) (by norm_num) (by norm_num)
    lineTargets rfl .lool (fun _ _ _ _ => .inl ⟨rfl, by norm_num [lineFree]⟩) []
  exact ⟨⟨3, 1, lineTrain, 2, fun x y => |x 0 - y 0|, false, answer⟩, batch, d, o, g, rfl, by simp [Learner.freeNames, lineFree, Learner.gp, GP.params, Kernel.named, LenScale.named], h1, h2, h3, h4, h5⟩

/-- A model with the general Matérn kernel: a free length scale within `[1, 3]`, a free smoothness within `[2, 3]` and a free noise within
`[1/1000, 1]`. -/
noncomputable def lineFreeMatern : Learner :=
  ⟨⟨.scalar ⟨Flt.fin 1, Flt.fin 1, Flt.fin 3, false⟩, some ⟨Flt.fin (5 / 2), Flt.fin 2, Flt.fin 3, false⟩⟩,
    .homoscedastic ⟨Flt.fin 1, Flt.fin (1 / 1000), Flt.fin 1, false⟩, .l2, false, .gen, .fixed, 2, 2⟩

theorem lineFreeMatern_params : lineFreeMatern.gp.params = [("length_scale", ⟨Flt.fin 1, Flt.fin 1, Flt.fin 3, false⟩),
      ("smoothness", ⟨Flt.fin (5 / 2), Flt.fin 2, Flt.fin 3, false⟩), ("noise", ⟨Flt.fin 1, Flt.fin (1 / 1000), Flt.fin 1, false⟩)] := by
  simp [lineFreeMatern, Learner.gp, GP.params, Kernel.named, LenScale.named]

theorem lineFreeMatern_bounds : lineFreeMatern.InBounds := by
  intro np hnp _
  rw [lineFreeMatern_params] at hnp
  simp only [List.mem_cons, List.not_mem_nil, or_false] at hnp
  rcases hnp with rfl | rfl | rfl
  · exact ⟨(1 : ℝ), (1 : ℝ), (3 : ℝ), rfl, rfl, rfl, le_rfl, by exact_mod_cast (by norm_num : (1 : ℝ) ≤ 3)⟩
  · exact ⟨((5 / 2 : ℝ) : EReal), (2 : ℝ), (3 : ℝ), rfl, rfl, rfl, by exact_mod_cast (by norm_num : (2 : ℝ) ≤ 5 / 2),
      by exact_mod_cast (by norm_num : (5 / 2 : ℝ) ≤ 3)⟩
  · exact ⟨(1 : ℝ), ((1 / 1000 : ℝ) : EReal), (1 : ℝ), rfl, rfl, rfl, by exact_mod_cast (by norm_num : (1 / 1000 : ℝ) ≤ 1), le_rfl⟩

/-- For smoothness at least 2 the defect at distance zero is far below a thousandth. -/
theorem deficit_two_up {s : ℝ} (hs : 2 ≤ s) : deficit s ≤ 1 / 2000 := by
  refine (Sampler.deficit_le (by linarith)).trans ?_
  have h1 : (√(2 * s) * machEps / 2) ^ 2 = s * machEps ^ 2 / 2 := by
    rw [div_pow, mul_pow, Real.sq_sqrt (by linarith)]; ring
  rw [h1, div_le_iff₀ (by linarith)]
  have h2 : machEps ^ 2 ≤ 1 / 2000 := by unfold machEps; norm_num
  nlinarith

/-- Non-vacuity of `C94_smooth_general_partial`: three free hyperparameters, among them the smoothness; the likelihood loss. -/
example : ∃ (w : NNWrapper) (batch : List Nat × Tensor Int) (d : TrainData) (o : OptLists)
    (g : (Fin lineFreeMatern.freeNames.length → ℝ) → ℝ), w.train = lineTrain ∧ lineFreeMatern.freeNames = ["length_scale", "smoothness", "noise"] ∧
      lineFreeMatern.trainData batch lineTrain lineTargets = .ok d ∧ lineFreeMatern.gp.getOptParams = .ok o ∧
      (∀ x ∈ lineFreeMatern.searchBox, arrayObjFn (lineFreeMatern.objective maternGen .lool [] d) o.names (lineFreeMatern.point x) = .ok (some (g x))) ∧
      ContDiffOn ℝ ∞ g lineFreeMatern.searchBox ∧ ∃ x ∈ lineFreeMatern.searchBox, ∀ y ∈ lineFreeMatern.searchBox, g x ≤ g y := by
  obtain ⟨answer, hw⟩ := line_exact
  have hsep := line_separated answer
  obtain ⟨batch, d, o, -, h1, h2, g, h3, h4, h5⟩ := C94_smooth_general_partial lineFreeMatern
    (by simp [Learner.Made, Learner.make, lineFreeMatern, setMaternFn]) rfl rfl _ rfl (1 / 2000)
    ⟨2, 3, rfl, rfl, fun _ h => ⟨by linarith [h.1], deficit_two_up h.1⟩⟩
    ⟨3, 1, lineTrain, 2, fun x y => |x 0 - y 0|, false, answer⟩ hw (by norm_num)
    ⟨fun p hp => by obtain rfl := LenScale.scalar.inj hp; exact line_within, fun ps hp => (nomatch hp),
      ⟨_, rfl, .inl ⟨1 / 1000, 1, rfl, rfl, fun _ h => lt_of_lt_of_le (by norm_num) h.1⟩⟩⟩
    (fun p hp => by obtain rfl := NoiseObj.homoscedastic.inj hp; exact ⟨1 / 1000, 1, rfl, rfl, fun _ h => lt_of_lt_of_le (by norm_num) h.1⟩)
    hsep line_distinct
    lineFreeMatern_bounds (fun ps hp => (nomatch hp)) 3 (by norm_num) [] (fun h => absurd h (lt_irrefl 3)) (by norm_num) (by norm_num)
    lineTargets rfl .lool (fun _ _ _ _ => .inl ⟨rfl, by norm_num [lineFreeMatern]⟩) []
  exact ⟨⟨3, 1, lineTrain, 2, fun x y => |x 0 - y 0|, false, answer⟩, batch, d, o, g, rfl,
    by simp [Learner.freeNames, lineFreeMatern_params], h1, h2, h3, h4, h5⟩

/-- The training responses 1, 1, 1. -/
def oneTargets : Tensor ℝ := ⟨[3], fun _ => 1⟩

theorem lineLearner_bounds : lineLearner.InBounds := by
  intro np hnp hf
  have hp : lineLearner.gp.params = [("length_scale", ⟨Flt.fin 1, Flt.fin 1, Flt.fin 3, false⟩),
      ("noise", ⟨Flt.fin 1, Flt.fin 0, Flt.fin 0, true⟩)] := by
    simp [lineLearner, Learner.gp, GP.params, Kernel.named, LenScale.named]
  rw [hp] at hnp
  simp only [List.mem_cons, List.not_mem_nil, or_false] at hnp
  rcases hnp with rfl | rfl
  · exact ⟨(1 : ℝ), (1 : ℝ), (3 : ℝ), rfl, rfl, rfl, le_rfl, by exact_mod_cast (by norm_num : (1 : ℝ) ≤ 3)⟩
  · cases hf

/-- The model `lineFree` with an estimated scale. -/
noncomputable def lineAnalytic : Learner := { lineFree with scaleKind := .analytic 1 }

/-- Non-vacuity of `C94_smooth_partial` with a scale estimated from the data and a free noise. -/
example (bs : Flt → ℝ → ℝ) : ∃ (w : NNWrapper) (batch : List Nat × Tensor Int) (d : TrainData) (o : OptLists)
    (g : (Fin lineAnalytic.freeNames.length → ℝ) → ℝ), w.train = lineTrain ∧ lineAnalytic.freeNames = ["length_scale", "noise"] ∧
      lineAnalytic.trainData batch lineTrain oneTargets = .ok d ∧ lineAnalytic.gp.getOptParams = .ok o ∧
      (∀ x ∈ lineAnalytic.searchBox, arrayObjFn (lineAnalytic.objective bs .lool [] d) o.names (lineAnalytic.point x) = .ok (some (g x))) ∧
      ContDiffOn ℝ ∞ g lineAnalytic.searchBox ∧ ∃ x ∈ lineAnalytic.searchBox, ∀ y ∈ lineAnalytic.searchBox, g x ≤ g y := by
  obtain ⟨answer, hw⟩ := line_exact
  obtain ⟨batch, d, o, -, h1, h2, g, h3, h4, h5⟩ := C94_smooth_partial bs lineAnalytic rfl rfl
    ⟨3, 1, lineTrain, 2, fun x y => |x 0 - y 0|, false, answer⟩ hw (by norm_num)
    ⟨fun p hp => by obtain rfl := LenScale.scalar.inj hp; exact line_within, fun ps hp => (nomatch hp),
      ⟨_, rfl, .inr ⟨⟨0, 1, rfl, rfl, fun _ h => h.1⟩, line_separated answer, line_distinct⟩⟩⟩
    lineFree_bounds (fun ps hp => (nomatch hp)) 3 (by norm_num) [] (fun h => absurd h (lt_irrefl 3)) (by norm_num) (by norm_num)
    oneTargets rfl .lool (fun batch d hb hd => .inr ⟨⟨1, rfl⟩, by
      obtain ⟨idx, nn, d', e1, e2, -, -, -, -, e3, -, -, -, e4, -, e5⟩ := regressor_data lineAnalytic
        ⟨3, 1, lineTrain, 2, fun x y => |x 0 - y 0|, false, answer⟩ hw (fun _ => 1) ⟨1, one_pos, rfl, fun _ => rfl⟩ 3 (by norm_num) []
        (fun h => absurd h (lt_irrefl 3)) (by norm_num) (by norm_num) oneTargets rfl
      rw [hb] at e1
      obtain rfl := Except.ok.inj e1
      rw [hd] at e3
      obtain rfl := Except.ok.inj e3
      have h0 : 0 < idx.length := by rw [e2]; norm_num
      have := congrFun (e5 0 h0) 0
      simp only [Spec.vec, nbrTargets, feature, oneTargets, Tensor.get] at this
      refine ⟨1, ?_, one_ne_zero⟩
      unfold entries
      refine List.mem_map.2 ⟨0, ?_, ?_⟩
      · rw [e4]; simp; omega
      · simpa [e4, Tensor.ravel] using this⟩) []
  exact ⟨⟨3, 1, lineTrain, 2, fun x y => |x 0 - y 0|, false, answer⟩, batch, d, o, g, rfl,
    by simp [Learner.freeNames, lineAnalytic, lineFree, Learner.gp, GP.params, Kernel.named, LenScale.named], h1, h2, h3, h4, h5⟩

end MuyGPyS
