import Verif.Props.SmoothClasses
import Verif.Props.SmoothWitness

/-! # C94 with several classes: a concrete case -/

namespace MuyGPyS
open Py
open scoped ContDiff

/-- Three points of three classes, one-hot. -/
def threeClasses : Tensor ℝ := ⟨[3, 3], fun k => if k % 4 = 0 then 1 else 0⟩

/-- The classes as numbers. -/
def threeNames : Tensor ℝ := ⟨[3], fun k => k⟩

theorem threeNames_get (i : Nat) : threeNames.get [i] = i := by
  rw [Tensor.get1 _ (show threeNames.shape = [3] from rfl)]; rfl

/-- Non-vacuity of `C94_classes_partial`: three classes, the cross entropy, and the batch that `get_balanced_batch` draws for a classifier. -/
example (bs : Flt → ℝ → ℝ) : ∃ (w : NNWrapper) (idx : List Nat) (nn : Tensor Int), w.train = lineTrain ∧ idx ≠ [] ∧
    getBalancedBatch w threeNames 3 [] = .ok (idx, nn) ∧ lineLearner.ScoresSmooth bs w idx nn threeClasses 3 := by
  obtain ⟨answer, hw⟩ := line_exact
  let w : NNWrapper := ⟨3, 1, lineTrain, 2, fun x y => |x 0 - y 0|, false, answer⟩
  obtain ⟨F, nn, I, D, f1, f2, f3, f4, f5, f6⟩ := C43_filtered_partial w hw threeNames rfl (fun i _ => ⟨(i : ℤ), by rw [threeNames_get]; simp⟩) two_pos (le_refl 3)
  have hb : getBalancedBatch w threeNames 3 [] = .ok (F, nn) := by
    unfold getBalancedBatch
    simp only [threeNames]
    rw [if_neg (by norm_num)]
    exact f2
  have hF : F ≠ [] := by
    have : 0 ∈ F := (f4 0).2 ⟨by norm_num, by
      obtain ⟨I', D', i1, i2, -, i3⟩ := C41_batch_always w hw (arange 3) 3 rfl (arange_valid _) (by norm_num) (le_refl 3)
      obtain ⟨rfl, rfl⟩ := Prod.mk.inj (Except.ok.inj (f1.symm.trans i1))
      obtain ⟨l, e1, e2, e3, e4, -⟩ := i3 0 (by norm_num)
      obtain ⟨x, x1, x2⟩ := rowList_get (j := 0) e1 (by norm_num)
      obtain ⟨y, y1, y2⟩ := rowList_get (j := 1) e1 (by norm_num)
      refine ⟨0, two_pos, 1, one_lt_two, ?_⟩
      rw [x2, y2, Int.toNat_natCast, Int.toNat_natCast, threeNames_get, threeNames_get]
      intro h
      have hxy : x = y := by exact_mod_cast h
      subst hxy
      have h0 := (List.getElem?_eq_some_iff.1 x1)
      have h1 := (List.getElem?_eq_some_iff.1 y1)
      obtain ⟨a0, b0⟩ := h0
      obtain ⟨a1, b1⟩ := h1
      exact absurd ((e3.getElem_inj_iff (hi := a0) (hj := a1)).1 (b0.trans b1.symm)) (by norm_num)⟩
    exact List.ne_nil_of_mem this
  refine ⟨w, F, nn, rfl, hF, hb, ?_⟩
  exact C94_classes_partial bs lineLearner rfl rfl w hw (by norm_num)
    ⟨fun p hp => by obtain rfl := LenScale.scalar.inj hp; exact line_within, fun ps hp => (nomatch hp),
      ⟨_, rfl, .inl ⟨1, Set.mem_Ioi.2 one_pos, rfl⟩⟩⟩
    lineLearner_bounds (fun ps hp => (nomatch hp)) (by norm_num) (le_refl 3) F nn (.inr ⟨threeNames, 3, [], rfl, hb⟩) hF threeClasses 3 rfl (by norm_num)

/-- Non-vacuity of `C94_classes_general_partial`: three free hyperparameters, among them the smoothness, and the batch `sample_batch` draws. -/
example : ∃ (w : NNWrapper) (idx : List Nat) (nn : Tensor Int), w.train = lineTrain ∧ idx ≠ [] ∧
    sampleBatch w 3 3 [] = .ok (idx, nn) ∧ lineFreeMatern.ScoresSmooth maternGen w idx nn threeClasses 3 := by
  obtain ⟨answer, hw⟩ := line_exact
  let w : NNWrapper := ⟨3, 1, lineTrain, 2, fun x y => |x 0 - y 0|, false, answer⟩
  obtain ⟨idx, nn, b1, b2, -⟩ := C42_batch w hw 3 (by norm_num) (by norm_num) [] (fun h => absurd h (lt_irrefl 3)) (le_refl 3)
  have hidx : idx ≠ [] := fun h => by rw [h] at b2; exact absurd b2 (by norm_num [w])
  refine ⟨w, idx, nn, rfl, hidx, b1, ?_⟩
  exact C94_classes_general_partial lineFreeMatern
    (by simp [Learner.Made, Learner.make, lineFreeMatern, setMaternFn]) rfl rfl _ rfl (1 / 2000)
    ⟨2, 3, rfl, rfl, fun _ h => ⟨by linarith [h.1], deficit_two_up h.1⟩⟩ w hw (by norm_num)
    ⟨fun p hp => by obtain rfl := LenScale.scalar.inj hp; exact line_within, fun ps hp => (nomatch hp),
      ⟨_, rfl, .inl ⟨1 / 1000, 1, rfl, rfl, fun _ h => lt_of_lt_of_le (by norm_num) h.1⟩⟩⟩
    (fun p hp => by obtain rfl := NoiseObj.homoscedastic.inj hp; exact ⟨1 / 1000, 1, rfl, rfl, fun _ h => lt_of_lt_of_le (by norm_num) h.1⟩)
    line_distinct lineFreeMatern_bounds (fun ps hp => (nomatch hp)) (by norm_num) (le_refl 3) idx nn
    (.inl ⟨3, [], by norm_num, fun h => absurd h (lt_irrefl 3), b1⟩) hidx threeClasses 3 rfl (by norm_num)

end MuyGPyS
