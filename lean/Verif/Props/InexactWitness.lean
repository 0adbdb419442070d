import Verif.Props.InexactDistances
import Verif.Props.FullGPWitness

/-! # C117: its hypotheses are met -/

namespace MuyGPyS
open Py Matrix

/-- `C117_inexact`: training points `0`, `1`, `3`, two neighbours, noise 1; all covariances `1/10` too large, all responses `1/5` too small. -/
example (bs : Flt → ℝ → ℝ) : ∃ (w : NNWrapper) (μ v : Tensor ℝ) (A : Matrix (Fin w.nnCount) (Fin w.nnCount) ℝ) (c y x u : Fin w.nnCount → ℝ),
    w.Exact ∧ w.nnCount = 2 ∧ regressAny bs lineModel w lineTest w.train lineTargets = .ok (μ, v) ∧ A *ᵥ x = y ∧ A *ᵥ u = c ∧
      |c ⬝ᵥ x - μ.get [0]| ≤ Spec.computedError w.nnCount 1 (1 / 10) (1 / 10) (1 / 5) (Spec.size y) ∧
      |1 * (1 - c ⬝ᵥ u) - v.get [0]| ≤ |1| * Spec.computedError w.nnCount 1 (1 / 10) (1 / 10) (1 / 10) (Spec.size c) := by
  obtain ⟨answer, hw⟩ := line_exact
  set w : NNWrapper := ⟨3, 1, lineTrain, 2, fun x y => |x 0 - y 0|, false, answer⟩ with hwd
  obtain ⟨nn, -, h⟩ := C117_inexact bs lineModel rfl rfl rfl 1 one_pos rfl w hw lineTest 2 (fun _ => 1)
    ⟨1, one_pos, rfl, fun _ => rfl⟩ rfl two_pos (by norm_num [hwd]) (by norm_num [hwd])
  obtain ⟨μ, v, h1, -, -, h2⟩ := h lineTargets rfl
  let A : Matrix (Fin w.nnCount) (Fin w.nnCount) ℝ := fun i j =>
    (nbrCov bs lineModel.kernel (fun _ : Fin 1 => 1) w.train w.N w.nnCount nn 0 i j + if i = j then 1 else 0) + 1 / 10
  let c : Fin w.nnCount → ℝ := fun i => nbrCross bs lineModel.kernel (fun _ : Fin 1 => 1) w.train w.N w.nnCount nn 0 (rowPt lineTest w.f 0) i + 1 / 10
  let y : Fin w.nnCount → ℝ := fun i => nbrTargets lineTargets w.N w.nnCount nn 0 0 i - 1 / 5
  obtain ⟨hd, h3⟩ := h2 0 two_pos (1 / 10) (1 / 10) (1 / 5) (by norm_num) (by norm_num) (by norm_num) (by norm_num [hwd]) A c y
    (fun i j => by rw [add_sub_cancel_left, abs_of_pos (by norm_num)])
    (fun i => by rw [add_sub_cancel_left, abs_of_pos (by norm_num)])
    (fun i => by rw [sub_sub_cancel_left, abs_neg, abs_of_pos (by norm_num)])
  have hsol : ∀ z, A *ᵥ (A⁻¹ *ᵥ z) = z := fun z => by
    rw [mulVec_mulVec, mul_nonsing_inv _ (isUnit_iff_ne_zero.2 hd), one_mulVec]
  obtain ⟨g1, g2⟩ := h3 (A⁻¹ *ᵥ y) (A⁻¹ *ᵥ c) (hsol y) (hsol c)
  exact ⟨w, μ, v, A, c, y, _, _, hw, rfl, h1, hsol y, hsol c, g1, g2⟩

/-- `C117_distances`: the same points; all squared distances `1/10` too large, all responses `1/5` too small. -/
example (bs : Flt → ℝ → ℝ) : ∃ (w : NNWrapper) (nn : Tensor Int) (μ v : Tensor ℝ) (A : Matrix (Fin w.nnCount) (Fin w.nnCount) ℝ)
    (c y x u : Fin w.nnCount → ℝ), w.Exact ∧ w.nnCount = 2 ∧ regressAny bs lineModel w lineTest w.train lineTargets = .ok (μ, v) ∧
      (∀ i j, A i j = Real.exp (-(distOf .F2 (pt w.train w.f (pointOf w.N (nn.get [0, i]))) (pt w.train w.f (pointOf w.N (nn.get [0, j]))) + 1 / 10) / 2) +
        if i = j then 1 else 0) ∧ A *ᵥ x = y ∧ A *ᵥ u = c ∧
      |c ⬝ᵥ x - μ.get [0]| ≤ Spec.computedError w.nnCount 1 (1 / 10) (1 / 10) (1 / 5) (Spec.size y) ∧
      |1 * (1 - c ⬝ᵥ u) - v.get [0]| ≤ |1| * Spec.computedError w.nnCount 1 (1 / 10) (1 / 10) (1 / 10) (Spec.size c) := by
  obtain ⟨answer, hw⟩ := line_exact
  set w : NNWrapper := ⟨3, 1, lineTrain, 2, fun x y => |x 0 - y 0|, false, answer⟩ with hwd
  obtain ⟨nn, -, h⟩ := C117_distances bs lineModel rfl rfl rfl 1 one_pos rfl w hw lineTest 2 (fun _ => 1)
    ⟨1, one_pos, rfl, fun _ => rfl⟩ rfl two_pos (by norm_num [hwd]) (by norm_num [hwd])
  obtain ⟨μ, v, h1, -, -, h2⟩ := h lineTargets rfl
  have hd : ∀ {f : Nat} (x y : Fin f → ℝ), 0 ≤ distOf .F2 x y := fun x y => by rw [distOf_F2]; exact Finset.sum_nonneg fun _ _ => sq_nonneg _
  let scaled := fun (x : Fin w.f → ℝ) (c : Fin w.f) => x c / 1
  let nbr := fun i : Fin w.nnCount => scaled (pt w.train w.f (pointOf w.N (nn.get [0, i])))
  have hs : ∀ x, scaled x = x := fun x => funext fun c => div_one _
  obtain ⟨hdet, h3⟩ := h2 0 two_pos (1 / 10) (1 / 10) (1 / 5) (by norm_num) (by norm_num) (by norm_num) (by norm_num [hwd])
    (fun i j => distOf .F2 (nbr i) (nbr j) + 1 / 10) (fun i => distOf .F2 (scaled (rowPt lineTest w.f 0)) (nbr i) + 1 / 10)
    (fun i => nbrTargets lineTargets w.N w.nnCount nn 0 0 i - 1 / 5)
    (fun i j => add_nonneg (hd _ _) (by norm_num)) (fun i => add_nonneg (hd _ _) (by norm_num))
    (fun i j => by
      show |distOf .F2 (nbr i) (nbr j) + 1 / 10 - distOf .F2 (nbr i) (nbr j)| ≤ _
      rw [add_sub_cancel_left, abs_of_pos (by norm_num)])
    (fun i => by
      show |distOf .F2 (scaled (rowPt lineTest w.f 0)) (nbr i) + 1 / 10 - distOf .F2 (scaled (rowPt lineTest w.f 0)) (nbr i)| ≤ _
      rw [add_sub_cancel_left, abs_of_pos (by norm_num)])
    (fun i => by rw [sub_sub_cancel_left, abs_neg, abs_of_pos (by norm_num)])
  have hsol : ∀ (A : Matrix (Fin w.nnCount) (Fin w.nnCount) ℝ), A.det ≠ 0 → ∀ z, A *ᵥ (A⁻¹ *ᵥ z) = z := fun A hd z => by
    rw [mulVec_mulVec, mul_nonsing_inv _ (isUnit_iff_ne_zero.2 hd), one_mulVec]
  obtain ⟨g1, g2⟩ := h3 _ _ (hsol _ hdet _) (hsol _ hdet _)
  refine ⟨w, nn, μ, v, _, _, _, _, _, hw, rfl, h1, fun i j => ?_, hsol _ hdet _, hsol _ hdet _, g1, g2⟩
  show Real.exp (-(distOf .F2 (nbr i) (nbr j) + 1 / 10) / 2) + _ = _
  simp only [nbr, hs]

end MuyGPyS
