import Verif.Model.ShearReference
import Verif.Props.ShearTrain
import Verif.Props.SamplerLaw

/-!
# C98: the conventional shear Gaussian process of `_test/shear.py`
-/

namespace MuyGPyS
namespace Shear
open Py Py.Tensor Matrix

/-- The reference formulas are the covariances of the derivatives. -/
theorem kernelF_covariance (ℓ : ℝ) (hℓ : ℓ ≠ 0) (a c : Fin 3) (s t : ℝ × ℝ) :
    shearKernelF s.1 s.2 t.1 t.2 1 ℓ a c = covariance ℓ a c s t := by
  rw [covariance_eq_block ℓ hℓ]
  have e1 : (1 : ℕ) ≠ 0 := one_ne_zero
  fin_cases a <;> fin_cases c <;>
    simp only [shearKernelF, kkF, kg1F, kg2F, g1g1F, g1g2F, g2g2F, block33, kk, kg1, kg2, g1g1, g1g2, g2g2, stats,
      Finset.sum_range_succ, Finset.sum_range_zero, Finset.prod_range_succ, Finset.prod_range_zero, if_true, e1, if_false, zero_add, one_mul] <;>
    ring

/-- Position of quantity `a` of point `i` among `n` points. -/
theorem flat_lt {a : Fin 3} {i n : Nat} (hi : i < n) : a * n + i < 3 * n := by
  have := a.2
  nlinarith

/-- **C98**, covariances: the entries of `conventional_shear` are the covariances of the three quantities at the points, for all points and every
length scale. -/
theorem C98_covariance (X1 X2 : Tensor ℝ) (n1 n2 : Nat) (h1 : X1.shape = [n1, 2]) (h2 : X2.shape = [n2, 2]) (ℓ : ℝ) (hℓ : ℓ ≠ 0) :
    conventionalShear X1 none ℓ = conventionalShear X1 (some X1) ℓ ∧
    ∃ T, conventionalShear X1 (some X2) ℓ = .ok T ∧ T.shape = [3 * n1, 3 * n2] ∧
      ∀ a c : Fin 3, ∀ i < n1, ∀ j < n2, T.get [a * n1 + i, c * n2 + j] = covariance ℓ a c (planePt X1 i) (planePt X2 j) := by
  refine ⟨rfl, ?_⟩
  unfold conventionalShear
  simp only [Option.getD_some, h1, h2]
  rw [if_neg (by simp)]
  refine ⟨_, rfl, rfl, fun a c i hi j hj => ?_⟩
  rw [get_ofFn _ _ _ (.cons (flat_lt hi) (.cons (flat_lt hj) .nil))]
  simp only [List.getD_cons_zero, List.getD_cons_succ, div_aux hi, mod_aux hi, div_aux hj, mod_aux hj]
  exact kernelF_covariance ℓ hℓ a c (planePt X1 i) (planePt X2 j)

/-! ## the library's kernels, flattened -/

theorem filter_ne_one_prod (l : List Nat) : (l.filter (· ≠ 1)).prod = l.prod := by
  induction l with
  | nil => rfl
  | cons a l ih =>
    by_cases h : a = 1
    · subst h; simpa using ih
    · rw [List.filter_cons_of_pos (by simpa using h), List.prod_cons, List.prod_cons, ih]

theorem crosswiseVector_ok {X1 X2 : Tensor ℝ} {n1 n2 : Nat} (h1 : X1.shape = [n1, 2]) (h2 : X2.shape = [n2, 2]) :
    ∃ D, crosswiseVector X1 X2 (arange n1) (arange n2) = .ok D ∧ D.shape = [n1, n2, 2] ∧
      ∀ i < n1, ∀ j < n2, D.get [i, j, 0] = (planePt X1 i).1 - (planePt X2 j).1 ∧
        D.get [i, j, 1] = (planePt X1 i).2 - (planePt X2 j).2 := by
  have hcl : ∀ {a i : Nat}, i < a → (if a = 1 then 0 else i) = i := fun h => by split <;> omega
  obtain ⟨t1, a1, a2, a3⟩ := take_mat h1 (arange_valid n1)
  obtain ⟨t2, b1, b2, b3⟩ := take_mat h2 (arange_valid n2)
  have a2' : t1.shape = [n1, 2] := a2
  have b2' : t2.shape = [n2, 2] := b2
  obtain ⟨T, e1, e2, e3⟩ := Tensor.bop_get (· - ·) (⟨[n1, 1, 2], t1.flat⟩ : Tensor ℝ) (⟨[1, n2, 2], t2.flat⟩ : Tensor ℝ) [n1, n2, 2]
    (by simp [Tensor.bcShape])
  have val : ∀ i < n1, ∀ j < n2, ∀ c < 2, T.get [i, j, c] = feature X1 i c - feature X2 j c := fun i hi j hj c hc => by
    rw [e3 [i, j, c] (Tensor.lt3 hi hj hc)]
    simp only [Tensor.clipIdx, List.zipWith_cons_cons, List.zipWith_nil_left, hcl hi, hcl hj, if_true]
    have hc' : (if (2 : Nat) = 1 then 0 else c) = c := if_neg (by omega)
    rw [hc']
    congr 1
    · rw [Tensor.get3 _ rfl]
      simp only
      have : i * (1 * 2) + 0 * 2 + c = i * 2 + c := by ring
      rw [this, a3 _ c hc]
      exact congrArg (fun u => feature X1 u c) (pointOf_nat n1 i)
    · rw [Tensor.get3 _ rfl]
      simp only
      have : 0 * (n2 * 2) + j * 2 + c = j * 2 + c := by ring
      rw [this, b3 _ c hc]
      exact congrArg (fun u => feature X2 u c) (pointOf_nat n2 j)
  refine ⟨T, ?_, e2, fun i hi j hj => ⟨?_, ?_⟩⟩
  · unfold crosswiseVector
    simp only [a1, b1, a2', b2']
    exact e1
  · rw [val i hi j hj 0 (by omega), (feature_plane h1 i).1, (feature_plane h2 j).1]
  · rw [val i hi j hj 1 (by omega), (feature_plane h1 i).2, (feature_plane h2 j).2]

theorem pairwiseVector_plane {X : Tensor ℝ} {n : Nat} (h : X.shape = [n, 2]) :
    ∃ D, Sampler.pairwiseVector X (arange n) = .ok D ∧ D.shape = [n, n, 2] ∧
      ∀ i < n, ∀ j < n, D.get [i, j, 0] = (planePt X i).1 - (planePt X j).1 ∧
        D.get [i, j, 1] = (planePt X i).2 - (planePt X j).2 := by
  obtain ⟨D, h1, h2, h3⟩ := Sampler.pairwiseVector_ok X n 2 (.inl h)
  refine ⟨D, h1, h2, fun i hi j hj => ⟨?_, ?_⟩⟩
  · rw [h3 i j 0 hi hj (by omega), (feature_plane h i).1, (feature_plane h j).1]
  · rw [h3 i j 1 hi hj (by omega), (feature_plane h i).2, (feature_plane h j).2]

/-- The backend functions without a batch axis, flattened to a matrix. -/
theorem assemble_flat (rows cols : Nat) (block : Stats → Nat → Nat → ℝ) (ℓ : ℝ) (n m : Nat) (D : Tensor ℝ) (hD : D.shape = [n, m, 2]) :
    ∃ K F, assemble rows cols block ℓ D = .ok K ∧ K.reshape [rows * n, cols * m] = .ok F ∧ F.shape = [rows * n, cols * m] ∧
      ∀ a < rows, ∀ i < n, ∀ c < cols, ∀ j < m,
        F.get [a * n + i, c * m + j] = block (stats 2 ℓ fun k => D.get [i, j, k]) a c := by
  obtain ⟨U, h1, h2, h3⟩ := assemble_ok rows cols block ℓ [] n m 2 (le_refl _) D hD
  refine ⟨U.squeeze, ⟨[rows * n, cols * m], U.flat⟩, h1, ?_, rfl, fun a ha i hi c hc j hj => ?_⟩
  · refine reshape_ok _ _ ?_
    show _ = (U.shape.filter (· ≠ 1)).prod
    rw [filter_ne_one_prod, h2]
    simp only [List.nil_append, List.prod_cons, List.prod_nil]
    ring
  · have := h3 [] .nil a ha i hi c hc j hj
    simp only [List.nil_append] at this
    rw [← this, Tensor.get2 _ rfl, Tensor.get4 U h2]
    show U.flat _ = U.flat _
    congr 1
    ring

/-- Two matrices with the same shape and the same entries. -/
def SameMatrix (r c : Nat) (A B : Tensor ℝ) : Prop :=
  A.shape = [r, c] ∧ B.shape = [r, c] ∧ ∀ i < r, ∀ j < c, A.get [i, j] = B.get [i, j]

theorem sameMatrix_of_blocks {rows cols n m : Nat} {A B : Tensor ℝ} (hA : A.shape = [rows * n, cols * m]) (hB : B.shape = [rows * n, cols * m])
    (h : ∀ a < rows, ∀ i < n, ∀ c < cols, ∀ j < m, A.get [a * n + i, c * m + j] = B.get [a * n + i, c * m + j]) :
    SameMatrix (rows * n) (cols * m) A B := by
  refine ⟨hA, hB, fun i hi j hj => ?_⟩
  have hn : 0 < n := Nat.pos_of_ne_zero fun h => by subst h; simp at hi
  have hm : 0 < m := Nat.pos_of_ne_zero fun h => by subst h; simp at hj
  have := h (i / n) (Nat.div_lt_of_lt_mul (by rwa [Nat.mul_comm])) (i % n) (Nat.mod_lt _ hn) (j / m)
    (Nat.div_lt_of_lt_mul (by rwa [Nat.mul_comm])) (j % m) (Nat.mod_lt _ hm)
  rwa [Nat.div_add_mod', Nat.div_add_mod'] at this

theorem dropBlock_get {A : Tensor ℝ} {r c : Nat} (hA : A.shape = [r, c]) (u v : Nat) :
    (dropBlock u v A).shape = [r - u, c - v] ∧ ∀ i < r - u, ∀ j < c - v, (dropBlock u v A).get [i, j] = A.get [u + i, v + j] := by
  unfold dropBlock
  simp only [hA]
  refine ⟨rfl, fun i hi j hj => ?_⟩
  rw [get_ofFn _ _ _ (.cons hi (.cons hj .nil))]
  rfl

/-- **C98**, kernels: for all points, the two shear kernels of the library give, flattened, the matrices of `conventional_shear`: the full kernel
of pairwise differences (with and without `adjust`) and of crosswise differences (`adjust=False`), the two-shear kernel of pairwise differences
(the block of the shears) and of crosswise differences (`force_Kcross=True`; the rows of the shears). -/
theorem C98_kernels (k : Kern) (hℓ : k.lengthScale ≠ 0) (X1 X2 : Tensor ℝ) (n1 n2 : Nat) (h1 : X1.shape = [n1, 2]) (h2 : X2.shape = [n2, 2]) :
    ∃ Dp Dc A B, Sampler.pairwiseVector X1 (arange n1) = .ok Dp ∧ crosswiseVector X1 X2 (arange n1) (arange n2) = .ok Dc ∧
      conventionalShear X1 none k.lengthScale = .ok A ∧ conventionalShear X1 (some X2) k.lengthScale = .ok B ∧
      (∀ adjust, ∃ K F, k.call33 Dp adjust = .ok K ∧ K.reshape [3 * n1, 3 * n1] = .ok F ∧ SameMatrix (3 * n1) (3 * n1) F A) ∧
      (∃ K F, k.call33 Dc false = .ok K ∧ K.reshape [3 * n1, 3 * n2] = .ok F ∧ SameMatrix (3 * n1) (3 * n2) F B) ∧
      (∀ adjust, ∃ K F, k.call23 Dp adjust = .ok K ∧ K.reshape [2 * n1, 2 * n1] = .ok F ∧
        SameMatrix (2 * n1) (2 * n1) F (dropBlock n1 n1 A)) ∧
      ∀ adjust, ∃ K F, k.call23 Dc adjust true = .ok K ∧ K.reshape [2 * n1, 3 * n2] = .ok F ∧
        SameMatrix (2 * n1) (3 * n2) F (dropBlock n1 0 B) := by
  obtain ⟨Dp, p1, p2, p3⟩ := pairwiseVector_plane h1
  obtain ⟨Dc, c1, c2, c3⟩ := crosswiseVector_ok h1 h2
  obtain ⟨-, A, a1, a2, a3⟩ := C98_covariance X1 X1 n1 n1 h1 h1 k.lengthScale hℓ
  obtain ⟨-, B, b1, b2, b3⟩ := C98_covariance X1 X2 n1 n2 h1 h2 k.lengthScale hℓ
  have e1 : ∀ (s : Stats) (a c : Fin 2), blockIn23 k.lengthScale s a c = block33 k.lengthScale s a.succ c.succ := by
    intro s a c; fin_cases a <;> fin_cases c <;> rfl
  have e2 : ∀ (s : Stats) (a : Fin 2) (c : Fin 3), blockCross23 k.lengthScale s a c = block33 k.lengthScale s a.succ c := by
    intro s a c; fin_cases a <;> fin_cases c <;> rfl
  refine ⟨Dp, Dc, A, B, p1, c1, a1, b1, fun adjust => ?_, ?_, fun adjust => ?_, fun adjust => ?_⟩
  · obtain ⟨K, F, k1, k2, k3, k4⟩ := assemble_flat 3 3 (block33 k.lengthScale) k.lengthScale n1 n1 Dp p2
    refine ⟨K, F, ?_, k2, sameMatrix_of_blocks k3 a2 fun a ha i hi c hc j hj => ?_⟩
    · unfold Kern.call33
      cases adjust
      · exact k1
      · simp only [if_true, adjust_square p2, bind, Except.bind]
        exact k1
    · rw [k4 a ha i hi c hc j hj]
      exact (block33_covariance _ hℓ ⟨a, ha⟩ ⟨c, hc⟩ _ _ _ (p3 i hi j hj).1 (p3 i hi j hj).2).trans (a3 ⟨a, ha⟩ ⟨c, hc⟩ i hi j hj).symm
  · obtain ⟨K, F, k1, k2, k3, k4⟩ := assemble_flat 3 3 (block33 k.lengthScale) k.lengthScale n1 n2 Dc c2
    refine ⟨K, F, k1, k2, sameMatrix_of_blocks k3 b2 fun a ha i hi c hc j hj => ?_⟩
    rw [k4 a ha i hi c hc j hj]
    exact (block33_covariance _ hℓ ⟨a, ha⟩ ⟨c, hc⟩ _ _ _ (c3 i hi j hj).1 (c3 i hi j hj).2).trans (b3 ⟨a, ha⟩ ⟨c, hc⟩ i hi j hj).symm
  · obtain ⟨K, F, k1, k2, k3, k4⟩ := assemble_flat 2 2 (blockIn23 k.lengthScale) k.lengthScale n1 n1 Dp p2
    obtain ⟨d1, d2⟩ := dropBlock_get a2 n1 n1
    have hsub : 3 * n1 - n1 = 2 * n1 := by omega
    rw [hsub] at d1 d2
    refine ⟨K, F, ?_, k2, sameMatrix_of_blocks k3 d1 fun a ha i hi c hc j hj => ?_⟩
    · unfold Kern.call23
      cases adjust
      · exact k1
      · simp only [Bool.false_eq_true, if_false, if_true, adjust_square p2, bind, Except.bind]
        exact k1
    · rw [k4 a ha i hi c hc j hj, d2 _ (by nlinarith) _ (by nlinarith)]
      refine (e1 _ ⟨a, ha⟩ ⟨c, hc⟩).trans ((block33_covariance _ hℓ _ _ _ _ _ (p3 i hi j hj).1 (p3 i hi j hj).2).trans
        ((a3 (Fin.succ ⟨a, ha⟩) (Fin.succ ⟨c, hc⟩) i hi j hj).symm.trans ?_))
      simp only [Fin.succ_mk]
      congr 2
      · ring
      · congr 1; ring
  · obtain ⟨K, F, k1, k2, k3, k4⟩ := assemble_flat 2 3 (blockCross23 k.lengthScale) k.lengthScale n1 n2 Dc c2
    obtain ⟨d1, d2⟩ := dropBlock_get b2 n1 0
    have hsub : 3 * n1 - n1 = 2 * n1 := by omega
    rw [hsub] at d1 d2
    refine ⟨K, F, k1, k2, sameMatrix_of_blocks k3 d1 fun a ha i hi c hc j hj => ?_⟩
    rw [k4 a ha i hi c hc j hj, d2 _ (by nlinarith) _ (by simp only [Nat.sub_zero]; nlinarith)]
    refine (e2 _ ⟨a, ha⟩ ⟨c, hc⟩).trans ((block33_covariance _ hℓ _ _ _ _ _ (c3 i hi j hj).1 (c3 i hi j hj).2).trans
      ((b3 (Fin.succ ⟨a, ha⟩) ⟨c, hc⟩ i hi j hj).symm.trans ?_))
    simp only [Fin.succ_mk]
    congr 2
    · ring
    · congr 1; ring

end Shear
end MuyGPyS
