import Verif.Props.Lookup
import Verif.Props.PipelineWitness

/-! # C105: concrete approximate indices that meet the hypotheses -/

namespace MuyGPyS
open Py Matrix

open Classical in
/-- An index of the points `0, 1, 2` that overlooks points: for one neighbour it always answers with the first point, and for two neighbours of the
point `2` it overlooks the point itself. -/
noncomputable def lazyIndex : Hnsw := ⟨3, 1, ⟨[3, 1], fun k => k⟩, 1, fun x y => (x 0 - y 0) ^ 2, fun q k =>
  if k = 1 then some [0] else if k = 2 ∧ q 0 = 2 then some [1, 0] else none⟩

theorem lazyIndex_row (i : Nat) : rowPt lazyIndex.train 1 i = fun _ => (i : ℝ) := by
  funext c
  have : (c : Nat) = 0 := by omega
  simp [rowPt, lazyIndex, Tensor.get, Tensor.ravel, this]

theorem lazyIndex_one (q : Fin lazyIndex.f → ℝ) : lazyIndex.answer q 1 = some [0] := by simp [lazyIndex]

theorem lazyIndex_sound : lazyIndex.Sound := by
  refine ⟨rfl, fun q k l h => ?_⟩
  unfold lazyIndex at h
  simp only at h
  split at h
  · rename_i hk
    subst hk
    cases h
    refine ⟨rfl, by simp, ?_, by simp⟩
    intro i hi
    simp only [List.mem_singleton] at hi
    subst hi
    exact three_pos
  · split at h
    · rename_i hk
      obtain ⟨rfl, hq⟩ := hk
      cases h
      refine ⟨rfl, by simp, ?_, ?_⟩
      · intro i hi
        show i < 3
        simp only [List.mem_cons, List.not_mem_nil, or_false] at hi
        omega
      · simp only [List.pairwise_cons, List.mem_singleton, forall_eq, List.not_mem_nil, false_implies, implies_true, List.Pairwise.nil, and_true]
        show (q (0 : Fin 1) - rowPt lazyIndex.train 1 1 0) ^ 2 ≤ (q (0 : Fin 1) - rowPt lazyIndex.train 1 0 0) ^ 2
        rw [lazyIndex_row, lazyIndex_row, hq]
        norm_num
    · cases h

theorem lazyIndex_finds (Q : Tensor ℝ) (m : Nat) : lazyIndex.Finds Q m lazyIndex.nnCount := fun p _ => by
  rw [show lazyIndex.nnCount = 1 from rfl, lazyIndex_one]
  simp

theorem lazyIndex_distinct : DistinctRows lazyIndex.train 3 1 := fun i hi j hj hij => by
  refine ⟨0, one_pos, ?_⟩
  simp only [feature, lazyIndex, Tensor.get, Tensor.ravel]
  norm_num
  exact_mod_cast hij

/-- Non-vacuity of `C105_lookup`: for a test point at `2` the index lists the point `0`, at the squared distance `4`. -/
example : ∃ I D, (Lookup.hnsw lazyIndex).getNns ⟨[1, 1], fun _ => 2⟩ = .ok (I, D) ∧ I.shape = [1, 1] ∧ I.get [0, 0] = 0 ∧ D.get [0, 0] = 4 := by
  obtain ⟨I, D, h1, h2, h3, h4, h5⟩ := hnsw_query_ok lazyIndex lazyIndex_sound ⟨[1, 1], fun _ => 2⟩ 1 1 rfl (lazyIndex_finds _ _)
  obtain ⟨l, e1, e2⟩ := h4 0 one_pos
  have hl : l = [0] := Option.some.inj (e1.symm.trans (lazyIndex_one _))
  subst hl
  obtain ⟨x, x1, x2⟩ := rowList_get e2 one_pos
  have hx : x = 0 := by simpa using x1.symm
  subst hx
  refine ⟨I, D, h1, h2, x2, ?_⟩
  rw [h5 0 one_pos 0 one_pos, x2]
  show (rowPt _ 1 0 0 - rowPt lazyIndex.train 1 0 0) ^ 2 = 4
  rw [lazyIndex_row]
  norm_num [rowPt, Tensor.get]

/-- Non-vacuity of `C105_batch_without_self`: the point `2`, which the index overlooks. -/
example : ∃ I D, (Lookup.hnsw lazyIndex).getBatchNns ⟨[1], fun _ => 2⟩ = .ok (I, D) ∧ I.shape = [1, 1] ∧
    ∃ l : List Nat, rowList I 1 0 = l.map Int.ofNat ∧ 2 ∉ l := by
  have hp : pointOf 3 ((⟨[1], fun _ => 2⟩ : Tensor Int).get [0]) = 2 := by decide
  have hp' : ∀ i < 1, pointOf 3 ((⟨[1], fun _ => 2⟩ : Tensor Int).get [i]) = 2 := fun i hi => by
    obtain rfl : i = 0 := by omega
    exact hp
  obtain ⟨I, D, h1, h2, -, h4⟩ := C105_batch_without_self lazyIndex lazyIndex_sound ⟨[1], fun _ => 2⟩ 1 rfl (fun k hk => by
      show Tensor.validIndex 3 2
      decide) (fun x => by show (x (0 : Fin 1) - x (0 : Fin 1)) ^ 2 = 0; simp) (fun i hi j hj hne => by
      have hne : j ≠ 2 := by rw [← hp' i hi]; exact hne
      show 0 < (rowPt lazyIndex.train 1 (pointOf 3 ((⟨[1], fun _ => 2⟩ : Tensor Int).get [i])) 0 - rowPt lazyIndex.train 1 j 0) ^ 2
      rw [hp' i hi, lazyIndex_row, lazyIndex_row]
      have : ((2 : Nat) : ℝ) - j ≠ 0 := sub_ne_zero.2 (by exact_mod_cast hne.symm)
      positivity) (fun i hi => by
      show lazyIndex.answer (rowPt lazyIndex.train 1 (pointOf 3 ((⟨[1], fun _ => 2⟩ : Tensor Int).get [i]))) 2 ≠ none
      rw [hp' i hi, lazyIndex_row]
      simp [lazyIndex])
  obtain ⟨l, e1, -, -, -, e2⟩ := h4 0 one_pos
  exact ⟨I, D, h1, h2, l, e1, by rw [← hp]; exact e2⟩

/-- Non-vacuity of `C105_regress`: a noise-free model and responses `1, 2, 3`. -/
example (bs : Flt → ℝ → ℝ) : ∃ μ v, regressLookup bs lineModel0 (.hnsw lazyIndex) ⟨[1, 1], fun _ => 2⟩ lazyIndex.train ⟨[3], fun k => k + 1⟩ = .ok (μ, v) ∧
    0 ≤ v.get [0] ∧ v.get [0] ≤ 1 := by
  obtain ⟨nn, D, μ, v, -, h2, -, -, h3⟩ := C105_regress bs lineModel0 rfl rfl rfl 0 rfl lazyIndex lazyIndex_sound (.inr ⟨le_rfl, lazyIndex_distinct⟩)
    (by show (0 : ℝ) ≤ 1; norm_num) ⟨[1, 1], fun _ => 2⟩ ⟨[3], fun k => k + 1⟩ 1 (fun _ => 1) ⟨1, one_pos, rfl, fun _ => rfl⟩ rfl rfl (lazyIndex_finds _ _)
  exact ⟨μ, v, h2, (h3 0 one_pos).2.2.1, (h3 0 one_pos).2.2.2.1⟩

/-- Non-vacuity of `C105_same_points`: an approximate index that names the exact points in the same or reverse order of the labels. -/
example (bs : Flt → ℝ → ℝ) : ∃ (w : NNWrapper) (h : Hnsw), w.Exact ∧ h.Sound ∧ ∃ μ v μ' v',
    regressLookup bs lineModel (.hnsw h) lineTest lineTrain lineTargets = .ok (μ, v) ∧
    regressLookup bs lineModel (.exact w) lineTest lineTrain lineTargets = .ok (μ', v') ∧ μ.get [0] = μ'.get [0] := by
  obtain ⟨answer, hw⟩ := line_exact
  have hs : Hnsw.Sound ⟨3, 1, lineTrain, 2, fun x y => |x 0 - y 0|, fun q k => if k ≤ 3 then some (answer q k) else none⟩ := by
    refine ⟨rfl, fun q k l h => ?_⟩
    simp only at h
    split at h
    · rename_i hk
      cases h
      have := hw.2 q k hk
      exact ⟨this.length, this.nodup, this.mem, this.sorted⟩
    · cases h
  obtain ⟨μ, v, μ', v', h1, h2, -, -, -, -, h3⟩ := C105_same_points bs lineModel rfl rfl rfl 1 rfl _ hw (.inl one_pos) (by show (0 : ℝ) ≤ 1; norm_num) _ _ hs
    lineTest lineTargets 2 two_pos two_pos (by show 2 ≤ 3; norm_num) (fun _ => 1) ⟨1, one_pos, rfl, fun _ => rfl⟩ rfl rfl
    (fun p hp => ⟨answer (rowPt lineTest 1 p) 2, if_pos (by show 2 ≤ 3; norm_num), fun x => Iff.rfl⟩)
  exact ⟨_, _, hw, hs, μ, v, μ', v', h1, h2, (h3 0 two_pos).1⟩

/-- Non-vacuity of `C105_construct`. -/
example (sk : SkFit) (hl : HnswFit) : ∃ h : Hnsw, Lookup.make sk hl true ⟨[3], fun k => k⟩ 2 "HNSW" = .ok (.hnsw h) ∧ h.N = 3 ∧ h.f = 1 := by
  obtain ⟨-, h, -⟩ := C105_construct sk hl true ⟨[3], fun k => k⟩ 3 1 2 three_pos (.inr ⟨rfl, rfl⟩) "HNSW"
  obtain ⟨x, h1, h2, h3, -⟩ := h (by decide) rfl
  exact ⟨x, h1, h2, h3⟩

end MuyGPyS
