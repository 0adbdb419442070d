import Verif.Props.UqPipeline
import Verif.Props.MultiPipelineWitness

/-! # C67: a test point on the decision boundary that is not flagged, and concrete data for the theorems -/

namespace MuyGPyS
open Py Matrix

/-- Four training points at 1 and one at 50; the test point 0. -/
def coTrain : Tensor ℝ := ⟨[5, 1], fun k => if k < 4 then 1 else 50⟩
def coTest : Tensor ℝ := ⟨[1, 1], fun _ => 0⟩

/-- Two classes: the first two points belong to the first, the others to the second; `a` marks the class, `b` the other one. -/
def coLabels (a b : ℝ) : Tensor ℝ := ⟨[5, 2], fun k => if k = 0 ∨ k = 2 ∨ k = 5 ∨ k = 7 ∨ k = 9 then a else b⟩

/-- An index with four neighbours. -/
def coIndex (answer : (Fin 1 → ℝ) → Nat → List Nat) : NNWrapper := ⟨5, 1, coTrain, 4, fun x y => |x 0 - y 0|, false, answer⟩

theorem co_exact : ∃ answer, (coIndex answer).Exact := exact_index_exists 5 1 4 coTrain rfl (fun x y => |x 0 - y 0|) false

theorem coLabels_get (a b : ℝ) : ∀ i < 5, (coLabels a b).get [i, 0] = (if i < 2 then a else b) ∧
    (coLabels a b).get [i, 1] = if i < 2 then b else a := by
  intro i hi
  rw [Tensor.get2 _ rfl, Tensor.get2 _ rfl]
  interval_cases i <;> simp [coLabels]

theorem coLabels_dec {a b : ℝ} (hab : a ≠ b) : FirstColumnDecides (coLabels a b) 5 2 := by
  intro i hi k hk e c hc
  rw [(coLabels_get a b i hi).1, (coLabels_get a b k hk).1] at e
  interval_cases c
  · rw [(coLabels_get a b i hi).1, (coLabels_get a b k hk).1, e]
  · rw [(coLabels_get a b i hi).2, (coLabels_get a b k hk).2]
    split_ifs at e ⊢ with h1 h2 h2
    · rfl
    · exact absurd e hab
    · exact absurd e.symm hab
    · rfl

theorem fixed_classifier (opt : Learner → TrainData → Res Learner) (w : NNWrapper) (labels : Tensor ℝ) :
    makeClassifier opt [] 5 w lineFixed labels = .ok lineFixed := by
  unfold makeClassifier
  rw [fixed_of_params (by simp [lineFixed]) lineFixed_fixed]
  rfl

/-- Kriging from four equally correlated neighbours at one place with unit noise. -/
theorem kriging_co (κ : ℝ) (y : Fin 4 → ℝ) :
    Spec.krigingMean ((Matrix.of fun _ _ : Fin 4 => (1 : ℝ)) + 1) (fun _ => κ) y = κ / 5 * ∑ j, y j := by
  set K : Matrix (Fin 4) (Fin 4) ℝ := (Matrix.of fun _ _ => (1 : ℝ)) + 1 with hK
  set α : Fin 4 → ℝ := fun j => y j - (∑ j, y j) / 5 with hα
  have hKα : K *ᵥ α = y := by
    funext i
    rw [hK, Matrix.add_mulVec, Matrix.one_mulVec, Pi.add_apply]
    simp only [Matrix.mulVec, dotProduct, Matrix.of_apply, one_mul, hα, Finset.sum_sub_distrib, Finset.sum_const, Finset.card_univ,
      Fintype.card_fin, nsmul_eq_mul]
    push_cast
    ring
  have hdet : IsUnit K.det := by
    have hp : K.PosDef := by
      refine PosDef.posSemidef_add ?_ PosDef.one
      have : (Matrix.of fun _ _ : Fin 4 => (1 : ℝ)) = Matrix.vecMulVec (fun _ => 1) (star fun _ => 1) := by
        ext i j; simp [Matrix.vecMulVec_apply]
      rw [this]
      exact Matrix.posSemidef_vecMulVec_self_star _
    exact (Kriging.det_ne_zero hp).isUnit
  have hinv : K⁻¹ *ᵥ y = α := by
    rw [← hKα, Matrix.mulVec_mulVec, Matrix.nonsing_inv_mul _ hdet, Matrix.one_mulVec]
  unfold Spec.krigingMean
  rw [hinv]
  simp only [dotProduct, hα, ← Finset.mul_sum, Finset.sum_sub_distrib, Finset.sum_const, Finset.card_univ, Fintype.card_fin, nsmul_eq_mul]
  push_cast
  ring

theorem co_row (i : Nat) (hi : i < 4) : rowPt coTrain 1 i = fun _ => 1 := by
  funext c
  have hc : (c : ℕ) = 0 := by omega
  show coTrain.get [i, (c : ℕ)] = 1
  rw [Tensor.get2 _ rfl, hc]
  show (if i * 1 + 0 < 4 then (1 : ℝ) else 50) = 1
  rw [if_pos (by omega)]

/-- The neighbours of the test point are the four points at 1. -/
theorem co_neighbours (answer : (Fin 1 → ℝ) → Nat → List Nat) (I : Tensor Int)
    (h : ∃ l : List Nat, rowList I 4 0 = l.map Int.ofNat ∧ Nearest (· < 5) (fun j => |rowPt coTest 1 0 0 - rowPt coTrain 1 j 0|) 4 l) :
    ∃ l : List Nat, rowList I 4 0 = l.map Int.ofNat ∧ l.Perm [0, 1, 2, 3] := by
  obtain ⟨l, l1, l2⟩ := h
  refine ⟨l, l1, ?_⟩
  have h4 : 4 ∉ l := by
    intro h4
    have : ∃ i < 4, i ∉ l := by
      by_contra hall
      push Not at hall
      have hsub : [0, 1, 2, 3, 4] ⊆ l := by
        intro x hx
        simp only [List.mem_cons, List.not_mem_nil, or_false] at hx
        rcases hx with rfl | rfl | rfl | rfl | rfl
        · exact hall _ (by norm_num)
        · exact hall _ (by norm_num)
        · exact hall _ (by norm_num)
        · exact hall _ (by norm_num)
        · exact h4
      have := (List.Nodup.subperm (by decide) hsub).length_le
      rw [l2.length] at this
      simp at this
    obtain ⟨i, hi, hil⟩ := this
    have hn := l2.nearest 4 h4 i (by omega) hil
    rw [co_row i hi] at hn
    have e4 : rowPt coTrain 1 4 0 = 50 := by simp [rowPt, coTrain, Tensor.get, Tensor.ravel]
    have e0 : rowPt coTest 1 0 0 = 0 := rfl
    rw [e4, e0] at hn
    norm_num at hn
  refine (List.Nodup.subperm l2.nodup ?_).perm_of_length_le (by rw [l2.length]; rfl)
  intro x hx
  have := l2.mem x hx
  have hx4 : x ≠ 4 := fun e => h4 (e ▸ hx)
  simp only [List.mem_cons, List.not_mem_nil, or_false]
  omega

theorem co_mean (bs : Flt → ℝ → ℝ) (a b : ℝ) (I : Tensor Int) (l : List Nat) (h1 : rowList I 4 0 = l.map Int.ofNat)
    (h2 : l.Perm [0, 1, 2, 3]) (c : Nat) (hc : c < 2) :
    Spec.krigingMean (nbrCov bs lineFixed.trainee.R.kernel (fun _ : Fin 1 => 1) coTrain 5 4 I 0 + lineFixed.trainee.R.gp.noise.mat 4 0)
      (nbrCross bs lineFixed.trainee.R.kernel (fun _ : Fin 1 => 1) coTrain 5 4 I 0 (rowPt coTest 1 0))
      (nbrTargets (coLabels a b) 5 4 I 0 c) = Real.exp (-1 / 2) / 5 * (2 * a + 2 * b) := by
  have hx : ∀ j : Fin 4, ∃ x, l[(j : Nat)]? = some x ∧ I.get [0, j] = (x : Int) ∧ x < 4 := by
    intro j
    obtain ⟨x, x1, x2⟩ := rowList_get h1 j.2
    refine ⟨x, x1, x2, ?_⟩
    have := h2.mem_iff.mp (List.mem_of_getElem? x1)
    simp only [List.mem_cons, List.not_mem_nil, or_false] at this
    omega
  have hcov : ∀ x y : Fin 1 → ℝ, lineFixed.trainee.R.kernel.covFn bs (fun _ => 1) x y = Real.exp (-(x 0 - y 0) ^ 2 / 2) :=
    line_cov bs
  have hK : nbrCov bs lineFixed.trainee.R.kernel (fun _ : Fin 1 => 1) coTrain 5 4 I 0 + lineFixed.trainee.R.gp.noise.mat 4 0 =
      (Matrix.of fun _ _ : Fin 4 => (1 : ℝ)) + 1 := by
    have hmat : lineFixed.trainee.R.gp.noise.mat 4 0 = 1 := by
      show (1 : ℝ) • (1 : Matrix (Fin 4) (Fin 4) ℝ) = 1
      rw [one_smul]
    rw [hmat]
    congr 1
    ext i j
    obtain ⟨x, -, x2, x3⟩ := hx i
    obtain ⟨y, -, y2, y3⟩ := hx j
    show nbrCov bs lineFixed.trainee.R.kernel (fun _ : Fin 1 => 1) coTrain 5 4 I 0 i j = 1
    unfold nbrCov
    rw [x2, y2, pointOf_nat, pointOf_nat, rowPt_pt (show coTrain.shape = [5, 1] from rfl), rowPt_pt (show coTrain.shape = [5, 1] from rfl),
      co_row x x3, co_row y y3, hcov]
    simp
  have hk : nbrCross bs lineFixed.trainee.R.kernel (fun _ : Fin 1 => 1) coTrain 5 4 I 0 (rowPt coTest 1 0) = fun _ => Real.exp (-1 / 2) := by
    funext j
    obtain ⟨y, -, y2, y3⟩ := hx j
    unfold nbrCross
    rw [y2, pointOf_nat, rowPt_pt (show coTrain.shape = [5, 1] from rfl), co_row y y3, hcov]
    have e0 : rowPt coTest 1 0 0 = 0 := rfl
    rw [e0]
    norm_num
  rw [hK, hk, kriging_co]
  congr 1
  have hsum : ∑ j, nbrTargets (coLabels a b) 5 4 I 0 c j = (l.map fun x => (coLabels a b).get [x, c]).sum := by
    have hlen : l.length = 4 := h2.length_eq
    have : (l.map fun x => (coLabels a b).get [x, c]) = List.ofFn (nbrTargets (coLabels a b) 5 4 I 0 c) := by
      apply List.ext_getElem (by simp [hlen])
      intro i hi hi'
      have hi4 : i < 4 := by simpa using hi'
      obtain ⟨x, x1, x2, -⟩ := hx ⟨i, hi4⟩
      simp only [List.getElem_map, List.getElem_ofFn]
      have hg : l[i]'(by omega) = x := by
        have := List.getElem?_eq_getElem (l := l) (i := i) (by omega)
        exact Option.some.inj (this.symm.trans x1)
      rw [hg]
      unfold nbrTargets
      rw [x2, pointOf_nat]
      rfl
    rw [this, List.sum_ofFn]
  rw [hsum, (h2.map _).sum_eq]
  interval_cases c
  · simp [(coLabels_get a b 0 (by norm_num)).1, (coLabels_get a b 1 (by norm_num)).1, (coLabels_get a b 2 (by norm_num)).1,
      (coLabels_get a b 3 (by norm_num)).1]
    ring
  · simp [(coLabels_get a b 0 (by norm_num)).2, (coLabels_get a b 1 (by norm_num)).2, (coLabels_get a b 2 (by norm_num)).2,
      (coLabels_get a b 3 (by norm_num)).2]
    ring

theorem co_mixed {a b : ℝ} (hab : a ≠ b) (I : Tensor Int) (l : List Nat) (h1 : rowList I 4 0 = l.map Int.ofNat)
    (h2 : l.Perm [0, 1, 2, 3]) : ¬ SameLabel (coLabels a b) I 4 2 0 := by
  intro hs
  have hpos : ∀ x : Nat, x < 4 → ∃ j < 4, (I.get [0, j]).toNat = x := by
    intro x hx
    have hm : x ∈ l := h2.mem_iff.mpr (by simp only [List.mem_cons, List.not_mem_nil, or_false]; omega)
    obtain ⟨j, hj, hjx⟩ := List.mem_iff_getElem.mp hm
    have hj4 : j < 4 := by rw [h2.length_eq] at hj; exact hj
    obtain ⟨y, y1, y2⟩ := rowList_get h1 hj4
    rw [List.getElem?_eq_getElem hj, hjx] at y1
    exact ⟨j, hj4, by rw [y2, ← Option.some.inj y1, Int.toNat_natCast]⟩
  obtain ⟨j, hj, e⟩ := hpos 0 (by norm_num)
  obtain ⟨j', hj', e'⟩ := hpos 2 (by norm_num)
  have := hs j hj j' hj' 0 two_pos
  unfold nbrLabel at this
  rw [e, e', (coLabels_get a b 0 (by norm_num)).1, (coLabels_get a b 2 (by norm_num)).1] at this
  exact hab (by simpa using this)

/-- **C67 fails for one-hot labels**: with labels `(1, 0)` and `(0, 1)` a test point with neighbours of both classes and exactly equal
scores for them need not be flagged: the masks compare the second score with 0.5 instead of with the first score. (With symmetric
labels this cannot happen, `C67_undecided`.) -/
theorem C67_one_hot_fails (bs : Flt → ℝ → ℝ) (opt : Learner → TrainData → Res Learner) (answer : (Fin 1 → ℝ) → Nat → List Nat)
    (hw : (coIndex answer).Exact) :
    ∃ P, doClassifyUq bs opt [] [] 5 5 [fun _ _ _ _ => 0] (coIndex answer) lineFixed coTest (coLabels 1 0) =
        .ok (lineFixed, P, [[false]]) ∧ P.get [0, 0] = P.get [0, 1] ∧
      ∃ I : Tensor Int, (∃ l : List Nat, rowList I 4 0 = l.map Int.ofNat ∧
          Nearest (· < 5) (fun j => |rowPt coTest 1 0 0 - rowPt coTrain 1 j 0|) 4 l) ∧ ¬ SameLabel (coLabels 1 0) I 4 2 0 := by
  have hdec : FirstColumnDecides (coLabels 1 0) 5 2 := coLabels_dec one_ne_zero
  obtain ⟨I, P, V, signed, h1, h2, h3, h4, h5, h6, h7, h8⟩ := C67_actual bs opt [] [] 5 5 [fun _ _ _ _ => 0] (coIndex answer) hw lineFixed
    lineFixed coTest (coLabels 1 0) (fixed_classifier opt _ _) (fun b => lineUsable _ rfl rfl rfl rfl _ b) 1 (fun _ => 1)
    ⟨1, one_pos, rfl, fun _ => rfl⟩ rfl rfl hdec (by show (4 : ℕ) ≠ 2; norm_num) one_pos (by show 0 < 4; norm_num) (le_refl 5)
  have hint : IntegerLabels signed 5 := fun i hi => by
    obtain ⟨k, k1, -⟩ := h6 i hi
    exact ⟨2 * k - 1, by rw [k1]; push_cast; ring⟩
  obtain ⟨F, nn, -, -, -, f1, -⟩ := C43_filtered_partial (coIndex answer) hw signed h5 hint (by show 0 < 4; norm_num) (le_refl 5)
  have hb : getBalancedBatch (coIndex answer) signed 5 [] = .ok (F, nn) := by
    rw [(C43_choice (coIndex answer) signed 5 h5 5 []).2 (le_refl _), f1]
  obtain ⟨mean, var, -, -, c3⟩ := h8 F nn hb
  have hcut : trainCutoffs F.length mean var (F.map fun x => signed.get [x]) [fun _ _ _ _ => 0] = .ok [0.01] := by
    unfold trainCutoffs
    have hG := cutGrid_head
    generalize cutGrid = G at *
    simp only [List.mapM_cons, List.mapM_nil, bind, Except.bind, hG, pure, Except.pure]
  obtain ⟨masks, m1, m2, m3⟩ := c3 _ hcut
  obtain ⟨l, l1, l2⟩ := co_neighbours answer I (h1 0 one_pos)
  have hmix := co_mixed (one_ne_zero (α := ℝ)) I l l1 l2
  obtain ⟨p1, p2⟩ := (h4 0 one_pos).2 hmix
  have s0 := (p1 0 two_pos).trans (co_mean bs 1 0 I l l1 l2 0 two_pos)
  have s1 := (p1 1 one_lt_two).trans (co_mean bs 1 0 I l l1 l2 1 one_lt_two)
  obtain ⟨mask, k1, k2, k3⟩ := m3 0 0.01 rfl
  have hlen : masks.length = 1 := m2
  obtain ⟨mk, rfl⟩ := List.length_eq_one_iff.mp hlen
  obtain rfl : mk = mask := by simpa using k1
  obtain ⟨x, rfl⟩ := List.length_eq_one_iff.mp k2
  have hV : V.get [0] ≤ 2 := by
    rw [p2]
    obtain ⟨l', l1', l2'⟩ := h1 0 one_pos
    have := (nbr_variance bs lineFixed.trainee.R.kernel rfl (fun _ : Fin 1 => (1 : ℝ)) (fun _ => one_pos) coTrain 5 4 I 0 1 one_pos
      (rowPt coTest 1 0) lineFixed.trainee.R.gp.noise (.inl one_pos)).2.1
    have hb : lineFixed.boundScale = 2 := rfl
    rw [hb]
    exact (mul_le_mul_of_nonneg_left this (by norm_num)).trans (by norm_num)
  have he : Real.exp (-1 / 2) < 1 := by rw [Real.exp_lt_one_iff]; norm_num
  have hx : x = false := by
    cases x with
    | false => rfl
    | true =>
      have := ((k3 0 one_pos).mp rfl).2
      rw [s1, (coLabels_get 1 0 0 (by norm_num)).1, (coLabels_get 1 0 0 (by norm_num)).2] at this
      norm_num at this
      linarith
  subst hx
  exact ⟨P, m1, by rw [s0, s1], I, h1 0 one_pos, hmix⟩

/-- Non-vacuity of C67 (`C67_actual`, `C67_result`, `C67_unanimous`, `C67_nested`, `C67_succeeds`, `C67_undecided`): the same data with
labels `(1, -1)` and `(-1, 1)` and the built-in objectives; the call succeeds and all five masks flag the test point. -/
example (bs : Flt → ℝ → ℝ) (opt : Learner → TrainData → Res Learner) : ∃ w : NNWrapper, w.Exact ∧ w.N = 5 ∧ w.nnCount = 4 ∧
    ∃ P, doClassifyUq bs opt [] [] 5 5 exampleLambdas w lineFixed coTest (coLabels 1 (-1)) =
      .ok (lineFixed, P, [[true], [true], [true], [true], [true]]) ∧ P.get [0, 0] = 0 ∧ P.get [0, 1] = 0 := by
  obtain ⟨answer, hw⟩ := co_exact
  have hdec : FirstColumnDecides (coLabels 1 (-1)) 5 2 := coLabels_dec (by norm_num)
  have hsym : SymmetricLabels (coLabels 1 (-1)) 5 := by
    intro i hi
    rw [(coLabels_get _ _ i hi).1, (coLabels_get _ _ i hi).2]
    split_ifs <;> norm_num
  obtain ⟨P, masks, r1, r2, r3, r4⟩ := C67_succeeds bs opt [] [] 5 5 (coIndex answer) hw lineFixed
    lineFixed coTest (coLabels 1 (-1)) (fixed_classifier opt _ _) (fun b => lineUsable _ rfl rfl rfl rfl _ b) 1 (fun _ => 1)
    ⟨1, one_pos, rfl, fun _ => rfl⟩ rfl rfl hdec (by show (4 : ℕ) ≠ 2; norm_num) one_pos (by show 0 < 4; norm_num) (le_refl 5) (le_refl _)
  obtain ⟨-, I, V, cs, h1, h2, h3, -⟩ := C67_result bs opt [] [] 5 5 exampleLambdas (coIndex answer) hw lineFixed
    lineFixed lineFixed coTest (coLabels 1 (-1)) P masks (fixed_classifier opt _ _) (fun b => lineUsable _ rfl rfl rfl rfl _ b) 1
    (fun _ => 1) ⟨1, one_pos, rfl, fun _ => rfl⟩ rfl rfl hdec (by show (4 : ℕ) ≠ 2; norm_num) one_pos (by show 0 < 4; norm_num) (le_refl 5)
    zero_le_two r1
  obtain ⟨I', i1, i2⟩ := C67_undecided bs opt [] [] 5 5 exampleLambdas (coIndex answer) hw lineFixed
    lineFixed lineFixed coTest (coLabels 1 (-1)) P masks (fixed_classifier opt _ _) (fun b => lineUsable _ rfl rfl rfl rfl _ b) 1
    (fun _ => 1) ⟨1, one_pos, rfl, fun _ => rfl⟩ rfl rfl hsym (by show (4 : ℕ) ≠ 2; norm_num) one_pos (by show 0 < 4; norm_num) (le_refl 5)
    two_pos r1
  obtain ⟨l, l1, l2⟩ := co_neighbours answer I (h1 0 one_pos)
  have hmix := co_mixed (a := 1) (b := -1) (by norm_num) I l l1 l2
  obtain ⟨l', l1', l2'⟩ := co_neighbours answer I' (i1 0 one_pos)
  have hmix' := co_mixed (a := 1) (b := -1) (by norm_num) I' l' l1' l2'
  obtain ⟨p1, -⟩ := (h3 0 one_pos).2.2 hmix
  have s0 := (p1 0 two_pos).trans (co_mean bs 1 (-1) I l l1 l2 0 two_pos)
  have s1 := (p1 1 one_lt_two).trans (co_mean bs 1 (-1) I l l1 l2 1 one_lt_two)
  have hflag := (i2 0 one_pos).2 (by rw [s0, s1]) hmix' (PosDef.one.smul one_pos)
  refine ⟨_, hw, rfl, rfl, P, ?_, by rw [s0]; ring, by rw [s1]; ring⟩
  have hall : masks = List.replicate 5 [true] := by
    rw [List.eq_replicate_iff]
    refine ⟨r3, fun mask hm => ?_⟩
    obtain ⟨x, rfl⟩ := List.length_eq_one_iff.mp (r4 mask hm)
    have := hflag _ hm
    simpa using this
  rw [hall] at r1
  exact r1

end MuyGPyS
