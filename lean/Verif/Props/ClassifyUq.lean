import Verif.Props.Classify

/-! # C45: masks, counts and accuracies of two-class classification with uncertainty -/

namespace MuyGPyS
open Py

/-- **C45, what the masks are**: for every predictions, variances and cutoffs, mask `i` flags exactly the predictions
whose interval `mean ± cutoff_i * variance` contains the threshold. (The half-width uses the variance, see
`C45_masks_fails`.) -/
theorem C45_masks_actual (pred : Tensor ℝ) (m r : Nat) (hr : 2 ≤ r) (hp : pred.shape = [m, r]) (cutoffs : List ℝ)
    (variances : Tensor ℝ) (hv : variances.shape = [m] ∨ variances.shape = [m, 1]) (mid : ℝ) :
    ∃ M : List (List Bool), makeMasks pred cutoffs variances mid = .ok M ∧ M.length = cutoffs.length ∧
      ∀ (i : Nat) (cut : ℝ), cutoffs[i]? = some cut → ∃ mask : List Bool, M[i]? = some mask ∧ mask.length = m ∧
        ∀ p < m, (mask[p]? = some true ↔ Straddles (pred.get [p, 1]) cut (variances.flat p) mid) := by
  have hre : variances.reshape [m] = .ok ⟨[m], variances.flat⟩ :=
    Tensor.reshape_ok _ _ (by rcases hv with h | h <;> rw [h] <;> simp)
  refine ⟨cutoffs.map fun cut => (List.range m).map fun p =>
      decide (pred.get [p, 1] - cut * variances.flat p < mid ∧ pred.get [p, 1] + cut * variances.flat p > mid), ?_, ?_, ?_⟩
  · unfold makeMasks
    rw [hp]
    simp only [hre, bind, Except.bind]
    rw [if_neg (by omega)]
    have h1 : ∀ p, Tensor.get ⟨[m], variances.flat⟩ [p] = variances.flat p := fun p => Tensor.get1 (⟨[m], variances.flat⟩ : Tensor ℝ) rfl p
    simp only [pure, Except.pure, h1]
  · simp
  · intro i cut hc
    refine ⟨_, by rw [List.getElem?_map, hc]; rfl, by simp, fun p hp' => ?_⟩
    rw [List.getElem?_map, List.getElem?_range hp']
    simp [Straddles, gt_iff_lt]

/-- **C45, masks**: where the posterior variances are zero or one the masks flag exactly the predictions whose
confidence interval `mean ± cutoff * sqrt(variance)`, the one the cutoffs were calibrated for, straddles the
threshold. Partial: false for every other variance (`C45_masks_fails`). -/
theorem C45_masks_partial (pred : Tensor ℝ) (m r : Nat) (hr : 2 ≤ r) (hp : pred.shape = [m, r]) (cutoffs : List ℝ)
    (variances : Tensor ℝ) (hv : variances.shape = [m] ∨ variances.shape = [m, 1]) (mid : ℝ)
    (hvar : ∀ p < m, variances.flat p = 0 ∨ variances.flat p = 1) :
    ∃ M : List (List Bool), makeMasks pred cutoffs variances mid = .ok M ∧ M.length = cutoffs.length ∧
      ∀ (i : Nat) (cut : ℝ), cutoffs[i]? = some cut → ∃ mask : List Bool, M[i]? = some mask ∧ mask.length = m ∧
        ∀ p < m, (mask[p]? = some true ↔ Straddles (pred.get [p, 1]) cut (Real.sqrt (variances.flat p)) mid) := by
  obtain ⟨M, h1, h2, h3⟩ := C45_masks_actual pred m r hr hp cutoffs variances hv mid
  refine ⟨M, h1, h2, fun i cut hc => ?_⟩
  obtain ⟨mask, a, b, d⟩ := h3 i cut hc
  refine ⟨mask, a, b, fun p hp' => ?_⟩
  rw [d p hp']
  rcases hvar p hp' with h | h <;> rw [h] <;> simp

/-- **C45 fails for every variance other than zero and one.** For every positive cutoff and threshold, and every
positive variance `v ≠ 1`, there is a prediction whose calibrated confidence interval `mean ± cut * sqrt v` and
whose mask disagree: an ambiguous prediction is not flagged if `v < 1`, an unambiguous one is flagged if `v > 1`. -/
theorem C45_masks_fails (v cut mid : ℝ) (hv : 0 < v) (hv1 : v ≠ 1) (hc : 0 < cut) :
    ∃ (mean : ℝ) (M : Bool), makeMasks ⟨[1, 2], fun k => if k = 1 then mean else 0⟩ [cut] ⟨[1], fun _ => v⟩ mid = .ok [[M]] ∧
      ¬ (M = true ↔ Straddles mean cut (Real.sqrt v) mid) ∧
      (v < 1 → M = false ∧ Straddles mean cut (Real.sqrt v) mid) ∧
      (1 < v → M = true ∧ ¬ Straddles mean cut (Real.sqrt v) mid) := by
  have hrun : ∀ mean : ℝ, makeMasks ⟨[1, 2], fun k => if k = 1 then mean else 0⟩ [cut] ⟨[1], fun _ => v⟩ mid =
      .ok [[decide (mean - cut * v < mid ∧ mean + cut * v > mid)]] := by
    intro mean
    unfold makeMasks
    simp [Tensor.reshape, bind, Except.bind, pure, Except.pure, Tensor.get, Tensor.ravel]
  have hs : 0 < Real.sqrt v := Real.sqrt_pos.mpr hv
  have hsq : Real.sqrt v * Real.sqrt v = v := Real.mul_self_sqrt hv.le
  set s := Real.sqrt v with hsd
  have hlt : v < 1 → v < s := fun h => by
    have : s < 1 := by nlinarith
    nlinarith
  have hgt : 1 < v → s < v := fun h => by
    have : 1 < s := by nlinarith
    nlinarith
  suffices key : ∀ M : Bool, M = decide ((mid + cut * (if v < 1 then v else s)) - cut * v < mid ∧
      (mid + cut * (if v < 1 then v else s)) + cut * v > mid) →
      (v < 1 → M = false ∧ Straddles (mid + cut * (if v < 1 then v else s)) cut s mid) ∧
      (1 < v → M = true ∧ ¬ Straddles (mid + cut * (if v < 1 then v else s)) cut s mid) by
    refine ⟨mid + cut * (if v < 1 then v else s), _, hrun _, ?_, key _ rfl⟩
    obtain ⟨k1, k2⟩ := key _ rfl
    rcases lt_or_gt_of_ne hv1 with h | h
    · obtain ⟨a, b⟩ := k1 h
      rw [a]; intro e; exact absurd (e.mpr b) (by simp)
    · obtain ⟨a, b⟩ := k2 h
      rw [a]; intro e; exact b (e.mp rfl)
  rintro M rfl
  refine ⟨fun h => ?_, fun h => ?_⟩
  · rw [if_pos h]
    have := hlt h
    refine ⟨?_, ?_, ?_⟩
    · simp
    · nlinarith
    · nlinarith
  · rw [if_neg (by linarith)]
    have := hgt h
    have h3 : cut * s < cut * v := by nlinarith
    have h4 : 0 < cut * s := by positivity
    refine ⟨?_, ?_⟩
    · simp only [decide_eq_true_eq]
      constructor <;> linarith
    · rintro ⟨h1, -⟩
      linarith

theorem argmaxRow_spec (score : Nat → ℝ) (r : Nat) (hr : 0 < r) :
    IsFirstMax score r (argmaxRow ((List.range r).map score)) := by
  set row := (List.range r).map score with hrow
  have hlen : row.length = r := by simp [hrow]
  cases hM : row.max? with
  | none =>
    have : row = [] := by simpa using hM
    rw [this] at hlen
    simp at hlen; omega
  | some x =>
    obtain ⟨h1, h2⟩ := List.max?_eq_some_iff.mp hM
    have hlt : argmaxRow row < row.length := by
      unfold argmaxRow
      rw [List.findIdx_lt_length]
      exact ⟨x, h1, by simp [hM]⟩
    have hget : ∀ k (h : k < row.length), row[k] = score k := by
      intro k h
      simp [hrow]
    have hval : score (argmaxRow row) = x := by
      have := List.findIdx_getElem (p := fun y => decide (row.max? = some y)) (w := hlt)
      rw [← hget _ hlt]
      rw [decide_eq_true_eq] at this
      exact (Option.some.inj (hM.symm.trans this)).symm
    refine ⟨by omega, fun k hk => ?_, fun k hk => ?_⟩
    · rw [hval, ← hget k (by omega)]
      exact h2 _ (List.getElem_mem _)
    · have hk' : k < row.length := by omega
      have hle : score k ≤ x := by
        rw [← hget k hk']; exact h2 _ (List.getElem_mem _)
      have hne := List.not_of_lt_findIdx (p := fun y => decide (row.max? = some y)) hk
      rw [hval]
      refine lt_of_le_of_ne hle ?_
      rintro rfl
      simp [hM, hget k hk'] at hne

theorem IsFirstMax.unique {score : Nat → ℝ} {r c c' : Nat} (h : IsFirstMax score r c) (h' : IsFirstMax score r c') :
    c = c' := by
  rcases lt_trichotomy c c' with hl | rfl | hl
  · exact absurd (h'.2.2 c hl) (not_lt.mpr (h.2.1 c' h'.1))
  · rfl
  · exact absurd (h.2.2 c' hl) (not_lt.mpr (h'.2.1 c h.1))

theorem countWhere_eq (m : Nat) (P : Nat → Bool) :
    ((List.range m).filter P).length = countWhere m (fun p => P p = true) := by
  classical
  unfold countWhere
  rw [← List.toFinset_card_of_nodup (List.nodup_range.filter _)]
  congr 1
  ext p
  simp

theorem countWhere_congr {m : Nat} {P Q : Nat → Prop} (h : ∀ p < m, (P p ↔ Q p)) : countWhere m P = countWhere m Q := by
  classical
  unfold countWhere
  congr 1
  apply Finset.filter_congr
  intro p hp
  exact h p (Finset.mem_range.mp hp)

theorem countWhere_true (m : Nat) : countWhere m (fun _ => True) = m := by
  classical
  unfold countWhere
  simp

theorem maskSelect_range (m : Nat) (f g : Nat → Bool) :
    maskSelect ((List.range m).map f) ((List.range m).map g) = ((List.range m).filter f).map g := by
  unfold maskSelect
  rw [List.zip_map', List.filter_map, List.map_map]
  rfl

theorem count_map_true (l : List Nat) (g : Nat → Bool) : (l.map g).count true = (l.filter g).length := by
  rw [List.count_eq_countP, List.countP_map, List.countP_eq_length_filter]
  congr 1
  apply List.filter_congr
  intro x _
  simp

theorem meanBool_fraction (m : Nat) (f g : Nat → Bool) (S P : Nat → Prop)
    (hS : ∀ p < m, (f p = true ↔ S p)) (hP : ∀ p < m, (g p = true ↔ P p)) :
    meanBool (((List.range m).filter f).map g) = fractionWhere m S P := by
  have h1 : ((List.range m).filter f).length = countWhere m S := by
    rw [countWhere_eq]; exact countWhere_congr hS
  have h2 : (((List.range m).filter f).filter g).length = countWhere m (fun p => S p ∧ P p) := by
    rw [List.filter_filter, countWhere_eq]
    apply countWhere_congr
    intro p hp
    simp only [Bool.and_eq_true]
    rw [hS p hp, hP p hp, and_comm]
  unfold meanBool fractionWhere
  rw [count_map_true, h2, List.length_map, h1]
  congr 1
  rw [List.map_eq_nil_iff, ← List.length_eq_zero_iff, h1]

theorem list_eq_range (mask : List Bool) : mask = (List.range mask.length).map fun p => mask.getD p false := by
  apply List.ext_getElem
  · simp
  · intro i h1 h2
    simp [h1]

/-- **C45, counts and accuracies**: for every predictions, labels and masks, the reported overall accuracy is the
fraction of test points whose predicted class (the first with the largest score) is their true class; for each mask the
first number is the size of the ambiguous set, the second the accuracy on the ambiguous points (0 if there are
none) and the third the accuracy on the unambiguous ones (nan if there are none). -/
theorem C45_counts (pred labels : Tensor ℝ) (m r r' : Nat) (hr : 0 < r) (hr' : 0 < r') (hp : pred.shape = [m, r])
    (hl : labels.shape = [m, r']) (masks : List (List Bool)) (hm : ∀ mask ∈ masks, mask.length = m)
    (guess truth : Nat → Nat) (hg : ∀ p < m, IsFirstMax (fun c => pred.get [p, c]) r (guess p))
    (ht : ∀ p < m, IsFirstMax (fun c => labels.get [p, c]) r' (truth p)) :
    ∃ acc uq, doUq pred labels masks = .ok (acc, uq) ∧
      acc = fractionWhere m (fun _ => True) (fun p => guess p = truth p) ∧ uq.length = masks.length ∧
      ∀ (i : Nat) (mask : List Bool), masks[i]? = some mask → uq[i]? = some
        (countWhere m fun p => mask[p]? = some true,
          if countWhere m (fun p => mask[p]? = some true) = 0 then some 0
            else fractionWhere m (fun p => mask[p]? = some true) (fun p => guess p = truth p),
          fractionWhere m (fun p => mask[p]? = some false) (fun p => guess p = truth p)) := by
  set cor : Nat → Bool := fun p => decide (argmaxRow ((List.range r).map fun j => pred.get [p, j]) =
    argmaxRow ((List.range r').map fun j => labels.get [p, j])) with hcor
  have hc : ∀ p < m, (cor p = true ↔ guess p = truth p) := by
    intro p hp'
    rw [hcor]
    simp only [decide_eq_true_eq]
    rw [(argmaxRow_spec _ r hr).unique (hg p hp'), (argmaxRow_spec _ r' hr').unique (ht p hp')]
  have hz : List.zipWith (fun a b => decide (a = b)) (argmaxRows pred m r) (argmaxRows labels m r') =
      (List.range m).map cor := by
    unfold argmaxRows
    rw [List.zipWith_map, List.zipWith_self]
  have hrow : ∀ mask ∈ masks, (if mask.length ≠ m then (.error .index : Res (Nat × Option ℝ × Option ℝ)) else
      let k := mask.count true
      .ok (k, if k = 0 then some 0 else meanBool (maskSelect mask ((List.range m).map cor)),
        meanBool (maskSelect (mask.map not) ((List.range m).map cor)))) = .ok
        (countWhere m fun p => mask[p]? = some true,
          if countWhere m (fun p => mask[p]? = some true) = 0 then some 0
            else fractionWhere m (fun p => mask[p]? = some true) (fun p => guess p = truth p),
          fractionWhere m (fun p => mask[p]? = some false) (fun p => guess p = truth p)) := by
    intro mask hmask
    have hlen := hm mask hmask
    rw [if_neg (by simpa using hlen)]
    have hmk : mask = (List.range m).map fun p => mask.getD p false := by
      conv_lhs => rw [list_eq_range mask]
      rw [hlen]
    have hf : ∀ p < m, (mask.getD p false = true ↔ mask[p]? = some true) := by
      intro p hp'
      rw [List.getD_eq_getElem?_getD, List.getElem?_eq_getElem (by omega)]; simp
    have hf' : ∀ p < m, ((!mask.getD p false) = true ↔ mask[p]? = some false) := by
      intro p hp'
      rw [List.getD_eq_getElem?_getD, List.getElem?_eq_getElem (by omega)]; simp
    have h1 : mask.count true = countWhere m fun p => mask[p]? = some true := by
      conv_lhs => rw [hmk]
      rw [count_map_true, countWhere_eq]
      exact countWhere_congr hf
    have h2 : meanBool (maskSelect mask ((List.range m).map cor)) =
        fractionWhere m (fun p => mask[p]? = some true) (fun p => guess p = truth p) := by
      conv_lhs => rw [hmk]
      rw [maskSelect_range]
      exact meanBool_fraction m _ _ _ _ hf hc
    have h3 : meanBool (maskSelect (mask.map not) ((List.range m).map cor)) =
        fractionWhere m (fun p => mask[p]? = some false) (fun p => guess p = truth p) := by
      conv_lhs => rw [hmk]
      rw [List.map_map, maskSelect_range]
      exact meanBool_fraction m _ _ _ _ hf' hc
    simp only [h1, h2, h3]
  refine ⟨meanBool ((List.range m).map cor), masks.map fun mask =>
        (countWhere m fun p => mask[p]? = some true,
          if countWhere m (fun p => mask[p]? = some true) = 0 then some 0
            else fractionWhere m (fun p => mask[p]? = some true) (fun p => guess p = truth p),
          fractionWhere m (fun p => mask[p]? = some false) (fun p => guess p = truth p)), ?_, ?_, ?_, ?_⟩
  · unfold doUq
    rw [hp, hl]
    simp only
    rw [if_neg (by omega), hz]
    simp only [bind, Except.bind]
    rw [Mpi.mapM_ok _ _ _ hrow]
    rfl
  · have := meanBool_fraction m (fun _ => true) cor (fun _ => True) _ (fun _ _ => by simp) hc
    rwa [List.filter_true] at this
  · simp
  · intro i mask hi
    rw [List.getElem?_map, hi]
    rfl

/-- **C45, nothing unambiguous**: if a mask flags every test point, the reported accuracy on the unambiguous points is nan (while
an empty ambiguous set is reported as accuracy 0). -/
theorem C45_all_ambiguous (pred labels : Tensor ℝ) (m r r' : Nat) (hr : 0 < r) (hr' : 0 < r') (hp : pred.shape = [m, r])
    (hl : labels.shape = [m, r']) :
    ∃ acc a b, doUq pred labels [List.replicate m true, List.replicate m false] = .ok (acc, [(m, a, none), (0, some 0, b)]) := by
  have hex : ∀ (t : Tensor ℝ) (s : Nat), 0 < s → ∀ p, ∃ c, IsFirstMax (fun c => t.get [p, c]) s c :=
    fun t s hs p => ⟨_, argmaxRow_spec _ s hs⟩
  choose guess hguess using hex pred r hr
  choose truth htruth using hex labels r' hr'
  obtain ⟨acc, uq, h1, -, h2, h3⟩ := C45_counts pred labels m r r' hr hr' hp hl
    [List.replicate m true, List.replicate m false] (by simp) guess truth (fun p _ => hguess p) (fun p _ => htruth p)
  have e0 := h3 0 _ rfl
  have e1 := h3 1 _ rfl
  have cT : countWhere m (fun p => (List.replicate m true)[p]? = some true) = m := by
    rw [countWhere_congr (Q := fun _ => True), countWhere_true]
    intro p hp'; simp [List.getElem?_replicate, hp']
  have cF : countWhere m (fun p => (List.replicate m true)[p]? = some false) = 0 := by
    rw [countWhere_congr (Q := fun _ => False)]
    · simp [countWhere]
    · intro p hp'; simp [List.getElem?_replicate, hp']
  have cT' : countWhere m (fun p => (List.replicate m false)[p]? = some true) = 0 := by
    rw [countWhere_congr (Q := fun _ => False)]
    · simp [countWhere]
    · intro p hp'; simp [List.getElem?_replicate, hp']
  have fF : fractionWhere m (fun p => (List.replicate m true)[p]? = some false) (fun p => guess p = truth p) = none := by
    unfold fractionWhere; rw [if_pos cF]
  rw [cT, fF] at e0
  rw [cT', if_pos rfl] at e1
  obtain ⟨x, y, rfl⟩ : ∃ x y, uq = [x, y] := List.length_eq_two.mp h2
  simp only [List.getElem?_cons_zero, Option.some.injEq, List.getElem?_cons_succ] at e0 e1
  subst e0 e1
  exact ⟨acc, _, _, h1⟩

theorem countWhere_compl (m : Nat) (S P : Nat → Prop) :
    countWhere m (fun p => S p ∧ ¬ P p) + countWhere m (fun p => S p ∧ P p) = countWhere m S := by
  classical
  unfold countWhere
  rw [← Finset.card_union_of_disjoint]
  · congr 1
    ext p
    simp only [Finset.mem_union, Finset.mem_filter, Finset.mem_range]
    tauto
  · rw [Finset.disjoint_left]
    intro p h1 h2
    simp only [Finset.mem_filter] at h1 h2
    exact h1.2.2 h2.2.2

theorem fraction_compl (m : Nat) (S P : Nat → Prop) :
    (fractionWhere m S P).map (fun a => 1 - a) = fractionWhere m S (fun p => ¬ P p) := by
  unfold fractionWhere
  split_ifs with h
  · rfl
  · simp only [Option.map_some, Option.some.injEq]
    have hc := countWhere_compl m S P
    have h0 : (countWhere m S : ℝ) ≠ 0 := by exact_mod_cast h
    rw [eq_div_iff h0, sub_mul, div_mul_cancel₀ _ h0, one_mul, ← hc]
    push_cast
    ring

theorem cal_correct (mean : Tensor ℝ) (targets : List ℝ) (p : Nat) :
    decide (2 * ((argmaxRow [mean.get [p, 0], mean.get [p, 1]] : Nat) : ℝ) - 1 = targets.getD p 0) = true ↔
      CalCorrect mean targets p := by
  have h : IsFirstMax (fun k => mean.get [p, k]) 2 (argmaxRow [mean.get [p, 0], mean.get [p, 1]]) :=
    argmaxRow_spec (fun k => mean.get [p, k]) 2 two_pos
  rw [decide_eq_true_eq]
  constructor
  · intro e; exact ⟨_, h, e⟩
  · rintro ⟨c, hc, e⟩
    rw [h.unique hc]; exact e

theorem grid_rows {A B : Type} (l : List A) (f : A → B) (sel : B → Bool) (g : B → Bool) :
    ((l.map f).filter sel).map g = (l.filter (sel ∘ f)).map (g ∘ f) := by
  rw [List.filter_map, List.map_map]

/-- **C45, calibration**: the two error rates handed to the objectives are, at every cutoff of the grid, the fraction of misclassified batch
points that are not flagged and the fraction of correctly classified ones that are flagged (nan if there are none),
flagged meaning that `mean ± cutoff * sqrt(variance)` contains 0; the two counts are the numbers of correctly and
wrongly classified batch points. -/
theorem C45_calibration (b : Nat) (mean var : Tensor ℝ) (targets : List ℝ) :
    uqGrids b mean var targets = (cutGrid.map (alphaAt b mean var targets), cutGrid.map (betaAt b mean var targets),
      countWhere b (CalCorrect mean targets), countWhere b (fun p => ¬ CalCorrect mean targets p)) := by
  have hcut : ∀ cut p, (straddlesZero (mean.get [p, 1]) (var.get [p]) cut = true ↔
      Straddles (mean.get [p, 1]) cut (Real.sqrt (var.get [p])) 0) := by
    intro cut p
    simp only [straddlesZero, decide_eq_true_eq, Straddles, gt_iff_lt]
  have hneg : ∀ p, ((!decide (2 * ((argmaxRow [mean.get [p, 0], mean.get [p, 1]] : Nat) : ℝ) - 1 = targets.getD p 0)) = true ↔
      ¬ CalCorrect mean targets p) := by
    intro p
    rw [← cal_correct, Bool.not_eq_true', Bool.eq_false_iff]
  unfold uqGrids
  generalize cutGrid = G
  simp only
  refine Prod.ext ?_ (Prod.ext ?_ (Prod.ext ?_ ?_))
  · apply List.map_congr_left
    intro cut _
    rw [grid_rows]
    have := meanBool_fraction b _ ((fun x : Bool × ℝ × ℝ => straddlesZero x.2.1 x.2.2 cut) ∘ fun p =>
      (decide (2 * ((argmaxRow [mean.get [p, 0], mean.get [p, 1]] : Nat) : ℝ) - 1 = targets.getD p 0),
      mean.get [p, 1], var.get [p])) _ _ (fun p _ => hneg p) (fun p _ => hcut cut p)
    rw [alphaAt, ← fraction_compl, ← this]
    rfl
  · apply List.map_congr_left
    intro cut _
    rw [grid_rows]
    exact meanBool_fraction b _ _ _ _ (fun p _ => cal_correct mean targets p) (fun p _ => hcut cut p)
  · simp only
    rw [List.filter_map, List.length_map, countWhere_eq]
    exact countWhere_congr fun p _ => cal_correct mean targets p
  · simp only
    rw [List.filter_map, List.length_map, countWhere_eq]
    exact countWhere_congr fun p _ => hneg p

theorem argmin_real (row : List ℝ) (h : row ≠ []) :
    ∃ x, row[row.findIdx fun y => decide (row.min? = some y)]? = some x ∧ ∀ y ∈ row, x ≤ y := by
  cases hM : row.min? with
  | none => exact absurd (by simpa using hM) h
  | some x =>
    obtain ⟨h1, h2⟩ := List.min?_eq_some_iff.mp hM
    have hlt : (row.findIdx fun y => decide (some x = some y)) < row.length := by
      rw [List.findIdx_lt_length]
      exact ⟨x, h1, by simp⟩
    refine ⟨x, ?_, h2⟩
    have := List.findIdx_getElem (p := fun y => decide (some x = some y)) (w := hlt)
    rw [decide_eq_true_eq, Option.some.injEq] at this
    rw [List.getElem?_eq_getElem hlt, ← this]

theorem argminOpt_some (G : List ℝ) (hG : G ≠ []) (f : ℝ → ℝ) :
    ∃ c, G[argminOpt (G.map fun c => some (f c))]? = some c ∧ c ∈ G ∧ ∀ c' ∈ G, f c ≤ f c' := by
  have hn : none ∉ G.map fun c => some (f c) := by simp
  unfold argminOpt
  rw [if_neg hn, List.map_map]
  obtain ⟨x, h1, h2⟩ := argmin_real (G.map f) (by simpa using hG)
  have e : (G.map ((fun x : Option ℝ => x.getD 0) ∘ fun c => some (f c))) = G.map f := rfl
  rw [e]
  rw [List.getElem?_map] at h1
  cases hc : G[(G.map f).findIdx fun y => decide ((G.map f).min? = some y)]? with
  | none => rw [hc] at h1; simp at h1
  | some c =>
    rw [hc] at h1
    have hx : f c = x := by simpa using h1
    refine ⟨c, rfl, List.mem_of_getElem? hc, fun c' hc' => ?_⟩
    rw [hx]
    exact h2 _ (List.mem_map.mpr ⟨c', hc', rfl⟩)

theorem combine_some (G : List ℝ) (a b : ℝ) (A B : ℝ → ℝ) :
    combine a b (G.map fun c => some (A c)) (G.map fun c => some (B c)) = G.map fun c => some (a * A c + b * B c) := by
  unfold combine
  rw [List.zipWith_map, List.zipWith_self]

theorem combine_none (G : List ℝ) (a b : ℝ) (A B : ℝ → Option ℝ) (h : (∀ c, A c = none) ∨ ∀ c, B c = none) :
    combine a b (G.map A) (G.map B) = G.map fun _ => none := by
  unfold combine
  rw [List.zipWith_map, List.zipWith_self]
  apply List.map_congr_left
  intro c _
  rcases h with h | h
  · rw [h c]
  · rw [h c]
    cases A c <;> rfl

theorem argminOpt_none (G : List ℝ) : argminOpt (G.map fun _ => none) = 0 := by
  unfold argminOpt
  cases G with
  | nil => simp
  | cons g G => rw [if_pos (by simp)]; simp [List.findIdx_cons]

theorem cutGrid_head : cutGrid[0]? = some (0.01 : ℝ) := by
  unfold cutGrid
  rw [List.getElem?_map, List.getElem?_range (by norm_num)]
  simp

theorem cutGrid_ne : cutGrid ≠ [] := by
  intro h
  have := cutGrid_head
  rw [h] at this
  simp at this

/-- The cutoff grid: 1999 equidistant values from 0.01 to 20. -/
theorem cutGrid_mem (c : ℝ) : c ∈ cutGrid ↔ ∃ i < 1999, c = 0.01 + (i : ℕ) * (19.99 / 1998) := by
  unfold cutGrid
  simp only [List.mem_map, List.mem_range]
  constructor
  · rintro ⟨i, hi, rfl⟩; exact ⟨i, hi, by norm_num⟩
  · rintro ⟨i, hi, rfl⟩; exact ⟨i, hi, by norm_num⟩

/-- **C45, cutoffs**: if the calibration batch contains both correctly and wrongly classified points, each built-in objective
yields a cutoff from the grid with the least weighted sum of the two error rates (weights 1:1, 2:1, 4:1, 10:1 and
number of wrong : number of correct). -/
theorem C45_cutoffs (b : Nat) (mean var : Tensor ℝ) (targets : List ℝ) (A B : ℝ → ℝ)
    (hA : ∀ c, alphaAt b mean var targets c = some (A c)) (hB : ∀ c, betaAt b mean var targets c = some (B c)) :
    ∃ cs, trainCutoffs b mean var targets exampleLambdas = .ok cs ∧ cs.length = 5 ∧
      ∀ (k : Nat) (w : ℝ × ℝ), ([(1, 1), (2, 1), (4, 1), (10, 1),
        ((countWhere b (fun p => ¬ CalCorrect mean targets p) : ℝ), (countWhere b (CalCorrect mean targets) : ℝ))] : List (ℝ × ℝ))[k]? = some w →
        ∃ c, cs[k]? = some c ∧ c ∈ cutGrid ∧
          ∀ c' ∈ cutGrid, w.1 * A c + w.2 * B c ≤ w.1 * A c' + w.2 * B c' := by
  have hG := cutGrid_ne
  unfold trainCutoffs
  rw [C45_calibration]
  generalize cutGrid = G at *
  have eA : G.map (alphaAt b mean var targets) = G.map fun c => some (A c) := List.map_congr_left fun c _ => hA c
  have eB : G.map (betaAt b mean var targets) = G.map fun c => some (B c) := List.map_congr_left fun c _ => hB c
  have hw : ∀ w : ℝ × ℝ, ∃ c, G[argminOpt (combine w.1 w.2 (G.map (alphaAt b mean var targets))
      (G.map (betaAt b mean var targets)))]? = some c ∧ c ∈ G ∧
      ∀ c' ∈ G, w.1 * A c + w.2 * B c ≤ w.1 * A c' + w.2 * B c' := by
    intro w
    rw [eA, eB, combine_some]
    exact argminOpt_some G hG fun c => w.1 * A c + w.2 * B c
  choose cut h1 h2 h3 using hw
  simp only
  set W : List (ℝ × ℝ) := [(1, 1), (2, 1), (4, 1), (10, 1),
        ((countWhere b (fun p => ¬ CalCorrect mean targets p) : ℝ), (countWhere b (CalCorrect mean targets) : ℝ))] with hW
  refine ⟨W.map cut, ?_, by simp [hW], ?_⟩
  · have a1 := h1 (1, 1); have a2 := h1 (2, 1); have a3 := h1 (4, 1); have a4 := h1 (10, 1)
    have a5 := h1 ((countWhere b (fun p => ¬ CalCorrect mean targets p) : ℝ), (countWhere b (CalCorrect mean targets) : ℝ))
    simp only at a1 a2 a3 a4 a5
    simp only [exampleLambdas, List.mapM_cons, List.mapM_nil, bind, Except.bind, a1, a2, a3, a4, a5, pure, Except.pure, hW,
      List.map_cons, List.map_nil]
  · intro k w hk
    exact ⟨cut w, by rw [List.getElem?_map, hk]; rfl, h2 w, h3 w⟩

/-- **C45, degenerate calibration**: if the calibration batch has no misclassified (or no correctly classified) point, one of the error rates is nan
everywhere and every built-in objective returns the smallest cutoff 0.01, whatever the other error rate is. -/
theorem C45_cutoffs_degenerate (b : Nat) (mean var : Tensor ℝ) (targets : List ℝ)
    (h : countWhere b (CalCorrect mean targets) = 0 ∨ countWhere b (fun p => ¬ CalCorrect mean targets p) = 0) :
    trainCutoffs b mean var targets exampleLambdas = .ok [0.01, 0.01, 0.01, 0.01, 0.01] := by
  have hG := cutGrid_head
  have hn : (∀ c, alphaAt b mean var targets c = none) ∨ ∀ c, betaAt b mean var targets c = none := by
    rcases h with h | h
    · right; intro c; unfold betaAt fractionWhere; rw [if_pos h]
    · left; intro c; unfold alphaAt fractionWhere; rw [if_pos h]
  unfold trainCutoffs
  rw [C45_calibration]
  generalize cutGrid = G at *
  simp only [exampleLambdas, List.mapM_cons, List.mapM_nil, bind, Except.bind, combine_none G _ _ _ _ hn, argminOpt_none, hG,
    pure, Except.pure]

/-- **C45, calibration threshold**: calibration always looks at the threshold 0. With responses 0 and 1 (threshold 0.5) a misclassified batch point
with mean exactly 0.5, which every confidence interval flags as ambiguous, counts as not flagged at every cutoff
of the grid. -/
theorem C45_calibration_threshold_fails :
    let mean : Tensor ℝ := ⟨[1, 2], fun k => if k = 1 then 0.5 else 0.6⟩
    let var : Tensor ℝ := ⟨[1], fun _ => 0.0004⟩
    ∀ c ∈ cutGrid, Straddles (mean.get [0, 1]) c (Real.sqrt (var.get [0])) 0.5 ∧
      alphaAt 1 mean var [1] c = some 1 := by
  intro mean var c hc
  obtain ⟨i, hi, rfl⟩ := (cutGrid_mem c).mp hc
  have hs : Real.sqrt (var.get [0]) = 0.02 := by
    show Real.sqrt 0.0004 = 0.02
    rw [show (0.0004 : ℝ) = 0.02 * 0.02 by norm_num]
    exact Real.sqrt_mul_self (by norm_num)
  have hm1 : mean.get [0, 1] = 0.5 := by simp [mean, Tensor.get, Tensor.ravel]
  have hm0 : mean.get [0, 0] = 0.6 := by simp [mean, Tensor.get, Tensor.ravel]
  have hi' : (i : ℝ) ≤ 1998 := by exact_mod_cast (by omega : i ≤ 1998)
  have hi0 : (0 : ℝ) ≤ i := Nat.cast_nonneg i
  have hnc : ¬ CalCorrect mean [1] 0 := by
    rintro ⟨k, hk, e⟩
    have h0 : IsFirstMax (fun k => mean.get [0, k]) 2 0 := by
      refine ⟨by norm_num, fun k hk => ?_, fun k hk => by omega⟩
      interval_cases k
      · exact le_rfl
      · show mean.get [0, 1] ≤ mean.get [0, 0]
        rw [hm1, hm0]; norm_num
    rw [← h0.unique hk] at e
    norm_num at e
  have hns : ¬ Straddles (mean.get [0, 1]) (0.01 + (i : ℝ) * (19.99 / 1998)) (Real.sqrt (var.get [0])) 0 := by
    rintro ⟨h, -⟩
    rw [hm1, hs] at h
    linarith
  refine ⟨?_, ?_⟩
  · rw [hm1, hs]
    constructor <;> nlinarith
  · have c1 : countWhere 1 (fun p => ¬ CalCorrect mean [1] p) = 1 := by
      rw [countWhere_congr (Q := fun _ => True), countWhere_true]
      intro p hp
      obtain rfl : p = 0 := by omega
      simp [hnc]
    have c2 : countWhere 1 (fun p => ¬ CalCorrect mean [1] p ∧
        ¬ Straddles (mean.get [p, 1]) (0.01 + (i : ℝ) * (19.99 / 1998)) (Real.sqrt (var.get [p])) 0) = 1 := by
      rw [countWhere_congr (Q := fun _ => True), countWhere_true]
      intro p hp
      obtain rfl : p = 0 := by omega
      simp [hnc, hns]
    unfold alphaAt fractionWhere
    rw [c2, c1]
    norm_num

end MuyGPyS
