import Verif.Lemmas.Shear
import Verif.Props.Posterior

/-! # C48: the shear kernels -/

namespace MuyGPyS
namespace Shear
open Py Matrix

/-! ## reading the assembled tensors -/

theorem getD_append_right' (q l : List Nat) (i d : Nat) : (q ++ l).getD (q.length + i) d = l.getD i d := by
  simp [List.getD_eq_getElem?_getD, List.getElem?_append_right]

theorem assemble_ok (rows cols : Nat) (block : Stats → Nat → Nat → ℝ) (ℓ : ℝ) (pre : List Nat) (n m f : Nat)
    (hf : 2 ≤ f) (diffs : Tensor ℝ) (hs : diffs.shape = pre ++ [n, m, f]) :
    ∃ U, assemble rows cols block ℓ diffs = .ok (Tensor.squeeze U) ∧ U.shape = pre ++ [rows, n, cols, m] ∧
      ∀ q, List.Forall₂ (· < ·) q pre → ∀ a < rows, ∀ i < n, ∀ c < cols, ∀ j < m,
        U.get (q ++ [a, i, c, j]) = block (stats f ℓ fun k => diffs.get (q ++ [i, j, k])) a c := by
  have hr : diffs.shape.reverse = f :: m :: n :: pre.reverse := by rw [hs]; simp
  unfold assemble
  rw [hr]
  simp only [if_neg (by omega : ¬ f < 2), List.reverse_reverse, List.length_reverse]
  refine ⟨_, rfl, rfl, ?_⟩
  intro q hq a ha i hi c hc j hj
  have hl := hq.length_eq
  rw [Tensor.get_ofFn _ _ _ (List.rel_append hq (.cons ha (.cons hi (.cons hc (.cons hj .nil)))))]
  rw [← hl]
  have h0 := getD_append_right' q [a, i, c, j] 0 0
  rw [Nat.add_zero] at h0
  rw [getD_append_right', getD_append_right', getD_append_right', h0, List.take_left]
  rfl

theorem squeeze_self {t : Tensor ℝ} (h : ∀ d ∈ t.shape, d ≠ 1) : t.squeeze = t := by
  unfold Tensor.squeeze
  have : t.shape.filter (· ≠ 1) = t.shape := by
    rw [List.filter_eq_self]; simpa using h
  rw [this]

/-- Differences of a batch of pairs of points in the plane: entry `[p, i, j, ·]` is `x p i - x p j`. -/
def PairwiseDiffs (b n : Nat) (x : Nat → Nat → ℝ × ℝ) (t : Tensor ℝ) : Prop :=
  t.shape = [b, n, n, 2] ∧ ∀ p < b, ∀ i < n, ∀ j < n,
    t.get [p, i, j, 0] = (x p i).1 - (x p j).1 ∧ t.get [p, i, j, 1] = (x p i).2 - (x p j).2

/-- Differences between queries and their neighbours: entry `[p, i, ·]` is `z p - x p i`. -/
def CrosswiseDiffs (b n : Nat) (z : Nat → ℝ × ℝ) (x : Nat → Nat → ℝ × ℝ) (t : Tensor ℝ) : Prop :=
  t.shape = [b, n, 2] ∧ ∀ p < b, ∀ i < n,
    t.get [p, i, 0] = (z p).1 - (x p i).1 ∧ t.get [p, i, 1] = (z p).2 - (x p i).2

theorem adjust_pairwise {b n : Nat} {t : Tensor ℝ} (h : t.shape = [b, n, n, 2]) : adjustDiffs t = .ok (false, t) := by
  unfold adjustDiffs; rw [h]; simp

theorem adjust_crosswise {b n : Nat} {t : Tensor ℝ} (h : t.shape = [b, n, 2]) (hbn : b ≠ n) :
    adjustDiffs t = .ok (true, ⟨[b, n, 1, 2], t.flat⟩) := by
  unfold adjustDiffs; rw [h]; simp [Ne.symm hbn]

theorem adjust_square {n : Nat} {t : Tensor ℝ} (h : t.shape = [n, n, 2]) : adjustDiffs t = .ok (false, t) := by
  unfold adjustDiffs; rw [h]; simp

/-! ## symmetry -/

theorem covariance_eq_block (ℓ : ℝ) (hℓ : ℓ ≠ 0) (a c : Fin 3) (s t : ℝ × ℝ) :
    covariance ℓ a c s t = block33 ℓ (stats 2 ℓ fun k => if k = 0 then s.1 - t.1 else s.2 - t.2) a c :=
  (block33_covariance ℓ hℓ a c s t _ (by simp) (by simp)).symm

/-- **C48**, symmetry: the covariance of observable `a` at `s` with observable `c` at `t` is symmetric in
the observables, symmetric in the points, and depends on the points through their difference only. -/
theorem C48_symmetric (ℓ : ℝ) (hℓ : ℓ ≠ 0) (a c : Fin 3) (s t : ℝ × ℝ) :
    covariance ℓ a c s t = covariance ℓ c a s t ∧ covariance ℓ a c s t = covariance ℓ a c t s ∧
      ∀ w : ℝ × ℝ, covariance ℓ a c (s + w) (t + w) = covariance ℓ a c s t := by
  refine ⟨?_, ?_, ?_⟩
  · simp only [covariance_eq_block ℓ hℓ]
    fin_cases a <;> fin_cases c <;> rfl
  · simp only [covariance_eq_block ℓ hℓ]
    have h : stats 2 ℓ (fun k => if k = 0 then s.1 - t.1 else s.2 - t.2) =
        stats 2 ℓ (fun k => if k = 0 then t.1 - s.1 else t.2 - s.2) := by
      simp only [stats, Finset.sum_range_succ, Finset.sum_range_zero, Finset.prod_range_succ,
        Finset.prod_range_zero, if_true, one_ne_zero, if_false]
      congr 1
      · ring
      · ring
      · ring
      · ring
      · ring
      · ring
      · ring
      · congr 1; ring
    rw [h]
  · intro w
    rw [covariance_eq_block ℓ hℓ, covariance_eq_block ℓ hℓ]
    simp

/-! ## pairwise and crosswise covariances -/

theorem pairwise_frame (rows cols : Nat) (block : Stats → Nat → Nat → ℝ) (ℓ : ℝ) (b n : Nat) (hb : b ≠ 1) (hn : n ≠ 1)
    (hr : rows ≠ 1) (hc : cols ≠ 1) (t : Tensor ℝ) (ht : t.shape = [b, n, n, 2]) :
    ∃ T, assemble rows cols block ℓ t = .ok T ∧ T.shape = [b, rows, n, cols, n] ∧
      ∀ p < b, ∀ a < rows, ∀ i < n, ∀ c < cols, ∀ j < n,
        T.get [p, a, i, c, j] = block (stats 2 ℓ fun k => t.get [p, i, j, k]) a c := by
  obtain ⟨U, h1, h2, h3⟩ := assemble_ok rows cols block ℓ [b] n n 2 (le_refl _) t ht
  refine ⟨U, ?_, h2, fun p hp a ha i hi c hc j hj => h3 [p] (.cons hp .nil) a ha i hi c hc j hj⟩
  rw [h1, squeeze_self]
  rw [h2]; simp [hb, hn, hr, hc]

theorem crosswise_frame (rows cols : Nat) (block : Stats → Nat → Nat → ℝ) (ℓ : ℝ) (b n : Nat) (hb : b ≠ 1) (hn : n ≠ 1)
    (hr : rows ≠ 1) (hc : cols ≠ 1) (t : Tensor ℝ) (ht : t.shape = [b, n, 2]) :
    ∃ T, assemble rows cols block ℓ ⟨[b, n, 1, 2], t.flat⟩ = .ok T ∧ T.shape = [b, rows, n, cols] ∧
      ∀ p < b, ∀ a < rows, ∀ i < n, ∀ c < cols,
        T.get [p, a, i, c] = block (stats 2 ℓ fun k => t.get [p, i, k]) a c := by
  obtain ⟨U, h1, h2, h3⟩ := assemble_ok rows cols block ℓ [b] n 1 2 (le_refl _) ⟨[b, n, 1, 2], t.flat⟩ rfl
  have hs : U.squeeze.shape = [b, rows, n, cols] := by
    unfold Tensor.squeeze; rw [h2]; simp [hb, hn, hr, hc]
  refine ⟨_, h1, hs, fun p hp a ha i hi c hc => ?_⟩
  have h := h3 [p] (.cons hp .nil) a ha i hi c hc 0 (by omega)
  have e1 : U.squeeze.get [p, a, i, c] = U.get ([p] ++ [a, i, c, 0]) := by
    unfold Tensor.get; rw [hs, h2]
    simp [Tensor.ravel, Tensor.squeeze]
  rw [e1, h]
  congr 2
  funext k
  unfold Tensor.get; rw [ht]
  simp [Tensor.ravel]

/-- **C48**, pairwise: the kernel of pairwise differences is the joint covariance of the three observables
at the neighbours of every batch element (at least two batch elements and two neighbours, see
`C48_single_query_fails`). -/
theorem C48_pairwise_partial (k : Kern) (hℓ : k.lengthScale ≠ 0) (b n : Nat) (hb : b ≠ 1) (hn : n ≠ 1)
    (x : Nat → Nat → ℝ × ℝ) (t : Tensor ℝ) (ht : PairwiseDiffs b n x t) :
    ∃ T, k.call33 t = .ok T ∧ T.shape = [b, 3, n, 3, n] ∧
      ∀ p < b, ∀ a : Fin 3, ∀ i < n, ∀ c : Fin 3, ∀ j < n,
        T.get [p, a, i, c, j] = covariance k.lengthScale a c (x p i) (x p j) := by
  obtain ⟨T, h1, h2, h3⟩ := pairwise_frame 3 3 (block33 k.lengthScale) k.lengthScale b n hb hn (by omega) (by omega) t ht.1
  refine ⟨T, ?_, h2, fun p hp a i hi c j hj => ?_⟩
  · unfold Kern.call33
    simp only [if_true, adjust_pairwise ht.1, bind, Except.bind]
    exact h1
  · rw [h3 p hp a a.2 i hi c c.2 j hj]
    exact block33_covariance _ hℓ a c _ _ _ (ht.2 p hp i hi j hj).1 (ht.2 p hp i hi j hj).2

/-- **C48**, crosswise: if the numbers of queries and neighbours *differ* (and neither is one), the kernel of
crosswise differences is the covariance of the observables at the neighbours with those at the query.
Partial: `C48_square_crosswise_fails`, `C48_single_query_fails`. -/
theorem C48_crosswise_partial (k : Kern) (hℓ : k.lengthScale ≠ 0) (b n : Nat) (hb : b ≠ 1) (hn : n ≠ 1) (hbn : b ≠ n)
    (z : Nat → ℝ × ℝ) (x : Nat → Nat → ℝ × ℝ) (t : Tensor ℝ) (ht : CrosswiseDiffs b n z x t) :
    ∃ T, k.call33 t = .ok T ∧ T.shape = [b, 3, n, 3] ∧
      ∀ p < b, ∀ a : Fin 3, ∀ i < n, ∀ c : Fin 3,
        T.get [p, a, i, c] = covariance k.lengthScale a c (x p i) (z p) := by
  obtain ⟨T, h1, h2, h3⟩ := crosswise_frame 3 3 (block33 k.lengthScale) k.lengthScale b n hb hn (by omega) (by omega) t ht.1
  refine ⟨T, ?_, h2, fun p hp a i hi c => ?_⟩
  · unfold Kern.call33
    simp only [if_true, adjust_crosswise ht.1 hbn, bind, Except.bind]
    exact h1
  · rw [h3 p hp a a.2 i hi c c.2, (C48_symmetric _ hℓ a c (x p i) (z p)).2.1]
    exact block33_covariance _ hℓ a c _ _ _ (ht.2 p hp i hi).1 (ht.2 p hp i hi).2

/-- **C48**, two-observable kernel: its pairwise covariances are those of the two shears, its crosswise
covariances relate the two shears at the neighbours to all three observables at the query. -/
theorem C48_two_observables_partial (k : Kern) (hℓ : k.lengthScale ≠ 0) (b n : Nat) (hb : b ≠ 1) (hn : n ≠ 1)
    (z : Nat → ℝ × ℝ) (x : Nat → Nat → ℝ × ℝ) (t u : Tensor ℝ) (ht : PairwiseDiffs b n x t)
    (hu : CrosswiseDiffs b n z x u) :
    (∃ T, k.call23 t = .ok T ∧ T.shape = [b, 2, n, 2, n] ∧
      ∀ p < b, ∀ a : Fin 2, ∀ i < n, ∀ c : Fin 2, ∀ j < n,
        T.get [p, a, i, c, j] = covariance k.lengthScale a.succ c.succ (x p i) (x p j)) ∧
    (b ≠ n → ∃ T, k.call23 u = .ok T ∧ T.shape = [b, 2, n, 3] ∧
      ∀ p < b, ∀ a : Fin 2, ∀ i < n, ∀ c : Fin 3,
        T.get [p, a, i, c] = covariance k.lengthScale a.succ c (x p i) (z p)) := by
  have e1 : ∀ (s : Stats) (a c : Fin 2), blockIn23 k.lengthScale s a c = block33 k.lengthScale s a.succ c.succ := by
    intro s a c; fin_cases a <;> fin_cases c <;> rfl
  have e2 : ∀ (s : Stats) (a : Fin 2) (c : Fin 3), blockCross23 k.lengthScale s a c = block33 k.lengthScale s a.succ c := by
    intro s a c; fin_cases a <;> fin_cases c <;> rfl
  constructor
  · obtain ⟨T, h1, h2, h3⟩ := pairwise_frame 2 2 (blockIn23 k.lengthScale) k.lengthScale b n hb hn (by omega) (by omega) t ht.1
    refine ⟨T, ?_, h2, fun p hp a i hi c j hj => ?_⟩
    · unfold Kern.call23
      simp only [if_true, adjust_pairwise ht.1, bind, Except.bind, Bool.false_eq_true, if_false]
      exact h1
    · rw [h3 p hp a a.2 i hi c c.2 j hj, e1]
      exact block33_covariance _ hℓ a.succ c.succ _ _ _ (ht.2 p hp i hi j hj).1 (ht.2 p hp i hi j hj).2
  · intro hbn
    obtain ⟨T, h1, h2, h3⟩ := crosswise_frame 2 3 (blockCross23 k.lengthScale) k.lengthScale b n hb hn (by omega) (by omega) u hu.1
    refine ⟨T, ?_, h2, fun p hp a i hi c => ?_⟩
    · unfold Kern.call23
      simp only [if_true, adjust_crosswise hu.1 hbn, bind, Except.bind, Bool.false_eq_true, if_false]
      exact h1
    · rw [h3 p hp a a.2 i hi c c.2, e2, (C48_symmetric _ hℓ a.succ c (x p i) (z p)).2.1]
      exact block33_covariance _ hℓ a.succ c _ _ _ (hu.2 p hp i hi).1 (hu.2 p hp i hi).2

/-- **C48**, trial length scales: calling a shear kernel with `length_scale=ℓ` is calling the kernel built with
that length scale. -/
theorem C48_trial (k : Kern) (ℓ : ℝ) (t : Tensor ℝ) (adjust force : Bool) :
    k.call33 t adjust (some ℓ) = (⟨ℓ⟩ : Kern).call33 t adjust ∧
    k.call23 t adjust force (some ℓ) = (⟨ℓ⟩ : Kern).call23 t adjust force := ⟨rfl, rfl⟩

/-- The prior covariance of the three observables at a point: `diag (2, 1, 1) / ℓ²`, and it is the
covariance of the observables at equal points. -/
theorem C48_kout (k : Kern) (hℓ : k.lengthScale ≠ 0) :
    ∃ T, k.kout = .ok T ∧ k.kout23 = .ok T ∧ T.shape = [3, 3] ∧
      (∀ a c : Fin 3, ∀ s, T.get [a, c] = covariance k.lengthScale a c s s) ∧
      (∀ a c : Fin 3, T.get [a, c] = if a = c then (if a = 0 then 2 else 1) / k.lengthScale ^ 2 else 0) := by
  obtain ⟨U, h1, h2, h3⟩ := assemble_ok 3 3 (block33 k.lengthScale) k.lengthScale [] 1 1 2 (le_refl _)
    ⟨[1, 1, 2], fun _ => 0⟩ rfl
  have hs : U.squeeze.shape = [3, 3] := by unfold Tensor.squeeze; rw [h2]; rfl
  have hg : ∀ a c : Fin 3, U.squeeze.get [a, c] = block33 k.lengthScale (stats 2 k.lengthScale fun _ => 0) a c := by
    intro a c
    have h := h3 [] .nil a a.2 0 (by omega) c c.2 0 (by omega)
    have e1 : U.squeeze.get [a, c] = U.get ([] ++ [(a : Nat), 0, c, 0]) := by
      unfold Tensor.get; rw [hs, h2]
      simp [Tensor.ravel, Tensor.squeeze]
    rw [e1, h]; rfl
  have hc : ∀ a c : Fin 3, ∀ s, U.squeeze.get [a, c] = covariance k.lengthScale a c s s := by
    intro a c s
    rw [hg a c]
    exact block33_covariance _ hℓ a c s s _ (by simp) (by simp)
  refine ⟨U.squeeze, ?_, h1, hs, hc, ?_⟩
  · unfold Kern.kout Kern.call33
    simp only [if_true, adjust_square (n := 1) (t := ⟨[1, 1, 2], fun _ => 0⟩) rfl, bind, Except.bind]
    exact h1
  · intro a c
    rw [hg a c]
    fin_cases a <;> fin_cases c <;>
      simp [block33, kk, kg1, kg2, g1g1, g1g2, g2g2, stats] <;> field_simp <;> norm_num

/-! ## positive semidefiniteness and prediction -/

theorem neighbourCov_psd {o : Nat} (ℓ : ℝ) (hℓ : 0 < ℓ) (obs : Fin o → Fin 3) (n : Nat) (x : Nat → ℝ × ℝ) :
    (neighbourCov ℓ obs n x).PosSemidef :=
  covariance_psd ℓ hℓ (fun i : Fin (o * n) => obs (obsOf i)) (fun i => x (i % n))

/-- **C48**: the covariance matrices the two kernels produce for any points are positive semidefinite. -/
theorem C48_psd (k : Kern) (hℓ : 0 < k.lengthScale) (b n : Nat) (hb : b ≠ 1) (hn : n ≠ 1)
    (x : Nat → Nat → ℝ × ℝ) (t : Tensor ℝ) (ht : PairwiseDiffs b n x t) :
    (∃ T, k.call33 t = .ok T ∧ ∀ p < b, (Spec.cov5 3 n T p).PosSemidef) ∧
    (∃ T, k.call23 t = .ok T ∧ ∀ p < b, (Spec.cov5 2 n T p).PosSemidef) := by
  have hmod : ∀ {o : Nat} (i : Fin (o * n)), (i : Nat) % n < n := by
    intro o i
    refine Nat.mod_lt _ (Nat.pos_of_ne_zero fun h => ?_)
    subst h; exact absurd i.2 (by simp)
  constructor
  · obtain ⟨T, h1, _, h3⟩ := C48_pairwise_partial k hℓ.ne' b n hb hn x t ht
    refine ⟨T, h1, fun p hp => ?_⟩
    have : Spec.cov5 3 n T p = neighbourCov k.lengthScale id n (x p) := by
      ext i j
      exact h3 p hp (obsOf i) _ (hmod i) (obsOf j) _ (hmod j)
    rw [this]; exact neighbourCov_psd _ hℓ _ _ _
  · obtain ⟨⟨T, h1, _, h3⟩, _⟩ := C48_two_observables_partial k hℓ.ne' b n hb hn (fun _ => 0) x t
      (Tensor.ofFn [b, n, 2] fun i => if i.getD 2 0 = 0 then 0 - (x (i.getD 0 0) (i.getD 1 0)).1
        else 0 - (x (i.getD 0 0) (i.getD 1 0)).2) ht
      ⟨rfl, fun p hp i hi => ⟨by
        rw [Tensor.get_ofFn _ _ _ (.cons hp (.cons hi (.cons (by omega) .nil)))]; simp, by
        rw [Tensor.get_ofFn _ _ _ (.cons hp (.cons hi (.cons (by omega) .nil)))]; simp⟩⟩
    refine ⟨T, h1, fun p hp => ?_⟩
    have : Spec.cov5 2 n T p = neighbourCov k.lengthScale Fin.succ n (x p) := by
      ext i j
      exact h3 p hp (obsOf i) _ (hmod i) (obsOf j) _ (hmod j)
    rw [this]; exact neighbourCov_psd _ hℓ _ _ _

/-- Posterior covariance `C - Gᵀ (K + N)⁻¹ G` is positive semidefinite. -/
theorem posterior_psd {o : Nat} (ℓ : ℝ) (hℓ : 0 < ℓ) (obs : Fin o → Fin 3) (n : Nat) (x : Nat → ℝ × ℝ) (z : ℝ × ℝ)
    (N : Matrix (Fin (o * n)) (Fin (o * n)) ℝ) (hN : N.PosDef) :
    (Spec.krigingCov (priorCov ℓ z) (neighbourCov ℓ obs n x + N) (queryCov ℓ obs n x z)).PosSemidef := by
  have hA : (neighbourCov ℓ obs n x + N).PosDef := Matrix.PosDef.posSemidef_add (neighbourCov_psd ℓ hℓ obs n x) hN
  have hJ := covariance_psd ℓ hℓ (fun i : Fin (o * n) ⊕ Fin 3 => Sum.elim (fun i => obs (obsOf i)) id i)
    (fun i => Sum.elim (fun i : Fin (o * n) => x (i % n)) (fun _ => z) i)
  have hB : (fromBlocks N 0 0 (0 : Matrix (Fin 3) (Fin 3) ℝ)).PosSemidef := by
    rw [psd_iff]
    obtain ⟨h1, h2⟩ := (psd_iff N).mp hN.posSemidef
    constructor
    · rintro (i | i) (j | j) <;> simp [h1]
    · intro v
      refine (h2 fun i => v (Sum.inl i)).trans_eq ?_
      simp [Fintype.sum_sum_type]
  have hsum := hJ.add hB
  have e : (Matrix.of fun i j : Fin (o * n) ⊕ Fin 3 => covariance ℓ (Sum.elim (fun i => obs (obsOf i)) id i)
      (Sum.elim (fun i => obs (obsOf i)) id j) (Sum.elim (fun i : Fin (o * n) => x (i % n)) (fun _ => z) i)
      (Sum.elim (fun i : Fin (o * n) => x (i % n)) (fun _ => z) j)) + fromBlocks N 0 0 (0 : Matrix (Fin 3) (Fin 3) ℝ) =
      fromBlocks (neighbourCov ℓ obs n x + N) (queryCov ℓ obs n x z) (queryCov ℓ obs n x z)ᴴ (priorCov ℓ z) := by
    ext i j
    rcases i with i | i <;> rcases j with j | j
    · simp [neighbourCov]
    · simp [queryCov]
    · simp only [Matrix.add_apply, Matrix.of_apply, Sum.elim_inr, Sum.elim_inl, id, fromBlocks_apply₂₁, Matrix.zero_apply,
        add_zero, conjTranspose_apply, queryCov, star_trivial]
      rw [(C48_symmetric ℓ hℓ.ne' _ _ _ _).1, (C48_symmetric ℓ hℓ.ne' _ _ _ _).2.1]
    · simp [priorCov]
  rw [e] at hsum
  haveI := hA.isUnit.invertible
  exact (Matrix.PosDef.fromBlocks₁₁ (queryCov ℓ obs n x z) (priorCov ℓ z) hA).mp hsum

/-- What a prediction from observables `obs` promises: for every query the kriging mean of each of the three
observables from the neighbours' observations, and the scaled posterior covariance of the three. -/
def Predicts {o : Nat} (ℓ σ : ℝ) (obs : Fin o → Fin 3) (b n : Nat) (N : Matrix (Fin (o * n)) (Fin (o * n)) ℝ)
    (z : Nat → ℝ × ℝ) (x : Nat → Nat → ℝ × ℝ) (y μ V : Tensor ℝ) : Prop :=
  μ.shape = [b, 3] ∧ V.shape = [b, 3, 3] ∧ ∀ p < b, ∀ c : Fin 3,
    μ.get [p, c] = Spec.krigingMean (neighbourCov ℓ obs n (x p) + N) (fun i => queryCov ℓ obs n (x p) (z p) i c)
      (Spec.vec3 o n y p) ∧
    ∀ c' : Fin 3, V.get [p, c, c'] = σ * Spec.krigingCov (priorCov ℓ (z p)) (neighbourCov ℓ obs n (x p) + N)
      (queryCov ℓ obs n (x p) (z p)) c c'

theorem predict_core {o : Nat} (ℓ σ : ℝ) (hℓ : 0 < ℓ) (obs : Fin o → Fin 3) (b n : Nat)
    (N : Matrix (Fin (o * n)) (Fin (o * n)) ℝ) (hN : N.PosDef) (ν : Noise)
    (z : Nat → ℝ × ℝ) (x : Nat → Nat → ℝ × ℝ) (Kin Kcross Kout y : Tensor ℝ)
    (hK : Kin.shape = [b, o, n, o, n]) (hKv : ∀ p < b, Spec.cov5 o n Kin p = neighbourCov ℓ obs n (x p))
    (hC : Kcross.shape = [b, o, n, 3])
    (hCv : ∀ p < b, ∀ c : Fin 3, Spec.cross4 o n Kcross p c = fun i => queryCov ℓ obs n (x p) (z p) i c)
    (hO : Kout.shape = [3, 3]) (hOv : ∀ a c : Fin 3, ∀ s, Kout.get [a, c] = covariance ℓ a c s s)
    (hy : y.shape = [b, o, n])
    (hν : ∃ P, ν.perturb Kin = .ok P ∧ P.shape = [b, o, n, o, n] ∧
      ∀ p, P.matAt (o * n) (o * n) p = Kin.matAt (o * n) (o * n) p + N) :
    ∃ μ V, (MuyGPS.make ν Kout σ).posteriorMean Kin Kcross y = .ok μ ∧
      (MuyGPS.make ν Kout σ).posteriorVariance Kin Kcross = .ok V ∧ Predicts ℓ σ obs b n N z x y μ V := by
  obtain ⟨P, hP, hPs, hPm⟩ := hν
  have hcov : ∀ p < b, Spec.cov5 o n P p = neighbourCov ℓ obs n (x p) + N := by
    intro p hp
    rw [← matAt_cov5 P hPs, hPm, matAt_cov5 Kin hK, hKv p hp]
  have hpd : ∀ p, (neighbourCov ℓ obs n (x p) + N).PosDef := fun p =>
    Matrix.PosDef.posSemidef_add (neighbourCov_psd ℓ hℓ obs n (x p)) hN
  obtain ⟨μ, h1, h2, h3⟩ := C24_multi_output b o n 3 P Kcross y hPs hC hy
    (fun p hp => by rw [hcov p hp]; exact Kriging.det_ne_zero (hpd p))
    (fun p hp => by rw [hcov p hp]; exact Kriging.posdef_symm (hpd p))
  obtain ⟨W, g1, g2, g3⟩ := diagonalVariance_core' (N := o * n) (O := 3) b [o, n] [3] P Kcross Kout
    (by simp) (by simp) hPs hC (Or.inr hO)
    (fun p hp => by rw [matAt_cov5 P hPs, hcov p hp]; exact Kriging.det_ne_zero (hpd p))
  refine ⟨μ, W.map fun v => σ * v, ?_, ?_, h2, g2, fun p hp c => ⟨?_, fun c' => ?_⟩⟩
  · show ν.perturbFn _ Kin = _
    unfold Noise.perturbFn
    rw [hP]; exact h1
  · unfold MuyGPS.posteriorVariance MuyGPS.optVariance Noise.perturbFn
    have hP' : (MuyGPS.make ν Kout σ).noise.perturb Kin = .ok P := hP
    rw [hP']
    simp only [bind, Except.bind]
    have g1' : diagonalVariance P Kcross (MuyGPS.make ν Kout σ).kout = .ok W := g1
    rw [g1']; rfl
  · rw [h3 p hp c c.2, hcov p hp, hCv p hp c]
  · have hw := congrFun (congrFun (g3 p) c) c'
    have e1 : W.matAt 3 3 p c c' = W.get [p, c, c'] := Tensor.matAt_apply W g2 p c c'
    have e2 : ∀ a c : Fin 3, Kout.matAt 3 3 0 a c = covariance ℓ a c (z p) (z p) := by
      intro a c
      rw [← hOv a c]
      rw [Tensor.get2 Kout hO]
      show Kout.flat _ = _
      congr 1; ring
    have e3 : Kcross.matAt (o * n) 3 p = queryCov ℓ obs n (x p) (z p) := by
      ext i c
      rw [matAt_cross4 Kcross hC, hCv p hp c]
    show σ * W.get [p, c, c'] = _
    rw [← e1, hw, Matrix.sub_apply, e2, e3, matAt_cov5 P hPs, hcov p hp, transpose_mul,
      Kriging.inv_symm (Kriging.posdef_symm (hpd p))]
    rfl

theorem shearNoiseMat_posdef (n : Nat) {τ : ℝ} (hτ : 0 < τ) : (shearNoiseMat n τ).PosDef := by
  refine Matrix.PosDef.diagonal fun i => ?_
  split <;> linarith

theorem mod_lt_of {o n : Nat} (i : Fin (o * n)) : (i : Nat) % n < n := by
  refine Nat.mod_lt _ (Nat.pos_of_ne_zero fun h => ?_)
  subst h; exact absurd i.2 (by simp)

/-- The measurement noise a noise model with level `τ` stands for, for three observables. -/
noncomputable def noiseOf (n : Nat) (τ : ℝ) (shearNoise : Bool) : Noise × Matrix (Fin (3 * n)) (Fin (3 * n)) ℝ :=
  if shearNoise then (.shear33 τ, shearNoiseMat n τ) else (.homoscedastic τ, τ • 1)

/-- **C48**, prediction with all three observables: for every points, observations, positive length scale and
positive noise (homoscedastic or the shear noise model), predicting never raises, the predictions are the
kriging means of convergence and shears under the covariance of the derivatives of the Gaussian
potential, and the predicted covariances are the (scaled) posterior covariances. Needs at least two
queries and two neighbours, in different numbers. -/
theorem C48_predict_partial (k : Kern) (hℓ : 0 < k.lengthScale) (b n : Nat) (hb : b ≠ 1) (hn : n ≠ 1) (hbn : b ≠ n)
    (τ σ : ℝ) (hτ : 0 < τ) (shearNoise : Bool) (z : Nat → ℝ × ℝ) (x : Nat → Nat → ℝ × ℝ) (t u y : Tensor ℝ)
    (ht : PairwiseDiffs b n x t) (hu : CrosswiseDiffs b n z x u) (hy : y.shape = [b, 3, n]) :
    ∃ Kin Kcross Kout μ V, k.call33 t = .ok Kin ∧ k.call33 u = .ok Kcross ∧ k.kout = .ok Kout ∧
      (MuyGPS.make (noiseOf n τ shearNoise).1 Kout σ).posteriorMean Kin Kcross y = .ok μ ∧
      (MuyGPS.make (noiseOf n τ shearNoise).1 Kout σ).posteriorVariance Kin Kcross = .ok V ∧
      Predicts k.lengthScale σ id b n (noiseOf n τ shearNoise).2 z x y μ V := by
  obtain ⟨Kin, h1, h2, h3⟩ := C48_pairwise_partial k hℓ.ne' b n hb hn x t ht
  obtain ⟨Kcross, g1, g2, g3⟩ := C48_crosswise_partial k hℓ.ne' b n hb hn hbn z x u hu
  obtain ⟨Kout, f1, _, f2, f3, _⟩ := C48_kout k hℓ.ne'
  obtain ⟨μ, V, e1, e2, e3⟩ := predict_core k.lengthScale σ hℓ id b n (noiseOf n τ shearNoise).2 (by
      cases shearNoise
      · exact PosDef.one.smul hτ
      · exact shearNoiseMat_posdef n hτ) (noiseOf n τ shearNoise).1 z x Kin Kcross Kout y h2
    (fun p hp => by
      ext i j; exact h3 p hp (obsOf i) _ (mod_lt_of i) (obsOf j) _ (mod_lt_of j)) g2
    (fun p hp c => by
      funext i; exact g3 p hp (obsOf i) _ (mod_lt_of i) c) f2 f3 hy (by
      cases shearNoise
      · exact homoscedastic5 Kin τ h2
      · obtain ⟨P, p1, p2, p3⟩ := shear5 Kin τ h2
        refine ⟨P, p1, p2, fun p => ?_⟩
        rw [p3]
        congr 2
        funext i
        have : ((i : Nat) < n) = (obsOf i = 0) := by
          rw [Fin.ext_iff]
          show _ = ((i : Nat) / n = 0)
          have hn0 : 0 < n := lt_of_le_of_lt (Nat.zero_le _) (mod_lt_of i)
          rw [Nat.div_eq_zero_iff_lt hn0]
        simp only [this])
  exact ⟨Kin, Kcross, Kout, μ, V, h1, g1, f1, e1, e2, e3⟩

/-- **C48**, prediction of all three observables from observations of the two shears only. -/
theorem C48_predict_two_partial (k : Kern) (hℓ : 0 < k.lengthScale) (b n : Nat) (hb : b ≠ 1) (hn : n ≠ 1) (hbn : b ≠ n)
    (τ σ : ℝ) (hτ : 0 < τ) (z : Nat → ℝ × ℝ) (x : Nat → Nat → ℝ × ℝ) (t u y : Tensor ℝ)
    (ht : PairwiseDiffs b n x t) (hu : CrosswiseDiffs b n z x u) (hy : y.shape = [b, 2, n]) :
    ∃ Kin Kcross Kout μ V, k.call23 t = .ok Kin ∧ k.call23 u = .ok Kcross ∧ k.kout23 = .ok Kout ∧
      (MuyGPS.make (.homoscedastic τ) Kout σ).posteriorMean Kin Kcross y = .ok μ ∧
      (MuyGPS.make (.homoscedastic τ) Kout σ).posteriorVariance Kin Kcross = .ok V ∧
      Predicts k.lengthScale σ Fin.succ b n (τ • 1) z x y μ V := by
  obtain ⟨⟨Kin, h1, h2, h3⟩, hc⟩ := C48_two_observables_partial k hℓ.ne' b n hb hn z x t u ht hu
  obtain ⟨Kcross, g1, g2, g3⟩ := hc hbn
  obtain ⟨Kout, _, f1, f2, f3, _⟩ := C48_kout k hℓ.ne'
  obtain ⟨μ, V, e1, e2, e3⟩ := predict_core k.lengthScale σ hℓ Fin.succ b n (τ • 1) (PosDef.one.smul hτ)
    (.homoscedastic τ) z x Kin Kcross Kout y h2
    (fun p hp => by
      ext i j; exact h3 p hp (obsOf i) _ (mod_lt_of i) (obsOf j) _ (mod_lt_of j)) g2
    (fun p hp c => by
      funext i; exact g3 p hp (obsOf i) _ (mod_lt_of i) c) f2 f3 hy (homoscedastic5 Kin τ h2)
  exact ⟨Kin, Kcross, Kout, μ, V, h1, g1, f1, e1, e2, e3⟩

/-- Predicted covariances are positive semidefinite, in particular every predicted variance is non-negative,
and no predicted variance exceeds the (scaled) prior variance. -/
theorem C48_variance_bounds {o : Nat} (ℓ σ : ℝ) (hℓ : 0 < ℓ) (hσ : 0 ≤ σ) (obs : Fin o → Fin 3) (b n : Nat)
    (N : Matrix (Fin (o * n)) (Fin (o * n)) ℝ) (hN : N.PosDef) (z : Nat → ℝ × ℝ) (x : Nat → Nat → ℝ × ℝ)
    (y μ V : Tensor ℝ) (h : Predicts ℓ σ obs b n N z x y μ V) (p : Nat) (hp : p < b) :
    (Spec.cov 3 V p).PosSemidef ∧ ∀ c : Fin 3, 0 ≤ V.get [p, c, c] ∧ V.get [p, c, c] ≤ σ * covariance ℓ c c (z p) (z p) := by
  have e : Spec.cov 3 V p = σ • Spec.krigingCov (priorCov ℓ (z p)) (neighbourCov ℓ obs n (x p) + N)
      (queryCov ℓ obs n (x p) (z p)) := by
    ext c c'; exact (h.2.2 p hp c).2 c'
  have hpsd := (posterior_psd ℓ hℓ obs n (x p) (z p) N hN).smul hσ
  refine ⟨e ▸ hpsd, fun c => ⟨?_, ?_⟩⟩
  · have := hpsd.diag_nonneg (i := c)
    rw [(h.2.2 p hp c).2 c]; exact this
  · rw [(h.2.2 p hp c).2 c]
    refine mul_le_mul_of_nonneg_left ?_ hσ
    have hpd : (neighbourCov ℓ obs n (x p) + N).PosDef :=
      Matrix.PosDef.posSemidef_add (neighbourCov_psd ℓ hℓ obs n (x p)) hN
    have hq := Kriging.quad_nonneg hpd (fun i => queryCov ℓ obs n (x p) (z p) i c)
    unfold Spec.krigingCov
    rw [Matrix.sub_apply]
    have e2 : ((queryCov ℓ obs n (x p) (z p))ᵀ * (neighbourCov ℓ obs n (x p) + N)⁻¹ * queryCov ℓ obs n (x p) (z p)) c c =
        (fun i => queryCov ℓ obs n (x p) (z p) i c) ⬝ᵥ
          ((neighbourCov ℓ obs n (x p) + N)⁻¹ *ᵥ fun i => queryCov ℓ obs n (x p) (z p) i c) := by
      rw [Matrix.mul_assoc]; rfl
    rw [e2]
    have : priorCov ℓ (z p) c c = covariance ℓ c c (z p) (z p) := rfl
    rw [this]; linarith

/-! ## where the code fails -/

/-- **C48 is false when there are as many queries as neighbours.** The crosswise differences are then mistaken
for pairwise ones: the result has shape `(3, n, 3, n)` instead of `(n, 3, n, 3)`, its entry `[a, i, c, j]` being
the covariance for query `i` and neighbour `j`. Unless `n = 3` the posterior mean then raises
`ValueError` for every covariance of the right shape. -/
theorem C48_square_crosswise_fails (k : Kern) (hℓ : k.lengthScale ≠ 0) (n : Nat) (hn : n ≠ 1)
    (z : Nat → ℝ × ℝ) (x : Nat → Nat → ℝ × ℝ) (t : Tensor ℝ) (ht : CrosswiseDiffs n n z x t) :
    ∃ T, k.call33 t = .ok T ∧ T.shape = [3, n, 3, n] ∧
      (∀ a : Fin 3, ∀ i < n, ∀ c : Fin 3, ∀ j < n, T.get [a, i, c, j] = covariance k.lengthScale a c (x i j) (z i)) ∧
      (n ≠ 3 → n ≠ 0 → ∀ Kin y, Kin.shape = [n, 3, n, 3, n] → y.shape = [n, 3, n] → posteriorMean Kin T y = .error .value) := by
  obtain ⟨U, h1, h2, h3⟩ := assemble_ok 3 3 (block33 k.lengthScale) k.lengthScale [] n n 2 (le_refl _) t ht.1
  have hq : U.squeeze = U := by rw [squeeze_self]; rw [h2]; simp [hn]
  refine ⟨U, ?_, h2, fun a i hi c j hj => ?_, ?_⟩
  · unfold Kern.call33
    simp only [if_true, adjust_square ht.1, bind, Except.bind]
    rw [← hq]; exact h1
  · have := h3 [] .nil a a.2 i hi c c.2 j hj
    simp only [List.nil_append] at this
    rw [this, (C48_symmetric _ hℓ a c (x i j) (z i)).2.1]
    exact block33_covariance _ hℓ a c _ _ _ (ht.2 i hi j hj).1 (ht.2 i hi j hj).2
  · intro hn3 hn0 Kin y hK hy
    have hU : U.shape = [3, n, 3, n] := h2
    unfold posteriorMean
    have hfm : findMatchingNdim y.shape Kin.shape = .ok 3 := by
      rw [hy, hK]; simp [findMatchingNdim]
    rw [hfm]
    simp only [bind, Except.bind, hK, hU, hy, dropTail2]
    rw [Tensor.reshape_ok y _ (by rw [hy]; simp), Tensor.reshape_ok Kin _ (by
      rw [hK]; simp only [List.length_drop, List.length_cons, List.length_nil, List.drop_succ_cons, List.drop_zero,
        List.prod_append, List.prod_cons, List.prod_nil, List.take]; norm_num [List.prod_cons]; ring_nf; simp)]
    simp only []
    rw [Tensor.reshape_err U _ (by
      rw [hU]
      simp only [List.length_drop, List.length_cons, List.length_nil, List.drop_succ_cons, List.drop_zero,
        List.prod_append, List.prod_cons, List.prod_nil]
      norm_num
      intro h
      have h' : n * n * (3 * (3 - n)) = 0 ∧ n * n * (3 * (n - 3)) = 0 := by
        have hz : (n : ℤ) * n * (3 * ((n : ℤ) - 3)) = 0 := by
          have := congrArg (fun m : ℕ => (m : ℤ)) h
          push_cast at this; linarith
        have hnz : (n : ℤ) ≠ 0 := by exact_mod_cast hn0
        have : (n : ℤ) - 3 = 0 := by
          rcases mul_eq_zero.mp hz with h0 | h0
          · rcases mul_eq_zero.mp h0 with h0 | h0 <;> exact absurd h0 hnz
          · rcases mul_eq_zero.mp h0 with h0 | h0
            · norm_num at h0
            · exact h0
        omega
      have : (n : ℤ) = 3 := by
        obtain ⟨ha, hb⟩ := h'
        have hnn : n * n ≠ 0 := Nat.mul_ne_zero hn0 hn0
        have h1 := (Nat.mul_eq_zero.mp ha).resolve_left hnn
        have h2 := (Nat.mul_eq_zero.mp hb).resolve_left hnn
        omega
      omega)]

/-- With three queries of three neighbours each the shape is the documented one but the values are not: even
with all points equal the entry that should be the convergence variance `2/ℓ²` is the shear variance `1/ℓ²`. -/
theorem C48_square_crosswise_silent (k : Kern) (hℓ : k.lengthScale ≠ 0) :
    ∃ t z x, CrosswiseDiffs 3 3 z x t ∧ ∃ T, k.call33 t = .ok T ∧ T.shape = [3, 3, 3, 3] ∧
      T.get [1, 0, 1, 0] = 1 / k.lengthScale ^ 2 ∧ covariance k.lengthScale 0 0 (x 1 1) (z 1) = 2 / k.lengthScale ^ 2 := by
  refine ⟨⟨[3, 3, 2], fun _ => 0⟩, fun _ => 0, fun _ _ => 0, ⟨rfl, fun p _ i _ => by simp [Tensor.get]⟩, ?_⟩
  obtain ⟨T, h1, h2, h3, _⟩ := C48_square_crosswise_fails k hℓ 3 (by omega) (fun _ => 0) (fun _ _ => 0)
    ⟨[3, 3, 2], fun _ => 0⟩ ⟨rfl, fun p _ i _ => by simp [Tensor.get]⟩
  obtain ⟨O, _, _, _, g1, g2⟩ := C48_kout k hℓ
  refine ⟨T, h1, h2, ?_, ?_⟩
  · have := h3 1 0 (by omega) 1 0 (by omega)
    rw [← g1 1 1, g2] at this
    simpa using this
  · rw [← g1 0 0, g2]; simp

/-- **C48 is false for a single query**: the batch axis is squeezed away, the covariance has shape `(3, n, 3, n)`
and predicting with it raises for every observation tensor and both noise models. -/
theorem C48_single_query_fails (k : Kern) (n : Nat) (hn : n ≠ 1) (t : Tensor ℝ) (ht : t.shape = [1, n, n, 2]) :
    ∃ T, k.call33 t = .ok T ∧ T.shape = [3, n, 3, n] ∧
      ∀ τ Kout σ Kcross y, (MuyGPS.make (.homoscedastic τ) Kout σ).posteriorMean T Kcross y = .error .value ∧
        (MuyGPS.make (.shear33 τ) Kout σ).posteriorMean T Kcross y = .error .value := by
  obtain ⟨U, h1, h2, _⟩ := assemble_ok 3 3 (block33 k.lengthScale) k.lengthScale [1] n n 2 (le_refl _) t ht
  have hs : U.squeeze.shape = [3, n, 3, n] := by unfold Tensor.squeeze; rw [h2]; simp [hn]
  refine ⟨U.squeeze, ?_, hs, fun τ Kout σ Kcross y => ⟨?_, ?_⟩⟩
  · unfold Kern.call33
    simp only [if_true, adjust_pairwise ht, bind, Except.bind]
    exact h1
  · show (do let K ← homoscedasticPerturb U.squeeze τ; posteriorMean K Kcross y) = _
    unfold homoscedasticPerturb; rw [hs]; rfl
  · show (do let K ← shearPerturb33 U.squeeze τ; posteriorMean K Kcross y) = _
    unfold shearPerturb33; rw [hs]; rfl

/-- **The prior covariance ignores a trial length scale**: during optimisation the posterior covariance of the
model with stored length scale `ℓ` and trial length scale `ℓ'` uses the prior covariance at `ℓ`; whatever the
trial covariances are, the reported convergence variance is off by `2/ℓ² - 2/ℓ'²`. -/
theorem C48_trial_variance_fails (k k' : Kern) (hℓ : 0 < k.lengthScale) (hℓ' : 0 < k'.lengthScale)
    (hne : k.lengthScale ≠ k'.lengthScale) (ν : Noise) (b o n : Nat) (Kin Kcross : Tensor ℝ)
    (hK : ∃ P, ν.perturb Kin = .ok P ∧ P.shape = [b, o, n, o, n] ∧ ∀ p < b, (P.matAt (o * n) (o * n) p).det ≠ 0)
    (hC : Kcross.shape = [b, o, n, 3]) :
    ∃ Kout Kout' V V', k.kout (some k'.lengthScale) = .ok Kout ∧ k'.kout = .ok Kout' ∧
      (MuyGPS.make ν Kout 1).optVariance Kin Kcross = .ok V ∧ (MuyGPS.make ν Kout' 1).optVariance Kin Kcross = .ok V' ∧
      ∀ p < b, V.get [p, 0, 0] - V'.get [p, 0, 0] = 2 / k.lengthScale ^ 2 - 2 / k'.lengthScale ^ 2 ∧
        V.get [p, 0, 0] ≠ V'.get [p, 0, 0] := by
  obtain ⟨P, hP, hPs, hdet⟩ := hK
  obtain ⟨O, f1, _, f2, _, f3⟩ := C48_kout k hℓ.ne'
  obtain ⟨O', f1', _, f2', _, f3'⟩ := C48_kout k' hℓ'.ne'
  obtain ⟨V, g1, g2, g3⟩ := diagonalVariance_core' (N := o * n) (O := 3) b [o, n] [3] P Kcross O
    (by simp) (by simp) hPs hC (Or.inr f2) hdet
  obtain ⟨V', g1', g2', g3'⟩ := diagonalVariance_core' (N := o * n) (O := 3) b [o, n] [3] P Kcross O'
    (by simp) (by simp) hPs hC (Or.inr f2') hdet
  refine ⟨O, O', V, V', f1, f1', ?_, ?_, fun p hp => ?_⟩
  · show (do let K ← ν.perturb Kin; diagonalVariance K Kcross O) = _
    rw [hP]; exact g1
  · show (do let K ← ν.perturb Kin; diagonalVariance K Kcross O') = _
    rw [hP]; exact g1'
  · have a1 := congrFun (congrFun (g3 p) 0) 0
    have a2 := congrFun (congrFun (g3' p) 0) 0
    have e1 : V.get [p, 0, 0] = V.matAt 3 3 p 0 0 := (Tensor.matAt_apply V g2 p 0 0).symm
    have e2 : V'.get [p, 0, 0] = V'.matAt 3 3 p 0 0 := (Tensor.matAt_apply V' g2' p 0 0).symm
    have b1 : O.matAt 3 3 0 0 0 = 2 / k.lengthScale ^ 2 := by
      have := f3 0 0
      rw [Tensor.get2 O f2] at this
      simpa [Tensor.matAt] using this
    have b2 : O'.matAt 3 3 0 0 0 = 2 / k'.lengthScale ^ 2 := by
      have := f3' 0 0
      rw [Tensor.get2 O' f2'] at this
      simpa [Tensor.matAt] using this
    have hd : V.get [p, 0, 0] - V'.get [p, 0, 0] = 2 / k.lengthScale ^ 2 - 2 / k'.lengthScale ^ 2 := by
      rw [e1, e2, a1, a2, Matrix.sub_apply, Matrix.sub_apply, b1, b2]; ring
    refine ⟨hd, fun heq => ?_⟩
    rw [heq, sub_self] at hd
    have h2 : k.lengthScale ^ 2 = k'.lengthScale ^ 2 := by
      have := hd.symm
      field_simp at this
      linarith
    exact hne (by
      rcases sq_eq_sq_iff_eq_or_eq_neg.mp h2 with h | h
      · exact h
      · linarith)

/-! ## the hypotheses can be met -/

/-- Two queries with three neighbours each on a line. -/
example : ∃ t u, PairwiseDiffs 2 3 (fun p i => ((p : ℝ) + i, 0)) t ∧
    CrosswiseDiffs 2 3 (fun p => ((p : ℝ), 1)) (fun p i => ((p : ℝ) + i, 0)) u := by
  refine ⟨Tensor.ofFn [2, 3, 3, 2] fun i => if i.getD 3 0 = 0 then (i.getD 1 0 : ℝ) - (i.getD 2 0 : ℝ) else 0,
    Tensor.ofFn [2, 3, 2] fun i => if i.getD 2 0 = 0 then -(i.getD 1 0 : ℝ) else 1, ⟨rfl, ?_⟩, ⟨rfl, ?_⟩⟩
  · intro p hp i hi j hj
    rw [Tensor.get_ofFn _ _ _ (.cons hp (.cons hi (.cons hj (.cons (by omega) .nil)))),
      Tensor.get_ofFn _ _ _ (.cons hp (.cons hi (.cons hj (.cons (by omega) .nil))))]
    simp
  · intro p hp i hi
    rw [Tensor.get_ofFn _ _ _ (.cons hp (.cons hi (.cons (by omega) .nil))),
      Tensor.get_ofFn _ _ _ (.cons hp (.cons hi (.cons (by omega) .nil)))]
    simp

/-- The covariance hypotheses of `C48_trial_variance_fails` are met by the kernel itself: two queries with three
neighbours each, noise one. -/
example (k : Kern) (hℓ : 0 < k.lengthScale) (t : Tensor ℝ) (ht : PairwiseDiffs 2 3 (fun p i => ((p : ℝ) + i, 0)) t) :
    ∃ Kin, k.call33 t = .ok Kin ∧ ∃ P, (Noise.homoscedastic 1).perturb Kin = .ok P ∧ P.shape = [2, 3, 3, 3, 3] ∧
      ∀ p < 2, (P.matAt (3 * 3) (3 * 3) p).det ≠ 0 := by
  obtain ⟨T, h1, h2, h3⟩ := C48_pairwise_partial k hℓ.ne' 2 3 (by omega) (by omega) _ t ht
  obtain ⟨P, p1, p2, p3⟩ := homoscedastic5 T 1 h2
  refine ⟨T, h1, P, p1, p2, fun p hp => ?_⟩
  have : Spec.cov5 3 3 T p = neighbourCov k.lengthScale id 3 (fun i => ((p : ℝ) + i, 0)) := by
    ext i j
    exact h3 p hp (obsOf i) _ (mod_lt_of i) (obsOf j) _ (mod_lt_of j)
  rw [p3, matAt_cov5 T h2, this]
  exact Kriging.det_ne_zero (Kriging.posdef_of_psd_add (neighbourCov_psd _ hℓ _ _ _) one_pos)

end Shear
end MuyGPyS
