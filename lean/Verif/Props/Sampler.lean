import Verif.Spec.Sampler
import Mathlib.Data.List.GetD
import Mathlib.Algebra.Order.Floor.Semifield
import Mathlib.Tactic.Common
import Mathlib.Tactic.Linarith

/-!
# C74: how the samplers split their points
-/

namespace MuyGPyS.Sampler
open Py

/-- A block of the shuffled positions. -/
theorem block_get (sfl : List Nat) (m i d : Nat) (h : (i + 1) * m ≤ sfl.length) (hm : 0 < m) :
    chooseOne ((sfl.take ((i + 1) * m)).drop (i * m)) d = .ok (sfl.getD (i * m + d % m) 0) := by
  have hlen : ((sfl.take ((i + 1) * m)).drop (i * m)).length = m := by
    rw [List.length_drop, List.length_take, min_eq_left h]
    rw [Nat.add_mul]; omega
  have hd := Nat.mod_lt d hm
  have h2 : i * m + d % m < (i + 1) * m := by rw [Nat.add_mul]; omega
  unfold chooseOne
  rw [hlen, List.getElem?_drop, List.getElem?_take_of_lt h2, List.getElem?_eq_getElem (by omega), List.getD_eq_getElem _ _ (by omega)]

/-- The loop marks one point of every block. -/
theorem pick_ok (sfl : List Nat) (m : Nat) (hm : 0 < m) (draw : Nat → Nat) :
    ∀ (is : List Nat) (mask : List Bool), (∀ i ∈ is, (i + 1) * m ≤ sfl.length) → (∀ x ∈ sfl, x < mask.length) →
      ∃ out, pick sfl m draw is mask = .ok out ∧ out.length = mask.length ∧
        ∀ x, out.getD x false = true ↔ mask.getD x false = true ∨ ∃ i ∈ is, sfl.getD (i * m + draw i % m) 0 = x := by
  intro is
  induction is with
  | nil => intro mask _ _; exact ⟨mask, rfl, rfl, fun x => by simp⟩
  | cons i is ih =>
    intro mask h1 h2
    have hi := h1 i (List.mem_cons_self ..)
    have hr := Nat.mod_lt (draw i) hm
    have hb : i * m + draw i % m < sfl.length := by rw [Nat.add_mul] at hi; omega
    have hx : sfl.getD (i * m + draw i % m) 0 < mask.length := by
      rw [List.getD_eq_getElem _ _ hb]; exact h2 _ (List.getElem_mem _)
    obtain ⟨out, e1, e2, e3⟩ := ih (mask.set (sfl.getD (i * m + draw i % m) 0) true)
      (fun j hj => h1 j (List.mem_cons_of_mem _ hj)) (fun x hx => by rw [List.length_set]; exact h2 x hx)
    refine ⟨out, ?_, by rw [e2, List.length_set], fun x => ?_⟩
    · unfold pick
      rw [block_get sfl m i _ hi hm]
      exact e1
    · rw [e3 x]
      have : (mask.set (sfl.getD (i * m + draw i % m) 0) true).getD x false = true ↔
          mask.getD x false = true ∨ sfl.getD (i * m + draw i % m) 0 = x := by
        simp only [List.getD_eq_getElem?_getD, List.getElem?_set]
        simp only [List.getD_eq_getElem?_getD] at hx
        split
        · next h => subst h; simp [hx]
        · next h => simp [h]
      rw [this]
      simp only [List.mem_cons, exists_eq_or_imp, or_assoc]

theorem count_positions (mask : List Bool) : mask.count true = (positions mask).length := by
  unfold positions
  induction mask using List.reverseRecOn with
  | nil => rfl
  | append_singleton l b ih =>
    rw [List.count_append, ih, List.length_append, List.length_singleton, List.range_succ, List.filter_append, List.length_append]
    congr 1
    · congr 1
      apply List.filter_congr
      intro i hi
      rw [List.mem_range] at hi
      rw [List.getD_append _ _ _ _ hi]
    · cases b <;> simp [List.filter_cons, List.getD_eq_getElem?_getD]

theorem positions_nodup (mask : List Bool) : (positions mask).Nodup := List.nodup_range.filter _

theorem mem_positions (mask : List Bool) (i : Nat) : i ∈ positions mask ↔ mask.getD i false = true := by
  unfold positions
  rw [List.mem_filter, List.mem_range]
  refine ⟨fun h => h.2, fun h => ⟨?_, h⟩⟩
  by_contra hn
  rw [List.getD_eq_default _ _ (by omega)] at h
  cases h

theorem count_not (mask : List Bool) : (mask.map not).count true = mask.length - mask.count true := by
  induction mask with
  | nil => rfl
  | cons b l ih =>
    have := List.count_le_length (l := l) (a := true)
    cases b <;> simp [ih] <;> omega

/-- The split made from `c` blocks of `m` positions each. -/
theorem blocks (n c m : Nat) (hm : 0 < m) (hcm : c * m ≤ n) (sfl : List Nat) (hs : sfl.Perm (List.range n)) (draw : Nat → Nat) :
    ∃ mask, pick sfl m draw (List.range c) (List.replicate n false) = .ok mask ∧ mask.length = n ∧ mask.count true = c ∧
      (∀ x, mask.getD x false = true ↔ ∃ i < c, sfl.getD (i * m + draw i % m) 0 = x) := by
  have hl : sfl.length = n := by rw [hs.length_eq, List.length_range]
  have hnd : sfl.Nodup := hs.nodup_iff.mpr List.nodup_range
  obtain ⟨mask, h1, h2, h3⟩ := pick_ok sfl m hm draw (List.range c) (List.replicate n false)
    (fun i hi => by
      rw [List.mem_range] at hi
      rw [hl]; exact (Nat.mul_le_mul_right m hi).trans hcm)
    (fun x hx => by rw [List.length_replicate]; exact List.mem_range.mp (hs.mem_iff.mp hx))
  rw [List.length_replicate] at h2
  have h4 : ∀ x, mask.getD x false = true ↔ ∃ i < c, sfl.getD (i * m + draw i % m) 0 = x := fun x => by
    rw [h3 x]
    simp [List.getD_replicate]
  refine ⟨mask, h1, h2, ?_, h4⟩
  have hperm : (positions mask).Perm ((List.range c).map fun i => sfl.getD (i * m + draw i % m) 0) := by
    rw [List.perm_ext_iff_of_nodup (positions_nodup mask)]
    · intro x
      rw [mem_positions, h4]
      simp
    · refine List.Nodup.map_on ?_ List.nodup_range
      intro i hi j hj hij
      rw [List.mem_range] at hi hj
      have bi : i * m + draw i % m < sfl.length := by
        have := Nat.mod_lt (draw i) hm
        have := Nat.mul_le_mul_right m hi
        rw [Nat.succ_mul] at this; omega
      have bj : j * m + draw j % m < sfl.length := by
        have := Nat.mod_lt (draw j) hm
        have := Nat.mul_le_mul_right m hj
        rw [Nat.succ_mul] at this; omega
      rw [List.getD_eq_getElem _ _ bi, List.getD_eq_getElem _ _ bj] at hij
      have := (List.Nodup.getElem_inj_iff hnd).mp hij
      have e : ∀ a, (a * m + draw a % m) / m = a := fun a => by
        rw [mul_comm, Nat.mul_add_div hm, Nat.div_eq_of_lt (Nat.mod_lt _ hm), add_zero]
      rw [← e i, ← e j, this]
  rw [count_positions, hperm.length_eq, List.length_map, List.length_range]

theorem trunc_nat (x : ℝ) (hx : 0 ≤ x) : truncInt x = (⌊x⌋₊ : ℤ) := by
  unfold truncInt
  rw [if_pos hx, Int.natCast_floor_eq_floor hx]

theorem trunc_div (n c : Nat) : (truncInt ((n : ℝ) / ((c : ℤ) : ℝ))).toNat = n / c := by
  rw [trunc_nat _ (by positivity)]
  rw [Int.toNat_natCast, Int.cast_natCast, Nat.floor_div_eq_div]

/-- **C74** (partial): with a ratio that leaves at least one training point and asks for no more than all of them, the sampler splits
its points, for every shuffle and every draw, into `⌊ratio · n⌋` training points and the others as test points; and the training points are spread
over the shuffled order, one in each block of `n / ⌊ratio · n⌋` consecutive positions. -/
theorem C74_split_partial (n : Nat) (ratio : ℝ) (h1 : 1 ≤ ⌊n * ratio⌋₊) (hn : ⌊n * ratio⌋₊ ≤ n) (sfl : List Nat)
    (hs : sfl.Perm (List.range n)) (draw : Nat → Nat) :
    ∃ S, split n ratio sfl draw = .ok S ∧ S.Parts n ⌊n * ratio⌋₊ ∧
      ∀ i < ⌊n * ratio⌋₊, ∃! j, j < n / ⌊n * ratio⌋₊ ∧ S.train.getD (sfl.getD (i * (n / ⌊n * ratio⌋₊) + j) 0) false = true := by
  set c := ⌊n * ratio⌋₊ with hc
  have hpos : 0 ≤ (n : ℝ) * ratio := by
    by_contra hneg
    push Not at hneg
    rw [Nat.floor_of_nonpos hneg.le] at hc
    omega
  have ht : truncInt (n * ratio) = (c : ℤ) := trunc_nat _ hpos
  have hm : 0 < n / c := Nat.div_pos hn h1
  have hcm : c * (n / c) ≤ n := Nat.mul_div_le n c
  have hl : sfl.length = n := by rw [hs.length_eq, List.length_range]
  have hnd : sfl.Nodup := hs.nodup_iff.mpr List.nodup_range
  obtain ⟨mask, e1, e2, e3, e4⟩ := blocks n c (n / c) hm hcm sfl hs draw
  refine ⟨⟨mask, mask.map not⟩, ?_, ⟨e2, ?_, fun i hi => ?_, e3, ?_⟩, fun i hi => ?_⟩
  · unfold split
    simp only [ht, trunc_div, Int.toNat_natCast]
    rw [if_neg (by omega), e1]
  · show (mask.map not).length = n
    rw [List.length_map, e2]
  · show (mask.map not).getD i false = !mask.getD i false
    rw [List.getD_eq_getElem _ _ (by rw [List.length_map]; omega), List.getD_eq_getElem _ _ (by omega), List.getElem_map]
  · show (mask.map not).count true = n - c
    rw [count_not, e2, e3]
  · refine ⟨draw i % (n / c), ⟨Nat.mod_lt _ hm, (e4 _).mpr ⟨i, hi, rfl⟩⟩, ?_⟩
    rintro j ⟨hj, hj2⟩
    obtain ⟨a, ha, hab⟩ := (e4 _).mp hj2
    have bi : i * (n / c) + j < sfl.length := by
      have := Nat.mul_le_mul_right (n / c) hi
      rw [Nat.succ_mul] at this; omega
    have ba : a * (n / c) + draw a % (n / c) < sfl.length := by
      have := Nat.mod_lt (draw a) hm
      have := Nat.mul_le_mul_right (n / c) ha
      rw [Nat.succ_mul] at this; omega
    rw [List.getD_eq_getElem _ _ bi, List.getD_eq_getElem _ _ ba] at hab
    have heq := (List.Nodup.getElem_inj_iff hnd).mp hab
    have hdiv : (a * (n / c) + draw a % (n / c)) / (n / c) = (i * (n / c) + j) / (n / c) := congrArg (· / (n / c)) heq
    rw [mul_comm a, mul_comm i, Nat.mul_add_div hm, Nat.mul_add_div hm, Nat.div_eq_of_lt (Nat.mod_lt _ hm), Nat.div_eq_of_lt hj] at hdiv
    have : a = i := by omega
    subst this
    omega

/-- Selecting the rows of a table. -/
theorem select_ok (t : Tensor ℝ) (n : Nat) (rest : List Nat) (ht : t.shape = n :: rest) (mask : List Bool) (hm : mask.length = n) :
    ∃ out, select t mask = .ok out ∧ out.shape = mask.count true :: rest ∧
      ∀ i < mask.count true, ∀ k < rest.prod, out.flat (i * rest.prod + k) = t.flat ((positions mask).getD i 0 * rest.prod + k) := by
  refine ⟨_, by unfold select; rw [ht]; simp only; rw [if_pos hm], by rw [count_positions], fun i _ k hk => ?_⟩
  show t.flat _ = _
  have h0 : 0 < rest.prod := by omega
  rw [mul_comm i, Nat.mul_add_div h0, Nat.div_eq_of_lt hk, add_zero, Nat.mul_add_mod, Nat.mod_eq_of_lt hk]

/-- The positions of the training and of the test points make up all positions. -/
theorem Split.Parts.perm {S : Split} {n c : Nat} (h : S.Parts n c) : (positions S.train ++ positions S.test).Perm (List.range n) := by
  have hlt : ∀ x, S.train.getD x false = true → x < n := fun x hx => by
    by_contra hn
    rw [List.getD_eq_default _ _ (by have := h.train; omega)] at hx; cases hx
  have hlt' : ∀ x, S.test.getD x false = true → x < n := fun x hx => by
    by_contra hn
    rw [List.getD_eq_default _ _ (by have := h.test; omega)] at hx; cases hx
  rw [List.perm_ext_iff_of_nodup _ List.nodup_range]
  · intro x
    rw [List.mem_append, mem_positions, mem_positions, List.mem_range]
    constructor
    · rintro (hx | hx)
      · exact hlt x hx
      · exact hlt' x hx
    · intro hx
      rw [h.apart x hx]
      cases S.train.getD x false <;> simp
  · rw [List.nodup_append]
    refine ⟨positions_nodup _, positions_nodup _, fun a ha b hb hab => ?_⟩
    subst hab
    rw [mem_positions] at ha hb
    rw [h.apart a (hlt a ha), ha] at hb
    cases hb

/-- **C74**, features (partial): a sampler built with such a ratio hands out every point of its domain exactly once, as a training or as a test
feature. -/
theorem C74_features_partial (x : Tensor ℝ) (n : Nat) (rest : List Nat) (hx : x.shape = n :: rest) (ratio : ℝ) (h1 : 1 ≤ ⌊n * ratio⌋₊)
    (hn : ⌊n * ratio⌋₊ ≤ n) (kernel : KernelObj) (noise : Noise) (measurement : ℝ) (sfl : List Nat) (hs : sfl.Perm (List.range n))
    (draw : Nat → Nat) :
    ∃ (S : Obj) (tr te : List Nat), create x n ratio kernel noise measurement sfl draw = .ok S ∧ S.masks.Parts n ⌊n * ratio⌋₊ ∧
      S.x = x ∧ S.gp = ⟨kernel, noise, 1⟩ ∧ S.measurementNoise = measurement ∧
      tr = positions S.masks.train ∧ te = positions S.masks.test ∧
      (tr ++ te).Perm (List.range n) ∧ tr.length = ⌊n * ratio⌋₊ ∧
      S.trainFeatures.shape = tr.length :: rest ∧ S.testFeatures.shape = te.length :: rest ∧
      (∀ i < tr.length, ∀ k < rest.prod, S.trainFeatures.flat (i * rest.prod + k) = x.flat (tr.getD i 0 * rest.prod + k)) ∧
      ∀ i < te.length, ∀ k < rest.prod, S.testFeatures.flat (i * rest.prod + k) = x.flat (te.getD i 0 * rest.prod + k) := by
  obtain ⟨M, e1, e2, -⟩ := C74_split_partial n ratio h1 hn sfl hs draw
  obtain ⟨a, a1, a2, a3⟩ := select_ok x n rest hx M.test e2.test
  obtain ⟨b, b1, b2, b3⟩ := select_ok x n rest hx M.train e2.train
  rw [count_positions] at a2 b2
  refine ⟨⟨x, M, b, a, BenchmarkGP.new kernel noise, measurement⟩, positions M.train, positions M.test, ?_, e2, rfl, rfl, rfl, rfl, rfl, e2.perm,
    by rw [← count_positions, e2.trainCount], b2, a2, fun i hi k hk => b3 i (by rwa [count_positions]) k hk,
    fun i hi k hk => a3 i (by rwa [count_positions]) k hk⟩
  unfold create
  simp only [e1, a1, b1, bind, Except.bind, pure, Except.pure]

/-- **C74** fails for ratios that ask for more training points than there are points: `ValueError`. -/
theorem C74_ratio_too_large_fails (n : Nat) (ratio : ℝ) (hn : n < ⌊n * ratio⌋₊) (sfl : List Nat) (draw : Nat → Nat) :
    split n ratio sfl draw = .error .value := by
  have hpos : 0 ≤ (n : ℝ) * ratio := by
    by_contra hneg
    push Not at hneg
    rw [Nat.floor_of_nonpos hneg.le] at hn
    omega
  set c := ⌊n * ratio⌋₊ with hc
  have ht : truncInt (n * ratio) = (c : ℤ) := trunc_nat _ hpos
  unfold split
  simp only [ht, trunc_div, Int.toNat_natCast]
  rw [if_neg (by omega), Nat.div_eq_of_lt hn]
  obtain ⟨k, hk⟩ : ∃ k, c = k + 1 := ⟨c - 1, by omega⟩
  rw [hk, List.range_succ_eq_map]
  unfold pick
  simp [chooseOne]

/-- **C74** fails for ratios that leave no training point: `ZeroDivisionError`. -/
theorem C74_ratio_too_small_fails (n : Nat) (ratio : ℝ) (h0 : 0 ≤ ratio) (hn : n * ratio < 1) (sfl : List Nat) (draw : Nat → Nat) :
    split n ratio sfl draw = .error .zeroDivision := by
  have hpos : 0 ≤ (n : ℝ) * ratio := by positivity
  unfold split
  simp only
  rw [if_pos]
  rw [trunc_nat _ hpos, Nat.floor_eq_zero.mpr hn]; rfl

/-- **C74** fails for the default arguments of `UnivariateSampler2D` (`points_per_dim=60, train_ratio=10`), whatever the shuffle and the draws. -/
theorem C74_default_fails (kernel : KernelObj) (noise : Noise) (measurement : ℝ) (sfl : List Nat) (draw : Nat → Nat) :
    univariate2D 60 10 kernel noise measurement sfl draw = .error .value := by
  have : ⌊((60 * 60 : Nat) : ℝ) * 10⌋₊ = 36000 := by
    have : ((60 * 60 : Nat) : ℝ) * 10 = ((36000 : Nat) : ℝ) := by norm_num
    rw [this, Nat.floor_natCast]
  unfold univariate2D create
  rw [C74_ratio_too_large_fails _ _ (by rw [this]; norm_num)]
  rfl

/-- **C74**: the seed does not determine the split. Whenever the blocks have at least two points, one and the same shuffle (the only thing the seed
determines) gives different training sets. -/
theorem C74_seed_fails (n : Nat) (ratio : ℝ) (h1 : 1 ≤ ⌊n * ratio⌋₊) (hn : 2 * ⌊n * ratio⌋₊ ≤ n) (sfl : List Nat)
    (hs : sfl.Perm (List.range n)) :
    ∃ draw draw' S S', split n ratio sfl draw = .ok S ∧ split n ratio sfl draw' = .ok S' ∧ S.train ≠ S'.train := by
  set c := ⌊n * ratio⌋₊ with hc
  obtain ⟨S, e1, e2, e3⟩ := C74_split_partial n ratio h1 (by omega) sfl hs fun _ => 0
  have hm : 2 ≤ n / c := (Nat.le_div_iff_mul_le h1).mpr hn
  have hpos : 0 ≤ (n : ℝ) * ratio := by
    by_contra hneg
    push Not at hneg
    rw [Nat.floor_of_nonpos hneg.le] at hc
    omega
  have key : ∀ d, ∃ mask, split n ratio sfl (fun _ => d) = .ok ⟨mask, mask.map not⟩ ∧
      ∀ x, mask.getD x false = true ↔ ∃ i < c, sfl.getD (i * (n / c) + d % (n / c)) 0 = x := by
    intro d
    obtain ⟨mask, a1, -, -, a4⟩ := blocks n c (n / c) (by omega) (Nat.mul_div_le n c) sfl hs fun _ => d
    refine ⟨mask, ?_, a4⟩
    unfold split
    simp only [trunc_nat _ hpos, ← hc, trunc_div, Int.toNat_natCast]
    rw [if_neg (by omega), a1]
  obtain ⟨m0, p1, p2⟩ := key 0
  obtain ⟨m1, q1, q2⟩ := key 1
  refine ⟨_, _, _, _, p1, q1, fun heq => ?_⟩
  simp only at heq
  have h0 : m0.getD (sfl.getD 0 0) false = true := (p2 _).mpr ⟨0, h1, by simp⟩
  rw [heq] at h0
  obtain ⟨i, hi, hij⟩ := (q2 _).mp h0
  have hl : sfl.length = n := by rw [hs.length_eq, List.length_range]
  have hnd : sfl.Nodup := hs.nodup_iff.mpr List.nodup_range
  rw [Nat.mod_eq_of_lt (by omega : 1 < n / c)] at hij
  have bi : i * (n / c) + 1 < sfl.length := by
    have := Nat.mul_le_mul_right (n / c) hi
    have := Nat.mul_div_le n c
    rw [Nat.succ_mul] at *; omega
  rw [List.getD_eq_getElem _ _ bi, List.getD_eq_getElem _ _ (by omega)] at hij
  have := (List.Nodup.getElem_inj_iff hnd).mp hij
  omega

/-- Non-vacuity of `C74_split_partial` and `C74_features_partial`: ten points, three of them for training. -/
example (kernel : KernelObj) (noise : Noise) (draw : Nat → Nat) :
    ∃ S, univariate 10 (3 / 10) kernel noise 1 (List.range 10) draw = .ok S ∧ S.trainFeatures.shape = [3] := by
  have h3 : ⌊((10 : Nat) : ℝ) * (3 / 10)⌋₊ = 3 := by
    have : ((10 : Nat) : ℝ) * (3 / 10) = ((3 : Nat) : ℝ) := by norm_num
    rw [this, Nat.floor_natCast]
  obtain ⟨S, tr, te, h, -, -, -, -, -, -, -, hc, hs, -⟩ := C74_features_partial (linspace 10) 10 [] rfl (3 / 10) (by rw [h3]; norm_num)
    (by rw [h3]; norm_num) kernel noise 1 (List.range 10) (List.Perm.refl _) draw
  exact ⟨S, h, by rw [hs, hc, h3]⟩

end MuyGPyS.Sampler
