import Verif.Props.Scale
import Verif.Props.MpiLoss
import Mathlib.Data.List.Sort
import Mathlib.Algebra.Order.Field.Basic

/-!
# Property C34: downsampled scale estimates
-/

namespace MuyGPyS
open Py Matrix

theorem countP_ge_of_take {α : Type _} (q : α → Bool) (l : List α) (k : Nat) (hk : k ≤ l.length)
    (h : ∀ (i : Nat) (hi : i < l.length), i < k → q l[i] = true) : k ≤ l.countP q := by
  have e : l.countP q = (l.take k).countP q + (l.drop k).countP q := by
    rw [← List.countP_append, List.take_append_drop]
  have : (l.take k).countP q = k := by
    have h2 : (l.take k).countP q = (l.take k).length := by
      rw [List.countP_eq_length]
      intro a ha
      obtain ⟨i, hi, rfl⟩ := List.mem_iff_getElem.1 ha
      simp only [List.length_take] at hi
      rw [List.getElem_take]
      exact h i (by omega) (by omega)
    rw [h2, List.length_take]; omega
  omega

theorem countP_ge_of_drop {α : Type _} (q : α → Bool) (l : List α) (k : Nat)
    (h : ∀ (i : Nat) (hi : i < l.length), k ≤ i → q l[i] = true) : l.length - k ≤ l.countP q := by
  have e : l.countP q = (l.take k).countP q + (l.drop k).countP q := by
    rw [← List.countP_append, List.take_append_drop]
  have : (l.drop k).countP q = l.length - k := by
    have h2 : (l.drop k).countP q = (l.drop k).length := by
      rw [List.countP_eq_length]
      intro a ha
      obtain ⟨i, hi, rfl⟩ := List.mem_iff_getElem.1 ha
      simp only [List.length_drop] at hi
      rw [List.getElem_drop]
      exact h _ (by omega) (by omega)
    rw [h2, List.length_drop]
  omega

/-- the defining property of a median: at least half of the values are `≤` it and at least half `≥` it -/
theorem median_spec (l : List ℝ) (hl : l ≠ []) : ∃ v, median l = some v ∧
    l.length ≤ 2 * l.countP (fun x => decide (x ≤ v)) ∧
    l.length ≤ 2 * l.countP (fun x => decide (v ≤ x)) := by
  set s := l.mergeSort (fun a b => decide (a ≤ b)) with hs
  have hperm : s.Perm l := List.mergeSort_perm _ _
  have hlen : s.length = l.length := hperm.length_eq
  have hpos : 0 < l.length := List.length_pos_of_ne_nil hl
  have hsort : s.Pairwise (fun a b => a ≤ b) := by
    have := List.pairwise_mergeSort (le := fun a b : ℝ => decide (a ≤ b))
      (fun a b c h1 h2 => by simp at *; exact h1.trans h2)
      (fun a b => by simp; exact le_total a b) l
    simpa using this
  have hmono : ∀ (i j : Nat) (hi : i < s.length) (hj : j < s.length), i ≤ j → s[i] ≤ s[j] := by
    intro i j hi hj hij
    rcases Nat.lt_or_eq_of_le hij with h | h
    · exact List.pairwise_iff_getElem.1 hsort i j hi hj h
    · subst h; exact le_refl _
  have hc : ∀ q : ℝ → Bool, l.countP q = s.countP q := fun q => (hperm.countP_eq q).symm
  unfold median
  rw [if_neg hl, ← hs]
  by_cases hodd : l.length % 2 = 1
  · rw [if_pos hodd]
    have hm : l.length / 2 < s.length := by omega
    have hg : s.getD (l.length / 2) 0 = s[l.length / 2] := by simp [List.getD, hm]
    refine ⟨_, rfl, ?_, ?_⟩
    · rw [hc, hg]
      have := countP_ge_of_take (fun x => decide (x ≤ s[l.length / 2])) s (l.length / 2 + 1) (by omega)
        (fun i hi hk => by simpa using hmono i _ hi hm (by omega))
      omega
    · rw [hc, hg]
      have := countP_ge_of_drop (fun x => decide (s[l.length / 2] ≤ x)) s (l.length / 2)
        (fun i hi hk => by simpa using hmono _ i hm hi hk)
      omega
  · rw [if_neg hodd]
    have hm : l.length / 2 < s.length := by omega
    have hm1 : l.length / 2 - 1 < s.length := by omega
    have hg : s.getD (l.length / 2) 0 = s[l.length / 2] := by simp [List.getD, hm]
    have hg1 : s.getD (l.length / 2 - 1) 0 = s[l.length / 2 - 1] := by simp [List.getD, hm1]
    have hle := hmono (l.length / 2 - 1) (l.length / 2) hm1 hm (by omega)
    refine ⟨_, rfl, ?_, ?_⟩
    · rw [hc, hg, hg1]
      have := countP_ge_of_take (fun x => decide (x ≤ (s[l.length / 2 - 1] + s[l.length / 2]) / 2)) s
        (l.length / 2) (by omega)
        (fun i hi hk => by
          have := hmono i (l.length / 2 - 1) hi hm1 (by omega)
          simp only [decide_eq_true_eq]; linarith)
      omega
    · rw [hc, hg, hg1]
      have := countP_ge_of_drop (fun x => decide ((s[l.length / 2 - 1] + s[l.length / 2]) / 2 ≤ x)) s
        (l.length / 2)
        (fun i hi hk => by
          have := hmono (l.length / 2) i hm hi (by omega)
          simp only [decide_eq_true_eq]; linarith)
      omega

theorem subEstimate_bounds {n b d : Nat} (hd : 0 < d) (hb : 0 < b)
    (K : Nat → Matrix (Fin n) (Fin n) ℝ) (y : Nat → Fin n → ℝ)
    (hpd : ∀ p < b, (K p).PosDef) (s : List Nat) :
    0 ≤ Spec.subEstimate b d K y s ∧
    Spec.subEstimate b d K y s ≤ (∑ p ∈ Finset.range b, Spec.quadForm (K p) (y p)) / ((d : ℝ) * b) := by
  constructor
  · refine div_nonneg (Finset.sum_nonneg fun p hp => ?_) (by positivity)
    exact Kriging.quad_nonneg ((hpd p (Finset.mem_range.1 hp)).submatrix
      (Finset.orderEmbOfFin _ rfl).injective) _
  · refine div_le_div_of_nonneg_right (Finset.sum_le_sum fun p hp => ?_) (by positivity)
    exact Kriging.quad_submatrix (hpd p (Finset.mem_range.1 hp)) _
      (Finset.orderEmbOfFin _ rfl).injective _

/-- one iteration of the loop -/
theorem downSample_one {b n d : Nat} (pK y : Tensor ℝ) (hK : pK.shape = [b, n, n])
    (hy : y.shape = [b, n]) (s : List Nat) (hsl : s.length = d) (hnd : s.Nodup) (hlt : ∀ i ∈ s, i < n)
    (hpd : ∀ p < b, (Spec.cov n pK p).PosDef) :
    downSampleOne b d pK y s
      = .ok (∑ p ∈ Finset.range b, Spec.subForm (Spec.cov n pK p) (Spec.vec n y p)
          (Finset.univ.filter fun i : Fin n => (i : Nat) ∈ s)) := by
  unfold downSampleOne
  extract_lets t A Y
  have ht : t = s.mergeSort (fun a b => decide (a ≤ b)) := rfl
  have hperm : t.Perm s := List.mergeSort_perm _ _
  have hlen : t.length = d := by rw [hperm.length_eq, hsl]
  have hsort : t.Pairwise (fun a b => a ≤ b) := by
    have := List.pairwise_mergeSort (le := fun a b : Nat => decide (a ≤ b))
      (fun a b c h1 h2 => by simp at *; omega)
      (fun a b => by simp; omega) s
    simpa using this
  have htn : t.Nodup := hperm.nodup_iff.2 hnd
  have hmem : ∀ i (hi : i < t.length), t[i] < n := fun i hi =>
    hlt _ (hperm.mem_iff.1 (List.getElem_mem hi))
  let e : Fin d → Fin n := fun i => ⟨t[i]'(by omega), hmem i (by omega)⟩
  have hmono : StrictMono e := by
    intro i j hij
    have h1 := List.pairwise_iff_getElem.1 hsort i j (by omega) (by omega) hij
    have h2 : t[i]'(by omega) ≠ t[j]'(by omega) := by
      intro h
      have := (List.Nodup.getElem_inj_iff htn).1 h
      exact absurd hij (by rw [Fin.lt_def, this]; omega)
    exact Fin.lt_def.2 (lt_of_le_of_ne (α := Nat) h1 h2)
  set S : Finset (Fin n) := Finset.univ.filter fun i : Fin n => (i : Nat) ∈ s with hS
  have himg : S = Finset.univ.image e := by
    ext i
    simp only [hS, Finset.mem_filter, Finset.mem_univ, true_and, Finset.mem_image]
    constructor
    · intro hi
      obtain ⟨k, hk, hki⟩ := List.mem_iff_getElem.1 (hperm.mem_iff.2 hi)
      exact ⟨⟨k, by omega⟩, Fin.ext hki⟩
    · rintro ⟨k, rfl⟩
      exact hperm.mem_iff.1 (List.getElem_mem _)
  have hcard : S.card = d := by
    rw [himg, Finset.card_image_of_injective _ hmono.injective, Finset.card_univ, Fintype.card_fin]
  have hmemS : ∀ x, e x ∈ S := fun x => by
    rw [himg]; exact Finset.mem_image_of_mem _ (Finset.mem_univ _)
  have hsub : ∀ p, Spec.subForm (Spec.cov n pK p) (Spec.vec n y p) S
      = Spec.quadForm ((Spec.cov n pK p).submatrix e e) (Spec.vec n y p ∘ e) := by
    intro p
    clear_value e S
    subst hcard
    have he : e = S.orderEmbOfFin rfl := Finset.orderEmbOfFin_unique rfl hmemS hmono
    rw [he]; rfl
  have hgetD : ∀ i : Fin d, t.getD i 0 = e i := by
    intro i
    show t.getD i 0 = t[(i : Nat)]
    simp [List.getD, hlen]
  have hy2 : Y.shape = [b, d] := by
    show b :: d :: y.shape.drop 2 = [b, d]
    rw [hy]; rfl
  have hcov : ∀ p < b, Spec.cov d A p = (Spec.cov n pK p).submatrix e e := by
    intro p hp
    ext i j
    show A.get [p, i, j] = pK.get [p, e i, e j]
    rw [Tensor.get_ofFn _ _ _ (by
      repeat' constructor
      · exact hp
      · exact i.2
      · exact j.2)]
    show pK.get [p, t.getD i 0, t.getD j 0] = _
    rw [hgetD, hgetD]
  have hvec : ∀ p < b, Spec.vec d Y p = Spec.vec n y p ∘ e := by
    intro p hp
    ext i
    show Y.get [p, i] = y.get [p, e i]
    rw [Tensor.get_ofFn _ _ _ (by
      rw [hy]
      repeat' constructor
      · exact hp
      · exact i.2)]
    show y.get [p, t.getD i 0] = _
    rw [hgetD]
  rw [scaleUnnormalized_two A Y hy2, scaleUnnormalized_three (b := b) (n := d) (r := 1) A _ rfl rfl]
  · congr 1
    refine Finset.sum_congr rfl fun p hp => ?_
    have hp' := Finset.mem_range.1 hp
    rw [Finset.sum_range_one, hsub, hcov p hp', ← hvec p hp']
    congr 1
    ext i
    simp [Spec.vecR, Spec.vec, Tensor.get, Tensor.ravel, hy2]
  · intro p hp
    rw [hcov p hp]
    exact Kriging.det_ne_zero ((hpd p hp).submatrix hmono.injective)

theorem countP_map_div {α : Type _} (f : α → ℝ) (q : ℝ → Bool) (l : List α) :
    (l.map f).countP q = l.countP (fun a => q (f a)) := List.countP_map

/-- **C34.** A neighbourhood not larger than the sample is rejected. Otherwise, whatever
duplicate-free samples of `d` positions the random generator draws (at least one), the result is a median
of the per-sample estimates `1/(b d) Σ_i (Y_i|s)ᵀ ((K_i + noise_i)|s)⁻¹ (Y_i|s)`: at least half of
them are `≤` it and at least half `≥` it, so it lies between the smallest and the largest; and every
per-sample estimate is non-negative and at most the full quadratic form over `b d`. -/
theorem C34_downsample (ν : Noise) (b n d : Nat) (hν : ν.Fits b n) (Kin y : Tensor ℝ)
    (hK : Kin.shape = [b, n, n]) (hy : y.shape = [b, n]) (samples : List (List Nat)) :
    (n ≤ d → downSampleOpt ν d samples Kin y = .error .value) ∧
    (d < n → 0 < d → 0 < b → samples ≠ [] →
      (∀ p < b, (Spec.cov n Kin p + ν.mat n p).PosDef) →
      (∀ s ∈ samples, s.length = d ∧ s.Nodup ∧ ∀ i ∈ s, i < n) →
      let est := Spec.subEstimate b d (fun p => Spec.cov n Kin p + ν.mat n p) (Spec.vec n y)
      ∃ v, downSampleOpt ν d samples Kin y = .ok (some v) ∧
        samples.length ≤ 2 * samples.countP (fun s => decide (est s ≤ v)) ∧
        samples.length ≤ 2 * samples.countP (fun s => decide (v ≤ est s)) ∧
        (∃ s ∈ samples, est s ≤ v) ∧ (∃ s ∈ samples, v ≤ est s) ∧
        ∀ s ∈ samples, 0 ≤ est s ∧
          est s ≤ (∑ p ∈ Finset.range b,
            Spec.quadForm (Spec.cov n Kin p + ν.mat n p) (Spec.vec n y p)) / ((d : ℝ) * b)) := by
  constructor
  · intro h
    unfold downSampleOpt
    simp only [hK, h, if_true]
  · intro hdn hd hb hne hpd hsamp est
    obtain ⟨P, h1, h2, h3⟩ := ν.perturb_cov hν Kin hK
    have hpdP : ∀ p < b, (Spec.cov n P p).PosDef := fun p hp => by rw [h3]; exact hpd p hp
    set g : List Nat → ℝ := fun s => ∑ p ∈ Finset.range b, Spec.subForm (Spec.cov n P p) (Spec.vec n y p)
          (Finset.univ.filter fun i : Fin n => (i : Nat) ∈ s) with hg
    have hest : ∀ s, est s = g s / ((d : ℝ) * b) := by
      intro s
      simp only [est, Spec.subEstimate, hg, h3]
    have hmap : ∀ s ∈ samples, downSampleOne b d P y s = .ok (g s) := fun s hs =>
      downSample_one P y h2 hy s (hsamp s hs).1 (hsamp s hs).2.1 (hsamp s hs).2.2 hpdP
    obtain ⟨w, hw, hw1, hw2⟩ := median_spec (samples.map g) (by simpa using hne)
    have hdb : ((d * b : Nat) : ℝ) = (d : ℝ) * b := by push_cast; rfl
    have hdb0 : 0 < (d : ℝ) * b := by positivity
    have hdb1 : d * b ≠ 0 := by positivity
    have hmm := Mpi.mapM_ok _ g samples hmap
    have hres : downSampleOpt ν d samples Kin y = .ok (some (w / ((d : ℝ) * b))) := by
      unfold downSampleOpt
      simp only [hK, if_neg (Nat.not_le.2 hdn), h1]
      simp only [bind, Except.bind]
      rw [hmm]
      simp only [pure, Except.pure]
      rw [if_neg hdb1, hw, Option.map_some, hdb]
    rw [List.length_map, List.countP_map] at hw1 hw2
    have c1 : (fun s => decide (est s ≤ w / ((d : ℝ) * b))) = (fun x => decide (x ≤ w)) ∘ g := by
      funext s
      simp only [Function.comp, hest, div_le_div_iff_of_pos_right hdb0]
    have c2 : (fun s => decide (w / ((d : ℝ) * b) ≤ est s)) = (fun x => decide (w ≤ x)) ∘ g := by
      funext s
      simp only [Function.comp, hest, div_le_div_iff_of_pos_right hdb0]
    have hlen := List.length_pos_of_ne_nil hne
    have k1 : samples.length ≤ 2 * samples.countP (fun s => decide (est s ≤ w / ((d : ℝ) * b))) := by
      rw [c1]; exact hw1
    have k2 : samples.length ≤ 2 * samples.countP (fun s => decide (w / ((d : ℝ) * b) ≤ est s)) := by
      rw [c2]; exact hw2
    refine ⟨_, hres, k1, k2, ?_, ?_, fun s _ => subEstimate_bounds hd hb _ _ hpd s⟩
    · have : 0 < samples.countP (fun s => decide (est s ≤ w / ((d : ℝ) * b))) := by omega
      obtain ⟨s, hs, h⟩ := List.countP_pos_iff.1 this
      exact ⟨s, hs, by simpa using h⟩
    · have : 0 < samples.countP (fun s => decide (w / ((d : ℝ) * b) ≤ est s)) := by omega
      obtain ⟨s, hs, h⟩ := List.countP_pos_iff.1 this
      exact ⟨s, hs, by simpa using h⟩

/-- **C34, where validation is weaker than its message.** The constructor's "must be a positive
integer" check accepts 0; with `iteration_count = 0`, or `down_count = 0`, the optimiser then returns
`nan` for every input it does not reject. -/
theorem C34_zero_counts_accepted (ν : Noise) (b n d : Nat) (hν : ν.Fits b n) (Kin y : Tensor ℝ)
    (hK : Kin.shape = [b, n, n]) (hdn : d < n) :
    checkPositiveInteger 0 = .ok 0 ∧ downSampleOpt ν d [] Kin y = .ok none := by
  obtain ⟨P, h1, h2, h3⟩ := ν.perturb_cov hν Kin hK
  refine ⟨rfl, ?_⟩
  unfold downSampleOpt
  simp only [hK, if_neg (Nat.not_le.2 hdn), h1]
  show Except.ok _ = _
  congr 1
  simp [median]

/-- negative counts are rejected -/
theorem C34_negative_counts_rejected (c : Int) (h : c < 0) : checkPositiveInteger c = .error .value :=
  if_pos h

/-- the hypotheses are met: one position sampled from the example neighbourhood of two -/
example : exK.shape = [1, 2, 2] ∧ (Noise.null).Fits 1 2 ∧ (1 < 2) ∧
    (∀ p < 1, (Spec.cov 2 exK p + Noise.null.mat 2 p).PosDef) ∧
    (∀ s ∈ [[0], [1], [1]], s.length = 1 ∧ s.Nodup ∧ ∀ i ∈ s, i < 2) := by
  refine ⟨rfl, trivial, by norm_num, ?_, by simp⟩
  intro p hp
  obtain rfl : p = 0 := by omega
  rw [show Noise.null.mat 2 0 = 0 from rfl, add_zero]; exact exK_posdef

end MuyGPyS
