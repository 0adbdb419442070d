import Verif.Model.UqPipeline
import Verif.Props.MultiPipeline
import Verif.Props.ClassifyUq

/-! # C67: two-class classification with calibrated confidence intervals, end to end -/

namespace MuyGPyS
open Py Matrix

theorem mid_ok (labels : Tensor ℝ) (N : Nat) (hl : labels.shape = [N, 2]) (hN : 0 < N) :
    midValue labels = .ok ((labels.get [0, 0] + labels.get [0, 1]) / 2) := by
  unfold midValue
  rw [hl]
  simp only
  rw [if_neg (by omega)]
  have : List.range 2 = [0, 1] := rfl
  rw [this]
  simp only [List.map_cons, List.map_nil, List.min?_cons', List.max?_cons', List.foldl_cons, List.foldl_nil]
  rw [min_add_max]

theorem signed_ok (labels : Tensor ℝ) (N : Nat) (hl : labels.shape = [N, 2]) :
    ∃ s, signedLabels labels = .ok s ∧ s.shape = [N] ∧ IntegerLabels s N ∧
      ∀ i < N, ∃ k : Nat, s.get [i] = 2 * k - 1 ∧ IsFirstMax (fun j => labels.get [i, j]) 2 k := by
  obtain ⟨c, c1, c2, c3, c4⟩ := classLabels_ok labels N 2 hl two_pos
  set s : Tensor ℝ := ⟨c.shape, fun i => 2 * c.flat i - 1⟩ with hs
  have hg : ∀ i, s.get [i] = 2 * c.get [i] - 1 := by
    intro i
    rw [Tensor.get1 s c2, Tensor.get1 c c2]
  refine ⟨s, by unfold signedLabels; rw [c1]; rfl, c2, fun i hi => ?_, fun i hi => ?_⟩
  · obtain ⟨z, hz⟩ := c3 i hi
    exact ⟨2 * z - 1, by rw [hg, hz]; push_cast; ring⟩
  · obtain ⟨k, k1, k2⟩ := c4 i hi
    exact ⟨k, by rw [hg, k1], k2⟩

/-- The rows of a balanced batch list different training points. -/
theorem balanced_rows (w : NNWrapper) (hw : w.Exact) (hn : 0 < w.nnCount) (hkN : w.nnCount + 1 ≤ w.N) (c : Tensor ℝ)
    (hc : c.shape = [w.N]) (bc : Int) (draws : List (List Nat)) (idx : List Nat) (nn : Tensor Int)
    (h : getBalancedBatch w c bc draws = .ok (idx, nn)) :
    ∀ q < idx.length, ∃ l : List Nat, rowList nn w.nnCount q = l.map Int.ofNat ∧ l.Nodup ∧ ∀ x ∈ l, x < w.N := by
  obtain ⟨b1, b2, b3, I, D, b4, b5⟩ := balanced_valid w hw hn hkN c hc bc draws idx nn h
  obtain ⟨I', D', i1, i2, -, i3⟩ := C41_batch_always w hw (arange w.N) w.N rfl (arange_valid _) (by omega) hkN
  obtain ⟨rfl, rfl⟩ := Prod.mk.inj (Except.ok.inj (b4.symm.trans i1))
  intro q hq
  obtain ⟨l, e1, e2, e3, e4, e5⟩ := i3 idx[q] (b1 _ (List.getElem_mem _))
  exact ⟨l, by rw [b5 q _ (List.getElem?_eq_getElem hq), e1], e3, e4⟩

/-- **C67**, what `do_classify_uq` returns. The model is the one `make_classifier` trains; the surrogate prediction of a test point
is its neighbours' common label, with variance zero, or the kriging mean of the labels with its variance; a calibration batch of
training points is drawn, each predicted from its own neighbours, and the objectives choose the cutoffs from the error rates on that
batch; there is one mask per objective, and it flags a test point iff the interval `prediction ± cutoff * variance` of the second
class contains the threshold, the midpoint of the first training label. If the batch cannot be drawn, the error is passed on. -/
theorem C67_actual (bs : Flt → ℝ → ℝ) (opt : Learner → TrainData → Res Learner) (cd ud : List (List Nat)) (bc ubc : Int)
    (objs : List (List (Option ℝ) → List (Option ℝ) → Nat → Nat → Nat)) (w : NNWrapper) (hw : w.Exact) (L L' : Learner)
    (test labels : Tensor ℝ) (h : makeClassifier opt cd bc w L labels = .ok L') (hu : ∀ b, L'.Usable w b)
    (m : Nat) (len : Fin w.f → ℝ) (hlen : L'.deform.HasLengths w.f len) (ht : test.shape = [m, w.f]) (hl : labels.shape = [w.N, 2])
    (hdec : FirstColumnDecides labels w.N 2) (hrn : w.nnCount ≠ 2) (hm : 0 < m) (hk0 : 0 < w.nnCount) (hkN : w.nnCount + 1 ≤ w.N) :
    ∃ (I : Tensor Int) (P V signed : Tensor ℝ),
      (∀ i < m, ∃ l : List Nat, rowList I w.nnCount i = l.map Int.ofNat ∧
        Nearest (· < w.N) (fun j => w.dist (rowPt test w.f i) (rowPt w.train w.f j)) w.nnCount l) ∧
      P.shape = [m, 2] ∧ V.shape = [m] ∧
      (∀ p < m, (SameLabel labels I w.nnCount 2 p →
          (∀ j < w.nnCount, ∀ c < 2, P.get [p, c] = nbrLabel labels I p j c) ∧ V.get [p] = 0) ∧
        (¬ SameLabel labels I w.nnCount 2 p → (∀ c < 2, P.get [p, c] =
          Spec.krigingMean (nbrCov bs L'.trainee.R.kernel len w.train w.N w.nnCount I p + L'.trainee.R.gp.noise.mat w.nnCount p)
            (nbrCross bs L'.trainee.R.kernel len w.train w.N w.nnCount I p (rowPt test w.f p))
            (nbrTargets labels w.N w.nnCount I p c)) ∧
          V.get [p] = L'.boundScale * Spec.krigingVar 1
            (nbrCov bs L'.trainee.R.kernel len w.train w.N w.nnCount I p + L'.trainee.R.gp.noise.mat w.nnCount p)
            (nbrCross bs L'.trainee.R.kernel len w.train w.N w.nnCount I p (rowPt test w.f p)))) ∧
      signed.shape = [w.N] ∧
      (∀ i < w.N, ∃ k : Nat, signed.get [i] = 2 * k - 1 ∧ IsFirstMax (fun j => labels.get [i, j]) 2 k) ∧
      (∀ e, getBalancedBatch w signed ubc ud = .error e → doClassifyUq bs opt cd ud bc ubc objs w L test labels = .error e) ∧
      ∀ idx nn, getBalancedBatch w signed ubc ud = .ok (idx, nn) →
        ∃ mean var : Tensor ℝ, (∀ q x, idx[q]? = some x → x < w.N ∧
            (∀ c < 2, mean.get [q, c] =
              Spec.krigingMean (nbrCov bs L'.trainee.R.kernel len w.train w.N w.nnCount nn q + L'.trainee.R.gp.noise.mat w.nnCount q)
                (nbrCross bs L'.trainee.R.kernel len w.train w.N w.nnCount nn q (rowPt w.train w.f x))
                (nbrTargets labels w.N w.nnCount nn q c)) ∧
            var.get [q] = L'.boundScale * Spec.krigingVar 1
              (nbrCov bs L'.trainee.R.kernel len w.train w.N w.nnCount nn q + L'.trainee.R.gp.noise.mat w.nnCount q)
              (nbrCross bs L'.trainee.R.kernel len w.train w.N w.nnCount nn q (rowPt w.train w.f x))) ∧
          (∀ e, trainCutoffs idx.length mean var (idx.map fun x => signed.get [x]) objs = .error e →
            doClassifyUq bs opt cd ud bc ubc objs w L test labels = .error e) ∧
          ∀ cutoffs, trainCutoffs idx.length mean var (idx.map fun x => signed.get [x]) objs = .ok cutoffs →
            ∃ masks, doClassifyUq bs opt cd ud bc ubc objs w L test labels = .ok (L', P, masks) ∧ masks.length = cutoffs.length ∧
              ∀ (i : Nat) (cut : ℝ), cutoffs[i]? = some cut → ∃ mask : List Bool, masks[i]? = some mask ∧ mask.length = m ∧
                ∀ p < m, (mask[p]? = some true ↔
                  Straddles (P.get [p, 1]) cut (V.get [p]) ((labels.get [0, 0] + labels.get [0, 1]) / 2)) := by
  set R := L'.trainee.R with hR
  have hk : R.kernel.make = R.kernel := usable_make (hu 0)
  have hν : ∀ b, R.gp.noise.Fits b w.nnCount := fun b => (hu b).2.2.1
  obtain ⟨I, D, h1, h2, h3⟩ := C44_uq_partial bs R hk rfl w hw test labels m len hlen ht hl hrn hm hk0 (by omega) hν hdec
  obtain ⟨I', D', q1, q2, q3, q4, q5⟩ := query_ok w hw test m w.nnCount ht hm hk0 (by omega)
  have hI : I' = I := by
    have : w.getNns test = .ok (I', D') := q1
    exact (Prod.mk.inj (Except.ok.inj (this.symm.trans h1))).1
  subst hI
  have hnear : ∀ i < m, ∃ l : List Nat, rowList I' w.nnCount i = l.map Int.ofNat ∧
        Nearest (· < w.N) (fun j => w.dist (rowPt test w.f i) (rowPt w.train w.f j)) w.nnCount l :=
    fun i hi => ⟨_, q4 i hi, hw.2 _ _ (by omega)⟩
  obtain ⟨P, V, p1, p2, p3, p4⟩ := h3 (usable_regular bs (hu m) hlen I'
    (fun i hi => by obtain ⟨l, e1, e2⟩ := hnear i hi; exact ⟨l, e1, e2.nodup, e2.mem⟩))
  obtain ⟨signed, s1, s2, s3, s4⟩ := signed_ok labels w.N hl
  have hmid := mid_ok labels w.N hl (by omega)
  have hrun : doClassifyUq bs opt cd ud bc ubc objs w L test labels =
      (getBalancedBatch w signed ubc ud).bind fun batch =>
        (trainTwoClassInterval bs R batch w.train labels signed objs).bind fun cutoffs =>
          (makeMasks P cutoffs V ((labels.get [0, 0] + labels.get [0, 1]) / 2)).bind fun masks => .ok (L', P, masks) := by
    unfold doClassifyUq
    simp only [h, bind, Except.bind]
    rw [p1]
    simp only [hmid, s1]
    rfl
  refine ⟨I', P, V, signed, hnear, p2, p3, p4, s2, s4, fun e he => by rw [hrun, he]; rfl, fun idx nn hb => ?_⟩
  obtain ⟨b1, b2, b3, -⟩ := balanced_valid w hw hk0 hkN signed s2 ubc ud idx nn hb
  obtain ⟨mean, var, r1, -, r2, r3, r4⟩ := C54_regress_multi_variance_partial bs R hk rfl w.train w.train labels (ofNats idx) nn
    w.N w.N w.f 2 idx.length w.nnCount hrn.symm len hlen (.inl hw.1) (.inl hw.1) hl rfl rfl b2 (ofNats_valid b1) b3 (hν _)
    (usable_regular bs (hu _) hlen nn (balanced_rows w hw hk0 hkN signed s2 ubc ud idx nn hb))
  obtain ⟨targets, t1, t2, t3⟩ := MuyGPyS.take_vec s2 (ofNats_valid b1)
  have htar : ((List.range idx.length).map fun i => targets.get [i]) = idx.map fun x => signed.get [x] := by
    apply List.ext_getElem (by simp)
    intro i hi hi'
    have hi2 : i < idx.length := by simpa using hi
    simp only [List.getElem_map, List.getElem_range]
    rw [Tensor.get1 targets t2, t3, ← Tensor.get1 (ofNats idx) rfl, ofNats_get, List.getD_eq_getElem?_getD,
      List.getElem?_eq_getElem hi2, Option.getD_some, pointOf_nat]
    unfold feature
    rw [s2]
  have hcut : trainTwoClassInterval bs R (idx, nn) w.train labels signed objs =
      trainCutoffs idx.length mean var (idx.map fun x => signed.get [x]) objs := by
    unfold trainTwoClassInterval
    simp only [t1, r1, bind, Except.bind, htar]
  refine ⟨mean, var, fun q x hq => ?_, fun e he => ?_, fun cutoffs hc => ?_⟩
  · have hq' := (List.getElem?_eq_some_iff.mp hq).1
    have hpt : pt w.train w.f (pointOf w.N ((ofNats idx).get [q])) = rowPt w.train w.f x := by
      rw [ofNats_get, List.getD_eq_getElem?_getD, hq, Option.getD_some, pointOf_nat, rowPt_pt hw.1]
    obtain ⟨x1, x2⟩ := r4 q hq'
    rw [hpt] at x1 x2
    exact ⟨b1 x (List.mem_of_getElem? hq), x1, x2⟩
  · rw [hrun, hb]
    show (trainTwoClassInterval bs R (idx, nn) w.train labels signed objs).bind _ = _
    rw [hcut, he]; rfl
  · obtain ⟨M, m1, m2, m3⟩ := C45_masks_actual P m 2 le_rfl p2 cutoffs V (.inl p3) ((labels.get [0, 0] + labels.get [0, 1]) / 2)
    refine ⟨M, ?_, m2, fun i cut hi => ?_⟩
    · rw [hrun, hb]
      show (trainTwoClassInterval bs R (idx, nn) w.train labels signed objs).bind _ = _
      rw [hcut, hc]
      show (makeMasks P cutoffs V ((labels.get [0, 0] + labels.get [0, 1]) / 2)).bind _ = _
      rw [m1]; rfl
    · obtain ⟨mask, a, b, d⟩ := m3 i cut hi
      refine ⟨mask, a, b, fun p hp => ?_⟩
      rw [d p hp, Tensor.get1 V p3]

/-- Cutoffs come from the grid, one per objective. -/
theorem cutoffs_grid {b : Nat} {mean var : Tensor ℝ} {targets : List ℝ}
    {objs : List (List (Option ℝ) → List (Option ℝ) → Nat → Nat → Nat)} {cs : List ℝ}
    (h : trainCutoffs b mean var targets objs = .ok cs) : cs.length = objs.length ∧ ∀ c ∈ cs, c ∈ cutGrid := by
  unfold trainCutoffs at h
  simp only at h
  induction objs generalizing cs with
  | nil =>
    rw [List.mapM_nil] at h
    obtain rfl := Except.ok.inj h
    simp
  | cons obj objs ih =>
    rw [List.mapM_cons] at h
    simp only [bind, Except.bind] at h
    split at h
    · cases h
    · rename_i v hv
      split at h
      · cases h
      · rename_i vs hvs
        obtain rfl := Except.ok.inj h
        obtain ⟨i1, i2⟩ := ih hvs
        refine ⟨by simp [i1], fun c hc => ?_⟩
        rcases List.mem_cons.mp hc with rfl | hc
        · split at hv
          · rename_i c' hg
            obtain rfl := Except.ok.inj hv
            exact List.mem_of_getElem? hg
          · cases hv
        · exact i2 c hc

theorem cutGrid_pos {c : ℝ} (h : c ∈ cutGrid) : 0 < c := by
  obtain ⟨i, -, rfl⟩ := (cutGrid_mem c).mp h
  positivity

/-- **C67**, what a returned result looks like: one mask per objective, for cutoffs between 0.01 and 20; a mask flags a test point
iff `prediction ± cutoff * variance` of the second class contains the midpoint of the first training label; the variance is not
negative, and zero where all neighbours carry the same label. -/
theorem C67_result (bs : Flt → ℝ → ℝ) (opt : Learner → TrainData → Res Learner) (cd ud : List (List Nat)) (bc ubc : Int)
    (objs : List (List (Option ℝ) → List (Option ℝ) → Nat → Nat → Nat)) (w : NNWrapper) (hw : w.Exact) (L L' L'' : Learner)
    (test labels P : Tensor ℝ) (masks : List (List Bool)) (h : makeClassifier opt cd bc w L labels = .ok L') (hu : ∀ b, L'.Usable w b)
    (m : Nat) (len : Fin w.f → ℝ) (hlen : L'.deform.HasLengths w.f len) (ht : test.shape = [m, w.f]) (hl : labels.shape = [w.N, 2])
    (hdec : FirstColumnDecides labels w.N 2) (hrn : w.nnCount ≠ 2) (hm : 0 < m) (hk0 : 0 < w.nnCount) (hkN : w.nnCount + 1 ≤ w.N)
    (hs : 0 ≤ L'.boundScale) (hres : doClassifyUq bs opt cd ud bc ubc objs w L test labels = .ok (L'', P, masks)) :
    L'' = L' ∧ ∃ (I : Tensor Int) (V : Tensor ℝ) (cutoffs : List ℝ),
      (∀ i < m, ∃ l : List Nat, rowList I w.nnCount i = l.map Int.ofNat ∧
        Nearest (· < w.N) (fun j => w.dist (rowPt test w.f i) (rowPt w.train w.f j)) w.nnCount l) ∧
      P.shape = [m, 2] ∧
      (∀ p < m, 0 ≤ V.get [p] ∧ (SameLabel labels I w.nnCount 2 p →
          (∀ j < w.nnCount, ∀ c < 2, P.get [p, c] = nbrLabel labels I p j c) ∧ V.get [p] = 0) ∧
        (¬ SameLabel labels I w.nnCount 2 p → (∀ c < 2, P.get [p, c] =
          Spec.krigingMean (nbrCov bs L'.trainee.R.kernel len w.train w.N w.nnCount I p + L'.trainee.R.gp.noise.mat w.nnCount p)
            (nbrCross bs L'.trainee.R.kernel len w.train w.N w.nnCount I p (rowPt test w.f p))
            (nbrTargets labels w.N w.nnCount I p c)) ∧
          V.get [p] = L'.boundScale * Spec.krigingVar 1
            (nbrCov bs L'.trainee.R.kernel len w.train w.N w.nnCount I p + L'.trainee.R.gp.noise.mat w.nnCount p)
            (nbrCross bs L'.trainee.R.kernel len w.train w.N w.nnCount I p (rowPt test w.f p)))) ∧
      cutoffs.length = objs.length ∧ (∀ c ∈ cutoffs, c ∈ cutGrid) ∧ masks.length = objs.length ∧
      ∀ (i : Nat) (cut : ℝ), cutoffs[i]? = some cut → ∃ mask : List Bool, masks[i]? = some mask ∧ mask.length = m ∧
        ∀ p < m, (mask[p]? = some true ↔
          Straddles (P.get [p, 1]) cut (V.get [p]) ((labels.get [0, 0] + labels.get [0, 1]) / 2)) := by
  obtain ⟨I, P', V, signed, h1, h2, h3, h4, h5, h6, h7, h8⟩ := C67_actual bs opt cd ud bc ubc objs w hw L L' test labels h hu m len hlen
    ht hl hdec hrn hm hk0 hkN
  cases hb : getBalancedBatch w signed ubc ud with
  | error e => rw [h7 e hb] at hres; cases hres
  | ok b =>
    obtain ⟨idx, nn⟩ := b
    obtain ⟨mean, var, -, c2, c3⟩ := h8 idx nn hb
    cases hc : trainCutoffs idx.length mean var (idx.map fun x => signed.get [x]) objs with
    | error e => rw [c2 e hc] at hres; cases hres
    | ok cutoffs =>
      obtain ⟨masks', m1, m2, m3⟩ := c3 cutoffs hc
      obtain ⟨e1, e2⟩ := Prod.mk.inj (Except.ok.inj (hres.symm.trans m1))
      obtain ⟨rfl, rfl⟩ := Prod.mk.inj e2
      obtain ⟨g1, g2⟩ := cutoffs_grid hc
      refine ⟨e1, I, V, cutoffs, h1, h2, fun p hp => ⟨?_, h4 p hp⟩, g1, g2, by rw [m2, g1], m3⟩
      by_cases hsame : SameLabel labels I w.nnCount 2 p
      · exact (((h4 p hp).1 hsame).2).ge
      · rw [((h4 p hp).2 hsame).2]
        obtain ⟨l, l1, l2⟩ := h1 p hp
        exact mul_nonneg hs (nbr_variance bs L'.trainee.R.kernel (hu m).2.1 len (hasLengths_pos hlen) w.train w.N w.nnCount I p m hp
          (rowPt test w.f p) L'.trainee.R.gp.noise ((hu m).2.2.2.mono fun hd => distinct_of_nodup l1 l2.nodup l2.mem hd)).1

/-- **C67**, unanimous neighbours: a test point whose neighbours all carry the same label is not flagged by any mask. -/
theorem C67_unanimous (bs : Flt → ℝ → ℝ) (opt : Learner → TrainData → Res Learner) (cd ud : List (List Nat)) (bc ubc : Int)
    (objs : List (List (Option ℝ) → List (Option ℝ) → Nat → Nat → Nat)) (w : NNWrapper) (hw : w.Exact) (L L' L'' : Learner)
    (test labels P : Tensor ℝ) (masks : List (List Bool)) (h : makeClassifier opt cd bc w L labels = .ok L') (hu : ∀ b, L'.Usable w b)
    (m : Nat) (len : Fin w.f → ℝ) (hlen : L'.deform.HasLengths w.f len) (ht : test.shape = [m, w.f]) (hl : labels.shape = [w.N, 2])
    (hdec : FirstColumnDecides labels w.N 2) (hrn : w.nnCount ≠ 2) (hm : 0 < m) (hk0 : 0 < w.nnCount) (hkN : w.nnCount + 1 ≤ w.N)
    (hs : 0 ≤ L'.boundScale) (hres : doClassifyUq bs opt cd ud bc ubc objs w L test labels = .ok (L'', P, masks)) :
    ∃ I : Tensor Int, (∀ i < m, ∃ l : List Nat, rowList I w.nnCount i = l.map Int.ofNat ∧
        Nearest (· < w.N) (fun j => w.dist (rowPt test w.f i) (rowPt w.train w.f j)) w.nnCount l) ∧
      ∀ p < m, SameLabel labels I w.nnCount 2 p → ∀ mask ∈ masks, mask[p]? = some false := by
  obtain ⟨-, I, V, cutoffs, h1, h2, h3, h4, h5, h6, h7⟩ := C67_result bs opt cd ud bc ubc objs w hw L L' L'' test labels P masks h hu m
    len hlen ht hl hdec hrn hm hk0 hkN hs hres
  refine ⟨I, h1, fun p hp hsame mask hmask => ?_⟩
  obtain ⟨i, hi, rfl⟩ := List.mem_iff_getElem.mp hmask
  have hi' : i < cutoffs.length := by omega
  obtain ⟨mask', a, b, d⟩ := h7 i _ (List.getElem?_eq_getElem hi')
  rw [List.getElem?_eq_getElem hi] at a
  obtain rfl := Option.some.inj a
  have hp' : p < masks[i].length := by omega
  have hn : ¬ masks[i][p]? = some true := by
    rw [d p hp, ((h3 p hp).2.1 hsame).2]
    rintro ⟨a, b⟩
    linarith
  rw [List.getElem?_eq_getElem hp'] at hn ⊢
  cases hv : masks[i][p] with
  | true => rw [hv] at hn; exact absurd rfl hn
  | false => rfl

/-- **C67**, the flagged sets are nested: of any two masks, one flags every test point the other flags. -/
theorem C67_nested (bs : Flt → ℝ → ℝ) (opt : Learner → TrainData → Res Learner) (cd ud : List (List Nat)) (bc ubc : Int)
    (objs : List (List (Option ℝ) → List (Option ℝ) → Nat → Nat → Nat)) (w : NNWrapper) (hw : w.Exact) (L L' L'' : Learner)
    (test labels P : Tensor ℝ) (masks : List (List Bool)) (h : makeClassifier opt cd bc w L labels = .ok L') (hu : ∀ b, L'.Usable w b)
    (m : Nat) (len : Fin w.f → ℝ) (hlen : L'.deform.HasLengths w.f len) (ht : test.shape = [m, w.f]) (hl : labels.shape = [w.N, 2])
    (hdec : FirstColumnDecides labels w.N 2) (hrn : w.nnCount ≠ 2) (hm : 0 < m) (hk0 : 0 < w.nnCount) (hkN : w.nnCount + 1 ≤ w.N)
    (hs : 0 ≤ L'.boundScale) (hres : doClassifyUq bs opt cd ud bc ubc objs w L test labels = .ok (L'', P, masks)) :
    ∀ a ∈ masks, ∀ b ∈ masks, (∀ p < m, a[p]? = some true → b[p]? = some true) ∨ ∀ p < m, b[p]? = some true → a[p]? = some true := by
  obtain ⟨-, I, V, cutoffs, h1, h2, h3, h4, h5, h6, h7⟩ := C67_result bs opt cd ud bc ubc objs w hw L L' L'' test labels P masks h hu m
    len hlen ht hl hdec hrn hm hk0 hkN hs hres
  have hcut : ∀ a ∈ masks, ∃ cut : ℝ, ∀ p < m, (a[p]? = some true ↔
      Straddles (P.get [p, 1]) cut (V.get [p]) ((labels.get [0, 0] + labels.get [0, 1]) / 2)) := by
    intro a ha
    obtain ⟨i, hi, rfl⟩ := List.mem_iff_getElem.mp ha
    have hi' : i < cutoffs.length := by omega
    obtain ⟨mask', a, b, d⟩ := h7 i _ (List.getElem?_eq_getElem hi')
    rw [List.getElem?_eq_getElem hi] at a
    obtain rfl := Option.some.inj a
    exact ⟨_, d⟩
  have hmono : ∀ (c c' : ℝ), c ≤ c' → ∀ p < m, Straddles (P.get [p, 1]) c (V.get [p]) ((labels.get [0, 0] + labels.get [0, 1]) / 2) →
      Straddles (P.get [p, 1]) c' (V.get [p]) ((labels.get [0, 0] + labels.get [0, 1]) / 2) := by
    rintro c c' hcc p hp ⟨s1, s2⟩
    have := mul_le_mul_of_nonneg_right hcc (h3 p hp).1
    exact ⟨by linarith, by linarith⟩
  intro a ha b hb
  obtain ⟨c, hc⟩ := hcut a ha
  obtain ⟨c', hc'⟩ := hcut b hb
  rcases le_total c c' with hcc | hcc
  · left; intro p hp e; exact (hc' p hp).mpr (hmono c c' hcc p hp ((hc p hp).mp e))
  · right; intro p hp e; exact (hc p hp).mpr (hmono c' c hcc p hp ((hc' p hp).mp e))

theorem krigingMean_neg {n : Nat} (K : Matrix (Fin n) (Fin n) ℝ) (k y : Fin n → ℝ) :
    Spec.krigingMean K k (fun j => -y j) = -Spec.krigingMean K k y := by
  unfold Spec.krigingMean
  rw [show (fun j => -y j) = -y from rfl, Matrix.mulVec_neg, dotProduct_neg]

/-- **C67**, symmetric labels: the two scores of every test point are opposite numbers, so the threshold of the masks (zero) is the
boundary between the predicted classes; and a test point right on that boundary, with neighbours of both classes, is flagged by every
mask (positive noise and scale). -/
theorem C67_undecided (bs : Flt → ℝ → ℝ) (opt : Learner → TrainData → Res Learner) (cd ud : List (List Nat)) (bc ubc : Int)
    (objs : List (List (Option ℝ) → List (Option ℝ) → Nat → Nat → Nat)) (w : NNWrapper) (hw : w.Exact) (L L' L'' : Learner)
    (test labels P : Tensor ℝ) (masks : List (List Bool)) (h : makeClassifier opt cd bc w L labels = .ok L') (hu : ∀ b, L'.Usable w b)
    (m : Nat) (len : Fin w.f → ℝ) (hlen : L'.deform.HasLengths w.f len) (ht : test.shape = [m, w.f]) (hl : labels.shape = [w.N, 2])
    (hsym : SymmetricLabels labels w.N) (hrn : w.nnCount ≠ 2) (hm : 0 < m) (hk0 : 0 < w.nnCount) (hkN : w.nnCount + 1 ≤ w.N)
    (hs : 0 < L'.boundScale) (hres : doClassifyUq bs opt cd ud bc ubc objs w L test labels = .ok (L'', P, masks)) :
    ∃ I : Tensor Int, (∀ i < m, ∃ l : List Nat, rowList I w.nnCount i = l.map Int.ofNat ∧
        Nearest (· < w.N) (fun j => w.dist (rowPt test w.f i) (rowPt w.train w.f j)) w.nnCount l) ∧
      ∀ p < m, P.get [p, 1] = -P.get [p, 0] ∧
        (P.get [p, 0] = P.get [p, 1] → ¬ SameLabel labels I w.nnCount 2 p → (L'.trainee.R.gp.noise.mat w.nnCount p).PosDef →
          ∀ mask ∈ masks, mask[p]? = some true) := by
  have hdec : FirstColumnDecides labels w.N 2 := by
    intro i hi k hk e c hc
    interval_cases c
    · exact e
    · rw [hsym i hi, hsym k hk, e]
  obtain ⟨-, I, V, cutoffs, h1, h2, h3, h4, h5, h6, h7⟩ := C67_result bs opt cd ud bc ubc objs w hw L L' L'' test labels P masks h hu m
    len hlen ht hl hdec hrn hm hk0 hkN hs.le hres
  have hnat := nearest_nat h1
  refine ⟨I, h1, fun p hp => ?_⟩
  have hopp : P.get [p, 1] = -P.get [p, 0] := by
    by_cases hsame : SameLabel labels I w.nnCount 2 p
    · obtain ⟨a, -⟩ := (h3 p hp).2.1 hsame
      obtain ⟨x, hx, hxN⟩ := hnat p hp 0 hk0
      rw [a 0 hk0 0 (by norm_num), a 0 hk0 1 (by norm_num)]
      unfold nbrLabel
      rw [hx, Int.toNat_natCast]
      exact hsym x hxN
    · obtain ⟨a, -⟩ := (h3 p hp).2.2 hsame
      rw [a 0 (by norm_num), a 1 (by norm_num), ← krigingMean_neg]
      congr 1
      funext j
      obtain ⟨x, hx, hxN⟩ := hnat p hp j j.2
      unfold nbrTargets
      rw [hx, pointOf_nat]
      unfold feature
      rw [hl]
      exact hsym x hxN
  refine ⟨hopp, fun heq hmix hpd mask hmask => ?_⟩
  obtain ⟨i, hi, rfl⟩ := List.mem_iff_getElem.mp hmask
  have hi' : i < cutoffs.length := by omega
  obtain ⟨mask', a, b, d⟩ := h7 i _ (List.getElem?_eq_getElem hi')
  rw [List.getElem?_eq_getElem hi] at a
  obtain rfl := Option.some.inj a
  obtain ⟨l, l1, l2⟩ := h1 p hp
  have hV : 0 < V.get [p] := by
    rw [((h3 p hp).2.2 hmix).2]
    exact mul_pos hs ((nbr_variance bs L'.trainee.R.kernel (hu m).2.1 len (hasLengths_pos hlen) w.train w.N w.nnCount I p m hp
      (rowPt test w.f p) L'.trainee.R.gp.noise ((hu m).2.2.2.mono fun hd => distinct_of_nodup l1 l2.nodup l2.mem hd)).2.2.2.1 hk0 hpd)
  have hc := mul_pos (cutGrid_pos (h5 _ (List.getElem_mem hi'))) hV
  rw [d p hp]
  have h0 : labels.get [0, 1] = -labels.get [0, 0] := hsym 0 (by omega)
  have hP : P.get [p, 1] = 0 := by linarith
  rw [hP, h0]
  constructor <;> linarith

/-- The built-in objectives always yield five cutoffs. -/
theorem default_cutoffs (b : Nat) (mean var : Tensor ℝ) (targets : List ℝ) :
    ∃ cs, trainCutoffs b mean var targets exampleLambdas = .ok cs ∧ cs.length = 5 := by
  by_cases h : countWhere b (CalCorrect mean targets) = 0 ∨ countWhere b (fun p => ¬ CalCorrect mean targets p) = 0
  · exact ⟨_, C45_cutoffs_degenerate b mean var targets h, rfl⟩
  · push Not at h
    obtain ⟨cs, h1, h2, -⟩ := C45_cutoffs b mean var targets
      (fun c => countWhere b (fun p => ¬ CalCorrect mean targets p ∧ ¬ Straddles (mean.get [p, 1]) c (Real.sqrt (var.get [p])) 0) /
        countWhere b (fun p => ¬ CalCorrect mean targets p))
      (fun c => countWhere b (fun p => CalCorrect mean targets p ∧ Straddles (mean.get [p, 1]) c (Real.sqrt (var.get [p])) 0) /
        countWhere b (CalCorrect mean targets))
      (fun c => by unfold alphaAt fractionWhere; rw [if_neg h.2]) (fun c => by unfold betaAt fractionWhere; rw [if_neg h.1])
    exact ⟨cs, h1, h2⟩

/-- **C67**, it does not fail: with the built-in objectives and the whole filtered training set as calibration batch, whenever training
returns a model, `do_classify_uq` returns it with a prediction for every test point and five masks. -/
theorem C67_succeeds (bs : Flt → ℝ → ℝ) (opt : Learner → TrainData → Res Learner) (cd ud : List (List Nat)) (bc ubc : Int)
    (w : NNWrapper) (hw : w.Exact) (L L' : Learner)
    (test labels : Tensor ℝ) (h : makeClassifier opt cd bc w L labels = .ok L') (hu : ∀ b, L'.Usable w b)
    (m : Nat) (len : Fin w.f → ℝ) (hlen : L'.deform.HasLengths w.f len) (ht : test.shape = [m, w.f]) (hl : labels.shape = [w.N, 2])
    (hdec : FirstColumnDecides labels w.N 2) (hrn : w.nnCount ≠ 2) (hm : 0 < m) (hk0 : 0 < w.nnCount) (hkN : w.nnCount + 1 ≤ w.N)
    (hubc : (w.N : Int) ≤ ubc) :
    ∃ P masks, doClassifyUq bs opt cd ud bc ubc exampleLambdas w L test labels = .ok (L', P, masks) ∧ P.shape = [m, 2] ∧
      masks.length = 5 ∧ ∀ mask ∈ masks, mask.length = m := by
  obtain ⟨I, P, V, signed, h1, h2, h3, h4, h5, h6, h7, h8⟩ := C67_actual bs opt cd ud bc ubc exampleLambdas w hw L L' test labels h hu m
    len hlen ht hl hdec hrn hm hk0 hkN
  have hint : IntegerLabels signed w.N := fun i hi => by
    obtain ⟨k, k1, -⟩ := h6 i hi
    exact ⟨2 * k - 1, by rw [k1]; push_cast; ring⟩
  obtain ⟨F, nn, -, -, -, f1, -⟩ := C43_filtered_partial w hw signed h5 hint hk0 hkN
  have hb : getBalancedBatch w signed ubc ud = .ok (F, nn) := by rw [(C43_choice w signed w.N h5 ubc ud).2 hubc, f1]
  obtain ⟨mean, var, -, -, c3⟩ := h8 F nn hb
  obtain ⟨cs, d1, d2⟩ := default_cutoffs F.length mean var (F.map fun x => signed.get [x])
  obtain ⟨masks, m1, m2, m3⟩ := c3 cs d1
  refine ⟨P, masks, m1, h2, by rw [m2, d2], fun mask hmask => ?_⟩
  obtain ⟨i, hi, rfl⟩ := List.mem_iff_getElem.mp hmask
  obtain ⟨mask', a, b, -⟩ := m3 i _ (List.getElem?_eq_getElem (by omega))
  rw [List.getElem?_eq_getElem hi] at a
  obtain rfl := Option.some.inj a
  exact b

end MuyGPyS
