import Verif.Spec.SmoothClasses
import Verif.Props.SmoothGen

/-! # C94 with several responses or classes -/

namespace MuyGPyS
open Py Matrix
open scoped ContDiff

/-! ## Losses as functions of the scores -/

theorem sum_rows (b r : Nat) (f : Nat → ℝ) : ∑ k ∈ Finset.range (b * r), f k = ∑ p ∈ Finset.range b, ∑ c ∈ Finset.range r, f (p * r + c) := by
  induction b with
  | zero => simp
  | succ b ih => rw [Nat.succ_mul, Finset.sum_range_add, ih, Finset.sum_range_succ]

theorem entries_pairs (μ t : Tensor ℝ) (b r : Nat) (hμ : μ.shape = [b, r]) (ht : t.shape = [b, r]) (f : ℝ → ℝ → ℝ) :
    (List.zipWith f (entries μ) (entries t)).sum = ∑ p ∈ Finset.range b, ∑ c ∈ Finset.range r, f (μ.get [p, c]) (t.get [p, c]) := by
  unfold entries
  rw [hμ, ht, List.zipWith_map_left, List.zipWith_map_right, List.zipWith_self]
  simp only [List.prod_cons, List.prod_nil, mul_one]
  rw [← List.sum_toFinset _ List.nodup_range, List.toFinset_range, sum_rows]
  refine Finset.sum_congr rfl fun p _ => Finset.sum_congr rfl fun c _ => ?_
  rw [Tensor.get2 _ hμ, Tensor.get2 _ ht]

theorem sum_map_range (n : Nat) (f : Nat → ℝ) : ((List.range n).map f).sum = ∑ k ∈ Finset.range n, f k := by
  rw [← List.sum_toFinset _ List.nodup_range, List.toFinset_range]

theorem ofMeans_scores (l : LossKind) (hl : l.raw = true) (b r : Nat) (hb : 0 < b) (μ targ : Tensor ℝ) (hμ : μ.shape = [b, r])
    (ht : targ.shape = [b, r]) (s t : Nat → Nat → ℝ) (hs : ∀ p < b, ∀ c < r, μ.get [p, c] = s p c)
    (hts : ∀ p < b, ∀ c < r, targ.get [p, c] = t p c) : l.ofMeans μ targ = .ok (l.ofScores b r s t) := by
  have hlen : (entries μ).length = (entries targ).length := by simp [entries, hμ, ht]
  have hlen' : (entries μ).length = b * r := by simp [entries, hμ]
  unfold LossKind.ofMeans
  rw [if_pos (by rw [hμ, ht])]
  cases l with
  | mse =>
    simp only [Loss.mse, Loss.mseUnnormalized, Loss.zip2, if_pos hlen, bind, Except.bind, pure, Except.pure, LossKind.ofScores]
    rw [entries_pairs μ targ b r hμ ht fun p t => (p - t) ^ 2, hlen']
    congr 2
    refine Finset.sum_congr rfl fun p hp => Finset.sum_congr rfl fun c hc => ?_
    rw [hs p (Finset.mem_range.1 hp) c (Finset.mem_range.1 hc), hts p (Finset.mem_range.1 hp) c (Finset.mem_range.1 hc)]
  | pseudoHuber δ =>
    simp only [Loss.pseudoHuber, Loss.zip2, if_pos hlen, bind, Except.bind, pure, Except.pure, LossKind.ofScores]
    rw [entries_pairs μ targ b r hμ ht fun p t => Real.sqrt (1 + ((t - p) / δ) ^ 2) - 1, Finset.mul_sum]
    congr 1
    refine Finset.sum_congr rfl fun p hp => ?_
    rw [Finset.mul_sum]
    refine Finset.sum_congr rfl fun c hc => ?_
    rw [hs p (Finset.mem_range.1 hp) c (Finset.mem_range.1 hc), hts p (Finset.mem_range.1 hp) c (Finset.mem_range.1 hc)]
  | crossEntropy ε =>
    simp only [hμ, LossKind.ofScores]
    unfold Loss.crossEntropy
    rw [if_neg (by
      intro h
      have := congrArg List.length h
      simp at this
      omega), if_pos (by
      intro x hx
      obtain ⟨i, -, rfl⟩ := List.mem_map.1 hx
      simp)]
    rw [List.map_map, sum_map_range]
    congr 1
    refine Finset.sum_congr rfl fun p hp => ?_
    have hp := Finset.mem_range.1 hp
    simp only [Function.comp, Loss.logLossRow, Loss.oneHot, Loss.softmax, List.map_map]
    rw [List.zipWith_map_left, List.zipWith_map_right, List.zipWith_self, sum_map_range, ← Finset.sum_neg_distrib]
    refine Finset.sum_congr rfl fun c hc => ?_
    have hc := Finset.mem_range.1 hc
    simp only [Function.comp, sum_map_range]
    have : ∑ k ∈ Finset.range r, Real.exp (μ.get [p, k]) = ∑ k ∈ Finset.range r, Real.exp (s p k) :=
      Finset.sum_congr rfl fun k hk => by rw [hs p hp k (Finset.mem_range.1 hk)]
    rw [this]
    unfold Loss.clip classProb
    simp only [hs p hp c hc]
    by_cases h : 0 < t p c
    · rw [if_pos (show 0 < targ.get [p, c] by rw [hts p hp c hc]; exact h), if_pos h]; ring
    · rw [if_neg (show ¬ 0 < targ.get [p, c] by rw [hts p hp c hc]; exact h), if_neg h]; ring
  | lool => cases hl
  | loolUnscaled => cases hl
  | looph _ => cases hl

theorem classProb_pos {r : Nat} {s : Nat → ℝ} {c : Nat} (hc : c < r) : 0 < classProb r s c :=
  div_pos (Real.exp_pos _) (Finset.sum_pos (fun _ _ => Real.exp_pos _) ⟨c, Finset.mem_range.2 hc⟩)

section
variable {E : Type*} [NormedAddCommGroup E] [NormedSpace ℝ E] {S : Set E}

theorem classProb_smooth {r c : Nat} (hc : c < r) {s : Nat → E → ℝ} {m : WithTop ℕ∞} (hs : ∀ c < r, ContDiffOn ℝ m (s c) S) :
    ContDiffOn ℝ m (fun x => classProb r (fun c => s c x) c) S :=
  ((hs c hc).exp).div (ContDiffOn.sum fun k hk => (hs k (Finset.mem_range.1 hk)).exp) fun x _ =>
    (Finset.sum_pos (fun _ _ => Real.exp_pos _) ⟨c, Finset.mem_range.2 hc⟩ : 0 < ∑ k ∈ Finset.range r, Real.exp (s k x)).ne'

/-- The losses are continuous in the scores (the clipping constant of the cross entropy lies between 0 and 1). -/
theorem ofScores_continuous (l : LossKind) (b r : Nat) (hε : ∀ ε, l = .crossEntropy ε → 0 < ε ∧ ε < 1) (t : Nat → Nat → ℝ)
    {s : Nat → Nat → E → ℝ} (hs : ∀ p < b, ∀ c < r, ContDiffOn ℝ ∞ (s p c) S) :
    ContinuousOn (fun x => l.ofScores b r (fun p c => s p c x) t) S := by
  have hm : ContinuousOn (fun x => (∑ p ∈ Finset.range b, ∑ c ∈ Finset.range r, (s p c x - t p c) ^ 2) / (b * r : Nat)) S := by
    refine ContinuousOn.div_const ?_ _
    refine continuousOn_finset_sum _ fun p hp => continuousOn_finset_sum _ fun c hc => ?_
    exact ((hs p (Finset.mem_range.1 hp) c (Finset.mem_range.1 hc)).continuousOn.sub continuousOn_const).pow 2
  cases l with
  | pseudoHuber δ =>
    refine continuousOn_finset_sum _ fun p hp => continuousOn_finset_sum _ fun c hc => ?_
    refine continuousOn_const.mul (ContinuousOn.sub (ContinuousOn.sqrt ?_) continuousOn_const)
    exact continuousOn_const.add (((continuousOn_const.sub
      (hs p (Finset.mem_range.1 hp) c (Finset.mem_range.1 hc)).continuousOn).div_const δ).pow 2)
  | crossEntropy ε =>
    obtain ⟨h0, h1⟩ := hε ε rfl
    refine continuousOn_finset_sum _ fun p hp => continuousOn_finset_sum _ fun c hc => ?_
    by_cases ht : 0 < t p c
    · simp only [if_pos ht]
      have hc' : ContinuousOn (fun x => classProb r (fun c => s p c x) c) S :=
        (classProb_smooth (Finset.mem_range.1 hc) (hs p (Finset.mem_range.1 hp))).continuousOn
      refine (ContinuousOn.log (ContinuousOn.inf (ContinuousOn.sup hc' continuousOn_const) continuousOn_const) fun x _ => ?_).neg
      exact (lt_min (lt_max_of_lt_right h0) (by linarith)).ne'
    · simp only [if_neg ht]
      exact continuousOn_const
  | mse => exact hm
  | lool => exact hm
  | loolUnscaled => exact hm
  | looph _ => exact hm

/-- They are smooth in the scores as long as no probability is clipped. -/
theorem ofScores_smooth (l : LossKind) (b r : Nat) (t : Nat → Nat → ℝ)
    {s : Nat → Nat → E → ℝ} (hs : ∀ p < b, ∀ c < r, ContDiffOn ℝ ∞ (s p c) S) {x : E} (hx : x ∈ S)
    (hε : ∀ ε, l = .crossEntropy ε → ∀ p < b, ∀ c < r, 0 < t p c → ε < classProb r (fun c => s p c x) c ∧ classProb r (fun c => s p c x) c < 1 - ε) :
    ContDiffWithinAt ℝ ∞ (fun x => l.ofScores b r (fun p c => s p c x) t) S x := by
  have hm : ContDiffWithinAt ℝ ∞ (fun x => (∑ p ∈ Finset.range b, ∑ c ∈ Finset.range r, (s p c x - t p c) ^ 2) / (b * r : Nat)) S x := by
    refine ContDiffWithinAt.div_const ?_ _
    refine ContDiffWithinAt.sum fun p hp => ContDiffWithinAt.sum fun c hc => ?_
    exact ((hs p (Finset.mem_range.1 hp) c (Finset.mem_range.1 hc) x hx).sub contDiffWithinAt_const).pow 2
  cases l with
  | pseudoHuber δ =>
    refine ContDiffWithinAt.sum fun p hp => ContDiffWithinAt.sum fun c hc => ?_
    refine contDiffWithinAt_const.mul (ContDiffWithinAt.sub (ContDiffWithinAt.sqrt ?_ (by positivity)) contDiffWithinAt_const)
    exact contDiffWithinAt_const.add (((contDiffWithinAt_const.sub
      (hs p (Finset.mem_range.1 hp) c (Finset.mem_range.1 hc) x hx)).div_const δ).pow 2)
  | crossEntropy ε =>
    refine ContDiffWithinAt.sum fun p hp => ContDiffWithinAt.sum fun c hc => ?_
    by_cases ht : 0 < t p c
    · simp only [if_pos ht]
      obtain ⟨h0, h1⟩ := hε ε rfl p (Finset.mem_range.1 hp) c (Finset.mem_range.1 hc) ht
      have hc' := classProb_smooth (Finset.mem_range.1 hc) (hs p (Finset.mem_range.1 hp)) x hx
      have hcc : ContinuousWithinAt (fun x => classProb r (fun c => s p c x) c) S x := hc'.continuousWithinAt
      refine ((hc'.log (classProb_pos (Finset.mem_range.1 hc)).ne').neg).congr_of_eventuallyEq ?_ ?_
      · filter_upwards [hcc.eventually (isOpen_Ioo.mem_nhds ⟨h0, h1⟩)] with y hy
        rw [max_eq_left hy.1.le, min_eq_left hy.2.le]
      · rw [max_eq_left h0.le, min_eq_left h1.le]
    · simp only [if_neg ht]
      exact contDiffWithinAt_const
  | mse => exact hm
  | lool => exact hm
  | loolUnscaled => exact hm
  | looph _ => exact hm

end

/-! ## The score of a model -/

theorem score_scores (bs : Flt → ℝ → ℝ) (L : Learner) (hmade : L.Made) (w : NNWrapper) (hw : w.Exact) (len : Fin w.f → ℝ)
    (hlen : L.deform.HasLengths w.f len) (idx : List Nat) (hidx : 0 < idx.length) (nn : Tensor Int) (h4 : ∀ x ∈ idx, x < w.N)
    (h5 : nn.shape = [idx.length, w.nnCount]) (hv : AllValid w.N nn) (d : TrainData)
    (hp : L.deform.pairwise w.train nn = .ok d.pairwise) (hc : L.deform.crosswise w.train w.train (ofNats idx) nn = .ok d.crosswise)
    (r : Nat) (hr : r ≠ w.nnCount) (ht : d.targets.shape = [idx.length, r])
    (hy : d.nnTargets.shape = [idx.length, w.nnCount, r]) (hν : L.trainee.R.gp.noise.Fits idx.length w.nnCount)
    (hdet : ∀ p < idx.length, (L.batchCov bs w len nn p).det ≠ 0) (l : LossKind) (hl : l.raw = true) (draws : List (List Nat))
    (t : Nat → Nat → ℝ) (hts : ∀ p < idx.length, ∀ c < r, d.targets.get [p, c] = t p c) :
    L.score bs l draws d = .ok (some (-l.ofScores idx.length r (fun p c => Spec.krigingMean (L.batchCov bs w len nn p)
      (L.batchCross bs w len idx nn p) (Spec.vecR w.nnCount d.nnTargets p c)) t)) := by
  obtain ⟨D, K, k1, k2, k3, k4⟩ := kernel_pairwise bs L.trainee.R.kernel (made_kernel hmade) w.train nn w.N w.f idx.length w.nnCount len
    hlen (.inl hw.1) h5 hv
  obtain ⟨E, C, c1, c2, c3, c4⟩ := kernel_crosswise bs L.trainee.R.kernel (made_kernel hmade) w.train w.train (ofNats idx) nn w.N w.N w.f
    idx.length w.nnCount len hlen (.inl hw.1) (.inl hw.1) rfl rfl h5 (ofNats_valid h4) hv
  have hD : D = d.pairwise := Except.ok.inj ((show L.deform.pairwise w.train nn = .ok D from k1).symm.trans hp)
  have hE : E = d.crosswise := Except.ok.inj ((show L.deform.crosswise w.train w.train (ofNats idx) nn = .ok E from c1).symm.trans hc)
  rw [hD] at k2
  rw [hE] at c2
  have hrow : ∀ x, pt w.train w.f x = rowPt w.train w.f x := fun x => by
    funext c; simp only [pt, feature, hw.1, rowPt]
  have hcross : ∀ p < idx.length, Spec.vec w.nnCount C p = L.batchCross bs w len idx nn p := fun p hp => by
    rw [c4 p hp, hrow, ofNats_get, pointOf_nat]; rfl
  have hcov : ∀ p < idx.length, Spec.cov w.nnCount K p + L.trainee.R.gp.noise.mat w.nnCount p = L.batchCov bs w len nn p :=
    fun p hp => by rw [k4 p hp]; rfl
  obtain ⟨P, h1, h2, h3⟩ := L.trainee.R.gp.noise.perturb_cov hν K k3
  obtain ⟨μ, m1, m2, m3⟩ := C24_multi_response_partial idx.length w.nnCount r hr P C d.nnTargets h2 c3 hy
    (fun p hp => by rw [h3, hcov p hp]; exact hdet p hp)
    (fun p hp => by rw [h3, transpose_add, k4 p hp, nbrCov_symm, Noise.mat_symm])
  have hmean : L.trainee.R.gp.posteriorMean K C d.nnTargets = .ok μ := by
    unfold MuyGPS.posteriorMean Noise.perturbFn
    rw [h1]
    exact m1
  unfold Learner.score promisedRaw
  simp only [hl, if_true, k2, c2, hmean, bind, Except.bind, pure, Except.pure, pickOutputs]
  rw [ofMeans_scores l hl idx.length r hidx μ d.targets m2 ht _ t (fun p hp c hc => by
    rw [m3 p hp c hc, h3, hcov p hp, hcross p hp]) hts]

/-- A batch drawn by the library: training points, each with different training points as neighbours. -/
theorem drawn_rows (w : NNWrapper) (hw : w.Exact) (hk0 : 0 < w.nnCount) (hN : 0 < w.N) (hkN : w.nnCount + 1 ≤ w.N) {idx : List Nat} {nn : Tensor Int}
    (h : w.Drawn (idx, nn)) : (∀ x ∈ idx, x < w.N) ∧ nn.shape = [idx.length, w.nnCount] ∧ AllValid w.N nn ∧
      ∀ p < idx.length, ∃ l : List Nat, rowList nn w.nnCount p = l.map Int.ofNat ∧ l.length = w.nnCount ∧ l.Nodup ∧ ∀ j ∈ l, j < w.N := by
  rcases h with ⟨bc, draw, hbc, hd, h⟩ | ⟨c, bc, cd, hc, h⟩
  · obtain ⟨idx', nn', h1, h2, h3, h4, _, h5, h6⟩ := C42_batch w hw bc hbc hN draw hd hkN
    rw [h] at h1
    obtain ⟨rfl, rfl⟩ := Prod.mk.inj (Except.ok.inj h1)
    have hrows : ∀ p < idx.length, ∃ l : List Nat, rowList nn w.nnCount p = l.map Int.ofNat ∧ l.length = w.nnCount ∧ l.Nodup ∧ ∀ j ∈ l, j < w.N :=
      fun p hp => by
        obtain ⟨l, e1, e2, e3, e4, _⟩ := h6 p idx[p] (List.getElem?_eq_getElem hp)
        exact ⟨l, e1, e2, e3, e4⟩
    refine ⟨h4, h5, valid_of_rows h5 fun i hi j hj => ?_, hrows⟩
    obtain ⟨l, e1, _, _, e2⟩ := hrows i hi
    obtain ⟨x, x1, x2⟩ := rowList_get e1 hj
    exact ⟨x, x2, e2 x (List.mem_of_getElem? x1)⟩
  · obtain ⟨b1, b2, b3, I, D, b4, b5⟩ := balanced_valid w hw hk0 hkN c hc bc cd idx nn h
    refine ⟨b1, b2, b3, fun p hp => ?_⟩
    have hx := b1 _ (List.getElem_mem hp)
    rw [b5 p idx[p] (List.getElem?_eq_getElem hp)]
    obtain ⟨I', D', i1, i2, -, i3⟩ := C41_batch_always w hw (arange w.N) w.N rfl (arange_valid _) hN hkN
    rw [b4] at i1
    obtain ⟨rfl, rfl⟩ := Prod.mk.inj (Except.ok.inj i1)
    obtain ⟨l, e1, e2, e3, e4, -⟩ := i3 idx[p] hx
    exact ⟨l, e1, e2, e3, e4⟩

/-! ## The objective -/

theorem scores_smooth (bs : Flt → ℝ → ℝ) (L : Learner) (hmade : L.Made)
    (w : NNWrapper) (hw : w.Exact) (hk0 : 0 < w.nnCount) (hs : L.Sensible w) (hb : L.InBounds)
    (hbox : ∀ np ∈ L.gp.params, np.2.fixed = false → ∃ a b : ℝ, np.2.lb = Flt.fin a ∧ np.2.ub = Flt.fin b)
    (cov : (Fin L.freeNames.length → ℝ) → (Fin w.f → ℝ) → (Fin w.f → ℝ) → ℝ)
    (hcs : ∀ a b, ContDiffOn ℝ ∞ (fun x => cov x a b) L.searchBox)
    (htrial : ∀ x ∈ L.searchBox, ∀ L' : Learner, L.trainee.R.kernel.Accepts (L.freeNames.zip (L.point x)) →
      L'.trainee = L.trainee.trial (L.freeNames.zip (L.point x)) → L'.deform.kind = L.deform.kind ∧ L'.deform.metric = L.deform.metric ∧
      ∀ a b, L'.trainee.R.kernel.covFn bs (L.lengthsAt w.f x) a b = cov x a b)
    (pn : Param) (hpn : L.noise = .homoscedastic pn)
    (hdef : ∀ x ∈ L.searchBox, ∀ (nn : Tensor Int) (p : Nat) (l : List Nat), rowList nn w.nnCount p = l.map Int.ofNat → l.length = w.nnCount →
      l.Nodup → (∀ j ∈ l, j < w.N) → (L.trialCov w cov pn nn p x).PosDef) (hfree : L.FreeFirst) (hN : 0 < w.N) (hkN : w.nnCount + 1 ≤ w.N)
    (idx : List Nat) (nn : Tensor Int) (hbatch : w.Drawn (idx, nn)) (hidx : idx ≠ [])
    (labels : Tensor ℝ) (r : Nat) (hl : labels.shape = [w.N, r]) (hr : r ≠ w.nnCount) : L.ScoresSmooth bs w idx nn labels r := by
  obtain ⟨len0, hlen0⟩ := current_lengths L w hs hb
  obtain ⟨h4, h5, hv, hrows⟩ := drawn_rows w hw hk0 hN hkN hbatch
  obtain ⟨P, _, p1, _⟩ := pairwise_entries L.deform w.train nn w.N w.f idx.length w.nnCount len0 hlen0 (.inl hw.1) h5 hv
  obtain ⟨C, _, c1, _⟩ := crosswise_entries L.deform w.train w.train (ofNats idx) nn w.N w.N w.f idx.length w.nnCount len0 hlen0
    (.inl hw.1) (.inl hw.1) rfl rfl h5 (ofNats_valid h4) hv
  obtain ⟨d, g2, g3, g3', d4, d5, d6, d7⟩ := trainData_ok L idx nn w.train labels w.N w.f w.nnCount r hw.1 (.inl hl) h5 h4 hv ⟨P, p1⟩ ⟨C, c1⟩
  rw [hl] at d4 d5
  have g4t : d.targets.shape = [idx.length, r] := d4
  have g4 : d.nnTargets.shape = [idx.length, w.nnCount, r] := d5
  have hidx0 : 0 < idx.length := List.length_pos_iff.2 hidx
  have hts : ∀ p < idx.length, ∀ c < r, d.targets.get [p, c] = labels.get [idx.getD p 0, c] := fun p hp c hc => by
    rw [Tensor.get2 _ g4t, d6 p idx[p] (List.getElem?_eq_getElem hp) c hc, feature, hl, List.getD_eq_getElem?_getD, List.getElem?_eq_getElem hp]
    rfl
  have hnn : L.noise ≠ .null := by rw [hpn]; simp
  have hbs : L.boundScale = L.scale := by
    have h : L.make.boundScale = L.boundScale := by rw [hmade]
    exact h.symm
  obtain ⟨o, ho⟩ : ∃ o, L.gp.getOptParams = .ok o := ⟨_, getOptParams_eq L.gp hnn⟩
  have hnames : o.names = L.freeNames := by
    rw [getOptParams_eq L.gp hnn, foldl_appendLists] at ho
    simp only [List.nil_append, Except.ok.injEq] at ho
    rw [← ho]; rfl
  let q : Nat → Fin w.f → ℝ := fun p => rowPt w.train w.f (idx.getD p 0)
  let A : Nat → (Fin L.freeNames.length → ℝ) → Matrix (Fin w.nnCount) (Fin w.nnCount) ℝ := fun p x => L.trialCov w cov pn nn p x
  let k : Nat → (Fin L.freeNames.length → ℝ) → Fin w.nnCount → ℝ := fun p x => L.trialCross w cov nn p (q p) x
  have hAdet : ∀ p < idx.length, ∀ x ∈ L.searchBox, (A p x).det ≠ 0 := fun p hp x hx => by
    obtain ⟨l, e1, e2, e3, e4⟩ := hrows p hp
    exact Kriging.det_ne_zero (hdef x hx nn p l e1 e2 e3 e4)
  have hAs : ∀ p i j, ContDiffOn ℝ ∞ (fun x => A p x i j) L.searchBox := fun p i j =>
    (hcs _ _).add ((valueAt_smooth L _ _).contDiffOn.mul contDiffOn_const)
  have hks : ∀ p i, ContDiffOn ℝ ∞ (fun x => k p x i) L.searchBox := fun p i => hcs _ _
  let s : Nat → Nat → (Fin L.freeNames.length → ℝ) → ℝ := fun p c x => Spec.krigingMean (A p x) (k p x) (Spec.vecR w.nnCount d.nnTargets p c)
  have hss : ∀ p < idx.length, ∀ c < r, ContDiffOn ℝ ∞ (s p c) L.searchBox := fun p hp c _ =>
    quad_smooth (hAs p) (hAdet p hp) (hks p) fun i => contDiffOn_const
  obtain ⟨hcomp, hne⟩ := searchBox_compact L hb hbox
  refine ⟨d, o, g2, ho, s, hss, fun l hraw hε => ?_⟩
  let g : (Fin L.freeNames.length → ℝ) → ℝ := fun x => l.ofScores idx.length r (fun p c => s p c x) fun p c => labels.get [idx.getD p 0, c]
  have hgc : ContinuousOn g L.searchBox := ofScores_continuous l _ _ hε _ hss
  refine ⟨g, fun _ => rfl, fun draws x hx => ?_, hgc, ?_, fun x hx hclip => ofScores_smooth l _ _ _ hss hx fun ε e p hp c hc _ => hclip ε e p hp c hc⟩
  · obtain ⟨o', L', ho', -, -, htr, hm', -, hsc, -, hrest⟩ := newLearner_trial ⟨false, 0, fun _ => 0⟩ L hnn hb hbs _ hx
    have hlenp : (L.point x).length = L.freeNames.length := List.length_ofFn
    have hacc := accepts_in_order hlenp hx hfree
    obtain ⟨t2, t3, hcf⟩ := htrial x hx L' hacc htr
    have hlen' : L'.deform.HasLengths w.f (L.lengthsAt w.f x) := by
      have := trial_lengths L w hs hx
      rw [← htr] at this
      exact this
    have hnoise : L'.trainee.R.gp.noise = .homoscedastic (L.valueAt "noise" pn x) := by
      rw [htr]
      show (L.noise.noise).trial _ = _
      rw [hpn]
      simp only [NoiseObj.noise, Noise.trial, Learner.valueAt, inForce]
      cases Dict.get? (L.freeNames.zip (L.point x)) "noise" <;> rfl
    have m8 : ∀ p, L'.batchCov bs w (L.lengthsAt w.f x) nn p = A p x := fun p => by
      unfold Learner.batchCov
      rw [hnoise]
      ext i j
      show L'.trainee.R.kernel.covFn _ _ _ _ + _ = cov _ _ _ + _
      rw [hcf]; rfl
    have m9 : ∀ p, L'.batchCross bs w (L.lengthsAt w.f x) idx nn p = k p x := fun p => by
      funext j
      exact hcf _ _
    have hsc' : L'.score bs l draws d = .ok (some (-g x)) := by
      rw [score_scores bs L' hm' w hw _ hlen' idx hidx0 nn h4 h5 hv d (by rw [← g3]; unfold Deform.pairwise; rw [t2, t3])
        (by rw [← g3']; unfold Deform.crosswise; rw [t2, t3]) r hr g4t g4 (by rw [hnoise]; trivial)
        (fun p hp => by rw [m8]; exact hAdet p hp x hx) l hraw draws _ hts]
      simp only [m8, m9, s, g]
    have := (objective_trial bs L L' hmade l draws d (.inl hraw) _ hx hacc htr (-g x)).2 hsc'
    unfold arrayObjFn
    rw [hnames, if_neg (by rw [hlenp]; omega), this]
    simp [bind, Except.bind, pure, Except.pure]
  · obtain ⟨x, hx, hmin⟩ := hcomp.exists_isMinOn hne hgc
    exact ⟨x, hx, fun y hy => hmin hy⟩

/-- **C94**, several responses or classes, closed-form kernels, batches of regressors or classifiers: the scores of the classes (or the predicted responses)
are smooth functions of the free hyperparameters, and the function that the optimisers are given is, for the mean squared error, the pseudo-Huber loss and the
cross entropy, the loss of these scores: it is continuous and attains its minimum on the search box, and it is smooth, for the cross entropy wherever no probability
is clipped. Partial: the number of responses must differ from that of the neighbours (C24). -/
theorem C94_classes_partial (bs : Flt → ℝ → ℝ) (L : Learner) (hmade : L.Made) (hsuit : L.fn.Suits L.deform.metric)
    (w : NNWrapper) (hw : w.Exact) (hk0 : 0 < w.nnCount) (hs : L.Sensible w) (hb : L.InBounds) (hfree : L.FreeFirst)
    (hN : 0 < w.N) (hkN : w.nnCount + 1 ≤ w.N)
    (idx : List Nat) (nn : Tensor Int) (hbatch : w.Drawn (idx, nn)) (hidx : idx ≠ [])
    (labels : Tensor ℝ) (r : Nat) (hl : labels.shape = [w.N, r]) (hr : r ≠ w.nnCount) : L.ScoresSmooth bs w idx nn labels r := by
  obtain ⟨pn, hpn, hpos⟩ := hs.noise
  let K := L.trainee.R.kernel
  have hsuitK : K.fn.Suits K.deform.metric := hsuit
  have hlenpos : ∀ x ∈ L.searchBox, ∀ c, 0 < L.lengthsAt w.f x c := fun x hx => hasLengths_pos (trial_lengths L w hs hx)
  have hlenS : ∀ c, ContDiffOn ℝ ∞ (fun x => L.lengthsAt w.f x c) L.searchBox := fun c => (lengthsAt_smooth L w.f c).contDiffOn
  refine scores_smooth bs L hmade w hw hk0 hs hb (free_bounds L hmade hsuit hs) (fun x a b => K.covFn bs (L.lengthsAt w.f x) a b)
    (fun a b => covFn_smooth bs K hsuitK _ _ hlenS hlenpos) (fun x hx L' hacc htr => ?_) pn hpn (fun x hx nn p l e1 e2 e3 e4 => ?_)
    hfree hN hkN idx nn hbatch hidx labels r hl hr
  · obtain ⟨t1, t2, t3⟩ := trial_kernel L L' hmade hsuit _ hacc htr
    exact ⟨t2, t3, fun a b => covFn_formula bs K L'.trainee.R.kernel hsuitK t1 t3 _ a b⟩
  · have hc := nbrCov_definite bs K hsuitK (L.lengthsAt w.f x) (hlenpos x hx) w.train w.N w.nnCount nn p
    have hsuf : (Noise.homoscedastic (L.valueAt "noise" pn x)).Suffices (p + 1) w.nnCount (DistinctNeighbours w.train w.N w.f w.nnCount nn p) := by
      rcases hpos with h | ⟨h, h'⟩
      · exact .inl (valueAt_within L (noise_mem L hpn) h hx).1
      · exact .inr ⟨(valueAt_within L (noise_mem L hpn) h hx).1, distinct_of_nodup e1 e3 e4 h'.2⟩
    exact Noise.posdef_of_suffices hsuf (Nat.lt_succ_self p) hc.1 hc.2

/-- **C94**, several responses or classes, the general Matérn kernel with a fixed or free smoothness, under the conditions of `C94_smooth_general_partial`. -/
theorem C94_classes_general_partial (L : Learner) (hmade : L.Made) (hg : L.fn = .gen) (hm : L.deform.metric = .l2) (q : Param)
    (hsm : L.kernel.smoothness = some q) (δ : ℝ) (hq : q.Within {ν | 0 < ν ∧ deficit ν ≤ δ})
    (w : NNWrapper) (hw : w.Exact) (hk0 : 0 < w.nnCount) (hs : L.Sensible w) (hnoise : ∀ p, L.noise = .homoscedastic p → p.Within (Set.Ioi δ))
    (hdist : DistinctRows w.train w.N w.f) (hb : L.InBounds) (hfree : L.FreeFirst) (hN : 0 < w.N) (hkN : w.nnCount + 1 ≤ w.N)
    (idx : List Nat) (nn : Tensor Int) (hbatch : w.Drawn (idx, nn)) (hidx : idx ≠ [])
    (labels : Tensor ℝ) (r : Nat) (hl : labels.shape = [w.N, r]) (hr : r ≠ w.nnCount) : L.ScoresSmooth maternGen w idx nn labels r := by
  obtain ⟨pn, hpn, -⟩ := hs.noise
  have hν : ∀ x ∈ L.searchBox, (0 < L.valueAt "smoothness" q x ∧ deficit (L.valueAt "smoothness" q x) ≤ δ) ∧
      inForce (L.freeNames.zip (L.point x)) "smoothness" q = Flt.fin (L.valueAt "smoothness" q x) :=
    fun x hx => valueAt_within L (smoothness_mem L hsm) hq hx
  have hτ : ∀ x ∈ L.searchBox, δ < L.valueAt "noise" pn x := fun x hx => (valueAt_within L (noise_mem L hpn) (hnoise pn hpn) hx).1
  have hlenpos : ∀ x ∈ L.searchBox, ∀ c, 0 < L.lengthsAt w.f x c := fun x hx => hasLengths_pos (trial_lengths L w hs hx)
  have hlenS : ∀ c, ContDiffOn ℝ ∞ (fun x => L.lengthsAt w.f x c) L.searchBox := fun c => (lengthsAt_smooth L w.f c).contDiffOn
  refine scores_smooth maternGen L hmade w hw hk0 hs hb (free_bounds_gen L hsm hq hs)
    (fun x a b => maternGen (Flt.fin (L.valueAt "smoothness" q x)) (distOf .l2 (fun c => a c / L.lengthsAt w.f x c) fun c => b c / L.lengthsAt w.f x c))
    (fun a b => gen_smooth a b (valueAt_smooth L _ _).contDiffOn (fun x hx => (hν x hx).1.1) hlenS hlenpos)
    (fun x hx L' hacc htr => ?_) pn hpn (fun x hx nn p l e1 e2 e3 e4 => ?_) hfree hN hkN idx nn hbatch hidx labels r hl hr
  · obtain ⟨t1, t2, t3, t4⟩ := trial_kernel_gen L L' hmade hg hsm _ hacc htr
    refine ⟨t2, t3, fun a b => ?_⟩
    unfold KernelObj.covFn
    rw [show L'.trainee.R.kernel.fn = .gen from t1, show L'.trainee.R.kernel.deform.metric = .l2 from t3.trans hm,
      show L'.trainee.R.kernel.smoothness.map Param.val = _ from t4, (hν x hx).2]
    rfl
  · have hdn := distinct_of_nodup e1 e3 e4 hdist
    have hlp := hlenpos x hx
    have hscale : ∀ a b : Fin w.f → ℝ, (fun c => a c / L.lengthsAt w.f x c) = (fun c => b c / L.lengthsAt w.f x c) → a = b := fun a b h => by
      funext c
      exact (div_left_inj' (hlp c).ne').1 (congrFun h c)
    exact (gen_kriging (hν x hx).1.1 ((hν x hx).1.2.trans_lt (hτ x hx)) hk0
      (fun j : Fin w.nnCount => fun c => pt w.train w.f (pointOf w.N (nn.get [p, j])) c / L.lengthsAt w.f x c) (fun i j h => by
        by_contra hij
        obtain ⟨c, hc, hne⟩ := hdn i j hij
        exact hne (congrFun (hscale _ _ h) ⟨c, hc⟩)) (L.trialGram w (fun x a b => maternGen (Flt.fin (L.valueAt "smoothness" q x))
        (distOf .l2 (fun c => a c / L.lengthsAt w.f x c) fun c => b c / L.lengthsAt w.f x c)) nn p x) (fun i j => rfl)).1

end MuyGPyS
