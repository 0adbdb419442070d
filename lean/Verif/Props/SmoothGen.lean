import Verif.Props.Smooth
import Verif.Props.Matern
import Verif.Props.SamplerDefault
import Verif.Lemmas.MaternSmooth

/-!
# C94 for the general Matérn kernel: the objective is smooth in the smoothness, too
-/

namespace MuyGPyS
open Py Matrix
open scoped ContDiff

/-- The general kernel between two points, as a function of the hyperparameters. -/
theorem gen_smooth {E : Type*} [NormedAddCommGroup E] [NormedSpace ℝ E] {S : Set E} {f : Nat} (a b : Fin f → ℝ) {ν : E → ℝ} {len : E → Fin f → ℝ}
    (hν : ContDiffOn ℝ ∞ ν S) (hν0 : ∀ e ∈ S, 0 < ν e)
    (hl : ∀ c, ContDiffOn ℝ ∞ (fun e => len e c) S) (hpos : ∀ e ∈ S, ∀ c, 0 < len e c) :
    ContDiffOn ℝ ∞ (fun e => maternGen (Flt.fin (ν e)) (distOf .l2 (fun c => a c / len e c) fun c => b c / len e c)) S := by
  by_cases h : a = b
  · subst h
    simp only [distOf_self, maternGen_zero]
    exact Matern.maternCorrelation_smooth.comp (hν.prodMk contDiffOn_const) fun e he => ⟨hν0 e he, machEps_pos⟩
  · have hd : ∀ e ∈ S, 0 < distOf .l2 (fun c => a c / len e c) fun c => b c / len e c := fun e he => by
      have h3 := C17_metrics (fun c => a c / len e c) (fun c => b c / len e c) (fun c => b c / len e c)
      refine lt_of_le_of_ne h3.2.1 fun h' => h ?_
      have := h3.2.2.1.1 h'.symm
      funext c
      exact (div_left_inj' (hpos e he c).ne').1 (congrFun this c)
    have := Matern.maternCorrelation_smooth.comp (hν.prodMk (distOf_smooth (.inr rfl) a b hl hpos)) fun e he => ⟨hν0 e he, hd e he⟩
    exact this.congr fun e he => maternGen_pos _ (hd e he)

theorem smoothness_mem (L : Learner) {p : Param} (h : L.kernel.smoothness = some p) : ("smoothness", p) ∈ L.gp.params := by
  unfold GP.params Kernel.named
  simp [Learner.gp, h]

theorem free_bounds_gen (L : Learner) {q : Param} (hsm : L.kernel.smoothness = some q) {S : Set ℝ} (hq : q.Within S) {w : NNWrapper}
    (hs : L.Sensible w) : ∀ np ∈ L.gp.params, np.2.fixed = false → ∃ a b : ℝ, np.2.lb = Flt.fin a ∧ np.2.ub = Flt.fin b := by
  intro np hnp hf
  unfold GP.params Kernel.named at hnp
  simp only [Learner.gp] at hnp
  rcases List.mem_append.1 hnp with h | h
  · rcases List.mem_append.1 h with h | h
    · cases hl : L.kernel.ls with
      | scalar p =>
        rw [hl] at h
        simp only [LenScale.named, List.mem_singleton] at h
        subst h
        exact (hs.scalar p hl).bounds hf
      | vector ps =>
        rw [hl] at h
        have hm : np.2 ∈ (namedFrom "length_scale" 0 ps).map Prod.snd := List.mem_map.2 ⟨np, h, rfl⟩
        have hsnd : ∀ (ps : List Param) i, (namedFrom "length_scale" i ps).map Prod.snd = ps := by
          intro ps
          induction ps with
          | nil => intro i; rfl
          | cons p ps ih => intro i; simp [namedFrom, ih]
        rw [hsnd] at hm
        exact ((hs.vector ps hl).2 _ hm).bounds hf
    · rw [hsm] at h
      simp only [Option.map_some, Option.toList_some, List.mem_singleton] at h
      subst h
      exact hq.bounds hf
  · obtain ⟨pn, hpn, hpos⟩ := hs.noise
    rw [hpn] at h
    simp only [List.mem_singleton] at h
    subst h
    exact (hpos.elim (fun h => h.bounds hf) fun h => h.1.bounds hf)

/-- The trial values of a model with the general Matérn kernel leave it one, with the smoothness in force. -/
theorem trial_kernel_gen (L L' : Learner) (hmade : L.Made) (hg : L.fn = .gen) {q : Param} (hsm : L.kernel.smoothness = some q) (kw : Dict Flt)
    (hk : L.trainee.R.kernel.Accepts kw) (ht : L'.trainee = L.trainee.trial kw) :
    L'.fn = .gen ∧ L'.deform.kind = L.deform.kind ∧ L'.deform.metric = L.deform.metric ∧
      L'.kernel.smoothness.map Param.val = some (inForce kw "smoothness" q) := by
  have e : L'.trainee.R.kernel = (L.trainee.R.kernel.overridden kw).make := by rw [ht]; rfl
  refine ⟨?_, ?_⟩
  · have e1 : L'.fn = ((L.trainee.R.kernel.overridden kw).make).fn := congrArg KernelObj.fn e
    rw [e1]
    have hm : L.make.fn = L.fn := by rw [hmade]
    have e2 : ((L.trainee.R.kernel.overridden kw).make).fn = setMaternFn (q.overridden kw "smoothness") := by
      simp only [KernelObj.make, KernelObj.overridden, Learner.trainee, hsm, Option.map_some]
    rw [e2]
    cases hfix : q.fixed with
    | false => simp only [setMaternFn, Param.overridden, hfix, Bool.false_eq_true, if_false]
    | true =>
      have hno : Dict.get? kw "smoothness" = none := by
        rcases hk.2.1 q hsm with h | h
        · rw [hfix] at h; cases h
        · exact h
      have e3 : q.overridden kw "smoothness" = q := by
        unfold Param.overridden inForce; rw [hno]; rfl
      rw [e3, ← hg, ← hm]
      simp only [Learner.make, hsm]
  · have e1 : L'.deform = ((L.trainee.R.kernel.overridden kw).make).deform := congrArg KernelObj.deform e
    have e4 : L'.kernel.smoothness = ((L.trainee.R.kernel.overridden kw).make).smoothness := congrArg KernelObj.smoothness e
    rw [e1, ← and_assoc]
    refine ⟨?_, ?_⟩
    · show ((L.trainee.R.kernel.overridden kw).make).deform.kind = L.trainee.R.kernel.deform.kind ∧
        ((L.trainee.R.kernel.overridden kw).make).deform.metric = L.trainee.R.kernel.deform.metric
      simp only [KernelObj.make, KernelObj.overridden]
      cases L.trainee.R.kernel.deform <;> exact ⟨rfl, rfl⟩
    · rw [e4]
      simp only [KernelObj.make, KernelObj.overridden, Learner.trainee, hsm, Option.map_some, Param.overridden]

/-- The general kernel between different points is the correlation, whose matrices are positive semi-definite. -/
theorem gen_corr {f : Nat} {ν : ℝ} (hν : 0 < ν) (a b : Fin f → ℝ) :
    maternGen (Flt.fin ν) (distOf .l2 a b) =
      Matern.mix ν (√(∑ c, (√(2 * ν) * a c - √(2 * ν) * b c) ^ 2) / 2) - (if a = b then deficit ν else 0) := by
  have hl : 0 ≤ √(2 * ν) := by positivity
  have hz : distOf .l2 a b = 0 ↔ a = b := (C17_metrics a b b).2.2.1
  rw [← mix_dist hl]
  by_cases h : a = b
  · rw [hz.mpr h, if_pos h, maternGen_zero, mul_zero, zero_div, Matern.mix_zero hν]
    unfold deficit; ring
  · have hd : 0 < distOf .l2 a b := lt_of_le_of_ne (C17_metrics a b b).2.1 fun h' => h (hz.mp h'.symm)
    rw [if_neg h, maternGen_pos ν hd, Matern.maternCorrelation_mix hν hd, sub_zero]

/-- The correlations of points with each other. -/
noncomputable def corrMat {ι : Type*} {f : Nat} (ν : ℝ) (y : ι → Fin f → ℝ) : Matrix ι ι ℝ :=
  Matrix.of fun i j => Matern.mix ν (√(∑ c, (√(2 * ν) * y i c - √(2 * ν) * y j c) ^ 2) / 2)

theorem gen_split {n f : Nat} {ν τ : ℝ} (hν : 0 < ν) (y : Fin n → Fin f → ℝ) (hy : Function.Injective y) (G : Matrix (Fin n) (Fin n) ℝ)
    (hG : ∀ i j, G i j = maternGen (Flt.fin ν) (distOf .l2 (y i) (y j))) :
    G + τ • (1 : Matrix (Fin n) (Fin n) ℝ) = corrMat ν y + (τ - deficit ν) • (1 : Matrix (Fin n) (Fin n) ℝ) := by
  ext i j
  rw [Matrix.add_apply, Matrix.add_apply, Matrix.smul_apply, Matrix.smul_apply, Matrix.one_apply, hG, gen_corr hν]
  unfold corrMat
  rw [Matrix.of_apply]
  by_cases h : i = j
  · subst h
    simp only [if_true, smul_eq_mul, mul_one]; ring
  · rw [if_neg h, if_neg fun h' => h (hy h')]; simp

/-- With noise above the deficit the covariances of different points with the general kernel are positive definite, and the variance at a point
that is none of them is positive. -/
theorem gen_kriging {n f : Nat} {ν τ : ℝ} (hν : 0 < ν) (hτ : deficit ν < τ) (hn : 0 < n) (y : Fin n → Fin f → ℝ) (hy : Function.Injective y)
    (G : Matrix (Fin n) (Fin n) ℝ) (hG : ∀ i j, G i j = maternGen (Flt.fin ν) (distOf .l2 (y i) (y j))) :
    (G + τ • (1 : Matrix (Fin n) (Fin n) ℝ)).PosDef ∧ ∀ (q : Fin f → ℝ) (k : Fin n → ℝ), (∀ j, q ≠ y j) →
      (∀ j, k j = maternGen (Flt.fin ν) (distOf .l2 q (y j))) → 0 < Spec.krigingVar 1 (G + τ • (1 : Matrix (Fin n) (Fin n) ℝ)) k := by
  rw [gen_split hν y hy G hG]
  have hpd : (corrMat ν y + (τ - deficit ν) • (1 : Matrix (Fin n) (Fin n) ℝ)).PosDef :=
    Kriging.posdef_of_psd_add (Matern.mix_psd hν fun i c => √(2 * ν) * y i c) (sub_pos.2 hτ)
  refine ⟨hpd, fun q k hq hk => ?_⟩
  have hk' : ∀ j, k j = Matern.mix ν (√(∑ c, (√(2 * ν) * q c - √(2 * ν) * y j c) ^ 2) / 2) := fun j => by
    rw [hk, gen_corr hν, if_neg (hq j), sub_zero]
  have hj : (Kriging.joint (corrMat ν y) k 1).PosSemidef := by
    have := Matern.mix_psd hν (fun (i : Fin n ⊕ Unit) c => √(2 * ν) * (Sum.elim y (fun _ => q) i) c)
    convert this using 1
    ext a b
    rcases a with a | a <;> rcases b with b | b
    · rfl
    · show k a = Matern.mix ν _
      rw [hk']
      congr 2
      simp only [Sum.elim_inl, Sum.elim_inr]
      refine congrArg Real.sqrt (Finset.sum_congr rfl fun c _ => by ring)
    · exact hk' b
    · show (1 : ℝ) = Matern.mix ν _
      simp [Matern.mix_zero hν]
  refine Kriging.schur_pos (fun h => ?_) hj (Matrix.PosDef.one.smul (sub_pos.2 hτ)) hpd
  have := hk' ⟨0, hn⟩
  rw [h] at this
  exact (Matern.mix_pos hν _).ne this

/-- **C94** for the general Matérn kernel, with a free smoothness or any fixed one: under a noise above the defect of the kernel at distance zero (C62)
for every smoothness the optimiser may try, on training points that are pairwise different, the function that the optimisers are given is infinitely
differentiable in all free hyperparameters, the smoothness included, and attains its minimum in the search box. -/
theorem C94_smooth_general_partial (L : Learner) (hmade : L.Made) (hg : L.fn = .gen) (hm : L.deform.metric = .l2) (q : Param)
    (hsm : L.kernel.smoothness = some q) (δ : ℝ) (hq : q.Within {ν | 0 < ν ∧ deficit ν ≤ δ})
    (w : NNWrapper) (hw : w.Exact) (hk0 : 0 < w.nnCount) (hs : L.Sensible w) (hnoise : ∀ p, L.noise = .homoscedastic p → p.Within (Set.Ioi δ))
    (hsep : w.Separated) (hdist : DistinctRows w.train w.N w.f) (hb : L.InBounds) (hfree : L.FreeFirst)
    (bc : Nat) (hbc : 0 < bc) (draw : List Nat) (hd : bc < w.N → IsDraw w.N bc draw) (hN : 0 < w.N) (hkN : w.nnCount + 1 ≤ w.N)
    (Y : Tensor ℝ) (hY : Y.shape = [w.N]) (l : LossKind)
    (hl : ∀ batch d, sampleBatch w bc w.N draw = .ok batch → L.trainData batch w.train Y = .ok d → L.SmoothLoss d l) (draws : List (List Nat)) :
    ∃ batch d o, sampleBatch w bc w.N draw = .ok batch ∧ L.trainData batch w.train Y = .ok d ∧ L.gp.getOptParams = .ok o ∧
      ∃ g : (Fin L.freeNames.length → ℝ) → ℝ,
        (∀ x ∈ L.searchBox, arrayObjFn (L.objective maternGen l draws d) o.names (L.point x) = .ok (some (g x))) ∧
        ContDiffOn ℝ ∞ g L.searchBox ∧ ∃ x ∈ L.searchBox, ∀ y ∈ L.searchBox, g x ≤ g y := by
  obtain ⟨pn, hpn, -⟩ := hs.noise
  have hν : ∀ x ∈ L.searchBox, (0 < L.valueAt "smoothness" q x ∧ deficit (L.valueAt "smoothness" q x) ≤ δ) ∧
      inForce (L.freeNames.zip (L.point x)) "smoothness" q = Flt.fin (L.valueAt "smoothness" q x) :=
    fun x hx => valueAt_within L (smoothness_mem L hsm) hq hx
  have hτ : ∀ x ∈ L.searchBox, δ < L.valueAt "noise" pn x := fun x hx => (valueAt_within L (noise_mem L hpn) (hnoise pn hpn) hx).1
  have hlenpos : ∀ x ∈ L.searchBox, ∀ c, 0 < L.lengthsAt w.f x c := fun x hx => hasLengths_pos (trial_lengths L w hs hx)
  have hlenS : ∀ c, ContDiffOn ℝ ∞ (fun x => L.lengthsAt w.f x c) L.searchBox := fun c => (lengthsAt_smooth L w.f c).contDiffOn
  refine objective_smooth maternGen L hmade w hw hk0 hs hb (free_bounds_gen L hsm hq hs)
    (fun x a b => maternGen (Flt.fin (L.valueAt "smoothness" q x)) (distOf .l2 (fun c => a c / L.lengthsAt w.f x c) fun c => b c / L.lengthsAt w.f x c))
    (fun a b => gen_smooth a b (valueAt_smooth L _ _).contDiffOn (fun x hx => (hν x hx).1.1) hlenS hlenpos)
    (fun x hx L' hacc htr => ?_) pn hpn (fun x hx nn p l e1 e2 e3 e4 => ?_) hfree bc hbc draw hd hN hkN Y hY l hl draws
  · obtain ⟨t1, t2, t3, t4⟩ := trial_kernel_gen L L' hmade hg hsm _ hacc htr
    refine ⟨t2, t3, fun a b => ?_⟩
    unfold KernelObj.covFn
    rw [show L'.trainee.R.kernel.fn = .gen from t1, show L'.trainee.R.kernel.deform.metric = .l2 from t3.trans hm,
      show L'.trainee.R.kernel.smoothness.map Param.val = _ from t4, (hν x hx).2]
    rfl
  · have hdn := distinct_of_nodup e1 e3 e4 hdist
    have hlp := hlenpos x hx
    have hscale : ∀ a b : Fin w.f → ℝ, (fun c => a c / L.lengthsAt w.f x c) = (fun c => b c / L.lengthsAt w.f x c) → a = b := fun a b h => by
      funext c
      exact (div_left_inj' (hlp c).ne').1 (congrFun h c)
    have hτ₀ : δ < pn.val.toReal := by
      obtain ⟨v, hv, e⟩ := (hnoise pn hpn).current (hb _ (noise_mem L hpn))
      rw [e, fin_toReal]; exact hv
    have hinj : Function.Injective fun j : Fin w.nnCount => fun c => pt w.train w.f (pointOf w.N (nn.get [p, j])) c / L.lengthsAt w.f x c :=
      fun i j h => by
        by_contra hij
        obtain ⟨c, hc, hne⟩ := hdn i j hij
        exact hne (congrFun (hscale _ _ h) ⟨c, hc⟩)
    obtain ⟨h1, h2⟩ := gen_kriging (hν x hx).1.1 ((hν x hx).1.2.trans_lt (hτ x hx)) hk0 _ hinj
      (L.trialGram w (fun x a b => maternGen (Flt.fin (L.valueAt "smoothness" q x))
        (distOf .l2 (fun c => a c / L.lengthsAt w.f x c) fun c => b c / L.lengthsAt w.f x c)) nn p x) (fun i j => rfl)
    obtain ⟨h3, -⟩ := gen_kriging (hν x hx).1.1 ((hν x hx).1.2.trans_lt hτ₀) hk0 _ hinj
      (L.trialGram w (fun x a b => maternGen (Flt.fin (L.valueAt "smoothness" q x))
        (distOf .l2 (fun c => a c / L.lengthsAt w.f x c) fun c => b c / L.lengthsAt w.f x c)) nn p x) (fun i j => rfl)
    refine ⟨h1, h3, fun i hi hsepi => ?_⟩
    refine h2 (fun c => rowPt w.train w.f i c / L.lengthsAt w.f x c) _ (fun j heq => ?_) fun j => rfl
    obtain ⟨o1, o2⟩ := hsepi hsep j j.2
    obtain ⟨c, hc, hne⟩ := hdist _ hi _ o1 (Ne.symm o2)
    have := congrFun (hscale _ _ heq) ⟨c, hc⟩
    simp only [rowPt, pt] at this
    refine hne ?_
    simp only [feature, hw.1] at this ⊢
    exact this

end MuyGPyS
