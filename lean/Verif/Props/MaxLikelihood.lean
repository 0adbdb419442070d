import Verif.Spec.MaxLikelihood
import Verif.Props.WellPosed
import Verif.Props.Unbiased

/-! # C115: the estimated variance scale is the most likely one -/

namespace MuyGPyS
open Py Matrix

theorem normalDensity_log {n : Nat} (K : Matrix (Fin n) (Fin n) ℝ) (hK : K.PosDef) (y : Fin n → ℝ) {s : ℝ} (hs : 0 < s) :
    0 < Spec.normalDensity (s • K) y ∧
    Real.log (Spec.normalDensity (s • K) y) =
      -(1 / 2) * (Spec.quadForm K y / s) - 1 / 2 * Real.log ((2 * Real.pi) ^ n * K.det) - n / 2 * Real.log s := by
  have hd : 0 < K.det := hK.det_pos
  have h2 : 0 < (2 * Real.pi) ^ n * K.det := by positivity
  have e1 : (s • K).det = s ^ n * K.det := by rw [det_smul, Fintype.card_fin]
  have e2 : (s • K)⁻¹ = s⁻¹ • K⁻¹ := by
    have : IsUnit K.det := isUnit_iff_ne_zero.2 hd.ne'
    exact Matrix.inv_smul' K (Units.mk0 s hs.ne') this
  have e3 : (2 * Real.pi) ^ n * (s • K).det = s ^ n * ((2 * Real.pi) ^ n * K.det) := by rw [e1]; ring
  have hpos : 0 < Spec.normalDensity (s • K) y := by
    unfold Spec.normalDensity
    rw [e3]
    positivity
  refine ⟨hpos, ?_⟩
  unfold Spec.normalDensity
  rw [Real.log_div (Real.exp_pos _).ne' (by rw [e3]; positivity), Real.log_exp, Real.log_sqrt (by rw [e3]; positivity), e3,
    Real.log_mul (by positivity) h2.ne', Real.log_pow, e2, smul_mulVec, dotProduct_smul]
  unfold Spec.quadForm
  rw [smul_eq_mul]
  ring

/-- What `Spec.normalDensity` is for independent responses: the product of the normal densities. -/
theorem normalDensity_diagonal {n : Nat} (v : Fin n → NNReal) (hv : ∀ i, v i ≠ 0) (y : Fin n → ℝ) :
    Spec.normalDensity (Matrix.diagonal fun i => (v i : ℝ)) y = ∏ i, ProbabilityTheory.gaussianPDFReal 0 (v i) (y i) := by
  have hp : ∀ i, (0:ℝ) < v i := fun i => (v i).2.lt_of_ne fun h => hv i (NNReal.coe_eq_zero.1 h.symm)
  have hinv : (Matrix.diagonal fun i => (v i : ℝ))⁻¹ = Matrix.diagonal fun i => (v i : ℝ)⁻¹ := by
    refine Matrix.inv_eq_right_inv ?_
    rw [Matrix.diagonal_mul_diagonal, ← Matrix.diagonal_one]
    congr 1
    funext i
    exact mul_inv_cancel₀ (hp i).ne'
  unfold Spec.normalDensity ProbabilityTheory.gaussianPDFReal
  rw [hinv, Matrix.det_diagonal, Finset.prod_mul_distrib, ← Real.exp_sum]
  have e1 : (2 * Real.pi) ^ n * ∏ i, (v i : ℝ) = ∏ i, (2 * Real.pi * (v i : ℝ)) := by
    rw [Finset.prod_mul_distrib, Finset.prod_const, Finset.card_univ, Fintype.card_fin]
  have e2 : √(∏ i, (2 * Real.pi * (v i : ℝ))) = ∏ i, √(2 * Real.pi * (v i : ℝ)) :=
    Real.sqrt_prod _ fun i _ => by have := hp i; positivity
  rw [e1, e2, Finset.prod_inv_distrib, div_eq_mul_inv, mul_comm]
  congr 2
  unfold dotProduct
  rw [Finset.mul_sum]
  refine Finset.sum_congr rfl fun i _ => ?_
  rw [mulVec_diagonal]
  have := (hp i).ne'
  field_simp
  ring

/-- The log-likelihood of a scale. -/
theorem scaleLikelihood_log {n b : Nat} (K : Nat → Matrix (Fin n) (Fin n) ℝ) (hK : ∀ p < b, (K p).PosDef) (y : Nat → Fin n → ℝ) :
    ∃ c, ∀ s > 0, 0 < Spec.scaleLikelihood b K y s ∧ Real.log (Spec.scaleLikelihood b K y s) =
      c - (b * n / 2) * Real.log s - 1 / 2 * ((∑ p ∈ Finset.range b, Spec.quadForm (K p) (y p)) / s) := by
  refine ⟨∑ p ∈ Finset.range b, -(1 / 2 * Real.log ((2 * Real.pi) ^ n * (K p).det)), fun s hs => ?_⟩
  have h := fun p (hp : p ∈ Finset.range b) => normalDensity_log (K p) (hK p (Finset.mem_range.1 hp)) (y p) hs
  refine ⟨Finset.prod_pos fun p hp => (h p hp).1, ?_⟩
  unfold Spec.scaleLikelihood
  rw [Real.log_prod fun p hp => (h p hp).1.ne', Finset.sum_congr rfl fun p hp => (h p hp).2, Finset.sum_div, Finset.mul_sum]
  have : (b * n / 2 : ℝ) * Real.log s = ∑ p ∈ Finset.range b, n / 2 * Real.log s := by
    rw [Finset.sum_const, Finset.card_range, nsmul_eq_mul]; ring
  rw [this, ← Finset.sum_sub_distrib, ← Finset.sum_sub_distrib]
  exact Finset.sum_congr rfl fun p _ => by ring

/-- The documented estimate is the unique maximum of the likelihood when it is positive. -/
theorem estimate_most_likely {n b : Nat} (hn : 0 < n) (hb : 0 < b) (K : Nat → Matrix (Fin n) (Fin n) ℝ) (hK : ∀ p < b, (K p).PosDef)
    (y : Nat → Fin n → ℝ) (h0 : 0 < Spec.scaleEstimate b K y) :
    ∀ t > 0, t ≠ Spec.scaleEstimate b K y → Spec.scaleLikelihood b K y t < Spec.scaleLikelihood b K y (Spec.scaleEstimate b K y) := by
  intro t ht hne
  obtain ⟨c, hc⟩ := scaleLikelihood_log K hK y
  set s := Spec.scaleEstimate b K y with hs
  have hbn : 0 < (b : ℝ) * n := by positivity
  have hQ : ∑ p ∈ Finset.range b, Spec.quadForm (K p) (y p) = b * n * s := by
    rw [hs]; unfold Spec.scaleEstimate
    field_simp
  rw [hQ] at hc
  rw [← Real.log_lt_log_iff (hc t ht).1 (hc s h0).1, (hc t ht).2, (hc s h0).2]
  have hx : 0 < s / t := by positivity
  have key := Real.log_lt_sub_one_of_pos hx (fun h => hne ((div_eq_one_iff_eq ht.ne').1 h).symm)
  rw [Real.log_div h0.ne' ht.ne'] at key
  have e1 : (b : ℝ) * n * s / t = b * n * (s / t) := by ring
  have e2 : (b : ℝ) * n * s / s = b * n := by field_simp
  rw [e1, e2]
  nlinarith

/-- With responses zero, smaller scales are always more likely. -/
theorem zero_unlikely {n b : Nat} (hn : 0 < n) (hb : 0 < b) (K : Nat → Matrix (Fin n) (Fin n) ℝ) (hK : ∀ p < b, (K p).PosDef)
    (y : Nat → Fin n → ℝ) (h0 : Spec.scaleEstimate b K y = 0) :
    ∀ s > 0, ∀ t > s, Spec.scaleLikelihood b K y t < Spec.scaleLikelihood b K y s := by
  intro s hs t hst
  obtain ⟨c, hc⟩ := scaleLikelihood_log K hK y
  have hbn : 0 < (b : ℝ) * n := by positivity
  have hQ : ∑ p ∈ Finset.range b, Spec.quadForm (K p) (y p) = 0 := by
    unfold Spec.scaleEstimate at h0
    rcases mul_eq_zero.1 h0 with h | h
    · exact absurd h (by positivity)
    · exact h
  rw [hQ] at hc
  have ht := hs.trans hst
  rw [← Real.log_lt_log_iff (hc t ht).1 (hc s hs).1, (hc t ht).2, (hc s hs).2]
  have := Real.log_lt_log hs hst
  simp only [zero_div, mul_zero, sub_zero]
  nlinarith

/-- **C115**: on every batch, the scale that `optimize_scale` sets is the one under which the responses of the batch's neighbourhoods are
most likely; where all these responses are zero, so that there is no most likely scale (smaller ones are always more likely),
`optimize_scale` raises. -/
theorem C115_most_likely_partial (bs : Flt → ℝ → ℝ) (L : Learner) (hmade : L.Made) (hsk : L.scaleKind = .analytic 1)
    (w : NNWrapper) (hw : w.Exact) (len : Fin w.f → ℝ) (hlen : L.deform.HasLengths w.f len)
    (bc : Nat) (hbc : 0 < bc) (draw : List Nat) (hd : bc < w.N → IsDraw w.N bc draw) (sd : List (List Nat)) (hN : 0 < w.N)
    (hk0 : 0 < w.nnCount) (hkN : w.nnCount + 1 ≤ w.N) (hν : ∀ b, L.trainee.R.gp.noise.Fits b w.nnCount)
    (hreg : (L.fn.Suits L.deform.metric ∧ L.trainee.R.gp.noise.Suffices (min bc w.N) w.nnCount (DistinctRows w.train w.N w.f)) ∨
      ∃ τ, L.trainee.R.gp.noise.Level τ ∧ L.WellPosed bs w τ) (Y : Tensor ℝ) (hY : Y.shape = [w.N]) :
    ∃ idx nn d, sampleBatch w bc w.N draw = .ok (idx, nn) ∧ L.trainData (idx, nn) w.train Y = .ok d ∧
      let lik := Spec.scaleLikelihood idx.length
        (fun p => nbrCov bs L.trainee.R.kernel len w.train w.N w.nnCount nn p + L.trainee.R.gp.noise.mat w.nnCount p)
        (fun p j => Y.get [pointOf w.N (nn.get [p, j])])
      ((∃ p < idx.length, ∃ j < w.nnCount, Y.get [pointOf w.N (nn.get [p, j])] ≠ 0) →
        ∃ s, 0 < s ∧ L.optimizeScale bs sd d.pairwise d.nnTargets = .ok { L with scale := s, boundScale := s } ∧
          ∀ t > 0, t ≠ s → lik t < lik s) ∧
      ((∀ p < idx.length, ∀ j < w.nnCount, Y.get [pointOf w.N (nn.get [p, j])] = 0) →
        L.optimizeScale bs sd d.pairwise d.nnTargets = .error .value ∧ ∀ s > 0, ∀ t > s, lik t < lik s) := by
  obtain ⟨idx, nn, h1, h2, h3, h4, _, h5, h6⟩ := C42_batch w hw bc hbc hN draw hd hkN
  have hpos := hasLengths_pos hlen
  have hb : idx.length = min bc w.N := h2
  have hb0 : 0 < idx.length := by rw [hb]; exact lt_min hbc hN
  have hrows : ∀ p < idx.length, ∃ l : List Nat, rowList nn w.nnCount p = l.map Int.ofNat ∧ l.length = w.nnCount ∧ l.Nodup ∧
      ∀ j ∈ l, j < w.N := fun p hp => by
    obtain ⟨l, e1, e2, e3, e4, _⟩ := h6 p idx[p] (List.getElem?_eq_getElem hp)
    exact ⟨l, e1, e2, e3, e4⟩
  have hv : AllValid w.N nn := valid_of_rows h5 fun i hi j hj => by
    obtain ⟨l, e1, _, _, e2⟩ := hrows i hi
    obtain ⟨x, x1, x2⟩ := rowList_get e1 hj
    exact ⟨x, x2, e2 x (List.mem_of_getElem? x1)⟩
  have hpd : ∀ p < idx.length,
      (nbrCov bs L.trainee.R.kernel len w.train w.N w.nnCount nn p + L.trainee.R.gp.noise.mat w.nnCount p).PosDef := by
    rw [← hb] at hreg
    exact hreg.elim (fun h => batch_posdef bs L h.1 w len hlen idx.length nn hrows h.2) fun ⟨_, hτ, h⟩ => h.posdef hw hlen hτ idx.length nn hrows
  have hYf : ∀ x, feature Y x 0 = Y.get [x] := fun x => by simp only [feature, hY]
  obtain ⟨idx', nn', d, g1, -, -, -, -, -, g2, g3, -, -, g4, -, g5⟩ :=
    regressor_data L w hw len hlen bc hbc draw hd hN hkN Y hY
  rw [h1] at g1
  obtain ⟨rfl, rfl⟩ := Prod.mk.inj (Except.ok.inj g1)
  refine ⟨idx, nn, d, h1, g2, ?_⟩
  intro lik
  have hopt := optimizeScale_analytic bs L hmade hsk w hw len hlen idx.length nn h5 hv d.pairwise d.nnTargets g3 g4 (hν _)
      (fun p hp => Kriging.det_ne_zero (hpd p hp)) sd
  set K : Nat → Matrix (Fin w.nnCount) (Fin w.nnCount) ℝ := fun p =>
    nbrCov bs L.trainee.R.kernel len w.train w.N w.nnCount nn p + L.trainee.R.gp.noise.mat w.nnCount p with hK
  set y : Nat → Fin w.nnCount → ℝ := fun p j => Y.get [pointOf w.N (nn.get [p, j])] with hy
  have e : Spec.scaleEstimate idx.length K (Spec.vec w.nnCount d.nnTargets) = Spec.scaleEstimate idx.length K y := by
    refine scaleEstimate_congr (fun _ _ => rfl) fun p hp => ?_
    rw [g5 p hp]
    funext j
    exact hYf _
  replace hopt : L.optimizeScale bs sd d.pairwise d.nnTargets =
      if Spec.scaleEstimate idx.length K y ≤ 0 then .error .value
      else .ok { L with scale := Spec.scaleEstimate idx.length K y, boundScale := Spec.scaleEstimate idx.length K y } := by
    rw [← e]; exact hopt
  have hsign := estimate_sign hk0 hb0 hpd y
  constructor
  · rintro ⟨p, hp, j, hj, hne⟩
    have hs : 0 < Spec.scaleEstimate idx.length K y := by
      refine lt_of_le_of_ne hsign.1 fun h0 => hne ?_
      exact congrFun (hsign.2.mp h0.symm p hp) ⟨j, hj⟩
    refine ⟨_, hs, ?_, estimate_most_likely hk0 hb0 K hpd y hs⟩
    rw [hopt, if_neg (not_le.mpr hs)]
  · intro hz
    have hs : Spec.scaleEstimate idx.length K y = 0 := hsign.2.mpr fun p hp => by
      funext j
      exact hz p hp j j.2
    refine ⟨by rw [hopt, if_pos hs.le], zero_unlikely hk0 hb0 K hpd y hs⟩

/-- **C115 is false of the code for two or more iterations**: unless the most likely scale `c` happens to be 1, `optimize_scale` with
`iteration_count = t + 2` sets another, less likely scale. -/
theorem C115_iterations_fail (bs : Flt → ℝ → ℝ) (L : Learner) (hmade : L.Made) (t : Nat) (hsk : L.scaleKind = .analytic (t + 2))
    (w : NNWrapper) (hw : w.Exact) (len : Fin w.f → ℝ) (hlen : L.deform.HasLengths w.f len)
    (bc : Nat) (hbc : 0 < bc) (draw : List Nat) (hd : bc < w.N → IsDraw w.N bc draw) (sd : List (List Nat)) (hN : 0 < w.N)
    (hk0 : 0 < w.nnCount) (hkN : w.nnCount + 1 ≤ w.N) (hν : ∀ b, L.trainee.R.gp.noise.Fits b w.nnCount)
    (hreg : (L.fn.Suits L.deform.metric ∧ L.trainee.R.gp.noise.Suffices (min bc w.N) w.nnCount (DistinctRows w.train w.N w.f)) ∨
      ∃ τ, L.trainee.R.gp.noise.Level τ ∧ L.WellPosed bs w τ) (Y : Tensor ℝ) (hY : Y.shape = [w.N]) :
    ∃ idx nn d, sampleBatch w bc w.N draw = .ok (idx, nn) ∧ L.trainData (idx, nn) w.train Y = .ok d ∧
      let lik := Spec.scaleLikelihood idx.length
        (fun p => nbrCov bs L.trainee.R.kernel len w.train w.N w.nnCount nn p + L.trainee.R.gp.noise.mat w.nnCount p)
        (fun p j => Y.get [pointOf w.N (nn.get [p, j])])
      (∃ p < idx.length, ∃ j < w.nnCount, Y.get [pointOf w.N (nn.get [p, j])] ≠ 0) →
        ∃ c s, 0 < c ∧ 0 < s ∧ L.optimizeScale bs sd d.pairwise d.nnTargets = .ok { L with scale := s, boundScale := s } ∧
          (∀ t > 0, t ≠ c → lik t < lik c) ∧ (c ≠ 1 → s ≠ c ∧ lik s < lik c) := by
  obtain ⟨idx, nn, h1, h2, h3, h4, _, h5, h6⟩ := C42_batch w hw bc hbc hN draw hd hkN
  have hpos := hasLengths_pos hlen
  have hb : idx.length = min bc w.N := h2
  have hb0 : 0 < idx.length := by rw [hb]; exact lt_min hbc hN
  have hrows : ∀ p < idx.length, ∃ l : List Nat, rowList nn w.nnCount p = l.map Int.ofNat ∧ l.length = w.nnCount ∧ l.Nodup ∧
      ∀ j ∈ l, j < w.N := fun p hp => by
    obtain ⟨l, e1, e2, e3, e4, _⟩ := h6 p idx[p] (List.getElem?_eq_getElem hp)
    exact ⟨l, e1, e2, e3, e4⟩
  have hv : AllValid w.N nn := valid_of_rows h5 fun i hi j hj => by
    obtain ⟨l, e1, _, _, e2⟩ := hrows i hi
    obtain ⟨x, x1, x2⟩ := rowList_get e1 hj
    exact ⟨x, x2, e2 x (List.mem_of_getElem? x1)⟩
  have hpd : ∀ p < idx.length,
      (nbrCov bs L.trainee.R.kernel len w.train w.N w.nnCount nn p + L.trainee.R.gp.noise.mat w.nnCount p).PosDef := by
    rw [← hb] at hreg
    exact hreg.elim (fun h => batch_posdef bs L h.1 w len hlen idx.length nn hrows h.2) fun ⟨_, hτ, h⟩ => h.posdef hw hlen hτ idx.length nn hrows
  have hYf : ∀ x, feature Y x 0 = Y.get [x] := fun x => by simp only [feature, hY]
  obtain ⟨idx', nn', d, g1, -, -, -, -, -, g2, g3, -, -, g4, -, g5⟩ :=
    regressor_data L w hw len hlen bc hbc draw hd hN hkN Y hY
  rw [h1] at g1
  obtain ⟨rfl, rfl⟩ := Prod.mk.inj (Except.ok.inj g1)
  refine ⟨idx, nn, d, h1, g2, ?_⟩
  intro lik
  set K : Nat → Matrix (Fin w.nnCount) (Fin w.nnCount) ℝ := fun p =>
    nbrCov bs L.trainee.R.kernel len w.train w.N w.nnCount nn p + L.trainee.R.gp.noise.mat w.nnCount p with hK
  set y : Nat → Fin w.nnCount → ℝ := fun p j => Y.get [pointOf w.N (nn.get [p, j])] with hy
  have e : Spec.scaleEstimate idx.length K (Spec.vec w.nnCount d.nnTargets) = Spec.scaleEstimate idx.length K y := by
    refine scaleEstimate_congr (fun _ _ => rfl) fun p hp => ?_
    rw [g5 p hp]
    funext j
    exact hYf _
  have hsign := estimate_sign hk0 hb0 hpd y
  rintro ⟨p, hp, j, hj, hne⟩
  have hs : 0 < Spec.scaleEstimate idx.length K y := by
    refine lt_of_le_of_ne hsign.1 fun h0 => hne ?_
    exact congrFun (hsign.2.mp h0.symm p hp) ⟨j, hj⟩
  have hopt := optimizeScale_iterated bs L hmade (t + 1) hsk w hw len hlen idx.length nn h5 hv d.pairwise d.nnTargets g3 g4 (hν _)
      (fun p hp => Kriging.det_ne_zero (hpd p hp)) sd (e ▸ hs)
  have hlik := estimate_most_likely hk0 hb0 K hpd y hs
  have hh := heron_pos hs (t + 1)
  refine ⟨_, heron (Spec.scaleEstimate idx.length K y) (t + 1), hs, hh, ?_, hlik, fun h1 => ?_⟩
  · rw [← e]; exact hopt
  · have := heron_ne hs h1 t
    exact ⟨this, hlik _ hh this⟩

/-- Non-vacuity of `C115_most_likely_partial`: three training points on a line with response `1`, two neighbours, noise. -/
example (bs : Flt → ℝ → ℝ) : ∃ (w : NNWrapper) (idx : List Nat) (nn : Tensor Int) (d : TrainData) (s : ℝ), w.train = lineTrain ∧
    lineLearner.trainData (idx, nn) lineTrain ⟨[3], fun _ => 1⟩ = .ok d ∧ 0 < s ∧
    lineLearner.optimizeScale bs [] d.pairwise d.nnTargets = .ok { lineLearner with scale := s, boundScale := s } := by
  obtain ⟨answer, hw⟩ := line_exact
  set w : NNWrapper := ⟨3, 1, lineTrain, 2, fun x y => |x 0 - y 0|, false, answer⟩ with hwd
  obtain ⟨idx, nn, d, h1, h2, h3, -⟩ := C115_most_likely_partial bs lineLearner rfl rfl w hw (fun _ => 1) ⟨1, one_pos, rfl, fun _ => rfl⟩
    3 (by norm_num) [] (fun h => absurd h (lt_irrefl 3)) [] (by norm_num [hwd]) (by norm_num [hwd]) (by norm_num [hwd])
    (fun _ => trivial) (.inl ⟨rfl, .inl one_pos⟩) ⟨[3], fun _ => 1⟩ rfl
  have hb : 0 < idx.length := by
    obtain ⟨idx', nn', g1, g2, -⟩ := C42_batch w hw 3 (by norm_num) (by norm_num [hwd]) [] (fun h => absurd h (lt_irrefl 3)) (by norm_num [hwd])
    rw [h1] at g1
    obtain ⟨rfl, rfl⟩ := Prod.mk.inj (Except.ok.inj g1)
    rw [g2]; norm_num [hwd]
  obtain ⟨s, s1, s2, -⟩ := h3 ⟨0, hb, 0, by norm_num [hwd], one_ne_zero⟩
  exact ⟨w, idx, nn, d, s, rfl, h2, s1, s2⟩

/-- Non-vacuity of `C115_iterations_fail`: as above, with two iterations. -/
example (bs : Flt → ℝ → ℝ) : ∃ (idx : List Nat) (nn : Tensor Int) (d : TrainData) (c s : ℝ), 0 < c ∧ 0 < s ∧
    ({ lineLearner with scaleKind := .analytic 2 } : Learner).trainData (idx, nn) lineTrain ⟨[3], fun _ => 1⟩ = .ok d ∧
    ({ lineLearner with scaleKind := .analytic 2 } : Learner).optimizeScale bs [] d.pairwise d.nnTargets =
      .ok { lineLearner with scaleKind := .analytic 2, scale := s, boundScale := s } := by
  obtain ⟨answer, hw⟩ := line_exact
  set w : NNWrapper := ⟨3, 1, lineTrain, 2, fun x y => |x 0 - y 0|, false, answer⟩ with hwd
  obtain ⟨idx, nn, d, h1, h2, h3⟩ := C115_iterations_fail bs { lineLearner with scaleKind := .analytic 2 } rfl 0 rfl w hw (fun _ => 1)
    ⟨1, one_pos, rfl, fun _ => rfl⟩
    3 (by norm_num) [] (fun h => absurd h (lt_irrefl 3)) [] (by norm_num [hwd]) (by norm_num [hwd]) (by norm_num [hwd])
    (fun _ => trivial) (.inl ⟨rfl, .inl one_pos⟩) ⟨[3], fun _ => 1⟩ rfl
  have hb : 0 < idx.length := by
    obtain ⟨idx', nn', g1, g2, -⟩ := C42_batch w hw 3 (by norm_num) (by norm_num [hwd]) [] (fun h => absurd h (lt_irrefl 3)) (by norm_num [hwd])
    rw [h1] at g1
    obtain ⟨rfl, rfl⟩ := Prod.mk.inj (Except.ok.inj g1)
    rw [g2]; norm_num [hwd]
  obtain ⟨c, s, s1, s2, s3, -⟩ := h3 ⟨0, hb, 0, by norm_num [hwd], one_ne_zero⟩
  exact ⟨idx, nn, d, c, s, s1, s2, h2, s3⟩

end MuyGPyS
