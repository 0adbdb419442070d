import Verif.Props.Covariance
import Verif.Model.MaternGen
import Verif.Lemmas.Bessel
import Verif.Lemmas.MaternLimit
import Verif.Lemmas.MaternSmall

/-!
# C62: every Matérn kernel is the Matérn correlation of its smoothness, up to a nugget-like defect at distance zero

`maternCorrelation` (`Spec/Bessel.lean`) is the documented formula with the gamma and Bessel functions.
-/

namespace MuyGPyS
open Py Matrix Filter Topology

theorem machEps_pos : 0 < machEps := by unfold machEps; positivity

/-- The general implementation at a positive distance and at distance zero. -/
theorem maternGen_pos (ν : ℝ) {d : ℝ} (hd : 0 < d) : maternGen (Flt.fin ν) d = maternCorrelation ν d := by
  unfold maternGen maternCorrelation
  simp only [fin_toReal, if_neg hd.ne']

theorem maternGen_zero (ν : ℝ) : maternGen (Flt.fin ν) 0 = maternCorrelation ν machEps := by
  unfold maternGen maternCorrelation
  simp only [fin_toReal, if_true, zero_add]

theorem fin_inj {x y : ℝ} (h : Flt.fin x = Flt.fin y) : x = y := by simpa [Flt.fin] using h

/-- Whatever implementation is selected, its value at a positive distance is the Matérn correlation. -/
theorem value_matern (q : Param) {ν d : ℝ} (hν : 0 < ν) (hq : q.val = Flt.fin ν) (hd : 0 < d) :
    KFn.value maternGen (Flt.fin ν) (setMaternFn q) d = maternCorrelation ν d := by
  have hgen : KFn.value maternGen (Flt.fin ν) .gen d = maternCorrelation ν d := maternGen_pos ν hd
  unfold setMaternFn
  rw [hq]
  split_ifs with h0 h1 h2 h3 h4
  · obtain rfl := fin_inj h1
    rw [Matern.maternCorrelation_mix hν hd]; exact (value_mix _ _ hd.le).1
  · obtain rfl := fin_inj h2
    rw [Matern.maternCorrelation_mix hν hd]; exact (value_mix _ _ hd.le).2.1
  · obtain rfl := fin_inj h3
    rw [Matern.maternCorrelation_mix hν hd]; exact (value_mix _ _ hd.le).2.2
  · simp [Flt.fin] at h4
  · exact hgen
  · exact hgen

theorem distOf_l2_scaled (X Y : Tensor ℝ) (N M f : Nat) (len : Fin f → ℝ) (a b : Int) :
    distOf .l2 (scaledPoint X N f len a) (scaledPoint Y M f len b) =
      √(∑ c : Fin f, ((feature X (pointOf N a) c - feature Y (pointOf M b) c) / len c) ^ 2) := by
  rw [distOf_l2_sqrt]
  congr 1
  exact Finset.sum_congr rfl fun c _ => by simp only [scaledPoint]; rw [sub_div]

/-- C62: for every Matérn kernel on distances — smoothness fixed or free, closed form or not — and every data, the covariance
of two different points is the documented Matérn correlation of their distance in units of the length scales. -/
theorem C62_matern (k : KernelObj) (q : Param) (ν : ℝ) (hν : 0 < ν) (hsm : k.smoothness = some q) (hq : q.val = Flt.fin ν)
    (hm : k.deform.metric = .l2) (Q X : Tensor ℝ) (idx nn : Tensor Int) (N M f b n : Nat) (len : Fin f → ℝ)
    (hlen : k.deform.HasLengths f len) (hQ : IsTable Q N f) (hX : IsTable X M f) (hrank : Q.shape.length = X.shape.length)
    (hi : idx.shape = [b]) (hnn : nn.shape = [b, n]) (hvi : AllValid N idx) (hvn : AllValid M nn) :
    ∃ C K, k.deform.crosswise Q X idx nn = .ok C ∧ k.make.call maternGen C [] = .ok K ∧ K.shape = [b, n] ∧
      ∀ i j, i < b → j < n →
        let d := √(∑ c : Fin f, ((feature Q (pointOf N (idx.get [i])) c - feature X (pointOf M (nn.get [i, j])) c) / len c) ^ 2)
        d ≠ 0 → K.get [i, j] = maternCorrelation ν d := by
  obtain ⟨C, T, h1, h2, h3, h4⟩ := crosswise_entries k.deform Q X idx nn N M f b n len hlen hQ hX hrank hi hnn hvi hvn
  refine ⟨C, _, h1, call_nil maternGen k h2, h3, fun i j hi' hj => ?_⟩
  intro d hd
  have hd0 : 0 < d := lt_of_le_of_ne (Real.sqrt_nonneg _) (Ne.symm hd)
  have e : T.get [i, j] = d := by rw [h4 i j hi' hj, hm, distOf_l2_scaled]
  rw [map_get, e]
  have hs : k.make.smoothInForce [] = Flt.fin ν := by
    unfold KernelObj.smoothInForce KernelObj.make
    simp only [hsm]
    rw [← hq]; rfl
  have hf : k.make.fn = setMaternFn q := by
    unfold KernelObj.make; simp only [hsm]
  rw [hs, hf]
  exact value_matern q hν hq hd0

/-- C62: for every positive smoothness the correlation at positive distances is strictly between 0 and 1, strictly decreasing,
and tends to 1 at distance 0. -/
theorem C62_correlation (ν : ℝ) (hν : 0 < ν) :
    (∀ d, 0 < d → 0 < maternCorrelation ν d ∧ maternCorrelation ν d < 1) ∧
    StrictAntiOn (maternCorrelation ν) (Set.Ioi 0) ∧ Tendsto (maternCorrelation ν) (𝓝[>] 0) (𝓝 1) := by
  have hanti : ∀ {x y : ℝ}, 0 ≤ x → x < y → Matern.mix ν (√(2 * ν) * y / 2) < Matern.mix ν (√(2 * ν) * x / 2) := fun hx hxy =>
    Matern.mix_strictAnti hν (by positivity) (by gcongr)
  refine ⟨fun d hd => ?_, fun x hx y hy hxy => ?_, ?_⟩
  · rw [Matern.maternCorrelation_mix hν hd]
    refine ⟨Matern.mix_pos hν _, ?_⟩
    have := hanti le_rfl hd
    rwa [mul_zero, zero_div, Matern.mix_zero hν] at this
  · rw [Matern.maternCorrelation_mix hν hx, Matern.maternCorrelation_mix hν hy]
    exact hanti (le_of_lt hx) hxy
  · have hc : Continuous fun d : ℝ => Matern.mix ν (√(2 * ν) * d / 2) :=
      (Matern.mix_continuous hν).comp (by fun_prop)
    have h0 := hc.tendsto 0
    rw [mul_zero, zero_div, Matern.mix_zero hν] at h0
    refine (h0.mono_left nhdsWithin_le_nhds).congr' ?_
    filter_upwards [self_mem_nhdsWithin] with d hd
    exact (Matern.maternCorrelation_mix hν hd).symm

/-- C62: the smoothness one half, three halves and five halves have the documented closed forms, and the correlations tend to
the squared exponential (the kernel used for infinite smoothness) as the smoothness grows: at distance `d` they differ by at most
`2 / (d² √ν)`. -/
theorem C62_special_cases (d : ℝ) (hd : 0 < d) :
    maternCorrelation (1 / 2) d = Real.exp (-d) ∧
    maternCorrelation (3 / 2) d = (1 + √3 * d) * Real.exp (-(√3 * d)) ∧
    maternCorrelation (5 / 2) d = (1 + √5 * d + 5 * d ^ 2 / 3) * Real.exp (-(√5 * d)) ∧
    (∀ ν, 0 < ν → |maternCorrelation ν d - Real.exp (-d ^ 2 / 2)| ≤ 2 / (d ^ 2 * √ν)) ∧
    Tendsto (fun ν => maternCorrelation ν d) atTop (𝓝 (Real.exp (-d ^ 2 / 2))) := by
  have hv := value_mix maternGen none hd.le
  have e3 : ∀ x : ℝ, x * √3 = √3 * x := fun x => by ring
  have e5 : (d * √5) ^ 2 = 5 * d ^ 2 := by rw [mul_pow, Real.sq_sqrt (by norm_num)]; ring
  have hrate : ∀ ν, 0 < ν → |maternCorrelation ν d - Real.exp (-d ^ 2 / 2)| ≤ 2 / (d ^ 2 * √ν) := fun ν hν => by
    rw [Matern.maternCorrelation_mix hν hd]; exact Matern.mix_near_gaussian hν hd
  refine ⟨?_, ?_, ?_, hrate, ?_⟩
  · rw [Matern.maternCorrelation_mix (by norm_num) hd, ← hv.1]; rfl
  · rw [Matern.maternCorrelation_mix (by norm_num) hd, ← hv.2.1]; simp only [KFn.value, e3]
  · rw [Matern.maternCorrelation_mix (by norm_num) hd, ← hv.2.2]; simp only [KFn.value, e5]; rw [mul_comm d √5]
  · rw [tendsto_iff_dist_tendsto_zero]
    have h0 : Tendsto (fun ν : ℝ => 2 / (d ^ 2 * √ν)) atTop (𝓝 0) :=
      tendsto_const_nhds.div_atTop (Real.tendsto_sqrt_atTop.const_mul_atTop (by positivity))
    refine squeeze_zero' (Eventually.of_forall fun _ => dist_nonneg) ?_ h0
    filter_upwards [eventually_gt_atTop 0] with ν hν
    rw [Real.dist_eq]
    exact hrate ν hν

/-- What the general implementation adds to the correlation: nothing at positive distances, and a deficit of
`1 - maternCorrelation ν ε > 0` at distance zero, where `ε` is the machine epsilon. -/
noncomputable def deficit (ν : ℝ) : ℝ := 1 - maternCorrelation ν machEps

/-- C62: the general kernel of a point with itself is not 1 (as documented) but the correlation at machine epsilon, for every
smoothness; it is therefore smaller than the kernel of two different points closer than that. -/
theorem C62_zero_distance (ν : ℝ) (hν : 0 < ν) :
    maternGen (Flt.fin ν) 0 = maternCorrelation ν machEps ∧ maternGen (Flt.fin ν) 0 < 1 ∧
    ∀ d, 0 < d → d < machEps → maternGen (Flt.fin ν) 0 < maternGen (Flt.fin ν) d := by
  obtain ⟨h1, h2, _⟩ := C62_correlation ν hν
  rw [maternGen_zero]
  refine ⟨rfl, (h1 _ machEps_pos).2, fun d hd hlt => ?_⟩
  rw [maternGen_pos ν hd]
  exact h2 hd machEps_pos hlt

/-- C62: the deficit is not negligible for small smoothness: the kernel of a point with itself tends to 0, not 1, as the
smoothness tends to 0. -/
theorem C62_diagonal_vanishes : Tendsto (fun ν => maternGen (Flt.fin ν) 0) (𝓝[>] 0) (𝓝 0) := by
  refine (Matern.mix_small machEps_pos).congr' ?_
  filter_upwards [self_mem_nhdsWithin] with ν hν
  rw [maternGen_zero, Matern.maternCorrelation_mix hν machEps_pos]

open Classical in
theorem repeat_form {n m : Nat} (R : Fin n → Fin n → Prop) (hsym : ∀ i j, R i j ↔ R j i)
    (hm : ∀ i, (Finset.univ.filter (R i)).card ≤ m) (v : Fin n → ℝ) :
    ∑ i, ∑ j, v i * (if R i j then 1 else 0) * v j ≤ m * ∑ i, v i ^ 2 := by
  have h1 : ∀ i j, v i * (if R i j then 1 else 0) * v j ≤
      1 / 2 * ((if R i j then 1 else 0) * v i ^ 2) + 1 / 2 * ((if R j i then 1 else 0) * v j ^ 2) := by
    intro i j
    by_cases h : R i j
    · rw [if_pos h, if_pos ((hsym i j).mp h)]; nlinarith [sq_nonneg (v i - v j)]
    · rw [if_neg h, if_neg fun h' => h ((hsym i j).mpr h')]; simp
  have h2 : ∑ i, ∑ j, (if R i j then 1 else 0) * v i ^ 2 ≤ m * ∑ i, v i ^ 2 := by
    rw [Finset.mul_sum]
    refine Finset.sum_le_sum fun i _ => ?_
    rw [← Finset.sum_mul]
    refine mul_le_mul_of_nonneg_right ?_ (sq_nonneg _)
    rw [Finset.sum_ite, Finset.sum_const_zero, add_zero, Finset.sum_const, nsmul_eq_mul, mul_one]
    exact_mod_cast hm i
  calc _ ≤ ∑ i, ∑ j, (1 / 2 * ((if R i j then 1 else 0) * v i ^ 2) + 1 / 2 * ((if R j i then 1 else 0) * v j ^ 2)) :=
        Finset.sum_le_sum fun i _ => Finset.sum_le_sum fun j _ => h1 i j
    _ = 1 / 2 * ∑ i, ∑ j, (if R i j then 1 else 0) * v i ^ 2 + 1 / 2 * ∑ i, ∑ j, (if R j i then 1 else 0) * v j ^ 2 := by
        simp only [Finset.sum_add_distrib, Finset.mul_sum]
    _ = ∑ i, ∑ j, (if R i j then 1 else 0) * v i ^ 2 := by
        rw [Finset.sum_comm (f := fun i j => (if R j i then (1:ℝ) else 0) * v j ^ 2)]; ring
    _ ≤ _ := h2

open Classical in
theorem gen_definite {n f m : Nat} {ν τ : ℝ} (hν : 0 < ν) (x : Fin n → Fin f → ℝ)
    (hm : ∀ i, (Finset.univ.filter fun j => x i = x j).card ≤ m) (hτ : m * deficit ν < τ) :
    ((Matrix.of fun i j => maternGen (Flt.fin ν) (distOf .l2 (x i) (x j))) + τ • (1 : Matrix (Fin n) (Fin n) ℝ)).PosDef := by
  have hδ : 0 < deficit ν := by
    have := ((C62_correlation ν hν).1 _ machEps_pos).2
    unfold deficit; linarith
  have hl : 0 < √(2 * ν) := by positivity
  have hz : ∀ i j, distOf .l2 (x i) (x j) = 0 ↔ x i = x j := fun i j => (C17_metrics (x i) (x j) (x j)).2.2.1
  have hval : ∀ i j, maternGen (Flt.fin ν) (distOf .l2 (x i) (x j)) =
      Matern.mix ν (√(∑ c, (√(2 * ν) * x i c - √(2 * ν) * x j c) ^ 2) / 2) - deficit ν * (if x i = x j then 1 else 0) := by
    intro i j
    rw [← mix_dist hl.le]
    by_cases h : x i = x j
    · rw [(hz i j).mpr h, if_pos h, maternGen_zero, mul_zero, zero_div, Matern.mix_zero hν]
      unfold deficit; ring
    · have hd : 0 < distOf .l2 (x i) (x j) :=
        lt_of_le_of_ne (C17_metrics (x i) (x j) (x j)).2.1 fun h' => h ((hz i j).mp h'.symm)
      rw [if_neg h, maternGen_pos ν hd, Matern.maternCorrelation_mix hν hd]; ring
  obtain ⟨p1, p2⟩ := (psd_iff _).mp (Matern.mix_psd hν fun i c => √(2 * ν) * x i c)
  rw [posdef_iff]
  refine ⟨fun i j => ?_, fun v hv => ?_⟩
  · simp only [Matrix.add_apply, of_apply, Matrix.smul_apply, Matrix.one_apply]
    rw [distOf_comm]
    by_cases h : i = j
    · rw [h]
    · rw [if_neg h, if_neg (Ne.symm h)]
  · have hsq : 0 < ∑ i, v i ^ 2 := by
      obtain ⟨i, hi⟩ := Function.ne_iff.mp hv
      refine Finset.sum_pos' (fun i _ => sq_nonneg _) ⟨i, Finset.mem_univ _, ?_⟩
      have : v i ≠ 0 := hi
      positivity
    have e : ∑ i, ∑ j, v i * ((Matrix.of fun i j => maternGen (Flt.fin ν) (distOf .l2 (x i) (x j))) +
        τ • (1 : Matrix (Fin n) (Fin n) ℝ)) i j * v j =
        ∑ i, ∑ j, v i * Matern.mix ν (√(∑ c, (√(2 * ν) * x i c - √(2 * ν) * x j c) ^ 2) / 2) * v j
          - deficit ν * ∑ i, ∑ j, v i * (if x i = x j then 1 else 0) * v j + τ * ∑ i, v i ^ 2 := by
      rw [Finset.mul_sum, Finset.mul_sum, ← Finset.sum_sub_distrib, ← Finset.sum_add_distrib]
      refine Finset.sum_congr rfl fun i _ => ?_
      rw [Finset.mul_sum, ← Finset.sum_sub_distrib]
      have : τ * v i ^ 2 = ∑ j, v i * (τ * if i = j then 1 else 0) * v j := by
        simp only [mul_ite, mul_one, mul_zero, ite_mul, zero_mul, Finset.sum_ite_eq, Finset.mem_univ, if_true]
        ring
      rw [this, ← Finset.sum_add_distrib]
      refine Finset.sum_congr rfl fun j _ => ?_
      simp only [Matrix.add_apply, of_apply, Matrix.smul_apply, Matrix.one_apply, hval, smul_eq_mul]
      ring
    rw [e]
    have h1 := p2 v
    simp only [of_apply] at h1
    have h2 : ∑ i, ∑ j, v i * (if x i = x j then 1 else 0) * v j ≤ m * ∑ i, v i ^ 2 := by
      convert repeat_form (fun i j => x i = x j) (fun i j => eq_comm) (fun i => by convert hm i) v
    have h3 := mul_le_mul_of_nonneg_left h2 hδ.le
    have h4 : 0 < (τ - m * deficit ν) * ∑ i, v i ^ 2 := mul_pos (by linarith) hsq
    nlinarith

/-- C62: with the general kernel, homoscedastic noise above `m` times the deficit makes every covariance positive definite,
where no neighbour is repeated more than `m` times. -/
theorem C62_definite_partial (k : KernelObj) (q : Param) (ν : ℝ) (hν : 0 < ν) (hsm : k.smoothness = some q)
    (hq : q.val = Flt.fin ν) (hg : k.make.fn = .gen) (hm : k.deform.metric = .l2) (X : Tensor ℝ) (nn : Tensor Int)
    (N f B n m : Nat) (len : Fin f → ℝ) (hlen : k.deform.HasLengths f len) (hX : IsTable X N f) (hnn : nn.shape = [B, n])
    (hv : AllValid N nn) (hrep : ∀ p < B, RepeatedAtMost X N f n nn p m) (τ : ℝ) (hτ : m * deficit ν < τ) :
    ∃ D K, k.deform.pairwise X nn = .ok D ∧ k.make.call maternGen D [] = .ok K ∧ K.shape = [B, n, n] ∧
      ∀ p < B, (Spec.cov n K p + τ • (1 : Matrix (Fin n) (Fin n) ℝ)).PosDef := by
  obtain ⟨D, T, h1, h2, h3, h4⟩ := pairwise_entries k.deform X nn N f B n len hlen hX hnn hv
  refine ⟨D, _, h1, call_nil maternGen k h2, h3, fun p hp => ?_⟩
  have hs : k.make.smoothInForce [] = Flt.fin ν := by
    unfold KernelObj.smoothInForce KernelObj.make
    simp only [hsm]
    rw [← hq]; rfl
  have e : Spec.cov n (T.map (KFn.value maternGen (k.make.smoothInForce []) k.make.fn)) p =
      Matrix.of fun i j : Fin n => maternGen (Flt.fin ν) (distOf .l2
        (scaledPoint X N f len (nn.get [p, i])) (scaledPoint X N f len (nn.get [p, j]))) := by
    ext i j
    simp only [Spec.cov, map_get, of_apply]
    rw [h4 p i j hp i.2 j.2, hs, hg, hm]; rfl
  rw [e]
  refine gen_definite hν _ (fun i => ?_) hτ
  refine le_trans (Finset.card_le_card fun j hj => ?_) (hrep p hp i)
  simp only [Finset.mem_filter, Finset.mem_univ, true_and] at hj ⊢
  intro c
  exact (div_left_inj' (hasLengths_pos hlen c).ne').mp (congrFun hj c)

/-- C62: below that noise the covariance of two different points can be indefinite, and the posterior variance of a point next to
a training point negative, for every free smoothness, every length scale and every noise below the deficit. -/
theorem C62_negative_variance (k : KernelObj) (q : Param) (ν ℓ : ℝ) (hν : 0 < ν) (hsm : k.smoothness = some q)
    (hq : q.val = Flt.fin ν) (hg : k.make.fn = .gen) (hm : k.deform.metric = .l2)
    (hlen : k.deform.HasLengths 1 fun _ => ℓ) (τ : ℝ) (h0 : 0 ≤ τ) (hτ : τ < deficit ν) :
    ∃ r : ℝ, 0 < r ∧ (let X : Tensor ℝ := ⟨[2, 1], fun i => if i = 0 then 0 else r⟩
      let nn : Tensor Int := ⟨[1, 1], fun _ => 0⟩
      let idx : Tensor Int := ⟨[1], fun _ => 1⟩
      ∃ D C K Kc V, k.deform.pairwise X nn = .ok D ∧ k.deform.crosswise X X idx nn = .ok C ∧
        k.make.call maternGen D [] = .ok K ∧ k.make.call maternGen C [] = .ok Kc ∧
        (MuyGPS.make (.homoscedastic τ) KernelObj.kout 1).posteriorVariance K Kc = .ok V ∧ V.get [0] < 0) ∧
      (let X : Tensor ℝ := ⟨[2, 1], fun i => if i = 0 then 0 else r⟩
      let nn : Tensor Int := ⟨[1, 2], fun i => i⟩
      ∃ D K, k.deform.pairwise X nn = .ok D ∧ k.make.call maternGen D [] = .ok K ∧
        ¬ (Spec.cov 2 K 0 + τ • (1 : Matrix (Fin 2) (Fin 2) ℝ)).PosSemidef) := by
  obtain ⟨c1, c2, c3⟩ := C62_correlation ν hν
  set a := maternCorrelation ν machEps with ha
  have hapos : 0 < a := (c1 _ machEps_pos).1
  have hlt : a + τ < 1 := by unfold deficit at hτ; linarith
  have hev : ∀ᶠ d in 𝓝[>] (0:ℝ), a + τ < maternCorrelation ν d ^ 2 := by
    have := c3.pow 2
    rw [one_pow] at this
    exact this.eventually_const_lt hlt
  obtain ⟨d, hd, hdpos⟩ := (hev.and self_mem_nhdsWithin).exists
  have hdpos : 0 < d := hdpos
  have hℓ : 0 < ℓ := hasLengths_pos hlen 0
  have hb := c1 d hdpos
  set b := maternCorrelation ν d with hbdef
  have hs : k.make.smoothInForce [] = Flt.fin ν := by
    unfold KernelObj.smoothInForce KernelObj.make
    simp only [hsm]
    rw [← hq]; rfl
  refine ⟨d * ℓ, by positivity, ?_, ?_⟩
  · intro X nn idx
    have hX : IsTable X 2 1 := .inl rfl
    have v1 : AllValid 2 nn := fun _ _ => by unfold Tensor.validIndex; simp [nn]
    have v2 : AllValid 2 idx := fun _ _ => by unfold Tensor.validIndex; simp [idx]
    obtain ⟨D, T, p1, p2, p3, p4⟩ := pairwise_entries k.deform X nn 2 1 1 1 _ hlen hX rfl v1
    obtain ⟨C, U, q1, q2, q3, q4⟩ := crosswise_entries k.deform X X idx nn 2 2 1 1 1 _ hlen hX hX rfl rfl rfl v2 v1
    have eT : T.get [0, 0, 0] = 0 := by rw [p4 0 0 0 one_pos one_pos one_pos, distOf_self]
    have eU : U.get [0, 0] = d := by
      rw [q4 0 0 one_pos one_pos, hm, distOf_l2_scaled]
      simp [idx, nn, X, feature, pointOf, Tensor.wrapIndex, Tensor.get, Tensor.ravel]
      rw [mul_div_assoc, div_self hℓ.ne', mul_one, Real.sqrt_sq hdpos.le]
    have f1 : ∀ i j : Fin 1, Spec.cov 1 (T.map (KFn.value maternGen (k.make.smoothInForce []) k.make.fn)) 0 i j = a := by
      intro i j
      rw [Subsingleton.elim i 0, Subsingleton.elim j 0]
      simp only [Spec.cov, map_get, of_apply]
      show KFn.value _ _ _ (T.get [0, 0, 0]) = a
      rw [eT, hs, hg]; exact maternGen_zero ν
    have f2 : ∀ i : Fin 1, Spec.vec 1 (U.map (KFn.value maternGen (k.make.smoothInForce []) k.make.fn)) 0 i = b := by
      intro i
      rw [Subsingleton.elim i 0]
      simp only [Spec.vec, map_get]
      show KFn.value _ _ _ (U.get [0, 0]) = b
      rw [eU, hs, hg]; exact maternGen_pos ν hdpos
    set M := Spec.cov 1 (T.map (KFn.value maternGen (k.make.smoothInForce []) k.make.fn)) 0 +
      (Noise.homoscedastic τ).mat 1 0 with hM
    have f3 : M = Matrix.of fun _ _ => a + τ := by
      ext i j
      rw [hM, Matrix.add_apply, f1]
      show a + (τ • (1 : Matrix (Fin 1) (Fin 1) ℝ)) i j = _
      rw [Subsingleton.elim i j]; simp
    have f4 : M.det = a + τ := by rw [f3, det_fin_one]; rfl
    have hne : a + τ ≠ 0 := by positivity
    obtain ⟨V, w1, _, w3⟩ := C24_model_variance (MuyGPS.make (.homoscedastic τ) KernelObj.kout 1) 1 1 trivial
      (T.map (KFn.value maternGen (k.make.smoothInForce []) k.make.fn))
      (U.map (KFn.value maternGen (k.make.smoothInForce []) k.make.fn)) rfl p3 q3
      (fun p hp => by obtain rfl : p = 0 := by omega
                      exact f4.trans_ne hne)
      (fun p hp => by obtain rfl : p = 0 := by omega
                      ext i j; rw [transpose_apply, f1, f1])
    refine ⟨D, C, _, _, V, p1, q1, call_nil maternGen k p2, call_nil maternGen k q2, w1, ?_⟩
    have f5 : M⁻¹ *ᵥ Spec.vec 1 (U.map (KFn.value maternGen (k.make.smoothInForce []) k.make.fn)) 0 = fun _ => b / (a + τ) := by
      have e : Spec.vec 1 (U.map (KFn.value maternGen (k.make.smoothInForce []) k.make.fn)) 0 =
          M *ᵥ fun _ => b / (a + τ) := by
        ext i
        rw [f2, f3]
        simp [mulVec, dotProduct]
        field_simp
      rw [e, Kriging.inv_mulVec_cancel (f4.trans_ne hne)]
    rw [w3 0 one_pos]
    show (1:ℝ) * Spec.krigingVar _ M _ < 0
    rw [one_mul, Spec.krigingVar, f5]
    simp only [dotProduct, Finset.univ_unique, Finset.sum_singleton, f2]
    have hk : (MuyGPS.make (.homoscedastic τ) KernelObj.kout 1).kout.get [] = 1 := rfl
    rw [hk, sub_neg, ← mul_div_assoc, lt_div_iff₀ (by positivity)]
    nlinarith
  · intro X nn
    have hX : IsTable X 2 1 := .inl rfl
    have v1 : AllValid 2 nn := fun j hj => by
      unfold Tensor.validIndex; simp [nn] at hj ⊢; omega
    obtain ⟨D, T, p1, p2, p3, p4⟩ := pairwise_entries k.deform X nn 2 1 1 2 _ hlen hX rfl v1
    refine ⟨D, _, p1, call_nil maternGen k p2, fun hpsd => ?_⟩
    have hq2 := ((psd_iff _).mp hpsd).2 (fun i => if i = 0 then 1 else -1)
    have e00 : T.get [0, 0, 0] = 0 := by rw [p4 0 0 0 one_pos two_pos two_pos, distOf_self]
    have e11 : T.get [0, 1, 1] = 0 := by rw [p4 0 1 1 one_pos one_lt_two one_lt_two, distOf_self]
    have e01 : T.get [0, 0, 1] = d := by
      rw [p4 0 0 1 one_pos two_pos one_lt_two, hm, distOf_l2_scaled]
      simp [nn, X, feature, pointOf, Tensor.wrapIndex, Tensor.get, Tensor.ravel]
      rw [neg_div, mul_div_assoc, div_self hℓ.ne', mul_one, neg_sq, Real.sqrt_sq hdpos.le]
    have e10 : T.get [0, 1, 0] = d := by
      rw [p4 0 1 0 one_pos one_lt_two two_pos, distOf_comm, ← p4 0 0 1 one_pos two_pos one_lt_two, e01]
    have gz : KFn.value maternGen (k.make.smoothInForce []) k.make.fn 0 = a := by rw [hs, hg]; exact maternGen_zero ν
    have gd : KFn.value maternGen (k.make.smoothInForce []) k.make.fn d = b := by rw [hs, hg]; exact maternGen_pos ν hdpos
    simp only [Fin.sum_univ_two, Matrix.add_apply, Spec.cov, map_get, of_apply, Matrix.smul_apply, Matrix.one_apply, Fin.isValue, Fin.val_zero,
      Fin.val_one, e00, e11, e01, e10, gz, gd] at hq2
    simp at hq2
    nlinarith

/-- Non-vacuity: a general Matérn kernel with free smoothness 1/5 satisfies the hypotheses, and some noise is below its deficit. -/
example : let q : Param := ⟨Flt.fin (1 / 5), Flt.fin (1 / 10), Flt.fin 5, false⟩
    let k := KernelObj.mk (.isotropy .l2 ⟨Flt.fin 2, Flt.fin 0, Flt.fin 0, true⟩) (some q) .gen
    k.smoothness = some q ∧ q.val = Flt.fin (1 / 5) ∧ k.make.fn = .gen ∧ k.deform.metric = .l2 ∧
      k.deform.HasLengths 1 (fun _ => 2) ∧ ∃ τ, 0 ≤ τ ∧ τ < deficit (1 / 5) := by
  intro q k
  refine ⟨rfl, rfl, ?_, rfl, ⟨2, two_pos, rfl, fun _ => rfl⟩, 0, le_rfl, ?_⟩
  · simp [k, q, KernelObj.make, setMaternFn]
  · have := ((C62_correlation (1 / 5) (by norm_num)).1 _ machEps_pos).2
    unfold deficit; linarith

end MuyGPyS
