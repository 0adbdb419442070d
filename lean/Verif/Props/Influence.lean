import Verif.Spec.Influence
import Verif.Props.InformationWitness

/-! # C85: one observation moves a prediction by a bounded amount -/

namespace MuyGPyS
open Py Matrix

/-- The kriging weights are bounded by the noise. -/
theorem Kriging.weights_bound {ι : Type} [Fintype ι] [DecidableEq ι] {K : Matrix ι ι ℝ} {k : ι → ℝ} {τ : ℝ}
    (h : (Kriging.joint K k 1).PosSemidef) (hp : (K + τ • (1 : Matrix ι ι ℝ)).PosDef) :
    4 * (τ * (((K + τ • (1 : Matrix ι ι ℝ))⁻¹ *ᵥ k) ⬝ᵥ ((K + τ • (1 : Matrix ι ι ℝ))⁻¹ *ᵥ k))) ≤ 1 := by
  set A := K + τ • (1 : Matrix ι ι ℝ) with hA
  set x := A⁻¹ *ᵥ k
  have h1 := Kriging.joint_quad h ((2 : ℝ) • x)
  rw [mulVec_smul, dotProduct_smul, smul_dotProduct, dotProduct_smul, smul_eq_mul, smul_eq_mul, smul_eq_mul] at h1
  have h2 : x ⬝ᵥ (A *ᵥ x) = x ⬝ᵥ k := by
    rw [Kriging.mulVec_inv_cancel (Kriging.det_ne_zero hp)]
  rw [hA, Kriging.quad_add_smul_one, dotProduct_comm x k] at h2
  linarith

theorem dot_self_nonneg {n : Nat} (x : Fin n → ℝ) : 0 ≤ x ⬝ᵥ x := Finset.sum_nonneg fun _ _ => mul_self_nonneg _

theorem dot_le {n : Nat} (x y : Fin n → ℝ) : |x ⬝ᵥ y| ≤ √(x ⬝ᵥ x) * √(y ⬝ᵥ y) := by
  rw [← Real.sqrt_mul (dot_self_nonneg x)]
  refine Real.abs_le_sqrt ?_
  have := Finset.sum_mul_sq_le_sq_mul_sq Finset.univ x y
  simpa [dotProduct, pow_two] using this

/-- Neighbours are candidates. -/
theorem nearest_candidate {w : NNWrapper} {q : Fin w.f → ℝ} {l : List Nat}
    (h : Nearest (· < w.N) (fun j => w.dist q (rowPt w.train w.f j)) w.nnCount l) {x : Nat} (hx : x ∈ l) : x ∈ w.candidates q := by
  classical
  unfold NNWrapper.candidates
  rw [Finset.mem_filter]
  refine ⟨Finset.mem_range.mpr (h.mem x hx), ?_⟩
  rw [← h.length, ← List.toFinset_card_of_nodup h.nodup]
  refine Finset.card_lt_card ?_
  rw [Finset.ssubset_iff_of_subset]
  · exact ⟨x, List.mem_toFinset.mpr hx, fun hm => lt_irrefl _ (Finset.mem_filter.mp hm).2⟩
  · intro j hj
    obtain ⟨h1, h2⟩ := Finset.mem_filter.mp hj
    by_contra hjl
    rw [List.mem_toFinset] at hjl
    exact absurd (h.nearest x hx j (Finset.mem_range.mp h1) hjl) (not_le.mpr h2)

/-- The neighbours do not depend on the responses. -/
theorem regress_uniform (bs : Flt → ℝ → ℝ) (R : Regressor) (hk : R.kernel.make = R.kernel) (hko : R.gp.kout = KernelObj.kout)
    (hsuit : R.kernel.fn.Suits R.kernel.deform.metric) (w : NNWrapper) (hw : w.Exact) (Q : Tensor ℝ) (m : Nat) (len : Fin w.f → ℝ)
    (hlen : R.kernel.deform.HasLengths w.f len) (hQ : Q.shape = [m, w.f]) (hm : 0 < m) (hk0 : 0 < w.nnCount) (hkN : w.nnCount ≤ w.N)
    (hν : R.gp.noise.Fits m w.nnCount) (hreg : R.gp.noise.Suffices m w.nnCount (DistinctRows w.train w.N w.f)) :
    ∃ nn : Tensor Int, (∀ i < m, ∃ l : List Nat, rowList nn w.nnCount i = l.map Int.ofNat ∧
        Nearest (· < w.N) (fun j => w.dist (rowPt Q w.f i) (rowPt w.train w.f j)) w.nnCount l) ∧
      ∀ Y : Tensor ℝ, Y.shape = [w.N] → ∃ μ v, regressAny bs R w Q w.train Y = .ok (μ, v) ∧ μ.shape = [m] ∧ v.shape = [m] ∧
        ∀ p < m,
          μ.get [p] = Spec.krigingMean (nbrCov bs R.kernel len w.train w.N w.nnCount nn p + R.gp.noise.mat w.nnCount p)
            (nbrCross bs R.kernel len w.train w.N w.nnCount nn p (rowPt Q w.f p)) (nbrTargets Y w.N w.nnCount nn p 0) ∧
          v.get [p] = R.gp.boundScale * Spec.krigingVar 1 (nbrCov bs R.kernel len w.train w.N w.nnCount nn p + R.gp.noise.mat w.nnCount p)
            (nbrCross bs R.kernel len w.train w.N w.nnCount nn p (rowPt Q w.f p)) := by
  obtain ⟨I, D, h1, h2, h3, h4, h5⟩ := C41_plain w hw Q m hQ hm hk0 hkN
  refine ⟨I, h4, fun Y hY => ?_⟩
  have hv : AllValid w.N I := valid_of_rows h2 fun i hi j hj => by
    obtain ⟨l, e1, e2⟩ := h4 i hi
    obtain ⟨x, x1, x2⟩ := rowList_get e1 hj
    exact ⟨x, x2, e2.mem x (List.mem_of_getElem? x1)⟩
  have hinv : ∀ p < m, (nbrCov bs R.kernel len w.train w.N w.nnCount I p + R.gp.noise.mat w.nnCount p).det ≠ 0 := fun p hp => by
    obtain ⟨l, e1, e2⟩ := h4 p hp
    have hdef := nbrCov_definite bs R.kernel hsuit len (hasLengths_pos hlen) w.train w.N w.nnCount I p
    exact Kriging.det_ne_zero (Noise.posdef_of_suffices (hreg.mono fun hd => distinct_of_nodup e1 e2.nodup e2.mem hd) hp hdef.1 hdef.2)
  obtain ⟨μ, v, r1, r2, r3, r4⟩ := C54_regress bs R hk hko Q w.train Y (arange m) I m w.N w.f m w.nnCount
    len hlen (.inl hQ) (.inl hw.1) hY (by rw [hQ, hw.1]; rfl) rfl h2 (arange_valid m) hv hν hinv
  have hp : ∀ p, pt Q w.f (pointOf m ((arange m).get [p])) = rowPt Q w.f p := by
    intro p
    rw [arange_get, pointOf_nat, rowPt_pt hQ]
  refine ⟨μ, v, ?_, r2, r3, fun p hpm => ?_⟩
  · unfold regressAny
    rw [hQ]
    simp only [h1, bind, Except.bind, r1]
  · have := r4 p hpm
    rw [hp] at this
    exact this

/-- The change of a kriging mean when the responses change. -/
theorem kriging_influence {n : Nat} {K : Matrix (Fin n) (Fin n) ℝ} {c : Fin n → ℝ} {τ : ℝ} (hj : (Kriging.joint K c 1).PosSemidef)
    (hK : K.PosSemidef) (hτ : 0 < τ) (w : NNWrapper) (Q : Tensor ℝ) {Y Y' : Tensor ℝ} (hY : Y.shape = [w.N]) (hY' : Y'.shape = [w.N])
    {nn : Tensor Int} {p : Nat} {l : List Nat} (e1 : rowList nn n p = l.map Int.ofNat)
    (e2 : Nearest (· < w.N) (fun j => w.dist (rowPt Q w.f p) (rowPt w.train w.f j)) n l) (hn : n = w.nnCount) :
    |Spec.krigingMean (K + τ • (1 : Matrix (Fin n) (Fin n) ℝ)) c (nbrTargets Y' w.N n nn p 0) -
        Spec.krigingMean (K + τ • (1 : Matrix (Fin n) (Fin n) ℝ)) c (nbrTargets Y w.N n nn p 0)| ≤
      √(∑ i ∈ w.candidates (rowPt Q w.f p), (Y'.get [i] - Y.get [i]) ^ 2) / (2 * √τ) := by
  subst hn
  have hpd := Kriging.posdef_of_psd_add hK hτ
  have hb := Kriging.weights_bound hj hpd
  set A := K + τ • (1 : Matrix (Fin w.nnCount) (Fin w.nnCount) ℝ)
  set x := A⁻¹ *ᵥ c
  set d : Fin w.nnCount → ℝ := nbrTargets Y' w.N w.nnCount nn p 0 - nbrTargets Y w.N w.nnCount nn p 0 with hd
  have hmean : Spec.krigingMean A c (nbrTargets Y' w.N w.nnCount nn p 0) - Spec.krigingMean A c (nbrTargets Y w.N w.nnCount nn p 0) = x ⬝ᵥ d := by
    unfold Spec.krigingMean
    rw [← dotProduct_sub, ← mulVec_sub, Kriging.swap (Kriging.posdef_symm hpd), dotProduct_comm]
  rw [hmean]
  -- the changes of the neighbours' responses
  have hpos : ∀ j : Fin w.nnCount, ∃ i ∈ w.candidates (rowPt Q w.f p), l[(j : Nat)]? = some i ∧ d j = Y'.get [i] - Y.get [i] := by
    intro j
    obtain ⟨i, i1, i2⟩ := rowList_get e1 j.2
    refine ⟨i, nearest_candidate e2 (List.mem_of_getElem? i1), i1, ?_⟩
    rw [hd, Pi.sub_apply]
    unfold nbrTargets
    rw [i2, pointOf_nat]
    simp only [feature, hY, hY']
  choose g hg1 hg2 hg3 using hpos
  have hginj : Function.Injective g := by
    intro a b hab
    have ha := hg2 a
    have hb := hg2 b
    rw [hab] at ha
    obtain ⟨a1, a2⟩ := List.getElem?_eq_some_iff.mp ha
    obtain ⟨b1, b2⟩ := List.getElem?_eq_some_iff.mp hb
    exact Fin.ext ((List.Nodup.getElem_inj_iff e2.nodup).mp (a2.trans b2.symm))
  have hdd : d ⬝ᵥ d ≤ ∑ i ∈ w.candidates (rowPt Q w.f p), (Y'.get [i] - Y.get [i]) ^ 2 := by
    have : d ⬝ᵥ d = ∑ i ∈ Finset.univ.image g, (Y'.get [i] - Y.get [i]) ^ 2 := by
      rw [Finset.sum_image fun a _ b _ h => hginj h]
      exact Finset.sum_congr rfl fun j _ => by rw [hg3 j]; ring
    rw [this]
    refine Finset.sum_le_sum_of_subset_of_nonneg ?_ fun _ _ _ => sq_nonneg _
    intro i hi
    obtain ⟨j, -, rfl⟩ := Finset.mem_image.mp hi
    exact hg1 j
  have hx : √(x ⬝ᵥ x) ≤ 1 / (2 * √τ) := by
    rw [Real.sqrt_le_left (by positivity), div_pow, mul_pow, Real.sq_sqrt hτ.le, one_pow, le_div_iff₀ (by positivity)]
    linarith
  calc |x ⬝ᵥ d| ≤ √(x ⬝ᵥ x) * √(d ⬝ᵥ d) := dot_le x d
    _ ≤ 1 / (2 * √τ) * √(∑ i ∈ w.candidates (rowPt Q w.f p), (Y'.get [i] - Y.get [i]) ^ 2) :=
        mul_le_mul hx (Real.sqrt_le_sqrt hdd) (Real.sqrt_nonneg _) (by positivity)
    _ = _ := by ring

/-- **C85**: change the training responses in any way. The variances stay the same; each mean moves by at most
`√(∑ (change)²) / (2 √τ)`, where `τ` is the noise variance and the sum ranges over the training points that can be among the
`nn_count` nearest ones of the test point only. -/
theorem C85_influence (bs : Flt → ℝ → ℝ) (R : Regressor) (hk : R.kernel.make = R.kernel) (hko : R.gp.kout = KernelObj.kout)
    (hsuit : R.kernel.fn.Suits R.kernel.deform.metric) (τ : ℝ) (hτ : 0 < τ) (hν : R.gp.noise = .homoscedastic τ)
    (w : NNWrapper) (hw : w.Exact) (Q Y Y' : Tensor ℝ) (m : Nat) (len : Fin w.f → ℝ) (hlen : R.kernel.deform.HasLengths w.f len)
    (hQ : Q.shape = [m, w.f]) (hY : Y.shape = [w.N]) (hY' : Y'.shape = [w.N]) (hm : 0 < m) (hk0 : 0 < w.nnCount)
    (hkN : w.nnCount ≤ w.N) :
    ∃ μ v μ' v', regressAny bs R w Q w.train Y = .ok (μ, v) ∧ regressAny bs R w Q w.train Y' = .ok (μ', v') ∧
      μ.shape = [m] ∧ v.shape = [m] ∧ μ'.shape = [m] ∧ v'.shape = [m] ∧ ∀ p < m, v'.get [p] = v.get [p] ∧
        |μ'.get [p] - μ.get [p]| ≤ √(∑ i ∈ w.candidates (rowPt Q w.f p), (Y'.get [i] - Y.get [i]) ^ 2) / (2 * √τ) := by
  obtain ⟨nn, h1, h2⟩ := regress_uniform bs R hk hko hsuit w hw Q m len hlen hQ hm hk0 hkN (by rw [hν]; trivial)
    (by rw [hν]; exact .inl hτ)
  obtain ⟨μ, v, r1, r2, r3, r4⟩ := h2 Y hY
  obtain ⟨μ', v', s1, s2, s3, s4⟩ := h2 Y' hY'
  refine ⟨μ, v, μ', v', r1, s1, r2, r3, s2, s3, fun p hp => ⟨by rw [(r4 p hp).2, (s4 p hp).2], ?_⟩⟩
  obtain ⟨l, e1, e2⟩ := h1 p hp
  have hmat : R.gp.noise.mat w.nnCount p = τ • 1 := by rw [hν]; rfl
  rw [(r4 p hp).1, (s4 p hp).1, hmat]
  set K := nbrCov bs R.kernel len w.train w.N w.nnCount nn p
  set c := nbrCross bs R.kernel len w.train w.N w.nnCount nn p (rowPt Q w.f p)
  have hlpos := hasLengths_pos hlen
  have hK := (nbrCov_definite bs R.kernel hsuit len hlpos w.train w.N w.nnCount nn p).1
  have hj := (nbrJoint bs R.kernel hsuit len hlpos w.train w.N w.nnCount nn p (rowPt Q w.f p)).1
  exact kriging_influence hj hK hτ w Q hY hY' e1 e2 rfl

/-- One response changed: no prediction moves by more than the change divided by `2 √τ`, and predictions of test points that have
at least `nn_count` training points closer than the changed one do not move at all. -/
theorem C85_one_observation (bs : Flt → ℝ → ℝ) (R : Regressor) (hk : R.kernel.make = R.kernel) (hko : R.gp.kout = KernelObj.kout)
    (hsuit : R.kernel.fn.Suits R.kernel.deform.metric) (τ : ℝ) (hτ : 0 < τ) (hν : R.gp.noise = .homoscedastic τ)
    (w : NNWrapper) (hw : w.Exact) (Q Y Y' : Tensor ℝ) (m : Nat) (len : Fin w.f → ℝ) (hlen : R.kernel.deform.HasLengths w.f len)
    (hQ : Q.shape = [m, w.f]) (hY : Y.shape = [w.N]) (hY' : Y'.shape = [w.N]) (hm : 0 < m) (hk0 : 0 < w.nnCount)
    (hkN : w.nnCount ≤ w.N) (x : Nat) (hx : ∀ i < w.N, i ≠ x → Y'.get [i] = Y.get [i]) :
    ∃ μ v μ' v', regressAny bs R w Q w.train Y = .ok (μ, v) ∧ regressAny bs R w Q w.train Y' = .ok (μ', v') ∧
      ∀ p < m, v'.get [p] = v.get [p] ∧ |μ'.get [p] - μ.get [p]| ≤ |Y'.get [x] - Y.get [x]| / (2 * √τ) ∧
        (x ∉ w.candidates (rowPt Q w.f p) → μ'.get [p] = μ.get [p]) := by
  obtain ⟨μ, v, μ', v', h1, h2, -, -, -, -, h3⟩ := C85_influence bs R hk hko hsuit τ hτ hν w hw Q Y Y' m len hlen hQ hY hY' hm hk0 hkN
  refine ⟨μ, v, μ', v', h1, h2, fun p hp => ?_⟩
  obtain ⟨a, b⟩ := h3 p hp
  have hsum : ∀ i ∈ w.candidates (rowPt Q w.f p), i ≠ x → (Y'.get [i] - Y.get [i]) ^ 2 = 0 := fun i hi hix => by
    classical
    unfold NNWrapper.candidates at hi
    rw [hx i (Finset.mem_range.mp (Finset.mem_filter.mp hi).1) hix, sub_self]; norm_num
  refine ⟨a, b.trans (div_le_div_of_nonneg_right ?_ (by positivity)), fun hnot => ?_⟩
  · rw [← Real.sqrt_sq_eq_abs]
    refine Real.sqrt_le_sqrt ?_
    by_cases hc : x ∈ w.candidates (rowPt Q w.f p)
    · rw [Finset.sum_eq_single_of_mem x hc fun i hi hix => hsum i hi hix]
    · rw [Finset.sum_eq_zero fun i hi => hsum i hi fun e => hc (e ▸ hi)]
      exact sq_nonneg _
  · rw [Finset.sum_eq_zero fun i hi => hsum i hi fun e => hnot (e ▸ hi), Real.sqrt_zero, zero_div] at b
    exact sub_eq_zero.mp (abs_nonpos_iff.mp b)

/-- Non-vacuity of `C85_one_observation`: the three points on the line, the response of the last one changed from 0 to 5. -/
example (bs : Flt → ℝ → ℝ) : ∃ (w : NNWrapper) (μ v μ' v' : Tensor ℝ), w.N = 3 ∧ w.nnCount = 2 ∧
    regressAny bs lineModel w lineTest w.train lineTargets = .ok (μ, v) ∧
    regressAny bs lineModel w lineTest w.train ⟨[3], fun k => if k = 1 then 1 else if k = 2 then 5 else 0⟩ = .ok (μ', v') ∧
    μ'.get [0] = μ.get [0] := by
  obtain ⟨answer, hw⟩ := line_exact
  obtain ⟨μ, v, μ', v', h1, h2, h3⟩ := C85_one_observation bs lineModel rfl rfl rfl 1 one_pos rfl _ hw lineTest lineTargets
    ⟨[3], fun k => if k = 1 then 1 else if k = 2 then 5 else 0⟩ 2 (fun _ => 1) ⟨1, one_pos, rfl, fun _ => rfl⟩ rfl rfl rfl two_pos two_pos
    (by norm_num) 2 (fun i hi hi2 => by
      have : i < 3 := hi
      interval_cases i <;> first | exact absurd rfl hi2 | simp [lineTargets, Tensor.get, Tensor.ravel])
  refine ⟨_, μ, v, μ', v', rfl, rfl, h1, h2, (h3 0 two_pos).2.2 fun hc => ?_⟩
  classical
  unfold NNWrapper.candidates at hc
  have := (Finset.mem_filter.mp hc).2
  obtain ⟨p0, p1, p2⟩ := line_rows
  have hsub : ({0, 1} : Finset Nat) ⊆ (Finset.range 3).filter fun j =>
      |rowPt lineTest 1 0 0 - rowPt lineTrain 1 j 0| < |rowPt lineTest 1 0 0 - rowPt lineTrain 1 2 0| := by
    intro j hj
    rw [Finset.mem_filter]
    have ht : rowPt lineTest 1 0 0 = 0 := rfl
    rcases Finset.mem_insert.mp hj with rfl | hj
    · refine ⟨by simp, ?_⟩
      rw [p0, p2, ht]; norm_num
    · rw [Finset.mem_singleton] at hj
      subst hj
      refine ⟨by simp, ?_⟩
      rw [p1, p2, ht]; norm_num
  have h2 := Finset.card_le_card hsub
  have h3 : ({0, 1} : Finset Nat).card = 2 := rfl
  rw [h3] at h2
  refine absurd (lt_of_le_of_lt h2 ?_) (lt_irrefl _)
  convert this

end MuyGPyS
