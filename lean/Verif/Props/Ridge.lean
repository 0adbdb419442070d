import Verif.Props.ErrorBound

/-! # A prediction is the value of the regularised least-squares fit to the neighbours (C96) -/

namespace MuyGPyS
open Py Matrix

theorem quad_line {x s V O : ℝ} (hs : 0 ≤ s) (hV : 0 ≤ V) (h : ∀ t : ℝ, (x + t * s) ^ 2 ≤ O * (V + t ^ 2 * s)) (h2 : s ^ 2 ≤ O * s) (hO : 0 ≤ O) :
    x ^ 2 ≤ (O - s) * V := by
  have hsO : s ≤ O := by
    rcases hs.eq_or_lt with h0 | h0
    · rw [← h0]; exact hO
    · nlinarith
  by_cases hx : x = 0
  · rw [hx]; nlinarith [mul_nonneg (sub_nonneg.2 hsO) hV]
  have hx2 : 0 < x ^ 2 := by positivity
  have h1 := h (V / x)
  have e1 : (x + V / x * s) ^ 2 = (x ^ 2 + V * s) ^ 2 / x ^ 2 := by field_simp
  have e2 : O * (V + (V / x) ^ 2 * s) = O * V * (x ^ 2 + V * s) / x ^ 2 := by field_simp
  rw [e1, e2, div_le_div_iff_of_pos_right hx2] at h1
  have hpos : 0 < x ^ 2 + V * s := by positivity
  have : x ^ 2 + V * s ≤ O * V := by
    by_contra hcon
    push Not at hcon
    nlinarith
  linarith

/-- The least-squares fit of energy `αᵀ K α` to the values `y`, and how far every other function is from it. `pen` is what a function pays for its
residuals. -/
theorem kriging_fit {X : Type*} {k : X → X → ℝ} (hs : ∀ x y, k x y = k y x)
    (hp : ∀ (n : Nat) (x : Fin n → X) (d : Fin n → ℝ), 0 ≤ ∑ i, ∑ j, d i * d j * k (x i) (x j)) {n : Nat} (x : Fin n → X) (q : X)
    (D : Matrix (Fin n) (Fin n) ℝ) (hD : D.PosSemidef) (hA : ((Matrix.of fun i j => k (x i) (x j)) + D).PosDef) (y : Fin n → ℝ) :
    let A := (Matrix.of fun i j => k (x i) (x j)) + D
    let α := A⁻¹ *ᵥ y
    Spec.krigingMean A (fun j => k q (x j)) y = Spec.combination k x α q ∧
    (∀ j, y j - Spec.combination k x α (x j) = (D *ᵥ α) j) ∧
    α ⬝ᵥ y = ∑ i, ∑ j, α i * α j * k (x i) (x j) + α ⬝ᵥ (D *ᵥ α) ∧
    ∀ E h pen, 0 ≤ E → 0 ≤ pen → Spec.EnergyAtMost k E h → (∀ u : Fin n → ℝ, (∑ j, u j * (y j - h (x j))) ^ 2 ≤ pen * (u ⬝ᵥ (D *ᵥ u))) →
      α ⬝ᵥ y ≤ E + pen ∧
      (h q - Spec.krigingMean A (fun j => k q (x j)) y) ^ 2 ≤ (E + pen - α ⬝ᵥ y) * Spec.krigingVar (k q q) A (fun j => k q (x j)) := by
  intro A α
  have hdet := Kriging.det_ne_zero hA
  have hα : A *ᵥ α = y := Kriging.mulVec_inv_cancel hdet _
  set c := A⁻¹ *ᵥ fun j => k q (x j) with hcdef
  have hc : A *ᵥ c = fun j => k q (x j) := Kriging.mulVec_inv_cancel hdet _
  have hcy : c ⬝ᵥ y = Spec.krigingMean A (fun j => k q (x j)) y := by
    rw [Spec.krigingMean, ← Kriging.swap (Kriging.posdef_symm hA)]
  have hK : ∀ u v : Fin n → ℝ, u ⬝ᵥ (A *ᵥ v) = ∑ i, ∑ j, u i * v j * k (x i) (x j) + u ⬝ᵥ (D *ᵥ v) := by
    intro u v
    show u ⬝ᵥ (((Matrix.of fun i j => k (x i) (x j)) + D) *ᵥ v) = _
    rw [add_mulVec, dotProduct_add]
    congr 1
    simp only [dotProduct, mulVec, of_apply, Finset.mul_sum]
    exact Finset.sum_congr rfl fun i _ => Finset.sum_congr rfl fun j _ => by ring
  have hsymA : ∀ u v : Fin n → ℝ, u ⬝ᵥ (A *ᵥ v) = v ⬝ᵥ (A *ᵥ u) := by
    intro u v
    rw [dotProduct_mulVec, ← mulVec_transpose, Kriging.posdef_symm hA, dotProduct_comm]
  have hαy : α ⬝ᵥ y = ∑ i, ∑ j, α i * α j * k (x i) (x j) + α ⬝ᵥ (D *ᵥ α) := by rw [← hK, hα]
  refine ⟨?_, fun j => ?_, hαy, fun E h pen hE hpen hh hu => ?_⟩
  · rw [Spec.krigingMean, dotProduct, Spec.combination]
    exact Finset.sum_congr rfl fun j _ => by rw [hs, mul_comm]
  · have := congrFun hα j
    rw [show A *ᵥ α = (Matrix.of fun i j => k (x i) (x j)) *ᵥ α + D *ᵥ α from add_mulVec _ _ _, Pi.add_apply] at this
    rw [← this]
    have e : ((Matrix.of fun i j => k (x i) (x j)) *ᵥ α) j = Spec.combination k x α (x j) := by
      simp only [mulVec, dotProduct, of_apply, Spec.combination]
      exact Finset.sum_congr rfl fun i _ => by rw [hs, mul_comm]
    rw [e]; ring
  · have hDn : ∀ u : Fin n → ℝ, 0 ≤ u ⬝ᵥ (D *ᵥ u) := fun u => by simpa using hD.dotProduct_mulVec_nonneg u
    -- a combination of the value at `q` and of the data
    have comb : ∀ (a : ℝ) (u : Fin n → ℝ), (a * h q + u ⬝ᵥ y) ^ 2 ≤ (E + pen) * (a ^ 2 * k q q + 2 * a * (u ⬝ᵥ fun j => k q (x j)) + u ⬝ᵥ (A *ᵥ u)) := by
      intro a u
      have h1 := hh (1 + n) (Fin.append (fun _ : Fin 1 => q) x) (Fin.append (fun _ : Fin 1 => a) u)
      have h0 := hp (1 + n) (Fin.append (fun _ : Fin 1 => q) x) (Fin.append (fun _ : Fin 1 => a) u)
      simp only [Fin.sum_univ_add, Fin.append_left, Fin.append_right, Finset.univ_unique, Finset.sum_singleton, Finset.sum_add_distrib] at h1 h0
      have e1 : ∑ j, a * u j * k q (x j) = a * (u ⬝ᵥ fun j => k q (x j)) := by
        rw [dotProduct, Finset.mul_sum]
        exact Finset.sum_congr rfl fun j _ => by ring
      have e2 : ∑ j, u j * a * k (x j) q = a * (u ⬝ᵥ fun j => k q (x j)) := by
        rw [dotProduct, Finset.mul_sum]
        exact Finset.sum_congr rfl fun j _ => by rw [hs]; ring
      rw [e1, e2] at h1 h0
      have h2 := hu u
      have h3 := sq_add_le hE hpen h0 (hDn u) h1 h2
      have e3 : a * h q + u ⬝ᵥ y = a * h q + ∑ j, u j * h (x j) + ∑ j, u j * (y j - h (x j)) := by
        rw [add_assoc, ← Finset.sum_add_distrib, dotProduct]
        congr 1
        exact Finset.sum_congr rfl fun j _ => by ring
      rw [e3]
      refine h3.trans_eq ?_
      rw [hK]
      ring
    have hs0 : 0 ≤ α ⬝ᵥ y := by
      rw [hαy]
      exact add_nonneg (hp n x α) (hDn α)
    have hV : Spec.krigingVar (k q q) A (fun j => k q (x j)) = k q q - c ⬝ᵥ fun j => k q (x j) := by
      rw [Spec.krigingVar, dotProduct_comm]
    have hV0 : 0 ≤ Spec.krigingVar (k q q) A (fun j => k q (x j)) := by
      rw [hV]
      have h0 := hp (1 + n) (Fin.append (fun _ : Fin 1 => q) x) (Fin.append (fun _ : Fin 1 => 1) (-c))
      simp only [Fin.sum_univ_add, Fin.append_left, Fin.append_right, Finset.univ_unique, Finset.sum_singleton, Finset.sum_add_distrib] at h0
      have e1 : ∑ j, 1 * (-c) j * k q (x j) = -(c ⬝ᵥ fun j => k q (x j)) := by
        rw [dotProduct, ← Finset.sum_neg_distrib]
        exact Finset.sum_congr rfl fun j _ => by simp
      have e2 : ∑ j, (-c) j * 1 * k (x j) q = -(c ⬝ᵥ fun j => k q (x j)) := by
        rw [dotProduct, ← Finset.sum_neg_distrib]
        exact Finset.sum_congr rfl fun j _ => by rw [hs]; simp
      have e3 := hK c c
      rw [hc] at e3
      have e4 : ∑ i, ∑ j, (-c) i * (-c) j * k (x i) (x j) = ∑ i, ∑ j, c i * c j * k (x i) (x j) :=
        Finset.sum_congr rfl fun i _ => Finset.sum_congr rfl fun j _ => by simp
      rw [e1, e2, e4] at h0
      have := hDn c
      linarith
    have h2 : (α ⬝ᵥ y) ^ 2 ≤ (E + pen) * (α ⬝ᵥ y) := by
      have := comb 0 α
      rw [hα] at this
      simpa using this
    have hle : α ⬝ᵥ y ≤ E + pen := by
      rcases hs0.eq_or_lt with h0 | h0
      · rw [← h0]; exact add_nonneg hE hpen
      · nlinarith
    refine ⟨hle, quad_line hs0 hV0 (fun t => ?_) h2 (add_nonneg hE hpen)⟩
    have h3 := comb 1 (t • α - c)
    have e1 : (t • α - c) ⬝ᵥ y = t * (α ⬝ᵥ y) - Spec.krigingMean A (fun j => k q (x j)) y := by
      rw [sub_dotProduct, smul_dotProduct, hcy, smul_eq_mul]
    have e2 : (t • α - c) ⬝ᵥ (A *ᵥ (t • α - c)) = t ^ 2 * (α ⬝ᵥ y) - 2 * t * (α ⬝ᵥ fun j => k q (x j)) + c ⬝ᵥ fun j => k q (x j) := by
      have e3 : c ⬝ᵥ y = α ⬝ᵥ fun j => k q (x j) := by
        rw [← hα, hsymA, hc]
      rw [mulVec_sub, mulVec_smul, hα, hc, sub_dotProduct, dotProduct_sub, dotProduct_sub, smul_dotProduct, smul_dotProduct, dotProduct_smul, dotProduct_smul,
        e3]
      simp only [smul_eq_mul]
      ring
    have e4 : (t • α - c) ⬝ᵥ (fun j => k q (x j)) = t * (α ⬝ᵥ fun j => k q (x j)) - c ⬝ᵥ fun j => k q (x j) := by
      rw [sub_dotProduct, smul_dotProduct, smul_eq_mul]
    rw [e1, e2, e4] at h3
    rw [hV]
    refine le_trans (le_of_eq ?_) (h3.trans_eq ?_) <;> ring

/-- What `regress_any` computes, in terms of the nearest training points of every test point. -/
theorem regress_nearest (bs : Flt → ℝ → ℝ) (R : Regressor) (hk : R.kernel.make = R.kernel) (hko : R.gp.kout = KernelObj.kout)
    (hsuit : R.kernel.fn.Suits R.kernel.deform.metric) (w : NNWrapper) (hw : w.Exact) (Q : Tensor ℝ) (m : Nat) (len : Fin w.f → ℝ)
    (hlen : R.kernel.deform.HasLengths w.f len) (hQ : Q.shape = [m, w.f]) (hm : 0 < m) (hk0 : 0 < w.nnCount) (hkN : w.nnCount ≤ w.N)
    (hν : R.gp.noise.Fits m w.nnCount) (hreg : R.gp.noise.Suffices m w.nnCount (DistinctRows w.train w.N w.f)) :
    ∃ nb : Nat → Fin w.nnCount → Nat,
      (∀ p < m, Nearest (· < w.N) (fun j => w.dist (rowPt Q w.f p) (rowPt w.train w.f j)) w.nnCount (List.ofFn (nb p))) ∧
      (∀ p < m, ((Matrix.of fun i j => R.kernel.covFn bs len (rowPt w.train w.f (nb p i)) (rowPt w.train w.f (nb p j))) +
        R.gp.noise.mat w.nnCount p).PosDef) ∧
      ∀ Y : Tensor ℝ, Y.shape = [w.N] → ∃ μ v, regressAny bs R w Q w.train Y = .ok (μ, v) ∧ μ.shape = [m] ∧ v.shape = [m] ∧
        ∀ p < m, μ.get [p] = Spec.krigingMean ((Matrix.of fun i j => R.kernel.covFn bs len (rowPt w.train w.f (nb p i)) (rowPt w.train w.f (nb p j))) +
          R.gp.noise.mat w.nnCount p) (fun j => R.kernel.covFn bs len (rowPt Q w.f p) (rowPt w.train w.f (nb p j))) (fun j => Y.get [nb p j]) ∧
          v.get [p] = R.gp.boundScale *
            Spec.krigingVar 1 ((Matrix.of fun i j => R.kernel.covFn bs len (rowPt w.train w.f (nb p i)) (rowPt w.train w.f (nb p j))) +
              R.gp.noise.mat w.nnCount p) (fun j => R.kernel.covFn bs len (rowPt Q w.f p) (rowPt w.train w.f (nb p j))) := by
  obtain ⟨nn, h1, h2, h3⟩ := regress_cases_uniform bs R hk hko w hw Q m len hlen hQ hm hk0 hkN hν
  have hpos := hasLengths_pos hlen
  have hreg' : ∀ p < m, R.gp.noise.Suffices m w.nnCount (DistinctNeighbours w.train w.N w.f w.nnCount nn p) := fun p hp => by
    obtain ⟨l, e1, e2⟩ := h1 p hp
    exact hreg.mono fun hd => distinct_of_nodup e1 e2.nodup e2.mem hd
  have hdef := fun p => nbrCov_definite bs R.kernel hsuit len hpos w.train w.N w.nnCount nn p
  have hpd : ∀ p < m, (nbrCov bs R.kernel len w.train w.N w.nnCount nn p + R.gp.noise.mat w.nnCount p).PosDef := fun p hp =>
    Noise.posdef_of_suffices (hreg' p hp) hp (hdef p).1 (hdef p).2
  have hrow : ∀ x, pt w.train w.f x = rowPt w.train w.f x := rowPt_pt hw.1
  set nb : Nat → Fin w.nnCount → Nat := fun p j => pointOf w.N (nn.get [p, j]) with hnb
  have eK : ∀ p, nbrCov bs R.kernel len w.train w.N w.nnCount nn p =
      Matrix.of fun i j => R.kernel.covFn bs len (rowPt w.train w.f (nb p i)) (rowPt w.train w.f (nb p j)) := by
    intro p; ext i j
    simp only [nbrCov, of_apply, hrow, hnb]
  have ek : ∀ p, nbrCross bs R.kernel len w.train w.N w.nnCount nn p (rowPt Q w.f p) =
      fun j => R.kernel.covFn bs len (rowPt Q w.f p) (rowPt w.train w.f (nb p j)) := by
    intro p; ext j
    simp only [nbrCross, hrow, hnb]
  refine ⟨nb, fun p hp => ?_, fun p hp => eK p ▸ hpd p hp, fun Y hY => ?_⟩
  · obtain ⟨l, e1, e2⟩ := h1 p hp
    have : List.ofFn (nb p) = l := by
      refine List.ext_getElem (by rw [List.length_ofFn, e2.length]) fun j hj hj' => ?_
      rw [List.getElem_ofFn]
      rw [List.length_ofFn] at hj
      obtain ⟨x, x1, x2⟩ := rowList_get e1 hj
      show pointOf w.N (nn.get [p, j]) = _
      rw [x2, pointOf_nat]
      rw [List.getElem?_eq_getElem hj'] at x1
      exact (Option.some.inj x1).symm
    rw [this]
    exact e2
  · rcases h3 Y hY with ⟨⟨p, hp, hd⟩, -⟩ | ⟨-, μ, v, r1, r2, r3, r4⟩
    · exact absurd hd (Kriging.det_ne_zero (hpd p hp))
    · refine ⟨μ, v, r1, r2, r3, fun p hp => ⟨?_, ?_⟩⟩
      · rw [(r4 p hp).1, eK, ek]
        congr 1
        funext j
        simp only [nbrTargets, feature, hY, hnb]
      · rw [(r4 p hp).2, eK, ek]

/-- **C96**: with positive noise `τ`, the prediction at a test point is the value of the regularised least-squares fit to the responses of its nearest
training points: the function minimising energy plus squared residuals over `τ`. And every other function of energy `E` differs from the prediction by at most
what the reported variance (at unit scale) allows for its larger cost. -/
theorem C96_ridge (bs : Flt → ℝ → ℝ) (R : Regressor) (hk : R.kernel.make = R.kernel) (hko : R.gp.kout = KernelObj.kout)
    (hsuit : R.kernel.fn.Suits R.kernel.deform.metric) (hs : 0 < R.gp.boundScale) (w : NNWrapper) (hw : w.Exact) (Q Y : Tensor ℝ) (m : Nat)
    (len : Fin w.f → ℝ) (hlen : R.kernel.deform.HasLengths w.f len) (hQ : Q.shape = [m, w.f]) (hY : Y.shape = [w.N]) (hm : 0 < m)
    (hk0 : 0 < w.nnCount) (hkN : w.nnCount ≤ w.N) (τ : ℝ) (hτ : R.gp.noise = .homoscedastic τ) (hτ0 : 0 < τ) :
    ∃ μ v, regressAny bs R w Q w.train Y = .ok (μ, v) ∧ μ.shape = [m] ∧ v.shape = [m] ∧
      ∀ p < m, ∃ (nb : Fin w.nnCount → Nat) (f : (Fin w.f → ℝ) → ℝ) (Ef : ℝ),
        Nearest (· < w.N) (fun j => w.dist (rowPt Q w.f p) (rowPt w.train w.f j)) w.nnCount (List.ofFn nb) ∧
        Spec.RidgeFit (R.kernel.covFn bs len) τ (fun j => rowPt w.train w.f (nb j)) (fun j => Y.get [nb j]) f Ef ∧
        μ.get [p] = f (rowPt Q w.f p) ∧
        ∀ E h, Spec.EnergyAtMost (R.kernel.covFn bs len) E h → (h (rowPt Q w.f p) - μ.get [p]) ^ 2 ≤
          ((E + (∑ j, (Y.get [nb j] - h (rowPt w.train w.f (nb j))) ^ 2) / τ) -
            (Ef + (∑ j, (Y.get [nb j] - f (rowPt w.train w.f (nb j))) ^ 2) / τ)) * (v.get [p] / R.gp.boundScale) := by
  have hlev : R.gp.noise.Level τ := by rw [hτ]; rfl
  obtain ⟨nb, h1, h2, h3⟩ := regress_nearest bs R hk hko hsuit w hw Q m len hlen hQ hm hk0 hkN (hlev.fits _ _)
    ((hlev.suffices_iff _ _ _).mpr (.inl hτ0))
  obtain ⟨μ, v, r1, r2, r3, r4⟩ := h3 Y hY
  refine ⟨μ, v, r1, r2, r3, fun p hp => ?_⟩
  have hpsd : ∀ (n : Nat) (x : Fin n → Fin w.f → ℝ) (d : Fin n → ℝ), 0 ≤ ∑ i, ∑ j, d i * d j * R.kernel.covFn bs len (x i) (x j) :=
    fun n x d => covFn_psd bs R.kernel hsuit len x d
  have hD : ∀ u : Fin w.nnCount → ℝ, u ⬝ᵥ (R.gp.noise.mat w.nnCount p *ᵥ u) = τ * ∑ j, u j ^ 2 := fun u => by
    rw [hlev.mat, smul_mulVec, one_mulVec, dotProduct_smul, smul_eq_mul, dotProduct]
    simp only [sq]
  have hDpsd : (R.gp.noise.mat w.nnCount p).PosSemidef := by
    rw [hlev.mat]
    exact PosSemidef.one.smul hτ0.le
  obtain ⟨f1, f2, f3, f4⟩ := kriging_fit (covFn_comm bs R.kernel len) hpsd (fun j => rowPt w.train w.f (nb p j)) (rowPt Q w.f p) _ hDpsd (h2 p hp)
    fun j => Y.get [nb p j]
  set α := ((Matrix.of fun i j => R.kernel.covFn bs len (rowPt w.train w.f (nb p i)) (rowPt w.train w.f (nb p j))) +
        R.gp.noise.mat w.nnCount p)⁻¹ *ᵥ fun j => Y.get [nb p j] with hα
  set f := Spec.combination (R.kernel.covFn bs len) (fun j => rowPt w.train w.f (nb p j)) α with hf
  set Ef := ∑ i, ∑ j, α i * α j * R.kernel.covFn bs len (rowPt w.train w.f (nb p i)) (rowPt w.train w.f (nb p j)) with hEf
  have hcost : Ef + (∑ j, (Y.get [nb p j] - f (rowPt w.train w.f (nb p j))) ^ 2) / τ = α ⬝ᵥ fun j => Y.get [nb p j] := by
    rw [f3, hD]
    congr 1
    rw [div_eq_iff hτ0.ne', Finset.mul_sum, Finset.sum_mul]
    refine Finset.sum_congr rfl fun j _ => ?_
    rw [f2 j, hlev.mat, smul_mulVec, one_mulVec, Pi.smul_apply, smul_eq_mul]
    ring
  have hpen : ∀ h : (Fin w.f → ℝ) → ℝ, ∀ u : Fin w.nnCount → ℝ, (∑ j, u j * (Y.get [nb p j] - h (rowPt w.train w.f (nb p j)))) ^ 2 ≤
      ((∑ j, (Y.get [nb p j] - h (rowPt w.train w.f (nb p j))) ^ 2) / τ) * (u ⬝ᵥ (R.gp.noise.mat w.nnCount p *ᵥ u)) := fun h u => by
    rw [hD]
    refine (Finset.sum_mul_sq_le_sq_mul_sq Finset.univ u _).trans_eq ?_
    field_simp
  have hall := fun E h hh => f4 E h ((∑ j, (Y.get [nb p j] - h (rowPt w.train w.f (nb p j))) ^ 2) / τ)
    (energy_nonneg (covFn_self bs R.kernel hsuit len) hh) (by positivity) hh (hpen h)
  refine ⟨nb p, f, Ef, h1 p hp, ⟨combination_energy (covFn_comm bs R.kernel len) hpsd _ _, fun E h hh => ?_⟩, ?_, fun E h hh => ?_⟩
  · rw [hcost]
    exact (hall E h hh).1
  · rw [(r4 p hp).1]
    exact f1
  · have := (hall E h hh).2
    rw [(r4 p hp).1, (r4 p hp).2, mul_div_cancel_left₀ _ hs.ne', hcost]
    rwa [covFn_self bs R.kernel hsuit] at this

/-- **C96**: without noise, the prediction at a test point is the value of the function of least energy that has the responses of its nearest training points;
and every other function with these values and energy `E` differs from the prediction by at most what the reported variance allows for its larger energy. -/
theorem C96_interpolant (bs : Flt → ℝ → ℝ) (R : Regressor) (hk : R.kernel.make = R.kernel) (hko : R.gp.kout = KernelObj.kout)
    (hsuit : R.kernel.fn.Suits R.kernel.deform.metric) (hs : 0 < R.gp.boundScale) (w : NNWrapper) (hw : w.Exact) (Q Y : Tensor ℝ) (m : Nat)
    (len : Fin w.f → ℝ) (hlen : R.kernel.deform.HasLengths w.f len) (hQ : Q.shape = [m, w.f]) (hY : Y.shape = [w.N]) (hm : 0 < m)
    (hk0 : 0 < w.nnCount) (hkN : w.nnCount ≤ w.N) (hlev : R.gp.noise.Level 0) (hd : DistinctRows w.train w.N w.f) :
    ∃ μ v, regressAny bs R w Q w.train Y = .ok (μ, v) ∧ μ.shape = [m] ∧ v.shape = [m] ∧
      ∀ p < m, ∃ (nb : Fin w.nnCount → Nat) (f : (Fin w.f → ℝ) → ℝ) (Ef : ℝ),
        Nearest (· < w.N) (fun j => w.dist (rowPt Q w.f p) (rowPt w.train w.f j)) w.nnCount (List.ofFn nb) ∧
        Spec.MinimalInterpolant (R.kernel.covFn bs len) (fun j => rowPt w.train w.f (nb j)) (fun j => Y.get [nb j]) f Ef ∧
        μ.get [p] = f (rowPt Q w.f p) ∧
        ∀ E h, Spec.EnergyAtMost (R.kernel.covFn bs len) E h → (∀ j, h (rowPt w.train w.f (nb j)) = Y.get [nb j]) →
          (h (rowPt Q w.f p) - μ.get [p]) ^ 2 ≤ (E - Ef) * (v.get [p] / R.gp.boundScale) := by
  obtain ⟨nb, h1, h2, h3⟩ := regress_nearest bs R hk hko hsuit w hw Q m len hlen hQ hm hk0 hkN (hlev.fits _ _)
    ((hlev.suffices_iff _ _ _).mpr (.inr ⟨le_rfl, hd⟩))
  obtain ⟨μ, v, r1, r2, r3, r4⟩ := h3 Y hY
  refine ⟨μ, v, r1, r2, r3, fun p hp => ?_⟩
  have hpsd : ∀ (n : Nat) (x : Fin n → Fin w.f → ℝ) (d : Fin n → ℝ), 0 ≤ ∑ i, ∑ j, d i * d j * R.kernel.covFn bs len (x i) (x j) :=
    fun n x d => covFn_psd bs R.kernel hsuit len x d
  have hD0 : R.gp.noise.mat w.nnCount p = 0 := by rw [hlev.mat, zero_smul]
  obtain ⟨f1, f2, f3, f4⟩ := kriging_fit (covFn_comm bs R.kernel len) hpsd (fun j => rowPt w.train w.f (nb p j)) (rowPt Q w.f p) _
    (by rw [hD0]; exact PosSemidef.zero) (h2 p hp) fun j => Y.get [nb p j]
  set α := ((Matrix.of fun i j => R.kernel.covFn bs len (rowPt w.train w.f (nb p i)) (rowPt w.train w.f (nb p j))) +
        R.gp.noise.mat w.nnCount p)⁻¹ *ᵥ fun j => Y.get [nb p j] with hα
  set f := Spec.combination (R.kernel.covFn bs len) (fun j => rowPt w.train w.f (nb p j)) α with hf
  have hcost : ∑ i, ∑ j, α i * α j * R.kernel.covFn bs len (rowPt w.train w.f (nb p i)) (rowPt w.train w.f (nb p j)) =
      α ⬝ᵥ fun j => Y.get [nb p j] := by
    rw [f3, hD0, zero_mulVec, dotProduct_zero, add_zero]
  have hall : ∀ E h, Spec.EnergyAtMost (R.kernel.covFn bs len) E h → (∀ j, h (rowPt w.train w.f (nb p j)) = Y.get [nb p j]) → _ :=
    fun E h hh hv => f4 E h 0 (energy_nonneg (covFn_self bs R.kernel hsuit len) hh) le_rfl hh fun u => by
      simp only [hv, sub_self, mul_zero, Finset.sum_const_zero]
      norm_num
  refine ⟨nb p, f, _, h1 p hp, ⟨combination_energy (covFn_comm bs R.kernel len) hpsd _ _, fun j => ?_, fun E h hh hv => ?_⟩, ?_, fun E h hh hv => ?_⟩
  · have := f2 j
    rw [hD0, zero_mulVec, Pi.zero_apply, sub_eq_zero] at this
    exact this.symm
  · rw [hcost]
    simpa using (hall E h hh hv).1
  · rw [(r4 p hp).1]
    exact f1
  · have := (hall E h hh hv).2
    rw [(r4 p hp).1, (r4 p hp).2, mul_div_cancel_left₀ _ hs.ne', hcost]
    rw [covFn_self bs R.kernel hsuit, add_zero] at this
    exact this

end MuyGPyS
