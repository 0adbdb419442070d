import Verif.Props.Information
import Verif.Props.Reversion
import Verif.Props.Bayes
import Verif.Spec.ErrorBound

/-! # How wrong a prediction can be, whatever the function is (C95) -/

namespace MuyGPyS
open Py Matrix

/-- A covariance function: symmetric and positive semidefinite. -/
theorem covFn_psd (bessel : Flt → ℝ → ℝ) (k : KernelObj) (hk : k.fn.Suits k.deform.metric) {f : Nat} (len : Fin f → ℝ) {n : Nat}
    (x : Fin n → Fin f → ℝ) (d : Fin n → ℝ) : 0 ≤ ∑ i, ∑ j, d i * d j * k.covFn bessel len (x i) (x j) := by
  have h := (value_definite bessel ((k.smoothness.map (·.val)).getD none) k.fn k.deform.metric hk
    (fun i : Fin n => fun c => x i c / len c)).1.dotProduct_mulVec_nonneg d
  refine h.trans_eq ?_
  simp only [star_trivial, dotProduct, mulVec, of_apply, Finset.mul_sum]
  refine Finset.sum_congr rfl fun i _ => Finset.sum_congr rfl fun j _ => ?_
  unfold KernelObj.covFn
  ring

/-- Cauchy–Schwarz for a positive semidefinite form. -/
theorem form_cauchy {X : Type*} {k : X → X → ℝ} (hs : ∀ x y, k x y = k y x)
    (hp : ∀ (n : Nat) (x : Fin n → X) (d : Fin n → ℝ), 0 ≤ ∑ i, ∑ j, d i * d j * k (x i) (x j))
    {r n : Nat} (z : Fin r → X) (a : Fin r → ℝ) (x : Fin n → X) (d : Fin n → ℝ) :
    (∑ i, ∑ j, a i * d j * k (z i) (x j)) ^ 2 ≤
      (∑ i, ∑ j, a i * a j * k (z i) (z j)) * ∑ i, ∑ j, d i * d j * k (x i) (x j) := by
  set B := ∑ i, ∑ j, a i * d j * k (z i) (x j) with hB
  set A := ∑ i, ∑ j, a i * a j * k (z i) (z j) with hA
  set D := ∑ i, ∑ j, d i * d j * k (x i) (x j) with hD
  have hB' : ∑ i, ∑ j, d i * a j * k (x i) (z j) = B := by
    rw [Finset.sum_comm, hB]
    refine Finset.sum_congr rfl fun i _ => Finset.sum_congr rfl fun j _ => ?_
    rw [hs]; ring
  have key : ∀ t : ℝ, 0 ≤ A * (t * t) + 2 * B * t + D := by
    intro t
    have h := hp (r + n) (Fin.append z x) (Fin.append (fun i => t * a i) d)
    simp only [Fin.sum_univ_add, Fin.append_left, Fin.append_right] at h
    refine h.trans_eq ?_
    have e1 : ∑ i, ∑ j, t * a i * (t * a j) * k (z i) (z j) = t * t * A := by
      rw [hA, Finset.mul_sum]
      refine Finset.sum_congr rfl fun i _ => ?_
      rw [Finset.mul_sum]
      exact Finset.sum_congr rfl fun j _ => by ring
    have e2 : ∑ i, ∑ j, t * a i * d j * k (z i) (x j) = t * B := by
      rw [hB, Finset.mul_sum]
      refine Finset.sum_congr rfl fun i _ => ?_
      rw [Finset.mul_sum]
      exact Finset.sum_congr rfl fun j _ => by ring
    have e3 : ∑ i, ∑ j, d i * (t * a j) * k (x i) (z j) = t * B := by
      rw [← hB', Finset.mul_sum]
      refine Finset.sum_congr rfl fun i _ => ?_
      rw [Finset.mul_sum]
      exact Finset.sum_congr rfl fun j _ => by ring
    simp only [Finset.sum_add_distrib, e1, e2, e3, ← hD]
    ring
  have := discrim_le_zero (a := A) (b := 2 * B) (c := D) key
  unfold discrim at this
  nlinarith

/-- A combination of covariances has the energy one expects. -/
theorem combination_energy {X : Type*} {k : X → X → ℝ} (hs : ∀ x y, k x y = k y x)
    (hp : ∀ (n : Nat) (x : Fin n → X) (d : Fin n → ℝ), 0 ≤ ∑ i, ∑ j, d i * d j * k (x i) (x j))
    {r : Nat} (z : Fin r → X) (a : Fin r → ℝ) :
    Spec.EnergyAtMost k (∑ i, ∑ j, a i * a j * k (z i) (z j)) (Spec.combination k z a) := by
  intro n x d
  refine (le_of_eq ?_).trans (form_cauchy hs hp z a x d)
  congr 1
  rw [Finset.sum_comm]
  refine Finset.sum_congr rfl fun j _ => ?_
  rw [Spec.combination, Finset.mul_sum]
  exact Finset.sum_congr rfl fun i _ => by ring

/-- Energies are not negative. -/
theorem energy_nonneg {X : Type*} [Nonempty X] {k : X → X → ℝ} (h1 : ∀ x, k x x = 1) {E : ℝ} {g : X → ℝ} (h : Spec.EnergyAtMost k E g) : 0 ≤ E := by
  obtain ⟨x⟩ := ‹Nonempty X›
  have := h 1 (fun _ => x) fun _ => 1
  simp only [Finset.univ_unique, Finset.sum_singleton, one_mul, h1, mul_one] at this
  exact (sq_nonneg _).trans this

theorem sq_add_le {x y α β γ δ : ℝ} (hα : 0 ≤ α) (hβ : 0 ≤ β) (hγ : 0 ≤ γ) (hδ : 0 ≤ δ) (hx : x ^ 2 ≤ α * γ) (hy : y ^ 2 ≤ β * δ) :
    (x + y) ^ 2 ≤ (α + β) * (γ + δ) := by
  have h1 : (x * y) ^ 2 ≤ (α * δ) * (β * γ) := by
    have := mul_le_mul hx hy (sq_nonneg y) (mul_nonneg hα hγ)
    rw [mul_pow]; linarith
  have h2 : 2 * (x * y) ≤ α * δ + β * γ := by
    refine abs_le_of_sq_le_sq' (a := 2 * (x * y)) ?_ (add_nonneg (mul_nonneg hα hδ) (mul_nonneg hβ hγ)) |>.2
    nlinarith [sq_nonneg (α * δ - β * γ)]
  nlinarith

/-- The error of a kriging prediction from the values `g (x j) + e j`. -/
theorem kriging_error {X : Type*} {k : X → X → ℝ} (hs : ∀ x y, k x y = k y x) {n : Nat} (x : Fin n → X) (q : X) (D : Matrix (Fin n) (Fin n) ℝ)
    (hA : ((Matrix.of fun i j => k (x i) (x j)) + D).PosDef) :
    let c := ((Matrix.of fun i j => k (x i) (x j)) + D)⁻¹ *ᵥ fun j => k q (x j)
    (∀ y : Fin n → ℝ, Spec.krigingMean ((Matrix.of fun i j => k (x i) (x j)) + D) (fun j => k q (x j)) y = ∑ j, c j * y j) ∧
    ∀ E g, Spec.EnergyAtMost k E g → (g q - ∑ j, c j * g (x j)) ^ 2 ≤
      E * (Spec.krigingVar (k q q) ((Matrix.of fun i j => k (x i) (x j)) + D) (fun j => k q (x j)) - c ⬝ᵥ (D *ᵥ c)) := by
  intro c
  have hdet := Kriging.det_ne_zero hA
  have hc : ((Matrix.of fun i j => k (x i) (x j)) + D) *ᵥ c = fun j => k q (x j) := Kriging.mulVec_inv_cancel hdet _
  refine ⟨fun y => ?_, fun E g hg => ?_⟩
  · rw [Spec.krigingMean, ← Kriging.swap (Kriging.posdef_symm hA)]
    rfl
  · have h := hg (1 + n) (Fin.append (fun _ : Fin 1 => q) x) (Fin.append (fun _ : Fin 1 => (1 : ℝ)) fun j => - c j)
    simp only [Fin.sum_univ_add, Fin.append_left, Fin.append_right, Finset.univ_unique, Finset.sum_singleton, Finset.sum_add_distrib] at h
    have e0 : g q - ∑ j, c j * g (x j) = 1 * g q + ∑ j, - c j * g (x j) := by
      rw [one_mul, sub_eq_add_neg, ← Finset.sum_neg_distrib]
      simp only [neg_mul]
    rw [e0]
    refine h.trans_eq ?_
    congr 1
    have hq : c ⬝ᵥ (fun j => k q (x j)) = c ⬝ᵥ ((Matrix.of fun i j => k (x i) (x j)) *ᵥ c) + c ⬝ᵥ (D *ᵥ c) := by
      rw [← hc, add_mulVec, dotProduct_add]
    have e1 : ∑ j, 1 * - c j * k q (x j) = - (c ⬝ᵥ fun j => k q (x j)) := by
      rw [dotProduct, ← Finset.sum_neg_distrib]
      exact Finset.sum_congr rfl fun j _ => by ring
    have e2 : ∑ j, - c j * 1 * k (x j) q = - (c ⬝ᵥ fun j => k q (x j)) := by
      rw [dotProduct, ← Finset.sum_neg_distrib]
      exact Finset.sum_congr rfl fun j _ => by rw [hs]; ring
    have e3 : ∑ i, ∑ j, - c i * - c j * k (x i) (x j) = c ⬝ᵥ ((Matrix.of fun i j => k (x i) (x j)) *ᵥ c) := by
      simp only [dotProduct, mulVec, of_apply, Finset.mul_sum]
      exact Finset.sum_congr rfl fun i _ => Finset.sum_congr rfl fun j _ => by ring
    have e4 : Spec.krigingVar (k q q) ((Matrix.of fun i j => k (x i) (x j)) + D) (fun j => k q (x j)) =
        k q q - c ⬝ᵥ (fun j => k q (x j)) := by
      rw [Spec.krigingVar, dotProduct_comm]
    rw [e1, e2, e3, e4]
    linarith

/-- The weights of the neighbours in a prediction, and what they say about its error. -/
theorem regress_weights (bs : Flt → ℝ → ℝ) (R : Regressor) (hk : R.kernel.make = R.kernel) (hko : R.gp.kout = KernelObj.kout)
    (hsuit : R.kernel.fn.Suits R.kernel.deform.metric) (w : NNWrapper) (hw : w.Exact) (Q : Tensor ℝ) (m : Nat) (len : Fin w.f → ℝ)
    (hlen : R.kernel.deform.HasLengths w.f len) (hQ : Q.shape = [m, w.f]) (hm : 0 < m) (hk0 : 0 < w.nnCount) (hkN : w.nnCount ≤ w.N)
    (hν : R.gp.noise.Fits m w.nnCount) (hreg : R.gp.noise.Suffices m w.nnCount (DistinctRows w.train w.N w.f)) :
    ∃ (nb : Nat → Fin w.nnCount → Nat) (c : Nat → Fin w.nnCount → ℝ) (V : Nat → ℝ), (∀ p < m, ∀ j, nb p j < w.N) ∧
      (∀ p < m, V p = 1 - ∑ j, c p j * R.kernel.covFn bs len (rowPt Q w.f p) (rowPt w.train w.f (nb p j))) ∧
      (∀ p < m, (Matrix.of fun i j => R.kernel.covFn bs len (rowPt w.train w.f (nb p i)) (rowPt w.train w.f (nb p j))) *ᵥ c p +
        R.gp.noise.mat w.nnCount p *ᵥ c p = fun j => R.kernel.covFn bs len (rowPt Q w.f p) (rowPt w.train w.f (nb p j))) ∧
      (∀ p < m, 0 ≤ V p - c p ⬝ᵥ (R.gp.noise.mat w.nnCount p *ᵥ c p)) ∧
      (∀ p < m, ∀ E g, Spec.EnergyAtMost (R.kernel.covFn bs len) E g →
        (g (rowPt Q w.f p) - ∑ j, c p j * g (rowPt w.train w.f (nb p j))) ^ 2 ≤ E * (V p - c p ⬝ᵥ (R.gp.noise.mat w.nnCount p *ᵥ c p))) ∧
      ∀ Y : Tensor ℝ, Y.shape = [w.N] → ∃ μ v, regressAny bs R w Q w.train Y = .ok (μ, v) ∧ μ.shape = [m] ∧ v.shape = [m] ∧
        ∀ p < m, μ.get [p] = ∑ j, c p j * Y.get [nb p j] ∧ v.get [p] = R.gp.boundScale * V p := by
  obtain ⟨nn, h1, h2, h3⟩ := regress_cases_uniform bs R hk hko w hw Q m len hlen hQ hm hk0 hkN hν
  have hpos := hasLengths_pos hlen
  have hreg' : ∀ p < m, R.gp.noise.Suffices m w.nnCount (DistinctNeighbours w.train w.N w.f w.nnCount nn p) := fun p hp => by
    obtain ⟨l, e1, e2⟩ := h1 p hp
    exact hreg.mono fun hd => distinct_of_nodup e1 e2.nodup e2.mem hd
  have hdef := fun p => nbrCov_definite bs R.kernel hsuit len hpos w.train w.N w.nnCount nn p
  have hpd : ∀ p < m, (nbrCov bs R.kernel len w.train w.N w.nnCount nn p + R.gp.noise.mat w.nnCount p).PosDef := fun p hp =>
    Noise.posdef_of_suffices (hreg' p hp) hp (hdef p).1 (hdef p).2
  have hrow : ∀ x, pt w.train w.f x = rowPt w.train w.f x := rowPt_pt hw.1
  set nb : Nat → Fin w.nnCount → Nat := fun p j => pointOf w.N (nn.get [p, j]) with hnb
  have eK : ∀ p, nbrCov bs R.kernel len w.train w.N w.nnCount nn p =
      Matrix.of fun i j => R.kernel.covFn bs len (rowPt w.train w.f (nb p i)) (rowPt w.train w.f (nb p j)) := by
    intro p; ext i j
    simp only [nbrCov, of_apply, hrow, hnb]
  have ek : ∀ p, nbrCross bs R.kernel len w.train w.N w.nnCount nn p (rowPt Q w.f p) =
      fun j => R.kernel.covFn bs len (rowPt Q w.f p) (rowPt w.train w.f (nb p j)) := by
    intro p; ext j
    simp only [nbrCross, hrow, hnb]
  have key := fun p (hp : p < m) => kriging_error (covFn_comm bs R.kernel len) (fun j => rowPt w.train w.f (nb p j)) (rowPt Q w.f p)
    (R.gp.noise.mat w.nnCount p) (eK p ▸ hpd p hp)
  have hV : ∀ p, Spec.krigingVar 1 ((Matrix.of fun i j => R.kernel.covFn bs len (rowPt w.train w.f (nb p i)) (rowPt w.train w.f (nb p j))) +
      R.gp.noise.mat w.nnCount p) (fun j => R.kernel.covFn bs len (rowPt Q w.f p) (rowPt w.train w.f (nb p j))) =
      1 - ∑ j, (((Matrix.of fun i j => R.kernel.covFn bs len (rowPt w.train w.f (nb p i)) (rowPt w.train w.f (nb p j))) +
        R.gp.noise.mat w.nnCount p)⁻¹ *ᵥ fun j => R.kernel.covFn bs len (rowPt Q w.f p) (rowPt w.train w.f (nb p j))) j *
          R.kernel.covFn bs len (rowPt Q w.f p) (rowPt w.train w.f (nb p j)) := fun p => by
    rw [Spec.krigingVar, dotProduct_comm]
    rfl
  refine ⟨nb, fun p => ((Matrix.of fun i j => R.kernel.covFn bs len (rowPt w.train w.f (nb p i)) (rowPt w.train w.f (nb p j))) +
      R.gp.noise.mat w.nnCount p)⁻¹ *ᵥ fun j => R.kernel.covFn bs len (rowPt Q w.f p) (rowPt w.train w.f (nb p j)),
    fun p => Spec.krigingVar 1 ((Matrix.of fun i j => R.kernel.covFn bs len (rowPt w.train w.f (nb p i)) (rowPt w.train w.f (nb p j))) +
      R.gp.noise.mat w.nnCount p) fun j => R.kernel.covFn bs len (rowPt Q w.f p) (rowPt w.train w.f (nb p j)),
    fun p hp j => h2 p hp j j.2, fun p _ => hV p, fun p hp => ?_, fun p hp => ?_, fun p hp E g hg => ?_, fun Y hY => ?_⟩
  · rw [← add_mulVec]
    exact Kriging.mulVec_inv_cancel (Kriging.det_ne_zero (eK p ▸ hpd p hp)) _
  · have hen := combination_energy (covFn_comm bs R.kernel len) (fun n x d => covFn_psd bs R.kernel hsuit len x d)
      (fun _ : Fin 1 => rowPt Q w.f p) fun _ => 1
    have h0 := (key p hp).2 1 (Spec.combination (R.kernel.covFn bs len) (fun _ : Fin 1 => rowPt Q w.f p) fun _ => 1)
      (by simpa [covFn_self bs R.kernel hsuit] using hen)
    rw [covFn_self bs R.kernel hsuit, one_mul] at h0
    exact (sq_nonneg _).trans h0
  · have := (key p hp).2 E g hg
    rwa [covFn_self bs R.kernel hsuit] at this
  · rcases h3 Y hY with ⟨⟨p, hp, hd⟩, -⟩ | ⟨-, μ, v, r1, r2, r3, r4⟩
    · exact absurd hd (Kriging.det_ne_zero (hpd p hp))
    · refine ⟨μ, v, r1, r2, r3, fun p hp => ⟨?_, ?_⟩⟩
      · rw [(r4 p hp).1, eK, ek, (key p hp).1]
        refine Finset.sum_congr rfl fun j _ => ?_
        congr 1
        simp only [nbrTargets, feature, hY, hnb]
      · rw [(r4 p hp).2, eK, ek]

/-- **C95**: whatever the noise of the model, if the responses are the exact values of a function of energy at most `E`, the squared error of every
prediction is at most `E` times the reported variance (at unit scale). -/
theorem C95_exact_responses (bs : Flt → ℝ → ℝ) (R : Regressor) (hk : R.kernel.make = R.kernel) (hko : R.gp.kout = KernelObj.kout)
    (hsuit : R.kernel.fn.Suits R.kernel.deform.metric) (hs : 0 < R.gp.boundScale) (w : NNWrapper) (hw : w.Exact) (Q Y : Tensor ℝ) (m : Nat)
    (len : Fin w.f → ℝ) (hlen : R.kernel.deform.HasLengths w.f len) (hQ : Q.shape = [m, w.f]) (hY : Y.shape = [w.N]) (hm : 0 < m)
    (hk0 : 0 < w.nnCount) (hkN : w.nnCount ≤ w.N) (hν : R.gp.noise.Fits m w.nnCount)
    (hreg : R.gp.noise.Suffices m w.nnCount (DistinctRows w.train w.N w.f)) (E : ℝ) (g : (Fin w.f → ℝ) → ℝ)
    (hg : Spec.EnergyAtMost (R.kernel.covFn bs len) E g) (hYg : ∀ i < w.N, Y.get [i] = g (rowPt w.train w.f i)) :
    ∃ μ v, regressAny bs R w Q w.train Y = .ok (μ, v) ∧ μ.shape = [m] ∧ v.shape = [m] ∧
      ∀ p < m, (μ.get [p] - g (rowPt Q w.f p)) ^ 2 ≤ E * (v.get [p] / R.gp.boundScale) := by
  have hE := energy_nonneg (covFn_self bs R.kernel hsuit len) hg
  obtain ⟨nb, c, V, h1, -, -, h3, h4, h5⟩ := regress_weights bs R hk hko hsuit w hw Q m len hlen hQ hm hk0 hkN hν hreg
  obtain ⟨μ, v, r1, r2, r3, r4⟩ := h5 Y hY
  refine ⟨μ, v, r1, r2, r3, fun p hp => ?_⟩
  rw [(r4 p hp).1, (r4 p hp).2, mul_div_cancel_left₀ _ hs.ne']
  have e : ∑ j, c p j * Y.get [nb p j] = ∑ j, c p j * g (rowPt w.train w.f (nb p j)) :=
    Finset.sum_congr rfl fun j _ => by rw [hYg _ (h1 p hp j)]
  rw [e, ← neg_sq, neg_sub]
  refine (h4 p hp E g hg).trans (mul_le_mul_of_nonneg_left ?_ hE)
  have hn := (R.gp.noise.mat_psd (Noise.nonneg_of_suffices hreg) hp).dotProduct_mulVec_nonneg (c p)
  rw [star_trivial] at hn
  linarith

/-- **C95**: with positive (homoscedastic) noise `τ`, if every response is within `ε` of the value of a function of energy at most `E`, the squared error of
every prediction is at most `E + k ε² / τ` times the reported variance (at unit scale), where `k` is the number of neighbours. -/
theorem C95_noisy_responses (bs : Flt → ℝ → ℝ) (R : Regressor) (hk : R.kernel.make = R.kernel) (hko : R.gp.kout = KernelObj.kout)
    (hsuit : R.kernel.fn.Suits R.kernel.deform.metric) (hs : 0 < R.gp.boundScale) (w : NNWrapper) (hw : w.Exact) (Q Y : Tensor ℝ) (m : Nat)
    (len : Fin w.f → ℝ) (hlen : R.kernel.deform.HasLengths w.f len) (hQ : Q.shape = [m, w.f]) (hY : Y.shape = [w.N]) (hm : 0 < m)
    (hk0 : 0 < w.nnCount) (hkN : w.nnCount ≤ w.N) (τ : ℝ) (hτ : R.gp.noise = .homoscedastic τ) (hτ0 : 0 < τ) (E : ℝ)
    (g : (Fin w.f → ℝ) → ℝ) (hg : Spec.EnergyAtMost (R.kernel.covFn bs len) E g) (ε : ℝ)
    (hYg : ∀ i < w.N, |Y.get [i] - g (rowPt w.train w.f i)| ≤ ε) :
    ∃ μ v, regressAny bs R w Q w.train Y = .ok (μ, v) ∧ μ.shape = [m] ∧ v.shape = [m] ∧
      ∀ p < m, (μ.get [p] - g (rowPt Q w.f p)) ^ 2 ≤ (E + w.nnCount * ε ^ 2 / τ) * (v.get [p] / R.gp.boundScale) := by
  have hE := energy_nonneg (covFn_self bs R.kernel hsuit len) hg
  have hlev : R.gp.noise.Level τ := by rw [hτ]; rfl
  obtain ⟨nb, c, V, h1, -, -, h3, h4, h5⟩ := regress_weights bs R hk hko hsuit w hw Q m len hlen hQ hm hk0 hkN (hlev.fits _ _)
    ((hlev.suffices_iff _ _ _).mpr (.inl hτ0))
  obtain ⟨μ, v, r1, r2, r3, r4⟩ := h5 Y hY
  refine ⟨μ, v, r1, r2, r3, fun p hp => ?_⟩
  rw [(r4 p hp).1, (r4 p hp).2, mul_div_cancel_left₀ _ hs.ne']
  have ec : c p ⬝ᵥ (R.gp.noise.mat w.nnCount p *ᵥ c p) = τ * ∑ j, c p j ^ 2 := by
    rw [hlev.mat, smul_mulVec, one_mulVec, dotProduct_smul, smul_eq_mul, dotProduct]
    simp only [sq]
  have h4' := h4 p hp E g hg
  have h3' := h3 p hp
  rw [ec] at h4' h3'
  set e : Fin w.nnCount → ℝ := fun j => Y.get [nb p j] - g (rowPt w.train w.f (nb p j)) with he
  have hsum : ∑ j, e j ^ 2 ≤ w.nnCount * ε ^ 2 := by
    have : ∑ j, e j ^ 2 ≤ ∑ _j : Fin w.nnCount, ε ^ 2 := Finset.sum_le_sum fun j _ => by
      have := hYg _ (h1 p hp j)
      exact sq_le_sq' (by linarith [(abs_le.mp this).1]) (abs_le.mp this).2
    simpa using this
  have hce : (∑ j, c p j * e j) ^ 2 ≤ (w.nnCount * ε ^ 2 / τ) * (τ * ∑ j, c p j ^ 2) := by
    have h := Finset.sum_mul_sq_le_sq_mul_sq Finset.univ (c p) e
    have hc2 : 0 ≤ ∑ j, c p j ^ 2 := Finset.sum_nonneg fun _ _ => sq_nonneg _
    calc _ ≤ (∑ j, c p j ^ 2) * ∑ j, e j ^ 2 := h
      _ ≤ (∑ j, c p j ^ 2) * (w.nnCount * ε ^ 2) := mul_le_mul_of_nonneg_left hsum hc2
      _ = _ := by field_simp
  have e1 : (∑ j, c p j * Y.get [nb p j]) - g (rowPt Q w.f p) =
      -(g (rowPt Q w.f p) - ∑ j, c p j * g (rowPt w.train w.f (nb p j))) + ∑ j, c p j * e j := by
    have : ∑ j, c p j * e j = ∑ j, c p j * Y.get [nb p j] - ∑ j, c p j * g (rowPt w.train w.f (nb p j)) := by
      rw [← Finset.sum_sub_distrib]
      exact Finset.sum_congr rfl fun j _ => by rw [he]; ring
    rw [this]; ring
  rw [e1]
  refine (sq_add_le hE (by positivity) h3' (by positivity) (by rw [neg_sq]; exact h4') hce).trans_eq ?_
  ring

/-- **C95**: no smaller number than the reported variance will do: at every test point, some function of energy `E`, where `E` is the reported variance (at
unit scale), has an error of exactly that size (without noise). -/
theorem C95_attained (bs : Flt → ℝ → ℝ) (R : Regressor) (hk : R.kernel.make = R.kernel) (hko : R.gp.kout = KernelObj.kout)
    (hsuit : R.kernel.fn.Suits R.kernel.deform.metric) (hs : 0 < R.gp.boundScale) (w : NNWrapper) (hw : w.Exact) (Q : Tensor ℝ) (m : Nat)
    (len : Fin w.f → ℝ) (hlen : R.kernel.deform.HasLengths w.f len) (hQ : Q.shape = [m, w.f]) (hm : 0 < m)
    (hk0 : 0 < w.nnCount) (hkN : w.nnCount ≤ w.N) (hτ : R.gp.noise.Level 0) (hd : DistinctRows w.train w.N w.f) :
    ∃ v : Tensor ℝ, ∀ p < m, ∃ (g : (Fin w.f → ℝ) → ℝ), Spec.EnergyAtMost (R.kernel.covFn bs len) (v.get [p] / R.gp.boundScale) g ∧
      ∀ Y : Tensor ℝ, Y.shape = [w.N] → (∀ i < w.N, Y.get [i] = g (rowPt w.train w.f i)) →
        ∃ μ, regressAny bs R w Q w.train Y = .ok (μ, v) ∧
          (μ.get [p] - g (rowPt Q w.f p)) ^ 2 = v.get [p] / R.gp.boundScale * (v.get [p] / R.gp.boundScale) := by
  obtain ⟨nb, c, V, h1, h2, h2', h3, h4, h5⟩ := regress_weights bs R hk hko hsuit w hw Q m len hlen hQ hm hk0 hkN (hτ.fits _ _)
    ((hτ.suffices_iff _ _ _).mpr (.inr ⟨le_rfl, hd⟩))
  obtain ⟨μ₀, v, r1, -, -, r4⟩ := h5 ⟨[w.N], fun _ => 0⟩ rfl
  have hV : ∀ p < m, v.get [p] / R.gp.boundScale = V p := fun p hp => by rw [(r4 p hp).2, mul_div_cancel_left₀ _ hs.ne']
  have hpsd : ∀ (n : Nat) (x : Fin n → Fin w.f → ℝ) (d : Fin n → ℝ), 0 ≤ ∑ i, ∑ j, d i * d j * R.kernel.covFn bs len (x i) (x j) :=
    fun n x d => covFn_psd bs R.kernel hsuit len x d
  refine ⟨v, fun p hp => ?_⟩
  rw [hV p hp]
  have hKc := h2' p hp
  rw [hτ.mat, zero_smul, zero_mulVec, add_zero] at hKc
  have hKc' : ∀ j, ∑ i, c p i * R.kernel.covFn bs len (rowPt w.train w.f (nb p i)) (rowPt w.train w.f (nb p j)) =
      R.kernel.covFn bs len (rowPt Q w.f p) (rowPt w.train w.f (nb p j)) := fun j => by
    rw [← congrFun hKc j]
    simp only [mulVec, dotProduct, of_apply]
    exact Finset.sum_congr rfl fun i _ => by rw [covFn_comm, mul_comm]
  have hVp : V p = 1 - ∑ j, c p j * R.kernel.covFn bs len (rowPt w.train w.f (nb p j)) (rowPt Q w.f p) := by
    rw [h2 p hp]
    congr 1
    exact Finset.sum_congr rfl fun j _ => by rw [covFn_comm]
  set z : Fin (1 + w.nnCount) → Fin w.f → ℝ := Fin.append (fun _ => rowPt Q w.f p) fun j => rowPt w.train w.f (nb p j) with hz
  set a : Fin (1 + w.nnCount) → ℝ := Fin.append (fun _ => 1) fun j => - c p j with ha
  have hgv : ∀ x, Spec.combination (R.kernel.covFn bs len) z a x =
      R.kernel.covFn bs len (rowPt Q w.f p) x - ∑ j, c p j * R.kernel.covFn bs len (rowPt w.train w.f (nb p j)) x := by
    intro x
    simp only [Spec.combination, hz, ha, Fin.sum_univ_add, Fin.append_left, Fin.append_right, Finset.univ_unique, Finset.sum_singleton, one_mul,
      neg_mul, Finset.sum_neg_distrib, sub_eq_add_neg]
  have hgq : Spec.combination (R.kernel.covFn bs len) z a (rowPt Q w.f p) = V p := by
    rw [hgv, covFn_self bs R.kernel hsuit, hVp]
  have hgx : ∀ j, Spec.combination (R.kernel.covFn bs len) z a (rowPt w.train w.f (nb p j)) = 0 := fun j => by
    rw [hgv, hKc', sub_self]
  have hen : ∑ i, ∑ j, a i * a j * R.kernel.covFn bs len (z i) (z j) = V p := by
    have : ∑ i, ∑ j, a i * a j * R.kernel.covFn bs len (z i) (z j) = ∑ j, a j * Spec.combination (R.kernel.covFn bs len) z a (z j) := by
      rw [Finset.sum_comm]
      refine Finset.sum_congr rfl fun j _ => ?_
      rw [Spec.combination, Finset.mul_sum]
      exact Finset.sum_congr rfl fun i _ => by ring
    rw [this, Fin.sum_univ_add]
    simp only [hz, ha, Fin.append_left, Fin.append_right, Finset.univ_unique, Finset.sum_singleton, one_mul]
    rw [← hz, ← ha, hgq]
    simp only [hgx, mul_zero, Finset.sum_const_zero, add_zero]
  refine ⟨Spec.combination (R.kernel.covFn bs len) z a, hen ▸ combination_energy (covFn_comm bs R.kernel len) hpsd z a, fun Y hY hYg => ?_⟩
  obtain ⟨μ, v', s1, -, -, s4⟩ := h5 Y hY
  obtain rfl := regress_variance_same bs R w Q w.train _ _ μ₀ v μ v' r1 s1
  refine ⟨μ, s1, ?_⟩
  have : μ.get [p] = 0 := by
    rw [(s4 p hp).1]
    exact Finset.sum_eq_zero fun j _ => by rw [hYg _ (h1 p hp j), hgx, mul_zero]
  rw [this, hgq]
  ring

end MuyGPyS
