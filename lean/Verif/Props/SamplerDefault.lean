import Verif.Props.SamplerLaw
import Verif.Props.Matern
import Verif.Props.BayesWitness

/-!
# C75: the samplers' own points, kernels and default arguments
-/

namespace MuyGPyS.Sampler
open Py Matrix MeasureTheory ProbabilityTheory

theorem feature_linspace (n i c : Nat) : feature (linspace n) i c = (i : ℝ) * (1 / ((n : ℝ) - 1)) := by
  show (linspace n).get [i] = _
  rw [Tensor.get1 _ rfl]; rfl

theorem linspace_distinct {n : Nat} (hn : 2 ≤ n) : DistinctRows (linspace n) n 1 := by
  intro i hi j hj hij
  refine ⟨0, one_pos, ?_⟩
  rw [feature_linspace, feature_linspace]
  have h2 : (2 : ℝ) ≤ n := by exact_mod_cast hn
  have : 1 / ((n : ℝ) - 1) ≠ 0 := one_div_ne_zero (by linarith)
  intro h
  exact hij (Nat.cast_injective (mul_right_cancel₀ this h))

theorem feature_grid (p i : Nat) : feature (grid p) i 0 = (linspace p).flat (i % p) ∧ feature (grid p) i 1 = (linspace p).flat (i / p) := by
  constructor
  · show (grid p).get [i, 0] = _
    rw [Tensor.get2 _ rfl]
    simp [grid]
  · show (grid p).get [i, 1] = _
    rw [Tensor.get2 _ rfl]
    have h1 : (i * 2 + 1) / 2 = i := by omega
    have h2 : (i * 2 + 1) % 2 = 1 := by omega
    simp [grid, h1, h2]

theorem grid_distinct {p : Nat} (hp : 2 ≤ p) : DistinctRows (grid p) (p * p) 2 := by
  have hl : ∀ a b : Nat, (linspace p).flat a = (linspace p).flat b → a = b := by
    intro a b h
    have h2 : (2 : ℝ) ≤ p := by exact_mod_cast hp
    have : 1 / ((p : ℝ) - 1) ≠ 0 := one_div_ne_zero (by linarith)
    exact Nat.cast_injective (mul_right_cancel₀ this h)
  intro i _ j _ hij
  by_contra hcon
  push Not at hcon
  have h0 := hcon 0 two_pos
  have h1 := hcon 1 one_lt_two
  rw [(feature_grid p i).1, (feature_grid p j).1] at h0
  rw [(feature_grid p i).2, (feature_grid p j).2] at h1
  exact hij (by rw [← Nat.div_add_mod i p, ← Nat.div_add_mod j p, hl _ _ h0, hl _ _ h1])

theorem scaled_pt_injective {x : Tensor ℝ} {n f : Nat} (hd : DistinctRows x n f) (len : Fin f → ℝ) (hlen : ∀ c, 0 < len c) :
    Function.Injective fun (i : Fin n) c => pt x f i c / len c := by
  intro i j hij
  by_contra hne
  obtain ⟨c, hc, h⟩ := hd i i.2 j j.2 fun h => hne (Fin.ext h)
  exact h ((div_left_inj' (hlen ⟨c, hc⟩).ne').mp (congrFun hij ⟨c, hc⟩))

theorem cov_eq (bessel : Flt → ℝ → ℝ) (k : KernelObj) (ν : Noise) (τ : ℝ) {f : Nat} (len : Fin f → ℝ) (x : Tensor ℝ) (n : Nat) :
    (BenchmarkGP.new k ν).cov bessel τ len x n =
      (Matrix.of fun i j : Fin n => KFn.value bessel ((k.smoothness.map (·.val)).getD none) k.fn
        (distOf k.deform.metric (fun c => pt x f i c / len c) (fun c => pt x f j c / len c))) + τ • (1 : Matrix (Fin n) (Fin n) ℝ) := by
  ext i j
  rw [Matrix.add_apply, Matrix.smul_apply, Matrix.one_apply]
  simp [BenchmarkGP.cov, BenchmarkGP.new, KernelObj.covFn]

/-- The covariance matrix of different points is positive definite for RBF and the closed-form Matérn kernels, with or without noise. -/
theorem closed_posDef (bessel : Flt → ℝ → ℝ) (k : KernelObj) (hk : k.fn.Suits k.deform.metric) (ν : Noise) (τ : ℝ) (hτ : 0 ≤ τ) {f : Nat}
    (len : Fin f → ℝ) (hlen : ∀ c, 0 < len c) (x : Tensor ℝ) (n : Nat) (hd : DistinctRows x n f) :
    ((BenchmarkGP.new k ν).cov bessel τ len x n).PosDef := by
  rw [cov_eq]
  have h1 := (value_definite bessel ((k.smoothness.map (·.val)).getD none) k.fn k.deform.metric hk
    fun (i : Fin n) c => pt x f i c / len c).2 (scaled_pt_injective hd len hlen)
  exact h1.add_posSemidef (PosSemidef.one.smul hτ)

/-- The covariance matrix of different points is positive definite for the general Matérn kernel, with noise above its deficit. -/
theorem gen_posDef (k : KernelObj) (hg : k.fn = .gen) (hm : k.deform.metric = .l2) (q : Param) (s : ℝ) (hs : 0 < s) (hsm : k.smoothness = some q)
    (hq : q.val = Flt.fin s) (ν : Noise) (τ : ℝ) (hτ : deficit s < τ) {f : Nat} (len : Fin f → ℝ) (hlen : ∀ c, 0 < len c) (x : Tensor ℝ)
    (n : Nat) (hd : DistinctRows x n f) : ((BenchmarkGP.new k ν).cov maternGen τ len x n).PosDef := by
  rw [cov_eq, hsm, hm, hg]
  simp only [Option.map_some, Option.getD_some, hq]
  refine gen_definite (m := 1) hs (fun (i : Fin n) c => pt x f i c / len c) (fun i => ?_) (by simpa using hτ)
  rw [Finset.card_le_one]
  intro a ha b hb
  simp only [Finset.mem_filter, Finset.mem_univ, true_and] at ha hb
  exact scaled_pt_injective hd len hlen (ha.symm.trans hb)

/-- Above smoothness 1 the deficit is of the order of the square of the machine epsilon. -/
theorem deficit_le {s : ℝ} (hs : 1 < s) : deficit s ≤ (√(2 * s) * machEps / 2) ^ 2 / (s - 1) := by
  have hs0 : 0 < s := by linarith
  set a := √(2 * s) * machEps / 2 with ha
  unfold deficit
  rw [Matern.maternCorrelation_mix hs0 machEps_pos, ← ha]
  have hG := Real.Gamma_pos_of_pos hs0
  have hG1 := Real.Gamma_pos_of_pos (show 0 < s - 1 by linarith)
  have hGs : Real.Gamma s = (s - 1) * Real.Gamma (s - 1) := by
    have := Real.Gamma_add_one (show s - 1 ≠ 0 by linarith)
    rwa [sub_add_cancel] at this
  have hi1 := Real.GammaIntegral_convergent hs0
  have hi2 := Real.GammaIntegral_convergent (show 0 < s - 1 by linarith)
  have hi3 := Matern.mixInt_integrable hs0 a
  have key : Real.Gamma s - a ^ 2 * Real.Gamma (s - 1) ≤ ∫ u in Set.Ioi (0 : ℝ), Matern.mixInt s a u := by
    rw [Real.Gamma_eq_integral hs0, Real.Gamma_eq_integral (show 0 < s - 1 by linarith), ← integral_const_mul, ← integral_sub hi1 (hi2.const_mul _)]
    refine setIntegral_mono_on (hi1.sub (hi2.const_mul _)) hi3 measurableSet_Ioi fun u hu => ?_
    have hu' : (0 : ℝ) < u := hu
    unfold Matern.mixInt
    have e1 : u ^ (s - 1) = u ^ (s - 1 - 1) * u := by
      rw [Real.rpow_sub_one hu'.ne' (s - 1)]; field_simp
    have e2 : Real.exp (-u - a ^ 2 / u) = Real.exp (-u) * Real.exp (-(a ^ 2 / u)) := by rw [← Real.exp_add]; congr 1
    have e3 : 1 - a ^ 2 / u ≤ Real.exp (-(a ^ 2 / u)) := by
      have := Real.add_one_le_exp (-(a ^ 2 / u)); linarith
    have hp : 0 < u ^ (s - 1 - 1) := Real.rpow_pos_of_pos hu' _
    rw [e2, e1]
    have : Real.exp (-u) * (u ^ (s - 1 - 1) * u) - a ^ 2 * (Real.exp (-u) * u ^ (s - 1 - 1)) =
        u ^ (s - 1 - 1) * u * (Real.exp (-u) * (1 - a ^ 2 / u)) := by field_simp
    rw [this]
    exact mul_le_mul_of_nonneg_left (mul_le_mul_of_nonneg_left e3 (Real.exp_pos _).le) (by positivity)
  unfold Matern.mix
  have h1 : 0 < s - 1 := by linarith
  rw [sub_le_iff_le_add, ← sub_le_iff_le_add', le_div_iff₀ hG]
  refine le_trans (le_of_eq ?_) key
  rw [hGs]
  field_simp


/-- **C75** (partial) for the points of the two samplers and every kernel whose covariance matrix needs no noise (RBF with the squared metric,
Matérn 1/2, 3/2, 5/2, ∞ with the Euclidean one): at least two points (per dimension), any noise level including none. -/
theorem C75_closed_partial (bessel : Flt → ℝ → ℝ) (n : Nat) (hn2 : 2 ≤ n) (ratio : ℝ) (k : KernelObj) (hk : k.make = k)
    (hsuit : k.fn.Suits k.deform.metric) (ν : Noise) (τ : ℝ) (hτ : ν.Level τ) (hτ0 : 0 ≤ τ) (σ : ℝ) (hσ : 0 ≤ σ) (sfl : List Nat) (draw : Nat → Nat) :
    (1 ≤ ⌊n * ratio⌋₊ → ⌊n * ratio⌋₊ ≤ n → sfl.Perm (List.range n) → ∀ len : Fin 1 → ℝ, k.deform.HasLengths 1 len →
      ∃ S, univariate n ratio k ν σ sfl draw = .ok S ∧ S.masks.Parts n ⌊n * ratio⌋₊ ∧
        S.Draws bessel n ⌊n * ratio⌋₊ 1 len (τ + σ ^ 2) τ) ∧
    (1 ≤ ⌊((n * n : Nat) : ℝ) * ratio⌋₊ → ⌊((n * n : Nat) : ℝ) * ratio⌋₊ ≤ n * n → sfl.Perm (List.range (n * n)) →
      ∀ len : Fin 2 → ℝ, k.deform.HasLengths 2 len →
      ∃ S, univariate2D n ratio k ν σ sfl draw = .ok S ∧ S.masks.Parts (n * n) ⌊((n * n : Nat) : ℝ) * ratio⌋₊ ∧
        S.Draws bessel (n * n) ⌊((n * n : Nat) : ℝ) * ratio⌋₊ 2 len (τ + σ ^ 2) τ) := by
  constructor
  · intro h1 h2 hs len hlen
    obtain ⟨S, e1, -, e2, -, -, -, -, e3⟩ := C75_law_partial bessel (linspace n) n 1 (by omega) (.inr ⟨rfl, rfl⟩) ratio h1 h2 k hk len hlen ν τ hτ
      (closed_posDef bessel k hsuit ν τ hτ0 len (hasLengths_pos hlen) _ n (linspace_distinct hn2)) σ hσ sfl hs draw
    exact ⟨S, e1, e2, e3⟩
  · intro h1 h2 hs len hlen
    have : 2 * 2 ≤ n * n := Nat.mul_le_mul hn2 hn2
    obtain ⟨S, e1, -, e2, -, -, -, -, e3⟩ := C75_law_partial bessel (grid n) (n * n) 2 (by omega) (.inl rfl) ratio h1 h2 k hk len hlen ν τ hτ
      (closed_posDef bessel k hsuit ν τ hτ0 len (hasLengths_pos hlen) _ (n * n) (grid_distinct hn2)) σ hσ sfl hs draw
    exact ⟨S, e1, e2, e3⟩

/-- The default kernel of both samplers — `_test/sampler.py:43-46,248-251`: Matérn with the fixed smoothness 2 and the length scale 1. -/
noncomputable def defaultKernel : KernelObj :=
  KernelObj.make ⟨.isotropy .l2 ⟨Flt.fin 1, Flt.fin 0, Flt.fin 0, true⟩, some ⟨Flt.fin 2, Flt.fin 0, Flt.fin 0, true⟩, .gen⟩


theorem defaultKernel_gen : defaultKernel.fn = .gen := by
  have h : ∀ b : ℝ, (2 : ℝ) ≠ b → Flt.fin 2 ≠ Flt.fin b := fun b hb h => hb (by
    have := Option.some.inj h
    exact_mod_cast this)
  show setMaternFn ⟨Flt.fin 2, Flt.fin 0, Flt.fin 0, true⟩ = _
  unfold setMaternFn
  rw [if_pos rfl, if_neg (h _ (by norm_num)), if_neg (h _ (by norm_num)), if_neg (h _ (by norm_num)), if_neg]
  intro hc
  exact EReal.coe_ne_top 2 (Option.some.inj hc)

/-- The default noise of the samplers is more than the general Matérn kernel of smoothness 2 needs. -/
theorem default_noise_suffices {τ : ℝ} (h : 1e-14 ≤ τ) : deficit 2 < τ := by
  refine lt_of_le_of_lt (deficit_le (by norm_num)) (lt_of_lt_of_le ?_ h)
  have h4 : √(2 * 2 : ℝ) = 2 := by rw [show (2 * 2 : ℝ) = 2 ^ 2 by norm_num]; exact Real.sqrt_sq (by norm_num)
  rw [h4]
  unfold machEps
  norm_num

/-- **C75** (partial) for the default kernel (general Matérn, smoothness 2, as computed by the code), noise of at least the default `1e-14` and any number of
points, ratio and measurement noise: both samplers draw from the Gaussian process prior. -/
theorem C75_default_partial (n : Nat) (hn2 : 2 ≤ n) (ratio τ : ℝ) (hτ : 1e-14 ≤ τ) (σ : ℝ) (hσ : 0 ≤ σ) (sfl : List Nat) (draw : Nat → Nat) :
    (1 ≤ ⌊n * ratio⌋₊ → ⌊n * ratio⌋₊ ≤ n → sfl.Perm (List.range n) →
      ∃ S, univariate n ratio defaultKernel (.homoscedastic τ) σ sfl draw = .ok S ∧ S.masks.Parts n ⌊n * ratio⌋₊ ∧
        S.Draws maternGen n ⌊n * ratio⌋₊ 1 (fun _ => 1) (τ + σ ^ 2) τ) ∧
    (1 ≤ ⌊((n * n : Nat) : ℝ) * ratio⌋₊ → ⌊((n * n : Nat) : ℝ) * ratio⌋₊ ≤ n * n → sfl.Perm (List.range (n * n)) →
      ∃ S, univariate2D n ratio defaultKernel (.homoscedastic τ) σ sfl draw = .ok S ∧ S.masks.Parts (n * n) ⌊((n * n : Nat) : ℝ) * ratio⌋₊ ∧
        S.Draws maternGen (n * n) ⌊((n * n : Nat) : ℝ) * ratio⌋₊ 2 (fun _ => 1) (τ + σ ^ 2) τ) := by
  have hlen : ∀ f, defaultKernel.deform.HasLengths f (fun _ => 1) := fun f => ⟨1, one_pos, rfl, fun _ => rfl⟩
  have hd := default_noise_suffices hτ
  constructor
  · intro h1 h2 hs
    obtain ⟨S, e1, -, e2, -, -, -, -, e3⟩ := C75_law_partial maternGen (linspace n) n 1 (by omega) (.inr ⟨rfl, rfl⟩) ratio h1 h2 defaultKernel rfl _
      (hlen 1) (.homoscedastic τ) τ rfl (gen_posDef defaultKernel defaultKernel_gen rfl _ 2 two_pos rfl rfl _ τ hd _ (fun _ => one_pos) _ n
        (linspace_distinct hn2)) σ hσ sfl hs draw
    exact ⟨S, e1, e2, e3⟩
  · intro h1 h2 hs
    have : 2 * 2 ≤ n * n := Nat.mul_le_mul hn2 hn2
    obtain ⟨S, e1, -, e2, -, -, -, -, e3⟩ := C75_law_partial maternGen (grid n) (n * n) 2 (by omega) (.inl rfl) ratio h1 h2 defaultKernel rfl _
      (hlen 2) (.homoscedastic τ) τ rfl (gen_posDef defaultKernel defaultKernel_gen rfl _ 2 two_pos rfl rfl _ τ hd _ (fun _ => one_pos) _ (n * n)
        (grid_distinct hn2)) σ hσ sfl hs draw
    exact ⟨S, e1, e2, e3⟩

/-- Independent standard normal numbers exist. -/
theorem standardNormals_exist (n c : Nat) :
    ∃ (Ω : Type) (_ : MeasurableSpace Ω) (P : Measure Ω) (_ : IsProbabilityMeasure P) (z e : Ω → Nat → ℝ), StandardNormals P n c z e := by
  have h1 : (1 : Matrix (Fin n ⊕ Fin c) (Fin n ⊕ Fin c) ℝ).PosSemidef := PosSemidef.one
  obtain ⟨g1, g2, g3⟩ := gaussian_transfer (multivariateGaussian (0 : EuclideanSpace ℝ (Fin n ⊕ Fin c)) 1) 1 h1 id (MeasurePreserving.id _)
  refine ⟨EuclideanSpace ℝ (Fin n ⊕ Fin c), inferInstance, multivariateGaussian 0 1, inferInstance,
    fun ω j => if h : j < n then ω (.inl ⟨j, h⟩) else 0, fun ω i => if h : i < c then ω (.inr ⟨i, h⟩) else 0, ?_⟩
  have e : (Sum.elim (fun (j : Fin n) (ω : EuclideanSpace ℝ (Fin n ⊕ Fin c)) => if h : (j : Nat) < n then ω (.inl ⟨j, h⟩) else 0)
      (fun (i : Fin c) ω => if h : (i : Nat) < c then ω (.inr ⟨i, h⟩) else 0)) = fun a ω => ω a := by
    funext a ω
    cases a <;> simp
  unfold StandardNormals
  rw [e]
  exact ⟨g1, g2, fun i j => by rw [← Matrix.one_apply]; exact g3 i j⟩

/-- **C75** fails for the measurement noise as a variance: everywhere else in the library the value of a `HomoscedasticNoise` is a variance, but the
samplers hand it to `np.random.normal` as the standard deviation; the training responses then do not have the variance `σ` around the
drawn surface, unless `σ` is 0 or 1. -/
theorem C75_measurement_fails (bessel : Flt → ℝ → ℝ) (S : Obj) (n c f : Nat) (hc : 1 ≤ c) (len : Fin f → ℝ) (τ σ : ℝ) (h0 : σ ≠ 0) (h1 : σ ≠ 1)
    (h : S.Draws bessel n c f len (τ + σ ^ 2) τ) : ¬ S.Draws bessel n c f len (τ + σ) τ := by
  intro h'
  obtain ⟨Ω, _, P, _, z, e, hz⟩ := standardNormals_exist n c
  obtain ⟨A, B, a1, -, -, -, -, a2, -⟩ := h Ω _ P z e hz
  obtain ⟨A', B', b1, -, -, -, -, b2, -⟩ := h' Ω _ P z e hz
  have : A = A' := by
    funext ω
    have := (a1 ω).symm.trans (b1 ω)
    injection this with this
    exact congrArg Prod.fst this
  subst this
  have := (a2 ⟨0, hc⟩ ⟨0, hc⟩).symm.trans (b2 ⟨0, hc⟩ ⟨0, hc⟩)
  simp only [if_true, add_right_inj] at this
  have h2 : σ * (σ - 1) = 0 := by linarith [this, sq σ]
  rcases mul_eq_zero.mp h2 with h | h
  · exact h0 h
  · exact h1 (by linarith)

/-- Non-vacuity of `C75_default_partial` and `C75_measurement_fails`: the sampler with its default arguments (5001 points, a tenth of them for training, noise
`1e-14`, measurement noise `1e-5`) draws from the prior, but the training responses have measurement errors of variance `1e-10`, not `1e-5`. -/
example (draw : Nat → Nat) : ∃ S, univariate 5001 (1 / 10) defaultKernel (.homoscedastic 1e-14) 1e-5 (List.range 5001) draw = .ok S ∧
    S.Draws maternGen 5001 500 1 (fun _ => 1) (1e-14 + 1e-5 ^ 2) 1e-14 ∧ ¬ S.Draws maternGen 5001 500 1 (fun _ => 1) (1e-14 + 1e-5) 1e-14 := by
  have h5 : ⌊((5001 : Nat) : ℝ) * (1 / 10)⌋₊ = 500 := by
    rw [Nat.floor_eq_iff (by norm_num)]
    norm_num
  obtain ⟨S, e1, -, e2⟩ := (C75_default_partial 5001 (by norm_num) (1 / 10) 1e-14 le_rfl 1e-5 (by norm_num) (List.range 5001) draw).1
    (by rw [h5]; norm_num) (by rw [h5]; norm_num) (List.Perm.refl _)
  rw [h5] at e2
  exact ⟨S, e1, e2, C75_measurement_fails _ S _ _ _ (by norm_num) _ _ _ (by norm_num) (by norm_num) e2⟩

/-- Non-vacuity of `C75_closed_partial`: the RBF kernel on a grid of nine points without noise. -/
example (draw : Nat → Nat) : ∃ S, univariate2D 3 (1 / 3)
    (KernelObj.make ⟨.isotropy .F2 ⟨Flt.fin 1, Flt.fin 0, Flt.fin 0, true⟩, none, .rbf⟩) .null 1 (List.range 9) draw = .ok S ∧
    S.Draws maternGen 9 3 2 (fun _ => 1) (0 + 1 ^ 2) 0 := by
  have h3 : ⌊((3 * 3 : Nat) : ℝ) * (1 / 3)⌋₊ = 3 := by
    have : ((3 * 3 : Nat) : ℝ) * (1 / 3) = ((3 : Nat) : ℝ) := by norm_num
    rw [this, Nat.floor_natCast]
  obtain ⟨S, e1, -, e2⟩ := (C75_closed_partial maternGen 3 (by norm_num) (1 / 3) (KernelObj.make ⟨.isotropy .F2 ⟨Flt.fin 1, Flt.fin 0, Flt.fin 0, true⟩, none, .rbf⟩)
    rfl rfl .null 0 rfl le_rfl 1 zero_le_one (List.range 9) draw).2 (by rw [h3]; norm_num) (by rw [h3]; norm_num) (List.Perm.refl _) (fun _ => 1)
    ⟨1, one_pos, rfl, fun _ => rfl⟩
  rw [h3] at e2
  exact ⟨S, e1, e2⟩

end MuyGPyS.Sampler
