import Verif.Props.Definite
import Verif.Props.Matern
import Verif.Spec.Reversion

/-!
# C69: far from the training data, predictions revert to the prior
-/

namespace MuyGPyS
open Py Matrix Topology
open Filter (Tendsto atTop Eventually eventually_gt_atTop eventually_atTop tendsto_neg_atTop_atBot tendsto_pow_atTop tendsto_id)

theorem mix_tendsto {ν : ℝ} (hν : 0 < ν) : Tendsto (fun d => Matern.mix ν (√(2 * ν) * d / 2)) atTop (𝓝 0) := by
  have hs : 0 < √(2 * ν) := by positivity
  have hb : Tendsto (fun d : ℝ => (√(2 * ν) * d / 2)⁻¹ * (Real.Gamma (ν + 1 / 2) / Real.Gamma ν)) atTop (𝓝 0) := by
    have h1 : Tendsto (fun d : ℝ => √(2 * ν) * d / 2) atTop atTop :=
      (tendsto_id.const_mul_atTop hs).atTop_div_const (by norm_num)
    have := (tendsto_inv_atTop_zero.comp h1).mul_const (Real.Gamma (ν + 1 / 2) / Real.Gamma ν)
    rwa [zero_mul] at this
  refine squeeze_zero' (Eventually.of_forall fun d => (Matern.mix_pos hν _).le) ?_ hb
  filter_upwards [eventually_gt_atTop 0] with d hd
  exact Matern.mix_le_half hν (by positivity)

/-- Every proper kernel decays. -/
theorem value_tendsto (k : KernelObj) (hp : k.Proper) :
    Tendsto (KFn.value maternGen ((k.smoothness.map (·.val)).getD none) k.fn) atTop (𝓝 0) := by
  have mat : ∀ (g : ℝ → ℝ) (ν : ℝ), 0 < ν → (∀ d, 0 < d → g d = Matern.mix ν (√(2 * ν) * d / 2)) → Tendsto g atTop (𝓝 0) := by
    intro g ν hν hg
    refine (mix_tendsto hν).congr' ?_
    filter_upwards [eventually_gt_atTop 0] with d hd
    exact (hg d hd).symm
  set s := (k.smoothness.map (·.val)).getD none with hs
  cases hf : k.fn with
  | rbf =>
    show Tendsto (fun d : ℝ => Real.exp (-d / 2)) atTop (𝓝 0)
    exact Real.tendsto_exp_atBot.comp (tendsto_neg_atTop_atBot.atBot_div_const (by norm_num))
  | m05 => exact mat _ (1 / 2) (by norm_num) fun d hd => (value_mix maternGen s hd.le).1
  | m15 => exact mat _ (3 / 2) (by norm_num) fun d hd => (value_mix maternGen s hd.le).2.1
  | m25 => exact mat _ (5 / 2) (by norm_num) fun d hd => (value_mix maternGen s hd.le).2.2
  | minf =>
    show Tendsto (fun d : ℝ => Real.exp (-(d ^ 2) / 2)) atTop (𝓝 0)
    refine Real.tendsto_exp_atBot.comp ((tendsto_neg_atTop_atBot.comp (tendsto_pow_atTop (by norm_num))).atBot_div_const (by norm_num))
  | gen =>
    obtain ⟨q, ν, h1, h2, h3⟩ := hp hf
    have hs' : s = Flt.fin ν := by rw [hs, h1, ← h2]; rfl
    rw [hs']
    exact mat _ ν h3 fun d hd => (maternGen_pos ν hd).trans (Matern.maternCorrelation_mix h3 hd)

/-- Distances in units of the length scales grow with the distances between the points. -/
theorem distOf_large (m : Metric) {f : Nat} (len : Fin f → ℝ) (hlen : ∀ c, 0 < len c) (T : ℝ) :
    ∃ ρ, ∀ q x : Fin f → ℝ, ρ < √(∑ c, (q c - x c) ^ 2) → T < distOf m (fun c => q c / len c) (fun c => x c / len c) := by
  set L := 1 + ∑ c, len c with hL
  have hL1 : 0 < L := by
    have : 0 ≤ ∑ c, len c := Finset.sum_nonneg fun c _ => (hlen c).le
    linarith
  have hle : ∀ c, len c ≤ L := fun c => by
    have := Finset.single_le_sum (f := len) (fun c _ => (hlen c).le) (Finset.mem_univ c)
    linarith
  set B := max T 1 with hB
  have hB1 : 1 ≤ B := le_max_right _ _
  refine ⟨L * B, fun q x h => ?_⟩
  have h0 : 0 < L * B := by positivity
  have h2 : (L * B) ^ 2 < ∑ c, (q c - x c) ^ 2 := by
    have := (Real.lt_sqrt h0.le).mp h
    exact this
  have h3 : ∑ c, (q c - x c) ^ 2 ≤ L ^ 2 * ∑ c, (q c / len c - x c / len c) ^ 2 := by
    rw [Finset.mul_sum]
    refine Finset.sum_le_sum fun c _ => ?_
    rw [← sub_div, div_pow, ← mul_div_assoc, le_div_iff₀ (pow_pos (hlen c) 2), mul_comm (L ^ 2)]
    refine mul_le_mul_of_nonneg_left ?_ (sq_nonneg _)
    exact pow_le_pow_left₀ (hlen c).le (hle c) 2
  have h4 : B ^ 2 < ∑ c, (q c / len c - x c / len c) ^ 2 := by
    have : L ^ 2 * B ^ 2 < L ^ 2 * ∑ c, (q c / len c - x c / len c) ^ 2 := by rw [← mul_pow]; linarith
    exact lt_of_mul_lt_mul_left this (sq_nonneg _)
  have hTB : T ≤ B := le_max_left _ _
  cases m with
  | F2 => rw [distOf_F2]; nlinarith
  | l2 =>
    rw [distOf_l2_sqrt]
    exact lt_of_le_of_lt hTB (Real.lt_sqrt_of_sq_lt h4)

/-- Covariances with far points are small. -/
theorem covFn_small (k : KernelObj) (hp : k.Proper) {f : Nat} (len : Fin f → ℝ) (hlen : ∀ c, 0 < len c) {ε : ℝ} (hε : 0 < ε) :
    ∃ ρ, ∀ q x : Fin f → ℝ, ρ < √(∑ c, (q c - x c) ^ 2) → |k.covFn maternGen len q x| < ε := by
  have h1 := (value_tendsto k hp).eventually (Metric.ball_mem_nhds 0 hε)
  obtain ⟨T, hT⟩ := eventually_atTop.mp h1
  obtain ⟨ρ, hρ⟩ := distOf_large k.deform.metric len hlen T
  refine ⟨ρ, fun q x h => ?_⟩
  have := hT _ (hρ q x h).le
  simp only [Real.dist_eq, sub_zero] at this
  exact this

/-- A fit noise has finitely many different covariances. -/
theorem Noise.finite_mats (ν : Noise) (n : Nat) : ∃ M, ∀ b, ν.Fits b n → ∀ p < b, ∃ p' < M, ν.mat n p = ν.mat n p' := by
  cases ν with
  | homoscedastic v => exact ⟨1, fun _ _ _ _ => ⟨0, one_pos, rfl⟩⟩
  | heteroscedastic v =>
    refine ⟨v.shape.headD 0, fun b hb p hp => ⟨p, ?_, rfl⟩⟩
    have : v.shape = [b, n] := hb
    rw [this]; exact hp
  | shear33 v => exact ⟨1, fun _ h _ _ => h.elim⟩
  | null => exact ⟨1, fun _ _ _ _ => ⟨0, one_pos, rfl⟩⟩

theorem dot_small {n : Nat} (k w : Fin n → ℝ) {δ : ℝ} (h : ∀ i, |k i| ≤ δ) : |k ⬝ᵥ w| ≤ δ * ∑ i, |w i| := by
  unfold dotProduct
  refine (Finset.abs_sum_le_sum_abs _ _).trans ?_
  rw [Finset.mul_sum]
  refine Finset.sum_le_sum fun i _ => ?_
  rw [abs_mul]
  exact mul_le_mul_of_nonneg_right (h i) (abs_nonneg _)

theorem quad_small {n : Nat} (k : Fin n → ℝ) (A : Matrix (Fin n) (Fin n) ℝ) {δ : ℝ} (h0 : 0 ≤ δ) (h : ∀ i, |k i| ≤ δ) :
    |k ⬝ᵥ (A *ᵥ k)| ≤ δ * (δ * ∑ i, ∑ j, |A i j|) := by
  refine (dot_small k _ h).trans (mul_le_mul_of_nonneg_left ?_ h0)
  rw [Finset.mul_sum]
  refine Finset.sum_le_sum fun i _ => ?_
  have := dot_small k (A i) h
  rwa [dotProduct_comm] at this

/-- For finitely many matrices `A a` and vectors `y a c`, vectors `k` with small entries give small `kᵀ A y` and `kᵀ A k`. -/
theorem forms_small {ι : Type} [Fintype ι] {n r : Nat} (A : ι → Matrix (Fin n) (Fin n) ℝ) (y : ι → Fin r → Fin n → ℝ) (s : ℝ)
    {ε : ℝ} (hε : 0 < ε) : ∃ δ, 0 < δ ∧ ∀ a (k : Fin n → ℝ), (∀ i, |k i| < δ) →
      (∀ c, |k ⬝ᵥ (A a *ᵥ y a c)| < ε) ∧ |s * (1 - k ⬝ᵥ (A a *ᵥ k)) - s| < ε := by
  let B1 : ι → ℝ := fun a => ∑ c, ∑ i, |(A a *ᵥ y a c) i|
  let B2 : ι → ℝ := fun a => ∑ i, ∑ j, |A a i j|
  have n1 : ∀ a, 0 ≤ B1 a := fun a => Finset.sum_nonneg fun _ _ => Finset.sum_nonneg fun _ _ => abs_nonneg _
  have n2 : ∀ a, 0 ≤ B2 a := fun a => Finset.sum_nonneg fun _ _ => Finset.sum_nonneg fun _ _ => abs_nonneg _
  have hs0 := abs_nonneg s
  have hterm : ∀ a, 0 ≤ B1 a + |s| * B2 a := fun a => add_nonneg (n1 a) (mul_nonneg hs0 (n2 a))
  obtain ⟨B, hB1, hBa⟩ : ∃ B : ℝ, 1 ≤ B ∧ ∀ a, B1 a + |s| * B2 a < B := by
    refine ⟨1 + ∑ a, (B1 a + |s| * B2 a), ?_, fun a => ?_⟩
    · have := Finset.sum_nonneg (s := Finset.univ) fun a _ => hterm a
      linarith
    · have : B1 a + |s| * B2 a ≤ ∑ a, (B1 a + |s| * B2 a) :=
        Finset.single_le_sum (f := fun a => B1 a + |s| * B2 a) (fun a _ => hterm a) (Finset.mem_univ a)
      linarith
  obtain ⟨δ, hδ0, hδ1, hδB⟩ : ∃ δ : ℝ, 0 < δ ∧ δ ≤ 1 ∧ δ * B ≤ ε := by
    refine ⟨min 1 (ε / B), lt_min one_pos (div_pos hε (by linarith)), min_le_left _ _, ?_⟩
    have := min_le_right 1 (ε / B)
    rwa [le_div_iff₀ (by linarith)] at this
  refine ⟨δ, hδ0, fun a k hk => ⟨fun c => ?_, ?_⟩⟩
  · refine lt_of_le_of_lt (dot_small _ _ fun i => (hk i).le) ?_
    have hone : ∑ i, |(A a *ᵥ y a c) i| ≤ B1 a :=
      Finset.single_le_sum (f := fun c => ∑ i, |(A a *ᵥ y a c) i|)
        (fun _ _ => Finset.sum_nonneg fun _ _ => abs_nonneg _) (Finset.mem_univ c)
    refine lt_of_le_of_lt (mul_le_mul_of_nonneg_left hone hδ0.le) (lt_of_lt_of_le (mul_lt_mul_of_pos_left ?_ hδ0) hδB)
    have := mul_nonneg hs0 (n2 a)
    have := hBa a
    linarith
  · have h1 := quad_small k (A a) hδ0.le fun i => (hk i).le
    set Z := k ⬝ᵥ (A a *ᵥ k)
    have e : s * (1 - Z) - s = -(s * Z) := by ring
    rw [e, abs_neg, abs_mul]
    have h2 : |Z| ≤ δ * B2 a := h1.trans (mul_le_mul_of_nonneg_left (by
      have := mul_le_mul_of_nonneg_right hδ1 (n2 a); rw [one_mul] at this; exact this) hδ0.le)
    calc |s| * |Z| ≤ |s| * (δ * B2 a) := mul_le_mul_of_nonneg_left h2 hs0
      _ = δ * (|s| * B2 a) := by ring
      _ < δ * B := mul_lt_mul_of_pos_left (by have := n1 a; have := hBa a; linarith) hδ0
      _ ≤ ε := hδB

/-- Far from all training points every neighbourhood gives a small mean, and a variance close to the scale. -/
theorem prior_bound (k : KernelObj) (hp : k.Proper) (ν : Noise) {f : Nat} (len : Fin f → ℝ) (hlen : ∀ c, 0 < len c) (X Y : Tensor ℝ)
    (N n r : Nat) (s : ℝ) {ε : ℝ} (hε : 0 < ε) :
    ∃ ρ, ∀ (m : Nat) (nn : Tensor Int) (p : Nat) (q : Fin f → ℝ), ν.Fits m n → p < m →
      (∀ j < n, pointOf N (nn.get [p, j]) < N) → (∀ i < N, ρ < √(∑ c, (q c - pt X f i c) ^ 2)) →
      (∀ c < r, |Spec.krigingMean (nbrCov maternGen k len X N n nn p + ν.mat n p) (nbrCross maternGen k len X N n nn p q)
        (nbrTargets Y N n nn p c)| < ε) ∧
      |s * Spec.krigingVar 1 (nbrCov maternGen k len X N n nn p + ν.mat n p) (nbrCross maternGen k len X N n nn p q) - s| < ε := by
  obtain ⟨M, hM⟩ := ν.finite_mats n
  obtain ⟨δ, hδ0, hδ⟩ := forms_small (ι := (Fin n → Fin N) × Fin M) (r := r)
    (fun a => ((Matrix.of fun i j => k.covFn maternGen len (pt X f (a.1 i)) (pt X f (a.1 j))) + ν.mat n a.2)⁻¹)
    (fun a c j => feature Y (a.1 j) c) s hε
  obtain ⟨ρ, hρ⟩ := covFn_small k hp len hlen hδ0
  refine ⟨ρ, fun m nn p q hfit hpm hv hq => ?_⟩
  obtain ⟨p', hp', he⟩ := hM m hfit p hpm
  have h := hδ (fun j => ⟨pointOf N (nn.get [p, j]), hv j j.2⟩, ⟨p', hp'⟩) (nbrCross maternGen k len X N n nn p q)
    fun i => hρ q _ (hq _ (hv i i.2))
  rw [he]
  exact ⟨fun c hc => h.1 ⟨c, hc⟩, h.2⟩

/-- A singular neighbourhood covariance makes `regress_any` fail. -/
theorem regress_singular (bessel : Flt → ℝ → ℝ) (R : Regressor) (hk : R.kernel.make = R.kernel)
    (Q X Y : Tensor ℝ) (idx nn : Tensor Int) (M N f b n : Nat) (len : Fin f → ℝ) (hlen : R.kernel.deform.HasLengths f len)
    (hQ : IsTable Q M f) (hX : IsTable X N f) (hY : Y.shape = [N]) (hrank : Q.shape.length = X.shape.length)
    (hi : idx.shape = [b]) (hnn : nn.shape = [b, n]) (hvi : AllValid M idx) (hv : AllValid N nn)
    (hν : R.gp.noise.Fits b n) (p : Nat) (hp : p < b)
    (hsing : (nbrCov bessel R.kernel len X N n nn p + R.gp.noise.mat n p).det = 0) :
    regressFromIndices bessel R idx nn Q X Y = .error .linAlg := by
  obtain ⟨K, C, Z, t1, t2, t3, t4, t5, t6, t7⟩ := tensorsFromIndices_ok bessel R hk Q X Y idx nn M N f 1 b n
    len hlen hQ hX (.inr ⟨hY, rfl⟩) hrank hi hnn hvi hv
  have t4' : Z.shape = [b, n] := by rw [t4, hY]; rfl
  obtain ⟨P, p1, p2, p3⟩ := Noise.perturb_cov R.gp.noise hν K t2
  have h := C24_singular_is_error b n P C Z p2 t3 (.inl t4') p hp (by rw [p3, t5 p hp]; exact hsing)
  have hm : R.gp.posteriorMean K C Z = .error .linAlg := by
    unfold MuyGPS.posteriorMean Noise.perturbFn
    simp only [p1, bind, Except.bind, h]
  unfold regressFromIndices
  simp only [t1, bind, Except.bind, hm]

/-- `regress_any` succeeds exactly if every test point's neighbourhood has a non-singular covariance; it then predicts by kriging. The neighbours are
those the index returns. -/
theorem regress_cases_nns (bessel : Flt → ℝ → ℝ) (R : Regressor) (hk : R.kernel.make = R.kernel)
    (hko : R.gp.kout = KernelObj.kout) (w : NNWrapper) (hw : w.Exact) (Q : Tensor ℝ)
    (m : Nat) (len : Fin w.f → ℝ) (hlen : R.kernel.deform.HasLengths w.f len)
    (hQ : Q.shape = [m, w.f]) (hm : 0 < m) (hk0 : 0 < w.nnCount)
    (hkN : w.nnCount ≤ w.N) (hν : R.gp.noise.Fits m w.nnCount) :
    ∃ (nn : Tensor Int) (D : Tensor ℝ), w.getNns Q = .ok (nn, D) ∧ nn.shape = [m, w.nnCount] ∧
      (∀ i < m, ∃ l : List Nat, rowList nn w.nnCount i = l.map Int.ofNat ∧
        Nearest (· < w.N) (fun j => w.dist (rowPt Q w.f i) (rowPt w.train w.f j)) w.nnCount l) ∧
      (∀ p < m, ∀ j < w.nnCount, pointOf w.N (nn.get [p, j]) < w.N) ∧
      ∀ Y : Tensor ℝ, Y.shape = [w.N] →
      (((∃ p < m, (nbrCov bessel R.kernel len w.train w.N w.nnCount nn p + R.gp.noise.mat w.nnCount p).det = 0) ∧
        regressAny bessel R w Q w.train Y = .error .linAlg) ∨
       (∀ p < m, (nbrCov bessel R.kernel len w.train w.N w.nnCount nn p + R.gp.noise.mat w.nnCount p).det ≠ 0) ∧
        ∃ μ v, regressAny bessel R w Q w.train Y = .ok (μ, v) ∧ μ.shape = [m] ∧ v.shape = [m] ∧
          ∀ p < m,
            μ.get [p] = Spec.krigingMean
              (nbrCov bessel R.kernel len w.train w.N w.nnCount nn p + R.gp.noise.mat w.nnCount p)
              (nbrCross bessel R.kernel len w.train w.N w.nnCount nn p (rowPt Q w.f p))
              (nbrTargets Y w.N w.nnCount nn p 0) ∧
            v.get [p] = R.gp.boundScale * Spec.krigingVar 1
              (nbrCov bessel R.kernel len w.train w.N w.nnCount nn p + R.gp.noise.mat w.nnCount p)
              (nbrCross bessel R.kernel len w.train w.N w.nnCount nn p (rowPt Q w.f p))) := by
  obtain ⟨I, D, h1, h2, h3, h4, h5⟩ := C41_plain w hw Q m hQ hm hk0 hkN
  have hin : ∀ i < m, ∀ j < w.nnCount, ∃ x : Nat, I.get [i, j] = x ∧ x < w.N := fun i hi j hj => by
    obtain ⟨l, e1, e2⟩ := h4 i hi
    obtain ⟨x, x1, x2⟩ := rowList_get e1 hj
    exact ⟨x, x2, e2.mem x (List.mem_of_getElem? x1)⟩
  have hv : AllValid w.N I := valid_of_rows h2 hin
  refine ⟨I, D, h1, h2, h4, fun p hp j hj => ?_, fun Y hY => ?_⟩
  · obtain ⟨x, x1, x2⟩ := hin p hp j hj
    rw [x1, pointOf_nat]; exact x2
  have hrun : regressAny bessel R w Q w.train Y = regressFromIndices bessel R (arange m) I Q w.train Y := by
    unfold regressAny
    rw [hQ]
    simp only [h1, bind, Except.bind]
  rw [hrun]
  by_cases hs : ∃ p < m, (nbrCov bessel R.kernel len w.train w.N w.nnCount I p + R.gp.noise.mat w.nnCount p).det = 0
  · obtain ⟨p, hp, hd⟩ := hs
    exact .inl ⟨⟨p, hp, hd⟩, regress_singular bessel R hk Q w.train Y (arange m) I m w.N w.f m w.nnCount len hlen (.inl hQ) (.inl hw.1)
      hY (by rw [hQ, hw.1]; rfl) rfl h2 (arange_valid m) hv hν p hp hd⟩
  · push Not at hs
    obtain ⟨μ, v, r1, r2, r3, r4⟩ := C54_regress bessel R hk hko Q w.train Y (arange m) I m w.N w.f m w.nnCount
      len hlen (.inl hQ) (.inl hw.1) hY (by rw [hQ, hw.1]; rfl) rfl h2 (arange_valid m) hv hν hs
    have hp : ∀ p, pt Q w.f (pointOf m ((arange m).get [p])) = rowPt Q w.f p := by
      intro p
      rw [arange_get, pointOf_nat]
      funext c
      simp only [pt, feature, hQ, rowPt]
    refine .inr ⟨hs, μ, v, r1, r2, r3, fun p hpm => ?_⟩
    have := r4 p hpm
    rw [hp] at this
    exact this

/-- `regress_any` succeeds exactly if every test point's neighbourhood has a non-singular covariance; it then predicts by kriging. The neighbours do not
depend on the responses. -/
theorem regress_cases_uniform (bessel : Flt → ℝ → ℝ) (R : Regressor) (hk : R.kernel.make = R.kernel)
    (hko : R.gp.kout = KernelObj.kout) (w : NNWrapper) (hw : w.Exact) (Q : Tensor ℝ)
    (m : Nat) (len : Fin w.f → ℝ) (hlen : R.kernel.deform.HasLengths w.f len)
    (hQ : Q.shape = [m, w.f]) (hm : 0 < m) (hk0 : 0 < w.nnCount)
    (hkN : w.nnCount ≤ w.N) (hν : R.gp.noise.Fits m w.nnCount) :
    ∃ nn : Tensor Int,
      (∀ i < m, ∃ l : List Nat, rowList nn w.nnCount i = l.map Int.ofNat ∧
        Nearest (· < w.N) (fun j => w.dist (rowPt Q w.f i) (rowPt w.train w.f j)) w.nnCount l) ∧
      (∀ p < m, ∀ j < w.nnCount, pointOf w.N (nn.get [p, j]) < w.N) ∧
      ∀ Y : Tensor ℝ, Y.shape = [w.N] →
      (((∃ p < m, (nbrCov bessel R.kernel len w.train w.N w.nnCount nn p + R.gp.noise.mat w.nnCount p).det = 0) ∧
        regressAny bessel R w Q w.train Y = .error .linAlg) ∨
       (∀ p < m, (nbrCov bessel R.kernel len w.train w.N w.nnCount nn p + R.gp.noise.mat w.nnCount p).det ≠ 0) ∧
        ∃ μ v, regressAny bessel R w Q w.train Y = .ok (μ, v) ∧ μ.shape = [m] ∧ v.shape = [m] ∧
          ∀ p < m,
            μ.get [p] = Spec.krigingMean
              (nbrCov bessel R.kernel len w.train w.N w.nnCount nn p + R.gp.noise.mat w.nnCount p)
              (nbrCross bessel R.kernel len w.train w.N w.nnCount nn p (rowPt Q w.f p))
              (nbrTargets Y w.N w.nnCount nn p 0) ∧
            v.get [p] = R.gp.boundScale * Spec.krigingVar 1
              (nbrCov bessel R.kernel len w.train w.N w.nnCount nn p + R.gp.noise.mat w.nnCount p)
              (nbrCross bessel R.kernel len w.train w.N w.nnCount nn p (rowPt Q w.f p))) := by
  obtain ⟨nn, D, -, -, h⟩ := regress_cases_nns bessel R hk hko w hw Q m len hlen hQ hm hk0 hkN hν
  exact ⟨nn, h⟩

/-- `regress_any` succeeds exactly if every test point's neighbourhood has a non-singular covariance; it then predicts by kriging. -/
theorem regress_cases (bessel : Flt → ℝ → ℝ) (R : Regressor) (hk : R.kernel.make = R.kernel)
    (hko : R.gp.kout = KernelObj.kout) (w : NNWrapper) (hw : w.Exact) (Q Y : Tensor ℝ)
    (m : Nat) (len : Fin w.f → ℝ) (hlen : R.kernel.deform.HasLengths w.f len)
    (hQ : Q.shape = [m, w.f]) (hY : Y.shape = [w.N]) (hm : 0 < m) (hk0 : 0 < w.nnCount)
    (hkN : w.nnCount ≤ w.N) (hν : R.gp.noise.Fits m w.nnCount) :
    ∃ nn : Tensor Int,
      (∀ i < m, ∃ l : List Nat, rowList nn w.nnCount i = l.map Int.ofNat ∧
        Nearest (· < w.N) (fun j => w.dist (rowPt Q w.f i) (rowPt w.train w.f j)) w.nnCount l) ∧
      (∀ p < m, ∀ j < w.nnCount, pointOf w.N (nn.get [p, j]) < w.N) ∧
      (((∃ p < m, (nbrCov bessel R.kernel len w.train w.N w.nnCount nn p + R.gp.noise.mat w.nnCount p).det = 0) ∧
        regressAny bessel R w Q w.train Y = .error .linAlg) ∨
       (∀ p < m, (nbrCov bessel R.kernel len w.train w.N w.nnCount nn p + R.gp.noise.mat w.nnCount p).det ≠ 0) ∧
        ∃ μ v, regressAny bessel R w Q w.train Y = .ok (μ, v) ∧ μ.shape = [m] ∧ v.shape = [m] ∧
          ∀ p < m,
            μ.get [p] = Spec.krigingMean
              (nbrCov bessel R.kernel len w.train w.N w.nnCount nn p + R.gp.noise.mat w.nnCount p)
              (nbrCross bessel R.kernel len w.train w.N w.nnCount nn p (rowPt Q w.f p))
              (nbrTargets Y w.N w.nnCount nn p 0) ∧
            v.get [p] = R.gp.boundScale * Spec.krigingVar 1
              (nbrCov bessel R.kernel len w.train w.N w.nnCount nn p + R.gp.noise.mat w.nnCount p)
              (nbrCross bessel R.kernel len w.train w.N w.nnCount nn p (rowPt Q w.f p))) := by
  obtain ⟨nn, h1, h2, h3⟩ := regress_cases_uniform bessel R hk hko w hw Q m len hlen hQ hm hk0 hkN hν
  exact ⟨nn, h1, h2, h3 Y hY⟩

/-- **C69**: for every kernel (RBF, every Matérn kernel with a positive smoothness), length scales, noise, scale, training data and
tolerance there is a distance beyond which, whatever the test points and however many, every prediction `regress_any` makes
farther than that from all training points is the prior: mean zero and variance equal to the variance scale, within the tolerance. -/
theorem C69_prior (R : Regressor) (hk : R.kernel.make = R.kernel) (hko : R.gp.kout = KernelObj.kout) (hp : R.kernel.Proper)
    (w : NNWrapper) (hw : w.Exact) (Y : Tensor ℝ) (len : Fin w.f → ℝ) (hlen : R.kernel.deform.HasLengths w.f len)
    (hY : Y.shape = [w.N]) (hk0 : 0 < w.nnCount) (hkN : w.nnCount ≤ w.N) (ε : ℝ) (hε : 0 < ε) :
    ∃ ρ, ∀ (m : Nat) (Q μ v : Tensor ℝ), 0 < m → Q.shape = [m, w.f] → R.gp.noise.Fits m w.nnCount →
      regressAny maternGen R w Q w.train Y = .ok (μ, v) →
      ∀ p < m, FarFrom w.train w.N w.f ρ (rowPt Q w.f p) → |μ.get [p]| < ε ∧ |v.get [p] - R.gp.boundScale| < ε := by
  obtain ⟨ρ, hρ⟩ := prior_bound R.kernel hp R.gp.noise len (hasLengths_pos hlen) w.train Y w.N w.nnCount 1 R.gp.boundScale hε
  refine ⟨ρ, fun m Q μ v hm hQ hν hrun p hpm hfar => ?_⟩
  obtain ⟨nn, -, hin, h⟩ := regress_cases maternGen R hk hko w hw Q Y m len hlen hQ hY hm hk0 hkN hν
  rcases h with ⟨-, h⟩ | ⟨-, μ', v', r1, -, -, r4⟩
  · rw [h] at hrun; cases hrun
  · rw [r1] at hrun
    cases hrun
    have hrow : ∀ x, pt w.train w.f x = rowPt w.train w.f x := fun x => by
      funext c; simp only [pt, feature, hw.1, rowPt]
    have := hρ m nn p (rowPt Q w.f p) hν hpm (hin p hpm) fun i hi => by rw [hrow]; exact hfar i hi
    rw [(r4 p hpm).1, (r4 p hpm).2]
    exact ⟨this.1 0 one_pos, this.2⟩

/-- **C69**, with a kernel that suits its metric and sufficient noise (`C54_regress_always`): the predictions exist, and the variance
approaches the scale from below. -/
theorem C69_prior_always (R : Regressor) (hk : R.kernel.make = R.kernel) (hko : R.gp.kout = KernelObj.kout)
    (hsuit : R.kernel.fn.Suits R.kernel.deform.metric) (hs : 0 < R.gp.boundScale)
    (w : NNWrapper) (hw : w.Exact) (Y : Tensor ℝ) (len : Fin w.f → ℝ) (hlen : R.kernel.deform.HasLengths w.f len)
    (hY : Y.shape = [w.N]) (hk0 : 0 < w.nnCount) (hkN : w.nnCount ≤ w.N) (ε : ℝ) (hε : 0 < ε) :
    ∃ ρ, ∀ (m : Nat) (Q : Tensor ℝ), 0 < m → Q.shape = [m, w.f] → R.gp.noise.Fits m w.nnCount →
      R.gp.noise.Suffices m w.nnCount (DistinctRows w.train w.N w.f) →
      ∃ μ v, regressAny maternGen R w Q w.train Y = .ok (μ, v) ∧ μ.shape = [m] ∧ v.shape = [m] ∧
        ∀ p < m, v.get [p] < R.gp.boundScale ∧
          (FarFrom w.train w.N w.f ρ (rowPt Q w.f p) → |μ.get [p]| < ε ∧ R.gp.boundScale - ε < v.get [p]) := by
  have hp : R.kernel.Proper := fun h => by rw [h] at hsuit; exact hsuit.elim
  obtain ⟨ρ, hρ⟩ := C69_prior R hk hko hp w hw Y len hlen hY hk0 hkN ε hε
  refine ⟨ρ, fun m Q hm hQ hν hreg => ?_⟩
  obtain ⟨nn, μ, v, -, h2, h3, h4, h5⟩ := C54_regress_always maternGen R hk hko hsuit w hw Q Y m len hlen hQ hY hm hk0 hkN hν hreg
  refine ⟨μ, v, h2, h3, h4, fun p hpm => ⟨((h5 p hpm).2.2 hs).2.1, fun hfar => ?_⟩⟩
  obtain ⟨a, b⟩ := hρ m Q μ v hm hQ hν h2 p hpm hfar
  exact ⟨a, by have := (abs_lt.mp b).1; linarith⟩

open Classical in
/-- With the general Matérn kernel and homoscedastic noise above its deficit, the covariance of different neighbours is not singular. -/
theorem gen_nbr_det (R : Regressor) (hg : R.kernel.fn = .gen) (hm2 : R.kernel.deform.metric = .l2) (q : Param) (ν : ℝ) (hν0 : 0 < ν)
    (hsm : R.kernel.smoothness = some q) (hq : q.val = Flt.fin ν) (τ : ℝ) (hnoise : R.gp.noise = .homoscedastic τ) (hτ : deficit ν < τ)
    {f : Nat} (len : Fin f → ℝ) (hlen : ∀ c, 0 < len c) (X : Tensor ℝ) (N n : Nat) (nn : Tensor Int) (p : Nat) (l : List Nat)
    (e1 : rowList nn n p = l.map Int.ofNat) (hnd : l.Nodup) (hmem : ∀ i ∈ l, i < N) (hd : DistinctRows X N f) :
    (nbrCov maternGen R.kernel len X N n nn p + R.gp.noise.mat n p).det ≠ 0 := by
  have hs : (R.kernel.smoothness.map (·.val)).getD none = Flt.fin ν := by rw [hsm, ← hq]; rfl
  rw [hnoise, nbrCov_value, hs, hg, hm2]
  refine Kriging.det_ne_zero (gen_definite (m := 1) hν0 _ (fun i => ?_) (by simpa using hτ))
  have hinj := scaled_injective hlen (distinct_of_nodup e1 hnd hmem hd)
  rw [Finset.card_le_one]
  intro a ha b hb
  simp only [Finset.mem_filter, Finset.mem_univ, true_and] at ha hb
  exact hinj (ha.symm.trans hb)

open Classical in
/-- **C69** for the general Matérn kernel: with homoscedastic noise above the deficit of the implementation at distance zero (C62) —
times the neighbour count, if training points are repeated — predictions exist for all test points, and revert to the prior. -/
theorem C69_prior_matern (R : Regressor) (hk : R.kernel.make = R.kernel) (hko : R.gp.kout = KernelObj.kout)
    (hg : R.kernel.fn = .gen) (hm2 : R.kernel.deform.metric = .l2) (q : Param) (ν : ℝ) (hν0 : 0 < ν)
    (hsm : R.kernel.smoothness = some q) (hq : q.val = Flt.fin ν) (τ : ℝ) (hnoise : R.gp.noise = .homoscedastic τ)
    (w : NNWrapper) (hτ : w.nnCount * deficit ν < τ ∨ (DistinctRows w.train w.N w.f ∧ deficit ν < τ))
    (hw : w.Exact) (Y : Tensor ℝ) (len : Fin w.f → ℝ) (hlen : R.kernel.deform.HasLengths w.f len)
    (hY : Y.shape = [w.N]) (hk0 : 0 < w.nnCount) (hkN : w.nnCount ≤ w.N) (ε : ℝ) (hε : 0 < ε) :
    ∃ ρ, ∀ (m : Nat) (Q : Tensor ℝ), 0 < m → Q.shape = [m, w.f] →
      ∃ μ v, regressAny maternGen R w Q w.train Y = .ok (μ, v) ∧ μ.shape = [m] ∧ v.shape = [m] ∧
        ∀ p < m, FarFrom w.train w.N w.f ρ (rowPt Q w.f p) → |μ.get [p]| < ε ∧ |v.get [p] - R.gp.boundScale| < ε := by
  obtain ⟨ρ, hρ⟩ := C69_prior R hk hko (fun _ => ⟨q, ν, hsm, hq, hν0⟩) w hw Y len hlen hY hk0 hkN ε hε
  refine ⟨ρ, fun m Q hm hQ => ?_⟩
  have hfit : R.gp.noise.Fits m w.nnCount := by rw [hnoise]; trivial
  obtain ⟨nn, h1, hin, h⟩ := regress_cases maternGen R hk hko w hw Q Y m len hlen hQ hY hm hk0 hkN hfit
  have hpos := hasLengths_pos hlen
  have hs : (R.kernel.smoothness.map (·.val)).getD none = Flt.fin ν := by rw [hsm, ← hq]; rfl
  rcases h with ⟨⟨p, hp, hd⟩, -⟩ | ⟨-, μ, v, r1, r2, r3, -⟩
  · exfalso
    rcases hτ with hτ | ⟨hd', hτ⟩
    · rw [hnoise, nbrCov_value, hs, hg, hm2] at hd
      refine Kriging.det_ne_zero ?_ hd
      refine gen_definite (m := w.nnCount) hν0 _ (fun i => ?_) hτ
      exact (Finset.card_filter_le _ _).trans (by simp)
    · obtain ⟨l, e1, e2⟩ := h1 p hp
      exact gen_nbr_det R hg hm2 q ν hν0 hsm hq τ hnoise hτ len hpos w.train w.N w.nnCount nn p l e1 e2.nodup e2.mem hd' hd
  · exact ⟨μ, v, r1, r2, r3, fun p hp hfar => hρ m Q μ v hm hQ hfit r1 p hp hfar⟩

end MuyGPyS
