import Verif.Props.Kernel
import Verif.Props.Posterior
import Verif.Spec.Covariance
import Verif.Lemmas.GaussianStrict
import Verif.Lemmas.Bessel

/-!
# C21: neighbourhood covariances are symmetric positive (semi)definite
-/

namespace MuyGPyS
open Py Py.Tensor Matrix

theorem fin_toReal (x : ℝ) : (Flt.fin x).toReal = x := by simp [Flt.toReal, Flt.fin]

theorem distOf_shift (m : Metric) {f : Nat} (x y : Fin f → ℝ) :
    distOf m (fun c => x c - y c) 0 = distOf m x y := by
  cases m with
  | F2 => rw [distOf_F2, distOf_F2]; simp
  | l2 =>
    rw [distOf_l2, distOf_l2, EuclideanSpace.dist_eq, EuclideanSpace.dist_eq]
    simp [Real.dist_eq]

theorem distOf_div (m : Metric) {f : Nat} (x y : Fin f → ℝ) {l : ℝ} (hl : 0 < l) :
    m.scaleBy (distOf m x y) l = distOf m (fun c => x c / l) (fun c => y c / l) := by
  cases m with
  | F2 =>
    rw [distOf_F2, distOf_F2]
    simp only [Metric.scaleBy]
    rw [Finset.sum_div]
    exact Finset.sum_congr rfl fun c _ => by rw [← sub_div, div_pow]
  | l2 =>
    rw [distOf_l2, distOf_l2, EuclideanSpace.dist_eq, EuclideanSpace.dist_eq]
    simp only [Metric.scaleBy]
    have : ∑ c, dist ((WithLp.toLp 2 fun c => x c / l : EuclideanSpace ℝ (Fin f)) c)
        ((WithLp.toLp 2 fun c => y c / l : EuclideanSpace ℝ (Fin f)) c) ^ 2
        = (∑ c, dist ((WithLp.toLp 2 x : EuclideanSpace ℝ (Fin f)) c)
          ((WithLp.toLp 2 y : EuclideanSpace ℝ (Fin f)) c) ^ 2) / l ^ 2 := by
      rw [Finset.sum_div]
      refine Finset.sum_congr rfl fun c _ => ?_
      simp only [Real.dist_eq, sq_abs]
      rw [← sub_div, div_pow]
    rw [this, Real.sqrt_div' _ (sq_nonneg l), Real.sqrt_sq hl.le]

/-- Applying a deformation without overrides to a tensor whose innermost vectors are differences:
each entry becomes the distance between the two points measured in units of the length scales. -/
theorem deform_entries (df : Deform) (s : List Nat) (f : Nat) (len : Fin f → ℝ) (hlen : df.HasLengths f len)
    (P : Tensor ℝ) (hP : P.shape = s ++ [f]) :
    ∃ D T, (match df.kind with | .isotropy => df.metric.apply P | _ => .ok P) = .ok D ∧
      df.call D (df.filter []).1 = .ok T ∧ T.shape = s ∧
      ∀ k, T.flat k = distOf df.metric (fun c : Fin f => P.flat (k * f + c) / len c) 0 := by
  cases df with
  | isotropy m p =>
    obtain ⟨l, hl, hp, hc⟩ := hlen
    obtain ⟨S, h1, h2, h3⟩ := C17_any_rank m s f P hP
    refine ⟨S, S.map fun x => m.scaleBy x l, h1, ?_, h2, fun k => ?_⟩
    · simp only [Deform.call, Deform.filter, filterScalar_get]
      simp only [inForce, get?_nil, Option.getD_none, hp, fin_toReal]
    · show m.scaleBy (S.flat k) l = _
      rw [h3 k, distOf_div m _ _ hl]
      simp only [Pi.zero_apply, zero_div, hc]
      rfl
  | difference m p =>
    obtain ⟨l, hl, hp, hc⟩ := hlen
    obtain ⟨S, h1, h2, h3⟩ := C17_any_rank m s f (P.map fun x => x / l) hP
    refine ⟨P, S, rfl, ?_, h2, fun k => ?_⟩
    · simp only [Deform.call, Deform.filter, filterScalar_get]
      simp only [inForce, get?_nil, Option.getD_none, hp, fin_toReal, h1]
    · rw [h3 k]
      simp only [hc]
      rfl
  | anisotropy m ps =>
    obtain ⟨rfl, hc⟩ := hlen
    have hv : aniValues ps [] = ps.map (fun q => q.val) := by
      simp [aniValues, Dict.has, namedFrom_vals]
    obtain ⟨T, h1, h2, h3⟩ := C11_actual m ps s P hP [] (by rw [hv]; simp)
    refine ⟨P, T, rfl, h1, h2, fun k => ?_⟩
    rw [h3 k, hv]
    congr 1
    funext c
    congr 1
    have := (hc c).2 ps[(c : Nat)] (List.getElem?_eq_getElem c.2)
    simp [List.getD_eq_getElem?_getD, List.getElem?_map, List.getElem?_eq_getElem c.2, this, fin_toReal]

/-- The coordinates of a point in units of the length scales. -/
noncomputable def scaledPoint (X : Tensor ℝ) (N f : Nat) (len : Fin f → ℝ) (i : Int) : Fin f → ℝ :=
  fun c => feature X (pointOf N i) c / len c

/-- The scaled pairwise distances of a model. -/
theorem pairwise_entries (df : Deform) (X : Tensor ℝ) (nn : Tensor Int) (N f b n : Nat)
    (len : Fin f → ℝ) (hlen : df.HasLengths f len) (hX : IsTable X N f) (hnn : nn.shape = [b, n])
    (hv : AllValid N nn) :
    ∃ D T, df.pairwise X nn = .ok D ∧ df.call D (df.filter []).1 = .ok T ∧ T.shape = [b, n, n] ∧
      ∀ i j k, i < b → j < n → k < n → T.get [i, j, k] =
        distOf df.metric (scaledPoint X N f len (nn.get [i, j])) (scaledPoint X N f len (nn.get [i, k])) := by
  obtain ⟨P, h1, h2, h3⟩ := C15_pairwise X nn N f b n hX hnn hv
  obtain ⟨D, T, e1, e2, e3, e4⟩ := deform_entries df [b, n, n] f len hlen P h2
  refine ⟨D, T, ?_, e2, e3, fun i j k hi hj hk => ?_⟩
  · unfold Deform.pairwise defPairwise
    rw [h1]
    simp only [bind, Except.bind]
    cases df <;> exact e1
  · rw [get3 T e3, e4, ← distOf_shift df.metric (scaledPoint X N f len (nn.get [i, j]))
      (scaledPoint X N f len (nn.get [i, k]))]
    congr 1
    funext c
    unfold scaledPoint
    rw [← sub_div, ← h3 i j k c hi hj hk c.2, get4 P h2]
    congr 2
    ring

/-- The scaled crosswise distances of a model. -/
theorem crosswise_entries (df : Deform) (Q X : Tensor ℝ) (idx nn : Tensor Int) (N M f b n : Nat)
    (len : Fin f → ℝ) (hlen : df.HasLengths f len) (hQ : IsTable Q N f) (hX : IsTable X M f)
    (hrank : Q.shape.length = X.shape.length) (hi : idx.shape = [b]) (hnn : nn.shape = [b, n])
    (hvi : AllValid N idx) (hvn : AllValid M nn) :
    ∃ D T, df.crosswise Q X idx nn = .ok D ∧ df.call D (df.filter []).1 = .ok T ∧ T.shape = [b, n] ∧
      ∀ i j, i < b → j < n → T.get [i, j] =
        distOf df.metric (scaledPoint Q N f len (idx.get [i])) (scaledPoint X M f len (nn.get [i, j])) := by
  obtain ⟨P, h1, h2, h3⟩ := C14_crosswise Q X idx nn N M f b n hQ hX hrank hi hnn hvi hvn
  obtain ⟨D, T, e1, e2, e3, e4⟩ := deform_entries df [b, n] f len hlen P h2
  refine ⟨D, T, ?_, e2, e3, fun i j hib hjn => ?_⟩
  · unfold Deform.crosswise defCrosswise
    rw [h1]
    simp only [bind, Except.bind]
    cases df <;> exact e1
  · rw [get2 T e3, e4, ← distOf_shift df.metric (scaledPoint Q N f len (idx.get [i]))
      (scaledPoint X M f len (nn.get [i, j]))]
    congr 1
    funext c
    unfold scaledPoint
    rw [← sub_div, ← h3 i j c hib hjn c.2, get3 P h2]
    congr 2
    ring

theorem call_nil (b : Flt → ℝ → ℝ) (k : KernelObj) {D T : Tensor ℝ}
    (h : k.deform.call D (k.deform.filter []).1 = .ok T) :
    k.make.call b D [] = .ok (T.map (KFn.value b (k.make.smoothInForce []) k.make.fn)) := by
  rw [call_eq b _ (make_wellBound k) D [] (fun a ha => by simp at ha)]
  have : k.make.deform = k.deform := rfl
  rw [this, h]

theorem distOf_comm (m : Metric) {f : Nat} (x y : Fin f → ℝ) : distOf m x y = distOf m y x := by
  cases m with
  | F2 => rw [distOf_F2, distOf_F2]; exact Finset.sum_congr rfl fun c _ => by ring
  | l2 => exact (C17_metrics x y y).2.2.2.1

theorem distOf_self (m : Metric) {f : Nat} (x : Fin f → ℝ) : distOf m x x = 0 := by
  cases m with
  | F2 => rw [distOf_F2]; simp
  | l2 => exact (C17_metrics x x x).2.2.1.mpr rfl

/-- C21: for every kernel, deformation and data, every neighbourhood kernel matrix is symmetric; for
RBF and the closed-form Matérn kernels it has unit diagonal. -/
theorem C21_symmetric_unit_diagonal (b : Flt → ℝ → ℝ) (k : KernelObj) (X : Tensor ℝ) (nn : Tensor Int)
    (N f B n : Nat) (len : Fin f → ℝ) (hlen : k.deform.HasLengths f len) (hX : IsTable X N f)
    (hnn : nn.shape = [B, n]) (hv : AllValid N nn) :
    ∃ D K, k.deform.pairwise X nn = .ok D ∧ k.make.call b D [] = .ok K ∧ K.shape = [B, n, n] ∧
      ∀ p < B, (Spec.cov n K p).transpose = Spec.cov n K p ∧
        (k.make.fn.closed → ∀ i, Spec.cov n K p i i = 1) := by
  obtain ⟨D, T, h1, h2, h3, h4⟩ := pairwise_entries k.deform X nn N f B n len hlen hX hnn hv
  refine ⟨D, _, h1, call_nil b k h2, h3, fun p hp => ⟨?_, fun hcl i => ?_⟩⟩
  · ext i j
    simp only [transpose_apply, Spec.cov, map_get]
    rw [h4 p j i hp j.2 i.2, h4 p i j hp i.2 j.2, distOf_comm]
  · simp only [Spec.cov, map_get]
    rw [h4 p i i hp i.2 i.2, distOf_self, value_zero _ _ _ hcl]

theorem distOf_l2_sqrt {f : Nat} (x y : Fin f → ℝ) : distOf .l2 x y = √(∑ c, (x c - y c) ^ 2) := by
  rw [← distOf_F2, (C17_metrics x y y).1, Real.sqrt_sq (C17_metrics x y y).2.1]

/-- The closed forms as values of the mixture. -/
theorem value_mix (b : Flt → ℝ → ℝ) (s : Flt) {d : ℝ} (hd : 0 ≤ d) :
    KFn.value b s .m05 d = Matern.mix (1 / 2) (√(2 * (1 / 2)) * d / 2) ∧
    KFn.value b s .m15 d = Matern.mix (3 / 2) (√(2 * (3 / 2)) * d / 2) ∧
    KFn.value b s .m25 d = Matern.mix (5 / 2) (√(2 * (5 / 2)) * d / 2) := by
  have e1 : (2:ℝ) * (1 / 2) = 1 := by norm_num
  have e3 : (2:ℝ) * (3 / 2) = 3 := by norm_num
  have e5 : (2:ℝ) * (5 / 2) = 5 := by norm_num
  rw [e1, e3, e5, Matern.mix_half (by positivity), Matern.mix_three_half (by positivity), Matern.mix_five_half (by positivity),
    Real.sqrt_one]
  have c1 : 2 * (1 * d / 2) = d := by ring
  have c3 : 2 * (√3 * d / 2) = d * √3 := by ring
  have c5 : 2 * (√5 * d / 2) = d * √5 := by ring
  rw [c1, c3, c5]
  exact ⟨rfl, rfl, rfl⟩

/-- Points scaled by a number. -/
theorem mix_dist {ν l : ℝ} (hl : 0 ≤ l) {f : Nat} (x y : Fin f → ℝ) :
    Matern.mix ν (l * distOf .l2 x y / 2) = Matern.mix ν (√(∑ c, (l * x c - l * y c) ^ 2) / 2) := by
  rw [distOf_l2_sqrt]
  congr 2
  have : ∑ c, (l * x c - l * y c) ^ 2 = l ^ 2 * ∑ c, (x c - y c) ^ 2 := by
    rw [Finset.mul_sum]; exact Finset.sum_congr rfl fun c _ => by ring
  rw [this, Real.sqrt_mul (sq_nonneg _), Real.sqrt_sq hl]

theorem gauss_value (b : Flt → ℝ → ℝ) (s : Flt) {f : Nat} (x y : Fin f → ℝ) :
    KFn.value b s .rbf (distOf .F2 x y) = Real.exp (-(1 / 2 * ∑ c, (x c - y c) ^ 2)) ∧
    KFn.value b s .minf (distOf .l2 x y) = Real.exp (-(1 / 2 * ∑ c, (x c - y c) ^ 2)) := by
  constructor
  · simp only [KFn.value]; rw [distOf_F2]; congr 1; ring
  · simp only [KFn.value]; rw [← (C17_metrics x y y).1, distOf_F2]; congr 1; ring

/-- The kernel matrix of any points is positive semidefinite, and positive definite if the points are different. -/
theorem value_definite (b : Flt → ℝ → ℝ) (s : Flt) (fn : KFn) (m : Metric) (h : fn.Suits m) {n f : Nat} (x : Fin n → Fin f → ℝ) :
    (Matrix.of fun i j => KFn.value b s fn (distOf m (x i) (x j))).PosSemidef ∧
    (Function.Injective x → (Matrix.of fun i j => KFn.value b s fn (distOf m (x i) (x j))).PosDef) := by
  have hinj : ∀ l : ℝ, 0 < l → Function.Injective x → Function.Injective fun i c => l * x i c := by
    intro l hl hx i j hij
    apply hx
    funext c
    exact mul_left_cancel₀ hl.ne' (congrFun hij c)
  have hmat : ∀ ν : ℝ, 0 < ν → (∀ d, 0 ≤ d → KFn.value b s fn d = Matern.mix ν (√(2 * ν) * d / 2)) → m = .l2 →
      (Matrix.of fun i j => KFn.value b s fn (distOf m (x i) (x j))).PosSemidef ∧
      (Function.Injective x → (Matrix.of fun i j => KFn.value b s fn (distOf m (x i) (x j))).PosDef) := by
    rintro ν hν hval rfl
    have hl : 0 < √(2 * ν) := by positivity
    have e : (Matrix.of fun i j => KFn.value b s fn (distOf .l2 (x i) (x j))) =
        Matrix.of fun i j => Matern.mix ν (√(∑ c, (√(2 * ν) * x i c - √(2 * ν) * x j c) ^ 2) / 2) := by
      ext i j
      simp only [of_apply]
      rw [hval _ (C17_metrics (x i) (x j) (x j)).2.1, mix_dist hl.le]
    rw [e]
    exact ⟨Matern.mix_psd hν fun i c => √(2 * ν) * x i c, fun hx => Matern.mix_posdef hν _ (hinj _ hl hx)⟩
  cases fn with
  | gen => exact h.elim
  | rbf =>
    obtain rfl : m = .F2 := h
    simp only [(gauss_value b s _ _).1]
    exact ⟨gaussian_psd x (1 / 2) (by norm_num), fun hx => gaussian_posdef x hx (by norm_num)⟩
  | minf =>
    obtain rfl : m = .l2 := h
    simp only [(gauss_value b s _ _).2]
    exact ⟨gaussian_psd x (1 / 2) (by norm_num), fun hx => gaussian_posdef x hx (by norm_num)⟩
  | m05 => exact hmat (1 / 2) (by norm_num) (fun d hd => (value_mix b s hd).1) h
  | m15 => exact hmat (3 / 2) (by norm_num) (fun d hd => (value_mix b s hd).2.1) h
  | m25 => exact hmat (5 / 2) (by norm_num) (fun d hd => (value_mix b s hd).2.2) h

theorem hasLengths_pos {df : Deform} {f : Nat} {len : Fin f → ℝ} (h : df.HasLengths f len) (c : Fin f) : 0 < len c := by
  cases df with
  | isotropy m p => obtain ⟨l, h1, _, h3⟩ := h; rw [h3]; exact h1
  | difference m p => obtain ⟨l, h1, _, h3⟩ := h; rw [h3]; exact h1
  | anisotropy m ps => exact (h.2 c).1

/-- Different neighbours are different in units of the length scales. -/
theorem scaled_injective {X : Tensor ℝ} {N f n : Nat} {nn : Tensor Int} {p : Nat} {len : Fin f → ℝ} (hlen : ∀ c, 0 < len c)
    (h : DistinctNeighbours X N f n nn p) : Function.Injective fun i : Fin n => scaledPoint X N f len (nn.get [p, i]) := by
  intro i j hij
  by_contra hne
  obtain ⟨c, hc, hd⟩ := h i j hne
  apply hd
  have := congrFun hij ⟨c, hc⟩
  exact (div_left_inj' (hlen ⟨c, hc⟩).ne').mp this

/-- C21: for RBF with squared distances and for the Matérn kernels of smoothness 1/2, 3/2, 5/2 and infinity with distances,
every neighbourhood covariance is positive semidefinite, whatever the points (repeated points included), deformation and length
scales; it is positive definite if the neighbours are different points. -/
theorem C21_definite (b : Flt → ℝ → ℝ) (k : KernelObj) (hk : k.make.fn.Suits k.deform.metric)
    (X : Tensor ℝ) (nn : Tensor Int) (N f B n : Nat) (len : Fin f → ℝ)
    (hlen : k.deform.HasLengths f len) (hX : IsTable X N f) (hnn : nn.shape = [B, n]) (hv : AllValid N nn) :
    ∃ D K, k.deform.pairwise X nn = .ok D ∧ k.make.call b D [] = .ok K ∧ K.shape = [B, n, n] ∧
      ∀ p < B, (Spec.cov n K p).PosSemidef ∧ (DistinctNeighbours X N f n nn p → (Spec.cov n K p).PosDef) := by
  obtain ⟨D, T, h1, h2, h3, h4⟩ := pairwise_entries k.deform X nn N f B n len hlen hX hnn hv
  refine ⟨D, _, h1, call_nil b k h2, h3, fun p hp => ?_⟩
  have hg := value_definite b (k.make.smoothInForce []) k.make.fn k.deform.metric hk
    (fun i : Fin n => scaledPoint X N f len (nn.get [p, i]))
  have e : Spec.cov n (T.map (KFn.value b (k.make.smoothInForce []) k.make.fn)) p =
      Matrix.of fun i j : Fin n => KFn.value b (k.make.smoothInForce []) k.make.fn (distOf k.deform.metric
        (scaledPoint X N f len (nn.get [p, i])) (scaledPoint X N f len (nn.get [p, j]))) := by
    ext i j
    simp only [Spec.cov, map_get, of_apply]
    rw [h4 p i j hp i.2 j.2]
  rw [e]
  exact ⟨hg.1, fun hd => hg.2 (scaled_injective (hasLengths_pos hlen) hd)⟩

/-- C21: with positive homoscedastic noise, or without noise if the neighbours of every point are different points, the
covariance is positive definite, so the posterior mean and variance are always computed (no `LinAlgError`). -/
theorem C21_solves_succeed (b : Flt → ℝ → ℝ) (k : KernelObj) (hk : k.make.fn.Suits k.deform.metric)
    (X Q y : Tensor ℝ) (idx nn : Tensor Int) (N M f B n : Nat) (len : Fin f → ℝ)
    (hlen : k.deform.HasLengths f len) (hX : IsTable X N f) (hQ : IsTable Q M f)
    (hrank : Q.shape.length = X.shape.length) (hi : idx.shape = [B])
    (hnn : nn.shape = [B, n]) (hvi : AllValid M idx) (hv : AllValid N nn) (hy : y.shape = [B, n])
    (τ : ℝ) (hτ : 0 < τ ∨ (0 ≤ τ ∧ ∀ p < B, DistinctNeighbours X N f n nn p)) (σ : ℝ) :
    ∃ D C K Kc, k.deform.pairwise X nn = .ok D ∧ k.deform.crosswise Q X idx nn = .ok C ∧
      k.make.call b D [] = .ok K ∧ k.make.call b C [] = .ok Kc ∧
      (∀ p < B, (Spec.cov n K p + τ • (1 : Matrix (Fin n) (Fin n) ℝ)).PosDef) ∧
      (∃ μ, (MuyGPS.make (.homoscedastic τ) KernelObj.kout σ).posteriorMean K Kc y = .ok μ ∧ μ.shape = [B]) ∧
      (∃ v, (MuyGPS.make (.homoscedastic τ) KernelObj.kout σ).posteriorVariance K Kc = .ok v ∧
        v.shape = [B]) := by
  obtain ⟨D, K, h1, h2, h3, h4⟩ := C21_definite b k hk X nn N f B n len hlen hX hnn hv
  obtain ⟨C, T, c1, c2, c3, _⟩ := crosswise_entries k.deform Q X idx nn M N f B n len hlen hQ hX hrank hi hnn
    hvi hv
  have hpd : ∀ p < B, (Spec.cov n K p + τ • (1 : Matrix (Fin n) (Fin n) ℝ)).PosDef := by
    intro p hp
    rcases hτ with h | ⟨h, hd⟩
    · exact PosDef.posSemidef_add (h4 p hp).1 (PosDef.one.smul h)
    · exact PosDef.add_posSemidef ((h4 p hp).2 (hd p hp)) (PosSemidef.one.smul h)
  have hsym : ∀ p < B, (Spec.cov n K p).transpose = Spec.cov n K p := by
    intro p hp
    have := (h4 p hp).1.1
    rw [IsHermitian, conjTranspose_eq_transpose_of_trivial] at this
    exact this
  have hmat : ∀ p, (Noise.homoscedastic τ).mat n p = τ • (1 : Matrix (Fin n) (Fin n) ℝ) := fun p => rfl
  have hinv : ∀ p < B, (Spec.cov n K p + (MuyGPS.make (.homoscedastic τ) KernelObj.kout σ).noise.mat n p).det ≠ 0 := by
    intro p hp
    exact (hpd p hp).det_pos.ne'
  refine ⟨D, C, K, _, h1, c1, h2, call_nil b k c2, hpd, ?_, ?_⟩
  · obtain ⟨μ, m1, m2, _⟩ := C24_model_mean (MuyGPS.make (.homoscedastic τ) KernelObj.kout σ) B n
      trivial K (T.map _) y h3 c3 hy hinv hsym
    exact ⟨μ, m1, m2⟩
  · obtain ⟨v, m1, m2, _⟩ := C24_model_variance (MuyGPS.make (.homoscedastic τ) KernelObj.kout σ) B n
      trivial K (T.map _) rfl h3 c3 hinv hsym
    exact ⟨v, m1, m2⟩

/-- Non-vacuity of C21: an anisotropic RBF model on the plane with a repeated point. -/
example : let p : Param := ⟨Flt.fin 2, Flt.fin 0, Flt.fin 0, true⟩
    let k := KernelObj.mk (.anisotropy .F2 [p, p]) none .rbf
    k.make.fn.Suits k.deform.metric ∧ k.deform.HasLengths 2 (fun _ => 2) ∧
      IsTable ⟨[3, 2], fun _ => (1 : ℝ)⟩ 3 2 ∧
      AllValid 3 ⟨[1, 3], fun j => (j : Int)⟩ := by
  intro p k
  refine ⟨rfl, ⟨rfl, fun c => ⟨by norm_num, fun q hq => ?_⟩⟩, .inl rfl, ?_⟩
  · have : q = p := by
      match c, hq with
      | 0, h => simpa using h.symm
      | 1, h => simpa using h.symm
    rw [this]
  · intro j hj
    simp at hj
    unfold validIndex
    simp only
    omega

end MuyGPyS
