import Verif.Props.Sampler
import Verif.Props.Cholesky
import Verif.Props.Bayes

/-!
# C75: what the samplers draw
-/

namespace MuyGPyS.Sampler
open Py Matrix MeasureTheory ProbabilityTheory

theorem pairwiseVector_ok (x : Tensor ℝ) (n f : Nat) (hx : IsTable x n f) :
    ∃ T, pairwiseVector x (arange n) = .ok T ∧ T.shape = [n, n, f] ∧
      ∀ i j c, i < n → j < n → c < f → T.get [i, j, c] = feature x i c - feature x j c := by
  have hp : ∀ i < n, pointOf n ((arange n).flat i) = i := fun i hi => pointOf_nat n i
  have hcl : ∀ {a i : Nat}, i < a → (if a = 1 then 0 else i) = i := fun h => by split <;> omega
  rcases hx with hd | ⟨hd, rfl⟩
  · obtain ⟨tp, g1, g2, g3⟩ := take_mat hd (arange_valid n)
    have g2' : tp.shape = [n, f] := g2
    obtain ⟨T, e1, e2, e3⟩ := Tensor.bop_get (· - ·) (⟨[n, 1, f], tp.flat⟩ : Tensor ℝ) (⟨[1, n, f], tp.flat⟩ : Tensor ℝ) [n, n, f]
      (by simp [Tensor.bcShape])
    refine ⟨T, ?_, e2, ?_⟩
    · unfold pairwiseVector
      simp only [g1, hd, g2']
      exact e1
    · intro i j c hi hj hc
      rw [e3 [i, j, c] (Tensor.lt3 hi hj hc)]
      simp only [Tensor.clipIdx, List.zipWith_cons_cons, List.zipWith_nil_left, hcl hi, hcl hj, hcl hc, if_true]
      congr 1
      · rw [Tensor.get3 _ rfl]
        simp only
        have : i * (1 * f) + 0 * f + c = i * f + c := by ring
        rw [this, g3 _ c hc, hp i hi]
      · rw [Tensor.get3 _ rfl]
        simp only
        have : 0 * (n * f) + j * f + c = j * f + c := by ring
        rw [this, g3 _ c hc, hp j hj]
  · obtain ⟨tp, g1, g2, g3⟩ := MuyGPyS.take_vec hd (arange_valid n)
    have g2' : tp.shape = [n] := g2
    obtain ⟨T, e1, e2, e3⟩ := Tensor.bop_get (· - ·) (⟨[n, 1, 1], tp.flat⟩ : Tensor ℝ) (⟨[1, n, 1], tp.flat⟩ : Tensor ℝ) [n, n, 1]
      (by simp [Tensor.bcShape])
    refine ⟨T, ?_, e2, ?_⟩
    · unfold pairwiseVector
      simp only [g1, hd, g2']
      exact e1
    · intro i j c hi hj hc
      obtain rfl : c = 0 := by omega
      rw [e3 [i, j, 0] (Tensor.lt3 hi hj hc)]
      simp only [Tensor.clipIdx, List.zipWith_cons_cons, List.zipWith_nil_left, hcl hi, hcl hj, if_true]
      congr 1
      · rw [Tensor.get3 _ rfl]
        simp only
        have : i * (1 * 1) + 0 * 1 + 0 = i := by ring
        rw [this, g3, hp i hi]
      · rw [Tensor.get3 _ rfl]
        simp only
        have : 0 * (n * 1) + j * 1 + 0 = j := by ring
        rw [this, g3, hp j hj]

/-- The kernel matrix of all points of a table. -/
theorem kernel_table (bessel : Flt → ℝ → ℝ) (k : KernelObj) (hk : k.make = k) (x : Tensor ℝ) (n f : Nat) (hx : IsTable x n f)
    (len : Fin f → ℝ) (hlen : k.deform.HasLengths f len) :
    ∃ D K, pairwiseDeform k.deform x (arange n) = .ok D ∧ k.call bessel D [] = .ok K ∧ K.shape = [n, n] ∧
      ∀ i j, i < n → j < n → K.get [i, j] = k.covFn bessel len (pt x f i) (pt x f j) := by
  obtain ⟨P, h1, h2, h3⟩ := pairwiseVector_ok x n f hx
  obtain ⟨D, T, e1, e2, e3, e4⟩ := deform_entries k.deform [n, n] f len hlen P h2
  have hc := call_nil bessel k e2
  rw [hk] at hc
  refine ⟨D, _, ?_, hc, e3, fun i j hi hj => ?_⟩
  · unfold pairwiseDeform
    rw [h1]
    exact e1
  · rw [map_get, Tensor.get2 T e3, e4]
    have := covFn_scaled bessel k len x x n n (i : Int) (j : Int)
    rw [pointOf_nat, pointOf_nat, ← distOf_shift] at this
    rw [← this]
    congr 2
    funext c
    unfold scaledPoint
    rw [← sub_div, pointOf_nat, pointOf_nat, ← h3 i j c hi hj c.2, Tensor.get3 P h2]
    congr 2
    ring

theorem Noise.number_level {ν : Noise} {τ : ℝ} (h : ν.Level τ) : Noise.number ν = .ok τ := by
  cases ν with
  | homoscedastic v => rw [← show v = τ from h]; rfl
  | null => rw [show τ = 0 from h]; rfl
  | heteroscedastic v => exact h.elim
  | shear33 v => exact h.elim

/-- Factorising the covariance matrix: the Cholesky factor when the matrix is positive definite, `LinAlgError` otherwise. -/
theorem prepareCholK_spec (bessel : Flt → ℝ → ℝ) (gp : BenchmarkGP) (hk : gp.kernel.make = gp.kernel) (x : Tensor ℝ) (n f : Nat)
    (hx : IsTable x n f) (len : Fin f → ℝ) (hlen : gp.kernel.deform.HasLengths f len) (τ : ℝ) (hτ : gp.noise.Level τ) :
    ((gp.cov bessel τ len x n).PosDef → ∃ L, prepareCholK bessel gp x = .ok L ∧ L.shape = [n, n] ∧
        IsCholesky (gp.cov bessel τ len x n) (Matrix.of fun i j => L.get [i, j])) ∧
      (¬ (gp.cov bessel τ len x n).PosDef → prepareCholK bessel gp x = .error .linAlg) := by
  obtain ⟨D, K, h1, h2, h3, h4⟩ := kernel_table bessel gp.kernel hk x n f hx len hlen
  set F : Tensor ℝ := ⟨[n, n], fun k => gp.scale * (K.flat k + τ * eye (k / n) (k % n))⟩ with hF
  have hsh : ∃ rest, x.shape = n :: rest := by
    rcases hx with h | ⟨h, -⟩
    · exact ⟨_, h⟩
    · exact ⟨_, h⟩
  obtain ⟨rest, hsh⟩ := hsh
  have hrun : prepareCholK bessel gp x = cholesky F := by
    unfold prepareCholK
    simp only [hsh, bind, Except.bind, h1, h2, Noise.number_level hτ, h3, if_true]
    rfl
  have hget : ∀ i j, i < n → j < n → F.get [i, j] =
      gp.scale * (gp.kernel.covFn bessel len (pt x f i) (pt x f j) + if i = j then τ else 0) := fun i j hi hj => by
    rw [Tensor.get2 F rfl]
    show gp.scale * (K.flat (i * n + j) + τ * eye ((i * n + j) / n) ((i * n + j) % n)) = _
    rw [Tensor.div_aux hj, Tensor.mod_aux hj, ← h4 i j hi hj, Tensor.get2 K h3]
    unfold eye
    split <;> simp
  have hA : (Matrix.of fun i j : Fin n => F.get [max (i : Nat) j, min (i : Nat) j]) = gp.cov bessel τ len x n := by
    ext i j
    simp only [Matrix.of_apply, BenchmarkGP.cov]
    rcases le_total (i : Nat) j with h | h
    · rw [max_eq_right h, min_eq_left h, hget _ _ j.2 i.2, covFn_comm]
      simp only [Fin.ext_iff, eq_comm]
    · rw [max_eq_left h, min_eq_right h, hget _ _ i.2 j.2]
      simp only [Fin.ext_iff]
  rw [hrun]
  unfold cholesky
  simp only [hF, if_true]
  rw [hA]
  constructor
  · intro hp
    have hex := cholesky_exists hp
    rw [dif_pos hex]
    refine ⟨_, rfl, rfl, ?_⟩
    have : (Matrix.of fun i j : Fin n => (⟨[n, n], fun k => if hk : k / n < n ∧ k % n < n then (hex.choose : Matrix (Fin n) (Fin n) ℝ) ⟨k / n, hk.1⟩ ⟨k % n, hk.2⟩ else 0⟩ :
        Tensor ℝ).get [(i : Nat), (j : Nat)]) = hex.choose := by
      ext i j
      rw [Matrix.of_apply, Tensor.get2 _ rfl]
      simp only [Tensor.div_aux j.2, Tensor.mod_aux j.2]
      rw [dif_pos ⟨i.2, j.2⟩]
    rw [this]
    exact hex.choose_spec
  · intro hp
    rw [dif_neg (mt cholesky_iff.mp hp)]

/-- Positions of a mask as numbers below `n`. -/
noncomputable def place (mask : List Bool) (n : Nat) (h : mask.length = n) (i : Fin (mask.count true)) : Fin n :=
  ⟨(positions mask).getD i 0, by
    have hi : (i : Nat) < (positions mask).length := by rw [← count_positions]; exact i.2
    rw [List.getD_eq_getElem _ _ hi]
    have := List.getElem_mem hi
    unfold positions at this
    rw [← h]
    exact List.mem_range.mp (List.mem_filter.mp this).1⟩

theorem place_injective (mask : List Bool) (n : Nat) (h : mask.length = n) : Function.Injective (place mask n h) := by
  intro i j hij
  have hi : (i : Nat) < (positions mask).length := by rw [← count_positions]; exact i.2
  have hj : (j : Nat) < (positions mask).length := by rw [← count_positions]; exact j.2
  have := congrArg Fin.val hij
  simp only [place, List.getD_eq_getElem _ _ hi, List.getD_eq_getElem _ _ hj] at this
  exact Fin.ext ((List.Nodup.getElem_inj_iff (positions_nodup mask)).mp this)

theorem place_true (mask : List Bool) (n : Nat) (h : mask.length = n) (i : Fin (mask.count true)) :
    mask.getD (place mask n h i) false = true := by
  have hi : (i : Nat) < (positions mask).length := by rw [← count_positions]; exact i.2
  rw [← mem_positions]
  simp only [place, List.getD_eq_getElem _ _ hi]
  exact List.getElem_mem hi

/-- What `sample` computes from the numbers drawn. -/
theorem sample_runs (bessel : Flt → ℝ → ℝ) (S : Obj) (hk : S.gp.kernel.make = S.gp.kernel) (n c f : Nat) (hn : n ≠ 1) (hx : IsTable S.x n f)
    (hM : S.masks.Parts n c) (len : Fin f → ℝ) (hlen : S.gp.kernel.deform.HasLengths f len) (τ : ℝ) (hτ : S.gp.noise.Level τ)
    (hpd : (S.gp.cov bessel τ len S.x n).PosDef) (hσ : 0 ≤ S.measurementNoise) :
    ∃ L : Matrix (Fin n) (Fin n) ℝ, IsCholesky (S.gp.cov bessel τ len S.x n) L ∧ ∀ z e : Nat → ℝ, ∃ Ytr Yte,
      S.sample bessel z e = .ok (Ytr, Yte) ∧ Ytr.shape = [S.masks.train.count true] ∧ Yte.shape = [S.masks.test.count true] ∧
      (∀ i : Fin (S.masks.train.count true), Ytr.get [i] =
        (∑ j : Fin n, L (place _ n hM.train i) j * z j) + S.measurementNoise * e i) ∧
      ∀ p : Fin (S.masks.test.count true), Yte.get [p] = ∑ j : Fin n, L (place _ n hM.test p) j * z j := by
  obtain ⟨L, h1, h2, h3⟩ := (prepareCholK_spec bessel S.gp hk S.x n f hx len hlen τ hτ).1 hpd
  refine ⟨_, h3, fun z e => ?_⟩
  set y : Tensor ℝ := ⟨[n], fun i => ∑ j ∈ Finset.range n, L.get [i, j] * z j⟩ with hy
  have hrun : benchmarkSample bessel S.gp S.x z = .ok y := by
    unfold benchmarkSample sampleFromCholK
    simp only [h1, h2, bind, Except.bind, pure, Except.pure, if_true]
    simp [Tensor.squeeze, hn, hy]
  obtain ⟨a, a1, a2, a3⟩ := select_ok y n [] rfl S.masks.test hM.test
  obtain ⟨b, b1, b2, b3⟩ := select_ok y n [] rfl S.masks.train hM.train
  simp only [List.prod_nil, mul_one, Nat.lt_one_iff, forall_eq, add_zero] at a3 b3
  refine ⟨⟨b.shape, fun i => b.flat i + S.measurementNoise * e i⟩, a, ?_, b2, a2, fun i => ?_, fun p => ?_⟩
  · unfold Obj.sample
    simp only [hrun, a1, b1, bind, Except.bind, pure, Except.pure]
    rw [if_neg (not_lt.mpr hσ)]
  · refine (Tensor.get1 (⟨b.shape, fun i => b.flat i + S.measurementNoise * e i⟩ : Tensor ℝ) b2 _).trans ?_
    show b.flat i + _ = _
    rw [b3 i i.2]
    congr 1
    show ∑ j ∈ Finset.range n, _ = _
    rw [Finset.sum_range]
    rfl
  · rw [Tensor.get1 _ a2, a3 p p.2]
    show ∑ j ∈ Finset.range n, _ = _
    rw [Finset.sum_range]
    rfl

section law

variable {Ω : Type*} [MeasurableSpace Ω] {P : Measure Ω} {n c : Nat} {z e : Ω → Nat → ℝ}

/-- Linear combinations of standard normal numbers. -/
theorem combination (h : StandardNormals P n c z e) {κ : Type*} [Fintype κ] (B : κ → Fin n ⊕ Fin c → ℝ) (Y : κ → Ω → ℝ)
    (hY : ∀ a ω, Y a ω = (∑ j : Fin n, B a (.inl j) * z ω j) + ∑ i : Fin c, B a (.inr i) * e ω i) :
    HasGaussianLaw (fun ω a => Y a ω) P ∧ (∀ a, P[Y a] = 0) ∧
      ∀ a b, cov[Y a, Y b; P] = ∑ u, B a u * B b u := by
  set X : Fin n ⊕ Fin c → Ω → ℝ := Sum.elim (fun j ω => z ω j) (fun i ω => e ω i) with hX
  have h' : WhiteNoise P (fun _ => 1) X := h
  have hP := h'.gaussian.isProbabilityMeasure
  have mX : ∀ u, MemLp (X u) 2 P := fun u => (h'.gaussian.eval u).memLp_two
  have hsum : ∀ a, Y a = fun ω => ∑ u, B a u * X u ω := fun a => by
    funext ω
    rw [hY, Fintype.sum_sum_type]
    rfl
  refine ⟨?_, fun a => ?_, fun a b => ?_⟩
  · let A : (Fin n ⊕ Fin c → ℝ) →L[ℝ] (κ → ℝ) := ContinuousLinearMap.pi fun a =>
      ∑ u, B a u • ContinuousLinearMap.proj (R := ℝ) (φ := fun _ : Fin n ⊕ Fin c => ℝ) u
    have := h'.gaussian.map_fun A
    have e : (fun ω a => Y a ω) = fun ω => A fun u => X u ω := by
      funext ω a
      rw [hsum]
      simp [A]
    rw [e]
    exact this
  · rw [hsum, integral_finsetSum _ fun u _ => ((mX u).integrable one_le_two).const_mul _]
    simp [integral_const_mul, h'.mean]
  · rw [hsum, hsum, covariance_fun_sum_fun_sum (fun u => (mX u).const_mul _) (fun u => (mX u).const_mul _)]
    simp only [covariance_const_mul_left, covariance_const_mul_right, h'.cov]
    refine Finset.sum_congr rfl fun u _ => ?_
    simp [mul_comm]

end law

/-- The law of the responses, by position. -/
theorem sample_law (bessel : Flt → ℝ → ℝ) (S : Obj) (hk : S.gp.kernel.make = S.gp.kernel) (n c f : Nat) (hn : n ≠ 1) (hx : IsTable S.x n f)
    (hM : S.masks.Parts n c) (len : Fin f → ℝ) (hlen : S.gp.kernel.deform.HasLengths f len) (τ : ℝ) (hτ : S.gp.noise.Level τ)
    (hpd : (S.gp.cov bessel τ len S.x n).PosDef) (hσ : 0 ≤ S.measurementNoise) (hs : S.gp.scale = 1)
    {Ω : Type*} [MeasurableSpace Ω] (P : Measure Ω) (z e : Ω → Nat → ℝ) (hz : StandardNormals P n (S.masks.train.count true) z e) :
    ∃ Ytr Yte : Ω → Tensor ℝ, (∀ ω, S.sample bessel (z ω) (e ω) = .ok (Ytr ω, Yte ω)) ∧
      (∀ ω, (Ytr ω).shape = [S.masks.train.count true] ∧ (Yte ω).shape = [S.masks.test.count true]) ∧
      HasGaussianLaw (fun ω => (fun i : Fin (S.masks.train.count true) => (Ytr ω).get [i],
        fun p : Fin (S.masks.test.count true) => (Yte ω).get [p])) P ∧
      (∀ i : Fin (S.masks.train.count true), ∫ ω, (Ytr ω).get [i] ∂P = 0) ∧
      (∀ p : Fin (S.masks.test.count true), ∫ ω, (Yte ω).get [p] ∂P = 0) ∧
      (∀ i j : Fin (S.masks.train.count true), cov[fun ω => (Ytr ω).get [i], fun ω => (Ytr ω).get [j]; P] =
        S.gp.kernel.covFn bessel len (pt S.x f (place _ n hM.train i)) (pt S.x f (place _ n hM.train j)) +
          if i = j then τ + S.measurementNoise ^ 2 else 0) ∧
      (∀ (i : Fin (S.masks.train.count true)) (p : Fin (S.masks.test.count true)),
        cov[fun ω => (Ytr ω).get [i], fun ω => (Yte ω).get [p]; P] =
          S.gp.kernel.covFn bessel len (pt S.x f (place _ n hM.train i)) (pt S.x f (place _ n hM.test p))) ∧
      ∀ p q : Fin (S.masks.test.count true), cov[fun ω => (Yte ω).get [p], fun ω => (Yte ω).get [q]; P] =
        S.gp.kernel.covFn bessel len (pt S.x f (place _ n hM.test p)) (pt S.x f (place _ n hM.test q)) + if p = q then τ else 0 := by
  obtain ⟨L, hL, hrun⟩ := sample_runs bessel S hk n c f hn hx hM len hlen τ hτ hpd hσ
  choose Ytr Yte r1 r2 r3 r4 r5 using fun ω => hrun (z ω) (e ω)
  set σ := S.measurementNoise with hσd
  let B : Fin (S.masks.train.count true) ⊕ Fin (S.masks.test.count true) → Fin n ⊕ Fin (S.masks.train.count true) → ℝ := fun a u =>
    match a, u with
    | .inl i, .inl j => L (place _ n hM.train i) j
    | .inl i, .inr i' => if i = i' then σ else 0
    | .inr p, .inl j => L (place _ n hM.test p) j
    | .inr _, .inr _ => 0
  let Y : Fin (S.masks.train.count true) ⊕ Fin (S.masks.test.count true) → Ω → ℝ := fun a ω =>
    match a with
    | .inl i => (Ytr ω).get [(i : Nat)]
    | .inr p => (Yte ω).get [(p : Nat)]
  obtain ⟨g1, g2, g3⟩ := combination hz B Y (fun a ω => by
    cases a with
    | inl i => simp only [Y, B, r4]; simp
    | inr p => simp only [Y, B, r5]; simp)
  have hLL : ∀ a b : Fin n, ∑ j, L a j * L b j = S.gp.cov bessel τ len S.x n a b := fun a b => by
    rw [← hL.2.2, mul_apply]
    rfl
  refine ⟨Ytr, Yte, r1, fun ω => ⟨r2 ω, r3 ω⟩, ?_, fun i => g2 (.inl i), fun p => g2 (.inr p), fun i j => ?_, fun i p => ?_, fun p q => ?_⟩
  · let A : (Fin (S.masks.train.count true) ⊕ Fin (S.masks.test.count true) → ℝ) →L[ℝ]
        (Fin (S.masks.train.count true) → ℝ) × (Fin (S.masks.test.count true) → ℝ) :=
      ContinuousLinearMap.prod (ContinuousLinearMap.pi fun i => ContinuousLinearMap.proj (R := ℝ)
          (φ := fun _ : Fin (S.masks.train.count true) ⊕ Fin (S.masks.test.count true) => ℝ) (.inl i))
        (ContinuousLinearMap.pi fun p => ContinuousLinearMap.proj (R := ℝ)
          (φ := fun _ : Fin (S.masks.train.count true) ⊕ Fin (S.masks.test.count true) => ℝ) (.inr p))
    exact g1.map_fun A
  · refine (g3 (.inl i) (.inl j)).trans ?_
    rw [Fintype.sum_sum_type]
    simp only [B]
    rw [hLL, BenchmarkGP.cov, Matrix.of_apply, hs, one_mul]
    simp only [(place_injective _ n hM.train).eq_iff]
    by_cases hij : i = j
    · subst hij; simp; ring
    · simp [hij]
  · refine (g3 (.inl i) (.inr p)).trans ?_
    rw [Fintype.sum_sum_type]
    simp only [B, mul_zero, Finset.sum_const_zero, add_zero]
    rw [hLL, BenchmarkGP.cov, Matrix.of_apply, hs, one_mul, if_neg, add_zero]
    intro heq
    have h1 := place_true _ n hM.train i
    have h2 := place_true _ n hM.test p
    rw [hM.apart _ (place _ n hM.test p).2, ← heq, h1] at h2
    cases h2
  · refine (g3 (.inr p) (.inr q)).trans ?_
    rw [Fintype.sum_sum_type]
    simp only [B, mul_zero, Finset.sum_const_zero, add_zero]
    rw [hLL, BenchmarkGP.cov, Matrix.of_apply, hs, one_mul]
    simp only [(place_injective _ n hM.test).eq_iff]

theorem draws_aux (bessel : Flt → ℝ → ℝ) (S : Obj) (hk : S.gp.kernel.make = S.gp.kernel) (n c t f : Nat) (hn : n ≠ 1) (hx : IsTable S.x n f)
    (hM : S.masks.Parts n c) (ht : n - c = t) (len : Fin f → ℝ) (hlen : S.gp.kernel.deform.HasLengths f len) (τ : ℝ) (hτ : S.gp.noise.Level τ)
    (hpd : (S.gp.cov bessel τ len S.x n).PosDef) (hσ : 0 ≤ S.measurementNoise) (hs : S.gp.scale = 1)
    (htr : ∀ i < c, pt S.trainFeatures f i = pt S.x f ((positions S.masks.train).getD i 0))
    (hte : ∀ p < n - c, pt S.testFeatures f p = pt S.x f ((positions S.masks.test).getD p 0)) :
    S.Draws bessel n c f len (τ + S.measurementNoise ^ 2) τ := by
  intro Ω _ P z e hz
  have h1 := hM.trainCount
  have h2 := hM.testCount
  rw [ht] at h2 hte ⊢
  subst h1 h2
  obtain ⟨Ytr, Yte, r1, r2, r3, r4, r5, r6, r7, r8⟩ := sample_law bessel S hk n _ f hn hx hM len hlen τ hτ hpd hσ hs P z e hz
  have e1 : ∀ i : Fin (S.masks.train.count true), pt S.trainFeatures f i = pt S.x f (place _ n hM.train i) := fun i => htr i i.2
  have e2 : ∀ p : Fin (S.masks.test.count true), pt S.testFeatures f p = pt S.x f (place _ n hM.test p) := fun p => hte p p.2
  simp only [e1, e2]
  exact ⟨Ytr, Yte, r1, r2, r3, r4, r5, r6, r7, r8⟩

/-- Features of a selected row. -/
theorem pt_of_rows {t x : Tensor ℝ} {rest : List Nat} {m n f : Nat} (hx : x.shape = n :: rest) (ht : t.shape = m :: rest) (hT : IsTable x n f)
    (l : List Nat) (h : ∀ i < m, ∀ k < rest.prod, t.flat (i * rest.prod + k) = x.flat (l.getD i 0 * rest.prod + k)) (i : Nat) (hi : i < m) :
    pt t f i = pt x f (l.getD i 0) := by
  funext c
  rcases hT with hT | ⟨hT, rfl⟩
  · have hr : rest = [f] := by rw [hT] at hx; injection hx with _ h; exact h.symm
    subst hr
    simp only [pt, feature, hx, ht]
    rw [Tensor.get2 _ ht, Tensor.get2 _ hx]
    simpa using h i hi c (by simpa using c.2)
  · have hr : rest = [] := by rw [hT] at hx; injection hx with _ h; exact h.symm
    subst hr
    simp only [pt, feature, hx, ht]
    rw [Tensor.get1 _ ht, Tensor.get1 _ hx]
    simpa using h i hi 0 (by simp)

/-- **C75** (partial): a sampler draws from the Gaussian process prior of its kernel at its points. For every number of points, ratio, shuffle and draw
of the split, kernel, noise level `τ` and `measurement_noise` `σ`: the responses are jointly Gaussian and centred with the kernel's covariances at
the features handed out; a test response has in addition the variance `τ`, a training response the variance `τ + σ²`. The covariance
matrix of the points must be positive definite (as it is for the two samplers: `C75_closed_partial`, `C75_default_partial`). What is missing:
`measurement_noise` is documented and used everywhere else as a *variance* (`C75_measurement_fails`). -/
theorem C75_law_partial (bessel : Flt → ℝ → ℝ) (x : Tensor ℝ) (n f : Nat) (hn1 : n ≠ 1) (hx : IsTable x n f) (ratio : ℝ) (h1 : 1 ≤ ⌊n * ratio⌋₊)
    (hn : ⌊n * ratio⌋₊ ≤ n) (k : KernelObj) (hk : k.make = k) (len : Fin f → ℝ) (hlen : k.deform.HasLengths f len) (ν : Noise) (τ : ℝ)
    (hτ : ν.Level τ) (hpd : ((BenchmarkGP.new k ν).cov bessel τ len x n).PosDef) (σ : ℝ) (hσ : 0 ≤ σ) (sfl : List Nat)
    (hs : sfl.Perm (List.range n)) (draw : Nat → Nat) :
    ∃ S, create x n ratio k ν σ sfl draw = .ok S ∧ S.gp.kernel = k ∧ S.masks.Parts n ⌊n * ratio⌋₊ ∧
      (∀ i < ⌊n * ratio⌋₊, ∃ j < n, S.masks.train.getD j false = true ∧ pt S.trainFeatures f i = pt x f j) ∧
      (∀ i < n - ⌊n * ratio⌋₊, ∃ j < n, S.masks.test.getD j false = true ∧ pt S.testFeatures f i = pt x f j) ∧
      S.trainFeatures.shape = ⌊n * ratio⌋₊ :: x.shape.tail ∧ S.testFeatures.shape = (n - ⌊n * ratio⌋₊) :: x.shape.tail ∧
      S.Draws bessel n ⌊n * ratio⌋₊ f len (τ + σ ^ 2) τ := by
  obtain ⟨rest, hsh⟩ : ∃ rest, x.shape = n :: rest := by
    rcases hx with h | ⟨h, -⟩
    · exact ⟨_, h⟩
    · exact ⟨_, h⟩
  obtain ⟨S, tr, te, e1, e2, e3, e4, e5, e6, e7, e8, e9, e10, e11, e12, e13⟩ :=
    C74_features_partial x n rest hsh ratio h1 hn k ν σ sfl hs draw
  set c := ⌊n * ratio⌋₊ with hc
  have ht : te.length = n - c := by rw [e7, ← count_positions, e2.testCount]
  rw [e9] at e10 e12
  rw [ht] at e11 e13
  have f1 : ∀ i < c, pt S.trainFeatures f i = pt x f ((positions S.masks.train).getD i 0) := fun i hi => by
    rw [← e6]; exact pt_of_rows hsh e10 hx tr e12 i hi
  have f2 : ∀ i < n - c, pt S.testFeatures f i = pt x f ((positions S.masks.test).getD i 0) := fun i hi => by
    rw [← e7]; exact pt_of_rows hsh e11 hx te e13 i hi
  have hplace : ∀ (mask : List Bool) (m : Nat), mask.length = n → mask.count true = m → ∀ i < m,
      (positions mask).getD i 0 < n ∧ mask.getD ((positions mask).getD i 0) false = true := by
    rintro mask m h rfl i hi
    exact ⟨(place mask n h ⟨i, hi⟩).2, place_true mask n h ⟨i, hi⟩⟩
  refine ⟨S, e1, by rw [e4], e2, fun i hi => ?_, fun i hi => ?_, by rw [e10, hsh]; rfl, by rw [e11, hsh]; rfl, ?_⟩
  · have := hplace _ _ e2.train e2.trainCount i hi
    exact ⟨_, this.1, this.2, f1 i hi⟩
  · have := hplace _ _ e2.test e2.testCount i hi
    exact ⟨_, this.1, this.2, f2 i hi⟩
  · have := draws_aux bessel S (by rw [e4]; exact hk) n c (n - c) f hn1 (by rw [e3]; exact hx) e2 rfl len (by rw [e4]; exact hlen) τ (by rw [e4]; exact hτ)
      (by rw [e4, e3]; exact hpd) (by rw [e5]; exact hσ) (by rw [e4]) (by rw [e3]; exact f1) (by rw [e3]; exact f2)
    rw [e5] at this
    exact this

end MuyGPyS.Sampler
