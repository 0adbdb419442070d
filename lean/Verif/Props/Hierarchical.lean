import Verif.Spec.Hierarchical
import Verif.Props.Workflow

/-! # C52: hierarchical hyperparameters -/

namespace MuyGPyS
open Py Py.Tensor Matrix

theorem bc_outer (b n f : Nat) : bcShape [b, 1, f] [1, n, f] = some [b, n, f] := by
  have h1 : bcAxis b 1 = some b := by
    unfold bcAxis; by_cases h : b = 1 <;> simp [h]
  have h2 : bcAxis 1 n = some n := by
    unfold bcAxis; by_cases h : 1 = n <;> simp [h]
  have h3 : bcAxis f f = some f := by simp [bcAxis]
  simp [bcShape, h1, h2, h3]

theorem feature_arange (X : Tensor ℝ) (n k : Nat) (c : Nat) :
    feature X (pointOf n ((arange n).flat k)) c = feature X k c := by
  have : pointOf n ((arange n).flat k) = k := by
    have h : ¬ ((k : Int) < 0) := by omega
    simp [pointOf, arange, wrapIndex, h]
  rw [this]

theorem pairwiseVec_ok (X : Tensor ℝ) (n f : Nat) (hX : IsTable X n f) :
    ∃ T, pairwiseVec X (arange n) = .ok T ∧ T.shape = [n, n] ++ [f] ∧
      ∀ i j c, i < n → j < n → c < f → T.flat ((i * n + j) * f + c) = feature X i c - feature X j c := by
  have hv := arange_valid n
  rcases hX with hd | ⟨hd, rfl⟩
  · obtain ⟨tl, h1, h2, h3⟩ := take_mat hd hv
    have h2' : tl.shape = [n, f] := h2
    obtain ⟨T, e1, e2, e3⟩ := bop_get (· - ·) (⟨[n, 1, f], tl.flat⟩ : Tensor ℝ)
      (⟨[1, n, f], tl.flat⟩ : Tensor ℝ) [n, n, f] (bc_outer _ _ _)
    refine ⟨T, ?_, e2, fun i j c hi hj hc => ?_⟩
    · unfold pairwiseVec
      simp only [h1, hd, h2']
      exact e1
    · have : T.get [i, j, c] = T.flat ((i * n + j) * f + c) := by
        rw [get3 T e2]; congr 1; ring
      rw [← this, e3 [i, j, c] (lt3 hi hj hc)]
      simp only [clipIdx, List.zipWith_cons_cons, List.zipWith_nil_left, clip_of_lt hi, clip_of_lt hj,
        clip_of_lt hc, if_true]
      rw [get3 _ rfl, get3 _ rfl]
      simp only [Nat.one_mul, Nat.zero_mul, Nat.add_zero, Nat.zero_add]
      rw [h3 i c hc, h3 j c hc, feature_arange, feature_arange]
  · obtain ⟨tl, h1, h2, h3⟩ := take_vec hd hv
    have h2' : tl.shape = [n] := h2
    obtain ⟨T, e1, e2, e3⟩ := bop_get (· - ·) (⟨[n, 1, 1], tl.flat⟩ : Tensor ℝ)
      (⟨[1, n, 1], tl.flat⟩ : Tensor ℝ) [n, n, 1] (bc_outer _ _ _)
    refine ⟨T, ?_, e2, fun i j c hi hj hc => ?_⟩
    · unfold pairwiseVec
      simp only [h1, hd, h2']
      exact e1
    · obtain rfl : c = 0 := by omega
      have : T.get [i, j, 0] = T.flat ((i * n + j) * 1 + 0) := by
        rw [get3 T e2]; congr 1; ring
      rw [← this, e3 [i, j, 0] (lt3 hi hj hc)]
      simp only [clipIdx, List.zipWith_cons_cons, List.zipWith_nil_left, clip_of_lt hi, clip_of_lt hj,
        if_true]
      rw [get3 _ rfl, get3 _ rfl]
      simp only [Nat.mul_one, Nat.zero_mul, Nat.add_zero, Nat.zero_add]
      rw [h3 i, h3 j, feature_arange, feature_arange]

theorem crosswiseVec_ok (Q X : Tensor ℝ) (b n f : Nat) (hQ : IsTable Q b f) (hX : IsTable X n f)
    (hrank : Q.shape.length = X.shape.length) :
    ∃ T, crosswiseVec Q X (arange b) (arange n) = .ok T ∧ T.shape = [b, n] ++ [f] ∧
      ∀ i j c, i < b → j < n → c < f → T.flat ((i * n + j) * f + c) = feature Q i c - feature X j c := by
  have hvb := arange_valid b
  have hvn := arange_valid n
  rcases hQ with hd | ⟨hd, rfl⟩
  · have hX' : X.shape = [n, f] := by
      rcases hX with hn | ⟨hn, _⟩
      · exact hn
      · rw [hd, hn] at hrank; simp at hrank
    obtain ⟨tl, h1, h2, h3⟩ := take_mat hd hvb
    obtain ⟨tp, g1, g2, g3⟩ := take_mat hX' hvn
    have h2' : tl.shape = [b, f] := h2
    have g2' : tp.shape = [n, f] := g2
    obtain ⟨T, e1, e2, e3⟩ := bop_get (· - ·) (⟨[b, 1, f], tl.flat⟩ : Tensor ℝ)
      (⟨[1, n, f], tp.flat⟩ : Tensor ℝ) [b, n, f] (bc_outer _ _ _)
    refine ⟨T, ?_, e2, fun i j c hi hj hc => ?_⟩
    · unfold crosswiseVec
      simp only [h1, g1, hd, h2', g2']
      exact e1
    · have : T.get [i, j, c] = T.flat ((i * n + j) * f + c) := by
        rw [get3 T e2]; congr 1; ring
      rw [← this, e3 [i, j, c] (lt3 hi hj hc)]
      simp only [clipIdx, List.zipWith_cons_cons, List.zipWith_nil_left, clip_of_lt hi, clip_of_lt hj,
        clip_of_lt hc, if_true]
      rw [get3 _ rfl, get3 _ rfl]
      simp only [Nat.one_mul, Nat.zero_mul, Nat.add_zero, Nat.zero_add]
      rw [h3 i c hc, g3 j c hc, feature_arange, feature_arange]
  · have hX' : X.shape = [n] := by
      rcases hX with hn | ⟨hn, _⟩
      · rw [hd, hn] at hrank; simp at hrank
      · exact hn
    obtain ⟨tl, h1, h2, h3⟩ := take_vec hd hvb
    obtain ⟨tp, g1, g2, g3⟩ := take_vec hX' hvn
    have h2' : tl.shape = [b] := h2
    have g2' : tp.shape = [n] := g2
    obtain ⟨T, e1, e2, e3⟩ := bop_get (· - ·) (⟨[b, 1, 1], tl.flat⟩ : Tensor ℝ)
      (⟨[1, n, 1], tp.flat⟩ : Tensor ℝ) [b, n, 1] (bc_outer _ _ _)
    refine ⟨T, ?_, e2, fun i j c hi hj hc => ?_⟩
    · unfold crosswiseVec
      simp only [h1, g1, hd, h2', g2']
      exact e1
    · obtain rfl : c = 0 := by omega
      have : T.get [i, j, 0] = T.flat ((i * n + j) * 1 + 0) := by
        rw [get3 T e2]; congr 1; ring
      rw [← this, e3 [i, j, 0] (lt3 hi hj hc)]
      simp only [clipIdx, List.zipWith_cons_cons, List.zipWith_nil_left, clip_of_lt hi, clip_of_lt hj,
        if_true]
      rw [get3 _ rfl, get3 _ rfl]
      simp only [Nat.mul_one, Nat.zero_mul, Nat.add_zero, Nat.zero_add]
      rw [h3 i, g3 j, feature_arange, feature_arange]

/-- The kernel of a table of differences. -/
theorem kernel_entries (bessel : Flt → ℝ → ℝ) (k : KernelObj) (hk : k.make = k) (Q X P : Tensor ℝ)
    (b n f : Nat) (len : Fin f → ℝ) (hlen : k.deform.HasLengths f len) (hP : P.shape = [b, n] ++ [f])
    (he : ∀ i j c, i < b → j < n → c < f → P.flat ((i * n + j) * f + c) = feature Q i c - feature X j c) :
    ∃ D K, k.deform.measure P = .ok D ∧ k.call bessel D [] = .ok K ∧ K.shape = [b, n] ∧
      ∀ i j, i < b → j < n → K.flat (i * n + j) = k.covFn bessel len (pt Q f i) (pt X f j) := by
  obtain ⟨D, T, e1, e2, e3, e4⟩ := deform_entries k.deform [b, n] f len hlen P hP
  have hc := call_nil bessel k e2
  rw [hk] at hc
  refine ⟨D, _, ?_, hc, e3, fun i j hi hj => ?_⟩
  · unfold Deform.measure
    rw [← e1]
    cases k.deform <;> rfl
  · show KFn.value _ _ _ (T.flat (i * n + j)) = _
    rw [e4]
    have : (distOf k.deform.metric (fun c : Fin f => P.flat ((i * n + j) * f + c) / len c) 0)
        = distOf k.deform.metric (fun c => pt Q f i c / len c) (fun c => pt X f j c / len c) := by
      rw [← distOf_shift k.deform.metric (fun c => pt Q f i c / len c)]
      congr 1
      funext c
      rw [he i j c hi hj c.2, ← sub_div]
      rfl
    rw [this]
    unfold KernelObj.covFn KernelObj.smoothInForce
    cases k.smoothness <;> rfl

/-- What the constructor stores. -/
theorem create_ok (bessel : Flt → ℝ → ℝ) (k : KernelObj) (hk : k.make = k) (X : Tensor ℝ) (ps : List Param)
    (noise : Flt) (n f : Nat) (len : Fin f → ℝ) (hlen : k.deform.HasLengths f len) (hX : IsTable X n f)
    (hn : ps.length = n) :
    ∃ K, Hier.create bessel X ps k noise = .ok ⟨X, ps, k, K, noise⟩ ∧ K.shape = [n, n] ∧
      K.matAt n n 0 = knotCov bessel k len X n := by
  obtain ⟨P, h1, h2, h3⟩ := pairwiseVec_ok X n f hX
  obtain ⟨D, K, e1, e2, e3, e4⟩ := kernel_entries bessel k hk X X P n n f len hlen h2 h3
  refine ⟨K, ?_, e3, ?_⟩
  · unfold Hier.create
    have : ∃ t, X.shape = n :: t := by
      rcases hX with h | ⟨h, _⟩ <;> exact ⟨_, h⟩
    obtain ⟨t, ht⟩ := this
    simp only [ht, hn, ne_eq, not_true_eq_false, if_false, bind, Except.bind, h1, e1, e2, pure, Except.pure]
  · ext i j
    unfold Tensor.matAt knotCov
    rw [← e4 i j i.2 j.2]
    congr 1
    ring

theorem matVec_ok (a v : Tensor ℝ) (b n : Nat) (ha : a.shape = [b, n]) (hv : v.shape = [n]) :
    matVec a v = .ok ⟨[b], fun p => ∑ j : Fin n, a.flat (p * n + j) * v.flat j⟩ := by
  unfold matVec
  simp [ha, hv]

/-- The noisy knot covariance. -/
theorem perturbed_ok (h : Hier) (n : Nat) (hn : h.params.length = n) (hKs : h.kin.shape = [n, n]) :
    ∃ A, h.perturbed = .ok A ∧ A.shape = [n, n] ∧
      A.matAt n n 0 = h.kin.matAt n n 0 + h.noise.toReal • (1 : Matrix (Fin n) (Fin n) ℝ) := by
  unfold Hier.perturbed Tensor.zipWith
  simp only [hn, hKs, Tensor.ofFn, if_true]
  refine ⟨_, rfl, rfl, ?_⟩
  ext i j
  have hij : unravel [n, n] (0 * (n * n) + i * n + j) = [(i : Nat), (j : Nat)] := by
    have := unravel_ravel [n, n] [(i : Nat), (j : Nat)] (.cons i.2 (.cons j.2 .nil))
    rw [← this]
    congr 1
    simp [ravel]
  simp only [Tensor.matAt, Matrix.add_apply, Matrix.smul_apply, smul_eq_mul, Matrix.one_apply, hij]
  by_cases e : i = j
  · simp [e]
  · have : (i : Nat) ≠ j := fun h => e (Fin.ext h)
    simp [e, this]

/-- The value of a hierarchical parameter, whatever vector of knot values the keywords produce. -/
theorem call_core (bessel : Flt → ℝ → ℝ) (k : KernelObj) (hk : k.make = k) (X B : Tensor ℝ)
    (ps : List Param) (noise : Flt) (K : Tensor ℝ) (n b f : Nat) (len : Fin f → ℝ)
    (hlen : k.deform.HasLengths f len) (hX : IsTable X n f) (hB : IsTable B b f)
    (hrank : B.shape.length = X.shape.length) (hn : ps.length = n) (hKs : K.shape = [n, n])
    (hK : K.matAt n n 0 = knotCov bessel k len X n) (kw : Dict Flt)
    (hvals : (aniValues ps kw).length = n)
    (hdet : (knotCov bessel k len X n + noise.toReal • (1 : Matrix (Fin n) (Fin n) ℝ)).det ≠ 0) :
    ∃ T, Hier.call bessel ⟨X, ps, k, K, noise⟩ B kw = .ok T ∧
      OnePer T b fun p => Spec.krigingMean (knotCov bessel k len X n + noise.toReal • 1)
        (knotCross bessel k len X n (pt B f p)) (fun j => ((aniValues ps kw).getD j none).toReal) := by
  obtain ⟨A, a1, a2, a3⟩ := perturbed_ok ⟨X, ps, k, K, noise⟩ n hn hKs
  simp only [hK] at a3
  obtain ⟨F, s1, _, s3⟩ := solve_ok [] n 1 A
    ⟨[((aniValues ps kw).map Flt.toReal).length, 1], fun j => ((aniValues ps kw).map Flt.toReal).getD j 0⟩ a2
    (by simp [hvals]) (fun p hp => by
      obtain rfl : p = 0 := by simpa using hp
      rw [a3]; exact hdet)
  obtain ⟨P, c1, c2, c3⟩ := crosswiseVec_ok B X b n f hB hX hrank
  obtain ⟨D, C, e1, e2, e3, e4⟩ := kernel_entries bessel k hk B X P b n f len hlen c2 c3
  have hm := matVec_ok C ⟨[n], F.flat⟩ b n e3 rfl
  have hs : ∃ t, B.shape = b :: t := by
    rcases hB with h | ⟨h, _⟩ <;> exact ⟨_, h⟩
  have hs' : ∃ t, X.shape = n :: t := by
    rcases hX with h | ⟨h, _⟩ <;> exact ⟨_, h⟩
  obtain ⟨t, ht⟩ := hs
  obtain ⟨t', ht'⟩ := hs'
  refine ⟨Tensor.squeeze ⟨[b], fun p => ∑ j : Fin n, C.flat (p * n + j) * F.flat j⟩, ?_, ?_, fun p hp => ?_⟩
  · unfold Hier.call
    simp only [filterVector_values, bind, Except.bind, a1, hn, s1, ht, ht', c1, e1, e2, hm, pure, Except.pure]
  · show (Tensor.squeeze _).shape = _
    unfold Tensor.squeeze
    by_cases h : b = 1 <;> simp [h]
  · show ∑ j : Fin n, C.flat (p * n + j) * F.flat j = _
    unfold Spec.krigingMean dotProduct
    refine Finset.sum_congr rfl fun j _ => ?_
    rw [e4 p j hp j.2]
    congr 1
    have := congrFun (congrFun (s3 0) j) 0
    have e : F.matAt n 1 0 j 0 = F.flat j := by simp [Tensor.matAt]
    rw [e] at this
    rw [this, a3, Matrix.mul_apply]
    unfold mulVec dotProduct
    refine Finset.sum_congr rfl fun l _ => ?_
    congr 1
    have hl : (l : Nat) < (aniValues ps kw).length := by rw [hvals]; exact l.2
    simp [Tensor.matAt, List.getD_eq_getElem?_getD, List.getElem?_eq_getElem hl]

theorem aniValues_empty (ps : List Param) : aniValues ps [] = ps.map (fun q => q.val) := by
  simp [aniValues, Dict.has, namedFrom_vals]

/-! ## C52 -/

/-- C52: as many parameters as knots are required, whatever the kernel: otherwise `ValueError`. -/
theorem C52_count_mismatch (bessel : Flt → ℝ → ℝ) (X : Tensor ℝ) (ps : List Param) (k : KernelObj)
    (noise : Flt) (n f : Nat) (hX : IsTable X n f) (h : ps.length ≠ n) :
    Hier.create bessel X ps k noise = .error .value := by
  unfold Hier.create
  have : ∃ t, X.shape = n :: t := by
    rcases hX with h | ⟨h, _⟩ <;> exact ⟨_, h⟩
  obtain ⟨t, ht⟩ := this
  simp only [ht]
  exact if_pos h

/-- C52: the parameter is the kriging mean from its knots: created from `n` knots (a table `X`) with as
many parameters, a kernel with length scales `len` and a noise `ε` for which the knot covariance is
invertible, its value at every queried point `q` is `k(q, X) (K + ε I)⁻¹ v`. -/
theorem C52_value (bessel : Flt → ℝ → ℝ) (k : KernelObj) (hk : k.make = k) (X B : Tensor ℝ)
    (ps : List Param) (ε : ℝ) (n b f : Nat) (len : Fin f → ℝ)
    (hlen : k.deform.HasLengths f len) (hX : IsTable X n f) (hB : IsTable B b f)
    (hrank : B.shape.length = X.shape.length) (hn : ps.length = n)
    (hdet : (knotCov bessel k len X n + ε • (1 : Matrix (Fin n) (Fin n) ℝ)).det ≠ 0) :
    ∃ h T, Hier.create bessel X ps k (Flt.fin ε) = .ok h ∧ h.call bessel B [] = .ok T ∧
      OnePer T b fun p => Spec.krigingMean (knotCov bessel k len X n + ε • 1)
        (knotCross bessel k len X n (pt B f p)) (knotValues ps n) := by
  obtain ⟨K, h1, h2, h3⟩ := create_ok bessel k hk X ps (Flt.fin ε) n f len hlen hX hn
  obtain ⟨T, t1, t2⟩ := call_core bessel k hk X B ps (Flt.fin ε) K n b f len hlen hX hB hrank hn h2 h3 []
    (by rw [aniValues_empty]; simpa using hn) (by rwa [fin_toReal])
  refine ⟨_, T, h1, t1, ?_⟩
  rw [fin_toReal] at t2
  convert t2 using 3
  funext j
  unfold knotValues
  have hj : (j : Nat) < ps.length := by rw [hn]; exact j.2
  simp [aniValues_empty, List.getD_eq_getElem?_getD, List.getElem?_eq_getElem hj]

/-- C52: a singular knot covariance is a `LinAlgError`, not a number. -/
theorem C52_singular (bessel : Flt → ℝ → ℝ) (k : KernelObj) (hk : k.make = k) (X B : Tensor ℝ)
    (ps : List Param) (ε : ℝ) (n f : Nat) (len : Fin f → ℝ)
    (hlen : k.deform.HasLengths f len) (hX : IsTable X n f) (hn : ps.length = n)
    (hdet : (knotCov bessel k len X n + ε • (1 : Matrix (Fin n) (Fin n) ℝ)).det = 0) :
    ∃ h, Hier.create bessel X ps k (Flt.fin ε) = .ok h ∧ h.call bessel B [] = .error .linAlg := by
  obtain ⟨K, h1, h2, h3⟩ := create_ok bessel k hk X ps (Flt.fin ε) n f len hlen hX hn
  obtain ⟨A, a1, a2, a3⟩ := perturbed_ok ⟨X, ps, k, K, Flt.fin ε⟩ n hn h2
  simp only [h3, fin_toReal] at a3
  refine ⟨_, h1, ?_⟩
  unfold Hier.call
  simp only [filterVector_values, bind, Except.bind, a1, hn]
  rw [solve_sing [] n 1 A _ a2 (by simp [aniValues_empty, hn]) 0 (by simp) (by rw [a3]; exact hdet)]

/-- The residual at a knot. -/
theorem kriging_at_knot {n : Nat} (K : Matrix (Fin n) (Fin n) ℝ) (ε : ℝ) (v : Fin n → ℝ)
    (hdet : (K + ε • (1 : Matrix (Fin n) (Fin n) ℝ)).det ≠ 0) (p : Fin n) :
    Spec.krigingMean (K + ε • 1) (K p) v = v p - ε * ((K + ε • 1)⁻¹ *ᵥ v) p := by
  have h := congrFun (Kriging.mulVec_inv_cancel hdet v) p
  rw [add_mulVec, Pi.add_apply, smul_mulVec, one_mulVec, Pi.smul_apply, smul_eq_mul] at h
  unfold Spec.krigingMean
  have : (K p) ⬝ᵥ ((K + ε • (1 : Matrix (Fin n) (Fin n) ℝ))⁻¹ *ᵥ v)
      = (K *ᵥ ((K + ε • (1 : Matrix (Fin n) (Fin n) ℝ))⁻¹ *ᵥ v)) p := rfl
  rw [this]
  linarith

/-- C52, what holds: without noise the parameter takes exactly the knot values at the knots. -/
theorem C52_interpolates_partial (bessel : Flt → ℝ → ℝ) (k : KernelObj) (hk : k.make = k) (X : Tensor ℝ)
    (ps : List Param) (n f : Nat) (len : Fin f → ℝ)
    (hlen : k.deform.HasLengths f len) (hX : IsTable X n f) (hn : ps.length = n)
    (hdet : (knotCov bessel k len X n).det ≠ 0) :
    ∃ h T, Hier.create bessel X ps k (Flt.fin 0) = .ok h ∧ h.call bessel X [] = .ok T ∧
      T.shape = (if n = 1 then [] else [n]) ∧ ∀ p : Fin n, T.flat p = knotValues ps n p := by
  have hd : (knotCov bessel k len X n + (0 : ℝ) • (1 : Matrix (Fin n) (Fin n) ℝ)).det ≠ 0 := by
    simpa using hdet
  obtain ⟨h, T, h1, h2, h3, h4⟩ := C52_value bessel k hk X X ps 0 n n f len hlen hX hX rfl hn hd
  refine ⟨h, T, h1, h2, h3, fun p => ?_⟩
  rw [h4 p p.2]
  have := kriging_at_knot (knotCov bessel k len X n) 0 (knotValues ps n) hd p
  simp only [zero_mul, sub_zero] at this
  exact this

/-- C52, with noise: at knot `p` the parameter misses the knot value by `ε ((K + ε I)⁻¹ v) p`. -/
theorem C52_residual (bessel : Flt → ℝ → ℝ) (k : KernelObj) (hk : k.make = k) (X : Tensor ℝ)
    (ps : List Param) (ε : ℝ) (n f : Nat) (len : Fin f → ℝ)
    (hlen : k.deform.HasLengths f len) (hX : IsTable X n f) (hn : ps.length = n)
    (hdet : (knotCov bessel k len X n + ε • (1 : Matrix (Fin n) (Fin n) ℝ)).det ≠ 0) :
    ∃ h T, Hier.create bessel X ps k (Flt.fin ε) = .ok h ∧ h.call bessel X [] = .ok T ∧
      ∀ p : Fin n, T.flat p = knotValues ps n p -
        ε * ((knotCov bessel k len X n + ε • 1)⁻¹ *ᵥ knotValues ps n) p := by
  obtain ⟨h, T, h1, h2, h3, h4⟩ := C52_value bessel k hk X X ps ε n n f len hlen hX hX rfl hn hdet
  refine ⟨h, T, h1, h2, fun p => ?_⟩
  rw [h4 p p.2]
  exact kriging_at_knot (knotCov bessel k len X n) ε (knotValues ps n) hdet p

/-- C52 fails of the code: with any noise other than zero — the default is `1e-5` — the parameter
reproduces its knot values only when they are all zero. -/
theorem C52_interpolation_fails (bessel : Flt → ℝ → ℝ) (k : KernelObj) (hk : k.make = k) (X : Tensor ℝ)
    (ps : List Param) (ε : ℝ) (hε : ε ≠ 0) (n f : Nat) (len : Fin f → ℝ)
    (hlen : k.deform.HasLengths f len) (hX : IsTable X n f) (hn : ps.length = n)
    (hdet : (knotCov bessel k len X n + ε • (1 : Matrix (Fin n) (Fin n) ℝ)).det ≠ 0) :
    ∃ h T, Hier.create bessel X ps k (Flt.fin ε) = .ok h ∧ h.call bessel X [] = .ok T ∧
      ((∀ p : Fin n, T.flat p = knotValues ps n p) ↔ ∀ p, knotValues ps n p = 0) := by
  obtain ⟨h, T, h1, h2, h3⟩ := C52_residual bessel k hk X ps ε n f len hlen hX hn hdet
  refine ⟨h, T, h1, h2, fun hp => ?_, fun hz p => ?_⟩
  · have hz : (knotCov bessel k len X n + ε • (1 : Matrix (Fin n) (Fin n) ℝ))⁻¹ *ᵥ knotValues ps n = 0 := by
      funext p
      have := hp p
      rw [h3 p] at this
      have : ε * ((knotCov bessel k len X n + ε • (1 : Matrix (Fin n) (Fin n) ℝ))⁻¹ *ᵥ knotValues ps n) p = 0 := by
        linarith
      exact (mul_eq_zero.1 this).resolve_left hε
    have := Kriging.mulVec_inv_cancel hdet (knotValues ps n)
    rw [hz, mulVec_zero] at this
    intro p
    rw [← this]; rfl
  · have : knotValues ps n = 0 := funext hz
    rw [h3 p, this]
    simp

/-- C52: linearity — knots valued `s v + t w` give `s` times the parameter of `v` plus `t` times that of
`w`, at every point. -/
theorem C52_linear (bessel : Flt → ℝ → ℝ) (k : KernelObj) (hk : k.make = k) (X B : Tensor ℝ)
    (ps qs rs : List Param) (s t ε : ℝ) (n b f : Nat) (len : Fin f → ℝ)
    (hlen : k.deform.HasLengths f len) (hX : IsTable X n f) (hB : IsTable B b f)
    (hrank : B.shape.length = X.shape.length) (hp : ps.length = n) (hq : qs.length = n) (hr : rs.length = n)
    (hv : ∀ j, knotValues rs n j = s * knotValues ps n j + t * knotValues qs n j)
    (hdet : (knotCov bessel k len X n + ε • (1 : Matrix (Fin n) (Fin n) ℝ)).det ≠ 0) :
    ∃ h₁ h₂ h₃ T₁ T₂ T₃, Hier.create bessel X ps k (Flt.fin ε) = .ok h₁ ∧
      Hier.create bessel X qs k (Flt.fin ε) = .ok h₂ ∧ Hier.create bessel X rs k (Flt.fin ε) = .ok h₃ ∧
      h₁.call bessel B [] = .ok T₁ ∧ h₂.call bessel B [] = .ok T₂ ∧ h₃.call bessel B [] = .ok T₃ ∧
      ∀ p < b, T₃.flat p = s * T₁.flat p + t * T₂.flat p := by
  obtain ⟨h₁, T₁, a1, a2, _, a4⟩ := C52_value bessel k hk X B ps ε n b f len hlen hX hB hrank hp hdet
  obtain ⟨h₂, T₂, b1, b2, _, b4⟩ := C52_value bessel k hk X B qs ε n b f len hlen hX hB hrank hq hdet
  obtain ⟨h₃, T₃, c1, c2, _, c4⟩ := C52_value bessel k hk X B rs ε n b f len hlen hX hB hrank hr hdet
  refine ⟨h₁, h₂, h₃, T₁, T₂, T₃, a1, b1, c1, a2, b2, c2, fun p hpb => ?_⟩
  rw [a4 p hpb, b4 p hpb, c4 p hpb]
  have : knotValues rs n = s • knotValues ps n + t • knotValues qs n := by
    funext j; simp [hv j]
  simp only [Spec.krigingMean]
  rw [this, mulVec_add, mulVec_smul, mulVec_smul, dotProduct_add, dotProduct_smul, dotProduct_smul]
  simp

/-- C52, what holds of trial values: when they are supplied for the first `m` knots in order, the
parameter is the kriging mean from the knot values in force. -/
theorem C52_trial_partial (bessel : Flt → ℝ → ℝ) (k : KernelObj) (hk : k.make = k) (X B : Tensor ℝ)
    (ps : List Param) (ε : ℝ) (n b f : Nat) (len : Fin f → ℝ)
    (hlen : k.deform.HasLengths f len) (hX : IsTable X n f) (hB : IsTable B b f)
    (hrank : B.shape.length = X.shape.length) (hn : ps.length = n)
    (hdet : (knotCov bessel k len X n + ε • (1 : Matrix (Fin n) (Fin n) ℝ)).det ≠ 0)
    (kw : Dict Flt) (hkw : (kw.map Prod.fst).Nodup) (m : Nat) (hm : m ≤ n)
    (hp : (kw.filter fun a => startsLS a.1).map Prod.fst = (List.range m).map (vecName "length_scale")) :
    ∃ h T, Hier.create bessel X ps k (Flt.fin ε) = .ok h ∧ h.call bessel B kw = .ok T ∧
      OnePer T b fun p => Spec.krigingMean (knotCov bessel k len X n + ε • 1)
        (knotCross bessel k len X n (pt B f p)) (knotsInForce ps kw n) := by
  have ha := aniValues_prefix ps kw hkw m (by omega) hp
  obtain ⟨K, h1, h2, h3⟩ := create_ok bessel k hk X ps (Flt.fin ε) n f len hlen hX hn
  obtain ⟨T, t1, t2⟩ := call_core bessel k hk X B ps (Flt.fin ε) K n b f len hlen hX hB hrank hn h2 h3 kw
    (by rw [ha]; simpa using hn) (by rwa [fin_toReal])
  refine ⟨_, T, h1, t1, ?_⟩
  rw [fin_toReal] at t2
  convert t2 using 3
  funext j
  unfold knotsInForce
  have hj : (j : Nat) < ps.length := by rw [hn]; exact j.2
  rw [ha]
  simp [List.getD_eq_getElem?_getD, List.getElem?_eq_getElem hj, hj]

/-- C52, trial smoothness: calling a hierarchical kernel with `smoothness=s` is calling the kernel whose
stored smoothness is `s` without that keyword. -/
theorem C52_trial_smoothness (bessel : Flt → ℝ → ℝ) (k : HierKernel) (p q : Param) (s : Flt) (hk : k.smoothness = some p)
    (hq : q.val = s) (dists : Tensor ℝ) (batch : Option (Tensor ℝ)) (kw : Dict Flt) (hkw : Dict.has kw "smoothness" = false) :
    k.call bessel dists batch (kw ++ [("smoothness", s)]) =
      { k with smoothness := some q }.call bessel dists batch kw := by
  have h1 : startsLS "smoothness" = false := by decide
  have h2 : Dict.has (kw.filter fun a => !startsLS a.1) "smoothness" = false := by
    unfold Dict.has at hkw ⊢
    rw [List.any_eq_false] at hkw ⊢
    exact fun x hx => hkw x (List.mem_of_mem_filter hx)
  have h3 : Dict.has ((kw.filter fun a => !startsLS a.1) ++ [("smoothness", s)]) "smoothness" = true := by
    simp [Dict.has]
  have h4 : ∀ n, n ≠ "smoothness" → Dict.has (kw ++ [("smoothness", s)]) n = Dict.has kw n := by
    intro n hn
    simp [Dict.has, hn.symm]
  have h5 : filterVector k.length.params (kw ++ [("smoothness", s)])
      = ((filterVector k.length.params kw).1, (filterVector k.length.params kw).2 ++ [("smoothness", s)]) := by
    simp [filterVector, List.filter_append, h1]
  unfold HierKernel.call
  rw [h4 "diffs" (by decide), h4 "dists" (by decide), h4 "self" (by decide), h5]
  split
  · rfl
  · simp only [hk]
    have h6 : Dict.setdefault ((filterVector k.length.params kw).2 ++ [("smoothness", s)]) "smoothness" p.val =
        Dict.setdefault (filterVector k.length.params kw).2 "smoothness" q.val := by
      unfold Dict.setdefault
      rw [if_pos (by exact h3), if_neg (by rw [show (filterVector k.length.params kw).2 = kw.filter fun a => !startsLS a.1 from rfl, h2]; decide), hq]
      rfl
    rw [h6]

/-- C52 fails of the code for other trials: supplying a value `w` for the second of two knots gives `w`
to the first knot and the stored value of the first knot to the second. -/
theorem C52_trial_fails (bessel : Flt → ℝ → ℝ) (k : KernelObj) (hk : k.make = k) (X B : Tensor ℝ)
    (p₀ p₁ : Param) (w : Flt) (ε : ℝ) (b f : Nat) (len : Fin f → ℝ)
    (hlen : k.deform.HasLengths f len) (hX : IsTable X 2 f) (hB : IsTable B b f)
    (hrank : B.shape.length = X.shape.length)
    (hdet : (knotCov bessel k len X 2 + ε • (1 : Matrix (Fin 2) (Fin 2) ℝ)).det ≠ 0) :
    ∃ h T, Hier.create bessel X [p₀, p₁] k (Flt.fin ε) = .ok h ∧
      h.call bessel B [("length_scale1", w)] = .ok T ∧
      knotsInForce [p₀, p₁] [("length_scale1", w)] 2 = ![p₀.val.toReal, w.toReal] ∧
      OnePer T b fun p => Spec.krigingMean (knotCov bessel k len X 2 + ε • 1)
        (knotCross bessel k len X 2 (pt B f p)) ![w.toReal, p₀.val.toReal] := by
  have e0 : vecName "length_scale" 0 = "length_scale0" := by decide
  have e1 : vecName "length_scale" 1 = "length_scale1" := by decide
  have hst : startsLS "length_scale1" = true := by decide
  have hv : aniValues [p₀, p₁] [("length_scale1", w)] = [w, p₀.val] := by
    simp [aniValues, namedFrom, e0, e1, Dict.has, hst]
  obtain ⟨K, h1, h2, h3⟩ := create_ok bessel k hk X [p₀, p₁] (Flt.fin ε) 2 f len hlen hX rfl
  obtain ⟨T, t1, t2⟩ := call_core bessel k hk X B [p₀, p₁] (Flt.fin ε) K 2 b f len hlen hX hB hrank rfl h2 h3
    [("length_scale1", w)] (by rw [hv]; rfl) (by rwa [fin_toReal])
  refine ⟨_, T, h1, t1, ?_, ?_⟩
  · funext j
    match j with
    | 0 => simp [knotsInForce, inForce, Dict.get?, e0]
    | 1 => simp [knotsInForce, inForce, Dict.get?, e1]
  · rw [fin_toReal, hv] at t2
    convert t2 using 3
    funext j
    match j with
    | 0 => rfl
    | 1 => rfl

theorem namedFrom_fst (b : String) (i : Nat) (ps : List Param) :
    (namedFrom b i ps).map Prod.fst = (List.range ps.length).map fun j => vecName b (i + j) := by
  induction ps generalizing i with
  | nil => rfl
  | cons p ps ih =>
    simp only [namedFrom, List.map_cons, List.length_cons, List.range_succ_eq_map, ih, List.map_map, Nat.add_zero]
    congr 1
    apply List.map_congr_left
    intro j _
    show vecName b (i + 1 + j) = vecName b (i + (j + 1))
    congr 1; omega

theorem namedFrom_snd (b : String) (i : Nat) (ps : List Param) : (namedFrom b i ps).map Prod.snd = ps := by
  induction ps generalizing i with
  | nil => rfl
  | cons p ps ih => simp only [namedFrom, List.map_cons, ih]

/-- C52, the listed hyperparameters: a hierarchical parameter lists its knots, in order, as `length_scale0`, `length_scale1`, …;
supplying values for all listed names in the listed order gives what the parameter with these knot values gives. -/
theorem C52_listed (bessel : Flt → ℝ → ℝ) (h : Hier) :
    h.named.map Prod.fst = (List.range h.params.length).map (fun j => "length_scale" ++ toString j) ∧
    h.named.map Prod.snd = h.params ∧
    ∀ vs : List Param, vs.length = h.params.length → ∀ B : Tensor ℝ,
      h.call bessel B ((h.named.map Prod.fst).zip (vs.map Param.val)) = { h with params := vs }.call bessel B [] := by
  have hn : h.named.map Prod.fst = (List.range h.params.length).map (vecName "length_scale") := by
    show (namedFrom "length_scale" 0 h.params).map Prod.fst = _
    rw [namedFrom_fst]
    simp only [Nat.zero_add]
  refine ⟨hn, namedFrom_snd _ _ _, fun vs hvs B => ?_⟩
  have hl : (h.named.map Prod.fst).length = (vs.map Param.val).length := by rw [hn]; simp [hvs]
  set kw := (h.named.map Prod.fst).zip (vs.map Param.val) with hkw
  have hfst : kw.map Prod.fst = h.named.map Prod.fst := List.map_fst_zip hl.le
  have hsnd : kw.map Prod.snd = vs.map Param.val := List.map_snd_zip hl.ge
  have hstart : kw.filter (fun a => startsLS a.1) = kw := by
    rw [List.filter_eq_self]
    intro a ha
    have : a.1 ∈ kw.map Prod.fst := List.mem_map_of_mem ha
    rw [hfst, hn] at this
    obtain ⟨j, -, e⟩ := List.mem_map.mp this
    rw [← e]; exact startsLS_vecName j
  have hhas : ∀ np ∈ namedFrom "length_scale" 0 h.params, Dict.has kw np.1 = true := by
    intro np hnp
    have : np.1 ∈ kw.map Prod.fst := by rw [hfst]; exact List.mem_map_of_mem hnp
    obtain ⟨a, ha, e⟩ := List.mem_map.mp this
    unfold Dict.has
    rw [List.any_eq_true]
    exact ⟨a, ha, by simp [e]⟩
  have a1 : aniValues h.params kw = vs.map Param.val := by
    unfold aniValues
    rw [hstart, hsnd, List.filter_eq_nil_iff.2 fun np hnp => by simp [hhas np hnp]]
    simp
  have a2 : aniValues vs [] = vs.map Param.val := by
    unfold aniValues
    have : ((namedFrom "length_scale" 0 vs).filter fun np => !Dict.has ([] : Dict Flt) np.1) = namedFrom "length_scale" 0 vs :=
      List.filter_eq_self.2 fun np _ => rfl
    rw [this]
    have e := congrArg (List.map Param.val) (namedFrom_snd "length_scale" 0 vs)
    rw [List.map_map] at e
    rw [List.filter_nil, List.map_nil, List.nil_append]
    exact e
  have hp : ({ h with params := vs } : Hier).perturbed = h.perturbed := by
    unfold Hier.perturbed
    simp only [hvs]
  unfold Hier.call
  simp only [filterVector_values, a1, a2, hp, hvs]

/-- A vector laid along the first axis. -/
theorem bc_first (s : List Nat) : bcShape s (List.replicate s.length 1) = some s := by
  induction s with
  | nil => rfl
  | cons a s ih =>
    have h1 : bcAxis a 1 = some a := by
      unfold bcAxis; by_cases h : a = 1 <;> simp [h]
    simp [List.replicate_succ, bcShape, h1, ih]

theorem clip_self : ∀ (s idx : List Nat), List.Forall₂ (· < ·) idx s → clipIdx s idx = idx
  | _, _, .nil => rfl
  | _, _, .cons h hs => by
    simp only [clipIdx, List.zipWith_cons_cons, clip_of_lt h]
    rw [show List.zipWith _ _ _ = clipIdx _ _ from rfl, clip_self _ _ hs]

theorem ravel_ones : ∀ (m : Nat) (idx : List Nat),
    ravel (List.replicate m 1) (clipIdx (List.replicate m 1) idx) = 0
  | 0, _ => rfl
  | m + 1, [] => rfl
  | m + 1, i :: idx => by
    simp only [List.replicate_succ, clipIdx, List.zipWith_cons_cons, ravel, if_true, Nat.zero_mul,
      Nat.zero_add]
    exact ravel_ones m idx

theorem unravel_lt : ∀ (s : List Nat) (k : Nat), k < s.prod → List.Forall₂ (· < ·) (unravel s k) s
  | [], _, _ => .nil
  | a :: s, k, h => by
    rw [List.prod_cons] at h
    have hs : 0 < s.prod := Nat.pos_of_ne_zero fun e => by simp [e] at h
    refine .cons ?_ (unravel_lt s _ (Nat.mod_lt _ hs))
    exact Nat.div_lt_of_lt_mul (by rwa [Nat.mul_comm] at h)

/-- The length scale of batch element `p` applies to the block of distances of batch element `p`. -/
theorem isoApply_ok (m : Metric) (dists len : Tensor ℝ) (b : Nat) (s : List Nat) (hd : dists.shape = b :: s)
    (v : Nat → ℝ) (hl : OnePer len b v) :
    ∃ T, isoApply m dists len = .ok T ∧ T.shape = b :: s ∧
      ∀ p < b, ∀ j < s.prod, T.flat (p * s.prod + j) = m.scaleBy (dists.flat (p * s.prod + j)) (v p) := by
  obtain ⟨h1, h2⟩ := hl
  unfold isoApply
  by_cases hb : b = 1
  · rw [if_pos hb] at h1
    simp only [h1]
    refine ⟨_, rfl, hd, fun p hp j _ => ?_⟩
    obtain rfl : p = 0 := by omega
    show m.scaleBy _ (len.flat 0) = _
    rw [h2 0 hp]
  · rw [if_neg hb] at h1
    have hne : dists.shape ≠ [] := by simp [hd]
    simp only [h1, if_neg hne]
    have hbc : bcShape dists.shape (b :: List.replicate (dists.shape.length - 1) 1) = some (b :: s) := by
      have hbb : bcAxis b b = some b := by simp [bcAxis]
      simp [hd, bcShape, hbb, bc_first]
    obtain ⟨T, e1, e2, e3⟩ := bop_get m.scaleBy dists
      ⟨b :: List.replicate (dists.shape.length - 1) 1, len.flat⟩ (b :: s) hbc
    refine ⟨T, e1, e2, fun p hp j hj => ?_⟩
    have hk : p * s.prod + j < (b :: s).prod := by
      rw [List.prod_cons]
      calc p * s.prod + j < p * s.prod + s.prod := by omega
        _ = (p + 1) * s.prod := by ring
        _ ≤ b * s.prod := Nat.mul_le_mul_right _ hp
    have hu := unravel_lt (b :: s) _ hk
    have hT : T.flat (p * s.prod + j) = T.get (unravel (b :: s) (p * s.prod + j)) := by
      unfold Tensor.get
      rw [e2, ravel_unravel _ _ hk]
    rw [hT, e3 _ hu]
    congr 1
    · rw [hd, clip_self _ _ hu]
      unfold Tensor.get
      rw [hd, ravel_unravel _ _ hk]
    · have hdiv : (p * s.prod + j) / s.prod = p := by
        rw [Nat.add_comm, Nat.add_mul_div_right _ _ (by omega), Nat.div_eq_of_lt hj, Nat.zero_add]
      rw [← h2 p hp]
      show len.flat (ravel (b :: List.replicate (dists.shape.length - 1) 1)
        (clipIdx (b :: List.replicate (dists.shape.length - 1) 1) (unravel (b :: s) (p * s.prod + j)))) = _
      congr 1
      show (if b = 1 then 0 else (p * s.prod + j) / s.prod) * (List.replicate (dists.shape.length - 1) 1).prod
        + ravel (List.replicate (dists.shape.length - 1) 1)
          (clipIdx (List.replicate (dists.shape.length - 1) 1) _) = p
      rw [ravel_ones, if_neg hb, hdiv]
      simp

/-- C52: a kernel whose isotropic length scale is hierarchical gives every batch element its own length
scale, the value of the parameter at that element's features: for distances with first axis the batch
(crosswise or pairwise), entry `j` of the block of element `p` is the kernel function of
`distance / ℓ(x_p)` (`/ ℓ(x_p)²` for squared distances). `v p` is the value of the parameter at
element `p` (`C52_value`). -/
theorem C52_kernel (bessel : Flt → ℝ → ℝ) (m : Metric) (h : Hier) (sm : Option Param)
    (dists B len : Tensor ℝ) (b : Nat) (s : List Nat) (hd : dists.shape = b :: s) (v : Nat → ℝ)
    (hc : h.call bessel B [] = .ok len) (hl : OnePer len b v) :
    ∃ T, (HierKernel.create m h sm).call bessel dists (some B) [] = .ok T ∧ T.shape = b :: s ∧
      ∀ p < b, ∀ j < s.prod, T.flat (p * s.prod + j) =
        KFn.value bessel ((sm.map Param.val).getD none) (HierKernel.create m h sm).fn
          (m.scaleBy (dists.flat (p * s.prod + j)) (v p)) := by
  obtain ⟨T, t1, t2, t3⟩ := isoApply_ok m dists len b s hd v hl
  have hf : (filterVector h.params ([] : Dict Flt)).2 = [] := rfl
  have hc' : h.call bessel B (filterVector h.params []).1 = .ok len := by
    rw [← hc]
    unfold Hier.call
    simp only [filterVector_twice]
  have hrun : (match sm with
      | none => (HierKernel.create m h sm).fn.run bessel T []
      | some p => (HierKernel.create m h sm).fn.run bessel T (Dict.setdefault [] "smoothness" p.val))
      = .ok (T.map (KFn.value bessel ((sm.map Param.val).getD none) (HierKernel.create m h sm).fn)) := by
    have hwb := make_wellBound (KernelObj.mk (.isotropy m ⟨none, none, none, true⟩) sm .rbf)
    have := run_rest bessel ((KernelObj.mk (.isotropy m ⟨none, none, none, true⟩) sm .rbf).make)
      hwb T [] [] rfl rfl
    cases sm with
    | none => exact this
    | some p => exact this
  refine ⟨T.map (KFn.value bessel ((sm.map Param.val).getD none) (HierKernel.create m h sm).fn), ?_, t2,
    fun p hp j hj => ?_⟩
  · rw [← hrun]
    unfold HierKernel.call
    have e1 : (HierKernel.create m h sm).length = h := rfl
    have e2 : (HierKernel.create m h sm).metric = m := rfl
    have e3 : (HierKernel.create m h sm).smoothness = sm := rfl
    simp only [Dict.has, List.any_nil, Bool.or_self, Bool.false_eq_true, if_false, e1, e2, e3, hf, hc', bind,
      Except.bind, t1]
    cases sm <;> rfl
  · show KFn.value _ _ _ (T.flat _) = _
    rw [t3 p hp j hj]

/-- C52: without the features of the batch the kernel cannot be evaluated (`KeyError`). -/
theorem C52_features_needed (bessel : Flt → ℝ → ℝ) (m : Metric) (h : Hier) (sm : Option Param)
    (dists : Tensor ℝ) (kw : Dict Flt) (hk : Unreserved kw) :
    (HierKernel.create m h sm).call bessel dists none kw = .error .key := by
  have h1 : Dict.has kw "diffs" = false := Dict.has_false fun a ha => (hk a ha).2.1
  have h2 : Dict.has kw "dists" = false := Dict.has_false fun a ha => (hk a ha).2.2.1
  have h3 : Dict.has kw "self" = false := Dict.has_false fun a ha => (hk a ha).1
  unfold HierKernel.call
  simp only [h1, h2, h3, Bool.or_self, Bool.false_eq_true, if_false]

/-- The knot covariance is positive semidefinite, and positive definite if the knots are different points. -/
theorem knotCov_definite (bessel : Flt → ℝ → ℝ) (k : KernelObj) (hk : k.fn.Suits k.deform.metric)
    (X : Tensor ℝ) (n f : Nat) (len : Fin f → ℝ) (hlen : ∀ c, 0 < len c) : (knotCov bessel k len X n).PosSemidef ∧
      ((∀ i j : Fin n, i ≠ j → pt X f i ≠ pt X f j) → (knotCov bessel k len X n).PosDef) := by
  have hg := value_definite bessel ((k.smoothness.map (·.val)).getD none) k.fn k.deform.metric hk (fun (i : Fin n) (c : Fin f) => pt X f i c / len c)
  have e : knotCov bessel k len X n = Matrix.of fun i j : Fin n => KFn.value bessel ((k.smoothness.map (·.val)).getD none) k.fn
      (distOf k.deform.metric (fun c : Fin f => pt X f i c / len c) (fun c => pt X f j c / len c)) := by
    ext i j
    simp only [knotCov, KernelObj.covFn, of_apply]
  rw [e]
  refine ⟨hg.1, fun h => hg.2 fun i j hij => ?_⟩
  by_contra hne
  refine h i j hne (funext fun c => ?_)
  exact (div_left_inj' (hlen c).ne').mp (congrFun hij c)

/-- C52: with an `RBF` kernel on squared distances (the default) or a closed-form Matérn kernel on distances, the
parameter can be evaluated at every batch of points: with positive noise (the default) whatever the knots — repeated knots
included — and without noise if the knots are different points. -/
theorem C52_always (bessel : Flt → ℝ → ℝ) (k : KernelObj) (hk : k.make = k)
    (hg : k.fn.Suits k.deform.metric)
    (X B : Tensor ℝ) (ps : List Param) (ε : ℝ) (n b f : Nat) (len : Fin f → ℝ)
    (hε : 0 < ε ∨ (ε = 0 ∧ ∀ i j : Fin n, i ≠ j → pt X f i ≠ pt X f j))
    (hlen : k.deform.HasLengths f len) (hX : IsTable X n f) (hB : IsTable B b f)
    (hrank : B.shape.length = X.shape.length) (hn : ps.length = n) :
    ∃ h T, Hier.create bessel X ps k (Flt.fin ε) = .ok h ∧ h.call bessel B [] = .ok T ∧
      OnePer T b fun p => Spec.krigingMean (knotCov bessel k len X n + ε • 1)
        (knotCross bessel k len X n (pt B f p)) (knotValues ps n) :=
  C52_value bessel k hk X B ps ε n b f len hlen hX hB hrank hn (by
    have hd := knotCov_definite bessel k hg X n f len (hasLengths_pos hlen)
    rcases hε with hε | ⟨rfl, hne⟩
    · exact Kriging.det_ne_zero (Kriging.posdef_of_psd_add hd.1 hε)
    · rw [zero_smul, add_zero]
      exact Kriging.det_ne_zero (hd.2 hne))

/-! ## Non-vacuity -/

/-- The default higher-level kernel: `RBF` with unit length scale on squared distances. -/
def exHigher : KernelObj := ⟨.isotropy .F2 ⟨Flt.fin 1, Flt.fin 0, Flt.fin 0, true⟩, none, .rbf⟩

theorem exHigher_lengths (f : Nat) : exHigher.deform.HasLengths f fun _ => 1 :=
  ⟨1, one_pos, rfl, fun _ => rfl⟩

/-- Three knots in the plane, two of them equal, valued 1, 2 and 3, evaluated at the knots with the
default noise: the values are not all reproduced. -/
example (bessel : Flt → ℝ → ℝ) (X : Tensor ℝ) (hX : X = ⟨[3, 2], fun k => if k < 2 then 0 else 1⟩)
    (ps : List Param)
    (hp : ps = [⟨Flt.fin 1, Flt.fin 0, Flt.fin 5, false⟩, ⟨Flt.fin 2, Flt.fin 0, Flt.fin 5, false⟩,
      ⟨Flt.fin 3, Flt.fin 0, Flt.fin 5, false⟩]) :
    ∃ h T, Hier.create bessel X ps exHigher Hier.defaultNoise = .ok h ∧ h.call bessel X [] = .ok T ∧
      ¬ ∀ p : Fin 3, T.flat p = knotValues ps 3 p := by
  have hε : (0 : ℝ) < 1 / 100000 := by norm_num
  have hT : IsTable X 3 2 := .inl (by rw [hX])
  obtain ⟨h, T, h1, h2, h3⟩ := C52_interpolation_fails bessel exHigher rfl X ps (1 / 100000) hε.ne' 3 2
    (fun _ => 1) (exHigher_lengths 2) hT (by rw [hp]; rfl)
    (Kriging.det_ne_zero (Kriging.posdef_of_psd_add (knotCov_definite bessel exHigher rfl X 3 2 _ fun _ => one_pos).1 hε))
  refine ⟨h, T, h1, h2, fun hall => ?_⟩
  have := h3.1 hall 0
  simp [knotValues, hp, fin_toReal] at this

/-- One knot without noise: the parameter is the knot value there. -/
example (bessel : Flt → ℝ → ℝ) (v : Param) :
    ∃ h T, Hier.create bessel ⟨[1, 1], fun _ => 4⟩ [v] exHigher (Flt.fin 0) = .ok h ∧
      h.call bessel ⟨[1, 1], fun _ => 4⟩ [] = .ok T ∧ T.flat 0 = v.val.toReal := by
  obtain ⟨h, T, h1, h2, _, h4⟩ := C52_interpolates_partial bessel exHigher rfl ⟨[1, 1], fun _ => 4⟩ [v] 1 1
    (fun _ => 1) (exHigher_lengths 1) (.inl rfl) rfl (by
      rw [det_fin_one]
      simp [knotCov, KernelObj.covFn, exHigher, KFn.value, Real.exp_ne_zero])
  exact ⟨h, T, h1, h2, h4 0⟩

end MuyGPyS
