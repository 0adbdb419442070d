import Verif.Spec.MultiResponse
import Verif.Props.BayesMore

/-!
# C79: several responses are predicted as each would be alone
-/

namespace MuyGPyS
open Py Matrix MeasureTheory ProbabilityTheory

theorem singleResponse_get {Y : Tensor ℝ} {N r : Nat} (hY : Y.shape = [N, r]) (c i : Nat) :
    (singleResponse Y c).shape = [N] ∧ (singleResponse Y c).get [i] = Y.get [i, c] := by
  have hs : (singleResponse Y c).shape = [N] := by unfold singleResponse; rw [hY]; rfl
  refine ⟨hs, ?_⟩
  rw [Tensor.get1 _ hs]
  rfl

/-- Several responses and a singular neighbourhood covariance make `regress_any` fail. -/
theorem regress_singular_multi (bessel : Flt → ℝ → ℝ) (R : Regressor) (hk : R.kernel.make = R.kernel)
    (Q X Y : Tensor ℝ) (idx nn : Tensor Int) (M N f r b n : Nat) (hr : r ≠ n) (len : Fin f → ℝ) (hlen : R.kernel.deform.HasLengths f len)
    (hQ : IsTable Q M f) (hX : IsTable X N f) (hY : Y.shape = [N, r]) (hrank : Q.shape.length = X.shape.length)
    (hi : idx.shape = [b]) (hnn : nn.shape = [b, n]) (hvi : AllValid M idx) (hv : AllValid N nn)
    (hν : R.gp.noise.Fits b n) (p : Nat) (hp : p < b)
    (hsing : (nbrCov bessel R.kernel len X N n nn p + R.gp.noise.mat n p).det = 0) :
    regressFromIndices bessel R idx nn Q X Y = .error .linAlg := by
  obtain ⟨K, C, Z, t1, t2, t3, t4, t5, t6, t7⟩ := tensorsFromIndices_ok bessel R hk Q X Y idx nn M N f r b n
    len hlen hQ hX (.inl hY) hrank hi hnn hvi hv
  have t4' : Z.shape = [b, n, r] := by rw [t4, hY]; rfl
  obtain ⟨P, p1, p2, p3⟩ := Noise.perturb_cov R.gp.noise hν K t2
  have h := C24_singular_is_error b n P C Z p2 t3 (.inr ⟨r, hr, t4'⟩) p hp (by rw [p3, t5 p hp]; exact hsing)
  have hm : R.gp.posteriorMean K C Z = .error .linAlg := by
    unfold MuyGPS.posteriorMean Noise.perturbFn
    simp only [p1, bind, Except.bind, h]
  unfold regressFromIndices
  simp only [t1, bind, Except.bind, hm]

/-- What the pipeline sees: the index answers, and its answers are valid. -/
theorem regress_run (bessel : Flt → ℝ → ℝ) (R : Regressor) (w : NNWrapper) (hw : w.Exact) (Q : Tensor ℝ)
    (m : Nat) (hQ : Q.shape = [m, w.f]) (hm : 0 < m) (hk0 : 0 < w.nnCount) (hkN : w.nnCount ≤ w.N) :
    ∃ (nn : Tensor Int) (D : Tensor ℝ), w.getNns Q = .ok (nn, D) ∧ nn.shape = [m, w.nnCount] ∧ AllValid w.N nn ∧
      (∀ i < m, ∃ l : List Nat, rowList nn w.nnCount i = l.map Int.ofNat ∧
        Nearest (· < w.N) (fun j => w.dist (rowPt Q w.f i) (rowPt w.train w.f j)) w.nnCount l) ∧
      ∀ Y, regressAny bessel R w Q w.train Y = regressFromIndices bessel R (arange m) nn Q w.train Y := by
  obtain ⟨I, D, h1, h2, h3, h4, h5⟩ := C41_plain w hw Q m hQ hm hk0 hkN
  refine ⟨I, D, h1, h2, valid_of_rows h2 fun i hi j hj => ?_, h4, fun Y => ?_⟩
  · obtain ⟨l, e1, e2⟩ := h4 i hi
    obtain ⟨x, x1, x2⟩ := rowList_get e1 hj
    exact ⟨x, x2, e2.mem x (List.mem_of_getElem? x1)⟩
  · unfold regressAny
    rw [hQ]
    simp only [h1, bind, Except.bind]

/-- **C79** (partial): unless there are as many responses as neighbours, `regress_any` treats several responses as it treats each of them alone: either
every run — with all responses, or with one — fails with the same error (a singular covariance), or all succeed, and column `c` of the means and the variances
are those of the run with response `c`. -/
theorem C79_columns_partial (bessel : Flt → ℝ → ℝ) (R : Regressor) (hk : R.kernel.make = R.kernel)
    (hko : R.gp.kout = KernelObj.kout) (w : NNWrapper) (hw : w.Exact) (Q Y : Tensor ℝ)
    (m r : Nat) (len : Fin w.f → ℝ) (hlen : R.kernel.deform.HasLengths w.f len)
    (hQ : Q.shape = [m, w.f]) (hm : 0 < m) (hk0 : 0 < w.nnCount)
    (hkN : w.nnCount ≤ w.N) (hν : R.gp.noise.Fits m w.nnCount) (hY : Y.shape = [w.N, r]) (hr : r ≠ w.nnCount) :
    (regressAny bessel R w Q w.train Y = .error .linAlg ∧
      ∀ c < r, regressAny bessel R w Q w.train (singleResponse Y c) = .error .linAlg) ∨
    ∃ μ v, regressAny bessel R w Q w.train Y = .ok (μ, v) ∧ ColumnsOf (regressAny bessel R w Q w.train) Y m r μ v := by
  obtain ⟨nn, D, -, h2, hv, -, hrun⟩ := regress_run bessel R w hw Q m hQ hm hk0 hkN
  have hrk : Q.shape.length = w.train.shape.length := by rw [hQ, hw.1]; rfl
  by_cases hs : ∃ p < m, (nbrCov bessel R.kernel len w.train w.N w.nnCount nn p + R.gp.noise.mat w.nnCount p).det = 0
  · obtain ⟨p, hp, hd⟩ := hs
    refine .inl ⟨?_, fun c _ => ?_⟩
    · rw [hrun]
      exact regress_singular_multi bessel R hk Q w.train Y (arange m) nn m w.N w.f r m w.nnCount hr len hlen (.inl hQ) (.inl hw.1)
        hY hrk rfl h2 (arange_valid m) hv hν p hp hd
    · rw [hrun]
      exact regress_singular bessel R hk Q w.train _ (arange m) nn m w.N w.f m w.nnCount len hlen (.inl hQ) (.inl hw.1)
        (singleResponse_get hY c 0).1 hrk rfl h2 (arange_valid m) hv hν p hp hd
  · push Not at hs
    obtain ⟨μ, v, r1, -, r2, r3, r4⟩ := C54_regress_multi_variance_partial bessel R hk hko Q w.train Y (arange m) nn m w.N w.f r m w.nnCount hr
      len hlen (.inl hQ) (.inl hw.1) hY hrk rfl h2 (arange_valid m) hv hν hs
    rw [← hrun] at r1
    refine .inr ⟨μ, v, r1, r2, r3, fun c hc => ?_⟩
    obtain ⟨μc, vc, q1, q2, -, q4⟩ := C54_regress bessel R hk hko Q w.train (singleResponse Y c) (arange m) nn m w.N w.f m w.nnCount
      len hlen (.inl hQ) (.inl hw.1) (singleResponse_get hY c 0).1 hrk rfl h2 (arange_valid m) hv hν hs
    rw [← hrun] at q1
    obtain rfl : v = vc := regress_variance_same bessel R w Q w.train _ _ _ _ _ _ r1 q1
    refine ⟨μc, q1, q2, fun p hp => ?_⟩
    rw [(r4 p hp).1 c hc, (q4 p hp).1]
    congr 1
    funext j
    show feature Y _ c = feature (singleResponse Y c) _ 0
    simp only [feature, hY, (singleResponse_get hY c 0).1]
    exact (singleResponse_get hY c _).2.symm

/-- **C79** fails with as many responses as neighbours: whatever the model, the data and the test points (unless there is a single one of each), `regress_any`
raises a `ValueError`, although it predicts every one of the responses alone. -/
theorem C79_as_many_responses_as_neighbours_fails (bessel : Flt → ℝ → ℝ) (R : Regressor) (hk : R.kernel.make = R.kernel)
    (hko : R.gp.kout = KernelObj.kout) (w : NNWrapper) (hw : w.Exact) (Q Y : Tensor ℝ)
    (m : Nat) (len : Fin w.f → ℝ) (hlen : R.kernel.deform.HasLengths w.f len)
    (hQ : Q.shape = [m, w.f]) (hm : 0 < m) (hk0 : 0 < w.nnCount)
    (hkN : w.nnCount ≤ w.N) (hν : R.gp.noise.Fits m w.nnCount) (hY : Y.shape = [w.N, w.nnCount]) (h1 : m * w.nnCount ≠ 1) :
    regressAny bessel R w Q w.train Y = .error .value ∧
    (R.kernel.fn.Suits R.kernel.deform.metric → R.gp.noise.Suffices m w.nnCount (DistinctRows w.train w.N w.f) →
      ∀ c < w.nnCount, ∃ μ v, regressAny bessel R w Q w.train (singleResponse Y c) = .ok (μ, v) ∧ μ.shape = [m] ∧ v.shape = [m]) := by
  obtain ⟨nn, D, -, h2, hv, hnear, hrun⟩ := regress_run bessel R w hw Q m hQ hm hk0 hkN
  have hrk : Q.shape.length = w.train.shape.length := by rw [hQ, hw.1]; rfl
  constructor
  · rw [hrun]
    obtain ⟨K, C, Z, t1, t2, t3, t4, -⟩ := tensorsFromIndices_ok bessel R hk Q w.train Y (arange m) nn m w.N w.f w.nnCount m w.nnCount
      len hlen (.inl hQ) (.inl hw.1) (.inl hY) hrk rfl h2 (arange_valid m) hv
    have t4' : Z.shape = [m, w.nnCount, w.nnCount] := by rw [t4, hY]; rfl
    obtain ⟨P, p1, p2, p3⟩ := Noise.perturb_cov R.gp.noise hν K t2
    have hne : m * (w.nnCount * w.nnCount) ≠ 1 := by
      intro h
      rw [← mul_assoc] at h
      have := Nat.eq_one_of_mul_eq_one_right h
      exact h1 (Nat.eq_one_of_mul_eq_one_right h)
    have h := (C24_responses_eq_neighbours_fails m w.nnCount P C Z p2 t3 t4').1 hne
    have hm' : R.gp.posteriorMean K C Z = .error .value := by
      unfold MuyGPS.posteriorMean Noise.perturbFn
      simp only [p1, bind, Except.bind, h]
    unfold regressFromIndices
    simp only [t1, bind, Except.bind, hm']
  · intro hsuit hreg c _
    obtain ⟨nn', μ, v, -, r1, r2, r3, -⟩ := C54_regress_always bessel R hk hko hsuit w hw Q (singleResponse Y c) m len hlen hQ
      (singleResponse_get hY c 0).1 hm hk0 hkN hν hreg
    exact ⟨μ, v, r1, r2, r3⟩

/-- **C79** with **C71** (partial): let each column of the responses be noisy values of a Gaussian process with the model's kernel, scale and noise (the columns may depend on
each other in any way). Unless there are as many columns as neighbours, `regress_any` predicts all columns at once, each by its posterior. -/
theorem C79_posterior_partial (bessel : Flt → ℝ → ℝ) (R : Regressor) (hk : R.kernel.make = R.kernel)
    (hko : R.gp.kout = KernelObj.kout) (hsuit : R.kernel.fn.Suits R.kernel.deform.metric)
    (w : NNWrapper) (hw : w.Exact) (Q : Tensor ℝ) (m r : Nat) (len : Fin w.f → ℝ) (hlen : R.kernel.deform.HasLengths w.f len)
    (hQ : Q.shape = [m, w.f]) (hm : 0 < m) (hr0 : 0 < r) (hr : r ≠ w.nnCount) (hk0 : 0 < w.nnCount) (hkN : w.nnCount ≤ w.N)
    (τ : ℝ) (hτ : R.gp.noise.Level τ) (hreg : R.gp.noise.Suffices m w.nnCount (DistinctRows w.train w.N w.f))
    {Ω : Type*} [MeasurableSpace Ω] (P : Measure Ω) [IsProbabilityMeasure P] (G : Nat → Fin m → Ω → ℝ) (Y : Ω → Tensor ℝ)
    (hY : ∀ ω, (Y ω).shape = [w.N, r])
    (hobs : ∀ c < r, Observed P w (R.kernel.covFn bessel len) R.gp.boundScale τ (fun p : Fin m => rowPt Q w.f p) (G c)
      fun ω => singleResponse (Y ω) c) :
    ∃ (μ : Ω → Tensor ℝ) (v : Tensor ℝ), (∀ ω, regressAny bessel R w Q w.train (Y ω) = .ok (μ ω, v) ∧ (μ ω).shape = [m, r]) ∧ v.shape = [m] ∧
      ∀ c < r, ∃ nbr : Fin m → Fin w.nnCount → Fin w.N,
        (∀ p : Fin m, Nearest (· < w.N) (fun j => w.dist (rowPt Q w.f p) (rowPt w.train w.f j)) w.nnCount (List.ofFn fun j => (nbr p j).1)) ∧
        ∀ p : Fin m, PosteriorOf P (fun ω j => (Y ω).get [(nbr p j).1, c]) (G c p) (fun ω => (μ ω).get [p, c]) (v.get [p]) := by
  have hcol : ∀ c < r, RegressPosterior bessel R w Q P (G c) fun ω => singleResponse (Y ω) c := fun c hc => by
    obtain ⟨nbr, μ, v, r1, r2, r3, r4⟩ := C71_posterior bessel R hk hko hsuit w hw Q m len hlen hQ hm hk0 hkN τ hτ hreg P (G c) _ (hobs c hc)
    exact ⟨nbr, μ, v, r1, r2, r3, fun p => ⟨(r4 p).1, (r4 p).2.1, (r4 p).2.2.1, (r4 p).2.2.2.2.1, (r4 p).2.2.2.2.2⟩⟩
  have hrun : ∀ ω, ∃ μ v, regressAny bessel R w Q w.train (Y ω) = .ok (μ, v) ∧ ColumnsOf (regressAny bessel R w Q w.train) (Y ω) m r μ v := fun ω => by
    rcases C79_columns_partial bessel R hk hko w hw Q (Y ω) m r len hlen hQ hm hk0 hkN (Noise.level_fits hτ _ _) (hY ω) hr with ⟨-, h⟩ | h
    · obtain ⟨_, μ, v, -, r2, -⟩ := hcol 0 hr0
      have := (r2 ω).1
      rw [h 0 hr0] at this
      cases this
    · exact h
  choose μ v e1 e2 e3 e4 using hrun
  obtain ⟨ω₀⟩ : Nonempty Ω := by
    by_contra hne
    rw [not_nonempty_iff] at hne
    have h0 : P = 0 := Measure.eq_zero_of_isEmpty P
    exact (IsProbabilityMeasure.ne_zero P) h0
  have hv : ∀ ω, v ω = v ω₀ := fun ω => regress_variance_same bessel R w Q w.train _ _ _ _ _ _ (e1 ω) (e1 ω₀)
  refine ⟨μ, v ω₀, fun ω => ⟨by rw [e1, hv], e2 ω⟩, e3 _, fun c hc => ?_⟩
  obtain ⟨nbr, μc, vc, r1, r2, -, r4⟩ := hcol c hc
  have hμ : ∀ ω, vc = v ω₀ ∧ ∀ p < m, (μ ω).get [p, c] = (μc ω).get [p] := fun ω => by
    obtain ⟨μ', q1, -, q2⟩ := e4 ω c hc
    rw [(r2 ω).1] at q1
    injection q1 with q1
    injection q1 with q1 q1'
    exact ⟨q1'.trans (hv ω), fun p hp => by rw [q2 p hp, q1]⟩
  refine ⟨nbr, r1, fun p => ?_⟩
  have h := r4 p
  rw [(hμ ω₀).1] at h
  have f1 : (fun ω (j : Fin w.nnCount) => (Y ω).get [(nbr p j).1, c]) = fun ω j => (singleResponse (Y ω) c).get [(nbr p j).1] := by
    funext ω j
    exact (singleResponse_get (hY ω) c _).2.symm
  have f2 : (fun ω => (μ ω).get [p, c]) = fun ω => (μc ω).get [p] := funext fun ω => (hμ ω).2 p p.2
  rw [f1, f2]
  exact h

/-- Non-vacuity of `C79_columns_partial` and the failure: three training points on a line, two neighbours, three responses (which are predicted) and two responses
(which are not). -/
example (bs : Flt → ℝ → ℝ) : ∃ w : NNWrapper, w.Exact ∧ w.N = 3 ∧ w.nnCount = 2 ∧
    (∃ μ v, regressAny bs lineModel w lineTest w.train ⟨[3, 3], fun k => k⟩ = .ok (μ, v) ∧
      ColumnsOf (regressAny bs lineModel w lineTest w.train) ⟨[3, 3], fun k => k⟩ 2 3 μ v) ∧
    regressAny bs lineModel w lineTest w.train ⟨[3, 2], fun k => k⟩ = .error .value := by
  obtain ⟨answer, hw⟩ := line_exact
  have hN : (2 : Nat) ≤ 3 := by norm_num
  refine ⟨_, hw, rfl, rfl, ?_, ?_⟩
  · rcases C79_columns_partial bs lineModel rfl rfl _ hw lineTest ⟨[3, 3], fun k => k⟩ 2 3 (fun _ => 1) ⟨1, one_pos, rfl, fun _ => rfl⟩ rfl two_pos
      two_pos hN trivial rfl (by show 3 ≠ 2; norm_num) with ⟨-, h⟩ | h
    · obtain ⟨nn, μ, v, -, h2, -⟩ := C54_regress_always bs lineModel rfl rfl rfl _ hw lineTest (singleResponse ⟨[3, 3], fun k => k⟩ 0) 2 (fun _ => 1)
        ⟨1, one_pos, rfl, fun _ => rfl⟩ rfl rfl two_pos two_pos hN trivial (.inl one_pos)
      rw [h 0 (by norm_num)] at h2
      cases h2
    · exact h
  · exact (C79_as_many_responses_as_neighbours_fails bs lineModel rfl rfl _ hw lineTest ⟨[3, 2], fun k => k⟩ 2 (fun _ => 1)
      ⟨1, one_pos, rfl, fun _ => rfl⟩ rfl two_pos two_pos hN trivial rfl (by show 2 * 2 ≠ 1; norm_num)).1

/-- Non-vacuity of `C79_posterior_partial`: the same process observed in one column and, with the same values, in two more. -/
example (bs : Flt → ℝ → ℝ) : ∃ (w : NNWrapper) (Ω : Type) (_ : MeasurableSpace Ω) (P : Measure Ω) (_ : IsProbabilityMeasure P)
    (G : Nat → Fin 2 → Ω → ℝ) (Y : Ω → Tensor ℝ) (μ : Ω → Tensor ℝ) (v : Tensor ℝ), w.train = lineTrain ∧
      (∀ ω, regressAny bs lineModel w lineTest lineTrain (Y ω) = .ok (μ ω, v)) ∧
      ∀ c < 3, ∀ p : Fin 2, P.map (fun ω => G c p ω - (μ ω).get [p, c]) = gaussianReal 0 (v.get [p]).toNNReal := by
  obtain ⟨answer, hw⟩ := line_exact
  set w : NNWrapper := ⟨3, 1, lineTrain, 2, fun x y => |x 0 - y 0|, false, answer⟩ with hwd
  obtain ⟨Ω, i1, P, i2, G, Y, h⟩ := observed_exists bs lineModel.kernel rfl w (fun _ => 1) 1 1 zero_le_one zero_le_one
    (fun p : Fin 2 => rowPt lineTest w.f p)
  have hsing : ∀ c < 3, ∀ ω, (singleResponse (⟨[3, 3], fun k => (Y ω).get [k / 3]⟩ : Tensor ℝ) c).shape = [3] ∧
      ∀ i : Fin w.N, (singleResponse (⟨[3, 3], fun k => (Y ω).get [k / 3]⟩ : Tensor ℝ) c).get [i.1] = (Y ω).get [i.1] := fun c hc ω => by
    refine ⟨rfl, fun i => ?_⟩
    rw [(singleResponse_get (Y := ⟨[3, 3], fun k => (Y ω).get [k / 3]⟩) rfl c i).2, Tensor.get2 _ rfl]
    show (Y ω).get [(i.1 * 3 + c) / 3] = _
    rw [show (i.1 * 3 + c) / 3 = i.1 by omega]
  obtain ⟨L, e, h1, h2, h3, h4, h5⟩ := h
  obtain ⟨μ, v, r1, -, r2⟩ := C79_posterior_partial bs lineModel rfl rfl rfl w hw lineTest 2 3 (fun _ => 1)
    ⟨1, one_pos, rfl, fun _ => rfl⟩ rfl two_pos three_pos (by show 3 ≠ 2; norm_num) two_pos (by show 2 ≤ 3; norm_num) 1 rfl (.inl one_pos) P (fun _ => G)
    (fun ω => ⟨[3, 3], fun k => (Y ω).get [k / 3]⟩) (fun _ => rfl)
    (fun c hc => ⟨L, e, h1, h2, h3, fun ω => (hsing c hc ω).1, fun ω i => ((hsing c hc ω).2 i).trans (h5 ω i)⟩)
  refine ⟨w, Ω, i1, P, i2, fun _ => G, _, μ, v, rfl, fun ω => (r1 ω).1, fun c hc p => ?_⟩
  obtain ⟨nbr, -, hp⟩ := r2 c hc
  exact (hp p).error

end MuyGPyS
