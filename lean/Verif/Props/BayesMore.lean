import Verif.Props.BayesWitness
import Verif.Props.Matern
import Verif.Props.ReversionWitness

/-!
# C71, continued: heteroscedastic noise and the general Matérn kernel
-/

namespace MuyGPyS
open Py Matrix MeasureTheory ProbabilityTheory

/-- **C71** for heteroscedastic noise: every response has its own noise variance (times the variance scale), and the model's noise tensor is the one
`make_heteroscedastic_tensor` makes of these variances and the neighbours the index returns for the test points. Then `regress_any` predicts the posterior. -/
theorem C71_heteroscedastic (bessel : Flt → ℝ → ℝ) (R : Regressor) (hk : R.kernel.make = R.kernel)
    (hko : R.gp.kout = KernelObj.kout) (hsuit : R.kernel.fn.Suits R.kernel.deform.metric)
    (w : NNWrapper) (hw : w.Exact) (Q : Tensor ℝ) (m : Nat) (len : Fin w.f → ℝ) (hlen : R.kernel.deform.HasLengths w.f len)
    (hQ : Q.shape = [m, w.f]) (hm : 0 < m) (hk0 : 0 < w.nnCount) (hkN : w.nnCount ≤ w.N)
    (noise : Tensor ℝ) (hnoise : noise.shape = [w.N]) (nn : Tensor Int) (D T : Tensor ℝ) (hnn : w.getNns Q = .ok (nn, D))
    (hT : makeHeteroscedasticTensor noise nn = .ok T) (hR : R.gp.noise = .heteroscedastic T)
    (hpos : (∀ i < w.N, 0 < noise.get [i]) ∨ ((∀ i < w.N, 0 ≤ noise.get [i]) ∧ DistinctRows w.train w.N w.f))
    {Ω : Type*} [MeasurableSpace Ω] (P : Measure Ω) [IsProbabilityMeasure P] (G : Fin m → Ω → ℝ) (Y : Ω → Tensor ℝ)
    (hobs : ObservedWith P w (R.kernel.covFn bessel len) R.gp.boundScale (fun i => noise.get [i]) (fun p : Fin m => rowPt Q w.f p) G Y) :
    RegressPosterior bessel R w Q P G Y := by
  obtain ⟨o1, o2, o3, o4, o5, o6, hY⟩ := hobs.facts
  obtain ⟨I, D', a1, a2, a3, a4, -⟩ := C41_plain w hw Q m hQ hm hk0 hkN
  rw [hnn] at a1
  cases a1
  have hin : ∀ i < m, ∀ j < w.nnCount, ∃ x : Nat, nn.get [i, j] = x ∧ x < w.N := fun i hi j hj => by
    obtain ⟨l, e1, e2⟩ := a4 i hi
    obtain ⟨x, x1, x2⟩ := rowList_get e1 hj
    exact ⟨x, x2, e2.mem x (List.mem_of_getElem? x1)⟩
  have hv : AllValid w.N nn := valid_of_rows a2 hin
  obtain ⟨T', t1, t2, t3⟩ := take_vec hnoise hv
  unfold makeHeteroscedasticTensor at hT
  rw [hT] at t1
  cases t1
  have hTs : T.shape = [m, w.nnCount] := t2.trans a2
  have hTv : ∀ p < m, ∀ j < w.nnCount, T.get [p, j] = noise.get [pointOf w.N (nn.get [p, j])] := fun p hp j hj => by
    rw [Tensor.get2 T hTs, t3, Tensor.get2 nn a2]
    simp only [feature, hnoise]
  have hin' : ∀ p < m, ∀ j < w.nnCount, pointOf w.N (nn.get [p, j]) < w.N := fun p hp j hj => by
    obtain ⟨x, x1, x2⟩ := hin p hp j hj
    rw [x1, pointOf_nat]; exact x2
  have hreg : R.gp.noise.Suffices m w.nnCount (DistinctRows w.train w.N w.f) := by
    rw [hR]
    rcases hpos with h | ⟨h, hd⟩
    · exact .inl fun p hp j hj => by rw [hTv p hp j hj]; exact h _ (hin' p hp j hj)
    · exact .inr ⟨fun p hp j hj => by rw [hTv p hp j hj]; exact h _ (hin' p hp j hj), hd⟩
  have := posterior_general bessel R hk hko w hw Q m len hlen hQ hm hk0 hkN (by rw [hR]; exact hTs) (fun i => noise.get [i])
    (fun nn' D'' g1 _ h1 p hp => by
      rw [hnn] at g1
      cases g1
      constructor
      · rw [hR]
        show Matrix.diagonal _ = _
        congr 1
        funext j
        exact hTv p hp j j.2
      · obtain ⟨l, e1, e2⟩ := h1 p hp
        have hc := nbrCov_definite bessel R.kernel hsuit len (hasLengths_pos hlen) w.train w.N w.nnCount nn p
        exact Kriging.det_ne_zero (Noise.posdef_of_suffices
          (hreg.mono fun hd => distinct_of_nodup e1 e2.nodup e2.mem hd) hp hc.1 hc.2)) P G Y 0 o1 o2 o3 o4 o5
    (fun p => by
      rw [← covariance_self (o1.snd.eval p).aemeasurable, o6, covFn_self bessel R.kernel hsuit, add_zero]) hY
  simp only [mul_zero, add_zero] at this
  obtain ⟨nbr, μ, v, r1, r2, r3, r4⟩ := this
  exact ⟨nbr, μ, v, r1, r2, r3, fun p => ⟨(r4 p).1, (r4 p).2.1, (r4 p).2.2.1, (r4 p).2.2.2.2.1, (r4 p).2.2.2.2.2⟩⟩

/-- The general Matérn kernel is the correlation of the Matérn process, except at equal points. -/
theorem gen_covFn (k : KernelObj) (hg : k.fn = .gen) (hm2 : k.deform.metric = .l2) (q : Param) (ν : ℝ)
    (hsm : k.smoothness = some q) (hq : q.val = Flt.fin ν) {f : Nat} (len : Fin f → ℝ) (hlen : ∀ c, 0 < len c) (x y : Fin f → ℝ) :
    (x ≠ y → k.covFn maternGen len x y = maternProcess ν len x y) ∧ k.covFn maternGen len x x = 1 - deficit ν := by
  have hs : (k.smoothness.map (·.val)).getD none = Flt.fin ν := by rw [hsm, ← hq]; rfl
  constructor
  · intro hne
    unfold maternProcess KernelObj.covFn
    rw [if_neg hne, hs, hg, hm2]
    refine maternGen_pos ν (lt_of_le_of_ne (C17_metrics _ _ (fun c => x c / len c)).2.1 fun h => hne ?_)
    have := (C17_metrics _ _ (fun c => x c / len c)).2.2.1.mp h.symm
    funext c
    exact (div_left_inj' (hlen c).ne').mp (congrFun this c)
  · unfold KernelObj.covFn
    rw [hs, hg, distOf_self]
    refine (maternGen_zero ν).trans ?_
    unfold deficit; ring

/-- **C71** for the general Matérn kernel (free smoothness, or a smoothness without a closed form): the kernel of a point with itself falls short of 1 by
the deficit (C62). With a noise parameter above the deficit, different training points, and test points that are not training points,
`regress_any` predicts the posterior for the true Matérn process whose observations have the noise parameter minus the deficit. -/
theorem C71_matern (R : Regressor) (hk : R.kernel.make = R.kernel) (hko : R.gp.kout = KernelObj.kout)
    (hg : R.kernel.fn = .gen) (hm2 : R.kernel.deform.metric = .l2) (q : Param) (ν : ℝ) (hν0 : 0 < ν)
    (hsm : R.kernel.smoothness = some q) (hq : q.val = Flt.fin ν) (τ : ℝ) (hnoise : R.gp.noise = .homoscedastic τ) (hτ : deficit ν < τ)
    (w : NNWrapper) (hw : w.Exact) (Q : Tensor ℝ) (m : Nat) (len : Fin w.f → ℝ) (hlen : R.kernel.deform.HasLengths w.f len)
    (hQ : Q.shape = [m, w.f]) (hm : 0 < m) (hk0 : 0 < w.nnCount) (hkN : w.nnCount ≤ w.N)
    (hd : DistinctRows w.train w.N w.f) (hnew : ∀ p < m, ∀ i < w.N, rowPt Q w.f p ≠ rowPt w.train w.f i)
    {Ω : Type*} [MeasurableSpace Ω] (P : Measure Ω) [IsProbabilityMeasure P] (G : Fin m → Ω → ℝ) (Y : Ω → Tensor ℝ)
    (hobs : Observed P w (maternProcess ν len) R.gp.boundScale (τ - deficit ν) (fun p : Fin m => rowPt Q w.f p) G Y) :
    RegressPosterior maternGen R w Q P G Y := by
  obtain ⟨o1, o2, o3, o4, o5, o6, hY⟩ := hobs.facts
  have hpos := hasLengths_pos hlen
  have hcov := gen_covFn R.kernel hg hm2 q ν hsm hq len hpos
  have hself : ∀ x, maternProcess ν len x x = 1 := fun x => if_pos rfl
  have := posterior_general maternGen R hk hko w hw Q m len hlen hQ hm hk0 hkN (by rw [hnoise]; trivial) (fun _ => τ)
    (fun nn D _ _ h1 p hp => by
      constructor
      · rw [hnoise]
        show τ • (1 : Matrix (Fin w.nnCount) (Fin w.nnCount) ℝ) = _
        rw [Matrix.smul_one_eq_diagonal]
      · obtain ⟨l, e1, e2⟩ := h1 p hp
        exact gen_nbr_det R hg hm2 q ν hν0 hsm hq τ hnoise hτ len hpos w.train w.N w.nnCount nn p l e1 e2.nodup e2.mem hd)
    P G Y 0 o1 o2 o3 (fun i j => by
      rw [o4]
      by_cases h : i = j
      · subst h
        rw [if_pos rfl, if_pos rfl, hself, (hcov _ (rowPt w.train w.f i)).2]
        ring
      · have hne : rowPt w.train w.f i ≠ rowPt w.train w.f j := fun hh => by
          obtain ⟨c, hc, hx⟩ := hd i i.2 j j.2 fun hh' => h (Fin.ext hh')
          refine hx ?_
          have := congrFun hh ⟨c, hc⟩
          simp only [rowPt] at this
          simp only [feature, hw.1, this]
        rw [if_neg h, if_neg h, (hcov _ _).1 hne]) (fun i p => by
      rw [o5, (hcov _ _).1 fun hh => hnew p p.2 i i.2 hh.symm])
    (fun p => by
      rw [← covariance_self (o1.snd.eval p).aemeasurable, o6, hself, add_zero]) hY
  simp only [mul_zero, add_zero] at this
  obtain ⟨nbr, μ, v, r1, r2, r3, r4⟩ := this
  exact ⟨nbr, μ, v, r1, r2, r3, fun p => ⟨(r4 p).1, (r4 p).2.1, (r4 p).2.2.1, (r4 p).2.2.2.2.1, (r4 p).2.2.2.2.2⟩⟩

/-- The Matérn process exists: its correlation matrices are positive semidefinite. -/
theorem maternProcess_psd {ν : ℝ} (hν : 0 < ν) {f : Nat} (len : Fin f → ℝ) (hlen : ∀ c, 0 < len c) {ι : Type} [Fintype ι] [DecidableEq ι]
    (z : ι → Fin f → ℝ) : (Matrix.of fun a b => maternProcess ν len (z a) (z b)).PosSemidef := by
  have hl : 0 < √(2 * ν) := by positivity
  have := Matern.mix_psd hν fun (i : ι) c => √(2 * ν) * (z i c / len c)
  convert this using 1
  ext i j
  simp only [Matrix.of_apply]
  rw [← mix_dist hl.le (fun c => z i c / len c) (fun c => z j c / len c)]
  unfold maternProcess
  by_cases h : z i = z j
  · rw [if_pos h, h, distOf_self, mul_zero, zero_div, Matern.mix_zero hν]
  · have hd : 0 < distOf .l2 (fun c => z i c / len c) (fun c => z j c / len c) := by
      refine lt_of_le_of_ne (C17_metrics _ _ (fun c => z i c / len c)).2.1 fun h' => h ?_
      have := (C17_metrics _ _ (fun c => z i c / len c)).2.2.1.mp h'.symm
      funext c
      exact (div_left_inj' (hlen c).ne').mp (congrFun this c)
    rw [if_neg h, Matern.maternCorrelation_mix hν hd]

/-- Responses drawn from a statistical model with a positive semidefinite covariance function exist. -/
theorem observedWith_exists (w : NNWrapper) (k : (Fin w.f → ℝ) → (Fin w.f → ℝ) → ℝ) (s : ℝ) (hs : 0 ≤ s) (τ : Nat → ℝ) (hτ : ∀ i < w.N, 0 ≤ τ i)
    {m : Nat} (q : Fin m → Fin w.f → ℝ)
    (hpsd : ∀ z : Fin w.N ⊕ Fin m → Fin w.f → ℝ, (Matrix.of fun a b => k (z a) (z b)).PosSemidef) :
    ∃ (Ω : Type) (_ : MeasurableSpace Ω) (P : Measure Ω) (_ : IsProbabilityMeasure P) (G : Fin m → Ω → ℝ) (Y : Ω → Tensor ℝ),
      ObservedWith P w k s τ q G Y := by
  obtain ⟨Ω, i1, P, i2, L, e, h1, h2, h3⟩ := prior_exists_of_psd k s
    (Sum.elim (fun i : Fin w.N => rowPt w.train w.f i) q) (by
      have := (hpsd (Sum.elim (fun i : Fin w.N => rowPt w.train w.f i) q)).smul hs
      convert this using 1
      ext a b
      rfl) (fun i : Fin w.N => s * τ i) fun i => mul_nonneg hs (hτ i i.2)
  have hsum : (Sum.elim (fun i => L (.inl i)) (fun p => L (.inr p)) : Fin w.N ⊕ Fin m → Ω → ℝ) = L := by
    funext a; cases a <;> rfl
  refine ⟨Ω, i1, P, i2, fun p => L (.inr p), fun ω => ⟨[w.N], fun x => if h : x < w.N then L (.inl ⟨x, h⟩) ω + e ⟨x, h⟩ ω else 0⟩,
    fun i => L (.inl i), e, by rw [hsum]; exact h1, h2, by rw [hsum]; exact h3, fun _ => rfl, fun ω i => ?_⟩
  rw [Tensor.get1 _ rfl]
  simp

/-- Non-vacuity of `C71_matern`: three training points on a line, a test point between them, smoothness 1, noise 1. -/
example : ∃ (w : NNWrapper) (Ω : Type) (_ : MeasurableSpace Ω) (P : Measure Ω) (_ : IsProbabilityMeasure P) (G : Fin 1 → Ω → ℝ) (Y : Ω → Tensor ℝ),
    w.train = lineTrain ∧ w.nnCount = 2 ∧
      Observed P w (maternProcess 1 fun _ => 1) 1 (1 - deficit 1) (fun p : Fin 1 => rowPt (⟨[1, 1], fun _ => 2⟩ : Tensor ℝ) w.f p) G Y ∧
      RegressPosterior maternGen lineMatern w ⟨[1, 1], fun _ => 2⟩ P G Y := by
  obtain ⟨answer, hw⟩ := line_exact
  set w : NNWrapper := ⟨3, 1, lineTrain, 2, fun x y => |x 0 - y 0|, false, answer⟩ with hwd
  have hd : deficit 1 < 1 := by
    have := ((C62_correlation 1 one_pos).1 _ machEps_pos).1
    unfold deficit; linarith
  obtain ⟨Ω, i1, P, i2, G, Y, h⟩ := observedWith_exists w (maternProcess 1 fun _ => 1) 1 zero_le_one (fun _ => 1 - deficit 1) (fun _ _ => by linarith)
    (fun p : Fin 1 => rowPt (⟨[1, 1], fun _ => 2⟩ : Tensor ℝ) w.f p) fun z => maternProcess_psd one_pos _ (fun _ => one_pos) z
  refine ⟨w, Ω, i1, P, i2, G, Y, rfl, rfl, h, ?_⟩
  refine C71_matern lineMatern rfl rfl rfl rfl _ 1 one_pos rfl rfl 1 rfl hd w hw ⟨[1, 1], fun _ => 2⟩ 1 (fun _ => 1)
    ⟨1, one_pos, rfl, fun _ => rfl⟩ rfl one_pos two_pos (by show 2 ≤ 3; norm_num) line_distinct (fun p hp i hi hh => ?_) P G Y h
  have h0 : rowPt (⟨[1, 1], fun _ => 2⟩ : Tensor ℝ) 1 p 0 = rowPt lineTrain 1 i 0 := congrFun hh (0 : Fin 1)
  have hi' : i < 3 := hi
  have e1 : rowPt (⟨[1, 1], fun _ => 2⟩ : Tensor ℝ) 1 p 0 = 2 := rfl
  have e2 : rowPt lineTrain 1 i 0 = lineTrain.flat i := by
    show lineTrain.get [i, 0] = _
    rw [Tensor.get2 lineTrain rfl]; simp
  rw [e1, e2] at h0
  interval_cases i <;> norm_num [lineTrain] at h0

/-- Non-vacuity of `C71_heteroscedastic`: the same training points, whose responses have the noise variances 1, 2 and 3. -/
example (bs : Flt → ℝ → ℝ) : ∃ (w : NNWrapper) (nn : Tensor Int) (D T : Tensor ℝ) (Ω : Type) (_ : MeasurableSpace Ω) (P : Measure Ω)
    (_ : IsProbabilityMeasure P) (G : Fin 2 → Ω → ℝ) (Y : Ω → Tensor ℝ), w.train = lineTrain ∧ w.nnCount = 2 ∧ w.getNns lineTest = .ok (nn, D) ∧
      makeHeteroscedasticTensor ⟨[3], fun i => i + 1⟩ nn = .ok T ∧
      RegressPosterior bs ⟨lineModel.kernel, MuyGPS.make (.heteroscedastic T) KernelObj.kout 1⟩ w lineTest P G Y := by
  obtain ⟨answer, hw⟩ := line_exact
  set w : NNWrapper := ⟨3, 1, lineTrain, 2, fun x y => |x 0 - y 0|, false, answer⟩ with hwd
  have hN : w.nnCount ≤ w.N := by show 2 ≤ 3; norm_num
  obtain ⟨nn, D, a1, a2, a3, a4, -⟩ := C41_plain w hw lineTest 2 rfl two_pos two_pos hN
  have hv : AllValid w.N nn := valid_of_rows a2 fun i hi j hj => by
    obtain ⟨l, e1, e2⟩ := a4 i hi
    obtain ⟨x, x1, x2⟩ := rowList_get e1 hj
    exact ⟨x, x2, e2.mem x (List.mem_of_getElem? x1)⟩
  obtain ⟨T, t1, -, -⟩ := take_vec (data := ⟨[3], fun i => (i : ℝ) + 1⟩) (N := w.N) rfl hv
  have hpos : ∀ i < w.N, 0 < (⟨[3], fun i => (i : ℝ) + 1⟩ : Tensor ℝ).get [i] := fun i _ => by
    rw [Tensor.get1 _ rfl]; positivity
  obtain ⟨Ω, i1, P, i2, G, Y, h⟩ := observedWith_exists w (lineModel.kernel.covFn bs fun _ => 1) 1 zero_le_one
    (fun i => (⟨[3], fun i => (i : ℝ) + 1⟩ : Tensor ℝ).get [i]) (fun i hi => (hpos i hi).le) (fun p : Fin 2 => rowPt lineTest w.f p) fun z => by
      let φ := Fintype.equivFin (Fin w.N ⊕ Fin 2)
      have := (value_definite bs ((lineModel.kernel.smoothness.map (·.val)).getD none) lineModel.kernel.fn lineModel.kernel.deform.metric rfl
        fun i c => z (φ.symm i) c / (1 : ℝ)).1
      have h2 := this.submatrix φ
      convert h2 using 1
      ext a b
      simp [KernelObj.covFn]
  exact ⟨w, nn, D, T, Ω, i1, P, i2, G, Y, rfl, rfl, a1, t1, C71_heteroscedastic bs ⟨lineModel.kernel, MuyGPS.make (.heteroscedastic T) KernelObj.kout 1⟩ rfl rfl rfl w hw lineTest 2 (fun _ => 1)
    ⟨1, one_pos, rfl, fun _ => rfl⟩ rfl two_pos two_pos hN _ rfl nn D T a1 t1 rfl (.inl hpos) P G Y h⟩

end MuyGPyS
