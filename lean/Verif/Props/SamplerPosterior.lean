import Verif.Props.SamplerDefault
import Verif.Props.ContinuityFails
import Verif.Props.BayesMore

/-!
# C76: a model with the sampler's kernel predicts the sampler's test responses
-/

namespace MuyGPyS
open Py

theorem take_vec_table {α : Type} (f : Nat → α) (N : Nat) (idx : Tensor Int) :
    (⟨[N, 1], f⟩ : Tensor α).take idx = ((⟨[N], f⟩ : Tensor α).take idx).map fun t => ⟨t.shape ++ [1], t.flat⟩ := by
  unfold Tensor.take
  simp only [List.prod_cons, List.prod_nil, mul_one, List.append_nil]
  split <;> rfl

theorem crosswise_vec_table (q x : Nat → ℝ) (m N : Nat) (idx nn : Tensor Int) :
    crosswiseTensor ⟨[m, 1], q⟩ ⟨[N, 1], x⟩ idx nn = crosswiseTensor ⟨[m], q⟩ ⟨[N], x⟩ idx nn := by
  unfold crosswiseTensor
  rw [take_vec_table, take_vec_table]
  cases (⟨[m], q⟩ : Tensor ℝ).take idx with
  | error e => rfl
  | ok t =>
    cases (⟨[N], x⟩ : Tensor ℝ).take nn with
    | error e => rfl
    | ok u =>
      obtain ⟨s, f⟩ := t
      obtain ⟨s', f'⟩ := u
      simp only [Except.map]
      rcases s with _ | ⟨b, _ | ⟨b2, s⟩⟩ <;> rcases s' with _ | ⟨c, _ | ⟨c2, _ | ⟨c3, s'⟩⟩⟩ <;> simp

theorem pairwise_vec_table (x : Nat → ℝ) (N : Nat) (nn : Tensor Int) :
    pairwiseTensor ⟨[N, 1], x⟩ nn = pairwiseTensor ⟨[N], x⟩ nn := by
  unfold pairwiseTensor
  rw [take_vec_table]
  cases (⟨[N], x⟩ : Tensor ℝ).take nn with
  | error e => rfl
  | ok u =>
    obtain ⟨s', f'⟩ := u
    simp only [Except.map]
    rcases s' with _ | ⟨c, _ | ⟨c2, _ | ⟨c3, s'⟩⟩⟩ <;> simp

/-- One-dimensional features are treated like a table with one column. -/
theorem regress_vec_table (bessel : Flt → ℝ → ℝ) (R : Regressor) (w : NNWrapper) (Q X Y : Tensor ℝ) (m N : Nat) (hQ : Q.shape = [m]) (hX : X.shape = [N]) :
    regressAny bessel R w Q X Y = regressAny bessel R w (asTable Q) (asTable X) Y := by
  obtain ⟨_, q⟩ := Q
  obtain ⟨_, x⟩ := X
  subst hQ hX
  have hq : w.getNns ⟨[m], q⟩ = w.getNns ⟨[m, 1], q⟩ := rfl
  unfold regressAny asTable regressFromIndices tensorsFromIndices makePredictTensors defCrosswise defPairwise
  simp only [hq, Option.getD_some, crosswise_vec_table, pairwise_vec_table]

end MuyGPyS

namespace MuyGPyS.Sampler
open Py Matrix MeasureTheory ProbabilityTheory

/-- **C76**, for any sampler that draws from the Gaussian process prior: a regressor with the sampler's kernel, the variance scale 1 and the *total* variance of
the noise in the training responses predicts for every test point the conditional law of its test response given the training responses of
its nearest neighbours (the test response has the variance `τ` in addition). -/
theorem posterior_of_draws (bessel : Flt → ℝ → ℝ) (S : Obj) (n : Nat) (a b τ : ℝ) (R : Regressor) (hk : R.kernel.make = R.kernel)
    (hko : R.gp.kout = KernelObj.kout) (hker : R.kernel = S.gp.kernel) (hsc : R.gp.boundScale = 1)
    (ha : R.gp.noise.Level a) (w : NNWrapper) (hw : w.Exact) (Q : Tensor ℝ) (len : Fin w.f → ℝ) (hlen : R.kernel.deform.HasLengths w.f len)
    (hQ : Q.shape = [n - w.N, w.f]) (hm : 0 < n - w.N) (hk0 : 0 < w.nnCount) (hkN : w.nnCount ≤ w.N)
    (htr : ∀ i < w.N, rowPt w.train w.f i = pt S.trainFeatures w.f i) (hte : ∀ p < n - w.N, rowPt Q w.f p = pt S.testFeatures w.f p)
    (hself : ∀ x, R.kernel.covFn bessel len x x + b = 1 + τ)
    (hreg : ∀ (nn : Tensor Int) (p : Nat) (l : List Nat), p < n - w.N → rowList nn w.nnCount p = l.map Int.ofNat → l.Nodup → (∀ i ∈ l, i < w.N) →
      (nbrCov bessel R.kernel len w.train w.N w.nnCount nn p + R.gp.noise.mat w.nnCount p).det ≠ 0)
    (hD : S.Draws bessel n w.N w.f len a b)
    (Ω : Type) (_ : MeasurableSpace Ω) (P : Measure Ω) (hP : IsProbabilityMeasure P) (z e : Ω → Nat → ℝ) (hz : StandardNormals P n w.N z e) :
    ∃ Ytr Yte : Ω → Tensor ℝ, (∀ ω, S.sample bessel (z ω) (e ω) = .ok (Ytr ω, Yte ω)) ∧
    ∃ (nbr : Fin (n - w.N) → Fin w.nnCount → Fin w.N) (μ : Ω → Tensor ℝ) (v : Tensor ℝ),
      (∀ p : Fin (n - w.N), Nearest (· < w.N) (fun j => w.dist (rowPt Q w.f p) (rowPt w.train w.f j)) w.nnCount (List.ofFn fun j => (nbr p j).1)) ∧
      (∀ ω, regressAny bessel R w Q w.train (Ytr ω) = .ok (μ ω, v) ∧ (μ ω).shape = [n - w.N]) ∧ v.shape = [n - w.N] ∧
      ∀ p : Fin (n - w.N), 0 ≤ v.get [p] + τ ∧
        (∀ᵐ ω ∂P, condDistrib (fun ω => (Yte ω).get [p]) (fun ω j => (Ytr ω).get [(nbr p j).1]) P (fun j => (Ytr ω).get [(nbr p j).1]) =
          gaussianReal ((μ ω).get [p]) (v.get [p] + τ).toNNReal) ∧
        P.map (fun ω => (Yte ω).get [p] - (μ ω).get [p]) = gaussianReal 0 (v.get [p] + τ).toNNReal := by
  obtain ⟨Ytr, Yte, d1, d2, d3, d4, d5, d6, d7, d8⟩ := hD Ω _ P z e hz
  refine ⟨Ytr, Yte, d1, ?_⟩
  have := posterior_general bessel R hk hko w hw Q (n - w.N) len hlen hQ hm hk0 hkN (Noise.level_fits ha _ _) (fun _ => a)
    (fun nn D _ _ h1 p hp => ⟨by rw [Noise.level_mat ha, Matrix.smul_one_eq_diagonal], by
      obtain ⟨l, e1, e2⟩ := h1 p hp
      exact hreg nn p l hp e1 e2.nodup e2.mem⟩) P (fun p ω => (Yte ω).get [p]) Ytr τ d3 d4 d5
    (fun i j => by rw [d6, hsc, one_mul, htr i i.2, htr j j.2, hker]) (fun i p => by rw [d7, hsc, one_mul, htr i i.2, hte p p.2, hker])
    (fun p => by
      rw [← covariance_self (d3.snd.eval p).aemeasurable, d8, hsc, one_mul, if_pos rfl, ← hker, hself])
    (fun ω => (d2 ω).1)
  obtain ⟨nbr, μ, v, r1, r2, r3, r4⟩ := this
  rw [hsc] at r4
  simp only [one_mul] at r4
  exact ⟨nbr, μ, v, r1, r2, r3, fun p => ⟨(r4 p).1, (r4 p).2.2.1, (r4 p).2.2.2.2.1⟩⟩


/-- The selected rows of different points are different. -/
theorem distinct_of_rows {t x : Tensor ℝ} {m n f : Nat} (hd : DistinctRows x n f) (l : List Nat) (hl : l.length = m) (hnd : l.Nodup)
    (hm : ∀ i ∈ l, i < n) (h : ∀ i < m, pt t f i = pt x f (l.getD i 0)) : DistinctRows t m f := by
  intro i hi j hj hij
  have e : ∀ i, (h : i < m) → l.getD i 0 = l[i]'(by omega) := fun i h => List.getD_eq_getElem _ _ _
  obtain ⟨c, hc, hne⟩ := hd (l.getD i 0) (by rw [e i hi]; exact hm _ (List.getElem_mem _)) (l.getD j 0)
    (by rw [e j hj]; exact hm _ (List.getElem_mem _)) (by
      rw [e i hi, e j hj]
      exact fun hh => hij ((List.Nodup.getElem_inj_iff hnd).mp hh))
  refine ⟨c, hc, ?_⟩
  have h1 := congrFun (h i hi) ⟨c, hc⟩
  have h2 := congrFun (h j hj) ⟨c, hc⟩
  simp only [pt] at h1 h2
  rw [h1, h2]
  exact hne

theorem asTable_table {t x : Tensor ℝ} {m n f : Nat} (hT : IsTable x n f) (ht : t.shape = m :: x.shape.tail) :
    (asTable t).shape = [m, f] ∧ ∀ i, rowPt (asTable t) f i = pt t f i := by
  obtain ⟨_, g⟩ := t
  rcases hT with hT | ⟨hT, rfl⟩
  · rw [hT] at ht
    have ht' : _ = [m, f] := ht
    subst ht'
    exact ⟨rfl, fun i => rfl⟩
  · rw [hT] at ht
    have ht' : _ = [m] := ht
    subst ht'
    refine ⟨rfl, fun i => ?_⟩
    funext c
    simp only [rowPt, pt, feature, asTable]
    rw [Tensor.get2 _ rfl, Tensor.get1 _ rfl]
    simp

theorem regress_table (bessel : Flt → ℝ → ℝ) (R : Regressor) (w : NNWrapper) {t u x : Tensor ℝ} {m m' n f : Nat} (hT : IsTable x n f)
    (ht : t.shape = m :: x.shape.tail) (hu : u.shape = m' :: x.shape.tail) (Y : Tensor ℝ) :
    regressAny bessel R w t u Y = regressAny bessel R w (asTable t) (asTable u) Y := by
  rcases hT with hT | ⟨hT, rfl⟩
  · have : ∀ {s : Tensor ℝ} {k : Nat}, s.shape = k :: x.shape.tail → asTable s = s := fun h => by
      rw [hT] at h
      unfold asTable
      rw [h]
      rfl
    rw [this ht, this hu]
  · rw [hT] at ht hu
    exact regress_vec_table bessel R w t u Y _ _ ht hu

/-- **C76**, for samplers over any table of different points, and kernels whose covariances the noise makes non-singular. -/
theorem posterior_of_table (bessel : Flt → ℝ → ℝ) (x : Tensor ℝ) (n f : Nat) (hn1 : n ≠ 1) (hx : IsTable x n f) (hd : DistinctRows x n f) (ratio : ℝ)
    (h1 : 1 ≤ ⌊n * ratio⌋₊) (hn : ⌊n * ratio⌋₊ < n) (k : KernelObj) (hk : k.make = k) (len : Fin f → ℝ)
    (hlen : k.deform.HasLengths f len) (ν : Noise) (b : ℝ) (hτ : ν.Level b) (hpd : ((BenchmarkGP.new k ν).cov bessel b len x n).PosDef)
    (τ σ : ℝ) (hself : ∀ x, k.covFn bessel len x x + b = 1 + τ)
    (hreg : ∀ (R : Regressor) (N' : Nat) (X : Tensor ℝ) (nnCount : Nat) (nn : Tensor Int) (p : Nat) (l : List Nat), R.kernel = k → R.gp.noise.Level (b + σ ^ 2) →
      DistinctRows X N' f → rowList nn nnCount p = l.map Int.ofNat → l.Nodup → (∀ i ∈ l, i < N') →
      (nbrCov bessel R.kernel len X N' nnCount nn p + R.gp.noise.mat nnCount p).det ≠ 0)
    (hσ : 0 ≤ σ) (sfl : List Nat)
    (hs : sfl.Perm (List.range n)) (draw : Nat → Nat) :
    ∃ S, create x n ratio k ν σ sfl draw = .ok S ∧ S.masks.Parts n ⌊n * ratio⌋₊ ∧ S.Predicts bessel n ⌊n * ratio⌋₊ f (b + σ ^ 2) τ := by
  obtain ⟨S, e1, e2, e3, -, -, e4, e5, e6⟩ := C75_law_partial bessel x n f hn1 hx ratio h1 hn.le k hk len hlen ν b hτ hpd σ hσ sfl hs draw
  obtain ⟨rest, hsh⟩ : ∃ rest, x.shape = n :: rest := by
    rcases hx with h | ⟨h, -⟩
    · exact ⟨_, h⟩
    · exact ⟨_, h⟩
  obtain ⟨S', tr, te, g1, -, -, -, -, g2, -, -, g3, g4, -, g5, -⟩ := C74_features_partial x n rest hsh ratio h1 hn.le k ν σ sfl hs draw
  rw [e1] at g1
  injection g1 with g1
  subst g1
  set c := ⌊n * ratio⌋₊ with hc
  rw [g3] at g4 g5
  have hdt : DistinctRows S.trainFeatures c f := by
    refine distinct_of_rows hd tr g3 (by rw [g2]; exact positions_nodup _) (fun i hi => ?_) fun i hi => pt_of_rows hsh g4 hx tr g5 i hi
    rw [g2] at hi
    unfold positions at hi
    rw [← e3.train]
    exact List.mem_range.mp (List.mem_filter.mp hi).1
  refine ⟨S, e1, e3, ?_⟩
  intro w hw hwf hwN hwt hk0 hkN R hR hko hsc ha Ω _ P hP z e hz
  obtain ⟨N, f', train, nnCount, dist, squared, answer⟩ := w
  simp only at hwf hwN hwt hk0 hkN
  subst hwf hwN hwt
  obtain ⟨t1, t2⟩ := asTable_table hx e4
  obtain ⟨q1, q2⟩ := asTable_table hx e5
  obtain ⟨Ytr, Yte, r1, nbr, μ, v, r2, r3, r4, r5⟩ := posterior_of_draws bessel S n (b + σ ^ 2) b τ R (by rw [hR, e2, hk]) hko
    hR hsc ha _ hw (asTable S.testFeatures) len (by rw [hR, e2]; exact hlen) q1 (by show 0 < n - c; omega) hk0 hkN (fun i _ => t2 i) (fun p _ => q2 p)
    (by rw [hR, e2]; exact hself)
    (by
      have hD : DistinctRows (asTable S.trainFeatures) c f' := by
        intro i hi j hj hij
        obtain ⟨d, hd', hne⟩ := hdt i hi j hj hij
        refine ⟨d, hd', ?_⟩
        have a1 := congrFun (t2 i) ⟨d, hd'⟩
        have a2 := congrFun (t2 j) ⟨d, hd'⟩
        simp only [pt, rowPt] at a1 a2
        simp only [feature, t1]
        rw [a1, a2]
        exact hne
      exact fun nn p l _ e1 hnd hmem => hreg R c (asTable S.trainFeatures) nnCount nn p l (by rw [hR, e2]) ha hD e1 hnd hmem) e6 Ω _ P hP z e hz
  refine ⟨Ytr, Yte, r1, nbr, μ, v, ?_, fun ω => ?_, r4, r5⟩
  · simp only [t2, q2] at r2
    exact r2
  · rw [regress_table bessel R _ hx e5 e4]
    exact r3 ω

/-- **C76** (partial), for samplers over any table of different points and kernels with a closed form. -/
theorem C76_posterior_partial (bessel : Flt → ℝ → ℝ) (x : Tensor ℝ) (n f : Nat) (hn1 : n ≠ 1) (hx : IsTable x n f) (hd : DistinctRows x n f) (ratio : ℝ)
    (h1 : 1 ≤ ⌊n * ratio⌋₊) (hn : ⌊n * ratio⌋₊ < n) (k : KernelObj) (hk : k.make = k) (hsuit : k.fn.Suits k.deform.metric) (len : Fin f → ℝ)
    (hlen : k.deform.HasLengths f len) (ν : Noise) (τ : ℝ) (hτ : ν.Level τ) (hτ0 : 0 ≤ τ) (σ : ℝ) (hσ : 0 ≤ σ) (sfl : List Nat)
    (hs : sfl.Perm (List.range n)) (draw : Nat → Nat) :
    ∃ S, create x n ratio k ν σ sfl draw = .ok S ∧ S.masks.Parts n ⌊n * ratio⌋₊ ∧ S.Predicts bessel n ⌊n * ratio⌋₊ f (τ + σ ^ 2) τ := by
  refine posterior_of_table bessel x n f hn1 hx hd ratio h1 hn k hk len hlen ν τ hτ
    (closed_posDef bessel k hsuit ν τ hτ0 len (hasLengths_pos hlen) x n hd) τ σ (fun x => by rw [covFn_self bessel k hsuit])
    (fun R N' X nnCount nn p l hR ha hD e1 hnd hmem => ?_) hσ sfl hs draw
  have hc := nbrCov_definite bessel R.kernel (by rw [hR]; exact hsuit) len (hasLengths_pos hlen) X N' nnCount nn p
  have hnn : 0 ≤ τ + σ ^ 2 := by positivity
  rw [Noise.level_mat ha]
  exact Kriging.det_ne_zero ((hc.2 (distinct_of_nodup e1 hnd hmem hD)).add_posSemidef (PosSemidef.one.smul hnn))

/-- **C76** (partial) for samplers with the general Matérn kernel and noise above its deficit, over any table of different points. The test responses have the additional
variance `τ` minus the deficit, as the sampler's covariance matrix has the deficit on its diagonal. -/
theorem C76_matern_partial (x : Tensor ℝ) (n f : Nat) (hn1 : n ≠ 1) (hx : IsTable x n f) (hd : DistinctRows x n f) (ratio : ℝ)
    (h1 : 1 ≤ ⌊n * ratio⌋₊) (hn : ⌊n * ratio⌋₊ < n) (k : KernelObj) (hk : k.make = k) (hg : k.fn = .gen) (hm : k.deform.metric = .l2) (q : Param)
    (s : ℝ) (hs0 : 0 < s) (hsm : k.smoothness = some q) (hq : q.val = Flt.fin s) (len : Fin f → ℝ) (hlen : k.deform.HasLengths f len)
    (τ : ℝ) (hτ : deficit s < τ) (σ : ℝ) (hσ : 0 ≤ σ) (sfl : List Nat) (hs : sfl.Perm (List.range n)) (draw : Nat → Nat) :
    ∃ S, create x n ratio k (.homoscedastic τ) σ sfl draw = .ok S ∧ S.masks.Parts n ⌊n * ratio⌋₊ ∧
      S.Predicts maternGen n ⌊n * ratio⌋₊ f (τ + σ ^ 2) (τ - deficit s) := by
  have hpos := hasLengths_pos hlen
  refine posterior_of_table maternGen x n f hn1 hx hd ratio h1 hn k hk len hlen (.homoscedastic τ) τ rfl
    (gen_posDef k hg hm q s hs0 hsm hq _ τ hτ len hpos x n hd) (τ - deficit s) σ
    (fun x => by rw [(gen_covFn k hg hm q s hsm hq len hpos x x).2]; ring)
    (fun R N' X nnCount nn p l hR ha hD e1 hnd hmem => ?_) hσ sfl hs draw
  have hlt : deficit s < τ + σ ^ 2 := lt_of_lt_of_le hτ (le_add_of_nonneg_right (sq_nonneg _))
  have hδ : 0 < deficit s := by
    have := ((C62_correlation s hs0).1 _ machEps_pos).2
    unfold deficit; linarith
  have hnoise : R.gp.noise = .homoscedastic (τ + σ ^ 2) := by
    generalize R.gp.noise = η at ha
    cases η with
    | homoscedastic u => rw [show u = _ from ha]
    | null => exact absurd (show τ + σ ^ 2 = 0 from ha) (by linarith)
    | heteroscedastic _ => exact ha.elim
    | shear33 _ => exact ha.elim
  exact gen_nbr_det R (by rw [hR]; exact hg) (by rw [hR]; exact hm) q s hs0 (by rw [hR]; exact hsm) hq _ hnoise hlt len hpos X N' nnCount nn p l e1 hnd hmem hD

/-- **C76** (partial) with the samplers' default kernel: Matérn with smoothness 2, and noise from `1e-14`. -/
theorem C76_default_partial (n : Nat) (hn2 : 2 ≤ n) (ratio τ : ℝ) (hτ : 1e-14 ≤ τ) (σ : ℝ) (hσ : 0 ≤ σ) (sfl : List Nat) (draw : Nat → Nat) :
    (1 ≤ ⌊n * ratio⌋₊ → ⌊n * ratio⌋₊ < n → sfl.Perm (List.range n) →
      ∃ S, univariate n ratio defaultKernel (.homoscedastic τ) σ sfl draw = .ok S ∧
        S.Predicts maternGen n ⌊n * ratio⌋₊ 1 (τ + σ ^ 2) (τ - deficit 2)) ∧
    (1 ≤ ⌊((n * n : Nat) : ℝ) * ratio⌋₊ → ⌊((n * n : Nat) : ℝ) * ratio⌋₊ < n * n → sfl.Perm (List.range (n * n)) →
      ∃ S, univariate2D n ratio defaultKernel (.homoscedastic τ) σ sfl draw = .ok S ∧
        S.Predicts maternGen (n * n) ⌊((n * n : Nat) : ℝ) * ratio⌋₊ 2 (τ + σ ^ 2) (τ - deficit 2)) := by
  have hlen : ∀ f, defaultKernel.deform.HasLengths f (fun _ => 1) := fun f => ⟨1, one_pos, rfl, fun _ => rfl⟩
  have hd := default_noise_suffices hτ
  constructor
  · intro h1 h2 hs
    obtain ⟨S, e1, -, e2⟩ := C76_matern_partial (linspace n) n 1 (by omega) (.inr ⟨rfl, rfl⟩) (linspace_distinct hn2) ratio h1 h2 defaultKernel rfl
      defaultKernel_gen rfl _ 2 two_pos rfl rfl _ (hlen 1) τ hd σ hσ sfl hs draw
    exact ⟨S, e1, e2⟩
  · intro h1 h2 hs
    have : 2 * 2 ≤ n * n := Nat.mul_le_mul hn2 hn2
    obtain ⟨S, e1, -, e2⟩ := C76_matern_partial (grid n) (n * n) 2 (by omega) (.inl rfl) (grid_distinct hn2) ratio h1 h2 defaultKernel rfl
      defaultKernel_gen rfl _ 2 two_pos rfl rfl _ (hlen 2) τ hd σ hσ sfl hs draw
    exact ⟨S, e1, e2⟩

/-- Non-vacuity of `C76_default_partial`: the sampler with its default arguments. -/
example (draw : Nat → Nat) : ∃ S, univariate 5001 (1 / 10) defaultKernel (.homoscedastic 1e-14) 1e-5 (List.range 5001) draw = .ok S ∧
    S.Predicts maternGen 5001 500 1 (1e-14 + 1e-5 ^ 2) (1e-14 - deficit 2) := by
  have h5 : ⌊((5001 : Nat) : ℝ) * (1 / 10)⌋₊ = 500 := by
    rw [Nat.floor_eq_iff (by norm_num)]
    norm_num
  obtain ⟨S, e1, e2⟩ := (C76_default_partial 5001 (by norm_num) (1 / 10) 1e-14 le_rfl 1e-5 (by norm_num) (List.range 5001) draw).1
    (by rw [h5]; norm_num) (by rw [h5]; norm_num) (List.Perm.refl _)
  rw [h5] at e2
  exact ⟨S, e1, e2⟩

/-- With the wrong noise level a model does not predict the responses of the sampler: already the variance reported from a single neighbour is wrong. -/
theorem predicts_only (bessel : Flt → ℝ → ℝ) (S : Obj) (x : Tensor ℝ) (n c f : Nat) (hx : IsTable x n f) (hc : 1 ≤ c) (hcn : c < n)
    (hk : S.gp.kernel.make = S.gp.kernel) (hsuit : S.gp.kernel.fn.Suits S.gp.kernel.deform.metric) (len : Fin f → ℝ)
    (hlen : S.gp.kernel.deform.HasLengths f len) (htr : S.trainFeatures.shape = c :: x.shape.tail) (hte : S.testFeatures.shape = (n - c) :: x.shape.tail)
    (a τ : ℝ) (hD : S.Draws bessel n c f len a τ) (a' : ℝ) (ha' : 0 ≤ a') (hne : a' ≠ a) : ¬ S.Predicts bessel n c f a' τ := by
  intro hpred
  obtain ⟨t1, t2⟩ := asTable_table hx htr
  obtain ⟨q1, q2⟩ := asTable_table hx hte
  obtain ⟨answer, hw⟩ := exact_index_exists c f 1 (asTable S.trainFeatures) t1 (fun _ _ => 0) false
  set w : NNWrapper := ⟨c, f, asTable S.trainFeatures, 1, fun _ _ => 0, false, answer⟩ with hwd
  set R : Regressor := ⟨S.gp.kernel, ⟨.homoscedastic a', KernelObj.kout, 1, 1⟩⟩ with hRd
  obtain ⟨Ω, _, P, hP, z, e, hz⟩ := standardNormals_exist n c
  obtain ⟨Ytr, Yte, d1, nbr, μ, v, -, d2, -, d3⟩ := hpred w hw rfl rfl rfl one_pos hc R rfl rfl rfl rfl Ω _ P hP z e hz
  obtain ⟨Ytr', Yte', e1, e2, e3, e4, e5, e6, e7, e8⟩ := hD Ω _ P z e hz
  have hY : ∀ ω, Ytr' ω = Ytr ω ∧ Yte' ω = Yte ω := fun ω => by
    have := (e1 ω).symm.trans (d1 ω)
    injection this with this
    exact ⟨congrArg Prod.fst this, congrArg Prod.snd this⟩
  obtain rfl : Ytr' = Ytr := funext fun ω => (hY ω).1
  obtain rfl : Yte' = Yte := funext fun ω => (hY ω).2
  obtain ⟨nn, -, h2, h3⟩ := regress_cases_uniform bessel R hk rfl w hw (asTable S.testFeatures) (n - c) len hlen q1 (by omega) one_pos hc trivial
  have hp0 : 0 < n - c := by omega
  have hA : ∀ p, (nbrCov bessel R.kernel len w.train w.N w.nnCount nn p + R.gp.noise.mat w.nnCount p) 0 0 = 1 + a' := fun p => by
    rw [Matrix.add_apply, Noise.level_mat (ν := R.gp.noise) (τ := a') (show R.gp.noise.Level a' from rfl), Matrix.smul_apply, Matrix.one_apply_eq]
    show S.gp.kernel.covFn bessel len _ _ + _ = _
    rw [covFn_self bessel _ hsuit]
    simp
  have hdet : ¬ ∃ p < n - c, (nbrCov bessel R.kernel len w.train w.N w.nnCount nn p + R.gp.noise.mat w.nnCount p).det = 0 := by
    rintro ⟨p, -, hp⟩
    have hp' : (nbrCov bessel R.kernel len w.train w.N w.nnCount nn p + R.gp.noise.mat w.nnCount p : Matrix (Fin 1) (Fin 1) ℝ).det = 0 := hp
    rw [Matrix.det_fin_one, hA] at hp'
    linarith
  let i : Fin c := ⟨pointOf c (nn.get [0, 0]), h2 0 hp0 0 one_pos⟩
  set κ := S.gp.kernel.covFn bessel len (pt S.testFeatures f 0) (pt S.trainFeatures f i) with hκ
  have hκ0 : 0 < κ := by
    have := nbrCross_pos bessel S.gp.kernel hsuit len w.train c 1 nn 0 (pt S.testFeatures f 0) 0
    have e : pt w.train f i = pt S.trainFeatures f i := by rw [← t2]; exact rowPt_pt t1 _
    rw [hκ, ← e]
    exact this
  have hμ : ∀ ω, (μ ω).get [0] = κ / (1 + a') * (Ytr' ω).get [(i : Nat)] ∧ v.get [0] = 1 - κ * (κ / (1 + a')) := fun ω => by
    rcases h3 (Ytr' ω) (e2 ω).1 with ⟨h, -⟩ | ⟨-, μ', v', r1, -, -, r2⟩
    · exact absurd h hdet
    · have := (d2 ω).1
      rw [regress_table bessel R w hx hte htr, show asTable S.trainFeatures = w.train from rfl, r1] at this
      injection this with this
      injection this with this1 this2
      obtain ⟨r3, r4⟩ := r2 0 hp0
      rw [(kriging_one _ _ _).1, hA] at r3
      rw [(kriging_one _ _ (fun _ => 0)).2, hA] at r4
      have e : nbrCross bessel R.kernel len w.train w.N w.nnCount nn 0 (rowPt (asTable S.testFeatures) w.f 0) 0 = κ := by
        have e : pt w.train f i = pt S.trainFeatures f i := by rw [← t2]; exact rowPt_pt t1 _
        rw [hκ, ← e, ← q2]
        rfl
      have e' : nbrTargets (Ytr' ω) w.N w.nnCount nn 0 0 0 = (Ytr' ω).get [(i : Nat)] := by
        show feature (Ytr' ω) _ 0 = _
        simp only [feature, (e2 ω).1]
        rfl
      rw [e, e'] at r3
      rw [e] at r4
      rw [← this1, ← this2, r3, r4]
      refine ⟨by ring, by simp [hRd]⟩
  obtain ⟨ω₀⟩ : Nonempty Ω := by
    by_contra hne
    rw [not_nonempty_iff] at hne
    have h0 : P = 0 := Measure.eq_zero_of_isEmpty P
    exact (IsProbabilityMeasure.ne_zero P) h0
  obtain ⟨f1, -, f2⟩ := d3 ⟨0, hp0⟩
  simp only [hμ] at f2
  rw [(hμ ω₀).2] at f1 f2
  have mF : MemLp (fun ω => (Ytr' ω).get [(i : Nat)]) 2 P := (e3.fst.eval i).memLp_two
  have mG : MemLp (fun ω => (Yte' ω).get [0]) 2 P := (e3.snd.eval ⟨0, hp0⟩).memLp_two
  have hvar : Var[fun ω => (Yte' ω).get [0] - κ / (1 + a') * (Ytr' ω).get [(i : Nat)]; P] = 1 - κ * (κ / (1 + a')) + τ := by
    have : Var[fun y => y; P.map fun ω => (Yte' ω).get [0] - κ / (1 + a') * (Ytr' ω).get [(i : Nat)]] = 1 - κ * (κ / (1 + a')) + τ := by
      rw [f2, variance_fun_id_gaussianReal, Real.coe_toNNReal _ f1]
    have hm : AEMeasurable (fun ω => (Yte' ω).get [0] - κ / (1 + a') * (Ytr' ω).get [(i : Nat)]) P :=
      (mG.sub (mF.const_mul _)).aestronglyMeasurable.aemeasurable
    rw [variance_map (by fun_prop) hm] at this
    exact this
  have hG : Var[fun ω => (Yte' ω).get [0]; P] = 1 + τ := by
    rw [← covariance_self mG.aestronglyMeasurable.aemeasurable]
    refine (e8 ⟨0, hp0⟩ ⟨0, hp0⟩).trans ?_
    rw [covFn_self bessel _ hsuit, if_pos rfl]
  have hF : Var[fun ω => (Ytr' ω).get [(i : Nat)]; P] = 1 + a := by
    rw [← covariance_self mF.aestronglyMeasurable.aemeasurable]
    refine (e6 i i).trans ?_
    rw [covFn_self bessel _ hsuit, if_pos rfl]
  have hFG : cov[fun ω => (Yte' ω).get [0], fun ω => (Ytr' ω).get [(i : Nat)]; P] = κ := by
    rw [covariance_comm, hκ, covFn_comm]
    exact e7 i ⟨0, hp0⟩
  rw [variance_fun_sub mG (mF.const_mul _), variance_const_mul, covariance_const_mul_right, hG, hF, hFG] at hvar
  have h1a : 0 < 1 + a' := by linarith
  field_simp at hvar
  apply hne
  have : κ ^ 2 * (a - a') = 0 := by nlinarith [hvar]
  rcases mul_eq_zero.mp this with h | h
  · exact absurd (pow_eq_zero_iff (two_ne_zero) |>.mp h) hκ0.ne'
  · linarith

/-- **C76** (partial): the data of the two samplers is predicted correctly by a model with the sampler's kernel, the variance scale 1 and the total noise level `τ + σ²`. What
is missing: the level a user gives, as the tutorials do, is the sampler's `measurement_noise` itself (`C76_measurement_fails`). -/
theorem C76_samplers_partial (bessel : Flt → ℝ → ℝ) (n : Nat) (hn2 : 2 ≤ n) (ratio : ℝ) (k : KernelObj) (hk : k.make = k)
    (hsuit : k.fn.Suits k.deform.metric) (ν : Noise) (τ : ℝ) (hτ : ν.Level τ) (hτ0 : 0 ≤ τ) (σ : ℝ) (hσ : 0 ≤ σ) (sfl : List Nat) (draw : Nat → Nat) :
    (1 ≤ ⌊n * ratio⌋₊ → ⌊n * ratio⌋₊ < n → sfl.Perm (List.range n) → ∀ len : Fin 1 → ℝ, k.deform.HasLengths 1 len →
      ∃ S, univariate n ratio k ν σ sfl draw = .ok S ∧ S.Predicts bessel n ⌊n * ratio⌋₊ 1 (τ + σ ^ 2) τ) ∧
    (1 ≤ ⌊((n * n : Nat) : ℝ) * ratio⌋₊ → ⌊((n * n : Nat) : ℝ) * ratio⌋₊ < n * n → sfl.Perm (List.range (n * n)) →
      ∀ len : Fin 2 → ℝ, k.deform.HasLengths 2 len →
      ∃ S, univariate2D n ratio k ν σ sfl draw = .ok S ∧ S.Predicts bessel (n * n) ⌊((n * n : Nat) : ℝ) * ratio⌋₊ 2 (τ + σ ^ 2) τ) := by
  constructor
  · intro h1 h2 hs len hlen
    obtain ⟨S, e1, -, e2⟩ := C76_posterior_partial bessel (linspace n) n 1 (by omega) (.inr ⟨rfl, rfl⟩) (linspace_distinct hn2) ratio h1 h2 k hk hsuit len hlen
      ν τ hτ hτ0 σ hσ sfl hs draw
    exact ⟨S, e1, e2⟩
  · intro h1 h2 hs len hlen
    have : 2 * 2 ≤ n * n := Nat.mul_le_mul hn2 hn2
    obtain ⟨S, e1, -, e2⟩ := C76_posterior_partial bessel (grid n) (n * n) 2 (by omega) (.inl rfl) (grid_distinct hn2) ratio h1 h2 k hk hsuit len hlen
      ν τ hτ hτ0 σ hσ sfl hs draw
    exact ⟨S, e1, e2⟩

/-- **C76** fails for a model that reuses the noise parameters of the sampler, as the tutorials do (`noise=measurement_noise`): with any noise level other than `τ + σ²`, so in
particular `σ` itself or `τ + σ` (unless these happen to agree), the reported variances are not those of the sampler's data, in either
sampler. -/
theorem C76_measurement_fails (bessel : Flt → ℝ → ℝ) (n : Nat) (hn2 : 2 ≤ n) (ratio : ℝ) (k : KernelObj) (hk : k.make = k)
    (hsuit : k.fn.Suits k.deform.metric) (ν : Noise) (τ : ℝ) (hτ : ν.Level τ) (hτ0 : 0 ≤ τ) (σ : ℝ) (hσ : 0 ≤ σ) (sfl : List Nat) (draw : Nat → Nat)
    (a : ℝ) (ha : 0 ≤ a) (hne : a ≠ τ + σ ^ 2) :
    (1 ≤ ⌊n * ratio⌋₊ → ⌊n * ratio⌋₊ < n → sfl.Perm (List.range n) → ∀ len : Fin 1 → ℝ, k.deform.HasLengths 1 len →
      ∃ S, univariate n ratio k ν σ sfl draw = .ok S ∧ ¬ S.Predicts bessel n ⌊n * ratio⌋₊ 1 a τ) ∧
    (1 ≤ ⌊((n * n : Nat) : ℝ) * ratio⌋₊ → ⌊((n * n : Nat) : ℝ) * ratio⌋₊ < n * n → sfl.Perm (List.range (n * n)) →
      ∀ len : Fin 2 → ℝ, k.deform.HasLengths 2 len →
      ∃ S, univariate2D n ratio k ν σ sfl draw = .ok S ∧ ¬ S.Predicts bessel (n * n) ⌊((n * n : Nat) : ℝ) * ratio⌋₊ 2 a τ) := by
  constructor
  · intro h1 h2 hs len hlen
    obtain ⟨S, e1, e2, -, -, -, e3, e4, e5⟩ := C75_law_partial bessel (linspace n) n 1 (by omega) (.inr ⟨rfl, rfl⟩) ratio h1 h2.le k hk len hlen ν τ hτ
      (closed_posDef bessel k hsuit ν τ hτ0 len (hasLengths_pos hlen) _ n (linspace_distinct hn2)) σ hσ sfl hs draw
    exact ⟨S, e1, predicts_only bessel S (linspace n) n _ 1 (.inr ⟨rfl, rfl⟩) h1 h2 (by rw [e2, hk]) (by rw [e2]; exact hsuit) len (by rw [e2]; exact hlen)
      e3 e4 _ _ e5 a ha hne⟩
  · intro h1 h2 hs len hlen
    have : 2 * 2 ≤ n * n := Nat.mul_le_mul hn2 hn2
    obtain ⟨S, e1, e2, -, -, -, e3, e4, e5⟩ := C75_law_partial bessel (grid n) (n * n) 2 (by omega) (.inl rfl) ratio h1 h2.le k hk len hlen ν τ hτ
      (closed_posDef bessel k hsuit ν τ hτ0 len (hasLengths_pos hlen) _ (n * n) (grid_distinct hn2)) σ hσ sfl hs draw
    exact ⟨S, e1, predicts_only bessel S (grid n) (n * n) _ 2 (.inl rfl) h1 h2 (by rw [e2, hk]) (by rw [e2]; exact hsuit) len (by rw [e2]; exact hlen)
      e3 e4 _ _ e5 a ha hne⟩

/-- Non-vacuity of `C76_samplers_partial` and `C76_measurement_fails`: ten points, half of them for training, the measurement noise `1e-5`. The model with the noise
`1e-14 + 1e-10` predicts the data, the model with the noise `1e-5` does not; and there are an index and a model to predict with. -/
example (bessel : Flt → ℝ → ℝ) (draw : Nat → Nat) : ∃ S, univariate 10 (1 / 2)
    (KernelObj.make ⟨.isotropy .F2 ⟨Flt.fin 1, Flt.fin 0, Flt.fin 0, true⟩, none, .rbf⟩) (.homoscedastic 1e-14) 1e-5 (List.range 10) draw = .ok S ∧
    S.Predicts bessel 10 5 1 (1e-14 + 1e-5 ^ 2) 1e-14 ∧ ¬ S.Predicts bessel 10 5 1 1e-5 1e-14 := by
  have h5 : ⌊((10 : Nat) : ℝ) * (1 / 2)⌋₊ = 5 := by
    have : ((10 : Nat) : ℝ) * (1 / 2) = ((5 : Nat) : ℝ) := by norm_num
    rw [this, Nat.floor_natCast]
  have h0 : (0 : ℝ) ≤ 1e-14 := by norm_num
  have h1 : (0 : ℝ) ≤ 1e-5 := by norm_num
  set k : KernelObj := KernelObj.make ⟨.isotropy .F2 ⟨Flt.fin 1, Flt.fin 0, Flt.fin 0, true⟩, none, .rbf⟩ with hk
  have hlen : k.deform.HasLengths 1 (fun _ => 1) := ⟨1, one_pos, rfl, fun _ => rfl⟩
  obtain ⟨S, e1, e2⟩ := (C76_samplers_partial bessel 10 (by norm_num) (1 / 2) k rfl rfl (.homoscedastic 1e-14) 1e-14 rfl h0 1e-5 h1 (List.range 10) draw).1
    (by rw [h5]; norm_num) (by rw [h5]; norm_num) (List.Perm.refl _) _ hlen
  obtain ⟨S', e3, e4⟩ := (C76_measurement_fails bessel 10 (by norm_num) (1 / 2) k rfl rfl (.homoscedastic 1e-14) 1e-14 rfl h0 1e-5 h1 (List.range 10) draw
    1e-5 h1 (by norm_num)).1 (by rw [h5]; norm_num) (by rw [h5]; norm_num) (List.Perm.refl _) _ hlen
  rw [e1] at e3
  injection e3 with e3
  subst e3
  rw [h5] at e2 e4
  exact ⟨S, e1, e2, e4⟩

end MuyGPyS.Sampler
