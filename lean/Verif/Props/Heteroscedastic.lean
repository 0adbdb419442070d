import Verif.Props.BayesMore
import Verif.Props.ContinuityFails
import Verif.Props.Pipeline

/-!
# C88: the measurement noise of an observation stays with the observation

The user knows the noise variance of every training observation (`noise`, one entry per observation) and predicts with
`HeteroscedasticNoise(make_heteroscedastic_tensor(noise, nn_indices))`. A prediction should use, for every neighbour of the test
point, the noise of *that* observation.
-/

namespace MuyGPyS
open Py Matrix

/-- **C88**: with the noise tensor made from the neighbours the index returns for exactly these test points, `regress_any` never
fails, and every test point is predicted by kriging in which each neighbour carries its own measurement noise. Partial: the noise
tensor must have been made for exactly these test points, see `C88_moved_fails` and `C88_other_count_fails`. -/
theorem C88_regress_partial (bessel : Flt → ℝ → ℝ) (R : Regressor) (hk : R.kernel.make = R.kernel)
    (hko : R.gp.kout = KernelObj.kout) (hsuit : R.kernel.fn.Suits R.kernel.deform.metric)
    (w : NNWrapper) (hw : w.Exact) (Q Y : Tensor ℝ) (m : Nat) (len : Fin w.f → ℝ) (hlen : R.kernel.deform.HasLengths w.f len)
    (hQ : Q.shape = [m, w.f]) (hY : Y.shape = [w.N]) (hm : 0 < m) (hk0 : 0 < w.nnCount) (hkN : w.nnCount ≤ w.N)
    (noise : Tensor ℝ) (hnoise : noise.shape = [w.N]) (nn : Tensor Int) (D T : Tensor ℝ) (hnn : w.getNns Q = .ok (nn, D))
    (hT : makeHeteroscedasticTensor noise nn = .ok T) (hR : R.gp.noise = .heteroscedastic T)
    (hpos : (∀ i < w.N, 0 < noise.get [i]) ∨ ((∀ i < w.N, 0 ≤ noise.get [i]) ∧ DistinctRows w.train w.N w.f)) :
    ∃ μ v, (∀ i < m, ∃ l : List Nat, rowList nn w.nnCount i = l.map Int.ofNat ∧
        Nearest (· < w.N) (fun j => w.dist (rowPt Q w.f i) (rowPt w.train w.f j)) w.nnCount l) ∧
      regressAny bessel R w Q w.train Y = .ok (μ, v) ∧ μ.shape = [m] ∧ v.shape = [m] ∧
      ∀ p < m,
        μ.get [p] = Spec.krigingMean
          (nbrCov bessel R.kernel len w.train w.N w.nnCount nn p + diagonal fun j : Fin w.nnCount => noise.get [pointOf w.N (nn.get [p, j])])
          (nbrCross bessel R.kernel len w.train w.N w.nnCount nn p (rowPt Q w.f p))
          (nbrTargets Y w.N w.nnCount nn p 0) ∧
        v.get [p] = R.gp.boundScale * Spec.krigingVar 1
          (nbrCov bessel R.kernel len w.train w.N w.nnCount nn p + diagonal fun j : Fin w.nnCount => noise.get [pointOf w.N (nn.get [p, j])])
          (nbrCross bessel R.kernel len w.train w.N w.nnCount nn p (rowPt Q w.f p)) := by
  obtain ⟨I, D', a1, a2, a3, a4, -⟩ := C41_plain w hw Q m hQ hm hk0 hkN
  rw [hnn] at a1
  cases a1
  have hin : ∀ i < m, ∀ j < w.nnCount, ∃ x : Nat, nn.get [i, j] = x ∧ x < w.N := fun i hi j hj => by
    obtain ⟨l, e1, e2⟩ := a4 i hi
    obtain ⟨x, x1, x2⟩ := rowList_get e1 hj
    exact ⟨x, x2, e2.mem x (List.mem_of_getElem? x1)⟩
  have hv : AllValid w.N nn := valid_of_rows a2 hin
  obtain ⟨T', t1, t2, t3⟩ := take_vec hnoise hv
  unfold makeHeteroscedasticTensor at hT
  rw [hT] at t1
  cases t1
  have hTs : T.shape = [m, w.nnCount] := t2.trans a2
  have hTv : ∀ p < m, ∀ j < w.nnCount, T.get [p, j] = noise.get [pointOf w.N (nn.get [p, j])] := fun p hp j hj => by
    rw [Tensor.get2 T hTs, t3, Tensor.get2 nn a2]
    simp only [feature, hnoise]
  have hin' : ∀ p < m, ∀ j < w.nnCount, pointOf w.N (nn.get [p, j]) < w.N := fun p hp j hj => by
    obtain ⟨x, x1, x2⟩ := hin p hp j hj
    rw [x1, pointOf_nat]; exact x2
  have hreg : ∀ E : Prop, (DistinctRows w.train w.N w.f → E) → R.gp.noise.Suffices m w.nnCount E := fun E hE => by
    rw [hR]
    rcases hpos with h | ⟨h, hd⟩
    · exact .inl fun p hp j hj => by rw [hTv p hp j hj]; exact h _ (hin' p hp j hj)
    · exact .inr ⟨fun p hp j hj => by rw [hTv p hp j hj]; exact h _ (hin' p hp j hj), hE hd⟩
  have hmat : ∀ p < m, R.gp.noise.mat w.nnCount p = diagonal fun j : Fin w.nnCount => noise.get [pointOf w.N (nn.get [p, j])] := fun p hp => by
    rw [hR]
    show diagonal _ = _
    congr 1
    funext j
    exact hTv p hp j j.2
  have hrow : ∀ x, pt w.train w.f x = rowPt w.train w.f x := fun x => by
    funext c; simp only [pt, feature, hw.1, rowPt]
  obtain ⟨μ, v, r1, r2, r3, r4⟩ := C54_regress bessel R hk hko Q w.train Y (arange m) nn m w.N w.f m w.nnCount
    len hlen (.inl hQ) (.inl hw.1) hY (by rw [hQ, hw.1]; rfl) rfl a2 (arange_valid m) hv (by rw [hR]; exact hTs) fun p hp => by
      obtain ⟨l, e1, e2⟩ := a4 p hp
      have hc := nbrCov_definite bessel R.kernel hsuit len (hasLengths_pos hlen) w.train w.N w.nnCount nn p
      exact Kriging.det_ne_zero (Noise.posdef_of_suffices
        (hreg _ fun hd => distinct_of_nodup e1 e2.nodup e2.mem hd) hp hc.1 hc.2)
  refine ⟨μ, v, a4, ?_, r2, r3, fun p hp => ?_⟩
  · unfold regressAny
    rw [hQ]
    simp only [hnn, bind, Except.bind, r1]
  · have hpq : pt Q w.f (pointOf m ((arange m).get [p])) = rowPt Q w.f p := by
      rw [arange_get, pointOf_nat]
      funext c
      simp only [pt, feature, hQ, rowPt]
    have := r4 p hp
    rw [hpq, hmat p hp] at this
    exact this

/-- A heteroscedastic noise tensor with another number of entries than the covariances have diagonal entries (and more than one entry) is
an error. -/
theorem heteroscedastic_count {T Kin : Tensor ℝ} {b n : Nat} (hK : Kin.shape = [b, n, n]) (h1 : T.shape.prod ≠ b * n) (h2 : T.shape.prod ≠ 1)
    (kw : Option ℝ) : (Noise.heteroscedastic T).perturb Kin kw = .error .value := by
  show heteroscedasticPerturb Kin T = _
  unfold heteroscedasticPerturb
  rw [hK]
  simp [h1, h2]

/-- **C88, where the code fails**: a model with heteroscedastic noise for `b` test points cannot predict any other number of test points: `regress_any`
raises for every data, kernel and index. -/
theorem C88_other_count_fails (bessel : Flt → ℝ → ℝ) (R : Regressor) (hk : R.kernel.make = R.kernel)
    (w : NNWrapper) (hw : w.Exact) (Q Y : Tensor ℝ) (m r : Nat) (len : Fin w.f → ℝ) (hlen : R.kernel.deform.HasLengths w.f len)
    (hQ : Q.shape = [m, w.f]) (hY : IsTable Y w.N r) (hm : 0 < m) (hk0 : 0 < w.nnCount) (hkN : w.nnCount ≤ w.N)
    (T : Tensor ℝ) (hR : R.gp.noise = .heteroscedastic T) (h1 : T.shape.prod ≠ m * w.nnCount) (h2 : T.shape.prod ≠ 1) :
    regressAny bessel R w Q w.train Y = .error .value := by
  obtain ⟨nn, D, a1, a2, a3, a4, -⟩ := C41_plain w hw Q m hQ hm hk0 hkN
  have hv : AllValid w.N nn := valid_of_rows a2 fun i hi j hj => by
    obtain ⟨l, e1, e2⟩ := a4 i hi
    obtain ⟨x, x1, x2⟩ := rowList_get e1 hj
    exact ⟨x, x2, e2.mem x (List.mem_of_getElem? x1)⟩
  obtain ⟨K, C, Z, t1, t2, -⟩ := tensorsFromIndices_ok bessel R hk Q w.train Y (arange m) nn m w.N w.f r m w.nnCount
    len hlen (.inl hQ) (.inl hw.1) hY (by rw [hQ, hw.1]; rfl) rfl a2 (arange_valid m) hv
  unfold regressAny
  rw [hQ]
  simp only [a1, bind, Except.bind, regressFromIndices, t1, MuyGPS.posteriorMean, Noise.perturbFn, hR, heteroscedastic_count t2 h1 h2]

/-- **C88, where the code fails**: `make_fast_regressor` needs one noise entry per training point and neighbour; a heteroscedastic model made for another
number of points cannot be made a fast regressor, whatever the data, kernel and index. -/
theorem C88_fast_fails (bessel : Flt → ℝ → ℝ) (R : Regressor) (hk : R.kernel.make = R.kernel)
    (w : NNWrapper) (hw : w.Exact) (Y : Tensor ℝ) (r : Nat) (len : Fin w.f → ℝ) (hlen : R.kernel.deform.HasLengths w.f len)
    (hY : IsTable Y w.N r) (hk0 : 0 < w.nnCount) (hkN : w.nnCount + 1 ≤ w.N)
    (T : Tensor ℝ) (hR : R.gp.noise = .heteroscedastic T) (h1 : T.shape.prod ≠ w.N * w.nnCount) (h2 : T.shape.prod ≠ 1) :
    makeFastRegressor bessel R w w.train Y = .error .value := by
  obtain ⟨nn, D, e1, e2, e3, e4⟩ := C41_batch_always w hw (arange w.N) w.N rfl (arange_valid _) (by omega) hkN
  have hvnn : AllValid w.N nn := valid_of_rows e2 fun i hi j hj => by
    obtain ⟨l, e1, e2, e3, e4, _⟩ := e4 i hi
    obtain ⟨x, x1, x2⟩ := rowList_get e1 hj
    exact ⟨x, x2, e4 x (List.mem_of_getElem? x1)⟩
  obtain ⟨U, u1, u2, u3⟩ := update_ok nn w.N w.nnCount hk0 e2
  have hvU := update_valid hk0 e2 hvnn u1
  obtain ⟨E, K, k1, k2, k3, k4⟩ := kernel_pairwise bessel R.kernel hk w.train U w.N w.f w.N w.nnCount len hlen
    (.inl hw.1) u2 hvU
  obtain ⟨Z, z1, z2, z3⟩ := take_targets hY hvU
  unfold makeFastRegressor
  rw [hw.1]
  simp only [e1, u1, z1, k1, k2, bind, Except.bind, MuyGPS.fastCoefficients, Noise.perturbFn, hR, heteroscedastic_count k3 h1 h2]

/-- **C88, where the code fails**: `do_regress` trains a model and predicts with it, so the same noise tensor has to serve the training batch and the test
points: if the model has heteroscedastic noise with more than one entry and its variance scale is estimated, `do_regress` succeeds only if there are exactly as many
test points as batch elements — and then each test point is predicted with the noise of the neighbours of some batch element, see `C88_moved_fails`.
(`opt` is any optimiser that keeps noise, metric and kind of the model, as all of them do.) -/
theorem C88_do_regress_fails (bessel : Flt → ℝ → ℝ) (opt : Learner → TrainData → Res Learner) (draw : List Nat)
    (scaleDraws : List (List Nat)) (bc : Nat) (w : NNWrapper) (hw : w.Exact) (L : Learner) (xs : List Flt) (hL : L.noise = .heteroscedastic xs)
    (hxs : xs.length ≠ 1) (hfree : ∃ np ∈ L.gp.params, np.2.fixed = false) (hscale : L.scaleKind ≠ .fixed)
    (hopt : ∀ d L1, opt L d = .ok L1 → L1.Made ∧ L1.noise = L.noise ∧ L1.scaleKind = L.scaleKind ∧ L1.deform.kind = L.deform.kind ∧
      L1.deform.metric = L.deform.metric ∧ ∃ len, L1.deform.HasLengths w.f len)
    (Q Y : Tensor ℝ) (m r : Nat) (hQ : Q.shape = [m, w.f]) (hY : IsTable Y w.N r) (hm : 0 < m) (hbc : 0 < bc)
    (hdraw : bc < w.N → IsDraw w.N bc draw) (hk0 : 0 < w.nnCount) (hkN : w.nnCount + 1 ≤ w.N)
    (hcount : m ≠ min bc w.N) (L' : Learner) (μ v : Tensor ℝ) :
    doRegress bessel opt draw scaleDraws bc w L Q Y ≠ .ok (L', μ, v) := by
  intro h
  unfold doRegress at h
  cases hm' : makeRegressor bessel opt draw scaleDraws bc w L Y with
  | error e => rw [hm'] at h; cases h
  | ok L2 =>
  obtain ⟨batch, d, L1, s1, s2, s3, s4⟩ := makeRegressor_spec (by rw [hL]; intro h; cases h) hfree hm'
  obtain ⟨idx, nn, D, b1, b2, b3, b4, b5, b6, b7⟩ := sampleBatch_ok w hw bc hbc (by omega) draw hdraw hkN
  rw [b1] at s1
  cases s1
  obtain ⟨o1, o2, o3, o4, o5, len, o6⟩ := hopt d L1 s3
  obtain ⟨I, D', i1, i2, -, i4⟩ := C41_batch_always w hw (ofNats idx) idx.length rfl (ofNats_valid b5) b4 hkN
  rw [i1] at b3
  cases b3
  have hv : AllValid w.N nn := valid_of_rows i2 fun i hi j hj => by
    obtain ⟨l, e1, e2, e3, e4, _⟩ := i4 i hi
    obtain ⟨x, x1, x2⟩ := rowList_get e1 hj
    exact ⟨x, x2, e4 x (List.mem_of_getElem? x1)⟩
  obtain ⟨P, K, k1, k2, k3, k4⟩ := kernel_pairwise bessel L1.trainee.R.kernel (made_kernel o1) w.train nn w.N w.f idx.length w.nnCount len o6
    (.inl hw.1) i2 hv
  have hP : L.deform.pairwise w.train nn = .ok P := by
    have : L1.deform.pairwise w.train nn = .ok P := k1
    unfold Deform.pairwise at this ⊢
    rwa [o4, o5] at this
  obtain ⟨C, hC⟩ : ∃ C, L.deform.crosswise w.train w.train (ofNats idx) nn = .ok C := by
    obtain ⟨C, _, c1, _⟩ := crosswise_entries L1.deform w.train w.train (ofNats idx) nn w.N w.N w.f idx.length w.nnCount len o6
      (.inl hw.1) (.inl hw.1) rfl rfl i2 (ofNats_valid b5) hv
    refine ⟨C, ?_⟩
    unfold Deform.crosswise at c1 ⊢
    rwa [o4, o5] at c1
  obtain ⟨d', d1, d2, -⟩ := trainData_ok L idx nn w.train Y w.N w.f w.nnCount r hw.1 hY i2 b5 hv ⟨P, hP⟩ ⟨C, hC⟩
  obtain rfl : d = d' := Except.ok.inj (s2.symm.trans d1)
  obtain rfl : P = d.pairwise := Except.ok.inj (hP.symm.trans d2)
  have hnoise : L1.trainee.R.gp.noise = .heteroscedastic ⟨[xs.length], fun k => (xs.getD k none).toReal⟩ := by
    show L1.noise.noise = _
    rw [o2, hL]; rfl
  -- the scale is estimated with one noise entry per batch element and neighbour
  have hlenB : xs.length = idx.length * w.nnCount := by
    by_contra hne
    have herr : ∀ kw, L1.trainee.R.gp.noise.perturb K kw = .error .value := fun kw => by
      rw [hnoise]
      exact heteroscedastic_count k3 (by simpa using hne) (by simpa using hxs) kw
    have hs : ∃ e, scaleOptFn L1.scaleKind L1.trainee.R.gp scaleDraws K d.nnTargets [] = .error e := by
      rw [← o3] at hscale
      cases hk : L1.scaleKind with
      | fixed => exact absurd hk hscale
      | analytic n => exact ⟨.value, by simp only [scaleOptFn, analyticOpt, herr, bind, Except.bind]⟩
      | downSample n =>
        refine ⟨.value, ?_⟩
        simp only [scaleOptFn, downSampleOpt, k3, herr, bind, Except.bind]
        split_ifs <;> rfl
    obtain ⟨e, hs⟩ := hs
    unfold Learner.optimizeScale at s4
    simp only [k2, hs, bind, Except.bind] at s4
    cases s4
  -- and predictions with one per test point and neighbour
  obtain ⟨s, -, rfl, -⟩ := optimizeScale_spec s4
  have hreg : regressAny bessel ({ L1 with scale := s } : Learner).make.trainee.R w Q w.train Y = .error .value := by
    refine C88_other_count_fails bessel _ rfl w hw Q Y m r len o6 hQ hY hm hk0 (by omega) _ hnoise ?_ (by simpa using hxs)
    show [xs.length].prod ≠ _
    rw [List.prod_singleton, hlenB, b7]
    intro h
    exact hcount (Nat.eq_of_mul_eq_mul_right hk0 h).symm
  simp only [hm', bind, Except.bind, hreg] at h
  cases h

/-- Two test points on a line. -/
def twoTests (x y : ℝ) : Tensor ℝ := ⟨[2, 1], fun k => if k = 0 then x else y⟩

theorem twoTests_row (x y : ℝ) (c : Fin 1) : rowPt (twoTests x y) 1 0 c = x ∧ rowPt (twoTests x y) 1 1 c = y := by
  fin_cases c
  constructor <;> (show (twoTests x y).get [_, 0] = _; rw [Tensor.get2 _ rfl]; simp [twoTests])

/-- With one neighbour and test points that are training points, the heteroscedastic noise used is the one at the position of the test point in the list of test points. -/
theorem line_moved (bs : Flt → ℝ → ℝ) (answer : (Fin 1 → ℝ) → Nat → List Nat)
    (hw : NNWrapper.Exact ⟨3, 1, lineTrain, 1, fun x y => |x 0 - y 0|, false, answer⟩) (T : Tensor ℝ) (hT : T.shape = [2, 1])
    (hpos : ∀ p < 2, ∀ i < 1, 0 < T.get [p, i]) (i j : Nat) (hi : i < 3) (hj : j < 3) :
    ∃ nn D μ v, NNWrapper.getNns ⟨3, 1, lineTrain, 1, fun x y => |x 0 - y 0|, false, answer⟩
        (twoTests (lineTrain.get [i, 0]) (lineTrain.get [j, 0])) = .ok (nn, D) ∧ nn.shape = [2, 1] ∧ nn.get [0, 0] = i ∧ nn.get [1, 0] = j ∧
      regressAny bs ⟨lineModel.kernel, MuyGPS.make (.heteroscedastic T) KernelObj.kout 1⟩
        ⟨3, 1, lineTrain, 1, fun x y => |x 0 - y 0|, false, answer⟩ (twoTests (lineTrain.get [i, 0]) (lineTrain.get [j, 0])) lineTrain lineTargets = .ok (μ, v) ∧
      μ.get [0] = lineTargets.get [i] / (1 + T.get [0, 0]) ∧ μ.get [1] = lineTargets.get [j] / (1 + T.get [1, 0]) := by
  set Q := twoTests (lineTrain.get [i, 0]) (lineTrain.get [j, 0])
  set w : NNWrapper := ⟨3, 1, lineTrain, 1, fun x y => |x 0 - y 0|, false, answer⟩
  set R : Regressor := ⟨lineModel.kernel, MuyGPS.make (.heteroscedastic T) KernelObj.kout 1⟩
  have hpoint : ∀ a < 3, ∀ x < 3, x ≠ a → |lineTrain.get [a, 0] - lineTrain.get [a, 0]| < |lineTrain.get [a, 0] - lineTrain.get [x, 0]| := by
    intro a ha x hx hxa
    rw [sub_self, abs_zero, abs_pos, sub_ne_zero, Tensor.get2 lineTrain rfl, Tensor.get2 lineTrain rfl]
    interval_cases a <;> interval_cases x <;> simp [lineTrain] at hxa ⊢
  obtain ⟨nn, D, a1, a2, a3, a4, -⟩ := C41_plain w hw Q 2 rfl two_pos one_pos (by show 1 ≤ 3; norm_num)
  have hq : ∀ p < 2, ∀ c, rowPt Q 1 p c = lineTrain.get [if p = 0 then i else j, 0] := by
    intro p hp c
    interval_cases p
    · exact (twoTests_row _ _ c).1
    · exact (twoTests_row _ _ c).2
  have hnn : ∀ p < 2, nn.get [p, 0] = ((if p = 0 then i else j : ℕ) : ℤ) := by
    intro p hp
    obtain ⟨l, e1, e2⟩ := a4 p hp
    obtain ⟨x, x1, x2⟩ := rowList_get e1 one_pos
    have hlt : (if p = 0 then i else j) < 3 := by split_ifs <;> assumption
    have := (nearest_clear e2 (S := {if p = 0 then i else j}) rfl (fun y hy => by rw [Finset.mem_singleton.mp hy]; exact hlt)
      (fun y hy z hz hzS => by
        rw [Finset.mem_singleton.mp hy]
        show |rowPt Q 1 p 0 - lineTrain.get [_, 0]| < |rowPt Q 1 p 0 - lineTrain.get [z, 0]|
        rw [hq p hp]
        exact hpoint _ hlt z hz fun h => hzS (Finset.mem_singleton.mpr h)) x).mp (List.mem_of_getElem? x1)
    rw [x2, Finset.mem_singleton.mp this]
  have hv : AllValid 3 nn := valid_of_rows a2 fun p hp k hk => by
    obtain rfl : k = 0 := by change k < 1 at hk; omega
    exact ⟨_, hnn p hp, by split_ifs <;> assumption⟩
  have hA : ∀ p < 2, (nbrCov bs R.kernel (fun _ : Fin 1 => 1) lineTrain 3 1 nn p + R.gp.noise.mat 1 p) 0 0 = 1 + T.get [p, 0] := fun p hp => by
    rw [Matrix.add_apply]
    congr 1
    show lineModel.kernel.covFn bs (fun _ => 1) _ _ = 1
    rw [line_cov]
    simp
  have hdet : ∀ p < 2, (nbrCov bs R.kernel (fun _ : Fin 1 => 1) lineTrain 3 1 nn p + R.gp.noise.mat 1 p).det ≠ 0 := fun p hp => by
    rw [Matrix.det_fin_one, hA p hp]
    have := hpos p hp 0 one_pos
    positivity
  obtain ⟨μ, v, r1, r2, r3, r4⟩ := C54_regress bs R rfl rfl Q lineTrain lineTargets (arange 2) nn 2 3 1 2 1
    (fun _ => 1) ⟨1, one_pos, rfl, fun _ => rfl⟩ (.inl rfl) (.inl rfl) rfl rfl rfl a2 (arange_valid 2) hv hT hdet
  have hval : ∀ p < 2, μ.get [p] = lineTargets.get [if p = 0 then i else j] / (1 + T.get [p, 0]) := fun p hp => by
    have := (r4 p hp).1
    rw [(kriging_one _ _ _).1, hA p hp] at this
    rw [this]
    have c1 : nbrCross bs R.kernel (fun _ : Fin 1 => 1) lineTrain 3 1 nn p (pt Q 1 (pointOf 2 ((arange 2).get [p]))) 0 = 1 := by
      show lineModel.kernel.covFn bs (fun _ => 1) _ (pt lineTrain 1 (pointOf 3 (nn.get [p, 0]))) = 1
      rw [line_cov, hnn p hp, pointOf_nat, arange_get, pointOf_nat]
      have e1 : pt Q 1 p 0 = lineTrain.get [if p = 0 then i else j, 0] := hq p hp 0
      have e2 : pt lineTrain 1 (if p = 0 then i else j) 0 = lineTrain.get [if p = 0 then i else j, 0] := rfl
      rw [e1, e2]
      simp
    have c2 : nbrTargets lineTargets 3 1 nn p 0 0 = lineTargets.get [if p = 0 then i else j] := by
      show feature lineTargets (pointOf 3 (nn.get [p, 0])) 0 = _
      rw [hnn p hp, pointOf_nat]
      rfl
    rw [c1, c2, one_mul]
  refine ⟨nn, D, μ, v, a1, a2, hnn 0 two_pos, hnn 1 one_lt_two, ?_, hval 0 two_pos, hval 1 one_lt_two⟩
  unfold regressAny
  show (do
    let nn ← w.getNns Q
    regressFromIndices bs R (arange 2) nn.1 Q lineTrain lineTargets) = _
  rw [a1]
  exact r1

/-- **C88, where the code fails**: the noise of the model belongs to positions in the list of test points, not to observations. A model is made, as documented, with the
noise tensor of the measurement variances `1`, `2`, `3` and the neighbours of the test points `0`, `1` (one neighbour each); it predicts the response `1/3` at `1`. The same test
points in the other order are predicted without an error, but now the observation at `1` is given the variance `1` of another observation: the prediction at `1` is `1/2`. -/
theorem C88_moved_fails (bs : Flt → ℝ → ℝ) : ∃ (w : NNWrapper) (nn : Tensor Int) (D T μ v μ' v' : Tensor ℝ), w.Exact ∧ w.N = 3 ∧ w.nnCount = 1 ∧
    w.train = lineTrain ∧ w.getNns (twoTests 0 1) = .ok (nn, D) ∧ makeHeteroscedasticTensor ⟨[3], fun i => i + 1⟩ nn = .ok T ∧
    regressAny bs ⟨lineModel.kernel, MuyGPS.make (.heteroscedastic T) KernelObj.kout 1⟩ w (twoTests 0 1) w.train lineTargets = .ok (μ, v) ∧
    regressAny bs ⟨lineModel.kernel, MuyGPS.make (.heteroscedastic T) KernelObj.kout 1⟩ w (twoTests 1 0) w.train lineTargets = .ok (μ', v') ∧
    μ.get [1] = 1 / 3 ∧ μ'.get [0] = 1 / 2 := by
  obtain ⟨answer, hw, -⟩ := line_single
  set w : NNWrapper := ⟨3, 1, lineTrain, 1, fun x y => |x 0 - y 0|, false, answer⟩ with hwd
  have h0 : lineTrain.get [0, 0] = 0 := by rw [Tensor.get2 lineTrain rfl]; simp [lineTrain]
  have h1 : lineTrain.get [1, 0] = 1 := by rw [Tensor.get2 lineTrain rfl]; simp [lineTrain]
  have t1 : lineTargets.get [1] = 1 := by rw [Tensor.get1 lineTargets rfl]; simp [lineTargets]
  obtain ⟨nn, D, _, _, a1, a2, a3, a4, -⟩ := line_moved bs answer hw ⟨[2, 1], fun _ => 1⟩ rfl
    (fun p hp i hi => by rw [Tensor.get2 _ rfl]; exact one_pos) 0 1 (by norm_num) (by norm_num)
  rw [h0, h1] at a1
  have hget : ∀ p < 2, nn.get [p, 0] = (p : ℤ) := fun p hp => by
    interval_cases p
    · exact a3
    · exact a4
  have hv : AllValid 3 nn := valid_of_rows a2 fun p hp k hk => by
    obtain rfl : k = 0 := by omega
    exact ⟨p, hget p hp, by omega⟩
  obtain ⟨T, u1, u2, u3⟩ := take_vec (data := ⟨[3], fun i => (i : ℝ) + 1⟩) (N := 3) rfl hv
  have hTs : T.shape = [2, 1] := u2.trans a2
  have hTv : ∀ p < 2, T.get [p, 0] = (p : ℝ) + 1 := fun p hp => by
    have := hget p hp
    rw [Tensor.get2 nn a2] at this
    rw [Tensor.get2 T hTs, u3, this, pointOf_nat]
    simp only [feature]
    rw [Tensor.get1 _ rfl]
  have hpos : ∀ p < 2, ∀ i < 1, 0 < T.get [p, i] := fun p hp i hi => by
    obtain rfl : i = 0 := by omega
    rw [hTv p hp]; positivity
  obtain ⟨_, _, μ, v, -, -, -, -, b1, -, b2⟩ := line_moved bs answer hw T hTs hpos 0 1 (by norm_num) (by norm_num)
  obtain ⟨_, _, μ', v', -, -, -, -, c1, c2, -⟩ := line_moved bs answer hw T hTs hpos 1 0 (by norm_num) (by norm_num)
  rw [h0, h1] at b1 c1
  refine ⟨w, nn, D, T, μ, v, μ', v', hw, rfl, rfl, rfl, a1, u1, b1, c1, ?_, ?_⟩
  · rw [b2, t1, hTv 1 one_lt_two]; norm_num
  · rw [c2, t1, hTv 0 two_pos]; norm_num

/-- **C88**, every function of a model (training objective, variance scale, fast coefficients, predictions perturb the covariances this way): with the noise tensor made from the
neighbours `nn` of a batch, the diagonal entry of neighbour `i` of batch element `p` grows by the measurement noise of the observation `nn[p, i]`, nothing else changes, and
a `noise` keyword has no influence. -/
theorem C88_perturb (noise : Tensor ℝ) (N b n : Nat) (hnoise : noise.shape = [N]) (nn : Tensor Int) (hnn : nn.shape = [b, n])
    (hv : ∀ p < b, ∀ i < n, ∃ x : Nat, nn.get [p, i] = x ∧ x < N) (Kin : Tensor ℝ) (hK : Kin.shape = [b, n, n]) (kw : Option ℝ) :
    ∃ T P, makeHeteroscedasticTensor noise nn = .ok T ∧ (Noise.heteroscedastic T).perturb Kin kw = .ok P ∧ P.shape = [b, n, n] ∧
      ∀ p < b, ∀ i < n, ∀ j < n, ∀ x : Nat, nn.get [p, i] = x →
        P.get [p, i, j] = Kin.get [p, i, j] + if i = j then noise.get [x] else 0 := by
  obtain ⟨T, t1, t2, t3⟩ := take_vec hnoise (valid_of_rows hnn hv)
  obtain ⟨P, p1, p2, p3⟩ := C22_heteroscedastic T kw b n Kin hK (t2.trans hnn)
  refine ⟨T, P, t1, p1, p2, fun p hp i hi j hj x hx => ?_⟩
  rw [p3 p hp i hi j hj]
  rw [Tensor.get2 nn hnn] at hx
  rw [Tensor.get2 T (t2.trans hnn), t3, hx, pointOf_nat]
  simp only [feature, hnoise]

/-! ## Non-vacuity -/

/-- `C88_regress_partial`: training points `0`, `1`, `3` with noise `1`, `2`, `3`, two neighbours, two test points. -/
example (bs : Flt → ℝ → ℝ) : ∃ (w : NNWrapper) (nn : Tensor Int) (D T μ v : Tensor ℝ), w.Exact ∧ w.train = lineTrain ∧ w.nnCount = 2 ∧
    w.getNns lineTest = .ok (nn, D) ∧ makeHeteroscedasticTensor ⟨[3], fun i => i + 1⟩ nn = .ok T ∧
    regressAny bs ⟨lineModel.kernel, MuyGPS.make (.heteroscedastic T) KernelObj.kout 1⟩ w lineTest w.train lineTargets = .ok (μ, v) ∧ μ.shape = [2] := by
  obtain ⟨answer, hw⟩ := line_exact
  set w : NNWrapper := ⟨3, 1, lineTrain, 2, fun x y => |x 0 - y 0|, false, answer⟩ with hwd
  have hN : w.nnCount ≤ w.N := by show 2 ≤ 3; norm_num
  obtain ⟨nn, D, a1, a2, a3, a4, -⟩ := C41_plain w hw lineTest 2 rfl two_pos two_pos hN
  have hv : AllValid w.N nn := valid_of_rows a2 fun i hi j hj => by
    obtain ⟨l, e1, e2⟩ := a4 i hi
    obtain ⟨x, x1, x2⟩ := rowList_get e1 hj
    exact ⟨x, x2, e2.mem x (List.mem_of_getElem? x1)⟩
  obtain ⟨T, t1, -, -⟩ := take_vec (data := ⟨[3], fun i => (i : ℝ) + 1⟩) (N := w.N) rfl hv
  obtain ⟨μ, v, -, h1, h2, -⟩ := C88_regress_partial bs ⟨lineModel.kernel, MuyGPS.make (.heteroscedastic T) KernelObj.kout 1⟩ rfl rfl rfl w hw lineTest lineTargets 2
    (fun _ => 1) ⟨1, one_pos, rfl, fun _ => rfl⟩ rfl rfl two_pos two_pos hN _ rfl nn D T a1 t1 rfl
    (.inl fun i _ => by rw [Tensor.get1 _ rfl]; positivity)
  exact ⟨w, nn, D, T, μ, v, hw, rfl, rfl, a1, t1, h1, h2⟩

/-- `C88_other_count_fails` and `C88_fast_fails`: a model made for two test points and two neighbours cannot predict one test point, nor be made a fast regressor. -/
example (bs : Flt → ℝ → ℝ) : ∃ w : NNWrapper, w.Exact ∧ w.train = lineTrain ∧
    regressAny bs ⟨lineModel.kernel, MuyGPS.make (.heteroscedastic ⟨[2, 2], fun _ => 1⟩) KernelObj.kout 1⟩ w (oneTest 0) w.train lineTargets = .error .value ∧
    makeFastRegressor bs ⟨lineModel.kernel, MuyGPS.make (.heteroscedastic ⟨[2, 2], fun _ => 1⟩) KernelObj.kout 1⟩ w w.train lineTargets = .error .value := by
  obtain ⟨answer, hw⟩ := line_exact
  refine ⟨_, hw, rfl, ?_, ?_⟩
  · exact C88_other_count_fails bs _ rfl _ hw (oneTest 0) lineTargets 1 1 (fun _ => 1) ⟨1, one_pos, rfl, fun _ => rfl⟩ rfl (.inr ⟨rfl, rfl⟩) one_pos
      (by norm_num) (by norm_num) _ rfl (by norm_num) (by norm_num)
  · exact C88_fast_fails bs _ rfl _ hw lineTargets 1 (fun _ => 1) ⟨1, one_pos, rfl, fun _ => rfl⟩ (.inr ⟨rfl, rfl⟩)
      (by norm_num) (by norm_num) _ rfl (by norm_num) (by norm_num)

/-- `C88_do_regress_fails`: a free length scale, an estimated variance scale, heteroscedastic noise for three batch elements with two neighbours each. -/
example (bs : Flt → ℝ → ℝ) : ∃ (w : NNWrapper) (L : Learner), w.Exact ∧ w.train = lineTrain ∧ ∀ L' μ v,
    doRegress bs (fun L _ => .ok L) [] [] 3 w L lineTest lineTargets ≠ .ok (L', μ, v) := by
  obtain ⟨answer, hw⟩ := line_exact
  refine ⟨_, ⟨⟨.scalar ⟨Flt.fin 1, Flt.fin (1 / 2), Flt.fin 2, false⟩, none⟩, .heteroscedastic (List.replicate 6 (Flt.fin 1)), .F2, false, .rbf, .analytic 1, 1, 1⟩,
    hw, rfl, fun L' μ v => ?_⟩
  exact C88_do_regress_fails bs _ [] [] 3 _ hw _ (List.replicate 6 (Flt.fin 1)) rfl (by simp) ⟨("length_scale", ⟨Flt.fin 1, Flt.fin (1 / 2), Flt.fin 2, false⟩), by
      simp [Learner.gp, GP.params, Kernel.named, LenScale.named], rfl⟩
    (by intro h; cases h)
    (fun d L1 h => by cases h; exact ⟨rfl, rfl, rfl, rfl, rfl, fun _ => 1, 1, one_pos, rfl, fun _ => rfl⟩)
    lineTest lineTargets 2 1 rfl (.inr ⟨rfl, rfl⟩) two_pos (by norm_num) (fun h => absurd h (by norm_num)) (by norm_num) (by norm_num) (by norm_num) L' μ v

end MuyGPyS
