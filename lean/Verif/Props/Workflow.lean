import Verif.Spec.Workflow
import Verif.Props.Neighbors
import Verif.Props.Fast

/-! # C54: regression from indices; C32: the fast workflow -/

namespace MuyGPyS
open Py Matrix

theorem covFn_scaled (bessel : Flt → ℝ → ℝ) (k : KernelObj) {f : Nat} (len : Fin f → ℝ) (X Y : Tensor ℝ)
    (N M : Nat) (i j : Int) :
    KFn.value bessel (k.smoothInForce []) k.fn
      (distOf k.deform.metric (scaledPoint X N f len i) (scaledPoint Y M f len j))
      = k.covFn bessel len (pt X f (pointOf N i)) (pt Y f (pointOf M j)) := by
  unfold KernelObj.covFn KernelObj.smoothInForce
  cases k.smoothness <;> rfl

/-- The kernel tensors computed from listed neighbours, as matrices. -/
theorem kernel_pairwise (bessel : Flt → ℝ → ℝ) (k : KernelObj) (hk : k.make = k) (X : Tensor ℝ)
    (nn : Tensor Int) (N f b n : Nat) (len : Fin f → ℝ) (hlen : k.deform.HasLengths f len)
    (hX : IsTable X N f) (hnn : nn.shape = [b, n]) (hv : AllValid N nn) :
    ∃ D K, k.deform.pairwise X nn = .ok D ∧ k.call bessel D [] = .ok K ∧ K.shape = [b, n, n] ∧
      ∀ p < b, Spec.cov n K p = nbrCov bessel k len X N n nn p := by
  obtain ⟨D, T, h1, h2, h3, h4⟩ := pairwise_entries k.deform X nn N f b n len hlen hX hnn hv
  have hc := call_nil bessel k h2
  rw [hk] at hc
  refine ⟨D, _, h1, hc, h3, fun p hp => ?_⟩
  ext i j
  simp only [Spec.cov, map_get, nbrCov]
  rw [h4 p i j hp i.2 j.2, covFn_scaled]

theorem kernel_crosswise (bessel : Flt → ℝ → ℝ) (k : KernelObj) (hk : k.make = k) (Q X : Tensor ℝ)
    (idx nn : Tensor Int) (M N f b n : Nat) (len : Fin f → ℝ) (hlen : k.deform.HasLengths f len)
    (hQ : IsTable Q M f) (hX : IsTable X N f) (hrank : Q.shape.length = X.shape.length)
    (hi : idx.shape = [b]) (hnn : nn.shape = [b, n]) (hvi : AllValid M idx) (hv : AllValid N nn) :
    ∃ D K, k.deform.crosswise Q X idx nn = .ok D ∧ k.call bessel D [] = .ok K ∧ K.shape = [b, n] ∧
      ∀ p < b, Spec.vec n K p = nbrCross bessel k len X N n nn p (pt Q f (pointOf M (idx.get [p]))) := by
  obtain ⟨D, T, h1, h2, h3, h4⟩ :=
    crosswise_entries k.deform Q X idx nn M N f b n len hlen hQ hX hrank hi hnn hvi hv
  have hc := call_nil bessel k h2
  rw [hk] at hc
  refine ⟨D, _, h1, hc, h3, fun p hp => ?_⟩
  ext j
  simp only [Spec.vec, map_get, nbrCross]
  rw [h4 p j hp j.2, covFn_scaled]

theorem nbrCov_symm (bessel : Flt → ℝ → ℝ) (k : KernelObj) {f : Nat} (len : Fin f → ℝ) (X : Tensor ℝ)
    (N n : Nat) (nn : Tensor Int) (p : Nat) :
    (nbrCov bessel k len X N n nn p).transpose = nbrCov bessel k len X N n nn p := by
  ext i j
  simp only [transpose_apply, nbrCov, KernelObj.covFn]
  rw [distOf_comm]

/-- The tensors of `tensors_from_indices`. -/
theorem tensorsFromIndices_ok (bessel : Flt → ℝ → ℝ) (R : Regressor) (hk : R.kernel.make = R.kernel)
    (Q X Y : Tensor ℝ) (idx nn : Tensor Int) (M N f r b n : Nat) (len : Fin f → ℝ)
    (hlen : R.kernel.deform.HasLengths f len)
    (hQ : IsTable Q M f) (hX : IsTable X N f) (hY : IsTable Y N r)
    (hrank : Q.shape.length = X.shape.length)
    (hi : idx.shape = [b]) (hnn : nn.shape = [b, n]) (hvi : AllValid M idx) (hv : AllValid N nn) :
    ∃ K C Z, tensorsFromIndices bessel R idx nn Q X Y = .ok (K, C, Z) ∧
      K.shape = [b, n, n] ∧ C.shape = [b, n] ∧ Z.shape = [b, n] ++ Y.shape.tail ∧
      (∀ p < b, Spec.cov n K p = nbrCov bessel R.kernel len X N n nn p) ∧
      (∀ p < b, Spec.vec n C p =
        nbrCross bessel R.kernel len X N n nn p (pt Q f (pointOf M (idx.get [p])))) ∧
      ∀ p < b, ∀ j < n, ∀ c < r, Z.flat ((p * n + j) * r + c) = feature Y (pointOf N (nn.get [p, j])) c := by
  obtain ⟨D, K, k1, k2, k3, k4⟩ := kernel_pairwise bessel R.kernel hk X nn N f b n len hlen hX hnn hv
  obtain ⟨E, C, c1, c2, c3, c4⟩ :=
    kernel_crosswise bessel R.kernel hk Q X idx nn M N f b n len hlen hQ hX hrank hi hnn hvi hv
  obtain ⟨Z, z1, z2, z3⟩ := take_targets hY hv
  refine ⟨K, C, Z, ?_, k3, c3, by rw [z2, hnn], k4, c4, fun p hp j hj c hc => ?_⟩
  · unfold tensorsFromIndices makePredictTensors
    unfold Deform.pairwise at k1
    unfold Deform.crosswise at c1
    simp only [Option.getD_some, c1, k1, z1, bind, Except.bind, pure, Except.pure, k2, c2]
  · rw [z3 _ c hc, Tensor.get2 nn hnn]

/-- Model-level posterior mean for several responses. -/
theorem model_mean_multi (m : MuyGPS) (b n r : Nat) (hr : r ≠ n) (hν : m.noise.Fits b n)
    (Kin Kcross y : Tensor ℝ)
    (hK : Kin.shape = [b, n, n]) (hC : Kcross.shape = [b, n]) (hy : y.shape = [b, n, r])
    (hinv : ∀ p < b, (Spec.cov n Kin p + m.noise.mat n p).det ≠ 0)
    (hsym : ∀ p < b, (Spec.cov n Kin p).transpose = Spec.cov n Kin p) :
    ∃ T, m.posteriorMean Kin Kcross y = .ok T ∧ T.shape = [b, r] ∧
      ∀ p < b, ∀ c < r, T.get [p, c] = Spec.krigingMean (Spec.cov n Kin p + m.noise.mat n p)
        (Spec.vec n Kcross p) (Spec.vecR n y p c) := by
  obtain ⟨P, h1, h2, h3⟩ := m.noise.perturb_cov hν Kin hK
  obtain ⟨T, hT, hs, hm⟩ := C24_multi_response_partial b n r hr P Kcross y h2 hC hy
    (fun p hp => by rw [h3]; exact hinv p hp)
    (fun p hp => by rw [h3, transpose_add, hsym p hp, Noise.mat_symm])
  refine ⟨T, ?_, hs, fun p hp c hc => by rw [hm p hp c hc, h3]⟩
  unfold MuyGPS.posteriorMean Noise.perturbFn
  rw [h1]; exact hT

/-- C54, one response: regression from indices gives for every query the kriging mean and (scaled)
kriging variance computed from the training features and targets of exactly its listed neighbours. -/
theorem C54_regress (bessel : Flt → ℝ → ℝ) (R : Regressor) (hk : R.kernel.make = R.kernel)
    (hko : R.gp.kout = KernelObj.kout)
    (Q X Y : Tensor ℝ) (idx nn : Tensor Int) (M N f b n : Nat) (len : Fin f → ℝ)
    (hlen : R.kernel.deform.HasLengths f len)
    (hQ : IsTable Q M f) (hX : IsTable X N f) (hY : Y.shape = [N])
    (hrank : Q.shape.length = X.shape.length)
    (hi : idx.shape = [b]) (hnn : nn.shape = [b, n]) (hvi : AllValid M idx) (hv : AllValid N nn)
    (hν : R.gp.noise.Fits b n)
    (hinv : ∀ p < b, (nbrCov bessel R.kernel len X N n nn p + R.gp.noise.mat n p).det ≠ 0) :
    ∃ μ v, regressFromIndices bessel R idx nn Q X Y = .ok (μ, v) ∧ μ.shape = [b] ∧ v.shape = [b] ∧
      ∀ p < b,
        μ.get [p] = Spec.krigingMean (nbrCov bessel R.kernel len X N n nn p + R.gp.noise.mat n p)
          (nbrCross bessel R.kernel len X N n nn p (pt Q f (pointOf M (idx.get [p]))))
          (nbrTargets Y N n nn p 0) ∧
        v.get [p] = R.gp.boundScale *
          Spec.krigingVar 1 (nbrCov bessel R.kernel len X N n nn p + R.gp.noise.mat n p)
            (nbrCross bessel R.kernel len X N n nn p (pt Q f (pointOf M (idx.get [p])))) := by
  obtain ⟨K, C, Z, t1, t2, t3, t4, t5, t6, t7⟩ := tensorsFromIndices_ok bessel R hk Q X Y idx nn M N f 1 b n
    len hlen hQ hX (.inr ⟨hY, rfl⟩) hrank hi hnn hvi hv
  have t4' : Z.shape = [b, n] := by rw [t4, hY]; rfl
  have hd : ∀ p < b, (Spec.cov n K p + R.gp.noise.mat n p).det ≠ 0 := fun p hp => by
    rw [t5 p hp]; exact hinv p hp
  have hs : ∀ p < b, (Spec.cov n K p).transpose = Spec.cov n K p := fun p hp => by
    rw [t5 p hp, nbrCov_symm]
  obtain ⟨μ, m1, m2, m3⟩ := C24_model_mean R.gp b n hν K C Z t2 t3 t4' hd hs
  obtain ⟨v, v1, v2, v3⟩ := C24_model_variance R.gp b n hν K C (by rw [hko]; rfl) t2 t3 hd hs
  refine ⟨μ, v, ?_, m2, v2, fun p hp => ⟨?_, ?_⟩⟩
  · unfold regressFromIndices
    simp only [t1, bind, Except.bind, m1, v1, pure, Except.pure]
  · rw [m3 p hp, t5 p hp, t6 p hp]
    congr 1
    funext j
    have := t7 p hp j j.2 0 (by omega)
    rw [Nat.mul_one, Nat.add_zero] at this
    rw [Spec.vec, Tensor.get2 Z t4', this]
    rfl
  · rw [v3 p hp, t5 p hp, t6 p hp, hko]
    rfl

/-- C54, several responses: the same for each response column.
Partial: the response count must differ from the neighbour count, see
`C24_responses_eq_neighbours_fails`. -/
theorem C54_regress_multi_partial (bessel : Flt → ℝ → ℝ) (R : Regressor) (hk : R.kernel.make = R.kernel)
    (Q X Y : Tensor ℝ) (idx nn : Tensor Int) (M N f r b n : Nat) (hr : r ≠ n) (len : Fin f → ℝ)
    (hlen : R.kernel.deform.HasLengths f len)
    (hQ : IsTable Q M f) (hX : IsTable X N f) (hY : Y.shape = [N, r])
    (hrank : Q.shape.length = X.shape.length)
    (hi : idx.shape = [b]) (hnn : nn.shape = [b, n]) (hvi : AllValid M idx) (hv : AllValid N nn)
    (hν : R.gp.noise.Fits b n)
    (hinv : ∀ p < b, (nbrCov bessel R.kernel len X N n nn p + R.gp.noise.mat n p).det ≠ 0) :
    ∃ μ, posteriorMeanFromIndices bessel R idx nn Q X Y = .ok μ ∧ μ.shape = [b, r] ∧
      ∀ p < b, ∀ c < r,
        μ.get [p, c] = Spec.krigingMean (nbrCov bessel R.kernel len X N n nn p + R.gp.noise.mat n p)
          (nbrCross bessel R.kernel len X N n nn p (pt Q f (pointOf M (idx.get [p]))))
          (nbrTargets Y N n nn p c) := by
  obtain ⟨K, C, Z, t1, t2, t3, t4, t5, t6, t7⟩ := tensorsFromIndices_ok bessel R hk Q X Y idx nn M N f r b n
    len hlen hQ hX (.inl hY) hrank hi hnn hvi hv
  have t4' : Z.shape = [b, n, r] := by rw [t4, hY]; rfl
  obtain ⟨μ, m1, m2, m3⟩ := model_mean_multi R.gp b n r hr hν K C Z t2 t3 t4'
    (fun p hp => by rw [t5 p hp]; exact hinv p hp) (fun p hp => by rw [t5 p hp, nbrCov_symm])
  refine ⟨μ, ?_, m2, fun p hp c hc => ?_⟩
  · unfold posteriorMeanFromIndices
    simp only [t1, bind, Except.bind, m1]
  · rw [m3 p hp c hc, t5 p hp, t6 p hp]
    congr 1
    funext j
    have := t7 p hp j j.2 c hc
    rw [Spec.vecR, Tensor.get3 Z t4', nbrTargets, ← this]
    congr 1; ring

/-- C54, several responses, means and variances together: the means are as in `C54_regress_multi_partial`,
and there is one (scaled) kriging variance per query, common to all responses. Partial as there. -/
theorem C54_regress_multi_variance_partial (bessel : Flt → ℝ → ℝ) (R : Regressor) (hk : R.kernel.make = R.kernel)
    (hko : R.gp.kout = KernelObj.kout)
    (Q X Y : Tensor ℝ) (idx nn : Tensor Int) (M N f r b n : Nat) (hr : r ≠ n) (len : Fin f → ℝ)
    (hlen : R.kernel.deform.HasLengths f len)
    (hQ : IsTable Q M f) (hX : IsTable X N f) (hY : Y.shape = [N, r])
    (hrank : Q.shape.length = X.shape.length)
    (hi : idx.shape = [b]) (hnn : nn.shape = [b, n]) (hvi : AllValid M idx) (hv : AllValid N nn)
    (hν : R.gp.noise.Fits b n)
    (hinv : ∀ p < b, (nbrCov bessel R.kernel len X N n nn p + R.gp.noise.mat n p).det ≠ 0) :
    ∃ μ v, regressFromIndices bessel R idx nn Q X Y = .ok (μ, v) ∧
      posteriorMeanFromIndices bessel R idx nn Q X Y = .ok μ ∧ μ.shape = [b, r] ∧ v.shape = [b] ∧
      ∀ p < b, (∀ c < r,
        μ.get [p, c] = Spec.krigingMean (nbrCov bessel R.kernel len X N n nn p + R.gp.noise.mat n p)
          (nbrCross bessel R.kernel len X N n nn p (pt Q f (pointOf M (idx.get [p]))))
          (nbrTargets Y N n nn p c)) ∧
        v.get [p] = R.gp.boundScale *
          Spec.krigingVar 1 (nbrCov bessel R.kernel len X N n nn p + R.gp.noise.mat n p)
            (nbrCross bessel R.kernel len X N n nn p (pt Q f (pointOf M (idx.get [p])))) := by
  obtain ⟨μ, m1, m2, m3⟩ := C54_regress_multi_partial bessel R hk Q X Y idx nn M N f r b n hr len hlen hQ hX hY
    hrank hi hnn hvi hv hν hinv
  obtain ⟨K, C, Z, t1, t2, t3, t4, t5, t6, t7⟩ := tensorsFromIndices_ok bessel R hk Q X Y idx nn M N f r b n
    len hlen hQ hX (.inl hY) hrank hi hnn hvi hv
  obtain ⟨v, v1, v2, v3⟩ := C24_model_variance R.gp b n hν K C (by rw [hko]; rfl) t2 t3
    (fun p hp => by rw [t5 p hp]; exact hinv p hp) (fun p hp => by rw [t5 p hp, nbrCov_symm])
  refine ⟨μ, v, ?_, m1, m2, v2, fun p hp => ⟨m3 p hp, ?_⟩⟩
  · unfold posteriorMeanFromIndices at m1
    unfold regressFromIndices
    simp only [t1, bind, Except.bind] at m1
    simp only [t1, bind, Except.bind, m1, v1, pure, Except.pure]
  · rw [v3 p hp, t5 p hp, t6 p hp, hko]
    rfl

/-- C54: the separate mean and variance workflows return the two components of the joint one, and the joint one
succeeds exactly when both do. -/
theorem C54_components (bessel : Flt → ℝ → ℝ) (R : Regressor) (Q X Y : Tensor ℝ) (idx nn : Tensor Int) (μ v : Tensor ℝ) :
    regressFromIndices bessel R idx nn Q X Y = .ok (μ, v) ↔
      posteriorMeanFromIndices bessel R idx nn Q X Y = .ok μ ∧ posteriorVarianceFromIndices bessel R idx nn Q X Y = .ok v := by
  unfold regressFromIndices posteriorMeanFromIndices posteriorVarianceFromIndices
  cases tensorsFromIndices bessel R idx nn Q X Y with
  | error e => simp [bind, Except.bind]
  | ok t =>
    simp only [bind, Except.bind]
    cases R.gp.posteriorMean t.1 t.2.1 t.2.2 with
    | error e => simp
    | ok μ' =>
      cases R.gp.posteriorVariance t.1 t.2.1 with
      | error e => simp
      | ok v' => simp [pure, Except.pure]

theorem pointOf_nat (N i : Nat) : pointOf N (i : Int) = i := Tensor.wrapIndex_nonneg

theorem arange_get (m i : Nat) : (arange m).get [i] = (i : Int) := by
  simp [arange, Tensor.get, Tensor.ravel]

theorem arange_valid (m : Nat) : AllValid m (arange m) := by
  intro k hk
  have : k < m := by simpa [arange] using hk
  show Tensor.validIndex m ((k : Nat) : Int)
  unfold Tensor.validIndex
  omega

/-- An index matrix whose rows are lists of numbers below `N` is valid. -/
theorem valid_of_rows {N m k : Nat} {I : Tensor Int} (hI : I.shape = [m, k])
    (h : ∀ i < m, ∀ j < k, ∃ x : Nat, I.get [i, j] = (x : Int) ∧ x < N) : AllValid N I := by
  intro q hq
  rw [hI] at hq
  have hq' : q < m * k := by simpa using hq
  have hk : 0 < k := Nat.pos_of_ne_zero (by rintro rfl; simp at hq')
  obtain ⟨x, hx, hxN⟩ := h (q / k) (Nat.div_lt_of_lt_mul (by rwa [Nat.mul_comm] at hq')) (q % k) (Nat.mod_lt _ hk)
  rw [Tensor.get2 I hI, Nat.div_add_mod'] at hx
  rw [hx]
  unfold Tensor.validIndex
  omega

theorem rowList_get {k : Nat} {I : Tensor Int} {i : Nat} {l : List Nat}
    (h : rowList I k i = l.map Int.ofNat) {j : Nat} (hj : j < k) :
    ∃ x, l[j]? = some x ∧ I.get [i, j] = (x : Int) := by
  have h1 := congrArg (fun l => l[j]?) h
  simp only [rowList, List.getElem?_map, List.getElem?_range hj, Option.map_some] at h1
  cases hx : l[j]? with
  | none => rw [hx] at h1; simp at h1
  | some x => rw [hx] at h1; exact ⟨x, rfl, by simpa using h1⟩

/-- C54, end to end: `regress_any` predicts each test point from its `nn_count` nearest training
points. -/
theorem C54_regress_any (bessel : Flt → ℝ → ℝ) (R : Regressor) (hk : R.kernel.make = R.kernel)
    (hko : R.gp.kout = KernelObj.kout) (w : NNWrapper) (hw : w.Exact) (Q Y : Tensor ℝ)
    (m : Nat) (len : Fin w.f → ℝ) (hlen : R.kernel.deform.HasLengths w.f len)
    (hQ : Q.shape = [m, w.f]) (hY : Y.shape = [w.N]) (hm : 0 < m) (hk0 : 0 < w.nnCount)
    (hkN : w.nnCount ≤ w.N) (hν : R.gp.noise.Fits m w.nnCount) :
    ∃ nn : Tensor Int,
      (∀ i < m, ∃ l : List Nat, rowList nn w.nnCount i = l.map Int.ofNat ∧
        Nearest (· < w.N) (fun j => w.dist (rowPt Q w.f i) (rowPt w.train w.f j)) w.nnCount l) ∧
      ((∀ p < m, (nbrCov bessel R.kernel len w.train w.N w.nnCount nn p + R.gp.noise.mat w.nnCount p).det ≠ 0) →
        ∃ μ v, regressAny bessel R w Q w.train Y = .ok (μ, v) ∧ μ.shape = [m] ∧ v.shape = [m] ∧
          ∀ p < m,
            μ.get [p] = Spec.krigingMean
              (nbrCov bessel R.kernel len w.train w.N w.nnCount nn p + R.gp.noise.mat w.nnCount p)
              (nbrCross bessel R.kernel len w.train w.N w.nnCount nn p (rowPt Q w.f p))
              (nbrTargets Y w.N w.nnCount nn p 0) ∧
            v.get [p] = R.gp.boundScale * Spec.krigingVar 1
              (nbrCov bessel R.kernel len w.train w.N w.nnCount nn p + R.gp.noise.mat w.nnCount p)
              (nbrCross bessel R.kernel len w.train w.N w.nnCount nn p (rowPt Q w.f p))) := by
  obtain ⟨I, D, h1, h2, h3, h4, h5⟩ := C41_plain w hw Q m hQ hm hk0 hkN
  refine ⟨I, h4, fun hinv => ?_⟩
  have hv : AllValid w.N I := valid_of_rows h2 fun i hi j hj => by
    obtain ⟨l, e1, e2⟩ := h4 i hi
    obtain ⟨x, x1, x2⟩ := rowList_get e1 hj
    exact ⟨x, x2, e2.mem x (List.mem_of_getElem? x1)⟩
  obtain ⟨μ, v, r1, r2, r3, r4⟩ := C54_regress bessel R hk hko Q w.train Y (arange m) I m w.N w.f m w.nnCount
    len hlen (.inl hQ) (.inl hw.1) hY (by rw [hQ, hw.1]; rfl) rfl h2 (arange_valid m) hv hν hinv
  have hp : ∀ p, pt Q w.f (pointOf m ((arange m).get [p])) = rowPt Q w.f p := by
    intro p
    rw [arange_get, pointOf_nat]
    funext c
    simp only [pt, feature, hQ, rowPt]
  refine ⟨μ, v, ?_, r2, r3, fun p hpm => ?_⟩
  · unfold regressAny
    rw [hQ]
    simp only [h1, bind, Except.bind, r1]
  · have := r4 p hpm
    rw [hp] at this
    exact this

end MuyGPyS
