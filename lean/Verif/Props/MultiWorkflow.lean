import Verif.Props.MultiFast
import Verif.Props.FastWitness

/-! # C46, C54: multi-output regression from indices -/

namespace MuyGPyS
open Py Matrix

/-- The crosswise tensor of `b` predictions has `b` rows. -/
theorem crosswise_head (df : Deform) (Q X : Tensor ℝ) (idx nn : Tensor Int) (N M f b n : Nat)
    (hQ : IsTable Q N f) (hX : IsTable X M f) (hrank : Q.shape.length = X.shape.length)
    (hi : idx.shape = [b]) (hnn : nn.shape = [b, n]) (hvi : AllValid N idx) (hvn : AllValid M nn)
    (D : Tensor ℝ) (h : df.crosswise Q X idx nn = .ok D) : ∃ tl, D.shape = b :: tl := by
  obtain ⟨P, h1, h2, -⟩ := C14_crosswise Q X idx nn N M f b n hQ hX hrank hi hnn hvi hvn
  unfold Deform.crosswise defCrosswise at h
  rw [h1] at h
  simp only [bind, Except.bind] at h
  cases df with
  | isotropy m p =>
    simp only [Deform.kind, Deform.metric] at h
    obtain ⟨S, s1, s2, -⟩ := C17_any_rank m [b, n] f P h2
    rw [s1] at h
    rw [← Except.ok.inj h]
    exact ⟨_, s2⟩
  | difference m p =>
    simp only [Deform.kind, pure, Except.pure] at h
    rw [← Except.ok.inj h]
    exact ⟨_, h2⟩
  | anisotropy m ps =>
    simp only [Deform.kind, pure, Except.pure] at h
    rw [← Except.ok.inj h]
    exact ⟨_, h2⟩

/-- **C54 / C46, multi-output regression from indices.** When all models use the same kind of deformation
and the same metric, output `c` of prediction `p` is the kriging mean of model `c` from the features
and the `c`-th responses of the listed neighbours, and its variance the kriging variance of model `c`
times the captured and the current scale. Partial: one neighbour is excluded (`C46_one_neighbour_fails`),
models with different metrics fail (`C46_metric_mismatch_fails`), and the variance has one scale factor
too many unless the scale is one (`C46_variance_fails`). -/
theorem C54_multi_output_partial (bessel : Flt → ℝ → ℝ) (T₀ : Trainee) (models : List Trainee)
    (hhead : models.head? = some T₀)
    (hsame : ∀ T ∈ models, T.R.kernel.deform.kind = T₀.R.kernel.deform.kind ∧
      T.R.kernel.deform.metric = T₀.R.kernel.deform.metric)
    (hk : ∀ T ∈ models, T.R.kernel.make = T.R.kernel) (hko : ∀ T ∈ models, T.R.gp.kout = KernelObj.kout)
    (Q X Y : Tensor ℝ) (idx nn : Tensor Int) (M N f b n : Nat) (hbn : n ≠ 1 ∨ b = 1)
    (len : Trainee → Fin f → ℝ) (hlen : ∀ T ∈ models, T.R.kernel.deform.HasLengths f (len T))
    (hQ : IsTable Q M f) (hX : IsTable X N f) (hY : Y.shape = [N, models.length])
    (hrank : Q.shape.length = X.shape.length)
    (hi : idx.shape = [b]) (hnn : nn.shape = [b, n]) (hvi : AllValid M idx) (hv : AllValid N nn)
    (hν : ∀ T ∈ models, T.R.gp.noise.Fits b n)
    (hinv : ∀ T ∈ models, ∀ p < b,
      (nbrCov bessel T.R.kernel (len T) X N n nn p + T.R.gp.noise.mat n p).det ≠ 0) :
    ∃ μ v, multiRegressFromIndices bessel models idx nn Q X Y = .ok (μ, v) ∧
      μ.shape = [b, models.length] ∧ v.shape = [b, models.length] ∧
      ∀ c T, models[c]? = some T → ∀ p < b,
        μ.get [p, c] = Spec.krigingMean (nbrCov bessel T.R.kernel (len T) X N n nn p + T.R.gp.noise.mat n p)
          (nbrCross bessel T.R.kernel (len T) X N n nn p (pt Q f (pointOf M (idx.get [p]))))
          (nbrTargets Y N n nn p c) ∧
        v.get [p, c] = T.R.gp.scale * (T.R.gp.boundScale *
          Spec.krigingVar 1 (nbrCov bessel T.R.kernel (len T) X N n nn p + T.R.gp.noise.mat n p)
            (nbrCross bessel T.R.kernel (len T) X N n nn p (pt Q f (pointOf M (idx.get [p]))))) := by
  set r := models.length with hr
  have hT0 : T₀ ∈ models := List.mem_of_head? hhead
  obtain ⟨D, -, d1, -⟩ := kernel_pairwise bessel T₀.R.kernel (hk T₀ hT0) X nn N f b n (len T₀) (hlen T₀ hT0) hX hnn hv
  obtain ⟨E, -, e1, -⟩ := kernel_crosswise bessel T₀.R.kernel (hk T₀ hT0) Q X idx nn M N f b n (len T₀)
    (hlen T₀ hT0) hQ hX hrank hi hnn hvi hv
  obtain ⟨tl, hEs⟩ := crosswise_head T₀.R.kernel.deform Q X idx nn M N f b n hQ hX hrank hi hnn hvi hv E e1
  obtain ⟨Z, z1, z2, z3⟩ := take_targets (Y := Y) (r := r) (.inl hY) hv
  have hZs : Z.shape = [b, n, r] := by rw [z2, hnn, hY]; rfl
  have hcol : ∀ c < r, targetColumn Z c = ⟨[b, n], fun k => Z.flat (k * r + c)⟩ := fun c hc =>
    (targetColumn_eq b n r c Z hZs hc).2
  have hper : ∀ T ∈ models, ∃ K C, T.R.kernel.call bessel D [] = .ok K ∧ K.shape = [b, n, n] ∧
      T.R.kernel.call bessel E [] = .ok C ∧ C.shape = [b, n] ∧
      (∀ p < b, Spec.cov n K p = nbrCov bessel T.R.kernel (len T) X N n nn p) ∧
      ∀ p < b, Spec.vec n C p =
        nbrCross bessel T.R.kernel (len T) X N n nn p (pt Q f (pointOf M (idx.get [p]))) := by
    intro T hT
    obtain ⟨D', K, a1, a2, a3, a4⟩ := kernel_pairwise bessel T.R.kernel (hk T hT) X nn N f b n (len T) (hlen T hT) hX hnn hv
    obtain ⟨E', C, c1, c2, c3, c4⟩ := kernel_crosswise bessel T.R.kernel (hk T hT) Q X idx nn M N f b n (len T)
      (hlen T hT) hQ hX hrank hi hnn hvi hv
    obtain ⟨s1, s2⟩ := hsame T hT
    have hD : D' = D := by
      unfold Deform.pairwise at a1 d1
      rw [s1, s2, d1] at a1
      exact (Except.ok.inj a1).symm
    have hE : E' = E := by
      unfold Deform.crosswise at c1 e1
      rw [s1, s2, e1] at c1
      exact (Except.ok.inj c1).symm
    subst hD hE
    exact ⟨K, C, a2, a3, c2, c3, a4, c4⟩
  have hreal : ∀ T ∈ models, T.R.Realizes bessel D E b n := fun T hT => by
    obtain ⟨K, C, a1, a2, a3, a4, -⟩ := hper T hT
    exact ⟨K, C, a1, a2, a3, a4⟩
  have huni : ∀ c T, models[c]? = some T → ∃ t u,
      univariateMean bessel T.R D E (targetColumn Z c) = .ok t ∧ t.shape = [b] ∧
      univariateVariance bessel T.R D E = .ok u ∧ u.shape = [b] ∧ ∀ p < b,
        t.get [p] = Spec.krigingMean (nbrCov bessel T.R.kernel (len T) X N n nn p + T.R.gp.noise.mat n p)
          (nbrCross bessel T.R.kernel (len T) X N n nn p (pt Q f (pointOf M (idx.get [p]))))
          (nbrTargets Y N n nn p c) ∧
        u.get [p] = T.R.gp.boundScale *
          Spec.krigingVar 1 (nbrCov bessel T.R.kernel (len T) X N n nn p + T.R.gp.noise.mat n p)
            (nbrCross bessel T.R.kernel (len T) X N n nn p (pt Q f (pointOf M (idx.get [p])))) := by
    intro c T hc
    have hT := List.mem_of_getElem? hc
    have hcr : c < r := (List.getElem?_eq_some_iff.mp hc).1
    obtain ⟨K, C, a1, a2, a3, a4, a5, a6⟩ := hper T hT
    have hd : ∀ p < b, (Spec.cov n K p + T.R.gp.noise.mat n p).det ≠ 0 := fun p hp => by
      rw [a5 p hp]; exact hinv T hT p hp
    have hs : ∀ p < b, (Spec.cov n K p).transpose = Spec.cov n K p := fun p hp => by
      rw [a5 p hp, nbrCov_symm]
    have hcs : (targetColumn Z c).shape = [b, n] := by rw [hcol c hcr]
    obtain ⟨t, t1, t2, t3⟩ := C24_model_mean T.R.gp b n (hν T hT) K C (targetColumn Z c) a2 a4 hcs hd hs
    obtain ⟨u, u1, u2, u3⟩ := C24_model_variance T.R.gp b n (hν T hT) K C (by rw [hko T hT]; rfl) a2 a4 hd hs
    refine ⟨t, u, ?_, t2, ?_, u2, fun p hp => ⟨?_, ?_⟩⟩
    · unfold univariateMean; simp only [a1, a3, bind, Except.bind, t1]
    · unfold univariateVariance; simp only [a1, a3, bind, Except.bind, u1]
    · rw [t3 p hp, a5 p hp, a6 p hp]
      congr 1
      funext j
      rw [Spec.vec, Tensor.get2 _ hcs, hcol c hcr]
      show Z.flat ((p * n + j) * r + c) = _
      rw [z3 _ c hcr, nbrTargets, Tensor.get2 nn hnn]
    · rw [u3 p hp, a5 p hp, a6 p hp, hko T hT]
      rfl
  obtain ⟨hiff, hval⟩ := C46_mean_partial bessel models b n r hbn D E Z hZs rfl hreal
  obtain ⟨μ, hμ⟩ := hiff.2 fun c T hc => let ⟨t, _, h, _⟩ := huni c T hc; ⟨t, h⟩
  have hex : ∀ c : Nat, ∃ u : Tensor ℝ, ∀ T : Trainee, models[c]? = some T → univariateVariance bessel T.R D E = .ok u ∧ u.shape = [b] := by
    intro c
    cases hc : models[c]? with
    | none => exact ⟨zeros [], by simp⟩
    | some T =>
      obtain ⟨_, u, _, _, h1, h2, _⟩ := huni c T hc
      exact ⟨u, by rintro T' ⟨⟩; exact ⟨h1, h2⟩⟩
  choose g hg using hex
  obtain ⟨v, v1, v2, v3⟩ := C46_variance_actual bessel models b tl D E hEs g (fun c T hc => hg c T hc)
  refine ⟨μ, v, ?_, (hval μ hμ).1, v2, fun c T hc p hp => ?_⟩
  · unfold multiRegressFromIndices multiPredictTensors
    cases models with
    | nil => simp at hhead
    | cons T models =>
      obtain rfl : T = T₀ := by simpa using hhead
      unfold makePredictTensors
      unfold Deform.pairwise at d1
      unfold Deform.crosswise at e1
      simp only [Option.getD_some, d1, e1, z1, bind, Except.bind, pure, Except.pure, hμ, v1]
  · obtain ⟨t, u, t1, -, u1, -, htu⟩ := huni c T hc
    obtain ⟨x1, x2⟩ := htu p hp
    refine ⟨?_, ?_⟩
    · rw [((hval μ hμ).2 c T t hc t1).2 p hp, x1]
    · rw [v3 c T hc p hp]
      have : g c = u := by
        have := (hg c T hc).1
        rw [u1] at this
        exact (Except.ok.inj this).symm
      rw [this, x2]

/-- RBF with unit length scale, unit noise and scale, on the metric `m`. -/
noncomputable def metricModel (m : Metric) : Trainee :=
  ⟨⟨⟨.isotropy m ⟨Flt.fin 1, Flt.fin 0, Flt.fin 0, true⟩, none, .rbf⟩, MuyGPS.make (.homoscedastic 1) KernelObj.kout 1⟩, .fixed⟩

theorem metricModel_call (bessel : Flt → ℝ → ℝ) (m : Metric) (D : Tensor ℝ) :
    (metricModel m).R.kernel.call bessel D [] = .ok (D.map fun x => Real.exp (-x / 2)) := by
  have hun : Unreserved [] := fun a ha => by simp at ha
  have hm : (metricModel m).R.kernel.make = (metricModel m).R.kernel := rfl
  rw [← hm, call_eq bessel _ (make_wellBound _) _ [] hun]
  have hd : (metricModel m).R.kernel.make.deform = .isotropy m ⟨Flt.fin 1, Flt.fin 0, Flt.fin 0, true⟩ := rfl
  rw [hd]
  cases m <;>
  simp [Deform.call, Deform.filter, inForce, Dict.get?, Tensor.map, Metric.scaleBy, KernelObj.make,
    metricModel, KFn.value, filterScalar, Dict.setdefault, Dict.has, Flt.toReal, Flt.fin]

/-- **C46 fails for models with different metrics.** A multi-output model whose second model uses the
squared distance and whose first uses the Euclidean distance predicts, at distance two from the only
training point with response one, the second output `exp (-1) / 2`; the second model alone predicts
`exp (-2) / 2`. -/
theorem C46_metric_mismatch_fails (bessel : Flt → ℝ → ℝ) :
    let X : Tensor ℝ := ⟨[1, 1], fun _ => 0⟩
    let Q : Tensor ℝ := ⟨[1, 1], fun _ => 2⟩
    let idx : Tensor Int := ⟨[1], fun _ => 0⟩
    let nn : Tensor Int := ⟨[1, 1], fun _ => 0⟩
    ∃ μ v μ₁ v₁,
      multiRegressFromIndices bessel [metricModel .l2, metricModel .F2] idx nn Q X ⟨[1, 2], fun _ => 1⟩ = .ok (μ, v) ∧
      regressFromIndices bessel (metricModel .F2).R idx nn Q X ⟨[1], fun _ => 1⟩ = .ok (μ₁, v₁) ∧
      μ.get [0, 1] = Real.exp (-1) / 2 ∧ μ₁.get [0] = Real.exp (-2) / 2 := by
  intro X Q idx nn
  have hlen : ∀ m, (metricModel m).R.kernel.deform.HasLengths 1 (fun _ => 1) := fun m => ⟨1, one_pos, rfl, fun _ => rfl⟩
  have hv : AllValid 1 nn := by
    intro k hk; show _ ∧ _; simp [nn]
  have hvi : AllValid 1 idx := by
    intro k hk; show _ ∧ _; simp [idx]
  have hmat : ∀ m p, nbrCov bessel (metricModel m).R.kernel (fun _ : Fin 1 => 1) X 1 1 nn p
      + (metricModel m).R.gp.noise.mat 1 p = (2:ℝ) • 1 := by
    intro m p
    ext i j
    fin_cases i; fin_cases j
    simp [nbrCov, KernelObj.covFn, metricModel, KFn.value, distOf_self, Noise.mat, MuyGPS.make, nn, Tensor.get]
    norm_num
  have hinv : ∀ m, ∀ p < 1, (nbrCov bessel (metricModel m).R.kernel (fun _ : Fin 1 => 1) X 1 1 nn p
      + (metricModel m).R.gp.noise.mat 1 p).det ≠ 0 := by
    intro m p _
    rw [hmat]; simp
  have hkr : ∀ (k y : Fin 1 → ℝ), Spec.krigingMean ((2:ℝ) • 1) k y = k 0 * y 0 / 2 := by
    intro k y
    unfold Spec.krigingMean
    rw [inv_smul_one (by norm_num)]
    simp [Matrix.smul_mulVec, dotProduct]
    ring
  obtain ⟨μ, v, h1, -, -, h2⟩ := C54_multi_output_partial bessel (metricModel .l2) [metricModel .l2, metricModel .l2] rfl
    (by simp) (by simp [metricModel, KernelObj.make]) (by simp [metricModel, MuyGPS.make]) Q X ⟨[1, 2], fun _ => 1⟩ idx nn 1 1 1 1 1 (.inr rfl)
    (fun _ _ => 1) (by intro T hT; simp at hT; subst hT; exact hlen _) (.inl rfl) (.inl rfl) rfl rfl rfl rfl hvi hv
    (by intro T hT; simp at hT; subst hT; trivial) (by intro T hT; simp at hT; subst hT; exact hinv _)
  obtain ⟨μ₁, v₁, h1', -, -, h2'⟩ := C54_regress bessel (metricModel .F2).R rfl rfl Q X ⟨[1], fun _ => 1⟩ idx nn 1 1 1 1 1
    (fun _ => 1) (hlen _) (.inl rfl) (.inl rfl) rfl rfl rfl rfl hvi hv trivial (hinv _)
  refine ⟨μ, v, μ₁, v₁, ?_, h1', ?_, ?_⟩
  · rw [← h1]
    unfold multiRegressFromIndices multiPredictTensors
    congr 1
    funext t
    have hc : (fun D => (metricModel .F2).R.kernel.call bessel D []) = fun D => (metricModel .l2).R.kernel.call bessel D [] := by
      funext D; rw [metricModel_call, metricModel_call]
    have hc' := fun D => congrFun hc D
    have hmo : multiMeanOne bessel = fun b n p c y T i => multiMeanOne bessel b n p c y T i := rfl
    have hm1 : ∀ b n p c y i, multiMeanOne bessel b n p c y (metricModel .F2) i = multiMeanOne bessel b n p c y (metricModel .l2) i := by
      intro b n p c y i
      unfold multiMeanOne
      simp only [hc']
      rfl
    have hv1 : ∀ b p c i, multiVarOne bessel b p c (metricModel .F2) i = multiVarOne bessel b p c (metricModel .l2) i := by
      intro b p c i
      unfold multiVarOne
      simp only [hc']
      rfl
    have e1 : multiPosteriorMean bessel [metricModel .l2, metricModel .F2] = multiPosteriorMean bessel [metricModel .l2, metricModel .l2] := by
      funext p c y
      unfold multiPosteriorMean assignEach
      simp only [List.zipIdx_cons, List.zipIdx_nil, List.foldlM_cons, List.foldlM_nil, hm1]
    have e2 : multiPosteriorVariance bessel [metricModel .l2, metricModel .F2] = multiPosteriorVariance bessel [metricModel .l2, metricModel .l2] := by
      funext p c
      unfold multiPosteriorVariance assignEach
      simp only [List.zipIdx_cons, List.zipIdx_nil, List.foldlM_cons, List.foldlM_nil, hv1, List.length_cons]
    rw [e1, e2]
  · rw [(h2 1 _ rfl 0 one_pos).1, hmat, hkr]
    simp only [nbrCross, KernelObj.covFn, metricModel, KFn.value, Deform.metric]
    rw [distOf_l2]
    simp [EuclideanSpace.dist_eq, nbrTargets, pt, feature, Tensor.get, Tensor.ravel, Q, X, Real.sqrt_sq, Real.dist_eq]
  · rw [(h2' 0 one_pos).1, hmat, hkr]
    simp only [nbrCross, KernelObj.covFn, metricModel, KFn.value, Deform.metric]
    rw [distOf_F2]
    simp [nbrTargets, pt, feature, Tensor.get, Tensor.ravel, Q, X]
    norm_num

end MuyGPyS
