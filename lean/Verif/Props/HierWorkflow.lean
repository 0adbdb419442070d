import Verif.Spec.HierWorkflow
import Verif.Props.Hierarchical
import Verif.Props.Objective
import Verif.Props.Always

/-! # C82: nonstationary models -/

namespace MuyGPyS
open Py Py.Tensor Matrix

theorem stationary_made (m : Metric) (h : Hier) (sm : Option Param) (gp : MuyGPS) (ℓ : ℝ) :
    ((HierRegressor.mk (HierKernel.create m h sm) gp).stationary ℓ).kernel.make =
      ((HierRegressor.mk (HierKernel.create m h sm) gp).stationary ℓ).kernel := by
  cases sm <;> rfl

theorem stationary_lengths (R : HierRegressor) (ℓ : ℝ) (hℓ : 0 < ℓ) (f : Nat) :
    (R.stationary ℓ).kernel.deform.HasLengths f fun _ => ℓ := ⟨ℓ, hℓ, rfl, fun _ => rfl⟩

/-- A stationary kernel on distances. -/
theorem stationary_call (bessel : Flt → ℝ → ℝ) (m : Metric) (h : Hier) (sm : Option Param) (gp : MuyGPS) (ℓ : ℝ) (D : Tensor ℝ) :
    ((HierRegressor.mk (HierKernel.create m h sm) gp).stationary ℓ).kernel.call bessel D [] =
      .ok (D.map fun x => KFn.value bessel ((sm.map Param.val).getD none) (HierKernel.create m h sm).fn (m.scaleBy x ℓ)) := by
  have h1 : ((HierRegressor.mk (HierKernel.create m h sm) gp).stationary ℓ).kernel.deform.call D
      (((HierRegressor.mk (HierKernel.create m h sm) gp).stationary ℓ).kernel.deform.filter []).1 =
      .ok (D.map fun x => m.scaleBy x ℓ) := by
    simp [HierRegressor.stationary, Deform.call, Deform.filter, filterScalar, Dict.setdefault, Dict.has, Dict.get?, fin_toReal, HierKernel.create]
  have h2 := call_nil bessel _ h1
  rw [stationary_made] at h2
  rw [h2]
  congr 1
  have : ((HierRegressor.mk (HierKernel.create m h sm) gp).stationary ℓ).kernel.smoothInForce [] = (sm.map Param.val).getD none := by
    cases sm <;> rfl
  rw [this]
  rfl

/-- A tensor of rank three or two with blocks, read by blocks. -/
theorem block_get3 {T : Tensor ℝ} {b n : Nat} (h : T.shape = [b, n, n]) (p i j : Nat) :
    T.get [p, i, j] = T.flat (p * [n, n].prod + (i * n + j)) := by
  rw [get3 T h]
  congr 1
  simp only [List.prod_cons, List.prod_nil]
  ring

theorem block_get2 {T : Tensor ℝ} {b n : Nat} (h : T.shape = [b, n]) (p j : Nat) :
    T.get [p, j] = T.flat (p * [n].prod + j) := by
  rw [get2 T h]
  simp

/-- Block `p` of the tensors of a nonstationary kernel is that of the stationary kernel with length scale `ℓ p`. -/
theorem hier_blocks (bessel : Flt → ℝ → ℝ) (m : Metric) (h : Hier) (sm : Option Param) (gp : MuyGPS) (D B len : Tensor ℝ) (b : Nat)
    (s : List Nat) (hD : D.shape = b :: s) (ℓ : Nat → ℝ) (hc : h.call bessel B [] = .ok len) (hl : OnePer len b ℓ) :
    ∃ T, (HierKernel.create m h sm).call bessel D (some B) [] = .ok T ∧ T.shape = b :: s ∧
      ∀ p < b, ∀ T', ((HierRegressor.mk (HierKernel.create m h sm) gp).stationary (ℓ p)).kernel.call bessel D [] = .ok T' →
        ∀ j < s.prod, T.flat (p * s.prod + j) = T'.flat (p * s.prod + j) := by
  obtain ⟨T, t1, t2, t3⟩ := C52_kernel bessel m h sm D B len b s hD ℓ hc hl
  refine ⟨T, t1, t2, fun p hp T' hT' j hj => ?_⟩
  rw [stationary_call] at hT'
  cases hT'
  exact t3 p hp j hj

/-- The features of the queried points. -/
theorem batchFeatures_ok (Q : Tensor ℝ) (idx : Tensor Int) (M f b : Nat) (hQ : IsTable Q M f) (hi : idx.shape = [b])
    (hvi : AllValid M idx) :
    ∃ B, batchFeatures Q idx = .ok B ∧ IsTable B b f ∧ B.shape.length = Q.shape.length ∧
      ∀ p, pt B f p = pt Q f (pointOf M (idx.get [p])) := by
  unfold batchFeatures
  rcases hQ with hd | ⟨hd, rfl⟩
  · obtain ⟨B, h1, h2, h3⟩ := take_mat hd hvi
    rw [hi] at h2
    refine ⟨B, h1, .inl h2, by rw [h2, hd]; rfl, fun p => ?_⟩
    funext c
    have h2' : B.shape = [b, f] := h2
    have := h3 p c c.2
    rw [get1 idx hi]
    unfold pt
    rw [← this]
    unfold feature
    rw [h2']
    simp [Tensor.get, h2', Tensor.ravel]
  · obtain ⟨B, h1, h2, h3⟩ := take_vec hd hvi
    rw [hi] at h2
    have h2' : B.shape = [b] := h2
    refine ⟨B, h1, .inr ⟨h2, rfl⟩, by rw [h2', hd]; rfl, fun p => ?_⟩
    funext c
    have := h3 p
    rw [get1 idx hi]
    unfold pt
    obtain ⟨c, hc⟩ := c
    obtain rfl : c = 0 := by omega
    rw [← this]
    unfold feature
    rw [h2']
    simp [Tensor.get, h2', Tensor.ravel]

/-- The tensors of a nonstationary model, element by element. -/
theorem hierTensors_ok (bessel : Flt → ℝ → ℝ) (m : Metric) (h : Hier) (sm : Option Param) (gp : MuyGPS)
    (Q X Y B len : Tensor ℝ) (idx nn : Tensor Int) (M N f r b n : Nat) (hQ : IsTable Q M f) (hX : IsTable X N f)
    (hY : IsTable Y N r) (hrank : Q.shape.length = X.shape.length) (hi : idx.shape = [b]) (hnn : nn.shape = [b, n])
    (hvi : AllValid M idx) (hv : AllValid N nn) (ℓ : Nat → ℝ) (hc : h.call bessel B [] = .ok len) (hl : OnePer len b ℓ)
    (hpos : ∀ p < b, 0 < ℓ p) :
    ∃ K C Z, hierTensors bessel ⟨HierKernel.create m h sm, gp⟩ (some B) idx nn Q X Y = .ok (K, C, Z) ∧
      K.shape = [b, n, n] ∧ C.shape = [b, n] ∧ Z.shape = [b, n] ++ Y.shape.tail ∧
      (∀ p < b, Spec.cov n K p =
        nbrCov bessel ((HierRegressor.mk (HierKernel.create m h sm) gp).stationary (ℓ p)).kernel (fun _ : Fin f => ℓ p) X N n nn p) ∧
      (∀ p < b, Spec.vec n C p =
        nbrCross bessel ((HierRegressor.mk (HierKernel.create m h sm) gp).stationary (ℓ p)).kernel (fun _ : Fin f => ℓ p) X N n nn p
          (pt Q f (pointOf M (idx.get [p])))) ∧
      ∀ p < b, ∀ j < n, ∀ c < r, Z.flat ((p * n + j) * r + c) = feature Y (pointOf N (nn.get [p, j])) c := by
  set R : HierRegressor := ⟨HierKernel.create m h sm, gp⟩ with hR
  obtain ⟨D, T₁, d1, d2, d3, -⟩ := pairwise_entries (R.stationary 1).kernel.deform X nn N f b n (fun _ => 1)
    (stationary_lengths R 1 one_pos f) hX hnn hv
  obtain ⟨E, T₂, e1, e2, e3, -⟩ := crosswise_entries (R.stationary 1).kernel.deform Q X idx nn M N f b n (fun _ => 1)
    (stationary_lengths R 1 one_pos f) hQ hX hrank hi hnn hvi hv
  have dshape : D.shape = [b, n, n] := by
    have h2 := call_nil bessel _ d2
    rw [stationary_made, stationary_call] at h2
    have := congrArg Tensor.shape (Except.ok.inj h2)
    exact this.trans d3
  have eshape : E.shape = [b, n] := by
    have h2 := call_nil bessel _ e2
    rw [stationary_made, stationary_call] at h2
    have := congrArg Tensor.shape (Except.ok.inj h2)
    exact this.trans e3
  obtain ⟨K, k1, k2, k3⟩ := hier_blocks bessel m h sm gp D B len b [n, n] dshape ℓ hc hl
  obtain ⟨C, c1, c2, c3⟩ := hier_blocks bessel m h sm gp E B len b [n] eshape ℓ hc hl
  obtain ⟨Z, z1, z2, z3⟩ := take_targets hY hv
  refine ⟨K, C, Z, ?_, k2, c2, by rw [z2, hnn], fun p hp => ?_, fun p hp => ?_, fun p hp j hj c hc' => ?_⟩
  · unfold hierTensors makePredictTensors
    have d1' : defPairwise .isotropy m X nn = .ok D := d1
    have e1' : defCrosswise .isotropy m Q X idx nn = .ok E := e1
    have hm : R.kernel.metric = m := rfl
    have hk : R.kernel = HierKernel.create m h sm := rfl
    simp only [Option.getD_some, hm, d1', e1', z1, bind, Except.bind, pure, Except.pure]
    simp only [hk, k1, c1]
  · obtain ⟨D', K', a1, a2, a3, a4⟩ := kernel_pairwise bessel (R.stationary (ℓ p)).kernel (stationary_made m h sm gp _) X nn N f b n
      (fun _ => ℓ p) (stationary_lengths R _ (hpos p hp) f) hX hnn hv
    have : D' = D := by
      have : (R.stationary (ℓ p)).kernel.deform.pairwise X nn = .ok D := d1
      rw [this] at a1
      exact (Except.ok.inj a1).symm
    subst this
    rw [← a4 p hp]
    ext i j
    simp only [Spec.cov]
    rw [block_get3 k2, block_get3 a3]
    exact k3 p hp K' a2 _ (by
      simp only [List.prod_cons, List.prod_nil, Nat.mul_one]
      have := i.2
      have := j.2
      calc (i : Nat) * n + j < i * n + n := by omega
        _ = (i + 1) * n := by ring
        _ ≤ n * n := Nat.mul_le_mul_right _ (by omega))
  · obtain ⟨E', C', a1, a2, a3, a4⟩ := kernel_crosswise bessel (R.stationary (ℓ p)).kernel (stationary_made m h sm gp _) Q X idx nn M N
      f b n (fun _ => ℓ p) (stationary_lengths R _ (hpos p hp) f) hQ hX hrank hi hnn hvi hv
    have : E' = E := by
      have : (R.stationary (ℓ p)).kernel.deform.crosswise Q X idx nn = .ok E := e1
      rw [this] at a1
      exact (Except.ok.inj a1).symm
    subst this
    rw [← a4 p hp]
    ext j
    simp only [Spec.vec]
    rw [block_get2 c2, block_get2 a3]
    exact c3 p hp C' a2 _ (by simp)
  · rw [z3 _ c hc', Tensor.get2 nn hnn]

/-- One response, for regular covariances. -/
theorem hier_local (bessel : Flt → ℝ → ℝ) (m : Metric) (sm : Option Param) (gp : MuyGPS) (hko : gp.kout = KernelObj.kout)
    (k : KernelObj) (hk : k.make = k) (knots : Tensor ℝ) (ps : List Param) (ε : ℝ) (c f : Nat) (len : Fin f → ℝ)
    (hlen : k.deform.HasLengths f len) (hX : IsTable knots c f) (hc : ps.length = c)
    (hdet : (knotCov bessel k len knots c + ε • (1 : Matrix (Fin c) (Fin c) ℝ)).det ≠ 0)
    (Q X Y : Tensor ℝ) (idx nn : Tensor Int) (M N b n : Nat) (hQ : IsTable Q M f) (hT : IsTable X N f)
    (hY : Y.shape = [N]) (hrank : Q.shape.length = X.shape.length) (hrank' : Q.shape.length = knots.shape.length)
    (hi : idx.shape = [b]) (hnn : nn.shape = [b, n]) (hvi : AllValid M idx) (hv : AllValid N nn) (hν : gp.noise.Fits b n)
    (ℓ : Nat → ℝ) (hℓ : ∀ p, ℓ p = knotLength bessel k len knots c ε (knotValues ps c) (pt Q f (pointOf M (idx.get [p]))))
    (hpos : ∀ p < b, 0 < ℓ p) :
    ∃ h, Hier.create bessel knots ps k (Flt.fin ε) = .ok h ∧
      ((∀ p < b, ∀ q < b, (nbrCov bessel ((HierRegressor.mk (HierKernel.create m h sm) gp).stationary (ℓ p)).kernel
          (fun _ : Fin f => ℓ p) X N n nn q + gp.noise.mat n q).det ≠ 0) →
        ∃ μ v, hierRegress bessel ⟨HierKernel.create m h sm, gp⟩ idx nn Q X Y = .ok (μ, v) ∧ μ.shape = [b] ∧ v.shape = [b] ∧
          ∀ p < b, ∃ μ' v',
            regressFromIndices bessel ((HierRegressor.mk (HierKernel.create m h sm) gp).stationary (ℓ p)) idx nn Q X Y = .ok (μ', v') ∧
            μ.get [p] = μ'.get [p] ∧ v.get [p] = v'.get [p]) := by
  obtain ⟨B, b1, b2, b3, b4⟩ := batchFeatures_ok Q idx M f b hQ hi hvi
  obtain ⟨h, L, h1, h2, h3⟩ := C52_value bessel k hk knots B ps ε c b f len hlen hX b2 (b3.trans hrank') hc hdet
  have h3' : OnePer L b ℓ := by
    refine ⟨h3.1, fun p hp => ?_⟩
    rw [h3.2 p hp, hℓ p, ← b4]
    rfl
  refine ⟨h, h1, fun hreg => ?_⟩
  obtain ⟨K, C, Z, t1, t2, t3, t4, t5, t6, t7⟩ := hierTensors_ok bessel m h sm gp Q X Y B L idx nn M N f 1 b n hQ hT
    (.inr ⟨hY, rfl⟩) hrank hi hnn hvi hv ℓ h2 h3' hpos
  have t4' : Z.shape = [b, n] := by rw [t4, hY]; rfl
  have hd : ∀ p < b, (Spec.cov n K p + gp.noise.mat n p).det ≠ 0 := fun p hp => by
    rw [t5 p hp]; exact hreg p hp p hp
  have hs : ∀ p < b, (Spec.cov n K p).transpose = Spec.cov n K p := fun p hp => by
    rw [t5 p hp, nbrCov_symm]
  obtain ⟨μ, m1, m2, m3⟩ := C24_model_mean gp b n hν K C Z t2 t3 t4' hd hs
  obtain ⟨v, v1, v2, v3⟩ := C24_model_variance gp b n hν K C (by rw [hko]; rfl) t2 t3 hd hs
  refine ⟨μ, v, ?_, m2, v2, fun p hp => ?_⟩
  · unfold hierRegress
    simp only [b1, t1, bind, Except.bind, m1, v1, pure, Except.pure]
  · obtain ⟨μ', v', g1, -, -, g4⟩ := C54_regress bessel ((HierRegressor.mk (HierKernel.create m h sm) gp).stationary (ℓ p))
      (stationary_made m h sm gp _) hko Q X Y idx nn M N f b n (fun _ => ℓ p) (stationary_lengths _ _ (hpos p hp) f) hQ hT hY hrank hi
      hnn hvi hv hν (hreg p hp)
    refine ⟨μ', v', g1, ?_, ?_⟩
    · rw [m3 p hp, t5 p hp, t6 p hp, (g4 p hp).1]
      congr 1
      funext j
      have := t7 p hp j j.2 0 (by omega)
      rw [Nat.mul_one, Nat.add_zero] at this
      rw [Spec.vec, Tensor.get2 Z t4', this]
      rfl
    · rw [v3 p hp, t5 p hp, t6 p hp, (g4 p hp).2, hko]
      rfl

/-- **C82**, one response: a nonstationary model whose length scale is positive at the queried points predicts at every queried
point exactly what the stationary model with that point's length scale predicts there, mean and variance; the variance lies
between 0 and the variance scale. Partial: the length scale can be negative between positive knots, see `C82_positive_fails`. -/
theorem C82_local_partial (bessel : Flt → ℝ → ℝ) (m : Metric) (sm : Option Param) (gp : MuyGPS) (hko : gp.kout = KernelObj.kout)
    (hsuit : ∀ h, (HierKernel.create m h sm).fn.Suits m)
    (k : KernelObj) (hk : k.make = k) (hg : k.fn.Suits k.deform.metric) (knots : Tensor ℝ) (ps : List Param) (ε : ℝ) (c f : Nat)
    (len : Fin f → ℝ) (hlen : k.deform.HasLengths f len) (hX : IsTable knots c f) (hc : ps.length = c)
    (hε : 0 < ε ∨ (ε = 0 ∧ ∀ i j : Fin c, i ≠ j → pt knots f i ≠ pt knots f j))
    (Q X Y : Tensor ℝ) (idx nn : Tensor Int) (M N b n : Nat) (hQ : IsTable Q M f) (hT : IsTable X N f)
    (hY : Y.shape = [N]) (hrank : Q.shape.length = X.shape.length) (hrank' : Q.shape.length = knots.shape.length)
    (hi : idx.shape = [b]) (hnn : nn.shape = [b, n]) (hvi : AllValid M idx) (hv : AllValid N nn) (hν : gp.noise.Fits b n)
    (hreg : gp.noise.Suffices b n (∀ p < b, DistinctNeighbours X N f n nn p)) (hn : 0 < n)
    (ℓ : Nat → ℝ) (hℓ : ∀ p, ℓ p = knotLength bessel k len knots c ε (knotValues ps c) (pt Q f (pointOf M (idx.get [p]))))
    (hpos : ∀ p < b, 0 < ℓ p) :
    ∃ h μ v, Hier.create bessel knots ps k (Flt.fin ε) = .ok h ∧
      hierRegress bessel ⟨HierKernel.create m h sm, gp⟩ idx nn Q X Y = .ok (μ, v) ∧ μ.shape = [b] ∧ v.shape = [b] ∧
      ∀ p < b, (∃ μ' v',
          regressFromIndices bessel ((HierRegressor.mk (HierKernel.create m h sm) gp).stationary (ℓ p)) idx nn Q X Y = .ok (μ', v') ∧
          μ.get [p] = μ'.get [p] ∧ v.get [p] = v'.get [p]) ∧
        (0 < gp.boundScale → 0 ≤ v.get [p] ∧ v.get [p] < gp.boundScale) := by
  have hdet : (knotCov bessel k len knots c + ε • (1 : Matrix (Fin c) (Fin c) ℝ)).det ≠ 0 := by
    have hd := knotCov_definite bessel k hg knots c f len (hasLengths_pos hlen)
    rcases hε with hε | ⟨rfl, hne⟩
    · exact Kriging.det_ne_zero (Kriging.posdef_of_psd_add hd.1 hε)
    · rw [zero_smul, add_zero]
      exact Kriging.det_ne_zero (hd.2 hne)
  obtain ⟨h, h1, h2⟩ := hier_local bessel m sm gp hko k hk knots ps ε c f len hlen hX hc hdet Q X Y idx nn M N b n hQ hT hY hrank hrank'
    hi hnn hvi hv hν ℓ hℓ hpos
  have hs : ∀ p, ((HierRegressor.mk (HierKernel.create m h sm) gp).stationary (ℓ p)).kernel.fn.Suits
      ((HierRegressor.mk (HierKernel.create m h sm) gp).stationary (ℓ p)).kernel.deform.metric := fun p => hsuit h
  have hd : ∀ p < b, ∀ q < b, (nbrCov bessel ((HierRegressor.mk (HierKernel.create m h sm) gp).stationary (ℓ p)).kernel
          (fun _ : Fin f => ℓ p) X N n nn q + gp.noise.mat n q).det ≠ 0 := fun p hp q hq => by
    have hdef := nbrCov_definite bessel _ (hs p) (fun _ : Fin f => ℓ p) (fun _ => hpos p hp) X N n nn q
    exact Kriging.det_ne_zero (Noise.posdef_of_suffices hreg hq hdef.1 fun hD => hdef.2 (hD q hq))
  obtain ⟨μ, v, e1, e2, e3, e4⟩ := h2 hd
  refine ⟨h, μ, v, h1, e1, e2, e3, fun p hp => ⟨e4 p hp, fun hb => ?_⟩⟩
  obtain ⟨μ', v', g1, -, g3⟩ := e4 p hp
  obtain ⟨μ₁, v₁, f1, -, -, f4⟩ := C54_regress bessel ((HierRegressor.mk (HierKernel.create m h sm) gp).stationary (ℓ p))
    (stationary_made m h sm gp _) hko Q X Y idx nn M N f b n (fun _ => ℓ p) (stationary_lengths _ _ (hpos p hp) f) hQ hT hY hrank hi
    hnn hvi hv hν (hd p hp)
  rw [f1] at g1
  obtain ⟨rfl, rfl⟩ := Prod.mk.inj (Except.ok.inj g1)
  obtain ⟨b1, -, b3, -⟩ := nbr_variance bessel _ (hs p) (fun _ : Fin f => ℓ p) (fun _ => hpos p hp) X N n nn p b hp
    (pt Q f (pointOf M (idx.get [p]))) gp.noise (hreg.mono fun hD => hD p hp)
  rw [g3, (f4 p hp).2]
  have hb' : 0 < ((HierRegressor.mk (HierKernel.create m h sm) gp).stationary (ℓ p)).gp.boundScale := hb
  exact ⟨mul_nonneg hb'.le b1, by have := mul_lt_mul_of_pos_left (b3 hn) hb'; rwa [mul_one] at this⟩

/-- **C82**: the workflows of the library do not supply the features, so they raise `KeyError` for every nonstationary model and
all data for which the difference tensors can be made. -/
theorem C82_workflow_fails (bessel : Flt → ℝ → ℝ) (m : Metric) (h : Hier) (sm : Option Param) (gp : MuyGPS)
    (Q X Y : Tensor ℝ) (idx nn : Tensor Int) (M N f r b n : Nat) (hQ : IsTable Q M f) (hX : IsTable X N f)
    (hY : IsTable Y N r) (hrank : Q.shape.length = X.shape.length) (hi : idx.shape = [b]) (hnn : nn.shape = [b, n])
    (hvi : AllValid M idx) (hv : AllValid N nn) :
    hierRegressFromIndices bessel ⟨HierKernel.create m h sm, gp⟩ idx nn Q X Y = .error .key := by
  set R : HierRegressor := ⟨HierKernel.create m h sm, gp⟩ with hR
  obtain ⟨D, T₁, d1, -⟩ := pairwise_entries (R.stationary 1).kernel.deform X nn N f b n (fun _ => 1)
    (stationary_lengths R 1 one_pos f) hX hnn hv
  obtain ⟨E, T₂, e1, -⟩ := crosswise_entries (R.stationary 1).kernel.deform Q X idx nn M N f b n (fun _ => 1)
    (stationary_lengths R 1 one_pos f) hQ hX hrank hi hnn hvi hv
  obtain ⟨Z, z1, -⟩ := take_targets hY hv
  have d1' : defPairwise .isotropy m X nn = .ok D := d1
  have e1' : defCrosswise .isotropy m Q X idx nn = .ok E := e1
  have hm : R.kernel.metric = m := rfl
  have hk : R.kernel = HierKernel.create m h sm := rfl
  unfold hierRegressFromIndices hierTensors makePredictTensors
  simp only [Option.getD_some, hm, d1', e1', z1, bind, Except.bind, pure, Except.pure]
  rw [hk, C52_features_needed bessel m h sm D [] (fun a ha => by simp at ha)]

/-- A kernel holding trial values. -/
theorem hier_override (bessel : Flt → ℝ → ℝ) (m : Metric) (h : Hier) (sm : Option Param) (kw : Dict Flt)
    (hk : (HierKernel.create m h sm).Accepts kw) (D B : Tensor ℝ) :
    (HierKernel.create m h sm).call bessel D (some B) kw =
      ((HierKernel.create m h sm).overridden kw).call bessel D (some B) [] := by
  obtain ⟨hu, hf, hn, c, hc, hp⟩ := hk
  have h1 : Dict.has kw "diffs" = false := Dict.has_false fun a ha => (hu a ha).2.1
  have h2 : Dict.has kw "dists" = false := Dict.has_false fun a ha => (hu a ha).2.2.1
  have h3 : Dict.has kw "self" = false := Dict.has_false fun a ha => (hu a ha).1
  have hv : aniValues h.params kw = aniValues (overrideFrom kw 0 h.params) [] := by
    have hv := aniValues_prefix h.params kw hn c hc hp
    rw [hv, aniValues_nil]
    apply List.ext_getElem?
    intro i
    rw [List.getElem?_map, List.getElem?_map, overrideFrom_getElem]
    by_cases hi : i < h.params.length
    · rw [List.getElem?_range hi, List.getElem?_eq_getElem hi]
      simp [Param.overridden, inForce, List.getElem?_eq_getElem hi]
    · rw [List.getElem?_eq_none (by simpa using hi), List.getElem?_eq_none (by simpa using hi)]
      rfl
  have hlen : h.call bessel B (filterVector h.params kw).1 =
      Hier.call bessel { h with params := overrideFrom kw 0 h.params } B (filterVector (overrideFrom kw 0 h.params) []).1 := by
    have e : ∀ ps (kw : Dict Flt), Dict.values (filterVector ps kw).1 = aniValues ps kw := fun ps kw => by
      rw [← filterVector_twice, filterVector_values]
    unfold Hier.call
    simp only [filterVector_twice, e, hv]
    have : Hier.perturbed { h with params := overrideFrom kw 0 h.params } = h.perturbed := by
      unfold Hier.perturbed
      simp only [overrideFrom_length]
    rw [this]
    simp only [overrideFrom_length]
  have hs : Dict.get? (filterVector h.params kw).2 "smoothness" = Dict.get? kw "smoothness" := by
    show Dict.get? (kw.filter fun a => !startsLS a.1) "smoothness" = _
    exact Dict.get?_filter _ _ _ (by rintro a _ e; rw [e]; decide)
  have hq : Dict.has (filterVector h.params kw).2 "squared_dists" = false :=
    has_filter_false fun a ha => (hu a ha).2.2.2
  set k₀ : KernelObj := (KernelObj.mk (.isotropy m ⟨none, none, none, true⟩) sm .rbf).make with hk₀
  set k₁ : KernelObj := (KernelObj.mk (.isotropy m ⟨none, none, none, true⟩) (sm.map fun p => p.overridden kw "smoothness") .rbf).make
    with hk₁
  have r₀ : ∀ T, _ := fun T => run_rest bessel k₀ (make_wellBound _) T kw (filterVector h.params kw).2 hq hs
  have r₁ : ∀ T, _ := fun T => run_rest bessel k₁ (make_wellBound _) T [] [] rfl rfl
  have es : k₀.smoothInForce kw = k₁.smoothInForce [] := by
    unfold KernelObj.smoothInForce
    cases sm with
    | none => rfl
    | some p => simp [hk₀, hk₁, KernelObj.make, Param.overridden, inForce, Dict.get?]
  have ef : k₀.fn = k₁.fn := by
    cases sm with
    | none => rfl
    | some p =>
      simp only [hk₀, hk₁, KernelObj.make, Option.map_some]
      rcases hf p rfl with h' | h'
      · simp [setMaternFn, Param.overridden, h']
      · simp only [Param.overridden, inForce, h', Option.getD_none]
  have hr : ∀ T, (match sm with
      | none => (HierKernel.create m h sm).fn.run bessel T (filterVector h.params kw).2
      | some p => (HierKernel.create m h sm).fn.run bessel T (Dict.setdefault (filterVector h.params kw).2 "smoothness" p.val)) =
      .ok (T.map (KFn.value bessel (k₁.smoothInForce []) k₁.fn)) := by
    intro T
    rw [← es, ← ef]
    have := r₀ T
    cases sm <;> exact this
  have hr' : ∀ T, (match sm.map (fun p => p.overridden kw "smoothness") with
      | none => ((HierKernel.create m h sm).overridden kw).fn.run bessel T []
      | some p => ((HierKernel.create m h sm).overridden kw).fn.run bessel T (Dict.setdefault [] "smoothness" p.val)) =
      .ok (T.map (KFn.value bessel (k₁.smoothInForce []) k₁.fn)) := by
    intro T
    have := r₁ T
    cases sm <;> exact this
  unfold HierKernel.call
  have e1 : (HierKernel.create m h sm).length = h := rfl
  have e2 : (HierKernel.create m h sm).metric = m := rfl
  have e3 : (HierKernel.create m h sm).smoothness = sm := rfl
  have e4 : ((HierKernel.create m h sm).overridden kw).length = { h with params := overrideFrom kw 0 h.params } := rfl
  have e5 : ((HierKernel.create m h sm).overridden kw).metric = m := rfl
  have e6 : ((HierKernel.create m h sm).overridden kw).smoothness = sm.map fun p => p.overridden kw "smoothness" := rfl
  have e7 : (filterVector (overrideFrom kw 0 h.params) ([] : Dict Flt)).2 = [] := rfl
  have e8 : ∀ s, Dict.has ([] : Dict Flt) s = false := fun _ => rfl
  simp only [h1, h2, h3, e8, Bool.or_self, Bool.false_eq_true, if_false, e1, e2, e3, e4, e5, e6, e7, hlen, bind, Except.bind]
  cases Hier.call bessel { h with params := overrideFrom kw 0 h.params } B (filterVector (overrideFrom kw 0 h.params) []).1 with
  | error e => rfl
  | ok L =>
    simp only
    cases isoApply m D L with
    | error e => rfl
    | ok T =>
      simp only
      exact (hr T).trans (hr' T).symm

/-- **C82**, training: for trial values of the first knots in order (in particular of all knots), the smoothness and the noise,
the objective of a mean-only loss is minus the loss of the predictions of the model holding the trial values, made with the
same batch features (errors included). -/
theorem C82_objective_partial (bessel : Flt → ℝ → ℝ) (m : Metric) (h : Hier) (sm : Option Param) (gp : MuyGPS) (sk : ScaleKind)
    (l : LossKind) (hl : l.raw = true) (mask : Option (List Nat)) (draws : List (List Nat)) (P C Y t B : Tensor ℝ) (kw : Dict Flt)
    (hk : (HierKernel.create m h sm).Accepts kw) :
    hierObjFn bessel (HierKernel.create m h sm) gp sk l mask draws P C Y t (some B) kw =
      hierPromised bessel ⟨(HierKernel.create m h sm).overridden kw, { gp with noise := gp.noise.trial kw }⟩ l mask P C Y t B := by
  unfold hierObjFn hierPromised predictAndLoss HierKernel.optFn
  simp only [← runRaw_eq, ← maskColumns_eq, hier_override bessel m h sm kw hk]
  congr 1; funext Kin
  congr 1; funext Kc
  rw [if_pos hl]
  unfold MuyGPS.optMean MuyGPS.posteriorMean
  rw [perturbFn_trial]

/-- **C82**: `optimize` without `batch_features` (its default) raises `AttributeError` as soon as the objective of a
nonstationary model is evaluated, whatever the data and the trial values of the first knots. -/
theorem C82_optimize_fails (bessel : Flt → ℝ → ℝ) (m : Metric) (sm : Option Param) (gp : MuyGPS) (sk : ScaleKind)
    (k : KernelObj) (hk : k.make = k) (knots : Tensor ℝ) (ps : List Param) (ε : ℝ) (c f : Nat)
    (len : Fin f → ℝ) (hlen : k.deform.HasLengths f len) (hX : IsTable knots c f) (hc : ps.length = c)
    (hdet : (knotCov bessel k len knots c + ε • (1 : Matrix (Fin c) (Fin c) ℝ)).det ≠ 0)
    (l : LossKind) (mask : Option (List Nat)) (draws : List (List Nat)) (P C Y t : Tensor ℝ) (kw : Dict Flt) :
    ∃ h, Hier.create bessel knots ps k (Flt.fin ε) = .ok h ∧
      ((HierKernel.create m h sm).Accepts kw →
        hierObjFn bessel (HierKernel.create m h sm) gp sk l mask draws P C Y t none kw = .error .attribute) := by
  obtain ⟨K, h1, h2, h3⟩ := create_ok bessel k hk knots ps (Flt.fin ε) c f len hlen hX hc
  refine ⟨_, h1, fun ha => ?_⟩
  obtain ⟨hu, -, hn, c', hc', hp⟩ := ha
  obtain ⟨A, a1, a2, a3⟩ := perturbed_ok ⟨knots, ps, k, K, Flt.fin ε⟩ c hc h2
  simp only [h3, fin_toReal] at a3
  have hv := aniValues_prefix ps kw hn c' hc' hp
  obtain ⟨F, s1, -⟩ := solve_ok [] c 1 A
    ⟨[((aniValues ps kw).map Flt.toReal).length, 1], fun j => ((aniValues ps kw).map Flt.toReal).getD j 0⟩ a2
    (by rw [hv]; simp [hc]) (fun p hp => by
      obtain rfl : p = 0 := by simpa using hp
      rw [a3]; exact hdet)
  have e1 : Dict.has kw "diffs" = false := Dict.has_false fun a ha => (hu a ha).2.1
  have e2 : Dict.has kw "dists" = false := Dict.has_false fun a ha => (hu a ha).2.2.1
  have e3 : Dict.has kw "self" = false := Dict.has_false fun a ha => (hu a ha).1
  have e4 : (HierKernel.create m ⟨knots, ps, k, K, Flt.fin ε⟩ sm).length = ⟨knots, ps, k, K, Flt.fin ε⟩ := rfl
  unfold hierObjFn HierKernel.optFn
  simp only [e1, e2, e3, e4, Bool.or_self, Bool.false_eq_true, if_false, filterVector_values, a1, bind, Except.bind, hc, s1]

end MuyGPyS
