import Verif.Props.PipelineWitness
import Verif.Props.DeepKernel

/-!
# Classification and deep kernel prediction with real kernels never fail (C44, C59, C61)

As in `Props/Definite.lean`, non-singularity of the neighbourhood covariances is a consequence of the kernel, the noise and the
training data here, not a hypothesis.
-/

namespace MuyGPyS
open Py Matrix

/-- Neighbourhoods of listed (different) training points have non-singular covariances. -/
theorem nbr_regular (bessel : Flt → ℝ → ℝ) (R : Regressor) (hsuit : R.kernel.fn.Suits R.kernel.deform.metric) {f : Nat}
    (len : Fin f → ℝ) (hlen : R.kernel.deform.HasLengths f len) (X : Tensor ℝ) (N n m : Nat) (nn : Tensor Int)
    (hnn : ∀ i < m, ∃ l : List Nat, rowList nn n i = l.map Int.ofNat ∧ l.Nodup ∧ ∀ x ∈ l, x < N)
    (hreg : R.gp.noise.Suffices m n (DistinctRows X N f)) :
    ∀ p < m, (nbrCov bessel R.kernel len X N n nn p + R.gp.noise.mat n p).det ≠ 0 := by
  intro p hp
  have hdef := nbrCov_definite bessel R.kernel hsuit len (hasLengths_pos hlen) X N n nn p
  obtain ⟨l, e1, e2, e3⟩ := hnn p hp
  exact Kriging.det_ne_zero (Noise.posdef_of_suffices (hreg.mono fun hd => distinct_of_nodup e1 e2 e3 hd) hp hdef.1 hdef.2)

/-- **C54** from given indices: whatever (valid) neighbours are listed, repeated or not, regression with positive noise succeeds
and is kriging from precisely those neighbours, with a variance between 0 and the variance scale. -/
theorem C54_indices_always (bessel : Flt → ℝ → ℝ) (R : Regressor) (hk : R.kernel.make = R.kernel)
    (hko : R.gp.kout = KernelObj.kout) (hsuit : R.kernel.fn.Suits R.kernel.deform.metric)
    (Q X Y : Tensor ℝ) (idx nn : Tensor Int) (M N f b n : Nat) (hn0 : 0 < n) (len : Fin f → ℝ)
    (hlen : R.kernel.deform.HasLengths f len) (hQ : IsTable Q M f) (hX : IsTable X N f) (hY : Y.shape = [N])
    (hrank : Q.shape.length = X.shape.length) (hi : idx.shape = [b]) (hnn : nn.shape = [b, n]) (hvi : AllValid M idx)
    (hv : AllValid N nn) (hν : R.gp.noise.Fits b n) (hreg : R.gp.noise.Suffices b n False) :
    ∃ μ v, regressFromIndices bessel R idx nn Q X Y = .ok (μ, v) ∧ μ.shape = [b] ∧ v.shape = [b] ∧
      ∀ p < b,
        μ.get [p] = Spec.krigingMean (nbrCov bessel R.kernel len X N n nn p + R.gp.noise.mat n p)
          (nbrCross bessel R.kernel len X N n nn p (pt Q f (pointOf M (idx.get [p])))) (nbrTargets Y N n nn p 0) ∧
        v.get [p] = R.gp.boundScale * Spec.krigingVar 1 (nbrCov bessel R.kernel len X N n nn p + R.gp.noise.mat n p)
          (nbrCross bessel R.kernel len X N n nn p (pt Q f (pointOf M (idx.get [p])))) ∧
        (0 < R.gp.boundScale → 0 ≤ v.get [p] ∧ v.get [p] < R.gp.boundScale) := by
  have hpos := hasLengths_pos hlen
  have hdet : ∀ p < b, (nbrCov bessel R.kernel len X N n nn p + R.gp.noise.mat n p).det ≠ 0 := fun p hp => by
    have hdef := nbrCov_definite bessel R.kernel hsuit len hpos X N n nn p
    exact Kriging.det_ne_zero (Noise.posdef_of_suffices hreg hp hdef.1 False.elim)
  obtain ⟨μ, v, h1, h2, h3, h4⟩ := C54_regress bessel R hk hko Q X Y idx nn M N f b n len hlen hQ hX hY hrank hi hnn hvi hv hν hdet
  refine ⟨μ, v, h1, h2, h3, fun p hp => ⟨(h4 p hp).1, (h4 p hp).2, fun hs => ?_⟩⟩
  obtain ⟨b1, -, b3, -⟩ := nbr_variance bessel R.kernel hsuit len hpos X N n nn p b hp (pt Q f (pointOf M (idx.get [p]))) R.gp.noise
    (hreg.mono False.elim)
  rw [(h4 p hp).2]
  exact ⟨mul_nonneg hs.le b1, by have := mul_lt_mul_of_pos_left (b3 hn0) hs; rwa [mul_one] at this⟩

/-- **C44** with a suitable kernel and noise: classification never fails. Test points whose neighbours agree in the first column
of the encoding get the label of their nearest neighbour, all others in every column the kriging mean from their nearest training
points. (The number of classes must differ from the number of neighbours, see C24.) -/
theorem C44_always_partial (bessel : Flt → ℝ → ℝ) (R : Regressor) (hk : R.kernel.make = R.kernel)
    (hsuit : R.kernel.fn.Suits R.kernel.deform.metric) (w : NNWrapper)
    (hw : w.Exact) (test labels : Tensor ℝ) (m r : Nat) (len : Fin w.f → ℝ)
    (hlen : R.kernel.deform.HasLengths w.f len) (ht : test.shape = [m, w.f]) (hl : labels.shape = [w.N, r])
    (hr : 0 < r) (hrn : r ≠ w.nnCount) (hm : 0 < m) (hn : 0 < w.nnCount) (hkN : w.nnCount ≤ w.N)
    (hν : ∀ b, R.gp.noise.Fits b w.nnCount) (hreg : R.gp.noise.Suffices m w.nnCount (DistinctRows w.train w.N w.f)) :
    ∃ I P, (∀ i < m, ∃ l : List Nat, rowList I w.nnCount i = l.map Int.ofNat ∧
        Nearest (· < w.N) (fun j => w.dist (rowPt test w.f i) (rowPt w.train w.f j)) w.nnCount l) ∧
      classifyAny (fun idx nn => posteriorMeanFromIndices bessel R idx nn test w.train labels) w test labels = .ok P ∧
      P.shape = [m, r] ∧ ∀ p < m,
        (¬ FirstMixed labels I w.nnCount p → ∀ c < r, P.get [p, c] = nbrLabel labels I p 0 c) ∧
        (FirstMixed labels I w.nnCount p → ∀ c < r, P.get [p, c] =
          Spec.krigingMean (nbrCov bessel R.kernel len w.train w.N w.nnCount I p + R.gp.noise.mat w.nnCount p)
            (nbrCross bessel R.kernel len w.train w.N w.nnCount I p (rowPt test w.f p))
            (nbrTargets labels w.N w.nnCount I p c)) := by
  obtain ⟨I, D, -, -, h3, h4⟩ := C44_actual bessel R hk w hw test labels m r len hlen ht hl hr hrn hm hn hkN hν
  obtain ⟨P, p1, p2, p3⟩ := h4 (nbr_regular bessel R hsuit len hlen w.train w.N w.nnCount m I
    (fun i hi => by obtain ⟨l, e1, e2⟩ := h3 i hi; exact ⟨l, e1, e2.nodup, e2.mem⟩) hreg)
  exact ⟨I, P, h3, p1, p2, p3⟩

/-- **C61**, `do_classify` with a suitable kernel and noise: whenever training returns a model, classification with it succeeds. -/
theorem C61_do_classify_always (bs : Flt → ℝ → ℝ) (opt : Learner → TrainData → Res Learner) (cd : List (List Nat)) (bc : Int)
    (w : NNWrapper) (hw : w.Exact) (L L' : Learner) (test labels : Tensor ℝ)
    (h : makeClassifier opt cd bc w L labels = .ok L') (hmade : L'.Made) (hsuit : L'.fn.Suits L'.deform.metric)
    (m r : Nat) (len : Fin w.f → ℝ) (hlen : L'.deform.HasLengths w.f len) (ht : test.shape = [m, w.f])
    (hl : labels.shape = [w.N, r]) (hr : 0 < r) (hrn : r ≠ w.nnCount) (hm : 0 < m) (hk0 : 0 < w.nnCount) (hkN : w.nnCount ≤ w.N)
    (hν : ∀ b, L'.trainee.R.gp.noise.Fits b w.nnCount)
    (hreg : L'.trainee.R.gp.noise.Suffices m w.nnCount (DistinctRows w.train w.N w.f)) :
    ∃ I P, (∀ i < m, ∃ l : List Nat, rowList I w.nnCount i = l.map Int.ofNat ∧
        Nearest (· < w.N) (fun j => w.dist (rowPt test w.f i) (rowPt w.train w.f j)) w.nnCount l) ∧
      doClassify bs opt cd bc w L test labels = .ok (L', P) ∧ P.shape = [m, r] ∧ ∀ p < m,
        (¬ FirstMixed labels I w.nnCount p → ∀ c < r, P.get [p, c] = nbrLabel labels I p 0 c) ∧
        (FirstMixed labels I w.nnCount p → ∀ c < r, P.get [p, c] = Spec.krigingMean
          (nbrCov bs L'.trainee.R.kernel len w.train w.N w.nnCount I p + L'.trainee.R.gp.noise.mat w.nnCount p)
          (nbrCross bs L'.trainee.R.kernel len w.train w.N w.nnCount I p (rowPt test w.f p))
          (nbrTargets labels w.N w.nnCount I p c)) := by
  obtain ⟨nn, h1, h2⟩ := C61_do_classify bs opt cd bc w hw L L' test labels h hmade m r len hlen ht hl hr hrn hm hk0 hkN hν
  obtain ⟨P, p1, p2, p3⟩ := h2 (nbr_regular bs L'.trainee.R hsuit len hlen w.train w.N w.nnCount m nn
    (fun i hi => by obtain ⟨l, e1, e2⟩ := h1 i hi; exact ⟨l, e1, e2.nodup, e2.mem⟩) hreg)
  exact ⟨nn, P, h1, p1, p2, p3⟩

/-- Non-vacuity of `C54_indices_always`: a neighbourhood that lists the same training point twice. -/
example (bs : Flt → ℝ → ℝ) : ∃ μ v, regressFromIndices bs lineModel ⟨[1], fun _ => 0⟩ ⟨[1, 2], fun _ => 1⟩ lineTest lineTrain lineTargets
    = .ok (μ, v) ∧ 0 ≤ v.get [0] ∧ v.get [0] < 1 := by
  obtain ⟨μ, v, h1, -, -, h4⟩ := C54_indices_always bs lineModel rfl rfl rfl lineTest lineTrain lineTargets ⟨[1], fun _ => 0⟩
    ⟨[1, 2], fun _ => 1⟩ 2 3 1 1 2 two_pos (fun _ => 1) ⟨1, one_pos, rfl, fun _ => rfl⟩ (.inl rfl) (.inl rfl) rfl rfl rfl rfl
    (fun j hj => by unfold Tensor.validIndex; simp) (fun j hj => by unfold Tensor.validIndex; simp) trivial (.inl one_pos)
  exact ⟨μ, v, h1, (h4 0 one_pos).2.2 one_pos⟩

/-- Non-vacuity of `C44_always_partial`: the three training points, each of its own class, two neighbours. -/
example (bs : Flt → ℝ → ℝ) : ∃ w : NNWrapper, w.Exact ∧ w.N = 3 ∧ w.nnCount = 2 ∧ ∃ P,
    classifyAny (fun idx nn => posteriorMeanFromIndices bs lineModel idx nn lineTest w.train ⟨[3, 3], fun k => if k % 4 = 0 then 1 else 0⟩)
      w lineTest ⟨[3, 3], fun k => if k % 4 = 0 then 1 else 0⟩ = .ok P ∧ P.shape = [2, 3] := by
  obtain ⟨answer, hw⟩ := line_exact
  obtain ⟨I, P, -, p1, p2, -⟩ := C44_always_partial bs lineModel rfl rfl _ hw lineTest ⟨[3, 3], fun k => if k % 4 = 0 then 1 else 0⟩
    2 3 (fun _ => 1) ⟨1, one_pos, rfl, fun _ => rfl⟩ rfl rfl (by norm_num) (by norm_num) two_pos two_pos (by norm_num)
    (fun _ => trivial) (.inl one_pos)
  exact ⟨_, hw, rfl, rfl, P, p1, p2⟩

end MuyGPyS

namespace MuyGPyS.Deep
open Py Matrix

variable {Θ S : Type}

/-- **C59**, prediction with a trained deep kernel, with a suitable kernel and noise: it never fails; the variances lie between
0 and the variance scale. With positive noise the embedding may map different points to the same one. -/
theorem C59_predict_always (env : Env Θ S)
    (hbuild : ∀ X k w, env.build X k = .ok w → w.train = X ∧ w.nnCount = k ∧ w.Exact)
    (hdet : ∀ t t', env.embed false t = env.embed false t')
    (m m' : Module Θ) (s s' : S) (train test responses : Tensor ℝ) (batch : Tensor Int)
    (w w' : NNWrapper) (T u : Nat) (name : String) (q : Param) (hq : lengthParam m.layer.R = some q)
    (h : trainDeep env m s train responses batch w T name u = .ok (w', m', s')) (hev : m'.training = false)
    (hk : m'.layer.R.kernel.make = m'.layer.R.kernel) (hko : m'.layer.R.gp.kout = KernelObj.kout)
    (hsuit : m'.layer.R.kernel.fn.Suits m'.layer.R.kernel.deform.metric)
    (M : Nat) (hM : 0 < M) (len : Fin w'.f → ℝ) (hlen : m'.layer.R.kernel.deform.HasLengths w'.f len)
    (hQ : (env.embed false 0 m'.θ test).shape = [M, w'.f]) (hY : responses.shape = [w'.N]) (hn0 : 0 < w.nnCount)
    (hnN : w.nnCount ≤ w'.N) (hν : m'.layer.R.gp.noise.Fits M w.nnCount)
    (hreg : m'.layer.R.gp.noise.Suffices M w.nnCount (DistinctRows (env.embed false 0 m'.θ train) w'.N w'.f)) :
    let X := env.embed false 0 m'.θ train
    let Q := env.embed false 0 m'.θ test
    let R := m'.layer.R
    let n := w.nnCount
    ∃ nn μ v, (∀ i < M, ∃ l : List Nat, rowList nn n i = l.map Int.ofNat ∧
        Nearest (· < w'.N) (fun j => w'.dist (rowPt Q w'.f i) (rowPt X w'.f j)) n l) ∧
      predictSingle env m' test train responses w' n = .ok (μ, v) ∧ μ.shape = [M] ∧ v.shape = [M] ∧
      ∀ p < M,
        μ.get [p] = Spec.krigingMean (nbrCov env.bessel R.kernel len X w'.N n nn p + R.gp.noise.mat n p)
          (nbrCross env.bessel R.kernel len X w'.N n nn p (rowPt Q w'.f p)) (nbrTargets responses w'.N n nn p 0) ∧
        v.get [p] = R.gp.boundScale * Spec.krigingVar 1 (nbrCov env.bessel R.kernel len X w'.N n nn p + R.gp.noise.mat n p)
          (nbrCross env.bessel R.kernel len X w'.N n nn p (rowPt Q w'.f p)) ∧
        (0 < R.gp.boundScale → 0 ≤ v.get [p] ∧ v.get [p] < R.gp.boundScale) := by
  intro X Q R n
  obtain ⟨nn, h1, h2⟩ := C59_predict env hbuild hdet m m' s s' train test responses batch w w' T u name q hq h hev hk hko M hM len
    hlen hQ hY hn0 hnN hν
  have hl : ∀ i < M, ∃ l : List Nat, rowList nn n i = l.map Int.ofNat ∧ l.Nodup ∧ ∀ x ∈ l, x < w'.N := fun i hi => by
    obtain ⟨l, e1, e2⟩ := h1 i hi; exact ⟨l, e1, e2.nodup, e2.mem⟩
  obtain ⟨μ, v, p1, p2, p3, p4⟩ := h2 (nbr_regular env.bessel R hsuit len hlen X w'.N n M nn hl hreg)
  refine ⟨nn, μ, v, h1, p1, p2, p3, fun p hp => ⟨(p4 p hp).1, (p4 p hp).2, fun hs => ?_⟩⟩
  obtain ⟨l, e1, e2, e3⟩ := hl p hp
  obtain ⟨b1, -, b3, -⟩ := nbr_variance env.bessel R.kernel hsuit len (hasLengths_pos hlen) X w'.N n nn p M hp (rowPt Q w'.f p)
    R.gp.noise (hreg.mono fun hd => distinct_of_nodup e1 e2 e3 hd)
  rw [(p4 p hp).2]
  exact ⟨mul_nonneg hs.le b1, by have := mul_lt_mul_of_pos_left (b3 hn0) hs; rwa [mul_one] at this⟩

/-- Non-vacuity of C59 (`C59_predict`, `C59_predict_always`): the training run of `line_run` ends in evaluation mode with length scale 2,
and the prediction from two neighbours succeeds. -/
example : ∃ (env : Env Unit Unit) (m' : Module Unit) (w' : NNWrapper) (μ v : Tensor ℝ),
    (∃ m w batch, trainDeep env m () lineTrain lineTargets batch w 1 "mse" 1 = .ok (w', m', ())) ∧
    m'.layer.R.kernel.deform = .isotropy .F2 ⟨Flt.fin 2, Flt.fin 0, Flt.fin 0, true⟩ ∧
    predictSingle env m' lineTest lineTrain lineTargets w' 2 = .ok (μ, v) ∧ μ.shape = [2] ∧ 0 ≤ v.get [0] ∧ v.get [0] < 1 := by
  obtain ⟨answer, hw⟩ := exact_index_exists 3 1 2 lineTrain rfl (fun x y => |x 0 - y 0|) false
  obtain ⟨nt, br, w2, m2, c1, hrun⟩ := line_run answer hw
  have hev := C57_evaluation_mode_partial _ _ _ _ _ _ _ _ _ _ _ _ _ ⟨Flt.fin 1, Flt.fin 0, Flt.fin 0, true⟩ rfl hrun one_pos (.inr (by decide))
  have hb := C57_returned_lookup _ _ _ _ _ _ _ _ _ _ _ _ _ ⟨Flt.fin 1, Flt.fin 0, Flt.fin 0, true⟩ rfl hrun
  have hw2 : w2 = ⟨3, 1, lineTrain, 2, fun x y => |x 0 - y 0|, false, answer⟩ := by
    have : (lineEnv answer).build lineTrain 2 = .ok w2 := hb
    simp only [lineEnv, if_true] at this
    exact (Except.ok.inj this).symm
  subst hw2
  have hlay : m2.layer.R = setLength lineModel (Flt.fin 2) := by
    obtain ⟨br', loss, m1, h1, h2, h3, h4⟩ := trainDeep_parts hrun
    obtain ⟨f1, f2, f3, f4, f5⟩ := refresh_frame h4
    obtain ⟨g1, g2, g3, g4, g5⟩ := loop_frame (lineEnv answer) loss lineTrain lineTargets _ br' _ 1 (lineModule nt) () _ rfl 1 m1 () h3
    rw [f2, g3]
    rfl
  have hbuild : ∀ X k w, (lineEnv answer).build X k = .ok w → w.train = X ∧ w.nnCount = k ∧ w.Exact := by
    intro X k w h
    simp only [lineEnv] at h
    split at h
    · rename_i hX
      obtain rfl := Except.ok.inj h
      subst hX
      exact ⟨rfl, rfl, hw⟩
    · cases h
  obtain ⟨nn, μ, v, -, p1, p2, p3, p4⟩ := C59_predict_always (lineEnv answer) hbuild (fun _ _ => rfl) (lineModule nt) m2 () () lineTrain lineTest
    lineTargets _ _ _ 1 1 "mse" ⟨Flt.fin 1, Flt.fin 0, Flt.fin 0, true⟩ rfl hrun hev (by rw [hlay]; rfl) (by rw [hlay]; rfl) (by rw [hlay]; rfl)
    2 two_pos (fun _ => 2) (by rw [hlay]; exact ⟨2, two_pos, rfl, fun _ => rfl⟩) rfl rfl two_pos (by show 2 ≤ 3; norm_num)
    (by rw [hlay]; trivial) (by rw [hlay]; exact .inl one_pos)
  have hs : m2.layer.R.gp.boundScale = 1 := by rw [hlay]; rfl
  have hv := (p4 0 two_pos).2.2 (by rw [hs]; exact one_pos)
  rw [hs] at hv
  exact ⟨_, m2, _, μ, v, ⟨_, _, _, hrun⟩, by rw [hlay]; rfl, p1, p2, hv⟩

end MuyGPyS.Deep
