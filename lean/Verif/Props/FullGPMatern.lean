import Verif.Props.FullGP
import Verif.Props.FreeSmoothness
import Verif.Props.FreeSmoothnessWitness
import Verif.Props.FullGPWitness
import Verif.Props.WellPosed
import Verif.Props.SmoothWitness

/-! # C89 with the general Matérn implementation -/

namespace MuyGPyS
open Py Matrix

/-- **C89**: if every training point is a neighbour, `regress_any` with the general Matérn implementation is, at points that are not
training points, ordinary Gaussian process regression with all training data and the documented Matérn correlations, whatever the index
and its order of equidistant points. The noise variance of that process is the noise of the model less what the implementation lacks at
distance zero (C62). -/
theorem C89_matern (R : Regressor) (w : NNWrapper) (hw : w.Exact) (hall : w.nnCount = w.N) (Q Y : Tensor ℝ) (m : Nat) (ν τ σ : ℝ)
    (len : Fin w.f → ℝ) (hR : R.GeneralMatern ν len τ σ) (hν : 0 < ν) (hτ : deficit ν < τ) (hQ : Q.shape = [m, w.f]) (hY : Y.shape = [w.N])
    (hm : 0 < m) (hN : 0 < w.N) (hd : DistinctRows w.train w.N w.f) (hnew : w.New Q m) :
    let x : Fin w.N → Fin w.f → ℝ := fun i => rowPt w.train w.f i
    let A : Matrix (Fin w.N) (Fin w.N) ℝ := Matrix.of (fun i j => maternProcess ν len (x i) (x j)) + (τ - deficit ν) • 1
    ∃ μ v, regressAny maternGen R w Q w.train Y = .ok (μ, v) ∧ μ.shape = [m] ∧ v.shape = [m] ∧
      ∀ p < m,
        μ.get [p] = Spec.krigingMean A (fun i => maternProcess ν len (rowPt Q w.f p) (x i)) (responses Y w.N) ∧
        v.get [p] = σ * Spec.krigingVar 1 A (fun i => maternProcess ν len (rowPt Q w.f p) (x i)) := by
  intro x A
  obtain ⟨nn, h1, h2, h⟩ := C118_true_process R w hw Q m ν τ σ len hR hν hτ hQ hm (hall ▸ hN) hall.le hd hnew
  obtain ⟨μ, v, r1, r2, r3, r4⟩ := h Y hY
  refine ⟨μ, v, r1, r2, r3, fun p hp => ?_⟩
  obtain ⟨N, f, X, k, dist, sq, answer⟩ := w
  dsimp only at hall hY hN hQ
  subst hall
  obtain ⟨l, e1, e2⟩ := h1 p hp
  obtain ⟨s, hs⟩ := perm_of_row e1 e2.length e2.nodup e2.mem
  have hA : trueCov ν ⟨k, f, X, k, dist, sq, answer⟩ len nn p + (τ - deficit ν) • 1 = A.submatrix s s := by
    ext i j
    simp only [A, Matrix.add_apply, Matrix.smul_apply, Matrix.one_apply, submatrix_apply, s.injective.eq_iff]
    congr 1
    simp only [trueCov, of_apply, hs, pointOf_nat, x]
  have hc : trueCross ν ⟨k, f, X, k, dist, sq, answer⟩ len nn p (rowPt Q f p) = (fun i => maternProcess ν len (rowPt Q f p) (x i)) ∘ s := by
    funext j
    simp only [trueCross, hs, pointOf_nat, Function.comp, x]
  have hy : nbrTargets Y k k nn p 0 = responses Y k ∘ s := by
    funext j
    simp only [nbrTargets, responses, hs, pointOf_nat, Function.comp, feature, hY]
  obtain ⟨m1, m2⟩ := r4 p hp
  simp only at m1 m2
  rw [hA, hc] at m1 m2
  rw [hy] at m1
  constructor
  · rw [m1]
    exact Kriging.quad_perm _ _ _ _
  · rw [m2]
    unfold Spec.krigingVar
    rw [Kriging.quad_perm]

/-- The covariances of the implementation with noise are those of the Matérn process with the reduced noise. -/
theorem fullCov_gen (k : KernelObj) (hg : k.fn = .gen) (hm2 : k.deform.metric = .l2) (q : Param) (ν : ℝ)
    (hsm : k.smoothness = some q) (hq : q.val = Flt.fin ν) {f : Nat} (len : Fin f → ℝ) (hlen : ∀ c, 0 < len c) (X : Tensor ℝ) (N : Nat)
    (hX : X.shape = [N, f]) (hd : DistinctRows X N f) (τ : ℝ) :
    fullCov maternGen k len X N + τ • (1 : Matrix (Fin N) (Fin N) ℝ) =
      Matrix.of (fun i j : Fin N => maternProcess ν len (rowPt X f i) (rowPt X f j)) + (τ - deficit ν) • (1 : Matrix (Fin N) (Fin N) ℝ) := by
  have hcov := gen_covFn k hg hm2 q ν hsm hq len hlen
  ext i j
  simp only [Matrix.add_apply, Matrix.smul_apply, Matrix.one_apply, smul_eq_mul, fullCov, Matrix.of_apply]
  by_cases hij : i = j
  · subst hij
    rw [if_pos rfl, (hcov _ (rowPt X f i)).2]
    unfold maternProcess
    rw [if_pos rfl]
    ring
  · have hne : rowPt X f i ≠ rowPt X f j := fun hh => by
      obtain ⟨c, hc, hx⟩ := hd i i.2 j j.2 fun e => hij (Fin.ext e)
      have hrow : ∀ x, pt X f x = rowPt X f x := rowPt_pt hX
      have := congrFun hh ⟨c, hc⟩
      rw [← hrow, ← hrow] at this
      exact hx this
    rw [if_neg hij, (hcov _ _).1 hne]
    ring

/-- **C89**, training with the general Matérn implementation: if every other training point is a neighbour, the objective is exact
leave-one-out cross-validation of the Gaussian process with all training data, the documented Matérn correlations and the reduced noise. -/
theorem C89_objective_matern (L : Learner) (hmade : L.Made) (hg : L.fn = .gen) (hm2 : L.deform.metric = .l2)
    (w : NNWrapper) (hw : w.Exact) (hsep : w.Separated) (hall : w.nnCount + 1 = w.N) (len : Fin w.f → ℝ) (hlen : L.deform.HasLengths w.f len)
    (bc : Nat) (hbc : 0 < bc) (draw : List Nat) (hdr : bc < w.N → IsDraw w.N bc draw)
    (τ : ℝ) (hτ : L.trainee.R.gp.noise.Level τ) (q : Param) (ν : ℝ) (hsm : L.kernel.smoothness = some q) (hq : q.val = Flt.fin ν) (hν : 0 < ν)
    (hdef : deficit ν < τ) (hd : DistinctRows w.train w.N w.f) (Y : Tensor ℝ) (hY : Y.shape = [w.N]) (draws : List (List Nat)) :
    let x : Fin w.N → Fin w.f → ℝ := fun i => rowPt w.train w.f i
    let A : Matrix (Fin w.N) (Fin w.N) ℝ := Matrix.of (fun i j => maternProcess ν len (x i) (x j)) + (τ - deficit ν) • 1
    ∃ (idx : List (Fin w.N)) (nn : Tensor Int) (d : TrainData), sampleBatch w bc w.N draw = .ok (idx.map Fin.val, nn) ∧ idx.length = min bc w.N ∧ idx.Nodup ∧
      L.trainData (idx.map Fin.val, nn) w.train Y = .ok d ∧
      L.score maternGen .mse draws d = .ok (some (-((idx.map fun x => looError A (responses Y w.N) x ^ 2).sum / idx.length))) ∧
      (∀ δ, L.score maternGen (.pseudoHuber δ) draws d = .ok (some (-(idx.map fun x => huber δ (looError A (responses Y w.N) x)).sum))) ∧
      (L.scaleKind = .fixed → L.score maternGen .lool draws d = .ok (some (-(idx.map fun x =>
        looError A (responses Y w.N) x ^ 2 / (L.scale * (looVar A x - (τ - deficit ν))) +
          Real.log (L.scale * (looVar A x - (τ - deficit ν)))).sum))) := by
  intro x A
  have hpos := hasLengths_pos hlen
  have hA : fullCov maternGen L.trainee.R.kernel len w.train w.N + τ • 1 = A :=
    fullCov_gen L.trainee.R.kernel hg hm2 q ν hsm hq len hpos w.train w.N hw.1 hd τ
  have h := loo_objective maternGen L hmade w hw hsep hall len hlen bc hbc draw hdr τ hτ
    (by rw [hA]; exact Kriging.posdef_of_psd_add (maternProcess_psd hν len hpos _) (sub_pos.2 hdef)) (1 - deficit ν)
    (fun x => (gen_covFn L.trainee.R.kernel hg hm2 q ν hsm hq len hpos _ (rowPt w.train w.f x)).2)
    (fun b nn hrows => Learner.WellPosed.posdef (.inr ⟨rfl, hg, hm2, hd, q, ν, hsm, hq, hν, hdef⟩) hw hlen hτ b nn hrows) Y hY draws
  rw [hA, sub_sub_cancel] at h
  exact h

/-- Non-vacuity: training points 0, 1, 3, all three of them neighbours, the test point 2, smoothness 3/2, noise 1. -/
example : ∃ (w : NNWrapper) (μ v : Tensor ℝ), w.Exact ∧ w.train = lineTrain ∧ w.nnCount = 3 ∧
    regressAny maternGen (lineMaternAt (3 / 2)) w (oneTest 2) w.train lineTargets = .ok (μ, v) ∧ μ.shape = [1] := by
  obtain ⟨answer, hw⟩ := exact_index_exists 3 1 3 lineTrain rfl (fun x y => |x 0 - y 0|) false
  obtain ⟨μ, v, h1, h2, -⟩ := C89_matern (lineMaternAt (3 / 2)) _ hw rfl (oneTest 2) lineTargets 1 (3 / 2) 1 1 (fun _ => 1)
    (lineMaternAt_general _) (by norm_num) (deficit_lt_one (by norm_num)) rfl rfl one_pos (by norm_num) line_distinct (line_new answer)
  exact ⟨_, μ, v, hw, rfl, rfl, h1, h2⟩

/-- Non-vacuity of `C89_objective_matern`: training points 0, 1, 3, the two others of each its neighbours, a batch of two of them, smoothness 5/2,
noise 1, fixed scale 1. -/
example : ∃ (w : NNWrapper) (idx : List (Fin w.N)) (nn : Tensor Int) (d : TrainData) (s : ℝ), w.Exact ∧ w.train = lineTrain ∧ w.nnCount = 2 ∧
    sampleBatch w 2 w.N [2, 0] = .ok (idx.map Fin.val, nn) ∧ idx.length = 2 ∧
    ({ lineFreeMatern with scaleKind := .fixed } : Learner).score maternGen .lool [] d = .ok (some s) := by
  obtain ⟨answer, hw⟩ := line_exact
  obtain ⟨idx, nn, d, h1, h2, -, -, -, -, h3⟩ := C89_objective_matern { lineFreeMatern with scaleKind := .fixed }
    (by simp [Learner.Made, Learner.make, lineFreeMatern, setMaternFn]) rfl rfl _ hw (line_separated answer) rfl (fun _ => 1)
    ⟨1, one_pos, rfl, fun _ => rfl⟩ 2 two_pos [2, 0] (fun _ => ⟨rfl, by decide, fun x hx => by show x < 3; fin_cases hx <;> norm_num⟩) 1 rfl
    _ (5 / 2) rfl rfl (by norm_num) (deficit_lt_one (by norm_num)) line_distinct lineTargets rfl []
  exact ⟨_, idx, nn, d, _, hw, rfl, rfl, h1, h2, h3 rfl⟩

end MuyGPyS
