import Verif.Props.Information
import Verif.Props.BayesMore
import Verif.Props.PipelineAlways

/-! # The covariances a model uses for a batch, and the process they belong to -/

namespace MuyGPyS
open Py Matrix

/-- The batch of a training set: covariances of the neighbours of batch point `p` under the model, with its noise. -/
noncomputable def Learner.batchCov (bs : Flt → ℝ → ℝ) (L : Learner) (w : NNWrapper) (len : Fin w.f → ℝ) (nn : Tensor Int) (p : Nat) :
    Matrix (Fin w.nnCount) (Fin w.nnCount) ℝ :=
  nbrCov bs L.trainee.R.kernel len w.train w.N w.nnCount nn p + L.trainee.R.gp.noise.mat w.nnCount p

/-- What the general Matérn implementation uses for different training points: the covariances of the true process, and the noise minus the deficit. -/
theorem batchCov_gen {L : Learner} {w : NNWrapper} {τ : ℝ} (hw : w.Exact) {len : Fin w.f → ℝ} (hlen : L.deform.HasLengths w.f len)
    (hτ : L.trainee.R.gp.noise.Level τ) (hg : L.fn = .gen) (hm : L.deform.metric = .l2) (hd : DistinctRows w.train w.N w.f)
    (q : Param) (ν : ℝ) (hsm : L.kernel.smoothness = some q) (hq : q.val = Flt.fin ν) (nn : Tensor Int) (p : Nat) (l : List Nat)
    (e1 : rowList nn w.nnCount p = l.map Int.ofNat) (e3 : l.Nodup) (e4 : ∀ j ∈ l, j < w.N) :
    L.batchCov maternGen w len nn p =
      (Matrix.of fun i j : Fin w.nnCount => maternProcess ν len (rowPt w.train w.f (pointOf w.N (nn.get [p, i])))
        (rowPt w.train w.f (pointOf w.N (nn.get [p, j])))) + (τ - deficit ν) • (1 : Matrix (Fin w.nnCount) (Fin w.nnCount) ℝ) := by
  have hpos := hasLengths_pos hlen
  have hdn := distinct_of_nodup e1 e3 e4 hd
  have hrow : ∀ x, pt w.train w.f x = rowPt w.train w.f x := rowPt_pt hw.1
  have hcov := gen_covFn L.trainee.R.kernel hg hm q ν hsm hq len hpos
  unfold Learner.batchCov
  rw [hτ.mat]
  ext i j
  simp only [Matrix.add_apply, Matrix.smul_apply, Matrix.one_apply, smul_eq_mul, nbrCov, Matrix.of_apply, hrow]
  by_cases hij : i = j
  · subst hij
    rw [if_pos rfl, (hcov _ (rowPt w.train w.f (pointOf w.N (nn.get [p, i])))).2]
    unfold maternProcess
    rw [if_pos rfl]
    ring
  · have hne : rowPt w.train w.f (pointOf w.N (nn.get [p, i])) ≠ rowPt w.train w.f (pointOf w.N (nn.get [p, j])) := fun hh => by
      obtain ⟨c, hc, hx⟩ := hdn i j hij
      refine hx ?_
      have := congrFun hh ⟨c, hc⟩
      rw [← hrow, ← hrow] at this
      exact this
    rw [if_neg hij, (hcov _ _).1 hne, mul_zero, mul_zero]

/-- The covariances the model uses for the responses of different training points are positive definite, and those of a process with the covariance
function `C` observed with the noise variance `τ'` (in units of the scale). -/
def Learner.Reflects (bs : Flt → ℝ → ℝ) (L : Learner) (w : NNWrapper) (len : Fin w.f → ℝ) (C : (Fin w.f → ℝ) → (Fin w.f → ℝ) → ℝ) (τ' : ℝ) : Prop :=
  (∀ b, L.trainee.R.gp.noise.Fits b w.nnCount) ∧ ∀ (nn : Tensor Int) (p : Nat) (l : List Nat), rowList nn w.nnCount p = l.map Int.ofNat →
    l.length = w.nnCount → l.Nodup → (∀ j ∈ l, j < w.N) → (L.batchCov bs w len nn p).PosDef ∧ ∀ i j : Fin w.nnCount, L.batchCov bs w len nn p i j =
      C (rowPt w.train w.f (pointOf w.N (nn.get [p, i]))) (rowPt w.train w.f (pointOf w.N (nn.get [p, j]))) + if i = j then τ' else 0

theorem reflects_closed (bs : Flt → ℝ → ℝ) (L : Learner) (hsuit : L.fn.Suits L.deform.metric) (w : NNWrapper) (hw : w.Exact) (len : Fin w.f → ℝ)
    (hlen : L.deform.HasLengths w.f len) (τ : ℝ) (hτ : L.trainee.R.gp.noise.Level τ) (b : Nat)
    (hreg : L.trainee.R.gp.noise.Suffices b w.nnCount (DistinctRows w.train w.N w.f)) :
    L.Reflects bs w len (L.trainee.R.kernel.covFn bs len) τ := by
  refine ⟨fun b => hτ.fits b _, fun nn p l e1 e2 e3 e4 => ⟨?_, fun i j => ?_⟩⟩
  · have hc := nbrCov_definite bs L.trainee.R.kernel hsuit len (hasLengths_pos hlen) w.train w.N w.nnCount nn p
    have hreg' : L.trainee.R.gp.noise.Suffices (p + 1) w.nnCount (DistinctRows w.train w.N w.f) :=
      (hτ.suffices_iff _ _ _).mpr ((hτ.suffices_iff _ _ _).mp hreg)
    exact Noise.posdef_of_suffices (hreg'.mono fun hd => distinct_of_nodup e1 e3 e4 hd) (Nat.lt_succ_self p) hc.1 hc.2
  · have hrow : ∀ x, pt w.train w.f x = rowPt w.train w.f x := rowPt_pt hw.1
    unfold Learner.batchCov
    rw [hτ.mat, Matrix.add_apply, Matrix.smul_apply, Matrix.one_apply]
    simp only [nbrCov, Matrix.of_apply, hrow, smul_eq_mul]
    split <;> simp

theorem reflects_gen (L : Learner) (hg : L.fn = .gen) (hm : L.deform.metric = .l2) (w : NNWrapper) (hw : w.Exact) (len : Fin w.f → ℝ)
    (hlen : L.deform.HasLengths w.f len) (hd : DistinctRows w.train w.N w.f) (q : Param) (ν : ℝ) (hν : 0 < ν) (hsm : L.kernel.smoothness = some q)
    (hq : q.val = Flt.fin ν) (τ : ℝ) (hτ : L.trainee.R.gp.noise.Level τ) (hdef : deficit ν < τ) :
    L.Reflects maternGen w len (maternProcess ν len) (τ - deficit ν) := by
  refine ⟨fun b => hτ.fits b _, fun nn p l e1 e2 e3 e4 => ?_⟩
  rw [batchCov_gen hw hlen hτ hg hm hd q ν hsm hq nn p l e1 e3 e4]
  refine ⟨Kriging.posdef_of_psd_add (maternProcess_psd hν len (hasLengths_pos hlen) _) (sub_pos.2 hdef), fun i j => ?_⟩
  rw [Matrix.add_apply, Matrix.smul_apply, Matrix.one_apply]
  simp only [Matrix.of_apply, smul_eq_mul]
  split <;> simp

end MuyGPyS
