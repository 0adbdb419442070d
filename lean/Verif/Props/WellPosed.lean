import Verif.Props.Information
import Verif.Props.Truth
import Verif.Props.BayesMore

/-! # Models whose neighbourhood covariances are positive definite -/

namespace MuyGPyS
open Py Matrix

/-- Conditions under which no batch can make the model fail. A kernel with a closed formula: positive noise, or no noise and no training
point twice. The general Matérn implementation with smoothness `ν`: no training point twice and a noise variance above its deficit at
distance zero (C62). -/
def Learner.WellPosed (bs : Flt → ℝ → ℝ) (L : Learner) (w : NNWrapper) (τ : ℝ) : Prop :=
  (L.fn.Suits L.deform.metric ∧ (0 < τ ∨ (0 ≤ τ ∧ DistinctRows w.train w.N w.f))) ∨
  (bs = maternGen ∧ L.fn = .gen ∧ L.deform.metric = .l2 ∧ DistinctRows w.train w.N w.f ∧
    ∃ q ν, L.kernel.smoothness = some q ∧ q.val = Flt.fin ν ∧ 0 < ν ∧ deficit ν < τ)

/-- The neighbourhoods of a batch are positive definite. -/
theorem Learner.WellPosed.posdef {bs : Flt → ℝ → ℝ} {L : Learner} {w : NNWrapper} {τ : ℝ} (h : L.WellPosed bs w τ) (hw : w.Exact) {len : Fin w.f → ℝ}
    (hlen : L.deform.HasLengths w.f len) (hτ : L.trainee.R.gp.noise.Level τ) (b : Nat) (nn : Tensor Int)
    (hrows : ∀ p < b, ∃ l : List Nat, rowList nn w.nnCount p = l.map Int.ofNat ∧ l.length = w.nnCount ∧ l.Nodup ∧ ∀ j ∈ l, j < w.N)
    (p : Nat) (hp : p < b) : (L.batchCov bs w len nn p).PosDef := by
  rcases h with ⟨hsuit, hreg⟩ | ⟨rfl, hg, hm, hd, q, ν, hsm, hq, hν, hdef⟩
  · exact batch_posdef bs L hsuit w len hlen b nn hrows ((hτ.suffices_iff _ _ _).mpr hreg) p hp
  · obtain ⟨l, e1, -, e3, e4⟩ := hrows p hp
    rw [batchCov_gen hw hlen hτ hg hm hd q ν hsm hq nn p l e1 e3 e4]
    exact Kriging.posdef_of_psd_add (maternProcess_psd hν len (hasLengths_pos hlen) _) (sub_pos.2 hdef)

end MuyGPyS
