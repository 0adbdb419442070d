import Verif.Spec.Prior

/-! # Several responses: one column at a time -/

namespace MuyGPyS
open Py

/-- Column `c` of the `(N, r)` responses, as the `(N,)` responses of a single-response data set. -/
def singleResponse (Y : Tensor ℝ) (c : Nat) : Tensor ℝ :=
  ⟨Y.shape.take 1, fun i => Y.get [i, c]⟩

/-- The results of predicting several responses at once: column `c` of the means and the (common) variances are what the single-response run returns. -/
def ColumnsOf (run : Tensor ℝ → Res (Tensor ℝ × Tensor ℝ)) (Y : Tensor ℝ) (m r : Nat) (μ v : Tensor ℝ) : Prop :=
  μ.shape = [m, r] ∧ v.shape = [m] ∧ ∀ c < r, ∃ μc, run (singleResponse Y c) = .ok (μc, v) ∧ μc.shape = [m] ∧ ∀ p < m, μ.get [p, c] = μc.get [p]

end MuyGPyS
