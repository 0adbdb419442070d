import Verif.Spec.Smooth
import Mathlib.Analysis.Calculus.ContDiff.Defs

/-! # The losses of several predicted scores per point -/

namespace MuyGPyS
open Py
open scoped ContDiff

/-- The probability of class `c` among `r` classes with the scores `s`. -/
noncomputable def classProb (r : Nat) (s : Nat → ℝ) (c : Nat) : ℝ := Real.exp (s c) / ∑ k ∈ Finset.range r, Real.exp (s k)

/-- A loss of the scores `s p c` of `b` points and `r` responses or classes, whose true values are `t p c`: the mean of the squared errors, the sum of their
pseudo-Huber losses, or minus the log-probabilities of the classes a point belongs to (positive entries of its label), clipped to `[ε, 1 - ε]`. -/
noncomputable def LossKind.ofScores (l : LossKind) (b r : Nat) (s t : Nat → Nat → ℝ) : ℝ :=
  match l with
  | .pseudoHuber δ => ∑ p ∈ Finset.range b, ∑ c ∈ Finset.range r, δ ^ 2 * (Real.sqrt (1 + ((t p c - s p c) / δ) ^ 2) - 1)
  | .crossEntropy ε => ∑ p ∈ Finset.range b, ∑ c ∈ Finset.range r,
      if 0 < t p c then -Real.log (min (max (classProb r (s p) c) ε) (1 - ε)) else 0
  | _ => (∑ p ∈ Finset.range b, ∑ c ∈ Finset.range r, (s p c - t p c) ^ 2) / (b * r : Nat)

/-- A batch of training points with their neighbours, as the library draws them for regressors or for classifiers. -/
def NNWrapper.Drawn (w : NNWrapper) (batch : List Nat × Tensor Int) : Prop :=
  (∃ (bc : Nat) (draw : List Nat), 0 < bc ∧ (bc < w.N → IsDraw w.N bc draw) ∧ sampleBatch w bc w.N draw = .ok batch) ∨
  ∃ (classes : Tensor ℝ) (bc : Int) (draws : List (List Nat)), classes.shape = [w.N] ∧ getBalancedBatch w classes bc draws = .ok batch

/-- Training with several responses or classes: the predicted scores `s` of the batch points are smooth functions of the free hyperparameters on the search
box, and what the optimisers minimise, under a loss of means, is the loss `g` of these scores: a continuous function that attains its minimum on the box, smooth
except where the cross entropy clips a probability. -/
def Learner.ScoresSmooth (bs : Flt → ℝ → ℝ) (L : Learner) (w : NNWrapper) (idx : List Nat) (nn : Tensor Int) (labels : Tensor ℝ) (r : Nat) : Prop :=
  ∃ d o, L.trainData (idx, nn) w.train labels = .ok d ∧ L.gp.getOptParams = .ok o ∧
    ∃ s : Nat → Nat → (Fin L.freeNames.length → ℝ) → ℝ, (∀ p < idx.length, ∀ c < r, ContDiffOn ℝ ∞ (s p c) L.searchBox) ∧
      ∀ l : LossKind, l.raw = true → (∀ ε, l = .crossEntropy ε → 0 < ε ∧ ε < 1) → ∃ g : (Fin L.freeNames.length → ℝ) → ℝ,
        (∀ x, g x = l.ofScores idx.length r (fun p c => s p c x) fun p c => labels.get [idx.getD p 0, c]) ∧
        (∀ draws, ∀ x ∈ L.searchBox, arrayObjFn (L.objective bs l draws d) o.names (L.point x) = .ok (some (g x))) ∧
        ContinuousOn g L.searchBox ∧ (∃ x ∈ L.searchBox, ∀ y ∈ L.searchBox, g x ≤ g y) ∧
        ∀ x ∈ L.searchBox, (∀ ε, l = .crossEntropy ε → ∀ p < idx.length, ∀ c < r,
          ε < classProb r (fun c => s p c x) c ∧ classProb r (fun c => s p c x) c < 1 - ε) → ContDiffWithinAt ℝ ∞ g L.searchBox x

end MuyGPyS
