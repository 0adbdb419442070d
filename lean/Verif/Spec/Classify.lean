import Verif.Model.Classify
import Verif.Spec.Batch
import Verif.Spec.Workflow

/-! # What classification promises -/

namespace MuyGPyS
open Py

/-- The encoded label (`r` columns) of the `j`-th listed neighbour of test point `p`. -/
def nbrLabel (labels : Tensor ℝ) (nn : Tensor Int) (p j c : Nat) : ℝ := labels.get [(nn.get [p, j]).toNat, c]

/-- The `n` listed neighbours of test point `p` all carry the same label (encoded in `r` columns). -/
def SameLabel (labels : Tensor ℝ) (nn : Tensor Int) (n r p : Nat) : Prop :=
  ∀ j < n, ∀ j' < n, ∀ c < r, nbrLabel labels nn p j c = nbrLabel labels nn p j' c

/-- The first column of the encoding tells all the labels of the `N` training points apart (as in any
encoding of two classes; one-hot encodings of three classes are not of this kind). -/
def FirstColumnDecides (labels : Tensor ℝ) (N r : Nat) : Prop :=
  ∀ i < N, ∀ k < N, labels.get [i, 0] = labels.get [k, 0] → ∀ c < r, labels.get [i, c] = labels.get [k, c]

end MuyGPyS

namespace MuyGPyS

/-- `c` is the first of the `r` classes with the largest score. -/
def IsFirstMax (score : Nat → ℝ) (r c : Nat) : Prop :=
  c < r ∧ (∀ k < r, score k ≤ score c) ∧ ∀ k < c, score k < score c

open Classical in
/-- The number of test points (of `m`) with property `P`. -/
noncomputable def countWhere (m : Nat) (P : Nat → Prop) : Nat := ((Finset.range m).filter P).card

/-- The fraction of the test points with property `S` that also have property `P`; `none` (nan) without any. -/
noncomputable def fractionWhere (m : Nat) (S P : Nat → Prop) : Option ℝ :=
  if countWhere m S = 0 then none else some (countWhere m (fun p => S p ∧ P p) / countWhere m S)

/-- The open confidence interval `mean ± cut * sd` contains `mid`. -/
def Straddles (mean cut sd mid : ℝ) : Prop := mean - cut * sd < mid ∧ mid < mean + cut * sd

end MuyGPyS

namespace MuyGPyS
open Py

/-- The class (0 or 1, as -1 or 1) predicted for batch point `p` is its label. -/
def CalCorrect (mean : Tensor ℝ) (targets : List ℝ) (p : Nat) : Prop :=
  ∃ c, IsFirstMax (fun k => mean.get [p, k]) 2 c ∧ 2 * (c : ℝ) - 1 = targets.getD p 0

/-- Labels encoded symmetrically: the second column is minus the first (as for the rows `(1, -1)` and `(-1, 1)`). -/
def SymmetricLabels (labels : Tensor ℝ) (N : Nat) : Prop := ∀ i < N, labels.get [i, 1] = -labels.get [i, 0]

/-- Type 1 error at a cutoff: the fraction of the misclassified batch points that are not flagged as ambiguous. -/
noncomputable def alphaAt (b : Nat) (mean var : Tensor ℝ) (targets : List ℝ) (cut : ℝ) : Option ℝ :=
  fractionWhere b (fun p => ¬ CalCorrect mean targets p)
    (fun p => ¬ Straddles (mean.get [p, 1]) cut (Real.sqrt (var.get [p])) 0)

/-- Type 2 error at a cutoff: the fraction of the correctly classified batch points that are flagged as ambiguous. -/
noncomputable def betaAt (b : Nat) (mean var : Tensor ℝ) (targets : List ℝ) (cut : ℝ) : Option ℝ :=
  fractionWhere b (CalCorrect mean targets) (fun p => Straddles (mean.get [p, 1]) cut (Real.sqrt (var.get [p])) 0)

end MuyGPyS
