import Verif.Model.Batch
import Verif.Model.Multivariate

/-!
# Model of the prediction part of `examples/classify.py` and of `examples/two_class_classify_uq.py`

The surrogate enters through its `posterior_mean_from_indices` / `regress_from_indices` (`post`), so that
the same functions serve univariate and multi-output surrogates. Timings are omitted.
-/

namespace MuyGPyS
open Py

/-- `posterior_mean_from_indices` for a multi-output model — `examples/from_indices.py:42-56`. -/
noncomputable def multiPosteriorMeanFromIndices (bessel : Flt → ℝ → ℝ) (models : List Trainee) (idx nn : Tensor Int)
    (test train targets : Tensor ℝ) : Res (Tensor ℝ) := do
  let t ← multiPredictTensors models idx nn test train targets
  multiPosteriorMean bessel models t.2.1 t.1 t.2.2

/-- `np.max(nn_labels[:, :, 0], axis=-1) != np.min(nn_labels[:, :, 0], axis=-1)` at row `p`, for labels of
shape `(m, n, r)` — `examples/classify.py:580-582`, `examples/two_class_classify_uq.py:392-394`. -/
noncomputable def mixedFirstColumn (nl : Tensor ℝ) (n p : Nat) : Bool :=
  let col := (List.range n).map fun j => nl.get [p, j, 0]
  decide (col.max? ≠ col.min?)

/-- `classify_any` — `examples/classify.py:537-607`. `train_labels[0, :]` of an empty table is an `IndexError`,
`np.min` of an empty row a `ValueError`. Simplification: a posterior mean whose shape is not
`(count, class_count)` raises (NumPy would broadcast some of them). -/
noncomputable def classifyAny (post : Tensor Int → Tensor Int → Res (Tensor ℝ)) (w : NNWrapper)
    (test labels : Tensor ℝ) : Res (Tensor ℝ) :=
  match labels.shape with
  | [N, r] =>
    if N = 0 then .error .index else if r = 0 then .error .value else do
    let nn ← w.getNns test
    let nl ← labels.take nn.1
    let m := nn.1.shape.getD 0 0
    let n := nn.1.shape.getD 1 0
    let idx := (List.range m).filter (mixedFirstColumn nl n)
    if idx = [] then return Tensor.ofFn [m, r] fun q => nl.get [q.getD 0 0, 0, q.getD 1 0]
    let μ ← post (ofNats idx) (selectRows nn.1 n idx)
    if μ.shape = [idx.length, r] then
      return Tensor.ofFn [m, r] fun q =>
        if mixedFirstColumn nl n (q.getD 0 0) then μ.get [idx.idxOf (q.getD 0 0), q.getD 1 0]
        else nl.get [q.getD 0 0, 0, q.getD 1 0]
    else .error .value
  | _ => .error .value

/-- `classify_two_class_uq` — `examples/two_class_classify_uq.py:346-423`. Simplification: labels with a number
of columns other than two raise (NumPy broadcasts a single column). A variance that is not a vector of
length `count` cannot be assigned: `ValueError`. -/
noncomputable def classifyTwoClassUq (post : Tensor Int → Tensor Int → Res (Tensor ℝ × Tensor ℝ)) (w : NNWrapper)
    (test labels : Tensor ℝ) : Res (Tensor ℝ × Tensor ℝ) :=
  match test.shape, labels.shape with
  | [_, _], [_, r] => do
    let nn ← w.getNns test
    let nl ← labels.take nn.1
    if r ≠ 2 then .error .value else
    let m := nn.1.shape.getD 0 0
    let n := nn.1.shape.getD 1 0
    let idx := (List.range m).filter (mixedFirstColumn nl n)
    if idx = [] then return (Tensor.ofFn [m, 2] fun q => nl.get [q.getD 0 0, 0, q.getD 1 0], zeros [m])
    let p ← post (ofNats idx) (selectRows nn.1 n idx)
    if p.1.shape = [idx.length, 2] ∧ p.2.shape = [idx.length] then
      return (Tensor.ofFn [m, 2] fun q =>
          if mixedFirstColumn nl n (q.getD 0 0) then p.1.get [idx.idxOf (q.getD 0 0), q.getD 1 0]
          else nl.get [q.getD 0 0, 0, q.getD 1 0],
        Tensor.ofFn [m] fun q =>
          if mixedFirstColumn nl n (q.getD 0 0) then p.2.get [idx.idxOf (q.getD 0 0)] else 0)
    else .error .value
  | _, _ => .error .value

/-- `np.argmax(row)`: the first position of the largest entry — `examples/two_class_classify_uq.py:217,327`. -/
noncomputable def argmaxRow (row : List ℝ) : Nat := row.findIdx fun x => decide (row.max? = some x)

/-- `np.argmax(t, axis=1)` of an `(m, r)` matrix with `r ≥ 1` — `examples/two_class_classify_uq.py:327,477`, `examples/classify.py:145`. -/
noncomputable def argmaxRows (t : Tensor ℝ) (m r : Nat) : List Nat :=
  (List.range m).map fun i => argmaxRow ((List.range r).map fun j => t.get [i, j])

/-- `np.mean` of a list of booleans; `none` is `nan` (of an empty list) — `examples/two_class_classify_uq.py:334-343,487-501`. -/
noncomputable def meanBool (l : List Bool) : Option ℝ :=
  if l = [] then none else some ((l.count true : ℝ) / l.length)

/-- `make_masks` — `examples/two_class_classify_uq.py:251-291`; the result lists one mask per cutoff. -/
noncomputable def makeMasks (pred : Tensor ℝ) (cutoffs : List ℝ) (variances : Tensor ℝ) (mid : ℝ) :
    Res (List (List Bool)) :=
  match pred.shape with
  | [m, r] => do
    let v ← variances.reshape [m]
    if r < 2 ∧ cutoffs ≠ [] then .error .index else
    return cutoffs.map fun cut => (List.range m).map fun p =>
      decide (pred.get [p, 1] - cut * v.get [p] < mid ∧ pred.get [p, 1] + cut * v.get [p] > mid)
  | _ => .error .value

/-- Entries of `l` at the positions where `mask` is true (`l[mask]`, equal lengths) — `examples/two_class_classify_uq.py:334-335`. -/
def maskSelect {α : Type} (mask : List Bool) (l : List α) : List α :=
  ((mask.zip l).filter (·.1)).map (·.2)

/-- `do_uq` — `examples/two_class_classify_uq.py:294-343`: the overall accuracy and per mask the number of
ambiguous predictions and the accuracies on the ambiguous (0.0 if there are none) and the unambiguous ones;
`none` is `nan`. Masks of the wrong length are an `IndexError`. Simplification: predictions and labels with
different row counts raise. -/
noncomputable def doUq (pred labels : Tensor ℝ) (masks : List (List Bool)) :
    Res (Option ℝ × List (Nat × Option ℝ × Option ℝ)) :=
  match pred.shape, labels.shape with
  | [m, r], [m', r'] =>
    if r = 0 ∨ r' = 0 ∨ m ≠ m' then .error .value else do
    let correct := List.zipWith (fun a b => decide (a = b)) (argmaxRows pred m r) (argmaxRows labels m r')
    let uq ← masks.mapM fun mask =>
      if mask.length ≠ m then .error .index else
      let k := mask.count true
      .ok (k, if k = 0 then some 0 else meanBool (maskSelect mask correct),
        meanBool (maskSelect (mask.map not) correct))
    return (meanBool correct, uq)
  | _, _ => .error .value

/-- `np.linspace(0.01, 20, 1999)` — `examples/two_class_classify_uq.py:483`. -/
noncomputable def cutGrid : List ℝ := (List.range 1999).map fun i : Nat => 0.01 + (i : ℝ) * ((20 - 0.01) / 1998)

/-- Whether the interval `mean ± cut * sqrt(variance)` contains `0.0` in its interior —
`examples/two_class_classify_uq.py:488-513`. -/
noncomputable def straddlesZero (mean var cut : ℝ) : Bool :=
  decide (mean - cut * Real.sqrt var < 0 ∧ mean + cut * Real.sqrt var > 0)

/-- The grids `_alpha` and `_beta` and the two counts handed to the objectives —
`examples/two_class_classify_uq.py:477-517`, from the `(b, 2)` means, the variances and the labels (-1 or 1)
of the batch. -/
noncomputable def uqGrids (b : Nat) (mean var : Tensor ℝ) (targets : List ℝ) :
    List (Option ℝ) × List (Option ℝ) × Nat × Nat :=
  let rows := (List.range b).map fun p =>
    (decide (2 * ((argmaxRow [mean.get [p, 0], mean.get [p, 1]] : Nat) : ℝ) - 1 = targets.getD p 0),
      mean.get [p, 1], var.get [p])
  let correct := rows.filter (·.1)
  let incorrect := rows.filter fun x => !x.1
  (cutGrid.map fun cut => (meanBool (incorrect.map fun x => straddlesZero x.2.1 x.2.2 cut)).map fun a => 1 - a,
    cutGrid.map fun cut => meanBool (correct.map fun x => straddlesZero x.2.1 x.2.2 cut),
    correct.length, incorrect.length)

/-- `train_two_class_interval` after the regression — `examples/two_class_classify_uq.py:477-524`. -/
noncomputable def trainCutoffs (b : Nat) (mean var : Tensor ℝ) (targets : List ℝ)
    (objectives : List (List (Option ℝ) → List (Option ℝ) → Nat → Nat → Nat)) : Res (List ℝ) :=
  let g := uqGrids b mean var targets
  objectives.mapM fun obj =>
    match cutGrid[obj g.1 g.2.1 g.2.2.1 g.2.2.2]? with
    | some c => .ok c
    | none => .error .index

/-- `np.argmin` of an array that may contain `nan`: the first `nan` if there is one, otherwise the first
position of the smallest entry — `examples/two_class_classify_uq.py:47-57`. -/
noncomputable def argminOpt (l : List (Option ℝ)) : Nat :=
  if none ∈ l then l.findIdx (fun x => decide (x = none))
  else (l.map fun x => x.getD 0).findIdx fun x => decide ((l.map fun x => x.getD 0).min? = some x)

/-- Elementwise `a * x + b * y` with `nan` propagation — `examples/two_class_classify_uq.py:47-57`. -/
noncomputable def combine (a b : ℝ) (x y : List (Option ℝ)) : List (Option ℝ) :=
  List.zipWith (fun u v => match u, v with | some u, some v => some (a * u + b * v) | _, _ => none) x y

/-- `example_lambdas` — `examples/two_class_classify_uq.py:46-60`. -/
noncomputable def exampleLambdas : List (List (Option ℝ) → List (Option ℝ) → Nat → Nat → Nat) :=
  [fun α β _ _ => argminOpt (combine 1 1 α β), fun α β _ _ => argminOpt (combine 2 1 α β),
    fun α β _ _ => argminOpt (combine 4 1 α β), fun α β _ _ => argminOpt (combine 10 1 α β),
    fun α β cc ic => argminOpt (combine ic cc α β)]

end MuyGPyS
