import Verif.Spec.Units
import Verif.Props.Pipeline
import Verif.Props.DownSample

/-! # C83: predictions and choices do not depend on the unit of the responses -/

namespace MuyGPyS
open Py Matrix

/-! ### the array operations -/

theorem matAt_units (c : ℝ) (t : Tensor ℝ) (n m p : Nat) : (inUnits c t).matAt n m p = c • t.matAt n m p := by
  ext i j; rfl

theorem reshape_units (c : ℝ) (t : Tensor ℝ) (s : List Nat) : (inUnits c t).reshape s = (t.reshape s).map (inUnits c) := by
  unfold Tensor.reshape
  by_cases h : s.prod = t.shape.prod
  · rw [if_pos h, if_pos (show s.prod = (inUnits c t).shape.prod from h)]; rfl
  · rw [if_neg h, if_neg (show ¬ s.prod = (inUnits c t).shape.prod from h)]; rfl

theorem ofMats_units (c : ℝ) (bs : List Nat) (n m : Nat) (f : Nat → Matrix (Fin n) (Fin m) ℝ) :
    Tensor.ofMats bs n m (fun p => c • f p) = inUnits c (Tensor.ofMats bs n m f) := by
  unfold Tensor.ofMats inUnits
  congr 1
  funext k
  simp only
  split
  · rfl
  · rw [mul_zero]

theorem matmulT_units (c : ℝ) (bs : List Nat) (n m e : Nat) (A B : Tensor ℝ) :
    Tensor.matmulT bs n m e A (inUnits c B) = (Tensor.matmulT bs n m e A B).map (inUnits c) := by
  unfold Tensor.matmulT
  by_cases h : A.shape = bs ++ [n, m] ∧ B.shape = bs ++ [n, e]
  · rw [if_pos h, if_pos (show A.shape = bs ++ [n, m] ∧ (inUnits c B).shape = bs ++ [n, e] from h)]
    simp only [matAt_units, Matrix.mul_smul, ofMats_units]
    rfl
  · rw [if_neg h, if_neg (show ¬ (A.shape = bs ++ [n, m] ∧ (inUnits c B).shape = bs ++ [n, e]) from h)]
    rfl

theorem solve_units (c : ℝ) (bs : List Nat) (n m : Nat) (A B : Tensor ℝ) :
    Tensor.solve bs n m A (inUnits c B) = (Tensor.solve bs n m A B).map (inUnits c) := by
  unfold Tensor.solve
  by_cases h : A.shape = bs ++ [n, n] ∧ B.shape = bs ++ [n, m]
  · rw [if_pos h, if_pos (show A.shape = bs ++ [n, n] ∧ (inUnits c B).shape = bs ++ [n, m] from h)]
    split
    · simp only [matAt_units, Matrix.mul_smul, ofMats_units]
      rfl
    · rfl
  · rw [if_neg h, if_neg (show ¬ (A.shape = bs ++ [n, n] ∧ (inUnits c B).shape = bs ++ [n, m]) from h)]
    rfl

theorem take_units (c : ℝ) (t : Tensor ℝ) (idx : Tensor Int) : (inUnits c t).take idx = (t.take idx).map (inUnits c) := by
  unfold Tensor.take
  rw [show (inUnits c t).shape = t.shape from rfl]
  split
  · rfl
  · split <;> rfl

/-- Means are measured in the unit of the responses. -/
theorem mean_units (c : ℝ) (K Kc y : Tensor ℝ) : posteriorMean K Kc (inUnits c y) = (posteriorMean K Kc y).map (inUnits c) := by
  unfold posteriorMean
  rw [show (inUnits c y).shape = y.shape from rfl]
  cases findMatchingNdim y.shape K.shape with
  | error e => rfl
  | ok bi =>
    simp only [bind, Except.bind]
    rw [reshape_units]
    cases y.reshape _ with
    | error e => rfl
    | ok yf =>
      simp only [Except.map]
      cases K.reshape _ with
      | error e => rfl
      | ok Kf =>
        simp only
        cases Kc.reshape _ with
        | error e => rfl
        | ok Kcf =>
          simp only
          cases Tensor.solve _ _ _ Kf Kcf with
          | error e => rfl
          | ok F =>
            simp only
            rw [matmulT_units]
            cases Tensor.matmulT _ _ _ _ F yf with
            | error e => rfl
            | ok r =>
              simp only [Except.map]
              rw [reshape_units]
              rfl

theorem perturbFn_units {β : Type} (g : β → β) (ν : Noise) (f f' : Tensor ℝ → Res β) (h : ∀ K, f' K = (f K).map g) (K : Tensor ℝ)
    (kw : Option ℝ) : ν.perturbFn f' K kw = (ν.perturbFn f K kw).map g := by
  unfold Noise.perturbFn
  cases ν.perturb K kw with
  | error e => rfl
  | ok P => exact h P

theorem optMean_units (c : ℝ) (m : MuyGPS) (K Kc y : Tensor ℝ) (kw : Option ℝ) :
    m.optMean K Kc (inUnits c y) kw = (m.optMean K Kc y kw).map (inUnits c) :=
  perturbFn_units _ _ _ _ (fun K => mean_units c K Kc y) K kw

/-! ### the estimates of the variance scale -/

theorem atleast3d_units (c : ℝ) (y : Tensor ℝ) : (inUnits c y).atleast3d = inUnits c y.atleast3d := by
  unfold Tensor.atleast3d
  rw [show (inUnits c y).shape = y.shape from rfl]
  split <;> rfl

theorem get_units (c : ℝ) (t : Tensor ℝ) (i : List Nat) : (inUnits c t).get i = c * t.get i := rfl

theorem scaleUnnormalized_units (c : ℝ) (K y : Tensor ℝ) :
    scaleUnnormalized K (inUnits c y) = (scaleUnnormalized K y).map (c ^ 2 * ·) := by
  unfold scaleUnnormalized
  simp only [atleast3d_units]
  rw [show (inUnits c y.atleast3d).shape = y.atleast3d.shape from rfl]
  split
  · rename_i b n r h
    rw [solve_units]
    cases Tensor.solve [b] n r K y.atleast3d with
    | error e => rfl
    | ok F =>
      simp only [bind, Except.bind, Except.map, pure, Except.pure]
      congr 1
      simp only [Finset.mul_sum, get_units]
      refine Finset.sum_congr rfl fun i _ => Finset.sum_congr rfl fun k _ => Finset.sum_congr rfl fun j _ => ?_
      ring
  · rfl

theorem analyticScale_units (c : ℝ) (K y : Tensor ℝ) : analyticScale K (inUnits c y) = (analyticScale K y).map (c ^ 2 * ·) := by
  unfold analyticScale
  cases h1 : K.reshape (List.take 1 K.shape ++ [(List.drop (1 + (K.ndim - 1) / 2) K.shape).prod, (List.drop (1 + (K.ndim - 1) / 2) K.shape).prod]) with
  | error e => simp only [bind, Except.bind, h1]; rfl
  | ok Kf =>
    simp only [bind, Except.bind, h1]
    rw [reshape_units]
    cases y.reshape (List.take 1 K.shape ++ [(List.drop (1 + (K.ndim - 1) / 2) K.shape).prod, 1]) with
    | error e => rfl
    | ok yf =>
      simp only [Except.map]
      rw [scaleUnnormalized_units]
      cases scaleUnnormalized Kf yf with
      | error e => rfl
      | ok s =>
        simp only [Except.map, pure, Except.pure]
        rw [mul_div_assoc]

theorem analyticOpt_units (c : ℝ) (ν : Noise) (n : Nat) (hn : n ≤ 1) (K y : Tensor ℝ) :
    analyticOpt ν n K (inUnits c y) = (analyticOpt ν n K y).map (c ^ 2 * ·) := by
  unfold analyticOpt
  have h : List.range' 1 (n - 1) = [] := by rw [show n - 1 = 0 by omega]; rfl
  cases ν.perturb K with
  | error e => rfl
  | ok P =>
    simp only [bind, Except.bind, h, List.foldlM_nil]
    rw [analyticScale_units]
    cases analyticScale P y <;> rfl

theorem median_units {a : ℝ} (ha : 0 < a) (l : List ℝ) : median (l.map (a * ·)) = (median l).map (a * ·) := by
  have hs : (l.map (a * ·)).mergeSort (fun x y => decide (x ≤ y)) = (l.mergeSort fun x y => decide (x ≤ y)).map (a * ·) := by
    rw [List.map_mergeSort]
    intro x _ y _
    simp only [decide_eq_decide]
    exact (mul_le_mul_iff_right₀ ha).symm
  unfold median
  simp only [hs, List.map_eq_nil_iff, List.length_map]
  have hg : ∀ (s : List ℝ) k, (s.map (a * ·)).getD k 0 = a * s.getD k 0 := by
    intro s k
    rw [List.getD_eq_getElem?_getD, List.getD_eq_getElem?_getD, List.getElem?_map]
    cases s[k]? <;> simp
  simp only [hg]
  split
  · rfl
  · split
    · rfl
    · simp only [Option.map_some]
      congr 1
      ring

theorem downSampleOne_units (c : ℝ) (b d : Nat) (P y : Tensor ℝ) (s : List Nat) :
    downSampleOne b d P (inUnits c y) s = (downSampleOne b d P y s).map (c ^ 2 * ·) := by
  unfold downSampleOne
  exact scaleUnnormalized_units c (Tensor.ofFn [b, d, d] fun idx => P.get [idx.getD 0 0,
      (s.mergeSort fun a b => decide (a ≤ b)).getD (idx.getD 1 0) 0, (s.mergeSort fun a b => decide (a ≤ b)).getD (idx.getD 2 0) 0])
    (Tensor.ofFn (b :: d :: List.drop 2 y.shape) fun idx =>
      y.get (idx.getD 0 0 :: (s.mergeSort fun a b => decide (a ≤ b)).getD (idx.getD 1 0) 0 :: List.drop 2 idx))

theorem mapM_units {α : Type} (a : ℝ) (f f' : α → Res ℝ) (h : ∀ x, f' x = (f x).map (a * ·)) (l : List α) :
    l.mapM f' = (l.mapM f).map (List.map (a * ·)) := by
  induction l with
  | nil => rfl
  | cons x l ih =>
    simp only [List.mapM_cons, ih, h]
    cases f x with
    | error e => rfl
    | ok v =>
      cases l.mapM f <;> rfl

theorem downSampleOpt_units {c : ℝ} (hc : c ≠ 0) (ν : Noise) (d : Nat) (ss : List (List Nat)) (K y : Tensor ℝ) :
    downSampleOpt ν d ss K (inUnits c y) = (downSampleOpt ν d ss K y).map (Option.map (c ^ 2 * ·)) := by
  unfold downSampleOpt
  split
  · split
    · rfl
    · cases ν.perturb K with
      | error e => rfl
      | ok P =>
        simp only [bind, Except.bind]
        rw [mapM_units (c ^ 2) _ _ (fun s => downSampleOne_units c _ d P y s)]
        cases List.mapM (downSampleOne _ d P y) ss with
        | error e => rfl
        | ok l =>
          simp only [Except.map, pure, Except.pure]
          rw [median_units (by positivity)]
          split
          · rfl
          · cases median l with
            | none => rfl
            | some v => simp only [Option.map_some]; rw [mul_div_assoc]
  · rfl

/-- The scale used by the model in the other unit. -/
theorem scaleOptFn_units {c : ℝ} (hc : c ≠ 0) (k : ScaleKind) (hk : k.Documented) (L : Learner) (draws : List (List Nat)) (K y : Tensor ℝ)
    (kw : Dict Flt) :
    scaleOptFn k (L.inUnits c).trainee.R.gp draws K (inUnits c y) kw =
      (scaleOptFn k L.trainee.R.gp draws K y kw).map (Option.map (c ^ 2 * ·)) := by
  cases k with
  | fixed => rfl
  | analytic n =>
    simp only [scaleOptFn]
    rw [show (L.inUnits c).trainee.R.gp.noise = L.trainee.R.gp.noise from rfl, analyticOpt_units c _ n hk]
    cases analyticOpt L.trainee.R.gp.noise n K y <;> rfl
  | downSample d => exact downSampleOpt_units hc _ d draws K y

theorem make_units (c : ℝ) (L : Learner) : (L.inUnits c).make = (L.make).inUnits c := rfl

/-- `optimize_scale` on responses in the other unit stores the scale in the other unit, or raises the same exception. -/
theorem optimizeScale_units {c : ℝ} (hc : c ≠ 0) (bs : Flt → ℝ → ℝ) (draws : List (List Nat)) (L : Learner) (hk : L.scaleKind.Documented)
    (P y : Tensor ℝ) :
    (L.inUnits c).optimizeScale bs draws P (inUnits c y) = (L.optimizeScale bs draws P y).map (Learner.inUnits c) := by
  unfold Learner.optimizeScale
  rw [show (L.inUnits c).trainee.R.kernel = L.trainee.R.kernel from rfl, show (L.inUnits c).scaleKind = L.scaleKind from rfl]
  cases L.trainee.R.kernel.call bs P [] with
  | error e => rfl
  | ok K =>
    simp only [bind, Except.bind]
    rw [scaleOptFn_units hc _ hk]
    cases scaleOptFn L.scaleKind L.trainee.R.gp draws K y [] with
    | error e => rfl
    | ok o =>
      cases o with
      | none => rfl
      | some s =>
        have h2 : (0 : ℝ) < c ^ 2 := by positivity
        simp only [Except.map, Option.map_some]
        by_cases h : s ≤ 0
        · rw [if_pos h, if_pos (mul_nonpos_of_nonneg_of_nonpos h2.le h)]
        · have h' : ¬ c ^ 2 * s ≤ 0 := not_le.mpr (mul_pos h2 (not_le.mp h))
          rw [if_neg h, if_neg h']
          rfl

theorem trainData_units (c : ℝ) (L : Learner) (batch : List Nat × Tensor Int) (X Y : Tensor ℝ) :
    (L.inUnits c).trainData batch X (inUnits c Y) = (L.trainData batch X Y).map (TrainData.inUnits c) := by
  unfold Learner.trainData makeTrainTensors
  rw [show (L.inUnits c).deform = L.deform from rfl]
  cases defCrosswise L.deform.kind L.deform.metric X X (ofNats batch.1) batch.2 with
  | error e => rfl
  | ok cr =>
    cases defPairwise L.deform.kind L.deform.metric X batch.2 with
    | error e => rfl
    | ok pw =>
      simp only [bind, Except.bind]
      rw [take_units, take_units]
      cases Y.take batch.2 with
      | error e => rfl
      | ok a => cases Y.take (ofNats batch.1) <;> rfl

/-- Predictions in the other unit. -/
theorem regressAny_units (c : ℝ) (bs : Flt → ℝ → ℝ) (L : Learner) (w : NNWrapper) (Q X Y : Tensor ℝ) :
    regressAny bs (L.inUnits c).trainee.R w Q X (inUnits c Y) =
      (regressAny bs L.trainee.R w Q X Y).map fun r => (inUnits c r.1, inUnits (c ^ 2) r.2) := by
  unfold regressAny
  split
  · rfl
  · rename_i m _ hQ
    cases w.getNns Q with
    | error e => rfl
    | ok nn =>
      simp only [bind, Except.bind]
      unfold regressFromIndices tensorsFromIndices makePredictTensors
      rw [show (L.inUnits c).trainee.R.kernel = L.trainee.R.kernel from rfl]
      simp only [bind, Except.bind, pure, Except.pure]
      cases defCrosswise L.trainee.R.kernel.deform.kind L.trainee.R.kernel.deform.metric ((some Q).getD X) X (arange m) nn.1 with
      | error e => rfl
      | ok cr =>
        simp only
        cases defPairwise L.trainee.R.kernel.deform.kind L.trainee.R.kernel.deform.metric X nn.1 with
        | error e => rfl
        | ok pw =>
          simp only
          rw [take_units]
          cases Y.take nn.1 with
          | error e => rfl
          | ok y =>
            simp only [Except.map]
            cases L.trainee.R.kernel.call bs pw [] with
            | error e => rfl
            | ok Kin =>
              simp only
              cases L.trainee.R.kernel.call bs cr [] with
              | error e => rfl
              | ok Kc =>
                simp only
                have h1 : (L.inUnits c).trainee.R.gp.posteriorMean Kin Kc (inUnits c y) =
                    (L.trainee.R.gp.posteriorMean Kin Kc y).map (inUnits c) :=
                  perturbFn_units _ _ _ _ (fun K => mean_units c K Kc y) Kin none
                rw [h1]
                cases L.trainee.R.gp.posteriorMean Kin Kc y with
                | error e => rfl
                | ok μ =>
                  simp only [Except.map]
                  unfold MuyGPS.posteriorVariance
                  rw [show (L.inUnits c).trainee.R.gp.optVariance Kin Kc = L.trainee.R.gp.optVariance Kin Kc from rfl]
                  cases L.trainee.R.gp.optVariance Kin Kc with
                  | error e => rfl
                  | ok v =>
                    simp only [bind, Except.bind, pure, Except.pure]
                    congr 2
                    unfold Tensor.map inUnits
                    congr 1
                    funext k
                    simp only
                    rw [← mul_assoc]
                    rfl

/-! ### the losses -/

theorem entries_units (c : ℝ) (t : Tensor ℝ) : entries (inUnits c t) = (entries t).map (c * ·) := by
  unfold entries
  rw [List.map_map]
  rfl

theorem zip2_units (g : ℝ → ℝ) (f f' : ℝ → ℝ → ℝ) (c : ℝ) (h : ∀ x y, f' (c * x) (c * y) = g (f x y)) (a b : List ℝ) :
    Loss.zip2 f' (a.map (c * ·)) (b.map (c * ·)) = (Loss.zip2 f a b).map (List.map g) := by
  unfold Loss.zip2
  simp only [List.length_map]
  split
  · simp only [Except.map, List.zipWith_map, List.map_zipWith]
    congr 2
    funext x y
    exact h x y
  · rfl

theorem mse_units (c : ℝ) (a b : List ℝ) : Loss.mse (a.map (c * ·)) (b.map (c * ·)) = (Loss.mse a b).map (c ^ 2 * ·) := by
  unfold Loss.mse Loss.mseUnnormalized
  rw [zip2_units (c ^ 2 * ·) (fun p t => (p - t) ^ 2) (fun p t => (p - t) ^ 2) c (fun x y => by ring)]
  cases Loss.zip2 (fun p t => (p - t) ^ 2) a b with
  | error e => rfl
  | ok l =>
    simp only [bind, Except.bind, Except.map, pure, Except.pure, List.length_map]
    rw [List.sum_map_mul_left, List.map_id', mul_div_assoc]

theorem pseudoHuber_units {c : ℝ} (hc : c ≠ 0) (δ : ℝ) (a b : List ℝ) :
    Loss.pseudoHuber (a.map (c * ·)) (b.map (c * ·)) (|c| * δ) = (Loss.pseudoHuber a b δ).map (c ^ 2 * ·) := by
  have hf : ∀ x y : ℝ, Real.sqrt (1 + ((c * y - c * x) / (|c| * δ)) ^ 2) - 1 = Real.sqrt (1 + ((y - x) / δ) ^ 2) - 1 := by
    intro x y
    congr 3
    rw [← mul_sub, div_pow, div_pow, mul_pow, mul_pow, sq_abs, mul_div_mul_left _ _ (pow_ne_zero 2 hc)]
  unfold Loss.pseudoHuber
  rw [zip2_units id (fun p t => Real.sqrt (1 + ((t - p) / δ) ^ 2) - 1) _ c hf]
  cases Loss.zip2 (fun p t => Real.sqrt (1 + ((t - p) / δ) ^ 2) - 1) a b with
  | error e => rfl
  | ok l =>
    simp only [bind, Except.bind, Except.map, pure, Except.pure, List.map_id]
    rw [mul_pow, sq_abs, mul_assoc]

theorem sum_shift {α : Type} (l : List α) (f g : α → ℝ) (k : ℝ) (h : ∀ x ∈ l, g x = f x + k) :
    (l.map g).sum = (l.map f).sum + l.length * k := by
  induction l with
  | nil => simp
  | cons a l ih =>
    simp only [List.map_cons, List.sum_cons, List.length_cons, Nat.cast_add, Nat.cast_one]
    rw [h a (by simp), ih fun x hx => h x (by simp [hx])]
    ring

theorem zipWith_eq_map {α β γ : Type} (f : α → β → γ) (a : List α) (b : List β) : List.zipWith f a b = (a.zip b).map fun x => f x.1 x.2 := by
  rw [List.zip, List.map_zipWith]

/-- A sum of terms that are shifted by a constant when the residuals and variances change unit. -/
theorem terms_units (c : ℝ) (term : ℝ → ℝ → ℝ → ℝ) (k : ℝ)
    (h : ∀ p t v, v ≠ 0 → term (c * p) (c * t) (c ^ 2 * v) = term p t v + k) (a b v : List ℝ)
    (hl : a.length = b.length ∧ b.length = v.length) (hv : ∀ x ∈ v, x ≠ 0) :
    (List.zipWith (fun pt v => term pt.1 pt.2 v) ((a.map (c * ·)).zip (b.map (c * ·))) (v.map (c ^ 2 * ·))).sum =
      (List.zipWith (fun pt v => term pt.1 pt.2 v) (a.zip b) v).sum + a.length * k := by
  have e : (a.map (c * ·)).zip (b.map (c * ·)) = (a.zip b).map fun x => (c * x.1, c * x.2) := by
    rw [List.zip_map]; rfl
  rw [e, zipWith_eq_map, zipWith_eq_map, List.zip_map, List.map_map]
  rw [sum_shift ((a.zip b).zip v) (fun x => term x.1.1 x.1.2 x.2) _ k]
  · congr 2
    simp [hl.1, hl.2]
  · intro x hx
    exact h _ _ _ (hv _ (List.of_mem_zip hx).2)

theorem loolTerm_units {c : ℝ} (hc : c ≠ 0) (p t v : ℝ) (hv : v ≠ 0) :
    Loss.loolTerm (c * p) (c * t) (c ^ 2 * v) = Loss.loolTerm p t v + Real.log (c ^ 2) := by
  unfold Loss.loolTerm
  rw [Real.log_mul (pow_ne_zero 2 hc) hv, ← mul_sub, mul_pow, mul_div_mul_left _ _ (pow_ne_zero 2 hc)]
  ring

theorem loophTerm_units {c : ℝ} (hc : c ≠ 0) (δ p t v : ℝ) (hv : v ≠ 0) :
    Loss.loophTerm (c * p) (c * t) (c ^ 2 * v) δ = Loss.loophTerm p t v δ + Real.log (c ^ 2) := by
  unfold Loss.loophTerm
  have : (c * t - c * p) ^ 2 / (δ ^ 2 * (c ^ 2 * v)) = (t - p) ^ 2 / (δ ^ 2 * v) := by
    rw [← mul_sub, mul_pow, show δ ^ 2 * (c ^ 2 * v) = c ^ 2 * (δ ^ 2 * v) by ring, mul_div_mul_left _ _ (pow_ne_zero 2 hc)]
  rw [this, Real.log_mul (pow_ne_zero 2 hc) hv]
  ring

theorem map_ok {α β : Type} (f : α → β) (a : α) : (Except.ok a : Res α).map f = .ok (f a) := rfl

theorem lool_units {c : ℝ} (hc : c ≠ 0) (a b v : List ℝ) (s : ℝ) (hs : s ≠ 0) (hv : ∀ x ∈ v, x ≠ 0) :
    Loss.lool (a.map (c * ·)) (b.map (c * ·)) v (c ^ 2 * s) = (Loss.lool a b v s).map (· + a.length * Real.log (c ^ 2)) := by
  unfold Loss.lool Loss.loolUnscaled
  have e : v.map (fun x => c ^ 2 * s * x) = (v.map (s * ·)).map (c ^ 2 * ·) := by
    rw [List.map_map]; congr 1; funext x; simp [mul_assoc]
  rw [e]
  simp only [List.length_map]
  by_cases h : a.length = b.length ∧ b.length = v.length
  · rw [if_pos h, if_pos h, map_ok]
    congr 1
    refine terms_units c Loss.loolTerm _ (loolTerm_units hc) a b _ ⟨h.1, by simpa using h.2⟩ fun x hx => ?_
    obtain ⟨y, hy, rfl⟩ := List.mem_map.mp hx
    exact mul_ne_zero hs (hv y hy)
  · rw [if_neg h, if_neg h]; rfl

theorem looph_units {c : ℝ} (hc : c ≠ 0) (δ : ℝ) (a b v : List ℝ) (s : ℝ) (hs : s ≠ 0) (hv : ∀ x ∈ v, x ≠ 0) :
    Loss.looph (a.map (c * ·)) (b.map (c * ·)) v (c ^ 2 * s) δ = (Loss.looph a b v s δ).map (· + a.length * Real.log (c ^ 2)) := by
  unfold Loss.looph Loss.loophUnscaled
  have e : v.map (fun x => c ^ 2 * s * x) = (v.map (s * ·)).map (c ^ 2 * ·) := by
    rw [List.map_map]; congr 1; funext x; simp [mul_assoc]
  rw [e]
  simp only [List.length_map]
  by_cases h : a.length = b.length ∧ b.length = v.length
  · rw [if_pos h, if_pos h, map_ok]
    congr 1
    refine terms_units c (fun p t v => Loss.loophTerm p t v δ) _ (loophTerm_units hc δ) a b _ ⟨h.1, by simpa using h.2⟩ fun x hx => ?_
    obtain ⟨y, hy, rfl⟩ := List.mem_map.mp hx
    exact mul_ne_zero hs (hv y hy)
  · rw [if_neg h, if_neg h]; rfl

/-- **C83**, the objective: in the other unit, the value of every trial is the old one times a positive number plus a number, the
same for all trials — so every comparison of trials comes out the same. -/
theorem C83_objective {c : ℝ} (hc : c ≠ 0) (bs : Flt → ℝ → ℝ) (L : Learner) (hk : L.scaleKind.Documented) (l : LossKind)
    (hl : l.Regression) (draws : List (List Nat)) (d : TrainData) (n : Nat) (hn : l.raw = false → d.targets.shape = [n]) (kw : Dict Flt)
    (hu : l.raw = false → L.Uncertain bs draws d kw) :
    (L.inUnits c).objective bs (l.inUnits c) draws (d.inUnits c) kw =
      (L.objective bs l draws d kw).map (Option.map fun a => l.unitFactor c * a + l.unitShift c n) := by
  unfold Learner.objective objFn
  rw [show (L.inUnits c).trainee.R.kernel = L.trainee.R.kernel from rfl, show (d.inUnits c).pairwise = d.pairwise from rfl,
    show (d.inUnits c).crosswise = d.crosswise from rfl]
  cases hKin : L.trainee.R.kernel.optFn bs d.pairwise (("batch_features", none) :: kw) with
  | error e => rfl
  | ok Kin =>
    simp only [bind, Except.bind]
    cases hKc : L.trainee.R.kernel.optFn bs d.crosswise (("batch_features", none) :: kw) with
    | error e => rfl
    | ok Kc =>
      simp only
      have hm : (L.inUnits c).trainee.R.gp.optMean Kin Kc (d.inUnits c).nnTargets ((Dict.get? kw "noise").map Flt.toReal) =
          (L.trainee.R.gp.optMean Kin Kc d.nnTargets ((Dict.get? kw "noise").map Flt.toReal)).map (inUnits c) :=
        optMean_units c L.trainee.R.gp Kin Kc d.nnTargets _
      cases hraw : l.raw with
      | true =>
        unfold predictAndLoss
        have hraw' : (l.inUnits c).raw = true := by cases l <;> first | exact hraw | rfl
        simp only [hraw, hraw', if_true, bind, Except.bind, maskColumns, pure, Except.pure]
        rw [hm]
        cases L.trainee.R.gp.optMean Kin Kc d.nnTargets ((Dict.get? kw "noise").map Flt.toReal) with
        | error e => rfl
        | ok μ =>
          simp only [Except.map]
          have hr : (l.inUnits c).runRaw (inUnits c μ) (d.inUnits c).targets = (l.runRaw μ d.targets).map (c ^ 2 * ·) := by
            unfold LossKind.runRaw
            rw [show (inUnits c μ).shape = μ.shape from rfl, show (d.inUnits c).targets = inUnits c d.targets from rfl,
              show (inUnits c d.targets).shape = d.targets.shape from rfl]
            split
            · cases l with
              | mse => simp only [LossKind.inUnits, entries_units]; exact mse_units c _ _
              | pseudoHuber δ => simp only [LossKind.inUnits, entries_units]; exact pseudoHuber_units hc δ _ _
              | crossEntropy ε => exact absurd hl (by simp [LossKind.Regression])
              | lool => exact absurd hraw (by simp [LossKind.raw])
              | loolUnscaled => exact absurd hraw (by simp [LossKind.raw])
              | looph δ => exact absurd hraw (by simp [LossKind.raw])
            · rfl
          rw [hr]
          cases l.runRaw μ d.targets with
          | error e => rfl
          | ok x =>
            simp only [Except.map, Option.map_some, LossKind.unitFactor, LossKind.unitShift, hraw, if_true]
            congr 2
            ring
      | false =>
        unfold predictAndLoss
        have hraw' : (l.inUnits c).raw = false := by cases l <;> first | exact hraw | rfl
        simp only [hraw, hraw', Bool.false_eq_true, if_false, bind, Except.bind, maskColumns, maskVariances, pure, Except.pure]
        rw [hm]
        cases L.trainee.R.gp.optMean Kin Kc d.nnTargets ((Dict.get? kw "noise").map Flt.toReal) with
        | error e => rfl
        | ok μ =>
          simp only [Except.map]
          rw [show (L.inUnits c).trainee.scaleKind = L.scaleKind from rfl, show L.trainee.scaleKind = L.scaleKind from rfl,
            show (d.inUnits c).nnTargets = inUnits c d.nnTargets from rfl, scaleOptFn_units hc _ hk]
          obtain ⟨hs, hV⟩ := hu hraw Kin Kc hKin hKc
          cases hse : scaleOptFn L.scaleKind L.trainee.R.gp draws Kin d.nnTargets kw with
          | error e => rfl
          | ok o =>
            simp only [Except.map]
            rw [show (L.inUnits c).trainee.R.gp.optVariance Kin Kc ((Dict.get? kw "noise").map Flt.toReal) =
              L.trainee.R.gp.optVariance Kin Kc ((Dict.get? kw "noise").map Flt.toReal) from rfl]
            cases hVe : L.trainee.R.gp.optVariance Kin Kc ((Dict.get? kw "noise").map Flt.toReal) with
            | error e => rfl
            | ok V =>
              simp only
              have hsh := hn hraw
              have hv0 : ∀ x ∈ entries V, x ≠ 0 := by
                intro x hx
                obtain ⟨i, hi, rfl⟩ := List.mem_map.mp hx
                exact hV V hVe i (List.mem_range.mp hi)
              have hr : (l.inUnits c).runVar (inUnits c μ) (d.inUnits c).targets V (o.map (c ^ 2 * ·)) =
                  (l.runVar μ d.targets V o).map (Option.map (· + n * Real.log (c ^ 2))) := by
                have hlen : μ.shape = d.targets.shape → (entries μ).length = n := by
                  intro h
                  simp [entries, h, hsh]
                cases l with
                | mse => exact absurd hraw (by simp [LossKind.raw])
                | pseudoHuber δ => exact absurd hraw (by simp [LossKind.raw])
                | crossEntropy ε => exact absurd hl (by simp [LossKind.Regression])
                | loolUnscaled => exact absurd hl (by simp [LossKind.Regression])
                | lool =>
                  simp only [LossKind.runVar, LossKind.inUnits]
                  rw [show (inUnits c μ).shape = μ.shape from rfl, show (d.inUnits c).targets = inUnits c d.targets from rfl,
                    show (inUnits c d.targets).shape = d.targets.shape from rfl]
                  split
                  · rename_i h
                    cases o with
                    | none => rfl
                    | some s =>
                      simp only [Option.map_some, entries_units]
                      rw [lool_units hc _ _ _ s (hs s hse) hv0, hlen h.1]
                      cases Loss.lool (entries μ) (entries d.targets) (entries V) s <;> rfl
                  · split
                    · rename_i h
                      exact absurd h.2.1 (by rw [h.1, hsh]; simp)
                    · rfl
                | looph δ =>
                  simp only [LossKind.runVar, LossKind.inUnits]
                  rw [show (inUnits c μ).shape = μ.shape from rfl, show (d.inUnits c).targets = inUnits c d.targets from rfl,
                    show (inUnits c d.targets).shape = d.targets.shape from rfl]
                  split
                  · rename_i h
                    cases o with
                    | none => rfl
                    | some s =>
                      simp only [Option.map_some, entries_units]
                      rw [looph_units hc δ _ _ _ s (hs s hse) hv0, hlen h.1]
                      cases Loss.looph (entries μ) (entries d.targets) (entries V) s δ <;> rfl
                  · split
                    · rename_i h
                      exact absurd h.2.1 (by rw [h.1, hsh]; simp)
                    · rfl
              rw [hr]
              cases l.runVar μ d.targets V o with
              | error e => rfl
              | ok x =>
                cases x with
                | none => rfl
                | some x =>
                  simp only [Except.map, Option.map_some, LossKind.unitFactor, LossKind.unitShift, hraw, Bool.false_eq_true, if_false]
                  congr 2
                  ring

end MuyGPyS
