import Verif.Lemmas.Objective
import Verif.Spec.Objective
import Verif.Props.Kernel
import Verif.Props.Posterior
import Verif.Props.Scale
import Mathlib.Analysis.Complex.ExponentialBounds

/-! # C40: the optimisation objective is minus the loss of the trial model -/

namespace MuyGPyS
open Py

theorem overrideFrom_getElem (kw : Dict Flt) (ps : List Param) (i c : Nat) :
    (overrideFrom kw i ps)[c]? = ps[c]?.map fun p => p.overridden kw (vecName "length_scale" (i + c)) := by
  induction ps generalizing i c with
  | nil => simp [overrideFrom]
  | cons p ps ih =>
    cases c with
    | zero => simp [overrideFrom, vecName]
    | succ c => simp [overrideFrom, ih, Nat.add_assoc, Nat.add_comm 1]

theorem overrideFrom_length (kw : Dict Flt) (ps : List Param) (i : Nat) :
    (overrideFrom kw i ps).length = ps.length := by
  induction ps generalizing i with
  | nil => rfl
  | cons p ps ih => simp [overrideFrom, ih]

theorem aniValues_nil (ps : List Param) : aniValues ps [] = ps.map Param.val := by
  unfold aniValues
  simp only [List.filter_nil, List.map_nil, List.nil_append]
  rw [List.filter_eq_self.mpr (by intro a _; rfl), namedFrom_vals]

/-- A kernel called with trial keywords is the kernel holding the trial values. -/
theorem kernel_override (b : Flt → ℝ → ℝ) (k : KernelObj) (kw : Dict Flt) (h : k.Accepts kw) (D : Tensor ℝ) :
    k.make.call b D kw = (k.overridden kw).make.call b D [] := by
  obtain ⟨hk, hf, ha⟩ := h
  cases hd : k.deform with
  | isotropy m p => exact C10_override_partial b k (by rw [hd]; trivial) D kw hk hf
  | difference m p => exact C10_override_partial b k (by rw [hd]; trivial) D kw hk hf
  | anisotropy m ps =>
    rw [hd] at ha
    obtain ⟨hn, n, hnl, hp⟩ := ha
    have hv := aniValues_prefix ps kw hn n hnl hp
    rw [call_eq b _ (make_wellBound k) D kw hk,
      call_eq b _ (make_wellBound _) D [] (fun a ha => by simp at ha)]
    have hod : (k.overridden kw).make.deform = .anisotropy m (overrideFrom kw 0 ps) := by
      simp only [KernelObj.make, KernelObj.overridden, hd]
    have e1 : (k.make.deform).call D (k.make.deform.filter kw).1
        = ((k.overridden kw).make.deform).call D ((k.overridden kw).make.deform.filter []).1 := by
      show (k.deform).call D (k.deform.filter kw).1 = _
      rw [hod, hd]
      simp only [Deform.call, Deform.filter, filterVector_values, overrideFrom_length]
      have : aniValues ps kw = aniValues (overrideFrom kw 0 ps) [] := by
        rw [hv, aniValues_nil]
        apply List.ext_getElem?
        intro c
        rw [List.getElem?_map, List.getElem?_map, overrideFrom_getElem]
        by_cases hc : c < ps.length
        · rw [List.getElem?_range hc, List.getElem?_eq_getElem hc]
          simp [Param.overridden, inForce, List.getElem?_eq_getElem hc]
        · rw [List.getElem?_eq_none (by simpa using hc), List.getElem?_eq_none (by simpa using hc)]
          rfl
      rw [this]
    have e2 : k.make.smoothInForce kw = (k.overridden kw).make.smoothInForce [] := by
      unfold KernelObj.smoothInForce
      simp only [KernelObj.make, KernelObj.overridden]
      cases k.smoothness with
      | none => rfl
      | some p => simp [Param.overridden, inForce, get?_nil]
    have e3 : k.make.fn = (k.overridden kw).make.fn := by
      simp only [KernelObj.make, KernelObj.overridden]
      cases h : k.smoothness with
      | none => rfl
      | some p =>
        simp only [Option.map_some]
        rcases hf p h with h' | h'
        · simp [setMaternFn, Param.overridden, h']
        · simp only [Param.overridden, inForce, h', Option.getD_none]
    rw [e1, e2, e3]

theorem get?_cons_ne {kw : Dict Flt} {a : String × Flt} {n : String} (h : a.1 ≠ n) :
    Dict.get? (a :: kw) n = Dict.get? kw n := by
  unfold Dict.get?
  rw [List.find?_cons_of_neg (by simpa using h)]

/-- The extra `batch_features` keyword does not matter. -/
theorem batch_features_ignored (b : Flt → ℝ → ℝ) (k : KernelObj) (kw : Dict Flt) (hk : Unreserved kw) (D : Tensor ℝ) :
    k.make.optFn b D (("batch_features", none) :: kw) = k.make.call b D kw := by
  have hk' : Unreserved (("batch_features", none) :: kw) := by
    intro a ha
    rcases List.mem_cons.mp ha with rfl | ha
    · refine ⟨?_, ?_, ?_, ?_⟩ <;> decide
    · exact hk a ha
  have hc : k.make.optFn b D (("batch_features", none) :: kw) = k.make.call b D (("batch_features", none) :: kw) := by
    unfold KernelObj.call
    rw [Dict.has_false fun a ha => (hk' a ha).2.1]
    simp
  rw [hc, call_eq b _ (make_wellBound k) D _ hk', call_eq b _ (make_wellBound k) D _ hk]
  have e1 : k.make.smoothInForce (("batch_features", none) :: kw) = k.make.smoothInForce kw := by
    unfold KernelObj.smoothInForce inForce
    cases k.make.smoothness with
    | none => rfl
    | some p => simp only; rw [get?_cons_ne (by decide)]
  have e2 : k.make.deform.call D (k.make.deform.filter (("batch_features", none) :: kw)).1 =
      k.make.deform.call D (k.make.deform.filter kw).1 := by
    cases k.make.deform with
    | isotropy m p =>
      simp only [Deform.call, Deform.filter, filterScalar_get]
      unfold inForce; rw [get?_cons_ne (by decide)]
    | difference m p =>
      simp only [Deform.call, Deform.filter, filterScalar_get]
      unfold inForce; rw [get?_cons_ne (by decide)]
    | anisotropy m ps =>
      simp only [Deform.call, Deform.filter]
      have : filterVector ps (("batch_features", none) :: kw) = ((filterVector ps kw).1, ("batch_features", none) :: (filterVector ps kw).2) := by
        unfold filterVector
        rw [List.filter_cons_of_neg (by decide), List.filter_cons_of_pos (by decide)]
      rw [this]
  rw [e1, e2]

theorem perturb_trial (ν : Noise) (kw : Dict Flt) (Kin : Tensor ℝ) :
    ν.perturb Kin ((Dict.get? kw "noise").map Flt.toReal) = (ν.trial kw).perturb Kin := by
  cases ν <;> rfl

theorem perturbFn_trial {β : Type} (ν : Noise) (kw : Dict Flt) (f : Tensor ℝ → Res β) (Kin : Tensor ℝ) :
    ν.perturbFn f Kin ((Dict.get? kw "noise").map Flt.toReal) = (ν.trial kw).perturbFn f Kin := by
  unfold Noise.perturbFn
  rw [perturb_trial]

theorem runRaw_eq (l : LossKind) (μ t : Tensor ℝ) : l.runRaw μ t = l.ofMeans μ t := by
  have key : ∀ b r, (matRows b r μ).zip (matRows b r t) = (List.range b).map fun i =>
      ((List.range r).map fun j => μ.get [i, j], (List.range r).map fun j => t.get [i, j]) := by
    intro b r
    unfold matRows
    rw [List.zip_map']
  unfold LossKind.runRaw LossKind.ofMeans
  simp only [key]
  rfl

theorem maskColumns_eq (mask : Option (List Nat)) (μ : Tensor ℝ) : maskColumns mask μ = pickOutputs mask μ := by
  unfold maskColumns pickOutputs
  cases mask with
  | none => rfl
  | some m =>
    obtain ⟨s, d⟩ := μ
    rcases s with _ | ⟨b, _ | ⟨r, _ | ⟨c, l⟩⟩⟩ <;> try rfl
    show (if ∀ c ∈ m, c < r then _ else _) = (if ∃ c ∈ m, r ≤ c then _ else _)
    by_cases h : ∀ c ∈ m, c < r
    · rw [if_pos h, if_neg (by rintro ⟨c, hc, hr⟩; exact absurd (h c hc) (by omega))]
    · rw [if_neg h, if_pos (by
        obtain ⟨c, hc⟩ := not_forall.mp h
        obtain ⟨hm, hr⟩ := Classical.not_imp.mp hc
        exact ⟨c, hm, by omega⟩)]

/-- C40 for the mean-only losses (cross entropy, mean squared error, pseudo-Huber): for every trial
hyperparameters, data and output selection, the objective is minus the loss of the predictions of the
model holding the trial hyperparameters (errors included). -/
theorem C40_raw (b : Flt → ℝ → ℝ) (T : Trainee) (hm : T.R.kernel.make = T.R.kernel) (l : LossKind) (hl : l.raw = true)
    (mask : Option (List Nat)) (draws : List (List Nat)) (P C Y t : Tensor ℝ) (kw : Dict Flt)
    (hk : T.R.kernel.Accepts kw) :
    objFn b T l mask draws P C Y t kw = promisedRaw b (T.trial kw) l mask P C Y t := by
  unfold objFn promisedRaw predictAndLoss
  simp only [← runRaw_eq, ← maskColumns_eq]
  have h1 : ∀ D, T.R.kernel.optFn b D (("batch_features", none) :: kw) = (T.trial kw).R.kernel.call b D [] := by
    intro D
    conv_lhs => rw [← hm]
    rw [batch_features_ignored b _ kw hk.1, kernel_override b _ kw hk]
    rfl
  rw [h1, h1]
  congr 1; funext Kin
  congr 1; funext Kc
  rw [if_pos hl]
  unfold MuyGPS.optMean MuyGPS.posteriorMean
  rw [perturbFn_trial]
  rfl

theorem entries_map {α β : Type} (t : Tensor α) (f : α → β) : entries (t.map f) = (entries t).map f := by
  unfold entries Tensor.map
  simp

/-- The noise level the scale estimate uses is the trial one. -/
def ScaleSeesTrialNoise (T : Trainee) (kw : Dict Flt) : Prop :=
  T.scaleKind = .fixed ∨ T.R.gp.noise.trial kw = T.R.gp.noise

theorem scale_trial (T : Trainee) (kw : Dict Flt) (h : ScaleSeesTrialNoise T kw) (draws : List (List Nat))
    (Kin Y : Tensor ℝ) :
    scaleOptFn T.scaleKind T.R.gp draws Kin Y kw =
      scaleOptFn (T.trial kw).scaleKind (T.trial kw).R.gp draws Kin Y [] := by
  have hk : (T.trial kw).scaleKind = T.scaleKind := rfl
  rw [hk]
  rcases h with h | h
  · rw [h]; rfl
  · have : (T.trial kw).R.gp = T.R.gp := by
      show ({ T.R.gp with noise := T.R.gp.noise.trial kw } : MuyGPS) = _
      rw [h]
    rw [this]; rfl

theorem zipWith_map_range {β : Type} (n : Nat) (f g h : Nat → ℝ) (F : ℝ × ℝ → ℝ → β) :
    List.zipWith F (((List.range n).map f).zip ((List.range n).map g)) ((List.range n).map h) =
      (List.range n).map fun i => F (f i, g i) (h i) := by
  apply List.ext_getElem
  · simp
  · intro i h1 h2
    simp

theorem get_one (t : Tensor ℝ) (n i : Nat) (h : t.shape = [n]) : t.get [i] = t.flat i := by
  unfold Tensor.get
  rw [h]
  simp [Tensor.ravel]

theorem ofVariances_lool (μ t v : Tensor ℝ) (n : Nat) (h1 : μ.shape = [n]) (h2 : t.shape = [n]) (h3 : v.shape = [n]) :
    LossKind.lool.ofVariances μ t v = Loss.loolUnscaled (entries μ) (entries t) (entries v) := by
  obtain ⟨ms, mf⟩ := μ
  obtain ⟨ts, tf⟩ := t
  obtain ⟨vs, vf⟩ := v
  simp only at h1 h2 h3
  subst h1 h2 h3
  simp only [LossKind.ofVariances, LossKind.term, and_self, if_true, Loss.loolUnscaled, entries, List.prod_singleton, List.length_map,
    List.length_range, zipWith_map_range, Tensor.get, Tensor.ravel, Loss.loolTerm, List.prod_nil, Nat.mul_one, Nat.add_zero]
  rfl

/-- A variance loss of vectors is the sum of the contributions of the points. -/
theorem runVar_vector (l : LossKind) (hl : l.raw = false) (hu : l ≠ .loolUnscaled) (μ t v : Tensor ℝ) (s : ℝ)
    (ht : t.shape.length = 1) (x : ℝ) :
    l.runVar μ t v (some s) = .ok (some x) ↔ l.ofVariances μ t (v.map fun x => s * x) = .ok x := by
  obtain ⟨ms, mf⟩ := μ
  obtain ⟨ts, tf⟩ := t
  obtain ⟨vs, vf⟩ := v
  obtain ⟨n, rfl⟩ : ∃ n, ts = [n] := List.length_eq_one_iff.mp ht
  by_cases hm : ms = [n]
  · subst hm
    by_cases hv : vs = [n]
    · subst hv
      cases l with
      | lool =>
        simp only [LossKind.runVar, LossKind.ofVariances, LossKind.term, Tensor.map, and_self, if_true, List.length_singleton,
          Loss.lool, Loss.loolUnscaled, entries, List.prod_singleton, List.map_map, List.length_map, List.length_range,
          zipWith_map_range, bind, Except.bind, pure, Except.pure, Tensor.get, Tensor.ravel, Loss.loolTerm, Except.ok.injEq,
          Option.some.injEq, List.prod_nil, Nat.mul_one, Nat.add_zero, Function.comp_def]
        rfl
      | looph δ =>
        simp only [LossKind.runVar, LossKind.ofVariances, LossKind.term, Tensor.map, and_self, if_true, List.length_singleton,
          Loss.looph, Loss.loophUnscaled, entries, List.prod_singleton, List.map_map, List.length_map, List.length_range,
          zipWith_map_range, bind, Except.bind, pure, Except.pure, Tensor.get, Tensor.ravel, Loss.loophTerm, Except.ok.injEq,
          Option.some.injEq, List.prod_nil, Nat.mul_one, Nat.add_zero, Function.comp_def]
        rfl
      | loolUnscaled => exact absurd rfl hu
      | mse => simp [LossKind.raw] at hl
      | crossEntropy ε => simp [LossKind.raw] at hl
      | pseudoHuber δ => simp [LossKind.raw] at hl
    · have h1 : l.runVar ⟨[n], mf⟩ ⟨[n], tf⟩ ⟨vs, vf⟩ (some s) ≠ .ok (some x) := by
        cases l <;> simp [LossKind.runVar, Ne.symm hv]
      have h2 : l.ofVariances ⟨[n], mf⟩ ⟨[n], tf⟩ (Tensor.map (fun x => s * x) ⟨vs, vf⟩) ≠ .ok x := by
        unfold LossKind.ofVariances
        cases l.term with
        | none => simp
        | some term =>
          simp only [Tensor.map]
          rcases vs with _ | ⟨a, _ | ⟨c, vs⟩⟩ <;> simp
          intro h
          rw [if_neg (fun e => hv (by rw [e]))] at h
          cases h
      exact ⟨fun h => absurd h h1, fun h => absurd h h2⟩
  · have h1 : l.runVar ⟨ms, mf⟩ ⟨[n], tf⟩ ⟨vs, vf⟩ (some s) ≠ .ok (some x) := by
      cases l <;> simp [LossKind.runVar, hm]
    have h2 : l.ofVariances ⟨ms, mf⟩ ⟨[n], tf⟩ (Tensor.map (fun x => s * x) ⟨vs, vf⟩) ≠ .ok x := by
      unfold LossKind.ofVariances
      cases l.term with
      | none => simp
      | some term =>
        simp only [Tensor.map]
        rcases ms with _ | ⟨a, _ | ⟨c, _ | ⟨d, ms⟩⟩⟩ <;> rcases vs with _ | ⟨a', _ | ⟨c', vs⟩⟩ <;> simp
        intro h
        rw [if_neg (fun e => hm (by rw [e.1]))] at h
        cases h
    exact ⟨fun h => absurd h h1, fun h => absurd h h2⟩

/-- C40 for the variance losses (`lool_fn`, `looph_fn`): whenever the scale estimate sees the trial noise
(fixed scale, or noise not among the optimised hyperparameters), the objective has the value `x`
exactly when minus the loss of the model holding the trial hyperparameters, after it has estimated its
variance scale, has the value `x`. Partial: `C40_analytic_noise_fails` shows what happens otherwise. -/
theorem C40_variance_partial (b : Flt → ℝ → ℝ) (T : Trainee) (hm : T.R.kernel.make = T.R.kernel) (l : LossKind)
    (hl : l.raw = false) (draws : List (List Nat)) (P C Y t : Tensor ℝ) (kw : Dict Flt)
    (hk : T.R.kernel.Accepts kw) (hs : ScaleSeesTrialNoise T kw) (hu : l ≠ .loolUnscaled) (ht : t.shape.length = 1) (x : ℝ) :
    objFn b T l none draws P C Y t kw = .ok (some x) ↔
      promisedVar b (T.trial kw) l draws P C Y t = .ok (some x) := by
  unfold objFn promisedVar predictAndLoss
  simp only [← scaleOptFn_eq (T.trial kw) draws _ _ []]
  have h1 : ∀ D, T.R.kernel.optFn b D (("batch_features", none) :: kw) = (T.trial kw).R.kernel.call b D [] := by
    intro D
    conv_lhs => rw [← hm]
    rw [batch_features_ignored b _ kw hk.1, kernel_override b _ kw hk]
    rfl
  rw [h1, h1]
  have hnr : ¬ (l.raw = true) := by rw [hl]; simp
  simp only [if_neg hnr, scale_trial T kw hs, MuyGPS.optMean, MuyGPS.optVariance, MuyGPS.posteriorVariance,
    MuyGPS.posteriorMean, perturbFn_trial, maskColumns, maskVariances]
  cases (T.trial kw).R.kernel.call b P [] with
  | error e => simp [bind, Except.bind]
  | ok Kin =>
  cases (T.trial kw).R.kernel.call b C [] with
  | error e => simp [bind, Except.bind]
  | ok Kc =>
  simp only [bind, Except.bind]
  have hn : (T.trial kw).R.gp.noise = T.R.gp.noise.trial kw := rfl
  have hko : (T.trial kw).R.gp.kout = T.R.gp.kout := rfl
  rw [hn, hko]
  cases (T.R.gp.noise.trial kw).perturbFn (fun K => posteriorMean K Kc Y) Kin with
  | error e => simp
  | ok μ =>
  cases scaleOptFn (T.trial kw).scaleKind (T.trial kw).R.gp draws Kin Y [] with
  | error e => simp
  | ok σ =>
  cases (T.R.gp.noise.trial kw).perturbFn (fun K => diagonalVariance K Kc T.R.gp.kout) Kin with
  | error e => cases σ <;> simp [pure, Except.pure]
  | ok v =>
  simp only [pure, Except.pure]
  cases σ with
  | none =>
    cases l with
    | lool => simp only [LossKind.runVar]; split_ifs <;> simp
    | looph δ => simp only [LossKind.runVar]; split_ifs <;> simp
    | loolUnscaled => exact absurd rfl hu
    | mse => simp [LossKind.raw] at hl
    | crossEntropy ε => simp [LossKind.raw] at hl
    | pseudoHuber δ => simp [LossKind.raw] at hl
  | some s =>
    have key := runVar_vector l hl hu μ t v s ht (-x)
    simp only
    cases hr : l.runVar μ t v (some s) with
    | error e =>
      rw [hr] at key
      cases ho : l.ofVariances μ t (v.map fun x => s * x) with
      | error e => simp
      | ok a =>
        rw [ho] at key
        simp only [reduceCtorEq, Except.ok.injEq, false_iff, Option.some.injEq] at key ⊢
        exact fun h => key (by linarith)
    | ok r =>
      rw [hr] at key
      cases ho : l.ofVariances μ t (v.map fun x => s * x) with
      | error e =>
        rw [ho] at key
        cases r with
        | none => simp
        | some r =>
          simp only [reduceCtorEq, Except.ok.injEq, iff_false, Option.some.injEq, Option.map_some] at key ⊢
          exact fun h => key (by linarith)
      | ok a =>
        rw [ho] at key
        cases r with
        | none =>
          simp only [reduceCtorEq, Except.ok.injEq, false_iff, Option.some.injEq, Option.map_none] at key ⊢
          exact fun h => key (by linarith)
        | some r =>
          simp only [Except.ok.injEq, Option.some.injEq, Option.map_some] at key ⊢
          constructor
          · intro h; have := key.mp (by linarith); linarith
          · intro h; have := key.mpr (by linarith); linarith

theorem sum_grid (a c : Nat) (g : Nat → ℝ) (F : Nat → Nat → ℝ) (h : ∀ i < a, ∀ j < c, g (i * c + j) = F i j) :
    ((List.range (a * c)).map g).sum = ∑ i ∈ Finset.range a, ∑ j ∈ Finset.range c, F i j := by
  have h0 : ((List.range (a * c)).map g).sum = ∑ k ∈ Finset.range (a * c), g k := rfl
  rw [h0]
  clear h0
  induction a with
  | zero => simp
  | succ a ih =>
    rw [Finset.sum_range_succ, ← ih (fun i hi j hj => h i (by omega) j hj), Nat.succ_mul, Finset.sum_range_add]
    congr 1
    exact Finset.sum_congr rfl fun j hj => h a (by omega) j (Finset.mem_range.mp hj)

theorem broadcastSum_eq (term : ℝ → ℝ → ℝ) (d var : Tensor ℝ) (b r n c : Nat) (hd : d.shape = [b, r]) (hv : var.shape = [n])
    (hc : Tensor.bcAxis r n = some c) :
    broadcastSum term d var = .ok (∑ i ∈ Finset.range b, ∑ j ∈ Finset.range c,
      term (d.get [i, if r = 1 then 0 else j]) (var.get [if n = 1 then 0 else j])) := by
  obtain ⟨ds, df⟩ := d
  obtain ⟨vs, vf⟩ := var
  simp only at hd hv
  subst hd hv
  have hb : Tensor.bcAxis b 1 = some b := by unfold Tensor.bcAxis; by_cases h : b = 1 <;> simp [h]
  obtain ⟨t, t1, t2, t3⟩ := Tensor.bop_get term (⟨[b, r], df⟩ : Tensor ℝ) (⟨[1, n], vf⟩ : Tensor ℝ) [b, c]
    (by simp [Tensor.bcShape, hb, hc])
  unfold broadcastSum
  rw [t1]
  simp only [bind, Except.bind, pure, Except.pure, Except.ok.injEq, entries]
  rw [t2]
  have hp : ([b, c] : List Nat).prod = b * c := by simp
  rw [hp]
  refine sum_grid b c _ _ fun i hi j hj => ?_
  have h1 := t3 [i, j] (.cons hi (.cons hj .nil))
  obtain ⟨tsh, tf⟩ := t
  simp only at t2
  subst t2
  have h2 : (⟨[b, c], tf⟩ : Tensor ℝ).get [i, j] = tf (i * c + j) := by simp [Tensor.get, Tensor.ravel]
  rw [h2] at h1
  refine h1.trans ?_
  congr 1
  · simp only [Tensor.clipIdx, List.zipWith_cons_cons, List.zipWith_nil_left]
    by_cases hb1 : b = 1
    · subst hb1
      have : i = 0 := by omega
      subst this
      simp
    · rw [if_neg hb1]
  · simp [Tensor.clipIdx, Tensor.get, Tensor.ravel]

/-- **C40 fails of the code** for responses given as a matrix (the documented layout `(train_count, response_count)`) and
the variance losses: with a single column every prediction is compared with its target using the variance of *every*
batch point; with as many responses as batch points, response `j` of a point is given the variance of point `j`; with any
other number the loss raises. (The promised value is `LossKind.ofVariances`.) -/
theorem C40_response_matrix_fails (l : LossKind) (term : ℝ → ℝ → ℝ → ℝ) (ht : l.term = some term) (b r : Nat) (s : ℝ) (μ t v : Tensor ℝ)
    (hμ : μ.shape = [b, r]) (htt : t.shape = [b, r]) (hv : v.shape = [b]) :
    (r = 1 → l.runVar μ t v (some s) =
      .ok (some (∑ i ∈ Finset.range b, ∑ j ∈ Finset.range b, term (μ.get [i, 0]) (t.get [i, 0]) (s * v.get [j])))) ∧
    (r = b → l.runVar μ t v (some s) =
      .ok (some (∑ i ∈ Finset.range b, ∑ j ∈ Finset.range b, term (μ.get [i, j]) (t.get [i, j]) (s * v.get [j])))) ∧
    (r ≠ 1 → r ≠ b → b ≠ 1 → l.runVar μ t v (some s) = .error .value) := by
  have hd : Tensor.zipWith (fun p t => p - t) μ t = .ok ⟨μ.shape, fun k => μ.flat k - t.flat k⟩ := by
    unfold Tensor.zipWith
    rw [if_pos (by rw [hμ, htt])]
  have hget : ∀ i j, (⟨μ.shape, fun k => μ.flat k - t.flat k⟩ : Tensor ℝ).get [i, j] = μ.get [i, j] - t.get [i, j] := by
    intro i j
    unfold Tensor.get
    simp only [hμ, htt]
  have hrun : ∃ g : ℝ → ℝ → ℝ, (∀ p t v, g (p - t) v = term p t (s * v)) ∧
      l.runVar μ t v (some s) = (do
        let x ← broadcastSum g ⟨μ.shape, fun k => μ.flat k - t.flat k⟩ v
        return some x) := by
    cases l with
    | lool =>
      simp only [LossKind.term, Option.some.injEq] at ht
      subst ht
      refine ⟨fun d v => Loss.loolTerm d 0 (s * v), fun p t v => by simp [Loss.loolTerm], ?_⟩
      simp only [LossKind.runVar]
      rw [if_neg (by rw [hμ]; simp), if_pos ⟨by rw [hμ, htt], by rw [hμ]; rfl, by rw [hv]; rfl⟩, hd]
      rfl
    | looph δ =>
      simp only [LossKind.term, Option.some.injEq] at ht
      subst ht
      refine ⟨fun d v => Loss.loophTerm d 0 (s * v) δ, fun p t v => by
        simp only [Loss.loophTerm]
        rw [show (0 - (p - t)) ^ 2 = (t - p) ^ 2 by ring], ?_⟩
      simp only [LossKind.runVar]
      rw [if_neg (by rw [hμ]; simp), if_pos ⟨by rw [hμ, htt], by rw [hμ]; rfl, by rw [hv]; rfl⟩, hd]
      rfl
    | loolUnscaled => simp [LossKind.term] at ht
    | mse => simp [LossKind.term] at ht
    | crossEntropy ε => simp [LossKind.term] at ht
    | pseudoHuber δ => simp [LossKind.term] at ht
  obtain ⟨g, g1, g2⟩ := hrun
  rw [g2]
  refine ⟨?_, ?_, ?_⟩
  · rintro rfl
    rw [broadcastSum_eq g ⟨μ.shape, fun k => μ.flat k - t.flat k⟩ v b 1 b b hμ hv (by unfold Tensor.bcAxis; by_cases h : 1 = b <;> simp [h])]
    simp only [bind, Except.bind, pure, Except.pure, if_true, hget, g1, Except.ok.injEq, Option.some.injEq]
    refine Finset.sum_congr rfl fun i _ => Finset.sum_congr rfl fun j hj => ?_
    by_cases hb : b = 1
    · have : j = 0 := by have := Finset.mem_range.mp hj; omega
      rw [this]; simp
    · rw [if_neg hb]
  · rintro rfl
    rw [broadcastSum_eq g ⟨μ.shape, fun k => μ.flat k - t.flat k⟩ v r r r r hμ hv (by simp [Tensor.bcAxis])]
    simp only [bind, Except.bind, pure, Except.pure, hget, g1, Except.ok.injEq, Option.some.injEq]
    refine Finset.sum_congr rfl fun i _ => Finset.sum_congr rfl fun j hj => ?_
    by_cases hb : r = 1
    · have : j = 0 := by have := Finset.mem_range.mp hj; omega
      rw [this]; simp
    · rw [if_neg hb]
  · intro h1 h2 h3
    have : Tensor.bcAxis r b = none := by simp [Tensor.bcAxis, h1, h2, h3]
    unfold broadcastSum Tensor.bop
    simp [hμ, hv, Tensor.bcShape, this, bind, Except.bind]

/-- The consequence: the objective can prefer the worse of two models. Two batch points with residuals 0 and 2; model A has
variances 1 and 4, model B has variances 4 and 4. As promised (and with responses given as a vector) A has the smaller
`lool` loss; with the same responses given as a column B has. -/
theorem C40_response_column_ranking_fails :
    let μ : Tensor ℝ := ⟨[2], fun _ => 0⟩
    let t : Tensor ℝ := ⟨[2], fun k => if k = 0 then 0 else 2⟩
    let vA : Tensor ℝ := ⟨[2], fun k => if k = 0 then 1 else 4⟩
    let vB : Tensor ℝ := ⟨[2], fun _ => 4⟩
    let μ' : Tensor ℝ := ⟨[2, 1], μ.flat⟩
    let t' : Tensor ℝ := ⟨[2, 1], t.flat⟩
    ∃ a b a' b' : ℝ, LossKind.lool.runVar μ t vA (some 1) = .ok (some a) ∧ LossKind.lool.runVar μ t vB (some 1) = .ok (some b) ∧
      LossKind.lool.ofVariances μ' t' vA = .ok a ∧ LossKind.lool.ofVariances μ' t' vB = .ok b ∧
      LossKind.lool.runVar μ' t' vA (some 1) = .ok (some a') ∧ LossKind.lool.runVar μ' t' vB (some 1) = .ok (some b') ∧
      a < b ∧ b' < a' := by
  intro μ t vA vB μ' t'
  have h4 : Real.log 4 = 2 * Real.log 2 := by
    rw [show (4:ℝ) = 2 ^ 2 by norm_num, Real.log_pow]; norm_num
  refine ⟨1 + Real.log 4, 1 + 2 * Real.log 4, 5 + 2 * Real.log 4, 2 + 4 * Real.log 4, ?_, ?_, ?_, ?_, ?_, ?_, ?_, ?_⟩
  · rw [runVar_vector .lool rfl (by simp) _ _ _ _ rfl]
    simp [LossKind.ofVariances, LossKind.term, μ, t, vA, Tensor.map, Tensor.get, Tensor.ravel, Finset.sum_range_succ]
    norm_num
  · rw [runVar_vector .lool rfl (by simp) _ _ _ _ rfl]
    simp [LossKind.ofVariances, LossKind.term, μ, t, vB, Tensor.map, Tensor.get, Tensor.ravel, Finset.sum_range_succ]
    ring
  · simp [LossKind.ofVariances, LossKind.term, μ, t, vA, μ', t', Tensor.get, Tensor.ravel, Finset.sum_range_succ]
    norm_num
  · simp [LossKind.ofVariances, LossKind.term, μ, t, vB, μ', t', Tensor.get, Tensor.ravel, Finset.sum_range_succ]
    ring
  · rw [(C40_response_matrix_fails .lool _ rfl 2 1 1 μ' t' vA rfl rfl rfl).1 rfl]
    simp [μ, t, vA, μ', t', Tensor.get, Tensor.ravel, Finset.sum_range_succ]
    ring
  · rw [(C40_response_matrix_fails .lool _ rfl 2 1 1 μ' t' vB rfl rfl rfl).1 rfl]
    simp [μ, t, vB, μ', t', Tensor.get, Tensor.ravel, Finset.sum_range_succ]
    ring
  · have : 0 < Real.log 4 := Real.log_pos (by norm_num)
    linarith
  · have := Real.log_two_lt_d9
    rw [h4]
    linarith

/-- `lool_fn_unscaled` cannot be used as an optimisation objective: every evaluation whose predictions
succeed raises `TypeError`, and no evaluation succeeds. -/
theorem C40_unscaled_lool_fails (b : Flt → ℝ → ℝ) (T : Trainee) (mask : Option (List Nat)) (draws : List (List Nat))
    (P C Y t : Tensor ℝ) (kw : Dict Flt) (r : Option ℝ) : objFn b T .loolUnscaled mask draws P C Y t kw ≠ .ok r := by
  unfold objFn predictAndLoss
  simp only [LossKind.raw, Bool.false_eq_true, if_false, LossKind.runVar, bind, Except.bind]
  intro h
  split at h
  · cases h
  · split at h
    · cases h
    · repeat' split at h
      all_goals cases h

theorem inv_smul_one {n : Nat} {c : ℝ} (hc : c ≠ 0) :
    (c • (1 : Matrix (Fin n) (Fin n) ℝ))⁻¹ = c⁻¹ • 1 := by
  apply Matrix.inv_eq_right_inv
  rw [Matrix.smul_mul, Matrix.mul_smul, Matrix.mul_one, smul_smul, mul_inv_cancel₀ hc, one_smul]

/-- An RBF model on squared distances with unit length scale, noise level `τ` and analytic scale. -/
noncomputable def noisyModel (τ : ℝ) : Trainee :=
  ⟨⟨⟨.isotropy .F2 ⟨Flt.fin 1, Flt.fin 0, Flt.fin 0, true⟩, none, .rbf⟩, MuyGPS.make (.homoscedastic τ) KernelObj.kout 1⟩,
    .analytic 1⟩

theorem noisy_kernel (b : Flt → ℝ → ℝ) (τ : ℝ) (s : List Nat) (kw : Dict Flt) (hk : Unreserved kw)
    (hl : Dict.get? kw "length_scale" = none) :
    (noisyModel τ).R.kernel.call b ⟨s, fun _ => 0⟩ kw = .ok ⟨s, fun _ => 1⟩ := by
  have hm : (noisyModel τ).R.kernel.make = (noisyModel τ).R.kernel := rfl
  rw [← hm, call_eq b _ (make_wellBound _) _ kw hk]
  have hd : (noisyModel τ).R.kernel.make.deform = .isotropy .F2 ⟨Flt.fin 1, Flt.fin 0, Flt.fin 0, true⟩ := rfl
  rw [hd]
  simp only [Deform.call, Deform.filter, filterScalar_get, inForce, hl, Tensor.map, Metric.scaleBy, KernelObj.make,
    noisyModel, KFn.value]
  simp

theorem posteriorVariance_rescaled (gp : MuyGPS) (K Kc w : Tensor ℝ) (σ : ℝ) (h : gp.optVariance K Kc = .ok w) :
    ({ gp with scale := σ, boundScale := σ } : MuyGPS).posteriorVariance K Kc = .ok (w.map fun x => σ * x) := by
  have h' : ({ gp with scale := σ, boundScale := σ } : MuyGPS).optVariance K Kc = .ok w := h
  unfold MuyGPS.posteriorVariance
  rw [h']
  rfl

set_option maxHeartbeats 1000000 in
/-- C40 is false when noise is optimised together with an analytically estimated variance scale: the
scale is estimated with the *stored* noise instead of the trial noise. For one neighbour at distance
zero, stored noise `τ₀` and trial noise `τ` the objective is `-log (v / (1 + τ₀))` where the trial model
has `-log (v / (1 + τ))`, `v = τ / (1 + τ)`. -/
theorem C40_analytic_noise_fails (b : Flt → ℝ → ℝ) (τ₀ τ : ℝ) (h0 : 0 < τ₀) (h1 : 0 < τ) (hne : τ ≠ τ₀)
    (draws : List (List Nat)) :
    let P : Tensor ℝ := ⟨[1, 1, 1], fun _ => 0⟩
    let C : Tensor ℝ := ⟨[1, 1], fun _ => 0⟩
    let Y : Tensor ℝ := ⟨[1, 1], fun _ => 1⟩
    let t : Tensor ℝ := ⟨[1], fun _ => 1 / (1 + τ)⟩
    let kw : Dict Flt := [("noise", Flt.fin τ)]
    objFn b (noisyModel τ₀) .lool none draws P C Y t kw = .ok (some (-Real.log (τ / (1 + τ) / (1 + τ₀)))) ∧
    promisedVar b ((noisyModel τ₀).trial kw) .lool draws P C Y t = .ok (some (-Real.log (τ / (1 + τ) / (1 + τ)))) ∧
    Real.log (τ / (1 + τ) / (1 + τ₀)) ≠ Real.log (τ / (1 + τ) / (1 + τ)) := by
  intro P C Y t kw
  have hu : Unreserved kw := by
    intro a ha
    simp only [kw, List.mem_singleton] at ha
    subst ha
    refine ⟨?_, ?_, ?_, ?_⟩ <;> simp
  have hkn : (Dict.get? kw "noise").map Flt.toReal = some τ := by
    simp [kw, Dict.get?, Flt.toReal, Flt.fin]
  have htr : (noisyModel τ₀).trial kw = noisyModel τ := by
    unfold Trainee.trial noisyModel
    simp only [Noise.trial, MuyGPS.make, hkn, Option.getD_some]
    rfl
  let K : Tensor ℝ := ⟨[1, 1, 1], fun _ => 1⟩
  let Kc : Tensor ℝ := ⟨[1, 1], fun _ => 1⟩
  have hcov : ∀ p, Spec.cov 1 K p = 1 := by
    intro p; ext i j
    rw [Subsingleton.elim i j, Matrix.one_apply_eq]; rfl
  have hmat : ∀ σ : ℝ, ∀ p, Spec.cov 1 K p + (Noise.homoscedastic σ).mat 1 p = (1 + σ) • 1 := by
    intro σ p; rw [hcov]; show 1 + σ • 1 = _; rw [add_smul, one_smul]
  have hdet : ∀ σ : ℝ, 0 < σ → ∀ p < 1, (Spec.cov 1 K p + (Noise.homoscedastic σ).mat 1 p).det ≠ 0 := by
    intro σ hσ p _; rw [hmat]; simp; linarith
  have hsym : ∀ p < 1, (Spec.cov 1 K p).transpose = Spec.cov 1 K p := by
    intro p _; rw [hcov, Matrix.transpose_one]
  -- the estimated scale with noise σ
  have hscale : ∀ σ : ℝ, 0 < σ → analyticOpt (.homoscedastic σ) 1 K Y = .ok (1 / (1 + σ)) := by
    intro σ hσ
    rw [(C33_documented_formula (.homoscedastic σ) 1 1 trivial K Y rfl rfl).1 (hdet σ hσ)]
    congr 1
    have : (1 + σ) ≠ 0 := by linarith
    simp only [Spec.scaleEstimate, hmat, Spec.quadForm, inv_smul_one this, Matrix.smul_mulVec, Matrix.one_mulVec]
    simp [dotProduct, Spec.vec, Y, Tensor.get]
  -- mean and unscaled variance of the trial model
  obtain ⟨μ, m1, m2, m3⟩ := C24_model_mean (noisyModel τ).R.gp 1 1 trivial K Kc Y rfl rfl rfl (hdet τ h1) hsym
  obtain ⟨v, v1, v2, v3⟩ := C24_model_variance (noisyModel τ).R.gp 1 1 trivial K Kc rfl rfl rfl (hdet τ h1) hsym
  have hτ : (1 + τ) ≠ 0 := by linarith
  have hμ : μ.flat 0 = 1 / (1 + τ) := by
    rw [← Tensor.get1 μ m2, m3 0 (by omega)]
    show Spec.krigingMean (_ + (Noise.homoscedastic τ).mat 1 0) _ _ = _
    rw [hmat]
    simp only [Spec.krigingMean, inv_smul_one hτ, Matrix.smul_mulVec, Matrix.one_mulVec]
    simp [dotProduct, Spec.vec, Y, Kc, Tensor.get]
  have hv : v.flat 0 = τ / (1 + τ) := by
    rw [← Tensor.get1 v v2, v3 0 (by omega)]
    show (1 : ℝ) * Spec.krigingVar _ (_ + (Noise.homoscedastic τ).mat 1 0) _ = _
    rw [hmat]
    simp only [Spec.krigingVar, inv_smul_one hτ, Matrix.smul_mulVec, Matrix.one_mulVec]
    have : (noisyModel τ).R.gp.kout.get [] = 1 := rfl
    rw [this]
    simp [dotProduct, Spec.vec, Kc, Tensor.get]
    field_simp
    ring
  obtain ⟨w, w1, w2, w3⟩ : ∃ w, (noisyModel τ).R.gp.optVariance K Kc = .ok w ∧ w.shape = [1] ∧ w.flat 0 = τ / (1 + τ) := by
    unfold MuyGPS.posteriorVariance at v1
    cases ho : (noisyModel τ).R.gp.optVariance K Kc with
    | error e => rw [ho] at v1; simp [bind, Except.bind] at v1
    | ok w =>
      rw [ho] at v1
      simp only [bind, Except.bind, pure, Except.pure, Except.ok.injEq] at v1
      refine ⟨w, rfl, by rw [← v2, ← v1]; rfl, ?_⟩
      rw [← hv, ← v1]
      show _ = (1 : ℝ) * w.flat 0
      rw [one_mul]
  have hop : ∀ D, (noisyModel τ₀).R.kernel.optFn b D (("batch_features", none) :: kw) =
      (noisyModel τ₀).R.kernel.call b D kw := fun D => batch_features_ignored b (noisyModel τ₀).R.kernel kw hu D
  have hlen : Dict.get? kw "length_scale" = none := by simp [kw, Dict.get?]
  have hmean : (noisyModel τ₀).R.gp.optMean K Kc Y (some τ) = .ok μ := m1
  have hvar : (noisyModel τ₀).R.gp.optVariance K Kc (some τ) = .ok w := w1
  have eμ : entries μ = [1 / (1 + τ)] := by
    unfold entries; rw [m2]; show [μ.flat 0] = _; rw [hμ]
  have ew : entries w = [τ / (1 + τ)] := by
    unfold entries; rw [w2]; show [w.flat 0] = _; rw [w3]
  have et : entries t = [1 / (1 + τ)] := rfl
  have hun : Unreserved [] := fun a ha => by simp at ha
  refine ⟨?_, ?_, ?_⟩
  · unfold objFn predictAndLoss
    rw [hop, hop, noisy_kernel b τ₀ _ kw hu hlen, noisy_kernel b τ₀ _ kw hu hlen]
    simp only [bind, Except.bind, LossKind.raw, Bool.false_eq_true, if_false, hkn]
    have e1 : (⟨[1, 1, 1], fun _ => (1 : ℝ)⟩ : Tensor ℝ) = K := rfl
    have e2 : (⟨[1, 1], fun _ => (1 : ℝ)⟩ : Tensor ℝ) = Kc := rfl
    rw [e1, e2, hmean]
    have hsc : scaleOptFn (noisyModel τ₀).scaleKind (noisyModel τ₀).R.gp draws K Y kw = .ok (some (1 / (1 + τ₀))) := by
      show (do let s ← analyticOpt (.homoscedastic τ₀) 1 K Y; return some s) = _
      rw [hscale τ₀ h0]; rfl
    simp only [hsc, hvar, maskColumns, maskVariances, LossKind.runVar]
    rw [if_pos ⟨by rw [m2], by rw [m2, w2], by rw [m2]; rfl⟩]
    simp only [Loss.lool, Loss.loolUnscaled, eμ, et, ew, List.length_singleton, List.map_singleton, and_self, if_true,
      List.zip_cons_cons, List.zip_nil_right, List.zipWith_cons_cons, List.zipWith_nil_left, List.sum_singleton,
      Loss.loolTerm, pure, Except.pure, bind, Except.bind, Option.map_some]
    congr 3
    simp
    congr 1
    field_simp
  · unfold promisedVar
    rw [htr, noisy_kernel b τ _ [] hun rfl, noisy_kernel b τ _ [] hun rfl]
    have e1 : (⟨[1, 1, 1], fun _ => (1 : ℝ)⟩ : Tensor ℝ) = K := rfl
    have e2 : (⟨[1, 1], fun _ => (1 : ℝ)⟩ : Tensor ℝ) = Kc := rfl
    simp only [bind, Except.bind]
    rw [e1, e2, m1]
    have hsc : (noisyModel τ).promisedScale draws K Y = .ok (some (1 / (1 + τ))) := by
      rw [← scaleOptFn_eq (noisyModel τ) draws K Y []]
      show (do let s ← analyticOpt (.homoscedastic τ) 1 K Y; return some s) = _
      rw [hscale τ h1]; rfl
    simp only [hsc]
    have hpv := posteriorVariance_rescaled (noisyModel τ).R.gp K Kc w (1 / (1 + τ)) w1
    rw [hpv]
    simp only [ofVariances_lool μ t (w.map fun x => 1 / (1 + τ) * x) 1 m2 rfl w2]
    simp only [entries_map, Loss.loolUnscaled, eμ, et, ew, List.length_singleton, List.map_singleton, and_self, if_true,
      List.zip_cons_cons, List.zip_nil_right, List.zipWith_cons_cons, List.zipWith_nil_left, List.sum_singleton,
      Loss.loolTerm, pure, Except.pure]
    congr 3
    simp
    congr 1
    field_simp
  · intro h
    have p1 : 0 < τ / (1 + τ) := by positivity
    have := Real.log_injOn_pos (Set.mem_Ioi.mpr (by positivity)) (Set.mem_Ioi.mpr (by positivity)) h
    rw [div_eq_div_iff (by linarith) (by linarith)] at this
    have := mul_left_cancel₀ p1.ne' this
    exact hne (by linarith)

/-- C40, the array form given to `scipy.optimize.minimize`: component `i` of the array is the value of
the `i`-th optimised hyperparameter, and the minimised function is minus the objective (the loss). -/
theorem C40_adapter (obj : Dict Flt → Res (Option ℝ)) (names : List String) (x : List Flt) (hn : names.Nodup)
    (hl : names.length ≤ x.length) :
    ∃ kw : Dict Flt, arrayObjFn obj names x = (do let v ← obj kw; return v.map fun v => -v) ∧
      kw.map Prod.fst = names ∧
      ∀ (i : Nat) n, names[i]? = some n → Dict.get? kw n = x[i]? := by
  refine ⟨names.zip x, ?_, ?_, fun i n hi => ?_⟩
  · unfold arrayObjFn
    rw [if_neg (by omega)]
  · rw [List.map_fst_zip hl]
  · have hlt : i < names.length := (List.getElem?_eq_some_iff.mp hi).1
    have hx : i < x.length := by omega
    have hmem : (n, x[i]) ∈ names.zip x := by
      refine List.mem_of_getElem? (i := i) ?_
      rw [List.getElem?_zip_eq_some]
      exact ⟨hi, List.getElem?_eq_getElem hx⟩
    rw [get?_of_mem (by rw [List.map_fst_zip hl]; exact hn) hmem, List.getElem?_eq_getElem hx]

/-- Non-vacuity of C40: a Matérn model with free length scale and smoothness, fixed noise and analytic
scale accepts trial values of both. -/
example : let free (v : ℝ) : Param := ⟨Flt.fin v, Flt.fin 0.1, Flt.fin 5, false⟩
    let T : Trainee := ⟨⟨KernelObj.make ⟨.isotropy .l2 (free 1), some (free 2), .gen⟩,
      MuyGPS.make (.homoscedastic 0.1) KernelObj.kout 1⟩, .analytic 1⟩
    let kw : Dict Flt := [("length_scale", Flt.fin 2), ("smoothness", Flt.fin 1.5)]
    T.R.kernel.Accepts kw ∧ ScaleSeesTrialNoise T kw ∧ T.R.kernel.make = T.R.kernel := by
  intro free T kw
  refine ⟨⟨?_, ?_, trivial⟩, .inr ?_, rfl⟩
  · intro a ha
    simp only [kw, List.mem_cons, List.not_mem_nil, or_false] at ha
    rcases ha with rfl | rfl <;> simp
  · intro p hp
    left
    simp only [T, KernelObj.make, Option.some.injEq] at hp
    rw [← hp]
  · simp [T, Noise.trial, kw, Dict.get?, MuyGPS.make]

/-- Non-vacuity of C40: an anisotropic model whose first length scale is optimised. -/
example : let p (v : ℝ) (fx : Bool) : Param := ⟨Flt.fin v, Flt.fin 0.1, Flt.fin 5, fx⟩
    let k : KernelObj := KernelObj.make ⟨.anisotropy .F2 [p 1 false, p 2 true], none, .rbf⟩
    k.Accepts [("length_scale0", Flt.fin 3)] := by
  intro p k
  refine ⟨?_, ?_, ?_, 1, by simp, ?_⟩
  · intro a ha
    simp only [List.mem_cons, List.not_mem_nil, or_false] at ha
    rcases ha with rfl <;> simp
  · intro q hq; simp [k, KernelObj.make] at hq
  · simp
  · simp [startsLS]
    decide

end MuyGPyS
