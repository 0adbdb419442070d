import Mathlib.Analysis.SpecialFunctions.Sqrt
import Mathlib.Analysis.SpecialFunctions.ExpDeriv
import Mathlib.Analysis.SpecialFunctions.Log.Deriv
import Mathlib.Analysis.Calculus.ContDiff.Operations
import Verif.Spec.Smooth
import Verif.Props.Truth
import Verif.Props.Information
import Verif.Props.PipelineAlways

/-!
# C94: the objective is a smooth function on the search box, and has an optimum there
-/

namespace MuyGPyS
open Py Matrix
open scoped ContDiff

section Calculus
variable {E : Type*} [NormedAddCommGroup E] [NormedSpace ℝ E] {S : Set E}

theorem pow_pos_aux {a : ℝ} (h : a ≠ 0) : 0 < a ^ 2 := by positivity

theorem distOf_smooth {m : Metric} (hm : m = .F2 ∨ m = .l2) {f : Nat} (x y : Fin f → ℝ) {len : E → Fin f → ℝ}
    (hl : ∀ c, ContDiffOn ℝ ∞ (fun e => len e c) S) (hpos : ∀ e ∈ S, ∀ c, 0 < len e c) :
    ContDiffOn ℝ ∞ (fun e => distOf m (fun c => x c / len e c) fun c => y c / len e c) S := by
  have hF : ContDiffOn ℝ ∞ (fun e => ∑ c, (x c / len e c - y c / len e c) ^ 2) S :=
    ContDiffOn.sum fun c _ => ((contDiffOn_const.div (hl c) fun e he => (hpos e he c).ne').sub
      (contDiffOn_const.div (hl c) fun e he => (hpos e he c).ne')).pow 2
  rcases hm with rfl | rfl
  · simp only [distOf_F2]; exact hF
  · simp only [distOf_l2_sqrt]
    by_cases h : x = y
    · subst h
      simpa using contDiffOn_const
    · refine hF.sqrt fun e he => ?_
      obtain ⟨c, hc⟩ := Function.ne_iff.1 h
      have h1 : 0 < (x c / len e c - y c / len e c) ^ 2 := by
        rw [← sub_div]
        exact pow_pos_aux (div_ne_zero (sub_ne_zero.2 hc) (hpos e he c).ne')
      exact (h1.trans_le (Finset.single_le_sum (f := fun c => (x c / len e c - y c / len e c) ^ 2) (fun _ _ => sq_nonneg _)
        (Finset.mem_univ c))).ne'

theorem value_smooth (bs : Flt → ℝ → ℝ) (s : Flt) {fn : KFn} (h : fn ≠ .gen) : ContDiff ℝ ∞ (KFn.value bs s fn) := by
  cases fn with
  | gen => exact absurd rfl h
  | rbf => show ContDiff ℝ ∞ fun d : ℝ => Real.exp (-d / 2); fun_prop
  | m05 => show ContDiff ℝ ∞ fun d : ℝ => Real.exp (-d); fun_prop
  | m15 => show ContDiff ℝ ∞ fun d : ℝ => (1 + d * Real.sqrt 3) * Real.exp (-(d * Real.sqrt 3)); fun_prop
  | m25 =>
    show ContDiff ℝ ∞ fun d : ℝ => (1 + d * Real.sqrt 5 + (d * Real.sqrt 5) ^ 2 / 3) * Real.exp (-(d * Real.sqrt 5)); fun_prop
  | minf => show ContDiff ℝ ∞ fun d : ℝ => Real.exp (-(d ^ 2) / 2); fun_prop

theorem covFn_smooth (bs : Flt → ℝ → ℝ) (k : KernelObj) (hs : k.fn.Suits k.deform.metric) {f : Nat} (x y : Fin f → ℝ) {len : E → Fin f → ℝ}
    (hl : ∀ c, ContDiffOn ℝ ∞ (fun e => len e c) S) (hpos : ∀ e ∈ S, ∀ c, 0 < len e c) :
    ContDiffOn ℝ ∞ (fun e => k.covFn bs (len e) x y) S := by
  have hg : k.fn ≠ .gen := fun h => by rw [h] at hs; exact hs
  have hm : k.deform.metric = .F2 ∨ k.deform.metric = .l2 := by
    cases hf : k.fn <;> rw [hf] at hs <;> first | exact .inl hs | exact .inr hs | exact hs.elim
  exact (value_smooth bs _ hg).comp_contDiffOn (distOf_smooth hm x y hl hpos)

theorem det_smooth {n : Nat} {A : E → Matrix (Fin n) (Fin n) ℝ} (h : ∀ i j, ContDiffOn ℝ ∞ (fun e => A e i j) S) :
    ContDiffOn ℝ ∞ (fun e => (A e).det) S := by
  simp only [Matrix.det_apply]
  exact ContDiffOn.sum fun σ _ => (contDiffOn_prod fun i _ => h _ _).const_smul _

theorem inv_smooth {n : Nat} {A : E → Matrix (Fin n) (Fin n) ℝ} (h : ∀ i j, ContDiffOn ℝ ∞ (fun e => A e i j) S)
    (hd : ∀ e ∈ S, (A e).det ≠ 0) (i j : Fin n) : ContDiffOn ℝ ∞ (fun e => (A e)⁻¹ i j) S := by
  have e1 : (fun e => (A e)⁻¹ i j) = fun e => (A e).det⁻¹ * (A e).adjugate i j := by
    funext e
    rw [Matrix.inv_def, Matrix.smul_apply, Ring.inverse_eq_inv', smul_eq_mul]
  rw [e1]
  refine ((det_smooth h).inv hd).mul ?_
  simp only [Matrix.adjugate_apply]
  refine det_smooth fun a b => ?_
  by_cases hab : a = j
  · subst hab
    simp only [Matrix.updateRow_self]
    exact contDiffOn_const
  · simp only [Matrix.updateRow_ne hab]
    exact h a b

theorem quad_smooth {n : Nat} {A : E → Matrix (Fin n) (Fin n) ℝ} (h : ∀ i j, ContDiffOn ℝ ∞ (fun e => A e i j) S)
    (hd : ∀ e ∈ S, (A e).det ≠ 0) {u v : E → Fin n → ℝ} (hu : ∀ i, ContDiffOn ℝ ∞ (fun e => u e i) S)
    (hv : ∀ i, ContDiffOn ℝ ∞ (fun e => v e i) S) : ContDiffOn ℝ ∞ (fun e => u e ⬝ᵥ ((A e)⁻¹ *ᵥ v e)) S := by
  simp only [dotProduct, mulVec]
  exact ContDiffOn.sum fun i _ => (hu i).mul (ContDiffOn.sum fun j _ => (inv_smooth h hd i j).mul (hv j))

end Calculus

/-! ## The score as a function of the hyperparameters -/

/-- The variance scale a model reports on a batch: its own if fixed, otherwise the analytic estimate (C33) after its number of iterations. -/
noncomputable def Learner.reportedScale (L : Learner) {n : Nat} (b : Nat) (K : Nat → Matrix (Fin n) (Fin n) ℝ) (y : Nat → Fin n → ℝ) : ℝ :=
  match L.scaleKind with
  | .analytic m => heron (Spec.scaleEstimate b K y) (m - 1)
  | _ => L.scale

theorem analyticOpt_heron (ν : Noise) (b n m : Nat) (hν : ν.Fits b n) (Kin y : Tensor ℝ)
    (hK : Kin.shape = [b, n, n]) (hy : y.shape = [b, n]) (hinv : ∀ p < b, (Spec.cov n Kin p + ν.mat n p).det ≠ 0)
    (hpos : 0 < Spec.scaleEstimate b (fun p => Spec.cov n Kin p + ν.mat n p) (Spec.vec n y)) :
    analyticOpt ν m Kin y = .ok (heron (Spec.scaleEstimate b (fun p => Spec.cov n Kin p + ν.mat n p) (Spec.vec n y)) (m - 1)) := by
  have h := (C33_iterations_not_documented ν b n hν Kin y hK hy _ hpos hinv rfl).1
  cases m with
  | zero => exact h 0
  | succ m => exact h m

/-- The score of a model under a loss that uses variances. -/
theorem score_variances (bs : Flt → ℝ → ℝ) (L : Learner) (hmade : L.Made)
    (w : NNWrapper) (hw : w.Exact) (len : Fin w.f → ℝ)
    (hlen : L.deform.HasLengths w.f len) (idx : List Nat) (nn : Tensor Int) (h4 : ∀ x ∈ idx, x < w.N)
    (h5 : nn.shape = [idx.length, w.nnCount]) (hv : AllValid w.N nn) (d : TrainData)
    (hp : L.deform.pairwise w.train nn = .ok d.pairwise) (hc : L.deform.crosswise w.train w.train (ofNats idx) nn = .ok d.crosswise)
    (ht : d.targets.shape = [idx.length])
    (hy : d.nnTargets.shape = [idx.length, w.nnCount]) (hν : L.trainee.R.gp.noise.Fits idx.length w.nnCount)
    (hdet : ∀ p < idx.length, (L.batchCov bs w len nn p).det ≠ 0) (draws : List (List Nat))
    (l : LossKind) (term : ℝ → ℝ → ℝ → ℝ) (hl : l.term = some term)
    (hsk : L.scaleKind = .fixed ∨ (∃ m, L.scaleKind = .analytic m) ∧
      0 < Spec.scaleEstimate idx.length (fun p => L.batchCov bs w len nn p) (Spec.vec w.nnCount d.nnTargets)) :
    L.score bs l draws d = .ok (some (-∑ p ∈ Finset.range idx.length, term
        (Spec.krigingMean (L.batchCov bs w len nn p) (L.batchCross bs w len idx nn p) (Spec.vec w.nnCount d.nnTargets p)) (d.targets.get [p])
        (L.reportedScale idx.length (fun p => L.batchCov bs w len nn p) (Spec.vec w.nnCount d.nnTargets) *
          Spec.krigingVar 1 (L.batchCov bs w len nn p) (L.batchCross bs w len idx nn p)))) := by
  obtain ⟨K, C, μ, e1, e2, e3, e4, e5, e6⟩ := batch_predictions bs L hmade w hw len hlen idx nn h4 h5 hv d hp hc hy hν hdet
  obtain ⟨v, v1, v2, v3⟩ := e6 (L.reportedScale idx.length (fun p => L.batchCov bs w len nn p) (Spec.vec w.nnCount d.nnTargets))
  have hraw : l.raw = false := by cases l <;> first | rfl | (simp [LossKind.term] at hl)
  unfold Learner.score promisedVar
  have hps : L.trainee.promisedScale draws K d.nnTargets =
      .ok (some (L.reportedScale idx.length (fun p => L.batchCov bs w len nn p) (Spec.vec w.nnCount d.nnTargets))) := by
    unfold Trainee.promisedScale Learner.reportedScale
    rcases hsk with h | ⟨⟨m, h⟩, hpos⟩
    · have h' : L.trainee.scaleKind = .fixed := h
      rw [h', h]; rfl
    · have h' : L.trainee.scaleKind = .analytic m := h
      rw [h', h]
      obtain ⟨D, K', k1, k2, k3, k4⟩ := kernel_pairwise bs L.trainee.R.kernel (made_kernel hmade) w.train nn w.N w.f idx.length w.nnCount len
        hlen (.inl hw.1) h5 hv
      have hD : D = d.pairwise := Except.ok.inj ((show L.deform.pairwise w.train nn = .ok D from k1).symm.trans hp)
      rw [hD, e1] at k2
      obtain rfl := Except.ok.inj k2
      have hcov : ∀ p < idx.length, Spec.cov w.nnCount K p + L.trainee.R.gp.noise.mat w.nnCount p = L.batchCov bs w len nn p :=
        fun p hp => by rw [k4 p hp]; rfl
      have hest := scaleEstimate_congr (y := Spec.vec w.nnCount d.nnTargets) (y' := Spec.vec w.nnCount d.nnTargets) hcov fun _ _ => rfl
      have := analyticOpt_heron L.trainee.R.gp.noise idx.length w.nnCount m hν K d.nnTargets k3 hy
        (fun p hp => by rw [hcov p hp]; exact hdet p hp) (by rw [hest]; exact hpos)
      simp only [this, hest, Except.map]
  simp only [hraw, Bool.false_eq_true, if_false, e1, e2, e3, hps, v1, bind, Except.bind, pure, Except.pure, LossKind.ofVariances,
    hl, e4, v2, ht, and_self, if_true]
  congr 3
  refine Finset.sum_congr rfl fun p hp => ?_
  rw [e5 p (Finset.mem_range.1 hp), v3 p (Finset.mem_range.1 hp)]

/-- The value in force of a hyperparameter, as a function of the point the optimiser tries. -/
noncomputable def Learner.valueAt (L : Learner) (n : String) (p : Param) (x : Fin L.freeNames.length → ℝ) : ℝ :=
  (inForce (L.freeNames.zip (L.point x)) n p).toReal

theorem get?_point (L : Learner) (n : String) :
    (∃ i : Fin L.freeNames.length, L.freeNames[i] = n ∧ ∀ x, Dict.get? (L.freeNames.zip (L.point x)) n = some (Flt.fin (x i))) ∨
    n ∉ L.freeNames ∧ ∀ x, Dict.get? (L.freeNames.zip (L.point x)) n = none := by
  have hl : ∀ x, (L.point x).length = L.freeNames.length := fun x => List.length_ofFn
  have hk : ∀ x, (L.freeNames.zip (L.point x)).map Prod.fst = L.freeNames := fun x => List.map_fst_zip (hl x).ge
  by_cases h : n ∈ L.freeNames
  · obtain ⟨i, hi, he⟩ := List.getElem_of_mem h
    refine .inl ⟨⟨i, hi⟩, he, fun x => get?_of_mem (by rw [hk]; exact freeNames_nodup L) ?_⟩
    refine List.mem_of_getElem? (i := i) ?_
    rw [List.getElem?_zip_eq_some]
    refine ⟨by rw [List.getElem?_eq_getElem hi, he], ?_⟩
    unfold Learner.point
    rw [List.getElem?_ofFn, dif_pos hi]
  · exact .inr ⟨h, fun x => get?_none_of_not_mem (by rw [hk]; exact h)⟩

theorem valueAt_smooth (L : Learner) (n : String) (p : Param) : ContDiff ℝ ∞ (L.valueAt n p) := by
  rcases get?_point L n with ⟨i, -, h⟩ | ⟨-, h⟩
  · have e : L.valueAt n p = fun x => x i := funext fun x => by
      unfold Learner.valueAt inForce; rw [h, Option.getD_some, fin_toReal]
    rw [e]; fun_prop
  · have e : L.valueAt n p = fun _ => p.val.toReal := funext fun x => by
      unfold Learner.valueAt inForce; rw [h, Option.getD_none]
    rw [e]; fun_prop

/-- In the search box every hyperparameter has a value in the set it stays in. -/
theorem valueAt_within (L : Learner) {n : String} {p : Param} (hm : (n, p) ∈ L.gp.params) {S : Set ℝ} (hp : p.Within S)
    {x : Fin L.freeNames.length → ℝ} (hx : x ∈ L.searchBox) :
    L.valueAt n p x ∈ S ∧ inForce (L.freeNames.zip (L.point x)) n p = Flt.fin (L.valueAt n p x) := by
  suffices h : ∃ v ∈ S, inForce (L.freeNames.zip (L.point x)) n p = Flt.fin v by
    obtain ⟨v, h1, h2⟩ := h
    have : L.valueAt n p x = v := by unfold Learner.valueAt; rw [h2, fin_toReal]
    rw [this]; exact ⟨h1, h2⟩
  unfold Param.Within at hp
  cases hf : p.fixed with
  | true =>
    rw [hf, if_pos rfl] at hp
    have h := fixed_not_free L hm hf
    rcases get?_point L n with ⟨i, hi, -⟩ | ⟨-, h'⟩
    · exact absurd (hi ▸ List.getElem_mem _) h
    · obtain ⟨v, h1, h2⟩ := hp
      exact ⟨v, h1, by unfold inForce; rw [h', Option.getD_none, h2]⟩
  | false =>
    rw [hf, if_neg (by simp)] at hp
    obtain ⟨a, b, ha, hb, hS⟩ := hp
    obtain ⟨v, h1, y, l, u, rfl, h2, h3, h4, h5⟩ := hx.2 _ hm hf
    rcases get?_point L n with ⟨i, -, h⟩ | ⟨-, h'⟩
    · rw [h] at h1
      simp only at h2 h3
      rw [ha] at h2
      rw [hb] at h3
      have e1 := Option.some.inj (Option.some.inj h1)
      have e2 := Option.some.inj h2
      have e3 := Option.some.inj h3
      refine ⟨x i, hS ⟨?_, ?_⟩, by unfold inForce; rw [h, Option.getD_some]⟩
      · rw [← e1, ← e2] at h4; exact_mod_cast h4
      · rw [← e1, ← e3] at h5; exact_mod_cast h5
    · rw [h'] at h1; cases h1

/-- The search box is a product of closed intervals. -/
theorem searchBox_compact (L : Learner) (hb : L.InBounds) (h : ∀ np ∈ L.gp.params, np.2.fixed = false → ∃ a b : ℝ, np.2.lb = Flt.fin a ∧ np.2.ub = Flt.fin b) :
    IsCompact L.searchBox ∧ L.searchBox.Nonempty := by
  have hp : ∀ i : Fin L.freeNames.length, ∃ ab : ℝ × ℝ, ∃ p, (L.freeNames[i], p) ∈ L.gp.params ∧ p.fixed = false ∧ p.lb = Flt.fin ab.1 ∧
      p.ub = Flt.fin ab.2 ∧ ab.1 ≤ ab.2 := fun i => by
    have hm : L.freeNames[i] ∈ L.freeNames := List.getElem_mem _
    obtain ⟨np, h1, h2⟩ := List.mem_map.1 hm
    obtain ⟨h3, h4⟩ := List.mem_filter.1 h1
    have h4 : np.2.fixed = false := by simpa using h4
    obtain ⟨a, b, ha, hb'⟩ := h np h3 h4
    refine ⟨(a, b), np.2, by rw [← h2]; exact h3, h4, ha, hb', ?_⟩
    obtain ⟨y, l, u, -, e1, e2, e3, e4⟩ := hb np h3 h4
    rw [ha] at e1
    rw [hb'] at e2
    have := e3.trans e4
    rw [← Option.some.inj e1, ← Option.some.inj e2] at this
    exact_mod_cast this
  choose ab p p1 p2 p3 p4 p5 using hp
  have e : L.searchBox = Set.pi Set.univ fun i => Set.Icc (ab i).1 (ab i).2 := by
    ext x
    simp only [Set.mem_pi, Set.mem_univ, true_implies]
    constructor
    · intro hx i
      have hw := (valueAt_within L (p1 i) (S := Set.Icc (ab i).1 (ab i).2) (by
        unfold Param.Within; rw [p2 i, if_neg (by simp)]; exact ⟨_, _, p3 i, p4 i, subset_rfl⟩) hx).1
      rcases get?_point L L.freeNames[i] with ⟨j, hj, hg⟩ | ⟨hn, -⟩
      · have : j = i := Fin.ext ((List.getElem_inj (freeNames_nodup L)).1 hj)
        subst this
        have e : L.valueAt L.freeNames[j] (p j) x = x j := by
          unfold Learner.valueAt inForce; rw [hg, Option.getD_some, fin_toReal]
        rw [← e]; exact hw
      · exact absurd (List.getElem_mem _) hn
    · intro hx
      refine ⟨?_, fun np hnp hf => ?_⟩
      · rw [List.map_fst_zip (by unfold Learner.point; rw [List.length_ofFn])]
      · have hm : np.1 ∈ L.freeNames := List.mem_map.2 ⟨np, List.mem_filter.2 ⟨hnp, by simp [hf]⟩, rfl⟩
        rcases get?_point L np.1 with ⟨i, hi, hg⟩ | ⟨hn, -⟩
        · have e1 := get?_of_mem (params_names_nodup L.gp) hnp
          have e2 := get?_of_mem (params_names_nodup L.gp) (p1 i)
          rw [show L.freeNames[i] = np.1 from hi, e1] at e2
          have e3 : np.2 = p i := Option.some.inj e2
          refine ⟨_, hg x, x i, (ab i).1, (ab i).2, rfl, by rw [e3, p3]; rfl, by rw [e3, p4]; rfl, ?_, ?_⟩
          · exact_mod_cast (hx i).1
          · exact_mod_cast (hx i).2
        · exact absurd hm hn
  rw [e]
  exact ⟨isCompact_univ_pi fun i => isCompact_Icc, fun i => (ab i).1, fun i _ => ⟨le_rfl, p5 i⟩⟩

/-- The length scales in force, as functions of the point tried. -/
noncomputable def Learner.lengthsAt (L : Learner) (f : Nat) (x : Fin L.freeNames.length → ℝ) (c : Fin f) : ℝ :=
  match L.kernel.ls with
  | .scalar p => L.valueAt "length_scale" p x
  | .vector ps => match ps[(c : Nat)]? with
    | some p => L.valueAt (vecName "length_scale" c) p x
    | none => 1

theorem lengthsAt_smooth (L : Learner) (f : Nat) (c : Fin f) : ContDiff ℝ ∞ fun x => L.lengthsAt f x c := by
  unfold Learner.lengthsAt
  cases L.kernel.ls with
  | scalar p => exact valueAt_smooth L _ _
  | vector ps =>
    cases h : ps[(c : Nat)]? with
    | none => simp only [h]; exact contDiff_const
    | some p => simp only [h]; exact valueAt_smooth L _ _

theorem vector_mem (L : Learner) {ps : List Param} (h : L.kernel.ls = .vector ps) {c : Nat} {p : Param} (hp : ps[c]? = some p) :
    (vecName "length_scale" c, p) ∈ L.gp.params := by
  unfold GP.params Kernel.named
  simp only [Learner.gp, h, LenScale.named]
  refine List.mem_append_left _ (List.mem_append_left _ ?_)
  have key : ∀ (ps : List Param) (i c : Nat), ps[c]? = some p → (vecName "length_scale" (i + c), p) ∈ namedFrom "length_scale" i ps := by
    intro ps
    induction ps with
    | nil => intro i c h; simp at h
    | cons q ps ih =>
      intro i c h
      cases c with
      | zero =>
        simp only [List.getElem?_cons_zero, Option.some.injEq] at h
        subst h; exact List.mem_cons_self
      | succ c =>
        rw [List.getElem?_cons_succ] at h
        have := ih (i + 1) c h
        rw [show i + 1 + c = i + (c + 1) by omega] at this
        exact List.mem_cons_of_mem _ this
  have := key ps 0 c hp
  rwa [zero_add] at this

theorem scalar_mem (L : Learner) {p : Param} (h : L.kernel.ls = .scalar p) : ("length_scale", p) ∈ L.gp.params := by
  unfold GP.params Kernel.named
  simp [Learner.gp, h, LenScale.named]

theorem noise_mem (L : Learner) {p : Param} (h : L.noise = .homoscedastic p) : ("noise", p) ∈ L.gp.params := by
  unfold GP.params
  simp [Learner.gp, h]

/-- In the search box the trial deformation has the positive length scales in force. -/
theorem trial_lengths (L : Learner) (w : NNWrapper) (hs : L.Sensible w) {x : Fin L.freeNames.length → ℝ} (hx : x ∈ L.searchBox) :
    (L.trainee.trial (L.freeNames.zip (L.point x))).R.kernel.deform.HasLengths w.f (L.lengthsAt w.f x) := by
  show ((L.trainee.R.kernel.overridden (L.freeNames.zip (L.point x))).make.deform).HasLengths _ _
  cases h : L.kernel.ls with
  | scalar p =>
    have hw := valueAt_within L (scalar_mem L h) (hs.scalar p h) hx
    have e : ∀ c, L.lengthsAt w.f x c = L.valueAt "length_scale" p x := fun c => by unfold Learner.lengthsAt; rw [h]
    cases hd : L.difference
    · simp only [KernelObj.make, KernelObj.overridden, Learner.trainee, Learner.deform, h, hd, Bool.false_eq_true, if_false]
      exact ⟨_, hw.1, hw.2, e⟩
    · simp only [KernelObj.make, KernelObj.overridden, Learner.trainee, Learner.deform, h, hd, if_true]
      exact ⟨_, hw.1, hw.2, e⟩
  | vector ps =>
    simp only [KernelObj.make, KernelObj.overridden, Learner.trainee, Learner.deform, h]
    refine ⟨(overrideFrom_length _ _ _).trans (hs.vector ps h).1, fun c => ?_⟩
    have hc : (c : Nat) < ps.length := by rw [(hs.vector ps h).1]; exact c.2
    have hw := valueAt_within L (vector_mem L h (List.getElem?_eq_getElem hc)) ((hs.vector ps h).2 _ (List.getElem_mem hc)) hx
    have e : L.lengthsAt w.f x c = L.valueAt (vecName "length_scale" c) ps[(c : Nat)] x := by
      unfold Learner.lengthsAt; rw [h]; simp only [List.getElem?_eq_getElem hc]
    rw [e]
    refine ⟨hw.1, fun q hq => ?_⟩
    rw [overrideFrom_getElem, List.getElem?_eq_getElem hc] at hq
    simp only [Option.map_some, Option.some.injEq, zero_add] at hq
    subst hq
    exact hw.2

/-- A hyperparameter within its bounds has a value in the set it stays in. -/
theorem Param.Within.current {p : Param} {S : Set ℝ} (h : p.Within S) (hb : p.fixed = false → p.Allows p.val) : ∃ v ∈ S, p.val = Flt.fin v := by
  unfold Param.Within at h
  cases hf : p.fixed with
  | true => rw [hf, if_pos rfl] at h; exact h
  | false =>
    rw [hf, if_neg (by simp)] at h
    obtain ⟨a, b, ha, hb', hS⟩ := h
    obtain ⟨y, l, u, h1, h2, h3, h4, h5⟩ := hb hf
    rw [ha] at h2
    rw [hb'] at h3
    rw [← Option.some.inj h2] at h4
    rw [← Option.some.inj h3] at h5
    have hbot : y ≠ ⊥ := fun h => by rw [h] at h4; exact absurd h4 (by simp)
    have htop : y ≠ ⊤ := fun h => by rw [h] at h5; exact absurd h5 (by simp)
    have e := EReal.coe_toReal htop hbot
    rw [← e] at h4 h5
    exact ⟨y.toReal, hS ⟨by exact_mod_cast h4, by exact_mod_cast h5⟩, by rw [h1]; unfold Flt.fin; rw [e]⟩

theorem current_lengths (L : Learner) (w : NNWrapper) (hs : L.Sensible w) (hb : L.InBounds) :
    ∃ len, L.deform.HasLengths w.f len := by
  cases h : L.kernel.ls with
  | scalar p =>
    obtain ⟨v, h1, h2⟩ := (hs.scalar p h).current (hb _ (scalar_mem L h))
    refine ⟨fun _ => v, ?_⟩
    unfold Learner.deform
    rw [h]
    cases L.difference
    · exact ⟨v, h1, h2, fun _ => rfl⟩
    · exact ⟨v, h1, h2, fun _ => rfl⟩
  | vector ps =>
    have hv : ∀ c : Fin w.f, ∃ v : ℝ, 0 < v ∧ ∀ p, ps[(c : Nat)]? = some p → p.val = Flt.fin v := fun c => by
      have hc : (c : Nat) < ps.length := by rw [(hs.vector ps h).1]; exact c.2
      obtain ⟨v, h1, h2⟩ := ((hs.vector ps h).2 _ (List.getElem_mem hc)).current (hb _ (vector_mem L h (List.getElem?_eq_getElem hc)))
      refine ⟨v, h1, fun p hp => ?_⟩
      rw [List.getElem?_eq_getElem hc, Option.some.injEq] at hp
      rw [← hp]; exact h2
    choose v v1 v2 using hv
    refine ⟨v, ?_⟩
    unfold Learner.deform
    rw [h]
    exact ⟨(hs.vector ps h).1, fun c => ⟨v1 c, v2 c⟩⟩

/-- A closed-form kernel has no free smoothness, so that trial values do not change its formula. -/
theorem trial_kernel (L L' : Learner) (hmade : L.Made) (hsuit : L.fn.Suits L.deform.metric) (kw : Dict Flt)
    (hk : L.trainee.R.kernel.Accepts kw) (ht : L'.trainee = L.trainee.trial kw) :
    L'.fn = L.fn ∧ L'.deform.kind = L.deform.kind ∧ L'.deform.metric = L.deform.metric := by
  have e : L'.trainee.R.kernel = (L.trainee.R.kernel.overridden kw).make := by rw [ht]; rfl
  refine ⟨?_, ?_⟩
  · have e1 : L'.fn = ((L.trainee.R.kernel.overridden kw).make).fn := congrArg KernelObj.fn e
    rw [e1]
    have hm : L.make.fn = L.fn := by rw [hmade]
    cases hsm : L.kernel.smoothness with
    | none =>
      rw [← hm]
      simp only [KernelObj.make, KernelObj.overridden, Learner.trainee, Learner.make, hsm, Option.map_none]
    | some p =>
      have hfix : p.fixed = true := by
        by_contra hc
        have : L.fn = .gen := by
          rw [← hm]
          simp only [Learner.make, hsm, setMaternFn, if_neg hc]
        rw [this] at hsuit
        exact hsuit
      have hno : Dict.get? kw "smoothness" = none := by
        rcases hk.2.1 p hsm with h | h
        · rw [hfix] at h; cases h
        · exact h
      rw [← hm]
      simp only [KernelObj.make, KernelObj.overridden, Learner.trainee, Learner.make, hsm, Option.map_some, Param.overridden, inForce, hno,
        Option.getD_none]
  · have e1 : L'.deform = ((L.trainee.R.kernel.overridden kw).make).deform := congrArg KernelObj.deform e
    rw [e1]
    show ((L.trainee.R.kernel.overridden kw).make).deform.kind = L.trainee.R.kernel.deform.kind ∧
      ((L.trainee.R.kernel.overridden kw).make).deform.metric = L.trainee.R.kernel.deform.metric
    simp only [KernelObj.make, KernelObj.overridden]
    cases L.trainee.R.kernel.deform <;> exact ⟨rfl, rfl⟩

/-- The covariance function of a closed-form kernel depends on the formula and the metric only. -/
theorem covFn_formula (bs : Flt → ℝ → ℝ) (k k' : KernelObj) (hs : k.fn.Suits k.deform.metric) (hf : k'.fn = k.fn)
    (hm : k'.deform.metric = k.deform.metric) {f : Nat} (len x y : Fin f → ℝ) : k'.covFn bs len x y = k.covFn bs len x y := by
  unfold KernelObj.covFn
  rw [hf, hm]
  cases h : k.fn <;> first | rfl | (rw [h] at hs; exact hs.elim)

/-- The losses used here have smooth values. -/
theorem loss_smooth (L : Learner) (d : TrainData) {l : LossKind} (hl : L.SmoothLoss d l) {n : Nat} {S : Set (Fin n → ℝ)} (b : Nat) (t : Nat → ℝ) :
    (∃ (_ : l = .mse ∨ ∃ δ, l = .pseudoHuber δ), ∀ μ : Nat → (Fin n → ℝ) → ℝ, (∀ p < b, ContDiffOn ℝ ∞ (μ p) S) →
      ContDiffOn ℝ ∞ (fun x => l.factor b * ∑ p ∈ Finset.range b, l.errorLoss (t p - μ p x)) S) ∨
    L.ScaleKnown d ∧ ∃ term, l.term = some term ∧ ∀ (μ v : Nat → (Fin n → ℝ) → ℝ) (σ : (Fin n → ℝ) → ℝ), (∀ p < b, ContDiffOn ℝ ∞ (μ p) S) →
      (∀ p < b, ContDiffOn ℝ ∞ (v p) S) → (∀ p < b, ∀ x ∈ S, 0 < v p x) → ContDiffOn ℝ ∞ σ S → (∀ x ∈ S, 0 < σ x) →
      ContDiffOn ℝ ∞ (fun x => ∑ p ∈ Finset.range b, term (μ p x) (t p) (σ x * v p x)) S := by
  cases l with
  | mse =>
    refine .inl ⟨.inl rfl, fun μ h => ?_⟩
    refine contDiffOn_const.mul (ContDiffOn.sum fun p hp => ?_)
    exact (contDiffOn_const.sub (h p (Finset.mem_range.1 hp))).pow 2
  | pseudoHuber δ =>
    refine .inl ⟨.inr ⟨δ, rfl⟩, fun μ h => ?_⟩
    refine contDiffOn_const.mul (ContDiffOn.sum fun p hp => ?_)
    show ContDiffOn ℝ ∞ (fun x => δ ^ 2 * (Real.sqrt (1 + ((t p - μ p x) / δ) ^ 2) - 1)) S
    refine contDiffOn_const.mul (ContDiffOn.sub (ContDiffOn.sqrt ?_ fun x _ => by positivity) contDiffOn_const)
    exact contDiffOn_const.add (((contDiffOn_const.sub (h p (Finset.mem_range.1 hp))).div_const δ).pow 2)
  | lool =>
    refine .inr ⟨hl, _, rfl, fun μ v σ hμ hv hpos hσs hσ => ContDiffOn.sum fun p hp => ?_⟩
    have hp := Finset.mem_range.1 hp
    have hsv : ContDiffOn ℝ ∞ (fun x => σ x * v p x) S := hσs.mul (hv p hp)
    have hne : ∀ x ∈ S, σ x * v p x ≠ 0 := fun x hx => (mul_pos (hσ x hx) (hpos p hp x hx)).ne'
    exact ((((hμ p hp).sub contDiffOn_const).pow 2).div hsv hne).add (hsv.log hne)
  | looph δ =>
    obtain ⟨hδ, h0⟩ := hl
    refine .inr ⟨h0, _, rfl, fun μ v σ hμ hv hpos hσs hσ => ContDiffOn.sum fun p hp => ?_⟩
    have hp := Finset.mem_range.1 hp
    have hsv : ContDiffOn ℝ ∞ (fun x => σ x * v p x) S := hσs.mul (hv p hp)
    have hsp : ∀ x ∈ S, 0 < σ x * v p x := fun x hx => mul_pos (hσ x hx) (hpos p hp x hx)
    refine (contDiffOn_const.mul (ContDiffOn.sub (ContDiffOn.sqrt ?_ fun x hx => ?_) contDiffOn_const)).add
      (hsv.log fun x hx => (hsp x hx).ne')
    · exact contDiffOn_const.add (((contDiffOn_const.sub (hμ p hp)).pow 2).div (contDiffOn_const.mul hsv) fun x hx =>
        (mul_pos (pow_pos hδ 2) (hsp x hx)).ne')
    · have := hsp x hx
      positivity
  | crossEntropy _ => exact hl.elim
  | loolUnscaled => exact hl.elim

theorem heron_smooth {E : Type*} [NormedAddCommGroup E] [NormedSpace ℝ E] {S : Set E} {c : E → ℝ} (hc : ContDiffOn ℝ ∞ c S)
    (hpos : ∀ x ∈ S, 0 < c x) (m : Nat) : ContDiffOn ℝ ∞ (fun x => heron (c x) m) S := by
  induction m with
  | zero => exact hc
  | succ m ih => exact contDiffOn_const.mul (ih.add (hc.div ih fun x hx => (heron_pos (hpos x hx) m).ne'))

theorem Param.Within.bounds {p : Param} {S : Set ℝ} (h : p.Within S) (hf : p.fixed = false) :
    ∃ a b : ℝ, p.lb = Flt.fin a ∧ p.ub = Flt.fin b := by
  unfold Param.Within at h
  rw [hf, if_neg (by simp)] at h
  obtain ⟨a, b, ha, hb, -⟩ := h
  exact ⟨a, b, ha, hb⟩

/-- The free hyperparameters of a sensible model have finite bounds. -/
theorem free_bounds (L : Learner) (hmade : L.Made) (hsuit : L.fn.Suits L.deform.metric) {w : NNWrapper} (hs : L.Sensible w) :
    ∀ np ∈ L.gp.params, np.2.fixed = false → ∃ a b : ℝ, np.2.lb = Flt.fin a ∧ np.2.ub = Flt.fin b := by
  intro np hnp hf
  unfold GP.params Kernel.named at hnp
  simp only [Learner.gp] at hnp
  rcases List.mem_append.1 hnp with h | h
  · rcases List.mem_append.1 h with h | h
    · cases hl : L.kernel.ls with
      | scalar p =>
        rw [hl] at h
        simp only [LenScale.named, List.mem_singleton] at h
        subst h
        exact (hs.scalar p hl).bounds hf
      | vector ps =>
        rw [hl] at h
        have hm : np.2 ∈ (namedFrom "length_scale" 0 ps).map Prod.snd := List.mem_map.2 ⟨np, h, rfl⟩
        have hsnd : ∀ (ps : List Param) i, (namedFrom "length_scale" i ps).map Prod.snd = ps := by
          intro ps
          induction ps with
          | nil => intro i; rfl
          | cons p ps ih => intro i; simp [namedFrom, ih]
        rw [hsnd] at hm
        exact ((hs.vector ps hl).2 _ hm).bounds hf
    · cases hsm : L.kernel.smoothness with
      | none => rw [hsm] at h; simp at h
      | some p =>
        rw [hsm] at h
        simp only [Option.map_some, Option.toList_some, List.mem_singleton] at h
        subst h
        exfalso
        have hm : L.make.fn = L.fn := by rw [hmade]
        have : L.fn = .gen := by
          rw [← hm]
          simp only at hf
          simp only [Learner.make, hsm, setMaternFn, hf, Bool.false_eq_true, if_false]
        rw [this] at hsuit
        exact hsuit
  · obtain ⟨pn, hpn, hpos⟩ := hs.noise
    rw [hpn] at h
    simp only [List.mem_singleton] at h
    subst h
    exact (hpos.elim (fun h => h.bounds hf) fun h => h.1.bounds hf)

/-- The covariances of the neighbours in row `p` of `nn` at a trial point. -/
noncomputable def Learner.trialGram (L : Learner) (w : NNWrapper) (cov : (Fin L.freeNames.length → ℝ) → (Fin w.f → ℝ) → (Fin w.f → ℝ) → ℝ)
    (nn : Tensor Int) (p : Nat) (x : Fin L.freeNames.length → ℝ) : Matrix (Fin w.nnCount) (Fin w.nnCount) ℝ :=
  fun i j => cov x (pt w.train w.f (pointOf w.N (nn.get [p, i]))) (pt w.train w.f (pointOf w.N (nn.get [p, j])))

/-- The covariances of the neighbours in row `p` of `nn` at a trial point, with the trial noise. -/
noncomputable def Learner.trialCov (L : Learner) (w : NNWrapper) (cov : (Fin L.freeNames.length → ℝ) → (Fin w.f → ℝ) → (Fin w.f → ℝ) → ℝ)
    (pn : Param) (nn : Tensor Int) (p : Nat) (x : Fin L.freeNames.length → ℝ) : Matrix (Fin w.nnCount) (Fin w.nnCount) ℝ :=
  L.trialGram w cov nn p x + L.valueAt "noise" pn x • (1 : Matrix (Fin w.nnCount) (Fin w.nnCount) ℝ)

/-- Covariances of a point with the neighbours in row `p` of `nn` at a trial point. -/
noncomputable def Learner.trialCross (L : Learner) (w : NNWrapper) (cov : (Fin L.freeNames.length → ℝ) → (Fin w.f → ℝ) → (Fin w.f → ℝ) → ℝ)
    (nn : Tensor Int) (p : Nat) (q : Fin w.f → ℝ) (x : Fin L.freeNames.length → ℝ) : Fin w.nnCount → ℝ :=
  fun j => cov x q (pt w.train w.f (pointOf w.N (nn.get [p, j])))

/-- The model with a fixed variance scale. -/
noncomputable def Learner.atScale (L : Learner) (s : ℝ) : Learner := { L with scaleKind := .fixed, scale := s, boundScale := s }

theorem Learner.atScale_made {L : Learner} (h : L.Made) (s : ℝ) : (L.atScale s).Made := by
  have h' : L.make.fn = L.fn := by rw [h]
  unfold Learner.Made
  show ({ L.atScale s with fn := L.make.fn } : Learner) = L.atScale s
  rw [h']
  rfl

/-- The objective is that of the model with the variance scale fixed at the one estimated. -/
theorem objective_at_scale (bs : Flt → ℝ → ℝ) (L L' : Learner) (hmade : L.Made) (l : LossKind) (draws : List (List Nat)) (d : TrainData)
    (kw : Dict Flt) (hk : L.trainee.R.kernel.Accepts kw) (ht : L'.trainee = L.trainee.trial kw) (K : Tensor ℝ) (s : ℝ)
    (hK : L'.trainee.R.kernel.call bs d.pairwise [] = .ok K) (hs : scaleOptFn L.scaleKind L.trainee.R.gp draws K d.nnTargets kw = .ok (some s)) :
    L.objective bs l draws d kw = (L.atScale s).objective bs l draws d kw := by
  have hm : L.trainee.R.kernel.make = L.trainee.R.kernel := by
    have h : L.make.trainee.R.kernel = L.trainee.R.kernel := by rw [hmade]
    exact h
  have h1 : L.trainee.R.kernel.optFn bs d.pairwise (("batch_features", none) :: kw) = .ok K := by
    rw [← hK, ht]
    conv_lhs => rw [← hm]
    rw [batch_features_ignored bs _ kw hk.1, kernel_override bs _ kw hk]
    rfl
  unfold Learner.objective objFn
  rw [show (L.atScale s).trainee.R.kernel = L.trainee.R.kernel from rfl, h1]
  simp only [bind, Except.bind]
  cases L.trainee.R.kernel.optFn bs d.crosswise (("batch_features", none) :: kw) with
  | error e => rfl
  | ok Kc =>
    unfold predictAndLoss
    have hs' : scaleOptFn (L.atScale s).trainee.scaleKind (L.atScale s).trainee.R.gp draws K d.nnTargets kw = .ok (some s) := rfl
    rw [show L.trainee.scaleKind = L.scaleKind from rfl, hs, hs']
    rfl

/-- The objective is smooth, and attains its minimum, when the trial covariances are smooth and definite. -/
theorem objective_smooth (bs : Flt → ℝ → ℝ) (L : Learner) (hmade : L.Made)
    (w : NNWrapper) (hw : w.Exact) (hk0 : 0 < w.nnCount) (hs : L.Sensible w) (hb : L.InBounds)
    (hbox : ∀ np ∈ L.gp.params, np.2.fixed = false → ∃ a b : ℝ, np.2.lb = Flt.fin a ∧ np.2.ub = Flt.fin b)
    (cov : (Fin L.freeNames.length → ℝ) → (Fin w.f → ℝ) → (Fin w.f → ℝ) → ℝ)
    (hcs : ∀ a b, ContDiffOn ℝ ∞ (fun x => cov x a b) L.searchBox)
    (htrial : ∀ x ∈ L.searchBox, ∀ L' : Learner, L.trainee.R.kernel.Accepts (L.freeNames.zip (L.point x)) →
      L'.trainee = L.trainee.trial (L.freeNames.zip (L.point x)) → L'.deform.kind = L.deform.kind ∧ L'.deform.metric = L.deform.metric ∧
      ∀ a b, L'.trainee.R.kernel.covFn bs (L.lengthsAt w.f x) a b = cov x a b)
    (pn : Param) (hpn : L.noise = .homoscedastic pn)
    (hdef : ∀ x ∈ L.searchBox, ∀ (nn : Tensor Int) (p : Nat) (l : List Nat), rowList nn w.nnCount p = l.map Int.ofNat → l.length = w.nnCount →
      l.Nodup → (∀ j ∈ l, j < w.N) → (L.trialCov w cov pn nn p x).PosDef ∧
      (L.trialGram w cov nn p x + pn.val.toReal • (1 : Matrix (Fin w.nnCount) (Fin w.nnCount) ℝ)).PosDef ∧ ∀ i < w.N, (w.Separated → ∀ j < w.nnCount, pointOf w.N (nn.get [p, j]) < w.N ∧ pointOf w.N (nn.get [p, j]) ≠ i) →
        0 < Spec.krigingVar 1 (L.trialCov w cov pn nn p x) (L.trialCross w cov nn p (rowPt w.train w.f i) x)) (hfree : L.FreeFirst)
    (bc : Nat) (hbc : 0 < bc) (draw : List Nat) (hd : bc < w.N → IsDraw w.N bc draw) (hN : 0 < w.N) (hkN : w.nnCount + 1 ≤ w.N)
    (Y : Tensor ℝ) (hY : Y.shape = [w.N]) (l : LossKind)
    (hl : ∀ batch d, sampleBatch w bc w.N draw = .ok batch → L.trainData batch w.train Y = .ok d → L.SmoothLoss d l) (draws : List (List Nat)) :
    ∃ batch d o, sampleBatch w bc w.N draw = .ok batch ∧ L.trainData batch w.train Y = .ok d ∧ L.gp.getOptParams = .ok o ∧
      ∃ g : (Fin L.freeNames.length → ℝ) → ℝ,
        (∀ x ∈ L.searchBox, arrayObjFn (L.objective bs l draws d) o.names (L.point x) = .ok (some (g x))) ∧
        ContDiffOn ℝ ∞ g L.searchBox ∧ ∃ x ∈ L.searchBox, ∀ y ∈ L.searchBox, g x ≤ g y := by
  obtain ⟨len0, hlen0⟩ := current_lengths L w hs hb
  obtain ⟨idx, nn, d, g1, g1', g1'', h4, h5, hv, g2, g3, g3', g4t, g4, g6, g5⟩ := regressor_data L w hw len0 hlen0 bc hbc draw hd hN hkN Y hY
  replace hl := hl _ _ g1 g2
  have hnn : L.noise ≠ .null := by rw [hpn]; simp
  have hbs : L.boundScale = L.scale := by
    have h : L.make.boundScale = L.boundScale := by rw [hmade]
    exact h.symm
  obtain ⟨o, ho⟩ : ∃ o, L.gp.getOptParams = .ok o := ⟨_, getOptParams_eq L.gp hnn⟩
  have hnames : o.names = L.freeNames := by
    rw [getOptParams_eq L.gp hnn, foldl_appendLists] at ho
    simp only [List.nil_append, Except.ok.injEq] at ho
    rw [← ho]; rfl
  have hrows : ∀ p < idx.length, ∃ l : List Nat, rowList nn w.nnCount p = l.map Int.ofNat ∧ l.length = w.nnCount ∧ l.Nodup ∧
      ∀ j ∈ l, j < w.N := fun p hp => by
    obtain ⟨idx', nn', h1, h2, h3, h4, _, h5, h6⟩ := C42_batch w hw bc hbc hN draw hd hkN
    rw [g1] at h1
    obtain ⟨rfl, rfl⟩ := Prod.mk.inj (Except.ok.inj h1)
    obtain ⟨l, e1, e2, e3, e4, _⟩ := h6 p idx[p] (List.getElem?_eq_getElem hp)
    exact ⟨l, e1, e2, e3, e4⟩
  let q : Nat → Fin w.f → ℝ := fun p => rowPt w.train w.f (idx.getD p 0)
  let τ : (Fin L.freeNames.length → ℝ) → ℝ := L.valueAt "noise" pn
  let A : Nat → (Fin L.freeNames.length → ℝ) → Matrix (Fin w.nnCount) (Fin w.nnCount) ℝ := fun p x => L.trialCov w cov pn nn p x
  let k : Nat → (Fin L.freeNames.length → ℝ) → Fin w.nnCount → ℝ := fun p x => L.trialCross w cov nn p (q p) x
  have hApd : ∀ p < idx.length, ∀ x ∈ L.searchBox, (A p x).PosDef := fun p hp x hx => by
    obtain ⟨l, e1, e2, e3, e4⟩ := hrows p hp
    exact (hdef x hx nn p l e1 e2 e3 e4).1
  -- the covariances the scale is estimated with: the current noise instead of the trial noise
  let A₀ : Nat → (Fin L.freeNames.length → ℝ) → Matrix (Fin w.nnCount) (Fin w.nnCount) ℝ := fun p x =>
    L.trialGram w cov nn p x + pn.val.toReal • (1 : Matrix (Fin w.nnCount) (Fin w.nnCount) ℝ)
  have hA₀pd : ∀ p < idx.length, ∀ x ∈ L.searchBox, (A₀ p x).PosDef := fun p hp x hx => by
    obtain ⟨l, e1, e2, e3, e4⟩ := hrows p hp
    exact (hdef x hx nn p l e1 e2 e3 e4).2.1
  have hAdet : ∀ p < idx.length, ∀ x ∈ L.searchBox, (A p x).det ≠ 0 := fun p hp x hx => Kriging.det_ne_zero (hApd p hp x hx)
  have hvpos : ∀ p < idx.length, ∀ x ∈ L.searchBox, 0 < Spec.krigingVar 1 (A p x) (k p x) := fun p hp x hx => by
    obtain ⟨l, e1, e2, e3, e4⟩ := hrows p hp
    have hx' : idx.getD p 0 < w.N := by
      rw [List.getD_eq_getElem?_getD, List.getElem?_eq_getElem hp, Option.getD_some]
      exact h4 _ (List.getElem_mem _)
    refine (hdef x hx nn p l e1 e2 e3 e4).2.2 _ hx' fun hsep j hj => ?_
    obtain ⟨idx', nn', h1, _, _, _, _, _, hoth⟩ := batch_rows w hw hsep bc hbc draw hd hN hkN
    rw [g1] at h1
    obtain ⟨rfl, rfl⟩ := Prod.mk.inj (Except.ok.inj h1)
    exact hoth p hp j hj
  have hAs : ∀ p i j, ContDiffOn ℝ ∞ (fun x => A p x i j) L.searchBox := fun p i j =>
    (hcs _ _).add ((valueAt_smooth L _ _).contDiffOn.mul contDiffOn_const)
  have hA₀s : ∀ p i j, ContDiffOn ℝ ∞ (fun x => A₀ p x i j) L.searchBox := fun p i j => (hcs _ _).add contDiffOn_const
  have hks : ∀ p i, ContDiffOn ℝ ∞ (fun x => k p x i) L.searchBox := fun p i => hcs _ _
  let μ : Nat → (Fin L.freeNames.length → ℝ) → ℝ := fun p x => Spec.krigingMean (A p x) (k p x) (Spec.vec w.nnCount d.nnTargets p)
  let v : Nat → (Fin L.freeNames.length → ℝ) → ℝ := fun p x => Spec.krigingVar 1 (A p x) (k p x)
  have hμs : ∀ p < idx.length, ContDiffOn ℝ ∞ (μ p) L.searchBox := fun p hp =>
    quad_smooth (hAs p) (hAdet p hp) (hks p) fun i => contDiffOn_const
  have hvs : ∀ p < idx.length, ContDiffOn ℝ ∞ (v p) L.searchBox := fun p hp =>
    contDiffOn_const.sub (quad_smooth (hAs p) (hAdet p hp) (hks p) (hks p))
  have hmodel : ∀ x ∈ L.searchBox, ∃ L' : Learner, L'.Made ∧ L'.scaleKind = L.scaleKind ∧ L'.scale = L.scale ∧ L'.deform.HasLengths w.f (L.lengthsAt w.f x) ∧
      L'.deform.pairwise w.train nn = .ok d.pairwise ∧ L'.deform.crosswise w.train w.train (ofNats idx) nn = .ok d.crosswise ∧
      L'.trainee.R.gp.noise.Fits idx.length w.nnCount ∧
      (∀ a b, L'.trainee.R.kernel.covFn bs (L.lengthsAt w.f x) a b = cov x a b) ∧
      (∀ p, L'.batchCov bs w (L.lengthsAt w.f x) nn p = A p x) ∧ (∀ p, L'.batchCross bs w (L.lengthsAt w.f x) idx nn p = k p x) ∧
      (l.raw = true → ∀ a, L'.score bs l draws d = .ok (some (-a)) → arrayObjFn (L.objective bs l draws d) o.names (L.point x) = .ok (some a)) ∧
      ∀ K s, L'.trainee.R.kernel.call bs d.pairwise [] = .ok K →
        scaleOptFn L.scaleKind L.trainee.R.gp draws K d.nnTargets (L.freeNames.zip (L.point x)) = .ok (some s) → l ≠ .loolUnscaled →
        ∀ a, (L'.atScale s).score bs l draws d = .ok (some (-a)) →
          arrayObjFn (L.objective bs l draws d) o.names (L.point x) = .ok (some a) := fun x hx => by
    obtain ⟨o', L', ho', -, -, htr, hm', -, hsc, -, hrest⟩ := newLearner_trial ⟨false, 0, fun _ => 0⟩ L hnn hb hbs _ hx
    have hlenp : (L.point x).length = L.freeNames.length := List.length_ofFn
    have hacc := accepts_in_order hlenp hx hfree
    obtain ⟨t2, t3, hcf⟩ := htrial x hx L' hacc htr
    have hlen' : L'.deform.HasLengths w.f (L.lengthsAt w.f x) := by
      have := trial_lengths L w hs hx
      rw [← htr] at this
      exact this
    have hnoise : L'.trainee.R.gp.noise = .homoscedastic (τ x) := by
      rw [htr]
      show (L.noise.noise).trial _ = _
      rw [hpn]
      simp only [NoiseObj.noise, Noise.trial, τ, Learner.valueAt, inForce]
      cases Dict.get? (L.freeNames.zip (L.point x)) "noise" <;> rfl
    refine ⟨L', hm', by rw [hrest]; rfl, hsc, hlen', ?_, ?_, by rw [hnoise]; trivial, hcf, fun p => ?_, fun p => ?_, fun hraw a ha => ?_, fun K s hK hs hu a ha => ?_⟩
    · rw [← g3]; unfold Deform.pairwise; rw [t2, t3]
    · rw [← g3']; unfold Deform.crosswise; rw [t2, t3]
    · unfold Learner.batchCov
      rw [hnoise]
      ext i j
      show L'.trainee.R.kernel.covFn _ _ _ _ + _ = cov _ _ _ + _
      rw [hcf]; rfl
    · funext j
      exact hcf _ _
    · have := (objective_trial bs L L' hmade l draws d (.inl hraw) _ hx hacc htr (-a)).2 ha
      unfold arrayObjFn
      rw [hnames, if_neg (by rw [hlenp]; omega), this]
      simp [bind, Except.bind, pure, Except.pure]
    · have htr' : (L'.atScale s).trainee = (L.atScale s).trainee.trial (L.freeNames.zip (L.point x)) := by
        show (⟨⟨L'.trainee.R.kernel, ⟨L'.trainee.R.gp.noise, KernelObj.kout, s, s⟩⟩, .fixed⟩ : Trainee) = _
        rw [htr]
        rfl
      have := (objective_trial bs (L.atScale s) (L'.atScale s) (L.atScale_made hmade s) l draws d (.inr ⟨hu, by rw [g4t]; rfl, .inl rfl⟩)
        (L.freeNames.zip (L.point x)) hx hacc htr' (-a)).2 ha
      rw [← objective_at_scale bs L L' hmade l draws d _ hacc htr K s hK hs] at this
      unfold arrayObjFn
      rw [hnames, if_neg (by rw [hlenp]; omega), this]
      simp [bind, Except.bind, pure, Except.pure]
  obtain ⟨hcomp, hne⟩ := searchBox_compact L hb hbox
  have finish : ∀ g : (Fin L.freeNames.length → ℝ) → ℝ,
      (∀ x ∈ L.searchBox, arrayObjFn (L.objective bs l draws d) o.names (L.point x) = .ok (some (g x))) → ContDiffOn ℝ ∞ g L.searchBox →
      ∃ g : (Fin L.freeNames.length → ℝ) → ℝ,
        (∀ x ∈ L.searchBox, arrayObjFn (L.objective bs l draws d) o.names (L.point x) = .ok (some (g x))) ∧
        ContDiffOn ℝ ∞ g L.searchBox ∧ ∃ x ∈ L.searchBox, ∀ y ∈ L.searchBox, g x ≤ g y := fun g h1 h2 => by
    obtain ⟨x, hx, hmin⟩ := hcomp.exists_isMinOn hne h2.continuousOn
    exact ⟨g, h1, h2, x, hx, fun y hy => hmin hy⟩
  refine ⟨(idx, nn), d, o, g1, g2, ho, ?_⟩
  rcases loss_smooth L d hl (S := L.searchBox) idx.length (fun p => d.targets.get [p]) with ⟨hl', hsm⟩ | ⟨hknown, term, hterm, hsm⟩
  · refine finish _ (fun x hx => ?_) (hsm μ hμs)
    obtain ⟨L', m1, m2, m3, m4, m5, m6, m7, -, m8, m9, m10, -⟩ := hmodel x hx
    refine m10 (by rcases hl' with rfl | ⟨δ, rfl⟩ <;> rfl) _ ?_
    rw [score_means bs L' m1 w hw _ m4 idx nn h4 h5 hv d m5 m6 g4t g4 m7 (fun p hp => by rw [m8]; exact hAdet p hp x hx) l hl' draws]
    simp only [m8, m9, μ]
  · let σ : (Fin L.freeNames.length → ℝ) → ℝ := fun x => L.reportedScale idx.length (fun p => A₀ p x) (Spec.vec w.nnCount d.nnTargets)
    have hest : (∃ y ∈ entries d.nnTargets, y ≠ 0) → ∀ x ∈ L.searchBox,
        0 < Spec.scaleEstimate idx.length (fun p => A₀ p x) (Spec.vec w.nnCount d.nnTargets) := fun ⟨y, hy, hy0⟩ x hx => by
      have hb0 : 0 < idx.length := by rw [g1']; exact lt_min hbc hN
      obtain ⟨e1, e2⟩ := estimate_sign hk0 hb0 (K := fun p => A₀ p x) (fun p hp => hA₀pd p hp x hx) (Spec.vec w.nnCount d.nnTargets)
      refine e1.lt_of_ne' fun h => hy0 ?_
      have hz := e2.1 h
      unfold entries at hy
      obtain ⟨k, hk, rfl⟩ := List.mem_map.1 hy
      rw [g4] at hk
      simp only [List.prod_cons, List.prod_nil, mul_one, List.mem_range] at hk
      have hp : k / w.nnCount < idx.length := Nat.div_lt_of_lt_mul (by rwa [Nat.mul_comm] at hk)
      have := congrFun (hz _ hp) ⟨k % w.nnCount, Nat.mod_lt _ hk0⟩
      simp only [Spec.vec, Pi.zero_apply] at this
      rw [Tensor.get2 _ g4, Nat.div_add_mod'] at this
      exact this
    have hσs : ContDiffOn ℝ ∞ σ L.searchBox := by
      rcases hknown with ⟨h, -⟩ | ⟨⟨m, h⟩, hy⟩
      · simp only [σ, Learner.reportedScale, h]; exact contDiffOn_const
      · simp only [σ, Learner.reportedScale, h]
        refine heron_smooth ?_ (hest hy) _
        unfold Spec.scaleEstimate Spec.quadForm
        exact contDiffOn_const.mul (ContDiffOn.sum fun p hp => quad_smooth (hA₀s p) (fun x hx => Kriging.det_ne_zero (hA₀pd p (Finset.mem_range.1 hp) x hx))
          (fun i => contDiffOn_const) fun i => contDiffOn_const)
    have hσ : ∀ x ∈ L.searchBox, 0 < σ x := fun x hx => by
      rcases hknown with ⟨h, h0⟩ | ⟨⟨m, h⟩, hy⟩
      · simp only [σ, Learner.reportedScale, h]; exact h0
      · simp only [σ, Learner.reportedScale, h]
        exact heron_pos (hest hy x hx) _
    refine finish _ (fun x hx => ?_) (hsm μ v σ hμs hvs hvpos hσs hσ)
    obtain ⟨L', m1, m2, m3, m4, m5, m6, m7, hcf, m8, m9, -, m10⟩ := hmodel x hx
    obtain ⟨D, K', k1, k2, k3, k4⟩ := kernel_pairwise bs L'.trainee.R.kernel (made_kernel m1) w.train nn w.N w.f idx.length w.nnCount _
      m4 (.inl hw.1) h5 hv
    have hD : D = d.pairwise := Except.ok.inj ((show L'.deform.pairwise w.train nn = .ok D from k1).symm.trans m5)
    rw [hD] at k2
    have hnoise0 : L.trainee.R.gp.noise = .homoscedastic pn.val.toReal := by
      show L.noise.noise = _
      rw [hpn]; rfl
    have hcov : ∀ p < idx.length, Spec.cov w.nnCount K' p + (Noise.homoscedastic pn.val.toReal).mat w.nnCount p = A₀ p x := fun p hp => by
      rw [k4 p hp]
      ext i j
      exact congrArg₂ (· + ·) (hcf _ _) rfl
    have hscale : scaleOptFn L.scaleKind L.trainee.R.gp draws K' d.nnTargets (L.freeNames.zip (L.point x)) = .ok (some (σ x)) := by
      rcases hknown with ⟨h, -⟩ | ⟨⟨m, h⟩, hy⟩
      · simp only [σ, Learner.reportedScale, h]; rfl
      · simp only [σ, Learner.reportedScale, h, scaleOptFn, hnoise0]
        have hest' := scaleEstimate_congr (y := Spec.vec w.nnCount d.nnTargets) (y' := Spec.vec w.nnCount d.nnTargets) hcov fun _ _ => rfl
        have := analyticOpt_heron (.homoscedastic pn.val.toReal) idx.length w.nnCount m trivial K' d.nnTargets k3 g4
          (fun p hp => by rw [hcov p hp]; exact Kriging.det_ne_zero (hA₀pd p hp x hx)) (by rw [hest']; exact hest hy x hx)
        simp only [this, hest', bind, Except.bind, pure, Except.pure]
    refine m10 K' (σ x) k2 hscale (by rintro rfl; simp [LossKind.term] at hterm) _ ?_
    rw [score_variances bs (L'.atScale (σ x)) (Learner.atScale_made m1 _) w hw _ m4 idx nn h4 h5 hv d m5 m6 g4t g4 m7
      (fun p hp => by rw [show (L'.atScale (σ x)).batchCov bs w (L.lengthsAt w.f x) nn p = _ from m8 p]; exact hAdet p hp x hx)
      draws l term hterm (.inl rfl)]
    have e1 : ∀ p, (L'.atScale (σ x)).batchCov bs w (L.lengthsAt w.f x) nn p = A p x := m8
    have e2 : ∀ p, (L'.atScale (σ x)).batchCross bs w (L.lengthsAt w.f x) idx nn p = k p x := m9
    simp only [e1, e2, μ, v]
    rfl

/-- **C94**: the function that the optimisers of a regressor's hyperparameters are given (minus the objective, at arrays of trial values) is, for
every sensible model with a closed-form kernel and every batch, an infinitely differentiable function of the free hyperparameters on the whole
search box, so that a best model exists: it attains its minimum there. `C94_smooth_general_partial` is about kernels with a free or general
smoothness. `C94_classes_partial` is about several responses and the cross
entropy. With an analytic scale and a free noise the objective is smooth, although it is not the
loss of the trial model (C40). Partial: not for a down-sampled scale (with which the objective is no function, C108). -/
theorem C94_smooth_partial (bs : Flt → ℝ → ℝ) (L : Learner) (hmade : L.Made) (hsuit : L.fn.Suits L.deform.metric)
    (w : NNWrapper) (hw : w.Exact) (hk0 : 0 < w.nnCount) (hs : L.Sensible w) (hb : L.InBounds) (hfree : L.FreeFirst)
    (bc : Nat) (hbc : 0 < bc) (draw : List Nat) (hd : bc < w.N → IsDraw w.N bc draw) (hN : 0 < w.N) (hkN : w.nnCount + 1 ≤ w.N)
    (Y : Tensor ℝ) (hY : Y.shape = [w.N]) (l : LossKind)
    (hl : ∀ batch d, sampleBatch w bc w.N draw = .ok batch → L.trainData batch w.train Y = .ok d → L.SmoothLoss d l) (draws : List (List Nat)) :
    ∃ batch d o, sampleBatch w bc w.N draw = .ok batch ∧ L.trainData batch w.train Y = .ok d ∧ L.gp.getOptParams = .ok o ∧
      ∃ g : (Fin L.freeNames.length → ℝ) → ℝ,
        (∀ x ∈ L.searchBox, arrayObjFn (L.objective bs l draws d) o.names (L.point x) = .ok (some (g x))) ∧
        ContDiffOn ℝ ∞ g L.searchBox ∧ ∃ x ∈ L.searchBox, ∀ y ∈ L.searchBox, g x ≤ g y := by
  obtain ⟨pn, hpn, hpos⟩ := hs.noise
  let K := L.trainee.R.kernel
  have hsuitK : K.fn.Suits K.deform.metric := hsuit
  have hτ : ∀ x ∈ L.searchBox, 0 < L.valueAt "noise" pn x ∨ (0 ≤ L.valueAt "noise" pn x ∧ w.Separated ∧ DistinctRows w.train w.N w.f) := fun x hx => by
    rcases hpos with h | ⟨h, h'⟩
    · exact .inl (valueAt_within L (noise_mem L hpn) h hx).1
    · exact .inr ⟨(valueAt_within L (noise_mem L hpn) h hx).1, h'⟩
  have hlenpos : ∀ x ∈ L.searchBox, ∀ c, 0 < L.lengthsAt w.f x c := fun x hx => hasLengths_pos (trial_lengths L w hs hx)
  have hlenS : ∀ c, ContDiffOn ℝ ∞ (fun x => L.lengthsAt w.f x c) L.searchBox := fun c => (lengthsAt_smooth L w.f c).contDiffOn
  refine objective_smooth bs L hmade w hw hk0 hs hb (free_bounds L hmade hsuit hs) (fun x a b => K.covFn bs (L.lengthsAt w.f x) a b)
    (fun a b => covFn_smooth bs K hsuitK _ _ hlenS hlenpos) (fun x hx L' hacc htr => ?_) pn hpn (fun x hx nn p l e1 e2 e3 e4 => ?_)
    hfree bc hbc draw hd hN hkN Y hY l hl draws
  · obtain ⟨t1, t2, t3⟩ := trial_kernel L L' hmade hsuit _ hacc htr
    exact ⟨t2, t3, fun a b => covFn_formula bs K L'.trainee.R.kernel hsuitK t1 t3 _ a b⟩
  · have hc := nbrCov_definite bs K hsuitK (L.lengthsAt w.f x) (hlenpos x hx) w.train w.N w.nnCount nn p
    have hsuf : (Noise.homoscedastic (L.valueAt "noise" pn x)).Suffices (p + 1) w.nnCount (DistinctNeighbours w.train w.N w.f w.nnCount nn p) :=
      (hτ x hx).imp_right fun h => ⟨h.1, distinct_of_nodup e1 e3 e4 h.2.2⟩
    have hτ₀ : 0 < pn.val.toReal ∨ (0 ≤ pn.val.toReal ∧ w.Separated ∧ DistinctRows w.train w.N w.f) := by
      rcases hpos with h | ⟨h, h'⟩
      · obtain ⟨v, hv, e⟩ := h.current (hb _ (noise_mem L hpn))
        rw [e, fin_toReal]; exact .inl hv
      · obtain ⟨v, hv, e⟩ := h.current (hb _ (noise_mem L hpn))
        rw [e, fin_toReal]; exact .inr ⟨hv, h'⟩
    have hsuf₀ : (Noise.homoscedastic pn.val.toReal).Suffices (p + 1) w.nnCount (DistinctNeighbours w.train w.N w.f w.nnCount nn p) :=
      hτ₀.imp_right fun h => ⟨h.1, distinct_of_nodup e1 e3 e4 h.2.2⟩
    refine ⟨Noise.posdef_of_suffices hsuf (Nat.lt_succ_self p) hc.1 hc.2,
      Noise.posdef_of_suffices hsuf₀ (Nat.lt_succ_self p) hc.1 hc.2, fun i hi hsepi => ?_⟩
    have hv := nbr_variance bs K hsuitK (L.lengthsAt w.f x) (hlenpos x hx) w.train w.N w.nnCount nn p (p + 1) (Nat.lt_succ_self p)
      (rowPt w.train w.f i) (.homoscedastic (L.valueAt "noise" pn x)) hsuf
    obtain ⟨-, -, -, v1, v2⟩ := hv
    rcases hτ x hx with h | ⟨h, hsep, hdist⟩
    · exact v1 hk0 (Matrix.PosDef.one.smul h)
    · rcases h.lt_or_eq with h | h
      · exact v1 hk0 (Matrix.PosDef.one.smul h)
      · refine (v2 ?_ (distinct_of_nodup e1 e3 e4 hdist)).2 fun j hj heq => ?_
        · show L.valueAt "noise" pn x • (1 : Matrix (Fin w.nnCount) (Fin w.nnCount) ℝ) = 0
          rw [← h, zero_smul]
        · obtain ⟨o1, o2⟩ := hsepi hsep j hj
          obtain ⟨c, hc, hne⟩ := hdist _ hi _ o1 (Ne.symm o2)
          have := congrFun heq ⟨c, hc⟩
          simp only [rowPt, pt] at this
          refine hne ?_
          simp only [feature, hw.1] at this ⊢
          exact this

end MuyGPyS
