import Verif.Props.MultiPipeline
import Verif.Props.PipelineWitness

/-! # C64: concrete models, training set and optimiser that meet the hypotheses -/

namespace MuyGPyS
open Py Matrix

/-- `lineLearner` with the length scale fixed and scale 2. -/
noncomputable def lineFixed : Learner :=
  ⟨⟨.scalar ⟨Flt.fin 1, Flt.fin 1, Flt.fin 3, true⟩, none⟩, .homoscedastic ⟨Flt.fin 1, Flt.fin 0, Flt.fin 0, true⟩, .F2, false, .rbf,
    .fixed, 2, 2⟩

theorem lineLearner_free : lineLearner.Free :=
  ⟨("length_scale", ⟨Flt.fin 1, Flt.fin 1, Flt.fin 3, false⟩), by
    simp [lineLearner, Learner.gp, GP.params, Kernel.named, LenScale.named], rfl⟩

theorem lineFixed_fixed : lineFixed.AllFixed := by
  intro np h
  simp [lineFixed, Learner.gp, GP.params, Kernel.named, LenScale.named] at h
  rcases h with h | h <;> subst h <;> rfl

theorem two_list {Ls' : List Learner} {A B : Learner} (h : Ls'.length = [lineLearner, lineLearner].length) (h0 : Ls'[0]? = some A)
    (h1 : Ls'[1]? = some B) : Ls' = [A, B] := by
  obtain ⟨x, y, rfl⟩ := List.length_eq_two.mp h
  rw [Option.some.inj h0, Option.some.inj h1]

theorem lineUsable (L : Learner) (hf : L.fn = .rbf) (hs : L.kernel.smoothness = none) (hd : L.deform.metric = .F2)
    (hnoise : L.noise = .homoscedastic ⟨Flt.fin 1, Flt.fin 0, Flt.fin 0, true⟩) (w : NNWrapper) (b : Nat) : L.Usable w b := by
  have hN : L.trainee.R.gp.noise = .homoscedastic 1 := by
    show L.noise.noise = _
    rw [hnoise]; rfl
  refine ⟨?_, ?_, ?_, ?_⟩
  · show (match L.kernel.smoothness with | none => KFn.rbf | some p => setMaternFn p) = _
    rw [hs, hf]
  · rw [hf, hd]; rfl
  · rw [hN]; trivial
  · rw [hN]; exact .inl one_pos

/-- Non-vacuity of `C64_training_succeeds`, `C64_alone`, `C64_do_regress` and `C64_variance_partial`: two models are trained on two
responses and predict at two test points; each is, up to the captured scale, the model trained alone. -/
example (bs : Flt → ℝ → ℝ) : ∃ w : NNWrapper, w.Exact ∧ w.N = 3 ∧ w.nnCount = 2 ∧ ∃ L1 L2 μ v,
    doRegressModel bs lineOpt [] (fun _ => []) 3 w (.list [lineLearner, lineLearner]) lineTest ⟨[3, 2], fun k => k + 1⟩ =
      .ok (.multi [L1, L2], μ, v) ∧
    makeRegressor bs lineOpt [] [] 3 w lineLearner (responseColumn ⟨[3, 2], fun k => k + 1⟩ 0) = .ok L1.make ∧
    makeRegressor bs lineOpt [] [] 3 w lineLearner (responseColumn ⟨[3, 2], fun k => k + 1⟩ 1) = .ok L2.make ∧
    0 < L1.scale ∧ L1.boundScale = 1 := by
  obtain ⟨answer, hw⟩ := line_exact
  set w : NNWrapper := ⟨3, 1, lineTrain, 2, fun x y => |x 0 - y 0|, false, answer⟩ with hwd
  set Y : Tensor ℝ := ⟨[3, 2], fun k => k + 1⟩ with hYd
  have hN : w.N = 3 := rfl
  have hk : w.nnCount = 2 := rfl
  have hn : ∀ L ∈ [lineLearner, lineLearner], L.noise ≠ .null := by simp [lineLearner]
  have hfree : ∀ L ∈ [lineLearner, lineLearner], L.Free := by simp [lineLearner_free]
  have hsame : SameTensors [lineLearner, lineLearner] := by
    intro L hL L' hL'
    simp at hL hL'
    subst hL hL'
    exact ⟨rfl, rfl⟩
  obtain ⟨idx, nn, h1, h2⟩ := C64_training_succeeds bs lineOpt [] (fun _ => []) 3 (by norm_num) w hw (fun h => absurd h (lt_irrefl 3))
    (by rw [hN]; norm_num) (by rw [hk]; norm_num) (by rw [hk, hN]) [lineLearner, lineLearner] (by simp) hn hfree hsame Y rfl
    (by
      intro L hL d
      simp at hL
      subst hL
      exact ⟨_, rfl, rfl, rfl, rfl, rfl, ⟨fun _ => 2, 2, two_pos, rfl, fun _ => rfl⟩, fun b => lineUsable _ rfl rfl rfl rfl w b⟩)
  have hidx : 0 < idx.length := by
    obtain ⟨idx', nn', b1, b2, -⟩ := C42_batch w hw 3 (by norm_num) (by rw [hN]; norm_num) [] (fun h => absurd h (lt_irrefl 3))
      (by rw [hk, hN])
    obtain ⟨rfl, rfl⟩ := Prod.mk.inj (Except.ok.inj (h1.symm.trans b1))
    rw [b2, hN]; norm_num
  obtain ⟨Ls', h3⟩ := h2 fun c hc => ⟨0, hidx, 0, two_pos, by
    rw [Tensor.get2 Y (by rfl : Y.shape = [3, 2])]
    show ((_ : ℕ) : ℝ) + 1 ≠ 0
    positivity⟩
  obtain ⟨a1, batch, a2, a3⟩ := C64_alone bs lineOpt [] (fun _ => []) 3 (by norm_num) w hw (fun h => absurd h (lt_irrefl 3))
    (by rw [hN]; norm_num) (by rw [hk, hN]) _ Ls' hn ⟨_, List.mem_cons_self, lineLearner_free⟩ hsame Y rfl h3
  obtain ⟨A, A1, s, d, e1, e2, e3, e4, e5, e6, e7, e8⟩ := a3 0 lineLearner rfl
  obtain ⟨B, B1, t, d', f1, f2, f3, f4, f5, f6, f7, f8⟩ := a3 1 lineLearner rfl
  have hans : ∀ {L1 d}, (lineLearner.AllFixed ∧ L1 = lineLearner) ∨ (lineLearner.Free ∧ lineOpt lineLearner d = .ok L1) →
      L1 = { lineLearner with kernel := ⟨.scalar ⟨Flt.fin 2, Flt.fin 1, Flt.fin 3, false⟩, none⟩ } := by
    rintro L1 d (⟨h, -⟩ | ⟨-, h⟩)
    · exact absurd lineLearner_free ((not_free_iff _).mpr h)
    · exact (Except.ok.inj h).symm
  have hA := hans e3
  have hB := hans f3
  obtain rfl := two_list a1 e1 f1
  have hall : ∀ L ∈ [A, B], ∃ s : ℝ, 0 < s ∧
      L = { lineLearner with kernel := ⟨.scalar ⟨Flt.fin 2, Flt.fin 1, Flt.fin 3, false⟩, none⟩, scale := s } := by
    intro L hL
    rcases List.mem_cons.mp hL with rfl | hL
    · exact ⟨s, e4, by rw [e5, hA]⟩
    · simp at hL; subst hL; exact ⟨t, f4, by rw [f5, hB]⟩
  obtain ⟨nn', μ, v, -, r1, -⟩ := C64_do_regress bs lineOpt [] (fun _ => []) 3 w hw _ [A, B] lineTest Y h3 (by simp)
    (by
      intro L hL L' hL'
      obtain ⟨s, -, rfl⟩ := hall L hL
      obtain ⟨s', -, rfl⟩ := hall L' hL'
      exact ⟨rfl, rfl⟩)
    2 (by
      intro L hL
      obtain ⟨s, -, rfl⟩ := hall L hL
      exact lineUsable _ rfl rfl rfl rfl w 2)
    (fun _ _ => 2) (by
      intro L hL
      obtain ⟨s, -, rfl⟩ := hall L hL
      exact ⟨2, two_pos, rfl, fun _ => rfl⟩)
    rfl rfl two_pos two_pos (.inl (by rw [hk]; norm_num)) (by rw [hk, hN]; norm_num)
  refine ⟨w, hw, rfl, rfl, A, B, μ, v, r1, e8 lineLearner_free, f8 lineLearner_free, ?_, ?_⟩
  · rw [e5]; exact e4
  · rw [e5, hA]; rfl

/-- Non-vacuity of `C64_variance_fails`: two fixed models with scale 2 report four times the kriging variance. -/
example (bs : Flt → ℝ → ℝ) : ∃ w : NNWrapper, w.Exact ∧ w.N = 3 ∧ w.nnCount = 2 ∧ ∃ nn μ v,
    doRegressModel bs lineOpt [] (fun _ => []) 3 w (.list [lineFixed, lineFixed]) lineTest ⟨[3, 2], fun k => k + 1⟩ =
      .ok (.multi [lineFixed, lineFixed], μ, v) ∧
    v.get [0, 1] ≠ 2 * Spec.krigingVar 1
      (nbrCov bs lineFixed.trainee.R.kernel (fun _ : Fin w.f => 1) w.train w.N w.nnCount nn 0 + lineFixed.trainee.R.gp.noise.mat w.nnCount 0)
      (nbrCross bs lineFixed.trainee.R.kernel (fun _ : Fin w.f => 1) w.train w.N w.nnCount nn 0 (rowPt lineTest w.f 0)) := by
  obtain ⟨answer, hw⟩ := line_exact
  set w : NNWrapper := ⟨3, 1, lineTrain, 2, fun x y => |x 0 - y 0|, false, answer⟩ with hwd
  have hN : w.N = 3 := rfl
  have hk : w.nnCount = 2 := rfl
  have hall : ∀ L ∈ [lineFixed, lineFixed], L = lineFixed := by simp
  obtain ⟨nn, μ, v, -, r1, r2⟩ := C64_variance_fails bs lineOpt [] (fun _ => []) 3 w hw [lineFixed, lineFixed] lineTest
    ⟨[3, 2], fun k => k + 1⟩ (by intro L hL; rw [hall L hL]; simp [lineFixed]) (by intro L hL; rw [hall L hL]; exact lineFixed_fixed)
    (by intro L hL; rw [hall L hL]; rfl) (by simp)
    (by intro L hL L' hL'; rw [hall L hL, hall L' hL']; exact ⟨rfl, rfl⟩) 2
    (by intro L hL; rw [hall L hL]; exact lineUsable _ rfl rfl rfl rfl w 2) (fun _ _ => 1)
    (by intro L hL; rw [hall L hL]; exact ⟨1, one_pos, rfl, fun _ => rfl⟩) rfl rfl two_pos two_pos (.inl (by rw [hk]; norm_num))
    (by rw [hk, hN]; norm_num)
  refine ⟨w, hw, rfl, rfl, nn, μ, v, r1, ?_⟩
  exact (r2 1 lineFixed rfl (by norm_num [lineFixed]) (by norm_num [lineFixed]) 0 two_pos (PosDef.one.smul one_pos)).2

/-- Non-vacuity of `C64_make_classifier`, `C64_classifier_converse` and `C64_do_classify`: two models are trained on two classes
(the second of them fixed) and predict at two test points. -/
example (bs : Flt → ℝ → ℝ) : ∃ w : NNWrapper, w.Exact ∧ w.N = 3 ∧ w.nnCount = 2 ∧ ∃ L1 P,
    doClassifyModel bs lineOpt [] 3 w (.list [lineLearner, lineFixed]) lineTest ⟨[3, 2], fun k => if k = 0 ∨ k = 3 ∨ k = 5 then 1 else -1⟩ =
      .ok (.multi [L1, lineFixed], P) ∧ P.shape = [2, 2] ∧
    L1 = { lineLearner with kernel := ⟨.scalar ⟨Flt.fin 2, Flt.fin 1, Flt.fin 3, false⟩, none⟩ } := by
  obtain ⟨answer, hw⟩ := line_exact
  set w : NNWrapper := ⟨3, 1, lineTrain, 2, fun x y => |x 0 - y 0|, false, answer⟩ with hwd
  set Y : Tensor ℝ := ⟨[3, 2], fun k => if k = 0 ∨ k = 3 ∨ k = 5 then 1 else -1⟩ with hYd
  have hN : w.N = 3 := rfl
  have hk : w.nnCount = 2 := rfl
  have hall : ∀ L ∈ [lineLearner, lineFixed], L = lineLearner ∨ L = lineFixed := by simp
  have hn : ∀ L ∈ [lineLearner, lineFixed], L.noise ≠ .null := by simp [lineLearner, lineFixed]
  have hsame : SameTensors [lineLearner, lineFixed] := by
    intro L hL L' hL'
    rcases hall L hL with rfl | rfl <;> rcases hall L' hL' with rfl | rfl <;> exact ⟨rfl, rfl⟩
  have hfree : ∃ L ∈ [lineLearner, lineFixed], L.Free := ⟨_, List.mem_cons_self, lineLearner_free⟩
  obtain ⟨c, c1, -, -, c2⟩ := C64_classifier_converse lineOpt [] 3 w hw _ hn hfree
    (by intro L hL; rcases hall L hL with rfl | rfl <;> exact ⟨fun _ => 1, 1, one_pos, rfl, fun _ => rfl⟩) Y rfl
    (by rw [hk]; norm_num) (by rw [hk, hN]) (fun L _ _ d => ⟨_, rfl⟩)
  obtain ⟨batch, hb⟩ : ∃ batch, getBalancedBatch w c 3 [] = .ok batch := by
    obtain ⟨F, I, D, h1, h2, h3, -⟩ := filteredIndices_ok w hw c c1 (by rw [hk]; norm_num) (by rw [hk, hN])
    unfold getBalancedBatch
    rw [c1]
    simp only
    rw [if_neg (by rw [hN]; norm_num)]
    unfold fullFilteredBatch
    rw [h3]
    exact ⟨_, rfl⟩
  obtain ⟨Ls', h3⟩ := c2 batch hb
  obtain ⟨c', -, -, batch', -, a1, a2⟩ := C64_make_classifier lineOpt [] 3 w hw _ Ls' hn hfree hsame Y rfl (by rw [hk]; norm_num)
    (by rw [hk, hN]) h3
  obtain ⟨A, d, e1, -, e2⟩ := a2 0 lineLearner rfl
  obtain ⟨B, d', f1, -, f2⟩ := a2 1 lineFixed rfl
  obtain rfl := two_list a1 e1 f1
  have hA : A = { lineLearner with kernel := ⟨.scalar ⟨Flt.fin 2, Flt.fin 1, Flt.fin 3, false⟩, none⟩ } := by
    rcases e2 with ⟨h, -⟩ | ⟨-, h⟩
    · exact absurd lineLearner_free ((not_free_iff _).mpr h)
    · exact (Except.ok.inj h).symm
  have hB : B = lineFixed := by
    rcases f2 with ⟨-, h⟩ | ⟨h, -⟩
    · exact h
    · exact absurd h ((not_free_iff _).mpr lineFixed_fixed)
  subst hA hB
  let len : Learner → Fin w.f → ℝ := fun L => match L.scaleKind with | .fixed => fun _ => 1 | _ => fun _ => 2
  obtain ⟨nn, P, -, r1, r2, -⟩ := C64_do_classify bs lineOpt [] 3 w hw _ _ lineTest Y h3 (by simp)
    (by
      intro L hL L' hL'
      simp at hL hL'
      rcases hL with rfl | rfl <;> rcases hL' with rfl | rfl <;> exact ⟨rfl, rfl⟩)
    2 (by
      intro L hL b
      simp at hL
      rcases hL with rfl | rfl <;> exact lineUsable _ rfl rfl rfl rfl w b)
    len (by
      intro L hL
      simp at hL
      rcases hL with rfl | rfl
      · exact ⟨2, two_pos, rfl, fun _ => rfl⟩
      · exact ⟨1, one_pos, rfl, fun _ => rfl⟩)
    rfl rfl two_pos two_pos (by rw [hk, hN]; norm_num)
  exact ⟨w, hw, rfl, rfl, _, P, r1, r2, rfl⟩

end MuyGPyS
