import Verif.Props.MultiDeep

/-!
# Property C68: a concrete run
-/

namespace MuyGPyS
namespace Deep
open Py

open Classical in
/-- The identity embedding and exact search on a line (of the three points of `lineTrain`). -/
noncomputable def pairEnv (answer : (Fin 1 → ℝ) → Nat → List Nat) : Env Unit Unit where
  bessel := fun _ _ => 0
  embed := fun _ _ _ x => x
  build := fun X k => if X = lineTrain then .ok ⟨3, 1, X, k, fun x y => |x 0 - y 0|, false, answer⟩ else .error .value
  mse := fun _ _ => .ok 0
  bce := fun _ _ => .ok 0
  ce := fun _ _ => .ok 0
  step := fun s p _ => (s, p)

/-- RBF on squared distances with a length scale that is to be trained, noise `ν` and scale `s`. -/
noncomputable def freeModel (ν s : ℝ) : Trainee :=
  ⟨⟨⟨.isotropy .F2 ⟨Flt.fin 1, Flt.fin (1 / 10), Flt.fin 10, false⟩, none, .rbf⟩, MuyGPS.make (.homoscedastic ν) KernelObj.kout s⟩, .fixed⟩

/-- Responses `(0, 0), (1, 2), (0, 0)`. -/
def pairTargets : Tensor ℝ := ⟨[3, 2], fun k => if k = 2 then 1 else if k = 3 then 2 else 0⟩

/-- Batch point 0 with neighbours 1 and 2, two models. -/
noncomputable def pairModule (t : Tensor ℝ) : MultiModule Unit where
  θ := ()
  layer := ⟨[freeModel 1 1, freeModel 2 3], ⟨[1], fun _ => 0⟩, ⟨[1, 2], fun k => if k = 0 then 1 else 2⟩, ⟨[1, 2], fun _ => 0⟩, t⟩
  training := true
  attrNN := none
  attrTargets := none
  tick := 0

theorem pair_refresh (answer : (Fin 1 → ℝ) → Nat → List Nat)
    (hw : NNWrapper.Exact ⟨3, 1, lineTrain, 2, fun x y => |x 0 - y 0|, false, answer⟩) (m : MultiModule Unit) :
    ∃ r, multiRefresh (pairEnv answer) m lineTrain pairTargets ⟨[1], fun _ => 0⟩ 2 = .ok r := by
  obtain ⟨bf, b1, b2, b3⟩ := take_mat (data := lineTrain) (N := 3) (f := 1) rfl (idx := ⟨[1], fun _ => 0⟩) (fun k hk => by
    show -(3:Int) ≤ 0 ∧ (0:Int) < 3
    omega)
  obtain ⟨I, D, q1, q2, q3, q4, q5⟩ := query_ok _ hw bf 1 2 b2 (by omega) (by omega) (by show 2 ≤ 3; omega)
  have hv : AllValid 3 I := by
    refine valid_of_rows (m := 1) (k := 2) q2 fun i hi j hj => ?_
    obtain ⟨x, x1, x2⟩ := rowList_get (q4 i hi) hj
    exact ⟨x, x2, (hw.2 _ 2 (by show 2 ≤ 3; omega)).mem x (List.mem_of_getElem? x1)⟩
  obtain ⟨t, t1, _⟩ := take_mat (data := pairTargets) (N := 3) (f := 2) rfl (idx := I) hv
  obtain ⟨θ, l, tr, a1, a2, tk⟩ := m
  unfold multiRefresh
  simp only [bind, Except.bind, pure, Except.pure]
  rw [b1]
  cases tr <;> (simp only [pairEnv, MultiModule.embedding, Bool.false_eq_true, if_true, if_false]; rw [q1]; simp only; rw [t1]; exact ⟨_, rfl⟩)

/-- Non-vacuity of C68 (`C68_untrained_fails`, `C68_returned_lookup`, `C68_forward_partial`, `C68_predict_partial`, `C68_lool_value`,
`C68_alone_partial`): a training run of one iteration with the default loss and two models whose length scales are to be trained; it
succeeds, returns both models as they were, and the prediction that follows succeeds, each column as predicted alone. -/
example : ∃ (env : Env Unit Unit) (m m' : MultiModule Unit) (w w' : NNWrapper) (batch : Tensor Int) (μ v : Tensor ℝ), w.Exact ∧
    trainMultiDeep env (fun s θ _ => (s, θ)) m () lineTrain pairTargets batch w 1 "lool" 1 = .ok (w', m', ()) ∧
    m'.layer.models = [freeModel 1 1, freeModel 2 3] ∧ m'.training = false ∧
    predictModel env (.multiple m') lineTest lineTrain pairTargets w' 2 = .ok (μ, v) ∧ μ.shape = [2, 2] ∧
    ∃ μ₁ v₁, predictModel env (.single (m'.alone (freeModel 2 3))) lineTest lineTrain (responseVector pairTargets 3 2 1) w' 2 = .ok (μ₁, v₁) ∧
      ∀ p < 2, μ.get [p, 1] = μ₁.get [p] ∧ v.get [p, 1] = 3 * v₁.get [p] := by
  obtain ⟨answer, hw⟩ := exact_index_exists 3 1 2 lineTrain rfl (fun x y => |x 0 - y 0|) false
  have hv0 : AllValid 3 ⟨[1], fun _ => 0⟩ := fun k hk => by show -(3:Int) ≤ 0 ∧ (0:Int) < 3; omega
  have hvn : AllValid 3 ⟨[1, 2], fun k => if k = 0 then 1 else 2⟩ := fun k hk => by
    show -(3:Int) ≤ (if k = 0 then 1 else 2) ∧ (if k = 0 then 1 else 2) < (3:Int)
    split <;> omega
  obtain ⟨nt, n1, n2, n3⟩ := take_mat (data := pairTargets) (N := 3) (f := 2) rfl hvn
  have hall : ∀ P : Trainee → Prop, P (freeModel 1 1) → P (freeModel 2 3) → ∀ T ∈ (pairModule nt).layer.models, P T := by
    intro P h1 h2 T hT
    have : T = freeModel 1 1 ∨ T = freeModel 2 3 := by simpa [pairModule] using hT
    rcases this with rfl | rfl <;> assumption
  have hsuff : ∀ b n D, ∀ T ∈ (pairModule nt).layer.models, T.R.gp.noise.Suffices b n D := fun b n D =>
    hall _ (.inl one_pos) (.inl two_pos)
  have hlen : ∀ T ∈ (pairModule nt).layer.models, T.R.kernel.deform.HasLengths 1 (fun _ : Fin 1 => 1) :=
    hall _ ⟨1, one_pos, rfl, fun _ => rfl⟩ ⟨1, one_pos, rfl, fun _ => rfl⟩
  have hsame : ∀ T ∈ (pairModule nt).layer.models, T.R.kernel.deform.kind = (freeModel 1 1).R.kernel.deform.kind ∧
      T.R.kernel.deform.metric = (freeModel 1 1).R.kernel.deform.metric := hall _ ⟨rfl, rfl⟩ ⟨rfl, rfl⟩
  have hk : ∀ T ∈ (pairModule nt).layer.models, T.R.kernel.make = T.R.kernel := hall _ rfl rfl
  have hko : ∀ T ∈ (pairModule nt).layer.models, T.R.gp.kout = KernelObj.kout := hall _ rfl rfl
  have hsuit : ∀ T ∈ (pairModule nt).layer.models, T.R.kernel.fn.Suits T.R.kernel.deform.metric := hall _ rfl rfl
  have hfit : ∀ b n, ∀ T ∈ (pairModule nt).layer.models, T.R.gp.noise.Fits b n := fun b n => hall _ trivial trivial
  have hrow : ∀ i < 1, ∃ l : List Nat, rowList (pairModule nt).layer.nn 2 i = l.map Int.ofNat ∧ l.Nodup ∧ ∀ x ∈ l, x < 3 := by
    intro i hi
    obtain rfl : i = 0 := by omega
    exact ⟨[1, 2], rfl, by decide, by decide⟩
  obtain ⟨μ, v, f1, f2, f3, f4⟩ := C68_forward_partial (pairEnv answer).bessel (pairModule nt).layer (freeModel 1 1) rfl hsame hk hko lineTrain
    pairTargets 3 1 1 2 (.inl (by norm_num)) (fun _ _ => 1) hlen rfl rfl rfl rfl hv0 hvn n1 (hfit 1 2)
    (fun T hT => nbr_regular _ T.R (hsuit T hT) (fun _ => 1) (hlen T hT) lineTrain 3 2 1 _ hrow (hsuff 1 2 _ T hT))
  obtain ⟨bf, b1, b2, b3⟩ := take_mat (data := lineTrain) (N := 3) (f := 1) rfl hv0
  obtain ⟨br, c1, c2, c3⟩ := take_mat (data := pairTargets) (N := 3) (f := 2) rfl hv0
  obtain ⟨loss, l1, l2⟩ := C68_lool_value (pairEnv answer) 1 2 μ br v f2 c2 f3
  obtain ⟨⟨w1, m1⟩, r1⟩ := pair_refresh answer hw { pairModule nt with training := false, tick := 1 }
  obtain ⟨⟨w2, m2⟩, r2⟩ := pair_refresh answer hw m1
  have hobj : ∃ x, multiObjective (pairEnv answer) loss (pairModule nt) lineTrain br () = .ok x := by
    unfold multiObjective
    simp only [bind, Except.bind]
    rw [show ∀ a b c, (pairEnv answer).embed a b c lineTrain = lineTrain from fun _ _ _ => rfl, f1]
    exact ⟨_, l2⟩
  obtain ⟨x, hx⟩ := hobj
  have hrun : trainMultiDeep (pairEnv answer) (fun s θ _ => (s, θ)) (pairModule nt) () lineTrain pairTargets ⟨[1], fun _ => 0⟩
      ⟨3, 1, lineTrain, 2, fun x y => |x 0 - y 0|, false, answer⟩ 1 "lool" 1 = .ok (w2, m2, ()) := by
    have hit : multiIteration (pairEnv answer) (fun s θ _ => (s, θ)) loss lineTrain pairTargets ⟨[1], fun _ => 0⟩ br 2 1
        (pairModule nt, ()) 0 = .ok (m1, ()) := by
      unfold multiIteration
      simp only [bind, Except.bind, pure, Except.pure]
      rw [show ({ pairModule nt with training := true } : MultiModule Unit) = pairModule nt from rfl, hx]
      simp only [npMod, Nat.zero_mod, ite_self, if_true]
      split
      · rename_i h
        have := h.symm.trans r1
        cases this
      · rename_i h
        have := h.symm.trans r1
        cases this
        rfl
    unfold trainMultiDeep
    simp only [bind, Except.bind, pure, Except.pure]
    rw [b1, c1, l1]
    simp only [List.range_one, List.foldlM_cons, List.foldlM_nil, bind, Except.bind, pure, Except.pure]
    rw [hit]
    simp only
    rw [r2]
  have hlay := (C68_untrained_fails (pairEnv answer) _ (pairModule nt) m2 () () lineTrain pairTargets br ⟨[1], fun _ => 0⟩ _ w2 1 1 "lool" loss
    l1 c1 hrun).1
  obtain ⟨hb, hm⟩ := C68_returned_lookup (pairEnv answer) _ (pairModule nt) m2 () () lineTrain pairTargets ⟨[1], fun _ => 0⟩ _ w2 1 1 "lool" hrun
  have hev : m2.training = false := (hm one_pos).mpr (.inr (by decide))
  have hw2 : w2 = ⟨3, 1, lineTrain, 2, fun x y => |x 0 - y 0|, false, answer⟩ := by
    have : (pairEnv answer).build lineTrain 2 = .ok w2 := hb
    simp only [pairEnv, if_true] at this
    exact (Except.ok.inj this).symm
  subst hw2
  have hmods : m2.layer.models = (pairModule nt).layer.models := by rw [hlay]
  obtain ⟨μ', v', p1, p2, p3, p4⟩ := C68_alone_partial (pairEnv answer) m2 hev lineTrain lineTest pairTargets
    ⟨3, 1, lineTrain, 2, fun x y => |x 0 - y 0|, false, answer⟩ hw rfl (freeModel 1 1) (by rw [hmods]; rfl) (by rw [hmods]; exact hsame)
    (by rw [hmods]; exact hk) (by rw [hmods]; exact hko) (by rw [hmods]; exact hsuit) 2 two_pos 2 (.inl (by norm_num)) (fun _ _ => 1)
    (by rw [hmods]; exact hlen) rfl (by rw [hmods]; rfl) two_pos (by show 2 ≤ 3; norm_num) (by rw [hmods]; exact hfit 2 2)
    (by rw [hmods]; exact hsuff 2 2 _)
  have hl2 : m2.layer.models.length = 2 := by rw [hmods]; rfl
  obtain ⟨μ₁, v₁, a1, a2⟩ := p4 1 (freeModel 2 3) (by rw [hmods]; rfl)
  rw [hl2] at p2 a1
  exact ⟨_, _, m2, _, _, _, μ', v', hw, hrun, hmods, hev, p1, p2, μ₁, v₁, a1, a2⟩

end Deep
end MuyGPyS
