import Verif.Model.ModelEq
import Verif.Lemmas.Hyper

/-!
# C50: comparing models
-/

namespace MuyGPyS
open Py

/-- The values a model predicts with, by name: every length scale, the smoothness, the noise, the
scale. -/
def GP.valueTable (m : GP) : List (String × Flt) :=
  m.kernel.named.map (fun np => (np.1, np.2.val)) ++
    (match m.noise with
      | .null => [("noise", Flt.fin 0)]
      | .homoscedastic p => [("noise", p.val)]
      | .heteroscedastic _ => []) ++ m.scale.map fun s => ("scale", s)

/-- The model has a scalar noise, a scalar scale, and none of its values is NaN. -/
def GP.Plain (m : GP) : Prop :=
  (∀ np ∈ m.kernel.named, np.2.val ≠ none) ∧ (∀ xs, m.noise ≠ .heteroscedastic xs) ∧
    (∀ p, m.noise = .homoscedastic p → p.val ≠ none) ∧ ∃ s : EReal, m.scale = [some s]

/-- Both models have hyperparameters of the same names (so they are both Matérn or both RBF, and have
the same number of length scales). -/
def GP.SameShape (a b : GP) : Prop := a.kernel.named.map Prod.fst = b.kernel.named.map Prod.fst

theorem eq_of_ne_none {a b : Flt} (ha : a ≠ none) : Flt.eq a b ↔ a = b := by
  constructor
  · rintro ⟨x, rfl, rfl⟩; rfl
  · rintro rfl
    cases a with
    | none => exact absurd rfl ha
    | some x => exact ⟨x, rfl, rfl⟩

theorem eqHyper_same (d : Dict Param) (hd : (d.map Prod.fst).Nodup) (l r : List (String × Param))
    (hsub : ∀ x ∈ r, x ∈ d) (hn : l.map Prod.fst = r.map Prod.fst)
    (hv : ∀ np ∈ l, np.2.val ≠ none) :
    ∃ b, eqHyper d l = .ok b ∧
      (b = true ↔ l.map (fun np => (np.1, np.2.val)) = r.map (fun np => (np.1, np.2.val))) := by
  induction l generalizing r with
  | nil =>
    cases r with
    | nil => exact ⟨true, rfl, by simp⟩
    | cons y r => simp at hn
  | cons x l ih =>
    cases r with
    | nil => simp at hn
    | cons y r =>
      obtain ⟨n, p⟩ := x
      obtain ⟨n', q⟩ := y
      simp only [List.map_cons, List.cons.injEq] at hn
      obtain ⟨rfl, hn⟩ := hn
      have hg : Dict.get? d n = some q := get?_of_mem hd (hsub _ List.mem_cons_self)
      have hp : p.val ≠ none := hv _ List.mem_cons_self
      unfold eqHyper
      simp only [hg]
      by_cases he : Flt.eq p.val q.val
      · rw [if_pos he]
        obtain ⟨b, hb, hiff⟩ := ih r (fun z hz => hsub z (List.mem_cons_of_mem _ hz)) hn
          (fun z hz => hv z (List.mem_cons_of_mem _ hz))
        refine ⟨b, hb, hiff.trans ?_⟩
        rw [eq_of_ne_none hp] at he
        simp [he]
      · rw [if_neg he]
        refine ⟨false, rfl, ?_⟩
        rw [eq_of_ne_none hp] at he
        simp [he]

/-- The scalar the noise contributes. -/
theorem eqNoise_plain {a b : NoiseObj} (ha : ∀ xs, a ≠ .heteroscedastic xs)
    (hb : ∀ xs, b ≠ .heteroscedastic xs) :
    eqNoise a b = .ok (.bool (by classical exact decide (Flt.eq (a.vals.headD none) (b.vals.headD none)))) := by
  unfold eqNoise
  have h1 : a.isArray = false := by cases a <;> simp_all [NoiseObj.isArray]
  have h2 : b.isArray = false := by cases b <;> simp_all [NoiseObj.isArray]
  simp [h1, h2]

/-- **C50** (part). Two models of the same shape, with scalar noise and no NaN among their values, are
equal exactly when every value — each length scale, the smoothness, the noise and the scale — is.
Missing from the full property: models of different shape (`C50_kernel_ignored_fails`,
`C50_asymmetric_fails`, `C50_key_error`), NaN values (`C50_nan_fails`), array noise
(`C50_array_noise_fails`), bounds and metrics (`C50_bounds_ignored`). -/
theorem C50_values_partial (a b : GP) (ha : a.Plain) (hb : b.Plain) (hs : a.SameShape b) :
    ∃ r, a.eq b = .ok r ∧ (r = true ↔ a.valueTable = b.valueTable) := by
  obtain ⟨ha1, ha2, ha3, s, has⟩ := ha
  obtain ⟨hb1, hb2, hb3, s', hbs⟩ := hb
  have hk := eqHyper_same b.kernel.named (kernel_names_nodup b.kernel) a.kernel.named b.kernel.named
    (fun _ h => h) hs ha1
  obtain ⟨r, hr, hiff⟩ := hk
  have hnz : Flt.eq (a.noise.vals.headD none) (b.noise.vals.headD none) ↔
      a.noise.vals.headD none = b.noise.vals.headD none := by
    apply eq_of_ne_none
    cases hn : a.noise with
    | null => simp [NoiseObj.vals, Flt.fin]
    | homoscedastic p => simpa [NoiseObj.vals] using ha3 p hn
    | heteroscedastic xs => exact absurd hn (ha2 xs)
  have htab : a.valueTable = b.valueTable ↔
      a.kernel.named.map (fun np => (np.1, np.2.val)) = b.kernel.named.map (fun np => (np.1, np.2.val)) ∧
        a.noise.vals.headD none = b.noise.vals.headD none ∧ s = s' := by
    have hlen : (a.kernel.named.map (fun np => (np.1, np.2.val))).length =
        (b.kernel.named.map (fun np => (np.1, np.2.val))).length := by
      have := congrArg List.length hs
      simpa using this
    have hone : ∀ m : GP, (∀ xs, m.noise ≠ .heteroscedastic xs) →
        (match m.noise with
          | .null => [("noise", Flt.fin 0)]
          | .homoscedastic p => [("noise", p.val)]
          | .heteroscedastic _ => []) = [("noise", m.noise.vals.headD none)] := by
      intro m hm
      cases hn : m.noise with
      | null => rfl
      | homoscedastic p => rfl
      | heteroscedastic xs => exact absurd hn (hm xs)
    unfold GP.valueTable
    rw [hone a ha2, hone b hb2, has, hbs, List.append_assoc, List.append_assoc]
    constructor
    · intro h
      obtain ⟨h1, h2⟩ := List.append_inj h hlen
      refine ⟨h1, ?_⟩
      simpa using h2
    · rintro ⟨h1, h2, h3⟩
      rw [h1, h2, h3]
  have hsc : eqScale a.scale b.scale = decide (s = s') := by
    rw [Bool.eq_iff_iff, decide_eq_true_iff]
    unfold eqScale
    refine (@decide_eq_true_iff _ (Classical.propDecidable _)).trans ?_
    rw [has, hbs]
    show Flt.eq (some s) (some s') ↔ s = s'
    rw [eq_of_ne_none (by simp)]
    simp
  unfold GP.eq
  rw [hyperparameters_eq, hyperparameters_eq, hr, eqNoise_plain ha2 hb2, hsc]
  simp only [bind, Except.bind, pure, Except.pure, Cmp.truth]
  by_cases h : r = true
  · rw [if_pos h]
    refine ⟨_, rfl, ?_⟩
    rw [htab]
    simp only [Bool.and_eq_true, decide_eq_true_eq, hnz]
    rw [← hiff]
    tauto
  · rw [if_neg h]
    refine ⟨false, rfl, ?_⟩
    rw [htab, ← hiff]
    simp [h]

/-- **C50** (part): on such models the comparison is an equivalence relation. -/
theorem C50_reflexive_partial (a : GP) (ha : a.Plain) : a.eq a = .ok true := by
  obtain ⟨r, hr, hiff⟩ := C50_values_partial a a ha ha rfl
  rw [hr, hiff.2 rfl]

theorem C50_symmetric_partial (a b : GP) (ha : a.Plain) (hb : b.Plain) (hs : a.SameShape b) :
    a.eq b = b.eq a := by
  obtain ⟨r, hr, hiff⟩ := C50_values_partial a b ha hb hs
  obtain ⟨r', hr', hiff'⟩ := C50_values_partial b a hb ha hs.symm
  rw [hr, hr']
  congr 1
  rw [Bool.eq_iff_iff, hiff, hiff']
  exact ⟨Eq.symm, Eq.symm⟩

theorem C50_transitive_partial (a b c : GP) (ha : a.Plain) (hb : b.Plain) (hc : c.Plain)
    (h1 : a.SameShape b) (h2 : b.SameShape c) (hab : a.eq b = .ok true) (hbc : b.eq c = .ok true) :
    a.eq c = .ok true := by
  obtain ⟨r, hr, hiff⟩ := C50_values_partial a b ha hb h1
  obtain ⟨r', hr', hiff'⟩ := C50_values_partial b c hb hc h2
  obtain ⟨r'', hr'', hiff''⟩ := C50_values_partial a c ha hc (h1.trans h2)
  rw [hab] at hr
  rw [hbc] at hr'
  injection hr with hr
  injection hr' with hr'
  rw [hr'', hiff''.2 ((hiff.1 hr.symm).trans (hiff'.1 hr'.symm))]

/-! ## Where it fails -/

/-- A fixed parameter. -/
def fixedAt (x : ℝ) : Param := ⟨Flt.fin x, Flt.fin 0, Flt.fin 0, true⟩

/-- `MuyGPS(RBF(Isotropy(F2, ScalarParam(ℓ))))` and `MuyGPS(Matern(ScalarParam(ν), Isotropy(l2, ScalarParam(ℓ))))`
with a homoscedastic noise and a scale. -/
def rbfGP (ℓ ε : ℝ) : GP := ⟨⟨.scalar (fixedAt ℓ), none⟩, .homoscedastic (fixedAt ε), [Flt.fin 1]⟩
def maternGP (ν ℓ ε : ℝ) : GP :=
  ⟨⟨.scalar (fixedAt ℓ), some (fixedAt ν)⟩, .homoscedastic (fixedAt ε), [Flt.fin 1]⟩

theorem flt_eq_fin (x y : ℝ) : Flt.eq (Flt.fin x) (Flt.fin y) ↔ x = y := by
  unfold Flt.eq Flt.fin
  constructor
  · rintro ⟨z, h1, h2⟩
    simp only [Option.some.injEq] at h1 h2
    exact EReal.coe_eq_coe_iff.1 (h1.trans h2.symm)
  · rintro rfl; exact ⟨_, rfl, rfl⟩

/-- **C50 is false of the code**: an RBF model equals any Matérn model with the same length scale,
noise and scale, whatever its smoothness. -/
theorem C50_kernel_ignored_fails (ν ℓ ε : ℝ) : (rbfGP ℓ ε).eq (maternGP ν ℓ ε) = .ok true := by
  have h1 : eqHyper (maternGP ν ℓ ε).kernel.hyperparameters (rbfGP ℓ ε).kernel.hyperparameters = .ok true := by
    simp [hyperparameters_eq, Kernel.named, rbfGP, maternGP, LenScale.named, eqHyper, Dict.get?,
      flt_eq_fin, fixedAt]
  simp only [GP.eq, h1, bind, Except.bind]
  simp [eqNoise, NoiseObj.isArray, NoiseObj.vals, rbfGP, maternGP, fixedAt, flt_eq_fin, Cmp.truth,
    eqScale, pure, Except.pure]

/-- **C50 is false of the code**: the same comparison the other way round raises a `KeyError`, so
`==` is not symmetric. -/
theorem C50_asymmetric_fails (ν ℓ ε : ℝ) : (maternGP ν ℓ ε).eq (rbfGP ℓ ε) = .error .key ∧
    (rbfGP ℓ ε).eq (maternGP ν ℓ ε) = .ok true := by
  refine ⟨?_, C50_kernel_ignored_fails ν ℓ ε⟩
  have h1 : eqHyper (rbfGP ℓ ε).kernel.hyperparameters (maternGP ν ℓ ε).kernel.hyperparameters
      = .error .key := by
    simp [hyperparameters_eq, Kernel.named, rbfGP, maternGP, LenScale.named, eqHyper, Dict.get?,
      flt_eq_fin, fixedAt]
  simp only [GP.eq, h1, bind, Except.bind]

/-- Exactly when the hyperparameter loop raises: the left model has a hyperparameter the right one
lacks, and all its hyperparameters before it agree. -/
theorem C50_key_error (d : Dict Param) (l : List (String × Param)) :
    eqHyper d l = .error .key ↔ ∃ pre h p post, l = pre ++ (h, p) :: post ∧ Dict.get? d h = none ∧
      ∀ np ∈ pre, ∃ q, Dict.get? d np.1 = some q ∧ Flt.eq np.2.val q.val := by
  induction l with
  | nil => simp [eqHyper]
  | cons x l ih =>
    obtain ⟨h, p⟩ := x
    unfold eqHyper
    cases hg : Dict.get? d h with
    | none =>
      simp only [true_iff]
      exact ⟨[], h, p, l, rfl, hg, by simp⟩
    | some q =>
      simp only
      by_cases he : Flt.eq p.val q.val
      · rw [if_pos he, ih]
        constructor
        · rintro ⟨pre, h', p', post, rfl, hn, hpre⟩
          refine ⟨(h, p) :: pre, h', p', post, rfl, hn, ?_⟩
          intro np hnp
          rcases List.mem_cons.1 hnp with rfl | hnp
          · exact ⟨q, hg, he⟩
          · exact hpre np hnp
        · rintro ⟨pre, h', p', post, heq, hn, hpre⟩
          cases pre with
          | nil =>
            simp only [List.nil_append, List.cons.injEq, Prod.mk.injEq] at heq
            obtain ⟨⟨rfl, rfl⟩, rfl⟩ := heq
            rw [hg] at hn; simp at hn
          | cons y pre =>
            simp only [List.cons_append, List.cons.injEq] at heq
            obtain ⟨rfl, rfl⟩ := heq
            exact ⟨pre, h', p', post, rfl, hn, fun np hnp => hpre np (List.mem_cons_of_mem _ hnp)⟩
      · rw [if_neg he]
        constructor
        · intro hf; simp at hf
        · rintro ⟨pre, h', p', post, heq, hn, hpre⟩
          cases pre with
          | nil =>
            simp only [List.nil_append, List.cons.injEq, Prod.mk.injEq] at heq
            obtain ⟨⟨rfl, rfl⟩, rfl⟩ := heq
            rw [hg] at hn; simp at hn
          | cons y pre =>
            simp only [List.cons_append, List.cons.injEq] at heq
            obtain ⟨rfl, rfl⟩ := heq
            obtain ⟨q', hq', hv⟩ := hpre _ List.mem_cons_self
            rw [hg] at hq'
            injection hq' with hq'
            subst hq'
            exact absurd hv he

/-- **C50 is false of the code**: a model with a NaN length scale does not equal itself. -/
theorem C50_nan_fails (ε : ℝ) :
    let m : GP := ⟨⟨.scalar ⟨none, Flt.fin 0, Flt.fin 0, true⟩, none⟩, .homoscedastic (fixedAt ε), [Flt.fin 1]⟩
    m.eq m = .ok false := by
  intro m
  have h1 : eqHyper m.kernel.hyperparameters m.kernel.hyperparameters = .ok false := by
    simp [hyperparameters_eq, Kernel.named, m, LenScale.named, eqHyper, Dict.get?, Flt.eq]
  simp only [GP.eq, h1, bind, Except.bind]
  simp [m, eqNoise, NoiseObj.isArray, NoiseObj.vals, fixedAt, flt_eq_fin, pure, Except.pure]

/-- **C50 is false of the code**: a model with an array of noise variances of length other than one
cannot be compared with itself: a `ValueError`, for every such array and kernel without NaN. -/
theorem C50_array_noise_fails (k : Kernel) (xs : List Flt) (s : List Flt)
    (hk : ∀ np ∈ k.named, np.2.val ≠ none) (hx : xs.length ≠ 1) :
    let m : GP := ⟨k, .heteroscedastic xs, s⟩
    m.eq m = .error .value := by
  intro m
  obtain ⟨r, hr, hiff⟩ := eqHyper_same k.named (kernel_names_nodup k) k.named k.named (fun _ h => h) rfl hk
  have hrt : r = true := hiff.2 rfl
  subst hrt
  have hn : ∃ bs : List Bool, eqNoise m.noise m.noise = .ok (.array bs) ∧ bs.length = xs.length := by
    unfold eqNoise
    simp only [m, NoiseObj.isArray, NoiseObj.vals, Bool.or_self, if_true]
    match xs, hx with
    | [], _ => exact ⟨[], by simp, rfl⟩
    | [x], h => simp at h
    | x :: y :: l, _ =>
      refine ⟨_, if_pos rfl, ?_⟩
      simp
  obtain ⟨bs, hbs, hlen⟩ := hn
  have ht : (Cmp.array bs).truth = .error .value := by
    match bs, hlen with
    | [], _ => rfl
    | [b], h => simp at h; exact absurd h.symm hx
    | b :: b' :: l, _ => rfl
  simp only [GP.eq]
  rw [show m.kernel.hyperparameters = k.named from hyperparameters_eq k, hr, hbs]
  simp only [bind, Except.bind, ht, if_true]

/-- Bounds and fixedness are not compared: two models that differ in what an optimiser may change are
equal. -/
theorem C50_bounds_ignored (ℓ ε lb ub : ℝ) :
    let m : GP := ⟨⟨.scalar ⟨Flt.fin ℓ, Flt.fin lb, Flt.fin ub, false⟩, none⟩, .homoscedastic (fixedAt ε), [Flt.fin 1]⟩
    m.eq (rbfGP ℓ ε) = .ok true ∧ (rbfGP ℓ ε).eq m = .ok true := by
  intro m
  have pm : m.Plain := ⟨by simp [m, Kernel.named, LenScale.named, Flt.fin], by simp [m],
    by simp [m, fixedAt, Flt.fin], _, rfl⟩
  have pr : (rbfGP ℓ ε).Plain := ⟨by simp [rbfGP, Kernel.named, LenScale.named, Flt.fin, fixedAt],
    by simp [rbfGP], by simp [rbfGP, fixedAt, Flt.fin], _, rfl⟩
  have hs : m.SameShape (rbfGP ℓ ε) := rfl
  obtain ⟨r, hr, hiff⟩ := C50_values_partial m (rbfGP ℓ ε) pm pr hs
  have : r = true := hiff.2 rfl
  subst this
  exact ⟨hr, by rw [← C50_symmetric_partial m _ pm pr hs, hr]⟩

/-! ## Non-vacuity -/

theorem maternGP_plain (ν ℓ ε : ℝ) : (maternGP ν ℓ ε).Plain :=
  ⟨by simp [maternGP, Kernel.named, LenScale.named, Flt.fin, fixedAt], by simp [maternGP],
    by simp [maternGP, fixedAt, Flt.fin], _, rfl⟩

/-- Matérn models that differ in the smoothness are told apart. -/
example : (maternGP 0.5 1 0).eq (maternGP 1.5 1 0) = .ok false := by
  obtain ⟨r, hr, hiff⟩ := C50_values_partial (maternGP 0.5 1 0) (maternGP 1.5 1 0)
    (maternGP_plain _ _ _) (maternGP_plain _ _ _) rfl
  rw [hr]
  cases r with
  | false => rfl
  | true =>
    have := hiff.1 rfl
    simp [GP.valueTable, maternGP, Kernel.named, LenScale.named, fixedAt, Flt.fin,
      EReal.coe_eq_coe_iff] at this
    norm_num at this

end MuyGPyS
