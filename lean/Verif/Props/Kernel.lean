import Verif.Lemmas.Kernel
import Mathlib.Analysis.Complex.Exponential
import Mathlib.Analysis.SpecialFunctions.Exp

/-!
# C10, C11, C18, C19, C20: kernels, deformations and keyword hyperparameters
-/

namespace MuyGPyS
open Py Py.Tensor

/-! ### C10 -/

/-- What the scalar deformations compute, in terms of the length scale in force. -/
theorem scalar_call {df : Deform} (hs : df.Scalar) (D : Tensor ℝ) (kw kw' : Dict Flt)
    (h : Dict.get? kw "length_scale" = Dict.get? kw' "length_scale") :
    df.call D (df.filter kw).1 = df.call D (df.filter kw').1 := by
  have key : ∀ p : Param, inForce kw "length_scale" p = inForce kw' "length_scale" p := by
    intro p; unfold inForce; rw [h]
  cases df with
  | isotropy m p => simp only [Deform.call, Deform.filter, filterScalar_get, key]
  | difference m p => simp only [Deform.call, Deform.filter, filterScalar_get, key]
  | anisotropy m ps => exact absurd hs (by simp [Deform.Scalar])

/-- C10: the result of a kernel call depends on the keywords only through `length_scale` and
`smoothness`: unrelated keywords and keyword order are irrelevant. -/
theorem C10_only_own_keywords (b : Flt → ℝ → ℝ) (k : KernelObj) (hs : k.deform.Scalar)
    (D : Tensor ℝ) (kw kw' : Dict Flt) (hk : Unreserved kw) (hk' : Unreserved kw')
    (h1 : Dict.get? kw "length_scale" = Dict.get? kw' "length_scale")
    (h2 : Dict.get? kw "smoothness" = Dict.get? kw' "smoothness") :
    k.make.call b D kw = k.make.call b D kw' := by
  rw [call_eq b _ (make_wellBound k) D kw hk, call_eq b _ (make_wellBound k) D kw' hk']
  have hd : k.make.deform = k.deform := rfl
  have hsm : k.make.smoothness = k.smoothness := rfl
  rw [hd, scalar_call hs D kw kw' h1]
  have : k.make.smoothInForce kw = k.make.smoothInForce kw' := by
    unfold KernelObj.smoothInForce inForce
    rw [hsm, h2]
  rw [this]

theorem get?_nil (n : String) : Dict.get? ([] : Dict Flt) n = none := rfl

/-- C10: calling with keywords is the same as calling, without keywords, the kernel that stores the
overriding values; a smoothness keyword is only covered for an unfixed smoothness (see
`C10_closed_form_ignores_keyword`). -/
theorem C10_override_partial (b : Flt → ℝ → ℝ) (k : KernelObj) (hs : k.deform.Scalar)
    (D : Tensor ℝ) (kw : Dict Flt) (hk : Unreserved kw)
    (hf : ∀ p, k.smoothness = some p → p.fixed = false ∨ Dict.get? kw "smoothness" = none) :
    k.make.call b D kw = (k.overridden kw).make.call b D [] := by
  rw [call_eq b _ (make_wellBound k) D kw hk,
    call_eq b _ (make_wellBound _) D [] (fun a ha => by simp at ha)]
  have e1 : (k.make.deform).call D (k.make.deform.filter kw).1
      = ((k.overridden kw).make.deform).call D ((k.overridden kw).make.deform.filter []).1 := by
    show (k.deform).call D (k.deform.filter kw).1 = _
    cases hd : k.deform with
    | isotropy m p =>
      have : (k.overridden kw).make.deform = .isotropy m (p.overridden kw "length_scale") := by
        simp only [KernelObj.make, KernelObj.overridden, hd]
      rw [this]
      simp only [Deform.call, Deform.filter, filterScalar_get]
      simp only [inForce, get?_nil, Param.overridden, Option.getD_none]
    | difference m p =>
      have : (k.overridden kw).make.deform = .difference m (p.overridden kw "length_scale") := by
        simp only [KernelObj.make, KernelObj.overridden, hd]
      rw [this]
      simp only [Deform.call, Deform.filter, filterScalar_get]
      simp only [inForce, get?_nil, Param.overridden, Option.getD_none]
    | anisotropy m ps => rw [hd] at hs; exact absurd hs (by simp [Deform.Scalar])
  have e2 : k.make.smoothInForce kw = (k.overridden kw).make.smoothInForce [] := by
    unfold KernelObj.smoothInForce
    simp only [KernelObj.make, KernelObj.overridden]
    cases k.smoothness with
    | none => rfl
    | some p => simp [Param.overridden, inForce, get?_nil]
  have e3 : k.make.fn = (k.overridden kw).make.fn := by
    simp only [KernelObj.make, KernelObj.overridden]
    cases h : k.smoothness with
    | none => rfl
    | some p =>
      simp only [Option.map_some]
      rcases hf p h with h' | h'
      · simp [setMaternFn, Param.overridden, h']
      · simp only [Param.overridden, inForce, h', Option.getD_none]
  rw [e1, e2, e3]

/-- C10 fails for a smoothness fixed at a closed-form value: the keyword is silently ignored. -/
theorem C10_closed_form_ignores_keyword (b : Flt → ℝ → ℝ) (df : Deform) (p : Param) (fn : KFn)
    (hfix : p.fixed = true) (hval : p.val = Flt.fin (1 / 2) ∨ p.val = Flt.fin (3 / 2) ∨
      p.val = Flt.fin (5 / 2) ∨ p.val = some ⊤) (hs : df.Scalar) (D : Tensor ℝ) (s : Flt) :
    (KernelObj.mk df (some p) fn).make.call b D [("smoothness", s)]
      = (KernelObj.mk df (some p) fn).make.call b D [] := by
  have hu : Unreserved [("smoothness", s)] := by
    intro a ha
    simp only [List.mem_singleton] at ha
    subst ha
    simp
  rw [call_eq b _ (make_wellBound _) D _ hu, call_eq b _ (make_wellBound _) D [] (fun a ha => by simp at ha)]
  have hfn : (KernelObj.mk df (some p) fn).make.fn ≠ .gen := by
    simp only [KernelObj.make, setMaternFn, hfix, if_true]
    rcases hval with h | h | h | h
    · rw [if_pos h]; simp
    · split_ifs <;> simp
    · split_ifs <;> simp
    · split_ifs <;> simp
  have hd : (KernelObj.mk df (some p) fn).make.deform = df := rfl
  rw [hd, scalar_call hs D [("smoothness", s)] [] (by
    simp [Dict.get?]), value_indep hfn]

/-- C10 fails, concretely: a Matérn kernel fixed at smoothness 1/2 and called with
`smoothness=inf` does not return what the kernel fixed at infinity returns. -/
theorem C10_closed_form_witness (b : Flt → ℝ → ℝ) :
    let one : Param := ⟨Flt.fin 1, Flt.fin 0, Flt.fin 0, true⟩
    let half : Param := ⟨Flt.fin (1 / 2), Flt.fin 0, Flt.fin 0, true⟩
    let top : Param := ⟨some ⊤, Flt.fin 0, Flt.fin 0, true⟩
    let D : Tensor ℝ := ⟨[1, 1], fun _ => 1⟩
    (KernelObj.mk (.isotropy .l2 one) (some half) .gen).make.call b D [("smoothness", some ⊤)]
      ≠ (KernelObj.mk (.isotropy .l2 one) (some top) .gen).make.call b D [] := by
  intro one half top D
  rw [C10_closed_form_ignores_keyword b _ half .gen rfl (.inl rfl) (by simp [Deform.Scalar])]
  have hu : Unreserved [] := fun a ha => by simp at ha
  rw [call_eq b _ (make_wellBound _) D [] hu, call_eq b _ (make_wellBound _) D [] hu]
  have f1 : (KernelObj.mk (.isotropy .l2 one) (some half) .gen).make.fn = .m05 := by
    simp [KernelObj.make, setMaternFn, half]
  have f2 : (KernelObj.mk (.isotropy .l2 one) (some top) .gen).make.fn = .minf := by
    simp [KernelObj.make, setMaternFn, top, Flt.fin]
  have d1 : ∀ q fn, (KernelObj.mk (.isotropy .l2 one) q fn).make.deform = .isotropy .l2 one := fun _ _ => rfl
  rw [f1, f2, d1, d1]
  simp only [Deform.call, Deform.filter, filterScalar_get, inForce, get?_nil, Option.getD_none]
  intro h
  have h0 := congrArg (fun r => match r with | .ok t => t.flat 0 | .error _ => 0) h
  simp [Tensor.map, KFn.value, Metric.scaleBy, D, one, Flt.toReal, Flt.fin] at h0
  norm_num at h0

/-- C10 fails after a direct value assignment: the implementation chosen by the last `_make` is
still used. -/
theorem C10_stale_after_set (b : Flt → ℝ → ℝ) (df : Deform) (p q : Param) (fn : KFn)
    (hfix : p.fixed = true) (hval : p.val = Flt.fin (1 / 2)) (D : Tensor ℝ) :
    ({ (KernelObj.mk df (some p) fn).make with smoothness := some q }).call b D []
      = (KernelObj.mk df (some p) fn).make.call b D [] := by
  have hu : Unreserved [] := fun a ha => by simp at ha
  have f1 : (KernelObj.mk df (some p) fn).make.fn = .m05 := by
    simp [KernelObj.make, setMaternFn, hfix, hval]
  have w : (KernelObj.mk df (some q) KFn.m05).WellBound := by simp [KernelObj.WellBound]
  have e : ({ (KernelObj.mk df (some p) fn).make with smoothness := some q } : KernelObj)
      = KernelObj.mk df (some q) .m05 := by
    rw [← f1]; rfl
  rw [e, call_eq b _ w D [] hu, call_eq b _ (make_wellBound _) D [] hu, f1]
  rfl

/-- Non-vacuity of C10: a free length scale and smoothness, overridden together with an unrelated
keyword. -/
example (b : Flt → ℝ → ℝ) (D : Tensor ℝ) :
    let free : Param := ⟨Flt.fin 1, Flt.fin 0, Flt.fin 3, false⟩
    let k := KernelObj.mk (.isotropy .l2 free) (some free) .gen
    k.make.call b D [("noise", Flt.fin 7), ("smoothness", Flt.fin 2), ("length_scale", Flt.fin 3)]
      = .ok (D.map fun x => b (Flt.fin 2) (x / 3)) := by
  intro free k
  rw [C10_override_partial b k (by simp [k, Deform.Scalar]) D _ (by
    intro a ha
    simp only [List.mem_cons, List.not_mem_nil, or_false] at ha
    rcases ha with rfl | rfl | rfl <;> simp) (by
    intro p hp
    left
    simp only [k, Option.some.injEq] at hp
    rw [← hp])]
  rw [call_eq b _ (make_wellBound _) D [] (fun a ha => by simp at ha)]
  simp [KernelObj.make, KernelObj.overridden, k, free, Deform.call, Deform.filter, filterScalar_get,
    Param.overridden, inForce, Dict.get?, setMaternFn, KernelObj.smoothInForce, KFn.value, Metric.scaleBy,
    Flt.toReal, Flt.fin, Tensor.map, Dict.setdefault, Dict.has, filterScalar]

/-! ### C11 -/

/-- Division of a tensor by a vector of matching length. -/
theorem divLast_ok {s : List Nat} {f : Nat} {D : Tensor ℝ} (hs : D.shape = s ++ [f]) {v : List ℝ}
    (hv : v.length = f) :
    divLast D v = .ok ⟨s ++ [f], fun k => D.flat k / v.getD (k % f) 0⟩ := by
  unfold divLast
  have : D.shape.getLast? = some f := by rw [hs]; simp
  rw [this]
  simp only
  rw [if_pos hv, hs]

/-- C11, what the code does in general: the tensor is divided by the supplied values in keyword
order followed by the stored values of the dimensions that were not supplied. -/
theorem C11_actual (m : Metric) (ps : List Param) (s : List Nat) (D : Tensor ℝ)
    (hs : D.shape = s ++ [ps.length]) (kw : Dict Flt) (hl : (aniValues ps kw).length = ps.length) :
    ∃ T, (Deform.anisotropy m ps).call D ((Deform.anisotropy m ps).filter kw).1 = .ok T ∧ T.shape = s ∧
      ∀ k, T.flat k = distOf m (fun c : Fin ps.length =>
        D.flat (k * ps.length + c) / ((aniValues ps kw).getD c none).toReal) 0 := by
  have hlast : D.shape.getLast? = some ps.length := by rw [hs]; simp
  have hdiv := divLast_ok hs (v := (aniValues ps kw).map Flt.toReal) (by rw [List.length_map, hl])
  obtain ⟨T, h1, h2, h3⟩ := C17_any_rank m s ps.length
    ⟨s ++ [ps.length], fun k => D.flat k / ((aniValues ps kw).map Flt.toReal).getD (k % ps.length) 0⟩ rfl
  refine ⟨T, ?_, h2, fun k => ?_⟩
  · simp only [Deform.call, Deform.filter, hlast, if_true, filterVector_values, hdiv, h1]
  · rw [h3 k]
    congr 1
    funext c
    simp only
    rw [mod_aux c.2]
    congr 1
    have hc : (c : Nat) < (aniValues ps kw).length := by rw [hl]; exact c.2
    simp [List.getD_eq_getElem?_getD, hc]

/-- C11 for the whole kernel: when the supplied length scales are those of the first dimensions, in
order (in particular: none supplied, or all supplied in order), every dimension of the difference
tensor is divided by its own length scale — the keyword if supplied, else the stored value. Any other
subset or order gives wrong results (`C11_swapped_fails`). -/
theorem C11_own_dimension_partial (b : Flt → ℝ → ℝ) (m : Metric) (ps : List Param) (sm : Option Param)
    (fn : KFn) (s : List Nat) (D : Tensor ℝ) (hs : D.shape = s ++ [ps.length]) (kw : Dict Flt)
    (hk : Unreserved kw) (hn : (kw.map Prod.fst).Nodup) (n : Nat) (hnl : n ≤ ps.length)
    (hp : (kw.filter fun a => startsLS a.1).map Prod.fst = (List.range n).map (vecName "length_scale")) :
    let k := (KernelObj.mk (.anisotropy m ps) sm fn).make
    ∃ T : Tensor ℝ, k.call b D kw = .ok (T.map (KFn.value b (k.smoothInForce kw) k.fn)) ∧ T.shape = s ∧
      ∀ j, T.flat j = distOf m (fun c : Fin ps.length =>
        D.flat (j * ps.length + c) / lengthInForce ps kw c) 0 := by
  intro k
  have hv := aniValues_prefix ps kw hn n hnl hp
  obtain ⟨T, h1, h2, h3⟩ := C11_actual m ps s D hs kw (by rw [hv]; simp)
  refine ⟨T, ?_, h2, fun j => ?_⟩
  · rw [call_eq b _ (make_wellBound _) D kw hk]
    have : k.deform = .anisotropy m ps := rfl
    rw [this, h1]
  · rw [h3 j, hv]
    congr 1
    funext c
    congr 1
    unfold lengthInForce
    simp [List.getD_eq_getElem?_getD, List.getElem?_map, List.getElem?_range c.2]

/-- C11 fails in the code: overriding only the second of two length scales swaps them. -/
theorem C11_swapped_fails (m : Metric) (p0 p1 : Param) (v : Flt) (D : Tensor ℝ) (s : List Nat)
    (hs : D.shape = s ++ [2]) :
    ∃ T, (Deform.anisotropy m [p0, p1]).call D
        ((Deform.anisotropy m [p0, p1]).filter [("length_scale1", v)]).1 = .ok T ∧ T.shape = s ∧
      ∀ k, T.flat k = distOf m ![D.flat (k * 2) / v.toReal, D.flat (k * 2 + 1) / p0.val.toReal] 0 := by
  have e0 : vecName "length_scale" 0 = "length_scale0" := by decide
  have e1 : vecName "length_scale" 1 = "length_scale1" := by decide
  have hst : startsLS "length_scale1" = true := by decide
  have hv : aniValues [p0, p1] [("length_scale1", v)] = [v, p0.val] := by
    simp [aniValues, namedFrom, e0, e1, Dict.has, hst]
  obtain ⟨T, h1, h2, h3⟩ := C11_actual m [p0, p1] s D hs [("length_scale1", v)] (by rw [hv]; rfl)
  refine ⟨T, h1, h2, fun k => ?_⟩
  rw [h3 k, hv]
  congr 1
  funext c
  match c with
  | 0 => rfl
  | 1 => rfl

/-- C11, concretely: with stored length scales `1` and `1`, overriding the second one by `2` measures
the difference `(2, 0)` as `1` instead of `2`. -/
theorem C11_swapped_witness :
    let one : Param := ⟨Flt.fin 1, Flt.fin 0, Flt.fin 5, false⟩
    let D : Tensor ℝ := ⟨[1, 1, 2], fun k => if k = 0 then 2 else 0⟩
    ∃ T, (Deform.anisotropy .F2 [one, one]).call D
        ((Deform.anisotropy .F2 [one, one]).filter [("length_scale1", Flt.fin 2)]).1 = .ok T ∧
      T.flat 0 = 1 ∧
      distOf .F2 (fun c : Fin 2 => D.flat (0 * 2 + c) /
        lengthInForce [one, one] [("length_scale1", Flt.fin 2)] c) 0 = 4 := by
  intro one D
  obtain ⟨T, h1, _, h3⟩ := C11_swapped_fails .F2 one one (Flt.fin 2) D [1, 1] rfl
  have e0 : vecName "length_scale" 0 = "length_scale0" := by decide
  have e1 : vecName "length_scale" 1 = "length_scale1" := by decide
  refine ⟨T, h1, ?_, ?_⟩
  · rw [h3 0, distOf_F2]
    simp [D, one, Flt.toReal, Flt.fin]
  · rw [distOf_F2]
    simp [D, one, Flt.toReal, Flt.fin, lengthInForce, e0, e1, inForce, Dict.get?]
    norm_num

/-- C11: a superfluous length-scale keyword is a `ValueError` when there are at least two
dimensions. -/
theorem C11_extra_rejected (m : Metric) (ps : List Param) (s : List Nat) (D : Tensor ℝ)
    (hs : D.shape = s ++ [ps.length]) (h2 : 2 ≤ ps.length) (kw : Dict Flt)
    (hl : ps.length < (aniValues ps kw).length) :
    (Deform.anisotropy m ps).call D ((Deform.anisotropy m ps).filter kw).1 = .error .value := by
  have hlast : D.shape.getLast? = some ps.length := by rw [hs]; simp
  simp only [Deform.call, Deform.filter, hlast, if_true, filterVector_values, divLast, List.length_map]
  rw [if_neg (by omega), if_neg (by omega), if_neg (by omega)]

/-- Non-vacuity of C11: three dimensions, the first two overridden, with an unrelated keyword in
between. -/
example (p : Param) (D : Tensor ℝ) (hD : D.shape = [4, 2] ++ [3]) (b : Flt → ℝ → ℝ) :
    let k := (KernelObj.mk (.anisotropy .F2 [p, p, p]) none .rbf).make
    let kw : Dict Flt := [("length_scale0", Flt.fin 2), ("noise", Flt.fin 0), ("length_scale1", Flt.fin 4)]
    ∃ T : Tensor ℝ, k.call b D kw = .ok (T.map (KFn.value b (k.smoothInForce kw) k.fn)) ∧ T.shape = [4, 2] := by
  intro k kw
  have e0 : vecName "length_scale" 0 = "length_scale0" := by decide
  have e1 : vecName "length_scale" 1 = "length_scale1" := by decide
  obtain ⟨T, h1, h2, _⟩ := C11_own_dimension_partial b .F2 [p, p, p] none .rbf [4, 2] D hD kw
    (by
      intro a ha
      simp only [kw, List.mem_cons, List.not_mem_nil, or_false] at ha
      rcases ha with rfl | rfl | rfl <;> simp)
    (by simp [kw]) 2 (by simp)
    (by
      have s0 : startsLS "length_scale0" = true := by decide
      have s1 : startsLS "length_scale1" = true := by decide
      have s2 : startsLS "noise" = false := by decide
      simp [kw, s0, s1, s2, List.range_succ, e0, e1])
  exact ⟨T, h1, h2⟩

/-! ### C18 -/

/-- C18: for a positive length scale, distance isotropy applied to the distances, difference isotropy
applied to the differences and anisotropy with that length scale in every dimension give the same
scaled distances, for both metrics. -/
theorem C18_deformations_agree (m : Metric) (s : List Nat) (D : Tensor ℝ) (p : Param) (ps : List Param)
    (len : ℝ) (hlen : 0 < len) (hp : p.val = Flt.fin len) (hps : ∀ q ∈ ps, q.val = Flt.fin len)
    (hs : D.shape = s ++ [ps.length]) :
    ∃ S T, m.apply D = .ok S ∧
      (Deform.isotropy m p).call S ((Deform.isotropy m p).filter []).1 = .ok T ∧
      (Deform.difference m p).call D ((Deform.difference m p).filter []).1 = .ok T ∧
      (Deform.anisotropy m ps).call D ((Deform.anisotropy m ps).filter []).1 = .ok T := by
  have hlast : D.shape.getLast? = some ps.length := by rw [hs]; simp
  have hv : aniValues ps [] = ps.map (fun q => q.val) := by
    simp [aniValues, Dict.has, namedFrom_vals]
  have hdiv := divLast_ok hs (v := (aniValues ps []).map Flt.toReal) (by rw [hv]; simp)
  have hF : F2 D = .ok ⟨s, fun k => ∑ c : Fin ps.length, D.flat (k * ps.length + c) ^ 2⟩ := by
    unfold F2; rw [hlast, hs]; simp
  have hreal : (Flt.fin len).toReal = len := by simp [Flt.toReal, Flt.fin]
  have hF' : F2 (D.map fun x => x / len)
      = .ok ⟨s, fun k => (∑ c : Fin ps.length, D.flat (k * ps.length + c) ^ 2) / len ^ 2⟩ := by
    unfold F2
    have : (D.map fun x => x / len).shape = s ++ [ps.length] := hs
    rw [this]
    simp only [List.getLast?_append, List.getLast?_singleton, Option.some_or, List.dropLast_concat]
    congr 2
    funext k
    rw [Finset.sum_div]
    exact Finset.sum_congr rfl fun c _ => by simp only [Tensor.map]; rw [div_pow]
  have hF3 : F2 ⟨s ++ [ps.length], fun k => D.flat k /
        ((aniValues ps []).map Flt.toReal).getD (k % ps.length) 0⟩
      = .ok ⟨s, fun k => (∑ c : Fin ps.length, D.flat (k * ps.length + c) ^ 2) / len ^ 2⟩ := by
    unfold F2
    simp only [List.getLast?_append, List.getLast?_singleton, Option.some_or, List.dropLast_concat]
    congr 2
    funext k
    rw [Finset.sum_div]
    refine Finset.sum_congr rfl fun c _ => ?_
    rw [mod_aux c.2, div_pow]
    congr 2
    rw [hv]
    have hc := hps ps[c] (List.getElem_mem c.2)
    simp only [List.map_map, List.getD_eq_getElem?_getD, List.getElem?_map,
      List.getElem?_eq_getElem c.2, Option.map_some, Option.getD_some, Function.comp]
    rw [show ps[(c : Nat)].val = _ from hc, hreal]
  have hin : inForce [] "length_scale" p = Flt.fin len := by simp [inForce, get?_nil, hp]
  cases m with
  | F2 =>
    refine ⟨_, ⟨s, fun k => (∑ c : Fin ps.length, D.flat (k * ps.length + c) ^ 2) / len ^ 2⟩, hF, ?_, ?_, ?_⟩
    · simp only [Deform.call, Deform.filter, filterScalar_get, hin, hreal, Metric.scaleBy]
      rfl
    · simp only [Deform.call, Deform.filter, filterScalar_get, hin, hreal, Metric.apply]
      rw [hF']
    · simp only [Deform.call, Deform.filter, hlast, if_true, filterVector_values, hdiv, Metric.apply]
      rw [hF3]
  | l2 =>
    have hsq : ∀ x : ℝ, Real.sqrt (x / len ^ 2) = Real.sqrt x / len := by
      intro x
      rw [Real.sqrt_div' _ (sq_nonneg len), Real.sqrt_sq hlen.le]
    refine ⟨_, ⟨s, fun k => Real.sqrt (∑ c : Fin ps.length, D.flat (k * ps.length + c) ^ 2) / len⟩,
      l2_of_F2 hF, ?_, ?_, ?_⟩
    · simp only [Deform.call, Deform.filter, filterScalar_get, hin, hreal, Metric.scaleBy]
      rfl
    · simp only [Deform.call, Deform.filter, filterScalar_get, hin, hreal, Metric.apply]
      rw [l2_of_F2 hF']
      simp only [Tensor.map, hsq]
    · simp only [Deform.call, Deform.filter, hlast, if_true, filterVector_values, hdiv, Metric.apply]
      rw [l2_of_F2 hF3]
      simp only [Tensor.map, hsq]

/-- C18: an anisotropy whose length-scale count differs from the feature count is a `ValueError`. -/
theorem C18_count_mismatch (m : Metric) (ps : List Param) (s : List Nat) (f : Nat) (D : Tensor ℝ)
    (hs : D.shape = s ++ [f]) (hf : f ≠ ps.length) (params : Dict Flt) :
    (Deform.anisotropy m ps).call D params = .error .value := by
  have hlast : D.shape.getLast? = some f := by rw [hs]; simp
  simp only [Deform.call, hlast]
  rw [if_neg hf]

/-- Non-vacuity of C18. -/
example : ∃ (p : Param) (D : Tensor ℝ), p.val = Flt.fin 2 ∧ (0 : ℝ) < 2 ∧
    (∀ q ∈ [p, p, p], q.val = Flt.fin 2) ∧ D.shape = [5, 4] ++ [[p, p, p].length] :=
  ⟨⟨Flt.fin 2, Flt.fin 0, Flt.fin 0, true⟩, ⟨[5, 4, 3], fun _ => 1⟩, rfl, by norm_num, by simp, rfl⟩

/-! ### C19 -/

/-- The kernel implementations with a closed form. -/
def KFn.closed (fn : KFn) : Prop := fn ≠ .gen

theorem m15_anti {a c : ℝ} (ha : 0 ≤ a) (h : a < c) :
    (1 + c) * Real.exp (-c) < (1 + a) * Real.exp (-a) := by
  have h1 : c - a + 1 < Real.exp (c - a) := Real.add_one_lt_exp (by linarith)
  have h2 : Real.exp (-a) = Real.exp (c - a) * Real.exp (-c) := by
    rw [← Real.exp_add]; congr 1; ring
  rw [h2, ← mul_assoc]
  refine mul_lt_mul_of_pos_right ?_ (Real.exp_pos _)
  have : (1 + a) * (c - a + 1) < (1 + a) * Real.exp (c - a) := mul_lt_mul_of_pos_left h1 (by linarith)
  nlinarith

theorem m25_anti {a c : ℝ} (ha : 0 ≤ a) (h : a < c) :
    (1 + c + c ^ 2 / 3) * Real.exp (-c) < (1 + a + a ^ 2 / 3) * Real.exp (-a) := by
  have h1 : 1 + (c - a) + (c - a) ^ 2 / 2 ≤ Real.exp (c - a) :=
    Real.quadratic_le_exp_of_nonneg (by linarith)
  have h2 : Real.exp (-a) = Real.exp (c - a) * Real.exp (-c) := by
    rw [← Real.exp_add]; congr 1; ring
  rw [h2, ← mul_assoc]
  refine mul_lt_mul_of_pos_right ?_ (Real.exp_pos _)
  have hpos : 0 < 1 + a + a ^ 2 / 3 := by positivity
  have h3 := mul_le_mul_of_nonneg_left h1 hpos.le
  refine lt_of_lt_of_le ?_ h3
  obtain ⟨t, rfl⟩ : ∃ t, c = a + t := ⟨c - a, by ring⟩
  have ht : 0 < t := by linarith
  have : a + t - a = t := by ring
  rw [this]
  have h4 : 0 ≤ t * a := by positivity
  have h5 : 0 ≤ t * a ^ 2 := by positivity
  have h6 : 0 ≤ t ^ 2 * a := by positivity
  have h7 : 0 ≤ t ^ 2 * a ^ 2 := by positivity
  have h8 : 0 < t ^ 2 := by positivity
  nlinarith

/-- C19: every closed-form kernel strictly decreases on non-negative distances. -/
theorem C19_strictly_decreasing (b : Flt → ℝ → ℝ) (s : Flt) (fn : KFn) (hfn : fn.closed) :
    StrictAntiOn (KFn.value b s fn) (Set.Ici 0) := by
  intro x hx y hy hxy
  have hx0 : 0 ≤ x := hx
  cases fn with
  | gen => exact absurd rfl hfn
  | rbf => simp only [KFn.value]; exact Real.exp_lt_exp.mpr (by linarith)
  | m05 => simp only [KFn.value]; exact Real.exp_lt_exp.mpr (by linarith)
  | m15 =>
    simp only [KFn.value]
    have h3 : (0 : ℝ) < Real.sqrt 3 := Real.sqrt_pos.mpr (by norm_num)
    exact m15_anti (by positivity) (mul_lt_mul_of_pos_right hxy h3)
  | m25 =>
    simp only [KFn.value]
    have h5 : (0 : ℝ) < Real.sqrt 5 := Real.sqrt_pos.mpr (by norm_num)
    exact m25_anti (by positivity) (mul_lt_mul_of_pos_right hxy h5)
  | minf =>
    simp only [KFn.value]
    refine Real.exp_lt_exp.mpr ?_
    have : x ^ 2 < y ^ 2 := by nlinarith
    linarith

theorem value_zero (b : Flt → ℝ → ℝ) (s : Flt) (fn : KFn) (hfn : fn.closed) : KFn.value b s fn 0 = 1 := by
  cases fn with
  | gen => exact absurd rfl hfn
  | _ => simp [KFn.value]

/-- C19: every closed-form kernel maps a non-negative distance into `(0, 1]` and takes the value `1`
exactly at distance `0`. -/
theorem C19_correlation (b : Flt → ℝ → ℝ) (s : Flt) (fn : KFn) (hfn : fn.closed) (d : ℝ) (hd : 0 ≤ d) :
    0 < KFn.value b s fn d ∧ KFn.value b s fn d ≤ 1 ∧ (KFn.value b s fn d = 1 ↔ d = 0) := by
  have h0 := value_zero b s fn hfn
  have hanti := C19_strictly_decreasing b s fn hfn
  have hpos : 0 < KFn.value b s fn d := by
    cases fn with
    | gen => exact absurd rfl hfn
    | _ => simp only [KFn.value]; positivity
  have hle : KFn.value b s fn d ≤ 1 := by
    rw [← h0]; exact hanti.antitoneOn (Set.mem_Ici.mpr le_rfl) (Set.mem_Ici.mpr hd) hd
  refine ⟨hpos, hle, fun h => ?_, fun h => by rw [h, h0]⟩
  by_contra hne
  have : KFn.value b s fn d < KFn.value b s fn 0 :=
    hanti (Set.mem_Ici.mpr le_rfl) (Set.mem_Ici.mpr hd) (lt_of_le_of_ne hd (Ne.symm hne))
  rw [h0, h] at this
  exact lt_irrefl _ this

/-- C19 at the level of a kernel call: an isotropic RBF or closed-form Matérn kernel with a positive
length scale turns a tensor of non-negative distances into a tensor of the same shape with entries in
`(0, 1]`, equal to one exactly where the distance is zero, in strictly reversed order. -/
theorem C19_kernel_call (b : Flt → ℝ → ℝ) (m : Metric) (p : Param) (sm : Option Param) (fn : KFn)
    (len : ℝ) (hlen : 0 < len) (hp : p.val = Flt.fin len)
    (hsm : ∀ q, sm = some q → q.fixed = true ∧ (q.val = Flt.fin (1 / 2) ∨ q.val = Flt.fin (3 / 2) ∨
      q.val = Flt.fin (5 / 2) ∨ q.val = some ⊤)) (D : Tensor ℝ) (hD : ∀ k, 0 ≤ D.flat k) :
    ∃ T, (KernelObj.mk (.isotropy m p) sm fn).make.call b D [] = .ok T ∧ T.shape = D.shape ∧
      ∀ k, 0 < T.flat k ∧ T.flat k ≤ 1 ∧ (T.flat k = 1 ↔ D.flat k = 0) ∧
        ∀ l, D.flat k < D.flat l → T.flat l < T.flat k := by
  set k0 := (KernelObj.mk (.isotropy m p) sm fn).make with hk0
  have hcl : k0.fn.closed := by
    unfold KFn.closed
    cases sm with
    | none => simp [hk0, KernelObj.make]
    | some q =>
      obtain ⟨h1, h2⟩ := hsm q rfl
      simp only [hk0, KernelObj.make, setMaternFn, h1, if_true]
      rcases h2 with h | h | h | h
      · rw [if_pos h]; simp
      · split_ifs <;> simp
      · split_ifs <;> simp
      · split_ifs <;> simp
  have hcall := call_eq b k0 (make_wellBound _) D [] (fun a ha => by simp at ha)
  have hd : k0.deform = .isotropy m p := rfl
  have hin : inForce [] "length_scale" p = Flt.fin len := by simp [inForce, get?_nil, hp]
  have hreal : (Flt.fin len).toReal = len := by simp [Flt.toReal, Flt.fin]
  rw [hd] at hcall
  simp only [Deform.call, Deform.filter, filterScalar_get, hin, hreal] at hcall
  refine ⟨_, hcall, rfl, fun k => ?_⟩
  have hmono : ∀ x y, x < y → m.scaleBy x len < m.scaleBy y len := by
    intro x y hxy
    cases m <;> simp only [Metric.scaleBy] <;> exact div_lt_div_of_pos_right hxy (by positivity)
  have hz : m.scaleBy 0 len = 0 := by cases m <;> simp [Metric.scaleBy]
  have hnn : ∀ k, 0 ≤ m.scaleBy (D.flat k) len := by
    intro k
    have h := hD k
    cases m <;> simp only [Metric.scaleBy] <;> positivity
  obtain ⟨c1, c2, c3⟩ := C19_correlation b (k0.smoothInForce []) k0.fn hcl _ (hnn k)
  refine ⟨c1, c2, ?_, fun l hl => ?_⟩
  · refine c3.trans ⟨fun h => ?_, fun h => by rw [h, hz]⟩
    by_contra hne
    have := hmono 0 (D.flat k) (lt_of_le_of_ne (hD k) (Ne.symm hne))
    rw [hz, h] at this
    exact lt_irrefl _ this
  · exact C19_strictly_decreasing b (k0.smoothInForce []) k0.fn hcl (Set.mem_Ici.mpr (hnn k))
      (Set.mem_Ici.mpr (hnn l)) (hmono _ _ hl)

/-- Non-vacuity of C19: a Matérn kernel fixed at 5/2. -/
example (b : Flt → ℝ → ℝ) : ∃ T, (KernelObj.mk (.isotropy .l2 ⟨Flt.fin 2, Flt.fin 0, Flt.fin 0, true⟩)
      (some ⟨Flt.fin (5 / 2), Flt.fin 0, Flt.fin 0, true⟩) .gen).make.call b ⟨[3, 4], fun k => (k : ℝ)⟩ [] = .ok T
    ∧ T.shape = [3, 4] := by
  obtain ⟨T, h1, h2, _⟩ := C19_kernel_call b .l2 ⟨Flt.fin 2, Flt.fin 0, Flt.fin 0, true⟩
    (some ⟨Flt.fin (5 / 2), Flt.fin 0, Flt.fin 0, true⟩) .gen 2 (by norm_num) rfl (by
      rintro q hq
      simp only [Option.some.injEq] at hq
      subst hq
      exact ⟨rfl, .inr (.inr (.inl rfl))⟩) ⟨[3, 4], fun k => (k : ℝ)⟩ (fun k => Nat.cast_nonneg k)
  exact ⟨T, h1, h2⟩

/-! ### C20 -/

/-- C20: the RBF kernel on squared distances is the Matérn kernel of infinite smoothness on
distances, for every stored length scale and keywords. -/
theorem C20_rbf_is_smooth_matern (b : Flt → ℝ → ℝ) (p q : Param) (fn fn' : KFn)
    (hq : q.fixed = true) (hq' : q.val = some ⊤) (s : List Nat) (f : Nat) (D : Tensor ℝ)
    (hs : D.shape = s ++ [f]) (kw : Dict Flt) (hk : Unreserved kw) :
    ∃ S R, Metric.F2.apply D = .ok S ∧ Metric.l2.apply D = .ok R ∧
      (KernelObj.mk (.isotropy .F2 p) none fn).make.call b S kw
        = (KernelObj.mk (.isotropy .l2 p) (some q) fn').make.call b R kw := by
  have hF : F2 D = .ok ⟨s, fun k => ∑ c : Fin f, D.flat (k * f + c) ^ 2⟩ := by
    unfold F2; rw [hs]; simp
  refine ⟨_, _, hF, l2_of_F2 hF, ?_⟩
  rw [call_eq b _ (make_wellBound _) _ kw hk, call_eq b _ (make_wellBound _) _ kw hk]
  have f1 : (KernelObj.mk (.isotropy .F2 p) none fn).make.fn = .rbf := rfl
  have f2 : (KernelObj.mk (.isotropy .l2 p) (some q) fn').make.fn = .minf := by
    simp [KernelObj.make, setMaternFn, hq, hq', Flt.fin]
  have d1 : ∀ m sm fn, (KernelObj.mk (.isotropy m p) sm fn).make.deform = .isotropy m p := fun _ _ _ => rfl
  rw [f1, f2, d1, d1]
  simp only [Deform.call, Deform.filter, filterScalar_get, Tensor.map, KFn.value, Metric.scaleBy]
  congr 2
  funext k
  congr 2
  rw [div_pow, Real.sq_sqrt (Finset.sum_nonneg fun _ _ => sq_nonneg _)]

/-- C20: the closed forms are selected exactly when the smoothness is fixed at the corresponding
value. -/
theorem C20_selection (df : Deform) (p : Param) (fn : KFn) :
    let k := (KernelObj.mk df (some p) fn).make
    (k.fn = .m05 ↔ p.fixed = true ∧ p.val = Flt.fin (1 / 2)) ∧
    (k.fn = .m15 ↔ p.fixed = true ∧ p.val = Flt.fin (3 / 2)) ∧
    (k.fn = .m25 ↔ p.fixed = true ∧ p.val = Flt.fin (5 / 2)) ∧
    (k.fn = .minf ↔ p.fixed = true ∧ p.val = some ⊤) ∧
    (k.fn = .gen ↔ ¬ (p.fixed = true ∧ (p.val = Flt.fin (1 / 2) ∨ p.val = Flt.fin (3 / 2) ∨
      p.val = Flt.fin (5 / 2) ∨ p.val = some ⊤))) ∧ k.fn ≠ .rbf := by
  have inj : ∀ {x y : ℝ}, x ≠ y → Flt.fin x ≠ Flt.fin y := by
    intro x y h e
    apply h
    simpa [Flt.fin] using e
  have ntop : ∀ x : ℝ, Flt.fin x ≠ some ⊤ := by
    intro x h
    simp [Flt.fin] at h
  have h1 := inj (x := 1 / 2) (y := 3 / 2) (by norm_num)
  have h2 := inj (x := 1 / 2) (y := 5 / 2) (by norm_num)
  have h3 := inj (x := 3 / 2) (y := 5 / 2) (by norm_num)
  have t1 := ntop (1 / 2)
  have t2 := ntop (3 / 2)
  have t3 := ntop (5 / 2)
  intro k
  have hk : k.fn = setMaternFn p := rfl
  rw [hk]
  unfold setMaternFn
  by_cases hf : p.fixed = true
  · simp only [hf, if_true, true_and]
    by_cases e1 : p.val = Flt.fin (1 / 2)
    · rw [if_pos e1]; simp only [e1, h1, h2, t1, reduceCtorEq, true_or, not_true, ne_eq, not_false_eq_true, and_self]
    rw [if_neg e1]
    by_cases e2 : p.val = Flt.fin (3 / 2)
    · rw [if_pos e2]; simp only [e2, h1.symm, h3, t2, reduceCtorEq, true_or, or_true, not_true, ne_eq, not_false_eq_true, and_self]
    rw [if_neg e2]
    by_cases e3 : p.val = Flt.fin (5 / 2)
    · rw [if_pos e3]; simp only [e3, h2.symm, h3.symm, t3, reduceCtorEq, true_or, or_true, not_true, ne_eq, not_false_eq_true, and_self]
    rw [if_neg e3]
    by_cases e4 : p.val = some ⊤
    · rw [if_pos e4]; simp only [e4, t1.symm, t2.symm, t3.symm, reduceCtorEq, or_true, not_true, ne_eq, not_false_eq_true, and_self]
    rw [if_neg e4]; simp only [e1, e2, e3, e4, reduceCtorEq, or_self, not_false_eq_true, ne_eq, and_self]
  · simp only [hf, Bool.false_eq_true, if_false, false_and, not_false_eq_true, reduceCtorEq, ne_eq, and_self]

/-- C20: for an unfixed smoothness an overriding keyword is always used, and so is the stored value
when there is none. -/
theorem C20_unfixed_keyword_used (b : Flt → ℝ → ℝ) (m : Metric) (p q : Param) (fn : KFn)
    (hq : q.fixed = false) (D : Tensor ℝ) (kw : Dict Flt) (hk : Unreserved kw) :
    (KernelObj.mk (.isotropy m p) (some q) fn).make.call b D kw
      = .ok (D.map fun x => b (inForce kw "smoothness" q)
          (m.scaleBy x (inForce kw "length_scale" p).toReal)) := by
  rw [call_eq b _ (make_wellBound _) D kw hk]
  have f1 : (KernelObj.mk (.isotropy m p) (some q) fn).make.fn = .gen := by
    simp [KernelObj.make, setMaternFn, hq]
  have d1 : (KernelObj.mk (.isotropy m p) (some q) fn).make.deform = .isotropy m p := rfl
  rw [f1, d1]
  simp only [Deform.call, Deform.filter, filterScalar_get]
  rfl

end MuyGPyS
