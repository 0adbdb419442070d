import Verif.Spec.Kernel
import Verif.Props.Tensors
import Verif.Lemmas.Hyper

/-! # Lemmas about keyword filtering and kernel calls -/

namespace Py.Dict
variable {β : Type _}

theorem has_iff (d : Dict β) (k : String) : has d k = true ↔ k ∈ keys d := by
  unfold has keys
  rw [List.any_eq_true]
  constructor
  · rintro ⟨a, h, e⟩
    exact List.mem_map.mpr ⟨a, h, by simpa using e⟩
  · intro h
    obtain ⟨a, h, e⟩ := List.mem_map.mp h
    exact ⟨a, h, by simpa using e⟩

theorem has_false {d : Dict β} {k : String} (h : ∀ a ∈ d, a.1 ≠ k) : has d k = false := by
  unfold has
  rw [List.any_eq_false]
  intro a ha
  simpa using h a ha

theorem get?_none_iff (d : Dict β) (k : String) : get? d k = none ↔ has d k = false := by
  unfold get? has
  rw [Option.map_eq_none_iff, List.find?_eq_none, List.any_eq_false]

theorem get?_filter (d : Dict β) (k : String) (p : String × β → Bool)
    (h : ∀ a ∈ d, a.1 = k → p a = true) : get? (d.filter p) k = get? d k := by
  unfold get?
  congr 1
  induction d with
  | nil => rfl
  | cons a d ih =>
    have ih' := ih fun b hb => h b (List.mem_cons_of_mem _ hb)
    by_cases e : a.1 = k
    · have : p a = true := h a (List.mem_cons_self ..) e
      rw [List.filter_cons_of_pos this, List.find?_cons_of_pos (by simpa using e),
        List.find?_cons_of_pos (by simpa using e)]
    · rw [List.find?_cons_of_neg (by simpa using e)]
      by_cases hp : p a = true
      · rw [List.filter_cons_of_pos hp, List.find?_cons_of_neg (by simpa using e), ih']
      · rw [List.filter_cons_of_neg (by simpa using hp), ih']

theorem get?_append (d e : Dict β) (k : String) :
    get? (List.append d e) k = (get? d k).or (get? e k) := by
  unfold get?
  show Option.map _ (List.find? _ (d ++ e)) = _
  rw [List.find?_append]
  cases List.find? (fun x => x.1 == k) d <;> simp

theorem get?_setdefault_self (d : Dict β) (k : String) (v : β) :
    get? (setdefault d k v) k = some ((get? d k).getD v) := by
  unfold setdefault
  split_ifs with h
  · cases h' : get? d k with
    | none => rw [get?_none_iff, h] at h'; cases h'
    | some w => rfl
  · have : get? d k = none := (get?_none_iff d k).mpr (by simpa using h)
    rw [get?_append, this]
    simp [get?]

theorem get?_setdefault_ne (d : Dict β) {k k' : String} (hne : k' ≠ k) (v : β) :
    get? (setdefault d k v) k' = get? d k' := by
  unfold setdefault
  split_ifs with h
  · rfl
  · rw [get?_append]
    have : get? [(k, v)] k' = none := by
      rw [get?_none_iff]
      exact has_false (by simp; exact fun e => hne e.symm)
    rw [this, Option.or_none]

end Py.Dict

namespace MuyGPyS
open Py Py.Tensor

/-- The implementation bound by `_make` matches the kernel class. -/
def KernelObj.WellBound (k : KernelObj) : Prop := k.smoothness = none ↔ k.fn = .rbf

theorem setMaternFn_ne_rbf (p : Param) : setMaternFn p ≠ .rbf := by
  unfold setMaternFn
  split_ifs <;> simp

theorem make_wellBound (k : KernelObj) : k.make.WellBound := by
  unfold KernelObj.WellBound KernelObj.make
  cases h : k.smoothness with
  | none => simp
  | some p => simp [setMaternFn_ne_rbf]

/-- The smoothness in force (irrelevant for `RBF`). -/
def KernelObj.smoothInForce (k : KernelObj) (kw : Dict Flt) : Flt :=
  match k.smoothness with
  | none => none
  | some p => inForce kw "smoothness" p

theorem value_indep {b : Flt → ℝ → ℝ} {fn : KFn} (h : fn ≠ .gen) (s s' : Flt) :
    KFn.value b s fn = KFn.value b s' fn := by
  cases fn <;> first | rfl | exact absurd rfl h

theorem has_filter_false {kw : Dict Flt} {k : String} {p : String × Flt → Bool}
    (h : ∀ a ∈ kw, a.1 ≠ k) : Dict.has (kw.filter p) k = false :=
  Dict.has_false fun a ha => h a (List.mem_filter.mp ha).1

/-- Running the implementation on the keywords that remain after filtering. -/
theorem run_rest (b : Flt → ℝ → ℝ) (k : KernelObj) (hw : k.WellBound) (t : Tensor ℝ) (kw rest : Dict Flt)
    (hsq : Dict.has rest "squared_dists" = false)
    (hs : Dict.get? rest "smoothness" = Dict.get? kw "smoothness") :
    (match k.smoothness with
      | none => k.fn.run b t rest
      | some p => k.fn.run b t (Dict.setdefault rest "smoothness" p.val))
      = .ok (t.map (KFn.value b (k.smoothInForce kw) k.fn)) := by
  unfold KernelObj.WellBound at hw
  unfold KernelObj.smoothInForce
  cases h : k.smoothness with
  | none =>
    have hr : k.fn = .rbf := hw.mp h
    simp only [hr, KFn.run, hsq]
    rfl
  | some p =>
    have hr : k.fn ≠ .rbf := fun e => by simpa [h] using hw.mpr e
    have hg : Dict.get? (Dict.setdefault rest "smoothness" p.val) "smoothness"
        = some (inForce kw "smoothness" p) := by
      rw [Dict.get?_setdefault_self, hs]; rfl
    cases hf : k.fn with
    | rbf => exact absurd hf hr
    | gen => simp only [KFn.run, hg]
    | m05 => simp only [KFn.run]; rw [value_indep (by simp)]
    | m15 => simp only [KFn.run]; rw [value_indep (by simp)]
    | m25 => simp only [KFn.run]; rw [value_indep (by simp)]
    | minf => simp only [KFn.run]; rw [value_indep (by simp)]

theorem startsLS_smoothness : startsLS "smoothness" = false := by decide

theorem startsLS_vecName (i : Nat) : startsLS (vecName "length_scale" i) = true := by
  unfold startsLS
  rw [vecName_toList, List.isPrefixOf_iff_prefix]
  exact List.prefix_append _ _

/-- The kernel call in terms of the deformation. -/
theorem call_eq (b : Flt → ℝ → ℝ) (k : KernelObj) (hw : k.WellBound) (D : Tensor ℝ) (kw : Dict Flt)
    (hk : Unreserved kw) :
    k.call b D kw = match k.deform.call D (k.deform.filter kw).1 with
      | .error e => .error e
      | .ok t => .ok (t.map (KFn.value b (k.smoothInForce kw) k.fn)) := by
  have h1 : Dict.has kw "diffs" = false := Dict.has_false fun a ha => (hk a ha).2.1
  have h2 : Dict.has kw "dists" = false := Dict.has_false fun a ha => (hk a ha).2.2.1
  have h3 : Dict.has kw "self" = false := Dict.has_false fun a ha => (hk a ha).1
  unfold KernelObj.call KernelObj.optFn
  simp only [h1, h2, h3, Bool.or_self, Bool.false_eq_true, if_false]
  cases hc : k.deform.call D (k.deform.filter kw).1 with
  | error e => rfl
  | ok t =>
    simp only
    refine run_rest b k hw t kw _ ?_ ?_
    · cases k.deform <;> exact has_filter_false fun a ha => (hk a ha).2.2.2
    · cases k.deform with
      | isotropy m p => exact Dict.get?_filter _ _ _ (by rintro a _ e; rw [e]; decide)
      | difference m p => exact Dict.get?_filter _ _ _ (by rintro a _ e; rw [e]; decide)
      | anisotropy m ps => exact Dict.get?_filter _ _ _ (by rintro a _ e; rw [e]; decide)

theorem filterScalar_get (p : Param) (kw : Dict Flt) :
    (Dict.get? (filterScalar "length_scale" p kw).1 "length_scale").getD p.val
      = inForce kw "length_scale" p := by
  unfold filterScalar inForce
  simp only
  rw [Dict.get?_setdefault_self, Dict.get?_filter _ _ _ (by rintro a _ e; simpa using e)]
  rfl

end MuyGPyS

namespace MuyGPyS
open Py Py.Tensor

theorem has_setdefault (d : Dict Flt) (k k' : String) (v : Flt) :
    Dict.has (Dict.setdefault d k v) k' = (Dict.has d k' || k == k') := by
  unfold Dict.setdefault
  split_ifs with h
  · by_cases e : k = k'
    · subst e; simp [h]
    · simp [e]
  · unfold Dict.has
    show List.any (d ++ [(k, v)]) _ = _
    rw [List.any_append]
    simp

/-- What `set_defaults` appends: the stored values of the names not supplied, in order. -/
theorem setDefaults_eq (named : List (String × Param)) (hn : (named.map Prod.fst).Nodup)
    (d : Dict Flt) :
    setDefaults named d = List.append d
      ((named.filter fun np => !Dict.has d np.1).map fun np => (np.1, np.2.val)) := by
  induction named generalizing d with
  | nil => simp [setDefaults]
  | cons a l ih =>
    simp only [List.map_cons, List.nodup_cons] at hn
    have step : setDefaults (a :: l) d = setDefaults l (Dict.setdefault d a.1 a.2.val) := rfl
    rw [step, ih hn.2]
    have hf : (l.filter fun np => !Dict.has (Dict.setdefault d a.1 a.2.val) np.1)
        = l.filter fun np => !Dict.has d np.1 := by
      apply List.filter_congr
      intro np hnp
      rw [has_setdefault]
      have : a.1 ≠ np.1 := fun e => hn.1 (List.mem_map.mpr ⟨np, hnp, e.symm⟩)
      simp [this]
    rw [hf]
    by_cases h : Dict.has d a.1 = true
    · rw [List.filter_cons_of_neg (by simpa using h)]
      unfold Dict.setdefault
      rw [if_pos h]
    · rw [List.filter_cons_of_pos (by simpa using h)]
      unfold Dict.setdefault
      rw [if_neg h]
      simp

theorem filterVector_twice (ps : List Param) (kw : Dict Flt) :
    (filterVector ps (filterVector ps kw).1).1 = (filterVector ps kw).1 := by
  have hn := namedFrom_nodup "length_scale" 0 ps
  unfold filterVector
  simp only
  set d := List.filter (fun a : String × Flt => startsLS a.1) kw with hd
  have hstart : ∀ a ∈ setDefaults (namedFrom "length_scale" 0 ps) d, startsLS a.1 = true := by
    rw [setDefaults_eq _ hn]
    intro a ha
    rcases List.mem_append.mp ha with h | h
    · rw [hd] at h
      have h' := List.mem_filter.mp h
      exact h'.2
    · obtain ⟨np, h1, rfl⟩ := List.mem_map.mp h
      obtain ⟨j, _, e⟩ := mem_namedFrom (List.mem_filter.mp h1).1
      simp only
      rw [e]; exact startsLS_vecName j
  rw [List.filter_eq_self.mpr hstart]
  rw [setDefaults_eq _ hn (setDefaults _ d)]
  have : (List.filter (fun np : String × Param =>
      !Dict.has (setDefaults (namedFrom "length_scale" 0 ps) d) np.1) (namedFrom "length_scale" 0 ps)) = [] := by
    rw [List.filter_eq_nil_iff]
    intro np hnp
    rw [setDefaults_eq _ hn]
    simp only [Bool.not_eq_true, Bool.not_eq_false']
    unfold Dict.has
    show List.any (d ++ _) _ = true
    rw [List.any_append, Bool.or_eq_true]
    by_cases h : Dict.has d np.1 = true
    · exact .inl h
    · right
      rw [List.any_eq_true]
      exact ⟨(np.1, np.2.val), List.mem_map.mpr ⟨np, List.mem_filter.mpr ⟨hnp, by
        rw [Bool.not_eq_true] at h; show (!Dict.has d np.1) = true; rw [h]; rfl⟩, rfl⟩, by simp⟩
  rw [this]
  simp

/-- The vector an anisotropic deformation divides by: the supplied values in keyword order, then the
stored values of the dimensions not supplied. -/
def aniValues (ps : List Param) (kw : Dict Flt) : List Flt :=
  (kw.filter fun a => startsLS a.1).map Prod.snd ++
    ((namedFrom "length_scale" 0 ps).filter fun np => !Dict.has kw np.1).map fun np => np.2.val

theorem has_filter_starts (kw : Dict Flt) {n : String} (h : startsLS n = true) :
    Dict.has (kw.filter fun a => startsLS a.1) n = Dict.has kw n := by
  unfold Dict.has
  rw [List.any_filter]
  congr 1
  funext a
  by_cases e : a.1 = n
  · simp [e, h]
  · simp [e]

theorem filterVector_values (ps : List Param) (kw : Dict Flt) :
    Dict.values (filterVector ps (filterVector ps kw).1).1 = aniValues ps kw := by
  rw [filterVector_twice]
  unfold filterVector aniValues
  simp only
  rw [setDefaults_eq _ (namedFrom_nodup _ _ _)]
  unfold Dict.values
  show List.map _ (_ ++ _) = _
  rw [List.map_append, List.map_map]
  congr 1
  have : (List.filter (fun np : String × Param => !Dict.has (List.filter (fun a => startsLS a.1) kw) np.1)
      (namedFrom "length_scale" 0 ps))
      = List.filter (fun np => !Dict.has kw np.1) (namedFrom "length_scale" 0 ps) := by
    apply List.filter_congr
    intro np hnp
    obtain ⟨j, _, e⟩ := mem_namedFrom hnp
    rw [e, has_filter_starts kw (startsLS_vecName j)]
  rw [this]
  rfl

theorem namedFrom_getElem (base : String) (ps : List Param) (i j : Nat) :
    (namedFrom base i ps)[j]? = ps[j]?.map fun p => (vecName base (i + j), p) := by
  induction ps generalizing i j with
  | nil => simp [namedFrom]
  | cons p ps ih =>
    cases j with
    | zero => simp [namedFrom]
    | succ j =>
      simp only [namedFrom, List.getElem?_cons_succ]
      rw [ih]
      have : i + 1 + j = i + (j + 1) := by omega
      rw [this]

theorem namedFrom_length (base : String) (ps : List Param) (i : Nat) :
    (namedFrom base i ps).length = ps.length := by
  induction ps generalizing i with
  | nil => rfl
  | cons p ps ih => simp [namedFrom, ih]

theorem namedFrom_drop (base : String) (ps : List Param) (i m : Nat) :
    (namedFrom base i ps).drop m = namedFrom base (i + m) (ps.drop m) := by
  induction m generalizing i ps with
  | zero => simp
  | succ m ih =>
    cases ps with
    | nil => simp [namedFrom]
    | cons p ps =>
      simp only [namedFrom, List.drop_succ_cons]
      rw [ih]
      have : i + 1 + m = i + (m + 1) := by omega
      rw [this]

theorem namedFrom_vals (base : String) (ps : List Param) (i : Nat) :
    (namedFrom base i ps).map (fun np => np.2.val) = ps.map (fun p => p.val) := by
  induction ps generalizing i with
  | nil => rfl
  | cons p ps ih => simp [namedFrom, ih]

theorem get?_of_nodup {d : Dict Flt} (hn : (d.map Prod.fst).Nodup) {a : String × Flt} (ha : a ∈ d) :
    Dict.get? d a.1 = some a.2 := by
  unfold Dict.get?
  induction d with
  | nil => simp at ha
  | cons x d ih =>
    simp only [List.map_cons, List.nodup_cons] at hn
    rcases List.mem_cons.mp ha with rfl | h
    · simp
    · have : x.1 ≠ a.1 := fun e => hn.1 (List.mem_map.mpr ⟨a, h, e.symm⟩)
      rw [List.find?_cons_of_neg (by simpa using this)]
      exact ih hn.2 h

/-- When the supplied length scales are the first dimensions in order, entry `c` of the vector is the
value in force for dimension `c`. -/
theorem aniValues_prefix (ps : List Param) (kw : Dict Flt) (hn : (kw.map Prod.fst).Nodup) (m : Nat)
    (hm : m ≤ ps.length)
    (hp : (kw.filter fun a => startsLS a.1).map Prod.fst = (List.range m).map (vecName "length_scale")) :
    aniValues ps kw = (List.range ps.length).map fun c =>
      match ps[c]? with
      | none => none
      | some p => inForce kw (vecName "length_scale" c) p := by
  set d := kw.filter fun a => startsLS a.1 with hd
  have hdl : d.length = m := by
    have := congrArg List.length hp
    simpa using this
  have hdn : (d.map Prod.fst).Nodup := by
    rw [hd]
    exact hn.sublist (List.filter_sublist.map _)
  have hhas : ∀ j, Dict.has kw (vecName "length_scale" j) = true ↔ j < m := by
    intro j
    rw [← has_filter_starts kw (startsLS_vecName j), ← hd, Dict.has_iff]
    unfold Dict.keys
    rw [hp, List.mem_map]
    constructor
    · rintro ⟨i, hi, e⟩
      rw [← vecName_inj e]; exact List.mem_range.mp hi
    · intro h
      exact ⟨j, List.mem_range.mpr h, rfl⟩
  have hrest : ((namedFrom "length_scale" 0 ps).filter fun np => !Dict.has kw np.1)
      = (namedFrom "length_scale" 0 ps).drop m := by
    conv_lhs => rw [← List.take_append_drop m (namedFrom "length_scale" 0 ps)]
    rw [List.filter_append]
    have h1 : ((namedFrom "length_scale" 0 ps).take m).filter (fun np => !Dict.has kw np.1) = [] := by
      rw [List.filter_eq_nil_iff]
      intro np hnp
      obtain ⟨i, hi, e⟩ := List.mem_iff_getElem.mp hnp
      have hi' : i < m := by simp at hi; omega
      have : (namedFrom "length_scale" 0 ps)[i]? = some np := by
        rw [← e, List.getElem_take]
        exact List.getElem?_eq_getElem _
      rw [namedFrom_getElem, Option.map_eq_some_iff] at this
      obtain ⟨p, _, rfl⟩ := this
      simp only [Nat.zero_add]
      simp [(hhas i).mpr hi']
    have h2 : ((namedFrom "length_scale" 0 ps).drop m).filter (fun np => !Dict.has kw np.1)
        = (namedFrom "length_scale" 0 ps).drop m := by
      rw [List.filter_eq_self]
      intro np hnp
      rw [namedFrom_drop] at hnp
      obtain ⟨j, hj, e⟩ := mem_namedFrom hnp
      have : ¬ Dict.has kw np.1 = true := by
        rw [e, hhas]; omega
      simpa using this
    rw [h1, h2, List.nil_append]
  apply List.ext_getElem?
  intro c
  unfold aniValues
  rw [← hd, hrest]
  by_cases hc : c < m
  · rw [List.getElem?_append_left (by rw [List.length_map, hdl]; exact hc)]
    rw [List.getElem?_map, List.getElem?_map, List.getElem?_range (by omega)]
    have hcd : c < d.length := by omega
    rw [List.getElem?_eq_getElem hcd]
    simp only [Option.map_some]
    have hkey : d[c].1 = vecName "length_scale" c := by
      have := congrArg (fun l => l[c]?) hp
      simp only [List.getElem?_map, List.getElem?_eq_getElem hcd, Option.map_some,
        List.getElem?_range hc] at this
      exact Option.some.inj this
    have hcp : c < ps.length := by omega
    rw [List.getElem?_eq_getElem hcp]
    simp only [inForce]
    have hmem : d[c] ∈ kw := by
      have h1 : d[c] ∈ d := List.getElem_mem hcd
      have h2 : ∀ a ∈ d, a ∈ kw := fun a ha => by
        rw [hd] at ha; exact List.mem_of_mem_filter ha
      exact h2 _ h1
    rw [← hkey, get?_of_nodup hn hmem]
    rfl
  · have hc' : m ≤ c := by omega
    rw [List.getElem?_append_right (by rw [List.length_map, hdl]; exact hc')]
    rw [List.length_map, hdl, namedFrom_drop, namedFrom_vals, List.getElem?_map, List.getElem?_drop]
    have : m + (c - m) = c := by omega
    rw [this, List.getElem?_map]
    by_cases hcp : c < ps.length
    · rw [List.getElem?_range hcp, List.getElem?_eq_getElem hcp]
      simp only [Option.map_some, inForce]
      have : Dict.get? kw (vecName "length_scale" c) = none := by
        rw [Dict.get?_none_iff]
        have := mt (hhas c).mp hc
        simpa using this
      rw [this, List.getElem?_eq_getElem hcp]; rfl
    · rw [List.getElem?_eq_none (by omega), List.getElem?_eq_none (by simp; omega)]
      rfl

end MuyGPyS
