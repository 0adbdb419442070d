import Verif.Spec.Sharing
import Verif.Lemmas.Hyper

/-!
# C51: models constructed independently do not share state
-/

namespace MuyGPyS.Share
open Py MuyGPyS

/-! ## The sharing invariant -/

def ModelObj.ids (m : ModelObj) : Nat × Nat × Nat := (m.deform, m.noise, m.scale)
def Store.ids (s : Store) : List (Nat × Nat × Nat) := s.models.map ModelObj.ids

/-- References point to objects, and two models refer to one object only if it is a default. -/
structure Inv (L : List (Nat × Nat × Nat)) (D N Z : Nat) : Prop where
  d2 : 2 ≤ D
  n1 : 1 ≤ N
  z1 : 1 ≤ Z
  bound : ∀ i (hi : i < L.length), L[i].1 < D ∧ L[i].2.1 < N ∧ L[i].2.2 < Z
  uniq : ∀ i j (hi : i < L.length) (hj : j < L.length), i ≠ j →
    (L[i].1 = L[j].1 → L[i].1 < 2) ∧ (L[i].2.1 = L[j].2.1 → L[i].2.1 < 1) ∧
      (L[i].2.2 = L[j].2.2 → L[i].2.2 < 1)

theorem Inv.append {L D N Z} (h : Inv L D N Z) {D' N' Z' a b c : Nat} (hD : D ≤ D') (hN : N ≤ N')
    (hZ : Z ≤ Z') (ha : a < D' ∧ (D ≤ a ∨ a < 2)) (hb : b < N' ∧ (N ≤ b ∨ b < 1))
    (hc : c < Z' ∧ (Z ≤ c ∨ c < 1)) : Inv (L ++ [(a, b, c)]) D' N' Z' where
  d2 := le_trans h.d2 hD
  n1 := le_trans h.n1 hN
  z1 := le_trans h.z1 hZ
  bound := by
    intro i hi
    rw [List.getElem_append]
    split
    · rename_i hl
      have := h.bound i hl
      omega
    · simp only [List.getElem_singleton]
      exact ⟨ha.1, hb.1, hc.1⟩
  uniq := by
    intro i j hi hj hij
    simp only [List.length_append, List.length_singleton] at hi hj
    rw [List.getElem_append, List.getElem_append]
    split
    · rename_i hl
      have hb1 := h.bound i hl
      split
      · rename_i hl'
        exact h.uniq i j hl hl' hij
      · simp only [List.getElem_singleton]
        omega
    · split
      · rename_i hl'
        have hb1 := h.bound j hl'
        simp only [List.getElem_singleton]
        omega
      · omega

/-- The invariant of a store. -/
def Store.Ok (s : Store) : Prop := Inv s.ids s.deforms.length s.noises.length s.scales.length

theorem init_ok : Store.init.Ok :=
  ⟨le_rfl, le_rfl, le_rfl, by intro i hi; simp [Store.ids, Store.init] at hi,
    by intro i j hi; simp [Store.ids, Store.init] at hi⟩

theorem place_fst_length {α : Type} (l : List α) (a : Option α) (k : Nat) :
    (place l a k).1.length = l.length + (if a.isSome then 1 else 0) := by
  cases a <;> simp [place]

theorem place_snd {α : Type} (l : List α) (a : Option α) (k : Nat) (hk : k < l.length) :
    (place l a k).2 < (place l a k).1.length ∧ (l.length ≤ (place l a k).2 ∨ (place l a k).2 = k) := by
  cases a <;> simp [place, hk]

theorem construct_ok {s : Store} (h : s.Ok) (c : Call) : (s.construct c).Ok := by
  unfold Store.Ok Store.ids Store.construct
  simp only [List.map_append, List.map_cons, List.map_nil, ModelObj.ids]
  have hd := place_snd s.deforms c.deform (if c.smoothness.isSome then 0 else 1)
    (by have := h.d2; split <;> omega)
  have hn := place_snd s.noises c.noise 0 (by have := h.n1; omega)
  have hz := place_snd s.scales (c.scale.map fun kv => (⟨kv.1, kv.2, false⟩ : ScaleObj)) 0
    (by have := h.z1; omega)
  refine Inv.append h ?_ ?_ ?_ ⟨hd.1, ?_⟩ ⟨hn.1, ?_⟩ ⟨hz.1, ?_⟩
  · rw [place_fst_length]; omega
  · rw [place_fst_length]; omega
  · rw [place_fst_length]; omega
  · rcases hd.2 with h' | h'
    · exact .inl h'
    · right; rw [h']; split <;> omega
  · rcases hn.2 with h' | h'
    · exact .inl h'
    · right; omega
  · rcases hz.2 with h' | h'
    · exact .inl h'
    · right; omega

/-- The shapes a step can have: nothing, an in-place change of one object (and the model's own
smoothness), or new objects and a new model at the end. -/
inductive Effect (s : Store) (op : Op) : Store → Prop
  | nothing : Effect s op s
  | deform (i : Nat) (m : ModelObj) (ls : LenScale) (sm : Option Param) (ht : op.changes = some i)
      (hm : s.models[i]? = some m) :
      Effect s op { s with deforms := s.deforms.set m.deform ls
                           models := s.models.set i { m with smoothness := sm } }
  | noise (i : Nat) (m : ModelObj) (n : NoiseObj) (ht : op.changes = some i)
      (hm : s.models[i]? = some m) : Effect s op { s with noises := s.noises.set m.noise n }
  | scale (i : Nat) (m : ModelObj) (z : ScaleObj) (ht : op.changes = some i)
      (hm : s.models[i]? = some m) : Effect s op { s with scales := s.scales.set m.scale z }
  | append (ds : List LenScale) (ns : List NoiseObj) (zs : List ScaleObj) (m : ModelObj)
      (ht : op.changes = none)
      (hok : Store.Ok ⟨s.deforms ++ ds, s.noises ++ ns, s.scales ++ zs, s.models ++ [m]⟩) :
      Effect s op ⟨s.deforms ++ ds, s.noises ++ ns, s.scales ++ zs, s.models ++ [m]⟩

theorem place_append {α : Type} (l : List α) (a : Option α) (k : Nat) :
    (place l a k).1 = l ++ a.toList := by cases a <;> simp [place]

theorem step_effect {s : Store} (h : s.Ok) (op : Op) : Effect s op (s.step op) := by
  cases op with
  | construct c =>
    have hc := construct_ok h c
    simp only [Store.step]
    unfold Store.construct at hc ⊢
    simp only [place_append] at hc ⊢
    exact .append _ _ _ _ rfl hc
  | setParams i key q =>
    simp only [Store.step]
    split
    · rename_i m v hm hv
      split
      · exact .nothing
      · exact .deform i m _ _ rfl hm
    · exact .nothing
  | setNoise i env x =>
    simp only [Store.step]
    split
    · rename_i m v hm hv
      split
      · exact .noise i m _ rfl hm
      · exact .nothing
    · exact .nothing
  | optimizeScale i e =>
    simp only [Store.step]
    split
    · exact .nothing
    · rename_i m hm
      split
      · exact .nothing
      · split
        · exact .nothing
        · exact .scale i m _ rfl hm
  | optimize i env opt =>
    simp only [Store.step]
    split
    · exact .nothing
    · rename_i v hv
      split
      · exact .nothing
      · refine .append _ _ _ _ rfl ?_
        unfold Store.Ok Store.ids
        simp only [List.map_append, List.map_cons, List.map_nil, ModelObj.ids, List.length_append,
          List.length_singleton]
        exact Inv.append h (by omega) (by omega) (by omega) (by omega) (by omega) (by omega)

theorem effect_ids {s s' : Store} {op : Op} (e : Effect s op s') :
    s'.ids = s.ids ∨ ∃ m, s'.ids = s.ids ++ [m] := by
  cases e with
  | nothing => exact .inl rfl
  | deform i m ls sm ht hm =>
    left
    unfold Store.ids
    simp only [List.map_set]
    apply List.ext_getElem?
    intro k
    rw [List.getElem?_set]
    split
    · rename_i hik
      subst hik
      rw [List.getElem?_map, hm]
      split
      · rfl
      · rename_i hl
        exfalso; apply hl
        simp only [List.length_map]
        exact (List.getElem?_eq_some_iff.1 hm).1
    · rfl
  | noise i m n ht hm => exact .inl rfl
  | scale i m z ht hm => exact .inl rfl
  | append ds ns zs m ht hok => right; exact ⟨m.ids, by simp [Store.ids]⟩

theorem step_ok {s : Store} (h : s.Ok) (op : Op) : (s.step op).Ok := by
  have e := step_effect h op
  revert e
  generalize s.step op = s'
  intro e
  rcases effect_ids e with he | he
  · unfold Store.Ok
    rw [he]
    cases e with
    | nothing => exact h
    | deform i m ls sm ht hm => simpa [Store.Ok, Store.ids] using h
    | noise i m n ht hm => simpa [Store.Ok, Store.ids] using h
    | scale i m z ht hm => simpa [Store.Ok, Store.ids] using h
    | append ds ns zs m ht hok => have := hok; unfold Store.Ok at this; rw [he] at this; exact this
  · cases e with
    | append ds ns zs m ht hok => exact hok
    | nothing => exact h
    | deform i m ls sm ht hm =>
      obtain ⟨m', he⟩ := he
      have := congrArg List.length he
      simp [Store.ids] at this
    | noise i m n ht hm =>
      obtain ⟨m', he⟩ := he
      have := congrArg List.length he
      simp [Store.ids] at this
    | scale i m z ht hm =>
      obtain ⟨m', he⟩ := he
      have := congrArg List.length he
      simp [Store.ids] at this

theorem steps_ok {s : Store} (h : s.Ok) (ops : List Op) : (ops.foldl Store.step s).Ok := by
  induction ops generalizing s with
  | nil => exact h
  | cons op ops ih => exact ih (step_ok h op)

theorem session_ok (ops : List Op) : (session ops).Ok := steps_ok init_ok ops

/-! ## Frames -/

/-- What two different models cannot have in common. -/
theorem ok_uniq {s : Store} (h : s.Ok) {i j : Nat} {m m' : ModelObj} (hm : s.models[i]? = some m)
    (hm' : s.models[j]? = some m') (hij : i ≠ j) :
    (m.deform = m'.deform → m.deform < 2) ∧ (m.noise = m'.noise → m.noise < 1) ∧
      (m.scale = m'.scale → m.scale < 1) := by
  obtain ⟨hi, e1⟩ := List.getElem?_eq_some_iff.1 hm
  obtain ⟨hj, e2⟩ := List.getElem?_eq_some_iff.1 hm'
  have := h.uniq i j (by simpa [Store.ids] using hi) (by simpa [Store.ids] using hj) hij
  simp only [Store.ids, List.getElem_map, e1, e2, ModelObj.ids] at this
  exact this

theorem ok_bound {s : Store} (h : s.Ok) {i : Nat} {m : ModelObj} (hm : s.models[i]? = some m) :
    m.deform < s.deforms.length ∧ m.noise < s.noises.length ∧ m.scale < s.scales.length := by
  obtain ⟨hi, e1⟩ := List.getElem?_eq_some_iff.1 hm
  have := h.bound i (by simpa [Store.ids] using hi)
  simp only [Store.ids, List.getElem_map, e1, ModelObj.ids] at this
  exact this

/-- One step does not change the parts of model `j` that the changed model (if any) does not share. -/
theorem step_frame {s : Store} (h : s.Ok) (op : Op) {j : Nat} {m : ModelObj}
    (hm : s.models[j]? = some m) (hne : op.changes ≠ some j) :
    (s.step op).models[j]? = some m ∧
      ((∀ i m', op.changes = some i → s.models[i]? = some m' → m'.deform ≠ m.deform) →
        (s.step op).deforms[m.deform]? = s.deforms[m.deform]?) ∧
      ((∀ i m', op.changes = some i → s.models[i]? = some m' → m'.noise ≠ m.noise) →
        (s.step op).noises[m.noise]? = s.noises[m.noise]?) ∧
      ((∀ i m', op.changes = some i → s.models[i]? = some m' → m'.scale ≠ m.scale) →
        (s.step op).scales[m.scale]? = s.scales[m.scale]?) := by
  have hb := ok_bound h hm
  have e := step_effect h op
  revert e
  generalize s.step op = s'
  intro e
  cases e with
  | nothing => exact ⟨hm, fun _ => rfl, fun _ => rfl, fun _ => rfl⟩
  | deform i m' ls sm ht hm' =>
    have hij : i ≠ j := fun e => hne (e ▸ ht)
    refine ⟨?_, fun hs => ?_, fun _ => rfl, fun _ => rfl⟩
    · simp only
      rw [List.getElem?_set_ne hij, hm]
    · simp only
      rw [List.getElem?_set_ne (hs i m' ht hm')]
  | noise i m' n ht hm' =>
    refine ⟨hm, fun _ => rfl, fun hs => ?_, fun _ => rfl⟩
    simp only
    rw [List.getElem?_set_ne (hs i m' ht hm')]
  | scale i m' z ht hm' =>
    refine ⟨hm, fun _ => rfl, fun _ => rfl, fun hs => ?_⟩
    simp only
    rw [List.getElem?_set_ne (hs i m' ht hm')]
  | append ds ns zs m' ht hok =>
    have hj := (List.getElem?_eq_some_iff.1 hm).1
    refine ⟨?_, fun _ => ?_, fun _ => ?_, fun _ => ?_⟩
    · simp only
      rw [List.getElem?_append_left hj, hm]
    · simp only
      rw [List.getElem?_append_left hb.1]
    · simp only
      rw [List.getElem?_append_left hb.2.1]
    · simp only
      rw [List.getElem?_append_left hb.2.2]

theorem see_congr {s s' : Store} {j : Nat} {m : ModelObj} (h1 : s.models[j]? = some m)
    (h2 : s'.models[j]? = some m) (hd : s'.deforms[m.deform]? = s.deforms[m.deform]?)
    (hn : s'.noises[m.noise]? = s.noises[m.noise]?) (hz : s'.scales[m.scale]? = s.scales[m.scale]?) :
    s'.see j = s.see j := by
  unfold Store.see
  rw [h1, h2]
  simp only
  rw [hd, hn, hz]

/-- A model none of whose objects is a default is unaffected by steps that do not change it. -/
theorem own_frame {s : Store} (h : s.Ok) (ops : List Op) {j : Nat} {m : ModelObj}
    (hm : s.models[j]? = some m) (hd : 2 ≤ m.deform) (hn : 1 ≤ m.noise) (hz : 1 ≤ m.scale)
    (hne : ∀ op ∈ ops, op.changes ≠ some j) :
    (ops.foldl Store.step s).see j = s.see j := by
  induction ops generalizing s with
  | nil => rfl
  | cons op ops ih =>
    have hop := hne op List.mem_cons_self
    obtain ⟨h1, h2, h3, h4⟩ := step_frame h op hm hop
    have hu : ∀ i m', op.changes = some i → s.models[i]? = some m' →
        m'.deform ≠ m.deform ∧ m'.noise ≠ m.noise ∧ m'.scale ≠ m.scale := by
      intro i m' hc hm'
      have hij : i ≠ j := fun e => hop (e ▸ hc)
      have := ok_uniq h hm' hm hij
      refine ⟨fun e => ?_, fun e => ?_, fun e => ?_⟩
      · have := this.1 e; omega
      · have := this.2.1 e; omega
      · have := this.2.2 e; omega
    rw [List.foldl_cons, ih (step_ok h op) h1 (fun o ho => hne o (List.mem_cons_of_mem _ ho))]
    exact see_congr hm h1 (h2 fun i m' a b => (hu i m' a b).1) (h3 fun i m' a b => (hu i m' a b).2.1)
      (h4 fun i m' a b => (hu i m' a b).2.2)

/-- Changing only models that own their objects leaves every other model as it was. -/
theorem others_frame {s : Store} (h : s.Ok) (ops : List Op) {n : Nat} {mn : ModelObj}
    (hmn : s.models[n]? = some mn) (hd : 2 ≤ mn.deform) (hn : 1 ≤ mn.noise) (hz : 1 ≤ mn.scale)
    (honly : ∀ op ∈ ops, op.changes = none ∨ op.changes = some n) {j : Nat} {m : ModelObj}
    (hm : s.models[j]? = some m) (hjn : j ≠ n) :
    (ops.foldl Store.step s).see j = s.see j := by
  induction ops generalizing s mn with
  | nil => rfl
  | cons op ops ih =>
    have hop := honly op List.mem_cons_self
    have hne : op.changes ≠ some j := by
      rcases hop with h' | h' <;> rw [h'] <;> simp
      exact fun e => hjn e.symm
    obtain ⟨h1, h2, h3, h4⟩ := step_frame h op hm hne
    have hu : ∀ i m', op.changes = some i → s.models[i]? = some m' →
        m'.deform ≠ m.deform ∧ m'.noise ≠ m.noise ∧ m'.scale ≠ m.scale := by
      intro i m' hc hm'
      have hin : i = n := by
        rcases hop with h' | h'
        · rw [h'] at hc; simp at hc
        · rw [h'] at hc; simpa using hc.symm
      subst hin
      rw [hmn] at hm'
      injection hm' with hm'
      subst hm'
      have := ok_uniq h hmn hm (fun e => hjn e.symm)
      refine ⟨fun e => ?_, fun e => ?_, fun e => ?_⟩
      · have := this.1 e; omega
      · have := this.2.1 e; omega
      · have := this.2.2 e; omega
    have hmn' : ∃ mn', (s.step op).models[n]? = some mn' ∧ mn'.ids = mn.ids := by
      have e := step_effect h op
      have hnl := (List.getElem?_eq_some_iff.1 hmn).1
      have hids : (s.step op).ids[n]? = s.ids[n]? := by
        rcases effect_ids e with he | ⟨x, he⟩
        · rw [he]
        · rw [he, List.getElem?_append_left (by simpa [Store.ids] using hnl)]
      unfold Store.ids at hids
      rw [List.getElem?_map, List.getElem?_map, hmn] at hids
      cases hg : (s.step op).models[n]? with
      | none => rw [hg] at hids; simp at hids
      | some mn' =>
        rw [hg] at hids
        simp only [Option.map_some, Option.some.injEq] at hids
        exact ⟨mn', rfl, hids⟩
    obtain ⟨mn', hg, hid⟩ := hmn'
    simp only [ModelObj.ids, Prod.mk.injEq] at hid
    rw [List.foldl_cons, ih (step_ok h op) hg (hid.1 ▸ hd) (hid.2.1 ▸ hn) (hid.2.2 ▸ hz)
      (fun o ho => honly o (List.mem_cons_of_mem _ ho)) h1]
    exact see_congr hm h1 (h2 fun i m' a b => (hu i m' a b).1) (h3 fun i m' a b => (hu i m' a b).2.1)
      (h4 fun i m' a b => (hu i m' a b).2.2)

theorem session_append (a b : List Op) : session (a ++ b) = b.foldl Store.step (session a) := by
  unfold session; rw [List.foldl_append]

/-- Where a constructor call with all arguments puts its model. -/
theorem construct_explicit {s : Store} (h : s.Ok) (c : Call) (v : Seen) (hc : c.explicit = some v) :
    ∃ m, (s.construct c).models[s.models.length]? = some m ∧ 2 ≤ m.deform ∧ 1 ≤ m.noise ∧
      1 ≤ m.scale ∧ (s.construct c).see s.models.length = some v := by
  obtain ⟨sm, d, n, z⟩ := c
  unfold Call.explicit at hc
  cases d with
  | none => simp at hc
  | some ls =>
    cases n with
    | none => simp at hc
    | some no =>
      cases z with
      | none => simp at hc
      | some kv =>
        simp only [Option.some.injEq] at hc
        have hm : (s.construct ⟨sm, some ls, some no, some kv⟩).models[s.models.length]? =
            some ⟨sm, s.deforms.length, s.noises.length, s.scales.length⟩ := by
          simp [Store.construct, place]
        refine ⟨_, hm, h.d2, h.n1, h.z1, ?_⟩
        unfold Store.see
        rw [hm]
        simp [Store.construct, place, ← hc]

/-- **C51** (part: explicit arguments). A model whose constructor call left no argument out keeps, from
its construction on, exactly the hyperparameters, noise and scale it was constructed with, through any
operations before and after — constructions, changes of other models' hyperparameters, noise and
scale, optimiser runs on any model — that do not change this very model. Missing from the full
property: models that use a default argument (`C51_default_length_scale_fails`,
`C51_default_noise_fails`, `C51_default_scale_fails`). -/
theorem C51_explicit_partial (before after : List Op) (c : Call) (v : Seen) (hc : c.explicit = some v)
    (hother : ∀ op ∈ after, op.changes ≠ some (count before)) :
    (session (before ++ .construct c :: after)).see (count before) = some v := by
  have hok := session_ok before
  obtain ⟨m, hm, hd, hn, hz, hs⟩ := construct_explicit hok c v hc
  rw [session_append, List.foldl_cons]
  show (List.foldl Store.step ((session before).construct c) after).see _ = _
  rw [own_frame (j := count before) (construct_ok hok c) after hm hd hn hz hother]
  exact hs

/-- Changing a model constructed with explicit arguments changes no other model, even one that uses
defaults. -/
theorem C51_explicit_changes_nothing_else (before after : List Op) (c : Call) (v : Seen)
    (hc : c.explicit = some v)
    (honly : ∀ op ∈ after, op.changes = none ∨ op.changes = some (count before)) (j : Nat)
    (hj : j < count before) :
    (session (before ++ .construct c :: after)).see j = (session before).see j := by
  have hok := session_ok before
  obtain ⟨m, hm, hd, hn, hz, hs⟩ := construct_explicit hok c v hc
  obtain ⟨mj, hmj⟩ : ∃ mj, (session before).models[j]? = some mj :=
    ⟨_, List.getElem?_eq_getElem hj⟩
  have hf := step_frame hok (.construct c) hmj (by simp [Op.changes])
  have hcong : ((session before).step (.construct c)).see j = (session before).see j :=
    see_congr hmj hf.1 (hf.2.1 (by simp [Op.changes])) (hf.2.2.1 (by simp [Op.changes]))
      (hf.2.2.2 (by simp [Op.changes]))
  rw [session_append, List.foldl_cons]
  rw [others_frame (step_ok hok (.construct c)) after (n := count before) hm hd hn hz honly hf.1
    (Nat.ne_of_lt hj), hcong]

/-- The model an optimiser run adds. -/
theorem optimize_new {s : Store} (h : s.Ok) (i : Nat) (env : Env) (opt : Dict Flt) (v : Seen) (gp : GP)
    (hv : s.see i = some v) (hgp : modelFromAnswer env v.gp opt = .ok gp) (hsc : ∃ x, gp.scale = [x]) :
    ∃ m, (s.step (.optimize i env opt)).models[s.models.length]? = some m ∧ 2 ≤ m.deform ∧ 1 ≤ m.noise ∧
      1 ≤ m.scale ∧ (s.step (.optimize i env opt)).see s.models.length = some ⟨gp, v.kind, v.trained⟩ := by
  obtain ⟨x, hx⟩ := hsc
  have hm : (s.step (.optimize i env opt)).models[s.models.length]? =
      some ⟨gp.kernel.smoothness, s.deforms.length, s.noises.length, s.scales.length⟩ := by
    simp [Store.step, hv, hgp]
  refine ⟨_, hm, h.d2, h.n1, h.z1, ?_⟩
  unfold Store.see
  rw [hm]
  obtain ⟨⟨ls, sm⟩, no, sc⟩ := gp
  simp only at hx
  subst hx
  simp [Store.step, hv, hgp]

/-- The scale is not an optimisation variable: the answer keeps it. -/
theorem newStep_scale {env : Env} {opt : Dict Flt} {m m' : GP} {kb : String × Flt × Flt}
    (h : newStep env opt m kb = .ok m') : m'.scale = m.scale := by
  unfold newStep at h
  split at h
  · simp at h
  · simp only at h
    split at h
    · simp only [bind, Except.bind] at h
      split at h
      · simp at h
      · simp only [pure, Except.pure] at h; injection h with h; subst h; rfl
    · split at h
      · simp at h
      · simp only [bind, Except.bind] at h
        split at h
        · simp at h
        · simp only [pure, Except.pure] at h; injection h with h; subst h; rfl

theorem foldlM_scale {env : Env} {opt : Dict Flt} (l : List (String × Flt × Flt)) {m m' : GP}
    (h : l.foldlM (newStep env opt) m = .ok m') : m'.scale = m.scale := by
  induction l generalizing m with
  | nil => simp only [List.foldlM_nil, pure, Except.pure] at h; injection h with h; subst h; rfl
  | cons x l ih =>
    rw [List.foldlM_cons] at h
    simp only [bind, Except.bind] at h
    split at h
    · simp at h
    · rename_i m1 hm1
      rw [ih h, newStep_scale hm1]

theorem modelFromAnswer_scale {env : Env} {m m' : GP} {opt : Dict Flt}
    (h : modelFromAnswer env m opt = .ok m') : m'.scale = m.scale := by
  unfold modelFromAnswer newMuygps at h
  simp only [bind, Except.bind] at h
  split at h
  · simp at h
  · exact foldlM_scale _ h

theorem see_scale {s : Store} {i : Nat} {v : Seen} (h : s.see i = some v) : ∃ x, v.gp.scale = [x] := by
  unfold Store.see at h
  split at h
  · simp at h
  · split at h
    · injection h with h
      subst h
      exact ⟨_, rfl⟩
    · simp at h

/-- **C51** (optimised models, in full). The model an optimiser returns is a new model holding the
optimiser's answer, independent of the model it was optimised from and of every other one: operations
that do not change it leave it as it is, and operations that change only it leave every older model
as it was — also when the model it came from uses default arguments. -/
theorem C51_optimised (before after : List Op) (i : Nat) (env : Env) (opt : Dict Flt) (v : Seen) (gp : GP)
    (hv : (session before).see i = some v) (hgp : modelFromAnswer env v.gp opt = .ok gp) :
    ((∀ op ∈ after, op.changes ≠ some (count before)) →
      (session (before ++ .optimize i env opt :: after)).see (count before) =
        some ⟨gp, v.kind, v.trained⟩) ∧
    ((∀ op ∈ after, op.changes = none ∨ op.changes = some (count before)) → ∀ j < count before,
      (session (before ++ .optimize i env opt :: after)).see j = (session before).see j) := by
  have hok := session_ok before
  have hsc : ∃ x, gp.scale = [x] := by
    rw [modelFromAnswer_scale hgp]; exact see_scale hv
  obtain ⟨m, hm, hd, hn, hz, hs⟩ := optimize_new hok i env opt v gp hv hgp hsc
  constructor
  · intro hother
    rw [session_append, List.foldl_cons, own_frame (j := count before) (step_ok hok _) after hm hd hn hz hother]
    exact hs
  · intro honly j hj
    obtain ⟨mj, hmj⟩ : ∃ mj, (session before).models[j]? = some mj := ⟨_, List.getElem?_eq_getElem hj⟩
    have hf := step_frame hok (.optimize i env opt) hmj (by simp [Op.changes])
    have hcong : ((session before).step (.optimize i env opt)).see j = (session before).see j :=
      see_congr hmj hf.1 (hf.2.1 (by simp [Op.changes])) (hf.2.2.1 (by simp [Op.changes]))
        (hf.2.2.2 (by simp [Op.changes]))
    rw [session_append, List.foldl_cons]
    rw [others_frame (step_ok hok _) after (n := count before) hm hd hn hz honly hf.1 (Nat.ne_of_lt hj),
      hcong]

/-! ## Where it fails: default arguments -/

/-- The default objects keep their class: the deformations are isotropic, the noise a fixed scalar, the
scale a `FixedScale` of 1. -/
def Defaults (s : Store) : Prop :=
  (∃ p, s.deforms[0]? = some (.scalar p)) ∧ (∃ p, s.deforms[1]? = some (.scalar p)) ∧
    (∃ p, s.noises[0]? = some (.homoscedastic p) ∧ p.fixed = true) ∧
    ∃ b, s.scales[0]? = some ⟨.fixed, Flt.fin 1, b⟩

theorem put_scalar (k : Kernel) (key : String) (q : Param) (p : Param) (h : k.ls = .scalar p) :
    ∃ p', (k.put key q).ls = .scalar p' := by
  unfold Kernel.put
  rw [h]
  exact ⟨_, rfl⟩

theorem see_parts {s : Store} {i : Nat} {v : Seen} (h : s.see i = some v) :
    ∃ m z, s.models[i]? = some m ∧ s.deforms[m.deform]? = some v.gp.kernel.ls ∧
      s.noises[m.noise]? = some v.gp.noise ∧ s.scales[m.scale]? = some z ∧
      m.smoothness = v.gp.kernel.smoothness ∧ v.gp.scale = [z.val] ∧ v.kind = z.kind ∧
      v.trained = z.trained := by
  unfold Store.see at h
  split at h
  · simp at h
  · rename_i m hm
    split at h
    · rename_i ls n z h1 h2 h3
      injection h with h
      subst h
      exact ⟨m, z, hm, h1, h2, h3, rfl, rfl, rfl, rfl⟩
    · simp at h

theorem set_scalar {l : List LenScale} {k d : Nat} {ls : LenScale}
    (hk : ∃ p, l[k]? = some (.scalar p)) (hd : ∀ p, l[d]? = some (.scalar p) → ∃ p', ls = .scalar p') :
    ∃ p, (l.set d ls)[k]? = some (.scalar p) := by
  obtain ⟨p, hp⟩ := hk
  rw [List.getElem?_set]
  split
  · rename_i e
    subst e
    obtain ⟨p', rfl⟩ := hd p hp
    rw [if_pos (List.getElem?_eq_some_iff.1 hp).1]
    exact ⟨p', rfl⟩
  · exact ⟨p, hp⟩

theorem append_left {α : Type} {l l' : List α} {k : Nat} {x : α} (h : l[k]? = some x) :
    (l ++ l')[k]? = some x := by
  rw [List.getElem?_append_left (List.getElem?_eq_some_iff.1 h).1, h]

theorem defaults_append {s : Store} (h : Defaults s) (ds : List LenScale) (ns : List NoiseObj)
    (zs : List ScaleObj) (ms : List ModelObj) :
    Defaults ⟨s.deforms ++ ds, s.noises ++ ns, s.scales ++ zs, ms⟩ := by
  obtain ⟨⟨p, h1⟩, ⟨p', h2⟩, ⟨p'', h3, h3'⟩, ⟨b, h4⟩⟩ := h
  exact ⟨⟨p, append_left h1⟩, ⟨p', append_left h2⟩, ⟨p'', append_left h3, h3'⟩, ⟨b, append_left h4⟩⟩

theorem step_defaults {s : Store} (h : Defaults s) (op : Op) : Defaults (s.step op) := by
  cases op with
  | construct c =>
    simp only [Store.step, Store.construct, place_append]
    exact defaults_append h _ _ _ _
  | setParams i key q =>
    simp only [Store.step]
    split
    · rename_i m v hm hv
      split
      · exact h
      · rename_i p hp
        obtain ⟨m', z, hm', hd, _⟩ := see_parts hv
        rw [hm] at hm'
        injection hm' with hm'
        subst hm'
        have hk : ∀ p, s.deforms[m.deform]? = some (.scalar p) →
            ∃ p', (v.gp.kernel.put key (Param.setFrom p q)).ls = .scalar p' := by
          intro p0 h0
          rw [hd] at h0
          injection h0 with h0
          exact put_scalar _ _ _ p0 h0
        have hk' : ∀ p0, s.deforms[m.deform]? = some (.scalar p0) →
            ∃ p', (v.gp.kernel.put key (p.setFrom q)).ls = .scalar p' := by
          intro p0 h0
          rw [hd] at h0
          injection h0 with h0
          exact put_scalar _ _ _ p0 h0
        exact ⟨set_scalar h.1 hk', set_scalar h.2.1 hk', h.2.2.1, h.2.2.2⟩
    · exact h
  | setNoise i env x =>
    simp only [Store.step]
    split
    · rename_i m v hm hv
      split
      · rename_i n hn
        refine ⟨h.1, h.2.1, ?_, h.2.2.2⟩
        obtain ⟨p, hp, hf⟩ := h.2.2.1
        simp only [List.getElem?_set]
        split
        · rename_i e
          obtain ⟨m', z, hm', _, hno, _⟩ := see_parts hv
          rw [hm] at hm'
          injection hm' with hm'
          subst hm'
          rw [e, hp] at hno
          injection hno with hno
          rw [← hno] at hn
          simp only [NoiseObj.setVal, Param.setVal, checkVal, checkRange, hf, if_true, bind, Except.bind,
            pure, Except.pure] at hn
          injection hn with hn
          subst hn
          rw [e, if_pos (List.getElem?_eq_some_iff.1 hp).1]
          exact ⟨_, rfl, rfl⟩
        · exact ⟨p, hp, hf⟩
      · exact h
    · exact h
  | optimizeScale i e =>
    simp only [Store.step]
    split
    · exact h
    · rename_i m hm
      split
      · exact h
      · rename_i z hz
        split
        · exact h
        · refine ⟨h.1, h.2.1, h.2.2.1, ?_⟩
          obtain ⟨b, hb⟩ := h.2.2.2
          simp only [List.getElem?_set]
          split
          · rename_i e0
            rw [e0, hb] at hz
            injection hz with hz
            subst hz
            rw [e0, if_pos (List.getElem?_eq_some_iff.1 hb).1]
            exact ⟨true, rfl⟩
          · exact ⟨b, hb⟩
  | optimize i env opt =>
    simp only [Store.step]
    split
    · exact h
    · split
      · exact h
      · exact defaults_append h _ _ _ _

theorem session_defaults (ops : List Op) : Defaults (session ops) := by
  have : ∀ s, Defaults s → Defaults (ops.foldl Store.step s) := by
    induction ops with
    | nil => exact fun s h => h
    | cons op ops ih => exact fun s h => ih _ (step_defaults h op)
  exact this _ ⟨⟨_, rfl⟩, ⟨_, rfl⟩, ⟨_, rfl, rfl⟩, ⟨_, rfl⟩⟩

/-- The model object a constructor call adds. -/
def newObj (s : Store) (c : Call) : ModelObj :=
  ⟨c.smoothness, (place s.deforms c.deform (if c.smoothness.isSome then 0 else 1)).2,
    (place s.noises c.noise 0).2,
    (place s.scales (c.scale.map fun kv => (⟨kv.1, kv.2, false⟩ : ScaleObj)) 0).2⟩

theorem construct_models (s : Store) (c : Call) : (s.construct c).models = s.models ++ [newObj s c] := rfl

theorem two_models (s : Store) (c₁ c₂ : Call) :
    ((s.step (.construct c₁)).step (.construct c₂)).models[s.models.length]? = some (newObj s c₁) ∧
    ((s.step (.construct c₁)).step (.construct c₂)).models[s.models.length + 1]? =
      some (newObj (s.construct c₁) c₂) := by
  simp only [Store.step, construct_models]
  constructor
  · simp
  · rw [List.getElem?_append_right (by simp)]
    simp

/-- **C51 is false of the code** for the length scale. Two models constructed by different calls, both
with Matérn or both with RBF kernels, both leaving the deformation out, after any history: setting the
length scale of the first through `set_params` sets that of the second. -/
theorem C51_default_length_scale_fails (before : List Op) (c₁ c₂ : Call) (q : Param)
    (hcls : c₁.smoothness.isSome = c₂.smoothness.isSome) (h₁ : c₁.deform = none) (h₂ : c₂.deform = none) :
    ∃ v, (session (before ++ [.construct c₁, .construct c₂,
        .setParams (count before) "length_scale" q])).see (count before + 1) = some v ∧
      v.gp.kernel.ls = .scalar (Param.setFrom q q) := by
  have hok := session_ok before
  have hdef := session_defaults before
  generalize hs : session before = s at hok hdef
  have hcount : count before = s.models.length := by rw [← hs]; rfl
  rw [session_append, hs, hcount]
  simp only [List.foldl_cons, List.foldl_nil]
  have ok1 := step_ok hok (.construct c₁)
  have ok2 := step_ok ok1 (.construct c₂)
  have def2 := step_defaults (step_defaults hdef (.construct c₁)) (.construct c₂)
  set s2 := (s.step (.construct c₁)).step (.construct c₂) with hs2
  have hm1 : ∃ m, s2.models[s.models.length]? = some m ∧ m.deform = (if c₁.smoothness.isSome then 0 else 1) :=
    ⟨_, (two_models s c₁ c₂).1, by simp [newObj, h₁, place]⟩
  have hm2 : ∃ m, s2.models[s.models.length + 1]? = some m ∧ m.deform = (if c₁.smoothness.isSome then 0 else 1) :=
    ⟨_, (two_models s c₁ c₂).2, by simp [newObj, h₂, place, hcls]⟩
  obtain ⟨m1, hm1, hd1⟩ := hm1
  obtain ⟨m2, hm2, hd2⟩ := hm2
  set k := (if c₁.smoothness.isSome then 0 else 1) with hk
  have hsc : ∃ p, s2.deforms[k]? = some (.scalar p) := by
    rw [hk]; split
    · exact def2.1
    · exact def2.2.1
  obtain ⟨p, hp⟩ := hsc
  have b1 := ok_bound ok2 hm1
  have b2 := ok_bound ok2 hm2
  have hsee : ∃ v, s2.see s.models.length = some v ∧ v.gp.kernel.ls = .scalar p := by
    unfold Store.see
    rw [hm1]
    simp only [hd1, hp, List.getElem?_eq_getElem b1.2.1, List.getElem?_eq_getElem b1.2.2]
    exact ⟨_, rfl, rfl⟩
  obtain ⟨v, hv, hls⟩ := hsee
  have hget : Dict.get? v.gp.kernel.hyperparameters "length_scale" = some p := by
    rw [hyperparameters_eq]
    simp [Kernel.named, hls, LenScale.named, Dict.get?]
  have hput : (v.gp.kernel.put "length_scale" (p.setFrom q)).ls = .scalar (Param.setFrom q q) := by
    simp [Kernel.put, hls, Param.setFrom]
  simp only [Store.step, hm1, hv, hget]
  unfold Store.see
  simp only [hput]
  rw [List.getElem?_set_ne (by omega), hm2]
  have hlen : k < s2.deforms.length := (List.getElem?_eq_some_iff.1 hp).1
  simp only [hd1, hd2, List.getElem?_set, if_pos hlen, if_true, List.getElem?_eq_getElem b2.2.1,
    List.getElem?_eq_getElem b2.2.2]
  exact ⟨_, rfl, rfl⟩

/-- **C51 is false of the code** for the noise: any two models that left the noise out. -/
theorem C51_default_noise_fails (before : List Op) (c₁ c₂ : Call) (env : Env) (x : Flt)
    (h₁ : c₁.noise = none) (h₂ : c₂.noise = none) :
    ∃ v p, (session (before ++ [.construct c₁, .construct c₂,
        .setNoise (count before) env x])).see (count before + 1) = some v ∧
      v.gp.noise = .homoscedastic p ∧ p.val = x := by
  have hok := session_ok before
  have hdef := session_defaults before
  generalize hs : session before = s at hok hdef
  have hcount : count before = s.models.length := by rw [← hs]; rfl
  rw [session_append, hs, hcount]
  simp only [List.foldl_cons, List.foldl_nil]
  have ok1 := step_ok hok (.construct c₁)
  have ok2 := step_ok ok1 (.construct c₂)
  have def2 := step_defaults (step_defaults hdef (.construct c₁)) (.construct c₂)
  set s2 := (s.step (.construct c₁)).step (.construct c₂) with hs2
  have hm1 : ∃ m, s2.models[s.models.length]? = some m ∧ m.noise = 0 :=
    ⟨_, (two_models s c₁ c₂).1, by simp [newObj, h₁, place]⟩
  have hm2 : ∃ m, s2.models[s.models.length + 1]? = some m ∧ m.noise = 0 :=
    ⟨_, (two_models s c₁ c₂).2, by simp [newObj, h₂, place]⟩
  obtain ⟨m1, hm1, hd1⟩ := hm1
  obtain ⟨m2, hm2, hd2⟩ := hm2
  obtain ⟨p, hp, hf⟩ := def2.2.2.1
  have b1 := ok_bound ok2 hm1
  have b2 := ok_bound ok2 hm2
  have hsee : ∃ v, s2.see s.models.length = some v ∧ v.gp.noise = .homoscedastic p := by
    unfold Store.see
    rw [hm1]
    simp only [hd1, hp, List.getElem?_eq_getElem b1.1, List.getElem?_eq_getElem b1.2.2]
    exact ⟨_, rfl, rfl⟩
  obtain ⟨v, hv, hno⟩ := hsee
  have hset : v.gp.noise.setVal env x = .ok (.homoscedastic { p with val := x }) := by
    rw [hno]
    simp [NoiseObj.setVal, Param.setVal, checkVal, checkRange, hf, bind, Except.bind, pure, Except.pure]
  simp only [Store.step, hm1, hv, hset]
  unfold Store.see
  simp only [hm2]
  have hlen : 0 < s2.noises.length := (List.getElem?_eq_some_iff.1 hp).1
  simp only [hd1, hd2, List.getElem?_set, if_pos hlen, if_true, List.getElem?_eq_getElem b2.1,
    List.getElem?_eq_getElem b2.2.2]
  exact ⟨_, _, rfl, rfl, rfl⟩

/-- **C51 is false of the code** for the scale: optimising the scale of one model marks the scale of
every other model that left it out as trained. -/
theorem C51_default_scale_fails (before : List Op) (c₁ c₂ : Call) (estimate : Flt)
    (h₁ : c₁.scale = none) (h₂ : c₂.scale = none) :
    ∃ v, (session (before ++ [.construct c₁, .construct c₂,
        .optimizeScale (count before) estimate])).see (count before + 1) = some v ∧
      v.trained = true := by
  have hok := session_ok before
  have hdef := session_defaults before
  generalize hs : session before = s at hok hdef
  have hcount : count before = s.models.length := by rw [← hs]; rfl
  rw [session_append, hs, hcount]
  simp only [List.foldl_cons, List.foldl_nil]
  have ok1 := step_ok hok (.construct c₁)
  have ok2 := step_ok ok1 (.construct c₂)
  have def2 := step_defaults (step_defaults hdef (.construct c₁)) (.construct c₂)
  set s2 := (s.step (.construct c₁)).step (.construct c₂) with hs2
  have hm1 : ∃ m, s2.models[s.models.length]? = some m ∧ m.scale = 0 :=
    ⟨_, (two_models s c₁ c₂).1, by simp [newObj, h₁, place]⟩
  have hm2 : ∃ m, s2.models[s.models.length + 1]? = some m ∧ m.scale = 0 :=
    ⟨_, (two_models s c₁ c₂).2, by simp [newObj, h₂, place]⟩
  obtain ⟨m1, hm1, hd1⟩ := hm1
  obtain ⟨m2, hm2, hd2⟩ := hm2
  obtain ⟨b, hb⟩ := def2.2.2.2
  have b2 := ok_bound ok2 hm2
  have hpos : ¬ ∃ r : EReal, (ScaleObj.mk .fixed (Flt.fin 1) b).optimum estimate = some r ∧ r ≤ 0 := by
    rintro ⟨r, hr, hle⟩
    simp only [ScaleObj.optimum, Flt.fin, Option.some.injEq] at hr
    rw [← hr] at hle
    exact absurd hle (not_le.2 (by exact_mod_cast (zero_lt_one : (0:ℝ) < 1)))
  simp only [Store.step, hm1, hd1, hb, if_neg hpos]
  unfold Store.see
  simp only [hm2]
  have hlen : 0 < s2.scales.length := (List.getElem?_eq_some_iff.1 hb).1
  simp only [hd2, List.getElem?_set, if_pos hlen, if_true, List.getElem?_eq_getElem b2.1,
    List.getElem?_eq_getElem b2.2.1]
  exact ⟨_, rfl, rfl⟩

/-! ## Non-vacuity -/

/-- A call with explicit arguments. -/
def exCall : Call := ⟨some (constant 0.5), some (.scalar (constant 2)), some (.homoscedastic (constant 0)),
  some (.estimated, Flt.fin 1)⟩

example : exCall.explicit.isSome := rfl

/-- A session in which other models are constructed with defaults and changed, before and after. -/
example (q : Param) (env : Env) : ∃ v, exCall.explicit = some v ∧
    (session ([.construct ⟨none, none, none, none⟩] ++ .construct exCall ::
      [.construct ⟨none, none, none, none⟩, .setParams 0 "length_scale" q, .setNoise 2 env (Flt.fin 3),
        .optimizeScale 0 (Flt.fin 7)])).see 1 = some v := by
  refine ⟨_, rfl, ?_⟩
  have hc : count [.construct ⟨none, none, none, none⟩] = 1 := rfl
  have := C51_explicit_partial [.construct ⟨none, none, none, none⟩]
    [.construct ⟨none, none, none, none⟩, .setParams 0 "length_scale" q, .setNoise 2 env (Flt.fin 3),
        .optimizeScale 0 (Flt.fin 7)] exCall _ rfl
    (by intro op hop; rw [hc]; simp at hop; rcases hop with rfl | rfl | rfl | rfl <;> simp [Op.changes])
  rw [hc] at this
  exact this

end MuyGPyS.Share
