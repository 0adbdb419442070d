import Verif.Spec.Values

/-!
# C63: calls leave the caller's arrays as they are, and results never alias arguments

`Model/Memory.lean` runs the functions on a memory of buffers, with the in-place writes of the code; `Spec/Values.lean` treats arrays as values.
-/

namespace MuyGPyS.Mem
open Py MuyGPyS

/-- `a` is a live array of buffer `n` or later whose value is `t`. -/
def Is (n : Nat) (m : Mem) (a : Arr) (t : Tensor ℝ) : Prop := a.val m = t ∧ n ≤ a.buf ∧ a.buf < m.length

/-- Running `p` in memory `m` changes no existing buffer, raises exactly the exception of `r` and otherwise returns something related by
`R` to the value of `r`. -/
def Sem {α β : Type} (m : Mem) (p : Prog α) (r : Res β) (R : Mem → α → β → Prop) : Prop :=
  ∃ l, (p m).2 = m ++ l ∧
    ((∃ a b, (p m).1 = .ok a ∧ r = .ok b ∧ R (m ++ l) a b) ∨ ∃ e, (p m).1 = .error e ∧ r = .error e)

theorem val_append {m : Mem} {a : Arr} (h : a.buf < m.length) (l : Mem) : a.val (m ++ l) = a.val m := by
  simp only [Arr.val, List.getD_eq_getElem?_getD, List.getElem?_append_left h]

theorem val_last (m : Mem) (s : List Nat) (f : Nat → ℝ) : (⟨m.length, s⟩ : Arr).val (m ++ [f]) = ⟨s, f⟩ := by
  simp [Arr.val]

theorem Is.append {n : Nat} {m : Mem} {a : Arr} {t : Tensor ℝ} (h : Is n m a t) (l : Mem) : Is n (m ++ l) a t :=
  ⟨(val_append h.2.2 l).trans h.1, h.2.1, by simpa using Nat.lt_add_right _ h.2.2⟩

theorem Is.weaken {n k : Nat} {m : Mem} {a : Arr} {t : Tensor ℝ} (h : Is n m a t) (hk : k ≤ n) : Is k m a t :=
  ⟨h.1, hk.trans h.2.1, h.2.2⟩

theorem Is.shape {n : Nat} {m : Mem} {a : Arr} {t : Tensor ℝ} (h : Is n m a t) : a.shape = t.shape := by
  rw [← h.1]; rfl

theorem bind_ok {α β : Type} {p : Prog α} {f : α → Prog β} {m m' : Mem} {a : α} (h : p m = (.ok a, m')) : (p >>= f) m = f a m' := by
  show Prog.bind p f m = _
  unfold Prog.bind; rw [h]

theorem bind_error {α β : Type} {p : Prog α} {f : α → Prog β} {m m' : Mem} {e : Err} (h : p m = (.error e, m')) :
    (p >>= f) m = (.error e, m') := by
  show Prog.bind p f m = _
  unfold Prog.bind; rw [h]

section combinators
variable {α β γ δ : Type} {m : Mem}

theorem Sem.bind {p : Prog α} {r : Res β} {R : Mem → α → β → Prop} {f : α → Prog γ} {g : β → Res δ} {S : Mem → γ → δ → Prop}
    (h : Sem m p r R) (hf : ∀ l a b, R (m ++ l) a b → Sem (m ++ l) (f a) (g b) S) : Sem m (p >>= f) (r >>= g) S := by
  obtain ⟨l, hl, h⟩ := h
  rcases h with ⟨a, b, ha, rfl, hR⟩ | ⟨e, he, rfl⟩
  · obtain ⟨l', hl', h'⟩ := hf l a b hR
    have hrun : (p >>= f) m = f a (m ++ l) := bind_ok (Prod.ext ha hl)
    refine ⟨l ++ l', ?_, ?_⟩
    · rw [hrun, hl', List.append_assoc]
    · rw [hrun, ← List.append_assoc]; exact h'
  · have hrun : (p >>= f) m = (.error e, m ++ l) := bind_error (Prod.ext he hl)
    exact ⟨l, by rw [hrun], Or.inr ⟨e, by rw [hrun], rfl⟩⟩

theorem Sem.mono {p : Prog α} {r : Res β} {R S : Mem → α → β → Prop} (h : Sem m p r R)
    (hRS : ∀ l a b, R (m ++ l) a b → S (m ++ l) a b) : Sem m p r S := by
  obtain ⟨l, hl, h⟩ := h
  refine ⟨l, hl, ?_⟩
  rcases h with ⟨a, b, ha, hr, hR⟩ | h
  · exact Or.inl ⟨a, b, ha, hr, hRS l a b hR⟩
  · exact Or.inr h

theorem Sem.pure {a : α} {b : β} {R : Mem → α → β → Prop} (h : R m a b) : Sem m (Pure.pure a) (Except.ok b) R :=
  ⟨[], by simp [Pure.pure], Or.inl ⟨a, b, rfl, rfl, by simpa using h⟩⟩

theorem Sem.raise (e : Err) (R : Mem → α → β → Prop) : Sem m (Mem.raise e) (Except.error e : Res β) R :=
  ⟨[], by simp [Mem.raise], Or.inr ⟨e, rfl, rfl⟩⟩

theorem Sem.load {a : Arr} {t : Tensor ℝ} {n : Nat} {f : Tensor ℝ → Prog γ} {r : Res δ} {S : Mem → γ → δ → Prop} (ha : Is n m a t)
    (h : Sem m (f t) r S) : Sem m (Mem.load a >>= f) r S := by
  have hrun : (Mem.load a >>= f) m = f t m := bind_ok (by rw [← ha.1]; rfl)
  unfold Sem; rw [hrun]; exact h

theorem Sem.alloc (r : Res (Tensor ℝ)) : Sem m (Mem.alloc r) r (Is m.length) := by
  cases r with
  | error e => exact ⟨[], by simp [Mem.alloc], Or.inr ⟨e, rfl, rfl⟩⟩
  | ok t =>
    exact ⟨[t.flat], rfl, Or.inl ⟨⟨m.length, t.shape⟩, t, rfl, rfl, val_last _ _ _, le_rfl, by simp⟩⟩

theorem Sem.view {a : Arr} {t : Tensor ℝ} {n : Nat} {g : Tensor ℝ → Res (Tensor ℝ)} (ha : Is n m a t)
    (hg : ∀ t', g t = .ok t' → t'.flat = t.flat) : Sem m (Mem.view a g) (g t) (Is n) := by
  have hrun : Mem.view a g m = match g t with | .ok t => (.ok ⟨a.buf, t.shape⟩, m) | .error e => (.error e, m) := by
    rw [← ha.1]; rfl
  unfold Sem; rw [hrun]
  cases hr : g t with
  | error e => exact ⟨[], by simp, Or.inr ⟨e, rfl, rfl⟩⟩
  | ok t' =>
    refine ⟨[], by simp, Or.inl ⟨⟨a.buf, t'.shape⟩, t', rfl, rfl, ?_, ha.2.1, by simpa using ha.2.2⟩⟩
    have h1 : m.getD a.buf (fun _ => 0) = t.flat := by rw [← ha.1]; rfl
    simp only [Arr.val, List.append_nil, h1, ← hg t' hr]

end combinators

theorem reshape_flat {t t' : Tensor ℝ} {s : List Nat} (h : t.reshape s = .ok t') : t'.flat = t.flat := by
  unfold Tensor.reshape at h
  split at h
  · cases h; rfl
  · cases h

/-! ## The kernel -/

open Classical in
theorem maternGenFn_run {m : Mem} {a : Arr} (ha : a.buf < m.length) (s : Flt) :
    ∃ x, maternGenFn a s m = (.ok a, m.set a.buf (fun k => maternGen s ((m.getD a.buf fun _ => 0) k)) ++ [x]) := by
  generalize hg : (m.getD a.buf fun _ => 0) = g
  obtain ⟨x, hx⟩ : ∃ x : Nat → ℝ, x = fun k => Real.sqrt (2 * s.toReal) * (if g k = 0 then g k + machEps else g k) := ⟨_, rfl⟩
  refine ⟨x, ?_⟩
  have hget : ∀ (f : Nat → ℝ) (l : Mem), (m.set a.buf f ++ l).getD a.buf (fun _ => 0) = f := by
    intro f l
    rw [List.getD_eq_getElem?_getD, List.getElem?_append_left (by simpa using ha)]
    simp [ha]
  have hset : ∀ (f f' : Nat → ℝ) (l : Mem), (m.set a.buf f ++ l).set a.buf f' = m.set a.buf f' ++ l := by
    intro f f' l
    rw [List.set_append_left _ _ (by simpa using ha), List.set_set]
  unfold maternGenFn
  refine (bind_ok (m' := m.set a.buf fun k => if g k = 0 then g k + machEps else g k) (a := ()) (by
    unfold store; rw [hg])).trans ?_
  refine (bind_ok (m' := m.set a.buf fun k => if g k = 0 then g k + machEps else g k)
    (a := ⟨a.shape, fun k => if g k = 0 then g k + machEps else g k⟩) (by
    unfold load Arr.val; have := hget (fun k => if g k = 0 then g k + machEps else g k) []
    rw [List.append_nil] at this; rw [this])).trans ?_
  refine (bind_ok (m' := (m.set a.buf fun k => if g k = 0 then g k + machEps else g k) ++ [x]) (a := ⟨m.length, a.shape⟩) (by
    unfold alloc Tensor.map; simp only [List.length_set, hx])).trans ?_
  refine (bind_ok (m' := (m.set a.buf fun _ => 2 ^ (1 - s.toReal) / Real.Gamma s.toReal) ++ [x]) (a := ()) (by
    unfold store; rw [hset])).trans ?_
  refine (bind_ok (m' := (m.set a.buf fun _ => 2 ^ (1 - s.toReal) / Real.Gamma s.toReal) ++ [x]) (a := ⟨a.shape, x⟩) (by
    unfold load
    have h := val_last (m.set a.buf fun _ => 2 ^ (1 - s.toReal) / Real.Gamma s.toReal) a.shape x
    rw [List.length_set] at h
    rw [h])).trans ?_
  refine (bind_ok (m' := (m.set a.buf fun k => 2 ^ (1 - s.toReal) / Real.Gamma s.toReal * x k ^ s.toReal) ++ [x]) (a := ()) (by
    unfold store; rw [hset, hget])).trans ?_
  refine (bind_ok (m' := (m.set a.buf fun k => 2 ^ (1 - s.toReal) / Real.Gamma s.toReal * x k ^ s.toReal * besselK s.toReal (x k)) ++ [x])
    (a := ()) (by unfold store; rw [hset, hget])).trans ?_
  show (Except.ok a, _) = _
  subst hx
  rfl

/-- The general Matérn function on an array that was allocated after everything in `m`. -/
theorem sem_maternGenFn {m l : Mem} {a : Arr} {t : Tensor ℝ} (ha : Is m.length (m ++ l) a t) (s : Flt) :
    ∃ l', (maternGenFn a s (m ++ l)).2 = m ++ l' ∧ (maternGenFn a s (m ++ l)).1 = .ok a ∧
      Is m.length (m ++ l') a (t.map (maternGen s)) := by
  obtain ⟨x, hx⟩ := maternGenFn_run ha.2.2 s
  rw [hx]
  have hb : a.buf < (m ++ l).length := ha.2.2
  refine ⟨l.set (a.buf - m.length) (fun k => maternGen s (((m ++ l).getD a.buf fun _ => 0) k)) ++ [x], ?_, rfl, ?_, ha.2.1, ?_⟩
  · show (m ++ l).set _ _ ++ _ = _
    rw [List.set_append_right _ _ ha.2.1, List.append_assoc]
  · rw [← List.append_assoc, ← List.set_append_right _ _ ha.2.1]
    rw [val_append (by simpa using hb)]
    rw [← ha.1]
    simp only [Arr.val, Tensor.map]
    congr 1
    rw [List.getD_eq_getElem?_getD, List.getElem?_set_self hb]; rfl
  · simp only [List.length_append, List.length_set] at hb ⊢; omega

theorem Sem.congr {α β : Type} {m : Mem} {p : Prog α} {r r' : Res β} {R : Mem → α → β → Prop} (h : Sem m p r R) (hr : r = r') :
    Sem m p r' R := hr ▸ h

theorem sem_kfnRun {m l : Mem} {a : Arr} {t : Tensor ℝ} (ha : Is m.length (m ++ l) a t) (fn : KFn) (kw : Dict Flt) :
    ∃ l', (kfnRun fn a kw (m ++ l)).2 = m ++ l' ∧
      ((∃ b t', (kfnRun fn a kw (m ++ l)).1 = .ok b ∧ fn.run maternGen t kw = .ok t' ∧ Is m.length (m ++ l') b t') ∨
        ∃ e, (kfnRun fn a kw (m ++ l)).1 = .error e ∧ fn.run maternGen t kw = .error e) := by
  have hother : ∀ r : Tensor ℝ → Res (Tensor ℝ), ∃ l', ((load a >>= fun v => alloc (r v)) (m ++ l)).2 = m ++ l' ∧
      ((∃ b t', ((load a >>= fun v => alloc (r v)) (m ++ l)).1 = .ok b ∧ r t = .ok t' ∧ Is m.length (m ++ l') b t') ∨
        ∃ e, ((load a >>= fun v => alloc (r v)) (m ++ l)).1 = .error e ∧ r t = .error e) := by
    intro r
    obtain ⟨l', hl', h⟩ := Sem.load ha (f := fun v => alloc (r v)) (r := r t) (S := Is (m ++ l).length) (Sem.alloc (r t))
    refine ⟨l ++ l', by rw [hl', List.append_assoc], ?_⟩
    rw [← List.append_assoc]
    rcases h with ⟨b, t', hb, ht', hI⟩ | h
    · exact Or.inl ⟨b, t', hb, ht', hI.weaken (by simp)⟩
    · exact Or.inr h
  cases fn with
  | gen =>
    unfold kfnRun KFn.run
    cases hs : Dict.get? kw "smoothness" with
    | none => exact ⟨l, rfl, Or.inr ⟨_, rfl, rfl⟩⟩
    | some s =>
      obtain ⟨l', h1, h2, h3⟩ := sem_maternGenFn ha s
      exact ⟨l', h1, Or.inl ⟨_, _, h2, rfl, h3⟩⟩
  | rbf => exact hother fun v => KFn.run maternGen .rbf v kw
  | m05 => exact hother fun v => KFn.run maternGen .m05 v kw
  | m15 => exact hother fun v => KFn.run maternGen .m15 v kw
  | m25 => exact hother fun v => KFn.run maternGen .m25 v kw
  | minf => exact hother fun v => KFn.run maternGen .minf v kw

/-- The kernel function on any live array: a new array with the value of the pure model, whatever the implementation does to its own
argument. -/
theorem sem_optFn {m : Mem} {n : Nat} {d : Arr} {t : Tensor ℝ} (hd : Is n m d t) (k : KernelObj) (kw : Dict Flt) :
    Sem m (optFn k d kw) (k.optFn maternGen t kw) (Is m.length) := by
  unfold optFn KernelObj.optFn
  split
  · exact Sem.raise _ _
  refine Sem.load hd ?_
  -- the rest after the deformation
  have key : ∀ (kw' : Dict Flt) (r : Res (Tensor ℝ)),
      Sem m (Mem.alloc r >>= fun t => kfnRun k.fn t kw') (r >>= fun t => k.fn.run maternGen t kw') (Is m.length) := by
    intro kw' r
    cases r with
    | error e => exact ⟨[], by simp [bind, Prog.bind, Mem.alloc], Or.inr ⟨e, rfl, rfl⟩⟩
    | ok t' =>
      have hrun : (Mem.alloc (.ok t') >>= fun t => kfnRun k.fn t kw') m = kfnRun k.fn ⟨m.length, t'.shape⟩ kw' (m ++ [t'.flat]) :=
        bind_ok rfl
      unfold Sem; rw [hrun]
      exact sem_kfnRun (a := ⟨m.length, t'.shape⟩) (l := [t'.flat]) (t := t') ⟨val_last _ _ _, le_rfl, by simp⟩ k.fn kw'
  cases hs : k.smoothness with
  | none =>
    refine (key (k.deform.filter kw).2 (k.deform.call t (k.deform.filter kw).1)).congr ?_
    simp only [bind, Except.bind]
    cases k.deform.call t (k.deform.filter kw).1 <;> rfl
  | some p =>
    refine (key (Dict.setdefault (k.deform.filter kw).2 "smoothness" p.val) (k.deform.call t (k.deform.filter kw).1)).congr ?_
    simp only [bind, Except.bind]
    cases k.deform.call t (k.deform.filter kw).1 <;> rfl

theorem sem_call {m : Mem} {n : Nat} {d : Arr} {t : Tensor ℝ} (hd : Is n m d t) (k : KernelObj) (kw : Dict Flt) :
    Sem m (call k d kw) (k.call maternGen t kw) (Is m.length) := by
  unfold call KernelObj.call
  split
  · exact Sem.raise _ _
  · exact sem_optFn hd k kw

/-! ## Noise -/

theorem store_last (m : Mem) (s : List Nat) (f : Nat → ℝ) (g : Nat → ℝ → ℝ) :
    store ⟨m.length, s⟩ g (m ++ [f]) = (.ok (), m ++ [fun k => g k (f k)]) := by
  unfold store
  rw [List.set_append_right _ _ le_rfl]
  simp

theorem sem_heteroscedastic {m : Mem} {n : Nat} {K : Arr} {t : Tensor ℝ} (hK : Is n m K t) (v : Tensor ℝ) :
    Sem m (heteroscedasticPerturb K v) (MuyGPyS.heteroscedasticPerturb t v) (Is m.length) := by
  unfold heteroscedasticPerturb MuyGPyS.heteroscedasticPerturb
  refine Sem.load hK ?_
  rw [hK.shape]
  obtain ⟨s, fl⟩ := t
  have herr : ∀ e : Err, Sem m (Mem.alloc (.ok ⟨s, fl⟩) >>= fun _ => (Mem.raise e : Prog Arr)) (Except.error e : Res (Tensor ℝ)) (Is m.length) :=
    fun e => ⟨[fl], rfl, Or.inr ⟨e, rfl, rfl⟩⟩
  have hok : ∀ g : Nat → ℝ → ℝ, Sem m (Mem.alloc (.ok ⟨s, fl⟩) >>= fun ret => store ret g >>= fun _ => (Pure.pure ret : Prog Arr))
      (Except.ok ⟨s, fun k => g k (fl k)⟩ : Res (Tensor ℝ)) (Is m.length) := by
    intro g
    have h : (Mem.alloc (.ok ⟨s, fl⟩) >>= fun ret => store ret g >>= fun _ => (Pure.pure ret : Prog Arr)) m
        = (.ok (⟨m.length, s⟩ : Arr), m ++ [fun k => g k (fl k)]) := by
      refine (bind_ok (p := Mem.alloc (.ok ⟨s, fl⟩)) (m := m) (a := (⟨m.length, s⟩ : Arr)) (m' := m ++ [fl]) rfl).trans ?_
      exact (bind_ok (store_last m s fl g)).trans rfl
    unfold Sem; rw [h]
    exact ⟨_, rfl, Or.inl ⟨_, _, rfl, rfl, val_last _ _ _, le_rfl, by simp⟩⟩
  match s with
  | [b, n, k] =>
    simp only
    split
    · exact herr _
    split
    · exact hok _
    split
    · exact hok _
    · exact herr _
  | [] => exact herr _
  | [_] => exact herr _
  | [_, _] => exact herr _
  | _ :: _ :: _ :: _ :: _ => exact herr _

theorem sem_perturb {m : Mem} {n : Nat} {K : Arr} {t : Tensor ℝ} (hK : Is n m K t) (ν : Noise) (kw : Option ℝ) :
    Sem m (perturb ν K kw) (ν.perturb t kw) (Is 0) := by
  cases ν with
  | heteroscedastic v => exact (sem_heteroscedastic hK v).mono fun _ _ _ h => h.weaken (Nat.zero_le _)
  | null => exact Sem.pure (hK.weaken (Nat.zero_le _))
  | homoscedastic v => exact (Sem.load hK (Sem.alloc _)).mono fun _ _ _ h => h.weaken (Nat.zero_le _)
  | shear33 v => exact (Sem.load hK (Sem.alloc _)).mono fun _ _ _ h => h.weaken (Nat.zero_le _)

theorem sem_perturb_fresh {m : Mem} {n : Nat} {K : Arr} {t : Tensor ℝ} (hK : Is n m K t) {ν : Noise} (hν : ν ≠ .null) (kw : Option ℝ) :
    Sem m (perturb ν K kw) (ν.perturb t kw) (Is m.length) := by
  cases ν with
  | heteroscedastic v => exact sem_heteroscedastic hK v
  | null => exact absurd rfl hν
  | homoscedastic v => exact Sem.load hK (Sem.alloc _)
  | shear33 v => exact Sem.load hK (Sem.alloc _)

/-! ## The posterior functions -/

theorem sem_posteriorMean {m : Mem} {n : Nat} {K C y : Arr} {tK tC ty : Tensor ℝ} (hK : Is n m K tK) (hC : Is n m C tC) (hy : Is n m y ty) :
    Sem m (posteriorMean K C y) (MuyGPyS.posteriorMean tK tC ty) (Is m.length) := by
  unfold posteriorMean MuyGPyS.posteriorMean
  rw [hK.shape, hC.shape, hy.shape]
  cases hf : findMatchingNdim ty.shape tK.shape with
  | error e => exact Sem.raise _ _
  | ok bi =>
    show Sem m _ (Except.bind (Except.ok bi) _) _
    simp only [Except.bind]
    refine (Sem.view hy fun _ h => reshape_flat h).bind fun l1 y1 ty1 h1 => ?_
    refine (Sem.view (hK.append l1) fun _ h => reshape_flat h).bind fun l2 K1 tK1 h2 => ?_
    refine (Sem.view ((hC.append l1).append l2) fun _ h => reshape_flat h).bind fun l3 C1 tC1 h3 => ?_
    refine Sem.load (h2.append l3) (Sem.load h3 ?_)
    refine (Sem.alloc _).bind fun l4 F tF h4 => ?_
    refine Sem.load h4 (Sem.load (((h1.append l2).append l3).append l4) ?_)
    refine (Sem.alloc _).bind fun l5 r tr h5 => ?_
    refine (Sem.view h5 fun _ h => reshape_flat h).mono fun _ _ _ h => h.weaken (by simp)

theorem sem_diagonalVariance {m : Mem} {n : Nat} {K C : Arr} {tK tC : Tensor ℝ} (hK : Is n m K tK) (hC : Is n m C tC) (kout : Tensor ℝ) :
    Sem m (diagonalVariance K C kout) (MuyGPyS.diagonalVariance tK tC kout) (Is m.length) := by
  unfold diagonalVariance MuyGPyS.diagonalVariance
  rw [hK.shape, hC.shape]
  simp only [Tensor.ndim]
  refine (Sem.view hK fun _ h => reshape_flat h).bind fun l2 K1 tK1 h2 => ?_
  refine (Sem.view (hC.append l2) fun _ h => reshape_flat h).bind fun l3 C1 tC1 h3 => ?_
  refine Sem.load (h2.append l3) (Sem.load h3 ?_)
  refine (Sem.alloc _).bind fun l4 F tF h4 => ?_
  refine Sem.load h4 ?_
  refine (Sem.alloc _).bind fun l5 r tr h5 => ?_
  refine (Sem.view h5 fun _ h => reshape_flat h).bind fun l6 P tP h6 => ?_
  exact (Sem.load h6 (Sem.alloc _)).mono fun _ _ _ h => h.weaken (by simp only [List.length_append]; omega)

theorem sem_fastPrecompute {m : Mem} {n : Nat} {K y : Arr} {tK ty : Tensor ℝ} (hK : Is n m K tK) (hy : Is n m y ty) :
    Sem m (fastPrecompute K y) (MuyGPyS.fastPrecompute tK ty) (Is m.length) := by
  unfold fastPrecompute MuyGPyS.fastPrecompute
  obtain ⟨sy, fy⟩ := ty
  have hrest : ∀ (y1 : Arr) (t1 : Tensor ℝ) (l : Mem), Is n (m ++ l) y1 t1 →
      Sem (m ++ l) (match y1.shape with
        | [b, n, r] => do
          let A ← load K
          let B ← load y1
          let s ← alloc (Tensor.solve [b] n r A B)
          view s fun t => .ok t.squeeze
        | _ => raise .value)
      (match t1.shape with
        | [b, n, r] => do
          let s ← Tensor.solve [b] n r tK t1
          pure s.squeeze
        | _ => .error .value) (Is m.length) := by
    intro y1 t1 l h1
    rw [h1.shape]
    match t1.shape with
    | [b, n, r] =>
      simp only
      refine Sem.load (hK.append l) (Sem.load h1 ?_)
      refine (Sem.alloc _).bind fun l4 s ts h4 => ?_
      exact (Sem.view h4 (g := fun t => .ok t.squeeze) fun _ h => by cases h; rfl).mono fun _ _ _ h => h.weaken (by simp)
    | [] => exact Sem.raise _ _
    | [_] => exact Sem.raise _ _
    | [_, _] => exact Sem.raise _ _
    | _ :: _ :: _ :: _ :: _ => exact Sem.raise _ _
  have hv := (Sem.view hy (g := fun t => .ok (match t.shape with
    | [b, n] => ⟨[b, n, 1], t.flat⟩
    | _ => t)) (fun t' h => by
      cases h
      simp only
      split <;> rfl)).bind fun l y1 t1 h1 => hrest y1 t1 l h1
  exact hv

theorem sem_fastPosteriorMean {m : Mem} {n : Nat} {C c : Arr} {tC tc : Tensor ℝ} (hC : Is n m C tC) (hc : Is n m c tc) :
    Sem m (fastPosteriorMean C c) (MuyGPyS.fastPosteriorMean tC tc) (Is m.length) := by
  unfold fastPosteriorMean MuyGPyS.fastPosteriorMean
  refine Sem.load hC ?_
  have hv := (Sem.view hc (g := fun t => .ok t.atleast3d) (fun t' h => by
      cases h
      unfold Tensor.atleast3d
      split <;> rfl)).bind (f := fun c => do
        let B ← load c
        let r ← alloc (einsumFast tC B)
        view r fun t => .ok t.squeeze) (g := fun t => do
          let r ← einsumFast tC t
          pure r.squeeze) (S := Is m.length) fun l c1 t1 h1 => by
    refine Sem.load h1 ?_
    refine (Sem.alloc _).bind fun l4 s ts h4 => ?_
    exact (Sem.view h4 (g := fun t => .ok t.squeeze) fun _ h => by cases h; rfl).mono fun _ _ _ h => h.weaken (by simp)
  exact hv

theorem sem_mean {m : Mem} {n : Nat} {K C y : Arr} {tK tC ty : Tensor ℝ} (gp : MuyGPS) (hK : Is n m K tK) (hC : Is n m C tC)
    (hy : Is n m y ty) (kw : Option ℝ) : Sem m (mean gp K C y kw) (gp.optMean tK tC ty kw) (Is m.length) := by
  unfold mean MuyGPS.optMean Noise.perturbFn
  refine (sem_perturb hK gp.noise kw).bind fun l K1 tK1 h1 => ?_
  exact (sem_posteriorMean h1 ((hC.append l).weaken (Nat.zero_le _)) ((hy.append l).weaken (Nat.zero_le _))).mono fun _ _ _ h =>
    h.weaken (by simp)

theorem sem_variance {m : Mem} {n : Nat} {K C : Arr} {tK tC : Tensor ℝ} (gp : MuyGPS) (hK : Is n m K tK) (hC : Is n m C tC) :
    Sem m (variance gp K C) (gp.posteriorVariance tK tC) (Is m.length) := by
  have h0 : gp.posteriorVariance tK tC = (gp.noise.perturb tK none >>= fun K => MuyGPyS.diagonalVariance K tC gp.kout >>= fun v =>
      pure (v.map fun x => gp.boundScale * x)) := by
    unfold MuyGPS.posteriorVariance MuyGPS.optVariance Noise.perturbFn
    simp only [bind, Except.bind]
    cases gp.noise.perturb tK none <;> rfl
  rw [h0]
  unfold variance
  refine (sem_perturb hK gp.noise none).bind fun l K1 tK1 h1 => ?_
  refine (sem_diagonalVariance h1 ((hC.append l).weaken (Nat.zero_le _)) gp.kout).bind fun l2 v tv h2 => ?_
  exact (Sem.load h2 (Sem.alloc _)).mono fun _ _ _ h => h.weaken (by simp only [List.length_append]; omega)

theorem sem_coefficients {m : Mem} {n : Nat} {K y : Arr} {tK ty : Tensor ℝ} (gp : MuyGPS) (hK : Is n m K tK) (hy : Is n m y ty) :
    Sem m (coefficients gp K y) (gp.fastCoefficients tK ty) (Is m.length) := by
  unfold coefficients MuyGPS.fastCoefficients Noise.perturbFn
  refine (sem_perturb hK gp.noise none).bind fun l K1 tK1 h1 => ?_
  exact (sem_fastPrecompute h1 ((hy.append l).weaken (Nat.zero_le _))).mono fun _ _ _ h => h.weaken (by simp)

/-- `regress_from_indices`: two different new arrays with the values of the pure model. -/
theorem sem_regress {m : Mem} {n : Nat} {a b y : Arr} {ta tb ty : Tensor ℝ} (R : Regressor) (idx nn : Tensor Int) (ha : Is n m a ta)
    (hb : Is n m b tb) (hy : Is n m y ty) :
    Sem m (regressFromIndices R idx nn a b y) (MuyGPyS.regressFromIndices maternGen R idx nn ta tb ty)
      fun m' r t => Is m.length m' r.1 t.1 ∧ Is m.length m' r.2 t.2 ∧ r.1.buf ≠ r.2.buf := by
  have h0 : MuyGPyS.regressFromIndices maternGen R idx nn ta tb ty = (R.kernel.deform.crosswise ta tb idx nn >>= fun tC =>
      R.kernel.deform.pairwise tb nn >>= fun tP => ty.take nn >>= fun tY => R.kernel.call maternGen tP [] >>= fun Kin =>
      R.kernel.call maternGen tC [] >>= fun Kc => R.gp.optMean Kin Kc tY none >>= fun μ => R.gp.posteriorVariance Kin Kc >>= fun v =>
      pure (μ, v)) := by
    unfold MuyGPyS.regressFromIndices tensorsFromIndices makePredictTensors Deform.crosswise Deform.pairwise
    simp only [bind, Except.bind, Option.getD_some, pure, Except.pure]
    cases defCrosswise R.kernel.deform.kind R.kernel.deform.metric ta tb idx nn with
    | error e => rfl
    | ok tC =>
      cases defPairwise R.kernel.deform.kind R.kernel.deform.metric tb nn with
      | error e => rfl
      | ok tP =>
        cases ty.take nn with
        | error e => rfl
        | ok tY =>
          simp only
          cases R.kernel.call maternGen tP [] with
          | error e => rfl
          | ok Kin =>
            simp only
            cases R.kernel.call maternGen tC [] with
            | error e => rfl
            | ok Kc => rfl
  rw [h0]
  unfold regressFromIndices
  refine Sem.bind (R := Is m.length) (Sem.load ha (Sem.load hb (Sem.alloc _))) fun l1 C tC h1 => ?_
  refine Sem.bind (R := Is m.length) ((Sem.load (hb.append l1) (Sem.alloc _)).mono fun _ _ _ h => h.weaken (by simp)) fun l2 P tP h2 => ?_
  refine Sem.bind (R := Is m.length) ((Sem.load ((hy.append l1).append l2) (Sem.alloc _)).mono fun _ _ _ h => h.weaken (by simp only [List.length_append]; omega))
    fun l3 Y tY h3 => ?_
  refine Sem.bind (R := Is m.length) ((sem_call (h2.append l3) R.kernel []).mono fun _ _ _ h => h.weaken (by simp only [List.length_append]; omega))
    fun l4 K tK h4 => ?_
  refine Sem.bind (R := Is m.length) ((sem_call (((h1.append l2).append l3).append l4) R.kernel []).mono fun _ _ _ h =>
    h.weaken (by simp only [List.length_append]; omega)) fun l5 Kc tKc h5 => ?_
  refine (sem_mean R.gp (h4.append l5) h5 ((h3.append l4).append l5) none).bind fun l6 μ tμ h6 => ?_
  refine (sem_variance R.gp ((h4.append l5).append l6) (h5.append l6)).bind fun l7 v tv h7 => ?_
  refine Sem.pure ⟨(h6.append l7).weaken (by simp only [List.length_append]; omega), h7.weaken (by simp only [List.length_append]; omega), ?_⟩
  have h8 := h6.2.2
  have h9 := h7.2.1
  exact fun he => by
    simp only at he
    omega

/-! ## Calls -/

/-- The arrays of a list are live, pairwise different and have the given values. -/
def AreNew (n : Nat) (m : Mem) (as : List Arr) (ts : List (Tensor ℝ)) : Prop :=
  List.Forall₂ (Is n m) as ts ∧ (as.map (·.buf)).Nodup

theorem AreNew.one {n : Nat} {m : Mem} {a : Arr} {t : Tensor ℝ} (h : Is n m a t) : AreNew n m [a] [t] :=
  ⟨.cons h .nil, by simp⟩

theorem AreNew.weaken {n k : Nat} {m : Mem} {as : List Arr} {ts : List (Tensor ℝ)} (h : AreNew n m as ts) (hk : k ≤ n) : AreNew k m as ts :=
  ⟨h.1.imp fun _ _ h => h.weaken hk, h.2⟩

theorem forall₂_append {n : Nat} {m : Mem} {as : List Arr} {ts : List (Tensor ℝ)} (h : List.Forall₂ (Is n m) as ts) (l : Mem) :
    List.Forall₂ (Is n (m ++ l)) as ts := h.imp fun _ _ h => h.append l

theorem sem_arg {m : Mem} {held : List Arr} {vals : List (Tensor ℝ)} (h : List.Forall₂ (Is 0 m) held vals) (i : Nat) :
    Sem m (arg held i) (argVal vals i) (Is 0) := by
  unfold arg argVal
  by_cases hi : i < held.length
  · have hi' : i < vals.length := h.length_eq ▸ hi
    rw [List.getElem?_eq_getElem hi, List.getElem?_eq_getElem hi']
    exact Sem.pure (h.get hi hi')
  · rw [List.getElem?_eq_none (by omega), List.getElem?_eq_none (by rw [← h.length_eq]; omega)]
    exact Sem.raise _ _

theorem sem_prog {m : Mem} {held : List Arr} {vals : List (Tensor ℝ)} (h : List.Forall₂ (Is 0 m) held vals) (c : Call) (hc : c.Fresh) :
    Sem m (c.prog held) (c.value vals) (AreNew m.length) := by
  cases c with
  | kernel k d kw =>
    refine (sem_arg h d).bind fun l1 a ta h1 => ?_
    refine (sem_call h1 k kw).bind fun l2 r tr h2 => ?_
    exact Sem.pure (AreNew.one (h2.weaken (by simp)))
  | crosswise df a b idx nn =>
    refine (sem_arg h a).bind fun l1 a ta h1 => ?_
    refine (sem_arg (forall₂_append h l1) b).bind fun l2 b tb h2 => ?_
    refine (Sem.load (h1.append l2) (Sem.load h2 (Sem.alloc _))).bind fun l3 r tr h3 => ?_
    exact Sem.pure (AreNew.one (h3.weaken (by simp only [List.length_append]; omega)))
  | pairwise df a nn =>
    refine (sem_arg h a).bind fun l1 a ta h1 => ?_
    refine (Sem.load h1 (Sem.alloc _)).bind fun l3 r tr h3 => ?_
    exact Sem.pure (AreNew.one (h3.weaken (by simp)))
  | take a idx =>
    refine (sem_arg h a).bind fun l1 a ta h1 => ?_
    refine (Sem.load h1 (Sem.alloc _)).bind fun l3 r tr h3 => ?_
    exact Sem.pure (AreNew.one (h3.weaken (by simp)))
  | perturb ν K kw =>
    refine (sem_arg h K).bind fun l1 a ta h1 => ?_
    refine (sem_perturb_fresh h1 (ν := ν) (by rintro rfl; exact hc) kw).bind fun l3 r tr h3 => ?_
    exact Sem.pure (AreNew.one (h3.weaken (by simp)))
  | mean gp K C y kw =>
    refine (sem_arg h K).bind fun l1 a ta h1 => ?_
    refine (sem_arg (forall₂_append h l1) C).bind fun l2 b tb h2 => ?_
    refine (sem_arg (forall₂_append (forall₂_append h l1) l2) y).bind fun l3 c tc h3 => ?_
    refine (sem_mean gp ((h1.append l2).append l3) (h2.append l3) h3 kw).bind fun l4 r tr h4 => ?_
    exact Sem.pure (AreNew.one (h4.weaken (by simp only [List.length_append]; omega)))
  | variance gp K C =>
    refine (sem_arg h K).bind fun l1 a ta h1 => ?_
    refine (sem_arg (forall₂_append h l1) C).bind fun l2 b tb h2 => ?_
    refine (sem_variance gp (h1.append l2) h2).bind fun l4 r tr h4 => ?_
    exact Sem.pure (AreNew.one (h4.weaken (by simp only [List.length_append]; omega)))
  | coefficients gp K y =>
    refine (sem_arg h K).bind fun l1 a ta h1 => ?_
    refine (sem_arg (forall₂_append h l1) y).bind fun l2 b tb h2 => ?_
    refine (sem_coefficients gp (h1.append l2) h2).bind fun l4 r tr h4 => ?_
    exact Sem.pure (AreNew.one (h4.weaken (by simp only [List.length_append]; omega)))
  | fastMean C c =>
    refine (sem_arg h C).bind fun l1 a ta h1 => ?_
    refine (sem_arg (forall₂_append h l1) c).bind fun l2 b tb h2 => ?_
    refine (sem_fastPosteriorMean (h1.append l2) h2).bind fun l4 r tr h4 => ?_
    exact Sem.pure (AreNew.one (h4.weaken (by simp only [List.length_append]; omega)))
  | regress R idx nn a b y =>
    refine (sem_arg h a).bind fun l1 a ta h1 => ?_
    refine (sem_arg (forall₂_append h l1) b).bind fun l2 b tb h2 => ?_
    refine (sem_arg (forall₂_append (forall₂_append h l1) l2) y).bind fun l3 c tc h3 => ?_
    refine (sem_regress R idx nn ((h1.append l2).append l3) (h2.append l3) h3).bind fun l4 r tr h4 => ?_
    refine Sem.pure ⟨.cons (h4.1.weaken (by simp only [List.length_append]; omega)) (.cons (h4.2.1.weaken (by simp only [List.length_append]; omega)) .nil), ?_⟩
    simpa using h4.2.2

theorem sem_any {m : Mem} {held : List Arr} {vals : List (Tensor ℝ)} (h : List.Forall₂ (Is 0 m) held vals) (c : Call) :
    Sem m (c.prog held) (c.value vals) (AreNew 0) := by
  by_cases hc : c.Fresh
  · exact (sem_prog h c hc).mono fun _ _ _ h => h.weaken (Nat.zero_le _)
  · cases c with
    | perturb ν K kw =>
      refine (sem_arg h K).bind fun l1 a ta h1 => ?_
      refine (sem_perturb h1 ν kw).bind fun l3 r tr h3 => ?_
      exact Sem.pure (AreNew.one h3)
    | _ => exact absurd trivial hc

theorem forall₂_vals {n : Nat} {m : Mem} {as : List Arr} {ts : List (Tensor ℝ)} (h : List.Forall₂ (Is n m) as ts) :
    ts = as.map (·.val m) := by
  induction h with
  | nil => rfl
  | cons h _ ih => rw [List.map_cons, ← ih, h.1]

theorem forall₂_of_live {m : Mem} {held : List Arr} (h : ∀ a ∈ held, a.buf < m.length) :
    List.Forall₂ (Is 0 m) held (held.map (·.val m)) := by
  induction held with
  | nil => exact .nil
  | cons a l ih =>
    exact .cons ⟨rfl, Nat.zero_le _, h a (by simp)⟩ (ih fun b hb => h b (by simp [hb]))

/-- C63, one call: in any memory and with any live arrays as arguments (the same array may be passed twice, and arguments may share
buffers), whether the call returns or raises, no existing buffer changes; the outcome and the value of every result are those of the
functions on values. -/
theorem C63_unchanged (m : Mem) (held : List Arr) (hlive : ∀ a ∈ held, a.buf < m.length) (c : Call) :
    (∀ b < m.length, (c.prog held m).2[b]? = m[b]?) ∧
      (∀ a ∈ held, a.val (c.prog held m).2 = a.val m) ∧
      ((∃ e, (c.prog held m).1 = .error e ∧ c.value (held.map (·.val m)) = .error e) ∨
        ∃ rs, (c.prog held m).1 = .ok rs ∧ c.value (held.map (·.val m)) = .ok (rs.map (·.val (c.prog held m).2))) := by
  obtain ⟨l, hl, h⟩ := sem_any (forall₂_of_live hlive) c
  rw [hl]
  refine ⟨fun b hb => List.getElem?_append_left hb, fun a ha => val_append (hlive a ha) l, ?_⟩
  rcases h with ⟨rs, ts, h1, h2, h3⟩ | h
  · exact Or.inr ⟨rs, h1, by rw [h2, forall₂_vals h3.1]⟩
  · exact Or.inl h

/-- C63, results are new: every array a call returns (`NullNoise.perturb` excepted) lives in a buffer that did not exist before, and two
results of one call do not share a buffer: writing into a result changes nothing else. -/
theorem C63_fresh (m : Mem) (held : List Arr) (hlive : ∀ a ∈ held, a.buf < m.length) (c : Call) (hc : c.Fresh) (rs : List Arr)
    (hrs : (c.prog held m).1 = .ok rs) :
    (∀ r ∈ rs, m.length ≤ r.buf ∧ r.buf < (c.prog held m).2.length) ∧ (rs.map (·.buf)).Nodup := by
  obtain ⟨l, hl, h⟩ := sem_prog (forall₂_of_live hlive) c hc
  rcases h with ⟨rs', ts, h1, h2, h3⟩ | ⟨e, he, _⟩
  · obtain rfl : rs' = rs := by rw [h1] at hrs; injection hrs
    rw [hl]
    refine ⟨fun r hr => ?_, h3.2⟩
    obtain ⟨i, hi, rfl⟩ := List.getElem_of_mem hr
    have := h3.1.get hi (by rw [← h3.1.length_eq]; exact hi)
    exact ⟨this.2.1, this.2.2⟩
  · rw [hrs] at he; cases he

/-- `NullNoise.perturb` returns the very array it was given, so freshness fails: writing into its result changes the argument. -/
theorem C63_null_fails (m : Mem) (K : Arr) (kw : Option ℝ) :
    (Call.perturb .null 0 kw).prog [K] m = (.ok [K], m) := rfl

open Classical in
/-- The general Matérn implementation, called on its own, destroys its argument: what protects the user's arrays is the division by the
length scale in the deformation, which makes a new array first. -/
theorem C63_implementation_overwrites (m : Mem) (a : Arr) (ha : a.buf < m.length) (s : Flt) :
    a.val (maternGenFn a s m).2 = (a.val m).map (maternGen s) ∧ (maternGenFn a s m).1 = .ok a := by
  obtain ⟨x, hx⟩ := maternGenFn_run ha s
  rw [hx]
  refine ⟨?_, rfl⟩
  rw [val_append (by simpa using ha)]
  simp only [Arr.val, Tensor.map]
  congr 1
  rw [List.getD_eq_getElem?_getD, List.getElem?_set_self ha]; rfl

/-! ## Sessions -/

/-- The held arrays are live, in different buffers, and have the values of the specification; the outcomes agree. -/
def Session.Meets (σ : Session) (v : Values) : Prop := AreNew 0 σ.mem σ.held v.vals ∧ σ.log = v.log

theorem AreNew.extend {m l : Mem} {held rs : List Arr} {vals ts : List (Tensor ℝ)} (h : AreNew 0 m held vals)
    (hr : AreNew m.length (m ++ l) rs ts) : AreNew 0 (m ++ l) (held ++ rs) (vals ++ ts) := by
  refine ⟨List.rel_append (R := Is 0 (m ++ l)) (forall₂_append h.1 l) (hr.weaken (Nat.zero_le _)).1, ?_⟩
  rw [List.map_append, List.nodup_append]
  refine ⟨h.2, hr.2, ?_⟩
  intro a ha b hb
  obtain ⟨x, hx, rfl⟩ := List.mem_map.1 ha
  obtain ⟨y, hy, rfl⟩ := List.mem_map.1 hb
  obtain ⟨i, hi, rfl⟩ := List.getElem_of_mem hx
  obtain ⟨j, hj, rfl⟩ := List.getElem_of_mem hy
  have h1 := (h.1.get hi (by rw [← h.1.length_eq]; exact hi)).2.2
  have h2 := (hr.1.get hj (by rw [← hr.1.length_eq]; exact hj)).2.1
  simp only [List.get_eq_getElem] at h1 h2
  omega

theorem step_meets {σ : Session} {v : Values} (h : σ.Meets v) (s : Step) (hs : s.Fresh) : (σ.step s).Meets (v.step s) := by
  obtain ⟨h, hlog⟩ := h
  cases s with
  | input t =>
    refine ⟨h.extend (AreNew.one ⟨val_last _ _ _, le_rfl, by simp⟩), by simp [Session.step, Values.step, hlog]⟩
  | write i f =>
    by_cases hi : i < σ.held.length
    · have hi' : i < v.vals.length := h.1.length_eq ▸ hi
      have h1 : (arg σ.held i >>= fun a => store a f) σ.mem = store σ.held[i] f σ.mem :=
        bind_ok (by unfold arg; rw [List.getElem?_eq_getElem hi]; rfl)
      have h2 : argVal v.vals i = .ok v.vals[i] := by unfold argVal; rw [List.getElem?_eq_getElem hi']
      have hgi := h.1.get hi hi'
      simp only [List.get_eq_getElem] at hgi
      simp only [Session.step, Values.step, h1, h2, store, Session.Meets, hlog, and_true]
      refine ⟨?_, h.2⟩
      rw [List.forall₂_iff_get]
      refine ⟨by rw [List.length_set, h.1.length_eq], fun j hj hj' => ?_⟩
      have hjv : j < v.vals.length := by simpa using hj'
      have hgj := h.1.get hj hjv
      simp only [List.get_eq_getElem] at hgj ⊢
      refine ⟨?_, Nat.zero_le _, by simpa using hgj.2.2⟩
      by_cases hij : i = j
      · subst hij
        rw [List.getElem_set_self]
        simp only [Arr.val, List.getD_eq_getElem?_getD, List.getElem?_set_self hgi.2.2, Option.getD_some]
        rw [← hgi.1]
        simp only [Arr.val, List.getD_eq_getElem?_getD]
      · rw [List.getElem_set_ne hij, ← hgj.1]
        have hne : (σ.held[i]).buf ≠ (σ.held[j]).buf := by
          intro he
          have h3 := (List.Nodup.getElem_inj_iff h.2 (i := i) (j := j) (hi := by simpa using hi) (hj := by simpa using hj)).1 (by simpa using he)
          exact hij h3
        simp only [Arr.val, List.getD_eq_getElem?_getD, List.getElem?_set_ne hne]
    · have h1 : (arg σ.held i >>= fun a => store a f) σ.mem = (.error .key, σ.mem) :=
        bind_error (by unfold arg; rw [List.getElem?_eq_none (by omega)]; rfl)
      have h2 : argVal v.vals i = .error .key := by
        unfold argVal; rw [List.getElem?_eq_none (by rw [← h.1.length_eq]; omega)]
      simp only [Session.step, Values.step, h1, h2, Session.Meets, hlog, and_true]
      exact h
  | call c =>
    obtain ⟨l, hl, h3⟩ := sem_prog h.1 c hs
    rcases h3 with ⟨rs, ts, h1, h2, h3⟩ | ⟨e, h1, h2⟩
    · have hrun : c.prog σ.held σ.mem = (.ok rs, σ.mem ++ l) := Prod.ext h1 hl
      simp only [Session.step, Values.step, hrun, h2, Session.Meets, hlog, and_true]
      exact h.extend h3
    · have hrun : c.prog σ.held σ.mem = (.error e, σ.mem ++ l) := Prod.ext h1 hl
      simp only [Session.step, Values.step, hrun, h2, Session.Meets, hlog, and_true]
      exact ⟨forall₂_append h.1 l, h.2⟩

/-- C63, a whole program: whatever arrays the user creates, whatever calls are made on them and on earlier results, in any order, and
whatever the user writes into any of the arrays in between, every array always has the value, and every step the outcome, that the
program has when arrays are values. -/
theorem C63_session (steps : List Step) (hs : ∀ s ∈ steps, s.Fresh) :
    let σ := steps.foldl Session.step ⟨[], [], []⟩
    let v := steps.foldl Values.step ⟨[], []⟩
    σ.held.map (·.val σ.mem) = v.vals ∧ σ.log = v.log := by
  have key : ∀ (σ : Session) (v : Values), σ.Meets v → (steps.foldl Session.step σ).Meets (steps.foldl Values.step v) := by
    induction steps with
    | nil => intro σ v h; exact h
    | cons s l ih =>
      intro σ v h
      exact ih (fun s hs' => hs s (by simp [hs'])) _ _ (step_meets h s (hs s (by simp)))
  have h := key ⟨[], [], []⟩ ⟨[], []⟩ ⟨⟨.nil, by simp⟩, rfl⟩
  exact ⟨(forall₂_vals h.1.1).symm, h.2⟩

/-- With `NullNoise.perturb` the session theorem is false: the "perturbed" covariance is the same array, and overwriting it overwrites the
original. -/
theorem C63_session_null_fails :
    let steps : List Step := [.input ⟨[1], fun _ => 1⟩, .call (.perturb .null 0 none), .write 1 fun _ _ => 0]
    let σ := steps.foldl Session.step ⟨[], [], []⟩
    let v := steps.foldl Values.step ⟨[], []⟩
    (σ.held.map (·.val σ.mem)).map (·.get [0]) = [0, 0] ∧ v.vals.map (·.get [0]) = [1, 0] := by
  refine ⟨?_, ?_⟩
  · rfl
  · rfl

/-- A general Matérn kernel with the implementation that overwrites its argument. -/
noncomputable def exampleKernel : KernelObj :=
  ⟨.isotropy .l2 ⟨Flt.fin 1, Flt.fin 0, Flt.fin 2, true⟩, some ⟨Flt.fin 0.7, Flt.fin 0, Flt.fin 1, true⟩, .gen⟩

/-- A session whose hypotheses hold: two calls of the overwriting kernel on the same array, with the user's own write in between; all
steps succeed, and the input keeps its values while the two results are different arrays. -/
example :
    let d : Tensor ℝ := ⟨[2], fun k => if k = 0 then 0 else 3⟩
    let steps : List Step := [.input d, .call (.kernel exampleKernel 0 []), .write 1 fun _ _ => 7, .call (.kernel exampleKernel 0 [])]
    let σ := steps.foldl Session.step ⟨[], [], []⟩
    (∀ s ∈ steps, s.Fresh) ∧ σ.log = [none, none, none, none] ∧
      σ.held.map (·.val σ.mem) = [d, ⟨[2], fun _ => 7⟩, (d.map fun x => x / 1).map (maternGen (Flt.fin 0.7))] := by
  intro d steps σ
  have hf : ∀ s ∈ steps, s.Fresh := by
    intro s hs
    simp only [steps, List.mem_cons, List.not_mem_nil, or_false] at hs
    rcases hs with rfl | rfl | rfl | rfl <;> exact trivial
  obtain ⟨h1, h2⟩ := C63_session steps hf
  have hk : exampleKernel.call maternGen d [] = .ok ((d.map fun x => x / 1).map (maternGen (Flt.fin 0.7))) := by
    unfold KernelObj.call KernelObj.optFn exampleKernel
    simp [Dict.has, Deform.filter, filterScalar, Dict.get?, Deform.call, Dict.setdefault, KFn.run, Metric.scaleBy, Flt.toReal, Flt.fin,
      KFn.value, Tensor.map, Dict.get?]
  have hv : ∀ vals : List (Tensor ℝ), (Call.kernel exampleKernel 0 []).value (d :: vals) =
      .ok [(d.map fun x => x / 1).map (maternGen (Flt.fin 0.7))] := by
    intro vals
    show (Except.ok d >>= fun d => exampleKernel.call maternGen d [] >>= fun r => Except.ok [r]) = _
    simp only [bind, Except.bind, hk]
  refine ⟨hf, h2.trans ?_, h1.trans ?_⟩
  · simp only [steps, List.foldl, Values.step, List.nil_append, hv]
    rfl
  · simp only [steps, List.foldl, Values.step, List.nil_append, hv]
    rfl

end MuyGPyS.Mem
