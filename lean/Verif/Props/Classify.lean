import Verif.Spec.Classify
import Verif.Props.Batch
import Verif.Props.MultiWorkflow
import Verif.Props.FastWitness

/-! # C44: classification -/

namespace MuyGPyS
open Py

theorem max_ne_min' {α : Type} [LinearOrder α] (r : List α) : r.max? ≠ r.min? ↔ ∃ a ∈ r, ∃ b ∈ r, a ≠ b := by
  cases hM : r.max? with
  | none =>
    have : r = [] := by simpa using hM
    subst this
    simp
  | some M =>
    cases hm : r.min? with
    | none =>
      have : r = [] := by simpa using hm
      subst this
      simp at hM
    | some m =>
      obtain ⟨h1, h2⟩ := List.max?_eq_some_iff.mp hM
      obtain ⟨h3, h4⟩ := List.min?_eq_some_iff.mp hm
      constructor
      · intro h
        exact ⟨M, h1, m, h3, fun e => h (by rw [e])⟩
      · rintro ⟨a, ha, b, hb, hab⟩ h
        have e : M = m := by simpa using h
        subst e
        exact hab ((le_antisymm (h2 a ha) (h4 a ha)).trans (le_antisymm (h4 b hb) (h2 b hb)))

theorem mixed_iff (nl : Tensor ℝ) (n p : Nat) :
    mixedFirstColumn nl n p = true ↔ ∃ j < n, ∃ j' < n, nl.get [p, j, 0] ≠ nl.get [p, j', 0] := by
  unfold mixedFirstColumn
  simp only [decide_eq_true_eq]
  rw [max_ne_min']
  simp only [List.mem_map, List.mem_range]
  constructor
  · rintro ⟨_, ⟨j, hj, rfl⟩, _, ⟨j', hj', rfl⟩, h⟩
    exact ⟨j, hj, j', hj', h⟩
  · rintro ⟨j, hj, j', hj', h⟩
    exact ⟨_, ⟨j, hj, rfl⟩, _, ⟨j', hj', rfl⟩, h⟩

/-- The neighbours of the test points and their labels. -/
theorem classify_lookup (w : NNWrapper) (hw : w.Exact) (test labels : Tensor ℝ) (m r : Nat)
    (ht : test.shape = [m, w.f]) (hl : labels.shape = [w.N, r]) (hm : 0 < m) (hn : 0 < w.nnCount)
    (hkN : w.nnCount ≤ w.N) :
    ∃ I D nl, w.getNns test = .ok (I, D) ∧ I.shape = [m, w.nnCount] ∧ labels.take I = .ok nl ∧
      AllValid w.N I ∧
      (∀ i < m, ∃ l : List Nat, rowList I w.nnCount i = l.map Int.ofNat ∧
        Nearest (· < w.N) (fun j => w.dist (rowPt test w.f i) (rowPt w.train w.f j)) w.nnCount l) ∧
      (∀ p < m, ∀ j < w.nnCount, (I.get [p, j]).toNat < w.N ∧ I.get [p, j] = ((I.get [p, j]).toNat : Int)) ∧
      ∀ p < m, ∀ j < w.nnCount, ∀ c < r, nl.get [p, j, c] = nbrLabel labels I p j c := by
  obtain ⟨I, D, h1, h2, h3, h4, h5⟩ := C41_plain w hw test m ht hm hn hkN
  have hnat : ∀ p < m, ∀ j < w.nnCount, ∃ x : Nat, I.get [p, j] = (x : Int) ∧ x < w.N := fun i hi j hj => by
    obtain ⟨l, e1, e2⟩ := h4 i hi
    obtain ⟨x, x1, x2⟩ := rowList_get e1 hj
    exact ⟨x, x2, e2.mem x (List.mem_of_getElem? x1)⟩
  have hv : AllValid w.N I := valid_of_rows h2 hnat
  obtain ⟨nl, n1, n2, n3⟩ := take_mat hl hv
  refine ⟨I, D, nl, h1, h2, n1, hv, h4, fun p hp j hj => ?_, fun p hp j hj c hc => ?_⟩
  · obtain ⟨x, x1, x2⟩ := hnat p hp j hj
    rw [x1]; exact ⟨x2, rfl⟩
  · obtain ⟨x, x1, x2⟩ := hnat p hp j hj
    have hs : nl.shape = [m, w.nnCount, r] := by rw [n2, h2]; rfl
    rw [Tensor.get3 nl hs, show p * (w.nnCount * r) + j * r + c = (p * w.nnCount + j) * r + c by ring, n3 _ c hc, ← Tensor.get2 I h2, x1, pointOf_nat, nbrLabel, x1]
    unfold feature
    rw [hl]
    rfl

theorem idxOf_filter (P : Nat → Bool) (m p : Nat) (hp : p < m) (h : P p = true) :
    ((List.range m).filter P)[((List.range m).filter P).idxOf p]? = some p := by
  have hmem : p ∈ (List.range m).filter P := by simp [hp, h]
  rw [List.getElem?_eq_getElem (List.idxOf_lt_length_iff.mpr hmem)]
  simp

/-- The first column of the labels of the neighbours of `p` is not constant. -/
def FirstMixed (labels : Tensor ℝ) (nn : Tensor Int) (n p : Nat) : Prop :=
  ∃ j < n, ∃ j' < n, nbrLabel labels nn p j 0 ≠ nbrLabel labels nn p j' 0

theorem classifyAny_ok (post : Tensor Int → Tensor Int → Res (Tensor ℝ)) (w : NNWrapper) (hw : w.Exact)
    (test labels : Tensor ℝ) (m r : Nat)
    (ht : test.shape = [m, w.f]) (hl : labels.shape = [w.N, r]) (hr : 0 < r) (hm : 0 < m) (hn : 0 < w.nnCount)
    (hkN : w.nnCount ≤ w.N) :
    ∃ I D, w.getNns test = .ok (I, D) ∧ I.shape = [m, w.nnCount] ∧
      (∀ i < m, ∃ l : List Nat, rowList I w.nnCount i = l.map Int.ofNat ∧
        Nearest (· < w.N) (fun j => w.dist (rowPt test w.f i) (rowPt w.train w.f j)) w.nnCount l) ∧
      ∃ idx : List Nat, (∀ p, p ∈ idx ↔ p < m ∧ FirstMixed labels I w.nnCount p) ∧
        (∀ p ∈ idx, idx[idx.idxOf p]? = some p) ∧
        (∀ P, classifyAny post w test labels = .ok P → ∃ μ, idx ≠ [] →
          post (ofNats idx) (selectRows I w.nnCount idx) = .ok μ ∧ μ.shape = [idx.length, r]) ∧
        ∀ μ, (idx ≠ [] → post (ofNats idx) (selectRows I w.nnCount idx) = .ok μ ∧ μ.shape = [idx.length, r]) →
          ∃ P, classifyAny post w test labels = .ok P ∧ P.shape = [m, r] ∧
            ∀ p < m, (¬ FirstMixed labels I w.nnCount p → ∀ c < r, P.get [p, c] = nbrLabel labels I p 0 c) ∧
              (FirstMixed labels I w.nnCount p → ∀ c < r, P.get [p, c] = μ.get [idx.idxOf p, c]) := by
  obtain ⟨I, D, nl, h1, h2, h3, h4, h5, h6, h7⟩ := classify_lookup w hw test labels m r ht hl hm hn hkN
  have hmix : ∀ p < m, (mixedFirstColumn nl w.nnCount p = true ↔ FirstMixed labels I w.nnCount p) := by
    intro p hp
    rw [mixed_iff]
    constructor
    · rintro ⟨j, hj, j', hj', h⟩
      exact ⟨j, hj, j', hj', by rwa [h7 p hp j hj 0 hr, h7 p hp j' hj' 0 hr] at h⟩
    · rintro ⟨j, hj, j', hj', h⟩
      exact ⟨j, hj, j', hj', by rwa [h7 p hp j hj 0 hr, h7 p hp j' hj' 0 hr]⟩
  have hmem : ∀ p, p ∈ (List.range m).filter (mixedFirstColumn nl w.nnCount) ↔ p < m ∧ FirstMixed labels I w.nnCount p := by
    intro p
    rw [List.mem_filter, List.mem_range]
    exact ⟨fun h => ⟨h.1, (hmix p h.1).mp h.2⟩, fun h => ⟨h.1, (hmix p h.1).mpr h.2⟩⟩
  set idx := (List.range m).filter (mixedFirstColumn nl w.nnCount) with hidx
  have hrun : classifyAny post w test labels =
      (if idx = [] then .ok (Tensor.ofFn [m, r] fun q => nl.get [q.getD 0 0, 0, q.getD 1 0]) else do
        let μ ← post (ofNats idx) (selectRows I w.nnCount idx)
        if μ.shape = [idx.length, r] then
          return Tensor.ofFn [m, r] fun q =>
            if mixedFirstColumn nl w.nnCount (q.getD 0 0) then μ.get [idx.idxOf (q.getD 0 0), q.getD 1 0]
            else nl.get [q.getD 0 0, 0, q.getD 1 0]
        else .error .value) := by
    unfold classifyAny
    rw [hl]
    simp only
    rw [if_neg (by omega), if_neg (by omega)]
    simp only [h1, h3, bind, Except.bind, h2, List.getD_cons_zero, List.getD_cons_succ, ← hidx]
    rfl
  refine ⟨I, D, h1, h2, h5, idx, hmem, ?_, ?_, ?_⟩
  · intro p hp
    rw [List.mem_filter, List.mem_range] at hp
    exact idxOf_filter _ m p hp.1 hp.2
  · intro P hP
    rw [hrun] at hP
    by_cases h0 : idx = []
    · exact ⟨P, fun h => absurd h0 h⟩
    · rw [if_neg h0] at hP
      simp only [bind, Except.bind] at hP
      split at hP
      · cases hP
      · rename_i μ hμ
        refine ⟨μ, fun _ => ⟨hμ, ?_⟩⟩
        by_contra hs
        rw [if_neg hs] at hP
        cases hP
  · intro μ hμ
    by_cases h0 : idx = []
    · refine ⟨_, by rw [hrun, if_pos h0], rfl, fun p hp => ⟨fun _ c hc => ?_, fun hM => ?_⟩⟩
      · rw [ofFn_get2 _ hp hc]
        simp only [List.getD_cons_zero, List.getD_cons_succ]
        exact h7 p hp 0 hn c hc
      · have := (hmem p).mpr ⟨hp, hM⟩
        rw [h0] at this
        simp at this
    · obtain ⟨m1, m2⟩ := hμ h0
      refine ⟨Tensor.ofFn [m, r] fun q =>
          if mixedFirstColumn nl w.nnCount (q.getD 0 0) then μ.get [idx.idxOf (q.getD 0 0), q.getD 1 0]
          else nl.get [q.getD 0 0, 0, q.getD 1 0], ?_, rfl, fun p hp => ⟨fun hM c hc => ?_, fun hM c hc => ?_⟩⟩
      · rw [hrun, if_neg h0]
        simp only [m1, bind, Except.bind, m2, if_true]
        rfl
      · rw [ofFn_get2 _ hp hc]
        simp only [List.getD_cons_zero, List.getD_cons_succ]
        rw [if_neg (fun e => hM ((hmix p hp).mp e))]
        exact h7 p hp 0 hn c hc
      · rw [ofFn_get2 _ hp hc]
        simp only [List.getD_cons_zero, List.getD_cons_succ]
        rw [if_pos ((hmix p hp).mpr hM)]

theorem not_mixed_of_same {labels : Tensor ℝ} {nn : Tensor Int} {n r p : Nat} (hr : 0 < r)
    (h : SameLabel labels nn n r p) : ¬ FirstMixed labels nn n p := by
  rintro ⟨j, hj, j', hj', hne⟩
  exact hne (h j hj j' hj' 0 hr)

/-- **C44, first half.** Whatever the surrogate, a test point whose neighbours all carry the same label
receives the encoding of that label. -/
theorem C44_constant (post : Tensor Int → Tensor Int → Res (Tensor ℝ)) (w : NNWrapper) (hw : w.Exact)
    (test labels : Tensor ℝ) (m r : Nat) (ht : test.shape = [m, w.f]) (hl : labels.shape = [w.N, r]) (hr : 0 < r)
    (hm : 0 < m) (hn : 0 < w.nnCount) (hkN : w.nnCount ≤ w.N) (P : Tensor ℝ)
    (hP : classifyAny post w test labels = .ok P) :
    ∃ I D, w.getNns test = .ok (I, D) ∧ P.shape = [m, r] ∧
      ∀ p < m, SameLabel labels I w.nnCount r p →
        ∀ j < w.nnCount, ∀ c < r, P.get [p, c] = nbrLabel labels I p j c := by
  obtain ⟨I, D, h1, h2, h3, idx, i1, i2, i3, h4⟩ := classifyAny_ok post w hw test labels m r ht hl hr hm hn hkN
  obtain ⟨μ, hμ⟩ := i3 P hP
  obtain ⟨P', p1, p2, p3⟩ := h4 μ hμ
  obtain rfl : P = P' := Except.ok.inj (hP.symm.trans p1)
  refine ⟨I, D, h1, p2, fun p hp hs j hj c hc => ?_⟩
  rw [(p3 p hp).1 (not_mixed_of_same hr hs) c hc]
  exact hs 0 hn j hj c hc

theorem Noise.mat_indep {ν : Noise} {n : Nat} (h : ∀ b, ν.Fits b n) (p q : Nat) : ν.mat n p = ν.mat n q := by
  cases ν with
  | heteroscedastic v =>
    have h0 : v.shape = [0, n] := h 0
    have h1 : v.shape = [1, n] := h 1
    rw [h0] at h1
    simp at h1
  | _ => rfl

theorem nbr_congr (bessel : Flt → ℝ → ℝ) (k : KernelObj) {f : Nat} (len : Fin f → ℝ) (X Y : Tensor ℝ) (N n : Nat)
    (nn nn' : Tensor Int) (p q : Nat) (h : ∀ j < n, nn.get [p, j] = nn'.get [q, j]) :
    nbrCov bessel k len X N n nn p = nbrCov bessel k len X N n nn' q ∧
    (∀ x, nbrCross bessel k len X N n nn p x = nbrCross bessel k len X N n nn' q x) ∧
    ∀ c, nbrTargets Y N n nn p c = nbrTargets Y N n nn' q c := by
  refine ⟨?_, fun x => ?_, fun c => ?_⟩
  · funext i j
    simp only [nbrCov, h i i.2, h j j.2]
  · funext j
    simp only [nbrCross, h j j.2]
  · funext j
    simp only [nbrTargets, h j j.2]

theorem selectRows_valid {N m n : Nat} {I : Tensor Int} (h : ∀ p < m, ∀ j < n, ∃ x : Nat, I.get [p, j] = (x : Int) ∧ x < N)
    {idx : List Nat} (hidx : ∀ p ∈ idx, p < m) : AllValid N (selectRows I n idx) := by
  refine valid_of_rows (m := idx.length) (k := n) rfl fun i hi j hj => ?_
  rw [selectRows_get I n idx i idx[i] (List.getElem?_eq_getElem hi) j hj]
  exact h _ (hidx _ (List.getElem_mem _)) j hj

theorem nearest_nat {w : NNWrapper} {test : Tensor ℝ} {m : Nat} {I : Tensor Int}
    (h : ∀ i < m, ∃ l : List Nat, rowList I w.nnCount i = l.map Int.ofNat ∧
        Nearest (· < w.N) (fun j => w.dist (rowPt test w.f i) (rowPt w.train w.f j)) w.nnCount l) :
    ∀ p < m, ∀ j < w.nnCount, ∃ x : Nat, I.get [p, j] = (x : Int) ∧ x < w.N := fun i hi j hj => by
  obtain ⟨l, e1, e2⟩ := h i hi
  obtain ⟨x, x1, x2⟩ := rowList_get e1 hj
  exact ⟨x, x2, e2.mem x (List.mem_of_getElem? x1)⟩

theorem rowPt_pt {Q : Tensor ℝ} {m f : Nat} (hQ : Q.shape = [m, f]) (p : Nat) : pt Q f p = rowPt Q f p := by
  funext c
  simp only [pt, feature, hQ, rowPt]

/-- What `classify_any` computes for a univariate surrogate with homoscedastic (or no) noise: test points whose
neighbours agree in the first column of the encoding get the label of their nearest neighbour, all others get in
every column the kriging mean from their nearest training points. -/
theorem C44_actual (bessel : Flt → ℝ → ℝ) (R : Regressor) (hk : R.kernel.make = R.kernel) (w : NNWrapper)
    (hw : w.Exact) (test labels : Tensor ℝ) (m r : Nat) (len : Fin w.f → ℝ)
    (hlen : R.kernel.deform.HasLengths w.f len) (ht : test.shape = [m, w.f]) (hl : labels.shape = [w.N, r])
    (hr : 0 < r) (hrn : r ≠ w.nnCount) (hm : 0 < m) (hn : 0 < w.nnCount) (hkN : w.nnCount ≤ w.N)
    (hν : ∀ b, R.gp.noise.Fits b w.nnCount) :
    ∃ I D, w.getNns test = .ok (I, D) ∧ I.shape = [m, w.nnCount] ∧
      (∀ i < m, ∃ l : List Nat, rowList I w.nnCount i = l.map Int.ofNat ∧
        Nearest (· < w.N) (fun j => w.dist (rowPt test w.f i) (rowPt w.train w.f j)) w.nnCount l) ∧
      ((∀ p < m, (nbrCov bessel R.kernel len w.train w.N w.nnCount I p + R.gp.noise.mat w.nnCount p).det ≠ 0) →
        ∃ P, classifyAny (fun idx nn => posteriorMeanFromIndices bessel R idx nn test w.train labels) w test labels = .ok P ∧
          P.shape = [m, r] ∧ ∀ p < m,
            (¬ FirstMixed labels I w.nnCount p → ∀ c < r, P.get [p, c] = nbrLabel labels I p 0 c) ∧
            (FirstMixed labels I w.nnCount p → ∀ c < r, P.get [p, c] =
              Spec.krigingMean (nbrCov bessel R.kernel len w.train w.N w.nnCount I p + R.gp.noise.mat w.nnCount p)
                (nbrCross bessel R.kernel len w.train w.N w.nnCount I p (rowPt test w.f p))
                (nbrTargets labels w.N w.nnCount I p c))) := by
  obtain ⟨I, D, h1, h2, h3, idx, i1, i2, i3, h4⟩ := classifyAny_ok
    (fun idx nn => posteriorMeanFromIndices bessel R idx nn test w.train labels) w hw test labels m r ht hl hr hm hn hkN
  refine ⟨I, D, h1, h2, h3, fun hinv => ?_⟩
  have hsel : ∀ q x, idx[q]? = some x → ∀ j < w.nnCount, (selectRows I w.nnCount idx).get [q, j] = I.get [x, j] :=
    fun q x hq j hj => selectRows_get I w.nnCount idx q x hq j hj
  have hlt : ∀ p ∈ idx, p < m := fun p hp => ((i1 p).mp hp).1
  obtain ⟨μ, m1, m2, m3⟩ := C54_regress_multi_partial bessel R hk test w.train labels (ofNats idx)
    (selectRows I w.nnCount idx) m w.N w.f r idx.length w.nnCount hrn len hlen (.inl ht) (.inl hw.1) hl
    (by rw [ht, hw.1]; rfl) rfl rfl (ofNats_valid hlt) (selectRows_valid (nearest_nat h3) hlt) (hν _)
    (fun q hq => by
      obtain ⟨a, -, -⟩ := nbr_congr bessel R.kernel len w.train labels w.N w.nnCount _ I q idx[q]
        (hsel q _ (List.getElem?_eq_getElem hq))
      rw [a, Noise.mat_indep hν q idx[q]]
      exact hinv _ (hlt _ (List.getElem_mem _)))
  obtain ⟨P, p1, p2, p3⟩ := h4 μ fun _ => ⟨m1, m2⟩
  refine ⟨P, p1, p2, fun p hp => ⟨(p3 p hp).1, fun hM c hc => ?_⟩⟩
  rw [(p3 p hp).2 hM c hc]
  have hpi := i2 p ((i1 p).mpr ⟨hp, hM⟩)
  have hq : idx.idxOf p < idx.length := (List.getElem?_eq_some_iff.mp hpi).1
  obtain ⟨a, b, d⟩ := nbr_congr bessel R.kernel len w.train labels w.N w.nnCount _ I _ p (hsel _ _ hpi)
  rw [m3 _ hq c hc, a, b, d, Noise.mat_indep hν _ p, ofNats_get, List.getD_eq_getElem?_getD, hpi, Option.getD_some,
    pointOf_nat, rowPt_pt ht]

theorem mixed_iff_not_same {labels : Tensor ℝ} {N n r m : Nat} (hr : 0 < r) (hd : FirstColumnDecides labels N r)
    {nn : Tensor Int} (hv : ∀ p < m, ∀ j < n, ∃ x : Nat, nn.get [p, j] = (x : Int) ∧ x < N) {p : Nat} (hp : p < m) :
    FirstMixed labels nn n p ↔ ¬ SameLabel labels nn n r p := by
  constructor
  · intro h hs
    exact not_mixed_of_same hr hs h
  · intro h
    by_contra hM
    apply h
    intro j hj j' hj' c hc
    have h0 : nbrLabel labels nn p j 0 = nbrLabel labels nn p j' 0 := by
      by_contra hne
      exact hM ⟨j, hj, j', hj', hne⟩
    obtain ⟨x, x1, x2⟩ := hv p hp j hj
    obtain ⟨y, y1, y2⟩ := hv p hp j' hj'
    simp only [nbrLabel, x1, y1, Int.toNat_natCast] at h0 ⊢
    exact hd x x2 y y2 h0 c hc

/-- **C44, second half.** When the first column of the encoding tells the labels apart (two classes), the test points
that do not have neighbours of a single label receive in every column the kriging mean from their nearest
training points. Partial: false from three classes on (`C44_three_classes_fails`); the number of classes must
differ from the number of neighbours (`C24_responses_eq_neighbours_fails`). -/
theorem C44_two_class_partial (bessel : Flt → ℝ → ℝ) (R : Regressor) (hk : R.kernel.make = R.kernel) (w : NNWrapper)
    (hw : w.Exact) (test labels : Tensor ℝ) (m r : Nat) (len : Fin w.f → ℝ)
    (hlen : R.kernel.deform.HasLengths w.f len) (ht : test.shape = [m, w.f]) (hl : labels.shape = [w.N, r])
    (hr : 0 < r) (hrn : r ≠ w.nnCount) (hm : 0 < m) (hn : 0 < w.nnCount) (hkN : w.nnCount ≤ w.N)
    (hν : ∀ b, R.gp.noise.Fits b w.nnCount) (hdec : FirstColumnDecides labels w.N r) :
    ∃ I D, w.getNns test = .ok (I, D) ∧ I.shape = [m, w.nnCount] ∧
      ((∀ p < m, (nbrCov bessel R.kernel len w.train w.N w.nnCount I p + R.gp.noise.mat w.nnCount p).det ≠ 0) →
        ∃ P, classifyAny (fun idx nn => posteriorMeanFromIndices bessel R idx nn test w.train labels) w test labels = .ok P ∧
          P.shape = [m, r] ∧ ∀ p < m,
            (SameLabel labels I w.nnCount r p → ∀ j < w.nnCount, ∀ c < r, P.get [p, c] = nbrLabel labels I p j c) ∧
            (¬ SameLabel labels I w.nnCount r p → ∀ c < r, P.get [p, c] =
              Spec.krigingMean (nbrCov bessel R.kernel len w.train w.N w.nnCount I p + R.gp.noise.mat w.nnCount p)
                (nbrCross bessel R.kernel len w.train w.N w.nnCount I p (rowPt test w.f p))
                (nbrTargets labels w.N w.nnCount I p c))) := by
  obtain ⟨I, D, h1, h2, h3, h4⟩ := C44_actual bessel R hk w hw test labels m r len hlen ht hl hr hrn hm hn hkN hν
  refine ⟨I, D, h1, h2, fun hinv => ?_⟩
  obtain ⟨P, p1, p2, p3⟩ := h4 hinv
  refine ⟨P, p1, p2, fun p hp => ⟨fun hs j hj c hc => ?_, fun hs => (p3 p hp).2 ?_⟩⟩
  · rw [(p3 p hp).1 (not_mixed_of_same hr hs) c hc]
    exact hs 0 hn j hj c hc
  · exact (mixed_iff_not_same hr hdec (nearest_nat h3) hp).mpr hs

/-- The posterior mean of a multi-output surrogate is the first component of its regression. -/
theorem multiMean_of_regress {bessel : Flt → ℝ → ℝ} {models : List Trainee} {idx nn : Tensor Int}
    {test train targets μ v : Tensor ℝ} (h : multiRegressFromIndices bessel models idx nn test train targets = .ok (μ, v)) :
    multiPosteriorMeanFromIndices bessel models idx nn test train targets = .ok μ := by
  unfold multiRegressFromIndices at h
  unfold multiPosteriorMeanFromIndices
  simp only [bind, Except.bind] at h ⊢
  split at h
  · cases h
  · rename_i t ht
    split at h
    · cases h
    · rename_i μ' hμ
      split at h
      · cases h
      · simp only [pure, Except.pure, Except.ok.injEq, Prod.mk.injEq] at h
        rw [hμ, h.1]

/-- **C44 for a multi-output surrogate** (one model per class, same kind of deformation and metric,
homoscedastic or no noise): column `c` of a mixed point is the kriging mean of model `c`. Partial as
`C44_two_class_partial`, except that any number of neighbours is allowed. -/
theorem C44_multi_output_partial (bessel : Flt → ℝ → ℝ) (T₀ : Trainee) (models : List Trainee)
    (hhead : models.head? = some T₀)
    (hsame : ∀ T ∈ models, T.R.kernel.deform.kind = T₀.R.kernel.deform.kind ∧
      T.R.kernel.deform.metric = T₀.R.kernel.deform.metric)
    (hk : ∀ T ∈ models, T.R.kernel.make = T.R.kernel) (hko : ∀ T ∈ models, T.R.gp.kout = KernelObj.kout)
    (w : NNWrapper) (hw : w.Exact) (test labels : Tensor ℝ) (m : Nat) (len : Trainee → Fin w.f → ℝ)
    (hlen : ∀ T ∈ models, T.R.kernel.deform.HasLengths w.f (len T)) (ht : test.shape = [m, w.f])
    (hl : labels.shape = [w.N, models.length])
    (hm : 0 < m) (hn : 0 < w.nnCount) (hkN : w.nnCount ≤ w.N)
    (hν : ∀ T ∈ models, ∀ b, T.R.gp.noise.Fits b w.nnCount) (hdec : FirstColumnDecides labels w.N models.length) :
    ∃ I D, w.getNns test = .ok (I, D) ∧ I.shape = [m, w.nnCount] ∧
      ((∀ T ∈ models, ∀ p < m, (nbrCov bessel T.R.kernel (len T) w.train w.N w.nnCount I p + T.R.gp.noise.mat w.nnCount p).det ≠ 0) →
        ∃ P, classifyAny (fun idx nn => multiPosteriorMeanFromIndices bessel models idx nn test w.train labels) w test labels = .ok P ∧
          P.shape = [m, models.length] ∧ ∀ p < m,
            (SameLabel labels I w.nnCount models.length p →
              ∀ j < w.nnCount, ∀ c < models.length, P.get [p, c] = nbrLabel labels I p j c) ∧
            (¬ SameLabel labels I w.nnCount models.length p → ∀ c T, models[c]? = some T → P.get [p, c] =
              Spec.krigingMean (nbrCov bessel T.R.kernel (len T) w.train w.N w.nnCount I p + T.R.gp.noise.mat w.nnCount p)
                (nbrCross bessel T.R.kernel (len T) w.train w.N w.nnCount I p (rowPt test w.f p))
                (nbrTargets labels w.N w.nnCount I p c))) := by
  have hr : 0 < models.length := List.length_pos_of_mem (List.mem_of_head? hhead)
  obtain ⟨I, D, h1, h2, h3, idx, i1, i2, i3, h4⟩ := classifyAny_ok
    (fun idx nn => multiPosteriorMeanFromIndices bessel models idx nn test w.train labels) w hw test labels m _ ht hl hr hm hn hkN
  refine ⟨I, D, h1, h2, fun hinv => ?_⟩
  have hsel : ∀ q x, idx[q]? = some x → ∀ j < w.nnCount, (selectRows I w.nnCount idx).get [q, j] = I.get [x, j] :=
    fun q x hq j hj => selectRows_get I w.nnCount idx q x hq j hj
  have hlt : ∀ p ∈ idx, p < m := fun p hp => ((i1 p).mp hp).1
  by_cases h0 : idx = []
  · obtain ⟨P, p1, p2, p3⟩ := h4 (zeros []) fun h => absurd h0 h
    refine ⟨P, p1, p2, fun p hp => ⟨fun hs j hj c hc => ?_, fun hs => ?_⟩⟩
    · rw [(p3 p hp).1 (not_mixed_of_same hr hs) c hc]
      exact hs 0 hn j hj c hc
    · have := (i1 p).mpr ⟨hp, (mixed_iff_not_same hr hdec (nearest_nat h3) hp).mpr hs⟩
      rw [h0] at this
      simp at this
  · have hn1 : w.nnCount ≠ 1 := by
      intro hn1
      obtain ⟨x, hx⟩ := List.exists_mem_of_ne_nil idx h0
      obtain ⟨-, j, hj, j', hj', hne⟩ := (i1 x).mp hx
      have : j = j' := by omega
      exact hne (by rw [this])
    obtain ⟨μ, v, m1, m2, m2', m3⟩ := C54_multi_output_partial bessel T₀ models hhead hsame hk hko test w.train labels
      (ofNats idx) (selectRows I w.nnCount idx) m w.N w.f idx.length w.nnCount (.inl hn1) len hlen (.inl ht) (.inl hw.1) hl
      (by rw [ht, hw.1]; rfl) rfl rfl (ofNats_valid hlt) (selectRows_valid (nearest_nat h3) hlt) (fun T hT => hν T hT _)
      (fun T hT q hq => by
        obtain ⟨a, -, -⟩ := nbr_congr bessel T.R.kernel (len T) w.train labels w.N w.nnCount _ I q idx[q]
          (hsel q _ (List.getElem?_eq_getElem hq))
        rw [a, Noise.mat_indep (hν T hT) q idx[q]]
        exact hinv T hT _ (hlt _ (List.getElem_mem _)))
    obtain ⟨P, p1, p2, p3⟩ := h4 μ fun _ => ⟨multiMean_of_regress m1, m2⟩
    refine ⟨P, p1, p2, fun p hp => ⟨fun hs j hj c hc => ?_, fun hs c T hcT => ?_⟩⟩
    · rw [(p3 p hp).1 (not_mixed_of_same hr hs) c hc]
      exact hs 0 hn j hj c hc
    · have hM := (mixed_iff_not_same hr hdec (nearest_nat h3) hp).mpr hs
      have hT : T ∈ models := List.mem_of_getElem? hcT
      have hc : c < models.length := (List.getElem?_eq_some_iff.mp hcT).1
      rw [(p3 p hp).2 hM c hc]
      have hpi := i2 p ((i1 p).mpr ⟨hp, hM⟩)
      have hq : idx.idxOf p < idx.length := (List.getElem?_eq_some_iff.mp hpi).1
      obtain ⟨a, b, d⟩ := nbr_congr bessel T.R.kernel (len T) w.train labels w.N w.nnCount _ I _ p (hsel _ _ hpi)
      rw [(m3 c T hcT _ hq).1, a, b, d, Noise.mat_indep (hν T hT) _ p, ofNats_get, List.getD_eq_getElem?_getD, hpi,
        Option.getD_some, pointOf_nat, rowPt_pt ht]

/-- The two training points nearest to the origin, among `0, 1, 3`. -/
theorem line_neighbours (answer : (Fin 1 → ℝ) → Nat → List Nat) (I : Tensor Int) (D : Tensor ℝ)
    (hw : NNWrapper.Exact ⟨3, 1, lineTrain, 2, fun x y => |x 0 - y 0|, false, answer⟩)
    (h : NNWrapper.getNns ⟨3, 1, lineTrain, 2, fun x y => |x 0 - y 0|, false, answer⟩ lineTest = .ok (I, D))
    (p : Nat) (hp : p < 2) : I.get [p, 0] = 0 ∧ I.get [p, 1] = 1 := by
  obtain ⟨I', E, j1, j2, j3, j4, j5⟩ := C41_plain _ hw lineTest 2 rfl (by omega) (by show 0 < 2; omega) (by show 2 ≤ 3; omega)
  obtain rfl : I = I' := by rw [h] at j1; exact (Prod.mk.inj (Except.ok.inj j1)).1
  obtain ⟨l, l1, l2⟩ := j4 p hp
  obtain ⟨x, y, rfl⟩ : ∃ x y, l = [x, y] := List.length_eq_two.mp l2.length
  have e0 : I.get [p, 0] = (x : Int) := by
    have := congrArg (fun l => l[0]?) l1
    simpa [rowList] using this
  have e1 : I.get [p, 1] = (y : Int) := by
    have := congrArg (fun l => l[1]?) l1
    simpa [rowList] using this
  have hx3 : x < 3 := l2.mem x (by simp)
  have hy3 : y < 3 := l2.mem y (by simp)
  have hxy : x ≠ y := by
    have := l2.nodup
    simpa using this
  have hr0 : rowPt lineTrain 1 0 0 = 0 := by simp [rowPt, lineTrain, Tensor.get, Tensor.ravel]
  have hr1 : rowPt lineTrain 1 1 0 = 1 := by simp [rowPt, lineTrain, Tensor.get, Tensor.ravel]
  have hr2 : rowPt lineTrain 1 2 0 = 3 := by simp [rowPt, lineTrain, Tensor.get, Tensor.ravel]
  have hz : rowPt lineTest 1 p 0 = 0 := rfl
  have hs : |rowPt lineTest 1 p 0 - rowPt lineTrain 1 x 0| ≤ |rowPt lineTest 1 p 0 - rowPt lineTrain 1 y 0| :=
    (List.pairwise_cons.mp l2.sorted).1 y (by simp)
  have hn : ∀ i ∈ [x, y], ∀ j < 3, j ∉ [x, y] →
      |rowPt lineTest 1 p 0 - rowPt lineTrain 1 i 0| ≤ |rowPt lineTest 1 p 0 - rowPt lineTrain 1 j 0| :=
    fun i hi j hj hne => l2.nearest i hi j hj hne
  rw [hz] at hs hn
  rw [e0, e1]
  have hx0 : x = 0 := by
    by_contra hx0
    have hpos : 1 ≤ |0 - rowPt lineTrain 1 x 0| := by
      have : x = 1 ∨ x = 2 := by omega
      rcases this with rfl | rfl
      · rw [hr1]; norm_num
      · rw [hr2]; norm_num
    have : |0 - rowPt lineTrain 1 x 0| ≤ |0 - rowPt lineTrain 1 0 0| := by
      by_cases hy0 : y = 0
      · subst hy0; exact hs
      · exact hn x (by simp) 0 (by norm_num) (by simp; omega)
    rw [hr0] at this
    norm_num at this
    rw [this] at hpos
    norm_num at hpos
  subst hx0
  refine ⟨rfl, ?_⟩
  by_contra hy1
  have hy2 : y = 2 := by omega
  subst hy2
  have := hn 2 (by simp) 1 (by norm_num) (by simp)
  rw [hr1, hr2] at this
  norm_num at this

/-- A one-hot encoding of three classes: the points `0, 1, 3` have classes 1, 2, 0. -/
noncomputable def threeLabels : Tensor ℝ := ⟨[3, 3], fun k => if k = 1 ∨ k = 5 ∨ k = 6 then 1 else 0⟩

/-- **C44 fails for three classes.** With training points `0, 1, 3` of the classes 1, 2 and 0, one-hot encoded, and any exact
index, the neighbours of the test point `0` have different labels, but it receives the encoding `(0, 1, 0)` of
the nearest one; the posterior mean of class 1 is `(2 - e²) / (4 - e²) ≠ 1` with `e = exp (-1/2)`. -/
theorem C44_three_classes_fails (b : Flt → ℝ → ℝ) (answer : (Fin 1 → ℝ) → Nat → List Nat) :
    let w : NNWrapper := ⟨3, 1, lineTrain, 2, fun x y => |x 0 - y 0|, false, answer⟩
    w.Exact → ∃ (I : Tensor Int) (D P : Tensor ℝ), w.getNns lineTest = .ok (I, D) ∧
      classifyAny (fun idx nn => posteriorMeanFromIndices b lineModel idx nn lineTest lineTrain threeLabels) w
        lineTest threeLabels = .ok P ∧
      ¬ SameLabel threeLabels I 2 3 0 ∧ P.get [0, 0] = 0 ∧ P.get [0, 1] = 1 ∧ P.get [0, 2] = 0 ∧
      Spec.krigingMean (nbrCov b lineModel.kernel (fun _ : Fin 1 => 1) lineTrain 3 2 I 0 + lineModel.gp.noise.mat 2 0)
        (nbrCross b lineModel.kernel (fun _ : Fin 1 => 1) lineTrain 3 2 I 0 (rowPt lineTest 1 0))
        (nbrTargets threeLabels 3 2 I 0 1) = (2 - Real.exp (-1 / 2) ^ 2) / (4 - Real.exp (-1 / 2) ^ 2) ∧
      (2 - Real.exp (-1 / 2) ^ 2) / (4 - Real.exp (-1 / 2) ^ 2) ≠ 1 := by
  intro w hw
  obtain ⟨I, D, h1, h2, h3, h4⟩ := C44_actual b lineModel rfl w hw lineTest threeLabels 2 3 (fun _ => 1)
    ⟨1, one_pos, rfl, fun _ => rfl⟩ rfl rfl (by norm_num) (by show 3 ≠ 2; norm_num) (by norm_num) (by show 0 < 2; norm_num)
    (by show 2 ≤ 3; norm_num) (fun _ => trivial)
  obtain ⟨P, p1, p2, p3⟩ := h4 fun p _ => line_det b I p
  obtain ⟨I0, I1⟩ := line_neighbours answer I D hw h1 0 (by norm_num)
  set e := Real.exp (-1 / 2) with he
  have he0 : 0 < e := Real.exp_pos _
  have he1 : e < 1 := by rw [he, Real.exp_lt_one_iff]; norm_num
  have h4' : 4 - e ^ 2 ≠ 0 := by nlinarith
  have l0 : ∀ c, nbrLabel threeLabels I 0 0 c = threeLabels.get [0, c] := fun c => by simp [nbrLabel, I0]
  have l1 : ∀ c, nbrLabel threeLabels I 0 1 c = threeLabels.get [1, c] := fun c => by simp [nbrLabel, I1]
  have hnm : ¬ FirstMixed threeLabels I w.nnCount 0 := by
    rintro ⟨j, hj, j', hj', hne⟩
    apply hne
    have hj2 : j < 2 := hj
    have hj2' : j' < 2 := hj'
    interval_cases j <;> interval_cases j' <;> simp only [l0, l1] <;> norm_num [threeLabels, Tensor.get, Tensor.ravel]
  have hP := (p3 0 (by norm_num)).1 hnm
  refine ⟨I, D, P, h1, p1, ?_, ?_, ?_, ?_, ?_, ?_⟩
  · intro hs
    have := hs 0 (by norm_num) 1 (by norm_num) 1 (by norm_num)
    rw [l0, l1] at this
    norm_num [threeLabels, Tensor.get, Tensor.ravel] at this
  · rw [hP 0 (by norm_num), l0]; norm_num [threeLabels, Tensor.get, Tensor.ravel]
  · rw [hP 1 (by norm_num), l0]; norm_num [threeLabels, Tensor.get, Tensor.ravel]
  · rw [hP 2 (by norm_num), l0]; norm_num [threeLabels, Tensor.get, Tensor.ravel]
  · have p0 : pointOf 3 0 = 0 := rfl
    have p1 : pointOf 3 1 = 1 := rfl
    have t0 : pt lineTrain 1 0 0 = 0 := by simp [pt, feature, lineTrain, Tensor.get, Tensor.ravel]
    have t1 : pt lineTrain 1 1 0 = 1 := by simp [pt, feature, lineTrain, Tensor.get, Tensor.ravel]
    have q0 : rowPt lineTest 1 0 0 = 0 := rfl
    have hmat : nbrCov b lineModel.kernel (fun _ : Fin 1 => 1) lineTrain 3 2 I 0 + lineModel.gp.noise.mat 2 0
        = !![2, e; e, 2] := by
      show nbrCov b lineModel.kernel (fun _ : Fin 1 => 1) lineTrain 3 2 I 0 + (1:ℝ) • 1 = _
      rw [one_smul, line_mat, I0, I1, p0, p1, t0, t1]
      norm_num [he]
    have hy : nbrTargets threeLabels 3 2 I 0 1 = ![1, 0] := by
      funext j
      fin_cases j
      · show feature threeLabels (pointOf 3 (I.get [0, 0])) 1 = 1
        rw [I0, p0]; simp [feature, threeLabels, Tensor.get, Tensor.ravel]
      · show feature threeLabels (pointOf 3 (I.get [0, 1])) 1 = 0
        rw [I1, p1]; simp [feature, threeLabels, Tensor.get, Tensor.ravel]
    have hc : nbrCross b lineModel.kernel (fun _ : Fin 1 => 1) lineTrain 3 2 I 0 (rowPt lineTest 1 0) = ![1, e] := by
      funext j
      unfold nbrCross
      rw [line_cov, q0]
      fin_cases j
      · simp [I0, p0, t0]
      · simp [I1, p1, t1, he]
    rw [hmat, hc, hy, kriging_two _ _ _ _ _ h4']
    congr 1
    ring
  · rw [Ne, div_eq_one_iff_eq h4']
    linarith

/-- The index of the witness exists. -/
example : ∃ answer, NNWrapper.Exact ⟨3, 1, lineTrain, 2, fun x y => |x 0 - y 0|, false, answer⟩ :=
  exact_index_exists 3 1 2 lineTrain rfl _ false

/-- Two-class encodings satisfy the hypothesis of `C44_two_class_partial`: every table of the rows `(1, -1)` and `(-1, 1)`. -/
example (cls : Nat → Bool) (N : Nat) :
    FirstColumnDecides (Tensor.ofFn [N, 2] fun q => if cls (q.getD 0 0) = (q.getD 1 0 == 0) then (1 : ℝ) else -1) N 2 := by
  intro i hi k hk h c hc
  rw [ofFn_get2 _ hi (by omega), ofFn_get2 _ hk (by omega)] at h
  rw [ofFn_get2 _ hi hc, ofFn_get2 _ hk hc]
  interval_cases c <;> cases h1 : cls i <;> cases h2 : cls k <;> simp [h1, h2] at h ⊢ <;> norm_num at h

theorem classifyUq_ok (post : Tensor Int → Tensor Int → Res (Tensor ℝ × Tensor ℝ)) (w : NNWrapper) (hw : w.Exact)
    (test labels : Tensor ℝ) (m : Nat)
    (ht : test.shape = [m, w.f]) (hl : labels.shape = [w.N, 2]) (hm : 0 < m) (hn : 0 < w.nnCount)
    (hkN : w.nnCount ≤ w.N) :
    ∃ I D, w.getNns test = .ok (I, D) ∧ I.shape = [m, w.nnCount] ∧
      (∀ i < m, ∃ l : List Nat, rowList I w.nnCount i = l.map Int.ofNat ∧
        Nearest (· < w.N) (fun j => w.dist (rowPt test w.f i) (rowPt w.train w.f j)) w.nnCount l) ∧
      ∃ idx : List Nat, (∀ p, p ∈ idx ↔ p < m ∧ FirstMixed labels I w.nnCount p) ∧
        (∀ p ∈ idx, idx[idx.idxOf p]? = some p) ∧
        (idx ≠ [] → ∀ μ v, post (ofNats idx) (selectRows I w.nnCount idx) = .ok (μ, v) → v.shape ≠ [idx.length] →
          classifyTwoClassUq post w test labels = .error .value) ∧
        ∀ μ v, (idx ≠ [] → post (ofNats idx) (selectRows I w.nnCount idx) = .ok (μ, v) ∧
            μ.shape = [idx.length, 2] ∧ v.shape = [idx.length]) →
          ∃ P V, classifyTwoClassUq post w test labels = .ok (P, V) ∧ P.shape = [m, 2] ∧ V.shape = [m] ∧
            ∀ p < m, (¬ FirstMixed labels I w.nnCount p →
                (∀ c < 2, P.get [p, c] = nbrLabel labels I p 0 c) ∧ V.get [p] = 0) ∧
              (FirstMixed labels I w.nnCount p →
                (∀ c < 2, P.get [p, c] = μ.get [idx.idxOf p, c]) ∧ V.get [p] = v.get [idx.idxOf p]) := by
  obtain ⟨I, D, nl, h1, h2, h3, h4, h5, h6, h7⟩ := classify_lookup w hw test labels m 2 ht hl hm hn hkN
  have hmix : ∀ p < m, (mixedFirstColumn nl w.nnCount p = true ↔ FirstMixed labels I w.nnCount p) := by
    intro p hp
    rw [mixed_iff]
    constructor
    · rintro ⟨j, hj, j', hj', h⟩
      exact ⟨j, hj, j', hj', by rwa [h7 p hp j hj 0 two_pos, h7 p hp j' hj' 0 two_pos] at h⟩
    · rintro ⟨j, hj, j', hj', h⟩
      exact ⟨j, hj, j', hj', by rwa [h7 p hp j hj 0 two_pos, h7 p hp j' hj' 0 two_pos]⟩
  have hmem : ∀ p, p ∈ (List.range m).filter (mixedFirstColumn nl w.nnCount) ↔ p < m ∧ FirstMixed labels I w.nnCount p := by
    intro p
    rw [List.mem_filter, List.mem_range]
    exact ⟨fun h => ⟨h.1, (hmix p h.1).mp h.2⟩, fun h => ⟨h.1, (hmix p h.1).mpr h.2⟩⟩
  set idx := (List.range m).filter (mixedFirstColumn nl w.nnCount) with hidx
  have hrun : classifyTwoClassUq post w test labels =
      (if idx = [] then .ok (Tensor.ofFn [m, 2] fun q => nl.get [q.getD 0 0, 0, q.getD 1 0], zeros [m]) else do
        let p ← post (ofNats idx) (selectRows I w.nnCount idx)
        if p.1.shape = [idx.length, 2] ∧ p.2.shape = [idx.length] then
          return (Tensor.ofFn [m, 2] fun q =>
              if mixedFirstColumn nl w.nnCount (q.getD 0 0) then p.1.get [idx.idxOf (q.getD 0 0), q.getD 1 0]
              else nl.get [q.getD 0 0, 0, q.getD 1 0],
            Tensor.ofFn [m] fun q =>
              if mixedFirstColumn nl w.nnCount (q.getD 0 0) then p.2.get [idx.idxOf (q.getD 0 0)] else 0)
        else .error .value) := by
    unfold classifyTwoClassUq
    rw [ht, hl]
    simp only
    simp only [h1, h3, bind, Except.bind, h2, List.getD_cons_zero, List.getD_cons_succ, ← hidx]
    rw [if_neg (by simp)]
    rfl
  refine ⟨I, D, h1, h2, h5, idx, hmem, ?_, ?_, ?_⟩
  · intro p hp
    rw [List.mem_filter, List.mem_range] at hp
    exact idxOf_filter _ m p hp.1 hp.2
  · intro h0 μ v hp hv
    rw [hrun, if_neg h0]
    simp only [hp, bind, Except.bind]
    rw [if_neg (fun h => hv h.2)]
  · intro μ v hμ
    by_cases h0 : idx = []
    · refine ⟨_, _, by rw [hrun, if_pos h0], rfl, rfl, fun p hp => ⟨fun _ => ⟨fun c hc => ?_, ?_⟩, fun hM => ?_⟩⟩
      · rw [ofFn_get2 _ hp hc]
        simp only [List.getD_cons_zero, List.getD_cons_succ]
        exact h7 p hp 0 hn c hc
      · simp [zeros, Tensor.get]
      · have := (hmem p).mpr ⟨hp, hM⟩
        rw [h0] at this
        simp at this
    · obtain ⟨m1, m2, m3⟩ := hμ h0
      refine ⟨Tensor.ofFn [m, 2] fun q =>
              if mixedFirstColumn nl w.nnCount (q.getD 0 0) then μ.get [idx.idxOf (q.getD 0 0), q.getD 1 0]
              else nl.get [q.getD 0 0, 0, q.getD 1 0],
            Tensor.ofFn [m] fun q =>
              if mixedFirstColumn nl w.nnCount (q.getD 0 0) then v.get [idx.idxOf (q.getD 0 0)] else 0, ?_, rfl, rfl,
          fun p hp => ⟨fun hM => ⟨fun c hc => ?_, ?_⟩, fun hM => ⟨fun c hc => ?_, ?_⟩⟩⟩
      · rw [hrun, if_neg h0]
        simp only [m1, bind, Except.bind, m2, m3, and_self, if_true]
        rfl
      · rw [ofFn_get2 _ hp hc]
        simp only [List.getD_cons_zero, List.getD_cons_succ]
        rw [if_neg (fun e => hM ((hmix p hp).mp e))]
        exact h7 p hp 0 hn c hc
      · rw [Tensor.get_ofFn _ _ _ (.cons hp .nil)]
        simp only [List.getD_cons_zero]
        rw [if_neg (fun e => hM ((hmix p hp).mp e))]
      · rw [ofFn_get2 _ hp hc]
        simp only [List.getD_cons_zero, List.getD_cons_succ]
        rw [if_pos ((hmix p hp).mpr hM)]
      · rw [Tensor.get_ofFn _ _ _ (.cons hp .nil)]
        simp only [List.getD_cons_zero]
        rw [if_pos ((hmix p hp).mpr hM)]

/-- **C44, two-class classification with uncertainty**: points whose neighbours all carry the same label receive its
encoding and variance zero, all others the kriging mean and the scaled kriging variance. Partial: the
first column must tell the labels apart (true of two classes) and there must not be exactly two neighbours
(`C24_responses_eq_neighbours_fails`). -/
theorem C44_uq_partial (bessel : Flt → ℝ → ℝ) (R : Regressor) (hk : R.kernel.make = R.kernel)
    (hko : R.gp.kout = KernelObj.kout) (w : NNWrapper)
    (hw : w.Exact) (test labels : Tensor ℝ) (m : Nat) (len : Fin w.f → ℝ)
    (hlen : R.kernel.deform.HasLengths w.f len) (ht : test.shape = [m, w.f]) (hl : labels.shape = [w.N, 2])
    (hrn : w.nnCount ≠ 2) (hm : 0 < m) (hn : 0 < w.nnCount) (hkN : w.nnCount ≤ w.N)
    (hν : ∀ b, R.gp.noise.Fits b w.nnCount) (hdec : FirstColumnDecides labels w.N 2) :
    ∃ I D, w.getNns test = .ok (I, D) ∧ I.shape = [m, w.nnCount] ∧
      ((∀ p < m, (nbrCov bessel R.kernel len w.train w.N w.nnCount I p + R.gp.noise.mat w.nnCount p).det ≠ 0) →
        ∃ P V, classifyTwoClassUq (fun idx nn => regressFromIndices bessel R idx nn test w.train labels) w test labels
            = .ok (P, V) ∧ P.shape = [m, 2] ∧ V.shape = [m] ∧ ∀ p < m,
            (SameLabel labels I w.nnCount 2 p →
              (∀ j < w.nnCount, ∀ c < 2, P.get [p, c] = nbrLabel labels I p j c) ∧ V.get [p] = 0) ∧
            (¬ SameLabel labels I w.nnCount 2 p → (∀ c < 2, P.get [p, c] =
              Spec.krigingMean (nbrCov bessel R.kernel len w.train w.N w.nnCount I p + R.gp.noise.mat w.nnCount p)
                (nbrCross bessel R.kernel len w.train w.N w.nnCount I p (rowPt test w.f p))
                (nbrTargets labels w.N w.nnCount I p c)) ∧
              V.get [p] = R.gp.boundScale * Spec.krigingVar 1
                (nbrCov bessel R.kernel len w.train w.N w.nnCount I p + R.gp.noise.mat w.nnCount p)
                (nbrCross bessel R.kernel len w.train w.N w.nnCount I p (rowPt test w.f p)))) := by
  obtain ⟨I, D, h1, h2, h3, idx, i1, i2, -, h4⟩ := classifyUq_ok
    (fun idx nn => regressFromIndices bessel R idx nn test w.train labels) w hw test labels m ht hl hm hn hkN
  refine ⟨I, D, h1, h2, fun hinv => ?_⟩
  have hsel : ∀ q x, idx[q]? = some x → ∀ j < w.nnCount, (selectRows I w.nnCount idx).get [q, j] = I.get [x, j] :=
    fun q x hq j hj => selectRows_get I w.nnCount idx q x hq j hj
  have hlt : ∀ p ∈ idx, p < m := fun p hp => ((i1 p).mp hp).1
  obtain ⟨μ, v, m1, -, m2, m2', m3⟩ := C54_regress_multi_variance_partial bessel R hk hko test w.train labels (ofNats idx)
    (selectRows I w.nnCount idx) m w.N w.f 2 idx.length w.nnCount hrn.symm len hlen (.inl ht) (.inl hw.1) hl
    (by rw [ht, hw.1]; rfl) rfl rfl (ofNats_valid hlt) (selectRows_valid (nearest_nat h3) hlt) (hν _)
    (fun q hq => by
      obtain ⟨a, -, -⟩ := nbr_congr bessel R.kernel len w.train labels w.N w.nnCount _ I q idx[q]
        (hsel q _ (List.getElem?_eq_getElem hq))
      rw [a, Noise.mat_indep hν q idx[q]]
      exact hinv _ (hlt _ (List.getElem_mem _)))
  obtain ⟨P, V, p1, p2, p2', p3⟩ := h4 μ v fun _ => ⟨m1, m2, m2'⟩
  refine ⟨P, V, p1, p2, p2', fun p hp => ⟨fun hs => ?_, fun hs => ?_⟩⟩
  · obtain ⟨a, b⟩ := (p3 p hp).1 (not_mixed_of_same two_pos hs)
    exact ⟨fun j hj c hc => by rw [a c hc]; exact hs 0 hn j hj c hc, b⟩
  · have hM := (mixed_iff_not_same two_pos hdec (nearest_nat h3) hp).mpr hs
    have hpi := i2 p ((i1 p).mpr ⟨hp, hM⟩)
    have hq : idx.idxOf p < idx.length := (List.getElem?_eq_some_iff.mp hpi).1
    obtain ⟨a, b, d⟩ := nbr_congr bessel R.kernel len w.train labels w.N w.nnCount _ I _ p (hsel _ _ hpi)
    have hpt : pt test w.f (pointOf m ((ofNats idx).get [idx.idxOf p])) = rowPt test w.f p := by
      rw [ofNats_get, List.getD_eq_getElem?_getD, hpi, Option.getD_some, pointOf_nat, rowPt_pt ht]
    obtain ⟨x1, x2⟩ := m3 _ hq
    refine ⟨fun c hc => ?_, ?_⟩
    · rw [((p3 p hp).2 hM).1 c hc, x1 c hc, a, b, d, Noise.mat_indep hν _ p, hpt]
    · rw [((p3 p hp).2 hM).2, x2, a, b, Noise.mat_indep hν _ p, hpt]

/-- **C44**, uncertainty objectives: without cutoffs there are no masks, whatever the number of classes; with
cutoffs there is one mask per cutoff with one entry per prediction. -/
theorem C44_mask_counts (pred variances : Tensor ℝ) (m r : Nat) (hp : pred.shape = [m, r]) (hv : variances.shape = [m])
    (mid : ℝ) :
    makeMasks pred [] variances mid = .ok [] ∧
    ∀ cutoffs, 2 ≤ r → ∃ M, makeMasks pred cutoffs variances mid = .ok M ∧ M.length = cutoffs.length ∧
      ∀ mask ∈ M, mask.length = m := by
  have hr : variances.reshape [m] = .ok ⟨[m], variances.flat⟩ := Tensor.reshape_ok _ _ (by rw [hv])
  constructor
  · simp [makeMasks, hp, hr, bind, Except.bind, pure, Except.pure]
  · intro cutoffs h2
    refine ⟨_, by simp only [makeMasks, hp, hr, bind, Except.bind, pure, Except.pure]; rw [if_neg (by omega)], by simp, ?_⟩
    intro mask hm
    obtain ⟨c, _, rfl⟩ := List.mem_map.1 hm
    simp

/-- **C44 fails for multi-output surrogates with uncertainty**: `classify_two_class_uq` accepts multi-output surrogates, but
whenever some test point has neighbours of both classes the call raises, because such a surrogate has a
variance for each class. -/
theorem C44_uq_multi_output_fails (bessel : Flt → ℝ → ℝ) (T₀ : Trainee) (models : List Trainee)
    (hhead : models.head? = some T₀) (h2m : models.length = 2)
    (hsame : ∀ T ∈ models, T.R.kernel.deform.kind = T₀.R.kernel.deform.kind ∧
      T.R.kernel.deform.metric = T₀.R.kernel.deform.metric)
    (hk : ∀ T ∈ models, T.R.kernel.make = T.R.kernel) (hko : ∀ T ∈ models, T.R.gp.kout = KernelObj.kout)
    (w : NNWrapper) (hw : w.Exact) (test labels : Tensor ℝ) (m : Nat) (len : Trainee → Fin w.f → ℝ)
    (hlen : ∀ T ∈ models, T.R.kernel.deform.HasLengths w.f (len T)) (ht : test.shape = [m, w.f])
    (hl : labels.shape = [w.N, 2])
    (hm : 0 < m) (hn : 0 < w.nnCount) (hkN : w.nnCount ≤ w.N)
    (hν : ∀ T ∈ models, ∀ b, T.R.gp.noise.Fits b w.nnCount) (hdec : FirstColumnDecides labels w.N 2) :
    ∃ I D, w.getNns test = .ok (I, D) ∧
      ((∀ T ∈ models, ∀ p < m, (nbrCov bessel T.R.kernel (len T) w.train w.N w.nnCount I p + T.R.gp.noise.mat w.nnCount p).det ≠ 0) →
        (∃ p < m, ¬ SameLabel labels I w.nnCount 2 p) →
        classifyTwoClassUq (fun idx nn => multiRegressFromIndices bessel models idx nn test w.train labels) w test labels
          = .error .value) := by
  obtain ⟨I, D, h1, h2, h3, idx, i1, i2, h5, -⟩ := classifyUq_ok
    (fun idx nn => multiRegressFromIndices bessel models idx nn test w.train labels) w hw test labels m ht hl hm hn hkN
  refine ⟨I, D, h1, fun hinv ⟨p, hp, hs⟩ => ?_⟩
  have hsel : ∀ q x, idx[q]? = some x → ∀ j < w.nnCount, (selectRows I w.nnCount idx).get [q, j] = I.get [x, j] :=
    fun q x hq j hj => selectRows_get I w.nnCount idx q x hq j hj
  have hlt : ∀ p ∈ idx, p < m := fun p hp => ((i1 p).mp hp).1
  have hM := (mixed_iff_not_same two_pos hdec (nearest_nat h3) hp).mpr hs
  have hpi := (i1 p).mpr ⟨hp, hM⟩
  have hn1 : w.nnCount ≠ 1 := by
    intro hn1
    obtain ⟨j, hj, j', hj', hne⟩ := hM
    have : j = j' := by omega
    exact hne (by rw [this])
  obtain ⟨μ, v, m1, m2, m2', m3⟩ := C54_multi_output_partial bessel T₀ models hhead hsame hk hko test w.train labels
      (ofNats idx) (selectRows I w.nnCount idx) m w.N w.f idx.length w.nnCount (.inl hn1) len hlen (.inl ht) (.inl hw.1)
      (by rw [h2m]; exact hl)
      (by rw [ht, hw.1]; rfl) rfl rfl (ofNats_valid hlt) (selectRows_valid (nearest_nat h3) hlt) (fun T hT => hν T hT _)
      (fun T hT q hq => by
        obtain ⟨a, -, -⟩ := nbr_congr bessel T.R.kernel (len T) w.train labels w.N w.nnCount _ I q idx[q]
          (hsel q _ (List.getElem?_eq_getElem hq))
        rw [a, Noise.mat_indep (hν T hT) q idx[q]]
        exact hinv T hT _ (hlt _ (List.getElem_mem _)))
  exact h5 (List.ne_nil_of_mem hpi) μ v m1 (by rw [m2']; simp)

end MuyGPyS
