import Verif.Spec.Lookup
import Verif.Spec.FullGP
import Verif.Spec.Prior
import Verif.Props.FullGP
import Verif.Props.Continuity

/-! # C105: approximate nearest neighbour indices -/

namespace MuyGPyS
open Py Matrix

/-- **C105**: which index is built. The name of the method is case-insensitive; an index that is not installed and an unknown method are refused. -/
theorem C105_construct (sk : SkFit) (hl : HnswFit) (enabled : Bool) (train : Tensor ℝ) (N f nnCount : Nat) (hN : 0 < N)
    (hs : train.shape = [N, f] ∨ train.shape = [N] ∧ f = 1) (method : String) :
    (Conf.pyLower method = "exact" → ∃ w : NNWrapper, Lookup.make sk hl enabled train nnCount method = .ok (.exact w) ∧ w.N = N ∧ w.f = f ∧
      w.nnCount = nnCount ∧ w.train = ⟨[N, f], train.flat⟩) ∧
    (Conf.pyLower method = "hnsw" → enabled = true → ∃ h : Hnsw, Lookup.make sk hl enabled train nnCount method = .ok (.hnsw h) ∧ h.N = N ∧ h.f = f ∧
      h.nnCount = nnCount ∧ h.train = ⟨[N, f], train.flat⟩) ∧
    (Conf.pyLower method = "hnsw" → enabled = false → Lookup.make sk hl enabled train nnCount method = .error .moduleNotFound) ∧
    (Conf.pyLower method ≠ "exact" → Conf.pyLower method ≠ "hnsw" → Lookup.make sk hl enabled train nnCount method = .error .notImplemented) := by
  have hT : asTable train = ⟨[N, f], train.flat⟩ := by
    obtain ⟨s, g⟩ := train
    rcases hs with h | ⟨h, rfl⟩ <;> simp only at h <;> subst h <;> rfl
  have hx : ("hnsw" : String) ≠ "exact" := by decide
  unfold Lookup.make
  simp only [hT]
  refine ⟨fun h => ?_, fun h he => ?_, fun h he => ?_, fun h1 h2 => ?_⟩
  · rw [if_pos h, if_neg (by omega)]
    exact ⟨_, rfl, rfl, rfl, rfl, rfl⟩
  · rw [if_neg (by rw [h]; exact hx), if_pos h, if_pos he]
    exact ⟨_, rfl, rfl, rfl, rfl, rfl⟩
  · rw [if_neg (by rw [h]; exact hx), if_pos h, if_neg (by rw [he]; exact Bool.false_ne_true)]
  · rw [if_neg h1, if_neg h2]

theorem hnsw_query_ok (h : Hnsw) (hs : h.Sound) (S : Tensor ℝ) (m k : Nat) (hS : S.shape = [m, h.f]) (hf : h.Finds S m k) :
    ∃ I D, h.query S k = .ok (I, D) ∧ I.shape = [m, k] ∧ D.shape = [m, k] ∧
      (∀ i < m, ∃ l, h.answer (rowPt S h.f i) k = some l ∧ rowList I k i = l.map Int.ofNat) ∧
      ∀ i < m, ∀ j < k, D.get [i, j] = h.dist (rowPt S h.f i) (rowPt h.train h.f (I.get [i, j]).toNat) := by
  have hT : asTable S = S := by unfold asTable; rw [hS]
  unfold Hnsw.query
  simp only [hT, hS]
  rw [if_neg (by simp), if_neg (by rintro ⟨i, hi, h0⟩; exact hf i hi h0)]
  refine ⟨_, _, rfl, rfl, rfl, fun i hi => ?_, fun i hi j hj => ?_⟩
  · obtain ⟨l, hl⟩ := Option.ne_none_iff_exists'.1 (hf i hi)
    refine ⟨l, hl, ?_⟩
    have hlen := (hs.2 _ _ _ hl).1
    unfold rowList
    rw [← map_range_getD, hlen]
    refine List.map_congr_left fun j hj => ?_
    rw [ofFn_get2 _ hi (List.mem_range.mp hj)]
    simp only [List.getD_cons_zero, List.getD_cons_succ, hl, Option.getD_some]
  · rw [ofFn_get2 _ hi hj, ofFn_get2 _ hi hj]
    simp

/-- **C105**: `get_nns` lists for every test point as many different training points as asked for, nearest first, with their distances;
and it raises `RuntimeError` exactly if for some test point the index finds too few. -/
theorem C105_lookup (h : Hnsw) (hs : h.Sound) (Q : Tensor ℝ) (m : Nat) (hQ : Q.shape = [m, h.f]) :
    (h.Finds Q m h.nnCount → ∃ I D, (Lookup.hnsw h).getNns Q = .ok (I, D) ∧ I.shape = [m, h.nnCount] ∧ D.shape = [m, h.nnCount] ∧
      (∀ i < m, ∃ l : List Nat, rowList I h.nnCount i = l.map Int.ofNat ∧ l.length = h.nnCount ∧ l.Nodup ∧ (∀ j ∈ l, j < h.N) ∧
        l.Pairwise fun a b => h.dist (rowPt Q h.f i) (rowPt h.train h.f a) ≤ h.dist (rowPt Q h.f i) (rowPt h.train h.f b)) ∧
      ∀ i < m, ∀ j < h.nnCount, D.get [i, j] = h.dist (rowPt Q h.f i) (rowPt h.train h.f (I.get [i, j]).toNat)) ∧
    (¬ h.Finds Q m h.nnCount → (Lookup.hnsw h).getNns Q = .error .runtime) ∧ (h.N < h.nnCount → 0 < m → ¬ h.Finds Q m h.nnCount) := by
  refine ⟨fun hf => ?_, fun hf => ?_, fun hN hm hf => ?_⟩
  · obtain ⟨I, D, h1, h2, h3, h4, h5⟩ := hnsw_query_ok h hs Q m _ hQ hf
    refine ⟨I, D, h1, h2, h3, fun i hi => ?_, h5⟩
    obtain ⟨l, e1, e2⟩ := h4 i hi
    exact ⟨l, e2, hs.2 _ _ _ e1⟩
  · have hT : asTable Q = Q := by unfold asTable; rw [hQ]
    unfold Hnsw.Finds at hf
    push Not at hf
    show h.query Q h.nnCount = _
    unfold Hnsw.query
    simp only [hT, hQ]
    rw [if_neg (by simp), if_pos hf]
  · obtain ⟨l, hl⟩ := Option.ne_none_iff_exists'.1 (hf 0 hm)
    obtain ⟨l1, l2, l3, -⟩ := hs.2 _ _ _ hl
    have : l.length ≤ h.N := by
      have := List.Nodup.length_le_card (α := Fin h.N) (l := l.attach.map fun x => ⟨x.1, l3 x.1 x.2⟩) (by
        refine List.Nodup.map (fun a b hab => Subtype.ext (congrArg Fin.val hab)) (List.nodup_attach.2 l2))
      simpa using this
    omega

/-- **C105**: no batch point is among the neighbours `get_batch_nns` returns for it, whatever points the approximate index finds or overlooks — the
point itself included — if no two training points coincide in the metric of the index. -/
theorem C105_batch_without_self (h : Hnsw) (hs : h.Sound) (batch : Tensor Int) (b : Nat) (hb : batch.shape = [b]) (hv : AllValid h.N batch)
    (hself : ∀ x, h.dist x x = 0)
    (hsep : ∀ i < b, ∀ j < h.N, j ≠ pointOf h.N (batch.get [i]) →
      0 < h.dist (rowPt h.train h.f (pointOf h.N (batch.get [i]))) (rowPt h.train h.f j))
    (hfound : ∀ i < b, h.answer (rowPt h.train h.f (pointOf h.N (batch.get [i]))) (h.nnCount + 1) ≠ none) :
    ∃ I D, (Lookup.hnsw h).getBatchNns batch = .ok (I, D) ∧ I.shape = [b, h.nnCount] ∧ D.shape = [b, h.nnCount] ∧
      ∀ i < b, ∃ l : List Nat, rowList I h.nnCount i = l.map Int.ofNat ∧ l.length = h.nnCount ∧ l.Nodup ∧ (∀ j ∈ l, j < h.N) ∧
        pointOf h.N (batch.get [i]) ∉ l := by
  obtain ⟨S, s1, s2, s3⟩ := take_mat hs.1 hv
  rw [hb] at s2
  have s2' : S.shape = [b, h.f] := s2
  have hrow : ∀ i < b, rowPt S h.f i = rowPt h.train h.f (pointOf h.N (batch.get [i])) := by
    intro i hi
    funext c
    unfold rowPt
    rw [Tensor.get2 S s2', Tensor.get1 _ hb, s3 i c c.2]
    unfold feature
    rw [hs.1]
  obtain ⟨I, D, h1, h2, h3, h4, -⟩ := hnsw_query_ok h hs S b (h.nnCount + 1) s2' fun i hi => by rw [hrow i hi]; exact hfound i hi
  have d1 : dropFirstCol I = Tensor.ofFn [b, h.nnCount] fun idx => I.get [idx.getD 0 0, idx.getD 1 0 + 1] := by
    unfold dropFirstCol; rw [h2]; rfl
  have d2 : dropFirstCol D = Tensor.ofFn [b, h.nnCount] fun idx => D.get [idx.getD 0 0, idx.getD 1 0 + 1] := by
    unfold dropFirstCol; rw [h3]; rfl
  refine ⟨dropFirstCol I, dropFirstCol D, ?_, by rw [d1]; rfl, by rw [d2]; rfl, fun i hi => ?_⟩
  · unfold Lookup.getBatchNns
    simp only [s1, bind, Except.bind, pure, Except.pure, h1]
  · obtain ⟨l, e1, e2⟩ := h4 i hi
    rw [hrow i hi] at e1
    obtain ⟨l1, l2, l3, l4⟩ := hs.2 _ _ _ e1
    obtain ⟨a, t, rfl⟩ : ∃ a t, l = a :: t := by
      cases l with
      | nil => simp at l1
      | cons a t => exact ⟨a, t, rfl⟩
    refine ⟨t, ?_, by simpa using l1, (List.nodup_cons.1 l2).2, fun j hj => l3 j (List.mem_cons_of_mem _ hj), fun hmem => ?_⟩
    · have : rowList (dropFirstCol I) h.nnCount i = (rowList I (h.nnCount + 1) i).tail := by
        unfold rowList
        rw [d1, ← List.map_tail, List.range_succ_eq_map, List.tail_cons, List.map_map]
        refine List.map_congr_left fun j hj => ?_
        rw [ofFn_get2 _ hi (List.mem_range.mp hj)]
        rfl
      rw [this, e2]; rfl
    · have hle := (List.pairwise_cons.1 l4).1 _ hmem
      rw [hself] at hle
      refine absurd (hsep i hi a (l3 a List.mem_cons_self) fun h' => ?_) (not_lt.2 hle)
      subst h'
      exact (List.nodup_cons.1 l2).1 hmem

/-- **C105**: every prediction with an approximate index is the posterior given the responses of the points it names: means by kriging,
variances between 0 and the variance scale, and never below the variance given all training points. It fails for no data if the noise is positive or
the training points are pairwise different. -/
theorem C105_regress (bs : Flt → ℝ → ℝ) (R : Regressor) (hk : R.kernel.make = R.kernel) (hko : R.gp.kout = KernelObj.kout)
    (hsuit : R.kernel.fn.Suits R.kernel.deform.metric) (τ : ℝ) (hτ : R.gp.noise.Level τ) (h : Hnsw) (hs : h.Sound)
    (hreg : 0 < τ ∨ (0 ≤ τ ∧ DistinctRows h.train h.N h.f)) (hs0 : 0 ≤ R.gp.boundScale) (Q Y : Tensor ℝ) (m : Nat) (len : Fin h.f → ℝ)
    (hlen : R.kernel.deform.HasLengths h.f len) (hQ : Q.shape = [m, h.f]) (hY : Y.shape = [h.N]) (hf : h.Finds Q m h.nnCount) :
    ∃ nn D μ v, (Lookup.hnsw h).getNns Q = .ok (nn, D) ∧ regressLookup bs R (.hnsw h) Q h.train Y = .ok (μ, v) ∧ μ.shape = [m] ∧ v.shape = [m] ∧
      ∀ p < m,
        μ.get [p] = Spec.krigingMean (nbrCov bs R.kernel len h.train h.N h.nnCount nn p + τ • (1 : Matrix (Fin h.nnCount) (Fin h.nnCount) ℝ))
          (nbrCross bs R.kernel len h.train h.N h.nnCount nn p (rowPt Q h.f p)) (nbrTargets Y h.N h.nnCount nn p 0) ∧
        v.get [p] = R.gp.boundScale * Spec.krigingVar 1
          (nbrCov bs R.kernel len h.train h.N h.nnCount nn p + τ • (1 : Matrix (Fin h.nnCount) (Fin h.nnCount) ℝ))
          (nbrCross bs R.kernel len h.train h.N h.nnCount nn p (rowPt Q h.f p)) ∧
        0 ≤ v.get [p] ∧ v.get [p] ≤ R.gp.boundScale ∧
        R.gp.boundScale * Spec.krigingVar 1 (fullCov bs R.kernel len h.train h.N + τ • (1 : Matrix (Fin h.N) (Fin h.N) ℝ))
          (fullCross bs R.kernel len h.train h.N (rowPt Q h.f p)) ≤ v.get [p] := by
  have hlp := hasLengths_pos hlen
  obtain ⟨I, D, h1, h2, h3, h4, -⟩ := hnsw_query_ok h hs Q m _ hQ hf
  have hin : ∀ i < m, ∀ j < h.nnCount, ∃ x : Nat, I.get [i, j] = x ∧ x < h.N := fun i hi j hj => by
    obtain ⟨l, e1, e2⟩ := h4 i hi
    obtain ⟨x, x1, x2⟩ := rowList_get e2 hj
    exact ⟨x, x2, (hs.2 _ _ _ e1).2.2.1 x (List.mem_of_getElem? x1)⟩
  have hv : AllValid h.N I := valid_of_rows h2 hin
  have hmat : ∀ n p, R.gp.noise.mat n p = τ • (1 : Matrix (Fin n) (Fin n) ℝ) := fun n p => by
    cases hR : R.gp.noise with
    | homoscedastic v => rw [hR] at hτ; rw [show v = τ from hτ]; rfl
    | null => rw [hR] at hτ; rw [show τ = 0 from hτ]; simp [Noise.mat]
    | heteroscedastic v => rw [hR] at hτ; exact hτ.elim
    | shear33 v => rw [hR] at hτ; exact hτ.elim
  have hfit : R.gp.noise.Fits m h.nnCount := by
    cases hR : R.gp.noise with
    | homoscedastic v => trivial
    | null => trivial
    | heteroscedastic v => rw [hR] at hτ; exact hτ.elim
    | shear33 v => rw [hR] at hτ; exact hτ.elim
  have hsuf : ∀ p < m, (Noise.homoscedastic τ).Suffices m h.nnCount (DistinctNeighbours h.train h.N h.f h.nnCount I p) := fun p hp => by
    obtain ⟨l, e1, e2⟩ := h4 p hp
    obtain ⟨-, l2, l3, -⟩ := hs.2 _ _ _ e1
    exact hreg.imp_right fun h => ⟨h.1, distinct_of_nodup e2 l2 l3 h.2⟩
  have hpd : ∀ p < m, (nbrCov bs R.kernel len h.train h.N h.nnCount I p + τ • (1 : Matrix (Fin h.nnCount) (Fin h.nnCount) ℝ)).PosDef := fun p hp => by
    have hc := nbrCov_definite bs R.kernel hsuit len hlp h.train h.N h.nnCount I p
    exact Noise.posdef_of_suffices (hsuf p hp) hp hc.1 hc.2
  obtain ⟨μ, v, r1, r2, r3, r4⟩ := C54_regress bs R hk hko Q h.train Y (arange m) I m h.N h.f m h.nnCount
      len hlen (.inl hQ) (.inl hs.1) hY (by rw [hQ, hs.1]; rfl) rfl h2 (arange_valid m) hv hfit fun p hp => by
        rw [hmat]; exact Kriging.det_ne_zero (hpd p hp)
  have hp : ∀ p, pt Q h.f (pointOf m ((arange m).get [p])) = rowPt Q h.f p := by
    intro p
    rw [arange_get, pointOf_nat]
    funext c
    simp only [pt, feature, hQ, rowPt]
  refine ⟨I, D, μ, v, h1, ?_, r2, r3, fun p hp' => ?_⟩
  · unfold regressLookup
    rw [hQ]
    simp only [Lookup.getNns, h1, bind, Except.bind]
    exact r1
  · have hr := r4 p hp'
    rw [hmat, hp] at hr
    have hb := nbr_variance bs R.kernel hsuit len hlp h.train h.N h.nnCount I p m hp' (rowPt Q h.f p) (.homoscedastic τ) (hsuf p hp')
    refine ⟨hr.1, hr.2, ?_, ?_, ?_⟩
    · rw [hr.2]; exact mul_nonneg hs0 hb.1
    · rw [hr.2]; exact mul_le_of_le_one_right hs0 hb.2.1
    · rw [hr.2]
      refine mul_le_mul_of_nonneg_left ?_ hs0
      have hfull := fullCov_posdef bs R.kernel hsuit len hlp h.train h.N hs.1 τ hreg
      obtain ⟨l, e1, e2⟩ := h4 p hp'
      obtain ⟨l1, l2, l3, -⟩ := hs.2 _ _ _ e1
      have hrow : ∀ x, pt h.train h.f x = rowPt h.train h.f x := fun x => by
        funext c; simp only [pt, feature, hs.1, rowPt]
      let e : Fin h.nnCount → Fin h.N := fun j => ⟨l[(j : Nat)]'(by rw [l1]; exact j.2), l3 _ (List.getElem_mem _)⟩
      have he : Function.Injective e := fun i j hij => Fin.ext ((List.Nodup.getElem_inj_iff l2).1 (congrArg Fin.val hij))
      have hpt : ∀ j : Fin h.nnCount, pt h.train h.f (pointOf h.N (I.get [p, j])) = rowPt h.train h.f (e j) := fun j => by
        obtain ⟨x, x1, x2⟩ := rowList_get e2 j.2
        rw [List.getElem?_eq_getElem (by rw [l1]; exact j.2)] at x1
        rw [x2, pointOf_nat, hrow, ← Option.some.inj x1]
      have eA : nbrCov bs R.kernel len h.train h.N h.nnCount I p + τ • (1 : Matrix (Fin h.nnCount) (Fin h.nnCount) ℝ) =
          (fullCov bs R.kernel len h.train h.N + τ • (1 : Matrix (Fin h.N) (Fin h.N) ℝ)).submatrix e e := by
        ext i j
        rw [submatrix_apply, Matrix.add_apply, Matrix.add_apply, Matrix.smul_apply, Matrix.smul_apply, Matrix.one_apply, Matrix.one_apply]
        simp only [he.eq_iff]
        congr 1
        unfold nbrCov fullCov
        rw [hpt, hpt]
      have ek : nbrCross bs R.kernel len h.train h.N h.nnCount I p (rowPt Q h.f p) = fullCross bs R.kernel len h.train h.N (rowPt Q h.f p) ∘ e := by
        funext j
        unfold nbrCross fullCross
        rw [hpt]; rfl
      unfold Spec.krigingVar
      rw [eA, ek]
      have := Kriging.quad_submatrix hfull e he (fullCross bs R.kernel len h.train h.N (rowPt Q h.f p))
      linarith

theorem point_mem {N n : Nat} {nn : Tensor Int} {p : Nat} {l : List Nat} (h : rowList nn n p = l.map Int.ofNat) (hn : l.length = n) (x : Nat) :
    x ∈ Set.range (fun j : Fin n => pointOf N (nn.get [p, j])) ↔ x ∈ l := by
  constructor
  · rintro ⟨j, rfl⟩
    obtain ⟨y, y1, y2⟩ := rowList_get h j.2
    simp only [y2, pointOf_nat]
    exact List.mem_of_getElem? y1
  · intro hx
    obtain ⟨j, hj, rfl⟩ := List.getElem_of_mem hx
    have hj' : j < n := by omega
    obtain ⟨y, y1, y2⟩ := rowList_get h hj'
    refine ⟨⟨j, hj'⟩, ?_⟩
    simp only [y2, pointOf_nat]
    rw [List.getElem?_eq_getElem hj] at y1
    exact (Option.some.inj y1).symm

theorem point_injective {N n : Nat} {nn : Tensor Int} {p : Nat} {l : List Nat} (h : rowList nn n p = l.map Int.ofNat) (hl : l.Nodup) :
    Function.Injective (fun j : Fin n => pointOf N (nn.get [p, j])) := by
  intro i j hij
  obtain ⟨x, x1, x2⟩ := rowList_get h i.2
  obtain ⟨y, y1, y2⟩ := rowList_get h j.2
  simp only [x2, y2, pointOf_nat] at hij
  subst hij
  obtain ⟨a1, a2⟩ := List.getElem?_eq_some_iff.mp x1
  obtain ⟨b1, b2⟩ := List.getElem?_eq_some_iff.mp y1
  exact Fin.ext ((List.Nodup.getElem_inj_iff hl).mp (a2.trans b2.symm))

/-- **C105**: the approximation matters only through the set of points it names. If for every test point the approximate index names the points the
exact one names, in whatever order, all predictions are the same. -/
theorem C105_same_points (bs : Flt → ℝ → ℝ) (R : Regressor) (hk : R.kernel.make = R.kernel) (hko : R.gp.kout = KernelObj.kout)
    (hsuit : R.kernel.fn.Suits R.kernel.deform.metric) (τ : ℝ) (hτ : R.gp.noise.Level τ) (w : NNWrapper) (hw : w.Exact)
    (hreg : 0 < τ ∨ (0 ≤ τ ∧ DistinctRows w.train w.N w.f)) (hs0 : 0 ≤ R.gp.boundScale) (dist : (Fin w.f → ℝ) → (Fin w.f → ℝ) → ℝ)
    (answer : (Fin w.f → ℝ) → Nat → Option (List Nat)) (hs : Hnsw.Sound ⟨w.N, w.f, w.train, w.nnCount, dist, answer⟩) (Q Y : Tensor ℝ) (m : Nat)
    (hm : 0 < m) (hk0 : 0 < w.nnCount) (hkN : w.nnCount ≤ w.N) (len : Fin w.f → ℝ)
    (hlen : R.kernel.deform.HasLengths w.f len) (hQ : Q.shape = [m, w.f]) (hY : Y.shape = [w.N])
    (hsame : ∀ p < m, ∃ l, answer (rowPt Q w.f p) w.nnCount = some l ∧ ∀ x, x ∈ l ↔ x ∈ w.answer (rowPt Q w.f p) w.nnCount) :
    ∃ μ v μ' v', regressLookup bs R (.hnsw ⟨w.N, w.f, w.train, w.nnCount, dist, answer⟩) Q w.train Y = .ok (μ, v) ∧
      regressLookup bs R (.exact w) Q w.train Y = .ok (μ', v') ∧ μ.shape = [m] ∧ v.shape = [m] ∧ μ'.shape = [m] ∧ v'.shape = [m] ∧
      ∀ p < m, μ.get [p] = μ'.get [p] ∧ v.get [p] = v'.get [p] := by
  have hfinds : Hnsw.Finds ⟨w.N, w.f, w.train, w.nnCount, dist, answer⟩ Q m w.nnCount := fun p hp h0 => by
    obtain ⟨l, h1, -⟩ := hsame p hp
    rw [show answer (rowPt Q w.f p) w.nnCount = none from h0] at h1
    cases h1
  obtain ⟨nn, D, μ, v, g1, g2, g3, g4, g5⟩ := C105_regress bs R hk hko hsuit τ hτ _ hs hreg hs0 Q Y m len hlen hQ hY hfinds
  obtain ⟨nn0, D0, q1, -, -, q4, -⟩ := hnsw_query_ok _ hs Q m _ hQ hfinds
  rw [show (Lookup.hnsw ⟨w.N, w.f, w.train, w.nnCount, dist, answer⟩).getNns Q = .ok (nn0, D0) from q1] at g1
  obtain ⟨rfl, rfl⟩ := Prod.mk.inj (Except.ok.inj g1)
  obtain ⟨I, E, i1, i2, i3, i4, -⟩ := query_ok w hw Q m _ hQ hm hk0 hkN
  have hmat : ∀ n p, R.gp.noise.mat n p = τ • (1 : Matrix (Fin n) (Fin n) ℝ) := fun n p => by
    cases hR : R.gp.noise with
    | homoscedastic v => rw [hR] at hτ; rw [show v = τ from hτ]; rfl
    | null => rw [hR] at hτ; rw [show τ = 0 from hτ]; simp [Noise.mat]
    | heteroscedastic v => rw [hR] at hτ; exact hτ.elim
    | shear33 v => rw [hR] at hτ; exact hτ.elim
  have hfit : R.gp.noise.Fits m w.nnCount := by
    cases hR : R.gp.noise with
    | homoscedastic v => trivial
    | null => trivial
    | heteroscedastic v => rw [hR] at hτ; exact hτ.elim
    | shear33 v => rw [hR] at hτ; exact hτ.elim
  have hA := fun p => hw.2 (rowPt Q w.f p) w.nnCount hkN
  have hin : ∀ i < m, ∀ j < w.nnCount, ∃ x : Nat, I.get [i, j] = x ∧ x < w.N := fun i hi j hj => by
    obtain ⟨x, x1, x2⟩ := rowList_get (i4 i hi) hj
    exact ⟨x, x2, (hA i).mem x (List.mem_of_getElem? x1)⟩
  have hpd : ∀ p < m, (nbrCov bs R.kernel len w.train w.N w.nnCount I p + τ • (1 : Matrix (Fin w.nnCount) (Fin w.nnCount) ℝ)).PosDef := fun p hp => by
    have hc := nbrCov_definite bs R.kernel hsuit len (hasLengths_pos hlen) w.train w.N w.nnCount I p
    have hsuf : (Noise.homoscedastic τ).Suffices m w.nnCount (DistinctNeighbours w.train w.N w.f w.nnCount I p) :=
      hreg.imp_right fun h => ⟨h.1, distinct_of_nodup (i4 p hp) (hA p).nodup (hA p).mem h.2⟩
    exact Noise.posdef_of_suffices hsuf hp hc.1 hc.2
  obtain ⟨μ', v', r1, r2, r3, r4⟩ := C54_regress bs R hk hko Q w.train Y (arange m) I m w.N w.f m w.nnCount
      len hlen (.inl hQ) (.inl hw.1) hY (by rw [hQ, hw.1]; rfl) rfl i2 (arange_valid m) (valid_of_rows i2 hin) hfit fun p hp => by
        rw [hmat]; exact Kriging.det_ne_zero (hpd p hp)
  refine ⟨μ, v, μ', v', g2, ?_, g3, g4, r2, r3, fun p hp => ?_⟩
  · unfold regressLookup
    rw [hQ]
    simp only [Lookup.getNns, NNWrapper.getNns, i1, bind, Except.bind]
    exact r1
  · have hrp : pt Q w.f (pointOf m ((arange m).get [p])) = rowPt Q w.f p := by
      rw [arange_get, pointOf_nat]
      funext c
      simp only [pt, feature, hQ, rowPt]
    have hr := r4 p hp
    rw [hmat, hrp] at hr
    obtain ⟨l, l1, l2⟩ := hsame p hp
    obtain ⟨l', e1, e2⟩ := q4 p hp
    have hll : l' = l := Option.some.inj ((show answer (rowPt Q w.f p) w.nnCount = some l' from e1).symm.trans l1)
    subst hll
    obtain ⟨s1, s2, -, -⟩ := hs.2 _ _ _ e1
    obtain ⟨e, he⟩ := exists_perm (fun j : Fin w.nnCount => pointOf w.N (I.get [p, j])) (fun j : Fin w.nnCount => pointOf w.N (nn0.get [p, j]))
      (point_injective (i4 p hp) (hA p).nodup) (point_injective e2 s2) (by
        ext x
        rw [point_mem (i4 p hp) (hA p).length, point_mem e2 s1, l2])
    have hj : ∀ j : Fin w.nnCount, pointOf w.N (nn0.get [p, j]) = pointOf w.N (I.get [p, e j]) := fun j => congrFun he j
    have eA : nbrCov bs R.kernel len w.train w.N w.nnCount nn0 p + τ • (1 : Matrix (Fin w.nnCount) (Fin w.nnCount) ℝ) =
        (nbrCov bs R.kernel len w.train w.N w.nnCount I p + τ • (1 : Matrix (Fin w.nnCount) (Fin w.nnCount) ℝ)).submatrix e e := by
      ext i j
      rw [submatrix_apply, Matrix.add_apply, Matrix.add_apply, Matrix.smul_apply, Matrix.smul_apply, Matrix.one_apply, Matrix.one_apply]
      simp only [e.injective.eq_iff]
      congr 1
      unfold nbrCov
      rw [hj, hj]
    have ek : nbrCross bs R.kernel len w.train w.N w.nnCount nn0 p (rowPt Q w.f p) =
        nbrCross bs R.kernel len w.train w.N w.nnCount I p (rowPt Q w.f p) ∘ e := by
      funext j
      unfold nbrCross
      rw [hj]; rfl
    have ey : nbrTargets Y w.N w.nnCount nn0 p 0 = nbrTargets Y w.N w.nnCount I p 0 ∘ e := by
      funext j
      show feature Y (pointOf w.N (nn0.get [p, j])) 0 = feature Y (pointOf w.N (I.get [p, e j])) 0
      rw [hj]
    obtain ⟨k1, k2⟩ := kriging_perm (nbrCov bs R.kernel len w.train w.N w.nnCount I p + τ • (1 : Matrix (Fin w.nnCount) (Fin w.nnCount) ℝ))
      (nbrCross bs R.kernel len w.train w.N w.nnCount I p (rowPt Q w.f p)) (nbrTargets Y w.N w.nnCount I p 0) e
    obtain ⟨a1, a2, -⟩ := g5 p hp
    rw [a1, a2, hr.1, hr.2]
    simp only
    rw [eA, ek, ey, k1, k2]
    exact ⟨rfl, rfl⟩

end MuyGPyS
