import Verif.Spec.Information
import Verif.Props.Invariance
import Verif.Props.Reversion

/-! # C84: more information never increases the reported uncertainty -/

namespace MuyGPyS
open Py Matrix

theorem Noise.Level.cases {ν : Noise} {τ : ℝ} (h : ν.Level τ) : ν = .homoscedastic τ ∨ (ν = .null ∧ τ = 0) := by
  cases ν with
  | homoscedastic v => exact .inl (by rw [show v = τ from h])
  | null => exact .inr ⟨rfl, h⟩
  | heteroscedastic v => exact h.elim
  | shear33 v => exact h.elim

theorem Noise.Level.mat {ν : Noise} {τ : ℝ} (h : ν.Level τ) (n p : Nat) : ν.mat n p = τ • 1 := by
  rcases h.cases with rfl | ⟨rfl, rfl⟩
  · rfl
  · simp [Noise.mat]

theorem Noise.Level.fits {ν : Noise} {τ : ℝ} (h : ν.Level τ) (b n : Nat) : ν.Fits b n := by
  rcases h.cases with rfl | ⟨rfl, rfl⟩ <;> trivial

theorem Noise.Level.suffices_iff {ν : Noise} {τ : ℝ} (h : ν.Level τ) (b n : Nat) (D : Prop) :
    ν.Suffices b n D ↔ 0 < τ ∨ (0 ≤ τ ∧ D) := by
  rcases h.cases with rfl | ⟨rfl, rfl⟩
  · rfl
  · simp [Noise.Suffices]

/-- If at most `r` points are added and `r` more neighbours asked for, the old nearest points are still among the nearest. -/
theorem nearest_subset {N N' k k' : Nat} {d d' : Nat → ℝ} {σ : Nat → Nat} (hσ : ∀ i < N, σ i < N')
    (hinj : ∀ i < N, ∀ j < N, σ i = σ j → i = j) (hd : ∀ i < N, d' (σ i) = d i)
    (hties : ∀ i < N', ∀ j < N', i ≠ j → d' i ≠ d' j) (hk : k + (N' - N) ≤ k') {l l' : List Nat}
    (h : Nearest (· < N) d k l) (h' : Nearest (· < N') d' k' l') : ∀ x ∈ l, σ x ∈ l' := by
  intro x hx
  by_contra hn
  have hxN : x < N := h.mem x hx
  -- every selected point is strictly closer than `σ x`
  have hlt : ∀ y ∈ l', d' y < d' (σ x) := fun y hy =>
    lt_of_le_of_ne (h'.nearest y hy (σ x) (hσ x hxN) hn) (hties y (h'.mem y hy) (σ x) (hσ x hxN) fun e => hn (e ▸ hy))
  set A : Finset Nat := l'.toFinset
  set I : Finset Nat := (Finset.range N).image σ
  have hA : A.card = k' := by rw [List.toFinset_card_of_nodup h'.nodup, h'.length]
  have hI : I.card = N := by
    rw [Finset.card_image_of_injOn, Finset.card_range]
    intro a ha b hb hab
    exact hinj a (Finset.mem_range.mp ha) b (Finset.mem_range.mp hb) hab
  have hIN : I ⊆ Finset.range N' := by
    intro y hy
    obtain ⟨a, ha, rfl⟩ := Finset.mem_image.mp hy
    exact Finset.mem_range.mpr (hσ a (Finset.mem_range.mp ha))
  have hAN : A ⊆ Finset.range N' := fun y hy => Finset.mem_range.mpr (h'.mem y (List.mem_toFinset.mp hy))
  have hout : (A \ I).card ≤ N' - N := by
    calc (A \ I).card ≤ (Finset.range N' \ I).card := Finset.card_le_card (Finset.sdiff_subset_sdiff hAN subset_rfl)
      _ = N' - N := by rw [Finset.card_sdiff_of_subset hIN, Finset.card_range, hI]
  have hin : k ≤ (A ∩ I).card := by
    have := Finset.card_sdiff_add_card_inter A I
    omega
  set B : Finset Nat := (Finset.range N).filter fun z => σ z ∈ l'
  have hB : (A ∩ I).card ≤ B.card := by
    calc (A ∩ I).card ≤ (B.image σ).card := by
          refine Finset.card_le_card fun y hy => ?_
          obtain ⟨h1, h2⟩ := Finset.mem_inter.mp hy
          obtain ⟨a, ha, rfl⟩ := Finset.mem_image.mp h2
          exact Finset.mem_image_of_mem _ (Finset.mem_filter.mpr ⟨ha, List.mem_toFinset.mp h1⟩)
      _ ≤ B.card := Finset.card_image_le
  have hxB : x ∉ B := fun hb => hn (Finset.mem_filter.mp hb).2
  have hsub : insert x B ⊆ l.toFinset := by
    intro z hz
    rw [List.mem_toFinset]
    rcases Finset.mem_insert.mp hz with rfl | hz
    · exact hx
    · obtain ⟨hz1, hz2⟩ := Finset.mem_filter.mp hz
      have hzN := Finset.mem_range.mp hz1
      by_contra hzl
      have h1 := h.nearest x hx z hzN hzl
      have h2 := hlt _ hz2
      rw [hd z hzN, hd x hxN] at h2
      exact absurd h1 (not_le.mpr h2)
  have := Finset.card_le_card hsub
  rw [Finset.card_insert_of_notMem hxB, List.toFinset_card_of_nodup h.nodup, h.length] at this
  omega

/-- The neighbours a prediction is made from are the ones the index answers with. -/
theorem regress_answer (bs : Flt → ℝ → ℝ) (R : Regressor) (hk : R.kernel.make = R.kernel)
    (hko : R.gp.kout = KernelObj.kout) (hsuit : R.kernel.fn.Suits R.kernel.deform.metric) (w : NNWrapper) (hw : w.Exact) (Q Y : Tensor ℝ)
    (m : Nat) (len : Fin w.f → ℝ) (hlen : R.kernel.deform.HasLengths w.f len)
    (hQ : Q.shape = [m, w.f]) (hY : Y.shape = [w.N]) (hm : 0 < m) (hk0 : 0 < w.nnCount)
    (hkN : w.nnCount ≤ w.N) (hν : R.gp.noise.Fits m w.nnCount)
    (hreg : R.gp.noise.Suffices m w.nnCount (DistinctRows w.train w.N w.f)) :
    ∃ nn μ v, (∀ i < m, rowList nn w.nnCount i = (w.answer (rowPt Q w.f i) w.nnCount).map Int.ofNat) ∧
      regressAny bs R w Q w.train Y = .ok (μ, v) ∧ v.shape = [m] ∧
      ∀ p < m, v.get [p] = R.gp.boundScale * Spec.krigingVar 1
          (nbrCov bs R.kernel len w.train w.N w.nnCount nn p + R.gp.noise.mat w.nnCount p)
          (nbrCross bs R.kernel len w.train w.N w.nnCount nn p (rowPt Q w.f p)) := by
  obtain ⟨nn, D, h1, h2, h3, -, h5⟩ := regress_cases_nns bs R hk hko w hw Q m len hlen hQ hm hk0 hkN hν
  obtain ⟨I, D', g1, -, -, g4, -⟩ := query_ok w hw Q m w.nnCount hQ hm hk0 hkN
  have hI : I = nn := by
    have : w.getNns Q = w.query Q w.nnCount := rfl
    rw [this, g1] at h1
    injection h1 with h1
    exact congrArg Prod.fst h1
  subst hI
  rcases h5 Y hY with ⟨⟨p, hp, hdet⟩, -⟩ | ⟨-, μ, v, r1, -, r3, r4⟩
  · exfalso
    obtain ⟨l, e1, e2⟩ := h3 p hp
    have hdef := nbrCov_definite bs R.kernel hsuit len (hasLengths_pos hlen) w.train w.N w.nnCount I p
    refine Kriging.det_ne_zero (Noise.posdef_of_suffices
      (hreg.mono fun hd => distinct_of_nodup e1 e2.nodup e2.mem hd) hp hdef.1 hdef.2) hdet
  · exact ⟨I, μ, v, g4, r1, r3, fun p hp => (r4 p hp).2⟩

/-- When the index answers with all of the neighbours it answered with before: with points added and as many more neighbours asked for,
if no two training points are equidistant from a test point, or all training points are neighbours. -/
theorem keeps_of_more (w w' : NNWrapper) (hw : w.Exact) (hw' : w'.Exact) (he : w.Euclidean) (he' : w'.Euclidean) (hf : w'.f = w.f)
    (σ : Nat → Nat) (hσ : w'.Extends w σ) (Q : Tensor ℝ) (m : Nat) (hkN : w.nnCount ≤ w.N) (hkN' : w'.nnCount ≤ w'.N)
    (hcount : w.nnCount + (w'.N - w.N) ≤ w'.nnCount) (hties : w'.NoTies Q m ∨ w'.nnCount = w'.N) : w'.Keeps w σ Q m := by
  obtain ⟨N', f', X', k', dist', sq', ans'⟩ := w'
  simp only at hf
  subst hf
  have hrow : ∀ i < w.N, rowPt X' w.f (σ i) = rowPt w.train w.f i := fun i hi => (hσ.1 i hi).2
  have hrange : ∀ i < w.N, σ i < N' := fun i hi => (hσ.1 i hi).1
  have hinj := hσ.2
  intro p hp
  have e2 := hw.2 (rowPt Q w.f p) w.nnCount hkN
  have e2' := hw'.2 (rowPt Q w.f p) k' hkN'
  simp only at e2'
  show ∀ x ∈ w.answer (rowPt Q w.f p) w.nnCount, σ x ∈ ans' (rowPt Q w.f p) k'
  generalize w.answer (rowPt Q w.f p) w.nnCount = l at e2
  generalize ans' (rowPt Q w.f p) k' = l' at e2'
  rcases hties with hties | hall
  swap
  · intro x hx
    simp only at hall
    have hsub : l'.toFinset = Finset.range N' := by
      refine Finset.eq_of_subset_of_card_le (fun y hy => Finset.mem_range.mpr (e2'.mem y (List.mem_toFinset.mp hy))) ?_
      rw [Finset.card_range, List.toFinset_card_of_nodup e2'.nodup, e2'.length, hall]
    rw [← List.mem_toFinset, hsub]
    exact Finset.mem_range.mpr (hrange x (e2.mem x hx))
  obtain ⟨φ, hφ, hd⟩ := he
  obtain ⟨φ', hφ', hd'⟩ := he'
  simp only at hd' hφ'
  have e3 : Nearest (· < N') (fun j => sqDist (rowPt Q w.f p) (rowPt X' w.f j)) k' l' := by
    refine ⟨e2'.length, e2'.nodup, e2'.mem, e2'.sorted.imp fun {a b} h => ?_, fun i hi j hj hjl => ?_⟩
    · rw [hd', hd'] at h
      exact (hφ'.le_iff_le (sqDist_nonneg _ _) (sqDist_nonneg _ _)).mp h
    · have h := e2'.nearest i hi j hj hjl
      rw [hd', hd'] at h
      exact (hφ'.le_iff_le (sqDist_nonneg _ _) (sqDist_nonneg _ _)).mp h
  have e4 : Nearest (· < w.N) (fun j => sqDist (rowPt Q w.f p) (rowPt w.train w.f j)) w.nnCount l := by
    refine ⟨e2.length, e2.nodup, e2.mem, e2.sorted.imp fun {a b} h => ?_, fun i hi j hj hjl => ?_⟩
    · rw [hd, hd] at h
      exact (hφ.le_iff_le (sqDist_nonneg _ _) (sqDist_nonneg _ _)).mp h
    · have h := e2.nearest i hi j hj hjl
      rw [hd, hd] at h
      exact (hφ.le_iff_le (sqDist_nonneg _ _) (sqDist_nonneg _ _)).mp h
  refine nearest_subset hrange hinj (fun i hi => by rw [hrow i hi]) (fun i hi j hj hij h => ?_) hcount e4 e3
  refine hties p hp i hi j hj hij ?_
  show dist' _ _ = dist' _ _
  rw [hd', hd', h]

/-- Where the old neighbours are among the new ones, when the new ones contain them. -/
theorem nested_positions {N N' k k' : Nat} {d d' : Nat → ℝ} {σ : Nat → Nat} (hinj : ∀ i < N, ∀ j < N, σ i = σ j → i = j) {nn nn' : Tensor Int}
    {p : Nat} {l l' : List Nat} (e1 : rowList nn k p = l.map Int.ofNat) (e1' : rowList nn' k' p = l'.map Int.ofNat)
    (e2 : Nearest (· < N) d k l) (e2' : Nearest (· < N') d' k' l') (hmem : ∀ x ∈ l, σ x ∈ l') :
    ∃ e : Fin k → Fin k', Function.Injective e ∧ ∀ j : Fin k, ∃ x < N, nn.get [p, j] = (x : Int) ∧ nn'.get [p, e j] = (σ x : Int) := by
  have hpos : ∀ j : Fin k, ∃ i : Fin k', ∃ x < N, nn.get [p, j] = (x : Int) ∧ nn'.get [p, i] = (σ x : Int) ∧ l[(j : Nat)]? = some x := by
    intro j
    obtain ⟨x, x1, x2⟩ := rowList_get e1 j.2
    have hxl := List.mem_of_getElem? x1
    obtain ⟨i, hi, hix⟩ := List.getElem_of_mem (hmem x hxl)
    have hik : i < k' := by rw [← e2'.length]; exact hi
    obtain ⟨y, y1, y2⟩ := rowList_get e1' hik
    rw [List.getElem?_eq_getElem hi, hix] at y1
    obtain rfl : σ x = y := Option.some.inj y1
    exact ⟨⟨i, hik⟩, x, e2.mem x hxl, x2, y2, x1⟩
  choose e x hxN hx1 hx2 hx3 using hpos
  refine ⟨e, ?_, fun j => ⟨x j, hxN j, hx1 j, hx2 j⟩⟩
  intro a b hab
  have h1 : (σ (x a) : Int) = (σ (x b) : Int) := by rw [← hx2 a, ← hx2 b, hab]
  have h2 : x a = x b := hinj _ (hxN a) _ (hxN b) (by exact_mod_cast h1)
  have ha := hx3 a
  have hb := hx3 b
  rw [h2] at ha
  obtain ⟨a1, a2⟩ := List.getElem?_eq_some_iff.mp ha
  obtain ⟨b1, b2⟩ := List.getElem?_eq_some_iff.mp hb
  exact Fin.ext ((List.Nodup.getElem_inj_iff e2.nodup).mp (a2.trans b2.symm))

/-- Kriging from more observations, or less noise, is at least as certain. -/
theorem kriging_nested {k k' : Nat} (K' : Matrix (Fin k') (Fin k') ℝ) (c' : Fin k' → ℝ) (e : Fin k → Fin k') (heinj : Function.Injective e)
    {τ τ' : ℝ} (hττ : τ' ≤ τ) (hpd' : (K' + τ' • (1 : Matrix (Fin k') (Fin k') ℝ)).PosDef) :
    Spec.krigingVar 1 (K' + τ' • (1 : Matrix (Fin k') (Fin k') ℝ)) c' ≤
      Spec.krigingVar 1 (K'.submatrix e e + τ • (1 : Matrix (Fin k) (Fin k) ℝ)) (c' ∘ e) := by
  have hpd : (K' + τ • 1).PosDef := by
    have : K' + τ • (1 : Matrix (Fin k') (Fin k') ℝ) = (K' + τ' • 1) + (τ - τ') • 1 := by
      rw [add_assoc, ← add_smul]; congr 2; ring
    rw [this]
    exact Kriging.posdef_add_smul_one hpd' (sub_nonneg.mpr hττ)
  have q1 := Kriging.quad_submatrix hpd e heinj c'
  have q2 := Kriging.quad_antitone hpd' hpd (fun x => by
    rw [Kriging.quad_add_smul_one, Kriging.quad_add_smul_one]
    have : 0 ≤ x ⬝ᵥ x := by
      rw [dotProduct]; exact Finset.sum_nonneg fun i _ => mul_self_nonneg _
    nlinarith) c'
  have hsubm : (K' + τ • (1 : Matrix (Fin k') (Fin k') ℝ)).submatrix e e = K'.submatrix e e + τ • 1 := by
    ext i j
    simp only [submatrix_apply, Matrix.add_apply, Matrix.smul_apply, Matrix.one_apply, heinj.eq_iff]
  unfold Spec.krigingVar
  rw [← hsubm]
  linarith

/-- **C84**: give a model more training points or more neighbours so that at every test point each of its old neighbours is still one of
its neighbours, and lower the noise or leave it: no reported variance increases, whatever the responses. -/
theorem C84_nested (bs : Flt → ℝ → ℝ) (R R' : Regressor) (hker : R'.kernel = R.kernel) (hk : R.kernel.make = R.kernel)
    (hko : R.gp.kout = KernelObj.kout) (hko' : R'.gp.kout = KernelObj.kout) (hsuit : R.kernel.fn.Suits R.kernel.deform.metric)
    (hs : 0 ≤ R.gp.boundScale) (hs' : R'.gp.boundScale = R.gp.boundScale) (τ τ' : ℝ) (hτ : R.gp.noise.Level τ)
    (hτ' : R'.gp.noise.Level τ') (hττ : τ' ≤ τ)
    (w w' : NNWrapper) (hw : w.Exact) (hw' : w'.Exact) (hf : w'.f = w.f) (σ : Nat → Nat)
    (hσ : w'.Extends w σ) (Q Y Y' : Tensor ℝ) (m : Nat) (len : Fin w.f → ℝ) (hlen : R.kernel.deform.HasLengths w.f len)
    (hQ : Q.shape = [m, w.f]) (hY : Y.shape = [w.N]) (hY' : Y'.shape = [w'.N]) (hm : 0 < m) (hk0 : 0 < w.nnCount)
    (hkN : w.nnCount ≤ w.N) (hk0' : 0 < w'.nnCount) (hkN' : w'.nnCount ≤ w'.N)
    (hreg : 0 < τ' ∨ (0 ≤ τ' ∧ DistinctRows w'.train w'.N w.f)) (hkeeps : w'.Keeps w σ Q m) :
    ∃ μ v μ' v', regressAny bs R w Q w.train Y = .ok (μ, v) ∧ regressAny bs R' w' Q w'.train Y' = .ok (μ', v') ∧
      v.shape = [m] ∧ v'.shape = [m] ∧ ∀ p < m, v'.get [p] ≤ v.get [p] := by
  obtain ⟨N', f', X', k', dist', sq', ans'⟩ := w'
  simp only at hf
  subst hf
  have hrow : ∀ i < w.N, rowPt X' w.f (σ i) = rowPt w.train w.f i := fun i hi => (hσ.1 i hi).2
  have hrange : ∀ i < w.N, σ i < N' := fun i hi => (hσ.1 i hi).1
  have hinj := hσ.2
  have hreg0 : 0 < τ ∨ (0 ≤ τ ∧ DistinctRows w.train w.N w.f) := by
    rcases hreg with h | ⟨h, hd⟩
    · exact .inl (lt_of_lt_of_le h hττ)
    · refine .inr ⟨h.trans hττ, fun i hi j hj hij => ?_⟩
      obtain ⟨c, hc, h1⟩ := hd (σ i) (hrange i hi) (σ j) (hrange j hj) fun e => hij (hinj i hi j hj e)
      refine ⟨c, hc, fun h => h1 ?_⟩
      have e1 := congrFun (hrow i hi) ⟨c, hc⟩
      have e2 := congrFun (hrow j hj) ⟨c, hc⟩
      rw [← rowPt_pt hw.1, ← rowPt_pt hw'.1] at e1 e2
      exact e1.trans (h.trans e2.symm)
  obtain ⟨nn, μ, v, h1, h2, h4, h5⟩ := regress_answer bs R hk hko hsuit w hw Q Y m len hlen hQ hY hm hk0 hkN (hτ.fits _ _)
    ((hτ.suffices_iff _ _ _).mpr hreg0)
  obtain ⟨nn', μ', v', g1, g2, g4, g5⟩ := regress_answer bs R' (by rw [hker]; exact hk) hko' (by rw [hker]; exact hsuit)
    ⟨N', w.f, X', k', dist', sq', ans'⟩ hw' Q Y' m len (by rw [hker]; exact hlen) hQ hY' hm
    hk0' hkN' (hτ'.fits _ _) ((hτ'.suffices_iff _ _ _).mpr hreg)
  refine ⟨μ, v, μ', v', h2, g2, h4, g4, fun p hp => ?_⟩
  have b2 := h5 p hp
  have a2 := g5 p hp
  simp only at a2
  rw [a2, b2, hs', hker, hτ.mat, hτ'.mat]
  refine mul_le_mul_of_nonneg_left ?_ hs
  obtain ⟨e, heinj, hx⟩ := nested_positions hinj (h1 p hp) (g1 p hp) (hw.2 (rowPt Q w.f p) w.nnCount hkN) (hw'.2 (rowPt Q w.f p) k' hkN') (hkeeps p hp)
  choose x hxN hx1 hx2 using hx
  set K' := nbrCov bs R.kernel len X' N' k' nn' p
  set c' := nbrCross bs R.kernel len X' N' k' nn' p (rowPt Q w.f p)
  have hX : X'.shape = [N', w.f] := hw'.1
  have hK : nbrCov bs R.kernel len w.train w.N w.nnCount nn p = K'.submatrix e e := by
    ext i j
    show nbrCov bs R.kernel len w.train w.N w.nnCount nn p i j = nbrCov bs R.kernel len X' N' k' nn' p (e i) (e j)
    unfold nbrCov
    rw [hx1, hx1, hx2, hx2, pointOf_nat, pointOf_nat, pointOf_nat, pointOf_nat, rowPt_pt hw.1, rowPt_pt hw.1, rowPt_pt hX, rowPt_pt hX,
      hrow _ (hxN i), hrow _ (hxN j)]
  have hc : nbrCross bs R.kernel len w.train w.N w.nnCount nn p (rowPt Q w.f p) = c' ∘ e := by
    funext j
    show nbrCross bs R.kernel len w.train w.N w.nnCount nn p (rowPt Q w.f p) j = nbrCross bs R.kernel len X' N' k' nn' p (rowPt Q w.f p) (e j)
    unfold nbrCross
    rw [hx1, hx2, pointOf_nat, pointOf_nat, rowPt_pt hw.1, rowPt_pt hX, hrow _ (hxN j)]
  have hlpos := hasLengths_pos hlen
  have hdef' := nbrCov_definite bs R.kernel hsuit len hlpos X' N' k' nn' p
  have hpd' : (K' + τ' • 1).PosDef := by
    rcases hreg with h | ⟨h, hd⟩
    · exact Kriging.posdef_of_psd_add hdef'.1 h
    · exact Kriging.posdef_add_smul_one (hdef'.2 (distinct_of_nodup (g1 p hp) (hw'.2 _ k' hkN').nodup (hw'.2 _ k' hkN').mem hd)) h
  rw [hK, hc]
  exact kriging_nested K' c' e heinj hττ hpd'

/-- **C84**: give a model `r` more training points, let it use `r` more neighbours (or more), and lower the noise or leave it: no
reported variance increases. In particular (`r = 0`) with more neighbours or less noise.
No two training points may be equidistant from a test point (`C84_ties_fails`), unless all training points are neighbours. -/
theorem C84_more_information_partial (bs : Flt → ℝ → ℝ) (R R' : Regressor) (hker : R'.kernel = R.kernel) (hk : R.kernel.make = R.kernel)
    (hko : R.gp.kout = KernelObj.kout) (hko' : R'.gp.kout = KernelObj.kout) (hsuit : R.kernel.fn.Suits R.kernel.deform.metric)
    (hs : 0 ≤ R.gp.boundScale) (hs' : R'.gp.boundScale = R.gp.boundScale) (τ τ' : ℝ) (hτ : R.gp.noise.Level τ)
    (hτ' : R'.gp.noise.Level τ') (hττ : τ' ≤ τ)
    (w w' : NNWrapper) (hw : w.Exact) (hw' : w'.Exact) (he : w.Euclidean) (he' : w'.Euclidean) (hf : w'.f = w.f) (σ : Nat → Nat)
    (hσ : w'.Extends w σ) (Q Y Y' : Tensor ℝ) (m : Nat) (len : Fin w.f → ℝ) (hlen : R.kernel.deform.HasLengths w.f len)
    (hQ : Q.shape = [m, w.f]) (hY : Y.shape = [w.N]) (hY' : Y'.shape = [w'.N]) (hm : 0 < m) (hk0 : 0 < w.nnCount)
    (hkN : w.nnCount ≤ w.N) (hkN' : w'.nnCount ≤ w'.N) (hcount : w.nnCount + (w'.N - w.N) ≤ w'.nnCount)
    (hreg : 0 < τ' ∨ (0 ≤ τ' ∧ DistinctRows w'.train w'.N w.f)) (hties : w'.NoTies Q m ∨ w'.nnCount = w'.N) :
    ∃ μ v μ' v', regressAny bs R w Q w.train Y = .ok (μ, v) ∧ regressAny bs R' w' Q w'.train Y' = .ok (μ', v') ∧
      v.shape = [m] ∧ v'.shape = [m] ∧ ∀ p < m, v'.get [p] ≤ v.get [p] := by
  exact C84_nested bs R R' hker hk hko hko' hsuit hs hs' τ τ' hτ hτ' hττ w w' hw hw' hf σ hσ Q Y Y' m len hlen hQ hY hY' hm hk0 hkN
    (by omega) hkN' hreg (keeps_of_more w w' hw hw' he he' hf σ hσ Q m hkN hkN' hcount hties)

end MuyGPyS
