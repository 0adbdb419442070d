import Verif.Spec.Invariance
import Verif.Props.PipelineAlways

/-! # C66: predictions do not depend on how the data is presented -/

namespace MuyGPyS
open Py Matrix

/-- Without ties the nearest points are unique. -/
theorem nearest_unique {S : Nat → Prop} {d : Nat → ℝ} (hd : ∀ i j, S i → S j → i ≠ j → d i ≠ d j) {k : Nat} {l l' : List Nat}
    (h : Nearest S d k l) (h' : Nearest S d k l') : l = l' := by
  have hsub : ∀ {l l' : List Nat}, Nearest S d k l → Nearest S d k l' → l ⊆ l' := by
    intro l l' h h' x hx
    by_contra hn
    -- some point of `l'` is not in `l`
    have : ∃ y ∈ l', y ∉ l := by
      by_contra hall
      push Not at hall
      have h1 : l' ⊆ l := hall
      have hp : l'.Perm l := (h'.nodup.subperm h1).perm_of_length_le (by rw [h.length, h'.length])
      exact hn (hp.mem_iff.mpr hx)
    obtain ⟨y, hy, hyl⟩ := this
    have h1 := h.nearest x hx y (h'.mem y hy) hyl
    have h2 := h'.nearest y hy x (h.mem x hx) hn
    exact hd x y (h.mem x hx) (h'.mem y hy) (fun e => hyl (e ▸ hx)) (le_antisymm h1 h2)
  have hp : l.Perm l' := (h.nodup.subperm (hsub h h')).perm_of_length_le (by rw [h.length, h'.length])
  refine hp.eq_of_pairwise (le := fun a b => d a ≤ d b) ?_ h.sorted h'.sorted
  intro a b ha hb hab hba
  by_contra hne
  exact hd a b (h.mem a ha) (h'.mem b hb) hne (le_antisymm hab hba)

/-- Nearest points in renumbered data. -/
theorem nearest_map {N k : Nat} {d d' : Nat → ℝ} {σ : Nat → Nat} (hσ : Permutes σ N)
    (hd : ∀ i < N, ∀ j < N, d' i ≤ d' j ↔ d (σ i) ≤ d (σ j)) {l : List Nat} (h : Nearest (· < N) d' k l) :
    Nearest (· < N) d k (l.map σ) := by
  have hsurj : ∀ j < N, ∃ i < N, σ i = j := by
    intro j hj
    have hinj : Function.Injective (fun i : Fin N => (⟨σ i, hσ.1 i i.2⟩ : Fin N)) := by
      intro a b hab
      exact Fin.ext (hσ.2 a a.2 b b.2 (Fin.mk.inj hab))
    obtain ⟨i, hi⟩ := (Finite.injective_iff_surjective.mp hinj) ⟨j, hj⟩
    exact ⟨i, i.2, congrArg Fin.val hi⟩
  refine ⟨by rw [List.length_map, h.length], ?_, ?_, ?_, ?_⟩
  · exact List.Nodup.map_on (fun x hx y hy e => hσ.2 x (h.mem x hx) y (h.mem y hy) e) h.nodup
  · intro i hi
    obtain ⟨x, hx, rfl⟩ := List.mem_map.mp hi
    exact hσ.1 x (h.mem x hx)
  · rw [List.pairwise_map]
    exact h.sorted.imp_of_mem fun {a b} ha hb hab => (hd a (h.mem a ha) b (h.mem b hb)).mp hab
  · intro i hi j hj hjl
    obtain ⟨x, hx, rfl⟩ := List.mem_map.mp hi
    obtain ⟨y, hy, rfl⟩ := hsurj j hj
    exact (hd x (h.mem x hx) y hy).mp (h.nearest x hx y hy fun hyl => hjl (List.mem_map_of_mem hyl))

/-- The general transport theorem: two training sets whose points correspond by `σ`, two test sets whose points correspond by `τ`,
with equal correlations and the same order of distances. -/
theorem regress_transport (bs : Flt → ℝ → ℝ) (R R' : Regressor) (hk : R.kernel.make = R.kernel) (hk' : R'.kernel.make = R'.kernel)
    (hko : R.gp.kout = KernelObj.kout) (hgp : R'.gp = R.gp) (hsuit : R.kernel.fn.Suits R.kernel.deform.metric)
    (w w' : NNWrapper) (hw : w.Exact) (hw' : w'.Exact) (hN : w'.N = w.N) (hn : w'.nnCount = w.nnCount)
    (Q Q' Y Y' : Tensor ℝ) (m m' : Nat) (len : Fin w.f → ℝ) (len' : Fin w'.f → ℝ) (hlen : R.kernel.deform.HasLengths w.f len)
    (hlen' : R'.kernel.deform.HasLengths w'.f len') (hQ : Q.shape = [m, w.f]) (hQ' : Q'.shape = [m', w'.f])
    (hY : Y.shape = [w.N]) (hY' : Y'.shape = [w.N]) (hm : 0 < m) (hm' : 0 < m') (hk0 : 0 < w.nnCount) (hkN : w.nnCount ≤ w.N)
    (hν : ∀ b, R.gp.noise.Fits b w.nnCount) (hreg : R.gp.noise.Suffices m w.nnCount (DistinctRows w.train w.N w.f))
    (σ τ : Nat → Nat) (hσ : Permutes σ w.N) (hτ : ∀ q < m', τ q < m) (hties : w.NoTies Q m)
    (htar : ∀ i < w.N, Y'.get [i] = Y.get [σ i])
    (hdist : ∀ q < m', ∀ i < w.N, ∀ j < w.N,
      w'.dist (rowPt Q' w'.f q) (rowPt w'.train w'.f i) ≤ w'.dist (rowPt Q' w'.f q) (rowPt w'.train w'.f j) ↔
      w.dist (rowPt Q w.f (τ q)) (rowPt w.train w.f (σ i)) ≤ w.dist (rowPt Q w.f (τ q)) (rowPt w.train w.f (σ j)))
    (hcov : ∀ i < w.N, ∀ j < w.N, R'.kernel.covFn bs len' (rowPt w'.train w'.f i) (rowPt w'.train w'.f j) =
      R.kernel.covFn bs len (rowPt w.train w.f (σ i)) (rowPt w.train w.f (σ j)))
    (hcross : ∀ q < m', ∀ i < w.N, R'.kernel.covFn bs len' (rowPt Q' w'.f q) (rowPt w'.train w'.f i) =
      R.kernel.covFn bs len (rowPt Q w.f (τ q)) (rowPt w.train w.f (σ i))) :
    ∃ μ v μ' v', regressAny bs R w Q w.train Y = .ok (μ, v) ∧ regressAny bs R' w' Q' w'.train Y' = .ok (μ', v') ∧
      μ.shape = [m] ∧ v.shape = [m] ∧ μ'.shape = [m'] ∧ v'.shape = [m'] ∧
      ∀ q < m', μ'.get [q] = μ.get [τ q] ∧ v'.get [q] = v.get [τ q] := by
  obtain ⟨N', f', X', k', dist', sq', ans'⟩ := w'
  simp only at hN hn
  subst hN hn
  obtain ⟨nn, μ, v, h1, h2, h3, h4, h5⟩ := C54_regress_always bs R hk hko hsuit w hw Q Y m len hlen hQ hY hm hk0 hkN (hν m) hreg
  obtain ⟨nn', g1, g2⟩ := C54_regress_any bs R' hk' (by rw [hgp]; exact hko) _ hw' Q' Y' m' len' hlen' hQ' hY' hm' hk0 hkN
    (by rw [hgp]; exact hν m')
  have hidx : ∀ q < m', ∀ j : Fin w.nnCount, ∃ x < w.N, nn'.get [q, j] = (x : Int) ∧ nn.get [τ q, j] = (σ x : Int) := by
    intro q hq j
    obtain ⟨l, e1, e2⟩ := h1 (τ q) (hτ q hq)
    obtain ⟨l', e1', e2'⟩ := g1 q hq
    have e3 := nearest_map (d := fun j => w.dist (rowPt Q w.f (τ q)) (rowPt w.train w.f j)) hσ (hdist q hq) e2'
    have e4 := nearest_unique (fun i j hi hj hij => hties (τ q) (hτ q hq) i hi j hj hij) e2 e3
    obtain ⟨x, x1, x2⟩ := rowList_get e1 j.2
    obtain ⟨y, y1, y2⟩ := rowList_get e1' j.2
    rw [e4, List.getElem?_map, y1] at x1
    obtain rfl : σ y = x := Option.some.inj x1
    exact ⟨y, e2'.mem y (List.mem_of_getElem? y1), y2, x2⟩
  have hcovEq : ∀ q < m', nbrCov bs R'.kernel len' X' w.N w.nnCount nn' q = nbrCov bs R.kernel len w.train w.N w.nnCount nn (τ q) := by
    intro q hq
    ext i j
    obtain ⟨x, hx, x1, x2⟩ := hidx q hq i
    obtain ⟨y, hy, y1, y2⟩ := hidx q hq j
    unfold nbrCov
    rw [x1, x2, y1, y2, pointOf_nat, pointOf_nat, pointOf_nat, pointOf_nat, rowPt_pt hw.1, rowPt_pt hw.1, rowPt_pt hw'.1, rowPt_pt hw'.1]
    exact hcov x hx y hy
  have hcrossEq : ∀ q < m', nbrCross bs R'.kernel len' X' w.N w.nnCount nn' q (rowPt Q' f' q) =
      nbrCross bs R.kernel len w.train w.N w.nnCount nn (τ q) (rowPt Q w.f (τ q)) := by
    intro q hq
    funext j
    obtain ⟨y, hy, y1, y2⟩ := hidx q hq j
    unfold nbrCross
    rw [y1, y2, pointOf_nat, pointOf_nat, rowPt_pt hw.1, rowPt_pt hw'.1]
    exact hcross q hq y hy
  have htarEq : ∀ q < m', nbrTargets Y' w.N w.nnCount nn' q 0 = nbrTargets Y w.N w.nnCount nn (τ q) 0 := by
    intro q hq
    funext j
    obtain ⟨y, hy, y1, y2⟩ := hidx q hq j
    unfold nbrTargets
    rw [y1, y2, pointOf_nat, pointOf_nat]
    unfold feature
    rw [hY, hY']
    exact htar y hy
  have hreg' : ∀ p < m, (nbrCov bs R.kernel len w.train w.N w.nnCount nn p + R.gp.noise.mat w.nnCount p).det ≠ 0 := by
    intro p hp
    obtain ⟨l, e1, e2⟩ := h1 p hp
    have hdef := nbrCov_definite bs R.kernel hsuit len (hasLengths_pos hlen) w.train w.N w.nnCount nn p
    exact Kriging.det_ne_zero (Noise.posdef_of_suffices (hreg.mono fun hd => distinct_of_nodup e1 e2.nodup e2.mem hd) hp hdef.1 hdef.2)
  have hmat : ∀ q, R'.gp.noise.mat w.nnCount q = R.gp.noise.mat w.nnCount (τ q) := by
    intro q
    rw [hgp]
    exact Noise.mat_indep hν _ _
  obtain ⟨μ', v', r1, r2, r3, r4⟩ := g2 fun q hq => by
    show (nbrCov bs R'.kernel len' X' w.N w.nnCount nn' q + R'.gp.noise.mat w.nnCount q).det ≠ 0
    rw [hcovEq q hq, hmat]
    exact hreg' _ (hτ q hq)
  refine ⟨μ, v, μ', v', h2, r1, h3, h4, r2, r3, fun q hq => ?_⟩
  obtain ⟨a1, a2⟩ := r4 q hq
  obtain ⟨b1, b2, -⟩ := h5 (τ q) (hτ q hq)
  simp only at a1 a2
  rw [hcovEq q hq, hmat, hcrossEq q hq] at a1 a2
  rw [htarEq q hq] at a1
  rw [a1, a2, b1, b2, hgp]
  exact ⟨rfl, rfl⟩

theorem distOf_sq (M : Metric) {f f' : Nat} (x y : Fin f → ℝ) (x' y' : Fin f' → ℝ) (h : sqDist x' y' = sqDist x y) :
    distOf M x' y' = distOf M x y := by
  cases M with
  | F2 => rw [distOf_F2, distOf_F2]; exact h
  | l2 => rw [distOf_l2_sqrt, distOf_l2_sqrt]; exact congrArg Real.sqrt h

theorem cov_same {bs : Flt → ℝ → ℝ} {k k' : KernelObj} (h : k.SameBut k') {f f' : Nat} {len : Fin f → ℝ} {len' : Fin f' → ℝ}
    {x y : Fin f → ℝ} {x' y' : Fin f' → ℝ}
    (hd : sqDist (fun c => x' c / len' c) (fun c => y' c / len' c) = sqDist (fun c => x c / len c) (fun c => y c / len c)) :
    k'.covFn bs len' x' y' = k.covFn bs len x y := by
  unfold KernelObj.covFn
  rw [h.1, h.2.1, h.2.2, distOf_sq _ _ _ _ _ hd]

theorem sqDist_nonneg {f : Nat} (x y : Fin f → ℝ) : 0 ≤ sqDist x y := Finset.sum_nonneg fun _ _ => sq_nonneg _

/-- The order of the distances in similar configurations. -/
theorem order_similar {w w' : NNWrapper} (hw : w.Euclidean) (hw' : w'.Euclidean) {a : ℝ} (ha : 0 < a) {x y z : Fin w.f → ℝ}
    {x' y' z' : Fin w'.f → ℝ} (h1 : sqDist x' y' = a ^ 2 * sqDist x y) (h2 : sqDist x' z' = a ^ 2 * sqDist x z) :
    w'.dist x' y' ≤ w'.dist x' z' ↔ w.dist x y ≤ w.dist x z := by
  obtain ⟨φ, hφ, hd⟩ := hw
  obtain ⟨φ', hφ', hd'⟩ := hw'
  rw [hd, hd, hd', hd', hφ.le_iff_le (sqDist_nonneg _ _) (sqDist_nonneg _ _), hφ'.le_iff_le (sqDist_nonneg _ _) (sqDist_nonneg _ _),
    h1, h2]
  exact mul_le_mul_iff_right₀ (by positivity)

theorem sqDist_div {f : Nat} (x y : Fin f → ℝ) {l : ℝ} {len : Fin f → ℝ} (h : ∀ c, len c = l) :
    sqDist (fun c => x c / len c) (fun c => y c / len c) = sqDist x y / l ^ 2 := by
  unfold sqDist
  rw [Finset.sum_div]
  refine Finset.sum_congr rfl fun c _ => ?_
  simp only
  rw [h, ← sub_div, div_pow]

theorem make_same {k k' : KernelObj} (h : k.SameBut k') (hk : k.make = k) : k'.make = k' := by
  obtain ⟨d, s, fn⟩ := k
  obtain ⟨d', s', fn'⟩ := k'
  obtain ⟨h1, h2, -⟩ := h
  simp only at h1 h2
  subst h1 h2
  have h3 := congrArg KernelObj.fn hk
  unfold KernelObj.make at h3 ⊢
  simp only at h3 ⊢
  rw [h3]

/-- **C66**, models with one length scale: renumber the training points (`σ`) and the test points (`τ`), move and scale the
configuration in any way that multiplies all Euclidean distances by `a` — translations, rotations, reflections, exchanged or added
constant columns, a change of units — and multiply the length scale by `a`: every prediction and every variance stays what it was. -/
theorem C66_similar (bs : Flt → ℝ → ℝ) (R R' : Regressor) (hk : R.kernel.make = R.kernel) (hko : R.gp.kout = KernelObj.kout)
    (hsame : R.kernel.SameBut R'.kernel) (hgp : R'.gp = R.gp) (hsuit : R.kernel.fn.Suits R.kernel.deform.metric)
    (w w' : NNWrapper) (hw : w.Exact) (hw' : w'.Exact) (he : w.Euclidean) (he' : w'.Euclidean) (hN : w'.N = w.N)
    (hn : w'.nnCount = w.nnCount) (Q Q' Y Y' : Tensor ℝ) (m m' : Nat) (a l : ℝ) (ha : 0 < a)
    (hlen : R.kernel.deform.HasLengths w.f fun _ => l) (hlen' : R'.kernel.deform.HasLengths w'.f fun _ => a * l)
    (hQ : Q.shape = [m, w.f]) (hQ' : Q'.shape = [m', w'.f]) (hY : Y.shape = [w.N]) (hY' : Y'.shape = [w.N]) (hm : 0 < m) (hm' : 0 < m')
    (hk0 : 0 < w.nnCount) (hkN : w.nnCount ≤ w.N) (hν : ∀ b, R.gp.noise.Fits b w.nnCount)
    (hreg : R.gp.noise.Suffices m w.nnCount (DistinctRows w.train w.N w.f))
    (σ τ : Nat → Nat) (hσ : Permutes σ w.N) (hτ : ∀ q < m', τ q < m) (hties : w.NoTies Q m)
    (htar : ∀ i < w.N, Y'.get [i] = Y.get [σ i])
    (htrain : ∀ i < w.N, ∀ j < w.N, sqDist (rowPt w'.train w'.f i) (rowPt w'.train w'.f j) =
      a ^ 2 * sqDist (rowPt w.train w.f (σ i)) (rowPt w.train w.f (σ j)))
    (htest : ∀ q < m', ∀ i < w.N, sqDist (rowPt Q' w'.f q) (rowPt w'.train w'.f i) =
      a ^ 2 * sqDist (rowPt Q w.f (τ q)) (rowPt w.train w.f (σ i))) :
    ∃ μ v μ' v', regressAny bs R w Q w.train Y = .ok (μ, v) ∧ regressAny bs R' w' Q' w'.train Y' = .ok (μ', v') ∧
      μ.shape = [m] ∧ v.shape = [m] ∧ μ'.shape = [m'] ∧ v'.shape = [m'] ∧
      ∀ q < m', μ'.get [q] = μ.get [τ q] ∧ v'.get [q] = v.get [τ q] := by
  have hscaled : ∀ {x y : Fin w.f → ℝ} {x' y' : Fin w'.f → ℝ}, sqDist x' y' = a ^ 2 * sqDist x y →
      sqDist (fun c => x' c / (a * l)) (fun c => y' c / (a * l)) = sqDist (fun c => x c / l) (fun c => y c / l) := by
    intro x y x' y' h
    have h1 := sqDist_div (len := fun _ => a * l) x' y' (fun _ => rfl)
    have h2 := sqDist_div (len := fun _ => l) x y (fun _ => rfl)
    rw [h1, h2, h, mul_pow]
    rw [mul_div_mul_left _ _ (by positivity)]
  exact regress_transport bs R R' hk (make_same hsame hk) hko hgp hsuit w w' hw hw' hN hn Q Q' Y Y' m m' _ _ hlen hlen' hQ hQ' hY hY'
    hm hm' hk0 hkN hν hreg σ τ hσ hτ hties htar (fun q hq i hi j hj => order_similar he he' ha (htest q hq i hi) (htest q hq j hj))
    (fun i hi j hj => cov_same hsame (hscaled (htrain i hi j hj))) (fun q hq i hi => cov_same hsame (hscaled (htest q hq i hi)))

/-- **C66**, models with any length scales: renumber the training and test points, exchange the feature columns (with their length
scales), shift every feature by a constant and change the common unit (with the length scales): every prediction and every variance
stays what it was. -/
theorem C66_affine (bs : Flt → ℝ → ℝ) (R R' : Regressor) (hk : R.kernel.make = R.kernel) (hko : R.gp.kout = KernelObj.kout)
    (hsame : R.kernel.SameBut R'.kernel) (hgp : R'.gp = R.gp) (hsuit : R.kernel.fn.Suits R.kernel.deform.metric)
    (w w' : NNWrapper) (hw : w.Exact) (hw' : w'.Exact) (he : w.Euclidean) (he' : w'.Euclidean) (hN : w'.N = w.N)
    (hn : w'.nnCount = w.nnCount) (Q Q' Y Y' : Tensor ℝ) (m m' : Nat) (len : Fin w.f → ℝ) (a : ℝ) (ha : 0 < a)
    (ρ : Fin w'.f ≃ Fin w.f) (t : Fin w'.f → ℝ)
    (hlen : R.kernel.deform.HasLengths w.f len) (hlen' : R'.kernel.deform.HasLengths w'.f fun c => a * len (ρ c))
    (hQ : Q.shape = [m, w.f]) (hQ' : Q'.shape = [m', w'.f]) (hY : Y.shape = [w.N]) (hY' : Y'.shape = [w.N]) (hm : 0 < m) (hm' : 0 < m')
    (hk0 : 0 < w.nnCount) (hkN : w.nnCount ≤ w.N) (hν : ∀ b, R.gp.noise.Fits b w.nnCount)
    (hreg : R.gp.noise.Suffices m w.nnCount (DistinctRows w.train w.N w.f))
    (σ τ : Nat → Nat) (hσ : Permutes σ w.N) (hτ : ∀ q < m', τ q < m) (hties : w.NoTies Q m)
    (htar : ∀ i < w.N, Y'.get [i] = Y.get [σ i])
    (htrain : ∀ i < w.N, ∀ c : Fin w'.f, w'.train.get [i, c] = a * w.train.get [σ i, ρ c] + t c)
    (htest : ∀ q < m', ∀ c : Fin w'.f, Q'.get [q, c] = a * Q.get [τ q, ρ c] + t c) :
    ∃ μ v μ' v', regressAny bs R w Q w.train Y = .ok (μ, v) ∧ regressAny bs R' w' Q' w'.train Y' = .ok (μ', v') ∧
      μ.shape = [m] ∧ v.shape = [m] ∧ μ'.shape = [m'] ∧ v'.shape = [m'] ∧
      ∀ q < m', μ'.get [q] = μ.get [τ q] ∧ v'.get [q] = v.get [τ q] := by
  have hplain : ∀ {x y : Fin w.f → ℝ} {x' y' : Fin w'.f → ℝ}, (∀ c, x' c = a * x (ρ c) + t c) → (∀ c, y' c = a * y (ρ c) + t c) →
      sqDist x' y' = a ^ 2 * sqDist x y := by
    intro x y x' y' hx hy
    unfold sqDist
    rw [Finset.mul_sum, ← Equiv.sum_comp ρ]
    refine Finset.sum_congr rfl fun c _ => ?_
    rw [hx, hy]; ring
  have hscaled : ∀ {x y : Fin w.f → ℝ} {x' y' : Fin w'.f → ℝ}, (∀ c, x' c = a * x (ρ c) + t c) → (∀ c, y' c = a * y (ρ c) + t c) →
      sqDist (fun c => x' c / (a * len (ρ c))) (fun c => y' c / (a * len (ρ c))) = sqDist (fun c => x c / len c) (fun c => y c / len c) := by
    intro x y x' y' hx hy
    unfold sqDist
    conv_rhs => rw [← Equiv.sum_comp ρ]
    refine Finset.sum_congr rfl fun c _ => ?_
    simp only
    rw [hx, hy, ← sub_div, ← sub_div, add_sub_add_right_eq_sub, ← mul_sub, mul_div_mul_left _ _ ha.ne']
  exact regress_transport bs R R' hk (make_same hsame hk) hko hgp hsuit w w' hw hw' hN hn Q Q' Y Y' m m' _ _ hlen hlen' hQ hQ' hY hY'
    hm hm' hk0 hkN hν hreg σ τ hσ hτ hties htar
    (fun q hq i hi j hj => order_similar he he' ha (hplain (htest q hq) (htrain i hi)) (hplain (htest q hq) (htrain j hj)))
    (fun i hi j hj => cov_same hsame (hscaled (htrain i hi) (htrain j hj)))
    (fun q hq i hi => cov_same hsame (hscaled (htest q hq) (htrain i hi)))

end MuyGPyS
