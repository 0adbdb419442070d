import Verif.Props.Continuity
import Verif.Spec.Rounding

/-!
# C113: rounding the data changes predictions only a little
-/

namespace MuyGPyS
open Py Matrix Topology
open Filter (Tendsto Eventually)

/-- Kriging is continuous in the covariances, the cross-covariances and the responses where the system is solvable. -/
theorem kriging_continuousAt {D : Type} [TopologicalSpace D] {n : Nat} {A : D → Matrix (Fin n) (Fin n) ℝ} {k y : D → Fin n → ℝ} {d : D}
    (hA : ContinuousAt A d) (hk : ContinuousAt k d) (hy : ContinuousAt y d) (hdet : (A d).det ≠ 0) :
    ContinuousAt (fun d => Spec.krigingMean (A d) (k d) (y d)) d ∧ ContinuousAt (fun d => Spec.krigingVar 1 (A d) (k d)) d := by
  have hinv : ContinuousAt (fun d => (A d)⁻¹) d := by
    refine ContinuousAt.comp (g := Inv.inv) (continuousAt_matrix_inv _ ?_) hA
    rw [Ring.inverse_eq_inv']
    exact continuousAt_inv₀ hdet
  have hent : ∀ i j, ContinuousAt (fun d => (A d)⁻¹ i j) d := fun i j =>
    continuousAt_pi.mp (continuousAt_pi.mp hinv i) j
  have hke : ∀ i, ContinuousAt (fun d => k d i) d := continuousAt_pi.mp hk
  have hye : ∀ i, ContinuousAt (fun d => y d i) d := continuousAt_pi.mp hy
  constructor
  · show ContinuousAt (fun d => ∑ i, k d i * ∑ j, (A d)⁻¹ i j * y d j) d
    exact tendsto_finsetSum _ fun i _ => (hke i).mul (tendsto_finsetSum _ fun j _ => (hent i j).mul (hye j))
  · show ContinuousAt (fun d => 1 - ∑ i, k d i * ∑ j, (A d)⁻¹ i j * k d j) d
    exact continuousAt_const.sub
      (tendsto_finsetSum _ fun i _ => (hke i).mul (tendsto_finsetSum _ fun j _ => (hent i j).mul (hke j)))

/-- Covariances are continuous in both points; those of the general Matérn kernel where the points differ, and of a point with
itself. -/
theorem covFn_continuousAt₂ (k : KernelObj) (hp : k.Proper) {f : Nat} (len : Fin f → ℝ) (hlen : ∀ c, 0 < len c) {D : Type}
    [TopologicalSpace D] {x y : D → Fin f → ℝ} (hx : Continuous x) (hy : Continuous y) (d : D)
    (hq : k.fn = .gen → k.deform.metric = .l2 ∧ (x d ≠ y d ∨ x = y)) :
    ContinuousAt (fun d => k.covFn maternGen len (x d) (y d)) d := by
  have hdist : Continuous fun d => distOf k.deform.metric (fun c => x d c / len c) (fun c => y d c / len c) := by
    cases k.deform.metric with
    | F2 => simp only [distOf_F2]; fun_prop
    | l2 => simp only [distOf_l2_sqrt]; fun_prop
  by_cases hgen : k.fn = .gen
  · obtain ⟨h1, h2⟩ := hq hgen
    rcases h2 with h2 | rfl
    · refine Filter.Tendsto.comp (value_continuousAt k hp fun _ => ?_) (hdist.continuousAt (x := d))
      rw [h1]
      obtain ⟨-, m2, m3, -⟩ := C17_metrics (fun c => x d c / len c) (fun c => y d c / len c) (fun c => y d c / len c)
      refine lt_of_le_of_ne m2 fun h0 => h2 ?_
      have := m3.mp h0.symm
      funext c
      exact (div_left_inj' (hlen c).ne').mp (congrFun this c)
    · have : (fun d => k.covFn maternGen len (x d) (x d)) = fun _ => k.covFn maternGen len (x d) (x d) := by
        funext e
        unfold KernelObj.covFn
        rw [h1]
        have hz : ∀ z : Fin f → ℝ, distOf .l2 z z = 0 := fun z => by rw [distOf_l2_sqrt]; simp
        rw [hz, hz]
      rw [this]
      exact continuousAt_const
  · exact Filter.Tendsto.comp (value_continuousAt k hp fun h => absurd h hgen) (hdist.continuousAt (x := d))

/-- All data of a run: training features, responses, test features. -/
abbrev AllData (N f m : Nat) := (Fin N → Fin f → ℝ) × (Fin N → ℝ) × (Fin m → Fin f → ℝ)

/-- **C113**: predictions are stable under rounding of everything that is stored. At test points whose nearest training points are
unambiguous (and, for the general Matérn implementation, with distinct points), a table of predictions that can be computed can still
be computed after every training feature, every response and every test feature has been changed by a small enough amount — whatever
the new nearest-neighbour index is — and its means and variances change by as little as desired. Partial: see `C113_tie_fails`,
`C113_matern_fails`. -/
theorem C113_rounding_partial (R : Regressor) (hk : R.kernel.make = R.kernel) (hko : R.gp.kout = KernelObj.kout) (hp : R.kernel.Proper)
    (w : NNWrapper) (hw : w.Exact) (heuc : w.Euclidean) (Q Y μ v : Tensor ℝ) (m : Nat) (len : Fin w.f → ℝ)
    (hlen : R.kernel.deform.HasLengths w.f len) (hQ : Q.shape = [m, w.f]) (hY : Y.shape = [w.N]) (hm : 0 < m) (hk0 : 0 < w.nnCount)
    (hkN : w.nnCount ≤ w.N) (hν : ∀ b, R.gp.noise.Fits b w.nnCount) (S : Nat → Finset Nat)
    (hS : ∀ p < m, w.ClearAt (rowPt Q w.f p) (S p))
    (hgen : R.kernel.fn = .gen → R.kernel.deform.metric = .l2 ∧
      (∀ i < w.N, ∀ j < w.N, i ≠ j → rowPt w.train w.f i ≠ rowPt w.train w.f j) ∧
      ∀ p < m, ∀ i < w.N, rowPt Q w.f p ≠ rowPt w.train w.f i)
    (hrun : regressAny maternGen R w Q w.train Y = .ok (μ, v)) (ε : ℝ) (hε : 0 < ε) :
    ∃ δ, 0 < δ ∧ ∀ w' : NNWrapper, w'.N = w.N → w'.f = w.f → w'.nnCount = w.nnCount → w'.Exact → w'.Euclidean →
      ∀ Q' Y' : Tensor ℝ, Q'.shape = [m, w.f] → Y'.shape = [w.N] → CloseRows w.N w.f δ w.train w'.train → CloseRows m w.f δ Q Q' →
      CloseEntries w.N δ Y Y' →
      ∃ μ' v', regressAny maternGen R w' Q' w'.train Y' = .ok (μ', v') ∧ CloseEntries m ε μ μ' ∧ CloseEntries m ε v v' := by
  obtain ⟨N, f, X, n, dist₀, sq₀, ans₀⟩ := w
  simp only at len hlen hQ hY hk0 hkN hν hgen ⊢
  have hrowOf : ∀ Z : Tensor ℝ, Z.shape = [N, f] → ∀ x, pt Z f x = rowPt Z f x := fun Z hZ x => by
    funext c; simp only [pt, feature, hZ, rowPt]
  have hfeat : ∀ Z : Tensor ℝ, Z.shape = [N] → ∀ x, feature Z x 0 = Z.get [x] := fun Z hZ x => by
    simp only [feature, hZ]
  -- enumerations of the neighbours
  have hexg : ∀ p : Fin m, ∃ g : Fin n → Fin N, Function.Injective g ∧ ∀ x : Nat, x ∈ S p ↔ x ∈ Set.range fun i => (g i : Nat) := by
    intro p
    obtain ⟨s1, s2, -⟩ := hS p p.2
    let eS := (S p).equivFinOfCardEq s1
    refine ⟨fun i => ⟨(eS.symm i : Nat), s2 _ (eS.symm i).2⟩, fun a b h => eS.symm.injective (Subtype.ext (congrArg Fin.val h)), ?_⟩
    intro x
    constructor
    · intro hx; exact ⟨eS ⟨x, hx⟩, by simp⟩
    · rintro ⟨i, rfl⟩; exact (eS.symm i).2
  choose g hg hgS using hexg
  -- all data, and the predictions as functions of them
  let A : Fin m → AllData N f m → Matrix (Fin n) (Fin n) ℝ := fun p d =>
    (Matrix.of fun i j => R.kernel.covFn maternGen len (d.1 (g p i)) (d.1 (g p j))) + R.gp.noise.mat n 0
  let kq : Fin m → AllData N f m → Fin n → ℝ := fun p d j => R.kernel.covFn maternGen len (d.2.2 p) (d.1 (g p j))
  let y : Fin m → AllData N f m → Fin n → ℝ := fun p d j => d.2.1 (g p j)
  let F : Fin m → AllData N f m → ℝ := fun p d => Spec.krigingMean (A p d) (kq p d) (y p d)
  let G : Fin m → AllData N f m → ℝ := fun p d => R.gp.boundScale * Spec.krigingVar 1 (A p d) (kq p d)
  let Clear : Fin m → AllData N f m → Prop := fun p d => ∀ i j : Fin N, (i : Nat) ∈ S p → (j : Nat) ∉ S p →
    sqDist (d.2.2 p) (d.1 i) < sqDist (d.2.2 p) (d.1 j)
  let dat : Tensor ℝ → Tensor ℝ → Tensor ℝ → AllData N f m := fun X Y Q =>
    (fun i => rowPt X f i, fun i => Y.get [(i : Nat)], fun p => rowPt Q f p)
  -- what a run computes
  have hpred : ∀ w' : NNWrapper, w'.N = N → w'.f = f → w'.nnCount = n → w'.Exact → w'.Euclidean → ∀ Q' Y' : Tensor ℝ,
      Q'.shape = [m, f] → Y'.shape = [N] → (∀ p, Clear p (dat w'.train Y' Q')) →
      (∀ p, (A p (dat w'.train Y' Q')).det ≠ 0) ∧ (∃ μ' v', regressAny maternGen R w' Q' w'.train Y' = .ok (μ', v') ∧
        ∀ p : Fin m, μ'.get [(p : Nat)] = F p (dat w'.train Y' Q') ∧ v'.get [(p : Nat)] = G p (dat w'.train Y' Q')) ∨
      (∃ p, (A p (dat w'.train Y' Q')).det = 0) ∧ regressAny maternGen R w' Q' w'.train Y' = .error .linAlg := by
    rintro ⟨N', f', X', n', dist', sq', ans'⟩ rfl rfl rfl hw' heuc' Q' Y' hQ' hY' hc
    have hX' : X'.shape = [N', f'] := hw'.1
    obtain ⟨nn, h1, -, h⟩ := regress_cases maternGen R hk hko ⟨N', f', X', n', dist', sq', ans'⟩ hw' Q' Y' m len hlen hQ' hY' hm hk0 hkN (hν m)
    simp only at h1 h
    have hen : ∀ p : Fin m, ∃ e : Fin n' ≃ Fin n', nbrCov maternGen R.kernel len X' N' n' nn p + R.gp.noise.mat n' p =
          (A p (dat X' Y' Q')).submatrix e e ∧ nbrCross maternGen R.kernel len X' N' n' nn p (rowPt Q' f' p) = kq p (dat X' Y' Q') ∘ e ∧
        nbrTargets Y' N' n' nn p 0 = y p (dat X' Y' Q') ∘ e := by
      intro p
      obtain ⟨l, e1, e2⟩ := h1 p p.2
      obtain ⟨φ, f1, f2⟩ := heuc'
      obtain ⟨s1, s2, -⟩ := hS p p.2
      have hmem := nearest_clear e2 s1 s2 (fun i hi j hj hjS => by
        refine (f2 _ _).trans_lt (lt_of_lt_of_eq ?_ (f2 _ _).symm)
        exact f1 (sqDist_nonneg _ _) (sqDist_nonneg _ _) (hc p ⟨i, s2 i hi⟩ ⟨j, hj⟩ hi hjS))
      obtain ⟨e, a1, a2, a3⟩ := nbr_enum maternGen R.kernel hν len X' Y' N' nn p (rowPt Q' f' p) (fun i => (g p i : Nat))
        (fun a b h => hg p (Fin.ext h)) e1 e2.nodup fun x => (hmem x).trans (hgS p x)
      refine ⟨e, a1.trans ?_, a2.trans ?_, a3.trans ?_⟩
      · simp only [hrowOf X' hX']; rfl
      · simp only [hrowOf X' hX']; rfl
      · simp only [hfeat Y' hY']; rfl
    rcases h with ⟨⟨p, hpm, hd⟩, h⟩ | ⟨hd, μ', v', r1, -, -, r4⟩
    · right
      obtain ⟨e, a1, -, -⟩ := hen ⟨p, hpm⟩
      simp only at a1
      rw [a1, Matrix.det_submatrix_equiv_self] at hd
      exact ⟨⟨_, hd⟩, h⟩
    · left
      refine ⟨fun p h0 => ?_, μ', v', r1, fun p => ?_⟩
      · obtain ⟨e, a1, -, -⟩ := hen p
        apply hd p p.2
        rw [a1, Matrix.det_submatrix_equiv_self, h0]
      · obtain ⟨e, a1, a2, a3⟩ := hen p
        obtain ⟨b1, b2⟩ := r4 p p.2
        rw [b1, b2, a1, a2, a3]
        obtain ⟨c1, c2⟩ := kriging_perm (A p (dat X' Y' Q')) (kq p (dat X' Y' Q')) (y p (dat X' Y' Q')) e
        rw [c1, c2]
        exact ⟨rfl, rfl⟩
  set d₀ := dat X Y Q with hd₀
  have hclear₀ : ∀ p, Clear p d₀ := fun p i j hi hj => (hS p p.2).2.2 i hi j j.2 hj
  rcases hpred ⟨N, f, X, n, dist₀, sq₀, ans₀⟩ rfl rfl rfl hw heuc Q Y hQ hY hclear₀ with ⟨hdet, μ₀, v₀, r1, r2⟩ | ⟨-, h⟩
  swap
  · rw [h] at hrun; cases hrun
  rw [r1] at hrun
  cases hrun
  have hlen0 := hasLengths_pos hlen
  have cX : ∀ i, Continuous fun d : AllData N f m => d.1 i := fun i => by fun_prop
  have cQ : ∀ p, Continuous fun d : AllData N f m => d.2.2 p := fun p => by fun_prop
  have hA : ∀ p, ContinuousAt (A p) d₀ := by
    intro p
    refine ContinuousAt.add ?_ continuousAt_const
    refine continuousAt_pi.mpr fun i => continuousAt_pi.mpr fun j => ?_
    refine covFn_continuousAt₂ R.kernel hp len hlen0 (cX (g p i)) (cX (g p j)) d₀ fun h => ?_
    obtain ⟨a, b, -⟩ := hgen h
    refine ⟨a, ?_⟩
    by_cases hij : g p i = g p j
    · right; rw [hij]
    · left; exact b _ (g p i).2 _ (g p j).2 fun h => hij (Fin.ext h)
  have hkq : ∀ p, ContinuousAt (kq p) d₀ := by
    intro p
    refine continuousAt_pi.mpr fun j => ?_
    refine covFn_continuousAt₂ R.kernel hp len hlen0 (cQ p) (cX (g p j)) d₀ fun h => ?_
    obtain ⟨a, -, b⟩ := hgen h
    exact ⟨a, Or.inl (b p p.2 _ (g p j).2)⟩
  have hyc : ∀ p, ContinuousAt (y p) d₀ := fun p => by
    refine Continuous.continuousAt ?_
    show Continuous fun d : AllData N f m => fun j => d.2.1 (g p j)
    fun_prop
  have hall : ∀ᶠ d in 𝓝 d₀, ∀ p, Clear p d ∧ (A p d).det ≠ 0 ∧ |F p d - F p d₀| < ε ∧ |G p d - G p d₀| < ε := by
    rw [Filter.eventually_all]
    intro p
    obtain ⟨c1, c2⟩ := kriging_continuousAt (hA p) (hkq p) (hyc p) (hdet p)
    refine Filter.Eventually.and ?_ (Filter.Eventually.and ?_ (Filter.Eventually.and ?_ ?_))
    · rw [Filter.eventually_all]; intro i
      rw [Filter.eventually_all]; intro j
      by_cases hi : (i : Nat) ∈ S p
      · by_cases hj : (j : Nat) ∉ S p
        · have cs : ∀ i, Continuous fun d : AllData N f m => sqDist (d.2.2 p) (d.1 i) := fun i => by unfold sqDist; fun_prop
          exact ((cs i).continuousAt.eventually_lt (cs j).continuousAt (hclear₀ p i j hi hj)).mono fun _ h _ _ => h
        · exact Eventually.of_forall fun _ _ h => absurd h hj
      · exact Eventually.of_forall fun _ h => absurd h hi
    · exact (ContinuousAt.comp (g := Matrix.det) continuous_id.matrix_det.continuousAt (hA p)).eventually_ne (hdet p)
    · exact c1.eventually (Metric.ball_mem_nhds (F p d₀) hε)
    · exact (continuousAt_const.mul c2).eventually (Metric.ball_mem_nhds (G p d₀) hε)
  obtain ⟨δ, hδ, hball⟩ := Metric.eventually_nhds_iff.mp hall
  refine ⟨δ, hδ, fun w' e1 e2 e3 hw' heuc' Q' Y' hQ' hY' hcX hcQ hcY => ?_⟩
  have hd : dist (dat w'.train Y' Q') d₀ < δ := by
    refine max_lt ?_ (max_lt ?_ ?_)
    · exact (dist_pi_lt_iff hδ).mpr fun i => (dist_pi_lt_iff hδ).mpr fun c => by rw [Real.dist_eq]; exact hcX i i.2 c c.2
    · exact (dist_pi_lt_iff hδ).mpr fun i => by rw [Real.dist_eq]; exact hcY i i.2
    · exact (dist_pi_lt_iff hδ).mpr fun i => (dist_pi_lt_iff hδ).mpr fun c => by rw [Real.dist_eq]; exact hcQ i i.2 c c.2
  have hb := hball hd
  rcases hpred w' e1 e2 e3 hw' heuc' Q' Y' hQ' hY' (fun p => (hb p).1) with ⟨-, μ', v', s1, s2⟩ | ⟨⟨p, hp0⟩, -⟩
  · refine ⟨μ', v', s1, fun p hpm => ?_, fun p hpm => ?_⟩
    · rw [(s2 ⟨p, hpm⟩).1, (r2 ⟨p, hpm⟩).1]; exact (hb ⟨p, hpm⟩).2.2.1
    · rw [(s2 ⟨p, hpm⟩).2, (r2 ⟨p, hpm⟩).2]; exact (hb ⟨p, hpm⟩).2.2.2
  · exact absurd hp0 (hb p).2.1

end MuyGPyS
