import Verif.Props.Extremes
import Verif.Props.Continuity
import Verif.Spec.Irrelevant

/-!
# C114: features that tell nothing
-/

namespace MuyGPyS
open Py Matrix Topology

/-- A sum over the features of the larger table. -/
theorem sum_extend {f₀ f : Nat} {ι : Fin f₀ → Fin f} (hι : Function.Injective ι) (F : Fin f → ℝ) :
    ∑ c, F c = ∑ c, F (ι c) + ∑ c ∈ (Finset.univ.image ι)ᶜ, F c := by
  rw [← Finset.sum_add_sum_compl (Finset.univ.image ι), Finset.sum_image fun a _ b _ h => hι h]

/-- **C114**, constant features: features that have one value in all training and test points can be added or left out, with any
length scales, without changing any prediction, if no test point is equally far from two training points. -/
theorem C114_constant (bs : Flt → ℝ → ℝ) (R R' : Regressor) (hk : R.kernel.make = R.kernel) (hko : R.gp.kout = KernelObj.kout)
    (hsame : R.kernel.SameBut R'.kernel) (hgp : R'.gp = R.gp) (hsuit : R.kernel.fn.Suits R.kernel.deform.metric)
    (w w' : NNWrapper) (hw : w.Exact) (hw' : w'.Exact) (he : w.Euclidean) (he' : w'.Euclidean) (hN : w'.N = w.N)
    (hn : w'.nnCount = w.nnCount) (Q Q' Y : Tensor ℝ) (m : Nat) (ι : Fin w.f → Fin w'.f) (hι : Function.Injective ι)
    (len : Fin w.f → ℝ) (len' : Fin w'.f → ℝ) (hlen : R.kernel.deform.HasLengths w.f len)
    (hlen' : R'.kernel.deform.HasLengths w'.f len') (hll : ∀ c, len' (ι c) = len c)
    (hQ : Q.shape = [m, w.f]) (hQ' : Q'.shape = [m, w'.f]) (hY : Y.shape = [w.N]) (hm : 0 < m)
    (hk0 : 0 < w.nnCount) (hkN : w.nnCount ≤ w.N) (hν : ∀ b, R.gp.noise.Fits b w.nnCount)
    (hreg : R.gp.noise.Suffices m w.nnCount (DistinctRows w.train w.N w.f)) (hties : w.NoTies Q m) (a : Fin w'.f → ℝ)
    (htrain : Extends ι w.N w.train w'.train) (htest : Extends ι m Q Q')
    (ctrain : ConstantElsewhere ι w.N a w'.train) (ctest : ConstantElsewhere ι m a Q') :
    ∃ μ v μ' v', regressAny bs R w Q w.train Y = .ok (μ, v) ∧ regressAny bs R' w' Q' w'.train Y = .ok (μ', v') ∧
      μ.shape = [m] ∧ v.shape = [m] ∧ μ'.shape = [m] ∧ v'.shape = [m] ∧
      ∀ q < m, μ'.get [q] = μ.get [q] ∧ v'.get [q] = v.get [q] := by
  have hplain : ∀ {x y : Fin w.f → ℝ} {x' y' : Fin w'.f → ℝ} (s : Fin w.f → ℝ) (s' : Fin w'.f → ℝ), (∀ c, s' (ι c) = s c) →
      (∀ c, x' (ι c) = x c) → (∀ c, y' (ι c) = y c) → (∀ c, (∀ d, ι d ≠ c) → x' c = a c) → (∀ c, (∀ d, ι d ≠ c) → y' c = a c) →
      sqDist (fun c => x' c / s' c) (fun c => y' c / s' c) = sqDist (fun c => x c / s c) (fun c => y c / s c) := by
    intro x y x' y' s s' hs hx hy cx cy
    unfold sqDist
    rw [sum_extend hι]
    rw [Finset.sum_eq_zero (s := (Finset.univ.image ι)ᶜ), add_zero]
    · exact Finset.sum_congr rfl fun c _ => by beta_reduce; rw [hs, hx, hy]
    · intro c hc
      have : ∀ d, ι d ≠ c := fun d h => Finset.mem_compl.mp hc (Finset.mem_image.mpr ⟨d, Finset.mem_univ _, h⟩)
      beta_reduce; rw [cx c this, cy c this, sub_self]; ring
  have hone : ∀ {f : Nat} (x : Fin f → ℝ), (fun c => x c / (fun _ => (1:ℝ)) c) = x := fun x => by funext c; exact div_one _
  have hunit : ∀ {x y : Fin w.f → ℝ} {x' y' : Fin w'.f → ℝ}, (∀ c, x' (ι c) = x c) → (∀ c, y' (ι c) = y c) →
      (∀ c, (∀ d, ι d ≠ c) → x' c = a c) → (∀ c, (∀ d, ι d ≠ c) → y' c = a c) → sqDist x' y' = 1 ^ 2 * sqDist x y := by
    intro x y x' y' hx hy cx cy
    have := hplain (fun _ => 1) (fun _ => 1) (fun _ => rfl) hx hy cx cy
    rw [hone, hone, hone, hone] at this
    rw [this]; ring
  exact regress_transport bs R R' hk (make_same hsame hk) hko hgp hsuit w w' hw hw' hN hn Q Q' Y Y m m len len' hlen hlen' hQ hQ' hY hY
    hm hm hk0 hkN hν hreg id id ⟨fun i hi => hi, fun i _ j _ h => h⟩ (fun q hq => hq) hties (fun i _ => rfl)
    (fun q hq i hi j hj => order_similar he he' one_pos
      (hunit (fun c => htest q hq c) (fun c => htrain i hi c) (ctest q hq) (ctrain i hi))
      (hunit (fun c => htest q hq c) (fun c => htrain j hj c) (ctest q hq) (ctrain j hj)))
    (fun i hi j hj => cov_same hsame (hplain len len' hll (fun c => htrain i hi c) (fun c => htrain j hj c) (ctrain i hi) (ctrain j hj)))
    (fun q hq i hi => cov_same hsame (hplain len len' hll (fun c => htest q hq c) (fun c => htrain i hi c) (ctest q hq) (ctrain i hi)))

/-- Features with long length scales hardly influence a covariance. -/
theorem covFn_ignore (bs : Flt → ℝ → ℝ) (k : KernelObj) (hs : k.fn.Suits k.deform.metric) {f₀ f : Nat} {ι : Fin f₀ → Fin f}
    (hι : Function.Injective ι) (len₀ : Fin f₀ → ℝ) (x y : Fin f → ℝ) (x₀ y₀ : Fin f₀ → ℝ) (hx : ∀ c, x (ι c) = x₀ c)
    (hy : ∀ c, y (ι c) = y₀ c) {δ : ℝ} (hδ : 0 < δ) :
    ∃ L, ∀ len : Fin f → ℝ, (∀ c, len (ι c) = len₀ c) → (∀ c, (∀ d, ι d ≠ c) → L ≤ len c) →
      |k.covFn bs len x y - k.covFn bs len₀ x₀ y₀| < δ := by
  have hg : k.fn ≠ .gen := fun h => by rw [h] at hs; exact hs
  have hc : Continuous (KFn.value bs ((k.smoothness.map Param.val).getD none) k.fn) := (value_smooth bs _ hg).continuous
  obtain ⟨ψ, hψ, hcov⟩ : ∃ ψ : ℝ → ℝ, Continuous ψ ∧ ∀ {g : Nat} (len x y : Fin g → ℝ),
      k.covFn bs len x y = ψ (∑ c, (x c / len c - y c / len c) ^ 2) := by
    cases hm : k.deform.metric with
    | F2 => exact ⟨_, hc, fun len x y => by unfold KernelObj.covFn; rw [hm, distOf_F2]⟩
    | l2 => exact ⟨_, hc.comp Real.continuous_sqrt, fun len x y => by unfold KernelObj.covFn; rw [hm, distOf_l2_sqrt]; rfl⟩
  set d₀ := ∑ c, (x₀ c / len₀ c - y₀ c / len₀ c) ^ 2 with hd₀
  obtain ⟨η, hη, hv⟩ := Metric.continuous_iff.1 hψ d₀ δ hδ
  set T := (Finset.univ.image ι)ᶜ with hT
  set E := ∑ c ∈ T, (x c - y c) ^ 2 with hE
  have hE0 : 0 ≤ E := Finset.sum_nonneg fun c _ => sq_nonneg _
  set L := E / η + 1 with hL
  have hL1 : 1 ≤ L := by rw [hL]; linarith [div_nonneg hE0 hη.le]
  refine ⟨L, fun len h1 h2 => ?_⟩
  rw [hcov, hcov, ← hd₀, ← Real.dist_eq]
  refine hv _ ?_
  rw [Real.dist_eq, sum_extend hι]
  have e1 : ∑ c, (x (ι c) / len (ι c) - y (ι c) / len (ι c)) ^ 2 = d₀ :=
    Finset.sum_congr rfl fun c _ => by rw [h1, hx, hy]
  rw [e1, add_sub_cancel_left, abs_of_nonneg (Finset.sum_nonneg fun c _ => sq_nonneg _)]
  have e2 : ∑ c ∈ T, (x c / len c - y c / len c) ^ 2 ≤ E / L := by
    rw [hE, Finset.sum_div]
    refine Finset.sum_le_sum fun c hc => ?_
    have hlc := h2 c fun d h => Finset.mem_compl.mp hc (Finset.mem_image.mpr ⟨d, Finset.mem_univ _, h⟩)
    rw [← sub_div, div_pow]
    exact div_le_div_of_nonneg_left (sq_nonneg _) (by linarith) (by nlinarith)
  refine e2.trans_lt ?_
  rw [div_lt_iff₀ (by linarith), hL, mul_add, mul_div_cancel₀ _ hη.ne']
  linarith

/-- An enumeration of the nearest points of a test point. -/
theorem clear_enum {w : NNWrapper} {q : Fin w.f → ℝ} {S : Finset Nat} (h : w.ClearAt q S) :
    ∃ g : Fin w.nnCount → Nat, Function.Injective g ∧ (∀ x, x ∈ S ↔ x ∈ Set.range g) ∧ ∀ i, g i < w.N := by
  let eS := S.equivFinOfCardEq h.1
  refine ⟨fun i => (eS.symm i : Nat), fun a b h => eS.symm.injective (Subtype.ext h), fun x => ⟨fun hx => ⟨eS ⟨x, hx⟩, by simp⟩, ?_⟩,
    fun i => h.2.1 _ (eS.symm i).2⟩
  rintro ⟨i, rfl⟩
  exact (eS.symm i).2

/-- **C114**, features with long length scales: if the features left out do not change which training points are nearest, the
predictions approach those of the model without these features as their length scales grow. Partial: see `C114_neighbours_fails`. -/
theorem C114_long_partial (bs : Flt → ℝ → ℝ) (k : KernelObj) (hsuit : k.fn.Suits k.deform.metric) (w₀ w : NNWrapper) (hw₀ : w₀.Exact)
    (hw : w.Exact) (he₀ : w₀.Euclidean) (he : w.Euclidean) (hN : w.N = w₀.N) (hn : w.nnCount = w₀.nnCount) (Q₀ Q Y : Tensor ℝ) (m : Nat)
    (ι : Fin w₀.f → Fin w.f) (hι : Function.Injective ι) (len₀ : Fin w₀.f → ℝ)
    (hQ₀ : Q₀.shape = [m, w₀.f]) (hQ : Q.shape = [m, w.f]) (hY : Y.shape = [w₀.N]) (hm : 0 < m)
    (hk0 : 0 < w₀.nnCount) (hkN : w₀.nnCount ≤ w₀.N) (htrain : Extends ι w₀.N w₀.train w.train) (htest : Extends ι m Q₀ Q)
    (S : Nat → Finset Nat) (hS₀ : ∀ p < m, w₀.ClearAt (rowPt Q₀ w₀.f p) (S p)) (hS : ∀ p < m, w.ClearAt (rowPt Q w.f p) (S p))
    (τ σ : ℝ) (hτ : 0 < τ) :
    ∀ ε > 0, ∃ L, ∀ (R₀ R : Regressor) (len : Fin w.f → ℝ), R₀.Has k len₀ τ σ → R.Has k len τ σ → (∀ c, len (ι c) = len₀ c) →
      (∀ c, (∀ d, ι d ≠ c) → L ≤ len c) →
      ∃ μ₀ v₀ μ v, regressAny bs R₀ w₀ Q₀ w₀.train Y = .ok (μ₀, v₀) ∧ regressAny bs R w Q w.train Y = .ok (μ, v) ∧
        μ₀.shape = [m] ∧ v₀.shape = [m] ∧ μ.shape = [m] ∧ v.shape = [m] ∧
        ∀ p < m, |μ.get [p] - μ₀.get [p]| < ε ∧ |v.get [p] - v₀.get [p]| < ε := by
  intro ε hε
  have hrow : ∀ {N f : Nat} (X : Tensor ℝ), X.shape = [N, f] → ∀ x, pt X f x = rowPt X f x := fun {N f} X hX x => by
    funext c; simp only [pt, feature, hX, rowPt]
  have hrow₀ := hrow w₀.train hw₀.1
  have hrow₁ := hrow w.train hw.1
  by_cases hlen₀ : ∃ R₀ : Regressor, R₀.Has k len₀ τ σ
  swap
  · exact ⟨0, fun R₀ _ _ h => absurd ⟨R₀, h⟩ hlen₀⟩
  obtain ⟨_, hR₀⟩ := hlen₀
  have hpos₀ := hasLengths_pos hR₀.lengths
  obtain ⟨N, f, X, n, dist, sq, ans⟩ := w
  simp only at hN hn
  subst hN hn
  obtain ⟨nn₀, a1, a2, a3⟩ := family_closed bs k hsuit w₀ hw₀ Q₀ m hQ₀ hm hk0 hkN
  obtain ⟨nn, b1, -, b3⟩ := family_closed bs k hsuit ⟨w₀.N, f, X, w₀.nnCount, dist, sq, ans⟩ hw Q m hQ hm hk0 hkN
  simp only at b1 b3 hrow₁
  have hν : ∀ b, (Noise.homoscedastic τ).Fits b w₀.nnCount := fun _ => trivial
  have hex : ∀ p : Fin m, ∃ L, ∀ len : Fin f → ℝ, (∀ c, len (ι c) = len₀ c) → (∀ c, (∀ d, ι d ≠ c) → L ≤ len c) →
      |Spec.krigingMean (nbrCov bs k len X w₀.N w₀.nnCount nn p + τ • (1 : Matrix (Fin w₀.nnCount) (Fin w₀.nnCount) ℝ))
          (nbrCross bs k len X w₀.N w₀.nnCount nn p (rowPt Q f p)) (nbrTargets Y w₀.N w₀.nnCount nn p 0) -
        Spec.krigingMean (nbrCov bs k len₀ w₀.train w₀.N w₀.nnCount nn₀ p + τ • (1 : Matrix (Fin w₀.nnCount) (Fin w₀.nnCount) ℝ))
          (nbrCross bs k len₀ w₀.train w₀.N w₀.nnCount nn₀ p (rowPt Q₀ w₀.f p)) (nbrTargets Y w₀.N w₀.nnCount nn₀ p 0)| < ε ∧
      |σ * Spec.krigingVar 1 (nbrCov bs k len X w₀.N w₀.nnCount nn p + τ • (1 : Matrix (Fin w₀.nnCount) (Fin w₀.nnCount) ℝ))
          (nbrCross bs k len X w₀.N w₀.nnCount nn p (rowPt Q f p)) -
        σ * Spec.krigingVar 1 (nbrCov bs k len₀ w₀.train w₀.N w₀.nnCount nn₀ p + τ • (1 : Matrix (Fin w₀.nnCount) (Fin w₀.nnCount) ℝ))
          (nbrCross bs k len₀ w₀.train w₀.N w₀.nnCount nn₀ p (rowPt Q₀ w₀.f p))| < ε := by
    intro p
    obtain ⟨g, g1, g2, g3⟩ := clear_enum (hS₀ p p.2)
    obtain ⟨l₀, c1, c2⟩ := a1 p p.2
    obtain ⟨l, d1, d2⟩ := b1 p p.2
    obtain ⟨φ₀, u1, u2⟩ := he₀
    obtain ⟨φ, t1, t2⟩ := he
    have hmem₀ := nearest_clear c2 (hS₀ p p.2).1 (hS₀ p p.2).2.1 fun i hi j hj hjS => by
      rw [u2, u2]
      exact u1 (sqDist_nonneg _ _) (sqDist_nonneg _ _) ((hS₀ p p.2).2.2 i hi j hj hjS)
    have hmem := nearest_clear d2 (hS p p.2).1 (hS p p.2).2.1 fun i hi j hj hjS => by
      refine (t2 _ _).trans_lt (lt_of_lt_of_eq ?_ (t2 _ _).symm)
      exact t1 (sqDist_nonneg _ _) (sqDist_nonneg _ _) ((hS p p.2).2.2 i hi j hj hjS)
    obtain ⟨m1, m2⟩ := kriging_enum bs k hν len₀ w₀.train Y w₀.N nn₀ p (rowPt Q₀ w₀.f p) g g1 c1 c2.nodup fun x => (hmem₀ x).trans (g2 x)
    obtain ⟨e, f1, -, -⟩ := nbr_enum bs k hν len₀ w₀.train Y w₀.N nn₀ p (rowPt Q₀ w₀.f p) g g1 c1 c2.nodup fun x => (hmem₀ x).trans (g2 x)
    have hdet : ((Matrix.of fun i j => k.covFn bs len₀ (pt w₀.train w₀.f (g i)) (pt w₀.train w₀.f (g j))) +
        (Noise.homoscedastic τ).mat w₀.nnCount 0).det ≠ 0 := by
      intro h0
      refine Kriging.det_ne_zero (a2 len₀ τ hpos₀ (.inl hτ) p p.2) ?_
      have : nbrCov bs k len₀ w₀.train w₀.N w₀.nnCount nn₀ p + τ • (1 : Matrix (Fin w₀.nnCount) (Fin w₀.nnCount) ℝ) = _ := f1
      rw [this, Matrix.det_submatrix_equiv_self, h0]
    obtain ⟨δ, hδ, hnear⟩ := kriging_near _ hdet (fun j => k.covFn bs len₀ (rowPt Q₀ w₀.f p) (pt w₀.train w₀.f (g j)))
      (fun j => feature Y (g j) 0) σ hε
    have hxx : ∀ i c, pt X f (g i) (ι c) = pt w₀.train w₀.f (g i) c := fun i c => by
      rw [hrow₀, hrow₁]; exact htrain _ (g3 i) c
    have hqq : ∀ c, rowPt Q f p (ι c) = rowPt Q₀ w₀.f p c := fun c => htest p p.2 c
    choose LA hLA using fun i j : Fin w₀.nnCount => covFn_ignore bs k hsuit hι len₀ (pt X f (g i)) (pt X f (g j)) _ _ (hxx i) (hxx j) hδ
    choose Lk hLk using fun j : Fin w₀.nnCount => covFn_ignore bs k hsuit hι len₀ (rowPt Q f p) (pt X f (g j)) _ _ hqq (hxx j) hδ
    refine ⟨(∑ i, ∑ j, |LA i j|) + ∑ j, |Lk j|, fun len h1 h2 => ?_⟩
    have q1 : ∀ i j, LA i j ≤ (∑ i, ∑ j, |LA i j|) + ∑ j, |Lk j| := fun i j => by
      have s1 : |LA i j| ≤ ∑ j, |LA i j| := Finset.single_le_sum (f := fun j => |LA i j|) (fun _ _ => abs_nonneg _) (Finset.mem_univ j)
      have s2 : ∑ j, |LA i j| ≤ ∑ i, ∑ j, |LA i j| :=
        Finset.single_le_sum (f := fun i => ∑ j, |LA i j|) (fun _ _ => Finset.sum_nonneg fun _ _ => abs_nonneg _) (Finset.mem_univ i)
      have s3 : 0 ≤ ∑ j, |Lk j| := Finset.sum_nonneg fun _ _ => abs_nonneg _
      linarith [le_abs_self (LA i j)]
    have q2 : ∀ j, Lk j ≤ (∑ i, ∑ j, |LA i j|) + ∑ j, |Lk j| := fun j => by
      have s1 : |Lk j| ≤ ∑ j, |Lk j| := Finset.single_le_sum (f := fun j => |Lk j|) (fun _ _ => abs_nonneg _) (Finset.mem_univ j)
      have s3 : 0 ≤ ∑ i, ∑ j, |LA i j| := Finset.sum_nonneg fun _ _ => Finset.sum_nonneg fun _ _ => abs_nonneg _
      linarith [le_abs_self (Lk j)]
    obtain ⟨n1, n2⟩ := kriging_enum bs k hν len X Y w₀.N nn p (rowPt Q f p) g g1 d1 d2.nodup fun x => (hmem x).trans (g2 x)
    have := hnear ((Matrix.of fun i j => k.covFn bs len (pt X f (g i)) (pt X f (g j))) + (Noise.homoscedastic τ).mat w₀.nnCount 0)
      (fun j => k.covFn bs len (rowPt Q f p) (pt X f (g j))) (fun i j => by
        rw [Matrix.add_apply, Matrix.add_apply, add_sub_add_right_eq_sub]
        exact hLA i j len h1 fun c hc => (q1 i j).trans (h2 c hc)) (fun j => hLk j len h1 fun c hc => (q2 j).trans (h2 c hc))
    rw [← n1, ← n2, ← m1, ← m2] at this
    exact this
  choose L hL using hex
  refine ⟨∑ p, |L p|, fun R₀ R len hR₀ hR h1 h2 => ?_⟩
  obtain ⟨μ₀, v₀, r1, r2, r3, r4⟩ := a3 Y hY R₀ len₀ τ σ hR₀ (.inl hτ)
  obtain ⟨μ, v, s1, s2, s3, s4⟩ := b3 Y hY R len τ σ hR (.inl hτ)
  refine ⟨μ₀, v₀, μ, v, r1, s1, r2, r3, s2, s3, fun p hp => ?_⟩
  rw [(r4 p hp).1, (r4 p hp).2, (s4 p hp).1, (s4 p hp).2]
  refine hL ⟨p, hp⟩ len h1 fun c hc => le_trans ?_ (h2 c hc)
  exact (le_abs_self _).trans (Finset.single_le_sum (f := fun p => |L p|) (fun _ _ => abs_nonneg _) (Finset.mem_univ (⟨p, hp⟩ : Fin m)))

/-- With all training points as neighbours the nearest points are unambiguous. -/
theorem clear_all (w : NNWrapper) (h : w.nnCount = w.N) (q : Fin w.f → ℝ) : w.ClearAt q (Finset.range w.N) :=
  ⟨by rw [Finset.card_range, h], fun i hi => Finset.mem_range.mp hi, fun i _ j hj hjS => absurd (Finset.mem_range.mpr hj) hjS⟩

/-- **C114**, exact models: with all training points as neighbours, the predictions approach those of the model without some
features as the length scales of these grow. -/
theorem C114_long_exact (bs : Flt → ℝ → ℝ) (k : KernelObj) (hsuit : k.fn.Suits k.deform.metric) (w₀ w : NNWrapper) (hw₀ : w₀.Exact)
    (hw : w.Exact) (he₀ : w₀.Euclidean) (he : w.Euclidean) (hN : w.N = w₀.N) (hn₀ : w₀.nnCount = w₀.N) (hn : w.nnCount = w.N)
    (Q₀ Q Y : Tensor ℝ) (m : Nat) (ι : Fin w₀.f → Fin w.f) (hι : Function.Injective ι) (len₀ : Fin w₀.f → ℝ)
    (hQ₀ : Q₀.shape = [m, w₀.f]) (hQ : Q.shape = [m, w.f]) (hY : Y.shape = [w₀.N]) (hm : 0 < m) (hN0 : 0 < w₀.N)
    (htrain : Extends ι w₀.N w₀.train w.train) (htest : Extends ι m Q₀ Q) (τ σ : ℝ) (hτ : 0 < τ) :
    ∀ ε > 0, ∃ L, ∀ (R₀ R : Regressor) (len : Fin w.f → ℝ), R₀.Has k len₀ τ σ → R.Has k len τ σ → (∀ c, len (ι c) = len₀ c) →
      (∀ c, (∀ d, ι d ≠ c) → L ≤ len c) →
      ∃ μ₀ v₀ μ v, regressAny bs R₀ w₀ Q₀ w₀.train Y = .ok (μ₀, v₀) ∧ regressAny bs R w Q w.train Y = .ok (μ, v) ∧
        μ₀.shape = [m] ∧ v₀.shape = [m] ∧ μ.shape = [m] ∧ v.shape = [m] ∧
        ∀ p < m, |μ.get [p] - μ₀.get [p]| < ε ∧ |v.get [p] - v₀.get [p]| < ε :=
  C114_long_partial bs k hsuit w₀ w hw₀ hw he₀ he hN (by rw [hn, hn₀, hN]) Q₀ Q Y m ι hι len₀ hQ₀ hQ hY hm (by omega) hn₀.le htrain htest
    (fun _ => Finset.range w₀.N) (fun p _ => clear_all w₀ hn₀ _) (fun p _ => by rw [← hN]; exact clear_all w hn _) τ σ hτ

end MuyGPyS
