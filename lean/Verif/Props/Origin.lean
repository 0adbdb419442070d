import Verif.Props.Recode
import Verif.Props.ReversionWitness

/-! # C110: the origin of the response scale -/

namespace MuyGPyS
open Py Matrix

/-- **C110**: measuring the responses from another origin leaves every variance as it is and changes every mean by the new origin times the prediction
of the same model for responses that are all 1 (`ones`). Partial: the mean should change by exactly the new origin; it does so only where the model
predicts 1 from ones, and no model does so everywhere (`C110_shift_fails`). -/
theorem C110_shift_partial (bs : Flt → ℝ → ℝ) (R : Regressor) (hk : R.kernel.make = R.kernel)
    (hko : R.gp.kout = KernelObj.kout) (hsuit : R.kernel.fn.Suits R.kernel.deform.metric)
    (w : NNWrapper) (hw : w.Exact) (Q Y Y' ones : Tensor ℝ) (m : Nat) (len : Fin w.f → ℝ) (hlen : R.kernel.deform.HasLengths w.f len)
    (hQ : Q.shape = [m, w.f]) (c : ℝ) (hY : Shifted c Y Y' w.N) (hone : ones.shape = [w.N]) (hone' : ∀ i < w.N, ones.get [i] = 1)
    (hm : 0 < m) (hk0 : 0 < w.nnCount)
    (hkN : w.nnCount ≤ w.N) (hν : R.gp.noise.Fits m w.nnCount)
    (hreg : R.gp.noise.Suffices m w.nnCount (DistinctRows w.train w.N w.f)) :
    ∃ μ v μ' v' μ₁ v₁, regressAny bs R w Q w.train Y = .ok (μ, v) ∧ regressAny bs R w Q w.train Y' = .ok (μ', v') ∧
      regressAny bs R w Q w.train ones = .ok (μ₁, v₁) ∧ μ.shape = [m] ∧ v.shape = [m] ∧ μ'.shape = [m] ∧ v'.shape = [m] ∧
      ∀ p < m, v'.get [p] = v.get [p] ∧ μ'.get [p] = μ.get [p] + c * μ₁.get [p] := by
  obtain ⟨nn, h1, h2, h⟩ := regress_cases_uniform bs R hk hko w hw Q m len hlen hQ hm hk0 hkN hν
  have hdet : ∀ p < m, (nbrCov bs R.kernel len w.train w.N w.nnCount nn p + R.gp.noise.mat w.nnCount p).det ≠ 0 := fun p hp => by
    obtain ⟨l, e1, e2⟩ := h1 p hp
    have hdef := nbrCov_definite bs R.kernel hsuit len (hasLengths_pos hlen) w.train w.N w.nnCount nn p
    exact Kriging.det_ne_zero (Noise.posdef_of_suffices (hreg.mono fun hd => distinct_of_nodup e1 e2.nodup e2.mem hd) hp hdef.1 hdef.2)
  have run : ∀ Y : Tensor ℝ, Y.shape = [w.N] → _ := fun Y hY => (h Y hY).resolve_left fun ⟨⟨p, hp, hd⟩, _⟩ => hdet p hp hd
  obtain ⟨-, μ, v, a1, a2, a3, a4⟩ := run Y hY.1
  obtain ⟨-, μ', v', b1, b2, b3, b4⟩ := run Y' hY.2.1
  obtain ⟨-, μ₁, v₁, c1, -, -, c4⟩ := run ones hone
  refine ⟨μ, v, μ', v', μ₁, v₁, a1, b1, c1, a2, a3, b2, b3, fun p hp => ⟨(b4 p hp).2.trans (a4 p hp).2.symm, ?_⟩⟩
  rw [(a4 p hp).1, (b4 p hp).1, (c4 p hp).1]
  have ht : ∀ Z : Tensor ℝ, Z.shape = [w.N] → ∀ j : Fin w.nnCount, nbrTargets Z w.N w.nnCount nn p 0 j = Z.get [pointOf w.N (nn.get [p, j])] := by
    intro Z hZ j
    simp only [nbrTargets, feature, hZ]
  have e1 : nbrTargets Y' w.N w.nnCount nn p 0 = fun j => 1 * nbrTargets Y w.N w.nnCount nn p 0 j + c := by
    funext j
    rw [ht _ hY.1, ht _ hY.2.1, one_mul]
    exact hY.2.2 _ (h2 p hp j j.2)
  have e2 : nbrTargets ones w.N w.nnCount nn p 0 = fun _ => 1 := by
    funext j
    rw [ht _ hone]
    exact hone' _ (h2 p hp j j.2)
  rw [e1, e2, kriging_affine, one_mul]

theorem exists_far (X : Tensor ℝ) (N f : Nat) (hf : 0 < f) (ρ : ℝ) : ∃ Q : Tensor ℝ, Q.shape = [1, f] ∧ FarFrom X N f ρ (rowPt Q f 0) := by
  set B : ℝ := ∑ i ∈ Finset.range N, |rowPt X f i ⟨0, hf⟩| with hB
  refine ⟨⟨[1, f], fun _ => B + |ρ| + 1⟩, rfl, fun i hi => ?_⟩
  have h0 : |rowPt X f i ⟨0, hf⟩| ≤ B :=
    Finset.single_le_sum (f := fun i => |rowPt X f i ⟨0, hf⟩|) (fun _ _ => abs_nonneg _) (Finset.mem_range.mpr hi)
  have hrow : ∀ c : Fin f, rowPt (⟨[1, f], fun _ => B + |ρ| + 1⟩ : Tensor ℝ) f 0 c = B + |ρ| + 1 := fun _ => rfl
  have h1 : |ρ| < B + |ρ| + 1 - rowPt X f i ⟨0, hf⟩ := by linarith [le_abs_self (rowPt X f i ⟨0, hf⟩)]
  have h2 : (B + |ρ| + 1 - rowPt X f i ⟨0, hf⟩) ^ 2 ≤ ∑ c, (rowPt (⟨[1, f], fun _ => B + |ρ| + 1⟩ : Tensor ℝ) f 0 c - rowPt X f i c) ^ 2 :=
    Finset.single_le_sum (f := fun c => (rowPt (⟨[1, f], fun _ => B + |ρ| + 1⟩ : Tensor ℝ) f 0 c - rowPt X f i c) ^ 2) (fun _ _ => sq_nonneg _)
      (Finset.mem_univ (⟨0, hf⟩ : Fin f))
  refine (le_abs_self ρ).trans_lt (h1.trans_le ?_)
  exact Real.le_sqrt_of_sq_le h2

/-- **C110, where the code fails**: for every model, every data set and every new origin `c ≠ 0` there is a test point where the mean does not change
by `c`: far from the data it hardly changes at all, because the model's prior mean is zero whatever the responses. -/
theorem C110_shift_fails (R : Regressor) (hk : R.kernel.make = R.kernel) (hko : R.gp.kout = KernelObj.kout)
    (hsuit : R.kernel.fn.Suits R.kernel.deform.metric) (hs : 0 < R.gp.boundScale) (w : NNWrapper) (hw : w.Exact) (hf : 0 < w.f) (Y Y' : Tensor ℝ)
    (len : Fin w.f → ℝ) (hlen : R.kernel.deform.HasLengths w.f len) (c : ℝ) (hc : c ≠ 0) (hY : Shifted c Y Y' w.N)
    (hk0 : 0 < w.nnCount) (hkN : w.nnCount ≤ w.N) (hν : R.gp.noise.Fits 1 w.nnCount)
    (hreg : R.gp.noise.Suffices 1 w.nnCount (DistinctRows w.train w.N w.f)) (ε : ℝ) (hε : 0 < ε) :
    ∃ Q μ v μ' v', Q.shape = [1, w.f] ∧ regressAny maternGen R w Q w.train Y = .ok (μ, v) ∧ regressAny maternGen R w Q w.train Y' = .ok (μ', v') ∧
      |μ'.get [0] - μ.get [0]| < ε ∧ μ'.get [0] ≠ μ.get [0] + c := by
  have hδ : 0 < min ε |c| := lt_min hε (abs_pos.mpr hc)
  obtain ⟨ρ, h⟩ := C69_prior_always R hk hko hsuit hs w hw Y len hlen hY.1 hk0 hkN (min ε |c| / 2) (half_pos hδ)
  obtain ⟨ρ', h'⟩ := C69_prior_always R hk hko hsuit hs w hw Y' len hlen hY.2.1 hk0 hkN (min ε |c| / 2) (half_pos hδ)
  obtain ⟨Q, hQ, hfar⟩ := exists_far w.train w.N w.f hf (max ρ ρ')
  obtain ⟨μ, v, a1, -, -, a4⟩ := h 1 Q one_pos hQ hν hreg
  obtain ⟨μ', v', b1, -, -, b4⟩ := h' 1 Q one_pos hQ hν hreg
  have a := ((a4 0 one_pos).2 fun i hi => (le_max_left _ _).trans_lt (hfar i hi)).1
  have b := ((b4 0 one_pos).2 fun i hi => (le_max_right _ _).trans_lt (hfar i hi)).1
  have hlt : |μ'.get [0] - μ.get [0]| < min ε |c| := by
    have := abs_sub (μ'.get [0]) (μ.get [0])
    linarith
  refine ⟨Q, μ, v, μ', v', hQ, a1, b1, hlt.trans_le (min_le_left _ _), fun h => ?_⟩
  rw [h, add_sub_cancel_left] at hlt
  exact absurd (hlt.trans_le (min_le_right _ _)) (lt_irrefl _)

/-- Non-vacuity of `C110_shift_partial` and `C110_shift_fails`: three training points on a line, responses 0, 1, 0 and 5, 6, 5. -/
example : ∃ (w : NNWrapper) (Y' Q μ v μ' v' : Tensor ℝ), w.Exact ∧ w.N = 3 ∧ Shifted 5 lineTargets Y' 3 ∧ Y'.get [1] = 6 ∧
    regressAny maternGen lineModel w Q w.train lineTargets = .ok (μ, v) ∧ regressAny maternGen lineModel w Q w.train Y' = .ok (μ', v') ∧
    |μ'.get [0] - μ.get [0]| < 1 := by
  obtain ⟨answer, hw⟩ := exact_index_exists 3 1 2 lineTrain rfl (fun x y => |x 0 - y 0|) false
  have hsh : Shifted 5 lineTargets (⟨[3], fun i => lineTargets.flat i + 5⟩ : Tensor ℝ) 3 := by
    refine ⟨rfl, rfl, fun i _ => ?_⟩
    rw [Tensor.get1 lineTargets rfl, Tensor.get1 (⟨[3], fun i => lineTargets.flat i + 5⟩ : Tensor ℝ) rfl]
  obtain ⟨Q, μ, v, μ', v', -, h1, h2, h3, -⟩ := C110_shift_fails lineModel rfl rfl rfl one_pos _ hw one_pos lineTargets _ (fun _ => 1)
    ⟨1, one_pos, rfl, fun _ => rfl⟩ 5 (by norm_num) hsh two_pos (by show 2 ≤ 3; norm_num) trivial (.inl one_pos) 1 one_pos
  refine ⟨_, _, Q, μ, v, μ', v', hw, rfl, hsh, ?_, h1, h2, h3⟩
  rw [Tensor.get1 (⟨[3], fun i => lineTargets.flat i + 5⟩ : Tensor ℝ) rfl]
  norm_num [lineTargets]

end MuyGPyS
