import Verif.Props.FreeSmoothnessWitness
import Verif.Props.Information

/-! # C118: more information, with a free smoothness -/

namespace MuyGPyS
open Py Matrix

/-- `gen_uniform`, for the neighbours the index answers with. -/
theorem gen_answer (R : Regressor) (w : NNWrapper) (hw : w.Exact) (Q Y : Tensor ℝ) (m : Nat) (ν τ σ : ℝ) (len : Fin w.f → ℝ)
    (hR : R.GeneralMatern ν len τ σ) (hν : 0 < ν) (hτ : deficit ν < τ) (hQ : Q.shape = [m, w.f]) (hY : Y.shape = [w.N]) (hm : 0 < m)
    (hk0 : 0 < w.nnCount) (hkN : w.nnCount ≤ w.N) (hd : DistinctRows w.train w.N w.f) (hnew : w.New Q m) :
    ∃ nn μ v, (∀ i < m, rowList nn w.nnCount i = (w.answer (rowPt Q w.f i) w.nnCount).map Int.ofNat) ∧
      regressAny maternGen R w Q w.train Y = .ok (μ, v) ∧ v.shape = [m] ∧
      ∀ p < m, v.get [p] = σ * Spec.krigingVar 1 (trueCov ν w len nn p + (τ - deficit ν) • (1 : Matrix (Fin w.nnCount) (Fin w.nnCount) ℝ))
        (trueCross ν w len nn p (rowPt Q w.f p)) := by
  obtain ⟨nn, ⟨D, hD⟩, -, -, -, h⟩ := gen_uniform R w hw Q m ν τ σ len hR hν hτ hQ hm hk0 hkN hd hnew
  obtain ⟨I, D', g1, -, -, g4, -⟩ := query_ok w hw Q m w.nnCount hQ hm hk0 hkN
  have hI : I = nn := by
    have : w.getNns Q = w.query Q w.nnCount := rfl
    rw [this, g1] at hD
    injection hD with hD
    exact congrArg Prod.fst hD
  subst hI
  obtain ⟨μ, v, r1, -, r3, r4⟩ := h Y hY
  exact ⟨I, μ, v, g4, r1, r3, fun p hp => (r4 p hp).2⟩

/-- **C118**: a model with free smoothness that gets more training points or more neighbours, such that at every test point each of its old
neighbours is still one of its neighbours, or less noise, reports no larger variance anywhere — as C84 says of closed-form kernels. -/
theorem C118_more_information (R R' : Regressor) (ν τ τ' σ : ℝ) (hν : 0 < ν) (hτ' : deficit ν < τ') (hττ : τ' ≤ τ) (hσ : 0 ≤ σ)
    (w w' : NNWrapper) (hw : w.Exact) (hw' : w'.Exact) (hf : w'.f = w.f) (s : Nat → Nat) (hs : w'.Extends w s) (Q Y Y' : Tensor ℝ) (m : Nat)
    (len : Fin w.f → ℝ) (hR : R.GeneralMatern ν len τ σ) (hR' : R'.GeneralMatern ν len τ' σ)
    (hQ : Q.shape = [m, w.f]) (hY : Y.shape = [w.N]) (hY' : Y'.shape = [w'.N]) (hm : 0 < m) (hk0 : 0 < w.nnCount)
    (hkN : w.nnCount ≤ w.N) (hk0' : 0 < w'.nnCount) (hkN' : w'.nnCount ≤ w'.N) (hd : DistinctRows w'.train w'.N w.f)
    (hnew : w'.New Q m) (hkeeps : w'.Keeps w s Q m) :
    ∃ μ v μ' v', regressAny maternGen R w Q w.train Y = .ok (μ, v) ∧ regressAny maternGen R' w' Q w'.train Y' = .ok (μ', v') ∧
      v.shape = [m] ∧ v'.shape = [m] ∧ ∀ p < m, v'.get [p] ≤ v.get [p] := by
  obtain ⟨N', f', X', k', dist', sq', ans'⟩ := w'
  simp only at hf
  subst hf
  have hrow : ∀ i < w.N, rowPt X' w.f (s i) = rowPt w.train w.f i := fun i hi => (hs.1 i hi).2
  have hrange : ∀ i < w.N, s i < N' := fun i hi => (hs.1 i hi).1
  have hinj := hs.2
  have hd0 : DistinctRows w.train w.N w.f := by
    intro i hi j hj hij
    obtain ⟨c, hc, h1⟩ := hd (s i) (hrange i hi) (s j) (hrange j hj) fun e => hij (hinj i hi j hj e)
    refine ⟨c, hc, fun h => h1 ?_⟩
    have e1 := congrFun (hrow i hi) ⟨c, hc⟩
    have e2 := congrFun (hrow j hj) ⟨c, hc⟩
    rw [← rowPt_pt hw.1, ← rowPt_pt hw'.1] at e1 e2
    exact e1.trans (h.trans e2.symm)
  have hnew0 : w.New Q m := fun p hp i hi => by
    rw [← hrow i hi]
    exact hnew p hp (s i) (hrange i hi)
  obtain ⟨nn, μ, v, h1, h2, h4, h5⟩ := gen_answer R w hw Q Y m ν τ σ len hR hν (hτ'.trans_le hττ) hQ hY hm hk0 hkN hd0 hnew0
  obtain ⟨nn', μ', v', g1, g2, g4, g5⟩ := gen_answer R' ⟨N', w.f, X', k', dist', sq', ans'⟩ hw' Q Y' m ν τ' σ len hR' hν hτ' hQ hY' hm
    hk0' hkN' hd hnew
  refine ⟨μ, v, μ', v', h2, g2, h4, g4, fun p hp => ?_⟩
  rw [h5 p hp, g5 p hp]
  refine mul_le_mul_of_nonneg_left ?_ hσ
  obtain ⟨e, heinj, hx⟩ := nested_positions hinj (h1 p hp) (g1 p hp) (hw.2 (rowPt Q w.f p) w.nnCount hkN) (hw'.2 (rowPt Q w.f p) k' hkN') (hkeeps p hp)
  choose x hxN hx1 hx2 using hx
  have hK : trueCov ν w len nn p = (trueCov ν ⟨N', w.f, X', k', dist', sq', ans'⟩ len nn' p).submatrix e e := by
    ext i j
    show maternProcess _ _ _ _ = maternProcess ν len (rowPt X' w.f (pointOf N' (nn'.get [p, e i]))) (rowPt X' w.f (pointOf N' (nn'.get [p, e j])))
    rw [hx1, hx1, hx2, hx2, pointOf_nat, pointOf_nat, pointOf_nat, pointOf_nat, hrow _ (hxN i), hrow _ (hxN j)]
  have hc : trueCross ν w len nn p (rowPt Q w.f p) = trueCross ν ⟨N', w.f, X', k', dist', sq', ans'⟩ len nn' p (rowPt Q w.f p) ∘ e := by
    funext j
    show maternProcess _ _ _ _ = maternProcess ν len _ (rowPt X' w.f (pointOf N' (nn'.get [p, e j])))
    rw [hx1, hx2, pointOf_nat, pointOf_nat, hrow _ (hxN j)]
  have hpos := hasLengths_pos hR.lengths
  rw [hK, hc]
  exact kriging_nested _ _ e heinj (sub_le_sub_right hττ _)
    (Kriging.posdef_of_psd_add (trueCov_psd hν ⟨N', w.f, X', k', dist', sq', ans'⟩ len hpos nn' p) (sub_pos.mpr hτ'))

/-- The hypotheses of `C118_more_information` are met: training points 0, 1, 3 and test point 2, with two neighbours and then three, every smoothness. -/
example (ν : ℝ) (hν : 0 < ν) : ∃ (w w' : NNWrapper) (μ v μ' v' : Tensor ℝ), w.train = lineTrain ∧ w.nnCount = 2 ∧ w'.train = lineTrain ∧ w'.nnCount = 3 ∧
    regressAny maternGen (lineMaternAt ν) w (oneTest 2) lineTrain lineTargets = .ok (μ, v) ∧
    regressAny maternGen (lineMaternAt ν) w' (oneTest 2) lineTrain lineTargets = .ok (μ', v') ∧ v'.get [0] ≤ v.get [0] := by
  obtain ⟨answer, hw⟩ := line_exact
  obtain ⟨answer', hw'⟩ := exact_index_exists 3 1 3 lineTrain rfl (fun x y => |x 0 - y 0|) false
  have hkeep := fun p (hp : p < 1) x (hx : x ∈ answer (rowPt (oneTest 2) 1 p) 2) =>
    (show x ∈ answer' (rowPt (oneTest 2) 1 p) 3 from by
      have e := hw.2 (rowPt (oneTest 2) 1 p) 2 (by show 2 ≤ 3; norm_num)
      have e' := hw'.2 (rowPt (oneTest 2) 1 p) 3 (by show 3 ≤ 3; norm_num)
      have hsub : (answer' (rowPt (oneTest 2) 1 p) 3).toFinset = Finset.range 3 := by
        refine Finset.eq_of_subset_of_card_le (fun y hy => Finset.mem_range.mpr (e'.mem y (List.mem_toFinset.mp hy))) ?_
        rw [Finset.card_range, List.toFinset_card_of_nodup e'.nodup, e'.length]
      rw [← List.mem_toFinset, hsub]
      exact Finset.mem_range.mpr (e.mem x hx))
  obtain ⟨μ, v, μ', v', h1, h2, -, -, h3⟩ := C118_more_information (lineMaternAt ν) (lineMaternAt ν) ν 1 1 1 hν (deficit_lt_one hν) le_rfl zero_le_one
    ⟨3, 1, lineTrain, 2, fun x y => |x 0 - y 0|, false, answer⟩ ⟨3, 1, lineTrain, 3, fun x y => |x 0 - y 0|, false, answer'⟩ hw hw' rfl id
    ⟨fun i hi => ⟨hi, rfl⟩, fun _ _ _ _ h => h⟩ (oneTest 2) lineTargets lineTargets 1 (fun _ => 1) (lineMaternAt_general ν) (lineMaternAt_general ν)
    rfl rfl rfl one_pos two_pos (by show 2 ≤ 3; norm_num) three_pos le_rfl line_distinct (line_new answer) hkeep
  exact ⟨_, _, μ, v, μ', v', rfl, rfl, rfl, rfl, h1, h2, h3 0 one_pos⟩

end MuyGPyS
