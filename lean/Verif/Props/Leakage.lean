import Verif.Spec.Leakage
import Verif.Props.Truth
import Verif.Props.WellPosed
import Verif.Props.Information
import Verif.Props.FastPipelineWitness

/-!
# C90: a leave-one-out prediction does not use the response it is compared with
-/

namespace MuyGPyS
open Py Matrix

/-- **C90**: with different training points, the prediction for a batch element during training does not depend on that element's own response. Partial: see
`C90_duplicates_fail` for coincident training points. -/
theorem C90_no_leak_partial (bs : Flt → ℝ → ℝ) (L : Learner) (hmade : L.Made)
    (w : NNWrapper) (hw : w.Exact) (hsep : w.Separated) (len : Fin w.f → ℝ) (hlen : L.deform.HasLengths w.f len)
    (bc : Nat) (hbc : 0 < bc) (draw : List Nat) (hd : bc < w.N → IsDraw w.N bc draw) (hN : 0 < w.N) (hkN : w.nnCount + 1 ≤ w.N)
    (hν : ∀ b, L.trainee.R.gp.noise.Fits b w.nnCount)
    (hreg : (L.fn.Suits L.deform.metric ∧ ∀ b, L.trainee.R.gp.noise.Suffices b w.nnCount (DistinctRows w.train w.N w.f)) ∨
      ∃ τ, L.trainee.R.gp.noise.Level τ ∧ L.WellPosed bs w τ) :
    ∃ idx nn, sampleBatch w bc w.N draw = .ok (idx, nn) ∧ idx.length = min bc w.N ∧
      ∀ p x, idx[p]? = some x → ∀ Y Y' : Tensor ℝ, Y.shape = [w.N] → Y'.shape = [w.N] → SameBut Y Y' w.N x →
        ∃ d d' μ μ', L.trainData (idx, nn) w.train Y = .ok d ∧ L.trainData (idx, nn) w.train Y' = .ok d' ∧
          L.looMeans bs d = .ok μ ∧ L.looMeans bs d' = .ok μ' ∧ μ.shape = [idx.length] ∧ μ'.shape = [idx.length] ∧
          d.targets.get [p] = Y.get [x] ∧ d'.targets.get [p] = Y'.get [x] ∧ μ'.get [p] = μ.get [p] := by
  obtain ⟨idx, nn, h1, h2, h4, h5, hv, hrows, hother⟩ := batch_rows w hw hsep bc hbc draw hd hN hkN
  refine ⟨idx, nn, h1, h2, fun p x hx Y Y' hY hY' hsame => ?_⟩
  obtain ⟨hp, hpx⟩ := List.getElem?_eq_some_iff.mp hx
  have hpd : ∀ p < idx.length, (L.batchCov bs w len nn p).PosDef := hreg.elim
    (fun h => batch_posdef bs L h.1 w len hlen idx.length nn hrows (h.2 _)) fun ⟨_, hτ, h⟩ => h.posdef hw hlen hτ idx.length nn hrows
  have one : ∀ Y : Tensor ℝ, Y.shape = [w.N] → ∃ d μ, L.trainData (idx, nn) w.train Y = .ok d ∧ L.looMeans bs d = .ok μ ∧ μ.shape = [idx.length] ∧
      d.targets.get [p] = Y.get [x] ∧ μ.get [p] = Spec.krigingMean (L.batchCov bs w len nn p) (L.batchCross bs w len idx nn p)
        (nbrTargets Y w.N w.nnCount nn p 0) := fun Y hY => by
    obtain ⟨idx', nn', d, g1, -, -, -, -, -, g2, g3, g3', g4t, g4, g6, g5⟩ := regressor_data L w hw len hlen bc hbc draw hd hN hkN Y hY
    rw [h1] at g1
    obtain ⟨rfl, rfl⟩ := Prod.mk.inj (Except.ok.inj g1)
    obtain ⟨K, C, μ, e1, e2, e3, e4, e5, -⟩ := batch_predictions bs L hmade w hw len hlen idx nn h4 h5 hv d g3 g3' g4 (hν _)
      (fun p hp => Kriging.det_ne_zero (hpd p hp))
    refine ⟨d, μ, g2, ?_, e4, g6 p x hx, by rw [e5 p hp, g5 p hp]⟩
    simp only [Learner.looMeans, e1, e2, e3, bind, Except.bind]
  obtain ⟨d, μ, a1, a2, a3, a4, a5⟩ := one Y hY
  obtain ⟨d', μ', b1, b2, b3, b4, b5⟩ := one Y' hY'
  refine ⟨d, d', μ, μ', a1, b1, a2, b2, a3, b3, a4, b4, ?_⟩
  rw [a5, b5]
  congr 1
  funext j
  obtain ⟨o1, o2⟩ := hother p hp j j.2
  rw [List.getD_eq_getElem?_getD, hx, Option.getD_some] at o2
  simp only [nbrTargets, feature, hY, hY']
  exact hsame _ o1 o2

/-- Averaging: the prediction from coincident points with noise `τ` is the sum of their responses divided by their number plus `τ`. -/
theorem kriging_coincident (n : Nat) {τ : ℝ} (hτ : 0 < τ) (y : Fin n → ℝ) :
    Spec.krigingMean ((Matrix.of fun _ _ => 1 : Matrix (Fin n) (Fin n) ℝ) + τ • 1) (fun _ => 1) y = (∑ j, y j) / (n + τ) := by
  set A : Matrix (Fin n) (Fin n) ℝ := (Matrix.of fun _ _ => 1 : Matrix (Fin n) (Fin n) ℝ) + τ • 1 with hA
  have hpsd : (Matrix.of fun _ _ => 1 : Matrix (Fin n) (Fin n) ℝ).PosSemidef := by
    have := posSemidef_vecMulVec_self_star (fun _ : Fin n => (1 : ℝ))
    convert this using 1
    ext i j
    simp [vecMulVec]
  have hpd : A.PosDef := Kriging.posdef_of_psd_add hpsd hτ
  have hne : (n : ℝ) + τ ≠ 0 := by positivity
  have h1 : A *ᵥ (fun _ => 1 / (n + τ)) = fun _ => 1 := by
    funext i
    rw [hA, add_mulVec, Pi.add_apply, smul_mulVec, one_mulVec]
    simp only [mulVec, dotProduct, of_apply, one_mul, Finset.sum_const, Finset.card_univ, Fintype.card_fin, nsmul_eq_mul, Pi.smul_apply, smul_eq_mul]
    field_simp
  have h2 : A⁻¹ *ᵥ (fun _ => 1) = fun _ => 1 / (n + τ) := by
    rw [← h1, Kriging.inv_mulVec_cancel (Kriging.det_ne_zero hpd)]
  unfold Spec.krigingMean
  rw [← Kriging.swap (Kriging.posdef_symm hpd), h2]
  simp only [dotProduct, one_div]
  rw [← Finset.mul_sum, div_eq_inv_mul]

/-- C90 is false of the code when training points coincide: for `N ≥ 2` equal training points and every kernel, noise variance and neighbour count there is an exact index for which
the prediction of training point `N - 2` in a batch of all points moves with that point's own response. -/
theorem C90_duplicates_fail (bs : Flt → ℝ → ℝ) (L : Learner) (hmade : L.Made) (hsuit : L.fn.Suits L.deform.metric)
    (N f k : Nat) (hk : 0 < k) (hkN : k + 1 ≤ N) (c : ℝ) (dist : (Fin f → ℝ) → (Fin f → ℝ) → ℝ) (sq : Bool)
    (len : Fin f → ℝ) (hlen : L.deform.HasLengths f len) (τ : ℝ) (hτ : L.trainee.R.gp.noise.Level τ) (hpos : 0 < τ) :
    ∃ answer, let w : NNWrapper := ⟨N, f, ⟨[N, f], fun _ => c⟩, k, dist, sq, answer⟩
      w.Exact ∧ ∃ idx nn, sampleBatch w N N [] = .ok (idx, nn) ∧ idx = List.range N ∧
        ∀ Y Y' : Tensor ℝ, Y.shape = [N] → Y'.shape = [N] → SameBut Y Y' N (N - 2) →
          ∃ d d' μ μ', L.trainData (idx, nn) w.train Y = .ok d ∧ L.trainData (idx, nn) w.train Y' = .ok d' ∧
            L.looMeans bs d = .ok μ ∧ L.looMeans bs d' = .ok μ' ∧
            μ'.get [N - 2] - μ.get [N - 2] = (Y'.get [N - 2] - Y.get [N - 2]) / (k + τ) := by
  let w : NNWrapper := ⟨N, f, ⟨[N, f], fun _ => c⟩, k, dist, sq, fun _ k => (List.range N).reverse.take k⟩
  have hsame : ∀ i, rowPt w.train f i = fun _ => c := fun i => by funext x; rfl
  have hpt : ∀ i, pt w.train f i = fun _ => c := fun i => by funext x; rfl
  have hw : w.Exact := by
    refine ⟨rfl, fun q k hk => ⟨?_, ?_, ?_, ?_, ?_⟩⟩
    · show ((List.range N).reverse.take k).length = k
      simp only [List.length_take, List.length_reverse, List.length_range]
      exact Nat.min_eq_left hk
    · exact (List.nodup_reverse.mpr List.nodup_range).sublist (List.take_sublist _ _)
    · intro i hi
      have := List.mem_of_mem_take hi
      simpa using this
    · apply List.pairwise_of_forall
      intro a b
      show dist q (rowPt w.train f a) ≤ dist q (rowPt w.train f b)
      rw [hsame, hsame]
    · intro i _ j _ _
      show dist q (rowPt w.train f i) ≤ dist q (rowPt w.train f j)
      rw [hsame, hsame]
  refine ⟨fun _ k => (List.range N).reverse.take k, hw, ?_⟩
  have hd : N < w.N → IsDraw w.N N [] := fun h => absurd h (lt_irrefl N)
  have hN : 0 < w.N := by show 0 < N; omega
  obtain ⟨idx, nn, D, h1, h2, h3, h4, h5, h6, h7⟩ := sampleBatch_ok w hw N hN hN [] hd hkN
  have hidx : idx = List.range N := by rw [h2, if_neg (lt_irrefl N)]
  obtain ⟨I, D', i1, i2, -, i3⟩ := batch_ok w hw (ofNats idx) idx.length rfl (ofNats_valid h5) h4 hkN
  rw [h3] at i1
  obtain ⟨rfl, rfl⟩ := Prod.mk.inj (Except.ok.inj i1)
  refine ⟨idx, nn, h1, hidx, fun Y Y' hY hY' hs => ?_⟩
  have hlenI : idx.length = N := by rw [hidx, List.length_range]
  have hp : N - 2 < idx.length := by omega
  have hx : idx[N - 2]? = some (N - 2) := by rw [hidx, List.getElem?_range (by omega)]
  set l : List Nat := ((List.range N).reverse.take (k + 1)).tail with hl
  have hrow : ∀ p < idx.length, rowList nn w.nnCount p = l.map Int.ofNat := fun p hp => (i3 p hp).1
  have hln : l.Nodup := ((List.nodup_reverse.mpr List.nodup_range).sublist (List.take_sublist _ _)).sublist (List.tail_sublist _)
  have hlm : ∀ j ∈ l, j < w.N := fun j hj => by
    have := List.mem_of_mem_take (List.mem_of_mem_tail hj)
    simpa using this
  have hll : l.length = w.nnCount := by
    rw [hl, List.length_tail, List.length_take, List.length_reverse, List.length_range]
    show min (k + 1) N - 1 = k
    omega
  have hlx : l[0]? = some (N - 2) := by
    rw [hl, List.getElem?_tail, List.getElem?_take, if_pos (by omega),
      List.getElem?_reverse (by simp; omega), List.length_range, List.getElem?_range (by omega)]
    congr 1
  have hv : AllValid w.N nn := valid_of_rows i2 fun i hi j hj => by
    obtain ⟨x, x1, x2⟩ := rowList_get (hrow i hi) hj
    exact ⟨x, x2, hlm x (List.mem_of_getElem? x1)⟩
  have hpd := batch_posdef bs L hsuit w len hlen idx.length nn (fun p hp => ⟨l, hrow p hp, hll, hln, hlm⟩) ((hτ.suffices_iff _ _ _).mpr (.inl hpos))
  have hone : ∀ x y : Fin f → ℝ, x = y → L.trainee.R.kernel.covFn bs len x y = 1 := fun x y h => by
    rw [h]; exact covFn_self bs L.trainee.R.kernel hsuit len y
  have one : ∀ Y : Tensor ℝ, Y.shape = [w.N] → ∃ d μ, L.trainData (idx, nn) w.train Y = .ok d ∧ L.looMeans bs d = .ok μ ∧
      μ.get [N - 2] = (∑ j : Fin w.nnCount, Y.get [l.getD j 0]) / (w.nnCount + τ) := fun Y hY => by
    obtain ⟨idx', nn', d, g1, -, -, -, -, -, g2, g3, g3', g4t, g4, g6, g5⟩ := regressor_data L w hw len hlen N hN [] hd hN hkN Y hY
    rw [h1] at g1
    obtain ⟨rfl, rfl⟩ := Prod.mk.inj (Except.ok.inj g1)
    obtain ⟨K, C, μ, e1, e2, e3, e4, e5, -⟩ := batch_predictions bs L hmade w hw len hlen idx nn h5 i2 hv d g3 g3' g4 (hτ.fits _ _)
      (fun p hp => Kriging.det_ne_zero (hpd p hp))
    refine ⟨d, μ, g2, by simp only [Learner.looMeans, e1, e2, e3, bind, Except.bind], ?_⟩
    rw [e5 _ hp, g5 _ hp, ← kriging_coincident w.nnCount hpos]
    congr 1
    · rw [Learner.batchCov, hτ.mat]
      congr 1
      funext i j
      exact hone _ _ (by rw [hpt, hpt])
    · funext j
      exact hone _ _ (by rw [hpt, hsame])
    · funext j
      obtain ⟨x, x1, x2⟩ := rowList_get (hrow _ hp) j.2
      simp only [nbrTargets, feature, hY, x2, pointOf_nat, List.getD_eq_getElem?_getD, x1, Option.getD_some]
  obtain ⟨d, μ, a1, a2, a3⟩ := one Y hY
  obtain ⟨d', μ', b1, b2, b3⟩ := one Y' hY'
  refine ⟨d, d', μ, μ', a1, b1, a2, b2, ?_⟩
  rw [a3, b3, ← sub_div, ← Finset.sum_sub_distrib]
  congr 1
  rw [Finset.sum_eq_single (⟨0, hk⟩ : Fin w.nnCount)]
  · rw [List.getD_eq_getElem?_getD, hlx, Option.getD_some]
  · intro j _ hj
    have hjl : (j : ℕ) < l.length := by rw [hll]; exact j.2
    have e : l.getD j 0 = l[(j : ℕ)] := by rw [List.getD_eq_getElem?_getD, List.getElem?_eq_getElem hjl, Option.getD_some]
    rw [e, hs _ (hlm _ (List.getElem_mem hjl)) fun h => hj (Fin.ext ?_), sub_self]
    have h0 : l[0]'(by omega) = N - 2 := (List.getElem?_eq_some_iff.mp hlx).2
    exact (List.Nodup.getElem_inj_iff hln).mp (h.trans h0.symm)
  · exact fun h => absurd (Finset.mem_univ _) h

/-- Non-vacuity of `C90_no_leak_partial`: training points `0`, `1`, `3`, two neighbours, a batch of two; the response `0` of the last point replaced by `7`. -/
example (bs : Flt → ℝ → ℝ) : ∃ (w : NNWrapper) (idx : List Nat) (nn : Tensor Int) (d d' : TrainData) (μ μ' : Tensor ℝ), w.Exact ∧ w.train = lineTrain ∧ w.nnCount = 2 ∧
    sampleBatch w 2 w.N [2, 0] = .ok (idx, nn) ∧ idx = [2, 0] ∧ lineFixed.looMeans bs d = .ok μ ∧ lineFixed.looMeans bs d' = .ok μ' ∧ μ'.get [0] = μ.get [0] ∧
    d.targets.get [0] = 0 ∧ d'.targets.get [0] = 7 := by
  obtain ⟨answer, hw⟩ := line_exact
  obtain ⟨idx, nn, h1, h2, h3⟩ := C90_no_leak_partial bs lineFixed rfl _ hw (line_separated answer) (fun _ => 1)
    ⟨1, one_pos, rfl, fun _ => rfl⟩ 2 two_pos [2, 0] (fun _ => ⟨rfl, by decide, fun x hx => by show x < 3; fin_cases hx <;> norm_num⟩)
    (by show 0 < 3; norm_num) (le_refl 3) (fun _ => trivial) (.inl ⟨rfl, fun _ => .inl one_pos⟩)
  have hidx : idx = [2, 0] := by
    obtain ⟨i, n, g1, -, -, -, g2, -⟩ := C42_batch _ hw 2 two_pos (by show 0 < 3; norm_num) [2, 0]
      (fun _ => ⟨rfl, by decide, fun x hx => by show x < 3; fin_cases hx <;> norm_num⟩) (le_refl 3)
    rw [h1] at g1
    cases g1
    exact g2 (by show 2 < 3; norm_num)
  obtain ⟨d, d', μ, μ', a1, a2, a3, a4, -, -, a5, a6, a7⟩ := h3 0 2 (by rw [hidx]; rfl) lineTargets ⟨[3], fun k => if k = 2 then 7 else lineTargets.flat k⟩ rfl rfl
    (fun z _ hz => by rw [Tensor.get1 _ rfl, Tensor.get1 _ rfl]; simp [hz])
  refine ⟨_, idx, nn, d, d', μ, μ', hw, rfl, rfl, h1, hidx, a3, a4, a7, ?_, ?_⟩
  · rw [a5, Tensor.get1 _ rfl]; simp [lineTargets]
  · rw [a6, Tensor.get1 _ rfl]; simp

/-- Non-vacuity of `C90_duplicates_fail`: five points at `0`, one neighbour. -/
example (bs : Flt → ℝ → ℝ) : ∃ (w : NNWrapper), w.Exact ∧ w.N = 5 ∧ ∃ idx nn, sampleBatch w 5 5 [] = .ok (idx, nn) ∧ idx = List.range 5 := by
  obtain ⟨answer, hw, idx, nn, h1, h2, -⟩ := C90_duplicates_fail bs lineFixed rfl rfl 5 1 1 one_pos (by norm_num) 0 (fun x y => |x 0 - y 0|) false (fun _ => 1)
    ⟨1, one_pos, rfl, fun _ => rfl⟩ 1 rfl one_pos
  exact ⟨_, hw, rfl, idx, nn, h1, h2⟩

end MuyGPyS
