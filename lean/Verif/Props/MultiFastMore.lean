import Verif.Props.FastPipeline
import Verif.Props.ClassifyWitness

/-! # C47: when the multi-output fast coefficients are computed -/

namespace MuyGPyS
open Py Matrix

/-- Removing the axes of length one of `(t, n)` leaves a shape that broadcasts to `(t, n)`, unless there is one neighbour and several points. -/
theorem squeezed_broadcasts {t n : Nat} (h : n ≠ 1 ∨ t = 1) : broadcastsTo2 ([t, n, 1].filter (· ≠ 1)) t n = true := by
  by_cases hn : n = 1
  · obtain rfl : t = 1 := h.resolve_left (not_not.mpr hn)
    subst hn
    rfl
  · by_cases ht : t = 1
    · subst ht
      simp [hn, broadcastsTo2]
    · simp [hn, ht, broadcastsTo2]

/-- **C47**: with no more models than responses, more than one neighbour (or one training point only), and invertible covariances (with the noise
added twice, as the code does), the coefficients are computed without an error; they are all zero. -/
theorem C47_succeeds (bs : Flt → ℝ → ℝ) (models : List Trainee) (t n r : Nat) (htn : n ≠ 1 ∨ t = 1) (pd y : Tensor ℝ)
    (hy : y.shape = [t, n, r]) (hlen : models.length ≤ r)
    (hm : ∀ T ∈ models, T.R.gp.noise.Fits t n ∧ ∃ K, T.R.kernel.call bs pd [] = .ok K ∧ K.shape = [t, n, n] ∧
      ∀ p < t, (Spec.cov n K p + T.R.gp.noise.mat n p + T.R.gp.noise.mat n p).det ≠ 0) :
    ∃ C, multiFastCoefficients bs models pd y = .ok C ∧ C.shape = [t, n, r] ∧ ∀ k, C.flat k = 0 := by
  have hok : multiFastCoefficients bs models pd y = .ok (zeros [t, n, r]) := by
    unfold multiFastCoefficients
    rw [hy]
    simp only
    rw [foldlM_unit]
    · rfl
    rintro ⟨T, i⟩ hTi
    obtain ⟨-, h2, h3⟩ := List.mem_zipIdx hTi
    simp only [Nat.zero_add, Nat.sub_zero] at h2 h3
    have hi : i < r := by omega
    obtain ⟨hν, K, k1, k2, k3⟩ := hm T (h3 ▸ List.getElem_mem _)
    obtain ⟨P, p1, p2, p3⟩ := T.R.gp.noise.perturb_cov hν K k2
    obtain ⟨P', q1, q2, q3⟩ := T.R.gp.noise.perturb_cov hν P p2
    obtain ⟨c, c1, c2, -⟩ := fastPrecompute_single P' ⟨[t, n], fun k => y.flat (k * r + i)⟩ q2 rfl
      (fun p hp => by rw [q3, p3]; exact k3 p hp)
    have hc : T.R.gp.fastCoefficients P ⟨[t, n], fun k => y.flat (k * r + i)⟩ = .ok c := by
      unfold MuyGPS.fastCoefficients Noise.perturbFn
      simp only [q1, bind, Except.bind, c1]
    simp only [k1, p1, (targetColumn_eq t n r i y hy hi).1, hc, bind, Except.bind]
    unfold assignLastDropped
    simp only [zeros]
    rw [if_neg (by omega), c2, if_pos (squeezed_broadcasts htn)]
  exact ⟨_, hok, rfl, fun _ => rfl⟩

/-- **C47**: given the kernel values and coefficients of every response, the implementation adds their products over the neighbours, for each prediction and response. -/
theorem C47_contraction (Kcross coeffs : Tensor ℝ) (b n r : Nat) (hK : Kcross.shape = [b, n, r]) (hc : coeffs.shape = [b, n, r]) :
    ∃ T, mmFastPosteriorMean Kcross coeffs = .ok T ∧ T.shape = [b, r] ∧
      ∀ p < b, ∀ c < r, T.get [p, c] = ∑ j ∈ Finset.range n, Kcross.get [p, j, c] * coeffs.get [p, j, c] := by
  refine ⟨Tensor.ofFn [b, r] fun q => ((List.range n).map fun j =>
    Kcross.get [q.getD 0 0, j, q.getD 1 0] * coeffs.get [q.getD 0 0, j, q.getD 1 0]).sum, ?_, rfl, fun p hp c hc => ?_⟩
  · unfold mmFastPosteriorMean
    rw [if_pos (hK.trans hc.symm), hc]
  · rw [ofFn_get2 _ hp hc, ← List.sum_toFinset _ List.nodup_range, List.toFinset_range]
    rfl

/-- Non-vacuity of `C47_succeeds`: two models of different noise; one training point with one neighbour, and two points with three. -/
example (bs : Flt → ℝ → ℝ) (y : Nat → ℝ) :
    (∃ C, multiFastCoefficients bs [noisyModel 1, noisyModel 2] ⟨[1, 1, 1], fun _ => 0⟩ ⟨[1, 1, 2], y⟩ = .ok C ∧ C.shape = [1, 1, 2]) ∧
    ∃ C, multiFastCoefficients bs [noisyModel 1, noisyModel 2] ⟨[2, 3, 3], fun _ => 0⟩ ⟨[2, 3, 2], y⟩ = .ok C ∧ C.shape = [2, 3, 2] := by
  have key : ∀ (t n : Nat) (τ : ℝ), 0 < τ → (noisyModel τ).R.gp.noise.Fits t n ∧
      ∃ K, (noisyModel τ).R.kernel.call bs ⟨[t, n, n], fun _ => 0⟩ [] = .ok K ∧ K.shape = [t, n, n] ∧
        ∀ p < t, (Spec.cov n K p + (noisyModel τ).R.gp.noise.mat n p + (noisyModel τ).R.gp.noise.mat n p).det ≠ 0 := fun t n τ hτ =>
    ⟨trivial, _, noisy_kernel bs τ _ [] (fun a ha => by simp at ha) rfl, rfl, fun p _ => by
      rw [add_assoc]
      have : (noisyModel τ).R.gp.noise.mat n p + (noisyModel τ).R.gp.noise.mat n p = (τ + τ) • (1 : Matrix (Fin n) (Fin n) ℝ) :=
        (add_smul τ τ _).symm
      rw [this]
      exact Kriging.det_ne_zero (Kriging.posdef_of_psd_add (ones_psd p) (by linarith))⟩
  have hm : ∀ (t n : Nat), ∀ T ∈ [noisyModel 1, noisyModel 2], T.R.gp.noise.Fits t n ∧
      ∃ K, T.R.kernel.call bs ⟨[t, n, n], fun _ => 0⟩ [] = .ok K ∧ K.shape = [t, n, n] ∧
        ∀ p < t, (Spec.cov n K p + T.R.gp.noise.mat n p + T.R.gp.noise.mat n p).det ≠ 0 := fun t n T hT => by
    rcases List.mem_pair.1 hT with rfl | rfl
    exacts [key t n 1 one_pos, key t n 2 two_pos]
  obtain ⟨C, c1, c2, -⟩ := C47_succeeds bs [noisyModel 1, noisyModel 2] 1 1 2 (.inr rfl) _ ⟨[1, 1, 2], y⟩ rfl le_rfl (hm 1 1)
  obtain ⟨C', c1', c2', -⟩ := C47_succeeds bs [noisyModel 1, noisyModel 2] 2 3 2 (.inl (by norm_num)) _ ⟨[2, 3, 2], y⟩ rfl le_rfl (hm 2 3)
  exact ⟨⟨C, c1, c2⟩, C', c1', c2'⟩

end MuyGPyS
