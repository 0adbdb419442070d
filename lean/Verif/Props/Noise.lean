import Verif.Lemmas.Posterior

/-!
# Property C22: noise models perturb exactly the diagonal
-/

namespace MuyGPyS
open Py

theorem get_of_matAt3 {b n : Nat} {P Kin : Tensor ℝ} (hP : P.shape = [b, n, n])
    (hK : Kin.shape = [b, n, n]) {p i j : Nat} (hi : i < n) (hj : j < n)
    {D : Matrix (Fin n) (Fin n) ℝ} (h : P.matAt n n p = Kin.matAt n n p + D) :
    P.get [p, i, j] = Kin.get [p, i, j] + D ⟨i, hi⟩ ⟨j, hj⟩ := by
  have := congrFun (congrFun h ⟨i, hi⟩) ⟨j, hj⟩
  rw [Matrix.add_apply, Tensor.matAt_apply P hP, Tensor.matAt_apply Kin hK] at this
  exact this

theorem idx_lt {o n a i : Nat} (ha : a < o) (hi : i < n) : a * n + i < o * n := by
  calc a * n + i < a * n + n := by omega
    _ = (a + 1) * n := by ring
    _ ≤ o * n := Nat.mul_le_mul_right _ ha

theorem mul_add_mod_lt {n a i : Nat} (hi : i < n) : (a * n + i) % n = i := by
  rw [Nat.add_comm, Nat.add_mul_mod_self_right, Nat.mod_eq_of_lt hi]

theorem get_of_matAt5 {b o n : Nat} {P Kin : Tensor ℝ} (hP : P.shape = [b, o, n, o, n])
    (hK : Kin.shape = [b, o, n, o, n]) {p a i c j : Nat} (ha : a < o) (hi : i < n) (hc : c < o)
    (hj : j < n) {D : Matrix (Fin (o * n)) (Fin (o * n)) ℝ}
    (h : P.matAt (o * n) (o * n) p = Kin.matAt (o * n) (o * n) p + D) :
    P.get [p, a, i, c, j] = Kin.get [p, a, i, c, j] +
      D ⟨a * n + i, idx_lt ha hi⟩ ⟨c * n + j, idx_lt hc hj⟩ := by
  have := congrFun (congrFun h ⟨a * n + i, idx_lt ha hi⟩) ⟨c * n + j, idx_lt hc hj⟩
  rw [Matrix.add_apply, matAt_cov5 P hP, matAt_cov5 Kin hK] at this
  simp only [Spec.cov5, dec_row hi, dec_row hj, mul_add_mod_lt hi,
    mul_add_mod_lt hj] at this
  exact this

theorem idx_eq_iff {n a i c j : Nat} (hi : i < n) (hj : j < n) :
    a * n + i = c * n + j ↔ a = c ∧ i = j := by
  constructor
  · intro h
    have h1 := congrArg (· / n) h
    have h2 := congrArg (· % n) h
    simp only [dec_row hi, dec_row hj, mul_add_mod_lt hi, mul_add_mod_lt hj] at h1 h2
    exact ⟨h1, h2⟩
  · rintro ⟨rfl, rfl⟩; rfl

/-- **C22**, homoscedastic noise on single-output covariances: exactly the diagonal entries grow, by
the noise value; a `noise` keyword replaces the stored value. -/
theorem C22_homoscedastic (v : ℝ) (kw : Option ℝ) (b n : Nat) (Kin : Tensor ℝ)
    (h : Kin.shape = [b, n, n]) :
    ∃ P, (Noise.homoscedastic v).perturb Kin kw = .ok P ∧ P.shape = [b, n, n] ∧
      ∀ p < b, ∀ i < n, ∀ j < n,
        P.get [p, i, j] = Kin.get [p, i, j] + if i = j then kw.getD v else 0 := by
  obtain ⟨P, hP, hs, hm⟩ := homoscedastic3 Kin (kw.getD v) h
  refine ⟨P, hP, hs, ?_⟩
  intro p _ i hi j hj
  rw [get_of_matAt3 hs h hi hj (hm p)]
  simp [Matrix.one_apply]

/-- **C22**, homoscedastic noise on multi-output covariances `(b, o, n, o, n)`. -/
theorem C22_homoscedastic_multi (v : ℝ) (kw : Option ℝ) (b o n : Nat) (Kin : Tensor ℝ)
    (h : Kin.shape = [b, o, n, o, n]) :
    ∃ P, (Noise.homoscedastic v).perturb Kin kw = .ok P ∧ P.shape = [b, o, n, o, n] ∧
      ∀ p < b, ∀ a < o, ∀ i < n, ∀ c < o, ∀ j < n,
        P.get [p, a, i, c, j] =
          Kin.get [p, a, i, c, j] + if a = c ∧ i = j then kw.getD v else 0 := by
  obtain ⟨P, hP, hs, hm⟩ := homoscedastic5 Kin (kw.getD v) h
  refine ⟨P, hP, hs, ?_⟩
  intro p _ a ha i hi c hc j hj
  rw [get_of_matAt5 hs h ha hi hc hj (hm p)]
  simp [Matrix.one_apply, idx_eq_iff hi hj]

/-- **C22**, shear noise: twice the value on the diagonal of the first observable (convergence), the
value on the diagonals of the two shear observables, nothing elsewhere. -/
theorem C22_shear (v : ℝ) (kw : Option ℝ) (b n : Nat) (Kin : Tensor ℝ)
    (h : Kin.shape = [b, 3, n, 3, n]) :
    ∃ P, (Noise.shear33 v).perturb Kin kw = .ok P ∧ P.shape = [b, 3, n, 3, n] ∧
      ∀ p < b, ∀ a < 3, ∀ i < n, ∀ c < 3, ∀ j < n,
        P.get [p, a, i, c, j] =
          Kin.get [p, a, i, c, j] +
            if a = c ∧ i = j then (if a = 0 then 2 * kw.getD v else kw.getD v) else 0 := by
  obtain ⟨P, hP, hs, hm⟩ := shear5 Kin (kw.getD v) h
  refine ⟨P, hP, hs, ?_⟩
  intro p _ a ha i hi c hc j hj
  rw [get_of_matAt5 hs h ha hi hc hj (hm p)]
  congr 1
  rw [Matrix.diagonal_apply]
  simp only [Fin.mk.injEq, idx_eq_iff hi hj]
  refine if_congr Iff.rfl ?_ rfl
  refine if_congr ?_ rfl rfl
  constructor
  · intro hlt
    by_contra ha0
    have : 1 * n ≤ a * n := Nat.mul_le_mul_right _ (by omega)
    omega
  · rintro rfl; omega

/-- **C22**, heteroscedastic noise: each diagonal entry grows by its own measurement variance; the
keyword is ignored. -/
theorem C22_heteroscedastic (v : Tensor ℝ) (kw : Option ℝ) (b n : Nat) (Kin : Tensor ℝ)
    (h : Kin.shape = [b, n, n]) (hv : v.shape = [b, n]) :
    ∃ P, (Noise.heteroscedastic v).perturb Kin kw = .ok P ∧ P.shape = [b, n, n] ∧
      ∀ p < b, ∀ i < n, ∀ j < n,
        P.get [p, i, j] = Kin.get [p, i, j] + if i = j then v.get [p, i] else 0 := by
  obtain ⟨P, hP, hs, hm⟩ := heteroscedastic3 Kin v h hv
  refine ⟨P, hP, hs, ?_⟩
  intro p _ i hi j hj
  rw [get_of_matAt3 hs h hi hj (hm p), Matrix.diagonal_apply]
  simp [Tensor.vecAt, Tensor.get2 v hv]

/-- **C22**, null noise returns the very same tensor. -/
theorem C22_null (Kin : Tensor ℝ) (kw : Option ℝ) : Noise.null.perturb Kin kw = .ok Kin := rfl

/-- **C22**, rejected input: a tensor whose rank is not supported by the noise model is an error. -/
theorem C22_unsupported_rank (Kin : Tensor ℝ) (kw : Option ℝ) :
    (∀ v, Kin.ndim ≠ 3 → Kin.ndim ≠ 5 → (Noise.homoscedastic v).perturb Kin kw = .error .value) ∧
    (∀ v, Kin.ndim ≠ 5 → (Noise.shear33 v).perturb Kin kw = .error .value) ∧
    (∀ v, Kin.ndim ≠ 3 → (Noise.heteroscedastic v).perturb Kin kw = .error .value) := by
  unfold Tensor.ndim
  refine ⟨fun v h3 h5 => ?_, fun v h5 => ?_, fun v h3 => ?_⟩
  · show homoscedasticPerturb Kin _ = _
    unfold homoscedasticPerturb
    split
    · rename_i hs; simp [hs] at h3
    · rename_i hs; simp [hs] at h5
    · rfl
  · show shearPerturb33 Kin _ = _
    unfold shearPerturb33
    split
    · rename_i hs; simp [hs] at h5
    · rfl
  · show heteroscedasticPerturb Kin _ = _
    unfold heteroscedasticPerturb
    split
    · rename_i hs; simp [hs] at h3
    · rfl

/-- **C22**, rejected input: a multi-output tensor whose blocks do not match is an error, and so is
shear noise on a number of observables other than three. -/
theorem C22_bad_blocks (v : ℝ) (kw : Option ℝ) (b o n o' n' : Nat) (Kin : Tensor ℝ)
    (h : Kin.shape = [b, o, n, o', n']) :
    ((o, n) ≠ (o', n') → (Noise.homoscedastic v).perturb Kin kw = .error .assertion) ∧
    ((o, n) ≠ (o', n') ∨ o ≠ 3 → (Noise.shear33 v).perturb Kin kw = .error .assertion) := by
  constructor
  · intro hne
    show homoscedasticPerturb Kin _ = _
    unfold homoscedasticPerturb; rw [h]
    by_cases hn : n = n'
    · by_cases ho : o = o'
      · subst hn ho; simp at hne
      · simp [hn, ho]
    · simp [hn]
  · intro hne
    show shearPerturb33 Kin _ = _
    unfold shearPerturb33; rw [h]
    by_cases hn : n = n'
    · by_cases ho : o = o'
      · subst hn ho; simp at hne; simp [hne]
      · simp [hn, ho]
    · simp [hn]

example : ∃ K : Tensor ℝ, K.shape = [2, 3, 3] := ⟨⟨[2, 3, 3], fun k => k⟩, rfl⟩
example : ∃ K : Tensor ℝ, K.shape = [2, 3, 4, 3, 4] := ⟨⟨[2, 3, 4, 3, 4], fun k => k⟩, rfl⟩
example : ∃ K v : Tensor ℝ, K.shape = [2, 3, 3] ∧ v.shape = [2, 3] :=
  ⟨⟨[2, 3, 3], fun k => k⟩, ⟨[2, 3], fun k => k⟩, rfl, rfl⟩

end MuyGPyS
