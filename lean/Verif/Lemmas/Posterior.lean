import Verif.Model.Posterior
import Verif.Spec.Kriging
import Verif.Spec.Views
import Mathlib.Tactic.Linarith
import Mathlib.Tactic.FieldSimp

namespace MuyGPyS
open Py Matrix

/-! ### row-major decoding -/

theorem dec_div {n m p i j : Nat} (hi : i < n) (hj : j < m) :
    (p * (n * m) + i * m + j) / (n * m) = p := by
  have hij : i * m + j < n * m := by
    calc i * m + j < i * m + m := by omega
      _ = (i + 1) * m := by ring
      _ ≤ n * m := Nat.mul_le_mul_right _ hi
  rw [Nat.add_assoc, Nat.add_comm, Nat.add_mul_div_right _ _ (by omega), Nat.div_eq_of_lt hij,
    Nat.zero_add]

theorem dec_mod {n m p i j : Nat} (hi : i < n) (hj : j < m) :
    (p * (n * m) + i * m + j) % (n * m) = i * m + j := by
  have hij : i * m + j < n * m := by
    calc i * m + j < i * m + m := by omega
      _ = (i + 1) * m := by ring
      _ ≤ n * m := Nat.mul_le_mul_right _ hi
  rw [Nat.add_assoc, Nat.add_comm, Nat.add_mul_mod_self_right, Nat.mod_eq_of_lt hij]

theorem dec_row {m i j : Nat} (hj : j < m) : (i * m + j) / m = i := by
  rw [Nat.add_comm, Nat.add_mul_div_right _ _ (by omega), Nat.div_eq_of_lt hj, Nat.zero_add]

theorem dec_col {n m p i j : Nat} (hj : j < m) : (p * (n * m) + i * m + j) % m = j := by
  have : p * (n * m) + i * m + j = j + (p * n + i) * m := by ring
  rw [this, Nat.add_mul_mod_self_right, Nat.mod_eq_of_lt hj]

/-! ### shapes -/

theorem zipEq_same (l : List Nat) :
    (List.zipWith (fun a b => if a = b then 1 else 0) l l).sum = l.length := by
  induction l with
  | nil => rfl
  | cons a l ih => simp [ih, Nat.add_comm]

theorem findMatching_prefix (bs ins exs rest : List Nat)
    (hex : List.Forall₂ (· ≠ ·) exs (rest.take exs.length)) :
    findMatchingNdim (bs ++ ins ++ exs) (bs ++ ins ++ rest) = .ok (bs ++ ins).length := by
  have hl : exs.length ≤ rest.length := by
    have := hex.length_eq
    rw [List.length_take] at this; omega
  unfold findMatchingNdim
  rw [if_pos (by simp; omega)]
  congr 1
  have e1 : (bs ++ ins ++ rest).take (bs ++ ins ++ exs).length = bs ++ ins ++ rest.take exs.length := by
    rw [List.length_append, List.take_append]
    rw [List.take_of_length_le (by omega)]
    simp
  rw [e1, List.zipWith_append (by rfl), List.sum_append, zipEq_same]
  have hz : ∀ (a b : List Nat), List.Forall₂ (· ≠ ·) a b →
      (List.zipWith (fun a b => if a = b then 1 else 0) a b).sum = 0 := by
    intro a b h
    induction h with
    | nil => rfl
    | cons h1 _ ih => simp [h1, ih]
  rw [hz _ _ hex, Nat.add_zero]

theorem prod_app2 (bs : List Nat) (a b : Nat) : (bs ++ [a, b]).prod = bs.prod * (a * b) := by
  simp

theorem posteriorMean_core (bs ins outs exs : List Nat) (Kin Kcross y : Tensor ℝ)
    (hins : ins ≠ [])
    (hK : Kin.shape = bs ++ ins ++ ins) (hC : Kcross.shape = bs ++ ins ++ outs)
    (hy : y.shape = bs ++ ins ++ exs)
    (hex : List.Forall₂ (· ≠ ·) exs (ins.take exs.length))
    (hdet : ∀ p < bs.prod, (Kin.matAt ins.prod ins.prod p).det ≠ 0) :
    ∃ T, posteriorMean Kin Kcross y = .ok T ∧ T.shape = bs ++ outs ++ exs ∧
      ∀ p, T.matAt outs.prod exs.prod p =
        ((Kin.matAt ins.prod ins.prod p)⁻¹ * Kcross.matAt ins.prod outs.prod p).transpose
          * y.matAt ins.prod exs.prod p := by
  have hlen : ins.length ≠ 0 := by simpa using hins
  have hfm : findMatchingNdim y.shape Kin.shape = .ok (bs ++ ins).length := by
    rw [hy, hK]; exact findMatching_prefix bs ins exs ins hex
  have hin : Kin.shape.drop (bs ++ ins).length = ins := by
    rw [hK, List.drop_left']; rfl
  have hout : Kcross.shape.drop (bs ++ ins).length = outs := by
    rw [hC, List.drop_left']; rfl
  have hbs : dropTail2 Kin.shape ins.length = bs := by
    unfold dropTail2
    rw [if_neg hlen, hK]
    rw [List.append_assoc, List.take_left']
    simp; omega
  have hext : y.shape.drop (bs.length + ins.length) = exs := by
    rw [hy, List.drop_left']; simp
  have e1 : (bs ++ [ins.prod, exs.prod]).prod = y.shape.prod := by rw [hy]; simp [mul_assoc]
  have e2 : (bs ++ [ins.prod, ins.prod]).prod = Kin.shape.prod := by rw [hK]; simp [mul_assoc]
  have e3 : (bs ++ [ins.prod, outs.prod]).prod = Kcross.shape.prod := by rw [hC]; simp [mul_assoc]
  obtain ⟨F, hF, hFs, hFm⟩ := Tensor.solve_ok bs ins.prod outs.prod
    ⟨bs ++ [ins.prod, ins.prod], Kin.flat⟩ ⟨bs ++ [ins.prod, outs.prod], Kcross.flat⟩ rfl rfl hdet
  obtain ⟨R, hR, hRs, hRm⟩ := Tensor.matmulT_ok bs ins.prod outs.prod exs.prod F
    ⟨bs ++ [ins.prod, exs.prod], y.flat⟩ hFs rfl
  have e4 : (bs ++ outs ++ exs).prod = R.shape.prod := by rw [hRs]; simp [mul_assoc]
  refine ⟨⟨bs ++ outs ++ exs, R.flat⟩, ?_, rfl, ?_⟩
  · unfold posteriorMean
    rw [hfm]
    simp only [bind, Except.bind, hin, hout, hbs, hext, Tensor.reshape_ok _ _ e1,
      Tensor.reshape_ok _ _ e2, Tensor.reshape_ok _ _ e3, hF, hR, Tensor.reshape_ok _ _ e4]
  · intro p
    rw [Tensor.matAt_mk, hRm, hFm]
    rfl

theorem posteriorMean_singular (bs ins outs exs : List Nat) (Kin Kcross y : Tensor ℝ)
    (hins : ins ≠ [])
    (hK : Kin.shape = bs ++ ins ++ ins) (hC : Kcross.shape = bs ++ ins ++ outs)
    (hy : y.shape = bs ++ ins ++ exs)
    (hex : List.Forall₂ (· ≠ ·) exs (ins.take exs.length))
    (p : Nat) (hp : p < bs.prod) (hdet : (Kin.matAt ins.prod ins.prod p).det = 0) :
    posteriorMean Kin Kcross y = .error .linAlg := by
  have hlen : ins.length ≠ 0 := by simpa using hins
  have hfm : findMatchingNdim y.shape Kin.shape = .ok (bs ++ ins).length := by
    rw [hy, hK]; exact findMatching_prefix bs ins exs ins hex
  have hin : Kin.shape.drop (bs ++ ins).length = ins := by
    rw [hK, List.drop_left']; rfl
  have hout : Kcross.shape.drop (bs ++ ins).length = outs := by
    rw [hC, List.drop_left']; rfl
  have hbs : dropTail2 Kin.shape ins.length = bs := by
    unfold dropTail2
    rw [if_neg hlen, hK]
    rw [List.append_assoc, List.take_left']
    simp; omega
  have hext : y.shape.drop (bs.length + ins.length) = exs := by
    rw [hy, List.drop_left']; simp
  have e1 : (bs ++ [ins.prod, exs.prod]).prod = y.shape.prod := by rw [hy]; simp [mul_assoc]
  have e2 : (bs ++ [ins.prod, ins.prod]).prod = Kin.shape.prod := by rw [hK]; simp [mul_assoc]
  have e3 : (bs ++ [ins.prod, outs.prod]).prod = Kcross.shape.prod := by rw [hC]; simp [mul_assoc]
  have hF := Tensor.solve_sing bs ins.prod outs.prod
    ⟨bs ++ [ins.prod, ins.prod], Kin.flat⟩ ⟨bs ++ [ins.prod, outs.prod], Kcross.flat⟩ rfl rfl p hp hdet
  unfold posteriorMean
  rw [hfm]
  simp only [bind, Except.bind, hin, hout, hbs, hext, Tensor.reshape_ok _ _ e1,
      Tensor.reshape_ok _ _ e2, Tensor.reshape_ok _ _ e3, hF]

theorem diagonalVariance_core (b : Nat) (ins outs : List Nat) (Kin Kcross Kout : Tensor ℝ)
    (hK : Kin.shape = [b] ++ ins ++ ins) (hC : Kcross.shape = [b] ++ ins ++ outs)
    (hO : Kout.shape = [] ∧ outs = [] ∨ Kout.shape = outs ++ outs)
    (hdet : ∀ p < b, (Kin.matAt ins.prod ins.prod p).det ≠ 0) :
    ∃ T, diagonalVariance Kin Kcross Kout = .ok T ∧ T.shape = [b] ++ outs ++ outs ∧
      ∀ p, T.matAt outs.prod outs.prod p = Kout.matAt outs.prod outs.prod 0 -
        ((Kin.matAt ins.prod ins.prod p)⁻¹ * Kcross.matAt ins.prod outs.prod p).transpose
          * Kcross.matAt ins.prod outs.prod p := by
  have hbs : Kin.shape.take 1 = [b] := by rw [hK]; simp
  have hdc : (Kin.ndim - 1) / 2 = ins.length := by
    unfold Tensor.ndim; rw [hK]; simp; omega
  have hin : Kin.shape.drop (1 + ins.length) = ins := by
    rw [hK, List.drop_left']; simp; omega
  have hout : Kcross.shape.drop (1 + ins.length) = outs := by
    rw [hC, List.drop_left']; simp; omega
  have e2 : ([b] ++ [ins.prod, ins.prod]).prod = Kin.shape.prod := by rw [hK]; simp [mul_assoc]
  have e3 : ([b] ++ [ins.prod, outs.prod]).prod = Kcross.shape.prod := by rw [hC]; simp [mul_assoc]
  obtain ⟨F, hF, hFs, hFm⟩ := Tensor.solve_ok [b] ins.prod outs.prod
    ⟨[b] ++ [ins.prod, ins.prod], Kin.flat⟩ ⟨[b] ++ [ins.prod, outs.prod], Kcross.flat⟩ rfl rfl
    (by intro p hp; exact hdet p (by simpa using hp))
  obtain ⟨R, hR, hRs, hRm⟩ := Tensor.matmulT_ok [b] ins.prod outs.prod outs.prod F
    ⟨[b] ++ [ins.prod, outs.prod], Kcross.flat⟩ hFs rfl
  have e4 : ([b] ++ outs ++ outs).prod = R.shape.prod := by rw [hRs]; simp
  have hmat : ∀ p, R.matAt outs.prod outs.prod p =
      ((Kin.matAt ins.prod ins.prod p)⁻¹ * Kcross.matAt ins.prod outs.prod p).transpose
          * Kcross.matAt ins.prod outs.prod p := by
    intro p; rw [hRm, hFm]; rfl
  have hdv : diagonalVariance Kin Kcross Kout
      = koutMinus Kout (outs ++ outs) ⟨[b] ++ outs ++ outs, R.flat⟩ := by
    unfold diagonalVariance
    simp only [bind, Except.bind, hbs, hdc, hin, hout, Tensor.reshape_ok _ _ e2,
      Tensor.reshape_ok _ _ e3, hF, hR, Tensor.reshape_ok _ _ e4]
  rw [hdv]
  unfold koutMinus
  by_cases hz : Kout.shape = []
  · have h1 : outs = [] := by
      rcases hO with ⟨_, h⟩ | h
      · exact h
      · rw [hz] at h
        exact (List.append_eq_nil_iff.1 h.symm).1
    subst h1
    rw [if_pos hz]
    refine ⟨_, rfl, rfl, ?_⟩
    intro p
    rw [← hmat p]
    ext i j
    have hi : (i : Nat) = 0 := by have := i.2; simp at this; exact this
    have hj : (j : Nat) = 0 := by have := j.2; simp at this; exact this
    show Kout.flat _ - R.flat _ = Kout.flat _ - R.flat _
    simp [hi, hj]
  · have h0 : Kout.shape = outs ++ outs := by
      rcases hO with ⟨h, _⟩ | h
      · exact absurd h hz
      · exact h
    rw [if_neg hz, if_pos h0]
    refine ⟨_, rfl, rfl, ?_⟩
    intro p
    rw [← hmat p]
    ext i j
    show Kout.flat _ - R.flat _ = Kout.flat _ - R.flat _
    have hm := dec_mod (p := p) i.2 j.2
    simp only [List.prod_append, hm]
    simp

/-! ### noise -/

theorem homoscedastic3 {b n : Nat} (Kin : Tensor ℝ) (τ : ℝ) (h : Kin.shape = [b, n, n]) :
    ∃ P, homoscedasticPerturb Kin τ = .ok P ∧ P.shape = [b, n, n] ∧
      ∀ p, P.matAt n n p = Kin.matAt n n p + τ • (1 : Matrix (Fin n) (Fin n) ℝ) := by
  unfold homoscedasticPerturb
  rw [h]
  simp only [if_true]
  refine ⟨_, rfl, rfl, ?_⟩
  intro p
  ext i j
  simp only [Tensor.matAt, Matrix.add_apply, Matrix.smul_apply, smul_eq_mul]
  rw [dec_mod i.2 j.2, dec_row j.2, dec_col j.2]
  congr 2
  simp [eye, Matrix.one_apply, Fin.ext_iff]

theorem diag5 {b ic n : Nat} (Kin : Tensor ℝ) (h : Kin.shape = [b, ic, n, ic, n]) :
    ([b, ic * n, ic * n] : List Nat).prod = Kin.shape.prod := by
  rw [h]; simp only [List.prod_cons, List.prod_nil]; ring

theorem homoscedastic5 {b ic n : Nat} (Kin : Tensor ℝ) (τ : ℝ) (h : Kin.shape = [b, ic, n, ic, n]) :
    ∃ P, homoscedasticPerturb Kin τ = .ok P ∧ P.shape = [b, ic, n, ic, n] ∧
      ∀ p, P.matAt (ic * n) (ic * n) p =
        Kin.matAt (ic * n) (ic * n) p + τ • (1 : Matrix (Fin (ic * n)) (Fin (ic * n)) ℝ) := by
  unfold homoscedasticPerturb
  have e := diag5 Kin h
  have e' := e
  rw [h] at e'
  rw [h]
  simp only [if_true, Tensor.reshape, bind, Except.bind]
  rw [if_pos e]
  simp only []
  rw [if_pos e'.symm]
  refine ⟨_, rfl, rfl, ?_⟩
  intro p
  ext i j
  simp only [Tensor.matAt, Matrix.add_apply, Matrix.smul_apply, smul_eq_mul]
  rw [dec_mod i.2 j.2, dec_row j.2, dec_col j.2]
  congr 2
  simp [eye, Matrix.one_apply, Fin.ext_iff]

theorem shear5 {b n : Nat} (Kin : Tensor ℝ) (τ : ℝ) (h : Kin.shape = [b, 3, n, 3, n]) :
    ∃ P, shearPerturb33 Kin τ = .ok P ∧ P.shape = [b, 3, n, 3, n] ∧
      ∀ p, P.matAt (3 * n) (3 * n) p =
        Kin.matAt (3 * n) (3 * n) p +
          Matrix.diagonal (fun i : Fin (3 * n) => if (i : Nat) < n then 2 * τ else τ) := by
  unfold shearPerturb33
  have e := diag5 Kin h
  have e' := e
  rw [h] at e'
  rw [h]
  simp only [if_true, Tensor.reshape, bind, Except.bind]
  rw [if_pos e]
  simp only []
  rw [if_pos e'.symm]
  refine ⟨_, rfl, rfl, ?_⟩
  intro p
  ext i j
  simp only [Tensor.matAt, Matrix.add_apply]
  rw [dec_mod i.2 j.2, dec_row j.2, dec_col j.2]
  congr 1
  by_cases hij : i = j
  · subst hij
    simp only [eye, shearNugget, Matrix.diagonal_apply_eq]
    split <;> simp <;> ring
  · have : (i : Nat) ≠ j := fun e => hij (Fin.ext e)
    simp [eye, this, Matrix.diagonal_apply_ne _ hij]

theorem heteroscedastic3 {b n : Nat} (Kin v : Tensor ℝ) (h : Kin.shape = [b, n, n])
    (hv : v.shape = [b, n]) :
    ∃ P, heteroscedasticPerturb Kin v = .ok P ∧ P.shape = [b, n, n] ∧
      ∀ p, P.matAt n n p = Kin.matAt n n p + Matrix.diagonal (v.vecAt n p) := by
  unfold heteroscedasticPerturb
  rw [h, hv]
  simp only [lt_irrefl, if_false, List.prod_cons, List.prod_nil, mul_one, if_true]
  refine ⟨_, rfl, rfl, ?_⟩
  intro p
  ext i j
  simp only [Tensor.matAt, Matrix.add_apply]
  rw [dec_mod i.2 j.2, dec_row j.2, dec_col j.2, dec_div i.2 j.2]
  congr 1
  by_cases hij : i = j
  · subst hij; simp [Tensor.vecAt]
  · have : (i : Nat) ≠ j := fun e => hij (Fin.ext e)
    simp [this, Matrix.diagonal_apply_ne _ hij]

end MuyGPyS

namespace MuyGPyS
open Py Matrix

theorem posteriorMean_core' {N O E : Nat} (bs ins outs exs : List Nat) (Kin Kcross y : Tensor ℝ)
    (hN : ins.prod = N) (hO : outs.prod = O) (hE : exs.prod = E)
    (hins : ins ≠ [])
    (hK : Kin.shape = bs ++ ins ++ ins) (hC : Kcross.shape = bs ++ ins ++ outs)
    (hy : y.shape = bs ++ ins ++ exs)
    (hex : List.Forall₂ (· ≠ ·) exs (ins.take exs.length))
    (hdet : ∀ p < bs.prod, (Kin.matAt N N p).det ≠ 0) :
    ∃ T, posteriorMean Kin Kcross y = .ok T ∧ T.shape = bs ++ outs ++ exs ∧
      ∀ p, T.matAt O E p =
        ((Kin.matAt N N p)⁻¹ * Kcross.matAt N O p).transpose * y.matAt N E p := by
  subst hN hO hE
  exact posteriorMean_core bs ins outs exs Kin Kcross y hins hK hC hy hex hdet

theorem diagonalVariance_core' {N O : Nat} (b : Nat) (ins outs : List Nat) (Kin Kcross Kout : Tensor ℝ)
    (hN : ins.prod = N) (hOo : outs.prod = O)
    (hK : Kin.shape = [b] ++ ins ++ ins) (hC : Kcross.shape = [b] ++ ins ++ outs)
    (hO : Kout.shape = [] ∧ outs = [] ∨ Kout.shape = outs ++ outs)
    (hdet : ∀ p < b, (Kin.matAt N N p).det ≠ 0) :
    ∃ T, diagonalVariance Kin Kcross Kout = .ok T ∧ T.shape = [b] ++ outs ++ outs ∧
      ∀ p, T.matAt O O p = Kout.matAt O O 0 -
        ((Kin.matAt N N p)⁻¹ * Kcross.matAt N O p).transpose * Kcross.matAt N O p := by
  subst hN hOo
  exact diagonalVariance_core b ins outs Kin Kcross Kout hK hC hO hdet

/-- a column of the code's result is the textbook mean when `K` is symmetric -/
theorem col_kriging {N O E : Nat} (K : Matrix (Fin N) (Fin N) ℝ) (h : K.transpose = K)
    (G : Matrix (Fin N) (Fin O) ℝ) (Y : Matrix (Fin N) (Fin E) ℝ) (i : Fin O) (j : Fin E) :
    ((K⁻¹ * G).transpose * Y) i j = Spec.krigingMean K (fun a => G a i) (fun a => Y a j) := by
  unfold Spec.krigingMean
  have e : ((K⁻¹ * G).transpose * Y) i j = (K⁻¹ *ᵥ (fun a => G a i)) ⬝ᵥ (fun a => Y a j) := rfl
  rw [e]
  rw [dotProduct_mulVec, ← mulVec_transpose, transpose_nonsing_inv, h]

theorem matAt_cov {b n : Nat} (t : Tensor ℝ) (h : t.shape = [b, n, n]) (p : Nat) :
    t.matAt n n p = Spec.cov n t p := by
  ext i j; exact Tensor.matAt_apply t h p i j

theorem matAt_vec {b n : Nat} (t : Tensor ℝ) (h : t.shape = [b, n]) (p : Nat) (i : Fin n) (c : Fin 1) :
    t.matAt n 1 p i c = t.get [p, i] := by
  have hc : (c : Nat) = 0 := by omega
  rw [Tensor.get2 t h]; simp [Tensor.matAt, hc]

theorem matAt_scalar {b : Nat} (t : Tensor ℝ) (h : t.shape = [b]) (p : Nat) (i j : Fin 1) :
    t.matAt 1 1 p i j = t.get [p] := by
  have hi : (i : Nat) = 0 := by omega
  have hj : (j : Nat) = 0 := by omega
  rw [Tensor.get1 t h]; simp [Tensor.matAt, hi, hj]

theorem matAt_vecR {b n r : Nat} (t : Tensor ℝ) (h : t.shape = [b, n, r]) (p : Nat) (i : Fin n) (c : Fin r) :
    t.matAt n r p i c = t.get [p, i, c] := Tensor.matAt_apply t h p i c

theorem matAt_row {b r : Nat} (t : Tensor ℝ) (h : t.shape = [b, r]) (p : Nat) (i : Fin 1) (c : Fin r) :
    t.matAt 1 r p i c = t.get [p, c] := by
  have hi : (i : Nat) = 0 := by omega
  rw [Tensor.get2 t h]; simp [Tensor.matAt, hi]

theorem divmod (n i : Nat) : i / n * n + i % n = i := by
  rw [Nat.mul_comm]; exact Nat.div_add_mod i n

theorem matAt_cov5 {b o n : Nat} (t : Tensor ℝ) (h : t.shape = [b, o, n, o, n]) (p : Nat) :
    t.matAt (o * n) (o * n) p = Spec.cov5 o n t p := by
  ext i j
  show t.flat _ = t.get _
  simp only [Tensor.get, h, Tensor.ravel, List.prod_cons, List.prod_nil]
  congr 1
  have h1 := divmod n i
  have h2 := divmod n j
  generalize (i : Nat) / n = a at *
  generalize (i : Nat) % n = c at *
  generalize (j : Nat) / n = a' at *
  generalize (j : Nat) % n = c' at *
  rw [← h1, ← h2]; ring

theorem matAt_cross4 {b o n q : Nat} (t : Tensor ℝ) (h : t.shape = [b, o, n, q]) (p : Nat)
    (i : Fin (o * n)) (c : Fin q) : t.matAt (o * n) q p i c = Spec.cross4 o n t p c i := by
  show t.flat _ = t.get _
  simp only [Tensor.get, h, Tensor.ravel, List.prod_cons, List.prod_nil]
  congr 1
  have h1 := divmod n i
  generalize (i : Nat) / n = a at *
  generalize (i : Nat) % n = c at *
  rw [← h1]; ring

theorem matAt_vec3 {b o n : Nat} (t : Tensor ℝ) (h : t.shape = [b, o, n]) (p : Nat)
    (i : Fin (o * n)) (c : Fin 1) : t.matAt (o * n) 1 p i c = Spec.vec3 o n t p i := by
  have hc : (c : Nat) = 0 := by omega
  show t.flat _ = t.get _
  simp only [Tensor.get, h, Tensor.ravel, List.prod_cons, List.prod_nil]
  congr 1
  have h1 := divmod n i
  generalize (i : Nat) / n = a at *
  generalize (i : Nat) % n = c at *
  rw [← h1, hc]; ring

end MuyGPyS
