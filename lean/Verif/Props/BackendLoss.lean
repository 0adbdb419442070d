import Verif.Model.Backends
import Verif.Spec.Bessel
import Verif.Props.Loss
import Verif.Props.Posterior
import Mathlib.LinearAlgebra.Matrix.Determinant.Misc
import Mathlib.LinearAlgebra.Matrix.Determinant.Basic
import Mathlib.LinearAlgebra.Matrix.Notation
import Mathlib.Tactic.NormNum
import Mathlib.Tactic.Linarith
import Mathlib.Tactic.FieldSimp

/-!
# Property C53, continued: losses, general Matérn kernel, shear kernel
-/

namespace MuyGPyS
open Py Py.Tensor Matrix

/-! ### losses -/

theorem zipWith_same {α β γ : Type _} (f : α → β → γ) (s : List Nat) (a : Nat → α) (b : Nat → β) :
    Tensor.zipWith f ⟨s, a⟩ ⟨s, b⟩ = .ok ⟨s, fun k => f (a k) (b k)⟩ := by simp [Tensor.zipWith]

theorem ravel_nil (s : List Nat) : Tensor.ravel s [] = 0 := by cases s <;> rfl

/-- On vectors the library's `torch.sum` is the sum of all entries. -/
theorem torchSum_vector (b : Nat) (f : Nat → ℝ) :
    Backend.torchSum ⟨[b], f⟩ = ⟨[], fun k => ∑ i ∈ Finset.range b, f (i + k)⟩ := by
  simp [Backend.torchSum]

theorem mse_same (sum : Tensor ℝ → Tensor ℝ) (s : List Nat) (a b : Nat → ℝ) :
    Backend.mse sum ⟨s, a⟩ ⟨s, b⟩
      = .ok ((sum ⟨s, fun k => (a k - b k) ^ 2⟩).map fun x => x / (s.prod : ℝ)) := by
  simp only [Backend.mse, zipWith_same, bind, Except.bind, pure, Except.pure]

theorem pseudoHuber_same (sum : Tensor ℝ → Tensor ℝ) (s : List Nat) (a b : Nat → ℝ) (δ : ℝ) :
    Backend.pseudoHuber sum ⟨s, a⟩ ⟨s, b⟩ δ
      = .ok ((sum ⟨s, fun k => Real.sqrt (1 + ((b k - a k) / δ) ^ 2) - 1⟩).map fun x => δ ^ 2 * x) := by
  simp only [Backend.pseudoHuber, zipWith_same, bind, Except.bind, pure, Except.pure]

theorem lool_same (sum : Tensor ℝ → Tensor ℝ) (s : List Nat) (a b v : Nat → ℝ) :
    Backend.loolElementwise sum ⟨s, a⟩ ⟨s, b⟩ ⟨s, v⟩
      = .ok (sum ⟨s, fun k => (a k - b k) ^ 2 / v k + Real.log (v k)⟩) := by
  simp only [Backend.loolElementwise, zipWith_same, bind, Except.bind, pure, Except.pure]

/-- **C53**, losses on vectors of responses `(b,)` and of variances `(b,)`: `mse`, `pseudo_huber` and `lool`
computed with torch's `sum` are the documented numbers, which are those computed by NumPy and jax. -/
theorem C53_vector_losses (b : Nat) (p t v : Tensor ℝ) (δ : ℝ) (hp : p.shape = [b]) (ht : t.shape = [b])
    (hv : v.shape = [b]) :
    ∀ sum ∈ [Backend.torchSum, Backend.fullSum],
      (∃ L, Backend.mse sum p t = .ok L ∧ L.shape = [] ∧
        L.get [] = (∑ i ∈ Finset.range b, (p.get [i] - t.get [i]) ^ 2) / b) ∧
      (∃ L, Backend.pseudoHuber sum p t δ = .ok L ∧ L.shape = [] ∧
        L.get [] = δ ^ 2 * ∑ i ∈ Finset.range b, (Real.sqrt (1 + ((t.get [i] - p.get [i]) / δ) ^ 2) - 1)) ∧
      (∃ L, Backend.loolElementwise sum p t v = .ok L ∧ L.shape = [] ∧
        L.get [] = ∑ i ∈ Finset.range b, ((p.get [i] - t.get [i]) ^ 2 / v.get [i] + Real.log (v.get [i]))) := by
  obtain ⟨ps, pf⟩ := p
  obtain ⟨ts, tf⟩ := t
  obtain ⟨vs, vf⟩ := v
  simp only at hp ht hv
  subst hp ht hv
  intro sum hsum
  have hg : ∀ (f : Nat → ℝ) (i : Nat), (⟨[b], f⟩ : Tensor ℝ).get [i] = f i := fun f i => Tensor.get1 _ rfl i
  have hs : ∀ f : Nat → ℝ, (sum ⟨[b], f⟩).shape = [] ∧ (sum ⟨[b], f⟩).flat 0 = ∑ i ∈ Finset.range b, f i := by
    intro f
    simp only [List.mem_cons, List.not_mem_nil, or_false] at hsum
    rcases hsum with h | h <;> subst h
    · rw [torchSum_vector]; simp
    · simp [Backend.fullSum]
  simp only [hg]
  refine ⟨⟨_, mse_same _ _ _ _, (hs _).1, ?_⟩, ⟨_, pseudoHuber_same _ _ _ _ _, (hs _).1, ?_⟩,
    ⟨_, lool_same _ _ _ _ _, (hs _).1, ?_⟩⟩
  · simp only [Tensor.get, Tensor.map, ravel_nil, (hs _).2]; simp
  · simp only [Tensor.get, Tensor.map, ravel_nil, (hs _).2]
  · simp only [Tensor.get, ravel_nil, (hs _).2]

/-- **C53, where the backends differ.** For responses `(b, r)` NumPy and jax return the mean squared error, a
number; torch returns a vector of `r` numbers, which add up to it. (A torch loss that is not a scalar cannot be
differentiated by `backward()`.) The same holds of `pseudo_huber`, and of `lool` on variances `(b, r)` where
NumPy does not take this branch at all. -/
theorem C53_torch_matrix_loss_fails (b r : Nat) (p t : Tensor ℝ) (δ : ℝ) (hp : p.shape = [b, r]) (ht : t.shape = [b, r]) :
    (∃ N T, Backend.mse Backend.fullSum p t = .ok N ∧ N.shape = [] ∧
      N.get [] = (∑ i ∈ Finset.range b, ∑ j ∈ Finset.range r, (p.get [i, j] - t.get [i, j]) ^ 2) / (b * r : Nat) ∧
      Backend.mse Backend.torchSum p t = .ok T ∧ T.shape = [r] ∧
      (∀ j < r, T.get [j] = (∑ i ∈ Finset.range b, (p.get [i, j] - t.get [i, j]) ^ 2) / (b * r : Nat)) ∧
      ∑ j ∈ Finset.range r, T.get [j] = N.get []) ∧
    (∃ N T, Backend.pseudoHuber Backend.fullSum p t δ = .ok N ∧ N.shape = [] ∧
      Backend.pseudoHuber Backend.torchSum p t δ = .ok T ∧ T.shape = [r] ∧
      ∑ j ∈ Finset.range r, T.get [j] = N.get []) := by
  obtain ⟨ps, pf⟩ := p
  obtain ⟨ts, tf⟩ := t
  simp only at hp ht
  subst hp ht
  have hg : ∀ (f : Nat → ℝ) (i j : Nat), (⟨[b, r], f⟩ : Tensor ℝ).get [i, j] = f (i * r + j) :=
    fun f i j => Tensor.get2 _ rfl i j
  have hsum : ∀ f : Nat → ℝ, ∑ k ∈ Finset.range (b * r), f k
      = ∑ i ∈ Finset.range b, ∑ j ∈ Finset.range r, f (i * r + j) := by
    intro f
    induction b with
    | zero => simp
    | succ b ih =>
      rw [Finset.sum_range_succ, ← ih (fun f i j => Tensor.get2 _ rfl i j), Nat.succ_mul, Finset.sum_range_add]
  constructor
  · refine ⟨_, _, mse_same _ _ _ _, rfl, ?_,
      mse_same _ _ _ _, rfl, ?_, ?_⟩
    · simp only [hg]
      simp only [Tensor.get, Tensor.map, Backend.fullSum, List.prod_cons, List.prod_nil, Nat.mul_one, hsum]
    · intro j _
      simp only [hg]
      simp [Tensor.get, Tensor.map, Backend.torchSum, Tensor.ravel]
    · simp only [Tensor.get, Tensor.map, Backend.fullSum, Backend.torchSum, Tensor.ravel, List.prod_cons, List.prod_nil,
        Nat.mul_one, Nat.add_zero, hsum, ← Finset.sum_div]
      rw [Finset.sum_comm]
  · refine ⟨_, _, pseudoHuber_same _ _ _ _ _, rfl,
      pseudoHuber_same _ _ _ _ _, rfl, ?_⟩
    simp only [Tensor.get, Tensor.map, Backend.fullSum, Backend.torchSum, Tensor.ravel, List.prod_cons, List.prod_nil,
      Nat.mul_one, Nat.add_zero, hsum, ← Finset.mul_sum]
    rw [Finset.sum_comm]

/-- The losses modelled on lists in `Model/Loss.lean` are those of tensors computed with `np.sum`. -/
theorem C53_numpy_mse_link (b : Nat) (p t : Tensor ℝ) (hp : p.shape = [b]) (ht : t.shape = [b]) :
    Loss.mse ((List.range b).map p.flat) ((List.range b).map t.flat) = (Backend.mse Backend.fullSum p t).map fun L => L.get [] := by
  obtain ⟨ps, pf⟩ := p
  obtain ⟨ts, tf⟩ := t
  simp only at hp ht
  subst hp ht
  have h : ∀ f : Nat → ℝ, ((List.range b).map f).sum = ∑ i ∈ Finset.range b, f i := by
    intro f
    rfl
  rw [mse_same]
  simp only [Loss.mse, Loss.mseUnnormalized, Loss.zip2, List.length_map, List.length_range, if_true, bind, Except.bind, pure,
    Except.pure, Except.map, List.zipWith_map_left, List.zipWith_map_right, List.zipWith_self, h, Tensor.get, Tensor.map,
    Backend.fullSum, List.prod_cons, List.prod_nil, Nat.mul_one]

/-- **C53, where the backends differ.** `lool` on diagonal variances `(b, r)` of a multivariate model: jax (and,
column by column, torch) sums the `b * r` elementwise terms; NumPy takes the variances for one `b × b` matrix, so
it raises unless `b = r`. -/
theorem C53_lool_matrix_fails (b r : Nat) (hbr : b ≠ r) (p t v : Tensor ℝ) (hp : p.shape = [b, r]) (ht : t.shape = [b, r])
    (hv : v.shape = [b, r]) :
    Backend.loolNumpyMatrix p t v = .error .linAlg ∧
    ∃ L, Backend.loolElementwise Backend.fullSum p t v = .ok L ∧ L.shape = [] ∧
      L.get [] = ∑ k ∈ Finset.range (b * r), ((p.flat k - t.flat k) ^ 2 / v.flat k + Real.log (v.flat k)) := by
  obtain ⟨ps, pf⟩ := p
  obtain ⟨ts, tf⟩ := t
  obtain ⟨vs, vf⟩ := v
  simp only at hp ht hv
  subst hp ht hv
  refine ⟨by simp [Backend.loolNumpyMatrix, hbr], _, lool_same _ _ _ _ _, rfl, ?_⟩
  simp [Tensor.get, Backend.fullSum]

/-- **C53, where the backends differ.** Also for `b = r = 2` the answers differ: exact predictions with
variances `((2, 1), (1, 2))` have `lool` equal to `2 log 2` in jax and `1 + log 3` in NumPy. -/
theorem C53_lool_square_fails :
    ∃ p t v : Tensor ℝ, p.shape = [2, 2] ∧ t.shape = [2, 2] ∧ v.shape = [2, 2] ∧ (∀ k < 4, 0 < v.flat k) ∧
      Backend.loolNumpyMatrix p t v = .ok (1 + Real.log 3) ∧
      ∃ L, Backend.loolElementwise Backend.fullSum p t v = .ok L ∧ L.get [] = 2 * Real.log 2 ∧
        (1 + Real.log 3) ≠ 2 * Real.log 2 := by
  let v : Nat → ℝ := fun k => if k = 0 ∨ k = 3 then 2 else 1
  have hdet : (Tensor.matAt ⟨[2, 2], v⟩ 2 2 0).det = 3 := by
    rw [Matrix.det_fin_two]
    norm_num [Tensor.matAt, v]
  refine ⟨⟨[2, 2], fun _ => 0⟩, ⟨[2, 2], fun _ => 0⟩, ⟨[2, 2], v⟩, rfl, rfl, rfl, ?_, ?_, _, lool_same _ _ _ _ _, ?_, ?_⟩
  · intro k _
    simp only [v]
    split <;> norm_num
  · have hs : Real.sign 3 = 1 := Real.sign_of_pos (by norm_num)
    simp only [Backend.loolNumpyMatrix, hdet]
    norm_num [dotProduct, hs]
  · simp [Tensor.get, Backend.fullSum, Finset.sum_range_succ, v]
    ring
  · have h1 : Real.log 3 > Real.log 2 := Real.log_lt_log (by norm_num) (by norm_num)
    have h2 : Real.log 2 < 1 := by
      have := Real.log_lt_sub_one_of_pos (x := 2) (by norm_num) (by norm_num)
      linarith
    intro h
    linarith

/-! ### Matérn kernel of general smoothness -/

/-- **C53**, general Matérn kernel: jax gives the NumPy value at every non-zero distance off the diagonal of a
pairwise tensor and at every non-zero distance of a crosswise tensor. -/
theorem C53_matern_gen_partial (kv : ℝ → ℝ → ℝ) (eps ν : ℝ) (b n m : Nat) :
    (∀ d : Tensor ℝ, d.shape = [b, n, m] → ∃ K, Backend.maternGenJax kv ν d = .ok K ∧ K.shape = [b, n, m] ∧
      ∀ p < b, ∀ i < n, ∀ j < m, i ≠ j → d.get [p, i, j] ≠ 0 →
        K.get [p, i, j] = some (Backend.maternGenNumpy kv eps ν (d.get [p, i, j]))) ∧
    (∀ d : Tensor ℝ, d.shape = [b, n] → ∃ K, Backend.maternGenJax kv ν d = .ok K ∧ K.shape = [b, n] ∧
      ∀ p < b, ∀ i < n, d.get [p, i] ≠ 0 → K.get [p, i] = some (Backend.maternGenNumpy kv eps ν (d.get [p, i]))) := by
  constructor
  · rintro ⟨s, f⟩ hs
    simp only at hs
    subst hs
    refine ⟨_, rfl, rfl, fun p hp i hi j hj hij h0 => ?_⟩
    rw [Tensor.get_ofFn _ _ _ (by simp [hp, hi, hj])]
    simp only [List.getD_cons_succ, List.getD_cons_zero, if_neg hij, if_neg h0]
    simp [Backend.maternGenNumpy, h0]
  · rintro ⟨s, f⟩ hs
    simp only at hs
    subst hs
    refine ⟨_, rfl, rfl, fun p hp i hi h0 => ?_⟩
    simp only [Tensor.get, Tensor.map] at h0 ⊢
    simp only [if_neg h0, Backend.maternGenNumpy]

/-- **C53**, general Matérn kernel: that common value is the documented correlation (C62). -/
theorem C53_matern_gen_documented (eps ν d : ℝ) (hd : d ≠ 0) : Backend.maternGenNumpy besselK eps ν d = maternCorrelation ν d := by
  simp only [Backend.maternGenNumpy, if_neg hd, Backend.maternFormula, maternCorrelation]

/-- **C53, where the backends differ.** At a zero distance: the diagonal of a pairwise tensor is exactly 1 in jax
and the Matérn formula at machine epsilon in NumPy; a prediction at a training point (a zero in the crosswise
tensor) is a number in NumPy and not a number in jax. -/
theorem C53_matern_gen_zero_fails (kv : ℝ → ℝ → ℝ) (eps ν : ℝ) (b n : Nat) :
    (∀ d : Tensor ℝ, d.shape = [b, n, n] → ∃ K, Backend.maternGenJax kv ν d = .ok K ∧
      ∀ p < b, ∀ i < n, d.get [p, i, i] = 0 → K.get [p, i, i] = some 1 ∧
        Backend.maternGenNumpy kv eps ν (d.get [p, i, i]) = Backend.maternFormula kv ν eps) ∧
    (∀ d : Tensor ℝ, d.shape = [b, n] → ∃ K, Backend.maternGenJax kv ν d = .ok K ∧
      ∀ p < b, ∀ i < n, d.get [p, i] = 0 → K.get [p, i] = none ∧
        Backend.maternGenNumpy kv eps ν (d.get [p, i]) = Backend.maternFormula kv ν eps) := by
  constructor
  · rintro ⟨s, f⟩ hs
    simp only at hs
    subst hs
    refine ⟨_, rfl, fun p hp i hi h0 => ⟨?_, by simp [h0, Backend.maternGenNumpy]⟩⟩
    rw [Tensor.get_ofFn _ _ _ (by simp [hp, hi])]
    simp
  · rintro ⟨s, f⟩ hs
    simp only at hs
    subst hs
    refine ⟨_, rfl, fun p hp i hi h0 => ⟨?_, by simp [h0, Backend.maternGenNumpy]⟩⟩
    simp only [Tensor.get, Tensor.map] at h0 ⊢
    simp only [if_pos h0]

/-! ### shear kernel -/

/-- **C53**, shear kernel: apart from axes of length one, torch and jax compute the NumPy covariance, errors included. -/
theorem C53_shear (ℓ : ℝ) (diffs : Tensor ℝ) :
    Shear.shear33 diffs ℓ = (Backend.shear33 ℓ diffs).map Tensor.squeeze := by
  unfold Shear.shear33 Shear.assemble Backend.shear33
  rcases h : diffs.shape.reverse with _ | ⟨f, _ | ⟨m, _ | ⟨n, rest⟩⟩⟩ <;> simp only
  · rfl
  · rfl
  · rfl
  · split <;> rfl

/-- **C53**, shear kernel object: the covariances and the prior covariance of torch and jax are those of NumPy up to axes of length one. -/
theorem C53_shear_object (k : Shear.Kern) (diffs : Tensor ℝ) :
    k.call33 diffs = (Backend.shearCall k diffs).map Tensor.squeeze ∧ k.kout = (Backend.shearKout k).map Tensor.squeeze := by
  have key : ∀ diffs, k.call33 diffs = (Backend.shearCall k diffs).map Tensor.squeeze := fun diffs => by
    unfold Shear.Kern.call33 Backend.shearCall
    cases h : Shear.adjustDiffs diffs with
    | error e => rfl
    | ok d => simp only [bind, Except.bind, C53_shear]; rfl
  exact ⟨key diffs, key _⟩

/-- The tensor with one more axis, of length one, at the end. -/
def withUnitAxis (t : Tensor ℝ) : Tensor ℝ := ⟨t.shape ++ [1], t.flat⟩

/-- **C53**, shear posterior mean in torch: the cross-covariance keeps a last axis of length one,
and the mean is the NumPy mean with such an axis. -/
theorem C53_torch_shear_mean (b o n q : Nat) (Kin Kcross y : Tensor ℝ) (hK : Kin.shape = [b, o, n, o, n])
    (hC : Kcross.shape = [b, o, n, q]) (hy : y.shape = [b, o, n]) :
    posteriorMean Kin (withUnitAxis Kcross) y = (posteriorMean Kin Kcross y).map withUnitAxis := by
  obtain ⟨ks, kf⟩ := Kin
  obtain ⟨cs, cf⟩ := Kcross
  obtain ⟨ys, yf⟩ := y
  simp only at hK hC hy
  subst hK hC hy
  have e1 : dropTail2 [b, o, n, o, n] 2 = [b] := rfl
  simp only [posteriorMean, findMatchingNdim, withUnitAxis, bind, Except.bind, Tensor.reshape]
  have e2 : o * n * (o * n) = o * (n * (o * n)) := by ring
  have e3 : o * n * q = o * (n * q) := by ring
  simp [e1, e2, e3]
  cases h : Tensor.solve [b] (o * n) q ⟨[b, o * n, o * n], kf⟩ ⟨[b, o * n, q], cf⟩ with
  | error e => rfl
  | ok F =>
    simp only
    cases h2 : Tensor.matmulT [b] (o * n) q 1 F ⟨[b, o * n, 1], yf⟩ with
    | error e => rfl
    | ok T =>
      simp only
      split <;> rfl

/-- **C53, where the backends differ.** With that extra axis the jax functions refuse the shear model altogether. -/
theorem C53_jax_shear_fails (b o n q : Nat) (hb : 0 < b) (ho : 0 < o) (hn : 0 < n) (hq : q ≠ 1) (Kin Kcross y Kout : Tensor ℝ)
    (hK : Kin.shape = [b, o, n, o, n]) (hC : Kcross.shape = [b, o, n, q]) :
    Backend.jaxMean Kin (withUnitAxis Kcross) y = .error .value ∧
    Backend.jaxVariance Kin (withUnitAxis Kcross) Kout = .error .value := by
  obtain ⟨ks, kf⟩ := Kin
  obtain ⟨cs, cf⟩ := Kcross
  simp only at hK hC
  subst hK hC
  have h1 : Tensor.reshape (⟨[b, o, n, q, 1], cf⟩ : Tensor ℝ) [b, o * n, 1] = .error .value := by
    refine Tensor.reshape_err _ _ ?_
    simp only [List.prod_cons, List.prod_nil, Nat.mul_one]
    intro h
    have h2 := Nat.eq_of_mul_eq_mul_left hb h
    have h3 : o * n * 1 = o * n * q := by rw [Nat.mul_one, Nat.mul_assoc, ← h2]
    exact hq (Nat.eq_of_mul_eq_mul_left (Nat.mul_pos ho hn) h3).symm
  have h2 : Tensor.reshape (⟨[b, o, n, o, n], kf⟩ : Tensor ℝ) [b, o * n, o * n] = .ok ⟨[b, o * n, o * n], kf⟩ :=
    Tensor.reshape_ok _ _ (by simp only [List.prod_cons, List.prod_nil, Nat.mul_one]; ring)
  constructor
  · unfold Backend.jaxMean
    rw [if_neg (by simp [Tensor.ndim])]
    simp [Backend.jaxMeanMultivariate, withUnitAxis, h1, h2, bind, Except.bind]
  · simp [Backend.jaxVariance, withUnitAxis, h1, h2, bind, Except.bind]

end MuyGPyS
