import Verif.Props.Inexact

/-! # C117: predictions from distances computed inexactly -/

namespace MuyGPyS
open Py Matrix

/-- A function with a derivative of at most 1 in absolute value. -/
theorem lipschitz_of_deriv {f f' : ℝ → ℝ} (hd : ∀ x, HasDerivAt f (f' x) x) (hb : ∀ x, 0 ≤ x → |f' x| ≤ 1) {a b : ℝ} (ha : 0 ≤ a)
    (hb' : 0 ≤ b) : |f a - f b| ≤ |a - b| := by
  have := Convex.norm_image_sub_le_of_norm_hasDerivWithin_le (f := f) (f' := f') (C := 1) (s := Set.Ici 0) (x := b) (y := a)
    (fun x _ => (hd x).hasDerivWithinAt) (fun x hx => hb x hx) (convex_Ici 0) hb' ha
  simpa using this

/-- The kernel functions other than the general Matérn function change by no more than the distance. -/
theorem value_lipschitz (bs : Flt → ℝ → ℝ) (s : Flt) {fn : KFn} (hg : fn ≠ .gen) {a b : ℝ} (ha : 0 ≤ a) (hb : 0 ≤ b) :
    |fn.value bs s a - fn.value bs s b| ≤ |a - b| := by
  cases fn with
  | gen => exact absurd rfl hg
  | rbf =>
    refine lipschitz_of_deriv (f := fun d => Real.exp (-d / 2)) (f' := fun d => Real.exp (-d / 2) * (-1 / 2))
      (fun x => ((hasDerivAt_id x).neg.div_const 2).exp) (fun x hx => ?_) ha hb
    rw [abs_mul, abs_of_pos (Real.exp_pos _)]
    have : Real.exp (-x / 2) ≤ 1 := Real.exp_le_one_iff.2 (by linarith)
    norm_num
    linarith
  | m05 =>
    refine lipschitz_of_deriv (f := fun d => Real.exp (-d)) (f' := fun d => Real.exp (-d) * (-1))
      (fun x => ((hasDerivAt_id x).neg).exp) (fun x hx => ?_) ha hb
    rw [abs_mul, abs_of_pos (Real.exp_pos _)]
    have : Real.exp (-x) ≤ 1 := Real.exp_le_one_iff.2 (by linarith)
    norm_num
    exact hx
  | m15 =>
    have h3 : √(3:ℝ) ^ 2 = 3 := Real.sq_sqrt (by norm_num)
    refine lipschitz_of_deriv (f := fun d => (1 + d * √3) * Real.exp (-(d * √3)))
      (f' := fun d => -(√3 * (d * √3)) * Real.exp (-(d * √3))) (fun x => ?_) (fun x hx => ?_) ha hb
    · have hK : HasDerivAt (fun d : ℝ => d * √3) √3 x := by simpa using (hasDerivAt_id x).mul_const √3
      have hn : HasDerivAt (fun d : ℝ => -(d * √3)) (-√3) x := hK.neg
      exact ((hK.const_add 1).mul hn.exp).congr_deriv (by ring)
    · have hK : 0 ≤ x * √3 := by positivity
      have h4 : √3 ≤ 2 := by nlinarith [Real.sqrt_nonneg (3:ℝ)]
      set K := x * √3
      have h5 := Real.quadratic_le_exp_of_nonneg hK
      rw [abs_mul, abs_neg, abs_of_nonneg (by positivity), abs_of_pos (Real.exp_pos _), Real.exp_neg, ← div_eq_mul_inv,
        div_le_one (Real.exp_pos _)]
      nlinarith [sq_nonneg (K - 1)]
  | m25 =>
    have h5 : √(5:ℝ) ^ 2 = 5 := Real.sq_sqrt (by norm_num)
    refine lipschitz_of_deriv (f := fun d => (1 + d * √5 + (d * √5) ^ 2 / 3) * Real.exp (-(d * √5)))
      (f' := fun d => -(√5 / 3 * (d * √5 + (d * √5) ^ 2)) * Real.exp (-(d * √5))) (fun x => ?_) (fun x hx => ?_) ha hb
    · have hK : HasDerivAt (fun d : ℝ => d * √5) √5 x := by simpa using (hasDerivAt_id x).mul_const √5
      exact (((hK.const_add 1).add ((hK.pow 2).div_const 3)).mul hK.neg.exp).congr_deriv (by simp; ring)
    · have hK : 0 ≤ x * √5 := by positivity
      have h4 : √5 ≤ 9 / 4 := by nlinarith [Real.sqrt_nonneg (5:ℝ)]
      set K := x * √5
      have h6 := Real.sum_le_exp_of_nonneg hK 4
      simp only [Finset.sum_range_succ, Finset.sum_range_zero, Nat.factorial] at h6
      norm_num at h6
      rw [abs_mul, abs_neg, abs_of_nonneg (by positivity), abs_of_pos (Real.exp_pos _), Real.exp_neg, ← div_eq_mul_inv,
        div_le_one (Real.exp_pos _)]
      have h7 : √5 / 3 * (K + K ^ 2) ≤ 3 / 4 * (K + K ^ 2) := mul_le_mul_of_nonneg_right (by linarith) (by positivity)
      nlinarith [sq_nonneg (K - 1), mul_nonneg hK (sq_nonneg (K - 1))]
  | minf =>
    refine lipschitz_of_deriv (f := fun d => Real.exp (-(d ^ 2) / 2)) (f' := fun d => Real.exp (-(d ^ 2) / 2) * (-d))
      (fun x => ?_) (fun x hx => ?_) ha hb
    · refine ((((hasDerivAt_id x).pow 2).neg.div_const 2).exp).congr_deriv ?_
      simp
      ring
    · rw [abs_mul, abs_neg, abs_of_nonneg hx, abs_of_pos (Real.exp_pos _), neg_div, Real.exp_neg, mul_comm, ← div_eq_mul_inv,
        div_le_one (Real.exp_pos _)]
      nlinarith [Real.add_one_le_exp (x ^ 2 / 2), sq_nonneg (x - 1)]

/-- **C117, for distances**: let the distances between the neighbours of a test point be computed with errors of at most `δ`, those to the
test point with errors of at most `η`, and the responses with errors of at most `ε` — everything else being exact. Then the conclusion of
`C117_inexact` holds with these very numbers: the kernels do not amplify the errors of the distances. (Of squared distances under the
RBF kernel; the general Matérn kernel is excluded.) -/
theorem C117_distances (bs : Flt → ℝ → ℝ) (R : Regressor) (hk : R.kernel.make = R.kernel) (hko : R.gp.kout = KernelObj.kout)
    (hsuit : R.kernel.fn.Suits R.kernel.deform.metric) (τ : ℝ) (hτ : 0 < τ) (hν : R.gp.noise = .homoscedastic τ)
    (w : NNWrapper) (hw : w.Exact) (Q : Tensor ℝ) (m : Nat) (len : Fin w.f → ℝ) (hlen : R.kernel.deform.HasLengths w.f len)
    (hQ : Q.shape = [m, w.f]) (hm : 0 < m) (hk0 : 0 < w.nnCount) (hkN : w.nnCount ≤ w.N) :
    ∃ nn : Tensor Int, (∀ i < m, ∃ l : List Nat, rowList nn w.nnCount i = l.map Int.ofNat ∧
        Nearest (· < w.N) (fun j => w.dist (rowPt Q w.f i) (rowPt w.train w.f j)) w.nnCount l) ∧
      ∀ Y : Tensor ℝ, Y.shape = [w.N] → ∃ μ v, regressAny bs R w Q w.train Y = .ok (μ, v) ∧ μ.shape = [m] ∧ v.shape = [m] ∧
        ∀ p < m, ∀ (δ η ε : ℝ), 0 ≤ δ → 0 ≤ η → 0 ≤ ε → w.nnCount * δ < τ →
          ∀ (pair : Fin w.nnCount → Fin w.nnCount → ℝ) (cross y : Fin w.nnCount → ℝ), (∀ i j, 0 ≤ pair i j) → (∀ i, 0 ≤ cross i) →
            let scaled := fun (x : Fin w.f → ℝ) c => x c / len c
            let nbr := fun i : Fin w.nnCount => scaled (pt w.train w.f (pointOf w.N (nn.get [p, i])))
            let K := fun d => R.kernel.fn.value bs none d
            (∀ i j, |pair i j - distOf R.kernel.deform.metric (nbr i) (nbr j)| ≤ δ) →
            (∀ i, |cross i - distOf R.kernel.deform.metric (scaled (rowPt Q w.f p)) (nbr i)| ≤ η) →
            (∀ i, |y i - nbrTargets Y w.N w.nnCount nn p 0 i| ≤ ε) →
            let A : Matrix (Fin w.nnCount) (Fin w.nnCount) ℝ := fun i j => K (pair i j) + if i = j then τ else 0
            let c := fun i => K (cross i)
            A.det ≠ 0 ∧ ∀ x u, A *ᵥ x = y → A *ᵥ u = c →
              |c ⬝ᵥ x - μ.get [p]| ≤ Spec.computedError w.nnCount τ δ η ε (Spec.size y) ∧
              |R.gp.boundScale * (1 - c ⬝ᵥ u) - v.get [p]| ≤ |R.gp.boundScale| * Spec.computedError w.nnCount τ δ η η (Spec.size c) := by
  have hgen : R.kernel.fn ≠ .gen := suits_closed hsuit
  obtain ⟨nn, h1, h2⟩ := C117_inexact bs R hk hko hsuit τ hτ hν w hw Q m len hlen hQ hm hk0 hkN
  refine ⟨nn, h1, fun Y hY => ?_⟩
  obtain ⟨μ, v, r1, r2, r3, r4⟩ := h2 Y hY
  refine ⟨μ, v, r1, r2, r3, fun p hp δ η ε hδ hη hε hsmall pair cross y hp0 hc0 => ?_⟩
  intro scaled nbr K hpair hcross hy A c
  have hs : ∀ s d, R.kernel.fn.value bs s d = R.kernel.fn.value bs none d := fun s d => by
    cases h : R.kernel.fn with
    | gen => exact absurd h hgen
    | _ => rfl
  have hd : ∀ x y : Fin w.f → ℝ, 0 ≤ distOf R.kernel.deform.metric x y := fun x y => by
    cases R.kernel.deform.metric with
    | l2 => rw [distOf_l2]; exact dist_nonneg
    | F2 => rw [distOf_F2]; exact Finset.sum_nonneg fun _ _ => sq_nonneg _
  refine r4 p hp δ η ε hδ hη hε hsmall A c y (fun i j => ?_) (fun i => ?_) hy
  · refine le_trans (le_of_eq ?_) ((value_lipschitz bs none hgen (hp0 i j) (hd (nbr i) (nbr j))).trans (hpair i j))
    show |K (pair i j) + _ - (R.kernel.fn.value bs _ _ + _)| = _
    rw [hs, add_sub_add_right_eq_sub]
  · refine le_trans (le_of_eq ?_) ((value_lipschitz bs none hgen (hc0 i) (hd _ (nbr i))).trans (hcross i))
    show |K (cross i) - R.kernel.fn.value bs _ _| = _
    rw [hs]

end MuyGPyS
