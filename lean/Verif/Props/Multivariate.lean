import Verif.Lemmas.Objective
import Verif.Spec.Multivariate
import Verif.Props.Workflow
import Verif.Props.Scale
import Verif.Props.Fast

/-! # C46, C47: multi-output models -/

namespace MuyGPyS
open Py Matrix

theorem perturb_shape3 (ν : Noise) {b n : Nat} (Kin P : Tensor ℝ) (h : Kin.shape = [b, n, n])
    (hP : ν.perturb Kin = .ok P) : P.shape = [b, n, n] := by
  cases ν with
  | null => simp only [Noise.perturb, Except.ok.injEq] at hP; rw [← hP, h]
  | homoscedastic v =>
    simp only [Noise.perturb, homoscedasticPerturb, h, if_true, Except.ok.injEq] at hP
    rw [← hP]
  | shear33 v => simp [Noise.perturb, shearPerturb33, h] at hP
  | heteroscedastic v =>
    simp only [Noise.perturb, heteroscedasticPerturb, h, lt_irrefl, if_false] at hP
    split_ifs at hP <;> simp only [Except.ok.injEq] at hP <;> rw [← hP]

/-- Targets of shape `(b, n, 1)` instead of `(b, n)`: the same predictions with an extra axis, unless the
response count one is mistaken for the neighbour count. -/
theorem posteriorMean_axis (b n : Nat) (hbn : n ≠ 1 ∨ b = 1) (Kin Kcross : Tensor ℝ) (f : Nat → ℝ)
    (hK : Kin.shape = [b, n, n]) (hC : Kcross.shape = [b, n]) :
    (do let m ← posteriorMean Kin Kcross ⟨[b, n, 1], f⟩; m.reshape [b]) = posteriorMean Kin Kcross ⟨[b, n], f⟩ := by
  obtain ⟨sK, g⟩ := Kin
  obtain ⟨sC, c⟩ := Kcross
  obtain rfl : sK = [b, n, n] := hK
  obtain rfl : sC = [b, n] := hC
  by_cases hn : n = 1
  · obtain rfl : b = 1 := hbn.resolve_left (by simpa using hn)
    subst hn
    unfold posteriorMean
    simp [findMatchingNdim, dropTail2, bind, Except.bind, Tensor.reshape, Tensor.solve]
    split_ifs with h1 h2 h2 <;> simp [Tensor.ofMats, Tensor.matmulT]
    · exact h2 h1
    · exact h1 h2
    · rfl
  · unfold posteriorMean
    simp [findMatchingNdim, dropTail2, bind, Except.bind, Tensor.reshape, Tensor.solve, Ne.symm hn]
    split_ifs with h1 <;> simp [Tensor.ofMats, Tensor.matmulT]

theorem mean_axis (ν : MuyGPS) (b n : Nat) (hbn : n ≠ 1 ∨ b = 1) (Kin Kcross : Tensor ℝ) (f : Nat → ℝ)
    (hK : Kin.shape = [b, n, n]) (hC : Kcross.shape = [b, n]) :
    (do let m ← ν.posteriorMean Kin Kcross ⟨[b, n, 1], f⟩; m.reshape [b]) =
      ν.posteriorMean Kin Kcross ⟨[b, n], f⟩ := by
  unfold MuyGPS.posteriorMean Noise.perturbFn
  cases hP : ν.noise.perturb Kin with
  | error e => rfl
  | ok P =>
    have := posteriorMean_axis b n hbn P Kcross f (perturb_shape3 ν.noise Kin P hK hP) hC
    simpa only [bind, Except.bind] using this

theorem targetColumn_eq (b n r c : Nat) (y : Tensor ℝ) (hy : y.shape = [b, n, r]) (hc : c < r) :
    sliceLast y c = .ok ⟨[b, n], fun k => y.flat (k * r + c)⟩ ∧
      targetColumn y c = ⟨[b, n], fun k => y.flat (k * r + c)⟩ := by
  constructor
  · unfold sliceLast; rw [hy]; simp [hc]
  · unfold targetColumn Tensor.ofFn
    rw [hy]
    simp only [List.take]
    congr 1
    funext k
    simp only [Tensor.unravel, List.getD_cons_zero, List.getD_cons_succ, List.prod_cons, List.prod_nil, mul_one,
      Nat.div_one]
    rw [Tensor.get3 y hy]
    congr 1
    rw [← Nat.mul_assoc, ← Nat.add_mul, divmod]

/-- One iteration of the multi-output mean is the univariate mean of that column. -/
theorem multiMeanOne_eq (bessel : Flt → ℝ → ℝ) (b n r c : Nat) (hbn : n ≠ 1 ∨ b = 1) (hc : c < r)
    (pd cd y : Tensor ℝ) (T : Trainee) (hy : y.shape = [b, n, r]) (hr : T.R.Realizes bessel pd cd b n) :
    multiMeanOne bessel b n pd cd y T c = univariateMean bessel T.R pd cd (targetColumn y c) := by
  obtain ⟨K, C, k1, k2, c1, c2⟩ := hr
  obtain ⟨s1, s2⟩ := targetColumn_eq b n r c y hy hc
  unfold multiMeanOne univariateMean
  rw [k1, c1, s1, s2]
  have hre : Tensor.reshape ⟨[b, n], fun k => y.flat (k * r + c)⟩ [b, n, 1] =
      .ok ⟨[b, n, 1], fun k => y.flat (k * r + c)⟩ := Tensor.reshape_ok _ _ (by simp)
  simp only [bind, Except.bind, hre]
  exact mean_axis T.R.gp b n hbn K C _ k2 c2

/-- The column-filling loop. -/
theorem assignEach_from (b r : Nat) (f : Trainee → Nat → Res (Tensor ℝ)) (models : List Trainee) (k : Nat)
    (x : Tensor ℝ) (hx : x.shape = [b, r]) (hk : k + models.length ≤ r)
    (g : Nat → Tensor ℝ) (hg : ∀ i T, models[i]? = some T → f T (k + i) = .ok (g (k + i)) ∧ (g (k + i)).shape = [b]) :
    ∃ M, (models.zipIdx k).foldlM (fun acc mi => do let v ← f mi.1 mi.2; assignCol acc v mi.2) x = .ok M ∧
      M.shape = [b, r] ∧ ∀ p < b, ∀ c < r, M.get [p, c] =
        if k ≤ c ∧ c < k + models.length then (g c).get [p] else x.get [p, c] := by
  induction models generalizing k x with
  | nil =>
    refine ⟨x, rfl, hx, fun p _ c _ => ?_⟩
    rw [if_neg]; simp
  | cons T models ih =>
    simp only [List.length_cons] at hk
    obtain ⟨h1, h2⟩ := hg 0 T rfl
    rw [Nat.add_zero] at h1 h2
    have ha : assignCol x (g k) k = .ok ⟨[b, r], fun q => if q % r = k then (g k).flat (q / r) else x.flat q⟩ := by
      unfold assignCol
      rw [hx]
      simp only
      rw [if_neg (by omega), if_pos h2]
    obtain ⟨M, m1, m2, m3⟩ := ih (k + 1) ⟨[b, r], fun q => if q % r = k then (g k).flat (q / r) else x.flat q⟩
      rfl (by omega) fun i T' hi => by
        have := hg (i + 1) T' (by simpa using hi)
        rwa [show k + 1 + i = k + (i + 1) by omega]
    refine ⟨M, ?_, m2, fun p hp c hc => ?_⟩
    · simp only [List.zipIdx_cons, List.foldlM_cons, h1, bind, Except.bind, ha]
      exact m1
    · rw [m3 p hp c hc]
      have hr : 0 < r := by omega
      have e : (⟨[b, r], fun q => if q % r = k then (g k).flat (q / r) else x.flat q⟩ : Tensor ℝ).get [p, c] =
          if c = k then (g k).get [p] else x.get [p, c] := by
        rw [Tensor.get2 _ rfl, Tensor.get1 _ h2, Tensor.get2 x hx]
        simp only
        have e1 : (p * r + c) % r = c := by rw [Nat.mul_comm, Nat.mul_add_mod, Nat.mod_eq_of_lt hc]
        have e2 : (p * r + c) / r = p := by
          rw [Nat.mul_comm, Nat.mul_add_div hr, Nat.div_eq_of_lt hc, Nat.add_zero]
        rw [e1, e2]
      rw [e]
      simp only [List.length_cons]
      by_cases hck : c = k
      · subst hck
        rw [if_neg (by omega), if_pos rfl, if_pos (by omega)]
      · rw [if_neg hck]
        by_cases h3 : k + 1 ≤ c ∧ c < k + 1 + models.length
        · rw [if_pos h3, if_pos (by omega)]
        · rw [if_neg h3, if_neg (by omega)]

/-- The loop succeeds only if every iteration does. -/
theorem assignEach_ok (f : Trainee → Nat → Res (Tensor ℝ)) (models : List Trainee) (k : Nat) (x M : Tensor ℝ)
    (h : (models.zipIdx k).foldlM (fun acc mi => do let v ← f mi.1 mi.2; assignCol acc v mi.2) x = .ok M) :
    ∀ i T, models[i]? = some T → ∃ v, f T (k + i) = .ok v := by
  induction models generalizing k x with
  | nil => simp
  | cons T models ih =>
    simp only [List.zipIdx_cons, List.foldlM_cons, bind, Except.bind] at h
    cases hv : f T k with
    | error e => simp [hv] at h
    | ok v =>
      rw [hv] at h
      simp only at h
      cases ha : assignCol x v k with
      | error e => simp [ha] at h
      | ok x' =>
        rw [ha] at h
        intro i T' hi
        cases i with
        | zero => simp at hi; subst hi; exact ⟨v, hv⟩
        | succ i =>
          have := ih (k + 1) x' h i T' (by simpa using hi)
          rwa [show k + 1 + i = k + (i + 1) by omega] at this

theorem univariateMean_shape (bessel : Flt → ℝ → ℝ) (b n : Nat) (R : Regressor) (pd cd y t : Tensor ℝ)
    (hy : y.shape = [b, n]) (hr : R.Realizes bessel pd cd b n) (h : univariateMean bessel R pd cd y = .ok t) :
    t.shape = [b] := by
  obtain ⟨K, C, k1, k2, c1, c2⟩ := hr
  unfold univariateMean at h
  simp only [k1, c1, bind, Except.bind, MuyGPS.posteriorMean, Noise.perturbFn] at h
  cases hP : R.gp.noise.perturb K with
  | error e => simp [hP] at h
  | ok P =>
    rw [hP] at h
    simp only at h
    have hs := perturb_shape3 _ K P k2 hP
    unfold MuyGPyS.posteriorMean at h
    have hf : findMatchingNdim y.shape P.shape = .ok 2 := by rw [hy, hs]; simp [findMatchingNdim]
    simp only [hf, bind, Except.bind] at h
    have e1 : dropTail2 P.shape (List.drop 2 P.shape).length = [b] := by rw [hs]; rfl
    have e2 : List.drop 2 C.shape = [] := by rw [c2]; rfl
    have e3 : List.drop ([b].length + (List.drop 2 P.shape).length) y.shape = [] := by
      rw [hy, hs]; rfl
    simp only [e1, e2, e3, List.append_nil] at h
    repeat' split at h
    all_goals first | contradiction | skip
    rename_i v _
    unfold Tensor.reshape at h
    split_ifs at h
    simp only [Except.ok.injEq] at h
    rw [← h]

/-- **C46, posterior mean.** A multi-output model with as many models as responses predicts iff each of
its univariate models does, and column `c` of its posterior mean is the posterior mean of model `c`
on the response column `c`. Partial: `n = 1` neighbour with several predictions is excluded, see
`C46_one_neighbour_fails`. -/
theorem C46_mean_partial (bessel : Flt → ℝ → ℝ) (models : List Trainee) (b n r : Nat) (hbn : n ≠ 1 ∨ b = 1)
    (pd cd y : Tensor ℝ) (hy : y.shape = [b, n, r]) (hlen : models.length = r)
    (hr : ∀ T ∈ models, T.R.Realizes bessel pd cd b n) :
    ((∃ M, multiPosteriorMean bessel models pd cd y = .ok M) ↔
      ∀ c T, models[c]? = some T → ∃ t, univariateMean bessel T.R pd cd (targetColumn y c) = .ok t) ∧
    ∀ M, multiPosteriorMean bessel models pd cd y = .ok M → M.shape = [b, r] ∧
      ∀ c T t, models[c]? = some T → univariateMean bessel T.R pd cd (targetColumn y c) = .ok t →
        t.shape = [b] ∧ ∀ p < b, M.get [p, c] = t.get [p] := by
  have hlt : ∀ {c T}, models[c]? = some T → c < r := fun h => by
    rw [← hlen]; exact (List.getElem?_eq_some_iff.mp h).1
  have hone : ∀ c T, models[c]? = some T →
      multiMeanOne bessel b n pd cd y T c = univariateMean bessel T.R pd cd (targetColumn y c) := fun c T h =>
    multiMeanOne_eq bessel b n r c hbn (hlt h) pd cd y T hy (hr T (List.mem_of_getElem? h))
  have hsh : ∀ c T t, models[c]? = some T → univariateMean bessel T.R pd cd (targetColumn y c) = .ok t →
      t.shape = [b] := fun c T t h e =>
    univariateMean_shape bessel b n T.R pd cd _ t (by rw [(targetColumn_eq b n r c y hy (hlt h)).2])
      (hr T (List.mem_of_getElem? h)) e
  have hred : multiPosteriorMean bessel models pd cd y =
      assignEach (multiMeanOne bessel b n pd cd y) models (zeros [b, r]) := by
    unfold multiPosteriorMean; rw [hy]
  have hall : (∀ c T, models[c]? = some T → ∃ t, univariateMean bessel T.R pd cd (targetColumn y c) = .ok t) →
      ∃ M, multiPosteriorMean bessel models pd cd y = .ok M ∧ M.shape = [b, r] ∧
        ∀ c T t, models[c]? = some T → univariateMean bessel T.R pd cd (targetColumn y c) = .ok t →
          ∀ p < b, M.get [p, c] = t.get [p] := by
    intro h
    have : ∀ c, ∃ t, ∀ T, models[c]? = some T → univariateMean bessel T.R pd cd (targetColumn y c) = .ok t := by
      intro c
      cases hc : models[c]? with
      | none => exact ⟨zeros [], by simp⟩
      | some T =>
        obtain ⟨t, ht⟩ := h c T hc
        exact ⟨t, by rintro T' ⟨⟩; exact ht⟩
    choose g hg using this
    obtain ⟨M, m1, m2, m3⟩ := assignEach_from b r (multiMeanOne bessel b n pd cd y) models 0 (zeros [b, r]) rfl
      (by omega) g fun i T hi => by
        rw [Nat.zero_add, hone i T hi, hg i T hi]
        exact ⟨rfl, hsh i T _ hi (hg i T hi)⟩
    refine ⟨M, by rw [hred]; exact m1, m2, fun c T t hc ht p hp => ?_⟩
    rw [m3 p hp c (hlt hc), if_pos ⟨Nat.zero_le _, by have := hlt hc; omega⟩]
    rw [hg c T hc] at ht
    rw [Except.ok.inj ht]
  have hconv : ∀ M, multiPosteriorMean bessel models pd cd y = .ok M →
      ∀ c T, models[c]? = some T → ∃ t, univariateMean bessel T.R pd cd (targetColumn y c) = .ok t := by
    intro M hM c T hc
    rw [hred] at hM
    obtain ⟨v, hv⟩ := assignEach_ok _ models 0 _ M hM c T hc
    rw [Nat.zero_add, hone c T hc] at hv
    exact ⟨v, hv⟩
  refine ⟨⟨fun ⟨M, hM⟩ => hconv M hM, fun h => let ⟨M, h1, _⟩ := hall h; ⟨M, h1⟩⟩, fun M hM => ?_⟩
  obtain ⟨M', m1, m2, m3⟩ := hall (hconv M hM)
  rw [m1] at hM
  obtain rfl := Except.ok.inj hM
  exact ⟨m2, fun c T t hc ht => ⟨hsh c T t hc ht, m3 c T t hc ht⟩⟩

/-- **C46, independence of the outputs.** Two multi-output models (with the same or different numbers of
outputs) that agree in model `c`, evaluated on targets that agree in column `c`, make the same
predictions of output `c`, whatever their other models and targets are. -/
theorem C46_independent_partial (bessel : Flt → ℝ → ℝ) (models models' : List Trainee) (b n r r' : Nat)
    (hbn : n ≠ 1 ∨ b = 1) (pd cd y y' : Tensor ℝ) (hy : y.shape = [b, n, r]) (hy' : y'.shape = [b, n, r'])
    (hlen : models.length = r) (hlen' : models'.length = r')
    (hr : ∀ T ∈ models, T.R.Realizes bessel pd cd b n) (hr' : ∀ T ∈ models', T.R.Realizes bessel pd cd b n)
    (M M' : Tensor ℝ) (hM : multiPosteriorMean bessel models pd cd y = .ok M)
    (hM' : multiPosteriorMean bessel models' pd cd y' = .ok M') (c : Nat) (hc : c < r)
    (hsame : models[c]? = models'[c]?) (hcol : targetColumn y c = targetColumn y' c) :
    ∀ p < b, M.get [p, c] = M'.get [p, c] := by
  obtain ⟨T, hT⟩ : ∃ T, models[c]? = some T := ⟨_, List.getElem?_eq_getElem (by omega)⟩
  obtain ⟨h1, h2⟩ := C46_mean_partial bessel models b n r hbn pd cd y hy hlen hr
  obtain ⟨h1', h2'⟩ := C46_mean_partial bessel models' b n r' hbn pd cd y' hy' hlen' hr'
  obtain ⟨t, ht⟩ := h1.1 ⟨M, hM⟩ c T hT
  intro p hp
  rw [((h2 M hM).2 c T t hT ht).2 p hp, ((h2' M' hM').2 c T t (hsame ▸ hT) (hcol ▸ ht)).2 p hp]

/-- **C46 fails for one neighbour.** With `n = 1` neighbour and a batch of any size but one the
multi-output posterior mean raises `ValueError` whatever the (at least one) models and responses, even
though every univariate model predicts. -/
theorem C46_one_neighbour_fails (bessel : Flt → ℝ → ℝ) (T : Trainee) (models : List Trainee) (b r : Nat) (hb : b ≠ 1)
    (hr0 : 0 < r) (pd cd y : Tensor ℝ) (hy : y.shape = [b, 1, r]) (hr : T.R.Realizes bessel pd cd b 1)
    (hν : T.R.gp.noise.Fits b 1) :
    multiPosteriorMean bessel (T :: models) pd cd y = .error .value := by
  obtain ⟨K, C, k1, k2, c1, c2⟩ := hr
  obtain ⟨s1, -⟩ := targetColumn_eq b 1 r 0 y hy hr0
  have hre : Tensor.reshape ⟨[b, 1], fun k => y.flat (k * r + 0)⟩ [b, 1, 1] =
      .ok ⟨[b, 1, 1], fun k => y.flat (k * r + 0)⟩ := Tensor.reshape_ok _ _ (by simp)
  obtain ⟨P, p1, p2, -⟩ := T.R.gp.noise.perturb_cov hν K k2
  have hone : multiMeanOne bessel b 1 pd cd y T 0 = .error .value := by
    unfold multiMeanOne
    simp only [k1, c1, s1, bind, Except.bind, hre, MuyGPS.posteriorMean, Noise.perturbFn, p1]
    rw [(C24_responses_eq_neighbours_fails b 1 P C ⟨[b, 1, 1], fun k => y.flat (k * r + 0)⟩ p2 c2 rfl).1 (by omega)]
  unfold multiPosteriorMean assignEach
  rw [hy]
  simp only [List.zipIdx_cons, List.foldlM_cons, bind, Except.bind, hone]

/-- **C46, response counts.** With fewer models than response columns the extra columns are silently
predicted as zero, with more models than columns the call fails. -/
theorem C46_response_count (bessel : Flt → ℝ → ℝ) (models : List Trainee) (b n r : Nat)
    (pd cd y : Tensor ℝ) (hy : y.shape = [b, n, r]) :
    (∀ M, multiPosteriorMean bessel models pd cd y = .ok M → models.length ≤ r) ∧
    (∀ M, multiPosteriorMean bessel models pd cd y = .ok M → M.shape = [b, r] ∧
      ∀ p < b, ∀ c < r, models.length ≤ c → M.get [p, c] = 0) := by
  have hred : multiPosteriorMean bessel models pd cd y =
      assignEach (multiMeanOne bessel b n pd cd y) models (zeros [b, r]) := by
    unfold multiPosteriorMean; rw [hy]
  have hle : ∀ M, multiPosteriorMean bessel models pd cd y = .ok M → models.length ≤ r := by
    intro M hM
    by_contra hlt
    rw [hred] at hM
    obtain ⟨T, hT⟩ : ∃ T, models[r]? = some T := ⟨_, List.getElem?_eq_getElem (by omega)⟩
    obtain ⟨v, hv⟩ := assignEach_ok _ models 0 _ M hM r T hT
    unfold multiMeanOne sliceLast at hv
    simp only [Nat.zero_add, hy, lt_irrefl, if_false, bind, Except.bind] at hv
    repeat' split at hv
    all_goals simp at hv
  refine ⟨hle, fun M hM => ?_⟩
  have hl := hle M hM
  rw [hred] at hM
  have hall := assignEach_ok _ models 0 _ M hM
  have : ∀ c, ∃ t, ∀ T, models[c]? = some T → multiMeanOne bessel b n pd cd y T c = .ok t := by
    intro c
    cases hc : models[c]? with
    | none => exact ⟨zeros [], by simp⟩
    | some T =>
      obtain ⟨t, ht⟩ := hall c T hc
      rw [Nat.zero_add] at ht
      exact ⟨t, by rintro T' ⟨⟩; exact ht⟩
  choose g hg using this
  obtain ⟨M', m1, m2, m3⟩ := assignEach_from b r (multiMeanOne bessel b n pd cd y) models 0 (zeros [b, r]) rfl
    (by omega) g fun i T hi => by
      rw [Nat.zero_add]
      refine ⟨hg i T hi, ?_⟩
      have h := hg i T hi
      unfold multiMeanOne at h
      simp only [bind, Except.bind] at h
      repeat' split at h
      all_goals first | contradiction | skip
      unfold Tensor.reshape at h
      split_ifs at h
      simp only [Except.ok.injEq] at h
      rw [← h]
  have e : M' = M := Except.ok.inj (m1.symm.trans hM)
  subst e
  refine ⟨m2, fun p hp c hc hle => ?_⟩
  rw [m3 p hp c hc, if_neg (by omega)]
  rfl

/-- One iteration of the multi-output variance. -/
theorem multiVarOne_eq (bessel : Flt → ℝ → ℝ) (b : Nat) (pd cd : Tensor ℝ) (T : Trainee) (c : Nat) :
    multiVarOne bessel b pd cd T c = (do
      let v ← univariateVariance bessel T.R pd cd
      let v ← v.reshape [b]
      return v.map fun x => x * T.R.gp.scale) := by
  unfold multiVarOne univariateVariance
  cases T.R.kernel.call bessel pd [] with
  | error e => rfl
  | ok K =>
    cases T.R.kernel.call bessel cd [] with
    | error e => rfl
    | ok C => rfl

/-- **What the multi-output posterior variance is**: for univariate variances of the documented shape
`(b,)`, column `c` is the posterior variance of model `c` multiplied once more by the scale of model
`c`. -/
theorem C46_variance_actual (bessel : Flt → ℝ → ℝ) (models : List Trainee) (b : Nat) (tl : List Nat)
    (pd cd : Tensor ℝ) (hcd : cd.shape = b :: tl) (v : Nat → Tensor ℝ)
    (hv : ∀ c T, models[c]? = some T → univariateVariance bessel T.R pd cd = .ok (v c) ∧ (v c).shape = [b]) :
    ∃ V, multiPosteriorVariance bessel models pd cd = .ok V ∧ V.shape = [b, models.length] ∧
      ∀ c T, models[c]? = some T → ∀ p < b, V.get [p, c] = T.R.gp.scale * (v c).get [p] := by
  obtain ⟨M, m1, m2, m3⟩ := assignEach_from b models.length (multiVarOne bessel b pd cd) models 0
    (zeros [b, models.length]) rfl (by omega)
    (fun c => ⟨[b], fun k => (v c).flat k * ((models[c]?.map fun T => T.R.gp.scale).getD 0)⟩) fun i T hi => by
      obtain ⟨h1, h2⟩ := hv i T hi
      have hre : (v i).reshape [b] = .ok ⟨[b], (v i).flat⟩ := Tensor.reshape_ok _ _ (by rw [h2])
      rw [multiVarOne_eq, h1]
      simp only [Nat.zero_add, bind, Except.bind, hre, hi, pure, Except.pure]
      exact ⟨rfl, trivial⟩
  refine ⟨M, ?_, m2, fun c T hc p hp => ?_⟩
  · unfold multiPosteriorVariance
    rw [hcd]
    exact m1
  · have hlt : c < models.length := (List.getElem?_eq_some_iff.mp hc).1
    rw [m3 p hp c hlt, if_pos (by omega), Tensor.get1 _ rfl, Tensor.get1 _ (hv c T hc).2]
    simp only [hc, Option.map_some, Option.getD_some]
    ring

/-- **C46, posterior variance.** Models of unit scale: column `c` of the multi-output posterior variance is
the posterior variance of model `c`. Partial: for other scales the claim is false, see
`C46_variance_fails`. -/
theorem C46_variance_partial (bessel : Flt → ℝ → ℝ) (models : List Trainee) (b : Nat) (tl : List Nat)
    (pd cd : Tensor ℝ) (hcd : cd.shape = b :: tl) (v : Nat → Tensor ℝ)
    (hv : ∀ c T, models[c]? = some T → univariateVariance bessel T.R pd cd = .ok (v c) ∧ (v c).shape = [b])
    (hone : ∀ T ∈ models, T.R.gp.scale = 1) :
    ∃ V, multiPosteriorVariance bessel models pd cd = .ok V ∧ V.shape = [b, models.length] ∧
      ∀ c T, models[c]? = some T → ∀ p < b, V.get [p, c] = (v c).get [p] := by
  obtain ⟨V, h1, h2, h3⟩ := C46_variance_actual bessel models b tl pd cd hcd v hv
  exact ⟨V, h1, h2, fun c T hc p hp => by
    rw [h3 c T hc p hp, hone T (List.mem_of_getElem? hc), one_mul]⟩

/-- **C46 (and C30) fail for the multi-output posterior variance**: whenever the scale of model `c` is not
one and its univariate variance is not zero, the multi-output variance differs from it. -/
theorem C46_variance_fails (bessel : Flt → ℝ → ℝ) (models : List Trainee) (b : Nat) (tl : List Nat)
    (pd cd : Tensor ℝ) (hcd : cd.shape = b :: tl) (v : Nat → Tensor ℝ)
    (hv : ∀ c T, models[c]? = some T → univariateVariance bessel T.R pd cd = .ok (v c) ∧ (v c).shape = [b])
    (c : Nat) (T : Trainee) (hc : models[c]? = some T) (p : Nat) (hp : p < b) (hs : T.R.gp.scale ≠ 1)
    (hne : (v c).get [p] ≠ 0) :
    ∃ V, multiPosteriorVariance bessel models pd cd = .ok V ∧ V.get [p, c] ≠ (v c).get [p] := by
  obtain ⟨V, h1, h2, h3⟩ := C46_variance_actual bessel models b tl pd cd hcd v hv
  refine ⟨V, h1, fun h => ?_⟩
  rw [h3 c T hc p hp] at h
  exact hs (mul_right_cancel₀ hne (by rw [h, one_mul]))

/-! ### The scale estimates -/

theorem downSampleOne_axis (b b' n d : Nat) (pK : Tensor ℝ) (f : Nat → ℝ) (s : List Nat) :
    downSampleOne b' d pK ⟨[b, n, 1], f⟩ s = downSampleOne b' d pK ⟨[b, n], f⟩ s := by
  unfold downSampleOne scaleUnnormalized
  simp only [List.drop]
  have e : (Tensor.ofFn [b', d, 1] fun idx => (⟨[b, n, 1], f⟩ : Tensor ℝ).get
        (idx.getD 0 0 :: (s.mergeSort (fun a b => decide (a ≤ b))).getD (idx.getD 1 0) 0 :: idx.drop 2)).atleast3d
      = (Tensor.ofFn [b', d] fun idx => (⟨[b, n], f⟩ : Tensor ℝ).get
        (idx.getD 0 0 :: (s.mergeSort (fun a b => decide (a ≤ b))).getD (idx.getD 1 0) 0 :: idx.drop 2)).atleast3d := by
    simp only [Tensor.atleast3d, Tensor.ofFn]
    congr 1
    funext k
    simp [Tensor.unravel, Tensor.get, Tensor.ravel, Nat.mod_one]
  rw [e]

theorem analyticScale_axis (b n : Nat) (K : Tensor ℝ) (f : Nat → ℝ) :
    analyticScale K ⟨[b, n, 1], f⟩ = analyticScale K ⟨[b, n], f⟩ := by
  unfold analyticScale
  simp only [bind, Except.bind]
  have : ∀ s, Tensor.reshape (⟨[b, n, 1], f⟩ : Tensor ℝ) s = Tensor.reshape ⟨[b, n], f⟩ s := by
    intro s; unfold Tensor.reshape; simp
  simp only [this]

theorem scaleOptFn_axis (kind : ScaleKind) (gp : MuyGPS) (draws : List (List Nat)) (K : Tensor ℝ) (b n : Nat)
    (f : Nat → ℝ) :
    scaleOptFn kind gp draws K ⟨[b, n, 1], f⟩ [] = scaleOptFn kind gp draws K ⟨[b, n], f⟩ [] := by
  cases kind with
  | fixed => rfl
  | analytic m =>
    unfold scaleOptFn analyticOpt
    simp only [analyticScale_axis]
  | downSample d =>
    unfold scaleOptFn downSampleOpt
    simp only
    split
    · rename_i b' n' _ hK
      have h' : ∀ pK, downSampleOne b' d pK (⟨[b, n, 1], f⟩ : Tensor ℝ) = downSampleOne b' d pK ⟨[b, n], f⟩ :=
        fun pK => funext fun s => downSampleOne_axis b b' n d pK f s
      simp only [h']
    · rfl

theorem mapM_zipIdx_get {α β : Type} (f : α × Nat → Res β) (l : List α) (k : Nat) (l' : List β)
    (h : (l.zipIdx k).mapM f = .ok l') :
    l'.length = l.length ∧ ∀ i a, l[i]? = some a → ∃ b, l'[i]? = some b ∧ f (a, k + i) = .ok b := by
  induction l generalizing k l' with
  | nil => simp [List.mapM_nil, pure, Except.pure] at h; subst h; simp
  | cons a l ih =>
    simp only [List.zipIdx_cons, List.mapM_cons, bind, Except.bind, pure, Except.pure] at h
    cases hb : f (a, k) with
    | error e => simp [hb] at h
    | ok b =>
      rw [hb] at h
      simp only at h
      cases hm : (l.zipIdx (k + 1)).mapM f with
      | error e => simp [hm] at h
      | ok bs =>
        rw [hm] at h
        simp only [Except.ok.injEq] at h
        subst h
        obtain ⟨h1, h2⟩ := ih (k + 1) bs hm
        refine ⟨by simp [h1], fun i a' hi => ?_⟩
        cases i with
        | zero => simp at hi; subst hi; exact ⟨b, rfl, hb⟩
        | succ i =>
          obtain ⟨b', b1, b2⟩ := h2 i a' (by simpa using hi)
          exact ⟨b', by simpa using b1, by rwa [show k + (i + 1) = k + 1 + i by omega]⟩

/-- **C46, scale optimisation.** Optimising the scales of a multi-output model sets the scale of each model
to the estimate that model makes from its own response column alone, and changes nothing else — in
particular not the scale its variance function has captured. -/
theorem C46_scale (bessel : Flt → ℝ → ℝ) (models models' : List Trainee) (draws : List (List Nat)) (b n r : Nat)
    (pd y : Tensor ℝ) (hy : y.shape = [b, n, r])
    (h : multiOptimizeScale bessel models draws pd y = .ok models') :
    r = models.length ∧ models'.length = models.length ∧
    ∀ c T, models[c]? = some T → ∃ s, univariateScale bessel T draws pd (targetColumn y c) = .ok (some s) ∧ 0 < s ∧
      models'[c]? = some { T with R := { T.R with gp := { T.R.gp with scale := s } } } := by
  unfold multiOptimizeScale at h
  rw [hy] at h
  simp only at h
  split_ifs at h with hr
  have hr' : r = models.length := by simpa using hr
  obtain ⟨h1, h2⟩ := mapM_zipIdx_get _ models 0 models' h
  refine ⟨hr', h1, fun c T hc => ?_⟩
  obtain ⟨T', t1, t2⟩ := h2 c T hc
  have hlt : c < r := by rw [hr']; exact (List.getElem?_eq_some_iff.mp hc).1
  obtain ⟨s1, s2⟩ := targetColumn_eq b n r c y hy hlt
  have hre : Tensor.reshape ⟨[b, n], fun k => y.flat (k * r + c)⟩ [b, n, 1] =
      .ok ⟨[b, n, 1], fun k => y.flat (k * r + c)⟩ := Tensor.reshape_ok _ _ (by simp)
  unfold multiScaleOne at t2
  unfold univariateScale
  cases hK : T.R.kernel.call bessel pd [] with
  | error e => simp [hK, bind, Except.bind] at t2
  | ok K =>
    simp only [hK, Nat.zero_add, s1, hre, bind, Except.bind, scaleOptFn_axis] at t2
    simp only [s2, bind, Except.bind, ← scaleOptFn_eq T draws _ _ []]
    cases hs : scaleOptFn T.scaleKind T.R.gp draws K ⟨[b, n], fun k => y.flat (k * r + c)⟩ [] with
    | error e => simp [hs] at t2
    | ok o =>
      rw [hs] at t2
      cases o with
      | none => simp at t2
      | some s =>
        simp only [MuyGPS.setScale] at t2
        by_cases hs0 : s ≤ 0
        · simp [hs0] at t2
        · rw [if_neg hs0] at t2
          simp only [pure, Except.pure, Except.ok.injEq] at t2
          exact ⟨s, rfl, not_le.mp hs0, by rw [t1, ← t2]⟩

/-- **C46 / C30 fail after optimising the scales of a multi-output model.** Start from freshly constructed
models and optimise: the posterior variance of output `c` is then the *product* of the new and the old
scale times the unit-scale variance, where a univariate model would report the new scale times that. -/
theorem C46_scale_then_variance (bessel : Flt → ℝ → ℝ) (models models' : List Trainee) (draws : List (List Nat))
    (b n r : Nat) (tl : List Nat) (pd cd y : Tensor ℝ) (hy : y.shape = [b, n, r]) (hcd : cd.shape = b :: tl)
    (hfresh : ∀ T ∈ models, T.R.gp.boundScale = T.R.gp.scale)
    (u : Nat → Tensor ℝ)
    (hu : ∀ c T, models[c]? = some T →
      univariateVariance bessel { T.R with gp := { T.R.gp with scale := 1, boundScale := 1 } } pd cd = .ok (u c) ∧
        (u c).shape = [b])
    (h : multiOptimizeScale bessel models draws pd y = .ok models') :
    ∃ V, multiPosteriorVariance bessel models' pd cd = .ok V ∧
      ∀ c T, models[c]? = some T → ∃ s, univariateScale bessel T draws pd (targetColumn y c) = .ok (some s) ∧
        ∀ p < b, V.get [p, c] = s * T.R.gp.scale * (u c).get [p] := by
  obtain ⟨-, h1, h2⟩ := C46_scale bessel models models' draws b n r pd y hy h
  have huv : ∀ c T, models[c]? = some T → ∀ s, univariateVariance bessel
      { T.R with gp := { T.R.gp with scale := s } } pd cd = .ok ((u c).map fun x => T.R.gp.scale * x) := by
    intro c T hc s
    have := (hu c T hc).1
    unfold univariateVariance at this ⊢
    cases hK : T.R.kernel.call bessel pd [] with
    | error e => simp [hK, bind, Except.bind] at this
    | ok K =>
      cases hC : T.R.kernel.call bessel cd [] with
      | error e => simp [hK, hC, bind, Except.bind] at this
      | ok C =>
        simp only [hK, hC, bind, Except.bind, MuyGPS.posteriorVariance, MuyGPS.optVariance] at this ⊢
        cases hv : T.R.gp.noise.perturbFn (fun K => diagonalVariance K C T.R.gp.kout) K with
        | error e => simp [hv] at this
        | ok w =>
          simp only [hv, pure, Except.pure, Except.ok.injEq] at this ⊢
          rw [← this, hfresh T (List.mem_of_getElem? hc)]
          simp [Tensor.map]
  have hget : ∀ c T', models'[c]? = some T' → ∃ T s, models[c]? = some T ∧
      T' = { T with R := { T.R with gp := { T.R.gp with scale := s } } } ∧
      univariateScale bessel T draws pd (targetColumn y c) = .ok (some s) := by
    intro c T' hc
    have hlt : c < models.length := by rw [← h1]; exact (List.getElem?_eq_some_iff.mp hc).1
    obtain ⟨s, e1, -, e2⟩ := h2 c _ (List.getElem?_eq_getElem hlt)
    rw [e2] at hc
    exact ⟨_, s, List.getElem?_eq_getElem hlt, (Option.some.inj hc).symm, e1⟩
  obtain ⟨V, v1, v2, v3⟩ := C46_variance_actual bessel models' b tl pd cd hcd
    (fun c => (u c).map fun x => ((models[c]?.map fun T => T.R.gp.scale).getD 0) * x) fun c T' hc => by
      obtain ⟨T, s, t1, t2, -⟩ := hget c T' hc
      subst t2
      simp only [t1, Option.map_some, Option.getD_some]
      exact ⟨huv c T t1 s, (hu c T t1).2⟩
  refine ⟨V, v1, fun c T hc => ?_⟩
  obtain ⟨s, e1, -, e2⟩ := h2 c T hc
  refine ⟨s, e1, fun p hp => ?_⟩
  rw [v3 c _ e2 p hp]
  simp only [hc, Option.map_some, Option.getD_some]
  show s * (T.R.gp.scale * (u c).get [p]) = _
  ring

end MuyGPyS
