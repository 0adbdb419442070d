import Verif.Model.Scale
import Verif.Spec.Scale
import Verif.Lemmas.Posterior
import Verif.Lemmas.Kriging

namespace MuyGPyS
open Py Matrix

theorem atleast3d_three {t : Tensor ℝ} {b n r : Nat} (h : t.shape = [b, n, r]) : t.atleast3d = t := by
  cases t; simp only at h; subst h; rfl

theorem atleast3d_two {t : Tensor ℝ} {b n : Nat} (h : t.shape = [b, n]) :
    t.atleast3d = ⟨[b, n, 1], t.flat⟩ := by
  cases t; simp only at h; subst h; rfl

theorem scaleUnnormalized_three {b n r : Nat} (Kin Y : Tensor ℝ) (hK : Kin.shape = [b, n, n])
    (hY : Y.shape = [b, n, r]) (hd : ∀ p < b, (Spec.cov n Kin p).det ≠ 0) :
    scaleUnnormalized Kin Y = .ok (∑ p ∈ Finset.range b, ∑ c ∈ Finset.range r,
      Spec.quadForm (Spec.cov n Kin p) (Spec.vecR n Y p c)) := by
  obtain ⟨F, hF, hFs, hFm⟩ := Tensor.solve_ok [b] n r Kin Y hK hY (by
    intro p hp
    rw [matAt_cov Kin hK]; exact hd p (by simpa using hp))
  have e : scaleUnnormalized Kin Y = (do
      let F ← Tensor.solve [b] n r Kin Y
      pure (∑ i ∈ Finset.range b, ∑ k ∈ Finset.range r, ∑ j ∈ Finset.range n,
        Y.get [i, j, k] * F.get [i, j, k])) := by
    unfold scaleUnnormalized
    rw [atleast3d_three hY]
    simp only [hY]
  rw [e, hF]
  show Except.ok _ = _
  congr 1
  refine Finset.sum_congr rfl fun p hp => Finset.sum_congr rfl fun c hc => ?_
  rw [Finset.sum_range]
  refine Finset.sum_congr rfl fun j _ => ?_
  have hc' : c < r := Finset.mem_range.1 hc
  have h1 := congrFun (congrFun (hFm p) j) ⟨c, hc'⟩
  rw [Tensor.matAt_apply F hFs] at h1
  rw [h1, matAt_cov Kin hK, mul_apply]
  simp only [Spec.vecR, mulVec, dotProduct]
  congr 1
  refine Finset.sum_congr rfl fun i _ => ?_
  rw [Tensor.matAt_apply Y hY]

theorem scaleUnnormalized_singular {b n r : Nat} (Kin Y : Tensor ℝ) (hK : Kin.shape = [b, n, n])
    (hY : Y.shape = [b, n, r]) (p : Nat) (hp : p < b) (hd : (Spec.cov n Kin p).det = 0) :
    scaleUnnormalized Kin Y = .error .linAlg := by
  have hF := Tensor.solve_sing [b] n r Kin Y hK hY p (by simpa using hp) (by rw [matAt_cov Kin hK]; exact hd)
  have e : scaleUnnormalized Kin Y = (do
      let F ← Tensor.solve [b] n r Kin Y
      pure (∑ i ∈ Finset.range b, ∑ k ∈ Finset.range r, ∑ j ∈ Finset.range n,
        Y.get [i, j, k] * F.get [i, j, k])) := by
    unfold scaleUnnormalized
    rw [atleast3d_three hY]
    simp only [hY]
  rw [e, hF]; rfl

theorem scaleUnnormalized_two {b n : Nat} (Kin Y : Tensor ℝ)
    (hY : Y.shape = [b, n]) : scaleUnnormalized Kin Y = scaleUnnormalized Kin ⟨[b, n, 1], Y.flat⟩ := by
  unfold scaleUnnormalized
  rw [atleast3d_two hY, atleast3d_three rfl]

/-- flattened neighbourhood covariance and targets -/
theorem analyticScale_core {N : Nat} (b : Nat) (ins : List Nat) (Kin Y : Tensor ℝ)
    (hK : Kin.shape = b :: ins ++ ins) (hN : ins.prod = N) (hY : Y.shape.prod = b * N)
    (hd : ∀ p < b, (Kin.matAt N N p).det ≠ 0) :
    analyticScale Kin Y = .ok ((∑ p ∈ Finset.range b,
      Spec.quadForm (Kin.matAt N N p) (fun i : Fin N => Y.flat (p * N + i))) / ((b * N : Nat) : ℝ)) := by
  have hnd : (Kin.ndim - 1) / 2 = ins.length := by
    simp [Tensor.ndim, hK]; omega
  have htake : Kin.shape.take 1 = [b] := by rw [hK]; rfl
  have hdrop : Kin.shape.drop (1 + ins.length) = ins := by
    rw [hK, Nat.add_comm]; simp
  have r1 : Kin.reshape ([b] ++ [N, N]) = .ok ⟨[b] ++ [N, N], Kin.flat⟩ :=
    Tensor.reshape_ok _ _ (by rw [hK]; simp [hN])
  have r2 : Y.reshape ([b] ++ [N, 1]) = .ok ⟨[b] ++ [N, 1], Y.flat⟩ :=
    Tensor.reshape_ok _ _ (by rw [hY]; simp)
  have hc : ∀ p, Spec.cov N ⟨[b] ++ [N, N], Kin.flat⟩ p = Kin.matAt N N p := fun p => by
    rw [← matAt_cov (b := b) ⟨[b] ++ [N, N], Kin.flat⟩ rfl]; rfl
  have key := scaleUnnormalized_three (b := b) (n := N) (r := 1) ⟨[b] ++ [N, N], Kin.flat⟩
    ⟨[b] ++ [N, 1], Y.flat⟩ rfl rfl (fun p hp => by rw [hc]; exact hd p hp)
  unfold analyticScale
  simp only [hnd, htake, hdrop, hN, r1, r2, List.prod_singleton]
  show (do
    let s ← scaleUnnormalized ⟨[b] ++ [N, N], Kin.flat⟩ ⟨[b] ++ [N, 1], Y.flat⟩
    pure (s / ((b * N : Nat) : ℝ))) = _
  rw [key]
  show Except.ok _ = _
  congr 2
  refine Finset.sum_congr rfl fun p _ => ?_
  rw [Finset.sum_range_one, hc]
  congr 1
  ext i
  simp [Spec.vecR, Tensor.get, Tensor.ravel]

theorem analyticScale_singular {N : Nat} (b : Nat) (ins : List Nat) (Kin Y : Tensor ℝ)
    (hK : Kin.shape = b :: ins ++ ins) (hN : ins.prod = N) (hY : Y.shape.prod = b * N)
    (p : Nat) (hp : p < b) (hd : (Kin.matAt N N p).det = 0) :
    analyticScale Kin Y = .error .linAlg := by
  have hnd : (Kin.ndim - 1) / 2 = ins.length := by
    simp [Tensor.ndim, hK]; omega
  have htake : Kin.shape.take 1 = [b] := by rw [hK]; rfl
  have hdrop : Kin.shape.drop (1 + ins.length) = ins := by
    rw [hK, Nat.add_comm]; simp
  have r1 : Kin.reshape ([b] ++ [N, N]) = .ok ⟨[b] ++ [N, N], Kin.flat⟩ :=
    Tensor.reshape_ok _ _ (by rw [hK]; simp [hN])
  have r2 : Y.reshape ([b] ++ [N, 1]) = .ok ⟨[b] ++ [N, 1], Y.flat⟩ :=
    Tensor.reshape_ok _ _ (by rw [hY]; simp)
  have hc : ∀ p, Spec.cov N ⟨[b] ++ [N, N], Kin.flat⟩ p = Kin.matAt N N p := fun p => by
    rw [← matAt_cov (b := b) ⟨[b] ++ [N, N], Kin.flat⟩ rfl]; rfl
  have key := scaleUnnormalized_singular (b := b) (n := N) (r := 1) ⟨[b] ++ [N, N], Kin.flat⟩
    ⟨[b] ++ [N, 1], Y.flat⟩ rfl rfl p hp (by rw [hc]; exact hd)
  unfold analyticScale
  simp only [hnd, htake, hdrop, hN, r1, r2]
  show (do
    let s ← scaleUnnormalized ⟨[b] ++ [N, N], Kin.flat⟩ ⟨[b] ++ [N, 1], Y.flat⟩
    pure (s / _)) = _
  rw [key]; rfl

end MuyGPyS
