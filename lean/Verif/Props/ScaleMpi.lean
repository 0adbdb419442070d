import Verif.Lemmas.Mpi
import Verif.Props.MpiLoss
import Verif.Props.Scale

/-!
# Property C06: the MPI variance-scale estimate equals the serial one
-/

namespace MuyGPyS
open Py Matrix Mpi

theorem sum_chunked (cs : List Nat) (f : Nat → ℝ) (m : Nat) (hm : m ≤ cs.length) :
    ((List.range m).map fun i => ∑ p ∈ Finset.range (cs.getD i 0), f ((cs.take i).sum + p)).sum
      = ∑ p ∈ Finset.range (cs.take m).sum, f p := by
  induction m with
  | zero => simp
  | succ m ih =>
    rw [List.range_succ, List.map_append, List.sum_append, ih (by omega)]
    have h1 : (cs.take (m+1)).sum = (cs.take m).sum + cs.getD m 0 := by
      rw [List.take_add_one, List.sum_append]
      simp [List.getD, show m < cs.length by omega]
    rw [h1, Finset.sum_range_add]
    simp

theorem sum_getD (cs : List Nat) (m : Nat) (hm : m ≤ cs.length) :
    ((List.range m).map fun i => cs.getD i 0).sum = (cs.take m).sum := by
  induction m with
  | zero => simp
  | succ m ih =>
    rw [List.range_succ, List.map_append, List.sum_append, ih (by omega), List.take_add_one,
      List.sum_append]
    simp [List.getD, show m < cs.length by omega]

theorem allreduceSum_nat (l : List Nat) : allreduceSum l = l.sum := by
  induction l with
  | nil => rfl
  | cons a l ih => rw [List.sum_cons, ← ih]; rfl

/-- **C06.** For every number of ranks, batch size (also smaller than the number of ranks) and
neighbourhood shape (`ins = [k]` for single-output, `[o, k]` for multi-output covariances):
distributing the covariance and target tensors and calling the MPI estimator gives the serial
estimate of the undistributed tensors. -/
theorem C06_mpi_scale (size : Nat) (hs : 0 < size) (b N : Nat) (ins yt : List Nat) (Kin y : Tensor ℝ)
    (hK : Kin.shape = b :: ins ++ ins) (hN : ins.prod = N) (hy : y.shape = b :: yt) (hyt : yt.prod = N)
    (hinv : ∀ p < b, (Kin.matAt N N p).det ≠ 0) :
    ∃ ck cy, chunkTensor size Kin = .ok ck ∧ chunkTensor size y = .ok cy ∧
      ck.length = size ∧ cy.length = size ∧
      analyticScaleMpi (ck.zip cy) = analyticScale Kin y ∧ (analyticScale Kin y).isOk := by
  have hser := analyticScale_core b ins Kin y hK hN (by rw [hy]; simp [hyt]) hinv
  have hcs := getChunkSizes_ok (count := b) hs
  generalize hcsd : ((List.range size).map fun i =>
      if i ≥ size - (b - b / size * size) then b / size + 1 else b / size) = cs at hcs
  have hlen : cs.length = size := by rw [← hcsd]; simp
  have hsum : cs.sum = b := by rw [← hcsd]; exact chunk_sum hs
  have e1 : chunkTensor size Kin
      = .ok ((List.range size).map fun i => Tensor.rows Kin (cs.take i).sum (cs.getD i 0)) := by
    unfold chunkTensor
    have : Kin.shape.headD 0 = b := by rw [hK]; rfl
    rw [this, hcs]; rfl
  have e2 : chunkTensor size y
      = .ok ((List.range size).map fun i => Tensor.rows y (cs.take i).sum (cs.getD i 0)) := by
    unfold chunkTensor
    have : y.shape.headD 0 = b := by rw [hy]; rfl
    rw [this, hcs]; rfl
  refine ⟨_, _, e1, e2, by simp, by simp, ?_, by rw [hser]; rfl⟩
  rw [hser]
  unfold analyticScaleMpi
  -- local results
  set f : Nat → ℝ := fun p => Spec.quadForm (Kin.matAt N N p) (fun i : Fin N => y.flat (p * N + i))
  have hzip : (((List.range size).map fun i => Tensor.rows Kin (cs.take i).sum (cs.getD i 0)).zip
      ((List.range size).map fun i => Tensor.rows y (cs.take i).sum (cs.getD i 0)))
      = (List.range size).map fun i => (Tensor.rows Kin (cs.take i).sum (cs.getD i 0),
          Tensor.rows y (cs.take i).sum (cs.getD i 0)) := by
    rw [List.zip_map']
  have hle : ∀ i < size, (cs.take i).sum + cs.getD i 0 ≤ b := by
    intro i hi
    have h1 : (cs.take (i+1)).sum = (cs.take i).sum + cs.getD i 0 := by
      rw [List.take_add_one, List.sum_append]
      simp [List.getD, show i < cs.length by omega]
    have := take_sum_le cs i
    omega
  have hloc : ∀ i ∈ List.range size, localScale (Tensor.rows Kin (cs.take i).sum (cs.getD i 0),
      Tensor.rows y (cs.take i).sum (cs.getD i 0))
      = .ok (∑ p ∈ Finset.range (cs.getD i 0), f ((cs.take i).sum + p), cs.getD i 0, N) := by
    intro i hi
    have hi := List.mem_range.1 hi
    generalize hc : cs.getD i 0 = c at *
    have hlei := hle i hi
    rw [hc] at hlei
    generalize (cs.take i).sum = a at *
    have hsK : (Tensor.rows Kin a c).shape = c :: ins ++ ins := by
      simp [Tensor.rows, hK]
    have hsy : (Tensor.rows y a c).shape = c :: yt := by
      simp [Tensor.rows, hy]
    have hnd : ((Tensor.rows Kin a c).ndim - 1) / 2 = ins.length := by
      simp [Tensor.ndim, hsK]; omega
    have htake : (Tensor.rows Kin a c).shape.take 1 = [c] := by rw [hsK]; rfl
    have hdrop : (Tensor.rows Kin a c).shape.drop (1 + ins.length) = ins := by
      rw [hsK, Nat.add_comm]; simp
    have r1 : (Tensor.rows Kin a c).reshape ([c] ++ [N, N])
        = .ok ⟨[c] ++ [N, N], (Tensor.rows Kin a c).flat⟩ :=
      Tensor.reshape_ok _ _ (by rw [hsK]; simp [hN])
    have r2 : (Tensor.rows y a c).reshape ([c] ++ [N, 1])
        = .ok ⟨[c] ++ [N, 1], (Tensor.rows y a c).flat⟩ :=
      Tensor.reshape_ok _ _ (by rw [hsy]; simp [hyt])
    have hcov : ∀ p, Spec.cov N ⟨[c] ++ [N, N], (Tensor.rows Kin a c).flat⟩ p = Kin.matAt N N (a + p) := by
      intro p
      rw [← matAt_cov (b := c) ⟨[c] ++ [N, N], (Tensor.rows Kin a c).flat⟩ rfl]
      ext i j
      simp only [Tensor.matAt, Tensor.rows, hK, List.cons_append, List.tail_cons, List.prod_append, hN]
      congr 1; ring
    have key := scaleUnnormalized_three (b := c) (n := N) (r := 1)
      ⟨[c] ++ [N, N], (Tensor.rows Kin a c).flat⟩
      ⟨[c] ++ [N, 1], (Tensor.rows y a c).flat⟩ rfl rfl
      (fun p hp => by rw [hcov]; exact hinv _ (by omega))
    unfold localScale
    simp only [hnd, htake, hdrop, hN, r1, r2, List.prod_singleton]
    show (do
      let s ← scaleUnnormalized ⟨[c] ++ [N, N], (Tensor.rows Kin a c).flat⟩
        ⟨[c] ++ [N, 1], (Tensor.rows y a c).flat⟩
      pure (s, c, N)) = _
    rw [key]
    show Except.ok _ = _
    congr 2
    refine Finset.sum_congr rfl fun p _ => ?_
    rw [Finset.sum_range_one, hcov]
    show Spec.quadForm _ _ = Spec.quadForm _ _
    congr 1
    ext i
    simp only [Spec.vecR, Tensor.get, Tensor.ravel, Tensor.rows, hy, List.tail_cons, hyt,
      List.cons_append, List.nil_append, List.prod_cons, List.prod_nil]
    congr 1; ring
  rw [hzip, List.mapM_map]
  rw [mapM_ok (localScale ∘ _) (fun i => (∑ p ∈ Finset.range (cs.getD i 0), f ((cs.take i).sum + p), cs.getD i 0, N))
    (List.range size) hloc]
  show Except.ok _ = _
  congr 1
  rw [List.map_map, List.map_map, List.map_map, allreduceSum_eq, allreduceSum_nat]
  have h1 := sum_chunked cs f size (by omega)
  have h2 := sum_getD cs size (by omega)
  have htk : (cs.take size).sum = b := by rw [← hlen, List.take_length, hsum]
  rw [htk] at h1 h2
  have h3 : ((List.range size).map ((fun l : ℝ × Nat × Nat => l.2.2) ∘ fun i =>
      (∑ p ∈ Finset.range (cs.getD i 0), f ((cs.take i).sum + p), cs.getD i 0, N))).headD 0 = N := by
    obtain ⟨k, rfl⟩ : ∃ k, size = k + 1 := ⟨size - 1, by omega⟩
    rw [List.range_succ_eq_map]; rfl
  rw [h3]
  simp only [Function.comp_def]
  rw [h1, h2, Nat.mul_comm]

/-- the hypotheses are met by the example neighbourhood, on three ranks -/
example : ∃ ck cy, chunkTensor 3 exK = .ok ck ∧ chunkTensor 3 ⟨[1, 2], fun _ => 1⟩ = .ok cy ∧
    ck.length = 3 ∧ cy.length = 3 ∧
    analyticScaleMpi (ck.zip cy) = analyticScale exK ⟨[1, 2], fun _ => 1⟩ ∧
    (analyticScale exK ⟨[1, 2], fun _ => 1⟩).isOk :=
  C06_mpi_scale 3 (by norm_num) 1 2 [2] [2] exK ⟨[1, 2], fun _ => 1⟩ rfl rfl rfl rfl (by
    intro p hp
    obtain rfl : p = 0 := by omega
    rw [matAt_cov (b := 1) exK rfl, exK_cov, Matrix.det_fin_two]; norm_num)

end MuyGPyS
