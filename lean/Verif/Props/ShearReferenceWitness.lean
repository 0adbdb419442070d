import Verif.Props.ShearReferenceFails
import Verif.Props.ShearWitness
import Verif.Props.SamplerDefault

/-! # C98: a concrete case -/

namespace MuyGPyS
namespace Shear
open Py Py.Tensor Matrix

/-- Three galaxies at `(0, 0)`, `(1, 0)`, `(0, 1)`. -/
def threeGalaxies : Tensor ℝ := ⟨[3, 2], fun k => if k = 2 ∨ k = 5 then 1 else 0⟩

/-- Two test positions, `(0, 0)` and `(1, 1)`. -/
def twoPositions : Tensor ℝ := ⟨[2, 2], fun k => if 2 ≤ k then 1 else 0⟩

/-- Neighbours in the order 2, 1, 0. -/
def reversedNbrs : Tensor Int := ⟨[2, 3], fun k => ((2 - k % 3 : Nat) : Int)⟩

/-- The hypotheses of `C98_library_partial` are met: three galaxies, two test positions, neighbours in reversed order. -/
example (sn : Bool) : ∃ A B Kout M V μ W, conventionalShear threeGalaxies none 1 = .ok A ∧
    conventionalShear threeGalaxies (some twoPositions) 1 = .ok B ∧ (⟨1⟩ : Kern).kout = .ok Kout ∧
      refMean sn A (matT B) (flatTargets flatSurvey) 2 = .ok M ∧ refVariance sn A (matT B) (conventionalKout Kout 2) 2 = .ok V ∧
      shearRegress ⟨⟨1⟩, false, (noiseOf 3 2 sn).1, 1, .fixed⟩ (arange 2) reversedNbrs twoPositions threeGalaxies flatSurvey = .ok (μ, W) ∧
      M.shape = [2, 3] ∧ μ.shape = [2, 3] ∧ V.shape = [6, 6] ∧ W.shape = [2, 3, 3] ∧
      ∀ p < 2, ∀ c : Fin 3, μ.get [p, c] = M.get [p, c] ∧ ∀ c' : Fin 3, W.get [p, c, c'] = V.get [c * 2 + p, c' * 2 + p] :=
  C98_library_partial ⟨1⟩ one_pos 2 two_pos sn .fixed threeGalaxies twoPositions flatSurvey 3 2 rfl rfl rfl (by omega) (by omega) (by omega)
    reversedNbrs rfl (fun _ => Fin.revPerm) (fun p hp i => by
      rw [Tensor.get2 reversedNbrs (show reversedNbrs.shape = [2, 3] from rfl)]
      show ((2 - (p * 3 + i) % 3 : Nat) : Int) = _
      congr 1
      have := i.2
      have e : ((Fin.revPerm i : Fin 3) : Nat) = 3 - ((i : Nat) + 1) := rfl
      rw [e]
      omega)

/-- The two test positions are different, as `C98_joint_covariance_fails` requires. -/
example : ∃ V, (∃ A B Kout, conventionalShear threeGalaxies none 1 = .ok A ∧ conventionalShear threeGalaxies (some twoPositions) 1 = .ok B ∧
    (⟨1⟩ : Kern).kout = .ok Kout ∧ refVariance true A (matT B) (conventionalKout Kout 2) 2 = .ok V) ∧
    jointPosterior 1 id 3 (noiseOf 3 2 true).2 (planePt threeGalaxies) (planePt twoPositions 0) (planePt twoPositions 1) 0 0 < V.get [0, 1] := by
  have hne : planePt twoPositions 0 ≠ planePt twoPositions 1 := by
    intro h
    have := congrArg Prod.fst h
    unfold planePt at this
    simp only [Tensor.get2 twoPositions (show twoPositions.shape = [2, 2] from rfl)] at this
    norm_num [twoPositions] at this
  obtain ⟨A, B, Kout, V, h1, h2, h3, h4, h5⟩ := C98_joint_covariance_fails ⟨1⟩ one_pos 2 two_pos true threeGalaxies twoPositions flatSurvey 3 2
    rfl rfl rfl 0 1 (by omega) (by omega) hne
  exact ⟨V, ⟨A, B, Kout, h1, h2, h3, h4⟩, h5⟩

/-- Standard normal numbers exist, so `C98_targets` applies, for instance to four points. -/
example : ∃ (Ω : Type) (_ : MeasurableSpace Ω) (P : MeasureTheory.Measure Ω) (e : Ω → Nat → ℝ), Sampler.StandardNormals P (3 * 2 ^ 2) 0 e e := by
  obtain ⟨Ω, m, P, _, z, e, h⟩ := Sampler.standardNormals_exist (3 * 2 ^ 2) 0
  refine ⟨Ω, m, P, z, ?_⟩
  unfold Sampler.StandardNormals at h ⊢
  have : (Sum.elim (fun (j : Fin (3 * 2 ^ 2)) ω => z ω j) (fun (i : Fin 0) ω => z ω i)) =
      Sum.elim (fun (j : Fin (3 * 2 ^ 2)) ω => z ω j) (fun (i : Fin 0) ω => e ω i) := by
    funext u
    rcases u with u | u
    · rfl
    · exact u.elim0
  rw [this]
  exact h

end Shear
end MuyGPyS
