import Verif.Model.ScaleHist
import Mathlib.Tactic.NormNum

/-!
# Property C30: the variance scale scales variances exactly once and leaves means alone
-/

namespace MuyGPyS
open Py

theorem history_inv (m : MuyGPS) (h : m.boundScale = m.scale) (vs : List ℝ) :
    (m.history vs).boundScale = (m.history vs).scale ∧ (m.history vs).noise = m.noise ∧
    (m.history vs).kout = m.kout ∧
    (m.history vs).scale = ((vs.filter (0 < ·)).getLast?).getD m.scale := by
  induction vs generalizing m with
  | nil => exact ⟨h, rfl, rfl, rfl⟩
  | cons v vs ih =>
    unfold MuyGPS.history
    by_cases hv : v ≤ 0
    · have e : m.optimizeScale v = .error .value := by
        simp [MuyGPS.optimizeScale, MuyGPS.setScale, hv, bind, Except.bind]
      rw [e]
      have := ih m h
      rw [List.filter_cons_of_neg (by simpa using hv)]
      exact this
    · have e : m.optimizeScale v = .ok { m with scale := v, boundScale := v } := by
        simp [MuyGPS.optimizeScale, MuyGPS.setScale, hv, bind, Except.bind, MuyGPS.remake, pure,
          Except.pure]
      rw [e]
      have := ih { m with scale := v, boundScale := v } rfl
      refine ⟨this.1, this.2.1, this.2.2.1, ?_⟩
      rw [this.2.2.2, List.filter_cons_of_pos (by simpa using hv), List.getLast?_cons]
      simp

/-- **C30.** Construct a model with noise `ν`, prior variance `kout` and scale `s`, and optimise its
scale any number of times, with any computed values `vs` (rejected, i.e. non-positive, values leave
it unchanged). Then, for every neighbourhood: the scale it reports is the last accepted value; the
posterior mean is that of the freshly constructed model with *any* other scale `s'`; and the
posterior variance is the unscaled variance multiplied once by the reported scale. -/
theorem C30_scale_once (ν : Noise) (kout : Tensor ℝ) (s s' : ℝ) (vs : List ℝ)
    (Kin Kcross y : Tensor ℝ) :
    let m := (MuyGPS.make ν kout s).history vs
    m.scale = ((vs.filter (0 < ·)).getLast?).getD s ∧
    m.posteriorMean Kin Kcross y = (MuyGPS.make ν kout s').posteriorMean Kin Kcross y ∧
    m.posteriorVariance Kin Kcross =
      (do let v ← (MuyGPS.make ν kout 1).optVariance Kin Kcross
          pure (v.map fun x => m.scale * x)) := by
  intro m
  obtain ⟨h1, h2, h3, h4⟩ := history_inv (MuyGPS.make ν kout s) rfl vs
  refine ⟨h4, ?_, ?_⟩
  · show m.noise.perturbFn _ Kin = ν.perturbFn _ Kin
    have : m.noise = ν := h2
    rw [this]
  · unfold MuyGPS.posteriorVariance MuyGPS.optVariance
    have e1 : m.noise = ν := h2
    have e2 : m.kout = kout := h3
    have e3 : m.boundScale = m.scale := h1
    rw [e1, e2, e3]
    rfl

/-- a history with an accepted, a rejected and another accepted update -/
example (ν : Noise) (kout : Tensor ℝ) :
    ((MuyGPS.make ν kout 1).history [2, -1, 3]).scale = 3 := by
  have := (C30_scale_once ν kout 1 1 [2, -1, 3] kout kout kout).1
  rw [this]
  norm_num [List.filter]

/-- The scale is captured when the variance function is built: setting the scale parameter directly,
without rebuilding, leaves the variance at the old scale. -/
theorem C30_direct_set_is_stale (ν : Noise) (kout : Tensor ℝ) (s v : ℝ) (hv : 0 < v)
    (Kin Kcross : Tensor ℝ) :
    ∃ m, (MuyGPS.make ν kout s).setScale v = .ok m ∧ m.scale = v ∧
      m.posteriorVariance Kin Kcross = (MuyGPS.make ν kout s).posteriorVariance Kin Kcross :=
  ⟨_, if_neg (not_le.2 hv), rfl, rfl⟩

end MuyGPyS
