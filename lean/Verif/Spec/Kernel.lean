import Verif.Model.Kernel

/-! # What a user expects of keyword hyperparameters -/

namespace MuyGPyS
open Py

/-- No keyword collides with the name of a positional parameter of the kernel call chain. -/
def Unreserved (kw : Dict Flt) : Prop :=
  ∀ a ∈ kw, a.1 ≠ "self" ∧ a.1 ≠ "diffs" ∧ a.1 ≠ "dists" ∧ a.1 ≠ "squared_dists"

/-- The value in force for the hyperparameter `name`: the keyword if supplied, else the stored one. -/
def inForce (kw : Dict Flt) (name : String) (p : Param) : Flt := (Dict.get? kw name).getD p.val

/-- The parameter with its value replaced by the one in force. -/
def Param.overridden (p : Param) (kw : Dict Flt) (name : String) : Param :=
  { p with val := inForce kw name p }

/-- The deformation is one of the two with a single scalar length scale. -/
def Deform.Scalar : Deform → Prop
  | .anisotropy _ _ => False
  | _ => True

/-- The parameters of a vector (numbered from `i`) with the values in force. -/
def overrideFrom (kw : Dict Flt) : Nat → List Param → List Param
  | _, [] => []
  | i, p :: ps => p.overridden kw ("length_scale" ++ toString i) :: overrideFrom kw (i + 1) ps

/-- The kernel object holding the values in force. -/
def KernelObj.overridden (kw : Dict Flt) (k : KernelObj) : KernelObj :=
  { k with
    deform := match k.deform with
      | .isotropy m p => .isotropy m (p.overridden kw "length_scale")
      | .difference m p => .difference m (p.overridden kw "length_scale")
      | .anisotropy m ps => .anisotropy m (overrideFrom kw 0 ps)
    smoothness := k.smoothness.map fun p => p.overridden kw "smoothness" }

/-- The length scale of dimension `i` an anisotropic model is expected to use. -/
noncomputable def lengthInForce (ps : List Param) (kw : Dict Flt) (i : Nat) : ℝ :=
  match ps[i]? with
  | none => 1
  | some p => (inForce kw (vecName "length_scale" i) p).toReal

/-- The deformation stores the positive length scales `len c`, one per feature (all equal for the
scalar deformations). -/
def Deform.HasLengths : Deform → (f : Nat) → (Fin f → ℝ) → Prop
  | .isotropy _ p, _, len => ∃ l : ℝ, 0 < l ∧ p.val = Flt.fin l ∧ ∀ c, len c = l
  | .difference _ p, _, len => ∃ l : ℝ, 0 < l ∧ p.val = Flt.fin l ∧ ∀ c, len c = l
  | .anisotropy _ ps, f, len => ps.length = f ∧ ∀ c : Fin f, 0 < len c ∧
      ∀ p, ps[(c : Nat)]? = some p → p.val = Flt.fin (len c)

end MuyGPyS
