import Verif.Model.Sharing

/-! # Independence of models -/

namespace MuyGPyS.Share

/-- The model an operation changes in place, if any. -/
def Op.changes : Op → Option Nat
  | .construct _ => none
  | .setParams i _ _ => some i
  | .setNoise i _ _ => some i
  | .optimizeScale i _ => some i
  | .optimize _ _ _ => none

/-- The number of models that exist after a session. -/
noncomputable def count (ops : List Op) : Nat := (session ops).models.length

/-- The model a constructor call describes, when no argument is left out. -/
def Call.explicit (c : Call) : Option Seen :=
  match c.deform, c.noise, c.scale with
  | some ls, some n, some (k, v) => some ⟨⟨⟨ls, c.smoothness⟩, n, [v]⟩, k, false⟩
  | _, _, _ => none

end MuyGPyS.Share
