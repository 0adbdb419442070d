import Verif.Model.Update
import Verif.Spec.Train
import Verif.Spec.Hyper

/-! # What users rely on when calls that change a model raise, and when they do not -/

namespace MuyGPyS
open Py

/-- The call raised an exception. -/
def Failed (r : Res Unit) : Prop := ∃ e, r = .error e

/-- All or nothing: whenever the call raises, the object is what it was before. -/
def AllOrNothing {S : Type} (call : S → S × Res Unit) : Prop := ∀ s, Failed (call s).2 → (call s).1 = s

/-- The calls of a history that did not raise, given the outcomes. -/
def succeeded {C : Type} (cs : List C) (outcomes : List (Res Unit)) : List C :=
  (cs.zip outcomes).filterMap fun co => match co.2 with | .ok _ => some co.1 | .error _ => none

/-- `set_params` is called with at most one hyperparameter at a time. -/
def Change.OneAtATime : Change → Prop
  | .setParams kws => kws.length ≤ 1
  | _ => True

/-- The change gives the smoothness no new value by which another closed form would apply: `form` is the one in use. -/
def Change.KeepsForm (form : KFn) : Change → Prop
  | .setParams kws => ∀ q, ("smoothness", q) ∈ kws → setMaternFn q = form
  | .setVal _ key _ => key ≠ "smoothness"
  | _ => True

end MuyGPyS
