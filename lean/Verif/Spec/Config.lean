import Verif.Model.Config

/-! # What the configuration promises -/

namespace MuyGPyS.Conf
open Py

/-- The registered options: their names, attributes of `config.state` and admissible values. -/
def registered : List (String × String × (CVal → Prop)) :=
  let flag := fun v => ∃ b, v = CVal.bool b
  [("muygpys_jax_enabled", "jax_enabled", flag), ("muygpys_gpu_enabled", "gpu_enabled", flag),
   ("muygpys_hnswlib_enabled", "hnswlib_enabled", flag), ("muygpys_mpi_enabled", "mpi_enabled", flag),
   ("muygpys_torch_enabled", "torch_enabled", flag),
   ("muygpys_backend", "backend",
     fun v => v ∈ [CVal.str "numpy", CVal.str "jax", CVal.str "torch", CVal.str "mpi"]),
   ("muygpys_ftype", "ftype", fun v => v ∈ [CVal.str "32", CVal.str "64"])]

/-- In thread `t` every option has an admissible value, and the derived `config.state`, which the
library consults, shows that value. -/
def Consistent (c : Config) (t : Nat) : Prop :=
  ∀ o ∈ registered, ∃ v, c.read t o.1 = .ok v ∧ c.state.get? o.2.1 = some v ∧ o.2.2 v

/-- The program never calls `config.update` on the option, neither in its own thread nor in others. -/
def Prog.NoUpdate (name : String) : Prog → Prop
  | .skip => True
  | .update n _ => n ≠ name
  | .scope _ _ b => b.NoUpdate name
  | .seq p q => p.NoUpdate name ∧ q.NoUpdate name
  | .raise _ => True
  | .attempt p h => p.NoUpdate name ∧ h.NoUpdate name
  | .others evs => ∀ e ∈ evs, ∀ u n v, e = .update u n v → n ≠ name

/-- The steps attributed to other threads are really not steps of thread `t`. -/
def Prog.Mine (t : Nat) : Prog → Prop
  | .scope _ _ b => b.Mine t
  | .seq p q => p.Mine t ∧ q.Mine t
  | .attempt p h => p.Mine t ∧ h.Mine t
  | .others evs => ∀ e ∈ evs, e.thread ≠ t
  | _ => True

/-- No other thread interferes. -/
def Prog.Alone : Prog → Prop
  | .scope _ _ b => b.Alone
  | .seq p q => p.Alone ∧ q.Alone
  | .attempt p h => p.Alone ∧ h.Alone
  | .others evs => evs = []
  | _ => True

/-- The program opens no scope for the option. -/
def Prog.NoScope (name : String) : Prog → Prop
  | .scope n _ b => n ≠ name ∧ b.NoScope name
  | .seq p q => p.NoScope name ∧ q.NoScope name
  | .attempt p h => p.NoScope name ∧ h.NoScope name
  | _ => True

end MuyGPyS.Conf
