import Verif.Spec.Config
import Verif.Model.ConfigAbsl

/-! # What command-line flags promise -/

namespace MuyGPyS.Conf
open Py

/-- One word of a command line, as its author means it. -/
inductive Word
  | setting (option text : String)     -- `--option=text`
  | switch (option : String)           -- `--option`, for an on/off option
  | foreign (word : String)            -- a word meant for somebody else

/-- How the word is written. -/
def Word.written : Word → String
  | .setting o s => "--" ++ o ++ "=" ++ s
  | .switch o => "--" ++ o
  | .foreign w => w

/-- The on/off options and the options with a list of choices. -/
def switches : List String :=
  ["muygpys_jax_enabled", "muygpys_gpu_enabled", "muygpys_hnswlib_enabled", "muygpys_mpi_enabled",
   "muygpys_torch_enabled"]
def choices : List (String × List String) :=
  [("muygpys_backend", ["numpy", "jax", "torch", "mpi"]), ("muygpys_ftype", ["32", "64"])]

/-- What the text after `=` means for the option. -/
def Meaning (option text : String) (v : CVal) : Prop :=
  (option ∈ switches ∧
    (pyLower text ∈ ["true", "t", "1"] ∧ v = .bool true ∨
     pyLower text ∈ ["false", "f", "0"] ∧ v = .bool false)) ∨
  ∃ vs, (option, vs) ∈ choices ∧ text ∈ vs ∧ v = .str text

/-- A word that is properly written. -/
def Word.Proper : Word → Prop
  | .setting o s => ∃ v, Meaning o s v
  | .switch o => o ∈ switches
  | .foreign w => w ≠ "--" ∧ ¬ "--muygpys".toList <+: w.toList

/-- The value the word gives to the option, if any. -/
def Word.Gives (option : String) (v : CVal) : Word → Prop
  | .setting o s => o = option ∧ Meaning o s v
  | .switch o => o = option ∧ v = .bool true
  | .foreign _ => False

/-- The command line leaves the option with value `v`, when it was `old`: the last word about the option
decides, and without one the option keeps its value. -/
def Leaves (ws : List Word) (option : String) (old v : CVal) : Prop :=
  (∃ pre w post, ws = pre ++ w :: post ∧ w.Gives option v ∧ ∀ w' ∈ post, ∀ v', ¬ w'.Gives option v') ∨
  ((∀ w ∈ ws, ∀ v', ¬ w.Gives option v') ∧ v = old)

/-- The configuration without absl that holds the same values. -/
def AConfig.view (a : AConfig) : Config := { a.base with values := a.flags.getD a.base.values }

end MuyGPyS.Conf
