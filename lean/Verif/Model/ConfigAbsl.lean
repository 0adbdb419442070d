import Verif.Model.Config

/-!
# Model of the command-line configuration: `config.parse_flags_with_absl`

Modelled: `MuyGPySConfig.parse_flags_with_absl` (`_src/config.py:22-38`), `Config.config_with_absl` and
`Config.complete_absl_config` (`_src/jaxconfig.py:155-180`) and the absl branch of `Config.update` and
`Config._read` (`_src/jaxconfig.py:92-118`). Assumed semantics of absl's `FLAGS` (DESIGN §5): a flag is
`--name=value` split at the first `=`; a boolean flag may have no value, any other flag without a value
takes the next argument; names that are not defined are skipped (`known_only=True`); boolean texts are
`true`, `t`, `1`, `false`, `f`, `0` in any case; an enumeration takes exactly its listed values; a default
is parsed as a text would be. Simplifications: a program that also starts `absl.app.run`, which parses the
command line a second time, is not modelled; what is left behind by a call that raises is not modelled.
-/

namespace MuyGPyS.Conf
open Py

/-- The configuration together with absl's store: `flags = none` while `use_absl` is `False`;
`configured` is `state.already_configured_with_absl` — `_src/jaxconfig.py:80-90`, `_src/config.py:51`. -/
structure AConfig where
  base : Config
  flags : Option (Dict CVal)
  configured : Bool

/-- Before `parse_flags_with_absl` is called — `_src/jaxconfig.py:82-91`. -/
def AConfig.plain (c : Config) : AConfig := ⟨c, none, false⟩

/-- `Config.update`, both branches — `_src/jaxconfig.py:92-103`. absl refuses a name it does not know. -/
def AConfig.update (a : AConfig) (name : String) (v : CVal) : Res AConfig :=
  match a.flags with
  | none => do
    let c ← a.base.update name v
    .ok { a with base := c }
  | some f =>
    if f.has name then .ok { a with flags := some (f.set name v), base := a.base.hook name v }
    else .error .attribute

/-- `Config._read`, both branches — `_src/jaxconfig.py:113-118`. -/
def AConfig.readGlobal (a : AConfig) (name : String) : Res CVal :=
  match a.flags with
  | none => a.base.readGlobal name
  | some f =>
    match f.get? name with
    | none => .error .attribute
    | some v => .ok v

/-- `config.<name>` in thread `t` — `_src/jaxconfig.py:282-286,337-341`. -/
def AConfig.read (a : AConfig) (t : Nat) (name : String) : Res CVal :=
  if a.base.defs.has name then
    match (a.base.tls t).get? name with
    | some v => .ok v
    | none => a.readGlobal name
  else .error .attribute

/-- absl's parser of a boolean text — `_src/jaxconfig.py:135-140` (inside absl). -/
def abslBool (s : String) : Res Bool :=
  if pyLower s ∈ ["true", "t", "1"] then .ok true
  else if pyLower s ∈ ["false", "f", "0"] then .ok false
  else .error .value

/-- absl's parser of the text given for an option — `_src/jaxconfig.py:135-158` (inside absl). -/
def Kind.parse : Kind → String → Res CVal
  | .bool, s => do
    let b ← abslBool s
    .ok (.bool b)
  | .enum vs, s => if s ∈ vs then .ok (.str s) else .error .value

/-- absl's treatment of a flag's default — `_src/jaxconfig.py:159-177` (inside absl). -/
def Kind.parseDefault : Kind → CVal → Res CVal
  | _, .none => .ok .none
  | .bool, .bool b => .ok (.bool b)
  | k, .str s => k.parse s
  | _, _ => .error .value

/-- The arguments handed to absl: those before the first `--` that begin with `--muygpys` —
`_src/config.py:27-31`. -/
def muygpysArgs (argv : List String) : List String :=
  (argv.takeWhile (fun a => a ≠ "--")).filter (fun a => "--muygpys".toList.isPrefixOf a.toList)

/-- absl: the two dashes are dropped and the rest is split at the first `=` — `_src/jaxconfig.py:182-203` (inside absl). -/
def splitFlag (arg : String) : String × Option String :=
  let body := arg.toList.drop 2
  let name := body.takeWhile (· ≠ '=')
  (String.ofList name, if '=' ∈ body then some (String.ofList (body.drop (name.length + 1))) else none)

/-- `FLAGS(muygpys_argv, known_only=True)` on arguments that all begin with two dashes —
`_src/config.py:36`. -/
def parseArgs (defs : Dict OptDef) : List String → Dict CVal → Res (Dict CVal)
  | [], f => .ok f
  | a :: rest, f =>
    match defs.get? (splitFlag a).1 with
    | none => parseArgs defs rest f
    | some d =>
      match (splitFlag a).2 with
      | some text => do
        let v ← d.kind.parse text
        parseArgs defs rest (f.set (splitFlag a).1 v)
      | none =>
        if d.kind = .bool then parseArgs defs rest (f.set (splitFlag a).1 (.bool true))
        else
          match rest with
          | [] => .error .value
          | text :: rest' => do
            let v ← d.kind.parse text
            parseArgs defs rest' (f.set (splitFlag a).1 v)

/-- `config_with_absl`: every option becomes a flag whose default is the option's value —
`_src/jaxconfig.py:155-175`. -/
def defineFlags (defs : Dict OptDef) : Dict CVal → Dict CVal → Res (Dict CVal)
  | [], f => .ok f
  | (n, v) :: rest, f =>
    match defs.get? n with
    | none => .error .attribute
    | some d => do
      let w ← d.kind.parseDefault v
      defineFlags defs rest (f.set n w)

/-- `complete_absl_config`: every option is updated with its flag, which runs its hook —
`_src/jaxconfig.py:177-180`. -/
def AConfig.complete (a : AConfig) : List String → Res AConfig
  | [] => .ok a
  | n :: rest => do
    let v ← a.readGlobal n
    let a ← a.update n v
    a.complete rest

/-- `config.parse_flags_with_absl()` with `sys.argv = argv` — `_src/config.py:22-38`. -/
def AConfig.parseFlags (a : AConfig) (argv : List String) : Res AConfig :=
  if a.configured then .ok a
  else do
    let f ← defineFlags a.base.defs a.base.values []
    let f ← parseArgs a.base.defs (muygpysArgs argv) f
    let a ← ({ a with flags := some f }).complete a.base.values.keys
    .ok { a with configured := true }

end MuyGPyS.Conf
