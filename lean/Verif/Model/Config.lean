import Verif.Py.Basic

/-!
# Model of the configuration system: `_src/jaxconfig.py`, `_src/config.py`

Modelled: the `Config` class shipped with MuyGPyS (`_src/jaxconfig.py`), which is the one in use when
JAX is not installed (`_src/config.py:6-11`); the options MuyGPyS registers; the context managers;
any number of threads. Simplifications: the absl mode (`use_absl = True`) is in `Model/ConfigAbsl`; each
configuration operation (an update, entering a scope, leaving a scope) is one atomic step; a plain
`Exception` is not distinguished from a `ValueError`.
-/

namespace MuyGPyS.Conf
open Py

/-- A value stored in a configuration option — `_src/jaxconfig.py:92-130`. -/
inductive CVal
  | none
  | bool (b : Bool)
  | str (s : String)
  | other (n : Nat)      -- any other object
  deriving DecidableEq, Repr

/-- What `define_bool_state` / `define_enum_state` record about an option: its kind (and hence the
`validate` hook of its context manager) and the attribute of `config.state` both its hooks assign — `_src/jaxconfig.py:217-228,297-310`. -/
inductive Kind
  | bool
  | enum (values : List String)
  deriving DecidableEq, Repr

/-- What is recorded about an option — `_src/jaxconfig.py:217-228,297-310`. -/
structure OptDef where
  kind : Kind
  attr : String

/-- The configuration object, its `state`, the thread-local store and the scopes other threads have
open (innermost first; an entry is the option's name and its previous thread-local value) — `_src/jaxconfig.py:79-91`, `_src/config.py:42-55`. -/
structure Config where
  values : Dict CVal
  defs : Dict OptDef
  state : Dict CVal
  tls : Nat → Dict CVal
  open_ : Nat → List (String × Option CVal)

/-- The `update_global_hook` and the `update_thread_local_hook` of an option: both assign the option's
attribute of `config.state` — `_src/config.py:72-77,91-96,124-129,150-155,183-188,213-218,246-251`. -/
def Config.hook (c : Config) (name : String) (v : CVal) : Config :=
  match c.defs.get? name with
  | none => c
  | some d => { c with state := c.state.set d.attr v }

/-- `Config.update` — `_src/jaxconfig.py:92-103`. -/
def Config.update (c : Config) (name : String) (v : CVal) : Res Config :=
  if c.values.has name then .ok (({ c with values := c.values.set name v }).hook name v)
  else .error .attribute

/-- `Config._read` — `_src/jaxconfig.py:113-118`. -/
def Config.readGlobal (c : Config) (name : String) : Res CVal :=
  match c.values.get? name with
  | none => .error .attribute
  | some v => .ok v

/-- `Config.read`, reached as `config.FLAGS.<name>` — `_src/jaxconfig.py:105-111`. -/
def Config.flagsRead (c : Config) (name : String) : Res CVal :=
  if c.defs.has name then .error .attribute else c.readGlobal name

/-- `config.<name>` in thread `t`: the property `get_state` — `_src/jaxconfig.py:282-286,337-341`. -/
def Config.read (c : Config) (t : Nat) (name : String) : Res CVal :=
  if c.defs.has name then
    match (c.tls t).get? name with
    | some v => .ok v
    | none => c.readGlobal name
  else .error .attribute

/-- `Config.add_option` — `_src/jaxconfig.py:120-129`. -/
def Config.addOption (c : Config) (name : String) (default : CVal) (d : OptDef) : Res Config :=
  if c.values.has name then .error .value
  else .ok (({ c with values := c.values.set name default, defs := c.defs.set name d }).hook name default)

/-- `str.lower()` and `str.upper()`, on the ASCII letters — `_src/jaxconfig.py:271,277,322-323`, `neighbors.py:88`. -/
def pyLower (s : String) : String := String.ofList (s.toList.map Char.toLower)
/-- See `pyLower`. -/
def pyUpper (s : String) : String := String.ofList (s.toList.map Char.toUpper)

/-- `bool_env` — `_src/jaxconfig.py:43-62`. -/
def boolEnv (val : Option String) (default : Bool) : Res Bool :=
  let v := pyLower (val.getD (if default then "True" else "False"))
  if v ∈ ["y", "yes", "t", "true", "on", "1"] then .ok true
  else if v ∈ ["n", "no", "f", "false", "off", "0"] then .ok false
  else .error .value

/-- `define_bool_state`: the environment variable is the upper-case name —
`_src/jaxconfig.py:217-295`. -/
def Config.defineBool (c : Config) (env : String → Option String) (name : String) (default : Bool)
    (attr : String) : Res Config := do
  let b ← boolEnv (env (pyUpper name)) default
  c.addOption name (.bool b) ⟨.bool, attr⟩

/-- `define_enum_state` — `_src/jaxconfig.py:297-363`. -/
def Config.defineEnum (c : Config) (env : String → Option String) (name : String)
    (values : List String) (default : String) (attr : String) : Res Config :=
  let d := (env (pyUpper name)).getD default
  if d ∈ values then c.addOption name (.str d) ⟨.enum values, attr⟩ else .error .value

/-- Which optional packages can be imported — `_src/config.py:108-118,140-147,168-180,202-208`. -/
structure Installed where
  hnswlib : Bool
  mpi : Bool
  torch : Bool

/-- The configuration before any option is registered: `MuyGPySState.__init__` —
`_src/config.py:42-51`. -/
def Config.blank : Config where
  values := []
  defs := []
  state := [("jax_enabled", .bool false), ("torch_enabled", .bool false),
    ("hnswlib_enabled", .bool false), ("gpu_enabled", .bool false), ("mpi_enabled", .bool false),
    ("backend", .str "numpy"), ("ftype", .str "64")]
  tls := fun _ => []
  open_ := fun _ => []

/-- The check that the chosen backend is installed — `_src/config.py:230-243`. -/
def Config.backendMissing (c : Config) : Bool :=
  (c.state.get? "backend" == some (.str "jax") && c.state.get? "jax_enabled" == some (.bool false)) ||
  (c.state.get? "backend" == some (.str "torch") && c.state.get? "torch_enabled" == some (.bool false)) ||
  (c.state.get? "backend" == some (.str "mpi") && c.state.get? "mpi_enabled" == some (.bool false))

/-- Importing MuyGPyS where JAX is not installed: the module body of `_src/config.py:69-264`. -/
def importConfig (env : String → Option String) (inst : Installed) : Res Config := do
  let c ← Config.blank.defineBool env "muygpys_jax_enabled" false "jax_enabled"
  let c ← c.defineBool env "muygpys_gpu_enabled" false "gpu_enabled"
  let c ← c.update "muygpys_jax_enabled" (.bool false)
  let c ← c.update "muygpys_gpu_enabled" (.bool false)
  let c ← c.defineBool env "muygpys_hnswlib_enabled" false "hnswlib_enabled"
  let c ← c.update "muygpys_hnswlib_enabled" (.bool inst.hnswlib)
  let c ← c.defineBool env "muygpys_mpi_enabled" false "mpi_enabled"
  let c ← c.update "muygpys_mpi_enabled" (.bool inst.mpi)
  let c ← c.defineBool env "muygpys_torch_enabled" false "torch_enabled"
  let c ← c.update "muygpys_torch_enabled" (.bool inst.torch)
  let c ← c.defineEnum env "muygpys_backend" ["numpy", "jax", "torch", "mpi"] "numpy" "backend"
  if c.backendMissing then throw .value
  c.defineEnum env "muygpys_ftype" ["32", "64"] "64" "ftype"

/-- The `validate` hook of a context manager: `define_bool_state` installs none, `define_enum_state`
accepts `None` and the listed strings — `_src/jaxconfig.py:345-353`. -/
def Kind.validate : Kind → CVal → Res Unit
  | .bool, _ => .ok ()
  | .enum _, .none => .ok ()
  | .enum vs, .str s => if s ∈ vs then .ok () else .error .value
  | .enum _, _ => .error .value

/-- The argument of a context manager: a bool option's has the default `True`, an enum option's has
none — `_src/jaxconfig.py:293,447-459`. -/
def Kind.argument : Kind → Option CVal → Res CVal
  | _, some v => .ok v
  | .bool, none => .ok (.bool true)
  | .enum _, none => .error .type

/-- Entering `with <option>(arg)` in thread `t`: `_StateContextManager.__call__` up to the `yield`.
The saved value is the thread's previous override (`none`: `unset`) — `_src/jaxconfig.py:446-467`. -/
def Config.enter (c : Config) (t : Nat) (name : String) (arg : Option CVal) :
    Res (Config × Option CVal) :=
  match c.defs.get? name with
  | none => .error .attribute
  | some d => do
    let v ← d.kind.argument arg
    d.kind.validate v
    let prev := (c.tls t).get? name
    .ok (({ c with tls := fun u => if u = t then (c.tls u).set name v else c.tls u }).hook name v, prev)

/-- The `finally` block of the context manager — `_src/jaxconfig.py:470-479`. -/
def Config.leave (c : Config) (t : Nat) (name : String) (prev : Option CVal) : Config :=
  match prev with
  | none => ({ c with tls := fun u => if u = t then (c.tls u).pop name else c.tls u }).hook name .none
  | some v => ({ c with tls := fun u => if u = t then (c.tls u).set name v else c.tls u }).hook name v

/-- One configuration step of some thread — `_src/jaxconfig.py:92-104,446-477`. -/
inductive Event
  | update (t : Nat) (name : String) (v : CVal)
  | enter (t : Nat) (name : String) (arg : Option CVal)
  | leave (t : Nat)       -- leaves the innermost scope the thread has open

/-- The thread that takes a step — `_src/jaxconfig.py:446-477`. -/
def Event.thread : Event → Nat
  | .update t _ _ => t
  | .enter t _ _ => t
  | .leave t => t

/-- The effect of one step. A step that raises leaves the configuration as it was — `_src/jaxconfig.py:92-104,446-477`. -/
def Config.step (c : Config) : Event → Config
  | .update _ name v =>
    match c.update name v with
    | .ok c' => c'
    | .error _ => c
  | .enter t name arg =>
    match c.enter t name arg with
    | .ok r => { r.1 with open_ := fun u => if u = t then (name, r.2) :: c.open_ u else c.open_ u }
    | .error _ => c
  | .leave t =>
    match c.open_ t with
    | [] => c
    | s :: rest =>
      { c.leave t s.1 s.2 with open_ := fun u => if u = t then rest else c.open_ u }

/-- A program of one thread that uses the configuration. `others evs` stands for steps taken by other
threads at that point — `_src/jaxconfig.py:446-477`. -/
inductive Prog
  | skip
  | update (name : String) (v : CVal)
  | scope (name : String) (arg : Option CVal) (body : Prog)
  | seq (p q : Prog)
  | raise (e : Err)
  | attempt (p handler : Prog)      -- try: p except Exception: handler
  | others (evs : List Event)

/-- Running a program in thread `t`: the resulting configuration and the exception that escapes — `_src/jaxconfig.py:446-477`. -/
def Prog.exec (t : Nat) : Prog → Config → Config × Option Err
  | .skip, c => (c, none)
  | .update name v, c =>
    match c.update name v with
    | .ok c' => (c', none)
    | .error e => (c, some e)
  | .scope name arg body, c =>
    match c.enter t name arg with
    | .error e => (c, some e)
    | .ok r =>
      let s := body.exec t r.1
      (s.1.leave t name r.2, s.2)
  | .seq p q, c =>
    let s := p.exec t c
    match s.2 with
    | none => q.exec t s.1
    | some e => (s.1, some e)
  | .raise e, c => (c, some e)
  | .attempt p h, c =>
    let s := p.exec t c
    match s.2 with
    | none => s
    | some _ => h.exec t s.1
  | .others evs, c => (evs.foldl Config.step c, none)

/-- Which package `_collect_implementation` collects the functions from — `_src/util.py:9-22`. -/
def Config.implementation (c : Config) : Res String :=
  if c.state.get? "backend" = some (.str "numpy") then .ok "numpy"
  else if c.state.get? "backend" = some (.str "jax") then .ok "jax"
  else if c.state.get? "backend" = some (.str "torch") then .ok "torch"
  else if c.state.get? "backend" = some (.str "mpi") then .ok "mpi"
  else .error .value

/-- `set_type(t64, t32)`: `none` is the implicit `return None` — `_src/math/meta.py:39-43`. -/
def Config.setType {α : Type} (c : Config) (t64 t32 : α) : Option α :=
  if c.state.get? "ftype" = some (.str "64") then some t64
  else if c.state.get? "ftype" = some (.str "32") then some t32
  else none

/-- `MuyGPySState.low_precision` — `_src/config.py:53-54`. -/
def Config.lowPrecision (c : Config) : Bool := c.state.get? "ftype" == some (.str "32")

end MuyGPyS.Conf
