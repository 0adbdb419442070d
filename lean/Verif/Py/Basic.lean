/-!
# Python run-time conventions

Exceptions are values (`Except Err α`), keyword dictionaries are association lists that keep
insertion order (CPython dictionaries keep insertion order).
-/

namespace Py

/-- Names of the Python exception classes the modelled code can raise. -/
inductive Err
  | value          -- ValueError
  | type           -- TypeError
  | key            -- KeyError
  | index          -- IndexError
  | attribute      -- AttributeError
  | notImplemented -- NotImplementedError
  | zeroDivision   -- ZeroDivisionError
  | linAlg         -- numpy.linalg.LinAlgError
  | assertion      -- AssertionError
  | recursion      -- RecursionError
  | overflow       -- OverflowError
  | runtime        -- RuntimeError
  | moduleNotFound -- ModuleNotFoundError
  deriving DecidableEq, Repr

/-- A result: a value or a raised exception. -/
abbrev Res (α : Type _) := Except Err α

/-- A Python `dict` with string keys, in insertion order. -/
abbrev Dict (β : Type _) := List (String × β)

namespace Dict
variable {β : Type _}

/-- `d.get(k)` -/
def get? (d : Dict β) (k : String) : Option β := (d.find? (·.1 == k)).map (·.2)

/-- `k in d` -/
def has (d : Dict β) (k : String) : Bool := d.any (·.1 == k)

/-- `d[k] = v`: replace in place when present, append at the end otherwise. -/
def set : Dict β → String → β → Dict β
  | [], k, v => [(k, v)]
  | (k', v') :: d, k, v => if k' == k then (k', v) :: d else (k', v') :: set d k v

/-- `d.setdefault(k, v)` (as a statement): append when the key is absent. -/
def setdefault (d : Dict β) (k : String) (v : β) : Dict β :=
  if has d k then d else List.append d [(k, v)]

/-- `d.pop(k)` (as a statement). -/
def pop (d : Dict β) (k : String) : Dict β := List.filter (fun p => !(p.1 == k)) d

/-- `list(d.keys())` -/
def keys (d : Dict β) : List String := List.map Prod.fst d

/-- `list(d.values())` -/
def values (d : Dict β) : List β := List.map Prod.snd d

end Dict

end Py
