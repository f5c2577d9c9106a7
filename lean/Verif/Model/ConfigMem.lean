import Verif.Model.Interface

/-!
# Configurations in memory

`Model/Interface` treats configurations as values. Here dictionaries live at addresses, so that it is visible which
dictionaries two configurations, the module `config_parser` and the user share. Simplification: lists are values (atoms).
-/

namespace GPyOpt

/-- An entry of a dictionary: a plain value, or a reference to a dictionary. -/
inductive HVal
  | atom (a : Atom) | ref (n : Nat)
  deriving DecidableEq

/-- The content of a dictionary, in insertion order. -/
abbrev HDict := List (String × HVal)

/-- `d.get(key)` -/
def HDict.find : HDict → String → Option HVal
  | [], _ => none
  | (k, v) :: rest, key => if k = key then some v else HDict.find rest key

/-- `d[key] = v` -/
def HDict.put : HDict → String → HVal → HDict
  | [], key, v => [(key, v)]
  | (k, w) :: rest, key, v => if k = key then (k, v) :: rest else (k, w) :: HDict.put rest key v

/-- The dictionaries in memory; addresses from `next` on are unused. -/
structure CfgMem where
  next : Nat
  get : Nat → HDict

/-- A new dictionary. -/
def CfgMem.alloc (h : CfgMem) (l : HDict) : CfgMem × Nat :=
  ({ next := h.next + 1, get := Function.update h.get h.next l }, h.next)

/-- Write into a dictionary. -/
def CfgMem.write (h : CfgMem) (a : Nat) (l : HDict) : CfgMem := { h with get := Function.update h.get a l }

/-- `isinstance(v, dict)` -/
def HVal.isDict : HVal → Bool
  | .ref _ => true
  | .atom _ => false

/-- `config_default.update(config_new)` (`config_parser.py:74`) -/
def HDict.updateAll : HDict → HDict → HDict
  | d, [] => d
  | d, (k, v) :: rest => HDict.updateAll (HDict.put d k v) rest

/-- The loop of `update_config` (`config_parser.py:68-72`) over `list(config_new.items())`; `d` is the address of
`config_default` and `rec` the recursive call. A section in place of a plain default value: the recursive call raises
`AttributeError` (no `update`), or `TypeError` (no `in`, no item assignment) if the section has a subsection. -/
def hLoop (rec : CfgMem → Nat → Nat → CfgMem × Py Unit) (d : Nat) : HDict → CfgMem → CfgMem × Py Unit
  | [], h => (h, .ok ())
  | (k, .ref v) :: rest, h => match HDict.find (h.get d) k with
    | some (.ref dk) => match rec h v dk with
      | (h', .error e) => (h', .error e)
      | (h', .ok ()) => hLoop rec d rest h'
    | some (.atom _) => (h, .error (if (h.get v).any (·.2.isDict) then .typeError else .attributeError))
    | none => hLoop rec d rest (h.write d (HDict.put (h.get d) k (.ref v)))
  | (k, .atom a) :: rest, h => hLoop rec d rest (h.write d (HDict.put (h.get d) k (.atom a)))

/-- `update_config` (`config_parser.py:62-75`) on the dictionaries at two addresses; `fuel` bounds the depth of the
recursion. -/
def hUpdate : (fuel : Nat) → CfgMem → (new d : Nat) → CfgMem × Py Unit
  | 0, h, _, _ => (h, .error .outOfFuel)
  | fuel + 1, h, new, d =>
    if (h.get new).any (·.2.isDict) then hLoop (hUpdate fuel) d (h.get new) h
    else (h.write d (HDict.updateAll (h.get d) (h.get new)), .ok ())

/-- The entries of a dictionary copied one by one. -/
def hCopyItems (rec : CfgMem → HVal → CfgMem × Py HVal) : HDict → CfgMem → CfgMem × Py HDict
  | [], h => (h, .ok [])
  | (k, v) :: rest, h => match rec h v with
    | (h', .error e) => (h', .error e)
    | (h', .ok v') => match hCopyItems rec rest h' with
      | (h'', .error e) => (h'', .error e)
      | (h'', .ok l) => (h'', .ok ((k, v') :: l))

/-- `copy.deepcopy` (`config_parser.py:92`, `driver.py:18`) of a configuration without dictionaries that occur twice. -/
def hCopy : (fuel : Nat) → CfgMem → HVal → CfgMem × Py HVal
  | _, h, .atom a => (h, .ok (.atom a))
  | 0, h, .ref _ => (h, .error .outOfFuel)
  | fuel + 1, h, .ref n => match hCopyItems (hCopy fuel) (h.get n) h with
    | (h', .error e) => (h', .error e)
    | (h', .ok l) => ((h'.alloc l).1, .ok (.ref (h'.alloc l).2))

mutual
/-- `json.load` (`config_parser.py:86`): new dictionaries for everything in the file. -/
def hLoad : Cfg → CfgMem → CfgMem × HVal
  | .atom a, h => (h, .atom a)
  | .dict items, h =>
    (((hLoadItems items h).1.alloc (hLoadItems items h).2).1, .ref ((hLoadItems items h).1.alloc (hLoadItems items h).2).2)
/-- The entries of a dictionary of the file. -/
def hLoadItems : Items → CfgMem → CfgMem × HDict
  | .nil, h => (h, [])
  | .cons k v rest, h =>
    ((hLoadItems rest (hLoad v h).1).1, (k, (hLoad v h).2) :: (hLoadItems rest (hLoad v h).1).2)
end

/-- `parser` (`config_parser.py:78-94`): `file` is the content of the file, `none` if it cannot be read (`:88-89`);
`default` is the address of the module variable `default_config`. A file that is not a dictionary has no `values`
(`:67`). -/
def hParser (fuel : Nat) (default : Nat) (file : Option Cfg) (h : CfgMem) : CfgMem × Py HVal :=
  match file with
  | none => (h, .error .exception)
  | some c => match hLoad c h with
    | (h1, new) => match hCopy fuel h1 (.ref default) with
      | (h2, .error e) => (h2, .error e)
      | (h2, .ok (.atom _)) => (h2, .error .attributeError)
      | (h2, .ok (.ref d)) => match new with
        | .atom _ => (h2, .error .attributeError)
        | .ref n => match hUpdate fuel h2 n d with
          | (h3, .error e) => (h3, .error e)
          | (h3, .ok ()) => (h3, .ok (.ref d))

/-- `BODriver.__init__` without configuration (`driver.py:15-18`): the configuration of the driver. -/
def hDriverConfig (fuel : Nat) (default : Nat) (h : CfgMem) : CfgMem × Py HVal := hCopy fuel h (.ref default)

end GPyOpt
