/-
Model of utils/misc_utils.py:56-76 `deep_update_dict`.
-/
import Mathlib.Data.List.Basic

namespace Verif.Utils

/-- A configuration value: a nested dictionary (insertion-ordered association list, as Python
dicts are) or anything that is not a dict. Values only, no object identity: the sharing the code
creates (`dict1[key] = value` stores the caller's sub-dictionary itself) is not represented. -/
inductive Cfg where
  | leaf (v : Nat)
  | dict (items : List (String × Cfg))

abbrev Items := List (String × Cfg)

/-- `key in d` / `d[key]`. -/
def lookup (k : String) : Items → Option Cfg
  | [] => none
  | (k', v) :: rest => if k' = k then some v else lookup k rest

/-- `d[key] = value`: replaces in place, or appends a new key. -/
def setKey (k : String) (v : Cfg) : Items → Items
  | [] => [(k, v)]
  | (k', v') :: rest => if k' = k then (k', v) :: rest else (k', v') :: setKey k v rest

/-- utils/misc_utils.py:65-66: the dotted name in the error message. -/
def fullKey (pre key : String) : String := if pre = "" then key else pre ++ "." ++ key

mutual
/-- utils/misc_utils.py:63-72 `recursive_update(dict1, dict2, key_prefix)`: the loop over
`dict2.items()`. Result: the updated `dict1` (also when the update stopped half-way) and the key
of the `TypeError`, if any. -/
def recursiveUpdate (pre : String) (d1 : Items) : Items → Items × Option String
  | [] => (d1, none)
  | item :: rest =>
    match updateItem pre d1 item with
    | (d1', some e) => (d1', some e)
    | (d1', none) => recursiveUpdate pre d1' rest
termination_by structural d2 => d2

/-- utils/misc_utils.py:64 `for key, value in dict2.items()`: unpacking the pair. -/
def updateItem (pre : String) (d1 : Items) : String × Cfg → Items × Option String
  | (key, value) => updateValue pre d1 key value
termination_by structural item => item

/-- utils/misc_utils.py:65-72: the body of the loop. -/
def updateValue (pre : String) (d1 : Items) (key : String) : Cfg → Items × Option String
  | .leaf v => (setKey key (.leaf v) d1, none)
  | .dict vs =>
    match lookup key d1 with
    | none => (setKey key (.dict vs) d1, none)
    | some (.leaf _) => (d1, some (fullKey pre key))
    | some (.dict ds) =>
      let r := recursiveUpdate (fullKey pre key) ds vs
      (setKey key (.dict r.1) d1, r.2)
termination_by structural value => value
end

/-- utils/misc_utils.py:56-76 `deep_update_dict(base_dict, new_dict)`. -/
def deepUpdate (base new : Items) : Items × Option String := recursiveUpdate "" base new

end Verif.Utils
