import Verif.Model.Base

/-!
# `CaseInsensitiveDict`

`nbkode/util.py:22-86`. Keys have a type `κ` and `key.lower()` is a parameter `lower : κ → ℓ` of which
nothing is assumed. The methods that `collections.abc.MutableMapping` adds (`get`, `in`, `items`,
`values`, `pop`, `popitem`, `clear`, `setdefault`, `update`) are modelled after the standard library.
-/

set_option autoImplicit false

namespace Nbkode

/-- `collections.OrderedDict` (`nbkode/util.py:47`): entries in insertion order. -/
abbrev ODict (ℓ ν : Type) : Type := List (ℓ × ν)

namespace ODict
variable {ℓ ν : Type} [DecidableEq ℓ]

/-- `d[l]`, `none` for `KeyError`. -/
def get? : ODict ℓ ν → ℓ → Option ν
  | [], _ => none
  | (l', v) :: d, l => if l' = l then some v else get? d l

/-- `d[l] = v`: a present key keeps its position, a new one goes last. -/
def set : ODict ℓ ν → ℓ → ν → ODict ℓ ν
  | [], l, v => [(l, v)]
  | (l', v') :: d, l, v => if l' = l then (l', v) :: d else (l', v') :: set d l v

/-- The dictionary after `del d[l]`, for a present key. -/
def erase : ODict ℓ ν → ℓ → ODict ℓ ν
  | [], _ => []
  | (l', v') :: d, l => if l' = l then d else (l', v') :: erase d l

end ODict

/-- `nbkode/util.py:22` `class CaseInsensitiveDict`: its `_store` (line 47) maps the lower-cased key
to the pair of the key as given and the value. -/
structure CIDict (κ ℓ ν : Type) where
  store : ODict ℓ (κ × ν)
  deriving DecidableEq

namespace CIDict
variable {κ ℓ ν : Type} [DecidableEq ℓ] (lower : κ → ℓ)

/-- `CaseInsensitiveDict()` (`nbkode/util.py:46-50`). -/
def empty : CIDict κ ℓ ν := ⟨[]⟩

/-- `nbkode/util.py:52-55` `__setitem__`. -/
def setItem (d : CIDict κ ℓ ν) (k : κ) (v : ν) : CIDict κ ℓ ν := ⟨d.store.set (lower k) (k, v)⟩

/-- `nbkode/util.py:57-58` `__getitem__`. -/
def getItem (d : CIDict κ ℓ ν) (k : κ) : Except Err ν :=
  match d.store.get? (lower k) with
  | some kv => .ok kv.2
  | none => .error .keyError

/-- `nbkode/util.py:60-61` `__delitem__`. -/
def delItem (d : CIDict κ ℓ ν) (k : κ) : Except Err (CIDict κ ℓ ν) :=
  match d.store.get? (lower k) with
  | some _ => .ok ⟨d.store.erase (lower k)⟩
  | none => .error .keyError

/-- `nbkode/util.py:63-64` `__iter__`. -/
def iter (d : CIDict κ ℓ ν) : List κ := d.store.map fun e => e.2.1

/-- `nbkode/util.py:66-67` `__len__`. -/
def len (d : CIDict κ ℓ ν) : Nat := d.store.length

/-- `nbkode/util.py:69-71` `lower_items`. -/
def lowerItems (d : CIDict κ ℓ ν) : List (ℓ × ν) := d.store.map fun e => (e.1, e.2.2)

/-- `in` (`nbkode/util.py:22`, `Mapping.__contains__`): try `self[key]`, `False` on `KeyError`. -/
def contains (d : CIDict κ ℓ ν) (k : κ) : Bool :=
  match d.getItem lower k with
  | .ok _ => true
  | .error _ => false

/-- `get(key, default)` (`nbkode/util.py:22`, `Mapping.get`). -/
def getD (d : CIDict κ ℓ ν) (k : κ) (dflt : ν) : ν :=
  match d.getItem lower k with
  | .ok v => v
  | .error _ => dflt

/-- `items()` (`nbkode/util.py:22`, `ItemsView.__iter__`): `(key, self[key])` for each key of
`iter(self)`. -/
def items (d : CIDict κ ℓ ν) : Except Err (List (κ × ν)) :=
  d.iter.mapM fun k => do return (k, ← d.getItem lower k)

/-- `values()` (`nbkode/util.py:22`, `ValuesView.__iter__`): `self[key]` for each key of
`iter(self)`. -/
def values (d : CIDict κ ℓ ν) : Except Err (List ν) := d.iter.mapM fun k => d.getItem lower k

/-- `update(pairs)` (`nbkode/util.py:22`, `MutableMapping.update`): `self[key] = value` for each pair.
A mapping or keyword arguments are passed here as the list of their items. -/
def update (d : CIDict κ ℓ ν) (kvs : List (κ × ν)) : CIDict κ ℓ ν :=
  kvs.foldl (fun d kv => d.setItem lower kv.1 kv.2) d

/-- `CaseInsensitiveDict(data)` (`nbkode/util.py:46-50`). -/
def ofPairs (kvs : List (κ × ν)) : CIDict κ ℓ ν := (empty : CIDict κ ℓ ν).update lower kvs

/-- `==` on two `dict`s: the same number of keys and equal values under each key of the first. -/
def dictEq [BEq ν] (a b : List (ℓ × ν)) : Bool :=
  a.length == b.length && a.all fun e => match ODict.get? b e.1 with
    | some v => v == e.2
    | none => false

/-- `nbkode/util.py:73-79` `__eq__` with a mapping given by its items. -/
def eqMapping [BEq ν] (d : CIDict κ ℓ ν) (other : List (κ × ν)) : Bool :=
  dictEq d.lowerItems (ofPairs lower other : CIDict κ ℓ ν).lowerItems

/-- `nbkode/util.py:82-83` `copy`. -/
def copy (d : CIDict κ ℓ ν) : CIDict κ ℓ ν := ofPairs lower (d.store.map fun e => e.2)

/-- `pop(key[, default])` (`nbkode/util.py:22`, `MutableMapping.pop`). -/
def pop (k : κ) (dflt : Option ν) : Py (CIDict κ ℓ ν) ν := do
  let d ← get
  match d.getItem lower k with
  | .ok v =>
    let d' ← Py.ofExcept (d.delItem lower k)
    set d'
    return v
  | .error e => match dflt with
    | none => throw e
    | some v => return v

/-- `popitem()` (`nbkode/util.py:22`, `MutableMapping.popitem`): the first key of `iter(self)`, its
value, and `del self[key]`; `KeyError` when there is none. -/
def popitem : Py (CIDict κ ℓ ν) (κ × ν) := do
  let d ← get
  match d.iter with
  | [] => throw .keyError
  | k :: _ =>
    let v ← Py.ofExcept (d.getItem lower k)
    let d' ← Py.ofExcept (d.delItem lower k)
    set d'
    return (k, v)

/-- `setdefault(key, default)` (`nbkode/util.py:22`, `MutableMapping.setdefault`). -/
def setdefault (k : κ) (dflt : ν) : Py (CIDict κ ℓ ν) ν := do
  let d ← get
  match d.getItem lower k with
  | .ok v => return v
  | .error _ =>
    set (d.setItem lower k dflt)
    return dflt

/-- `clear()` (`nbkode/util.py:22`, `MutableMapping.clear`): `popitem()` until `KeyError`. -/
def clear : Py (CIDict κ ℓ ν) Unit := fun d =>
  match (popitem lower).run d with
  | none => none
  | some (.ok _, d') => clear d'
  | some (.error _, d') => some (.ok (), d')
partial_fixpoint

end CIDict

end Nbkode
