import Verif.Model.Util

/-!
# What a case-insensitive dictionary is

A *plain map* sends each lower-cased key to the spelling last used, the value last written and the
moment since which the key has been present without interruption. `Spec.Answers` says what each
operation of a dictionary has to answer, in terms of that map only.
-/

set_option autoImplicit false

namespace Nbkode

/-- The operations of the `MutableMapping` API, with their arguments. -/
inductive DictOp (κ ν : Type) where
  | setItem (k : κ) (v : ν)
  | getItem (k : κ)
  | delItem (k : κ)
  | contains (k : κ)
  | getD (k : κ) (dflt : ν)
  | len
  | iter
  | items
  | values
  | lowerItems
  | pop (k : κ) (dflt : Option ν)
  | popitem
  | setdefault (k : κ) (dflt : ν)
  | clear
  | update (kvs : List (κ × ν))
  | eqMapping (other : List (κ × ν))
  | copyEq
  | copyItems

/-- What an operation answers. -/
inductive DictOut (κ ℓ ν : Type) where
  | done
  | raises (e : Err)
  | value (v : ν)
  | flag (b : Bool)
  | number (n : Nat)
  | keys (ks : List κ)
  | item (k : κ) (v : ν)
  | items (kvs : List (κ × ν))
  | values (vs : List ν)
  | lowerItems (lvs : List (ℓ × ν))
  deriving DecidableEq

namespace Spec

/-- What a plain map knows about a present key. -/
structure Entry (κ ν : Type) where
  key : κ
  value : ν
  since : Nat

/-- A plain map keyed by lower-cased keys, with a clock. -/
structure PlainMap (κ ℓ ν : Type) where
  find : ℓ → Option (Entry κ ν)
  now : Nat

namespace PlainMap
variable {κ ℓ ν : Type} [DecidableEq ℓ]

/-- No keys. -/
def empty : PlainMap κ ℓ ν := ⟨fun _ => none, 0⟩

/-- Write `v` under the key `k`, whose lower-case form is `l`. -/
def put (m : PlainMap κ ℓ ν) (l : ℓ) (k : κ) (v : ν) : PlainMap κ ℓ ν where
  find l' := if l' = l then
      some ⟨k, v, match m.find l with
        | some e => e.since
        | none => m.now⟩
    else m.find l'
  now := m.now + 1

/-- Remove the key `l`. -/
def drop (m : PlainMap κ ℓ ν) (l : ℓ) : PlainMap κ ℓ ν where
  find l' := if l' = l then none else m.find l'
  now := m.now

/-- Write all pairs, in order. -/
def putAll (lower : κ → ℓ) (m : PlainMap κ ℓ ν) : List (κ × ν) → PlainMap κ ℓ ν
  | [] => m
  | kv :: kvs => putAll lower (m.put (lower kv.1) kv.1 kv.2) kvs

/-- The value under `l`. -/
def valueAt (m : PlainMap κ ℓ ν) (l : ℓ) : Option ν := (m.find l).map Entry.value

end PlainMap

variable {κ ℓ ν : Type} [DecidableEq ℓ]

/-- `es` lists every present key of `m` exactly once, longest present first. -/
def Listing (m : PlainMap κ ℓ ν) (es : List (ℓ × Entry κ ν)) : Prop :=
  es.Pairwise (fun a b => a.2.since < b.2.since) ∧ ∀ l e, (l, e) ∈ es ↔ m.find l = some e

/-- What the operation `op` on the map `m` may answer (`o`), and the map it leaves (`m'`). -/
def Answers (lower : κ → ℓ) (op : DictOp κ ν) (m : PlainMap κ ℓ ν) (o : DictOut κ ℓ ν)
    (m' : PlainMap κ ℓ ν) : Prop :=
  match op with
  | .setItem k v => o = .done ∧ m' = m.put (lower k) k v
  | .getItem k => m' = m ∧ match m.valueAt (lower k) with
    | some v => o = .value v
    | none => o = .raises .keyError
  | .delItem k => match m.valueAt (lower k) with
    | some _ => o = .done ∧ m' = m.drop (lower k)
    | none => o = .raises .keyError ∧ m' = m
  | .contains k => m' = m ∧ ∃ b, o = .flag b ∧ (b = true ↔ ∃ v, m.valueAt (lower k) = some v)
  | .getD k dflt => m' = m ∧ match m.valueAt (lower k) with
    | some v => o = .value v
    | none => o = .value dflt
  | .len => m' = m ∧ ∃ es, Listing m es ∧ o = .number es.length
  | .iter => m' = m ∧ ∃ es, Listing m es ∧ o = .keys (es.map fun e => e.2.key)
  | .items => m' = m ∧ ∃ es, Listing m es ∧ o = .items (es.map fun e => (e.2.key, e.2.value))
  | .values => m' = m ∧ ∃ es, Listing m es ∧ o = .values (es.map fun e => e.2.value)
  | .lowerItems => m' = m ∧ ∃ es, Listing m es ∧ o = .lowerItems (es.map fun e => (e.1, e.2.value))
  | .pop k dflt => match m.valueAt (lower k) with
    | some v => o = .value v ∧ m' = m.drop (lower k)
    | none => m' = m ∧ match dflt with
      | some v => o = .value v
      | none => o = .raises .keyError
  | .popitem => ∃ es, Listing m es ∧ match es with
    | [] => o = .raises .keyError ∧ m' = m
    | (l, e) :: _ => o = .item e.key e.value ∧ m' = m.drop l
  | .setdefault k dflt => match m.valueAt (lower k) with
    | some v => o = .value v ∧ m' = m
    | none => o = .value dflt ∧ m' = m.put (lower k) k dflt
  | .clear => o = .done ∧ (∀ l, m'.find l = none) ∧ m'.now = m.now
  | .update kvs => o = .done ∧ m' = m.putAll lower kvs
  | .eqMapping other => m' = m ∧ ∃ b, o = .flag b ∧
      (b = true ↔ ∀ l, m.valueAt l = (PlainMap.empty.putAll lower other).valueAt l)
  | .copyEq => m' = m ∧ o = .flag true
  | .copyItems => m' = m ∧ ∃ es, Listing m es ∧ o = .items (es.map fun e => (e.2.key, e.2.value))

/-- What a sequence of operations starting from the map `m` may answer, and the map it leaves. -/
inductive Answered (lower : κ → ℓ) : PlainMap κ ℓ ν → List (DictOp κ ν) → List (DictOut κ ℓ ν) →
    PlainMap κ ℓ ν → Prop
  | nil (m : PlainMap κ ℓ ν) : Answered lower m [] [] m
  | cons {m m' m'' : PlainMap κ ℓ ν} {op : DictOp κ ν} {ops : List (DictOp κ ν)}
      {o : DictOut κ ℓ ν} {os : List (DictOut κ ℓ ν)} (h : Answers lower op m o m')
      (hs : Answered lower m' ops os m'') : Answered lower m (op :: ops) (o :: os) m''

end Spec

/-- The outcome of a call, as an answer. -/
def DictOut.ofPy {κ ℓ ν A : Type} (f : A → DictOut κ ℓ ν) : Except Err A → DictOut κ ℓ ν
  | .ok a => f a
  | .error e => .raises e

/-- Perform one operation on the dictionary: the answer and the dictionary it leaves. `none` if it
does not terminate. -/
def DictOp.exec {κ ℓ ν : Type} [DecidableEq ℓ] [BEq ν] (lower : κ → ℓ) (op : DictOp κ ν)
    (d : CIDict κ ℓ ν) : Option (DictOut κ ℓ ν × CIDict κ ℓ ν) :=
  match op with
  | .setItem k v => some (.done, d.setItem lower k v)
  | .getItem k => some (.ofPy .value (d.getItem lower k), d)
  | .delItem k => match d.delItem lower k with
    | .ok d' => some (.done, d')
    | .error e => some (.raises e, d)
  | .contains k => some (.flag (d.contains lower k), d)
  | .getD k dflt => some (.value (d.getD lower k dflt), d)
  | .len => some (.number d.len, d)
  | .iter => some (.keys d.iter, d)
  | .items => some (.ofPy .items (d.items lower), d)
  | .values => some (.ofPy .values (d.values lower), d)
  | .lowerItems => some (.lowerItems d.lowerItems, d)
  | .pop k dflt => ((CIDict.pop lower k dflt).run d).map fun p => (.ofPy .value p.1, p.2)
  | .popitem => ((CIDict.popitem lower).run d).map fun p => (.ofPy (fun kv => .item kv.1 kv.2) p.1, p.2)
  | .setdefault k dflt => ((CIDict.setdefault lower k dflt).run d).map fun p => (.ofPy .value p.1, p.2)
  | .clear => (CIDict.clear lower d).map fun p => (.ofPy (fun _ => .done) p.1, p.2)
  | .update kvs => some (.done, d.update lower kvs)
  | .eqMapping other => some (.flag (d.eqMapping lower other), d)
  | .copyEq => match (d.copy lower).items lower with
    | .ok kvs => some (.flag (d.eqMapping lower kvs), d)
    | .error e => some (.raises e, d)
  | .copyItems => some (.ofPy .items ((d.copy lower).items lower), d)

/-- Perform a sequence of operations. -/
def DictOp.execAll {κ ℓ ν : Type} [DecidableEq ℓ] [BEq ν] (lower : κ → ℓ) :
    List (DictOp κ ν) → CIDict κ ℓ ν → Option (List (DictOut κ ℓ ν) × CIDict κ ℓ ν)
  | [], d => some ([], d)
  | op :: ops, d => match op.exec lower d with
    | none => none
    | some (o, d') => match DictOp.execAll lower ops d' with
      | none => none
      | some (os, d'') => some (o :: os, d'')

end Nbkode
