import Verif.Spec.Methods
import Verif.Spec.Stepping

/-!
# Histories of API calls

A user's session is a finite sequence of API calls on one solver instance. A call that raises is part of
the session (the user may catch the exception and go on); a call that never returns ends it.
-/

set_option autoImplicit false

namespace Nbkode.Spec
open Nbkode

variable {α : Type}
variable [Add α] [Sub α] [Mul α] [Div α] [Neg α] [Zero α] [One α] [NatCast α] [BEq α]
variable [LT α] [DecidableLT α] [LE α] [DecidableLE α]
variable {n k : Nat} {X : Type}

/-- The public calls that touch a solver instance, with any arguments. -/
inductive Call (α : Type) (n : Nat) where
  | step (m : Option Int) (upto : Option (Bound α))
  | skip (m : Option Int) (upto : Option (Bound α))
  | interpolate (t : α)
  | run (ts : List α)
  | runEvents (ts : List α) (events : Option (List (EventSpec α n)))

/-- Making a call (the returned value is dropped, the exception is kept). -/
def Call.exec (S : Solver α n k X) (bo : BisectOpts α) (argsort : List α → List Nat) :
    Call α n → Py (St α n k X) Unit
  | .step m u => do let _ ← S.step m u
  | .skip m u => S.skip m u
  | .interpolate t => do let _ ← S.interpolate t
  | .run ts => do let _ ← S.run bo argsort ts
  | .runEvents ts es => do let _ ← S.runEvents bo argsort ts es

/-- `Session S bo argsort s s'`: some finite sequence of calls, each returning or raising, leads from `s` to
`s'`. -/
inductive Session (S : Solver α n k X) (bo : BisectOpts α) (argsort : List α → List Nat) :
    St α n k X → St α n k X → Prop
  | start (s : St α n k X) : Session S bo argsort s s
  | call {s s1 s2 : St α n k X} (c : Call α n) (r : Except Err Unit) :
      Session S bo argsort s s1 → (c.exec S bo argsort).run s1 = some (r, s2) →
      Session S bo argsort s s2

/-- A session in which no call raised. -/
inductive CleanSession (S : Solver α n k X) (bo : BisectOpts α) (argsort : List α → List Nat) :
    St α n k X → St α n k X → Prop
  | start (s : St α n k X) : CleanSession S bo argsort s s
  | call {s s1 s2 : St α n k X} (c : Call α n) :
      CleanSession S bo argsort s s1 → (c.exec S bo argsort).run s1 = some (.ok (), s2) →
      CleanSession S bo argsort s s2

/-- `Progress S b l b'`: the history `b'` results from the history `b` by completed integration steps only, and
`l` lists the points `(t, y, f)` reached by them, in order. -/
inductive Progress (S : Solver α n k X) :
    Buffer α n k → List (α × Vec α n × Vec α n) → Buffer α n k → Prop
  | refl (b : Buffer α n k) : Progress S b [] b
  | step {b : Buffer α n k} {l : List (α × Vec α n × Vec α n)} {s s' : St α n k X} :
      Progress S b l s.cache → Takes S s s' → Progress S b (l ++ [(s'.t, s'.y, s'.f)]) s'.cache

/-- `b` is the window on the last `k + 2` entries of `log`, oldest first, aligned across the three arrays. -/
def Window (b : Buffer α n k) (log : List (α × Vec α n × Vec α n)) : Prop :=
  ∃ before, before ++ List.ofFn (fun i : Fin (k + 2) => (b.ts i, b.ys i, b.fs i)) = log

/-- `b'` is the history `b` after one more point `(t, y, f)` has been recorded: in each of the three arrays the oldest entry is
dropped, the others keep their order, and the new entry comes last. -/
structure Records (b b' : Buffer α n k) (t : α) (y f : Vec α n) : Prop where
  ts : List.ofFn b'.ts = (List.ofFn b.ts).tail ++ [t]
  ys : List.ofFn b'.ys = (List.ofFn b.ys).tail ++ [y]
  fs : List.ofFn b'.fs = (List.ofFn b.fs).tail ++ [f]

/-- Every slot of the history holds a point with its derivative. -/
def Consistent (rhs : Rhs α n) (b : Buffer α n k) : Prop :=
  ∀ i : Fin (k + 2), rhs (b.ts i) (b.ys i) = .ok (b.fs i)

end Nbkode.Spec
