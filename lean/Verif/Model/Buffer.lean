import Verif.Model.Base

/-!
# `AlignedBuffer` (`nbkode/buffer.py`)
-/

set_option autoImplicit false

namespace Nbkode

/-- `nbkode/buffer.py:5-9`: three arrays of the same capacity. The capacity is `k + 2`: classes with
`LEN_HISTORY < 2` are refused when they are defined (`nbkode/core.py:155-159`). -/
structure Buffer (α : Type) (n k : Nat) where
  ts : Fin (k + 2) → α
  ys : Fin (k + 2) → Vec α n
  fs : Fin (k + 2) → Vec α n

/-- `a[:-1] = a[1:]; a[-1] = x` (`nbkode/buffer.py:49-56`). -/
def shiftIn {A : Type} {k : Nat} (a : Fin (k + 2) → A) (x : A) : Fin (k + 2) → A :=
  fun i => if h : i.val + 1 < k + 2 then a ⟨i.val + 1, h⟩ else x

namespace Buffer
variable {α : Type} {n k : Nat}

/-- Index `-1`. -/
def iLast (k : Nat) : Fin (k + 2) := ⟨k + 1, by omega⟩
/-- Index `-2`. -/
def iPrev (k : Nat) : Fin (k + 2) := ⟨k, by omega⟩
/-- Index `0`. -/
def iOld (k : Nat) : Fin (k + 2) := ⟨0, by omega⟩

/-- `nbkode/buffer.py:21-23`. -/
def t (b : Buffer α n k) : α := b.ts (iLast k)
/-- `nbkode/buffer.py:30-32`. -/
def y (b : Buffer α n k) : Vec α n := b.ys (iLast k)
/-- `nbkode/buffer.py:39-41`. -/
def f (b : Buffer α n k) : Vec α n := b.fs (iLast k)

/-- `nbkode/buffer.py:48-56`. -/
def push (b : Buffer α n k) (t : α) (y f : Vec α n) : Buffer α n k :=
  { ts := shiftIn b.ts t, ys := shiftIn b.ys y, fs := shiftIn b.fs f }

/-- Push the same triple `m` times. -/
def pushN (b : Buffer α n k) (t : α) (y f : Vec α n) : Nat → Buffer α n k
  | 0 => b
  | m + 1 => (b.pushN t y f m).push t y f

/-- `nbkode/buffer.py:14-19`: `garbage` is the uninitialised memory returned by `np.empty`; it is
overwritten by `capacity` pushes. -/
def init (garbage : Buffer α n k) (t : α) (y f : Vec α n) : Buffer α n k :=
  garbage.pushN t y f (k + 2)

end Buffer

/-- An array handed out by the library: a copy, or a view of row `i` of the history's `ys`
(basic indexing of a NumPy array returns a view). -/
inductive Ref (α : Type) (n k : Nat) where
  | own (v : Vec α n)
  | row (i : Fin (k + 2))

/-- What the caller sees when reading the array while the history is `b`. -/
def Ref.deref {α : Type} {n k : Nat} (b : Buffer α n k) : Ref α n k → Vec α n
  | .own v => v
  | .row i => b.ys i

/-- The mutable part of a solver instance: `cache`, the step size `h` (a 0-d array mutated in place by
variable-step solvers) and the scratch objects of the method (stages `K`, interpolator). -/
structure St (α : Type) (n k : Nat) (X : Type) where
  cache : Buffer α n k
  h : α
  aux : X

namespace St
variable {α : Type} {n k : Nat} {X : Type}
/-- `nbkode/core.py:197-199`. -/
def t (s : St α n k X) : α := s.cache.t
/-- `nbkode/core.py:201-203`. -/
def y (s : St α n k X) : Vec α n := s.cache.y
/-- `nbkode/core.py:205-207`. -/
def f (s : St α n k X) : Vec α n := s.cache.f
end St

end Nbkode
