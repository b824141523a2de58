import Verif.Model.NumbaSub

/-! # C58: without Numba the decorators do nothing -/

set_option autoImplicit false

namespace Nbkode
open NumbaSub
variable {Obj : Type}

/-- **C58** (bare). `@njit` gives back any callable object itself. -/
theorem C58_bare (callable : Obj → Bool) (f : Obj) (hf : callable f = true) :
    bare callable f = .obj f := by
  simp [bare, noop, wrapped, hf, noopFn]

/-- **C58** (called; partial). `@njit(...)` gives back any object itself, for any arguments except a
single positional argument that is callable and no keyword. Missing: that case (`C58_refuted`). -/
theorem C58_called_partial (callable : Obj → Bool) (call : Obj → Obj → Except Err Obj)
    (a : Args Obj) (f : Obj) (ha : ¬ ∃ o, a.pos = [o] ∧ a.kw = [] ∧ callable o = true) :
    withOptions callable call a f = .ok f := by
  obtain ⟨pos, kw⟩ := a
  have h : ∃ b, noop callable ⟨pos, kw⟩ = .realDecorator b := by
    unfold noop wrapped
    split
    · rename_i x h1 h2
      rw [if_neg]
      · exact ⟨_, rfl⟩
      · exact fun h => ha ⟨x, h1, h2, h⟩
    · exact ⟨_, rfl⟩
  obtain ⟨b, hb⟩ := h
  rw [withOptions, hb]
  rfl

/-- **C58** (the forms used in the package): `@njit()`, `@njit(inline="always")` and any other
keywords, `@jitclass([...])`, and two or more positional options. -/
theorem C58_package (callable : Obj → Bool) (call : Obj → Obj → Except Err Obj) (f : Obj) :
    withOptions callable call ⟨[], []⟩ f = .ok f ∧
    (∀ pos kw, kw ≠ [] → withOptions callable call ⟨pos, kw⟩ f = .ok f) ∧
    (∀ spec, callable spec = false → withOptions callable call ⟨[spec], []⟩ f = .ok f) ∧
    (∀ pos kw, 2 ≤ pos.length → withOptions callable call ⟨pos, kw⟩ f = .ok f) := by
  refine ⟨?_, ?_, ?_, ?_⟩
  · exact C58_called_partial callable call _ f (by simp)
  · intro pos kw hkw
    exact C58_called_partial callable call _ f (by rintro ⟨o, -, h, -⟩; exact hkw h)
  · intro spec hs
    refine C58_called_partial callable call _ f ?_
    rintro ⟨o, h1, -, h2⟩
    cases h1
    rw [hs] at h2
    cases h2
  · intro pos kw hp
    refine C58_called_partial callable call _ f ?_
    rintro ⟨o, h1, -, -⟩
    simp only at h1
    rw [h1] at hp
    simp at hp

namespace Demo

/-- A few Python objects. `float64` is the class `WithGetItem` (`nbkode/nbcompat/numbasub.py:49-66`). -/
inductive PyObj where
  | function
  | list
  | string
  | float64
  deriving DecidableEq

/-- Functions and classes are callable. -/
def PyObj.callable : PyObj → Bool
  | .function => true
  | .float64 => true
  | _ => false

/-- `WithGetItem` has no `__init__`, so `float64(f)` raises `TypeError`. -/
def PyObj.call : PyObj → PyObj → Except Err PyObj
  | .function, _ => .ok .list
  | _, _ => .error .typeError

end Demo

/-- **C58 is false** for `@vectorize(float64)`: the option is taken for the decorated function, and
applying it to the function raises `TypeError`. -/
theorem C58_refuted : withOptions Demo.PyObj.callable Demo.PyObj.call ⟨[.float64], []⟩ .function
    = .error .typeError := by decide +kernel

example : Demo.PyObj.callable .function = true ∧
    ¬ (∃ o, [Demo.PyObj.list] = [o] ∧ ([] : List (String × Demo.PyObj)) = [] ∧
      Demo.PyObj.callable o = true) ∧
    Demo.PyObj.callable .list = false ∧ [("inline", Demo.PyObj.string)] ≠ [] := by
  refine ⟨rfl, ?_, rfl, by simp⟩
  rintro ⟨o, h, -, h'⟩
  cases h
  cases h'

end Nbkode
