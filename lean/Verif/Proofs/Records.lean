import Verif.Spec.History
import Mathlib.Data.List.OfFn

/-!
# Recording a point, in terms of the model's buffer
-/

set_option autoImplicit false
set_option linter.unusedSectionVars false

namespace Nbkode
open Spec

variable {α : Type} {n k : Nat}

theorem ofFn_shiftIn {A : Type} (a : Fin (k + 2) → A) (x : A) :
    List.ofFn (shiftIn a x) = (List.ofFn a).tail ++ [x] := by
  rw [List.ofFn_succ' (f := shiftIn a x), List.ofFn_succ (f := a), List.tail_cons, List.concat_eq_append]
  congr 1
  · congr 1
    funext i
    simp only [shiftIn, Fin.val_castSucc]
    rw [dif_pos (by omega)]
    rfl
  · simp [shiftIn]

theorem records_iff {b b' : Buffer α n k} {t : α} {y f : Vec α n} :
    Records b b' t y f ↔ b' = b.push t y f := by
  constructor
  · rintro ⟨h1, h2, h3⟩
    rw [← ofFn_shiftIn] at h1 h2 h3
    cases b'
    simp only [Buffer.push, Buffer.mk.injEq]
    exact ⟨List.ofFn_injective h1, List.ofFn_injective h2, List.ofFn_injective h3⟩
  · rintro rfl
    exact ⟨ofFn_shiftIn _ _, ofFn_shiftIn _ _, ofFn_shiftIn _ _⟩

/-- The same for a whole state. -/
theorem state_records_iff {X : Type} {s s' : St α n k X} {t : α} {y f : Vec α n} {h : α} {a : X} :
    s' = ⟨s.cache.push t y f, h, a⟩ ↔ Records s.cache s'.cache t y f ∧ s'.h = h ∧ s'.aux = a := by
  rw [records_iff]
  constructor
  · rintro rfl; exact ⟨rfl, rfl, rfl⟩
  · rintro ⟨h1, h2, h3⟩
    cases s'; simp only at h1 h2 h3; subst h1 h2 h3; rfl

end Nbkode
