import Verif.Model.Base

/-! Rules for running `Py` programs. -/

set_option autoImplicit false

namespace Nbkode
namespace Py
variable {σ τ A B : Type}

@[simp] theorem run_pure (a : A) (s : σ) : (pure a : Py σ A).run s = some (.ok a, s) := rfl

@[simp] theorem run_throw (e : Err) (s : σ) : (throw e : Py σ A).run s = some (.error e, s) := rfl

@[simp] theorem run_get (s : σ) : (get : Py σ σ).run s = some (.ok s, s) := rfl

@[simp] theorem run_set (s' s : σ) : (set s' : Py σ PUnit).run s = some (.ok ⟨⟩, s') := rfl

@[simp] theorem run_modify (f : σ → σ) (s : σ) :
    (modify f : Py σ PUnit).run s = some (.ok ⟨⟩, f s) := rfl

@[simp] theorem run_ofExcept (x : Except Err A) (s : σ) :
    (Py.ofExcept x : Py σ A).run s = some (x, s) := rfl

/-- Continue after a call: propagate divergence and exceptions. -/
def andThen (x : Option (Except Err A × σ)) (f : A → σ → Option (Except Err B × σ)) :
    Option (Except Err B × σ) :=
  match x with
  | none => none
  | some (.error e, s) => some (.error e, s)
  | some (.ok a, s) => f a s

@[simp] theorem andThen_none (f : A → σ → Option (Except Err B × σ)) : andThen none f = none := rfl
@[simp] theorem andThen_error (e : Err) (s : σ) (f : A → σ → Option (Except Err B × σ)) :
    andThen (some (.error e, s)) f = some (.error e, s) := rfl
@[simp] theorem andThen_ok (a : A) (s : σ) (f : A → σ → Option (Except Err B × σ)) :
    andThen (some (.ok a, s)) f = f a s := rfl

@[simp] theorem run_bind (x : Py σ A) (f : A → Py σ B) (s : σ) :
    (x >>= f).run s = andThen (x.run s) (fun a s' => (f a).run s') := by
  show (ExceptT.bind x f) s = _
  simp only [ExceptT.bind, ExceptT.mk, ExceptT.bindCont, bind, StateT.bind, Py.run]
  cases h : x s with
  | none => rfl
  | some r =>
    obtain ⟨r, s'⟩ := r
    cases r <;> rfl

@[simp] theorem run_map (x : Py σ A) (f : A → B) (s : σ) :
    (f <$> x).run s = andThen (x.run s) (fun a s' => some (.ok (f a), s')) := by
  rw [← bind_pure_comp, run_bind]; rfl

@[simp] theorem run_zoom (g : σ → τ) (st : τ → σ → σ) (x : Py τ A) (s : σ) :
    (Py.zoom g st x).run s = match x.run (g s) with
      | none => none
      | some (r, t) => some (r, st t s) := rfl

theorem run_ite (c : Prop) [Decidable c] (x y : Py σ A) (s : σ) :
    (if c then x else y).run s = if c then x.run s else y.run s := by
  split <;> rfl

theorem ext {x y : Py σ A} (h : ∀ s, x.run s = y.run s) : x = y := funext h

theorem andThen_eq_some {x : Option (Except Err A × σ)} {f : A → σ → Option (Except Err B × σ)}
    {r : Except Err B × σ} :
    andThen x f = some r ↔
      (∃ e s, x = some (.error e, s) ∧ r = (.error e, s)) ∨
      (∃ a s, x = some (.ok a, s) ∧ f a s = some r) := by
  rcases x with _ | ⟨_ | _, _⟩ <;> simp [andThen, eq_comm]

theorem andThen_eq_ok {x : Option (Except Err A × σ)} {f : A → σ → Option (Except Err B × σ)}
    {b : B} {s' : σ} :
    andThen x f = some (.ok b, s') ↔
      ∃ a s, x = some (.ok a, s) ∧ f a s = some (.ok b, s') := by
  rcases x with _ | ⟨_ | _, _⟩ <;> simp [andThen]

theorem andThen_eq_error {x : Option (Except Err A × σ)} {f : A → σ → Option (Except Err B × σ)}
    {e : Err} {s' : σ} :
    andThen x f = some (.error e, s') ↔
      x = some (.error e, s') ∨ ∃ a s, x = some (.ok a, s) ∧ f a s = some (.error e, s') := by
  rcases x with _ | ⟨_ | _, _⟩ <;> simp [andThen]

theorem andThen_assoc {C : Type} (x : Option (Except Err A × σ))
    (f : A → σ → Option (Except Err B × σ)) (g : B → σ → Option (Except Err C × σ)) :
    andThen (andThen x f) g = andThen x (fun a s => andThen (f a s) g) := by
  rcases x with _ | ⟨_ | _, _⟩ <;> rfl

/-- A fact about every result of a recursive call survives the fixpoint construction. -/
theorem admissible_post (P : σ → Except Err A → σ → Prop) :
    Lean.Order.admissible
      (fun x : Py σ A => ∀ s r s', x.run s = some (r, s') → P s r s') := by
  apply Lean.Order.admissible_pi_apply (fun s (y : Option (Except Err A × σ)) =>
    ∀ r s', y = some (r, s') → P s r s')
  intro s
  apply Lean.Order.admissible_pi
  intro r
  apply Lean.Order.admissible_pi
  intro s'
  exact Lean.Order.Option.admissible_eq_some (P s r s') (r, s')

/-- Every run of `x` ends, if it ends, in a state related to the initial one by a chain of `R`. -/
def Within (R : σ → σ → Prop) (x : Py σ A) : Prop :=
  ∀ s r s', x.run s = some (r, s') → R s s'

end Py
end Nbkode
