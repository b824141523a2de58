import Verif.Spec.Invariant
import Verif.Proofs.RelateObserve
import Mathlib.Algebra.Module.Submodule.Basic
import Mathlib.Algebra.Module.Pi

/-! Invariant affine subspaces: a solver related to itself. -/

set_option autoImplicit false
set_option linter.unusedSectionVars false

namespace Nbkode
open Py Spec Solver

section field
variable {α : Type} [Field α] [LinearOrder α] [IsStrictOrderedRing α]
variable {n k : Nat} (W : Submodule α (Vec α n)) (y0 : Vec α n)

/-- States in `y0 + W`, displacements and derivatives in `W`. -/
def Vars.inside : Vars α n n where
  tm := Eq
  hr := Eq
  vec := fun y y' => y = y' ∧ y - y0 ∈ W
  dsp := fun d d' => d = d' ∧ d ∈ W
  slp := fun d d' => d = d' ∧ d ∈ W

theorem scale_mem {c : α} {d : Vec α n} (h : d ∈ W) : scale c d ∈ W := W.smul_mem c h

theorem inside_lawful : (Vars.inside W y0).Lawful where
  lt := by rintro a _ b _ rfl rfl; exact Iff.rfl
  mid := by rintro a _ b _ rfl rfl; rfl
  tm_add := by rintro a _ b _ rfl rfl; rfl
  tm_sub := by rintro a _ b _ rfl rfl; rfl
  hr_mul := by rintro a _ c rfl; rfl
  hr_zero := by rintro a _ rfl; exact Iff.rfl
  hr_pos := by rintro a _ rfl; exact Iff.rfl
  hr_div := by rintro a _ b _ rfl rfl; rfl
  dsp_zero := ⟨rfl, W.zero_mem⟩
  dsp_add := by rintro a _ b _ ⟨rfl, h1⟩ ⟨rfl, h2⟩; exact ⟨rfl, W.add_mem h1 h2⟩
  dsp_smul := by rintro a _ c ⟨rfl, h1⟩; exact ⟨rfl, scale_mem W h1⟩
  slp_zero := ⟨rfl, W.zero_mem⟩
  slp_add := by rintro a _ b _ ⟨rfl, h1⟩ ⟨rfl, h2⟩; exact ⟨rfl, W.add_mem h1 h2⟩
  slp_smul := by rintro a _ c ⟨rfl, h1⟩; exact ⟨rfl, scale_mem W h1⟩
  hr_slp := by rintro a _ b _ rfl ⟨rfl, h2⟩; exact ⟨rfl, scale_mem W h2⟩
  vec_add := by
    rintro a _ b _ ⟨rfl, h1⟩ ⟨rfl, h2⟩
    refine ⟨rfl, ?_⟩
    rw [add_sub_right_comm]
    exact W.add_mem h1 h2
  vec_sub := by
    rintro a _ b _ ⟨rfl, h1⟩ ⟨rfl, h2⟩
    refine ⟨rfl, ?_⟩
    rw [← sub_sub_sub_cancel_right a b y0]
    exact W.sub_mem h1 h2

variable {W y0}

theorem inside_rhs {rhs : Rhs α n} (hf : ∀ t y f, y - y0 ∈ W → rhs t y = .ok f → f ∈ W) : (Vars.inside W y0).RhsRel rhs rhs := by
  rintro t _ y _ rfl ⟨rfl, h⟩
  cases e : rhs t y with
  | error q => exact rfl
  | ok f => exact ⟨rfl, hf t y f h e⟩

theorem inside_bound (b : Bound α) : BoundRel (Vars.inside W y0).tm b b := by cases b <;> first | trivial | exact rfl

theorem inside_argsort (argsort : List α → List Nat) (l l' : List α) (h : List.Forall₂ (Vars.inside W y0).tm l l') :
    argsort l = argsort l' := by
  have : l = l' := by
    induction h with
    | nil => rfl
    | cons h _ ih => rw [ih, show _ = _ from h]
  rw [this]

theorem inside_start : (Vars.inside W y0).vec y0 y0 := ⟨rfl, by rw [sub_self]; exact W.zero_mem⟩

variable [BEq α] [LawfulBEq α] {X : Type}

theorem inside_calls {S S' : Solver α n k X} (cs : List (Call α n)) : (Vars.inside W y0).Calls S S' cs cs := by
  intro D h1 h2
  have hu : ∀ u : Option (Bound α), Corr.UptoRel D.tm u u := by
    intro u
    rw [h1]
    rcases u with _ | (_ | _) <;> first | trivial | exact rfl
  have hl : ∀ l : List α, List.Forall₂ D.tm l l := by rw [h1]; exact fun l => List.forall₂_same.2 fun _ _ => rfl
  refine List.forall₂_same.2 fun c _ => ?_
  rcases c with ⟨q, u⟩ | ⟨q, u⟩ | t | l | ⟨l, _ | es⟩
  · exact .step q (hu u)
  · exact .skip q (hu u)
  · exact .interpolate (by rw [h1]; exact rfl)
  · exact .run (hl l)
  · exact .runEvents (hl l) trivial
  · refine .runEvents (hl l) (List.forall₂_same.2 fun e _ => ⟨?_, rfl, rfl⟩)
    rw [h1, h2]
    rintro t _ y _ rfl ⟨rfl, -⟩
    rfl

theorem inside_control (lib : Lib α) (o : VarOptions α) : SameControl (Vars.inside W y0) lib o o := by
  refine ⟨rfl, rfl, rfl, ?_⟩
  rintro y _ z _ d _ ⟨rfl, -⟩ ⟨rfl, -⟩ ⟨rfl, -⟩
  rfl

theorem inside_first {sel : Rhs α n → α → Vec α n → Vec α n → Except Err α} {rhs : Rhs α n} {t : α} {y : Vec α n}
    {first : Option α} (h1 : ∀ h, first = some h → 0 < h) (h2 : first = none → ∀ f a, sel rhs t y f = .ok a → 0 < a) :
    Corr.OptRel (fun a b => (Vars.inside W y0).hr a b ∧ 0 < a) first first ∧
      (first = none → ∀ f f', (Vars.inside W y0).slp f f' →
        ExRel (fun a b => (Vars.inside W y0).hr a b ∧ 0 < a) (sel rhs t y f) (sel rhs t y f')) := by
  constructor
  · cases first with
    | none => trivial
    | some h => exact ⟨rfl, h1 h rfl⟩
  · rintro h f _ ⟨rfl, -⟩
    cases e : sel rhs t y f with
    | error q => exact rfl
    | ok a => exact ⟨rfl, h2 h f a e⟩

theorem forall₂_left {A B : Type} {Q : A → B → Prop} {l : List A} {l' : List B} (h : List.Forall₂ Q l l') {a : A} (ha : a ∈ l) : ∃ b, Q a b := by
  induction h with
  | nil => cases ha
  | cons h _ ih =>
    rcases List.mem_cons.1 ha with rfl | ha
    · exact ⟨_, h⟩
    · exact ih ha

theorem within_of_same {S S' : Solver α n k X} {o : Option (Except Err (Seen α n k))} (h : (Vars.inside W y0).Same S S' o o)
    (v : Seen α n k) (hv : o = some (.ok v)) : v.Within fun y => y - y0 ∈ W := by
  obtain ⟨D, h1, h2, h3⟩ := h
  subst hv
  obtain ⟨g1, g2, -⟩ := h3
  refine ⟨fun a ha => ?_, fun i => (g2.ys i).2⟩
  have hp : ∀ l l', List.Forall₂ D.Pt l l' → ∀ p ∈ l, p.2 - y0 ∈ W := by
    intro l l' h
    intro p hp
    obtain ⟨q, -, h⟩ := forall₂_left h hp
    rw [h2] at h
    exact h.2
  have hr : ∀ r r' : Ref α n k, RefRel D.vec r r' → RefWithin (fun y => y - y0 ∈ W) r := by
    intro r r' h
    rw [h2] at h
    cases r <;> cases r' <;> first | exact h.elim | trivial | exact h.2
  have hA : ∀ a a', D.AnsRel a a' → a.Within fun y => y - y0 ∈ W := by
    intro a a' h
    cases h with
    | step h =>
      cases h with
      | arrays h => exact hp _ _ h
      | single _ h => exact hr _ _ h
      | none => trivial
    | skip => trivial
    | interpolate h => exact hr _ _ h
    | run h => exact hp _ _ h
    | @runEvents o o' h =>
      refine ⟨hp _ _ h.out, ?_⟩
      intro l hl r hr'
      obtain ⟨l', h3⟩ := forall₂_left h.yEvents hl
      obtain ⟨r', h4⟩ := forall₂_left h3 hr'
      exact hr _ _ h4
  obtain ⟨b, hb⟩ := forall₂_left g1 ha
  cases b with
  | error e => exact hb.elim
  | ok b => exact hA _ _ hb

end field
end Nbkode
