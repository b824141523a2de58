import Verif.Proofs.RelateMethods
import Verif.Spec.Change

/-! Pairs of solvers that correspond under a change of variables. -/

set_option autoImplicit false
set_option linter.unusedSectionVars false

namespace Nbkode
open Py Spec Solver

section transcript
variable {α : Type} [LinearOrder α]
variable [Add α] [Sub α] [Mul α] [Div α] [Neg α] [Zero α] [One α] [NatCast α] [BEq α]
variable {n m k : Nat} {X Y : Type} {S : Solver α n k X} {S' : Solver α m k Y} (C : Corr S S')

theorem Corr.transcript (bo : BisectOpts α) {argsort : List α → List Nat}
    (ha : ∀ l l', List.Forall₂ C.tm l l' → argsort l = argsort l') (hA : ∀ l, IsArgsort l (argsort l)) {cs : List (Call α n)}
    {cs' : List (Call α m)} (hc : List.Forall₂ C.CallRel cs cs') : ∀ {x y}, C.st x y → ∀ v, Spec.transcript S bo argsort cs x = some v →
      ∃ v', Spec.transcript S' bo argsort cs' y = some v' ∧ List.Forall₂ (ExRel C.AnsRel) v.results v'.results ∧
        ∃ x1 y1, C.st x1 y1 ∧ v.history = x1.cache ∧ v'.history = y1.cache ∧ v.h = x1.h ∧ v'.h = y1.h := by
  induction hc with
  | nil =>
    intro x y h v hv
    cases hv
    exact ⟨_, rfl, .nil, x, y, h, rfl, rfl, rfl, rfl⟩
  | @cons c c' l l' hc hl ih =>
    intro x y h v hv
    rw [Spec.transcript] at hv
    cases hr : (c.answer S bo argsort).run x with
    | none => rw [hr] at hv; cases hv
    | some p =>
      obtain ⟨r, x1⟩ := p
      rw [hr] at hv
      obtain ⟨r', y1, g1, g2, g3⟩ := C.call bo ha hA hc x y h r x1 hr
      have hst : C.st x1 y1 := by
        cases r with
        | error e => exact g3 ⟨e, rfl⟩
        | ok a =>
          cases r' with
          | error e => exact g2.elim
          | ok a' => exact g2.2
      dsimp only at hv
      obtain ⟨w, hw, rfl⟩ := Option.map_eq_some_iff.1 hv
      obtain ⟨w', hw', h1, h2⟩ := ih hst w hw
      refine ⟨{ w' with results := r' :: w'.results }, by rw [Spec.transcript, g1]; simp [hw'], .cons ?_ h1, h2⟩
      cases r <;> cases r' <;> first | exact g2.elim | exact g2.1 | exact g2

theorem forall₂_flip {A B : Type} {Q : A → B → Prop} {Q' : B → A → Prop} (hQ : ∀ a b, Q a b → Q' b a) {a : List A} {b : List B}
    (h : List.Forall₂ Q a b) : List.Forall₂ Q' b a := by
  induction h with
  | nil => exact .nil
  | cons h1 _ ih => exact .cons (hQ _ _ h1) ih

theorem Corr.CallRel.flip {C : Corr S S'} (D : Corr S' S) (ht : ∀ a b, C.tm a b ↔ D.tm b a) (hv : ∀ a b, C.vec a b ↔ D.vec b a)
    {c : Call α n} {c' : Call α m} (h : C.CallRel c c') : D.CallRel c' c := by
  have hu : ∀ u u' : Option (Bound α), UptoRel C.tm u u' → UptoRel D.tm u' u := by
    intro u u' h
    rcases u with _ | _ | _ <;> rcases u' with _ | _ | _ <;> first | exact h | exact (ht _ _).1 h
  cases h with
  | step q h => exact .step q (hu _ _ h)
  | skip q h => exact .skip q (hu _ _ h)
  | interpolate h => exact .interpolate ((ht _ _).1 h)
  | run h => exact .run (forall₂_flip (fun a b => (ht a b).1) h)
  | runEvents h he =>
    refine .runEvents (forall₂_flip (fun a b => (ht a b).1) h) ?_
    rename_i es es'
    cases es <;> cases es' <;> first | exact he | skip
    exact forall₂_flip (fun a b h => ⟨fun t t' y y' h1 h2 => (h.func t' t y' y ((ht _ _).2 h1) ((hv _ _).2 h2)).symm, h.terminal.symm,
      h.direction.symm⟩) he

/-- With solvers corresponding in both directions, the one does what the other does, and does not end where the other does
not end. -/
theorem Corr.both {C : Corr S S'} (D : Corr S' S) (ht : ∀ a b, C.tm a b ↔ D.tm b a) (hv : ∀ a b, C.vec a b ↔ D.vec b a)
    (bo : BisectOpts α) {argsort : List α → List Nat}
    (ha : ∀ l l', List.Forall₂ C.tm l l' → argsort l = argsort l') (hA : ∀ l, IsArgsort l (argsort l)) {cs : List (Call α n)}
    {cs' : List (Call α m)} (hc : List.Forall₂ C.CallRel cs cs') {x : St α n k X} {y : St α m k Y} (h : C.st x y) (h' : D.st y x) :
    OptRel (fun v v' => List.Forall₂ (ExRel C.AnsRel) v.results v'.results ∧
      ∃ x1 y1, C.st x1 y1 ∧ v.history = x1.cache ∧ v'.history = y1.cache ∧ v.h = x1.h ∧ v'.h = y1.h)
      (Spec.transcript S bo argsort cs x) (Spec.transcript S' bo argsort cs' y) := by
  cases e : Spec.transcript S bo argsort cs x with
  | some v =>
    obtain ⟨v', e', h1⟩ := C.transcript bo ha hA hc h v e
    rw [e']; exact h1
  | none =>
    cases e' : Spec.transcript S' bo argsort cs' y with
    | none => trivial
    | some v' =>
      obtain ⟨v, e1, _⟩ := D.transcript bo (fun l l' hl => (ha _ _ (forall₂_flip (fun a b => (ht b a).2) hl)).symm) hA
        (forall₂_flip (fun _ _ h => h.flip D ht hv) hc) h' v' e'
      rw [e] at e1; cases e1

end transcript

section methods
variable {α : Type} [Field α] [LinearOrder α] [IsStrictOrderedRing α] [BEq α] [LawfulBEq α]
variable {n m k : Nat} {V : Vars α n m} (L : V.Lawful)

/-- Solvers whose interpolation needs no care. -/
def Vars.Lawful.corr {X Y : Type} {S : Solver α n k X} {S' : Solver α m k Y} (hb : BoundRel V.tm S.tBound S'.tBound)
    (st : St α n k X → St α m k Y → Prop) (hst : ∀ x y, st x y → V.StRel x y) (rng : Buffer α n k → α → Prop)
    (rng_mono : ∀ {b t u}, rng b t → t ≤ u → rng b u) (rng_last : ∀ b, rng b b.t)
    (rng_old : ∀ {b t}, b.ts (Buffer.iOld k) ≤ t → rng b t)
    (body : ∀ b, Follows (fun x y => st x y ∧ x.cache = b ∧ S.tBound.exceededBy (x.cache.t + x.h) = false)
      (fun _ _ x y => st x y ∧ ∀ u, b.t ≤ u → rng x.cache u) st (S.method.body S.rhs) (S'.method.body S'.rhs))
    (interp : ∀ {t t'} b, V.tm t t' → rng b t → Follows (fun x y => st x y ∧ x.cache = b)
      (fun r r' x y => RefRel V.vec r r' ∧ st x y ∧ x.cache = b) st (S.method.interp S.rhs t) (S'.method.interp S'.rhs t')) :
    Corr S S' where
  tm := V.tm
  vec := V.vec
  st := st
  rng := rng
  rng_mono := rng_mono
  rng_last := rng_last
  rng_old := rng_old
  lt := L.lt
  beq := L.beq_eq
  mid := L.pyMid
  mid_between := by
    intro a b c h hab
    have h2 : ¬ (((2 : Nat) : α) == 0) = true := by simp
    unfold pyDiv at h
    rw [if_neg h2] at h
    cases h
    have : ((2 : Nat) : α) = 2 := by norm_num
    rw [this]
    constructor <;> linarith
  ts := fun h => (hst _ _ h).1.ts
  ys := fun h => (hst _ _ h).1.ys
  next := fun h => L.tm_add ((hst _ _ h).1.ts _) (hst _ _ h).2
  bound := hb
  body := body
  interp := interp

/-- Solvers with the default interpolation. -/
def Vars.Lawful.hermite {X Y : Type} {S : Solver α n k X} {S' : Solver α m k Y} (hb : BoundRel V.tm S.tBound S'.tBound)
    (body : Follows V.StRel (fun _ _ => V.StRel) V.StRel (S.method.body S.rhs) (S'.method.body S'.rhs))
    (hi : ∀ t, S.method.interp S.rhs t = hermiteInterp t) (hi' : ∀ t, S'.method.interp S'.rhs t = hermiteInterp t) : Corr S S' :=
  L.corr hb V.StRel (fun _ _ h => h) (fun _ _ => True) (fun _ _ => trivial) (fun _ => trivial) (fun _ => trivial)
    (fun _ => follows_weaken body (fun _ _ h => h.1) fun _ _ _ _ h => ⟨h, fun _ _ => trivial⟩)
    (fun b ht _ => by
      rw [hi, hi']
      intro x y h r x1 hr
      obtain ⟨r', y', g1, g2, g3⟩ := follows_hermite L (R := fun x y => V.StRel x y ∧ x.cache = b) (fun _ _ h => h.1.1) ht x y h r x1 hr
      exact ⟨r', y', g1, g2, fun e => (g3 e).1⟩)

/-- Fixed-step explicit Runge-Kutta methods. -/
def Vars.Lawful.erk {s : Nat} (T : Tableau α s) {rhs : Rhs α n} {rhs' : Rhs α m} (hf : V.RhsRel rhs rhs') {b b' : Bound α}
    (hb : BoundRel V.tm b b') : Corr ⟨Nbkode.erk T, rhs, b⟩ ⟨Nbkode.erk T, rhs', b'⟩ :=
  L.hermite hb (follows_erk L T hf) (fun _ => rfl) fun _ => rfl

/-- Explicit multistep methods. -/
def Vars.Lawful.explicit {p : Nat} (c : MultistepCoef α p) (hA : ∑ j, c.A j = -1) {rhs : Rhs α n} {rhs' : Rhs α m} (hf : V.RhsRel rhs rhs')
    {b b' : Bound α} (hb : BoundRel V.tm b b') : Corr ⟨explicitMultistep c, rhs, b⟩ ⟨explicitMultistep c, rhs', b'⟩ :=
  L.hermite hb (follows_explicit L c hA hf) (fun _ => rfl) fun _ => rfl

/-- Options that only differ in the tolerances, such that the error norms agree. -/
structure SameControl (V : Vars α n m) (lib : Lib α) (o o' : VarOptions α) : Prop where
  minFactor : o'.minFactor = o.minFactor
  maxFactor : o'.maxFactor = o.maxFactor
  safetyFactor : o'.safetyFactor = o.safetyFactor
  norm : ∀ {y y' z z' e e'}, V.vec y y' → V.vec z z' → V.dsp e e' → scaledErrorNorm lib y z e o = scaledErrorNorm lib y' z' e' o'

omit [LawfulBEq α] in
theorem SameControl.flip {lib : Lib α} {o o' : VarOptions α} (h : SameControl V lib o o') : SameControl V.flip lib o' o :=
  ⟨h.minFactor.symm, h.maxFactor.symm, h.safetyFactor.symm, fun h1 h2 h3 => (h.norm h1 h2 h3).symm⟩

omit [BEq α] [LawfulBEq α] in
include L in
theorem stepError_rel {s : Nat} {h h' : α} (hh : V.hr h h') {K : Fin (s + 2) → Vec α n} {K' : Fin (s + 2) → Vec α m}
    (hK : ∀ j, V.slp (K j) (K' j)) (E : Fin (s + 2) → α) : V.dsp (stepError h K E) (stepError h' K' E) := by
  unfold stepError
  exact L.hr_slp hh (L.slp_sum _ _ _ hK)

/-- `RungeKutta23`, `RungeKutta45`. -/
def Vars.Lawful.fsal {s d : Nat} (lib : Lib α) {o o' : VarOptions α} (hso : SaneOptions o) (ho : SameControl V lib o o') (c : FsalCoef α s d)
    {rhs : Rhs α n} {rhs' : Rhs α m} (hf : V.RhsRel rhs rhs') {b b' : Bound α} (hb : BoundRel V.tm b b') :
    Corr ⟨Nbkode.fsal lib o c, rhs, b⟩ ⟨Nbkode.fsal lib o' c, rhs', b'⟩ :=
  L.corr hb V.RkSt (fun _ _ h => h.st) varRng (fun h1 h2 => h1.imp (·.trans h2) (·.trans h2)) (fun _ => Or.inr (le_refl _)) (fun h => Or.inl h)
    (fun b => follows_weaken (follows_fsal L lib hso ⟨ho.minFactor, ho.maxFactor, ho.safetyFactor⟩ c.errorExponent c.toTableau
        (norm := fsalErrNorm lib o c.E) (norm' := fsalErrNorm lib o' c.E)
        (fun h h' K K' y y' z z' hh hK hy hz => ho.norm hy hz (stepError_rel L hh hK _)) hf b)
      (fun _ _ h => ⟨h.1, h.2.1⟩) fun _ _ x y h => ⟨h.1, fun u hu => Or.inl (h.2.le.trans hu)⟩)
    (fun b ht hr => follows_rkInterp L c.P ht b hr)

/-- `DOP853`. -/
def Vars.Lawful.dop {lib : Lib α} {o o' : VarOptions α} (hso : SaneOptions o) (ho : SameControl V lib o o') (c : DopCoef α)
    {rhs : Rhs α n} {rhs' : Rhs α m} (hf : V.RhsRel rhs rhs') {b b' : Bound α} (hb : BoundRel V.tm b b') :
    Corr ⟨Nbkode.dop853 lib o c, rhs, b⟩ ⟨Nbkode.dop853 lib o' c, rhs', b'⟩ :=
  L.corr hb V.DopSt (fun _ _ h => h.st) varRng (fun h1 h2 => h1.imp (·.trans h2) (·.trans h2)) (fun _ => Or.inr (le_refl _)) (fun h => Or.inl h)
    (fun b => follows_weaken (follows_fsal L lib hso ⟨ho.minFactor, ho.maxFactor, ho.safetyFactor⟩ c.errorExponent c.toTableau
        (norm := dopErrNorm lib o c.E3 c.E5) (norm' := dopErrNorm lib o' c.E3 c.E5)
        (fun h h' K K' y y' z z' hh hK hy hz => by
          unfold dopErrNorm
          rw [ho.norm hy hz (stepError_rel L hh hK c.E3), ho.norm hy hz (stepError_rel L hh hK c.E5)]
          exact exRel_refl L _) hf b)
      (fun _ _ h => ⟨h.1, h.2.1⟩) fun _ _ x y h => ⟨h.1, fun u hu => Or.inl (h.2.le.trans hu)⟩)
    (fun b ht hr => follows_dopInterp L c.toDopDense hf ht b hr)

end methods
end Nbkode
