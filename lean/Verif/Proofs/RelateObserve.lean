import Verif.Proofs.RelateInit

/-! Two solvers seen side by side from their construction on. -/

set_option autoImplicit false
set_option linter.unusedSectionVars false

namespace Nbkode
open Py Spec Solver

section observe
variable {α : Type} [Field α] [LinearOrder α] [IsStrictOrderedRing α] [BEq α] [LawfulBEq α]
variable {n m k : Nat} {X Y : Type} {V : Vars α n m}

theorem Corr.OptRel.mono {A B : Type} {Q Q' : A → B → Prop} (h : ∀ a b, Q a b → Q' a b) {x : Option A} {y : Option B} (hx : Corr.OptRel Q x y) :
    Corr.OptRel Q' x y := by
  cases x <;> cases y <;> first | exact hx | exact h _ _ hx

omit [Field α] [LinearOrder α] [IsStrictOrderedRing α] [BEq α] [LawfulBEq α] in
theorem boundRel_flip {tm : α → α → Prop} {b b' : Bound α} (h : BoundRel tm b b') : BoundRel (fun x y => tm y x) b' b := by
  cases b <;> cases b' <;> exact h

/-- What is seen of the two solvers is related. -/
def Vars.Same (V : Vars α n m) (S : Solver α n k X) (S' : Solver α m k Y) (o : Option (Except Err (Seen α n k)))
    (o' : Option (Except Err (Seen α m k))) : Prop :=
  ∃ D : Corr S S', D.tm = V.tm ∧ D.vec = V.vec ∧
    Corr.OptRel (ExRel fun v v' => List.Forall₂ (ExRel D.AnsRel) v.results v'.results ∧ V.Hist v.history v'.history ∧ V.hr v.h v'.h) o o'

/-- The calls of two solvers are related. -/
def Vars.Calls (V : Vars α n m) (S : Solver α n k X) (S' : Solver α m k Y) (cs : List (Call α n)) (cs' : List (Call α m)) : Prop :=
  ∀ D : Corr S S', D.tm = V.tm → D.vec = V.vec → List.Forall₂ D.CallRel cs cs'

variable (L : V.Lawful) (bo : BisectOpts α) {argsort : List α → List Nat} (ha : ∀ l l', List.Forall₂ V.tm l l' → argsort l = argsort l')
  (hA : ∀ l, IsArgsort l (argsort l)) {rhs : Rhs α n} {rhs' : Rhs α m} (hf : V.RhsRel rhs rhs') {b b' : Bound α} (hb : BoundRel V.tm b b')
  {t t' : α} {y : Vec α n} {y' : Vec α m} (ht : V.tm t t') (hy : V.vec y y') {cs : List (Call α n)} {cs' : List (Call α m)}
include L ha hA hf hb ht hy

theorem same_erk {s : Nat} (T : Tableau α s) (hc : V.Calls ⟨erk T, rhs, b⟩ ⟨erk T, rhs', b'⟩ cs cs') (g : Buffer α n 0) (g' : Buffer α m 0)
    (K : ErkAux α n s) (K' : ErkAux α m s) {h h' : Option α} (hh : V.hr (h.getD 1) (h'.getD 1)) :
    V.Same ⟨erk T, rhs, b⟩ ⟨erk T, rhs', b'⟩ (observe ⟨erk T, rhs, b⟩ bo argsort cs (some (erkInit g K rhs t y h)))
      (observe ⟨erk T, rhs', b'⟩ bo argsort cs' (some (erkInit g' K' rhs' t' y' h'))) := by
  let D := L.erk T hf hb
  refine ⟨D, rfl, rfl, observe_rel L D (L.flip.erk T hf.flip (boundRel_flip hb)) rfl rfl rfl rfl (fun _ _ h => h) bo ha hA (hc D rfl rfl) ?_⟩
  exact exRel_mono (fun x y h => ⟨h.1, h.1.flip⟩) (solverInit_rel L g g' K K' hf ht hy hh)

/-- Multistep methods, explicit or implicit. -/
theorem same_multistep {p : Nat} {Me : Method α n (histExtra p) Unit} {Me' : Method α m (histExtra p) Unit}
    (hbody : Follows V.StRel (fun _ _ => V.StRel) V.StRel (Me.body rhs) (Me'.body rhs'))
    (hbody' : Follows V.flip.StRel (fun _ _ => V.flip.StRel) V.flip.StRel (Me'.body rhs') (Me.body rhs))
    (hi : ∀ rhs t, Me.interp rhs t = hermiteInterp t) (hi' : ∀ rhs t, Me'.interp rhs t = hermiteInterp t)
    (hc : V.Calls ⟨Me, rhs, b⟩ ⟨Me', rhs', b'⟩ cs cs') (g : Buffer α n (histExtra p)) (g' : Buffer α m (histExtra p))
    {h h' : Option α} (hh : V.hr (h.getD 1) (h'.getD 1)) {str : Starter α n} {str' : Starter α m}
    (hs : StarterRel V rhs rhs' p t t' y y' (h.getD 1) (h'.getD 1) str str') :
    V.Same ⟨Me, rhs, b⟩ ⟨Me', rhs', b'⟩ (observe ⟨Me, rhs, b⟩ bo argsort cs (multistepInit g bo argsort str rhs t y h))
      (observe ⟨Me', rhs', b'⟩ bo argsort cs' (multistepInit g' bo argsort str' rhs' t' y' h')) := by
  let D := L.hermite (S := ⟨Me, rhs, b⟩) (S' := ⟨Me', rhs', b'⟩) hb hbody (fun _ => hi _ _) fun _ => hi' _ _
  let E := L.flip.hermite (S := ⟨Me', rhs', b'⟩) (S' := ⟨Me, rhs, b⟩) (boundRel_flip hb) hbody' (fun _ => hi' _ _) fun _ => hi _ _
  refine ⟨D, rfl, rfl, observe_rel L D E rfl rfl rfl rfl (fun _ _ h => h) bo ha hA (hc D rfl rfl) ?_⟩
  exact Corr.OptRel.mono (fun x y h => exRel_mono (fun x y h => ⟨h, h.flip⟩) h) (multistepInit_rel L g g' bo ha hA hf ht hy hh hs)

omit ha hA hb in
/-- Starting with steps of a fixed-step Runge-Kutta method, whatever its uninitialised memory holds. -/
theorem starterRel_erk {p s : Nat} (T : Tableau α s) (g : Buffer α n 0) (g' : Buffer α m 0) (K : ErkAux α n s) (K' : ErkAux α m s)
    {h h' : α} (hh : V.hr h h') :
    StarterRel V rhs rhs' p t t' y y' h h' (.fixed (erk T) fun rhs t y h => erkInit g K rhs t y h)
      (.fixed (erk T) fun rhs t y h => erkInit g' K' rhs t y h) := by
  refine .fixed (L.erk T hf (b := .inf) (b' := .inf) trivial) (L.flip.erk T hf.flip (b := .inf) (b' := .inf) trivial) (fun _ _ h => h)
    (fun _ _ h => h) ?_
  exact exRel_mono (fun x y h => ⟨h.1, h.1.flip⟩) (solverInit_rel L g g' K K' hf ht hy (h := some h) (h' := some h') hh)

theorem same_explicit {p : Nat} (cf : MultistepCoef α p) (hcf : ∑ j, cf.A j = -1)
    (hc : V.Calls ⟨explicitMultistep cf, rhs, b⟩ ⟨explicitMultistep cf, rhs', b'⟩ cs cs') (g : Buffer α n (histExtra p))
    (g' : Buffer α m (histExtra p)) {h h' : Option α} (hh : V.hr (h.getD 1) (h'.getD 1)) {str : Starter α n} {str' : Starter α m}
    (hs : StarterRel V rhs rhs' p t t' y y' (h.getD 1) (h'.getD 1) str str') :
    V.Same ⟨explicitMultistep cf, rhs, b⟩ ⟨explicitMultistep cf, rhs', b'⟩
      (observe ⟨explicitMultistep cf, rhs, b⟩ bo argsort cs (multistepInit g bo argsort str rhs t y h))
      (observe ⟨explicitMultistep cf, rhs', b'⟩ bo argsort cs' (multistepInit g' bo argsort str' rhs' t' y' h')) :=
  same_multistep L bo ha hA hf hb ht hy (follows_explicit L cf hcf hf) (follows_explicit L.flip cf hcf hf.flip)
    (fun _ _ => rfl) (fun _ _ => rfl) hc g g' hh hs

variable {lib : Lib α} {o o' : VarOptions α} (ho : SaneOptions o) (ho' : SaneOptions o') (hS : SameControl V lib o o')
  (h1 : o'.maxStep = o.maxStep) (h2 : o.atol < 0 ↔ o'.atol < 0) {sel : Rhs α n → α → Vec α n → Vec α n → Except Err α}
  {sel' : Rhs α m → α → Vec α m → Vec α m → Except Err α} {h h' first first' : Option α} (hh : V.hr (h.getD 1) (h'.getD 1))
  (hfirst : Corr.OptRel (fun a b => V.hr a b ∧ 0 < a) first first' ∧
      (first = none → ∀ f f', V.slp f f' → ExRel (fun a b => V.hr a b ∧ 0 < a) (sel rhs t y f) (sel' rhs' t' y' f')))
include ho ho' hS h1 h2 hh hfirst

theorem same_fsal {s d : Nat} (cf : FsalCoef α s d) (hc : V.Calls ⟨fsal lib o cf, rhs, b⟩ ⟨fsal lib o' cf, rhs', b'⟩ cs cs')
    (g : Buffer α n 0) (g' : Buffer α m 0) (K : Fin (s + 2) → Vec α n) (K' : Fin (s + 2) → Vec α m) (I : RkItp α n d) (I' : RkItp α m d) :
    V.Same ⟨fsal lib o cf, rhs, b⟩ ⟨fsal lib o' cf, rhs', b'⟩
      (observe ⟨fsal lib o cf, rhs, b⟩ bo argsort cs (some (fsalInit cf.P o sel g K I rhs t y h first)))
      (observe ⟨fsal lib o' cf, rhs', b'⟩ bo argsort cs' (some (fsalInit cf.P o' sel' g' K' I' rhs' t' y' h' first'))) := by
  let D := L.fsal lib ho hS cf hf hb
  refine ⟨D, rfl, rfl, observe_rel L D (L.flip.fsal lib ho' hS.flip cf hf.flip (boundRel_flip hb)) rfl rfl rfl rfl (fun _ _ h => h.st) bo ha hA
    (hc D rfl rfl) ?_⟩
  exact exRel_mono (fun x y h => ⟨h, h.flip L⟩) (fsalInit_rel L cf.P h1 h2 g g' K K' I I' hf ht hy hh hfirst)

theorem same_dop (cf : DopCoef α) (hc : V.Calls ⟨dop853 lib o cf, rhs, b⟩ ⟨dop853 lib o' cf, rhs', b'⟩ cs cs')
    (g : Buffer α n 0) (g' : Buffer α m 0) (K : Fin 13 → Vec α n) (K' : Fin 13 → Vec α m) (I : DopItp α n) (I' : DopItp α m) :
    V.Same ⟨dop853 lib o cf, rhs, b⟩ ⟨dop853 lib o' cf, rhs', b'⟩
      (observe ⟨dop853 lib o cf, rhs, b⟩ bo argsort cs (some (dopInit cf.toDopDense o sel g K I rhs t y h first)))
      (observe ⟨dop853 lib o' cf, rhs', b'⟩ bo argsort cs' (some (dopInit cf.toDopDense o' sel' g' K' I' rhs' t' y' h' first'))) := by
  let D := L.dop ho hS cf hf hb
  refine ⟨D, rfl, rfl, observe_rel L D (L.flip.dop ho' hS.flip cf hf.flip (boundRel_flip hb)) rfl rfl rfl rfl (fun _ _ h => h.st) bo ha hA
    (hc D rfl rfl) ?_⟩
  exact exRel_mono (fun x y h => ⟨h, h.flip L⟩) (dopInit_rel L cf.toDopDense h1 h2 g g' K K' I I' hf ht hy hh hfirst)

omit ha hA hb in
/-- Starting with a call of `run` of a variable-step solver, whatever its uninitialised memory holds. -/
theorem starterRel_fsal {s d p : Nat} (cf : FsalCoef α s d) (g : Buffer α n 0) (g' : Buffer α m 0) (K : Fin (s + 2) → Vec α n)
    (K' : Fin (s + 2) → Vec α m) (I : RkItp α n d) (I' : RkItp α m d) {w w' : α}
    (htimes : List.Forall₂ V.tm (startTimes p w) (startTimes p w')) :
    StarterRel V rhs rhs' p t t' y y' w w' (.variable (fsal lib o cf) fun rhs t y => fsalInit cf.P o sel g K I rhs t y h first)
      (.variable (fsal lib o' cf) fun rhs t y => fsalInit cf.P o' sel' g' K' I' rhs t y h' first') := by
  refine .var (L.fsal lib ho hS cf hf (b := .inf) (b' := .inf) trivial) (L.flip.fsal lib ho' hS.flip cf hf.flip (b := .inf) (b' := .inf) trivial)
    rfl rfl rfl rfl ?_ htimes
  exact exRel_mono (fun x y h => ⟨h, h.flip L⟩) (fsalInit_rel L cf.P h1 h2 g g' K K' I I' hf ht hy hh hfirst)

end observe
end Nbkode
