import Verif.Spec.World
import Verif.Props.Demo
import Mathlib.Tactic.NormNum

/-!
# A solver among others (C103)
-/

set_option autoImplicit false
set_option linter.unusedSectionVars false

namespace Nbkode
open Spec

section world
variable {α : Type}
variable [Add α] [Sub α] [Mul α] [Div α] [Neg α] [Zero α] [One α] [NatCast α] [BEq α]
variable [LT α] [DecidableLT α] [LE α] [DecidableLE α]
variable {n : Nat} {P : Type}

/-- The parameters a solver reads stay what they are while nobody writes into the array it shares. -/
private def Keeps (held : Held P) (as : List (Act α n P)) : Prop := ∀ a, held = .shared a → LeavesParams a as

private theorem Keeps.tail {held : Held P} {x : Act α n P} {as : List (Act α n P)} (h : Keeps held (x :: as)) :
    Keeps held as := fun a ha b p hb => h a ha b p (List.mem_cons_of_mem _ hb)

private theorem keeps_read {held : Held P} {b : Nat} {p : P} {as : List (Act α n P)} (h : Keeps held (.setP b p :: as))
    (ps : Nat → P) : held.read (Function.update ps b p) = held.read ps := by
  cases held with
  | nothing => rfl
  | own q => rfl
  | shared a =>
    have hb : b ≠ a := h a rfl b p (List.mem_cons_self ..)
    simp [Held.read, Function.update_of_ne (Ne.symm hb)]

private theorem seen_aux (bo : BisectOpts α) (argsort : List α → List Nat) (K : Kind α n) (i : Nat) (q : Option P) :
    ∀ (as : List (Act α n P)) (w w' : World α n P) (L : Live P K), execAll bo argsort as w = some w' → w.live[i]? = some ⟨K, L⟩ →
      L.held.read w.ps = q → Keeps L.held as →
      ∃ (L' : Live P K) (v : Seen α n K.k), w'.live[i]? = some ⟨K, L'⟩ ∧
        transcript ⟨K.method, L.user q, K.tBound⟩ bo argsort (callsOf i as) L.st = some v ∧
        L'.results = L.results ++ v.results ∧ L'.st.cache = v.history ∧ L'.st.h = v.h := by
  intro as
  induction as with
  | nil =>
    intro w w' L hw hL _ _
    obtain rfl : w = w' := by simpa [execAll] using hw
    exact ⟨L, ⟨[], L.st.cache, L.st.h⟩, hL, rfl, by simp, rfl, rfl⟩
  | cons x as ih =>
    intro w w' L hw hL hq hk
    cases x with
    | new K' user t0 a p =>
      simp only [execAll, Act.exec, World.make] at hw
      split at hw
      · simp at hw
      rename_i w1 hm
      split at hm
      · simp at hm
      · obtain rfl : w = w1 := by simpa using hm
        exact ih w w' L hw hL hq hk.tail
      · obtain rfl := by simpa using hm
        refine ih _ w' L hw ?_ hq hk.tail
        have hi : i < w.live.length := by
          by_contra hc
          rw [List.getElem?_eq_none (Nat.le_of_not_lt hc)] at hL
          simp at hL
        simpa [List.getElem?_append_left hi] using hL
    | setY a v =>
      simp only [execAll, Act.exec] at hw
      exact ih _ w' L hw hL hq hk.tail
    | setP b p =>
      simp only [execAll, Act.exec] at hw
      exact ih _ w' L hw hL ((keeps_read hk w.ps).trans hq) hk.tail
    | call j c =>
      by_cases hj : j = i
      · subst hj
        simp only [execAll, Act.exec, hL, Live.call] at hw
        rw [hq] at hw
        simp only [callsOf, if_pos, transcript]
        cases hr : (c.answer ⟨K.method, L.user q, K.tBound⟩ bo argsort).run L.st with
        | none => simp [hr] at hw
        | some rs =>
          obtain ⟨r, s⟩ := rs
          simp only [hr, Option.map_some] at hw
          have hi : j < w.live.length := by
            by_contra hc
            rw [List.getElem?_eq_none (Nat.le_of_not_lt hc)] at hL
            simp at hL
          obtain ⟨L', v, h1, h2, h3, h4, h5⟩ := ih _ w' { L with st := s, results := L.results ++ [r] } hw
            (by simp [hi]) hq hk.tail
          exact ⟨L', { v with results := r :: v.results }, h1, by simp only [] at h2 ⊢; rw [h2]; rfl,
            by simp [h3], h4, h5⟩
      · simp only [callsOf, if_neg hj]
        simp only [execAll, Act.exec] at hw
        cases hlj : w.live[j]? with
        | none => simp only [hlj] at hw; exact ih _ w' L hw hL hq hk.tail
        | some KL =>
          obtain ⟨K', L1⟩ := KL
          simp only [hlj] at hw
          cases hc : L1.call bo argsort w.ps c with
          | none => simp [hc] at hw
          | some L2 =>
            simp only [hc, Option.map_some] at hw
            exact ih _ w' L hw (by simpa [List.getElem?_set_ne hj] using hL) hq hk.tail

/-- **C103** (partial: not for an array of parameters that is written to). In a program that makes solvers, calls them in any
order and writes into its arrays, each solver shows what it would show alone: constructed from the values `y0` and `params` had
at that moment, and used for the calls made of it. Missing: programs that write into the contiguous array they passed as
`params`, for which this is false (`C103_refuted`). -/
theorem C103_alone_partial (bo : BisectOpts α) (argsort : List α → List Nat) (K : Kind α n) (user : UserRhs α n P) (t0 : α)
    (a : Nat) (p : Passed) (later : List (Act α n P)) (w w' : World α n P)
    (hok : ∃ s, K.init (user (Passed.value w.ps p)) t0 (w.ys a) = some (.ok s))
    (hp : ∀ b, p = .contiguous b → LeavesParams b later)
    (h : execAll bo argsort (.new K user t0 a p :: later) w = some w') :
    ∃ v, SeenOf w' w.live.length K v ∧
      Alone bo argsort K user t0 (w.ys a) (Passed.value w.ps p) (callsOf w.live.length later) v := by
  have hv : (p.hold w.ps).read w.ps = Passed.value w.ps p := by cases p <;> rfl
  obtain ⟨s, hs⟩ := hok
  simp only [execAll, Act.exec, World.make, hv, hs] at h
  obtain ⟨L', v, h1, h2, h3, h4, h5⟩ := seen_aux bo argsort K w.live.length (Passed.value w.ps p) later _ w'
    ⟨user, p.hold w.ps, s, []⟩ h (by simp) hv
    (by
      intro b hb
      refine hp b ?_
      cases p <;> simp_all [Passed.hold])
  refine ⟨v, ⟨L', h1, ?_⟩, ?_⟩
  · obtain ⟨r, hh, hs'⟩ := v
    simp only [List.nil_append] at h3 h4 h5
    rw [h3, h4, h5]
  · simp only [] at h2
    simp [Alone, observe, hs, h2]

/-- **C103**. Whatever else the program does, a failed constructor leaves its arrays and its other solvers as they were. -/
theorem C103_failed (bo : BisectOpts α) (argsort : List α → List Nat) (K : Kind α n) (user : UserRhs α n P) (t0 : α)
    (a : Nat) (p : Passed) (w w' : World α n P) (e : Err)
    (he : K.init (user (Passed.value w.ps p)) t0 (w.ys a) = some (.error e))
    (h : Act.exec bo argsort w (.new K user t0 a p) = some w') : w' = w := by
  have hv : (p.hold w.ps).read w.ps = Passed.value w.ps p := by cases p <;> rfl
  simp only [Act.exec, World.make, hv, he, Option.some.injEq] at h
  exact h.symm

end world

/-! ## Concrete cases -/

namespace Demo

/-- `ForwardEuler(…, h=1/2)`. -/
def eulerKind : Kind ℚ 1 :=
  ⟨histExtra 0, Unit, explicitMultistep ForwardEuler, .inf,
    fun rhs t0 y0 => some (solverInit ⟨fun _ => 0, fun _ _ => 0, fun _ _ => 0⟩ () rhs t0 y0 (some (1/2)))⟩

/-- `y' = p`, the slope is the parameter. -/
def slope : UserRhs ℚ 1 ℚ := fun p => pureRhs fun _ _ _ => p.getD 0

/-- Arrays holding `0` and `1`, and no solver yet. -/
def world0 : World ℚ 1 ℚ := ⟨fun _ _ => 0, fun _ => 1, []⟩

/-- A program: a solver for slope `1`; its array of parameters is overwritten by `5`; two steps. -/
def sweep (p : Passed) : List (Act ℚ 1 ℚ) :=
  [.new eulerKind slope 0 0 p, .setP 0 5, .setY 0 fun _ => 9, .call 0 (.step none none), .call 0 (.step none none)]

/-- The state the first solver of a world is in. -/
def firstY (w : World ℚ 1 ℚ) : Option ℚ := w.live[0]?.map fun x => x.2.st.cache.y 0

/-- Some tolerance for events, which these programs do not look for. -/
def anyBo : BisectOpts ℚ := ⟨0, 0, 0⟩

example : (execAll anyBo (fun _ => []) (sweep (.contiguous 0)) world0).map firstY = some (some 3) := by decide +kernel
example : (execAll anyBo (fun _ => []) (sweep (.other 0)) world0).map firstY = some (some 1) := by decide +kernel

/-- `C103_alone_partial` applies to programs that write into both arrays, if `params` was a list. -/
example : ∃ w' v, execAll anyBo (fun _ => []) (sweep (.other 0)) world0 = some w' ∧ SeenOf w' 0 eulerKind v ∧
    Alone anyBo (fun _ => []) eulerKind slope 0 (fun _ => 0) (some 1) [.step none none, .step none none] v := by
  obtain ⟨v, h1, h2⟩ := C103_alone_partial anyBo (fun _ => []) eulerKind slope 0 0 (.other 0)
    [.setP 0 5, .setY 0 fun _ => 9, .call 0 (.step none none), .call 0 (.step none none)] world0 _
    ⟨_, rfl⟩ (by simp) rfl
  exact ⟨_, v, rfl, h1, h2⟩

/-- A constructor that raises. -/
example : ∃ (K : Kind ℚ 1) (e : Err), K.init (slope (some 1)) 0 (fun _ => 0) = some (.error e) ∧
    ∀ w', Act.exec anyBo (fun _ => []) world0 (.new K slope 0 0 (.contiguous 0)) = some w' → w' = world0 :=
  ⟨⟨histExtra 0, Unit, explicitMultistep ForwardEuler, .inf, fun _ _ _ => some (.error .valueError)⟩, .valueError, rfl,
    fun w' h => C103_failed anyBo _ _ slope 0 0 (.contiguous 0) world0 w' .valueError rfl h⟩

end Demo

/-- **C103** is false for a contiguous array of parameters: after `params[:] = 5` a solver constructed with `params` equal to `1`
continues with `5`. On `y' = p`, `y(0) = 0`, two steps of `ForwardEuler` with `h = 1/2` reach `3`; alone the solver would be at
`1`. -/
theorem C103_refuted : ∃ (K : Kind ℚ 1) (user : UserRhs ℚ 1 ℚ) (w w' : World ℚ 1 ℚ) (later : List (Act ℚ 1 ℚ))
    (v v' : Seen ℚ 1 K.k),
    (∃ s, K.init (user (Passed.value w.ps (.contiguous 0))) 0 (w.ys 0) = some (.ok s)) ∧
    execAll .std (fun _ => []) (.new K user 0 0 (.contiguous 0) :: later) w = some w' ∧
    SeenOf w' w.live.length K v ∧
    Alone .std (fun _ => []) K user 0 (w.ys 0) (some (w.ps 0)) (callsOf w.live.length later) v' ∧
    w.ps 0 = 1 ∧ later = [.setP 0 5, .call 0 (.step none none), .call 0 (.step none none)] ∧
    v.history.y = (fun _ => 3) ∧ v'.history.y = fun _ => 1 := by
  refine ⟨Demo.eulerKind, Demo.slope, Demo.world0, _, [.setP 0 5, .call 0 (.step none none), .call 0 (.step none none)], _, _,
    ⟨_, rfl⟩, rfl, ⟨_, rfl, rfl⟩, rfl, rfl, rfl, ?_, ?_⟩
  · decide +kernel
  · decide +kernel

end Nbkode
