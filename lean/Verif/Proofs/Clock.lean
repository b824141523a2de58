import Verif.Spec.Clock
import Verif.Props.Uninitialised
import Verif.Props.Change
import Verif.Props.History
import Verif.Proofs.StepApi

/-! Two right-hand sides that differ only where the state's clock is wrong. -/

set_option autoImplicit false
set_option linter.unusedSectionVars false

namespace Nbkode
open Py Spec Solver

section field
variable {α : Type} [Field α] [LinearOrder α] [IsStrictOrderedRing α] [BEq α] [LawfulBEq α]
variable {n k s : Nat} {X : Type}

open Unchanged in
/-- Solvers with the same method that do the same from states with an invariant. -/
def sameCorr {M : Method α n k X} {rhs rhs' : Rhs α n} {b : Bound α} (I : St α n k X → Prop)
    (hbody : ∀ x, I x → (M.body rhs).run x = (M.body rhs').run x ∧ ∀ r x', (M.body rhs).run x = some (r, x') → I x')
    (hint : ∀ x t, I x → (M.interp rhs t).run x = (M.interp rhs' t).run x ∧
      ∀ r x', (M.interp rhs t).run x = some (r, x') → I x' ∧ x'.cache = x.cache) : Corr ⟨M, rhs, b⟩ ⟨M, rhs', b⟩ where
  __ := (lawful (α := α) (n := n)).corr (S := ⟨M, rhs, b⟩) (S' := ⟨M, rhs', b⟩) (boundRel b) (fun x y => x = y ∧ I x)
    (by
      rintro x _ ⟨rfl, -⟩
      exact ⟨⟨fun _ => (time _).symm, fun _ => (state _).symm, fun _ => (Unchanged.slope _).symm⟩, (one_mul _).symm⟩)
    (fun _ _ => True) (fun _ _ => trivial) (fun _ => trivial) (fun _ => trivial)
    (by
      intro c
      rintro x _ ⟨⟨rfl, hI⟩, rfl, hb⟩ r x' hr
      obtain ⟨e, hI'⟩ := hbody x hI
      have hI' := hI' r x' hr
      refine ⟨r, x', e.symm.trans hr, ?_, fun _ => ⟨rfl, hI'⟩⟩
      cases r with
      | error e => exact rfl
      | ok u => exact ⟨⟨rfl, hI'⟩, fun _ _ => trivial⟩)
    (by
      intro t t' c ht _
      rintro x _ ⟨⟨rfl, hI⟩, rfl⟩ r x' hr
      obtain rfl : t' = t := by rw [show t' = _ from ht, time]
      obtain ⟨e, hI'⟩ := hint x t' hI
      obtain ⟨hI', h1⟩ := hI' r x' hr
      refine ⟨r, x', e.symm.trans hr, ?_, fun _ => ⟨rfl, hI'⟩⟩
      cases r with
      | error e => exact rfl
      | ok u =>
        refine ⟨?_, ⟨rfl, hI'⟩, h1⟩
        cases u with
        | own v => exact (state v).symm
        | row i => exact rfl)

open Unchanged in
theorem same_observe {M : Method α n k X} {rhs rhs' : Rhs α n} {b : Bound α} (I : St α n k X → Prop)
    (hbody : ∀ x, I x → (M.body rhs).run x = (M.body rhs').run x ∧ ∀ r x', (M.body rhs).run x = some (r, x') → I x')
    (hint : ∀ x t, I x → (M.interp rhs t).run x = (M.interp rhs' t).run x ∧
      ∀ r x', (M.interp rhs t).run x = some (r, x') → I x' ∧ x'.cache = x.cache)
    (bo : BisectOpts α) (argsort : List α → List Nat) (hA : ∀ l, IsArgsort l (argsort l)) (cs : List (Call α n))
    {i i' : Option (Except Err (St α n k X))} (he : i = i') (hi : ∀ x, i = some (.ok x) → I x) :
    observe ⟨M, rhs, b⟩ bo argsort cs i = observe ⟨M, rhs', b⟩ bo argsort cs i' := by
  subst he
  let D := sameCorr (b := b) I hbody hint
  let E := sameCorr (b := b) (rhs := rhs') (rhs' := rhs) I (fun x hx => ⟨(hbody x hx).1.symm, fun r x' h => (hbody x hx).2 r x' ((hbody x hx).1.trans h)⟩)
    fun x t hx => ⟨(hint x t hx).1.symm, fun r x' h => (hint x t hx).2 r x' ((hint x t hx).1.trans h)⟩
  have e1 : E.tm = (Change.clock n (1 : α) 0).vars.flip.tm := by
    funext u v
    show (v = (Change.clock n (1 : α) 0).time u) = (u = (Change.clock n (1 : α) 0).time v)
    rw [time, time]
    exact propext eq_comm
  have e2 : E.vec = (Change.clock n (1 : α) 0).vars.flip.vec := by
    funext u v
    show (v = (Change.clock n (1 : α) 0).state u) = (u = (Change.clock n (1 : α) 0).state v)
    rw [state, state]
    exact propext eq_comm
  have := Change.seen_of_same (S := ⟨M, rhs, b⟩) (S' := ⟨M, rhs', b⟩) (Change.clock n (1 : α) 0) (o := observe ⟨M, rhs, b⟩ bo argsort cs i)
    (o' := observe ⟨M, rhs', b⟩ bo argsort cs i) ⟨D, rfl, rfl, observe_rel lawful D E rfl rfl e1 e2 (by
      rintro x _ ⟨rfl, -⟩
      exact ⟨⟨fun _ => (time _).symm, fun _ => (state _).symm, fun _ => (Unchanged.slope _).symm⟩, (one_mul _).symm⟩) bo
      (Unchanged.argsort argsort) hA (Change.calls _ (Unchanged.calls cs) D rfl rfl) (by
        rcases i with _ | (e | x)
        · trivial
        · exact rfl
        · exact ⟨⟨rfl, hi x rfl⟩, ⟨rfl, hi x rfl⟩⟩)⟩
  rw [map_seen] at this
  exact this.symm

/-- The component `d` of the states is a clock: the right-hand sides agree where it shows the time, and it runs at unit speed. -/
structure Agree (d : Fin n) (rhs rhs' : Rhs α n) : Prop where
  same : ∀ t z, z d = t → rhs t z = rhs' t z
  unit : ∀ t z f, rhs t z = .ok f → f d = 1
  unit' : ∀ t z f, rhs' t z = .ok f → f d = 1

theorem Agree.symm {d : Fin n} {rhs rhs' : Rhs α n} (h : Agree d rhs rhs') : Agree d rhs' rhs :=
  ⟨fun t z e => (h.same t z e).symm, h.unit', h.unit⟩

/-- The clock shows the recorded times. -/
structure Ticks (d : Fin n) (b : Buffer α n k) : Prop where
  ys : ∀ i, b.ys i d = b.ts i
  fs : ∀ i, b.fs i d = 1

omit [LinearOrder α] [IsStrictOrderedRing α] [BEq α] [LawfulBEq α] in
theorem Ticks.push {d : Fin n} {b : Buffer α n k} (hb : Ticks d b) {t : α} {y f : Vec α n} (hy : y d = t) (hf : f d = 1) :
    Ticks d (b.push t y f) := by
  constructor <;> intro i <;> simp only [Buffer.push, shiftIn] <;> split
  · exact hb.ys _
  · exact hy
  · exact hb.fs _
  · exact hf

omit [LinearOrder α] [IsStrictOrderedRing α] [BEq α] [LawfulBEq α] in
theorem Ticks.pushN {d : Fin n} {b : Buffer α n k} (hb : Ticks d b) {t : α} {y f : Vec α n} (hy : y d = t) (hf : f d = 1) (m : Nat) :
    Ticks d (b.pushN t y f m) := by
  induction m with
  | zero => exact hb
  | succ m ih => exact ih.push hy hf

theorem ticks_init {d : Fin n} (g : Buffer α n k) {t : α} {y f : Vec α n} (hy : y d = t) (hf : f d = 1) : Ticks d (Buffer.init g t y f) :=
  ⟨fun i => by rw [init_ys, init_ts]; exact hy, fun i => by rw [init_fs]; exact hf⟩

/-- A stage is evaluated where the clock shows its time. -/
theorem stage_clock {r : Nat} (hm : s + 1 ≤ r) {T : Tableau α s} (hT : KeepsTime T) {d : Fin n} {K : Fin r → Vec α n} {i : Fin (s + 1)}
    (hK : ∀ j : Fin r, j.val < i.val → K j d = 1) {t h : α} {y : Vec α n} (hy : y d = t) :
    (y + scale h (rowDot hm T.A K i)) d = t + h * T.C i := by
  show y d + h * rowDot hm T.A K i d = _
  rw [hy, rowDot_apply hm T.A hT.explicit, ← hT.rows]
  congr 2
  refine Finset.sum_congr rfl fun j _ => ?_
  by_cases h : i ≤ j
  · rw [hT.explicit i j h, zero_mul]
  · rw [hK (Fin.castLE hm j) (by simpa using h), mul_one]

theorem stageLoop_clock {r : Nat} (hm : s + 1 ≤ r) {T : Tableau α s} (hT : KeepsTime T) {d : Fin n} {rhs rhs' : Rhs α n}
    (hf : Agree d rhs rhs') {t h : α} {y : Vec α n} (hy : y d = t) : ∀ (m q : Nat), q + m = s + 1 → ∀ K : Fin r → Vec α n,
      (∀ j : Fin r, j.val < q → K j d = 1) →
      (stageLoop hm T rhs t h y ((List.finRange (s + 1)).drop q)).run K = (stageLoop hm T rhs' t h y ((List.finRange (s + 1)).drop q)).run K ∧
      ∀ K', (stageLoop hm T rhs t h y ((List.finRange (s + 1)).drop q)).run K = some (.ok (), K') → ∀ j : Fin r, j.val < s + 1 → K' j d = 1 := by
  intro m
  induction m with
  | zero =>
    intro q hq K hK
    rw [List.drop_of_length_le (by simp; omega)]
    refine ⟨rfl, ?_⟩
    intro K' h j hj
    simp only [stageLoop, run_pure, Option.some.injEq, Prod.mk.injEq] at h
    rw [← h.2]
    exact hK j (by omega)
  | succ m ih =>
    intro q hq K hK
    have hlt : q < (List.finRange (s + 1)).length := by simp; omega
    rw [List.drop_eq_getElem_cons hlt]
    have hv : ((List.finRange (s + 1))[q]).val = q := by simp
    generalize (List.finRange (s + 1))[q] = i at hv
    simp only [stageLoop, run_bind, run_get, andThen_ok, run_ofExcept, run_modify]
    have e := hf.same (t + h * T.C i) _ (stage_clock hm hT (K := K) (i := i) (fun j hj => hK j (by omega)) (h := h) hy)
    rw [← e]
    cases e1 : rhs (t + h * T.C i) (y + scale h (rowDot hm T.A K i)) with
    | error e' => exact ⟨rfl, fun K' h => by cases h⟩
    | ok f =>
      simp only [andThen_ok]
      refine ih (q + 1) (by omega) _ fun j hj => ?_
      by_cases hji : j = Fin.castLE hm i
      · rw [hji, Function.update_self]
        exact hf.unit _ _ _ e1
      · rw [Function.update_of_ne hji]
        refine hK j ?_
        have : j.val ≠ i.val := fun h => hji (Fin.ext h)
        omega

theorem erk_clock {T : Tableau α s} (hT : KeepsTime T) {d : Fin n} {rhs rhs' : Rhs α n} (hf : Agree d rhs rhs') (x : St α n 0 (ErkAux α n s))
    (hx : Ticks d x.cache) : ((erk T).body rhs).run x = ((erk T).body rhs').run x ∧
      ∀ r x', ((erk T).body rhs).run x = some (r, x') → Ticks d x'.cache := by
  show (erkBody T rhs).run x = (erkBody T rhs').run x ∧ ∀ r x', (erkBody T rhs).run x = some (r, x') → Ticks d x'.cache
  have hy : x.y d = x.t := hx.ys _
  obtain ⟨r, K', hK⟩ := stages_total (m := s + 1) (le_refl _) T rhs x.t x.h x.y x.f x.aux
  have key : (stages (le_refl _) T rhs x.t x.h x.y x.f).run x.aux = (stages (le_refl _) T rhs' x.t x.h x.y x.f).run x.aux ∧
      ∀ K', (stages (le_refl _) T rhs x.t x.h x.y x.f).run x.aux = some (.ok (), K') → ∀ j, K' j d = 1 := by
    unfold stages
    simp only [run_bind, run_modify, andThen_ok]
    rw [show (List.finRange (s + 1)).tail = (List.finRange (s + 1)).drop 1 by simp]
    obtain ⟨h1, h2⟩ := stageLoop_clock (r := s + 1) (le_refl _) hT hf (h := x.h) hy s 1 (by omega)
      (Function.update x.aux (Fin.castLE (le_refl _) 0) x.f) (by
        intro j hj
        obtain rfl : j = Fin.castLE (le_refl _) 0 := Fin.ext (Nat.lt_one_iff.1 hj)
        rw [Function.update_self]
        exact hx.fs _)
    exact ⟨h1, fun K' h j => h2 K' h j j.isLt⟩
  rw [erkBody_run T rhs x hK, erkBody_run T rhs' x (key.1 ▸ hK)]
  cases r with
  | error e => exact ⟨rfl, fun r x' h => by cases h; exact hx⟩
  | ok u =>
    have hK1 := key.2 K' hK
    have hyn : (x.y + vdot (fun j => x.h * T.B j) K') d = x.t + x.h := by
      show x.y d + vdot (fun j => x.h * T.B j) K' d = _
      rw [hy, vdot_apply]
      simp only [hK1, mul_one]
      rw [← Finset.mul_sum, hT.weights, mul_one]
    dsimp only
    rw [← hf.same _ _ hyn]
    cases e : rhs (x.t + x.h) (x.y + vdot (fun j => x.h * T.B j) K') with
    | error e => exact ⟨rfl, fun r x' h => by cases h; exact hx⟩
    | ok f => exact ⟨rfl, fun r x' h => by cases h; exact hx.push hyn (hf.unit _ _ _ e)⟩

theorem explicit_clock {p : Nat} {c : MultistepCoef α p} (hA : c.A = adamsA p) (hB : ∑ j, c.B j = 1) {d : Fin n} {rhs rhs' : Rhs α n}
    (hf : Agree d rhs rhs') (x : St α n (histExtra p) Unit) (hx : Ticks d x.cache) :
    ((explicitMultistep c).body rhs).run x = ((explicitMultistep c).body rhs').run x ∧
      ∀ r x', ((explicitMultistep c).body rhs).run x = some (r, x') → Ticks d x'.cache := by
  show (explicitMultistepBody c rhs).run x = (explicitMultistepBody c rhs').run x ∧
    ∀ r x', (explicitMultistepBody c rhs).run x = some (r, x') → Ticks d x'.cache
  have hyn : multistepK c x.cache x.h d = x.t + x.h := by
    show vdot (fun j => x.h * c.B j) (lastRows x.cache.fs) d - vdot c.A (lastRows x.cache.ys) d = _
    rw [vdot_apply, vdot_apply]
    have e1 : ∀ j, lastRows (p := p) x.cache.fs j d = 1 := fun j => hx.fs _
    simp only [e1, mul_one]
    rw [← Finset.mul_sum, hB, mul_one, hA, Finset.sum_eq_single (Fin.last p)]
    · have : lastRows (p := p) x.cache.ys (Fin.last p) = x.y := by
        show x.cache.ys _ = x.cache.ys _
        congr 1
        apply Fin.ext
        simp only [Fin.val_last, Buffer.iLast, histExtra]
        omega
      rw [this]
      have : x.y d = x.t := hx.ys _
      rw [this]
      simp [adamsA]
      ring
    · intro j _ hj
      have : j.val ≠ p := fun h => hj (Fin.ext h)
      simp [adamsA, this]
    · simp
  rw [explicitMultistepBody_run, explicitMultistepBody_run, ← hf.same _ _ hyn]
  cases e : rhs (x.t + x.h) (multistepK c x.cache x.h) with
  | error e => exact ⟨rfl, fun r x' h => by cases h; exact hx⟩
  | ok f => exact ⟨rfl, fun r x' h => by cases h; exact hx.push hyn (hf.unit _ _ _ e)⟩

end field
end Nbkode
