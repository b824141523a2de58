import Verif.Proofs.Units
import Verif.Proofs.Rounded
import Verif.Props.EventDemo

/-!
# C112: events in other units

Calling negative what was called positive changes nothing. Multiplying an event function by a number does: it is the same as
dividing the tolerance of the search by that number, because the search stops where the value is small.
-/

set_option autoImplicit false
set_option linter.unusedSectionVars false

namespace Nbkode
open Py Spec Solver

section order
variable {α : Type} [LinearOrder α]
variable [Add α] [Sub α] [Mul α] [Div α] [Neg α] [Zero α] [One α] [NatCast α] [BEq α]
variable {n k : Nat} {X : Type}

/-- Nothing is changed. -/
def Regard.same : Regard α := ⟨id, id, id, id⟩

theorem Regard.fair_same (bo : BisectOpts α) : (Regard.same : Regard α).Fair bo bo :=
  ⟨fun _ => rfl, fun _ => rfl, fun _ => rfl, fun _ => rfl, fun _ _ _ => rfl, fun _ => rfl, fun _ _ => Iff.rfl, fun _ => rfl,
    fun _ _ => rfl, rfl⟩

/-- The sign is changed. -/
def Regard.turned : Regard α := ⟨fun x => -x, fun x => -x, fun d => -d, fun d => -d⟩

theorem le_neg' (hS : SignSymmetric α) (x : α) : 0 ≤ -x ↔ x ≤ 0 := by rw [← hS.neg_le, hS.neg_neg]

theorem lt_neg' (hS : SignSymmetric α) (x : α) : 0 < -x ↔ x < 0 := by rw [← hS.neg_lt, hS.neg_neg]

theorem pySign_neg (hS : SignSymmetric α) (x : α) : pySign (-x) = -pySign x := by
  unfold pySign
  simp only [lt_neg' hS, hS.neg_lt]
  rcases lt_trichotomy x 0 with h | h | h
  · simp [h, h.not_gt]
  · simp [h]
  · simp [h, h.not_gt]

theorem Regard.fair_turned (hS : SignSymmetric α) (bo : BisectOpts α) : (Regard.turned : Regard α).Fair bo bo where
  back_val := hS.neg_neg
  val_back := hS.neg_neg
  dirBack_dir := Int.neg_neg
  dir_dirBack := Int.neg_neg
  triggers d a b := by
    show Nbkode.triggers (-d) (-a) (-b) = _
    unfold Nbkode.triggers
    simp only [hS.neg_le, le_neg' hS]
    rcases lt_trichotomy d 0 with h | h | h
    · simp [h, h.not_gt, h.ne]
    · subst h; simp [Bool.or_comm]
    · simp [h, h.not_gt, h.ne']
  zero := hS.beq_zero
  product a b := by show -a * -b < 0 ↔ _; rw [hS.mul]
  close a := by show isclose (-a) 0 _ _ = _; unfold isclose; rw [hS.abs]
  sign a b := by
    show (pySign (-a) == pySign (-b)) = _
    rw [pySign_neg hS, pySign_neg hS]
    rw [Bool.eq_iff_iff]
    simp
  maxiter := rfl

theorem build_turned (hS : SignSymmetric α) (e : EventSpec α n) (t : α) (y : Vec α n) :
    buildEvent (k := k) (opposite e) t y = Regard.turned.see (buildEvent e t y) := by
  unfold buildEvent opposite Regard.see Regard.turned
  rcases e.direction with _ | d
  · rfl
  · simp only [Option.map_some, pySign_neg hS]

/-- **C112** (partial) Any of the events may be replaced by their opposites, `-g` instead of `g` with the opposite direction:
whatever the call to `run_events` does, with whatever solver in whatever state and at whatever times, it does the same. In exact
arithmetic and with machine numbers. Missing: factors other than `-1`, see the refutation below. -/
theorem C112_opposite_partial (hS : SignSymmetric α) (S : Solver α n k X) (bo : BisectOpts α) (argsort : List α → List Nat)
    (ts : List α) (es es2 : List (EventSpec α n)) (h : List.Forall₂ (fun e e2 => e2 = e ∨ e2 = opposite e) es es2)
    (s : St α n k X) :
    (S.runEvents bo argsort ts (some es2)).run s = (S.runEvents bo argsort ts (some es)).run s := by
  have hvs : ∃ vs : List (Regard α), (∀ v ∈ vs, v.Fair bo bo) ∧ vs.length = es.length ∧ ∀ t y,
      es2.map (fun e => buildEvent (k := k) e t y) = seeAll vs (es.map fun e => buildEvent e t y) := by
    induction h with
    | nil => exact ⟨[], by simp, rfl, fun _ _ => rfl⟩
    | cons h1 _ ih =>
      obtain ⟨vs, g1, g2, g3⟩ := ih
      rcases h1 with rfl | rfl
      · refine ⟨Regard.same :: vs, ?_, by simp [g2], fun t y => ?_⟩
        · intro v hv
          rcases List.mem_cons.mp hv with rfl | hv
          · exact Regard.fair_same bo
          · exact g1 v hv
        · rw [List.map_cons, List.map_cons, g3]; rfl
      · refine ⟨Regard.turned :: vs, ?_, by simp [g2], fun t y => ?_⟩
        · intro v hv
          rcases List.mem_cons.mp hv with rfl | hv
          · exact Regard.fair_turned hS bo
          · exact g1 v hv
        · rw [List.map_cons, List.map_cons, g3, build_turned hS]; rfl
  obtain ⟨vs, g1, g2, g3⟩ := hvs
  exact runEvents_view S argsort ts es es2 vs g1 g2 h.length_eq.symm g3 s

end order

/-- Numbers. -/
theorem signSymmetric_field (α : Type) [Field α] [LinearOrder α] [IsStrictOrderedRing α] [BEq α] [LawfulBEq α] :
    SignSymmetric α where
  neg_neg := _root_.neg_neg
  neg_le x := by simp
  neg_lt x := by simp
  beq_zero x := by rw [Bool.eq_iff_iff]; simp
  mul := neg_mul_neg
  abs x := by
    unfold pyAbs
    simp only [sub_zero]
    rcases lt_trichotomy x 0 with h | h | h
    · simp [h, h.not_gt]
    · simp [h]
    · simp [h, h.not_gt]

/-- Machine numbers. -/
theorem signSymmetric_num (φ : Rounding) [BEq (Num φ)] [LawfulBEq (Num φ)] : SignSymmetric (Num φ) := by
  have hle : ∀ x y : Num φ, x ≤ y ↔ x.val ≤ y.val := fun _ _ => Iff.rfl
  have hlt : ∀ x y : Num φ, x < y ↔ x.val < y.val := fun _ _ => Iff.rfl
  have hext : ∀ x y : Num φ, x.val = y.val → x = y := fun _ _ h => Subtype.ext h
  have hsub : ∀ x : Num φ, x - 0 = x := fun x => hext _ _ (by
    rw [Num.val_sub, Num.val_zero, sub_zero]
    exact φ.round_self _ x.2)
  have hz : ∀ x : Num φ, x = 0 ↔ x.val = 0 := fun x =>
    ⟨fun h => by rw [h, Num.val_zero], fun h => hext _ _ (by rw [h, Num.val_zero])⟩
  refine ⟨fun x => hext _ _ ?_, fun x => ?_, fun x => ?_, fun x => ?_, fun x y => hext _ _ ?_, fun x => ?_⟩
  · rw [Num.val_neg, Num.val_neg, _root_.neg_neg]
  · rw [hle, hle, Num.val_neg, Num.val_zero]; simp
  · rw [hlt, hlt, Num.val_neg, Num.val_zero]; simp
  · rw [Bool.eq_iff_iff]
    simp only [beq_iff_eq, hz, Num.val_neg, neg_eq_zero]
  · rw [Num.val_mul, Num.val_mul, Num.val_neg, Num.val_neg, neg_mul_neg]
  · rw [hsub, hsub]
    unfold pyAbs
    simp only [hlt, Num.val_neg, Num.val_zero]
    rcases lt_trichotomy x.val 0 with h | h | h
    · rw [if_neg (by linarith), if_pos h]
    · rw [if_neg (by linarith), if_neg (by linarith)]
      exact hext _ _ (by rw [Num.val_neg, h, neg_zero])
    · rw [if_pos (by linarith), if_neg (by linarith)]
      exact hext _ _ (by rw [Num.val_neg, Num.val_neg, _root_.neg_neg])

section field
variable {α : Type} [Field α] [LinearOrder α] [IsStrictOrderedRing α] [BEq α] [LawfulBEq α]
variable {n k : Nat} {X : Type}

/-- Values times `c`. -/
def Regard.scaled (c : α) : Regard α := ⟨fun x => c * x, fun x => c⁻¹ * x, id, id⟩

theorem scaled_neg {c : α} (hc : 0 < c) {x : α} : c * x < 0 ↔ x < 0 := by
  rw [← not_le, mul_nonneg_iff_of_pos_left hc, not_le]

theorem pySign_scaled {c : α} (hc : 0 < c) (x : α) : pySign (c * x) = pySign x := by
  unfold pySign
  simp only [mul_pos_iff_of_pos_left hc, scaled_neg hc]

theorem Regard.fair_scaled {c : α} (hc : 0 < c) (bo : BisectOpts α) :
    (Regard.scaled c).Fair { bo with tol := bo.tol / c } bo where
  back_val x := inv_mul_cancel_left₀ hc.ne' x
  val_back x := mul_inv_cancel_left₀ hc.ne' x
  dirBack_dir _ := rfl
  dir_dirBack _ := rfl
  triggers d a b := by
    have h1 : ∀ x, c * x ≤ 0 ↔ x ≤ 0 := fun x => by rw [← not_lt, mul_pos_iff_of_pos_left hc, not_lt]
    have h2 : ∀ x, 0 ≤ c * x ↔ 0 ≤ x := fun x => mul_nonneg_iff_of_pos_left hc
    show Nbkode.triggers d (c * a) (c * b) = _
    unfold Nbkode.triggers
    simp only [h1, h2]
  zero a := by
    show (c * a == 0) = _
    rw [Bool.eq_iff_iff]
    simp [hc.ne']
  product a b := by
    show c * a * (c * b) < 0 ↔ _
    rw [show c * a * (c * b) = c * c * (a * b) by ring, scaled_neg (mul_pos hc hc)]
  close a := by
    show isclose (c * a) 0 bo.tol bo.rtol = isclose a 0 (bo.tol / c) bo.rtol
    have ha : ∀ x : α, pyAbs x = |x| := fun x => by
      unfold pyAbs
      split
      · rw [abs_of_neg ‹_›]
      · rw [abs_of_nonneg (not_lt.mp ‹_›)]
    unfold isclose
    rw [Bool.eq_iff_iff]
    simp only [ha, sub_zero, abs_zero, mul_zero, add_zero, decide_eq_true_iff, abs_mul, abs_of_pos hc]
    rw [le_div_iff₀ hc, mul_comm]
  sign a b := by show (pySign (c * a) == pySign (c * b)) = _; rw [pySign_scaled hc, pySign_scaled hc]
  maxiter := rfl

theorem build_scaled {c : α} (hc : 0 < c) (e : EventSpec α n) (t : α) (y : Vec α n) :
    buildEvent (k := k) (inUnits c e) t y = (Regard.scaled c).see (buildEvent e t y) := by
  unfold buildEvent inUnits Regard.see Regard.scaled
  rcases e.direction with _ | d
  · rfl
  · simp only [Option.map_some, pySign_scaled hc, id]

/-- **C112** (partial) All events multiplied by a positive number `c`: the call does what it would do with the tolerance of the
search divided by `c`. Missing: the tolerance cannot be set by the user, so the factor is seen in the answer. -/
theorem C112_units_partial {c : α} (hc : 0 < c) (S : Solver α n k X) (bo : BisectOpts α) (argsort : List α → List Nat)
    (ts : List α) (es : List (EventSpec α n)) (s : St α n k X) :
    (S.runEvents bo argsort ts (some (es.map (inUnits c)))).run s =
      (S.runEvents { bo with tol := bo.tol / c } argsort ts (some es)).run s := by
  refine runEvents_view S argsort ts es _ (List.replicate es.length (Regard.scaled c)) ?_ (by simp) (by simp) ?_ s
  · intro v hv
    rw [List.eq_of_mem_replicate hv]
    exact Regard.fair_scaled hc bo
  · intro t y
    induction es with
    | nil => rfl
    | cons e es ih =>
      rw [List.map_cons, List.map_cons, ih, build_scaled hc]
      rfl

end field

open Demo

/-- **C112, refuted** Forward Euler with step `1/2` on `y' = y`, `run_events([1])` with the terminal event `t - 1/8`: the run ends
at `1/8`. With `10⁻⁸ (t - 1/8)` it ends at `1/4`, the middle of the step. -/
theorem C112_refuted (argsort : List ℚ → List Nat) : ∃ o s' o2 s2,
    ((euler .inf).runEvents BisectOpts.std argsort [1] (some [atTime (1/8) true])).run s0 = some (.ok o, s') ∧
    ((euler .inf).runEvents BisectOpts.std argsort [1] (some [inUnits (1 / 10 ^ 8) (atTime (1/8) true)])).run s0 =
      some (.ok o2, s2) ∧
    o.out.map Prod.fst = [1/8] ∧ o.tEvents = [[1/8]] ∧ o2.out.map Prod.fst = [1/4] ∧ o2.tEvents = [[1/4]] := by
  have key : okAnd (runEvFuel (euler .inf) BisectOpts.std .inf 10 [1] (buildHandler [atTime (1/8) true] s0.t s0.y) s0)
      (fun p _ => decide (p.2.map Prod.fst = [1/8]) && decide (p.1.events.map (fun e => e.t) = [[1/8]])) = true := by
    decide +kernel
  have key2 : okAnd (runEvFuel (euler .inf) BisectOpts.std .inf 10 [1]
      (buildHandler [inUnits (1 / 10 ^ 8) (atTime (1/8) true)] s0.t s0.y) s0)
      (fun p _ => decide (p.2.map Prod.fst = [1/4]) && decide (p.1.events.map (fun e => e.t) = [[1/4]])) = true := by
    decide +kernel
  obtain ⟨p, s1, h1, h2⟩ := of_okAnd key
  obtain ⟨p2, s2, g1, g2⟩ := of_okAnd key2
  simp only [Bool.and_eq_true, decide_eq_true_iff] at h2 g2
  exact ⟨_, s1, _, s2, euler_events (by norm_num) (by simp) (by norm_num) (by simp) argsort h1,
    euler_events (by norm_num) (by simp) (by norm_num) (by simp) argsort g1, h2.1, h2.2, g2.1, g2.2⟩

-- C112: the first run of the refutation with the sign of the event function changed.
example (argsort : List ℚ → List Nat) : ∃ o s',
    ((euler .inf).runEvents BisectOpts.std argsort [1] (some [opposite (atTime (1/8) true)])).run s0 = some (.ok o, s') ∧
      o.out.map Prod.fst = [1/8] ∧ o.tEvents = [[1/8]] := by
  obtain ⟨o, s', -, -, h1, -, h2, h3, -⟩ := C112_refuted argsort
  refine ⟨o, s', ?_, h2, h3⟩
  rw [C112_opposite_partial (signSymmetric_field ℚ) (euler .inf) BisectOpts.std argsort [1] [atTime (1/8) true] _
    (.cons (Or.inr rfl) .nil) s0]
  exact h1

-- C112: machine numbers.
noncomputable example (φ : Rounding) [BEq (Num φ)] [LawfulBEq (Num φ)] {n k : Nat} {X : Type} (S : Solver (Num φ) n k X)
    (bo : BisectOpts (Num φ)) (argsort : List (Num φ) → List Nat) (ts : List (Num φ)) (e : EventSpec (Num φ) n)
    (s : St (Num φ) n k X) :
    (S.runEvents bo argsort ts (some [opposite e])).run s = (S.runEvents bo argsort ts (some [e])).run s :=
  C112_opposite_partial (signSymmetric_num φ) S bo argsort ts [e] _ (.cons (Or.inr rfl) .nil) s

-- C112: the second run of the refutation is the first one with the tolerance times `10⁸`.
example (argsort : List ℚ → List Nat) : ∃ o s',
    ((euler .inf).runEvents { (BisectOpts.std : BisectOpts ℚ) with tol := 148 / 100 } argsort [1]
      (some [atTime (1/8) true])).run s0 = some (.ok o, s') ∧ o.tEvents = [[1/4]] := by
  obtain ⟨-, -, o2, s2, -, h1, -, -, -, h2⟩ := C112_refuted argsort
  refine ⟨o2, s2, ?_, h2⟩
  have := C112_units_partial (c := (1 / 10 ^ 8 : ℚ)) (by norm_num) (euler .inf) BisectOpts.std argsort [1] [atTime (1/8) true] s0
  rw [List.map_cons, List.map_nil, h1] at this
  rw [this]
  have e : (BisectOpts.std : BisectOpts ℚ).tol / (1 / 10 ^ 8) = 148 / 100 := by
    unfold BisectOpts.std
    norm_num
  rw [e]

end Nbkode
