import Verif.Props.Watching

/-!
# Where a run leaves the solver (C79)
-/

set_option autoImplicit false
set_option linter.unusedSectionVars false

namespace Nbkode
open Py Spec Solver

section field
variable {α : Type} [Field α] [LinearOrder α] [IsStrictOrderedRing α] [BEq α] [LawfulBEq α]
variable {n k : Nat} {X : Type} {S : Solver α n k X}

theorem stuck_trans {b : Bound α} {u v : α} {s a c : St α n k X} (h1 : Reach S b u s a) (huv : u ≤ v)
    (h2 : Stuck S b v a c) : Stuck S b v s c := by
  induction h1 with
  | here _ => exact h2
  | step hlt hf ht _ ih => exact .step (lt_of_lt_of_le hlt huv) hf ht (ih h2)

theorem stuck_later {b : Bound α} {u v : α} {s c : St α n k X} (huv : u ≤ v) (h : Stuck S b u s c) : Stuck S b v s c := by
  induction h with
  | here hlt hf => exact .here (lt_of_lt_of_le hlt huv) hf
  | step hlt hf ht _ ih => exact .step (lt_of_lt_of_le hlt huv) hf ht ih

/-- `m` is the last of the ordered times `ts`. -/
theorem runEval_leaves (hM : WellConfigured S.method) (D : Dense S.method S.rhs) {b : Bound α} {ts : List α} {m : α}
    (hs : ts.Pairwise (· ≤ ·)) (hmem : m ∈ ts) (hmax : ∀ x ∈ ts, x ≤ m) {s s' sA : St α n k X} {out : List (α × Vec α n)} (hg : Good D s)
    (hA : Same D s sA) (h : (S.runEval b ts).run s = some (.ok out, s')) :
    Good D s' ∧ ∃ c, Same D s' c ∧ ((out.length = ts.length ∧ Reach S b m sA c) ∨ (out.length < ts.length ∧ Stuck S b m sA c)) := by
  induction ts generalizing s sA out with
  | nil => simp at hmem
  | cons ti rest ih =>
    obtain ⟨hs1, hs2⟩ := List.pairwise_cons.mp hs
    have htm := hmax ti List.mem_cons_self
    rw [runEval_cons, andThen_eq_ok] at h
    obtain ⟨c, s1, h1, h2⟩ := h
    cases c with
    | false =>
      simp at h2
      obtain ⟨rfl, rfl⟩ := h2
      obtain ⟨sB, hB, hB'⟩ := stuck_same D hA (advance_false.mp h1)
      exact ⟨good_stuck hM (advance_false.mp h1) hg, sB, hB', Or.inr ⟨by simp, stuck_later htm hB⟩⟩
    | true =>
      simp only [if_true] at h2
      rw [andThen_eq_ok] at h2
      obtain ⟨r, s2, h3, h4⟩ := h2
      rw [andThen_eq_ok] at h4
      obtain ⟨out', s3, h5, h6⟩ := h4
      cases h6
      have hr := advance_true.mp h1
      obtain ⟨sB, hrB, hB⟩ := reach_same D hA hr
      have hsame := same_interp (D := D) hM.forward h3
      have hg2 := good_interp hM.forward h3 (good_reach hM.forward hr hg)
      have hS2 : Same D s2 sB := ⟨hsame.1.trans hB.1, hsame.2.1.trans hB.2.1, hsame.2.2.trans hB.2.2⟩
      rcases rest with _ | ⟨tj, rest⟩
      · rw [runEval] at h5
        cases h5
        simp only [List.mem_singleton] at hmem
        subst hmem
        exact ⟨hg2, sB, hS2, Or.inl ⟨rfl, hrB⟩⟩
      · have hmem' : m ∈ tj :: rest := by
          rcases List.mem_cons.mp hmem with rfl | h
          · have h7 := hs1 tj List.mem_cons_self
            have h8 := hmax tj (List.mem_cons_of_mem _ List.mem_cons_self)
            rw [le_antisymm h7 h8]
            exact List.mem_cons_self
          · exact h
        obtain ⟨g1, c, g2, g3⟩ := ih hs2 hmem' (fun x hx => hmax x (List.mem_cons_of_mem _ hx)) hg2 hS2 h5
        refine ⟨g1, c, g2, ?_⟩
        rcases g3 with ⟨g3, g4⟩ | ⟨g3, g4⟩
        · exact Or.inl ⟨by simpa using g3, reach_trans hrB htm g4⟩
        · exact Or.inr ⟨by simpa using g3, stuck_trans hrB htm g4⟩

/-- **C79.** After a run that returns, the solver cannot be told apart from one that was only stepped, from where it stood
before the run, to the first state whose time is not before the latest of the requested times `m` (no step at all if it stood there
already); or, when not every time was answered, to the last state below `m` whose next step does not fit below `t_bound`. -/
theorem C79_run (S : Solver α n k X) (hM : WellConfigured S.method) (bo : BisectOpts α)
    (argsort : List α → List Nat) (hA : ∀ l, IsArgsort l (argsort l)) (s0 s : St α n k X)
    (hc : Constructed S s0) (ho : Ordered s0) (hh : 0 < s0.h) (hs : CleanSession S bo argsort s0 s)
    (ts : List α) (m : α) (hmem : m ∈ ts) (hmax : ∀ x ∈ ts, x ≤ m) (out : List (α × Vec α n)) (s' : St α n k X)
    (h : (S.run bo argsort ts).run s = some (.ok out, s')) :
    ∃ c, Alike S bo argsort s' c ∧ s'.h = c.h ∧ ((out.length = ts.length ∧ Reach S S.tBound m s c) ∨
      (out.length < ts.length ∧ Stuck S S.tBound m s c)) := by
  obtain ⟨D, hg⟩ := good_session hM.forward hc ho hh hs
  obtain ⟨-, hr, out1, h1, hcase⟩ := run_ok hM.library.shaped bo hA h
  have hp := sortedTimes_perm hA ts
  obtain ⟨g1, c, g2, g3⟩ := runEval_leaves hM D (sortedTimes_sorted hA ts) (hp.mem_iff.mpr hmem)
    (fun x hx => hmax x (hp.mem_iff.mp hx)) hg ⟨rfl, rfl, rfl⟩ h1
  have hl : out.length = out1.length := by
    rcases hcase with ⟨-, rfl⟩ | ⟨-, -, -, h3, -⟩
    · rfl
    · exact h3.length_eq
  rw [hp.length_eq, ← hl] at g3
  refine ⟨c, alike_rel hM bo hA ⟨g2, g1, ?_⟩, g2.2.1, g3⟩
  rcases g3 with ⟨-, g3⟩ | ⟨-, g3⟩
  · exact good_reach hM.forward g3 hg
  · exact good_stuck hM g3 hg

/-- **C79** in terms of the time: it ends at or after `m` exactly if every requested time was answered. -/
theorem C79_time (S : Solver α n k X) (hM : WellConfigured S.method) (bo : BisectOpts α)
    (argsort : List α → List Nat) (hA : ∀ l, IsArgsort l (argsort l)) (s0 s : St α n k X)
    (hc : Constructed S s0) (ho : Ordered s0) (hh : 0 < s0.h) (hs : CleanSession S bo argsort s0 s)
    (ts : List α) (m : α) (hmem : m ∈ ts) (hmax : ∀ x ∈ ts, x ≤ m) (out : List (α × Vec α n)) (s' : St α n k X)
    (h : (S.run bo argsort ts).run s = some (.ok out, s')) : m ≤ s'.t ↔ out.length = ts.length := by
  obtain ⟨c, h1, -, h2⟩ := C79_run S hM bo argsort hA s0 s hc ho hh hs ts m hmem hmax out s' h
  have e : s'.t = c.t := by unfold St.t; rw [h1.1]
  rw [e]
  rcases h2 with ⟨h2, h3⟩ | ⟨h2, h3⟩
  · exact ⟨fun _ => h2, fun _ => not_lt.mp (reach_not_lt h3)⟩
  · refine ⟨fun h4 => ?_, fun h4 => absurd h4 h2.ne⟩
    exfalso
    clear h2 h1 e h hmax hmem hs
    induction h3 with
    | here h5 _ => exact absurd h5 (not_lt.mpr h4)
    | step _ _ _ _ ih => exact ih h4

/-- **C79** for `run_events` when no event is terminal. -/
theorem C79_run_events (S : Solver α n k X) (hM : WellConfigured S.method) (bo : BisectOpts α) (htol : 0 ≤ bo.tol)
    (argsort : List α → List Nat) (hA : ∀ l, IsArgsort l (argsort l)) (s0 s : St α n k X)
    (hc : Constructed S s0) (ho : Ordered s0) (hh : 0 < s0.h) (hs : CleanSession S bo argsort s0 s)
    (ts : List α) (es : List (EventSpec α n)) (hnt : ∀ e ∈ es, e.terminal ≠ some true)
    (m : α) (hmem : m ∈ ts) (hmax : ∀ x ∈ ts, x ≤ m) (o : RunOut α n k) (s' : St α n k X)
    (h : (S.runEvents bo argsort ts (some es)).run s = some (.ok o, s')) :
    ∃ c, Alike S bo argsort s' c ∧ ((o.out.length = ts.length ∧ Reach S S.tBound m s c) ∨
      (o.out.length < ts.length ∧ Stuck S S.tBound m s c)) := by
  obtain ⟨s'', h1, h2⟩ := C46_undisturbed_partial S hM bo htol argsort hA s0 s hc ho hh hs ts es hnt o s' h
  obtain ⟨c, h3, -, h4⟩ := C79_run S hM bo argsort hA s0 s hc ho hh hs ts m hmem hmax _ _ h1
  exact ⟨c, ⟨h2.1.trans h3.1, fun cs l => (h2.2 cs l).trans (h3.2 cs l)⟩, h4⟩

end field

open Demo

-- C79: Forward Euler with step 1/4 asked for `1/2` and `1`, with an event at `1/4`.
example (argsort : List ℚ → List Nat) (hA : ∀ l, IsArgsort l (argsort l)) : ∃ o s' c s'',
    ((euler .inf).runEvents .std argsort [1/2, 1] (some [atTime (1/4) false])).run s0 = some (.ok o, s') ∧
    Alike (euler .inf) .std argsort s' c ∧ Reach (euler .inf) .inf 1 s0 c ∧ s0.t = 0 ∧
    ((euler .inf).run .std argsort [1/2, 1]).run s0 = some (.ok o.out, s'') ∧ 1 ≤ s''.t := by
  obtain ⟨o, s', h1, -, h3⟩ := watched_only argsort
  have hnt : ∀ e ∈ [atTime (1/4) false], e.terminal ≠ some true := by simp [atTime]
  have hl : o.out.length = 2 := by rw [← List.length_map (f := Prod.fst), h3]; rfl
  have hmax : ∀ x ∈ [(1/2 : ℚ), 1], x ≤ 1 := by simp; norm_num
  obtain ⟨c, h4, h5⟩ := C79_run_events _ (euler_well .inf) .std std_tol argsort hA s0 s0 (constructed_s0 .inf) ordered_s0
    pos_s0 session0 _ _ hnt 1 (by simp) hmax o s' h1
  obtain ⟨s'', h6, -⟩ := C46_undisturbed_partial _ (euler_well .inf) .std std_tol argsort hA s0 s0 (constructed_s0 .inf) ordered_s0
    pos_s0 session0 _ _ hnt o s' h1
  have h7 := (C79_time _ (euler_well .inf) .std argsort hA s0 s0 (constructed_s0 .inf) ordered_s0
    pos_s0 session0 _ 1 (by simp) hmax _ _ h6).mpr hl
  obtain ⟨c', -, -, -⟩ := C79_run _ (euler_well .inf) .std argsort hA s0 s0 (constructed_s0 .inf) ordered_s0
    pos_s0 session0 _ 1 (by simp) hmax _ _ h6
  refine ⟨o, s', c, s'', h1, h4, ?_, rfl, h6, h7⟩
  rcases h5 with ⟨-, h5⟩ | ⟨h5, -⟩
  · exact h5
  · rw [hl] at h5; simp at h5

end Nbkode
