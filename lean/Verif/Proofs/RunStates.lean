import Verif.Proofs.DenseInit
import Verif.Proofs.History
import Verif.Props.Run

/-! The states `run` returns. -/

set_option autoImplicit false
set_option linter.unusedSectionVars false

namespace Nbkode
open Py Spec Solver

section order
variable {α : Type} [LinearOrder α]
variable [Add α] [Sub α] [Mul α] [Div α] [Neg α] [Zero α] [One α] [NatCast α] [BEq α]
variable {n k : Nat} {X : Type} {S : Solver α n k X}

/-- The two states differ at most in the interpolator. -/
def Same (D : Dense S.method S.rhs) (s s2 : St α n k X) : Prop :=
  s.cache = s2.cache ∧ s.h = s2.h ∧ D.core s.aux = D.core s2.aux

theorem takes_same (D : Dense S.method S.rhs) {s s2 s' : St α n k X} (h : Same D s s2) (ht : Takes S s s') :
    ∃ s2', Takes S s2 s2' ∧ Same D s' s2' := by
  obtain ⟨s2', h1, h2⟩ := D.body_congr s s2 _ s' h.1 h.2.1 h.2.2 ht
  exact ⟨s2', h1, h2⟩

theorem same_t {D : Dense S.method S.rhs} {s s2 : St α n k X} (h : Same D s s2) : s.t = s2.t := by
  unfold St.t; rw [h.1]

theorem same_fits {D : Dense S.method S.rhs} {s s2 : St α n k X} (h : Same D s s2) (b : Bound α) :
    Fits b s ↔ Fits b s2 := by
  unfold Fits; rw [same_t h, h.2.1]

theorem reach_same (D : Dense S.method S.rhs) {b : Bound α} {ti : α} {s s2 s' : St α n k X} (h : Same D s s2)
    (hr : Reach S b ti s s') : ∃ s2', Reach S b ti s2 s2' ∧ Same D s' s2' := by
  induction hr generalizing s2 with
  | here hn => exact ⟨s2, .here (by rwa [← same_t h]), h⟩
  | step hlt hf ht _ ih =>
    obtain ⟨s3, ht3, h3⟩ := takes_same D h ht
    obtain ⟨s4, hr4, h4⟩ := ih h3
    exact ⟨s4, .step (by rwa [← same_t h]) ((same_fits h b).mp hf) ht3 hr4, h4⟩

theorem stuck_same (D : Dense S.method S.rhs) {b : Bound α} {ti : α} {s s2 s' : St α n k X} (h : Same D s s2)
    (hr : Stuck S b ti s s') : ∃ s2', Stuck S b ti s2 s2' ∧ Same D s' s2' := by
  induction hr generalizing s2 with
  | here hn hf => exact ⟨s2, .here (by rwa [← same_t h]) (fun hc => hf ((same_fits h b).mpr hc)), h⟩
  | step hlt hf ht _ ih =>
    obtain ⟨s3, ht3, h3⟩ := takes_same D h ht
    obtain ⟨s4, hr4, h4⟩ := ih h3
    exact ⟨s4, .step (by rwa [← same_t h]) ((same_fits h b).mp hf) ht3 hr4, h4⟩

theorem reach_trans {b : Bound α} {u v : α} {s a c : St α n k X} (h1 : Reach S b u s a) (huv : u ≤ v)
    (h2 : Reach S b v a c) : Reach S b v s c := by
  induction h1 with
  | here _ => exact h2
  | step hlt hf ht _ ih => exact .step (lt_of_lt_of_le hlt huv) hf ht (ih h2)

end order

section forward
variable {α : Type} [LinearOrder α]
variable [Add α] [Sub α] [Mul α] [Div α] [Neg α] [Zero α] [One α] [NatCast α] [BEq α]
variable {n k : Nat} {X : Type} {S : Solver α n k X}

/-- History in order, positive step, coherent interpolator. -/
structure Good (D : Dense S.method S.rhs) (s : St α n k X) : Prop where
  ordered : Ordered s
  pos : 0 < s.h
  coh : D.Coh s

theorem good_step (hM : Forward S) {D : Dense S.method S.rhs} {s s' : St α n k X}
    (hg : Good D s) (ht : Takes S s s') : Good D s' :=
  ⟨ordered_step hM hg.ordered hg.pos ht, (hM.step s s' hg.pos ht).2,
    D.body_coh s s' hg.ordered hg.coh ht⟩

theorem good_reach (hM : Forward S) {D : Dense S.method S.rhs} {b : Bound α} {ti : α}
    {s s' : St α n k X} (hr : Reach S b ti s s') (hg : Good D s) : Good D s' := by
  induction hr with
  | here _ => exact hg
  | step _ _ ht _ ih => exact ih (good_step hM hg ht)

theorem good_interp (hM : Forward S) {D : Dense S.method S.rhs} {t : α}
    {s s' : St α n k X} {r : Except Err (Ref α n k)} (h : (S.interpAt t).run s = some (r, s')) (hg : Good D s) :
    Good D s' := by
  obtain ⟨e1, e2⟩ := hM.library.shaped.interp _ _ _ _ _ h
  refine ⟨?_, by rw [e2]; exact hg.pos, D.interp_coh t s r s' h hg.coh⟩
  have := hg.ordered
  unfold Ordered at *
  rw [e1]; exact this

theorem good_did (hM : Forward S) {D : Dense S.method S.rhs} {s s' : St α n k X}
    (h : Did S s s') (hg : Good D s) : Good D s' := by
  cases h with
  | body b hb hf ht => exact good_step hM hg ht
  | interp t h => exact good_interp hM h hg

theorem same_interp (hM : Forward S) {D : Dense S.method S.rhs} {t : α}
    {s s' : St α n k X} {r : Except Err (Ref α n k)} (h : (S.interpAt t).run s = some (r, s')) : Same D s' s := by
  obtain ⟨e1, e2⟩ := hM.library.shaped.interp _ _ _ _ _ h
  exact ⟨e1, e2, D.interp_core t s r s' h⟩

/-- The oldest recorded time is not after `ti` at the state where `ti` is answered. -/
theorem old_reach (hM : Forward S) {D : Dense S.method S.rhs} {b : Bound α} {ti : α}
    {s s' : St α n k X} (hr : Reach S b ti s s') (hg : Good D s) (h0 : s.cache.ts (Buffer.iOld k) ≤ ti) :
    s'.cache.ts (Buffer.iOld k) ≤ ti :=
  (ready_advance hM (le_refl ti) ⟨hg.ordered, hg.pos, h0⟩ (advance_true.mpr hr)).2.2

/-- Each answer of `runEval` is the dense output at the first state reached by stepping on that is not before the time
asked for. -/
theorem runEval_states (hM : Forward S) (D : Dense S.method S.rhs) {b : Bound α} {ts : List α}
    (hs : ts.Pairwise (· ≤ ·)) {s s' sA : St α n k X} {out : List (α × Vec α n)} (hg : Good D s)
    (h0 : ∀ x ∈ ts, s.cache.ts (Buffer.iOld k) ≤ x) (hA : Same D s sA)
    (h : (S.runEval b ts).run s = some (.ok out, s')) :
    ∀ p ∈ out, ∃ s1, Reach S b p.1 sA s1 ∧ D.Val s1.cache (D.core s1.aux) p.1 p.2 := by
  induction ts generalizing s sA out with
  | nil => rw [runEval] at h; cases h; simp
  | cons ti rest ih =>
    obtain ⟨hs1, hs2⟩ := List.pairwise_cons.mp hs
    rw [runEval_cons, andThen_eq_ok] at h
    obtain ⟨c, s1, h1, h2⟩ := h
    cases c with
    | false => simp at h2; obtain ⟨rfl, rfl⟩ := h2; simp
    | true =>
      simp only [if_true] at h2
      rw [andThen_eq_ok] at h2
      obtain ⟨r, s2, h3, h4⟩ := h2
      rw [andThen_eq_ok] at h4
      obtain ⟨out', s3, h5, h6⟩ := h4
      cases h6
      have hr := advance_true.mp h1
      have hg1 := good_reach hM hr hg
      obtain ⟨sB, hrB, hB⟩ := reach_same D hA hr
      have h01 := old_reach hM hr hg (h0 ti List.mem_cons_self)
      have e2 := (hM.library.shaped.interp _ _ _ _ _ h3).1
      intro p hp
      rcases List.mem_cons.mp hp with rfl | hp
      · refine ⟨sB, hrB, ?_⟩
        have := (D.interp_iff ti s1 (r.deref s2.cache) hg1.ordered hg1.coh h01 (not_lt.mp (reach_not_lt hr))).mp
          ⟨r, s2, h3, by rw [e2]⟩
        rwa [hB.1, hB.2.2] at this
      · have hsame := same_interp (D := D) hM h3
        have hmem : p.1 ∈ rest := by
          have := (runEval_prefix h5).1
          have h7 : p.1 ∈ out'.map Prod.fst := List.mem_map_of_mem hp
          rw [this] at h7
          exact List.mem_of_mem_take h7
        have h02 : ∀ x ∈ rest, s2.cache.ts (Buffer.iOld k) ≤ x := by
          intro x hx
          rw [e2]
          exact h01.trans (hs1 x hx)
        obtain ⟨s4, hr4, hv⟩ := ih hs2 (sA := sB) (good_interp hM h3 hg1) h02
          ⟨hsame.1.trans hB.1, hsame.2.1.trans hB.2.1, hsame.2.2.trans hB.2.2⟩ h5 p hp
        exact ⟨s4, reach_trans hrB (hs1 _ hmem) hr4, hv⟩

theorem run_states (hM : Forward S) (D : Dense S.method S.rhs) {bo : BisectOpts α}
    {argsort : List α → List Nat} (hA : ∀ l, IsArgsort l (argsort l)) {ts : List α}
    {s s' sA : St α n k X} {out : List (α × Vec α n)} (hg : Good D s) (hS : Same D s sA)
    (h : (S.run bo argsort ts).run s = some (.ok out, s')) :
    ∀ p ∈ out, p.1 ∈ ts ∧ ∃ s1, Reach S S.tBound p.1 sA s1 ∧ D.Val s1.cache (D.core s1.aux) p.1 p.2 := by
  intro p hp
  have hmem : p.1 ∈ ts := by
    have := C16_run_times S hM.library bo argsort hA ts s s' out h
    have h7 : p.1 ∈ out.map Prod.fst := List.mem_map_of_mem hp
    rw [this] at h7
    exact List.mem_of_mem_take h7
  refine ⟨hmem, ?_⟩
  obtain ⟨-, hr, out1, h1, hcase⟩ := run_ok hM.library.shaped bo hA h
  have hp1 : p ∈ out1 := by
    rcases hcase with ⟨-, rfl⟩ | ⟨-, -, -, h3, -⟩
    · exact hp
    · exact h3.mem_iff.mp hp
  exact runEval_states hM D (sortedTimes_sorted hA ts) hg
    (fun x hx => (hr x ((sortedTimes_perm hA ts).mem_iff.mp hx)).1) hS h1 p hp1

variable [LawfulBEq α]

/-- Used without exceptions, a constructed solver stays in order, with coherent dense output. -/
theorem good_session (hM : Forward S) {bo : BisectOpts α}
    {argsort : List α → List Nat} {s0 s : St α n k X} (hc : Constructed S s0) (ho : Ordered s0) (hh : 0 < s0.h)
    (hs : CleanSession S bo argsort s0 s) : ∃ D : Dense S.method S.rhs, Good D s := by
  obtain ⟨D, hD⟩ := constructed_dense hc
  exact ⟨D, clean_invariant (Good D) (fun _ _ h hg => good_did hM h hg) hs ⟨ho, hh, hD⟩⟩

theorem val_interp {D : Dense S.method S.rhs} {t : α} {v : Vec α n} {s : St α n k X}
    (hg : Good D s) (h1 : s.cache.ts (Buffer.iOld k) ≤ t) (h2 : t ≤ s.t)
    (hv : D.Val s.cache (D.core s.aux) t v) :
    ∃ r s', (S.interpolate t).run s = some (.ok r, s') ∧ r.deref s.cache = v := by
  rw [interpolate_inside h1 h2]
  exact (D.interp_iff t s v hg.ordered hg.coh h1 h2).mpr hv

theorem run_interpolant (S : Solver α n k X) (hM : Forward S) (bo : BisectOpts α)
    (argsort : List α → List Nat) (hA : ∀ l, IsArgsort l (argsort l)) (s0 s : St α n k X)
    (hc : Constructed S s0) (ho : Ordered s0) (hh : 0 < s0.h) (hs : CleanSession S bo argsort s0 s)
    (ts : List α) (out : List (α × Vec α n)) (s' : St α n k X)
    (h : (S.run bo argsort ts).run s = some (.ok out, s')) :
    ∀ p ∈ out, ∃ s1 r s2, Reach S S.tBound p.1 s s1 ∧
      (S.interpolate p.1).run s1 = some (.ok r, s2) ∧ r.deref s1.cache = p.2 := by
  obtain ⟨D, hg⟩ := good_session hM hc ho hh hs
  intro p hp
  obtain ⟨hmem, s1, hr, hv⟩ := run_states hM D hA hg ⟨rfl, rfl, rfl⟩ h p hp
  have hg1 := good_reach hM hr hg
  obtain ⟨-, hin, -⟩ := run_ok hM.library.shaped bo hA h
  obtain ⟨r, s2, hi, hv⟩ := val_interp hg1 (old_reach hM hr hg (hin _ hmem).1) (not_lt.mp (reach_not_lt hr)) hv
  exact ⟨s1, r, s2, hr, hi, hv⟩

theorem run_alone (S : Solver α n k X) (hM : Forward S) (bo : BisectOpts α)
    (argsort : List α → List Nat) (hA : ∀ l, IsArgsort l (argsort l)) (s0 s : St α n k X)
    (hc : Constructed S s0) (ho : Ordered s0) (hh : 0 < s0.h) (hs : CleanSession S bo argsort s0 s)
    (ts : List α) (out : List (α × Vec α n)) (s' : St α n k X)
    (h : (S.run bo argsort ts).run s = some (.ok out, s')) :
    ∀ p ∈ out, ∃ s1, (S.run bo argsort [p.1]).run s = some (.ok [p], s1) := by
  intro p hp
  obtain ⟨s1, r, s2, hr, hi, hv⟩ := run_interpolant S hM bo argsort hA s0 s hc ho hh hs ts out s' h p hp
  obtain ⟨D, hg⟩ := good_session hM hc ho hh hs
  obtain ⟨hmem, -⟩ := run_states hM D hA hg ⟨rfl, rfl, rfl⟩ h p hp
  obtain ⟨-, hin, -⟩ := run_ok hM.library.shaped bo hA h
  have h1 := old_reach hM hr hg (hin _ hmem).1
  rw [interpolate_inside h1 (not_lt.mp (reach_not_lt hr))] at hi
  refine ⟨s2, ?_⟩
  rw [run_eq hM.library.shaped bo hA (by simp) (by simpa [InRange] using hin _ hmem)]
  have e : sortedTimes argsort [p.1] = [p.1] := by unfold sortedTimes; simp [isSorted]
  have e2 := (hM.library.shaped.interp _ _ _ _ _ hi).1
  rw [e, runEval_cons, advance_true.mpr hr]
  simp only [andThen_ok, if_true, hi]
  rw [runEval]
  simp only [run_pure, andThen_ok, isSorted, if_true, e2, hv]

theorem run_independent (S : Solver α n k X) (hM : Forward S) (bo : BisectOpts α)
    (argsort : List α → List Nat) (hA : ∀ l, IsArgsort l (argsort l)) (s0 s : St α n k X)
    (hc : Constructed S s0) (ho : Ordered s0) (hh : 0 < s0.h) (hs : CleanSession S bo argsort s0 s)
    (ts ts' : List α) (out out' : List (α × Vec α n)) (s1 s2 : St α n k X)
    (h1 : (S.run bo argsort ts).run s = some (.ok out, s1))
    (h2 : (S.run bo argsort ts').run s = some (.ok out', s2)) (x : α) (y y' : Vec α n)
    (hx : (x, y) ∈ out) (hx' : (x, y') ∈ out') : y = y' := by
  obtain ⟨_, e1⟩ := run_alone S hM bo argsort hA s0 s hc ho hh hs ts out s1 h1 _ hx
  obtain ⟨_, e2⟩ := run_alone S hM bo argsort hA s0 s hc ho hh hs ts' out' s2 h2 _ hx'
  rw [e1] at e2
  simp only [Option.some.injEq, Prod.mk.injEq, Except.ok.injEq, List.cons.injEq, and_true, true_and] at e2
  exact e2.1

theorem lists_eq {A B : Type} {l l' : List (A × B)} (h : l.map Prod.fst = l'.map Prod.fst)
    (hf : ∀ p ∈ l, ∀ q ∈ l', p.1 = q.1 → p = q) : l = l' := by
  induction l generalizing l' with
  | nil => cases l' with
    | nil => rfl
    | cons q l' => simp at h
  | cons p l ih => cases l' with
    | nil => simp at h
    | cons q l' =>
      simp only [List.map_cons, List.cons.injEq] at h
      rw [hf p List.mem_cons_self q List.mem_cons_self h.1,
        ih h.2 fun p hp q hq => hf p (List.mem_cons_of_mem _ hp) q (List.mem_cons_of_mem _ hq)]

theorem run_full (hM : Shaped S.method) {bo : BisectOpts α} {argsort : List α → List Nat}
    (hA : ∀ l, IsArgsort l (argsort l)) {ts : List α} {s s' : St α n k X} {out : List (α × Vec α n)}
    (h : (S.run bo argsort ts).run s = some (.ok out, s')) (hl : out.length = ts.length) :
    ∃ out1, (S.runEval S.tBound (sortedTimes argsort ts)).run s = some (.ok out1, s') ∧
      out1.length = ts.length ∧ out.Perm out1 := by
  obtain ⟨-, -, out1, h1, ⟨-, rfl⟩ | ⟨-, h2, -, h3, -⟩⟩ := run_ok hM bo hA h
  · exact ⟨out, h1, hl, List.Perm.refl _⟩
  · exact ⟨out1, h1, h2, h3⟩

theorem run_append_unsorted (S : Solver α n k X) (hM : Forward S) (bo : BisectOpts α)
    (argsort : List α → List Nat) (hA : ∀ l, IsArgsort l (argsort l)) (s0 s : St α n k X)
    (hc : Constructed S s0) (ho : Ordered s0) (hh : 0 < s0.h) (hs : CleanSession S bo argsort s0 s)
    (a b : List α) (hab : ∀ x ∈ a, ∀ y ∈ b, x ≤ y) (oa ob : List (α × Vec α n)) (s1 s2 : St α n k X)
    (h1 : (S.run bo argsort a).run s = some (.ok oa, s1)) (hla : oa.length = a.length)
    (h2 : (S.run bo argsort b).run s1 = some (.ok ob, s2)) (hlb : ob.length = b.length) :
    (S.run bo argsort (a ++ b)).run s = some (.ok (oa ++ ob), s2) := by
  obtain ⟨D, hg⟩ := good_session hM hc ho hh hs
  obtain ⟨oa1, ha1, hla1, hpa⟩ := run_full hM.library.shaped hA h1 hla
  obtain ⟨ob1, hb1, hlb1, hpb⟩ := run_full hM.library.shaped hA h2 hlb
  obtain ⟨hne, hra, -⟩ := run_ok hM.library.shaped bo hA h1
  obtain ⟨-, hrb, -⟩ := run_ok hM.library.shaped bo hA h2
  have hsort : sortedTimes argsort (a ++ b) = sortedTimes argsort a ++ sortedTimes argsort b := by
    refine sorted_unique ((sortedTimes_perm hA _).trans
      ((sortedTimes_perm hA a).append (sortedTimes_perm hA b)).symm) (sortedTimes_sorted hA _) ?_
    refine List.pairwise_append.mpr ⟨sortedTimes_sorted hA a, sortedTimes_sorted hA b, ?_⟩
    intro x hx y hy
    exact hab x ((sortedTimes_perm hA a).mem_iff.mp hx) y ((sortedTimes_perm hA b).mem_iff.mp hy)
  have hre : (S.runEval S.tBound (sortedTimes argsort (a ++ b))).run s = some (.ok (oa1 ++ ob1), s2) := by
    rw [hsort, runEval_append, ha1]
    simp only [andThen_ok]
    rw [if_pos (by rw [hla1, (sortedTimes_perm hA a).length_eq]), hb1]
    rfl
  have hr : ∀ y ∈ b, s.cache.ts (Buffer.iOld k) ≤ y := by
    intro y hy
    obtain ⟨x, hx⟩ := List.exists_mem_of_ne_nil a hne
    exact (hra x hx).1.trans (hab x hx y hy)
  have hin : InRange S s (a ++ b) := by
    intro x hx
    rcases List.mem_append.mp hx with hx | hx
    · exact hra x hx
    · exact ⟨hr x hx, (hrb x hx).2⟩
  have hrun := run_eq hM.library.shaped bo hA (ts := a ++ b) (by simp [hne]) hin
  rw [hre] at hrun
  simp only [andThen_ok] at hrun
  have hlen : (oa1 ++ ob1).length = (a ++ b).length := by simp [hla1, hlb1]
  obtain ⟨out, hout⟩ : ∃ out, (S.run bo argsort (a ++ b)).run s = some (.ok out, s2) := by
    by_cases hsrt : isSorted (a ++ b) = true
    · rw [if_pos hsrt] at hrun; exact ⟨_, hrun⟩
    · rw [if_neg hsrt] at hrun
      obtain ⟨out', e1, -⟩ := reorder (hA (a ++ b)).perm hlen
      rw [e1] at hrun; exact ⟨_, hrun⟩
  have hperm : out.Perm (oa ++ ob) := by
    obtain ⟨-, -, out1, e1, hcase⟩ := run_ok hM.library.shaped bo hA hout
    rw [hre] at e1
    simp only [Option.some.injEq, Prod.mk.injEq, Except.ok.injEq, and_true] at e1
    subst e1
    rcases hcase with ⟨-, rfl⟩ | ⟨-, -, -, h3, -⟩
    · exact (hpa.append hpb).symm
    · exact h3.trans (hpa.append hpb).symm
  have hfst : out.map Prod.fst = (oa ++ ob).map Prod.fst := by
    rw [C16_run_complete S hM.library bo argsort hA _ _ _ _ hout (by rw [hperm.length_eq]; simp [hla, hlb]),
      List.map_append, C16_run_complete S hM.library bo argsort hA _ _ _ _ h1 (by omega),
      C16_run_complete S hM.library bo argsort hA _ _ _ _ h2 (by omega)]
  rw [hout, lists_eq hfst]
  intro p hp q hq he
  have hq' := hperm.mem_iff.mpr hq
  have := run_independent S hM bo argsort hA s0 s hc ho hh hs _ _ out out s2 s2 hout hout p.1 p.2 q.2 hp
    (by rw [he]; exact hq')
  exact Prod.ext he this

end forward
end Nbkode
