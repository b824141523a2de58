import Verif.Proofs.EventsApi

/-! How a run with events ends. -/

set_option autoImplicit false
set_option linter.unusedSectionVars false

namespace Nbkode
open Py Spec Solver

variable {α : Type} [LinearOrder α]
variable [Add α] [Sub α] [Mul α] [Div α] [Neg α] [Zero α] [One α] [NatCast α] [BEq α] [LawfulBEq α]
variable {n k : Nat} {X : Type}

theorem take_filter {ts : List α} {m : Nat} {p : α} (h1 : ∀ x ∈ ts.take m, x ≤ p) (h2 : ∀ x ∈ ts.drop m, p < x) :
    ts.take m = ts.filter fun x => decide (x ≤ p) := by
  conv_rhs => rw [← List.take_append_drop m ts]
  rw [List.filter_append]
  have e1 : (ts.take m).filter (fun x => decide (x ≤ p)) = ts.take m := by
    rw [List.filter_eq_self]
    intro x hx
    simpa using h1 x hx
  have e2 : (ts.drop m).filter (fun x => decide (x ≤ p)) = [] := by
    rw [List.filter_eq_nil_iff]
    intro x hx
    simpa using h2 x hx
  rw [e1, e2, List.append_nil]

theorem runEval_le {S : Solver α n k X} (hM : Forward S) {D : Dense S.method S.rhs} {b : Bound α} {tl : List α} :
    ∀ {x y : St α n k X} {out : List (α × Vec α n)}, Good D x → (S.runEval b tl).run x = some (.ok out, y) →
      x.t ≤ y.t ∧ ∀ q ∈ out, q.1 ≤ y.t := by
  induction tl with
  | nil => intro x y out _ hr; rw [runEval] at hr; cases hr; exact ⟨le_refl _, by simp⟩
  | cons ti rest ih =>
    intro x y out hx hr
    rw [runEval_cons, andThen_eq_ok] at hr
    obtain ⟨cc, s1, r1, r2⟩ := hr
    cases cc with
    | false =>
      simp at r2
      obtain ⟨rfl, rfl⟩ := r2
      refine ⟨?_, by simp⟩
      have := advance_false.mp r1
      clear r1
      induction this with
      | here _ _ => exact le_refl _
      | step _ _ ht _ ih2 => exact (stepped_takes hM hx ht).le.trans (ih2 (good_step hM hx ht))
    | true =>
      simp only [if_true] at r2
      rw [andThen_eq_ok] at r2
      obtain ⟨r, s2, r3, r4⟩ := r2
      rw [andThen_eq_ok] at r4
      obtain ⟨out2, s3, r5, r6⟩ := r4
      cases r6
      have hre := advance_true.mp r1
      have e := same_t (same_interp (D := D) hM r3)
      obtain ⟨g1, g2⟩ := ih (good_interp hM r3 (good_reach hM hre hx)) r5
      refine ⟨(reach_le hM hre hx).trans (e.symm.le.trans g1), ?_⟩
      intro q hq
      rcases List.mem_cons.mp hq with rfl | hq
      · exact (not_lt.mp (reach_not_lt hre)).trans (e.symm.le.trans g1)
      · exact g2 q hq

theorem runEval_interpolated {S : Solver α n k X} (hM : Forward S) {D : Dense S.method S.rhs} {ts : List α}
    (hs : ts.Pairwise (· ≤ ·)) {s s' : St α n k X} {out : List (α × Vec α n)} (hg : Good D s)
    (h0 : ∀ x ∈ ts, s.cache.ts (Buffer.iOld k) ≤ x) (h : (S.runEval S.tBound ts).run s = some (.ok out, s')) :
    Interpolated S s out := by
  intro p hp
  obtain ⟨s1, hr, hv⟩ := runEval_states hM D hs hg h0 ⟨rfl, rfl, rfl⟩ h p hp
  have hmem : p.1 ∈ ts := by
    have := (runEval_prefix h).1
    have h2 : p.1 ∈ out.map Prod.fst := List.mem_map_of_mem hp
    rw [this] at h2
    exact List.mem_of_mem_take h2
  obtain ⟨r, s2, hi, hv⟩ := val_interp (good_reach hM hr hg) (old_reach hM hr hg (h0 _ hmem)) (not_lt.mp (reach_not_lt hr)) hv
  exact ⟨s1, hr, r, s2, hi, hv⟩

theorem runEvents_ends_of (S : Solver α n k X) (hM : Forward S) {bo : BisectOpts α} {L : Locator α} (hL : Locates bo L)
    (argsort : List α → List Nat) (hA : ∀ l, IsArgsort l (argsort l)) (s0 s : St α n k X)
    (hc : Constructed S s0) (ho : Ordered s0) (hh : 0 < s0.h) (hs : CleanSession S bo argsort s0 s)
    (ts : List α) (es : List (EventSpec α n)) (hes : es ≠ []) (o : RunOut α n k) (s' : St α n k X)
    (h : (S.runEvents bo argsort ts (some es)).run s = some (.ok o, s')) :
    ∃ out l c, Path S S.tBound s l c ∧ s'.t = c.t ∧ s'.y = c.y ∧ Ends S (sortedTimes argsort ts) es out o.tEvents s l c ∧
      (if isSorted ts then o.out = out else fancyIndex out (invPerm (argsort ts)) = .ok o.out) ∧ s'.cache = c.cache ∧
      o.tEvents.length = es.length ∧ o.yEvents.length = es.length ∧
      ∀ (i : Nat) e tl yl, es[i]? = some e → o.tEvents[i]? = some tl → o.yEvents[i]? = some yl →
        Logged S (L) e (s :: l) tl yl := by
  obtain ⟨D, hg⟩ := good_session hM hc ho hh hs
  obtain ⟨eh, out, ⟨l, c, pts', h1, h2, h3, h4, h5, h6⟩, h7, h8, h9⟩ := runEvents_post hM D hL hA hes hg h
  obtain ⟨-, hin, -⟩ := runEvents_ok hA hes h
  have hts := sortedTimes_sorted hA ts
  have h0 : ∀ x ∈ sortedTimes argsort ts, s.cache.ts (Buffer.iOld k) ≤ x := fun x hx =>
    (hin x ((sortedTimes_perm hA ts).mem_iff.mp hx)).1
  generalize sortedTimes argsort ts = tl at h6 hts h0 ⊢
  have h2 : s :: l = pts' ++ [c] := h2
  have e1 := h3.1.1
  have hlen := h5.length_eq
  refine ⟨out, l, c, h1, by unfold St.t; rw [e1], by unfold St.y; rw [e1], ?_, h7, e1, by rw [h8, List.length_map, hlen],
    by rw [h9, List.length_map, hlen], ?_⟩
  rotate_left
  · intro i e tl yl g1 g2 g3
    rw [h8, List.getElem?_map, Option.map_eq_some_iff] at g2
    rw [h9, List.getElem?_map, Option.map_eq_some_iff] at g3
    obtain ⟨ev, g4, rfl⟩ := g2
    obtain ⟨ev', g5, rfl⟩ := g3
    rw [g4] at g5
    cases g5
    obtain ⟨hi, rfl⟩ := List.getElem?_eq_some_iff.mp g1
    obtain ⟨hi', rfl⟩ := List.getElem?_eq_some_iff.mp g4
    have := (List.forall₂_iff_get.mp h5).2 i hi hi'
    have h8 := this.logged
    rw [← h2] at h8
    simpa using h8
  rcases h6 with ⟨k1, c', k2, k3⟩ | ⟨l0, p, q1, q2, q3, q4, m, out', c', i, τ, q, q5, q6, q7, q8, q9, q10, q11, q12⟩
  · left
    refine ⟨by rw [h2]; exact k1, runEval_interpolated hM hts hg h0 k2, ?_⟩
    obtain ⟨p1, p2⟩ := runEval_prefix k2
    rcases Nat.lt_or_eq_of_le p2 with hlt | heq
    · right
      obtain ⟨g1, g2⟩ := runEval_cut k2 hlt
      have et : c'.t = c.t := same_t k3
      refine ⟨fun hf => g2 ((same_fits k3 _).mpr hf), ?_⟩
      rw [p1]
      refine take_filter ?_ ?_
      · intro x hx
        rw [← p1, List.mem_map] at hx
        obtain ⟨pr, hpr, rfl⟩ := hx
        rw [← et]
        exact (runEval_le hM hg k2).2 pr hpr
      · intro x hx
        rw [← et]
        rw [List.drop_eq_getElem_cons hlt] at hx
        rcases List.mem_cons.mp hx with rfl | hx
        · exact g1
        · have : ((tl[out.length]) :: tl.drop (out.length + 1)).Pairwise (· ≤ ·) := by
            rw [← List.drop_eq_getElem_cons hlt]; exact hts.sublist (List.drop_sublist _ _)
          exact lt_of_lt_of_le g1 ((List.pairwise_cons.mp this).1 x hx)
    · left
      have e : out.map Prod.fst = tl := by rw [p1, heq, List.take_length]
      refine ⟨e, fun x hx => ?_⟩
      rw [← e, List.mem_map] at hx
      obtain ⟨pr, hpr, rfl⟩ := hx
      rw [← same_t k3]
      exact (runEval_le hM hg k2).2 pr hpr
  · right
    obtain ⟨e, r1, r2, r3, r4⟩ := q11
    refine ⟨l0, p, i, e, τ, _, out', by rw [h2, q1]; simp, q3, r1, r2, r3.crosses, by rw [h8]; exact q12, r3.after, r3.before,
      r3.state, q10, ?_, runEval_interpolated hM (hts.sublist (List.take_sublist _ _)) hg
        (fun x hx => h0 x (List.mem_of_mem_take hx)) q8, ⟨tl[m], List.getElem_mem _, q6 _ ?_⟩, r4⟩
    · obtain ⟨p1, -⟩ := runEval_prefix q8
      rw [p1, q9, List.take_take, Nat.min_self]
      exact take_filter q7 q6
    · rw [List.drop_eq_getElem_cons q5]
      exact List.mem_cons_self

end Nbkode
