import Verif.Proofs.Bisect
import Verif.Proofs.RunStates

/-! Events along a run. -/

set_option autoImplicit false
set_option linter.unusedSectionVars false

namespace Nbkode
open Py Spec Solver

theorem stepsOf_snoc {A : Type} (l : List A) (c d : A) : stepsOf (l ++ [c, d]) = stepsOf (l ++ [c]) ++ [(c, d)] := by
  induction l with
  | nil => rfl
  | cons x l ih =>
    cases l with
    | nil => rfl
    | cons y l => exact congrArg (List.cons (x, y)) ih

theorem consecutive_snoc {A : Type} {l : List A} {c d a b : A} :
    Consecutive (l ++ [c, d]) a b ↔ Consecutive (l ++ [c]) a b ∨ (a = c ∧ b = d) := by
  constructor
  · rintro ⟨l1, l2, h⟩
    rcases List.eq_nil_or_concat l2 with rfl | ⟨l3, x, rfl⟩
    · right
      have h1 : l ++ [c, d] = l1 ++ [a, b] := h
      have := List.append_inj' h1 rfl
      simpa [eq_comm] using this.2
    · left
      refine ⟨l1, l3, ?_⟩
      have h1 : (l ++ [c]) ++ [d] = (l1 ++ a :: b :: l3) ++ [x] := by simpa using h
      exact (List.append_inj' h1 rfl).1
  · rintro (⟨l1, l2, h⟩ | ⟨rfl, rfl⟩)
    · exact ⟨l1, l2 ++ [d], by
        have : l ++ [c, d] = (l ++ [c]) ++ [d] := by simp
        rw [this, h]; simp⟩
    · exact ⟨l, [], rfl⟩

theorem consecutive_single {A : Type} {c a b : A} : ¬ Consecutive [c] a b := by
  rintro ⟨l1, l2, h⟩
  have := congrArg List.length h
  simp at this
  omega

section order
variable {α : Type} [LinearOrder α]
variable [Add α] [Sub α] [Mul α] [Div α] [Neg α] [Zero α] [One α] [NatCast α] [BEq α]
variable {n k : Nat} {X : Type}

/-- The sign of the direction asked for. -/
def dirSign (d : Option α) : Int := match d with
  | some d => pySign d
  | none => 0

theorem triggers_iff (d : Option α) (v v' : α) : triggers (dirSign d) v v' = true ↔ Crosses d v v' := by
  unfold triggers Crosses dirSign Upward Downward
  cases d with
  | none => simp
  | some d =>
    unfold pySign
    rcases lt_trichotomy d 0 with h | h | h
    · simp [h, not_lt.mpr h.le, h.ne]
    · subst h; simp
    · simp [h, not_lt.mpr h.le, h.ne']

/-- Is this the last recorded time? -/
def dupOf (ev : Event α n k) (root : α) : Bool := match ev.t.getLast? with
  | some tl => tl == root
  | none => false

/-- Recording a located time. -/
def recordAt (interp : α → Py (St α n k X) (Ref α n k)) (ev : Event α n k) (root : α) : Py (St α n k X) (Event α n k) :=
  if dupOf ev root then pure ev else do
    let r ← interp root
    pure { ev with t := ev.t ++ [root], y := ev.y ++ [r] }

/-- Locating the time. -/
def rootOf (bo : BisectOpts α) (interp : α → Py (St α n k X) (Ref α n k)) (ev : Event α n k) (v t : α) :
    Py (St α n k X) α :=
  if v == 0 then pure t else bisect (eventAtSol ev.func interp) ev.lastT t bo.tol bo.maxiter bo.rtol

theorem evaluate_run (bo : BisectOpts α) (interp : α → Py (St α n k X) (Ref α n k)) (ev : Event α n k) (s : St α n k X) :
    (ev.evaluate bo interp).run s = andThen
      (if triggers ev.direction ev.lastValue (ev.func s.cache.t s.cache.y) then
        andThen ((rootOf bo interp ev (ev.func s.cache.t s.cache.y) s.cache.t).run s) fun root s1 =>
          (recordAt interp ev root).run s1 else some (.ok ev, s))
      fun ev' s2 => some (.ok ({ ev' with lastT := s.cache.t, lastValue := ev.func s.cache.t s.cache.y },
        triggers ev.direction ev.lastValue (ev.func s.cache.t s.cache.y) && ev.isTerminal), s2) := by
  have hrec : ∀ (root : α) (s1 : St α n k X) (g : Event α n k → Event α n k × Bool),
      (if dupOf ev root then (do let ev' ← pure ev; pure (g ev')) else (do
        let r ← interp root
        let ev' ← pure { ev with t := ev.t ++ [root], y := ev.y ++ [r] }
        pure (g ev')) : Py (St α n k X) (Event α n k × Bool)).run s1 =
      andThen ((recordAt interp ev root).run s1) fun ev' s2 => some (.ok (g ev'), s2) := by
    intro root s1 g
    unfold recordAt
    split
    · rfl
    · simp only [run_bind, andThen_assoc, run_pure, andThen_ok]
  unfold Event.evaluate rootOf
  simp only [run_bind, run_get, andThen_ok]
  split
  · split
    · exact hrec _ _ _
    · rw [andThen_assoc, run_bind]
      congr 1
      funext root s1
      exact hrec _ _ _
  · rfl

end order

section forward
variable {α : Type} [LinearOrder α]
variable [Add α] [Sub α] [Mul α] [Div α] [Neg α] [Zero α] [One α] [NatCast α] [BEq α] [LawfulBEq α]
variable {n k : Nat} {X : Type} {S : Solver α n k X}

/-- The state of a watched event when the solver has visited `pts` and is at `c`. -/
structure Watch (S : Solver α n k X) (L : Locator α) (e : EventSpec α n) (pts : List (St α n k X)) (c : St α n k X)
    (ev : Event α n k) : Prop where
  func : ev.func = e.func
  terminal : ev.isTerminal = true ↔ e.terminal = some true
  direction : ev.direction = dirSign e.direction
  lastT : ev.lastT = c.t
  lastValue : ev.lastValue = value e c
  logged : Logged S L e (pts ++ [c]) ev.t ev.y
  bound : ∀ τ ∈ ev.t, τ ≤ c.t

/-- A step from `a` to `b`, with the history of `b` reaching back to `a`. -/
structure Stepped (D : Dense S.method S.rhs) (a b : St α n k X) : Prop where
  good : Good D b
  le : a.t ≤ b.t
  old : b.cache.ts (Buffer.iOld k) ≤ a.t

theorem stepped_takes (hM : Forward S) {D : Dense S.method S.rhs} {a b : St α n k X} (hg : Good D a)
    (ht : Takes S a b) : Stepped D a b := by
  refine ⟨good_step hM hg ht, (hM.step a b hg.pos ht).1, ?_⟩
  obtain ⟨t, y, f, hc, -⟩ := hM.library.shaped.body_ok _ _ _ ht
  rw [hc]
  refine le_trans ?_ (le_refl (a.cache.ts (Buffer.iLast k)))
  show shiftIn a.cache.ts t (Buffer.iOld k) ≤ _
  rw [shiftIn_lt _ _ _ (by simp [Buffer.iOld])]
  exact ordered_last hg.ordered _

/-- The states `s` met while the solver stands at `b`. -/
def At (D : Dense S.method S.rhs) (b s : St α n k X) : Prop := Same D s b ∧ Good D s

theorem at_interp (hM : Forward S) {D : Dense S.method S.rhs} {b s s' : St α n k X} {t : α}
    {r : Except Err (Ref α n k)} (h : (S.interpAt t).run s = some (r, s')) (hs : At D b s) : At D b s' := by
  have h1 := same_interp (D := D) hM h
  refine ⟨⟨h1.1.trans hs.1.1, h1.2.1.trans hs.1.2.1, h1.2.2.trans hs.1.2.2⟩, good_interp hM h hs.2⟩

theorem at_dense {D : Dense S.method S.rhs} {b s s' : St α n k X} {t : α}
    {r : Ref α n k} (hb : Good D b) (h : (S.interpAt t).run s = some (.ok r, s')) (hs : At D b s)
    (h1 : b.cache.ts (Buffer.iOld k) ≤ t) (h2 : t ≤ b.t) : DenseAt S b t (r.deref b.cache) := by
  obtain ⟨⟨e1, e2, e3⟩, hg⟩ := hs
  have e4 : s.t = b.t := by unfold St.t; rw [e1]
  have hv := (D.interp_iff t s (r.deref s.cache) hg.ordered hg.coh (by rw [e1]; exact h1) (by rw [e4]; exact h2)).mp
    ⟨r, s', h, rfl⟩
  rw [e1, e3] at hv
  obtain ⟨r2, s2, h3, h4⟩ := (D.interp_iff t b _ hb.ordered hb.coh h1 h2).mpr hv
  exact ⟨r2, s2, by rw [interpolate_inside h1 h2]; exact h3, h4⟩

/-- The interpolators return a view only at a recorded time, namely of the state recorded for it. -/
theorem interp_row (hM : IsLibrary S.method) {t : α} {s s' : St α n k X} {i : Fin (k + 2)}
    (h : (S.interpAt t).run s = some (.ok (.row i), s')) : s.cache.ts i = t := by
  have hermite : (hermiteInterp t : Py (St α n k X) _).run s = some (.ok (.row i), s') → s.cache.ts i = t := by
    intro h
    rw [hermiteInterp_run] at h
    split at h
    · rename_i ht
      simp only [Option.some.injEq, Prod.mk.injEq, Except.ok.injEq, Ref.row.injEq] at h
      obtain ⟨rfl, -⟩ := h
      exact (by simpa using ht : t = _).symm
    · rcases hd : pyDiv (t - s.cache.ts (Buffer.iOld k)) (s.cache.t - s.cache.ts (Buffer.iOld k)) with _ | _ <;>
        rw [hd] at h <;> simp at h
  obtain ⟨M, rhs, b⟩ := S
  rcases hM with hM | ⟨lib, o, ex, hM⟩
  · cases hM with
    | explicitMultistep c => exact hermite h
    | implicitMultistep lib zo c => exact hermite h
    | erk T => exact hermite h
  · cases hM with
    | fsal c =>
      have h : (rkInterp c.P t).run s = some (.ok (.row i), s') := h
      rw [rkInterp_run] at h
      split at h
      · rename_i ht
        simp only [Option.some.injEq, Prod.mk.injEq, Except.ok.injEq, Ref.row.injEq] at h
        obtain ⟨rfl, -⟩ := h
        exact (by simpa using ht : t = _).symm
      · split at h
        · rename_i ht
          simp only [Option.some.injEq, Prod.mk.injEq, Except.ok.injEq, Ref.row.injEq] at h
          obtain ⟨rfl, -⟩ := h
          exact (by simpa using ht : t = _).symm
        · simp only at h
          rcases hd : pyDiv (t - s.cache.ts (Buffer.iPrev 0)) (s.cache.ts (Buffer.iLast 0) - s.cache.ts (Buffer.iPrev 0))
            with _ | _ <;> rw [hd] at h <;> simp at h
    | dop853 c =>
      have h : (dopInterp c.toDopDense rhs t).run s = some (.ok (.row i), s') := h
      rw [dopInterp_run] at h
      split at h
      · rename_i ht
        simp only [Option.some.injEq, Prod.mk.injEq, Except.ok.injEq, Ref.row.injEq] at h
        obtain ⟨rfl, -⟩ := h
        exact (by simpa using ht : t = _).symm
      · split at h
        · rename_i ht
          simp only [Option.some.injEq, Prod.mk.injEq, Except.ok.injEq, Ref.row.injEq] at h
          obtain ⟨rfl, -⟩ := h
          exact (by simpa using ht : t = _).symm
        · rw [andThen_eq_ok] at h
          obtain ⟨_, st1, -, h⟩ := h
          rcases hd : pyDiv (t - st1.cache.ts (Buffer.iPrev 0)) (st1.cache.ts (Buffer.iLast 0) - st1.cache.ts (Buffer.iPrev 0))
            with _ | _ <;> rw [hd] at h <;> simp at h

theorem steady_event (hM : Forward S) {D : Dense S.method S.rhs} {a b : St α n k X} (hab : Stepped D a b)
    (e : EventSpec α n) : Steady (eventAtSol e.func S.interpAt) (At D b) a.t b.t (ValueAt S e b) := by
  have key : ∀ x s r s', a.t ≤ x → x ≤ b.t → At D b s →
      (eventAtSol e.func S.interpAt x).run s = some (r, s') → At D b s' ∧ ∀ v, r = .ok v → ValueAt S e b x v := by
    intro x s r s' h1 h2 hs h
    unfold eventAtSol at h
    rw [run_bind, andThen_eq_some] at h
    rcases h with ⟨er, s1, h3, h4⟩ | ⟨q, s1, h3, h4⟩
    · cases h4
      exact ⟨at_interp hM h3 hs, by simp⟩
    · simp only [run_bind, run_get, andThen_ok, run_pure, Option.some.injEq, Prod.mk.injEq] at h4
      obtain ⟨rfl, rfl⟩ := h4
      have h5 := at_interp hM h3 hs
      refine ⟨h5, fun v hv => ?_⟩
      simp only [Except.ok.injEq] at hv
      subst hv
      exact ⟨_, at_dense hab.good h3 hs (hab.old.trans h1) h2, by rw [h5.1.1]⟩
  exact ⟨fun x s r s' h1 h2 h3 h4 => (key x s r s' h1 h2 h3 h4).1,
    fun x s v s' h1 h2 h3 h4 => (key x s _ s' h1 h2 h3 h4).2 v rfl⟩

/-- What evaluating an event after the step from `a` to `b` may end with. -/
def EvalPost (S : Solver α n k X) (L : Locator α) (e : EventSpec α n) (pts : List (St α n k X))
    (a b : St α n k X) (ev : Event α n k) (ev' : Event α n k) (stop : Bool) : Prop :=
  Watch S L e (pts ++ [a]) b ev' ∧ (stop = true ↔ e.terminal = some true ∧ CrossesOn e a b) ∧
    ((¬ CrossesOn e a b ∧ ev'.t = ev.t ∧ ev'.y = ev.y) ∨ (CrossesOn e a b ∧ ev'.t = ev.t ∧ ev'.y = ev.y ∧ ev.t ≠ []) ∨
      ∃ τ r, ev'.t = ev.t ++ [τ] ∧ ev'.y = ev.y ++ [r] ∧ Detects S L e a b τ r)

theorem evaluate_spec (hM : Forward S) {D : Dense S.method S.rhs} {bo : BisectOpts α} {L : Locator α} (hL : Locates bo L)
    {e : EventSpec α n} {pts : List (St α n k X)} {a b : St α n k X} (hab : Stepped D a b) {ev : Event α n k}
    (hw : Watch S L e pts a ev) {s s' : St α n k X} {r : Except Err (Event α n k × Bool)} (hs : At D b s)
    (h : (ev.evaluate bo S.interpAt).run s = some (r, s')) :
    At D b s' ∧ ∀ ev' stop, r = .ok (ev', stop) → EvalPost S L e pts a b ev ev' stop := by
  have et : s.cache.t = b.t := by show s.cache.t = b.cache.t; rw [hs.1.1]
  have ey : s.cache.y = b.y := by show s.cache.y = b.cache.y; rw [hs.1.1]
  have eval : ev.func s.cache.t s.cache.y = value e b := by rw [hw.func, et, ey]; rfl
  have etrig : triggers ev.direction ev.lastValue (value e b) = true ↔ CrossesOn e a b := by
    rw [hw.direction, hw.lastValue]; exact triggers_iff _ _ _
  have hl := hw.logged
  -- an event without a new record
  have keep : (CrossesOn e a b → ∃ τ ∈ ev.t, a.t ≤ τ ∧ τ ≤ b.t) →
      Watch S L e (pts ++ [a]) b { ev with lastT := s.cache.t, lastValue := value e b } := by
    intro hc
    refine ⟨hw.func, hw.terminal, hw.direction, et, rfl, ⟨hl.increasing, hl.length_eq, ?_, ?_, ?_⟩,
      fun τ hτ => (hw.bound τ hτ).trans hab.le⟩
    · intro p hp
      obtain ⟨a', b', h1, h2⟩ := hl.sound p hp
      exact ⟨a', b', by rw [List.append_assoc]; exact consecutive_snoc.mpr (Or.inl h1), h2⟩
    · intro a' b' h1 h2
      rw [List.append_assoc] at h1
      rcases consecutive_snoc.mp h1 with h1 | ⟨rfl, rfl⟩
      · exact hl.complete a' b' h1 h2
      · exact hc h2
    · obtain ⟨made, h1, h2⟩ := hl.once
      exact ⟨made, by rw [List.append_assoc]; exact (stepsOf_snoc pts a b).symm ▸ h1.trans (List.sublist_append_left _ _), h2⟩
  -- an event with a new record
  have add : ∀ τ q, Detects S L e a b τ q → (∀ x, ev.t.getLast? = some x → x ≠ τ) →
      Watch S L e (pts ++ [a]) b { ev with t := ev.t ++ [τ], y := ev.y ++ [q], lastT := s.cache.t, lastValue := value e b } := by
    intro τ q hd hne
    refine ⟨hw.func, hw.terminal, hw.direction, et, rfl, ⟨?_, by simp [hl.length_eq], ?_, ?_, ?_⟩, ?_⟩
    · refine List.pairwise_append.mpr ⟨hl.increasing, List.pairwise_singleton _ _, ?_⟩
      intro x hx y hy
      simp only [List.mem_singleton] at hy
      subst hy
      rcases List.eq_nil_or_concat ev.t with h0 | ⟨l0, z, h0⟩
      · rw [h0] at hx; simp at hx
      · have hz : z ≠ y := hne z (by rw [h0]; simp)
        have hza : z ≤ a.t := hw.bound z (by rw [h0]; simp)
        have hzy : z < y := lt_of_le_of_ne (hza.trans hd.after) hz
        have hinc := hl.increasing
        rw [h0, List.concat_eq_append] at hx hinc
        rw [List.pairwise_append] at hinc
        rcases List.mem_append.mp hx with hx | hx
        · exact (hinc.2.2 x hx z (by simp)).trans hzy
        · simp only [List.mem_singleton] at hx
          subst hx; exact hzy
    · intro p hp
      rw [List.zip_append hl.length_eq] at hp
      rcases List.mem_append.mp hp with hp | hp
      · obtain ⟨a', b', h1, h2⟩ := hl.sound p hp
        exact ⟨a', b', by rw [List.append_assoc]; exact consecutive_snoc.mpr (Or.inl h1), h2⟩
      · simp only [List.zip_cons_cons, List.zip_nil_left, List.mem_singleton] at hp
        subst hp
        exact ⟨a, b, by rw [List.append_assoc]; exact consecutive_snoc.mpr (Or.inr ⟨rfl, rfl⟩), hd⟩
    · intro a' b' h1 h2
      rw [List.append_assoc] at h1
      rcases consecutive_snoc.mp h1 with h1 | ⟨rfl, rfl⟩
      · obtain ⟨x, hx, h3⟩ := hl.complete a' b' h1 h2
        exact ⟨x, List.mem_append_left _ hx, h3⟩
      · exact ⟨τ, by simp, hd.after, hd.before⟩
    · obtain ⟨made, h1, h2⟩ := hl.once
      refine ⟨made ++ [(a, b)], ?_, ?_⟩
      · rw [List.append_assoc]
        exact (stepsOf_snoc pts a b).symm ▸ h1.append (List.Sublist.refl _)
      · rw [List.zip_append hl.length_eq]
        exact List.rel_append h2 (.cons hd .nil)
    · intro x hx
      rcases List.mem_append.mp hx with hx | hx
      · exact (hw.bound x hx).trans hab.le
      · simp only [List.mem_singleton] at hx
        subst hx; exact hd.before
  -- recording a located time
  have record : ∀ (τ : α) (s1 : St α n k X) (r' : Except Err (Event α n k)) (s2 : St α n k X), CrossesOn e a b → At D b s1 →
      a.t ≤ τ → τ ≤ b.t →
      ((τ = b.t ∧ value e b = 0) ∨ L (ValueAt S e b) a.t b.t τ) →
      (recordAt S.interpAt ev τ).run s1 = some (r', s2) →
      At D b s2 ∧ ∀ ev', r' = .ok ev' →
        Watch S L e (pts ++ [a]) b { ev' with lastT := s.cache.t, lastValue := value e b } ∧ ev'.isTerminal = ev.isTerminal ∧
        ((ev'.t = ev.t ∧ ev'.y = ev.y ∧ ev.t ≠ []) ∨ ∃ q, ev'.t = ev.t ++ [τ] ∧ ev'.y = ev.y ++ [q] ∧ Detects S L e a b τ q) := by
    intro τ s1 r' s2 hc hs1 h1 h2 h3 h4
    unfold recordAt at h4
    rw [run_ite] at h4
    split at h4
    · rename_i hdup
      cases h4
      refine ⟨hs1, fun ev' he => ?_⟩
      simp only [Except.ok.injEq] at he
      subst he
      unfold dupOf at hdup
      split at hdup
      · rename_i tl htl
        simp only [beq_iff_eq] at hdup
        subst hdup
        refine ⟨keep fun _ => ⟨tl, List.mem_of_getLast? htl, h1, h2⟩, rfl, Or.inl ⟨rfl, rfl, ?_⟩⟩
        intro h0
        rw [h0] at htl
        simp at htl
      · simp at hdup
    · rename_i hdup
      rw [run_bind, andThen_eq_some] at h4
      rcases h4 with ⟨er, s3, h5, h6⟩ | ⟨q, s3, h5, h6⟩
      · cases h6
        exact ⟨at_interp hM h5 hs1, by simp⟩
      · simp only [run_pure, Option.some.injEq, Prod.mk.injEq] at h6
        obtain ⟨rfl, rfl⟩ := h6
        refine ⟨at_interp hM h5 hs1, fun ev' he => ?_⟩
        simp only [Except.ok.injEq] at he
        subst he
        have hd : Detects S L e a b τ q := ⟨hc, h1, h2, h3, at_dense hab.good h5 hs1 (hab.old.trans h1) h2, by
          rintro i rfl
          rw [← hs1.1.1]
          exact interp_row hM.library h5⟩
        refine ⟨add τ q hd ?_, rfl, Or.inr ⟨q, rfl, rfl, hd⟩⟩
        intro x hx hxτ
        subst hxτ
        unfold dupOf at hdup
        rw [hx] at hdup
        simp at hdup
  rw [evaluate_run, eval, andThen_eq_some] at h
  by_cases hc : CrossesOn e a b
  · rw [if_pos (etrig.mpr hc)] at h
    have hmain : ∀ (r' : Except Err (Event α n k)) (s2 : St α n k X),
        (andThen ((rootOf bo S.interpAt ev (value e b) s.cache.t).run s) fun root s1 =>
          (recordAt S.interpAt ev root).run s1) = some (r', s2) →
        At D b s2 ∧ ∀ ev', r' = .ok ev' →
          Watch S L e (pts ++ [a]) b { ev' with lastT := s.cache.t, lastValue := value e b } ∧ ev'.isTerminal = ev.isTerminal ∧
          ((ev'.t = ev.t ∧ ev'.y = ev.y ∧ ev.t ≠ []) ∨
            ∃ τ q, ev'.t = ev.t ++ [τ] ∧ ev'.y = ev.y ++ [q] ∧ Detects S L e a b τ q) := by
      intro r' s2 h1
      unfold rootOf at h1
      rw [run_ite, andThen_eq_some] at h1
      have fin : ∀ (root : α) (s1 : St α n k X), At D b s1 → a.t ≤ root → root ≤ b.t →
          ((root = b.t ∧ value e b = 0) ∨ L (ValueAt S e b) a.t b.t root) →
          (recordAt S.interpAt ev root).run s1 = some (r', s2) →
          At D b s2 ∧ ∀ ev', r' = .ok ev' →
            Watch S L e (pts ++ [a]) b { ev' with lastT := s.cache.t, lastValue := value e b } ∧ ev'.isTerminal = ev.isTerminal ∧
            ((ev'.t = ev.t ∧ ev'.y = ev.y ∧ ev.t ≠ []) ∨
              ∃ τ q, ev'.t = ev.t ++ [τ] ∧ ev'.y = ev.y ++ [q] ∧ Detects S L e a b τ q) := by
        intro root s1 g1 g2 g3 g4 g5
        obtain ⟨h5, h6⟩ := record root s1 r' s2 hc g1 g2 g3 g4 g5
        refine ⟨h5, fun ev' he => ?_⟩
        obtain ⟨h7, h8, h9⟩ := h6 ev' he
        refine ⟨h7, h8, ?_⟩
        rcases h9 with h9 | ⟨q, h9⟩
        · exact Or.inl h9
        · exact Or.inr ⟨root, q, h9⟩
      split at h1
      · rename_i h0
        simp only [beq_iff_eq] at h0
        rcases h1 with ⟨er, s3, h5, h6⟩ | ⟨root, s3, h5, h6⟩
        · simp at h5
        · simp only [run_pure, Option.some.injEq, Prod.mk.injEq, Except.ok.injEq] at h5
          obtain ⟨rfl, rfl⟩ := h5
          exact fin _ _ hs (by rw [et]; exact hab.le) (by rw [et]) (Or.inl ⟨et, h0⟩) h6
      · rw [hw.func, hw.lastT, et] at h1
        have hb := hL (steady_event hM hab e) s
        rcases h1 with ⟨er, s3, h5, h6⟩ | ⟨root, s3, h5, h6⟩
        · cases h6
          exact ⟨(hb _ _ h5 hs).1, by simp⟩
        · obtain ⟨h7, h8⟩ := hb _ _ h5 hs
          obtain ⟨h9, h10, h11⟩ := h8 root rfl
          exact fin root s3 h7 h9 h10 (Or.inr h11) h6
    rcases h with ⟨er, s3, h5, h6⟩ | ⟨ev', s3, h5, h6⟩
    · cases h6
      exact ⟨(hmain _ _ h5).1, by simp⟩
    · simp only [run_pure, Option.some.injEq, Prod.mk.injEq] at h6
      obtain ⟨rfl, rfl⟩ := h6
      obtain ⟨h7, h8⟩ := hmain _ _ h5
      refine ⟨h7, fun ev2 stop he => ?_⟩
      simp only [Except.ok.injEq, Prod.mk.injEq] at he
      obtain ⟨rfl, rfl⟩ := he
      obtain ⟨h9, h10, h11⟩ := h8 ev' rfl
      refine ⟨h9, ?_, ?_⟩
      · rw [Bool.and_eq_true, etrig, hw.terminal]; exact and_comm
      · rcases h11 with h11 | h11
        · exact Or.inr (Or.inl ⟨hc, h11⟩)
        · exact Or.inr (Or.inr h11)
  · rw [if_neg (fun h => hc (etrig.mp h))] at h
    rcases h with ⟨er, s3, h5, h6⟩ | ⟨ev', s3, h5, h6⟩
    · simp at h5
    · simp only [Option.some.injEq, Prod.mk.injEq, Except.ok.injEq] at h5 h6
      obtain ⟨rfl, rfl⟩ := h5
      obtain ⟨rfl, rfl⟩ := h6
      refine ⟨hs, fun ev2 stop he => ?_⟩
      simp only [Except.ok.injEq, Prod.mk.injEq] at he
      obtain ⟨rfl, rfl⟩ := he
      refine ⟨keep fun h => absurd h hc, ?_, Or.inl ⟨hc, rfl, rfl⟩⟩
      rw [Bool.and_eq_true, etrig]
      exact ⟨fun h => absurd h.1 hc, fun h => absurd h.2 hc⟩

end forward
end Nbkode
