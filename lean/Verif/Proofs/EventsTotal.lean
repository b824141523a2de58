import Verif.Proofs.EventsApi
import Verif.Props.Hermite

/-! The event search raises nothing of its own when the history has two points. -/

set_option autoImplicit false
set_option linter.unusedSectionVars false

namespace Nbkode
open Py Spec Solver

section field
variable {α : Type} [Field α] [LinearOrder α] [IsStrictOrderedRing α] [BEq α] [LawfulBEq α]
variable {n k : Nat} {X : Type} {S : Solver α n k X}

theorem dense_unique {s : St α n k X} {t : α} {y y' : Vec α n} (h : DenseAt S s t y) (h' : DenseAt S s t y') : y = y' := by
  obtain ⟨r, s1, h1, rfl⟩ := h
  obtain ⟨r', s1', h1', rfl⟩ := h'
  rw [h1] at h1'
  simp only [Option.some.injEq, Prod.mk.injEq, Except.ok.injEq] at h1'
  rw [h1'.1]

/-- The dense output over the last step starts where the step started. -/
def Joined (S : Solver α n k X) (a b : St α n k X) : Prop := a.t < b.t ∧ DenseAt S b a.t a.y ∧ DenseAt S b b.t b.y

theorem evaluate_total (hM : WellConfigured S.method) (hf : ∀ t y, ∃ f, S.rhs t y = .ok f) {D : Dense S.method S.rhs}
    {bo : BisectOpts α} (hm : bo.maxiter ≠ 0) (htol : 0 ≤ bo.tol)
    {e : EventSpec α n} {pts : List (St α n k X)} {a b : St α n k X} (hab : Stepped D a b) (hj : Joined S a b)
    {ev : Event α n k} (hw : Watch S (Located bo) e pts a ev) {s : St α n k X} (hs : At D b s) :
    ∃ r s', (ev.evaluate bo S.interpAt).run s = some (.ok r, s') := by
  have et : s.cache.t = b.t := by show s.cache.t = b.cache.t; rw [hs.1.1]
  have ey : s.cache.y = b.y := by show s.cache.y = b.cache.y; rw [hs.1.1]
  have eval : ev.func s.cache.t s.cache.y = value e b := by rw [hw.func, et, ey]; rfl
  have etrig : triggers ev.direction ev.lastValue (value e b) = true ↔ CrossesOn e a b := by
    rw [hw.direction, hw.lastValue]; exact triggers_iff _ _ _
  have itot : ∀ x s, a.t ≤ x → x ≤ b.t → At D b s → ∃ r s', (S.interpAt x).run s = some (.ok r, s') := by
    intro x s h1 h2 hs
    exact interp_total hM.library hf (by rw [hs.1.1]; exact hab.old.trans h1) (by rw [same_t hs.1]; exact h2)
  have etot : ∀ x s, a.t ≤ x → x ≤ b.t → At D b s → ∃ v s', (eventAtSol e.func S.interpAt x).run s = some (.ok v, s') := by
    intro x s h1 h2 hs
    obtain ⟨r, s', h⟩ := itot x s h1 h2 hs
    unfold eventAtSol
    rw [run_bind, h]
    exact ⟨_, _, rfl⟩
  have rtot : ∀ root s, a.t ≤ root → root ≤ b.t → At D b s → ∃ ev' s', (recordAt S.interpAt ev root).run s = some (.ok ev', s') := by
    intro root s h1 h2 hs
    unfold recordAt
    split
    · exact ⟨_, _, rfl⟩
    · obtain ⟨r, s', h⟩ := itot root s h1 h2 hs
      rw [run_bind, h]
      exact ⟨_, _, rfl⟩
  rw [evaluate_run, eval]
  by_cases hc : CrossesOn e a b
  · rw [if_pos (etrig.mpr hc)]
    unfold rootOf
    rw [run_ite]
    split
    · obtain ⟨ev', s', h⟩ := rtot s.cache.t s (by rw [et]; exact hab.le) (by rw [et]) hs
      simp only [run_pure, andThen_ok]
      rw [h]
      exact ⟨_, _, rfl⟩
    · have hopp : ∀ yl yr, ValueAt S e b a.t yl → ValueAt S e b b.t yr → yl = 0 ∨ yr = 0 ∨ Opp yl yr := by
        rintro yl yr ⟨y1, d1, rfl⟩ ⟨y2, d2, rfl⟩
        rw [dense_unique d1 hj.2.1, dense_unique d2 hj.2.2]
        have : Upward (value e a) (value e b) ∨ Downward (value e a) (value e b) := by
          unfold CrossesOn Crosses at hc
          revert hc
          rcases e.direction with _ | d
          · exact id
          · intro hc
            rcases hc with h | h | h
            · exact Or.inl h.2
            · exact Or.inr h.2
            · exact h.2
        show value e a = 0 ∨ value e b = 0 ∨ Opp (value e a) (value e b)
        unfold Opp
        rcases this with h | h
        · rcases h.1.lt_or_eq with h1 | h1
          · rcases h.2.lt_or_eq with h2 | h2
            · exact Or.inr (Or.inr (Or.inl ⟨h1, h2⟩))
            · exact Or.inr (Or.inl h2.symm)
          · exact Or.inl h1
        · rcases h.1.lt_or_eq with h1 | h1
          · rcases h.2.lt_or_eq with h2 | h2
            · exact Or.inr (Or.inr (Or.inr ⟨h1, h2⟩))
            · exact Or.inr (Or.inl h2)
          · exact Or.inl h1.symm
      obtain ⟨τ, s1, h1⟩ := bisect_total (steady_event hM.forward hab e) etot bo hm hj.1 hopp s hs
      obtain ⟨h2, h3⟩ := bisect_spec (steady_event hM.forward hab e) bo htol s _ _ h1 hs
      obtain ⟨h4, h5, -⟩ := h3 τ rfl
      obtain ⟨ev', s', h⟩ := rtot τ s1 h4 h5 h2
      rw [hw.func, hw.lastT, et, h1]
      simp only [andThen_ok]
      rw [h]
      exact ⟨_, _, rfl⟩
  · rw [if_neg (fun h => hc (etrig.mp h))]
    exact ⟨_, _, rfl⟩

theorem handlerLoop_total (hM : WellConfigured S.method) (hf : ∀ t y, ∃ f, S.rhs t y = .ok f) {D : Dense S.method S.rhs}
    {bo : BisectOpts α} (hm : bo.maxiter ≠ 0) (htol : 0 ≤ bo.tol)
    {pts : List (St α n k X)} {a b : St α n k X} (hab : Stepped D a b) (hj : Joined S a b) {es : List (EventSpec α n)}
    {evs : List (Event α n k)} (hw : Watches S (Located bo) es pts a evs) :
    ∀ (term : Bool) (last : Option (α × Ref α n k)) (s : St α n k X), At D b s →
      ∃ r s', (handlerLoop bo S.interpAt evs term last).run s = some (.ok r, s') := by
  induction hw with
  | nil => intro term last s hs; exact ⟨_, _, rfl⟩
  | @cons e ev es evs he hes ih =>
    intro term last s hs
    obtain ⟨⟨ev', stop⟩, s1, h1⟩ := evaluate_total hM hf hm htol hab hj he hs
    obtain ⟨h2, -⟩ := evaluate_spec hM.forward (located_locates bo htol) hab he hs h1
    rw [handlerLoop, run_bind, h1, andThen_ok]
    simp only [run_bind]
    generalize (if stop = true then _ else last) = last'
    obtain ⟨⟨evs1, term1, last1⟩, s2, h3⟩ := ih (term || stop) last' s1 h2
    rw [h3]
    exact ⟨_, _, rfl⟩

theorem handler_total (hM : WellConfigured S.method) (hf : ∀ t y, ∃ f, S.rhs t y = .ok f) {D : Dense S.method S.rhs}
    {bo : BisectOpts α} (hm : bo.maxiter ≠ 0) (htol : 0 ≤ bo.tol)
    {pts : List (St α n k X)} {a b : St α n k X} (hab : Stepped D a b) (hj : Joined S a b) {es : List (EventSpec α n)}
    {eh : EventHandler α n k} (hw : Watches S (Located bo) es pts a eh.events) {s : St α n k X} (hs : At D b s) :
    ∃ r s', (eh.evaluate bo S.interpAt).run s = some (.ok r, s') := by
  unfold EventHandler.evaluate
  obtain ⟨⟨evs, term, last⟩, s1, h⟩ := handlerLoop_total hM hf hm htol hab hj hw false eh.lastEvent s hs
  rw [run_bind, h]
  exact ⟨_, _, rfl⟩

end field

section field
variable {α : Type} [Field α] [LinearOrder α] [IsStrictOrderedRing α] [BEq α] [LawfulBEq α]
variable {n k : Nat} {X : Type} {S : Solver α n k X}

/-- Every step of the solver is joined. -/
def Joins (D : Dense S.method S.rhs) : Prop := ∀ a b, Good D a → Takes S a b → Joined S a b

theorem advanceEvents_noerr (hM : WellConfigured S.method) (hf : ∀ t y, ∃ f, S.rhs t y = .ok f) (D : Dense S.method S.rhs)
    (hJ : Joins D)
    {bo : BisectOpts α} (hm : bo.maxiter ≠ 0) (htol : 0 ≤ bo.tol) (es : List (EventSpec α n)) (b : Bound α) (ti : α) :
    ∀ eh s r s', (S.advanceEvents bo b ti eh).run s = some (r, s') → ∀ e, r = .error e →
      ∀ pts a, At D a s → Good D a → Watches S (Located bo) es pts a eh.events → NoTerminal es (pts ++ [a]) →
      ∃ s1 s2, (S.method.body S.rhs).run s1 = some (.error e, s2) := by
  refine advanceEvents.fixpoint_induct S bo b ti
    (fun x => ∀ (eh : EventHandler α n k) s r s', (x eh).run s = some (r, s') → ∀ e, r = .error e →
      ∀ pts a, At D a s → Good D a → Watches S (Located bo) es pts a eh.events → NoTerminal es (pts ++ [a]) →
      ∃ s1 s2, (S.method.body S.rhs).run s1 = some (.error e, s2)) ?_ ?_
  · exact Lean.Order.admissible_pi_apply (fun (eh : EventHandler α n k) (x : Py (St α n k X) (EventHandler α n k × AdvRes)) =>
      ∀ s r s', x.run s = some (r, s') → ∀ e, r = .error e →
      ∀ pts a, At D a s → Good D a → Watches S (Located bo) es pts a eh.events → NoTerminal es (pts ++ [a]) →
      ∃ s1 s2, (S.method.body S.rhs).run s1 = some (.error e, s2))
      fun eh => admissible_post fun s r s' => ∀ e, r = .error e →
      ∀ pts a, At D a s → Good D a → Watches S (Located bo) es pts a eh.events → NoTerminal es (pts ++ [a]) →
      ∃ s1 s2, (S.method.body S.rhs).run s1 = some (.error e, s2)
  · intro loop ih eh s r s' h e hr pts a hs ha hw hn
    subst hr
    simp only [run_bind, run_ite, run_get, andThen_ok, run_pure] at h
    split at h
    · rw [andThen_eq_error] at h
      rcases h with h | ⟨c, s1, h1, h2⟩
      · exact ⟨_, _, (pstep_error.mp h).2⟩
      · cases c with
        | false => simp at h2
        | true =>
          obtain ⟨hf', ht⟩ := pstep_true.mp h1
          obtain ⟨a1, ht1, hsame⟩ := takes_same D hs.1 ht
          have hab := stepped_takes hM.forward ha ht1
          have hs1 : At D a1 s1 := ⟨hsame, good_step hM.forward hs.2 ht⟩
          obtain ⟨⟨eh1, stop⟩, s2, h3⟩ := handler_total hM hf hm htol hab (hJ _ _ ha ht1) hw hs1
          simp only [if_true] at h2
          rw [h3, andThen_ok] at h2
          obtain ⟨hs2, hp⟩ := handler_spec hM.forward (located_locates bo htol) hab hw hn hs1 h3
          obtain ⟨g1, g2, g3⟩ := hp eh1 stop rfl
          simp only at h2
          by_cases hstop : stop = true
          · rw [if_pos hstop] at h2
            simp at h2
          · rw [if_neg hstop] at h2
            refine ih eh1 s2 _ s' h2 e rfl (pts ++ [a]) a1 hs2 hab.good g1 ?_
            rw [List.append_assoc]
            exact noTerminal_snoc.mpr ⟨hn, fun hc => hstop (g2.mpr hc)⟩
    · simp at h

theorem runEvalEvents_noerr (hM : WellConfigured S.method) (hf : ∀ t y, ∃ f, S.rhs t y = .ok f) (D : Dense S.method S.rhs)
    (hJ : Joins D)
    {bo : BisectOpts α} (hm : bo.maxiter ≠ 0) (htol : 0 ≤ bo.tol) (es : List (EventSpec α n)) (b : Bound α)
    {ts : List α} (hs : ts.Pairwise (· ≤ ·)) :
    ∀ {eh : EventHandler α n k} {s s' : St α n k X} {e : Err} {pts : List (St α n k X)} {a : St α n k X},
      (S.runEvalEvents bo b ts eh).run s = some (.error e, s') →
      At D a s → Good D a → Watches S (Located bo) es pts a eh.events → NoTerminal es (pts ++ [a]) →
      (∀ u ∈ ts, a.cache.ts (Buffer.iOld k) ≤ u) →
      ∃ s1 s2, (S.method.body S.rhs).run s1 = some (.error e, s2) := by
  induction ts with
  | nil => intro eh s s' e pts a h; rw [runEvalEvents] at h; cases h
  | cons ti rest ih =>
    intro eh s s' e pts a h hA ha hw hn h0
    obtain ⟨hs1, hs2⟩ := List.pairwise_cons.mp hs
    rw [runEvalEvents_cons, andThen_eq_error] at h
    rcases h with h | ⟨⟨eh1, res⟩, s1, h1, h2⟩
    · exact advanceEvents_noerr hM hf D hJ hm htol es b ti _ _ _ _ h e rfl pts a hA ha hw hn
    · obtain ⟨l, c, pts', p1, p2, p3, p4, p5, p6⟩ :=
        advanceEvents_post hM.forward D (located_locates bo htol) es b ti _ _ _ _ h1 eh1 res rfl pts a hA ha hw hn
      cases res with
      | refused => simp at h2
      | terminated =>
        obtain ⟨l0, p, q1, q2, q3, q4, q5, i, τ, q, q6, q7, q8⟩ := p6
        simp [q6] at h2
      | reached =>
        obtain ⟨hr, hn1⟩ := p6
        have h01 := old_reach hM.forward hr ha (h0 ti List.mem_cons_self)
        obtain ⟨r, s2, h3⟩ := interp_total (S := S) hM.library hf (t := ti) (s := s1) (by rw [p3.1.1]; exact h01)
          (by rw [same_t p3.1]; exact not_lt.mp (reach_not_lt hr))
        simp only [h3, andThen_ok] at h2
        rw [andThen_eq_error] at h2
        rcases h2 with h2 | ⟨_, _, _, h2⟩
        · exact ih hs2 h2 (at_interp hM.forward h3 p3) p4 p5 hn1 fun u hu => h01.trans (hs1 u hu)
        · simp at h2

end field

/-- With a history of two points every step is joined. -/
theorem joins_two {α : Type} [Field α] [LinearOrder α] [IsStrictOrderedRing α] [BEq α] [LawfulBEq α]
    {n : Nat} {X : Type} {S : Solver α n 0 X} (hM : WellConfigured S.method) (D : Dense S.method S.rhs) : Joins D := by
  intro a b ha ht
  have hlt := (C11_step_increases S hM a b ha.pos ht).1
  obtain ⟨t, y, f, hc, -⟩ := hM.library.shaped.body_ok _ _ _ ht
  have e1 : b.cache.ts (Buffer.iOld 0) = a.t := by
    rw [hc]
    show shiftIn a.cache.ts t (Buffer.iOld 0) = _
    rw [shiftIn_lt _ _ _ (by simp [Buffer.iOld])]
    rfl
  have e2 : b.cache.ys (Buffer.iOld 0) = a.y := by
    rw [hc]
    show shiftIn a.cache.ys y (Buffer.iOld 0) = _
    rw [shiftIn_lt _ _ _ (by simp [Buffer.iOld])]
    rfl
  obtain ⟨⟨r1, s1, h1, v1⟩, ⟨r2, s2, h2, v2⟩⟩ := C22_ends S hM.library b (by rw [e1]; exact hlt)
  rw [e1] at h1
  exact ⟨hlt, ⟨r1, s1, h1, by rw [v1, e2]⟩, ⟨r2, s2, h2, v2⟩⟩

end Nbkode
