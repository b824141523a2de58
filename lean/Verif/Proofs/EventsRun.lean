import Verif.Proofs.Events

/-! The event loop of a run. -/

set_option autoImplicit false
set_option linter.unusedSectionVars false

namespace Nbkode
open Py Spec Solver

section lawless
variable {α : Type}
variable [Add α] [Sub α] [Mul α] [Div α] [Neg α] [Zero α] [One α] [NatCast α] [BEq α]
variable [LT α] [DecidableLT α] [LE α] [DecidableLE α]
variable {n k : Nat} {X : Type}

theorem runEvalEvents_cons (S : Solver α n k X) (bo : BisectOpts α) (b : Bound α) (ti : α) (rest : List α) (eh : EventHandler α n k)
    (s : St α n k X) :
    (S.runEvalEvents bo b (ti :: rest) eh).run s = andThen ((S.advanceEvents bo b ti eh).run s) fun p s1 =>
      match p.2 with
      | .reached => andThen ((S.interpAt ti).run s1) fun r s2 =>
          andThen ((S.runEvalEvents bo b rest p.1).run s2) fun q s3 => some (.ok (q.1, (ti, r.deref s2.cache) :: q.2), s3)
      | .refused => some (.ok (p.1, []), s1)
      | .terminated => match p.1.lastEvent with
        | some (te, re) => some (.ok (p.1, [(te, re.deref s1.cache)]), s1)
        | none => some (.error .valueError, s1) := by
  rw [runEvalEvents]
  simp only [run_bind]
  congr 1
  funext p s1
  obtain ⟨eh', res⟩ := p
  cases res with
  | reached => simp only [run_bind, run_get, andThen_ok, run_pure]
  | refused => rfl
  | terminated =>
    simp only [run_bind, run_get, andThen_ok]
    cases eh'.lastEvent <;> rfl

end lawless

section forward
variable {α : Type} [LinearOrder α]
variable [Add α] [Sub α] [Mul α] [Div α] [Neg α] [Zero α] [One α] [NatCast α] [BEq α] [LawfulBEq α]
variable {n k : Nat} {X : Type} {S : Solver α n k X}

/-- All events are watched. -/
def Watches (S : Solver α n k X) (L : Locator α) (es : List (EventSpec α n)) (pts : List (St α n k X))
    (c : St α n k X) (evs : List (Event α n k)) : Prop :=
  List.Forall₂ (fun e ev => Watch S L e pts c ev) es evs

theorem terminalOn_cons {e : EventSpec α n} {es : List (EventSpec α n)} {a b : St α n k X} :
    TerminalOn (e :: es) a b ↔ (e.terminal = some true ∧ CrossesOn e a b) ∨ TerminalOn es a b := by
  simp [TerminalOn]

theorem noTerminal_tail {e : EventSpec α n} {es : List (EventSpec α n)} {l : List (St α n k X)}
    (h : NoTerminal (e :: es) l) : NoTerminal es l :=
  fun a b hc ht => h a b hc (terminalOn_cons.mpr (Or.inr ht))

/-- A terminal event without triggers has no records. -/
theorem watch_fresh {L : Locator α} {e : EventSpec α n} {es : List (EventSpec α n)} {pts : List (St α n k X)}
    {c : St α n k X} {ev : Event α n k} (hw : Watch S L e pts c ev) (he : e.terminal = some true)
    (hn : NoTerminal (e :: es) (pts ++ [c])) : ev.t = [] ∧ ev.y = [] := by
  have hl := hw.logged
  rcases ht : ev.t with _ | ⟨x, l⟩
  · refine ⟨rfl, ?_⟩
    have := hl.length_eq
    rw [ht] at this
    exact List.length_eq_zero_iff.mp this.symm
  · exfalso
    rcases hy : ev.y with _ | ⟨y, l'⟩
    · have := hl.length_eq
      rw [ht, hy] at this
      simp at this
    · obtain ⟨a, b, h1, h2⟩ := hl.sound (x, y) (by rw [ht, hy]; simp)
      exact hn a b h1 (terminalOn_cons.mpr (Or.inl ⟨he, h2.crosses⟩))

theorem handlerLoop_spec (hM : Forward S) {D : Dense S.method S.rhs} {bo : BisectOpts α} {L : Locator α} (hL : Locates bo L)
    {pts : List (St α n k X)} {a b : St α n k X} (hab : Stepped D a b) {es : List (EventSpec α n)}
    {evs : List (Event α n k)} (hw : Watches S L es pts a evs) (hn : NoTerminal es (pts ++ [a])) :
    ∀ (term : Bool) (last : Option (α × Ref α n k)) (s s' : St α n k X) r, At D b s →
      (handlerLoop bo S.interpAt evs term last).run s = some (r, s') →
      At D b s' ∧ ∀ evs' term' last', r = .ok (evs', term', last') →
        Watches S L es (pts ++ [a]) b evs' ∧ (term' = true ↔ term = true ∨ TerminalOn es a b) ∧
        (¬ TerminalOn es a b → last' = last) ∧
        (TerminalOn es a b → ∃ i τ q, last' = some (τ, q) ∧ LastTerminal S L es i a b τ q ∧
          (evs'.map fun ev => ev.t)[i]? = some [τ]) := by
  induction hw with
  | nil =>
    intro term last s s' r hs h
    rw [handlerLoop] at h
    cases h
    refine ⟨hs, fun evs' term' last' he => ?_⟩
    simp only [Except.ok.injEq, Prod.mk.injEq] at he
    obtain ⟨rfl, rfl, rfl⟩ := he
    refine ⟨.nil, ?_, fun _ => rfl, ?_⟩ <;> simp [TerminalOn]
  | @cons e ev es evs he hes ih =>
    intro term last s s' r hs h
    rw [handlerLoop, run_bind, andThen_eq_some] at h
    rcases h with ⟨er, s1, h1, h2⟩ | ⟨⟨ev', stop⟩, s1, h1, h2⟩
    · cases h2
      exact ⟨(evaluate_spec hM hL hab he hs h1).1, by simp⟩
    · obtain ⟨hs1, hp⟩ := evaluate_spec hM hL hab he hs h1
      obtain ⟨hw', hstop, hcase⟩ := hp ev' stop rfl
      simp only [run_bind] at h2
      rw [andThen_eq_some] at h2
      rcases h2 with ⟨er, s2, h3, h4⟩ | ⟨⟨evs1, term1, last1⟩, s2, h3, h4⟩
      · cases h4
        exact ⟨(ih (noTerminal_tail hn) _ _ _ _ _ hs1 h3).1, by simp⟩
      · obtain ⟨hs2, hp2⟩ := ih (noTerminal_tail hn) _ _ _ _ _ hs1 h3
        obtain ⟨g1, g2, g3, g4⟩ := hp2 _ _ _ rfl
        simp only [run_pure, Option.some.injEq, Prod.mk.injEq] at h4
        obtain ⟨rfl, rfl⟩ := h4
        refine ⟨hs2, fun evs' term' last' heq => ?_⟩
        simp only [Except.ok.injEq, Prod.mk.injEq] at heq
        obtain ⟨rfl, rfl, rfl⟩ := heq
        refine ⟨.cons hw' g1, ?_, ?_, ?_⟩
        · rw [g2, Bool.or_eq_true, hstop, terminalOn_cons, or_assoc]
        · intro hnt
          rw [terminalOn_cons, not_or] at hnt
          rw [g3 hnt.2]
          have : stop = false := by
            rw [← Bool.not_eq_true, hstop]; exact hnt.1
          simp [this]
        · intro ht
          by_cases ht2 : TerminalOn es a b
          · obtain ⟨i, τ, q, h5, ⟨e1, h6, h7, h8, h9⟩, h10⟩ := g4 ht2
            refine ⟨i + 1, τ, q, h5, ⟨e1, by simpa using h6, h7, h8, ?_⟩, by simpa using h10⟩
            intro j e' hj
            obtain ⟨j, rfl⟩ : ∃ j', j = j' + 1 := ⟨j - 1, by omega⟩
            simpa using h9 j e' (by omega)
          · have ht1 : e.terminal = some true ∧ CrossesOn e a b := by
              rcases terminalOn_cons.mp ht with h | h
              · exact h
              · exact absurd h ht2
            obtain ⟨f1, f2⟩ := watch_fresh he ht1.1 hn
            rcases hcase with h5 | h5 | ⟨τ, q, h5, h6, h7⟩
            · exact absurd ht1.2 h5.1
            · exact absurd f1 h5.2.2.2
            · rw [f1] at h5
              rw [f2] at h6
              have hl : ev'.lastEvent = some (τ, q) := by
                unfold Event.lastEvent
                rw [h5, h6]
                rfl
              refine ⟨0, τ, q, ?_, ⟨e, rfl, ht1.1, h7, ?_⟩, ?_⟩
              · rw [g3 ht2, if_pos (hstop.mpr ht1), hl]
              · intro j e' hj h8 h9 h10
                obtain ⟨j, rfl⟩ : ∃ j', j = j' + 1 := ⟨j - 1, by omega⟩
                rw [List.getElem?_cons_succ] at h8
                exact ht2 ⟨e', List.mem_of_getElem? h8, h9, h10⟩
              · simp [h5]

theorem handler_spec (hM : Forward S) {D : Dense S.method S.rhs} {bo : BisectOpts α} {L : Locator α} (hL : Locates bo L)
    {pts : List (St α n k X)} {a b : St α n k X} (hab : Stepped D a b) {es : List (EventSpec α n)}
    {eh : EventHandler α n k} (hw : Watches S L es pts a eh.events) (hn : NoTerminal es (pts ++ [a]))
    {s s' : St α n k X} {r : Except Err (EventHandler α n k × Bool)} (hs : At D b s)
    (h : (eh.evaluate bo S.interpAt).run s = some (r, s')) :
    At D b s' ∧ ∀ eh' term, r = .ok (eh', term) →
        Watches S L es (pts ++ [a]) b eh'.events ∧ (term = true ↔ TerminalOn es a b) ∧
        (TerminalOn es a b → ∃ i τ q, eh'.lastEvent = some (τ, q) ∧ LastTerminal S L es i a b τ q ∧
          (eh'.events.map fun ev => ev.t)[i]? = some [τ]) := by
  unfold EventHandler.evaluate at h
  rw [run_bind, andThen_eq_some] at h
  rcases h with ⟨er, s1, h1, h2⟩ | ⟨⟨evs, term1, last⟩, s1, h1, h2⟩
  · cases h2
    exact ⟨(handlerLoop_spec hM hL hab hw hn _ _ _ _ _ hs h1).1, by simp⟩
  · obtain ⟨hs1, hp⟩ := handlerLoop_spec hM hL hab hw hn _ _ _ _ _ hs h1
    obtain ⟨g1, g2, g3, g4⟩ := hp _ _ _ rfl
    simp only [run_pure, Option.some.injEq, Prod.mk.injEq] at h2
    obtain ⟨rfl, rfl⟩ := h2
    refine ⟨hs1, fun eh' term he => ?_⟩
    simp only [Except.ok.injEq, Prod.mk.injEq] at he
    obtain ⟨rfl, rfl⟩ := he
    exact ⟨g1, by simpa using g2, g4⟩

theorem noTerminal_snoc {es : List (EventSpec α n)} {pts : List (St α n k X)} {a b : St α n k X} :
    NoTerminal es (pts ++ [a, b]) ↔ NoTerminal es (pts ++ [a]) ∧ ¬ TerminalOn es a b := by
  constructor
  · intro h
    exact ⟨fun x y hc => h x y (consecutive_snoc.mpr (Or.inl hc)), h a b (consecutive_snoc.mpr (Or.inr ⟨rfl, rfl⟩))⟩
  · rintro ⟨h1, h2⟩ x y hc
    rcases consecutive_snoc.mp hc with hc | ⟨rfl, rfl⟩
    · exact h1 x y hc
    · exact h2

/-- What the inner loop may end with, when the solver has visited `pts` and is at `a`. -/
def AdvEvPost (D : Dense S.method S.rhs) (L : Locator α) (es : List (EventSpec α n)) (b : Bound α) (ti : α)
    (pts : List (St α n k X)) (a : St α n k X) (eh' : EventHandler α n k) (res : AdvRes) (s' : St α n k X) : Prop :=
  ∃ l c pts', Path S b a l c ∧ pts ++ a :: l = pts' ++ [c] ∧ At D c s' ∧ Good D c ∧ Watches S L es pts' c eh'.events ∧
    match res with
    | .reached => Reach S b ti a c ∧ NoTerminal es (pts' ++ [c])
    | .refused => Stuck S b ti a c ∧ NoTerminal es (pts' ++ [c])
    | .terminated => ∃ l0 p, pts' = l0 ++ [p] ∧ a.t ≤ p.t ∧ p.t < ti ∧ NoTerminal es (l0 ++ [p]) ∧ TerminalOn es p c ∧ ∃ i τ q,
        eh'.lastEvent = some (τ, q) ∧ LastTerminal S L es i p c τ q ∧ (eh'.events.map fun ev => ev.t)[i]? = some [τ]

theorem advanceEvents_post (hM : Forward S) (D : Dense S.method S.rhs) {bo : BisectOpts α} {L : Locator α} (hL : Locates bo L)
    (es : List (EventSpec α n)) (b : Bound α) (ti : α) :
    ∀ eh s r s', (S.advanceEvents bo b ti eh).run s = some (r, s') → ∀ eh' res, r = .ok (eh', res) →
      ∀ pts a, At D a s → Good D a → Watches S L es pts a eh.events → NoTerminal es (pts ++ [a]) →
        AdvEvPost D L es b ti pts a eh' res s' := by
  refine advanceEvents.fixpoint_induct S bo b ti
    (fun x => ∀ (eh : EventHandler α n k) s r s', (x eh).run s = some (r, s') → ∀ eh' res, r = .ok (eh', res) →
      ∀ pts a, At D a s → Good D a → Watches S L es pts a eh.events → NoTerminal es (pts ++ [a]) →
        AdvEvPost D L es b ti pts a eh' res s') ?_ ?_
  · exact Lean.Order.admissible_pi_apply (fun (eh : EventHandler α n k) (x : Py (St α n k X) (EventHandler α n k × AdvRes)) =>
      ∀ s r s', x.run s = some (r, s') → ∀ eh' res, r = .ok (eh', res) →
      ∀ pts a, At D a s → Good D a → Watches S L es pts a eh.events → NoTerminal es (pts ++ [a]) →
        AdvEvPost D L es b ti pts a eh' res s') fun eh => admissible_post fun s r s' => ∀ eh' res, r = .ok (eh', res) →
      ∀ pts a, At D a s → Good D a → Watches S L es pts a eh.events → NoTerminal es (pts ++ [a]) →
        AdvEvPost D L es b ti pts a eh' res s'
  · intro loop ih eh s r s' h eh' res hr pts a hs ha hw hn
    subst hr
    have et : s.t = a.t := same_t hs.1
    simp only [run_bind, run_ite, run_get, andThen_ok, run_pure] at h
    split at h
    · rename_i hlt
      have hlt' : a.t < ti := by rw [← et]; exact hlt
      rw [andThen_eq_ok] at h
      obtain ⟨c, s1, h1, h2⟩ := h
      cases c with
      | false =>
        obtain ⟨hf, rfl⟩ := pstep_false.mp h1
        simp only [Bool.false_eq_true, if_false, Option.some.injEq, Prod.mk.injEq, Except.ok.injEq] at h2
        obtain ⟨⟨rfl, rfl⟩, rfl⟩ := h2
        exact ⟨[], a, pts, .nil a, rfl, hs, ha, hw, .here hlt' (fun hc => hf ((same_fits hs.1 b).mpr hc)), hn⟩
      | true =>
        obtain ⟨hf, ht⟩ := pstep_true.mp h1
        obtain ⟨a1, ht1, hsame⟩ := takes_same D hs.1 ht
        have hf1 : Fits b a := (same_fits hs.1 b).mp hf
        have hab := stepped_takes hM ha ht1
        have hs1 : At D a1 s1 := ⟨hsame, good_step hM hs.2 ht⟩
        simp only [if_true] at h2
        rw [andThen_eq_ok] at h2
        obtain ⟨⟨eh1, stop⟩, s2, h3, h4⟩ := h2
        obtain ⟨hs2, hp⟩ := handler_spec hM hL hab hw hn hs1 h3
        obtain ⟨g1, g2, g3⟩ := hp eh1 stop rfl
        simp only at h4
        by_cases hstop : stop = true
        · rw [if_pos hstop] at h4
          simp only [Option.some.injEq, Prod.mk.injEq, Except.ok.injEq] at h4
          obtain ⟨⟨rfl, rfl⟩, rfl⟩ := h4
          refine ⟨[a1], a1, pts ++ [a], .cons hf1 ht1 (.nil a1), by simp, hs2, hab.good, g1, pts, a, rfl, le_refl _, hlt', hn, g2.mp hstop, ?_⟩
          exact g3 (g2.mp hstop)
        · rw [if_neg hstop] at h4
          have hn1 : NoTerminal es ((pts ++ [a]) ++ [a1]) := by
            rw [List.append_assoc]
            exact noTerminal_snoc.mpr ⟨hn, fun hc => hstop (g2.mpr hc)⟩
          obtain ⟨l, c, pts', p1, p2, p3, p4, p5, p6⟩ := ih eh1 s2 _ s' h4 eh' res rfl (pts ++ [a]) a1 hs2 hab.good g1 hn1
          refine ⟨a1 :: l, c, pts', .cons hf1 ht1 p1, by rw [← p2]; simp, p3, p4, p5, ?_⟩
          cases res with
          | reached => exact ⟨.step hlt' hf1 ht1 p6.1, p6.2⟩
          | refused => exact ⟨.step hlt' hf1 ht1 p6.1, p6.2⟩
          | terminated =>
            obtain ⟨l0, p, q1, q2, q3⟩ := p6
            exact ⟨l0, p, q1, hab.le.trans q2, q3⟩
    · rename_i hlt
      simp only [Option.some.injEq, Prod.mk.injEq, Except.ok.injEq] at h
      obtain ⟨⟨rfl, rfl⟩, rfl⟩ := h
      exact ⟨[], a, pts, .nil a, rfl, hs, ha, hw, .here (by rw [← et]; exact hlt), hn⟩

theorem path_append {b : Bound α} {s a c : St α n k X} {l1 l2 : List (St α n k X)} (h1 : Path S b s l1 a)
    (h2 : Path S b a l2 c) : Path S b s (l1 ++ l2) c := by
  induction h1 with
  | nil => exact h2
  | cons hf ht _ ih => exact .cons hf ht (ih h2)

/-- What the whole event loop ends with: the watched events, and the answers `run` gives for the first `m` times with,
after a terminal trigger, the pair of that event. -/
def RunEvPost (D : Dense S.method S.rhs) (L : Locator α) (es : List (EventSpec α n)) (b : Bound α) (ts : List α)
    (pts : List (St α n k X)) (a : St α n k X) (eh' : EventHandler α n k) (out : List (α × Vec α n)) (s' : St α n k X) : Prop :=
  ∃ l c pts', Path S b a l c ∧ pts ++ a :: l = pts' ++ [c] ∧ At D c s' ∧ Good D c ∧ Watches S L es pts' c eh'.events ∧
    ((NoTerminal es (pts' ++ [c]) ∧ ∃ c', (S.runEval b ts).run a = some (.ok out, c') ∧ Same D c' c) ∨
     (∃ l0 p, pts' = l0 ++ [p] ∧ a.t ≤ p.t ∧ NoTerminal es (l0 ++ [p]) ∧ TerminalOn es p c ∧ ∃ m out' c' i τ q, m < ts.length ∧
        (∀ x ∈ ts.drop m, p.t < x) ∧ (∀ x ∈ ts.take m, x ≤ p.t) ∧
        (S.runEval b (ts.take m)).run a = some (.ok out', c') ∧ out'.length = m ∧
        out = out' ++ [(τ, q.deref c.cache)] ∧ LastTerminal S L es i p c τ q ∧
        (eh'.events.map fun ev => ev.t)[i]? = some [τ]))

theorem reach_le (hM : Forward S) {D : Dense S.method S.rhs} {b : Bound α} {ti : α} {s s' : St α n k X}
    (hr : Reach S b ti s s') (hg : Good D s) : s.t ≤ s'.t := by
  induction hr with
  | here _ => exact le_refl _
  | step _ _ ht _ ih => exact (stepped_takes hM hg ht).le.trans (ih (good_step hM hg ht))

theorem interp_same {D : Dense S.method S.rhs} (hM : Forward S) {x y x' : St α n k X} (hxy : Same D x y)
    (hx : Good D x) (hy : Good D y) {t : α} (h1 : x.cache.ts (Buffer.iOld k) ≤ t) (h2 : t ≤ x.t) {r : Ref α n k}
    (h : (S.interpAt t).run x = some (.ok r, x')) :
    ∃ r2 y', (S.interpAt t).run y = some (.ok r2, y') ∧ r2.deref y.cache = r.deref x.cache ∧ Same D x' y' := by
  have hv := (D.interp_iff t x (r.deref x.cache) hx.ordered hx.coh h1 h2).mp ⟨r, x', h, rfl⟩
  rw [hxy.1, hxy.2.2] at hv
  obtain ⟨r2, y', h3, h4⟩ := (D.interp_iff t y _ hy.ordered hy.coh (by rw [← hxy.1]; exact h1)
    (by rw [← same_t hxy]; exact h2)).mpr hv
  have e1 := same_interp (D := D) hM h
  have e2 := same_interp (D := D) hM h3
  refine ⟨r2, y', h3, by rw [h4, hxy.1], ?_⟩
  exact ⟨e1.1.trans (hxy.1.trans e2.1.symm), e1.2.1.trans (hxy.2.1.trans e2.2.1.symm),
    e1.2.2.trans (hxy.2.2.trans e2.2.2.symm)⟩

theorem runEval_same (hM : Forward S) (D : Dense S.method S.rhs) {b : Bound α} {ts : List α}
    (hs : ts.Pairwise (· ≤ ·)) : ∀ {x y x' : St α n k X} {out : List (α × Vec α n)}, Same D x y → Good D x → Good D y →
    (∀ u ∈ ts, x.cache.ts (Buffer.iOld k) ≤ u) → (S.runEval b ts).run x = some (.ok out, x') →
    ∃ y', (S.runEval b ts).run y = some (.ok out, y') ∧ Same D x' y' := by
  induction ts with
  | nil =>
    intro x y x' out hxy hx hy h0 h
    rw [runEval] at h
    cases h
    exact ⟨y, rfl, hxy⟩
  | cons ti rest ih =>
    intro x y x' out hxy hx hy h0 h
    obtain ⟨hs1, hs2⟩ := List.pairwise_cons.mp hs
    rw [runEval_cons, andThen_eq_ok] at h
    obtain ⟨c, s1, h1, h2⟩ := h
    cases c with
    | false =>
      simp at h2
      obtain ⟨rfl, rfl⟩ := h2
      obtain ⟨y1, hy1, hxy1⟩ := stuck_same D hxy (advance_false.mp h1)
      exact ⟨y1, by rw [runEval_cons, advance_false.mpr hy1]; simp, hxy1⟩
    | true =>
      simp only [if_true] at h2
      rw [andThen_eq_ok] at h2
      obtain ⟨r, s2, h3, h4⟩ := h2
      rw [andThen_eq_ok] at h4
      obtain ⟨out', s3, h5, h6⟩ := h4
      cases h6
      have hr := advance_true.mp h1
      obtain ⟨y1, hy1, hxy1⟩ := reach_same D hxy hr
      have hg1 := good_reach hM hr hx
      have hg1' := good_reach hM hy1 hy
      have h01 := old_reach hM hr hx (h0 ti List.mem_cons_self)
      obtain ⟨r2, y2, h7, h8, h9⟩ := interp_same hM hxy1 hg1 hg1' h01 (not_lt.mp (reach_not_lt hr)) h3
      have e2 := (hM.library.shaped.interp _ _ _ _ _ h3).1
      have e3 := (hM.library.shaped.interp _ _ _ _ _ h7).1
      obtain ⟨y3, h10, h11⟩ := ih hs2 h9 (good_interp hM h3 hg1) (good_interp hM h7 hg1') (by
        intro u hu
        rw [e2]
        exact h01.trans (hs1 u hu)) h5
      refine ⟨y3, ?_, h11⟩
      rw [runEval_cons, advance_true.mpr hy1]
      simp only [andThen_ok, if_true, h7, h10]
      rw [e3, h8, e2]

theorem runEvalEvents_post (hM : Forward S) (D : Dense S.method S.rhs) {bo : BisectOpts α} {L : Locator α} (hL : Locates bo L)
    (es : List (EventSpec α n)) (b : Bound α) {ts : List α} (hs : ts.Pairwise (· ≤ ·)) :
    ∀ {eh eh' : EventHandler α n k} {s s' : St α n k X} {out : List (α × Vec α n)} {pts : List (St α n k X)} {a : St α n k X},
      (S.runEvalEvents bo b ts eh).run s = some (.ok (eh', out), s') →
      At D a s → Good D a → Watches S L es pts a eh.events → NoTerminal es (pts ++ [a]) →
      (∀ u ∈ ts, a.cache.ts (Buffer.iOld k) ≤ u) → RunEvPost D L es b ts pts a eh' out s' := by
  induction ts with
  | nil =>
    intro eh eh' s s' out pts a h hA ha hw hn h0
    rw [runEvalEvents] at h
    cases h
    exact ⟨[], a, pts, .nil a, rfl, hA, ha, hw, Or.inl ⟨hn, a, rfl, rfl, rfl, rfl⟩⟩
  | cons ti rest ih =>
    intro eh eh' s s' out pts a h hA ha hw hn h0
    obtain ⟨hs1, hs2⟩ := List.pairwise_cons.mp hs
    rw [runEvalEvents_cons, andThen_eq_ok] at h
    obtain ⟨⟨eh1, res⟩, s1, h1, h2⟩ := h
    obtain ⟨l, c, pts', p1, p2, p3, p4, p5, p6⟩ := advanceEvents_post hM D hL es b ti _ _ _ _ h1 eh1 res rfl pts a hA ha hw hn
    cases res with
    | refused =>
      cases h2
      refine ⟨l, c, pts', p1, p2, p3, p4, p5, Or.inl ⟨p6.2, c, ?_, rfl, rfl, rfl⟩⟩
      rw [runEval_cons, advance_false.mpr p6.1]
      simp
    | terminated =>
      obtain ⟨l0, p, q1, q2, q3, q4, q5, i, τ, q, q6, q7, q8⟩ := p6
      simp only [q6] at h2
      cases h2
      refine ⟨l, c, pts', p1, p2, p3, p4, p5, Or.inr ⟨l0, p, q1, q2, q4, q5, 0, [], a, i, τ, q, by simp, ?_, by simp,
        rfl, rfl, ?_, q7, q8⟩⟩
      · intro x hx
        rcases List.mem_cons.mp hx with rfl | hx
        · exact q3
        · exact lt_of_lt_of_le q3 (hs1 x hx)
      · rw [p3.1.1]; rfl
    | reached =>
      obtain ⟨hr, hn1⟩ := p6
      simp only at h2
      rw [andThen_eq_ok] at h2
      obtain ⟨r, s2, h3, h4⟩ := h2
      rw [andThen_eq_ok] at h4
      obtain ⟨⟨eh2, out2⟩, s3, h5, h6⟩ := h4
      cases h6
      have h01 := old_reach hM hr ha (h0 ti List.mem_cons_self)
      have hti := not_lt.mp (reach_not_lt hr)
      have h02 : ∀ u ∈ rest, c.cache.ts (Buffer.iOld k) ≤ u := fun u hu => h01.trans (hs1 u hu)
      obtain ⟨r2, c2, g1, g2, g3⟩ := interp_same hM p3.1 p3.2 p4 (by rw [p3.1.1]; exact h01)
        (by rw [same_t p3.1]; exact hti) h3
      have e1 := (hM.library.shaped.interp _ _ _ _ _ h3).1
      have e2 := (hM.library.shaped.interp _ _ _ _ _ g1).1
      have hc2 : Same D c c2 := by
        have := same_interp (D := D) hM g1
        exact ⟨this.1.symm, this.2.1.symm, this.2.2.symm⟩
      have hgc2 := good_interp hM g1 p4
      -- `run` from `a` for the first times
      have key : ∀ (tl : List α) out3 c3, tl.Pairwise (· ≤ ·) → (∀ u ∈ tl, c.cache.ts (Buffer.iOld k) ≤ u) →
          (S.runEval b tl).run c = some (.ok out3, c3) →
          ∃ c4, (S.runEval b (ti :: tl)).run a = some (.ok ((ti, r.deref s2.cache) :: out3), c4) ∧ Same D c3 c4 := by
        intro tl out3 c3 t1 t2 t3
        obtain ⟨c4, t4, t5⟩ := runEval_same hM D t1 hc2 p4 hgc2 t2 t3
        refine ⟨c4, ?_, t5⟩
        rw [runEval_cons, advance_true.mpr hr]
        simp only [andThen_ok, if_true, g1, t4]
        rw [e2, g2, e1]
      obtain ⟨l', c', pts'', r1, r2', r3, r4, r5, r6⟩ := ih hs2 h5 (at_interp hM h3 p3) p4 p5 hn1 h02
      refine ⟨l ++ l', c', pts'', path_append p1 r1, ?_, r3, r4, r5, ?_⟩
      · rw [← r2', ← List.cons_append, ← List.append_assoc, p2, List.append_assoc]; rfl
      · rcases r6 with ⟨t1, c3, t2, t3⟩ | ⟨l0, p, q1, q2, q3, q4, m, out', c3, i, τ, q, q5, q6, q7, q8, q9, q10, q11, q12⟩
        · left
          obtain ⟨c4, t4, t5⟩ := key rest out2 c3 hs2 h02 t2
          refine ⟨t1, c4, t4, ?_⟩
          exact ⟨t5.1.symm.trans t3.1, t5.2.1.symm.trans t3.2.1, t5.2.2.symm.trans t3.2.2⟩
        · right
          obtain ⟨c4, t4, t5⟩ := key (rest.take m) out' c3 (hs2.sublist (List.take_sublist _ _))
            (fun u hu => h02 u (List.mem_of_mem_take hu)) q8
          refine ⟨l0, p, q1, (reach_le hM hr ha).trans q2, q3, q4, m + 1, (ti, r.deref s2.cache) :: out', c4, i, τ, q,
            by simpa using q5, by simpa using q6, ?_, by simpa using t4, by simp [q9], by simp [q10], q11, q12⟩
          intro x hx
          rw [List.take_succ_cons] at hx
          rcases List.mem_cons.mp hx with rfl | hx
          · exact hti.trans q2
          · exact q7 x hx

end forward
end Nbkode
