import Verif.Proofs.EventsTotal

/-! Two solvers which differ only in the lazily refreshed interpolator behave alike. -/

set_option autoImplicit false
set_option linter.unusedSectionVars false

namespace Nbkode
open Py Spec Solver

section sim
variable {σ A B : Type}

/-- Run from related states the program returns the same value, with the property `Q`, and related states. -/
def Sim (R : σ → σ → Prop) (Q : A → Prop) (p : Py σ A) : Prop :=
  ∀ x y, R x y → ∀ a x', p.run x = some (.ok a, x') → (∃ y', p.run y = some (.ok a, y') ∧ R x' y') ∧ Q a

theorem sim_pure {R : σ → σ → Prop} {Q : A → Prop} {a : A} (h : Q a) : Sim R Q (pure a : Py σ A) := by
  intro x y hR a' x' hr
  rw [run_pure] at hr
  cases hr
  exact ⟨⟨y, rfl, hR⟩, h⟩

theorem sim_throw {R : σ → σ → Prop} {Q : A → Prop} {e : Err} : Sim R Q (throw e : Py σ A) := by
  intro x y hR a' x' hr
  rw [run_throw] at hr
  cases hr

theorem sim_bind {R : σ → σ → Prop} {Q : A → Prop} {Q' : B → Prop} {p : Py σ A} {f : A → Py σ B}
    (h1 : Sim R Q p) (h2 : ∀ a, Q a → Sim R Q' (f a)) : Sim R Q' (p >>= f) := by
  intro x y hR b x' hr
  rw [run_bind, andThen_eq_ok] at hr
  obtain ⟨a, x1, r1, r2⟩ := hr
  obtain ⟨⟨y1, g1, g2⟩, g3⟩ := h1 x y hR a x1 r1
  obtain ⟨⟨y2, g4, g5⟩, g6⟩ := h2 a g3 x1 y1 g2 b x' r2
  refine ⟨⟨y2, ?_, g5⟩, g6⟩
  rw [run_bind, g1, andThen_ok, g4]

theorem sim_ite {R : σ → σ → Prop} {Q : A → Prop} {c : Prop} [Decidable c] {p q : Py σ A} (h1 : c → Sim R Q p)
    (h2 : ¬ c → Sim R Q q) : Sim R Q (if c then p else q) := by
  split
  · exact h1 ‹_›
  · exact h2 ‹_›

theorem sim_ofExcept {R : σ → σ → Prop} {Q : A → Prop} {e : Except Err A} (h : ∀ a, e = .ok a → Q a) :
    Sim R Q (Py.ofExcept e : Py σ A) := by
  intro x y hR a' x' hr
  rw [run_ofExcept] at hr
  simp only [Option.some.injEq, Prod.mk.injEq] at hr
  obtain ⟨rfl, rfl⟩ := hr
  exact ⟨⟨y, by rw [run_ofExcept], hR⟩, h _ rfl⟩

/-- Reading the state, when related states give the same program. -/
theorem sim_get {R : σ → σ → Prop} {Q : A → Prop} {f : σ → Py σ A} (h : ∀ x y, R x y → f x = f y)
    (h2 : ∀ x y, R x y → Sim R Q (f x)) : Sim R Q ((get : Py σ σ) >>= f) := by
  intro x y hR a x' hr
  rw [run_bind, run_get, andThen_ok] at hr
  obtain ⟨⟨y', g1, g2⟩, g3⟩ := h2 x y hR x y hR a x' hr
  refine ⟨⟨y', ?_, g2⟩, g3⟩
  rw [run_bind, run_get, andThen_ok, ← h x y hR, g1]

theorem sim_weaken {R : σ → σ → Prop} {Q Q' : A → Prop} {p : Py σ A} (h : Sim R Q p) (hQ : ∀ a, Q a → Q' a) :
    Sim R Q' p := by
  intro x y hR a x' hr
  obtain ⟨g1, g2⟩ := h x y hR a x' hr
  exact ⟨g1, hQ a g2⟩

end sim

section bisect
variable {α : Type} [Field α] [LinearOrder α] [IsStrictOrderedRing α] [BEq α] [LawfulBEq α] {σ : Type}

theorem sim_bisectLoop {R : σ → σ → Prop} {fn : α → Py σ α} {lo hi : α}
    (h : ∀ x, lo ≤ x → x ≤ hi → Sim R (fun _ => True) (fn x)) (tol rtol : α) (m : Nat) :
    ∀ (left yl right : α) (mid : Option α), lo ≤ left → left ≤ right → right ≤ hi → (∀ q, mid = some q → lo ≤ q ∧ q ≤ hi) →
      Sim R (fun τ => lo ≤ τ ∧ τ ≤ hi) (bisectLoop fn tol rtol m left yl right mid) := by
  induction m with
  | zero =>
    intro left yl right mid _ _ _ hm
    cases mid with
    | none => exact sim_throw
    | some q => exact sim_pure (hm q rfl)
  | succ m ih =>
    intro left yl right mid h1 h2 h3 hm
    rw [bisectLoop]
    refine sim_bind (Q := fun q => left ≤ q ∧ q ≤ right) (sim_ofExcept ?_) ?_
    · intro q hq
      have h2' : (((2 : Nat) : α)) = 2 := by norm_num
      unfold pyDiv at hq
      split at hq
      · cases hq
      · cases hq
        rw [h2']
        constructor <;> linarith
    · rintro q ⟨hq1, hq2⟩
      refine sim_bind (h q (h1.trans hq1) (hq2.trans h3)) fun ym _ => ?_
      refine sim_ite (fun _ => sim_pure ⟨h1.trans hq1, hq2.trans h3⟩) fun _ => ?_
      refine sim_ite (fun _ => ?_) fun _ => ?_
      · exact ih _ _ _ _ (h1.trans hq1) hq2 h3 fun q' e => by cases e; exact ⟨h1.trans hq1, hq2.trans h3⟩
      · exact ih _ _ _ _ h1 hq1 (hq2.trans h3) fun q' e => by cases e; exact ⟨h1.trans hq1, hq2.trans h3⟩

theorem sim_bisect {R : σ → σ → Prop} {fn : α → Py σ α} {lo hi : α}
    (h : ∀ x, lo ≤ x → x ≤ hi → Sim R (fun _ => True) (fn x)) (tol rtol : α) (m : Nat) :
    Sim R (fun τ => lo ≤ τ ∧ τ ≤ hi) (bisect fn lo hi tol m rtol) := by
  unfold bisect
  simp only [bind_pure_comp, pure_bind]
  refine sim_ite (fun _ => ?_) fun hlt => ?_
  · exact sim_throw
  · have hlt : lo < hi := by simpa using hlt
    refine sim_bind (h lo (le_refl _) hlt.le) fun yl _ => ?_
    refine sim_ite (fun _ => sim_pure ⟨le_refl _, hlt.le⟩) fun _ => ?_
    refine sim_bind (h hi hlt.le (le_refl _)) fun yr _ => ?_
    refine sim_ite (fun _ => sim_pure ⟨hlt.le, le_refl _⟩) fun _ => ?_
    refine sim_ite (fun _ => sim_throw) fun _ => ?_
    exact sim_bisectLoop h tol rtol m lo yl hi none (le_refl _) hlt.le (le_refl _) (by simp)

end bisect

section field
variable {α : Type} [Field α] [LinearOrder α] [IsStrictOrderedRing α] [BEq α] [LawfulBEq α]
variable {n k : Nat} {X : Type} {S : Solver α n k X}

/-- Both states are `b` up to the interpolator. -/
def RelAt (D : Dense S.method S.rhs) (b x y : St α n k X) : Prop := At D b x ∧ At D b y

/-- The two states agree up to the interpolator. -/
def Rel (D : Dense S.method S.rhs) (x y : St α n k X) : Prop := Same D x y ∧ Good D x ∧ Good D y

theorem Rel.at {D : Dense S.method S.rhs} {x y : St α n k X} (h : Rel D x y) : RelAt D x x y :=
  ⟨⟨⟨rfl, rfl, rfl⟩, h.2.1⟩, ⟨⟨h.1.1.symm, h.1.2.1.symm, h.1.2.2.symm⟩, h.2.2⟩⟩

theorem RelAt.rel {D : Dense S.method S.rhs} {b x y : St α n k X} (h : RelAt D b x y) : Rel D x y :=
  ⟨⟨h.1.1.1.trans h.2.1.1.symm, h.1.1.2.1.trans h.2.1.2.1.symm, h.1.1.2.2.trans h.2.1.2.2.symm⟩, h.1.2, h.2.2⟩

theorem Rel.symm {D : Dense S.method S.rhs} {x y : St α n k X} (h : Rel D x y) : Rel D y x :=
  ⟨⟨h.1.1.symm, h.1.2.1.symm, h.1.2.2.symm⟩, h.2.2, h.2.1⟩

theorem shape_eq {o : Option (Fin (k + 2))} {r r2 : Ref α n k} {c : Buffer α n k} (h1 : HasShape o r) (h2 : HasShape o r2)
    (hd : r2.deref c = r.deref c) : r2 = r := by
  cases o with
  | some i => rw [show r = .row i from h1, show r2 = .row i from h2]
  | none =>
    obtain ⟨v, rfl⟩ := h1
    obtain ⟨v2, rfl⟩ := h2
    rw [show v2 = v from hd]

theorem sim_interp (hM : WellConfigured S.method) (D : Dense S.method S.rhs) {b : St α n k X} {t : α}
    (h1 : b.cache.ts (Buffer.iOld k) ≤ t) (h2 : t ≤ b.t) : Sim (RelAt D b) (fun _ => True) (S.interpAt t) := by
  intro x y hR r x' hr
  refine ⟨?_, trivial⟩
  obtain ⟨r2, y', g1, g2, g3⟩ := interp_same hM.forward hR.rel.1 hR.1.2 hR.2.2 (by rw [hR.1.1.1]; exact h1)
    (by rw [same_t hR.1.1]; exact h2) hr
  have e := D.interp_shape t x r x' hr
  have e2 := D.interp_shape t y r2 y' g1
  rw [hR.2.1.1] at e2 g2
  rw [hR.1.1.1] at e g2
  rw [shape_eq e e2 g2] at g1
  exact ⟨y', g1, at_interp hM.forward hr hR.1, at_interp hM.forward g1 hR.2⟩

theorem sim_eventAtSol (hM : WellConfigured S.method) (D : Dense S.method S.rhs) {b : St α n k X} {t : α}
    (f : α → Vec α n → α) (h1 : b.cache.ts (Buffer.iOld k) ≤ t) (h2 : t ≤ b.t) :
    Sim (RelAt D b) (fun _ => True) (eventAtSol f S.interpAt t) := by
  unfold eventAtSol
  refine sim_bind (sim_interp hM D h1 h2) fun r _ => ?_
  refine sim_get (fun x y hR => ?_) fun x y _ => sim_pure trivial
  rw [hR.1.1.1, hR.2.1.1]

theorem sim_recordAt (hM : WellConfigured S.method) (D : Dense S.method S.rhs) {b : St α n k X} {t : α}
    (ev : Event α n k) (h1 : b.cache.ts (Buffer.iOld k) ≤ t) (h2 : t ≤ b.t) :
    Sim (RelAt D b) (fun _ => True) (recordAt S.interpAt ev t) := by
  unfold recordAt
  refine sim_ite (fun _ => sim_pure trivial) fun _ => ?_
  exact sim_bind (sim_interp hM D h1 h2) fun r _ => sim_pure trivial

theorem sim_evaluate (hM : WellConfigured S.method) (D : Dense S.method S.rhs) {b : St α n k X} (bo : BisectOpts α)
    (ev : Event α n k) (h1 : b.cache.ts (Buffer.iOld k) ≤ ev.lastT) (h2 : ev.lastT ≤ b.t) :
    Sim (RelAt D b) (fun p => p.1.lastT = b.t) (ev.evaluate bo S.interpAt) := by
  intro x y hR p x' hr
  rw [evaluate_run] at hr
  have ex : x.cache = b.cache := hR.1.1.1
  have ey : y.cache = b.cache := hR.2.1.1
  have hob : b.cache.ts (Buffer.iOld k) ≤ b.t := h1.trans h2
  rw [ex] at hr
  rw [andThen_eq_ok] at hr
  obtain ⟨ev', x1, r1, r2⟩ := hr
  cases r2
  refine ⟨?_, rfl⟩
  have hroot : Sim (RelAt D b) (fun τ => b.cache.ts (Buffer.iOld k) ≤ τ ∧ τ ≤ b.t)
      (rootOf bo S.interpAt ev (ev.func b.cache.t b.cache.y) b.cache.t) := by
    unfold rootOf
    refine sim_ite (fun _ => sim_pure ⟨hob, le_refl _⟩) fun _ => ?_
    refine sim_weaken (sim_bisect (lo := ev.lastT) (hi := b.cache.t) ?_ _ _ _) fun τ hτ => ⟨h1.trans hτ.1, hτ.2⟩
    intro z hz1 hz2
    exact sim_eventAtSol hM D _ (h1.trans hz1) hz2
  have hbody : ∃ y1, (if triggers ev.direction ev.lastValue (ev.func b.cache.t b.cache.y) then
        andThen ((rootOf bo S.interpAt ev (ev.func b.cache.t b.cache.y) b.cache.t).run y) fun root s1 =>
          (recordAt S.interpAt ev root).run s1 else some (.ok ev, y)) = some (.ok ev', y1) ∧ RelAt D b x' y1 := by
    split at r1
    · rename_i ht
      rw [if_pos ht]
      rw [andThen_eq_ok] at r1
      obtain ⟨root, x2, r3, r4⟩ := r1
      obtain ⟨⟨y2, g1, g2⟩, g3, g4⟩ := hroot x y hR root x2 r3
      obtain ⟨⟨y3, g5, g6⟩, -⟩ := sim_recordAt hM D ev g3 g4 x2 y2 g2 ev' x' r4
      exact ⟨y3, by rw [g1, andThen_ok, g5], g6⟩
    · rename_i ht
      rw [if_neg ht]
      cases r1
      exact ⟨y, rfl, hR⟩
  obtain ⟨y1, g1, g2⟩ := hbody
  refine ⟨y1, ?_, g2⟩
  rw [evaluate_run, ey, g1]
  rfl

theorem sim_handlerLoop (hM : WellConfigured S.method) (D : Dense S.method S.rhs) {b : St α n k X} (bo : BisectOpts α)
    (evs : List (Event α n k)) (h : ∀ ev ∈ evs, b.cache.ts (Buffer.iOld k) ≤ ev.lastT ∧ ev.lastT ≤ b.t) :
    ∀ term last, Sim (RelAt D b) (fun p => ∀ ev ∈ p.1, ev.lastT = b.t) (handlerLoop bo S.interpAt evs term last) := by
  induction evs with
  | nil => intro term last; exact sim_pure (by simp)
  | cons ev evs ih =>
    intro term last
    rw [handlerLoop]
    refine sim_bind (sim_evaluate hM D bo ev (h ev List.mem_cons_self).1 (h ev List.mem_cons_self).2) ?_
    rintro ⟨ev', stop⟩ h1
    refine sim_bind (ih (fun e he => h e (List.mem_cons_of_mem _ he)) _ _) ?_
    rintro ⟨evs', term', last'⟩ h2
    refine sim_pure ?_
    intro e he
    rcases List.mem_cons.mp he with rfl | he
    · exact h1
    · exact h2 e he

theorem sim_handler (hM : WellConfigured S.method) (D : Dense S.method S.rhs) {b : St α n k X} (bo : BisectOpts α)
    (eh : EventHandler α n k) (h : ∀ ev ∈ eh.events, b.cache.ts (Buffer.iOld k) ≤ ev.lastT ∧ ev.lastT ≤ b.t) :
    Sim (RelAt D b) (fun p => ∀ ev ∈ p.1.events, ev.lastT = b.t) (eh.evaluate bo S.interpAt) := by
  unfold EventHandler.evaluate
  refine sim_bind (sim_handlerLoop hM D bo eh.events h _ _) ?_
  rintro ⟨evs', term', last'⟩ h2
  exact sim_pure h2

theorem sim_pstep (hM : WellConfigured S.method) (D : Dense S.method S.rhs) (b : Bound α) :
    Sim (Rel D) (fun _ => True) (S.pstep b) := by
  intro x y hR c x' hr
  refine ⟨?_, trivial⟩
  cases c with
  | false =>
    obtain ⟨h1, rfl⟩ := pstep_false.mp hr
    exact ⟨y, pstep_false.mpr ⟨fun hf => h1 ((same_fits hR.1 b).mpr hf), rfl⟩, hR⟩
  | true =>
    obtain ⟨h1, h2⟩ := pstep_true.mp hr
    obtain ⟨y', h3, h4⟩ := takes_same D hR.1 h2
    exact ⟨y', pstep_true.mpr ⟨(same_fits hR.1 b).mp h1, h3⟩, h4, good_step hM.forward hR.2.1 h2, good_step hM.forward hR.2.2 h3⟩

theorem path_sim (hM : WellConfigured S.method) (D : Dense S.method S.rhs) {b : Bound α} {x y x' : St α n k X}
    {l : List (St α n k X)} (hp : Path S b x l x') (hR : Rel D x y) :
    ∃ l2 y', Path S b y l2 y' ∧ l2.map record = l.map record ∧ l2.length = l.length ∧ Rel D x' y' := by
  induction hp generalizing y with
  | nil s => exact ⟨[], y, .nil y, rfl, rfl, hR⟩
  | cons hf ht hp ih =>
    obtain ⟨⟨y1, g1, g2⟩, -⟩ := sim_pstep hM D b _ y hR true _ (pstep_true.mpr ⟨hf, ht⟩)
    obtain ⟨l2, y', g3, g4, g5, g8⟩ := ih g2
    obtain ⟨g6, g7⟩ := pstep_true.mp g1
    refine ⟨y1 :: l2, y', .cons g6 g7 g3, ?_, by simp [g5], g8⟩
    rw [List.map_cons, List.map_cons, g4]
    congr 1
    unfold record St.t St.y
    rw [g2.1.1]

theorem sim_stepsLoop (hM : WellConfigured S.method) (D : Dense S.method S.rhs) (b : Bound α) :
    Sim (Rel D) (fun _ => True) (S.stepsLoop b) := by
  intro x y hR out x' hr
  refine ⟨?_, trivial⟩
  obtain ⟨l, hp, rfl, hn⟩ := stepsLoop_ok.mp hr
  obtain ⟨l2, y', h1, h2, -, h3⟩ := path_sim hM D hp hR
  exact ⟨y', stepsLoop_ok.mpr ⟨l2, h1, h2.symm, fun hf => hn ((same_fits h3.1 b).mpr hf)⟩, h3⟩

theorem sim_skipLoop (hM : WellConfigured S.method) (D : Dense S.method S.rhs) (b : Bound α) :
    Sim (Rel D) (fun _ => True) (S.skipLoop b) := by
  intro x y hR out x' hr
  refine ⟨?_, trivial⟩
  obtain ⟨l, hp, hn⟩ := skipLoop_ok.mp hr
  obtain ⟨l2, y', h1, h2, -, h3⟩ := path_sim hM D hp hR
  exact ⟨y', skipLoop_ok.mpr ⟨l2, h1, fun hf => hn ((same_fits h3.1 b).mpr hf)⟩, h3⟩

theorem sim_nsteps (hM : WellConfigured S.method) (D : Dense S.method S.rhs) (m : Int) (b : Bound α) :
    Sim (Rel D) (fun _ => True) (S.nsteps m b) := by
  unfold nsteps
  refine sim_ite (fun _ => sim_throw) fun _ => ?_
  rintro x y hR ⟨out, scon⟩ x' hr
  refine ⟨?_, trivial⟩
  obtain ⟨l, hp, rfl, hn⟩ := nstepsLoop_ok.mp hr
  obtain ⟨l2, y', h1, h2, h4, h3⟩ := path_sim hM D hp hR
  refine ⟨y', nstepsLoop_ok.mpr ⟨l2, h1, h2.symm, ?_⟩, h3⟩
  rw [h4, ← same_fits h3.1 b]
  exact hn

theorem sim_nskip (hM : WellConfigured S.method) (D : Dense S.method S.rhs) (m : Int) (b : Bound α) :
    Sim (Rel D) (fun _ => True) (S.nskip m b) := by
  unfold nskip
  rintro x y hR scon x' hr
  refine ⟨?_, trivial⟩
  obtain ⟨l, hp, hn⟩ := nskipLoop_ok.mp hr
  obtain ⟨l2, y', h1, h2, h4, h3⟩ := path_sim hM D hp hR
  refine ⟨y', nskipLoop_ok.mpr ⟨l2, h1, ?_⟩, h3⟩
  rw [h4, ← same_fits h3.1 b]
  exact hn

theorem sim_checkTime (D : Dense S.method S.rhs) (u : Bound α) : Sim (Rel D) (fun _ => True) (S.checkTime u) := by
  unfold checkTime
  exact sim_ite (fun _ => sim_throw) fun _ => sim_pure trivial

theorem inPast_same {D : Dense S.method S.rhs} {x y : St α n k X} (h : Rel D x y) (u : Option (Bound α)) :
    inPast u x = inPast u y := by
  unfold inPast
  rw [same_t h.1]

theorem sim_step (hM : WellConfigured S.method) (D : Dense S.method S.rhs) (m : Option Int) (u : Option (Bound α)) :
    Sim (Rel D) (fun _ => True) (S.step m u) := by
  unfold step
  refine sim_get (fun x y hR => by rw [inPast_same hR]) fun x y hR => ?_
  refine sim_ite (fun _ => sim_pure trivial) fun _ => ?_
  cases m with
  | none =>
    cases u with
    | none =>
      refine sim_bind (sim_pstep hM D _) fun c _ => ?_
      refine sim_ite (fun _ => ?_) fun _ => sim_pure trivial
      refine sim_get (fun x y hR => by unfold St.t; rw [hR.1.1]) fun _ _ _ => sim_pure trivial
    | some u =>
      exact sim_bind (sim_checkTime D _) fun _ _ => sim_bind (sim_stepsLoop hM D _) fun _ _ => sim_pure trivial
  | some m =>
    cases u with
    | none =>
      refine sim_bind (sim_nsteps hM D _ _) fun p _ => ?_
      obtain ⟨out, scon⟩ := p
      refine sim_ite (fun _ => sim_throw) fun _ => sim_pure trivial
    | some u =>
      refine sim_bind (sim_checkTime D _) fun _ _ => sim_bind (sim_nsteps hM D _ _) fun p _ => ?_
      exact sim_pure trivial

theorem sim_skip (hM : WellConfigured S.method) (D : Dense S.method S.rhs) (m : Option Int) (u : Option (Bound α)) :
    Sim (Rel D) (fun _ => True) (S.skip m u) := by
  unfold skip
  refine sim_get (fun x y hR => by rw [inPast_same hR]) fun x y hR => ?_
  refine sim_ite (fun _ => sim_pure trivial) fun _ => ?_
  cases m with
  | none =>
    cases u with
    | none => exact sim_bind (sim_nskip hM D _ _) fun _ _ => sim_pure trivial
    | some u => exact sim_bind (sim_checkTime D _) fun _ _ => sim_skipLoop hM D _
  | some m =>
    cases u with
    | none =>
      refine sim_bind (sim_nskip hM D _ _) fun p _ => ?_
      refine sim_ite (fun _ => sim_throw) fun _ => sim_pure trivial
    | some u =>
      exact sim_bind (sim_checkTime D _) fun _ _ => sim_bind (sim_nskip hM D _ _) fun p _ => sim_pure trivial

theorem sim_interpolateAt (hM : WellConfigured S.method) (D : Dense S.method S.rhs) (b : St α n k X) (t : α) :
    Sim (RelAt D b) (fun _ => True) (S.interpolate t) := by
  intro x y hR r x' hr
  refine ⟨?_, trivial⟩
  unfold interpolate at hr ⊢
  simp only [run_bind, run_get, andThen_ok] at hr ⊢
  rw [hR.1.1.1] at hr
  rw [hR.2.1.1]
  split at hr
  · simp [run_throw] at hr
  · rename_i hc
    have hc' : b.cache.ts (Buffer.iOld k) ≤ t ∧ t ≤ b.cache.t := by simpa using hc
    obtain ⟨⟨y', h1, h2⟩, -⟩ := sim_interp hM D hc'.1 hc'.2 x y hR r x' (by simpa [hc'.1, hc'.2] using hr)
    exact ⟨y', by simp [hc'.1, hc'.2, h1], h2⟩

theorem sim_interpolate (hM : WellConfigured S.method) (D : Dense S.method S.rhs) (t : α) :
    Sim (Rel D) (fun _ => True) (S.interpolate t) := by
  intro x y hR r x' hr
  obtain ⟨⟨y', h1, h2⟩, -⟩ := sim_interpolateAt hM D x t x y hR.at r x' hr
  exact ⟨⟨y', h1, h2.rel⟩, trivial⟩

theorem sim_interpolateAll (hM : WellConfigured S.method) (D : Dense S.method S.rhs) (b : St α n k X) (ts : List α) :
    Sim (RelAt D b) (fun _ => True) (S.interpolateAll ts) := by
  induction ts with
  | nil => exact sim_pure trivial
  | cons t ts ih =>
    rw [interpolateAll]
    exact sim_bind (sim_interpolateAt hM D b t) fun _ _ => sim_bind ih fun _ _ => sim_pure trivial

theorem good_stuck (hM : WellConfigured S.method) {D : Dense S.method S.rhs} {b : Bound α} {ti : α}
    {s s' : St α n k X} (hr : Stuck S b ti s s') (hg : Good D s) : Good D s' := by
  induction hr with
  | here _ _ => exact hg
  | step _ _ ht _ ih => exact ih (good_step hM.forward hg ht)

theorem sim_runEval (hM : WellConfigured S.method) (D : Dense S.method S.rhs) (b : Bound α) {ts : List α}
    (hs : ts.Pairwise (· ≤ ·)) : ∀ {x y x' : St α n k X} {out : List (α × Vec α n)}, Rel D x y →
    (S.runEval b ts).run x = some (.ok out, x') → (∀ u ∈ ts, x.cache.ts (Buffer.iOld k) ≤ u) →
    ∃ y', (S.runEval b ts).run y = some (.ok out, y') ∧ Rel D x' y' := by
  induction ts with
  | nil =>
    intro x y x' out hR hr h0
    rw [runEval] at hr
    cases hr
    exact ⟨y, rfl, hR⟩
  | cons ti rest ih =>
    intro x y x' out hR hr h0
    obtain ⟨hs1, hs2⟩ := List.pairwise_cons.mp hs
    rw [runEval_cons, andThen_eq_ok] at hr
    obtain ⟨c, x1, h1, h2⟩ := hr
    cases c with
    | false =>
      simp at h2
      obtain ⟨rfl, rfl⟩ := h2
      have h3 := advance_false.mp h1
      obtain ⟨y', h4, h5⟩ := stuck_same D hR.1 h3
      refine ⟨y', ?_, h5, good_stuck hM h3 hR.2.1, good_stuck hM h4 hR.2.2⟩
      rw [runEval_cons, advance_false.mpr h4]
      rfl
    | true =>
      simp only [if_true] at h2
      rw [andThen_eq_ok] at h2
      obtain ⟨r, x2, h3, h4⟩ := h2
      rw [andThen_eq_ok] at h4
      obtain ⟨out', x3, h5, h6⟩ := h4
      cases h6
      have hr := advance_true.mp h1
      obtain ⟨y1, hr1, e1⟩ := reach_same D hR.1 hr
      have hR1 : Rel D x1 y1 := ⟨e1, good_reach hM.forward hr hR.2.1, good_reach hM.forward hr1 hR.2.2⟩
      have h01 := old_reach hM.forward hr hR.2.1 (h0 ti List.mem_cons_self)
      obtain ⟨⟨y2, g1, g2⟩, -⟩ := sim_interp hM D h01 (not_lt.mp (reach_not_lt hr)) x1 y1 hR1.at r x2 h3
      have h02 : ∀ u ∈ rest, x2.cache.ts (Buffer.iOld k) ≤ u := by
        intro u hu
        rw [g2.1.1.1]
        exact h01.trans (hs1 u hu)
      obtain ⟨y3, g3, g4⟩ := ih hs2 g2.rel h5 h02
      refine ⟨y3, ?_, g4⟩
      rw [runEval_cons, advance_true.mpr hr1, andThen_ok]
      simp only [if_true]
      rw [g1, andThen_ok, g3, andThen_ok, ← g2.rel.1.1]

theorem sim_advanceEvents (hM : WellConfigured S.method) (D : Dense S.method S.rhs) (bo : BisectOpts α) (b : Bound α) (ti : α) :
    ∀ eh x r x', (S.advanceEvents bo b ti eh).run x = some (r, x') → ∀ a, r = .ok a → ∀ y, Rel D x y →
      (∀ ev ∈ eh.events, ev.lastT = x.t) → x.cache.ts (Buffer.iOld k) ≤ ti →
      ∃ y', (S.advanceEvents bo b ti eh).run y = some (.ok a, y') ∧ Rel D x' y' ∧ (∀ ev ∈ a.1.events, ev.lastT = x'.t) ∧
        x'.cache.ts (Buffer.iOld k) ≤ ti ∧ (a.2 = .reached → ti ≤ x'.t) := by
  refine advanceEvents.fixpoint_induct S bo b ti
    (fun z => ∀ (eh : EventHandler α n k) x r x', (z eh).run x = some (r, x') → ∀ a, r = .ok a → ∀ y, Rel D x y →
      (∀ ev ∈ eh.events, ev.lastT = x.t) → x.cache.ts (Buffer.iOld k) ≤ ti →
      ∃ y', (S.advanceEvents bo b ti eh).run y = some (.ok a, y') ∧ Rel D x' y' ∧ (∀ ev ∈ a.1.events, ev.lastT = x'.t) ∧
        x'.cache.ts (Buffer.iOld k) ≤ ti ∧ (a.2 = .reached → ti ≤ x'.t)) ?_ ?_
  · exact Lean.Order.admissible_pi_apply (fun (eh : EventHandler α n k) (z : Py (St α n k X) (EventHandler α n k × AdvRes)) =>
      ∀ x r x', z.run x = some (r, x') → ∀ a, r = .ok a → ∀ y, Rel D x y →
      (∀ ev ∈ eh.events, ev.lastT = x.t) → x.cache.ts (Buffer.iOld k) ≤ ti →
      ∃ y', (S.advanceEvents bo b ti eh).run y = some (.ok a, y') ∧ Rel D x' y' ∧ (∀ ev ∈ a.1.events, ev.lastT = x'.t) ∧
        x'.cache.ts (Buffer.iOld k) ≤ ti ∧ (a.2 = .reached → ti ≤ x'.t)) fun eh => admissible_post fun x r x' => ∀ a, r = .ok a →
      ∀ y, Rel D x y → (∀ ev ∈ eh.events, ev.lastT = x.t) → x.cache.ts (Buffer.iOld k) ≤ ti →
      ∃ y', (S.advanceEvents bo b ti eh).run y = some (.ok a, y') ∧ Rel D x' y' ∧ (∀ ev ∈ a.1.events, ev.lastT = x'.t) ∧
        x'.cache.ts (Buffer.iOld k) ≤ ti ∧ (a.2 = .reached → ti ≤ x'.t)
  · intro loop ih eh x r x' h a hr y hR he h0
    subst hr
    simp only [run_bind, run_ite, run_get, andThen_ok, run_pure] at h
    rw [advanceEvents_run, ← same_t hR.1]
    split at h
    · rename_i hlt
      rw [if_pos (show x.t < ti from hlt)]
      rw [andThen_eq_ok] at h
      obtain ⟨c, x1, h1, h2⟩ := h
      obtain ⟨⟨y1, g1, g2⟩, -⟩ := sim_pstep hM D b x y hR c x1 h1
      rw [g1, andThen_ok]
      cases c with
      | false =>
        simp at h2
        obtain ⟨rfl, rfl⟩ := h2
        obtain ⟨-, rfl⟩ := pstep_false.mp h1
        exact ⟨y1, by simp, g2, he, h0, by simp⟩
      | true =>
        simp only [if_true] at h2 ⊢
        rw [andThen_eq_ok] at h2
        obtain ⟨⟨eh1, stop⟩, x2, h3, h4⟩ := h2
        have hst := stepped_takes hM.forward hR.2.1 (pstep_true.mp h1).2
        obtain ⟨⟨y2, g3, g4⟩, g5⟩ := sim_handler hM D (b := x1) bo eh (fun ev hev => by
          rw [he ev hev]; exact ⟨hst.old, hst.le⟩) x1 y1 g2.at _ x2 h3
        rw [g3, andThen_ok]
        have e2 : x2.cache = x1.cache := g4.1.1.1
        have h02 : x2.cache.ts (Buffer.iOld k) ≤ ti := by rw [e2]; exact hst.old.trans hlt.le
        have g5' : ∀ ev ∈ eh1.events, ev.lastT = x2.t := by
          intro ev hev
          rw [g5 ev hev]
          exact (same_t g4.1.1).symm
        cases stop with
        | true =>
          simp at h4
          obtain ⟨rfl, rfl⟩ := h4
          exact ⟨y2, by simp, g4.rel, g5', h02, by simp⟩
        | false =>
          simp only [Bool.false_eq_true, if_false] at h4 ⊢
          exact ih eh1 x2 _ x' h4 a rfl y2 g4.rel g5' h02
    · rename_i hlt
      rw [if_neg (show ¬ x.t < ti from hlt)]
      cases h
      exact ⟨y, rfl, hR, he, h0, fun _ => not_lt.mp hlt⟩

theorem sim_runEvalEvents (hM : WellConfigured S.method) (D : Dense S.method S.rhs) (bo : BisectOpts α) (b : Bound α) {ts : List α}
    (hs : ts.Pairwise (· ≤ ·)) : ∀ {eh : EventHandler α n k} {x y x' : St α n k X} {p : EventHandler α n k × List (α × Vec α n)},
    Rel D x y → (S.runEvalEvents bo b ts eh).run x = some (.ok p, x') → (∀ ev ∈ eh.events, ev.lastT = x.t) →
    (∀ u ∈ ts, x.cache.ts (Buffer.iOld k) ≤ u) →
    ∃ y', (S.runEvalEvents bo b ts eh).run y = some (.ok p, y') ∧ Rel D x' y' := by
  induction ts with
  | nil =>
    intro eh x y x' p hR hr he h0
    rw [runEvalEvents] at hr
    cases hr
    exact ⟨y, rfl, hR⟩
  | cons ti rest ih =>
    intro eh x y x' p hR hr he h0
    obtain ⟨hs1, hs2⟩ := List.pairwise_cons.mp hs
    rw [runEvalEvents_cons, andThen_eq_ok] at hr
    obtain ⟨⟨eh1, res⟩, x1, h1, h2⟩ := hr
    obtain ⟨y1, g1, g2, g3, g4, g5⟩ := sim_advanceEvents hM D bo b ti _ _ _ _ h1 _ rfl y hR he (h0 ti List.mem_cons_self)
    rw [runEvalEvents_cons, g1, andThen_ok]
    cases res with
    | refused => cases h2; exact ⟨y1, rfl, g2⟩
    | terminated =>
      revert h2
      dsimp only
      cases eh1.lastEvent with
      | none => intro h2; cases h2
      | some q =>
        intro h2
        cases h2
        exact ⟨y1, by rw [g2.1.1], g2⟩
    | reached =>
      dsimp only at h2 ⊢
      rw [andThen_eq_ok] at h2
      obtain ⟨r, x2, h3, h4⟩ := h2
      rw [andThen_eq_ok] at h4
      obtain ⟨q, x3, h5, h6⟩ := h4
      cases h6
      obtain ⟨⟨y2, k1, k2⟩, -⟩ := sim_interp hM D g4 (g5 rfl) x1 y1 g2.at r x2 h3
      have e2 : x2.cache = x1.cache := k2.1.1.1
      obtain ⟨y3, k3, k4⟩ := ih hs2 k2.rel h5 (fun ev hev => (g3 ev hev).trans (same_t k2.1.1).symm)
        (fun u hu => by rw [e2]; exact g4.trans (hs1 u hu))
      exact ⟨y3, by rw [k1, andThen_ok, k3, andThen_ok, k2.rel.1.1], k4⟩

/-- Without events `run_events` records nothing. -/
theorem runEvents_none_ok {bo : BisectOpts α} {argsort : List α → List Nat} {ts : List α} {s s' : St α n k X} {o : RunOut α n k}
    (h : (S.runEvents bo argsort ts none).run s = some (.ok o, s')) :
    (S.run bo argsort ts).run s = some (.ok o.out, s') ∧ o.tEvents = [] ∧ o.yEvents = [] := by
  refine ⟨by unfold Solver.run; rw [run_bind, h, andThen_ok]; rfl, ?_⟩
  unfold runEvents checkTime at h
  by_cases hs : isSorted ts = true
  · simp only [hs, if_true, run_bind, run_pure, andThen_ok, Option.getD_none, List.isEmpty_nil,
      Bool.not_true, Bool.and_false, Bool.false_eq_true, if_false] at h
    rcases ts with _ | ⟨t0, tl⟩
    · cases h
    · simp only [run_bind, run_get, andThen_ok, run_ite, run_throw, run_pure, andThen_error] at h
      split at h
      · cases h
      · split at h
        · cases h
        · simp only [andThen_ok, andThen_assoc] at h
          rw [andThen_eq_ok] at h
          obtain ⟨rs, s1, -, h⟩ := h
          rw [andThen_eq_ok] at h
          obtain ⟨out, s2, -, h⟩ := h
          cases h
          exact ⟨rfl, rfl⟩
  · simp only [hs, if_false, run_bind, run_ofExcept, Option.getD_none, List.isEmpty_nil, if_true,
      Bool.not_true, Bool.and_false, Bool.false_eq_true] at h
    rcases he : fancyIndex ts (argsort ts) with e | (_ | ⟨t0, tl⟩)
    · rw [he] at h; cases h
    · rw [he] at h; cases h
    · rw [he] at h
      simp only [run_bind, run_get, andThen_ok, run_ite, run_throw, run_pure, andThen_error] at h
      split at h
      · cases h
      · split at h
        · cases h
        · simp only [andThen_ok, andThen_assoc] at h
          rw [andThen_eq_ok] at h
          obtain ⟨rs, s1, -, h⟩ := h
          rw [andThen_eq_ok] at h
          obtain ⟨out, s2, -, h⟩ := h
          revert h
          cases fancyIndex _ _ with
          | error e => intro h; cases h
          | ok l => intro h; cases h; exact ⟨rfl, rfl⟩

theorem runEvents_none_of {bo : BisectOpts α} {argsort : List α → List Nat} {ts : List α} {s s' : St α n k X}
    {out : List (α × Vec α n)} (h : (S.run bo argsort ts).run s = some (.ok out, s')) :
    (S.runEvents bo argsort ts none).run s = some (.ok ⟨out, [], []⟩, s') := by
  have h0 := h
  unfold Solver.run at h
  rw [run_bind, andThen_eq_ok] at h
  obtain ⟨⟨o1, o2, o3⟩, s1, h1, h2⟩ := h
  cases h2
  obtain ⟨-, h3, h4⟩ := runEvents_none_ok h1
  simp only at h3 h4
  rw [h1, h3, h4]

theorem sim_run (hM : WellConfigured S.method) (D : Dense S.method S.rhs) (bo : BisectOpts α)
    {argsort : List α → List Nat} (hA : ∀ l, IsArgsort l (argsort l)) (ts : List α) :
    Sim (Rel D) (fun _ => True) (S.run bo argsort ts) := by
  intro x y hR o x' hr
  refine ⟨?_, trivial⟩
  obtain ⟨hne, h1, -⟩ := run_ok hM.library.shaped bo hA hr
  rw [run_eq hM.library.shaped bo hA hne h1, andThen_eq_ok] at hr
  obtain ⟨out, x1, h2, h3⟩ := hr
  obtain ⟨y1, g1, g2⟩ := sim_runEval hM D S.tBound (sortedTimes_sorted hA ts) hR h2
    (fun u hu => (h1 u ((sortedTimes_perm hA ts).mem_iff.mp hu)).1)
  refine ⟨y1, ?_, ?_⟩
  · rw [run_eq hM.library.shaped bo hA hne (by unfold InRange; rw [← hR.1.1]; exact h1), g1, andThen_ok]
    split at h3
    · rw [if_pos ‹_›]; cases h3; rfl
    · rw [if_neg ‹_›]
      simp only [Option.some.injEq, Prod.mk.injEq] at h3
      rw [h3.1]
  · split at h3
    · cases h3; exact g2
    · simp only [Option.some.injEq, Prod.mk.injEq] at h3
      rw [← h3.2]; exact g2

/-- `run_events`, with or without events. -/
theorem sim_runEvents (hM : WellConfigured S.method) (D : Dense S.method S.rhs) (bo : BisectOpts α)
    {argsort : List α → List Nat} (hA : ∀ l, IsArgsort l (argsort l)) (ts : List α) (es : Option (List (EventSpec α n))) :
    Sim (Rel D) (fun _ => True) (S.runEvents bo argsort ts es) := by
  have none_case : Sim (Rel D) (fun _ => True) (S.runEvents bo argsort ts none) := by
    rintro x y hR ⟨o1, o2, o3⟩ x' hr
    refine ⟨?_, trivial⟩
    obtain ⟨h1, h2, h3⟩ := runEvents_none_ok hr
    simp only at h1 h2 h3
    subst h2 h3
    obtain ⟨⟨y', g1, g2⟩, -⟩ := sim_run hM D bo hA ts x y hR _ _ h1
    exact ⟨y', runEvents_none_of g1, g2⟩
  rcases es with _ | _ | ⟨e, es⟩
  · exact none_case
  · exact none_case
  · intro x y hR o x' hr
    refine ⟨?_, trivial⟩
    have hes : e :: es ≠ [] := by simp
    obtain ⟨hfut, hrange, hne, -⟩ := runEvents_ok hA hes hr
    have hfut' : ∀ u ∈ ts, y.t < u := by rw [← same_t hR.1]; exact hfut
    have hrange' : InRange S y ts := by unfold InRange; rw [← hR.1.1]; exact hrange
    rw [runEvents_future hA hne hes hrange hfut, andThen_eq_ok] at hr
    rw [runEvents_future hA hne hes hrange' hfut']
    obtain ⟨p, x1, h1, h2⟩ := hr
    obtain ⟨y1, g1, g2⟩ := sim_runEvalEvents hM D bo S.tBound (sortedTimes_sorted hA ts) hR h1
      (fun ev hev => by
        simp only [buildHandler, List.mem_map] at hev
        obtain ⟨e', -, rfl⟩ := hev
        rfl)
      (fun u hu => (hrange u ((sortedTimes_perm hA ts).mem_iff.mp hu)).1)
    have e1 : x.y = y.y := by unfold St.y; rw [hR.1.1]
    rw [← same_t hR.1, ← e1, g1, andThen_ok]
    split at h2
    · rw [if_pos ‹_›]; cases h2; exact ⟨y1, rfl, g2⟩
    · rw [if_neg ‹_›]
      simp only [Option.some.injEq, Prod.mk.injEq] at h2
      rw [h2.1]
      exact ⟨y1, rfl, by rw [← h2.2]; exact g2⟩

/-! ### With events that are not terminal, the run returns whenever it does without events -/

theorem noTerminal_never {es : List (EventSpec α n)} (hnt : ∀ e ∈ es, e.terminal ≠ some true) (l : List (St α n k X)) :
    NoTerminal es l := by
  rintro a b - ⟨e, he, ht, -⟩
  exact hnt e he ht

/-- One step of the inner loop, watched. -/
theorem advanceEvents_step (hM : WellConfigured S.method) (hf : ∀ t y, ∃ f, S.rhs t y = .ok f) {D : Dense S.method S.rhs}
    (hJ : Joins D) {bo : BisectOpts α} (hm : bo.maxiter ≠ 0) (htol : 0 ≤ bo.tol) {es : List (EventSpec α n)}
    (hnt : ∀ e ∈ es, e.terminal ≠ some true) {b : Bound α} {ti : α} {eh : EventHandler α n k} {pts : List (St α n k X)}
    {a a1 s : St α n k X} (hs : At D a s) (ha : Good D a) (hw : Watches S (Located bo) es pts a eh.events) (hlt : a.t < ti) (hb : Fits b a)
    (ht : Takes S a a1) :
    ∃ eh1 s1, (S.advanceEvents bo b ti eh).run s = (S.advanceEvents bo b ti eh1).run s1 ∧ At D a1 s1 ∧ Good D a1 ∧
      Watches S (Located bo) es (pts ++ [a]) a1 eh1.events := by
  have hsame' : Same D a s := ⟨hs.1.1.symm, hs.1.2.1.symm, hs.1.2.2.symm⟩
  obtain ⟨s1, ht1, h1⟩ := takes_same D hsame' ht
  have hab := stepped_takes hM.forward ha ht
  have hs1 : At D a1 s1 := ⟨⟨h1.1.symm, h1.2.1.symm, h1.2.2.symm⟩, good_step hM.forward hs.2 ht1⟩
  obtain ⟨⟨eh1, stop⟩, s2, h3⟩ := handler_total hM hf hm htol hab (hJ _ _ ha ht) hw hs1
  obtain ⟨hs2, hp⟩ := handler_spec hM.forward (located_locates bo htol) hab hw (noTerminal_never hnt _) hs1 h3
  obtain ⟨g1, g2, -⟩ := hp eh1 stop rfl
  refine ⟨eh1, s2, ?_, hs2, hab.good, g1⟩
  have hstop : stop = false := by
    rw [Bool.eq_false_iff]
    intro hc
    obtain ⟨e, he, ht, -⟩ := g2.mp hc
    exact hnt e he ht
  rw [advanceEvents_run, same_t hs.1, if_pos hlt, pstep_true.mpr ⟨(same_fits hs.1 b).mpr hb, ht1⟩, andThen_ok]
  simp only [if_true]
  rw [h3, andThen_ok, hstop]
  rfl

theorem advanceEvents_reach (hM : WellConfigured S.method) (hf : ∀ t y, ∃ f, S.rhs t y = .ok f) {D : Dense S.method S.rhs}
    (hJ : Joins D) {bo : BisectOpts α} (hm : bo.maxiter ≠ 0) (htol : 0 ≤ bo.tol) {es : List (EventSpec α n)}
    (hnt : ∀ e ∈ es, e.terminal ≠ some true) {b : Bound α} {ti : α} {a c : St α n k X} (hr : Reach S b ti a c) :
    ∀ {eh : EventHandler α n k} {pts : List (St α n k X)} {s : St α n k X}, At D a s → Good D a → Watches S (Located bo) es pts a eh.events →
    ∃ eh' s' pts', (S.advanceEvents bo b ti eh).run s = some (.ok (eh', .reached), s') ∧ At D c s' ∧ Good D c ∧
      Watches S (Located bo) es pts' c eh'.events := by
  induction hr with
  | here hn =>
    intro eh pts s hs ha hw
    refine ⟨eh, s, pts, ?_, hs, ha, hw⟩
    rw [advanceEvents_run, same_t hs.1, if_neg hn]
  | step hlt hb ht _ ih =>
    intro eh pts s hs ha hw
    obtain ⟨eh1, s1, h1, h2, h3, h4⟩ := advanceEvents_step hM hf hJ hm htol hnt hs ha hw hlt hb ht
    rw [h1]
    exact ih h2 h3 h4

theorem advanceEvents_stuck (hM : WellConfigured S.method) (hf : ∀ t y, ∃ f, S.rhs t y = .ok f) {D : Dense S.method S.rhs}
    (hJ : Joins D) {bo : BisectOpts α} (hm : bo.maxiter ≠ 0) (htol : 0 ≤ bo.tol) {es : List (EventSpec α n)}
    (hnt : ∀ e ∈ es, e.terminal ≠ some true) {b : Bound α} {ti : α} {a c : St α n k X} (hr : Stuck S b ti a c) :
    ∀ {eh : EventHandler α n k} {pts : List (St α n k X)} {s : St α n k X}, At D a s → Good D a → Watches S (Located bo) es pts a eh.events →
    ∃ eh' s', (S.advanceEvents bo b ti eh).run s = some (.ok (eh', .refused), s') := by
  induction hr with
  | here hlt hn =>
    intro eh pts s hs ha hw
    refine ⟨eh, s, ?_⟩
    rw [advanceEvents_run, same_t hs.1, if_pos hlt, pstep_false.mpr ⟨fun h => hn ((same_fits hs.1 b).mp h), rfl⟩]
    rfl
  | step hlt hb ht _ ih =>
    intro eh pts s hs ha hw
    obtain ⟨eh1, s1, h1, h2, h3, h4⟩ := advanceEvents_step hM hf hJ hm htol hnt hs ha hw hlt hb ht
    rw [h1]
    exact ih h2 h3 h4

theorem runEvalEvents_returns (hM : WellConfigured S.method) (hf : ∀ t y, ∃ f, S.rhs t y = .ok f) {D : Dense S.method S.rhs}
    (hJ : Joins D) {bo : BisectOpts α} (hm : bo.maxiter ≠ 0) (htol : 0 ≤ bo.tol) {es : List (EventSpec α n)}
    (hnt : ∀ e ∈ es, e.terminal ≠ some true) {b : Bound α} {ts : List α} (hs : ts.Pairwise (· ≤ ·)) :
    ∀ {eh : EventHandler α n k} {pts : List (St α n k X)} {a a' s : St α n k X} {out : List (α × Vec α n)},
    (S.runEval b ts).run a = some (.ok out, a') → At D a s → Good D a → Watches S (Located bo) es pts a eh.events →
    (∀ u ∈ ts, a.cache.ts (Buffer.iOld k) ≤ u) →
    ∃ p s', (S.runEvalEvents bo b ts eh).run s = some (.ok p, s') := by
  induction ts with
  | nil => intro eh pts a a' s out h hA ha hw h0; exact ⟨_, _, rfl⟩
  | cons ti rest ih =>
    intro eh pts a a' s out h hA ha hw h0
    obtain ⟨hs1, hs2⟩ := List.pairwise_cons.mp hs
    rw [runEval_cons, andThen_eq_ok] at h
    obtain ⟨c, a1, h1, h2⟩ := h
    rw [runEvalEvents_cons]
    cases c with
    | false =>
      obtain ⟨eh', s', h3⟩ := advanceEvents_stuck hM hf hJ hm htol hnt (advance_false.mp h1) hA ha hw
      rw [h3]
      exact ⟨_, _, rfl⟩
    | true =>
      simp only [if_true] at h2
      rw [andThen_eq_ok] at h2
      obtain ⟨r, a2, h3, h4⟩ := h2
      rw [andThen_eq_ok] at h4
      obtain ⟨out', a3, h5, h6⟩ := h4
      have hr := advance_true.mp h1
      obtain ⟨eh1, s1, pts1, k1, k2, k3, k4⟩ := advanceEvents_reach hM hf hJ hm htol hnt hr hA ha hw
      have h01 := old_reach hM.forward hr ha (h0 ti List.mem_cons_self)
      have h02 : ∀ u ∈ rest, a1.cache.ts (Buffer.iOld k) ≤ u := fun u hu => h01.trans (hs1 u hu)
      have e2 := same_interp (D := D) hM.forward h3
      obtain ⟨a4, h7, -⟩ := runEval_same hM.forward D hs2 e2 (good_interp hM.forward h3 k3) k3 (by rw [e2.1]; exact h02) h5
      obtain ⟨r', s2, k5⟩ := interp_total (S := S) hM.library hf (t := ti) (s := s1) (by rw [k2.1.1]; exact h01)
          (by rw [same_t k2.1]; exact not_lt.mp (reach_not_lt hr))
      obtain ⟨p, s3, k6⟩ := ih hs2 h7 (at_interp hM.forward k5 k2) k3 k4 h02
      rw [k1, andThen_ok]
      simp only [k5, andThen_ok, k6]
      exact ⟨_, _, rfl⟩

end field
end Nbkode
