import Verif.Props.EventDemo
import Verif.Proofs.EventsApi
import Verif.Props.RunStates
import Mathlib.Topology.Order.IntermediateValue
import Mathlib.Topology.Instances.Real.Lemmas

/-!
# C41–C45, C47–C49: events
-/

set_option autoImplicit false
set_option linter.unusedSectionVars false

namespace Nbkode
open Py Spec Solver

/-! ## Steps of a path -/

section order
variable {α : Type} [LinearOrder α]
variable [Add α] [Sub α] [Mul α] [Div α] [Neg α] [Zero α] [One α] [NatCast α] [BEq α]
variable {n k : Nat} {X : Type}

theorem consecutive_index {A : Type} {l : List A} {a b : A} (h : Consecutive l a b) :
    ∃ i, l[i]? = some a ∧ l[i + 1]? = some b := by
  obtain ⟨l1, l2, rfl⟩ := h
  refine ⟨l1.length, by simp, ?_⟩
  rw [List.getElem?_append_right (by omega)]
  simp

/-- Two steps of a path that share an inner time are the same. -/
theorem consecutive_unique {l : List (St α n k X)} (hl : l.Pairwise fun x y => x.t ≤ y.t) {a b a' b' : St α n k X} {τ : α}
    (h : Consecutive l a b) (h' : Consecutive l a' b') (h1 : a.t < τ) (h2 : τ < b.t) (h3 : a'.t ≤ τ) (h4 : τ ≤ b'.t) :
    a = a' ∧ b = b' := by
  obtain ⟨i, ha, hb⟩ := consecutive_index h
  obtain ⟨j, ha', hb'⟩ := consecutive_index h'
  have mono : ∀ (p q : Nat) (x y : St α n k X), l[p]? = some x → l[q]? = some y → p ≤ q → x.t ≤ y.t := by
    intro p q x y hp hq hpq
    obtain ⟨h5, rfl⟩ := List.getElem?_eq_some_iff.mp hp
    obtain ⟨h6, rfl⟩ := List.getElem?_eq_some_iff.mp hq
    rcases Nat.lt_or_eq_of_le hpq with h | rfl
    · exact List.pairwise_iff_getElem.mp hl p q h5 h6 h
    · exact le_refl _
  rcases Nat.lt_trichotomy i j with hij | rfl | hij
  · exact absurd ((h2.trans_le (mono _ _ _ _ hb ha' hij)).trans_le h3) (lt_irrefl _)
  · rw [ha] at ha'
    rw [hb] at hb'
    exact ⟨by simpa using ha', by simpa using hb'⟩
  · exact absurd ((h4.trans (mono _ _ _ _ hb' ha hij)).trans_lt h1) (lt_irrefl _)

end order

section field
variable {α : Type} [Field α] [LinearOrder α] [IsStrictOrderedRing α] [BEq α] [LawfulBEq α]
variable {n k : Nat} {X : Type}

theorem path_clock {S : Solver α n k X} (hM : WellConfigured S.method) {D : Dense S.method S.rhs} {b : Bound α}
    {s c : St α n k X} {l : List (St α n k X)} (hp : Path S b s l c) (hg : Good D s) :
    (s :: l).Pairwise fun x y => x.t < y.t := by
  induction hp with
  | nil => exact List.pairwise_singleton _ _
  | @cons s s1 s2 l hf ht hp ih =>
    have h1 := ih (good_step hM.forward hg ht)
    have hlt := (C11_step_increases S hM s s1 hg.pos ht).1
    refine List.pairwise_cons.mpr ⟨?_, h1⟩
    intro x hx
    rcases List.mem_cons.mp hx with rfl | hx
    · exact hlt
    · exact hlt.trans ((List.pairwise_cons.mp h1).1 x hx)

/-! ## C41 -/

/-- **C41.** Over the steps actually taken, an event has a record within every step on which its value goes to or through zero in
the requested direction, and a record strictly inside a step, or anywhere, only because of such a step. -/
theorem C41_records (S : Solver α n k X) (hM : WellConfigured S.method) (bo : BisectOpts α) (htol : 0 ≤ bo.tol)
    (argsort : List α → List Nat) (hA : ∀ l, IsArgsort l (argsort l)) (s0 s : St α n k X)
    (hc : Constructed S s0) (ho : Ordered s0) (hh : 0 < s0.h) (hs : CleanSession S bo argsort s0 s)
    (ts : List α) (es : List (EventSpec α n)) (hes : es ≠ []) (o : RunOut α n k) (s' : St α n k X)
    (h : (S.runEvents bo argsort ts (some es)).run s = some (.ok o, s')) :
    ∃ l c, Path S S.tBound s l c ∧ s'.t = c.t ∧ s'.y = c.y ∧ o.tEvents.length = es.length ∧
      ∀ (i : Nat) e tl, es[i]? = some e → o.tEvents[i]? = some tl →
        (∀ a b, Consecutive (s :: l) a b → CrossesOn e a b → ∃ τ ∈ tl, a.t ≤ τ ∧ τ ≤ b.t) ∧
        (∀ τ ∈ tl, ∃ a b, Consecutive (s :: l) a b ∧ CrossesOn e a b ∧ a.t ≤ τ ∧ τ ≤ b.t) ∧
        (∀ τ ∈ tl, ∀ a b, Consecutive (s :: l) a b → a.t < τ → τ < b.t → CrossesOn e a b) := by
  obtain ⟨D, hg⟩ := good_session hM.forward hc ho hh hs
  obtain ⟨l, c, h1, h2, h3, h4, h5⟩ := runEvents_logged hM.forward D (located_locates bo htol) hA hes hg h
  refine ⟨l, c, h1, by unfold St.t; rw [h2], by unfold St.y; rw [h2], h3, ?_⟩
  intro i e tl g1 g2
  obtain ⟨yl, g3⟩ : ∃ yl, o.yEvents[i]? = some yl := by
    have : i < o.yEvents.length := by
      rw [h4, ← h3]
      exact (List.getElem?_eq_some_iff.mp g2).1
    exact ⟨_, List.getElem?_eq_getElem this⟩
  have hL := h5 i e tl yl g1 g2 g3
  have snd : ∀ τ ∈ tl, ∃ a b, Consecutive (s :: l) a b ∧ CrossesOn e a b ∧ a.t ≤ τ ∧ τ ≤ b.t := by
    intro τ hτ
    obtain ⟨j, hj, rfl⟩ := List.getElem_of_mem hτ
    have hj' : j < yl.length := by rw [← hL.length_eq]; exact hj
    obtain ⟨a, b, h6, h7⟩ := hL.sound (tl[j], yl[j]) (by
      refine List.mem_iff_getElem.mpr ⟨j, by simp [hj, hj'], by simp⟩)
    exact ⟨a, b, h6, h7.crosses, h7.after, h7.before⟩
  refine ⟨hL.complete, snd, ?_⟩
  intro τ hτ a b hab h6 h7
  obtain ⟨a', b', h8, h9, h10, h11⟩ := snd τ hτ
  obtain ⟨rfl, rfl⟩ := consecutive_unique ((path_clock hM h1 hg).imp le_of_lt) hab h8 h6 h7 h10 h11
  exact h9

/-- **C41**, strict crossings: one in the requested direction (or in any, if none is requested) always leaves a record, one
against it never does inside the step. -/
theorem C41_strict (S : Solver α n k X) (hM : WellConfigured S.method) (bo : BisectOpts α) (htol : 0 ≤ bo.tol)
    (argsort : List α → List Nat) (hA : ∀ l, IsArgsort l (argsort l)) (s0 s : St α n k X)
    (hc : Constructed S s0) (ho : Ordered s0) (hh : 0 < s0.h) (hs : CleanSession S bo argsort s0 s)
    (ts : List α) (es : List (EventSpec α n)) (hes : es ≠ []) (o : RunOut α n k) (s' : St α n k X)
    (h : (S.runEvents bo argsort ts (some es)).run s = some (.ok o, s')) :
    ∃ l c, Path S S.tBound s l c ∧ s'.t = c.t ∧
      ∀ (i : Nat) e tl, es[i]? = some e → o.tEvents[i]? = some tl → ∀ a b, Consecutive (s :: l) a b →
        (value e a < 0 → 0 < value e b → (∀ d, e.direction = some d → 0 ≤ d) → ∃ τ ∈ tl, a.t ≤ τ ∧ τ ≤ b.t) ∧
        (value e a < 0 → 0 < value e b → ∀ d, e.direction = some d → d < 0 → ∀ τ ∈ tl, ¬ (a.t < τ ∧ τ < b.t)) ∧
        (0 < value e a → value e b < 0 → (∀ d, e.direction = some d → d ≤ 0) → ∃ τ ∈ tl, a.t ≤ τ ∧ τ ≤ b.t) ∧
        (0 < value e a → value e b < 0 → ∀ d, e.direction = some d → 0 < d → ∀ τ ∈ tl, ¬ (a.t < τ ∧ τ < b.t)) := by
  obtain ⟨l, c, h1, h2, -, -, h5⟩ := C41_records S hM bo htol argsort hA s0 s hc ho hh hs ts es hes o s' h
  refine ⟨l, c, h1, h2, ?_⟩
  intro i e tl g1 g2 a b hab
  obtain ⟨k1, -, k3⟩ := h5 i e tl g1 g2
  refine ⟨?_, ?_, ?_, ?_⟩
  · intro v1 v2 hd
    refine k1 a b hab ?_
    unfold CrossesOn Crosses
    rcases hdir : e.direction with _ | d
    · exact Or.inl ⟨v1.le, v2.le⟩
    · rcases (hd d hdir).lt_or_eq with h | h
      · exact Or.inl ⟨h, v1.le, v2.le⟩
      · exact Or.inr (Or.inr ⟨h.symm, Or.inl ⟨v1.le, v2.le⟩⟩)
  · intro v1 v2 d hdir hd τ hτ hin
    have := k3 τ hτ a b hab hin.1 hin.2
    unfold CrossesOn Crosses Upward Downward at this
    rw [hdir] at this
    rcases this with h | h | h
    · exact absurd (hd.trans h.1) (lt_irrefl _)
    · exact absurd (v1.trans_le h.2.1) (lt_irrefl _)
    · exact absurd h.1 hd.ne
  · intro v1 v2 hd
    refine k1 a b hab ?_
    unfold CrossesOn Crosses
    rcases hdir : e.direction with _ | d
    · exact Or.inr ⟨v1.le, v2.le⟩
    · rcases (hd d hdir).lt_or_eq with h | h
      · exact Or.inr (Or.inl ⟨h, v1.le, v2.le⟩)
      · exact Or.inr (Or.inr ⟨h, Or.inr ⟨v1.le, v2.le⟩⟩)
  · intro v1 v2 d hdir hd τ hτ hin
    have := k3 τ hτ a b hab hin.1 hin.2
    unfold CrossesOn Crosses Upward Downward at this
    rw [hdir] at this
    rcases this with h | h | h
    · exact absurd (v1.trans_le h.2.1) (lt_irrefl _)
    · exact absurd (hd.trans h.1) (lt_irrefl _)
    · exact absurd h.1 hd.ne'

/-! ## C42, C43 -/

/-- **C42.** The times recorded for each event are strictly increasing, and each lies within a step taken on which the event
triggers. -/
theorem C42_ordered (S : Solver α n k X) (hM : WellConfigured S.method) (bo : BisectOpts α) (htol : 0 ≤ bo.tol)
    (argsort : List α → List Nat) (hA : ∀ l, IsArgsort l (argsort l)) (s0 s : St α n k X)
    (hc : Constructed S s0) (ho : Ordered s0) (hh : 0 < s0.h) (hs : CleanSession S bo argsort s0 s)
    (ts : List α) (es : List (EventSpec α n)) (hes : es ≠ []) (o : RunOut α n k) (s' : St α n k X)
    (h : (S.runEvents bo argsort ts (some es)).run s = some (.ok o, s')) :
    (∀ tl ∈ o.tEvents, tl.Pairwise (· < ·)) ∧ ∃ l c, Path S S.tBound s l c ∧ s'.t = c.t ∧
      ∀ (i : Nat) e tl, es[i]? = some e → o.tEvents[i]? = some tl → ∀ τ ∈ tl,
        ∃ a b, Consecutive (s :: l) a b ∧ CrossesOn e a b ∧ a.t ≤ τ ∧ τ ≤ b.t := by
  obtain ⟨l, c, h1, h2, -, -, h5⟩ := C41_records S hM bo htol argsort hA s0 s hc ho hh hs ts es hes o s' h
  refine ⟨?_, l, c, h1, h2, fun i e tl g1 g2 => (h5 i e tl g1 g2).2.1⟩
  obtain ⟨D, hg⟩ := good_session hM.forward hc ho hh hs
  obtain ⟨l, c, h1, h2, h3, h4, h5⟩ := runEvents_logged hM.forward D (located_locates bo htol) hA hes hg h
  intro tl htl
  obtain ⟨i, hi, rfl⟩ := List.getElem_of_mem htl
  exact (h5 i es[i] o.tEvents[i] (o.yEvents[i]'(by omega)) (List.getElem?_eq_getElem (by omega))
    (List.getElem?_eq_getElem _) (List.getElem?_eq_getElem _)).increasing

-- C41: the run of `Demo.watched` meets the hypotheses.
open Demo in
example (argsort : List ℚ → List Nat) (hA : ∀ l, IsArgsort l (argsort l)) : ∃ o s', ∃ h : ((euler .inf).runEvents .std
    argsort [1/2, 1] (some [atTime (1/4) false, atTime (3/4) true])).run s0 = some (.ok o, s'), o.tEvents = [[1/4], [3/4]] ∧
    type_of% (C41_records (euler .inf) (euler_well .inf) .std std_tol argsort hA s0 s0 (constructed_s0 .inf) ordered_s0 pos_s0 session0
      [1/2, 1] _ (by simp) o s' h) := by
  obtain ⟨o, s', h, h1, -⟩ := watched argsort
  exact ⟨o, s', h, h1, C41_records _ (euler_well .inf) .std std_tol argsort hA _ _ (constructed_s0 .inf) ordered_s0 pos_s0 session0 _ _ (by simp) _ _ h⟩

-- C41: the run of `Demo.watched` meets the hypotheses.
open Demo in
example (argsort : List ℚ → List Nat) (hA : ∀ l, IsArgsort l (argsort l)) : ∃ o s', ∃ h : ((euler .inf).runEvents .std
    argsort [1/2, 1] (some [atTime (1/4) false, atTime (3/4) true])).run s0 = some (.ok o, s'), o.tEvents = [[1/4], [3/4]] ∧
    type_of% (C41_strict (euler .inf) (euler_well .inf) .std std_tol argsort hA s0 s0 (constructed_s0 .inf) ordered_s0 pos_s0 session0
      [1/2, 1] _ (by simp) o s' h) := by
  obtain ⟨o, s', h, h1, -⟩ := watched argsort
  exact ⟨o, s', h, h1, C41_strict _ (euler_well .inf) .std std_tol argsort hA _ _ (constructed_s0 .inf) ordered_s0 pos_s0 session0 _ _ (by simp) _ _ h⟩

-- C42: the run of `Demo.watched` meets the hypotheses.
open Demo in
example (argsort : List ℚ → List Nat) (hA : ∀ l, IsArgsort l (argsort l)) : ∃ o s', ∃ h : ((euler .inf).runEvents .std
    argsort [1/2, 1] (some [atTime (1/4) false, atTime (3/4) true])).run s0 = some (.ok o, s'), o.tEvents = [[1/4], [3/4]] ∧
    type_of% (C42_ordered (euler .inf) (euler_well .inf) .std std_tol argsort hA s0 s0 (constructed_s0 .inf) ordered_s0 pos_s0 session0
      [1/2, 1] _ (by simp) o s' h) := by
  obtain ⟨o, s', h, h1, -⟩ := watched argsort
  exact ⟨o, s', h, h1, C42_ordered _ (euler_well .inf) .std std_tol argsort hA _ _ (constructed_s0 .inf) ordered_s0 pos_s0 session0 _ _ (by simp) _ _ h⟩

/-- **C43.** Each recorded time is the end of its step, where the event is zero; or a point where the event along the dense
output is at most `tol`; or an end of a bracket inside the step, of length (step length)/2^maxiter, at whose ends the event along
the dense output has opposite signs. -/
theorem C43_located (S : Solver α n k X) (hM : WellConfigured S.method) (bo : BisectOpts α) (htol : 0 ≤ bo.tol)
    (argsort : List α → List Nat) (hA : ∀ l, IsArgsort l (argsort l)) (s0 s : St α n k X)
    (hc : Constructed S s0) (ho : Ordered s0) (hh : 0 < s0.h) (hs : CleanSession S bo argsort s0 s)
    (ts : List α) (es : List (EventSpec α n)) (hes : es ≠ []) (o : RunOut α n k) (s' : St α n k X)
    (h : (S.runEvents bo argsort ts (some es)).run s = some (.ok o, s')) :
    ∃ l c, Path S S.tBound s l c ∧ s'.t = c.t ∧
      ∀ (i : Nat) e tl, es[i]? = some e → o.tEvents[i]? = some tl → ∀ τ ∈ tl,
        ∃ a b, Consecutive (s :: l) a b ∧ a.t ≤ τ ∧ τ ≤ b.t ∧
          ((τ = b.t ∧ value e b = 0) ∨ Located bo (ValueAt S e b) a.t b.t τ) := by
  obtain ⟨D, hg⟩ := good_session hM.forward hc ho hh hs
  obtain ⟨l, c, h1, h2, h3, h4, h5⟩ := runEvents_logged hM.forward D (located_locates bo htol) hA hes hg h
  refine ⟨l, c, h1, by unfold St.t; rw [h2], ?_⟩
  intro i e tl g1 g2 τ hτ
  have hi : i < es.length := (List.getElem?_eq_some_iff.mp g1).1
  have hL := h5 i e tl (o.yEvents[i]'(by omega)) g1 g2 (List.getElem?_eq_getElem _)
  obtain ⟨j, hj, rfl⟩ := List.getElem_of_mem hτ
  obtain ⟨a, b, h6, h7⟩ := hL.sound (tl[j], (o.yEvents[i]'(by omega))[j]'(by rw [← hL.length_eq]; exact hj)) (by
    refine List.mem_iff_getElem.mpr ⟨j, by simp [hj, ← hL.length_eq], by simp⟩)
  exact ⟨a, b, h6, h7.after, h7.before, h7.located⟩

/-- **C43** with the values the code uses: tolerance `1.48e-8` and 50 halvings. -/
theorem C43_located_std (S : Solver α n k X) (hM : WellConfigured S.method)
    (argsort : List α → List Nat) (hA : ∀ l, IsArgsort l (argsort l)) (s0 s : St α n k X)
    (hc : Constructed S s0) (ho : Ordered s0) (hh : 0 < s0.h) (hs : CleanSession S .std argsort s0 s)
    (ts : List α) (es : List (EventSpec α n)) (hes : es ≠ []) (o : RunOut α n k) (s' : St α n k X)
    (h : (S.runEvents .std argsort ts (some es)).run s = some (.ok o, s')) :
    ∃ l c, Path S S.tBound s l c ∧ s'.t = c.t ∧
      ∀ (i : Nat) e tl, es[i]? = some e → o.tEvents[i]? = some tl → ∀ τ ∈ tl,
        ∃ a b, Consecutive (s :: l) a b ∧ a.t ≤ τ ∧ τ ≤ b.t ∧ ((τ = b.t ∧ value e b = 0) ∨
          (∃ v, ValueAt S e b τ v ∧ |v| ≤ 148 / 10 ^ 10) ∨
          (∃ lo hi vlo vhi, a.t ≤ lo ∧ lo < hi ∧ hi ≤ b.t ∧ (hi - lo) * 2 ^ 50 = b.t - a.t ∧ ValueAt S e b lo vlo ∧
            ValueAt S e b hi vhi ∧ ((vlo < 0 ∧ 0 < vhi) ∨ (0 < vlo ∧ vhi < 0)) ∧ (τ = lo ∨ τ = hi))) := by
  have htol : (0 : α) ≤ (BisectOpts.std : BisectOpts α).tol := by
    show (0 : α) ≤ ((148 : Nat) : α) / ((10 ^ 10 : Nat) : α)
    positivity
  obtain ⟨l, c, h1, h2, h3⟩ := C43_located S hM .std htol argsort hA s0 s hc ho hh hs ts es hes o s' h
  refine ⟨l, c, h1, h2, fun i e tl g1 g2 τ hτ => ?_⟩
  obtain ⟨a, b, h4, h5, h6, h7⟩ := h3 i e tl g1 g2 τ hτ
  refine ⟨a, b, h4, h5, h6, ?_⟩
  rcases h7 with h7 | h7
  · exact Or.inl h7
  · right
    rcases h7 with ⟨v, h8, h9⟩ | ⟨lo, hi, vlo, vhi, h8, h9, h10, h11, h12, h13, h14, h15⟩
    · left
      refine ⟨v, h8, h9.trans (le_of_eq ?_)⟩
      show ((148 : Nat) : α) / ((10 ^ 10 : Nat) : α) = _
      norm_num
    · exact Or.inr ⟨lo, hi, vlo, vhi, h8, h9, h10, h11, h12, h13, h14, h15⟩

-- C43: the run of `Demo.watched` meets the hypotheses.
open Demo in
example (argsort : List ℚ → List Nat) (hA : ∀ l, IsArgsort l (argsort l)) : ∃ o s', ∃ h : ((euler .inf).runEvents .std
    argsort [1/2, 1] (some [atTime (1/4) false, atTime (3/4) true])).run s0 = some (.ok o, s'), o.tEvents = [[1/4], [3/4]] ∧
    type_of% (C43_located (euler .inf) (euler_well .inf) .std std_tol argsort hA s0 s0 (constructed_s0 .inf) ordered_s0 pos_s0 session0
      [1/2, 1] _ (by simp) o s' h) := by
  obtain ⟨o, s', h, h1, -⟩ := watched argsort
  exact ⟨o, s', h, h1, C43_located _ (euler_well .inf) .std std_tol argsort hA _ _ (constructed_s0 .inf) ordered_s0 pos_s0 session0 _ _ (by simp) _ _ h⟩

-- C43: the run of `Demo.watched` meets the hypotheses.
open Demo in
example (argsort : List ℚ → List Nat) (hA : ∀ l, IsArgsort l (argsort l)) : ∃ o s', ∃ h : ((euler .inf).runEvents .std
    argsort [1/2, 1] (some [atTime (1/4) false, atTime (3/4) true])).run s0 = some (.ok o, s'), o.tEvents = [[1/4], [3/4]] ∧
    type_of% (C43_located_std (euler .inf) (euler_well .inf)  argsort hA s0 s0 (constructed_s0 .inf) ordered_s0 pos_s0 session0
      [1/2, 1] _ (by simp) o s' h) := by
  obtain ⟨o, s', h, h1, -⟩ := watched argsort
  exact ⟨o, s', h, h1, C43_located_std _ (euler_well .inf)  argsort hA _ _ (constructed_s0 .inf) ordered_s0 pos_s0 session0 _ _ (by simp) _ _ h⟩

end field

/-- **C43**, over the reals: if the event is continuous along the dense output of the step, then a true zero of it lies within
(step length)/2^maxiter of a time located by a bracket. -/
theorem C43_true_zero {n k : Nat} {X : Type} [BEq ℝ] [LawfulBEq ℝ] (S : Solver ℝ n k X) (bo : BisectOpts ℝ)
    (e : EventSpec ℝ n) (a b : St ℝ n k X) (τ : ℝ) (hτ : Located bo (ValueAt S e b) a.t b.t τ) (g : ℝ → ℝ)
    (hg : ContinuousOn g (Set.Icc a.t b.t)) (hv : ∀ x v, a.t ≤ x → x ≤ b.t → ValueAt S e b x v → v = g x) :
    (a.t ≤ τ → τ ≤ b.t → |g τ| ≤ bo.tol) ∨
      ∃ z, a.t ≤ z ∧ z ≤ b.t ∧ g z = 0 ∧ |z - τ| ≤ (b.t - a.t) / 2 ^ bo.maxiter := by
  rcases hτ with ⟨v, h1, h2⟩ | ⟨lo, hi, vlo, vhi, h1, h2, h3, h4, h5, h6, h7, h8⟩
  · left
    intro h3 h4
    rw [← hv τ v h3 h4 h1]
    exact h2
  · right
    have e1 := hv lo vlo h1 (h2.le.trans h3) h5
    have e2 := hv hi vhi (h1.trans h2.le) h3 h6
    have hcont : ContinuousOn g (Set.Icc lo hi) := hg.mono (Set.Icc_subset_Icc h1 h3)
    have hz : ∃ z ∈ Set.Icc lo hi, g z = 0 := by
      rcases h7 with ⟨h7, h9⟩ | ⟨h7, h9⟩
      · exact intermediate_value_Icc h2.le hcont ⟨by rw [← e1]; exact h7.le, by rw [← e2]; exact h9.le⟩
      · exact intermediate_value_Icc' h2.le hcont ⟨by rw [← e2]; exact h9.le, by rw [← e1]; exact h7.le⟩
    obtain ⟨z, ⟨z1, z2⟩, hz⟩ := hz
    refine ⟨z, h1.trans z1, z2.trans h3, hz, ?_⟩
    have hlen : (b.t - a.t) / 2 ^ bo.maxiter = hi - lo := by
      rw [← h4, mul_div_assoc, div_self (by positivity), mul_one]
    rw [hlen, abs_le]
    rcases h8 with rfl | rfl <;> constructor <;> linarith

end Nbkode
