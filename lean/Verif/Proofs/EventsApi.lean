import Verif.Proofs.EventsRun

/-! `run_events` in terms of its loop. -/

set_option autoImplicit false
set_option linter.unusedSectionVars false

namespace Nbkode
open Py Spec Solver

section order
variable {α : Type} [LinearOrder α]
variable [Add α] [Sub α] [Mul α] [Div α] [Neg α] [Zero α] [One α] [NatCast α] [BEq α]
variable {n k : Nat} {X : Type}

/-- `run_events` with events. -/
theorem runEvents_unfold (S : Solver α n k X) (bo : BisectOpts α) {argsort : List α → List Nat}
    (hA : ∀ l, IsArgsort l (argsort l)) (ts : List α) {es : List (EventSpec α n)} (hes : es ≠ []) (s : St α n k X) :
    (S.runEvents bo argsort ts (some es)).run s =
      match sortedTimes argsort ts with
      | [] => some (.error .indexError, s)
      | t0 :: tl =>
        if t0 < s.cache.ts (Buffer.iOld k) then some (.error .valueError, s)
        else if (Bound.fin (listMax t0 tl)).gt S.tBound then some (.error .valueError, s)
        else andThen ((S.interpolateAll ((t0 :: tl).filter fun ti => decide (ti ≤ s.t))).run s) fun rs s1 =>
          andThen ((S.runEvalEvents bo S.tBound ((t0 :: tl).filter fun ti => !decide (ti ≤ s.t))
            (buildHandler es s1.t s1.y)).run s1) fun p s2 =>
            if ((t0 :: tl).filter fun ti => decide (ti ≤ s.t)).isEmpty then
              if isSorted ts then
                some (.ok ⟨((t0 :: tl).filter fun ti => decide (ti ≤ s.t)).zip (rs.map fun r => r.deref s1.cache) ++ p.2,
                  p.1.events.map fun e => e.t, p.1.events.map fun e => e.y⟩, s2)
              else some ((fancyIndex (((t0 :: tl).filter fun ti => decide (ti ≤ s.t)).zip (rs.map fun r => r.deref s1.cache)
                  ++ p.2) (invPerm (argsort ts))).map fun out => ⟨out, p.1.events.map fun e => e.t,
                  p.1.events.map fun e => e.y⟩, s2)
            else some (.error .attributeError, s2) := by
  have he : es.isEmpty = false := by
    cases es with
    | nil => exact absurd rfl hes
    | cons _ _ => rfl
  have hst := sortedTimes_eq hA ts
  unfold runEvents checkTime
  by_cases hs : isSorted ts = true
  · rw [if_pos hs] at hst
    have hst : sortedTimes argsort ts = ts := by simpa [eq_comm] using hst
    rw [hst]
    simp only [hs, if_true, run_bind, run_pure, andThen_ok, Option.getD_some, he, Bool.false_eq_true, if_false,
      Bool.not_false, Bool.and_true, run_get, run_ite, run_throw, andThen_error]
    rcases ts with _ | ⟨t0, tl⟩
    · rfl
    simp only [run_bind, run_get, andThen_ok, run_ite, run_throw, run_pure, andThen_error]
    split
    · rfl
    · split
      · rfl
      · simp only [andThen_ok, andThen_assoc]
        congr 1
        funext rs s1
        congr 1
        funext p s2
        cases ((t0 :: tl).filter fun ti => decide (ti ≤ s.t)).isEmpty <;> rfl
  · rw [if_neg hs] at hst
    simp only [hs, if_false, run_bind, run_ofExcept, hst, Option.getD_some, he, Bool.false_eq_true,
      Bool.not_false, Bool.and_true, andThen_ok]
    rcases sortedTimes argsort ts with _ | ⟨t0, tl⟩
    · rfl
    simp only [run_bind, run_get, andThen_ok, run_ite, run_throw, run_pure, andThen_error]
    split
    · rfl
    · split
      · rfl
      · simp only [andThen_ok, andThen_assoc]
        congr 1
        funext rs s1
        congr 1
        funext p s2
        cases ((t0 :: tl).filter fun ti => decide (ti ≤ s.t)).isEmpty
        · rfl
        · simp only [if_true, Bool.not_true, Bool.false_eq_true, if_false, andThen_ok]
          cases fancyIndex _ _ <;> rfl

/-- A successful `run_events` with events is a run of the loop on times all in the future. -/
theorem runEvents_ok {S : Solver α n k X} {bo : BisectOpts α} {argsort : List α → List Nat}
    (hA : ∀ l, IsArgsort l (argsort l)) {ts : List α} {es : List (EventSpec α n)} (hes : es ≠ []) {s s' : St α n k X}
    {o : RunOut α n k} (h : (S.runEvents bo argsort ts (some es)).run s = some (.ok o, s')) :
    (∀ x ∈ ts, s.t < x) ∧ InRange S s ts ∧ ts ≠ [] ∧ ∃ eh out,
      (S.runEvalEvents bo S.tBound (sortedTimes argsort ts) (buildHandler es s.t s.y)).run s = some (.ok (eh, out), s') ∧
      (if isSorted ts then o.out = out else fancyIndex out (invPerm (argsort ts)) = .ok o.out) ∧
      o.tEvents = eh.events.map (fun e => e.t) ∧ o.yEvents = eh.events.map fun e => e.y := by
  have hp := sortedTimes_perm hA ts
  have hs := sortedTimes_sorted hA ts
  rw [runEvents_unfold S bo hA ts hes] at h
  rcases hT : sortedTimes argsort ts with _ | ⟨t0, tl⟩
  · rw [hT] at h; cases h
  · rw [hT] at h hp hs
    simp only at h
    split at h
    · cases h
    · rename_i h0
      split at h
      · cases h
      · rename_i h1
        rw [andThen_eq_ok] at h
        obtain ⟨rs, s1, h2, h3⟩ := h
        rw [andThen_eq_ok] at h3
        obtain ⟨p, s2, h4, h5⟩ := h3
        split at h5
        · rename_i hemp
          rw [List.isEmpty_iff, List.filter_eq_nil_iff] at hemp
          have hfut : ∀ x ∈ t0 :: tl, s.t < x := by
            intro x hx
            have := hemp x hx
            rw [decide_eq_true_iff] at this
            exact not_le.mp this
          have e1 : ((t0 :: tl).filter fun ti => decide (ti ≤ s.t)) = [] := by
            rw [List.filter_eq_nil_iff]; exact hemp
          have e2 : ((t0 :: tl).filter fun ti => !decide (ti ≤ s.t)) = t0 :: tl := by
            rw [List.filter_eq_self]
            intro x hx
            simp [not_le.mpr (hfut x hx)]
          rw [e1] at h2 h5
          rw [e2] at h4
          rw [interpolateAll] at h2
          cases h2
          refine ⟨fun x hx => hfut x (hp.mem_iff.mpr hx), ?_, ?_, ?_⟩
          · intro x hx
            have hx := hp.mem_iff.mpr hx
            refine ⟨?_, ?_⟩
            · rcases List.mem_cons.mp hx with rfl | hx
              · exact not_lt.mp h0
              · exact (not_lt.mp h0).trans ((List.pairwise_cons.mp hs).1 x hx)
            · rcases hor : S.tBound with b | _
              · have hle : x ≤ listMax t0 tl := by
                  rcases List.mem_cons.mp hx with rfl | hx
                  · exact (listMax_ge _ _).1
                  · exact (listMax_ge _ _).2 x hx
                rw [hor] at h1
                simp only [Bound.gt, Bound.exceededBy, decide_eq_true_iff, not_lt, decide_eq_false_iff_not] at h1
                exact not_lt.mpr (hle.trans h1)
              · trivial
          · rintro rfl
            exact absurd hp.eq_nil (by simp)
          · by_cases hso : isSorted ts = true
            · rw [if_pos hso] at h5
              cases h5
              exact ⟨p.1, p.2, h4, by rw [if_pos hso]; rfl, rfl, rfl⟩
            · rw [if_neg hso] at h5
              simp only [Option.some.injEq, Prod.mk.injEq] at h5
              obtain ⟨h5, rfl⟩ := h5
              rcases hf : fancyIndex p.2 (invPerm (argsort ts)) with er | out
              · simp [hf] at h5; cases h5
              · simp [hf] at h5; cases h5
                exact ⟨p.1, p.2, h4, by rw [if_neg hso, hf], rfl, rfl⟩
        · cases h5

/-- Running the loop on sorted times in range and all in the future. -/
theorem runEvents_of_loop {S : Solver α n k X} {bo : BisectOpts α} {argsort : List α → List Nat} {ts : List α}
    (hs : ts.Pairwise (· ≤ ·)) (hne : ts ≠ []) {es : List (EventSpec α n)} (hes : es ≠ []) {s : St α n k X}
    (hr : InRange S s ts) (hf : ∀ x ∈ ts, s.t < x) :
    (S.runEvents bo argsort ts (some es)).run s =
      andThen ((S.runEvalEvents bo S.tBound ts (buildHandler es s.t s.y)).run s) fun p s2 =>
        some (.ok ⟨p.2, p.1.events.map fun e => e.t, p.1.events.map fun e => e.y⟩, s2) := by
  have he : es.isEmpty = false := by
    cases es with
    | nil => exact absurd rfl hes
    | cons _ _ => rfl
  rcases ts with _ | ⟨t0, tl⟩
  · exact absurd rfl hne
  have e1 : ((t0 :: tl).filter fun ti => decide (ti ≤ s.t)) = [] := by
    rw [List.filter_eq_nil_iff]
    intro x hx
    simp [hf x hx]
  have e2 : ((t0 :: tl).filter fun ti => !decide (ti ≤ s.t)) = t0 :: tl := by
    rw [List.filter_eq_self]
    intro x hx
    simp [hf x hx]
  unfold runEvents checkTime
  simp only [(isSorted_iff _).mpr hs, if_true, run_bind, run_pure, andThen_ok, Option.getD_some, he, Bool.false_eq_true,
    if_false, Bool.not_false, Bool.and_true, run_get, run_ite, run_throw, andThen_error, e1, e2]
  rw [if_neg (not_lt.mpr (hr t0 List.mem_cons_self).1),
    if_neg (by rw [← exceededBy_eq, (notBeyond_iff _ _).mp (hr _ (listMax_mem t0 tl)).2]; simp)]
  simp only [andThen_ok, interpolateAll, run_pure, andThen_assoc, List.isEmpty_nil, Bool.not_true, Bool.false_eq_true, if_false,
    List.map_nil, List.zip_nil_left, List.nil_append]

/-- `run_events` with events on future times in any order. -/
theorem runEvents_future {S : Solver α n k X} {bo : BisectOpts α} {argsort : List α → List Nat}
    (hA : ∀ l, IsArgsort l (argsort l)) {ts : List α}
    (hne : ts ≠ []) {es : List (EventSpec α n)} (hes : es ≠ []) {s : St α n k X}
    (hr : InRange S s ts) (hf : ∀ x ∈ ts, s.t < x) :
    (S.runEvents bo argsort ts (some es)).run s =
      andThen ((S.runEvalEvents bo S.tBound (sortedTimes argsort ts) (buildHandler es s.t s.y)).run s) fun p s2 =>
        if isSorted ts then some (.ok ⟨p.2, p.1.events.map fun e => e.t, p.1.events.map fun e => e.y⟩, s2)
        else some ((fancyIndex p.2 (invPerm (argsort ts))).map fun out => ⟨out, p.1.events.map fun e => e.t,
                  p.1.events.map fun e => e.y⟩, s2) := by
  have hp := sortedTimes_perm hA ts
  rw [runEvents_unfold S bo hA ts hes]
  rcases hT : sortedTimes argsort ts with _ | ⟨t0, tl⟩
  · rw [hT] at hp
    exact absurd hp.symm.eq_nil hne
  rw [hT] at hp
  have hf' : ∀ x ∈ t0 :: tl, s.t < x := fun x hx => hf x (hp.mem_iff.mp hx)
  have hr' : InRange S s (t0 :: tl) := fun x hx => hr x (hp.mem_iff.mp hx)
  have e1 : ((t0 :: tl).filter fun ti => decide (ti ≤ s.t)) = [] := by
    rw [List.filter_eq_nil_iff]
    intro x hx
    simpa using hf' x hx
  have e2 : ((t0 :: tl).filter fun ti => !decide (ti ≤ s.t)) = t0 :: tl := by
    rw [List.filter_eq_self]
    intro x hx
    simpa using hf' x hx
  simp only [e1, e2]
  rw [if_neg (not_lt.mpr (hr' t0 List.mem_cons_self).1)]
  rw [if_neg (by
      rw [← exceededBy_eq, (notBeyond_iff _ _).mp (hr' _ (listMax_mem t0 tl)).2]; simp)]
  simp only [interpolateAll, run_pure, andThen_ok, List.isEmpty_nil, if_true, List.zip_nil_left, List.nil_append]

end order

section lawless
variable {α : Type}
variable [Add α] [Sub α] [Mul α] [Div α] [Neg α] [Zero α] [One α] [NatCast α] [BEq α]
variable [LT α] [DecidableLT α] [LE α] [DecidableLE α]
variable {n k : Nat} {X : Type}

theorem advanceEvents_run (S : Solver α n k X) (bo : BisectOpts α) (b : Bound α) (ti : α) (eh : EventHandler α n k)
    (s : St α n k X) :
    (S.advanceEvents bo b ti eh).run s = if s.t < ti then
        andThen ((S.pstep b).run s) fun c s1 =>
          if c then andThen ((eh.evaluate bo S.interpAt).run s1) fun p s2 =>
            if p.2 then some (.ok (p.1, .terminated), s2) else (S.advanceEvents bo b ti p.1).run s2
          else some (.ok (eh, .refused), s1)
      else some (.ok (eh, .reached), s) := by
  conv_lhs => rw [advanceEvents.eq_1]
  simp only [run_bind, run_ite, run_get, andThen_ok, run_pure]
  rfl

/-- The inner loop with a limit on the number of steps, for computing examples. -/
def advFuel (S : Solver α n k X) (bo : BisectOpts α) (b : Bound α) (ti : α) : Nat → EventHandler α n k → St α n k X →
    Option (Except Err (EventHandler α n k × AdvRes) × St α n k X)
  | 0, _, _ => none
  | m + 1, eh, s => if s.t < ti then
        andThen ((S.pstep b).run s) fun c s1 =>
          if c then andThen ((eh.evaluate bo S.interpAt).run s1) fun p s2 =>
            if p.2 then some (.ok (p.1, .terminated), s2) else advFuel S bo b ti m p.1 s2
          else some (.ok (eh, .refused), s1)
      else some (.ok (eh, .reached), s)

theorem adv_of_fuel (S : Solver α n k X) (bo : BisectOpts α) (b : Bound α) (ti : α) :
    ∀ m eh s r, advFuel S bo b ti m eh s = some r → (S.advanceEvents bo b ti eh).run s = some r := by
  intro m
  induction m with
  | zero => intro eh s r h; cases h
  | succ m ih =>
    intro eh s r h
    rw [advFuel] at h
    rw [advanceEvents_run]
    split
    · rename_i hlt
      rw [if_pos hlt, andThen_eq_some] at h
      rcases h with ⟨e, s1, h1, rfl⟩ | ⟨c, s1, h1, h2⟩
      · rw [h1]; rfl
      · rw [h1, andThen_ok]
        cases c with
        | false => exact h2
        | true =>
          simp only [if_true] at h2 ⊢
          rw [andThen_eq_some] at h2
          rcases h2 with ⟨e, s2, h3, rfl⟩ | ⟨p, s2, h3, h4⟩
          · rw [h3]; rfl
          · rw [h3, andThen_ok]
            split
            · rename_i hp; rw [if_pos hp] at h4; exact h4
            · rename_i hp; rw [if_neg hp] at h4; exact ih _ _ _ h4
    · rename_i hlt
      rw [if_neg hlt] at h
      exact h

/-- The whole loop with a limit on the number of steps between two requested times. -/
def runEvFuel (S : Solver α n k X) (bo : BisectOpts α) (b : Bound α) (m : Nat) :
    List α → EventHandler α n k → St α n k X → Option (Except Err (EventHandler α n k × List (α × Vec α n)) × St α n k X)
  | [], eh, s => some (.ok (eh, []), s)
  | ti :: rest, eh, s => andThen (advFuel S bo b ti m eh s) fun p s1 =>
      match p.2 with
      | .reached => andThen ((S.interpAt ti).run s1) fun r s2 =>
          andThen (runEvFuel S bo b m rest p.1 s2) fun q s3 => some (.ok (q.1, (ti, r.deref s2.cache) :: q.2), s3)
      | .refused => some (.ok (p.1, []), s1)
      | .terminated => match p.1.lastEvent with
        | some (te, re) => some (.ok (p.1, [(te, re.deref s1.cache)]), s1)
        | none => some (.error .valueError, s1)

theorem runEv_of_fuel (S : Solver α n k X) (bo : BisectOpts α) (b : Bound α) (m : Nat) (ts : List α) :
    ∀ eh s r, runEvFuel S bo b m ts eh s = some r → (S.runEvalEvents bo b ts eh).run s = some r := by
  induction ts with
  | nil => intro eh s r h; exact h
  | cons ti rest ih =>
    intro eh s r h
    rw [runEvFuel, andThen_eq_some] at h
    rw [runEvalEvents_cons]
    rcases h with ⟨e, s1, h1, rfl⟩ | ⟨⟨eh1, res⟩, s1, h1, h2⟩
    · rw [adv_of_fuel _ _ _ _ _ _ _ _ h1]; rfl
    · rw [adv_of_fuel _ _ _ _ _ _ _ _ h1, andThen_ok]
      cases res with
      | refused => exact h2
      | terminated => exact h2
      | reached =>
        simp only at h2 ⊢
        rw [andThen_eq_some] at h2
        rcases h2 with ⟨e, s2, h3, rfl⟩ | ⟨q, s2, h3, h4⟩
        · rw [h3]; rfl
        · rw [h3, andThen_ok]
          rw [andThen_eq_some] at h4
          rcases h4 with ⟨e, s2, h5, rfl⟩ | ⟨q, s2, h5, h6⟩
          · rw [ih _ _ _ h5]; rfl
          · rw [ih _ _ _ h5]; exact h6

/-- A computation ended in a value and a state with the property `p`. -/
def okAnd {σ A : Type} (r : Option (Except Err A × σ)) (p : A → σ → Bool) : Bool :=
  match r with
  | some (.ok a, s) => p a s
  | _ => false

theorem of_okAnd {σ A : Type} {r : Option (Except Err A × σ)} {p : A → σ → Bool} (h : okAnd r p = true) :
    ∃ a s, r = some (.ok a, s) ∧ p a s = true := by
  rcases r with _ | ⟨_ | a, s⟩
  · cases h
  · cases h
  · exact ⟨a, s, rfl, h⟩

/-- A computation ended in the exception `e`. -/
def errIs {σ A : Type} (r : Option (Except Err A × σ)) (e : Err) : Bool :=
  match r with
  | some (.error e', _) => decide (e' = e)
  | _ => false

theorem of_errIs {σ A : Type} {r : Option (Except Err A × σ)} {e : Err} (h : errIs r e = true) :
    ∃ s, r = some (.error e, s) := by
  rcases r with _ | ⟨e' | a, s⟩
  · cases h
  · simp only [errIs, decide_eq_true_iff] at h
    exact ⟨s, by rw [h]⟩
  · cases h

end lawless

section forward
variable {α : Type} [LinearOrder α]
variable [Add α] [Sub α] [Mul α] [Div α] [Neg α] [Zero α] [One α] [NatCast α] [BEq α] [LawfulBEq α]
variable {n k : Nat} {X : Type} {S : Solver α n k X}

theorem watches_build (L : Locator α) (es : List (EventSpec α n)) (s : St α n k X) :
    Watches S L es [] s (buildHandler es s.t s.y : EventHandler α n k).events := by
  induction es with
  | nil => exact .nil
  | cons e es ih =>
    refine .cons ⟨rfl, ?_, rfl, rfl, rfl, ⟨List.Pairwise.nil, rfl, by simp [buildEvent], ?_, ⟨[], List.nil_sublist _, .nil⟩⟩, by simp [buildEvent]⟩ ih
    · show e.terminal.getD false = true ↔ _
      rcases e.terminal with _ | _ | _ <;> simp
    · intro a b hc
      exact absurd hc consecutive_single

theorem noTerminal_single (es : List (EventSpec α n)) (s : St α n k X) : NoTerminal es ([] ++ [s]) :=
  fun _ _ hc => absurd hc consecutive_single

/-- Everything about a successful `run_events`. -/
theorem runEvents_post (hM : Forward S) (D : Dense S.method S.rhs) {bo : BisectOpts α} {L : Locator α} (hL : Locates bo L)
    {argsort : List α → List Nat} (hA : ∀ l, IsArgsort l (argsort l)) {ts : List α} {es : List (EventSpec α n)} (hes : es ≠ [])
    {s s' : St α n k X} {o : RunOut α n k} (hg : Good D s)
    (h : (S.runEvents bo argsort ts (some es)).run s = some (.ok o, s')) :
    ∃ eh out, RunEvPost D L es S.tBound (sortedTimes argsort ts) [] s eh out s' ∧
      (if isSorted ts then o.out = out else fancyIndex out (invPerm (argsort ts)) = .ok o.out) ∧
      o.tEvents = eh.events.map (fun e => e.t) ∧ o.yEvents = eh.events.map fun e => e.y := by
  obtain ⟨h1, h2, -, eh, out, h3, h4, h5⟩ := runEvents_ok hA hes h
  exact ⟨eh, out, runEvalEvents_post hM D hL es S.tBound (sortedTimes_sorted hA ts) h3 ⟨⟨rfl, rfl, rfl⟩, hg⟩ hg
    (watches_build L es s) (noTerminal_single es s)
    (fun u hu => (h2 u ((sortedTimes_perm hA ts).mem_iff.mp hu)).1), h4, h5⟩

/-- The records made by a successful `run_events`. -/
theorem runEvents_logged (hM : Forward S) (D : Dense S.method S.rhs) {bo : BisectOpts α} {L : Locator α} (hL : Locates bo L)
    {argsort : List α → List Nat} (hA : ∀ l, IsArgsort l (argsort l)) {ts : List α} {es : List (EventSpec α n)} (hes : es ≠ [])
    {s s' : St α n k X} {o : RunOut α n k} (hg : Good D s)
    (h : (S.runEvents bo argsort ts (some es)).run s = some (.ok o, s')) :
    ∃ l c, Path S S.tBound s l c ∧ s'.cache = c.cache ∧ o.tEvents.length = es.length ∧ o.yEvents.length = es.length ∧
      ∀ (i : Nat) e tl yl, es[i]? = some e → o.tEvents[i]? = some tl → o.yEvents[i]? = some yl →
        Logged S L e (s :: l) tl yl := by
  obtain ⟨eh, out, ⟨l, c, pts', h1, h2, h3, -, h5, -⟩, -, h6, h7⟩ := runEvents_post hM D hL hA hes hg h
  have hlen := h5.length_eq
  refine ⟨l, c, h1, h3.1.1, by rw [h6, List.length_map, hlen], by rw [h7, List.length_map, hlen], ?_⟩
  intro i e tl yl g1 g2 g3
  rw [h6, List.getElem?_map, Option.map_eq_some_iff] at g2
  rw [h7, List.getElem?_map, Option.map_eq_some_iff] at g3
  obtain ⟨ev, g4, rfl⟩ := g2
  obtain ⟨ev', g5, rfl⟩ := g3
  rw [g4] at g5
  cases g5
  obtain ⟨hi, rfl⟩ := List.getElem?_eq_some_iff.mp g1
  obtain ⟨hi', rfl⟩ := List.getElem?_eq_some_iff.mp g4
  have := (List.forall₂_iff_get.mp h5).2 i hi hi'
  have h8 := this.logged
  rw [← h2] at h8
  simpa using h8

end forward
end Nbkode
