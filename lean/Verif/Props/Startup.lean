import Verif.Props.RunStates
import Verif.Props.VarDemo
import Verif.Props.History

/-!
# Start-up of the multistep methods: C34, C35

`ORDER` is `p + 1`. The history of a method with `ORDER > 1` has `p + 1` slots, numbered `0` (oldest) to `p`.
-/

set_option autoImplicit false
set_option linter.unusedSectionVars false

namespace Nbkode
open Py Spec Solver

section order
variable {α : Type} [LinearOrder α]
variable [Add α] [Sub α] [Mul α] [Div α] [Neg α] [Zero α] [One α] [NatCast α] [BEq α]
variable {n k : Nat} {X : Type}

/-- Time, state and derivative of a solver. -/
def Spec.point (s : St α n k X) : α × Vec α n × Vec α n := (s.t, s.y, s.f)

theorem startFixed_path {k' : Nat} {X' : Type} {S' : Solver α n k' X'} (hb : S'.tBound = .inf) {m : Nat}
    {b b' : Buffer α n k} {s s' : St α n k' X'} (h : (startFixed S' m b).run s = some (.ok b', s')) :
    ∃ l, Path S' .inf s l s' ∧ l.length = m ∧ b' = (l.map point).foldl (fun b p => b.push p.1 p.2.1 p.2.2) b := by
  induction m generalizing b s with
  | zero =>
    simp only [startFixed, run_pure, Option.some.injEq, Prod.mk.injEq, Except.ok.injEq] at h
    obtain ⟨rfl, rfl⟩ := h
    exact ⟨[], .nil _, rfl, rfl⟩
  | succ m ih =>
    simp only [startFixed, run_bind, run_get, andThen_eq_ok] at h
    obtain ⟨a, s1, h1, s2, s3, h2, h3⟩ := h
    simp only [Option.some.injEq, Prod.mk.injEq, Except.ok.injEq] at h2
    obtain ⟨rfl, rfl⟩ := h2
    rw [step_none_run, andThen_eq_ok] at h1
    obtain ⟨c, s4, h4, h5⟩ := h1
    cases c with
    | false =>
      obtain ⟨h6, -⟩ := pstep_false.mp h4
      rw [hb] at h6
      exact absurd trivial h6
    | true =>
      obtain ⟨h6, h7⟩ := pstep_true.mp h4
      simp only [if_true, Option.some.injEq, Prod.mk.injEq] at h5
      obtain ⟨-, rfl⟩ := h5
      obtain ⟨l, hl, hlen, e⟩ := ih h3
      rw [hb] at h6
      exact ⟨s4 :: l, .cons h6 h7 hl, by simp [hlen], e⟩

/-- The converse. -/
theorem startFixed_of_path {k' : Nat} {X' : Type} {S' : Solver α n k' X'} (hb : S'.tBound = .inf)
    {l : List (St α n k' X')} {b : Buffer α n k} {s s' : St α n k' X'} (h : Path S' .inf s l s') :
    (startFixed S' l.length b).run s =
      some (.ok ((l.map point).foldl (fun b p => b.push p.1 p.2.1 p.2.2) b), s') := by
  induction h generalizing b with
  | nil s => rfl
  | cons hf ht _ ih =>
    rw [List.length_cons, startFixed]
    simp only [run_bind, run_get, step_none_run]
    rw [hb, (pstep_true (S := S')).mpr ⟨hf, ht⟩]
    exact ih

theorem pushAll_ok {rhs : Rhs α n} {l : List (α × Vec α n)} {b b' : Buffer α n k} (h : pushAll rhs l b = .ok b') :
    ∃ l' : List (α × Vec α n × Vec α n), b' = l'.foldl (fun b p => b.push p.1 p.2.1 p.2.2) b ∧
      l'.map (fun p => (p.1, p.2.1)) = l ∧ ∀ p ∈ l', rhs p.1 p.2.1 = .ok p.2.2 := by
  induction l generalizing b with
  | nil =>
    simp only [pushAll, Except.ok.injEq] at h
    exact ⟨[], h.symm, rfl, by simp⟩
  | cons p l ih =>
    obtain ⟨t, y⟩ := p
    cases hf : rhs t y with
    | error e => simp [pushAll, hf, bind, Except.bind] at h
    | ok f =>
      simp only [pushAll, hf, bind, Except.bind] at h
      obtain ⟨l', e, h1, h2⟩ := ih h
      refine ⟨(t, y, f) :: l', e, by simp [h1], ?_⟩
      intro q hq
      rcases List.mem_cons.mp hq with rfl | hq
      · exact hf
      · exact h2 q hq

/-- Slot by slot, the history of `p + 1` points after pushing `p` points on a fresh one. -/
theorem slots_of_pushes {p : Nat} (hp : p ≠ 0) (g : Buffer α n (histExtra p)) (t0 : α) (y0 f0 : Vec α n)
    (l : List (α × Vec α n × Vec α n)) (hl : l.length = p) (i : Fin (histExtra p + 2)) :
    let b := l.foldl (fun b p => b.push p.1 p.2.1 p.2.2) (Buffer.init g t0 y0 f0)
    ((t0, y0, f0) :: l)[i.val]? = some (b.ts i, b.ys i, b.fs i) := by
  intro b
  obtain ⟨before, hw⟩ := C13_window_of_pushes g t0 y0 f0 l
  have hk : histExtra p + 2 = p + 1 := by unfold histExtra; omega
  have hlen : before.length = p := by
    have := congrArg List.length hw
    simp only [List.length_append, List.length_ofFn, List.length_replicate, hl] at this
    omega
  have h1 := congrArg (fun l => l[p + i.val]?) hw
  rw [List.getElem?_append_right (by omega), hlen, Nat.add_sub_cancel_left, List.getElem?_ofFn, dif_pos i.isLt] at h1
  rw [h1]
  generalize i.val = j
  rw [hk, List.replicate_succ', List.append_assoc, List.getElem?_append_right (by simp),
    List.length_replicate, Nat.add_sub_cancel_left]
  rfl

/-- What a successful construction with a starter did. -/
theorem multistepInit_fixed {p : Nat} (hp : p ≠ 0) {g : Buffer α n (histExtra p)} {bo : BisectOpts α}
    {argsort : List α → List Nat} {k' : Nat} {X' : Type} {M : Method α n k' X'}
    {make : Rhs α n → α → Vec α n → Option α → Except Err (St α n k' X')} {rhs : Rhs α n} {t0 : α} {y0 : Vec α n}
    {h : α} {st : St α n (histExtra p) Unit}
    (hs : multistepInit g bo argsort (.fixed M make) rhs t0 y0 (some h) = some (.ok st)) :
    ∃ f0 s1 s2 l, rhs t0 y0 = .ok f0 ∧ make rhs t0 y0 (some h) = .ok s1 ∧ Path ⟨M, rhs, .inf⟩ .inf s1 l s2 ∧ l.length = p ∧
      st = ⟨(l.map point).foldl (fun b p => b.push p.1 p.2.1 p.2.2) (Buffer.init g t0 y0 f0), h, ()⟩ := by
  unfold multistepInit at hs
  cases h0 : solverInit g () rhs t0 y0 (some h) with
  | error e => rw [h0] at hs; simp at hs
  | ok s0 =>
    rw [h0] at hs
    obtain ⟨f0, hf, hc, hh, -⟩ := solverInit_ok h0
    have e1 : s0.t = t0 := by rw [St.t, hc]; exact init_ts _ _ _ _ _
    have e2 : s0.y = y0 := by rw [St.y, hc]; exact init_ys _ _ _ _ _
    have e3 : s0.h = h := hh
    simp only [if_neg hp, e1, e2, e3] at hs
    cases hm : make rhs t0 y0 (some h) with
    | error e => rw [hm] at hs; simp at hs
    | ok s1 =>
      rw [hm] at hs
      simp only [runFrom] at hs
      cases hr : (startFixed ⟨M, rhs, .inf⟩ p s0.cache).run s1 with
      | none => rw [hr] at hs; simp at hs
      | some q =>
        obtain ⟨r, s2⟩ := q
        rw [hr] at hs
        cases r with
        | error e => simp [Except.map] at hs
        | ok b =>
          simp only [Option.map_some, Except.map, Option.some.injEq, Except.ok.injEq] at hs
          obtain ⟨l, hl, hlen, e⟩ := startFixed_path (S' := ⟨M, rhs, .inf⟩) rfl hr
          refine ⟨f0, s1, s2, l, hf, rfl, hl, hlen, ?_⟩
          rw [← hs, e, hc]

/-- Conversely. -/
theorem multistepInit_fixed_of {p : Nat} (hp : p ≠ 0) {g : Buffer α n (histExtra p)} {bo : BisectOpts α}
    {argsort : List α → List Nat} {k' : Nat} {X' : Type} {M : Method α n k' X'}
    {make : Rhs α n → α → Vec α n → Option α → Except Err (St α n k' X')} {rhs : Rhs α n} {t0 : α} {y0 f0 : Vec α n}
    {h : α} {s1 s2 : St α n k' X'} {l : List (St α n k' X')} (hf : rhs t0 y0 = .ok f0)
    (hm : make rhs t0 y0 (some h) = .ok s1) (hl : Path ⟨M, rhs, .inf⟩ .inf s1 l s2) (hlen : l.length = p) :
    multistepInit g bo argsort (.fixed M make) rhs t0 y0 (some h) = some (.ok
      ⟨(l.map point).foldl (fun b p => b.push p.1 p.2.1 p.2.2) (Buffer.init g t0 y0 f0), h, ()⟩) := by
  have e1 : (⟨Buffer.init g t0 y0 f0, h, ()⟩ : St α n (histExtra p) Unit).t = t0 := init_ts _ _ _ _ _
  have e2 : (⟨Buffer.init g t0 y0 f0, h, ()⟩ : St α n (histExtra p) Unit).y = y0 := init_ys _ _ _ _ _
  unfold multistepInit solverInit
  simp only [hf, bind, Except.bind, pure, Except.pure, Option.getD_some, if_neg hp, e1, e2, hm, runFrom]
  have := startFixed_of_path (S' := ⟨M, rhs, .inf⟩) rfl (b := Buffer.init g t0 y0 f0) hl
  rw [hlen] at this
  rw [this]
  rfl

theorem multistepInit_variable {p : Nat} (hp : p ≠ 0) {g : Buffer α n (histExtra p)} {bo : BisectOpts α}
    {argsort : List α → List Nat} {k' : Nat} {X' : Type} {M : Method α n k' X'}
    {make : Rhs α n → α → Vec α n → Except Err (St α n k' X')} {rhs : Rhs α n} {t0 : α} {y0 : Vec α n}
    {h : α} {st : St α n (histExtra p) Unit}
    (hs : multistepInit g bo argsort (.variable M make) rhs t0 y0 (some h) = some (.ok st)) :
    ∃ f0 s1 s2 out, ∃ l : List (α × Vec α n × Vec α n), rhs t0 y0 = .ok f0 ∧ make rhs t0 y0 = .ok s1 ∧
      (Solver.run ⟨M, rhs, .inf⟩ bo argsort (startTimes p h)).run s1 = some (.ok out, s2) ∧
      l.map (fun p => (p.1, p.2.1)) = out ∧ (∀ p ∈ l, rhs p.1 p.2.1 = .ok p.2.2) ∧
      st = ⟨l.foldl (fun b p => b.push p.1 p.2.1 p.2.2) (Buffer.init g t0 y0 f0), h, ()⟩ := by
  unfold multistepInit at hs
  cases h0 : solverInit g () rhs t0 y0 (some h) with
  | error e => rw [h0] at hs; simp at hs
  | ok s0 =>
    rw [h0] at hs
    obtain ⟨f0, hf, hc, hh, -⟩ := solverInit_ok h0
    have e1 : s0.t = t0 := by rw [St.t, hc]; exact init_ts _ _ _ _ _
    have e2 : s0.y = y0 := by rw [St.y, hc]; exact init_ys _ _ _ _ _
    have e3 : s0.h = h := hh
    simp only [if_neg hp, e1, e2, e3] at hs
    cases hm : make rhs t0 y0 with
    | error e => rw [hm] at hs; simp at hs
    | ok s1 =>
      rw [hm] at hs
      simp only [runFrom] at hs
      cases hr : (startVariable ⟨M, rhs, .inf⟩ bo argsort p h s0.cache).run s1 with
      | none => rw [hr] at hs; simp at hs
      | some q =>
        obtain ⟨r, s2⟩ := q
        rw [hr] at hs
        cases r with
        | error e => simp [Except.map] at hs
        | ok b =>
          simp only [Option.map_some, Except.map, Option.some.injEq, Except.ok.injEq] at hs
          simp only [startVariable, run_bind, andThen_eq_ok, run_ofExcept, Option.some.injEq, Prod.mk.injEq] at hr
          obtain ⟨out, s3, h1, h2, rfl⟩ := hr
          obtain ⟨l, e, h3, h4⟩ := pushAll_ok h2
          refine ⟨f0, s1, s3, out, l, hf, rfl, h1, h3, h4, ?_⟩
          rw [← hs, e, hc]

end order

section field
variable {α : Type} [Field α] [LinearOrder α] [IsStrictOrderedRing α] [BEq α]
variable {n k p : Nat} {X : Type}

theorem path_times {S : Solver α n k X} (hM : IsFixed S.method) {b : Bound α} {s s' : St α n k X}
    {l : List (St α n k X)} (h : Path S b s l s') :
    ∀ i (hi : i < l.length), (l[i]).t = s.t + ((i + 1 : Nat) : α) * s.h := by
  have hF := IsFixed.shaped hM
  induction h with
  | nil s => intro i hi; simp at hi
  | cons _ ht _ ih =>
    intro i hi
    have e1 := hF.body_fixed _ _ _ ht
    have e2 := hF.body_h _ _ _ _ ht
    cases i with
    | zero => rw [List.getElem_cons_zero, e1]; simp
    | succ i =>
      rw [List.getElem_cons_succ, ih, e1, e2]
      push_cast
      ring

/-- **C34**, fixed-step starters. Let the starter's constructor put it at `(t0, y0)` with the given step, as that of every
one-step method does. After the construction the history of a multistep method with `ORDER = p + 1` holds `p + 1` points at
`t0, t0 + h, ..., t0 + p h`: the initial point and those of the first `p` steps of the starter. -/
theorem C34_fixed_starter (hp : p ≠ 0) (g : Buffer α n (histExtra p)) (bo : BisectOpts α)
    (argsort : List α → List Nat) {k' : Nat} {X' : Type} (M : Method α n k' X') (hM : IsFixed M)
    (make : Rhs α n → α → Vec α n → Option α → Except Err (St α n k' X')) (rhs : Rhs α n) (t0 : α) (y0 : Vec α n) (h : α)
    (hmake : ∀ s, make rhs t0 y0 (some h) = .ok s → s.t = t0 ∧ s.y = y0 ∧ s.h = h) (st : St α n (histExtra p) Unit)
    (hs : multistepInit g bo argsort (.fixed M make) rhs t0 y0 (some h) = some (.ok st)) :
    st.h = h ∧ (∀ i, st.cache.ts i = t0 + (i.val : α) * h) ∧ st.cache.ys (Buffer.iOld _) = y0 ∧
    ∃ s0 s1 l, make rhs t0 y0 (some h) = .ok s0 ∧ Path ⟨M, rhs, .inf⟩ .inf s0 l s1 ∧ l.length = p ∧
      ∀ i, 0 < i.val → (l.map point)[i.val - 1]? = some (st.cache.ts i, st.cache.ys i, st.cache.fs i) := by
  obtain ⟨f0, s1, s2, l, hf, hm, hl, hlen, rfl⟩ := multistepInit_fixed hp hs
  have hslot := slots_of_pushes hp g t0 y0 f0 (l.map point) (by simp [hlen])
  simp only at hslot
  obtain ⟨e1, -, e3⟩ := hmake s1 hm
  have htail : ∀ i : Fin (histExtra p + 2), 0 < i.val → ((t0, y0, f0) :: l.map point)[i.val]? = (l.map point)[i.val - 1]? := by
    intro i hi
    obtain ⟨j, hj⟩ : ∃ j, i.val = j + 1 := ⟨i.val - 1, by omega⟩
    rw [hj]; rfl
  refine ⟨rfl, fun i => ?_, ?_, s1, s2, l, hm, hl, hlen, fun i hi => by rw [← htail i hi]; exact hslot i⟩
  · have h1 := hslot i
    by_cases hi : 0 < i.val
    · rw [htail i hi] at h1
      have hil : i.val - 1 < l.length := by
        have := i.isLt; unfold histExtra at this; omega
      rw [List.getElem?_map, List.getElem?_eq_getElem hil] at h1
      simp only [Option.map_some, Option.some.injEq, Prod.mk.injEq, point] at h1
      rw [← h1.1, path_times (S := ⟨M, rhs, .inf⟩) hM hl _ hil, e1, e3]
      congr 3
      omega
    · rw [show i.val = 0 by omega] at h1 ⊢
      simp only [List.getElem?_cons_zero, Option.some.injEq, Prod.mk.injEq] at h1
      rw [← h1.1]; simp
  · have h1 := hslot (Buffer.iOld _)
    simp only [Buffer.iOld, List.getElem?_cons_zero, Option.some.injEq, Prod.mk.injEq] at h1
    exact h1.2.1.symm

/-- Any Runge-Kutta class as a starter. -/
def Spec.erkStarter {s : Nat} (T : Tableau α s) (g : Buffer α n 0) (K : ErkAux α n s) : Starter α n :=
  .fixed (erk T) fun rhs t y h => erkInit g K rhs t y h

/-- **C34**, fixed-step Runge-Kutta starters. -/
theorem C34_erk_starter (hp : p ≠ 0) {s : Nat} (T : Tableau α s) (gs : Buffer α n 0) (K : ErkAux α n s)
    (g : Buffer α n (histExtra p)) (bo : BisectOpts α) (argsort : List α → List Nat) (rhs : Rhs α n) (t0 : α)
    (y0 : Vec α n) (h : α) (st : St α n (histExtra p) Unit)
    (hs : multistepInit g bo argsort (erkStarter T gs K) rhs t0 y0 (some h) = some (.ok st)) :
    ∀ i, st.cache.ts i = t0 + (i.val : α) * h := by
  refine (C34_fixed_starter hp g bo argsort (erk T) (.erk T) _ rhs t0 y0 h ?_ st hs).2.1
  intro s1 h1
  obtain ⟨f0, -, hc, hh, -⟩ := solverInit_ok h1
  refine ⟨?_, ?_, hh⟩
  · rw [St.t, hc]; exact init_ts _ _ _ _ _
  · rw [St.y, hc]; exact init_ys _ _ _ _ _

/-- The construction succeeds when the right-hand side does not raise. -/
theorem C34_erk_starter_succeeds (hp : p ≠ 0) {s : Nat} (T : Tableau α s) (gs : Buffer α n 0) (K : ErkAux α n s)
    (g : Buffer α n (histExtra p)) (bo : BisectOpts α) (argsort : List α → List Nat) (f : α → Vec α n → Vec α n) (t0 : α)
    (y0 : Vec α n) (h : α) :
    ∃ st, multistepInit g bo argsort (erkStarter T gs K) (pureRhs f) t0 y0 (some h) = some (.ok st) := by
  have one : ∀ st : St α n 0 (ErkAux α n s), ∃ st', Takes ⟨erk T, pureRhs f, .inf⟩ st st' := by
    intro st
    obtain ⟨K', hK⟩ := stages_pure (m := s + 1) le_rfl T f st.t st.h st.y st.f st.aux
    exact ⟨_, by
      unfold Takes
      show (erkBody T (pureRhs f)).run st = _
      rw [erkBody_run T _ st hK]
      rfl⟩
  have many : ∀ m (st : St α n 0 (ErkAux α n s)), ∃ l st', Path ⟨erk T, pureRhs f, .inf⟩ .inf st l st' ∧ l.length = m := by
    intro m
    induction m with
    | zero => exact fun st => ⟨[], st, .nil _, rfl⟩
    | succ m ih =>
      intro st
      obtain ⟨s1, h1⟩ := one st
      obtain ⟨l, s2, h2, h3⟩ := ih s1
      exact ⟨s1 :: l, s2, .cons trivial h1 h2, by simp [h3]⟩
  obtain ⟨l, s2, h2, h3⟩ := many p ⟨Buffer.init gs t0 y0 (f t0 y0), h, K⟩
  exact ⟨_, multistepInit_fixed_of hp rfl rfl h2 h3⟩

variable [LawfulBEq α]

/-- **C34**, variable-step starters such as the default `RungeKutta45`: what the history holds is the initial point at `t0`
and points at `h, 2h, ..., p h`. This is what the property asks for only if `t0 = 0`. -/
theorem C34_variable_starter_times (hp : p ≠ 0) (g : Buffer α n (histExtra p)) (bo : BisectOpts α)
    (argsort : List α → List Nat) (hA : ∀ l, IsArgsort l (argsort l)) {k' : Nat} {X' : Type} (M : Method α n k' X')
    (hM : IsLibrary M) (make : Rhs α n → α → Vec α n → Except Err (St α n k' X')) (rhs : Rhs α n) (t0 : α) (y0 : Vec α n)
    (h : α) (st : St α n (histExtra p) Unit)
    (hs : multistepInit g bo argsort (.variable M make) rhs t0 y0 (some h) = some (.ok st)) :
    st.cache.ts (Buffer.iOld _) = t0 ∧ ∀ i, 0 < i.val → st.cache.ts i = (i.val : α) * h := by
  obtain ⟨f0, s1, s2, out, l, hf, hm, hr, e, -, rfl⟩ := multistepInit_variable hp hs
  have htimes := C19_unbounded_partial ⟨M, rhs, .inf⟩ hM rfl bo argsort hA _ _ _ _ hr
  have hl1 : l.map (fun p => p.1) = startTimes p h := by
    rw [← htimes, ← e, List.map_map]; rfl
  have hlen : l.length = p := by
    have := congrArg List.length hl1
    simpa [startTimes] using this
  have hslot := slots_of_pushes hp g t0 y0 f0 l hlen
  simp only at hslot
  constructor
  · have h1 := hslot (Buffer.iOld _)
    simp only [Buffer.iOld, List.getElem?_cons_zero, Option.some.injEq, Prod.mk.injEq] at h1
    exact h1.1.symm
  · intro i hi
    have h1 := hslot i
    obtain ⟨j, hj⟩ : ∃ j, i.val = j + 1 := ⟨i.val - 1, by omega⟩
    have hjp : j < p := by have := i.isLt; unfold histExtra at this; omega
    rw [hj, List.getElem?_cons_succ] at h1
    have h2 := congrArg (fun l => l[j]?) hl1
    simp only [List.getElem?_map, h1, startTimes, Option.map_some, List.getElem?_range hjp, Option.some.injEq] at h2
    rw [h2, hj]

/-- **C34**, variable-step starters, the part that holds: an initial time of `0`. -/
theorem C34_variable_starter_partial (hp : p ≠ 0) (g : Buffer α n (histExtra p)) (bo : BisectOpts α)
    (argsort : List α → List Nat) (hA : ∀ l, IsArgsort l (argsort l)) {k' : Nat} {X' : Type} (M : Method α n k' X')
    (hM : IsLibrary M) (make : Rhs α n → α → Vec α n → Except Err (St α n k' X')) (rhs : Rhs α n) (y0 : Vec α n)
    (h : α) (st : St α n (histExtra p) Unit)
    (hs : multistepInit g bo argsort (.variable M make) rhs 0 y0 (some h) = some (.ok st)) :
    ∀ i, st.cache.ts i = 0 + (i.val : α) * h := by
  obtain ⟨h1, h2⟩ := C34_variable_starter_times hp g bo argsort hA M hM make rhs 0 y0 h st hs
  intro i
  by_cases hi : 0 < i.val
  · rw [h2 i hi, zero_add]
  · have : i = Buffer.iOld _ := Fin.ext (by simp only [Buffer.iOld]; omega)
    rw [this, h1]
    simp [Buffer.iOld]

/-- **C34 refuted**, variable-step starters, for every other initial time: the construction never gives the history asked
for. -/
theorem C34_variable_starter_refuted (hp : p ≠ 0) (g : Buffer α n (histExtra p)) (bo : BisectOpts α)
    (argsort : List α → List Nat) (hA : ∀ l, IsArgsort l (argsort l)) {k' : Nat} {X' : Type} (M : Method α n k' X')
    (hM : IsLibrary M) (make : Rhs α n → α → Vec α n → Except Err (St α n k' X')) (rhs : Rhs α n) (t0 : α) (ht : t0 ≠ 0)
    (y0 : Vec α n) (h : α) : ¬ ∃ st, multistepInit g bo argsort (.variable M make) rhs t0 y0 (some h) = some (.ok st) ∧
      ∀ i, st.cache.ts i = t0 + (i.val : α) * h := by
  rintro ⟨st, hs, hi⟩
  obtain ⟨-, h2⟩ := C34_variable_starter_times hp g bo argsort hA M hM make rhs t0 y0 h st hs
  have h3 := hi ⟨1, by omega⟩
  rw [h2 ⟨1, by omega⟩ (by simp)] at h3
  exact ht (by linear_combination -h3)

/-- **C34**: an initial time after `h` is refused, with a `ValueError` from the starter. -/
theorem C34_variable_starter_late (hp : p ≠ 0) (g : Buffer α n (histExtra p)) (bo : BisectOpts α)
    (argsort : List α → List Nat) (hA : ∀ l, IsArgsort l (argsort l)) {k' : Nat} {X' : Type} (M : Method α n k' X')
    (make : Rhs α n → α → Vec α n → Except Err (St α n k' X')) (rhs : Rhs α n) (t0 : α)
    (y0 : Vec α n) (h : α) (hlate : h < t0) (f0 : Vec α n) (hf : rhs t0 y0 = .ok f0) (s1 : St α n k' X')
    (hm : make rhs t0 y0 = .ok s1) (ho : s1.cache.ts (Buffer.iOld _) = t0) :
    multistepInit g bo argsort (.variable M make) rhs t0 y0 (some h) = some (.error .valueError) := by
  have e1 : (⟨Buffer.init g t0 y0 f0, h, ()⟩ : St α n (histExtra p) Unit).t = t0 := init_ts _ _ _ _ _
  have e2 : (⟨Buffer.init g t0 y0 f0, h, ()⟩ : St α n (histExtra p) Unit).y = y0 := init_ys _ _ _ _ _
  have hr : (Solver.run ⟨M, rhs, .inf⟩ bo argsort (startTimes p h)).run s1 = some (.error .valueError, s1) := by
    refine run_out_of_range bo hA ⟨h, ?_, Or.inl (by rw [ho]; exact hlate)⟩
    simp only [startTimes, List.mem_map, List.mem_range]
    exact ⟨0, by omega, by simp⟩
  have hv : (startVariable ⟨M, rhs, .inf⟩ bo argsort p h (Buffer.init g t0 y0 f0)).run s1 =
      some (.error .valueError, s1) := by
    rw [startVariable, run_bind, hr]
    rfl
  unfold multistepInit solverInit
  simp only [hf, bind, Except.bind, pure, Except.pure, Option.getD_some, if_neg hp, e1, e2, hm, runFrom]
  rw [hv]
  rfl

/-! ### C35 -/

/-- **C35**, one-step methods: the constructors do not integrate; the solver is at `(t0, y0)` in every slot. -/
theorem C35_erk_partial {s : Nat} (g : Buffer α n 0) (K : ErkAux α n s) (rhs : Rhs α n) (t0 : α) (y0 : Vec α n)
    (h : Option α) (st : St α n 0 (ErkAux α n s)) (hs : erkInit g K rhs t0 y0 h = .ok st) :
    st.t = t0 ∧ st.y = y0 ∧ ∀ i, st.cache.ts i = t0 := by
  obtain ⟨f0, -, hc, -⟩ := solverInit_ok hs
  refine ⟨?_, ?_, fun i => ?_⟩
  · rw [St.t, hc]; exact init_ts _ _ _ _ _
  · rw [St.y, hc]; exact init_ys _ _ _ _ _
  · rw [hc]; exact init_ts _ _ _ _ _

theorem C35_fsal_partial {s d : Nat} (P : Fin (s + 2) → Fin d → α) (o : VarOptions α)
    (sel : Rhs α n → α → Vec α n → Vec α n → Except Err α) (g : Buffer α n 0) (K : Fin (s + 2) → Vec α n)
    (itp : RkItp α n d) (rhs : Rhs α n) (t0 : α) (y0 : Vec α n) (h first : Option α)
    (st : St α n 0 (FsalAux α n s (RkItp α n d))) (hs : fsalInit P o sel g K itp rhs t0 y0 h first = .ok st) :
    st.t = t0 ∧ st.y = y0 ∧ ∀ i, st.cache.ts i = t0 := by
  obtain ⟨s1, h1, h2, -⟩ := fsalInit_ok hs
  obtain ⟨s2, h3, h4, -⟩ := variableInit_ok h1
  obtain ⟨f0, -, hc, -⟩ := solverInit_ok h3
  refine ⟨?_, ?_, fun i => ?_⟩
  · rw [St.t, h2, h4, hc]; exact init_ts _ _ _ _ _
  · rw [St.y, h2, h4, hc]; exact init_ys _ _ _ _ _
  · rw [h2, h4, hc]; exact init_ts _ _ _ _ _

theorem C35_dop853_partial (c : DopDense α) (o : VarOptions α)
    (sel : Rhs α n → α → Vec α n → Vec α n → Except Err α) (g : Buffer α n 0) (K : Fin 13 → Vec α n)
    (itp : DopItp α n) (rhs : Rhs α n) (t0 : α) (y0 : Vec α n) (h first : Option α)
    (st : St α n 0 (FsalAux α n 11 (DopItp α n))) (hs : dopInit c o sel g K itp rhs t0 y0 h first = .ok st) :
    st.t = t0 ∧ st.y = y0 ∧ ∀ i, st.cache.ts i = t0 := by
  obtain ⟨s1, h1, h2, -⟩ := dopInit_ok hs
  obtain ⟨s2, h3, h4, -⟩ := variableInit_ok h1
  obtain ⟨f0, -, hc, -⟩ := solverInit_ok h3
  refine ⟨?_, ?_, fun i => ?_⟩
  · rw [St.t, h2, h4, hc]; exact init_ts _ _ _ _ _
  · rw [St.y, h2, h4, hc]; exact init_ys _ _ _ _ _
  · rw [h2, h4, hc]; exact init_ts _ _ _ _ _

/-- **C35**, multistep methods of order one, or without a starter: as the one-step methods. -/
theorem C35_multistep_no_start_partial (g : Buffer α n (histExtra p)) (bo : BisectOpts α) (argsort : List α → List Nat)
    (starter : Starter α n) (hno : p = 0 ∨ starter = .none) (rhs : Rhs α n) (t0 : α) (y0 : Vec α n) (h : Option α)
    (st : St α n (histExtra p) Unit) (hs : multistepInit g bo argsort starter rhs t0 y0 h = some (.ok st)) :
    st.t = t0 ∧ st.y = y0 := by
  unfold multistepInit at hs
  cases h0 : solverInit g () rhs t0 y0 h with
  | error e => rw [h0] at hs; simp at hs
  | ok s0 =>
    rw [h0] at hs
    obtain ⟨f0, -, hc, -⟩ := solverInit_ok h0
    have e1 : s0.t = t0 := by rw [St.t, hc]; exact init_ts _ _ _ _ _
    have e2 : s0.y = y0 := by rw [St.y, hc]; exact init_ys _ _ _ _ _
    have key : st = { s0 with cache := s0.cache.pushN s0.t s0.y s0.f (histExtra p + 1) } := by
      rcases hno with rfl | rfl
      · simpa using hs.symm
      · by_cases hp : p = 0
        · simpa [hp] using hs.symm
        · simpa [hp] using hs.symm
    rw [key]
    constructor
    · show (Buffer.push _ _ _ _).ts (Buffer.iLast _) = t0
      rw [← e1]; exact push_t _ _ _ _
    · show (Buffer.push _ _ _ _).ys (Buffer.iLast _) = y0
      rw [← e2]; exact push_y _ _ _ _

/-- **C35**, fixed-step starters: the solver comes out of its constructor at `t0 + p h`. -/
theorem C35_fixed_starter_partial (hp : p ≠ 0) (g : Buffer α n (histExtra p)) (bo : BisectOpts α)
    (argsort : List α → List Nat) {k' : Nat} {X' : Type} (M : Method α n k' X') (hM : IsFixed M)
    (make : Rhs α n → α → Vec α n → Option α → Except Err (St α n k' X')) (rhs : Rhs α n) (t0 : α) (y0 : Vec α n) (h : α)
    (hmake : ∀ s, make rhs t0 y0 (some h) = .ok s → s.t = t0 ∧ s.y = y0 ∧ s.h = h) (st : St α n (histExtra p) Unit)
    (hs : multistepInit g bo argsort (.fixed M make) rhs t0 y0 (some h) = some (.ok st)) (b : α)
    (hb : t0 + (p : α) * h ≤ b) : st.t ≤ b := by
  have h1 := (C34_fixed_starter hp g bo argsort M hM make rhs t0 y0 h hmake st hs).2.1 (Buffer.iLast _)
  have h2 : (Buffer.iLast (histExtra p)).val = p := by simp only [Buffer.iLast, histExtra]; omega
  rw [h2] at h1
  rw [St.t, Buffer.t, h1]
  exact hb

/-- **C35 refuted**, for every multistep method of order at least two (`ORDER = p + 1`), every Runge-Kutta starter, every
right-hand side that does not raise and every initial condition: if `t_bound` is less than `p` steps from `t0`, the
constructor returns a solver whose time is past `t_bound`. -/
theorem C35_refuted (hp : p ≠ 0) {s : Nat} (T : Tableau α s) (gs : Buffer α n 0) (K : ErkAux α n s)
    (g : Buffer α n (histExtra p)) (bo : BisectOpts α) (argsort : List α → List Nat) (f : α → Vec α n → Vec α n) (t0 : α)
    (y0 : Vec α n) (h : α) (b : α) (hb : b < t0 + (p : α) * h) (c : MultistepCoef α p) :
    ∃ st, multistepInit g bo argsort (erkStarter T gs K) (pureRhs f) t0 y0 (some h) = some (.ok st) ∧
      Constructed ⟨explicitMultistep c, pureRhs f, .fin b⟩ st ∧ b < st.t := by
  obtain ⟨st, hs⟩ := C34_erk_starter_succeeds hp T gs K g bo argsort f t0 y0 h
  have h1 := C34_erk_starter hp T gs K g bo argsort _ t0 y0 h st hs (Buffer.iLast _)
  have h2 : (Buffer.iLast (histExtra p)).val = p := by simp only [Buffer.iLast, histExtra]; omega
  rw [h2] at h1
  refine ⟨st, hs, .explicitMultistep c _ _ g bo argsort _ t0 y0 (some h) st hs, ?_⟩
  rw [St.t, Buffer.t, h1]
  exact hb

end field

/-! ### Concrete cases -/

section demo

/-- AdamsBashforth3 with a ForwardEuler-like starter on `y' = y` from `(2, 1)` with `h = 1/2`. -/
example (g : Buffer ℚ 1 (histExtra 2)) (gs : Buffer ℚ 1 0) (K : ErkAux ℚ 1 3) (bo : BisectOpts ℚ)
    (argsort : List ℚ → List Nat) :
    ∃ st, multistepInit g bo argsort (erkStarter RungeKutta4 gs K) (pureRhs fun _ y => y) 2 (fun _ => 1) (some (1 / 2)) =
      some (.ok st) ∧ st.cache.ts ⟨0, by decide⟩ = 2 ∧ st.cache.ts ⟨1, by decide⟩ = 5 / 2 ∧
      st.cache.ts ⟨2, by decide⟩ = 3 := by
  obtain ⟨st, hs⟩ := C34_erk_starter_succeeds (by decide) RungeKutta4 gs K g bo argsort (fun _ y => y) 2 (fun _ => 1) (1 / 2)
  have h := C34_erk_starter (by decide) _ _ _ _ _ _ _ _ _ _ _ hs
  refine ⟨st, hs, ?_, ?_, ?_⟩
  · rw [h]; norm_num
  · rw [h]; norm_num
  · rw [h]; norm_num

/-- With a bound of `9/4` that solver starts past its bound. -/
example (g : Buffer ℚ 1 (histExtra 2)) (gs : Buffer ℚ 1 0) (K : ErkAux ℚ 1 3) (bo : BisectOpts ℚ)
    (argsort : List ℚ → List Nat) : ∃ st, Constructed (⟨explicitMultistep AdamsBashforth3, pureRhs fun _ y => y,
      .fin (9 / 4)⟩ : Solver ℚ 1 _ _) st ∧ 9 / 4 < st.t := by
  obtain ⟨st, -, h1, h2⟩ := C35_refuted (by decide) RungeKutta4 gs K g bo argsort (fun _ y => y) 2 (fun _ => 1) (1 / 2)
    (9 / 4) (by norm_num) AdamsBashforth3
  exact ⟨st, h1, h2⟩

open Demo in
/-- `RungeKutta23` as a variable-step starter, with `first_step = 1`. -/
noncomputable def rk23Starter (gb : Buffer ℝ 1 0) (sel : Rhs ℝ 1 → ℝ → Vec ℝ 1 → Vec ℝ 1 → Except Err ℝ) : Starter ℝ 1 :=
  .variable (fsal realLib coarse RungeKutta23) fun rhs t y =>
    fsalInit (RungeKutta23 : FsalCoef ℝ 2 3).P coarse sel gb (fun _ _ => 0) ⟨fun _ _ => 0, 0⟩ rhs t y none (some 1)

open Demo in
/-- AdamsBashforth2 with that starter on `y' = t` from `(0, 0)` with `h = 1/2`: the construction succeeds. -/
example (gb : Buffer ℝ 1 0) (g : Buffer ℝ 1 (histExtra 1)) (sel : Rhs ℝ 1 → ℝ → Vec ℝ 1 → Vec ℝ 1 → Except Err ℝ)
    (bo : BisectOpts ℝ) (argsort : List ℝ → List Nat) (hA : ∀ l, IsArgsort l (argsort l)) :
    ∃ st, multistepInit g bo argsort (rk23Starter gb sel) (timeRhs fun t => t) 0 (fun _ => 0) (some (1 / 2)) =
      some (.ok st) ∧ st.cache.ts ⟨0, by decide⟩ = 0 ∧ st.cache.ts ⟨1, by decide⟩ = 1 / 2 := by
  obtain ⟨s1, h1, h2, h3⟩ := rk23_step
  have hM : IsLibrary rk23.method := Or.inr ⟨_, _, _, .fsal RungeKutta23⟩
  have e1 : (rk23Start (fun t => t) 1).t = 0 := rfl
  have hrun : ∃ out : Vec ℝ 1 × St ℝ 1 0 (FsalAux ℝ 1 2 (RkItp ℝ 1 3)), (rk23.run bo argsort (startTimes 1 (1 / 2))).run (rk23Start (fun t => t) 1) =
      some (.ok [(1 / 2, out.1)], out.2) := by
    have hst : startTimes 1 (1 / 2 : ℝ) = [1 / 2] := by simp [startTimes]
    rw [hst, run_eq hM.shaped bo hA (by simp) (by
      intro x hx
      simp only [List.mem_singleton] at hx
      subst hx
      refine ⟨?_, trivial⟩
      show (0 : ℝ) ≤ 1 / 2
      norm_num)]
    unfold sortedTimes
    simp only [isSorted, if_true]
    obtain ⟨r, s2, hi⟩ := interp_total (S := rk23) hM (timeRhs_total _) (t := 1 / 2) (s := s1)
      (by show s1.cache.ts (Buffer.iPrev 0) ≤ _; rw [h3]; norm_num) (by rw [h2]; norm_num)
    refine ⟨(r.deref s2.cache, s2), ?_⟩
    have hreach : Reach rk23 rk23.tBound (1 / 2) (rk23Start (fun t => t) 1) s1 :=
      .step (by rw [e1]; norm_num) (by trivial) h1 (.here (by rw [h2]; norm_num))
    rw [runEval_cons, advance_true.mpr hreach]
    simp only [andThen_ok, if_true, hi]
    rfl
  obtain ⟨out, hrun⟩ := hrun
  have hc : ∃ st, multistepInit g bo argsort (rk23Starter gb sel) (timeRhs fun t => t) 0 (fun _ => 0) (some (1 / 2)) =
      some (.ok st) := by
    have e2 : (⟨Buffer.init g 0 (fun _ => 0) (fun _ => 0), 1 / 2, ()⟩ : St ℝ 1 (histExtra 1) Unit).t = 0 :=
      init_ts _ _ _ _ _
    have e3 : (⟨Buffer.init g 0 (fun _ => 0) (fun _ => 0), 1 / 2, ()⟩ : St ℝ 1 (histExtra 1) Unit).y = fun _ => 0 :=
      init_ys _ _ _ _ _
    have hv : ∃ b, (startVariable rk23 bo argsort 1 (1 / 2) (Buffer.init g 0 (fun _ => 0) (fun _ => 0))).run
        (rk23Start (fun t => t) 1) = some (.ok b, out.2) := by
      rw [startVariable, run_bind, hrun]
      exact ⟨_, rfl⟩
    obtain ⟨b, hv⟩ := hv
    have hsol : solverInit g () (timeRhs fun t => t) 0 (fun _ => 0) (some (1 / 2)) =
        .ok ⟨Buffer.init g 0 (fun _ => 0) (fun _ => 0), 1 / 2, ()⟩ := rfl
    unfold multistepInit
    rw [hsol]
    simp only [rk23Starter, e2, e3, one_ne_zero, if_false, rk23Start_init coarse (Or.inl rfl) rfl sel gb _ 1]
    rw [runFrom]
    refine ⟨⟨b, 1 / 2, ()⟩, ?_⟩
    rw [show (⟨fsal realLib coarse RungeKutta23, timeRhs fun t => t, .inf⟩ : Solver ℝ 1 _ _) = rk23 from rfl, hv]
    rfl
  obtain ⟨st, hst⟩ := hc
  have h := C34_variable_starter_partial (by decide) g bo argsort hA _ hM _ _ _ _ st hst
  refine ⟨st, hst, ?_, ?_⟩
  · rw [h]; norm_num
  · rw [h]; norm_num

/-- The constructor of a Runge-Kutta starter is one to which `C34_variable_starter_late` applies: `t0 = 2`, `h = 1/2`. -/
example (gb : Buffer ℝ 1 0) (g : Buffer ℝ 1 (histExtra 1)) (sel : Rhs ℝ 1 → ℝ → Vec ℝ 1 → Vec ℝ 1 → Except Err ℝ)
    (bo : BisectOpts ℝ) (argsort : List ℝ → List Nat) (hA : ∀ l, IsArgsort l (argsort l)) :
    multistepInit g bo argsort (rk23Starter gb sel) (timeRhs fun t => t) 2 (fun _ => 0) (some (1 / 2)) =
      some (.error .valueError) := by
  obtain ⟨s1, h1⟩ : ∃ s1, fsalInit (RungeKutta23 : FsalCoef ℝ 2 3).P coarse sel gb (fun _ _ => 0)
      ⟨fun _ _ => 0, 0⟩ (timeRhs fun t => t) 2 (fun _ => 0) none (some 1) = .ok s1 := by
    unfold fsalInit variableInit solverInit
    simp only [timeRhs, pureRhs, bind, Except.bind, pure, Except.pure]
    have ha' : ¬ coarse.atol < 0 := by simp [coarse]
    have fin : ∀ c : Bool, c = true → ∀ e v : Except Err (St ℝ 1 0 (FsalAux ℝ 1 2 (RkItp ℝ 1 3))),
        (if (!c) = true then e else v) = v := by
      intro c hc e v; rw [hc]; rfl
    rw [fin _ (by rfl), if_neg ha']
    simp only [rkUpdate, run_modify]
    exact ⟨_, rfl⟩
  exact C34_variable_starter_late (by decide) g bo argsort hA _ _ _ 2 _ _ (by norm_num) _ rfl s1 h1
    ((C35_fsal_partial _ _ _ _ _ _ _ _ _ _ _ _ h1).2.2 _)

end demo

end Nbkode
