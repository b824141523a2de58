import Verif.Proofs.StepApi
import Verif.Props.Demo

/-!
# Stepping: C01-C06, C08, C09, C10 (step, skip, interpolate)

All theorems here hold for every method (any `Method`, library or not), every right-hand side (it may raise or
make the method diverge), every state and every number type: no arithmetic law is used.
-/

set_option autoImplicit false
set_option linter.unusedSectionVars false

namespace Nbkode
open Py Spec Solver

variable {α : Type} [Add α] [LT α] [DecidableLT α] [LE α] [DecidableLE α]
variable {n k : Nat} {X : Type}

/-- **C01.** `step(n=a+b)` is `step(n=a)` followed by `step(n=b)` with the returned arrays concatenated: same
divergence, same exception with the same solver left behind, same result and same final solver. -/
theorem C01_step_split (S : Solver α n k X) (a b : Nat) (s : St α n k X) :
    (S.step (some ((a + b : Nat) : Int)) none).run s =
      (do
        let x ← S.step (some (a : Int)) none
        let y ← S.step (some (b : Int)) none
        return concat x y : Py (St α n k X) (StepOut α n k)).run s := by
  simp only [run_bind, run_pure, step_n_run, nstepsLoop_add, andThen_assoc]
  congr 1
  funext r s1
  obtain ⟨o, c⟩ := r
  cases c with
  | true => simp
  | false =>
    simp only [Bool.false_eq_true, if_false, andThen_ok, step_n_run, andThen_assoc]
    congr 1
    funext r' s2
    obtain ⟨o', c'⟩ := r'
    cases c' <;> simp [concat]

/-- **C02.** `skip(n=, upto_t=)` is `step(n=, upto_t=)` without the output: same divergence, same exception,
same final solver, for every combination of arguments with `n >= 0`. -/
theorem C02_skip_eq_step (S : Solver α n k X) (m : Option Nat) (u : Option (Bound α))
    (s : St α n k X) :
    (S.skip (m.map Int.ofNat) u).run s = effect ((S.step (m.map Int.ofNat) u).run s) := by
  unfold skip step
  simp only [run_bind, run_get, andThen_ok, run_ite, run_pure]
  by_cases hp : inPast u s = true
  · simp only [hp, if_true]; rfl
  · simp only [hp, Bool.false_eq_true, if_false]
    cases m with
    | none =>
      cases u with
      | none =>
        simp only [Option.map_none, run_bind, run_ite, run_get, andThen_ok, run_pure,
          effect_andThen, nskip]
        rw [show (1 : Int).toNat = 1 from rfl, nskipLoop_run_succ, andThen_assoc]
        congr 1
        funext c s1
        cases c <;> simp [nskipLoop, effect, Except.map]
      | some u =>
        simp only [Option.map_none, run_bind, run_pure, effect_andThen]
        congr 1
        funext c s1
        rw [skipLoop_eq]
        rcases (S.stepsLoop u).run s1 with _ | ⟨_ | _, _⟩ <;> rfl
    | some m =>
      cases u with
      | none =>
        have := skip_n_run S m s
        unfold skip at this
        simp only [run_bind, run_get, andThen_ok, run_ite, run_pure, inPast, Bool.false_eq_true,
          if_false] at this
        simp only [Option.map_some, run_bind, Int.ofNat_eq_natCast, run_ite, run_pure, nsteps]
        rw [this, if_neg (by omega), Int.toNat_natCast, nskipLoop_eq, andThen_assoc,
          effect_andThen]
        congr 1
        funext r s1
        obtain ⟨o, c⟩ := r
        cases c <;> simp [effect, Except.map]
      | some u =>
        simp only [Option.map_some, run_bind, run_pure, effect_andThen, nskip, nsteps,
          Int.ofNat_eq_natCast, Int.toNat_natCast]
        congr 1
        funext c s1
        rw [if_neg (by omega), nskipLoop_eq, andThen_assoc]
        congr 1

/-- Outside C02: for negative `n`, `step` raises `ValueError` where `skip` silently does nothing. -/
theorem C02_negative_n_differs (S : Solver α n k X) (m : Int) (hm : m < 0) (s : St α n k X) :
    (S.step (some m) none).run s = some (.error .valueError, s) ∧
    (S.skip (some m) none).run s = some (.ok (), s) := by
  have h0 : m.toNat = 0 := by omega
  constructor
  · unfold step nsteps
    simp [run_ite, inPast, hm]
  · unfold skip nskip
    simp [run_ite, inPast, h0, nskipLoop]

/-- **C03.** When `step(n=m)` returns arrays, they have exactly `m` entries, entry `i` is `(t, y)` of the solver
after `i + 1` steps (as `skip(n=i+1)` would leave it), and the last entry is the solver's current `(t, y)`. -/
theorem C03_step_records_every_step (S : Solver α n k X) (m : Nat) (s s' : St α n k X)
    (out : List (α × Vec α n))
    (h : (S.step (some (m : Int)) none).run s = some (.ok (.arrays out), s')) :
    out.length = m ∧
    (∀ i (hi : i < out.length), ∃ si,
      (S.skip (some ((i + 1 : Nat) : Int)) none).run s = some (.ok (), si) ∧
      out[i] = (si.t, si.y)) ∧
    (∃ l, Path S S.tBound s l s' ∧ out = l.map record) ∧
    (∀ p, out.getLast? = some p → p = (s'.t, s'.y)) := by
  rw [step_n_run, andThen_eq_ok] at h
  obtain ⟨⟨o, c⟩, s1, h1, h2⟩ := h
  cases c with
  | true => simp at h2
  | false =>
    simp only [Bool.false_eq_true, if_false, Option.some.injEq, Prod.mk.injEq, Except.ok.injEq,
      StepOut.arrays.injEq] at h2
    obtain ⟨rfl, rfl⟩ := h2
    rw [nstepsLoop_ok] at h1
    obtain ⟨l, hp, rfl, h3⟩ := h1
    simp only [true_and, Bool.false_eq_true, false_and, or_false] at h3
    refine ⟨by simpa using h3, ?_, ⟨l, hp, rfl⟩, ?_⟩
    · intro i hi
      have hi' : i < l.length := by simpa using hi
      have hs : l = l.take (i + 1) ++ l.drop (i + 1) := (List.take_append_drop _ _).symm
      rw [hs] at hp
      obtain ⟨si, hp1, hp2⟩ := path_split hp
      refine ⟨si, ?_, ?_⟩
      · rw [skip_n_run, nskipLoop_ok.mpr ⟨_, hp1, Or.inl ⟨rfl, by rw [List.length_take]; omega⟩⟩]
        simp
      · have hne : l.take (i + 1) ≠ [] := by
          intro h0
          have := congrArg List.length h0
          rw [List.length_take, List.length_nil] at this
          omega
        have := path_last hp1 hne
        rw [List.getLast_eq_getElem] at this
        simp only [List.length_take, List.getElem_take] at this
        have e : min (i + 1) l.length - 1 = i := by omega
        simp only [e] at this
        simp [this, record]
    · intro p hp'
      cases hl : l with
      | nil => simp [hl] at hp'
      | cons a l' =>
        have hne : l ≠ [] := by simp [hl]
        have := path_last hp hne
        rw [List.getLast?_map, List.getLast?_eq_some_getLast hne] at hp'
        simpa [record, this, eq_comm] using hp'

/-- **C04** (control flow; see also `C04_times` for the library's methods). When `step(upto_t=u)`
returns from a solver not past `u`, each recorded point is one integration step after the previous one,
each step fitted below `u`, the solver is left at the last one, and the next step would go beyond `u`. -/
theorem C04_step_upto (S : Solver α n k X) (u : Bound α) (s s' : St α n k X)
    (out : List (α × Vec α n)) (hp : ¬ Past u s)
    (h : (S.step none (some u)).run s = some (.ok (.arrays out), s')) :
    ∃ l, Path S u s l s' ∧ out = l.map record ∧ ¬ Fits u s' := by
  unfold step at h
  have hp' : ¬ inPast (some u) s = true := by rw [inPast_iff]; exact hp
  simp only [run_bind, run_get, andThen_ok, run_ite, hp', if_false, Bool.false_eq_true,
    run_pure] at h
  rw [andThen_eq_ok] at h
  obtain ⟨_, s1, h1, h2⟩ := h
  unfold checkTime at h1
  rw [run_ite] at h1
  split at h1
  · simp at h1
  · simp only [run_pure, Option.some.injEq, Prod.mk.injEq, true_and] at h1
    subst h1
    rw [andThen_eq_ok] at h2
    obtain ⟨o, s2, h3, h4⟩ := h2
    simp only [Option.some.injEq, Prod.mk.injEq, Except.ok.injEq, StepOut.arrays.injEq] at h4
    obtain ⟨rfl, rfl⟩ := h4
    exact stepsLoop_ok.mp h3

/-- **C05.** `step(n=m, upto_t=u)` returns the first `m` points of what `step(upto_t=u)` would return
(all of them if there are fewer), for every `u` within the bound. -/
theorem C05_step_n_upto (S : Solver α n k X) (m : Nat) (u : Bound α) (s sU : St α n k X)
    (outU : List (α × Vec α n)) (hp : ¬ Past u s)
    (h : (S.step none (some u)).run s = some (.ok (.arrays outU), sU)) :
    ∃ s', (S.step (some (m : Int)) (some u)).run s = some (.ok (.arrays (outU.take m)), s') ∧
      (outU.length ≤ m → s' = sU) := by
  have hb : ¬ Beyond u S.tBound := by
    intro hb
    unfold step checkTime at h
    have hp' : ¬ inPast (some u) s = true := by rw [inPast_iff]; exact hp
    have hb' : u.gt S.tBound = true := by rw [gt_iff]; exact hb
    simp [run_ite, hp', hb'] at h
  obtain ⟨l, hl, rfl, hn⟩ := C04_step_upto S u s sU outU hp h
  rw [step_n_upto_run S m u s hp hb]
  by_cases hm : m ≤ l.length
  · have hs : l = l.take m ++ l.drop m := (List.take_append_drop _ _).symm
    rw [hs] at hl
    obtain ⟨s1, hp1, hp2⟩ := path_split hl
    refine ⟨s1, ?_, ?_⟩
    · rw [nstepsLoop_ok.mpr ⟨_, hp1, rfl, Or.inl ⟨rfl, by simp; omega⟩⟩]
      simp [List.map_take]
    · intro h0
      have : l.drop m = [] := by
        rw [List.drop_eq_nil_iff]; simpa using h0
      rw [this] at hp2
      cases hp2
      rfl
  · refine ⟨sU, ?_, fun _ => rfl⟩
    rw [nstepsLoop_ok.mpr ⟨l, hl, rfl, Or.inr ⟨rfl, by omega, hn⟩⟩]
    simp only [andThen_ok]
    rw [List.take_of_length_le (by simp; omega)]

/-- **C05**, when `step(upto_t=u)` would never return: `step(n=m, upto_t=u)` still returns exactly when `m` steps
can be made, and then returns these. -/
theorem C05_step_n_upto_path (S : Solver α n k X) (m : Nat) (u : Bound α) (s s' : St α n k X)
    (out : List (α × Vec α n)) (hp : ¬ Past u s) (hb : ¬ Beyond u S.tBound) :
    (S.step (some (m : Int)) (some u)).run s = some (.ok (.arrays out), s') ↔
      ∃ l, Path S u s l s' ∧ out = l.map record ∧
        (l.length = m ∨ (l.length < m ∧ ¬ Fits u s')) := by
  rw [step_n_upto_run S m u s hp hb, andThen_eq_ok]
  constructor
  · rintro ⟨⟨o, c⟩, s1, h1, h2⟩
    simp only [Option.some.injEq, Prod.mk.injEq, Except.ok.injEq, StepOut.arrays.injEq] at h2
    obtain ⟨rfl, rfl⟩ := h2
    obtain ⟨l, hl, rfl, h3⟩ := nstepsLoop_ok.mp h1
    exact ⟨l, hl, rfl, h3.imp And.right And.right⟩
  · rintro ⟨l, hl, rfl, h3 | h3⟩
    · exact ⟨_, _, nstepsLoop_ok.mpr ⟨l, hl, rfl, Or.inl ⟨rfl, h3⟩⟩, rfl⟩
    · exact ⟨_, _, nstepsLoop_ok.mpr ⟨l, hl, rfl, Or.inr ⟨rfl, h3⟩⟩, rfl⟩

/-- **C05.** `step(n=m, upto_t=u)` never raises `RuntimeError` by itself: if it does, a step of the method
raised it. -/
theorem C05_no_runtimeError (S : Solver α n k X) (m : Nat) (u : Bound α) (s s' : St α n k X)
    (hm : ∀ s1 s2, (S.method.body S.rhs).run s1 ≠ some (.error .runtimeError, s2)) :
    (S.step (some (m : Int)) (some u)).run s ≠ some (.error .runtimeError, s') := by
  intro h
  unfold step at h
  simp only [run_bind, run_get, andThen_ok, run_ite, run_pure] at h
  split at h
  · simp at h
  · rw [andThen_eq_some] at h
    rcases h with ⟨e, s1, h1, h2⟩ | ⟨_, s1, h1, h2⟩
    · simp only [Prod.mk.injEq, Except.error.injEq] at h2
      obtain ⟨rfl, rfl⟩ := h2
      unfold checkTime at h1
      rw [run_ite] at h1
      split at h1 <;> simp at h1
    · rw [andThen_eq_some] at h2
      rcases h2 with ⟨e, s2, h3, h4⟩ | ⟨a, s2, h3, h4⟩
      · simp only [Prod.mk.injEq, Except.error.injEq] at h4
        obtain ⟨rfl, rfl⟩ := h4
        unfold nsteps at h3
        rw [if_neg (by omega), Int.toNat_natCast, nstepsLoop_error] at h3
        obtain ⟨l, s3, _, _, _, h5⟩ := h3
        exact hm _ _ h5
      · simp at h4

/-- **C06.** If `upto_t < solver.t`, `step` returns empty arrays and `skip` returns, whatever `n` is, and
nothing changes, even if `upto_t` is also beyond the bound. -/
theorem C06_past_is_noop (S : Solver α n k X) (m : Option Int) (u : Bound α) (s : St α n k X)
    (h : Past u s) :
    (S.step m (some u)).run s = some (.ok (.arrays []), s) ∧
    (S.skip m (some u)).run s = some (.ok (), s) := by
  have hp := (inPast_iff u s).mpr h
  constructor
  · unfold step; simp [run_ite, hp]
  · unfold skip; simp [run_ite, hp]

/-- **C08.** With a right-hand side whose steps succeed, `step(n=m)` raises `RuntimeError` exactly when fewer
than `m` steps fit below `t_bound`. -/
theorem C08_runtimeError_iff (S : Solver α n k X) (m : Nat) (s : St α n k X)
    (hok : ∀ s1, ∃ s2, Takes S s1 s2) :
    (∃ s', (S.step (some (m : Int)) none).run s = some (.error .runtimeError, s')) ↔
      ¬ ∃ l s', Path S S.tBound s l s' ∧ l.length = m := by
  have hne : ∀ s1 e s2, (S.method.body S.rhs).run s1 ≠ some (.error e, s2) := by
    intro s1 e s2 h
    obtain ⟨s3, h3⟩ := hok s1
    unfold Takes at h3
    rw [h3] at h
    simp at h
  constructor
  · rintro ⟨s', h⟩ ⟨l, s1, hp, hl⟩
    rw [step_n_run, nstepsLoop_ok.mpr ⟨l, hp, rfl, Or.inl ⟨rfl, hl⟩⟩] at h
    simp at h
  · intro hno
    -- the loop cannot diverge or raise
    have key : ∀ m s, ∃ r s', (S.nstepsLoop S.tBound m).run s = some (.ok r, s') := by
      intro m
      induction m with
      | zero => intro s; exact ⟨_, _, rfl⟩
      | succ m ih =>
        intro s
        rw [nstepsLoop_run_succ]
        by_cases hf : Fits S.tBound s
        · obtain ⟨s1, h1⟩ := hok s
          rw [pstep_true.mpr ⟨hf, h1⟩]
          obtain ⟨r, s2, h2⟩ := ih s1
          exact ⟨_, s2, by simp [h2]; rfl⟩
        · rw [pstep_false.mpr ⟨hf, rfl⟩]
          exact ⟨_, _, rfl⟩
    obtain ⟨⟨o, c⟩, s', h⟩ := key m s
    have h' := h
    rw [nstepsLoop_ok] at h
    obtain ⟨l, hp, _, ⟨rfl, hl⟩ | ⟨rfl, hl⟩⟩ := h
    · exact absurd ⟨l, s', hp, hl⟩ hno
    · exact ⟨s', by rw [step_n_run, h']; simp⟩

/-- **C08.** When `step(n=m)` raises `RuntimeError` because of the bound, the solver is left after the last step
that fitted: progress is kept. (If the method's steps can raise `RuntimeError` themselves, that is the other
case.) -/
theorem C08_progress_kept (S : Solver α n k X) (m : Nat) (s s' : St α n k X)
    (h : (S.step (some (m : Int)) none).run s = some (.error .runtimeError, s')) :
    (∃ l, Path S S.tBound s l s' ∧ l.length < m ∧ ¬ Fits S.tBound s') ∨
    (∃ l s1, Path S S.tBound s l s1 ∧ l.length < m ∧ Fits S.tBound s1 ∧
      (S.method.body S.rhs).run s1 = some (.error .runtimeError, s')) := by
  rw [step_n_run, andThen_eq_some] at h
  rcases h with ⟨e, s1, h1, h2⟩ | ⟨⟨o, c⟩, s1, h1, h2⟩
  · simp only [Prod.mk.injEq, Except.error.injEq] at h2
    obtain ⟨rfl, rfl⟩ := h2
    exact Or.inr (nstepsLoop_error.mp h1)
  · cases c with
    | false => simp at h2
    | true =>
      simp only [if_true, Option.some.injEq, Prod.mk.injEq, true_and] at h2
      subst h2
      obtain ⟨l, hp, _, ⟨h3, _⟩ | ⟨_, hl, hn⟩⟩ := nstepsLoop_ok.mp h1
      · simp at h3
      · exact Or.inl ⟨l, hp, hl, hn⟩

/-- **C08** (`skip`). With a right-hand side whose steps succeed, `skip(n=m)` raises `RuntimeError` exactly when fewer
than `m` steps fit below `t_bound`. -/
theorem C08_skip_runtimeError_iff (S : Solver α n k X) (m : Nat) (s : St α n k X)
    (hok : ∀ s1, ∃ s2, Takes S s1 s2) :
    (∃ s', (S.skip (some (m : Int)) none).run s = some (.error .runtimeError, s')) ↔
      ¬ ∃ l s', Path S S.tBound s l s' ∧ l.length = m := by
  rw [← C08_runtimeError_iff S m s hok]
  have h : (S.skip (some (m : Int)) none).run s = effect ((S.step (some (m : Int)) none).run s) :=
    C02_skip_eq_step S (some m) none s
  constructor
  · rintro ⟨s', h1⟩
    rw [h1] at h
    rcases h2 : (S.step (some (m : Int)) none).run s with _ | ⟨e | r, s2⟩
    · rw [h2] at h; cases h
    · rw [h2] at h; cases h; exact ⟨_, rfl⟩
    · rw [h2] at h; cases h
  · rintro ⟨s', h1⟩
    rw [h1] at h
    exact ⟨s', h⟩

/-- **C09** fails at the bound: from a state whose next step does not fit, `step()` returns `None` where
`step(n=1)` raises `RuntimeError`. -/
theorem C09_differs_at_bound (S : Solver α n k X) (s : St α n k X) (h : ¬ Fits S.tBound s) :
    (S.step none none).run s = some (.ok .none, s) ∧
    (S.step (some 1) none).run s = some (.error .runtimeError, s) := by
  constructor
  · rw [step_none_run, pstep_false.mpr ⟨h, rfl⟩]; simp
  · have := step_n_run S 1 s
    rw [Nat.cast_one] at this
    rw [this, nstepsLoop_run_succ, pstep_false.mpr ⟨h, rfl⟩]; simp

/-- **C09** as documented is false. -/
theorem C09_refuted : ¬ ∀ (S : Solver ℚ 1 (histExtra 0) Unit) (s : St ℚ 1 (histExtra 0) Unit),
    effect ((S.step none none).run s) = effect ((S.step (some 1) none).run s) := by
  intro h
  have h1 := C09_differs_at_bound (Demo.euler (.fin 0)) Demo.s0 (by
    simp [Fits, NotBeyond, Demo.euler, Demo.s0, Demo.st, St.t, Buffer.t])
  have := h (Demo.euler (.fin 0)) Demo.s0
  rw [h1.1, h1.2] at this
  simp [effect, Except.map] at this

/-- **C09**, the part that holds: away from the bound `step()` and `step(n=1)` do the same (divergence,
exception, final solver), and when they succeed the returned time and state (as read immediately) are the
same. Missing: the case where the next step does not fit below `t_bound`, where they differ. -/
theorem C09_step_default_partial (S : Solver α n k X) (s : St α n k X) (h : Fits S.tBound s) :
    effect ((S.step none none).run s) = effect ((S.step (some 1) none).run s) ∧
    ∀ s', Takes S s s' →
      (S.step (some 1) none).run s = some (.ok (.arrays [(s'.t, s'.y)]), s') ∧
      ∃ r, (S.step none none).run s = some (.ok (.single s'.t r), s') ∧
        r.deref s'.cache = s'.y := by
  have e1 := step_n_run S 1 s
  rw [Nat.cast_one] at e1
  have ep : (S.pstep S.tBound).run s =
      andThen ((S.method.body S.rhs).run s) (fun _ s' => some (.ok true, s')) := by
    rw [pstep_run]
    have h' := (notBeyond_iff _ _).mp h
    unfold St.t at h'
    simp [h']
  constructor
  · rw [e1, step_none_run, nstepsLoop_run_succ, ep]
    rcases (S.method.body S.rhs).run s with _ | ⟨_ | _, s1⟩ <;> simp [nstepsLoop, effect, Except.map]
  · intro s' ht
    have hp := pstep_true.mpr ⟨h, ht⟩
    constructor
    · rw [e1, nstepsLoop_run_succ, hp]
      simp [nstepsLoop]
    · exact ⟨.row (Buffer.iLast k), by rw [step_none_run, hp]; simp, rfl⟩

/-- **C10** (step, skip). A target beyond `t_bound` (and not in the past) raises `ValueError` and changes
nothing, for every `n`. -/
theorem C10_step_beyond_bound (S : Solver α n k X) (m : Option Int) (u : Bound α) (s : St α n k X)
    (hp : ¬ Past u s) (hb : Beyond u S.tBound) :
    (S.step m (some u)).run s = some (.error .valueError, s) ∧
    (S.skip m (some u)).run s = some (.error .valueError, s) := by
  have hp' : ¬ inPast (some u) s = true := by rw [inPast_iff]; exact hp
  have hb' : u.gt S.tBound = true := by rw [gt_iff]; exact hb
  constructor
  · unfold step checkTime; cases m <;> simp [run_ite, hp', hb']
  · unfold skip checkTime; cases m <;> simp [run_ite, hp', hb']

/-- **C10** (interpolate). A time outside the recorded history raises `ValueError` and changes nothing. -/
theorem C10_interpolate_outside (S : Solver α n k X) (t : α) (s : St α n k X)
    (h : ¬ (s.cache.ts (Buffer.iOld k) ≤ t ∧ t ≤ s.t)) :
    (S.interpolate t).run s = some (.error .valueError, s) := by
  have h' : ¬ (s.cache.ts (Buffer.iOld k) ≤ t ∧ t ≤ s.cache.t) := h
  unfold interpolate
  simp only [run_bind, run_get, andThen_ok, run_ite]
  rw [if_pos]
  · rfl
  · rw [Bool.not_eq_true', Bool.and_eq_false_iff, decide_eq_false_iff_not, decide_eq_false_iff_not]
    by_cases h1 : s.cache.ts (Buffer.iOld k) ≤ t
    · exact Or.inr fun h2 => h' ⟨h1, h2⟩
    · exact Or.inl h1

/-! ### The hypotheses are met -/

open Demo

theorem demo_path : Path (euler (.fin 1)) (.fin 1) s0 [s1, s2] s2 := by
  refine .cons ?_ (takes01 _) (.cons ?_ (takes12 _) (.nil _))
  · simp [Fits, NotBeyond, s0, st, St.t, Buffer.t]; norm_num
  · simp [Fits, NotBeyond, s1, st2, St.t, Buffer.t, Buffer.iLast, histExtra]; norm_num

theorem demo_stops : ¬ Fits (.fin 1) s2 := by
  simp [Fits, NotBeyond, s2, st2, St.t, Buffer.t, Buffer.iLast, histExtra]

-- C03, C01: `step(n=2)` succeeds and returns two points.
example : ((euler (.fin 1)).step (some (2 : Nat)) none).run s0 =
    some (.ok (.arrays [(1/2, fun _ => 3/2), (1, fun _ => 9/4)]), s2) := by
  rw [step_n_run, show (euler (.fin 1)).tBound = .fin 1 from rfl,
    nstepsLoop_ok.mpr ⟨_, demo_path, rfl, Or.inl ⟨rfl, (rfl : _ = 2)⟩⟩]
  simp [record, s1, s2, st2, St.t, St.y, Buffer.t, Buffer.y, Buffer.iLast, histExtra]

-- C02: `skip(n=2)` moves the same solver to the same state; with `n = -1` the two calls differ.
example : ((euler (.fin 1)).skip (some 2) none).run s0 = some (.ok (), s2) ∧
    ((euler (.fin 1)).step (some (-1)) none).run s0 = some (.error .valueError, s0) ∧
    ((euler (.fin 1)).skip (some (-1)) none).run s0 = some (.ok (), s0) := by
  refine ⟨?_, C02_negative_n_differs _ _ (by decide) _⟩
  have h := C02_skip_eq_step (euler (.fin 1)) (some 2) none s0
  rw [show ((some 2 : Option Nat).map Int.ofNat) = some ((2 : Nat) : Int) from rfl, step_n_run,
    show (euler (.fin 1)).tBound = .fin 1 from rfl,
    nstepsLoop_ok.mpr ⟨_, demo_path, rfl, Or.inl ⟨rfl, (rfl : _ = 2)⟩⟩] at h
  exact h

-- C04, C05: `step(upto_t=1)` returns from a solver that is not past 1.
example : ¬ Past (.fin 1) s0 ∧ ((euler (.fin 1)).step none (some (.fin 1))).run s0 =
    some (.ok (.arrays ([s1, s2].map record)), s2) := by
  have h : ¬ Past (.fin 1) s0 := by simp [Past, s0, st, St.t, Buffer.t]
  refine ⟨h, ?_⟩
  rw [step_upto_run _ _ _ h (by simp [Beyond, euler])]
  rw [stepsLoop_ok.mpr ⟨_, demo_path, rfl, demo_stops⟩]
  simp

-- C05 without RuntimeError: an explicit method on a total right-hand side never raises.
theorem demo_total (b : Bound ℚ) (s : St ℚ 1 (histExtra 0) Unit) : ∃ s', Takes (euler b) s s' := by
  unfold Takes
  change ∃ s', (explicitMultistepBody ForwardEuler growth).run s = _
  rw [explicitMultistepBody_run]
  exact ⟨_, rfl⟩

example (b : Bound ℚ) (s1 s2 : St ℚ 1 (histExtra 0) Unit) :
    ((euler b).method.body (euler b).rhs).run s1 ≠ some (.error .runtimeError, s2) := by
  obtain ⟨s', h⟩ := demo_total b s1
  unfold Takes at h
  rw [h]; simp

-- C06: a target in the past.
example : Past (.fin (-1)) s0 := by simp [Past, s0, st, St.t, Buffer.t]

-- C08: three steps do not fit below 1; the solver stays at `s2`.
example : ((euler (.fin 1)).step (some (3 : Nat)) none).run s0 = some (.error .runtimeError, s2) := by
  rw [step_n_run, show (euler (.fin 1)).tBound = .fin 1 from rfl,
    nstepsLoop_ok.mpr ⟨_, demo_path, rfl, Or.inr ⟨rfl, by simp, demo_stops⟩⟩]
  simp

-- C09: the first step fits.
example : Fits (euler (.fin 1)).tBound s0 := by
  simp [Fits, NotBeyond, euler, s0, st, St.t, Buffer.t]; norm_num

-- C10: a target beyond the bound and not in the past; a time outside the history.
example : ¬ Past (.fin 2) s0 ∧ Beyond (.fin 2) (euler (.fin 1)).tBound ∧ Beyond .inf (euler (.fin 1)).tBound := by
  simp [Past, Beyond, euler, s0, st, St.t, Buffer.t]

example : ¬ (s1.cache.ts (Buffer.iOld _) ≤ 1 ∧ 1 ≤ s1.t) := by
  simp [s1, st2, St.t, Buffer.t, Buffer.iLast, Buffer.iOld, histExtra]; norm_num

end Nbkode
