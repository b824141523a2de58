import Verif.Proofs.Domain
import Verif.Props.Restart
import Verif.Props.Stop

/-!
# C97: the right-hand side has to be known only from `t0` to `t_bound`

A user whose right-hand side makes sense only up to some time (a table of data, a singularity, a square root of `T - t`) passes
that time as `t_bound`. Two right-hand sides that are the same from `t0` to `t_bound` - elsewhere one of them may raise - give
solvers that cannot be told apart by any sequence of calls: construction, steps, rejected attempts, interpolation and events
never look past `t_bound` or before `t0`. This is so for the Runge-Kutta methods (the variable-step ones with a given
`first_step`, or if SciPy's `select_initial_step` gives the same for both) and for the multistep methods if their start-up stays
below `t_bound`; it is not if the start-up does not.
-/

set_option autoImplicit false
set_option linter.unusedSectionVars false

namespace Nbkode
open Py Spec Solver

section field
variable {α : Type} [Field α] [LinearOrder α] [IsStrictOrderedRing α] [BEq α] [LawfulBEq α]
variable {n k s : Nat} {X : Type}

open Unchanged in
theorem domain_observe {M : Method α n k X} (hM : WellConfigured M) (hL : LocalMethod M) {t0 : α} {b : Bound α} {rhs rhs' : Rhs α n}
    (hf : SameUntil t0 b rhs rhs') (bo : BisectOpts α) (argsort : List α → List Nat) (hA : ∀ l, IsArgsort l (argsort l)) (cs : List (Call α n))
    {i i' : Option (Except Err (St α n k X))} (he : i = i') (hi : ∀ x, i = some (.ok x) → InDomain t0 b x) :
    observe ⟨M, rhs, b⟩ bo argsort cs i = observe ⟨M, rhs', b⟩ bo argsort cs i' := by
  subst he
  let D := domainCorr hM hL hf
  let E := domainCorr hM hL (t0 := t0) (b := b) (rhs := rhs') (rhs' := rhs) fun t y h1 h2 => (hf t y h1 h2).symm
  have e1 : E.tm = (Change.clock n (1 : α) 0).vars.flip.tm := by
    funext u v
    show (v = (Change.clock n (1 : α) 0).time u) = (u = (Change.clock n (1 : α) 0).time v)
    rw [time, time]
    exact propext eq_comm
  have e2 : E.vec = (Change.clock n (1 : α) 0).vars.flip.vec := by
    funext u v
    show (v = (Change.clock n (1 : α) 0).state u) = (u = (Change.clock n (1 : α) 0).state v)
    rw [state, state]
    exact propext eq_comm
  have := Change.seen_of_same (S := ⟨M, rhs, b⟩) (S' := ⟨M, rhs', b⟩) (Change.clock n (1 : α) 0) (o := observe ⟨M, rhs, b⟩ bo argsort cs i)
    (o' := observe ⟨M, rhs', b⟩ bo argsort cs i) ⟨D, rfl, rfl, observe_rel lawful D E rfl rfl e1 e2 (by
      rintro x _ ⟨rfl, -⟩
      exact ⟨⟨fun _ => (time _).symm, fun _ => (state _).symm, fun _ => (Unchanged.slope _).symm⟩, (one_mul _).symm⟩) bo
      (Unchanged.argsort argsort) hA (Change.calls _ (Unchanged.calls cs) D rfl rfl) (by
        rcases i with _ | (e | x)
        · trivial
        · exact rfl
        · exact ⟨⟨rfl, hi x rfl⟩, ⟨rfl, hi x rfl⟩⟩)⟩
  rw [map_seen] at this
  exact this.symm

variable {t0 : α} {b : Bound α} {rhs rhs' : Rhs α n} (hf : SameUntil t0 b rhs rhs') (ht : NotBeyond b t0) (bo : BisectOpts α)
  (argsort : List α → List Nat) (hA : ∀ l, IsArgsort l (argsort l)) (cs : List (Call α n)) (y0 : Vec α n)

theorem inDomain_start {x : St α n k X} (ht : NotBeyond b t0) (h1 : ∀ i, x.cache.ts i = t0) (h2 : 0 < x.h) : InDomain t0 b x :=
  ⟨h2, (h1 _).ge, by rw [h1, St.t, Buffer.t, h1], by rw [St.t, Buffer.t, h1]; exact ht⟩

include hf ht in
theorem solverInit_same (g : Buffer α n k) (aux : X) (h : Option α) : solverInit g aux rhs t0 y0 h = solverInit g aux rhs' t0 y0 h := by
  unfold solverInit
  rw [hf t0 y0 (le_refl _) ht]

include hf ht in
theorem variableInit_same (o : VarOptions α) {sel sel' : Rhs α n → α → Vec α n → Vec α n → Except Err α} (g : Buffer α n k) (aux : X)
    (h first : Option α) (hsel : first = none → ∀ f, sel rhs t0 y0 f = sel' rhs' t0 y0 f) :
    variableInit o sel g aux rhs t0 y0 h first = variableInit o sel' g aux rhs' t0 y0 h first := by
  unfold variableInit
  rw [← solverInit_same hf ht y0 g aux h]
  cases h0 : solverInit g aux rhs t0 y0 h with
  | error e => rfl
  | ok x =>
    obtain ⟨-, e1, e2⟩ := C14_construction _ _ _ _ _ _ _ h0
    have : ∀ f, first = none → sel rhs x.t x.y f = sel' rhs' x.t x.y f := by rw [e1, e2]; exact fun f h => hsel h f
    cases first with
    | some h => rfl
    | none =>
      simp only [bind, Except.bind]
      rw [this _ rfl]

include hf ht in
theorem dopInit_same {d : DopDense α} (hd : ∀ i, 0 ≤ d.CExtra i ∧ d.CExtra i ≤ 1) {o : VarOptions α}
    (sel : Rhs α n → α → Vec α n → Vec α n → Except Err α) (g : Buffer α n 0) (K : Fin 13 → Vec α n) (I : DopItp α n) (h first : Option α)
    (hsel : first = none → ∀ f, sel rhs t0 y0 f = sel rhs' t0 y0 f) :
    dopInit d o sel g K I rhs t0 y0 h first = dopInit d o sel g K I rhs' t0 y0 h first := by
  unfold dopInit
  rw [← variableInit_same hf ht y0 o g (⟨K, I⟩ : FsalAux α n 11 (DopItp α n)) h first hsel]
  cases h0 : variableInit o sel g (⟨K, I⟩ : FsalAux α n 11 (DopItp α n)) rhs t0 y0 h first with
  | error e => simp only [bind, Except.bind]
  | ok x =>
    obtain ⟨s1, h1, e, -⟩ := variableInit_ok h0
    obtain ⟨f0, -, hc, -⟩ := solverInit_ok h1
    have hts : ∀ i, x.cache.ts i = t0 := fun i => by rw [e, hc]; exact init_ts _ _ _ _ _
    have hxt : x.t = t0 := hts _
    have : (dopUpdate d rhs).run x = (dopUpdate d rhs').run x := by
      refine dopUpdate_same hd x (by rw [hts, hxt]) ?_
      intro t y h1 h2
      rw [hts] at h1
      rw [hxt] at h2
      obtain rfl := le_antisymm h1 h2
      exact hf _ _ (le_refl _) ht
    simp only [bind, Except.bind, this]

section
include hf ht hA

/-- C97: fixed-step explicit Runge-Kutta methods. -/
theorem C97_erk_partial (T : Tableau α s) (hT : Tableau.Within T) (g : Buffer α n 0) (K : ErkAux α n s) (h : Option α) (hh : 0 < h.getD 1) :
    observe ⟨erk T, rhs, b⟩ bo argsort cs (some (erkInit g K rhs t0 y0 h)) =
      observe ⟨erk T, rhs', b⟩ bo argsort cs (some (erkInit g K rhs' t0 y0 h)) := by
  refine domain_observe (Or.inl (.erk T)) (local_erk hT) hf bo argsort hA cs (congrArg some (solverInit_same hf ht y0 g K h)) ?_
  intro x hx
  obtain ⟨f0, -, hc, h1, -⟩ := solverInit_ok (Option.some.inj hx)
  exact inDomain_start ht (fun i => by rw [hc]; exact init_ts _ _ _ _ _) (by rw [h1]; exact hh)

/-- C97: `RungeKutta23` and `RungeKutta45`. -/
theorem C97_fsal_partial {d : Nat} (lib : Lib α) (hl : PowLaw lib) (o : VarOptions α) (ho : SaneOptions o) (c : FsalCoef α s d)
    (hex : 0 ≤ c.errorExponent) (hT : Tableau.Within c.toTableau) (sel : Rhs α n → α → Vec α n → Vec α n → Except Err α) (g : Buffer α n 0)
    (K : Fin (s + 2) → Vec α n) (I : RkItp α n d) (h first : Option α) (hfirst : ∀ h, first = some h → 0 < h)
    (hsel : first = none → ∀ f, sel rhs t0 y0 f = sel rhs' t0 y0 f ∧ ∀ a, sel rhs t0 y0 f = .ok a → 0 < a) :
    observe ⟨fsal lib o c, rhs, b⟩ bo argsort cs (some (fsalInit c.P o sel g K I rhs t0 y0 h first)) =
      observe ⟨fsal lib o c, rhs', b⟩ bo argsort cs (some (fsalInit c.P o sel g K I rhs' t0 y0 h first)) := by
  refine domain_observe (Or.inr ⟨lib, o, _, .fsal c, hl, ho, hex⟩) (local_fsal hl ho hex hT) hf bo argsort hA cs ?_ ?_
  · unfold fsalInit
    rw [variableInit_same hf ht y0 o g (⟨K, I⟩ : FsalAux α n s (RkItp α n d)) h first fun h f => (hsel h f).1]
  · intro x hx
    have hx := Option.some.inj hx
    obtain ⟨s0, h0, -, e, -⟩ := fsalInit_ok hx
    obtain ⟨s1, h1, -, -, h2, h3⟩ := variableInit_ok h0
    obtain ⟨-, e1, e2⟩ := C14_construction _ _ _ _ _ _ _ h1
    refine inDomain_start ht (fsalInit_times hx) ?_
    rw [e]
    cases first with
    | some a => rw [h2 a rfl]; exact hfirst a rfl
    | none => exact (hsel rfl s1.f).2 _ (by have := h3 rfl; rwa [e1, e2] at this)

/-- C97: `DOP853`. -/
theorem C97_dop853_partial (lib : Lib α) (hl : PowLaw lib) (o : VarOptions α) (ho : SaneOptions o) (c : DopCoef α)
    (hex : 0 ≤ c.errorExponent) (hT : Tableau.Within c.toTableau) (hd : ∀ i, 0 ≤ c.CExtra i ∧ c.CExtra i ≤ 1)
    (sel : Rhs α n → α → Vec α n → Vec α n → Except Err α) (g : Buffer α n 0)
    (K : Fin 13 → Vec α n) (I : DopItp α n) (h first : Option α) (hfirst : ∀ h, first = some h → 0 < h)
    (hsel : first = none → ∀ f, sel rhs t0 y0 f = sel rhs' t0 y0 f ∧ ∀ a, sel rhs t0 y0 f = .ok a → 0 < a) :
    observe ⟨dop853 lib o c, rhs, b⟩ bo argsort cs (some (dopInit c.toDopDense o sel g K I rhs t0 y0 h first)) =
      observe ⟨dop853 lib o c, rhs', b⟩ bo argsort cs (some (dopInit c.toDopDense o sel g K I rhs' t0 y0 h first)) := by
  refine domain_observe (Or.inr ⟨lib, o, _, .dop853 c, hl, ho, hex⟩) (local_dop hl ho hex hT hd) hf bo argsort hA cs ?_ ?_
  · exact congrArg some (dopInit_same hf ht y0 hd sel g K I h first fun h f => (hsel h f).1)
  · intro x hx
    have hx := Option.some.inj hx
    obtain ⟨s0, h0, -, e⟩ := dopInit_ok hx
    obtain ⟨s1, h1, -, -, h2, h3⟩ := variableInit_ok h0
    obtain ⟨-, e1, e2⟩ := C14_construction _ _ _ _ _ _ _ h1
    refine inDomain_start ht (dopInit_times hx) ?_
    rw [e]
    cases first with
    | some a => rw [h2 a rfl]; exact hfirst a rfl
    | none => exact (hsel rfl s1.f).2 _ (by have := h3 rfl; rwa [e1, e2] at this)

end

/-! ### Multistep methods -/

theorem pushN_const {b : Buffer α n k} {t : α} (h : ∀ i, b.ts i = t) (y f : Vec α n) (q : Nat) : ∀ i, (b.pushN t y f q).ts i = t := by
  induction q with
  | zero => exact h
  | succ q ih =>
    intro i
    show (Buffer.push _ _ _ _).ts i = t
    simp only [Buffer.push, shiftIn]
    split
    · exact ih _
    · rfl

/-- The steps of a fixed-step starter, which knows nothing of `t_bound`. -/
theorem startFixed_same {k' : Nat} {X' : Type} {M : Method α n k' X'} (hM : IsFixed M) (hL : LocalMethod M) {t0 : α} {b : Bound α}
    {rhs rhs' : Rhs α n} (hf : SameUntil t0 b rhs rhs') (q : Nat) : ∀ (x : St α n k' X') (c : Buffer α n k), 0 < x.h → t0 ≤ x.t →
      NotBeyond b (x.t + (q : α) * x.h) →
      (startFixed ⟨M, rhs, .inf⟩ q c).run x = (startFixed ⟨M, rhs', .inf⟩ q c).run x := by
  induction q with
  | zero => intro x c _ _ _; rfl
  | succ q ih =>
    intro x c hh hx hb
    have hq : (0 : α) ≤ (q : α) * x.h := mul_nonneg (Nat.cast_nonneg _) hh.le
    push_cast at hb
    have hstep : (M.body rhs).run x = (M.body rhs').run x := by
      refine hL.body rhs rhs' x hh fun t y h1 h2 => hf t y (hx.trans h1) (notBeyond_mono hb (h2.trans ?_))
      linarith
    rw [startFixed, startFixed]
    simp only [run_bind, step_none_run, pstep_run, Bound.exceededBy, Bool.false_eq_true, if_false, hstep]
    cases e : (M.body rhs').run x with
    | none => rfl
    | some z =>
      obtain ⟨r, x'⟩ := z
      cases r with
      | error e => rfl
      | ok u =>
        have h1 := (IsFixed.shaped hM).body_fixed rhs' x x' e
        have h2 := (IsFixed.shaped hM).body_h rhs' x _ x' e
        simp only [andThen_ok, if_true, run_get]
        refine ih x' _ (by rw [h2]; exact hh) (by rw [h1]; linarith) ?_
        rw [h1, h2]
        refine notBeyond_mono hb ?_
        linarith

variable {p : Nat}

include hf ht hA in
theorem domain_no_start {Me : Method α n (histExtra p) Unit} (hM : IsFixed Me) (hL : LocalMethod Me) (g : Buffer α n (histExtra p))
    (starter : Starter α n) (hno : p = 0 ∨ starter = .none) (h : Option α) (hh : 0 < h.getD 1) :
    observe ⟨Me, rhs, b⟩ bo argsort cs (multistepInit g bo argsort starter rhs t0 y0 h) =
      observe ⟨Me, rhs', b⟩ bo argsort cs (multistepInit g bo argsort starter rhs' t0 y0 h) := by
  have key : ∀ rhs : Rhs α n, multistepInit g bo argsort starter rhs t0 y0 h = some ((solverInit g () rhs t0 y0 h).map
      fun s => { s with cache := s.cache.pushN s.t s.y s.f (histExtra p + 1) }) := by
    intro rhs
    unfold multistepInit
    cases solverInit g () rhs t0 y0 h with
    | error e => rfl
    | ok s =>
      rcases hno with h0 | rfl
      · simp only [if_pos h0]; rfl
      · simp only [ite_self]; rfl
  rw [key, key]
  refine domain_observe (Or.inl hM) hL hf bo argsort hA cs (by rw [solverInit_same hf ht y0 g () h]) ?_
  intro x hx
  have hx := Option.some.inj hx
  cases h0 : solverInit g () rhs t0 y0 h with
  | error e => rw [h0] at hx; cases hx
  | ok s =>
    rw [h0] at hx
    cases hx
    obtain ⟨f0, -, hc, h1, -⟩ := solverInit_ok h0
    have hts : ∀ i, s.cache.ts i = t0 := fun i => by rw [hc]; exact init_ts _ _ _ _ _
    have hst : s.t = t0 := hts _
    refine inDomain_start ht ?_ (by show 0 < s.h; rw [h1]; exact hh)
    dsimp only
    rw [hst]
    exact pushN_const hts _ _ _

include hf ht hA in
theorem domain_start {Me : Method α n (histExtra p) Unit} (hM : IsFixed Me) (hL : LocalMethod Me) (g : Buffer α n (histExtra p))
    (hp : p ≠ 0) (T : Tableau α s) (hT : Tableau.Within T) (gs : Buffer α n 0) (K : ErkAux α n s) (h : α) (hh : 0 < h)
    (hb : NotBeyond b (t0 + (p : α) * h)) :
    observe ⟨Me, rhs, b⟩ bo argsort cs (multistepInit g bo argsort (erkStarter T gs K) rhs t0 y0 (some h)) =
      observe ⟨Me, rhs', b⟩ bo argsort cs (multistepInit g bo argsort (erkStarter T gs K) rhs' t0 y0 (some h)) := by
  refine domain_observe (Or.inl hM) hL hf bo argsort hA cs ?_ ?_
  · unfold multistepInit
    rw [← solverInit_same hf ht y0 g () (some h)]
    cases h0 : solverInit g () rhs t0 y0 (some h) with
    | error e => rfl
    | ok s =>
      obtain ⟨-, e1, e2⟩ := C14_construction _ _ _ _ _ _ _ h0
      obtain ⟨f0, -, -, e3, -⟩ := solverInit_ok h0
      simp only [if_neg hp, erkStarter]
      rw [e1, e2, e3]
      simp only [Option.getD_some]
      have e4 : erkInit gs K rhs t0 y0 (some h) = erkInit gs K rhs' t0 y0 (some h) := solverInit_same hf ht y0 gs K (some h)
      rw [← e4]
      cases h1 : erkInit gs K rhs t0 y0 (some h) with
      | error e => rfl
      | ok x =>
        obtain ⟨-, g1, -⟩ := C14_construction _ _ _ _ _ _ _ h1
        obtain ⟨f0, -, -, g3, -⟩ := solverInit_ok h1
        have g3 : x.h = h := g3
        simp only [runFrom]
        rw [startFixed_same (.erk T) (local_erk hT) hf p x _ (by rw [g3]; exact hh) g1.ge (by rw [g1, g3]; exact hb)]
  · intro x hx
    have h1 := C34_erk_starter hp T gs K g bo argsort rhs t0 y0 h x hx
    have h2 : (Buffer.iLast (histExtra p)).val = p := by simp only [Buffer.iLast, histExtra]; omega
    have h3 : x.t = t0 + (p : α) * h := by rw [St.t, Buffer.t, h1, h2]
    have h4 : x.cache.ts (Buffer.iPrev (histExtra p)) = t0 + (((Buffer.iPrev (histExtra p)).val : Nat) : α) * h := h1 _
    refine ⟨?_, ?_, ?_, ?_⟩
    · rw [(C34_fixed_starter hp g bo argsort (erk T) (.erk T) _ rhs t0 y0 h ?_ x hx).1]
      · exact hh
      · intro s1 h1
        obtain ⟨f0, -, hc, hh, -⟩ := solverInit_ok h1
        refine ⟨?_, ?_, hh⟩
        · rw [St.t, Buffer.t, hc]; exact init_ts _ _ _ _ _
        · rw [St.y, Buffer.y, hc]; exact init_ys _ _ _ _ _
    · rw [h4]; exact le_add_of_nonneg_right (mul_nonneg (Nat.cast_nonneg _) hh.le)
    · rw [h4, h3]
      have : (((Buffer.iPrev (histExtra p)).val : Nat) : α) ≤ (p : α) := by
        have : (Buffer.iPrev (histExtra p)).val ≤ p := by simp only [Buffer.iPrev, histExtra]; omega
        exact_mod_cast this
      have := mul_le_mul_of_nonneg_right this hh.le
      linarith
    · rw [h3]; exact hb

section
include hf ht hA

/-- C97: explicit multistep methods of order one, or without a starter. -/
theorem C97_explicit_no_start_partial (c : MultistepCoef α p) (g : Buffer α n (histExtra p)) (starter : Starter α n) (hno : p = 0 ∨ starter = .none)
    (h : Option α) (hh : 0 < h.getD 1) :
    observe ⟨explicitMultistep c, rhs, b⟩ bo argsort cs (multistepInit g bo argsort starter rhs t0 y0 h) =
      observe ⟨explicitMultistep c, rhs', b⟩ bo argsort cs (multistepInit g bo argsort starter rhs' t0 y0 h) :=
  domain_no_start hf ht bo argsort hA cs y0 (.explicitMultistep c) (local_explicit c) g starter hno h hh

/-- C97: implicit multistep methods of order one, or without a starter: the root finder looks at the right-hand side at the new
time only. -/
theorem C97_implicit_no_start_partial (lib : Lib α) (zo : ZeroOpts α) (c : MultistepCoef α p) (g : Buffer α n (histExtra p)) (starter : Starter α n)
    (hno : p = 0 ∨ starter = .none) (h : Option α) (hh : 0 < h.getD 1) :
    observe ⟨implicitMultistep lib zo c, rhs, b⟩ bo argsort cs (multistepInit g bo argsort starter rhs t0 y0 h) =
      observe ⟨implicitMultistep lib zo c, rhs', b⟩ bo argsort cs (multistepInit g bo argsort starter rhs' t0 y0 h) :=
  domain_no_start hf ht bo argsort hA cs y0 (.implicitMultistep lib zo c) (local_implicit lib zo c) g starter hno h hh

/-- C97: explicit multistep methods started with a Runge-Kutta method, if the `p` steps of the start-up stay below `t_bound`. -/
theorem C97_explicit_started_partial (c : MultistepCoef α p) (g : Buffer α n (histExtra p)) (hp : p ≠ 0) (T : Tableau α s)
    (hT : Tableau.Within T) (gs : Buffer α n 0) (K : ErkAux α n s) (h : α) (hh : 0 < h) (hb : NotBeyond b (t0 + (p : α) * h)) :
    observe ⟨explicitMultistep c, rhs, b⟩ bo argsort cs (multistepInit g bo argsort (erkStarter T gs K) rhs t0 y0 (some h)) =
      observe ⟨explicitMultistep c, rhs', b⟩ bo argsort cs (multistepInit g bo argsort (erkStarter T gs K) rhs' t0 y0 (some h)) :=
  domain_start hf ht bo argsort hA cs y0 (.explicitMultistep c) (local_explicit c) g hp T hT gs K h hh hb

/-- C97: implicit multistep methods started with a Runge-Kutta method, if the `p` steps of the start-up stay below `t_bound`. -/
theorem C97_implicit_started_partial (lib : Lib α) (zo : ZeroOpts α) (c : MultistepCoef α p) (g : Buffer α n (histExtra p)) (hp : p ≠ 0)
    (T : Tableau α s) (hT : Tableau.Within T) (gs : Buffer α n 0) (K : ErkAux α n s) (h : α) (hh : 0 < h)
    (hb : NotBeyond b (t0 + (p : α) * h)) :
    observe ⟨implicitMultistep lib zo c, rhs, b⟩ bo argsort cs (multistepInit g bo argsort (erkStarter T gs K) rhs t0 y0 (some h)) =
      observe ⟨implicitMultistep lib zo c, rhs', b⟩ bo argsort cs (multistepInit g bo argsort (erkStarter T gs K) rhs' t0 y0 (some h)) :=
  domain_start hf ht bo argsort hA cs y0 (.implicitMultistep lib zo c) (local_implicit lib zo c) g hp T hT gs K h hh hb

end

/-! ### The registered methods -/

theorem q_unit {a b : Nat} (h : a ≤ b) : (0 : α) ≤ q a b ∧ (q a b : α) ≤ 1 :=
  ⟨div_nonneg (Nat.cast_nonneg _) (Nat.cast_nonneg _), div_le_one_of_le₀ (Nat.cast_le.2 h) (Nat.cast_nonneg _)⟩

theorem zero_unit : (0 : α) ≤ 0 ∧ (0 : α) ≤ 1 := ⟨le_refl _, zero_le_one⟩

theorem one_unit : (0 : α) ≤ 1 ∧ (1 : α) ≤ 1 := ⟨zero_le_one, le_refl _⟩

/-- C97: the registered methods evaluate their stages, and `DOP853` also those of its interpolation, between the old time and the
new one. -/
theorem C97_registered_partial : Tableau.Within (Runge2 : Tableau α 1) ∧ Tableau.Within (Runge3 : Tableau α 3) ∧
    Tableau.Within (Heun3 : Tableau α 2) ∧ Tableau.Within (RungeKutta4 : Tableau α 3) ∧ Tableau.Within (RungeKutta3_8 : Tableau α 3) ∧
    Tableau.Within (Fehlberg45 : Tableau α 5) ∧ Tableau.Within (RungeKutta23 : FsalCoef α 2 3).toTableau ∧
    Tableau.Within (RungeKutta45 : FsalCoef α 5 4).toTableau ∧ Tableau.Within (DOP853 : DopCoef α).toTableau ∧
    ∀ i, 0 ≤ (DOP853 : DopCoef α).CExtra i ∧ (DOP853 : DopCoef α).CExtra i ≤ 1 := by
  refine ⟨?_, ?_, ?_, ?_, ?_, ?_, ?_, ?_, ?_, ?_⟩ <;> intro i <;> fin_cases i <;>
    first
    | exact zero_unit
    | exact one_unit
    | exact q_unit (by norm_num)

/-- `f` up to `b`, an exception beyond. -/
def upTo (b : α) (f : α → Vec α n → Vec α n) : Rhs α n := fun t y => if b < t then .error .valueError else .ok (f t y)

theorem upTo_same (t0 b : α) (f : α → Vec α n → Vec α n) : SameUntil t0 (.fin b) (pureRhs f) (upTo b f) := by
  intro t y _ h
  show Except.ok _ = if b < t then _ else _
  rw [if_neg h]

/-- **C97 refuted**, for every multistep method of order at least two (`ORDER = p + 1`) whose start-up does not fit below
`t_bound`: with a right-hand side that cannot be evaluated beyond `t_bound` the constructor does not return a solver, with one
that can it does. -/
theorem C97_refuted (hp : p ≠ 0) (Me : Method α n (histExtra p) Unit) (T : Tableau α s) (gs : Buffer α n 0) (K : ErkAux α n s)
    (g : Buffer α n (histExtra p)) (bo : BisectOpts α) (argsort : List α → List Nat) (f : α → Vec α n → Vec α n) (t0 : α) (y0 : Vec α n) (h b : α)
    (hb : b < t0 + (p : α) * h) :
    SameUntil t0 (.fin b) (pureRhs f) (upTo b f) ∧
    (∃ v, observe ⟨Me, pureRhs f, .fin b⟩ bo argsort [] (multistepInit g bo argsort (erkStarter T gs K) (pureRhs f) t0 y0 (some h)) = some (.ok v)) ∧
    ∀ v, observe ⟨Me, upTo b f, .fin b⟩ bo argsort [] (multistepInit g bo argsort (erkStarter T gs K) (upTo b f) t0 y0 (some h)) ≠ some (.ok v) := by
  refine ⟨upTo_same t0 b f, ?_, ?_⟩
  · obtain ⟨st, hs⟩ := C34_erk_starter_succeeds hp T gs K g bo argsort f t0 y0 h
    rw [hs]
    exact ⟨_, rfl⟩
  · intro v hv
    cases e : multistepInit g bo argsort (erkStarter T gs K) (upTo b f) t0 y0 (some h) with
    | none => rw [e] at hv; cases hv
    | some r =>
      cases r with
      | error e' => rw [e] at hv; cases hv
      | ok st =>
        have h1 := C34_erk_starter hp T gs K g bo argsort _ t0 y0 h st e (Buffer.iLast _)
        have h2 : (Buffer.iLast (histExtra p)).val = p := by simp only [Buffer.iLast, histExtra]; omega
        rw [h2] at h1
        have h3 := C14_construction_multistep g bo argsort (erkStarter T gs K) (upTo b f)
          ⟨Or.inl (.erk T), fun t y h s hs => (C14_construction _ _ _ _ _ _ _ hs).1⟩ t0 y0 (some h) st e (Buffer.iLast _)
        rw [h1] at h3
        unfold upTo at h3
        rw [if_pos hb] at h3
        cases h3

end field

/-! ### The hypotheses can be met -/

namespace Demo

/-- The slope of `y = -(2/3) (2 - t)^(3/2)`, which has no meaning after `t = 2`, whatever else it is taken to be there. -/
noncomputable def rootRhs : ℝ → Vec ℝ 1 → Vec ℝ 1 := fun t _ _ => Real.sqrt (2 - t)

noncomputable example (bo : BisectOpts ℝ) (argsort : List ℝ → List Nat) (hA : ∀ l, IsArgsort l (argsort l)) (cs : List (Call ℝ 1)) (g : Buffer ℝ 1 0)
    (sel : Rhs ℝ 1 → ℝ → Vec ℝ 1 → Vec ℝ 1 → Except Err ℝ) (g2 : Buffer ℝ 1 (histExtra 1)) (zo : ZeroOpts ℝ) :=
  have hf := upTo_same 0 2 rootRhs
  have hb : NotBeyond (.fin (2 : ℝ)) 0 := by show ¬(2 : ℝ) < 0; norm_num
  have hb1 : NotBeyond (.fin (2 : ℝ)) (0 + ((1 : Nat) : ℝ) * (1 / 2)) := by show ¬(2 : ℝ) < _; norm_num
  have R := C97_registered_partial (α := ℝ)
  have hfirst : ∀ h : ℝ, some (1 / 10) = some h → 0 < h := by rintro _ ⟨⟩; norm_num
  have hex1 : (0 : ℝ) ≤ (RungeKutta45 : FsalCoef ℝ 5 4).errorExponent := by simp [RungeKutta45, q]
  have hex2 : (0 : ℝ) ≤ (DOP853 : DopCoef ℝ).errorExponent := by simp [DOP853, q]
  And.intro (C97_erk_partial hf hb bo argsort hA cs (fun _ => 0) Heun3 R.2.2.1 g (0 : ErkAux ℝ 1 2) (some (1 / 2)) (by norm_num)) <|
  And.intro (C97_fsal_partial hf hb bo argsort hA cs (fun _ => 0) realLib realLib_powLaw .default (sane_of_shrinking default_shrinking) RungeKutta45
    hex1 R.2.2.2.2.2.2.2.1 sel g 0 ⟨0, 0⟩ none (some (1 / 10)) hfirst nofun) <|
  And.intro (C97_dop853_partial hf hb bo argsort hA cs (fun _ => 0) realLib realLib_powLaw .default (sane_of_shrinking default_shrinking) DOP853
    hex2 R.2.2.2.2.2.2.2.2.1 R.2.2.2.2.2.2.2.2.2 sel g 0 ⟨0, 0, 0⟩ none (some (1 / 10)) hfirst nofun) <|
  And.intro (C97_explicit_no_start_partial (p := 0) hf hb bo argsort hA cs (fun _ => 0) ForwardEuler g .none (Or.inl rfl) (some (1 / 2)) (by norm_num)) <|
  And.intro (C97_implicit_no_start_partial (p := 0) hf hb bo argsort hA cs (fun _ => 0) realLib zo BackwardEuler g .none (Or.inl rfl) (some (1 / 2))
    (by norm_num)) <|
  And.intro (C97_explicit_started_partial hf hb bo argsort hA cs (fun _ => 0) AdamsBashforth2 g2 one_ne_zero RungeKutta4 R.2.2.2.1 g
    (0 : ErkAux ℝ 1 3) (1 / 2) (by norm_num) hb1) <|
  And.intro (C97_implicit_started_partial hf hb bo argsort hA cs (fun _ => 0) realLib zo BDF2 g2 one_ne_zero RungeKutta4 R.2.2.2.1 g
    (0 : ErkAux ℝ 1 3) (1 / 2) (by norm_num) hb1)
  (C97_refuted (p := 1) one_ne_zero (explicitMultistep AdamsBashforth2) RungeKutta4 g (0 : ErkAux ℝ 1 3) g2 bo argsort rootRhs 0 (fun _ => 0) 3 2
    (by norm_num))

end Demo
end Nbkode
