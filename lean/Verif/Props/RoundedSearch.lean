import Verif.Proofs.RoundedTotal
import Verif.Props.Rounded
import Verif.Props.RoundedError

/-!
# C88: machine numbers, calls with events that fail

`run_events` with the machine numbers of any rounding, see `Spec/Rounded.lean` and `Spec/RoundedSearch.lean`.
-/

set_option autoImplicit false
set_option linter.unusedSectionVars false

namespace Nbkode
open Py Spec Solver

variable {φ : Rounding} {n : Nat} {X : Type} {u η : ℝ}

/-- The dense output starts exactly at the oldest point of the history, and that of a variable-step method ends exactly at the
newest. -/
theorem num_dense_ends {k : Nat} {S : Solver (Num φ) n k X} (hM : IsLibrary S.method) (b : St (Num φ) n k X)
    (hlt : b.cache.ts (Buffer.iOld k) < b.t) :
    DenseAt S b (b.cache.ts (Buffer.iOld k)) (b.cache.ys (Buffer.iOld k)) ∧
      ((∃ lib o ex, IsVariable lib o ex S.method) → DenseAt S b b.t b.y) := by
  unfold DenseAt
  rw [interpolate_inside (le_refl _) hlt.le, interpolate_inside hlt.le (le_refl _)]
  have hermite : ∃ r s1, (hermiteInterp (b.cache.ts (Buffer.iOld k)) : Py (St (Num φ) n k X) _).run b = some (.ok r, s1) ∧
      r.deref b.cache = b.cache.ys (Buffer.iOld k) := by
    rw [hermiteInterp_run, if_pos (by simp)]
    exact ⟨_, _, rfl, rfl⟩
  obtain ⟨M, rhs, bd⟩ := S
  have hvar : ∀ {lib : Lib (Num φ)} {o : VarOptions (Num φ)} {ex : Num φ}, IsVariable lib o ex M →
      (∃ r s', ((⟨M, rhs, bd⟩ : Solver (Num φ) n k X).interpAt (b.cache.ts (Buffer.iOld k))).run b = some (.ok r, s') ∧
        r.deref b.cache = b.cache.ys (Buffer.iOld k)) ∧
      (∃ r s', ((⟨M, rhs, bd⟩ : Solver (Num φ) n k X).interpAt b.t).run b = some (.ok r, s') ∧ r.deref b.cache = b.y) := by
    intro lib o ex hv
    cases hv with
    | fsal c =>
      have hne : (b.cache.ts (Buffer.iOld 0) == b.cache.ts (Buffer.iLast 0)) = false := by
        rw [beq_eq_false_iff_ne]
        exact hlt.ne
      constructor
      · change ∃ r s1, (rkInterp c.P (b.cache.ts (Buffer.iOld 0))).run b = _ ∧ _
        rw [rkInterp_run, if_neg (by rw [hne]; simp), if_pos (by rw [beq_iff_eq]; rfl)]
        exact ⟨_, _, rfl, rfl⟩
      · change ∃ r s1, (rkInterp c.P b.t).run b = _ ∧ _
        rw [rkInterp_run, if_pos (by rw [beq_iff_eq]; rfl)]
        exact ⟨_, _, rfl, rfl⟩
    | dop853 c =>
      have hne : (b.cache.ts (Buffer.iOld 0) == b.cache.ts (Buffer.iLast 0)) = false := by
        rw [beq_eq_false_iff_ne]
        exact hlt.ne
      constructor
      · change ∃ r s1, (dopInterp c.toDopDense rhs (b.cache.ts (Buffer.iOld 0))).run b = _ ∧ _
        rw [dopInterp_run, if_neg (by rw [hne]; simp), if_pos (by rw [beq_iff_eq]; rfl)]
        exact ⟨_, _, rfl, rfl⟩
      · change ∃ r s1, (dopInterp c.toDopDense rhs b.t).run b = _ ∧ _
        rw [dopInterp_run, if_pos (by rw [beq_iff_eq]; rfl)]
        exact ⟨_, _, rfl, rfl⟩
  refine ⟨?_, fun ⟨lib, o, ex, hv⟩ => (hvar hv).2⟩
  rcases hM with hM | ⟨lib, o, ex, hv⟩
  · cases hM with
    | explicitMultistep c => exact hermite
    | implicitMultistep lib zo c => exact hermite
    | erk T => exact hermite
  · exact (hvar hv).1

/-- After a step the dense output of a method with two points of history starts exactly where the step started, and that of a
variable-step method also ends exactly where it ended. -/
theorem num_ends {S : Solver (Num φ) n 0 X} (hM : IsLibrary S.method) {a b : St (Num φ) n 0 X} (ht : Takes S a b) (hlt : a.t < b.t) :
    DenseAt S b a.t a.y ∧ ((∃ lib o ex, IsVariable lib o ex S.method) → DenseAt S b b.t b.y) := by
  obtain ⟨t, y, f, hc, -⟩ := hM.shaped.body_ok _ _ _ ht
  have e1 : b.cache.ts (Buffer.iOld 0) = a.t := by
    rw [hc]
    show shiftIn a.cache.ts t (Buffer.iOld 0) = _
    rw [shiftIn_lt _ _ _ (by simp [Buffer.iOld])]
    rfl
  have e2 : b.cache.ys (Buffer.iOld 0) = a.y := by
    rw [hc]
    show shiftIn a.cache.ys y (Buffer.iOld 0) = _
    rw [shiftIn_lt _ _ _ (by simp [Buffer.iOld])]
    rfl
  have := num_dense_ends hM b (by rw [e1]; exact hlt)
  rwa [e1, e2] at this

/-- **C88**, what holds: for a method which keeps two points of history and a right-hand side that does not raise, `run_events` on
future times in order and in range raises only what an integration step raised, if at every step the search has what it needs
(`Searchable`). Missing: steps where it does not, see `C88_refuted_product`, `C88_refuted_end` and `C88_refuted_stall`. -/
theorem C88_search_total_partial (S : Solver (Num φ) n 0 X) (hM : WellConfigured S.method) (hU : IsFixed S.method ∨ φ.NoUnderflow)
    (hA : φ.Accurate u η) (hG : φ.Gradual) (bo : BisectOpts (Num φ)) (htol : 0 ≤ bo.tol) (hmax : bo.maxiter ≠ 0)
    (argsort : List (Num φ) → List Nat) (hf : ∀ t y, ∃ f, S.rhs t y = .ok f)
    (s0 s : St (Num φ) n 0 X) (hc : Constructed S s0) (ho : Ordered s0) (hh : 0 < s0.h) (hs : CleanSession S bo argsort s0 s)
    (ts : List (Num φ)) (hts : ts.Pairwise (· ≤ ·)) (hne : ts ≠ []) (hfut : ∀ x ∈ ts, s.t < x) (hr : InRange S s ts)
    (es : List (EventSpec (Num φ) n)) (hes : es ≠ [])
    (hsearch : ∀ l a b, Path S S.tBound s l a → Fits S.tBound a → Takes S a b → ∀ e ∈ es, Searchable S e a b)
    (e : Err) (s' : St (Num φ) n 0 X) (h : (S.runEvents bo argsort ts (some es)).run s = some (.error e, s')) :
    ∃ s1 s2, (S.method.body S.rhs).run s1 = some (.error e, s2) := by
  have hF := num_forward hM hU
  obtain ⟨D, hg⟩ := good_session hF hc ho hh hs
  rw [runEvents_of_loop hts hne hes hr hfut, andThen_eq_error] at h
  rcases h with h | ⟨_, _, -, h⟩
  · refine num_runEvalEvents_noerr (P := fun a => ∃ l, Path S S.tBound s l a) hG hF hf D es S.tBound ?_ hmax
      (num_locates hA bo htol) hts h ⟨⟨rfl, rfl, rfl⟩, hg⟩ hg ⟨[], .nil _⟩ (watches_build _ es s) (noTerminal_single es s)
      (fun u hu => (hr u hu).1)
    rintro a c ⟨l, hp⟩ hf' ht
    refine ⟨⟨_, path_append hp (.cons hf' ht (.nil _))⟩, fun e he => ?_⟩
    have := hsearch l a c hp hf' ht e he
    exact ⟨(num_ends hF.library ht this.advances).1, this⟩
  · cases h

/-- **C88**, what holds for variable-step methods: their dense output meets the ends of a step exactly, so that it is enough that
the clock advances and that no product of values of an event at the ends of a step is rounded to zero. -/
theorem C88_variable_partial (S : Solver (Num φ) n 0 X) (hM : WellConfigured S.method) (hV : ∃ lib o ex, IsVariable lib o ex S.method)
    (hU : φ.NoUnderflow)
    (hA : φ.Accurate u η) (bo : BisectOpts (Num φ)) (htol : 0 ≤ bo.tol) (hmax : bo.maxiter ≠ 0)
    (argsort : List (Num φ) → List Nat) (hf : ∀ t y, ∃ f, S.rhs t y = .ok f)
    (s0 s : St (Num φ) n 0 X) (hc : Constructed S s0) (ho : Ordered s0) (hh : 0 < s0.h) (hs : CleanSession S bo argsort s0 s)
    (ts : List (Num φ)) (hts : ts.Pairwise (· ≤ ·)) (hne : ts ≠ []) (hfut : ∀ x ∈ ts, s.t < x) (hr : InRange S s ts)
    (es : List (EventSpec (Num φ) n)) (hes : es ≠ [])
    (hclock : ∀ l a b, Path S S.tBound s l a → Fits S.tBound a → Takes S a b → a.t < b.t)
    (hproduct : ∀ l a b, Path S S.tBound s l a → Fits S.tBound a → Takes S a b → ∀ e ∈ es,
      value e a ≠ 0 → value e b ≠ 0 → value e a * value e b ≠ 0)
    (e : Err) (s' : St (Num φ) n 0 X) (h : (S.runEvents bo argsort ts (some es)).run s = some (.error e, s')) :
    ∃ s1 s2, (S.method.body S.rhs).run s1 = some (.error e, s2) := by
  refine C88_search_total_partial S hM (Or.inr hU) hA (gradual_of_noUnderflow hU) bo htol hmax argsort hf s0 s hc ho hh hs ts hts hne
    hfut hr es hes (fun l a b hp hfit ht e he => ?_) e s' h
  have hlt := hclock l a b hp hfit ht
  have key : ∀ v, ValueAt S e b b.t v → v = value e b := by
    rintro v ⟨y, hy, rfl⟩
    rw [num_dense_unique hy ((num_ends (library_of hM) ht hlt).2 hV)]
    rfl
  refine ⟨hlt, fun v hv => by rw [key v hv], fun v hv => by rw [key v hv], fun v hv h1 h2 => ?_⟩
  rw [key v hv] at h2 ⊢
  exact hproduct l a b hp hfit ht e he h1 h2

/-! ### Failures -/

/-- A first step over which an event goes from negative to positive, on which the search raises `ValueError`. -/
theorem num_search_raises {S : Solver (Num φ) n 0 X} {s0 s1 : St (Num φ) n 0 X} (hb : S.tBound = .inf)
    (ho : s0.cache.ts (Buffer.iOld 0) ≤ s0.t) (ht : Takes S s0 s1)
    {ti : Num φ} (hti : s0.t < ti) {g : Num φ → Vec (Num φ) n → Num φ} (h0 : g s0.t s0.y < 0) (h1 : 0 < g s1.t s1.y)
    (bo : BisectOpts (Num φ)) (argsort : List (Num φ) → List Nat)
    (hbis : ∃ s2, (bisect (eventAtSol g S.interpAt) s0.t s1.t bo.tol bo.maxiter bo.rtol).run s1 = some (.error .valueError, s2)) :
    ∃ s', (S.runEvents bo argsort [ti] (some [⟨g, none, none⟩])).run s0 = some (.error .valueError, s') := by
  obtain ⟨s2, hbis⟩ := hbis
  refine ⟨s2, ?_⟩
  have htrig : triggers 0 (g s0.t s0.y) (g s1.t s1.y) = true := by
    simp [triggers, h0.le, h1.le]
  have hne : (g s1.t s1.y == 0) = false := by
    rw [beq_eq_false_iff_ne]; exact h1.ne'
  have hone : ((buildEvent ⟨g, none, none⟩ s0.t s0.y : Event (Num φ) n 0).evaluate bo S.interpAt).run s1 =
      some (.error .valueError, s2) := by
    have hd : (buildEvent ⟨g, none, none⟩ s0.t s0.y : Event (Num φ) n 0) = ⟨g, false, 0, s0.t, g s0.t s0.y, [], []⟩ := rfl
    rw [evaluate_run, hd]
    show andThen (if triggers 0 (g s0.t s0.y) (g s1.t s1.y) then andThen ((rootOf bo S.interpAt _ (g s1.t s1.y) s1.t).run s1) _ else _) _ = _
    rw [if_pos htrig]
    unfold rootOf
    rw [hne]
    simp only [Bool.false_eq_true, if_false]
    rw [hbis]
    rfl
  have hev : ((buildHandler [⟨g, none, none⟩] s0.t s0.y : EventHandler (Num φ) n 0).evaluate bo S.interpAt).run s1 =
      some (.error .valueError, s2) := by
    unfold EventHandler.evaluate
    show (do let p ← handlerLoop bo S.interpAt [buildEvent ⟨g, none, none⟩ s0.t s0.y] false none; _ : Py _ _).run s1 = _
    simp only [handlerLoop, run_bind, hone, andThen_error]
  have hf : Fits S.tBound s0 := by rw [hb]; trivial
  rw [runEvents_of_loop (by simp) (by simp) (by simp) (fun x hx => by
      rw [List.mem_singleton] at hx; subst hx
      exact ⟨ho.trans hti.le, by rw [hb]; trivial⟩) (by simpa using hti), runEvalEvents_cons, advanceEvents_run,
    if_pos hti, (pstep_true (S := S) (b := S.tBound)).mpr ⟨hf, ht⟩]
  simp only [andThen_ok, if_true]
  rw [hev]
  rfl

namespace Demo

/-- `ForwardEuler` for `y' = f` with a number `f`. -/
noncomputable def constEuler (f : Num φ) : Solver (Num φ) 1 (histExtra 0) Unit :=
  ⟨explicitMultistep ForwardEuler, pureRhs fun _ _ _ => f, .inf⟩

/-- Just constructed with `t0`, `y0` and step `1`. -/
noncomputable def constStart (t0 y0 f : Num φ) : St (Num φ) 1 (histExtra 0) Unit :=
  eulerAt (fun _ _ _ => f) t0 (fun _ => y0) 1

/-- Its first step. -/
noncomputable def constNext (t0 y0 f : Num φ) : St (Num φ) 1 (histExtra 0) Unit :=
  ⟨(constStart t0 y0 f).cache.push ((constStart t0 y0 f).t + (constStart t0 y0 f).h)
    (multistepK ForwardEuler (constStart t0 y0 f).cache (constStart t0 y0 f).h) (fun _ => f), (constStart t0 y0 f).h,
    (constStart t0 y0 f).aux⟩

theorem const_takes (t0 y0 f : Num φ) : Takes (constEuler f) (constStart t0 y0 f) (constNext t0 y0 f) := by
  have := explicitMultistepBody_run ForwardEuler (pureRhs fun _ (_ : Vec (Num φ) 1) _ => f) (constStart t0 y0 f)
  simp only [pureRhs] at this
  exact this

theorem const_t (t0 y0 f : Num φ) : (constNext t0 y0 f).t = t0 + 1 := by
  unfold constNext St.t; exact push_t ..

theorem const_y (t0 y0 f : Num φ) : (constNext t0 y0 f).y 0 = y0 + f := by
  have e : (constNext t0 y0 f).y = multistepK ForwardEuler (constStart t0 y0 f).cache 1 := by
    unfold constNext St.y; exact push_y ..
  rw [e]
  apply Num.ext
  have := eulerNew_val (constStart t0 y0 f) 0
  rw [show (constStart t0 y0 f).h = 1 from rfl] at this
  rw [this, Num.val_add, Num.val_add, Num.val_mul, Num.val_one, one_mul, round_val]
  rfl

/-- The dense output at the end of the step from the time `0`: the starting point plus the rounded increment. -/
theorem const_interp (y0 f : Num φ) : ((constEuler f).interpAt 1).run (constNext 0 y0 f) =
    some (.ok (.own fun _ => y0 + (y0 + f - y0)), constNext 0 y0 f) := by
  have a1 : (constNext 0 y0 f).cache.t = 1 := by
    have := const_t 0 y0 f
    apply Num.ext
    rw [show (constNext 0 y0 f).cache.t = 0 + 1 from this, Num.val_add, Num.val_zero, zero_add, round_val]
  have a0 : (constNext 0 y0 f).cache.ts (Buffer.iOld _) = 0 := rfl
  have a2 : (1 : Num φ) - 0 = 1 := by
    apply Num.ext
    rw [Num.val_sub, Num.val_zero, sub_zero, round_val]
  have a3 : (1 : Num φ) ≠ 0 := by
    intro h
    have := congrArg Num.val h
    rw [Num.val_one, Num.val_zero] at this
    exact one_ne_zero this
  have a4 : (1 : Num φ) / 1 = 1 := by
    apply Num.ext
    rw [Num.val_div, Num.val_one, div_one]; exact φ.round_self _ φ.one_mem
  show (hermiteInterp 1 : Py _ _).run _ = _
  rw [hermiteInterp_run, a0, a1, a2, if_neg (by rw [beq_iff_eq]; exact a3)]
  have a5 : pyDiv (1 : Num φ) 1 = .ok 1 := by
    unfold pyDiv; rw [if_neg (by rw [beq_iff_eq]; exact a3), a4]
  rw [a5]
  simp only
  congr 3
  congr 1
  funext d
  apply Num.ext
  have d0 : d = 0 := Subsingleton.elim _ _
  subst d0
  set w := constNext 0 y0 f
  have b1 : (1 : Num φ) * (1 - 1) = 0 := by
    apply Num.ext
    rw [Num.val_mul, Num.val_sub, sub_self, Num.val_one, one_mul, φ.round_self 0 φ.zero_mem, φ.round_self 0 φ.zero_mem, Num.val_zero]
  rw [b1]
  have b2 : w.cache.y 0 = y0 + f := const_y 0 y0 f
  show (y0 + 1 * (w.cache.y 0 - y0) + 0 * _ : Num φ).val = _
  rw [b2, Num.val_add, Num.val_mul, Num.val_zero, zero_mul, φ.round_self 0 φ.zero_mem, add_zero, round_val, Num.val_add, Num.val_mul,
    Num.val_one, one_mul, round_val, Num.val_add]

/-- The dense output at the start of that step. -/
theorem const_interp_left (y0 f : Num φ) : ((constEuler f).interpAt 0).run (constNext 0 y0 f) =
    some (.ok (.row (Buffer.iOld _)), constNext 0 y0 f) := by
  show (hermiteInterp 0 : Py _ _).run _ = _
  rw [hermiteInterp_run, if_pos (by rw [beq_iff_eq]; rfl)]

theorem num_zero_lt_one : (0 : Num φ) < 1 := by
  rw [Num.lt_iff, Num.val_zero, Num.val_one]; exact one_pos

theorem const_t_one (y0 f : Num φ) : (constNext 0 y0 f).t = 1 := by
  rw [const_t]
  apply Num.ext
  rw [Num.val_add, Num.val_zero, zero_add, round_val]

/-- The search over that step fails if the product of the values at the ends is not negative. -/
theorem const_bisect (y0 f : Num φ) (g : Num φ → Vec (Num φ) 1 → Num φ) (bo : BisectOpts (Num φ))
    (hl : g 0 (fun _ => y0) ≠ 0) (hr : g 1 (fun _ => y0 + (y0 + f - y0)) ≠ 0)
    (hm : ¬ g 0 (fun _ => y0) * g 1 (fun _ => y0 + (y0 + f - y0)) < 0) :
    ∃ s2, (bisect (eventAtSol g (constEuler f).interpAt) (constStart 0 y0 f).t (constNext 0 y0 f).t bo.tol bo.maxiter bo.rtol).run
      (constNext 0 y0 f) = some (.error .valueError, s2) := by
  rw [const_t_one, show (constStart 0 y0 f).t = 0 from rfl]
  have e1 : (eventAtSol g (constEuler f).interpAt 0).run (constNext 0 y0 f) = some (.ok (g 0 fun _ => y0), constNext 0 y0 f) := by
    unfold eventAtSol
    rw [run_bind, const_interp_left]
    rfl
  have e2 : (eventAtSol g (constEuler f).interpAt 1).run (constNext 0 y0 f) =
      some (.ok (g 1 fun _ => y0 + (y0 + f - y0)), constNext 0 y0 f) := by
    unfold eventAtSol
    rw [run_bind, const_interp]
    rfl
  refine ⟨constNext 0 y0 f, ?_⟩
  unfold bisect
  simp only [run_bind, run_ite, run_throw, run_pure, andThen_error, e1, e2, andThen_ok, beq_iff_eq, hl, hr, if_false]
  rw [if_neg (by simpa using num_zero_lt_one), if_pos (by simpa using hm)]

/-- The powers of two in double precision. -/
theorem double_two_pow (i : ℤ) (hi : -1074 ≤ i) : double.round (2 ^ i) = 2 ^ i := by
  refine double.round_self _ ⟨1, i, by norm_num, fun j hj => ?_, by simp⟩
  cases hj; exact hi

theorem double_neg_two_pow (i : ℤ) (hi : -1074 ≤ i) : double.round (-2 ^ i) = -2 ^ i := by
  refine double.round_self _ (double.neg_mem _ ⟨1, i, by norm_num, fun j hj => ?_, by simp⟩)
  cases hj; exact hi

end Demo

open Demo

/-- **C88 refuted**, small values: in double precision `ForwardEuler` goes from `-2^-600` to `2^-600` in one step; watching for the
zero of the state raises `ValueError`, as the product of the two values is rounded to zero. -/
theorem C88_refuted_product (bo : BisectOpts (Num double)) (argsort : List (Num double) → List Nat) :
    ∃ (S : Solver (Num double) 1 (histExtra 0) Unit) (s0 s1 : St (Num double) 1 (histExtra 0) Unit) (e : EventSpec (Num double) 1) (s' : St (Num double) 1 (histExtra 0) Unit),
      Constructed S s0 ∧ s0.t.val = 0 ∧ s0.h.val = 1 ∧ Takes S s0 s1 ∧ s1.t.val = 1 ∧ (∀ t y, e.func t y = y 0) ∧
      (s0.y 0).val = -2 ^ (-600 : ℤ) ∧ (s1.y 0).val = 2 ^ (-600 : ℤ) ∧
      (S.runEvents bo argsort [1] (some [e])).run s0 = some (.error .valueError, s') := by
  set y0 := Num.of double (-2 ^ (-600 : ℤ)) with hy0
  set f := Num.of double (2 ^ (-599 : ℤ)) with hf
  have v0 : y0.val = -2 ^ (-600 : ℤ) := double_neg_two_pow _ (by norm_num)
  have vf : f.val = 2 ^ (-599 : ℤ) := double_two_pow _ (by norm_num)
  have e2 : (2 : ℝ) ^ (-599 : ℤ) = 2 * 2 ^ (-600 : ℤ) := by
    rw [show (-599 : ℤ) = 1 + -600 by norm_num, zpow_add₀ (by norm_num)]; norm_num
  have hp : (0 : ℝ) < 2 ^ (-600 : ℤ) := zpow_pos (by norm_num) _
  have v1 : (y0 + f).val = 2 ^ (-600 : ℤ) := by
    rw [Num.val_add, v0, vf, e2, show -(2 : ℝ) ^ (-600 : ℤ) + 2 * 2 ^ (-600 : ℤ) = 2 ^ (-600 : ℤ) by ring]
    exact double_two_pow _ (by norm_num)
  have vd : (y0 + f - y0).val = 2 ^ (-599 : ℤ) := by
    rw [Num.val_sub, v1, v0, show (2 : ℝ) ^ (-600 : ℤ) - -2 ^ (-600 : ℤ) = 2 ^ (-599 : ℤ) by rw [e2]; ring]
    exact double_two_pow _ (by norm_num)
  have vr : (y0 + (y0 + f - y0)).val = 2 ^ (-600 : ℤ) := by
    rw [Num.val_add, vd, v0, e2, show -(2 : ℝ) ^ (-600 : ℤ) + 2 * 2 ^ (-600 : ℤ) = 2 ^ (-600 : ℤ) by ring]
    exact double_two_pow _ (by norm_num)
  have hx : y0.val * (y0 + (y0 + f - y0)).val = -2 ^ (-1200 : ℤ) := by
    rw [v0, vr, neg_mul, ← zpow_add₀ (by norm_num)]; norm_num
  have hm : (y0 * (y0 + (y0 + f - y0))).val = 0 := by
    rw [Num.val_mul, hx]
    have h1 : double.round (-2 ^ (-1200 : ℤ)) ∈ double.numbers := double.round_mem _
    have h2 : double.round (-2 ^ (-1200 : ℤ)) ≤ 0 := by
      refine Num.round_le double.zero_mem ?_
      have : (0 : ℝ) < 2 ^ (-1200 : ℤ) := zpow_pos (by norm_num) _
      linarith
    have h3 := double_accurate.error (-2 ^ (-1200 : ℤ))
    by_contra hc
    have h4 : double.round (-2 ^ (-1200 : ℤ)) ≤ -2 ^ (-1074 : ℤ) := by
      obtain ⟨m, i, -, hi, e⟩ := h1
      rw [e] at h2 hc ⊢
      have hi' := hi _ rfl
      have hpi : (2 : ℝ) ^ (-1074 : ℤ) ≤ 2 ^ i := zpow_le_zpow_right₀ (by norm_num) hi'
      have hpi0 : (0 : ℝ) < 2 ^ i := zpow_pos (by norm_num) _
      have hm0 : m ≠ 0 := by rintro rfl; simp at hc
      have hm1 : m ≤ 0 := by
        by_contra hcc
        have : (0 : ℝ) < m := by exact_mod_cast not_le.mp hcc
        nlinarith
      have hm2 : (m : ℝ) ≤ -1 := by exact_mod_cast (show m ≤ -1 by omega)
      nlinarith
    have q1 : (2 : ℝ) ^ ((-1074 : ℤ) - 1) = 2⁻¹ * 2 ^ (-1074 : ℤ) := by
      rw [sub_eq_add_neg, zpow_add₀ (by norm_num)]; norm_num; ring
    have q2 : (2 : ℝ) ^ (-1200 : ℤ) = (2⁻¹) ^ 126 * 2 ^ (-1074 : ℤ) := by
      rw [show (-1200 : ℤ) = -126 + -1074 by norm_num, zpow_add₀ (by norm_num), zpow_neg, inv_pow]
      rfl
    have q3 : (0 : ℝ) < 2 ^ (-1074 : ℤ) := zpow_pos (by norm_num) _
    rw [abs_neg, abs_of_pos (zpow_pos (two_pos : (0 : ℝ) < 2) (-1200 : ℤ)), q1, q2] at h3
    rw [q2] at h4
    generalize (2 : ℝ) ^ (-1074 : ℤ) = q at *
    rw [abs_le] at h3
    have := h3.1
    norm_num at this h4
    nlinarith
  have hz : ∀ x : Num double, x.val ≠ 0 → x ≠ 0 := fun x hx h => hx (by rw [h, Num.val_zero])
  obtain ⟨s', h⟩ := num_search_raises (S := constEuler f) (s0 := constStart 0 y0 f) (s1 := constNext 0 y0 f) rfl (le_refl _)
    (const_takes 0 y0 f) (ti := 1) num_zero_lt_one (g := fun _ y => y 0)
    (by show y0 < 0; rw [Num.neg_iff, v0]; linarith)
    (by show 0 < (constNext 0 y0 f).y 0; rw [const_y, Num.pos_iff, v1]; exact hp) bo argsort
    (const_bisect y0 f _ bo (hz _ (by rw [v0]; linarith)) (hz _ (by rw [vr]; exact hp.ne')) (by
      rw [Num.neg_iff, hm]; exact lt_irrefl _))
  refine ⟨constEuler f, constStart 0 y0 f, constNext 0 y0 f, _, s', constructed_eulerAt _ _ _ _ _, Num.val_zero, Num.val_one,
    const_takes 0 y0 f, by rw [const_t_one]; exact Num.val_one, fun _ _ => rfl, v0, ?_, h⟩
  rw [const_y, v1]

/-- **C88 refuted**, the end of the step: in double precision `ForwardEuler` goes from `-2^-53` to `1` in one step, while the dense
output ends at `1 - 2^-53`; watching for `y - 1 + 2^-54`, which goes from negative to positive, raises `ValueError`. -/
theorem C88_refuted_end (bo : BisectOpts (Num double)) (argsort : List (Num double) → List Nat) :
    ∃ (S : Solver (Num double) 1 (histExtra 0) Unit) (s0 s1 : St (Num double) 1 (histExtra 0) Unit) (e : EventSpec (Num double) 1) (s' : St (Num double) 1 (histExtra 0) Unit),
      Constructed S s0 ∧ s0.t.val = 0 ∧ s0.h.val = 1 ∧ Takes S s0 s1 ∧ s1.t.val = 1 ∧
      (∀ t y, e.func t y = (y 0 - 1) + Num.of double (2 ^ (-54 : ℤ))) ∧
      (s1.y 0).val = 1 ∧ (∃ y, DenseAt S s1 s1.t y ∧ (y 0).val = 1 - 2 ^ (-53 : ℤ)) ∧ value e s0 < 0 ∧ 0 < value e s1 ∧
      (S.runEvents bo argsort [1] (some [e])).run s0 = some (.error .valueError, s') := by
  set y0 := Num.of double (-2 ^ (-53 : ℤ)) with hy0
  set f := Num.of double (1 + 2 ^ (-52 : ℤ)) with hf
  set c := Num.of double (2 ^ (-54 : ℤ)) with hc
  have v0 : y0.val = -2 ^ (-53 : ℤ) := double_neg_two_pow _ (by norm_num)
  have vc : c.val = 2 ^ (-54 : ℤ) := double_two_pow _ (by norm_num)
  have vf : f.val = 1 + 2 ^ (-52 : ℤ) := by
    refine double.round_self _ ⟨2 ^ 52 + 1, -52, by norm_num, fun j hj => ?_, by norm_num⟩
    cases hj; norm_num
  have tie : double.round (1 + 2 ^ (-53 : ℤ)) = 1 := by
    show roundFloat 53 (some (-1074)) _ = _
    rw [roundFloat_eq (-52) (2 ^ 52)]
    · norm_num
    · rw [abs_of_pos (by positivity)]; norm_num
    · rw [abs_of_pos (by positivity)]; norm_num
    · intro i hi; cases hi; norm_num
    · have := halfEven_tie (m := 2 ^ 52) (by decide)
      rw [← this]; norm_num
  have v1 : (y0 + f).val = 1 := by
    rw [Num.val_add, v0, vf]
    refine Eq.trans ?_ tie
    congr 1
    norm_num
  have vd : (y0 + f - y0).val = 1 := by
    rw [Num.val_sub, v1, v0, sub_neg_eq_add, tie]
  have vr : (y0 + (y0 + f - y0)).val = 1 - 2 ^ (-53 : ℤ) := by
    rw [Num.val_add, vd, v0, show -(2 : ℝ) ^ (-53 : ℤ) + 1 = 1 - 2 ^ (-53 : ℤ) by ring]
    refine double.round_self _ ⟨2 ^ 53 - 1, -53, by norm_num, fun j hj => ?_, by norm_num⟩
    cases hj; norm_num
  have g0 : ((y0 - 1) + c).val ≤ -(1 / 2) := by
    have a : (y0 - 1).val ≤ -1 := by
      rw [Num.val_sub, v0, Num.val_one]
      refine Num.round_le (double.neg_mem _ double.one_mem) ?_
      have : (0 : ℝ) < 2 ^ (-53 : ℤ) := zpow_pos (by norm_num) _
      linarith
    rw [Num.val_add, vc]
    refine Num.round_le (φ := double) ⟨-1, -1, by norm_num, fun j hj => by cases hj; norm_num, by norm_num⟩ ?_
    have : (2 : ℝ) ^ (-54 : ℤ) ≤ 1 / 2 := by norm_num
    linarith
  have g1 : ((y0 + f - 1) + c).val = 2 ^ (-54 : ℤ) := by
    have a : (y0 + f - 1).val = 0 := by
      rw [Num.val_sub, v1, Num.val_one, sub_self]; exact double.round_self _ double.zero_mem
    rw [Num.val_add, a, zero_add, round_val, vc]
  have g2 : ((y0 + (y0 + f - y0) - 1) + c).val = -2 ^ (-54 : ℤ) := by
    have a : (y0 + (y0 + f - y0) - 1).val = -2 ^ (-53 : ℤ) := by
      rw [Num.val_sub, vr, Num.val_one, show (1 : ℝ) - 2 ^ (-53 : ℤ) - 1 = -2 ^ (-53 : ℤ) by ring]
      exact double_neg_two_pow _ (by norm_num)
    rw [Num.val_add, a, vc, show -(2 : ℝ) ^ (-53 : ℤ) + 2 ^ (-54 : ℤ) = -2 ^ (-54 : ℤ) by norm_num]
    exact double_neg_two_pow _ (by norm_num)
  have hp : (0 : ℝ) < 2 ^ (-54 : ℤ) := zpow_pos (by norm_num) _
  have hz : ∀ x : Num double, x.val ≠ 0 → x ≠ 0 := fun x hx h => hx (by rw [h, Num.val_zero])
  have hneg : value ⟨fun _ y => (y 0 - 1) + c, none, none⟩ (constStart 0 y0 f) < 0 := by
    show (y0 - 1) + c < 0
    rw [Num.neg_iff]; linarith
  have hpos : 0 < value ⟨fun _ y => (y 0 - 1) + c, none, none⟩ (constNext 0 y0 f) := by
    show 0 < ((constNext 0 y0 f).y 0 - 1) + c
    rw [const_y, Num.pos_iff, g1]; exact hp
  obtain ⟨s', h⟩ := num_search_raises (S := constEuler f) (s0 := constStart 0 y0 f) (s1 := constNext 0 y0 f) rfl (le_refl _)
    (const_takes 0 y0 f) (ti := 1) num_zero_lt_one (g := fun _ y => (y 0 - 1) + c) hneg hpos bo argsort
    (const_bisect y0 f _ bo (hz _ (by intro h; rw [h] at g0; norm_num at g0)) (hz _ (by rw [g2]; linarith)) (by
      rw [Num.neg_iff, not_lt, Num.val_mul]
      refine Num.le_round double.zero_mem ?_
      rw [g2]
      nlinarith))
  refine ⟨constEuler f, constStart 0 y0 f, constNext 0 y0 f, _, s', constructed_eulerAt _ _ _ _ _, Num.val_zero, Num.val_one,
    const_takes 0 y0 f, by rw [const_t_one]; exact Num.val_one, fun _ _ => rfl, ?_, ⟨fun _ => y0 + (y0 + f - y0), ?_, vr⟩,
    hneg, hpos, h⟩
  · rw [const_y, v1]
  · rw [const_t_one]
    unfold DenseAt
    rw [interpolate_inside]
    · exact ⟨_, _, const_interp y0 f, rfl⟩
    · exact num_zero_lt_one.le
    · rw [const_t_one]

/-- **C88 refuted**, a clock that does not advance: in double precision `ForwardEuler` with step `1` stays at `2^53` while its state
goes from `-1` to `1`; watching for the zero of the state raises `ValueError`. -/
theorem C88_refuted_stall (bo : BisectOpts (Num double)) (argsort : List (Num double) → List Nat) :
    ∃ (S : Solver (Num double) 1 (histExtra 0) Unit) (s0 s1 : St (Num double) 1 (histExtra 0) Unit) (ti : Num double) (e : EventSpec (Num double) 1)
      (s' : St (Num double) 1 (histExtra 0) Unit),
      Constructed S s0 ∧ s0.t.val = 2 ^ 53 ∧ s0.h.val = 1 ∧ Takes S s0 s1 ∧ s1.t = s0.t ∧ ti.val = 2 ^ 54 ∧ (∀ t y, e.func t y = y 0) ∧
      (s0.y 0).val = -1 ∧ (s1.y 0).val = 1 ∧
      (S.runEvents bo argsort [ti] (some [e])).run s0 = some (.error .valueError, s') := by
  set t0 := Num.of double (2 ^ 53) with ht0
  set y0 := -(1 : Num double) with hy0
  set f := ((2 : Nat) : Num double) with hf
  have vt : t0.val = 2 ^ 53 := double_pow 53
  have v0 : y0.val = -1 := by rw [Num.val_neg, Num.val_one]
  have v1 : (y0 + f).val = 1 := by
    rw [Num.val_add, v0, Num.val_two, show (-1 : ℝ) + 2 = 1 by norm_num]; exact double.round_self _ double.one_mem
  have hstall : (constNext t0 y0 f).t = t0 := by
    rw [const_t]
    apply Num.ext
    rw [Num.val_add, vt, Num.val_one, double_big]
  have hlt : t0 < Num.of double (2 ^ 54) := by
    rw [Num.lt_iff, vt, double_pow]; norm_num
  have hb : (bisect (eventAtSol (fun _ (y : Vec (Num double) 1) => y 0) (constEuler f).interpAt) (constStart t0 y0 f).t
      (constNext t0 y0 f).t bo.tol bo.maxiter bo.rtol).run (constNext t0 y0 f) = some (.error .valueError, constNext t0 y0 f) := by
    rw [hstall, show (constStart t0 y0 f).t = t0 from rfl]
    unfold bisect
    simp only [lt_irrefl, decide_false, Bool.not_false, if_true, run_bind, run_throw, andThen_error]
  obtain ⟨s', h⟩ := num_search_raises (S := constEuler f) (s0 := constStart t0 y0 f) (s1 := constNext t0 y0 f) rfl (le_refl _)
    (const_takes t0 y0 f) (ti := Num.of double (2 ^ 54)) hlt (g := fun _ y => y 0)
    (by show y0 < 0; rw [Num.neg_iff, v0]; norm_num)
    (by show 0 < (constNext t0 y0 f).y 0; rw [const_y, Num.pos_iff, v1]; norm_num) bo argsort
    ⟨constNext t0 y0 f, hb⟩
  refine ⟨constEuler f, constStart t0 y0 f, constNext t0 y0 f, _, _, s', constructed_eulerAt _ _ _ _ _, vt, Num.val_one,
    const_takes t0 y0 f, hstall, double_pow 54, fun _ _ => rfl, v0, ?_, h⟩
  rw [const_y, v1]

namespace Demo

/-- When the second step does not fit, the first is the only one. -/
theorem only_step {k : Nat} {S : Solver (Num φ) n k X} {b : Bound (Num φ)} {s0 v a c : St (Num φ) n k X} {l : List (St (Num φ) n k X)}
    (hv : Takes S s0 v) (hn : ¬ Fits b v) (hp : Path S b s0 l a) (hf : Fits b a) (ht : Takes S a c) : a = s0 ∧ c = v := by
  have det : ∀ {x y z : St (Num φ) n k X}, Takes S x y → Takes S x z → y = z := by
    intro x y z h1 h2
    have := h1.symm.trans h2
    simpa using this
  cases hp with
  | nil => exact ⟨rfl, det ht hv⟩
  | cons hf1 ht1 hp1 =>
    have := det ht1 hv
    subst this
    cases hp1 with
    | nil => exact absurd hf hn
    | cons hf2 _ _ => exact absurd hf2 hn

/-- `t - 1/2`. -/
noncomputable def atHalf (φ : Rounding) (m : ℕ) : EventSpec (Num φ) m := ⟨fun t _ => t - Num.of φ (1 / 2), none, none⟩

theorem binary_half (p : ℕ) (hp : 1 ≤ p) (e : Option ℤ) (he : ∀ j, e = some j → j ≤ 0) (h : ∀ j, e = some j → j ≤ -2) :
    (binary p hp e he).round (1 / 2) = 1 / 2 ∧ (binary p hp e he).round (-(1 / 2)) = -(1 / 2) ∧
    (binary p hp e he).round (-(1 / 4)) = -(1 / 4) := by
  have a : (1 / 2 : ℝ) ∈ (binary p hp e he).numbers := by
    refine ⟨1, -1, ?_, fun j hj => ?_, by norm_num⟩
    · simpa using one_le_pow₀ (M₀ := ℤ) (by norm_num : (1 : ℤ) ≤ 2)
    · have := h j hj; omega
  have b : (1 / 4 : ℝ) ∈ (binary p hp e he).numbers := by
    refine ⟨1, -2, ?_, h, by norm_num⟩
    simpa using one_le_pow₀ (M₀ := ℤ) (by norm_num : (1 : ℤ) ≤ 2)
  exact ⟨Rounding.round_self _ _ a, Rounding.round_self _ _ (Rounding.neg_mem _ _ a), Rounding.round_self _ _ (Rounding.neg_mem _ _ b)⟩

/-- The values of `t - 1/2` at the ends of a step from `0` to `1` are `-1/2` and `1/2`, and their product is not rounded to zero. -/
theorem half_values (p : ℕ) (hp : 1 ≤ p) (e : Option ℤ) (he : ∀ j, e = some j → j ≤ 0) (h : ∀ j, e = some j → j ≤ -2) :
    (0 - Num.of (binary p hp e he) (1 / 2)) * (1 - Num.of (binary p hp e he) (1 / 2)) ≠ 0 := by
  obtain ⟨h1, h2, h3⟩ := binary_half p hp e he h
  intro hc
  have := congrArg Num.val hc
  have a0 : (Num.of (binary p hp e he) (1 / 2)).val = 1 / 2 := h1
  rw [Num.val_mul, Num.val_sub, Num.val_sub, Num.val_zero, Num.val_one, a0, zero_sub, show (1 : ℝ) - 1 / 2 = 1 / 2 by norm_num, h1, h2,
    show -(1 / 2 : ℝ) * (1 / 2) = -(1 / 4) by norm_num, h3] at this
  norm_num at this

theorem one_lt_two_of (φ : Rounding) {h : Num φ} (hh : 1 ≤ h.val) : 1 < 1 + h := by
  have : (2 : ℝ) ≤ (1 + h).val := by
    rw [Num.val_add, Num.val_one]
    refine Num.le_round ?_ (by linarith)
    have := φ.double_mem 1 φ.one_mem
    rwa [mul_one] at this
  rw [Num.lt_iff, Num.val_one]
  linarith

/-- `ForwardEuler` for `y' = 1` up to the time `1`. -/
noncomputable def boundedEuler : Solver (Num double) 1 0 Unit :=
  ⟨explicitMultistep ForwardEuler, pureRhs fun _ _ _ => 1, .fin 1⟩

end Demo

/-- Non-vacuity of `C88_search_total_partial`: `ForwardEuler` in double precision, watching for the time `1/2` on the way to `1`. -/
example (bo : BisectOpts (Num double)) (htol : 0 ≤ bo.tol) (hmax : bo.maxiter ≠ 0) (argsort : List (Num double) → List Nat) (e : Err)
    (s' : St (Num double) 1 0 Unit) :
    (boundedEuler.runEvents bo argsort [1] (some [atHalf double 1])).run (constStart 0 0 1) ≠ some (.error e, s') := by
  intro h
  have hlt : (constStart (0 : Num double) 0 1).t < 1 := num_zero_lt_one
  have hv : Takes boundedEuler (constStart 0 0 1) (constNext 0 0 1) := const_takes 0 0 1
  have htv : St.t (k := 0) (constNext (0 : Num double) 0 1) = 1 := const_t_one 0 1
  have hhalf := half_values 53 (by norm_num) (some (-1074)) (by simp) (by simp)
  obtain ⟨s1, s2, h1⟩ := C88_search_total_partial boundedEuler (Or.inl (.explicitMultistep _)) (Or.inl (.explicitMultistep _))
    double_accurate (binary_gradual 53 (by norm_num) (-1074) (by simp)) bo htol hmax argsort (fun _ _ => ⟨_, rfl⟩) _ _
    (constructed_eulerAt _ _ _ _ _) (fun _ _ _ => le_refl _) num_zero_lt_one (.start _) [1] (by simp) (by simp)
    (fun x hx => by rw [List.mem_singleton] at hx; subst hx; exact hlt)
    (fun x hx => by
      rw [List.mem_singleton] at hx; subst hx
      exact ⟨num_zero_lt_one.le, lt_irrefl _⟩) [atHalf double 1] (by simp)
    (fun l a b hp hf ht e he => by
      rw [List.mem_singleton] at he; subst he
      obtain ⟨rfl, rfl⟩ := only_step hv (by
        show ¬ ¬ (1 < St.t (k := 0) (constNext (0 : Num double) 0 1) + 1)
        rw [htv, not_not]
        exact one_lt_two_of _ Num.val_one.ge) hp hf ht
      have key : ∀ v, ValueAt boundedEuler (atHalf double 1) (constNext 0 0 1) (St.t (k := 0) (constNext (0 : Num double) 0 1)) v →
          v = value (atHalf double 1) (constNext 0 0 1) := by
        rintro v ⟨y, -, rfl⟩; rfl
      refine ⟨by rw [htv]; exact hlt, fun v hv => by rw [key v hv]; exact Iff.rfl, fun v hv => by rw [key v hv]; exact Iff.rfl,
        fun v hv _ _ => ?_⟩
      rw [key v hv]
      show (0 - _) * (St.t (k := 0) (constNext (0 : Num double) 0 1) - _) ≠ 0
      rw [htv]
      exact hhalf) e s' h
  obtain ⟨s3, h3⟩ : ∃ s3, (boundedEuler.method.body boundedEuler.rhs).run s1 = some (.ok (), s3) :=
    ⟨_, explicitMultistepBody_run ForwardEuler (pureRhs fun _ (_ : Vec (Num double) 1) _ => 1) s1⟩
  rw [h3] at h1
  cases h1

namespace Demo

/-- `RungeKutta45` for `y' = 0` up to the time `1`, rounded to 53 binary digits. -/
noncomputable def stillRK45 : Solver (Num wideDouble) 1 0 (FsalAux (Num wideDouble) 1 5 (RkItp (Num wideDouble) 1 4)) :=
  ⟨fsal (numLib wideDouble) .default RungeKutta45, pureRhs fun _ _ _ => 0, .fin 1⟩

theorem stillRK45_ok : WellConfigured stillRK45.method := by
  refine Or.inr ⟨_, _, _, .fsal _, numLib_powLaw wide_noUnderflow, numDefault_sane wide_noUnderflow, ?_⟩
  rw [Num.le_iff, Num.val_zero]
  refine (wide_noUnderflow _ (div_pos ?_ ?_)).le
  · exact lt_of_lt_of_le one_pos (val_nat_pos (m := 1) (le_refl _))
  · exact lt_of_lt_of_le one_pos (val_nat_pos (m := 5) (by norm_num))

theorem still_constructed : ∃ s0, Constructed stillRK45 s0 ∧ Ordered s0 ∧ s0.t = 0 ∧ s0.h = 1 ∧ s0.f = fun _ => 0 := by
  have h0 : ¬ (VarOptions.default : VarOptions (Num wideDouble)).atol < 0 := by
    rw [Num.neg_iff, not_lt]
    refine Num.le_round wideDouble.zero_mem (div_nonneg ?_ ?_)
    · exact le_trans zero_le_one Num.val_one.ge
    · exact le_trans zero_le_one (val_nat_pos (by norm_num))
  obtain ⟨st, hst⟩ : ∃ st, fsalInit (RungeKutta45 (α := Num wideDouble)).P .default (fun _ _ _ _ => .ok 1)
      ⟨fun _ => 0, fun _ _ => 0, fun _ _ => 0⟩ (fun _ _ => 0) ⟨fun _ _ => 0, 0⟩ (pureRhs fun _ (_ : Vec (Num wideDouble) 1) _ => 0) 0
      (fun _ => 0) none (some 1) = .ok st := by
    unfold fsalInit variableInit solverInit
    simp only [pureRhs, bind, Except.bind, pure, Except.pure, h0, if_false, rkUpdate, run_modify]
    exact ⟨_, rfl⟩
  refine ⟨st, .fsal _ _ _ _ _ _ _ _ _ _ _ _ _ _ hst, ?_⟩
  obtain ⟨s1, e1, e2, e3, -⟩ := fsalInit_ok hst
  obtain ⟨s2, e4, e5, -, e6, -⟩ := variableInit_ok e1
  obtain ⟨f, e7, e8, -⟩ := solverInit_ok e4
  cases e7
  have e9 := e2.trans (e5.trans e8)
  refine ⟨fun i j _ => ?_, ?_, e3.trans (e6 1 rfl), ?_⟩
  · rw [e9, init_ts, init_ts]
  · show st.cache.t = 0
    rw [e9]; rfl
  · show st.cache.f = _
    rw [e9]; rfl

end Demo

/-- Non-vacuity of `C88_variable_partial`: `RungeKutta45` with the default options, watching for the time `1/2` on the way to `1`. -/
example (bo : BisectOpts (Num wideDouble)) (htol : 0 ≤ bo.tol) (hmax : bo.maxiter ≠ 0) (argsort : List (Num wideDouble) → List Nat) :
    ∃ s0, Constructed stillRK45 s0 ∧ s0.t = 0 ∧
      ∀ e s', (stillRK45.runEvents bo argsort [1] (some [atHalf wideDouble 1])).run s0 = some (.error e, s') →
        ∃ s1 s2, (stillRK45.method.body stillRK45.rhs).run s1 = some (.error e, s2) := by
  obtain ⟨s0, hc, ho, ht, hh, hf⟩ := still_constructed
  refine ⟨s0, hc, ht, fun e s' h => ?_⟩
  have h01 : (0 : Num wideDouble) < 1 := by rw [Num.lt_iff, Num.val_zero, Num.val_one]; exact one_pos
  have hlt : s0.t < 1 := by rw [ht]; exact h01
  obtain ⟨v, hv, hvt, hvh⟩ := num_fsal_takes .default RungeKutta45 (.fin 1) s0 hf
  have hvt' : v.t = 1 := by
    rw [hvt, ht, hh]; apply Num.ext
    rw [Num.val_add, Num.val_zero, zero_add, Num.val_one]
    exact wideDouble.round_self _ wideDouble.one_mem
  have hvh' : 1 ≤ v.h.val := by
    rw [hvh, hh, Num.val_mul, Num.val_one, one_mul]
    exact Num.le_round wideDouble.one_mem (val_nat_pos (by norm_num))
  have hn : ¬ Fits (.fin 1) v := by
    show ¬ ¬ (1 < v.t + v.h)
    rw [hvt', not_not]
    exact one_lt_two_of _ hvh'
  refine C88_variable_partial stillRK45 stillRK45_ok ⟨_, _, _, .fsal _⟩ wide_noUnderflow (binary_accurate 53 (by norm_num) (by simp)) bo htol hmax
    argsort (fun _ _ => ⟨_, rfl⟩) s0 s0 hc ho (by rw [hh]; exact h01) (.start _) [1] (by simp) (by simp)
    (fun x hx => by rw [List.mem_singleton] at hx; subst hx; exact hlt)
    (fun x hx => by
      rw [List.mem_singleton] at hx; subst hx
      exact ⟨(ho _ _ (Fin.le_last _)).trans hlt.le, lt_irrefl _⟩) [atHalf wideDouble 1] (by simp) (fun l a b hp hfit hab => ?_) (fun l a b hp hfit hab e he _ _ => ?_)
    e s' h
  · obtain ⟨rfl, rfl⟩ := only_step hv hn hp hfit hab
    rw [ht, hvt']; exact h01
  · obtain ⟨rfl, rfl⟩ := only_step hv hn hp hfit hab
    rw [List.mem_singleton] at he; subst he
    show (a.t - _) * (b.t - _) ≠ 0
    rw [ht, hvt']
    exact half_values 53 (by norm_num) none (by simp) (by simp)

end Nbkode
