import Verif.Spec.Failure
import Verif.Proofs.Loops
import Verif.Props.RunStates
import Verif.Props.Hermite

/-! Which exceptions a call can end with. -/

set_option autoImplicit false
set_option linter.unusedSectionVars false

namespace Nbkode
open Py Spec Solver

section py
variable {σ τ A B : Type}

/-- `p` only raises exceptions satisfying `Q`. -/
def OnlyRaises (Q : Err → Prop) (p : Py σ A) : Prop := ∀ s e s', p.run s = some (.error e, s') → Q e

/-- The same for a function without effects. -/
def OnlyErr (Q : Err → Prop) (x : Except Err A) : Prop := ∀ e, x = .error e → Q e

variable {Q : Err → Prop}

theorem OnlyErr.ok (a : A) : OnlyErr Q (.ok a : Except Err A) := fun _ h => by cases h

theorem OnlyErr.pure (a : A) : OnlyErr Q (Pure.pure a : Except Err A) := fun _ h => by cases h

theorem OnlyErr.bind {x : Except Err A} {f : A → Except Err B} (hx : OnlyErr Q x) (hf : ∀ a, x = .ok a → OnlyErr Q (f a)) :
    OnlyErr Q (x >>= f) := by
  intro e h
  cases hx' : x with
  | error e' => rw [hx'] at h; cases h; exact hx _ hx'
  | ok a => rw [hx'] at h; exact hf a hx' _ h

theorem OnlyErr.ite {c : Prop} [Decidable c] {x y : Except Err A} (hx : c → OnlyErr Q x) (hy : ¬ c → OnlyErr Q y) :
    OnlyErr Q (if c then x else y) := by
  split
  · exact hx ‹_›
  · exact hy ‹_›

theorem OnlyRaises.pure (a : A) : OnlyRaises Q (Pure.pure a : Py σ A) := fun _ _ _ h => by cases h
theorem OnlyRaises.get : OnlyRaises Q (get : Py σ σ) := fun _ _ _ h => by cases h
theorem OnlyRaises.modify (f : σ → σ) : OnlyRaises Q (modify f : Py σ PUnit) := fun _ _ _ h => by cases h
theorem OnlyRaises.throw {e : Err} (h : Q e) : OnlyRaises Q (throw e : Py σ A) := fun _ _ _ h' => by cases h'; exact h
theorem OnlyRaises.ofExcept {x : Except Err A} (h : OnlyErr Q x) : OnlyRaises Q (Py.ofExcept x : Py σ A) :=
  fun _ _ _ h' => by cases h'; exact h _ rfl

theorem OnlyRaises.bind {p : Py σ A} {f : A → Py σ B} (hp : OnlyRaises Q p) (hf : ∀ a, OnlyRaises Q (f a)) :
    OnlyRaises Q (p >>= f) := by
  intro s e s' h
  rw [run_bind, andThen_eq_error] at h
  rcases h with h | ⟨a, s1, -, h⟩
  · exact hp _ _ _ h
  · exact hf a _ _ _ h

theorem OnlyRaises.ite {c : Prop} [Decidable c] {p q : Py σ A} (hp : c → OnlyRaises Q p) (hq : ¬ c → OnlyRaises Q q) :
    OnlyRaises Q (if c then p else q) := by
  split
  · exact hp ‹_›
  · exact hq ‹_›

theorem OnlyRaises.zoom {g : σ → τ} {st : τ → σ → σ} {p : Py τ A} (h : OnlyRaises Q p) : OnlyRaises Q (Py.zoom g st p) := by
  intro s e s' hr
  rw [run_zoom] at hr
  split at hr
  · cases hr
  · rename_i r t hp
    simp only [Option.some.injEq, Prod.mk.injEq] at hr
    rw [hr.1] at hp
    exact h _ _ _ hp

theorem admissible_only : Lean.Order.admissible (fun x : Py σ A => OnlyRaises Q x) := by
  have := admissible_post (σ := σ) (A := A) fun _ r _ => ∀ e, r = .error e → Q e
  refine cast ?_ this
  congr 1
  funext x
  refine propext ⟨fun h s e s' hr => h s _ s' hr e rfl, fun h s r s' hr e he => ?_⟩
  subst he
  exact h _ _ _ hr

end py

section field
variable {α : Type} [Field α] [LinearOrder α] [IsStrictOrderedRing α] [BEq α] [LawfulBEq α]
variable {n k : Nat} {X : Type}
variable {Q : Err → Prop} {rhs : Rhs α n}

theorem only_rhs (hQ : ∀ e, FunctionRaises rhs e → Q e) (t : α) (y : Vec α n) : OnlyErr Q (rhs t y) :=
  fun e h => hQ e ⟨t, y, h⟩

theorem only_stageLoop (hQ : ∀ e, FunctionRaises rhs e → Q e) {s m : Nat} (hm : s + 1 ≤ m) (T : Tableau α s) (t h : α)
    (y : Vec α n) (l : List (Fin (s + 1))) : OnlyRaises Q (stageLoop hm T rhs t h y l) := by
  induction l with
  | nil => exact .pure _
  | cons i l ih => exact .bind .get fun _ => .bind (.ofExcept (only_rhs hQ _ _)) fun _ => .bind (.modify _) fun _ => ih

theorem only_stages (hQ : ∀ e, FunctionRaises rhs e → Q e) {s m : Nat} (hm : s + 1 ≤ m) (T : Tableau α s) (t h : α)
    (y f : Vec α n) : OnlyRaises Q (stages hm T rhs t h y f) :=
  .bind (.modify _) fun _ => only_stageLoop hQ hm T t h y _

theorem only_erk (hQ : ∀ e, FunctionRaises rhs e → Q e) {s : Nat} (T : Tableau α s) : OnlyRaises Q (erkBody T rhs) :=
  .bind (.bind .get fun _ => .bind (.zoom (only_stages hQ _ _ _ _ _ _)) fun _ => .bind .get fun _ => .pure _) fun _ =>
    .bind (.ofExcept (only_rhs hQ _ _)) fun _ => .modify _

theorem only_explicit (hQ : ∀ e, FunctionRaises rhs e → Q e) {p : Nat} (c : MultistepCoef α p) :
    OnlyRaises Q (explicitMultistepBody c rhs) :=
  .bind .get fun _ => .bind (.ofExcept (only_rhs hQ _ _)) fun _ => .modify _

theorem only_pyDiv {a b : α} (h : b ≠ 0) : OnlyErr Q (pyDiv a b) := by
  unfold pyDiv
  exact .ite (fun hb => absurd (eq_of_beq hb) h) fun _ => .ok _

theorem only_secantLoop {fn : α → Except Err α} (hfn : ∀ x, OnlyErr Q (fn x)) (tol rtol : α) :
    ∀ (left itr : Nat) (p0 p1 q0 q1 : α) (p : Option α) (fc : Nat), (left = 0 → p ≠ none) →
      OnlyErr Q (secantLoop fn tol rtol left itr p0 p1 q0 q1 p fc) := by
  intro left
  induction left with
  | zero =>
    intro itr p0 p1 q0 q1 p fc hp
    cases p with
    | none => exact absurd rfl (hp rfl)
    | some p => exact .ok _
  | succ left ih =>
    intro itr p0 p1 q0 q1 p fc _
    rw [secantLoop]
    have h2 : ((2 : Nat) : α) ≠ 0 := by norm_num
    refine .ite (fun _ => .bind (only_pyDiv h2) fun _ _ => .pure _) fun hq => ?_
    have hq : q1 ≠ q0 := fun h => hq (by rw [h]; exact beq_self_eq_true _)
    extract_lets jp
    have hjp : ∀ p, OnlyErr Q (jp p) := fun p => .ite (fun _ => .pure _) fun _ =>
      .bind (hfn _) fun q _ => ih _ _ _ _ _ _ _ fun _ => by simp
    refine .ite (fun hlt => ?_) fun hlt => ?_
    · have h1 : q1 ≠ 0 := by
        rintro rfl
        rw [pyAbs_eq, pyAbs_eq, abs_zero] at hlt
        exact absurd (abs_nonneg q0) (not_le.mpr hlt)
      refine .bind (only_pyDiv h1) fun r hr => .bind (only_pyDiv h1) fun r' hr' => .bind (only_pyDiv ?_) fun p _ => hjp p
      rw [pyDiv_ne h1] at hr'
      rw [← Except.ok.inj hr']
      intro h
      exact hq (by field_simp at h; linarith)
    · have h1 : q0 ≠ 0 := by
        rintro rfl
        rw [pyAbs_eq, pyAbs_eq, abs_zero, not_lt, abs_nonpos_iff] at hlt
        exact hq hlt
      refine .bind (only_pyDiv h1) fun r hr => .bind (only_pyDiv h1) fun r' hr' => .bind (only_pyDiv ?_) fun p _ => hjp p
      rw [pyDiv_ne h1] at hr'
      rw [← Except.ok.inj hr']
      intro h
      exact hq (by field_simp at h; linarith)

theorem only_jNewton (hR : Q .runtimeError) {fn : α → Except Err α} (hfn : ∀ x, OnlyErr Q (fn x)) (eps x0 tol rtol : α)
    (m : Nat) : OnlyErr Q (jNewton eps fn x0 none tol (m + 1) none none rtol) := by
  unfold jNewton newtonImpl
  refine .bind (.bind (.pure _) fun p1 _ => .bind (hfn _) fun q0 _ => .bind (hfn _) fun q1 _ => .ite (fun _ => ?_) fun _ => ?_)
    fun r _ => .ite (fun _ => ?_) fun _ => .pure _
  · exact only_secantLoop hfn _ _ _ _ _ _ _ _ _ _ (by simp)
  · exact only_secantLoop hfn _ _ _ _ _ _ _ _ _ _ (by simp)
  · intro e h; cases h; exact hR

theorem only_foldlM {A B : Type} {f : B → A → Except Err B} (hf : ∀ b a, OnlyErr Q (f b a)) (l : List A) (b : B) :
    OnlyErr Q (l.foldlM f b) := by
  induction l generalizing b with
  | nil => exact .pure _
  | cons a l ih => rw [List.foldlM_cons]; exact .bind (hf _ _) fun _ _ => ih _

theorem only_newtonHdLoop {lib : Lib α} {fn : Vec α n → Except Err (Vec α n)} (hfn : ∀ x, OnlyErr Q (fn x))
    (hs : ∀ (A : Fin n → Fin n → α) (b : Vec α n), OnlyErr Q (lib.solve A b)) (eps atol rtol : α) (left : Nat) :
    ∀ y value, OnlyErr Q (newtonHdLoop lib eps fn atol rtol left y value) := by
  have hJ : ∀ y, OnlyErr Q (jacobian eps fn y) := fun y =>
    only_foldlM (fun _ _ => .bind (hfn _) fun _ _ => .bind (hfn _) fun _ _ => .pure _) _ _
  induction left with
  | zero =>
    intro y value
    rw [newtonHdLoop]
    exact .ite (fun _ => .ok _) fun _ => .bind (hJ _) fun _ _ => .bind (hs _ _) fun _ _ => .bind (hfn _) fun _ _ => .pure _
  | succ left ih =>
    intro y value
    rw [newtonHdLoop]
    exact .ite (fun _ => .ok _) fun _ => .bind (hJ _) fun _ _ => .bind (hs _ _) fun _ _ => .bind (hfn _) fun _ _ => ih _ _

theorem only_newtonHd (hR : Q .runtimeError) {lib : Lib α} {fn : Vec α n → Except Err (Vec α n)} (hfn : ∀ x, OnlyErr Q (fn x))
    (hs : ∀ (A : Fin n → Fin n → α) (b : Vec α n), OnlyErr Q (lib.solve A b)) (eps atol rtol : α) (m : Nat) (y : Vec α n) :
    OnlyErr Q (newtonHd lib eps fn y atol rtol m) := by
  unfold newtonHd newtonHdImpl
  refine .bind (.bind (hfn _) fun _ _ => only_newtonHdLoop hfn hs _ _ _ _ _ _) fun r _ => .ite (fun _ => ?_) fun _ => .pure _
  intro e h; cases h; exact hR

theorem only_implicit (hQ : ∀ e, FunctionRaises rhs e → Q e) (hR : Q .runtimeError) {lib : Lib α}
    (hs : ∀ (m : Nat) (A : Fin m → Fin m → α) (b : Vec α m), OnlyErr Q (lib.solve A b)) (zo : ZeroOpts α) {p : Nat}
    (c : MultistepCoef α p) : OnlyRaises Q (implicitMultistepBody lib zo c rhs) := by
  have hroot : ∀ t hB K y, OnlyErr Q (implicitRoot rhs t hB K y) := fun t hB K y =>
    .bind (only_rhs hQ _ _) fun _ _ => .pure _
  refine .bind .get fun _ => .bind (.ofExcept ?_) fun _ => .bind (.ofExcept (only_rhs hQ _ _)) fun _ => .modify _
  unfold implicitSolve
  split
  · exact .bind (only_jNewton hR (fun x => .bind (hroot _ _ _ _) fun _ _ => .pure _) _ _ _ _ 49) fun _ _ => .pure _
  · exact only_newtonHd hR (hroot _ _ _) (hs n) _ _ _ _ _

theorem only_fsalFixedStep (hQ : ∀ e, FunctionRaises rhs e → Q e) {s : Nat} {I : Type} (T : Tableau α s) :
    OnlyRaises Q (fsalFixedStep (I := I) T rhs) :=
  .bind .get fun _ => .bind (.zoom (only_stages hQ _ _ _ _ _ _)) fun _ => .bind .get fun _ =>
    .bind (.ofExcept (only_rhs hQ _ _)) fun _ => .bind (.modify _) fun _ => .pure _

theorem only_fsalBody (hQ : ∀ e, FunctionRaises rhs e → Q e) {s : Nat} {I : Type} (lib : Lib α) (o : VarOptions α) (ex : α)
    (T : Tableau α s) (norm : ErrNorm α n s) (hn : ∀ h K y y', OnlyErr Q (norm h K y y'))
    (hu : ∀ h K y y' en, norm h K y y' = .ok en → OnlyErr Q (stepUpdate lib o ex en h)) :
    OnlyRaises Q (fsalBody (I := I) lib o ex T norm rhs) := by
  refine fsalBody.fixpoint_induct lib o ex T norm rhs (fun x => OnlyRaises Q x) admissible_only ?_
  intro loop ih
  refine .bind (only_fsalFixedStep hQ T) fun ty => ?_
  intro st e s' h
  simp only [run_bind, run_get, andThen_ok, run_ofExcept] at h
  cases hN : norm st.h st.aux.K ty.2 st.cache.y with
  | error e1 => rw [hN] at h; simp at h; rw [← h.1]; exact hn _ _ _ _ _ hN
  | ok en =>
    rw [hN] at h
    simp only [andThen_ok] at h
    cases hU : stepUpdate lib o ex en st.h with
    | error e1 => rw [hU] at h; simp at h; rw [← h.1]; exact hu _ _ _ _ _ hN _ hU
    | ok r =>
      rw [hU] at h
      simp only [andThen_ok, run_modify, run_ite] at h
      split at h
      · cases h
      · exact ih _ _ _ h

/-- The exceptions of a step: those of the right-hand side and those of the method. -/
theorem only_body {M : Method α n k X} {own : Err → Prop} (hM : Faults M own) :
    OnlyRaises (fun e => FunctionRaises rhs e ∨ own e) (M.body rhs) := by
  have hQ : ∀ e, FunctionRaises rhs e → FunctionRaises rhs e ∨ own e := fun _ => Or.inl
  cases hM with
  | explicitMultistep c => exact only_explicit hQ c
  | erk T => exact only_erk hQ T
  | fsal lib o c hp hs =>
    refine only_fsalBody hQ lib o _ _ _ (fun _ _ _ _ => .ok _) fun h K y y' en he => ?_
    have h0 : 0 ≤ en := by
      simp only [fsalErrNorm, Except.ok.injEq] at he
      rw [← he]
      exact hs.nonneg _
    unfold stepUpdate
    refine .ite (fun _ => .ok _) fun hne => .bind (only_pyDiv ?_) fun _ _ => .pure _
    exact (hp.pos _ _ (lt_of_le_of_ne h0 fun h => hne (by rw [← h]; exact beq_self_eq_true _))).ne'
  | implicitMultistep lib zo c =>
    exact only_implicit hQ (Or.inr (Or.inl rfl)) (fun m A b e h => Or.inr (Or.inr ⟨m, A, b, h⟩)) zo c
  | dop853 lib o c =>
    have hdiv : ∀ a b : α, OnlyErr (fun e => FunctionRaises rhs e ∨ e = .zeroDivisionError) (pyDiv a b) := by
      intro a b e h
      unfold pyDiv at h
      split at h
      · cases h; exact Or.inr rfl
      · cases h
    refine only_fsalBody hQ lib o _ _ _ (fun _ _ _ _ => ?_) fun h K y y' en he => ?_
    · exact .bind (hdiv _ _) fun _ _ => hdiv _ _
    · unfold stepUpdate
      exact .ite (fun _ => .ok _) fun _ => .bind (hdiv _ _) fun _ _ => .pure _

/-- Inside the recorded history the dense output raises only what the right-hand side raises. -/
theorem interp_only {S : Solver α n k X} (hM : IsLibrary S.method) {t : α} {s s' : St α n k X} {e : Err}
    (h1 : s.cache.ts (Buffer.iOld k) ≤ t) (h2 : t ≤ s.t) (h : (S.interpAt t).run s = some (.error e, s')) :
    FunctionRaises S.rhs e := by
  have hermite : ∀ s', (hermiteInterp t : Py (St α n k X) _).run s ≠ some (.error e, s') := by
    intro s' h
    rw [hermiteInterp_run] at h
    split at h
    · cases h
    · rename_i hne
      simp only [beq_iff_eq] at hne
      have hlt := lt_of_le_of_ne h1 (Ne.symm hne)
      have hd : s.cache.t - s.cache.ts (Buffer.iOld k) ≠ 0 := (sub_pos.mpr (lt_of_lt_of_le hlt h2)).ne'
      rw [pyDiv_ne hd] at h
      cases h
  obtain ⟨M, rhs, b⟩ := S
  rcases hM with hM | ⟨lib, o, ex, hM⟩
  · cases hM with
    | explicitMultistep c => exact absurd h (hermite _)
    | implicitMultistep lib zo c => exact absurd h (hermite _)
    | erk T => exact absurd h (hermite _)
  · cases hM with
    | fsal c =>
      change (rkInterp c.P t).run s = _ at h
      rw [rkInterp_run] at h
      split at h
      · cases h
      · split at h
        · cases h
        · rename_i hne' hne
          simp only [beq_iff_eq] at hne
          have hlt := lt_of_le_of_ne h1 (Ne.symm hne)
          have hd : s.cache.ts (Buffer.iLast 0) - s.cache.ts (Buffer.iPrev 0) ≠ 0 :=
            (sub_pos.mpr (lt_of_lt_of_le hlt h2)).ne'
          simp only [pyDiv_ne hd] at h
          cases h
    | dop853 c =>
      change (dopInterp c.toDopDense rhs t).run s = _ at h
      rw [dopInterp_run] at h
      split at h
      · cases h
      · split at h
        · cases h
        · rename_i hne' hne
          simp only [beq_iff_eq] at hne
          have hlt := lt_of_le_of_ne h1 (Ne.symm hne)
          have hQ : ∀ e, FunctionRaises rhs e → FunctionRaises rhs e := fun _ h => h
          have hup : OnlyRaises (FunctionRaises rhs) (dopUpdate c.toDopDense rhs) := by
            refine .bind (.modify _) fun _ => .bind .get fun st => .bind (.zoom ?_) fun _ => .modify _
            have : ∀ l, OnlyRaises (FunctionRaises rhs) (dopExtra c.toDopDense rhs (st.cache.ts (Buffer.iPrev 0))
                (st.cache.ts (Buffer.iLast 0) - st.cache.ts (Buffer.iPrev 0)) (st.cache.ys (Buffer.iPrev 0)) l) := by
              intro l
              induction l with
              | nil => exact .pure _
              | cons i l ih =>
                exact .bind .get fun _ => .bind (.ofExcept (only_rhs hQ _ _)) fun _ => .bind (.modify _) fun _ => ih
            exact this _
          have hd : s.cache.ts (Buffer.iLast 0) - s.cache.ts (Buffer.iPrev 0) ≠ 0 :=
            (sub_pos.mpr (lt_of_lt_of_le hlt h2)).ne'
          rw [andThen_eq_error] at h
          rcases h with h | ⟨u, s1, h3, h⟩
          · split at h
            · cases h
            · exact hup _ _ _ h
          · have e1 : s1.cache = s.cache := by
              split at h3
              · cases h3; rfl
              · rcases dopUpdate_run c.toDopDense rhs s with ⟨Kx, -, hu⟩ | ⟨-, e, Kx, hu⟩
                · rw [hu] at h3; cases h3; rfl
                · rw [hu] at h3; cases h3
            rw [e1, pyDiv_ne hd] at h
            cases h

end field

end Nbkode
