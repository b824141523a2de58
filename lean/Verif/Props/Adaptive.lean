import Verif.Proofs.Trail
import Verif.Proofs.Construct
import Verif.Props.Orders
import Verif.Props.History
import Verif.Props.RealLib

/-!
# Variable-step solvers: C36, C37, C38, C39
-/

set_option autoImplicit false
set_option linter.unusedSectionVars false

namespace Nbkode
open Py Spec Solver

variable {α : Type} [Field α] [LinearOrder α] [IsStrictOrderedRing α] [BEq α] [LawfulBEq α]
variable {n s : Nat} {I : Type}

/-! ## C36 -/

theorem scaledErrorNorm_eq (lib : Lib α) (o : VarOptions α) (y yNew err : Vec α n) :
    scaledErrorNorm lib yNew y err o = rmsError lib o y yNew err := by
  unfold scaledErrorNorm rmsError
  simp only [foldl_eq_sum, pyMax_eq, pyAbs_eq, zero_add]
  congr 2
  exact Finset.sum_congr rfl fun i _ => by ring

theorem stepError_eq {m : Nat} (h : α) (K : Fin m → Vec α n) (E : Fin m → α) :
    stepError h K E = fun d => h * ∑ j, E j * K j d := by
  funext d
  simp only [stepError, scale, vdot_apply]

/-- The error norm of RungeKutta23/45: the root mean square of `h * sum_j E_j k_j` relative to the
tolerance. -/
def rkNorm (lib : Lib α) (o : VarOptions α) (E : Fin (s + 2) → α) : ErrNorm α n s :=
  fun h K yNew y => .ok (rmsError lib o y yNew fun d => h * ∑ j, E j * K j d)

theorem trail_records {P : List (Tried α) → α → (Fin (s + 2) → Vec α n) → Prop} {T : Tableau α s}
    {st st' : St α n 0 (FsalAux α n s I)} :
    (∃ l last h' K, P l h' K ∧ l.getLast? = some last ∧
        st' = ⟨st.cache.push (st.t + last.size) (proposal T last.size st.y K)
          (K (Fin.last _)), h', { st.aux with K := K }⟩) ↔
      ∃ l last, P l st'.h st'.aux.K ∧ l.getLast? = some last ∧
        Records st.cache st'.cache (st.t + last.size) (proposal T last.size st.y st'.aux.K)
          (st'.aux.K (Fin.last _)) ∧ st'.aux.itp = st.aux.itp := by
  constructor
  · rintro ⟨l, last, h', K, h1, h2, rfl⟩
    exact ⟨l, last, h1, h2, records_iff.mpr rfl, rfl⟩
  · rintro ⟨l, last, h1, h2, h3, h4⟩
    refine ⟨l, last, _, _, h1, h2, state_records_iff.mpr ⟨h3, rfl, ?_⟩⟩
    dsimp only; rw [← h4]

/-- The whole step of RungeKutta23/45-like solvers, in terms of the model's buffer (`C36_fsal_iff` states it without). -/
theorem fsal_takes_iff {d : Nat} (lib : Lib α) (o : VarOptions α) (c : FsalCoef α s d)
    (hT : Explicit c.toTableau) (rhs : Rhs α n) (b : Bound α)
    (st st' : St α n 0 (FsalAux α n s (RkItp α n d))) (hf : rhs st.t st.y = .ok st.f) :
    Takes ⟨fsal lib o c, rhs, b⟩ st st' ↔
      ∃ l last h' K, Trail lib o c.errorExponent c.toTableau (rkNorm lib o c.E) rhs
          st.t st.y st.h l h' K ∧ l.getLast? = some last ∧
        st' = ⟨st.cache.push (st.t + last.size) (proposal c.toTableau last.size st.y K)
          (K (Fin.last _)), h', { st.aux with K := K }⟩ := by
  have e : (fsalErrNorm lib o c.E : ErrNorm α n s) = rkNorm lib o c.E := by
    funext h K y yPrev
    simp only [fsalErrNorm, rkNorm, scaledErrorNorm_eq, stepError_eq]
  have := fsalBody_iff (I := RkItp α n d) lib o c.errorExponent c.toTableau hT
    (fsalErrNorm lib o c.E) rhs st st' hf
  rw [e] at this
  unfold Takes
  show (fsalBody lib o c.errorExponent c.toTableau (fsalErrNorm lib o c.E) rhs).run st = _ ↔ _
  rw [e]
  exact this

/-- **C36**, the whole step of RungeKutta23/45-like solvers. A step succeeds exactly when the textbook
procedure (`Trail`) ends: sizes are tried, starting with the current step size, until the error norm of an attempt
is below 1 or zero; the point recorded is the one proposed by that last attempt, at the previous time plus the
last size, with the derivative there; the stages kept are those of the last attempt. -/
theorem C36_fsal_iff {d : Nat} (lib : Lib α) (o : VarOptions α) (c : FsalCoef α s d)
    (hT : Explicit c.toTableau) (rhs : Rhs α n) (b : Bound α)
    (st st' : St α n 0 (FsalAux α n s (RkItp α n d))) (hf : rhs st.t st.y = .ok st.f) :
    Takes ⟨fsal lib o c, rhs, b⟩ st st' ↔
      ∃ l last, Trail lib o c.errorExponent c.toTableau (rkNorm lib o c.E) rhs
          st.t st.y st.h l st'.h st'.aux.K ∧ l.getLast? = some last ∧
        Records st.cache st'.cache (st.t + last.size) (proposal c.toTableau last.size st.y st'.aux.K)
          (st'.aux.K (Fin.last _)) ∧ st'.aux.itp = st.aux.itp := by
  rw [fsal_takes_iff lib o c hT rhs b st st' hf]
  exact trail_records

/-- The error norm of DOP853 from the two estimates `e5`, `e3`:
`e5 / sqrt(1 + (e3 / (10 e5))^2)`, a `ZeroDivisionError` when a divisor is zero. -/
def dopNorm (lib : Lib α) (o : VarOptions α) (E3 E5 : Fin (s + 2) → α) : ErrNorm α n s :=
  fun h K yNew y =>
    let e5 := rmsError lib o y yNew fun d => h * ∑ j, E5 j * K j d
    let e3 := rmsError lib o y yNew fun d => h * ∑ j, E3 j * K j d
    let root := lib.sqrt (1 + (e3 / (10 * e5)) ^ 2)
    if e5 = 0 ∨ root = 0 then .error .zeroDivisionError else .ok (e5 / root)

theorem dopErrNorm_eq (lib : Lib α) (o : VarOptions α) (E3 E5 : Fin (s + 2) → α) :
    (dopErrNorm lib o E3 E5 : ErrNorm α n s) = dopNorm lib o E3 E5 := by
  funext h K yNew y
  simp only [dopErrNorm, dopNorm, scaledErrorNorm_eq, stepError_eq]
  generalize rmsError lib o y yNew (fun d => h * ∑ j, E5 j * K j d) = e5
  generalize rmsError lib o y yNew (fun d => h * ∑ j, E3 j * K j d) = e3
  unfold pyDiv
  have h10 : (((10 : Nat) : α) * e5 == 0) = decide (e5 = 0) := by
    rw [Bool.eq_iff_iff]
    simp
  rw [h10]
  by_cases h5 : e5 = 0
  · simp [h5, bind, Except.bind]
  · simp only [h5, decide_false, Bool.false_eq_true, if_false, bind, Except.bind, false_or, beq_iff_eq,
      Nat.cast_ofNat]
    rw [pow_two]

/-- The whole step of DOP853, in terms of the model's buffer (`C36_dop853_iff` states it without). -/
theorem dop853_takes_iff (lib : Lib α) (o : VarOptions α) (c : DopCoef α) (hT : Explicit c.toTableau)
    (rhs : Rhs α n) (b : Bound α) (st st' : St α n 0 (FsalAux α n 11 (DopItp α n)))
    (hf : rhs st.t st.y = .ok st.f) :
    Takes ⟨dop853 lib o c, rhs, b⟩ st st' ↔
      ∃ l last h' K, Trail lib o c.errorExponent c.toTableau (dopNorm lib o c.E3 c.E5) rhs
          st.t st.y st.h l h' K ∧ l.getLast? = some last ∧
        st' = ⟨st.cache.push (st.t + last.size) (proposal c.toTableau last.size st.y K)
          (K (Fin.last _)), h', { st.aux with K := K }⟩ := by
  have := fsalBody_iff (I := DopItp α n) lib o c.errorExponent c.toTableau hT
    (dopErrNorm lib o c.E3 c.E5) rhs st st' hf
  rw [dopErrNorm_eq] at this
  unfold Takes
  show (fsalBody lib o c.errorExponent c.toTableau (dopErrNorm lib o c.E3 c.E5) rhs).run st = _ ↔ _
  rw [dopErrNorm_eq]
  exact this

/-- **C36**, DOP853: the same with its error norm. -/
theorem C36_dop853_iff (lib : Lib α) (o : VarOptions α) (c : DopCoef α) (hT : Explicit c.toTableau)
    (rhs : Rhs α n) (b : Bound α) (st st' : St α n 0 (FsalAux α n 11 (DopItp α n)))
    (hf : rhs st.t st.y = .ok st.f) :
    Takes ⟨dop853 lib o c, rhs, b⟩ st st' ↔
      ∃ l last, Trail lib o c.errorExponent c.toTableau (dopNorm lib o c.E3 c.E5) rhs
          st.t st.y st.h l st'.h st'.aux.K ∧ l.getLast? = some last ∧
        Records st.cache st'.cache (st.t + last.size) (proposal c.toTableau last.size st.y st'.aux.K)
          (st'.aux.K (Fin.last _)) ∧ st'.aux.itp = st.aux.itp := by
  rw [dop853_takes_iff lib o c hT rhs b st st' hf]
  exact trail_records

theorem trail_last {lib : Lib α} {o : VarOptions α} {ex : α} {T : Tableau α s} {norm : ErrNorm α n s}
    {rhs : Rhs α n} {t : α} {y : Vec α n} {h h' : α} {l : List (Tried α)}
    {K : Fin (s + 2) → Vec α n} (ht : Trail lib o ex T norm rhs t y h l h' K) :
    ∃ last, l.getLast? = some last ∧ RKStages (withLast T) rhs t last.size y K ∧
      norm last.size K (proposal T last.size y K) y = .ok last.norm ∧
      (last.norm = 0 ∨ last.norm < 1) := by
  induction ht with
  | @accept h en q K hK hn ha hq => exact ⟨⟨h, en⟩, rfl, hK, hn, ha⟩
  | @reject h en q h' K K' l hK hn ha hq hT ih =>
    obtain ⟨last, h1, h2⟩ := ih
    refine ⟨last, ?_, h2⟩
    cases l with
    | nil => simp at h1
    | cons a l => simpa using h1

/-- **C36.** Whatever the number of rejected attempts, the point a RungeKutta23/45 step records is a Runge-Kutta
step of some size `h0` whose estimated error, relative to the tolerance, is below 1 or exactly 0. -/
theorem C36_accepted {d : Nat} (lib : Lib α) (o : VarOptions α) (c : FsalCoef α s d)
    (hT : Explicit c.toTableau) (rhs : Rhs α n) (b : Bound α)
    (st st' : St α n 0 (FsalAux α n s (RkItp α n d))) (hf : rhs st.t st.y = .ok st.f)
    (h : Takes ⟨fsal lib o c, rhs, b⟩ st st') :
    ∃ h0 K, RKStages (withLast c.toTableau) rhs st.t h0 st.y K ∧
      (rmsError lib o st.y st'.y (fun d => h0 * ∑ j, c.E j * K j d) = 0 ∨
        rmsError lib o st.y st'.y (fun d => h0 * ∑ j, c.E j * K j d) < 1) ∧
      st'.t = st.t + h0 ∧ st'.y = proposal c.toTableau h0 st.y K ∧ st'.f = K (Fin.last _) ∧
      st'.aux.K = K := by
  obtain ⟨l, last, h', K, hTr, hl, rfl⟩ := (fsal_takes_iff lib o c hT rhs b st st' hf).mp h
  obtain ⟨last', hl', hK, hn, ha⟩ := trail_last hTr
  rw [hl] at hl'
  cases hl'
  refine ⟨last.size, K, hK, ?_, ?_, ?_, ?_, rfl⟩
  · have e := Except.ok.inj hn
    simp only [St.y, push_y]
    rw [← e] at ha
    exact ha
  all_goals simp only [St.y, St.t, St.f, push_y, push_t, push_f]

/-- **C36**, DOP853. -/
theorem C36_accepted_dop853 (lib : Lib α) (o : VarOptions α) (c : DopCoef α)
    (hT : Explicit c.toTableau) (rhs : Rhs α n) (b : Bound α)
    (st st' : St α n 0 (FsalAux α n 11 (DopItp α n))) (hf : rhs st.t st.y = .ok st.f)
    (h : Takes ⟨dop853 lib o c, rhs, b⟩ st st') :
    ∃ h0 K, RKStages (withLast c.toTableau) rhs st.t h0 st.y K ∧
      (let e5 := rmsError lib o st.y st'.y fun d => h0 * ∑ j, c.E5 j * K j d
       let e3 := rmsError lib o st.y st'.y fun d => h0 * ∑ j, c.E3 j * K j d
       let en := e5 / lib.sqrt (1 + (e3 / (10 * e5)) ^ 2)
       e5 ≠ 0 ∧ (en = 0 ∨ en < 1)) ∧
      st'.t = st.t + h0 ∧ st'.y = proposal c.toTableau h0 st.y K ∧ st'.f = K (Fin.last _) ∧
      st'.aux.K = K := by
  obtain ⟨l, last, h', K, hTr, hl, rfl⟩ := (dop853_takes_iff lib o c hT rhs b st st' hf).mp h
  obtain ⟨last', hl', hK, hn, ha⟩ := trail_last hTr
  rw [hl] at hl'
  cases hl'
  refine ⟨last.size, K, hK, ?_, ?_, ?_, ?_, rfl⟩
  · simp only [St.y, push_y]
    unfold dopNorm at hn
    simp only [] at hn
    split at hn
    · simp at hn
    · rename_i h5
      have e := Except.ok.inj hn
      rw [← e] at ha
      exact ⟨fun h => h5 (Or.inl h), ha⟩
  all_goals simp only [St.y, St.t, St.f, push_y, push_t, push_f]

/-! ## C37 -/

theorem stepFactor_bounds {lib : Lib α} {o : VarOptions α} (hm : o.minFactor ≤ o.maxFactor)
    {ex en q : α} (h : StepFactor lib o ex en q) : o.minFactor ≤ q ∧ q ≤ o.maxFactor := by
  rcases h with ⟨_, rfl⟩ | ⟨_, _, rfl⟩
  · exact ⟨hm, le_refl _⟩
  · exact ⟨le_min hm (le_max_left _ _), min_le_left _ _⟩

/-- **C37**, factors: every attempted size, and the size left for the next step, is the previous size times a
factor between `min_factor` and `max_factor`. The first attempt uses the current step size. -/
theorem C37_factors (lib : Lib α) (o : VarOptions α) (hm : o.minFactor ≤ o.maxFactor) (ex : α)
    (T : Tableau α s) (norm : ErrNorm α n s) (rhs : Rhs α n) (t : α) (y : Vec α n) (h h' : α)
    (l : List (Tried α)) (K : Fin (s + 2) → Vec α n)
    (ht : Trail lib o ex T norm rhs t y h l h' K) :
    List.IsChain (fun a b => ∃ q, o.minFactor ≤ q ∧ q ≤ o.maxFactor ∧ b = a * q)
      (l.map Tried.size ++ [h']) ∧ (l.map Tried.size).head? = some h := by
  induction ht with
  | @accept h en q K hK hn ha hq =>
    obtain ⟨h1, h2⟩ := stepFactor_bounds hm hq
    simp only [List.map_cons, List.map_nil, List.cons_append, List.nil_append, List.isChain_pair,
      List.head?_cons, and_true]
    exact ⟨q, h1, h2, rfl⟩
  | @reject h en q h' K K' l hK hn ha hq hT ih =>
    obtain ⟨h1, h2⟩ := stepFactor_bounds hm hq
    obtain ⟨ih1, ih2⟩ := ih
    refine ⟨?_, rfl⟩
    cases l with
    | nil => simp at ih2
    | cons a l =>
      simp only [List.map_cons, List.head?_cons, Option.some.injEq] at ih2
      simp only [List.map_cons, List.cons_append, List.isChain_cons_cons]
      refine ⟨⟨q, h1, h2, ih2⟩, ?_⟩
      simpa using ih1

/-- **C37**, rejections: with `0 < min_factor <= 1` and `safety_factor <= 1`, each attempt is at most as long as the
one before, and positive. -/
theorem C37_rejections_shrink (lib : Lib α) (o : VarOptions α) (hl : PowLaw lib) (ho : SaneOptions o)
    (ex : α) (hex : 0 ≤ ex) (T : Tableau α s) (norm : ErrNorm α n s) (rhs : Rhs α n) (t : α)
    (y : Vec α n) (h h' : α) (hh : 0 < h) (l : List (Tried α)) (K : Fin (s + 2) → Vec α n)
    (ht : Trail lib o ex T norm rhs t y h l h' K) :
    List.IsChain (fun a b => b ≤ a) (l.map Tried.size) ∧ (∀ a ∈ l, 0 < a.size) ∧ 0 < h' := by
  have pos : ∀ {en q : α}, StepFactor lib o ex en q → 0 < q := by
    rintro en q (⟨_, rfl⟩ | ⟨_, _, rfl⟩)
    · exact ho.maxFactor_pos
    · exact lt_min ho.maxFactor_pos (lt_of_lt_of_le ho.minFactor_pos (le_max_left _ _))
  have head : ∀ {h l h' K}, Trail lib o ex T norm rhs t y h l h' K → ∃ en l', l = ⟨h, en⟩ :: l' := by
    intro h l h' K ht
    cases ht
    · exact ⟨_, _, rfl⟩
    · exact ⟨_, _, rfl⟩
  induction ht with
  | @accept h en q K hK hn ha hq =>
    refine ⟨by simp, ?_, mul_pos hh (pos hq)⟩
    simp [hh]
  | @reject h en q h' K K' l hK hn ha hq hT ih =>
    have hq0 := pos hq
    obtain ⟨ih1, ih2, ih3⟩ := ih (mul_pos hh hq0)
    refine ⟨?_, ?_, ih3⟩
    · obtain ⟨en', l', rfl⟩ := head hT
      simp only [List.map_cons, List.isChain_cons_cons]
      refine ⟨?_, by simpa using ih1⟩
      have : q ≤ 1 := by
        rcases hq with ⟨h0, _⟩ | ⟨_, _, rfl⟩
        · exact absurd h0 ha.1
        · refine (min_le_right _ _).trans (max_le ho.minFactor_le ?_)
          have := hl.one_le en ex ha.2 hex
          rw [div_le_one (lt_of_lt_of_le one_pos this)]
          exact ho.safety_le.trans this
      exact mul_le_of_le_one_right hh.le this
    · intro a ha
      rcases List.mem_cons.mp ha with rfl | ha
      · exact hh
      · exact ih2 a ha

theorem trail_sizes (lib : Lib α) (o : VarOptions α) (hl : PowLaw lib) (ho : SaneOptions o) (hm : o.minFactor ≤ o.maxFactor)
    (ex : α) (hex : 0 ≤ ex) (T : Tableau α s) (norm : ErrNorm α n s) (rhs : Rhs α n) (t : α)
    (y : Vec α n) (h h' : α) (hh : 0 < h) (l : List (Tried α)) (K : Fin (s + 2) → Vec α n) (last : Tried α)
    (ht : Trail lib o ex T norm rhs t y h l h' K) (hlast : l.getLast? = some last) :
    0 < last.size ∧ last.size ≤ h ∧ ∃ q, o.minFactor ≤ q ∧ q ≤ o.maxFactor ∧ h' = last.size * q := by
  obtain ⟨-, hpos, -⟩ := C37_rejections_shrink lib o hl ho ex hex T norm rhs t y h h' hh l K ht
  refine ⟨hpos last (List.mem_of_getLast? hlast), ?_⟩
  clear hpos
  induction ht with
  | @accept h en q K hK hn ha hq =>
    obtain rfl : (⟨h, en⟩ : Tried α) = last := by simpa using hlast
    obtain ⟨h1, h2⟩ := stepFactor_bounds hm hq
    exact ⟨le_rfl, q, h1, h2, rfl⟩
  | @reject h en q h' K K' l hK hn ha hq hT ih =>
    have h0 := C37_rejections_shrink lib o hl ho ex hex T norm rhs t y h h' hh _ K' (.reject hK hn ha hq hT)
    cases hT with
    | accept _ _ _ _ =>
      simp only [List.map_cons, List.map_nil, List.isChain_cons_cons] at h0
      have hp := h0.2.1 _ (List.mem_cons_of_mem _ (List.mem_cons_self ..))
      obtain ⟨h1, h2⟩ := ih hp (by simpa using hlast)
      exact ⟨h1.trans h0.1.1, h2⟩
    | reject _ _ _ _ _ =>
      simp only [List.map_cons, List.isChain_cons_cons] at h0
      have hp := h0.2.1 _ (List.mem_cons_of_mem _ (List.mem_cons_self ..))
      obtain ⟨h1, h2⟩ := ih hp (by simpa using hlast)
      exact ⟨h1.trans h0.1.1, h2⟩

/-- **C37**, the step itself: a successful step of RungeKutta23 or RungeKutta45 moves the clock by a positive amount of at most the
step size it began with, and leaves that amount times a factor between `min_factor` and `max_factor` for the next step. -/
theorem C37_step {d : Nat} (lib : Lib α) (o : VarOptions α) (hl : PowLaw lib) (ho : SaneOptions o) (hm : o.minFactor ≤ o.maxFactor)
    (c : FsalCoef α s d) (hT : Explicit c.toTableau) (hex : 0 ≤ c.errorExponent) (rhs : Rhs α n) (b : Bound α)
    (st st' : St α n 0 (FsalAux α n s (RkItp α n d))) (hf : rhs st.t st.y = .ok st.f) (hh : 0 < st.h)
    (h : Takes ⟨fsal lib o c, rhs, b⟩ st st') :
    0 < st'.t - st.t ∧ st'.t - st.t ≤ st.h ∧ ∃ q, o.minFactor ≤ q ∧ q ≤ o.maxFactor ∧ st'.h = (st'.t - st.t) * q := by
  obtain ⟨l, last, h', K, hTr, hl1, rfl⟩ := (fsal_takes_iff lib o c hT rhs b st st' hf).mp h
  have := trail_sizes lib o hl ho hm _ hex _ _ _ _ _ _ _ hh _ _ _ hTr hl1
  simpa only [St.t, push_t, add_sub_cancel_left] using this

/-- **C37**, the step itself, for DOP853. -/
theorem C37_step_dop853 (lib : Lib α) (o : VarOptions α) (hl : PowLaw lib) (ho : SaneOptions o) (hm : o.minFactor ≤ o.maxFactor)
    (c : DopCoef α) (hT : Explicit c.toTableau) (hex : 0 ≤ c.errorExponent) (rhs : Rhs α n) (b : Bound α)
    (st st' : St α n 0 (FsalAux α n 11 (DopItp α n))) (hf : rhs st.t st.y = .ok st.f) (hh : 0 < st.h)
    (h : Takes ⟨dop853 lib o c, rhs, b⟩ st st') :
    0 < st'.t - st.t ∧ st'.t - st.t ≤ st.h ∧ ∃ q, o.minFactor ≤ q ∧ q ≤ o.maxFactor ∧ st'.h = (st'.t - st.t) * q := by
  obtain ⟨l, last, h', K, hTr, hl1, rfl⟩ := (dop853_takes_iff lib o c hT rhs b st st' hf).mp h
  have := trail_sizes lib o hl ho hm _ hex _ _ _ _ _ _ _ hh _ _ _ hTr hl1
  simpa only [St.t, push_t, add_sub_cancel_left] using this

theorem fsalBody_h_pos (lib : Lib α) (o : VarOptions α) (h1 : 0 < o.minFactor) (h2 : 0 < o.maxFactor)
    (ex : α) (T : Tableau α s) (errNorm : ErrNorm α n s) (rhs : Rhs α n) :
    ∀ (st : St α n 0 (FsalAux α n s I)) r s',
      (fsalBody lib o ex T errNorm rhs).run st = some (r, s') → 0 < st.h → 0 < s'.h := by
  have pos : ∀ {en h h' acc}, stepUpdate lib o ex en h = .ok (h', acc) → 0 < h → 0 < h' := by
    intro en h h' acc hu hh
    obtain ⟨q, hq, rfl, _⟩ := (stepUpdate_iff _ _ _ _ _ _ _).mp hu
    refine mul_pos hh ?_
    rcases hq with ⟨_, rfl⟩ | ⟨_, _, rfl⟩
    · exact h2
    · exact lt_min h2 (lt_of_lt_of_le h1 (le_max_left _ _))
  refine fsalBody_ind lib o ex T errNorm rhs (fun st r s' => 0 < st.h → 0 < s'.h) ?_ ?_ ?_ ?_
  · intro st e K' _ h; exact h
  · intro st y' K' e _ _ h; exact h
  · intro st y' K' en h' _ _ _ hu h; exact pos hu h
  · intro st y' K' en h' r s' _ _ _ hu ih h; exact ih (pos hu h)

/-- **C37**, histories: with positive factors the step size of a variable-step solver stays positive over any
session, including calls that raise. No assumption on `pow` or on the safety factor. -/
theorem C37_positive {k : Nat} {X : Type} (S : Solver α n k X) (lib : Lib α) (o : VarOptions α) (ex : α)
    (hM : IsVariable lib o ex S.method) (h1 : 0 < o.minFactor) (h2 : 0 < o.maxFactor)
    (bo : BisectOpts α) (argsort : List α → List Nat) (s s' : St α n k X) (hh : 0 < s.h)
    (h : Session S bo argsort s s') : 0 < s'.h := by
  refine session_invariant (fun x => 0 < x.h) ?_ h hh
  intro x x' hp hx
  cases hp with
  | @body r b hb hf h =>
    obtain ⟨M, rhs, tb⟩ := S
    cases hM with
    | fsal c => exact fsalBody_h_pos lib o h1 h2 _ _ _ _ _ _ _ h hx
    | dop853 c => exact fsalBody_h_pos lib o h1 h2 _ _ _ _ _ _ _ h hx
  | interp t h => rw [(hM.shaped.interp _ _ _ _ _ h).2]; exact hx

end Nbkode
