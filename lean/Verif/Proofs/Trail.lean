import Verif.Spec.Adaptive
import Verif.Spec.Stepping
import Verif.Props.RungeKutta

/-! The rejection loop against its textbook description. -/

set_option autoImplicit false
set_option linter.unusedSectionVars false

namespace Nbkode
open Py Spec Solver

variable {α : Type} [Field α] [LinearOrder α] [IsStrictOrderedRing α] [BEq α] [LawfulBEq α]
variable {n s : Nat} {I : Type}

theorem withLast_explicit {T : Tableau α s} (hT : Explicit T) : Explicit (withLast T) := by
  refine ⟨fun i j h => ?_, ?_⟩
  · unfold withLast
    simp only
    split
    · split
      · exact hT.upper _ _ h
      · rename_i h1 h2
        have : i.val ≤ j.val := h
        omega
    · rfl
  · have : (withLast T).C 0 = T.C 0 := by simp [withLast]
    rw [this, hT.first]

theorem withLast_stages (T : Tableau α s) (rhs : Rhs α n) (t h : α) (y : Vec α n)
    (K : Fin (s + 2) → Vec α n) :
    RKStages (withLast T) rhs t h y K ↔
      RKStages T rhs t h y (fun i => K i.castSucc) ∧
      rhs (t + h) (proposal T h y K) = .ok (K (Fin.last _)) := by
  have e : ∀ (i : Fin (s + 2)) d, ∑ j, (withLast T).A i j * K j d =
      ∑ j : Fin (s + 1), (withLast T).A i j.castSucc * K j.castSucc d := by
    intro i d
    rw [Fin.sum_univ_castSucc]
    simp [withLast]
  have e1 : ∀ i j : Fin (s + 1), (withLast T).A i.castSucc j.castSucc = T.A i j := by
    intro i j; simp [withLast]
  have e2 : ∀ j : Fin (s + 1), (withLast T).A (Fin.last _) j.castSucc = T.B j := by
    intro j; simp [withLast]
  have e3 : ∀ i : Fin (s + 1), (withLast T).C i.castSucc = T.C i := by intro i; simp [withLast]
  have e4 : (withLast T).C (Fin.last _) = 1 := by simp [withLast]
  unfold RKStages
  simp only [e]
  constructor
  · intro H
    refine ⟨fun i => ?_, ?_⟩
    · have := H i.castSucc
      simp only [e1, e3] at this
      exact this
    · have := H (Fin.last _)
      simp only [e2, e4, one_mul] at this
      exact this
  · rintro ⟨H1, H2⟩ i
    refine Fin.lastCases ?_ (fun i => ?_) i
    · simp only [e2, e4, one_mul]; exact H2
    · simp only [e1, e3]; exact H1 i

/-- What one attempt computes. -/
theorem fsalFixedStep_ok (T : Tableau α s) (hT : Explicit T) (rhs : Rhs α n)
    (st : St α n 0 (FsalAux α n s I)) (hf : rhs st.t st.y = .ok st.f) (ty : α × Vec α n)
    (st' : St α n 0 (FsalAux α n s I)) :
    (fsalFixedStep T rhs).run st = some (.ok ty, st') ↔
      ∃ K, RKStages (withLast T) rhs st.t st.h st.y K ∧
        ty = (st.t + st.h, proposal T st.h st.y K) ∧
        st' = { st with aux := { st.aux with K := K } } := by
  obtain ⟨r, K0, hK⟩ := stages_total (m := s + 2) (by omega) T rhs st.t st.h st.y st.f st.aux.K
  rw [fsalFixedStep_run T rhs st hK]
  constructor
  · intro h
    cases r with
    | error e => simp at h
    | ok u =>
      have hS := (stages_iff (by omega) T hT rhs _ _ _ _ hf _ _).mp hK
      simp only [rkNew_eq] at h
      split at h
      · simp at h
      · rename_i f' hf'
        cases h
        have e : ∀ i : Fin (s + 1),
            Function.update K0 (Fin.last (s + 1)) f' i.castSucc = K0 i.castSucc := fun i => by
          rw [Function.update_of_ne (Fin.castSucc_lt_last i).ne]
        refine ⟨Function.update K0 (Fin.last _) f', ?_, ?_, rfl⟩
        · rw [withLast_stages]
          simp only [proposal, e, Function.update_self]
          exact ⟨hS.1, hf'⟩
        · simp only [proposal, e]
  · rintro ⟨K, hS, rfl, rfl⟩
    rw [withLast_stages] at hS
    have h2 := (stages_iff (m := s + 2) (by omega) T hT rhs st.t st.h st.y st.f hf st.aux.K
      (Function.update K (Fin.last _) (st.aux.K (Fin.last _)))).mpr ⟨by
        have : (fun i : Fin (s + 1) => Function.update K (Fin.last (s + 1))
            (st.aux.K (Fin.last _)) (Fin.castLE (by omega) i)) = fun i => K i.castSucc := by
          funext i
          exact Function.update_of_ne (Fin.castSucc_lt_last i).ne _ _
        rw [this]; exact hS.1, by
        intro j hj
        have : j = Fin.last _ := Fin.ext (by have := j.isLt; simp; omega)
        subst this; simp⟩
    rw [hK] at h2
    cases h2
    have e : ∀ i : Fin (s + 1), Function.update K (Fin.last (s + 1))
        (st.aux.K (Fin.last _)) i.castSucc = K i.castSucc := fun i =>
      Function.update_of_ne (Fin.castSucc_lt_last i).ne _ _
    simp only [rkNew_eq, e]
    have h3 := hS.2
    unfold proposal at h3
    rw [h3]
    simp [proposal, Function.update_eq_self]

theorem stepUpdate_iff (lib : Lib α) (o : VarOptions α) (ex en h h' : α) (acc : Bool) :
    stepUpdate lib o ex en h = .ok (h', acc) ↔
      ∃ q, StepFactor lib o ex en q ∧ h' = h * q ∧ (acc = true ↔ (en = 0 ∨ en < 1)) := by
  unfold stepUpdate StepFactor
  by_cases h0 : en = 0
  · subst h0
    simp only [beq_self_eq_true, if_true, Except.ok.injEq, Prod.mk.injEq, ne_eq, not_true_eq_false,
      false_and, or_false, true_and, true_or, iff_true]
    constructor
    · rintro ⟨rfl, rfl⟩; exact ⟨_, rfl, rfl, rfl⟩
    · rintro ⟨q, rfl, rfl, rfl⟩; exact ⟨rfl, rfl⟩
  · have : (en == 0) = false := by simpa using h0
    rw [this]
    simp only [Bool.false_eq_true, if_false, pyMin_eq, pyMax_eq, h0, false_and, false_or, ne_eq,
      not_false_eq_true, true_and]
    unfold pyDiv
    by_cases hp : lib.pow en ex = 0
    · simp [hp, bind, Except.bind]
    · have h2 : (lib.pow en ex == 0) = false := by simpa using hp
      simp only [h2, Bool.false_eq_true, if_false, bind, Except.bind, pure, Except.pure,
        Except.ok.injEq, Prod.mk.injEq, hp, not_false_eq_true, true_and]
      constructor
      · rintro ⟨rfl, rfl⟩; exact ⟨_, rfl, rfl, by simp⟩
      · rintro ⟨q, rfl, rfl, h3⟩
        refine ⟨rfl, ?_⟩
        by_cases h4 : en < 1
        · rw [decide_eq_true h4, h3.mpr h4]
        · rw [decide_eq_false h4]
          cases acc with
          | false => rfl
          | true => exact absurd (h3.mp rfl) h4

/-- **The rejection loop is the textbook one.** -/
theorem fsalBody_iff (lib : Lib α) (o : VarOptions α) (ex : α) (T : Tableau α s) (hT : Explicit T)
    (norm : ErrNorm α n s) (rhs : Rhs α n) (st st' : St α n 0 (FsalAux α n s I))
    (hf : rhs st.t st.y = .ok st.f) :
    (fsalBody lib o ex T norm rhs).run st = some (.ok (), st') ↔
      ∃ l last h' K, Trail lib o ex T norm rhs st.t st.y st.h l h' K ∧ l.getLast? = some last ∧
        st' = ⟨st.cache.push (st.t + last.size) (proposal T last.size st.y K) (K (Fin.last _)), h',
          { st.aux with K := K }⟩ := by
  constructor
  · intro h
    have key := fsalBody_ind lib o ex T norm rhs (fun (st : St α n 0 (FsalAux α n s I)) r st' =>
      rhs st.t st.y = .ok st.f → r = .ok () →
      ∃ l last h' K, Trail lib o ex T norm rhs st.t st.y st.h l h' K ∧ l.getLast? = some last ∧
        st' = ⟨st.cache.push (st.t + last.size) (proposal T last.size st.y K) (K (Fin.last _)), h',
          { st.aux with K := K }⟩) ?_ ?_ ?_ ?_
    · exact key st _ st' h hf rfl
    · intro st e K' _ _ h; simp at h
    · intro st y' K' e _ _ _ h; simp at h
    · intro st y' K' en h' hstep hr hn hu hf _
      obtain ⟨K, hK, hty, hst⟩ := (fsalFixedStep_ok T hT rhs st hf _ _).mp hstep
      cases hty
      have : K' = K := congrArg (fun x : St α n 0 (FsalAux α n s I) => x.aux.K) hst
      subst this
      obtain ⟨q, hq, rfl, ha⟩ := (stepUpdate_iff _ _ _ _ _ _ _).mp hu
      exact ⟨[⟨st.h, en⟩], ⟨st.h, en⟩, st.h * q, K', Trail.accept hK hn (ha.mp rfl) hq, rfl, rfl⟩
    · intro st y' K' en h' r st' hstep _ hn hu ih hf hr
      obtain ⟨K, hK, hty, hst⟩ := (fsalFixedStep_ok T hT rhs st hf _ _).mp hstep
      cases hty
      have : K' = K := congrArg (fun x : St α n 0 (FsalAux α n s I) => x.aux.K) hst
      subst this
      obtain ⟨q, hq, rfl, ha⟩ := (stepUpdate_iff _ _ _ _ _ _ _).mp hu
      obtain ⟨l, last, h'', K'', h1, h2, rfl⟩ := ih hf hr
      have ha' : en ≠ 0 ∧ 1 ≤ en := by
        by_contra hc
        apply Bool.false_ne_true
        apply ha.mpr
        by_cases h0 : en = 0
        · exact Or.inl h0
        · right; by_contra h1; exact hc ⟨h0, not_lt.mp h1⟩
      refine ⟨⟨st.h, en⟩ :: l, last, h'', K'', Trail.reject hK hn ha' hq h1, ?_, rfl⟩
      cases l with
      | nil => simp at h2
      | cons a l => simpa using h2
  · rintro ⟨l, last, h', K, hT', hl, rfl⟩
    have key : ∀ h l h' K, Trail lib o ex T norm rhs st.t st.y h l h' K →
        ∀ st1 : St α n 0 (FsalAux α n s I), st1.cache = st.cache → st1.h = h →
        ∀ last, l.getLast? = some last →
        (fsalBody lib o ex T norm rhs).run st1 = some (.ok (),
          ⟨st1.cache.push (st.t + last.size) (proposal T last.size st.y K) (K (Fin.last _)), h',
          { st1.aux with K := K }⟩) := by
      intro h l h' K hTr
      induction hTr with
      | @accept h en q K hK hn ha hq =>
        intro st1 hc hh last hl
        simp only [List.getLast?_singleton, Option.some.injEq] at hl
        subst hl
        obtain ⟨c, h1, aux⟩ := st1
        cases hc; cases hh
        have hfix := (fsalFixedStep_ok T hT rhs (⟨st.cache, h1, aux⟩ : St α n 0 (FsalAux α n s I)) hf
          _ _).mpr ⟨K, hK, rfl, rfl⟩
        rw [fsalBody_run, hfix]
        simp only [andThen_ok]
        have : norm h1 K (proposal T h1 st.y K) (St.y ⟨st.cache, h1, { aux with K := K }⟩) = .ok en := hn
        rw [show (St.y ⟨st.cache, h1, aux⟩ : Vec α n) = st.y from rfl, this]
        have hu := (stepUpdate_iff lib o ex en h1 (h1 * q) true).mpr
          ⟨q, hq, rfl, ⟨fun _ => ha, fun _ => rfl⟩⟩
        simp only [hu, if_true]
        rfl
      | @reject h en q h' K K' l hK hn ha hq hTr ih =>
        intro st1 hc hh last hl
        obtain ⟨c, h1, aux⟩ := st1
        cases hc; cases hh
        have hl' : l.getLast? = some last := by
          cases hTr <;> simpa using hl
        have hfix := (fsalFixedStep_ok T hT rhs (⟨st.cache, h1, aux⟩ : St α n 0 (FsalAux α n s I)) hf
          _ _).mpr ⟨K, hK, rfl, rfl⟩
        rw [fsalBody_run, hfix]
        simp only [andThen_ok]
        have : norm h1 K (proposal T h1 st.y K) (St.y ⟨st.cache, h1, { aux with K := K }⟩) = .ok en := hn
        rw [show (St.y ⟨st.cache, h1, aux⟩ : Vec α n) = st.y from rfl, this]
        have hu := (stepUpdate_iff lib o ex en h1 (h1 * q) false).mpr
          ⟨q, hq, rfl, ⟨by simp, fun hx => absurd hx (by
            rintro (h | h)
            · exact ha.1 h
            · exact absurd ha.2 (not_le.mpr h))⟩⟩
        simp only [hu, Bool.false_eq_true, if_false]
        have := ih ⟨st.cache, h1 * q, { aux with K := K }⟩ rfl rfl last hl'
        simpa using this
    exact key _ _ _ _ hT' st rfl rfl last hl

end Nbkode
