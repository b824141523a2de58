import Verif.Spec.Domain
import Verif.Props.Uninitialised
import Verif.Proofs.Fits
import Verif.Proofs.DenseMethod
import Verif.Proofs.HaltingVar

/-! A step only looks at the right-hand side within the step, interpolation only within the last one. -/

set_option autoImplicit false
set_option linter.unusedSectionVars false

namespace Nbkode
open Py Spec Solver

section field
variable {α : Type} [Field α] [LinearOrder α] [IsStrictOrderedRing α] [BEq α] [LawfulBEq α]
variable {n k s : Nat} {X : Type}

/-- The right-hand sides are the same from `a` to `b`. -/
def SameOn (a b : α) (rhs rhs' : Rhs α n) : Prop := ∀ t y, a ≤ t → t ≤ b → rhs t y = rhs' t y

theorem SameOn.symm {a b : α} {rhs rhs' : Rhs α n} (h : SameOn a b rhs rhs') : SameOn a b rhs' rhs := fun t y h1 h2 => (h t y h1 h2).symm

theorem SameOn.mono {a b c d : α} {rhs rhs' : Rhs α n} (h : SameOn a b rhs rhs') (h1 : a ≤ c) (h2 : d ≤ b) : SameOn c d rhs rhs' :=
  fun t y g1 g2 => h t y (h1.trans g1) (g2.trans h2)

/-- A step and an interpolation of the method look at the right-hand side only where they should. -/
structure LocalMethod (M : Method α n k X) : Prop where
  body : ∀ rhs rhs' x, 0 < x.h → SameOn x.t (x.t + x.h) rhs rhs' → (M.body rhs).run x = (M.body rhs').run x
  interp : ∀ rhs rhs' x t, x.cache.ts (Buffer.iPrev k) ≤ x.t → SameOn (x.cache.ts (Buffer.iPrev k)) x.t rhs rhs' →
    (M.interp rhs t).run x = (M.interp rhs' t).run x

omit [LinearOrder α] [IsStrictOrderedRing α] [BEq α] [LawfulBEq α] in
theorem stageLoop_same {r : Nat} (hm : s + 1 ≤ r) (T : Tableau α s) {rhs rhs' : Rhs α n} {t h : α} (y : Vec α n)
    (hf : ∀ i y, rhs (t + h * T.C i) y = rhs' (t + h * T.C i) y) (l : List (Fin (s + 1))) :
    stageLoop hm T rhs t h y l = stageLoop hm T rhs' t h y l := by
  induction l with
  | nil => rfl
  | cons i l ih => simp only [stageLoop, ih, hf]

theorem within_stage {T : Tableau α s} (hT : Tableau.Within T) {t h : α} (hh : 0 < h) (i : Fin (s + 1)) : t ≤ t + h * T.C i ∧ t + h * T.C i ≤ t + h := by
  have := mul_nonneg hh.le (hT i).1
  have := mul_le_of_le_one_right hh.le (hT i).2
  constructor <;> linarith

theorem stages_same {r : Nat} (hm : s + 1 ≤ r) {T : Tableau α s} (hT : Tableau.Within T) {rhs rhs' : Rhs α n} {t h : α} (hh : 0 < h) (y f : Vec α n)
    (hf : SameOn t (t + h) rhs rhs') : stages hm T rhs t h y f = stages hm T rhs' t h y f := by
  unfold stages
  rw [stageLoop_same hm T y fun i y => hf _ y (within_stage hT hh i).1 (within_stage hT hh i).2]

theorem local_erk {T : Tableau α s} (hT : Tableau.Within T) : LocalMethod (erk T : Method α n 0 _) where
  body := by
    intro rhs rhs' x hh hf
    show (erkBody T rhs).run x = (erkBody T rhs').run x
    obtain ⟨r, K', hK⟩ := stages_total (m := s + 1) (le_refl _) T rhs x.t x.h x.y x.f x.aux
    have hK' := hK
    rw [stages_same (le_refl _) hT hh _ _ hf] at hK'
    rw [erkBody_run T rhs x hK, erkBody_run T rhs' x hK', hf _ _ (le_add_of_nonneg_right hh.le) (le_refl _)]
  interp := fun _ _ _ _ _ _ => rfl

theorem local_explicit {p : Nat} (c : MultistepCoef α p) : LocalMethod (explicitMultistep c : Method α n _ _) where
  body := by
    intro rhs rhs' x hh hf
    show (explicitMultistepBody c rhs).run x = (explicitMultistepBody c rhs').run x
    rw [explicitMultistepBody_run, explicitMultistepBody_run, hf _ _ (le_add_of_nonneg_right hh.le) (le_refl _)]
  interp := fun _ _ _ _ _ _ => rfl

theorem local_implicit {p : Nat} (lib : Lib α) (zo : ZeroOpts α) (c : MultistepCoef α p) :
    LocalMethod (implicitMultistep lib zo c : Method α n _ _) where
  body := by
    intro rhs rhs' x hh hf
    show (implicitMultistepBody lib zo c rhs).run x = (implicitMultistepBody lib zo c rhs').run x
    have h1 : ∀ y, rhs (x.t + x.h) y = rhs' (x.t + x.h) y := fun y => hf _ _ (le_add_of_nonneg_right hh.le) (le_refl _)
    have h2 : ∀ a K, implicitRoot rhs (x.t + x.h) a K = implicitRoot rhs' (x.t + x.h) a K := by
      intro a K; funext y; unfold implicitRoot; rw [h1]
    rw [implicitMultistepBody_run, implicitMultistepBody_run]
    simp only [implicitSolve, h1, h2]
  interp := fun _ _ _ _ _ _ => rfl

variable {I : Type}

theorem fsalFixedStep_same {T : Tableau α s} (hT : Tableau.Within T) {rhs rhs' : Rhs α n} (x : St α n 0 (FsalAux α n s I)) (hh : 0 < x.h)
    (hf : SameOn x.t (x.t + x.h) rhs rhs') : (fsalFixedStep T rhs).run x = (fsalFixedStep T rhs').run x := by
  obtain ⟨r, K', hK⟩ := stages_total (m := s + 2) (by omega) T rhs x.t x.h x.y x.f x.aux.K
  have hK' := hK
  rw [stages_same (by omega) hT hh _ _ hf] at hK'
  rw [fsalFixedStep_run T rhs x hK, fsalFixedStep_run T rhs' x hK']
  simp only [hf _ _ (le_add_of_nonneg_right hh.le) (le_refl _)]

theorem fsalBody_same_some {lib : Lib α} {o : VarOptions α} (hl : PowLaw lib) (ho : SaneOptions o) {ex : α} (hex : 0 ≤ ex) {T : Tableau α s}
    (hT : Tableau.Within T) (norm : ErrNorm α n s) (rhs rhs' : Rhs α n) :
    ∀ (x : St α n 0 (FsalAux α n s I)) r x', (fsalBody lib o ex T norm rhs).run x = some (r, x') → 0 < x.h →
      SameOn x.t (x.t + x.h) rhs rhs' → (fsalBody lib o ex T norm rhs').run x = some (r, x') := by
  refine fsalBody_ind lib o ex T norm rhs (fun x r x' => 0 < x.h → SameOn x.t (x.t + x.h) rhs rhs' →
    (fsalBody lib o ex T norm rhs').run x = some (r, x')) ?_ ?_ ?_ ?_
  · intro st e K' h hh hf
    rw [fsalBody_run, ← fsalFixedStep_same hT st hh hf, h]
    rfl
  · intro st y' K' e h hn hh hf
    rw [fsalBody_run, ← fsalFixedStep_same hT st hh hf, h]
    simp only [andThen_ok]
    rcases hn with hn | ⟨en, hn, hu⟩
    · have : norm st.h K' y' ({ st with aux := { st.aux with K := K' } } : St α n 0 (FsalAux α n s I)).y = .error e := hn
      rw [this]
    · have : norm st.h K' y' ({ st with aux := { st.aux with K := K' } } : St α n 0 (FsalAux α n s I)).y = .ok en := hn
      rw [this]
      simp only
      rw [hu]
  · intro st y' K' en h' h _ hn hu hh hf
    rw [fsalBody_run, ← fsalFixedStep_same hT st hh hf, h]
    simp only [andThen_ok]
    have : norm st.h K' y' ({ st with aux := { st.aux with K := K' } } : St α n 0 (FsalAux α n s I)).y = .ok en := hn
    rw [this]
    simp only
    rw [hu]
    rfl
  · intro st y' K' en h' r s' h _ hn hu ih hh hf
    rw [fsalBody_run, ← fsalFixedStep_same hT st hh hf, h]
    simp only [andThen_ok]
    have : norm st.h K' y' ({ st with aux := { st.aux with K := K' } } : St α n 0 (FsalAux α n s I)).y = .ok en := hn
    rw [this]
    simp only
    rw [hu]
    obtain ⟨q, hq, hq1, rfl⟩ := stepUpdate_rejected hl ho hex hu
    refine ih (mul_pos hh hq) (hf.mono (le_refl _) ?_)
    show st.t + st.h * q ≤ _
    have := mul_le_of_le_one_right hh.le hq1
    linarith

theorem fsalBody_same {lib : Lib α} {o : VarOptions α} (hl : PowLaw lib) (ho : SaneOptions o) {ex : α} (hex : 0 ≤ ex) {T : Tableau α s}
    (hT : Tableau.Within T) (norm : ErrNorm α n s) (rhs rhs' : Rhs α n) (x : St α n 0 (FsalAux α n s I)) (hh : 0 < x.h)
    (hf : SameOn x.t (x.t + x.h) rhs rhs') : (fsalBody lib o ex T norm rhs).run x = (fsalBody lib o ex T norm rhs').run x := by
  cases e : (fsalBody lib o ex T norm rhs).run x with
  | some z => exact (fsalBody_same_some hl ho hex hT norm rhs rhs' x z.1 z.2 e hh hf).symm
  | none =>
    cases e' : (fsalBody lib o ex T norm rhs').run x with
    | none => rfl
    | some z =>
      have := fsalBody_same_some hl ho hex hT norm rhs' rhs x z.1 z.2 e' hh hf.symm
      rw [e] at this; cases this

theorem local_fsal {d : Nat} {lib : Lib α} {o : VarOptions α} (hl : PowLaw lib) (ho : SaneOptions o) {c : FsalCoef α s d}
    (hex : 0 ≤ c.errorExponent) (hT : Tableau.Within c.toTableau) : LocalMethod (fsal lib o c : Method α n 0 _) where
  body := fun rhs rhs' x hh hf => fsalBody_same hl ho hex hT _ rhs rhs' x hh hf
  interp := fun _ _ _ _ _ _ => rfl

omit [LinearOrder α] [IsStrictOrderedRing α] [BEq α] [LawfulBEq α] in
theorem dopExtra_same (d : DopDense α) {rhs rhs' : Rhs α n} {t h : α} (y : Vec α n)
    (hf : ∀ i y, rhs (t + d.CExtra i * h) y = rhs' (t + d.CExtra i * h) y) (l : List (Fin 3)) :
    dopExtra d rhs t h y l = dopExtra d rhs' t h y l := by
  induction l with
  | nil => rfl
  | cons i l ih => simp only [dopExtra, ih, hf]

theorem dopUpdate_same {d : DopDense α} (hd : ∀ i, 0 ≤ d.CExtra i ∧ d.CExtra i ≤ 1) {rhs rhs' : Rhs α n} (x : St α n 0 (FsalAux α n 11 (DopItp α n)))
    (hx : x.cache.ts (Buffer.iPrev 0) ≤ x.t) (hf : SameOn (x.cache.ts (Buffer.iPrev 0)) x.t rhs rhs') :
    (dopUpdate d rhs).run x = (dopUpdate d rhs').run x := by
  unfold dopUpdate
  simp only [run_bind, run_modify, andThen_ok, run_get, run_zoom]
  have hd : ∀ y l, dopExtra d rhs (x.cache.ts (Buffer.iPrev 0)) (x.cache.ts (Buffer.iLast 0) - x.cache.ts (Buffer.iPrev 0)) y l =
      dopExtra d rhs' (x.cache.ts (Buffer.iPrev 0)) (x.cache.ts (Buffer.iLast 0) - x.cache.ts (Buffer.iPrev 0)) y l := by
    intro y l
    have e : x.cache.ts (Buffer.iLast 0) = x.t := rfl
    have h0 : 0 ≤ x.t - x.cache.ts (Buffer.iPrev 0) := sub_nonneg.2 hx
    rw [e]
    refine dopExtra_same d y (fun i y => hf _ y ?_ ?_) l
    · have := mul_nonneg (hd i).1 h0; linarith
    · have := mul_le_of_le_one_left h0 (hd i).2; linarith
  rw [hd]

theorem local_dop {lib : Lib α} {o : VarOptions α} (hl : PowLaw lib) (ho : SaneOptions o) {c : DopCoef α}
    (hex : 0 ≤ c.errorExponent) (hT : Tableau.Within c.toTableau) (hd : ∀ i, 0 ≤ c.CExtra i ∧ c.CExtra i ≤ 1) :
    LocalMethod (dop853 lib o c : Method α n 0 _) where
  body := fun rhs rhs' x hh hf => fsalBody_same hl ho hex hT _ rhs rhs' x hh hf
  interp := by
    intro rhs rhs' x t hx hf
    show (dopInterp c.toDopDense rhs t).run x = (dopInterp c.toDopDense rhs' t).run x
    unfold dopInterp
    simp only [run_bind, run_get, andThen_ok, run_ite, dopUpdate_same (d := c.toDopDense) hd x hx hf]

/-! ### Whole sessions -/

/-- Where a solver is between calls. -/
structure InDomain (t0 : α) (b : Bound α) (x : St α n k X) : Prop where
  pos : 0 < x.h
  start : t0 ≤ x.cache.ts (Buffer.iPrev k)
  mono : x.cache.ts (Buffer.iPrev k) ≤ x.t
  bound : NotBeyond b x.t

theorem InDomain.le {t0 : α} {b : Bound α} {x : St α n k X} (h : InDomain t0 b x) : t0 ≤ x.t := h.start.trans h.mono

theorem notBeyond_mono {b : Bound α} {t u : α} (h : NotBeyond b u) (ht : t ≤ u) : NotBeyond b t := by
  cases b with
  | inf => trivial
  | fin b => exact fun hb => h (lt_of_lt_of_le hb ht)

theorem push_iPrev (b : Buffer α n k) (t : α) (y f : Vec α n) : (b.push t y f).ts (Buffer.iPrev k) = b.t := by
  simp only [Buffer.push, shiftIn, Buffer.iPrev, Buffer.t, Buffer.iLast]
  rw [dif_pos (by omega)]

theorem fits_of_not_exceeded {b : Bound α} {x : St α n k X} (h : b.exceededBy (x.cache.t + x.h) = false) : NotBeyond b (x.t + x.h) := by
  cases b with
  | inf => trivial
  | fin b => exact of_decide_eq_false h

theorem InDomain.step {M : Method α n k X} (hM : WellConfigured M) {rhs : Rhs α n} {t0 : α} {b : Bound α} {x x' : St α n k X} {r : Except Err Unit}
    (h : InDomain t0 b x) (hb : b.exceededBy (x.cache.t + x.h) = false) (hr : (M.body rhs).run x = some (r, x')) : InDomain t0 b x' := by
  have hS : Shaped M := IsLibrary.shaped (hM.imp_right fun ⟨lib, o, ex, h, _⟩ => ⟨lib, o, ex, h⟩)
  obtain ⟨⟨q, hq, h1⟩, h2⟩ := hM.time rhs x r x' hr
  have hp : 0 < x'.h := by rw [h1]; exact mul_pos h.pos hq
  cases r with
  | error e =>
    have hc := hS.body_err rhs x e x' hr
    exact ⟨hp, by rw [hc]; exact h.start, by rw [St.t, hc]; exact h.mono, by rw [St.t, hc]; exact h.bound⟩
  | ok u =>
    obtain ⟨t, y, f, hc, -⟩ := hS.body_ok rhs x x' hr
    obtain ⟨q, hq, hq1, h3⟩ := h2 rfl
    have hpr : x'.cache.ts (Buffer.iPrev k) = x.t := by rw [hc]; exact push_iPrev _ _ _ _
    refine ⟨hp, by rw [hpr]; exact h.le, ?_, ?_⟩
    · rw [hpr, h3]; exact le_add_of_nonneg_right (mul_pos h.pos hq).le
    · rw [h3]
      refine notBeyond_mono (fits_of_not_exceeded hb) ?_
      have := mul_le_of_le_one_right h.pos.le hq1
      linarith

open Unchanged in
/-- A solver and the same solver with a right-hand side that is the same where it has to be. -/
def domainCorr {M : Method α n k X} (hM : WellConfigured M) (hL : LocalMethod M) {t0 : α} {b : Bound α} {rhs rhs' : Rhs α n}
    (hf : SameUntil t0 b rhs rhs') : Corr ⟨M, rhs, b⟩ ⟨M, rhs', b⟩ where
  __ := (lawful (α := α) (n := n)).corr (S := ⟨M, rhs, b⟩) (S' := ⟨M, rhs', b⟩) (boundRel b) (fun x y => x = y ∧ InDomain t0 b x)
    (by
      rintro x _ ⟨rfl, -⟩
      exact ⟨⟨fun _ => (time _).symm, fun _ => (state _).symm, fun _ => (slope _).symm⟩, (one_mul _).symm⟩)
    (fun _ _ => True) (fun _ _ => trivial) (fun _ => trivial) (fun _ => trivial)
    (by
      intro c
      rintro x _ ⟨⟨rfl, hI⟩, rfl, hb⟩ r x' hr
      have hI' := hI.step hM hb hr
      have hfit := fits_of_not_exceeded hb
      have e := hL.body rhs rhs' x hI.pos fun t y h1 h2 => hf t y (hI.le.trans h1) (notBeyond_mono hfit h2)
      refine ⟨r, x', e.symm.trans hr, ?_, fun _ => ⟨rfl, hI'⟩⟩
      cases r with
      | error e => exact rfl
      | ok u => exact ⟨⟨rfl, hI'⟩, fun _ _ => trivial⟩)
    (by
      intro t t' c ht _
      rintro x _ ⟨⟨rfl, hI⟩, rfl⟩ r x' hr
      obtain rfl : t' = t := by rw [show t' = _ from ht, time]
      have hS : Shaped M := IsLibrary.shaped (hM.imp_right fun ⟨lib, o, ex, h, _⟩ => ⟨lib, o, ex, h⟩)
      obtain ⟨h1, h2⟩ := hS.interp rhs t' x r x' hr
      have hI' : InDomain t0 b x' := ⟨by rw [h2]; exact hI.pos, by rw [h1]; exact hI.start, by rw [St.t, h1]; exact hI.mono, by rw [St.t, h1]; exact hI.bound⟩
      have e := hL.interp rhs rhs' x t' hI.mono fun t y h1 h2 => hf t y (hI.start.trans h1) (notBeyond_mono hI.bound h2)
      refine ⟨r, x', e.symm.trans hr, ?_, fun _ => ⟨rfl, hI'⟩⟩
      cases r with
      | error e => exact rfl
      | ok u =>
        refine ⟨?_, ⟨rfl, hI'⟩, h1⟩
        cases u with
        | own v => exact (state v).symm
        | row i => exact rfl)

end field
end Nbkode
