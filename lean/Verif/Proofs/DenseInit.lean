import Verif.Proofs.DenseMethod
import Verif.Proofs.Construct
import Verif.Spec.Construct

/-! Constructed solvers have a coherent dense output. -/

set_option autoImplicit false
set_option linter.unusedSectionVars false

namespace Nbkode
open Py Spec

variable {α : Type} [LinearOrder α]
variable [Add α] [Sub α] [Mul α] [Div α] [Neg α] [Zero α] [One α] [NatCast α] [BEq α]
variable {n k : Nat} {X : Type}

theorem fsalInit_fresh {s d : Nat} {P : Fin (s + 2) → Fin d → α} {o : VarOptions α}
    {sel : Rhs α n → α → Vec α n → Vec α n → Except Err α} {g : Buffer α n 0}
    {K : Fin (s + 2) → Vec α n} {itp : RkItp α n d} {rhs : Rhs α n} {t0 : α} {y0 : Vec α n}
    {h first : Option α} {st : St α n 0 (FsalAux α n s (RkItp α n d))}
    (hs : fsalInit P o sel g K itp rhs t0 y0 h first = .ok st) : RkCoh P st := by
  unfold fsalInit at hs
  cases hv : variableInit o sel g (⟨K, itp⟩ : FsalAux α n s (RkItp α n d)) rhs t0 y0 h first with
  | error e => rw [hv] at hs; simp [bind, Except.bind] at hs
  | ok s1 =>
    rw [hv] at hs
    simp only [bind, Except.bind, rkUpdate, run_modify, pure, Except.pure, Except.ok.injEq] at hs
    subst hs
    exact Or.inr ⟨rfl, rfl⟩

theorem dopInit_fresh {d : DopDense α} {o : VarOptions α}
    {sel : Rhs α n → α → Vec α n → Vec α n → Except Err α} {g : Buffer α n 0}
    {K : Fin 13 → Vec α n} {itp : DopItp α n} {rhs : Rhs α n} {t0 : α} {y0 : Vec α n}
    {h first : Option α} {st : St α n 0 (FsalAux α n 11 (DopItp α n))}
    (hs : dopInit d o sel g K itp rhs t0 y0 h first = .ok st) : DopCoh d rhs st := by
  unfold dopInit at hs
  cases hv : variableInit o sel g (⟨K, itp⟩ : FsalAux α n 11 (DopItp α n)) rhs t0 y0 h first with
  | error e => rw [hv] at hs; simp [bind, Except.bind] at hs
  | ok s1 =>
    rw [hv] at hs
    simp only [bind, Except.bind, pure, Except.pure] at hs
    rcases dopUpdate_run d rhs s1 with ⟨Kx, hK, hu⟩ | ⟨hno, e, Kx, hu⟩
    · rw [hu] at hs
      simp only [Except.ok.injEq] at hs
      subst hs
      exact Or.inr ⟨rfl, Kx, hK, rfl⟩
    · rw [hu] at hs
      simp only [throw, throwThe, MonadExceptOf.throw] at hs
      simp at hs

/-- If the right-hand side is defined everywhere, the extra stages exist. -/
theorem dopStages_exist (d : DopDense α) (rhs : Rhs α n) (hf : ∀ t y, ∃ f, rhs t y = .ok f) (tOld h : α)
    (yOld : Vec α n) (K : Fin 13 → Vec α n) : ∃ Kx, DopStages d rhs tOld h yOld K Kx := by
  have key : ∀ (l : List (Fin 3)) (K : Fin 16 → Vec α n), ∃ Kx, (dopExtra d rhs tOld h yOld l).run K = some (.ok (), Kx) := by
    intro l
    induction l with
    | nil => intro K; rw [dopExtra]; exact ⟨_, rfl⟩
    | cons e l ih =>
      intro K
      rw [dopExtra_cons]
      obtain ⟨f, hf⟩ := hf (tOld + d.CExtra e * h) (yOld + dopDy d h K e)
      rw [hf]
      exact ih _
  obtain ⟨Kx, hK⟩ := key (List.finRange 3) (dopCopy K fun _ _ => 0)
  exact ⟨Kx, (dopExtra_stages d rhs tOld h yOld K _ Kx).mp hK⟩

/-- Every constructed solver. -/
theorem constructed_dense [LawfulBEq α] {S : Solver α n k X} {s : St α n k X} (h : Constructed S s) :
    ∃ D : Dense S.method S.rhs, D.Coh s := by
  cases h with
  | erk T rhs b g K t0 y0 h st hs => exact ⟨hermiteDense _ _ fun _ => rfl, trivial⟩
  | fsal lib o c rhs b sel g K itp t0 y0 h first st hs => exact ⟨fsalDense lib o c rhs, fsalInit_fresh hs⟩
  | dop853 lib o c rhs b sel g K itp t0 y0 h first st hs => exact ⟨dopDense lib o c rhs, dopInit_fresh hs⟩
  | explicitMultistep c rhs b g bo argsort starter t0 y0 h st hs =>
    exact ⟨hermiteDense _ _ fun _ => rfl, trivial⟩
  | implicitMultistep lib zo c rhs b g bo argsort starter t0 y0 h st hs =>
    exact ⟨hermiteDense _ _ fun _ => rfl, trivial⟩

end Nbkode
