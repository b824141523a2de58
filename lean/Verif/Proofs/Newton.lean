import Verif.Spec.Zeros
import Verif.Proofs.Secant

/-! Loop invariants of the root finders. -/

set_option autoImplicit false
set_option linter.unusedSectionVars false

namespace Nbkode
open Py Spec Solver

variable {α : Type} [Field α] [LinearOrder α] [IsStrictOrderedRing α] [BEq α] [LawfulBEq α]
variable {n : Nat}

theorem norm2_eq (lib : Lib α) (v : Vec α n) : norm2 lib v = euclid lib v := by
  unfold norm2 euclid
  rw [foldl_eq_sum, zero_add]
  congr 1
  exact Finset.sum_congr rfl fun i _ => (pow_two _).symm

/-- One column of the Jacobian loop. -/
def jacCol (eps : α) (fn : Vec α n → Except Err (Vec α n)) (x : Vec α n)
    (J : Fin n → Fin n → α) (i : Fin n) : Except Err (Fin n → Fin n → α) := do
  let x1 := Function.update x i (x i + eps)
  let x2 := Function.update x i (x i - eps)
  let f1 ← fn x1
  let f2 ← fn x2
  pure (fun r c => if c = i then (f1 r - f2 r) / (((2 : Nat) : α) * eps) else J r c)

theorem jacCol_ok (eps : α) (fn : Vec α n → Except Err (Vec α n)) (x : Vec α n)
    (J J' : Fin n → Fin n → α) (i : Fin n) :
    jacCol eps fn x J i = .ok J' ↔ ∃ fp fm, fn (Function.update x i (x i + eps)) = .ok fp ∧
      fn (Function.update x i (x i - eps)) = .ok fm ∧
      J' = fun r c => if c = i then (fp r - fm r) / (2 * eps) else J r c := by
  unfold jacCol
  cases h1 : fn (Function.update x i (x i + eps)) with
  | error e => simp [bind, Except.bind, h1]
  | ok fp =>
    cases h2 : fn (Function.update x i (x i - eps)) with
    | error e => simp [bind, Except.bind, h1, h2]
    | ok fm =>
      simp only [bind, Except.bind, h1, h2, pure, Except.pure, Except.ok.injEq, Nat.cast_ofNat]
      constructor
      · rintro rfl; exact ⟨_, _, rfl, rfl, rfl⟩
      · rintro ⟨_, _, rfl, rfl, rfl⟩; rfl

theorem jacobian_fold (eps : α) (fn : Vec α n → Except Err (Vec α n)) (x : Vec α n)
    (l : List (Fin n)) (hl : l.Nodup) (J J' : Fin n → Fin n → α) :
    l.foldlM (jacCol eps fn x) J = .ok J' →
      (∀ i ∈ l, ∃ fp fm, fn (Function.update x i (x i + eps)) = .ok fp ∧
        fn (Function.update x i (x i - eps)) = .ok fm ∧ ∀ r, J' r i = (fp r - fm r) / (2 * eps)) ∧
      ∀ i, i ∉ l → ∀ r, J' r i = J r i := by
  induction l generalizing J with
  | nil =>
    intro h
    simp only [List.foldlM_nil, pure, Except.pure, Except.ok.injEq] at h
    subst h; simp
  | cons a l ih =>
    intro h
    rw [List.foldlM_cons] at h
    cases h1 : jacCol eps fn x J a with
    | error e => rw [h1] at h; simp [bind, Except.bind] at h
    | ok J1 =>
      rw [h1] at h
      obtain ⟨h2, h3⟩ := ih (List.nodup_cons.mp hl).2 J1 h
      obtain ⟨fp, fm, e1, e2, rfl⟩ := (jacCol_ok _ _ _ _ _ _).mp h1
      refine ⟨?_, ?_⟩
      · intro i hi
        rcases List.mem_cons.mp hi with rfl | hi
        · refine ⟨fp, fm, e1, e2, fun r => ?_⟩
          rw [h3 i (List.nodup_cons.mp hl).1]; simp
        · exact h2 i hi
      · intro i hi r
        rw [h3 i (fun h => hi (List.mem_cons_of_mem _ h))]
        exact if_neg (by rintro rfl; exact hi List.mem_cons_self)

theorem jacobian_ok {eps : α} {fn : Vec α n → Except Err (Vec α n)} {x : Vec α n}
    {J : Fin n → Fin n → α} (h : jacobian eps fn x = .ok J) : CentralDiff eps fn x J :=
  fun i => (jacobian_fold eps fn x _ (List.nodup_finRange n) _ J h).1 i (List.mem_finRange i)

theorem centralDiff_unique {eps : α} {fn : Vec α n → Except Err (Vec α n)} {x : Vec α n}
    {J J' : Fin n → Fin n → α} (h : CentralDiff eps fn x J) (h' : CentralDiff eps fn x J') : J = J' := by
  funext r i
  obtain ⟨fp, fm, h1, h2, h3⟩ := h i
  obtain ⟨fp', fm', h1', h2', h3'⟩ := h' i
  rw [h1] at h1'; rw [h2] at h2'
  cases h1'; cases h2'
  rw [h3, h3']

theorem jacobian_of {eps : α} {fn : Vec α n → Except Err (Vec α n)} {x : Vec α n}
    {J : Fin n → Fin n → α} (h : CentralDiff eps fn x J) : jacobian eps fn x = .ok J := by
  have : ∃ J', jacobian eps fn x = .ok J' := by
    show ∃ J', (List.finRange n).foldlM (jacCol eps fn x) _ = .ok J'
    generalize (fun (_ : Fin n) (_ : Fin n) => (0 : α)) = J0
    generalize List.finRange n = l
    induction l generalizing J0 with
    | nil => exact ⟨J0, rfl⟩
    | cons a l ih =>
      rw [List.foldlM_cons]
      obtain ⟨fp, fm, h1, h2, _⟩ := h a
      rw [(jacCol_ok eps fn x J0 _ a).mpr ⟨fp, fm, h1, h2, rfl⟩]
      exact ih _
  obtain ⟨J', hJ⟩ := this
  rw [hJ, centralDiff_unique (jacobian_ok hJ) h]

theorem newtonHdLoop_ok (lib : Lib α) (eps : α) (fn : Vec α n → Except Err (Vec α n)) (atol rtol : α)
    (left : Nat) (y v : Vec α n) (hv : fn y = .ok v) (y' : Vec α n) (flag : NewtonFlag)
    (h : newtonHdLoop lib eps fn atol rtol left y v = .ok (y', flag)) :
    (flag = .ok ∧ ∃ j ≤ left, Updates lib eps fn j y y' ∧ ∃ v', fn y' = .ok v' ∧
      |euclid lib v'| ≤ atol) ∨
    (flag = .notConverged ∧ Updates lib eps fn (left + 1) y y') := by
  induction left generalizing y v with
  | zero =>
    rw [newtonHdLoop.eq_1, norm2_eq] at h
    split at h
    · rename_i hc
      simp only [Except.ok.injEq, Prod.mk.injEq] at h
      obtain ⟨rfl, rfl⟩ := h
      left
      refine ⟨rfl, 0, le_refl _, .zero _, v, hv, ?_⟩
      rw [isclose_iff] at hc
      simpa using hc
    · right
      cases hJ : jacobian eps fn y with
      | error e => rw [hJ] at h; simp [bind, Except.bind] at h
      | ok J =>
        cases hd : lib.solve J (-v) with
        | error e => simp [hJ, hd, bind, Except.bind] at h
        | ok d =>
          cases hv' : fn (y + d) with
          | error e => simp [hJ, hd, hv', bind, Except.bind] at h
          | ok v' =>
            simp [hJ, hd, hv', bind, Except.bind, pure, Except.pure] at h
            obtain ⟨rfl, rfl⟩ := h
            exact ⟨rfl, .succ hv (jacobian_ok hJ) hd (.zero _)⟩
  | succ left ih =>
    rw [newtonHdLoop.eq_1, norm2_eq] at h
    split at h
    · rename_i hc
      simp only [Except.ok.injEq, Prod.mk.injEq] at h
      obtain ⟨rfl, rfl⟩ := h
      left
      refine ⟨rfl, 0, Nat.zero_le _, .zero _, v, hv, ?_⟩
      rw [isclose_iff] at hc
      simpa using hc
    · cases hJ : jacobian eps fn y with
      | error e => rw [hJ] at h; simp [bind, Except.bind] at h
      | ok J =>
        cases hd : lib.solve J (-v) with
        | error e => simp [hJ, hd, bind, Except.bind] at h
        | ok d =>
          cases hv' : fn (y + d) with
          | error e => simp [hJ, hd, hv', bind, Except.bind] at h
          | ok v' =>
            simp [hJ, hd, hv', bind, Except.bind] at h
            rcases ih (y + d) v' hv' h with ⟨h1, j, hj, h2, h3⟩ | ⟨h1, h2⟩
            · exact Or.inl ⟨h1, j + 1, by omega, .succ hv (jacobian_ok hJ) hd h2, h3⟩
            · exact Or.inr ⟨h1, .succ hv (jacobian_ok hJ) hd h2⟩

theorem newtonHd_ok {lib : Lib α} {eps : α} {fn : Vec α n → Except Err (Vec α n)} {y0 : Vec α n}
    {atol rtol : α} {m : Nat} {y : Vec α n} (h : newtonHd lib eps fn y0 atol rtol m = .ok y) :
    ∃ j ≤ m, Updates lib eps fn j y0 y ∧ ∃ v, fn y = .ok v ∧ |euclid lib v| ≤ atol := by
  unfold newtonHd newtonHdImpl at h
  cases hv : fn y0 with
  | error e => simp [hv, bind, Except.bind] at h
  | ok v =>
    cases hl : newtonHdLoop lib eps fn atol rtol m y0 v with
    | error e => simp [hv, hl, bind, Except.bind] at h
    | ok r =>
      obtain ⟨y', flag⟩ := r
      simp only [hv, hl, bind, Except.bind] at h
      rcases newtonHdLoop_ok lib eps fn atol rtol m y0 v hv y' flag hl with ⟨rfl, h1⟩ | ⟨rfl, _⟩
      · simp [pure, Except.pure] at h
        subst h; exact h1
      · simp [throw, throwThe, MonadExceptOf.throw] at h

end Nbkode
