import Verif.Proofs.Change
import Verif.Model.Tableaux

/-!
# C74: answers do not depend on the choice of variables

`observe` gives everything a user sees of a solver from its construction on, `C.seen` the same in other variables. The
uninitialised memory of the two solvers (`g`, `K`, `I` and `g'`, `K'`, `I'`) is arbitrary and unrelated.
-/

set_option autoImplicit false
set_option linter.unusedSectionVars false

namespace Nbkode
open Py Spec Solver

section field
variable {α : Type} [Field α] [LinearOrder α] [IsStrictOrderedRing α] [BEq α] [LawfulBEq α]
variable {n m : Nat}

/-- C74: fixed-step explicit Runge-Kutta methods, in any affine image of the state with time in any units and from any origin. -/
theorem C74_erk {s : Nat} (T : Tableau α s) (C : Change α n m) (hl : 0 < C.lam) (rhs : Rhs α n) (rhs' : Rhs α m)
    (hf : C.Transforms rhs rhs') (b : Bound α) (bo : BisectOpts α) (argsort : List α → List Nat) (hA : ∀ l, IsArgsort l (argsort l))
    (ha : ComparisonSort argsort) (cs : List (Call α n)) (cs' : List (Call α m)) (hc : List.Forall₂ C.SameCall cs cs')
    (g : Buffer α n 0) (g' : Buffer α m 0) (K : ErkAux α n s) (K' : ErkAux α m s) (t0 : α) (y0 : Vec α n) (h : α) :
    observe ⟨erk T, rhs', C.bound b⟩ bo argsort cs' (some (erkInit g' K' rhs' (C.time t0) (C.state y0) (some (C.lam * h)))) =
      (observe ⟨erk T, rhs, b⟩ bo argsort cs (some (erkInit g K rhs t0 y0 (some h)))).map (Except.map C.seen) := by
  exact C.seen_of_same (same_erk (C.lawful hl) bo (C.argsort_rel hl ha) hA (C.rhsRel hf) (C.boundRel b) rfl rfl T (C.calls hc) g g' K K'
    (h := some h) (h' := some (C.lam * h)) rfl)

/-- C74: explicit multistep methods without a starter (`starter = none`) or started with steps of a fixed-step Runge-Kutta
method. -/
theorem C74_explicit_multistep {p s : Nat} (cf : MultistepCoef α p) (hcf : ∑ j, cf.A j = -1) (C : Change α n m) (hl : 0 < C.lam)
    (rhs : Rhs α n) (rhs' : Rhs α m) (hf : C.Transforms rhs rhs') (b : Bound α) (bo : BisectOpts α) (argsort : List α → List Nat)
    (hA : ∀ l, IsArgsort l (argsort l)) (ha : ComparisonSort argsort) (cs : List (Call α n)) (cs' : List (Call α m))
    (hc : List.Forall₂ C.SameCall cs cs') (g : Buffer α n (histExtra p)) (g' : Buffer α m (histExtra p)) (T : Tableau α s) (gT : Buffer α n 0)
    (gT' : Buffer α m 0) (K : ErkAux α n s) (K' : ErkAux α m s) (t0 : α) (y0 : Vec α n) (h : α) :
    observe ⟨explicitMultistep cf, rhs', C.bound b⟩ bo argsort cs'
        (multistepInit g' bo argsort .none rhs' (C.time t0) (C.state y0) (some (C.lam * h))) =
      (observe ⟨explicitMultistep cf, rhs, b⟩ bo argsort cs (multistepInit g bo argsort .none rhs t0 y0 (some h))).map (Except.map C.seen) ∧
    observe ⟨explicitMultistep cf, rhs', C.bound b⟩ bo argsort cs'
        (multistepInit g' bo argsort (.fixed (erk T) fun rhs t y h => erkInit gT' K' rhs t y h) rhs' (C.time t0) (C.state y0)
          (some (C.lam * h))) =
      (observe ⟨explicitMultistep cf, rhs, b⟩ bo argsort cs
        (multistepInit g bo argsort (.fixed (erk T) fun rhs t y h => erkInit gT K rhs t y h) rhs t0 y0 (some h))).map
          (Except.map C.seen) := by
  have L := C.lawful hl
  have hR := C.rhsRel hf
  exact ⟨C.seen_of_same (same_explicit L bo (C.argsort_rel hl ha) hA hR (C.boundRel b) rfl rfl cf hcf (C.calls hc) g g'
      (h := some h) (h' := some (C.lam * h)) rfl .none),
    C.seen_of_same (same_explicit L bo (C.argsort_rel hl ha) hA hR (C.boundRel b) rfl rfl cf hcf (C.calls hc) g g'
      (h := some h) (h' := some (C.lam * h)) rfl (starterRel_erk L hR rfl rfl T gT gT' K K' rfl))⟩

/-- C74: implicit multistep methods, with time in other units and from another origin. (Newton's method stops when the state has
changed by less than a tolerance: scaling the state would scale the tolerance.) -/
theorem C74_implicit_multistep {p s : Nat} (lib : Lib α) (zo : ZeroOpts α) (cf : MultistepCoef α p) (lam c : α) (hl : 0 < lam)
    (rhs rhs' : Rhs α n) (hf : ∀ t y, rhs' (lam * t + c) y = (rhs t y).map fun f i => f i / lam) (b : Bound α) (bo : BisectOpts α)
    (argsort : List α → List Nat) (hA : ∀ l, IsArgsort l (argsort l)) (ha : ComparisonSort argsort) (cs cs' : List (Call α n))
    (hc : List.Forall₂ (Change.clock n lam c).SameCall cs cs') (g g' : Buffer α n (histExtra p)) (T : Tableau α s) (gT gT' : Buffer α n 0)
    (K K' : ErkAux α n s) (t0 : α) (y0 : Vec α n) (h : α) :
    observe ⟨implicitMultistep lib zo cf, rhs', (Change.clock n lam c).bound b⟩ bo argsort cs'
        (multistepInit g' bo argsort .none rhs' (lam * t0 + c) y0 (some (lam * h))) =
      (observe ⟨implicitMultistep lib zo cf, rhs, b⟩ bo argsort cs (multistepInit g bo argsort .none rhs t0 y0 (some h))).map
        (Except.map (Change.clock n lam c).seen) ∧
    observe ⟨implicitMultistep lib zo cf, rhs', (Change.clock n lam c).bound b⟩ bo argsort cs'
        (multistepInit g' bo argsort (.fixed (erk T) fun rhs t y h => erkInit gT' K' rhs t y h) rhs' (lam * t0 + c) y0
          (some (lam * h))) =
      (observe ⟨implicitMultistep lib zo cf, rhs, b⟩ bo argsort cs
        (multistepInit g bo argsort (.fixed (erk T) fun rhs t y h => erkInit gT K rhs t y h) rhs t0 y0 (some h))).map
          (Except.map (Change.clock n lam c).seen) := by
  have hf' : (Change.clock n lam c).Transforms rhs rhs' := by
    intro t y
    rw [Change.clock_state]
    refine (hf t y).trans ?_
    congr 1
    funext f
    rw [Change.clock_slope]
  have L := (Change.clock n lam c).lawful hl
  have hR := (Change.clock n lam c).rhsRel hf'
  have hy0 : (Change.clock n lam c).vars.vec y0 y0 := (Change.clock_state _ _ _).symm
  have key := fun str str' hs => Change.seen_of_same _ (same_multistep L bo (Change.argsort_rel (Change.clock n lam c) hl ha) hA hR
    ((Change.clock n lam c).boundRel b) (t := t0) (t' := lam * t0 + c) rfl hy0 (Me := implicitMultistep lib zo cf)
    (Me' := implicitMultistep lib zo cf) (Change.follows_implicit lib zo cf hl hf') (Change.follows_implicit_flip lib zo cf hl hf')
    (fun _ _ => rfl) (fun _ _ => rfl) (Change.calls _ hc) g g' (h := some h) (h' := some (lam * h)) rfl (str := str) (str' := str') hs)
  exact ⟨key _ _ .none, key _ _ (starterRel_erk L hR rfl hy0 T gT gT' K K' rfl)⟩

/-- C74: `RungeKutta23` and `RungeKutta45` (any coefficients) with a given first step: time in any units and from any origin, the
components permuted, with their signs changed and in units `κ` times smaller, with `atol` in those units. -/
theorem C74_fsal {s d : Nat} (lib : Lib α) (o : VarOptions α) (ho : SaneOptions o) (cf : FsalCoef α s d) (C : Change α n n) (hl : 0 < C.lam)
    (κ : α) (hκ : 0 < κ) (hC : C.Relabels κ) (rhs rhs' : Rhs α n) (hf : C.Transforms rhs rhs') (b : Bound α) (bo : BisectOpts α)
    (argsort : List α → List Nat) (hA : ∀ l, IsArgsort l (argsort l)) (ha : ComparisonSort argsort) (cs cs' : List (Call α n))
    (hc : List.Forall₂ C.SameCall cs cs') (sel : Rhs α n → α → Vec α n → Vec α n → Except Err α) (g g' : Buffer α n 0)
    (K K' : Fin (s + 2) → Vec α n) (I I' : RkItp α n d) (t0 : α) (y0 : Vec α n) (h : α) (hh : 0 < h) :
    observe ⟨fsal lib { o with atol := κ * o.atol } cf, rhs', C.bound b⟩ bo argsort cs'
        (some (fsalInit cf.P { o with atol := κ * o.atol } sel g' K' I' rhs' (C.time t0) (C.state y0) none (some (C.lam * h)))) =
      (observe ⟨fsal lib o cf, rhs, b⟩ bo argsort cs (some (fsalInit cf.P o sel g K I rhs t0 y0 none (some h)))).map (Except.map C.seen) := by
  rw [fsalInit_h _ _ _ g' K' _ _ _ _ _ (some C.lam), fsalInit_h _ _ _ g K _ _ _ _ _ (some 1)]
  refine C.seen_of_same (same_fsal (o' := { o with atol := κ * o.atol }) (C.lawful hl) bo (C.argsort_rel hl ha) hA (C.rhsRel hf) (C.boundRel b) rfl rfl ho
    ⟨ho.1, ho.2, ho.3, ho.4⟩ (C.sameControl hκ hC lib o) rfl ?_ (h := some 1) (h' := some C.lam) ?_ (first := some h) (first' := some (C.lam * h))
    ⟨⟨rfl, hh⟩, fun h => by cases h⟩ cf (C.calls hc) g g' K K' I I')
  · exact ⟨fun h => mul_neg_of_pos_of_neg hκ h, fun h => by by_contra h'; exact absurd (mul_nonneg hκ.le (not_lt.1 h')) (not_le.2 h)⟩
  · exact (mul_one _).symm

/-- C74: `DOP853` with a given first step, as for `RungeKutta23`. -/
theorem C74_dop853 (lib : Lib α) (o : VarOptions α) (ho : SaneOptions o) (cf : DopCoef α) (C : Change α n n) (hl : 0 < C.lam)
    (κ : α) (hκ : 0 < κ) (hC : C.Relabels κ) (rhs rhs' : Rhs α n) (hf : C.Transforms rhs rhs') (b : Bound α) (bo : BisectOpts α)
    (argsort : List α → List Nat) (hA : ∀ l, IsArgsort l (argsort l)) (ha : ComparisonSort argsort) (cs cs' : List (Call α n))
    (hc : List.Forall₂ C.SameCall cs cs') (sel : Rhs α n → α → Vec α n → Vec α n → Except Err α) (g g' : Buffer α n 0)
    (K K' : Fin 13 → Vec α n) (I I' : DopItp α n) (t0 : α) (y0 : Vec α n) (h : α) (hh : 0 < h) :
    observe ⟨dop853 lib { o with atol := κ * o.atol } cf, rhs', C.bound b⟩ bo argsort cs'
        (some (dopInit cf.toDopDense { o with atol := κ * o.atol } sel g' K' I' rhs' (C.time t0) (C.state y0) none (some (C.lam * h)))) =
      (observe ⟨dop853 lib o cf, rhs, b⟩ bo argsort cs (some (dopInit cf.toDopDense o sel g K I rhs t0 y0 none (some h)))).map
        (Except.map C.seen) := by
  rw [dopInit_h _ _ _ g' K' _ _ _ _ _ (some C.lam), dopInit_h _ _ _ g K _ _ _ _ _ (some 1)]
  refine C.seen_of_same (same_dop (o' := { o with atol := κ * o.atol }) (C.lawful hl) bo (C.argsort_rel hl ha) hA (C.rhsRel hf) (C.boundRel b) rfl rfl ho
    ⟨ho.1, ho.2, ho.3, ho.4⟩ (C.sameControl hκ hC lib o) rfl ?_ (h := some 1) (h' := some C.lam) ?_ (first := some h) (first' := some (C.lam * h))
    ⟨⟨rfl, hh⟩, fun h => by cases h⟩ cf (C.calls hc) g g' K K' I I')
  · exact ⟨fun h => mul_neg_of_pos_of_neg hκ h, fun h => by by_contra h'; exact absurd (mul_nonneg hκ.le (not_lt.1 h')) (not_le.2 h)⟩
  · exact (mul_one _).symm

end field

/-! ### Cases -/

namespace Demo

/-- There is a sorting permutation that depends only on comparisons: a stable sort, as `np.argsort(kind="stable")`. -/
theorem exists_comparisonSort {α : Type} [LinearOrder α] :
    ∃ argsort : List α → List Nat, (∀ l, IsArgsort l (argsort l)) ∧ ComparisonSort argsort := by
  let le : List α → Nat → Nat → Bool := fun l i j => match l[i]?, l[j]? with
    | _, none => true
    | none, some _ => false
    | some a, some b => decide (a ≤ b)
  refine ⟨fun l => (List.range l.length).mergeSort (le l), fun l => ⟨List.mergeSort_perm _ _, ?_⟩, ?_⟩
  · have h1 := List.pairwise_mergeSort (le := le l)
      (by
        intro a b c
        show le l a b = true → le l b c = true → le l a c = true
        dsimp only [le]
        cases l[a]? <;> cases l[b]? <;> cases l[c]? <;> simp
        exact le_trans)
      (by
        intro a b
        show (le l a b || le l b a) = true
        dsimp only [le]
        cases l[a]? <;> cases l[b]? <;> simp
        exact le_total _ _)
      (List.range l.length)
    rw [List.pairwise_filterMap]
    refine h1.imp ?_
    intro i j hij x hx y hy
    replace hij : le l i j = true := hij
    dsimp only [le] at hij
    rw [hx, hy] at hij
    exact of_decide_eq_true hij
  · intro l l' hlen hcmp
    have e : le l = le l' := by
      funext i j
      dsimp only [le]
      have hnone : ∀ i : Nat, l[i]? = none ↔ l'[i]? = none := by
        intro i; rw [List.getElem?_eq_none_iff, List.getElem?_eq_none_iff, hlen.length_eq]
      have hi := hnone i
      have hj := hnone j
      have hc := hcmp i j
      revert hi hj hc
      cases l[i]? <;> cases l[j]? <;> cases l'[i]? <;> cases l'[j]? <;> simp
      exact fun h => h _ _ _ _ rfl rfl rfl rfl
    dsimp only
    rw [e, hlen.length_eq]

/-- Hours from 5 o'clock and litres become minutes from midnight and millilitres. -/
def small : Change ℚ 1 1 := ⟨60, 300, fun _ _ => 1000, 0⟩

def logistic : Rhs ℚ 1 := pureRhs fun _ y i => y i * (1 - y i)
def logisticSmall : Rhs ℚ 1 := pureRhs fun _ z i => z i * (1 - z i / 1000) / 60

theorem small_transforms : small.Transforms logistic logisticSmall := by
  intro t y
  show Except.ok _ = Except.ok _
  congr 1
  funext i
  simp only [Change.slope, Change.lin, Change.state, small, Fin.sum_univ_one, Pi.zero_apply]
  have : i = 0 := Subsingleton.elim _ _
  subst this
  ring

theorem small_relabels : small.Relabels 1000 :=
  ⟨fun _ => rfl, Equiv.refl _, fun _ => 1000, fun _ => by norm_num, fun i j => by
    have : j = Equiv.refl (Fin 1) i := Subsingleton.elim _ _
    rw [if_pos this]; rfl⟩

/-- Calls in hours and litres: `step(n=3)`, `run([1, 3, 2])`, and `run_events` for the crossing of half a litre. -/
def calls : List (Call ℚ 1) := [.step (some 3) none, .run [1, 3, 2], .runEvents [4, 5] (some [⟨fun _ y => y 0 - 1/2, false, none⟩])]

/-- The same calls in minutes and millilitres. -/
def callsSmall : List (Call ℚ 1) :=
  [.step (some 3) none, .run [360, 480, 420], .runEvents [540, 600] (some [⟨fun _ z => z 0 / 1000 - 1/2, false, none⟩])]

theorem calls_same : List.Forall₂ small.SameCall calls callsSmall := by
  refine .cons (.step _ _) (.cons ?_ (.cons ?_ .nil))
  · have e : [360, 480, 420] = [1, 3, 2].map small.time := by norm_num [Change.time, small]
    rw [e]; exact .run _
  · have e : [540, 600] = [4, 5].map small.time := by norm_num [Change.time, small]
    rw [e]
    refine .runEvents _ _ _ (.cons ⟨fun t y => ?_, rfl, rfl⟩ .nil)
    simp only [Change.state, Change.lin, small, Fin.sum_univ_one, Pi.zero_apply]
    ring

/-- C74: a user working in hours and litres and one working in minutes and millilitres see the same. -/
example (bo : BisectOpts ℚ) (argsort : List ℚ → List Nat) (hA : ∀ l, IsArgsort l (argsort l)) (ha : ComparisonSort argsort)
    (g g' : Buffer ℚ 1 0) (K K' : ErkAux ℚ 1 3) :
    observe ⟨erk RungeKutta4, logisticSmall, .fin 900⟩ bo argsort callsSmall
        (some (erkInit g' K' logisticSmall 300 (fun _ => 250) (some 6))) =
      (observe ⟨erk RungeKutta4, logistic, .fin 10⟩ bo argsort calls (some (erkInit g K logistic 0 (fun _ => 1/4) (some (1/10))))).map
        (Except.map small.seen) := by
  have := C74_erk RungeKutta4 small (by norm_num [small]) logistic logisticSmall small_transforms (.fin 10) bo argsort hA ha calls callsSmall
    calls_same g g' K K' 0 (fun _ => 1/4) (1/10)
  have e1 : small.bound (.fin 10) = .fin 900 := by norm_num [small, Change.bound, Change.time]
  have e2 : small.time 0 = 300 := by norm_num [small, Change.time]
  have e3 : small.state (fun _ => 1/4) = fun _ => 250 := by funext i; norm_num [small, Change.state, Change.lin]
  have e4 : small.lam * (1/10) = 6 := by norm_num [small]
  rw [e1, e2, e3, e4] at this
  exact this

/-- C74: the same for the other methods. -/
example {lib : Lib ℚ} (zo : ZeroOpts ℚ) (bo : BisectOpts ℚ) (argsort : List ℚ → List Nat) (hA : ∀ l, IsArgsort l (argsort l))
    (ha : ComparisonSort argsort) (o : VarOptions ℚ) (ho : SaneOptions o) (sel : Rhs ℚ 1 → ℚ → Vec ℚ 1 → Vec ℚ 1 → Except Err ℚ) :=
  And.intro (C74_explicit_multistep (p := 3) AdamsBashforth4 (by norm_num [AdamsBashforth4, Fin.sum_univ_four, adamsA]; decide +kernel) small (by norm_num [small]) logistic
      logisticSmall small_transforms .inf bo argsort hA ha calls callsSmall calls_same ⟨0, 0, 0⟩ ⟨1, 1, 1⟩ RungeKutta4 ⟨0, 0, 0⟩ ⟨1, 1, 1⟩ 0 1 0
      (fun _ => 1/4) (1/10)) <|
  And.intro (C74_fsal lib o ho RungeKutta45 small (by norm_num [small]) 1000 (by norm_num) small_relabels logistic
      logisticSmall small_transforms .inf bo argsort hA ha calls callsSmall calls_same sel ⟨0, 0, 0⟩ ⟨1, 1, 1⟩ 0 1 ⟨0, 0⟩ ⟨1, 1⟩ 0
      (fun _ => 1/4) (1/10) (by norm_num)) <|
  And.intro (C74_dop853 lib o ho DOP853 small (by norm_num [small]) 1000 (by norm_num) small_relabels logistic
      logisticSmall small_transforms .inf bo argsort hA ha calls callsSmall calls_same sel ⟨0, 0, 0⟩ ⟨1, 1, 1⟩ 0 1 ⟨0, 0, 0⟩ ⟨1, 1, 1⟩ 0
      (fun _ => 1/4) (1/10) (by norm_num)) <|
  C74_implicit_multistep lib zo BDF3 60 300 (by norm_num) logistic (pureRhs fun _ y i => y i * (1 - y i) / 60) (fun _ _ => rfl)
      .inf bo argsort hA ha [.step none none] [.step none none] (.cons (.step _ _) .nil) ⟨0, 0, 0⟩ ⟨1, 1, 1⟩ RungeKutta4 ⟨0, 0, 0⟩ ⟨1, 1, 1⟩
      0 1 0 (fun _ => 1/4) (1/10)

/-- Forgetting the second component of `x' = -x, q' = x`, on which the first does not depend. -/
def first : Change ℚ 2 1 := ⟨1, 0, fun _ j => if j = 0 then 1 else 0, 0⟩

/-- C74: what a fixed-step solver answers for some components does not change if components are added that they do not depend on. -/
example : first.Transforms (pureRhs fun _ y => ![-y 0, y 0]) (pureRhs fun _ x i => -x i) := by
  intro t y
  show Except.ok _ = Except.ok _
  congr 1
  funext i
  simp [Change.slope, Change.lin, Change.state, first]

end Demo
end Nbkode
