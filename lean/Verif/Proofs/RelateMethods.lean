import Verif.Proofs.Relate
import Verif.Proofs.Stages
import Verif.Proofs.Adaptive
import Mathlib.Tactic.Ring
import Mathlib.Tactic.FinCases
import Mathlib.Tactic.FieldSimp
import Mathlib.Tactic.Linarith
import Mathlib.Algebra.Order.Field.Basic

/-! The methods of the library run side by side under a change of variables. -/

set_option autoImplicit false
set_option linter.unusedSectionVars false

namespace Nbkode
open Py Spec Solver

section vars
variable {α : Type} [Field α] [LinearOrder α] [IsStrictOrderedRing α]

/-- Relations between the quantities of two problems: times, step sizes, states, differences of states and slopes. -/
structure Vars (α : Type) (n m : Nat) where
  tm : α → α → Prop
  hr : α → α → Prop
  vec : Vec α n → Vec α m → Prop
  dsp : Vec α n → Vec α m → Prop
  slp : Vec α n → Vec α m → Prop

variable {n m k : Nat}

/-- The relations are compatible with the arithmetic of a solver. -/
structure Vars.Lawful (V : Vars α n m) : Prop where
  lt : ∀ {a a' b b'}, V.tm a a' → V.tm b b' → (a < b ↔ a' < b')
  mid : ∀ {a a' b b'}, V.tm a a' → V.tm b b' → V.tm ((a + b) / 2) ((a' + b') / 2)
  tm_add : ∀ {t t' h h'}, V.tm t t' → V.hr h h' → V.tm (t + h) (t' + h')
  tm_sub : ∀ {t t' u u'}, V.tm t t' → V.tm u u' → V.hr (t - u) (t' - u')
  hr_mul : ∀ {h h'} (c : α), V.hr h h' → V.hr (h * c) (h' * c)
  hr_zero : ∀ {h h'}, V.hr h h' → (h = 0 ↔ h' = 0)
  hr_pos : ∀ {h h'}, V.hr h h' → (0 < h ↔ 0 < h')
  hr_div : ∀ {a a' b b'}, V.hr a a' → V.hr b b' → a / b = a' / b'
  dsp_zero : V.dsp 0 0
  dsp_add : ∀ {d d' e e'}, V.dsp d d' → V.dsp e e' → V.dsp (d + e) (d' + e')
  dsp_smul : ∀ {d d'} (c : α), V.dsp d d' → V.dsp (scale c d) (scale c d')
  slp_zero : V.slp 0 0
  slp_add : ∀ {d d' e e'}, V.slp d d' → V.slp e e' → V.slp (d + e) (d' + e')
  slp_smul : ∀ {d d'} (c : α), V.slp d d' → V.slp (scale c d) (scale c d')
  hr_slp : ∀ {h h' f f'}, V.hr h h' → V.slp f f' → V.dsp (scale h f) (scale h' f')
  vec_add : ∀ {y y' d d'}, V.vec y y' → V.dsp d d' → V.vec (y + d) (y' + d')
  vec_sub : ∀ {y y' z z'}, V.vec y y' → V.vec z z' → V.dsp (y - z) (y' - z')

/-- The same relations, read from right to left. -/
def Vars.flip (V : Vars α n m) : Vars α m n where
  tm := fun a b => V.tm b a
  hr := fun a b => V.hr b a
  vec := fun a b => V.vec b a
  dsp := fun a b => V.dsp b a
  slp := fun a b => V.slp b a

theorem Vars.Lawful.flip {V : Vars α n m} (L : V.Lawful) : V.flip.Lawful where
  lt := fun h1 h2 => (L.lt h1 h2).symm
  mid := fun h1 h2 => L.mid h1 h2
  tm_add := fun h1 h2 => L.tm_add h1 h2
  tm_sub := fun h1 h2 => L.tm_sub h1 h2
  hr_mul := fun c h => L.hr_mul c h
  hr_zero := fun h => (L.hr_zero h).symm
  hr_pos := fun h => (L.hr_pos h).symm
  hr_div := fun h1 h2 => (L.hr_div h1 h2).symm
  dsp_zero := L.dsp_zero
  dsp_add := fun h1 h2 => L.dsp_add h1 h2
  dsp_smul := fun c h => L.dsp_smul c h
  slp_zero := L.slp_zero
  slp_add := fun h1 h2 => L.slp_add h1 h2
  slp_smul := fun c h => L.slp_smul c h
  hr_slp := fun h1 h2 => L.hr_slp h1 h2
  vec_add := fun h1 h2 => L.vec_add h1 h2
  vec_sub := fun h1 h2 => L.vec_sub h1 h2

/-- Related right-hand sides. -/
def Vars.RhsRel (V : Vars α n m) (rhs : Rhs α n) (rhs' : Rhs α m) : Prop :=
  ∀ t t' y y', V.tm t t' → V.vec y y' → ExRel V.slp (rhs t y) (rhs' t' y')

theorem Vars.RhsRel.flip {V : Vars α n m} {rhs : Rhs α n} {rhs' : Rhs α m} (h : V.RhsRel rhs rhs') : V.flip.RhsRel rhs' rhs :=
  fun t t' y y' ht hy => exRel_flip (h t' t y' y ht hy)

/-- Related histories. -/
structure Vars.Hist (V : Vars α n m) (b : Buffer α n k) (b' : Buffer α m k) : Prop where
  ts : ∀ i, V.tm (b.ts i) (b'.ts i)
  ys : ∀ i, V.vec (b.ys i) (b'.ys i)
  fs : ∀ i, V.slp (b.fs i) (b'.fs i)

theorem Vars.Hist.push {V : Vars α n m} {b : Buffer α n k} {b' : Buffer α m k} (H : V.Hist b b') {t t' : α} {y f : Vec α n}
    {y' f' : Vec α m} (ht : V.tm t t') (hy : V.vec y y') (hf : V.slp f f') : V.Hist (b.push t y f) (b'.push t' y' f') := by
  constructor <;> intro i <;> unfold Buffer.push shiftIn <;> dsimp only <;> split
  · exact H.ts _
  · exact ht
  · exact H.ys _
  · exact hy
  · exact H.fs _
  · exact hf

theorem Vars.Hist.flip {V : Vars α n m} {b : Buffer α n k} {b' : Buffer α m k} (H : V.Hist b b') : V.flip.Hist b' b := ⟨H.ts, H.ys, H.fs⟩

variable {V : Vars α n m}

namespace Vars.Lawful
variable (L : V.Lawful)
include L

theorem eq_iff {a a' b b' : α} (h1 : V.tm a a') (h2 : V.tm b b') : a = b ↔ a' = b' := by
  have e1 := L.lt h1 h2
  have e2 := L.lt h2 h1
  constructor
  · intro h
    exact le_antisymm (not_lt.1 fun h' => absurd (e2.2 h') (by rw [h]; exact lt_irrefl _))
      (not_lt.1 fun h' => absurd (e1.2 h') (by rw [h]; exact lt_irrefl _))
  · intro h
    exact le_antisymm (not_lt.1 fun h' => absurd (e2.1 h') (by rw [h]; exact lt_irrefl _))
      (not_lt.1 fun h' => absurd (e1.1 h') (by rw [h]; exact lt_irrefl _))

theorem le_iff {a a' b b' : α} (h1 : V.tm a a') (h2 : V.tm b b') : a ≤ b ↔ a' ≤ b' := by
  rw [← not_lt, ← not_lt, L.lt h2 h1]

theorem dsp_sum {r : Nat} (b : Fin r → α) (K : Fin r → Vec α n) (K' : Fin r → Vec α m) (h : ∀ j, V.dsp (K j) (K' j)) :
    V.dsp (vdot b K) (vdot b K') := by
  induction r with
  | zero =>
    have e : vdot b K = 0 := by funext i; simp [vdot]
    have e' : vdot b K' = 0 := by funext i; simp [vdot]
    rw [e, e']; exact L.dsp_zero
  | succ r ih =>
    have e : vdot b K = vdot (fun j : Fin r => b j.castSucc) (fun j => K j.castSucc) + scale (b (Fin.last r)) (K (Fin.last r)) := by
      funext i; simp only [vdot, Fin.foldl_succ_last, Pi.add_apply, scale]
    have e' : vdot b K' = vdot (fun j : Fin r => b j.castSucc) (fun j => K' j.castSucc) + scale (b (Fin.last r)) (K' (Fin.last r)) := by
      funext i; simp only [vdot, Fin.foldl_succ_last, Pi.add_apply, scale]
    rw [e, e']
    exact L.dsp_add (ih _ _ _ fun j => h _) (L.dsp_smul _ (h _))

theorem slp_sum {r : Nat} (b : Fin r → α) (K : Fin r → Vec α n) (K' : Fin r → Vec α m) (h : ∀ j, V.slp (K j) (K' j)) :
    V.slp (vdot b K) (vdot b K') := by
  induction r with
  | zero =>
    have e : vdot b K = 0 := by funext i; simp [vdot]
    have e' : vdot b K' = 0 := by funext i; simp [vdot]
    rw [e, e']; exact L.slp_zero
  | succ r ih =>
    have e : vdot b K = vdot (fun j : Fin r => b j.castSucc) (fun j => K j.castSucc) + scale (b (Fin.last r)) (K (Fin.last r)) := by
      funext i; simp only [vdot, Fin.foldl_succ_last, Pi.add_apply, scale]
    have e' : vdot b K' = vdot (fun j : Fin r => b j.castSucc) (fun j => K' j.castSucc) + scale (b (Fin.last r)) (K' (Fin.last r)) := by
      funext i; simp only [vdot, Fin.foldl_succ_last, Pi.add_apply, scale]
    rw [e, e']
    exact L.slp_add (ih _ _ _ fun j => h _) (L.slp_smul _ (h _))

theorem hr_sum {r : Nat} {h h' : α} (hh : V.hr h h') (b : Fin r → α) (K : Fin r → Vec α n) (K' : Fin r → Vec α m)
    (hK : ∀ j, V.slp (K j) (K' j)) : V.dsp (vdot (fun j => h * b j) K) (vdot (fun j => h' * b j) K') := by
  have e : ∀ {q : Nat} (x : α) (K : Fin r → Vec α q), vdot (fun j => x * b j) K = scale x (vdot b K) := by
    intro q x K
    funext i
    rw [vdot_apply, scale, vdot_apply, Finset.mul_sum]
    exact Finset.sum_congr rfl fun _ _ => by ring
  rw [e, e]
  exact L.hr_slp hh (L.slp_sum b K K' hK)

theorem dsp_sub {d e : Vec α n} {d' e' : Vec α m} (h1 : V.dsp d d') (h2 : V.dsp e e') : V.dsp (d - e) (d' - e') := by
  have x : ∀ {q : Nat} (a b : Vec α q), a - b = a + scale (-1) b := by intro q a b; funext i; simp [scale, sub_eq_add_neg]
  rw [x, x]
  exact L.dsp_add h1 (L.dsp_smul _ h2)

end Vars.Lawful

section beq
variable [BEq α] [LawfulBEq α]
variable (L : V.Lawful)
include L

theorem Vars.Lawful.beq_eq {a a' b b' : α} (h1 : V.tm a a') (h2 : V.tm b b') : (a == b) = (a' == b') := by
  rw [Bool.eq_iff_iff, beq_iff_eq, beq_iff_eq]; exact L.eq_iff h1 h2

theorem Vars.Lawful.pyDiv_hr {a a' b b' : α} (h1 : V.hr a a') (h2 : V.hr b b') : ExRel Eq (pyDiv a b) (pyDiv a' b') := by
  unfold pyDiv
  have := L.hr_zero h2
  by_cases h : b = 0
  · rw [if_pos (by simpa using h), if_pos (by simpa using this.1 h)]; rfl
  · rw [if_neg (by simpa using h), if_neg (by simpa using fun h' => h (this.2 h'))]; exact L.hr_div h1 h2

theorem Vars.Lawful.pyMid {a a' b b' : α} (h1 : V.tm a a') (h2 : V.tm b b') :
    ExRel V.tm (pyDiv (a + b) ((2 : Nat) : α)) (pyDiv (a' + b') ((2 : Nat) : α)) := by
  unfold pyDiv
  have : ¬ (((2 : Nat) : α) == 0) = true := by simp
  rw [if_neg this, if_neg this]
  have := L.mid h1 h2
  simpa [ExRel] using this

/-- The default interpolation. -/
theorem follows_hermite {X Y : Type} {R : St α n k X → St α m k Y → Prop}
    (hR : ∀ x y, R x y → V.Hist x.cache y.cache) {t t' : α} (ht : V.tm t t') :
    Follows R (fun r r' x y => RefRel V.vec r r' ∧ R x y) R (hermiteInterp t : Py (St α n k X) _) (hermiteInterp t') := by
  unfold hermiteInterp
  refine follows_read fun x y h => ?_
  have H := hR x y h
  dsimp only
  refine follows_ite (by rw [L.beq_eq ht (H.ts _)]) (fun _ => follows_pure fun _ _ h => ⟨rfl, h⟩) fun _ => ?_
  refine follows_bind (follows_ofExcept (L.pyDiv_hr (L.tm_sub ht (H.ts _)) (L.tm_sub (H.ts (Buffer.iLast k)) (H.ts _)))
    fun _ _ h => h) fun T T' => follows_fact fun hT => follows_pure fun _ _ h => ⟨?_, h⟩
  subst hT
  have hdy := L.vec_sub (H.ys (Buffer.iLast k)) (H.ys (Buffer.iOld k))
  have hdt := L.tm_sub (H.ts (Buffer.iLast k)) (H.ts (Buffer.iOld k))
  refine L.vec_add (L.vec_add (H.ys _) (L.dsp_smul _ hdy)) (L.dsp_smul _ (L.dsp_add (L.dsp_smul _ hdy) (L.hr_slp hdt ?_)))
  exact L.slp_add (L.slp_smul _ (H.fs _)) (L.slp_smul _ (H.fs _))

/-! ### Explicit multistep methods -/

theorem multistepK_rel {p : Nat} (c : MultistepCoef α p) (hA : ∑ j, c.A j = -1) {b : Buffer α n (histExtra p)} {b' : Buffer α m (histExtra p)}
    (H : V.Hist b b') {h h' : α} (hh : V.hr h h') : V.vec (multistepK c b h) (multistepK c b' h') := by
  have e : ∀ {q : Nat} (b : Buffer α q (histExtra p)) (h : α), multistepK c b h =
      b.y + (vdot (fun j => h * c.B j) (lastRows b.fs) - vdot c.A (fun j => lastRows b.ys j - b.y)) := by
    intro q b h
    funext i
    unfold multistepK
    simp only [Pi.sub_apply, Pi.add_apply, vdot_apply, mul_sub, Finset.sum_sub_distrib, ← Finset.sum_mul, hA]
    ring
  rw [e, e]
  exact L.vec_add (H.ys _) (L.dsp_sub (L.hr_sum hh _ _ _ fun j => H.fs _) (L.dsp_sum _ _ _ fun j => L.vec_sub (H.ys _) (H.ys _)))

/-- Related states of a solver whose scratch does not matter. -/
def Vars.StRel (V : Vars α n m) {X Y : Type} (x : St α n k X) (y : St α m k Y) : Prop := V.Hist x.cache y.cache ∧ V.hr x.h y.h

omit L in
omit [BEq α] [LawfulBEq α] in
theorem Vars.StRel.flip {X Y : Type} {x : St α n k X} {y : St α m k Y} (H : V.StRel x y) : V.flip.StRel y x := ⟨H.1.flip, H.2⟩

theorem follows_explicit {p : Nat} (c : MultistepCoef α p) (hA : ∑ j, c.A j = -1) {rhs : Rhs α n} {rhs' : Rhs α m}
    (hf : V.RhsRel rhs rhs') :
    Follows V.StRel (fun _ _ => V.StRel) V.StRel (explicitMultistepBody c rhs) (explicitMultistepBody c rhs') := by
  unfold explicitMultistepBody
  refine follows_read fun x y h => ?_
  dsimp only
  have ht := L.tm_add (h.1.ts (Buffer.iLast _)) h.2
  have hy := multistepK_rel L c hA h.1 h.2
  refine follows_bind (follows_ofExcept (hf _ _ _ _ ht hy) fun _ _ h => h) fun u v => follows_fact fun huv => ?_
  exact follows_modify fun x y h => ⟨h.1.push ht hy huv, h.2⟩

/-! ### Explicit Runge-Kutta methods -/

theorem rowDot_rel {s r : Nat} (hm : s + 1 ≤ r) (A : Fin (s + 1) → Fin (s + 1) → α) (K : Fin r → Vec α n) (K' : Fin r → Vec α m)
    (i : Fin (s + 1)) (h : ∀ j : Fin r, j.val < i.val → V.slp (K j) (K' j)) : V.slp (rowDot hm A K i) (rowDot hm A K' i) :=
  L.slp_sum _ _ _ fun j => h _ j.isLt

/-- Rows `< q` are related; the rows from `s + 1` on are `Z`-related throughout. -/
theorem follows_stageLoop {s r : Nat} (hm : s + 1 ≤ r) (T : Tableau α s) {rhs : Rhs α n} {rhs' : Rhs α m}
    (hf : V.RhsRel rhs rhs') {t t' h h' : α} {y : Vec α n} {y' : Vec α m} (ht : V.tm t t') (hh : V.hr h h') (hy : V.vec y y')
    (Z : Fin r → Prop) (d : Nat) : ∀ q, q + d = s + 1 →
      Follows (fun K K' => ∀ j : Fin r, (j.val < q ∨ Z j) → V.slp (K j) (K' j))
        (fun _ _ K K' => ∀ j : Fin r, (j.val < s + 1 ∨ Z j) → V.slp (K j) (K' j))
        (fun K K' => ∀ j : Fin r, Z j → V.slp (K j) (K' j))
        (stageLoop hm T rhs t h y ((List.finRange (s + 1)).drop q)) (stageLoop hm T rhs' t' h' y' ((List.finRange (s + 1)).drop q)) := by
  induction d with
  | zero =>
    intro q hq
    have : (List.finRange (s + 1)).drop q = [] := by
      apply List.drop_eq_nil_of_le; rw [List.length_finRange]; omega
    rw [this]
    exact follows_pure fun K K' h j hj => h j (hj.imp_left (by omega))
  | succ d ih =>
    intro q hq
    have hqs : q < s + 1 := by omega
    have hd : (List.finRange (s + 1)).drop q = (⟨q, hqs⟩ : Fin (s + 1)) :: (List.finRange (s + 1)).drop (q + 1) := by
      rw [List.drop_eq_getElem_cons (by rw [List.length_finRange]; exact hqs)]
      simp
    rw [hd, stageLoop, stageLoop]
    refine follows_read fun K K' hK => ?_
    dsimp only
    have hk : ExRel V.slp (rhs (t + h * T.C ⟨q, hqs⟩) (y + scale h (rowDot hm T.A K ⟨q, hqs⟩)))
        (rhs' (t' + h' * T.C ⟨q, hqs⟩) (y' + scale h' (rowDot hm T.A K' ⟨q, hqs⟩))) :=
      hf _ _ _ _ (L.tm_add ht (L.hr_mul _ hh)) (L.vec_add hy (L.hr_slp hh (rowDot_rel L hm T.A K K' _ fun j hj => hK j (Or.inl hj))))
    refine follows_bind (follows_ofExcept hk fun K K' h j hj => h j (Or.inr hj)) fun u v => follows_fact fun huv => ?_
    refine follows_bind (Q := fun _ _ K K' => ∀ j : Fin r, (j.val < q + 1 ∨ Z j) → V.slp (K j) (K' j)) (follows_modify ?_)
      fun _ _ => ih (q + 1) (by omega)
    intro K K' hK j hj
    by_cases e : j = Fin.castLE hm ⟨q, hqs⟩
    · rw [e, Function.update_self, Function.update_self]; exact huv
    · rw [Function.update_of_ne e, Function.update_of_ne e]
      refine hK j (hj.imp_left fun h => ?_)
      have : j.val ≠ q := fun h => e (Fin.ext h)
      omega

theorem follows_stages {s r : Nat} (hm : s + 1 ≤ r) (T : Tableau α s) {rhs : Rhs α n} {rhs' : Rhs α m}
    (hf : V.RhsRel rhs rhs') {t t' h h' : α} {y f : Vec α n} {y' f' : Vec α m} (ht : V.tm t t') (hh : V.hr h h') (hy : V.vec y y')
    (hfs : V.slp f f') (Z : Fin r → Prop) :
      Follows (fun K K' => ∀ j : Fin r, Z j → V.slp (K j) (K' j))
        (fun _ _ K K' => ∀ j : Fin r, (j.val < s + 1 ∨ Z j) → V.slp (K j) (K' j))
        (fun K K' => ∀ j : Fin r, Z j → V.slp (K j) (K' j))
        (stages hm T rhs t h y f) (stages hm T rhs' t' h' y' f') := by
  unfold stages
  refine follows_bind (Q := fun _ _ K K' => ∀ j : Fin r, (j.val < 1 ∨ Z j) → V.slp (K j) (K' j)) (follows_modify ?_) fun _ _ => ?_
  · intro K K' hK j hj
    by_cases e : j = Fin.castLE hm 0
    · rw [e, Function.update_self, Function.update_self]; exact hfs
    · rw [Function.update_of_ne e, Function.update_of_ne e]
      refine hK j (hj.resolve_left fun h => e (Fin.ext ?_))
      simp; omega
  · have := follows_stageLoop L hm T hf ht hh hy Z s 1 (by omega)
    rwa [show (List.finRange (s + 1)).drop 1 = (List.finRange (s + 1)).tail by simp] at this

theorem follows_erk {s : Nat} (T : Tableau α s) {rhs : Rhs α n} {rhs' : Rhs α m} (hf : V.RhsRel rhs rhs') :
    Follows V.StRel (fun _ _ => V.StRel) V.StRel (erkBody T rhs) (erkBody T rhs') := by
  unfold erkBody erkFixedStep
  simp only [bind_assoc, pure_bind]
  refine follows_get fun x y h => ?_
  refine follows_bind (Q := fun _ _ u v => (u.cache = x.cache ∧ v.cache = y.cache ∧ u.h = x.h ∧ v.h = y.h) ∧ ∀ j, V.slp (u.aux j) (v.aux j))
    (follows_zoom (follows_stages L (le_refl _) T hf (h.1.ts _) h.2 (h.1.ys _) (h.1.fs _) fun _ => False) ?_ ?_ ?_) fun _ _ => ?_
  · intro _ _ _ j hj; exact hj.elim
  · rintro _ _ ⟨rfl, rfl⟩ _ _ u v huv
    exact ⟨⟨rfl, rfl, rfl, rfl⟩, fun j => huv j (Or.inl j.isLt)⟩
  · rintro _ _ ⟨rfl, rfl⟩ u v _
    exact h
  · refine follows_get ?_
    rintro u v ⟨⟨e1, e2, e3, e4⟩, hK⟩
    have ht : V.tm (x.cache.t + x.h) (y.cache.t + y.h) := L.tm_add (h.1.ts _) h.2
    have hy : V.vec (x.cache.y + vdot (fun j => x.h * T.B j) u.aux) (y.cache.y + vdot (fun j => y.h * T.B j) v.aux) :=
      L.vec_add (h.1.ys _) (L.hr_sum h.2 _ _ _ hK)
    have hst : V.StRel u v := ⟨by rw [e1, e2]; exact h.1, by rw [e3, e4]; exact h.2⟩
    refine follows_bind (follows_ofExcept (hf _ _ _ _ ht hy) ?_) fun a b => follows_fact fun hab => ?_
    · rintro _ _ ⟨rfl, rfl⟩; exact hst
    · refine follows_modify ?_
      rintro _ _ ⟨rfl, rfl⟩
      exact ⟨hst.1.push ht hy hab, hst.2⟩

/-! ### Variable-step methods -/

/-- The times at which a variable-step solver is asked to interpolate. -/
def varRng {q : Nat} (b : Buffer α q 0) (t : α) : Prop := b.ts (Buffer.iPrev 0) ≤ t ∨ b.ts (Buffer.iLast 0) ≤ t

/-- Related states of a variable-step solver. Before the first step nothing is known about the stages `K`. The interpolator
(`ut`: the time it was last updated) is related, or it is stale and will be updated before it is used. -/
structure Vars.VarRel (V : Vars α n m) {s : Nat} {I J : Type} (ut : I → α) (ut' : J → α) (RI : I → J → Prop)
    (x : St α n 0 (FsalAux α n s I)) (y : St α m 0 (FsalAux α m s J)) : Prop where
  st : V.StRel x y
  pos : 0 < x.h
  mono : x.cache.ts (Buffer.iPrev 0) ≤ x.cache.ts (Buffer.iLast 0)
  K : x.cache.ts (Buffer.iPrev 0) = x.cache.ts (Buffer.iLast 0) ∨ ∀ j, V.slp (x.aux.K j) (y.aux.K j)
  ut_rel : V.tm (ut x.aux.itp) (ut' y.aux.itp) ∨
    (ut x.aux.itp ≤ x.cache.ts (Buffer.iPrev 0) ∧ ut' y.aux.itp ≤ y.cache.ts (Buffer.iPrev 0))
  ut_le : ut x.aux.itp ≤ x.cache.ts (Buffer.iLast 0)
  itp : RI x.aux.itp y.aux.itp ∨ ut x.aux.itp ≤ x.cache.ts (Buffer.iPrev 0)

theorem Vars.VarRel.flip {s : Nat} {I J : Type} {ut : I → α} {ut' : J → α} {RI : I → J → Prop}
    {x : St α n 0 (FsalAux α n s I)} {y : St α m 0 (FsalAux α m s J)} (H : V.VarRel ut ut' RI x y) :
    V.flip.VarRel ut' ut (fun j i => RI i j) y x where
  st := ⟨⟨H.st.1.ts, H.st.1.ys, H.st.1.fs⟩, H.st.2⟩
  pos := (L.hr_pos H.st.2).1 H.pos
  mono := (L.le_iff (H.st.1.ts _) (H.st.1.ts _)).1 H.mono
  K := H.K.imp_left (L.eq_iff (H.st.1.ts _) (H.st.1.ts _)).1
  ut_rel := H.ut_rel.imp_right And.symm
  ut_le := H.ut_rel.elim (fun h => (L.le_iff h (H.st.1.ts _)).1 H.ut_le) fun h =>
    h.2.trans ((L.le_iff (H.st.1.ts _) (H.st.1.ts _)).1 H.mono)
  itp := H.itp.imp_right fun h => H.ut_rel.elim (fun h' => (L.le_iff h' (H.st.1.ts _)).1 h) fun h => h.2

/-- Both interpolators are updated, or none is. -/
theorem Vars.VarRel.lt_ut {s : Nat} {I J : Type} {ut : I → α} {ut' : J → α} {RI : I → J → Prop}
    {x : St α n 0 (FsalAux α n s I)} {y : St α m 0 (FsalAux α m s J)} (H : V.VarRel ut ut' RI x y) {t t' : α} (ht : V.tm t t')
    (hr : varRng x.cache t) : t < ut x.aux.itp ↔ t' < ut' y.aux.itp := by
  rcases H.ut_rel with h | h
  · exact L.lt ht h
  · have h1 : x.cache.ts (Buffer.iPrev 0) ≤ t := hr.elim id fun h => H.mono.trans h
    have h2 := (L.le_iff (H.st.1.ts _) ht).1 h1
    exact iff_of_false (not_lt.2 (h.1.trans h1)) (not_lt.2 (h.2.trans h2))

theorem exRel_bind {A B A' B' : Type} {Q : A → B → Prop} {Q' : A' → B' → Prop} {u : Except Err A} {v : Except Err B} (h : ExRel Q u v)
    {f : A → Except Err A'} {g : B → Except Err B'} (hfg : ∀ a b, Q a b → ExRel Q' (f a) (g b)) : ExRel Q' (u >>= f) (v >>= g) := by
  cases u <;> cases v <;> first | exact (False.elim h) | exact h | exact hfg _ _ h

theorem exRel_refl {A : Type} (u : Except Err A) : ExRel Eq u u := by cases u <;> rfl

theorem stepUpdate_rel (lib : Lib α) {o o' : VarOptions α} (ho : o'.minFactor = o.minFactor ∧ o'.maxFactor = o.maxFactor ∧
    o'.safetyFactor = o.safetyFactor) (ex e : α) {h h' : α} (hh : V.hr h h') :
    ExRel (fun p q => V.hr p.1 q.1 ∧ p.2 = q.2) (stepUpdate lib o ex e h) (stepUpdate lib o' ex e h') := by
  unfold stepUpdate
  rw [ho.1, ho.2.1, ho.2.2]
  split
  · exact ⟨L.hr_mul _ hh, rfl⟩
  · refine exRel_bind L (exRel_refl L _) fun a b hab => ?_
    subst hab
    exact ⟨L.hr_mul _ hh, rfl⟩

theorem follows_fsalFixed {s : Nat} {I J : Type} {ut : I → α} {ut' : J → α} {RI : I → J → Prop} (T : Tableau α s) {rhs : Rhs α n}
    {rhs' : Rhs α m} (hf : V.RhsRel rhs rhs') (b : Buffer α n 0) (b' : Buffer α m 0) :
    Follows (fun x y => V.VarRel ut ut' RI x y ∧ x.cache = b ∧ y.cache = b')
      (fun p q x y => (V.tm p.1 q.1 ∧ V.vec p.2 q.2 ∧ b.t < p.1) ∧ V.VarRel ut ut' RI x y ∧ (∀ j, V.slp (x.aux.K j) (y.aux.K j)) ∧
        x.cache = b ∧ y.cache = b') (V.VarRel ut ut' RI)
      (fsalFixedStep T rhs) (fsalFixedStep T rhs') := by
  unfold fsalFixedStep
  refine follows_get fun x y ⟨h, hb, hb'⟩ => ?_
  have hs : V.Hist x.cache y.cache := h.st.1
  have hh : V.hr x.h y.h := h.st.2
  refine follows_bind (Q := fun _ _ u v => V.VarRel ut ut' RI u v ∧ (∀ j : Fin (s + 2), j.val < s + 1 → V.slp (u.aux.K j) (v.aux.K j)) ∧
      u.cache = b ∧ v.cache = b')
    (follows_zoom (follows_stages L (by omega) T hf (hs.ts _) hh (hs.ys _) (hs.fs _) fun _ => ∀ j, V.slp (x.aux.K j) (y.aux.K j)) ?_ ?_ ?_)
    fun _ _ => ?_
  · rintro _ _ ⟨rfl, rfl⟩ j hj; exact hj j
  · rintro _ _ ⟨rfl, rfl⟩ _ _ u v huv
    exact ⟨⟨h.st, h.pos, h.mono, h.K.imp_right fun hK j => huv j (Or.inr hK), h.ut_rel, h.ut_le, h.itp⟩, fun j hj => huv j (Or.inl hj), hb, hb'⟩
  · rintro _ _ ⟨rfl, rfl⟩ u v huv
    exact ⟨h.st, h.pos, h.mono, h.K.imp_right fun hK j => huv j hK, h.ut_rel, h.ut_le, h.itp⟩
  · refine follows_read fun u v ⟨hu, hK, _, _⟩ => ?_
    have ht : V.tm (x.cache.t + x.h) (y.cache.t + y.h) := L.tm_add (hs.ts _) hh
    have hy : V.vec (x.cache.y + vdot (fun j => x.h * T.B j) (fun j : Fin (s + 1) => u.aux.K j.castSucc))
        (y.cache.y + vdot (fun j => y.h * T.B j) (fun j : Fin (s + 1) => v.aux.K j.castSucc)) :=
      L.vec_add (hs.ys _) (L.hr_sum hh _ _ _ fun j => hK _ j.isLt)
    refine follows_bind (follows_ofExcept (hf _ _ _ _ ht hy) fun _ _ h => h.1) fun a c => follows_fact fun hac => ?_
    refine follows_bind (Q := fun _ _ u v => V.VarRel ut ut' RI u v ∧ (∀ j, V.slp (u.aux.K j) (v.aux.K j)) ∧ u.cache = b ∧ v.cache = b')
      (follows_modify ?_) fun _ _ => follows_pure fun _ _ h' => ⟨⟨ht, hy, ?_⟩, h'⟩
    · rintro p q ⟨h1, h2, h4, h5⟩
      have hall : ∀ j, V.slp (Function.update p.aux.K (Fin.last _) a j) (Function.update q.aux.K (Fin.last _) c j) := by
        intro j
        by_cases e : j = Fin.last _
        · rw [e, Function.update_self, Function.update_self]; exact hac
        · rw [Function.update_of_ne e, Function.update_of_ne e]
          refine h2 j ?_
          have := j.isLt
          have : j.val ≠ s + 1 := fun h => e (Fin.ext h)
          omega
      exact ⟨⟨h1.st, h1.pos, h1.mono, Or.inr hall, h1.ut_rel, h1.ut_le, h1.itp⟩, hall, h4, h5⟩
    · rw [← hb]
      exact lt_add_of_pos_right _ h.pos

theorem follows_fsal {s : Nat} {I J : Type} {ut : I → α} {ut' : J → α} {RI : I → J → Prop} (lib : Lib α) {o o' : VarOptions α}
    (hso : SaneOptions o)
    (ho : o'.minFactor = o.minFactor ∧ o'.maxFactor = o.maxFactor ∧ o'.safetyFactor = o.safetyFactor) (ex : α) (T : Tableau α s)
    {norm : ErrNorm α n s} {norm' : ErrNorm α m s}
    (hn : ∀ h h' K K' y y' z z', V.hr h h' → (∀ j, V.slp (K j) (K' j)) → V.vec y y' → V.vec z z' →
      ExRel Eq (norm h K y z) (norm' h' K' y' z'))
    {rhs : Rhs α n} {rhs' : Rhs α m} (hf : V.RhsRel rhs rhs') (b : Buffer α n 0) :
    Follows (fun x y => V.VarRel ut ut' RI x y ∧ x.cache = b)
      (fun _ _ x y => V.VarRel ut ut' RI x y ∧ x.cache.ts (Buffer.iPrev 0) = b.t) (V.VarRel ut ut' RI)
      (fsalBody lib o ex T norm rhs) (fsalBody lib o' ex T norm' rhs') := by
  refine fsalBody.fixpoint_induct lib o ex T norm rhs
    (fun p => Follows (fun x y => V.VarRel ut ut' RI x y ∧ x.cache = b)
      (fun _ _ x y => V.VarRel ut ut' RI x y ∧ x.cache.ts (Buffer.iPrev 0) = b.t) (V.VarRel ut ut' RI)
      p (fsalBody lib o' ex T norm' rhs')) (admissible_follows _) ?_
  intro loop ih
  rw [fsalBody.eq_1 lib o' ex T norm' rhs']
  intro x0 y0 ⟨h0, hb0⟩
  refine (?_ : Follows (fun x y => V.VarRel ut ut' RI x y ∧ x.cache = b ∧ y.cache = y0.cache) (fun _ _ x y => V.VarRel ut ut' RI x y ∧
    x.cache.ts (Buffer.iPrev 0) = b.t) (V.VarRel ut ut' RI) _ _) x0 y0 ⟨h0, hb0, rfl⟩
  refine follows_bind (follows_fsalFixed L T hf _ _) ?_
  rintro ⟨t, y⟩ ⟨t', y'⟩
  refine follows_fact ?_
  rintro ⟨ht, hy, hbt⟩
  refine follows_read fun u v ⟨hu, hK, e1, e2⟩ => ?_
  refine follows_bind (follows_ofExcept (hn _ _ _ _ _ _ _ _ hu.st.2 hK hy (hu.st.1.ys _)) fun _ _ h => h.1) fun en en' => follows_fact fun he => ?_
  subst he
  have hpos : ∀ h1 a1, stepUpdate lib o ex en u.h = .ok (h1, a1) → 0 < h1 := by
    intro h1 a1 e
    obtain ⟨q, hq, rfl⟩ := stepUpdate_pos hso e
    exact mul_pos hu.pos hq
  have hsu : ExRel (fun p q => V.hr p.1 q.1 ∧ p.2 = q.2 ∧ 0 < p.1) (stepUpdate lib o ex en u.h) (stepUpdate lib o' ex en v.h) := by
    have := stepUpdate_rel L lib ho ex en hu.st.2
    revert this hpos
    cases stepUpdate lib o ex en u.h <;> cases stepUpdate lib o' ex en v.h <;> intro h1 h2 <;>
      first | exact (False.elim h2) | exact h2 | exact ⟨h2.1, h2.2, h1 _ _ rfl⟩
  refine follows_bind (follows_ofExcept hsu fun _ _ h => h.1) ?_
  rintro ⟨h1, a1⟩ ⟨h2, a2⟩
  refine follows_fact ?_
  rintro ⟨hh, ha, hp⟩
  cases (show a1 = a2 from ha)
  refine follows_bind (Q := fun _ _ x y => V.VarRel ut ut' RI x y ∧ (∀ j, V.slp (x.aux.K j) (y.aux.K j)) ∧ x.cache = b) (follows_modify ?_)
    fun _ _ => follows_ite Iff.rfl (fun _ => ?_) fun _ => follows_pre ih fun _ _ h => ⟨h.1, h.2.2⟩
  · rintro p q ⟨g, g', e, _⟩
    exact ⟨⟨⟨g.st.1, hh⟩, hp, g.mono, g.K, g.ut_rel, g.ut_le, g.itp⟩, g', e⟩
  · refine follows_modify ?_
    rintro p q ⟨g, g', e⟩
    subst e
    have i1 : (p.cache.push t y (u.aux.K (Fin.last _))).ts (Buffer.iPrev 0) = p.cache.t := rfl
    have i2 : (p.cache.push t y (u.aux.K (Fin.last _))).ts (Buffer.iLast 0) = t := rfl
    refine ⟨⟨⟨g.st.1.push ht hy (hK _), g.st.2⟩, g.pos, ?_, Or.inr g', ?_, ?_, Or.inr ?_⟩, i1⟩
    · dsimp only
      rw [i1, i2]; exact hbt.le
    · refine g.ut_rel.imp_right fun h => ⟨?_, ?_⟩
      · dsimp only
        rw [i1]; exact g.ut_le
      · exact h.2.trans ((L.le_iff (g.st.1.ts _) (g.st.1.ts _)).1 g.mono)
    · dsimp only
      rw [i2]; exact g.ut_le.trans hbt.le
    · dsimp only
      rw [i1]; exact g.ut_le

/-- Related interpolators of `RungeKutta23` and `RungeKutta45`. -/
def Vars.RkRel (V : Vars α n m) {d : Nat} (I : RkItp α n d) (J : RkItp α m d) : Prop := ∀ j, V.slp (I.Q j) (J.Q j)

/-- Related states of `RungeKutta23` and `RungeKutta45`. -/
abbrev Vars.RkSt (V : Vars α n m) {s d : Nat} (x : St α n 0 (FsalAux α n s (RkItp α n d))) (y : St α m 0 (FsalAux α m s (RkItp α m d))) : Prop :=
  V.VarRel RkItp.updatedT RkItp.updatedT V.RkRel x y

theorem follows_rkUpdate {s d : Nat} (P : Fin (s + 2) → Fin d → α) (b : Buffer α n 0) :
    Follows (fun x y => V.RkSt x y ∧ x.cache = b)
      (fun _ _ x y => V.RkSt x y ∧ x.cache = b ∧ (b.ts (Buffer.iPrev 0) = b.ts (Buffer.iLast 0) ∨ V.RkRel x.aux.itp y.aux.itp)) V.RkSt
      (rkUpdate (n := n) P) (rkUpdate (n := m) P) := by
  refine follows_modify ?_
  rintro p q ⟨g, rfl⟩
  have key : p.cache.ts (Buffer.iPrev 0) = p.cache.ts (Buffer.iLast 0) ∨ ∀ j, V.slp (vdot (fun i => P i j) p.aux.K) (vdot (fun i => P i j) q.aux.K) :=
    g.K.imp_right fun hK j => L.slp_sum (fun i => P i j) _ _ hK
  exact ⟨⟨g.st, g.pos, g.mono, g.K, Or.inl (g.st.1.ts _), le_refl _, key.symm.imp_right fun h => h.ge⟩, rfl, key⟩

theorem follows_rkInterp {s d : Nat} (P : Fin (s + 2) → Fin d → α) {t t' : α} (ht : V.tm t t') (b : Buffer α n 0) (hb : varRng b t) :
    Follows (fun x y => V.RkSt x y ∧ x.cache = b) (fun r r' x y => RefRel V.vec r r' ∧ V.RkSt x y ∧ x.cache = b) V.RkSt
      (rkInterp (n := n) P t) (rkInterp (n := m) P t') := by
  unfold rkInterp
  refine follows_get fun x y ⟨h, hx⟩ => ?_
  refine follows_ite (by rw [L.beq_eq ht (h.st.1.ts _)]) (fun _ => follows_pure ?_) fun _ => ?_
  · rintro _ _ ⟨rfl, rfl⟩; exact ⟨rfl, h, hx⟩
  refine follows_ite (by rw [L.beq_eq ht (h.st.1.ts _)]) (fun _ => follows_pure ?_) fun _ => ?_
  · rintro _ _ ⟨rfl, rfl⟩; exact ⟨rfl, h, hx⟩
  apply share
  case k =>
    intro tail
    refine follows_ite (by rw [decide_eq_decide.2 (h.lt_ut L ht (by rw [hx]; exact hb))]) (fun _ => ?_) fun hc => ?_
    · refine follows_bind (follows_pre (follows_rkUpdate L P b) ?_) fun _ _ => tail
      rintro _ _ ⟨rfl, rfl⟩; exact ⟨h, hx⟩
    · have hc : t < x.aux.itp.updatedT := by simpa using hc
      have hb' : varRng x.cache t := by rw [hx]; exact hb
      refine follows_pre tail ?_
      rintro _ _ ⟨rfl, rfl⟩
      refine ⟨h, hx, Or.inr ?_⟩
      rcases hb' with hb' | hb'
      · exact h.itp.resolve_right fun g => absurd (g.trans hb') (not_le.2 hc)
      · exact absurd (h.ut_le.trans hb') (not_le.2 hc)
  refine follows_read fun x y ⟨h, hx, hq⟩ => ?_
  have hdt := L.tm_sub (h.st.1.ts (Buffer.iLast 0)) (h.st.1.ts (Buffer.iPrev 0))
  dsimp only
  by_cases hz : x.cache.ts (Buffer.iLast 0) - x.cache.ts (Buffer.iPrev 0) = 0
  · rw [hz, (L.hr_zero hdt).1 hz]
    have e : ∀ a : α, pyDiv a (0 : α) = .error .zeroDivisionError := fun a => by unfold pyDiv; simp
    rw [e, e]
    exact follows_bind (Q := fun _ _ => fun _ _ => False) (follows_weaken (follows_ofExcept (Q0 := fun _ _ => False) (u := .error .zeroDivisionError) (v := .error .zeroDivisionError) rfl fun _ _ h => h) (fun _ _ h => h.1) fun _ _ _ _ h => h.1) fun _ _ _ _ h => h.elim
  have hQ : V.RkRel x.aux.itp y.aux.itp := hq.resolve_left fun e => hz (by rw [hx, e, sub_self])
  refine follows_bind (follows_ofExcept (L.pyDiv_hr (L.tm_sub ht (h.st.1.ts _)) hdt) fun _ _ h => h.1) fun a b => follows_fact fun hab => ?_
  subst hab
  refine follows_pure fun _ _ h' => ⟨?_, h'.1, h'.2.1⟩
  have e : ∀ {q : Nat} (Q : Fin d → Vec α q) (w : α) (z : Vec α q), rkEval Q w a z = z + scale w (vdot (fun j => cumpow a j.val) Q) := by
    intro q Q w z
    funext i
    simp only [rkEval, Pi.add_apply, scale, vdot]
    rw [add_comm]
    congr 3
    funext acc j
    rw [mul_comm]
  show V.vec (rkEval _ _ a _) (rkEval _ _ a _)
  rw [e, e]
  exact L.vec_add (h.st.1.ys _) (L.hr_slp hdt (L.slp_sum _ _ _ hQ))

/-- Related interpolators of `DOP853`. -/
def Vars.DopRel (V : Vars α n m) (I : DopItp α n) (J : DopItp α m) : Prop := ∀ j, V.dsp (I.F j) (J.F j)

/-- Related states of `DOP853`. -/
abbrev Vars.DopSt (V : Vars α n m) (x : St α n 0 (FsalAux α n 11 (DopItp α n))) (y : St α m 0 (FsalAux α m 11 (DopItp α m))) : Prop :=
  V.VarRel DopItp.updatedT DopItp.updatedT V.DopRel x y

/-- The extra stages: with `h = 0` nothing is known about the stages before. -/
theorem follows_dopExtra (d : DopDense α) {rhs : Rhs α n} {rhs' : Rhs α m} (hf : V.RhsRel rhs rhs') {t t' h h' : α} {y : Vec α n}
    {y' : Vec α m} (ht : V.tm t t') (hh : V.hr h h') (hy : V.vec y y') (q r : Nat) (hqr : q + r = 3) :
    Follows (fun K K' => h = 0 ∨ ∀ j : Fin 16, j.val < 13 + q → V.slp (K j) (K' j)) (fun _ _ K K' => h = 0 ∨ ∀ j : Fin 16, V.slp (K j) (K' j))
      (fun _ _ => True) (dopExtra d rhs t h y ((List.finRange 3).drop q)) (dopExtra d rhs' t' h' y' ((List.finRange 3).drop q)) := by
  induction r generalizing q with
  | zero =>
    obtain rfl : q = 3 := by omega
    exact follows_pure fun _ _ h => h.imp_right fun h j => h j (by have := j.isLt; omega)
  | succ r ih =>
    have hq3 : q < 3 := by omega
    have hd : (List.finRange 3).drop q = (⟨q, hq3⟩ : Fin 3) :: (List.finRange 3).drop (q + 1) := by
      rw [List.drop_eq_getElem_cons (by rw [List.length_finRange]; exact hq3)]
      simp
    rw [hd, dopExtra, dopExtra]
    refine follows_read fun K K' hK => ?_
    dsimp only
    have e1 : ∀ {q : Nat} (w : α) (v : Vec α q), (fun i => v i * w) = scale w v := by
      intro q w v; funext i; simp only [scale, mul_comm]
    refine follows_bind (follows_ofExcept (Q0 := V.slp) (hf _ _ _ _ ?_ ?_) fun _ _ h => trivial) fun a b => follows_fact fun hab => ?_
    · rw [mul_comm _ h, mul_comm _ h']; exact L.tm_add ht (L.hr_mul _ hh)
    · rcases hK with hz | hK
      · rw [hz, (L.hr_zero hh).1 hz, e1, e1]
        have e0 : ∀ {q : Nat} (v : Vec α q), scale (0 : α) v = 0 := by intro q v; funext i; simp [scale]
        rw [e0, e0]
        exact L.vec_add hy L.dsp_zero
      · rw [e1, e1]
        exact L.vec_add hy (L.hr_slp hh (L.slp_sum _ _ _ fun j => hK _ (by have := j.isLt; simp_all)))
    · refine follows_bind (Q := fun _ _ K K' => h = 0 ∨ ∀ j : Fin 16, j.val < 13 + (q + 1) → V.slp (K j) (K' j)) (follows_modify ?_)
        fun _ _ => ih (q + 1) (by omega)
      rintro K K' (hz | hK)
      · exact Or.inl hz
      · refine Or.inr fun j hj => ?_
        by_cases e2 : j = ⟨13 + q, by omega⟩
        · rw [e2]
          simp only [Function.update_self]; exact hab
        · rw [Function.update_of_ne e2, Function.update_of_ne e2]
          refine hK j ?_
          have : j.val ≠ 13 + q := fun h => e2 (Fin.ext h)
          omega

theorem follows_dopUpdate (d : DopDense α) {rhs : Rhs α n} {rhs' : Rhs α m} (hf : V.RhsRel rhs rhs') (b : Buffer α n 0) :
    Follows (fun x y => V.DopSt x y ∧ x.cache = b)
      (fun _ _ x y => V.DopSt x y ∧ x.cache = b ∧ (b.ts (Buffer.iPrev 0) = b.ts (Buffer.iLast 0) ∨ V.DopRel x.aux.itp y.aux.itp)) V.DopSt
      (dopUpdate d rhs) (dopUpdate d rhs') := by
  unfold dopUpdate
  refine follows_bind (Q := fun _ _ x y => (V.DopSt x y ∧ x.cache = b) ∧ (x.cache.ts (Buffer.iPrev 0) = x.cache.ts (Buffer.iLast 0) ∨
    ∀ j : Fin 16, j.val < 13 → V.slp (x.aux.itp.Kext j) (y.aux.itp.Kext j))) (follows_modify ?_) fun _ _ => ?_
  · rintro p q ⟨g, e⟩
    refine ⟨⟨⟨g.st, g.pos, g.mono, g.K, g.ut_rel, g.ut_le, g.itp⟩, e⟩, g.K.imp_right fun hK j hj => ?_⟩
    dsimp only
    rw [dif_pos hj, dif_pos hj]
    exact hK _
  refine follows_get fun x y ⟨⟨h, hx⟩, hK⟩ => ?_
  have hdt := L.tm_sub (h.st.1.ts (Buffer.iLast 0)) (h.st.1.ts (Buffer.iPrev 0))
  have hz : x.cache.ts (Buffer.iLast 0) - x.cache.ts (Buffer.iPrev 0) = 0 ↔ x.cache.ts (Buffer.iPrev 0) = x.cache.ts (Buffer.iLast 0) := by
    rw [sub_eq_zero]; exact eq_comm
  refine follows_bind (Q := fun _ _ x1 y1 => (x1.cache = x.cache ∧ y1.cache = y.cache) ∧ V.DopSt x1 y1 ∧
      (x.cache.ts (Buffer.iPrev 0) = x.cache.ts (Buffer.iLast 0) ∨ ∀ j : Fin 16, V.slp (x1.aux.itp.Kext j) (y1.aux.itp.Kext j)))
    (follows_zoom (follows_dopExtra L d hf (h.st.1.ts _) hdt (h.st.1.ys _) 0 3 rfl) ?_ ?_ ?_) fun _ _ => follows_modify ?_
  · rintro _ _ ⟨rfl, rfl⟩; exact hK.imp_left hz.2
  · rintro _ _ ⟨rfl, rfl⟩ _ _ u v huv
    exact ⟨⟨rfl, rfl⟩, ⟨h.st, h.pos, h.mono, h.K, h.ut_rel, h.ut_le, h.itp⟩, huv.imp_left hz.1⟩
  · rintro _ _ ⟨rfl, rfl⟩ u v huv; exact ⟨h.st, h.pos, h.mono, h.K, h.ut_rel, h.ut_le, h.itp⟩
  · rintro p q ⟨⟨c1, c2⟩, g, gK⟩
    have key : x.cache.ts (Buffer.iPrev 0) = x.cache.ts (Buffer.iLast 0) ∨ ∀ j, V.dsp
        (dopF d (x.cache.ts (Buffer.iLast 0) - x.cache.ts (Buffer.iPrev 0)) (x.cache.ys (Buffer.iPrev 0)) (x.cache.ys (Buffer.iLast 0)) x.cache.f p.aux.itp.Kext j)
        (dopF d (y.cache.ts (Buffer.iLast 0) - y.cache.ts (Buffer.iPrev 0)) (y.cache.ys (Buffer.iPrev 0)) (y.cache.ys (Buffer.iLast 0)) y.cache.f q.aux.itp.Kext j) := by
      refine gK.imp_right fun g4 j => ?_
      have hdy := L.vec_sub (h.st.1.ys (Buffer.iLast 0)) (h.st.1.ys (Buffer.iPrev 0))
      have hfs := h.st.1.fs (Buffer.iLast 0)
      dsimp only [dopF]
      fin_cases j
      · exact hdy
      · exact L.dsp_sub (L.hr_slp hdt (g4 _)) hdy
      · exact L.dsp_sub (L.dsp_smul _ hdy) (L.hr_slp hdt (L.slp_add hfs (g4 _)))
      · exact L.hr_slp hdt (L.slp_sum _ _ _ g4)
      · exact L.hr_slp hdt (L.slp_sum _ _ _ g4)
      · exact L.hr_slp hdt (L.slp_sum _ _ _ g4)
      · exact L.hr_slp hdt (L.slp_sum _ _ _ g4)
    have c1' : p.cache.ts = x.cache.ts := by rw [c1]
    refine ⟨⟨g.st, g.pos, g.mono, g.K, Or.inl (h.st.1.ts _), ?_, ?_⟩, c1.trans hx, by rw [← hx]; exact key⟩
    · dsimp only
      rw [c1']
    · dsimp only
      rw [c1']
      exact key.symm.imp_right fun h => h.ge

theorem dopEval_rel {F : Fin 7 → Vec α n} {F' : Fin 7 → Vec α m} (hF : ∀ j, V.dsp (F j) (F' j)) (a : α) {y : Vec α n} {y' : Vec α m}
    (hy : V.vec y y') : V.vec (dopEval F a y) (dopEval F' a y') := by
  unfold dopEval
  have key : ∀ (q : Nat) (hq : q ≤ 7), V.dsp
      (Fin.foldl q (fun (acc : Vec α n) i =>
        let y := acc + F ⟨6 - i.val, by omega⟩
        if i.val % 2 = 0 then fun j => y j * a else fun j => y j * (1 - a)) (fun _ => 0))
      (Fin.foldl q (fun (acc : Vec α m) i =>
        let y := acc + F' ⟨6 - i.val, by omega⟩
        if i.val % 2 = 0 then fun j => y j * a else fun j => y j * (1 - a)) (fun _ => 0)) := by
    have e1 : ∀ {q : Nat} (w : α) (v : Vec α q), (fun i => v i * w) = scale w v := by
      intro q w v; funext i; simp only [scale, mul_comm]
    intro q hq
    induction q with
    | zero => exact L.dsp_zero
    | succ q ih =>
      rw [Fin.foldl_succ_last, Fin.foldl_succ_last]
      dsimp only
      rw [e1, e1, e1, e1]
      have := L.dsp_add (ih (by omega)) (hF ⟨6 - (Fin.last q).val, by omega⟩)
      split
      · exact L.dsp_smul _ this
      · exact L.dsp_smul _ this
  have e : ∀ {q : Nat} (u v : Vec α q), u + v = v + u := fun u v => add_comm u v
  rw [e _ y, e _ y']
  exact L.vec_add hy (key 7 (le_refl _))

theorem follows_dopInterp (d : DopDense α) {rhs : Rhs α n} {rhs' : Rhs α m} (hf : V.RhsRel rhs rhs') {t t' : α} (ht : V.tm t t')
    (b : Buffer α n 0) (hb : varRng b t) :
    Follows (fun x y => V.DopSt x y ∧ x.cache = b) (fun r r' x y => RefRel V.vec r r' ∧ V.DopSt x y ∧ x.cache = b) V.DopSt
      (dopInterp d rhs t) (dopInterp d rhs' t') := by
  unfold dopInterp
  refine follows_get fun x y ⟨h, hx⟩ => ?_
  refine follows_ite (by rw [L.beq_eq ht (h.st.1.ts _)]) (fun _ => follows_pure ?_) fun _ => ?_
  · rintro _ _ ⟨rfl, rfl⟩; exact ⟨rfl, h, hx⟩
  refine follows_ite (by rw [L.beq_eq ht (h.st.1.ts _)]) (fun _ => follows_pure ?_) fun _ => ?_
  · rintro _ _ ⟨rfl, rfl⟩; exact ⟨rfl, h, hx⟩
  apply share
  case k =>
    intro tail
    refine follows_ite (by rw [decide_eq_decide.2 (h.lt_ut L ht (by rw [hx]; exact hb))]) (fun _ => ?_) fun hc => ?_
    · refine follows_bind (follows_pre (follows_dopUpdate L d hf b) ?_) fun _ _ => tail
      rintro _ _ ⟨rfl, rfl⟩; exact ⟨h, hx⟩
    · have hc : t < x.aux.itp.updatedT := by simpa using hc
      have hb' : varRng x.cache t := by rw [hx]; exact hb
      refine follows_pre tail ?_
      rintro _ _ ⟨rfl, rfl⟩
      refine ⟨h, hx, Or.inr ?_⟩
      rcases hb' with hb' | hb'
      · exact h.itp.resolve_right fun g => absurd (g.trans hb') (not_le.2 hc)
      · exact absurd (h.ut_le.trans hb') (not_le.2 hc)
  refine follows_read fun x y ⟨h, hx, hq⟩ => ?_
  have hdt := L.tm_sub (h.st.1.ts (Buffer.iLast 0)) (h.st.1.ts (Buffer.iPrev 0))
  dsimp only
  by_cases hz : x.cache.ts (Buffer.iLast 0) - x.cache.ts (Buffer.iPrev 0) = 0
  · rw [hz, (L.hr_zero hdt).1 hz]
    have e : ∀ a : α, pyDiv a (0 : α) = .error .zeroDivisionError := fun a => by unfold pyDiv; simp
    rw [e, e]
    exact follows_bind (Q := fun _ _ => fun _ _ => False) (follows_weaken (follows_ofExcept (Q0 := fun _ _ => False) (u := .error .zeroDivisionError) (v := .error .zeroDivisionError) rfl fun _ _ h => h) (fun _ _ h => h.1) fun _ _ _ _ h => h.1) fun _ _ _ _ h => h.elim
  have hF : V.DopRel x.aux.itp y.aux.itp := hq.resolve_left fun e => hz (by rw [hx, e, sub_self])
  refine follows_bind (follows_ofExcept (L.pyDiv_hr (L.tm_sub ht (h.st.1.ts _)) hdt) fun _ _ h => h.1) fun a b => follows_fact fun hab => ?_
  subst hab
  exact follows_pure fun _ _ h' => ⟨dopEval_rel L hF a (h.st.1.ys _), h'.1, h'.2.1⟩

end beq
end vars
end Nbkode
