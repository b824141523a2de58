import Verif.Model.Memory
import Verif.Proofs.PyLemmas
import Mathlib.Data.List.Basic

/-!
# The model with arrays in memory refines the model with values

`Refines F R P x y Q`: started where the arrays `F` and `R` exist and `P` holds, `x` (with memory) does what
`y` (without) does, keeps the contents of `F` and `R`, and ends with `Q`.
-/

set_option autoImplicit false
set_option linter.unusedSectionVars false

namespace Nbkode
namespace Memory
open Mem Py
variable {α : Type} {n k : Nat} {X : Type}

/-- The arrays of `F` and `R` are at the first addresses of `m`. -/
def Base (F : List (List α)) (R : List (List (Vec α n))) (m : Mem α n k X) : Prop :=
  F <+: m.floats ∧ R <+: m.rows

def Refines {A B : Type} (F : List (List α)) (R : List (List (Vec α n))) (P : Mem α n k X → Prop)
    (x : Py (Mem α n k X) A) (y : Py (St α n k X) B) (Q : A → B → Mem α n k X → Prop) : Prop :=
  ∀ m, Base F R m → P m →
    match y.run m.st with
    | none => x.run m = none
    | some (.error e, s) => ∃ m', x.run m = some (.error e, m') ∧ m'.st = s ∧ Base F R m'
    | some (.ok b, s) => ∃ a m', x.run m = some (.ok a, m') ∧ m'.st = s ∧ Base F R m' ∧ Q a b m'

variable {A B C D : Type} {F : List (List α)} {R : List (List (Vec α n))} {P : Mem α n k X → Prop}

theorem Refines.bind {x : Py (Mem α n k X) A} {y : Py (St α n k X) B} {Q : A → B → Mem α n k X → Prop}
    {f : A → Py (Mem α n k X) C} {g : B → Py (St α n k X) D} {Q' : C → D → Mem α n k X → Prop}
    (h : Refines F R P x y Q) (h' : ∀ a b, Refines F R (Q a b) (f a) (g b) Q') :
    Refines F R P (x >>= f) (y >>= g) Q' := by
  intro m hb hp
  have h1 := h m hb hp
  rw [Py.run_bind, Py.run_bind]
  rcases hy : y.run m.st with _ | ⟨e | b, s⟩
  · rw [hy] at h1
    simp only [h1, Py.andThen_none]
  · rw [hy] at h1
    obtain ⟨m', e1, e2, e3⟩ := h1
    simp only [e1, Py.andThen_error]
    exact ⟨m', rfl, e2, e3⟩
  · rw [hy] at h1
    obtain ⟨a, m', e1, e2, e3, e4⟩ := h1
    simp only [e1, Py.andThen_ok]
    have h2 := h' a b m' e3 e4
    rw [e2] at h2
    exact h2

theorem Refines.pure {a : A} {b : B} {Q : A → B → Mem α n k X → Prop} (h : ∀ m, Base F R m → P m → Q a b m) :
    Refines F R P (Pure.pure a) (Pure.pure b) Q := by
  intro m hb hp
  exact ⟨a, m, rfl, rfl, hb, h m hb hp⟩

theorem Refines.throw {Q : A → B → Mem α n k X → Prop} (e : Err) :
    Refines F R P (MonadExcept.throw e : Py (Mem α n k X) A) (MonadExcept.throw e : Py (St α n k X) B) Q := by
  intro m hb hp
  exact ⟨m, rfl, rfl, hb⟩

theorem Refines.ofExcept {Q : A → B → Mem α n k X → Prop} {x : Except Err A} {y : Except Err B}
    (he : ∀ e, y = .error e → x = .error e)
    (h : ∀ b, y = .ok b → ∃ a, x = .ok a ∧ ∀ m, Base F R m → P m → Q a b m) :
    Refines F R P (Py.ofExcept x) (Py.ofExcept y) Q := by
  intro m hb hp
  rcases y with e | b
  · rw [he e rfl]
    exact ⟨m, rfl, rfl, hb⟩
  · obtain ⟨a, rfl, ha⟩ := h b rfl
    exact ⟨a, m, rfl, rfl, hb, ha m hb hp⟩

theorem Refines.weaken {x : Py (Mem α n k X) A} {y : Py (St α n k X) B} {P' : Mem α n k X → Prop}
    {Q Q' : A → B → Mem α n k X → Prop} (h : Refines F R P' x y Q') (hp : ∀ m, Base F R m → P m → P' m)
    (hq : ∀ a b m, Base F R m → Q' a b m → Q a b m) : Refines F R P x y Q := by
  intro m hb hpm
  have h1 := h m hb (hp m hb hpm)
  rcases hy : y.run m.st with _ | ⟨e | b, s⟩
  · rw [hy] at h1
    exact h1
  · rw [hy] at h1
    exact h1
  · rw [hy] at h1
    obtain ⟨a, m', e1, e2, e3, e4⟩ := h1
    exact ⟨a, m', e1, e2, e3, hq _ _ _ e3 e4⟩

/-- Code that only touches the solver leaves all arrays alone. -/
theorem Refines.solver {y : Py (St α n k X) B} (I : List (List α) → List (List (Vec α n)) → Prop) :
    Refines F R (fun m => I m.floats m.rows) (onSolver y) y
      (fun a b m => a = b ∧ I m.floats m.rows) := by
  intro m hb hp
  unfold onSolver
  rw [Py.run_zoom]
  rcases hy : y.run m.st with _ | ⟨e | b, s⟩
  · rfl
  · exact ⟨_, rfl, rfl, hb⟩
  · exact ⟨b, _, rfl, rfl, hb, rfl, hp⟩

/-- Reading the memory. -/
theorem Refines.get {f : Mem α n k X → Py (Mem α n k X) A} {y : Py (St α n k X) B}
    {Q : A → B → Mem α n k X → Prop}
    (h : ∀ m0, Refines F R (fun m => m = m0 ∧ P m) (f m0) y Q) :
    Refines F R P (MonadState.get >>= f) y Q := by
  intro m hb hp
  have := h m m hb ⟨rfl, hp⟩
  simpa only [Py.run_bind, Py.run_get, Py.andThen_ok] using this

/-- Reading the state on both sides. -/
theorem Refines.getBoth {f : Mem α n k X → Py (Mem α n k X) A} {g : St α n k X → Py (St α n k X) B}
    {Q : A → B → Mem α n k X → Prop}
    (h : ∀ m0, Refines F R (fun m => m = m0 ∧ P m) (f m0) (g m0.st) Q) :
    Refines F R P (MonadState.get >>= f) (MonadState.get >>= g) Q := by
  intro m hb hp
  have := h m m hb ⟨rfl, hp⟩
  simpa only [Py.run_bind, Py.run_get, Py.andThen_ok] using this

theorem Refines.getRight {x : Py (Mem α n k X) A} {g : St α n k X → Py (St α n k X) B}
    {Q : A → B → Mem α n k X → Prop}
    (h : ∀ s0, Refines F R (fun m => m.st = s0 ∧ P m) x (g s0) Q) :
    Refines F R P x (MonadState.get >>= g) Q := by
  intro m hb hp
  have := h m.st m hb ⟨rfl, hp⟩
  simpa only [Py.run_bind, Py.run_get, Py.andThen_ok] using this

theorem Refines.newFloats {l : List α} {f : Nat → Py (Mem α n k X) A} {y : Py (St α n k X) B}
    {Q : A → B → Mem α n k X → Prop}
    (h : ∀ m0, Base F R m0 → P m0 →
      Refines F R (fun m => m = { m0 with floats := m0.floats ++ [l] }) (f m0.floats.length) y Q) :
    Refines F R P (Mem.newFloats l >>= f) y Q := by
  intro m hb hp
  have hb' : Base F R ({ m with floats := m.floats ++ [l] } : Mem α n k X) :=
    ⟨hb.1.trans (List.prefix_append ..), hb.2⟩
  have := h m hb hp _ hb' rfl
  simpa only [Mem.newFloats, Py.run_bind, Py.run_get, Py.andThen_ok, Py.run_set, Py.run_pure] using this

theorem Refines.newRows {l : List (Vec α n)} {f : Nat → Py (Mem α n k X) A} {y : Py (St α n k X) B}
    {Q : A → B → Mem α n k X → Prop}
    (h : ∀ m0, Base F R m0 → P m0 →
      Refines F R (fun m => m = { m0 with rows := m0.rows ++ [l] }) (f m0.rows.length) y Q) :
    Refines F R P (Mem.newRows l >>= f) y Q := by
  intro m hb hp
  have hb' : Base F R ({ m with rows := m.rows ++ [l] } : Mem α n k X) :=
    ⟨hb.1, hb.2.trans (List.prefix_append ..)⟩
  have := h m hb hp _ hb' rfl
  simpa only [Mem.newRows, Py.run_bind, Py.run_get, Py.andThen_ok, Py.run_set, Py.run_pure] using this

theorem prefix_modify {T : Type} {l m : List T} (h : l <+: m) {a : Nat} (ha : l.length ≤ a) (f : T → T) :
    l <+: m.modify a f := by
  obtain ⟨t, rfl⟩ := h
  rw [List.prefix_iff_getElem?]
  intro i hi
  have hne : ¬ a = i := by omega
  rw [List.getElem?_modify]
  simp [hne, List.getElem?_append_left hi, List.getElem?_eq_getElem hi]

theorem Refines.setFloat {a i : Nat} {v : α} {f : Unit → Py (Mem α n k X) A} {y : Py (St α n k X) B}
    {Q : A → B → Mem α n k X → Prop} (ha : F.length ≤ a)
    (h : ∀ m0, Base F R m0 → P m0 →
      Refines F R (fun m => m = { m0 with floats := m0.floats.modify a fun l => l.set i v }) (f ()) y Q) :
    Refines F R P (Mem.setFloat a i v >>= f) y Q := by
  intro m hb hp
  have hb' : Base F R ({ m with floats := m.floats.modify a fun l => l.set i v } : Mem α n k X) :=
    ⟨prefix_modify hb.1 ha _, hb.2⟩
  have := h m hb hp _ hb' rfl
  simpa only [Mem.setFloat, Py.run_bind, Py.run_modify, Py.andThen_ok] using this

theorem Refines.setRow {a i : Nat} {v : Vec α n} {f : Unit → Py (Mem α n k X) A} {y : Py (St α n k X) B}
    {Q : A → B → Mem α n k X → Prop} (ha : R.length ≤ a)
    (h : ∀ m0, Base F R m0 → P m0 →
      Refines F R (fun m => m = { m0 with rows := m0.rows.modify a fun l => l.set i v }) (f ()) y Q) :
    Refines F R P (Mem.setRow a i v >>= f) y Q := by
  intro m hb hp
  have hb' : Base F R ({ m with rows := m.rows.modify a fun l => l.set i v } : Mem α n k X) :=
    ⟨hb.1, prefix_modify hb.2 ha _⟩
  have := h m hb hp _ hb' rfl
  simpa only [Mem.setRow, Py.run_bind, Py.run_modify, Py.andThen_ok] using this

theorem Refines.pre {x : Py (Mem α n k X) A} {y : Py (St α n k X) B} {Q : A → B → Mem α n k X → Prop}
    {p : Prop} (h : p → Refines F R P x y Q) : Refines F R (fun m => p ∧ P m) x y Q :=
  fun m hb hm => h hm.1 m hb hm.2

/-- The other side only rearranges its result. -/
theorem Refines.mapRight {x : Py (Mem α n k X) A} {y : Py (St α n k X) B} {g : B → D}
    {Q : A → B → Mem α n k X → Prop} {Q' : A → D → Mem α n k X → Prop}
    (h : Refines F R P x y Q) (hq : ∀ a b m, Base F R m → Q a b m → Q' a (g b) m) :
    Refines F R P x (y >>= fun b => Pure.pure (g b)) Q' := by
  have h2 := h.bind (f := fun a => Pure.pure a) (g := fun b => Pure.pure (g b)) (Q' := Q')
    (fun a b => Refines.pure fun m hb hm => hq a b m hb hm)
  simpa only [bind_pure] using h2

theorem Refines.mapLeft {x : Py (Mem α n k X) A} {y : Py (St α n k X) B} {f : A → C}
    {Q : A → B → Mem α n k X → Prop} {Q' : C → B → Mem α n k X → Prop}
    (h : Refines F R P x y Q) (hq : ∀ a b m, Base F R m → Q a b m → Q' (f a) b m) :
    Refines F R P (x >>= fun a => Pure.pure (f a)) y Q' := by
  have h2 := h.bind (f := fun a => Pure.pure (f a)) (g := fun b => Pure.pure b) (Q' := Q')
    (fun a b => Refines.pure fun m hb hm => hq a b m hb hm)
  simpa only [bind_pure] using h2

/-! ## An array that is filled from the front -/

/-- The array at address `a` has room for `cap` entries and begins with `l`. -/
def Holds {T : Type} (a cap : Nat) (l : List T) (fl : List (List T)) : Prop :=
  ∃ lt, fl[a]? = some lt ∧ cap ≤ lt.length ∧ lt.take l.length = l

theorem Holds.set {T : Type} {a cap : Nat} {l : List T} {fl : List (List T)} (h : Holds a cap l fl)
    (hl : l.length < cap) (v : T) :
    Holds a cap (l ++ [v]) (fl.modify a fun x => x.set l.length v) := by
  obtain ⟨lt, h1, h2, h3⟩ := h
  refine ⟨lt.set l.length v, ?_, by simpa using h2, ?_⟩
  · rw [List.getElem?_modify, h1]
    simp
  · rw [List.length_append, List.length_singleton, List.take_add_one]
    rw [List.take_set_of_le (Nat.le_refl _), h3, List.getElem?_set_self (by omega)]
    rfl

theorem Holds.new {T : Type} (fl : List (List T)) (l : List T) (cap : Nat) (h : cap ≤ l.length) :
    Holds fl.length cap [] (fl ++ [l]) := by
  refine ⟨l, ?_, h, by simp⟩
  simp

theorem Holds.full {T : Type} (fl : List (List T)) (l : List T) :
    Holds fl.length l.length l (fl ++ [l]) := by
  refine ⟨l, ?_, le_refl _, by simp⟩
  simp

theorem Holds.cast {T : Type} {a cap cap' : Nat} {l : List T} {fl : List (List T)} (h : Holds a cap l fl)
    (hc : cap' ≤ cap) : Holds a cap' l fl := by
  obtain ⟨lt, h1, h2, h3⟩ := h
  exact ⟨lt, h1, hc.trans h2, h3⟩

theorem Holds.lt {T : Type} {a cap : Nat} {l : List T} {fl : List (List T)} (h : Holds a cap l fl) :
    a < fl.length := by
  obtain ⟨lt, h1, -, -⟩ := h
  exact (List.getElem?_eq_some_iff.1 h1).1

theorem Holds.append {T : Type} {a cap : Nat} {l : List T} {fl : List (List T)} (h : Holds a cap l fl)
    (x : List T) : Holds a cap l (fl ++ [x]) := by
  obtain ⟨lt, h1, h2, h3⟩ := h
  refine ⟨lt, ?_, h2, h3⟩
  rw [List.getElem?_append_left (List.getElem?_eq_some_iff.1 h1).1, h1]

theorem Holds.readFloats {a cap : Nat} {l : List α} {m : Mem α n k X} (h : Holds a cap l m.floats) :
    m.readFloats ⟨a, l.length⟩ = l := by
  obtain ⟨lt, h1, h2, h3⟩ := h
  rw [Mem.readFloats, List.getD_eq_getElem?_getD, h1]
  exact h3

theorem Holds.readRows {a cap : Nat} {l : List (Vec α n)} {m : Mem α n k X} (h : Holds a cap l m.rows) :
    m.readRows ⟨a, l.length⟩ = l := by
  obtain ⟨lt, h1, h2, h3⟩ := h
  rw [Mem.readRows, List.getD_eq_getElem?_getD, h1]
  exact h3

/-- The array `v` is new (not one of `F`) and shows `l`. -/
def FreshF (F : List (List α)) (v : View) (l : List α) (m : Mem α n k X) : Prop :=
  F.length ≤ v.addr ∧ v.addr < m.floats.length ∧ m.readFloats v = l

def FreshR (R : List (List (Vec α n))) (v : View) (l : List (Vec α n)) (m : Mem α n k X) : Prop :=
  R.length ≤ v.addr ∧ v.addr < m.rows.length ∧ m.readRows v = l

end Memory

namespace Memory
open Mem Py Solver
variable {α : Type}
variable [Add α] [Sub α] [Mul α] [Div α] [Neg α] [Zero α] [One α] [NatCast α] [BEq α]
variable [LT α] [DecidableLT α] [LE α] [DecidableLE α]
variable {n k : Nat} {X : Type}
variable {F : List (List α)} {R : List (List (Vec α n))} {P : Mem α n k X → Prop}

theorem mNstepsLoop_refines (S : Solver α n k X) (tEnd : Bound α) (t y : Nat) (ht : F.length ≤ t)
    (hy : R.length ≤ y) (r : Nat) (lt : List α) (ly : List (Vec α n)) (hlen : lt.length = ly.length) :
    Refines F R (fun m => Holds t (lt.length + r) lt m.floats ∧ Holds y (lt.length + r) ly m.rows)
      (S.mNstepsLoop tEnd t y lt.length r) (S.nstepsLoop tEnd r)
      (fun a b m => a.2 = b.2 ∧ a.1 = lt.length + b.1.length ∧ Holds t 0 (lt ++ b.1.map Prod.fst) m.floats ∧
        Holds y 0 (ly ++ b.1.map Prod.snd) m.rows) := by
  induction r generalizing lt ly with
  | zero =>
    refine Refines.pure fun m _ hm => ⟨rfl, rfl, ?_, ?_⟩
    · simpa using hm.1.cast (Nat.zero_le _)
    · simpa using hm.2.cast (Nat.zero_le _)
  | succ r ih =>
    unfold Solver.mNstepsLoop Solver.nstepsLoop
    refine Refines.bind (Refines.solver fun f w => Holds t (lt.length + (r + 1)) lt f ∧
      Holds y (lt.length + (r + 1)) ly w) ?_
    intro a b
    refine Refines.pre ?_
    rintro rfl
    cases a with
    | false =>
      refine Refines.pure fun m _ hm => ⟨rfl, rfl, ?_, ?_⟩
      · simpa using hm.1.cast (Nat.zero_le _)
      · simpa using hm.2.cast (Nat.zero_le _)
    | true =>
      refine Refines.getBoth fun m0 => ?_
      refine Refines.setFloat ht fun m1 hb1 hm1 => ?_
      refine Refines.setRow hy fun m2 hb2 hm2 => ?_
      obtain ⟨rfl, hm1⟩ := hm1
      subst hm2
      have key := ih (lt ++ [m1.st.t]) (ly ++ [m1.st.y]) (by simp [hlen])
      rw [List.length_append, List.length_singleton] at key
      refine (key.weaken (fun m _ hm => ?_) (fun _ _ _ _ h => h)).mapRight
        (g := fun b : List (α × Vec α n) × Bool => ((m1.st.t, m1.st.y) :: b.1, b.2)) ?_
      · subst hm
        rw [Nat.add_assoc, Nat.add_comm 1 r]
        refine ⟨hm1.1.set (by omega) _, ?_⟩
        have := hm1.2.set (by omega) m1.st.y
        rwa [← hlen] at this
      · rintro ⟨i, c⟩ ⟨l, c'⟩ m _ ⟨h1, h2, h3, h4⟩
        refine ⟨h1, ?_, ?_, ?_⟩
        · simp only [List.length_cons] at h2 ⊢
          omega
        · simpa using h3
        · simpa using h4

/-- `_nsteps` with memory. -/
theorem mNsteps_refines (S : Solver α n k X) (jt : α) (jy : Vec α n) (c : Int) (tEnd : Bound α) :
    Refines F R P (S.mNsteps jt jy c tEnd) (S.nsteps c tEnd)
      (fun a b m => a.2.2 = b.2 ∧ FreshF F a.1 (b.1.map Prod.fst) m ∧ FreshR R a.2.1 (b.1.map Prod.snd) m) := by
  unfold Solver.mNsteps Solver.nsteps
  by_cases hc : c < 0
  · simp only [hc, if_true]
    exact Refines.throw _
  · simp only [hc, if_false]
    refine Refines.newFloats fun m0 hb0 _ => ?_
    refine Refines.newRows fun m1 hb1 hm1 => ?_
    subst hm1
    have key := mNstepsLoop_refines (F := F) (R := R) S tEnd m0.floats.length m0.rows.length
      hb0.1.length_le hb0.2.length_le c.toNat [] [] rfl
    refine (key.weaken (fun m _ hm => ?_) (fun _ _ _ _ h => h)).mapLeft
      (f := fun a : Nat × Bool =>
        ((⟨m0.floats.length, a.1⟩, ⟨m0.rows.length, a.1⟩, a.2) : View × View × Bool)) ?_
    · subst hm
      exact ⟨Holds.new _ _ _ (by simp), Holds.new _ _ _ (by simp)⟩
    · rintro ⟨i, c⟩ ⟨l, c'⟩ m hb ⟨h1, h2, h3, h4⟩
      simp only [List.length_nil, Nat.zero_add, List.nil_append] at h1 h2 h3 h4
      subst h2
      refine ⟨h1, ⟨hb0.1.length_le, h3.lt, ?_⟩, hb0.2.length_le, h4.lt, ?_⟩
      · have := h3.readFloats
        rwa [List.length_map] at this
      · have := h4.readRows
        rwa [List.length_map] at this

/-- `_steps` with memory. -/
theorem mSteps_refines (S : Solver α n k X) (tEnd : Bound α) :
    Refines F R P (S.mSteps tEnd) (S.stepsLoop tEnd)
      (fun a b m => FreshF F a.1 (b.map Prod.fst) m ∧ FreshR R a.2 (b.map Prod.snd) m) := by
  unfold Solver.mSteps
  have h := (Refines.solver (F := F) (R := R) (y := S.stepsLoop tEnd) fun _ _ => True).bind
    (f := fun l => do
      let y ← Mem.newRows (l.map Prod.snd)
      let t ← Mem.newFloats (l.map Prod.fst)
      pure ((⟨t, l.length⟩, ⟨y, l.length⟩) : View × View))
    (g := fun b => pure b)
    (Q' := fun a b m => FreshF F a.1 (b.map Prod.fst) m ∧ FreshR R a.2 (b.map Prod.snd) m) ?_
  · rw [bind_pure] at h
    exact h.weaken (fun _ _ _ => trivial) fun _ _ _ _ h => h
  · intro a b
    refine Refines.pre ?_
    rintro rfl
    refine Refines.newRows fun m0 hb0 _ => ?_
    refine Refines.newFloats fun m1 hb1 hm1 => ?_
    subst hm1
    refine Refines.pure ?_
    rintro m hb rfl
    have h1 := Holds.full m0.floats (a.map Prod.fst)
    have h2 := Holds.full m0.rows (a.map Prod.snd)
    refine ⟨⟨hb0.1.length_le, h1.lt, ?_⟩, hb0.2.length_le, h2.lt, ?_⟩
    · have := h1.readFloats (m := ⟨m0.st, m0.floats ++ [a.map Prod.fst], m0.rows ++ [a.map Prod.snd]⟩)
      rwa [List.length_map] at this
    · have := h2.readRows (m := ⟨m0.st, m0.floats ++ [a.map Prod.fst], m0.rows ++ [a.map Prod.snd]⟩)
      rwa [List.length_map] at this

/-- The answer with memory shows the answer without; the arrays are new. -/
def StepShows (F : List (List α)) (R : List (List (Vec α n))) (a : MOut α n k) (b : StepOut α n k)
    (m : Mem α n k X) : Prop :=
  match a, b with
  | .arrays t y, .arrays l => FreshF F t (l.map Prod.fst) m ∧ FreshR R y (l.map Prod.snd) m
  | .single t y, .single t' y' => FreshF F t [t'] m ∧ y = y'
  | .none, .none => True
  | _, _ => False

/-- `step` with memory. -/
theorem mStep_refines (S : Solver α n k X) (jt : α) (jy : Vec α n) (c : Option Int)
    (u : Option (Bound α)) :
    Refines F R (fun _ => True) (S.mStep jt jy c u) (S.step c u) (StepShows F R) := by
  unfold Solver.mStep Solver.step
  refine Refines.getBoth fun m0 => ?_
  by_cases hp : inPast u m0.st = true
  · simp only [hp, if_true]
    refine Refines.newFloats fun m1 hb1 _ => ?_
    refine Refines.newRows fun m2 hb2 hm2 => ?_
    subst hm2
    refine Refines.pure ?_
    rintro m hb rfl
    exact ⟨⟨hb1.1.length_le, (Holds.full m1.floats []).lt, by simp [Mem.readFloats]⟩, hb1.2.length_le,
      (Holds.full m1.rows []).lt, by simp [Mem.readRows]⟩
  · simp only [hp]
    rcases c with _ | c <;> rcases u with _ | u
    · refine Refines.bind ((Refines.solver fun _ _ => True).weaken (fun _ _ _ => trivial)
        (fun _ _ _ _ h => h)) ?_
      intro a b
      refine Refines.pre ?_
      rintro rfl
      cases a with
      | false => exact Refines.pure fun _ _ _ => trivial
      | true =>
        refine Refines.getBoth fun m1 => ?_
        refine Refines.newFloats fun m2 hb2 hm2 => ?_
        refine Refines.pure ?_
        rintro m hb rfl
        obtain ⟨rfl, -⟩ := hm2
        have h1 := Holds.full m2.floats [m2.st.t]
        exact ⟨⟨hb2.1.length_le, h1.lt,
          h1.readFloats (m := ⟨m2.st, m2.floats ++ [[m2.st.t]], m2.rows⟩)⟩, rfl⟩
    · refine Refines.bind ((Refines.solver fun _ _ => True).weaken (fun _ _ _ => trivial)
        (fun _ _ _ _ h => h)) ?_
      intro _ _
      refine Refines.bind (mSteps_refines S u) ?_
      rintro ⟨t, y⟩ l
      exact Refines.pure fun m _ hm => hm
    · refine Refines.bind (mNsteps_refines S jt jy c S.tBound) ?_
      rintro ⟨t, y, sc⟩ ⟨l, sc'⟩
      refine Refines.pre ?_
      intro hs
      simp only at hs
      subst hs
      cases sc with
      | true => exact Refines.throw _
      | false => exact Refines.pure fun m _ hm => hm
    · refine Refines.bind ((Refines.solver fun _ _ => True).weaken (fun _ _ _ => trivial)
        (fun _ _ _ _ h => h)) ?_
      intro _ _
      refine Refines.bind (mNsteps_refines S jt jy c u) ?_
      rintro ⟨t, y, sc⟩ ⟨l, sc'⟩
      refine Refines.pre ?_
      intro _
      exact Refines.pure fun m _ hm => hm

/-! ## `run_events` -/

theorem Refines.pre' {A B : Type} {x : Py (Mem α n k X) A} {y : Py (St α n k X) B}
    {Q : A → B → Mem α n k X → Prop} {p : Prop} (hp : ∀ m, P m → p) (h : p → Refines F R P x y Q) :
    Refines F R P x y Q := fun m hb hm => h (hp m hm) m hb hm

theorem Refines.solver' {B : Type} {y : Py (St α n k X) B}
    (I : List (List α) → List (List (Vec α n)) → Prop) (G : B → Prop)
    (hG : ∀ s b s', y.run s = some (.ok b, s') → G b) :
    Refines F R (fun m => I m.floats m.rows) (onSolver y) y
      (fun a b m => a = b ∧ G b ∧ I m.floats m.rows) := by
  intro m hb hp
  unfold onSolver
  rw [Py.run_zoom]
  rcases hy : y.run m.st with _ | ⟨e | b, s⟩
  · rfl
  · exact ⟨_, rfl, rfl, hb⟩
  · exact ⟨b, _, rfl, rfl, hb, rfl, hG _ _ _ hy, hp⟩

/-- Code that only touches memory and does not raise. -/
def Local {A : Type} (F : List (List α)) (R : List (List (Vec α n))) (P : Mem α n k X → Prop)
    (x : Py (Mem α n k X) A) (Q : A → Mem α n k X → Prop) : Prop :=
  ∀ m, Base F R m → P m → ∃ a m', x.run m = some (.ok a, m') ∧ m'.st = m.st ∧ Base F R m' ∧ Q a m'

theorem Local.bind {A B C : Type} {x : Py (Mem α n k X) A} {f : A → Py (Mem α n k X) B}
    {y : Py (St α n k X) C} {Q : A → Mem α n k X → Prop} {Q' : B → C → Mem α n k X → Prop}
    (h : Local F R P x Q) (h' : ∀ a, Refines F R (Q a) (f a) y Q') : Refines F R P (x >>= f) y Q' := by
  intro m hb hp
  obtain ⟨a, m', e1, e2, e3, e4⟩ := h m hb hp
  have := h' a m' e3 e4
  rw [e2] at this
  simpa only [Py.run_bind, e1, Py.andThen_ok] using this

theorem FreshF.append {v : View} {l : List α} {m : Mem α n k X} (h : FreshF F v l m) (x : List α)
    (w : List (List (Vec α n))) : FreshF F v l (⟨m.st, m.floats ++ [x], w⟩ : Mem α n k X) := by
  obtain ⟨h1, h2, h3⟩ := h
  refine ⟨h1, by simp only [List.length_append]; omega, ?_⟩
  rw [← h3]
  simp only [Mem.readFloats, List.getD_eq_getElem?_getD, List.getElem?_append_left h2]

theorem FreshR.append {v : View} {l : List (Vec α n)} {m : Mem α n k X} (h : FreshR R v l m)
    (x : List (Vec α n)) (w : List (List α)) :
    FreshR R v l (⟨m.st, w, m.rows ++ [x]⟩ : Mem α n k X) := by
  obtain ⟨h1, h2, h3⟩ := h
  refine ⟨h1, by simp only [List.length_append]; omega, ?_⟩
  rw [← h3]
  simp only [Mem.readRows, List.getD_eq_getElem?_getD, List.getElem?_append_left h2]

theorem copyFloats_local {l : List α} {I : Mem α n k X → Prop}
    (hI : ∀ m, P m → I (⟨m.st, m.floats ++ [l], m.rows⟩ : Mem α n k X)) :
    Local F R P (copyFloats l) (fun v m => v.len = l.length ∧ FreshF F v l m ∧ I m) := by
  intro m hb hp
  refine ⟨⟨m.floats.length, l.length⟩, ⟨m.st, m.floats ++ [l], m.rows⟩, rfl, rfl,
    ⟨hb.1.trans (List.prefix_append ..), hb.2⟩, rfl, ⟨hb.1.length_le, by simp, ?_⟩, hI m hp⟩
  exact (Holds.full m.floats l).readFloats (m := ⟨m.st, m.floats ++ [l], m.rows⟩)

theorem copyRows_local {l : List (Vec α n)} {I : Mem α n k X → Prop}
    (hI : ∀ m, P m → I (⟨m.st, m.floats, m.rows ++ [l]⟩ : Mem α n k X)) :
    Local F R P (copyRows l) (fun v m => v.len = l.length ∧ FreshR R v l m ∧ I m) := by
  intro m hb hp
  refine ⟨⟨m.rows.length, l.length⟩, ⟨m.st, m.floats, m.rows ++ [l]⟩, rfl, rfl,
    ⟨hb.1, hb.2.trans (List.prefix_append ..)⟩, rfl, ⟨hb.2.length_le, by simp, ?_⟩, hI m hp⟩
  exact (Holds.full m.rows l).readRows (m := ⟨m.st, m.floats, m.rows ++ [l]⟩)

theorem pure_local {A : Type} {a : A} {Q : A → Mem α n k X → Prop} (h : ∀ m, Base F R m → P m → Q a m) :
    Local F R P (pure a) Q := fun m hb hp => ⟨a, m, rfl, rfl, hb, h m hb hp⟩

theorem Holds.left {T : Type} {a cap : Nat} {l l' : List T} {fl : List (List T)}
    (h : Holds a cap (l ++ l') fl) : Holds a (l.length + l'.length) l fl := by
  obtain ⟨lt, h1, h2, h3⟩ := h
  have hlen := congrArg List.length h3
  rw [List.length_take, List.length_append] at hlen
  refine ⟨lt, h1, by omega, ?_⟩
  have := congrArg (List.take l.length) h3
  rwa [List.take_take, List.length_append, Nat.min_eq_left (by omega), List.take_left'  rfl] at this

theorem mRunEvalLoop_refines (S : Solver α n k X) (tEnd : Bound α) (t y : Nat) (hy : R.length ≤ y)
    (ts lt : List α) (ly : List (Vec α n)) (hlen : lt.length = ly.length) :
    Refines F R (fun m => Holds t 0 (lt ++ ts) m.floats ∧ Holds y (ly.length + ts.length) ly m.rows)
      (S.mRunEvalLoop tEnd y ly.length ts) (S.runEval tEnd ts)
      (fun a b m => a = ly.length + b.length ∧ Holds t 0 (lt ++ b.map Prod.fst) m.floats ∧
        Holds y 0 (ly ++ b.map Prod.snd) m.rows) := by
  induction ts generalizing lt ly with
  | nil =>
    refine Refines.pure fun m _ hm => ⟨rfl, ?_, ?_⟩
    · simpa using hm.1
    · simpa using hm.2.cast (Nat.zero_le _)
  | cons ti rest ih =>
    unfold Solver.mRunEvalLoop Solver.runEval
    refine Refines.bind (Refines.solver fun f w => Holds t 0 (lt ++ ti :: rest) f ∧
      Holds y (ly.length + (rest.length + 1)) ly w) ?_
    intro a b
    refine Refines.pre ?_
    rintro rfl
    cases a with
    | false =>
      refine Refines.pure fun m _ hm => ⟨rfl, ?_, ?_⟩
      · simpa using hm.1.left.cast (Nat.zero_le _)
      · simpa using hm.2.cast (Nat.zero_le _)
    | true =>
      refine Refines.bind (Refines.solver fun f w => Holds t 0 (lt ++ ti :: rest) f ∧
        Holds y (ly.length + (rest.length + 1)) ly w) ?_
      intro r r'
      refine Refines.pre ?_
      rintro rfl
      refine Refines.getBoth fun m0 => ?_
      refine Refines.setRow hy fun m1 hb1 hm1 => ?_
      obtain ⟨rfl, hm1⟩ := hm1
      have key := ih (lt ++ [ti]) (ly ++ [r.deref m1.st.cache]) (by simp [hlen])
      rw [List.length_append, List.length_singleton] at key
      refine (key.weaken (fun m _ hm => ?_) (fun _ _ _ _ h => h)).mapRight
        (g := fun b : List (α × Vec α n) => (ti, r.deref m1.st.cache) :: b) ?_
      · subst hm
        rw [Nat.add_assoc, Nat.add_comm 1]
        refine ⟨?_, hm1.2.set (by omega) _⟩
        simpa using hm1.1
      · rintro i l m _ ⟨h1, h2, h3⟩
        refine ⟨?_, ?_, ?_⟩
        · simp only [List.length_cons]
          omega
        · simpa using h2
        · simpa using h3

theorem mRunEvalEventsLoop_refines (S : Solver α n k X) (bo : BisectOpts α) (tEnd : Bound α) (t y : Nat)
    (ht : F.length ≤ t) (hy : R.length ≤ y) (ts lt : List α) (ly : List (Vec α n))
    (hlen : lt.length = ly.length) (eh : EventHandler α n k) :
    Refines F R (fun m => Holds t 0 (lt ++ ts) m.floats ∧ Holds y (ly.length + ts.length) ly m.rows)
      (S.mRunEvalEventsLoop bo tEnd t y ly.length ts eh) (S.runEvalEvents bo tEnd ts eh)
      (fun a b m => a.1 = b.1 ∧ a.2 = ly.length + b.2.length ∧
        Holds t 0 (lt ++ b.2.map Prod.fst) m.floats ∧ Holds y 0 (ly ++ b.2.map Prod.snd) m.rows) := by
  induction ts generalizing lt ly eh with
  | nil =>
    refine Refines.pure fun m _ hm => ⟨rfl, rfl, ?_, ?_⟩
    · simpa using hm.1
    · simpa using hm.2.cast (Nat.zero_le _)
  | cons ti rest ih =>
    unfold Solver.mRunEvalEventsLoop Solver.runEvalEvents
    refine Refines.bind (Refines.solver fun f w => Holds t 0 (lt ++ ti :: rest) f ∧
      Holds y (ly.length + (rest.length + 1)) ly w) ?_
    intro a b
    refine Refines.pre ?_
    rintro rfl
    obtain ⟨eh', res⟩ := a
    cases res with
    | refused =>
      refine Refines.pure fun m _ hm => ⟨rfl, rfl, ?_, ?_⟩
      · simpa using hm.1.left.cast (Nat.zero_le _)
      · simpa using hm.2.cast (Nat.zero_le _)
    | reached =>
      refine Refines.bind (Refines.solver fun f w => Holds t 0 (lt ++ ti :: rest) f ∧
        Holds y (ly.length + (rest.length + 1)) ly w) ?_
      intro r r'
      refine Refines.pre ?_
      rintro rfl
      refine Refines.getBoth fun m0 => ?_
      refine Refines.setRow hy fun m1 hb1 hm1 => ?_
      obtain ⟨rfl, hm1⟩ := hm1
      have key := ih (lt ++ [ti]) (ly ++ [r.deref m1.st.cache]) (by simp [hlen]) eh'
      rw [List.length_append, List.length_singleton] at key
      refine (key.weaken (fun m _ hm => ?_) (fun _ _ _ _ h => h)).mapRight
        (g := fun b : EventHandler α n k × List (α × Vec α n) =>
          (b.1, (ti, r.deref m1.st.cache) :: b.2)) ?_
      · subst hm
        rw [Nat.add_assoc, Nat.add_comm 1]
        refine ⟨?_, hm1.2.set (by omega) _⟩
        simpa using hm1.1
      · rintro i l m _ ⟨h0, h1, h2, h3⟩
        refine ⟨h0, ?_, ?_, ?_⟩
        · simp only [List.length_cons]
          omega
        · simpa using h2
        · simpa using h3
    | terminated =>
      refine Refines.getBoth fun m0 => ?_
      cases hl : eh'.lastEvent with
      | none => exact Refines.throw _
      | some p =>
        obtain ⟨te, re⟩ := p
        refine Refines.setFloat ht fun m1 hb1 hm1 => ?_
        refine Refines.setRow hy fun m2 hb2 hm2 => ?_
        subst hm2
        obtain ⟨rfl, hm1⟩ := hm1
        refine Refines.pure ?_
        rintro m hb rfl
        refine ⟨rfl, rfl, ?_, ?_⟩
        · have := hm1.1.left.set (by simp) te
          rw [hlen] at this
          exact this.cast (Nat.zero_le _)
        · exact (hm1.2.set (by omega) _).cast (Nat.zero_le _)

/-- A new array that shows `l`, all of it. -/
def WholeF (F : List (List α)) (v : View) (l : List α) (m : Mem α n k X) : Prop :=
  v.len = l.length ∧ FreshF F v l m

theorem WholeF.holds {v : View} {l : List α} {m : Mem α n k X} (h : WholeF F v l m) :
    Holds v.addr 0 l m.floats := by
  obtain ⟨h1, h2, h3, h4⟩ := h
  refine ⟨m.floats[v.addr], List.getElem?_eq_getElem h3, Nat.zero_le _, ?_⟩
  rw [← h1]
  rw [Mem.readFloats, List.getD_eq_getElem?_getD, List.getElem?_eq_getElem h3] at h4
  exact h4

theorem mRunEval_refines (S : Solver α n k X) (jy : Vec α n) (tEnd : Bound α) (t : View) (ts : List α) :
    Refines F R (WholeF F t ts) (S.mRunEval jy tEnd t) (S.runEval tEnd ts)
      (fun a b m => FreshF F a.1 (b.map Prod.fst) m ∧ FreshR R a.2 (b.map Prod.snd) m) := by
  unfold Solver.mRunEval
  refine Refines.get fun m0 => ?_
  refine Refines.pre' (p := m0.readFloats t = ts ∧ F.length ≤ t.addr) (fun m hm => ?_) ?_
  · obtain ⟨rfl, hm⟩ := hm
    exact ⟨hm.2.2.2, hm.2.1⟩
  · rintro ⟨hts, hta⟩
    simp only [hts]
    refine Refines.newRows fun m1 hb1 hm1 => ?_
    obtain ⟨rfl, hm1⟩ := hm1
    have key := mRunEvalLoop_refines (F := F) (R := R) S tEnd t.addr m1.rows.length hb1.2.length_le ts [] [] rfl
    refine (key.weaken (fun m _ hm => ?_) (fun _ _ _ _ h => h)).mapLeft
      (f := fun i : Nat => ((⟨t.addr, i⟩, ⟨m1.rows.length, i⟩) : View × View)) ?_
    · subst hm
      exact ⟨hm1.holds, Holds.new _ _ _ (by simp)⟩
    · rintro i l m hb ⟨h1, h2, h3⟩
      simp only [List.length_nil, Nat.zero_add, List.nil_append] at h1 h2 h3
      subst h1
      refine ⟨⟨hta, h2.lt, ?_⟩, hb1.2.length_le, h3.lt, ?_⟩
      · have := h2.readFloats
        rwa [List.length_map] at this
      · have := h3.readRows
        rwa [List.length_map] at this

theorem mRunEvalEvents_refines (S : Solver α n k X) (bo : BisectOpts α) (jy : Vec α n) (tEnd : Bound α)
    (t : View) (ts : List α) (eh : EventHandler α n k) :
    Refines F R (WholeF F t ts) (S.mRunEvalEvents bo jy tEnd t eh) (S.runEvalEvents bo tEnd ts eh)
      (fun a b m => a.1 = b.1 ∧ FreshF F a.2.1 (b.2.map Prod.fst) m ∧
        FreshR R a.2.2 (b.2.map Prod.snd) m) := by
  unfold Solver.mRunEvalEvents
  refine Refines.get fun m0 => ?_
  refine Refines.pre' (p := m0.readFloats t = ts ∧ F.length ≤ t.addr) (fun m hm => ?_) ?_
  · obtain ⟨rfl, hm⟩ := hm
    exact ⟨hm.2.2.2, hm.2.1⟩
  · rintro ⟨hts, hta⟩
    simp only [hts]
    refine Refines.newRows fun m1 hb1 hm1 => ?_
    obtain ⟨rfl, hm1⟩ := hm1
    have key := mRunEvalEventsLoop_refines (F := F) (R := R) S bo tEnd t.addr m1.rows.length hta
      hb1.2.length_le ts [] [] rfl eh
    refine (key.weaken (fun m _ hm => ?_) (fun _ _ _ _ h => h)).mapLeft
      (f := fun a : EventHandler α n k × Nat =>
        ((a.1, ⟨t.addr, a.2⟩, ⟨m1.rows.length, a.2⟩) : EventHandler α n k × View × View)) ?_
    · subst hm
      exact ⟨hm1.holds, Holds.new _ _ _ (by simp)⟩
    · rintro ⟨eh1, i⟩ ⟨eh2, l⟩ m hb ⟨h0, h1, h2, h3⟩
      simp only [List.length_nil, Nat.zero_add, List.nil_append] at h0 h1 h2 h3
      subst h1
      refine ⟨h0, ⟨hta, h2.lt, ?_⟩, hb1.2.length_le, h3.lt, ?_⟩
      · have := h2.readFloats
        rwa [List.length_map] at this
      · have := h3.readRows
        rwa [List.length_map] at this

/-- Solver code leaves the arrays alone. -/
theorem Refines.solverG {B : Type} {y : Py (St α n k X) B} (G : B → Prop)
    (hG : ∀ s b s', y.run s = some (.ok b, s') → G b)
    (hP : ∀ (m : Mem α n k X) (s : St α n k X), P m → P ⟨s, m.floats, m.rows⟩) :
    Refines F R P (onSolver y) y (fun a b m => (a = b ∧ G b) ∧ P m) := by
  intro m hb hp
  unfold onSolver
  rw [Py.run_zoom]
  rcases hy : y.run m.st with _ | ⟨e | b, s⟩
  · rfl
  · exact ⟨_, rfl, rfl, hb⟩
  · exact ⟨b, _, rfl, rfl, hb, ⟨rfl, hG _ _ _ hy⟩, hP _ _ hp⟩

theorem fancyIndex_map {T U : Type} (f : T → U) (l : List T) (idx : List Nat) :
    fancyIndex (l.map f) idx = (fancyIndex l idx).map (List.map f) := by
  induction idx with
  | nil => rfl
  | cons i rest ih =>
    unfold fancyIndex at ih ⊢
    rw [List.mapM_cons, List.mapM_cons, ih, List.getElem?_map]
    cases l[i]? with
    | none => rfl
    | some x =>
      generalize (List.mapM _ rest : Except Err (List T)) = w
      cases w <;> rfl

theorem interpolateAll_length (S : Solver α n k X) (ts : List α) (s : St α n k X) (b : List (Ref α n k))
    (s' : St α n k X) (h : (S.interpolateAll ts).run s = some (.ok b, s')) : b.length = ts.length := by
  induction ts generalizing s b with
  | nil =>
    simp only [Solver.interpolateAll, Py.run_pure, Option.some.injEq, Prod.mk.injEq, Except.ok.injEq] at h
    rw [← h.1]
    rfl
  | cons t rest ih =>
    simp only [Solver.interpolateAll, Py.run_bind, Py.run_pure] at h
    rw [Py.andThen_eq_ok] at h
    obtain ⟨r, s1, h1, h2⟩ := h
    rw [Py.andThen_eq_ok] at h2
    obtain ⟨rs, s2, h3, h4⟩ := h2
    simp only [Option.some.injEq, Prod.mk.injEq, Except.ok.injEq] at h4
    rw [← h4.1, List.length_cons, List.length_cons, ih s1 rs (h4.2 ▸ h3)]

/-- The part of `run_events` that runs the solver, in the value model. -/
def runPart (S : Solver α n k X) (bo : BisectOpts α) (tRun : List α) (es : List (EventSpec α n)) :
    Py (St α n k X) (List (α × Vec α n) × List (List α) × List (List (Ref α n k))) :=
  if es.isEmpty then do
        let out ← S.runEval S.tBound tRun
        pure (out, [], [])
      else do
        let s2 ← get
        let (eh, out) ← S.runEvalEvents bo S.tBound tRun (buildHandler es s2.t s2.y)
        pure (out, eh.events.map (fun e => e.t), eh.events.map (fun e => e.y))

theorem mRunPart_refines (S : Solver α n k X) (bo : BisectOpts α) (jy : Vec α n) (v : View) (tRun : List α)
    (es : List (EventSpec α n)) :
    Refines F R (WholeF F v tRun) (S.mRunPart bo jy v es) (runPart S bo tRun es)
      (fun a b m => (a.2.2 = b.2) ∧ FreshF F a.1 (b.1.map Prod.fst) m ∧ FreshR R a.2.1 (b.1.map Prod.snd) m) := by
  unfold Solver.mRunPart runPart
  by_cases he : es.isEmpty = true
  · simp only [he, if_true]
    refine Refines.bind (mRunEval_refines S jy S.tBound v tRun) fun a b => ?_
    exact Refines.pure fun m _ hm => ⟨rfl, hm⟩
  · simp only [he, Bool.false_eq_true, if_false]
    refine Refines.getBoth fun m0 => ?_
    refine Refines.bind ((mRunEvalEvents_refines S bo jy S.tBound v tRun
      (buildHandler es m0.st.t m0.st.y)).weaken (fun m _ hm => hm.2) fun _ _ _ _ h => h) fun a b => ?_
    obtain ⟨eh, a⟩ := a
    obtain ⟨eh', b⟩ := b
    exact Refines.pure fun m _ hm => ⟨by rw [show eh = eh' from hm.1], hm.2⟩

theorem runEvents_eq (S : Solver α n k X) (bo : BisectOpts α) (argsort : List α → List Nat)
    (ts : List α) (events : Option (List (EventSpec α n))) :
    S.runEvents bo argsort ts events = (do
      let t ← (if isSorted ts then pure ts else Py.ofExcept (fancyIndex ts (argsort ts)))
      match t with
      | [] => throw .indexError
      | t0 :: tl => do
        let s ← get
        if t0 < s.cache.ts (Buffer.iOld k) then
          throw .valueError
        S.checkTime (.fin (listMax t0 tl))
        let tOld := t.filter fun ti => decide (ti ≤ s.t)
        let tRun := t.filter fun ti => !decide (ti ≤ s.t)
        let yOldRefs ← S.interpolateAll tOld
        let s1 ← get
        let old := tOld.zip (yOldRefs.map fun r => r.deref s1.cache)
        let es := events.getD []
        let (out, tEv, yEv) ← runPart S bo tRun es
        if !tOld.isEmpty && !es.isEmpty then
          throw .attributeError
        let out := old ++ out
        if isSorted ts then
          return ⟨out, tEv, yEv⟩
        let out ← Py.ofExcept (fancyIndex out (invPerm (argsort ts)))
        return ⟨out, tEv, yEv⟩) := by
  unfold Solver.runEvents runPart
  cases hs : isSorted ts <;> cases he : (events.getD []).isEmpty <;>
    simp only [bind_assoc, pure_bind, if_true, Bool.false_eq_true, if_false, he] <;> rfl

/-- What `run_events` returns in memory is what it returns in the value model. -/
def RunShows (F : List (List α)) (R : List (List (Vec α n))) (a : MRunOut α n k) (b : RunOut α n k)
    (m : Mem α n k X) : Prop :=
  FreshF F a.t (b.out.map Prod.fst) m ∧ FreshR R a.y (b.out.map Prod.snd) m ∧
    a.tEvents = b.tEvents ∧ a.yEvents = b.yEvents

theorem mRunEvents_refines (S : Solver α n k X) (bo : BisectOpts α) (argsort : List α → List Nat)
    (jy : Vec α n) (arg : View) (ts : List α) (events : Option (List (EventSpec α n))) :
    Refines F R (fun m => m.readFloats arg = ts) (S.mRunEvents bo argsort jy arg events)
      (S.runEvents bo argsort ts events) (RunShows F R) := by
  rw [runEvents_eq]
  unfold Solver.mRunEvents
  refine Refines.get fun m0 => ?_
  refine Refines.pre' (p := m0.readFloats arg = ts) (fun m hm => hm.1 ▸ hm.2) fun hts => ?_
  simp only [hts]
  refine Local.bind (copyFloats_local (I := fun _ => True) fun _ _ => trivial) fun t1 => ?_
  refine Refines.bind (Q := fun a b m => (a = b ∧ (isSorted ts = true → a = ts)) ∧ WholeF F t1 ts m) ?_
    fun t t' => ?_
  · by_cases hs : isSorted ts = true
    · simp only [hs, if_true]
      exact Refines.pure fun m _ hm => ⟨⟨rfl, fun _ => rfl⟩, hm.1, hm.2.1⟩
    · simp only [hs, Bool.false_eq_true, if_false]
      refine Refines.ofExcept (fun e he => he) fun b hb => ⟨b, hb, fun m _ hm => ⟨⟨rfl, ?_⟩, hm.1, hm.2.1⟩⟩
      exact fun h => absurd h (by simp)
  refine Refines.pre ?_
  rintro ⟨rfl, hsort⟩
  refine Local.bind (Q := fun tArr m => WholeF F tArr t m) ?_ fun tArr => ?_
  · by_cases hs : isSorted ts = true
    · simp only [hs, if_true]
      rw [hsort hs]
      exact pure_local fun m _ hm => hm
    · simp only [hs, Bool.false_eq_true, if_false]
      intro m hb hm
      obtain ⟨a, m', e1, e2, e3, e4⟩ := copyFloats_local (F := F) (R := R) (l := t) (I := fun _ => True)
        (fun _ _ => trivial) m hb hm
      exact ⟨a, m', e1, e2, e3, e4.1, e4.2.1⟩
  cases t with
  | nil => exact Refines.throw _
  | cons t0 tl =>
    simp only
    refine Refines.getBoth fun m1 => ?_
    by_cases hpast : t0 < m1.st.cache.ts (Buffer.iOld k)
    · simp only [hpast, if_true]
      exact Refines.throw _
    simp only [hpast, if_false]
    refine Refines.bind ((Refines.solverG (P := WholeF F tArr (t0 :: tl)) (fun _ => True)
      (fun _ _ _ _ => trivial) fun _ _ h => h).weaken (fun m _ hm => hm.2) fun _ _ _ _ h => h) fun _ _ => ?_
    generalize hold : (t0 :: tl).filter (fun ti => decide (ti ≤ m1.st.t)) = tOld
    generalize hrun : (t0 :: tl).filter (fun ti => !decide (ti ≤ m1.st.t)) = tRun
    refine Refines.bind ((Refines.solverG (P := WholeF F tArr (t0 :: tl)) (fun b => b.length = tOld.length)
      (fun _ _ _ h => interpolateAll_length _ _ _ _ _ h) fun _ _ h => h).weaken (fun m _ hm => hm.2)
      fun _ _ _ _ h => h) fun refs refs' => ?_
    refine Refines.pre ?_
    rintro ⟨rfl, hlen⟩
    refine Refines.getBoth fun m2 => ?_
    generalize hy : (refs.map fun r => r.deref m2.st.cache) = yOld
    have hylen : yOld.length = tOld.length := by rw [← hy, List.length_map, hlen]
    refine Local.bind (Q := fun v m => WholeF F v tRun m) ?_ fun runArr => ?_
    · by_cases ho : tOld.isEmpty = true
      · simp only [ho, if_true]
        have : tRun = t0 :: tl := by
          rw [← hrun, List.filter_eq_self]
          intro a ha
          rw [List.isEmpty_iff] at ho
          rw [ho, List.filter_eq_nil_iff] at hold
          simp [hold a ha] at *
        rw [this]
        exact pure_local fun m _ hm => hm.2
      · simp only [ho, Bool.false_eq_true, if_false]
        intro m hb hm
        obtain ⟨a, m', e1, e2, e3, e4⟩ := copyFloats_local (F := F) (R := R) (l := tRun) (P := fun _ => True)
          (I := fun _ => True) (fun _ _ => trivial) m hb trivial
        exact ⟨a, m', e1, e2, e3, e4.1, e4.2.1⟩
    refine Refines.bind (mRunPart_refines S bo jy runArr tRun (events.getD [])) fun a b => ?_
    obtain ⟨tv, yv, tEv, yEv⟩ := a
    obtain ⟨out, tEv', yEv'⟩ := b
    refine Refines.pre ?_
    intro hev
    simp only [Prod.mk.injEq] at hev
    obtain ⟨rfl, rfl⟩ := hev
    simp only
    by_cases hw : (!tOld.isEmpty && !(events.getD []).isEmpty) = true
    · simp only [hw, if_true]
      exact Refines.throw _
    simp only [hw, Bool.false_eq_true, if_false]
    refine Refines.get fun m3 => ?_
    refine Refines.pre' (p := m3.readFloats tv = out.map Prod.fst ∧ m3.readRows yv = out.map Prod.snd)
      (fun m hm => by obtain ⟨rfl, h1, h2⟩ := hm; exact ⟨h1.2.2, h2.2.2⟩) ?_
    rintro ⟨htv, hyv⟩
    simp only [htv, hyv]
    have hfst : (tOld.zip yOld ++ out).map Prod.fst = tOld ++ out.map Prod.fst := by
      rw [List.map_append, List.map_fst_zip hylen.ge]
    have hsnd : (tOld.zip yOld ++ out).map Prod.snd = yOld ++ out.map Prod.snd := by
      rw [List.map_append, List.map_snd_zip hylen.le]
    generalize hres : tOld.zip yOld ++ out = res at hfst hsnd ⊢
    refine Local.bind (Q := fun v m => FreshF F v (res.map Prod.fst) m ∧ FreshR R yv (out.map Prod.snd) m) ?_
      fun tv' => ?_
    · by_cases ho : tOld.isEmpty = true
      · simp only [ho, if_true]
        rw [List.isEmpty_iff] at ho
        rw [hfst, ho]
        exact pure_local fun m _ hm => hm.2
      · simp only [ho, Bool.false_eq_true, if_false]
        rw [hfst]
        intro m hb hm
        obtain ⟨a, m', e1, e2, e3, e4⟩ := copyFloats_local (F := F) (R := R) (l := tOld ++ out.map Prod.fst)
          (I := FreshR R yv (out.map Prod.snd)) (fun m hm => hm) m hb hm.2.2
        exact ⟨a, m', e1, e2, e3, e4.2⟩
    refine Local.bind (Q := fun v m => FreshF F tv' (res.map Prod.fst) m ∧ FreshR R v (res.map Prod.snd) m) ?_
      fun yv' => ?_
    · by_cases ho : tOld.isEmpty = true
      · simp only [ho, if_true]
        rw [List.isEmpty_iff] at ho
        have : yOld = [] := List.eq_nil_of_length_eq_zero (by rw [hylen, ho]; rfl)
        rw [hsnd, this]
        exact pure_local fun m _ hm => hm
      · simp only [ho, Bool.false_eq_true, if_false]
        rw [hsnd]
        intro m hb hm
        obtain ⟨a, m', e1, e2, e3, e4⟩ := copyRows_local (F := F) (R := R) (l := yOld ++ out.map Prod.snd)
          (I := FreshF F tv' (res.map Prod.fst)) (fun m hm => hm) m hb hm.1
        exact ⟨a, m', e1, e2, e3, e4.2.2, e4.2.1⟩
    by_cases hs : isSorted ts = true
    · simp only [hs, if_true]
      exact Refines.pure fun m _ hm => ⟨hm.1, hm.2, rfl, rfl⟩
    simp only [hs, Bool.false_eq_true, if_false]
    refine Refines.get fun m4 => ?_
    refine Refines.pre' (p := m4.readFloats tv' = res.map Prod.fst ∧ m4.readRows yv' = res.map Prod.snd)
      (fun m hm => by obtain ⟨rfl, h1, h2⟩ := hm; exact ⟨h1.2.2, h2.2.2⟩) ?_
    rintro ⟨htv, hyv⟩
    simp only [htv, hyv, fancyIndex_map]
    cases fancyIndex res (invPerm (argsort ts)) with
    | error e =>
      intro m hb hm
      exact ⟨m, rfl, rfl, hb⟩
    | ok l =>
      have h1 : (Py.ofExcept (Except.map (List.map Prod.fst) (Except.ok l : Except Err (List (α × Vec α n)))) :
        Py (Mem α n k X) (List α)) = pure (l.map Prod.fst) := rfl
      have h2 : (Py.ofExcept (Except.map (List.map Prod.snd) (Except.ok l : Except Err (List (α × Vec α n)))) :
        Py (Mem α n k X) (List (Vec α n))) = pure (l.map Prod.snd) := rfl
      have h3 : (Py.ofExcept (Except.ok l : Except Err (List (α × Vec α n))) :
        Py (St α n k X) (List (α × Vec α n))) = pure l := rfl
      rw [h1, h2, h3, pure_bind, pure_bind, pure_bind]
      refine Local.bind (copyFloats_local (I := fun _ => True) fun _ _ => trivial) fun v => ?_
      refine Local.bind (copyRows_local (I := FreshF F v (l.map Prod.fst)) fun m hm => hm.2.1) fun w => ?_
      exact Refines.pure fun m _ hm => ⟨hm.2.2, hm.2.1, rfl, rfl⟩

theorem mRun_refines (S : Solver α n k X) (bo : BisectOpts α) (argsort : List α → List Nat)
    (jy : Vec α n) (arg : View) (ts : List α) :
    Refines F R (fun m => m.readFloats arg = ts) (S.mRun bo argsort jy arg) (S.run bo argsort ts)
      (fun a b m => FreshF F a.1 (b.map Prod.fst) m ∧ FreshR R a.2 (b.map Prod.snd) m) := by
  unfold Solver.mRun Solver.run
  refine Refines.bind (mRunEvents_refines S bo argsort jy arg ts none) fun a b => ?_
  exact Refines.pure fun m _ hm => ⟨hm.1, hm.2.1⟩

end Memory
end Nbkode
