import Verif.Proofs.RelateObserve

/-! Changes of variables as relations between two solvers. -/

set_option autoImplicit false
set_option linter.unusedSectionVars false

namespace Nbkode
open Py Spec Solver

variable {α : Type} [Field α] [LinearOrder α] [IsStrictOrderedRing α]
variable {n m k : Nat}

namespace Spec.Change
variable (C : Change α n m)

/-- The relations of a change of variables. -/
def vars : Vars α n m where
  tm := fun t t' => t' = C.time t
  hr := fun h h' => h' = C.lam * h
  vec := fun y y' => y' = C.state y
  dsp := fun d d' => d' = C.lin d
  slp := fun f f' => f' = C.slope f

theorem lin_add (d e : Vec α n) : C.lin (d + e) = C.lin d + C.lin e := by
  funext i
  simp only [lin, Pi.add_apply, mul_add, Finset.sum_add_distrib]

theorem lin_zero : C.lin 0 = 0 := by
  funext i
  simp only [lin, Pi.zero_apply, mul_zero, Finset.sum_const_zero]

theorem lin_scale (c : α) (d : Vec α n) : C.lin (scale c d) = scale c (C.lin d) := by
  funext i
  simp only [lin, scale, Finset.mul_sum]
  exact Finset.sum_congr rfl fun _ _ => by ring

theorem lin_sub (d e : Vec α n) : C.lin (d - e) = C.lin d - C.lin e := by
  funext i
  simp only [lin, Pi.sub_apply, mul_sub, Finset.sum_sub_distrib]

theorem lawful (hl : 0 < C.lam) : C.vars.Lawful where
  lt := by
    rintro a _ b _ rfl rfl
    unfold time
    rw [add_lt_add_iff_right, mul_lt_mul_iff_right₀ hl]
  mid := by
    rintro a _ b _ rfl rfl
    show (C.time a + C.time b) / 2 = C.time ((a + b) / 2)
    unfold time
    ring
  tm_add := by
    rintro t _ h _ rfl rfl
    show C.time t + C.lam * h = C.time (t + h)
    unfold time
    ring
  tm_sub := by
    rintro t _ u _ rfl rfl
    show C.time t - C.time u = C.lam * (t - u)
    unfold time
    ring
  hr_mul := by
    rintro h _ c rfl
    show C.lam * h * c = C.lam * (h * c)
    ring
  hr_zero := by
    rintro h _ rfl
    rw [mul_eq_zero, or_iff_right hl.ne']
  hr_pos := by
    rintro h _ rfl
    exact (mul_pos_iff_of_pos_left hl).symm
  hr_div := by
    rintro a _ b _ rfl rfl
    exact (mul_div_mul_left _ _ hl.ne').symm
  dsp_zero := C.lin_zero.symm
  dsp_add := by rintro d _ e _ rfl rfl; exact (C.lin_add d e).symm
  dsp_smul := by rintro d _ c rfl; exact (C.lin_scale c d).symm
  slp_zero := by
    show (0 : Vec α m) = C.slope 0
    unfold slope
    rw [C.lin_zero]
    funext i
    simp
  slp_add := by
    rintro d _ e _ rfl rfl
    show C.slope d + C.slope e = C.slope (d + e)
    unfold slope
    rw [C.lin_add]
    funext i
    simp [add_div]
  slp_smul := by
    rintro d _ c rfl
    show scale c (C.slope d) = C.slope (scale c d)
    unfold slope
    rw [C.lin_scale]
    funext i
    simp [scale, mul_div_assoc]
  hr_slp := by
    rintro h _ f _ rfl rfl
    show scale (C.lam * h) (C.slope f) = C.lin (scale h f)
    rw [C.lin_scale]
    unfold slope
    funext i
    simp only [scale]
    field_simp
  vec_add := by
    rintro y _ d _ rfl rfl
    show C.state y + C.lin d = C.state (y + d)
    unfold state
    rw [C.lin_add]
    funext i
    simp only [Pi.add_apply]
    ring
  vec_sub := by
    rintro y _ z _ rfl rfl
    show C.state y - C.state z = C.lin (y - z)
    rw [C.lin_sub]
    unfold state
    funext i
    simp only [Pi.sub_apply]
    ring

theorem rhsRel {rhs : Rhs α n} {rhs' : Rhs α m} (h : C.Transforms rhs rhs') : C.vars.RhsRel rhs rhs' := by
  rintro t _ y _ rfl rfl
  rw [h t y]
  cases rhs t y with
  | error e => exact rfl
  | ok f => exact rfl

theorem boundRel (b : Bound α) : BoundRel C.vars.tm b (C.bound b) := by
  cases b with
  | fin t => exact rfl
  | inf => trivial

theorem timesRel (l : List α) : List.Forall₂ C.vars.tm l (l.map C.time) := by
  induction l with
  | nil => exact .nil
  | cons t l ih => exact .cons rfl ih

theorem forall₂_map {A B : Type} {Q : A → B → Prop} {f : A → B} (hQ : ∀ a b, Q a b → b = f a) {l : List A} {l' : List B}
    (h : List.Forall₂ Q l l') : l' = l.map f := by
  induction h with
  | nil => rfl
  | cons h1 _ ih => rw [List.map_cons, hQ _ _ h1, ih]

theorem argsort_rel (hl : 0 < C.lam) {argsort : List α → List Nat} (ha : ComparisonSort argsort) :
    ∀ l l', List.Forall₂ C.vars.tm l l' → argsort l = argsort l' := by
  intro l l' h
  refine ha l l' (h.imp fun _ _ _ => trivial) ?_
  rw [forall₂_map (f := C.time) (fun _ _ h => h) h]
  intro i j a b a' b' h1 h2 h3 h4
  rw [List.getElem?_map, h1] at h3
  rw [List.getElem?_map, h2] at h4
  cases h3
  cases h4
  exact (C.lawful hl).le_iff rfl rfl

variable {X Y : Type} [BEq α] [LawfulBEq α] {S : Solver α n k X} {S' : Solver α m k Y}

theorem callRel (D : Corr S S') (c1 : D.tm = C.vars.tm) (c2 : D.vec = C.vars.vec) {c : Call α n} {c' : Call α m} (h : C.SameCall c c') :
    D.CallRel c c' := by
  have hu : ∀ u : Option (Bound α), Corr.UptoRel D.tm u (u.map C.bound) := by
    intro u
    rw [c1]
    cases u with
    | none => trivial
    | some b => exact C.boundRel b
  have hl : ∀ l : List α, List.Forall₂ D.tm l (l.map C.time) := by rw [c1]; exact C.timesRel
  cases h with
  | step q u => exact .step q (hu u)
  | skip q u => exact .skip q (hu u)
  | interpolate t => exact .interpolate (by rw [c1]; exact rfl)
  | run l => exact .run (hl l)
  | runEvents_none l => exact .runEvents (hl l) trivial
  | runEvents l es es' h =>
    refine .runEvents (hl l) (?_ : List.Forall₂ D.SpecRel es es')
    induction h with
    | nil => exact .nil
    | cons h1 _ ih =>
      refine .cons ⟨?_, h1.terminal.symm, h1.direction.symm⟩ ih
      rw [c1, c2]
      rintro t _ y _ rfl rfl
      exact (h1.func t y).symm

theorem answer_of_rel (D : Corr S S') (c1 : D.tm = C.vars.tm) (c2 : D.vec = C.vars.vec) {a : Answer α n k} {a' : Answer α m k}
    (h : D.AnsRel a a') : a' = C.answer a := by
  have hp : ∀ l l', List.Forall₂ D.Pt l l' → l' = C.points l := by
    intro l l' h
    refine forall₂_map (fun p q h => ?_) h
    obtain ⟨h1, h2⟩ := h
    rw [c1] at h1
    rw [c2] at h2
    obtain ⟨t, y⟩ := q
    cases (show t = _ from h1)
    cases (show y = _ from h2)
    rfl
  have hr : ∀ (r : Ref α n k) (r' : Ref α m k), RefRel D.vec r r' → r' = C.ref r := by
    intro r r' h
    rw [c2] at h
    cases r <;> cases r' <;> first | exact h.elim | skip
    · cases (show _ = _ from h); rfl
    · cases (show _ = _ from h); rfl
  cases h with
  | step h =>
    cases h with
    | arrays h => rw [hp _ _ h]; rfl
    | single h1 h2 => rw [c1] at h1; cases (show _ = _ from h1); rw [hr _ _ h2]; rfl
    | none => rfl
  | skip => rfl
  | interpolate h => rw [hr _ _ h]; rfl
  | run h => rw [hp _ _ h]; rfl
  | @runEvents o o' h =>
    obtain ⟨a, b, c⟩ := o'
    obtain ⟨h1, h2, h3⟩ := h
    dsimp only at h1 h2 h3
    rw [hp _ _ h1, forall₂_map (f := List.map C.time) (fun u v h => forall₂_map (fun _ _ h => by rw [c1] at h; exact h) h) h2,
      forall₂_map (f := List.map C.ref) (fun u v h => forall₂_map (fun _ _ h => hr _ _ h) h) h3]
    rfl

theorem history_of_rel {b : Buffer α n k} {b' : Buffer α m k} (h : C.vars.Hist b b') : b' = C.history b := by
  obtain ⟨ts, ys, fs⟩ := b'
  obtain ⟨h1, h2, h3⟩ := h
  have e1 : ts = fun i => C.time (b.ts i) := funext h1
  have e2 : ys = fun i => C.state (b.ys i) := funext h2
  have e3 : fs = fun i => C.slope (b.fs i) := funext h3
  rw [e1, e2, e3]
  rfl

/-- Related observations are the same observation in the two sets of variables. -/
theorem seen_of_rel (D : Corr S S') (c1 : D.tm = C.vars.tm) (c2 : D.vec = C.vars.vec) {o : Option (Except Err (Seen α n k))}
    {o' : Option (Except Err (Seen α m k))}
    (h : Corr.OptRel (ExRel fun v v' => List.Forall₂ (ExRel D.AnsRel) v.results v'.results ∧ C.vars.Hist v.history v'.history ∧ C.vars.hr v.h v'.h)
      o o') : o' = o.map (Except.map C.seen) := by
  rcases o with _ | (e | v) <;> rcases o' with _ | (e' | v') <;> first | exact h.elim | rfl | skip
  · cases (show e = e' from h); rfl
  · obtain ⟨h1, h2, h3⟩ := h
    obtain ⟨l, b, w⟩ := v'
    dsimp only at h1 h2 h3
    rw [forall₂_map (f := Except.map C.answer) (fun u u' h => ?_) h1, C.history_of_rel h2, show w = _ from h3]
    · rfl
    · cases u <;> cases u' <;> first | exact h.elim | skip
      · cases (show _ = _ from h); rfl
      · rw [C.answer_of_rel D c1 c2 h]; rfl

theorem seen_of_same {o : Option (Except Err (Seen α n k))} {o' : Option (Except Err (Seen α m k))} (h : C.vars.Same S S' o o') :
    o' = o.map (Except.map C.seen) := by
  obtain ⟨D, h1, h2, h3⟩ := h
  exact C.seen_of_rel D h1 h2 h3

theorem calls {cs : List (Call α n)} {cs' : List (Call α m)} (hc : List.Forall₂ C.SameCall cs cs') : C.vars.Calls S S' cs cs' :=
  fun D h1 h2 => hc.imp fun _ _ h => C.callRel D h1 h2 h

/-- The error norm does not notice a relabelling, if `atol` is scaled along. -/
theorem sameControl (C : Change α n n) {κ : α} (hκ : 0 < κ) (hC : C.Relabels κ) (lib : Lib α) (o : VarOptions α) :
    SameControl C.vars lib o { o with atol := κ * o.atol } where
  minFactor := rfl
  maxFactor := rfl
  safetyFactor := rfl
  norm := by
    rintro y _ z _ d _ rfl rfl rfl
    obtain ⟨hb, σ, e, he, hM⟩ := hC
    have hlin : ∀ (d : Vec α n) i, C.lin d i = e i * d (σ i) := by
      intro d i
      unfold lin
      rw [Finset.sum_eq_single (σ i)]
      · rw [hM, if_pos rfl]
      · intro j _ hj
        rw [hM, if_neg hj, zero_mul]
      · intro h; exact absurd (Finset.mem_univ _) h
    have hst : ∀ (y : Vec α n) i, C.state y i = e i * y (σ i) := by
      intro y i
      unfold state
      rw [hlin, hb, add_zero]
    unfold scaledErrorNorm
    dsimp only
    congr 2
    rw [foldl_eq_sum, foldl_eq_sum, zero_add, zero_add, ← Equiv.sum_comp σ]
    refine Finset.sum_congr rfl fun i _ => ?_
    rw [hst, hst, hlin]
    simp only [pyMax_eq, pyAbs_eq, abs_mul, he]
    rw [← mul_max_of_nonneg _ _ hκ.le]
    have e1 : κ * o.atol + o.rtol * (κ * max |y (σ i)| |z (σ i)|) = κ * (o.atol + o.rtol * max |y (σ i)| |z (σ i)|) := by ring
    rw [e1, div_mul_div_comm, div_mul_div_comm]
    have e2 : e i * e i = κ * κ := by rw [← he i, abs_mul_abs_self]
    have e3 : e i * d (σ i) * (e i * d (σ i)) = (κ * κ) * (d (σ i) * d (σ i)) := by rw [← e2]; ring
    rw [e3]
    generalize o.atol + o.rtol * max |y (σ i)| |z (σ i)| = w
    rw [show κ * w * (κ * w) = κ * κ * (w * w) by ring, mul_div_mul_left _ _ (mul_pos hκ hκ).ne']

/-! ### Implicit methods -/

theorem clock_lin (lam c : α) (y : Vec α n) : (clock n lam c).lin y = y := by
  funext i
  unfold lin clock
  simp

theorem clock_state (lam c : α) (y : Vec α n) : (clock n lam c).state y = y := by
  funext i
  unfold state
  rw [clock_lin]
  simp [clock]

theorem clock_slope (lam c : α) (f : Vec α n) : (clock n lam c).slope f = fun i => f i / lam := by
  funext i
  unfold slope
  rw [clock_lin]
  rfl

theorem follows_implicit {p : Nat} (lib : Lib α) (zo : ZeroOpts α) (cf : MultistepCoef α p) {lam c : α} (hl : 0 < lam) {rhs rhs' : Rhs α n}
    (hf : (clock n lam c).Transforms rhs rhs') :
    Follows (clock n lam c).vars.StRel (fun _ _ => (clock n lam c).vars.StRel) (clock n lam c).vars.StRel
      (implicitMultistepBody lib zo cf rhs) (implicitMultistepBody lib zo cf rhs') := by
  unfold implicitMultistepBody
  refine follows_read fun x y h => ?_
  dsimp only
  have L := lawful (clock n lam c) hl
  have hR := rhsRel _ hf
  have hh : y.h = lam * x.h := h.2
  have ht := L.tm_add (h.1.ts (Buffer.iLast _)) h.2
  have hyy : ∀ i, y.cache.ys i = x.cache.ys i := fun i => (h.1.ys i).trans (clock_state _ _ _)
  have hff : ∀ i j, y.cache.fs i j = x.cache.fs i j / lam := fun i j => by
    have := h.1.fs i
    rw [show y.cache.fs i = _ from this, clock_slope]
  have hK : multistepK cf y.cache y.h = multistepK cf x.cache x.h := by
    funext j
    unfold multistepK
    simp only [Pi.sub_apply, vdot_apply, hh]
    congr 1
    · refine Finset.sum_congr rfl fun q _ => ?_
      show lam * x.h * cf.B q * y.cache.fs _ j = x.h * cf.B q * x.cache.fs _ j
      rw [hff]
      field_simp
    · refine Finset.sum_congr rfl fun q _ => ?_
      show cf.A q * y.cache.ys _ j = cf.A q * x.cache.ys _ j
      rw [hyy]
  have hroot : implicitRoot rhs' (y.cache.t + y.h) (y.h * cf.Bn) (multistepK cf x.cache x.h) =
      implicitRoot rhs (x.cache.t + x.h) (x.h * cf.Bn) (multistepK cf x.cache x.h) := by
    funext w
    unfold implicitRoot
    have := hf (x.cache.t + x.h) w
    rw [clock_state, ← show y.cache.t + y.h = (clock n lam c).time (x.cache.t + x.h) from ht] at this
    rw [this, hh]
    cases rhs (x.cache.t + x.h) w with
    | error e => rfl
    | ok f =>
      show Except.ok _ = Except.ok _
      congr 2
      rw [clock_slope]
      funext j
      simp only [Pi.sub_apply, scale]
      field_simp
  have hsol : implicitSolve lib zo rhs' (y.cache.t + y.h) (y.h * cf.Bn) (multistepK cf y.cache y.h) y.cache.y =
      implicitSolve lib zo rhs (x.cache.t + x.h) (x.h * cf.Bn) (multistepK cf x.cache x.h) x.cache.y := by
    unfold implicitSolve
    rw [hK, hroot, show y.cache.y = x.cache.y from hyy _]
  rw [hsol]
  refine follows_bind (follows_ofExcept (Q0 := fun a b => b = a) ?_ fun _ _ h => h) fun u v => follows_fact fun huv => ?_
  · cases implicitSolve lib zo rhs (x.cache.t + x.h) (x.h * cf.Bn) (multistepK cf x.cache x.h) x.cache.y <;> exact rfl
  subst huv
  have hv : (clock n lam c).vars.vec v v := (clock_state _ _ _).symm
  refine follows_bind (follows_ofExcept (hR _ _ _ _ ht hv) fun _ _ h => h) fun u w => follows_fact fun huw => ?_
  exact follows_modify fun x y h => ⟨h.1.push ht hv huw, h.2⟩

theorem clock_flip {lam c : α} (hl : 0 < lam) : (clock n lam⁻¹ (-(c / lam))).vars = (clock n lam c).vars.flip := by
  have h0 : lam ≠ 0 := hl.ne'
  unfold vars Vars.flip
  congr 1 <;> funext a b <;> refine propext ?_
  · show b = lam⁻¹ * a + -(c / lam) ↔ a = lam * b + c
    constructor <;> intro h <;> rw [h] <;> field_simp <;> ring
  · show b = lam⁻¹ * a ↔ a = lam * b
    constructor <;> intro h <;> rw [h] <;> field_simp
  · dsimp only; rw [clock_state, clock_state]; exact eq_comm
  · dsimp only; rw [clock_lin, clock_lin]; exact eq_comm
  · dsimp only; rw [clock_slope, clock_slope]
    constructor <;> intro h <;> rw [h] <;> funext i <;> field_simp

theorem follows_implicit_flip {p : Nat} (lib : Lib α) (zo : ZeroOpts α) (cf : MultistepCoef α p) {lam c : α} (hl : 0 < lam)
    {rhs rhs' : Rhs α n} (hf : (clock n lam c).Transforms rhs rhs') :
    Follows (clock n lam c).vars.flip.StRel (fun _ _ => (clock n lam c).vars.flip.StRel) (clock n lam c).vars.flip.StRel
      (implicitMultistepBody lib zo cf rhs') (implicitMultistepBody lib zo cf rhs) := by
  rw [← clock_flip hl]
  refine follows_implicit lib zo cf (inv_pos.2 hl) ?_
  intro t y
  have hR := (rhsRel _ hf).flip
  rw [← clock_flip hl] at hR
  have h := hR t _ y _ rfl rfl
  revert h
  cases rhs' t y <;> cases rhs ((clock n lam⁻¹ (-(c / lam))).time t) ((clock n lam⁻¹ (-(c / lam))).state y) <;> intro h <;>
    first | exact h.elim | skip
  · cases (show _ = _ from h); rfl
  · rw [show _ = _ from h]; rfl

end Spec.Change
end Nbkode
