import Verif.Proofs.Polynomials
import Verif.Props.EventError
import Verif.Props.Terminal
import Verif.Props.EventSearch
import Verif.Props.Tolerance

/-!
# Polynomial solutions: C93
-/

set_option autoImplicit false
set_option linter.unusedSectionVars false

namespace Nbkode
open Py Spec Solver Topology

variable {n s d : ℕ} {X : Type}

/-! ### Exactness -/

theorem Runge2_hermite : DenseConditions (withLast (Runge2 : Tableau ℝ 1)).A (hermiteP (Runge2 : Tableau ℝ 1)) 2 :=
  dense_of_check (A := (withLast (Runge2 : Tableau ℚ 1)).A) (P := hermiteP (Runge2 : Tableau ℚ 1)) (by decide +kernel)
    (by intro i j; fin_cases i <;> fin_cases j <;> simp [Runge2, withLast, q])
    (by intro i j; fin_cases i <;> fin_cases j <;> simp [hermiteP, Runge2, withLast, q])

theorem Runge3_hermite : DenseConditions (withLast (Runge3 : Tableau ℝ 3)).A (hermiteP (Runge3 : Tableau ℝ 3)) 3 :=
  dense_of_check (A := (withLast (Runge3 : Tableau ℚ 3)).A) (P := hermiteP (Runge3 : Tableau ℚ 3)) (by decide +kernel)
    (by intro i j; fin_cases i <;> fin_cases j <;> simp [Runge3, withLast, q])
    (by intro i j; fin_cases i <;> fin_cases j <;> simp [hermiteP, Runge3, withLast, q])

theorem Heun3_hermite : DenseConditions (withLast (Heun3 : Tableau ℝ 2)).A (hermiteP (Heun3 : Tableau ℝ 2)) 3 :=
  dense_of_check (A := (withLast (Heun3 : Tableau ℚ 2)).A) (P := hermiteP (Heun3 : Tableau ℚ 2)) (by decide +kernel)
    (by intro i j; fin_cases i <;> fin_cases j <;> simp [Heun3, withLast, q])
    (by intro i j; fin_cases i <;> fin_cases j <;> simp [hermiteP, Heun3, withLast, q])

theorem eulerTableau_hermite : DenseConditions (withLast eulerTableau).A (hermiteP eulerTableau) 1 :=
  dense_of_check (A := (withLast (⟨fun _ _ => 0, fun _ => 1, fun _ => 0⟩ : Tableau ℚ 0)).A)
    (P := hermiteP (⟨fun _ _ => 0, fun _ => 1, fun _ => 0⟩ : Tableau ℚ 0)) (by decide +kernel)
    (by intro i j; fin_cases i <;> fin_cases j <;> simp [eulerTableau, withLast])
    (by intro i j; fin_cases i <;> fin_cases j <;> simp [hermiteP, eulerTableau, withLast])

theorem erk_exact {T : Tableau ℝ s} (hT : Explicit T) (hR : RowSums T) {p q : ℕ} (hp : 1 ≤ p) (hqp : q ≤ p) (hq : q ≤ 3)
    (hB : OrderConditions T.A T.B p) (hP : DenseConditions (withLast T).A (hermiteP T) q) (b : Bound ℝ) :
    ExactUpTo (fun rhs : Rhs ℝ n => ⟨erk T, rhs, b⟩) erkStarts p q :=
  exact_upTo (fun _ => Or.inl (.erk T)) (erk_startsAt T b) (erk_steps hT b)
    (hermite_dense hT (fun _ => .erk T) (fun _ => rfl) (erk_steps hT b) _) hT hR (withLast_explicit hT)
    (rows_last hR hp hB) hB hqp hq hP

/-- **C93** for `Runge2`: exact up to degree 2 at the steps and 2 in `run`. -/
theorem C93_Runge2 (b : Bound ℝ) : ExactUpTo (fun rhs : Rhs ℝ n => ⟨erk Runge2, rhs, b⟩) erkStarts 2 2 :=
  erk_exact Runge2_conditions.explicit Runge2_rows (by norm_num) (by norm_num) (by norm_num) Runge2_tree Runge2_hermite b

/-- **C93** for `Runge3`: exact up to degree 3 at the steps and 3 in `run`. -/
theorem C93_Runge3 (b : Bound ℝ) : ExactUpTo (fun rhs : Rhs ℝ n => ⟨erk Runge3, rhs, b⟩) erkStarts 3 3 :=
  erk_exact Runge3_conditions.explicit Runge3_rows (by norm_num) (by norm_num) (by norm_num) Runge3_tree Runge3_hermite b

/-- **C93** for `Heun3`: exact up to degree 3 at the steps and 3 in `run`. -/
theorem C93_Heun3 (b : Bound ℝ) : ExactUpTo (fun rhs : Rhs ℝ n => ⟨erk Heun3, rhs, b⟩) erkStarts 3 3 :=
  erk_exact Heun3_conditions.explicit Heun3_rows (by norm_num) (by norm_num) (by norm_num) Heun3_tree Heun3_hermite b

/-- **C93** for `RungeKutta4`: exact up to degree 4 at the steps and 3 in `run`. -/
theorem C93_RungeKutta4 (b : Bound ℝ) : ExactUpTo (fun rhs : Rhs ℝ n => ⟨erk RungeKutta4, rhs, b⟩) erkStarts 4 3 :=
  erk_exact RungeKutta4_conditions.explicit RungeKutta4_rows (by norm_num) (by norm_num) (by norm_num) RungeKutta4_tree RungeKutta4_dense b

/-- **C93** for `RungeKutta3_8`: exact up to degree 4 at the steps and 3 in `run`. -/
theorem C93_RungeKutta3_8 (b : Bound ℝ) : ExactUpTo (fun rhs : Rhs ℝ n => ⟨erk RungeKutta3_8, rhs, b⟩) erkStarts 4 3 :=
  erk_exact RungeKutta3_8_conditions.explicit RungeKutta3_8_rows (by norm_num) (by norm_num) (by norm_num) RungeKutta3_8_tree RungeKutta3_8_dense b

/-- **C93** for `ForwardEuler` (and `AdamsBashforth1`): exact for straight lines. -/
theorem C93_ForwardEuler (b : Bound ℝ) :
    ExactUpTo (fun rhs : Rhs ℝ n => (⟨explicitMultistep ForwardEuler, rhs, b⟩ : Solver ℝ n 0 Unit)) eulerStarts 1 1 :=
  exact_upTo (fun _ => Or.inl (.explicitMultistep _)) (euler_startsAt b) (euler_steps b)
    (hermite_dense eulerTableau_explicit (fun _ => .explicitMultistep _) (fun _ => rfl) (euler_steps b) _) eulerTableau_explicit
    eulerTableau_rows (withLast_explicit eulerTableau_explicit) (rows_last eulerTableau_rows le_rfl eulerTableau_tree)
    eulerTableau_tree le_rfl (by norm_num) eulerTableau_hermite

/-- **C93** for `RungeKutta23`: exact up to degree 3 at the steps and 2 in `run`. -/
theorem C93_RungeKutta23 (lib : Lib ℝ) (o : VarOptions ℝ) (hl : PowLaw lib) (ho : SaneOptions o) (b : Bound ℝ) :
    ExactUpTo (fun rhs : Rhs ℝ n => ⟨fsal lib o RungeKutta23, rhs, b⟩) (fsalStarts RungeKutta23 o) 3 2 :=
  have hex : 0 ≤ (RungeKutta23 : FsalCoef ℝ 2 3).errorExponent := by simp [RungeKutta23, q]
  exact_upTo (fun _ => Or.inr ⟨lib, o, _, .fsal _, hl, ho, hex⟩) (fsal_startsAt _ lib o b)
    (fsalBody_steps RungeKutta23_conditions.explicit lib o hl ho _ hex _ b _)
    (fsal_dense _ RungeKutta23_conditions.explicit RungeKutta23_ends lib o hl ho hex b)
    RungeKutta23_conditions.explicit RungeKutta23_rows (withLast_explicit RungeKutta23_conditions.explicit)
    (rows_last RungeKutta23_rows (by norm_num) RungeKutta23_tree) RungeKutta23_tree (by norm_num) (by norm_num) RungeKutta23_dense

/-- **C93** for `RungeKutta45`: exact up to degree 5 at the steps and 4 in `run`. -/
theorem C93_RungeKutta45 (lib : Lib ℝ) (o : VarOptions ℝ) (hl : PowLaw lib) (ho : SaneOptions o) (b : Bound ℝ) :
    ExactUpTo (fun rhs : Rhs ℝ n => ⟨fsal lib o RungeKutta45, rhs, b⟩) (fsalStarts RungeKutta45 o) 5 4 :=
  have hex : 0 ≤ (RungeKutta45 : FsalCoef ℝ 5 4).errorExponent := by simp [RungeKutta45, q]
  exact_upTo (fun _ => Or.inr ⟨lib, o, _, .fsal _, hl, ho, hex⟩) (fsal_startsAt _ lib o b)
    (fsalBody_steps RungeKutta45_conditions.explicit lib o hl ho _ hex _ b _)
    (fsal_dense _ RungeKutta45_conditions.explicit RungeKutta45_ends lib o hl ho hex b)
    RungeKutta45_conditions.explicit RungeKutta45_rows (withLast_explicit RungeKutta45_conditions.explicit)
    (rows_last RungeKutta45_rows (by norm_num) RungeKutta45_tree) RungeKutta45_tree (by norm_num) (by norm_num) RungeKutta45_dense

/-! ### The documented example -/

/-- The flight of the body. -/
noncomputable def flight (v g t : ℝ) : Vec ℝ 2 := ![v * t - g * t ^ 2 / 2, v - g * t]

theorem flight_polynomial (v g : ℝ) : PolynomialSolution (upwardCannon g) (flight v g) 2 := by
  refine ⟨fun t => ?_, ⟨![.C v * .X - .C (g / 2) * .X ^ 2, .C v - .C g * .X], fun i => ?_⟩, Or.inl ⟨![![0, 1], ![0, 0]], ![0, -g], ?_⟩⟩
  · refine hasDerivAt_pi.mpr fun i => ?_
    have h1 : HasDerivAt (fun t : ℝ => v * t) v t := by simpa using (hasDerivAt_id t).const_mul v
    have h2 : HasDerivAt (fun t : ℝ => g * t) g t := by simpa using (hasDerivAt_id t).const_mul g
    have h3 : HasDerivAt (fun t : ℝ => t ^ 2) (2 * t) t := by simpa using hasDerivAt_pow 2 t
    have h4 : HasDerivAt (fun t : ℝ => g * t ^ 2 / 2) (g * t) t := by
      have := (h3.const_mul g).div_const 2
      rwa [show g * (2 * t) / 2 = g * t by ring] at this
    fin_cases i
    · exact h1.sub h4
    · exact h2.const_sub v
  · fin_cases i
    · refine ⟨?_, fun t => ?_⟩
      · show (Polynomial.C v * Polynomial.X - Polynomial.C (g / 2) * Polynomial.X ^ 2).natDegree ≤ 2
        compute_degree
      · simp [flight]; ring
    · refine ⟨?_, fun t => ?_⟩
      · show (Polynomial.C v - Polynomial.C g * Polynomial.X).natDegree ≤ 2
        compute_degree
        norm_num
      · simp [flight]
  · funext t y i
    fin_cases i <;> simp [upwardCannon]

theorem height_pos {v g t : ℝ} (hg : 0 < g) (h0 : 0 < t) (h : t < 2 * v / g) : 0 < v * t - g * t ^ 2 / 2 := by
  rw [lt_div_iff₀ hg] at h
  nlinarith

theorem height_zero {v g t : ℝ} (hg : 0 < g) (h0 : 0 < t) (h : v * t - g * t ^ 2 / 2 = 0) : t = 2 * v / g := by
  rw [eq_div_iff hg.ne']
  have : t * (2 * v - t * g) = 0 := by linarith
  rcases mul_eq_zero.mp this with h | h <;> linarith

theorem height_neg {v g t : ℝ} (hv : 0 < v) (hg : 0 < g) (h : 2 * v / g ≤ t) : v * t - g * t ^ 2 / 2 ≤ 0 := by
  have h0 : 0 < t := (by positivity : 0 < 2 * v / g).trans_le h
  rw [div_le_iff₀ hg] at h
  nlinarith

/-- Some step of a path passes any time between its ends. -/
theorem passing_step {k : ℕ} {S : Solver ℝ n k X} {b : Bound ℝ} {s c : St ℝ n k X} {l : List (St ℝ n k X)} (hp : Path S b s l c)
    {x : ℝ} (h1 : s.t < x) (h2 : x ≤ c.t) : ∃ a b, Consecutive (s :: l) a b ∧ a.t < x ∧ x ≤ b.t := by
  induction hp with
  | nil s => exact absurd h1 (not_lt.mpr h2)
  | @cons s s1 s2 l hf ht hp ih =>
    by_cases h : s1.t < x
    · obtain ⟨a, b, ⟨l1, l2, e⟩, h3⟩ := ih h h2
      exact ⟨a, b, ⟨s :: l1, l2, by rw [e]; rfl⟩, h3⟩
    · exact ⟨s, s1, ⟨[], l, rfl⟩, h1, not_lt.mp h⟩

theorem path_later {k : ℕ} {S : Solver ℝ n k X} (hM : WellConfigured S.method) {b : Bound ℝ} {s u : St ℝ n k X} {l : List (St ℝ n k X)}
    (hp : Path S b s l u) (hh : 0 < s.h) : u = s ∨ s.t < u.t := by
  cases hp with
  | nil => exact Or.inl rfl
  | @cons _ s1 _ l hf ht hp =>
    have h1 := C11_step_increases _ hM _ _ hh ht
    exact Or.inr (h1.1.trans_le (path_pos hM hp h1.2).2)

theorem path_to_end {k : ℕ} {S : Solver ℝ n k X} (hM : WellConfigured S.method) {b : Bound ℝ} {s c u v : St ℝ n k X} {l : List (St ℝ n k X)}
    (hp : Path S b s l c) (hh : 0 < s.h) (hc : Consecutive (s :: l) u v) : v.t ≤ c.t := by
  induction hp with
  | nil s => exact absurd hc consecutive_single
  | @cons s s1 s2 l hf ht hp ih =>
    have hh1 := (C11_step_increases _ hM _ _ hh ht).2
    obtain ⟨l1, l2, e⟩ := hc
    cases l1 with
    | nil =>
      simp only [List.nil_append, List.cons.injEq] at e
      obtain ⟨rfl, rfl, rfl⟩ := e
      exact (path_pos hM hp hh1).2
    | cons x l1 =>
      simp only [List.cons_append, List.cons.injEq] at e
      exact ih hh1 ⟨l1, l2, e.2⟩

theorem cannon_lands {cls : Rhs ℝ 2 → Solver ℝ 2 0 X} {starts : Rhs ℝ 2 → ℝ → Vec ℝ 2 → St ℝ 2 0 X → Prop}
    (hM : ∀ rhs, WellConfigured (cls rhs).method) (hF : ∀ rhs, Faults (cls rhs).method fun _ => False) (hrhs : ∀ rhs, (cls rhs).rhs = rhs)
    (hb : ∀ rhs, (cls rhs).tBound = .inf) (h0 : StartsAt cls starts)
    (hT : ∀ v g s0, starts (pureRhs (upwardCannon g)) 0 ![0, v] s0 → 0 < s0.h → ∀ b, Tracks (cls (pureRhs (upwardCannon g))) (flight v g) s0 b 0)
    (hfirst : ∀ v g s0 u, starts (pureRhs (upwardCannon g)) 0 ![0, v] s0 → 0 < s0.h → Takes (cls (pureRhs (upwardCannon g))) s0 u → u.t ≤ s0.t + s0.h)
    (hH : ∀ v g bo argsort ts es s0, starts (pureRhs (upwardCannon g)) 0 ![0, v] s0 → 0 < s0.h →
      Halts ((cls (pureRhs (upwardCannon g))).runEvents bo argsort ts es) s0) : CannonLands cls starts := by
  intro v g T bo argsort s0 hv hg hTl htol hmax hA hs0 hh hh'
  have hv' : 0 < 2 * v / g := by positivity
  have hTr := hT v g s0 hs0 hh
  have hF1 := hfirst v g s0
  obtain ⟨r, s', hrun⟩ := hH v g bo argsort [T] (some [hitGround, apex]) s0 hs0 hh
  have htimes := h0.times _ _ _ _ hs0
  have ht0 : s0.t = 0 := htimes _
  have hcon := h0.constructed _ _ _ _ hs0
  have hord : Ordered s0 := ordered_of_times htimes
  have hbs := hb (pureRhs (upwardCannon g))
  have hMs := hM (pureRhs (upwardCannon g))
  have hr0 := hrhs (pureRhs (upwardCannon g))
  have hFs := hF (pureRhs (upwardCannon g))
  generalize cls (pureRhs (upwardCannon g)) = S at hrun hcon hbs hMs hTr hr0 hFs hF1 ⊢
  have hT0 : 0 < T := hv'.trans hTl
  cases r with
  | error e =>
    refine absurd hrun (C48_future_partial S hMs bo htol hmax argsort (fun t y => ⟨_, by rw [hr0]; rfl⟩) (fun s s' e h => ?_) s0 s0 hcon hord
      hh (.start _) [T] (by simp) (by simp) (by simp [ht0, hT0]) (fun x hx => ⟨?_, by rw [hbs]; trivial⟩) _ (by simp) e s')
    · rcases only_body hFs s e s' h with ⟨t, y, h⟩ | h
      · rw [hr0] at h; cases h
      · exact h
    · rw [List.mem_singleton.mp hx, htimes]; exact hT0.le
  | ok o =>
    obtain ⟨out, l, c, hp, e1, -, hE, hout, -, hlen, hlen', hL⟩ := runEvents_ends S hMs bo htol argsort hA s0 s0 hcon hord hh (.start _) [T]
      [hitGround, apex] (by simp) o s' hrun
    have hso : isSorted [T] = true := (isSorted_iff _).mpr (by simp)
    rw [if_pos hso] at hout
    rw [show sortedTimes argsort [T] = [T] by unfold sortedTimes; rw [if_pos hso], ← hout] at hE
    -- the states visited and the dense output are exact
    have hvis : ∀ a b, Consecutive (s0 :: l) a b → a.y = flight v g a.t ∧ b.y = flight v g b.t ∧ 0 ≤ a.t ∧ a.t < b.t ∧ (0 < a.t ∨ b.t < 2 * v / g) ∧
        ∀ x w, a.t ≤ x → x ≤ b.t → DenseAt S b x w → w = flight v g x := by
      intro a b hab
      obtain ⟨l', hp', hf', htk'⟩ := path_consecutive hp hab
      obtain ⟨ha, ha0⟩ := path_pos hMs hp' hh
      have hlt := (C11_step_increases _ hMs _ _ ha htk').1
      have hpb : Path S S.tBound s0 (l' ++ [b]) b := path_append hp' (.cons hf' htk' (.nil _))
      refine ⟨funext fun i => ?_, funext fun i => ?_, by rw [← ht0]; exact ha0, hlt, ?_, fun x w h1 h2 h3 => funext fun i => ?_⟩
      · exact sub_eq_zero.mp (abs_nonpos_iff.mp ((hTr a.t).visited _ _ hp' le_rfl i))
      · exact sub_eq_zero.mp (abs_nonpos_iff.mp ((hTr b.t).visited _ _ hpb le_rfl i))
      · rcases path_later hMs hp' hh with rfl | h
        · right
          have := hF1 b hs0 hh htk'
          rw [ht0, zero_add] at this
          exact this.trans_lt hh'
        · left; rw [ht0] at h; exact h
      · exact sub_eq_zero.mp (abs_nonpos_iff.mp ((hTr b.t).dense _ _ _ hp' hlt hf' htk' x w h1 h2 h3 i))
    have hend : ∀ a b, Consecutive (s0 :: l) a b → b.t - a.t ≤ s'.t := by
      intro a b hab
      have h1 := path_to_end hMs hp hh hab
      have h2 := (hvis a b hab).2.2.1
      rw [e1]; linarith
    have hground : ∀ a b, Consecutive (s0 :: l) a b → CrossesOn hitGround a b → 0 < a.t ∧ 2 * v / g ≤ b.t := by
      intro a b hab hcr
      obtain ⟨h1, h2, h3, h4, h5, -⟩ := hvis a b hab
      have h6 : value hitGround b ≤ 0 := by
        unfold CrossesOn Crosses at hcr
        simp only [hitGround] at hcr
        rcases hcr with ⟨h, -⟩ | ⟨-, h⟩ | ⟨h, -⟩
        · linarith
        · exact h.2
        · linarith
      have h7 : 2 * v / g ≤ b.t := by
        by_contra hlt
        have := height_pos hg (h3.trans_lt h4) (not_le.mp hlt)
        simp only [value, hitGround, h2, flight, Matrix.cons_val_zero] at h6
        linarith
      rcases h5 with h5 | h5
      · exact ⟨h5, h7⟩
      · exact absurd h7 (not_le.mpr h5)
    rcases hE with ⟨hno, -, ⟨-, hTc⟩ | ⟨hfit, -⟩⟩ | ⟨l0, p, i, e, τ, y, pre, q1, q2, q3, q4, q5, q6, q7, q8, q9, q10, q11, -, -, -⟩
    · exfalso
      obtain ⟨a, b, hab, h1, h2⟩ := passing_step hp (x := 2 * v / g) (by rw [ht0]; exact hv') (hTl.le.trans (hTc T (by simp)))
      obtain ⟨k1, k2, k3, k4, -⟩ := hvis a b hab
      refine hno a b hab ⟨hitGround, by simp, rfl, Or.inr (Or.inl ⟨by simp, ?_, ?_⟩)⟩
      · simp only [value, hitGround, k1, flight, Matrix.cons_val_zero]
        rcases k3.eq_or_lt with h | h
        · rw [← h]; simp
        · exact (height_pos hg h h1).le
      · simp only [value, hitGround, k2, flight, Matrix.cons_val_zero]
        exact height_neg hv hg h2
    · exact absurd (by rw [hbs]; trivial) hfit
    · have hi : i = 0 := by
        rcases i with _ | _ | i
        · rfl
        · simp [apex] at q3
          subst q3; simp at q4
        · simp at q3
      subst hi
      have he : e = hitGround := by simpa using q3.symm
      subst he
      have hpc : Consecutive (s0 :: l) p c := ⟨l0, [], by rw [q1]⟩
      obtain ⟨hpos, hc1⟩ := hground p c hpc q5
      obtain ⟨k1, k2, k3, k4, -, k6⟩ := hvis p c hpc
      have hyτ : y = flight v g τ := k6 τ y q7 q8 q9
      have hple : p.t ≤ 2 * v / g := by
        have h6 : 0 ≤ value hitGround p := by
          unfold CrossesOn Crosses at q5
          simp only [hitGround] at q5
          rcases q5 with ⟨h, -⟩ | ⟨-, h⟩ | ⟨h, -⟩
          · linarith
          · exact h.1
          · linarith
        simp only [value, hitGround, k1, flight, Matrix.cons_val_zero] at h6
        rw [le_div_iff₀ hg]
        nlinarith
      have hpre : pre = [] := by
        have : ([T] : List ℝ).filter (fun x => decide (x ≤ p.t)) = [] := by
          simp; linarith
        rw [this] at q11
        exact List.map_eq_nil_iff.mp q11
      obtain ⟨tl0, tl, hte⟩ : ∃ a b, o.tEvents = [a, b] := List.length_eq_two.mp hlen
      obtain ⟨yl0, yl, hye⟩ : ∃ a b, o.yEvents = [a, b] := List.length_eq_two.mp hlen'
      have htl0 : tl0 = [τ] := by rw [hte] at q6; simpa using q6
      subst htl0
      have L0 := hL 0 hitGround [τ] yl0 rfl (by rw [hte]; rfl) (by rw [hye]; rfl)
      have L1 := hL 1 apex tl yl rfl (by rw [hte]; rfl) (by rw [hye]; rfl)
      refine ⟨o, s', τ, tl, hrun, by rw [q10, hpre, hyτ]; rfl, hte, ?_, ?_, ?_⟩
      · obtain ⟨y0, hy0⟩ : ∃ y0, yl0 = [y0] := List.length_eq_one_iff.mp (L0.length_eq ▸ rfl)
        obtain ⟨a, b, hab, hd⟩ := L0.sound (τ, y0) (by rw [hy0]; simp)
        obtain ⟨g1, g2⟩ := hground a b hab hd.crosses
        obtain ⟨m1, m2, m3, m4, -, m6⟩ := hvis a b hab
        rcases hd.located with ⟨h1, h2⟩ | h1
        · left
          have h1 : τ = b.t := h1
          simp only [value, hitGround, m2, flight, Matrix.cons_val_zero] at h2
          rw [h1, h2]; simpa using htol
        · rcases C43_true_zero S bo hitGround a b τ h1 (fun t => v * t - g * t ^ 2 / 2) (by fun_prop) (fun x w h1 h2 ⟨y, h3, h4⟩ => by
            rw [h4, m6 x y h1 h2 h3]; rfl) with h2 | ⟨z, z1, z2, z3, z4⟩
          · exact Or.inl (h2 hd.after hd.before)
          · right
            rw [← height_zero hg (g1.trans_le z1) z3, abs_sub_comm]
            exact z4.trans (div_le_div_of_nonneg_right (hend a b hab) (by positivity))
      · obtain ⟨a, b, hab, h1, h2⟩ := passing_step hp (x := v / g) (by rw [ht0]; positivity) (le_trans (by
          rw [div_le_div_iff_of_pos_right hg]; linarith) hc1)
        obtain ⟨m1, m2, m3, m4, -, m6⟩ := hvis a b hab
        obtain ⟨τ', hτ', -⟩ := L1.complete a b hab (Or.inr ⟨by
          simp only [value, apex, m1, flight, Matrix.cons_val_one, Matrix.cons_val_fin_one]
          rw [lt_div_iff₀ hg] at h1; linarith, by
          simp only [value, apex, m2, flight, Matrix.cons_val_one, Matrix.cons_val_fin_one]
          rw [div_le_iff₀ hg] at h2; linarith⟩)
        exact List.ne_nil_of_mem hτ'
      · intro τ' hτ'
        obtain ⟨j, hj, rfl⟩ := List.getElem_of_mem hτ'
        have hj' : j < yl.length := by rw [← L1.length_eq]; exact hj
        obtain ⟨a, b, hab, hd⟩ := L1.sound (tl[j], yl[j]) (List.mem_iff_getElem.mpr ⟨j, by simp [hj, hj'], by simp⟩)
        obtain ⟨m1, m2, m3, m4, -, m6⟩ := hvis a b hab
        rcases hd.located with ⟨h1, h2⟩ | h1
        · left
          have h1 : tl[j] = b.t := h1
          simp only [value, apex, m2, flight, Matrix.cons_val_one, Matrix.cons_val_fin_one] at h2
          rw [h1, h2]; simpa using htol
        · rcases C43_true_zero S bo apex a b tl[j] h1 (fun t => v - g * t) (by fun_prop) (fun x w h1 h2 ⟨y, h3, h4⟩ => by
            rw [h4, m6 x y h1 h2 h3]; rfl) with h2 | ⟨z, z1, z2, z3, z4⟩
          · exact Or.inl (h2 hd.after hd.before)
          · right
            have hz : z = v / g := by rw [eq_div_iff hg.ne']; linarith
            rw [← hz, abs_sub_comm]
            exact z4.trans (div_le_div_of_nonneg_right (hend a b hab) (by positivity))

theorem upward_growth (g : ℝ) : LinearGrowth (pureRhs (upwardCannon g)) := by
  refine Demo.lipschitz_growth _ (fun y => continuous_const) 1 fun t y z => ?_
  rw [one_mul]
  refine (pi_norm_le_iff_of_nonneg (norm_nonneg _)).mpr fun i => ?_
  fin_cases i
  · exact norm_le_pi_norm (y - z) 1
  · simp [upwardCannon]

theorem halts_of_exec {k : ℕ} {S : Solver ℝ n k X} {bo : BisectOpts ℝ} {argsort : List ℝ → List Nat} {ts : List ℝ}
    {es : Option (List (EventSpec ℝ n))} {s0 : St ℝ n k X} (h : Halts ((Call.runEvents ts es).exec S bo argsort) s0) :
    Halts (S.runEvents bo argsort ts es) s0 := by
  obtain ⟨r, s', h⟩ := h
  change (do let _ ← S.runEvents bo argsort ts es; pure () : Py _ Unit).run s0 = _ at h
  rw [run_bind] at h
  cases h' : (S.runEvents bo argsort ts es).run s0 with
  | none => rw [h'] at h; cases h
  | some p => exact ⟨p.1, p.2, h'⟩

theorem flight_start (v g : ℝ) : flight v g 0 = ![0, v] := by
  simp [flight]

theorem erk_cannon {T : Tableau ℝ s} (hT : Explicit T) (hR : RowSums T) (hB : OrderConditions T.A T.B 2)
    (hP : DenseConditions (withLast T).A (hermiteP T) 2) :
    CannonLands (fun rhs : Rhs ℝ 2 => ⟨erk T, rhs, .inf⟩) erkStarts :=
  cannon_lands (fun _ => Or.inl (.erk T)) (fun _ => .erk T) (fun _ => rfl) (fun _ => rfl) (erk_startsAt T .inf)
    (fun v g s0 hs0 hh b => polynomial_tracks (fun _ => Or.inl (.erk T)) (erk_startsAt T .inf) (erk_steps hT .inf)
      (hermite_dense hT (fun _ => .erk T) (fun _ => rfl) (erk_steps hT .inf) _) hT hR (withLast_explicit hT)
      (rows_last hR (by norm_num) hB) hB (by norm_num) hP (flight_polynomial v g) (t₀ := 0) (by rw [flight_start]; exact hs0) hh b)
    (fun v g s0 u hs0 hh htk => by
      have := (IsFixed.shaped (.erk T)).body_fixed _ _ _ htk
      exact this.le)
    (fun v g bo argsort ts es s0 hs0 hh => halts_of_exec (C64_fixed _ (.erk T) bo argsort (.runEvents ts es) trivial s0 hh))

theorem orderConditions_mono {A : Fin (s + 1) → Fin (s + 1) → ℝ} {B : Fin (s + 1) → ℝ} {p q : ℕ} (h : OrderConditions A B p) (hq : q ≤ p) :
    OrderConditions A B q := fun τ hτ => h τ (hτ.trans hq)

theorem denseConditions_mono {A : Fin (s + 1) → Fin (s + 1) → ℝ} {P : Fin (s + 1) → Fin d → ℝ} {p q : ℕ} (h : DenseConditions A P p)
    (hq : q ≤ p) : DenseConditions A P q := fun τ hτ => h τ (hτ.trans hq)

theorem fsal_cannon {lib : Lib ℝ} (hl : RealFunctions lib) {o : VarOptions ℝ} (ho : ShrinkingOptions o) {c : FsalCoef ℝ s (d + 1)} (hT : Explicit c.toTableau)
    (hR : RowSums c.toTableau) (hex : 0 < c.errorExponent) (he : EndConditions c.toTableau c.P) (hB : OrderConditions c.A c.B 2) (hd : 2 ≤ d + 1)
    (hP : DenseConditions (withLast c.toTableau).A c.P 2) :
    CannonLands (fun rhs : Rhs ℝ 2 => ⟨fsal lib o c, rhs, .inf⟩) (fsalStarts c o) := by
  have hM : ∀ rhs : Rhs ℝ 2, WellConfigured (⟨fsal lib o c, rhs, .inf⟩ : Solver ℝ 2 0 _).method := fun _ =>
    Or.inr ⟨lib, o, _, .fsal _, real_powLaw hl, sane_of_shrinking ho, hex.le⟩
  have hsq : SqrtLaw lib := by
    refine ⟨fun x => ?_, fun x r h0 h => ?_, fun x h => ?_⟩ <;> rw [hl.sqrt]
    · exact Real.sqrt_nonneg x
    · exact (Real.sqrt_le_sqrt h).trans (by rw [Real.sqrt_sq h0])
    · rw [show (1 : ℝ) = Real.sqrt 1 by simp]
      exact Real.sqrt_le_sqrt h
  have hps : PowSmall lib c.errorExponent := fun x hx => by
    obtain ⟨δ, h1, h2⟩ := Demo.realLib_powSmall _ hex x hx
    exact ⟨δ, h1, fun z g1 g2 => by rw [hl.pow]; exact h2 z g1 g2⟩
  have hS : RKSteps c.toTableau (fun rhs : Rhs ℝ 2 => ⟨fsal lib o c, rhs, .inf⟩) :=
    fsalBody_steps hT lib o (real_powLaw hl) (sane_of_shrinking ho) _ hex.le _ .inf _
  have h0 := fsal_startsAt (n := 2) c lib o .inf
  refine cannon_lands hM (fun _ => .fsal _ _ _ (real_powLaw hl) hsq) (fun _ => rfl) (fun _ => rfl) h0
    (fun v g s0 hs0 hh b => polynomial_tracks hM h0 hS (fsal_dense _ hT he lib o (real_powLaw hl) (sane_of_shrinking ho) hex.le .inf) hT hR
      (withLast_explicit hT) (rows_last hR (by norm_num) hB) hB hd hP (flight_polynomial v g) (t₀ := 0)
      (by rw [flight_start]; exact hs0) hh b)
    (fun v g s0 u hs0 hh htk => ?_) (fun v g bo argsort ts es s0 hs0 hh => halts_of_exec ?_)
  · have hf : pureRhs (upwardCannon g) s0.t s0.y = .ok s0.f := by
      rw [← h0.f _ _ _ _ hs0, show s0.t = 0 from h0.times _ _ _ _ hs0 _, h0.y _ _ _ _ hs0]
    obtain ⟨r, K, f', hr0, hr1, -, hf', hc, -⟩ := fsalBody_records lib o (real_powLaw hl) (sane_of_shrinking ho) _ hex.le _ hT _ _ s0 u hf htk
    have ht : u.t = s0.t + s0.h * r := by rw [St.t, hc, push_t]
    rw [ht]
    nlinarith
  · refine C64_calls_growth_partial lib hsq (real_powLaw hl) o ho c hT hex.le hps _ (upward_growth g) .inf bo argsort (.runEvents ts es) trivial s0 ?_ hh
    rw [← h0.f _ _ _ _ hs0, show s0.t = 0 from h0.times _ _ _ _ hs0 _, h0.y _ _ _ _ hs0]

theorem fsal_grows {lib : Lib ℝ} (hl : RealFunctions lib) {o : VarOptions ℝ} {c : FsalCoef ℝ s d} (hT : Explicit c.toTableau)
    (hR : RowSums c.toTableau) (hR' : RowSums (withLast c.toTableau)) {b : Bound ℝ}
    (hS : RKSteps c.toTableau (fun rhs : Rhs ℝ n => ⟨fsal lib o c, rhs, b⟩)) {q : ℕ} (hB : OrderConditions c.A c.B q)
    (hE : ∀ τ : Tree, τ.order ≤ q → ∑ i, c.E i * τ.weight (withLast c.toTableau).A i = 0) :
    GrowsOn (fun rhs : Rhs ℝ n => ⟨fsal lib o c, rhs, b⟩) (fsalStarts c o) o q := by
  intro f y t₀ s0 hs0 h l u hp
  have h0 := fsal_startsAt (n := n) c lib o b
  have ht0 : s0.t = t₀ := h0.times _ _ _ _ hs0 _
  have hy0 : s0.y = y t₀ := h0.y _ _ _ _ hs0
  have hon : On f y s0 := ⟨by rw [ht0, hy0], by rw [ht0, hy0]; exact (Except.ok.inj (h0.f _ _ _ _ hs0)).symm⟩
  rw [← ht0]
  exact polynomial_grows hl hT hR hR' hS hB hE h hp hon

/-- **C93** for `Runge2`: the documented example. -/
theorem C93_Runge2_cannon : CannonLands (fun rhs : Rhs ℝ 2 => ⟨erk Runge2, rhs, .inf⟩) erkStarts :=
  erk_cannon Runge2_conditions.explicit Runge2_rows (orderConditions_mono Runge2_tree (by norm_num)) (denseConditions_mono Runge2_hermite (by norm_num))

/-- **C93** for `Runge3`: the documented example. -/
theorem C93_Runge3_cannon : CannonLands (fun rhs : Rhs ℝ 2 => ⟨erk Runge3, rhs, .inf⟩) erkStarts :=
  erk_cannon Runge3_conditions.explicit Runge3_rows (orderConditions_mono Runge3_tree (by norm_num)) (denseConditions_mono Runge3_hermite (by norm_num))

/-- **C93** for `Heun3`: the documented example. -/
theorem C93_Heun3_cannon : CannonLands (fun rhs : Rhs ℝ 2 => ⟨erk Heun3, rhs, .inf⟩) erkStarts :=
  erk_cannon Heun3_conditions.explicit Heun3_rows (orderConditions_mono Heun3_tree (by norm_num)) (denseConditions_mono Heun3_hermite (by norm_num))

/-- **C93** for `RungeKutta4`: the documented example. -/
theorem C93_RungeKutta4_cannon : CannonLands (fun rhs : Rhs ℝ 2 => ⟨erk RungeKutta4, rhs, .inf⟩) erkStarts :=
  erk_cannon RungeKutta4_conditions.explicit RungeKutta4_rows (orderConditions_mono RungeKutta4_tree (by norm_num)) (denseConditions_mono RungeKutta4_dense (by norm_num))

/-- **C93** for `RungeKutta3_8`: the documented example. -/
theorem C93_RungeKutta3_8_cannon : CannonLands (fun rhs : Rhs ℝ 2 => ⟨erk RungeKutta3_8, rhs, .inf⟩) erkStarts :=
  erk_cannon RungeKutta3_8_conditions.explicit RungeKutta3_8_rows (orderConditions_mono RungeKutta3_8_tree (by norm_num)) (denseConditions_mono RungeKutta3_8_dense (by norm_num))

/-- **C93** for `RungeKutta23`: the documented example, with any options that make sense. -/
theorem C93_RungeKutta23_cannon {lib : Lib ℝ} (hl : RealFunctions lib) (o : VarOptions ℝ) (ho : ShrinkingOptions o) :
    CannonLands (fun rhs : Rhs ℝ 2 => ⟨fsal lib o RungeKutta23, rhs, .inf⟩) (fsalStarts RungeKutta23 o) :=
  fsal_cannon hl ho RungeKutta23_conditions.explicit RungeKutta23_rows (by simp [RungeKutta23, q]) RungeKutta23_ends (orderConditions_mono RungeKutta23_tree (by norm_num))
    (by norm_num) (denseConditions_mono RungeKutta23_dense (by norm_num))

/-- **C93** for `RungeKutta23`: on polynomials up to degree 2 no attempt fails and the steps grow as fast as they may. -/
theorem C93_RungeKutta23_grows {lib : Lib ℝ} (hl : RealFunctions lib) (o : VarOptions ℝ) (ho : SaneOptions o) (b : Bound ℝ) :
    GrowsOn (fun rhs : Rhs ℝ n => ⟨fsal lib o RungeKutta23, rhs, b⟩) (fsalStarts RungeKutta23 o) o 2 :=
  have hex : 0 ≤ (RungeKutta23 : FsalCoef ℝ 2 3).errorExponent := by simp [RungeKutta23, q]
  fsal_grows hl RungeKutta23_conditions.explicit RungeKutta23_rows (rows_last RungeKutta23_rows (by norm_num) RungeKutta23_tree)
    (fsalBody_steps RungeKutta23_conditions.explicit lib o (real_powLaw hl) ho _ hex _ b _) (orderConditions_mono RungeKutta23_tree (by norm_num))
    RungeKutta23_tree_estimate

/-- **C93** for `RungeKutta45`: the documented example, with any options that make sense. -/
theorem C93_RungeKutta45_cannon {lib : Lib ℝ} (hl : RealFunctions lib) (o : VarOptions ℝ) (ho : ShrinkingOptions o) :
    CannonLands (fun rhs : Rhs ℝ 2 => ⟨fsal lib o RungeKutta45, rhs, .inf⟩) (fsalStarts RungeKutta45 o) :=
  fsal_cannon hl ho RungeKutta45_conditions.explicit RungeKutta45_rows (by simp [RungeKutta45, q]) RungeKutta45_ends (orderConditions_mono RungeKutta45_tree (by norm_num))
    (by norm_num) (denseConditions_mono RungeKutta45_dense (by norm_num))

/-- **C93** for `RungeKutta45`: on polynomials up to degree 4 no attempt fails and the steps grow as fast as they may. -/
theorem C93_RungeKutta45_grows {lib : Lib ℝ} (hl : RealFunctions lib) (o : VarOptions ℝ) (ho : SaneOptions o) (b : Bound ℝ) :
    GrowsOn (fun rhs : Rhs ℝ n => ⟨fsal lib o RungeKutta45, rhs, b⟩) (fsalStarts RungeKutta45 o) o 4 :=
  have hex : 0 ≤ (RungeKutta45 : FsalCoef ℝ 5 4).errorExponent := by simp [RungeKutta45, q]
  fsal_grows hl RungeKutta45_conditions.explicit RungeKutta45_rows (rows_last RungeKutta45_rows (by norm_num) RungeKutta45_tree)
    (fsalBody_steps RungeKutta45_conditions.explicit lib o (real_powLaw hl) ho _ hex _ b _) (orderConditions_mono RungeKutta45_tree (by norm_num))
    RungeKutta45_tree_estimate

/-! ### Cases -/

section concrete
open Demo

/-- The constructor of a pair, with the default options and a first step. -/
theorem default_starts (c : FsalCoef ℝ s d) (f : ℝ → Vec ℝ n → Vec ℝ n) (t₀ : ℝ) (y0 : Vec ℝ n) (h : ℝ) (sel) (g) (K) (itp) :
    ∃ s0, fsalInit c.P .default sel g K itp (pureRhs f) t₀ y0 none (some h) = .ok s0 ∧ s0.h = h ∧ fsalStarts c .default (pureRhs f) t₀ y0 s0 := by
  have hv : variableInit .default sel g (⟨K, itp⟩ : FsalAux ℝ n s (RkItp ℝ n d)) (pureRhs f) t₀ y0 none (some h) =
    .ok ⟨Buffer.init g t₀ y0 (f t₀ y0), h, ⟨K, itp⟩⟩ := by
      have : ¬ ((VarOptions.default : VarOptions ℝ).atol < 0) := not_lt.mpr default_shrinking.atol_pos.le
      have hm : (VarOptions.default : VarOptions ℝ).maxStep = .inf := rfl
      simp [variableInit, hm, this, solverInit, pureRhs, bind, Except.bind, pure, Except.pure]
  obtain ⟨s0, hi⟩ : ∃ s0, fsalInit c.P .default sel g K itp (pureRhs f) t₀ y0 none (some h) = .ok s0 := by
    unfold fsalInit
    rw [hv]
    exact ⟨_, rfl⟩
  refine ⟨s0, hi, ?_, sel, g, K, itp, none, some h, hi⟩
  obtain ⟨s1, h1, -, h2, -⟩ := fsalInit_ok hi
  rw [hv] at h1
  cases h1
  exact h2

theorem std_tol_pos : (0 : ℝ) ≤ (BisectOpts.std : BisectOpts ℝ).tol := by
  show (0 : ℝ) ≤ ((148 : Nat) : ℝ) / ((10 ^ 10 : Nat) : ℝ)
  positivity

/-- The documented call (`docs/events.rst:46-83`): thrown at speed 10, with the acceleration -0.5, `run_events(100, events=[hit_ground, apex])`;
the true times are 40 and 20. With the default options, any first step below 40 and the default search. -/
theorem documented_pair (c : FsalCoef ℝ s d) (hC : CannonLands (fun rhs : Rhs ℝ 2 => ⟨fsal realLib .default c, rhs, .inf⟩) (fsalStarts c .default))
    (argsort : List ℝ → List Nat) (hA : ∀ l, IsArgsort l (argsort l)) (h : ℝ) (hh : 0 < h) (hh' : h < 40) (sel) (g) (K) (itp) :
    ∃ s0 out s' τ tl, fsalInit c.P .default sel g K itp (pureRhs (upwardCannon (1 / 2))) 0 ![0, 10] none (some h) = .ok s0 ∧
      (Solver.runEvents ⟨fsal realLib .default c, pureRhs (upwardCannon (1 / 2)), .inf⟩ .std argsort [100] (some [hitGround, apex])).run s0 =
        some (.ok out, s') ∧ out.tEvents = [[τ], tl] ∧ out.out = [(τ, ![10 * τ - 1 / 2 * τ ^ 2 / 2, 10 - 1 / 2 * τ])] ∧
      (|10 * τ - 1 / 2 * τ ^ 2 / 2| ≤ 148 / 10 ^ 10 ∨ |τ - 40| ≤ s'.t / 2 ^ 50) ∧ tl ≠ [] ∧
      ∀ τ' ∈ tl, |10 - 1 / 2 * τ'| ≤ 148 / 10 ^ 10 ∨ |τ' - 20| ≤ s'.t / 2 ^ 50 := by
  obtain ⟨s0, h1, h2, h3⟩ := default_starts c (upwardCannon (1 / 2)) 0 ![0, 10] h sel g K itp
  have e1 : 2 * (10 : ℝ) / (1 / 2) = 40 := by norm_num
  have e2 : (10 : ℝ) / (1 / 2) = 20 := by norm_num
  have etol : (BisectOpts.std : BisectOpts ℝ).tol = 148 / 10 ^ 10 := by
    show ((148 : Nat) : ℝ) / ((10 ^ 10 : Nat) : ℝ) = _
    norm_num
  obtain ⟨out, s', τ, tl, g1, g2, g3, g4, g5, g6⟩ := hC 10 (1 / 2) 100 .std argsort s0 (by norm_num) (by norm_num) (by norm_num) std_tol_pos
    (by decide) hA h3 (by rw [h2]; exact hh) (by rw [h2, e1]; exact hh')
  rw [etol, e1] at g4
  simp only [etol, e2] at g6
  exact ⟨s0, out, s', τ, tl, h1, g1, g3, g2, g4, g5, g6⟩

/-- `C93_RungeKutta23_cannon`. -/
example := documented_pair (RungeKutta23 : FsalCoef ℝ 2 3) (C93_RungeKutta23_cannon realLib_real .default default_shrinking)

/-- `C93_RungeKutta45_cannon`. -/
example := documented_pair (RungeKutta45 : FsalCoef ℝ 5 4) (C93_RungeKutta45_cannon realLib_real .default default_shrinking)

/-- The same with a fixed step. -/
theorem documented_fixed (T : Tableau ℝ s) (hC : CannonLands (fun rhs : Rhs ℝ 2 => ⟨erk T, rhs, .inf⟩) erkStarts)
    (argsort : List ℝ → List Nat) (hA : ∀ l, IsArgsort l (argsort l)) (h : ℝ) (hh : 0 < h) (hh' : h < 40) (g) (K) :
    ∃ s0 out s' τ tl, erkInit g K (pureRhs (upwardCannon (1 / 2))) 0 ![0, 10] (some h) = .ok s0 ∧
      (Solver.runEvents ⟨erk T, pureRhs (upwardCannon (1 / 2)), .inf⟩ .std argsort [100] (some [hitGround, apex])).run s0 =
        some (.ok out, s') ∧ out.tEvents = [[τ], tl] ∧ tl ≠ [] := by
  have hi : erkInit g K (pureRhs (upwardCannon (1 / 2))) 0 ![0, 10] (some h) =
    .ok ⟨Buffer.init g 0 ![0, 10] (upwardCannon (1 / 2) 0 ![0, 10]), h, K⟩ := rfl
  obtain ⟨out, s', τ, tl, g1, g2, g3, g4, g5, g6⟩ := hC 10 (1 / 2) 100 .std argsort _ (by norm_num) (by norm_num) (by norm_num) std_tol_pos
    (by decide) hA ⟨g, K, some h, hi⟩ hh (by norm_num; exact hh')
  exact ⟨_, out, s', τ, tl, hi, g1, g3, g5⟩

example := documented_fixed Runge2 C93_Runge2_cannon
example := documented_fixed Runge3 C93_Runge3_cannon
example := documented_fixed Heun3 C93_Heun3_cannon
example := documented_fixed RungeKutta4 C93_RungeKutta4_cannon
example := documented_fixed RungeKutta3_8 C93_RungeKutta3_8_cannon

theorem _root_.Nbkode.Spec.PolynomialSolution.mono {f : ℝ → Vec ℝ n → Vec ℝ n} {y : ℝ → Vec ℝ n} {p q : ℕ} (h : PolynomialSolution f y p) (hpq : p ≤ q) :
    PolynomialSolution f y q := by
  obtain ⟨h1, ⟨Y, hY⟩, h3⟩ := h
  exact ⟨h1, ⟨Y, fun i => ⟨(hY i).1.trans hpq, (hY i).2⟩⟩, h3⟩

/-- `y' = 4 t³` for one variable. -/
theorem quartic_polynomial : PolynomialSolution (n := 1) (fun t _ _ => 4 * t ^ 3) (fun t _ => t ^ 4) 4 where
  solves t := hasDerivAt_pi.mpr fun _ => by simpa using hasDerivAt_pow 4 t
  polynomial := ⟨fun _ => .X ^ 4, fun _ => ⟨by simp, fun t => by simp⟩⟩
  problem := Or.inr ⟨fun t _ => 4 * t ^ 3, rfl⟩

/-- `y' = 1`. -/
theorem line_polynomial : PolynomialSolution (n := 1) (fun _ _ _ => 1) (fun t _ => t) 1 where
  solves t := hasDerivAt_pi.mpr fun _ => hasDerivAt_id t
  polynomial := ⟨fun _ => .X, fun _ => ⟨by simp, fun t => by simp⟩⟩
  problem := Or.inr ⟨fun _ _ => 1, rfl⟩

/-- On the cannon, `run` on a fixed-step class returns, and returns the true height and speed. -/
theorem flight_run {T : Tableau ℝ s} {p q : ℕ} (hp : 2 ≤ q) (hC : ExactUpTo (fun rhs : Rhs ℝ 2 => ⟨erk T, rhs, .inf⟩) erkStarts p q)
    (argsort : List ℝ → List Nat) (hA : ∀ l, IsArgsort l (argsort l)) (h : ℝ) (hh : 0 < h) (g) (K) :
    ∃ s0 s', erkInit g K (pureRhs (upwardCannon (1 / 2))) 0 ![0, 10] (some h) = .ok s0 ∧
      (Solver.run ⟨erk T, pureRhs (upwardCannon (1 / 2)), .inf⟩ .std argsort [4, 10, 20]).run s0 =
        some (.ok [(4, ![36, 8]), (10, ![75, 5]), (20, ![100, 0])], s') := by
  have hi : erkInit g K (pureRhs (upwardCannon (1 / 2))) 0 ![0, 10] (some h) =
    .ok ⟨Buffer.init g 0 ![0, 10] (upwardCannon (1 / 2) 0 ![0, 10]), h, K⟩ := rfl
  have hst : erkStarts (pureRhs (upwardCannon (1 / 2))) 0 (flight 10 (1 / 2) 0)
      (⟨Buffer.init g 0 ![0, 10] (upwardCannon (1 / 2) 0 ![0, 10]), h, K⟩ : St ℝ 2 0 (ErkAux ℝ 2 s)) := by
    rw [flight_start]; exact ⟨g, K, some h, hi⟩
  have htimes := (erk_startsAt (n := 2) T .inf).times _ _ _ _ hst
  obtain ⟨out, s1, g1, g2⟩ := C69_answers_fixed ⟨erk T, pureRhs (upwardCannon (1 / 2)), .inf⟩ (.erk _)
    (.erk _) rfl (by rintro e ⟨t, y, h⟩; cases h) .std argsort hA [4, 10, 20] (by simp) _ (ordered_of_times htimes) hh
    (fun x hx => ⟨by rw [htimes]; simp only [List.mem_cons, List.not_mem_nil, or_false] at hx; rcases hx with rfl | rfl | rfl <;> norm_num, trivial⟩)
  have g3 := (hC (upwardCannon (1 / 2)) (flight 10 (1 / 2)) 0 _ hst hh).2 ((flight_polynomial 10 (1 / 2)).mono hp) .std argsort hA _ _ _ g1
  refine ⟨_, s1, hi, ?_⟩
  rw [g1]
  obtain ⟨a, b, c, rfl⟩ := List.length_eq_three.mp (by rw [← List.length_map (f := Prod.fst), g2]; rfl : out.length = 3)
  · simp only [List.map_cons, List.map_nil, List.cons.injEq, and_true] at g2
    have ha := g3 a (by simp); have hb := g3 b (by simp); have hc := g3 c (by simp)
    rw [g2.1] at ha; rw [g2.2.1] at hb; rw [g2.2.2] at hc
    have ea : a = (4, ![36, 8]) := Prod.ext g2.1 (by rw [ha]; simp only [flight]; norm_num)
    have eb : b = (10, ![75, 5]) := Prod.ext g2.2.1 (by rw [hb]; simp only [flight]; norm_num)
    have ec : c = (20, ![100, 0]) := Prod.ext g2.2.2 (by rw [hc]; simp only [flight]; norm_num)
    rw [ea, eb, ec]

example := flight_run (le_refl 2) (C93_Runge2 .inf)
example := flight_run (by norm_num) (C93_Runge3 .inf)
example := flight_run (by norm_num) (C93_Heun3 .inf)
example := flight_run (by norm_num) (C93_RungeKutta4 .inf)
example := flight_run (by norm_num) (C93_RungeKutta3_8 .inf)

/-- The quartic is within reach of `RungeKutta4`, the line of `ForwardEuler`. -/
example (s0 : St ℝ 1 0 (ErkAux ℝ 1 3)) (hs0 : erkStarts (pureRhs (n := 1) fun t _ _ => 4 * t ^ 3) 0 (fun _ => 0 ^ 4) s0) (hh : 0 < s0.h) :=
  (C93_RungeKutta4 .inf _ _ _ s0 hs0 hh).1 quartic_polynomial
example (s0 : St ℝ 1 0 Unit) (hs0 : eulerStarts (pureRhs (n := 1) fun _ _ _ => 1) 0 (fun _ => 0) s0) (hh : 0 < s0.h) :=
  (C93_ForwardEuler .inf _ _ _ s0 hs0 hh).2 line_polynomial

theorem quartic_path (c : FsalCoef ℝ s d) (hT : Explicit c.toTableau) (hex : 0 ≤ c.errorExponent) (s0 : St ℝ 1 0 (FsalAux ℝ 1 s (RkItp ℝ 1 d)))
    (hh : 0 < s0.h) (hf : s0.f = fun _ => 4 * s0.t ^ 3) (m : ℕ) :
    ∃ l u, Path ⟨fsal realLib .default c, pureRhs (n := 1) fun t _ _ => 4 * t ^ 3, .inf⟩ .inf s0 l u ∧ l.length = m ∧ 0 < u.h ∧
      u.f = fun _ => 4 * u.t ^ 3 := by
  have hS : RKSteps c.toTableau (fun rhs : Rhs ℝ 1 => ⟨fsal realLib .default c, rhs, .inf⟩) :=
    fsalBody_steps hT realLib .default realLib_powLaw (sane_of_shrinking default_shrinking) _ hex _ .inf _
  induction m with
  | zero => exact ⟨[], s0, .nil _, rfl, hh, hf⟩
  | succ m ih =>
    obtain ⟨l, u, k1, k2, k3, k4⟩ := ih
    obtain ⟨v, k5, -⟩ := fsal_takes default_shrinking c hT hex .inf (fun t (_ : Vec ℝ 1) (_ : Fin 1) => 4 * t ^ 3)
      (continuous_pi fun _ => continuous_const.mul (continuous_fst.pow 3)) u k4 k3
    refine ⟨l ++ [v], v, path_append k1 (.cons trivial k5 (.nil _)), by simp [k2], ?_, ?_⟩
    · exact (C11_step_increases _ (Or.inr ⟨_, _, _, .fsal _, realLib_powLaw, sane_of_shrinking default_shrinking, hex⟩) _ _ k3 k5).2
    · obtain ⟨x, K, -, -, -, e⟩ := hS _ _ _ k4 k5
      exact e

/-- With the default options and a first step 1, after `m` steps of a pair on `y' = 4 t³` the time is `(10^m - 1) / 9` and the value is exact. -/
theorem quartic_grows (c : FsalCoef ℝ s d) (hT : Explicit c.toTableau) (hex : 0 ≤ c.errorExponent)
    (hG : GrowsOn (fun rhs : Rhs ℝ 1 => ⟨fsal realLib .default c, rhs, .inf⟩) (fsalStarts c .default) .default 4)
    (hC : ExactUpTo (fun rhs : Rhs ℝ 1 => ⟨fsal realLib .default c, rhs, .inf⟩) (fsalStarts c .default) 5 4) (sel) (g) (K) (itp) (m : ℕ) :
    ∃ s0 l u, fsalInit c.P .default sel g K itp (pureRhs (n := 1) fun t _ _ => 4 * t ^ 3) 0 (fun _ => 0) none (some 1) = .ok s0 ∧
      Path ⟨fsal realLib .default c, pureRhs (n := 1) fun t _ _ => 4 * t ^ 3, .inf⟩ .inf s0 l u ∧ l.length = m ∧
      u.t = ((10 : ℝ) ^ m - 1) / 9 ∧ u.y = fun _ => (((10 : ℝ) ^ m - 1) / 9) ^ 4 := by
  obtain ⟨s0, h1, h2, h3⟩ := default_starts c (fun t (_ : Vec ℝ 1) (_ : Fin 1) => 4 * t ^ 3) 0 (fun _ => 0) 1 sel g K itp
  have h0 := fsal_startsAt (n := 1) c realLib .default .inf
  have hf : s0.f = (fun _ => 4 * s0.t ^ 3) := by
    have := Except.ok.inj (h0.f _ _ _ _ h3)
    rw [← this, show s0.t = 0 from h0.times _ _ _ _ h3 _]
  obtain ⟨l, u, k1, k2, -, -⟩ := quartic_path c hT hex s0 (by rw [h2]; norm_num) hf m
  have h3' : fsalStarts c .default (pureRhs (n := 1) fun t _ _ => 4 * t ^ 3) 0 (fun _ => (0 : ℝ) ^ 4) s0 := by
    simpa using h3
  have e1 := (hG (fun t _ _ => 4 * t ^ 3) (fun t _ => t ^ 4) 0 s0 h3' quartic_polynomial l u k1).2
  have e2 : u.t = ((10 : ℝ) ^ m - 1) / 9 := by
    rw [e1, k2, h2, zero_add]
    have : (VarOptions.default : VarOptions ℝ).maxFactor = 10 := by simp [VarOptions.default]
    simp only [this, one_mul]
    rw [geom_sum_eq (by norm_num)]
    norm_num
  have e3 := (hC (fun t _ _ => 4 * t ^ 3) (fun t _ => t ^ 4) 0 s0 h3' (by rw [h2]; norm_num)).1 (quartic_polynomial.mono (by norm_num)) l u k1
  rw [e2] at e3
  exact ⟨s0, l, u, h1, k1, k2, e2, e3⟩

/-- `C93_RungeKutta45` and `C93_RungeKutta45_grows`. -/
example := quartic_grows (RungeKutta45 : FsalCoef ℝ 5 4) RungeKutta45_conditions.explicit (by simp [RungeKutta45, q])
  (C93_RungeKutta45_grows realLib_real .default (sane_of_shrinking default_shrinking) .inf)
  (C93_RungeKutta45 realLib .default realLib_powLaw (sane_of_shrinking default_shrinking) .inf)

/-- `C93_RungeKutta23` and `C93_RungeKutta23_grows` on the cannon. -/
example (s0 : St ℝ 2 0 (FsalAux ℝ 2 2 (RkItp ℝ 2 3)))
    (hs0 : fsalStarts RungeKutta23 .default (pureRhs (upwardCannon (1 / 2))) 0 (flight 10 (1 / 2) 0) s0) (hh : 0 < s0.h) :=
  And.intro ((C93_RungeKutta23 realLib .default realLib_powLaw (sane_of_shrinking default_shrinking) .inf _ _ _ s0 hs0 hh).2
    (flight_polynomial 10 (1 / 2)))
    (C93_RungeKutta23_grows realLib_real .default (sane_of_shrinking default_shrinking) .inf _ _ _ s0 hs0 (flight_polynomial 10 (1 / 2)))

end concrete

end Nbkode
