import Verif.Proofs.EventError
import Verif.Props.RunError
import Verif.Props.RunLeaves

/-!
# Event times and the true solution: C78
-/

set_option autoImplicit false
set_option linter.unusedSectionVars false

namespace Nbkode
open Py Spec Solver Topology

variable {n s d : ℕ} {X : Type}

/-! ### The classes -/

/-- The largest step of a fixed-step class is `h`. -/
theorem C78_fixed_step (S : Solver ℝ n 0 X) (hM : IsFixed S.method) (s0 : St ℝ n 0 X) (T : ℝ) : LargestStep S s0 T s0.h := by
  intro l u v hp _ ht
  have e : u.h = s0.h := path_h hM hp
  have := (IsFixed.shaped hM).body_fixed _ _ _ ht
  rw [this, e]
  linarith

theorem erk_tracks {T : Tableau ℝ s} (hT : Explicit T) (hR : RowSums T) {q : ℕ} (hq : q ≤ 3)
    (hB : OrderConditions T.A T.B (q + 1)) (hP : DenseConditions (withLast T).A (hermiteP T) q) (b : Bound ℝ) :
    TracksAll (fun rhs : Rhs ℝ n => ⟨erk T, rhs, b⟩) erkStarts (q + 1) :=
  tracks_all (fun _ => Or.inl (.erk T)) (erk_startsAt T b) (erk_steps hT b)
    (hermite_dense hT (fun _ => .erk T) (fun _ => rfl) (erk_steps hT b) _) hT hR (withLast_explicit hT)
    (rows_last hR (by omega) hB) hB hq hP

theorem erk_events {T : Tableau ℝ s} {p : ℕ} (hp : 1 ≤ p) {b : Bound ℝ} (h : TracksAll (fun rhs : Rhs ℝ n => ⟨erk T, rhs, b⟩) erkStarts p) :
    RecordsZeros (fun rhs : Rhs ℝ n => ⟨erk T, rhs, b⟩) erkStarts p ∧ FindsCrossings (fun rhs : Rhs ℝ n => ⟨erk T, rhs, b⟩) erkStarts p :=
  ⟨records_zeros (fun _ => Or.inl (.erk T)) (erk_startsAt T b) hp h, finds_crossings (fun _ => Or.inl (.erk T)) (erk_startsAt T b) hp h⟩

/-- **C78** for `Runge2`: what it records are zeros along the solution, up to the tolerance and an error of order 2. -/
theorem C78_Runge2_zeros (b : Bound ℝ) : RecordsZeros (fun rhs : Rhs ℝ n => ⟨erk Runge2, rhs, b⟩) erkStarts 2 :=
  (erk_events (by norm_num) (erk_tracks Runge2_conditions.explicit Runge2_rows (by norm_num) Runge2_tree Runge2_dense b)).1

/-- **C78** for `Runge2`: it finds the crossings along the solution, with an error of order 2. -/
theorem C78_Runge2_crossings (b : Bound ℝ) : FindsCrossings (fun rhs : Rhs ℝ n => ⟨erk Runge2, rhs, b⟩) erkStarts 2 :=
  (erk_events (by norm_num) (erk_tracks Runge2_conditions.explicit Runge2_rows (by norm_num) Runge2_tree Runge2_dense b)).2

/-- **C78** for `Runge3`: what it records are zeros along the solution, up to the tolerance and an error of order 3. -/
theorem C78_Runge3_zeros (b : Bound ℝ) : RecordsZeros (fun rhs : Rhs ℝ n => ⟨erk Runge3, rhs, b⟩) erkStarts 3 :=
  (erk_events (by norm_num) (erk_tracks Runge3_conditions.explicit Runge3_rows (by norm_num) Runge3_tree Runge3_dense b)).1

/-- **C78** for `Runge3`: it finds the crossings along the solution, with an error of order 3. -/
theorem C78_Runge3_crossings (b : Bound ℝ) : FindsCrossings (fun rhs : Rhs ℝ n => ⟨erk Runge3, rhs, b⟩) erkStarts 3 :=
  (erk_events (by norm_num) (erk_tracks Runge3_conditions.explicit Runge3_rows (by norm_num) Runge3_tree Runge3_dense b)).2

/-- **C78** for `Heun3`: what it records are zeros along the solution, up to the tolerance and an error of order 3. -/
theorem C78_Heun3_zeros (b : Bound ℝ) : RecordsZeros (fun rhs : Rhs ℝ n => ⟨erk Heun3, rhs, b⟩) erkStarts 3 :=
  (erk_events (by norm_num) (erk_tracks Heun3_conditions.explicit Heun3_rows (by norm_num) Heun3_tree Heun3_dense b)).1

/-- **C78** for `Heun3`: it finds the crossings along the solution, with an error of order 3. -/
theorem C78_Heun3_crossings (b : Bound ℝ) : FindsCrossings (fun rhs : Rhs ℝ n => ⟨erk Heun3, rhs, b⟩) erkStarts 3 :=
  (erk_events (by norm_num) (erk_tracks Heun3_conditions.explicit Heun3_rows (by norm_num) Heun3_tree Heun3_dense b)).2

/-- **C78** for `RungeKutta4`: what it records are zeros along the solution, up to the tolerance and an error of order 4. -/
theorem C78_RungeKutta4_zeros (b : Bound ℝ) : RecordsZeros (fun rhs : Rhs ℝ n => ⟨erk RungeKutta4, rhs, b⟩) erkStarts 4 :=
  (erk_events (by norm_num) (erk_tracks RungeKutta4_conditions.explicit RungeKutta4_rows (by norm_num) RungeKutta4_tree RungeKutta4_dense b)).1

/-- **C78** for `RungeKutta4`: it finds the crossings along the solution, with an error of order 4. -/
theorem C78_RungeKutta4_crossings (b : Bound ℝ) : FindsCrossings (fun rhs : Rhs ℝ n => ⟨erk RungeKutta4, rhs, b⟩) erkStarts 4 :=
  (erk_events (by norm_num) (erk_tracks RungeKutta4_conditions.explicit RungeKutta4_rows (by norm_num) RungeKutta4_tree RungeKutta4_dense b)).2

/-- **C78** for `RungeKutta3_8`: what it records are zeros along the solution, up to the tolerance and an error of order 4. -/
theorem C78_RungeKutta3_8_zeros (b : Bound ℝ) : RecordsZeros (fun rhs : Rhs ℝ n => ⟨erk RungeKutta3_8, rhs, b⟩) erkStarts 4 :=
  (erk_events (by norm_num) (erk_tracks RungeKutta3_8_conditions.explicit RungeKutta3_8_rows (by norm_num) RungeKutta3_8_tree RungeKutta3_8_dense b)).1

/-- **C78** for `RungeKutta3_8`: it finds the crossings along the solution, with an error of order 4. -/
theorem C78_RungeKutta3_8_crossings (b : Bound ℝ) : FindsCrossings (fun rhs : Rhs ℝ n => ⟨erk RungeKutta3_8, rhs, b⟩) erkStarts 4 :=
  (erk_events (by norm_num) (erk_tracks RungeKutta3_8_conditions.explicit RungeKutta3_8_rows (by norm_num) RungeKutta3_8_tree RungeKutta3_8_dense b)).2

theorem euler_tracks (b : Bound ℝ) :
    TracksAll (fun rhs : Rhs ℝ n => (⟨explicitMultistep ForwardEuler, rhs, b⟩ : Solver ℝ n 0 Unit)) eulerStarts 1 :=
  tracks_all (fun _ => Or.inl (.explicitMultistep _)) (euler_startsAt b) (euler_steps b)
    (hermite_dense eulerTableau_explicit (fun _ => .explicitMultistep _) (fun _ => rfl) (euler_steps b) _) eulerTableau_explicit
    eulerTableau_rows (withLast_explicit eulerTableau_explicit) (rows_last eulerTableau_rows le_rfl eulerTableau_tree)
    eulerTableau_tree (Nat.zero_le _) fun τ hτ => by have := τ.order_pos; omega

/-- **C78** for `ForwardEuler` (and `AdamsBashforth1`). -/
theorem C78_ForwardEuler_zeros (b : Bound ℝ) :
    RecordsZeros (fun rhs : Rhs ℝ n => (⟨explicitMultistep ForwardEuler, rhs, b⟩ : Solver ℝ n 0 Unit)) eulerStarts 1 :=
  records_zeros (fun _ => Or.inl (.explicitMultistep _)) (euler_startsAt b) le_rfl (euler_tracks b)

/-- **C78** for `ForwardEuler` (and `AdamsBashforth1`). -/
theorem C78_ForwardEuler_crossings (b : Bound ℝ) :
    FindsCrossings (fun rhs : Rhs ℝ n => (⟨explicitMultistep ForwardEuler, rhs, b⟩ : Solver ℝ n 0 Unit)) eulerStarts 1 :=
  finds_crossings (fun _ => Or.inl (.explicitMultistep _)) (euler_startsAt b) le_rfl (euler_tracks b)

theorem RungeKutta23_tracks (lib : Lib ℝ) (o : VarOptions ℝ) (hl : PowLaw lib) (ho : SaneOptions o) (b : Bound ℝ) :
    TracksAll (fun rhs : Rhs ℝ n => ⟨fsal lib o RungeKutta23, rhs, b⟩) (fsalStarts RungeKutta23 o) 3 :=
  have hex : 0 ≤ (RungeKutta23 : FsalCoef ℝ 2 3).errorExponent := by simp [RungeKutta23, q]
  tracks_all (fun _ => Or.inr ⟨lib, o, _, .fsal _, hl, ho, hex⟩) (fsal_startsAt _ lib o b)
    (fsalBody_steps RungeKutta23_conditions.explicit lib o hl ho _ hex _ b _)
    (fsal_dense _ RungeKutta23_conditions.explicit RungeKutta23_ends lib o hl ho hex b)
    RungeKutta23_conditions.explicit RungeKutta23_rows (withLast_explicit RungeKutta23_conditions.explicit)
    (rows_last RungeKutta23_rows (by norm_num) RungeKutta23_tree) RungeKutta23_tree (by norm_num) RungeKutta23_dense

/-- **C78** for `RungeKutta23`, with the largest step. -/
theorem C78_RungeKutta23_zeros (lib : Lib ℝ) (o : VarOptions ℝ) (hl : PowLaw lib) (ho : SaneOptions o) (b : Bound ℝ) :
    RecordsZeros (fun rhs : Rhs ℝ n => ⟨fsal lib o RungeKutta23, rhs, b⟩) (fsalStarts RungeKutta23 o) 3 :=
  have hex : 0 ≤ (RungeKutta23 : FsalCoef ℝ 2 3).errorExponent := by simp [RungeKutta23, q]
  records_zeros (fun _ => Or.inr ⟨lib, o, _, .fsal _, hl, ho, hex⟩) (fsal_startsAt _ lib o b) (by norm_num) (RungeKutta23_tracks lib o hl ho b)

/-- **C78** for `RungeKutta23`, with the largest step. -/
theorem C78_RungeKutta23_crossings (lib : Lib ℝ) (o : VarOptions ℝ) (hl : PowLaw lib) (ho : SaneOptions o) (b : Bound ℝ) :
    FindsCrossings (fun rhs : Rhs ℝ n => ⟨fsal lib o RungeKutta23, rhs, b⟩) (fsalStarts RungeKutta23 o) 3 :=
  have hex : 0 ≤ (RungeKutta23 : FsalCoef ℝ 2 3).errorExponent := by simp [RungeKutta23, q]
  finds_crossings (fun _ => Or.inr ⟨lib, o, _, .fsal _, hl, ho, hex⟩) (fsal_startsAt _ lib o b) (by norm_num) (RungeKutta23_tracks lib o hl ho b)

theorem RungeKutta45_tracks (lib : Lib ℝ) (o : VarOptions ℝ) (hl : PowLaw lib) (ho : SaneOptions o) (b : Bound ℝ) :
    TracksAll (fun rhs : Rhs ℝ n => ⟨fsal lib o RungeKutta45, rhs, b⟩) (fsalStarts RungeKutta45 o) 5 :=
  have hex : 0 ≤ (RungeKutta45 : FsalCoef ℝ 5 4).errorExponent := by simp [RungeKutta45, q]
  tracks_all (fun _ => Or.inr ⟨lib, o, _, .fsal _, hl, ho, hex⟩) (fsal_startsAt _ lib o b)
    (fsalBody_steps RungeKutta45_conditions.explicit lib o hl ho _ hex _ b _)
    (fsal_dense _ RungeKutta45_conditions.explicit RungeKutta45_ends lib o hl ho hex b)
    RungeKutta45_conditions.explicit RungeKutta45_rows (withLast_explicit RungeKutta45_conditions.explicit)
    (rows_last RungeKutta45_rows (by norm_num) RungeKutta45_tree) RungeKutta45_tree (by norm_num) RungeKutta45_dense

/-- **C78** for `RungeKutta45`, with the largest step. -/
theorem C78_RungeKutta45_zeros (lib : Lib ℝ) (o : VarOptions ℝ) (hl : PowLaw lib) (ho : SaneOptions o) (b : Bound ℝ) :
    RecordsZeros (fun rhs : Rhs ℝ n => ⟨fsal lib o RungeKutta45, rhs, b⟩) (fsalStarts RungeKutta45 o) 5 :=
  have hex : 0 ≤ (RungeKutta45 : FsalCoef ℝ 5 4).errorExponent := by simp [RungeKutta45, q]
  records_zeros (fun _ => Or.inr ⟨lib, o, _, .fsal _, hl, ho, hex⟩) (fsal_startsAt _ lib o b) (by norm_num) (RungeKutta45_tracks lib o hl ho b)

/-- **C78** for `RungeKutta45`, with the largest step. -/
theorem C78_RungeKutta45_crossings (lib : Lib ℝ) (o : VarOptions ℝ) (hl : PowLaw lib) (ho : SaneOptions o) (b : Bound ℝ) :
    FindsCrossings (fun rhs : Rhs ℝ n => ⟨fsal lib o RungeKutta45, rhs, b⟩) (fsalStarts RungeKutta45 o) 5 :=
  have hex : 0 ≤ (RungeKutta45 : FsalCoef ℝ 5 4).errorExponent := by simp [RungeKutta45, q]
  finds_crossings (fun _ => Or.inr ⟨lib, o, _, .fsal _, hl, ho, hex⟩) (fsal_startsAt _ lib o b) (by norm_num) (RungeKutta45_tracks lib o hl ho b)

/-! ### A case -/

theorem height_smooth : ContDiff ℝ 1 (jointEvent (n := 1) fun _ v => v 0 - 3 / 2) := by
  unfold jointEvent
  fun_prop

theorem height_slope (t : ℝ) (ht : t ∈ Set.Icc (1 / 4 : ℝ) (2 / 5)) :
    0 < (1 : ℝ) * deriv (fun t : ℝ => (1 / (1 - t) - 3 / 2 : ℝ)) t := by
  have h1 : (1 - t) ≠ 0 := by linarith [ht.2]
  have : HasDerivAt (fun t : ℝ => (1 / (1 - t) - 3 / 2 : ℝ)) (1 / (1 - t) ^ 2) t := by
    have h2 : HasDerivAt (fun t : ℝ => 1 - t) (-1) t := by simpa using (hasDerivAt_id t).const_sub 1
    have h3 := (h2.inv h1).sub_const (3 / 2)
    simpa [neg_div, div_eq_mul_inv] using h3
  rw [this.deriv, one_mul]
  positivity

open Demo in
/-- Non-vacuity for C78: `RungeKutta4` on `y' = y²`, `y(0) = 1`, with the default search and the event `y = 3/2`, which happens at `1/3`.
Any run with the event up to `1/2`, with any small `h`, comes back, has a record in `[1/4, 2/5]`, and each record there is close to `1/3`. -/
example : ∃ C δ, 0 < δ ∧ ∀ (h : ℝ) (argsort : List ℝ → List Nat) g K, 0 < h → h ≤ δ →
    (∀ l, IsArgsort l (argsort l)) →
    ∃ s0 o s' tl, erkInit (s := 3) g K (pureRhs (n := 1) fun _ v i => v i ^ 2) 0 (fun _ => 1) (some h) = .ok s0 ∧
      (Solver.runEvents ⟨erk RungeKutta4, pureRhs fun _ v i => v i ^ 2, .inf⟩ .std argsort [1 / 2]
        (some [⟨fun _ v => v 0 - 3 / 2, none, some 1⟩])).run s0 = some (.ok o, s') ∧
      o.tEvents[0]? = some tl ∧ (∃ τ ∈ tl, 1 / 4 ≤ τ ∧ τ ≤ 2 / 5) ∧
      (∀ τ ∈ tl, 1 / 4 ≤ τ → τ ≤ 2 / 5 → |τ - 1 / 3| ≤ C * (148 / 10 ^ 10 + h ^ 4 + h / 2 ^ 50)) ∧
      ∀ τ ∈ tl, τ < 9 / 20 → |1 / (1 - τ) - 3 / 2| ≤ 148 / 10 ^ 10 + C * (h ^ 4 + h / 2 ^ 50) := by
  obtain ⟨C1, δ1, hδ1, h1⟩ := C78_RungeKutta4_crossings (n := 1) .inf (fun _ v i => v i ^ 2) (fun t _ => 1 / (1 - t)) (-1) 1 0 (9 / 20)
    (fun _ v => v 0 - 3 / 2) (1 / 4) (1 / 3) (2 / 5) 1
    (square_smooth 4) (by norm_num) (by norm_num) square_solves height_smooth (by norm_num) (by norm_num) (by norm_num) (by norm_num)
    (by norm_num) (Or.inl rfl) height_slope
  obtain ⟨C2, δ2, hδ2, h2⟩ := C78_RungeKutta4_zeros (n := 1) .inf (fun _ v i => v i ^ 2) (fun t _ => 1 / (1 - t)) (-1) 1 0 (9 / 20)
    (fun _ v => v 0 - 3 / 2) (square_smooth 4) (by norm_num) (by norm_num) square_solves height_smooth
  refine ⟨max C1 C2, min δ1 δ2, by positivity, fun h argsort g K hh hδ hA => ?_⟩
  have hi : erkInit (s := 3) g K (pureRhs (n := 1) fun _ v i => v i ^ 2) 0 (fun _ => 1) (some h) =
    .ok ⟨Buffer.init g 0 (fun _ => 1) (fun _ => 1 ^ 2), h, K⟩ := rfl
  have hst : erkStarts (pureRhs (n := 1) fun _ v i => v i ^ 2) 0 (fun _ => 1 / (1 - 0))
      (⟨Buffer.init g 0 (fun _ => 1) (fun _ => 1 ^ 2), h, K⟩ : St ℝ 1 0 (ErkAux ℝ 1 3)) := by
    refine ⟨g, K, some h, ?_⟩
    rw [← hi]; norm_num
  set s0 : St ℝ 1 0 (ErkAux ℝ 1 3) := ⟨Buffer.init g 0 (fun _ => 1) (fun _ => 1 ^ 2), h, K⟩ with hs0
  have hsa := erk_startsAt (n := 1) (RungeKutta4 : Tableau ℝ 3) .inf
  have htimes := hsa.times _ _ _ _ hst
  have hcon := hsa.constructed _ _ _ _ hst
  set S : Solver ℝ 1 0 (ErkAux ℝ 1 3) := ⟨erk RungeKutta4, pureRhs (n := 1) fun _ v i => v i ^ 2, .inf⟩ with hS
  have hM : WellConfigured S.method := Or.inl (.erk _)
  have htol : (0 : ℝ) ≤ (BisectOpts.std : BisectOpts ℝ).tol := by
    show (0 : ℝ) ≤ ((148 : Nat) : ℝ) / ((10 ^ 10 : Nat) : ℝ)
    positivity
  have etol : (BisectOpts.std : BisectOpts ℝ).tol = 148 / 10 ^ 10 := by
    show ((148 : Nat) : ℝ) / ((10 ^ 10 : Nat) : ℝ) = _
    norm_num
  have emax : (BisectOpts.std : BisectOpts ℝ).maxiter = 50 := rfl
  have hnt : ∀ e ∈ [(⟨fun _ v => v 0 - 3 / 2, none, some 1⟩ : EventSpec ℝ 1)], e.terminal ≠ some true := by simp
  obtain ⟨out, s1, g1, g2⟩ := C69_answers_fixed S (.erk _)
    (.erk _) rfl (by rintro e ⟨t, y, h⟩; cases h) .std argsort hA [1 / 2] (by simp) s0 (ordered_of_times htimes) hh
    (fun x hx => ⟨by rw [htimes]; simp only [List.mem_singleton] at hx; rw [hx]; norm_num, trivial⟩)
  have ht0 : s0.t = 0 := htimes _
  obtain ⟨o, s', g3, g4, g5⟩ := C46_returns_partial S hM .std htol (by decide) argsort hA (fun _ _ => ⟨_, rfl⟩) s0 s0 hcon
    (ordered_of_times htimes) hh (.start _) [1 / 2] (by simp [ht0]) [⟨fun _ v => v 0 - 3 / 2, none, some 1⟩] hnt out s1 g1
  have hlen : out.length = 1 := by rw [← List.length_map (f := Prod.fst), g2]; rfl
  have hend : 1 / 2 ≤ s1.t := (C79_time S hM .std argsort hA s0 s0 hcon (ordered_of_times htimes) hh (.start _) [1 / 2] (1 / 2)
    (by simp) (by simp) out s1 g1).mpr hlen
  have e : s'.t = s1.t := by unfold St.t; rw [g5.1]
  obtain ⟨_, -, -, -, -, hlen', -⟩ := C41_records S hM .std htol argsort hA s0 s0 hcon (ordered_of_times htimes) hh (.start _) [1 / 2]
    [⟨fun _ v => v 0 - 3 / 2, none, some 1⟩] (by simp) o s' g3
  have hpos : 0 < o.tEvents.length := by rw [hlen']; simp
  have hlarge : LargestStep S s0 (9 / 20) h := C78_fixed_step S (.erk _) s0 _
  have hx1 := h1 .std argsort htol hA h s0 s' [1 / 2] _ o hst hh hh.le (hδ.trans (min_le_left _ _)) hlarge g3 0 _ _ rfl rfl
    (List.getElem?_eq_getElem hpos)
  have hx2 := h2 .std argsort htol hA h s0 s' [1 / 2] _ o hst hh hh.le (hδ.trans (min_le_right _ _)) hlarge g3 0 _ _ rfl rfl
    (List.getElem?_eq_getElem hpos)
  rw [etol, emax] at hx1 hx2
  refine ⟨s0, o, s', _, hi, g3, List.getElem?_eq_getElem hpos, hx1.1 (by rw [e]; linarith) (by simp), fun τ hτ k1 k2 => ?_, fun τ hτ k1 => ?_⟩
  · exact (hx1.2 τ hτ k1 k2).trans (mul_le_mul_of_nonneg_right (le_max_left _ _) (by positivity))
  · exact (hx2 τ hτ k1).trans (by
      have : C2 * (h ^ 4 + h / 2 ^ 50) ≤ max C1 C2 * (h ^ 4 + h / 2 ^ 50) := mul_le_mul_of_nonneg_right (le_max_right _ _) (by positivity)
      linarith)

end Nbkode
