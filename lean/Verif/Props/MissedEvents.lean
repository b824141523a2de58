import Verif.Props.EventTolerance
import Verif.Props.Polynomials

/-!
# Crossings that are missed: C92 without its condition
-/

set_option autoImplicit false
set_option linter.unusedSectionVars false

namespace Nbkode
open Py Spec Solver Topology

variable {n s d : ℕ} {X : Type}

namespace Demo

theorem line_smooth (p : ℕ) : ContDiff ℝ p (joint (n := 1) fun _ _ _ => 1) := by
  unfold joint
  fun_prop

theorem valley_smooth : ContDiff ℝ 1 (jointEvent (n := 1) fun _ v => (v 0 - 1) * (v 0 - 2)) := by
  unfold jointEvent
  fun_prop

theorem valley_slope (t : ℝ) : deriv (fun t : ℝ => (t - 1) * (t - 2)) t = 2 * t - 3 := by
  have h1 : HasDerivAt (fun t : ℝ => t - 1) 1 t := (hasDerivAt_id t).sub_const 1
  have h2 : HasDerivAt (fun t : ℝ => t - 2) 1 t := (hasDerivAt_id t).sub_const 2
  have h3 : HasDerivAt (fun t : ℝ => (t - 1) * (t - 2)) (1 * (t - 2) + (t - 1) * 1) t := h1.mul h2
  rw [h3.deriv]
  ring

/-- The times visited on `y' = 1` from a first step which leads to the time `1 / 2` after `m` steps jump over `[1, 2]`. -/
theorem jump_over {m : ℕ} (hm : m ≠ 0) (j : ℕ) :
    ∑ i ∈ Finset.range j, (9 / (2 * (10 ^ m - 1)) : ℝ) * 10 ^ i ≤ 1 / 2 ∨ 5 ≤ ∑ i ∈ Finset.range j, (9 / (2 * (10 ^ m - 1)) : ℝ) * 10 ^ i := by
  have hp : (1 : ℝ) < 10 ^ m := one_lt_pow₀ (by norm_num) hm
  have e : ∑ i ∈ Finset.range j, (9 / (2 * (10 ^ m - 1)) : ℝ) * 10 ^ i = (10 ^ j - 1) / (2 * (10 ^ m - 1)) := by
    rw [← Finset.mul_sum, geom_sum_eq (by norm_num)]
    have : (10 : ℝ) ^ m - 1 ≠ 0 := by linarith
    field_simp
    norm_num
    ring
  rw [e]
  rcases Nat.lt_or_ge m j with h | h
  · right
    rw [le_div_iff₀ (by linarith)]
    have : (10 : ℝ) ^ (m + 1) ≤ 10 ^ j := pow_le_pow_right₀ (by norm_num) h
    rw [pow_succ] at this
    linarith
  · left
    rw [div_le_iff₀ (by linarith)]
    have : (10 : ℝ) ^ j ≤ 10 ^ m := pow_le_pow_right₀ (by norm_num) h
    linarith

theorem missed (c : FsalCoef ℝ s (d + 1)) (hT : Explicit c.toTableau) (hex : 0 < c.errorExponent) (p : ℕ)
    (hG : ∀ o, SaneOptions o → GrowsOn (fun rhs : Rhs ℝ 1 => ⟨fsal realLib o c, rhs, .inf⟩) (fsalStarts c o) o 1)
    (hC : ∀ o, SaneOptions o → ExactUpTo (fun rhs : Rhs ℝ 1 => ⟨fsal realLib o c, rhs, .inf⟩) (fsalStarts c o) 1 1) :
    ¬ CrossingsFollowTolerance (fun o (rhs : Rhs ℝ 1) => ⟨fsal realLib o c, rhs, .inf⟩) (fsalStarts c) (fun _ _ _ _ => True) p := by
  intro hc
  obtain ⟨argsort, hA⟩ := exists_argsort (α := ℝ)
  obtain ⟨C, δ, ε, hδ, hε, h1⟩ := hc (fun _ _ _ => 1) (fun t _ => t) (-1) 6 0 4 5 10 (fun _ v => (v 0 - 1) * (v 0 - 2)) (3 / 4) 1 (5 / 4) (-1)
    (line_smooth p) (by norm_num) (by norm_num) (by norm_num) (fun t _ => line_polynomial.solves t) trivial valley_smooth (by norm_num)
    (by norm_num) (by norm_num) (by norm_num) (by norm_num) (Or.inr rfl) (fun t ht => by
      simp only [valley_slope]
      linarith [ht.2])
  clear hc
  obtain ⟨m, hm0, hm⟩ : ∃ m : ℕ, m ≠ 0 ∧ 9 / (2 * (10 ^ m - 1)) ≤ δ := by
    obtain ⟨m, hm⟩ := pow_unbounded_of_one_lt (9 / (2 * δ) + 1) (by norm_num : (1 : ℝ) < 10)
    have : 0 < 9 / (2 * δ) := by positivity
    refine ⟨m, fun h => ?_, ?_⟩
    · rw [h, pow_zero] at hm; linarith
    · rw [div_le_iff₀ (by linarith)]
      have h2 : 9 / (2 * δ) < 10 ^ m - 1 := by linarith
      rw [div_lt_iff₀ (by positivity)] at h2
      linarith
  have hp10 : (1 : ℝ) < 10 ^ m := one_lt_pow₀ (by norm_num) hm0
  set h : ℝ := 9 / (2 * (10 ^ m - 1)) with hh0
  have hh : 0 < h := div_pos (by norm_num) (by linarith)
  have ho := tolOptions_shrinking hε
  obtain ⟨s0, out, s1, hi, hsh, hr, hout⟩ := tol_run c hT hex (fun _ _ _ => 1) (fun _ => continuous_const) (fun t y z => by simp)
    (fun _ => 0) hε hh (fun _ _ _ _ => .ok 1) .std argsort hA [4] (by simp) (by simp) 
    ⟨fun _ => 0, fun _ _ => 0, fun _ _ => 0⟩ (fun _ _ => 0) ⟨fun _ _ => 0, 0⟩
  have hst : fsalStarts c (tolOptions ε) (pureRhs (n := 1) fun _ _ _ => 1) 0 (fun _ => 0) s0 := ⟨_, _, _, _, none, some h, hi⟩
  have hsa := fsal_startsAt (n := 1) c realLib (tolOptions ε) .inf
  have htimes := hsa.times _ _ _ _ hst
  have hcon := hsa.constructed _ _ _ _ hst
  have ht0 : s0.t = 0 := htimes _
  have hh' : 0 < s0.h := hsh ▸ hh
  have hgrow := fun l u => hG _ (sane_of_shrinking ho) (fun _ _ _ => 1) (fun t _ => t) 0 s0 hst line_polynomial l u
  have hexact := (hC _ (sane_of_shrinking ho) (fun _ _ _ => 1) (fun t _ => t) 0 s0 hst hh').1 line_polynomial
  set S : Solver ℝ 1 0 (FsalAux ℝ 1 s (RkItp ℝ 1 (d + 1))) := ⟨fsal realLib (tolOptions ε) c, pureRhs fun _ _ _ => 1, .inf⟩ with hS
  have hM : WellConfigured S.method := Or.inr ⟨_, _, _, .fsal _, realLib_powLaw, sane_of_shrinking ho, hex.le⟩
  obtain ⟨o, s', g3, g4, g5⟩ := C46_returns_partial S hM .std std_tol_pos (by decide) argsort hA (fun _ _ => ⟨_, rfl⟩) s0 s0 hcon
    (ordered_of_times htimes) hh' (.start _) [4] (by simp [ht0]) [⟨fun _ v => (v 0 - 1) * (v 0 - 2), none, none⟩] (by simp) out s1 hr
  have hlen : out.length = 1 := by rw [← List.length_map (f := Prod.fst), hout]; rfl
  have hend : 4 ≤ s1.t := (C79_time S hM .std argsort hA s0 s0 hcon (ordered_of_times htimes) hh' (.start _) [4] 4
    (by simp) (by simp) out s1 hr).mpr hlen
  have e : s'.t = s1.t := by unfold St.t; rw [g5.1]
  obtain ⟨out', l, q, hp, -, -, -, -, -, hlen1, hlen2, hL⟩ := runEvents_ends S hM .std std_tol_pos argsort hA s0 s0 hcon (ordered_of_times htimes) hh'
    (.start _) [4] [⟨fun _ v => (v 0 - 1) * (v 0 - 2), none, none⟩] (by simp) o s' g3
  obtain ⟨tl, htl⟩ : ∃ a, o.tEvents = [a] := List.length_eq_one_iff.mp hlen1
  obtain ⟨yl, hyl⟩ : ∃ a, o.yEvents = [a] := List.length_eq_one_iff.mp hlen2
  have L := hL 0 _ tl yl rfl (by rw [htl]; rfl) (by rw [hyl]; rfl)
  have hmf : (tolOptions ε).maxFactor = 10 := by simp [tolOptions, VarOptions.default]
  have hpos : ∀ l u, Path S .inf s0 l u → 0 < (u.y 0 - 1) * (u.y 0 - 2) := by
    intro l u hp
    rw [hexact l u hp]
    have := (hgrow l u hp).2
    rw [hmf, hsh, zero_add] at this
    have h2 := jump_over hm0 l.length
    rw [← hh0, ← this] at h2
    show 0 < (u.t - 1) * (u.t - 2)
    rcases h2 with h2 | h2 <;> nlinarith
  have hnone : tl = [] := by
    by_contra hne
    obtain ⟨τ, tl', rfl⟩ := List.exists_cons_of_ne_nil hne
    obtain ⟨y, yl', rfl⟩ := List.exists_cons_of_ne_nil (fun h => by rw [h] at L; exact absurd L.length_eq (by simp) : yl ≠ [])
    obtain ⟨a, b, hab, hd⟩ := L.sound (τ, y) (by simp)
    obtain ⟨l', hp', hf', htk'⟩ := path_consecutive hp hab
    have ha := hpos _ _ hp'
    have hb := hpos _ _ (path_append hp' (.cons hf' htk' (.nil _)))
    rcases hd.crosses with hcr | hcr
    · exact absurd hcr.1 (not_le.mpr ha)
    · exact absurd hcr.2 (not_le.mpr hb)
  have hx := h1 (tolOptions ε) ho hmf.le le_rfl le_rfl .std argsort std_tol_pos hA s0 s' [4] _ o hst hh' (hsh ▸ hm) g3 0 _ _ rfl rfl
    (by rw [htl]; rfl : o.tEvents[0]? = some tl)
  obtain ⟨τ, hτ, -⟩ := hx.1 (by rw [e]; linarith) (by simp)
  rw [hnone] at hτ
  cases hτ

end Demo

/-- **C92** needs its condition: without a sharp estimate the tolerances say nothing about which crossings are found. On `y' = 1` the error
estimates of both pairs are zero and the steps grow by the factor 10 whatever the tolerances; small first steps are not enough, since for
some of them the event `(y - 1) (y - 2)`, negative between the times 1 and 2, is never seen negative. -/
theorem C92_condition_needed :
    ¬ CrossingsFollowTolerance (fun o (rhs : Rhs ℝ 1) => ⟨fsal Demo.realLib o RungeKutta23, rhs, .inf⟩) (fsalStarts RungeKutta23)
      (fun _ _ _ _ => True) 3 ∧
    ¬ CrossingsFollowTolerance (fun o (rhs : Rhs ℝ 1) => ⟨fsal Demo.realLib o RungeKutta45, rhs, .inf⟩) (fsalStarts RungeKutta45)
      (fun _ _ _ _ => True) 5 := by
  refine ⟨Demo.missed RungeKutta23 RungeKutta23_conditions.explicit (by simp [RungeKutta23, q]) _ (fun o ho => ?_) (fun o ho => ?_),
    Demo.missed RungeKutta45 RungeKutta45_conditions.explicit (by simp [RungeKutta45, q]) _ (fun o ho => ?_) (fun o ho => ?_)⟩
  · exact fun f y t₀ s0 h1 h2 => C93_RungeKutta23_grows Demo.realLib_real o ho .inf f y t₀ s0 h1 (h2.mono (by norm_num))
  · exact fun f y t₀ s0 h1 h2 => ⟨fun h => (C93_RungeKutta23 Demo.realLib o Demo.realLib_powLaw ho .inf f y t₀ s0 h1 h2).1 (h.mono (by norm_num)),
      fun h => (C93_RungeKutta23 Demo.realLib o Demo.realLib_powLaw ho .inf f y t₀ s0 h1 h2).2 (h.mono (by norm_num))⟩
  · exact fun f y t₀ s0 h1 h2 => C93_RungeKutta45_grows Demo.realLib_real o ho .inf f y t₀ s0 h1 (h2.mono (by norm_num))
  · exact fun f y t₀ s0 h1 h2 => ⟨fun h => (C93_RungeKutta45 Demo.realLib o Demo.realLib_powLaw ho .inf f y t₀ s0 h1 h2).1 (h.mono (by norm_num)),
      fun h => (C93_RungeKutta45 Demo.realLib o Demo.realLib_powLaw ho .inf f y t₀ s0 h1 h2).2 (h.mono (by norm_num))⟩

namespace Demo

/-- The cannon over the rationals: `g = 2`, solved with `Runge2`. -/
def rationalCannon : Solver ℚ 2 0 (ErkAux ℚ 2 1) := ⟨erk Runge2, pureRhs fun _ y => ![y 1, -2], .inf⟩

/-- Just constructed at the time 0 on the ground, with speed 1 and the step 2; the flight takes the time 1. -/
def longStep : St ℚ 2 0 (ErkAux ℚ 2 1) := 
  ⟨Buffer.init ⟨fun _ => 0, fun _ _ => 0, fun _ _ => 0⟩ 0 ![0, 1] ![1, -2], 2, fun _ _ => 0⟩

end Demo

open Demo in
/-- **C93** needs the first step to be shorter than the flight: with `Runge2`, the step 2 and a flight of 1, the landing is recorded at the time 0
of the start, where the height is zero as well, and that is all `run_events` returns. -/
theorem C93_first_step_needed (argsort : List ℚ → List Nat) :
    erkInit ⟨fun _ => 0, fun _ _ => 0, fun _ _ => 0⟩ (fun _ _ => 0) (pureRhs fun _ y => ![y 1, -2]) 0 ![0, 1] (some 2) = .ok longStep ∧
    ∃ o s', (rationalCannon.runEvents .std argsort [3] (some [⟨fun _ y => y 0, some true, some (-1)⟩, ⟨fun _ y => y 1, none, none⟩])).run longStep =
      some (.ok o, s') ∧ o.tEvents = [[0], [1/2]] ∧ o.out = [(0, ![0, 1])] := by
  refine ⟨?_, ?_⟩
  · rfl
  have key : okAnd (runEvFuel rationalCannon BisectOpts.std .inf 10 [3]
      (buildHandler [⟨fun _ y => y 0, some true, some (-1)⟩, ⟨fun _ y => y 1, none, none⟩] longStep.t longStep.y) longStep)
      (fun p _ => decide (p.1.events.map (fun e => e.t) = [[0], [1/2]]) && decide (p.2 = [(0, ![0, 1])])) = true := by
    decide +kernel
  obtain ⟨p, s', h1, h2⟩ := of_okAnd key
  simp only [Bool.and_eq_true, decide_eq_true_iff] at h2
  refine ⟨⟨p.2, p.1.events.map fun e => e.t, p.1.events.map fun e => e.y⟩, s', ?_, h2.1, h2.2⟩
  rw [runEvents_of_loop (s := longStep) (by simp) (by simp) (by simp) (fun x hx => ⟨by
    rw [List.mem_singleton.mp hx]; decide +kernel, by trivial⟩) (fun x hx => by
    rw [List.mem_singleton.mp hx]; decide +kernel)]
  show andThen ((rationalCannon.runEvalEvents BisectOpts.std .inf [3] _).run longStep) _ = _
  rw [runEv_of_fuel _ _ _ _ _ _ _ _ h1, andThen_ok]

end Nbkode
