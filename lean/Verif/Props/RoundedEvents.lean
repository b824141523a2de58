import Verif.Proofs.RoundedBisect
import Verif.Proofs.Ends
import Verif.Props.Rounded
import Verif.Props.Events
import Mathlib.Topology.Order.IntermediateValue
import Mathlib.Topology.Instances.Real.Lemmas

/-!
# C86: machine numbers, events

`run_events` with the machine numbers of any rounding accurate up to `u` and `η`, see `Spec/Rounded.lean`.
-/

set_option autoImplicit false
set_option linter.unusedSectionVars false

namespace Nbkode
open Py Spec Solver

variable {φ : Rounding} {n k : Nat} {X : Type} {u η : ℝ}

/-- **C86**, which steps leave records, as C41 and C42: an event has a record within every step on which its value goes to or
through zero in the requested direction, and a record strictly inside a step, or anywhere, only because of such a step; the
recorded times are strictly increasing. -/
theorem C86_records (S : Solver (Num φ) n k X) (hM : WellConfigured S.method) (hU : IsFixed S.method ∨ φ.NoUnderflow)
    (hA : φ.Accurate u η) (bo : BisectOpts (Num φ)) (htol : 0 ≤ bo.tol)
    (argsort : List (Num φ) → List Nat) (hsort : ∀ l, IsArgsort l (argsort l)) (s0 s : St (Num φ) n k X)
    (hc : Constructed S s0) (ho : Ordered s0) (hh : 0 < s0.h) (hs : CleanSession S bo argsort s0 s)
    (ts : List (Num φ)) (es : List (EventSpec (Num φ) n)) (hes : es ≠ []) (o : RunOut (Num φ) n k) (s' : St (Num φ) n k X)
    (h : (S.runEvents bo argsort ts (some es)).run s = some (.ok o, s')) :
    ∃ l c, Path S S.tBound s l c ∧ s'.t = c.t ∧ s'.y = c.y ∧ o.tEvents.length = es.length ∧
      ∀ (i : Nat) e tl, es[i]? = some e → o.tEvents[i]? = some tl → tl.Pairwise (· < ·) ∧
        (∀ a b, Consecutive (s :: l) a b → CrossesOn e a b → ∃ τ ∈ tl, a.t ≤ τ ∧ τ ≤ b.t) ∧
        (∀ τ ∈ tl, ∃ a b, Consecutive (s :: l) a b ∧ CrossesOn e a b ∧ a.t ≤ τ ∧ τ ≤ b.t) ∧
        (∀ τ ∈ tl, ∀ a b, Consecutive (s :: l) a b → a.t < τ → τ < b.t → CrossesOn e a b) := by
  obtain ⟨D, hg⟩ := good_session (num_forward hM hU) hc ho hh hs
  obtain ⟨l, c, h1, h2, h3, h4, h5⟩ := runEvents_logged (num_forward hM hU) D (num_locates hA bo htol) hsort hes hg h
  refine ⟨l, c, h1, by unfold St.t; rw [h2], by unfold St.y; rw [h2], h3, ?_⟩
  intro i e tl g1 g2
  obtain ⟨yl, g3⟩ : ∃ yl, o.yEvents[i]? = some yl := by
    have : i < o.yEvents.length := by
      rw [h4, ← h3]
      exact (List.getElem?_eq_some_iff.mp g2).1
    exact ⟨_, List.getElem?_eq_getElem this⟩
  have hL := h5 i e tl yl g1 g2 g3
  have snd : ∀ τ ∈ tl, ∃ a b, Consecutive (s :: l) a b ∧ CrossesOn e a b ∧ a.t ≤ τ ∧ τ ≤ b.t := by
    intro τ hτ
    obtain ⟨j, hj, rfl⟩ := List.getElem_of_mem hτ
    have hj' : j < yl.length := by rw [← hL.length_eq]; exact hj
    obtain ⟨a, b, h6, h7⟩ := hL.sound (tl[j], yl[j]) (by
      refine List.mem_iff_getElem.mpr ⟨j, by simp [hj, hj'], by simp⟩)
    exact ⟨a, b, h6, h7.crosses, h7.after, h7.before⟩
  refine ⟨hL.increasing, hL.complete, snd, ?_⟩
  intro τ hτ a b hab h6 h7
  obtain ⟨a', b', h8, h9, h10, h11⟩ := snd τ hτ
  have hle : (s :: l).Pairwise fun x y => x.t ≤ y.t := by
    have := num_path_le (num_forward hM hU) hg.pos h1
    rw [← List.map_cons] at this
    exact List.pairwise_map.mp this
  obtain ⟨rfl, rfl⟩ := consecutive_unique hle hab h8 h6 h7 h10 h11
  exact h9

/-- **C86**, where: each recorded time is the end of its step, where the event is zero; or located by bisection in the step. -/
theorem C86_located (S : Solver (Num φ) n k X) (hM : WellConfigured S.method) (hU : IsFixed S.method ∨ φ.NoUnderflow)
    (hA : φ.Accurate u η) (bo : BisectOpts (Num φ)) (htol : 0 ≤ bo.tol)
    (argsort : List (Num φ) → List Nat) (hsort : ∀ l, IsArgsort l (argsort l)) (s0 s : St (Num φ) n k X)
    (hc : Constructed S s0) (ho : Ordered s0) (hh : 0 < s0.h) (hs : CleanSession S bo argsort s0 s)
    (ts : List (Num φ)) (es : List (EventSpec (Num φ) n)) (hes : es ≠ []) (o : RunOut (Num φ) n k) (s' : St (Num φ) n k X)
    (h : (S.runEvents bo argsort ts (some es)).run s = some (.ok o, s')) :
    ∃ l c, Path S S.tBound s l c ∧ s'.t = c.t ∧
      ∀ (i : Nat) e tl, es[i]? = some e → o.tEvents[i]? = some tl → ∀ τ ∈ tl,
        ∃ a b, Consecutive (s :: l) a b ∧ a.t ≤ τ ∧ τ ≤ b.t ∧
          ((τ = b.t ∧ value e b = 0) ∨ LocatedWithin u η bo (ValueAt S e b) a.t b.t τ) := by
  obtain ⟨D, hg⟩ := good_session (num_forward hM hU) hc ho hh hs
  obtain ⟨l, c, h1, h2, h3, h4, h5⟩ := runEvents_logged (num_forward hM hU) D (num_locates hA bo htol) hsort hes hg h
  refine ⟨l, c, h1, by unfold St.t; rw [h2], ?_⟩
  intro i e tl g1 g2 τ hτ
  have hi : i < es.length := (List.getElem?_eq_some_iff.mp g1).1
  have hL := h5 i e tl (o.yEvents[i]'(by omega)) g1 g2 (List.getElem?_eq_getElem _)
  obtain ⟨j, hj, rfl⟩ := List.getElem_of_mem hτ
  obtain ⟨a, b, h6, h7⟩ := hL.sound (tl[j], (o.yEvents[i]'(by omega))[j]'(by rw [← hL.length_eq]; exact hj)) (by
    refine List.mem_iff_getElem.mpr ⟨j, by simp [hj, ← hL.length_eq], by simp⟩)
  exact ⟨a, b, h6, h7.after, h7.before, h7.located⟩

/-- **C86**, true zeros: if the computed value of the event along the step is within `κ` of a continuous function `g` of real
times, then at a time located in the step `g` is at most `tol + κ`, or `g` is at most `κ` at a real time no further away than the
length of the bracket. -/
theorem C86_true_zero (S : Solver (Num φ) n k X) (bo : BisectOpts (Num φ)) (e : EventSpec (Num φ) n) (a b : St (Num φ) n k X)
    (τ : Num φ) (h1 : a.t ≤ τ) (h2 : τ ≤ b.t) (hτ : LocatedWithin u η bo (ValueAt S e b) a.t b.t τ) (g : ℝ → ℝ) (κ : ℝ)
    (hg : ContinuousOn g (Set.Icc a.t.val b.t.val))
    (hv : ∀ x v : Num φ, a.t ≤ x → x ≤ b.t → ValueAt S e b x v → |v.val - g x.val| ≤ κ) :
    |g τ.val| ≤ bo.tol.val + κ ∨
      ∃ z, a.t.val ≤ z ∧ z ≤ b.t.val ∧ |g z| ≤ κ ∧
        |z - τ.val| ≤ (b.t.val - a.t.val) / 2 ^ bo.maxiter + (4 * u * max |a.t.val| |b.t.val| + 3 * η) := by
  rcases hτ with ⟨v, h3, h4⟩ | ⟨lo, hi, vlo, vhi, h3, h4, h5, h6, h7, h8, h9, h10⟩
  · left
    have := hv τ v h1 h2 h3
    rw [abs_le] at *
    constructor <;> linarith
  · right
    have e1 := hv lo vlo h3 (h4.trans h5) h7
    have e2 := hv hi vhi (h3.trans h4) h5 h8
    rw [Num.le_iff] at h3 h4 h5
    have hcont : ContinuousOn g (Set.Icc lo.val hi.val) := hg.mono (Set.Icc_subset_Icc h3 h5)
    have hκ : 0 ≤ κ := (abs_nonneg _).trans e1
    have hz : ∃ z ∈ Set.Icc lo.val hi.val, |g z| ≤ κ := by
      by_cases c1 : |g lo.val| ≤ κ
      · exact ⟨_, Set.left_mem_Icc.mpr h4, c1⟩
      by_cases c2 : |g hi.val| ≤ κ
      · exact ⟨_, Set.right_mem_Icc.mpr h4, c2⟩
      have key : ∃ z ∈ Set.Icc lo.val hi.val, g z = 0 := by
        rw [abs_le] at c1 c2 e1 e2
        simp only [Num.lt_iff, Num.val_zero] at h9
        rcases h9 with ⟨h9, h11⟩ | ⟨h9, h11⟩
        · refine intermediate_value_Icc h4 hcont ⟨?_, ?_⟩
          · by_contra c
            exact c1 ⟨by linarith, by linarith⟩
          · by_contra c
            exact c2 ⟨by linarith, by linarith⟩
        · refine intermediate_value_Icc' h4 hcont ⟨?_, ?_⟩
          · by_contra c
            exact c2 ⟨by linarith, by linarith⟩
          · by_contra c
            exact c1 ⟨by linarith, by linarith⟩
      obtain ⟨z, hz, e⟩ := key
      exact ⟨z, hz, by rw [e, abs_zero]; exact hκ⟩
    obtain ⟨z, ⟨z1, z2⟩, hz⟩ := hz
    refine ⟨z, h3.trans z1, z2.trans h5, hz, le_trans ?_ h6⟩
    rcases h10 with rfl | rfl <;> rw [abs_le] <;> constructor <;> linarith

/-- **C86**, terminal events, as C44: for times in order, `run_events` that returns goes on to the first step on which a terminal
event triggers and ends its output with that event's time and state; without a terminal trigger it returns every requested
point, up to the last step that fits below `t_bound`. -/
theorem C86_ends (S : Solver (Num φ) n k X) (hM : WellConfigured S.method) (hU : IsFixed S.method ∨ φ.NoUnderflow)
    (hA : φ.Accurate u η) (bo : BisectOpts (Num φ)) (htol : 0 ≤ bo.tol)
    (argsort : List (Num φ) → List Nat) (hsort : ∀ l, IsArgsort l (argsort l)) (s0 s : St (Num φ) n k X)
    (hc : Constructed S s0) (ho : Ordered s0) (hh : 0 < s0.h) (hs : CleanSession S bo argsort s0 s)
    (ts : List (Num φ)) (hts : ts.Pairwise (· ≤ ·)) (es : List (EventSpec (Num φ) n)) (hes : es ≠ []) (o : RunOut (Num φ) n k)
    (s' : St (Num φ) n k X) (h : (S.runEvents bo argsort ts (some es)).run s = some (.ok o, s')) :
    ∃ l c, Path S S.tBound s l c ∧ s'.t = c.t ∧ s'.y = c.y ∧ Ends S ts es o.out o.tEvents s l c := by
  obtain ⟨out, l, c, h1, h2, h3, h4, h5, -⟩ :=
    runEvents_ends_of S (num_forward hM hU) (num_locates hA bo htol) argsort hsort s0 s hc ho hh hs ts es hes o s' h
  have hst : sortedTimes argsort ts = ts := by
    unfold sortedTimes; rw [if_pos ((isSorted_iff ts).mpr hts)]
  rw [hst] at h4
  rw [if_pos ((isSorted_iff ts).mpr hts)] at h5
  exact ⟨l, c, h1, h2, h3, h5 ▸ h4⟩

/-! ### Double precision -/

namespace Demo

/-- An event at the time `0.1`. -/
noncomputable def atTenth : EventSpec (Num double) 1 := ⟨fun t _ => t - Num.of double (1 / 10), some true, none⟩

/-- `run_events([0.1])` watching for it, on the solver just constructed with step `0.1`. -/
theorem double_watched (bo : BisectOpts (Num double)) (argsort : List (Num double) → List Nat) :
    ∃ o s', (doubleEuler.runEvents bo argsort [Num.of double (1 / 10)] (some [atTenth])).run
      (doubleStart 0 (Num.of double (1 / 10))) = some (.ok o, s') ∧ o.tEvents = [[Num.of double (1 / 10)]] := by
  obtain ⟨s1, r, h1, h2, hi, -⟩ := double_first
  set h := Num.of double (1 / 10) with hh
  set s0 := doubleStart 0 h with hs0
  have hlt : s0.t < h := tenth_pos
  have hsub : h - h = 0 := by
    apply Num.ext
    rw [Num.val_sub, sub_self, Num.val_zero]
    exact double.round_self _ double.zero_mem
  have hneg : atTenth.func s0.t s0.y ≤ 0 := by
    show s0.t - h ≤ 0
    rw [Num.le_iff, Num.val_sub, Num.val_zero, show s0.t.val = 0 from Num.val_zero, ← double.round_self 0 double.zero_mem]
    refine double.monotone ?_
    rw [double.round_self 0 double.zero_mem, val_tenth]
    norm_num
  have hval : atTenth.func s1.cache.t s1.cache.y = 0 := by
    show s1.t - h = 0
    rw [h2, hsub]
  have hev : ((buildHandler [atTenth] s0.t s0.y : EventHandler (Num double) 1 _).evaluate bo doubleEuler.interpAt).run s1 =
      some (.ok (⟨[⟨atTenth.func, true, 0, s1.t, 0, [s1.t], [r]⟩], some (s1.t, r)⟩, true), s1) := by
    have ht : triggers 0 (atTenth.func s0.t s0.y) 0 = true := by
      simp [triggers, hneg]
    have h2' : s1.cache.t = h := h2
    have hd : (buildEvent atTenth s0.t s0.y : Event (Num double) 1 (histExtra 0)) =
        ⟨atTenth.func, true, 0, s0.t, atTenth.func s0.t s0.y, [], []⟩ := rfl
    have hone : ((buildEvent atTenth s0.t s0.y : Event (Num double) 1 (histExtra 0)).evaluate bo doubleEuler.interpAt).run s1 =
        some (.ok (⟨atTenth.func, true, 0, s1.t, 0, [s1.t], [r]⟩, true), s1) := by
      rw [hd]
      unfold Event.evaluate
      have hval' : atTenth.func h s1.cache.y = 0 := h2' ▸ hval
      simp only [run_bind, run_get, andThen_ok, h2', hval', ht, if_true, beq_self_eq_true, run_pure, List.getLast?_nil,
        Bool.false_eq_true, if_false, hi, List.nil_append, Bool.and_true]
      rw [show s1.t = h from h2]
    unfold EventHandler.evaluate
    show (do let p ← handlerLoop bo doubleEuler.interpAt [buildEvent atTenth s0.t s0.y] false none; _ : Py _ _).run s1 = _
    simp only [handlerLoop, run_bind, hone, andThen_ok, run_pure]
    rfl
  have hf : Fits doubleEuler.tBound s0 := trivial
  rw [runEvents_of_loop (by simp) (by simp) (by simp) (show InRange doubleEuler s0 [h] from double_inRange) (by simpa using hlt), runEvalEvents_cons, advanceEvents_run,
    if_pos hlt, (pstep_true (S := doubleEuler) (b := doubleEuler.tBound)).mpr ⟨hf, h1⟩]
  simp only [andThen_ok, if_true]
  rw [hev]
  exact ⟨_, _, rfl, by simp [h2]⟩

end Demo

-- C86: that run meets the hypotheses.
open Demo in
example (bo : BisectOpts (Num double)) (htol : 0 ≤ bo.tol) (argsort : List (Num double) → List Nat)
    (hA : ∀ l, IsArgsort l (argsort l)) : ∃ o s', ∃ h : (doubleEuler.runEvents bo argsort [Num.of double (1 / 10)]
      (some [atTenth])).run (doubleStart 0 (Num.of double (1 / 10))) = some (.ok o, s'), o.tEvents = [[Num.of double (1 / 10)]] ∧
    type_of% (C86_records doubleEuler (Or.inl (.explicitMultistep _)) (Or.inl (.explicitMultistep _)) double_accurate bo htol
      argsort hA _ _ (constructed_eulerAt _ _ _ _ _) (fun _ _ _ => le_refl _) tenth_pos (.start _) _ _ (by simp) o s' h) ∧
    type_of% (C86_located doubleEuler (Or.inl (.explicitMultistep _)) (Or.inl (.explicitMultistep _)) double_accurate bo htol
      argsort hA _ _ (constructed_eulerAt _ _ _ _ _) (fun _ _ _ => le_refl _) tenth_pos (.start _) _ _ (by simp) o s' h) ∧
    type_of% (C86_ends doubleEuler (Or.inl (.explicitMultistep _)) (Or.inl (.explicitMultistep _)) double_accurate bo htol
      argsort hA _ _ (constructed_eulerAt _ _ _ _ _) (fun _ _ _ => le_refl _) tenth_pos (.start _) _ (by simp) _ (by simp)
      o s' h) := by
  obtain ⟨o, s', h, e⟩ := double_watched bo argsort
  exact ⟨o, s', h, e, C86_records doubleEuler (Or.inl (.explicitMultistep _)) (Or.inl (.explicitMultistep _)) double_accurate bo htol
      argsort hA _ _ (constructed_eulerAt _ _ _ _ _) (fun _ _ _ => le_refl _) tenth_pos (.start _) _ _ (by simp) o s' h,
    C86_located doubleEuler (Or.inl (.explicitMultistep _)) (Or.inl (.explicitMultistep _)) double_accurate bo htol
      argsort hA _ _ (constructed_eulerAt _ _ _ _ _) (fun _ _ _ => le_refl _) tenth_pos (.start _) _ _ (by simp) o s' h,
    C86_ends doubleEuler (Or.inl (.explicitMultistep _)) (Or.inl (.explicitMultistep _)) double_accurate bo htol
      argsort hA _ _ (constructed_eulerAt _ _ _ _ _) (fun _ _ _ => le_refl _) tenth_pos (.start _) _ (by simp) _
      (by simp) o s' h⟩

-- `C86_true_zero`: the time found there, with the event's own function of real times.
open Demo in
example (bo : BisectOpts (Num double)) (htol : 0 ≤ bo.tol) : ∃ b, Takes doubleEuler (doubleStart 0 (Num.of double (1 / 10))) b ∧
    ∃ h2 : Num.of double (1 / 10) ≤ b.t,
    ∃ hτ : LocatedWithin (2 ^ (-53 : ℤ)) (2 ^ ((-1074 : ℤ) - 1)) bo (ValueAt doubleEuler atTenth b)
      (doubleStart 0 (Num.of double (1 / 10))).t b.t (Num.of double (1 / 10)),
    ∃ hg, ∃ hv,
    type_of% (C86_true_zero doubleEuler bo atTenth (doubleStart 0 (Num.of double (1 / 10))) b (Num.of double (1 / 10)) tenth_pos.le
      h2 hτ (fun x => x - (Num.of double (1 / 10)).val) (2 ^ (-53 : ℤ) * 1 + 2 ^ ((-1074 : ℤ) - 1)) hg hv) := by
  obtain ⟨s1, r, h1, h2, -, hi⟩ := double_first
  have hτ : LocatedWithin (2 ^ (-53 : ℤ)) (2 ^ ((-1074 : ℤ) - 1)) bo (ValueAt doubleEuler atTenth s1)
      (doubleStart 0 (Num.of double (1 / 10))).t s1.t (Num.of double (1 / 10)) := by
    refine .small _ ⟨_, ⟨r, s1, hi, rfl⟩, rfl⟩ ?_
    show |(Num.of double (1 / 10) - Num.of double (1 / 10)).val| ≤ _
    rw [Num.val_sub, sub_self, double.round_self _ double.zero_mem, abs_zero]
    simpa [Num.val_zero] using Num.le_iff.mp htol
  have hg : ContinuousOn (fun x : ℝ => x - (Num.of double (1 / 10)).val)
      (Set.Icc (doubleStart 0 (Num.of double (1 / 10))).t.val s1.t.val) := by fun_prop
  have hv : ∀ x v : Num double, (doubleStart 0 (Num.of double (1 / 10))).t ≤ x → x ≤ s1.t → ValueAt doubleEuler atTenth s1 x v →
      |v.val - (x.val - (Num.of double (1 / 10)).val)| ≤ 2 ^ (-53 : ℤ) * 1 + 2 ^ ((-1074 : ℤ) - 1) := by
    rintro x v h3 h4 ⟨y, -, rfl⟩
    refine (double_accurate.error (x.val - (Num.of double (1 / 10)).val)).trans ?_
    rw [Num.le_iff, show (doubleStart 0 (Num.of double (1 / 10))).t.val = 0 from Num.val_zero] at h3
    rw [Num.le_iff, h2] at h4
    have h5 : |x.val - (Num.of double (1 / 10)).val| ≤ 1 := by
      rw [val_tenth] at *
      rw [abs_le]
      constructor <;> norm_num at * <;> linarith
    have : (0 : ℝ) ≤ 2 ^ (-53 : ℤ) := by positivity
    have := mul_le_mul_of_nonneg_left h5 this
    linarith
  exact ⟨s1, h1, h2.ge, hτ, hg, hv, C86_true_zero doubleEuler bo atTenth _ s1 _ tenth_pos.le h2.ge hτ _ _ hg hv⟩

end Nbkode
