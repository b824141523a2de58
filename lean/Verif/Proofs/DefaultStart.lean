import Verif.Spec.DefaultStart
import Verif.Proofs.MultistepRun
import Verif.Props.RunError
import Verif.Props.MultistepStart

/-! # The history a variable-step starter makes from the time 0 -/

set_option autoImplicit false
set_option linter.unusedSectionVars false

namespace Nbkode
open Py Spec Solver Polynomial

variable {n p s d : ℕ}

/-- The history made by a variable-step starter is the initial point and, for small `h`, points of the continuous extension of the
starter's first step; that step does not depend on `h`. -/
theorem fsal_start_history (c : FsalCoef ℝ s (d + 1)) (hT : Explicit c.toTableau) (hE : EndConditions c.toTableau c.P)
    (lib : Lib ℝ) (o : VarOptions ℝ) (hl : PowLaw lib) (ho : SaneOptions o) (hex : 0 ≤ c.errorExponent)
    (sel : Rhs ℝ n → ℝ → Vec ℝ n → Vec ℝ n → Except Err ℝ) (hsel : SelectsPositive sel) (gs : Buffer ℝ n 0)
    (K₀ : Fin (s + 2) → Vec ℝ n) (I : RkItp ℝ n (d + 1)) (f : ℝ → Vec ℝ n → Vec ℝ n) (y₀ : Vec ℝ n) :
    ∃ H K, 0 < H ∧ RKStages (withLast c.toTableau) (pureRhs f) 0 H y₀ K ∧
      ∀ (p : ℕ) (g : Buffer ℝ n (histExtra p)) (bo : BisectOpts ℝ) (argsort : List ℝ → List Nat) (h : ℝ)
        (st : St ℝ n (histExtra p) Unit), p ≠ 0 → (∀ l, IsArgsort l (argsort l)) → 0 < h → p * h ≤ H →
        multistepInit g bo argsort (fsalStarter lib o c sel gs K₀ I) (pureRhs f) 0 y₀ (some h) = some (.ok st) →
        st.h = h ∧ st.t = p * h ∧ ∀ i ≤ p, ago st.cache.ts i = ((p : ℝ) - i) * h ∧
          ago st.cache.ys i = denseNew c.P H (((p : ℝ) - i) * h / H) y₀ K ∧
          ago st.cache.fs i = f (((p : ℝ) - i) * h) (ago st.cache.ys i) := by
  have hM : ∀ rhs : Rhs ℝ n, WellConfigured (⟨fsal lib o c, rhs, .inf⟩ : Solver ℝ n 0 _).method := fun _ =>
    Or.inr ⟨lib, o, _, .fsal _, hl, ho, hex⟩
  by_cases hex1 : ∃ s1 v, fsalInit c.P o sel gs K₀ I (pureRhs f) 0 y₀ none none = .ok s1 ∧
      Takes ⟨fsal lib o c, pureRhs f, .inf⟩ s1 v
  · obtain ⟨s1, v, hm, hv⟩ := hex1
    have hst : fsalStarts c o (pureRhs f) 0 y₀ s1 := ⟨sel, gs, K₀, I, none, none, hm⟩
    have hS := fsal_startsAt (n := n) c lib o .inf
    have m1 : s1.t = 0 := hS.times _ _ _ _ hst _
    have m2 : s1.y = y₀ := hS.y _ _ _ _ hst
    have m3 : s1.f = f 0 y₀ := (Except.ok.inj (hS.f _ _ _ _ hst)).symm
    have hh : 0 < s1.h := by
      obtain ⟨s2, h2, -, h3, -⟩ := fsalInit_ok hm
      obtain ⟨s3, -, -, -, -, h4⟩ := variableInit_ok h2
      rw [h3]
      exact hsel _ _ _ _ _ (h4 rfl)
    have hlt : s1.t < v.t := (C11_step_increases _ (hM _) _ _ hh hv).1
    obtain ⟨K, hK, hdense⟩ := fsal_dense c hT hE lib o hl ho hex .inf f 0 y₀ s1 s1 v [] hst hh (.nil _) trivial hv
      (by rw [m3, m1, m2]) hlt
    rw [m1, m2, sub_zero] at hK
    refine ⟨v.t, K, by rw [← m1]; exact hlt, hK, fun p g bo argsort h st hp hA h0 hph hs => ?_⟩
    obtain ⟨ht0, hts⟩ := C34_variable_starter_times hp g bo argsort hA (fsal lib o c) (Or.inr ⟨lib, o, _, .fsal c⟩) _ (pureRhs f) 0 y₀ h
      st hs
    obtain ⟨f0, s1', s2, out, l, hf0, hm', hrun, hlo, hlf, rfl⟩ := multistepInit_variable hp hs
    have hk : histExtra p + 1 = p := by unfold histExtra; omega
    obtain rfl : s1 = s1' := by
      have : Except.ok s1 = Except.ok s1' := hm.symm.trans hm'
      exact Except.ok.inj this
    have htimes := C19_unbounded_partial ⟨fsal lib o c, pureRhs f, .inf⟩ (Or.inr ⟨lib, o, _, .fsal c⟩) rfl bo argsort hA _ _ _ _ hrun
    have hlen : l.length = p := by
      have := congrArg List.length htimes
      rw [← hlo] at this
      simpa [startTimes] using this
    have hslot := slots_of_pushes hp g 0 y₀ f0 l hlen
    simp only at hslot
    set st : St ℝ n (histExtra p) Unit :=
      ⟨l.foldl (fun b p => b.push p.1 p.2.1 p.2.2) (Buffer.init g 0 y₀ f0), h, ()⟩ with hst'
    have hord : Ordered s1 := by
      intro i j _
      rw [hS.times _ _ _ _ hst, hS.times _ _ _ _ hst]
    have hint := C20_interpolant (⟨fsal lib o c, pureRhs f, .inf⟩ : Solver ℝ n 0 _) (hM _) bo argsort hA s1 s1
      (hS.constructed _ _ _ _ hst) hord hh (.start s1) _ _ _ hrun
    have htt : ∀ i ≤ p, ago st.cache.ts i = ((p : ℝ) - i) * h := by
      intro i hi
      show st.cache.ts ⟨histExtra p + 1 - i, by omega⟩ = _
      by_cases hip : i = p
      · subst hip
        rw [sub_self, zero_mul, ← ht0]
        congr 1
        ext
        simp only [Buffer.iOld]; omega
      · rw [hts ⟨histExtra p + 1 - i, by omega⟩ (by show 0 < histExtra p + 1 - i; omega)]
        show ((histExtra p + 1 - i : ℕ) : ℝ) * h = _
        rw [hk, Nat.cast_sub hi]
    refine ⟨rfl, ?_, fun i hi => ⟨htt i hi, ?_⟩⟩
    · have := htt 0 (Nat.zero_le _)
      rw [Nat.cast_zero, sub_zero] at this
      exact this
    · have h3 := hslot ⟨histExtra p + 1 - i, by omega⟩
      have h4 := htt i hi
      by_cases hip : i = p
      · subst hip
        have e3 : histExtra i + 1 - i = 0 := by omega
        simp only [e3, List.getElem?_cons_zero, Option.some.injEq, Prod.mk.injEq] at h3
        have e4 : ago st.cache.ys i = y₀ := by
          unfold ago
          simp only [e3]
          exact h3.2.1.symm
        have e5 : ago st.cache.fs i = f0 := by
          unfold ago
          simp only [e3]
          exact h3.2.2.symm
        rw [e4, e5, sub_self, zero_mul, zero_div]
        refine ⟨?_, (Except.ok.inj hf0).symm⟩
        funext j
        simp [denseNew, denseWeight]
      · obtain ⟨j, hj⟩ : ∃ j, histExtra p + 1 - i = j + 1 := ⟨p - i - 1, by omega⟩
        simp only [hj, List.getElem?_cons_succ] at h3
        have e4 : ago st.cache.ys i = st.cache.ys ⟨j + 1, by omega⟩ := by unfold ago; simp only [hj]
        have e5 : ago st.cache.fs i = st.cache.fs ⟨j + 1, by omega⟩ := by unfold ago; simp only [hj]
        have e6 : ago st.cache.ts i = st.cache.ts ⟨j + 1, by omega⟩ := by unfold ago; simp only [hj]
        rw [e6] at h4
        have hmem := List.mem_of_getElem? h3
        have hder := hlf _ hmem
        have hout : (st.cache.ts ⟨j + 1, by omega⟩, st.cache.ys ⟨j + 1, by omega⟩) ∈ out := by
          rw [← hlo]
          exact List.mem_map.mpr ⟨_, hmem, rfl⟩
        obtain ⟨s3, r, s4, hreach, hin, hval⟩ := hint _ hout
        simp only at hder hreach hin hval
        rw [h4] at hder hreach hin
        have hpi : (1 : ℝ) ≤ (p : ℝ) - i := by
          have : i + 1 ≤ p := by omega
          have : ((i + 1 : ℕ) : ℝ) ≤ p := by exact_mod_cast this
          push_cast at this
          linarith
        have hti : 0 < ((p : ℝ) - i) * h := by positivity
        have hti' : ((p : ℝ) - i) * h ≤ v.t := by
          have : 0 ≤ (i : ℝ) * h := by positivity
          nlinarith
        obtain rfl : s3 = v := by
          cases hreach with
          | here h => rw [m1] at h; exact absurd hti h
          | @step _ s5 _ h1 h2 h5 h6 =>
            have : s5 = v := by
              have : some (Except.ok (), s5) = some (Except.ok (), v) := Eq.trans h5.symm hv
              simpa using this
            subst this
            cases h6 with
            | here => rfl
            | step h7 => exact absurd h7 (not_lt.mpr hti')
        have hd := hdense _ r s4 (by rw [m1]; exact hti) hti' hin
        rw [m1, m2, sub_zero, sub_zero] at hd
        rw [e4, e5]
        exact ⟨hval.symm.trans hd, (Except.ok.inj hder).symm⟩
  · refine ⟨1, _, one_pos, stageFn_stages (withLast_explicit hT) f 0 1 y₀,
      fun p g bo argsort h st hp hA h0 hph hs => absurd ?_ hex1⟩
    obtain ⟨f0, s1, s2, out, l, hf0, hm, hrun, hlo, hlf, rfl⟩ := multistepInit_variable hp hs
    have hst : fsalStarts c o (pureRhs f) 0 y₀ s1 := ⟨sel, gs, K₀, I, none, none, hm⟩
    have hS := fsal_startsAt (n := n) c lib o .inf
    have hh : 0 < s1.h := by
      obtain ⟨s2, h2, -, h3, -⟩ := fsalInit_ok hm
      obtain ⟨s3, -, -, -, -, h4⟩ := variableInit_ok h2
      rw [h3]
      exact hsel _ _ _ _ _ (h4 rfl)
    have hord : Ordered s1 := by
      intro i j _
      rw [hS.times _ _ _ _ hst, hS.times _ _ _ _ hst]
    have htimes := C19_unbounded_partial ⟨fsal lib o c, pureRhs f, .inf⟩ (Or.inr ⟨lib, o, _, .fsal c⟩) rfl bo argsort hA _ _ _ _ hrun
    have hmem : h ∈ out.map Prod.fst := by
      rw [htimes]
      exact List.mem_map.mpr ⟨0, List.mem_range.mpr (by omega), by simp⟩
    obtain ⟨q, hq, hqt⟩ := List.mem_map.mp hmem
    obtain ⟨s3, r, s4, hreach, -⟩ := C20_interpolant (⟨fsal lib o c, pureRhs f, .inf⟩ : Solver ℝ n 0 _) (hM _) bo argsort hA s1 s1
      (hS.constructed _ _ _ _ hst) hord hh (.start s1) _ _ _ hrun q hq
    rw [hqt] at hreach
    cases hreach with
    | here h =>
      rw [show s1.t = 0 from hS.times _ _ _ _ hst _] at h
      exact absurd h0 h
    | step _ _ h5 _ => exact ⟨s1, _, hm, h5⟩

/-- So it follows the solution within `C * h^2`. -/
theorem fsal_start_follows (c : FsalCoef ℝ s (d + 1)) (hT : Explicit c.toTableau) (hE : EndConditions c.toTableau c.P)
    (lib : Lib ℝ) (o : VarOptions ℝ) (hl : PowLaw lib) (ho : SaneOptions o) (hex : 0 ≤ c.errorExponent)
    (sel : Rhs ℝ n → ℝ → Vec ℝ n → Vec ℝ n → Except Err ℝ) (hsel : SelectsPositive sel) (gs : Buffer ℝ n 0)
    (K₀ : Fin (s + 2) → Vec ℝ n) (I : RkItp ℝ n (d + 1)) (hp : p ≠ 0) {f : ℝ → Vec ℝ n → Vec ℝ n} {y : ℝ → Vec ℝ n} {a b T : ℝ}
    (hf : ContDiff ℝ 1 (joint f)) (ha : a < 0) (ht : 0 < T) (hb : T < b) (hy : ∀ t ∈ Set.Ioo a b, SolvesAt f y t) :
    ∃ C δ, 0 ≤ C ∧ 0 < δ ∧ ∀ (h : ℝ) (g : Buffer ℝ n (histExtra p)) (bo : BisectOpts ℝ) (argsort : List ℝ → List Nat)
      (st : St ℝ n (histExtra p) Unit), (∀ l, IsArgsort l (argsort l)) → 0 < h → h ≤ δ →
      multistepInit g bo argsort (fsalStarter lib o c sel gs K₀ I) (pureRhs f) 0 (y 0) (some h) = some (.ok st) →
      st.h = h ∧ st.t = p * h ∧ Follows f y (C * h ^ 2) st := by
  obtain ⟨H, K, hH, hK, hist⟩ := fsal_start_history c hT hE lib o hl ho hex sel hsel gs K₀ I f (y 0)
  obtain ⟨M, hM, htay⟩ := taylor_near (q := 1) (T := T) hf ha hb hy
  have hp0 : (0 : ℝ) < p := by exact_mod_cast Nat.pos_of_ne_zero hp
  set B : ℝ := ∑ e, ∑ j, (∑ m : Fin d, |c.P j m.succ|) * |K j e| with hB
  have hB0 : 0 ≤ B := Finset.sum_nonneg fun e _ => Finset.sum_nonneg fun j _ =>
    mul_nonneg (Finset.sum_nonneg fun m _ => abs_nonneg _) (abs_nonneg _)
  have hK0 : K 0 = f 0 (y 0) := by
    have h1 := hK 0
    have hW := withLast_explicit hT
    have h2 : (fun e => y 0 e + H * ∑ j, (withLast c.toTableau).A 0 j * K j e) = y 0 := by
      funext e
      rw [Finset.sum_eq_zero fun j _ => by rw [hW.upper 0 j (Fin.zero_le _), zero_mul], mul_zero, add_zero]
    rw [hW.first, zero_mul, add_zero, h2] at h1
    exact (Except.ok.inj h1).symm
  have hdense : ∀ t, 0 ≤ t → t ≤ H → t ≤ T → ∀ e, |denseNew c.P H (t / H) (y 0) K e - y t e| ≤ (B / H + 3 * M) * t ^ 2 := by
    intro t t0 tH tT e
    set θ := t / H with hθ
    have hθ0 : 0 ≤ θ := div_nonneg t0 hH.le
    have hθ1 : θ ≤ 1 := (div_le_one hH).mpr tH
    have hHθ : H * θ = t := by rw [hθ]; field_simp
    have hw : ∀ j, denseWeight c.P θ j = c.P j 0 * θ + θ ^ 2 * ∑ m : Fin d, c.P j m.succ * θ ^ m.val := by
      intro j
      unfold denseWeight
      rw [Fin.sum_univ_succ, Finset.mul_sum]
      congr 1
      · simp
      · refine Finset.sum_congr rfl fun m _ => ?_
        rw [Fin.val_succ]; ring
    have h1 : denseNew c.P H θ (y 0) K e = y 0 e + t * f 0 (y 0) e +
        t ^ 2 / H * ∑ j, (∑ m : Fin d, c.P j m.succ * θ ^ m.val) * K j e := by
      unfold denseNew
      simp only [hw]
      have h2 : ∑ j, c.P j 0 * θ * K j e = θ * f 0 (y 0) e := by
        rw [← hK0, Finset.sum_eq_single 0]
        · rw [hE.start]; simp
        · intro j _ hj; rw [hE.start, if_neg hj]; simp
        · simp
      have h3 : ∑ j, (c.P j 0 * θ + θ ^ 2 * ∑ m : Fin d, c.P j m.succ * θ ^ m.val) * K j e =
          θ * f 0 (y 0) e + θ ^ 2 * ∑ j, (∑ m : Fin d, c.P j m.succ * θ ^ m.val) * K j e := by
        rw [← h2, Finset.mul_sum, ← Finset.sum_add_distrib]
        exact Finset.sum_congr rfl fun j _ => by ring
      rw [h3, mul_add, ← mul_assoc, hHθ, ← mul_assoc, show H * θ ^ 2 = t ^ 2 / H by rw [← hHθ]; field_simp]
      ring
    have h4 : |∑ j, (∑ m : Fin d, c.P j m.succ * θ ^ m.val) * K j e| ≤ B := by
      have h5 : |∑ j, (∑ m : Fin d, c.P j m.succ * θ ^ m.val) * K j e| ≤ ∑ j, (∑ m : Fin d, |c.P j m.succ|) * |K j e| := by
        refine (Finset.abs_sum_le_sum_abs _ _).trans (Finset.sum_le_sum fun j _ => ?_)
        rw [abs_mul]
        refine mul_le_mul_of_nonneg_right ((Finset.abs_sum_le_sum_abs _ _).trans (Finset.sum_le_sum fun m _ => ?_)) (abs_nonneg _)
        rw [abs_mul, abs_of_nonneg (pow_nonneg hθ0 _)]
        exact mul_le_of_le_one_right (abs_nonneg _) (pow_le_one₀ hθ0 hθ1)
      exact h5.trans (Finset.single_le_sum (f := fun e => ∑ j, (∑ m : Fin d, |c.P j m.succ|) * |K j e|)
        (fun e _ => Finset.sum_nonneg fun j _ => mul_nonneg (Finset.sum_nonneg fun m _ => abs_nonneg _) (abs_nonneg _))
        (Finset.mem_univ e))
    obtain ⟨G, hG, hGt⟩ := htay 0 t le_rfl tT e
    obtain ⟨g1, -⟩ := hGt t ⟨t0, le_rfl⟩
    obtain ⟨g2, g3⟩ := hGt 0 ⟨le_rfl, t0⟩
    rw [sub_zero] at g1 g2 g3
    have hlin : G.eval t = G.eval 0 + t * (derivative G).eval 0 := by
      have e1 := Polynomial.exists_eq_X_add_C_of_natDegree_le_one hG
      obtain ⟨u, w, rfl⟩ := e1
      simp; ring
    rw [h1]
    have h6 : |t ^ 2 / H * ∑ j, (∑ m : Fin d, c.P j m.succ * θ ^ m.val) * K j e| ≤ B / H * t ^ 2 := by
      rw [abs_mul, abs_of_nonneg (by positivity)]
      calc t ^ 2 / H * _ ≤ t ^ 2 / H * B := mul_le_mul_of_nonneg_left h4 (by positivity)
        _ = _ := by ring
    have h7 : |t * (f 0 (y 0) e - (derivative G).eval 0)| ≤ M * t ^ 2 := by
      rw [abs_mul, abs_of_nonneg t0]
      calc t * _ ≤ t * (M * t ^ 1) := mul_le_mul_of_nonneg_left g3 t0
        _ = _ := by ring
    rw [show (1 + 1 : ℕ) = 2 from rfl] at g1 g2
    have h8 : y 0 e + t * f 0 (y 0) e + t ^ 2 / H * ∑ j, (∑ m : Fin d, c.P j m.succ * θ ^ m.val) * K j e - y t e =
        (y 0 e - G.eval 0) + t * (f 0 (y 0) e - (derivative G).eval 0) - (y t e - G.eval t) +
        t ^ 2 / H * ∑ j, (∑ m : Fin d, c.P j m.succ * θ ^ m.val) * K j e := by
      rw [hlin]; ring
    rw [h8]
    have h9 : (B / H + 3 * M) * t ^ 2 = M * t ^ 2 + M * t ^ 2 + M * t ^ 2 + B / H * t ^ 2 := by ring
    rw [h9]
    refine (abs_add_le _ _).trans (add_le_add ((abs_sub _ _).trans (add_le_add ((abs_add_le _ _).trans (add_le_add g2 h7)) g1)) h6)
  refine ⟨(B / H + 3 * M) * p ^ 2, min (H / p) (T / p), by positivity, lt_min (div_pos hH hp0) (div_pos ht hp0),
    fun h g bo argsort st hA h0 hδ hs => ?_⟩
  have k1 : p * h ≤ H := by
    have := hδ.trans (min_le_left _ _)
    rw [le_div_iff₀ hp0] at this; linarith
  have k2 : p * h ≤ T := by
    have := hδ.trans (min_le_right _ _)
    rw [le_div_iff₀ hp0] at this; linarith
  obtain ⟨e1, e2, e3⟩ := hist p g bo argsort h st hp hA h0 k1 hs
  have e4 : ∀ i : ℕ, st.t - i * st.h = ((p : ℝ) - i) * h := by intro i; rw [e1, e2]; ring
  refine ⟨e1, e2, fun i hi => by rw [e4]; exact (e3 i hi).1, fun i hi e => ?_, fun i hi => by rw [e4]; exact (e3 i hi).2.2⟩
  have hip : (i : ℝ) ≤ p := by exact_mod_cast hi
  have h1 : 0 ≤ ((p : ℝ) - i) * h := mul_nonneg (by linarith) h0.le
  have h2 : ((p : ℝ) - i) * h ≤ p * h := mul_le_mul_of_nonneg_right (by have : (0 : ℝ) ≤ i := Nat.cast_nonneg _; linarith) h0.le
  rw [e4, (e3 i hi).2.1]
  refine (hdense _ h1 (h2.trans k1) (h2.trans k2) e).trans ?_
  rw [mul_assoc, ← mul_pow]
  exact mul_le_mul_of_nonneg_left (pow_le_pow_left₀ h1 h2 2) (by positivity)

end Nbkode
