import Verif.Spec.RoundedSearch
import Verif.Proofs.RoundedBisect
import Verif.Proofs.Floats
import Verif.Proofs.EventsTotal

/-! The event search with machine numbers. -/

set_option autoImplicit false
set_option linter.unusedSectionVars false

namespace Nbkode
open Py Spec Solver Spec.Num

variable {φ : Rounding}

theorem binary_gradual (p : ℕ) (hp : 1 ≤ p) (e : ℤ) (he : ∀ j, some e = some j → j ≤ 0) : (binary p hp (some e) he).Gradual := by
  rintro x ⟨m, i, -, hi, rfl⟩ y ⟨m', i', -, hi', rfl⟩ hxy
  obtain ⟨k, hk⟩ := pow_mul_int (hi e rfl) m
  obtain ⟨k', hk'⟩ := pow_mul_int (hi' e rfl) m'
  rw [hk, hk'] at hxy ⊢
  have hpos := pow_pos' e
  have h1 : k < k' := by
    have := lt_of_mul_lt_mul_right hxy hpos.le
    exact_mod_cast this
  have h2 : (1 : ℝ) ≤ (k' : ℝ) - k := by
    have : (1 : ℤ) ≤ k' - k := by omega
    exact_mod_cast this
  refine lt_of_lt_of_le hpos ?_
  refine le_round (z := 2 ^ e) (φ := binary p hp (some e) he) ⟨1, e, ?_, fun j hj => ?_, by simp⟩ ?_
  · simpa using one_le_pow₀ (M₀ := ℤ) (by norm_num : (1 : ℤ) ≤ 2)
  · cases hj; exact le_rfl
  · nlinarith

theorem gradual_of_noUnderflow (h : φ.NoUnderflow) : φ.Gradual := fun x _ y _ hxy => h _ (by linarith)

section search
variable {n k : Nat} {X : Type} {S : Solver (Num φ) n k X}

theorem num_sub_ne (hG : φ.Gradual) {a b : Num φ} (h : a < b) : b - a ≠ 0 := by
  intro hc
  have h1 := hG _ a.val_mem _ b.val_mem (lt_iff.mp h)
  rw [← val_sub, hc, val_zero] at h1
  exact lt_irrefl _ h1

theorem num_interp_total (hG : φ.Gradual) (hM : IsLibrary S.method) (hf : ∀ t y, ∃ f, S.rhs t y = .ok f)
    {t : Num φ} {s : St (Num φ) n k X} (h1 : s.cache.ts (Buffer.iOld k) ≤ t) (h2 : t ≤ s.t) :
    ∃ r s', (S.interpAt t).run s = some (.ok r, s') := by
  have hdiv : ∀ a b : Num φ, b ≠ 0 → ∃ x, pyDiv a b = .ok x := fun a b hb => ⟨_, by
    unfold pyDiv; rw [if_neg (by simpa using hb)]⟩
  have hermite : ∃ r s', (hermiteInterp t : Py (St (Num φ) n k X) _).run s = some (.ok r, s') := by
    rw [hermiteInterp_run]
    split
    · exact ⟨_, _, rfl⟩
    · rename_i hne
      simp only [beq_iff_eq] at hne
      have hlt := lt_of_le_of_ne h1 (Ne.symm hne)
      obtain ⟨x, hx⟩ := hdiv (t - s.cache.ts (Buffer.iOld k)) (s.cache.t - s.cache.ts (Buffer.iOld k))
        (num_sub_ne hG (lt_of_lt_of_le hlt h2))
      rw [hx]
      exact ⟨_, _, rfl⟩
  obtain ⟨M, rhs, b⟩ := S
  rcases hM with hM | ⟨lib, o, ex, hM⟩
  · cases hM with
    | explicitMultistep c => exact hermite
    | implicitMultistep lib zo c => exact hermite
    | erk T => exact hermite
  · cases hM with
    | fsal c =>
      change ∃ r s', (rkInterp c.P t).run s = _
      rw [rkInterp_run]
      split
      · exact ⟨_, _, rfl⟩
      · split
        · exact ⟨_, _, rfl⟩
        · rename_i hne' hne
          simp only [beq_iff_eq] at hne
          have hlt := lt_of_le_of_ne h1 (Ne.symm hne)
          obtain ⟨x, hx⟩ := hdiv (t - s.cache.ts (Buffer.iPrev 0))
            (s.cache.ts (Buffer.iLast 0) - s.cache.ts (Buffer.iPrev 0)) (num_sub_ne hG (lt_of_lt_of_le hlt h2))
          simp only [hx]
          exact ⟨_, _, rfl⟩
    | dop853 c =>
      change ∃ r s', (dopInterp c.toDopDense rhs t).run s = _
      rw [dopInterp_run]
      split
      · exact ⟨_, _, rfl⟩
      · split
        · exact ⟨_, _, rfl⟩
        · rename_i hne' hne
          simp only [beq_iff_eq] at hne
          have hlt := lt_of_le_of_ne h1 (Ne.symm hne)
          obtain ⟨x, hx⟩ := hdiv (t - s.cache.ts (Buffer.iPrev 0))
            (s.cache.ts (Buffer.iLast 0) - s.cache.ts (Buffer.iPrev 0)) (num_sub_ne hG (lt_of_lt_of_le hlt h2))
          split
          · simp only [andThen_ok, hx]
            exact ⟨_, _, rfl⟩
          · rcases dopUpdate_run c.toDopDense rhs s with ⟨Kx, -, hu⟩ | ⟨hno, -⟩
            · rw [hu]
              simp only [andThen_ok, setItp, hx]
              exact ⟨_, _, rfl⟩
            · exact absurd (dopStages_exist c.toDopDense rhs hf _ _ _ _) hno

theorem num_bisectLoop_total {σ : Type} {fn : Num φ → Py σ (Num φ)} {I : σ → Prop} {lo hi : Num φ} {F : Num φ → Num φ → Prop}
    (hF : Steady fn I lo hi F) (ht : ∀ x s, lo ≤ x → x ≤ hi → I s → ∃ v s', (fn x).run s = some (.ok v, s')) (tol rtol : Num φ)
    (m : Nat) :
    ∀ left yl right mid s, lo ≤ left → left ≤ right → right ≤ hi → (m = 0 → mid ≠ none) → I s →
      ∃ τ s', (bisectLoop fn tol rtol m left yl right mid).run s = some (.ok τ, s') := by
  induction m with
  | zero =>
    intro left yl right mid s _ _ _ h4 _
    cases mid with
    | none => exact absurd rfl (h4 rfl)
    | some x => rw [bisectLoop]; exact ⟨_, _, rfl⟩
  | succ m ih =>
    intro left yl right mid s h1 h2 h3 _ hI
    rw [bisectLoop]
    simp only [run_bind, run_ofExcept, num_two_div, andThen_ok]
    obtain ⟨b1, b2, -⟩ := num_mid h2
    have b3 := h1.trans b1
    have b4 := b2.trans h3
    obtain ⟨v, s1, hv⟩ := ht _ s b3 b4 hI
    rw [hv]
    simp only [andThen_ok, run_ite, run_pure]
    have hI1 := hF.inv _ _ _ _ b3 b4 hI hv
    split
    · exact ⟨_, _, rfl⟩
    · split
      · exact ih _ _ _ _ _ b3 b2 h3 (by simp) hI1
      · exact ih _ _ _ _ _ h1 b1 b4 (by simp) hI1

theorem num_mul_neg {x y : Num φ} (h : NumOpp x y) (h0 : x * y ≠ 0) : x * y < 0 := by
  refine lt_of_le_of_ne ?_ h0
  rw [le_iff, val_mul, val_zero]
  refine round_le φ.zero_mem ?_
  simp only [NumOpp, neg_iff, pos_iff] at h
  rcases h with ⟨h1, h2⟩ | ⟨h1, h2⟩
  · exact mul_nonpos_of_nonpos_of_nonneg h1.le h2.le
  · exact mul_nonpos_of_nonneg_of_nonpos h1.le h2.le

theorem num_bisect_total {σ : Type} {fn : Num φ → Py σ (Num φ)} {I : σ → Prop} {lo hi : Num φ} {F : Num φ → Num φ → Prop}
    (hF : Steady fn I lo hi F) (ht : ∀ x s, lo ≤ x → x ≤ hi → I s → ∃ v s', (fn x).run s = some (.ok v, s'))
    (bo : BisectOpts (Num φ)) (hm : bo.maxiter ≠ 0) (hlt : lo < hi)
    (hopp : ∀ yl yr, F lo yl → F hi yr → yl = 0 ∨ yr = 0 ∨ yl * yr < 0) (s : σ) (hI : I s) :
    ∃ τ s', (bisect fn lo hi bo.tol bo.maxiter bo.rtol).run s = some (.ok τ, s') := by
  unfold bisect
  simp only [run_bind, run_ite, run_throw, run_pure, andThen_error]
  rw [if_neg (by simpa using hlt)]
  obtain ⟨yl, s1, h1⟩ := ht _ s le_rfl hlt.le hI
  have hI1 := hF.inv _ _ _ _ le_rfl hlt.le hI h1
  have hl := hF.val _ _ _ _ le_rfl hlt.le hI h1
  obtain ⟨yr, s2, h2⟩ := ht _ s1 hlt.le le_rfl hI1
  have hI2 := hF.inv _ _ _ _ hlt.le le_rfl hI1 h2
  have hr := hF.val _ _ _ _ hlt.le le_rfl hI1 h2
  rw [h1]
  simp only [andThen_ok, beq_iff_eq]
  split
  · exact ⟨_, _, rfl⟩
  · rename_i hl0
    rw [h2]
    simp only [andThen_ok]
    split
    · exact ⟨_, _, rfl⟩
    · rename_i hr0
      rcases hopp yl yr hl hr with h | h | h
      · exact absurd h hl0
      · exact absurd h hr0
      · rw [if_neg (by simpa using h)]
        exact num_bisectLoop_total hF ht _ _ _ _ _ _ _ _ le_rfl hlt.le le_rfl (fun h => absurd h hm) hI2

theorem num_dense_unique {s : St (Num φ) n k X} {t : Num φ} {y y' : Vec (Num φ) n} (h : DenseAt S s t y) (h' : DenseAt S s t y') :
    y = y' := by
  obtain ⟨r, s1, h1, rfl⟩ := h
  obtain ⟨r', s1', h1', rfl⟩ := h'
  rw [h1] at h1'
  simp only [Option.some.injEq, Prod.mk.injEq, Except.ok.injEq] at h1'
  rw [h1'.1]

/-- The ends of the dense output over the last step. -/
def NumJoined (S : Solver (Num φ) n k X) (e : EventSpec (Num φ) n) (a b : St (Num φ) n k X) : Prop :=
  DenseAt S b a.t a.y ∧ Searchable S e a b

variable {L : Locator (Num φ)}

theorem num_evaluate_total (hG : φ.Gradual) (hM : Forward S) (hf : ∀ t y, ∃ f, S.rhs t y = .ok f) {D : Dense S.method S.rhs}
    {bo : BisectOpts (Num φ)} (hm : bo.maxiter ≠ 0) (hL : Locates bo L)
    {e : EventSpec (Num φ) n} {pts : List (St (Num φ) n k X)} {a b : St (Num φ) n k X} (hab : Stepped D a b) (hj : NumJoined S e a b)
    {ev : Event (Num φ) n k} (hw : Watch S L e pts a ev) {s : St (Num φ) n k X} (hs : At D b s) :
    ∃ r s', (ev.evaluate bo S.interpAt).run s = some (.ok r, s') := by
  have et : s.cache.t = b.t := by show s.cache.t = b.cache.t; rw [hs.1.1]
  have ey : s.cache.y = b.y := by show s.cache.y = b.cache.y; rw [hs.1.1]
  have eval : ev.func s.cache.t s.cache.y = value e b := by rw [hw.func, et, ey]; rfl
  have etrig : triggers ev.direction ev.lastValue (value e b) = true ↔ CrossesOn e a b := by
    rw [hw.direction, hw.lastValue]; exact triggers_iff _ _ _
  have itot : ∀ x s, a.t ≤ x → x ≤ b.t → At D b s → ∃ r s', (S.interpAt x).run s = some (.ok r, s') := by
    intro x s h1 h2 hs
    exact num_interp_total hG hM.library hf (by rw [hs.1.1]; exact hab.old.trans h1) (by rw [same_t hs.1]; exact h2)
  have etot : ∀ x s, a.t ≤ x → x ≤ b.t → At D b s → ∃ v s', (eventAtSol e.func S.interpAt x).run s = some (.ok v, s') := by
    intro x s h1 h2 hs
    obtain ⟨r, s', h⟩ := itot x s h1 h2 hs
    unfold eventAtSol
    rw [run_bind, h]
    exact ⟨_, _, rfl⟩
  have rtot : ∀ root s, a.t ≤ root → root ≤ b.t → At D b s → ∃ ev' s', (recordAt S.interpAt ev root).run s = some (.ok ev', s') := by
    intro root s h1 h2 hs
    unfold recordAt
    split
    · exact ⟨_, _, rfl⟩
    · obtain ⟨r, s', h⟩ := itot root s h1 h2 hs
      rw [run_bind, h]
      exact ⟨_, _, rfl⟩
  rw [evaluate_run, eval]
  by_cases hc : CrossesOn e a b
  · rw [if_pos (etrig.mpr hc)]
    unfold rootOf
    rw [run_ite]
    split
    · obtain ⟨ev', s', h⟩ := rtot s.cache.t s (by rw [et]; exact hab.le) (by rw [et]) hs
      simp only [run_pure, andThen_ok]
      rw [h]
      exact ⟨_, _, rfl⟩
    · have hopp : ∀ yl yr, ValueAt S e b a.t yl → ValueAt S e b b.t yr → yl = 0 ∨ yr = 0 ∨ yl * yr < 0 := by
        rintro yl yr ⟨y1, d1, rfl⟩ hr
        rw [num_dense_unique d1 hj.1]
        have hn := hj.2.negative yr hr
        have hp := hj.2.positive yr hr
        have h0 := hj.2.product yr hr
        have : Upward (value e a) (value e b) ∨ Downward (value e a) (value e b) := by
          unfold CrossesOn Crosses at hc
          revert hc
          rcases e.direction with _ | d
          · exact id
          · intro hc
            rcases hc with h | h | h
            · exact Or.inl h.2
            · exact Or.inr h.2
            · exact h.2
        show value e a = 0 ∨ yr = 0 ∨ value e a * yr < 0
        by_cases ha : value e a = 0
        · exact Or.inl ha
        by_cases hb : yr = 0
        · exact Or.inr (Or.inl hb)
        refine Or.inr (Or.inr (num_mul_neg ?_ (h0 ha hb)))
        unfold NumOpp
        rcases this with h | h
        · have h1 := lt_of_le_of_ne h.1 ha
          refine Or.inl ⟨h1, lt_of_le_of_ne ?_ (Ne.symm hb)⟩
          rw [← not_lt, hn, not_lt]
          exact h.2
        · have h1 := lt_of_le_of_ne h.1 (Ne.symm ha)
          refine Or.inr ⟨h1, lt_of_le_of_ne ?_ hb⟩
          rw [← not_lt, hp, not_lt]
          exact h.2
      obtain ⟨τ, s1, h1⟩ := num_bisect_total (steady_event hM hab e) etot bo hm hj.2.advances hopp s hs
      obtain ⟨h2, h3⟩ := hL (steady_event hM hab e) s _ _ h1 hs
      obtain ⟨h4, h5, -⟩ := h3 τ rfl
      obtain ⟨ev', s', h⟩ := rtot τ s1 h4 h5 h2
      rw [hw.func, hw.lastT, et, h1]
      simp only [andThen_ok]
      rw [h]
      exact ⟨_, _, rfl⟩
  · rw [if_neg (fun h => hc (etrig.mp h))]
    exact ⟨_, _, rfl⟩

theorem num_handlerLoop_total (hG : φ.Gradual) (hM : Forward S) (hf : ∀ t y, ∃ f, S.rhs t y = .ok f) {D : Dense S.method S.rhs}
    {bo : BisectOpts (Num φ)} (hm : bo.maxiter ≠ 0) (hL : Locates bo L)
    {pts : List (St (Num φ) n k X)} {a b : St (Num φ) n k X} (hab : Stepped D a b) {es : List (EventSpec (Num φ) n)}
    {evs : List (Event (Num φ) n k)} (hw : Watches S L es pts a evs) :
    (∀ e ∈ es, NumJoined S e a b) →
    ∀ (term : Bool) (last : Option (Num φ × Ref (Num φ) n k)) (s : St (Num φ) n k X), At D b s →
      ∃ r s', (handlerLoop bo S.interpAt evs term last).run s = some (.ok r, s') := by
  induction hw with
  | nil => intro _ term last s hs; exact ⟨_, _, rfl⟩
  | @cons e ev es evs he hes ih =>
    intro hj term last s hs
    obtain ⟨⟨ev', stop⟩, s1, h1⟩ := num_evaluate_total hG hM hf hm hL hab (hj _ List.mem_cons_self) he hs
    obtain ⟨h2, -⟩ := evaluate_spec hM hL hab he hs h1
    rw [handlerLoop, run_bind, h1, andThen_ok]
    simp only [run_bind]
    generalize (if stop = true then _ else last) = last'
    obtain ⟨⟨evs1, term1, last1⟩, s2, h3⟩ := ih (fun e he => hj e (List.mem_cons_of_mem _ he)) (term || stop) last' s1 h2
    rw [h3]
    exact ⟨_, _, rfl⟩

theorem num_handler_total (hG : φ.Gradual) (hM : Forward S) (hf : ∀ t y, ∃ f, S.rhs t y = .ok f) {D : Dense S.method S.rhs}
    {bo : BisectOpts (Num φ)} (hm : bo.maxiter ≠ 0) (hL : Locates bo L)
    {pts : List (St (Num φ) n k X)} {a b : St (Num φ) n k X} (hab : Stepped D a b) {es : List (EventSpec (Num φ) n)}
    (hj : ∀ e ∈ es, NumJoined S e a b)
    {eh : EventHandler (Num φ) n k} (hw : Watches S L es pts a eh.events) {s : St (Num φ) n k X} (hs : At D b s) :
    ∃ r s', (eh.evaluate bo S.interpAt).run s = some (.ok r, s') := by
  unfold EventHandler.evaluate
  obtain ⟨⟨evs, term, last⟩, s1, h⟩ := num_handlerLoop_total hG hM hf hm hL hab hw hj false eh.lastEvent s hs
  rw [run_bind, h]
  exact ⟨_, _, rfl⟩

/-- Every step from a state of `P` leads to a state of `P` and is joined. -/
def NumJoins (S : Solver (Num φ) n k X) (b : Bound (Num φ)) (es : List (EventSpec (Num φ) n)) (P : St (Num φ) n k X → Prop) : Prop :=
  ∀ a c, P a → Fits b a → Takes S a c → P c ∧ ∀ e ∈ es, NumJoined S e a c

theorem num_advanceEvents_noerr (hG : φ.Gradual) (hM : Forward S) (hf : ∀ t y, ∃ f, S.rhs t y = .ok f) (D : Dense S.method S.rhs)
    (es : List (EventSpec (Num φ) n)) (b : Bound (Num φ)) (ti : Num φ)
    {P : St (Num φ) n k X → Prop} (hJ : NumJoins S b es P) {bo : BisectOpts (Num φ)} (hm : bo.maxiter ≠ 0) (hL : Locates bo L) :
    ∀ eh s r s', (S.advanceEvents bo b ti eh).run s = some (r, s') → ∀ e, r = .error e →
      ∀ pts a, At D a s → Good D a → P a → Watches S L es pts a eh.events → NoTerminal es (pts ++ [a]) →
      ∃ s1 s2, (S.method.body S.rhs).run s1 = some (.error e, s2) := by
  refine advanceEvents.fixpoint_induct S bo b ti
    (fun x => ∀ (eh : EventHandler (Num φ) n k) s r s', (x eh).run s = some (r, s') → ∀ e, r = .error e →
      ∀ pts a, At D a s → Good D a → P a → Watches S L es pts a eh.events → NoTerminal es (pts ++ [a]) →
      ∃ s1 s2, (S.method.body S.rhs).run s1 = some (.error e, s2)) ?_ ?_
  · exact Lean.Order.admissible_pi_apply (fun (eh : EventHandler (Num φ) n k) (x : Py (St (Num φ) n k X) (EventHandler (Num φ) n k × AdvRes)) =>
      ∀ s r s', x.run s = some (r, s') → ∀ e, r = .error e →
      ∀ pts a, At D a s → Good D a → P a → Watches S L es pts a eh.events → NoTerminal es (pts ++ [a]) →
      ∃ s1 s2, (S.method.body S.rhs).run s1 = some (.error e, s2))
      fun eh => admissible_post fun s r s' => ∀ e, r = .error e →
      ∀ pts a, At D a s → Good D a → P a → Watches S L es pts a eh.events → NoTerminal es (pts ++ [a]) →
      ∃ s1 s2, (S.method.body S.rhs).run s1 = some (.error e, s2)
  · intro loop ih eh s r s' h e hr pts a hs ha hP hw hn
    subst hr
    simp only [run_bind, run_ite, run_get, andThen_ok, run_pure] at h
    split at h
    · rw [andThen_eq_error] at h
      rcases h with h | ⟨c, s1, h1, h2⟩
      · exact ⟨_, _, (pstep_error.mp h).2⟩
      · cases c with
        | false => simp at h2
        | true =>
          obtain ⟨hf', ht⟩ := pstep_true.mp h1
          obtain ⟨a1, ht1, hsame⟩ := takes_same D hs.1 ht
          have hab := stepped_takes hM ha ht1
          have hs1 : At D a1 s1 := ⟨hsame, good_step hM hs.2 ht⟩
          obtain ⟨hP1, hj⟩ := hJ _ _ hP ((same_fits hs.1 b).mp hf') ht1
          obtain ⟨⟨eh1, stop⟩, s2, h3⟩ := num_handler_total hG hM hf hm hL hab hj hw hs1
          simp only [if_true] at h2
          rw [h3, andThen_ok] at h2
          obtain ⟨hs2, hp⟩ := handler_spec hM hL hab hw hn hs1 h3
          obtain ⟨g1, g2, g3⟩ := hp eh1 stop rfl
          simp only at h2
          by_cases hstop : stop = true
          · rw [if_pos hstop] at h2
            simp at h2
          · rw [if_neg hstop] at h2
            refine ih eh1 s2 _ s' h2 e rfl (pts ++ [a]) a1 hs2 hab.good hP1 g1 ?_
            rw [List.append_assoc]
            exact noTerminal_snoc.mpr ⟨hn, fun hc => hstop (g2.mpr hc)⟩
    · simp at h

theorem num_joins_path {b : Bound (Num φ)} {es : List (EventSpec (Num φ) n)} {P : St (Num φ) n k X → Prop} (hJ : NumJoins S b es P)
    {a c : St (Num φ) n k X} {l : List (St (Num φ) n k X)} (h : Path S b a l c) (ha : P a) : P c := by
  induction h with
  | nil => exact ha
  | cons hf ht _ ih => exact ih (hJ _ _ ha hf ht).1

theorem num_runEvalEvents_noerr (hG : φ.Gradual) (hM : Forward S) (hf : ∀ t y, ∃ f, S.rhs t y = .ok f) (D : Dense S.method S.rhs)
    (es : List (EventSpec (Num φ) n)) (b : Bound (Num φ))
    {P : St (Num φ) n k X → Prop} (hJ : NumJoins S b es P) {bo : BisectOpts (Num φ)} (hm : bo.maxiter ≠ 0) (hL : Locates bo L)
    {ts : List (Num φ)} (hs : ts.Pairwise (· ≤ ·)) :
    ∀ {eh : EventHandler (Num φ) n k} {s s' : St (Num φ) n k X} {e : Err} {pts : List (St (Num φ) n k X)} {a : St (Num φ) n k X},
      (S.runEvalEvents bo b ts eh).run s = some (.error e, s') →
      At D a s → Good D a → P a → Watches S L es pts a eh.events → NoTerminal es (pts ++ [a]) →
      (∀ u ∈ ts, a.cache.ts (Buffer.iOld k) ≤ u) →
      ∃ s1 s2, (S.method.body S.rhs).run s1 = some (.error e, s2) := by
  induction ts with
  | nil => intro eh s s' e pts a h; rw [runEvalEvents] at h; cases h
  | cons ti rest ih =>
    intro eh s s' e pts a h hA ha hP hw hn h0
    obtain ⟨hs1, hs2⟩ := List.pairwise_cons.mp hs
    rw [runEvalEvents_cons, andThen_eq_error] at h
    rcases h with h | ⟨⟨eh1, res⟩, s1, h1, h2⟩
    · exact num_advanceEvents_noerr hG hM hf D es b ti hJ hm hL _ _ _ _ h e rfl pts a hA ha hP hw hn
    · obtain ⟨l, c, pts', p1, p2, p3, p4, p5, p6⟩ :=
        advanceEvents_post hM D hL es b ti _ _ _ _ h1 eh1 res rfl pts a hA ha hw hn
      cases res with
      | refused => simp at h2
      | terminated =>
        obtain ⟨l0, p, q1, q2, q3, q4, q5, i, τ, q, q6, q7, q8⟩ := p6
        simp [q6] at h2
      | reached =>
        obtain ⟨hr, hn1⟩ := p6
        have h01 := old_reach hM hr ha (h0 ti List.mem_cons_self)
        obtain ⟨r, s2, h3⟩ := num_interp_total (S := S) hG hM.library hf (t := ti) (s := s1) (by rw [p3.1.1]; exact h01)
          (by rw [same_t p3.1]; exact not_lt.mp (reach_not_lt hr))
        simp only [h3, andThen_ok] at h2
        rw [andThen_eq_error] at h2
        rcases h2 with h2 | ⟨_, _, _, h2⟩
        · exact ih hs2 h2 (at_interp hM h3 p3) p4 (num_joins_path hJ p1 hP) p5 hn1 fun u hu => h01.trans (hs1 u hu)
        · simp at h2

end search
end Nbkode
