import Verif.Spec.Dict
import Mathlib.Data.List.Nodup
import Mathlib.Data.List.Pairwise
import Mathlib.Data.List.Perm.Subperm

/-! # Case-insensitive dictionaries refine plain maps -/

set_option autoImplicit false
set_option linter.unusedSectionVars false

namespace Nbkode

namespace ODict
variable {ℓ ν : Type} [DecidableEq ℓ]

theorem get?_eq_some {d : ODict ℓ ν} (hn : (d.map Prod.fst).Nodup) {l : ℓ} {v : ν} :
    d.get? l = some v ↔ (l, v) ∈ d := by
  induction d with
  | nil => simp [get?]
  | cons e d ih =>
    obtain ⟨l', v'⟩ := e
    simp only [List.map_cons, List.nodup_cons] at hn
    by_cases h : l' = l
    · subst h
      simp only [get?, if_true, Option.some.injEq, List.mem_cons, Prod.mk.injEq, true_and]
      constructor
      · intro h; exact Or.inl h.symm
      · rintro (h | h)
        · exact h.symm
        · exact absurd (List.mem_map_of_mem (f := Prod.fst) h) hn.1
    · simp only [get?, if_neg h, ih hn.2, List.mem_cons, Prod.mk.injEq]
      constructor
      · exact Or.inr
      · rintro (h' | h')
        · exact absurd h'.1.symm h
        · exact h'

theorem get?_eq_none {d : ODict ℓ ν} {l : ℓ} : d.get? l = none ↔ l ∉ d.map Prod.fst := by
  induction d with
  | nil => simp [get?]
  | cons e d ih =>
    obtain ⟨l', v'⟩ := e
    by_cases h : l' = l
    · subst h; simp [get?]
    · simp only [get?, if_neg h, ih, List.map_cons, List.mem_cons, not_or]
      exact ⟨fun h' => ⟨fun h'' => h h''.symm, h'⟩, fun h' => h'.2⟩

theorem set_of_notMem {d : ODict ℓ ν} {l : ℓ} {v : ν} (h : l ∉ d.map Prod.fst) :
    d.set l v = d ++ [(l, v)] := by
  induction d with
  | nil => rfl
  | cons e d ih =>
    obtain ⟨l', v'⟩ := e
    simp only [List.map_cons, List.mem_cons, not_or] at h
    simp only [set, if_neg (fun h' => h.1 h'.symm : ¬ l' = l), ih h.2, List.cons_append]

theorem set_of_mem {d : ODict ℓ ν} (hn : (d.map Prod.fst).Nodup) {l : ℓ} {v : ν}
    (h : l ∈ d.map Prod.fst) :
    d.set l v = d.map fun e => if e.1 = l then (l, v) else e := by
  induction d with
  | nil => simp at h
  | cons e d ih =>
    obtain ⟨l', v'⟩ := e
    simp only [List.map_cons, List.nodup_cons] at hn
    by_cases hl : l' = l
    · subst hl
      simp only [set, if_true, List.map_cons, List.cons.injEq, true_and]
      symm
      calc d.map (fun e => if e.1 = l' then (l', v) else e) = d.map id := by
            apply List.map_congr_left
            intro e he
            rw [if_neg]
            · rfl
            · intro h'
              exact hn.1 (h' ▸ List.mem_map_of_mem (f := Prod.fst) he)
        _ = d := List.map_id d
    · simp only [List.map_cons, List.mem_cons] at h
      have h' : l ∈ d.map Prod.fst := by
        rcases h with h | h
        · exact absurd h.symm hl
        · exact h
      simp only [set, if_neg hl, List.map_cons, ih hn.2 h']

theorem erase_eq {d : ODict ℓ ν} (hn : (d.map Prod.fst).Nodup) {l : ℓ} :
    d.erase l = d.filter fun e => decide (e.1 ≠ l) := by
  induction d with
  | nil => rfl
  | cons e d ih =>
    obtain ⟨l', v'⟩ := e
    simp only [List.map_cons, List.nodup_cons] at hn
    by_cases hl : l' = l
    · subst hl
      have : d.filter (fun e => decide (e.1 ≠ l')) = d := by
        rw [List.filter_eq_self]
        intro e he
        simp only [ne_eq, decide_not, Bool.not_eq_true', decide_eq_false_iff_not]
        intro h'
        exact hn.1 (h' ▸ List.mem_map_of_mem (f := Prod.fst) he)
      simp only [erase, if_true]
      rw [List.filter_cons_of_neg (by simp), this]
    · simp [erase, hl, ih hn.2]

end ODict

namespace Spec
variable {κ ℓ ν : Type} [DecidableEq ℓ]

theorem Listing.nodup {m : PlainMap κ ℓ ν} {es : List (ℓ × Entry κ ν)} (h : Listing m es) :
    (es.map Prod.fst).Nodup := by
  obtain ⟨hp, hm⟩ := h
  have key : ∀ a ∈ es, ∀ b ∈ es, a.1 = b.1 → a.2 = b.2 := by
    rintro ⟨l, e⟩ ha ⟨l', e'⟩ hb (h : l = l')
    subst h
    have h1 := (hm _ _).1 ha
    have h2 := (hm _ _).1 hb
    rw [h1] at h2
    exact Option.some.inj h2
  rw [List.Nodup, List.pairwise_map]
  refine hp.imp_of_mem ?_
  intro a b ha hb hlt h
  have := key a ha b hb h
  rw [this] at hlt
  exact absurd hlt (lt_irrefl _)

theorem Listing.unique {m : PlainMap κ ℓ ν} {es es' : List (ℓ × Entry κ ν)} (h : Listing m es)
    (h' : Listing m es') : es = es' := by
  have hmem : ∀ a, a ∈ es ↔ a ∈ es' := fun a => (h.2 a.1 a.2).trans (h'.2 a.1 a.2).symm
  have hn : es.Nodup := h.nodup.of_map
  have hn' : es'.Nodup := h'.nodup.of_map
  have hperm : es.Perm es' := (List.perm_ext_iff_of_nodup hn hn').2 hmem
  exact hperm.eq_of_pairwise (fun a b _ _ h1 h2 => absurd (lt_trans h1 h2) (lt_irrefl _)) h.1 h'.1

/-- The dictionary `d` stores exactly what the plain map `m` knows. -/
def Stores (lower : κ → ℓ) (d : CIDict κ ℓ ν) (m : PlainMap κ ℓ ν) : Prop :=
  ∃ es, Listing m es ∧ (∀ e ∈ es, e.2.since < m.now) ∧ (∀ e ∈ es, e.1 = lower e.2.key) ∧
    d.store = es.map fun e => (e.1, (e.2.key, e.2.value))

variable {lower : κ → ℓ} {d : CIDict κ ℓ ν} {m : PlainMap κ ℓ ν}

theorem stores_empty : Stores lower (CIDict.empty : CIDict κ ℓ ν) PlainMap.empty :=
  ⟨[], ⟨List.Pairwise.nil, by simp [PlainMap.empty]⟩, by simp, by simp, rfl⟩

theorem Stores.nodup (h : Stores lower d m) : (d.store.map Prod.fst).Nodup := by
  obtain ⟨es, hl, -, -, hs⟩ := h
  rw [hs, List.map_map]
  exact hl.nodup

theorem Stores.get? (h : Stores lower d m) (l : ℓ) :
    d.store.get? l = (m.find l).map fun e => (e.key, e.value) := by
  have hn := h.nodup
  obtain ⟨es, hl, -, -, hs⟩ := h
  cases hf : m.find l with
  | none =>
    rw [Option.map_none, ODict.get?_eq_none, hs]
    simp only [List.map_map, List.mem_map, Function.comp, not_exists, not_and]
    rintro ⟨l', e⟩ he rfl
    rw [(hl.2 _ _).1 he] at hf
    cases hf
  | some e =>
    rw [Option.map_some, ODict.get?_eq_some hn, hs]
    exact List.mem_map.2 ⟨(l, e), (hl.2 _ _).2 hf, rfl⟩

theorem Stores.put (h : Stores lower d m) (k : κ) (v : ν) :
    Stores lower (d.setItem lower k v) (m.put (lower k) k v) := by
  have hn := h.nodup
  obtain ⟨es, hl, hb, hk, hs⟩ := h
  set l := lower k with hlk
  have hmaps : d.store.map Prod.fst = es.map Prod.fst := by rw [hs, List.map_map]; rfl
  cases hf : m.find l with
  | none =>
    have hnm : l ∉ es.map Prod.fst := by
      simp only [List.mem_map, not_exists, not_and]
      rintro ⟨l', e⟩ he rfl
      rw [(hl.2 _ _).1 he] at hf
      cases hf
    refine ⟨es ++ [(l, ⟨k, v, m.now⟩)], ⟨?_, ?_⟩, ?_, ?_, ?_⟩
    · rw [List.pairwise_append]
      refine ⟨hl.1, List.pairwise_singleton _ _, ?_⟩
      intro a ha b hb'
      rw [List.mem_singleton] at hb'
      subst hb'
      exact hb a ha
    · intro l' e
      simp only [List.mem_append, List.mem_singleton, Prod.mk.injEq, PlainMap.put, hf]
      by_cases h' : l' = l
      · subst h'
        simp only [if_true, Option.some.injEq, true_and]
        constructor
        · rintro (h'' | h'')
          · exact absurd (List.mem_map_of_mem (f := Prod.fst) h'') hnm
          · exact h''.symm
        · intro h''
          exact Or.inr h''.symm
      · rw [if_neg h', hl.2]
        simp [h']
    · intro e he
      simp only [List.mem_append, List.mem_singleton] at he
      rcases he with he | rfl
      · exact lt_trans (hb e he) (Nat.lt_succ_self _)
      · exact Nat.lt_succ_self _
    · intro e he
      simp only [List.mem_append, List.mem_singleton] at he
      rcases he with he | rfl
      · exact hk e he
      · rfl
    · show d.store.set (lower k) (k, v) = _
      rw [ODict.set_of_notMem (by rw [hmaps]; exact hnm), hs, List.map_append]
      rfl
  | some e₀ =>
    have hmem : (l, e₀) ∈ es := (hl.2 _ _).2 hf
    have hmm : l ∈ es.map Prod.fst := List.mem_map_of_mem (f := Prod.fst) hmem
    let g : ℓ × Entry κ ν → ℓ × Entry κ ν := fun e => if e.1 = l then (l, ⟨k, v, e.2.since⟩) else e
    have hgs : ∀ e, (g e).2.since = e.2.since := by
      intro e; simp only [g]; split <;> rfl
    refine ⟨es.map g, ⟨?_, ?_⟩, ?_, ?_, ?_⟩
    · rw [List.pairwise_map]
      simpa only [hgs] using hl.1
    · intro l' e
      simp only [PlainMap.put, hf, List.mem_map]
      by_cases h' : l' = l
      · rw [if_pos h', h', Option.some.injEq]
        constructor
        · rintro ⟨⟨l'', e'⟩, he', hg⟩
          by_cases h'' : l'' = l
          · have := (hl.2 _ _).1 he'
            rw [h'', hf] at this
            cases this
            simp only [g, if_pos h'', Prod.mk.injEq, true_and] at hg
            exact hg
          · simp only [g, if_neg h'', Prod.mk.injEq] at hg
            exact absurd hg.1 h''
        · rintro rfl
          exact ⟨(l, e₀), hmem, by simp [g]⟩
      · rw [if_neg h', ← hl.2]
        constructor
        · rintro ⟨⟨l'', e'⟩, he', hg⟩
          by_cases h'' : l'' = l
          · simp only [g, if_pos h'', Prod.mk.injEq] at hg
            exact absurd hg.1.symm h'
          · simp only [g, if_neg h''] at hg
            exact hg ▸ he'
        · intro he
          exact ⟨(l', e), he, by simp [g, h']⟩
    · intro e he
      obtain ⟨e', he', rfl⟩ := List.mem_map.1 he
      rw [hgs]
      exact lt_trans (hb e' he') (Nat.lt_succ_self _)
    · intro e he
      obtain ⟨e', he', rfl⟩ := List.mem_map.1 he
      by_cases h'' : e'.1 = l
      · simp only [g, if_pos h'']; exact hlk
      · simp only [g, if_neg h'']; exact hk e' he'
    · show d.store.set (lower k) (k, v) = _
      rw [ODict.set_of_mem hn (by rw [hmaps]; exact hmm), hs, List.map_map, List.map_map]
      apply List.map_congr_left
      intro e he
      by_cases h'' : e.1 = l
      · simp only [Function.comp, g, if_pos h'']; rw [if_pos h'']
      · simp only [Function.comp, g, if_neg h'']; rw [if_neg h'']

theorem Stores.drop (h : Stores lower d m) (l : ℓ) :
    Stores lower ⟨d.store.erase l⟩ (m.drop l) := by
  have hn := h.nodup
  obtain ⟨es, hl, hb, hk, hs⟩ := h
  refine ⟨es.filter fun e => decide (e.1 ≠ l), ⟨hl.1.filter _, ?_⟩, ?_, ?_, ?_⟩
  · intro l' e
    simp only [List.mem_filter, hl.2, PlainMap.drop, decide_eq_true_eq]
    by_cases h' : l' = l
    · simp [h']
    · simp [h']
  · intro e he
    exact hb e (List.mem_of_mem_filter he)
  · intro e he
    exact hk e (List.mem_of_mem_filter he)
  · show d.store.erase l = _
    rw [ODict.erase_eq hn, hs, List.filter_map]
    rfl

theorem Stores.putAll (h : Stores lower d m) (kvs : List (κ × ν)) :
    Stores lower (d.update lower kvs) (m.putAll lower kvs) := by
  induction kvs generalizing d m with
  | nil => exact h
  | cons kv kvs ih => exact ih (h.put kv.1 kv.2)

theorem Stores.getItem (h : Stores lower d m) (k : κ) :
    d.getItem lower k = match m.valueAt (lower k) with
      | some v => .ok v
      | none => .error .keyError := by
  rw [CIDict.getItem, h.get?, PlainMap.valueAt]
  cases m.find (lower k) <;> rfl

theorem mapM_ok {A B : Type} {f : A → Except Err B} {g : A → B} {xs : List A}
    (h : ∀ x ∈ xs, f x = .ok (g x)) : xs.mapM f = .ok (xs.map g) := by
  induction xs with
  | nil => rfl
  | cons x xs ih =>
    rw [List.mapM_cons, h x (List.mem_cons_self ..), ih fun y hy => h y (List.mem_cons_of_mem _ hy)]
    rfl

theorem Stores.iter_getItem (h : Stores lower d m) {es : List (ℓ × Entry κ ν)}
    (hl : Listing m es) {B : Type} (g : κ → ν → B) :
    (d.iter.mapM fun k => do return g k (← d.getItem lower k)) =
      .ok (es.map fun e => g e.2.key e.2.value) := by
  have h0 := h
  obtain ⟨es', hl', hb, hk, hs⟩ := h
  obtain rfl := hl.unique hl'
  rw [CIDict.iter, hs, List.map_map, List.mapM_map]
  refine mapM_ok ?_
  intro e he
  show (do return g e.2.key (← d.getItem lower e.2.key)) = _
  have hv : m.valueAt (lower e.2.key) = some e.2.value := by
    rw [← hk e he, PlainMap.valueAt, (hl.2 e.1 e.2).1 he]; rfl
  rw [h0.getItem, hv]
  rfl

theorem Stores.items (h : Stores lower d m) {es : List (ℓ × Entry κ ν)} (hl : Listing m es) :
    d.items lower = .ok (es.map fun e => (e.2.key, e.2.value)) := h.iter_getItem hl Prod.mk

theorem Stores.values (h : Stores lower d m) {es : List (ℓ × Entry κ ν)} (hl : Listing m es) :
    d.values lower = .ok (es.map fun e => e.2.value) := by
  have := h.iter_getItem hl (fun _ v => v)
  rw [← this, CIDict.values]
  congr 1
  funext k
  cases d.getItem lower k <;> rfl

theorem Stores.iter (h : Stores lower d m) {es : List (ℓ × Entry κ ν)} (hl : Listing m es) :
    d.iter = es.map fun e => e.2.key := by
  obtain ⟨es', hl', hb, hk, hs⟩ := h
  obtain rfl := hl.unique hl'
  rw [CIDict.iter, hs, List.map_map]
  rfl

theorem Stores.lowerItems (h : Stores lower d m) {es : List (ℓ × Entry κ ν)} (hl : Listing m es) :
    d.lowerItems = es.map fun e => (e.1, e.2.value) := by
  obtain ⟨es', hl', hb, hk, hs⟩ := h
  obtain rfl := hl.unique hl'
  rw [CIDict.lowerItems, hs, List.map_map]
  rfl

theorem Stores.len (h : Stores lower d m) {es : List (ℓ × Entry κ ν)} (hl : Listing m es) :
    d.len = es.length := by
  obtain ⟨es', hl', hb, hk, hs⟩ := h
  obtain rfl := hl.unique hl'
  rw [CIDict.len, hs, List.length_map]

theorem Stores.delItem (h : Stores lower d m) (k : κ) :
    d.delItem lower k = match m.valueAt (lower k) with
      | some _ => .ok ⟨d.store.erase (lower k)⟩
      | none => .error .keyError := by
  rw [CIDict.delItem, h.get?, PlainMap.valueAt]
  cases m.find (lower k) <;> rfl

theorem Stores.popitem (h : Stores lower d m) {es : List (ℓ × Entry κ ν)} (hl : Listing m es) :
    (CIDict.popitem lower).run d = match es with
      | [] => some (.error .keyError, d)
      | (l, e) :: _ => some (.ok (e.key, e.value), ⟨d.store.erase l⟩) := by
  have hit := h.iter hl
  cases es with
  | nil =>
    show (match d.iter with
      | [] => (throw Err.keyError : Py (CIDict κ ℓ ν) (κ × ν))
      | k :: _ => _) d = _
    rw [hit]
    rfl
  | cons a es =>
    obtain ⟨l, e⟩ := a
    have hk : l = lower e.key := by
      obtain ⟨es', hl', hb, hk, hs⟩ := h
      obtain rfl := hl.unique hl'
      exact hk (l, e) (List.mem_cons_self ..)
    have hv : m.valueAt (lower e.key) = some e.value := by
      rw [← hk, PlainMap.valueAt, (hl.2 l e).1 (List.mem_cons_self ..)]; rfl
    have h1 := h.getItem e.key
    have h2 := h.delItem e.key
    rw [hv] at h1 h2
    show (match d.iter with
      | [] => (throw Err.keyError : Py (CIDict κ ℓ ν) (κ × ν))
      | k :: _ => do
        let v ← Py.ofExcept (d.getItem lower k)
        let d' ← Py.ofExcept (d.delItem lower k)
        set d'
        return (k, v)) d = _
    rw [hit]
    simp only [List.map_cons]
    rw [h1, h2, hk]
    rfl

theorem Stores.clear (h : Stores lower d m) :
    ∃ d' : CIDict κ ℓ ν, CIDict.clear lower d = some (.ok (), d') ∧ d'.store = [] := by
  obtain ⟨es, hl⟩ : ∃ es, Listing m es := by
    obtain ⟨es, hl, -⟩ := h; exact ⟨es, hl⟩
  induction hlen : es.length generalizing d m es with
  | zero =>
    obtain rfl := List.length_eq_zero_iff.1 hlen
    refine ⟨d, ?_, ?_⟩
    · rw [CIDict.clear, h.popitem hl]
    · obtain ⟨es', hl', -, -, hs⟩ := h
      obtain rfl := hl.unique hl'
      exact hs
  | succ k ih =>
    cases es with
    | nil => simp at hlen
    | cons a es =>
      obtain ⟨l, e⟩ := a
      have hd := h.drop l
      have hl' : Listing (m.drop l) es := by
        have hn := hl.nodup
        rw [List.map_cons, List.nodup_cons] at hn
        refine ⟨(List.pairwise_cons.1 hl.1).2, ?_⟩
        intro l' e'
        have := hl.2 l' e'
        simp only [PlainMap.drop]
        by_cases h' : l' = l
        · subst h'
          rw [if_pos rfl]
          constructor
          · intro h''
            exact absurd (List.mem_map_of_mem (f := Prod.fst) h'') hn.1
          · intro h''; cases h''
        · rw [if_neg h', ← this, List.mem_cons]
          simp [h']
      obtain ⟨d', hc, hs⟩ := ih hd es hl' (by simpa using hlen)
      refine ⟨d', ?_, hs⟩
      rw [CIDict.clear, h.popitem hl]
      exact hc

theorem dictEq_iff [BEq ν] [LawfulBEq ν] {a b : List (ℓ × ν)} (ha : (a.map Prod.fst).Nodup)
    (hb : (b.map Prod.fst).Nodup) :
    CIDict.dictEq a b = true ↔ ∀ l, ODict.get? a l = ODict.get? b l := by
  rw [CIDict.dictEq, Bool.and_eq_true, beq_iff_eq, List.all_eq_true]
  refine Iff.trans (b := a.length = b.length ∧ a ⊆ b) (and_congr_right fun _ => ?_) ?_
  · constructor
    · rintro h ⟨l, v⟩ hx
      have := h _ hx
      simp only at this
      cases hg : ODict.get? b l with
      | none => rw [hg] at this; simp at this
      | some w =>
        rw [hg] at this
        simp only [beq_iff_eq] at this
        subst this
        exact (ODict.get?_eq_some hb).1 hg
    · rintro h ⟨l, v⟩ hx
      have := (ODict.get?_eq_some hb).2 (h hx)
      simp only [this, beq_self_eq_true]
  have hna : a.Nodup := ha.of_map
  have hnb : b.Nodup := hb.of_map
  constructor
  · rintro ⟨hlen, hsub⟩ l
    have hperm : a.Perm b := (List.subperm_of_subset hna hsub).perm_of_length_le hlen.ge
    cases hg : ODict.get? a l with
    | none =>
      symm
      rw [ODict.get?_eq_none] at hg ⊢
      exact fun h => hg ((hperm.map Prod.fst).mem_iff.2 h)
    | some v =>
      symm
      rw [ODict.get?_eq_some ha] at hg
      rw [ODict.get?_eq_some hb]
      exact hperm.mem_iff.1 hg
  · intro h
    have hmem : ∀ x, x ∈ a ↔ x ∈ b := by
      rintro ⟨l, v⟩
      rw [← ODict.get?_eq_some ha, ← ODict.get?_eq_some hb, h]
    have hperm : a.Perm b := (List.perm_ext_iff_of_nodup hna hnb).2 hmem
    exact ⟨hperm.length_eq, fun x hx => hperm.mem_iff.1 hx⟩

theorem Stores.get?_lowerItems (h : Stores lower d m) (l : ℓ) :
    ODict.get? d.lowerItems l = m.valueAt l := by
  have hg := h.get? l
  have hmap : ∀ s : ODict ℓ (κ × ν), ODict.get? (s.map fun e => (e.1, e.2.2)) l
      = (ODict.get? s l).map Prod.snd := by
    intro s
    induction s with
    | nil => rfl
    | cons e s ih =>
      obtain ⟨l', x⟩ := e
      by_cases h' : l' = l
      · simp [ODict.get?, h']
      · simp only [List.map_cons, ODict.get?, if_neg h']
        exact ih
  rw [CIDict.lowerItems, hmap, hg, PlainMap.valueAt]
  cases m.find l <;> rfl

theorem Stores.nodup_lowerItems (h : Stores lower d m) : (d.lowerItems.map Prod.fst).Nodup := by
  have := h.nodup
  rw [CIDict.lowerItems, List.map_map]
  exact this

theorem Stores.eqMapping [BEq ν] [LawfulBEq ν] (h : Stores lower d m) (other : List (κ × ν)) :
    d.eqMapping lower other = true ↔
      ∀ l, m.valueAt l = (PlainMap.empty.putAll lower other : PlainMap κ ℓ ν).valueAt l := by
  have h2 : Stores lower (CIDict.ofPairs lower other : CIDict κ ℓ ν)
      (PlainMap.empty.putAll lower other) := stores_empty.putAll other
  rw [CIDict.eqMapping, dictEq_iff h.nodup_lowerItems h2.nodup_lowerItems]
  simp only [h.get?_lowerItems, h2.get?_lowerItems]

/-- Writing pairs with distinct lower-cased keys that the dictionary does not have appends them. -/
theorem update_fresh {d : CIDict κ ℓ ν} {kvs : List (κ × ν)}
    (hn : (d.store.map Prod.fst ++ kvs.map fun kv => lower kv.1).Nodup) :
    (d.update lower kvs).store = d.store ++ kvs.map fun kv => (lower kv.1, kv) := by
  induction kvs generalizing d with
  | nil => simp [CIDict.update]
  | cons kv kvs ih =>
    have hnot : lower kv.1 ∉ d.store.map Prod.fst := by
      rw [List.map_cons] at hn
      intro h
      exact (List.disjoint_of_nodup_append hn) h (List.mem_cons_self ..)
    have hset : (d.setItem lower kv.1 kv.2).store = d.store ++ [(lower kv.1, kv)] :=
      ODict.set_of_notMem hnot
    have : d.update lower (kv :: kvs) = (d.setItem lower kv.1 kv.2).update lower kvs := rfl
    rw [this, ih (by rw [hset]; simpa using hn), hset]
    simp

theorem Stores.copy_store (h : Stores lower d m) : (d.copy lower).store = d.store := by
  have hn := h.nodup
  obtain ⟨es, hl, hb, hk, hs⟩ := h
  have hlow : (d.store.map fun e => e.2).map (fun kv => lower kv.1) = d.store.map Prod.fst := by
    rw [hs, List.map_map, List.map_map, List.map_map]
    apply List.map_congr_left
    intro e he
    exact (hk e he).symm
  rw [CIDict.copy, CIDict.ofPairs, update_fresh]
  · show [] ++ _ = _
    rw [List.nil_append, hs, List.map_map, List.map_map]
    apply List.map_congr_left
    intro e he
    simp only [Function.comp]
    rw [hk e he]
  · show ([] ++ _ : List ℓ).Nodup
    rw [List.nil_append, hlow]
    exact hn

theorem Stores.copy (h : Stores lower d m) : d.copy lower = d := by
  have := h.copy_store
  cases hd : d.copy lower
  cases d
  rw [hd] at this
  exact congrArg _ this

theorem Stores.eq_self [BEq ν] [LawfulBEq ν] (h : Stores lower d m) {es : List (ℓ × Entry κ ν)}
    (hl : Listing m es) :
    d.eqMapping lower (es.map fun e => (e.2.key, e.2.value)) = true := by
  have hc := h.copy
  have h2 : es.map (fun e => (e.2.key, e.2.value)) = d.store.map fun e => e.2 := by
    obtain ⟨es', hl', -, -, hs⟩ := h
    obtain rfl := hl.unique hl'
    rw [hs, List.map_map]
    rfl
  rw [CIDict.eqMapping, h2]
  change CIDict.dictEq d.lowerItems (d.copy lower).lowerItems = true
  rw [hc, dictEq_iff h.nodup_lowerItems h.nodup_lowerItems]
  exact fun _ => rfl

theorem Stores.exec [BEq ν] [LawfulBEq ν] (h : Stores lower d m) (op : DictOp κ ν) :
    ∃ o d' m', op.exec lower d = some (o, d') ∧ Answers lower op m o m' ∧ Stores lower d' m' := by
  obtain ⟨es, hl⟩ : ∃ es, Listing m es := by
    obtain ⟨es, hl, -⟩ := h; exact ⟨es, hl⟩
  cases op with
  | setItem k v => exact ⟨_, _, _, rfl, ⟨rfl, rfl⟩, h.put k v⟩
  | getItem k =>
    refine ⟨_, _, m, rfl, ⟨rfl, ?_⟩, h⟩
    rw [h.getItem]
    cases m.valueAt (lower k) <;> rfl
  | delItem k =>
    have := h.delItem k
    cases hv : m.valueAt (lower k) with
    | none =>
      rw [hv] at this
      refine ⟨.raises .keyError, d, m, by simp only [DictOp.exec, this], ?_, h⟩
      simp only [Answers, hv, and_self]
    | some v =>
      rw [hv] at this
      refine ⟨.done, _, _, by simp only [DictOp.exec, this], ?_, h.drop (lower k)⟩
      simp only [Answers, hv, and_self]
  | contains k =>
    refine ⟨_, _, m, rfl, ⟨rfl, _, rfl, ?_⟩, h⟩
    rw [CIDict.contains, h.getItem]
    cases m.valueAt (lower k) <;> simp
  | getD k dflt =>
    refine ⟨_, _, m, rfl, ⟨rfl, ?_⟩, h⟩
    rw [CIDict.getD, h.getItem]
    cases m.valueAt (lower k) <;> rfl
  | len => exact ⟨_, _, m, rfl, ⟨rfl, es, hl, by rw [h.len hl]⟩, h⟩
  | iter => exact ⟨_, _, m, rfl, ⟨rfl, es, hl, by rw [h.iter hl]⟩, h⟩
  | items => exact ⟨_, _, m, rfl, ⟨rfl, es, hl, by rw [h.items hl]; rfl⟩, h⟩
  | values => exact ⟨_, _, m, rfl, ⟨rfl, es, hl, by rw [h.values hl]; rfl⟩, h⟩
  | lowerItems => exact ⟨_, _, m, rfl, ⟨rfl, es, hl, by rw [h.lowerItems hl]⟩, h⟩
  | pop k dflt =>
    have h1 := h.getItem k
    have h2 := h.delItem k
    have hrun : (CIDict.pop lower k dflt).run d = (match d.getItem lower k with
      | .ok v => (do
        let d' ← Py.ofExcept (d.delItem lower k)
        set d'
        return v : Py (CIDict κ ℓ ν) ν)
      | .error e => match dflt with
        | none => throw e
        | some v => return v) d := rfl
    cases hv : m.valueAt (lower k) with
    | none =>
      rw [hv] at h1 h2
      rw [h1] at hrun
      cases dflt with
      | none =>
        refine ⟨.raises .keyError, d, m, ?_, ?_, h⟩
        · simp only [DictOp.exec, hrun]; rfl
        · simp only [Answers, hv, and_self]
      | some v =>
        refine ⟨.value v, d, m, ?_, ?_, h⟩
        · simp only [DictOp.exec, hrun]; rfl
        · simp only [Answers, hv, and_self]
    | some v =>
      rw [hv] at h1 h2
      rw [h1] at hrun
      refine ⟨.value v, ⟨d.store.erase (lower k)⟩, _, ?_, ?_, h.drop (lower k)⟩
      · simp only [DictOp.exec, hrun, h2]; rfl
      · simp only [Answers, hv, and_self]
  | popitem =>
    have hp := h.popitem hl
    cases es with
    | nil =>
      refine ⟨.raises .keyError, d, m, ?_, ⟨[], hl, rfl, rfl⟩, h⟩
      simp only [DictOp.exec, hp]; rfl
    | cons a es =>
      obtain ⟨l, e⟩ := a
      refine ⟨.item e.key e.value, _, _, ?_, ⟨_, hl, rfl, rfl⟩, h.drop l⟩
      simp only [DictOp.exec, hp]; rfl
  | setdefault k dflt =>
    have h1 := h.getItem k
    have hrun : (CIDict.setdefault lower k dflt).run d = (match d.getItem lower k with
      | .ok v => (return v : Py (CIDict κ ℓ ν) ν)
      | .error _ => do
        set (d.setItem lower k dflt)
        return dflt) d := rfl
    cases hv : m.valueAt (lower k) with
    | none =>
      rw [hv] at h1
      rw [h1] at hrun
      refine ⟨.value dflt, _, _, ?_, ?_, h.put k dflt⟩
      · simp only [DictOp.exec, hrun]; rfl
      · simp only [Answers, hv, and_self]
    | some v =>
      rw [hv] at h1
      rw [h1] at hrun
      refine ⟨.value v, d, m, ?_, ?_, h⟩
      · simp only [DictOp.exec, hrun]; rfl
      · simp only [Answers, hv, and_self]
  | clear =>
    obtain ⟨d', hc, hs⟩ := h.clear
    refine ⟨.done, d', ⟨fun _ => none, m.now⟩, ?_, ⟨rfl, fun _ => rfl, rfl⟩, ?_⟩
    · simp only [DictOp.exec, hc]; rfl
    · exact ⟨[], ⟨List.Pairwise.nil, by simp⟩, by simp, by simp, hs⟩
  | update kvs => exact ⟨_, _, _, rfl, ⟨rfl, rfl⟩, h.putAll kvs⟩
  | eqMapping other => exact ⟨_, _, m, rfl, ⟨rfl, _, rfl, h.eqMapping other⟩, h⟩
  | copyEq =>
    refine ⟨.flag true, d, m, ?_, ⟨rfl, rfl⟩, h⟩
    simp only [DictOp.exec, h.copy, h.items hl, h.eq_self hl]
  | copyItems =>
    refine ⟨_, _, m, rfl, ⟨rfl, es, hl, ?_⟩, h⟩
    rw [h.copy, h.items hl]; rfl

theorem Stores.execAll [BEq ν] [LawfulBEq ν] (h : Stores lower d m) (ops : List (DictOp κ ν)) :
    ∃ os d' m', DictOp.execAll lower ops d = some (os, d') ∧ Answered lower m ops os m' ∧
      Stores lower d' m' := by
  induction ops generalizing d m with
  | nil => exact ⟨[], d, m, rfl, .nil m, h⟩
  | cons op ops ih =>
    obtain ⟨o, d', m', he, ha, h'⟩ := h.exec op
    obtain ⟨os, d'', m'', he', ha', h''⟩ := ih h'
    exact ⟨o :: os, d'', m'', by simp only [DictOp.execAll, he, he'], .cons ha ha', h''⟩

end Spec
end Nbkode
