import Verif.Proofs.Dict

/-! # C51: `CaseInsensitiveDict` is a map on lower-cased keys -/

set_option autoImplicit false
set_option linter.unusedSectionVars false

namespace Nbkode
open Spec

variable {κ ℓ ν : Type} [DecidableEq ℓ] [BEq ν] [LawfulBEq ν]

/-- **C51**. Whatever operations are performed on a new dictionary, and whatever `lower` is, they
terminate and answer what the plain map keyed by lower-cased keys answers. -/
theorem C51_plain_map (lower : κ → ℓ) (ops : List (DictOp κ ν)) :
    ∃ os d m, DictOp.execAll lower ops (CIDict.empty : CIDict κ ℓ ν) = some (os, d) ∧
      Answered lower PlainMap.empty ops os m := by
  obtain ⟨os, d, m, h1, h2, -⟩ := (stores_empty (lower := lower) (κ := κ) (ν := ν)).execAll ops
  exact ⟨os, d, m, h1, h2⟩

omit [BEq ν] [LawfulBEq ν] in
/-- The specification of one operation leaves no choice. -/
theorem answers_unique {lower : κ → ℓ} {op : DictOp κ ν} {m m₁ m₂ : PlainMap κ ℓ ν}
    {o₁ o₂ : DictOut κ ℓ ν} (h₁ : Answers lower op m o₁ m₁) (h₂ : Answers lower op m o₂ m₂) :
    o₁ = o₂ ∧ m₁ = m₂ := by
  have flag : ∀ {p : Prop} {b c : Bool}, (b = true ↔ p) → (c = true ↔ p) → b = c := by
    intro p b c hb hc
    cases b <;> cases c <;> simp_all
  cases op with
  | setItem k v => exact ⟨h₁.1.trans h₂.1.symm, h₁.2.trans h₂.2.symm⟩
  | getItem k =>
    obtain ⟨a₁, b₁⟩ := h₁
    obtain ⟨a₂, b₂⟩ := h₂
    refine ⟨?_, a₁.trans a₂.symm⟩
    revert b₁ b₂
    cases m.valueAt (lower k) <;> exact fun b₁ b₂ => b₁.trans b₂.symm
  | delItem k =>
    simp only [Answers] at h₁ h₂
    revert h₁ h₂
    cases m.valueAt (lower k) <;> exact fun a b => ⟨a.1.trans b.1.symm, a.2.trans b.2.symm⟩
  | contains k =>
    obtain ⟨a₁, b₁, c₁, e₁⟩ := h₁
    obtain ⟨a₂, b₂, c₂, e₂⟩ := h₂
    exact ⟨by rw [c₁, c₂, flag e₁ e₂], a₁.trans a₂.symm⟩
  | getD k dflt =>
    obtain ⟨a₁, b₁⟩ := h₁
    obtain ⟨a₂, b₂⟩ := h₂
    refine ⟨?_, a₁.trans a₂.symm⟩
    revert b₁ b₂
    cases m.valueAt (lower k) <;> exact fun b₁ b₂ => b₁.trans b₂.symm
  | len =>
    obtain ⟨a₁, es, l₁, c₁⟩ := h₁
    obtain ⟨a₂, es', l₂, c₂⟩ := h₂
    obtain rfl := l₁.unique l₂
    exact ⟨c₁.trans c₂.symm, a₁.trans a₂.symm⟩
  | iter =>
    obtain ⟨a₁, es, l₁, c₁⟩ := h₁
    obtain ⟨a₂, es', l₂, c₂⟩ := h₂
    obtain rfl := l₁.unique l₂
    exact ⟨c₁.trans c₂.symm, a₁.trans a₂.symm⟩
  | items =>
    obtain ⟨a₁, es, l₁, c₁⟩ := h₁
    obtain ⟨a₂, es', l₂, c₂⟩ := h₂
    obtain rfl := l₁.unique l₂
    exact ⟨c₁.trans c₂.symm, a₁.trans a₂.symm⟩
  | values =>
    obtain ⟨a₁, es, l₁, c₁⟩ := h₁
    obtain ⟨a₂, es', l₂, c₂⟩ := h₂
    obtain rfl := l₁.unique l₂
    exact ⟨c₁.trans c₂.symm, a₁.trans a₂.symm⟩
  | lowerItems =>
    obtain ⟨a₁, es, l₁, c₁⟩ := h₁
    obtain ⟨a₂, es', l₂, c₂⟩ := h₂
    obtain rfl := l₁.unique l₂
    exact ⟨c₁.trans c₂.symm, a₁.trans a₂.symm⟩
  | pop k dflt =>
    simp only [Answers] at h₁ h₂
    revert h₁ h₂
    cases m.valueAt (lower k) with
    | some v => exact fun a b => ⟨a.1.trans b.1.symm, a.2.trans b.2.symm⟩
    | none => cases dflt <;> exact fun a b => ⟨a.2.trans b.2.symm, a.1.trans b.1.symm⟩
  | popitem =>
    obtain ⟨es, l₁, c₁⟩ := h₁
    obtain ⟨es', l₂, c₂⟩ := h₂
    obtain rfl := l₁.unique l₂
    cases es <;> exact ⟨c₁.1.trans c₂.1.symm, c₁.2.trans c₂.2.symm⟩
  | setdefault k dflt =>
    simp only [Answers] at h₁ h₂
    revert h₁ h₂
    cases m.valueAt (lower k) <;> exact fun a b => ⟨a.1.trans b.1.symm, a.2.trans b.2.symm⟩
  | clear =>
    obtain ⟨a₁, b₁, c₁⟩ := h₁
    obtain ⟨a₂, b₂, c₂⟩ := h₂
    refine ⟨a₁.trans a₂.symm, ?_⟩
    cases m₁
    cases m₂
    simp only [PlainMap.mk.injEq]
    exact ⟨funext fun l => (b₁ l).trans (b₂ l).symm, c₁.trans c₂.symm⟩
  | update kvs => exact ⟨h₁.1.trans h₂.1.symm, h₁.2.trans h₂.2.symm⟩
  | eqMapping other =>
    obtain ⟨a₁, b₁, c₁, e₁⟩ := h₁
    obtain ⟨a₂, b₂, c₂, e₂⟩ := h₂
    exact ⟨by rw [c₁, c₂, flag e₁ e₂], a₁.trans a₂.symm⟩
  | copyEq => exact ⟨h₁.2.trans h₂.2.symm, h₁.1.trans h₂.1.symm⟩
  | copyItems =>
    obtain ⟨a₁, es, l₁, c₁⟩ := h₁
    obtain ⟨a₂, es', l₂, c₂⟩ := h₂
    obtain rfl := l₁.unique l₂
    exact ⟨c₁.trans c₂.symm, a₁.trans a₂.symm⟩

/-- **C51**, the other direction: the answers of the plain map are the only ones the dictionary
gives. -/
theorem C51_only_answers (lower : κ → ℓ) (ops : List (DictOp κ ν)) (os : List (DictOut κ ℓ ν))
    (m : PlainMap κ ℓ ν) (h : Answered lower PlainMap.empty ops os m) :
    ∃ d, DictOp.execAll lower ops (CIDict.empty : CIDict κ ℓ ν) = some (os, d) := by
  obtain ⟨os', d, m', h1, h2⟩ := C51_plain_map lower ops
  have uniq : ∀ {m₀ m₁ m₂ : PlainMap κ ℓ ν} {ops : List (DictOp κ ν)} {os₁ os₂},
      Answered lower m₀ ops os₁ m₁ → Answered lower m₀ ops os₂ m₂ → os₁ = os₂ := by
    intro m₀ m₁ m₂ ops os₁ os₂ ha
    induction ha generalizing os₂ m₂ with
    | nil m => intro hb; cases hb; rfl
    | cons h hs ih =>
      intro hb
      cases hb with
      | cons h' hs' =>
        obtain ⟨rfl, rfl⟩ := answers_unique h h'
        rw [ih hs']
  rw [uniq h h2]
  exact ⟨d, h1⟩

/-- A concrete history for C51: the value is found under another spelling, the last spelling is the one
iterated, overwriting keeps the position and re-inserting after a deletion moves to the end. -/
example : DictOp.execAll String.toLower
    [.setItem "Accept" 1, .setItem "Host" 2, .setItem "aCCEPT" 3, .getItem "ACCEPT", .iter, .len,
      .delItem "accept", .contains "Accept", .setItem "Accept" 4, .items, .delItem "nope",
      .eqMapping [("host", 2), ("ACCEPT", 4)], .popitem]
    (CIDict.empty : CIDict String String Nat) =
    some ([.done, .done, .done, .value 3, .keys ["aCCEPT", "Host"], .number 2,
      .done, .flag false, .done, .items [("Host", 2), ("Accept", 4)], .raises .keyError,
      .flag true, .item "Host" 2], ⟨[("accept", ("Accept", 4))]⟩) := by
  decide +kernel

end Nbkode
