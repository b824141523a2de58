import Verif.Proofs.RegistryInv

/-! # The registry after `import nbkode` -/

set_option autoImplicit false
set_option linter.unusedSectionVars false

namespace Nbkode
open Spec Registry

namespace Demo
variable {κ ℓ : Type} [DecidableEq ℓ]

/-- Execute class statements that all succeed. -/
def importAll (lower : κ → ℓ) : List (SolverClass κ) → Registry κ ℓ → Option (Registry κ ℓ)
  | [], r => some r
  | c :: cs, r => match (defineSolver lower c false).run r with
    | some (.ok (), r') => importAll lower cs r'
    | _ => none

/-- The history of such an import. -/
def okHistory (cs : List (SolverClass κ)) : List (Stmt κ) := cs.map fun c => ⟨c, false, .ok ()⟩

theorem accepted_okHistory (cs : List (SolverClass κ)) : accepted (okHistory cs) = cs := by
  induction cs with
  | nil => rfl
  | cons c cs ih =>
    show c :: accepted (okHistory cs) = _
    rw [ih]

theorem imported_importAll {lower : κ → ℓ} {h : List (Stmt κ)} {cs : List (SolverClass κ)}
    {r r' : Registry κ ℓ} (hi : Imported lower h r) (hr : importAll lower cs r = some r') :
    Imported lower (h ++ okHistory cs) r' := by
  induction cs generalizing h r with
  | nil =>
    cases hr
    simpa [okHistory] using hi
  | cons c cs ih =>
    simp only [importAll] at hr
    split at hr
    · rename_i r'' hrun
      have := ih (hi.define hrun) hr
      simpa [okHistory] using this
    · cases hr

/-- `str.lower`, as the list of characters of the result. -/
def low (s : String) : List Char := s.toList.map Char.toLower

/-- The solver classes of the package. -/
def packageSolvers : List (SolverClass String) :=
  packageClasses.zipIdx.map fun d => d.1.toClass d.2

/-- The registry after `import nbkode`. -/
def packageRegistry : Registry String (List Char) :=
  (importAll low packageSolvers Registry.empty).getD Registry.empty

theorem import_package :
    importAll low packageSolvers Registry.empty = some packageRegistry := by
  have h : (importAll low packageSolvers Registry.empty).isSome = true := by
    decide +kernel
  obtain ⟨r, hr⟩ := Option.isSome_iff_exists.1 h
  rw [packageRegistry, hr]
  rfl

theorem imported_package :
    Imported low (okHistory packageSolvers) packageRegistry := by
  simpa using imported_importAll Imported.start import_package

attribute [irreducible] packageRegistry

theorem mem_packageSolvers (i : Nat) (hi : i < packageClasses.length) :
    packageClasses[i].toClass i ∈ packageSolvers := by
  rw [packageSolvers, List.mem_map]
  exact ⟨(packageClasses[i], i), List.mk_mem_zipIdx_iff_getElem?.2 (List.getElem?_eq_getElem hi),
    rfl⟩

attribute [irreducible] packageSolvers

/-- `class MyEuler(ForwardEuler): pass`: the class inherits `ALIASES = ("Euler",)`
(`nbkode/euler.py:25`). -/
def myEuler : SolverClass String := { packageClasses[10].toClass 26 with name := "MyEuler" }

/-- The same class under another name, with aliases of its own. -/
def fineEuler : SolverClass String :=
  { packageClasses[10].toClass 27 with name := "FineEuler", aliases := ["fe", "fineE"] }

/-- A class whose author forgot `GROUP`. -/
def orphan : SolverClass String :=
  { packageClasses[10].toClass 28 with name := "Orphan", aliases := [], group := none }

end Demo
end Nbkode
