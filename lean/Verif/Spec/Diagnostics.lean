import Verif.Model.Diagnostics
import Verif.Spec.Module
import Verif.Spec.Position
import Verif.Spec.Symbols

/-
Which diagnostics a document deserves, in terms of its symbol occurrences and instructions.
-/

namespace HyperIR.Spec

/-- Exactly the `a` with `P a` are reported, each by one diagnostic that says the right thing about it, and no other
diagnostic is of that kind. -/
def ReportsExactly {α : Type} (diags : List Diagnostic) (P : α → Prop) (Says : α → Diagnostic → Prop)
    (Kind : Diagnostic → Prop) : Prop :=
  ∃ reports : List (α × Diagnostic), ∃ others : List Diagnostic,
    diags.Perm (reports.map Prod.snd ++ others) ∧ (∀ d ∈ others, ¬ Kind d) ∧
    (reports.map Prod.fst).Nodup ∧ (∀ a, a ∈ reports.map Prod.fst ↔ P a) ∧ ∀ r ∈ reports, Says r.1 r.2

/-- A use of a symbol that is nowhere declared or defined. -/
def UndefinedUse (toks : List (Spanned Token)) (ss : List Statement) (o : SymbolOccurrence) : Prop :=
  Occurs toks ss o ∧ o.useDef = .use ∧ ∀ o', Occurs toks ss o' → SameSymbol o' o → o'.useDef = .use

/-- `first` is the first definition of the symbol of `o`. -/
def FirstDef (toks : List (Spanned Token)) (ss : List Statement) (first o : SymbolOccurrence) : Prop :=
  (Occurs toks ss first ∧ SameSymbol first o ∧ first.useDef = .def_) ∧
  ∀ o', Occurs toks ss o' → SameSymbol o' o → o'.useDef = .def_ → first.span.start ≤ o'.span.start

/-- A definition of a symbol that has been defined before. -/
def Redefinition (toks : List (Spanned Token)) (ss : List Statement) (o : SymbolOccurrence) : Prop :=
  Occurs toks ss o ∧ o.useDef = .def_ ∧ ¬ FirstDef toks ss o o

/-- The instructions of the document. -/
def instructions (ss : List Statement) : List Instruction :=
  (docFuncs ss).flatMap fun f => f.2.2.flatMap fun b => b.instructions

/-- An instruction that should name basic blocks (its name ends in `br`, or is `switch` or `phi`) but for which no basic
block was recognized. -/
def LacksTargets (i : Instruction) : Prop :=
  (IsBr i.instruction.1 ∨ i.instruction.1 = c!"switch" ∨ i.instruction.1 = c!"phi") ∧ i.basicBlockRefs = []

end HyperIR.Spec
