import Verif.Spec.Edits

/-
Renaming a symbol to a name that another symbol already has.
-/

namespace HyperIR.Spec

/-- Occurrences of the symbol of `o`, and of the symbol of the same kind and scope with the given name. -/
def Involved (o : SymbolOccurrence) (name : Str) (x : SymbolOccurrence) : Prop := SameSymbol x o ∨ (SameScope x o ∧ x.name = name)

/-- After a rename of the symbol of `o` to a name that may be in use, the document has one occurrence for each occurrence before, in the same
order, of the same kind, role and scope; those of the symbol carry the new name and the others their old one.  The symbol and the one that had
the name already are now one; apart from that, two occurrences belong to the same symbol exactly if they did before. -/
def ReferencesJoined (res : ParserResult) (o : SymbolOccurrence) (name : Str) (res' : ParserResult) (m : SymbolOccurrence → SymbolOccurrence) : Prop :=
  (∀ o', Occurs res'.tokens res'.stmts o' ↔ ∃ o1, Occurs res.tokens res.stmts o1 ∧ o' = m o1) ∧
  (∀ o1, (m o1).symbolKind = o1.symbolKind ∧ (m o1).useDef = o1.useDef ∧ (m o1).funcBodyId = o1.funcBodyId) ∧
  (∀ o1, Occurs res.tokens res.stmts o1 → (SameSymbol o1 o → (m o1).name = name) ∧ (¬ SameSymbol o1 o → (m o1).name = o1.name)) ∧
  ∀ o1 o2, Occurs res.tokens res.stmts o1 → Occurs res.tokens res.stmts o2 →
    (SameSymbol (m o1) (m o2) ↔ SameSymbol o1 o2 ∨ (Involved o name o1 ∧ Involved o name o2)) ∧
    ((m o1).span.start < (m o2).span.start ↔ o1.span.start < o2.span.start)

end HyperIR.Spec
