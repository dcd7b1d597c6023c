import Verif.Spec.Module
import Verif.Spec.Rename

/-
What an editor does with text edits, and what a document looks like after a rename.
-/

namespace HyperIR.Spec

/-- `Replaced o old changes new`: the text `old`, which starts at offset `o`, turns into `new` by replacing the ranges of the changes,
which are listed in source order, by the given texts. -/
inductive Replaced : Nat → Str → List (Span × Str) → Str → Prop
  | done {o text} : Replaced o text [] text
  | change {o a w rest cs rest' v} : Replaced (o + a.length + w.length) rest cs rest' →
      Replaced o (a ++ w ++ rest) (({ start := o + a.length, stop := o + a.length + w.length }, v) :: cs) (a ++ v ++ rest')

/-- The text after the edits have been applied, all at once: the edits, brought into source order, replace the text at their ranges. -/
def Applied (text : Str) (edits : List TextEdit) (text' : Str) : Prop :=
  ∃ changes sorted, sorted.Perm edits ∧
    Each (fun (c : Span × Str) (e : TextEdit) => EditorRange text c.1 e.range ∧ e.newText = c.2) changes sorted ∧ Replaced 0 text changes text'

/-- The token of a symbol of the kind with the name. -/
def nameToken : SymbolKind → Str → Token
  | .globalVar, n => .globalName n
  | .function, n => .globalName n
  | .dbgAnnotation, n => .debugRef n
  | .localVar, n => .localName n
  | .label, n => .ident n

/-- The tokens after a rename of the symbol of `o`: the tokens that are occurrences of the symbol carry the new name, all others are
the same. -/
def TokensRenamed (res : ParserResult) (o : SymbolOccurrence) (name : Str) (toks toks' : List (Spanned Token)) : Prop :=
  Each (fun t t' => ((∃ o', Occurs res.tokens res.stmts o' ∧ SameSymbol o' o ∧ o'.span = t.2) ∧ t'.1 = nameToken o.symbolKind name) ∨
    ((∀ o', Occurs res.tokens res.stmts o' → SameSymbol o' o → o'.span ≠ t.2) ∧ t'.1 = t.1)) toks toks'

/-- Nothing but the name is in the range of the occurrence: there is no unrecognizable text directly in front of the name, which would
count as part of the range. -/
def Bare (o : SymbolOccurrence) : Prop := o.span.stop = o.span.start + o.name.length

/-- No symbol in the scope of the symbol of `o` carries the name: for parameters, variables and labels the scope is the function, all other
symbols share one scope. -/
def Fresh (res : ParserResult) (o : SymbolOccurrence) (name : Str) : Prop :=
  ∀ o', Occurs res.tokens res.stmts o' → o'.name = name → o'.funcBodyId ≠ o.funcBodyId

/-- A label that cannot be confused with the words that make up instructions. -/
def PlainLabel (n : Str) : Prop :=
  n ∉ [c!"switch", c!"phi", c!"cont", c!"overflow", c!"default", c!"label", c!"depends", c!"on"] ∧ ¬ IsBr n

/-- After a rename of the symbol of `o`, the names of the document refer to the same things as before: there is one occurrence for each
occurrence before, in the same order, of the same kind, role and scope; those of the symbol carry the new name and the others their old
one; and two of them belong to the same symbol exactly if they did before. -/
def SameReferences (res : ParserResult) (o : SymbolOccurrence) (name : Str) (res' : ParserResult) : Prop :=
  ∃ m : SymbolOccurrence → SymbolOccurrence,
    (∀ o', Occurs res'.tokens res'.stmts o' ↔ ∃ o1, Occurs res.tokens res.stmts o1 ∧ o' = m o1) ∧
    (∀ o1, (m o1).symbolKind = o1.symbolKind ∧ (m o1).useDef = o1.useDef ∧ (m o1).funcBodyId = o1.funcBodyId) ∧
    (∀ o1, Occurs res.tokens res.stmts o1 → (SameSymbol o1 o → (m o1).name = name) ∧ (¬ SameSymbol o1 o → (m o1).name = o1.name)) ∧
    ∀ o1 o2, Occurs res.tokens res.stmts o1 → Occurs res.tokens res.stmts o2 →
      (SameSymbol (m o1) (m o2) ↔ SameSymbol o1 o2) ∧ ((m o1).span.start < (m o2).span.start ↔ o1.span.start < o2.span.start)

/-- After the renames of the occurrences, given by the relation between occurrences and new names, the names of the document refer to the
same things as before: there is one occurrence for each occurrence before, in the same order, of the same kind, role and scope; the renamed
ones carry the new names and the others their old ones; and two of them belong to the same symbol exactly if they did before. -/
def ReferencesKept (res : ParserResult) (renamed : SymbolOccurrence → Str → Prop) (res' : ParserResult) : Prop :=
  ∃ m : SymbolOccurrence → SymbolOccurrence,
    (∀ o', Occurs res'.tokens res'.stmts o' ↔ ∃ o1, Occurs res.tokens res.stmts o1 ∧ o' = m o1) ∧
    (∀ o1, (m o1).symbolKind = o1.symbolKind ∧ (m o1).useDef = o1.useDef ∧ (m o1).funcBodyId = o1.funcBodyId) ∧
    (∀ o1, Occurs res.tokens res.stmts o1 → (∀ v, renamed o1 v → (m o1).name = v) ∧ ((∀ v, ¬ renamed o1 v) → (m o1).name = o1.name)) ∧
    ∀ o1 o2, Occurs res.tokens res.stmts o1 → Occurs res.tokens res.stmts o2 →
      (SameSymbol (m o1) (m o2) ↔ SameSymbol o1 o2) ∧ ((m o1).span.start < (m o2).span.start ↔ o1.span.start < o2.span.start)

section
variable [Unicode]

/-- The occurrences that a shift renames, and the new names: those of the kind and scope of `o` with a number of `start` or more. -/
def Shifted (o : SymbolOccurrence) (start : Nat) (k : Int) (o' : SymbolOccurrence) (new : Str) : Prop :=
  SameScope o' o ∧ Shifts start k o'.name new

/-- A shift that can be carried out without changing the meaning: the numbers fit; numbers are written without leading zeros; no symbol in
the scope has a number in the gap between the old and the new numbers; no shifted name stands for both a function and a global variable; no
new name belongs to a symbol of another kind; no new label is a type; there is no unrecognizable text directly in front of a shifted name. -/
structure ShiftSafe (res : ParserResult) (o : SymbolOccurrence) (start : Nat) (k : Int) : Prop where
  fits : ShiftFits res o start k
  canonical : ∀ o' pre nr, Occurs res.tokens res.stmts o' → SameScope o' o → Numbered o'.name pre nr → ∃ w, o'.name = pre ++ w ∧ Canonical w nr
  gap : ∀ o' pre (nr : Nat), Occurs res.tokens res.stmts o' → SameScope o' o → Numbered o'.name pre nr → start + k ≤ nr → start ≤ nr
  clear : ∀ o' new, Occurs res.tokens res.stmts o' → Shifted o start k o' new → ¬ Ambiguous res.stmts o'.name
  other : ∀ o' new, Occurs res.tokens res.stmts o' → Shifted o start k o' new →
    ∀ o'', Occurs res.tokens res.stmts o'' → o''.name = new → o''.symbolKind = o.symbolKind
  keyword : o.symbolKind = .label → ∀ o' new, Occurs res.tokens res.stmts o' → Shifted o start k o' new → new ∉ keywordTypes
  bare : ∀ o' new, Occurs res.tokens res.stmts o' → Shifted o start k o' new → Bare o'

end

end HyperIR.Spec
