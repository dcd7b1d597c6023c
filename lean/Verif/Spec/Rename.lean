import Verif.Model.Server
import Verif.Spec.Flow

/-
Renaming, in terms of the text and its symbol occurrences.
-/

namespace HyperIR.Spec

section
variable [Unicode]

/-- The identifier is numbered: it ends in decimal digits for a number below `2^63`, and what precedes the digits does not end in a
numeric character. -/
def Numbered (id pre : Str) (n : Nat) : Prop :=
  ∃ digits, id = pre ++ digits ∧ Denotes digits n ∧ n < 2 ^ 63 ∧ ∀ c, pre.getLast? = some c → Unicode.numeric c = false

end

/-- Same kind of symbol in the same scope. -/
def SameScope (o o' : SymbolOccurrence) : Prop := o.symbolKind = o'.symbolKind ∧ o.funcBodyId = o'.funcBodyId

/-- The text is plain up to the end of each occurrence of the symbols in the scope of `o`; what follows the last of them is
arbitrary. -/
def PlainScope (text : Str) (res : ParserResult) (o : SymbolOccurrence) : Prop :=
  ∀ o', Occurs res.tokens res.stmts o' → SameScope o' o → PlainTo text o'.span.stop

/-- Edits that give new names to the listed occurrences: one edit per occurrence, at its range. -/
def Renames (text : Str) (changes : List (SymbolOccurrence × Str)) (edits : List TextEdit) : Prop :=
  Each (fun c e => e.newText = c.2 ∧ (PlainTo text c.1.span.stop → EditorRange text c.1.span e.range)) changes edits

/-- The name of an occurrence after the edits have been applied: the new text if one of the edits is at its range. -/
def NameAfter (text : Str) (edits : List TextEdit) (o : SymbolOccurrence) (n : Str) : Prop :=
  (∃ e ∈ edits, EditorRange text o.span e.range ∧ n = e.newText) ∨ ((∀ e ∈ edits, ¬ EditorRange text o.span e.range) ∧ n = o.name)

/-- No two of the ranges overlap. -/
def Disjoint (spans : List Span) : Prop := spans.Pairwise fun a b => a.stop ≤ b.start ∨ b.stop ≤ a.start

/-- Sigil in front of the names of a kind of symbol. -/
def Sigil : SymbolKind → Str → Prop
  | .globalVar, s => s = ['@']
  | .function, s => s = ['@']
  | .dbgAnnotation, s => s = ['!']
  | .localVar, s => s = ['%']
  | .label, s => s = []

/-- A request for a shift by the number: `+n` or `-n`. -/
def ShiftBy (requested : Str) (k : Int) : Prop :=
  ∃ w n, Denotes w n ∧ n < 2 ^ 63 ∧ (requested = '+' :: w ∧ k = n ∨ requested = '-' :: w ∧ k = -n)

/-- A request that is meant as a shift. -/
def Relative (requested : Str) : Prop := ∃ w, requested = '+' :: w ∨ requested = '-' :: w

section
variable [Unicode]

/-- A new name for a symbol of the kind, requested with or without the sigil: the sigil and a non-empty sequence of name
characters, which does not start with a digit (except for debug annotations). -/
def NewName (k : SymbolKind) (requested name : Str) : Prop :=
  ∃ sigil body, Sigil k sigil ∧ (requested = sigil ++ body ∨ requested = body) ∧ name = sigil ++ body ∧ body ≠ [] ∧
    (∀ c ∈ body, NameChar c ∨ c = ':') ∧ (k ≠ .dbgAnnotation → ∀ c, body.head? = some c → Unicode.numeric c = false)

/-- A shift by `k` from the number `start` on turns the name into the new one: the same prefix and the number increased by `k`. -/
def Shifts (start : Nat) (k : Int) (name new : Str) : Prop :=
  ∃ (pre : Str) (nr : Nat) (w : Str) (m : Nat), Numbered name pre nr ∧ start ≤ nr ∧ (m : Int) = nr + k ∧ Canonical w m ∧ new = pre ++ w

/-- The edits shift, among the symbols of the kind and scope of `o`, exactly the occurrences of those numbered `start` or higher. -/
def ShiftEdits (text : Str) (res : ParserResult) (o : SymbolOccurrence) (start : Nat) (k : Int) (edits : List TextEdit) : Prop :=
  ∃ changes, Renames text changes edits ∧ (changes.map Prod.fst).Nodup ∧
    ∀ o' new, (o', new) ∈ changes ↔ Occurs res.tokens res.stmts o' ∧ SameScope o' o ∧ Shifts start k o'.name new

/-- All shifted numbers fit. -/
def ShiftFits (res : ParserResult) (o : SymbolOccurrence) (start : Nat) (k : Int) : Prop :=
  ∀ o' pre nr, Occurs res.tokens res.stmts o' → SameScope o' o → Numbered o'.name pre nr → start ≤ nr → 0 ≤ nr + k ∧ nr + k < 2 ^ 63

end

/-- How the kinds of symbols are called in the title of the shift action. -/
def kindWord : SymbolKind → Str
  | .globalVar => c!"global variable"
  | .function => c!"function"
  | .dbgAnnotation => c!"debug"
  | .label => c!"basic block"
  | .localVar => c!"variable"

end HyperIR.Spec
