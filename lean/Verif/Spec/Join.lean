import Verif.Spec.Below
import Verif.Spec.Agreement
import Verif.Spec.Symbols
import Verif.Spec.Compose
import Verif.Spec.Diagnostics

/-
Two documents put one after the other: which of their symbols become one, and where the parts of the whole stand.
-/

namespace HyperIR

/-- Both are global symbols (debug annotations, or functions and global variables) of the same name. -/
def Spec.SameGlobal (o o' : SymbolOccurrence) : Prop :=
  o.funcBodyId = none ∧ o'.funcBodyId = none ∧ o.name = o'.name ∧ (o.symbolKind = .dbgAnnotation ↔ o'.symbolKind = .dbgAnnotation)

namespace Spec

/-- The position stands on the occurrence of a symbol. -/
def StandsOn (text : Str) (res : ParserResult) (p : Pos) (o : SymbolOccurrence) : Prop :=
  ∃ off, LspOffset text p off ∧ Occurs res.tokens res.stmts o ∧ Covers o.span off

/-- `Above A n B`: the text `A` is empty or ends with a line feed, so that what follows starts at line `n`; both texts are plain, and the
whole is small enough for positions in 32 bits. -/
structure Above (A : Str) (n : Nat) (B : Str) : Prop where
  plain : Plain A
  plainB : Plain B
  ends : A = [] ∨ ∃ l, A = l ++ ['\n']
  last : LspLine A n A.length []
  size : (A ++ B).length < 2 ^ 32

/-- What is found from a position: the range of the symbol (prepared for a rename), its references, its declarations and its definitions
in the document.  (The links to definitions in other files lead to the start of a line.) -/
structure Found [Unicode] (env : Env) (st : ServerState) (uri : Str) (p : Pos) (r : Range) (refs decls defs : List Location) : Prop where
  prepare : prepareRename st uri p = some r
  references : references env st uri p = .ok (some refs)
  declarations : gotoDeclaration env st uri p = .ok (some (decls.map fun l => ⟨r, l⟩))
  definitions : gotoDefinition env st uri p = .panic ∨
    ∃ elsewhere, gotoDefinition env st uri p = .ok (some ((defs ++ elsewhere).map fun l => ⟨r, l⟩)) ∧ ∀ l ∈ elsewhere, LineStart l.range
  inside : ∀ l ∈ refs ++ decls ++ defs, l.uri = uri ∧ l.range.start ≠ l.range.stop

/-- Two rename requests have the same answer, with the edits changed by `f`, up to their order. -/
inductive RenamedAs (uri : Str) (f : TextEdit → TextEdit) :
    Outcome (Except RpcError WorkspaceEdit) → Outcome (Except RpcError WorkspaceEdit) → Prop
  | panic : RenamedAs uri f .panic .panic
  | error {e} : RenamedAs uri f (.ok (.error e)) (.ok (.error e))
  | edits {a b : List TextEdit} : b.Perm (a.map f) → RenamedAs uri f (.ok (.ok [(uri, a)])) (.ok (.ok [(uri, b)]))

/-- A rename request in the whole has the answers from the two parts, with the edits of the second moved by `n` lines. -/
inductive RenamedBoth (uri : Str) (n : Nat) :
    Outcome (Except RpcError WorkspaceEdit) → Outcome (Except RpcError WorkspaceEdit) → Outcome (Except RpcError WorkspaceEdit) → Prop
  | panic : RenamedBoth uri n .panic .panic .panic
  | error {e} : RenamedBoth uri n (.ok (.error e)) (.ok (.error e)) (.ok (.error e))
  | edits {a b c : List TextEdit} : c.Perm (a ++ b.map (lowerEdit n)) →
      RenamedBoth uri n (.ok (.ok [(uri, a)])) (.ok (.ok [(uri, b)])) (.ok (.ok [(uri, c)]))

/-- No instruction of `ss` refers to an annotation of `ss'`. -/
def NoRefs (ss ss' : List Statement) : Prop :=
  ∀ i ∈ instructions ss, ∀ r, i.dbgRef = some r → ∀ n d, .dbgAnnotation n d ∈ ss' → n.1 ≠ r.1

/-- The document declares or defines a global symbol (function, global variable or annotation) of that name. -/
def Provides (res : ParserResult) (name : Str) : Prop :=
  ∃ o, Occurs res.tokens res.stmts o ∧ o.funcBodyId = none ∧ o.name = name ∧ o.useDef ≠ .use

/-- The document defines a global symbol of that name. -/
def Defines (res : ParserResult) (name : Str) : Prop :=
  ∃ o, Occurs res.tokens res.stmts o ∧ o.funcBodyId = none ∧ o.name = name ∧ o.useDef = .def_

/-- Neither about an undefined symbol nor about a repeated definition. -/
def otherProblem (d : Diagnostic) : Bool := !(c!"Use of undefined symbol `").isPrefixOf d.message && !(c!"Symbol `").isPrefixOf d.message

end Spec

end HyperIR
