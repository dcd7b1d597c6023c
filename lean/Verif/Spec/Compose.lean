import Verif.Spec.Lexical
import Verif.Spec.Grammar
import Verif.Spec.Text

/-
Moving a document down: what becomes of its tokens, statements and errors when other text is put in front of it.
-/

namespace HyperIR.Spec

/-- A range `k` characters further down. -/
def movedSpan (k : Nat) (sp : Span) : Span := { start := sp.start + k, stop := sp.stop + k }

def moved {α : Type} (k : Nat) (x : Spanned α) : Spanned α := (x.1, movedSpan k x.2)

def movedInstr (k : Nat) (i : Instruction) : Instruction :=
  { assignmentTarget := i.assignmentTarget.map (moved k), instruction := moved k i.instruction
    basicBlockRefs := i.basicBlockRefs.map (moved k), dbgRef := i.dbgRef.map (moved k), span := movedSpan k i.span }

def movedBlock (k : Nat) (b : BasicBlock) : BasicBlock :=
  { label := b.label.map (moved k), labelCommaSpan := b.labelCommaSpan.map (movedSpan k)
    instructions := b.instructions.map (movedInstr k), span := movedSpan k b.span }

def movedBody (k : Nat) (b : FuncBody) : FuncBody :=
  { openingBracket := movedSpan k b.openingBracket, closingBracket := movedSpan k b.closingBracket
    basicBlocks := b.basicBlocks.map (movedBlock k) }

def movedSig (k : Nat) (s : FuncSignature) : FuncSignature :=
  { modifiers := s.modifiers.map (moved k), retType := moved k s.retType, name := moved k s.name
    args := s.args.map fun a => { type_ := moved k a.type_, name := moved k a.name } }

/-- A statement `k` characters further down. -/
def movedStmt (k : Nat) : Statement → Statement
  | .globalVar n d => .globalVar (moved k n) (d.map (moved k))
  | .funcDecl s a d => .funcDecl (movedSig k s) (a.map (moved k)) (d.map (moved k))
  | .funcDef kw s b => .funcDef (movedSpan k kw) (movedSig k s) (movedBody k b)
  | .funcDependencies n ds => .funcDependencies (moved k n) (ds.map (moved k))
  | .dbgAnnotation n d => .dbgAnnotation (moved k n) (d.map (moved k))

/-- An error `k` characters further down. -/
def movedErr (k : Nat) (e : SErr) : SErr := { e with span := movedSpan k e.span }

/-- `e'` is the error `e` of the document `B`, behind the text `A`: the same message, moved by the characters of `A` (or, for an
error at the end of the document, whose position the parser counts in bytes, by the bytes of `A`). -/
def MovedErr (A B : Str) (e e' : SErr) : Prop :=
  e'.reason = e.reason ∧ e'.expected = e.expected ∧ e'.found = e.found ∧
  (e'.span.start = e.span.start + A.length ∨ utf8Len B ≤ e.span.start ∧ e'.span.start = e.span.start + utf8Len A) ∧
  (e'.span.stop = e.span.stop + A.length ∨ utf8Len B < e.span.stop ∧ e'.span.stop = e.span.stop + utf8Len A)

/-- The text consists of lines with only blanks and comments. -/
inductive CommentLines : Str → Prop
  | nil : CommentLines []
  | blank {b l} : Blank b → CommentLines l → CommentLines (b ++ '\n' :: l)
  | blankCr {b l} : Blank b → CommentLines l → CommentLines (b ++ '\r' :: '\n' :: l)
  | comment {b c l} : Blank b → '\n' ∉ c → CommentLines l → CommentLines (b ++ '#' :: c ++ '\n' :: l)

end HyperIR.Spec
