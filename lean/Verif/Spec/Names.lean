import Verif.Spec.Layout
import Verif.Spec.Symbols

/-
Texts that differ in the names of variables, functions, annotations and labels: what they have in common.
-/

namespace HyperIR.Spec

/-- A label (of a block, or as the target of a branch) stands at this place. -/
def LabelAt (ss : List Statement) (sp : Span) : Prop := ∃ o ∈ docOccs 0 ss, o.symbolKind = .label ∧ o.span = sp

/-- The same token, wherever it is, or two names of the same sort.  Identifiers are names where a label stands (`L`). -/
inductive SameButName (L : Span → Prop) : Tok → Tok → Prop
  | same {t sp sp'} : SameButName L (t, sp) (t, sp')
  | globalName {n n' sp sp'} : SameButName L (.globalName n, sp) (.globalName n', sp')
  | localName {n n' sp sp'} : SameButName L (.localName n, sp) (.localName n', sp')
  | debugRef {n n' sp sp'} : SameButName L (.debugRef n, sp) (.debugRef n', sp')
  | label {n n' sp sp'} : L sp → SameButName L (.ident n, sp) (.ident n', sp')

/-! ### Statements without their names and places -/

def blank {α : Type} (x : α) : Spanned α := (x, ⟨0, 0⟩)
def nameless (_ : Spanned Str) : Spanned Str := blank []

/-- The instruction keeps its mnemonic. -/
def namelessInstr (i : Instruction) : Instruction :=
  { assignmentTarget := i.assignmentTarget.map nameless, instruction := blank i.instruction.1, basicBlockRefs := i.basicBlockRefs.map nameless,
    dbgRef := i.dbgRef.map nameless, span := ⟨0, 0⟩ }

def namelessBlock (b : BasicBlock) : BasicBlock :=
  { label := b.label.map nameless, labelCommaSpan := b.labelCommaSpan.map fun _ => ⟨0, 0⟩, instructions := b.instructions.map namelessInstr, span := ⟨0, 0⟩ }

/-- The signature keeps its modifiers and types. -/
def namelessSig (s : FuncSignature) : FuncSignature :=
  { modifiers := s.modifiers.map fun m => blank m.1, retType := blank s.retType.1, name := nameless s.name,
    args := s.args.map fun a => { type_ := blank a.type_.1, name := nameless a.name } }

/-- Any name is as good as another. -/
def namelessTok (t : Tok) : Tok :=
  match t.1 with
  | .globalName _ => blank (.globalName [])
  | .localName _ => blank (.localName [])
  | .debugRef _ => blank (.debugRef [])
  | t => blank t

/-- The statement keeps everything but names and places: what it is, modifiers, types, addresses, blocks and instructions, and the values. -/
def namelessStmt : Statement → Statement
  | .globalVar n d => .globalVar (nameless n) (d.map namelessTok)
  | .funcDecl s a d => .funcDecl (namelessSig s) (a.map fun x => blank x.1) (d.map nameless)
  | .funcDef _ s b => .funcDef ⟨0, 0⟩ (namelessSig s) { openingBracket := ⟨0, 0⟩, closingBracket := ⟨0, 0⟩, basicBlocks := b.basicBlocks.map namelessBlock }
  | .funcDependencies n ds => .funcDependencies (nameless n) (ds.map nameless)
  | .dbgAnnotation n d => .dbgAnnotation (nameless n) (d.map namelessTok)

/-- The same occurrence but for the name: at the same token, of the same kind, role and scope. -/
def SameMention (c c' : List Tok) (o o' : SymbolOccurrence) : Prop :=
  o'.symbolKind = o.symbolKind ∧ o'.useDef = o.useDef ∧ o'.funcBodyId = o.funcBodyId ∧
  ∃ (k : Nat) (t t' : Tok), c[k]? = some t ∧ c'[k]? = some t' ∧ o.span = t.2 ∧ o'.span = t'.2

end HyperIR.Spec
