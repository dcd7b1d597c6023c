import Verif.Model.Index
import Verif.Spec.Numbers
import Verif.Spec.Position

/-
Which symbol occurrences a document has, read off its statements and tokens, independent of how the
index is built.
-/

namespace HyperIR.Spec

/-- The entry of a symbol in the index (`{}` if there is none): the symbol is identified by its kind,
the function it is local to (if any) and its name. -/
def entry? (ix : HIRIndex) (k : SymbolKind) (f : Option Nat) (n : Str) : Option UseDefList :=
  match k, f with
  | .globalVar, none => ix.globalVars.get? n
  | .function, none => ix.functions.get? n
  | .dbgAnnotation, none => ix.dbgAnnotations.get? n
  | .label, some i => ix.functionBodies[i]?.bind fun b => b.labels.get? n
  | .localVar, some i => ix.functionBodies[i]?.bind fun b => b.localVars.get? n
  | _, _ => none

/-- The places listed for a symbol in a role. -/
def listed (ix : HIRIndex) (k : SymbolKind) (f : Option Nat) (n : Str) (ud : UseDefKind) : List Span :=
  ((entry? ix k f n).getD {}).get ud

/-- The occurrence is listed in the tables. -/
def Listed (ix : HIRIndex) (o : SymbolOccurrence) : Prop :=
  o.span ∈ listed ix o.symbolKind o.funcBodyId o.name o.useDef

/-- An occurrence of a name. -/
def occ (k : SymbolKind) (ud : UseDefKind) (f : Option Nat) (s : Spanned Str) : SymbolOccurrence :=
  { span := s.2, useDef := ud, symbolKind := k, name := s.1, funcBodyId := f }

/-- Occurrences in an instruction of function number `i`: the assigned variable and the branch targets. -/
def instrOccs (i : Nat) (ins : Instruction) : List SymbolOccurrence :=
  ins.assignmentTarget.toList.map (occ .localVar .def_ (some i)) ++ ins.basicBlockRefs.map (occ .label .use (some i))

/-- Occurrences in a basic block. -/
def blockOccs (i : Nat) (b : BasicBlock) : List SymbolOccurrence :=
  b.label.toList.map (occ .label .def_ (some i)) ++ b.instructions.flatMap (instrOccs i)

/-- Local occurrences of a function definition: its parameters and its body. -/
def funcOccs (i : Nat) (sig : FuncSignature) (body : FuncBody) : List SymbolOccurrence :=
  sig.args.map (fun a => occ .localVar .def_ (some i) a.name) ++ body.basicBlocks.flatMap (blockOccs i)

/-- Declarations and definitions (and branch targets) of a statement. -/
def stmtOccs (i : Nat) : Statement → List SymbolOccurrence
  | .globalVar name _ => [occ .globalVar .def_ none name]
  | .funcDecl sig _ _ => [occ .function .decl none sig.name]
  | .funcDependencies _ _ => []
  | .dbgAnnotation name _ => [occ .dbgAnnotation .def_ none name]
  | .funcDef _ sig body => occ .function .def_ none sig.name :: funcOccs i sig body

/-- Number of function definitions. -/
def funcCount : List Statement → Nat
  | [] => 0
  | .funcDef _ _ _ :: ss => funcCount ss + 1
  | _ :: ss => funcCount ss

/-- Declarations and definitions (and branch targets) of statements, functions numbered from `i`. -/
def docOccs (i : Nat) : List Statement → List SymbolOccurrence
  | [] => []
  | s :: ss => stmtOccs i s ++ docOccs (i + funcCount [s]) ss

/-- The function definitions of the document, in order: name, range from the `define` keyword to the
closing bracket, basic blocks. -/
def docFuncs : List Statement → List (Spanned Str × Span × List BasicBlock)
  | [] => []
  | .funcDef kw sig body :: ss => (sig.name, ⟨kw.start, body.closingBracket.stop⟩, body.basicBlocks) :: docFuncs ss
  | _ :: ss => docFuncs ss

/-- The name is declared or defined as a function. -/
def IsFunction (ss : List Statement) (n : Str) : Prop :=
  ∃ o ∈ docOccs 0 ss, o.symbolKind = .function ∧ o.name = n

/-- The name is defined as a global variable. -/
def IsGlobalVar (ss : List Statement) (n : Str) : Prop :=
  ∃ o ∈ docOccs 0 ss, o.symbolKind = .globalVar ∧ o.name = n

end HyperIR.Spec

namespace HyperIR.Spec

/-- The branches of a block: target and label of the block (unlabelled blocks have none). -/
def blockEdges (b : BasicBlock) : List (Str × Spanned Str) :=
  b.instructions.flatMap fun i => i.basicBlockRefs.flatMap fun r =>
    if i.isBranching then b.label.toList.map fun l => (r.1, l) else []

/-- The symbol occurrence a token stands for, in the role of a use: `@name` is a function if a function of that name is
declared or defined and a global variable otherwise, `%name` belongs to the function definition around it. -/
def tokenUse (isFunction : Str → Bool) (functionAt : Nat → Option Nat) (t : Spanned Token) : Option SymbolOccurrence :=
  match t.1 with
  | .globalName n => some (occ (if isFunction n then .function else .globalVar) .use none (n, t.2))
  | .debugRef n => some (occ .dbgAnnotation .use none (n, t.2))
  | .localName n => (functionAt t.2.start).map fun i => occ .localVar .use (some i) (n, t.2)
  | _ => none

/-- The number of the function definition whose range contains the offset. -/
def functionAt (ss : List Statement) (pos : Nat) : Option Nat :=
  (docFuncs ss).findIdx? fun f => f.2.1.contains pos

end HyperIR.Spec

namespace HyperIR.Spec

/-- The token range is listed for exactly one symbol, in exactly one role, exactly once. -/
def IndexedOnce (ix : HIRIndex) (o : SymbolOccurrence) : Prop :=
  (listed ix o.symbolKind o.funcBodyId o.name o.useDef).count o.span = 1 ∧
  ∀ o', Listed ix o' → o'.span = o.span → o' = o

/-- The role is right: it is the role a statement gives to the token, and a use if no statement does. -/
def RightRole (ss : List Statement) (o : SymbolOccurrence) : Prop :=
  o ∈ docOccs 0 ss ∨ (o.useDef = .use ∧ ∀ o' ∈ docOccs 0 ss, o'.span ≠ o.span)

/-- No name is both a function and a global variable. -/
def NoClash (ss : List Statement) : Prop := ∀ n, ¬ (IsFunction ss n ∧ IsGlobalVar ss n)

/-- The last declaration in `ss` with the debug reference `r` declares the function `n`. -/
def LastDeclares (ss : List Statement) (r n : Str) : Prop :=
  ∃ before sig addr sp after, ss = before ++ .funcDecl sig addr (some (r, sp)) :: after ∧ sig.name.1 = n ∧
    ∀ sig' addr' sp', .funcDecl sig' addr' (some (r, sp')) ∉ after

/-- The definition of a debug annotation is a single string `"file:line"` (with a 32 bit line number, and no other
colon). -/
def IsLocation (def_ : List (Spanned Token)) (d : ExternalDef) : Prop :=
  ∃ sp line, def_ = [(.str (d.filepath ++ ':' :: line), sp)] ∧ ':' ∉ d.filepath ∧ ':' ∉ line ∧
    (Denotes line d.line ∨ ∃ ds, line = '+' :: ds ∧ Denotes ds d.line) ∧ d.line < 2 ^ 32

end HyperIR.Spec

namespace HyperIR.Spec

instance (ss : List Statement) (n : Str) : Decidable (IsFunction ss n) := by unfold IsFunction; infer_instance
instance (ss : List Statement) (n : Str) : Decidable (IsGlobalVar ss n) := by unfold IsGlobalVar; infer_instance

/-- Occurrences of the same symbol. -/
def SameSymbol (o o' : SymbolOccurrence) : Prop :=
  o.symbolKind = o'.symbolKind ∧ o.funcBodyId = o'.funcBodyId ∧ o.name = o'.name

/-- The symbol occurrences of a document: the declarations, definitions and branch targets in its statements, and all other
name tokens as uses. -/
def Occurs (toks : List (Spanned Token)) (ss : List Statement) (o : SymbolOccurrence) : Prop :=
  o ∈ docOccs 0 ss ∨
  (∃ t ∈ toks, tokenUse (fun n => decide (IsFunction ss n)) (functionAt ss) t = some o) ∧
    ¬ ∃ o' ∈ docOccs 0 ss, SameSymbol o' o ∧ o'.span = o.span

/-- The name is both a function and a global variable. -/
def Ambiguous (ss : List Statement) (n : Str) : Prop := IsFunction ss n ∧ IsGlobalVar ss n

/-- A definition of a global variable with the name of a function.  Its name counts as a use of the function, too, and it is this use that
requests at its place are about. -/
def Shadowed (ss : List Statement) (o : SymbolOccurrence) : Prop := o.symbolKind = .globalVar ∧ IsFunction ss o.name

/-- The text is plain up to the end of each occurrence of the symbol of `o`; what follows the last of them is arbitrary. -/
def PlainSymbol (text : Str) (res : ParserResult) (o : SymbolOccurrence) : Prop :=
  ∀ o', Occurs res.tokens res.stmts o' → SameSymbol o' o → PlainTo text o'.span.stop

end HyperIR.Spec
