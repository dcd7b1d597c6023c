import Verif.Model.Parser

/-
Grammar of HIR modules over tokens, independent of the parser combinators: which token sequences
denote which syntax tree.  All names and ranges of a tree are those of its tokens.
-/

namespace HyperIR.Spec

/-- A token with its range. -/
abbrev Tok := Spanned Token

def identTok (x : Spanned Str) : Tok := (.ident x.1, x.2)
def localTok (x : Spanned Str) : Tok := (.localName x.1, x.2)
def globalTok (x : Spanned Str) : Tok := (.globalName x.1, x.2)
def typeTok (x : Spanned Str) : Tok := (.type x.1, x.2)
def modTok (x : Spanned Str) : Tok := (.funcModifier x.1, x.2)
def dbgTok (x : Spanned Str) : Tok := (.debugRef x.1, x.2)
def hexTok (x : Spanned Str) : Tok := (.hexNum x.1, x.2)

/-- An optional debug reference. -/
def dbgToks : Option (Spanned Str) → List Tok
  | none => []
  | some d => [dbgTok d]

/-- Only line ends. -/
def Newlines (l : List Tok) : Prop := ∀ t ∈ l, t.1 = .newline

/-- The range from the first to the last token. -/
def hull (l : List Tok) : Span :=
  { start := match l.head? with | some t => t.2.start | none => 0
    stop := match l.getLast? with | some t => t.2.stop | none => 0 }

/-- A comma separated list. -/
inductive CommaSep {α : Type} (G : α → List Tok → Prop) : List α → List Tok → Prop
  | nil : CommaSep G [] []
  | one {x l} : G x l → CommaSep G [x] l
  | cons {x l sp y ys l'} : G x l → CommaSep G (y :: ys) l' →
      CommaSep G (x :: y :: ys) (l ++ (.punct ',', sp) :: l')

/-! ### Functions -/

def ArgG (a : FuncArg) (l : List Tok) : Prop := l = [typeTok a.type_, localTok a.name]

/-- `modifiers type @name(args)` -/
def SigG (s : FuncSignature) (l : List Tok) : Prop := ∃ o args c, CommaSep ArgG s.args args ∧
  l = s.modifiers.map modTok ++ [typeTok s.retType, globalTok s.name, (.punct '(', o)] ++ args
    ++ [(.punct ')', c)]

/-! ### Instructions -/

/-- Operands up to `, kw`: no line end, and no comma that is followed by `kw`. -/
inductive Operands (kw : Str) : List Tok → Prop
  | nil : Operands kw []
  | tok {t l} : t.1 ≠ .punct ',' → t.1 ≠ .newline → Operands kw l → Operands kw (t :: l)
  | comma {c t l} : t.1 ≠ .ident kw → Operands kw l → Operands kw ((.punct ',', c) :: t :: l)

/-- `type value label=target` -/
def CaseG (target : Spanned Str) (l : List Tok) : Prop := ∃ ty v k e,
  l = [typeTok ty, v, (.ident c!"label", k), (.punct '=', e), identTok target]

/-- `[label, value…]` -/
def EdgeG (label : Spanned Str) (l : List Tok) : Prop := ∃ o c vs e,
  (∀ t ∈ vs, t.1 ≠ .punct ']' ∧ t.1 ≠ .newline) ∧
  l = [(.punct '[', o), identTok label, (.punct ',', c)] ++ vs ++ [(.punct ']', e)]

/-- An instruction without its assignment: mnemonic, branch targets, debug reference, tokens. -/
inductive BodyForm : Spanned Str → List (Spanned Str) → Option (Spanned Str) → List Tok → Prop
  /-- `br target` -/
  | br {k t d} : BodyForm (c!"br", k) [t] d ([(.ident c!"br", k), identTok t] ++ dbgToks d)
  /-- `br int1 value, then, else` -/
  | condBr {k i v c t c' e d} : BodyForm (c!"br", k) [t, e] d
      ([(.ident c!"br", k), (.type c!"int1", i), v, (.punct ',', c), identTok t, (.punct ',', c'),
        identTok e] ++ dbgToks d)
  /-- `m operands, cont=target, overflow=target` -/
  | overflowBr {m ops c k e t c' k' e' t' d} : Operands c!"cont" ops → BodyForm m [t, t'] d
      (identTok m :: ops ++ [(.punct ',', c), (.ident c!"cont", k), (.punct '=', e), identTok t,
        (.punct ',', c'), (.ident c!"overflow", k'), (.punct '=', e'), identTok t'] ++ dbgToks d)
  /-- `switch operands, default=target, cases` -/
  | switch {k ops c k' e t c' ts cases d} : Operands c!"default" ops → CommaSep CaseG ts cases →
      BodyForm (c!"switch", k) (t :: ts) d
      ((.ident c!"switch", k) :: ops ++ [(.punct ',', c), (.ident c!"default", k'), (.punct '=', e),
        identTok t, (.punct ',', c')] ++ cases ++ dbgToks d)
  /-- `phi [label, value], …` -/
  | phi {k ts edges d} : CommaSep EdgeG ts edges →
      BodyForm (c!"phi", k) ts d ((.ident c!"phi", k) :: edges ++ dbgToks d)
  /-- any other instruction: no targets are extracted -/
  | other {m ops d} : (∀ t ∈ ops, t.1 ≠ .newline ∧ ∀ s, t.1 ≠ .debugRef s) →
      ops.head?.map Prod.fst ≠ some (.punct ':') →
      BodyForm m [] d (identTok m :: ops ++ dbgToks d)

/-- An optional assignment `type %name =`. -/
inductive AssignG : Option (Spanned Str) → List Tok → Prop
  | none : AssignG none []
  | some {ty n e} : AssignG (some n) [typeTok ty, localTok n, (.punct '=', e)]

/-- An instruction and its tokens. -/
def InstrG (i : Instruction) (l : List Tok) : Prop := ∃ asg body, AssignG i.assignmentTarget asg ∧
  BodyForm i.instruction i.basicBlockRefs i.dbgRef body ∧ l = asg ++ body ∧ i.span = hull l

/-- Instructions, each on lines of its own. -/
inductive InstrsG : List Instruction → List Tok → Prop
  | nil : InstrsG [] []
  | cons {i is nls l nls' l'} : Newlines nls → InstrG i l → Newlines nls' → nls' ≠ [] → InstrsG is l' →
      InstrsG (i :: is) (nls ++ l ++ nls' ++ l')

/-! ### Blocks and bodies -/

/-- A labelled block; its range extends from the label to its last instruction. -/
def BlockG (b : BasicBlock) (l : List Tok) : Prop := ∃ label comma nls is,
  Newlines nls ∧ nls ≠ [] ∧ InstrsG b.instructions is ∧
  l = [identTok label, (.punct ':', comma)] ++ nls ++ is ∧
  b.label = some label ∧ b.labelCommaSpan = some comma ∧
  b.span = { start := label.2.start
             stop := match b.instructions.getLast? with
               | some i => i.span.stop
               | none => label.2.stop }

/-- The unlabelled first block; it is not empty. -/
def FirstBlockG (b : BasicBlock) (l : List Tok) : Prop := ∃ f la,
  InstrsG b.instructions l ∧ b.instructions.head? = some f ∧ b.instructions.getLast? = some la ∧
  b.label = none ∧ b.labelCommaSpan = none ∧
  b.span = { start := f.span.start, stop := la.span.stop }

inductive BlocksG : List BasicBlock → List Tok → Prop
  | nil : BlocksG [] []
  | cons {b bs l l'} : BlockG b l → BlocksG bs l' → BlocksG (b :: bs) (l ++ l')

/-- All blocks of a function, the first of which may be unlabelled. -/
inductive AllBlocksG : List BasicBlock → List Tok → Prop
  | labelled {bs l} : BlocksG bs l → AllBlocksG bs l
  | unlabelled {b bs l l'} : FirstBlockG b l → BlocksG bs l' → AllBlocksG (b :: bs) (l ++ l')

/-- `{ newline blocks }` -/
def BodyG (b : FuncBody) (l : List Tok) : Prop := ∃ nls bl,
  Newlines nls ∧ nls ≠ [] ∧ AllBlocksG b.basicBlocks bl ∧
  l = (.punct '{', b.openingBracket) :: nls ++ bl ++ [(.punct '}', b.closingBracket)]

/-! ### Statements -/

/-- Tokens other than line ends. -/
def OneLine (l : List Tok) : Prop := ∀ t ∈ l, t.1 ≠ .newline

/-- A statement and its tokens (without the line end behind it). -/
inductive StmtG : Statement → List Tok → Prop
  | globalVar {n e d} : OneLine d → StmtG (.globalVar n d) (globalTok n :: (.punct '=', e) :: d)
  | funcDecl {k s sl d} : SigG s sl → StmtG (.funcDecl s none d) ((.declare, k) :: sl ++ dbgToks d)
  | funcDeclAddr {k s sl e a d} : SigG s sl →
      StmtG (.funcDecl s (some a) d) ((.declare, k) :: sl ++ [(.punct '=', e), hexTok a] ++ dbgToks d)
  | funcDef {k s sl b bl} : SigG s sl → BodyG b bl → StmtG (.funcDef k s b) ((.define, k) :: sl ++ bl)
  | funcDependencies {n k k' ds dl} : CommaSep (fun x l => l = [globalTok x]) ds dl →
      StmtG (.funcDependencies n ds) (globalTok n :: (.ident c!"depends", k) :: (.ident c!"on", k') :: dl)
  | dbgAnnotation {n e d} : OneLine d → StmtG (.dbgAnnotation n d) (dbgTok n :: (.punct '=', e) :: d)

/-- Statements that need not be followed by a line end. -/
def Statement.openEnded : Statement → Prop
  | .funcDependencies _ _ => True
  | _ => False

/-- A document: statements, each followed by line ends (the last one possibly by none). -/
inductive DocG : List Statement → List Tok → Prop
  | nil : DocG [] []
  | cons {s ss nls l nls' l'} : Newlines nls → StmtG s l → Newlines nls' →
      (nls' = [] → l' = [] ∨ Statement.openEnded s) → DocG ss l' →
      DocG (s :: ss) (nls ++ l ++ nls' ++ l')

/-- A document with unusable tokens in front of statements. -/
inductive DocSkipG : List Statement → List Tok → Prop
  | nil : DocSkipG [] []
  | cons {s ss g nls l nls' l'} : Newlines nls → StmtG s l → Newlines nls' → DocSkipG ss l' →
      DocSkipG (s :: ss) (g ++ nls ++ l ++ nls' ++ l')

end HyperIR.Spec
