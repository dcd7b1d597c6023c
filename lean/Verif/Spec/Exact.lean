import Verif.Spec.Module
import Verif.Spec.Grammar

/-
The exact grammar of HIR modules over tokens: `DocX ss l` says that the tokens `l` are a module with
the syntax tree `ss`.  It differs from `DocG` (Spec/Grammar.lean) in that it settles which reading an
instruction has: the documented branch, switch and phi forms come first, and everything else is an
instruction without targets.  Independent of the parser; used for property C90.
-/

namespace HyperIR.Spec

/-- The documented instruction forms: mnemonic, branch targets, debug reference, tokens. -/
inductive Documented : Spanned Str → List (Spanned Str) → Option (Spanned Str) → List Tok → Prop
  /-- `br target` -/
  | br {k t d} : Documented (c!"br", k) [t] d ([(.ident c!"br", k), identTok t] ++ dbgToks d)
  /-- `br int1 value, then, else` -/
  | condBr {k i v c t c' e d} : Documented (c!"br", k) [t, e] d
      ([(.ident c!"br", k), (.type c!"int1", i), v, (.punct ',', c), identTok t, (.punct ',', c'),
        identTok e] ++ dbgToks d)
  /-- `…br operands, cont=target, overflow=target` -/
  | overflowBr {m ops c k e t c' k' e' t' d} : IsBr m.1 → Operands c!"cont" ops → Documented m [t, t'] d
      (identTok m :: ops ++ [(.punct ',', c), (.ident c!"cont", k), (.punct '=', e), identTok t,
        (.punct ',', c'), (.ident c!"overflow", k'), (.punct '=', e'), identTok t'] ++ dbgToks d)
  /-- `switch operands, default=target, cases` -/
  | switch {k ops c k' e t c' ts cases d} : Operands c!"default" ops → CommaSep CaseG ts cases →
      Documented (c!"switch", k) (t :: ts) d
      ((.ident c!"switch", k) :: ops ++ [(.punct ',', c), (.ident c!"default", k'), (.punct '=', e),
        identTok t, (.punct ',', c')] ++ cases ++ dbgToks d)
  /-- `phi [label, value], …` -/
  | phi {k ts edges d} : CommaSep EdgeG ts edges →
      Documented (c!"phi", k) ts d ((.ident c!"phi", k) :: edges ++ dbgToks d)

/-- An instruction without its assignment: a documented form, or anything else that is not a label
and has at most one debug reference, at its end. -/
inductive LineX : Spanned Str → List (Spanned Str) → Option (Spanned Str) → List Tok → Prop
  | known {m ts d l} : Documented m ts d l → OneLine l → LineX m ts d l
  | other {m ops d} : (∀ t ∈ ops, t.1 ≠ .newline ∧ ∀ s, t.1 ≠ .debugRef s) →
      ops.head?.map Prod.fst ≠ some (.punct ':') →
      (∀ m' ts d', ¬ Documented m' ts d' (identTok m :: ops ++ dbgToks d)) →
      LineX m [] d (identTok m :: ops ++ dbgToks d)

/-- An instruction and its tokens. -/
def InstrX (i : Instruction) (l : List Tok) : Prop := ∃ asg body, AssignG i.assignmentTarget asg ∧
  LineX i.instruction i.basicBlockRefs i.dbgRef body ∧ l = asg ++ body ∧ i.span = hull l

/-- Instructions, each followed by one or more line ends. -/
inductive InstrsX : List Instruction → List Tok → Prop
  | nil : InstrsX [] []
  | cons {i is l nls l'} : InstrX i l → Newlines nls → nls ≠ [] → InstrsX is l' →
      InstrsX (i :: is) (l ++ nls ++ l')

/-- A labelled block; its range extends from the label to its last instruction. -/
def BlockX (b : BasicBlock) (l : List Tok) : Prop := ∃ label comma nls is,
  Newlines nls ∧ nls ≠ [] ∧ InstrsX b.instructions is ∧
  l = [identTok label, (.punct ':', comma)] ++ nls ++ is ∧
  b.label = some label ∧ b.labelCommaSpan = some comma ∧
  b.span = { start := label.2.start
             stop := match b.instructions.getLast? with
               | some i => i.span.stop
               | none => label.2.stop }

/-- The unlabelled first block; it is not empty. -/
def FirstBlockX (b : BasicBlock) (l : List Tok) : Prop := ∃ f la,
  InstrsX b.instructions l ∧ b.instructions.head? = some f ∧ b.instructions.getLast? = some la ∧
  b.label = none ∧ b.labelCommaSpan = none ∧
  b.span = { start := f.span.start, stop := la.span.stop }

inductive BlocksX : List BasicBlock → List Tok → Prop
  | nil : BlocksX [] []
  | cons {b bs l l'} : BlockX b l → BlocksX bs l' → BlocksX (b :: bs) (l ++ l')

/-- All blocks of a function, the first of which may be unlabelled. -/
inductive AllBlocksX : List BasicBlock → List Tok → Prop
  | labelled {bs l} : BlocksX bs l → AllBlocksX bs l
  | unlabelled {b bs l l'} : FirstBlockX b l → BlocksX bs l' → AllBlocksX (b :: bs) (l ++ l')

/-- `{ newline blocks }` -/
def BodyX (b : FuncBody) (l : List Tok) : Prop := ∃ nls bl,
  Newlines nls ∧ nls ≠ [] ∧ AllBlocksX b.basicBlocks bl ∧
  l = (.punct '{', b.openingBracket) :: nls ++ bl ++ [(.punct '}', b.closingBracket)]

/-- A statement and its tokens (without the line end behind it). -/
inductive StmtX : Statement → List Tok → Prop
  | funcDef {k s sl b bl} : SigG s sl → BodyX b bl → StmtX (.funcDef k s b) ((.define, k) :: sl ++ bl)
  | plain {s l} : (∀ k sg b, s ≠ .funcDef k sg b) → StmtG s l → StmtX s l

/-- Statements the given tokens may follow on the same line: dependencies, if the tokens do not go on
with their list. -/
def Continues : Statement → List Tok → Prop
  | .funcDependencies _ ds, l => ds = [] → ∀ x sp r, l ≠ (.globalName x, sp) :: r
  | _, _ => False

/-- Statements, each followed by line ends (the last one possibly by none). -/
inductive StmtsX : List Statement → List Tok → Prop
  | nil : StmtsX [] []
  | cons {s ss l nls l'} : StmtX s l → Newlines nls → (nls = [] → l' = [] ∨ Continues s l') →
      StmtsX ss l' → StmtsX (s :: ss) (l ++ nls ++ l')

/-- A document: line ends, then statements.  A document of line ends alone is not one. -/
def DocX (ss : List Statement) (l : List Tok) : Prop := ∃ nls body,
  Newlines nls ∧ StmtsX ss body ∧ l = nls ++ body ∧ (ss = [] → nls = [])

/-- No line begins or ends with a comma, and none begins with `label =`: the tokens that make the
parser read past the end of a line. -/
def Unglued (l : List Tok) : Prop :=
  (∀ a c nl b, l ≠ a ++ (.punct ',', c) :: (.newline, nl) :: b) ∧
  (∀ a nl c b, l ≠ a ++ (.newline, nl) :: (.punct ',', c) :: b) ∧
  (∀ a nl k e b, l ≠ a ++ (.newline, nl) :: (.ident c!"label", k) :: (.punct '=', e) :: b)

end HyperIR.Spec
