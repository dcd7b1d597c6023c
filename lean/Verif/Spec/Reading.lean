import Verif.Spec.Stretches
import Verif.Spec.Flow
import Verif.Spec.Unread

/-
How tokens are read, whatever they are (property C98): the grammar of `Spec/Exact.lean` without any
restriction on the tokens.  Some instruction forms go on behind the end of a line, so it depends on the
tokens behind an instruction which form it has; every relation below therefore mentions the tokens `r` that
follow.  It also lists where mnemonics are reported as errors although their statement is read (`odd`).
Independent of the parser.
-/

namespace HyperIR.Spec

/-- `mnemonic operands, cont=target, overflow=target` with any mnemonic. -/
def OverflowForm (m : Spanned Str) (ts : List (Spanned Str)) (d : Option (Spanned Str)) (l : List Tok) : Prop :=
  ∃ ops c k e t c' k' e' t', Operands c!"cont" ops ∧ ts = [t, t'] ∧
    l = identTok m :: ops ++ [(.punct ',', c), (.ident c!"cont", k), (.punct '=', e), identTok t,
      (.punct ',', c'), (.ident c!"overflow", k'), (.punct '=', e'), identTok t'] ++ dbgToks d

/-- One line that is not a label and has at most one debug reference, at its end. -/
def OtherForm (m : Spanned Str) (d : Option (Spanned Str)) (l : List Tok) : Prop :=
  ∃ ops, (∀ t ∈ ops, t.1 ≠ .newline ∧ ∀ s, t.1 ≠ .debugRef s) ∧
    ops.head?.map Prod.fst ≠ some (.punct ':') ∧ l = identTok m :: ops ++ dbgToks d

/-- The tokens begin with one of the documented forms and the end of a line. -/
def StartsDocumented (s : List Tok) : Prop :=
  ∃ m ts d l nl r, Documented m ts d l ∧ s = l ++ (.newline, nl) :: r

/-- The tokens begin with some instruction that fits on one line. -/
def StartsOther (s : List Tok) : Prop := ∃ m d l nl r, OtherForm m d l ∧ s = l ++ (.newline, nl) :: r

/-- `LineAt m ts d odd l r`: the tokens `l`, followed by `r`, are an instruction without assignment: one of the
documented forms; if none of them fits, anything on one line; if that does not fit either, the targets
`cont=…, overflow=…` behind a mnemonic that is none of a branch, which is reported. -/
inductive LineAt : Spanned Str → List (Spanned Str) → Option (Spanned Str) → List Span →
    List Tok → List Tok → Prop
  | known {m ts d l r} : Documented m ts d l → LineAt m ts d [] l r
  | other {m d l r} : OtherForm m d l → ¬ StartsDocumented (l ++ r) → LineAt m [] d [] l r
  | odd {m ts d l r} : OverflowForm m ts d l → ¬ StartsDocumented (l ++ r) → ¬ StartsOther (l ++ r) →
      LineAt m ts d [m.2] l r

/-- An instruction. -/
def InstrAt (i : Instruction) (odd : List Span) (l r : List Tok) : Prop := ∃ asg body,
  AssignG i.assignmentTarget asg ∧ LineAt i.instruction i.basicBlockRefs i.dbgRef odd body r ∧ l = asg ++ body ∧
  i.span = hull l

/-- Instructions, each followed by one or more line ends. -/
inductive InstrsAt : List Instruction → List Span → List Tok → List Tok → Prop
  | nil {r} : InstrsAt [] [] [] r
  | cons {i is o o' l nls l' r} : InstrAt i o l (nls ++ (l' ++ r)) → Newlines nls → nls ≠ [] →
      InstrsAt is o' l' r → InstrsAt (i :: is) (o ++ o') (l ++ nls ++ l') r

/-- A labelled block. -/
def BlockAt (b : BasicBlock) (odd : List Span) (l r : List Tok) : Prop := ∃ label comma nls is,
  Newlines nls ∧ nls ≠ [] ∧ InstrsAt b.instructions odd is r ∧
  l = [identTok label, (.punct ':', comma)] ++ nls ++ is ∧
  b.label = some label ∧ b.labelCommaSpan = some comma ∧
  b.span = { start := label.2.start
             stop := match b.instructions.getLast? with
               | some i => i.span.stop
               | none => label.2.stop }

/-- The unlabelled first block; it is not empty. -/
def FirstBlockAt (b : BasicBlock) (odd : List Span) (l r : List Tok) : Prop := ∃ f la,
  InstrsAt b.instructions odd l r ∧ b.instructions.head? = some f ∧ b.instructions.getLast? = some la ∧
  b.label = none ∧ b.labelCommaSpan = none ∧
  b.span = { start := f.span.start, stop := la.span.stop }

inductive BlocksAt : List BasicBlock → List Span → List Tok → List Tok → Prop
  | nil {r} : BlocksAt [] [] [] r
  | cons {b bs o o' l l' r} : BlockAt b o l (l' ++ r) → BlocksAt bs o' l' r → BlocksAt (b :: bs) (o ++ o') (l ++ l') r

/-- All blocks of a function, the first of which may be unlabelled. -/
inductive AllBlocksAt : List BasicBlock → List Span → List Tok → List Tok → Prop
  | labelled {bs o l r} : BlocksAt bs o l r → AllBlocksAt bs o l r
  | unlabelled {b bs o o' l l' r} : FirstBlockAt b o l (l' ++ r) → BlocksAt bs o' l' r →
      AllBlocksAt (b :: bs) (o ++ o') (l ++ l') r

/-- `{ newline blocks }` -/
def BodyAt (b : FuncBody) (odd : List Span) (l r : List Tok) : Prop := ∃ nls bl,
  Newlines nls ∧ nls ≠ [] ∧ AllBlocksAt b.basicBlocks odd bl ((.punct '}', b.closingBracket) :: r) ∧
  l = (.punct '{', b.openingBracket) :: nls ++ bl ++ [(.punct '}', b.closingBracket)]

/-- A statement (without the line end behind it). -/
inductive StmtAt : Statement → List Span → List Tok → List Tok → Prop
  | funcDef {k s sl b o bl r} : SigG s sl → BodyAt b o bl r → StmtAt (.funcDef k s b) o ((.define, k) :: sl ++ bl) r
  | plain {s l r} : (∀ k sg b, s ≠ .funcDef k sg b) → StmtG s l → StmtAt s [] l r

/-- The tokens `l` are the statement `x` with all the line ends around it; `r` is what follows. -/
def ReadAt (x : Statement) (odd : List Span) (l r : List Tok) : Prop := ∃ nls body nls',
  Newlines nls ∧ StmtAt x odd body (nls' ++ r) ∧ Newlines nls' ∧ l = nls ++ body ++ nls' ∧
  (nls' = [] → StmtEnds x r) ∧ ∀ sp r', r ≠ (.newline, sp) :: r'

/-- No statement starts anywhere in `g`, where `r` follows. -/
def BarrenAt (g r : List Tok) : Prop :=
  g ≠ [] ∧ ∀ a b, g = a ++ b → b ≠ [] → ∀ x o l r', b ++ r = l ++ r' → ¬ ReadAt x o l r'

/-- `Layout ss odd gs whole l`: read from the front, the tokens `l` consist of the statements `ss`, with
unreadable stretches before, between and behind them; `gs` are the tokens from the start of each stretch on;
`whole` says that there is no stretch behind the last statement; `odd` are the places of the mnemonics reported within the
statements. -/
inductive Layout : List Statement → List Span → List (List Tok) → Bool → List Tok → Prop
  | done : Layout [] [] [] true []
  | lost {g} : BarrenAt g [] → Layout [] [] [g] false g
  | stmt {x ss o o' gs w l r} : ReadAt x o l r → Layout ss o' gs w r → Layout (x :: ss) (o ++ o') gs w (l ++ r)
  | skip {x ss o o' gs w g l r} : BarrenAt g (l ++ r) → ReadAt x o l r → Layout ss o' gs w r →
      Layout (x :: ss) (o ++ o') ((g ++ (l ++ r)) :: gs) w (g ++ (l ++ r))

/-- The message about a mnemonic that is none of a branch. -/
def oddMessage : Str := c!"Instruction is not a overflow-branch instruction."

/-- The error reported for a mnemonic at the given place. -/
def oddError (sp : Span) : SErr := { span := sp, reason := .custom oddMessage, expected := [], found := none }

/-- The messages about a token of the wrong kind. -/
def kindMessages : List Str :=
  [c!"expected function modifier", c!"expected global name", c!"expected local name", c!"expected type name",
   c!"expected dbgref", c!"expected a hexadecimal number"]

/-- The error says that the end of the text is unexpected and is located there (given in bytes), or it is
located at one of the tokens and says that this token is unexpected or of the wrong kind. -/
def LocatedIn (n : Nat) (g : List Tok) (e : SErr) : Prop :=
  (e.span = { start := n, stop := n + 1 } ∧ e.reason = .unexpected ∧ e.found = none) ∨
  ∃ t ∈ g, e.span = t.2 ∧ ((e.reason = .unexpected ∧ e.found = some t.1.display) ∨ ∃ m ∈ kindMessages, e.reason = .custom m)

/-- The errors that are not about mnemonics. -/
def syntaxErrors (es : List SErr) : List SErr := es.filter fun e => !decide (e.reason = .custom oddMessage)

/-- `ReadsAs text res`: what is read of a text.  Either it consists of tokens (with unrecognizable text
before some of them, at the places `ps`); then the statements are those of the layout of these tokens if no unreadable
stretch follows the last of them, and none otherwise; there is one error for each piece of unrecognizable text,
telling its place and its first character, one for each unreadable stretch, located at a token behind its start or at the
end of the text, and one for each mnemonic (further errors about mnemonics may occur within unreadable stretches).
Or there is unrecognizable text at the end, or nothing but blanks; then no tokens and statements are read, and
the errors are those about the unrecognizable text, or one at the end. -/
def ReadsAs [Unicode] (text : Str) (res : ParserResult) : Prop :=
  (∃ ps ss odd gs w lexical others, LexesSkip 0 text res.tokens ps ∧ (res.tokens ≠ [] ∨ text = []) ∧
    Layout ss odd gs w (res.tokens.filter fun t => decide (t.1 ≠ Token.comment)) ∧ res.stmts = (if w then ss else []) ∧
    res.errors = lexical ++ others ∧ Each (LexErrorAt text) ps lexical ∧
    (odd.map oddError).Sublist others ∧
    (gs = [] → others = odd.map oddError) ∧
    Each (fun err g => LocatedIn (utf8Len text) g err) (syntaxErrors others) gs) ∨
  (res.tokens = [] ∧ res.stmts = [] ∧
    ((∃ ps, LexesLost 0 text ps ∧ Each (LexErrorAt text) ps res.errors) ∨
      (Blank text ∧ text ≠ [] ∧ ∃ e, res.errors = [e] ∧ e.span = { start := text.length, stop := text.length } ∧
        e.reason = .unexpected ∧ e.found = none)))

end HyperIR.Spec
