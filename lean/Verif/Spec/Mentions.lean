import Verif.Spec.Grammar
import Verif.Spec.Text

/-
Which tokens a syntax tree mentions, in source order, and what it means for the parts of a tree to be
in source order.
-/

namespace HyperIR.Spec

/-- Tokens mentioned by an argument: its type and its name. -/
def argMentions (a : FuncArg) : List Tok := [typeTok a.type_, localTok a.name]

def sigMentions (s : FuncSignature) : List Tok :=
  s.modifiers.map modTok ++ [typeTok s.retType, globalTok s.name] ++ s.args.flatMap argMentions

/-- Assignment target, mnemonic, branch targets, debug reference. -/
def instrMentions (i : Instruction) : List Tok :=
  i.assignmentTarget.toList.map localTok ++ [identTok i.instruction] ++ i.basicBlockRefs.map identTok
    ++ dbgToks i.dbgRef

/-- Label, colon, instructions. -/
def blockMentions (b : BasicBlock) : List Tok :=
  b.label.toList.map identTok ++ b.labelCommaSpan.toList.map (fun sp => (.punct ':', sp))
    ++ b.instructions.flatMap instrMentions

def bodyMentions (b : FuncBody) : List Tok :=
  (.punct '{', b.openingBracket) :: b.basicBlocks.flatMap blockMentions ++ [(.punct '}', b.closingBracket)]

def stmtMentions : Statement → List Tok
  | .globalVar n d => globalTok n :: d
  | .funcDecl s a d => sigMentions s ++ a.toList.map hexTok ++ dbgToks d
  | .funcDef k s b => (.define, k) :: sigMentions s ++ bodyMentions b
  | .funcDependencies n ds => globalTok n :: ds.map globalTok
  | .dbgAnnotation n d => dbgTok n :: d

/-- All tokens mentioned by a syntax tree. -/
def mentions (ss : List Statement) : List Tok := ss.flatMap stmtMentions

/-- One range lies within another. -/
def Within (a b : Span) : Prop := b.start ≤ a.start ∧ a.stop ≤ b.stop

/-- The instructions of a block are in source order and inside the block's range, and so is the label;
everything an instruction mentions lies in the instruction's range. -/
structure OrderedBlock (b : BasicBlock) : Prop where
  instructions_order : InOrder (b.instructions.map Instruction.span)
  instructions_inside : ∀ i ∈ b.instructions, Within i.span b.span
  label_inside : ∀ l, b.label = some l → Within l.2 b.span
  label_first : ∀ l, b.label = some l → ∀ i ∈ b.instructions, l.2.stop ≤ i.span.start
  mentions_inside : ∀ i ∈ b.instructions, ∀ t ∈ instrMentions i, Within t.2 i.span
  nonempty : b.span.start < b.span.stop

/-- The blocks of a function are in source order between the brackets. -/
structure OrderedBody (f : FuncBody) : Prop where
  blocks_order : InOrder (f.basicBlocks.map BasicBlock.span)
  blocks_inside : ∀ b ∈ f.basicBlocks,
    f.openingBracket.stop ≤ b.span.start ∧ b.span.stop ≤ f.closingBracket.start
  blocks : ∀ b ∈ f.basicBlocks, OrderedBlock b
  brackets : f.openingBracket.stop ≤ f.closingBracket.start

end HyperIR.Spec
