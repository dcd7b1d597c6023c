import Verif.Model.Server
import Verif.Spec.Diagnostics
import Verif.Spec.Position

/-
Control flow of a function in terms of its blocks, and what a rendered graph and the hints in the editor say.
-/

namespace HyperIR.Spec

/-- The two lists correspond, element by element. -/
inductive Each {α β : Type} (R : α → β → Prop) : List α → List β → Prop
  | nil : Each R [] []
  | cons {a b as bs} : R a b → Each R as bs → Each R (a :: as) (b :: bs)

/-- An instruction that transfers control: its name ends in `br`, or is `switch`. -/
def Branches (i : Instruction) : Prop := IsBr i.instruction.1 ∨ i.instruction.1 = c!"switch"

/-- The block contains a branching instruction that names `b`. -/
def BranchesTo (blk : BasicBlock) (b : Str) : Prop := ∃ i ∈ blk.instructions, Branches i ∧ b ∈ i.basicBlockRefs.map Prod.fst

/-- A block labelled `a` branches to `b`. -/
def Edge (blocks : List BasicBlock) (a b : Str) : Prop := ∃ blk ∈ blocks, (∃ sp, blk.label = some (a, sp)) ∧ BranchesTo blk b

/-- `preds` are the labels of the blocks that branch to `b`, in source order, one per labelled block. -/
def Predecessors (blocks : List BasicBlock) (b : Str) (preds : List (Spanned Str)) : Prop :=
  ∃ blks : List BasicBlock, blks.Sublist blocks ∧ blks.map BasicBlock.label = preds.map some ∧
    ∀ blk ∈ blocks, blk ∈ blks ↔ (blk.label.isSome ∧ BranchesTo blk b)

/-- The text consists of the given lines. -/
def Lines (text : Str) (ls : List Str) : Prop := text = ls.flatMap (· ++ ['\n']) ∧ ∀ l ∈ ls, '\n' ∉ l

/-- A name that needs no escapes in a quoted DOT string (and stays on its line). -/
def Quotable (n : Str) : Prop := '"' ∉ n ∧ '\\' ∉ n ∧ '\n' ∉ n

/-- The DOT edge from `a` to `b`. -/
def dotEdge (e : Str × Str) : Str := c!"  \"" ++ e.1 ++ c!"\" -> \"" ++ e.2 ++ c!"\""

/-- The text is a DOT graph (after comment lines) with the given edges, in this order. -/
def ShowsEdges (edges : List (Str × Str)) (text : Str) : Prop :=
  ∃ comments : List Str, Lines text (comments ++ [c!"strict digraph D {", c!"  node [shape=box];"] ++ edges.map dotEdge ++ [c!"}"]) ∧
    (∀ c ∈ comments, c!"//" <+: c) ∧ ∀ e ∈ edges, Quotable e.1 ∧ Quotable e.2

/-- The text is a DOT graph with an edge `a -> b` exactly if a block labelled `a` branches to `b`. -/
def RendersGraph (blocks : List BasicBlock) (text : Str) : Prop :=
  ∃ edges : List (Str × Str), ShowsEdges edges text ∧ ∀ a b, (a, b) ∈ edges ↔ Edge blocks a b

/-- The basic blocks of the document, in order, each with the blocks of its function. -/
def docBlocks (ss : List Statement) : List (List BasicBlock × BasicBlock) :=
  (docFuncs ss).flatMap fun f => f.2.2.map fun blk => (f.2.2, blk)

/-- The text shown by the parts of a hint. -/
def hintText (parts : List LabelPart) : Str := parts.flatMap (·.value)

/-- The links in the parts of a hint: text and target. -/
def hintLinks (parts : List LabelPart) : List (Str × Location) := parts.filterMap fun p => p.location.map fun l => (p.value, l)

/-- The hint stands behind a token of the text that satisfies `P`. -/
def Behind (text : Str) (toks : List (Spanned Token)) (P : Token → Prop) (h : InlayHint) : Prop :=
  ∃ t ∈ toks, P t.1 ∧ (PlainTo text t.2.stop → LspOffset text h.position t.2.stop)

/-- A link to the given name of the document: it shows the name and points to its range. -/
def LinksTo (uri text : Str) (n : Spanned Str) (l : Str × Location) : Prop :=
  l.1 = n.1 ∧ l.2.uri = uri ∧ (PlainTo text n.2.stop → EditorRange text n.2 l.2.range)

/-- `a, b, c` -/
def commaList : List Str → Str
  | [] => []
  | [a] => a
  | a :: as => a ++ c!", " ++ commaList as

end HyperIR.Spec
