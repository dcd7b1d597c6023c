import Verif.Spec.Flow

/-
The outline and the folding ranges of a document in terms of its statements.
-/

namespace HyperIR.Spec

/-- The global variable definitions of the document. -/
def docGlobals : List Statement → List (Spanned Str)
  | [] => []
  | .globalVar n _ :: ss => n :: docGlobals ss
  | _ :: ss => docGlobals ss

/-- One range of positions lies within another. -/
def RangeWithin (a b : Range) : Prop := PosLe b.start a.start ∧ PosLe a.stop b.stop

/-- The fold covers the lines of a range of the text. -/
def FoldsLines (text : Str) (sp : Span) (fold : FoldingRange) : Prop :=
  fold.startLine ≤ fold.endLine ∧
  (PlainTo text sp.stop → ∃ r, EditorRange text sp r ∧ fold.startLine = r.start.line ∧ fold.endLine = r.stop.line)

/-- The text is a number followed by the given word. -/
def Counts (text word : Str) (n : Nat) : Prop := ∃ w, text = w ++ ' ' :: word ∧ Canonical w n

/-- The name is the label of a block or named by an instruction as a basic block. -/
def NamesLabel (blocks : List BasicBlock) (n : Str) : Prop :=
  ∃ blk ∈ blocks, (∃ sp, blk.label = some (n, sp)) ∨ ∃ i ∈ blk.instructions, n ∈ i.basicBlockRefs.map Prod.fst

/-- Every block has a label of its own, and instructions name only such labels. -/
def Tidy (blocks : List BasicBlock) : Prop :=
  ∃ labels : List (Spanned Str), blocks.map BasicBlock.label = labels.map some ∧ (labels.map Prod.fst).Nodup ∧
    ∀ n, NamesLabel blocks n → n ∈ labels.map Prod.fst

end HyperIR.Spec
