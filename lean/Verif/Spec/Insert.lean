import Verif.Spec.BlankLines
import Verif.Spec.Below

/-
Blank lines and lines of comments, inserted below a line of a document.
-/

namespace HyperIR.Spec

/-- The line that ends behind these tokens is complete: the last one that is neither a comment nor a line end is neither a comma nor a
type name (behind which an instruction may go on in the next line). -/
def Complete (l : List Tok) : Prop :=
  ∀ t, (l.filter fun t => decide (t.1 ≠ .comment ∧ t.1 ≠ .newline)).getLast? = some t → leavesOpen t.1 = false

/-- Where the text of a place is once `n` lines have been inserted in front of line `m`. -/
def lowerFrom (m n : Nat) (p : Pos) : Pos := if p.line < m then p else lowerPos n p

/-- Where a range ends once `n` lines have been inserted in front of line `m`: ranges that include the line end in front of the inserted
lines are not extended. -/
def StopFrom (m n : Nat) (p p' : Pos) : Prop := p' = lowerFrom m n p ∨ (p = ⟨m, 0⟩ ∧ p' = p)

end HyperIR.Spec
