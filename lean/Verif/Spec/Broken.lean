import Verif.Spec.Lexical
import Verif.Model.Parser

/-
Text that cannot be read, such as a line that is being typed, above text that can be read.
-/

namespace HyperIR.Spec

section
variable [Unicode]

/-- As `Lexes`, with unrecognizable text `g` in front of tokens (such a token's span starts at the unrecognizable text); no quote is left open. -/
inductive LexesClosed : Nat → Str → List (Spanned Token) → Prop
  | done {o b} : Blank b → LexesClosed o b []
  | tok {o b t w rest ts} : Blank b → Longest t w rest →
      LexesClosed (o + b.length + w.length) rest ts →
      LexesClosed o (b ++ w ++ rest)
        ((t, { start := o + b.length, stop := o + b.length + w.length }) :: ts)
  | skip {o b g t w rest ts} : Blank b → g ≠ [] → (∀ c cs, g = c :: cs → c ≠ ' ' ∧ c ≠ '\t') →
      Garbage g (w ++ rest) → '"' ∉ g → Longest t w rest →
      LexesClosed (o + b.length + g.length + w.length) rest ts →
      LexesClosed o (b ++ g ++ w ++ rest)
        ((t, { start := o + b.length, stop := o + b.length + g.length + w.length }) :: ts)

/-- The text consists of whole lines, without a quote that is not closed; the last line does not end with a comma (behind which an
instruction may go on in the next line). -/
structure WholeLines (X : Str) (ts : List (Spanned Token)) : Prop where
  lexes : LexesClosed 0 X ts
  ends : X = [] ∨ ∃ l, X = l ++ ['\n']
  last : ∀ l c n, (ts.filter fun t => decide (t.1 ≠ .comment)) ≠ l ++ [(.punct ',', c), (.newline, n)]

/-- The first token of a text that is neither a comment nor a line end. -/
def firstToken (ts : List (Spanned Token)) : Option (Spanned Token) :=
  (ts.filter fun t => decide (t.1 ≠ .comment ∧ t.1 ≠ .newline)).head?

/-- The document is free of errors from some line on, with at least one statement there (or it is free of errors altogether). -/
def Settled (A : Str) : Prop :=
  ∃ X tsX L resL, A = X ++ L ∧ WholeLines X tsX ∧ parseFromStr L = .ok resL ∧ resL.errors = [] ∧ (X = [] ∨ resL.stmts ≠ []) ∧
    (L = [] ∨ ∃ l, L = l ++ ['\n'])

end

end HyperIR.Spec
