import Verif.Spec.Diagnostics
import Verif.Spec.Reading

/-
When a document deserves no diagnostics (property C99).  Independent of the code that computes them.
-/

namespace HyperIR.Spec

/-- Every symbol that is mentioned is declared or defined, none is defined twice, and every branch, switch and
phi instruction names its basic blocks. -/
def Sound (toks : List (Spanned Token)) (ss : List Statement) : Prop :=
  (∀ o, Occurs toks ss o → ∃ d, Occurs toks ss d ∧ SameSymbol d o ∧ d.useDef ≠ .use) ∧
  (∀ d d', Occurs toks ss d → Occurs toks ss d' → SameSymbol d d' → d.useDef = .def_ → d'.useDef = .def_ → d = d') ∧
  ∀ i ∈ instructions ss, ¬ LacksTargets i

/-- The text consists of tokens that are statements throughout, without any error, and these are sound. -/
def SoundText [Unicode] (text : Str) : Prop :=
  ∃ toks ss, LexesErr 0 text toks 0 ∧ (toks ≠ [] ∨ text = []) ∧
    Layout ss [] [] true (toks.filter fun t => decide (t.1 ≠ Token.comment)) ∧ Sound toks ss

/-- The text consists of tokens, with some unreadable stretches among them; it is only at the end of the text
that their reading fails.  The statements that are reported are sound. -/
def CutShort [Unicode] (text : Str) (res : ParserResult) : Prop :=
  ∃ ss gs w, LexesErr 0 text res.tokens 0 ∧
    Layout ss [] gs w (res.tokens.filter fun t => decide (t.1 ≠ Token.comment)) ∧ res.stmts = (if w then ss else []) ∧
    gs ≠ [] ∧ (syntaxErrors res.errors).length = gs.length ∧
    (∀ e ∈ res.errors, e.span = { start := utf8Len text, stop := utf8Len text + 1 }) ∧ Sound res.tokens res.stmts

end HyperIR.Spec
