import Verif.Spec.Layout

/-
Texts with the same lines, up to blank lines and lines of comments.
-/

namespace HyperIR.Spec

/-- Where in its line a token is: the tokens before it end with a line end (`ended`), with a comma or a type name after which the line may
have been broken (`open`), or with something else (`within`). -/
inductive LineState where
  | within
  | open
  | ended
  deriving DecidableEq

/-- Commas and type names: an instruction may go on in the next line. -/
def leavesOpen : Token → Bool
  | .punct c => decide (c = ',')
  | .type _ => true
  | _ => false

/-- What the tokens up to and including `t` end with. -/
def LineState.after (s : LineState) (t : Token) : LineState :=
  if t = .newline then (if s = .open then .open else .ended) else if leavesOpen t then .open else .within

/-- Without the line ends that follow a line end, except after a comma or a type name. -/
def withoutBlank : LineState → List Tok → List Tok
  | _, [] => []
  | s, t :: l => if t.1 = .newline ∧ s = .ended then withoutBlank .ended l else t :: withoutBlank (s.after t.1) l

/-- The tokens of the lines that are not blank, with one line end each. -/
def lineTokens (ts : List Tok) : List Tok := withoutBlank .within (codeTokens ts)

end HyperIR.Spec
