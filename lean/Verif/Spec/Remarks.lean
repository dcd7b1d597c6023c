import Verif.Spec.Below

/-
Texts that differ only in what does not count at the end of their lines: blanks, comments, and the style of the line end.
-/

namespace HyperIR.Spec

/-- Code without comments: no `#`, no line end, and every string is closed (strings may contain anything but a quote). -/
inductive Code : Str → Prop
  | nil : Code []
  | char {c w} : c ≠ '#' → c ≠ '"' → c ≠ '\n' → c ≠ '\r' → Code w → Code (c :: w)
  | str {s w} : '"' ∉ s → Code w → Code ('"' :: s ++ '"' :: w)

/-- What may stand at the end of a line without counting: blanks, and a comment. -/
def Remark (c : Str) : Prop := ∃ b, Blank b ∧ (c = b ∨ ∃ t, c = b ++ '#' :: t ∧ NoEol t)

/-- A line end as editors write it. -/
def LineEnd (e : Str) : Prop := e = ['\n'] ∨ e = ['\r', '\n']

/-- The same code, line by line; only remarks and line end styles differ. -/
inductive SameCode : Str → Str → Prop
  | last {w c c'} : Code w → Remark c → Remark c' → SameCode (w ++ c) (w ++ c')
  | line {w c c' e e' l l'} : Code w → Remark c → Remark c' → LineEnd e → LineEnd e' → SameCode l l' →
      SameCode (w ++ c ++ e ++ l) (w ++ c' ++ e' ++ l')

/-- The text has such a position. -/
def HasPosition (text : Str) (p : Pos) : Prop := ∃ off, LspOffset text p off

/-- The position a request asks about exists in the text. -/
def AsksIn (text : Str) : Msg → Prop
  | .gotoDefinition _ p => HasPosition text p
  | .gotoDeclaration _ p => HasPosition text p
  | .references _ p => HasPosition text p
  | .prepareRename _ p => HasPosition text p
  | .rename _ p _ => HasPosition text p
  | .codeAction _ r => HasPosition text r.start
  | _ => True

/-- The highlighting of everything but comments. -/
def codeHighlights (l : List LspSemanticToken) : List Highlight :=
  (decode ⟨0, 0⟩ l).filter fun h => legendType[h.type]? ≠ some .comment

/-- The same answer, up to the order of its parts and the highlighting of comments. -/
inductive SameButComments : Reply → Reply → Prop
  | same {r r'} : SameReply r r' → SameButComments r r'
  | tokens {l l'} : codeHighlights l = codeHighlights l' → SameButComments (.tokens (some l)) (.tokens (some l'))

/-- The same problem; what the parser complains about may start at another column of the line. -/
def SameProblem (d d' : Diagnostic) : Prop :=
  d'.message = d.message ∧ d'.related = d.related ∧ d'.range.stop = d.range.stop ∧ d'.range.start.line = d.range.start.line

/-- The same problems, one by one. -/
def SameProblems : List Diagnostic → List Diagnostic → Prop
  | [], [] => True
  | d :: l, d' :: l' => SameProblem d d' ∧ SameProblems l l'
  | _, _ => False

end HyperIR.Spec
