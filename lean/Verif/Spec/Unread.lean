import Verif.Spec.Lexical
import Verif.Spec.Position
import Verif.Model.Parser

/-
Text that belongs to no token, and where it is reported.
-/

namespace HyperIR.Spec

section
variable [Unicode]

/-- As `LexesErr`, with the places where unrecognizable text starts. -/
inductive LexesSkip : Nat → Str → List (Spanned Token) → List Nat → Prop
  | done {o b} : Blank b → LexesSkip o b [] []
  | tok {o b t w rest ts ps} : Blank b → Longest t w rest →
      LexesSkip (o + b.length + w.length) rest ts ps →
      LexesSkip o (b ++ w ++ rest)
        ((t, { start := o + b.length, stop := o + b.length + w.length }) :: ts) ps
  | skip {o b g t w rest ts ps} : Blank b → g ≠ [] → (∀ c cs, g = c :: cs → c ≠ ' ' ∧ c ≠ '\t') →
      Garbage g (w ++ rest) → Longest t w rest →
      LexesSkip (o + b.length + g.length + w.length) rest ts ps →
      LexesSkip o (b ++ g ++ w ++ rest)
        ((t, { start := o + b.length, stop := o + b.length + g.length + w.length }) :: ts) ((o + b.length) :: ps)

/-- As `LexesSkip`, for a text at the end of which there is text that contains no token: the places where
unrecognizable text starts, including the one at the end. -/
inductive LexesLost : Nat → Str → List Nat → Prop
  | lost {o b g} : Blank b → g ≠ [] → (∀ c cs, g = c :: cs → c ≠ ' ' ∧ c ≠ '\t') → Garbage g [] → LexesLost o (b ++ g) [o + b.length]
  | tok {o b t w rest ps} : Blank b → Longest t w rest → LexesLost (o + b.length + w.length) rest ps → LexesLost o (b ++ w ++ rest) ps
  | skip {o b g t w rest ps} : Blank b → g ≠ [] → (∀ c cs, g = c :: cs → c ≠ ' ' ∧ c ≠ '\t') →
      Garbage g (w ++ rest) → Longest t w rest →
      LexesLost (o + b.length + g.length + w.length) rest ps →
      LexesLost o (b ++ g ++ w ++ rest) ((o + b.length) :: ps)

end

/-- How the unrecognizable text at offset `p` is reported: its first character is marked.  A quote that is never closed is reported at the
end of the text, a carriage return without line feed at the character behind it (or the end of the text).  Behind text that is not plain nothing is said about the
positions. -/
def Reported (text : Str) (p : Nat) (range : Range) (message : Str) : Prop :=
  ∃ c, text[p]? = some c ∧
    (c ≠ '"' → c ≠ '\r' → (PlainTo text p → LspOffset text range.start p) ∧ (PlainTo text (p + 1) → LspOffset text range.stop (p + 1)) ∧
      c!"Unexpected token in input" <+: message) ∧
    (c = '"' → (Plain text → EditorRange text { start := text.length, stop := text.length } range) ∧ c!"Unexpected end of input" <+: message) ∧
    (c = '\r' → (PlainTo text (p + 1) → LspOffset text range.start (p + 1)) ∧
      (if p + 1 < text.length then c!"Unexpected token in input" else c!"Unexpected end of input") <+: message)

/-- The error about the unrecognizable text at offset `p`: as above, in characters. -/
def LexErrorAt (text : Str) (p : Nat) (e : SErr) : Prop :=
  ∃ c, text[p]? = some c ∧ e.reason = .unexpected ∧
    (c ≠ '"' → c ≠ '\r' → e.span = { start := p, stop := p + 1 } ∧ e.found = some [c]) ∧
    (c = '"' → e.span = { start := text.length, stop := text.length } ∧ e.found = none) ∧
    (c = '\r' → (∀ d, text[p + 1]? = some d → e.span = { start := p + 1, stop := p + 2 } ∧ e.found = some [d]) ∧
      (text[p + 1]? = none → e.span = { start := text.length, stop := text.length } ∧ e.found = none))

end HyperIR.Spec
