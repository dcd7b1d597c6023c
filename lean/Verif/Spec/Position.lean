import Verif.Model.Rope

/-
Editor positions as defined by the Language Server Protocol, independent of ropey: lines end at
LF, CRLF or CR; a position is a line number and a column.
-/

namespace HyperIR.Spec

/-- A line end of the protocol. -/
def Eol (w : Str) : Prop := w = ['\n'] ∨ w = ['\r', '\n'] ∨ w = ['\r']

/-- Text without line end characters. -/
def NoEol (w : Str) : Prop := ∀ c ∈ w, c ≠ '\n' ∧ c ≠ '\r'

instance (w : Str) : Decidable (NoEol w) := inferInstanceAs (Decidable (∀ c ∈ w, c ≠ '\n' ∧ c ≠ '\r'))

/-- `LspLine text n start content`: line number `n` of the text starts at offset `start` and consists of
`content` (without its line end). -/
inductive LspLine : Str → Nat → Nat → Str → Prop
  | here {content tail} : NoEol content → (∀ c cs, tail = c :: cs → c = '\n' ∨ c = '\r') →
      LspLine (content ++ tail) 0 0 content
  | later {content eol rest n start c} : NoEol content → Eol eol → (eol = ['\r'] → rest.head? ≠ some '\n') →
      LspLine rest n start c → LspLine (content ++ eol ++ rest) (n + 1) (content.length + eol.length + start) c

/-- The position denotes the offset (columns count characters, so this is meant for offsets with only ASCII before them, where
characters, bytes and UTF-16 code units coincide). -/
def LspOffset (text : Str) (p : Pos) (off : Nat) : Prop :=
  ∃ start content, LspLine text p.line start content ∧ p.character ≤ content.length ∧ off = start + p.character

/-- Text on which ropey's and the protocol's line ends agree and offsets count the same in bytes and
characters: ASCII without vertical tab and form feed. -/
def Plain (text : Str) : Prop := ∀ c ∈ text, c.toNat < 128 ∧ c.toNat ≠ 11 ∧ c.toNat ≠ 12

instance (s : Str) : Decidable (Plain s) :=
  inferInstanceAs (Decidable (∀ c ∈ s, c.toNat < 128 ∧ c.toNat ≠ 11 ∧ c.toNat ≠ 12))

/-- The text is plain up to the offset; what follows is arbitrary. -/
def PlainTo (text : Str) (off : Nat) : Prop := Plain (text.take off)

instance (s : Str) (n : Nat) : Decidable (PlainTo s n) := inferInstanceAs (Decidable (Plain (s.take n)))

/-- ASCII text. -/
def Ascii (s : Str) : Prop := ∀ c ∈ s, c.toNat < 128

instance (s : Str) : Decidable (Ascii s) := inferInstanceAs (Decidable (∀ c ∈ s, c.toNat < 128))

/-- Order of positions. -/
def PosLe (p q : Pos) : Prop := p.line < q.line ∨ (p.line = q.line ∧ p.character ≤ q.character)

/-- The editor range of a range of the text. -/
def EditorRange (text : Str) (sp : Span) (r : Range) : Prop :=
  LspOffset text r.start sp.start ∧ LspOffset text r.stop sp.stop

/-- The offset lies between a carriage return and a line feed. -/
def InCrLf (text : Str) (off : Nat) : Prop := ∃ a b, text = a ++ '\r' :: '\n' :: b ∧ off = a.length + 1

end HyperIR.Spec
