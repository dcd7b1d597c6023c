import Verif.Spec.Position
import Verif.Spec.Symbols

/-
Editor positions in texts outside of ASCII: the protocol counts columns in UTF-16 code units.
-/

namespace HyperIR.Spec

/-- Number of UTF-16 code units of a character. -/
def utf16Size (c : Char) : Nat := if c.toNat < 0x10000 then 1 else 2

/-- Number of UTF-16 code units of a text. -/
def utf16Len : Str → Nat
  | [] => 0
  | c :: cs => utf16Size c + utf16Len cs

/-- The position denotes the `off`-th character of the text, as the protocol defines it: on its line, the characters before it
have as many UTF-16 code units as the column says. -/
def Utf16Offset (text : Str) (p : Pos) (off : Nat) : Prop :=
  ∃ start content k, LspLine text p.line start content ∧ k ≤ content.length ∧ off = start + k ∧
    p.character = utf16Len (content.take k)

/-- The editor range of a range of characters. -/
def Utf16Range (text : Str) (sp : Span) (r : Range) : Prop :=
  Utf16Offset text r.start sp.start ∧ Utf16Offset text r.stop sp.stop

/-- The text has no other line ends than those of the protocol: no vertical tab, form feed, next line (U+0085), line separator
(U+2028) or paragraph separator (U+2029). -/
def UsualLines (text : Str) : Prop :=
  ∀ c ∈ text, c.toNat ≠ 11 ∧ c.toNat ≠ 12 ∧ c.toNat ≠ 0x85 ∧ c.toNat ≠ 0x2028 ∧ c.toNat ≠ 0x2029

instance (s : Str) : Decidable (UsualLines s) :=
  inferInstanceAs (Decidable (∀ c ∈ s, c.toNat ≠ 11 ∧ c.toNat ≠ 12 ∧ c.toNat ≠ 0x85 ∧ c.toNat ≠ 0x2028 ∧ c.toNat ≠ 0x2029))

/-- Characters of the basic multilingual plane: one UTF-16 code unit each. -/
def Basic (text : Str) : Prop := ∀ c ∈ text, c.toNat < 0x10000

instance (s : Str) : Decidable (Basic s) := inferInstanceAs (Decidable (∀ c ∈ s, c.toNat < 0x10000))

/-- Everything before the offset is ASCII. -/
def AsciiTo (text : Str) (off : Nat) : Prop := Ascii (text.take off)

instance (s : Str) (n : Nat) : Decidable (AsciiTo s n) := inferInstanceAs (Decidable (Ascii (s.take n)))

end HyperIR.Spec
