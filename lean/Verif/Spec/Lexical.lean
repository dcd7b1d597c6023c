import Verif.Model.Tokenizer

/-
Lexical specification, independent of the tokenizer's parser combinators: which texts spell which
token, and what it means for a text to consist of a sequence of tokens.
-/

namespace HyperIR.Spec

/-- `'0'` … `'9'` -/
def Digit (c : Char) : Prop := '0' ≤ c ∧ c ≤ '9'

/-- Digits of hexadecimal numbers. -/
def HexDigit (c : Char) : Prop := Digit c ∨ ('a' ≤ c ∧ c ≤ 'f') ∨ ('A' ≤ c ∧ c ≤ 'F')

/-- A number without superfluous leading zeros. -/
inductive Numeral (digit : Char → Prop) : Str → Prop
  | zero : Numeral digit ['0']
  | pos {c cs} : digit c → c ≠ '0' → (∀ d ∈ cs, digit d) → Numeral digit (c :: cs)

/-- The punctuation characters. -/
def Punctuation (c : Char) : Prop :=
  c ∈ ['[', ']', '{', '}', '(', ')', '<', '>', '=', ',', ';', ':', '*', '.']

def keywordTypes : List Str :=
  [c!"void", c!"int1", c!"int8", c!"int16", c!"int32", c!"int64", c!"float32", c!"float64",
   c!"data128", c!"ptr"]

def keywordModifiers : List Str :=
  [c!"exported", c!"async", c!"memberfunc", c!"noreturn", c!"nosideeffects", c!"pure"]

section
variable [Unicode]

/-- Characters a name consists of (besides inner colons). -/
def NameChar (c : Char) : Prop := Unicode.alphanumeric c = true ∨ c = '_'

/-- Characters an identifier starts with. -/
def NameHead (c : Char) : Prop := Unicode.alphabetic c = true ∨ c = '_'

/-- What may follow the first character of a name: name characters and colons, the last of which is
not a colon. -/
def NameTail (w : Str) : Prop := (∀ c ∈ w, NameChar c ∨ c = ':') ∧ w.getLast? ≠ some ':'

/-- An identifier or keyword. -/
def Name (w : Str) : Prop := ∃ c cs, w = c :: cs ∧ NameHead c ∧ NameTail cs

/-- `Spells t w`: the text `w` spells the token `t`. -/
inductive Spells : Token → Str → Prop
  | lf : Spells .newline ['\n']
  | crlf : Spells .newline ['\r', '\n']
  | comment {w} : '\n' ∉ w → Spells .comment ('#' :: w)
  | num {w} : Numeral Digit w → Spells (.num w) w
  | hexNum {w} : Numeral HexDigit w → Spells (.hexNum w) ('0' :: 'x' :: w)
  | str {w} : '"' ∉ w → Spells (.str w) ('"' :: w ++ ['"'])
  | punct {c} : Punctuation c → Spells (.punct c) [c]
  | declare : Spells .declare c!"declare"
  | define : Spells .define c!"define"
  | modifier {w} : w ∈ keywordModifiers → Spells (.funcModifier w) w
  | type {w} : w ∈ keywordTypes → Spells (.type w) w
  | ident {w} : Name w → w ≠ c!"declare" → w ≠ c!"define" → w ∉ keywordModifiers →
      w ∉ keywordTypes → Spells (.ident w) w
  | globalName {w} : NameTail w → Spells (.globalName ('@' :: w)) ('@' :: w)
  | localName {w} : NameTail w → Spells (.localName ('%' :: w)) ('%' :: w)
  | debugRef {w} : NameTail w → Spells (.debugRef ('!' :: w)) ('!' :: w)

/-- `t`, spelled `w`, is the longest token at the start of the text `w ++ rest`. -/
def Longest (t : Token) (w rest : Str) : Prop :=
  Spells t w ∧ ∀ t' w' rest', Spells t' w' → w ++ rest = w' ++ rest' → w'.length ≤ w.length

/-- No token starts the text. -/
def NoToken (text : Str) : Prop := ∀ t w rest, Spells t w → text ≠ w ++ rest

/-- Only blanks. -/
def Blank (w : Str) : Prop := ∀ c ∈ w, c = ' ' ∨ c = '\t'

/-- The text, starting at offset `o`, consists of exactly the given tokens, each the longest one at
its place, with only blanks between them; token spans are the offsets of the spellings. -/
inductive Lexes : Nat → Str → List (Spanned Token) → Prop
  | done {o b} : Blank b → Lexes o b []
  | tok {o b t w rest ts} : Blank b → Longest t w rest →
      Lexes (o + b.length + w.length) rest ts →
      Lexes o (b ++ w ++ rest)
        ((t, { start := o + b.length, stop := o + b.length + w.length }) :: ts)

/-- Every position inside `g` is one where no token starts (given the text `rest` behind it). -/
def Garbage (g rest : Str) : Prop :=
  ∀ g₁ g₂, g = g₁ ++ g₂ → g₂ ≠ [] → NoToken (g₂ ++ rest)

/-- As `Lexes`, with unrecognizable text `g` in front of tokens: such a token's span starts at the
unrecognizable text, and one error is counted. -/
inductive LexesErr : Nat → Str → List (Spanned Token) → Nat → Prop
  | done {o b} : Blank b → LexesErr o b [] 0
  | tok {o b t w rest ts n} : Blank b → Longest t w rest →
      LexesErr (o + b.length + w.length) rest ts n →
      LexesErr o (b ++ w ++ rest)
        ((t, { start := o + b.length, stop := o + b.length + w.length }) :: ts) n
  | skip {o b g t w rest ts n} : Blank b → g ≠ [] → (∀ c cs, g = c :: cs → c ≠ ' ' ∧ c ≠ '\t') →
      Garbage g (w ++ rest) → Longest t w rest →
      LexesErr (o + b.length + g.length + w.length) rest ts n →
      LexesErr o (b ++ g ++ w ++ rest)
        ((t, { start := o + b.length, stop := o + b.length + g.length + w.length }) :: ts) (n + 1)

end

end HyperIR.Spec
