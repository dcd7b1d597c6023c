import Verif.Model.Basic

/-
Model of the `ropey::Rope` (1.6.1, default features, so `unicode_lines`) queries used by the crate,
and of src/lsp_utils.rs.  A rope is its text.  Library behaviour, see DESIGN.md "Trusted base".
-/

namespace HyperIR

/-- `c`, followed by `rest`, ends a line (ropey with `unicode_lines`): LF, VT, FF, CR (unless
followed by LF), NEL, LS, PS. -/
def isLineBreak (c : Char) (rest : Str) : Bool :=
  if c = '\r' then decide (rest.head? ≠ some '\n')
  else decide (c.toNat = 10 ∨ c.toNat = 11 ∨ c.toNat = 12 ∨ c.toNat = 0x85 ∨ c.toNat = 0x2028
    ∨ c.toNat = 0x2029)

/-- `Rope::len_lines` -/
def lenLines : Str → Nat
  | [] => 1
  | c :: cs => (if isLineBreak c cs then 1 else 0) + lenLines cs

/-- `Rope::try_line_to_char(line).ok()`: index of the first character of a line; one past the last
line is the end of the text. -/
def lineToChar? : Nat → Str → Option Nat
  | 0, _ => some 0
  | n + 1, [] => if n = 0 then some 0 else none
  | n + 1, c :: cs =>
    if isLineBreak c cs then (lineToChar? n cs).map (· + 1)
    else (lineToChar? (n + 1) cs).map (· + 1)

/-- Number of line breaks that end at or before byte `b`. -/
def byteToLine : Nat → Str → Nat
  | _, [] => 0
  | b, c :: cs =>
    if c.utf8Size ≤ b then (if isLineBreak c cs then 1 else 0) + byteToLine (b - c.utf8Size) cs
    else 0

/-- Number of characters that end at or before byte `b`. -/
def byteToChar : Nat → Str → Nat
  | _, [] => 0
  | b, c :: cs => if c.utf8Size ≤ b then 1 + byteToChar (b - c.utf8Size) cs else 0

/-- `Rope::try_byte_to_line(b).ok()` -/
def byteToLine? (b : Nat) (rope : Str) : Option Nat :=
  if b ≤ utf8Len rope then some (byteToLine b rope) else none

/-- `Rope::try_byte_to_char(b).ok()` -/
def byteToChar? (b : Nat) (rope : Str) : Option Nat :=
  if b ≤ utf8Len rope then some (byteToChar b rope) else none

/-- `lsp_types::Position` (both `u32`) -/
structure Pos where
  line : Nat
  character : Nat
  deriving DecidableEq, Repr, Inhabited

/-- `lsp_types::Range` -/
structure Range where
  start : Pos
  stop : Pos
  deriving DecidableEq, Repr, Inhabited

/-- `lsp_types::Location`; a URI is its serialization. -/
structure Location where
  uri : Str
  range : Range
  deriving DecidableEq, Repr

/-- src/lsp_utils.rs:6-9 -/
def lspPosToOffset (rope : Str) (pos : Pos) : Option Nat :=
  (lineToChar? pos.line rope).map (· + pos.character)

/-- src/lsp_utils.rs:11-19.  The subtraction in line 14 cannot underflow
(`lineToChar_le_byteToChar`). -/
def offsetToLspPos (rope : Str) (pos : Nat) : Option Pos :=
  match byteToLine? pos rope with
  | none => none
  | some line => match lineToChar? line rope with
    | none => none
    | some first => match byteToChar? pos rope with
      | none => none
      | some ch => match toU32? line, toU32? (ch - first) with
        | some l, some c => some { line := l, character := c }
        | _, _ => none

/-- src/lsp_utils.rs:21-26 -/
def rangeToLsp (rope : Str) (span : Span) : Option Range :=
  match offsetToLspPos rope span.start with
  | none => none
  | some s => match offsetToLspPos rope span.stop with
    | none => none
    | some e => some { start := s, stop := e }

end HyperIR
