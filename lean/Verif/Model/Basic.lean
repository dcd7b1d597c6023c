/-
Rust primitives used by the code: text, Unicode predicates, integer parsing and printing,
checked / wrapping machine arithmetic, panics.
-/

namespace HyperIR

/-- Rust `String` / `&str`, as the list of its `char`s (Unicode scalar values).
Simplification: the UTF-8 bytes are only visible through `utf8Len`. -/
abbrev Str := List Char

/-- `c!"abc"` is the explicit list `['a','b','c']` (a string literal of the Rust code). -/
macro:max "c!" s:str : term => do
  let elems := (s.getString.toList.map fun c => Lean.Syntax.mkCharLit c).toArray
  `(([$elems,*] : List Char))

/-- A computation that may panic (`unwrap` on `None`, slice out of bounds, checked overflow …). -/
inductive Outcome (α : Type) where
  | ok (a : α)
  | panic
  deriving Repr, DecidableEq

namespace Outcome
variable {α β : Type}
def bind : Outcome α → (α → Outcome β) → Outcome β
  | .ok a, f => f a
  | .panic, _ => .panic
instance : Monad Outcome where
  pure := .ok
  bind := bind
def map' (f : α → β) : Outcome α → Outcome β
  | .ok a => .ok (f a)
  | .panic => .panic
/-- `Option::unwrap` -/
def unwrap : Option α → Outcome α
  | some a => .ok a
  | none => .panic
def toOption : Outcome α → Option α
  | .ok a => some a
  | .panic => none
end Outcome

/-- `std::ops::Range<usize>` (src/hir_tokenizer.rs:6 `Span`). -/
structure Span where
  start : Nat
  stop : Nat
  deriving DecidableEq, Repr, Inhabited

/-- `Range::contains` -/
def Span.contains (s : Span) (p : Nat) : Bool := decide (s.start ≤ p) && decide (p < s.stop)

/-- `ExactSizeIterator::len` of a `Range<usize>`: `0` for reversed ranges. -/
def Span.len (s : Span) : Nat := s.stop - s.start

/-- src/hir_tokenizer.rs:7 -/
abbrev Spanned (α : Type) := α × Span

/-! ### Unicode

The Unicode tables of the Rust standard library are not modelled: they are an arbitrary
instance of this class, of which only the ASCII part is fixed. -/

/-- `char::is_alphabetic`, `char::is_numeric`, `char::is_whitespace`. -/
class Unicode where
  alphabetic : Char → Bool
  numeric : Char → Bool
  whitespace : Char → Bool
  alphabetic_ascii : ∀ c : Char, c.toNat < 128 → alphabetic c = c.isAlpha
  numeric_ascii : ∀ c : Char, c.toNat < 128 → numeric c = c.isDigit
  whitespace_ascii : ∀ c : Char, c.toNat < 128 →
    whitespace c = (decide (c = ' ') || decide (9 ≤ c.toNat ∧ c.toNat ≤ 13))

/-- `char::is_alphanumeric` is `is_alphabetic || is_numeric`. -/
def Unicode.alphanumeric [Unicode] (c : Char) : Bool :=
  Unicode.alphabetic c || Unicode.numeric c

/-- A concrete instance (no character above ASCII has any of the properties), used in examples. -/
@[reducible] def asciiUnicode : Unicode where
  alphabetic c := c.isAlpha
  numeric c := c.isDigit
  whitespace c := decide (c = ' ') || decide (9 ≤ c.toNat ∧ c.toNat ≤ 13)
  alphabetic_ascii _ _ := rfl
  numeric_ascii _ _ := rfl
  whitespace_ascii _ _ := rfl

/-- `str::len`: number of UTF-8 bytes. -/
def utf8Len : Str → Nat
  | [] => 0
  | c :: cs => c.utf8Size + utf8Len cs

/-! ### Integer parsing and printing -/

/-- Value of an ASCII decimal digit. -/
def digitVal? (c : Char) : Option Nat :=
  if c.isDigit then some (c.toNat - 48) else none

/-- Decimal digits to a number; `none` on any non-digit. -/
def parseDigits (acc : Nat) : Str → Option Nat
  | [] => some acc
  | c :: cs => match digitVal? c with
    | some d => parseDigits (acc * 10 + d) cs
    | none => none

/-- Unsigned decimal, at least one digit. -/
def parseNat : Str → Option Nat
  | [] => none
  | cs => parseDigits 0 cs

/-- `str::parse::<u32>`: optional `+`, at least one digit, value below `2^32`. -/
def parseU32 (s : Str) : Option Nat :=
  let body := match s with
    | '+' :: cs => cs
    | cs => cs
  match parseNat body with
  | some n => if n < 2 ^ 32 then some n else none
  | none => none

/-- `str::parse::<i64>`: optional sign, at least one digit, value in range. -/
def parseI64 (s : Str) : Option Int :=
  match s with
  | '-' :: cs => match parseNat cs with
    | some n => if n ≤ 2 ^ 63 then some (-(n : Int)) else none
    | none => none
  | '+' :: cs => match parseNat cs with
    | some n => if n < 2 ^ 63 then some (n : Int) else none
    | none => none
  | cs => match parseNat cs with
    | some n => if n < 2 ^ 63 then some (n : Int) else none
    | none => none

/-- ASCII character of a digit `< 10`. -/
def digitChar (d : Nat) : Char := Char.ofNat (48 + d)

/-- Decimal digits of `n`, structural on `fuel`. -/
def showNatAux : Nat → Nat → Str
  | 0, _ => []
  | fuel + 1, n => if n < 10 then [digitChar n] else showNatAux fuel (n / 10) ++ [digitChar (n % 10)]

/-- `format!("{}", n)` for an unsigned number. -/
def showNat (n : Nat) : Str := showNatAux (n + 1) n

/-- `format!("{}", i)` for a signed number. -/
def showInt (i : Int) : Str :=
  match i with
  | .ofNat n => showNat n
  | .negSucc n => '-' :: showNat (n + 1)

/-! ### Machine integers -/

/-- Build configuration: debug builds check arithmetic overflow, release builds wrap. -/
structure Build where
  overflowChecks : Bool
  deriving DecidableEq, Repr

def i64InRange (x : Int) : Bool := decide (-(2 ^ 63 : Int) ≤ x) && decide (x < (2 ^ 63 : Int))

/-- Two's complement wrap to 64 bits. -/
def wrapI64 (x : Int) : Int := (x + 2 ^ 63) % 2 ^ 64 - 2 ^ 63

/-- Result of an `i64` operation with mathematical value `x`. -/
def i64Op (b : Build) (x : Int) : Outcome Int :=
  if i64InRange x then .ok x else if b.overflowChecks then .panic else .ok (wrapI64 x)

/-- `u32` subtraction. -/
def u32Sub (b : Build) (x y : Nat) : Outcome Nat :=
  if y ≤ x then .ok (x - y) else if b.overflowChecks then .panic else .ok ((x + 2 ^ 32 - y) % 2 ^ 32)

/-- `usize → u32` by `try_into().ok()`. -/
def toU32? (n : Nat) : Option Nat := if n < 2 ^ 32 then some n else none

/-- `as u32` -/
def asU32 (n : Nat) : Nat := n % 2 ^ 32

/-- `i64::wrapping_abs` -/
def wrappingAbs (x : Int) : Int := if x < 0 then wrapI64 (-x) else x

/-! ### String functions -/

/-- `str::split(c)` for a character pattern. -/
def splitOn (c : Char) : Str → List Str
  | [] => [[]]
  | x :: xs =>
    if x = c then [] :: splitOn c xs
    else match splitOn c xs with
      | [] => [[x]]
      | w :: ws => (x :: w) :: ws

/-- `str::starts_with(&str)` -/
def isPrefix : Str → Str → Bool
  | [], _ => true
  | _ :: _, [] => false
  | a :: as, b :: bs => decide (a = b) && isPrefix as bs

/-- `str::contains(&str)` -/
def containsStr (pat : Str) : Str → Bool
  | [] => isPrefix pat []
  | c :: cs => isPrefix pat (c :: cs) || containsStr pat cs

/-- `str::ends_with(&str)` -/
def endsWith (s suffix : Str) : Bool := isPrefix suffix.reverse s.reverse

/-- Byte-indexed slice `&s[start..]`: drops exactly `n` bytes, `none` (panic) when `n` is not a
character boundary or out of range. -/
def dropBytes : Nat → Str → Option Str
  | 0, s => some s
  | _ + 1, [] => none
  | n + 1, c :: cs => if c.utf8Size ≤ n + 1 then dropBytes (n + 1 - c.utf8Size) cs else none

/-- Byte-indexed slice `&s[..n]`. -/
def takeBytes : Nat → Str → Option Str
  | 0, _ => some []
  | _ + 1, [] => none
  | n + 1, c :: cs =>
    if c.utf8Size ≤ n + 1 then (takeBytes (n + 1 - c.utf8Size) cs).map (c :: ·) else none

/-- `&s[start..end]`; panics unless both are character boundaries and `start ≤ end ≤ len`. -/
def sliceBytes (s : Str) (start stop : Nat) : Outcome Str :=
  if start ≤ stop then
    match dropBytes start s with
    | some rest => Outcome.unwrap (takeBytes (stop - start) rest)
    | none => .panic
  else .panic

end HyperIR
