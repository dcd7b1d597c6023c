import Verif.Model.Chumsky

/- Model of src/hir_tokenizer.rs. -/

namespace HyperIR

/-- src/hir_tokenizer.rs:9-25 `enum Token` -/
inductive Token where
  | comment
  | num (s : Str)
  | hexNum (s : Str)
  | str (s : Str)
  | localName (s : Str)
  | globalName (s : Str)
  | debugRef (s : Str)
  | type (s : Str)
  | ident (s : Str)
  | funcModifier (s : Str)
  | punct (c : Char)
  | newline
  | declare
  | define
  deriving DecidableEq, Repr, Inhabited

/-- src/hir_tokenizer.rs:27-46 `impl Display for Token` (the names already carry their sigil, so it
is printed twice). -/
def Token.display : Token → Str
  | .comment => c!"comment"
  | .debugRef x => '!' :: x
  | .num s => s
  | .hexNum s => s
  | .str s => s
  | .localName s => '%' :: s
  | .globalName s => '@' :: s
  | .type s => s
  | .ident s => s
  | .funcModifier s => s
  | .punct c => [c]
  | .newline => ['\\', 'n']
  | .declare => c!"declare"
  | .define => c!"define"

variable [Unicode]

/-- src/hir_tokenizer.rs:50-52 -/
def tNewline : P Char Token :=
  pmap (fun _ => Token.newline) (por (just '\n') (thenIgnore (just '\r') (just '\n')))

/-- src/hir_tokenizer.rs:55-57 -/
def tComment : P Char Token :=
  pmap (fun _ => Token.comment)
    (pthen (just '#')
      (fun eoi s =>
        takeUntil (rewind (por (just '\n') (pmap (fun _ => '\n') pend))) eoi [] none s))

/-- `char::is_digit(10)` -/
def isDigit10 (c : Char) : Bool := c.isDigit

/-- `char::is_digit(16)` -/
def isDigit16 (c : Char) : Bool :=
  c.isDigit || decide (97 ≤ c.toNat ∧ c.toNat ≤ 102) || decide (65 ≤ c.toNat ∧ c.toNat ≤ 70)

/-- `chumsky::text::int(radix)`: a non-zero digit followed by digits, or a single `0`. -/
def textInt (isDigit : Char → Bool) : P Char Str :=
  por
    (pmap (fun (c, cs) => c :: cs)
      (pthen (pfilter fun c => isDigit c && decide (c ≠ '0')) (repeated (pfilter isDigit))))
    (pmap (fun c => [c]) (just '0'))

/-- src/hir_tokenizer.rs:60 -/
def tHexnum : P Char Token :=
  pmap Token.hexNum (ignoreThen (pthen (just '0') (just 'x')) (textInt isDigit16))

/-- src/hir_tokenizer.rs:63 -/
def tNum : P Char Token := pmap Token.num (textInt isDigit10)

/-- src/hir_tokenizer.rs:66-70 -/
def tStr : P Char Token :=
  pmap Token.str
    (thenIgnore (ignoreThen (just '"') (repeated (pfilter fun c => decide (c ≠ '"')))) (just '"'))

/-- src/hir_tokenizer.rs:73 -/
def punctChars : List Char := c!"[]{}()<>=,;:*."

/-- src/hir_tokenizer.rs:73 -/
def tPunct : P Char Token := pmap Token.punct (oneOf punctChars)

/-- src/hir_tokenizer.rs:76 -/
def isIdentHead (c : Char) : Bool := Unicode.alphabetic c || decide (c = '_')

/-- src/hir_tokenizer.rs:79 -/
def isIdentChar (c : Char) : Bool := Unicode.alphanumeric c || decide (c = '_')

/-- src/hir_tokenizer.rs:82; the nested vectors are flattened by `chain`. -/
def identTail : P Char Str :=
  pmap (fun (l : List (Str × Char)) => (l.map fun (cs, c) => cs ++ [c]).flatten)
    (repeated (pthen (repeated (just ':')) (pfilter isIdentChar)))

/-- src/hir_tokenizer.rs:91-96 -/
def modifierNames : List Str :=
  [c!"exported", c!"async", c!"memberfunc", c!"noreturn", c!"nosideeffects", c!"pure"]

/-- src/hir_tokenizer.rs:97-106 -/
def typeNames : List Str :=
  [c!"void", c!"int1", c!"int8", c!"int16", c!"int32", c!"int64", c!"float32", c!"float64",
   c!"data128", c!"ptr"]

/-- src/hir_tokenizer.rs:88-108 -/
def classifyIdent (s : Str) : Token :=
  if s = c!"declare" then .declare
  else if s = c!"define" then .define
  else if s ∈ modifierNames then .funcModifier s
  else if s ∈ typeNames then .type s
  else .ident s

/-- src/hir_tokenizer.rs:85-108 -/
def tIdent : P Char Token :=
  pmap (fun (c, cs) => classifyIdent (c :: cs)) (pthen (pfilter isIdentHead) identTail)

/-- src/hir_tokenizer.rs:111-114, 117-120, 123-126 -/
def tSigil (sigil : Char) (mk : Str → Token) : P Char Token :=
  pmap (fun (c, cs) => mk (c :: cs)) (pthen (just sigil) identTail)

/-- src/hir_tokenizer.rs:129-140 -/
def tokenChoice : P Char Token :=
  choice none
    [tComment, tHexnum, tNum, tStr, tPunct, tIdent,
     tSigil '@' Token.globalName, tSigil '%' Token.localName, tSigil '!' Token.debugRef, tNewline]

/-- src/hir_tokenizer.rs:145 `one_of(" \t").repeated()` -/
def blanks : P Char Str := repeated (oneOf [' ', '\t'])

/-- src/hir_tokenizer.rs:143-145: one padded token; the recovery is inside `map_with_span`. -/
def paddedToken : P Char (Spanned Token) :=
  paddedBy blanks (pmapSpan (fun t sp => (t, sp)) (recoverSkip tokenChoice))

/-- src/hir_tokenizer.rs:48, 143-147 `tokenizer()` -/
def tokenizer : P Char (List (Spanned Token)) := thenIgnore (repeated paddedToken) pend

/-- `chumsky::Stream::from(&str)`: character `i` has span `i..i+1`. -/
def charStream : Nat → Str → Toks Char
  | _, [] => []
  | i, c :: cs => (c, { start := i, stop := i + 1 }) :: charStream (i + 1) cs

end HyperIR
