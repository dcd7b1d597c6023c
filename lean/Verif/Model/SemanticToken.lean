import Verif.Model.Tokenizer
import Verif.Model.Rope

/- Model of src/semantic_token.rs. -/

namespace HyperIR

/-- `lsp_types::SemanticTokenType` (the ones in use) -/
inductive SemType where
  | comment | type | variable | string | number | keyword | modifier
  deriving DecidableEq, Repr

/-- src/semantic_token.rs:6-14 -/
def legendType : List SemType :=
  [.comment, .type, .variable, .string, .number, .keyword, .modifier]

/-- src/semantic_token.rs:16-21 -/
structure HIRSemanticToken where
  start : Nat
  length : Nat
  tokenType : Nat
  deriving DecidableEq, Repr

/-- src/semantic_token.rs:23-29; `position(..).unwrap()` may panic. -/
def createSemanticToken (span : Span) (ttype : SemType) : Outcome HIRSemanticToken :=
  match legendType.findIdx? (fun t => decide (t = ttype)) with
  | some i => .ok { start := span.start, length := span.len, tokenType := i }
  | none => .panic

/-- src/semantic_token.rs:35-52: highlighting class of a token -/
def semTypeOf : Token → Option SemType
  | .newline => none
  | .comment => some .comment
  | .num _ => some .number
  | .hexNum _ => some .number
  | .str _ => some .string
  | .localName _ => some .variable
  | .globalName _ => some .variable
  | .ident _ => none
  | .debugRef _ => none
  | .type _ => some .type
  | .punct _ => none
  | .declare => some .keyword
  | .define => some .keyword
  | .funcModifier _ => some .modifier

/-- src/semantic_token.rs:32-54 -/
def semanticTokensFromTokens : List (Spanned Token) → Outcome (List HIRSemanticToken)
  | [] => .ok []
  | (t, sp) :: ts => match semTypeOf t with
    | none => semanticTokensFromTokens ts
    | some ty => match createSemanticToken sp ty with
      | .panic => .panic
      | .ok st => match semanticTokensFromTokens ts with
        | .panic => .panic
        | .ok r => .ok (st :: r)

/-- `lsp_types::SemanticToken` (`token_modifiers_bitset` is always 0) -/
structure LspSemanticToken where
  deltaLine : Nat
  deltaStart : Nat
  length : Nat
  tokenType : Nat
  deriving DecidableEq, Repr

/-- src/semantic_token.rs:62-66: line and start column of a token, `u32` arithmetic -/
def semPos (b : Build) (rope : Str) (start : Nat) : Outcome (Option (Nat × Nat)) :=
  match byteToLine? start rope with
  | none => .ok none
  | some l =>
    let line := asU32 l
    match lineToChar? line rope with
    | none => .ok none
    | some f => match byteToChar? start rope with
      | none => .ok none
      | some ch => match u32Sub b (asU32 ch) (asU32 f) with
        | .ok col => .ok (some (line, col))
        | .panic => .panic

/-- src/semantic_token.rs:57-85 -/
def convertToLspTokens (b : Build) (rope : Str) :
    Nat → Nat → List HIRSemanticToken → Outcome (List LspSemanticToken)
  | _, _, [] => .ok []
  | preLine, preStart, t :: ts => match semPos b rope t.start with
    | .panic => .panic
    | .ok none => convertToLspTokens b rope preLine preStart ts
    | .ok (some (line, start)) => match u32Sub b line preLine with
      | .panic => .panic
      | .ok deltaLine =>
        match (if deltaLine = 0 then u32Sub b start preStart else .ok start) with
        | .panic => .panic
        | .ok deltaStart => match convertToLspTokens b rope line start ts with
          | .panic => .panic
          | .ok rest =>
            .ok ({ deltaLine := deltaLine, deltaStart := deltaStart, length := asU32 t.length,
                   tokenType := asU32 t.tokenType } :: rest)

end HyperIR
