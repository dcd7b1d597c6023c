import Verif.Model.SemanticToken
import Verif.Spec.Position

/-
Syntax highlighting: the relative encoding of the protocol and what should be highlighted.
-/

namespace HyperIR.Spec

/-- A highlighted place: start, length and number of the type. -/
structure Highlight where
  start : Pos
  length : Nat
  type : Nat
  deriving DecidableEq, Repr

/-- Decoding of the relative encoding (LSP specification, `textDocument/semanticTokens`): lines are relative to the previous
token, columns are relative to the previous token if it is on the same line. -/
def decode (prev : Pos) : List LspSemanticToken → List Highlight
  | [] => []
  | t :: ts =>
    let start : Pos := ⟨prev.line + t.deltaLine, if t.deltaLine = 0 then prev.character + t.deltaStart else t.deltaStart⟩
    { start := start, length := t.length, type := t.tokenType } :: decode start ts

/-- How a token is highlighted: comments, numbers, strings, `%` and `@` names, types, keywords, modifiers. -/
inductive Class : Token → SemType → Prop
  | comment : Class .comment .comment
  | num {d} : Class (.num d) .number
  | hexNum {d} : Class (.hexNum d) .number
  | str {s} : Class (.str s) .string
  | localName {n} : Class (.localName n) .variable
  | globalName {n} : Class (.globalName n) .variable
  | type {n} : Class (.type n) .type
  | declare : Class .declare .keyword
  | define : Class .define .keyword
  | modifier {n} : Class (.funcModifier n) .modifier

/-- `Highlights text toks hs`: the highlighted places of the tokens of a text, in order.  Where the text before the token is not plain,
nothing is said about the position. -/
inductive Highlights (text : Str) : List (Spanned Token) → List Highlight → Prop
  | nil : Highlights text [] []
  | skip {t sp toks hs} : (∀ ty, ¬ Class t ty) → Highlights text toks hs → Highlights text ((t, sp) :: toks) hs
  | take {t sp toks hs ty p i} : Class t ty → legendType[i]? = some ty → (PlainTo text sp.start → LspOffset text p sp.start) → Highlights text toks hs →
      Highlights text ((t, sp) :: toks) (⟨p, sp.stop - sp.start, i⟩ :: hs)

/-- The highlighted place ends on the line it starts on. -/
def OnLine (text : Str) (h : Highlight) : Prop :=
  ∃ start content, LspLine text h.start.line start content ∧ h.start.character + h.length ≤ content.length

/-- The place ends where or before the other one starts. -/
def EndsBefore (h h' : Highlight) : Prop :=
  h.start.line < h'.start.line ∨ (h.start.line = h'.start.line ∧ h.start.character + h.length ≤ h'.start.character)

end HyperIR.Spec
