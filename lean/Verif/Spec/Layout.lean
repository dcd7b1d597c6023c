import Verif.Spec.Remarks
import Verif.Spec.Grammar

/-
Texts with the same tokens in another layout: which places correspond, and which answers say the same.
-/

namespace HyperIR.Spec

/-- One by one. -/
def OneByOne {α β : Type} (R : α → β → Prop) : List α → List β → Prop
  | [], [] => True
  | x :: l, y :: l' => R x y ∧ OneByOne R l l'
  | _, _ => False

/-- One by one, in some order. -/
def Matched {α β : Type} (R : α → β → Prop) (l : List α) (l' : List β) : Prop := ∃ m, OneByOne R l m ∧ m.Perm l'

/-! ### Texts -/

/-- The tokens that are not comments. -/
def codeTokens (ts : List Tok) : List Tok := ts.filter fun t => decide (t.1 ≠ .comment)

/-- The same tokens, wherever they are. -/
def SameTokens (c c' : List Tok) : Prop := c.map Prod.fst = c'.map Prod.fst

/-- `AnnotationValue c i j`: the tokens `i` to `j` follow `!name =` on its line. -/
def AnnotationValue (c : List Tok) (i j : Nat) : Prop := ∃ k, i = k + 2 ∧ i ≤ j ∧ (∃ n, c[k]?.map Prod.fst = some (.debugRef n)) ∧
  c[k + 1]?.map Prod.fst = some (.punct '=') ∧ ∀ m, i ≤ m → m ≤ j → ∃ t, c[m]? = some t ∧ t.1 ≠ .newline

/-- The values of annotations are spelled the same (other layouts of JSON are other texts). -/
def SameValues (T : Str) (c : List Tok) (T' : Str) (c' : List Tok) : Prop := ∀ i j a b a' b', AnnotationValue c i j →
  c[i]? = some a → c[j]? = some b → c'[i]? = some a' → c'[j]? = some b' →
  (T.drop a.2.start).take (b.2.stop - a.2.start) = (T'.drop a'.2.start).take (b'.2.stop - a'.2.start)

/-! ### Places -/

/-- The position of an offset.  (Editors have none between a carriage return and a line feed, where a line end that follows a comment
may start.) -/
def At (text : Str) (p : Pos) (off : Nat) : Prop := LspOffset text p off ∨ InCrLf text off

/-- The places where something starts: the same token in both texts, or both texts' ends. -/
def SameStart (T : Str) (c : List Tok) (T' : Str) (c' : List Tok) (p p' : Pos) : Prop :=
  (∃ (k : Nat) (a b : Tok), c[k]? = some a ∧ c'[k]? = some b ∧ At T p a.2.start ∧ At T' p' b.2.start) ∨
  (LspOffset T p T.length ∧ LspOffset T' p' T'.length)

/-- The places where something ends: the same token in both texts, or nothing. -/
def SameStop (T : Str) (c : List Tok) (T' : Str) (c' : List Tok) (p p' : Pos) : Prop :=
  (∃ (k : Nat) (a b : Tok), c[k]? = some a ∧ c'[k]? = some b ∧ LspOffset T p a.2.stop ∧ LspOffset T' p' b.2.stop) ∨
  (p = ⟨0, 0⟩ ∧ p' = ⟨0, 0⟩)

/-- Places inside or between the same tokens. -/
def SameSpot (T : Str) (c : List Tok) (T' : Str) (c' : List Tok) (p p' : Pos) : Prop :=
  ∃ off off', LspOffset T p off ∧ LspOffset T' p' off' ∧ ∀ (k : Nat) (a b : Tok), c[k]? = some a → c'[k]? = some b →
    (a.2.start ≤ off ↔ b.2.start ≤ off') ∧ (a.2.stop ≤ off ↔ b.2.stop ≤ off')

/-- The same request, about the corresponding place (`S`). -/
inductive AsksAlike (S : Pos → Pos → Prop) : Msg → Msg → Prop
  | gotoDefinition {u p p'} : S p p' → AsksAlike S (.gotoDefinition u p) (.gotoDefinition u p')
  | gotoDeclaration {u p p'} : S p p' → AsksAlike S (.gotoDeclaration u p) (.gotoDeclaration u p')
  | references {u p p'} : S p p' → AsksAlike S (.references u p) (.references u p')
  | prepareRename {u p p'} : S p p' → AsksAlike S (.prepareRename u p) (.prepareRename u p')
  | rename {u p p' x} : S p p' → AsksAlike S (.rename u p x) (.rename u p' x)
  | codeAction {u r r'} : S r.start r'.start → (r.start = r.stop ↔ r'.start = r'.stop) → AsksAlike S (.codeAction u r) (.codeAction u r')
  | codeActionResolve {a} : AsksAlike S (.codeActionResolve a) (.codeActionResolve a)
  | semanticTokensFull {u} : AsksAlike S (.semanticTokensFull u) (.semanticTokensFull u)
  | documentSymbol {u} : AsksAlike S (.documentSymbol u) (.documentSymbol u)
  | foldingRange {u} : AsksAlike S (.foldingRange u) (.foldingRange u)
  | inlayHint {u} : AsksAlike S (.inlayHint u) (.inlayHint u)
  | codeLens {u} : AsksAlike S (.codeLens u) (.codeLens u)
  | executeCommand {c as} : AsksAlike S (.executeCommand c as) (.executeCommand c as)

/-! ### Answers -/

section
variable (P Q : Pos → Pos → Prop) (uri : Str)

def AlikeRange (r r' : Range) : Prop := P r.start r'.start ∧ Q r.stop r'.stop

/-- Corresponding places of the document. -/
def AlikeLocation (l l' : Location) : Prop := l.uri = uri ∧ l'.uri = uri ∧ AlikeRange P Q l.range l'.range

/-- Links lead to corresponding places of the document, or to the same line of another file. -/
def AlikeLink (l l' : LocationLink) : Prop := AlikeRange P Q l.origin l'.origin ∧
  (AlikeLocation P Q uri l.target l'.target ∨
    (l'.target = l.target ∧ l.target.range.stop = l.target.range.start ∧ l.target.range.start.character = 0))

def AlikeEntry (s s' : DocumentSymbol) : Prop :=
  s'.name = s.name ∧ s'.kind = s.kind ∧ AlikeRange P Q s.range s'.range ∧ AlikeRange P Q s.selectionRange s'.selectionRange

/-- Folds of corresponding ranges. -/
def AlikeFold (f f' : FoldingRange) : Prop := f'.collapsedText = f.collapsedText ∧ ∃ r r', AlikeRange P Q r r' ∧
  f.startLine = r.start.line ∧ f.endLine = r.stop.line ∧ f'.startLine = r'.start.line ∧ f'.endLine = r'.stop.line

def AlikePart (p p' : LabelPart) : Prop := p'.value = p.value ∧ p'.tooltip = p.tooltip ∧
  match p.location, p'.location with
  | none, none => True
  | some l, some l' => AlikeLocation P Q uri l l'
  | _, _ => False

/-- Hints stand at the ends of tokens. -/
def AlikeHint (h h' : InlayHint) : Prop := Q h.position h'.position ∧ OneByOne (AlikePart P Q uri) h.label h'.label

def AlikeLens (l l' : CodeLens) : Prop := AlikeRange P Q l.range l'.range ∧ l'.command = l.command ∧ l'.arguments = l.arguments

def AlikeEdit (e e' : TextEdit) : Prop := AlikeRange P Q e.range e'.range ∧ e'.newText = e.newText

def AlikeEdits : WorkspaceEdit → WorkspaceEdit → Prop := OneByOne fun x y => y.1 = x.1 ∧ Matched (AlikeEdit P Q) x.2 y.2

def AlikeAction (a a' : CodeAction) : Prop := a'.title = a.title ∧ a'.data = a.data ∧
  match a.edit, a'.edit with
  | none, none => True
  | some e, some e' => AlikeEdits P Q e e'
  | _, _ => False

def AlikeProblem (d d' : Diagnostic) : Prop := AlikeRange P Q d.range d'.range ∧ d'.message = d.message ∧
  OneByOne (fun x y => AlikeLocation P Q uri x.1 y.1 ∧ y.2 = x.2) d.related d'.related

def AlikeHighlight (h h' : Highlight) : Prop := P h.start h'.start ∧ h'.length = h.length ∧ h'.type = h.type

/-- The same answer, said about corresponding places. -/
inductive AlikeReply : Reply → Reply → Prop
  | noLinks : AlikeReply (.links none) (.links none)
  | links {l l'} : OneByOne (AlikeLink P Q uri) l l' → AlikeReply (.links (some l)) (.links (some l'))
  | noLocations : AlikeReply (.locations none) (.locations none)
  | locations {l l'} : OneByOne (AlikeLocation P Q uri) l l' → AlikeReply (.locations (some l)) (.locations (some l'))
  | tokens {l l'} : OneByOne (AlikeHighlight P) (codeHighlights l) (codeHighlights l') → AlikeReply (.tokens (some l)) (.tokens (some l'))
  | symbols {l l'} : Matched (AlikeEntry P Q) l l' → AlikeReply (.symbols (some l)) (.symbols (some l'))
  | noRange : AlikeReply (.range none) (.range none)
  | range {r r'} : AlikeRange P Q r r' → AlikeReply (.range (some r)) (.range (some r'))
  | edit {e e'} : AlikeEdits P Q e e' → AlikeReply (.edit e) (.edit e')
  | noActions : AlikeReply (.actions none) (.actions none)
  | actions {l l'} : OneByOne (AlikeAction P Q) l l' → AlikeReply (.actions (some l)) (.actions (some l'))
  | action {a a'} : AlikeAction P Q a a' → AlikeReply (.action a) (.action a')
  | folds {l l'} : OneByOne (AlikeFold P Q) l l' → AlikeReply (.folds (some l)) (.folds (some l'))
  | hints {l l'} : OneByOne (AlikeHint P Q uri) l l' → AlikeReply (.hints (some l)) (.hints (some l'))
  | lenses {l l'} : Matched (AlikeLens P Q) l l' → AlikeReply (.lenses (some l)) (.lenses (some l'))
  | graph {g} : AlikeReply (.graph g) (.graph g)
  | error {e} : AlikeReply (.error e) (.error e)

end

end HyperIR.Spec
