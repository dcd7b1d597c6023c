import Verif.Spec.Consistency
import Verif.Spec.Highlight
import Verif.Spec.Lexical

/-
A document below a block of comment lines: requests and answers some lines further down.
-/

namespace HyperIR.Spec

/-- `CommentBlock n text`: the text consists of `n` lines with only blanks and a comment (or nothing), in ASCII. -/
inductive CommentBlock : Nat → Str → Prop
  | nil : CommentBlock 0 []
  | line {n b c eol l} : Blank b → (c = [] ∨ ∃ t, c = '#' :: t ∧ Plain t ∧ NoEol t) → (eol = ['\n'] ∨ eol = ['\r', '\n']) →
      CommentBlock n l → CommentBlock (n + 1) (b ++ c ++ eol ++ l)

/-! ### Some lines further down -/

def lowerPos (n : Nat) (p : Pos) : Pos := { line := p.line + n, character := p.character }
def lowerRange (n : Nat) (r : Range) : Range := { start := lowerPos n r.start, stop := lowerPos n r.stop }
def lowerLoc (n : Nat) (l : Location) : Location := { uri := l.uri, range := lowerRange n l.range }
def lowerHighlight (n : Nat) (h : Highlight) : Highlight := { h with start := lowerPos n h.start }
def lowerSymbol (n : Nat) (s : DocumentSymbol) : DocumentSymbol :=
  { name := s.name, kind := s.kind, range := lowerRange n s.range, selectionRange := lowerRange n s.selectionRange }
def lowerFold (n : Nat) (f : FoldingRange) : FoldingRange :=
  { startLine := f.startLine + n, endLine := f.endLine + n, collapsedText := f.collapsedText }
def lowerPart (n : Nat) (p : LabelPart) : LabelPart :=
  { value := p.value, tooltip := p.tooltip, location := p.location.map (lowerLoc n) }
def lowerHint (n : Nat) (h : InlayHint) : InlayHint := { position := lowerPos n h.position, label := h.label.map (lowerPart n) }
def lowerLens (n : Nat) (l : CodeLens) : CodeLens := { range := lowerRange n l.range, command := l.command, arguments := l.arguments }
def lowerEdit (n : Nat) (e : TextEdit) : TextEdit := { range := lowerRange n e.range, newText := e.newText }
def lowerEdits (n : Nat) (e : WorkspaceEdit) : WorkspaceEdit := e.map fun x => (x.1, x.2.map (lowerEdit n))
def lowerAction (n : Nat) (a : CodeAction) : CodeAction :=
  { title := a.title, data := a.data, edit := a.edit.map (lowerEdits n) }
def lowerDiagnostic (n : Nat) (d : Diagnostic) : Diagnostic :=
  { range := lowerRange n d.range, message := d.message, related := d.related.map fun r => (lowerLoc n r.1, r.2) }

/-- A request, with its positions moved. -/
def lowerMsg (n : Nat) : Msg → Msg
  | .gotoDefinition u p => .gotoDefinition u (lowerPos n p)
  | .gotoDeclaration u p => .gotoDeclaration u (lowerPos n p)
  | .references u p => .references u (lowerPos n p)
  | .prepareRename u p => .prepareRename u (lowerPos n p)
  | .rename u p x => .rename u (lowerPos n p) x
  | .codeAction u r => .codeAction u (lowerRange n r)
  | m => m

/-- `Lowered uri n r r'`: the answer `r'` is the answer `r` with everything in the document `uri` moved by `n` lines, up to the order of
the parts.  Links may also lead to other files (to the start of a line); those are not moved.  The highlighting may begin with
comments in the first `n` lines. -/
inductive Lowered (uri : Str) (n : Nat) : Reply → Reply → Prop
  | noLinks : Lowered uri n (.links none) (.links none)
  | links {own other : List LocationLink} : (∀ l ∈ own, l.target.uri = uri) →
      (∀ l ∈ other, l.target.range.start = l.target.range.stop ∧ l.target.range.start.character = 0) →
      Lowered uri n (.links (some (own ++ other)))
        (.links (some (own.map (fun l => { origin := lowerRange n l.origin, target := lowerLoc n l.target })
          ++ other.map fun l => { origin := lowerRange n l.origin, target := l.target })))
  | locations {l} : Lowered uri n (.locations l) (.locations (l.map (List.map (lowerLoc n))))
  | tokens {l l' above} : decode ⟨0, 0⟩ l' = above ++ (decode ⟨0, 0⟩ l).map (lowerHighlight n) →
      (∀ h ∈ above, h.start.line < n ∧ legendType[h.type]? = some .comment) → Lowered uri n (.tokens (some l)) (.tokens (some l'))
  | symbols {l l'} : l'.Perm (l.map (lowerSymbol n)) → Lowered uri n (.symbols (some l)) (.symbols (some l'))
  | range {r} : Lowered uri n (.range r) (.range (r.map (lowerRange n)))
  | edit {e e'} : SameEdits (lowerEdits n e) e' → Lowered uri n (.edit e) (.edit e')
  | noActions : Lowered uri n (.actions none) (.actions none)
  | actions {l l'} : SameActions (l.map (lowerAction n)) l' → Lowered uri n (.actions (some l)) (.actions (some l'))
  | action {a a'} : SameAction (lowerAction n a) a' → Lowered uri n (.action a) (.action a')
  | folds {l} : Lowered uri n (.folds (some l)) (.folds (some (l.map (lowerFold n))))
  | hints {l} : Lowered uri n (.hints (some l)) (.hints (some (l.map (lowerHint n))))
  | lenses {l l'} : l'.Perm (l.map (lowerLens n)) → Lowered uri n (.lenses (some l)) (.lenses (some l'))
  | graph {g} : Lowered uri n (.graph g) (.graph g)
  | error {e} : Lowered uri n (.error e) (.error e)

/-- Both crash, or both answer, with related answers and without changing their states. -/
def Answers (R : Reply → Reply → Prop) (st st' : ServerState) : Outcome (ServerState × Reply) → Outcome (ServerState × Reply) → Prop
  | .ok (s, r), .ok (s', r') => s = st ∧ s' = st' ∧ R r r'
  | .panic, .panic => True
  | _, _ => False

end HyperIR.Spec
