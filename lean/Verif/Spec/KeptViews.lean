import Verif.Spec.Kept
import Verif.Spec.Highlight

/-
What an edit that only renames symbols must leave of the lenses, the hints and the highlighting.
-/

namespace HyperIR.Spec

/-- The lenses correspond one to one: those that correspond carry the same command, are on the same lines, and have as arguments the
document and the name of the function they belong to, before and after the renames. -/
def LensesKept (text : Str) (res : ParserResult) (renamed : SymbolOccurrence → Str → Prop) (uri uri' : Str) (lenses lenses' : List CodeLens) : Prop :=
  ∃ pairs : List (CodeLens × CodeLens), lenses.Perm (pairs.map Prod.fst) ∧ lenses'.Perm (pairs.map Prod.snd) ∧
    ∀ p ∈ pairs, p.2.command = p.1.command ∧ SameLines p.1.range p.2.range ∧
      ∃ o n, Occurs res.tokens res.stmts o ∧ o.symbolKind = .function ∧ o.useDef = .def_ ∧
        (PlainTo text o.span.stop → EditorRange text o.span p.1.range) ∧ CalledAfter renamed o n ∧
        p.1.arguments = [.str uri, .str o.name] ∧ p.2.arguments = [.str uri', .str n]

/-- The same places are highlighted, in the same way: on the same line, and with the same length unless the place is that of a renamed
occurrence, which is as long as its name. -/
def HighlightsKept (text : Str) (res : ParserResult) (renamed : SymbolOccurrence → Str → Prop) (hs hs' : List Highlight) : Prop :=
  Each (fun x x' => x'.type = x.type ∧ x'.start.line = x.start.line ∧
    (x'.length = x.length ∨ ∃ o v, Occurs res.tokens res.stmts o ∧ renamed o v ∧ LspOffset text x.start o.span.start ∧
      x.length = o.name.length ∧ x'.length = v.length)) hs hs'

/-- A part of a label says the same as before, or it is a link to an occurrence and shows the name the occurrence has after the renames. -/
def PartKept (text : Str) (res : ParserResult) (renamed : SymbolOccurrence → Str → Prop) (uri uri' : Str) (a b : LabelPart) : Prop :=
  (b = a ∧ a.location = none) ∨
  ∃ o r r', Occurs res.tokens res.stmts o ∧ a.value = o.name ∧ CalledAfter renamed o b.value ∧ a.tooltip = none ∧ b.tooltip = none ∧
    a.location = some ⟨uri, r⟩ ∧ b.location = some ⟨uri', r'⟩ ∧ SameLines r r' ∧ (PlainTo text o.span.stop → EditorRange text o.span r)

/-- The same hints on the same lines, in the same order, with the new names. -/
def HintsKept (text : Str) (res : ParserResult) (renamed : SymbolOccurrence → Str → Prop) (uri uri' : Str) (hints hints' : List InlayHint) : Prop :=
  Each (fun h h' => h'.position.line = h.position.line ∧ Each (PartKept text res renamed uri uri') h.label h'.label) hints hints'

/-- No renamed occurrence stands in the text of a debug annotation. -/
def AnnotationsUntouched (res : ParserResult) (renamed : SymbolOccurrence → Str → Prop) : Prop :=
  ∀ n d f l, .dbgAnnotation n d ∈ res.stmts → d.head? = some f → d.getLast? = some l →
    ∀ o v, Occurs res.tokens res.stmts o → renamed o v → o.span.stop ≤ f.2.start ∨ l.2.stop ≤ o.span.start

section
variable [Unicode]

/-- Servers show the same lenses, highlighting and hints for the document before and after the renames.  For the hints, the servers have
the same workspace folders and files, and the annotations, whose texts the hints show, are untouched. -/
def ViewsKept (text text' : Str) (res : ParserResult) (renamed : SymbolOccurrence → Str → Prop) : Prop :=
  ∀ env st uri env' st' uri', Opened st uri text → Opened st' uri' text' →
    (∀ lenses lenses', codeLens env st uri = some lenses → codeLens env' st' uri' = some lenses' →
      LensesKept text res renamed uri uri' lenses lenses') ∧
    (∃ ls ls', semanticTokensFull env st uri = .ok (some ls) ∧ semanticTokensFull env' st' uri' = .ok (some ls') ∧
      HighlightsKept text res renamed (decode ⟨0, 0⟩ ls) (decode ⟨0, 0⟩ ls')) ∧
    (AnnotationsUntouched res renamed → env'.fs = env.fs → env'.json = env.json → st'.roots = st.roots →
      (inlayHint env st uri = .panic ∧ inlayHint env' st' uri' = .panic) ∨
      ∃ hints hints', inlayHint env st uri = .ok (some hints) ∧ inlayHint env' st' uri' = .ok (some hints') ∧
        HintsKept text res renamed uri uri' hints hints')

end

end HyperIR.Spec
