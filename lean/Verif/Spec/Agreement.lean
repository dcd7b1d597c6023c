import Verif.Model.Server
import Verif.Spec.Text

/-
When two answers of the server about one document agree.
-/

namespace HyperIR.Spec

/-- The position stands at the beginning of a line and nothing is selected (a link into another file). -/
def LineStart (r : Range) : Prop := r.start = r.stop ∧ r.start.character = 0

/-- The fold covers the lines of an entry of the outline. -/
def FoldsEntry (s : DocumentSymbol) (fold : FoldingRange) : Prop :=
  fold.startLine = s.range.start.line ∧ fold.endLine = s.range.stop.line

/-- The hint stands behind an entry of the outline, shows its name and links to it. -/
def EndsEntry (uri : Str) (s : DocumentSymbol) (hint : InlayHint) : Prop :=
  hint.position = s.range.stop ∧
    hint.label = [{ value := s.name, location := some { uri := uri, range := s.selectionRange } }]

/-- The lens stands at the name of an entry of the outline and shows the graph of the function of that name. -/
def LensOf (uri : Str) (s : DocumentSymbol) (lens : CodeLens) : Prop :=
  lens.range = s.selectionRange ∧ lens.command = c!"visualize-cfg" ∧ lens.arguments = [.str uri, .str s.name]

end HyperIR.Spec
