import Verif.Spec.Answers

/-
Edits that an editor can make together (C100).
-/

namespace HyperIR.Spec

/-- The reply asks the editor to make the edits, or offers an action that does. -/
def Asks : Reply → WorkspaceEdit → Prop
  | .edit e, w => w = e
  | .actions (some l), w => ∃ a ∈ l, a.edit = some w
  | .action a, w => a.edit = some w
  | _, _ => False

/-- The message is about the document (for an action that is completed: the document it has been offered for). -/
def AboutDoc : Msg → Str → Prop
  | .rename u _ _, uri => u = uri
  | .codeAction u _, uri => u = uri
  | .codeActionResolve a, uri => ∃ d, a.data = .shift d ∧ d.uri = uri
  | _, _ => False

/-- The text has the place: the line exists and has so many characters before its end (lines and characters as the server counts them). -/
def HasPlace (text : Str) (p : Pos) : Prop :=
  ∃ start, LineBegins text p.line start ∧ start + p.character ≤ text.length ∧ ∀ next, LineBegins text (p.line + 1) next → start + p.character < next

/-- The ranges do not overlap: one ends before the other begins. -/
def RangesApart (a b : Range) : Prop := PosLe a.stop b.start ∨ PosLe b.stop a.start

/-- The edits can be made together in the text: each is at a range of the text, and no two overlap. -/
def Together (text : Str) (edits : List TextEdit) : Prop :=
  (∀ e ∈ edits, HasPlace text e.range.start ∧ HasPlace text e.range.stop ∧ PosLe e.range.start e.range.stop) ∧
  edits.Pairwise fun a b => RangesApart a.range b.range

end HyperIR.Spec
