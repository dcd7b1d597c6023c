import Verif.Spec.History
import Verif.Spec.Diagnostics

/-
Comparing answers: of two positions, and of two runs that iterate over hash maps in different orders.
-/

namespace HyperIR.Spec

/-- Where the links lead (without the range they start from). -/
def targets : Outcome (Option (List LocationLink)) → Outcome (Option (List Location))
  | .ok (some l) => .ok (some (l.map (·.target)))
  | .ok none => .ok none
  | .panic => .panic

/-- The same edits for the same documents, up to the order of the edits of a document. -/
def SameEdits : WorkspaceEdit → WorkspaceEdit → Prop
  | [], [] => True
  | (u, a) :: x, (v, b) :: y => u = v ∧ a.Perm b ∧ SameEdits x y
  | _, _ => False

/-- The same code action, up to the order of its edits. -/
def SameAction (a b : CodeAction) : Prop :=
  a.title = b.title ∧ a.data = b.data ∧
    match a.edit, b.edit with
    | none, none => True
    | some x, some y => SameEdits x y
    | _, _ => False

/-- The same code actions. -/
def SameActions : List CodeAction → List CodeAction → Prop
  | [], [] => True
  | a :: x, b :: y => SameAction a b ∧ SameActions x y
  | _, _ => False

/-- The same answer, up to the order of its parts. -/
inductive SameReply : Reply → Reply → Prop where
  | same {r} : SameReply r r
  | published {u v d e} : d.Perm e → SameReply (.published ⟨u, v, d⟩) (.published ⟨u, v, e⟩)
  | symbols {x y} : x.Perm y → SameReply (.symbols (some x)) (.symbols (some y))
  | lenses {x y} : x.Perm y → SameReply (.lenses (some x)) (.lenses (some y))
  | edit {x y} : SameEdits x y → SameReply (.edit x) (.edit y)
  | actions {x y} : SameActions x y → SameReply (.actions (some x)) (.actions (some y))
  | action {x y} : SameAction x y → SameReply (.action x) (.action y)

/-- The same answers, one by one. -/
def SameReplies : List Reply → List Reply → Prop
  | [], [] => True
  | a :: x, b :: y => SameReply a b ∧ SameReplies x y
  | _, _ => False

/-- Two outcomes of one message: the same crash, or the same state and the same answer. -/
def SameOutcome : Outcome (ServerState × Reply) → Outcome (ServerState × Reply) → Prop
  | .ok (s, r), .ok (s', r') => s = s' ∧ SameReply r r'
  | .panic, .panic => True
  | _, _ => False

/-- Two outcomes of a history. -/
def SameHistory : Outcome (ServerState × List Reply) → Outcome (ServerState × List Reply) → Prop
  | .ok (s, r), .ok (s', r') => s = s' ∧ SameReplies r r'
  | .panic, .panic => True
  | _, _ => False

/-- The same circumstances but for the order in which hash maps are iterated. -/
def SameButOrder (a b : Env) : Prop := a.build = b.build ∧ a.fs = b.fs ∧ a.json = b.json

/-- The same messages under the same circumstances but for the order in which hash maps are iterated. -/
def SameMessages : List Step → List Step → Prop
  | [], [] => True
  | (e, m) :: x, (f, n) :: y => SameButOrder e f ∧ m = n ∧ SameMessages x y
  | _, _ => False

end HyperIR.Spec
