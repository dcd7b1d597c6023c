import Verif.Spec.Server

/-
Histories of messages: which text a document has, and which document a request is about.
-/

namespace HyperIR.Spec

/-- The text of the document after the message (full-text synchronization: the last of the changes counts). -/
def textAfter (uri : Str) (old : Option Str) : Msg → Option Str
  | .didOpen u _ t => if u = uri then some t else old
  | .didChange u _ cs => if u = uri then (cs.getLast?.map (·.text)).or old else old
  | _ => old

/-- A message together with what the server depends on when it handles it. -/
abbrev Step := Env × Msg

/-- The latest text of the document (`none` if it was never opened). -/
def latestText (ms : List Step) (uri : Str) : Option Str := ms.foldl (fun old e => textAfter uri old e.2) none

/-- Change notifications carry one change, without a range. -/
def SingleChanges (ms : List Step) : Prop :=
  ∀ env u v cs, (env, Msg.didChange u v cs) ∈ ms → ∃ t, cs = [⟨none, t⟩]

/-- The message changes no settings and no document. -/
def IsRequest : Msg → Prop
  | .initialize _ => False
  | .didOpen _ _ _ => False
  | .didChange _ _ _ => False
  | _ => True

/-- The message is the `initialize` request. -/
def isInitialize : Step → Bool
  | (_, .initialize _) => true
  | _ => false

/-- The request is about the document. -/
def About (uri : Str) : Msg → Prop
  | .gotoDefinition u _ => u = uri
  | .gotoDeclaration u _ => u = uri
  | .references u _ => u = uri
  | .semanticTokensFull u => u = uri
  | .documentSymbol u => u = uri
  | .prepareRename u _ => u = uri
  | .rename u _ _ => u = uri
  | .codeAction u _ => u = uri
  | .codeActionResolve a => ∃ d, a.data = .shift d ∧ d.uri = uri
  | .foldingRange u => u = uri
  | .inlayHint u => u = uri
  | .codeLens u => u = uri
  | .executeCommand c as => c = c!"visualize-cfg" ∧ ∃ n, as = [.str uri, .str n]
  | _ => False

/-- An answer without content. -/
def NullOrError : Reply → Prop
  | .links l => l = none
  | .locations l => l = none
  | .tokens l => l = none
  | .symbols l => l = none
  | .range r => r = none
  | .actions l => l = none
  | .folds l => l = none
  | .hints l => l = none
  | .lenses l => l = none
  | .error _ => True
  | _ => False

/-- What is published by a reply. -/
def publishedBy : Reply → Option Publish
  | .published p => some p
  | _ => none

end HyperIR.Spec
