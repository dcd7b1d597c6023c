import Verif.Spec.CrashSites

/-
The documents and files the server tells the client to show or to edit.
-/

namespace HyperIR.Spec

/-- The documents a code action names: in its data and in its edit. -/
def ActionNames (a : CodeAction) (u : Str) : Prop :=
  (∃ d, a.data = .shift d ∧ d.uri = u) ∨ ∃ e, a.edit = some e ∧ ∃ x ∈ e, x.1 = u

/-- The reply names the document or file `u`: as the document the diagnostics belong to or a related location, as the target of a
link, as the document to edit, as the location behind a part of a hint, or as the document to visualize. -/
def NamesFile : Reply → Str → Prop
  | .published p, u => p.uri = u ∨ ∃ d ∈ p.diagnostics, ∃ x ∈ d.related, x.1.uri = u
  | .links (some l), u => ∃ k ∈ l, k.target.uri = u
  | .locations (some l), u => ∃ k ∈ l, k.uri = u
  | .edit e, u => ∃ x ∈ e, x.1 = u
  | .actions (some l), u => ∃ a ∈ l, ActionNames a u
  | .action a, u => ActionNames a u
  | .hints (some l), u => ∃ h ∈ l, ∃ p ∈ h.label, ∃ k, p.location = some k ∧ k.uri = u
  | .lenses (some l), u => ∃ c ∈ l, Json.str u ∈ c.arguments.head?
  | _, _ => False

/-- The message is about the document `u`. -/
def AsksAbout : Msg → Str → Prop
  | .didOpen v _ _, u => v = u
  | .didChange v _ _, u => v = u
  | .gotoDefinition v _, u => v = u
  | .gotoDeclaration v _, u => v = u
  | .references v _, u => v = u
  | .rename v _ _, u => v = u
  | .codeAction v _, u => v = u
  | .codeActionResolve a, u => ∃ d, a.data = .shift d ∧ d.uri = u
  | .inlayHint v, u => v = u
  | .codeLens v, u => v = u
  | _, _ => False

/-- The client announced the folder during the session: as a workspace folder or, if it sent no list of these, as the root. -/
def Announced (session : List (Env × Msg)) (folder : Url) : Prop :=
  ∃ env p, (env, Msg.initialize p) ∈ session ∧
    ((∃ l, p.workspaceFolders = some l ∧ folder ∈ l) ∨ p.workspaceFolders = none ∧ p.rootUri = some folder)

end HyperIR.Spec
