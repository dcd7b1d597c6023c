import Verif.Model.Server

/-
What the server knows about a document, in terms of the document's text.
-/

namespace HyperIR.Spec
variable [Unicode]

/-- The document `uri` is open with the given text: its analysis is the one the server uses. -/
def Opened (st : ServerState) (uri text : Str) : Prop :=
  ∃ doc errs, analyze text = .ok (doc, errs) ∧ st.docs.get? uri = some doc

end HyperIR.Spec
