import Verif.Spec.Views
import Verif.Spec.Consistency

/-
How far the descriptions of answers (`Correct`, `Displays`, `Effect`) determine what the client sees: two replies that differ only in the order of their
parts, two graphs that differ only in the order or repetition of edges, and two messages that differ only in the order in which they list what was
expected, are the same to the client.
-/

namespace HyperIR.Spec

/-- The same message, up to the order of a list at its end. -/
def SameMessage (m m' : Str) : Prop :=
  m = m' ∨ ∃ start words words', words.Perm words' ∧ m = start ++ commaList words ∧ m' = start ++ commaList words'

/-- The same diagnostic. -/
def SameDiagnostic (d d' : Diagnostic) : Prop := d.range = d'.range ∧ d.related = d'.related ∧ SameMessage d.message d'.message

/-- Two graphs with the same edges. -/
def SameGraph (g g' : Str) : Prop := ∃ edges edges', ShowsEdges edges g ∧ ShowsEdges edges' g' ∧ ∀ e, e ∈ edges ↔ e ∈ edges'

/-- The client sees the same. -/
inductive SameView : Reply → Reply → Prop where
  | reply {r r'} : SameReply r r' → SameView r r'
  | diagnostics {u v d d' e} : d.Perm d' → Each SameDiagnostic d' e → SameView (.published ⟨u, v, d⟩) (.published ⟨u, v, e⟩)
  | graph {t g g'} : SameGraph g g' → SameView (.graph ⟨t, g⟩) (.graph ⟨t, g'⟩)

section
variable [Unicode]

/-- The same settings and the same texts. -/
def SameServer (st st' : ServerState) : Prop :=
  st.roots = st'.roots ∧ st.lazyResolve = st'.lazyResolve ∧ ∀ u t, Opened st u t ↔ Opened st' u t

/-- The texts the message brings are smaller than 4 GB. -/
def SmallTexts : Msg → Prop
  | .didOpen _ _ text => text.length < 2 ^ 32
  | .didChange _ _ changes => ∀ c ∈ changes, c.text.length < 2 ^ 32
  | _ => True

end
end HyperIR.Spec
