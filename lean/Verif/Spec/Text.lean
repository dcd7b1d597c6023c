import Verif.Model.Basic

/- Ranges of texts and of lists of ranged things. -/

namespace HyperIR.Spec

/-- The characters of the text in the given range (offsets count characters). -/
def slice (text : Str) (sp : Span) : Str := (text.drop sp.start).take (sp.stop - sp.start)

/-- Non-empty and inside a text of length `n`. -/
def Inside (n : Nat) (sp : Span) : Prop := sp.start < sp.stop ∧ sp.stop ≤ n

/-- In source order and without overlap. -/
def InOrder (spans : List Span) : Prop := spans.Pairwise fun a b => a.stop ≤ b.start

/-- The offset is in the (half-open) range. -/
def Covers (sp : Span) (i : Nat) : Prop := sp.start ≤ i ∧ i < sp.stop

end HyperIR.Spec
