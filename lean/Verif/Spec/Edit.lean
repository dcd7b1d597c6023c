import Verif.Spec.Join

/-
The same answers in two versions of a document, one part of which was edited.
-/

namespace HyperIR.Spec

/-- From a position in one server and a position in another the same is found (up to order): there are a range and places of which the
first server gives the images under `n` lines moved down, and the second those under `m` lines moved down. -/
def FoundAlike [Unicode] (env : Env) (uri : Str) (n : Nat) (st : ServerState) (p : Pos) (m : Nat) (st' : ServerState) (p' : Pos) : Prop :=
  ∃ (r : Range) (refs decls defs refs₁ decls₁ defs₁ refs₂ decls₂ defs₂ : List Location),
    Found env st uri p (lowerRange n r) refs₁ decls₁ defs₁ ∧ Found env st' uri p' (lowerRange m r) refs₂ decls₂ defs₂ ∧
    refs₁.Perm (refs.map (lowerLoc n)) ∧ decls₁.Perm (decls.map (lowerLoc n)) ∧ defs₁.Perm (defs.map (lowerLoc n)) ∧
    refs₂.Perm (refs.map (lowerLoc m)) ∧ decls₂.Perm (decls.map (lowerLoc m)) ∧ defs₂.Perm (defs.map (lowerLoc m))

/-- Two rename requests have the same answer, up to the order of the edits: the first those of a list moved down by `n` lines, the second
those of the same list moved down by `m` lines. -/
inductive RenamedAlike (uri : Str) (n m : Nat) :
    Outcome (Except RpcError WorkspaceEdit) → Outcome (Except RpcError WorkspaceEdit) → Prop
  | panic : RenamedAlike uri n m .panic .panic
  | error {e} : RenamedAlike uri n m (.ok (.error e)) (.ok (.error e))
  | edits {l a b : List TextEdit} : a.Perm (l.map (lowerEdit n)) → b.Perm (l.map (lowerEdit m)) →
      RenamedAlike uri n m (.ok (.ok [(uri, a)])) (.ok (.ok [(uri, b)]))

end HyperIR.Spec
