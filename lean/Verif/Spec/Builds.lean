import Verif.Spec.History
import Verif.Spec.CrashSites

/-
Comparing builds with and without overflow checks (debug and release builds).
-/

namespace HyperIR.Spec

/-- The same circumstances but for the overflow checks of the build. -/
def SameButBuild (a b : Env) : Prop := a.ord = b.ord ∧ a.fs = b.fs ∧ a.json = b.json

/-- The build checks for overflows. -/
def Checked (env : Env) : Prop := env.build.overflowChecks = true

/-- The first stops, or both do the same. -/
def StopsOrSame {α : Type} (x y : Outcome α) : Prop := x = .panic ∨ x = y

/-- The same messages under the same circumstances, handled by a build with overflow checks and by some other build. -/
def CheckedAndOther : List Step → List Step → Prop
  | [], [] => True
  | (e, m) :: x, (f, n) :: y => Checked e ∧ SameButBuild e f ∧ m = n ∧ CheckedAndOther x y
  | _, _ => False

section
variable [Unicode]

/-- Among the symbols of the kind (for labels and variables: in the function), there is one with a number from `start` on for which the new number
does not fit into 64 bits. -/
def LeavesRange (res : ParserResult) (k : SymbolKind) (f : Option Nat) (start shift : Int) : Prop :=
  ∃ o pre, ∃ nr : Nat, Occurs res.tokens res.stmts o ∧ o.symbolKind = k ∧ (k = .label ∨ k = .localVar → o.funcBodyId = f) ∧
    Numbered o.name pre nr ∧ start ≤ nr ∧ ¬ Fits64 (nr + shift)

/-- A number computed for the message does not fit: going to line 0 of a file, or shifting numbers out of 64 bits. -/
def Overflows (env : Env) (st : ServerState) : Msg → Prop
  | .gotoDefinition u p => ∃ text res o d, SymbolUnder st u p text res o ∧ o.symbolKind = .function ∧ ExternalLocation res.stmts o.name d ∧
      d.line = 0 ∧ Finds env.fs st.roots d.filepath
  | .rename u p req => ∃ text res o w i k, SymbolUnder st u p text res o ∧ (req = '+' :: w ∧ k = i ∨ req = '-' :: w ∧ k = -i) ∧ SignedNumber w i ∧
      (¬ Fits64 k ∨ ∃ (pre : Str) (start : Nat), Numbered o.name pre start ∧ LeavesRange res o.symbolKind o.funcBodyId start k)
  | .codeAction u r => r.start = r.stop ∧ st.lazyResolve = false ∧ ∃ text res o pre, ∃ start : Nat, SymbolUnder st u r.start text res o ∧
      Numbered o.name pre start ∧ LeavesRange res o.symbolKind o.funcBodyId start 1
  | .codeActionResolve a => ∃ d text res, a.data = .shift d ∧ Known st d.uri text res ∧ LeavesRange res d.symbolKind d.funcBodyId d.renamedNr 1
  | _ => False

end
end HyperIR.Spec
