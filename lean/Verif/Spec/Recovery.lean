import Verif.Spec.Grammar
import Verif.Spec.Module

/-
Documents with broken lines (property C11).
-/

namespace HyperIR.Spec

/-- Some statement can be read from the start of the tokens and ends where statements may end. -/
def StartsStatement (ks : List Token) : Prop :=
  ∃ x l m, StmtG x l ∧ ks = l.map Prod.fst ++ m ∧ (m = [] ∨ m.head? = some .newline ∨ Statement.openEnded x)

/-- A line without any place where a statement starts; `rest` is what follows the line. -/
def BrokenLine (line rest : List Token) : Prop :=
  line ≠ [] ∧ (∀ t ∈ line, t ≠ .newline) ∧
  ∀ g t g', line = g ++ t :: g' → ¬ StartsStatement (t :: g' ++ rest)

/-- The tokens of a document consisting of the given statements and of broken lines, ending with a
statement; the flag says whether there is a broken line. -/
inductive PrintsBroken : Bool → List Stmt → List Token → Prop
  | last {s k} : PrintsStmt s k → PrintsBroken false [s] k
  | lastLine {s k n} : PrintsStmt s k → PrintsBroken false [s] (k ++ lineEnds n)
  | stmt {b s ss k n ks} : PrintsStmt s k → PrintsBroken b ss ks → PrintsBroken b (s :: ss) (k ++ lineEnds n ++ ks)
  | broken {b ss g n ks} : BrokenLine g (lineEnds n ++ ks) → PrintsBroken b ss ks →
      PrintsBroken true ss (g ++ lineEnds n ++ ks)

end HyperIR.Spec
