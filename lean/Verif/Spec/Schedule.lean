import Verif.Spec.Locks

/-
What the client sees of concurrent handlers.
-/

namespace HyperIR.Spec

/-- The replies with their numbers. -/
def numbered : Nat → List Reply → List (Nat × Reply)
  | _, [] => []
  | n, r :: rs => (n, r) :: numbered (n + 1) rs

/-- The reply is sent before the handler returns: diagnostics or a graph. -/
def sentAhead : Reply → Bool
  | .published _ => true
  | .graph _ => true
  | _ => false

end HyperIR.Spec
