import Verif.Model.Locks

/-
Schedules: what can happen while the client sends any messages.
-/

namespace HyperIR.Spec
variable [Unicode]

/-- What can happen: the server does something, or a message arrives. -/
inductive Reach (shard : Str → Nat) (s : Exec) : Exec → Prop where
  | refl : Reach shard s s
  | trans {a b : Exec} : Reach shard s a → Trans shard a b → Reach shard s b
  | arrive {a : Exec} (env : Env) (m : Msg) : Reach shard s a → Reach shard s { a with queue := a.queue ++ [(env, m)] }

/-- The server has not crashed and runs a handler that cannot go on. -/
def Blocked (shard : Str → Nat) (s : Exec) : Prop :=
  s.crashed = false ∧ (∃ t, s.current = some t) ∧ ∀ s', ¬ Trans shard s s'

/-- All received messages are handled. -/
def Idle (s : Exec) : Prop := s.queue = [] ∧ s.current = none ∧ s.waiting = []

/-- The handler displays a graph for the document. -/
def ShowsGraph (uri : Str) (t : Task) : Prop := ∃ f, t.msg = .executeCommand c!"visualize-cfg" [.str uri, .str f]

/-- The message opens or changes the document. -/
def Changes (uri : Str) (m : Msg) : Prop := (∃ v t, m = .didOpen uri v t) ∨ ∃ v cs, m = .didChange uri v cs

end HyperIR.Spec

namespace HyperIR.Spec
variable [Unicode]

/-- The server, started in the state `st`, has received these messages, in this order. -/
inductive Received (shard : Str → Nat) (st : ServerState) : List (Env × Msg) → Exec → Prop where
  | init : Received shard st [] { server := st }
  | trans {h : List (Env × Msg)} {a b : Exec} : Received shard st h a → Trans shard a b → Received shard st h b
  | arrive {h : List (Env × Msg)} {a : Exec} (env : Env) (m : Msg) : Received shard st h a →
      Received shard st (h ++ [(env, m)]) { a with queue := a.queue ++ [(env, m)] }

end HyperIR.Spec
