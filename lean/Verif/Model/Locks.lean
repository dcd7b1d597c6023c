import Verif.Model.Server

/-
Model of the locks the handlers of src/main.rs take, and of the task that runs them.

`DashMap` (dashmap 5.5.3) is a vector of shards, each behind a read/write lock that blocks the thread: `get` keeps a read
lock on the shard of the key while the returned `Ref` is alive, `insert` takes the write lock for the duration of the
call.  tower-lsp 0.20.0 runs all handlers inside the one task of `Server::serve` (`buffer_unordered(4)`): a handler is left
only at an `.await` that is not ready, and at most 4 handlers are in progress.  Notifications and requests to the client go
through a channel that keeps their order; each is sent with a sender of its own, so it enters the channel when the `.await` is
reached.  Replies leave in the order in which the handlers return.  Neither crate is modelled further.
-/

namespace HyperIR

/-- What a handler does that involves other handlers. -/
inductive Act where
  /-- `document_map.get(uri)` with a live `Ref` -/
  | acquire (uri : Str)
  /-- the `Ref` is dropped -/
  | release (uri : Str)
  /-- `document_map.insert(uri, doc)` -/
  | write (uri : Str) (doc : AnalyzedDocument)
  /-- `root_paths.lock()` (0), `code_actions_lazy_resolve.lock()` (1) -/
  | lock (mutex : Nat)
  | unlock (mutex : Nat)
  /-- the mutex contents are replaced (src/main.rs:57-82; simplification: both together, under the second lock) -/
  | settings (roots : List Url) (lazyResolve : Bool)
  /-- `client.publish_diagnostics(..).await`: completes once the notification is written -/
  | output
  /-- `client.send_request(..).await`: completes once the client has answered -/
  | await
  /-- a panic -/
  | crash

/-- `n` uses of the root paths, one after the other (src/main.rs:587-588, 801) -/
def useRoots : Nat → List Act
  | 0 => []
  | n + 1 => .lock 0 :: .unlock 0 :: useRoots n

/-- `n` resolved code actions (src/main.rs:833-836, called at 452-455) -/
def resolveLocks (uri : Str) : Nat → List Act
  | 0 => []
  | n + 1 => .acquire uri :: .release uri :: resolveLocks uri n

section
variable [Unicode]

/-- The lock operations of the handler (src/main.rs:55-853).  `n` is the number of external definitions, annotations or
code actions, left arbitrary.  A document that is not found is read under the lock of its shard, too. -/
def script (env : Env) (st : ServerState) (n : Nat) (m : Msg) : List Act :=
  match step env st m with
  | .panic => [.crash]
  | .ok (st', _) => match m with
    | .initialize _ => [.lock 0, .unlock 0, .lock 1, .settings st'.roots st'.lazyResolve, .unlock 1]
    | .didOpen u _ _ => match st'.docs.get? u with
      | some doc => [.write u doc, .output]
      | none => []
    | .didChange u _ _ => match st'.docs.get? u with
      | some doc => [.write u doc, .output]
      | none => []
    | .gotoDefinition u _ => .acquire u :: useRoots n ++ [.release u]
    | .gotoDeclaration u _ => [.acquire u, .release u]
    | .references u _ => [.acquire u, .release u]
    | .semanticTokensFull u => [.acquire u, .release u]
    | .documentSymbol u => [.acquire u, .release u]
    | .prepareRename u _ => [.acquire u, .release u]
    | .rename u _ _ => [.acquire u, .release u]
    | .codeAction u _ => .acquire u :: .lock 1 :: .unlock 1 :: resolveLocks u n ++ [.release u]
    | .codeActionResolve a => match a.data with
      | .shift d => [.acquire d.uri, .release d.uri]
      | _ => []
    | .foldingRange u => [.acquire u, .release u]
    | .inlayHint u => .acquire u :: useRoots n ++ [.release u]
    | .codeLens u => [.acquire u, .release u]
    | .executeCommand c as => match decide (c = c!"visualize-cfg"), as with
      | true, [.str u, .str _] => match executeCommand st c as with
        | .ok _ => [.acquire u, .await, .release u]
        | .error _ => [.acquire u, .release u]
      | _, _ => []
    | .shutdown => []

/-- What the handler sends and returns (src/main.rs:55-853); nothing if it panics. -/
def outcomeOf (env : Env) (st : ServerState) (m : Msg) : Option Reply :=
  match step env st m with
  | .panic => none
  | .ok (_, r) => some r

/-- A handler in progress (tower-lsp): the message and its number, what is left to do, what it sends and returns, and the locks it holds. -/
structure Task where
  msg : Msg
  todo : List Act
  number : Nat := 0
  reply : Option Reply := none
  guards : List Str := []
  mutexes : List Nat := []

/-- The task of `Server::serve`: messages that were received and not started, the handler that runs, the handlers that
wait at an `.await`; the number of messages that were started, what was sent to the client by handlers (diagnostics and graphs, src/main.rs:688-690,
762-764) and what handlers have returned, each with the number of the message. -/
structure Exec where
  server : ServerState
  queue : List (Env × Msg) := []
  current : Option Task := none
  waiting : List Task := []
  crashed : Bool := false
  started : Nat := 0
  sent : List (Nat × Reply) := []
  returned : List (Nat × Reply) := []

/-- The handler that is started for a message (src/main.rs:55-853). -/
def Task.first (env : Env) (st : ServerState) (n : Nat) (number : Nat) (m : Msg) : Task :=
  { msg := m, todo := script env st n m, number := number, reply := outcomeOf env st m }

/-- The entries for what a handler sends or returns (src/main.rs:55-853). -/
def Task.entry (t : Task) : List (Nat × Reply) := t.reply.toList.map fun r => (t.number, r)

/-- The handlers in progress. -/
def Exec.tasks (s : Exec) : List Task := s.current.toList ++ s.waiting

/-- One thing that happens, other than the arrival of a message; `shard` is the shard of a key. -/
inductive Trans (shard : Str → Nat) : Exec → Exec → Prop where
  /-- the next message is started -/
  | start {s : Exec} {env m q} (n : Nat) : s.crashed = false → s.current = none → s.waiting.length < 4 →
      s.queue = (env, m) :: q →
      Trans shard s { s with queue := q, started := s.started + 1, current := some (Task.first env s.server n s.started m) }
  /-- a waiting handler goes on: its notification is written or its request is answered -/
  | resume {s : Exec} {w1 t w2} : s.crashed = false → s.current = none → s.waiting = w1 ++ t :: w2 →
      Trans shard s { s with current := some t, waiting := w1 ++ w2 }
  | acquire {s : Exec} {t : Task} {u acts} : s.crashed = false → s.current = some t → t.todo = .acquire u :: acts →
      Trans shard s { s with current := some { t with todo := acts, guards := u :: t.guards } }
  | release {s : Exec} {t : Task} {u acts} : s.crashed = false → s.current = some t → t.todo = .release u :: acts →
      Trans shard s { s with current := some { t with todo := acts, guards := t.guards.erase u } }
  /-- the write lock is only given when no handler has a read lock on the shard -/
  | write {s : Exec} {t : Task} {u doc acts} : s.crashed = false → s.current = some t → t.todo = .write u doc :: acts →
      (∀ t' ∈ s.tasks, ∀ u' ∈ t'.guards, shard u' ≠ shard u) →
      Trans shard s { s with current := some { t with todo := acts },
                             server := { s.server with docs := s.server.docs.insert u doc } }
  | lock {s : Exec} {t : Task} {i acts} : s.crashed = false → s.current = some t → t.todo = .lock i :: acts →
      (∀ t' ∈ s.tasks, i ∉ t'.mutexes) →
      Trans shard s { s with current := some { t with todo := acts, mutexes := i :: t.mutexes } }
  | unlock {s : Exec} {t : Task} {i acts} : s.crashed = false → s.current = some t → t.todo = .unlock i :: acts →
      Trans shard s { s with current := some { t with todo := acts, mutexes := t.mutexes.erase i } }
  | settings {s : Exec} {t : Task} {roots lz acts} : s.crashed = false → s.current = some t →
      t.todo = .settings roots lz :: acts →
      Trans shard s { s with current := some { t with todo := acts },
                             server := { s.server with roots := roots, lazyResolve := lz } }
  | output {s : Exec} {t : Task} {acts} : s.crashed = false → s.current = some t → t.todo = .output :: acts →
      Trans shard s { s with current := none, waiting := s.waiting ++ [{ t with todo := acts }], sent := s.sent ++ t.entry }
  | await {s : Exec} {t : Task} {acts} : s.crashed = false → s.current = some t → t.todo = .await :: acts →
      Trans shard s { s with current := none, waiting := s.waiting ++ [{ t with todo := acts }], sent := s.sent ++ t.entry }
  | crash {s : Exec} {t : Task} {acts} : s.crashed = false → s.current = some t → t.todo = .crash :: acts →
      Trans shard s { s with crashed := true }
  /-- the handler returns; its locks are gone -/
  | finish {s : Exec} {t : Task} : s.crashed = false → s.current = some t → t.todo = [] →
      Trans shard s { s with current := none, returned := s.returned ++ t.entry }

end
end HyperIR
