import Verif.Spec.Locks
import Verif.Props.History

/-
C56: the server and its locks.  Also: any schedule of the handlers has the effect of handling the messages one after the
other, in the order of their arrival, which is what `run` does.
-/

namespace HyperIR
open Spec

section
variable [Unicode] {shard : Str → Nat} {env : Env} {st st' : ServerState}

/-! ### The scripts -/

/-- The rest of a handler never waits for itself: mutexes are not nested and not kept at an `.await`, documents are written
without any lock, and only the display of a graph keeps a document at an `.await`. -/
def LockSafe (msg : Msg) : List Act → List Str → List Nat → Prop
  | [], _, _ => True
  | .acquire u :: a, g, m => LockSafe msg a (u :: g) m
  | .release u :: a, g, m => LockSafe msg a (g.erase u) m
  | .write u _ :: a, g, m => g = [] ∧ m = [] ∧ Changes u msg ∧ LockSafe msg a g m
  | .lock i :: a, g, m => m = [] ∧ LockSafe msg a g [i]
  | .unlock i :: a, g, m => LockSafe msg a g (m.erase i)
  | .settings _ _ :: a, g, m => LockSafe msg a g m
  | .output :: a, g, m => g = [] ∧ m = [] ∧ LockSafe msg a g m
  | .await :: a, g, m => m = [] ∧ (∀ u ∈ g, ∃ f, msg = .executeCommand c!"visualize-cfg" [.str u, .str f]) ∧ LockSafe msg a g m
  | .crash :: _, _, _ => True

omit [Unicode] in
theorem safe_useRoots (msg : Msg) (a : List Act) (g : List Str) (h : LockSafe msg a g []) :
    ∀ n, LockSafe msg (useRoots n ++ a) g []
  | 0 => h
  | n + 1 => ⟨rfl, by show LockSafe msg _ g ([0].erase 0); exact safe_useRoots msg a g h n⟩

omit [Unicode] in
theorem safe_resolve (msg : Msg) (u : Str) (a : List Act) (g : List Str) (h : LockSafe msg a g []) :
    ∀ n, LockSafe msg (resolveLocks u n ++ a) g []
  | 0 => h
  | n + 1 => by
    show LockSafe msg _ ((u :: g).erase u) []
    rw [List.erase_cons_head]
    exact safe_resolve msg u a g h n

theorem script_safe (env : Env) (st : ServerState) (n : Nat) (m : Msg) : LockSafe m (script env st n m) [] [] := by
  unfold script
  split
  · trivial
  · rename_i st' r hs
    cases m with
    | «initialize» p => simp [LockSafe]
    | didOpen u v t => dsimp only; split <;> simp [LockSafe, Changes]
    | didChange u v cs => dsimp only; split <;> simp [LockSafe, Changes]
    | gotoDefinition u p => exact safe_useRoots _ _ _ (by simp [LockSafe]) n
    | inlayHint u => exact safe_useRoots _ _ _ (by simp [LockSafe]) n
    | codeAction u p => exact ⟨rfl, safe_resolve _ _ _ _ (by simp [LockSafe]) n⟩
    | codeActionResolve a => dsimp only; split <;> simp [LockSafe]
    | executeCommand c as =>
      dsimp only
      split
      · rename_i u f hc
        split
        · simp only [LockSafe, List.mem_singleton, true_and, forall_eq, and_true, List.erase_cons_head]
          simp only [decide_eq_true_eq] at hc
          exact ⟨f, by rw [hc]⟩
        · simp [LockSafe]
      · trivial
    | _ => simp [LockSafe]

/-! ### Which handlers can block -/

/-- What holds of a task in every schedule. -/
def TaskInv (t : Task) : Prop := LockSafe t.msg t.todo t.guards t.mutexes

def ExecInv (s : Exec) : Prop :=
  (∀ t, s.current = some t → TaskInv t) ∧
  ∀ t ∈ s.waiting, TaskInv t ∧ t.mutexes = [] ∧ ∀ u ∈ t.guards, ShowsGraph u t

theorem execInv_trans {a b : Exec} (h : ExecInv a) (ht : Trans shard a b) : ExecInv b := by
  obtain ⟨hc, hw⟩ := h
  cases ht with
  | start n h1 h2 h3 h4 =>
    refine ⟨?_, hw⟩
    intro t ht
    cases ht
    exact script_safe _ _ _ _
  | resume h1 h2 h3 =>
    refine ⟨?_, ?_⟩
    · intro t ht
      cases ht
      exact (hw _ (by rw [h3]; simp)).1
    · intro t ht
      refine hw t ?_
      rw [h3]
      rcases List.mem_append.mp ht with h | h
      · exact List.mem_append.mpr (.inl h)
      · exact List.mem_append.mpr (.inr (List.mem_cons_of_mem _ h))
  | acquire h1 h2 h3 => have := hc _ h2; unfold TaskInv at this; rw [h3] at this; exact ⟨fun t ht => (by cases ht; exact this), hw⟩
  | release h1 h2 h3 => have := hc _ h2; unfold TaskInv at this; rw [h3] at this; exact ⟨fun t ht => (by cases ht; exact this), hw⟩
  | write h1 h2 h3 => have := hc _ h2; unfold TaskInv at this; rw [h3] at this; exact ⟨fun t ht => (by cases ht; exact this.2.2.2), hw⟩
  | lock h1 h2 h3 =>
    have := hc _ h2
    unfold TaskInv at this
    rw [h3] at this
    refine ⟨fun t ht => ?_, hw⟩
    cases ht
    unfold TaskInv
    dsimp only
    rw [this.1]
    exact this.2
  | unlock h1 h2 h3 => have := hc _ h2; unfold TaskInv at this; rw [h3] at this; exact ⟨fun t ht => (by cases ht; exact this), hw⟩
  | settings h1 h2 h3 => have := hc _ h2; unfold TaskInv at this; rw [h3] at this; exact ⟨fun t ht => (by cases ht; exact this), hw⟩
  | output h1 h2 h3 =>
    have := hc _ h2
    unfold TaskInv at this
    rw [h3] at this
    refine ⟨fun t ht => (by cases ht), ?_⟩
    intro t ht
    rcases List.mem_append.mp ht with h | h
    · exact hw t h
    · rw [List.mem_singleton] at h
      subst h
      exact ⟨this.2.2, this.2.1, fun u hu => by dsimp only at hu; rw [this.1] at hu; cases hu⟩
  | await h1 h2 h3 =>
    have := hc _ h2
    unfold TaskInv at this
    rw [h3] at this
    refine ⟨fun t ht => (by cases ht), ?_⟩
    intro t ht
    rcases List.mem_append.mp ht with h | h
    · exact hw t h
    · rw [List.mem_singleton] at h
      subst h
      exact ⟨this.2.2, this.1, this.2.1⟩
  | crash h1 h2 h3 => exact ⟨hc, hw⟩
  | finish h1 h2 h3 => exact ⟨fun t ht => (by cases ht), hw⟩

theorem execInv_reach {s0 s : Exec} (h0 : ExecInv s0) (h : Reach shard s0 s) : ExecInv s := by
  induction h with
  | refl => exact h0
  | trans _ ht ih => exact execInv_trans ih ht
  | arrive env m _ ih => exact ih

theorem execInv_init (st : ServerState) (q : List (Env × Msg)) : ExecInv { server := st, queue := q } :=
  ⟨fun t ht => (by cases ht), fun t ht => (by cases ht)⟩

theorem blocked_inv {s : Exec} (h : ExecInv s) (hb : Blocked shard s) :
    ∃ t u doc acts, s.current = some t ∧ t.todo = .write u doc :: acts ∧ Changes u t.msg ∧
      ∃ t' ∈ s.waiting, ∃ u', ShowsGraph u' t' ∧ u' ∈ t'.guards ∧ shard u' = shard u := by
  obtain ⟨hcr, ⟨t, ht⟩, hno⟩ := hb
  have hs := h.1 t ht
  unfold TaskInv at hs
  cases htodo : t.todo with
  | nil => exact absurd (Trans.finish hcr ht htodo) (hno _)
  | cons a acts =>
    rw [htodo] at hs
    cases a with
    | acquire u => exact absurd (Trans.acquire hcr ht htodo) (hno _)
    | release u => exact absurd (Trans.release hcr ht htodo) (hno _)
    | unlock i => exact absurd (Trans.unlock hcr ht htodo) (hno _)
    | settings r l => exact absurd (Trans.settings hcr ht htodo) (hno _)
    | output => exact absurd (Trans.output hcr ht htodo) (hno _)
    | await => exact absurd (Trans.await hcr ht htodo) (hno _)
    | crash => exact absurd (Trans.crash hcr ht htodo) (hno _)
    | lock i =>
      refine absurd (Trans.lock hcr ht htodo ?_) (hno _)
      intro t' ht'
      unfold Exec.tasks at ht'
      rw [ht] at ht'
      rcases List.mem_append.mp ht' with h' | h'
      · simp only [Option.toList_some, List.mem_singleton] at h'
        rw [h', hs.1]; simp
      · rw [(h.2 t' h').2.1]; simp
    | write u doc =>
      by_cases hex : ∃ t' ∈ s.waiting, ∃ u' ∈ t'.guards, shard u' = shard u
      · obtain ⟨t', ht', u', hu', he⟩ := hex
        exact ⟨t, u, doc, acts, ht, htodo, hs.2.2.1, t', ht', u', (h.2 t' ht').2.2 u' hu', hu', he⟩
      · refine absurd (Trans.write hcr ht htodo ?_) (hno _)
        intro t' ht' u' hu' he
        unfold Exec.tasks at ht'
        rw [ht] at ht'
        rcases List.mem_append.mp ht' with h' | h'
        · simp only [Option.toList_some, List.mem_singleton] at h'
          rw [h', hs.1] at hu'
          cases hu'
        · exact hex ⟨t', h', u', hu', he⟩

/-- C56 (partial).  Whatever messages the client sends and however the handlers are interleaved: the server can only block
on a change of a document while a graph is displayed for a document in the same shard of the document map.  In particular
no request blocks, and the mutexes never do.  Missing: that case, in which it does block forever (below). -/
theorem C56_blocked_partial {s : Exec} {q : List (Env × Msg)} (h : Reach shard { server := st, queue := q } s)
    (hb : Blocked shard s) :
    ∃ t u, s.current = some t ∧ Changes u t.msg ∧ ∃ t' ∈ s.waiting, ∃ u', ShowsGraph u' t' ∧ shard u' = shard u := by
  obtain ⟨t, u, _, _, ht, _, hc, t', ht', u', hg, _, he⟩ := blocked_inv (execInv_reach (execInv_init st q) h) hb
  exact ⟨t, u, ht, hc, t', ht', u', hg, he⟩

/-- C56 (partial), for a client that changes no document while a graph is displayed: the server never blocks. -/
theorem C56_never_blocked_partial {s : Exec} {q : List (Env × Msg)} (h : Reach shard { server := st, queue := q } s)
    (hq : ∀ t u, s.current = some t → Changes u t.msg → ∀ t' ∈ s.waiting, ∀ u', ¬ ShowsGraph u' t') :
    ¬ Blocked shard s := by
  intro hb
  obtain ⟨t, u, ht, hc, t', ht', u', hg, _⟩ := C56_blocked_partial h hb
  exact hq t u ht hc t' ht' u' hg

/-! ### Progress -/

/-- How much is left to do (in second place, after the number of messages that are not started). -/
def Exec.work (s : Exec) : Nat :=
  (s.current.toList.map fun t => 3 * t.todo.length + 1).sum + (s.waiting.map fun t => 3 * t.todo.length + 2).sum
    + (if s.crashed then 0 else 1)

theorem trans_decreases {a b : Exec} (h : Trans shard a b) :
    b.queue.length < a.queue.length ∨ b.queue.length = a.queue.length ∧ b.work < a.work := by
  cases h with
  | start n h1 h2 h3 h4 => left; dsimp only; rw [h4]; simp
  | resume h1 h2 h3 =>
    right
    refine ⟨rfl, ?_⟩
    unfold Exec.work
    dsimp only
    rw [h2, h3]
    simp
    omega
  | acquire h1 h2 h3 => right; refine ⟨rfl, ?_⟩; unfold Exec.work; dsimp only; rw [h2]; simp [h3]
  | release h1 h2 h3 => right; refine ⟨rfl, ?_⟩; unfold Exec.work; dsimp only; rw [h2]; simp [h3]
  | write h1 h2 h3 => right; refine ⟨rfl, ?_⟩; unfold Exec.work; dsimp only; rw [h2]; simp [h3]
  | lock h1 h2 h3 => right; refine ⟨rfl, ?_⟩; unfold Exec.work; dsimp only; rw [h2]; simp [h3]
  | unlock h1 h2 h3 => right; refine ⟨rfl, ?_⟩; unfold Exec.work; dsimp only; rw [h2]; simp [h3]
  | settings h1 h2 h3 => right; refine ⟨rfl, ?_⟩; unfold Exec.work; dsimp only; rw [h2]; simp [h3]
  | output h1 h2 h3 => right; refine ⟨rfl, ?_⟩; unfold Exec.work; dsimp only; rw [h2]; simp [h3]; omega
  | await h1 h2 h3 => right; refine ⟨rfl, ?_⟩; unfold Exec.work; dsimp only; rw [h2]; simp [h3]; omega
  | crash h1 h2 h3 => right; refine ⟨rfl, ?_⟩; unfold Exec.work; dsimp only; rw [h1]; simp
  | finish h1 h2 h3 => right; refine ⟨rfl, ?_⟩; unfold Exec.work; dsimp only; rw [h2]; simp [h3]

/-- Without new messages, the server does only finitely much, however the handlers are interleaved. -/
theorem C56_terminates (shard : Str → Nat) : WellFounded fun b a : Exec => Trans shard a b := by
  refine Subrelation.wf ?_ (InvImage.wf (fun s : Exec => (s.queue.length, s.work))
    (Prod.lex Nat.lt_wfRel Nat.lt_wfRel).wf)
  intro b a h
  rcases trans_decreases h with h | ⟨h1, h2⟩
  · exact Prod.Lex.left _ _ h
  · show Prod.Lex _ _ (b.queue.length, b.work) (a.queue.length, a.work)
    rw [h1]
    exact Prod.Lex.right _ h2

/-- When nothing more happens, all messages are handled, or the server has crashed, or it is blocked. -/
theorem C56_final {s : Exec} (h : ∀ s', ¬ Trans shard s s') : Idle s ∨ s.crashed = true ∨ Blocked shard s := by
  cases hcr : s.crashed with
  | true => exact .inr (.inl rfl)
  | false =>
    cases hc : s.current with
    | some t => exact .inr (.inr ⟨hcr, ⟨t, hc⟩, h⟩)
    | none =>
      cases hw : s.waiting with
      | cons t w => exact absurd (Trans.resume (w1 := []) hcr hc hw) (h _)
      | nil =>
        cases hq : s.queue with
        | cons e q => obtain ⟨env, m⟩ := e; exact absurd (Trans.start 0 hcr hc (by rw [hw]; decide) hq) (h _)
        | nil => exact .inl ⟨hq, hc, hw⟩

/-- C56 (partial).  If the client answers the displayed graphs, the server handles all messages, unless a handler panics or
blocks (which it only does as in `C56_blocked_partial`). -/
theorem C56_progress_partial (shard : Str → Nat) (s : Exec) :
    ∃ s', Reach shard s s' ∧ (Idle s' ∨ s'.crashed = true ∨ Blocked shard s') := by
  induction s using (C56_terminates shard).induction with
  | _ s ih =>
    by_cases hex : ∃ s', Trans shard s s'
    · obtain ⟨s1, h1⟩ := hex
      obtain ⟨s', hr, hf⟩ := ih s1 h1
      refine ⟨s', ?_, hf⟩
      clear hf ih
      induction hr with
      | refl => exact .trans .refl h1
      | trans _ ht ih => exact .trans ih ht
      | arrive env m _ ih => exact .arrive env m ih
    · exact ⟨s, .refl, C56_final fun s' h => hex ⟨s', h⟩⟩

/-! ### Refutation -/

/-- Once blocked, the server stays blocked, whatever the client does: no message is handled, no answer is read, the
documents stay. -/
theorem C56_blocked_forever {s s' : Exec} (hb : Blocked shard s) (h : Reach shard s s') :
    Blocked shard s' ∧ s'.server = s.server ∧ s'.current = s.current ∧ s'.waiting = s.waiting := by
  have key : ∀ {s' : Exec}, Reach shard s s' → s'.crashed = s.crashed ∧ s'.server = s.server ∧ s'.current = s.current ∧
      s'.waiting = s.waiting ∧ Blocked shard s' := by
    intro s' h
    induction h with
    | refl => exact ⟨rfl, rfl, rfl, rfl, hb⟩
    | trans _ ht ih => exact absurd ht (ih.2.2.2.2.2.2 _)
    | @arrive a env m _ ih =>
      obtain ⟨i1, i2, i3, i4, i5⟩ := ih
      refine ⟨i1, i2, i3, i4, i5.1, i5.2.1, ?_⟩
      intro s'' ht
      obtain ⟨t, ht'⟩ := i5.2.1
      have hno := i5.2.2
      cases ht with
      | start n h1 h2 h3 h4 => rw [ht'] at h2; cases h2
      | resume h1 h2 h3 => rw [ht'] at h2; cases h2
      | acquire h1 h2 h3 => exact hno _ (.acquire h1 h2 h3)
      | release h1 h2 h3 => exact hno _ (.release h1 h2 h3)
      | write h1 h2 h3 h4 => exact hno _ (.write h1 h2 h3 h4)
      | lock h1 h2 h3 h4 => exact hno _ (.lock h1 h2 h3 h4)
      | unlock h1 h2 h3 => exact hno _ (.unlock h1 h2 h3)
      | settings h1 h2 h3 => exact hno _ (.settings h1 h2 h3)
      | output h1 h2 h3 => exact hno _ (.output h1 h2 h3)
      | await h1 h2 h3 => exact hno _ (.await h1 h2 h3)
      | crash h1 h2 h3 => exact hno _ (.crash h1 h2 h3)
      | finish h1 h2 h3 => exact hno _ (.finish h1 h2 h3)
  obtain ⟨_, k2, k3, k4, k5⟩ := key h
  exact ⟨k5, k2, k3, k4⟩

theorem script_execute {uri f : Str} {g : ShowGraph} (hg : executeCommand st c!"visualize-cfg" [.str uri, .str f] = .ok g)
    (n : Nat) : script env st n (.executeCommand c!"visualize-cfg" [.str uri, .str f]) = [.acquire uri, .await, .release uri] := by
  simp only [script, step, hg, decide_true]

theorem script_change {uri text : Str} {v : Int} {doc : AnalyzedDocument} {errs : List SErr}
    (ha : analyze text = .ok (doc, errs)) (n : Nat) :
    script env st n (.didChange uri v [⟨none, text⟩]) = [.write uri doc, .output] := by
  simp only [script, step, didChange, onChange_ok ha, Outcome.map', get?_insert, if_true]

/-- C56 is false: if the client displays the graph of a function and then changes a document in the same shard (for example
the same document) before it has answered, the server blocks. -/
theorem C56_refuted_change_during_graph {uri uri' f text : Str} {v : Int} {g : ShowGraph} {doc : AnalyzedDocument}
    {errs : List SErr} (hg : executeCommand st c!"visualize-cfg" [.str uri, .str f] = .ok g)
    (ha : analyze text = .ok (doc, errs)) (hsh : shard uri = shard uri') :
    ∃ s, Reach shard { server := st, queue := [(env, .executeCommand c!"visualize-cfg" [.str uri, .str f]),
        (env, .didChange uri' v [⟨none, text⟩])] } s ∧
      Blocked shard s ∧ s.server = st := by
  let show' : Msg := .executeCommand c!"visualize-cfg" [.str uri, .str f]
  let change : Msg := .didChange uri' v [⟨none, text⟩]
  let t1 : Task := { msg := show', todo := [.acquire uri, .await, .release uri], reply := outcomeOf env st show' }
  let t2 : Task := { msg := change, todo := [.write uri' doc, .output], number := 1, reply := outcomeOf env st change }
  have e1 : Task.first env st 0 0 show' = t1 := by simp only [Task.first, t1, show', script_execute hg]
  have e2 : Task.first env st 0 1 change = t2 := by simp only [Task.first, t2, change, script_change ha]
  refine ⟨{ server := st, queue := [], current := some t2, waiting := [{ t1 with todo := [.release uri], guards := [uri] }], started := 2, sent := t1.entry },
    ?_, ⟨rfl, ⟨_, rfl⟩, ?_⟩, rfl⟩
  · have h1 := Trans.start (shard := shard) (s := { server := st, queue := [(env, show'), (env, change)] }) 0 rfl rfl (by simp) rfl
    dsimp only at h1
    rw [e1] at h1
    have h2 := Trans.acquire (shard := shard) (s := { server := st, queue := [(env, change)], current := some t1, started := 1 }) rfl rfl rfl
    have h3 := Trans.await (shard := shard) (s := { server := st, queue := [(env, change)], current := some { t1 with todo := [.await, .release uri], guards := [uri] }, started := 1 }) rfl rfl rfl
    have h4 := Trans.start (shard := shard) (s := { server := st, queue := [(env, change)], waiting := [{ t1 with todo := [.release uri], guards := [uri] }], started := 1, sent := t1.entry }) 0 rfl rfl (by simp) rfl
    dsimp only at h4
    rw [e2] at h4
    exact .trans (.trans (.trans (.trans .refl h1) h2) h3) h4
  · intro s' h
    cases h with
    | start n h1 h2 h3 h4 => cases h2
    | resume h1 h2 h3 => cases h2
    | acquire h1 h2 h3 => cases h2; cases h3
    | release h1 h2 h3 => cases h2; cases h3
    | write h1 h2 h3 h4 =>
      cases h2
      cases h3
      exact h4 _ (List.mem_append.mpr (.inr (List.mem_singleton.mpr rfl))) uri (List.mem_singleton.mpr rfl) hsh
    | lock h1 h2 h3 h4 => cases h2; cases h3
    | unlock h1 h2 h3 => cases h2; cases h3
    | settings h1 h2 h3 => cases h2; cases h3
    | output h1 h2 h3 => cases h2; cases h3
    | await h1 h2 h3 => cases h2; cases h3
    | crash h1 h2 h3 => cases h2; cases h3
    | finish h1 h2 h3 => cases h2; cases h3

/-- While four graphs are displayed, nothing is handled until the client answers one of them. -/
theorem C56_refuted_four_graphs {s s' : Exec} (hw : 4 ≤ s.waiting.length) (hn : s.current = none) (h : Trans shard s s') :
    ∃ t ∈ s.waiting, s'.current = some t ∧ s'.queue = s.queue ∧ s'.server = s.server := by
  cases h with
  | start n h1 h2 h3 h4 => omega
  | @resume w1 t w2 h1 h2 h3 => exact ⟨t, by rw [h3]; simp, rfl, rfl, rfl⟩
  | acquire h1 h2 | release h1 h2 | write h1 h2 | lock h1 h2 | unlock h1 h2 | settings h1 h2 | output h1 h2 | await h1 h2
  | crash h1 h2 | finish h1 h2 => rw [hn] at h2; cases h2

/-! ### Any schedule has the effect of `run` -/

/-- The effect on the server of the rest of a handler. -/
def effect : List Act → ServerState → ServerState
  | .write u doc :: a, st => effect a { st with docs := st.docs.insert u doc }
  | .settings r l :: a, st => effect a { st with roots := r, lazyResolve := l }
  | _ :: a, st => effect a st
  | [], st => st

/-- No effect, and no panic, after an `.await`. -/
def Passive : List Act → Prop
  | [] => True
  | .release _ :: a => Passive a
  | _ => False

/-- Effects are before the first `.await`; a panic is the first thing. -/
def Ordered : List Act → Prop
  | [] => True
  | .output :: a => Passive a
  | .await :: a => Passive a
  | .crash :: _ => False
  | _ :: a => Ordered a

omit [Unicode] in
theorem effect_passive : ∀ {a : List Act}, Passive a → ∀ st, effect a st = st
  | [], _, _ => rfl
  | .release u :: a, h, st => by show effect a st = st; exact effect_passive (a := a) h st

omit [Unicode] in
theorem passive_ordered : ∀ {a : List Act}, Passive a → Ordered a
  | [], _ => trivial
  | .release u :: a, h => by show Ordered a; exact passive_ordered (a := a) h

omit [Unicode] in
theorem ordered_useRoots {a : List Act} (h : Ordered a) : ∀ n, Ordered (useRoots n ++ a)
  | 0 => h
  | n + 1 => by show Ordered (useRoots n ++ a); exact ordered_useRoots h n

omit [Unicode] in
theorem ordered_resolve {a : List Act} {u : Str} (h : Ordered a) : ∀ n, Ordered (resolveLocks u n ++ a)
  | 0 => h
  | n + 1 => by show Ordered (resolveLocks u n ++ a); exact ordered_resolve h n

omit [Unicode] in
theorem effect_useRoots (a : List Act) (st : ServerState) : ∀ n, effect (useRoots n ++ a) st = effect a st
  | 0 => rfl
  | n + 1 => by show effect (useRoots n ++ a) st = _; exact effect_useRoots a st n

omit [Unicode] in
theorem effect_resolve (a : List Act) (u : Str) (st : ServerState) : ∀ n, effect (resolveLocks u n ++ a) st = effect a st
  | 0 => rfl
  | n + 1 => by show effect (resolveLocks u n ++ a) st = _; exact effect_resolve a u st n

theorem script_ok {m : Msg} {r : Reply} (h : step env st m = .ok (st', r)) (n : Nat) :
    Ordered (script env st n m) ∧ effect (script env st n m) st = st' := by
  have change : ∀ {u text : Str} {v : Int} {p : Publish}, onChange env st u v text = .ok (st', p) →
      Ordered (match st'.docs.get? u with | some doc => [.write u doc, .output] | none => []) ∧
      effect (match st'.docs.get? u with | some doc => [.write u doc, .output] | none => []) st = st' := by
    intro u text v p ho
    obtain ⟨doc, errs, ha, rfl, rfl⟩ := onChange_inv ho
    dsimp only
    rw [get?_insert, if_pos rfl]
    exact ⟨trivial, rfl⟩
  unfold script
  rw [h]
  dsimp only
  cases m with
  | «initialize» p => cases h; exact ⟨trivial, rfl⟩
  | didOpen u v t =>
    simp only [step] at h
    cases ho : didOpen env st u v t with
    | panic => rw [ho] at h; cases h
    | ok x => rw [ho] at h; cases h; exact change ho
  | didChange u v cs =>
    simp only [step] at h
    cases ho : didChange env st u v cs with
    | panic => rw [ho] at h; cases h
    | ok x =>
      rw [ho] at h
      cases h
      cases cs with
      | nil => cases ho
      | cons c cs => exact change (p := x.2) ho
  | gotoDefinition u p =>
    rw [C52_state (by exact trivial) h]
    exact ⟨ordered_useRoots (a := [.release u]) trivial n, effect_useRoots [.release u] st n⟩
  | inlayHint u =>
    rw [C52_state (by exact trivial) h]
    exact ⟨ordered_useRoots (a := [.release u]) trivial n, effect_useRoots [.release u] st n⟩
  | codeAction u p =>
    rw [C52_state (by exact trivial) h]
    exact ⟨ordered_resolve (a := [.release u]) trivial n, effect_resolve [.release u] u st n⟩
  | codeActionResolve a =>
    rw [C52_state (by exact trivial) h]
    dsimp only
    split <;> exact ⟨trivial, rfl⟩
  | executeCommand c as =>
    rw [C52_state (by exact trivial) h]
    dsimp only
    split
    · split <;> exact ⟨trivial, rfl⟩
    · exact ⟨trivial, rfl⟩
  | _ => rw [C52_state (by exact trivial) h]; exact ⟨trivial, rfl⟩

theorem script_panic {m : Msg} (h : step env st m = .panic) (n : Nat) : script env st n m = [.crash] := by
  unfold script; rw [h]

theorem run_snoc {done : List (Env × Msg)} {s1 s2 : ServerState} {rs : List Reply} {m : Msg} {r : Reply}
    (h : run st done = .ok (s1, rs)) (hs : step env s1 m = .ok (s2, r)) :
    run st (done ++ [(env, m)]) = .ok (s2, rs ++ [r]) :=
  run_append h (by simp only [run, hs])

/-- What holds in every schedule: the documents and settings are those of `run` over the messages that were started, up to
what the running handler has yet to do. -/
def RunInv (st : ServerState) (h : List (Env × Msg)) (s : Exec) : Prop :=
  (∀ t ∈ s.waiting, Passive t.todo) ∧
  ∃ done, h = done ++ s.queue ∧
    ((∃ env m before rs, done = before ++ [(env, m)] ∧ run st before = .ok (s.server, rs) ∧ step env s.server m = .panic ∧
        (s.crashed = true ∨ ∃ t, s.current = some t ∧ t.todo = [.crash])) ∨
     (s.crashed = false ∧ ∃ stF rs, run st done = .ok (stF, rs) ∧
        (∀ t, s.current = some t → Ordered t.todo ∧ effect t.todo s.server = stF) ∧
        (s.current = none → s.server = stF)))

theorem runInv_cases {h : List (Env × Msg)} {s : Exec} (hi : RunInv st h s) (hcr : s.crashed = false) {t : Task}
    (ht : s.current = some t) (hne : t.todo ≠ [.crash]) :
    ∃ done stF rs, h = done ++ s.queue ∧ run st done = .ok (stF, rs) ∧ Ordered t.todo ∧ effect t.todo s.server = stF := by
  obtain ⟨_, done, hd, h' | ⟨_, stF, rs, hr, hc, _⟩⟩ := hi
  · obtain ⟨_, _, _, _, _, _, _, h1 | ⟨t', h2, h3⟩⟩ := h'
    · rw [hcr] at h1; cases h1
    · rw [ht] at h2; cases h2; exact absurd h3 hne
  · exact ⟨done, stF, rs, hd, hr, hc t ht⟩

theorem runInv_none {h : List (Env × Msg)} {s : Exec} (hi : RunInv st h s) (hcr : s.crashed = false)
    (ht : s.current = none) : ∃ done rs, h = done ++ s.queue ∧ run st done = .ok (s.server, rs) := by
  obtain ⟨_, done, hd, h' | ⟨_, stF, rs, hr, _, hn⟩⟩ := hi
  · obtain ⟨_, _, _, _, _, _, _, h1 | ⟨t', h2, h3⟩⟩ := h'
    · rw [hcr] at h1; cases h1
    · rw [ht] at h2; cases h2
  · exact ⟨done, rs, hd, by rw [hn ht]; exact hr⟩

theorem runInv_trans {h : List (Env × Msg)} {a b : Exec} (hi : RunInv st h a) (ht : Trans shard a b) : RunInv st h b := by
  have hw := hi.1
  have go : ∀ {t t' : Task} {server : ServerState} {stF : ServerState} {rs : List Reply} {done : List (Env × Msg)},
      a.crashed = false → h = done ++ a.queue → run st done = .ok (stF, rs) → Ordered t'.todo → effect t'.todo server = stF →
      RunInv st h { a with current := some t', server := server } := by
    intro t t' server stF rs done h1 hd hr ho he
    refine ⟨hw, done, hd, .inr ⟨h1, stF, rs, hr, ?_, fun h => (by cases h)⟩⟩
    intro x hx
    cases hx
    exact ⟨ho, he⟩
  have park : ∀ {t t' : Task} {done : List (Env × Msg)} {rs : List Reply},
      a.crashed = false → h = done ++ a.queue → run st done = .ok (a.server, rs) → Passive t'.todo →
      RunInv st h { a with current := none, waiting := a.waiting ++ [t'] } := by
    intro t t' done rs h1 hd hr hp
    refine ⟨?_, done, hd, .inr ⟨h1, a.server, rs, hr, fun x hx => (by cases hx), fun _ => rfl⟩⟩
    intro x hx
    rcases List.mem_append.mp hx with hx | hx
    · exact hw x hx
    · rw [List.mem_singleton] at hx; subst hx; exact hp
  cases ht with
  | @start env m q n h1 h2 h3 h4 =>
    obtain ⟨done, rs, hd, hr⟩ := runInv_none hi h1 h2
    refine ⟨hw, done ++ [(env, m)], by rw [hd, h4]; simp, ?_⟩
    cases hs : step env a.server m with
    | panic => exact .inl ⟨env, m, done, rs, rfl, hr, hs, .inr ⟨_, rfl, script_panic hs n⟩⟩
    | ok x =>
      obtain ⟨ho, he⟩ := script_ok (st' := x.1) (r := x.2) hs n
      refine .inr ⟨h1, x.1, _, run_snoc (r := x.2) hr hs, ?_, fun h => (by cases h)⟩
      intro t ht
      cases ht
      exact ⟨ho, he⟩
  | @resume w1 t w2 h1 h2 h3 =>
    obtain ⟨done, rs, hd, hr⟩ := runInv_none hi h1 h2
    have hp := hw t (by rw [h3]; simp)
    refine ⟨?_, done, hd, .inr ⟨h1, a.server, rs, hr, ?_, fun h => (by cases h)⟩⟩
    · intro x hx
      refine hw x ?_
      rw [h3]
      rcases List.mem_append.mp hx with hx | hx
      · exact List.mem_append.mpr (.inl hx)
      · exact List.mem_append.mpr (.inr (List.mem_cons_of_mem _ hx))
    · intro x hx
      cases hx
      exact ⟨passive_ordered hp, effect_passive hp _⟩
  | @acquire t u acts h1 h2 h3 =>
    obtain ⟨done, stF, rs, hd, hr, ho, he⟩ := runInv_cases hi h1 h2 (by rw [h3]; simp)
    rw [h3] at ho he
    exact go (t := t) h1 hd hr ho he
  | @release t u acts h1 h2 h3 =>
    obtain ⟨done, stF, rs, hd, hr, ho, he⟩ := runInv_cases hi h1 h2 (by rw [h3]; simp)
    rw [h3] at ho he
    exact go (t := t) h1 hd hr ho he
  | @write t u doc acts h1 h2 h3 h4 =>
    obtain ⟨done, stF, rs, hd, hr, ho, he⟩ := runInv_cases hi h1 h2 (by rw [h3]; simp)
    rw [h3] at ho he
    exact go (t := t) h1 hd hr ho he
  | @lock t i acts h1 h2 h3 h4 =>
    obtain ⟨done, stF, rs, hd, hr, ho, he⟩ := runInv_cases hi h1 h2 (by rw [h3]; simp)
    rw [h3] at ho he
    exact go (t := t) h1 hd hr ho he
  | @unlock t i acts h1 h2 h3 =>
    obtain ⟨done, stF, rs, hd, hr, ho, he⟩ := runInv_cases hi h1 h2 (by rw [h3]; simp)
    rw [h3] at ho he
    exact go (t := t) h1 hd hr ho he
  | @settings t r l acts h1 h2 h3 =>
    obtain ⟨done, stF, rs, hd, hr, ho, he⟩ := runInv_cases hi h1 h2 (by rw [h3]; simp)
    rw [h3] at ho he
    exact go (t := t) h1 hd hr ho he
  | @output t acts h1 h2 h3 =>
    obtain ⟨done, stF, rs, hd, hr, ho, he⟩ := runInv_cases hi h1 h2 (by rw [h3]; simp)
    rw [h3] at ho he
    have : effect acts a.server = stF := he
    rw [effect_passive ho] at this
    subst this
    exact park (t := t) h1 hd hr ho
  | @await t acts h1 h2 h3 =>
    obtain ⟨done, stF, rs, hd, hr, ho, he⟩ := runInv_cases hi h1 h2 (by rw [h3]; simp)
    rw [h3] at ho he
    have : effect acts a.server = stF := he
    rw [effect_passive ho] at this
    subst this
    exact park (t := t) h1 hd hr ho
  | @crash t acts h1 h2 h3 =>
    obtain ⟨_, done, hd, h' | ⟨_, stF, rs, hr, hc, _⟩⟩ := hi
    · obtain ⟨env, m, before, rs, e1, e2, e3, _⟩ := h'
      exact ⟨hw, done, hd, .inl ⟨env, m, before, rs, e1, e2, e3, .inl rfl⟩⟩
    · have := (hc t h2).1
      rw [h3] at this
      exact this.elim
  | @finish t h1 h2 h3 =>
    obtain ⟨done, stF, rs, hd, hr, ho, he⟩ := runInv_cases hi h1 h2 (by rw [h3]; simp)
    rw [h3] at he
    have : a.server = stF := he
    exact ⟨hw, done, hd, .inr ⟨h1, stF, rs, hr, fun x hx => (by cases hx), fun _ => this⟩⟩

theorem runInv_received {h : List (Env × Msg)} {s : Exec} (hr : Received shard st h s) : RunInv st h s := by
  induction hr with
  | init => exact ⟨fun t ht => (by cases ht), [], rfl, .inr ⟨rfl, st, [], rfl, fun t ht => (by cases ht), fun _ => rfl⟩⟩
  | trans _ ht ih => exact runInv_trans ih ht
  | arrive env m _ ih =>
    obtain ⟨hw, done, hd, hrest⟩ := ih
    exact ⟨hw, done, by rw [hd]; simp, hrest⟩

/-- C51, for concurrent handlers.  Whenever no handler is running, in any schedule, the documents and settings are those
after handling the messages started so far one by one in the order of their arrival. -/
theorem C51_schedules {h : List (Env × Msg)} {s : Exec} (hr : Received shard st h s) (hcr : s.crashed = false)
    (hn : s.current = none) : ∃ done rs, h = done ++ s.queue ∧ run st done = .ok (s.server, rs) :=
  runInv_none (runInv_received hr) hcr hn

/-- C56 (partial).  When all received messages are handled, the documents and settings are those after handling the messages
one by one in the order of their arrival. -/
theorem C56_idle_partial {h : List (Env × Msg)} {s : Exec} (hr : Received shard st h s) (hcr : s.crashed = false)
    (hi : Idle s) : ∃ rs, run st h = .ok (s.server, rs) := by
  obtain ⟨done, rs, hd, hrun⟩ := C51_schedules hr hcr hi.2.1
  rw [hi.1, List.append_nil] at hd
  subst hd
  exact ⟨rs, hrun⟩

/-- The server crashes only if handling the messages one by one, in the order of their arrival, panics. -/
theorem C56_crash_partial {h : List (Env × Msg)} {s : Exec} (hr : Received shard st h s) (hcr : s.crashed = true) :
    run st h = .panic := by
  obtain ⟨_, done, hd, h' | ⟨h1, _⟩⟩ := runInv_received hr
  · obtain ⟨env, m, before, rs, e1, e2, e3, _⟩ := h'
    subst e1
    subst hd
    have : ∀ {st : ServerState} {rs : List Reply} {before : List (Env × Msg)} {s1 : ServerState}
        {q : List (Env × Msg)}, run st before = .ok (s1, rs) → step env s1 m = .panic →
        run st (before ++ [(env, m)] ++ q) = .panic := by
      intro st rs before
      induction before generalizing st rs with
      | nil => intro s1 q hb hs; cases hb; simp only [List.nil_append, List.singleton_append, run, hs]
      | cons e before ih =>
        intro s1 q hb hs
        obtain ⟨env', m'⟩ := e
        obtain ⟨s2, r, rs', h1, h2, rfl⟩ := run_cons_inv hb
        simp only [List.cons_append, run, h1, ih h2 hs]
    exact this e2 e3
  · rw [hcr] at h1; cases h1

end

/-! ### Examples -/

section
attribute [local instance] asciiUnicode

/-- A graph can be displayed: the hypotheses of the refutation are met. -/
example : (match executeCommand (serverWith [] c!"file:///a" flowText) c!"visualize-cfg" [.str c!"file:///a", .str c!"@f"] with
    | .ok g => g.title | .error _ => []) = c!"CFG for @f" := by decide +kernel

example : (match analyze flowText with | .ok _ => true | .panic => false) = true := by decide +kernel

end
end HyperIR
