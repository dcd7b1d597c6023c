import Verif.Spec.Schedule
import Verif.Props.Locks

/-
C96: what the client sees of concurrent handlers is what handling the messages one by one, in the order of their arrival, gives.
-/

namespace HyperIR
open Spec

section
variable [Unicode] {shard : Str → Nat} {env : Env} {st st' : ServerState}

/-! ### Numbered replies -/

omit [Unicode] in
theorem numbered_append (n : Nat) (a b : List Reply) : numbered n (a ++ b) = numbered n a ++ numbered (n + a.length) b := by
  induction a generalizing n with
  | nil => rfl
  | cons r a ih => simp only [List.cons_append, numbered, ih, List.length_cons]; congr 3; omega

omit [Unicode] in
theorem mem_numbered {n i : Nat} {r : Reply} {rs : List Reply} : (i, r) ∈ numbered n rs ↔ n ≤ i ∧ rs[i - n]? = some r := by
  induction rs generalizing n with
  | nil => simp [numbered]
  | cons x rs ih =>
    simp only [numbered, List.mem_cons, Prod.mk.injEq, ih]
    by_cases h : i = n
    · subst h
      simp
      constructor
      · rintro (rfl | ⟨h, _⟩)
        · rfl
        · omega
      · rintro rfl; exact .inl rfl
    · constructor
      · rintro (⟨h', _⟩ | ⟨h1, h2⟩)
        · exact absurd h' h
        · refine ⟨by omega, ?_⟩
          rw [show i - n = i - (n + 1) + 1 by omega]
          exact h2
      · rintro ⟨h1, h2⟩
        refine .inr ⟨by omega, ?_⟩
        rw [show i - n = i - (n + 1) + 1 by omega] at h2
        exact h2

omit [Unicode] in
theorem numbered_fst_nodup (n : Nat) (rs : List Reply) : ((numbered n rs).map Prod.fst).Nodup := by
  induction rs generalizing n with
  | nil => simp [numbered]
  | cons r rs ih =>
    simp only [numbered, List.map_cons, List.nodup_cons]
    refine ⟨?_, ih _⟩
    intro h
    obtain ⟨⟨i, x⟩, h1, h2⟩ := List.mem_map.mp h
    have := (mem_numbered.mp h1).1
    simp only at h2
    omega

omit [Unicode] in
theorem numbered_snd (n : Nat) (rs : List Reply) : (numbered n rs).map Prod.snd = rs := by
  induction rs generalizing n with
  | nil => rfl
  | cons r rs ih => simp only [numbered, List.map_cons, ih]

theorem run_length {ms : List (Env × Msg)} {rs : List Reply} (h : run st ms = .ok (st', rs)) : rs.length = ms.length := by
  induction ms generalizing st rs with
  | nil => cases h; rfl
  | cons e ms ih =>
    obtain ⟨env, m⟩ := e
    obtain ⟨s, r, rs', hs, hr, rfl⟩ := run_cons_inv h
    simp only [List.length_cons, ih hr]

theorem run_take {ms : List (Env × Msg)} {rs : List Reply} (h : run st ms = .ok (st', rs)) (n : Nat) :
    ∃ s, run st (ms.take n) = .ok (s, rs.take n) := by
  induction ms generalizing st rs n with
  | nil => cases h; exact ⟨_, by simp [run]; rfl⟩
  | cons e ms ih =>
    cases n with
    | zero => exact ⟨st, rfl⟩
    | succ n =>
      obtain ⟨env, m⟩ := e
      obtain ⟨s, r, rs', hs, hr, rfl⟩ := run_cons_inv h
      obtain ⟨s2, h2⟩ := ih hr n
      exact ⟨s2, by simp only [List.take_succ_cons, run, hs, h2]⟩

/-! ### What is yet to be sent -/

/-- The rest of the handler sends something. -/
def sends : List Act → Bool
  | [] => false
  | .output :: _ => true
  | .await :: _ => true
  | _ :: a => sends a

omit [Unicode] in
theorem sends_passive : ∀ {a : List Act}, Passive a → sends a = false
  | [], _ => rfl
  | .release u :: a, h => by show sends a = false; exact sends_passive (a := a) h

omit [Unicode] in
theorem sends_useRoots (a : List Act) : ∀ n, sends (useRoots n ++ a) = sends a
  | 0 => rfl
  | n + 1 => by show sends (useRoots n ++ a) = _; exact sends_useRoots a n

omit [Unicode] in
theorem sends_resolve (a : List Act) (u : Str) : ∀ n, sends (resolveLocks u n ++ a) = sends a
  | 0 => rfl
  | n + 1 => by show sends (resolveLocks u n ++ a) = _; exact sends_resolve a u n

theorem script_sends {m : Msg} {r : Reply} (h : step env st m = .ok (st', r)) (n : Nat) : sends (script env st n m) = sentAhead r := by
  have change : ∀ {u text : Str} {v : Int} {p : Publish}, onChange env st u v text = .ok (st', p) →
      sends (match st'.docs.get? u with | some doc => [.write u doc, .output] | none => []) = true := by
    intro u text v p ho
    obtain ⟨doc, errs, ha, rfl, rfl⟩ := onChange_inv ho
    dsimp only
    rw [get?_insert, if_pos rfl]
    rfl
  have key : ∀ {α : Type} (o : Outcome α) (f : α → Reply), (o.map' fun x => (st, f x)) = .ok (st', r) → ∃ x, r = f x := by
    intro α o f ho
    cases o with
    | panic => cases ho
    | ok x => cases ho; exact ⟨x, rfl⟩
  unfold script
  rw [h]
  dsimp only
  cases m with
  | «initialize» p => cases h; rfl
  | didOpen u v t =>
    simp only [step] at h
    cases ho : didOpen env st u v t with
    | panic => rw [ho] at h; cases h
    | ok x => rw [ho] at h; cases h; exact change ho
  | didChange u v cs =>
    simp only [step] at h
    cases ho : didChange env st u v cs with
    | panic => rw [ho] at h; cases h
    | ok x =>
      rw [ho] at h
      cases h
      cases cs with
      | nil => cases ho
      | cons c cs => exact change (p := x.2) ho
  | gotoDefinition u p => obtain ⟨x, rfl⟩ := key _ _ h; exact sends_useRoots [.release u] n
  | inlayHint u => obtain ⟨x, rfl⟩ := key _ _ h; exact sends_useRoots [.release u] n
  | codeAction u p => obtain ⟨x, rfl⟩ := key _ _ h; rw [show sentAhead (replyOf .actions x) = false by cases x <;> rfl]; exact sends_resolve [.release u] u n
  | codeActionResolve a =>
    obtain ⟨x, rfl⟩ := key _ _ h
    rw [show sentAhead (replyOf .action x) = false by cases x <;> rfl]
    dsimp only
    split <;> rfl
  | rename u p n => obtain ⟨x, rfl⟩ := key _ _ h; rw [show sentAhead (replyOf .edit x) = false by cases x <;> rfl]; rfl
  | executeCommand c as =>
    cases h
    dsimp only
    split
    · split
      · rename_i he; rw [he]; rfl
      · rename_i he; rw [he]; rfl
    · rename_i hne
      rename_i args _ _
      have : ∃ e, executeCommand st c args = .error e := by
        unfold executeCommand
        split
        · rename_i u f hc
          exact (hne u f hc rfl).elim
        · exact ⟨_, rfl⟩
      obtain ⟨e, he⟩ := this
      rw [he]
      rfl
  | gotoDeclaration u p => obtain ⟨x, rfl⟩ := key _ _ h; rfl
  | references u p => obtain ⟨x, rfl⟩ := key _ _ h; rfl
  | semanticTokensFull u => obtain ⟨x, rfl⟩ := key _ _ h; rfl
  | _ => cases h; rfl

/-! ### The invariant -/

/-- What the running handler has yet to send. -/
def unsent (s : Exec) : List (Nat × Reply) := match s.current with
  | some t => if sends t.todo then t.entry else []
  | none => []

/-- What holds in every schedule about what was sent and returned, given the replies of `run` for the messages started without panic. -/
structure Book (h : List (Env × Msg)) (s : Exec) (done : List (Env × Msg)) (rs : List Reply) : Prop where
  started : s.crashed = false → (∀ t, s.current = some t → t.reply ≠ none) → h = done ++ s.queue ∧ s.started = done.length
  crash : ∀ t, s.current = some t → t.reply = none → t.todo = [.crash]
  sent : s.sent ++ unsent s = (numbered 0 rs).filter fun e => sentAhead e.2
  all : (s.returned ++ s.tasks.flatMap Task.entry).Perm (numbered 0 rs)
  current : ∀ t r, s.current = some t → t.reply = some r → (sends t.todo = true → sentAhead r = true) ∧ (t.number + 1 = s.started ∨ sentAhead r = true)
  waiting : ∀ t ∈ s.waiting, ∃ r, t.reply = some r ∧ sentAhead r = true
  order : ∀ l1 i r l2, s.returned = l1 ++ (i, r) :: l2 → ∀ e ∈ l1, i < e.1 → sentAhead r = true

/-- What holds in every schedule. -/
def OutInv (st : ServerState) (h : List (Env × Msg)) (s : Exec) : Prop :=
  ∃ done rest stF rs, h = done ++ rest ∧ run st done = .ok (stF, rs) ∧ Book h s done rs

/-- The running handler does something that is neither sending nor returning. -/
theorem Book.go {h done : List (Env × Msg)} {s : Exec} {rs : List Reply} (hb : Book h s done rs) {t : Task} {a : Act} {acts : List Act}
    (ht : s.current = some t) (htodo : t.todo = a :: acts) (ha : sends (a :: acts) = sends acts) (hc : a ≠ .crash)
    (server : ServerState) (guards : List Str) (mutexes : List Nat) :
    Book h { s with current := some { t with todo := acts, guards := guards, mutexes := mutexes }, server := server } done rs := by
  have hr : t.reply ≠ none := fun hn => by
    have := hb.crash t ht hn
    rw [htodo] at this
    exact hc (List.cons.inj this).1
  refine ⟨fun h1 _ => hb.started h1 (fun x hx => ?_), ?_, ?_, ?_, ?_, hb.waiting, hb.order⟩
  · rw [ht] at hx; cases hx; exact hr
  · intro x hx hn; cases hx; exact absurd hn hr
  · have := hb.sent
    unfold unsent at this ⊢
    rw [ht] at this
    simp only [htodo, ha] at this
    exact this
  · have := hb.all
    unfold Exec.tasks at this ⊢
    rw [ht] at this
    exact this
  · intro x r hx hxr
    cases hx
    have := hb.current t r ht hxr
    rw [htodo, ha] at this
    exact this

/-- The running handler sends something and waits. -/
theorem Book.park {h done : List (Env × Msg)} {s : Exec} {rs : List Reply} (hb : Book h s done rs) {t : Task} {a : Act} {acts : List Act}
    (ht : s.current = some t) (htodo : t.todo = a :: acts) (ha : sends (a :: acts) = true) (hc : a ≠ .crash) :
    Book h { s with current := none, waiting := s.waiting ++ [{ t with todo := acts }], sent := s.sent ++ t.entry } done rs := by
  have hr : t.reply ≠ none := fun hn => by
    have := hb.crash t ht hn
    rw [htodo] at this
    exact hc (List.cons.inj this).1
  refine ⟨fun h1 _ => hb.started h1 (fun x hx => ?_), fun x hx => (by cases hx), ?_, ?_, fun x r hx => (by cases hx), ?_, hb.order⟩
  · rw [ht] at hx; cases hx; exact hr
  · have := hb.sent
    unfold unsent at this ⊢
    rw [ht] at this
    simp only [htodo, ha, if_true] at this
    simpa using this
  · refine List.Perm.trans ?_ hb.all
    refine List.Perm.append_left _ ?_
    unfold Exec.tasks
    rw [ht]
    simp only [Option.toList_none, List.nil_append, Option.toList_some, List.singleton_append, List.flatMap_append, List.flatMap_cons, List.flatMap_nil, List.append_nil]
    exact List.perm_append_comm
  · intro x hx
    rcases List.mem_append.mp hx with hx | hx
    · exact hb.waiting x hx
    · rw [List.mem_singleton] at hx
      subst hx
      cases hre : t.reply with
      | none => exact absurd hre hr
      | some r => exact ⟨r, rfl, (hb.current t r ht hre).1 (by rw [htodo]; exact ha)⟩

theorem outInv_trans {h : List (Env × Msg)} {a b : Exec} (hri : RunInv st h a) (hi : OutInv st h a) (ht : Trans shard a b) : OutInv st h b := by
  obtain ⟨done, rest, stF, rs, hd, hrun, hb⟩ := hi
  cases ht with
  | @start env m q n h1 h2 h3 h4 =>
    obtain ⟨e1, e2⟩ := hb.started h1 (fun t ht => by rw [h2] at ht; cases ht)
    obtain ⟨done', rs', hd', hrun'⟩ := runInv_none hri h1 h2
    have : done' = done := List.append_cancel_right (hd'.symm.trans e1)
    subst this
    rw [hrun'] at hrun
    cases hrun
    have hs := hb.sent
    have ha := hb.all
    unfold unsent at hs
    unfold Exec.tasks at ha
    rw [h2] at hs ha
    simp only [List.append_nil, Option.toList_none, List.nil_append] at hs ha
    cases hstep : step env a.server m with
    | panic =>
      have ho : outcomeOf env a.server m = none := by unfold outcomeOf; rw [hstep]
      refine ⟨done', rest, _, rs, hd, hrun', ⟨fun _ h => absurd (h _ rfl) (by simp [Task.first, ho]), ?_, ?_, ?_, ?_, hb.waiting, hb.order⟩⟩
      · intro t ht hn
        cases ht
        exact script_panic hstep n
      · unfold unsent
        simp only [Task.first, Task.entry, ho, Option.toList_none, List.map_nil, ite_self, List.append_nil]
        exact hs
      · unfold Exec.tasks
        simp only [Task.first, Option.toList_some, List.singleton_append, List.flatMap_cons, Task.entry, ho, Option.toList_none, List.map_nil, List.nil_append]
        exact ha
      · intro t r ht hr
        cases ht
        simp only [Task.first, ho] at hr
        cases hr
    | ok x =>
      obtain ⟨s2, r⟩ := x
      have ho : outcomeOf env a.server m = some r := by unfold outcomeOf; rw [hstep]
      have hl := run_length hrun'
      have hent : (Task.first env a.server n a.started m).entry = [(rs.length, r)] := by
        simp only [Task.entry, Task.first, ho, Option.toList_some, List.map_cons, List.map_nil, e2, hl]
      have hnum : numbered 0 (rs ++ [r]) = numbered 0 rs ++ [(rs.length, r)] := by rw [numbered_append, Nat.zero_add]; rfl
      have hse := script_sends hstep n
      refine ⟨done' ++ [(env, m)], q, s2, rs ++ [r], by rw [e1, h4]; simp, run_snoc hrun' hstep, ⟨fun _ _ => ⟨by rw [e1, h4]; simp, by simp [e2]⟩, ?_, ?_, ?_, ?_, hb.waiting, hb.order⟩⟩
      · intro t ht hn
        cases ht
        simp only [Task.first, ho] at hn
        cases hn
      · unfold unsent
        simp only [hent]
        rw [hnum, List.filter_append, ← hs]
        congr 1
        simp only [Task.first, hse, List.filter_cons, List.filter_nil]
      · unfold Exec.tasks
        simp only [Option.toList_some, List.singleton_append, List.flatMap_cons, hent]
        rw [hnum]
        refine List.Perm.trans ?_ (ha.append_right _)
        simp only [List.append_assoc]
        exact (List.perm_append_comm (l₁ := [(rs.length, r)])).append_left _
      · intro t r' ht hr
        cases ht
        simp only [Task.first, ho, Option.some.injEq] at hr
        subst hr
        exact ⟨fun h => by simpa only [Task.first, hse] using h, .inl rfl⟩
  | @resume w1 t w2 h1 h2 h3 =>
    obtain ⟨e1, e2⟩ := hb.started h1 (fun t ht => by rw [h2] at ht; cases ht)
    obtain ⟨r, hr, hsr⟩ := hb.waiting t (by rw [h3]; simp)
    have hp := hri.1 t (by rw [h3]; simp)
    refine ⟨done, rest, stF, rs, hd, hrun, ⟨fun _ _ => ⟨e1, e2⟩, ?_, ?_, ?_, ?_, ?_, hb.order⟩⟩
    · intro x hx hn
      cases hx
      rw [hr] at hn
      cases hn
    · have := hb.sent
      unfold unsent at this ⊢
      rw [h2] at this
      simp only [sends_passive hp]
      exact this
    · refine List.Perm.trans ?_ hb.all
      refine List.Perm.append_left _ ?_
      unfold Exec.tasks
      rw [h2, h3]
      simp only [Option.toList_none, List.nil_append, Option.toList_some, List.singleton_append, List.flatMap_append, List.flatMap_cons]
      rw [← List.append_assoc, ← List.append_assoc]
      exact List.perm_append_comm.append_right _
    · intro x r' hx hxr
      cases hx
      rw [hr] at hxr
      cases hxr
      exact ⟨fun _ => hsr, .inr hsr⟩
    · intro x hx
      refine hb.waiting x ?_
      rw [h3]
      rcases List.mem_append.mp hx with hx | hx
      · exact List.mem_append.mpr (.inl hx)
      · exact List.mem_append.mpr (.inr (List.mem_cons_of_mem _ hx))
  | @acquire t u acts h1 h2 h3 => exact ⟨done, rest, stF, rs, hd, hrun, hb.go h2 h3 rfl nofun _ _ _⟩
  | @release t u acts h1 h2 h3 => exact ⟨done, rest, stF, rs, hd, hrun, hb.go h2 h3 rfl nofun _ _ _⟩
  | @write t u doc acts h1 h2 h3 h4 => exact ⟨done, rest, stF, rs, hd, hrun, hb.go h2 h3 rfl nofun _ _ _⟩
  | @lock t i acts h1 h2 h3 h4 => exact ⟨done, rest, stF, rs, hd, hrun, hb.go h2 h3 rfl nofun _ _ _⟩
  | @unlock t i acts h1 h2 h3 => exact ⟨done, rest, stF, rs, hd, hrun, hb.go h2 h3 rfl nofun _ _ _⟩
  | @settings t r l acts h1 h2 h3 => exact ⟨done, rest, stF, rs, hd, hrun, hb.go h2 h3 rfl nofun _ _ _⟩
  | @output t acts h1 h2 h3 => exact ⟨done, rest, stF, rs, hd, hrun, hb.park h2 h3 rfl nofun⟩
  | @await t acts h1 h2 h3 => exact ⟨done, rest, stF, rs, hd, hrun, hb.park h2 h3 rfl nofun⟩
  | @crash t acts h1 h2 h3 => exact ⟨done, rest, stF, rs, hd, hrun, ⟨fun h => (by cases h), hb.crash, hb.sent, hb.all, hb.current, hb.waiting, hb.order⟩⟩
  | @finish t h1 h2 h3 =>
    have hr : t.reply ≠ none := fun hn => by
      have := hb.crash t h2 hn
      rw [h3] at this
      cases this
    obtain ⟨r, hre⟩ : ∃ r, t.reply = some r := by cases hre : t.reply with | none => exact absurd hre hr | some r => exact ⟨r, rfl⟩
    obtain ⟨e1, e2⟩ := hb.started h1 (fun x hx => by rw [h2] at hx; cases hx; exact hr)
    have hent : t.entry = [(t.number, r)] := by simp [Task.entry, hre]
    refine ⟨done, rest, stF, rs, hd, hrun, ⟨fun _ _ => ⟨e1, e2⟩, fun x hx => (by cases hx), ?_, ?_, fun x r hx => (by cases hx), hb.waiting, ?_⟩⟩
    · have := hb.sent
      unfold unsent at this ⊢
      rw [h2] at this
      simp only [h3, sends] at this
      simpa using this
    · refine List.Perm.trans (List.Perm.of_eq ?_) hb.all
      unfold Exec.tasks
      rw [h2]
      simp
    · intro l1 i r' l2 hl e he hlt
      rw [hent] at hl
      rcases List.eq_nil_or_concat l2 with rfl | ⟨l2', x, rfl⟩
      · obtain ⟨e3, e4⟩ := List.append_inj' hl rfl
        cases e4
        rcases (hb.current t r h2 hre).2 with h | h
        · have hmem : e ∈ numbered 0 rs := hb.all.mem_iff.mp (List.mem_append.mpr (.inl (by rw [e3]; exact he)))
          have h5 := (mem_numbered (i := e.1) (r := e.2).mp hmem).2
          have h6 := (List.getElem?_eq_some_iff.mp h5).1
          have := run_length hrun
          omega
        · exact h
      · rw [List.concat_eq_append, ← List.cons_append, ← List.append_assoc] at hl
        obtain ⟨e3, e4⟩ := List.append_inj' hl rfl
        exact hb.order l1 i r' l2' e3 e he hlt

theorem outInv_received {h : List (Env × Msg)} {s : Exec} (hr : Received shard st h s) : OutInv st h s := by
  induction hr with
  | init =>
    refine ⟨[], [], st, [], rfl, rfl, ⟨fun _ _ => ⟨rfl, rfl⟩, fun t ht => (by cases ht), rfl, List.Perm.refl _, fun t r ht => (by cases ht), fun t ht => (by cases ht), ?_⟩⟩
    intro l1 i r l2 hl
    cases l1 <;> cases hl
  | trans hr ht ih => exact outInv_trans (runInv_received hr) ih ht
  | @arrive h a env m _ ih =>
    obtain ⟨done, rest, stF, rs, hd, hrun, hb⟩ := ih
    refine ⟨done, rest ++ [(env, m)], stF, rs, by rw [hd]; simp, hrun, ⟨fun h1 h2 => ?_, hb.crash, hb.sent, hb.all, hb.current, hb.waiting, hb.order⟩⟩
    obtain ⟨e1, e2⟩ := hb.started h1 h2
    exact ⟨by rw [e1]; simp, e2⟩

/-! ### What the client sees -/

/-- C96.  In every schedule, also one that ends with a panic or blocks: what a handler has sent or returned is the reply that handling the messages
one by one, in the order of their arrival, gives. -/
theorem C96_replies {h : List (Env × Msg)} {s : Exec} (hr : Received shard st h s) {i : Nat} {r : Reply} (hm : (i, r) ∈ s.returned ∨ (i, r) ∈ s.sent) :
    ∃ st' rs, run st (h.take (i + 1)) = .ok (st', rs) ∧ rs[i]? = some r := by
  obtain ⟨done, rest, stF, rs, hd, hrun, hb⟩ := outInv_received hr
  have hmem : (i, r) ∈ numbered 0 rs := by
    rcases hm with hm | hm
    · exact hb.all.mem_iff.mp (List.mem_append.mpr (.inl hm))
    · have : (i, r) ∈ (numbered 0 rs).filter fun e => sentAhead e.2 := by
        rw [← hb.sent]
        exact List.mem_append.mpr (.inl hm)
      exact (List.mem_filter.mp this).1
  have h5 : rs[i]? = some r := (mem_numbered.mp hmem).2
  have h6 := (List.getElem?_eq_some_iff.mp h5).1
  have hl := run_length hrun
  obtain ⟨s1, h7⟩ := run_take hrun (i + 1)
  refine ⟨s1, rs.take (i + 1), ?_, ?_⟩
  · rw [hd, List.take_append_of_le_length (by omega)]
    exact h7
  · rw [List.getElem?_take_of_lt (by omega)]
    exact h5

/-- C96.  No message is answered twice. -/
theorem C96_once {h : List (Env × Msg)} {s : Exec} (hr : Received shard st h s) : (s.returned.map Prod.fst).Nodup ∧ (s.sent.map Prod.fst).Nodup := by
  obtain ⟨done, rest, stF, rs, hd, hrun, hb⟩ := outInv_received hr
  constructor
  · have := (hb.all.map Prod.fst).nodup_iff.mpr (numbered_fst_nodup 0 rs)
    rw [List.map_append] at this
    exact (List.nodup_append.mp this).1
  · have := hb.sent ▸ (List.filter_sublist (p := fun e : Nat × Reply => sentAhead e.2) (l := numbered 0 rs)).map Prod.fst
    have h2 := this.nodup (numbered_fst_nodup 0 rs)
    rw [List.map_append] at h2
    exact (List.nodup_append.mp h2).1

/-- C96.  Whenever no handler is running, the diagnostics and graphs sent so far are those of the messages started so far, in the order of their
arrival. -/
theorem C96_sent {h : List (Env × Msg)} {s : Exec} (hr : Received shard st h s) (hcr : s.crashed = false) (hn : s.current = none) :
    ∃ done rs, h = done ++ s.queue ∧ run st done = .ok (s.server, rs) ∧ s.sent = (numbered 0 rs).filter fun e => sentAhead e.2 := by
  obtain ⟨done, rest, stF, rs, hd, hrun, hb⟩ := outInv_received hr
  obtain ⟨e1, _⟩ := hb.started hcr (fun t ht => by rw [hn] at ht; cases ht)
  obtain ⟨done', rs', hd', hrun'⟩ := runInv_none (runInv_received hr) hcr hn
  have : done' = done := List.append_cancel_right (hd'.symm.trans e1)
  subst this
  rw [hrun] at hrun'
  cases hrun'
  have := hb.sent
  unfold unsent at this
  rw [hn] at this
  exact ⟨done', rs, hd', hrun, by simpa using this⟩

/-- C96.  When all messages are handled, every message was answered, each with its reply. -/
theorem C96_complete {h : List (Env × Msg)} {s : Exec} (hr : Received shard st h s) (hcr : s.crashed = false) (hi : Idle s) :
    ∃ rs, run st h = .ok (s.server, rs) ∧ s.returned.Perm (numbered 0 rs) ∧ s.sent = (numbered 0 rs).filter fun e => sentAhead e.2 := by
  obtain ⟨h1, h2, h3⟩ := hi
  obtain ⟨done', rs', hd', hrun', hs⟩ := C96_sent hr hcr h2
  obtain ⟨done, rest, stF, rs, hd, hrun, hb⟩ := outInv_received hr
  obtain ⟨e1, _⟩ := hb.started hcr (fun t ht => by rw [h2] at ht; cases ht)
  have : done' = done := List.append_cancel_right (hd'.symm.trans e1)
  subst this
  rw [hrun] at hrun'
  cases hrun'
  rw [h1, List.append_nil] at e1
  subst e1
  have := hb.all
  unfold Exec.tasks at this
  rw [h2, h3] at this
  exact ⟨_, hrun, by simpa using this, hs⟩

/-- C96.  An answer is overtaken by the answer to a later message only if its handler has sent diagnostics or a graph and waited. -/
theorem C96_order {h : List (Env × Msg)} {s : Exec} (hr : Received shard st h s) {l1 l2 : List (Nat × Reply)} {i j : Nat} {r r' : Reply}
    (hl : s.returned = l1 ++ (i, r) :: l2) (hj : (j, r') ∈ l1) (hlt : i < j) : (∃ p, r = .published p) ∨ ∃ g, r = .graph g := by
  obtain ⟨done, rest, stF, rs, hd, hrun, hb⟩ := outInv_received hr
  have := hb.order l1 i r l2 hl _ hj hlt
  cases r with
  | published p => exact .inl ⟨p, rfl⟩
  | graph g => exact .inr ⟨g, rfl⟩
  | _ => cases this

omit [Unicode] in
theorem lastPublished_sent (rs : List Reply) (uri : Str) :
    lastPublished (((numbered 0 rs).filter fun e => sentAhead e.2).map Prod.snd) uri = lastPublished rs uri := by
  have : ∀ n, ((((numbered n rs).filter fun e => sentAhead e.2).map Prod.snd).filterMap publishedBy) = rs.filterMap publishedBy := by
    induction rs with
    | nil => intro n; rfl
    | cons r rs ih =>
      intro n
      have h1 := ih (n + 1)
      cases r <;> first | exact h1 | exact congrArg (_ :: ·) h1
  unfold lastPublished
  rw [this]

/-- C96.  When all messages are handled, the diagnostics sent last for a document are those of its latest text: the client is not left with the
diagnostics of an older text. -/
theorem C96_last_diagnostics {h : List (Env × Msg)} {s : Exec} {uri text : Str} (hr : Received shard {} h s) (hcr : s.crashed = false) (hi : Idle s)
    (hc : SingleChanges h) (hl : latestText h uri = some text) :
    ∃ p, lastPublished (s.sent.map Prod.snd) uri = some p ∧
      ∀ (env' : Env) (other : ServerState) (v' : Int), ∃ o' p', step env' other (.didOpen uri v' text) = .ok (o', .published p') ∧
        p'.diagnostics.Perm p.diagnostics := by
  obtain ⟨rs, hrun, _, hs⟩ := C96_complete hr hcr hi
  rw [hs, lastPublished_sent]
  exact C55_last_published hc hrun hl

end
/-! ### Examples -/

section
attribute [local instance] asciiUnicode

/-- A schedule that meets the hypotheses, in which the second answer overtakes the first: while the diagnostics of the opened document are written, the
next message is answered. -/
example (shard : Str → Nat) : ∃ (p : Publish) (s : Exec), Received shard {} [(debugEnv, .didOpen c!"u" 1 flowText), (debugEnv, .shutdown)] s ∧
    s.crashed = false ∧ Idle s ∧ s.sent = [(0, .published p)] ∧ s.returned = [(1, .done), (0, .published p)] := by
  cases ha : analyze flowText with
  | panic => exact absurd ha (by
      have : (match analyze flowText with | .ok _ => true | .panic => false) = true := by decide +kernel
      intro h
      rw [h] at this
      cases this)
  | ok d =>
    obtain ⟨doc, errs⟩ := d
    let p : Publish := { uri := c!"u", version := 1, diagnostics := documentDiagnostics debugEnv c!"u" doc errs }
    let m1 : Msg := .didOpen c!"u" 1 flowText
    let t1 : Task := { msg := m1, todo := [.write c!"u" doc, .output], reply := some (.published p) }
    let t2 : Task := { msg := .shutdown, todo := [], number := 1, reply := some .done }
    have e1 : Task.first debugEnv {} 0 0 m1 = t1 := by
      simp only [Task.first, script, outcomeOf, step, didOpen, onChange_ok ha, Outcome.map', get?_insert, if_true, t1, m1, p]
    let st1 : ServerState := { docs := StrMap.insert [] c!"u" doc }
    have e2 : Task.first debugEnv st1 0 1 .shutdown = t2 := rfl
    have h0 := Received.arrive (shard := shard) debugEnv .shutdown (Received.arrive debugEnv m1 (Received.init (shard := shard) (st := {})))
    have h1 := Received.trans h0 (Trans.start 0 rfl rfl (by simp) rfl)
    dsimp only at h1
    rw [e1] at h1
    have h2 := Received.trans h1 (Trans.write rfl rfl rfl (by simp [Exec.tasks, t1]))
    have h3 := Received.trans h2 (Trans.output rfl rfl rfl)
    have h4 := Received.trans h3 (Trans.start 0 rfl rfl (by simp) rfl)
    dsimp only at h4
    rw [show (Task.first debugEnv _ 0 (0 + 1) .shutdown) = t2 from e2] at h4
    have h5 := Received.trans h4 (Trans.finish rfl rfl rfl)
    have h6 := Received.trans h5 (Trans.resume (w1 := []) rfl rfl rfl)
    have h7 := Received.trans h6 (Trans.finish rfl rfl rfl)
    exact ⟨p, _, h7, rfl, ⟨rfl, rfl, rfl⟩, rfl, rfl⟩

/-- The other hypotheses of `C96_last_diagnostics`. -/
example : SingleChanges [(debugEnv, .didOpen c!"u" 1 flowText), (debugEnv, .shutdown)] ∧
    latestText [(debugEnv, .didOpen c!"u" 1 flowText), (debugEnv, .shutdown)] c!"u" = some flowText := by
  refine ⟨?_, rfl⟩
  intro env u v cs he
  simp at he

end

end HyperIR
