import Verif.Spec.History
import Verif.Props.Flow

/-
C51-C55, C57: what the server does over a history of messages.
-/

namespace HyperIR
open Spec

section
variable [Unicode] {env : Env} {st st' : ServerState} {uri text : Str} {v : Int}

/-! ### Handlers depend on the settings and the document only -/

/-- The two states have the same settings and the same document. -/
def SameFor (uri : Str) (a b : ServerState) : Prop :=
  a.roots = b.roots ∧ a.lazyResolve = b.lazyResolve ∧ a.docs.get? uri = b.docs.get? uri

theorem SameFor.symm {a b : ServerState} (h : SameFor uri a b) : SameFor uri b a := ⟨h.1.symm, h.2.1.symm, h.2.2.symm⟩

theorem useDef_congr {a b : ServerState} (h : SameFor uri a b) (pos : Pos) (ud : UseDefKind) :
    getUseDefRanges env a uri pos ud = getUseDefRanges env b uri pos ud := by
  unfold getUseDefRanges; rw [h.2.2, h.1]

theorem offered_uri {doc : AnalyzedDocument} {pos : Pos} {as : List CodeAction}
    (h : offeredActions uri doc pos = .ok as) : ∀ a ∈ as, ∃ d, a.data = .shift d ∧ d.uri = uri := by
  unfold offeredActions at h
  revert h
  repeat' split
  all_goals intro h; cases h
  all_goals intro a ha
  · cases ha
  · cases ha
  · rw [List.mem_singleton] at ha
    subst ha
    exact ⟨_, rfl, rfl⟩

theorem resolve_congr {a b : ServerState} (h : SameFor uri a b) {c : CodeAction} (hc : ∃ d, c.data = .shift d ∧ d.uri = uri) :
    codeActionResolve env a c = codeActionResolve env b c := by
  obtain ⟨d, hd, rfl⟩ := hc
  unfold codeActionResolve
  rw [hd]
  dsimp only
  rw [h.2.2]

theorem resolveAll_congr {a b : ServerState} (h : SameFor uri a b) : ∀ {l : List CodeAction},
    (∀ c ∈ l, ∃ d, c.data = .shift d ∧ d.uri = uri) → resolveAll env a l = resolveAll env b l
  | [], _ => rfl
  | c :: l, hl => by
    unfold resolveAll
    rw [resolve_congr h (hl c (by simp)), resolveAll_congr h (fun x hx => hl x (by simp [hx]))]

theorem codeAction_congr {a b : ServerState} (h : SameFor uri a b) (r : Range) :
    codeAction env a uri r = codeAction env b uri r := by
  unfold codeAction
  rw [h.2.2, h.2.1]
  cases b.docs.get? uri with
  | none => rfl
  | some doc =>
    dsimp only
    by_cases hr : r.start ≠ r.stop
    · rw [if_pos hr, if_pos hr]
    · rw [if_neg hr, if_neg hr]
      cases ho : offeredActions uri doc r.start with
      | panic => rfl
      | ok as => dsimp only; rw [resolveAll_congr h (offered_uri ho)]

/-- A handler's reply depends on the settings and on the document it is about. -/
theorem step_congr {a b : ServerState} (h : SameFor uri a b) {m : Msg} (hm : About uri m) :
    (step env a m).map' Prod.snd = (step env b m).map' Prod.snd := by
  cases m with
  | «initialize» p => exact hm.elim
  | didOpen u v t => exact hm.elim
  | didChange u v cs => exact hm.elim
  | shutdown => exact hm.elim
  | gotoDefinition u p => cases hm; simp only [step, gotoDefinition, useDef_congr h]; cases getUseDefRanges env b uri p .def_ <;> rfl
  | gotoDeclaration u p => cases hm; simp only [step, gotoDeclaration, useDef_congr h]; cases getUseDefRanges env b uri p .decl <;> rfl
  | references u p => cases hm; simp only [step, references, useDef_congr h]; cases getUseDefRanges env b uri p .use <;> rfl
  | semanticTokensFull u =>
    cases hm
    have : semanticTokensFull env a uri = semanticTokensFull env b uri := by unfold semanticTokensFull; rw [h.2.2]
    simp only [step, this]; cases semanticTokensFull env b uri <;> rfl
  | documentSymbol u => cases hm; simp only [step, documentSymbol, h.2.2]; rfl
  | prepareRename u p =>
    cases hm
    have : prepareRename a uri p = prepareRename b uri p := by unfold prepareRename; rw [h.2.2]
    simp only [step, this]; rfl
  | rename u p n =>
    cases hm
    have : rename env a uri p n = rename env b uri p n := by unfold rename; rw [h.2.2]
    simp only [step, this]; cases rename env b uri p n <;> rfl
  | codeAction u r => cases hm; simp only [step, codeAction_congr h]; cases codeAction env b uri r <;> rfl
  | codeActionResolve c => simp only [step, resolve_congr h hm]; cases codeActionResolve env b c <;> rfl
  | foldingRange u => cases hm; simp only [step, foldingRange, h.2.2]; rfl
  | inlayHint u =>
    cases hm
    have : inlayHint env a uri = inlayHint env b uri := by unfold inlayHint; rw [h.2.2, h.1]
    simp only [step, this]; cases inlayHint env b uri <;> rfl
  | codeLens u => cases hm; simp only [step, codeLens, h.2.2]; rfl
  | executeCommand c as =>
    obtain ⟨rfl, n, rfl⟩ := hm
    have : executeCommand a c!"visualize-cfg" [.str uri, .str n] = executeCommand b c!"visualize-cfg" [.str uri, .str n] := by
      simp only [executeCommand, decide_true, h.2.2]
    simp only [step, this]; rfl

/-! ### C52: requests never modify documents -/

/-- A request leaves the whole state unchanged. -/
theorem C52_state {m : Msg} {r : Reply} (hm : IsRequest m) (h : step env st m = .ok (st', r)) : st' = st := by
  have key : ∀ {α : Type} (o : Outcome α) (f : α → Reply), (o.map' fun x => (st, f x)) = .ok (st', r) → st' = st := by
    intro α o f ho
    cases o with
    | panic => cases ho
    | ok x => cases ho; rfl
  cases m with
  | «initialize» p => exact hm.elim
  | didOpen u v t => exact hm.elim
  | didChange u v cs => exact hm.elim
  | gotoDefinition u p => exact key _ _ h
  | gotoDeclaration u p => exact key _ _ h
  | references u p => exact key _ _ h
  | semanticTokensFull u => exact key _ _ h
  | rename u p n => exact key _ _ h
  | codeAction u r => exact key _ _ h
  | codeActionResolve c => exact key _ _ h
  | inlayHint u => exact key _ _ h
  | documentSymbol u => cases h; rfl
  | prepareRename u p => cases h; rfl
  | foldingRange u => cases h; rfl
  | codeLens u => cases h; rfl
  | executeCommand c as => cases h; rfl
  | shutdown => cases h; rfl

theorem run_cons_inv {m : Msg} {ms : List Step} {rs : List Reply} (h : run st ((env, m) :: ms) = .ok (st', rs)) :
    ∃ st1 r rs', step env st m = .ok (st1, r) ∧ run st1 ms = .ok (st', rs') ∧ rs = r :: rs' := by
  unfold run at h
  split at h
  · cases h
  · rename_i st1 r hs
    split at h
    · cases h
    · rename_i st2 rs' hr
      cases h
      exact ⟨st1, r, rs', hs, hr, rfl⟩

theorem run_append {ms1 ms2 : List Step} {st1 st2 : ServerState} {rs1 rs2 : List Reply}
    (h1 : run st ms1 = .ok (st1, rs1)) (h2 : run st1 ms2 = .ok (st2, rs2)) :
    run st (ms1 ++ ms2) = .ok (st2, rs1 ++ rs2) := by
  induction ms1 generalizing st rs1 with
  | nil => cases h1; exact h2
  | cons e ms ih =>
    obtain ⟨env, m⟩ := e
    obtain ⟨s, r, rs', hs, hr, rfl⟩ := run_cons_inv h1
    have := ih hr
    simp only [List.cons_append, run, hs, this]

theorem run_append_inv {ms1 ms2 : List Step} {st2 : ServerState} {rs : List Reply}
    (h : run st (ms1 ++ ms2) = .ok (st2, rs)) :
    ∃ st1 rs1 rs2, run st ms1 = .ok (st1, rs1) ∧ run st1 ms2 = .ok (st2, rs2) ∧ rs = rs1 ++ rs2 := by
  induction ms1 generalizing st rs with
  | nil => exact ⟨st, [], rs, rfl, h, rfl⟩
  | cons e ms ih =>
    obtain ⟨env, m⟩ := e
    obtain ⟨s, r, rs', hs, hr, rfl⟩ := run_cons_inv h
    obtain ⟨st1, rs1, rs2, h1, h2, rfl⟩ := ih hr
    refine ⟨st1, r :: rs1, rs2, ?_, h2, rfl⟩
    simp only [run, hs, h1]

/-- Any sequence of requests leaves the state unchanged. -/
theorem C52_requests {ms : List Step} {rs : List Reply} (hm : ∀ e ∈ ms, IsRequest e.2)
    (h : run st ms = .ok (st', rs)) : st' = st := by
  induction ms generalizing st rs with
  | nil => cases h; rfl
  | cons e ms ih =>
    obtain ⟨env, m⟩ := e
    obtain ⟨s, r, rs', hs, hr, rfl⟩ := run_cons_inv h
    have := C52_state (hm (env, m) (by simp)) hs
    subst this
    exact ih (fun x hx => hm x (by simp [hx])) hr

/-- Repeating a request, with any requests between the two, gives the same answer. -/
theorem C52_repeat {m : Msg} {ms : List Step} {rs : List Reply} (hm : IsRequest m) (hms : ∀ e ∈ ms, IsRequest e.2)
    (h : run st ([(env, m)] ++ ms ++ [(env, m)]) = .ok (st', rs)) :
    ∃ r rs', rs = r :: rs' ++ [r] := by
  obtain ⟨st1, rs1, rs2, h1, h2, rfl⟩ := run_append_inv h
  obtain ⟨s2, r, rs3, hs, hr, rfl⟩ := run_cons_inv (ms := ms) h1
  have e1 := C52_state hm hs
  subst e1
  have e2 := C52_requests hms hr
  subst e2
  obtain ⟨s4, r2, rs4, hs2, hr2, rfl⟩ := run_cons_inv h2
  rw [hs] at hs2
  cases hs2
  cases hr2
  exact ⟨r, rs3, rfl⟩

instance : DecidablePred IsRequest := fun m => by cases m <;> unfold IsRequest <;> infer_instance

/-- Leaving the requests out of a history gives the same final state, hence the same answers later. -/
theorem C52_requests_removable {ms : List Step} {rs : List Reply} (h : run st ms = .ok (st', rs)) :
    ∃ rs', run st (ms.filter fun e => decide ¬ IsRequest e.2) = .ok (st', rs') := by
  induction ms generalizing st rs with
  | nil => cases h; exact ⟨[], rfl⟩
  | cons e ms ih =>
    obtain ⟨env, m⟩ := e
    obtain ⟨s, r, rs', hs, hr, rfl⟩ := run_cons_inv h
    obtain ⟨rs'', hi⟩ := ih hr
    by_cases hm : IsRequest m
    · have := C52_state hm hs
      subst this
      rw [List.filter_cons_of_neg (by simpa using hm)]
      exact ⟨rs'', hi⟩
    · rw [List.filter_cons_of_pos (by simpa using hm)]
      exact ⟨r :: rs'', by simp only [run, hs, hi]⟩

/-! ### C51: requests answer for the latest text -/

theorem onChange_inv {p : Publish} (h : onChange env st uri v text = .ok (st', p)) :
    ∃ doc errs, analyze text = .ok (doc, errs) ∧ st' = { st with docs := st.docs.insert uri doc } ∧
      p = { uri := uri, version := v, diagnostics := documentDiagnostics env uri doc errs } := by
  unfold onChange at h
  split at h
  · cases h
  · rename_i doc errs ha
    cases h
    exact ⟨doc, errs, ha, rfl, rfl⟩

theorem onChange_ok {doc : AnalyzedDocument} {errs : List SErr} (ha : analyze text = .ok (doc, errs)) (env : Env)
    (st : ServerState) (uri : Str) (v : Int) :
    onChange env st uri v text = .ok ({ st with docs := st.docs.insert uri doc },
      { uri := uri, version := v, diagnostics := documentDiagnostics env uri doc errs }) := by
  simp only [onChange, ha]

omit [Unicode] in
theorem get?_insert (docs : StrMap AnalyzedDocument) (u uri : Str) (doc : AnalyzedDocument) :
    StrMap.get? (docs.insert u doc) uri = if u = uri then some doc else docs.get? uri := by
  unfold StrMap.insert
  rw [StrMap.get?_modifyEntry]

/-- The server's document is the analysis of the text, or there is none. -/
def Holds (st : ServerState) (uri : Str) : Option Str → Prop
  | none => st.docs.get? uri = none
  | some text => Opened st uri text

theorem holds_step {m : Msg} {r : Reply} {old : Option Str} (hold : Holds st uri old)
    (hc : ∀ u v cs, m = .didChange u v cs → ∃ t, cs = [⟨none, t⟩])
    (h : step env st m = .ok (st', r)) : Holds st' uri (textAfter uri old m) := by
  have change : ∀ {u : Str} {v : Int} {t : Str} {p : Publish}, onChange env st u v t = .ok (st', p) →
      Holds st' uri (if u = uri then some t else old) := by
    intro u v t p hoc
    obtain ⟨doc, errs, ha, rfl, rfl⟩ := onChange_inv hoc
    by_cases hu : u = uri
    · rw [if_pos hu]
      exact ⟨doc, errs, ha, by dsimp only; rw [get?_insert, if_pos hu]⟩
    · rw [if_neg hu]
      cases old with
      | none => exact (by dsimp only [Holds]; rw [get?_insert, if_neg hu]; exact hold)
      | some t' =>
        obtain ⟨doc', errs', ha', hg⟩ := hold
        exact ⟨doc', errs', ha', by dsimp only; rw [get?_insert, if_neg hu]; exact hg⟩
  cases m with
  | «initialize» p => cases h; exact hold
  | didOpen u v t =>
    simp only [step] at h
    cases ho : didOpen env st u v t with
    | panic => rw [ho] at h; cases h
    | ok x => rw [ho] at h; cases h; exact change ho
  | didChange u v cs =>
    obtain ⟨t, rfl⟩ := hc u v cs rfl
    simp only [step] at h
    cases ho : didChange env st u v [⟨none, t⟩] with
    | panic => rw [ho] at h; cases h
    | ok x => rw [ho] at h; cases h; exact change ho
  | _ => rw [C52_state (by exact trivial) h]; exact hold

theorem holds_run {ms : List Step} {rs : List Reply} {old : Option Str} (hold : Holds st uri old) (hc : SingleChanges ms)
    (h : run st ms = .ok (st', rs)) : Holds st' uri (ms.foldl (fun old e => textAfter uri old e.2) old) := by
  induction ms generalizing st rs old with
  | nil => cases h; exact hold
  | cons e ms ih =>
    obtain ⟨env, m⟩ := e
    obtain ⟨s, r, rs', hs, hr, rfl⟩ := run_cons_inv h
    exact ih (holds_step hold (fun u v cs e => hc env u v cs (by rw [← e]; simp)) hs)
      (fun env u v cs hm => hc env u v cs (by simp [hm])) hr

/-- The settings and the `initialize` requests that make them. -/
theorem settings_step {m : Msg} {r : Reply} (h : step env st m = .ok (st', r)) {b : ServerState}
    (hb : st.roots = b.roots ∧ st.lazyResolve = b.lazyResolve) :
    ∃ b' rs, run b ([(env, m)].filter isInitialize) = .ok (b', rs) ∧ st'.roots = b'.roots ∧ st'.lazyResolve = b'.lazyResolve ∧
      b'.docs = b.docs := by
  cases m with
  | «initialize» p =>
    cases h
    refine ⟨(initializeServer b p).1, [.initialized (initializeServer b p).2], rfl, ?_, ?_, rfl⟩
    · simp only [initializeServer, hb.1]
    · rfl
  | didOpen u v t =>
    simp only [step] at h
    cases ho : didOpen env st u v t with
    | panic => rw [ho] at h; cases h
    | ok x =>
      rw [ho] at h
      obtain ⟨doc, errs, ha, e, e'⟩ := onChange_inv (p := x.2) (st' := x.1) ho
      have e2 : st' = x.1 := by cases h; rfl
      subst e2
      rw [e]
      exact ⟨b, [], rfl, hb.1, hb.2, rfl⟩
  | didChange u v cs =>
    cases cs with
    | nil => cases h
    | cons c cs =>
      simp only [step] at h
      cases ho : didChange env st u v (c :: cs) with
      | panic => rw [ho] at h; cases h
      | ok x =>
        rw [ho] at h
        obtain ⟨doc, errs, ha, e, e'⟩ := onChange_inv (p := x.2) (st' := x.1) ho
        have e2 : st' = x.1 := by cases h; rfl
        subst e2
        rw [e]
        exact ⟨b, [], rfl, hb.1, hb.2, rfl⟩
  | _ => rw [C52_state (by exact trivial) h]; exact ⟨b, [], rfl, hb.1, hb.2, rfl⟩

theorem settings_run {ms : List Step} {rs : List Reply} (h : run st ms = .ok (st', rs)) {b : ServerState}
    (hb : st.roots = b.roots ∧ st.lazyResolve = b.lazyResolve) :
    ∃ b' rs, run b (ms.filter isInitialize) = .ok (b', rs) ∧ st'.roots = b'.roots ∧ st'.lazyResolve = b'.lazyResolve ∧
      b'.docs = b.docs := by
  induction ms generalizing st rs b with
  | nil => cases h; exact ⟨b, [], rfl, hb.1, hb.2, rfl⟩
  | cons e ms ih =>
    obtain ⟨env, m⟩ := e
    obtain ⟨s, r, rs', hs, hr, rfl⟩ := run_cons_inv h
    obtain ⟨b1, rs1, h1, e1, e2, e3⟩ := settings_step hs hb
    obtain ⟨b2, rs2, h2, e4, e5, e6⟩ := ih hr ⟨e1, e2⟩
    refine ⟨b2, rs1 ++ rs2, ?_, e4, e5, e6.trans e3⟩
    have : ((env, m) :: ms).filter isInitialize = [(env, m)].filter isInitialize ++ ms.filter isInitialize := by
      rw [← List.filter_append]; rfl
    rw [this]
    exact run_append h1 h2

/-- C51.  After any history, a server that was started with the same `initialize` requests and has only opened the
document, with its latest text, gives the same answer to every request about the document. -/
theorem C51_latest_text {ms : List Step} {rs : List Reply} (hc : SingleChanges ms) (h : run {} ms = .ok (st, rs))
    (hl : latestText ms uri = some text) (env : Env) (v : Int) :
    ∃ fresh rs', run {} (ms.filter isInitialize ++ [(env, .didOpen uri v text)]) = .ok (fresh, rs') ∧
      ∀ env' m, About uri m → (step env' st m).map' Prod.snd = (step env' fresh m).map' Prod.snd := by
  obtain ⟨b, rs1, hb, e1, e2, e3⟩ := settings_run h (b := {}) ⟨rfl, rfl⟩
  have hh := holds_run (uri := uri) (st := {}) (old := none) (show Holds {} uri none from rfl) hc h
  have : ms.foldl (fun old e => textAfter uri old e.2) none = some text := hl
  rw [this] at hh
  obtain ⟨doc, errs, ha, hg⟩ := hh
  refine ⟨{ b with docs := b.docs.insert uri doc }, _, run_append hb (ms2 := [(env, .didOpen uri v text)])
    (rs2 := [.published { uri := uri, version := v, diagnostics := documentDiagnostics env uri doc errs }]) ?_, ?_⟩
  · simp only [run, step, didOpen, onChange_ok ha, Outcome.map']
  · intro env' m hm
    refine step_congr (b := { b with docs := b.docs.insert uri doc }) ⟨e1, e2, ?_⟩ hm
    dsimp only
    rw [get?_insert, if_pos rfl]
    exact hg

/-- C51, the other way round: a request about a document that was never opened is answered as by a server without
documents. -/
theorem C51_not_opened {ms : List Step} {rs : List Reply} (hc : SingleChanges ms) (h : run {} ms = .ok (st, rs))
    (hl : latestText ms uri = none) :
    ∃ fresh rs', run {} (ms.filter isInitialize) = .ok (fresh, rs') ∧
      ∀ env' m, About uri m → (step env' st m).map' Prod.snd = (step env' fresh m).map' Prod.snd := by
  obtain ⟨b, rs1, hb, e1, e2, e3⟩ := settings_run h (b := {}) ⟨rfl, rfl⟩
  have hh := holds_run (uri := uri) (st := {}) (old := none) (show Holds {} uri none from rfl) hc h
  have : ms.foldl (fun old e => textAfter uri old e.2) none = none := hl
  rw [this] at hh
  refine ⟨b, rs1, hb, fun env' m hm => step_congr ⟨e1, e2, ?_⟩ hm⟩
  rw [e3]
  exact hh

/-! ### C53: documents that were never opened -/

/-- No message of the history opens or changes the document. -/
def NeverMentioned (uri : Str) (ms : List Step) : Prop :=
  ∀ e ∈ ms, (∀ v t, e.2 ≠ .didOpen uri v t) ∧ ∀ v cs, e.2 ≠ .didChange uri v cs

theorem docs_never {m : Msg} {r : Reply} (hm : (∀ v t, m ≠ .didOpen uri v t) ∧ ∀ v cs, m ≠ .didChange uri v cs)
    (hg : st.docs.get? uri = none) (h : step env st m = .ok (st', r)) : st'.docs.get? uri = none := by
  cases m with
  | «initialize» p => cases h; exact hg
  | didOpen u v t =>
    simp only [step] at h
    cases ho : didOpen env st u v t with
    | panic => rw [ho] at h; cases h
    | ok x =>
      rw [ho] at h
      obtain ⟨doc, errs, ha, e, e'⟩ := onChange_inv (p := x.2) (st' := x.1) ho
      have e2 : st' = x.1 := by cases h; rfl
      subst e2
      rw [e]
      dsimp only
      rw [get?_insert, if_neg (by intro e; exact hm.1 v t (by rw [e]))]
      exact hg
  | didChange u v cs =>
    cases cs with
    | nil => cases h
    | cons c cs =>
      simp only [step] at h
      cases ho : didChange env st u v (c :: cs) with
      | panic => rw [ho] at h; cases h
      | ok x =>
        rw [ho] at h
        obtain ⟨doc, errs, ha, e, e'⟩ := onChange_inv (p := x.2) (st' := x.1) ho
        have e2 : st' = x.1 := by cases h; rfl
        subst e2
        rw [e]
        dsimp only
        rw [get?_insert, if_neg (by intro e; exact hm.2 v (c :: cs) (by rw [e]))]
        exact hg
  | _ => rw [C52_state (by exact trivial) h]; exact hg

theorem docs_never_run {ms : List Step} {rs : List Reply} (hm : NeverMentioned uri ms)
    (hg : st.docs.get? uri = none) (h : run st ms = .ok (st', rs)) : st'.docs.get? uri = none := by
  induction ms generalizing st rs with
  | nil => cases h; exact hg
  | cons e ms ih =>
    obtain ⟨env, m⟩ := e
    obtain ⟨s, r, rs', hs, hr, rfl⟩ := run_cons_inv h
    exact ih (fun x hx => hm x (by simp [hx])) (docs_never (hm (env, m) (by simp)) hg hs) hr

/-- C53.  After any history in which the document was not opened, a request about it is answered with null or an error;
the server does not crash and keeps its state. -/
theorem C53_unknown_document {ms : List Step} {rs : List Reply} (hn : NeverMentioned uri ms)
    (h : run {} ms = .ok (st, rs)) {m : Msg} (hm : About uri m) :
    ∃ r, step env st m = .ok (st, r) ∧ NullOrError r := by
  have hg := docs_never_run (st := {}) hn rfl h
  cases m with
  | «initialize» p => exact hm.elim
  | didOpen u v t => exact hm.elim
  | didChange u v cs => exact hm.elim
  | shutdown => exact hm.elim
  | gotoDefinition u p => cases hm; simp only [step, gotoDefinition, getUseDefRanges, hg, Option.map_none, Outcome.map']; exact ⟨_, rfl, rfl⟩
  | gotoDeclaration u p => cases hm; simp only [step, gotoDeclaration, getUseDefRanges, hg, Option.map_none, Outcome.map']; exact ⟨_, rfl, rfl⟩
  | references u p => cases hm; simp only [step, references, getUseDefRanges, hg, Option.map_none, Outcome.map']; exact ⟨_, rfl, rfl⟩
  | semanticTokensFull u => cases hm; simp only [step, semanticTokensFull, hg, Outcome.map']; exact ⟨_, rfl, rfl⟩
  | documentSymbol u => cases hm; simp only [step, documentSymbol, hg, Option.map_none]; exact ⟨_, rfl, rfl⟩
  | prepareRename u p => cases hm; simp only [step, prepareRename, hg]; exact ⟨_, rfl, rfl⟩
  | rename u p n => cases hm; simp only [step, rename, hg, Outcome.map', replyOf]; exact ⟨_, rfl, trivial⟩
  | codeAction u r => cases hm; simp only [step, codeAction, hg, Outcome.map', replyOf]; exact ⟨_, rfl, trivial⟩
  | codeActionResolve c =>
    obtain ⟨d, hd, rfl⟩ := hm
    simp only [step, codeActionResolve, hd, hg, Outcome.map', replyOf]; exact ⟨_, rfl, trivial⟩
  | foldingRange u => cases hm; simp only [step, foldingRange, hg, Option.map_none]; exact ⟨_, rfl, rfl⟩
  | inlayHint u => cases hm; simp only [step, inlayHint, hg, Outcome.map']; exact ⟨_, rfl, rfl⟩
  | codeLens u => cases hm; simp only [step, codeLens, hg, Option.map_none]; exact ⟨_, rfl, rfl⟩
  | executeCommand c as =>
    obtain ⟨rfl, n, rfl⟩ := hm
    simp only [step, executeCommand, decide_true, hg, replyOf]; exact ⟨_, rfl, trivial⟩

/-! ### C54: change notifications -/

/-- C54 (partial).  A change notification with one full-text change makes the document that text; the other documents
stay.  Missing: notifications with no change or several, which the code treats wrongly (below). -/
theorem C54_single_change_partial {r : Reply} {old : Option Str} {u : Str} {cs : List ContentChange}
    (hcs : ∃ t, cs = [⟨none, t⟩]) (hold : Holds st uri old)
    (h : step env st (.didChange u v cs) = .ok (st', r)) :
    Holds st' uri (textAfter uri old (.didChange u v cs)) := by
  refine holds_step hold ?_ h
  intro u' v' cs' e
  cases e
  exact hcs

/-- The server processes a change notification exactly when the text can be analysed. -/
theorem C54_accepted_partial {t : Str} {doc : AnalyzedDocument} {errs : List SErr} (ha : analyze t = .ok (doc, errs)) :
    ∃ st' r, step env st (.didChange uri v [⟨none, t⟩]) = .ok (st', r) ∧ Opened st' uri t := by
  refine ⟨{ st with docs := st.docs.insert uri doc }, _, (by simp only [step, didChange, onChange_ok ha, Outcome.map']; rfl), doc, errs, ha, ?_⟩
  dsimp only
  rw [get?_insert, if_pos rfl]

/-- A notification without changes ends the server. -/
theorem C54_refuted_empty (env : Env) (st : ServerState) (uri : Str) (v : Int) :
    step env st (.didChange uri v []) = .panic := rfl

/-- Of several changes, the first is used and the others are ignored. -/
theorem C54_refuted_several (env : Env) (st : ServerState) (uri : Str) (v : Int) (c : ContentChange)
    (cs : List ContentChange) : step env st (.didChange uri v (c :: cs)) = step env st (.didChange uri v [c]) := rfl

/-! ### C55: published diagnostics -/

omit [Unicode] in
theorem flatMap_perm {α β : Type} {f g : α → List β} (h : ∀ a, (f a).Perm (g a)) :
    ∀ l : List α, (l.flatMap f).Perm (l.flatMap g)
  | [] => .refl _
  | a :: l => by
    rw [List.flatMap_cons, List.flatMap_cons]
    exact List.Perm.append (h a) (flatMap_perm h l)

omit [Unicode] in
theorem allUseDefs_perm (o1 o2 : IterOrder) (ix : HIRIndex) : (allUseDefs o1 ix).Perm (allUseDefs o2 ix) := by
  have h : ∀ {α : Type} (l : List α), (o1.run l).Perm (o2.run l) := fun l => (o1.perm l).trans (o2.perm l).symm
  unfold allUseDefs
  refine List.Perm.append (List.Perm.append (List.Perm.append (List.Perm.append (h _) (h _)) (h _)) ?_) ?_
  · exact flatMap_perm (fun _ => h _) _
  · exact flatMap_perm (fun _ => h _) _

omit [Unicode] in
/-- The published diagnostics depend on the iteration order of hash maps only in their order. -/
theorem documentDiagnostics_perm (e1 e2 : Env) (uri : Str) (doc : AnalyzedDocument) (errs : List SErr) :
    (documentDiagnostics e1 uri doc errs).Perm (documentDiagnostics e2 uri doc errs) :=
  List.Perm.append_left _ (List.Perm.flatMap_right _ (allUseDefs_perm e1.ord e2.ord doc.index))

/-- C55.  Each open/change publishes once: for its URI, version, and with the diagnostics any server publishes on opening
the text (up to their order); and the document is now that text. -/
theorem C55_published {m : Msg} {r : Reply} {t : Str}
    (hm : m = .didOpen uri v t ∨ ∃ range, m = .didChange uri v [⟨range, t⟩])
    (h : step env st m = .ok (st', r)) :
    ∃ p, r = .published p ∧ p.uri = uri ∧ p.version = v ∧ Opened st' uri t ∧
      ∀ (env' : Env) (other : ServerState) (v' : Int), ∃ o' p', step env' other (.didOpen uri v' t) = .ok (o', .published p') ∧
        p'.diagnostics.Perm p.diagnostics := by
  have key : ∀ {p : Publish}, onChange env st uri v t = .ok (st', p) → p.uri = uri ∧ p.version = v ∧ Opened st' uri t ∧
      ∀ (env' : Env) (other : ServerState) (v' : Int), ∃ o' p', step env' other (.didOpen uri v' t) = .ok (o', .published p') ∧
        p'.diagnostics.Perm p.diagnostics := by
    intro p ho
    obtain ⟨doc, errs, ha, rfl, rfl⟩ := onChange_inv ho
    refine ⟨rfl, rfl, ⟨doc, errs, ha, by dsimp only; rw [get?_insert, if_pos rfl]⟩, ?_⟩
    intro env' other v'
    simp only [step, didOpen, onChange_ok ha, Outcome.map']
    exact ⟨_, _, rfl, documentDiagnostics_perm env' env uri doc errs⟩
  rcases hm with rfl | ⟨range, rfl⟩
  · simp only [step] at h
    cases ho : didOpen env st uri v t with
    | panic => rw [ho] at h; cases h
    | ok x => rw [ho] at h; cases h; exact ⟨x.2, rfl, key ho⟩
  · simp only [step] at h
    cases ho : didChange env st uri v [⟨range, t⟩] with
    | panic => rw [ho] at h; cases h
    | ok x => rw [ho] at h; cases h; exact ⟨x.2, rfl, key ho⟩

/-- Nothing else publishes diagnostics. -/
theorem C55_only_changes {m : Msg} {r : Reply} (h : step env st m = .ok (st', r)) {p : Publish}
    (hp : publishedBy r = some p) : (∃ t, m = .didOpen p.uri p.version t) ∨ ∃ cs, m = .didChange p.uri p.version cs := by
  have key : ∀ {α : Type} (o : Outcome α) (f : α → Reply), (o.map' fun x => (st, f x)) = .ok (st', r) →
      ∃ x, r = f x := by
    intro α o f ho
    cases o with
    | panic => cases ho
    | ok x => cases ho; exact ⟨x, rfl⟩
  have keyE : ∀ {α : Type} (o : Outcome (Except RpcError α)) (f : α → Reply),
      (o.map' fun x => (st, replyOf f x)) = .ok (st', r) → (∃ x, r = f x) ∨ ∃ e, r = .error e := by
    intro α o f ho
    cases o with
    | panic => cases ho
    | ok x =>
      cases ho
      cases x with
      | ok a => exact .inl ⟨a, rfl⟩
      | error e => exact .inr ⟨e, rfl⟩
  cases m with
  | «initialize» q => cases h; cases hp
  | didOpen u w t =>
    simp only [step] at h
    cases ho : didOpen env st u w t with
    | panic => rw [ho] at h; cases h
    | ok x =>
      rw [ho] at h
      obtain ⟨doc, errs, ha, e, e'⟩ := onChange_inv (p := x.2) (st' := x.1) ho
      cases h
      cases hp
      exact .inl ⟨t, by rw [e']⟩
  | didChange u w cs =>
    cases cs with
    | nil => cases h
    | cons c cs =>
      simp only [step] at h
      cases ho : didChange env st u w (c :: cs) with
      | panic => rw [ho] at h; cases h
      | ok x =>
        rw [ho] at h
        obtain ⟨doc, errs, ha, e, e'⟩ := onChange_inv (p := x.2) (st' := x.1) ho
        cases h
        cases hp
        exact .inr ⟨c :: cs, by rw [e']⟩
  | gotoDefinition u q => obtain ⟨x, rfl⟩ := key _ _ h; cases hp
  | gotoDeclaration u q => obtain ⟨x, rfl⟩ := key _ _ h; cases hp
  | references u q => obtain ⟨x, rfl⟩ := key _ _ h; cases hp
  | semanticTokensFull u => obtain ⟨x, rfl⟩ := key _ _ h; cases hp
  | inlayHint u => obtain ⟨x, rfl⟩ := key _ _ h; cases hp
  | rename u q n => rcases keyE _ _ h with ⟨x, rfl⟩ | ⟨x, rfl⟩ <;> cases hp
  | codeAction u q => rcases keyE _ _ h with ⟨x, rfl⟩ | ⟨x, rfl⟩ <;> cases hp
  | codeActionResolve u => rcases keyE _ _ h with ⟨x, rfl⟩ | ⟨x, rfl⟩ <;> cases hp
  | documentSymbol u => cases h; cases hp
  | prepareRename u p => cases h; cases hp
  | foldingRange u => cases h; cases hp
  | codeLens u => cases h; cases hp
  | executeCommand c as =>
    cases h
    cases he : executeCommand st c as with
    | ok g => rw [he] at hp; cases hp
    | error e => rw [he] at hp; cases hp
  | shutdown => cases h; cases hp

/-- The last published diagnostics of the document, in order of the replies. -/
def lastPublished (rs : List Reply) (uri : Str) : Option Publish :=
  (rs.filterMap publishedBy).reverse.find? fun p => decide (p.uri = uri)

omit [Unicode] in
theorem lastPublished_append (rs : List Reply) (r : Reply) (uri : Str) :
    lastPublished (rs ++ [r]) uri = match publishedBy r with
      | some p => if p.uri = uri then some p else lastPublished rs uri
      | none => lastPublished rs uri := by
  unfold lastPublished
  rw [List.filterMap_append, List.reverse_append]
  cases h : publishedBy r with
  | none => simp [h]
  | some p =>
    simp only [List.filterMap_cons, h, List.filterMap_nil, List.reverse_cons, List.reverse_nil, List.nil_append,
      List.singleton_append, List.find?_cons]
    by_cases hu : p.uri = uri <;> simp [hu]

/-- C55.  After any history, the last diagnostics published for a document are those of its latest text: the ones any
server publishes on opening that text. -/
theorem C55_last_published {ms : List Step} {rs : List Reply} (hc : SingleChanges ms) (h : run {} ms = .ok (st, rs))
    (hl : latestText ms uri = some text) :
    ∃ p, lastPublished rs uri = some p ∧
      ∀ (env' : Env) (other : ServerState) (v' : Int), ∃ o' p', step env' other (.didOpen uri v' text) = .ok (o', .published p') ∧
        p'.diagnostics.Perm p.diagnostics := by
  induction hn : ms.length generalizing ms rs st text with
  | zero =>
    have : ms = [] := List.length_eq_zero_iff.mp hn
    subst this
    cases hl
  | succ n ih =>
    obtain ⟨ms', ⟨env, m⟩, rfl⟩ : ∃ ms' m, ms = ms' ++ [m] := by
      refine ⟨ms.dropLast, ms.getLast (by rintro rfl; cases hn), (List.dropLast_concat_getLast _).symm⟩
    obtain ⟨s1, rs1, rs2, h1, h2, rfl⟩ := run_append_inv h
    obtain ⟨s2, r, rs', hs, hr, rfl⟩ := run_cons_inv h2
    cases hr
    have hc' : SingleChanges ms' := fun env u v cs hm => hc env u v cs (by simp [hm])
    have hlen : ms'.length = n := by simpa using hn
    rw [lastPublished_append]
    have hl' : textAfter uri (latestText ms' uri) m = some text := by
      rw [← hl]; unfold latestText; rw [List.foldl_append]; rfl
    by_cases hm : (∃ v t, m = .didOpen uri v t) ∨ ∃ v cs, m = .didChange uri v cs
    · have : ∃ v : Int, m = .didOpen uri v text ∨ ∃ range, m = .didChange uri v [⟨range, text⟩] := by
        rcases hm with ⟨v, t, rfl⟩ | ⟨v, cs, rfl⟩
        · simp only [textAfter, if_true, Option.some.injEq] at hl'
          exact ⟨v, .inl (by rw [hl'])⟩
        · obtain ⟨t, rfl⟩ := hc env uri v cs (by simp)
          simp only [textAfter, if_true, List.getLast?_singleton, Option.map_some, Option.some_or, Option.some.injEq] at hl'
          exact ⟨v, .inr ⟨none, by rw [hl']⟩⟩
      obtain ⟨v, hv⟩ := this
      obtain ⟨p, rfl, hu, _, _, hd⟩ := C55_published hv hs
      exact ⟨p, by simp only [publishedBy, hu, if_true], hd⟩
    · have hold : latestText ms' uri = some text := by
        rw [← hl']
        cases m with
        | didOpen u v t => simp only [textAfter]; rw [if_neg (by rintro rfl; exact hm (.inl ⟨_, _, rfl⟩))]
        | didChange u v cs => simp only [textAfter]; rw [if_neg (by rintro rfl; exact hm (.inr ⟨_, _, rfl⟩))]
        | _ => rfl
      obtain ⟨p, hp, hd⟩ := ih hc' h1 hold hlen
      refine ⟨p, ?_, hd⟩
      cases hpb : publishedBy r with
      | none => exact hp
      | some q =>
        have hq : q.uri ≠ uri := by
          rintro rfl
          rcases C55_only_changes hs hpb with ⟨t, rfl⟩ | ⟨cs, rfl⟩
          · exact hm (.inl ⟨_, _, rfl⟩)
          · exact hm (.inr ⟨_, _, rfl⟩)
        simp only [hq, if_false]
        exact hp

/-! ### C57: initialization -/

/-- C57.  After `initialize` on a new server, the search roots are the announced workspace folders, without them the root
URI; edits of code actions are computed lazily, and this is announced, iff the client can resolve the property `edit` and
preserves `data`.  No documents are opened. -/
theorem C57_initialize (p : InitializeParams) :
    ∃ st r, step env {} (.initialize p) = .ok (st, .initialized r) ∧
      (∀ l, p.workspaceFolders = some l → st.roots = l) ∧
      (p.workspaceFolders = none → ∀ u, p.rootUri = some u → st.roots = [u]) ∧
      (p.workspaceFolders = none → p.rootUri = none → st.roots = []) ∧
      (st.lazyResolve = true ↔ ∃ props, p.codeAction = some (some props, some true) ∧ c!"edit" ∈ props) ∧
      r.resolveProvider = st.lazyResolve ∧ ∀ uri, st.docs.get? uri = none := by
  refine ⟨_, _, rfl, ?_, ?_, ?_, ?_, rfl, fun _ => rfl⟩
  · intro l hl; simp [initializeServer, hl]
  · intro hn u hu; simp [initializeServer, hn, hu]
  · intro hn hu; simp [initializeServer, hn, hu]
  · simp only [initializeServer, supportsLazyResolve]
    rcases p.codeAction with _ | ⟨_ | props, _ | _ | _⟩ <;> simp

/-- With lazy resolution the offered actions carry no edit, without it they do. -/
theorem C57_lazy_effect {rg : Range} {as : List CodeAction} (h : codeAction env st uri rg = .ok (.ok (some as))) :
    ∀ a ∈ as, a.edit.isSome = !st.lazyResolve := by
  unfold codeAction at h
  split at h
  · cases h
  · rename_i doc hdoc
    split at h
    · cases h
    · split at h
      · cases h
      · rename_i acts hact
        have hoff : ∀ a ∈ acts, a.edit = none := by
          intro a ha
          unfold offeredActions at hact
          revert hact
          repeat' split
          all_goals intro hact; cases hact
          · cases ha
          · cases ha
          · rw [List.mem_singleton] at ha; rw [ha]
        split at h
        · rename_i hlz
          cases h
          intro a ha
          rw [hoff a ha, hlz]; rfl
        · rename_i hlz
          split at h
          · cases h
          · rename_i as' has
            cases h
            have hres : ∀ {l l' : List CodeAction}, resolveAll env st l = .ok l' → ∀ a ∈ l', a.edit.isSome = true := by
              intro l
              induction l with
              | nil => intro l' hl a ha; cases hl; cases ha
              | cons c l ih =>
                intro l' hl a ha
                unfold resolveAll at hl
                split at hl
                · cases hl
                · cases hl
                · rename_i c' hc'
                  split at hl
                  · cases hl
                  · rename_i l'' hl''
                    cases hl
                    rcases List.mem_cons.mp ha with rfl | ha
                    · unfold codeActionResolve at hc'
                      revert hc'
                      repeat' split
                      all_goals intro hc'; cases hc'
                      rfl
                    · exact ih hl'' a ha
            intro a ha
            rw [hres has a ha]
            simp only [Bool.not_eq_true] at hlz
            rw [hlz]; rfl

end

/-! ### Examples -/

section
attribute [local instance] asciiUnicode

/-- A history with two documents, changes and requests. -/
def histMsgs : List Msg :=
  [.initialize ⟨none, none, some (some [c!"edit"], some true)⟩,
   .didOpen c!"file:///a" 1 c!"@x = 1\n", .didOpen c!"file:///b" 1 c!"@y = @z\n",
   .documentSymbol c!"file:///a", .didChange c!"file:///a" 2 [⟨none, c!"@a = @b\n"⟩],
   .references c!"file:///b" ⟨0, 1⟩]

/-- The history in the debug build. -/
def histEvents : List Step := histMsgs.map fun m => (debugEnv, m)

example : SingleChanges histEvents := by
  intro env u v cs h
  simp only [histEvents, histMsgs, List.map_cons, List.map_nil, Prod.mk.injEq, and_false, List.mem_cons, List.not_mem_nil, or_false, reduceCtorEq, false_or, Msg.didChange.injEq] at h
  exact ⟨_, h.2.2.2⟩

example : latestText histEvents c!"file:///a" = some c!"@a = @b\n" := by decide +kernel
example : latestText histEvents c!"file:///c" = none := by decide +kernel
example : (match run {} histEvents with | .ok (st, rs) => some (st.docs.length, rs.length) | .panic => none)
    = some (2, 6) := by decide +kernel

/-- The published diagnostics of the two documents at the end of the history. -/
example : (match run {} histEvents with
    | .ok (_, rs) => [c!"file:///a", c!"file:///b", c!"file:///c"].map fun u =>
        (lastPublished rs u).map fun p => (p.version, p.diagnostics.map (·.message))
    | .panic => []) =
    [some (2, [c!"Use of undefined symbol `@b`"]), some (1, [c!"Use of undefined symbol `@z`"]), none] := by decide +kernel

example : About c!"file:///a" (.executeCommand c!"visualize-cfg" [.str c!"file:///a", .str c!"@f"]) := ⟨rfl, _, rfl⟩

/-- C54: the text after two full-text changes should be the second one; the server uses the first. -/
theorem C54_refuted_two_changes :
    let m := Msg.didChange c!"u" 1 [⟨none, c!"@x = 1\n"⟩, ⟨none, c!"@y = 1\n"⟩]
    textAfter c!"u" none m = some c!"@y = 1\n" ∧
    (match step debugEnv {} m with
      | .ok (st, _) => (st.docs.get? c!"u").map (·.rope)
      | .panic => none) = some c!"@x = 1\n" := by decide +kernel

end
end HyperIR
