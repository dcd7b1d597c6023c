import Verif.Spec.Builds
import Verif.Props.CrashSites

/-
C97: what a debug build answers, a release build answers as well.
-/

namespace HyperIR
open Spec

section
variable [Unicode] {env env' : Env} {st : ServerState} {m : Msg}

omit [Unicode] in
theorem i64Op_build {b : Build} (hb : b.overflowChecks = true) (b' : Build) (x : Int) : StopsOrSame (i64Op b x) (i64Op b' x) := by
  unfold i64Op
  by_cases h : i64InRange x = true
  · rw [if_pos h, if_pos h]
    exact .inr rfl
  · exact .inl (by rw [if_neg h, if_pos hb])

omit [Unicode] in
theorem u32Sub_build {b : Build} (hb : b.overflowChecks = true) (b' : Build) (x y : Nat) : StopsOrSame (u32Sub b x y) (u32Sub b' x y) := by
  unfold u32Sub
  by_cases h : y ≤ x
  · rw [if_pos h, if_pos h]
    exact .inr rfl
  · exact .inl (by rw [if_neg h, if_pos hb])

omit [Unicode] in
theorem collectO_stopsOrSame {α β : Type} {f g : α → Outcome (List β)} (h : ∀ x, StopsOrSame (f x) (g x)) : ∀ l, StopsOrSame (collectO f l) (collectO g l)
  | [] => .inr rfl
  | x :: l => by
    unfold collectO
    rcases h x with e | e
    · rw [e]; exact .inl rfl
    · rw [e]
      cases g x with
      | panic => exact .inl rfl
      | ok y =>
        simp only
        rcases collectO_stopsOrSame h l with e | e
        · rw [e]; exact .inl rfl
        · rw [e]; exact .inr rfl

omit [Unicode] in
theorem StopsOrSame.map {α β : Type} {x y : Outcome α} (h : StopsOrSame x y) (f : α → β) : StopsOrSame (x.map' f) (y.map' f) := by
  rcases h with rfl | rfl
  · exact .inl rfl
  · exact .inr rfl

theorem getShiftEdits_build (hb : env.build.overflowChecks = true) (ord : IterOrder) (b' : Build) (rope : Str) (ix : HIRIndex) (k : SymbolKind)
    (f : Option Nat) (n s : Int) : StopsOrSame (getShiftEdits ord env.build rope ix k f n s) (getShiftEdits ord b' rope ix k f n s) := by
  unfold getShiftEdits
  cases ix.funcBody f with
  | panic => exact .inl rfl
  | ok fb =>
    simp only
    cases ix.getBySymbolKind k fb with
    | panic => exact .inl rfl
    | ok m =>
      refine collectO_stopsOrSame (fun x => ?_) _
      unfold shiftEditsOf
      cases extractNumberFromIdentifier x.1 with
      | panic => exact .inl rfl
      | ok r =>
        cases r with
        | none => exact .inr rfl
        | some r =>
          simp only
          split
          · exact .inr rfl
          · rcases i64Op_build hb b' (r.2 + s) with e | e
            · rw [e]; exact .inl rfl
            · rw [e]; exact .inr rfl

theorem rename_build (hc : Checked env) (hs : SameButBuild env env') (u : Str) (p : Pos) (n : Str) :
    StopsOrSame (rename env st u p n) (rename env' st u p n) := by
  have rel : ∀ doc o (sign : Int), StopsOrSame (relativeRename env doc o n sign) (relativeRename env' doc o n sign) := by
    intro doc o sign
    unfold relativeRename
    cases parseI64 (n.drop 1) with
    | none => exact .inr rfl
    | some nr =>
      simp only
      rcases i64Op_build hc env'.build (sign * nr) with e | e
      · rw [e]; exact .inl rfl
      · rw [e]
        cases i64Op env'.build (sign * nr) with
        | panic => exact .inl rfl
        | ok shift =>
          simp only
          cases extractNumberFromIdentifier o.name with
          | panic => exact .inl rfl
          | ok r =>
            cases r with
            | none => exact .inr rfl
            | some r =>
              simp only
              rw [hs.1]
              rcases getShiftEdits_build hc env'.ord env'.build doc.rope doc.index o.symbolKind o.funcBodyId r.2 shift with e | e
              · rw [e]; exact .inl rfl
              · rw [e]; exact .inr rfl
  unfold rename
  cases st.docs.get? u with
  | none => exact .inr rfl
  | some doc =>
    simp only
    cases symbolAt doc p with
    | none => exact .inr rfl
    | some o =>
      simp only
      have : StopsOrSame (renameEdits env doc o n) (renameEdits env' doc o n) := by
        unfold renameEdits
        split
        · exact rel doc o 1
        · exact rel doc o (-1)
        · exact .inr rfl
      rcases this with e | e
      · rw [e]; exact .inl rfl
      · rw [e]; exact .inr rfl

theorem resolve_build (hc : Checked env) (hs : SameButBuild env env') (a : CodeAction) :
    StopsOrSame (codeActionResolve env st a) (codeActionResolve env' st a) := by
  unfold codeActionResolve
  cases a.data with
  | missing => exact .inr rfl
  | invalid => exact .inr rfl
  | shift d =>
    simp only
    cases st.docs.get? d.uri with
    | none => exact .inr rfl
    | some doc =>
      simp only
      rw [hs.1]
      rcases getShiftEdits_build hc env'.ord env'.build doc.rope doc.index d.symbolKind d.funcBodyId d.renamedNr 1 with e | e
      · rw [e]; exact .inl rfl
      · rw [e]; exact .inr rfl

theorem resolveAll_build (hc : Checked env) (hs : SameButBuild env env') : ∀ l, StopsOrSame (resolveAll env st l) (resolveAll env' st l)
  | [] => .inr rfl
  | a :: l => by
    unfold resolveAll
    rcases resolve_build (st := st) hc hs a with e | e
    · rw [e]; exact .inl rfl
    · rw [e]
      rcases codeActionResolve env' st a with (_ | a') | _
      · exact .inl rfl
      · simp only
        rcases resolveAll_build hc hs l with e | e
        · rw [e]; exact .inl rfl
        · rw [e]; exact .inr rfl
      · exact .inl rfl

theorem codeAction_build (hc : Checked env) (hs : SameButBuild env env') (u : Str) (r : Range) :
    StopsOrSame (codeAction env st u r) (codeAction env' st u r) := by
  unfold codeAction
  cases st.docs.get? u with
  | none => exact .inr rfl
  | some doc =>
    simp only
    split
    · exact .inr rfl
    · cases offeredActions u doc r.start with
      | panic => exact .inl rfl
      | ok l =>
        simp only
        split
        · exact .inr rfl
        · rcases resolveAll_build (st := st) hc hs l with e | e
          · rw [e]; exact .inl rfl
          · rw [e]; exact .inr rfl

omit [Unicode] in
theorem externalLocations_build (hc : Checked env) (hs : SameButBuild env env') (roots : List Url) : ∀ ds : List ExternalDef,
    StopsOrSame (externalLocations env roots ds) (externalLocations env' roots ds)
  | [] => .inr rfl
  | d :: ds => by
    have ih := externalLocations_build hc hs roots ds
    unfold externalLocations
    rw [hs.2.1]
    rcases resolveRelativePath env'.fs roots d.filepath with (_ | v) | _
    · exact ih
    · simp only
      rcases u32Sub_build hc env'.build d.line 1 with e | e
      · rw [e]; exact .inl rfl
      · rw [e]
        cases u32Sub env'.build d.line 1 with
        | panic => exact .inl rfl
        | ok l =>
          simp only
          rcases ih with e | e
          · rw [e]; exact .inl rfl
          · rw [e]; exact .inr rfl
    · exact .inl rfl

omit [Unicode] in
theorem getUseDefRanges_build (hc : Checked env) (hs : SameButBuild env env') (u : Str) (p : Pos) (ud : UseDefKind) :
    StopsOrSame (getUseDefRanges env st u p ud) (getUseDefRanges env' st u p ud) := by
  unfold getUseDefRanges
  cases st.docs.get? u with
  | none => exact .inr rfl
  | some doc =>
    simp only
    cases symbolAt doc p with
    | none => exact .inr rfl
    | some o =>
      simp only
      cases tableOf doc.index o.symbolKind o.funcBodyId with
      | panic => exact .inl rfl
      | ok table =>
        simp only
        cases table.get? o.name with
        | none => exact .inr rfl
        | some x =>
          simp only
          by_cases h : ud = .def_
          · simp only [if_pos h]
            rcases externalLocations_build hc hs st.roots x.externalDefs with e | e
            · rw [e]; exact .inl rfl
            · rw [e]; exact .inr rfl
          · simp only [if_neg h]
            exact .inr rfl

omit [Unicode] in
theorem semPos_build {b : Build} (hb : b.overflowChecks = true) (b' : Build) (rope : Str) (n : Nat) : StopsOrSame (semPos b rope n) (semPos b' rope n) := by
  unfold semPos
  cases byteToLine? n rope with
  | none => exact .inr rfl
  | some l =>
    simp only
    cases lineToChar? (asU32 l) rope with
    | none => exact .inr rfl
    | some f =>
      simp only
      cases byteToChar? n rope with
      | none => exact .inr rfl
      | some ch =>
        simp only
        rcases u32Sub_build hb b' (asU32 ch) (asU32 f) with e | e
        · rw [e]; exact .inl rfl
        · rw [e]; exact .inr rfl

omit [Unicode] in
theorem convert_build {b : Build} (hb : b.overflowChecks = true) (b' : Build) (rope : Str) : ∀ (ts : List HIRSemanticToken) (l s : Nat),
    StopsOrSame (convertToLspTokens b rope l s ts) (convertToLspTokens b' rope l s ts)
  | [], _, _ => .inr rfl
  | t :: ts, l, s => by
    unfold convertToLspTokens
    rcases semPos_build hb b' rope t.start with e | e
    · rw [e]; exact .inl rfl
    · rw [e]
      rcases semPos b' rope t.start with (_ | ⟨line, start⟩) | _
      · exact convert_build hb b' rope ts l s
      · simp only
        rcases u32Sub_build hb b' line l with e | e
        · rw [e]; exact .inl rfl
        · rw [e]
          cases u32Sub b' line l with
          | panic => exact .inl rfl
          | ok dl =>
            simp only
            have : StopsOrSame (if dl = 0 then u32Sub b start s else .ok start) (if dl = 0 then u32Sub b' start s else .ok start) := by
              split
              · exact u32Sub_build hb b' start s
              · exact .inr rfl
            rcases this with e | e
            · rw [e]; exact .inl rfl
            · rw [e]
              cases (if dl = 0 then u32Sub b' start s else Outcome.ok start) with
              | panic => exact .inl rfl
              | ok ds =>
                simp only
                rcases convert_build hb b' rope ts line start with e | e
                · rw [e]; exact .inl rfl
                · rw [e]; exact .inr rfl
      · exact .inl rfl

/-- C97: on every message, in every state, a build with overflow checks stops or does exactly what any other build does: same reply, same state. -/
theorem C97_step (hc : Checked env) (hs : SameButBuild env env') (st : ServerState) (m : Msg) : StopsOrSame (step env st m) (step env' st m) := by
  cases m with
  | «initialize» p => exact .inr rfl
  | didOpen u v t =>
    refine StopsOrSame.map ?_ _
    unfold didOpen onChange documentDiagnostics
    rw [hs.1]
    exact .inr rfl
  | didChange u v cs =>
    refine StopsOrSame.map ?_ _
    unfold didChange onChange documentDiagnostics
    rw [hs.1]
    exact .inr rfl
  | gotoDefinition u p =>
    refine StopsOrSame.map ?_ _
    unfold gotoDefinition
    rcases getUseDefRanges_build (st := st) hc hs u p .def_ with e | e
    · rw [e]; exact .inl rfl
    · rw [e]; exact .inr rfl
  | gotoDeclaration u p =>
    refine StopsOrSame.map ?_ _
    unfold gotoDeclaration
    rcases getUseDefRanges_build (st := st) hc hs u p .decl with e | e
    · rw [e]; exact .inl rfl
    · rw [e]; exact .inr rfl
  | references u p =>
    refine StopsOrSame.map ?_ _
    unfold references
    rcases getUseDefRanges_build (st := st) hc hs u p .use with e | e
    · rw [e]; exact .inl rfl
    · rw [e]; exact .inr rfl
  | semanticTokensFull u =>
    refine StopsOrSame.map ?_ _
    unfold semanticTokensFull
    cases st.docs.get? u with
    | none => exact .inr rfl
    | some doc =>
      simp only
      rcases convert_build hc env'.build doc.rope doc.semanticTokens 0 0 with e | e
      · rw [e]; exact .inl rfl
      · rw [e]; exact .inr rfl
  | documentSymbol u =>
    have : documentSymbol env st u = documentSymbol env' st u := by unfold documentSymbol; rw [hs.1]
    exact .inr (by simp only [step, this])
  | prepareRename u p => exact .inr rfl
  | rename u p n => exact StopsOrSame.map (rename_build hc hs u p n) _
  | codeAction u r => exact StopsOrSame.map (codeAction_build hc hs u r) _
  | codeActionResolve a => exact StopsOrSame.map (resolve_build hc hs a) _
  | foldingRange u => exact .inr rfl
  | inlayHint u =>
    have : inlayHint env st u = inlayHint env' st u := by
      have : ∀ doc, backtraceHint env st.roots doc = backtraceHint env' st.roots doc := by
        intro doc
        funext i
        unfold backtraceHint
        rw [hs.2.1, hs.2.2]
      unfold inlayHint backtraceHints
      simp only [this]
    exact .inr (by simp only [step, this])
  | codeLens u =>
    have : codeLens env st u = codeLens env' st u := by unfold codeLens; rw [hs.1]
    exact .inr (by simp only [step, this])
  | executeCommand c as => exact .inr rfl
  | shutdown => exact .inr rfl

/-- A build without overflow checks stops only where every build stops. -/
theorem C97_stops (hc : Checked env) (hs : SameButBuild env env') (h : step env' st m = .panic) : step env st m = .panic := by
  rcases C97_step hc hs st m with e | e
  · exact e
  · rw [e, h]

/-- C97 for whole sessions: the build with overflow checks stops at some message, or all replies and the final state are the same. -/
theorem C97_sessions : ∀ {ms ms' : List Step} (st : ServerState), CheckedAndOther ms ms' → StopsOrSame (run st ms) (run st ms')
  | [], [], _, _ => .inr rfl
  | [], _ :: _, _, h => h.elim
  | _ :: _, [], _, h => h.elim
  | (e, m) :: ms, (f, n) :: ms', st, h => by
    obtain ⟨h1, h2, rfl, h4⟩ := h
    unfold run
    rcases C97_step h1 h2 st m with e1 | e1
    · rw [e1]; exact .inl rfl
    · rw [e1]
      cases step f st m with
      | panic => exact .inl rfl
      | ok x =>
        simp only
        rcases C97_sessions x.1 h4 with e2 | e2
        · rw [e2]; exact .inl rfl
        · rw [e2]; exact .inr rfl

/-- Where the two builds differ: exactly on the messages for which a number leaves its range (and nothing else stops the server). -/
theorem C97_differ (hall : AllOpened st) (hreg : Regular env st) (hc : Checked env) (hn : ¬ Checked env') (hs : SameButBuild env env') (m : Msg) :
    step env st m ≠ step env' st m ↔ Overflows env st m ∧ ¬ Crashes env' st m := by
  have hreg' : Regular env' st := ⟨hreg.size, hreg.folders, hreg.locations, by rw [← hs.2.2]; exact hreg.links⟩
  have hcan : ∀ res k f start shift, CannotShift env res k f start shift ↔ CannotShift env' res k f start shift ∨ LeavesRange res k f start shift := by
    intro res k f start shift
    constructor
    · rintro ⟨o, h1, h2, h3, h4 | ⟨_, pre, nr, h4, h5, h6⟩⟩
      · exact .inl ⟨o, h1, h2, h3, .inl h4⟩
      · exact .inr ⟨o, pre, nr, h1, h2, h3, h4, h5, h6⟩
    · rintro (⟨o, h1, h2, h3, h4 | ⟨h4, _⟩⟩ | ⟨o, pre, nr, h1, h2, h3, h4, h5, h6⟩)
      · exact ⟨o, h1, h2, h3, .inl h4⟩
      · exact absurd h4 hn
      · exact ⟨o, h1, h2, h3, .inr ⟨hc, pre, nr, h4, h5, h6⟩⟩
  have key : Crashes env st m ↔ Crashes env' st m ∨ Overflows env st m := by
    cases m with
    | gotoDefinition u p =>
      simp only [Crashes, Overflows]
      rw [← hs.2.1]
      constructor
      · rintro ⟨text, res, o, d, h1, h2, h3, h4 | ⟨_, h4, h5⟩⟩
        · exact .inl ⟨text, res, o, d, h1, h2, h3, .inl h4⟩
        · exact .inr ⟨text, res, o, d, h1, h2, h3, h4, h5⟩
      · rintro (⟨text, res, o, d, h1, h2, h3, h4 | ⟨h4, _⟩⟩ | ⟨text, res, o, d, h1, h2, h3, h4, h5⟩)
        · exact ⟨text, res, o, d, h1, h2, h3, .inl h4⟩
        · exact absurd h4 hn
        · exact ⟨text, res, o, d, h1, h2, h3, .inr ⟨hc, h4, h5⟩⟩
    | rename u p req =>
      simp only [Crashes, Overflows]
      constructor
      · rintro ⟨text, res, o, h1, h2 | h2 | ⟨w, i, k, h2, h3, ⟨_, h4⟩ | h4 | ⟨pre, start, h4, h5⟩⟩⟩
        · exact .inl ⟨text, res, o, h1, .inl h2⟩
        · exact .inl ⟨text, res, o, h1, .inr (.inl h2)⟩
        · exact .inr ⟨text, res, o, w, i, k, h1, h2, h3, .inl h4⟩
        · exact .inl ⟨text, res, o, h1, .inr (.inr ⟨w, i, k, h2, h3, .inr (.inl h4)⟩)⟩
        · rcases (hcan ..).mp h5 with h5 | h5
          · exact .inl ⟨text, res, o, h1, .inr (.inr ⟨w, i, k, h2, h3, .inr (.inr ⟨pre, start, h4, h5⟩)⟩)⟩
          · exact .inr ⟨text, res, o, w, i, k, h1, h2, h3, .inr ⟨pre, start, h4, h5⟩⟩
      · rintro (⟨text, res, o, h1, h2 | h2 | ⟨w, i, k, h2, h3, ⟨h4, _⟩ | h4 | ⟨pre, start, h4, h5⟩⟩⟩ | ⟨text, res, o, w, i, k, h1, h2, h3, h4 | ⟨pre, start, h4, h5⟩⟩)
        · exact ⟨text, res, o, h1, .inl h2⟩
        · exact ⟨text, res, o, h1, .inr (.inl h2)⟩
        · exact absurd h4 hn
        · exact ⟨text, res, o, h1, .inr (.inr ⟨w, i, k, h2, h3, .inr (.inl h4)⟩)⟩
        · exact ⟨text, res, o, h1, .inr (.inr ⟨w, i, k, h2, h3, .inr (.inr ⟨pre, start, h4, (hcan ..).mpr (.inl h5)⟩)⟩)⟩
        · exact ⟨text, res, o, h1, .inr (.inr ⟨w, i, k, h2, h3, .inl ⟨hc, h4⟩⟩)⟩
        · exact ⟨text, res, o, h1, .inr (.inr ⟨w, i, k, h2, h3, .inr (.inr ⟨pre, start, h4, (hcan ..).mpr (.inr h5)⟩)⟩)⟩
    | codeAction u r =>
      simp only [Crashes, Overflows]
      constructor
      · rintro ⟨h0, text, res, o, h1, h2 | ⟨h2, pre, start, h3, h4⟩⟩
        · exact .inl ⟨h0, text, res, o, h1, .inl h2⟩
        · rcases (hcan ..).mp h4 with h4 | h4
          · exact .inl ⟨h0, text, res, o, h1, .inr ⟨h2, pre, start, h3, h4⟩⟩
          · exact .inr ⟨h0, h2, text, res, o, pre, start, h1, h3, h4⟩
      · rintro (⟨h0, text, res, o, h1, h2 | ⟨h2, pre, start, h3, h4⟩⟩ | ⟨h0, h2, text, res, o, pre, start, h1, h3, h4⟩)
        · exact ⟨h0, text, res, o, h1, .inl h2⟩
        · exact ⟨h0, text, res, o, h1, .inr ⟨h2, pre, start, h3, (hcan ..).mpr (.inl h4)⟩⟩
        · exact ⟨h0, text, res, o, h1, .inr ⟨h2, pre, start, h3, (hcan ..).mpr (.inr h4)⟩⟩
    | codeActionResolve a =>
      simp only [Crashes, Overflows]
      constructor
      · rintro ⟨d, text, res, h1, h2, h3 | h3 | h3⟩
        · exact .inl ⟨d, text, res, h1, h2, .inl h3⟩
        · exact .inl ⟨d, text, res, h1, h2, .inr (.inl h3)⟩
        · rcases (hcan ..).mp h3 with h3 | h3
          · exact .inl ⟨d, text, res, h1, h2, .inr (.inr h3)⟩
          · exact .inr ⟨d, text, res, h1, h2, h3⟩
      · rintro (⟨d, text, res, h1, h2, h3 | h3 | h3⟩ | ⟨d, text, res, h1, h2, h3⟩)
        · exact ⟨d, text, res, h1, h2, .inl h3⟩
        · exact ⟨d, text, res, h1, h2, .inr (.inl h3)⟩
        · exact ⟨d, text, res, h1, h2, .inr (.inr ((hcan ..).mpr (.inl h3)))⟩
        · exact ⟨d, text, res, h1, h2, .inr (.inr ((hcan ..).mpr (.inr h3)))⟩
    | inlayHint u =>
      simp only [Crashes, Overflows, or_false]
      unfold HintFails
      rw [hs.2.1, hs.2.2]
    | _ => simp [Crashes, Overflows]
  rw [← C93_exact hall hreg', ]
  have e := (C93_exact hall hreg m).trans key
  rw [← C93_exact hall hreg'] at e
  rcases C97_step hc hs st m with h | h
  · rw [h]
    constructor
    · intro hne
      refine ⟨?_, fun h' => hne h'.symm⟩
      rcases e.mp h with h' | h'
      · exact absurd h'.symm hne
      · exact h'
    · rintro ⟨_, h2⟩ h3
      exact h2 h3.symm
  · constructor
    · intro hne
      exact absurd h hne
    · rintro ⟨h1, h2⟩ _
      exact h2 (h ▸ e.mpr (.inr h1))

/-- So on all other messages debug and release builds agree. -/
theorem C97_agree (hall : AllOpened st) (hreg : Regular env st) (hc : Checked env) (hs : SameButBuild env env') {m : Msg} (hm : ¬ Overflows env st m) :
    step env st m = step env' st m := by
  by_cases hn : Checked env'
  · rcases C97_step hc hs st m with h | h
    · rcases C97_step (env := env') (env' := env) hn ⟨hs.1.symm, hs.2.1.symm, hs.2.2.symm⟩ st m with h' | h'
      · rw [h, h']
      · exact h'.symm
    · exact h
  · exact Classical.byContradiction fun h => hm ((C97_differ hall hreg hc hn hs m).mp h).1

end

section Examples
attribute [local instance] asciiUnicode

example : Checked debugEnv ∧ ¬ Checked releaseEnv ∧ SameButBuild debugEnv releaseEnv := ⟨rfl, nofun, rfl, rfl, rfl⟩

/-- A function with an annotated location in line 0, which both builds find. -/
def zeroText : Str := c!"declare void @f1() !d\n!d = \"a:0\"\n"

/-- A server with this document meets the hypotheses. -/
example : AllOpened (serverWith [workspace] c!"u" zeroText) ∧ Regular debugEnv (serverWith [workspace] c!"u" zeroText) :=
  regular_of_calm (env := debugEnv) (by decide +kernel) (by decide +kernel)
    (by intro r hr; rw [List.mem_singleton.mp hr]; exact .inr ⟨rfl, by decide⟩) (by intro v j entries e l file n h; cases h)

/-- Both builds answer a shift, and they answer the same. -/
example : isPanic (step debugEnv (serverWith [workspace] c!"u" zeroText) (.rename c!"u" ⟨0, 13⟩ c!"+4")) = false := by decide +kernel

/-- They differ for the location in line 0, and for a shift of the name to a number beyond 64 bits. -/
example : isPanic (step debugEnv (serverWith [workspace] c!"u" zeroText) (.gotoDefinition c!"u" ⟨0, 13⟩)) = true ∧
    isPanic (step releaseEnv (serverWith [workspace] c!"u" zeroText) (.gotoDefinition c!"u" ⟨0, 13⟩)) = false ∧
    isPanic (step debugEnv (serverWith [workspace] c!"u" zeroText) (.rename c!"u" ⟨0, 13⟩ c!"+9223372036854775807")) = true ∧
    isPanic (step releaseEnv (serverWith [workspace] c!"u" zeroText) (.rename c!"u" ⟨0, 13⟩ c!"+9223372036854775807")) = false := by
  decide +kernel

/-- So, by the theorem, a number overflows. -/
example : Overflows debugEnv (serverWith [workspace] c!"u" zeroText) (.gotoDefinition c!"u" ⟨0, 13⟩) := by
  obtain ⟨h1, h2⟩ : AllOpened (serverWith [workspace] c!"u" zeroText) ∧ Regular debugEnv (serverWith [workspace] c!"u" zeroText) :=
    regular_of_calm (env := debugEnv) (by decide +kernel) (by decide +kernel)
      (by intro r hr; rw [List.mem_singleton.mp hr]; exact .inr ⟨rfl, by decide⟩) (by intro v j entries e l file n h; cases h)
  refine ((C97_differ h1 h2 (env' := releaseEnv) rfl nofun ⟨rfl, rfl, rfl⟩ _).mp fun h => ?_).1
  have := congrArg isPanic h
  revert this
  decide +kernel

/-- A session of both builds. -/
example : CheckedAndOther [(debugEnv, .didOpen c!"u" 1 zeroText), (debugEnv, .references c!"u" ⟨0, 13⟩)]
    [(releaseEnv, .didOpen c!"u" 1 zeroText), (releaseEnv, .references c!"u" ⟨0, 13⟩)] :=
  ⟨rfl, ⟨rfl, rfl, rfl⟩, rfl, rfl, ⟨rfl, rfl, rfl⟩, rfl, trivial⟩

end Examples
end HyperIR
