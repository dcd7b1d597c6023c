import Verif.Proofs.Annotations
import Verif.Props.Backtrace
import Verif.Props.Rename
import Verif.Props.Flow

/- C58, C59: preparing a rename; the hints for backtraces. -/

namespace HyperIR
open Spec

section
variable [Unicode] {env : Env} {st : ServerState} {uri text : Str} {res : ParserResult}

/-! ### C58 -/

/-- C58: on a symbol, the range offered for renaming is the editor range of that occurrence; everywhere else nothing is offered and
a rename is refused. -/
theorem C58_prepare_rename (hopen : Opened st uri text) (h : parseFromStr text = .ok res) (hsize : text.length < 2 ^ 32)
    {p : Pos} {off : Nat} (hpos : LspOffset text p off) (hp : PlainTo text off) :
    (∀ o, Occurs res.tokens res.stmts o → Covers o.span off → ∃ r, prepareRename st uri p = some r ∧
      (PlainTo text o.span.stop → EditorRange text o.span r) ∧
      ∀ env req, rename env st uri p req ≠ .ok (.error (.invalidParams c!"No symbol at the given position"))) ∧
    ((∀ o, Occurs res.tokens res.stmts o → ¬ Covers o.span off) → prepareRename st uri p = none ∧
      ∀ env req, rename env st uri p req = .ok (.error (.invalidParams c!"No symbol at the given position"))) := by
  obtain ⟨doc, errs, ha, hst⟩ := hopen
  obtain ⟨res', h1, h2, _, _, _, h6⟩ := analyze_inv ha
  rw [h] at h1
  cases h1
  have hsym := symbolAt_occurs ha h hsize hpos hp
  constructor
  · intro o ho hc
    obtain ⟨o', hs, hspan, _, _⟩ := hsym.2 o ho hc
    obtain ⟨r, hr1⟩ := occurs_rangeToLsp h hsize (hsym.1 o' hs).1
    refine ⟨r, ?_, ?_, ?_⟩
    · unfold prepareRename
      simp only [hst, hs, h2, hr1]
    · rw [← hspan]; exact occurs_range_editor h hsize (hsym.1 o' hs).1 hr1
    · intro env req
      unfold rename
      simp only [hst, hs]
      cases he : renameEdits env doc o' req with
      | panic => simp
      | ok x =>
        cases x with
        | ok edits => simp
        | error e =>
          simp only [ne_eq, Outcome.ok.injEq, Except.error.injEq]
          rintro rfl
          unfold renameEdits at he
          have hrel : ∀ sign, relativeRename env doc o' req sign ≠ .ok (.error (.invalidParams c!"No symbol at the given position")) := by
            intro sign
            unfold relativeRename
            split
            · simp
            · split
              · simp
              · split
                · simp
                · simp
                · split <;> simp
          split at he
          · exact hrel _ he
          · exact hrel _ he
          · unfold absoluteRename at he
            split at he
            · cases he
            · rename_i e' hchk
              cases he
              unfold checkNewName at hchk
              simp only at hchk
              split at hchk
              · simp at hchk
              · split at hchk
                · cases hchk
                · split at hchk <;> simp at hchk
            · split at he
              · cases he
              · split at he <;> cases he
  · intro hno
    have hs : symbolAt doc p = none := by
      cases hs : symbolAt doc p with
      | none => rfl
      | some o =>
        obtain ⟨h1, h2⟩ := hsym.1 o hs
        exact absurd h2 (hno o h1)
    refine ⟨?_, ?_⟩
    · unfold prepareRename
      simp only [hst, hs]
    · intro env req
      unfold rename
      simp only [hst, hs]

/-! ### C59 -/

theorem shownAs (s : Str) : ShownAs s (sanitizeMarkdownCode s) := by
  refine ⟨by simp [sanitizeMarkdownCode], ?_⟩
  intro i c c' h1 h2
  simp only [sanitizeMarkdownCode, List.getElem?_map, h1, Option.map_some, Option.some.injEq] at h2
  subst h2
  unfold sanitizeChar Shown
  constructor
  · intro hs
    split
    · rfl
    · rename_i hn
      split
      · rfl
      · rename_i hn'
        rcases hs with hs | hs | hs
        · simp [hs] at hn
        · simp [hs] at hn
        · exact absurd hs hn'
  · intro hs
    rw [if_neg, if_neg fun h => hs (.inr (.inr h))]
    intro h
    rw [Bool.or_eq_true] at h
    exact hs (h.elim .inl fun h => .inr (.inl h))

theorem frameText (f : Frame) : FrameText f (formatFrameAsMd f) := by
  refine ⟨_, shownAs f.symbol, ?_⟩
  unfold formatFrameAsMd
  cases hf : f.filepath with
  | none => exact .inl ⟨rfl, rfl⟩
  | some fp =>
    refine .inr ⟨fp, shortenFilepath fp, showNat f.line, rfl, shortenFilepath_spec fp, showNat_canonical _, ?_⟩
    cases hu : f.resolvedFilepath with
    | none => exact .inl ⟨rfl, by simp⟩
    | some u => exact .inr ⟨u, rfl, by simp⟩

theorem backtraceText (frames : List Frame) : BacktraceText frames (backtraceToMd frames) := by
  refine ⟨frames.map formatFrameAsMd, ?_, ?_⟩
  · induction frames with
    | nil => exact .nil
    | cons f fs ih => exact .cons (frameText f) ih
  · induction frames with
    | nil => rfl
    | cons f fs ih =>
      cases fs with
      | nil => simp [backtraceToMd, joinLines]
      | cons g fs =>
        rw [backtraceToMd, ih]
        simp [joinLines]

omit [Unicode] in
theorem shortenName_ok {s r : Str} (h : shortenName s 50 = .ok r) : ShortSymbol s r := by
  unfold shortenName at h
  split at h
  · cases h; exact .inl ⟨by omega, rfl⟩
  · split at h
    · rename_i p hp
      cases h
      obtain ⟨rest, h1, h2⟩ := takeBytes_iff.mp hp
      exact .inr ⟨by omega, p, rest, h1, h2, rfl⟩
    · cases h

omit [Unicode] in
theorem shortenName_panic {s : Str} (h : shortenName s 50 = .panic) : ∀ short, ¬ ShortSymbol s short := by
  intro short hs
  unfold shortenName at h
  split at h
  · cases h
  · rename_i hn
    rcases hs with ⟨h1, _⟩ | ⟨_, p, rest, h1, h2, _⟩
    · omega
    · rw [takeBytes_iff.mpr ⟨rest, h1, h2⟩] at h
      cases h

omit [Unicode] in
/-- The frames of an entry list: total, and as specified. -/
theorem parseBacktrace_frames {roots : List Url} (hr : ∀ r ∈ roots, Folder r) {j : Json} {l : List Json} (hj : HasBacktrace j l) {fs : FileSystem} :
    ∃ frames, parseBacktraceFromJson fs roots j = .ok (some frames) ∧ FramesOf fs roots l frames := by
  obtain ⟨frames, h1, h2, h3⟩ := (C45_backtrace_total fs hr j).1 l hj
  refine ⟨frames, h1, ?_⟩
  clear h1 hj
  induction l generalizing frames with
  | nil =>
    cases frames with
    | nil => exact .nil
    | cons f fs => simp at h2
  | cons e l ih =>
    cases frames with
    | nil => simp at h2
    | cons f frames =>
      obtain ⟨f', e1, e2⟩ := h3 0 e rfl
      simp only [List.getElem?_cons_zero, Option.some.injEq] at e1
      subst e1
      exact .cons e2 (ih frames (by simpa using h2) fun i entry hi => by simpa using h3 (i + 1) entry (by simpa using hi))

/-- The hint of the instruction cannot be computed: the most relevant symbol cannot be cut after 48 bytes. -/
def Uncuttable (env : Env) (roots : List Url) (text : Str) (stmts : List Statement) (i : Instruction) : Prop :=
  ∃ ref v j entries frames k f, i.dbgRef = some ref ∧ AnnotationText text stmts ref.1 v ∧ env.json v = some j ∧ HasBacktrace j entries ∧
    FramesOf env.fs roots entries frames ∧ Relevant frames k ∧ frames[k]? = some f ∧ ∀ short, ¬ ShortSymbol f.symbol short

theorem inlayHintForBacktrace_spec (pos : Pos) (frames : List Frame) :
    (∃ hint, inlayHintForBacktrace pos frames = .ok hint ∧ hint.position = pos ∧ BacktraceLabel frames hint.label) ∨
    (inlayHintForBacktrace pos frames = .panic ∧ ∃ k f, Relevant frames k ∧ frames[k]? = some f ∧ ∀ short, ¬ ShortSymbol f.symbol short) := by
  obtain ⟨hk1, hk2, hk3⟩ := C46_relevant_frame frames
  unfold inlayHintForBacktrace
  simp only
  cases hi : identifyRelevantFrames frames with
  | none => exact .inl ⟨_, rfl, rfl, _, backtraceText frames, .inl ⟨hk3.mp hi, rfl⟩⟩
  | some k =>
    have hlt := hk2 k hi
    have hget := List.getElem?_eq_getElem hlt
    simp only [hget]
    cases hs : shortenName frames[k].symbol 50 with
    | panic => exact .inr ⟨rfl, k, _, (hk1 k).mp hi, hget, shortenName_panic hs⟩
    | ok short =>
      exact .inl ⟨_, rfl, rfl, _, backtraceText frames, .inr ⟨k, _, short, _, (hk1 k).mp hi, hget, shortenName_ok hs, frameText _, rfl⟩⟩

theorem instr_dbgRef (h : parseFromStr text = .ok res) : ∀ i ∈ instructions res.stmts, ∀ d, i.dbgRef = some d → (Token.debugRef d.1, d.2) ∈ res.tokens := by
  intro i hi d hd
  unfold instructions at hi
  obtain ⟨f, hf, hi⟩ := List.mem_flatMap.mp hi
  obtain ⟨blk, hb, hi'⟩ := List.mem_flatMap.mp hi
  obtain ⟨k, sig, body, hm, rfl⟩ := docFuncs_mem hf
  refine (C07_tree_mentions_tokens h _ hm _ ?_).1
  refine List.mem_append_right _ (List.mem_cons_of_mem _ (List.mem_append_left _ (List.mem_flatMap.mpr ⟨blk, hb, ?_⟩)))
  simp only [blockMentions, List.mem_append, List.mem_flatMap]
  refine .inr ⟨i, hi', ?_⟩
  simp [instrMentions, hd, dbgToks, dbgTok]

omit [Unicode] in
theorem hasBacktrace_unique {j : Json} {l l' : List Json} (h : HasBacktrace j l) (h' : HasBacktrace j l') : l = l' := by
  have e1 := hasBacktrace_iff.mpr h
  rw [hasBacktrace_iff.mpr h'] at e1
  cases e1
  rfl

/-- The hint of one instruction. -/
theorem backtraceHint_spec (h : parseFromStr text = .ok res) (hp : Plain text) (hsize : text.length < 2 ^ 32) {doc : AnalyzedDocument}
    (hr : doc.rope = text) (hix : createIndex text res.tokens res.stmts = .ok doc.index) {roots : List Url} (hroots : ∀ r ∈ roots, Folder r)
    {i : Instruction} (hi : i ∈ instructions res.stmts) :
    (∃ hint, backtraceHint env roots doc i = .ok [hint] ∧ BacktraceHint env roots text res.stmts i hint) ∨
    (backtraceHint env roots doc i = .ok [] ∧ ∀ hint, ¬ BacktraceHint env roots text res.stmts i hint) ∨
    (backtraceHint env roots doc i = .panic ∧ Uncuttable env roots text res.stmts i) := by
  have ha : Ascii text := fun c hc => (hp c hc).1
  unfold backtraceHint
  cases hd : i.dbgRef with
  | none =>
    refine .inr (.inl ⟨rfl, ?_⟩)
    rintro hint ⟨_, _, _, _, _, e, _⟩
    rw [hd] at e
    cases e
  | some d =>
    simp only
    cases hv : doc.index.dbgAnnotationValues.get? d.1 with
    | none =>
      refine .inr (.inl ⟨rfl, ?_⟩)
      rintro hint ⟨_, v, _, _, _, e, e2, _⟩
      rw [hd] at e
      cases e
      rw [(annotation_iff h ha hix).mpr e2] at hv
      cases hv
    | some v =>
      simp only
      cases hj : env.json v with
      | none =>
        refine .inr (.inl ⟨rfl, ?_⟩)
        rintro hint ⟨_, v', _, _, _, e, e2, e3, _⟩
        rw [hd] at e
        cases e
        rw [(annotation_iff h ha hix).mpr e2] at hv
        cases hv
        rw [hj] at e3
        cases e3
      | some j =>
        simp only
        by_cases hb : ∃ l, HasBacktrace j l
        · obtain ⟨l, hl⟩ := hb
          obtain ⟨frames, hf1, hf2⟩ := parseBacktrace_frames (fs := env.fs) hroots hl
          simp only [hf1]
          obtain ⟨pos, hpos1, hpos2⟩ := tokenEnd_pos h hsize (instr_dbgRef h i hi d hd) (by simp)
          simp only at hpos1 hpos2
          simp only [hr, hpos1]
          have hann := (annotation_iff h ha hix).mp hv
          rcases inlayHintForBacktrace_spec pos frames with ⟨hint, e1, e2, e3⟩ | ⟨e1, k, f, e2, e3, e4⟩
          · rw [e1]
            exact .inl ⟨hint, rfl, d, v, j, l, frames, hd, hann, hj, hl, hf2, by rw [e2]; exact hpos2 (hp.to _), e3⟩
          · rw [e1]
            exact .inr (.inr ⟨rfl, d, v, j, l, frames, k, f, hd, hann, hj, hl, hf2, e2, e3, e4⟩)
        · have := (C45_backtrace_total env.fs hroots j).2 fun l hl => hb ⟨l, hl⟩
          rw [this]
          refine .inr (.inl ⟨rfl, ?_⟩)
          rintro hint ⟨_, v', j', l, _, e, e2, e3, e4, _⟩
          rw [hd] at e
          cases e
          rw [(annotation_iff h ha hix).mpr e2] at hv
          cases hv
          rw [hj] at e3
          cases e3
          exact hb ⟨l, e4⟩

theorem backtraceHints_picks (h : parseFromStr text = .ok res) (hp : Plain text) (hsize : text.length < 2 ^ 32) {doc : AnalyzedDocument}
    (hr : doc.rope = text) (hs : doc.stmts = res.stmts) (hix : createIndex text res.tokens res.stmts = .ok doc.index) {roots : List Url}
    (hroots : ∀ r ∈ roots, Folder r) :
    (∃ bt, backtraceHints env roots doc = .ok bt ∧ Picks (BacktraceHint env roots text res.stmts) (instructions res.stmts) bt) ∨
    (backtraceHints env roots doc = .panic ∧ ∃ i ∈ instructions res.stmts, Uncuttable env roots text res.stmts i) := by
  unfold backtraceHints
  rw [hs, allInstructions_eq]
  have key : ∀ is : List Instruction, (∀ i ∈ is, i ∈ instructions res.stmts) →
      (∃ bt, collectO (backtraceHint env roots doc) is = .ok bt ∧ Picks (BacktraceHint env roots text res.stmts) is bt) ∨
      (collectO (backtraceHint env roots doc) is = .panic ∧ ∃ i ∈ is, Uncuttable env roots text res.stmts i) := by
    intro is
    induction is with
    | nil => intro _; exact .inl ⟨[], rfl, .nil⟩
    | cons i is ih =>
      intro hsub
      have ih := ih fun j hj => hsub j (by simp [hj])
      rw [collectO]
      rcases backtraceHint_spec (env := env) h hp hsize hr hix hroots (hsub i (by simp)) with ⟨hint, e1, e2⟩ | ⟨e1, e2⟩ | ⟨e1, e2⟩
      · rw [e1]
        rcases ih with ⟨bt, e3, e4⟩ | ⟨e3, j, e4, e5⟩
        · rw [e3]; exact .inl ⟨hint :: bt, rfl, .take e2 e4⟩
        · rw [e3]; exact .inr ⟨rfl, j, by simp [e4], e5⟩
      · rw [e1]
        rcases ih with ⟨bt, e3, e4⟩ | ⟨e3, j, e4, e5⟩
        · rw [e3]; exact .inl ⟨bt, rfl, .skip e2 e4⟩
        · rw [e3]; exact .inr ⟨rfl, j, by simp [e4], e5⟩
      · rw [e1]
        exact .inr ⟨rfl, i, by simp, e2⟩
  exact key _ fun _ h => h

/-- C59: between the hints at labels and those at the ends of functions stand exactly the hints for backtraces: one for every
instruction with a debug reference to an annotation whose text is JSON with a backtrace, in source order, right behind the reference;
it shows the most relevant frame and all frames in order. -/
theorem C59_backtrace_hints (hopen : Opened st uri text) (h : parseFromStr text = .ok res) (hp : Plain text) (hsize : text.length < 2 ^ 32)
    (hroots : ∀ r ∈ st.roots, Folder r) {hints : List InlayHint} (hh : inlayHint env st uri = .ok (some hints)) :
    ∃ inc bt ends, hints = inc ++ bt ++ ends ∧ Picks (BacktraceHint env st.roots text res.stmts) (instructions res.stmts) bt ∧
      (∀ hint ∈ inc, Behind text res.tokens (fun t => t = .punct ':') hint) ∧
      (∀ hint ∈ ends, Behind text res.tokens (fun t => t = .punct '}') hint) := by
  obtain ⟨doc, bt, h1, h2, h3, h4, rfl⟩ := inlayHint_inv hopen h hh
  refine ⟨incomingHints uri doc, bt, endHints uri doc, rfl, ?_, ?_, ?_⟩
  · rcases backtraceHints_picks (env := env) h hp hsize h1 h2 h3 hroots with ⟨bt', e1, e2⟩ | ⟨e1, _⟩
    · rw [h4] at e1; cases e1; exact e2
    · rw [h4] at e1; cases e1
  · exact incomingHints_behind h hsize h1 h3
  · exact endHints_behind h hsize h1 h3

/-- C59: a request for hints crashes only if the most relevant symbol of some backtrace cannot be cut after 48 bytes. -/
theorem C59_crash (hopen : Opened st uri text) (h : parseFromStr text = .ok res) (hp : Plain text) (hsize : text.length < 2 ^ 32)
    (hroots : ∀ r ∈ st.roots, Folder r) (hno : ∀ i ∈ instructions res.stmts, ¬ Uncuttable env st.roots text res.stmts i) :
    ∃ hints, inlayHint env st uri = .ok (some hints) := by
  obtain ⟨doc, hst, h1, h2, h3⟩ := opened_inv hopen h
  unfold inlayHint
  rw [hst]
  simp only
  rcases backtraceHints_picks (env := env) h hp hsize h1 h2 h3 hroots with ⟨bt, e1, _⟩ | ⟨_, i, hi, hu⟩
  · rw [e1]; exact ⟨_, rfl⟩
  · exact absurd hu (hno i hi)

end

/-! ### Examples -/

section
attribute [local instance] asciiUnicode

/-- A document with a backtrace behind one of two instructions with debug references. -/
def hintText1 : Str :=
  c!"define void @f() {\n ret !2\n ret !1\n}\n!1 = 7\n!1 = {\"backtrace\": 0}\n!2 = \"a.cpp:1\"\n"

/-- `serde_json` on the texts of the annotations (the backtrace is shortened in the text). -/
def hintEnv : Env := { debugEnv with json := fun s =>
  if s = c!"{\"backtrace\": 0}" then some (.obj [(c!"backtrace", .arr
    [.arr [.str c!"main", .str c!"m.cpp:1"], .arr [.str c!"X::Translator::consume[abi]", .str c!"src/x.cpp:12"], .null])])
  else none }

example : Opened (serverWith [workspace] c!"u" hintText1) c!"u" hintText1 := serverWith_opened (by decide +kernel)

example : ∀ r ∈ (serverWith [workspace] c!"u" hintText1).roots, Folder r := by decide +kernel

example : (match inlayHint hintEnv (serverWith [workspace] c!"u" hintText1) c!"u" with
    | .ok (some l) => l
    | _ => []) =
    [{ position := ⟨2, 7⟩,
       label := [{ value := c!"X::Translator::consume[abi]",
                   tooltip := some c!"`X::Translator::consume�abi�` @ [x.cpp:12](file:///home/ws/src/x.cpp#12)" },
                 { value := c!", " },
                 { value := c!"Full backtrace",
                   tooltip := some c!"* `main` @ [m.cpp:1](file:///home/ws/m.cpp#1)\n* `X::Translator::consume�abi�` @ [x.cpp:12](file:///home/ws/src/x.cpp#12)\n* `<invalid>`" }] },
     { position := ⟨3, 1⟩, label := [{ value := c!"@f", location := some ⟨c!"u", ⟨⟨0, 12⟩, ⟨0, 14⟩⟩⟩ }] }] := by
  decide +kernel

/-- The crash of `C59_crash` happens: a long symbol with a wide character at the cut. -/
theorem C59_refuted_crash : (match inlayHint { debugEnv with json := fun _ => some (.obj [(c!"backtrace", .arr
      [.arr [.str (c!"Translator::" ++ List.replicate 35 'a' ++ c!"éx"), .null]])]) } (serverWith [workspace] c!"u" hintText1) c!"u" with
    | .panic => true
    | _ => false) = true := by
  decide +kernel

example : prepareRename (serverWith [] c!"u" hintText1) c!"u" ⟨1, 6⟩ = some ⟨⟨1, 5⟩, ⟨1, 7⟩⟩ ∧
    prepareRename (serverWith [] c!"u" hintText1) c!"u" ⟨1, 1⟩ = none := by
  decide +kernel

end

end HyperIR
