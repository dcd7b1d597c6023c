import Verif.Proofs.Diagnostics
import Verif.Props.Navigation

/-! C38–C41: published diagnostics. -/

namespace HyperIR
open Spec

section
variable [Unicode] {env : Env} {st st' : ServerState} {uri text : Str} {v : Int} {pub : Publish} {res : ParserResult}

theorem publish_inv (h : parseFromStr text = .ok res) (hc : onChange env st uri v text = .ok (st', pub)) :
    ∃ ix, createIndex text res.tokens res.stmts = .ok ix ∧
      pub.diagnostics = diagnosticsFromParser text res.errors ++ diagnosticsFromStatements text res.stmts
        ++ diagnosticsFromIndex env.ord text uri ix := by
  unfold onChange at hc
  cases ha : analyze text with
  | panic => rw [ha] at hc; cases hc
  | ok r =>
    obtain ⟨doc, errs⟩ := r
    rw [ha] at hc
    simp only [Outcome.ok.injEq, Prod.mk.injEq] at hc
    obtain ⟨_, rfl⟩ := hc
    obtain ⟨res', h1, h2, h3, h4, _, h6⟩ := analyze_inv ha
    rw [h] at h1
    cases h1
    refine ⟨doc.index, h6, ?_⟩
    simp only [documentDiagnostics, h2, h3, h4]

omit [Unicode] in
theorem take_of_prefix {p m : Str} (h : p <+: m) {k : Nat} (hk : k ≤ p.length) : m.take k = p.take k := by
  obtain ⟨t, rfl⟩ := h
  rw [List.take_append_of_le_length hk]

/-- How messages of syntax errors start. -/
theorem parser_take (h : parseFromStr text = .ok res) : ∀ d ∈ diagnosticsFromParser text res.errors,
    d.message.take 2 = c!"ex" ∨ d.message.take 2 = c!"In" ∨ d.message.take 2 = c!"Un" := by
  intro d hd
  obtain ⟨e, he, h1⟩ := List.mem_filterMap.mp hd
  rw [Option.map_eq_some_iff] at h1
  obtain ⟨r, _, rfl⟩ := h1
  have hm := (errors_ok h e he).2
  simp only [errorMessage]
  cases hr : e.reason with
  | custom m =>
    have : ∀ m ∈ parserMessages, m.take 2 = c!"ex" ∨ m.take 2 = c!"In" ∨ m.take 2 = c!"Un" := by decide
    exact this m (hm m hr)
  | unexpected =>
    right; right
    simp only
    split <;> rfl

omit [Unicode] in
theorem stmts_take {ss : List Statement} : ∀ d ∈ diagnosticsFromStatements text ss, d.message.take 2 = c!"Fa" := by
  intro d hd
  obtain ⟨i, _, h1⟩ := List.mem_filterMap.mp hd
  unfold diagnoseInstruction at h1
  split at h1
  · rw [Option.map_eq_some_iff] at h1
    obtain ⟨r, _, rfl⟩ := h1
    rfl
  · cases h1

omit [Unicode] in
theorem undef_take {es : List Entry} : ∀ d ∈ (es.flatMap (undefOf text)).map Prod.snd, d.message.take 2 = c!"Us" := by
  intro d hd
  obtain ⟨r, h1, rfl⟩ := List.mem_map.mp hd
  obtain ⟨e, _, h2⟩ := List.mem_flatMap.mp h1
  unfold undefOf at h2
  split at h2
  · obtain ⟨sp, _, h3⟩ := List.mem_filterMap.mp h2
    rw [Option.map_eq_some_iff] at h3
    obtain ⟨r, _, rfl⟩ := h3
    rfl
  · cases h2

omit [Unicode] in
theorem dup_take {es : List Entry} : ∀ d ∈ (es.flatMap (dupOf text uri)).map Prod.snd, d.message.take 2 = c!"Sy" := by
  intro d hd
  obtain ⟨r, h1, rfl⟩ := List.mem_map.mp hd
  obtain ⟨e, _, h2⟩ := List.mem_flatMap.mp h1
  unfold dupOf at h2
  split at h2
  · cases h2
  · obtain ⟨sp, _, h3⟩ := List.mem_filterMap.mp h2
    rw [Option.map_eq_some_iff] at h3
    obtain ⟨d, h4, rfl⟩ := h3
    unfold dupDiag at h4
    split at h4
    · cases h4
    · split at h4
      · cases h4
      · cases h4; rfl

/-- C38: exactly the uses of symbols without declaration and definition are reported as undefined, each by exactly one
diagnostic, at the editor range of the use. -/
theorem C38_undefined (hsize : text.length < 2 ^ 32) (h : parseFromStr text = .ok res)
    (hc : onChange env st uri v text = .ok (st', pub)) :
    ReportsExactly pub.diagnostics (UndefinedUse res.tokens res.stmts)
      (fun o d => d.message = c!"Use of undefined symbol `" ++ o.name ++ c!"`" ∧ (PlainTo text o.span.stop → EditorRange text o.span d.range))
      (fun d => c!"Use of undefined symbol `" <+: d.message) := by
  obtain ⟨ix, hix, hd⟩ := publish_inv h hc
  refine ⟨(entries env.ord ix).flatMap (undefOf text), diagnosticsFromParser text res.errors
    ++ diagnosticsFromStatements text res.stmts ++ ((entries env.ord ix).flatMap (dupOf text uri)).map Prod.snd, ?_, ?_,
    undef_nodup h hix env.ord, ?_, ?_⟩
  · rw [hd]
    refine ((diagnosticsFromIndex_perm ..).append_left _).trans ?_
    rw [← List.append_assoc, ← List.append_assoc]
    exact List.perm_append_comm.append_right _
  · intro d hdm hk
    have hk := take_of_prefix hk (k := 2) (by decide)
    simp only [List.mem_append] at hdm
    rcases hdm with (hdm | hdm) | hdm
    · rcases parser_take h d hdm with h1 | h1 | h1 <;> rw [h1] at hk <;> revert hk <;> decide
    · rw [stmts_take d hdm] at hk; revert hk; decide
    · rw [dup_take d hdm] at hk; revert hk; decide
  · intro o
    rw [List.mem_map]
    constructor
    · rintro ⟨⟨o', d⟩, h1, rfl⟩
      exact ((undef_mem h hix hsize env.ord _ _).mp h1).1
    · intro hu
      obtain ⟨r, hr⟩ := occurs_rangeToLsp h hsize hu.1
      exact ⟨(o, { range := r, message := undefinedMessage o.name }),
        (undef_mem h hix hsize env.ord _ _).mpr ⟨hu, rfl, rfl, hr⟩, rfl⟩
  · rintro ⟨o, d⟩ hr
    obtain ⟨h1, h2, _, h4⟩ := (undef_mem h hix hsize env.ord _ _).mp hr
    exact ⟨h2, occurs_range_editor h hsize h1.1 h4⟩

/-- What is reported as undefined, and where. -/
theorem undef_reported (hsize : text.length < 2 ^ 32) (h : parseFromStr text = .ok res) (hc : onChange env st uri v text = .ok (st', pub))
    {d : Diagnostic} (hdm : d ∈ pub.diagnostics) (hk : c!"Use of undefined symbol `" <+: d.message) :
    ∃ o, UndefinedUse res.tokens res.stmts o ∧ rangeToLsp text o.span = some d.range := by
  obtain ⟨ix, hix, hd⟩ := publish_inv h hc
  rw [hd, List.mem_append, (diagnosticsFromIndex_perm ..).mem_iff] at hdm
  simp only [List.mem_append] at hdm
  have hk := take_of_prefix hk (k := 2) (by decide)
  rcases hdm with (hdm | hdm) | hdm | hdm
  · exfalso
    rcases parser_take h d hdm with h1 | h1 | h1 <;> rw [h1] at hk <;> revert hk <;> decide
  · exfalso; rw [stmts_take d hdm] at hk; revert hk; decide
  · obtain ⟨⟨o, d⟩, hr, rfl⟩ := List.mem_map.mp hdm
    obtain ⟨h1, _, _, h4⟩ := (undef_mem h hix hsize env.ord _ _).mp hr
    exact ⟨o, h1, h4⟩
  · exfalso; rw [dup_take d hdm] at hk; revert hk; decide

theorem firstDef_exists (h : parseFromStr text = .ok res) {ix : HIRIndex} (hix : createIndex text res.tokens res.stmts = .ok ix)
    {o : SymbolOccurrence} (ho : Occurs res.tokens res.stmts o) (hdef : o.useDef = .def_) :
    ∃ first, FirstDef res.tokens res.stmts first o := by
  obtain ⟨sp, ud, k, n, f⟩ := o
  simp only at hdef
  subst hdef
  have hl := (listed_occurs h hix).mpr ho
  have hord := listed_defs_order h hix k f n
  cases hd : listed ix k f n .def_ with
  | nil => rw [hd] at hl; cases hl
  | cons first rest =>
    rw [hd, List.pairwise_cons] at hord
    refine ⟨⟨first, .def_, k, n, f⟩, ⟨(listed_occurs h hix).mp (by rw [hd]; simp), ⟨rfl, rfl, rfl⟩, rfl⟩, ?_⟩
    rintro ⟨sp', ud, k', n', f'⟩ ho' ⟨e1, e2, e3⟩ hud
    simp only at e1 e2 e3 hud ⊢
    subst e1 e2 e3 hud
    have h3 := (listed_occurs h hix).mpr ho'
    rw [hd] at h3
    rcases List.mem_cons.mp h3 with rfl | h3
    · exact Nat.le_refl _
    · exact Nat.le_of_lt (hord.1 _ h3)

/-- C39: exactly the definitions of symbols that have an earlier definition are reported as duplicates, each by exactly one
diagnostic, at the editor range of the definition, with a reference to the first definition. -/
theorem C39_duplicates (hsize : text.length < 2 ^ 32) (h : parseFromStr text = .ok res)
    (hc : onChange env st uri v text = .ok (st', pub)) :
    ReportsExactly pub.diagnostics (Redefinition res.tokens res.stmts)
      (fun o d => d.message = c!"Symbol `" ++ o.name ++ c!"` already defined previously" ∧
        (PlainTo text o.span.stop → EditorRange text o.span d.range) ∧
        ∃ first r0 msg, FirstDef res.tokens res.stmts first o ∧ (PlainTo text first.span.stop → EditorRange text first.span r0) ∧
          d.related = [(⟨uri, r0⟩, msg)])
      (fun d => c!"Symbol `" <+: d.message) := by
  obtain ⟨ix, hix, hd⟩ := publish_inv h hc
  refine ⟨(entries env.ord ix).flatMap (dupOf text uri), diagnosticsFromParser text res.errors
    ++ diagnosticsFromStatements text res.stmts ++ ((entries env.ord ix).flatMap (undefOf text)).map Prod.snd, ?_, ?_,
    dup_nodup h hix env.ord uri, ?_, ?_⟩
  · rw [hd]
    refine ((diagnosticsFromIndex_perm ..).append_left _).trans ?_
    rw [← List.append_assoc]
    exact List.perm_append_comm
  · intro d hdm hk
    have hk := take_of_prefix hk (k := 2) (by decide)
    simp only [List.mem_append] at hdm
    rcases hdm with (hdm | hdm) | hdm
    · rcases parser_take h d hdm with h1 | h1 | h1 <;> rw [h1] at hk <;> revert hk <;> decide
    · rw [stmts_take d hdm] at hk; revert hk; decide
    · rw [undef_take d hdm] at hk; revert hk; decide
  · intro o
    rw [List.mem_map]
    constructor
    · rintro ⟨⟨o', d⟩, h1, rfl⟩
      exact ((dup_mem h hix hsize env.ord uri _ _).mp h1).1
    · intro hu
      obtain ⟨r, hr⟩ := occurs_rangeToLsp h hsize hu.1
      obtain ⟨first, hf⟩ := firstDef_exists h hix hu.1 hu.2.1
      obtain ⟨r0, hr0⟩ := occurs_rangeToLsp h hsize hf.1.1
      exact ⟨(o, { range := r, message := duplicateMessage o.name, related := [(⟨uri, r0⟩, c!"Previously defined here")] }),
        (dup_mem h hix hsize env.ord uri _ _).mpr ⟨hu, rfl, hr, first, r0, hf, hr0, rfl⟩, rfl⟩
  · rintro ⟨o, d⟩ hr
    obtain ⟨h1, h2, h4, first, r0, h5, h6, h7⟩ := (dup_mem h hix hsize env.ord uri _ _).mp hr
    exact ⟨h2, occurs_range_editor h hsize h1.1 h4, first, r0, _, h5, occurs_range_editor h hsize h5.1.1 h6, h7⟩

/-! ### C40 -/

omit [Unicode] in
theorem allInstructions_eq : ∀ ss : List Statement, allInstructions ss = instructions ss
  | [] => rfl
  | s :: ss => by
    have ih := allInstructions_eq ss
    unfold allInstructions instructions at ih ⊢
    rw [List.flatMap_cons, ih]
    cases s <;> simp [docFuncs] <;> rfl

omit [Unicode] in
theorem lacksTargets_iff (i : Instruction) :
    ((i.isBranching || decide (i.instruction.1 = c!"phi")) && i.basicBlockRefs.isEmpty) = true ↔ LacksTargets i := by
  unfold LacksTargets Instruction.isBranching
  rw [isBr_iff]
  simp [or_assoc]

/-- The names of the instructions are tokens, in order. -/
theorem instructions_sublist (ss : List Statement) :
    ((instructions ss).map fun i => identTok i.instruction).Sublist (mentions ss) := by
  rw [← allInstructions_eq]
  unfold allInstructions mentions
  rw [List.map_flatMap]
  apply sublist_flatMap
  intro s _
  cases s with
  | funcDef kw sig body =>
    simp only [stmtMentions]
    refine List.Sublist.cons _ ?_
    refine List.Sublist.trans ?_ (List.sublist_append_right _ _)
    unfold bodyMentions
    refine List.Sublist.trans ?_ (List.sublist_append_left _ _)
    refine List.Sublist.cons _ ?_
    rw [List.map_flatMap]
    apply sublist_flatMap
    intro b _
    unfold blockMentions
    refine List.Sublist.trans ?_ (List.sublist_append_right _ _)
    have : ∀ is : List Instruction, (is.map fun i => identTok i.instruction).Sublist (is.flatMap instrMentions) := by
      intro is
      induction is with
      | nil => exact List.Sublist.refl _
      | cons i is ih =>
        rw [List.flatMap_cons, List.map_cons, ← List.singleton_append]
        refine List.Sublist.append ?_ ih
        unfold instrMentions
        refine List.Sublist.trans ?_ (List.sublist_append_left _ _)
        refine List.Sublist.trans ?_ (List.sublist_append_left _ _)
        exact List.sublist_append_right _ _
    exact this _
  | _ => exact List.nil_sublist _

/-- C40: exactly the branching and phi instructions without basic block references are reported, each by exactly one
diagnostic, at the editor range of the instruction's name. -/
theorem C40_branches (hsize : text.length < 2 ^ 32) (h : parseFromStr text = .ok res)
    (hc : onChange env st uri v text = .ok (st', pub)) :
    ReportsExactly pub.diagnostics (fun i => i ∈ instructions res.stmts ∧ LacksTargets i)
      (fun i d => d.message = c!"Failed to extract basic block references from `" ++ i.instruction.1 ++ c!"` instruction" ∧
        (PlainTo text i.instruction.2.stop → EditorRange text i.instruction.2 d.range))
      (fun d => c!"Failed to extract basic block references" <+: d.message) := by
  obtain ⟨ix, hix, hd⟩ := publish_inv h hc
  have htok : ∀ i ∈ instructions res.stmts, identTok i.instruction ∈ res.tokens := fun i hi =>
    (((instructions_sublist res.stmts).trans (mentions_sublist h)).trans List.filter_sublist).subset
      (List.mem_map.mpr ⟨i, hi, rfl⟩)
  have hnd : (instructions res.stmts).Nodup := by
    have := ((mentions_wellOrdered h).sublist (instructions_sublist res.stmts)).spans_nodup
    rw [List.map_map] at this
    rw [List.Nodup, List.pairwise_map] at this
    exact this.imp fun hab he => hab (by rw [he])
  have hmap : ∀ l : List Instruction,
      (l.filterMap fun i => (diagnoseInstruction text i).map fun d => (i, d)).map Prod.snd = l.filterMap (diagnoseInstruction text) := by
    intro l
    rw [map_filterMap_map (k := fun _ d => d)]
    · simp
    · intros; rfl
  refine ⟨(instructions res.stmts).filterMap fun i => (diagnoseInstruction text i).map fun d => (i, d),
    diagnosticsFromParser text res.errors ++ diagnosticsFromIndex env.ord text uri ix, ?_, ?_, ?_, ?_, ?_⟩
  · rw [hd, hmap]
    unfold diagnosticsFromStatements
    rw [allInstructions_eq, ← List.append_assoc]
    exact List.perm_append_comm.append_right _
  · intro d hdm hk
    have hk := take_of_prefix hk (k := 2) (by decide)
    rcases List.mem_append.mp hdm with hdm | hdm
    · rcases parser_take h d hdm with h1 | h1 | h1 <;> rw [h1] at hk <;> revert hk <;> decide
    · rcases List.mem_append.mp ((diagnosticsFromIndex_perm ..).mem_iff.mp hdm) with hdm | hdm
      · rw [undef_take d hdm] at hk; revert hk; decide
      · rw [dup_take d hdm] at hk; revert hk; decide
  · refine nodup_filterMap_fst hnd (fun i => i) (fun a b h => h) ?_
    intro a x hx
    rw [Option.map_eq_some_iff] at hx
    obtain ⟨_, _, rfl⟩ := hx
    rfl
  · intro i
    rw [List.mem_map]
    constructor
    · rintro ⟨⟨i', d⟩, h1, rfl⟩
      obtain ⟨i, hi, h2⟩ := List.mem_filterMap.mp h1
      rw [Option.map_eq_some_iff] at h2
      obtain ⟨d', h3, h4⟩ := h2
      cases h4
      refine ⟨hi, ?_⟩
      unfold diagnoseInstruction at h3
      split at h3
      · rename_i hl; exact (lacksTargets_iff _).mp hl
      · cases h3
    · rintro ⟨hi, hl⟩
      obtain ⟨r, hr⟩ := token_rangeToLsp h hsize (htok i hi)
      simp only [identTok] at hr
      refine ⟨(i, ({ range := r, message := c!"Failed to extract basic block references from `" ++ i.instruction.1 ++ c!"` instruction" } : Diagnostic)),
        List.mem_filterMap.mpr ⟨i, hi, ?_⟩, rfl⟩
      unfold diagnoseInstruction
      rw [if_pos ((lacksTargets_iff i).mpr hl), hr]
      rfl
  · rintro ⟨i, d⟩ h1
    obtain ⟨i', hi, h2⟩ := List.mem_filterMap.mp h1
    rw [Option.map_eq_some_iff] at h2
    obtain ⟨d', h3, h4⟩ := h2
    cases h4
    unfold diagnoseInstruction at h3
    split at h3
    · rw [Option.map_eq_some_iff] at h3
      obtain ⟨r, hr, rfl⟩ := h3
      refine ⟨rfl, fun hp => ?_⟩
      obtain ⟨r', hr'⟩ := token_editor h (htok _ hi) (by simp) (by simp)
      have := rangeToLsp_editor hsize (hp.mono (Nat.le_of_lt ((C02_token_spans h).1 _ (htok _ hi)).1)) hp hr'
      rw [show rangeToLsp text i.instruction.2 = some r' from this] at hr
      cases hr
      exact hr'
    · cases h3

/-! ### C41 -/

/-- C41, except for errors at the end of the input: exactly the syntax errors that are not located at the end of the input are
reported, in order, each with its message; if the text is plain and the ends of the error's range are not inside of a line end,
at the editor range of the error. -/
theorem C41_syntax_errors_partial (hsize : text.length < 2 ^ 32) (h : parseFromStr text = .ok res)
    (hc : onChange env st uri v text = .ok (st', pub)) :
    ∃ shown : List (SErr × Diagnostic), ∃ others, pub.diagnostics = shown.map Prod.snd ++ others ∧
      shown.map Prod.fst = res.errors.filter (fun e => decide (e.span ≠ ⟨utf8Len text, utf8Len text + 1⟩)) ∧
      ∀ s ∈ shown,
        (∀ m, s.1.reason = .custom m → s.2.message = m) ∧
        (s.1.reason = .unexpected → (if s.1.found.isSome then c!"Unexpected token in input" else c!"Unexpected end of input") <+: s.2.message) ∧
        (PlainTo text s.1.span.stop → ¬ InCrLf text s.1.span.start → ¬ InCrLf text s.1.span.stop → EditorRange text s.1.span s.2.range) := by
  obtain ⟨ix, hix, hd⟩ := publish_inv h hc
  have hlen := length_le_utf8Len text
  refine ⟨res.errors.filterMap fun e => (rangeToLsp text e.span).map fun r => (e, { range := r, message := errorMessage e }),
    diagnosticsFromStatements text res.stmts ++ diagnosticsFromIndex env.ord text uri ix, ?_, ?_, ?_⟩
  · rw [hd, map_filterMap_map (k := fun e r => { range := r, message := errorMessage e })]
    · simp [diagnosticsFromParser]
    · intros; rfl
  · have key : ∀ e ∈ res.errors, (∃ r, rangeToLsp text e.span = some r) ∧ e.span ≠ ⟨utf8Len text, utf8Len text + 1⟩ ∨
        rangeToLsp text e.span = none ∧ e.span = ⟨utf8Len text, utf8Len text + 1⟩ := by
      intro e he
      rcases (errors_ok h e he).1 with h1 | h1
      · right
        refine ⟨?_, h1⟩
        cases hr : rangeToLsp text e.span with
        | none => rfl
        | some r =>
          exfalso
          rw [h1] at hr
          unfold rangeToLsp at hr
          simp only at hr
          split at hr
          · cases hr
          · split at hr
            · cases hr
            · rename_i h2
              have := (offsetToLspPos_some h2).1
              omega
      · left
        refine ⟨rangeToLsp_total hsize h1.1 h1.2, ?_⟩
        intro he
        have := h1.2
        rw [he] at this
        simp only at this
        omega
    clear hd
    generalize res.errors = l at key
    induction l with
    | nil => rfl
    | cons e l ih =>
      rw [List.filterMap_cons, List.filter_cons]
      have ih := ih fun e he => key e (by simp [he])
      rcases key e (by simp) with ⟨⟨r, h1⟩, h2⟩ | ⟨h1, h2⟩
      · rw [h1, if_pos (by simpa using h2)]
        simp only [Option.map_some, List.map_cons, ih]
      · rw [h1, if_neg (by simpa using h2)]
        simp only [Option.map_none, ih]
  · rintro ⟨e, d⟩ hs
    obtain ⟨e', he, h1⟩ := List.mem_filterMap.mp hs
    rw [Option.map_eq_some_iff] at h1
    obtain ⟨r, hr, h2⟩ := h1
    cases h2
    refine ⟨?_, ?_, ?_⟩
    · intro m hm
      simp only [errorMessage]
      rw [hm]
    · intro hm
      simp only [errorMessage]
      rw [hm]
      simp only [List.append_assoc]
      exact List.prefix_append _ _
    · intro hp c1 c2
      have hle : e.span.stop ≤ text.length ∧ e.span.start ≤ text.length ∧ e.span.start ≤ e.span.stop := by
        rcases (errors_ok h e he).1 with h1 | h1
        · rw [h1] at hr
          unfold rangeToLsp at hr
          simp only at hr
          split at hr
          · cases hr
          · split at hr
            · cases hr
            · rename_i h2
              have := (offsetToLspPos_some h2).1
              omega
        · omega
      obtain ⟨p1, hp1⟩ := lspOffset_exists text.length (Nat.le_refl _) hle.2.1 c1
      obtain ⟨p2, hp2⟩ := lspOffset_exists text.length (Nat.le_refl _) hle.1 c2
      have hed : EditorRange text e.span ⟨p1, p2⟩ := ⟨hp1, hp2⟩
      rw [rangeToLsp_editor hsize (hp.mono hle.2.2) hp hed] at hr
      cases hr
      exact hed

end

/-! ### Examples -/

section
attribute [local instance] asciiUnicode

/-- The diagnostics published when a document is opened. -/
def diagnosticsOf (text : Str) : Option (List Diagnostic) :=
  match onChange debugEnv { docs := [], roots := [] } c!"u" 1 text with
  | .ok (_, pub) => some pub.diagnostics
  | .panic => none

/-- An undefined branch target, a redefined global variable and a conditional branch without targets. -/
def diagText : Str := c!"@a = 1\n@a = 2\ndefine void @g() {\nx:\n br y\n condbr\n}\n"

example : diagnosticsOf diagText = some
    [{ range := ⟨⟨5, 1⟩, ⟨5, 7⟩⟩, message := c!"Failed to extract basic block references from `condbr` instruction" },
     { range := ⟨⟨1, 0⟩, ⟨1, 2⟩⟩, message := c!"Symbol `@a` already defined previously",
       related := [(⟨c!"u", ⟨⟨0, 0⟩, ⟨0, 2⟩⟩⟩, c!"Previously defined here")] },
     { range := ⟨⟨4, 4⟩, ⟨4, 5⟩⟩, message := c!"Use of undefined symbol `y`" }] := by
  decide +kernel

/-- A syntax error that is shown. -/
example : (diagnosticsOf c!"@a = 1\ndefine oops\n@b = 2\n").map (·.map (·.range)) = some [⟨⟨1, 7⟩, ⟨1, 11⟩⟩] := by
  decide +kernel

/-- C41 is false in general: a syntax error at the end of the input is not shown. -/
theorem C41_refuted_end_of_input :
    (match parseFromStr c!"define" with | .ok res => res.errors.length | .panic => 0) = 1 ∧
    diagnosticsOf c!"define" = some [] := by
  decide +kernel

end
end HyperIR
