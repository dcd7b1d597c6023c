import Verif.Proofs.Rename
import Verif.Props.Flow

/-! C25, C26, C29 to C34: renames, shifts and code actions. -/

namespace HyperIR
open Spec

section
variable [Unicode] {env : Env} {st : ServerState} {uri text : Str} {res : ParserResult}

/-! ### C26 -/

omit [Unicode] in
theorem isPrefix_append : ∀ {a b : Str}, isPrefix a b = true ↔ ∃ r, b = a ++ r
  | [], b => by simp [isPrefix]
  | x :: a, [] => by simp [isPrefix]
  | x :: a, y :: b => by
    simp only [isPrefix, Bool.and_eq_true, decide_eq_true_eq, isPrefix_append, List.cons_append, List.cons.injEq]
    constructor
    · rintro ⟨rfl, r, rfl⟩; exact ⟨r, rfl, rfl⟩
    · rintro ⟨r, h, hr⟩; exact ⟨h.symm, r, hr⟩

omit [Unicode] in
theorem sigil_iff {k : SymbolKind} {s : Str} : Sigil k s ↔ s = sigilOf k := by cases k <;> rfl

theorem isNameChar_iff {c : Char} : isNameChar c = true ↔ NameChar c ∨ c = ':' := by
  unfold isNameChar NameChar
  simp

omit [Unicode] in
theorem stripPrefix_spec (pre s : Str) : s = pre ++ stripPrefix pre s ∨ (s = stripPrefix pre s ∧ ∀ r, s ≠ pre ++ r) := by
  unfold stripPrefix
  by_cases h : isPrefix pre s = true
  · obtain ⟨r, rfl⟩ := isPrefix_append.mp h
    left
    rw [if_pos h]
    simp
  · right
    rw [if_neg h]
    exact ⟨rfl, fun r e => h (isPrefix_append.mpr ⟨r, e⟩)⟩

theorem sigil_not_nameChar {k : SymbolKind} {c : Char} (hc : c ∈ sigilOf k) : ¬ (NameChar c ∨ c = ':') := by
  have h1 : c = '@' ∨ c = '!' ∨ c = '%' := by cases k <;> simp [sigilOf] at hc <;> simp [hc]
  rintro (h | rfl)
  · rcases h1 with rfl | rfl | rfl <;> exact not_nameChar_of (by decide) (by decide) h
  · revert h1; decide

theorem stripPrefix_of_body {k : SymbolKind} {req body : Str} (hb : ∀ c ∈ body, NameChar c ∨ c = ':')
    (hr : req = sigilOf k ++ body ∨ req = body) : stripPrefix (sigilOf k) req = body := by
  rcases stripPrefix_spec (sigilOf k) req with h | ⟨h, hno⟩
  · rcases hr with hr | hr
    · exact (List.append_cancel_left (hr.symm.trans h)).symm
    · cases hs : sigilOf k with
      | nil => rw [hs] at h; rw [← hr]; exact h.symm
      | cons c cs =>
        have : c ∈ body := by rw [← hr, h, hs]; simp
        exact absurd (hb c this) (sigil_not_nameChar (k := k) (by rw [hs]; simp))
  · rcases hr with hr | hr
    · exact absurd hr (hno body)
    · rw [← h, hr]

/-- What the check of a new name answers. -/
theorem checkNewName_spec (k : SymbolKind) (req : Str) :
    (∀ name, checkNewName k req = .ok (.ok name) ↔ NewName k req name) ∧
    (checkNewName k req = .panic ↔ req = [] ∨ req = sigilOf k) := by
  have hsig : ∀ c, sigilOf k = [c] ∨ sigilOf k = [] ∨ True := fun _ => .inr (.inr trivial)
  have hempty : stripPrefix (sigilOf k) req = [] ↔ req = [] ∨ req = sigilOf k := by
    constructor
    · intro h
      rcases stripPrefix_spec (sigilOf k) req with h' | ⟨h', _⟩
      · rw [h, List.append_nil] at h'; exact .inr h'
      · rw [h] at h'; exact .inl h'
    · rintro (h | h)
      · exact stripPrefix_of_body (by simp) (.inr h)
      · exact stripPrefix_of_body (by simp) (.inl (by rw [h, List.append_nil]))
  unfold checkNewName
  simp only
  by_cases hany : ((stripPrefix (sigilOf k) req).any fun c => !isNameChar c) = true
  · rw [if_pos hany]
    obtain ⟨c, hc, hn⟩ := List.any_eq_true.mp hany
    have hn' : ¬ (NameChar c ∨ c = ':') := by rw [← isNameChar_iff]; simpa using hn
    refine ⟨fun name => ⟨fun h => (by cases h), ?_⟩, ⟨fun h => (by cases h), ?_⟩⟩
    · rintro ⟨sigil, body, h1, h2, h3, h4, h5, h6⟩
      rw [sigil_iff] at h1
      subst h1
      rw [stripPrefix_of_body h5 h2] at hc
      exact absurd (h5 c hc) hn'
    · intro h
      rw [hempty.mpr h] at hc
      cases hc
  · rw [if_neg hany]
    have hall : ∀ c ∈ stripPrefix (sigilOf k) req, NameChar c ∨ c = ':' := by
      intro c hc
      rw [← isNameChar_iff]
      cases hb : isNameChar c with
      | true => rfl
      | false => exact absurd (List.any_eq_true.mpr ⟨c, hc, by simp [hb]⟩) hany
    cases hs : stripPrefix (sigilOf k) req with
    | nil =>
      refine ⟨fun name => ⟨fun h => (by cases h), ?_⟩, ⟨fun _ => hempty.mp hs, fun _ => rfl⟩⟩
      rintro ⟨sigil, body, h1, h2, h3, h4, h5, h6⟩
      rw [sigil_iff] at h1
      subst h1
      rw [stripPrefix_of_body h5 h2] at hs
      exact absurd hs h4
    | cons c cs =>
      have hne : ¬ (req = [] ∨ req = sigilOf k) := by rw [← hempty, hs]; simp
      have hreq : req = sigilOf k ++ (c :: cs) ∨ req = c :: cs := by
        rw [← hs]
        rcases stripPrefix_spec (sigilOf k) req with h | ⟨h, _⟩
        · exact .inl h
        · exact .inr h
      simp only
      split
      · rename_i hnum
        simp only [Bool.and_eq_true, decide_eq_true_eq] at hnum
        refine ⟨fun name => ⟨fun h => (by cases h), ?_⟩, ⟨fun h => (by cases h), fun h => absurd h hne⟩⟩
        rintro ⟨sigil, body, h1, h2, h3, h4, h5, h6⟩
        rw [sigil_iff] at h1
        subst h1
        rw [stripPrefix_of_body h5 h2] at hs
        have := h6 hnum.2 c (by rw [hs]; rfl)
        rw [hnum.1] at this
        cases this
      · rename_i hnum
        refine ⟨fun name => ⟨fun h => ?_, ?_⟩, ⟨fun h => (by cases h), fun h => absurd h hne⟩⟩
        · simp only [Outcome.ok.injEq, Except.ok.injEq] at h
          refine ⟨sigilOf k, c :: cs, sigil_iff.mpr rfl, hreq, h.symm, by simp, by rw [← hs]; exact hall, ?_⟩
          intro hk d hd
          simp only [List.head?_cons, Option.some.injEq] at hd
          subst hd
          cases hb : Unicode.numeric c with
          | false => rfl
          | true => exact absurd (by simp [hb, hk]) hnum
        · rintro ⟨sigil, body, h1, h2, h3, h4, h5, h6⟩
          rw [sigil_iff] at h1
          subst h1
          rw [stripPrefix_of_body h5 h2] at hs
          rw [h3, hs]

theorem symbolAt_found {doc : AnalyzedDocument} (h : parseFromStr text = .ok res)
    (hix : createIndex text res.tokens res.stmts = .ok doc.index) {p : Pos} {o : SymbolOccurrence} (hs : symbolAt doc p = some o) :
    Occurs res.tokens res.stmts o := by
  unfold symbolAt at hs
  rw [Option.bind_eq_some_iff] at hs
  obtain ⟨off, _, h2⟩ := hs
  exact (occurs_listed h hix).mp ((C18_lookup h hix off).1 o h2).1

omit [Unicode] in
theorem renameEdits_absolute [Unicode] {doc : AnalyzedDocument} {o : SymbolOccurrence} {req : Str} (hr : ¬ Relative req) :
    renameEdits env doc o req = absoluteRename doc o req := by
  unfold renameEdits
  split
  · exact absurd ⟨_, .inl rfl⟩ hr
  · exact absurd ⟨_, .inr rfl⟩ hr
  · rfl

theorem absoluteRename_eq {doc : AnalyzedDocument} (h : parseFromStr text = .ok res)
    (hix : createIndex text res.tokens res.stmts = .ok doc.index) {o : SymbolOccurrence} (ho : Occurs res.tokens res.stmts o) (req : Str) :
    ∃ u, entry? doc.index o.symbolKind o.funcBodyId o.name = some u ∧
      absoluteRename doc o req = (match checkNewName o.symbolKind req with
        | .panic => .panic
        | .ok (.error e) => .ok (.error e)
        | .ok (.ok name) => .ok (.ok (getRenameEdits doc.rope u name))) := by
  obtain ⟨u, hu⟩ := occurs_entry h hix ho
  obtain ⟨m, hm, hget, _⟩ := occurs_table h hix ho
  refine ⟨u, hu, ?_⟩
  unfold absoluteRename
  rw [hm]
  have : m.get? o.name = some u := by rw [hget]; exact hu
  cases checkNewName o.symbolKind req with
  | panic => rfl
  | ok r => cases r with
    | error e => rfl
    | ok name => simp only [this]

/-- C26: an absolute rename answers with edits exactly for the valid names of the symbol's kind and with an error otherwise.  What
is missing: the empty name and a name that consists only of the sigil (`C26_refuted_empty`, `C26_refuted_sigil`). -/
theorem C26_new_names_partial (hopen : Opened st uri text) (h : parseFromStr text = .ok res) (p : Pos) {req : Str} (hreq : ¬ Relative req)
    (hne : req ≠ []) (hsig : ∀ k, ¬ Sigil k req) :
    (∃ e, rename env st uri p req = .ok (.error e)) ∨
    (∃ o name edits, Occurs res.tokens res.stmts o ∧ NewName o.symbolKind req name ∧ rename env st uri p req = .ok (.ok [(uri, edits)]) ∧
      ∀ e ∈ edits, e.newText = name) := by
  obtain ⟨doc, hst, hrope, hstmts, hix⟩ := opened_inv hopen h
  unfold rename
  rw [hst]
  simp only
  cases hs : symbolAt doc p with
  | none => exact .inl ⟨_, rfl⟩
  | some o =>
    have ho := symbolAt_found h hix hs
    obtain ⟨u, hu, he⟩ := absoluteRename_eq h hix ho req
    simp only
    rw [renameEdits_absolute hreq, he]
    obtain ⟨h1, h2⟩ := checkNewName_spec o.symbolKind req
    cases hc : checkNewName o.symbolKind req with
    | panic =>
      rcases h2.mp hc with h3 | h3
      · exact absurd h3 hne
      · exact absurd (sigil_iff.mpr h3) (hsig _)
    | ok r =>
      cases r with
      | error e => exact .inl ⟨e, rfl⟩
      | ok name =>
        refine .inr ⟨o, name, _, ho, (h1 name).mp hc, rfl, ?_⟩
        intro e he
        unfold getRenameEdits at he
        obtain ⟨sp, _, h4⟩ := List.mem_filterMap.mp he
        obtain ⟨r, _, rfl⟩ := Option.map_eq_some_iff.mp h4
        rfl

/-- C26: a name that is no valid name of the kind of the symbol is rejected. -/
theorem C26_rejected_partial (hopen : Opened st uri text) (h : parseFromStr text = .ok res) (hsize : text.length < 2 ^ 32)
    {p : Pos} {off : Nat} (hpos : LspOffset text p off) (hp : PlainTo text off) {o : SymbolOccurrence} (ho : Occurs res.tokens res.stmts o) (hc : Covers o.span off)
    (hvis : ¬ Shadowed res.stmts o) {req : Str} (hreq : ¬ Relative req) (hne : req ≠ []) (hsig : ¬ Sigil o.symbolKind req)
    (hinv : ∀ name, ¬ NewName o.symbolKind req name) : ∃ e, rename env st uri p req = .ok (.error e) := by
  obtain ⟨doc, errs, ha, hst⟩ := hopen
  obtain ⟨res', h1, h2, _, _, _, h6⟩ := analyze_inv ha
  rw [h] at h1
  cases h1
  obtain ⟨o', hs, _, _, he⟩ := (symbolAt_occurs ha h hsize hpos hp).2 o ho hc
  obtain rfl := he hvis
  obtain ⟨u, hu, he⟩ := absoluteRename_eq h h6 ho req
  unfold rename
  rw [hst]
  simp only [hs]
  rw [renameEdits_absolute hreq, he]
  obtain ⟨h1, h2⟩ := checkNewName_spec o'.symbolKind req
  cases hc : checkNewName o'.symbolKind req with
  | panic =>
    rcases h2.mp hc with h3 | h3
    · exact absurd h3 hne
    · exact absurd (sigil_iff.mpr h3) hsig
  | ok r =>
    cases r with
    | error e => exact ⟨e, rfl⟩
    | ok name => exact absurd ((h1 name).mp hc) (hinv name)

/-! ### C25 -/

omit [Unicode] in
theorem token_eq {l : List Tok} (hl : WellOrdered l) {t t' : Tok} (ht : t ∈ l) (ht' : t' ∈ l) (he : t.2 = t'.2) : t = t' := by
  have h := hl.spans_nodup
  clear hl
  induction l with
  | nil => cases ht
  | cons x l ih =>
    rw [List.map_cons, List.nodup_cons] at h
    rcases List.mem_cons.mp ht with rfl | _
    · rcases List.mem_cons.mp ht' with rfl | ht1
      · rfl
      · exact absurd (by rw [he]; exact List.mem_map_of_mem ht1) h.1
    · rename_i ht0
      rcases List.mem_cons.mp ht' with rfl | ht1
      · exact absurd (by rw [← he]; exact List.mem_map_of_mem ht0) h.1
      · exact ih ht0 ht1 h.2

/-- Occurrences at the same range have the same name. -/
theorem occurs_name (h : parseFromStr text = .ok res) {o o' : SymbolOccurrence} (ho : Occurs res.tokens res.stmts o)
    (ho' : Occurs res.tokens res.stmts o') (he : o.span = o'.span) : o.name = o'.name := by
  have := token_eq (tokens_wellOrdered h) (occurs_token h ho) (occurs_token h ho') (by rw [occTok_span, occTok_span, he])
  unfold occTok at this
  generalize o.symbolKind = k at this
  generalize o'.symbolKind = k' at this
  cases k <;> cases k' <;> simp at this <;> exact this.1

/-- Different occurrences of a symbol do not overlap. -/
theorem occurs_disjoint (h : parseFromStr text = .ok res) {o o' : SymbolOccurrence} (ho : Occurs res.tokens res.stmts o)
    (ho' : Occurs res.tokens res.stmts o') (hne : o.span ≠ o'.span) : o.span.stop ≤ o'.span.start ∨ o'.span.stop ≤ o.span.start := by
  have h1 := occurs_token h ho
  have h2 := occurs_token h ho'
  have key : ∀ {l : List Tok} {t t' : Tok}, InOrder (l.map Prod.snd) → t ∈ l → t' ∈ l → t.2 ≠ t'.2 → t.2.stop ≤ t'.2.start ∨ t'.2.stop ≤ t.2.start := by
    intro l t t' hl ht ht' hne
    induction l with
    | nil => cases ht
    | cons x l ih =>
      unfold InOrder at hl ih
      rw [List.map_cons, List.pairwise_cons] at hl
      rcases List.mem_cons.mp ht with rfl | ht0
      · rcases List.mem_cons.mp ht' with rfl | ht1
        · exact absurd rfl hne
        · exact .inl (hl.1 _ (List.mem_map_of_mem ht1))
      · rcases List.mem_cons.mp ht' with rfl | ht1
        · exact .inr (hl.1 _ (List.mem_map_of_mem ht0))
        · exact ih hl.2 ht0 ht1
  have := key (C02_token_spans h).2 h1 h2 (by rw [occTok_span, occTok_span]; exact hne)
  rwa [occTok_span, occTok_span] at this

omit [Unicode] in
/-- Uses are not shadowed. -/
theorem use_visible {toks : List Tok} {ss : List Statement} {o : SymbolOccurrence} (ho : Occurs toks ss o) (hu : o.useDef = .use) :
    ¬ Shadowed ss o := by
  rcases ho with ho | ⟨⟨t, _, ht⟩, _⟩
  · rintro ⟨hk, _⟩
    have key : ∀ (ss : List Statement) (i : Nat), ∀ o ∈ docOccs i ss, o.symbolKind = .globalVar → o.useDef ≠ .use := by
      intro ss
      induction ss with
      | nil => intro i o ho; cases ho
      | cons s ss ih =>
        intro i o ho hk
        rcases List.mem_append.mp ho with ho | ho
        · cases s with
          | globalVar name _ => simp [stmtOccs, occ] at ho; subst ho; simp
          | funcDecl sig _ _ => simp [stmtOccs, occ] at ho; subst ho; simp at hk
          | funcDependencies _ _ => simp [stmtOccs] at ho
          | dbgAnnotation name _ => simp [stmtOccs, occ] at ho; subst ho; simp at hk
          | funcDef _ sig body =>
            rcases List.mem_cons.mp ho with rfl | ho
            · simp [occ] at hk
            · simp only [funcOccs, blockOccs, instrOccs, List.mem_append, List.mem_map, List.mem_flatMap] at ho
              rcases ho with ⟨_, _, rfl⟩ | ⟨_, _, ⟨_, _, rfl⟩ | ⟨_, _, ⟨_, _, rfl⟩ | ⟨_, _, rfl⟩⟩⟩ <;> simp [occ] at hk
        · exact ih _ o ho hk
    exact key ss 0 o ho hk hu
  · exact tokenUse_visible ht

omit [Unicode] in
theorem shadowed_same {ss : List Statement} {o o' : SymbolOccurrence} (hs : SameSymbol o' o) (h : ¬ Shadowed ss o) : ¬ Shadowed ss o' := by
  unfold Shadowed at h ⊢
  rwa [hs.1, hs.2.2]

/-- An occurrence that is not shadowed is the only such one at its range. -/
theorem occurs_visible (h : parseFromStr text = .ok res) {ix : HIRIndex} (hix : createIndex text res.tokens res.stmts = .ok ix)
    {o o' : SymbolOccurrence} (ho : Occurs res.tokens res.stmts o) (ho' : Occurs res.tokens res.stmts o') (he : o.span = o'.span)
    (hv : ¬ Shadowed res.stmts o) (hv' : ¬ Shadowed res.stmts o') : o = o' := by
  have hin : o.span.contains o.span.start = true := by
    have := (C02_token_spans h).1 _ (occurs_token h ho)
    rw [occTok_span] at this
    simp [Span.contains, this.1]
  have h1 := (C19_exact h hix o.span.start o).mpr ⟨(occurs_listed h hix).mpr ho, hin, hv⟩
  have h2 := (C19_exact h hix o.span.start o').mpr ⟨(occurs_listed h hix).mpr ho', by rw [← he]; exact hin, hv'⟩
  rw [h1] at h2
  exact Option.some.inj h2

/-- An occurrence of an unambiguous name is the only one at its range. -/
theorem occurs_unique (h : parseFromStr text = .ok res) {ix : HIRIndex} (hix : createIndex text res.tokens res.stmts = .ok ix)
    {o o' : SymbolOccurrence} (ho : Occurs res.tokens res.stmts o) (ho' : Occurs res.tokens res.stmts o') (he : o.span = o'.span)
    (hamb : ¬ Ambiguous res.stmts o.name) : o = o' := by
  have hl := (occurs_listed h hix).mpr ho
  have hl' := (occurs_listed h hix).mpr ho'
  have hin : o.span.contains o.span.start = true := by
    have := (C02_token_spans h).1 _ (occurs_token h ho)
    rw [occTok_span] at this
    simp [Span.contains, this.1]
  have h1 := (C19_tables_agree_partial h hix).2 o hl hamb _ hin
  have h2 := (C19_tables_agree_partial h hix).2 o' hl' (by rw [← occurs_name h ho ho' he]; exact hamb) _ (by rw [← he]; exact hin)
  rw [h1] at h2
  exact Option.some.inj h2

/-- The text of an occurrence. -/
theorem occurs_text (h : parseFromStr text = .ok res) {toks} (ht : tokenize text = .ok (some toks, [])) {o : SymbolOccurrence}
    (ho : Occurs res.tokens res.stmts o) : slice text o.span = o.name := by
  have htok := occurs_token h ho
  have hts : res.tokens = toks := by
    rcases parseFromStr_tokens h with ⟨h1, _⟩ | ⟨errs, h1⟩
    · rw [h1] at htok; cases htok
    · rw [h1] at ht; cases ht; rfl
  rw [hts] at htok
  have := C03_token_spelling_lexical ht (occTok o).1 (occTok o).2 htok
  rw [occTok_span] at this
  generalize slice text o.span = w at this
  unfold occTok at this
  generalize o.symbolKind = k at this
  generalize o.name = n at this
  cases k <;> simp only at this <;> cases this <;> rfl

/-- C25: renaming a symbol at a position answers one edit per occurrence (declaration, definition or use) of the symbol, with the new
name, at the editor range of the occurrence (as far as the text is plain), and nothing else; the ranges do not overlap, and (if the
document can be tokenized without errors) each contains exactly the old name.  What is missing: the ranges behind text that is not plain ASCII
(`C25_refuted_nonascii`), variables with the name of a function (`C25_refuted_clash`), the exact
extent of the edits in presence of lexical errors (`C25_refuted_garbage`). -/
theorem C25_rename_partial (hopen : Opened st uri text) (h : parseFromStr text = .ok res) (hsize : text.length < 2 ^ 32)
    {p : Pos} {off : Nat} (hpos : LspOffset text p off) (hp : PlainTo text off) {o : SymbolOccurrence} (ho : Occurs res.tokens res.stmts o) (hc : Covers o.span off)
    (hvis : ¬ Shadowed res.stmts o) {req name : Str} (hreq : ¬ Relative req) (hname : NewName o.symbolKind req name) :
    ∃ edits, ∃ occs : List SymbolOccurrence, rename env st uri p req = .ok (.ok [(uri, edits)]) ∧ Renames text (occs.map fun o' => (o', name)) edits ∧
      occs.Nodup ∧ (∀ o', o' ∈ occs ↔ Occurs res.tokens res.stmts o' ∧ SameSymbol o' o) ∧ Disjoint (occs.map (·.span)) ∧
      ∀ toks, tokenize text = .ok (some toks, []) → ∀ o' ∈ occs, slice text o'.span = o.name := by
  obtain ⟨doc, errs, ha, hst⟩ := hopen
  obtain ⟨res', h1, h2, _, _, _, h6⟩ := analyze_inv ha
  rw [h] at h1
  cases h1
  obtain ⟨o', hs, _, _, he⟩ := (symbolAt_occurs ha h hsize hpos hp).2 o ho hc
  obtain rfl := he hvis
  obtain ⟨u, hu, he⟩ := absoluteRename_eq h h6 ho req
  have hmem : ∀ o'', o'' ∈ occsOf doc.index o'.symbolKind o'.funcBodyId o'.name ↔ Occurs res.tokens res.stmts o'' ∧ SameSymbol o'' o' := by
    intro o''
    rw [mem_occsOf h h6]
    rfl
  have hnd := occsOf_nodup h h6 o'.symbolKind o'.funcBodyId o'.name
  refine ⟨_, _, ?_, getRenameEdits_spec h h6 hsize hu name, hnd, hmem, ?_, ?_⟩
  · unfold rename
    rw [hst]
    simp only [hs]
    rw [renameEdits_absolute hreq, he, ((checkNewName_spec o'.symbolKind req).1 name).mpr hname, h2]
  · unfold Disjoint
    rw [List.pairwise_map]
    refine List.Pairwise.imp_of_mem ?_ hnd
    intro a b ha hb hab
    obtain ⟨ha1, ha2⟩ := (hmem a).mp ha
    obtain ⟨hb1, hb2⟩ := (hmem b).mp hb
    exact occurs_disjoint h ha1 hb1 (fun e => hab (occurs_visible h h6 ha1 hb1 e (shadowed_same ha2 hvis) (shadowed_same hb2 hvis)))
  · intro toks htk o'' ho''
    obtain ⟨a1, a2⟩ := (hmem o'').mp ho''
    rw [occurs_text h htk a1, a2.2.2]

/-! ### C29 -/

/-- C29: an identifier is split into `pre` and `n` exactly if it ends in decimal digits for `n` (below `2^63`) behind `pre`, and `pre`
does not end in a numeric character.  What is missing: identifiers in which the last non-numeric character is not ASCII
(`C29_refuted_wide`). -/
theorem C29_numbered_partial {id : Str} (ha : ∀ c pre suf, id = pre ++ c :: suf → (∀ d ∈ suf, Unicode.numeric d = true) → Unicode.numeric c = false → c.toNat < 128) :
    ∃ r, extractNumberFromIdentifier id = .ok r ∧ ∀ pre (n : Nat), r = some (pre, (n : Int)) ↔ Numbered id pre n := by
  obtain ⟨h1, h2, h3⟩ := splitNumericSuffix_eq id
  obtain ⟨e1, e2, e3⟩ := extract_spec id
  cases hx : extractNumberFromIdentifier id with
  | panic =>
    exfalso
    unfold extractNumberFromIdentifier at hx
    generalize splitNumericSuffix id = r at *
    obtain ⟨name, nr⟩ := r
    simp only at *
    cases hl : name.getLast? with
    | none => rw [hl] at hx; cases hx
    | some c =>
      rw [hl] at hx
      simp only at hx
      have hname : name = name.dropLast ++ [c] := by
        have hne : name ≠ [] := by rintro rfl; cases hl
        have := List.dropLast_concat_getLast hne
        rw [List.getLast?_eq_some_getLast hne] at hl
        rw [← Option.some.inj hl]
        exact this.symm
      have := ha c name.dropLast nr (by rw [← h1]; conv => lhs; rw [hname]
                                        simp) h2 (h3 c hl)
      rw [if_pos (utf8Size_one this)] at hx
      cases hx
  | ok r =>
    refine ⟨r, rfl, ?_⟩
    intro pre n
    constructor
    · rintro rfl
      obtain ⟨m, hm, hn⟩ := e1 pre n hx
      have : n = m := by omega
      subst this
      exact hn
    · intro hn
      cases r with
      | none => exact absurd hn (e2 hx pre n)
      | some r =>
        obtain ⟨pre', i⟩ := r
        obtain ⟨m, rfl, hm⟩ := e1 pre' i hx
        obtain ⟨rfl, rfl⟩ := numbered_unique hn hm
        rfl

theorem extract_numbered {id pre : Str} {n : Nat} (ha : Ascii id) (h : Numbered id pre n) :
    extractNumberFromIdentifier id = .ok (some (pre, (n : Int))) := by
  obtain ⟨r, h1, h2⟩ := C29_numbered_partial (id := id) (fun c pre suf e _ _ => ha c (by rw [e]; simp))
  rw [h1, (h2 pre n).mpr h]

theorem extract_not_numbered {id : Str} (ha : Ascii id) (h : ∀ pre n, ¬ Numbered id pre n) :
    extractNumberFromIdentifier id = .ok none := by
  obtain ⟨r, h1, h2⟩ := C29_numbered_partial (id := id) (fun c pre suf e _ _ => ha c (by rw [e]; simp))
  rw [h1]
  cases r with
  | none => rfl
  | some r =>
    obtain ⟨pre, i⟩ := r
    obtain ⟨m, rfl, hm⟩ := (extract_spec id).1 pre i h1
    exact absurd hm (h pre m)

theorem occurs_chars (h : parseFromStr text = .ok res) {o : SymbolOccurrence} (ho : Occurs res.tokens res.stmts o) :
    ∀ c ∈ o.name, c ∈ text.take o.span.stop := by
  have htok := occurs_token h ho
  obtain ⟨g, w, h1, h2, _⟩ := C03_token_spelling_with_errors h (occTok o).1 (occTok o).2 htok
  have hw : w = o.name := by
    unfold occTok at h2
    generalize o.symbolKind = k at h2
    generalize o.name = n at h2
    cases k <;> simp only at h2 <;> cases h2 <;> rfl
  intro c hc
  have hmem : c ∈ slice text (occTok o).2 := by rw [h1, hw]; simp [hc]
  unfold slice at hmem
  rw [occTok_span, List.take_drop] at hmem
  have := List.mem_of_mem_drop hmem
  have hin := ((C02_token_spans h).1 _ htok).1
  rw [occTok_span] at hin
  rwa [show o.span.start + (o.span.stop - o.span.start) = o.span.stop by omega] at this

theorem occurs_ascii (h : parseFromStr text = .ok res) {o : SymbolOccurrence} (ho : Occurs res.tokens res.stmts o) (hp : PlainTo text o.span.stop) :
    Ascii o.name := fun c hc => (hp c (occurs_chars h ho c hc)).1

end

/-! ### Examples and refutations -/

section Examples
attribute [local instance] asciiUnicode

def renText : Str := c!"@a = 1\ndefine void @f(int32 %v1) {\nx1:\n int32 %v2 = add int32 %v1, @a\n br x1\n}\n"

example : Opened (serverWith [] c!"u" renText) c!"u" renText := serverWith_opened (by decide +kernel)
example : Plain renText ∧ renText.length < 2 ^ 32 := by decide +kernel
example : ¬ Relative c!"b" := by rintro ⟨w, h | h⟩ <;> cases h
example : NewName .globalVar c!"b" c!"@b" :=
  ⟨c!"@", c!"b", rfl, .inr rfl, rfl, by simp, by simp [NameChar]; decide, by intro _ c h; simp at h; subst h; decide⟩

/-- Both occurrences of `@a` are renamed. -/
example : (match rename debugEnv (serverWith [] c!"u" renText) c!"u" ⟨0, 1⟩ c!"b" with | .ok (.ok e) => some e | _ => none) =
    some [(c!"u", [⟨⟨⟨0, 0⟩, ⟨0, 2⟩⟩, c!"@b"⟩, ⟨⟨⟨3, 28⟩, ⟨3, 30⟩⟩, c!"@b"⟩])] := by decide +kernel

/-- An invalid name is rejected. -/
example : (match rename debugEnv (serverWith [] c!"u" renText) c!"u" ⟨0, 1⟩ c!"b c" with | .ok (.error _) => true | _ => false) = true := by
  decide +kernel

/-- C26 fails for the empty name. -/
theorem C26_refuted_empty : (match rename debugEnv (serverWith [] c!"u" renText) c!"u" ⟨0, 1⟩ [] with | .panic => true | _ => false) = true := by
  decide +kernel

/-- C26 fails for a name that consists of the sigil. -/
theorem C26_refuted_sigil : (match rename debugEnv (serverWith [] c!"u" renText) c!"u" ⟨0, 1⟩ c!"@" with | .panic => true | _ => false) = true := by
  decide +kernel

/-- C25 fails for a variable with the name of a function: renaming the variable renames the function, too. -/
theorem C25_refuted_clash :
    (match rename debugEnv (serverWith [] c!"u" c!"@a = 1\ndeclare void @a()\n") c!"u" ⟨0, 0⟩ c!"b" with | .ok (.ok e) => some e | _ => none) =
      some [(c!"u", [⟨⟨⟨1, 13⟩, ⟨1, 15⟩⟩, c!"@b"⟩, ⟨⟨⟨0, 0⟩, ⟨0, 2⟩⟩, c!"@b"⟩])] := by decide +kernel

/-- C25 fails for text that is not ASCII: the edit for `@b` replaces the last character of the comment and the line end. -/
theorem C25_refuted_nonascii :
    (match rename debugEnv (serverWith [] c!"u" c!"# é\n@b = 1\n") c!"u" ⟨1, 0⟩ c!"c" with | .ok (.ok e) => some e | _ => none) =
      some [(c!"u", [⟨⟨⟨0, 3⟩, ⟨1, 1⟩⟩, c!"@c"⟩])] := by decide +kernel

/-- C25 fails behind text that is no token: the edit replaces it, too. -/
theorem C25_refuted_garbage :
    (match rename debugEnv (serverWith [] c!"u" c!"$$@b = 1\n") c!"u" ⟨0, 2⟩ c!"c" with | .ok (.ok e) => some e | _ => none) =
      some [(c!"u", [⟨⟨⟨0, 0⟩, ⟨0, 4⟩⟩, c!"@c"⟩])] := by decide +kernel

example : Numbered c!"%v30a12" c!"%v30a" 12 := by
  refine ⟨c!"12", rfl, parseNat_iff.mp (by decide +kernel), by decide, ?_⟩
  intro c h
  simp at h
  subst h
  decide

/-- The tests in src/rename.rs. -/
example : extractNumberFromIdentifier c!"%test_1" = .ok (some (c!"%test_", 1)) := by decide +kernel
example : extractNumberFromIdentifier c!"%test991" = .ok (some (c!"%test", 991)) := by decide +kernel
example : extractNumberFromIdentifier c!"%v30" = .ok (some (c!"%v", 30)) := by decide +kernel
example : extractNumberFromIdentifier c!"%v30a12" = .ok (some (c!"%v30a", 12)) := by decide +kernel
example : extractNumberFromIdentifier c!"%v30a" = .ok none := by decide +kernel
example : extractNumberFromIdentifier c!"!123" = .ok (some (c!"!", 123)) := by decide +kernel
example : extractNumberFromIdentifier c!"123" = .ok (some (c!"", 123)) := by decide +kernel
example : extractNumberFromIdentifier c!"%test" = .ok none := by decide +kernel

/-- C29 fails if the last non-numeric character takes more than one byte. -/
theorem C29_refuted_wide : extractNumberFromIdentifier c!"%é1" = .panic := by decide +kernel

end Examples

end HyperIR
