import Verif.Proofs.Analysis
import Verif.Proofs.EditorRange

/-! The navigation requests in terms of the occurrences of the document. -/

namespace HyperIR
open Spec

theorem occurs_iff {toks : List Tok} {ss : List Statement} {o : SymbolOccurrence} : Occurs toks ss o ↔ o ∈ allOccs toks ss := by
  unfold Occurs allOccs tokenUses
  rw [List.mem_append, List.mem_filter, List.mem_filterMap, decide_eq_true_iff]
  have : (∃ o' ∈ docOccs 0 ss, SameSymbol o' o ∧ o'.span = o.span) ↔ ∃ o' ∈ docOccs 0 ss, SameKey o' o := by
    unfold SameSymbol SameKey
    grind
  rw [this]

section
variable [Unicode] {src : Str} {res : ParserResult} {ix : HIRIndex}

theorem occurs_listed (h : parseFromStr src = .ok res) (hix : createIndex src res.tokens res.stmts = .ok ix) {o : SymbolOccurrence} :
    Listed ix o ↔ Occurs res.tokens res.stmts o := by
  obtain ⟨g, hinv, hocc, _⟩ := index_inv h hix
  rw [occurs_iff, ← hocc, hinv.listed_iff]

theorem occurs_token (h : parseFromStr src = .ok res) {o : SymbolOccurrence} (ho : Occurs res.tokens res.stmts o) :
    occTok o ∈ res.tokens := allOccs_token h (occurs_iff.mp ho)

omit [Unicode] in
theorem occTok_plain (o : SymbolOccurrence) : (occTok o).1 ≠ .newline ∧ (occTok o).1 ≠ .comment := by
  unfold occTok; cases o.symbolKind <;> simp

theorem occurs_editor (h : parseFromStr src = .ok res) {o : SymbolOccurrence} (ho : Occurs res.tokens res.stmts o) :
    ∃ r, EditorRange src o.span r := by
  have := token_editor h (t := (occTok o).1) (sp := (occTok o).2) (occurs_token h ho) (occTok_plain o).1 (occTok_plain o).2
  rwa [occTok_span] at this

/-- The range of an occurrence as it is sent to the editor. -/
theorem occurs_range (h : parseFromStr src = .ok res) (hsize : src.length < 2 ^ 32) {o : SymbolOccurrence} (ho : Occurs res.tokens res.stmts o)
    (hp : PlainTo src o.span.stop) {r : Range} (hr : EditorRange src o.span r) : rangeToLsp src o.span = some r := by
  have hin := (C02_token_spans h).1 _ (occurs_token h ho)
  rw [occTok_span] at hin
  exact rangeToLsp_editor hsize (hp.mono (Nat.le_of_lt hin.1)) hp hr

theorem rangeToLsp_total (hsize : src.length < 2 ^ 32) {sp : Span} (h1 : sp.start ≤ sp.stop) (h2 : sp.stop ≤ src.length) :
    ∃ r, rangeToLsp src sp = some r := by
  have := length_le_utf8Len src
  unfold rangeToLsp
  rw [offsetToLspPos_eq (by omega) hsize, offsetToLspPos_eq (by omega) hsize]
  exact ⟨_, rfl⟩

theorem token_rangeToLsp (h : parseFromStr src = .ok res) (hsize : src.length < 2 ^ 32) {t : Tok} (ht : t ∈ res.tokens) :
    ∃ r, rangeToLsp src t.2 = some r := by
  have := (C02_token_spans h).1 t ht
  exact rangeToLsp_total hsize (Nat.le_of_lt this.1) this.2

theorem occurs_rangeToLsp (h : parseFromStr src = .ok res) (hsize : src.length < 2 ^ 32) {o : SymbolOccurrence}
    (ho : Occurs res.tokens res.stmts o) : ∃ r, rangeToLsp src o.span = some r := by
  obtain ⟨r, hr⟩ := token_rangeToLsp h hsize (occurs_token h ho)
  rw [occTok_span] at hr
  exact ⟨r, hr⟩

/-- (For the offset the server reads for the position.) The symbol found at a position. -/
theorem symbolAt_offset {doc : AnalyzedDocument} {errs} (ha : analyze src = .ok (doc, errs)) (h : parseFromStr src = .ok res)
    {p : Pos} {off : Nat} (hoff : lspPosToOffset src p = some off) :
    (∀ o, symbolAt doc p = some o → Occurs res.tokens res.stmts o ∧ Covers o.span off) ∧
    (∀ o, Occurs res.tokens res.stmts o → Covers o.span off →
      ∃ o', symbolAt doc p = some o' ∧ o'.span = o.span ∧ o'.name = o.name ∧ (¬ Shadowed res.stmts o → o' = o)) := by
  obtain ⟨res', h1, h2, _, _, _, h6⟩ := analyze_inv ha
  rw [h] at h1
  cases h1
  have hsym : symbolAt doc p = doc.index.findSymbolAtPosition off := by
    unfold symbolAt
    rw [h2, hoff]
    rfl
  obtain ⟨a, b⟩ := C18_lookup h h6 off
  rw [hsym]
  constructor
  · intro o ho
    obtain ⟨c, d⟩ := a o ho
    refine ⟨(occurs_listed h h6).mp c, ?_⟩
    simpa [Span.contains, Covers] using d
  · intro o ho hc
    have hl := (occurs_listed h h6).mpr ho
    have hc' : o.span.contains off = true := by simpa [Span.contains, Covers] using hc
    obtain ⟨o', h1, h2, h3, _⟩ := b o hl hc'
    refine ⟨o', h1, h2, h3, fun hv => ?_⟩
    rw [(C19_exact h h6 off o).mpr ⟨hl, hc', hv⟩] at h1
    cases h1
    rfl

/-- The symbol found at a position. -/
theorem symbolAt_occurs {doc : AnalyzedDocument} {errs} (ha : analyze src = .ok (doc, errs)) (h : parseFromStr src = .ok res)
    (hsize : src.length < 2 ^ 32) {p : Pos} {off : Nat} (hpos : LspOffset src p off) (hp : PlainTo src off) :
    (∀ o, symbolAt doc p = some o → Occurs res.tokens res.stmts o ∧ Covers o.span off) ∧
    (∀ o, Occurs res.tokens res.stmts o → Covers o.span off →
      ∃ o', symbolAt doc p = some o' ∧ o'.span = o.span ∧ o'.name = o.name ∧ (¬ Shadowed res.stmts o → o' = o)) :=
  symbolAt_offset ha h ((C14_positions_partial hsize).2 _ _ hpos hp).1

/-- A range is listed once for a symbol in a role. -/
theorem listed_nodup (h : parseFromStr src = .ok res) (hix : createIndex src res.tokens res.stmts = .ok ix)
    (k : SymbolKind) (f : Option Nat) (n : Str) (ud : UseDefKind) : (listed ix k f n ud).Nodup := by
  obtain ⟨g, hinv, hocc, _⟩ := index_inv h hix
  rw [hinv.tab, hocc]
  have hall := allOccs_nodup h
  have : (allOccs res.tokens res.stmts).filter (fun o => decide (IsOf k f n o ∧ o.useDef = ud)) |>.Nodup :=
    hall.sublist List.filter_sublist
  revert this
  have hall : ∀ o ∈ (allOccs res.tokens res.stmts).filter (fun o => decide (IsOf k f n o ∧ o.useDef = ud)),
      o = ⟨o.span, ud, k, n, f⟩ := by
    intro o ho
    have := (List.mem_filter.mp ho).2
    rw [decide_eq_true_iff] at this
    obtain ⟨⟨h1, h2, h3⟩, h4⟩ := this
    obtain ⟨_, _, _, _, _⟩ := o
    simp at h1 h2 h3 h4
    simp [h1, h2, h3, h4]
  revert hall
  generalize (allOccs res.tokens res.stmts).filter (fun o => decide (IsOf k f n o ∧ o.useDef = ud)) = l
  intro hall hnd
  induction l with
  | nil => simp
  | cons o l ih =>
    rw [List.map_cons, List.nodup_cons]
    rw [List.nodup_cons] at hnd
    refine ⟨?_, ih (fun o ho => hall o (by simp [ho])) hnd.2⟩
    intro hm
    obtain ⟨o', h1, h2⟩ := List.mem_map.mp hm
    apply hnd.1
    rw [hall o (by simp), ← h2, ← hall o' (by simp [h1])]
    exact h1

/-- The ranges of a symbol in a role. -/
theorem localLocations_spec (h : parseFromStr src = .ok res) (hix : createIndex src res.tokens res.stmts = .ok ix)
    (hsize : src.length < 2 ^ 32) (uri : Str) (k : SymbolKind) (f : Option Nat) (n : Str) (ud : UseDefKind)
    (hp : ∀ sp, Occurs res.tokens res.stmts ⟨sp, ud, k, n, f⟩ → PlainTo src sp.stop) :
    (∀ l, l ∈ localLocations uri src (listed ix k f n ud) ↔
      ∃ sp, Occurs res.tokens res.stmts ⟨sp, ud, k, n, f⟩ ∧ l.uri = uri ∧ EditorRange src sp l.range) ∧
    (localLocations uri src (listed ix k f n ud)).Nodup := by
  have hl : ∀ sp, sp ∈ listed ix k f n ud ↔ Occurs res.tokens res.stmts ⟨sp, ud, k, n, f⟩ := fun sp =>
    (occurs_listed (o := ⟨sp, ud, k, n, f⟩) h hix)
  have hr : ∀ sp, Occurs res.tokens res.stmts ⟨sp, ud, k, n, f⟩ → ∀ r, rangeToLsp src sp = some r ↔ EditorRange src sp r := by
    intro sp hs r
    obtain ⟨r', h'⟩ := occurs_editor h hs
    rw [occurs_range h hsize hs (hp sp hs) h']
    constructor
    · intro e; cases e; exact h'
    · intro e; rw [editorRange_unique hsize h' e]
  constructor
  · rintro ⟨u, r⟩
    unfold localLocations
    rw [List.mem_filterMap]
    constructor
    · rintro ⟨sp, h1, h2⟩
      have ho := (hl sp).mp h1
      cases h3 : rangeToLsp src sp with
      | none => rw [h3] at h2; cases h2
      | some r' =>
        rw [h3] at h2
        simp only [Option.map_some, Option.some.injEq, Location.mk.injEq] at h2
        obtain ⟨rfl, rfl⟩ := h2
        exact ⟨sp, ho, rfl, (hr sp ho r').mp h3⟩
    · rintro ⟨sp, h1, rfl, h2⟩
      refine ⟨sp, (hl sp).mpr h1, ?_⟩
      rw [(hr sp h1 r).mpr h2]
      rfl
  · have hnd := listed_nodup h hix k f n ud
    unfold localLocations
    have hocc' : ∀ sp ∈ listed ix k f n ud, ∃ r, EditorRange src sp r ∧ rangeToLsp src sp = some r := by
      intro sp hs
      obtain ⟨r, hr'⟩ := occurs_editor h ((hl sp).mp hs)
      exact ⟨r, hr', (hr sp ((hl sp).mp hs) r).mpr hr'⟩
    generalize listed ix k f n ud = l at hnd hocc'
    induction l with
    | nil => simp
    | cons sp l ih =>
      rw [List.nodup_cons] at hnd
      obtain ⟨r, h1, h1'⟩ := hocc' sp (by simp)
      rw [List.filterMap_cons, h1']
      simp only [Option.map_some, List.nodup_cons]
      refine ⟨?_, ih hnd.2 (fun sp hs => hocc' sp (by simp [hs]))⟩
      intro hm
      obtain ⟨sp', h2, h3⟩ := List.mem_filterMap.mp hm
      obtain ⟨r', h4, h4'⟩ := hocc' sp' (by simp [h2])
      rw [h4'] at h3
      simp only [Option.map_some, Option.some.injEq, Location.mk.injEq, true_and] at h3
      subst h3
      have := editorRange_inj hsize h1 h4
      subst this
      exact hnd.1 h2

/-- (For the offset the server reads for the position.) The answer to a navigation request at a symbol. -/
theorem getUseDefRanges_at {doc : AnalyzedDocument} {errs} (ha : analyze src = .ok (doc, errs)) (h : parseFromStr src = .ok res)
    (hsize : src.length < 2 ^ 32) {st : ServerState} {uri : Str} (hst : st.docs.get? uri = some doc)
    {p : Pos} {off : Nat} (hoff : lspPosToOffset src p = some off) {o : SymbolOccurrence} (ho : Occurs res.tokens res.stmts o)
    (hc : Covers o.span off) (hvis : ¬ Shadowed res.stmts o) (env : Env) (ud : UseDefKind) :
    ∃ r, rangeToLsp src o.span = some r ∧
    getUseDefRanges env st uri p ud =
      (match (if ud = .def_ then
          externalLocations env st.roots ((entry? doc.index o.symbolKind o.funcBodyId o.name).getD {}).externalDefs
        else .ok []) with
      | .panic => .panic
      | .ok ext => .ok (some (r, localLocations uri src (listed doc.index o.symbolKind o.funcBodyId o.name ud) ++ ext))) := by
  obtain ⟨res', h1, h2, _, _, _, h6⟩ := analyze_inv ha
  rw [h] at h1
  cases h1
  obtain ⟨o', h3, _, _, h4⟩ := (symbolAt_offset ha h hoff).2 o ho hc
  rw [h4 hvis] at h3
  obtain ⟨r, hr⟩ := token_rangeToLsp h hsize (occurs_token h ho)
  rw [occTok_span] at hr
  refine ⟨r, hr, ?_⟩
  have hsym : doc.index.findSymbolAtPosition off = some o := by
    have := h3
    unfold symbolAt at this
    rwa [h2, hoff] at this
  obtain ⟨hl, fb, m, u, e1, e2, e3, _⟩ := (C19_tables_agree_partial h h6).1 off o hsym
  have htab : tableOf doc.index o.symbolKind o.funcBodyId = .ok m := by
    unfold tableOf
    rw [e1]
    exact e2
  have hent : entry? doc.index o.symbolKind o.funcBodyId o.name = some u := by
    revert e1 e2 e3
    have hsc : (∃ i, o.funcBodyId = some i) ↔ (o.symbolKind = .label ∨ o.symbolKind = .localVar) :=
      ((C20_local_scope h h6).2.2.1 o hl).symm
    obtain ⟨sp, ud', k, n, f⟩ := o
    simp only at hsc ⊢
    intro e1 e2 e3
    cases f with
    | none =>
      cases e1
      cases k <;> simp at hsc <;> cases e2 <;> exact e3
    | some i =>
      simp only [HIRIndex.funcBody] at e1
      cases hb : doc.index.functionBodies[i]? with
      | none => rw [hb] at e1; cases e1
      | some b =>
        rw [hb] at e1
        cases e1
        cases k <;> simp at hsc <;> cases e2
        · simp [entry?, hb, e3]
        · simp [entry?, hb, e3]
  unfold getUseDefRanges
  simp only [hst, h3, htab, e3, hent, Option.getD_some, h2]
  rw [hr]
  have hlist : listed doc.index o.symbolKind o.funcBodyId o.name ud = u.get ud := by
    unfold listed
    rw [hent]
    rfl
  rw [hlist]
  rfl

/-- The answer to a navigation request at a symbol. -/
theorem getUseDefRanges_spec {doc : AnalyzedDocument} {errs} (ha : analyze src = .ok (doc, errs)) (h : parseFromStr src = .ok res)
    (hsize : src.length < 2 ^ 32) {st : ServerState} {uri : Str} (hst : st.docs.get? uri = some doc)
    {p : Pos} {off : Nat} (hpos : LspOffset src p off) {o : SymbolOccurrence} (ho : Occurs res.tokens res.stmts o)
    (hc : Covers o.span off) (hp : PlainTo src o.span.stop) (hvis : ¬ Shadowed res.stmts o) (env : Env) (ud : UseDefKind) :
    ∃ r, EditorRange src o.span r ∧
    getUseDefRanges env st uri p ud =
      (match (if ud = .def_ then
          externalLocations env st.roots ((entry? doc.index o.symbolKind o.funcBodyId o.name).getD {}).externalDefs
        else .ok []) with
      | .panic => .panic
      | .ok ext => .ok (some (r, localLocations uri src (listed doc.index o.symbolKind o.funcBodyId o.name ud) ++ ext))) := by
  have hp' : PlainTo src off := hp.mono (Nat.le_of_lt hc.2)
  obtain ⟨r, hr, hg⟩ := getUseDefRanges_at ha h hsize hst ((C14_positions_partial hsize).2 _ _ hpos hp').1 ho hc hvis env ud
  obtain ⟨r', hr'⟩ := occurs_editor h ho
  rw [occurs_range h hsize ho hp hr'] at hr
  cases hr
  exact ⟨r, hr', hg⟩

end
end HyperIR
