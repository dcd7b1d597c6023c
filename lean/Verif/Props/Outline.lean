import Verif.Props.Flow
import Verif.Spec.Outline
import Verif.Proofs.Numbers

/-! C42, C43: the outline and folding ranges. -/

namespace HyperIR
open Spec

theorem docOccs_global {ss : List Statement} {o : SymbolOccurrence} : ∀ (i : Nat),
    (o ∈ docOccs i ss ∧ o.symbolKind = .globalVar ↔ ∃ n ∈ docGlobals ss, o = occ .globalVar .def_ none n) := by
  induction ss with
  | nil => intro i; simp [docOccs, docGlobals]
  | cons s ss ih =>
    intro i
    rw [docOccs, List.mem_append]
    have ih := ih (i + funcCount [s])
    have hother : (∀ o ∈ stmtOccs i s, o.symbolKind ≠ .globalVar) →
        (((o ∈ stmtOccs i s ∨ o ∈ docOccs (i + funcCount [s]) ss) ∧ o.symbolKind = .globalVar) ↔
          ∃ n ∈ docGlobals ss, o = occ .globalVar .def_ none n) := by
      intro hs
      rw [← ih]
      constructor
      · rintro ⟨h1 | h1, h2⟩
        · exact absurd h2 (hs o h1)
        · exact ⟨h1, h2⟩
      · rintro ⟨h1, h2⟩
        exact ⟨.inr h1, h2⟩
    cases s with
    | globalVar n d =>
      simp only [docGlobals, stmtOccs, List.mem_cons, List.not_mem_nil, or_false]
      constructor
      · rintro ⟨rfl | h1, h2⟩
        · exact ⟨n, .inl rfl, rfl⟩
        · obtain ⟨m, hm, e⟩ := ih.mp ⟨h1, h2⟩
          exact ⟨m, .inr hm, e⟩
      · rintro ⟨m, rfl | hm, e⟩
        · exact ⟨.inl e, by rw [e]; rfl⟩
        · obtain ⟨h1, h2⟩ := ih.mpr ⟨m, hm, e⟩
          exact ⟨.inr h1, h2⟩
    | funcDecl n d e => exact hother (by simp [stmtOccs, occ])
    | dbgAnnotation n d => exact hother (by simp [stmtOccs, occ])
    | funcDependencies n d => exact hother (by simp [stmtOccs])
    | funcDef k sig body =>
      refine hother ?_
      intro o ho
      simp only [stmtOccs, funcOccs, blockOccs, instrOccs, List.mem_cons, List.mem_append, List.mem_map, List.mem_flatMap] at ho
      rcases ho with rfl | ⟨_, _, rfl⟩ | ⟨_, _, ⟨_, _, rfl⟩ | ⟨_, _, ⟨_, _, rfl⟩ | ⟨_, _, rfl⟩⟩⟩ <;> simp [occ]

/-- Labels of function number `j`. -/
theorem docOccs_label {n : Str} {j : Nat} {ss : List Statement} : ∀ (i : Nat),
    ((∃ o ∈ docOccs i ss, o.symbolKind = .label ∧ o.funcBodyId = some (i + j) ∧ o.name = n) ↔
      ∃ f, (docFuncs ss)[j]? = some f ∧ NamesLabel f.2.2 n) := by
  induction ss generalizing j with
  | nil => intro i; simp [docOccs, docFuncs]
  | cons s ss ih =>
    intro i
    simp only [docOccs, List.mem_append]
    have hother : (∀ o ∈ stmtOccs i s, o.symbolKind ≠ .label) → funcCount [s] = 0 →
        ((∃ o, (o ∈ stmtOccs i s ∨ o ∈ docOccs (i + funcCount [s]) ss) ∧ o.symbolKind = .label ∧ o.funcBodyId = some (i + j) ∧ o.name = n) ↔
          ∃ f, (docFuncs ss)[j]? = some f ∧ NamesLabel f.2.2 n) := by
      intro hs h0
      rw [h0, Nat.add_zero, ← ih i]
      constructor
      · rintro ⟨o, h1 | h1, h2⟩
        · exact absurd h2.1 (hs o h1)
        · exact ⟨o, h1, h2⟩
      · rintro ⟨o, h1, h2⟩
        exact ⟨o, .inr h1, h2⟩
    cases s with
    | globalVar n d => exact hother (by simp [stmtOccs, occ]) rfl
    | funcDecl n d e => exact hother (by simp [stmtOccs, occ]) rfl
    | dbgAnnotation n d => exact hother (by simp [stmtOccs, occ]) rfl
    | funcDependencies n d => exact hother (by simp [stmtOccs]) rfl
    | funcDef k sig body =>
      have hfc : funcCount [Statement.funcDef k sig body] = 1 := rfl
      rw [hfc]
      have hstmt : (∃ o ∈ stmtOccs i (.funcDef k sig body), o.symbolKind = .label ∧ o.name = n) ↔ NamesLabel body.basicBlocks n := by
        constructor
        · rintro ⟨o, ho, h2, h3⟩
          simp only [stmtOccs, funcOccs, blockOccs, instrOccs, List.mem_cons, List.mem_append, List.mem_map, List.mem_flatMap] at ho
          rcases ho with rfl | ⟨_, _, rfl⟩ | ⟨blk, hb, ⟨l, hl, rfl⟩ | ⟨ins, hi, ⟨_, _, rfl⟩ | ⟨r, hr, rfl⟩⟩⟩
          · cases h2
          · cases h2
          · rw [Option.mem_toList] at hl
            exact ⟨blk, hb, .inl ⟨l.2, by rw [hl, ← h3]; rfl⟩⟩
          · cases h2
          · exact ⟨blk, hb, .inr ⟨ins, hi, List.mem_map.mpr ⟨r, hr, h3⟩⟩⟩
        · rintro ⟨blk, hb, ⟨sp, hl⟩ | ⟨ins, hi, hr⟩⟩
          · refine ⟨occ .label .def_ (some i) (n, sp), ?_, rfl, rfl⟩
            simp only [stmtOccs, funcOccs, blockOccs, List.mem_cons, List.mem_append, List.mem_map, List.mem_flatMap]
            exact .inr (.inr ⟨blk, hb, .inl ⟨_, Option.mem_toList.mpr hl, rfl⟩⟩)
          · obtain ⟨r, hr', rfl⟩ := List.mem_map.mp hr
            refine ⟨occ .label .use (some i) r, ?_, rfl, rfl⟩
            simp only [stmtOccs, funcOccs, blockOccs, instrOccs, List.mem_cons, List.mem_append, List.mem_map, List.mem_flatMap]
            exact .inr (.inr ⟨blk, hb, .inr ⟨ins, hi, .inr ⟨r, hr', rfl⟩⟩⟩)
      have hid : ∀ o ∈ stmtOccs i (.funcDef k sig body), o.symbolKind = .label → o.funcBodyId = some i := by
        intro o ho h2
        simp only [stmtOccs, funcOccs, blockOccs, instrOccs, List.mem_cons, List.mem_append, List.mem_map, List.mem_flatMap] at ho
        rcases ho with rfl | ⟨_, _, rfl⟩ | ⟨_, _, ⟨_, _, rfl⟩ | ⟨_, _, ⟨_, _, rfl⟩ | ⟨_, _, rfl⟩⟩⟩ <;> first | rfl | cases h2
      have hlater : ∀ {i : Nat} {ss : List Statement}, ∀ o ∈ docOccs i ss, ∀ m, o.funcBodyId = some m → i ≤ m := by
        intro i ss
        induction ss generalizing i with
        | nil => intro o ho; cases ho
        | cons s ss ih =>
          intro o ho m hm
          rw [docOccs, List.mem_append] at ho
          rcases ho with ho | ho
          · cases s with
            | globalVar n d => simp [stmtOccs] at ho; subst ho; cases hm
            | funcDecl n d e => simp [stmtOccs] at ho; subst ho; cases hm
            | dbgAnnotation n d => simp [stmtOccs] at ho; subst ho; cases hm
            | funcDependencies n d => simp [stmtOccs] at ho
            | funcDef k sig body =>
              simp only [stmtOccs, funcOccs, blockOccs, instrOccs, List.mem_cons, List.mem_append, List.mem_map, List.mem_flatMap] at ho
              rcases ho with rfl | ⟨_, _, rfl⟩ | ⟨_, _, ⟨_, _, rfl⟩ | ⟨_, _, ⟨_, _, rfl⟩ | ⟨_, _, rfl⟩⟩⟩ <;>
                (simp only [occ, Option.some.injEq, reduceCtorEq] at hm) <;> omega
          · have := ih o ho m hm
            omega
      cases j with
      | zero =>
        simp only [docFuncs, List.getElem?_cons_zero, Option.some.injEq, exists_eq_left']
        rw [← hstmt]
        constructor
        · rintro ⟨o, h1 | h1, h2, h3, h4⟩
          · exact ⟨o, h1, h2, h4⟩
          · have := hlater o h1 _ h3
            omega
        · rintro ⟨o, h1, h2, h3⟩
          exact ⟨o, .inl h1, h2, hid o h1 h2, h3⟩
      | succ j =>
        simp only [docFuncs, List.getElem?_cons_succ]
        rw [← ih (i + 1)]
        constructor
        · rintro ⟨o, h1 | h1, h2, h3, h4⟩
          · rw [hid o h1 h2] at h3
            simp only [Option.some.injEq] at h3
            omega
          · exact ⟨o, h1, h2, by rw [h3]; congr 1; omega, h4⟩
        · rintro ⟨o, h1, h2, h3, h4⟩
          exact ⟨o, .inr h1, h2, by rw [h3]; congr 1; omega, h4⟩

section
variable [Unicode] {env : Env} {st : ServerState} {uri text : Str} {res : ParserResult}

theorem docGlobals_token (h : parseFromStr text = .ok res) {n : Spanned Str} (hn : n ∈ docGlobals res.stmts) :
    (Token.globalName n.1, n.2) ∈ res.tokens := by
  have : occ .globalVar .def_ none n ∈ docOccs 0 res.stmts := ((docOccs_global 0).mpr ⟨n, hn, rfl⟩).1
  exact occurs_token h (.inl this)

omit [Unicode] in
theorem docGlobals_sublist (ss : List Statement) : ((docGlobals ss).map globalTok).Sublist (mentions ss) := by
  induction ss with
  | nil => exact List.nil_sublist _
  | cons s ss ih =>
    rw [mentions, List.flatMap_cons]
    cases s with
    | globalVar n d => exact (List.Sublist.append (l₁ := [globalTok n]) (by simp [stmtMentions]) ih)
    | _ => exact ih.trans (List.sublist_append_right _ _)

theorem docGlobals_nodup (h : parseFromStr text = .ok res) : (docGlobals res.stmts).Nodup := by
  have := ((mentions_wellOrdered h).sublist (docGlobals_sublist _)).spans_nodup
  rw [List.map_map] at this
  exact List.Pairwise.of_map _ (fun a b hab e => hab (by rw [e])) this

theorem listed_global (h : parseFromStr text = .ok res) {ix : HIRIndex} (hix : createIndex text res.tokens res.stmts = .ok ix) {n : Str} {sp : Span} :
    sp ∈ listed ix .globalVar none n .def_ ↔ (n, sp) ∈ docGlobals res.stmts := by
  rw [listed_occurs h hix, occurs_def rfl]
  have := docOccs_global (ss := res.stmts) (o := ⟨sp, .def_, .globalVar, n, none⟩) 0
  constructor
  · intro ho
    obtain ⟨m, hm, e⟩ := this.mp ⟨ho, rfl⟩
    unfold occ at e
    simp only [SymbolOccurrence.mk.injEq] at e
    rw [show (n, sp) = m by rw [e.1, e.2.2.2.1]]
    exact hm
  · intro hm
    exact (this.mpr ⟨_, hm, rfl⟩).1

/-- The definitions listed for global variables are the definitions in the document. -/
theorem outline_names (h : parseFromStr text = .ok res) {ix : HIRIndex} (hix : createIndex text res.tokens res.stmts = .ok ix) (ord : IterOrder) :
    ((ord.run ix.globalVars).flatMap fun x => x.2.defs.map fun sp => (x.1, sp)).Perm (docGlobals res.stmts) := by
  have hdk := distinctKeys h hix
  have hentry : ∀ x ∈ ord.run ix.globalVars, x.2.defs = listed ix .globalVar none x.1 .def_ := by
    intro x hx
    have hm := (ord.perm _).mem_iff.mp hx
    have : entry? ix .globalVar none x.1 = some x.2 := StrMap.get?_of_mem hdk.globalVars hm
    exact entry_get this .def_
  have hnd : ((ord.run ix.globalVars).flatMap fun x => x.2.defs.map fun sp => (x.1, sp)).Nodup := by
    have hk := nodup_run (ord := ord) hdk.globalVars
    have hl : ∀ x ∈ ord.run ix.globalVars, x.2.defs.Nodup := fun x hx => by rw [hentry x hx]; exact listed_nodup h hix ..
    generalize ord.run ix.globalVars = xs at hk hl
    clear hentry
    induction xs with
    | nil => simp
    | cons x xs ih =>
      rw [List.map_cons, List.nodup_cons] at hk
      rw [List.flatMap_cons, List.nodup_append]
      refine ⟨?_, ih hk.2 fun y hy => hl y (by simp [hy]), ?_⟩
      · exact List.Pairwise.map _ (fun a b hab e => hab (by simpa using e)) (hl x (by simp))
      · intro a ha b hb e
        subst e
        obtain ⟨_, _, rfl⟩ := List.mem_map.mp ha
        obtain ⟨y, hy, hb⟩ := List.mem_flatMap.mp hb
        obtain ⟨_, _, e⟩ := List.mem_map.mp hb
        simp only [Prod.mk.injEq] at e
        exact hk.1 (List.mem_map.mpr ⟨y, hy, e.1⟩)
  rw [List.perm_ext_iff_of_nodup hnd (docGlobals_nodup h)]
  rintro ⟨n, sp⟩
  rw [← listed_global h hix, List.mem_flatMap]
  constructor
  · rintro ⟨x, hx, hm⟩
    obtain ⟨sp', hsp, e⟩ := List.mem_map.mp hm
    simp only [Prod.mk.injEq] at e
    rw [hentry x hx, e.1, e.2] at hsp
    exact hsp
  · intro hm
    cases hent : entry? ix .globalVar none n with
    | none => unfold listed at hm; rw [hent] at hm; cases hm
    | some u =>
      have hx : (n, u) ∈ ord.run ix.globalVars := (ord.perm _).mem_iff.mpr (StrMap.mem_of_get? hent)
      refine ⟨_, hx, List.mem_map.mpr ⟨sp, ?_, rfl⟩⟩
      have := hentry _ hx
      simp only at this ⊢
      rw [this]
      exact hm

/-- The entries of the outline, with the ranges the server computes. -/
theorem outline_entries (hopen : Opened st uri text) (h : parseFromStr text = .ok res) (hsize : text.length < 2 ^ 32) {syms : List DocumentSymbol}
    (hs : documentSymbol env st uri = some syms) :
    ∃ globals functions names, syms = globals ++ functions ∧ names.Perm (docGlobals res.stmts) ∧
      Each (fun n s => (s.name = n.1 ∧ s.kind = .constant ∧ RangeWithin s.selectionRange s.range ∧
        (PlainTo text n.2.stop → EditorRange text n.2 s.range ∧ EditorRange text n.2 s.selectionRange)) ∧
        rangeToLsp text n.2 = some s.range ∧ rangeToLsp text n.2 = some s.selectionRange) names globals ∧
      Each (fun f s => (s.name = f.1.1 ∧ s.kind = .function ∧ RangeWithin s.selectionRange s.range ∧
        (PlainTo text f.2.1.stop → EditorRange text f.2.1 s.range ∧ EditorRange text f.1.2 s.selectionRange)) ∧
        rangeToLsp text f.2.1 = some s.range ∧ rangeToLsp text f.1.2 = some s.selectionRange) (docFuncs res.stmts) functions := by
  obtain ⟨doc, hst, hr, _, hix⟩ := opened_inv hopen h
  have hdk := distinctKeys h hix
  unfold documentSymbol at hs
  rw [hst] at hs
  simp only [Option.map_some, Option.some.injEq] at hs
  refine ⟨_, _, (env.ord.run doc.index.globalVars).flatMap fun x => x.2.defs.map fun sp => (x.1, sp), hs.symm, ?_, ?_, ?_⟩
  · exact outline_names h hix env.ord
  · unfold outlineGlobals
    have hmem : ∀ x ∈ env.ord.run doc.index.globalVars, ∀ sp ∈ x.2.defs, (Token.globalName x.1, sp) ∈ res.tokens := by
      intro x hx sp hsp
      have hm := (env.ord.perm _).mem_iff.mp hx
      have : entry? doc.index .globalVar none x.1 = some x.2 := StrMap.get?_of_mem hdk.globalVars hm
      have := entry_get this .def_
      simp only [UseDefList.get] at this
      rw [this] at hsp
      exact docGlobals_token h ((listed_global h hix).mp hsp)
    generalize env.ord.run doc.index.globalVars = xs at hmem
    induction xs with
    | nil => exact .nil
    | cons x xs ih =>
      have ih := ih fun y hy => hmem y (by simp [hy])
      rw [List.flatMap_cons, List.flatMap_cons]
      have hx := hmem x (by simp)
      generalize x.2.defs = ds at hx
      induction ds with
      | nil => exact ih
      | cons sp ds ihd =>
        have htok := hx sp (by simp)
        obtain ⟨r, hr1, hr2⟩ := tokens_range h hsize htok htok (by simp) (by simp) (Nat.le_of_lt ((C02_token_spans h).1 _ htok).1)
        rw [show (⟨(Token.globalName x.1, sp).2.start, (Token.globalName x.1, sp).2.stop⟩ : Span) = sp from rfl] at hr1 hr2
        rw [List.filterMap_cons, hr, hr1]
        refine .cons ⟨⟨rfl, rfl, ⟨?_, ?_⟩, fun hp => ⟨hr2 hp, hr2 hp⟩⟩, hr1, hr1⟩ ?_
        · exact .inr ⟨rfl, Nat.le_refl _⟩
        · exact .inr ⟨rfl, Nat.le_refl _⟩
        · rw [hr] at ihd
          exact ihd fun y hy => hx y (by simp [hy])
  · unfold outlineFunctions
    rw [← bodies_eq h hix, hr]
    refine Each.map_left _ (each_filterMap_total ?_)
    intro fb hfb
    have hf := bodies_mem h hix hfb
    obtain ⟨n1, ⟨k, hk, k1, k2⟩, c, hc, c1, c2⟩ := func_tokens h hf
    obtain ⟨r, hr1, hr2⟩ := func_name_range h hsize hf
    have i1 := (C02_token_spans h).1 _ n1
    have i2 := (C02_token_spans h).1 _ hk
    have i3 := (C02_token_spans h).1 _ hc
    simp only [Inside] at i1 i2 i3
    simp only at k1 k2 c1 c2
    obtain ⟨q, hq1, hq2⟩ := tokens_range h hsize hk hc (by simp) (by simp) (by simp only; omega)
    simp only at hr1 hr2 hq1 hq2
    rw [← k1, ← c1] at hq1 hq2
    have hlen := length_le_utf8Len text
    obtain ⟨q', hq', _, hmono⟩ := C15_ranges hsize fb.completeRange (by omega) (by omega)
    rw [show (⟨fb.completeRange.start, fb.completeRange.stop⟩ : Span) = fb.completeRange from rfl] at hq1 hq2
    rw [hq1] at hq'
    cases hq'
    obtain ⟨m1, m2, _⟩ := hmono fb.name.2 r hr1
    simp only [hq1, hr1, Option.map_some]
    exact ⟨_, rfl, ⟨rfl, rfl, ⟨m1 (by omega), m2 (by omega)⟩, fun hp => ⟨hq2 hp, hr2 (hp.mono (by omega))⟩⟩, rfl, rfl⟩

/-- C42: the outline has exactly one entry per global variable definition and exactly one per function definition (functions in source
order); the entry of a function covers the definition from `define` to the closing bracket, and in each entry the selected range is the
defined name, which lies inside the entry's range. -/
theorem C42_outline (hopen : Opened st uri text) (h : parseFromStr text = .ok res) (hsize : text.length < 2 ^ 32) {syms : List DocumentSymbol}
    (hs : documentSymbol env st uri = some syms) :
    ∃ globals functions names, syms = globals ++ functions ∧ names.Perm (docGlobals res.stmts) ∧
      Each (fun n s => s.name = n.1 ∧ s.kind = .constant ∧ RangeWithin s.selectionRange s.range ∧
        (PlainTo text n.2.stop → EditorRange text n.2 s.range ∧ EditorRange text n.2 s.selectionRange)) names globals ∧
      Each (fun f s => s.name = f.1.1 ∧ s.kind = .function ∧ RangeWithin s.selectionRange s.range ∧
        (PlainTo text f.2.1.stop → EditorRange text f.2.1 s.range ∧ EditorRange text f.1.2 s.selectionRange)) (docFuncs res.stmts) functions := by
  obtain ⟨gs, fs, names, h1, h2, h3, h4⟩ := outline_entries hopen h hsize hs
  exact ⟨gs, fs, names, h1, h2, Each.imp h3 fun _ _ _ _ h => h.1, Each.imp h4 fun _ _ _ _ h => h.1⟩

/-! ### Folding -/

theorem foldOf_spec (hsize : text.length < 2 ^ 32) {sp : Span} (h1 : sp.start ≤ sp.stop) (h2 : sp.stop ≤ text.length)
    (he : PlainTo text sp.stop → ∀ r, rangeToLsp text sp = some r → EditorRange text sp r) (label : Str) :
    ∃ fold, foldOf text sp label = some fold ∧ FoldsLines text sp fold ∧ fold.collapsedText = label ∧
      ∀ sp' label' fold', foldOf text sp' label' = some fold' →
        (sp.start ≤ sp'.start → fold.startLine ≤ fold'.startLine) ∧ (sp'.stop ≤ sp.stop → fold'.endLine ≤ fold.endLine) := by
  have hlen := length_le_utf8Len text
  obtain ⟨r, hr, hle, hmono⟩ := C15_ranges hsize sp h1 (by omega)
  unfold foldOf
  refine ⟨_, by rw [hr]; rfl, ⟨?_, ?_⟩, rfl, ?_⟩
  · rcases hle with hle | ⟨hle, _⟩ <;> simp only <;> omega
  · intro hp
    exact ⟨r, he hp r hr, rfl, rfl⟩
  · intro sp' label' fold' h'
    rw [Option.map_eq_some_iff] at h'
    obtain ⟨r', hr', rfl⟩ := h'
    obtain ⟨m1, m2, _⟩ := hmono sp' r' hr'
    constructor
    · intro hs
      rcases m1 hs with h | ⟨h, _⟩ <;> simp only <;> omega
    · intro hs
      rcases m2 hs with h | ⟨h, _⟩ <;> simp only <;> omega

/-- The names in the table of labels. -/
theorem labels_names (h : parseFromStr text = .ok res) {ix : HIRIndex} (hix : createIndex text res.tokens res.stmts = .ok ix) {fb : FunctionBody}
    (hfb : fb ∈ ix.functionBodies) : (fb.labels.map Prod.fst).Nodup ∧ ∀ n, n ∈ fb.labels.map Prod.fst ↔ NamesLabel fb.basicBlocks n := by
  obtain ⟨g, hinv, hocc, _⟩ := index_inv h hix
  have hnd : (fb.labels.map Prod.fst).Nodup := (hinv.nodup.bodies fb hfb).1
  refine ⟨hnd, ?_⟩
  intro n
  obtain ⟨j, hj, rfl⟩ := List.mem_iff_getElem.mp hfb
  have hj' : ix.functionBodies[j]? = some ix.functionBodies[j] := List.getElem?_eq_getElem hj
  have hkeys := hinv.keys .label (some j) n
  unfold entry? at hkeys
  simp only [hj', Option.bind_some] at hkeys
  rw [StrMap.get?_isSome] at hkeys
  have hdoc := docOccs_label (n := n) (j := j) (ss := res.stmts) 0
  have hfun : (docFuncs res.stmts)[j]? = some (ix.functionBodies[j].name, ix.functionBodies[j].completeRange, ix.functionBodies[j].basicBlocks) := by
    rw [← bodies_eq h hix, List.getElem?_map, hj']
    rfl
  rw [hfun] at hdoc
  simp only [Option.some.injEq, exists_eq_left', Nat.zero_add] at hdoc
  rw [hkeys, ← hdoc, hocc]
  constructor
  · rintro ⟨o, ho, hk⟩
    rcases occurs_iff.mpr ho with ho | ⟨⟨t, _, ht⟩, _⟩
    · exact ⟨o, ho, hk.1, hk.2.1, hk.2.2⟩
    · exfalso
      have hk1 := hk.1
      unfold tokenUse at ht
      split at ht
      · cases ht
        revert hk1
        simp only [occ]
        split <;> simp
      · cases ht; cases hk1
      · rw [Option.map_eq_some_iff] at ht
        obtain ⟨_, _, rfl⟩ := ht
        cases hk1
      · cases ht
  · rintro ⟨o, ho, h1, h2, h3⟩
    exact ⟨o, occurs_iff.mp (.inl ho), h1, h2, h3⟩

omit [Unicode] in
theorem tidy_count {blocks : List BasicBlock} (ht : Tidy blocks) {names : List Str} (hn : names.Nodup)
    (hm : ∀ n, n ∈ names ↔ NamesLabel blocks n) : names.length = blocks.length := by
  obtain ⟨labels, h1, h2, h3⟩ := ht
  have hlen : blocks.length = labels.length := by
    have := congrArg List.length h1
    simpa using this
  rw [hlen, ← List.length_map (as := labels) Prod.fst]
  refine List.Perm.length_eq ((List.perm_ext_iff_of_nodup hn h2).mpr ?_)
  intro n
  rw [hm]
  refine ⟨h3 n, ?_⟩
  intro hl'
  obtain ⟨l, hl, rfl⟩ := List.mem_map.mp hl'
  have : some l ∈ blocks.map BasicBlock.label := by rw [h1]; exact List.mem_map.mpr ⟨l, hl, rfl⟩
  obtain ⟨blk, hb, e⟩ := List.mem_map.mp this
  exact ⟨blk, hb, .inl ⟨l.2, e⟩⟩

omit [Unicode] in
theorem each_of_total {α β γ : Type} {R : α → β → Prop} (f : γ → α) {P : γ → β → Prop} : ∀ {l : List γ}, (∀ x ∈ l, ∃ y, P x y ∧ R (f x) y) →
    ∃ ys, Each R (l.map f) ys ∧ Each P l ys
  | [], _ => ⟨[], .nil, .nil⟩
  | x :: l, h => by
    obtain ⟨y, h1, h2⟩ := h x (by simp)
    obtain ⟨ys, h3, h4⟩ := each_of_total (l := l) (R := R) f (P := P) fun z hz => h z (by simp [hz])
    exact ⟨y :: ys, .cons h2 h3, .cons h1 h4⟩

/-- C43, except for the number of basic blocks stated for functions: there is exactly one folding range per function definition and one
per basic block, in source order; each covers the lines of the function (from `define` to the closing bracket) or block, its start line
is not after its end line, and a block's lines lie inside its function's.  The text of a block states the number of its instructions.
The text of a function states the number of names that label a block or are named by instructions as blocks; that is the number of basic
blocks if every block has a label of its own and only such labels are named.
Missing: that the text of every function states the number of its basic blocks (see `C43_refuted_unlabelled`, `C43_refuted_undefined`). -/
theorem C43_folding_partial (hopen : Opened st uri text) (h : parseFromStr text = .ok res) (hsize : text.length < 2 ^ 32)
    {folds : List FoldingRange} (hf : foldingRange st uri = some folds) :
    ∃ per : List (FoldingRange × List FoldingRange), folds = per.map Prod.fst ++ per.flatMap Prod.snd ∧
      Each (fun f p => FoldsLines text f.2.1 p.1 ∧
        (∃ names : List Str, names.Nodup ∧ (∀ n, n ∈ names ↔ NamesLabel f.2.2 n) ∧ Counts p.1.collapsedText c!"basic blocks" names.length) ∧
        (Tidy f.2.2 → Counts p.1.collapsedText c!"basic blocks" f.2.2.length) ∧
        Each (fun blk fold => FoldsLines text blk.span fold ∧ Counts fold.collapsedText c!"instructions" blk.instructions.length ∧
          p.1.startLine ≤ fold.startLine ∧ fold.endLine ≤ p.1.endLine) f.2.2 p.2) (docFuncs res.stmts) per := by
  obtain ⟨doc, hst, hr, _, hix⟩ := opened_inv hopen h
  unfold foldingRange at hf
  rw [hst] at hf
  simp only [Option.map_some, Option.some.injEq] at hf
  subst hf
  rw [← bodies_eq h hix]
  unfold foldsOf
  rw [hr]
  let P : FunctionBody → FoldingRange × List FoldingRange → Prop := fun fb p =>
    foldOf text fb.completeRange (showNat fb.labels.length ++ c!" basic blocks") = some p.1 ∧
    fb.basicBlocks.filterMap (fun bb => foldOf text bb.span (showNat bb.instructions.length ++ c!" instructions")) = p.2
  have hmain := each_of_total (l := doc.index.functionBodies) (fun b => (b.name, b.completeRange, b.basicBlocks)) (P := P)
    (R := fun f p => FoldsLines text f.2.1 p.1 ∧
        (∃ names : List Str, names.Nodup ∧ (∀ n, n ∈ names ↔ NamesLabel f.2.2 n) ∧ Counts p.1.collapsedText c!"basic blocks" names.length) ∧
        (Tidy f.2.2 → Counts p.1.collapsedText c!"basic blocks" f.2.2.length) ∧
        Each (fun blk fold => FoldsLines text blk.span fold ∧ Counts fold.collapsedText c!"instructions" blk.instructions.length ∧
          p.1.startLine ≤ fold.startLine ∧ fold.endLine ≤ p.1.endLine) f.2.2 p.2) (by
      intro fb hfb
      have hfd := bodies_mem h hix hfb
      obtain ⟨n1, ⟨k, hk, k1, k2⟩, c, hc, c1, c2⟩ := func_tokens h hfd
      have i1 := (C02_token_spans h).1 _ n1
      have i2 := (C02_token_spans h).1 _ hk
      have i3 := (C02_token_spans h).1 _ hc
      simp only [Inside] at i1 i2 i3
      simp only at k1 k2 c1 c2
      obtain ⟨fold, e1, e2, e3, e4⟩ := foldOf_spec hsize (sp := fb.completeRange) (by omega) (by omega) (by
        intro hp r hrr
        obtain ⟨q, hq1, hq2⟩ := tokens_range h hsize hk hc (by simp) (by simp) (by simp only; omega)
        simp only at hq1 hq2
        rw [← k1, ← c1] at hq1 hq2
        rw [show (⟨fb.completeRange.start, fb.completeRange.stop⟩ : Span) = fb.completeRange from rfl] at hq1 hq2
        rw [hrr] at hq1
        cases hq1
        exact hq2 hp) (showNat fb.labels.length ++ c!" basic blocks")
      obtain ⟨l1, l2⟩ := labels_names h hix hfb
      refine ⟨(fold, _), ⟨e1, rfl⟩, e2, ⟨_, l1, l2, showNat fb.labels.length, e3, ?_⟩, ?_, ?_⟩
      · rw [List.length_map]
        exact showNat_canonical _
      · intro ht
        refine ⟨showNat fb.labels.length, e3, ?_⟩
        rw [← tidy_count ht l1 l2, List.length_map]
        exact showNat_canonical _
      · refine each_filterMap_total ?_
        intro blk hblk
        obtain ⟨kw, sig, body, hd, e⟩ := docFuncs_mem hfd
        simp only [Prod.mk.injEq] at e
        have hblk' : blk ∈ body.basicBlocks := by rw [← e.2.2]; exact hblk
        obtain ⟨hends, t', ht', ht'c, ht's⟩ := block_tokens h hd hblk'
        obtain ⟨t, ht, htn, hts⟩ := hends.start
        have hord := ((C08_source_order h).2.2 _ _ _ hd)
        have hin := hord.1.blocks_inside blk hblk'
        have hne := (hord.1.blocks blk hblk').nonempty
        have hlast := (C02_token_spans h).1 _ ht'
        have hname := hord.2 (globalTok sig.name) (by simp [sigMentions])
        have hob := (C02_token_spans h).1 _ (C07_tree_mentions_tokens h _ hd (Token.punct '{', body.openingBracket) (by simp [stmtMentions, bodyMentions])).1
        have hcb := (C02_token_spans h).1 _ (C07_tree_mentions_tokens h _ hd (Token.punct '}', body.closingBracket) (by simp [stmtMentions, bodyMentions])).1
        have hkb := (C02_token_spans h).1 _ (C07_tree_mentions_tokens h _ hd (Token.define, kw) (by simp [stmtMentions])).1
        have hnb := (C02_token_spans h).1 _ (C07_tree_mentions_tokens h _ hd (globalTok sig.name) (by simp [stmtMentions, sigMentions])).1
        simp only [Inside] at hlast hob hcb hkb hnb
        obtain ⟨bf, b1, b2, b3, _⟩ := foldOf_spec hsize (sp := blk.span) (by omega) (by omega) (by
          intro hp r hrr
          obtain ⟨q, hq1, hq2⟩ := tokens_range h hsize ht ht' htn ht'c (by omega)
          rw [← hts, ← ht's] at hq1 hq2
          rw [show (⟨blk.span.start, blk.span.stop⟩ : Span) = blk.span from rfl] at hq1 hq2
          rw [hrr] at hq1
          cases hq1
          exact hq2 hp) (showNat blk.instructions.length ++ c!" instructions")
        obtain ⟨m1, m2⟩ := e4 _ _ _ b1
        refine ⟨bf, b1, b2, ⟨_, b3, showNat_canonical _⟩, m1 ?_, m2 ?_⟩
        · rw [e.2.1]
          simp only
          omega
        · rw [e.2.1]
          simp only
          omega)
  obtain ⟨per, hR, hP⟩ := hmain
  refine ⟨per, ?_, hR⟩
  clear hR
  generalize doc.index.functionBodies = fbs at hP
  congr 1
  · induction hP with
    | nil => rfl
    | cons hp _ ih => rw [List.filterMap_cons, hp.1, List.map_cons, ih]
  · induction hP with
    | nil => rfl
    | cons hp _ ih => rw [List.flatMap_cons, List.filterMap_append, hp.2, List.flatMap_cons, ih]

end

/-! ### Examples -/

section
attribute [local instance] asciiUnicode

example : documentSymbol debugEnv (serverWith [] c!"u" diagText) c!"u" = some
    [{ name := c!"@a", kind := .constant, range := ⟨⟨0, 0⟩, ⟨0, 2⟩⟩, selectionRange := ⟨⟨0, 0⟩, ⟨0, 2⟩⟩ },
     { name := c!"@a", kind := .constant, range := ⟨⟨1, 0⟩, ⟨1, 2⟩⟩, selectionRange := ⟨⟨1, 0⟩, ⟨1, 2⟩⟩ },
     { name := c!"@g", kind := .function, range := ⟨⟨2, 0⟩, ⟨6, 1⟩⟩, selectionRange := ⟨⟨2, 12⟩, ⟨2, 14⟩⟩ }] := by
  decide +kernel

example : Opened (serverWith [] c!"u" diagText) c!"u" diagText := serverWith_opened (by decide +kernel)

/-- The first function is tidy; in the second one the only block has no label, and no block is counted. -/
theorem C43_refuted_unlabelled : foldingRange (serverWith [] c!"u" flowText) c!"u" = some
    [{ startLine := 0, endLine := 7, collapsedText := c!"3 basic blocks" },
     { startLine := 8, endLine := 10, collapsedText := c!"0 basic blocks" },
     { startLine := 1, endLine := 2, collapsedText := c!"1 instructions" },
     { startLine := 3, endLine := 4, collapsedText := c!"1 instructions" },
     { startLine := 5, endLine := 6, collapsedText := c!"1 instructions" },
     { startLine := 9, endLine := 9, collapsedText := c!"1 instructions" }] := by
  decide +kernel

/-- A branch to a block that does not exist is counted as a block. -/
theorem C43_refuted_undefined : foldingRange (serverWith [] c!"u" c!"define void @f() {\nx:\n br y\n}\n") c!"u" = some
    [{ startLine := 0, endLine := 3, collapsedText := c!"2 basic blocks" },
     { startLine := 1, endLine := 2, collapsedText := c!"1 instructions" }] := by
  decide +kernel

end

end HyperIR
