import Verif.Spec.Agreement
import Verif.Props.Index
import Verif.Props.Rename
import Verif.Props.Flow
import Verif.Props.Below
import Verif.Props.Outline
import Verif.Props.Diagnostics
import Verif.Props.Navigation

/-
C73–C75: the answers about one document agree with each other.
-/

namespace HyperIR

open Spec

section
variable [Unicode] {text : Str} {res : ParserResult} {st : ServerState} {uri : Str}

/-- The symbol found at a position, its entry and its range. -/
theorem symbolAt_entry {doc : AnalyzedDocument} (h : parseFromStr text = .ok res)
    (hix : createIndex text res.tokens res.stmts = .ok doc.index) (hsize : text.length < 2 ^ 32)
    {p : Pos} {o : SymbolOccurrence} (hs : symbolAt doc p = some o) :
    Occurs res.tokens res.stmts o ∧ ∃ m u r, tableOf doc.index o.symbolKind o.funcBodyId = .ok m ∧ m.get? o.name = some u ∧
      o.span ∈ u.get o.useDef ∧ rangeToLsp text o.span = some r := by
  unfold symbolAt at hs
  cases hoff : lspPosToOffset doc.rope p with
  | none => rw [hoff] at hs; cases hs
  | some off =>
    rw [hoff] at hs
    obtain ⟨hl, fb, m, u, h1, h2, h3, h4⟩ := (C19_tables_agree_partial h hix).1 off o hs
    have ho := (occurs_listed h hix).mp hl
    obtain ⟨r, hr⟩ := occurs_rangeToLsp h hsize ho
    exact ⟨ho, m, u, r, by unfold tableOf; rw [h1]; exact h2, h3, h4, hr⟩

omit [Unicode] in
theorem localLocations_ranges (uri text : Str) (sps : List Span) :
    (localLocations uri text sps).map Location.range = sps.filterMap (rangeToLsp text) := by
  unfold localLocations
  rw [List.map_filterMap]
  congr 1
  funext sp
  cases rangeToLsp text sp <;> rfl

omit [Unicode] in
theorem localLocations_uri {uri text : Str} {sps : List Span} : ∀ l ∈ localLocations uri text sps, l.uri = uri := by
  intro l hl
  unfold localLocations at hl
  obtain ⟨sp, _, h⟩ := List.mem_filterMap.mp hl
  cases hr : rangeToLsp text sp with
  | none => rw [hr] at h; cases h
  | some r => rw [hr] at h; cases h; rfl

/-- C73: at a position without a symbol, rename and navigation have no answer.  At a position with a symbol, whose range the editor is
told when it prepares a rename, the references, the declarations and the definitions are found; that range is one of theirs, and the
links lead from it; and every rename to a new name edits exactly the ranges of the references, of the declarations and of the
definitions in the document, and puts the same text everywhere.  (Definitions in other files, to which links lead, are not edited.) -/
theorem C73_rename_navigation (hopen : Opened st uri text) (hsize : text.length < 2 ^ 32) (env : Env) (p : Pos) :
    (prepareRename st uri p = none →
      references env st uri p = .ok none ∧ gotoDeclaration env st uri p = .ok none ∧ gotoDefinition env st uri p = .ok none ∧
      ∀ name, rename env st uri p name = .ok (.error (.invalidParams c!"No symbol at the given position"))) ∧
    (∀ r, prepareRename st uri p = some r → ∃ refs decls defs : List Location,
      references env st uri p = .ok (some refs) ∧
      gotoDeclaration env st uri p = .ok (some (decls.map fun l => ⟨r, l⟩)) ∧
      (gotoDefinition env st uri p = .panic ∨
        ∃ elsewhere, gotoDefinition env st uri p = .ok (some ((defs ++ elsewhere).map fun l => ⟨r, l⟩)) ∧
          ∀ l ∈ elsewhere, LineStart l.range) ∧
      (∀ l ∈ refs ++ decls ++ defs, l.uri = uri) ∧ r ∈ (refs ++ decls ++ defs).map Location.range ∧
      ∀ name e, name.head? ≠ some '+' → name.head? ≠ some '-' → rename env st uri p name = .ok (.ok e) →
        ∃ edits new, e = [(uri, edits)] ∧ (∀ x ∈ edits, x.newText = new) ∧
          (edits.map TextEdit.range).Perm ((refs ++ decls ++ defs).map Location.range)) := by
  obtain ⟨doc, errs, ha, hst⟩ := hopen
  obtain ⟨res, h, hrope, _, _, _, hix⟩ := analyze_inv ha
  cases hs : symbolAt doc p with
  | none =>
    constructor
    · intro _
      simp [references, gotoDeclaration, gotoDefinition, getUseDefRanges, rename, hst, hs]
    · intro r hr
      simp [prepareRename, hst, hs] at hr
  | some o =>
    obtain ⟨ho, m, u, r, h1, h2, h3, h4⟩ := symbolAt_entry h hix hsize hs
    have hprep : prepareRename st uri p = some r := by simp [prepareRename, hst, hs, hrope, h4]
    constructor
    · intro hn; rw [hprep] at hn; cases hn
    · intro r' hr'
      rw [hprep] at hr'
      cases hr'
      refine ⟨localLocations uri text u.uses, localLocations uri text u.decls, localLocations uri text u.defs, ?_, ?_, ?_, ?_, ?_, ?_⟩
      · simp [references, getUseDefRanges, hst, hs, h1, h2, hrope, h4, UseDefList.get]
      · simp [gotoDeclaration, getUseDefRanges, hst, hs, h1, h2, hrope, h4, UseDefList.get, toLinks]
      · cases he : externalLocations env st.roots u.externalDefs with
        | panic => left; simp [gotoDefinition, getUseDefRanges, hst, hs, h1, h2, he]
        | ok ext =>
          right
          refine ⟨ext, ?_, externalLocations_points he⟩
          simp [gotoDefinition, getUseDefRanges, hst, hs, h1, h2, hrope, h4, UseDefList.get, toLinks, he]
      · intro l hl
        simp only [List.mem_append] at hl
        rcases hl with (hl | hl) | hl <;> exact localLocations_uri l hl
      · simp only [List.map_append, localLocations_ranges, List.mem_append, List.mem_filterMap]
        cases hk : o.useDef <;> rw [hk] at h3 <;> simp only [UseDefList.get] at h3
        · exact .inl (.inr ⟨_, h3, h4⟩)
        · exact .inr ⟨_, h3, h4⟩
        · exact .inl (.inl ⟨_, h3, h4⟩)
      · intro name e hplus hminus he
        have habs : renameEdits env doc o name = absoluteRename doc o name := by
          unfold renameEdits
          split
          · simp at hplus
          · simp at hminus
          · rfl
        simp only [rename, hst, hs, habs, absoluteRename, h1, h2] at he
        cases hc : checkNewName o.symbolKind name with
        | panic => simp [hc] at he
        | ok x =>
          cases x with
          | error e => simp [hc] at he
          | ok new =>
            simp only [hc, Outcome.ok.injEq, Except.ok.injEq] at he
            refine ⟨_, new, he.symm, ?_, ?_⟩
            · intro x hx
              unfold getRenameEdits at hx
              obtain ⟨sp, _, hx⟩ := List.mem_filterMap.mp hx
              cases hr : rangeToLsp doc.rope sp with
              | none => rw [hr] at hx; cases hx
              | some r => rw [hr] at hx; cases hx; rfl
            · have : (getRenameEdits doc.rope u new).map TextEdit.range = (u.decls ++ u.defs ++ u.uses).filterMap (rangeToLsp text) := by
                unfold getRenameEdits
                rw [List.map_filterMap, hrope]
                congr 1
                funext sp
                cases rangeToLsp text sp <;> rfl
              rw [this]
              simp only [List.map_append, localLocations_ranges, List.filterMap_append]
              exact (List.perm_append_comm).trans (by rw [List.append_assoc])

/-! ### The views of a function -/

/-- The table lists as definitions of a function what the function bodies say. -/
theorem defs_bodies {doc : AnalyzedDocument} (h : parseFromStr text = .ok res)
    (hix : createIndex text res.tokens res.stmts = .ok doc.index) (n : Str) :
    (listed doc.index .function none n .def_).Perm
      ((doc.index.functionBodies.filter fun f => decide (f.name.1 = n)).map fun f => f.name.2) := by
  have hmem : ∀ sp, sp ∈ listed doc.index .function none n .def_ ↔
      sp ∈ (doc.index.functionBodies.filter fun f => decide (f.name.1 = n)).map fun f => f.name.2 := by
    intro sp
    rw [listed_func h hix, ← bodies_eq h hix]
    simp only [List.mem_map, List.mem_filter, decide_eq_true_eq]
    constructor
    · rintro ⟨_, ⟨fb, hfb, rfl⟩, e⟩
      simp only at e
      exact ⟨fb, ⟨hfb, by rw [e]⟩, by rw [e]⟩
    · rintro ⟨fb, ⟨hfb, e⟩, rfl⟩
      exact ⟨_, ⟨fb, hfb, rfl⟩, by rw [← e]⟩
  refine (List.perm_ext_iff_of_nodup (listed_nodup h hix ..) ?_).mpr hmem
  have hd := docFuncs_disjoint (mentions_wellOrdered h)
  have hin : ∀ g ∈ docFuncs res.stmts, g.2.1.start ≤ g.1.2.start ∧ g.1.2.start < g.2.1.stop := by
    intro g hg
    obtain ⟨h1, ⟨k, hk, e1, e2⟩, c, hc, e3, e4⟩ := func_tokens h hg
    have i1 := (C02_token_spans h).1 _ h1
    have i2 := (C02_token_spans h).1 _ hk
    have i3 := (C02_token_spans h).1 _ hc
    simp only [Inside] at i1 i2 i3
    omega
  rw [← bodies_eq h hix] at hd hin
  rw [List.pairwise_map] at hd
  unfold List.Nodup
  rw [List.pairwise_map]
  refine List.Pairwise.imp_of_mem ?_ (hd.sublist List.filter_sublist)
  intro a b ha hb hab e
  have h1 := hin _ (List.mem_map.mpr ⟨a, (List.mem_filter.mp ha).1, rfl⟩)
  have h2 := hin _ (List.mem_map.mpr ⟨b, (List.mem_filter.mp hb).1, rfl⟩)
  simp only at hab h1 h2
  rw [e] at h1
  omega

/-- The ranges of a function definition exist. -/
theorem body_ranges {doc : AnalyzedDocument} (h : parseFromStr text = .ok res)
    (hix : createIndex text res.tokens res.stmts = .ok doc.index) (hsize : text.length < 2 ^ 32) {fb : FunctionBody}
    (hfb : fb ∈ doc.index.functionBodies) :
    ∃ q r, rangeToLsp text fb.completeRange = some q ∧ offsetToLspPos text fb.completeRange.stop = some q.stop ∧
      rangeToLsp text fb.name.2 = some r := by
  have hf := bodies_mem h hix hfb
  obtain ⟨n1, ⟨k, hk, k1, k2⟩, c, hc, c1, c2⟩ := func_tokens h hf
  obtain ⟨r, hr1, _⟩ := func_name_range h hsize hf
  have i1 := (C02_token_spans h).1 _ n1
  have i2 := (C02_token_spans h).1 _ hk
  have i3 := (C02_token_spans h).1 _ hc
  simp only [Inside] at i1 i2 i3
  simp only at k1 k2 c1 c2
  obtain ⟨q, hq1, _⟩ := tokens_range h hsize hk hc (by simp) (by simp) (by simp only; omega)
  simp only at k1 c1 hr1 hq1
  rw [← k1, ← c1] at hq1
  refine ⟨q, r, hq1, ?_, hr1⟩
  unfold rangeToLsp at hq1
  split at hq1 <;> first | (cases hq1; done) | skip
  all_goals
    try (split at hq1 <;> first | (cases hq1; done) | skip)
    try (simp only [Option.some.injEq] at hq1; subst hq1)
    try assumption

omit [Unicode] in
theorem filterMap_total {α β : Type} {F : α → Option β} {G : α → β} {l : List α} (h : ∀ x ∈ l, F x = some (G x)) :
    l.filterMap F = l.map G := by
  induction l with
  | nil => rfl
  | cons x l ih => rw [List.filterMap_cons, h x (by simp), List.map_cons, ih fun y hy => h y (by simp [hy])]

/-- C74: the outline, the folding ranges, the hints at the ends of functions and the code lenses of a document show the same functions:
the first folding ranges cover the lines of the functions in the outline, in order; the last hints stand at their ends, in order, show
their names and link to them; and there is one lens for each function in the outline that shares its name with no other, at its name
and with its name as argument. -/
theorem C74_function_views (hopen : Opened st uri text) (hsize : text.length < 2 ^ 32) (env : Env) :
    ∃ constants functions functionFolds blockFolds lenses,
      documentSymbol env st uri = some (constants ++ functions) ∧
      (∀ s ∈ constants, s.kind = .constant) ∧ (∀ s ∈ functions, s.kind = .function) ∧
      foldingRange st uri = some (functionFolds ++ blockFolds) ∧ Each FoldsEntry functions functionFolds ∧
      (∀ hints, inlayHint env st uri = .ok (some hints) → ∃ others ends, hints = others ++ ends ∧ Each (EndsEntry uri) functions ends) ∧
      codeLens env st uri = some lenses ∧ lenses.Nodup ∧
      (∀ lens, lens ∈ lenses ↔ ∃ s, functions.filter (fun s' => decide (s'.name = s.name)) = [s] ∧ LensOf uri s lens) := by
  obtain ⟨doc, errs, ha, hst⟩ := hopen
  obtain ⟨res, h, hrope, _, _, _, hix⟩ := analyze_inv ha
  have hranges := fun fb hfb => body_ranges (fb := fb) h hix hsize hfb
  have hdk := distinctKeys h hix
  let q : FunctionBody → Range := fun fb => (rangeToLsp text fb.completeRange).getD ⟨⟨0, 0⟩, ⟨0, 0⟩⟩
  let r : FunctionBody → Range := fun fb => (rangeToLsp text fb.name.2).getD ⟨⟨0, 0⟩, ⟨0, 0⟩⟩
  have hq : ∀ fb ∈ doc.index.functionBodies, rangeToLsp text fb.completeRange = some (q fb) ∧
      offsetToLspPos text fb.completeRange.stop = some (q fb).stop ∧ rangeToLsp text fb.name.2 = some (r fb) := by
    intro fb hfb
    obtain ⟨q', r', h1, h2, h3⟩ := hranges fb hfb
    refine ⟨?_, ?_, ?_⟩ <;> simp [q, r, h1, h2, h3]
  let F : FunctionBody → DocumentSymbol := fun fb => { name := fb.name.1, kind := .function, range := q fb, selectionRange := r fb }
  have hF : outlineFunctions doc = doc.index.functionBodies.map F := by
    unfold outlineFunctions
    rw [hrope]
    apply filterMap_total
    intro fb hfb
    obtain ⟨h1, _, h3⟩ := hq fb hfb
    simp [h1, h3, F]
  refine ⟨outlineGlobals env.ord doc, outlineFunctions doc, _, _, _, by unfold documentSymbol; rw [hst]; rfl, ?_, ?_,
    by unfold foldingRange; rw [hst]; rfl, ?_, ?_, by unfold codeLens; rw [hst]; rfl, ?_, ?_⟩
  · intro s hs
    unfold outlineGlobals at hs
    obtain ⟨x, _, hs⟩ := List.mem_flatMap.mp hs
    obtain ⟨sp, _, hs⟩ := List.mem_filterMap.mp hs
    rw [Option.map_eq_some_iff] at hs
    obtain ⟨_, _, rfl⟩ := hs
    rfl
  · intro s hs
    rw [hF] at hs
    obtain ⟨_, _, rfl⟩ := List.mem_map.mp hs
    rfl
  · rw [hF, filterMap_total (G := fun f => ⟨(q f).start.line, (q f).stop.line, showNat f.labels.length ++ c!" basic blocks"⟩)]
    · exact each_map _ _ fun _ _ => ⟨rfl, rfl⟩
    · intro fb hfb
      unfold foldOf
      rw [hrope, (hq fb hfb).1]
      rfl
  · intro hints hh
    unfold inlayHint at hh
    rw [hst] at hh
    simp only at hh
    split at hh
    · cases hh
    · cases hh
      refine ⟨_, _, rfl, ?_⟩
      unfold endHints
      rw [hF, filterMap_total (G := fun f => ⟨(q f).stop, [{ value := f.name.1, location := some { uri := uri, range := r f } }]⟩)]
      · exact each_map _ _ fun _ _ => ⟨rfl, rfl⟩
      · intro fb hfb
        rw [hrope, (hq fb hfb).2.1]
        simp only [(hq fb hfb).2.2, Option.map_some]
  · have hnd := nodup_run (ord := env.ord) hdk.functions
    show ((env.ord.run doc.index.functions).filterMap (codeLensOf uri doc.rope)).Nodup
    generalize env.ord.run doc.index.functions = xs at hnd
    have hone : ∀ x : Str × UseDefList, ∀ lens, codeLensOf uri doc.rope x = some lens → lens.arguments = [.str uri, .str x.1] := by
      intro x lens hl
      unfold codeLensOf at hl
      split at hl
      · rw [Option.map_eq_some_iff] at hl
        obtain ⟨_, _, rfl⟩ := hl
        rfl
      · cases hl
    induction xs with
    | nil => simp
    | cons x xs ih =>
      rw [List.map_cons, List.nodup_cons] at hnd
      rw [List.filterMap_cons]
      split
      · exact ih hnd.2
      · rename_i lens hl
        rw [List.nodup_cons]
        refine ⟨?_, ih hnd.2⟩
        intro hm
        obtain ⟨y, hy, hl'⟩ := List.mem_filterMap.mp hm
        have e := (hone x lens hl).symm.trans (hone y lens hl')
        simp only [List.cons.injEq, Json.str.injEq, true_and, and_true] at e
        exact hnd.1 (List.mem_map.mpr ⟨y, hy, e.symm⟩)
  · intro lens
    have hentry : ∀ x, x ∈ env.ord.run doc.index.functions ↔ doc.index.functions.get? x.1 = some x.2 := by
      intro x
      rw [(env.ord.perm _).mem_iff]
      exact ⟨StrMap.get?_of_mem hdk.functions, StrMap.mem_of_get?⟩
    have hfilter : ∀ n, (doc.index.functionBodies.map F).filter (fun s' => decide (s'.name = n)) =
        (doc.index.functionBodies.filter fun f => decide (f.name.1 = n)).map F := by
      intro n
      rw [List.filter_map]
      rfl
    have hdefs : ∀ n u, doc.index.functions.get? n = some u → u.defs = listed doc.index .function none n .def_ := by
      intro n u hu
      exact entry_get (k := .function) (f := none) hu .def_
    show lens ∈ (env.ord.run doc.index.functions).filterMap (codeLensOf uri doc.rope) ↔ _
    rw [List.mem_filterMap, hF]
    constructor
    · rintro ⟨⟨n, u⟩, hx, hl⟩
      rw [hentry] at hx
      unfold codeLensOf at hl
      split at hl
      · rename_i sp hd
        simp only at hd hx hl
        rw [hdefs n u hx] at hd
        have hp := defs_bodies h hix n
        rw [hd] at hp
        have hp := List.perm_singleton.mp hp.symm
        obtain ⟨fb, hfb⟩ : ∃ fb, (doc.index.functionBodies.filter fun f => decide (f.name.1 = n)) = [fb] := by
          generalize (doc.index.functionBodies.filter fun f => decide (f.name.1 = n)) = l at hp
          match l, hp with
          | [fb], _ => exact ⟨fb, rfl⟩
        have hm : fb ∈ doc.index.functionBodies.filter fun f => decide (f.name.1 = n) := by rw [hfb]; simp
        obtain ⟨hm, hn⟩ := List.mem_filter.mp hm
        simp only [decide_eq_true_eq] at hn
        rw [hfb] at hp
        simp only [List.map_cons, List.map_nil, List.cons.injEq, and_true] at hp
        rw [hrope, ← hp, (hq fb hm).2.2] at hl
        simp only [Option.map_some, Option.some.injEq] at hl
        subst hl
        refine ⟨F fb, ?_, rfl, rfl, ?_⟩
        · rw [hfilter, show (F fb).name = n from hn, hfb]
          rfl
        · rw [show (F fb).name = n from hn]
      · cases hl
    · rintro ⟨s, hs, l1, l2, l3⟩
      rw [hfilter] at hs
      obtain ⟨fb, hfb, rfl⟩ : ∃ fb, (doc.index.functionBodies.filter fun f => decide (f.name.1 = s.name)) = [fb] ∧ F fb = s := by
        generalize (doc.index.functionBodies.filter fun f => decide (f.name.1 = s.name)) = l at hs
        match l, hs with
        | [fb], hs => exact ⟨fb, rfl, by simpa using hs⟩
      have hm : fb ∈ doc.index.functionBodies.filter fun f => decide (f.name.1 = (F fb).name) := by rw [hfb]; simp
      obtain ⟨hm, _⟩ := List.mem_filter.mp hm
      have hp := defs_bodies h hix fb.name.1
      rw [show (F fb).name = fb.name.1 from rfl] at hfb
      rw [hfb] at hp
      have hp := List.perm_singleton.mp hp
      have hin : fb.name.2 ∈ listed doc.index .function none fb.name.1 .def_ := by rw [hp]; simp
      cases hent : doc.index.functions.get? fb.name.1 with
      | none =>
        have : listed doc.index .function none fb.name.1 .def_ = [] := by
          unfold listed entry?
          rw [hent]
          rfl
        rw [this] at hin
        cases hin
      | some u =>
        refine ⟨(fb.name.1, u), (hentry _).mpr hent, ?_⟩
        have hd := hdefs _ _ hent
        rw [hp] at hd
        unfold codeLensOf
        simp only [hd, hrope, (hq fb hm).2.2, Option.map_some, Option.some.injEq]
        obtain ⟨lr, lc, la⟩ := lens
        simp only at l1 l2 l3
        rw [l1, l2, l3]

/-! ### Duplicate definitions -/

/-- What `gotoDefinition` answers, in terms of the entry of the symbol. -/
theorem gotoDefinition_entry {doc : AnalyzedDocument} (h : parseFromStr text = .ok res)
    (hix : createIndex text res.tokens res.stmts = .ok doc.index) (hrope : doc.rope = text) (hsize : text.length < 2 ^ 32)
    (hst : st.docs.get? uri = some doc) (env : Env) {p : Pos} {o : SymbolOccurrence} (hs : symbolAt doc p = some o) :
    ∃ u r, entry? doc.index o.symbolKind o.funcBodyId o.name = some u ∧
      (gotoDefinition env st uri p = .panic ∨
        ∃ elsewhere, gotoDefinition env st uri p = .ok (some ((localLocations uri text u.defs ++ elsewhere).map fun l => ⟨r, l⟩)) ∧
          ∀ l ∈ elsewhere, LineStart l.range) := by
  obtain ⟨ho, m, u, r, h1, h2, h3, h4⟩ := symbolAt_entry h hix hsize hs
  obtain ⟨m', h1', hget, _⟩ := occurs_table h hix ho
  rw [h1] at h1'
  cases h1'
  refine ⟨u, r, by rw [← hget, h2], ?_⟩
  cases he : externalLocations env st.roots u.externalDefs with
  | panic => left; simp [gotoDefinition, getUseDefRanges, hst, hs, h1, h2, he]
  | ok ext =>
    right
    refine ⟨ext, ?_, externalLocations_points he⟩
    simp [gotoDefinition, getUseDefRanges, hst, hs, h1, h2, hrope, h4, UseDefList.get, toLinks, he]

/-- C75, from navigation to the problems: when several definitions in the document are found, every one but the first is reported as
a duplicate, with a reference to the first. -/
theorem C75_navigation_reported (hopen : Opened st uri text) (hsize : text.length < 2 ^ 32)
    {env env₀ : Env} {st₀ st₁ : ServerState} {v : Int} {pub : Publish} (hpub : onChange env₀ st₀ uri v text = .ok (st₁, pub))
    {p : Pos} {first : LocationLink} {rest : List LocationLink} (hdef : gotoDefinition env st uri p = .ok (some (first :: rest))) :
    ∀ l ∈ rest, ¬ LineStart l.target.range →
      ∃ d ∈ pub.diagnostics, c!"Symbol `" <+: d.message ∧ d.range = l.target.range ∧ ∃ msg, d.related = [(first.target, msg)] := by
  obtain ⟨doc, errs, ha, hst⟩ := hopen
  obtain ⟨res, h, hrope, _, _, _, hix⟩ := analyze_inv ha
  obtain ⟨ix, hix', hd⟩ := publish_inv h hpub
  rw [hix] at hix'
  cases hix'
  cases hs : symbolAt doc p with
  | none => simp [gotoDefinition, getUseDefRanges, hst, hs] at hdef
  | some o =>
    obtain ⟨u, r, hent, hg | ⟨ext, hg, hext⟩⟩ := gotoDefinition_entry h hix hrope hsize hst env hs
    · rw [hg] at hdef; cases hdef
    · rw [hg] at hdef
      simp only [Outcome.ok.injEq, Option.some.injEq] at hdef
      have hrange : ∀ sp ∈ u.defs, ∃ q, rangeToLsp text sp = some q := by
        intro sp hsp
        have := entry_get hent .def_
        simp only [UseDefList.get] at this
        rw [this] at hsp
        exact occurs_rangeToLsp h hsize ((listed_occurs h hix).mp hsp)
      intro l hl hls
      cases hdefs : u.defs with
      | nil =>
        exfalso
        rw [hdefs] at hdef
        have hm : l ∈ ((localLocations uri text [] ++ ext).map fun l => (⟨r, l⟩ : LocationLink)) := by rw [hdef]; simp [hl]
        obtain ⟨l', hl', rfl⟩ := List.mem_map.mp hm
        exact hls (hext _ (by simpa [localLocations] using hl'))
      | cons sp0 sps =>
        rw [hdefs] at hdef hrange
        obtain ⟨r0, hr0⟩ := hrange sp0 (by simp)
        rw [show localLocations uri text (sp0 :: sps) = ⟨uri, r0⟩ :: localLocations uri text sps by
          unfold localLocations; rw [List.filterMap_cons, hr0]; rfl] at hdef
        rw [List.cons_append, List.map_cons, List.cons.injEq] at hdef
        obtain ⟨rfl, rfl⟩ := hdef
        obtain ⟨l', hl', rfl⟩ := List.mem_map.mp hl
        rcases List.mem_append.mp hl' with hl' | hl'
        · unfold localLocations at hl'
          obtain ⟨sp, hsp, hl'⟩ := List.mem_filterMap.mp hl'
          rw [Option.map_eq_some_iff] at hl'
          obtain ⟨q, hq, rfl⟩ := hl'
          refine ⟨{ range := q, message := duplicateMessage o.name, related := [(⟨uri, r0⟩, c!"Previously defined here")] }, ?_, ?_, rfl,
            _, rfl⟩
          · rw [hd, List.mem_append]
            right
            rw [(diagnosticsFromIndex_perm ..).mem_iff, List.mem_append]
            right
            refine List.mem_map.mpr ⟨(⟨sp, .def_, o.symbolKind, o.name, o.funcBodyId⟩, _), List.mem_flatMap.mpr
              ⟨((o.symbolKind, o.funcBodyId, o.name), u), (mem_entries (distinctKeys h hix)).mpr hent, ?_⟩, rfl⟩
            unfold dupOf
            simp only [hdefs]
            refine List.mem_filterMap.mpr ⟨sp, hsp, ?_⟩
            simp [dupDiag, hr0, hq]
          · exact ⟨o.name ++ c!"` already defined previously", by simp [duplicateMessage]⟩
        · exact absurd (hext _ hl') hls

/-- C75, from the problems to navigation: at a definition that is reported as a duplicate, the definitions of the symbol are found; the
first is the one that the report refers to, and the reported one is among the others. -/
theorem C75_reported_navigation (hopen : Opened st uri text) (h : parseFromStr text = .ok res) (hsize : text.length < 2 ^ 32) {env env₀ : Env} {st₀ st₁ : ServerState} {v : Int} {pub : Publish}
    (hpub : onChange env₀ st₀ uri v text = .ok (st₁, pub)) {d : Diagnostic} (hd : d ∈ pub.diagnostics) (hdup : c!"Symbol `" <+: d.message)
    (hp : ∀ o, Redefinition res.tokens res.stmts o → d.message = c!"Symbol `" ++ o.name ++ c!"` already defined previously" → PlainTo text o.span.stop)
    (hamb : ∀ n, d.message = c!"Symbol `" ++ n ++ c!"` already defined previously" → ¬ Ambiguous res.stmts n) :
    gotoDefinition env st uri d.range.start = .panic ∨
    ∃ first rest, gotoDefinition env st uri d.range.start = .ok (some (first :: rest)) ∧ first.target.range ≠ d.range ∧
      (∃ msg, d.related = [(first.target, msg)]) ∧ ∃ l ∈ rest, l.target = ⟨uri, d.range⟩ := by
  have hopen' := hopen
  obtain ⟨doc, errs, ha, hst⟩ := hopen
  obtain ⟨res', h', hrope, _, _, _, hix⟩ := analyze_inv ha
  rw [h] at h'
  cases h'
  obtain ⟨reports, others, hperm, hothers, _, hP, hsays⟩ := C39_duplicates hsize h hpub
  have hm := hperm.mem_iff.mp hd
  rcases List.mem_append.mp hm with hm | hm
  · obtain ⟨⟨o, d'⟩, hrep, rfl⟩ := List.mem_map.mp hm
    obtain ⟨hmsg, hr, first, r0, msg, hfirst, hr0, hrel⟩ := hsays _ hrep
    have hred : Redefinition res.tokens res.stmts o := (hP o).mp (List.mem_map.mpr ⟨_, hrep, rfl⟩)
    simp only at hmsg hr hrel hamb hdup hp ⊢
    have hp := hp o hred hmsg
    have hq := hr hp
    have hp0 : PlainTo text first.span.stop := by
      refine hp.mono ?_
      have t1 := occurs_token h hred.1
      have t2 := occurs_token h hfirst.1.1
      have hle := hfirst.2 o hred.1 ⟨rfl, rfl, rfl⟩ hred.2.1
      have i1 := (C02_token_spans h).1 _ t1
      by_cases he : occTok o = occTok first
      · have := congrArg Prod.snd he
        rw [occTok_span, occTok_span] at this
        rw [this]
        exact Nat.le_refl _
      · have := wellOrdered_apart (tokens_wellOrdered h) t1 t2 he
        rw [occTok_span, occTok_span] at this
        rw [occTok_span] at i1
        simp only [Inside] at i1
        omega
    have hp1 : PlainTo text first.span.start := by
      have := (C02_token_spans h).1 _ (occurs_token h hfirst.1.1)
      rw [occTok_span] at this
      exact hp0.mono (Nat.le_of_lt this.1)
    have hq0 := hr0 hp0
    have hcov : Covers o.span o.span.start := by
      have := (C02_token_spans h).1 _ (occurs_token h hred.1)
      rw [occTok_span] at this
      exact ⟨Nat.le_refl _, this.1⟩
    obtain ⟨o', hs, _, _, ho'⟩ := (symbolAt_occurs ha h hsize hq.1 (hp.mono (Nat.le_of_lt hcov.2))).2 o hred.1 hcov
    obtain rfl := ho' (visible_of_clear hred.1 (hamb _ hmsg))
    obtain ⟨u, r, hent, hg | ⟨ext, hg, hext⟩⟩ := gotoDefinition_entry h hix hrope hsize hst env hs
    · exact .inl hg
    · right
      have hdefs := entry_get hent .def_
      simp only [UseDefList.get] at hdefs
      have hord := listed_defs_order h hix o'.symbolKind o'.funcBodyId o'.name
      have hmem : ∀ sp, sp ∈ u.defs ↔ Occurs res.tokens res.stmts ⟨sp, .def_, o'.symbolKind, o'.name, o'.funcBodyId⟩ := by
        intro sp
        rw [hdefs]
        exact listed_occurs h hix
      rw [← hdefs] at hord
      obtain ⟨sp, ud, k, n, f⟩ := o'
      obtain ⟨sp0, ud0, k0, n0, f0⟩ := first
      obtain ⟨⟨hf1, ⟨e1, e2, e3⟩, e4⟩, hf2⟩ := hfirst
      have hud := hred.2.1
      simp only at e1 e2 e3 e4 hud hmem hmsg hq hq0 hf2
      subst e1 e2 e3 e4 hud
      have hin := (hmem _).mpr hred.1
      have hin0 := (hmem _).mpr hf1
      have hne : sp ≠ sp0 := by
        rintro rfl
        exact hred.2.2 ⟨⟨hred.1, ⟨rfl, rfl, rfl⟩, rfl⟩, hf2⟩
      cases hl : u.defs with
      | nil => rw [hl] at hin; cases hin
      | cons sp1 sps =>
        rw [hl] at hin hin0 hord hg hmem
        rw [List.pairwise_cons] at hord
        have he : sp0 = sp1 := by
          rcases List.mem_cons.mp hin0 with he | he
          · exact he
          · have h1 := hord.1 _ he
            have h2 := hf2 _ ((hmem sp1).mp (by simp)) ⟨rfl, rfl, rfl⟩ rfl
            simp only at h2
            omega
        subst he
        have hr0' := rangeToLsp_editor hsize hp1 hp0 hq0
        have hr' := rangeToLsp_editor hsize (hp.mono (Nat.le_of_lt hcov.2)) hp hq
        have hin : sp ∈ sps := by simpa [hne] using hin
        rw [show localLocations uri text (sp0 :: sps) = ⟨uri, r0⟩ :: localLocations uri text sps by
          unfold localLocations; rw [List.filterMap_cons, hr0']; rfl, List.cons_append, List.map_cons] at hg
        refine ⟨_, _, hg, ?_, ⟨msg, hrel⟩, ⟨r, ⟨uri, d'.range⟩⟩, ?_, rfl⟩
        · intro e
          simp only at e
          have h1 := hord.1 _ hin
          have h2 := hq0.1
          rw [e] at h2
          have := ((C14_positions_partial hsize).2 _ _ h2 hp1).1
          rw [((C14_positions_partial hsize).2 _ _ hq.1 (hp.mono (Nat.le_of_lt hcov.2))).1] at this
          simp only [Option.some.injEq] at this
          omega
        · refine List.mem_map.mpr ⟨_, List.mem_append.mpr (.inl ?_), rfl⟩
          unfold localLocations
          exact List.mem_filterMap.mpr ⟨sp, hin, by rw [hr']; rfl⟩
  · exact absurd hdup (hothers _ hm)

end

/-! ### Examples and refutations -/

section Examples
attribute [local instance] asciiUnicode

/-- A document with two labels `x` and two functions `@h`. -/
def agreeText : Str :=
  c!"define void @f() {\nx:\n br x\nx:\n ret\n}\n@g = 1\ndefine void @h() {\n}\ndefine void @h() {\n}\n"

example : Opened (serverWith [] c!"u" agreeText) c!"u" agreeText := serverWith_opened (by decide +kernel)
example : Plain agreeText ∧ agreeText.length < 2 ^ 32 := by decide +kernel

/-- C73 at the reference to `x`: there are one reference and two definitions, and three edits. -/
example : prepareRename (serverWith [] c!"u" agreeText) c!"u" ⟨2, 4⟩ = some ⟨⟨2, 4⟩, ⟨2, 5⟩⟩ ∧
    references debugEnv (serverWith [] c!"u" agreeText) c!"u" ⟨2, 4⟩ = .ok (some [⟨c!"u", ⟨⟨2, 4⟩, ⟨2, 5⟩⟩⟩]) ∧
    gotoDeclaration debugEnv (serverWith [] c!"u" agreeText) c!"u" ⟨2, 4⟩ = .ok (some []) ∧
    gotoDefinition debugEnv (serverWith [] c!"u" agreeText) c!"u" ⟨2, 4⟩ =
      .ok (some [⟨⟨⟨2, 4⟩, ⟨2, 5⟩⟩, ⟨c!"u", ⟨⟨1, 0⟩, ⟨1, 1⟩⟩⟩⟩, ⟨⟨⟨2, 4⟩, ⟨2, 5⟩⟩, ⟨c!"u", ⟨⟨3, 0⟩, ⟨3, 1⟩⟩⟩⟩]) ∧
    (match rename debugEnv (serverWith [] c!"u" agreeText) c!"u" ⟨2, 4⟩ c!"y" with | .ok (.ok e) => some e | _ => none) =
      some [(c!"u", [⟨⟨⟨1, 0⟩, ⟨1, 1⟩⟩, c!"y"⟩, ⟨⟨⟨3, 0⟩, ⟨3, 1⟩⟩, c!"y"⟩, ⟨⟨⟨2, 4⟩, ⟨2, 5⟩⟩, c!"y"⟩])] := by
  refine ⟨?_, ?_, ?_, ?_, ?_⟩ <;> decide +kernel

/-- At a position without a symbol there is no answer. -/
example : prepareRename (serverWith [] c!"u" agreeText) c!"u" ⟨2, 1⟩ = none := by decide +kernel

/-- C74: three functions, of which one has a lens. -/
example : (documentSymbol debugEnv (serverWith [] c!"u" agreeText) c!"u").map (·.map fun s => (s.name, s.range)) =
      some [(c!"@g", ⟨⟨6, 0⟩, ⟨6, 2⟩⟩), (c!"@f", ⟨⟨0, 0⟩, ⟨5, 1⟩⟩), (c!"@h", ⟨⟨7, 0⟩, ⟨8, 1⟩⟩), (c!"@h", ⟨⟨9, 0⟩, ⟨10, 1⟩⟩)] ∧
    (foldingRange (serverWith [] c!"u" agreeText) c!"u").map (·.map fun f => (f.startLine, f.endLine)) =
      some [(0, 5), (7, 8), (9, 10), (1, 2), (3, 4)] ∧
    (inlayHint debugEnv (serverWith [] c!"u" agreeText) c!"u").map' (·.map (·.map fun h => h.position)) =
      .ok (some [⟨1, 2⟩, ⟨3, 2⟩, ⟨5, 1⟩, ⟨8, 1⟩, ⟨10, 1⟩]) ∧
    (codeLens debugEnv (serverWith [] c!"u" agreeText) c!"u").map (·.map fun l => l.range) = some [⟨⟨0, 12⟩, ⟨0, 14⟩⟩] := by
  refine ⟨?_, ?_, ?_, ?_⟩ <;> decide +kernel

/-- The ranges of the published problems and the places they refer to. -/
def reportedAt (text : Str) : Option (List (Range × List Range)) :=
  match onChange debugEnv {} c!"u" 1 text with
  | .ok (_, pub) => some (pub.diagnostics.map fun d => (d.range, d.related.map fun l => l.1.range))
  | .panic => none

/-- C75: the second `x` and the second `@h` are reported, with references to the first ones. -/
example : reportedAt agreeText =
    some [(⟨⟨9, 12⟩, ⟨9, 14⟩⟩, [⟨⟨7, 12⟩, ⟨7, 14⟩⟩]), (⟨⟨3, 0⟩, ⟨3, 1⟩⟩, [⟨⟨1, 0⟩, ⟨1, 1⟩⟩])] := by
  decide +kernel

/-- C75 without the condition on names fails: the second definition of the variable `@a` is reported, but as `@a` is a function too,
no definition is found there. -/
theorem C75_refuted_clash :
    reportedAt c!"@a = 1\n@a = 2\ndeclare void @a()\n" = some [(⟨⟨1, 0⟩, ⟨1, 2⟩⟩, [⟨⟨0, 0⟩, ⟨0, 2⟩⟩])] ∧
    gotoDefinition debugEnv (serverWith [] c!"u" c!"@a = 1\n@a = 2\ndeclare void @a()\n") c!"u" ⟨1, 0⟩ = .ok (some []) := by
  constructor <;> decide +kernel

end Examples

end HyperIR
