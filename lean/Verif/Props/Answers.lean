import Verif.Proofs.Answers

/-! C94: exactly what the server answers to the requests about a symbol. -/

namespace HyperIR
open Spec

section
variable [Unicode] {env : Env} {st st' : ServerState} {uri text : Str} {res : ParserResult}

theorem edited_of_raw (hsize : text.length < 2 ^ 32) {chs : List (SymbolOccurrence × Str)} {edits : List TextEdit} (h : RawEdits text chs edits) :
    Edited text chs edits := by
  unfold RawEdits at h
  unfold Edited
  induction h with
  | nil => exact .nil
  | cons h1 _ ih => exact .cons ⟨h1.1, (rangeToLsp_shown hsize).mp h1.2⟩ ih

/-- The edits that renumber symbols. -/
theorem getShiftEdits_renumbered {ix : HIRIndex} (h : parseFromStr text = .ok res) (hix : createIndex text res.tokens res.stmts = .ok ix)
    (hsize : text.length < 2 ^ 32) {k f} {start shift : Int} {edits : List TextEdit}
    (hok : getShiftEdits env.ord env.build text ix k f start shift = .ok edits) : Renumbered text res k f start shift edits := by
  have hlen : (docFuncs res.stmts).length = ix.functionBodies.length := by
    rw [← (C20_local_scope h hix).1, List.length_map]
  have hno : ¬ ((∃ i, f = some i ∧ (docFuncs res.stmts).length ≤ i) ∨ (f = none ∧ (k = .label ∨ k = .localVar)) ∨
      CannotShift env res k f start shift) := by
    rw [← getShiftEdits_panic_iff h hix (rope := text), hok]
    nofun
  obtain ⟨f', hk, hf, heq, hsame⟩ : ∃ f', ((k = .label ∨ k = .localVar) ↔ ∃ i, f' = some i) ∧ (∀ i, f' = some i → i < ix.functionBodies.length) ∧
      getShiftEdits env.ord env.build text ix k f start shift = getShiftEdits env.ord env.build text ix k f' start shift ∧
      (k = .label ∨ k = .localVar → f' = f) := by
    cases f with
    | none =>
      refine ⟨none, ?_, (fun i hi => nomatch hi), rfl, fun _ => rfl⟩
      simp only [reduceCtorEq, exists_false, iff_false]
      exact fun hk => hno (.inr (.inl ⟨rfl, hk⟩))
    | some i =>
      have hi : i < ix.functionBodies.length := by
        have : ¬ (docFuncs res.stmts).length ≤ i := fun hle => hno (.inl ⟨i, rfl, hle⟩)
        omega
      by_cases hk : k = .label ∨ k = .localVar
      · exact ⟨some i, by simp [hk], by simp; exact hi, rfl, fun _ => rfl⟩
      · refine ⟨none, by simp [hk], (fun i hi => nomatch hi), ?_, fun h => absurd h hk⟩
        cases k <;> simp at hk <;> simp [getShiftEdits, HIRIndex.funcBody, HIRIndex.getBySymbolKind, List.getElem?_eq_getElem hi]
  rw [heq] at hok
  obtain ⟨chs, h1, h2, h3⟩ := getShiftEdits_raw h hix hsize hk hf hok
  refine ⟨chs, edited_of_raw hsize h1, h2, fun o new => ?_⟩
  rw [h3]
  constructor
  · rintro ⟨ho, rfl, rfl, pre, nr, s, e1, e2, e3, e4⟩
    exact ⟨ho, rfl, hsame, pre, nr, _, e1, e2, (numberText_iff e3).mpr rfl, e4⟩
  · rintro ⟨ho, rfl, hfb, pre, nr, w, e1, e2, e3, e4⟩
    have hf' : o.funcBodyId = f' := by
      by_cases hl : o.symbolKind = .label ∨ o.symbolKind = .localVar
      · rw [hfb hl, hsame hl]
      · have h1 := (occurs_scope h hix ho).1
        cases f' with
        | some i => exact absurd (hk.mpr ⟨i, rfl⟩) hl
        | none =>
          cases hb : o.funcBodyId with
          | none => rfl
          | some i => exact absurd (h1.mpr ⟨i, hb⟩) hl
    refine ⟨ho, rfl, hf', pre, nr, ?_⟩
    cases hop : i64Op env.build (nr + shift) with
    | panic =>
      obtain ⟨hb, hn⟩ := i64Op_panic_iff.mp hop
      exact absurd (.inr (.inr ⟨o, ho, rfl, hfb, .inr ⟨hb, pre, nr, e1, e2, hn⟩⟩)) hno
    | ok s => exact ⟨s, e1, e2, rfl, by rw [e4, (numberText_iff hop).mp e3]⟩

/-- Occurrences in a role, as listed. -/
theorem lists_role {ix : HIRIndex} (h : parseFromStr text = .ok res) (hix : createIndex text res.tokens res.stmts = .ok ix) (o : SymbolOccurrence)
    (ud : UseDefKind) : Lists res (fun o' => SameSymbol o' o ∧ o'.useDef = ud)
      ((listed ix o.symbolKind o.funcBodyId o.name ud).map fun sp => ⟨sp, ud, o.symbolKind, o.name, o.funcBodyId⟩) := by
  refine ⟨List.Pairwise.map _ (fun a b hab e => hab (by simpa using e)) (listed_nodup h hix _ _ _ ud), fun o' => ?_⟩
  rw [List.mem_map]
  constructor
  · rintro ⟨sp, h1, rfl⟩
    exact ⟨(listed_occurs h hix).mp h1, ⟨rfl, rfl, rfl⟩, rfl⟩
  · obtain ⟨sp, ud', k, n, f⟩ := o'
    rintro ⟨h1, ⟨e1, e2, e3⟩, e4⟩
    simp only at e1 e2 e3 e4
    subst e1 e2 e3 e4
    exact ⟨sp, (listed_occurs h hix).mpr h1, rfl⟩

omit [Unicode] in
theorem docOccs_use {ss : List Statement} : ∀ {i : Nat}, ∀ o ∈ docOccs i ss, o.useDef = .use → o.symbolKind = .label := by
  induction ss with
  | nil => intro i o ho; cases ho
  | cons s ss ih =>
    intro i o ho hu
    rw [docOccs] at ho
    rcases List.mem_append.mp ho with h | h
    · cases s with
      | funcDef kw sig body =>
        simp only [stmtOccs, List.mem_cons] at h
        rcases h with rfl | h
        · cases hu
        · simp only [funcOccs, blockOccs, instrOccs, List.mem_append, List.mem_flatMap, List.mem_map] at h
          rcases h with ⟨_, _, rfl⟩ | ⟨_, _, ⟨_, _, rfl⟩ | ⟨_, _, ⟨_, _, rfl⟩ | ⟨_, _, rfl⟩⟩⟩ <;> first | rfl | cases hu
      | globalVar => simp [stmtOccs] at h; subst h; cases hu
      | funcDecl => simp [stmtOccs] at h; subst h; cases hu
      | funcDependencies => simp [stmtOccs] at h
      | dbgAnnotation => simp [stmtOccs] at h; subst h; cases hu
    · exact ih o h hu

omit [Unicode] in
theorem tokenUse_span {isFn : Str → Bool} {at_ : Nat → Option Nat} {t : Tok} {o : SymbolOccurrence} (h : tokenUse isFn at_ t = some o) : o.span = t.2 := by
  obtain ⟨t, sp⟩ := t
  cases t <;> simp only [tokenUse] at h <;> try (cases h; done)
  case globalName => cases h; rfl
  case debugRef => cases h; rfl
  case localName =>
    obtain ⟨_, _, rfl⟩ := Option.map_eq_some_iff.mp h
    rfl

/-- What the index lists in a role is in the order of the text. -/
theorem listed_inOrder {ix : HIRIndex} (h : parseFromStr text = .ok res) (hix : createIndex text res.tokens res.stmts = .ok ix)
    (k : SymbolKind) (f : Option Nat) (n : Str) (ud : UseDefKind) : InOrder (listed ix k f n ud) := by
  obtain ⟨g, hinv, hocc, _⟩ := index_inv h hix
  rw [hinv.tab, hocc, allOccs, List.filter_append, List.map_append]
  have hdoc : InOrder ((docOccs 0 res.stmts).map (·.span)) := by
    have := ((tokens_wellOrdered h).sublist (((docOccs_sublist 0 res.stmts).trans (mentions_sublist h)).trans List.filter_sublist)).1
    simpa only [List.map_map, Function.comp_def, occTok_span] using this
  have htok : InOrder ((tokenUses res.tokens res.stmts).map (·.span)) := by
    have h1 := (tokens_wellOrdered h).1
    unfold InOrder at h1 ⊢
    rw [List.pairwise_map] at h1 ⊢
    refine List.Pairwise.filter _ (List.Pairwise.filterMap _ ?_ h1)
    intro a b hab x hx y hy
    rw [tokenUse_span hx, tokenUse_span hy]
    exact hab
  have hkind : ∀ o ∈ docOccs 0 res.stmts, o.useDef = .use → o.symbolKind = .label := docOccs_use
  have huse : ∀ o ∈ tokenUses res.tokens res.stmts, o.useDef = .use ∧ o.symbolKind ≠ .label := by
    intro o ho
    obtain ⟨t, _, ht⟩ := List.mem_filterMap.mp (List.mem_filter.mp ho).1
    obtain ⟨t, sp⟩ := t
    cases t <;> simp only [tokenUse] at ht <;> try (cases ht; done)
    case globalName => cases ht; simp only [occ]; split <;> simp
    case debugRef => cases ht; simp [occ]
    case localName =>
      obtain ⟨_, _, rfl⟩ := Option.map_eq_some_iff.mp ht
      simp [occ]
  by_cases hcase : ud = .use ∧ k ≠ .label
  · have e : (docOccs 0 res.stmts).filter (fun o => decide (IsOf k f n o ∧ o.useDef = ud)) = [] := by
      rw [List.filter_eq_nil_iff]
      intro o ho hp
      simp only [decide_eq_true_eq] at hp
      exact hcase.2 (hp.1.1.symm.trans (hkind o ho (hp.2.trans hcase.1)))
    rw [e]
    exact htok.sublist (List.filter_sublist.map _)
  · have e : (tokenUses res.tokens res.stmts).filter (fun o => decide (IsOf k f n o ∧ o.useDef = ud)) = [] := by
      rw [List.filter_eq_nil_iff]
      intro o ho hp
      simp only [decide_eq_true_eq] at hp
      refine hcase ⟨hp.2.symm.trans (huse o ho).1, fun hk => (huse o ho).2 (hp.1.1.trans hk)⟩
    rw [e, List.map_nil, List.append_nil]
    exact hdoc.sublist (List.filter_sublist.map _)

theorem inRole_listed {ix : HIRIndex} (h : parseFromStr text = .ok res) (hix : createIndex text res.tokens res.stmts = .ok ix) (o : SymbolOccurrence)
    (ud : UseDefKind) : InRole res o ud
      ((listed ix o.symbolKind o.funcBodyId o.name ud).map fun sp => ⟨sp, ud, o.symbolKind, o.name, o.funcBodyId⟩) := by
  refine ⟨lists_role h hix o ud, ?_⟩
  simpa only [List.map_map, Function.comp_def, List.map_id'] using listed_inOrder h hix _ _ _ ud

theorem located_role {ix : HIRIndex} (h : parseFromStr text = .ok res) (hix : createIndex text res.tokens res.stmts = .ok ix)
    (hsize : text.length < 2 ^ 32) (o : SymbolOccurrence) (ud : UseDefKind) :
    Located uri text ((listed ix o.symbolKind o.funcBodyId o.name ud).map fun sp => ⟨sp, ud, o.symbolKind, o.name, o.funcBodyId⟩)
      (localLocations uri text (listed ix o.symbolKind o.funcBodyId o.name ud)) := by
  unfold Located localLocations
  refine Each.map_left _ (each_filterMap_total ?_)
  intro sp hsp
  obtain ⟨r, hr⟩ := occurs_rangeToLsp h hsize ((listed_occurs h hix).mp hsp)
  simp only at hr
  exact ⟨{ uri := uri, range := r }, by rw [hr]; rfl, rfl, (rangeToLsp_shown hsize).mp hr⟩

theorem known_unique {u text res text' res'} (hk : Known st u text res) (hk' : Known st u text' res') : text' = text ∧ res' = res := by
  obtain ⟨d1, e1, e2, _⟩ := opened_inv hk'.1 hk'.2
  obtain ⟨d2, e3, e4, _⟩ := opened_inv hk.1 hk.2
  rw [e1] at e3
  cases e3
  have ht : text' = text := by rw [← e2, e4]
  subst ht
  have := hk'.2.symm.trans hk.2
  cases this
  exact ⟨rfl, rfl⟩

theorem unknown_of {u : Str} (hd : st.docs.get? u = none) : Unknown st u := by
  rintro text ⟨doc, _, _, h⟩
  rw [hd] at h
  cases h

theorem noSymbol_of {u : Str} {p : Pos} (hk : Known st u text res) {doc : AnalyzedDocument} (hd : st.docs.get? u = some doc)
    (hs : symbolAt doc p = none) : NoSymbol st u p := by
  intro text' res' o h
  obtain ⟨rfl, rfl⟩ := known_unique hk h.1
  rw [(symbolAt_under hk hd).mpr h] at hs
  cases hs

/-- The answers to navigation requests. -/
theorem getUseDefRanges_correct (hall : AllOpened st) (hreg : Regular env st) {u : Str} {p : Pos} {ud : UseDefKind} {r : Option (Range × List Location)}
    (h : getUseDefRanges env st u p ud = .ok r) :
    (r = none ∧ NoSymbol st u p) ∨
    ∃ text res o occs origin locs ext, SymbolUnder st u p text res o ∧ r = some (origin, locs ++ ext) ∧ ShownRange text o.span origin ∧
      InRole res o ud occs ∧ Located u text occs locs ∧
      (ud ≠ .def_ → ext = []) ∧
      (ud = .def_ → ∃ ds, (o.symbolKind = .function ∧ LocationsOf o.name [] res.stmts ds ∨ o.symbolKind ≠ .function ∧ ds = []) ∧
        Picks (WorkspaceLine env.fs st.roots) ds ext) := by
  cases hd : st.docs.get? u with
  | none =>
    unfold getUseDefRanges at h
    rw [hd] at h
    cases h
    exact .inl ⟨rfl, fun text res o hs => unknown_of hd text hs.1.1⟩
  | some doc =>
    obtain ⟨text, res, hk⟩ := known_of hall hd
    have hsize := hreg.size u text hk.1
    cases hs : symbolAt doc p with
    | none =>
      unfold getUseDefRanges at h
      simp only [hd, hs] at h
      cases h
      exact .inl ⟨rfl, noSymbol_of hk hd hs⟩
    | some o =>
      have hu := (symbolAt_under hk hd).mp hs
      obtain ⟨_, ho, hv, start, hb, hc⟩ := hu
      obtain ⟨doc', errs, ha, hst'⟩ := hk.1
      rw [hd] at hst'
      cases hst'
      obtain ⟨res', h1, _, _, _, _, hix⟩ := analyze_inv ha
      rw [hk.2] at h1
      cases h1
      have hoff : lspPosToOffset text p = some (start + p.character) := by
        unfold lspPosToOffset
        rw [lineBegins_sound hb]
        rfl
      obtain ⟨origin, hr, hg⟩ := getUseDefRanges_at ha hk.2 hsize hd hoff ho hc hv env ud
      right
      rw [hg] at h
      have hdefs : ∀ d, d ∈ ((entry? doc.index o.symbolKind o.funcBodyId o.name).getD {}).externalDefs →
          ExternalLocation res.stmts o.name d := by
        intro d
        by_cases hkind : o.symbolKind = .function
        · have hnone : o.funcBodyId = none := by
            cases hb : o.funcBodyId with
            | none => rfl
            | some i =>
              have := ((occurs_scope hk.2 hix ho).1).mpr ⟨i, hb⟩
              rw [hkind] at this
              simp at this
          rw [hkind, hnone, C22_external_defs hk.2 hix]
          simp [ExternalLocation]
        · obtain ⟨g, hinv, _⟩ := index_inv hk.2 hix
          rw [hinv.ext, if_neg (by simp [hkind])]
          simp
      by_cases hud : ud = .def_
      · rw [if_pos hud] at h
        cases hext : externalLocations env st.roots ((entry? doc.index o.symbolKind o.funcBodyId o.name).getD {}).externalDefs with
        | panic => rw [hext] at h; cases h
        | ok ext =>
          rw [hext] at h
          cases h
          refine ⟨text, res, o, _, origin, _, ext, ⟨hk, ho, hv, start, hb, hc⟩, rfl, (rangeToLsp_shown hsize).mp hr, inRole_listed hk.2 hix o ud,
            located_role hk.2 hix hsize o ud, fun hn => absurd hud hn, fun _ => ⟨_, ?_, externalLocations_shown hreg.folders (fun d hd => ⟨hreg.locations u text res o.name d hk (hdefs d hd), ?_⟩) hext⟩⟩
          · obtain ⟨g, hinv, _, _, hexts⟩ := index_inv hk.2 hix
            rw [hinv.ext, hexts]
            by_cases hkind : o.symbolKind = .function
            · have hnone : o.funcBodyId = none := by
                cases hb : o.funcBodyId with
                | none => rfl
                | some i =>
                  have := ((occurs_scope hk.2 hix ho).1).mpr ⟨i, hb⟩
                  rw [hkind] at this
                  simp at this
              rw [if_pos ⟨hkind, hnone⟩]
              exact .inl ⟨hkind, docExts_locations (before := []) (i := 0)⟩
            · rw [if_neg (by simp [hkind])]
              exact .inr ⟨hkind, rfl⟩
          · obtain ⟨_, _, _, _, _, ⟨_, _, _, _, _, _, h⟩, _⟩ := hdefs d hd
            exact h
      · rw [if_neg hud] at h
        cases h
        exact ⟨text, res, o, _, origin, _, [], ⟨hk, ho, hv, start, hb, hc⟩, rfl, (rangeToLsp_shown hsize).mp hr, inRole_listed hk.2 hix o ud,
            located_role hk.2 hix hsize o ud, fun _ => rfl, fun h => absurd h hud⟩

omit [Unicode] in
theorem toLinks_facts (origin : Range) (l : List Location) : (toLinks (origin, l)).map (·.target) = l ∧ ∀ k ∈ toLinks (origin, l), k.origin = origin := by
  refine ⟨by simp [toLinks, Function.comp_def], fun k hk => ?_⟩
  obtain ⟨_, _, rfl⟩ := List.mem_map.mp hk
  rfl

theorem shiftAmount_plus {b : Build} {w : Str} {i k : Int} (hn : SignedNumber w i) (hop : i64Op b i = .ok k) : ShiftAmount ('+' :: w) k := by
  obtain ⟨h1, t, h2⟩ := i64Op_spec hop
  exact ⟨w, i, t, hn, h1, .inl ⟨rfl, h2⟩⟩

theorem shiftAmount_minus {b : Build} {w : Str} {i k : Int} (hn : SignedNumber w i) (hop : i64Op b (-i) = .ok k) : ShiftAmount ('-' :: w) k := by
  obtain ⟨h1, t, h2⟩ := i64Op_spec hop
  exact ⟨w, i, t, hn, h1, .inr ⟨rfl, h2⟩⟩

theorem not_relative {req : Str} (hp : ∀ w, req = '+' :: w → False) (hm : ∀ w, req = '-' :: w → False) : ¬ Relative req := by
  rintro ⟨w, h | h⟩
  · exact hp w h
  · exact hm w h

/-- The outcome of a relative rename. -/
theorem relativeRename_correct (hk : Known st uri text res) (hsize : text.length < 2 ^ 32) {doc : AnalyzedDocument} (hd : st.docs.get? uri = some doc)
    {o : SymbolOccurrence} {c : Char} {w : Str} {sign : Int} (hs : c = '+' ∧ sign = 1 ∨ c = '-' ∧ sign = -1)
    {r : Except RpcError (List TextEdit)} (h : relativeRename env doc o (c :: w) sign = .ok r) :
    (∃ msg, r = .error (.invalidParams msg) ∧ Refused o (c :: w) msg) ∨
    ∃ edits k pre start, r = .ok edits ∧ ShiftAmount (c :: w) k ∧ Numbered o.name pre start ∧
      Renumbered text res o.symbolKind o.funcBodyId start k edits := by
  obtain ⟨doc', hst', hrope, _, hix⟩ := opened_inv hk.1 hk.2
  rw [hd] at hst'
  cases hst'
  have hrel : Relative (c :: w) := by
    rcases hs with ⟨rfl, _⟩ | ⟨rfl, _⟩
    · exact ⟨w, .inl rfl⟩
    · exact ⟨w, .inr rfl⟩
  unfold relativeRename at h
  rw [List.drop_succ_cons, List.drop_zero] at h
  cases hn : parseI64 w with
  | none =>
    rw [hn] at h
    cases h
    refine .inl ⟨_, rfl, .inl ⟨hrel, ?_, rfl⟩⟩
    rintro k ⟨w', i, t, h1, _, h2⟩
    have : w' = w := by
      rcases h2 with ⟨e, _⟩ | ⟨e, _⟩ <;> cases e <;> rfl
    subst this
    rw [parseI64_iff.mpr h1] at hn
    cases hn
  | some nr =>
    have hnr := parseI64_iff.mp hn
    rw [hn] at h
    simp only at h
    cases hop : i64Op env.build (sign * nr) with
    | panic => rw [hop] at h; cases h
    | ok shift =>
      rw [hop] at h
      simp only at h
      have hamount : ShiftAmount (c :: w) shift := by
        rcases hs with ⟨rfl, rfl⟩ | ⟨rfl, rfl⟩
        · rw [Int.one_mul] at hop
          exact shiftAmount_plus hnr hop
        · rw [Int.neg_mul, Int.one_mul] at hop
          exact shiftAmount_minus hnr hop
      cases hx : extractNumberFromIdentifier o.name with
      | panic => rw [hx] at h; cases h
      | ok x =>
        rw [hx] at h
        cases x with
        | none =>
          cases h
          exact .inl ⟨_, rfl, .inr (.inl ⟨⟨shift, hamount⟩, (extract_spec o.name).2.1 hx, rfl⟩)⟩
        | some x =>
          obtain ⟨pre, i⟩ := x
          obtain ⟨start, rfl, hnum⟩ := (extract_spec o.name).1 pre i hx
          simp only at h
          cases hg : getShiftEdits env.ord env.build doc.rope doc.index o.symbolKind o.funcBodyId start shift with
          | panic => rw [hg] at h; cases h
          | ok edits =>
            rw [hg] at h
            cases h
            rw [hrope] at hg
            exact .inr ⟨edits, shift, pre, start, rfl, hamount, hnum, getShiftEdits_renumbered hk.2 hix hsize hg⟩

/-- The outcome of the check of a new name. -/
theorem checkNewName_error {k : SymbolKind} {req : Str} {e : RpcError} (h : checkNewName k req = .ok (.error e)) :
    ∃ body msg, WithoutSigil k req body ∧ e = .invalidParams msg ∧
      ((∃ c ∈ body, ¬ NameChar c ∧ c ≠ ':') ∧ msg = c!"Name contains invalid character" ∨
       (∀ c ∈ body, NameChar c ∨ c = ':') ∧ (∃ c, body.head? = some c ∧ Unicode.numeric c = true) ∧ k ≠ .dbgAnnotation ∧
        msg = c!"Name must not start with a digit") := by
  have hbody : WithoutSigil k req (stripPrefix (sigilOf k) req) := by
    refine ⟨sigilOf k, sigil_iff.mpr rfl, ?_⟩
    rcases stripPrefix_spec (sigilOf k) req with h | ⟨h1, h2⟩
    · exact .inl h
    · exact .inr ⟨h2, h1.symm⟩
  unfold checkNewName at h
  simp only at h
  split at h
  · rename_i hany
    cases h
    rw [List.any_eq_true] at hany
    obtain ⟨c, h1, h2⟩ := hany
    refine ⟨_, _, hbody, rfl, .inl ⟨⟨c, h1, ?_⟩, rfl⟩⟩
    have : ¬ (NameChar c ∨ c = ':') := by
      rw [← isNameChar_iff]
      simpa using h2
    exact ⟨fun h => this (.inl h), fun h => this (.inr h)⟩
  · rename_i hany
    split at h
    · cases h
    · rename_i c rest hs
      split at h
      · rename_i hnum
        cases h
        rw [Bool.and_eq_true, decide_eq_true_eq] at hnum
        refine ⟨_, _, hbody, rfl, .inr ⟨?_, ⟨c, by rw [hs]; rfl, hnum.1⟩, hnum.2, rfl⟩⟩
        intro d hd
        rw [← isNameChar_iff]
        simp only [List.any_eq_true, not_exists, not_and, Bool.not_eq_true, Bool.not_eq_false'] at hany
        exact hany d hd
      · cases h

/-- The outcome of a rename of a symbol. -/
theorem renameEdits_correct (hk : Known st uri text res) (hsize : text.length < 2 ^ 32) {doc : AnalyzedDocument} (hd : st.docs.get? uri = some doc)
    {o : SymbolOccurrence} (ho : Occurs res.tokens res.stmts o) {req : Str} {r : Except RpcError (List TextEdit)}
    (h : renameEdits env doc o req = .ok r) :
    (∃ msg, r = .error (.invalidParams msg) ∧ Refused o req msg) ∨
    ∃ edits, r = .ok edits ∧
      ((¬ Relative req ∧ ∃ name occs, NewName o.symbolKind req name ∧ Lists res (fun o' => SameSymbol o' o) occs ∧
          Edited text (occs.map fun o' => (o', name)) edits) ∨
       ∃ k pre start, ShiftAmount req k ∧ Numbered o.name pre start ∧ Renumbered text res o.symbolKind o.funcBodyId start k edits) := by
  obtain ⟨doc', hst', hrope, _, hix⟩ := opened_inv hk.1 hk.2
  rw [hd] at hst'
  cases hst'
  unfold renameEdits at h
  split at h
  · rcases relativeRename_correct hk hsize hd (.inl ⟨rfl, rfl⟩) h with h' | ⟨edits, k, pre, start, rfl, h'⟩
    · exact .inl h'
    · exact .inr ⟨edits, rfl, .inr ⟨k, pre, start, h'⟩⟩
  · rcases relativeRename_correct hk hsize hd (.inr ⟨rfl, rfl⟩) h with h' | ⟨edits, k, pre, start, rfl, h'⟩
    · exact .inl h'
    · exact .inr ⟨edits, rfl, .inr ⟨k, pre, start, h'⟩⟩
  · rename_i hp hm
    have hrel := not_relative hp hm
    obtain ⟨u, hu, he⟩ := absoluteRename_eq hk.2 hix ho req
    rw [he] at h
    cases hc : checkNewName o.symbolKind req with
    | panic => rw [hc] at h; cases h
    | ok x =>
      rw [hc] at h
      cases x with
      | error e =>
        cases h
        obtain ⟨body, msg, h1, rfl, h2⟩ := checkNewName_error hc
        exact .inl ⟨msg, rfl, .inr (.inr ⟨hrel, body, h1, h2⟩)⟩
      | ok name =>
        cases h
        refine .inr ⟨_, rfl, .inl ⟨hrel, name, occsOf doc.index o.symbolKind o.funcBodyId o.name, ((checkNewName_spec _ _).1 name).mp hc,
          ⟨occsOf_nodup hk.2 hix _ _ _, fun o' => mem_occsOf hk.2 hix⟩, ?_⟩⟩
        rw [hrope]
        exact edited_of_raw hsize (getRenameEdits_raw hk.2 hix hsize hu name)

/-- The part of `C94_answers` about edits: here, all that matters is that the documents are below 4 GiB. -/
theorem answers_edits (hall : AllOpened st) (hsz : ∀ u text, Opened st u text → text.length < 2 ^ 32) {m : Msg} (hm : EditRequest m) {r : Reply}
    (h : step env st m = .ok (st', r)) : st' = st ∧ Correct env st m r := by
  have hmap : ∀ {α : Type} {x : Outcome α} {f : α → Reply}, (x.map' fun a => (st, f a)) = .ok (st', r) → ∃ a, x = .ok a ∧ st' = st ∧ r = f a := by
    intro α x f hx
    cases x with
    | panic => cases hx
    | ok a => cases hx; exact ⟨a, rfl, rfl, rfl⟩
  cases m with
  | rename u p req =>
    obtain ⟨a, ha, rfl, rfl⟩ := hmap h
    refine ⟨rfl, ?_⟩
    unfold rename at ha
    cases hd : st'.docs.get? u with
    | none =>
      rw [hd] at ha
      cases ha
      exact .inl ⟨unknown_of hd, rfl⟩
    | some doc =>
      obtain ⟨text, res, hk⟩ := known_of hall hd
      have hsize := hsz u text hk.1
      simp only [hd] at ha
      cases hs : symbolAt doc p with
      | none =>
        rw [hs] at ha
        cases ha
        exact .inr (.inl ⟨fun hn => hn text hk.1, noSymbol_of hk hd hs, rfl⟩)
      | some o =>
        have hu := (symbolAt_under hk hd).mp hs
        rw [hs] at ha
        simp only at ha
        cases hr : renameEdits env doc o req with
        | panic => rw [hr] at ha; cases ha
        | ok x =>
          rw [hr] at ha
          rcases renameEdits_correct hk hsize hd hu.2.1 hr with ⟨msg, rfl, h1⟩ | ⟨edits, rfl, h1⟩
          · cases ha
            exact .inr (.inr ⟨text, res, o, msg, hu, h1, rfl⟩)
          · cases ha
            exact ⟨text, res, o, edits, hu, rfl, h1⟩
  | codeActionResolve a =>
    obtain ⟨x, ha, rfl, rfl⟩ := hmap h
    refine ⟨rfl, ?_⟩
    unfold codeActionResolve at ha
    cases hdat : a.data with
    | missing => rw [hdat] at ha; cases ha; exact .inl ⟨hdat, rfl⟩
    | invalid => rw [hdat] at ha; cases ha; exact .inr (.inl ⟨hdat, rfl⟩)
    | shift d =>
      rw [hdat] at ha
      simp only at ha
      cases hd : st'.docs.get? d.uri with
      | none =>
        rw [hd] at ha
        cases ha
        exact .inr (.inr ⟨d, hdat, unknown_of hd, rfl⟩)
      | some doc =>
        obtain ⟨text, res, hk⟩ := known_of hall hd
        obtain ⟨doc', hst', hrope, _, hix⟩ := opened_inv hk.1 hk.2
        rw [hd] at hst'
        cases hst'
        rw [hd] at ha
        simp only at ha
        cases hg : getShiftEdits env.ord env.build doc.rope doc.index d.symbolKind d.funcBodyId d.renamedNr 1 with
        | panic => rw [hg] at ha; cases ha
        | ok edits =>
          rw [hg] at ha
          cases ha
          rw [hrope] at hg
          exact ⟨d, text, res, edits, hdat, hk, by rw [hdat], getShiftEdits_renumbered hk.2 hix (hsz _ text hk.1) hg⟩
  | codeAction u r =>
    obtain ⟨a, ha, rfl, rfl⟩ := hmap h
    refine ⟨rfl, ?_⟩
    unfold codeAction at ha
    cases hd : st'.docs.get? u with
    | none =>
      rw [hd] at ha
      cases ha
      exact ⟨unknown_of hd, rfl⟩
    | some doc =>
      obtain ⟨text, res, hk⟩ := known_of hall hd
      have hsize := hsz u text hk.1
      obtain ⟨doc', hst', hrope, _, hix⟩ := opened_inv hk.1 hk.2
      rw [hd] at hst'
      cases hst'
      have hknown : ¬ Unknown st' u := fun hn => hn text hk.1
      simp only [hd] at ha
      by_cases hr : r.start = r.stop
      · rw [if_neg (by simpa using hr)] at ha
        cases hoff : offeredActions u doc r.start with
        | panic => rw [hoff] at ha; cases ha
        | ok actions =>
          rw [hoff] at ha
          simp only at ha
          unfold offeredActions at hoff
          cases hs : symbolAt doc r.start with
          | none =>
            rw [hs] at hoff
            cases hoff
            have hno := noSymbol_of hk hd hs
            simp only [resolveAll] at ha
            have : a = .ok (some []) := by split at ha <;> cases ha <;> rfl
            subst this
            exact ⟨hknown, hr, .inl ⟨rfl, fun text res o _ _ hu => absurd hu (hno text res o)⟩⟩
          | some o =>
            have hu := (symbolAt_under hk hd).mp hs
            rw [hs] at hoff
            simp only at hoff
            cases hx : extractNumberFromIdentifier o.name with
            | panic => rw [hx] at hoff; cases hoff
            | ok x =>
              rw [hx] at hoff
              cases x with
              | none =>
                cases hoff
                simp only [resolveAll] at ha
                have : a = .ok (some []) := by split at ha <;> cases ha <;> rfl
                subst this
                refine ⟨hknown, hr, .inl ⟨rfl, ?_⟩⟩
                intro text' res' o' pre n hu'
                obtain ⟨rfl, rfl⟩ := known_unique hk hu'.1
                rw [(symbolAt_under hk hd).mpr hu'] at hs
                cases hs
                exact (extract_spec o.name).2.1 hx pre n
              | some x =>
                obtain ⟨pre, i⟩ := x
                obtain ⟨nr, rfl, hnum⟩ := (extract_spec o.name).1 pre i hx
                cases hoff
                have htitle : shiftTitle o.symbolKind = c!"Shift " ++ kindWord o.symbolKind ++ c!" numbering" := by
                  cases o.symbolKind <;> rfl
                by_cases hl : st'.lazyResolve = true
                · rw [if_pos hl] at ha
                  cases ha
                  exact ⟨hknown, hr, .inr ⟨text, res, o, pre, nr, none, hu, hnum, by rw [htitle], .inl ⟨hl, rfl⟩⟩⟩
                · rw [if_neg hl] at ha
                  simp only [resolveAll, codeActionResolve, hd] at ha
                  cases hg : getShiftEdits env.ord env.build doc.rope doc.index o.symbolKind o.funcBodyId nr 1 with
                  | panic => rw [hg] at ha; cases ha
                  | ok edits =>
                    rw [hg] at ha
                    cases ha
                    rw [hrope] at hg
                    exact ⟨hknown, hr, .inr ⟨text, res, o, pre, nr, _, hu, hnum, by rw [htitle], .inr ⟨by simpa using hl, edits, rfl,
                      getShiftEdits_renumbered hk.2 hix hsize hg⟩⟩⟩
      · rw [if_pos (by simpa using hr)] at ha
        cases ha
        exact ⟨hknown, hr⟩
  | _ => exact hm.elim

/-- C94: what the server answers to a request about a symbol (`Correct`), in any document; the state does not change.  With `C93_exact`, which
says when there is an answer at all. -/
theorem C94_answers (hall : AllOpened st) (hreg : Regular env st) {m : Msg} (hm : SymbolRequest m) {r : Reply}
    (h : step env st m = .ok (st', r)) : st' = st ∧ Correct env st m r := by
  have hmap : ∀ {α : Type} {x : Outcome α} {f : α → Reply}, (x.map' fun a => (st, f a)) = .ok (st', r) → ∃ a, x = .ok a ∧ st' = st ∧ r = f a := by
    intro α x f hx
    cases x with
    | panic => cases hx
    | ok a => cases hx; exact ⟨a, rfl, rfl, rfl⟩
  cases m with
  | references u p =>
    obtain ⟨a, ha, rfl, rfl⟩ := hmap h
    refine ⟨rfl, ?_⟩
    unfold references at ha
    cases hg : getUseDefRanges env st' u p .use with
    | panic => rw [hg] at ha; cases ha
    | ok x =>
      rw [hg] at ha
      cases ha
      rcases getUseDefRanges_correct hall hreg hg with ⟨rfl, h1⟩ | ⟨text, res, o, occs, origin, locs, ext, h1, rfl, h2, h3, h4, h5, _⟩
      · exact h1
      · refine ⟨text, res, o, occs, h1, h3, ?_⟩
        rw [h5 (by simp), List.append_nil]
        exact h4
  | gotoDeclaration u p =>
    obtain ⟨a, ha, rfl, rfl⟩ := hmap h
    refine ⟨rfl, ?_⟩
    unfold gotoDeclaration at ha
    cases hg : getUseDefRanges env st' u p .decl with
    | panic => rw [hg] at ha; cases ha
    | ok x =>
      rw [hg] at ha
      cases ha
      rcases getUseDefRanges_correct hall hreg hg with ⟨rfl, h1⟩ | ⟨text, res, o, occs, origin, locs, ext, h1, rfl, h2, h3, h4, h5, _⟩
      · exact h1
      · rw [h5 (by simp), List.append_nil]
        refine ⟨text, res, o, occs, h1, h3, ?_, fun k hk => ?_⟩
        · rw [(toLinks_facts origin locs).1]
          exact h4
        · rw [(toLinks_facts origin locs).2 k hk]
          exact h2
  | gotoDefinition u p =>
    obtain ⟨a, ha, rfl, rfl⟩ := hmap h
    refine ⟨rfl, ?_⟩
    unfold gotoDefinition at ha
    cases hg : getUseDefRanges env st' u p .def_ with
    | panic => rw [hg] at ha; cases ha
    | ok x =>
      rw [hg] at ha
      cases ha
      rcases getUseDefRanges_correct hall hreg hg with ⟨rfl, h1⟩ | ⟨text, res, o, occs, origin, locs, ext, h1, rfl, h2, h3, h4, _, h5⟩
      · exact h1
      · refine ⟨text, res, o, occs, locs, ext, h1, h3, h4, (toLinks_facts origin _).1, fun k hk => ?_, h5 rfl⟩
        rw [(toLinks_facts origin _).2 k hk]
        exact h2
  | prepareRename u p =>
    simp only [step, Outcome.ok.injEq, Prod.mk.injEq] at h
    obtain ⟨rfl, rfl⟩ := h
    refine ⟨rfl, ?_⟩
    unfold prepareRename
    cases hd : st.docs.get? u with
    | none => exact fun text res o hs => unknown_of hd text hs.1.1
    | some doc =>
      obtain ⟨text, res, hk⟩ := known_of hall hd
      obtain ⟨doc', hst', hrope, _, hix⟩ := opened_inv hk.1 hk.2
      rw [hd] at hst'
      cases hst'
      simp only
      cases hs : symbolAt doc p with
      | none => exact noSymbol_of hk hd hs
      | some o =>
        have hu := (symbolAt_under hk hd).mp hs
        have hsize := hreg.size u text hk.1
        obtain ⟨r, hr⟩ := occurs_rangeToLsp hk.2 hsize hu.2.1
        simp only
        rw [hrope, hr]
        exact ⟨text, res, o, hu, (rangeToLsp_shown hsize).mp hr⟩
  | rename u p req => exact answers_edits hall hreg.size (by exact trivial) h
  | codeActionResolve a => exact answers_edits hall hreg.size (by exact trivial) h
  | codeAction u r => exact answers_edits hall hreg.size (by exact trivial) h
  | _ => exact hm.elim

/-- The reply to a message in the middle of a session. -/
theorem run_middle {before after : List Step} {env : Env} {m : Msg} {s0 st st' : ServerState} {rs rs' : List Reply}
    (h : run s0 before = .ok (st, rs)) (h' : run s0 (before ++ (env, m) :: after) = .ok (st', rs')) :
    ∃ st1 r rest, step env st m = .ok (st1, r) ∧ run st1 after = .ok (st', rest) ∧ rs' = rs ++ r :: rest := by
  induction before generalizing s0 rs rs' with
  | nil =>
    cases h
    obtain ⟨s, r, rest, h1, h2, h3⟩ := run_cons_inv h'
    exact ⟨s, r, rest, h1, h2, h3⟩
  | cons e before ih =>
    obtain ⟨env', m'⟩ := e
    obtain ⟨s, r, rs1, h1, h2, rfl⟩ := run_cons_inv h
    obtain ⟨s', r', rs2, h3, h4, rfl⟩ := run_cons_inv h'
    rw [h1] at h3
    cases h3
    obtain ⟨st1, r1, rest, h5, h6, rfl⟩ := ih h2 h4
    exact ⟨st1, r1, rest, h5, h6, rfl⟩

/-- Sessions can be put together. -/
theorem run_concat {before after : List Step} {s0 st st' : ServerState} {rs rs' : List Reply}
    (h : run s0 before = .ok (st, rs)) (h' : run st after = .ok (st', rs')) : run s0 (before ++ after) = .ok (st', rs ++ rs') := by
  induction before generalizing s0 rs with
  | nil => cases h; exact h'
  | cons e before ih =>
    obtain ⟨env', m'⟩ := e
    obtain ⟨s, r, rs1, h1, h2, rfl⟩ := run_cons_inv h
    rw [List.cons_append]
    unfold run
    rw [h1]
    simp only
    rw [ih h2]
    rfl

/-- C94: in every session, a request about a symbol is answered correctly in the state it arrives in, and all other replies are those of the session
without it. -/
theorem C94_sessions {before after : List Step} {env : Env} {m : Msg} {st st' : ServerState} {rs rs' : List Reply} (hm : SymbolRequest m)
    (h : run {} before = .ok (st, rs)) (h' : run {} (before ++ (env, m) :: after) = .ok (st', rs')) (hreg : Regular env st) :
    ∃ r rest, rs' = rs ++ r :: rest ∧ Correct env st m r ∧ run {} (before ++ after) = .ok (st', rs ++ rest) := by
  obtain ⟨st1, r, rest, h1, h2, h3⟩ := run_middle h h'
  obtain ⟨rfl, hc⟩ := C94_answers (run_allOpened (fun u doc hd => by cases hd) h) hreg hm h1
  exact ⟨r, rest, h3, hc, run_concat h h2⟩

end

section Examples
attribute [local instance] asciiUnicode

/-- A document with an umlaut, a form feed, and a line that is not understood. -/
def answerText : Str :=
  c!"; é\x0c end\ndeclare void @f1() !d\n!d = \"src/a.cpp:3\"\nnonsense\ndefine void @g2() {\nx:\n call void @f1()\n br x\n}\n"

def answerState : ServerState := serverWith [workspace] c!"u" answerText

theorem answerState_regular {env : Env} (he : ∀ v, env.json v = none) : AllOpened answerState ∧ Regular env answerState :=
  regular_of_calm (by decide +kernel) (by decide +kernel) (by simp; exact .inr ⟨rfl, by decide⟩) (fun v j _ _ _ _ _ h => by rw [he v] at h; cases h)

/-- The declaration of `@f1` in it. -/
def answerDecl : SymbolOccurrence := { span := ⟨22, 25⟩, useDef := .decl, symbolKind := .function, name := c!"@f1", funcBodyId := none }

/-- The call of `@f1` in it. -/
def answerUse : SymbolOccurrence := { span := ⟨93, 96⟩, useDef := .use, symbolKind := .function, name := c!"@f1", funcBodyId := none }

theorem answerText_facts : ∃ res, parseFromStr answerText = .ok res ∧ Occurs res.tokens res.stmts answerDecl ∧ Occurs res.tokens res.stmts answerUse := by
  obtain ⟨res, h⟩ := parseFromStr_total answerText
  have key : (match parseFromStr answerText with
    | .ok res => decide (answerDecl ∈ allOccs res.tokens res.stmts ∧ answerUse ∈ allOccs res.tokens res.stmts)
    | .panic => false) = true := by decide +kernel
  rw [h] at key
  obtain ⟨h1, h2⟩ := of_decide_eq_true key
  exact ⟨res, h, occurs_iff.mpr h1, occurs_iff.mpr h2⟩

/-- Line 2 begins behind the form feed and the line feed. -/
theorem answerText_line : LineBegins answerText 2 9 :=
  .next (line := c!"; é") (eol := c!"\x0c") (rest := answerText.drop 4) (by simp [BreakChar]) (.inr ⟨_, rfl, .inr (.inr (.inl rfl))⟩) (by simp)
    (.next (line := c!" end") (eol := c!"\n") (rest := answerText.drop 9) (n := 0) (k := 0) (by simp [BreakChar]) (.inr ⟨_, rfl, .inl rfl⟩) (by simp) .first)

/-- The symbol under the editor position (line 2, column 14) is the declaration of `@f1`. -/
theorem answerState_under : ∃ res, SymbolUnder answerState c!"u" ⟨2, 14⟩ answerText res answerDecl := by
  obtain ⟨res, h1, h2, _⟩ := answerText_facts
  exact ⟨res, ⟨serverWith_opened (by decide +kernel), h1⟩, h2, (by rintro ⟨h, _⟩; cases h), 9, answerText_line, by constructor <;> decide⟩

/-- References at the declaration: the call, one column too far to the left, because of the umlaut above.  Other replies are wrong. -/
example : step debugEnv answerState (.references c!"u" ⟨2, 14⟩) =
      .ok (answerState, .locations (some [{ uri := c!"u", range := ⟨⟨7, 10⟩, ⟨7, 13⟩⟩ }])) ∧
    Correct debugEnv answerState (.references c!"u" ⟨2, 14⟩) (.locations (some [{ uri := c!"u", range := ⟨⟨7, 10⟩, ⟨7, 13⟩⟩ }])) ∧
    ¬ Correct debugEnv answerState (.references c!"u" ⟨2, 14⟩) (.locations none) ∧
    ¬ Correct debugEnv answerState (.references c!"u" ⟨2, 14⟩) (.locations (some [])) ∧
    ¬ Correct debugEnv answerState (.references c!"u" ⟨2, 14⟩) .done := by
  have hrun : step debugEnv answerState (.references c!"u" ⟨2, 14⟩) =
      .ok (answerState, .locations (some [{ uri := c!"u", range := ⟨⟨7, 10⟩, ⟨7, 13⟩⟩ }])) := by
    have : (match references debugEnv answerState c!"u" ⟨2, 14⟩ with
      | .ok l => decide (l = some [{ uri := c!"u", range := ⟨⟨7, 10⟩, ⟨7, 13⟩⟩ }])
      | .panic => false) = true := by decide +kernel
    unfold step
    cases hr : references debugEnv answerState c!"u" ⟨2, 14⟩ with
    | panic => rw [hr] at this; cases this
    | ok l =>
      rw [hr] at this
      have := of_decide_eq_true this
      subst this
      simp only [hr, Outcome.map']
  obtain ⟨hall, hreg⟩ := answerState_regular (env := debugEnv) (fun _ => rfl)
  refine ⟨hrun, (C94_answers hall hreg (m := .references c!"u" ⟨2, 14⟩) trivial hrun).2, ?_, ?_, fun h => h⟩
  · obtain ⟨res, hu⟩ := answerState_under
    exact fun h => h _ _ _ hu
  · rintro ⟨text, res, o, occs, hu, hl, he⟩
    obtain ⟨res', hu'⟩ := answerState_under
    obtain ⟨rfl, rfl⟩ := known_unique hu'.1 hu.1
    obtain ⟨res'', h1, _, h2⟩ := answerText_facts
    rw [hu.1.2] at h1
    cases h1
    obtain ⟨doc, hst, _⟩ := opened_inv hu.1.1 hu.1.2
    have e := (symbolAt_under hu.1 hst).mpr hu
    rw [(symbolAt_under hu.1 hst).mpr hu'] at e
    cases e
    cases he
    exact absurd ((hl.1.2 answerUse).mpr ⟨h2, ⟨rfl, rfl, rfl⟩, rfl⟩) (by simp)

/-- In a release build, the definition of a function in line 0 of a file is shown in the last possible line. -/
example : LineIndex 3 2 ∧ LineIndex 0 4294967295 ∧ ¬ LineIndex 0 0 := by
  refine ⟨.inl rfl, .inr ⟨rfl, rfl⟩, ?_⟩
  rintro (h | ⟨_, h⟩) <;> cases h

/-- The number after the largest one is printed with the sign. -/
example : NumberText 8 c!"8" ∧ NumberText (-8) c!"8" ∧ NumberText (2 ^ 63) c!"-9223372036854775808" ∧ ¬ NumberText 8 c!"08" := by
  have h8 : ∀ b : Build, i64Op b 8 = .ok 8 := fun b => i64Op_ok (by decide) (by decide)
  have hm8 : ∀ b : Build, i64Op b (-8) = .ok (-8) := fun b => i64Op_ok (by decide) (by decide)
  refine ⟨(numberText_iff (h8 ⟨true⟩)).mpr (by decide +kernel), (numberText_iff (hm8 ⟨true⟩)).mpr (by decide +kernel),
    ⟨-(2 ^ 63), 1, by constructor <;> decide, by decide, .inl ⟨rfl, rfl⟩⟩, fun h => ?_⟩
  have := (numberText_iff (h8 ⟨true⟩)).mp h
  revert this
  decide +kernel

/-- A shift by `-+5` is one by -5. -/
example : ShiftAmount c!"-+5" (-5) ∧ ShiftAmount c!"--5" 5 :=
  ⟨⟨c!"+5", 5, 0, ⟨c!"5", 5, .digit (c := '5') (by decide), .inl ⟨.inr rfl, by decide, rfl⟩⟩, by constructor <;> decide, .inr ⟨rfl, by decide⟩⟩,
   ⟨c!"-5", -5, 0, ⟨c!"5", 5, .digit (c := '5') (by decide), .inr ⟨rfl, by decide, rfl⟩⟩, by constructor <;> decide, .inr ⟨rfl, by decide⟩⟩⟩

end Examples

end HyperIR
