import Verif.Spec.Remarks
import Verif.Proofs.RemarkDoc
import Verif.Proofs.LexRename

/-
C72: what stands at the end of a line without counting (blanks, a comment, the style of the line end) changes no answer.
-/

namespace HyperIR
open Spec

section
variable [Unicode]

/-! ### Two texts with the same code -/

/-- What two documents with the same code have in common. -/
structure SameDoc (T0 : Str) (ts0 : List Tok) (f g f' g' : Nat → Nat) (T T' : Str) (doc doc' : AnalyzedDocument) : Prop where
  placed : Placed T0 T f g
  placed' : Placed T0 T' f' g'
  plain : Plain T
  plain' : Plain T'
  size : T.length < 2 ^ 32
  size' : T'.length < 2 ^ 32
  rope : doc.rope = T
  rope' : doc'.rope = T'
  twin : ∃ ix0 ss0, Twin g g' ix0 ss0 doc doc'

theorem sameCode_docs {T T' : Str} {ts : List Tok} {doc doc' : AnalyzedDocument} {errs errs' : List SErr} (hs : SameCode T T') (hp : Plain T) (hp' : Plain T')
    (hsize : T.length < 2 ^ 32) (hsize' : T'.length < 2 ^ 32) (hl : Lexes 0 T ts) (ha : analyze T = .ok (doc, errs)) (ha' : analyze T' = .ok (doc', errs')) :
    ∃ T0 ts0 f g f' g', SameDoc T0 ts0 f g f' g' T T' doc doc' ∧ Lexes 0 T0 ts0 ∧
      (∃ es : List (LErr Token), ((T = [] ∨ ¬ Blank T) → errs = es.map fun e => ((Move.mk f g).err e).toSErr Token.display) ∧
        ((T' = [] ∨ ¬ Blank T') → errs' = es.map fun e => ((Move.mk f' g').err e).toSErr Token.display)) ∧
      (∃ ts, (∃ res, parseFromStr T = .ok res ∧ res.tokens = ts) ∧ semanticTokensFromTokens ts = .ok doc.semanticTokens ∧ nonComments ts = ts0.map (Move.mk f g).spanned) ∧
      (∃ ts, (∃ res, parseFromStr T' = .ok res ∧ res.tokens = ts) ∧ semanticTokensFromTokens ts = .ok doc'.semanticTokens ∧ nonComments ts = ts0.map (Move.mk f' g').spanned) ∧
      ∀ t ∈ ts0, t.1 ≠ .newline → f t.2.start = g t.2.start ∧ f' t.2.start = g' t.2.start := by
  obtain ⟨T0, f, g, f', g', h1, h2⟩ := sameCode_placed hs
  obtain ⟨ts0, h0⟩ := (placed_lexes h1).2 _ hl
  obtain ⟨so, es, hparse⟩ := parseTokens_total T0.length ts0
  obtain ⟨a1, a2, ⟨ix0, a3, a4⟩, a5, ts1, a6, a7, a8, a9⟩ := placed_analysis h1 hp h0 hparse ha
  obtain ⟨b1, b2, ⟨ix1, b3, b4⟩, b5, ts2, b6, b7, b8, b9⟩ := placed_analysis h2 hp' h0 hparse ha'
  rw [a3] at b3
  cases b3
  refine ⟨T0, ts0, f, g, f', g', ⟨h1, h2, hp, hp', hsize, hsize', a1, b1, ix0, so.getD [], ⟨fun x => ?_, a2, b2, a4, b4⟩⟩, h0, ⟨es, a5, b5⟩,
    ⟨ts1, ⟨_, a6, rfl⟩, a7, a8⟩, ⟨ts2, ⟨_, b6, rfl⟩, b7, b8⟩, fun t ht hn => ⟨(a9 t ht).2 hn, (b9 t ht).2 hn⟩⟩
  rw [a1, b1, placed_pos h1 hp hsize, placed_pos h2 hp' hsize']

/-! ### The symbol at a position -/

omit [Unicode] in
theorem posOf_of {T : Str} {x : Nat} {p : Pos} (hsize : T.length < 2 ^ 32) (hx : x ≤ T.length) (h : offsetToLspPos T x = some p) : posOf T x = p := by
  have := length_le_utf8Len T
  rw [offsetToLspPos_eq (by omega) hsize] at h
  exact Option.some.inj h

omit [Unicode] in
theorem posLe_antisymm {p q : Pos} (h1 : PosLe p q) (h2 : PosLe q p) : p = q := by
  cases p; cases q
  simp only [PosLe] at h1 h2
  simp only [Pos.mk.injEq]
  omega

omit [Unicode] in
/-- Places are in the same order in both texts. -/
theorem before_iff {T0 T T' f g f' g'} (h : Placed T0 T f g) (h' : Placed T0 T' f' g') (hp : Plain T) (hp' : Plain T')
    (hsize : T.length < 2 ^ 32) (hsize' : T'.length < 2 ^ 32) {p : Pos} {off off' : Nat} (ho : offsetToLspPos T off = some p)
    (ho' : offsetToLspPos T' off' = some p) (hle : off ≤ T.length) (hle' : off' ≤ T'.length) (x : Nat) (hx : g x ≤ off) : g' x ≤ off' := by
  obtain ⟨f1, f2, f3, f4, f5, f6⟩ := placed_facts h
  obtain ⟨f1', f2', f3', f4', f5', f6'⟩ := placed_facts h'
  by_cases hxx : x ≤ T0.length
  · have e1 := placed_pos h hp hsize x
    have e2 := placed_pos h' hp' hsize' x
    have hgx := f6 x hxx
    have hgx' := f6' x hxx
    obtain ⟨q, hq, _⟩ := (C14_positions_partial hsize).1 (g x) hgx (hp.to _)
    have hq' : offsetToLspPos T' (g' x) = some q := by rw [e2, ← e1, hq]
    have h1 : PosLe q p := by
      rw [← posOf_of hsize hgx hq, ← posOf_of hsize hle ho]
      exact posOf_mono hx
    by_cases hc : g' x ≤ off'
    · exact hc
    · have h2 : PosLe p q := by
        rw [← posOf_of hsize' hgx' hq', ← posOf_of hsize' hle' ho']
        exact posOf_mono (by omega)
      cases posLe_antisymm h1 h2
      have := C15_distinct (plain_asc hp') hgx' hle' hq' ho'
      omega
  · have := f5 x (by omega)
    omega

omit [Unicode] in
theorem lspOffset_within {T : Str} (hp : Plain T) (hsize : T.length < 2 ^ 32) {p : Pos} {off : Nat} (h : LspOffset T p off) :
    lspPosToOffset T p = some off ∧ offsetToLspPos T off = some p ∧ off ≤ T.length := by
  obtain ⟨h1, h2⟩ := (C14_positions_partial hsize).2 _ _ h (hp.to _)
  refine ⟨h1, h2, ?_⟩
  have hlen := utf8Len_ascii (plain_asc hp)
  by_cases hc : off ≤ T.length
  · exact hc
  · unfold offsetToLspPos byteToLine? byteToChar? at h2
    rw [hlen] at h2
    simp [hc] at h2

variable {T0 T T' uri : Str} {ts0 : List Tok} {f g f' g' : Nat → Nat} {st st' : ServerState} {doc doc' : AnalyzedDocument}

omit [Unicode] in
theorem SameDoc.symbol (h : SameDoc T0 ts0 f g f' g' T T' doc doc') {ix0 : HIRIndex} {ss0 : List Statement} (ht : Twin g g' ix0 ss0 doc doc') {p : Pos} (hp : HasPosition T p) (hp' : HasPosition T' p) :
    ∃ o : Option SymbolOccurrence, symbolAt doc p = o.map (plOcc (Move.mk g g)) ∧ symbolAt doc' p = o.map (plOcc (Move.mk g' g')) := by
  obtain ⟨off, ho⟩ := hp
  obtain ⟨off', ho'⟩ := hp'
  obtain ⟨a1, a2, a3⟩ := lspOffset_within h.plain h.size ho
  obtain ⟨b1, b2, b3⟩ := lspOffset_within h.plain' h.size' ho'
  have key : ∀ x, g x ≤ off ↔ g' x ≤ off' := fun x =>
    ⟨before_iff h.placed h.placed' h.plain h.plain' h.size h.size' a2 b2 a3 b3 x, before_iff h.placed' h.placed h.plain' h.plain h.size' h.size b2 a2 b3 a3 x⟩
  have hc : ∀ sp : Span, ((Move.mk g g).span sp).contains off = ((Move.mk g' g').span sp).contains off' := by
    intro sp
    have k1 := key sp.start
    have k2 := key sp.stop
    have e : ∀ (a b c d o o' : Nat), (a ≤ o ↔ c ≤ o') → (b ≤ o ↔ d ≤ o') → Span.contains ⟨a, b⟩ o = Span.contains ⟨c, d⟩ o' := by
      intro a b c d o o' h1 h2
      unfold Span.contains
      rw [Bool.eq_iff_iff]
      simp only [Bool.and_eq_true, decide_eq_true_eq]
      omega
    exact e _ _ _ _ _ _ k1 k2
  refine ⟨(ix0.reverseIdx.map Prod.snd).find? fun e => ((Move.mk g g).span e.span).contains off, ?_, ?_⟩
  · unfold symbolAt
    rw [h.rope, a1, ht.index]
    simp only [Option.bind_some, HIRIndex.findSymbolAtPosition, plIx, plRev, List.map_map]
    rw [show (Prod.snd ∘ fun e : Nat × SymbolOccurrence => ((Move.mk g g).fs e.1, plOcc (Move.mk g g) e.2)) = plOcc (Move.mk g g) ∘ Prod.snd from rfl, ← List.map_map, List.find?_map]
    rfl
  · unfold symbolAt
    rw [h.rope', b1, ht.index']
    simp only [Option.bind_some, HIRIndex.findSymbolAtPosition, plIx, plRev, List.map_map]
    rw [show (Prod.snd ∘ fun e : Nat × SymbolOccurrence => ((Move.mk g' g').fs e.1, plOcc (Move.mk g' g') e.2)) = plOcc (Move.mk g' g') ∘ Prod.snd from rfl, ← List.map_map, List.find?_map]
    congr 2
    funext e
    exact (hc e.span).symm

/-! ### The answers -/

omit [Unicode] in
theorem useDef_same (h : SameDoc T0 ts0 f g f' g' T T' doc doc') (hd : st.docs.get? uri = some doc) (hd' : st'.docs.get? uri = some doc')
    (hroots : st'.roots = st.roots) (env : Env) {p : Pos} (ud : UseDefKind) (hp : HasPosition T p) (hp' : HasPosition T' p) :
    getUseDefRanges env st' uri p ud = getUseDefRanges env st uri p ud := by
  obtain ⟨ix0, ss0, ht⟩ := h.twin
  obtain ⟨o, h1, h2⟩ := h.symbol ht hp hp'
  unfold getUseDefRanges
  simp only [hd, hd', h1, h2]
  cases o with
  | none => rfl
  | some o =>
    simp only [Option.map_some]
    rw [show (plOcc (Move.mk g g) o).symbolKind = o.symbolKind from rfl, show (plOcc (Move.mk g g) o).funcBodyId = o.funcBodyId from rfl, show (plOcc (Move.mk g g) o).name = o.name from rfl,
      show (plOcc (Move.mk g' g') o).symbolKind = o.symbolKind from rfl, show (plOcc (Move.mk g' g') o).funcBodyId = o.funcBodyId from rfl, show (plOcc (Move.mk g' g') o).name = o.name from rfl,
      show (plOcc (Move.mk g g) o).span = (Move.mk g g).span o.span from rfl, show (plOcc (Move.mk g' g') o).span = (Move.mk g' g').span o.span from rfl]
    obtain ⟨x, x1, x2⟩ := ht.table o.symbolKind o.funcBodyId
    rw [x1, x2]
    cases x with
    | panic => rfl
    | ok t =>
      simp only [Outcome.map', plMap, get?_mapVals]
      cases StrMap.get? t o.name with
      | none => rfl
      | some u =>
        simp only [Option.map_some, plUses_get, ht.locations, ht.range, hroots]
        rfl

theorem renameEdits_same (ht : Twin g g' ix0 ss0 doc doc') (env : Env) (o : SymbolOccurrence) (x : Str) :
    OutRel (ExRel List.Perm) (renameEdits env doc (plOcc (Move.mk g g) o) x) (renameEdits env doc' (plOcc (Move.mk g' g') o) x) := by
  have hrel : ∀ sign, OutRel (ExRel List.Perm) (relativeRename env doc (plOcc (Move.mk g g) o) x sign) (relativeRename env doc' (plOcc (Move.mk g' g') o) x sign) := by
    intro sign
    unfold relativeRename
    cases parseI64 (x.drop 1) with
    | none => exact rfl
    | some nr =>
      dsimp only
      cases i64Op env.build (sign * nr) with
      | panic => trivial
      | ok shift =>
        dsimp only
        rw [show (plOcc (Move.mk g g) o).name = o.name from rfl, show (plOcc (Move.mk g' g') o).name = o.name from rfl]
        cases extractNumberFromIdentifier o.name with
        | panic => trivial
        | ok y =>
          cases y with
          | none => exact rfl
          | some y =>
            dsimp only
            have := ht.shiftEdits env.ord env.build o.symbolKind o.funcBodyId y.2 shift
            rw [show (plOcc (Move.mk g g) o).symbolKind = o.symbolKind from rfl, show (plOcc (Move.mk g g) o).funcBodyId = o.funcBodyId from rfl,
              show (plOcc (Move.mk g' g') o).symbolKind = o.symbolKind from rfl, show (plOcc (Move.mk g' g') o).funcBodyId = o.funcBodyId from rfl]
            revert this
            cases getShiftEdits env.ord env.build doc.rope doc.index o.symbolKind o.funcBodyId y.2 shift <;>
              cases getShiftEdits env.ord env.build doc'.rope doc'.index o.symbolKind o.funcBodyId y.2 shift <;>
              intro this <;> first | exact this | exact List.Perm.symm this
  have habs : OutRel (ExRel List.Perm) (absoluteRename doc (plOcc (Move.mk g g) o) x) (absoluteRename doc' (plOcc (Move.mk g' g') o) x) := by
    unfold absoluteRename
    rw [show (plOcc (Move.mk g g) o).symbolKind = o.symbolKind from rfl, show (plOcc (Move.mk g g) o).funcBodyId = o.funcBodyId from rfl, show (plOcc (Move.mk g g) o).name = o.name from rfl,
      show (plOcc (Move.mk g' g') o).symbolKind = o.symbolKind from rfl, show (plOcc (Move.mk g' g') o).funcBodyId = o.funcBodyId from rfl, show (plOcc (Move.mk g' g') o).name = o.name from rfl]
    cases checkNewName o.symbolKind x with
    | panic => trivial
    | ok y =>
      cases y with
      | error e => exact rfl
      | ok name =>
        dsimp only
        obtain ⟨z, x1, x2⟩ := ht.table o.symbolKind o.funcBodyId
        rw [x1, x2]
        cases z with
        | panic => trivial
        | ok t =>
          simp only [Outcome.map', plMap, get?_mapVals]
          cases StrMap.get? t o.name with
          | none => trivial
          | some u =>
            simp only [Option.map_some, ht.renameEdits]
            exact List.Perm.refl _
  unfold renameEdits
  split
  · exact hrel 1
  · exact hrel (-1)
  · exact habs

theorem resolve_same (ht : Twin g g' ix0 ss0 doc doc') (hd : st.docs.get? uri = some doc) (hd' : st'.docs.get? uri = some doc') (env : Env)
    {a : CodeAction} {d : CodeActionData} (ha : a.data = .shift d) (hu : d.uri = uri) :
    OutRel (ExRel SameAction) (codeActionResolve env st a) (codeActionResolve env st' a) := by
  unfold codeActionResolve
  simp only [ha, hu, hd, hd']
  have := ht.shiftEdits env.ord env.build d.symbolKind d.funcBodyId d.renamedNr 1
  revert this
  cases getShiftEdits env.ord env.build doc.rope doc.index d.symbolKind d.funcBodyId d.renamedNr 1 <;>
    cases getShiftEdits env.ord env.build doc'.rope doc'.index d.symbolKind d.funcBodyId d.renamedNr 1 <;>
    intro this <;> first | exact this | exact ⟨rfl, rfl, rfl, List.Perm.symm this, trivial⟩

theorem codeAction_same (h : SameDoc T0 ts0 f g f' g' T T' doc doc') (hd : st.docs.get? uri = some doc) (hd' : st'.docs.get? uri = some doc')
    (hlazy : st'.lazyResolve = st.lazyResolve) (env : Env) {r : Range} (hp : HasPosition T r.start) (hp' : HasPosition T' r.start) :
    OutRel (ExRel fun x y => SameReply (.actions x) (.actions y)) (codeAction env st uri r) (codeAction env st' uri r) := by
  obtain ⟨ix0, ss0, ht⟩ := h.twin
  obtain ⟨o, h1, h2⟩ := h.symbol ht hp hp'
  unfold codeAction
  simp only [hd, hd', hlazy]
  split
  · exact SameReply.same
  · unfold offeredActions
    rw [h1, h2]
    cases o with
    | none =>
      simp only [Option.map_none]
      split
      · exact SameReply.same
      · exact SameReply.same
    | some o =>
      simp only [Option.map_some]
      rw [show (plOcc (Move.mk g g) o).symbolKind = o.symbolKind from rfl, show (plOcc (Move.mk g g) o).funcBodyId = o.funcBodyId from rfl, show (plOcc (Move.mk g g) o).name = o.name from rfl,
        show (plOcc (Move.mk g' g') o).symbolKind = o.symbolKind from rfl, show (plOcc (Move.mk g' g') o).funcBodyId = o.funcBodyId from rfl, show (plOcc (Move.mk g' g') o).name = o.name from rfl]
      cases extractNumberFromIdentifier o.name with
      | panic => trivial
      | ok y =>
        cases y with
        | none =>
          simp only
          split
          · exact SameReply.same
          · exact SameReply.same
        | some y =>
          simp only
          split
          · exact SameReply.same
          · have := resolve_same ht hd hd' env (a := { title := shiftTitle o.symbolKind, data := .shift { uri := uri, symbolKind := o.symbolKind, funcBodyId := o.funcBodyId, renamedNr := y.2 } }) rfl rfl
            simp only [resolveAll]
            revert this
            cases codeActionResolve env st _ with
            | panic =>
              cases codeActionResolve env st' _ with
              | panic => intro _; trivial
              | ok b => intro h; exact h.elim
            | ok a =>
              cases codeActionResolve env st' _ with
              | panic => intro h; exact h.elim
              | ok b =>
                cases a <;> cases b <;> intro h
                · trivial
                · exact h.elim
                · exact h.elim
                · exact SameReply.actions ⟨h, trivial⟩

/-! ### Highlighting -/

omit [Unicode] in
/-- The highlighted places that are not comments. -/
theorem codeHighlights_tokens (text : Str) : ∀ {toks : List Tok} {sem : List HIRSemanticToken}, semanticTokensFromTokens toks = .ok sem →
    (sem.map (highlightOf text)).filter (fun h => decide (legendType[h.type]? ≠ some .comment)) =
      (nonComments toks).filterMap fun t => (semTypeOf t.1).map fun ty => ⟨posOf text t.2.start, asU32 t.2.len, (legendType.findIdx? (fun x => decide (x = ty))).getD 0⟩
  | [], sem, h => by
    cases h
    rfl
  | (t, sp) :: toks, sem, h => by
    have ih := fun sem => codeHighlights_tokens text (toks := toks) (sem := sem)
    unfold semanticTokensFromTokens at h
    have hn : nonComments ((t, sp) :: toks) = if t = .comment then nonComments toks else (t, sp) :: nonComments toks := by
      unfold nonComments
      rw [List.filter_cons]
      by_cases hc : t = .comment <;> simp [hc]
    rw [hn]
    cases hs : semTypeOf t with
    | none =>
      simp only [hs] at h
      have hc : t ≠ .comment := by rintro rfl; cases hs
      rw [if_neg hc, List.filterMap_cons]
      simp only [hs, Option.map_none]
      exact ih _ h
    | some ty =>
      simp only [hs] at h
      have hi : ∃ i, createSemanticToken sp ty = .ok { start := sp.start, length := sp.len, tokenType := i } ∧ legendType[i]? = some ty ∧
          (legendType.findIdx? (fun x => decide (x = ty))).getD 0 = i ∧ i < 7 := by
        cases ty <;> first
          | exact ⟨0, rfl, rfl, rfl, by decide⟩ | exact ⟨1, rfl, rfl, rfl, by decide⟩ | exact ⟨2, rfl, rfl, rfl, by decide⟩
          | exact ⟨3, rfl, rfl, rfl, by decide⟩ | exact ⟨4, rfl, rfl, rfl, by decide⟩ | exact ⟨5, rfl, rfl, rfl, by decide⟩ | exact ⟨6, rfl, rfl, rfl, by decide⟩
      obtain ⟨i, h1, h2, h3, h4⟩ := hi
      rw [h1] at h
      simp only at h
      cases hr : semanticTokensFromTokens toks with
      | panic => rw [hr] at h; cases h
      | ok r =>
        rw [hr] at h
        cases h
        have e : asU32 i = i := Nat.mod_eq_of_lt (by omega)
        have hty : ty = .comment ↔ t = .comment := by
          constructor
          · rintro rfl
            cases t <;> simp [semTypeOf] at hs <;> rfl
          · rintro rfl
            cases hs
            rfl
        rw [List.map_cons, List.filter_cons, ih _ hr]
        by_cases hc : t = .comment
        · have := hty.mpr hc
          subst this
          simp [highlightOf, e, h2, hc]
        · have hne : ty ≠ .comment := fun hh => hc (hty.mp hh)
          simp [highlightOf, e, h2, hc, hs, h3, hne]

/-- The highlighting of the code depends only on the code. -/
theorem placed_highlights (h : Placed T0 T f g) (hp : Plain T) (hsize : T.length < 2 ^ 32) (h0 : Lexes 0 T0 ts0) {res : ParserResult}
    (hres : parseFromStr T = .ok res) {sem : List HIRSemanticToken} (hsem : semanticTokensFromTokens res.tokens = .ok sem)
    (hn : nonComments res.tokens = ts0.map (Move.mk f g).spanned) (hfg : ∀ t ∈ ts0, t.1 ≠ .newline → f t.2.start = g t.2.start) (b : Build) :
    ∃ ls, convertToLspTokens b T 0 0 sem = .ok ls ∧ codeHighlights ls =
      ts0.filterMap fun t => (semTypeOf t.1).map fun ty => ⟨posOf T0 t.2.start, asU32 t.2.len, (legendType.findIdx? (fun x => decide (x = ty))).getD 0⟩ := by
  obtain ⟨q1, q2⟩ := C02_token_spans hres
  obtain ⟨s1, s2, _⟩ := semanticTokens_starts hsem q1 q2
  have hzero : ∀ (t : Str) (x : Nat), PosLe ⟨0, 0⟩ (posOf t x) := by
    intro t x
    unfold PosLe
    simp only
    omega
  obtain ⟨ls, c1, c2⟩ := convert_decode b hsize (prev := ⟨0, 0⟩) s1 (fun t _ => hzero _ _) s2
  refine ⟨ls, c1, ?_⟩
  unfold codeHighlights
  rw [c2, codeHighlights_tokens T hsem, hn, List.filterMap_map]
  have hsz0 : T0.length < 2 ^ 32 := by
    have := placed_size h
    omega
  refine filterMap_congr' fun t ht => ?_
  simp only [Function.comp, Move.spanned]
  cases hs : semTypeOf t.1 with
  | none => rfl
  | some ty =>
    have hnl : t.1 ≠ .newline := by intro hc; rw [hc] at hs; cases hs
    have hst := placed_stops h0 t ht
    have hg : g t.2.start ≤ T.length := (placed_facts h).2.2.2.2.2 _ hst.1
    have e1 := hfg t ht hnl
    have e2 := placed_len h h0 t ht hnl
    have e3 : posOf T (g t.2.start) = posOf T0 t.2.start := by
      obtain ⟨q, hq, _⟩ := (C14_positions_partial hsize).1 (g t.2.start) hg (hp.to _)
      have hq' := placed_pos h hp hsize t.2.start
      rw [hq] at hq'
      rw [posOf_of hsize hg hq, posOf_of hsz0 hst.1 hq'.symm]
    simp only [Option.map_some, Move.span, Span.len, e1, e2, e3]

/-! ### The property -/

theorem requests_same {T T' : Str} {ts : List Tok} {errs errs' : List SErr} (hs : SameCode T T') (hp : Plain T) (hp' : Plain T') (hsize : T.length < 2 ^ 32)
    (hsize' : T'.length < 2 ^ 32) (hl : Lexes 0 T ts) (ha : analyze T = .ok (doc, errs)) (ha' : analyze T' = .ok (doc', errs'))
    (hd : st.docs.get? uri = some doc) (hd' : st'.docs.get? uri = some doc') (hroots : st'.roots = st.roots)
    (hlazy : st'.lazyResolve = st.lazyResolve) (env : Env) (m : Msg) (hm : About uri m) (hask : AsksIn T m) (hask' : AsksIn T' m) :
    Answers SameButComments st st' (step env st m) (step env st' m) := by
  obtain ⟨T0, ts0, f, g, f', g', hS, h0, _, ⟨_, ⟨res, r1, rfl⟩, r2, r3⟩, ⟨_, ⟨res', r1', rfl⟩, r2', r3'⟩, hfg⟩ :=
    sameCode_docs hs hp hp' hsize hsize' hl ha ha'
  obtain ⟨ix0, ss0, hT⟩ := hS.twin
  cases m with
  | gotoDefinition u p =>
    obtain rfl : u = uri := hm
    simp only [step, gotoDefinition]
    rw [useDef_same hS hd hd' hroots env .def_ hask hask']
    cases getUseDefRanges env st u p .def_ with
    | panic => trivial
    | ok r => cases r <;> exact ⟨rfl, rfl, .same .same⟩
  | gotoDeclaration u p =>
    obtain rfl : u = uri := hm
    simp only [step, gotoDeclaration]
    rw [useDef_same hS hd hd' hroots env .decl hask hask']
    cases getUseDefRanges env st u p .decl with
    | panic => trivial
    | ok r => cases r <;> exact ⟨rfl, rfl, .same .same⟩
  | references u p =>
    obtain rfl : u = uri := hm
    simp only [step, references]
    rw [useDef_same hS hd hd' hroots env .use hask hask']
    cases getUseDefRanges env st u p .use with
    | panic => trivial
    | ok r => cases r <;> exact ⟨rfl, rfl, .same .same⟩
  | semanticTokensFull u =>
    obtain rfl : u = uri := hm
    obtain ⟨ls, h1, h2⟩ := placed_highlights hS.placed hp hsize h0 r1 r2 r3 (fun t ht hn => (hfg t ht hn).1) env.build
    obtain ⟨ls', h1', h2'⟩ := placed_highlights hS.placed' hp' hsize' h0 r1' r2' r3' (fun t ht hn => (hfg t ht hn).2) env.build
    simp only [step, semanticTokensFull, hd, hd', hS.rope, hS.rope', h1, h1']
    exact ⟨rfl, rfl, .tokens (h2.trans h2'.symm)⟩
  | documentSymbol u =>
    obtain rfl : u = uri := hm
    simp only [step, documentSymbol, hd, hd', Option.map_some]
    exact ⟨rfl, rfl, .same (.symbols (hT.outline env.ord).symm)⟩
  | prepareRename u p =>
    obtain rfl : u = uri := hm
    obtain ⟨o, h1, h2⟩ := hS.symbol hT hask hask'
    simp only [step, prepareRename, hd, hd', h1, h2]
    refine ⟨rfl, rfl, .same ?_⟩
    cases o with
    | none => exact .same
    | some o =>
      simp only [Option.map_some]
      rw [show (plOcc (Move.mk g g) o).span = (Move.mk g g).span o.span from rfl, show (plOcc (Move.mk g' g') o).span = (Move.mk g' g').span o.span from rfl, hT.range]
      exact .same
  | rename u p x =>
    obtain rfl : u = uri := hm
    obtain ⟨o, h1, h2⟩ := hS.symbol hT hask hask'
    refine answers_of_rel (R := SameEdits) ?_ (fun _ _ h => .same (.edit h)) (fun _ => .same .same)
    unfold rename
    simp only [hd, hd', h1, h2]
    cases o with
    | none => exact rfl
    | some o =>
      simp only [Option.map_some]
      have := renameEdits_same hT env o x
      revert this
      cases renameEdits env doc (plOcc (Move.mk g g) o) x with
      | panic => cases renameEdits env doc' (plOcc (Move.mk g' g') o) x <;> intro h <;> first | exact h.elim | trivial
      | ok a =>
        cases renameEdits env doc' (plOcc (Move.mk g' g') o) x with
        | panic => intro h; exact h.elim
        | ok b => cases a <;> cases b <;> intro h <;> first | exact h | exact ⟨rfl, h, trivial⟩
  | codeAction u r =>
    obtain rfl : u = uri := hm
    exact answers_of_rel (codeAction_same hS hd hd' hlazy env hask hask') (fun _ _ h => .same h) (fun _ => .same .same)
  | codeActionResolve a =>
    obtain ⟨d, h1, h2⟩ := hm
    exact answers_of_rel (resolve_same hT hd hd' env h1 h2) (fun _ _ h => .same (.action h)) (fun _ => .same .same)
  | foldingRange u =>
    obtain rfl : u = uri := hm
    simp only [step, foldingRange, hd, hd', Option.map_some, hT.folds]
    exact ⟨rfl, rfl, .same .same⟩
  | inlayHint u =>
    obtain rfl : u = uri := hm
    simp only [step, inlayHint, hd, hd', hroots, hT.backtraces, hT.incoming, hT.ends]
    cases backtraceHints env st.roots doc with
    | panic => trivial
    | ok bt => exact ⟨rfl, rfl, .same .same⟩
  | codeLens u =>
    obtain rfl : u = uri := hm
    simp only [step, codeLens, hd, hd', Option.map_some]
    exact ⟨rfl, rfl, .same (.lenses (hT.lenses env.ord _).symm)⟩
  | executeCommand c as =>
    obtain ⟨rfl, f, rfl⟩ := hm
    obtain ⟨x, h1, h2⟩ := hT.findFunction f
    simp only [step, executeCommand, hd, hd', decide_true, h1, h2]
    refine ⟨rfl, rfl, .same ?_⟩
    cases x with
    | none => exact .same
    | some fb =>
      simp only [Option.map_some, createCfgDot_placed]
      exact .same
  | _ => exact hm.elim

/-- C72: two ASCII texts without lexical errors that differ only in blanks and comments at the end of lines, and in the style of the
line ends: every request about a place that both have gets the same answer, but for the highlighting of the comments themselves. -/
theorem C72_requests {T T' : Str} {ts : List Tok} (hs : SameCode T T') (hp : Plain T) (hp' : Plain T') (hsize : T.length < 2 ^ 32)
    (hsize' : T'.length < 2 ^ 32) (hl : Lexes 0 T ts) (hopen : Opened st uri T) (hopen' : Opened st' uri T') (hroots : st'.roots = st.roots)
    (hlazy : st'.lazyResolve = st.lazyResolve) (env : Env) (m : Msg) (hm : About uri m) (hask : AsksIn T m) (hask' : AsksIn T' m) :
    Answers SameButComments st st' (step env st m) (step env st' m) := by
  obtain ⟨doc, errs, ha, hd⟩ := hopen
  obtain ⟨doc', errs', ha', hd'⟩ := hopen'
  exact requests_same hs hp hp' hsize hsize' hl ha ha' hd hd' hroots hlazy env m hm hask hask'

/-- C72: the problems reported are the same ones; at most, what is reported as a syntax error starts at another column of its line.
Without syntax errors, the reports are equal up to their order. -/
theorem C72_diagnostics {T T' : Str} {ts : List Tok} {v v' : Int} {p p' : Publish} {st0 st1 st0' st1' : ServerState} {env : Env} (hs : SameCode T T')
    (hp : Plain T) (hp' : Plain T') (hsize : T.length < 2 ^ 32) (hsize' : T'.length < 2 ^ 32) (hl : Lexes 0 T ts) (hb : T = [] ∨ ¬ Blank T)
    (hb' : T' = [] ∨ ¬ Blank T') (h : onChange env st0 uri v T = .ok (st1, p)) (h' : onChange env st0' uri v' T' = .ok (st1', p')) :
    (∃ ds, ds.Perm p'.diagnostics ∧ SameProblems p.diagnostics ds) ∧
    ((∃ res, parseFromStr T = .ok res ∧ res.errors = []) → p'.diagnostics.Perm p.diagnostics) := by
  unfold onChange at h h'
  cases ha : analyze T with
  | panic => rw [ha] at h; cases h
  | ok x =>
    cases ha' : analyze T' with
    | panic => rw [ha'] at h'; cases h'
    | ok x' =>
      obtain ⟨doc, errs⟩ := x
      obtain ⟨doc', errs'⟩ := x'
      rw [ha] at h
      rw [ha'] at h'
      simp only [Outcome.ok.injEq, Prod.mk.injEq] at h h'
      obtain ⟨_, rfl⟩ := h
      obtain ⟨_, rfl⟩ := h'
      obtain ⟨T0, ts0, f, g, f', g', hS, h0, ⟨es, he, he'⟩, _⟩ := sameCode_docs hs hp hp' hsize hsize' hl ha ha'
      obtain ⟨ix0, ss0, hT⟩ := hS.twin
      have he := he hb
      have he' := he' hb'
      have hrest := (hT.indexDiagnostics env.ord uri)
      have hsame : ∀ l : List Diagnostic, SameProblems l l := by
        intro l
        induction l with
        | nil => trivial
        | cons d l ih => exact ⟨⟨rfl, rfl, rfl, rfl⟩, ih⟩
      have happ : ∀ {a b c d : List Diagnostic}, SameProblems a b → SameProblems c d → SameProblems (a ++ c) (b ++ d) := by
        intro a b c d h1 h2
        induction a generalizing b with
        | nil => cases b with
          | nil => exact h2
          | cons y b => exact h1.elim
        | cons x a ih => cases b with
          | nil => exact h1.elim
          | cons y b => exact ⟨h1.1, ih h1.2⟩
      have hall : ∀ es : List (LErr Token), SameProblems (diagnosticsFromParser T (es.map fun e => ((Move.mk f g).err e).toSErr Token.display))
          (diagnosticsFromParser T' (es.map fun e => ((Move.mk f' g').err e).toSErr Token.display)) := by
        intro es
        unfold diagnosticsFromParser
        induction es with
        | nil => trivial
        | cons e es ih =>
          simp only [List.map_cons, List.filterMap_cons]
          have l1 := placed_line hS.placed hp hsize e.span.start
          have l2 := placed_line hS.placed' hp' hsize' e.span.start
          have s1 := placed_pos hS.placed hp hsize e.span.stop
          have s2 := placed_pos hS.placed' hp' hsize' e.span.stop
          rw [← l2] at l1
          rw [← s2] at s1
          rw [show (((Move.mk f g).err e).toSErr Token.display).span = ⟨f e.span.start, g e.span.stop⟩ from rfl,
            show (((Move.mk f' g').err e).toSErr Token.display).span = ⟨f' e.span.start, g' e.span.stop⟩ from rfl]
          have k1 : ∀ (t : Str) (x y : Nat), rangeToLsp t ⟨x, y⟩ = (offsetToLspPos t x).bind fun a => (offsetToLspPos t y).map fun b => ⟨a, b⟩ := by
            intro t x y
            unfold rangeToLsp
            cases offsetToLspPos t x <;> cases offsetToLspPos t y <;> rfl
          rw [k1, k1, s1]
          revert l1
          cases offsetToLspPos T (f e.span.start) with
          | none =>
            cases offsetToLspPos T' (f' e.span.start) with
            | none => intro _; exact ih
            | some b => intro hh; cases hh
          | some a =>
            cases offsetToLspPos T' (f' e.span.start) with
            | none => intro hh; cases hh
            | some b =>
              intro hh
              simp only [Option.map_some, Option.some.injEq] at hh
              cases offsetToLspPos T' (g' e.span.stop) with
              | none => exact ih
              | some c => exact ⟨⟨rfl, rfl, rfl, hh.symm⟩, ih⟩
      have hparser : SameProblems (diagnosticsFromParser doc.rope errs) (diagnosticsFromParser doc'.rope errs') := by
        rw [he, he', hS.rope, hS.rope']
        exact hall es
      constructor
      · refine ⟨diagnosticsFromParser doc'.rope errs' ++ diagnosticsFromStatements doc.rope doc.stmts ++ diagnosticsFromIndex env.ord doc.rope uri doc.index, ?_, ?_⟩
        · unfold documentDiagnostics
          rw [hT.statementDiagnostics]
          exact hrest.symm.append_left _
        · unfold documentDiagnostics
          exact happ (happ hparser (hsame _)) (hsame _)
      · rintro ⟨res, k1, k2⟩
        obtain ⟨res', k3, _, _, k4, _⟩ := analyze_inv ha
        rw [k1] at k3
        cases k3
        rw [k2] at k4
        have : es = [] := by
          rw [k4] at he
          exact List.map_eq_nil_iff.mp he.symm
        rw [this] at he'
        unfold documentDiagnostics
        rw [hT.statementDiagnostics, k4, he']
        exact hrest.append_left _

end

/-! ### Concrete cases -/

section
attribute [local instance] asciiUnicode

theorem code_simple {w : Str} (h : ∀ c ∈ w, c ≠ '#' ∧ c ≠ '"' ∧ c ≠ '\n' ∧ c ≠ '\r') : Code w := by
  induction w with
  | nil => exact .nil
  | cons c w ih =>
    obtain ⟨h1, h2, h3, h4⟩ := h c (by simp)
    exact .char h1 h2 h3 h4 (ih fun d hd => h d (by simp [hd]))

theorem remark_none : Remark [] := ⟨[], by unfold Blank; decide, .inl rfl⟩

/-- A document, and the same one with remarks and other line ends. -/
def bareText : Str := c!"declare int8 @f()\ndefine int8 @g(int8 %x) {\nb1:\n int8 %2 = call int8 @f()\n call void @h(ptr \"a#b\")\n return %2\n}\n"
def remarkedText : Str := c!"declare int8 @f() # see @g\r\ndefine int8 @g(int8 %x) { \t\nb1:#entry\r\n int8 %2 = call int8 @f() ## \"\n call void @h(ptr \"a#b\") \r\n return %2\n}# done\n #end"

theorem bare_remarked : SameCode bareText remarkedText := by
  refine .line (w := c!"declare int8 @f()") (c := []) (c' := c!" # see @g") (e := c!"\n") (e' := c!"\r\n") (code_simple (by decide)) remark_none
    ⟨c!" ", by unfold Blank; decide, .inr ⟨c!" see @g", rfl, by unfold NoEol; decide⟩⟩ (.inl rfl) (.inr rfl) ?_
  refine .line (w := c!"define int8 @g(int8 %x) {") (c := []) (c' := c!" \t") (e := c!"\n") (e' := c!"\n") (code_simple (by decide)) remark_none
    ⟨c!" \t", by unfold Blank; decide, .inl rfl⟩ (.inl rfl) (.inl rfl) ?_
  refine .line (w := c!"b1:") (c := []) (c' := c!"#entry") (e := c!"\n") (e' := c!"\r\n") (code_simple (by decide)) remark_none
    ⟨[], by unfold Blank; decide, .inr ⟨c!"entry", rfl, by unfold NoEol; decide⟩⟩ (.inl rfl) (.inr rfl) ?_
  refine .line (w := c!" int8 %2 = call int8 @f()") (c := []) (c' := c!" ## \"") (e := c!"\n") (e' := c!"\n") (code_simple (by decide)) remark_none
    ⟨c!" ", by unfold Blank; decide, .inr ⟨c!"# \"", rfl, by unfold NoEol; decide⟩⟩ (.inl rfl) (.inl rfl) ?_
  refine .line (w := c!" call void @h(ptr \"a#b\")") (c := []) (c' := c!" ") (e := c!"\n") (e' := c!"\r\n") ?_ remark_none
    ⟨c!" ", by unfold Blank; decide, .inl rfl⟩ (.inl rfl) (.inr rfl) ?_
  · iterate 18 refine .char (by decide) (by decide) (by decide) (by decide) ?_
    exact .str (s := c!"a#b") (w := c!")") (by decide) (code_simple (by decide))
  refine .line (w := c!" return %2") (c := []) (c' := []) (e := c!"\n") (e' := c!"\n") (code_simple (by decide)) remark_none
    remark_none (.inl rfl) (.inl rfl) ?_
  refine .line (w := c!"}") (c := []) (c' := c!"# done") (e := c!"\n") (e' := c!"\n") (code_simple (by decide)) remark_none
    ⟨[], by unfold Blank; decide, .inr ⟨c!" done", rfl, by unfold NoEol; decide⟩⟩ (.inl rfl) (.inl rfl) ?_
  exact .last (w := []) (c := []) (c' := c!" #end") .nil remark_none ⟨c!" ", by unfold Blank; decide, .inr ⟨c!"end", rfl, by unfold NoEol; decide⟩⟩

/-- The hypotheses hold for them. -/
example : ∃ ts, Lexes 0 bareText ts := by
  have h : tokenize bareText = .ok (some (readOf bareText).tokens, []) := by decide +kernel
  exact ⟨_, lexesErr_lexes (tokenize_sound h) rfl⟩
example : Opened (serverWith [workspace] c!"u" bareText) c!"u" bareText := serverWith_opened (by decide +kernel)
example : Opened (serverWith [workspace] c!"u" remarkedText) c!"u" remarkedText := serverWith_opened (by decide +kernel)
example : bareText.length < 2 ^ 32 ∧ remarkedText.length < 2 ^ 32 ∧ (readOf bareText).stmts ≠ [] := by decide +kernel
example : Plain bareText ∧ Plain remarkedText := by unfold Plain; decide +kernel

example : HasPosition bareText ⟨1, 13⟩ ∧ HasPosition remarkedText ⟨1, 13⟩ := by
  refine ⟨⟨18 + 13, 18, c!"define int8 @g(int8 %x) {", ?_, by decide, rfl⟩, ⟨28 + 13, 28, c!"define int8 @g(int8 %x) { \t", ?_, by decide, rfl⟩⟩
  · exact .later (content := c!"declare int8 @f()") (eol := c!"\n") (by decide) (.inl rfl) (by simp)
      (.here (content := c!"define int8 @g(int8 %x) {") (tail := bareText.drop 43) (by decide) (by intro c cs h; left; simp [bareText] at h; exact h.1.symm))
  · exact .later (content := c!"declare int8 @f() # see @g") (eol := c!"\r\n") (by decide) (.inr (.inl rfl)) (by simp)
      (.here (content := c!"define int8 @g(int8 %x) { \t") (tail := remarkedText.drop 55) (by decide) (by intro c cs h; left; simp [remarkedText] at h; exact h.1.symm))

/-- The use of `@f` is found at the same place, and leads to the same declaration. -/
example : ∃ l, gotoDeclaration debugEnv (serverWith [workspace] c!"u" bareText) c!"u" ⟨3, 22⟩ = .ok (some l) ∧
    gotoDeclaration debugEnv (serverWith [workspace] c!"u" remarkedText) c!"u" ⟨3, 22⟩ = .ok (some l) ∧
    l = [{ origin := ⟨⟨3, 21⟩, ⟨3, 23⟩⟩, target := { uri := c!"u", range := ⟨⟨0, 13⟩, ⟨0, 15⟩⟩ } }] :=
  ⟨_, by decide +kernel, by decide +kernel, rfl⟩

/-- The problems reported for a text. -/
def reportOf (text : Str) : List Diagnostic :=
  match onChange debugEnv {} c!"u" 0 text with
  | .ok (_, p) => p.diagnostics
  | .panic => []

/-- `@h` is not defined. -/
example : (reportOf bareText).length = 1 ∧ reportOf remarkedText = reportOf bareText := by decide +kernel

/-- The comments have to be in ASCII: behind a comment with an `é`, the ranges are off by one. -/
theorem C72_refuted_non_ascii : ∃ T T' : Str, SameCode T T' ∧ Plain T ∧ Opened (serverWith [] c!"u" T) c!"u" T ∧
    Opened (serverWith [] c!"u" T') c!"u" T' ∧
    prepareRename (serverWith [] c!"u" T) c!"u" ⟨1, 2⟩ = some ⟨⟨1, 0⟩, ⟨1, 3⟩⟩ ∧
    prepareRename (serverWith [] c!"u" T') c!"u" ⟨1, 2⟩ = some ⟨⟨0, 9⟩, ⟨1, 2⟩⟩ :=
  ⟨c!"@a = 1\n@bc = 2\n", c!"@a = 1 #é\n@bc = 2\n",
    .line (w := c!"@a = 1") (c := []) (c' := c!" #é") (e := c!"\n") (e' := c!"\n") (l := c!"@bc = 2\n") (l' := c!"@bc = 2\n") (code_simple (by decide)) remark_none
      ⟨c!" ", by unfold Blank; decide, .inr ⟨c!"é", rfl, by unfold NoEol; decide⟩⟩ (.inl rfl) (.inl rfl)
      (.line (w := c!"@bc = 2") (c := []) (c' := []) (e := c!"\n") (e' := c!"\n") (l := []) (l' := []) (code_simple (by decide)) remark_none remark_none
        (.inl rfl) (.inl rfl) (.last (w := []) (c := []) (c' := []) .nil remark_none remark_none)),
    by decide +kernel, serverWith_opened (by decide +kernel), serverWith_opened (by decide +kernel), by decide +kernel, by decide +kernel⟩

/-- Positions behind the end of a line are taken for positions of the next lines; a remark changes what is found there. -/
theorem C72_refuted_beyond : ∃ T T' : Str, SameCode T T' ∧ Plain T ∧ Plain T' ∧ Opened (serverWith [] c!"u" T) c!"u" T ∧
    Opened (serverWith [] c!"u" T') c!"u" T' ∧
    prepareRename (serverWith [] c!"u" T) c!"u" ⟨0, 6⟩ = some ⟨⟨1, 0⟩, ⟨1, 3⟩⟩ ∧
    prepareRename (serverWith [] c!"u" T') c!"u" ⟨0, 6⟩ = none :=
  ⟨c!"@a=1\n@bc = 2\n", c!"@a=1#see below\n@bc = 2\n",
    .line (w := c!"@a=1") (c := []) (c' := c!"#see below") (e := c!"\n") (e' := c!"\n") (l := c!"@bc = 2\n") (l' := c!"@bc = 2\n") (code_simple (by decide)) remark_none
      ⟨[], by unfold Blank; decide, .inr ⟨c!"see below", rfl, by unfold NoEol; decide⟩⟩ (.inl rfl) (.inl rfl)
      (.line (w := c!"@bc = 2") (c := []) (c' := []) (e := c!"\n") (e' := c!"\n") (l := []) (l' := []) (code_simple (by decide)) remark_none remark_none
        (.inl rfl) (.inl rfl) (.last (w := []) (c := []) (c' := []) .nil remark_none remark_none)),
    by decide +kernel, by decide +kernel, serverWith_opened (by decide +kernel), serverWith_opened (by decide +kernel), by decide +kernel, by decide +kernel⟩

/-- A syntax error at the line end is reported behind the remark. -/
theorem C72_refuted_column : ∃ T T' : Str, SameCode T T' ∧ Plain T ∧ Plain T' ∧
    (reportOf T).map (·.range) = [⟨⟨0, 16⟩, ⟨1, 0⟩⟩, ⟨⟨0, 12⟩, ⟨0, 14⟩⟩] ∧ (reportOf T').map (·.range) = [⟨⟨0, 19⟩, ⟨1, 0⟩⟩, ⟨⟨0, 12⟩, ⟨0, 14⟩⟩] :=
  ⟨c!"define int8 @a()\n{\n", c!"define int8 @a() #x\n{\n",
    .line (w := c!"define int8 @a()") (c := []) (c' := c!" #x") (e := c!"\n") (e' := c!"\n") (l := c!"{\n") (l' := c!"{\n") (code_simple (by decide)) remark_none
      ⟨c!" ", by unfold Blank; decide, .inr ⟨c!"x", rfl, by unfold NoEol; decide⟩⟩ (.inl rfl) (.inl rfl)
      (.line (w := c!"{") (c := []) (c' := []) (e := c!"\n") (e' := c!"\n") (l := []) (l' := []) (code_simple (by decide)) remark_none remark_none
        (.inl rfl) (.inl rfl) (.last (w := []) (c := []) (c' := []) .nil remark_none remark_none)),
    by decide +kernel, by decide +kernel, by decide +kernel, by decide +kernel⟩

/-- A problem is reported for a document of one blank, but none for the empty document. -/
theorem C72_refuted_blank : ∃ T T' : Str, SameCode T T' ∧ (reportOf T).length = 0 ∧ (reportOf T').length = 1 :=
  ⟨[], c!" ", .last (w := []) (c := []) (c' := c!" ") .nil remark_none ⟨c!" ", by unfold Blank; decide, .inl rfl⟩, by decide +kernel, by decide +kernel⟩

end
end HyperIR
