import Verif.Proofs.MovedServer
import Verif.Props.Compose
import Verif.Props.SemanticToken

/-! C71: comment lines above a document. -/

namespace HyperIR
open Spec

/-! ### Blocks of comments -/

theorem commentBlock_lines {n : Nat} {A : Str} (h : CommentBlock n A) : CommentLines A := by
  induction h with
  | nil => exact .nil
  | @line n b c eol l hb hc he _ ih =>
    rcases hc with rfl | ⟨t, rfl, _, h2⟩
    · rcases he with rfl | rfl
      · simpa using CommentLines.blank hb ih
      · simpa using CommentLines.blankCr hb ih
    · have hn : '\n' ∉ t := fun hm => (h2 _ hm).1 rfl
      rcases he with rfl | rfl
      · simpa using CommentLines.comment hb hn ih
      · have : '\n' ∉ t ++ ['\r'] := by simp [hn]
        simpa using CommentLines.comment hb this ih

theorem blank_plain {b : Str} (h : Blank b) : Plain b ∧ NoEol b := by
  constructor
  · intro c hc
    rcases h c hc with rfl | rfl <;> decide
  · intro c hc
    rcases h c hc with rfl | rfl <;> decide

theorem commentBlock_plain {n : Nat} {A : Str} (h : CommentBlock n A) : Plain A := by
  induction h with
  | nil => intro c hc; cases hc
  | @line n b c eol l hb hc he _ ih =>
    have hb' := (blank_plain hb).1
    have hcp : Plain c := by
      rcases hc with rfl | ⟨t, rfl, h1, _⟩
      · intro c hc; cases hc
      · intro d hd
        rcases List.mem_cons.mp hd with rfl | hd
        · decide
        · exact h1 d hd
    have hep : Plain eol := by rcases he with rfl | rfl <;> decide
    intro d hd
    simp only [List.mem_append] at hd
    rcases hd with ((hd | hd) | hd) | hd
    · exact hb' d hd
    · exact hcp d hd
    · exact hep d hd
    · exact ih d hd

theorem commentBlock_lined {n : Nat} {A : Str} (h : CommentBlock n A) : Lined A := by
  induction h with
  | nil => exact .inl rfl
  | @line n b c eol l _ _ he _ ih =>
    right
    rcases ih with rfl | ⟨l', rfl⟩
    · rcases he with rfl | rfl
      · exact ⟨b ++ c, by simp⟩
      · exact ⟨b ++ c ++ ['\r'], by simp⟩
    · exact ⟨b ++ c ++ eol ++ l', by simp⟩

theorem linesOf_noEol {w : Str} {rest : Str} (hp : Plain w) (h : NoEol w) : linesOf (w ++ rest) = linesOf rest := by
  induction w with
  | nil => rfl
  | cons c w ih =>
    rw [List.cons_append, linesOf_cons, ih (fun d hd => hp d (by simp [hd])) (fun d hd => h d (by simp [hd]))]
    have hb : isLineBreak c (w ++ rest) = false := by
      have h1 := hp c (by simp)
      have h2 := h c (by simp)
      have h3 : c.toNat ≠ 10 := fun e => h2.1 (Char.ext (UInt32.toNat_inj.mp e))
      unfold isLineBreak
      rw [if_neg h2.2]
      simp only [decide_eq_false_iff_not]
      omega
    simp [hb]

theorem commentBlock_count {n : Nat} {A : Str} (h : CommentBlock n A) : linesOf A = n := by
  induction h with
  | nil => rfl
  | @line n b c eol l hb hc he _ ih =>
    have hb' := blank_plain hb
    rw [List.append_assoc, List.append_assoc, linesOf_noEol hb'.1 hb'.2]
    have hce : Plain c ∧ NoEol c := by
      rcases hc with rfl | ⟨t, rfl, h1, h2⟩
      · exact ⟨(by intro c hc; cases hc), (by intro c hc; cases hc)⟩
      · constructor
        · intro d hd
          rcases List.mem_cons.mp hd with rfl | hd
          · decide
          · exact h1 d hd
        · intro d hd
          rcases List.mem_cons.mp hd with rfl | hd
          · decide
          · exact h2 d hd
    rw [linesOf_noEol hce.1 hce.2]
    rcases he with rfl | rfl
    · rw [List.cons_append, List.nil_append, linesOf_cons, ih, show isLineBreak '\n' l = true from by simp [isLineBreak]]
      simp only [if_true]
      omega
    · rw [List.cons_append, linesOf_cons, show isLineBreak '\r' (['\n'] ++ l) = false from by simp [isLineBreak], List.cons_append, List.nil_append,
        linesOf_cons, ih, show isLineBreak '\n' l = true from by simp [isLineBreak]]
      simp only [if_true, Bool.false_eq_true, if_false]
      omega

/-! ### Highlighting -/

def mvSem (k : Nat) (t : HIRSemanticToken) : HIRSemanticToken := { t with start := t.start + k }

theorem semanticTokens_append {a b : List Tok} {x y : List HIRSemanticToken} (ha : semanticTokensFromTokens a = .ok x)
    (hb : semanticTokensFromTokens b = .ok y) : semanticTokensFromTokens (a ++ b) = .ok (x ++ y) := by
  induction a generalizing x with
  | nil => cases ha; exact hb
  | cons t a ih =>
    obtain ⟨t, sp⟩ := t
    simp only [semanticTokensFromTokens, List.cons_append] at ha ⊢
    cases hs : semTypeOf t with
    | none => rw [hs] at ha; exact ih ha
    | some ty =>
      rw [hs] at ha
      simp only at ha ⊢
      cases hc : createSemanticToken sp ty with
      | panic => rw [hc] at ha; cases ha
      | ok st =>
        rw [hc] at ha
        simp only at ha ⊢
        cases hr : semanticTokensFromTokens a with
        | panic => rw [hr] at ha; cases ha
        | ok r =>
          rw [hr] at ha
          simp only [Outcome.ok.injEq] at ha
          subst ha
          rw [ih hr]
          rfl

theorem semanticTokens_moved {k : Nat} (a : List Tok) :
    semanticTokensFromTokens (a.map (moved k)) = (semanticTokensFromTokens a).map' (List.map (mvSem k)) := by
  induction a with
  | nil => rfl
  | cons t a ih =>
    obtain ⟨t, sp⟩ := t
    simp only [semanticTokensFromTokens, List.map_cons, moved, movedSpan] at ih ⊢
    rw [ih]
    cases semTypeOf t with
    | none => rfl
    | some ty =>
      simp only
      have hc : createSemanticToken { start := sp.start + k, stop := sp.stop + k } ty = (createSemanticToken sp ty).map' (mvSem k) := by
        unfold createSemanticToken
        split
        · simp only [Outcome.map', mvSem, Span.len, Outcome.ok.injEq, HIRSemanticToken.mk.injEq, true_and, and_true]
          omega
        · rfl
      rw [hc]
      cases createSemanticToken sp ty with
      | panic => rfl
      | ok st =>
        simp only [Outcome.map']
        cases semanticTokensFromTokens a <;> rfl

/-- What a decoded token says. -/
def highlightOf (text : Str) (t : HIRSemanticToken) : Highlight := ⟨posOf text t.start, asU32 t.length, asU32 t.tokenType⟩

theorem convert_decode (b : Build) {text : Str} (hsize : text.length < 2 ^ 32) : ∀ {sem : List HIRSemanticToken} {prev : Pos},
    (∀ t ∈ sem, t.start ≤ utf8Len text) → (∀ t ∈ sem, PosLe prev (posOf text t.start)) → sem.Pairwise (fun a b => a.start ≤ b.start) →
    ∃ ls, convertToLspTokens b text prev.line prev.character sem = .ok ls ∧ decode prev ls = sem.map (highlightOf text)
  | [], prev, _, _, _ => ⟨[], rfl, rfl⟩
  | t :: sem, prev, hin, hprev, hord => by
    rw [List.pairwise_cons] at hord
    obtain ⟨ls, h1, h2⟩ := convert_decode b hsize (sem := sem) (prev := posOf text t.start) (fun t ht => hin t (by simp [ht]))
      (fun t' ht' => posOf_mono (hord.1 t' ht')) hord.2
    have hpl := hprev t (by simp)
    have hline : prev.line ≤ (posOf text t.start).line := by rcases hpl with h | h <;> omega
    unfold convertToLspTokens
    simp only [semPos_eq b hsize (hin t (by simp)), h1]
    rw [show u32Sub b (posOf text t.start).line prev.line = .ok ((posOf text t.start).line - prev.line) from if_pos hline]
    simp only
    by_cases h0 : (posOf text t.start).line - prev.line = 0
    · have hch : prev.character ≤ (posOf text t.start).character := by rcases hpl with h | h <;> omega
      rw [if_pos h0, show u32Sub b (posOf text t.start).character prev.character = .ok ((posOf text t.start).character - prev.character) from if_pos hch]
      refine ⟨_, rfl, ?_⟩
      simp only [decode, h0, if_true, Nat.add_zero, List.map_cons]
      have e : (⟨prev.line, prev.character + ((posOf text t.start).character - prev.character)⟩ : Pos) = posOf text t.start := by
        rcases hpl with h | h
        · omega
        · rw [h.1, Nat.add_sub_cancel' hch]
      rw [e, h2]
      rfl
    · rw [if_neg h0]
      refine ⟨_, rfl, ?_⟩
      simp only [decode, h0, if_false, List.map_cons]
      rw [Nat.add_sub_cancel' hline]
      rw [← h2]
      rfl

theorem posOf_behind {A B : Str} (h : Under A B) (off : Nat) : posOf (A ++ B) (off + A.length) = lowerPos (linesOf A) (posOf B off) := by
  have h1 := lineToChar_byteToLine (off + A.length) (A ++ B)
  rw [byteToLine_behind h.lined h.ascii, lineToChar_behind h.lined, lineToChar_byteToLine] at h1
  simp only [Option.map_some, Option.some.injEq] at h1
  simp only [posOf, lowerPos, Pos.mk.injEq]
  rw [byteToLine_behind h.lined h.ascii, byteToChar_behind h.ascii, ← h1]
  omega

theorem byteToLine_above {A : Str} (hl : Lined A) (ha : Ascii A) (B : Str) {b : Nat} (hb : b < A.length) : byteToLine b (A ++ B) < linesOf A := by
  induction A generalizing b with
  | nil => simp at hb
  | cons c A ih =>
    rw [linesOf_cons, List.cons_append]
    simp only [byteToLine]
    rw [utf8Size_ascii (ha c (by simp)), isLineBreak_behind hl]
    have ht := lined_tail hl
    simp only [List.length_cons] at hb
    have hpos : 0 < (if isLineBreak c A = true then 1 else 0) + linesOf A := by
      cases A with
      | nil => rw [ht.2 rfl]; decide
      | cons d A =>
        have := ih ht.1 (fun d hd => ha d (by simp [hd])) (b := 0) (by simp)
        omega
    split
    · rename_i h1
      have := ih ht.1 (fun d hd => ha d (by simp [hd])) (b := b - 1) (by omega)
      omega
    · exact hpos

theorem semanticTokens_starts {text : Str} {toks : List Tok} {sem : List HIRSemanticToken} (h : semanticTokensFromTokens toks = .ok sem)
    (hin : ∀ t ∈ toks, Inside text.length t.2) (hord : InOrder (toks.map Prod.snd)) :
    (∀ t ∈ sem, t.start ≤ utf8Len text) ∧ sem.Pairwise (fun a b => a.start ≤ b.start) ∧ ∀ t ∈ sem, ∃ t' ∈ toks, t.start = t'.2.start ∧
      ∃ ty, Class t'.1 ty ∧ legendType[t.tokenType]? = some ty := by
  induction toks generalizing sem with
  | nil => cases h; simp
  | cons t toks ih =>
    obtain ⟨t, sp⟩ := t
    rw [List.map_cons, InOrder, List.pairwise_cons] at hord
    simp only [semanticTokensFromTokens] at h
    cases hs : semTypeOf t with
    | none =>
      rw [hs] at h
      obtain ⟨h1, h2, h3⟩ := ih h (fun t ht => hin t (by simp [ht])) hord.2
      exact ⟨h1, h2, fun t ht => by obtain ⟨t', h4, h5⟩ := h3 t ht; exact ⟨t', by simp [h4], h5⟩⟩
    | some ty =>
      rw [hs] at h
      obtain ⟨i, hi1, hi2⟩ := createSemanticToken_total sp ty
      simp only [hi1] at h
      cases hr : semanticTokensFromTokens toks with
      | panic => rw [hr] at h; cases h
      | ok r =>
        rw [hr] at h
        simp only [Outcome.ok.injEq] at h
        subst h
        obtain ⟨h1, h2, h3⟩ := ih hr (fun t ht => hin t (by simp [ht])) hord.2
        have hi := hin (t, sp) (by simp)
        have hb := length_le_utf8Len text
        simp only [Inside] at hi
        refine ⟨?_, ?_, ?_⟩
        · intro x hx
          rcases List.mem_cons.mp hx with rfl | hx
          · simp only; omega
          · exact h1 x hx
        · rw [List.pairwise_cons]
          refine ⟨?_, h2⟩
          intro x hx
          obtain ⟨t', h4, h5, _⟩ := h3 x hx
          have := hord.1 _ (List.mem_map_of_mem h4)
          simp only at this ⊢
          omega
        · intro x hx
          rcases List.mem_cons.mp hx with rfl | hx
          · exact ⟨_, List.mem_cons_self .., rfl, ty, semTypeOf_iff.mp hs, hi2⟩
          · obtain ⟨t', h4, h5⟩ := h3 x hx
            exact ⟨t', by simp [h4], h5⟩

section
variable [Unicode]

/-- The analysis of a document below comments is the analysis of the document, moved. -/
theorem analyze_below {n : Nat} {A B : Str} {doc doc' : AnalyzedDocument} {errs errs' : List SErr} (hA : CommentBlock n A)
    (hsize : (A ++ B).length < 2 ^ 32) (h : analyze B = .ok (doc, errs)) (hs : doc.stmts ≠ []) (h' : analyze (A ++ B) = .ok (doc', errs')) :
    MovedDoc A B doc doc' ∧ errs' = errs.map (movedErr A.length) ∧
    ∀ env : Env, ∃ ls ls' above, convertToLspTokens env.build B 0 0 doc.semanticTokens = .ok ls ∧
      convertToLspTokens env.build (A ++ B) 0 0 doc'.semanticTokens = .ok ls' ∧
      decode ⟨0, 0⟩ ls' = above ++ (decode ⟨0, 0⟩ ls).map (lowerHighlight n) ∧
      ∀ x ∈ above, x.start.line < n ∧ legendType[x.type]? = some .comment := by
  obtain ⟨resB, h1, h2, h3, h4, h5, h6⟩ := analyze_inv h
  obtain ⟨res', k1, k2, k3, k4, k5, k6⟩ := analyze_inv h'
  have hascii : Ascii A := (commentBlock_plain hA).ascii
  have hu : Under A B := ⟨commentBlock_lined hA, hascii, hsize⟩
  obtain ⟨ts, errors, e1, e2, e3⟩ := C70_comment_lines (commentBlock_lines hA) h1 (h3 ▸ hs)
  rw [k1] at e1
  simp only [Outcome.ok.injEq] at e1
  subst e1
  have herr : errors = resB.errors.map (movedErr A.length) := moved_errors hascii e3
  refine ⟨⟨hu, h2, k2, by rw [k3, h3], ?_⟩, by rw [k4, h4, herr], ?_⟩
  · have := createIndex_moved (B := B) (ts := ts) (tsB := resB.tokens) (ss := resB.stmts) hascii (fun t ht => (e2 t ht).1)
    rw [h6] at this
    simp only at k6
    rw [k6] at this
    simpa [Outcome.map'] using this
  · intro env
    have hszB : B.length < 2 ^ 32 := by simp only [List.length_append] at hsize; omega
    obtain ⟨q1, q2⟩ := C02_token_spans h1
    obtain ⟨q3, q4⟩ := C02_token_spans k1
    obtain ⟨s1, s2, _⟩ := semanticTokens_starts h5 q1 q2
    obtain ⟨s3, s4, _⟩ := semanticTokens_starts k5 q3 q4
    have hzero : ∀ (t : Str) (x : Nat), PosLe ⟨0, 0⟩ (posOf t x) := by
      intro t x
      unfold PosLe
      simp only
      omega
    obtain ⟨ls, c1, c2⟩ := convert_decode env.build hszB (prev := ⟨0, 0⟩) s1 (fun t _ => hzero _ _) s2
    obtain ⟨ls', c3, c4⟩ := convert_decode env.build hsize (prev := ⟨0, 0⟩) s3 (fun t _ => hzero _ _) s4
    -- the tokens of the comments
    obtain ⟨semA, hsA⟩ : ∃ semA, semanticTokensFromTokens ts = .ok semA := semanticTokens_total ts
    have hmv : semanticTokensFromTokens (resB.tokens.map (moved A.length)) = .ok (doc.semanticTokens.map (mvSem A.length)) := by
      rw [semanticTokens_moved, h5]
      rfl
    have hcat := semanticTokens_append hsA hmv
    simp only at k5
    rw [hcat] at k5
    simp only [Outcome.ok.injEq] at k5
    refine ⟨ls, ls', semA.map (highlightOf (A ++ B)), c1, c3, ?_, ?_⟩
    · rw [c4, c2, ← k5, List.map_append, List.map_map, List.map_map]
      congr 1
      refine List.map_congr_left fun t _ => ?_
      simp only [Function.comp, highlightOf, mvSem, lowerHighlight, posOf_behind hu, commentBlock_count hA]
    · intro x hx
      obtain ⟨t, ht, rfl⟩ := List.mem_map.mp hx
      have hinA : ∀ t ∈ ts, Inside A.length t.2 := fun t ht => (e2 t ht).2
      have hordA : InOrder (ts.map Prod.snd) := by
        simp only [List.map_append] at q4
        exact (List.pairwise_append.mp q4).1
      obtain ⟨_, _, s5⟩ := semanticTokens_starts hsA hinA hordA
      obtain ⟨t', ht', est, ty, hcl, hty⟩ := s5 t ht
      have hin := hinA t' ht'
      simp only [Inside] at hin
      have hlt : t.tokenType < legendType.length := (List.getElem?_eq_some_iff.mp hty).1
      have hty' : ty = .comment := by
        rcases (e2 t' ht').1 with e | e
        · rw [e] at hcl; cases hcl
        · rw [e] at hcl; cases hcl; rfl
      have hlen : legendType.length = 7 := rfl
      refine ⟨?_, ?_⟩
      · simp only [highlightOf, posOf]
        rw [← commentBlock_count hA]
        exact byteToLine_above hu.lined hascii B (by omega)
      · simp only [highlightOf]
        rw [show asU32 t.tokenType = t.tokenType from Nat.mod_eq_of_lt (by omega), hty, hty']

/-! ### The answers -/

omit [Unicode] in
theorem externalLocations_points {env : Env} {roots : List Url} {ds : List ExternalDef} {ls : List Location}
    (h : externalLocations env roots ds = .ok ls) : ∀ l ∈ ls, l.range.start = l.range.stop ∧ l.range.start.character = 0 := by
  induction ds generalizing ls with
  | nil => cases h; simp
  | cons d ds ih =>
    unfold externalLocations at h
    split at h
    · cases h
    · exact ih h
    · split at h
      · cases h
      · split at h
        · cases h
        · rename_i hr
          cases h
          intro l hl
          rcases List.mem_cons.mp hl with rfl | hl
          · exact ⟨rfl, rfl⟩
          · exact ih hr l hl

variable {A B uri : Str} {n : Nat} {st st' : ServerState} {doc doc' : AnalyzedDocument}

omit [Unicode] in
theorem useDef_below (hm : MovedDoc A B doc doc') (hd : st.docs.get? uri = some doc) (hd' : st'.docs.get? uri = some doc')
    (hroots : st'.roots = st.roots) (env : Env) (p : Pos) (ud : UseDefKind) :
    (getUseDefRanges env st uri p ud = .panic ∧ getUseDefRanges env st' uri (lowerPos (linesOf A) p) ud = .panic) ∨
    (getUseDefRanges env st uri p ud = .ok none ∧ getUseDefRanges env st' uri (lowerPos (linesOf A) p) ud = .ok none) ∨
    ∃ r own other, getUseDefRanges env st uri p ud = .ok (some (r, own ++ other)) ∧
      getUseDefRanges env st' uri (lowerPos (linesOf A) p) ud =
        .ok (some (lowerRange (linesOf A) r, own.map (lowerLoc (linesOf A)) ++ other)) ∧
      (∀ l ∈ own, l.uri = uri) ∧ (∀ l ∈ other, l.range.start = l.range.stop ∧ l.range.start.character = 0) ∧
      (ud ≠ .def_ → other = []) := by
  unfold getUseDefRanges
  simp only [hd, hd', hm.symbolAt]
  cases symbolAt doc p with
  | none => exact .inr (.inl ⟨rfl, rfl⟩)
  | some o =>
    simp only [Option.map_some]
    rw [show (mvOcc A.length o).symbolKind = o.symbolKind from rfl, show (mvOcc A.length o).funcBodyId = o.funcBodyId from rfl,
      show (mvOcc A.length o).name = o.name from rfl, show (mvOcc A.length o).span = movedSpan A.length o.span from rfl, hm.tableOf]
    cases tableOf doc.index o.symbolKind o.funcBodyId with
    | panic => exact .inl ⟨rfl, rfl⟩
    | ok t =>
      simp only [Outcome.map', mvMap, get?_mapVals]
      cases StrMap.get? t o.name with
      | none => exact .inr (.inl ⟨rfl, rfl⟩)
      | some u =>
        simp only [Option.map_some, mvUses_get, hm.locations, hm.range, hroots]
        rw [show (mvUses A.length u).externalDefs = u.externalDefs from rfl]
        have hown : ∀ l ∈ localLocations uri doc.rope (u.get ud), l.uri = uri := by
          intro l hl
          obtain ⟨sp, _, h⟩ := List.mem_filterMap.mp hl
          cases hr : rangeToLsp doc.rope sp with
          | none => rw [hr] at h; cases h
          | some r => rw [hr] at h; cases h; rfl
        by_cases hk : ud = .def_
        · simp only [hk, if_true]
          cases hx : externalLocations env st.roots u.externalDefs with
          | panic => exact .inl ⟨rfl, rfl⟩
          | ok ext =>
            simp only
            cases rangeToLsp doc.rope o.span with
            | none => exact .inr (.inl ⟨rfl, rfl⟩)
            | some r => exact .inr (.inr ⟨r, _, ext, rfl, rfl, hk ▸ hown, externalLocations_points hx, fun h => absurd rfl h⟩)
        · simp only [hk, if_false]
          cases rangeToLsp doc.rope o.span with
          | none => exact .inr (.inl ⟨rfl, rfl⟩)
          | some r => exact .inr (.inr ⟨r, _, [], rfl, rfl, hown, by simp, fun _ => rfl⟩)

omit [Unicode] in
theorem links_below {r : Range} {own other : List Location} {k : Nat} (h1 : ∀ l ∈ own, l.uri = uri)
    (h2 : ∀ l ∈ other, l.range.start = l.range.stop ∧ l.range.start.character = 0) :
    Lowered uri k (.links (some (toLinks (r, own ++ other)))) (.links (some (toLinks (lowerRange k r, own.map (lowerLoc k) ++ other)))) := by
  have e1 : toLinks (r, own ++ other) = own.map (fun l => { origin := r, target := l }) ++ other.map (fun l => { origin := r, target := l }) := by
    simp [toLinks]
  have e2 : toLinks (lowerRange k r, own.map (lowerLoc k) ++ other) =
      (own.map (fun l => ({ origin := r, target := l } : LocationLink))).map (fun l => { origin := lowerRange k l.origin, target := lowerLoc k l.target })
        ++ (other.map (fun l => ({ origin := r, target := l } : LocationLink))).map (fun l => { origin := lowerRange k l.origin, target := l.target }) := by
    simp [toLinks, Function.comp_def]
  rw [e1, e2]
  refine .links ?_ ?_
  · intro l hl
    obtain ⟨x, hx, rfl⟩ := List.mem_map.mp hl
    exact h1 x hx
  · intro l hl
    obtain ⟨x, hx, rfl⟩ := List.mem_map.mp hl
    exact h2 x hx

theorem renameEdits_below (hm : MovedDoc A B doc doc') (env : Env) (o : SymbolOccurrence) (x : Str) :
    OutRel (ExRel List.Perm) ((renameEdits env doc o x).map' (Except.map (List.map (lowerEdit (linesOf A))))) (renameEdits env doc' (mvOcc A.length o) x) := by
  have hrel : ∀ sign, OutRel (ExRel List.Perm) ((relativeRename env doc o x sign).map' (Except.map (List.map (lowerEdit (linesOf A)))))
      (relativeRename env doc' (mvOcc A.length o) x sign) := by
    intro sign
    unfold relativeRename
    cases parseI64 (x.drop 1) with
    | none => exact rfl
    | some nr =>
      dsimp only
      cases i64Op env.build (sign * nr) with
      | panic => trivial
      | ok shift =>
        dsimp only
        rw [show (mvOcc A.length o).name = o.name from rfl]
        cases extractNumberFromIdentifier o.name with
        | panic => trivial
        | ok y =>
          cases y with
          | none => exact rfl
          | some y =>
            dsimp only
            have := hm.shiftEdits env.ord env.build o.symbolKind o.funcBodyId y.2 shift
            rw [show (mvOcc A.length o).symbolKind = o.symbolKind from rfl, show (mvOcc A.length o).funcBodyId = o.funcBodyId from rfl]
            revert this
            cases getShiftEdits env.ord env.build doc.rope doc.index o.symbolKind o.funcBodyId y.2 shift <;>
              cases getShiftEdits env.ord env.build doc'.rope doc'.index o.symbolKind o.funcBodyId y.2 shift <;>
              intro this <;> first | exact this | exact List.Perm.symm this
  have habs : OutRel (ExRel List.Perm) ((absoluteRename doc o x).map' (Except.map (List.map (lowerEdit (linesOf A)))))
      (absoluteRename doc' (mvOcc A.length o) x) := by
    unfold absoluteRename
    rw [show (mvOcc A.length o).symbolKind = o.symbolKind from rfl, show (mvOcc A.length o).funcBodyId = o.funcBodyId from rfl,
      show (mvOcc A.length o).name = o.name from rfl, hm.tableOf]
    cases checkNewName o.symbolKind x with
    | panic => trivial
    | ok y =>
      cases y with
      | error e => exact rfl
      | ok name =>
        dsimp only
        cases tableOf doc.index o.symbolKind o.funcBodyId with
        | panic => trivial
        | ok t =>
          simp only [Outcome.map', mvMap, get?_mapVals]
          cases StrMap.get? t o.name with
          | none => trivial
          | some u =>
            simp only [Option.map_some, hm.renameEdits]
            exact List.Perm.refl _
  unfold renameEdits
  split
  · exact hrel 1
  · exact hrel (-1)
  · exact habs

omit [Unicode] in
theorem lowerPos_inj {k : Nat} {p q : Pos} : lowerPos k p = lowerPos k q ↔ p = q := by
  cases p; cases q
  simp [lowerPos]

theorem resolve_below (hm : MovedDoc A B doc doc') (hd : st.docs.get? uri = some doc) (hd' : st'.docs.get? uri = some doc') (env : Env)
    {a : CodeAction} {d : CodeActionData} (ha : a.data = .shift d) (hu : d.uri = uri) :
    OutRel (ExRel fun x y => SameAction (lowerAction (linesOf A) x) y) (codeActionResolve env st a) (codeActionResolve env st' a) := by
  unfold codeActionResolve
  simp only [ha, hu, hd, hd']
  have := hm.shiftEdits env.ord env.build d.symbolKind d.funcBodyId d.renamedNr 1
  revert this
  cases getShiftEdits env.ord env.build doc.rope doc.index d.symbolKind d.funcBodyId d.renamedNr 1 <;>
    cases getShiftEdits env.ord env.build doc'.rope doc'.index d.symbolKind d.funcBodyId d.renamedNr 1 <;>
    intro this <;> first | exact this | exact ⟨rfl, rfl, rfl, List.Perm.symm this, trivial⟩

theorem codeAction_below (hm : MovedDoc A B doc doc') (hd : st.docs.get? uri = some doc) (hd' : st'.docs.get? uri = some doc')
    (hlazy : st'.lazyResolve = st.lazyResolve) (env : Env) (r : Range) :
    OutRel (ExRel fun x y => Lowered uri (linesOf A) (.actions x) (.actions y)) (codeAction env st uri r) (codeAction env st' uri (lowerRange (linesOf A) r)) := by
  unfold codeAction
  simp only [hd, hd', lowerRange, ne_eq, lowerPos_inj, hlazy]
  split
  · exact Lowered.noActions
  · unfold offeredActions
    rw [hm.symbolAt]
    cases symbolAt doc r.start with
    | none =>
      simp only [Option.map_none]
      split
      · exact Lowered.actions (by trivial)
      · exact Lowered.actions (by trivial)
    | some o =>
      simp only [Option.map_some]
      rw [show (mvOcc A.length o).symbolKind = o.symbolKind from rfl, show (mvOcc A.length o).funcBodyId = o.funcBodyId from rfl,
        show (mvOcc A.length o).name = o.name from rfl]
      cases extractNumberFromIdentifier o.name with
      | panic => trivial
      | ok y =>
        cases y with
        | none =>
          simp only
          split
          · exact Lowered.actions (by trivial)
          · exact Lowered.actions (by trivial)
        | some y =>
          simp only
          split
          · exact Lowered.actions ⟨⟨rfl, rfl, trivial⟩, trivial⟩
          · have := resolve_below hm hd hd' env (a := { title := shiftTitle o.symbolKind, data := .shift { uri := uri, symbolKind := o.symbolKind, funcBodyId := o.funcBodyId, renamedNr := y.2 } }) rfl rfl
            simp only [resolveAll]
            revert this
            cases codeActionResolve env st _ with
            | panic =>
              cases codeActionResolve env st' _ with
              | panic => intro _; trivial
              | ok b => intro h; exact h.elim
            | ok a =>
              cases codeActionResolve env st' _ with
              | panic => intro h; exact h.elim
              | ok b =>
                cases a <;> cases b <;> intro h
                · trivial
                · exact h.elim
                · exact h.elim
                · exact Lowered.actions ⟨h, trivial⟩

omit [Unicode] in
theorem answers_of_rel {α : Type} {R : α → α → Prop} {S : Reply → Reply → Prop} {f : α → Reply} {x y : Outcome (Except RpcError α)}
    (h : OutRel (ExRel R) x y) (hf : ∀ a b, R a b → S (f a) (f b)) (he : ∀ e, S (.error e) (.error e)) :
    Answers S st st' (x.map' fun r => (st, replyOf f r)) (y.map' fun r => (st', replyOf f r)) := by
  cases x with
  | panic => cases y <;> first | exact h.elim | trivial
  | ok a =>
    cases y with
    | panic => exact h.elim
    | ok b =>
      refine ⟨rfl, rfl, ?_⟩
      cases a <;> cases b
      · obtain rfl : _ = _ := h
        exact he _
      · exact h.elim
      · exact h.elim
      · exact hf _ _ h

theorem requests_below {errs errs' : List SErr} (hA : CommentBlock n A) (hsize : (A ++ B).length < 2 ^ 32)
    (ha : analyze B = .ok (doc, errs)) (hs : doc.stmts ≠ []) (ha' : analyze (A ++ B) = .ok (doc', errs'))
    (hd : st.docs.get? uri = some doc) (hd' : st'.docs.get? uri = some doc') (hroots : st'.roots = st.roots)
    (hlazy : st'.lazyResolve = st.lazyResolve) (env : Env) (m : Msg) (hm : About uri m) :
    Answers (Lowered uri n) st st' (step env st m) (step env st' (lowerMsg n m)) := by
  obtain ⟨hM, _, htok⟩ := analyze_below hA hsize ha hs ha'
  obtain rfl := commentBlock_count hA
  cases m with
  | gotoDefinition u p =>
    obtain rfl : u = uri := hm
    simp only [lowerMsg, step, gotoDefinition]
    rcases useDef_below hM hd hd' hroots env p .def_ with ⟨h1, h2⟩ | ⟨h1, h2⟩ | ⟨r, own, other, h1, h2, h3, h4, _⟩ <;> rw [h1, h2]
    · trivial
    · exact ⟨rfl, rfl, .noLinks⟩
    · exact ⟨rfl, rfl, links_below h3 h4⟩
  | gotoDeclaration u p =>
    obtain rfl : u = uri := hm
    simp only [lowerMsg, step, gotoDeclaration]
    rcases useDef_below hM hd hd' hroots env p .decl with ⟨h1, h2⟩ | ⟨h1, h2⟩ | ⟨r, own, other, h1, h2, h3, h4, _⟩ <;> rw [h1, h2]
    · trivial
    · exact ⟨rfl, rfl, .noLinks⟩
    · exact ⟨rfl, rfl, links_below h3 h4⟩
  | references u p =>
    obtain rfl : u = uri := hm
    simp only [lowerMsg, step, references]
    rcases useDef_below hM hd hd' hroots env p .use with ⟨h1, h2⟩ | ⟨h1, h2⟩ | ⟨r, own, other, h1, h2, h3, h4, h5⟩ <;> rw [h1, h2]
    · trivial
    · exact ⟨rfl, rfl, .locations (l := none)⟩
    · rw [h5 (by simp)]
      refine ⟨rfl, rfl, ?_⟩
      simp only [Option.map_some, List.append_nil]
      exact .locations (l := some own)
  | semanticTokensFull u =>
    obtain rfl : u = uri := hm
    obtain ⟨ls, ls', above, h1, h2, h3, h4⟩ := htok env
    simp only [lowerMsg, step, semanticTokensFull, hd, hd', hM.rope, hM.rope', h1, h2]
    exact ⟨rfl, rfl, .tokens h3 h4⟩
  | documentSymbol u =>
    obtain rfl : u = uri := hm
    simp only [lowerMsg, step, documentSymbol, hd, hd', Option.map_some]
    exact ⟨rfl, rfl, .symbols (hM.outline env.ord)⟩
  | prepareRename u p =>
    obtain rfl : u = uri := hm
    simp only [lowerMsg, step, prepareRename, hd, hd', hM.symbolAt]
    refine ⟨rfl, rfl, ?_⟩
    cases symbolAt doc p with
    | none => exact .range (r := none)
    | some o =>
      simp only [Option.map_some]
      rw [show (mvOcc A.length o).span = movedSpan A.length o.span from rfl, hM.range]
      exact .range
  | rename u p x =>
    obtain rfl : u = uri := hm
    refine answers_of_rel (R := fun e e' => SameEdits (lowerEdits (linesOf A) e) e') ?_ (fun _ _ => .edit) (fun _ => .error)
    unfold rename
    simp only [hd, hd', hM.symbolAt]
    cases symbolAt doc p with
    | none => exact rfl
    | some o =>
      simp only [Option.map_some]
      have := renameEdits_below hM env o x
      revert this
      cases renameEdits env doc o x with
      | panic => cases renameEdits env doc' (mvOcc A.length o) x <;> intro h <;> first | exact h.elim | trivial
      | ok a =>
        cases renameEdits env doc' (mvOcc A.length o) x with
        | panic => intro h; exact h.elim
        | ok b => cases a <;> cases b <;> intro h <;> first | exact h | exact ⟨rfl, h, trivial⟩
  | codeAction u r =>
    obtain rfl : u = uri := hm
    exact answers_of_rel (codeAction_below hM hd hd' hlazy env r) (fun _ _ h => h) (fun _ => .error)
  | codeActionResolve a =>
    obtain ⟨d, h1, h2⟩ := hm
    exact answers_of_rel (resolve_below hM hd hd' env h1 h2) (fun _ _ => .action) (fun _ => .error)
  | foldingRange u =>
    obtain rfl : u = uri := hm
    simp only [lowerMsg, step, foldingRange, hd, hd', Option.map_some, hM.folds]
    exact ⟨rfl, rfl, .folds⟩
  | inlayHint u =>
    obtain rfl : u = uri := hm
    simp only [lowerMsg, step, inlayHint, hd, hd', hroots, hM.backtraces, hM.incoming, hM.ends]
    cases backtraceHints env st.roots doc with
    | panic => trivial
    | ok bt =>
      refine ⟨rfl, rfl, ?_⟩
      rw [← List.map_append, ← List.map_append]
      exact .hints
  | codeLens u =>
    obtain rfl : u = uri := hm
    simp only [lowerMsg, step, codeLens, hd, hd', Option.map_some]
    exact ⟨rfl, rfl, .lenses (hM.lenses env.ord _)⟩
  | executeCommand c as =>
    obtain ⟨rfl, f, rfl⟩ := hm
    simp only [lowerMsg, step, executeCommand, hd, hd', decide_true, hM.findFunction]
    refine ⟨rfl, rfl, ?_⟩
    cases doc.index.functionBodies.find? (fun b => decide (b.name.1 = f)) with
    | none => exact .error
    | some fb =>
      simp only [Option.map_some, createCfgDot_moved]
      exact .graph
  | _ => exact hm.elim

/-- C71: a block of `n` comment lines above a document of which something is understood moves everything by `n` lines and changes
nothing else: every request about the document, asked `n` lines further down, has the same answer, `n` lines further down. -/
theorem C71_requests {res : ParserResult} (hA : CommentBlock n A) (hsize : (A ++ B).length < 2 ^ 32)
    (hB : parseFromStr B = .ok res) (hs : res.stmts ≠ []) (hopen : Opened st uri B) (hopen' : Opened st' uri (A ++ B))
    (hroots : st'.roots = st.roots) (hlazy : st'.lazyResolve = st.lazyResolve) (env : Env) (m : Msg) (hm : About uri m) :
    Answers (Lowered uri n) st st' (step env st m) (step env st' (lowerMsg n m)) := by
  obtain ⟨doc, errs, ha, hd⟩ := hopen
  obtain ⟨doc', errs', ha', hd'⟩ := hopen'
  obtain ⟨res', k1, _, k3, _⟩ := analyze_inv ha
  rw [hB] at k1
  cases k1
  exact requests_below hA hsize ha (k3 ▸ hs) ha' hd hd' hroots hlazy env m hm

/-- C71: the problems reported are the same ones, `n` lines further down. -/
theorem C71_diagnostics {v v' : Int} {p p' : Publish} {st0 st1 st0' st1' : ServerState} {env : Env} {resB : ParserResult} (hA : CommentBlock n A)
    (hsize : (A ++ B).length < 2 ^ 32) (hB : parseFromStr B = .ok resB) (hs : resB.stmts ≠ [])
    (h : onChange env st0 uri v B = .ok (st1, p)) (h' : onChange env st0' uri v' (A ++ B) = .ok (st1', p')) :
    p'.diagnostics.Perm (p.diagnostics.map (lowerDiagnostic n)) := by
  unfold onChange at h h'
  cases ha : analyze B with
  | panic => rw [ha] at h; cases h
  | ok x =>
    cases ha' : analyze (A ++ B) with
    | panic => rw [ha'] at h'; cases h'
    | ok x' =>
      rw [ha] at h
      rw [ha'] at h'
      simp only [Outcome.ok.injEq, Prod.mk.injEq] at h h'
      obtain ⟨_, rfl⟩ := h
      obtain ⟨_, rfl⟩ := h'
      obtain ⟨res, k1, _, k3, _⟩ := analyze_inv ha
      rw [hB] at k1
      cases k1
      obtain ⟨hM, he, _⟩ := analyze_below hA hsize ha (k3 ▸ hs) ha'
      simp only [he]
      obtain rfl := commentBlock_count hA
      exact hM.diagnostics env uri x.2

end

/-! ### Concrete cases -/

section
attribute [local instance] asciiUnicode

def belowBlock : Str := c!"# head\n\n  \t# more #\r\n"

theorem belowBlock_three : CommentBlock 3 belowBlock := by
  refine .line (b := []) (c := c!"# head") (eol := c!"\n") (by intro c h; cases h) (.inr ⟨c!" head", rfl, by decide, by decide⟩) (.inl rfl) ?_
  refine .line (b := []) (c := []) (eol := c!"\n") (by intro c h; cases h) (.inl rfl) (.inl rfl) ?_
  exact .line (b := c!"  \t") (c := c!"# more #") (eol := c!"\r\n") (l := []) (by unfold Blank; decide)
    (.inr ⟨c!" more #", rfl, by decide, by decide⟩) (.inr rfl) .nil

/-- The hypotheses hold for `navText` below these lines. -/
example : Opened (serverWith [workspace] c!"u" navText) c!"u" navText := serverWith_opened (by decide +kernel)
example : Opened (serverWith [workspace] c!"u" (belowBlock ++ navText)) c!"u" (belowBlock ++ navText) := serverWith_opened (by decide +kernel)
example : parseFromStr navText = .ok (readOf navText) ∧ (readOf navText).stmts ≠ [] ∧ (belowBlock ++ navText).length < 2 ^ 32 := by
  decide +kernel

/-- The call of `@f` is now found three lines further down; its definition in the other file stays. -/
example : gotoDefinition debugEnv (serverWith [workspace] c!"u" (belowBlock ++ navText)) c!"u" ⟨7, 6⟩ =
    .ok (some [{ origin := ⟨⟨7, 6⟩, ⟨7, 8⟩⟩, target := { uri := c!"file:///home/ws/src/a.cpp", range := ⟨⟨11, 0⟩, ⟨11, 0⟩⟩ } }]) := by
  decide +kernel
example : prepareRename (serverWith [workspace] c!"u" navText) c!"u" ⟨5, 4⟩ = some ⟨⟨5, 4⟩, ⟨5, 5⟩⟩ ∧
    prepareRename (serverWith [workspace] c!"u" (belowBlock ++ navText)) c!"u" ⟨8, 4⟩ = some ⟨⟨8, 4⟩, ⟨8, 5⟩⟩ := by
  decide +kernel

/-- The block has to be in ASCII: below a comment with an `é`, the ranges are off by one. -/
theorem C71_refuted_non_ascii : ∃ A B : Str, ∃ t : Str, A = '#' :: t ++ ['\n'] ∧ NoEol t ∧
    parseFromStr B = .ok (readOf B) ∧ (readOf B).stmts ≠ [] ∧
    Opened (serverWith [] c!"u" B) c!"u" B ∧ Opened (serverWith [] c!"u" (A ++ B)) c!"u" (A ++ B) ∧
    ∃ p r r', prepareRename (serverWith [] c!"u" B) c!"u" p = some r ∧
      prepareRename (serverWith [] c!"u" (A ++ B)) c!"u" (lowerPos 1 p) = some r' ∧ r' ≠ lowerRange 1 r :=
  ⟨c!"#é\n", c!"@abc = 1\n", c!"é", rfl, by decide, by decide +kernel, by decide +kernel,
    serverWith_opened (by decide +kernel), serverWith_opened (by decide +kernel),
    ⟨0, 2⟩, ⟨⟨0, 0⟩, ⟨0, 4⟩⟩, ⟨⟨0, 2⟩, ⟨1, 3⟩⟩, by decide +kernel, by decide +kernel, by decide⟩

/-- How many problems are reported. -/
def reportedIn (text : Str) : Option Nat :=
  match onChange debugEnv {} c!"u" 0 text with
  | .ok (_, p) => some p.diagnostics.length
  | .panic => none

/-- Something has to be understood of the document: a problem is reported for a document of one blank, but none once there is a comment
above it. -/
theorem C71_needs_readable : ∃ A B : Str, CommentBlock 1 A ∧ parseFromStr B = .ok (readOf B) ∧ (readOf B).stmts = [] ∧
    reportedIn B = some 1 ∧ reportedIn (A ++ B) = some 0 :=
  ⟨c!"# a\n", c!" ",
    .line (b := []) (c := c!"# a") (eol := c!"\n") (l := []) (by intro c h; cases h) (.inr ⟨c!" a", rfl, by decide, by decide⟩) (.inl rfl) .nil,
    by decide +kernel⟩

/-- A document with problems: they are reported three lines further down. -/
example : reportedIn composeSecond = some 2 ∧ reportedIn (belowBlock ++ composeSecond) = some 2 := by decide +kernel

end

end HyperIR
