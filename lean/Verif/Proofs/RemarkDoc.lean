import Verif.Proofs.RemarkLines
import Verif.Proofs.TwinServer
import Verif.Props.Modules

/- Documents that differ in remarks at the end of their lines are analysed alike. -/

namespace HyperIR
open Spec

section
variable [Unicode]

theorem lexesErr_blankText {o : Nat} {T : Str} {ts : List Tok} {n : Nat} (h : LexesErr o T ts n) (hb : Blank T) : ts = [] := by
  have key : ∀ {t w rest}, Longest t w rest → (∀ c ∈ w, c ∈ T) → False := by
    intro t w rest hl hw
    have h1 := spells_ne_nil hl.1
    have h2 := spells_noBlank (rest := []) hl.1
    cases w with
    | nil => exact h1 rfl
    | cons c w =>
      have h3 := h2 c (w ++ []) rfl
      rcases hb c (hw c (by simp)) with e | e
      · exact h3.1 e
      · exact h3.2 e
  cases h with
  | done => rfl
  | tok _ hl => exact (key hl (by intro c hc; simp [hc])).elim
  | skip _ _ _ _ hl => exact (key hl (by intro c hc; simp [hc])).elim

/-- Reading a text whose tokens are known. -/
theorem read_of_lexes {T : Str} {ts : List Tok} {res : ParserResult} (h : Lexes 0 T ts) (hr : parseFromStr T = .ok res) :
    res.tokens = ts ∧ ∃ so es, parseTokens (utf8Len T) ts = .ok (so, es) ∧ res.stmts = so.getD [] ∧
      ((T = [] ∨ ¬ Blank T) → res.errors = es.map (LErr.toSErr Token.display)) := by
  by_cases hne : ts ≠ [] ∨ T = []
  · obtain ⟨errs, h1, h2⟩ := tokenize_complete (lexes_lexesErr h) hne
    obtain rfl := List.eq_nil_of_length_eq_zero h1
    rcases parseFromStr_inv hr with ⟨e1, e2, e3⟩ | ⟨so, es, te, e1, e2, e3, e4⟩
    · unfold parseFromStr at hr
      rw [h2] at hr
      simp only at hr
      cases hp : parseTokens (utf8Len T) ts with
      | panic => rw [hp] at hr; cases hr
      | ok x =>
        rw [hp] at hr
        simp only [Outcome.ok.injEq] at hr
        subst hr
        exact ⟨rfl, x.1, x.2, rfl, rfl, fun _ => rfl⟩
    · rw [h2] at e1
      simp only [Outcome.ok.injEq, Prod.mk.injEq, Option.some.injEq] at e1
      obtain ⟨rfl, rfl⟩ := e1
      exact ⟨rfl, so, es, e2, e3, fun _ => by rw [e4]; rfl⟩
  · obtain ⟨h1, h2⟩ := not_or.mp hne
    obtain rfl := Classical.not_not.mp h1
    have hb : Blank T := by cases h; assumption
    have ht : res.tokens = [] := by
      rcases parseFromStr_inv hr with ⟨e1, _, _⟩ | ⟨so, es, te, e1, _, _, _⟩
      · exact e1
      · exact lexesErr_blankText (tokenize_sound e1) hb
    refine ⟨ht, some [], [], parseTokens_of_many (Many.nil docItem_nil), ?_, fun h => absurd hb (h.resolve_left h2)⟩
    rcases parseFromStr_doc hr with h | h
    · exact h
    · rw [ht] at h
      generalize hz : nonComments [] = z at h
      generalize res.stmts = ss at h ⊢
      cases h with
      | nil => rfl
      | cons _ h1 _ _ =>
        have := stmtG_ne_nil h1
        simp [nonComments] at hz
        exact absurd hz.2.2.1 this

omit [Unicode] in
/-- The value of an annotation consists of neighbouring tokens of one line. -/
theorem docSkip_annotation {ss : List Statement} {l : List Tok} (h : DocSkipG ss l) {n d} (hs : Statement.dbgAnnotation n d ∈ ss) :
    d <:+: l ∧ OneLine d := by
  induction h with
  | nil => cases hs
  | @cons s ss g nls l nls' l' _ h1 _ _ ih =>
    rcases List.mem_cons.mp hs with rfl | hs
    · cases h1 with
      | @dbgAnnotation _ e _ ho => exact ⟨⟨g ++ nls ++ [dbgTok n, (.punct '=', e)], nls' ++ l', by simp⟩, ho⟩
    · obtain ⟨⟨a, b, e⟩, ho⟩ := ih hs
      exact ⟨⟨g ++ nls ++ l ++ nls' ++ a, b, by rw [← e]; simp⟩, ho⟩

/-- Lengths of tokens are kept. -/
theorem placed_len {T0 T f g} (h : Placed T0 T f g) : ∀ {ts0}, Lexes 0 T0 ts0 → ∀ t ∈ ts0, t.1 ≠ .newline →
    g t.2.stop - g t.2.start = t.2.stop - t.2.start := by
  induction h with
  | @last w c hw hc =>
    intro ts0 h0 t ht _
    have := lexes_code_kinds h0 hw t ht
    simp only
    rw [if_pos (by omega), if_pos (by omega)]
  | @line w c e l0 l f g hw hc he hpl ih =>
    intro ts0 h0 t ht hn
    have hend0 : TokenEnd ('\n' :: l0) := by intro c cs h; cases h; decide
    obtain ⟨tsw, ts2, rfl, h1, h2⟩ := lexes_code hend0 h0 hw rfl
    obtain ⟨ts', rfl, h3⟩ := lexes_leading (b := []) (w := ['\n']) (by intro c hc; cases hc) (longest_lf .lf) (by simpa using h2)
    obtain ⟨tl0, h4, rfl⟩ := lexes_unshift (o := 0) (k := w.length + 1) (by simpa [Nat.add_assoc] using h3)
    have hk := lexes_code_kinds h1 hw
    simp only [List.mem_append, List.mem_cons, List.mem_map] at ht
    rcases ht with ht | rfl | ⟨t, ht, rfl⟩
    · have := hk t ht
      simp only
      rw [if_pos (by omega), if_pos (by omega)]
    · exact absurd rfl hn
    · have := ih h4 t ht hn
      simp only [shiftTok]
      have a1 : ¬ t.2.stop + (w.length + 1) ≤ w.length := by omega
      have a2 : ¬ t.2.start + (w.length + 1) ≤ w.length := by omega
      simp only [a1, a2, if_false, Nat.add_sub_cancel]
      omega

theorem placed_stops {T0 : Str} {ts0 : List Tok} (h0 : Lexes 0 T0 ts0) : ∀ t ∈ ts0, t.2.start ≤ T0.length ∧ t.2.stop ≤ T0.length := by
  intro t ht
  have := (lexesErr_spans (lexes_lexesErr h0)).1 t ht
  omega

/-- The analysis of a text in terms of the tokens of its code. -/
theorem placed_analysis {T0 T f g} (h : Placed T0 T f g) (hp : Plain T) {ts0 : List Tok} (h0 : Lexes 0 T0 ts0)
    {so : Option (List Statement)} {es : List (LErr Token)} (hparse : parseTokens T0.length ts0 = .ok (so, es))
    {doc : AnalyzedDocument} {errs : List SErr} (ha : analyze T = .ok (doc, errs)) :
    doc.rope = T ∧ doc.stmts = (so.getD []).map (Move.mk g g).stmt ∧
    (∃ ix0, createIndex T0 ts0 (so.getD []) = .ok ix0 ∧ doc.index = plIx (Move.mk g g) ix0) ∧
    ((T = [] ∨ ¬ Blank T) → errs = es.map fun e => ((Move.mk f g).err e).toSErr Token.display) ∧
    ∃ ts, parseFromStr T = .ok { tokens := ts, stmts := doc.stmts, errors := errs } ∧ semanticTokensFromTokens ts = .ok doc.semanticTokens ∧
      nonComments ts = ts0.map (Move.mk f g).spanned ∧ ∀ t ∈ ts0, t.1 ≠ .comment ∧ (t.1 ≠ .newline → f t.2.start = g t.2.start) := by
  obtain ⟨f1, f2, f3, f4, f5, f6⟩ := placed_facts h
  have : Rising (Move.mk g g) := rising_same f1
  obtain ⟨res, h1, h2, h3, h4, h5, h6⟩ := analyze_inv ha
  obtain ⟨ts, l1, l2, l3⟩ := (placed_lexes h).1 ts0 h0
  obtain ⟨r1, so', es', r2, r3, r4⟩ := read_of_lexes l1 h1
  have hlen : utf8Len T = T.length := utf8Len_ascii (plain_asc hp)
  have hn0 : nonComments ts0 = ts0 := nonComments_code fun t ht => (l3 t ht).1
  have hmv := parseTokens_move (F := Move.mk f g) (n := T0.length) (n' := T.length) (toks := ts0) (toks' := ts) (by simp [Move.span, f2, f3]) (by rw [hn0]; exact l2) hparse
  rw [hlen, hmv] at r2
  simp only [Outcome.ok.injEq, Prod.mk.injEq] at r2
  obtain ⟨rfl, rfl⟩ := r2
  have hagree : Agree (Move.mk f g) (Move.mk g g) ts0 := fun t ht hn => ⟨(l3 t ht).2 hn, rfl⟩
  have hdoc : DocSkipG (so.getD []) ts0 ∨ so.getD [] = [] := by
    cases so with
    | none => exact .inr rfl
    | some ss =>
      left
      obtain ⟨l, d1, d2⟩ := many_docItem_sound (parseTokens_some hparse)
      rw [List.append_nil, ← nonComments, hn0] at d2
      rw [d2]
      exact d1
  have hst : res.stmts = (so.getD []).map (Move.mk g g).stmt := by
    have e : (Option.map (List.map (Move.mk f g).stmt) so).getD [] = (so.getD []).map (Move.mk f g).stmt := by cases so <;> rfl
    rw [r3, e]
    rcases hdoc with hd | hd
    · exact docSkip_agree hd hagree
    · rw [hd]; rfl
  refine ⟨h2, h3.trans hst, ?_, ?_, ts, ?_, r1 ▸ h5, l2, l3⟩
  · have hrel : ts.filter relevant = (ts0.filter relevant).map (Move.mk g g).spanned := by
      have e1 : ts.filter relevant = (nonComments ts).filter relevant := by
        rw [nonComments, List.filter_filter]
        refine List.filter_congr fun t _ => ?_
        unfold relevant
        by_cases hc : t.1 = .comment <;> simp [hc]
      rw [e1, l2, List.filter_map]
      rw [show (relevant ∘ (Move.mk f g).spanned) = relevant from rfl]
      refine List.map_congr_left fun t ht => ?_
      obtain ⟨k1, k2⟩ := List.mem_filter.mp ht
      have hn : t.1 ≠ .newline := by
        unfold relevant at k2
        exact (of_decide_eq_true k2).1
      simp only [Move.spanned, Move.span, (l3 t k1).2 hn]
    have hsay : ∀ s ∈ so.getD [], SaysSame T0 T (Move.mk g g) s := by
      intro s hs
      cases s with
      | dbgAnnotation n d =>
        rcases hdoc with hd | hd
        · obtain ⟨i1, i2⟩ := docSkip_annotation hd hs
          unfold SaysSame annotationValue
          simp only [List.head?_map, List.getLast?_map]
          cases hx : d.head? with
          | none => rfl
          | some x => cases hy : d.getLast? with
            | none => rfl
            | some y =>
              simp only [Option.map_some, Move.spanned, Move.span]
              rw [placed_slice h hp h0 i1 i2 hx hy]
        · rw [hd] at hs; cases hs
      | _ => trivial
    have := createIndex_placed (F := Move.mk g g) (T0 := T0) (T := T) hrel hsay
    rw [← hst, ← r1, h6] at this
    cases hix : createIndex T0 ts0 (so.getD []) with
    | panic => rw [hix] at this; cases this
    | ok ix0 =>
      rw [hix] at this
      exact ⟨ix0, rfl, Outcome.ok.inj this⟩
  · intro hb
    rw [h4, r4 hb, List.map_map]
    rfl
  · rw [h1, h3, h4, ← r1]

end
end HyperIR
