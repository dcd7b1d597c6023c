import Verif.Spec.Broken
import Verif.Proofs.ShutDoc
import Verif.Proofs.LexErrors
import Verif.Proofs.Errors
import Verif.Props.Compose

/- Broken text in front of text that can be read (src/hir_tokenizer.rs:48-148, src/hir_parser.rs:395-463). -/

namespace HyperIR
open Spec

section
variable [Unicode]

/-! ### Tokens -/

theorem garbage_behind {g w rest B : Str} (h : Garbage g (w ++ rest)) (hq : '"' ∉ g) (hw : w ≠ []) : Garbage g (w ++ (rest ++ B)) := by
  intro g₁ g₂ e hne
  have hn := h g₁ g₂ e hne
  refine noToken_of ?_
  cases g₂ with
  | nil => exact absurd rfl hne
  | cons c g₂ =>
    rcases noToken_cases hn (by simp) with ⟨c', y, he, k⟩ | ⟨y, he, k⟩ | ⟨y, he, k⟩
    · simp only [List.cons_append, List.cons.injEq] at he
      exact .inl ⟨c, _, rfl, he.1 ▸ k⟩
    · simp only [List.cons_append, List.cons.injEq] at he
      obtain ⟨rfl, rfl⟩ := he
      refine .inr (.inl ⟨_, rfl, ?_⟩)
      cases g₂ with
      | cons => exact k
      | nil =>
        cases w with
        | nil => exact absurd rfl hw
        | cons => exact k
    · simp only [List.cons_append, List.cons.injEq] at he
      exact absurd (by rw [e, he.1]; simp) hq

/-- One token behind unrecognizable text, with the blanks around it. -/
theorem many_paddedToken_skip {eoi : Span} {o : Nat} {b g w rest : Str} {t : Token} {es ts} (hb : Blank b) (hg : g ≠ [])
    (hgb : ∀ c cs, g = c :: cs → c ≠ ' ' ∧ c ≠ '\t') (hga : Garbage g (w ++ rest)) (hl : Longest t w rest)
    (h : Many paddedToken eoi (charStream (o + b.length + g.length + w.length) rest) es ts []) :
    Many paddedToken eoi (charStream o (b ++ g ++ w ++ rest)) (lexErr eoi (o + b.length) (g ++ w ++ rest) :: es)
      ((t, { start := o + b.length, stop := o + b.length + g.length + w.length }) :: ts) [] := by
  obtain ⟨b2, y, rfl, hb2, hy⟩ := exists_blank_split rest
  have h' := many_paddedToken_blank hb2 hy h
  have hnb : NoBlank (g ++ (w ++ (b2 ++ y))) := by
    intro c cs hc
    cases g with
    | nil => exact absurd rfl hg
    | cons d g =>
      simp only [List.cons_append, List.cons.injEq] at hc
      exact hc.1 ▸ hgb d g rfl
  have hrec := recoverSkip_garbage_exact (eoi := eoi) (o := o + b.length) hg hga hl
  rw [List.append_assoc, List.append_assoc]
  rw [List.append_assoc] at hrec ⊢
  refine Many.cons (es := [_]) (paddedBy_ok.mpr
      ⟨[], [_], [], _, _, b, b2, blanks_charStream hb hnb,
        pmapSpan_ok.mpr ⟨t, hrec, ?_⟩, blanks_charStream hb2 hy, rfl⟩) h'
  have := spanSince_charStream (eoi := eoi) (o := o + b.length) (w := g ++ w) (r := b2 ++ y) (by simp [hg])
  rw [List.append_assoc, List.length_append (as := g), ← Nat.add_assoc] at this
  rw [this]

omit [Unicode] in
theorem toSErr_unexpected {eoi eoi' : Span} {o : Nat} {c : Char} {y y' : Str} {ex : List (Option Char)} {f : Char → Str} :
    (unexpectedAt eoi (charStream o (c :: y)) ex).toSErr f = (unexpectedAt eoi' (charStream o (c :: y')) ex).toSErr f := rfl

/-- The report does not depend on what is behind. -/
theorem lexErr_behind {eoi : Span} {o : Nat} {g w rest B : Str} {f : Char → Str} (hg : g ≠ []) (hq : '"' ∉ g) (hw : w ≠ []) :
    (lexErr eoi o (g ++ w ++ (rest ++ B))).toSErr f = (lexErr noEoi o (g ++ w ++ rest)).toSErr f ∧
    o ≤ (lexErr noEoi o (g ++ w ++ rest)).span.start ∧ (lexErr noEoi o (g ++ w ++ rest)).span.start ≤ (lexErr noEoi o (g ++ w ++ rest)).span.stop ∧
    (lexErr noEoi o (g ++ w ++ rest)).span.stop ≤ o + g.length + w.length := by
  cases g with
  | nil => exact absurd rfl hg
  | cons c g =>
    have hc : c ≠ '"' := by rintro rfl; simp at hq
    have hwl : 0 < w.length := List.length_pos_iff.mpr hw
    simp only [List.cons_append, lexErr, if_neg hc]
    by_cases h : c = '\r'
    · simp only [if_pos h]
      cases g with
      | cons d g =>
        refine ⟨toSErr_unexpected, ?_⟩
        simp [unexpectedAt, headSpan, charStream]
        omega
      | nil =>
        cases w with
        | nil => exact absurd rfl hw
        | cons d w =>
          refine ⟨toSErr_unexpected, ?_⟩
          simp [unexpectedAt, headSpan, charStream]
    · simp only [if_neg h]
      refine ⟨toSErr_unexpected, ?_⟩
      simp [unexpectedAt, headSpan, charStream]
      omega

omit [Unicode] in
theorem longest_ends {b w rest l : Str} (hA : b ++ w ++ rest = l ++ ['\n']) (hw : w ≠ []) :
    (∃ l', w ++ rest = l' ++ ['\n']) ∧ (rest = [] ∨ ∃ l', rest = l' ++ ['\n']) := by
  constructor
  · rw [List.append_assoc] at hA
    exact endsWith_append hA (by simp [hw])
  · by_cases hr : rest = []
    · exact .inl hr
    · exact .inr (endsWith_append hA hr)

/-- The tokens and reports of whole lines, whatever follows. -/
theorem many_paddedToken_behind {o : Nat} {X : Str} {tsX} (h : LexesClosed o X tsX) (hX : X = [] ∨ ∃ l, X = l ++ ['\n']) :
    ∃ E : List SErr, (∀ e ∈ E, o ≤ e.span.start ∧ e.span.start ≤ e.span.stop ∧ e.span.stop ≤ o + X.length) ∧
      ∀ eoi B es ts, Many paddedToken eoi (charStream (o + X.length) B) es ts [] →
        ∃ es', es'.map (LErr.toSErr fun c => [c]) = E ∧ Many paddedToken eoi (charStream o (X ++ B)) (es' ++ es) (tsX ++ ts) [] := by
  induction h with
  | @done o b hb =>
    refine ⟨[], by simp, fun eoi B es ts hB => ⟨[], rfl, ?_⟩⟩
    rcases hX with rfl | ⟨l, rfl⟩
    · exact hB
    · rcases hb '\n' (by simp) with h | h <;> exact absurd h (by decide)
  | @tok o b t w rest ts' hb hl hr ih =>
    rcases hX with hA | ⟨l, hA⟩
    · simp only [List.append_eq_nil_iff] at hA
      exact absurd hA.1.2 (spells_ne_nil hl.1)
    obtain ⟨⟨l', hl'⟩, hrest⟩ := longest_ends hA (spells_ne_nil hl.1)
    obtain ⟨E, k1, k2⟩ := ih hrest
    refine ⟨E, fun e he => ?_, fun eoi B es ts hB => ?_⟩
    · have := k1 e he
      simp only [List.length_append]
      omega
    · obtain ⟨es', e1, e2⟩ := k2 eoi B es ts (by simp only [List.length_append, Nat.add_assoc] at hB ⊢; exact hB)
      refine ⟨es', e1, ?_⟩
      have := many_paddedToken_cons (o := o) hb (longest_continue (B := B) hl hl') e2
      simpa [List.append_assoc] using this
  | @skip o b g t w rest ts' hb hg hgb hga hq hl hr ih =>
    have hw := spells_ne_nil hl.1
    rcases hX with hA | ⟨l, hA⟩
    · simp only [List.append_eq_nil_iff] at hA
      exact absurd hA.1.2 hw
    obtain ⟨⟨l', hl'⟩, hrest⟩ := longest_ends (b := b ++ g) hA hw
    obtain ⟨E, k1, k2⟩ := ih hrest
    obtain ⟨_, m2, m3, m4⟩ := lexErr_behind (eoi := noEoi) (o := o + b.length) (rest := rest) (B := []) (f := fun c => [c]) hg hq hw
    refine ⟨(lexErr noEoi (o + b.length) (g ++ w ++ rest)).toSErr (fun c => [c]) :: E, fun e he => ?_, fun eoi B es ts hB => ?_⟩
    · rcases List.mem_cons.mp he with rfl | he
      · simp only [List.length_append, LErr.toSErr]
        omega
      · have := k1 e he
        simp only [List.length_append]
        omega
    · obtain ⟨es', e1, e2⟩ := k2 eoi B es ts (by simp only [List.length_append, Nat.add_assoc] at hB ⊢; exact hB)
      have := many_paddedToken_skip (o := o) hb hg hgb (garbage_behind (B := B) hga hq hw) (longest_continue (B := B) hl hl') e2
      refine ⟨lexErr eoi (o + b.length) (g ++ w ++ (rest ++ B)) :: es', ?_, by simpa [List.append_assoc] using this⟩
      rw [List.map_cons, e1, (lexErr_behind hg hq hw).1]

/-- The tokens of whole lines end with a line end. -/
theorem lexesClosed_last {o : Nat} {X : Str} {ts} (h : LexesClosed o X ts) {l : Str} (hX : X = l ++ ['\n']) :
    ∃ l' n, ts = l' ++ [(.newline, n)] := by
  induction h generalizing l with
  | @done o b hb =>
    rcases hb '\n' (by simp [hX]) with h | h <;> exact absurd h (by decide)
  | @tok o b t w rest ts hb hl hr ih =>
    obtain ⟨⟨l', hl'⟩, rfl | ⟨l2, hrest⟩⟩ := longest_ends hX (spells_ne_nil hl.1)
    · have ht : t = .newline := by
        rw [List.append_nil] at hl'
        have := hl.1
        rw [hl'] at this
        rcases spells_lf (u := []) this with h | ⟨v, rfl⟩
        · exact h.1
        · obtain ⟨e, _⟩ := spells_str this
          exact absurd (List.append_inj' e rfl).2 (by decide)
      have : ts = [] := by
        generalize hz : ([] : Str) = z at hr
        cases hr with
        | done => rfl
        | tok _ k _ => simp only [List.nil_eq, List.append_eq_nil_iff] at hz; exact absurd hz.1.2 (spells_ne_nil k.1)
        | skip _ k => simp only [List.nil_eq, List.append_eq_nil_iff] at hz; exact absurd hz.1.1.2 k
      exact ⟨[], _, by rw [ht, this]; rfl⟩
    · obtain ⟨l', n, rfl⟩ := ih hrest
      exact ⟨_ :: l', n, rfl⟩
  | @skip o b g t w rest ts hb hg hgb hga hq hl hr ih =>
    obtain ⟨⟨l', hl'⟩, rfl | ⟨l2, hrest⟩⟩ := longest_ends (b := b ++ g) hX (spells_ne_nil hl.1)
    · have ht : t = .newline := by
        rw [List.append_nil] at hl'
        have := hl.1
        rw [hl'] at this
        rcases spells_lf (u := []) this with h | ⟨v, rfl⟩
        · exact h.1
        · obtain ⟨e, _⟩ := spells_str this
          exact absurd (List.append_inj' e rfl).2 (by decide)
      have : ts = [] := by
        generalize hz : ([] : Str) = z at hr
        cases hr with
        | done => rfl
        | tok _ k _ => simp only [List.nil_eq, List.append_eq_nil_iff] at hz; exact absurd hz.1.2 (spells_ne_nil k.1)
        | skip _ k => simp only [List.nil_eq, List.append_eq_nil_iff] at hz; exact absurd hz.1.1.2 k
      exact ⟨[], _, by rw [ht, this]; rfl⟩
    · obtain ⟨l', n, rfl⟩ := ih hrest
      exact ⟨_ :: l', n, rfl⟩

theorem wholeLines_lined {X : Str} {ts} (h : WholeLines X ts) : LinedToks (ts.filter fun t => decide (t.1 ≠ .comment)) := by
  rcases h.ends with rfl | ⟨l, hl⟩
  · have := h.lexes
    generalize hz : ([] : Str) = z at this
    cases this with
    | done => exact .inl rfl
    | tok _ k _ => simp only [List.nil_eq, List.append_eq_nil_iff] at hz; exact absurd hz.1.2 (spells_ne_nil k.1)
    | skip _ k => simp only [List.nil_eq, List.append_eq_nil_iff] at hz; exact absurd hz.1.1.2 k
  · obtain ⟨l', n, e⟩ := lexesClosed_last h.lexes hl
    refine .inr ⟨l'.filter fun t => decide (t.1 ≠ .comment), n, by rw [e, List.filter_append]; rfl, fun l2 c e2 => ?_⟩
    refine h.last l2 c n ?_
    rw [e, List.filter_append, e2, List.append_assoc]
    rfl

omit [Unicode] in
theorem LinedToks.newlines {s nls : List Tok} (hs : LinedToks s) (hn : Newlines nls) : LinedToks (s ++ nls) := by
  induction nls generalizing s with
  | nil => simpa using hs
  | cons a nls ih =>
    rw [show s ++ a :: nls = (s ++ [a]) ++ nls by simp]
    refine ih ?_ (fun t ht => hn t (List.mem_cons_of_mem _ ht))
    obtain ⟨k, sp⟩ := a
    cases (hn (k, sp) (by simp) : k = .newline)
    refine .inr ⟨s, sp, rfl, ?_⟩
    intro l' c e
    rcases hs with rfl | ⟨l, n, rfl, _⟩
    · simp at e
    · have := congrArg List.getLast? e
      simp at this

/-! ### Statements -/

theorem stmtG_starts {x l} (h : StmtG x l) : ∃ a l', l = a :: l' ∧ Starts a := by
  cases h with
  | globalVar => exact ⟨_, _, rfl, .inl ⟨_, rfl⟩⟩
  | funcDecl => exact ⟨_, _, rfl, .inr (.inr (.inl rfl))⟩
  | funcDeclAddr => exact ⟨_, _, rfl, .inr (.inr (.inl rfl))⟩
  | funcDef => exact ⟨_, _, rfl, .inr (.inr (.inr rfl))⟩
  | funcDependencies => exact ⟨_, _, rfl, .inl ⟨_, rfl⟩⟩
  | dbgAnnotation => exact ⟨_, _, rfl, .inr (.inl ⟨_, rfl⟩)⟩

/-- Every place is moved to the first `N` characters. -/
def squash (N : Nat) : Move := ⟨fun n => min n N, fun n => min n N⟩

theorem pPaddedStatement_natural {F : Move} : Natural F F.stmt pPaddedStatement :=
  paddedBy_natural (repeated_natural pNewline_natural)
    (por_natural (por_natural (por_natural (por_natural pGlobalVar_natural pFuncDecl_natural) pFuncDef_natural)
      pFuncDependencies_natural) pDbgAnnotation_natural)

/-- What is reported about the broken part lies in it or at the first token behind. -/
theorem errors_above {h : Tok} {s t : List Tok} {E : List (LErr Token)} {SS ss' : List Statement} {es' : List (LErr Token)} {eoi : Span}
    (hE : ∀ eoi t es' ss', (∃ es x alt r, pPaddedStatement eoi (h :: t) = .ok es x alt r) → Many docItem eoi (h :: t) es' ss' [] →
      Many docItem eoi (s ++ h :: t) (E.map (upErr t.length) ++ es') (SS ++ ss') [])
    (hr : ∃ es x alt r, pPaddedStatement eoi (h :: t) = .ok es x alt r) (hm : Many docItem eoi (h :: t) es' ss' [])
    (hin : ∀ a ∈ s ++ h :: t, a.2.start ≤ a.2.stop) (ho : (s ++ h :: t).Pairwise fun a b => a.2.stop ≤ b.2.start) (heoi : h.2.stop ≤ eoi.start ∧ eoi.start ≤ eoi.stop) :
    ∀ e ∈ E, e.span.start ≤ e.span.stop ∧ e.span.stop ≤ h.2.stop := by
  have hsq : (squash h.2.stop).spanned h = h := by
    have := hin h (by simp)
    obtain ⟨k, a, b⟩ := h
    simp only [squash, Move.spanned, Move.span, Prod.mk.injEq, Span.mk.injEq, true_and] at this ⊢
    omega
  have hcons : (squash h.2.stop).toks (h :: t) = h :: (squash h.2.stop).toks t := by
    rw [Move.toks, List.map_cons, hsq]
    rfl
  obtain ⟨es, x, alt, r, hr⟩ := hr
  have hn := pPaddedStatement_natural (F := squash h.2.stop) eoi (h :: t)
  rw [hr, hcons] at hn
  have hm' := many_natural (F := squash h.2.stop) docItem_natural hm
  rw [hcons] at hm'
  have hall := hE _ _ _ _ ⟨_, _, _, _, hn⟩ hm'
  obtain ⟨alt, hp⟩ := parser_ok.mpr ⟨rfl, hall⟩
  obtain ⟨h1, h2⟩ := List.pairwise_append.mp ho
  obtain ⟨h3, h4⟩ := List.pairwise_cons.mp h2.1
  have hsafe := safe_parser (N := h.2.stop) (eoi := (squash h.2.stop).span eoi) (s ++ h :: (squash h.2.stop).toks t) (by
    constructor
    · intro a ha
      rcases List.mem_append.mp ha with ha | ha
      · have k1 := hin a (by simp [ha])
        have k2 := h2.2 a ha h (by simp)
        have k3 := hin h (by simp)
        omega
      · rcases List.mem_cons.mp ha with rfl | ha
        · exact ⟨hin _ (by simp), Nat.le_refl _⟩
        · obtain ⟨b, hb, rfl⟩ := List.mem_map.mp ha
          have k1 := hin b (by simp [hb])
          simp only [squash, Move.spanned, Move.span]
          omega
    · refine List.pairwise_append.mpr ⟨h1, List.pairwise_cons.mpr ⟨?_, ?_⟩, ?_⟩
      · intro a ha
        obtain ⟨b, hb, rfl⟩ := List.mem_map.mp ha
        have := h3 b hb
        simp only [squash, Move.spanned, Move.span]
        omega
      · refine List.pairwise_map.mpr (h4.imp_of_mem ?_)
        intro a b ha hb hab
        have k1 := h3 a ha
        have k2 := h3 b hb
        simp only [squash, Move.spanned, Move.span]
        omega
      · intro a ha b hb
        rcases List.mem_cons.mp hb with rfl | hb
        · exact h2.2 a ha _ (by simp)
        · obtain ⟨c, hc, rfl⟩ := List.mem_map.mp hb
          have k1 := h2.2 a ha h (by simp)
          have k2 := h3 c hc
          have k3 := hin h (by simp)
          simp only [squash, Move.spanned, Move.span]
          omega)
  rw [hp] at hsafe
  intro e he
  have := (hsafe.2.1 (upErr _ e) (List.mem_append_left _ (List.mem_map_of_mem he))).span
  simp only [upErr] at this
  rcases this with this | this
  · rw [this]
    simp only [squash, Move.span]
    omega
  · exact this

/-- Whole lines above text whose first statement can be read: what is said about the lines does not depend on that text, except for
its first token. -/
theorem read_below {X : Str} {tsX nls : List Tok} {h : Tok} (hX : WholeLines X tsX) (hn : Newlines nls) (hh : Starts h) :
    ∃ (S : List Statement) (EL EP : List SErr), (∀ e ∈ EL, e.span.start ≤ e.span.stop ∧ e.span.stop ≤ X.length) ∧
      ∀ Z tsZ t eL eP ssZ, Many paddedToken ⟨(X ++ Z).length, (X ++ Z).length⟩ (charStream X.length Z) eL tsZ [] →
        (tsZ.filter fun t => decide (t.1 ≠ Token.comment)) = nls ++ h :: t → ssZ ≠ [] →
        Many docItem ⟨utf8Len (X ++ Z), utf8Len (X ++ Z) + 1⟩ (tsZ.filter fun t => decide (t.1 ≠ Token.comment)) eP ssZ [] →
        (∃ es x alt r, pPaddedStatement ⟨utf8Len (X ++ Z), utf8Len (X ++ Z) + 1⟩ (h :: t) = .ok es x alt r) →
        (∀ e ∈ EP, e.span.start ≤ e.span.stop ∧ e.span.stop ≤ h.2.stop) ∧
        parseFromStr (X ++ Z) = .ok
          { tokens := tsX ++ tsZ
            stmts := S ++ ssZ
            errors := (EL ++ eL.map (LErr.toSErr fun c => [c])) ++ (EP ++ eP.map (LErr.toSErr Token.display)) } := by
  obtain ⟨EL, h1, h2⟩ := many_paddedToken_behind hX.lexes hX.ends
  obtain ⟨S, E, h3⟩ := doc_shut hh _ _ (Nat.le_refl _) ((wholeLines_lined hX).newlines hn)
  refine ⟨S, EL, E.map (LErr.toSErr Token.display), fun e he => ⟨(h1 e he).2.1, by have := (h1 e he).2.2; omega⟩, ?_⟩
  intro Z tsZ t eL eP ssZ hlex hts hss hdoc hread
  obtain ⟨es', e1, e2⟩ := h2 _ Z _ _ (by rw [Nat.zero_add]; exact hlex)
  have htok := tokenize_some_iff.mpr e2
  have hspans := lexesErr_spans (tokenize_sound htok)
  rw [hts] at hdoc
  have hnn : ∀ sp r', h :: t ≠ (.newline, sp) :: r' := by
    intro sp r' e
    exact hh.notNewline sp r' e
  have hdoc' := (many_docItem_newlines hn hnn hss).mp hdoc
  have hall := h3 _ _ _ _ hread hdoc'
  have hfil : ((tsX ++ tsZ).filter fun t => decide (t.1 ≠ Token.comment)) =
      (tsX.filter fun t => decide (t.1 ≠ Token.comment)) ++ nls ++ h :: t := by
    rw [List.filter_append, hts, List.append_assoc]
  have hmem : ∀ a ∈ (tsX.filter fun t => decide (t.1 ≠ Token.comment)) ++ nls ++ h :: t, a ∈ tsX ++ tsZ := by
    intro a ha
    rw [← hfil] at ha
    exact (List.mem_filter.mp ha).1
  refine ⟨?_, ?_⟩
  · intro e he
    obtain ⟨e0, he0, rfl⟩ := List.mem_map.mp he
    refine errors_above h3 hread hdoc' ?_ ?_ ?_ e0 he0
    · intro a ha
      have := hspans.1 a (hmem a ha)
      omega
    · rw [← hfil]
      exact (List.pairwise_map.mp hspans.2).filter _
    · have k := hspans.1 h (hmem h (by simp))
      have := chars_le_bytes (X ++ Z)
      simp only
      omega
  · rw [← hfil] at hall
    have hpt := parseTokens_of_many hall
    unfold parseFromStr
    rw [htok]
    simp only
    rw [hpt]
    simp only [List.map_append, List.map_map, e1, Option.getD_some]
    rfl

/-! ### Documents -/

/-- The first statement of an error-free document. -/
theorem first_statement {eoi : Span} {s : List Tok} {ss : List Statement} (hm : Many docItem eoi s [] ss []) (hss : ss ≠ [])
    (hs : ∀ sp r', s ≠ (.newline, sp) :: r') :
    ∃ h t x m, s = h :: t ∧ Starts h ∧ Ok pPaddedStatement eoi s [] x m ∧ ∀ sp r', m ≠ (.punct ',', sp) :: r' := by
  generalize hz : ([] : List (LErr Token)) = z at hm
  generalize hq : ([] : List Tok) = q at hm
  cases hm with
  | nil => exact absurd rfl hss
  | @cons _ e1 x m e2 ys _ g1 g2 =>
    obtain ⟨rfl, rfl⟩ : e1 = [] ∧ e2 = [] := List.append_eq_nil_iff.mp hz.symm
    have h3 := docItem_clean g1
    have first : ∀ {s x m}, Ok pPaddedStatement eoi s [] x m → ∃ nls a t, Newlines nls ∧ s = nls ++ a :: t ∧ Starts a := by
      intro s x m h
      obtain ⟨nls, l, nls', a1, a2, a3, e, _⟩ := pPaddedStatement_sound h
      obtain ⟨a, l', rfl, ha⟩ := stmtG_starts a2
      exact ⟨nls, a, l' ++ nls' ++ m, a1, by rw [e]; simp, ha⟩
    obtain ⟨nls, a, t, b1, b2, b3⟩ := first h3
    cases nls with
    | cons c nls =>
      obtain ⟨k, sp⟩ := c
      cases (b1 (k, sp) (by simp) : k = .newline)
      exact absurd b2 (hs sp _)
    | nil =>
      refine ⟨a, t, x, m, b2, b3, h3, ?_⟩
      intro sp r' hm'
      generalize hz' : ([] : List (LErr Token)) = z at g2
      cases g2 with
      | nil => rw [← hq] at hm'; cases hm'
      | @cons _ e1 y m2 e2 ys _ g1 g2 =>
        obtain ⟨rfl, rfl⟩ : e1 = [] ∧ e2 = [] := List.append_eq_nil_iff.mp hz'.symm
        obtain ⟨nls, a, t, c1, c2, c3⟩ := first (docItem_clean g1)
        rw [hm'] at c2
        cases nls with
        | nil =>
          obtain ⟨rfl, _⟩ := List.cons.inj c2
          rcases c3 with ⟨_, h⟩ | ⟨_, h⟩ | h | h <;> cases h
        | cons d nls =>
          obtain ⟨rfl, _⟩ := List.cons.inj c2
          cases (c1 _ (List.mem_cons_self ..) : Token.punct ',' = .newline)

/-- The tokens of a document, read behind `X`. -/
theorem lex_down {X Z : Str} {ts te} (h : tokenize Z = .ok (some ts, te)) :
    Many paddedToken ⟨(X ++ Z).length, (X ++ Z).length⟩ (charStream X.length Z) (te.map (down X.length).err) (ts.map (moved X.length)) [] := by
  have := many_natural (F := down X.length) paddedToken_natural (tokenize_some_iff.mp h)
  rw [← charStream_move (k := X.length) (fun i _ _ => ⟨rfl, rfl⟩), Nat.zero_add] at this
  have e : (down X.length).span ⟨Z.length, Z.length⟩ = ⟨(X ++ Z).length, (X ++ Z).length⟩ := by
    simp only [down, Move.span, List.length_append, Span.mk.injEq]
    omega
  rw [e] at this
  exact this

omit [Unicode] in
theorem firstToken_of {ts nls t : List Tok} {h : Tok} (e : (ts.filter fun t => decide (t.1 ≠ Token.comment)) = nls ++ h :: t)
    (hn : Newlines nls) (hh : Starts h) : firstToken ts = some h := by
  unfold firstToken
  have : (ts.filter fun t => decide (t.1 ≠ .comment ∧ t.1 ≠ .newline)) =
      (ts.filter fun t => decide (t.1 ≠ Token.comment)).filter fun t => decide (t.1 ≠ .newline) := by
    rw [List.filter_filter]
    congr 1
    funext t
    simp only [Bool.decide_and, Bool.and_comm]
  rw [this, e, List.filter_append, List.filter_cons, if_pos, List.filter_eq_nil_iff.mpr, List.nil_append]
  · rfl
  · intro a ha
    simp [hn a ha]
  · have := hh.notNewline (t := [])
    obtain ⟨k, sp⟩ := h
    simp only [decide_not, Bool.not_eq_eq_eq_not, Bool.not_true, decide_eq_false_iff_not]
    rintro rfl
    exact this sp [] rfl

/-- Whole lines above an error-free document with statements, and another document below. -/
theorem read_between {X L : Str} {tsX : List Tok} {resL : ParserResult} (hX : WholeLines X tsX) (hL : parseFromStr L = .ok resL)
    (heL : resL.errors = []) (hs : resL.stmts ≠ []) :
    ∃ (S : List Statement) (EL EP : List SErr) (h : Tok), firstToken resL.tokens = some h ∧
      (∀ e ∈ EL ++ EP, e.span.start ≤ e.span.stop ∧ e.span.stop ≤ X.length + h.2.stop) ∧
      parseFromStr (X ++ L) = .ok
        { tokens := tsX ++ resL.tokens.map (moved X.length)
          stmts := S ++ resL.stmts.map (movedStmt X.length)
          errors := EL ++ EP } ∧
      ∀ l B resB, L = l ++ ['\n'] → parseFromStr B = .ok resB → resB.errors = [] ∨ resB.stmts ≠ [] →
        ∃ eL eP, Each (MovedErr (X ++ L) B) resB.errors (eL ++ eP) ∧ parseFromStr ((X ++ L) ++ B) = .ok
          { tokens := (tsX ++ resL.tokens.map (moved X.length)) ++ resB.tokens.map (moved (X ++ L).length)
            stmts := (S ++ resL.stmts.map (movedStmt X.length)) ++ resB.stmts.map (movedStmt (X ++ L).length)
            errors := (EL ++ eL) ++ (EP ++ eP) } := by
  obtain ⟨te, es, h1, h2, h3⟩ := parseFromStr_readable hL (.inl heL)
  rw [heL] at h3
  obtain ⟨h4, h5⟩ := List.append_eq_nil_iff.mp h3.symm
  cases List.map_eq_nil_iff.mp h4
  cases List.map_eq_nil_iff.mp h5
  have hm := many_docItem_down (A := X) h1 (parseTokens_some h2)
  rw [List.map_nil] at hm
  have hss : resL.stmts.map (movedStmt X.length) ≠ [] := by simpa using hs
  obtain ⟨nls, s1, e, hn, hs1⟩ := exists_newlines_split ((resL.tokens.map (moved X.length)).filter fun t => decide (t.1 ≠ Token.comment))
  have hm1 := (many_docItem_newlines hn hs1 hss).mp (e ▸ hm)
  obtain ⟨h', t, x, m, rfl, hh, hok, hcomma⟩ := first_statement hm1 hss hs1
  have hft := firstToken_of e hn hh
  have hft' : ∃ h, firstToken resL.tokens = some h ∧ h' = moved X.length h := by
    unfold firstToken at hft ⊢
    rw [List.filter_map, List.head?_map] at hft
    obtain ⟨h, k1, k2⟩ := Option.map_eq_some_iff.mp hft
    exact ⟨h, k1, k2.symm⟩
  obtain ⟨h, hft', rfl⟩ := hft'
  obtain ⟨S, EL, EP, b1, b2⟩ := read_below hX hn hh
  have hlow := b2 L _ t _ _ _ (lex_down h1) e hss hm (by obtain ⟨alt, k⟩ := hok; exact ⟨_, _, _, _, k⟩)
  refine ⟨S, EL, EP, h, hft', ?_, by simpa using hlow.2, ?_⟩
  · intro e he
    rcases List.mem_append.mp he with he | he
    · have := b1 e he
      omega
    · have := hlow.1 e he
      simp only [moved, movedSpan] at this
      omega
  · intro l B resB hl hB hr
    obtain ⟨teB, esB, g1, g2, g3⟩ := parseFromStr_readable hB hr
    have hlast : ∃ l' n, ((resL.tokens.map (moved X.length)).filter fun t => decide (t.1 ≠ Token.comment)) = l' ++ [(.newline, n)] := by
      obtain ⟨l', n, e⟩ := lexes_last (lexesErr_lexes (tokenize_sound h1) rfl) hl
      rw [e, List.map_append, List.filter_append]
      exact ⟨_, _, rfl⟩
    have hlast1 : ∃ l' n, moved X.length h :: t = l' ++ [(.newline, n)] := by
      obtain ⟨l', n, k⟩ := hlast
      rw [e] at k
      rcases List.eq_nil_or_concat (moved X.length h :: t) with k' | ⟨l2, b, k'⟩
      · cases k'
      · rw [List.concat_eq_append] at k'
        rw [k', ← List.append_assoc] at k
        exact ⟨l2, n, by rw [k', (List.append_inj' k rfl).2]⟩
    have hmB := many_docItem_down (A := X ++ L) g1 (parseTokens_some g2)
    have hall := many_docItem_two hm (.inr hlast) hmB
    have htok := lex_down (X := X) (tokenize_append h1 (.inr ⟨l, hl⟩) g1)
    have emoved : (resL.tokens ++ resB.tokens.map (moved L.length)).map (moved X.length) =
        resL.tokens.map (moved X.length) ++ resB.tokens.map (moved (X ++ L).length) := by
      rw [List.map_append, List.map_map]
      congr 1
      refine List.map_congr_left fun a _ => ?_
      simp only [Function.comp, moved, movedSpan, List.length_append, Prod.mk.injEq, Span.mk.injEq, true_and]
      omega
    have eerr : (teB.map (down L.length).err).map (down X.length).err = teB.map (down (X ++ L).length).err := by
      rw [List.map_map]
      refine List.map_congr_left fun a _ => ?_
      obtain ⟨a, ⟨b, c⟩, d, f, g⟩ := a
      simp only [Function.comp, Move.err, Move.span, down, List.length_append, LErr.mk.injEq, Span.mk.injEq, true_and, and_true]
      omega
    rw [emoved, eerr] at htok
    obtain ⟨nls0, t0, k1, k2, k3⟩ := exists_newlines_split ((resB.tokens.map (moved (X ++ L).length)).filter fun t => decide (t.1 ≠ Token.comment))
    have hread := pPaddedStatement_local hok hlast1 hcomma ⟨utf8Len (X ++ (L ++ B)), utf8Len (X ++ (L ++ B)) + 1⟩ k2 (t := t0) (fun _ => k3)
    rw [← List.filter_append, List.append_assoc X] at hall
    have := (b2 (L ++ B) _ (t ++ (nls0 ++ t0)) _ _ _ htok (by rw [List.filter_append, e, k1]; simp) (by simp [hs]) hall
      (by obtain ⟨alt, k⟩ := hread; exact ⟨_, _, _, _, k⟩)).2
    refine ⟨(teB.map (down (X ++ L).length).err).map (LErr.toSErr fun c => [c]),
      (esB.map (downParser (X ++ L) B).err).map (LErr.toSErr Token.display), ?_, ?_⟩
    rotate_left
    · rw [List.append_assoc X, this]
      simp only [List.append_assoc]
    · rw [g3, List.map_map, List.map_map]
      exact each_append (each_map _ _ fun e _ => toSErr_down (X ++ L) B e) (each_map _ _ fun e _ => toSErr_move (X ++ L) B e)

end

end HyperIR
