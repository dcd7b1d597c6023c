import Verif.Proofs.LaidDoc

/- Two documents with the same tokens in different layouts: the server's answers correspond. -/

namespace HyperIR
open Spec

section
variable [Unicode]

/-! ### Two texts with the same tokens -/

/-- What two documents with the same tokens have in common. -/
structure LaidDocs (T T' : Str) (ts ts' c c' : List Tok) (doc doc' : AnalyzedDocument) : Prop where
  plain : Plain T
  plain' : Plain T'
  size : T.length < 2 ^ 32
  size' : T'.length < 2 ^ 32
  rope : doc.rope = T
  rope' : doc'.rope = T'
  lexes : Lexes 0 T ts
  lexes' : Lexes 0 T' ts'
  code : Reading ts c
  code' : Reading ts' c'
  same : SameTokens c c'
  laying : Laying c T.length
  laying' : Laying c' T'.length
  read : ∃ res, parseFromStr T = .ok res ∧ res.tokens = ts
  read' : ∃ res, parseFromStr T' = .ok res ∧ res.tokens = ts'
  sem : semanticTokensFromTokens ts = .ok doc.semanticTokens
  sem' : semanticTokensFromTokens ts' = .ok doc'.semanticTokens
  within : ∀ e ∈ doc.index.reverseIdx, e.2.span.start < T.length

/-- Everything in the index is within the text. -/
theorem reverse_within {T : Str} {doc : AnalyzedDocument} {errs : List SErr} (ha : analyze T = .ok (doc, errs)) :
    ∀ e ∈ doc.index.reverseIdx, e.2.span.start < T.length := by
  obtain ⟨res, h1, _, _, _, _, h6⟩ := analyze_inv ha
  obtain ⟨g, hinv, hocc, _⟩ := index_inv h1 h6
  obtain ⟨_, hin, _⟩ := revOf_facts g.occs
  intro e he
  rw [hinv.rev] at he
  have := (hin e he).1
  rw [hocc] at this
  have ht := allOccs_token h1 this
  have := (C02_token_spans h1).1 _ ht
  rw [occTok_span] at this
  obtain ⟨k1, k2⟩ := this
  omega

omit [Unicode] in
theorem find?_agree {α : Type} {p q : α → Bool} : ∀ {l : List α}, (∀ x ∈ l, p x = q x) → l.find? p = l.find? q
  | [], _ => rfl
  | x :: l, h => by
    rw [List.find?_cons, List.find?_cons, h x (by simp), find?_agree fun y hy => h y (by simp [hy])]

omit [Unicode] in
theorem sameTokens_length {c c' : List Tok} (h : SameTokens c c') : c'.length = c.length := by
  have := congrArg List.length h
  simpa using this.symm

omit [Unicode] in
theorem sameTokens_get {c c' : List Tok} (h : SameTokens c c') {k : Nat} {a : Tok} (ha : c[k]? = some a) : ∃ b, c'[k]? = some b ∧ b.1 = a.1 := by
  have e := congrArg (fun l => l[k]?) h
  simp only [List.getElem?_map, ha, Option.map_some] at e
  cases hb : c'[k]? with
  | none => rw [hb] at e; cases e
  | some b =>
    rw [hb] at e
    exact ⟨b, rfl, (Option.some.inj e).symm⟩

omit [Unicode] in
theorem sameTokens_get' {c c' : List Tok} (h : SameTokens c c') {k : Nat} {b : Tok} (hb : c'[k]? = some b) : ∃ a, c[k]? = some a ∧ b.1 = a.1 := by
  obtain ⟨a, h1, h2⟩ := sameTokens_get (c := c') (c' := c) (Eq.symm h) hb
  exact ⟨a, h1, h2.symm⟩

omit [Unicode] in
/-- Annotations have the same values. -/
theorem values_same {T T' : Str} {c c' : List Tok} {len len' : Nat} (hp : Plain T) (hp' : Plain T') (hl : Laying c T.length) (hl' : Laying c' T'.length)
    (hs : SameTokens c c') (hv : SameValues T c T' c') {d : List Tok} {a b : List Tok} {n : Spanned Str} {e : Span}
    (hd : countedFrom 0 (c.map Prod.fst) = a ++ dbgTok n :: (.punct '=', e) :: d ++ b) (ho : OneLine d) :
    annotationValue T' (d.map (layMove c' len').spanned) = annotationValue T (d.map (layMove c len).spanned) := by
  have hget : ∀ k t, d[k]? = some t → ∃ x y, c[a.length + 2 + k]? = some x ∧ c'[a.length + 2 + k]? = some y ∧ x.1 = t.1 ∧
      t.2 = ⟨a.length + 2 + k, a.length + 2 + k + 1⟩ := by
    intro k t hk
    have h1 : (countedFrom 0 (c.map Prod.fst))[a.length + 2 + k]? = some t := by
      rw [hd, List.append_assoc, List.getElem?_append_right (by omega), show a.length + 2 + k - a.length = k + 2 by omega]
      simp only [List.cons_append, List.getElem?_cons_succ]
      rw [List.getElem?_append_left]
      · exact hk
      · exact (List.getElem?_eq_some_iff.mp hk).1
    rw [counted_get] at h1
    cases hx : c[a.length + 2 + k]? with
    | none => rw [List.getElem?_map, hx] at h1; cases h1
    | some x =>
      rw [List.getElem?_map, hx] at h1
      simp only [Option.map_some, Nat.zero_add, Option.some.injEq] at h1
      obtain ⟨y, hy, _⟩ := sameTokens_get hs hx
      exact ⟨x, y, rfl, hy, by rw [← h1], by rw [← h1]⟩
  cases d with
  | nil => rfl
  | cons t0 d =>
    have hlast : (t0 :: d).getLast? = (t0 :: d)[d.length]? := by rw [List.getLast?_eq_getElem?]; simp
    have hlt : (t0 :: d)[d.length]? = some ((t0 :: d)[d.length]'(by simp)) := List.getElem?_eq_getElem _
    generalize (t0 :: d)[d.length]'(by simp) = t1 at hlt
    obtain ⟨x0, y0, hx0, hy0, _, s0⟩ := hget 0 t0 rfl
    obtain ⟨x1, y1, hx1, hy1, _, s1⟩ := hget d.length t1 hlt
    rw [Nat.add_zero] at hx0 hy0 s0
    have hval : AnnotationValue c (a.length + 2) (a.length + 2 + d.length) := by
      refine ⟨a.length, rfl, by omega, ?_, ?_, ?_⟩
      · have h1 : (countedFrom 0 (c.map Prod.fst))[a.length]? = some (dbgTok n) := by
          rw [hd, List.append_assoc, List.getElem?_append_right (by omega)]
          simp
        rw [counted_get, List.getElem?_map] at h1
        refine ⟨n.1, ?_⟩
        cases hx : c[a.length]? with
        | none => rw [hx] at h1; cases h1
        | some x =>
          rw [hx] at h1
          simp only [Option.map_some, Option.some.injEq, dbgTok, Prod.mk.injEq] at h1
          simp [h1.1]
      · have h1 : (countedFrom 0 (c.map Prod.fst))[a.length + 1]? = some (.punct '=', e) := by
          rw [hd, List.append_assoc, List.getElem?_append_right (by omega)]
          simp
        rw [counted_get, List.getElem?_map] at h1
        cases hx : c[a.length + 1]? with
        | none => rw [hx] at h1; cases h1
        | some x =>
          rw [hx] at h1
          simp only [Option.map_some, Option.some.injEq, Prod.mk.injEq] at h1
          simp [h1.1]
      · intro m h1 h2
        have hm : (t0 :: d)[m - (a.length + 2)]? = some ((t0 :: d)[m - (a.length + 2)]'(by simp; omega)) := List.getElem?_eq_getElem _
        obtain ⟨x, y, hx, _, hk, _⟩ := hget _ _ hm
        rw [show a.length + 2 + (m - (a.length + 2)) = m by omega] at hx
        exact ⟨x, hx, hk ▸ ho _ (List.mem_of_getElem? hm)⟩
    have hslice := hv _ _ _ _ _ _ hval hx0 hx1 hy0 hy1
    have e1 : ∀ {T : Str} {c : List Tok} {x0 x1 : Tok} {len : Nat}, Plain T → Laying c T.length → c[a.length + 2]? = some x0 → c[a.length + 2 + d.length]? = some x1 →
        annotationValue T ((t0 :: d).map (layMove c len).spanned) = .ok (some ((T.drop x0.2.start).take (x1.2.stop - x0.2.start))) := by
      intro T c x0 x1 len hp hl h0 h1
      unfold annotationValue
      rw [List.getLast?_map, hlast, hlt]
      simp only [List.map_cons, List.head?_cons, Option.map_some, Move.spanned, Move.span, s0, s1, layMove_fs_lt h0, layMove_fe_lt h1]
      have k0 := hl.span _ _ h0
      have k1 := hl.span _ _ h1
      have hle : x0.2.start ≤ x1.2.stop := by
        by_cases hz : d.length = 0
        · rw [hz, Nat.add_zero, h0] at h1
          cases h1
          omega
        · have := hl.order _ _ _ _ (by omega) h0 h1
          omega
      rw [sliceBytes_ascii (plain_asc hp) hle k1.2]
    rw [e1 hp hl hx0 hx1, e1 hp' hl' hy0 hy1, hslice]

omit [Unicode] in
/-- The position of an offset within the text. -/
theorem offset_position {T : Str} (hp : Plain T) (hsize : T.length < 2 ^ 32) {x : Nat} (hx : x ≤ T.length) :
    ∃ p, offsetToLspPos T x = some p ∧ At T p x ∧ (¬ InCrLf T x → LspOffset T p x) := by
  obtain ⟨p, h1, _⟩ := (C14_positions_partial hsize).1 x hx (hp.to _)
  have h2 : ¬ InCrLf T x → LspOffset T p x := by
    intro hc
    obtain ⟨q, hq⟩ := lspOffset_exists T.length (Nat.le_refl _) hx hc
    have h3 := ((C14_positions_partial hsize).2 _ _ hq (hp.to _)).2
    rw [h1] at h3
    cases h3
    exact hq
  refine ⟨p, h1, ?_, h2⟩
  by_cases hc : InCrLf T x
  · exact .inr hc
  · exact .inl (h2 hc)

omit [Unicode] in
theorem offset_beyond {T : Str} (hp : Plain T) {x : Nat} (hx : T.length < x) : offsetToLspPos T x = none := by
  have hlen := utf8Len_ascii (plain_asc hp)
  unfold offsetToLspPos byteToLine?
  rw [hlen, if_neg (by omega)]

omit [Unicode] in
theorem offset_zero {T : Str} (hsize : T.length < 2 ^ 32) : offsetToLspPos T 0 = some ⟨0, 0⟩ := by
  have h1 : byteToChar 0 T = 0 := by
    cases T with
    | nil => rfl
    | cons c r =>
      have := Char.utf8Size_pos c
      simp only [byteToChar]
      rw [if_neg (by omega)]
  have h2 : byteToLine 0 T = 0 := by
    cases T with
    | nil => rfl
    | cons c r =>
      have := Char.utf8Size_pos c
      simp only [byteToLine]
      rw [if_neg (by omega)]
  rw [offsetToLspPos_eq (by omega) hsize, h1, h2, Nat.zero_sub]

omit [Unicode] in
theorem end_not_inCrLf {T : Str} : ¬ InCrLf T T.length := by
  rintro ⟨a, b, h1, h2⟩
  rw [h1] at h2
  simp at h2

theorem LaidDocs.kind {T T' : Str} {ts ts' c c' : List Tok} {doc doc' : AnalyzedDocument} (h : LaidDocs T T' ts ts' c c' doc doc') {k : Nat} {t : Tok}
    (ht : c[k]? = some t) : ¬ InCrLf T t.2.stop ∧ (t.1 ≠ .newline → ¬ InCrLf T t.2.start) := by
  obtain ⟨res, h1, rfl⟩ := h.read
  obtain ⟨m1, m2⟩ := h.code.mem (List.mem_of_getElem? ht)
  have := token_not_inCrLf h1 (t := t.1) (sp := t.2) m1
  exact ⟨this.2 m2, this.1⟩

theorem LaidDocs.kind' {T T' : Str} {ts ts' c c' : List Tok} {doc doc' : AnalyzedDocument} (h : LaidDocs T T' ts ts' c c' doc doc') {k : Nat} {t : Tok}
    (ht : c'[k]? = some t) : ¬ InCrLf T' t.2.stop ∧ (t.1 ≠ .newline → ¬ InCrLf T' t.2.start) := by
  obtain ⟨res, h1, rfl⟩ := h.read'
  obtain ⟨m1, m2⟩ := h.code'.mem (List.mem_of_getElem? ht)
  have := token_not_inCrLf h1 (t := t.1) (sp := t.2) m1
  exact ⟨this.2 m2, this.1⟩

/-- The two analyses, related. -/
theorem laid_docs {T T' : Str} {ts ts' c c' : List Tok} {doc doc' : AnalyzedDocument} {errs errs' : List SErr} (hl : Lexes 0 T ts) (hl' : Lexes 0 T' ts')
    (hc : Reading ts c) (hc' : Reading ts' c') (hs : SameTokens c c') (hv : SameValues T c T' c') (hp : Plain T) (hp' : Plain T')
    (hsize : T.length < 2 ^ 32) (hsize' : T'.length < 2 ^ 32) (ha : analyze T = .ok (doc, errs)) (ha' : analyze T' = .ok (doc', errs')) :
    LaidDocs T T' ts ts' c c' doc doc' ∧ (∃ ix0 ss0, Laid (layMove c T.length) (layMove c' T'.length) ix0 ss0
      (SameStart T c T' c') (SameStop T c T' c') doc doc') ∧
    ∃ es : List (LErr Token), ((T = [] ∨ ¬ Blank T) → errs = es.map fun e => ((layMove c T.length).err e).toSErr Token.display) ∧
      ((T' = [] ∨ ¬ Blank T') → errs' = es.map fun e => ((layMove c' T'.length).err e).toSErr Token.display) := by
  obtain ⟨so, es, hparse⟩ := parseTokens_total c.length (countedFrom 0 (c.map Prod.fst))
  have hkinds : c'.map Prod.fst = c.map Prod.fst := Eq.symm hs
  have hparse' : parseTokens c'.length (countedFrom 0 (c'.map Prod.fst)) = .ok (so, es) := by
    rw [hkinds, sameTokens_length hs]
    exact hparse
  obtain ⟨a1, a2, a3, ⟨ix0, a4, a5⟩, a6, a7, a8⟩ := laid_analysis (av := fun d => annotationValue T (d.map (layMove c T.length).spanned)) hp hl hc rfl hparse (fun _ _ _ => rfl) ha
  have hlay' : Laying c' T'.length := by
    obtain ⟨q1, q2⟩ := lexesErr_spans (lexes_lexesErr hl')
    exact hc'.laying (fun t ht => by have := q1 t ht; omega) q2
  have hav' : ∀ n d, Statement.dbgAnnotation n d ∈ so.getD [] →
      annotationValue T' (d.map (layMove c' T'.length).spanned) = annotationValue T (d.map (layMove c T.length).spanned) := by
    intro n d hm
    cases so with
    | none => cases hm
    | some ss =>
      obtain ⟨l, d1, d2⟩ := many_docItem_sound (parseTokens_some hparse)
      have hn0 : (countedFrom 0 (c.map Prod.fst)).filter (fun t => decide (t.1 ≠ Token.comment)) = countedFrom 0 (c.map Prod.fst) := counted_code fun t ht => (hc.mem ht).2
      rw [List.append_nil, hn0] at d2
      obtain ⟨a, e, b, e1, e2⟩ := docSkip_value d1 hm
      exact values_same hp hp' a1 hlay' hs hv (d2.trans e1) e2
  obtain ⟨b1, b2, b3, ⟨ix1, b4, b5⟩, b6, b7, b8⟩ := laid_analysis (av := fun d => annotationValue T (d.map (layMove c T.length).spanned)) hp' hl' hc' rfl hparse' hav' ha'
  rw [hkinds, a4] at b4
  cases b4
  have hD : LaidDocs T T' ts ts' c c' doc doc' := ⟨hp, hp', hsize, hsize', a2, b2, hl, hl', hc, hc', hs, a1, b1, ⟨_, a7, rfl⟩, ⟨_, b7, rfl⟩, a8, b8, reverse_within ha⟩
  refine ⟨hD, ⟨ix0, so.getD [], fun x => ?_, fun x => ?_, a3, b3, a5, b5⟩, es, a6, b6⟩
  · rw [a2, b2]
    rcases getElem?_or c x with ⟨t, ht, _⟩ | hx
    · obtain ⟨t', ht', _⟩ := sameTokens_get hs ht
      rw [layMove_fs_lt ht, layMove_fs_lt ht']
      have k1 := a1.span _ _ ht
      have k2 := b1.span _ _ ht'
      obtain ⟨p, p1, p2, _⟩ := offset_position hp hsize (x := t.2.start) (by omega)
      obtain ⟨p', p1', p2', _⟩ := offset_position hp' hsize' (x := t'.2.start) (by omega)
      rw [p1, p1']
      exact .inl ⟨x, t, t', ht, ht', p2, p2'⟩
    · rw [layMove_fs_ge hx, layMove_fs_ge (by rw [sameTokens_length hs]; exact hx), sameTokens_length hs]
      by_cases hx0 : x = c.length
      · rw [hx0, Nat.sub_self, Nat.add_zero, Nat.add_zero]
        obtain ⟨p, p1, _, p2⟩ := offset_position hp hsize (x := T.length) (Nat.le_refl _)
        obtain ⟨p', p1', _, p2'⟩ := offset_position hp' hsize' (x := T'.length) (Nat.le_refl _)
        rw [p1, p1']
        exact .inr ⟨p2 end_not_inCrLf, p2' end_not_inCrLf⟩
      · rw [offset_beyond hp (by omega), offset_beyond hp' (by omega)]
        trivial
  · rw [a2, b2]
    cases x with
    | zero =>
      rw [layMove_fe_zero, layMove_fe_zero, offset_zero hsize, offset_zero hsize']
      exact .inr ⟨rfl, rfl⟩
    | succ x =>
      rcases getElem?_or c x with ⟨t, ht, _⟩ | hx
      · obtain ⟨t', ht', _⟩ := sameTokens_get hs ht
        rw [layMove_fe_lt ht, layMove_fe_lt ht']
        have k1 := a1.span _ _ ht
        have k2 := b1.span _ _ ht'
        obtain ⟨p, p1, _, p2⟩ := offset_position hp hsize (x := t.2.stop) (by omega)
        obtain ⟨p', p1', _, p2'⟩ := offset_position hp' hsize' (x := t'.2.stop) (by omega)
        rw [p1, p1']
        exact .inl ⟨x, t, t', ht, ht', p2 (hD.kind ht).1, p2' (hD.kind' ht').1⟩
      · rw [layMove_fe_ge hx, layMove_fe_ge (by rw [sameTokens_length hs]; exact hx), offset_beyond hp (by omega), offset_beyond hp' (by omega)]
        trivial

/-! ### The symbol at a position -/

variable {T T' uri : Str} {ts ts' c c' : List Tok} {st st' : ServerState} {doc doc' : AnalyzedDocument} {ix0 : HIRIndex} {ss0 : List Statement} {P Q : Pos → Pos → Prop} {F F' : Move}

theorem LaidDocs.symbol (h : LaidDocs T T' ts ts' c c' doc doc') (hL : Laid (layMove c T.length) (layMove c' T'.length) ix0 ss0 P Q doc doc')
    {p p' : Pos} (hs : SameSpot T c T' c' p p') :
    ∃ o : Option SymbolOccurrence, symbolAt doc p = o.map (plOcc (layMove c T.length)) ∧
      symbolAt doc' p' = o.map (plOcc (layMove c' T'.length)) := by
  obtain ⟨off, off', ho, ho', hk⟩ := hs
  obtain ⟨a1, a2, a3⟩ := lspOffset_within h.plain h.size ho
  obtain ⟨b1, b2, b3⟩ := lspOffset_within h.plain' h.size' ho'
  have hlen := sameTokens_length h.same
  have key : ∀ x, x < c.length → ((layMove c T.length).fs x ≤ off ↔ (layMove c' T'.length).fs x ≤ off') := by
    intro x hx
    rcases getElem?_or c x with ⟨t, ht, _⟩ | hx
    · obtain ⟨t', ht', _⟩ := sameTokens_get h.same ht
      rw [layMove_fs_lt ht, layMove_fs_lt ht']
      exact (hk x t t' ht ht').1
    · omega
  have key2 : ∀ x, (layMove c T.length).fe x ≤ off ↔ (layMove c' T'.length).fe x ≤ off' := by
    intro x
    cases x with
    | zero => simp [layMove_fe_zero]
    | succ x =>
      rcases getElem?_or c x with ⟨t, ht, _⟩ | hx
      · obtain ⟨t', ht', _⟩ := sameTokens_get h.same ht
        rw [layMove_fe_lt ht, layMove_fe_lt ht']
        exact (hk x t t' ht ht').2
      · rw [layMove_fe_ge hx, layMove_fe_ge (by omega)]
        omega
  have hc : ∀ sp : Span, sp.start < c.length →
      ((layMove c T.length).span sp).contains off = ((layMove c' T'.length).span sp).contains off' := by
    intro sp hsp
    have k1 := key sp.start hsp
    have k2 := key2 sp.stop
    have e : ∀ (a b c d o o' : Nat), (a ≤ o ↔ c ≤ o') → (b ≤ o ↔ d ≤ o') → Span.contains ⟨a, b⟩ o = Span.contains ⟨c, d⟩ o' := by
      intro a b c d o o' h1 h2
      unfold Span.contains
      rw [Bool.eq_iff_iff]
      simp only [Bool.and_eq_true, decide_eq_true_eq]
      omega
    exact e _ _ _ _ _ _ k1 k2
  have hsym : ∀ (F : Move) (o : Nat), (plIx F ix0).findSymbolAtPosition o = ((ix0.reverseIdx.map Prod.snd).find? fun e => (F.span e.span).contains o).map (plOcc F) := by
    intro F o
    simp only [HIRIndex.findSymbolAtPosition, plIx, plRev, List.map_map]
    rw [show (Prod.snd ∘ fun e : Nat × SymbolOccurrence => (F.fs e.1, plOcc F e.2)) = plOcc F ∘ Prod.snd from rfl, ← List.map_map, List.find?_map]
    rfl
  refine ⟨(ix0.reverseIdx.map Prod.snd).find? fun e => ((layMove c T.length).span e.span).contains off, ?_, ?_⟩
  · unfold symbolAt
    rw [h.rope, a1, hL.index, Option.bind_some, hsym]
  · unfold symbolAt
    rw [h.rope', b1, hL.index', Option.bind_some, hsym]
    congr 1
    refine find?_agree fun e he => (hc e.span ?_).symm
    obtain ⟨x, hx, rfl⟩ := List.mem_map.mp he
    have hw := h.within ((layMove c T.length).fs x.1, plOcc (layMove c T.length) x.2) (by
      rw [hL.index]
      exact List.mem_map_of_mem (f := fun e => ((layMove c T.length).fs e.1, plOcc (layMove c T.length) e.2)) hx)
    simp only [plOcc, Move.span] at hw
    rcases getElem?_or c x.2.span.start with ⟨t, _, ht⟩ | hge
    · exact ht
    · rw [layMove_fs_ge hge] at hw
      omega

/-! ### The answers -/

omit [Unicode] in
theorem externalLocations_shape (env : Env) (roots : List Url) : ∀ {ds : List ExternalDef} {ls : List Location}, externalLocations env roots ds = .ok ls →
    ∀ l ∈ ls, l.range.stop = l.range.start ∧ l.range.start.character = 0
  | [], ls, h => by
    cases h
    intro l hl
    cases hl
  | d :: ds, ls, h => by
    unfold externalLocations at h
    cases hr : resolveRelativePath env.fs roots d.filepath with
    | panic => rw [hr] at h; cases h
    | ok o =>
      rw [hr] at h
      cases o with
      | none => exact externalLocations_shape env roots h
      | some u =>
        simp only at h
        cases hu : u32Sub env.build d.line 1 with
        | panic => rw [hu] at h; cases h
        | ok n =>
          rw [hu] at h
          simp only at h
          cases he : externalLocations env roots ds with
          | panic => rw [he] at h; cases h
          | ok ls' =>
            rw [he] at h
            cases h
            intro l hl
            rcases List.mem_cons.mp hl with rfl | hl
            · exact ⟨rfl, rfl⟩
            · exact externalLocations_shape env roots he l hl

/-- Corresponding origins and targets. -/
def AlikeUses (P Q : Pos → Pos → Prop) (uri : Str) (ud : UseDefKind) (x y : Range × List Location) : Prop :=
  AlikeRange P Q x.1 y.1 ∧ ∃ l l' ext, x.2 = l ++ ext ∧ y.2 = l' ++ ext ∧ OneByOne (AlikeLocation P Q uri) l l' ∧ (ud ≠ .def_ → ext = []) ∧
    ∀ e ∈ ext, e.range.stop = e.range.start ∧ e.range.start.character = 0

omit [Unicode] in
theorem useDef_alike (hL : Laid F F' ix0 ss0 P Q doc doc') (hd : st.docs.get? uri = some doc) (hd' : st'.docs.get? uri = some doc')
    (hroots : st'.roots = st.roots) (env : Env) {p p' : Pos} (ud : UseDefKind) {o : Option SymbolOccurrence} (h1 : symbolAt doc p = o.map (plOcc F))
    (h2 : symbolAt doc' p' = o.map (plOcc F')) :
    OutRel₂ (OptAlike (AlikeUses P Q uri ud)) (getUseDefRanges env st uri p ud) (getUseDefRanges env st' uri p' ud) := by
  unfold getUseDefRanges
  simp only [hd, hd', h1, h2]
  cases o with
  | none => trivial
  | some o =>
    simp only [Option.map_some]
    obtain ⟨x, x1, x2⟩ := hL.table o.symbolKind o.funcBodyId
    simp only [plOcc, x1, x2]
    cases x with
    | panic => trivial
    | ok t =>
      simp only [Outcome.map', plMap, get?_mapVals]
      cases StrMap.get? t o.name with
      | none => trivial
      | some u =>
        simp only [Option.map_some, plUses_get, hroots]
        have he : (if ud = .def_ then externalLocations env st.roots (plUses F' u).externalDefs else .ok []) =
            (if ud = .def_ then externalLocations env st.roots (plUses F u).externalDefs else .ok []) := rfl
        rw [he]
        cases hx : (if ud = .def_ then externalLocations env st.roots (plUses F u).externalDefs else .ok [] : Outcome (List Location)) with
        | panic => trivial
        | ok ext =>
          simp only
          refine (hL.range o.span).map fun r r' hr => ⟨hr, _, _, ext, rfl, rfl, hL.locations uri _, fun hn => ?_, ?_⟩
          · rw [if_neg hn] at hx
            exact (Outcome.ok.inj hx).symm
          · by_cases hn : ud = .def_
            · rw [if_pos hn] at hx
              exact externalLocations_shape env _ hx
            · rw [if_neg hn] at hx
              cases hx
              intro l hl
              cases hl

omit [Unicode] in
theorem links_alike {ud : UseDefKind} {x y : Range × List Location} (h : AlikeUses P Q uri ud x y) : OneByOne (AlikeLink P Q uri) (toLinks x) (toLinks y) := by
  obtain ⟨h1, l, l', ext, h2, h3, h4, _, h5⟩ := h
  unfold toLinks
  rw [h2, h3, List.map_append, List.map_append]
  refine alike_append ?_ (alike_map fun e he => ⟨h1, .inr ⟨rfl, h5 e he⟩⟩)
  clear h2 h3
  induction l generalizing l' with
  | nil => cases l' with
    | nil => trivial
    | cons y l' => exact h4.elim
  | cons x l ih => cases l' with
    | nil => exact h4.elim
    | cons y l' => exact ⟨⟨h1, .inl h4.1⟩, ih _ h4.2⟩

/-- Both fail in the same way, or both give related values. -/
def ExRel₂ {α β : Type} (R : α → β → Prop) : Except RpcError α → Except RpcError β → Prop
  | .ok a, .ok b => R a b
  | .error e, .error e' => e' = e
  | _, _ => False

theorem renameEdits_alike (hL : Laid F F' ix0 ss0 P Q doc doc') (env : Env) (o : SymbolOccurrence) (x : Str) :
    OutRel₂ (ExRel₂ (Matched (AlikeEdit P Q))) (renameEdits env doc (plOcc F o) x) (renameEdits env doc' (plOcc F' o) x) := by
  have hrel : ∀ sign, OutRel₂ (ExRel₂ (Matched (AlikeEdit P Q))) (relativeRename env doc (plOcc F o) x sign) (relativeRename env doc' (plOcc F' o) x sign) := by
    intro sign
    unfold relativeRename
    cases parseI64 (x.drop 1) with
    | none => exact rfl
    | some nr =>
      dsimp only
      cases i64Op env.build (sign * nr) with
      | panic => trivial
      | ok shift =>
        dsimp only [plOcc]
        cases extractNumberFromIdentifier o.name with
        | panic => trivial
        | ok y =>
          cases y with
          | none => exact rfl
          | some y =>
            dsimp only
            have := hL.shiftEdits env.ord env.build o.symbolKind o.funcBodyId y.2 shift
            revert this
            cases getShiftEdits env.ord env.build doc.rope doc.index o.symbolKind o.funcBodyId y.2 shift <;>
              cases getShiftEdits env.ord env.build doc'.rope doc'.index o.symbolKind o.funcBodyId y.2 shift <;>
              intro this <;> exact this
  have habs : OutRel₂ (ExRel₂ (Matched (AlikeEdit P Q))) (absoluteRename doc (plOcc F o) x) (absoluteRename doc' (plOcc F' o) x) := by
    unfold absoluteRename
    dsimp only [plOcc]
    cases checkNewName o.symbolKind x with
    | panic => trivial
    | ok y =>
      cases y with
      | error e => exact rfl
      | ok name =>
        dsimp only
        obtain ⟨z, x1, x2⟩ := hL.table o.symbolKind o.funcBodyId
        rw [x1, x2]
        cases z with
        | panic => trivial
        | ok t =>
          simp only [Outcome.map', plMap, get?_mapVals]
          cases StrMap.get? t o.name with
          | none => trivial
          | some u => exact matched_alike (hL.renameEdits u name)
  unfold renameEdits
  split
  · exact hrel 1
  · exact hrel (-1)
  · exact habs

theorem resolve_alike (hL : Laid F F' ix0 ss0 P Q doc doc') (hd : st.docs.get? uri = some doc) (hd' : st'.docs.get? uri = some doc') (env : Env)
    {a : CodeAction} {d : CodeActionData} (ha : a.data = .shift d) (hu : d.uri = uri) :
    OutRel₂ (ExRel₂ (AlikeAction P Q)) (codeActionResolve env st a) (codeActionResolve env st' a) := by
  unfold codeActionResolve
  simp only [ha, hu, hd, hd']
  have := hL.shiftEdits env.ord env.build d.symbolKind d.funcBodyId d.renamedNr 1
  revert this
  cases getShiftEdits env.ord env.build doc.rope doc.index d.symbolKind d.funcBodyId d.renamedNr 1 <;>
    cases getShiftEdits env.ord env.build doc'.rope doc'.index d.symbolKind d.funcBodyId d.renamedNr 1 <;>
    intro this <;> first | exact this | exact ⟨rfl, rfl, ⟨rfl, this⟩, trivial⟩

/-- Corresponding lists of actions. -/
def AlikeActions (P Q : Pos → Pos → Prop) : Option (List CodeAction) → Option (List CodeAction) → Prop := OptAlike (OneByOne (AlikeAction P Q))

omit [Unicode] in
theorem action_refl {a : CodeAction} (h : a.edit = none) : AlikeAction P Q a a := by
  refine ⟨rfl, rfl, ?_⟩
  rw [h]
  trivial

theorem codeAction_alike (hL : Laid F F' ix0 ss0 P Q doc doc') (hd : st.docs.get? uri = some doc) (hd' : st'.docs.get? uri = some doc')
    (hlazy : st'.lazyResolve = st.lazyResolve) (env : Env) {r r' : Range} (hr : r.start = r.stop ↔ r'.start = r'.stop) {o : Option SymbolOccurrence}
    (h1 : symbolAt doc r.start = o.map (plOcc F)) (h2 : symbolAt doc' r'.start = o.map (plOcc F')) :
    OutRel₂ (ExRel₂ (AlikeActions P Q)) (codeAction env st uri r) (codeAction env st' uri r') := by
  unfold codeAction
  simp only [hd, hd', hlazy]
  by_cases hc : r.start = r.stop
  · rw [if_neg (fun hn => hn hc), if_neg (fun hn => hn (hr.mp hc))]
    unfold offeredActions
    rw [h1, h2]
    cases o with
    | none =>
      simp only [Option.map_none]
      split <;> trivial
    | some o =>
      simp only [Option.map_some, plOcc]
      cases extractNumberFromIdentifier o.name with
      | panic => trivial
      | ok y =>
        cases y with
        | none =>
          simp only
          split <;> trivial
        | some y =>
          simp only
          split
          · exact ⟨action_refl rfl, trivial⟩
          · have := resolve_alike hL hd hd' env (a := { title := shiftTitle o.symbolKind, data := .shift { uri := uri, symbolKind := o.symbolKind, funcBodyId := o.funcBodyId, renamedNr := y.2 } }) rfl rfl
            simp only [resolveAll]
            revert this
            cases codeActionResolve env st _ with
            | panic =>
              cases codeActionResolve env st' _ with
              | panic => intro _; trivial
              | ok b => intro h; exact h.elim
            | ok a =>
              cases codeActionResolve env st' _ with
              | panic => intro h; exact h.elim
              | ok b =>
                cases a <;> cases b <;> intro h
                · trivial
                · exact h.elim
                · exact h.elim
                · exact ⟨h, trivial⟩
  · rw [if_pos hc, if_pos (fun hn => hc (hr.mpr hn))]
    trivial

/-! ### Highlighting -/

/-- A token that is neither a comment nor a line end is spelled in one way. -/
theorem spells_det {t : Token} {w w' : Str} (h : Spells t w) (h' : Spells t w') (hn : t ≠ .newline) (hc : t ≠ .comment) : w = w' := by
  cases h <;> cases h' <;> first | rfl | exact absurd rfl hn | exact absurd rfl hc

theorem code_length {T : Str} {ts c : List Tok} (hl : Lexes 0 T ts) (hc : Reading ts c) {k : Nat} {t : Tok} (ht : c[k]? = some t) :
    ∃ w, Spells t.1 w ∧ t.2.stop = t.2.start + w.length := by
  obtain ⟨m1, _⟩ := hc.mem (List.mem_of_getElem? ht)
  obtain ⟨a, g, w, r, h1, h2, h3, h4, h5⟩ := lexesErr_mem (lexes_lexesErr hl) t.1 t.2 m1
  obtain rfl := h5 rfl
  refine ⟨w, h2.1, ?_⟩
  rw [h4]
  simp

omit [Unicode] in
theorem oneByOne_filterMap {α β γ δ : Type} {R : γ → δ → Prop} {f : α → Option γ} {f' : β → Option δ} : ∀ {l : List α} {l' : List β},
    l.length = l'.length → (∀ (k : Nat) a b, l[k]? = some a → l'[k]? = some b → OptAlike R (f a) (f' b)) → OneByOne R (l.filterMap f) (l'.filterMap f')
  | [], [], _, _ => trivial
  | a :: l, b :: l', hlen, h => by
    have h1 := h 0 a b rfl rfl
    have h2 := oneByOne_filterMap (f := f) (f' := f') (l := l) (l' := l') (by simpa using hlen) fun k x y hx hy => h (k + 1) x y hx hy
    simp only [List.filterMap_cons]
    revert h1
    cases f a <;> cases f' b <;> intro h1
    · exact h2
    · exact h1.elim
    · exact h1.elim
    · exact ⟨h1, h2⟩
  | [], _ :: _, hlen, _ => by cases hlen
  | _ :: _, [], hlen, _ => by cases hlen

theorem LaidDocs.highlights (h : LaidDocs T T' ts ts' c c' doc doc') (b : Build) : ∃ ls ls', convertToLspTokens b T 0 0 doc.semanticTokens = .ok ls ∧
    convertToLspTokens b T' 0 0 doc'.semanticTokens = .ok ls' ∧
    OneByOne (AlikeHighlight (SameStart T c T' c')) (codeHighlights ls) (codeHighlights ls') := by
  have hzero : ∀ (t : Str) (x : Nat), PosLe ⟨0, 0⟩ (posOf t x) := by
    intro t x
    unfold PosLe
    simp only
    omega
  obtain ⟨res, r1, r2⟩ := h.read
  obtain ⟨res', r1', r2'⟩ := h.read'
  obtain ⟨q1, q2⟩ := C02_token_spans r1
  obtain ⟨q1', q2'⟩ := C02_token_spans r1'
  rw [r2] at q1 q2
  rw [r2'] at q1' q2'
  obtain ⟨s1, s2, _⟩ := semanticTokens_starts h.sem q1 q2
  obtain ⟨s1', s2', _⟩ := semanticTokens_starts h.sem' q1' q2'
  obtain ⟨ls, c1, c2⟩ := convert_decode b h.size (prev := ⟨0, 0⟩) s1 (fun t _ => hzero _ _) s2
  obtain ⟨ls', c1', c2'⟩ := convert_decode b h.size' (prev := ⟨0, 0⟩) s1' (fun t _ => hzero _ _) s2'
  refine ⟨ls, ls', c1, c1', ?_⟩
  unfold codeHighlights
  rw [c2, c2', codeHighlights_tokens T h.sem, codeHighlights_tokens T' h.sem']
  rw [show nonComments ts = codeTokens ts from rfl, show nonComments ts' = codeTokens ts' from rfl, ← h.code.filterMap fun t ht => by rw [ht]; rfl, ← h.code'.filterMap fun t ht => by rw [ht]; rfl]
  refine oneByOne_filterMap (l := c) (l' := c') (sameTokens_length h.same).symm fun k x y hx hy => ?_
  obtain ⟨y', hy', hk⟩ := sameTokens_get h.same hx
  rw [hy] at hy'
  cases hy'
  rw [hk]
  cases hs : semTypeOf x.1 with
  | none => trivial
  | some ty =>
    simp only [Option.map_some]
    have hnl : x.1 ≠ .newline := by intro hc; rw [hc] at hs; cases hs
    have hnc : x.1 ≠ .comment := (h.code.mem (List.mem_of_getElem? hx)).2
    have k1 := h.laying.span _ _ hx
    have k2 := h.laying'.span _ _ hy
    obtain ⟨p, p1, p2, _⟩ := offset_position h.plain h.size (x := x.2.start) (by omega)
    obtain ⟨p', p1', p2', _⟩ := offset_position h.plain' h.size' (x := y.2.start) (by omega)
    obtain ⟨w, w1, w2⟩ := code_length h.lexes h.code hx
    obtain ⟨w', w1', w2'⟩ := code_length h.lexes' h.code' hy
    rw [hk] at w1'
    cases spells_det w1 w1' hnl hnc
    refine ⟨?_, ?_, rfl⟩
    · simp only
      rw [posOf_of h.size (by omega) p1, posOf_of h.size' (by omega) p1']
      exact .inl ⟨k, x, y, hx, hy, p2, p2'⟩
    · simp only [Span.len]
      congr 1
      omega

/-! ### The property -/

omit [Unicode] in
theorem answers_of_rel₂ {α β : Type} {R : α → β → Prop} {S : Reply → Reply → Prop} {f : α → Reply} {f' : β → Reply} {x : Outcome (Except RpcError α)}
    {y : Outcome (Except RpcError β)} (h : OutRel₂ (ExRel₂ R) x y) (hf : ∀ a b, R a b → S (f a) (f' b)) (he : ∀ e, S (.error e) (.error e)) :
    Answers S st st' (x.map' fun r => (st, replyOf f r)) (y.map' fun r => (st', replyOf f' r)) := by
  cases x with
  | panic => cases y <;> first | exact h.elim | trivial
  | ok a =>
    cases y with
    | panic => exact h.elim
    | ok b =>
      refine ⟨rfl, rfl, ?_⟩
      cases a <;> cases b
      · obtain rfl : _ = _ := h
        exact he _
      · exact h.elim
      · exact h.elim
      · exact hf _ _ h

theorem requests_alike (h : LaidDocs T T' ts ts' c c' doc doc')
    (hL : Laid (layMove c T.length) (layMove c' T'.length) ix0 ss0 (SameStart T c T' c')
      (SameStop T c T' c') doc doc')
    (hd : st.docs.get? uri = some doc) (hd' : st'.docs.get? uri = some doc') (hroots : st'.roots = st.roots)
    (hlazy : st'.lazyResolve = st.lazyResolve) (env : Env) {m m' : Msg} (hm : About uri m) (hask : AsksAlike (SameSpot T c T' c') m m') :
    Answers (AlikeReply (SameStart T c T' c') (SameStop T c T' c') uri) st st' (step env st m) (step env st' m') := by
  cases hask with
  | @gotoDefinition u p p' hs =>
    obtain rfl : u = uri := hm
    obtain ⟨o, h1, h2⟩ := h.symbol hL hs
    have := useDef_alike hL hd hd' hroots env .def_ h1 h2
    simp only [step, gotoDefinition]
    revert this
    cases getUseDefRanges env st u p .def_ <;> cases getUseDefRanges env st' u p' .def_ <;> intro this <;> first | exact this.elim | trivial | skip
    rename_i x y
    cases x <;> cases y <;> first | exact this.elim | exact ⟨rfl, rfl, .noLinks⟩ | exact ⟨rfl, rfl, .links (links_alike this)⟩
  | @gotoDeclaration u p p' hs =>
    obtain rfl : u = uri := hm
    obtain ⟨o, h1, h2⟩ := h.symbol hL hs
    have := useDef_alike hL hd hd' hroots env .decl h1 h2
    simp only [step, gotoDeclaration]
    revert this
    cases getUseDefRanges env st u p .decl <;> cases getUseDefRanges env st' u p' .decl <;> intro this <;> first | exact this.elim | trivial | skip
    rename_i x y
    cases x <;> cases y <;> first | exact this.elim | exact ⟨rfl, rfl, .noLinks⟩ | exact ⟨rfl, rfl, .links (links_alike this)⟩
  | @references u p p' hs =>
    obtain rfl : u = uri := hm
    obtain ⟨o, h1, h2⟩ := h.symbol hL hs
    have := useDef_alike hL hd hd' hroots env .use h1 h2
    simp only [step, references]
    revert this
    cases getUseDefRanges env st u p .use <;> cases getUseDefRanges env st' u p' .use <;> intro this <;> first | exact this.elim | trivial | skip
    rename_i x y
    cases x <;> cases y <;> first | exact this.elim | exact ⟨rfl, rfl, .noLocations⟩ | skip
    rename_i x y
    obtain ⟨_, l, l', ext, e1, e2, e3, e4, _⟩ := this
    obtain rfl := e4 (by decide)
    refine ⟨rfl, rfl, .locations ?_⟩
    rw [e1, e2, List.append_nil, List.append_nil]
    exact e3
  | @prepareRename u p p' hs =>
    obtain rfl : u = uri := hm
    obtain ⟨o, h1, h2⟩ := h.symbol hL hs
    simp only [step, prepareRename, hd, hd', h1, h2]
    refine ⟨rfl, rfl, ?_⟩
    cases o with
    | none => exact .noRange
    | some o =>
      simp only [Option.map_some, plOcc]
      have := hL.range o.span
      revert this
      cases rangeToLsp doc.rope _ <;> cases rangeToLsp doc'.rope _ <;> intro this <;> first | exact this.elim | exact .noRange | exact .range this
  | @rename u p p' x hs =>
    obtain rfl : u = uri := hm
    obtain ⟨o, h1, h2⟩ := h.symbol hL hs
    refine answers_of_rel₂ (R := AlikeEdits _ _) ?_ (fun _ _ h => .edit h) (fun _ => .error)
    unfold rename
    simp only [hd, hd', h1, h2]
    cases o with
    | none => exact rfl
    | some o =>
      simp only [Option.map_some]
      have := renameEdits_alike hL env o x
      revert this
      cases renameEdits env doc _ x <;> cases renameEdits env doc' _ x <;> intro this <;> first | exact this.elim | trivial | skip
      rename_i a b
      cases a <;> cases b <;> first | exact this | exact ⟨⟨rfl, this⟩, trivial⟩
  | @codeAction u r r' hs hr =>
    obtain rfl : u = uri := hm
    obtain ⟨o, h1, h2⟩ := h.symbol hL hs
    refine answers_of_rel₂ (codeAction_alike hL hd hd' hlazy env hr h1 h2) (fun a b h => ?_) (fun _ => .error)
    cases a <;> cases b <;> first | exact h.elim | exact .noActions | exact .actions h
  | @codeActionResolve a =>
    obtain ⟨d, h1, h2⟩ := hm
    exact answers_of_rel₂ (resolve_alike hL hd hd' env h1 h2) (fun _ _ h => .action h) (fun _ => .error)
  | @semanticTokensFull u =>
    obtain rfl : u = uri := hm
    obtain ⟨ls, ls', h1, h2, h3⟩ := h.highlights env.build
    simp only [step, semanticTokensFull, hd, hd', h.rope, h.rope', h1, h2]
    exact ⟨rfl, rfl, .tokens h3⟩
  | @documentSymbol u =>
    obtain rfl : u = uri := hm
    simp only [step, documentSymbol, hd, hd', Option.map_some]
    exact ⟨rfl, rfl, .symbols (hL.outline env.ord)⟩
  | @foldingRange u =>
    obtain rfl : u = uri := hm
    simp only [step, foldingRange, hd, hd', Option.map_some]
    exact ⟨rfl, rfl, .folds hL.folds⟩
  | @inlayHint u =>
    obtain rfl : u = uri := hm
    have := hL.backtraces env st.roots u
    simp only [step, inlayHint, hd, hd', hroots]
    revert this
    cases backtraceHints env st.roots doc <;> cases backtraceHints env st.roots doc' <;> intro this <;> first | exact this.elim | trivial | skip
    exact ⟨rfl, rfl, .hints (alike_append (alike_append (hL.incoming u) this) (hL.ends u))⟩
  | @codeLens u =>
    obtain rfl : u = uri := hm
    simp only [step, codeLens, hd, hd', Option.map_some]
    exact ⟨rfl, rfl, .lenses (hL.lenses env.ord _)⟩
  | @executeCommand c as =>
    obtain ⟨rfl, f, rfl⟩ := hm
    obtain ⟨x, h1, h2⟩ := hL.findFunction f
    simp only [step, executeCommand, hd, hd', decide_true, h1, h2]
    refine ⟨rfl, rfl, ?_⟩
    cases x with
    | none => exact .error
    | some fb =>
      simp only [Option.map_some, createCfgDot_laid]
      exact .graph

/-- The same request about corresponding places. -/
theorem laid_requests (hl : Lexes 0 T ts) (hl' : Lexes 0 T' ts') (hc : Reading ts c) (hc' : Reading ts' c') (hs : SameTokens c c')
    (hv : SameValues T c T' c') (hp : Plain T) (hp' : Plain T') (hsize : T.length < 2 ^ 32) (hsize' : T'.length < 2 ^ 32)
    (hopen : Opened st uri T) (hopen' : Opened st' uri T') (hroots : st'.roots = st.roots) (hlazy : st'.lazyResolve = st.lazyResolve) (env : Env)
    {m m' : Msg} (hm : About uri m) (hask : AsksAlike (SameSpot T c T' c') m m') :
    Answers (AlikeReply (SameStart T c T' c') (SameStop T c T' c') uri) st st' (step env st m) (step env st' m') := by
  obtain ⟨doc, errs, ha, hd⟩ := hopen
  obtain ⟨doc', errs', ha', hd'⟩ := hopen'
  obtain ⟨hD, ⟨ix0, ss0, hL⟩, _⟩ := laid_docs hl hl' hc hc' hs hv hp hp' hsize hsize' ha ha'
  exact requests_alike hD hL hd hd' hroots hlazy env hm hask

/-- The problems. -/
theorem laid_diagnostics {v v' : Int} {p p' : Publish} {st0 st1 st0' st1' : ServerState} {env : Env} (hl : Lexes 0 T ts) (hl' : Lexes 0 T' ts')
    (hc : Reading ts c) (hc' : Reading ts' c') (hs : SameTokens c c') (hv : SameValues T c T' c') (hp : Plain T) (hp' : Plain T')
    (hsize : T.length < 2 ^ 32) (hsize' : T'.length < 2 ^ 32) (hb : T = [] ∨ ¬ Blank T) (hb' : T' = [] ∨ ¬ Blank T')
    (h : onChange env st0 uri v T = .ok (st1, p)) (h' : onChange env st0' uri v' T' = .ok (st1', p')) :
    Matched (AlikeProblem (SameStart T c T' c') (SameStop T c T' c') uri) p.diagnostics p'.diagnostics := by
  unfold onChange at h h'
  cases ha : analyze T with
  | panic => rw [ha] at h; cases h
  | ok x =>
    cases ha' : analyze T' with
    | panic => rw [ha'] at h'; cases h'
    | ok x' =>
      obtain ⟨doc, errs⟩ := x
      obtain ⟨doc', errs'⟩ := x'
      rw [ha] at h
      rw [ha'] at h'
      simp only [Outcome.ok.injEq, Prod.mk.injEq] at h h'
      obtain ⟨_, rfl⟩ := h
      obtain ⟨_, rfl⟩ := h'
      obtain ⟨hD, ⟨ix0, ss0, hL⟩, es, he, he'⟩ := laid_docs hl hl' hc hc' hs hv hp hp' hsize hsize' ha ha'
      unfold documentDiagnostics
      refine matched_append (matched_alike (alike_append ?_ (hL.statementDiagnostics uri))) (hL.indexDiagnostics env.ord uri)
      rw [he hb, he' hb']
      unfold diagnosticsFromParser
      rw [List.filterMap_map, List.filterMap_map]
      refine alike_filterMap fun e _ => ?_
      simp only [Function.comp]
      exact (hL.range e.span).map fun _ _ hr => ⟨hr, rfl, trivial⟩

end
end HyperIR
