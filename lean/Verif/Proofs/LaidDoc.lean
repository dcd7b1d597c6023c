import Verif.Proofs.LaidServer
import Verif.Proofs.RemarkDoc
import Verif.Proofs.EditorRange
import Verif.Props.Remarks
import Verif.Proofs.SqueezeParser

/- Documents with the same tokens in another layout are analysed alike. -/

namespace HyperIR
open Spec

/-! ### Counting tokens instead of characters -/

/-- The `k`-th token starts at `k` and ends at `k + 1`. -/
def countedFrom (i : Nat) : List Token → List Tok
  | [] => []
  | t :: l => (t, ⟨i, i + 1⟩) :: countedFrom (i + 1) l

/-- Where the tokens are in a text of the given length. -/
def layMove (c : List Tok) (len : Nat) : Move where
  fs k := match c[k]? with
    | some t => t.2.start
    | none => len + (k - c.length)
  fe k := match k with
    | 0 => 0
    | k + 1 => match c[k]? with
      | some t => t.2.stop
      | none => len + 1 + (k - c.length)

/-- Tokens one behind the other. -/
structure Laying (c : List Tok) (len : Nat) : Prop where
  span : ∀ (k : Nat) (t : Tok), c[k]? = some t → t.2.start < t.2.stop ∧ t.2.stop ≤ len
  order : ∀ (i j : Nat) (s t : Tok), i < j → c[i]? = some s → c[j]? = some t → s.2.stop ≤ t.2.start

theorem laying_of {c : List Tok} {len : Nat} (h1 : ∀ t ∈ c, t.2.start < t.2.stop ∧ t.2.stop ≤ len) (h2 : InOrder (c.map Prod.snd)) : Laying c len := by
  refine ⟨fun k t h => h1 t (List.mem_of_getElem? h), fun i j s t hij hs ht => ?_⟩
  unfold InOrder at h2
  rw [List.pairwise_map] at h2
  obtain ⟨hi, rfl⟩ := List.getElem?_eq_some_iff.mp hs
  obtain ⟨hj, rfl⟩ := List.getElem?_eq_some_iff.mp ht
  exact List.pairwise_iff_getElem.mp h2 i j hi hj hij

theorem laying_filter {ts : List Tok} {len : Nat} (h1 : ∀ t ∈ ts, t.2.start < t.2.stop ∧ t.2.stop ≤ len) (h2 : InOrder (ts.map Prod.snd)) (p : Tok → Bool) :
    Laying (ts.filter p) len := by
  refine laying_of (fun t ht => h1 t (List.mem_filter.mp ht).1) ?_
  unfold InOrder at h2 ⊢
  rw [List.pairwise_map] at h2 ⊢
  exact h2.filter _

section
variable {c : List Tok} {len : Nat}

theorem layMove_fs_lt {k : Nat} {t : Tok} (h : c[k]? = some t) : (layMove c len).fs k = t.2.start := by simp [layMove, h]
theorem layMove_fe_lt {k : Nat} {t : Tok} (h : c[k]? = some t) : (layMove c len).fe (k + 1) = t.2.stop := by simp [layMove, h]
theorem layMove_fs_ge {k : Nat} (h : c.length ≤ k) : (layMove c len).fs k = len + (k - c.length) := by simp [layMove, List.getElem?_eq_none h]
theorem layMove_fe_ge {k : Nat} (h : c.length ≤ k) : (layMove c len).fe (k + 1) = len + 1 + (k - c.length) := by simp [layMove, List.getElem?_eq_none h]
theorem layMove_fe_zero : (layMove c len).fe 0 = 0 := rfl

theorem getElem?_or (c : List Tok) (k : Nat) : (∃ t, c[k]? = some t ∧ k < c.length) ∨ c.length ≤ k := by
  by_cases h : k < c.length
  · exact .inl ⟨c[k], List.getElem?_eq_getElem h, h⟩
  · exact .inr (by omega)

theorem layMove_rising (h : Laying c len) : Rising (layMove c len) where
  starts := by
    intro a b hab
    rcases getElem?_or c a with ⟨s, hs, ha⟩ | ha <;> rcases getElem?_or c b with ⟨t, ht, hb⟩ | hb
    · have := h.order a b s t hab hs ht
      have := h.span a s hs
      rw [layMove_fs_lt hs, layMove_fs_lt ht]
      omega
    · have := h.span a s hs
      rw [layMove_fs_lt hs, layMove_fs_ge hb]
      omega
    · omega
    · rw [layMove_fs_ge ha, layMove_fs_ge hb]
      omega
  stops := by
    intro a b hab
    cases b with
    | zero => omega
    | succ b =>
      cases a with
      | zero =>
        rw [layMove_fe_zero]
        rcases getElem?_or c b with ⟨t, ht, hb⟩ | hb
        · have := h.span b t ht
          rw [layMove_fe_lt ht]
          omega
        · rw [layMove_fe_ge hb]
          omega
      | succ a =>
        rcases getElem?_or c a with ⟨s, hs, ha⟩ | ha <;> rcases getElem?_or c b with ⟨t, ht, hb⟩ | hb
        · have := h.order a b s t (by omega) hs ht
          have := h.span b t ht
          rw [layMove_fe_lt hs, layMove_fe_lt ht]
          omega
        · have := h.span a s hs
          rw [layMove_fe_lt hs, layMove_fe_ge hb]
          omega
        · omega
        · rw [layMove_fe_ge ha, layMove_fe_ge hb]
          omega
  cross := by
    intro a b
    cases b with
    | zero => simp [layMove_fe_zero]
    | succ b =>
      rcases getElem?_or c a with ⟨s, hs, ha⟩ | ha <;> rcases getElem?_or c b with ⟨t, ht, hb⟩ | hb
      · rw [layMove_fs_lt hs, layMove_fe_lt ht]
        rcases Nat.lt_trichotomy a b with hab | rfl | hab
        · have := h.order a b s t hab hs ht
          have := h.span a s hs
          have := h.span b t ht
          omega
        · rw [hs] at ht
          cases ht
          have := h.span a s hs
          omega
        · have := h.order b a t s hab ht hs
          omega
      · have := h.span a s hs
        rw [layMove_fs_lt hs, layMove_fe_ge hb]
        omega
      · have := h.span b t ht
        rw [layMove_fs_ge ha, layMove_fe_lt ht]
        omega
      · rw [layMove_fs_ge ha, layMove_fe_ge hb]
        omega

theorem layMove_eoi : (layMove c len).span ⟨c.length, c.length + 1⟩ = ⟨len, len + 1⟩ := by
  unfold Move.span
  rw [layMove_fs_ge (by simp), layMove_fe_ge (by simp)]
  simp

theorem counted_get : ∀ (l : List Token) (i k : Nat), (countedFrom i l)[k]? = l[k]?.map fun t => (t, ⟨i + k, i + k + 1⟩)
  | [], _, _ => rfl
  | t :: l, i, 0 => rfl
  | t :: l, i, k + 1 => by
    simp only [countedFrom, List.getElem?_cons_succ]
    rw [counted_get l (i + 1) k]
    congr 1
    funext t
    simp only [Prod.mk.injEq, true_and, Span.mk.injEq]
    omega

theorem counted_length (l : List Token) (i : Nat) : (countedFrom i l).length = l.length := by
  induction l generalizing i with
  | nil => rfl
  | cons t l ih => simp [countedFrom, ih]

theorem counted_map (c : List Tok) (len : Nat) : (countedFrom 0 (c.map Prod.fst)).map (layMove c len).spanned = c := by
  refine List.ext_getElem? fun k => ?_
  rw [List.getElem?_map, counted_get]
  rcases getElem?_or c k with ⟨t, ht, _⟩ | hk
  · simp only [List.getElem?_map, ht, Option.map_some, Move.spanned, Move.span, Nat.zero_add, layMove_fs_lt ht, layMove_fe_lt ht]
  · simp [List.getElem?_eq_none hk]

end

/-! ### The index -/

/-- `indexStatement`, where the values of annotations come from elsewhere. -/
def indexStatementBy (av : List Tok → Outcome (Option Str)) (st : StmtState) : Statement → Outcome StmtState
  | .dbgAnnotation name def_ => match st.1.addGlobal .dbgAnnotation .def_ name.2 name.1 with
    | .panic => .panic
    | .ok ix => match av def_ with
      | .panic => .panic
      | .ok v =>
        let ix := match v with
          | some v => { ix with dbgAnnotationValues := ix.dbgAnnotationValues.insert name.1 v }
          | none => ix
        match addExternalDef ix st.2 name.1 def_ with
        | .ok ix => .ok (ix, st.2)
        | .panic => .panic
  | s => indexStatement [] st s

/-- `createIndex`, likewise. -/
def createIndexBy (av : List Tok → Outcome (Option Str)) (toks : List Tok) (ss : List Statement) : Outcome HIRIndex :=
  match foldO (indexStatementBy av) ({}, []) ss with
  | .panic => .panic
  | .ok st => match foldO indexToken (st.1, none) toks with
    | .ok st => .ok st.1
    | .panic => .panic

theorem indexStatement_laid {F : Move} [Rising F] {av : List Tok → Outcome (Option Str)} {T : Str} {st : StmtState} {s : Statement}
    (ha : ∀ n d, s = .dbgAnnotation n d → annotationValue T (d.map F.spanned) = av d) :
    indexStatement T (plSt F st) (F.stmt s) = (indexStatementBy av st s).map' (plSt F) := by
  cases s with
  | dbgAnnotation n d =>
    simp only [indexStatement, indexStatementBy, Move.stmt, plSt]
    rw [show (F.spanned n).2 = F.span n.2 from rfl, show (F.spanned n).1 = n.1 from rfl, addGlobal_placed]
    cases st.1.addGlobal .dbgAnnotation .def_ n.2 n.1 with
    | panic => rfl
    | ok ix =>
      simp only [Outcome.map']
      rw [ha n d rfl]
      cases av d with
      | panic => rfl
      | ok v =>
        simp only
        cases v with
        | none =>
          simp only
          rw [addExternalDef_placed]
          cases addExternalDef ix st.2 n.1 d <;> rfl
        | some v =>
          have := addExternalDef_placed (F := F) (ix := { ix with dbgAnnotationValues := ix.dbgAnnotationValues.insert n.1 v }) (u := st.2) (n := n.1) (d := d)
          simp only [plIx] at this ⊢
          rw [this]
          cases addExternalDef { ix with dbgAnnotationValues := ix.dbgAnnotationValues.insert n.1 v } st.2 n.1 d <;> rfl
  | globalVar n d => exact indexStatement_placed (T0 := []) (T := T) trivial
  | funcDecl a b d => exact indexStatement_placed (T0 := []) (T := T) trivial
  | funcDef a b d => exact indexStatement_placed (T0 := []) (T := T) trivial
  | funcDependencies a b => exact indexStatement_placed (T0 := []) (T := T) trivial

theorem createIndex_laid {F : Move} [Rising F] {av : List Tok → Outcome (Option Str)} {T : Str} {ts ts0 : List Tok} {ss : List Statement}
    (hts : ts.filter relevant = (ts0.filter relevant).map F.spanned)
    (ha : ∀ n d, Statement.dbgAnnotation n d ∈ ss → annotationValue T (d.map F.spanned) = av d) :
    createIndex T ts (ss.map F.stmt) = (createIndexBy av ts0 ss).map' (plIx F) := by
  unfold createIndex createIndexBy
  have h1 := foldO_moved (st := (({}, []) : StmtState)) (l := ss) (f := indexStatementBy av) (f' := indexStatement T) (g := plSt F) (h := F.stmt)
    fun st s hs => indexStatement_laid fun n d e => ha n d (e ▸ hs)
  rw [show plSt F (({}, []) : StmtState) = ({}, []) from rfl] at h1
  rw [h1]
  cases foldO (indexStatementBy av) ({}, []) ss with
  | panic => rfl
  | ok st =>
    obtain ⟨ix, u⟩ := st
    simp only [Outcome.map', plSt]
    rw [foldO_relevant relevant indexToken_irrelevant ts, foldO_relevant relevant indexToken_irrelevant ts0, hts]
    have h2 := foldO_moved (st := ((ix, none) : TokState)) (l := ts0.filter relevant) (f := indexToken) (f' := indexToken) (g := plTs F) (h := F.spanned) fun st s _ => indexToken_placed
    rw [show plTs F ((ix, none) : TokState) = (plIx F ix, none) from rfl] at h2
    rw [h2]
    cases foldO indexToken (ix, none) (ts0.filter relevant) <;> rfl

/-- Where the value of an annotation stands. -/
theorem docSkip_value {ss : List Statement} {l : List Tok} (h : DocSkipG ss l) {n d} (hs : Statement.dbgAnnotation n d ∈ ss) :
    ∃ a e b, l = a ++ dbgTok n :: (.punct '=', e) :: d ++ b ∧ OneLine d := by
  induction h with
  | nil => cases hs
  | @cons s ss g nls l nls' l' _ h1 _ _ ih =>
    rcases List.mem_cons.mp hs with rfl | hs
    · cases h1 with
      | @dbgAnnotation _ e _ ho => exact ⟨g ++ nls, e, nls' ++ l', by simp, ho⟩
    · obtain ⟨a, e, b, rfl, ho⟩ := ih hs
      exact ⟨g ++ nls ++ l ++ nls' ++ a, e, b, by simp, ho⟩

/-! ### The tokens that count -/

/-- Tokens that are as good as those of the text: only line ends are missing, and the parser does not notice. -/
structure Reading (ts c : List Tok) : Prop where
  sub : c.Sublist (codeTokens ts)
  rest : c.filter (fun t => decide (t.1 ≠ .newline)) = (codeTokens ts).filter fun t => decide (t.1 ≠ .newline)
  parse : ∀ {eoi so es}, parseRecovery parser eoi c = .ok (so, es) →
    ∃ es', parseRecovery parser eoi (codeTokens ts) = .ok (so, es') ∧ es'.map LErr.plain = es.map LErr.plain

theorem reading_code (ts : List Tok) : Reading ts (codeTokens ts) := ⟨List.Sublist.refl _, rfl, fun h => ⟨_, h, rfl⟩⟩

theorem withoutBlank_sublist : ∀ {l : List Tok} {s : LineState}, (withoutBlank s l).Sublist l
  | [], s => by rw [wb_nil]; exact .slnil
  | t :: l, s => by
    rw [withoutBlank]
    split
    · exact withoutBlank_sublist.cons _
    · exact withoutBlank_sublist.cons_cons _

theorem withoutBlank_rest : ∀ {l : List Tok} {s : LineState}, (withoutBlank s l).filter (fun t => decide (t.1 ≠ .newline)) = l.filter fun t => decide (t.1 ≠ .newline)
  | [], s => by rw [wb_nil]
  | t :: l, s => by
    rw [withoutBlank]
    split
    · rename_i h
      rw [withoutBlank_rest, List.filter_cons_of_neg (by simp [h.1])]
    · rw [List.filter_cons, List.filter_cons, withoutBlank_rest]

theorem reading_lines (ts : List Tok) : Reading ts (lineTokens ts) := ⟨withoutBlank_sublist, withoutBlank_rest, parser_withoutBlank⟩

section
variable {ts c : List Tok}

theorem Reading.mem (h : Reading ts c) {t : Tok} (ht : t ∈ c) : t ∈ ts ∧ t.1 ≠ .comment := by
  obtain ⟨h1, h2⟩ := List.mem_filter.mp (h.sub.subset ht)
  exact ⟨h1, of_decide_eq_true h2⟩

theorem Reading.relevant (h : Reading ts c) : c.filter relevant = ts.filter relevant := by
  have e : ∀ l : List Tok, l.filter HyperIR.relevant = (l.filter fun t => decide (t.1 ≠ .newline)).filter HyperIR.relevant := by
    intro l
    rw [List.filter_filter]
    refine List.filter_congr fun t _ => ?_
    unfold HyperIR.relevant
    by_cases hc : t.1 = .newline <;> simp [hc]
  rw [e c, h.rest, ← e, codeTokens, List.filter_filter]
  refine List.filter_congr fun t _ => ?_
  unfold HyperIR.relevant
  by_cases hc : t.1 = .comment <;> simp [hc]

theorem Reading.filterMap {γ : Type} (h : Reading ts c) {f : Tok → Option γ} (hf : ∀ t, t.1 = .newline → f t = none) :
    c.filterMap f = (codeTokens ts).filterMap f := by
  have e : ∀ l : List Tok, l.filterMap f = (l.filter fun t => decide (t.1 ≠ .newline)).filterMap f := by
    intro l
    induction l with
    | nil => rfl
    | cons t l ih =>
      by_cases hc : t.1 = .newline
      · rw [List.filterMap_cons, hf t hc, List.filter_cons_of_neg (by simp [hc])]
        exact ih
      · rw [List.filter_cons_of_pos (by simp [hc]), List.filterMap_cons, List.filterMap_cons, ih]
  rw [e, h.rest, ← e]

theorem Reading.laying {len : Nat} (h : Reading ts c) (h1 : ∀ t ∈ ts, t.2.start < t.2.stop ∧ t.2.stop ≤ len) (h2 : InOrder (ts.map Prod.snd)) : Laying c len := by
  refine laying_of (fun t ht => h1 t (h.mem ht).1) ?_
  unfold InOrder at h2 ⊢
  rw [List.pairwise_map] at h2 ⊢
  exact (h2.filter _).sublist h.sub

theorem counted_code (h : ∀ t ∈ c, t.1 ≠ .comment) : nonComments (countedFrom 0 (c.map Prod.fst)) = countedFrom 0 (c.map Prod.fst) := by
  refine nonComments_code fun t ht => ?_
  have hm : (layMove c 0).spanned t ∈ c := by
    have := List.mem_map_of_mem (f := (layMove c 0).spanned) ht
    rwa [counted_map] at this
  exact h ((layMove c 0).spanned t) hm

end

section
variable [Unicode]

omit [Unicode] in
theorem plain_toSErr {es es' : List (LErr Token)} (h : es'.map LErr.plain = es.map LErr.plain) : es'.map (LErr.toSErr Token.display) = es.map (LErr.toSErr Token.display) := by
  have e : (LErr.toSErr Token.display) = (fun x : Span × Reason × List (Option Token) × Option Token =>
      ({ span := x.1, reason := x.2.1, expected := x.2.2.1.map (Option.map Token.display), found := x.2.2.2.map Token.display } : SErr)) ∘ LErr.plain := rfl
  rw [e, ← List.map_map, ← List.map_map, h]

/-- The analysis of a text in terms of counted tokens. -/
theorem laid_analysis {T : Str} {ts c : List Tok} {len : Nat} (hp : Plain T) (hl : Lexes 0 T ts) (hc : Reading ts c) (hlen : len = T.length)
    {so : Option (List Statement)} {es : List (LErr Token)}
    (hparse : parseTokens c.length (countedFrom 0 (c.map Prod.fst)) = .ok (so, es)) {av : List Tok → Outcome (Option Str)}
    (hav : ∀ n d, Statement.dbgAnnotation n d ∈ so.getD [] → annotationValue T (d.map (layMove c len).spanned) = av d)
    {doc : AnalyzedDocument} {errs : List SErr} (ha : analyze T = .ok (doc, errs)) :
    Laying c len ∧ doc.rope = T ∧ doc.stmts = (so.getD []).map (layMove c len).stmt ∧
    (∃ ix0, createIndexBy av (countedFrom 0 (c.map Prod.fst)) (so.getD []) = .ok ix0 ∧ doc.index = plIx (layMove c len) ix0) ∧
    ((T = [] ∨ ¬ Blank T) → errs = es.map fun e => ((layMove c len).err e).toSErr Token.display) ∧
    parseFromStr T = .ok { tokens := ts, stmts := doc.stmts, errors := errs } ∧ semanticTokensFromTokens ts = .ok doc.semanticTokens := by
  subst hlen
  obtain ⟨q1, q2⟩ := lexesErr_spans (lexes_lexesErr hl)
  have hlay : Laying c T.length := hc.laying (fun t ht => by have := q1 t ht; omega) q2
  have : Rising (layMove c T.length) := layMove_rising hlay
  obtain ⟨res, h1, h2, h3, h4, h5, h6⟩ := analyze_inv ha
  obtain ⟨r1, so', es', r2, r3, r4⟩ := read_of_lexes hl h1
  have hut : utf8Len T = T.length := utf8Len_ascii (plain_asc hp)
  have hn0 : nonComments (countedFrom 0 (c.map Prod.fst)) = countedFrom 0 (c.map Prod.fst) := counted_code fun t ht => (hc.mem ht).2
  have hnc : nonComments c = c := nonComments_code fun t ht => (hc.mem ht).2
  have hmv := parseTokens_move (F := layMove c T.length) (toks' := c) (n' := T.length) layMove_eoi
    (by rw [hn0, hnc]; exact (counted_map c T.length).symm) hparse
  have hmv' : parseRecovery parser { start := T.length, stop := T.length + 1 } c = .ok (so.map (List.map (layMove c T.length).stmt), es.map (layMove c T.length).err) := by
    have hf : c.filter (fun t => decide (t.1 ≠ Token.comment)) = c := hnc
    rw [← hmv, parseTokens, hf]
  obtain ⟨es1, hes, hpl⟩ := hc.parse hmv'
  rw [hut] at r2
  have r2' : parseTokens T.length ts = .ok (so.map (List.map (layMove c T.length).stmt), es1) := hes
  rw [r2'] at r2
  simp only [Outcome.ok.injEq, Prod.mk.injEq] at r2
  obtain ⟨rfl, rfl⟩ := r2
  have hst : res.stmts = (so.getD []).map (layMove c T.length).stmt := by
    rw [r3]
    cases so <;> rfl
  refine ⟨hlay, h2, h3.trans hst, ?_, ?_, ?_, r1 ▸ h5⟩
  · have hrel : ts.filter relevant = ((countedFrom 0 (c.map Prod.fst)).filter relevant).map (layMove c T.length).spanned := by
      rw [← hc.relevant]
      conv => lhs; rw [← counted_map c T.length]
      rw [List.filter_map]
      rfl
    have := createIndex_laid (T := T) hrel hav
    rw [← hst, ← r1, h6] at this
    cases hix : createIndexBy av (countedFrom 0 (c.map Prod.fst)) (so.getD []) with
    | panic => rw [hix] at this; cases this
    | ok ix0 =>
      rw [hix] at this
      exact ⟨ix0, rfl, Outcome.ok.inj this⟩
  · intro hb
    rw [h4, r4 hb, plain_toSErr hpl, List.map_map]
    rfl
  · rw [h1, h3, h4, ← r1]

end
end HyperIR
