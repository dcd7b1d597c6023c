import Verif.Proofs.ParserPrims

/- Laws of the instruction parsers (src/hir_parser.rs:156-322). -/

namespace HyperIR
open Spec

/-- Proves `NoPanic` of sequential compositions. -/
macro "no_panic" : tactic => `(tactic| (repeat' (first
  | assumption
  | exact just_noPanic
  | exact pPunct_noPanic | exact pNewline_noPanic | exact pKeyword_noPanic | exact pany_noPanic
  | exact noneOf_noPanic | exact pFuncModifier_noPanic | exact pGlobalName_noPanic
  | exact pLocalName_noPanic | exact pType_noPanic | exact pIdent_noPanic | exact pDbgRef_noPanic
  | exact pHexnum_noPanic | exact pKeywordSpan_noPanic | exact pNewlineAhead_noPanic
  | exact pEol_noPanic | exact newlines_noPanic | exact newlines1_noPanic | exact pTokenSoup_noPanic
  | exact noneOfs_noPanic | exact pSkipOperands_noPanic
  | apply pthen_noPanic | apply thenIgnore_noPanic | apply ignoreThen_noPanic
  | apply delimitedBy_noPanic | apply paddedBy_noPanic | apply pmap_noPanic | apply pmapSpan_noPanic
  | apply orNot_noPanic | apply rewind_noPanic | apply pnot_noPanic | apply validate_noPanic
  | apply por_noPanic)))

/-- Proves `Clean` of sequential compositions. -/
macro "clean" : tactic => `(tactic| (repeat' (first
  | assumption
  | exact just_clean
  | exact pPunct_clean | exact pNewline_clean | exact pKeyword_clean | exact pany_clean
  | exact noneOf_clean | exact pFuncModifier_clean | exact pGlobalName_clean
  | exact pLocalName_clean | exact pType_clean | exact pIdent_clean | exact pDbgRef_clean
  | exact pHexnum_clean | exact pKeywordSpan_clean | exact pNewlineAhead_clean
  | exact pEol_clean
  | apply pthen_clean | apply thenIgnore_clean | apply ignoreThen_clean
  | apply delimitedBy_clean | apply paddedBy_clean | apply pmap_clean | apply pmapSpan_clean
  | apply orNot_clean | apply rewind_clean | apply pnot_clean
  | apply por_clean)))

section
variable {eoi : Span} {s r : List Tok} {es : List (LErr Token)}

theorem spanSince_eq {l : List Tok} (h : s = l ++ r) (hl : l ≠ []) : spanSince eoi s r = hull l := by
  subst h
  exact spanSince_append hl

/-- The common end of all instruction parsers. -/
theorem finish_ok {α : Type} {C : P Token α} {f : α × Option (Spanned Str) → Span → Instruction} {i} :
    Ok (pmapSpan f (thenIgnore (pthen C (orNot pDbgRef)) pNewlineAhead)) eoi s es i r ↔
      ∃ x d nl r', Ok C eoi s es x (dbgToks d ++ r) ∧ r = (.newline, nl) :: r'
        ∧ i = f (x, d) (spanSince eoi s r) := by
  rw [pmapSpan_ok]
  constructor
  · rintro ⟨⟨x, d⟩, h, rfl⟩
    obtain ⟨ea, eb, m, y, h1, h2, rfl⟩ := thenIgnore_ok.mp h
    obtain ⟨ec, ed, m', h3, h4, rfl⟩ := pthen_ok.mp h1
    obtain ⟨rfl, rfl, _⟩ := orNotDbg_ok.mp h4
    obtain ⟨rfl, rfl, rfl, nl, r', rfl⟩ := pNewlineAhead_ok.mp h2
    exact ⟨x, d, nl, r', by simpa using h3, rfl, rfl⟩
  · rintro ⟨x, d, nl, r', h1, rfl, rfl⟩
    refine ⟨(x, d), thenIgnore_ok.mpr ⟨es, [], _, .newline, pthen_ok.mpr ⟨es, [], _, h1,
      orNotDbg_ok.mpr ⟨rfl, rfl, by simp⟩, by simp⟩, pNewlineAhead_ok.mpr ⟨rfl, rfl, rfl, _, _, rfl⟩,
      by simp⟩, rfl⟩

theorem finish_noPanic {α : Type} {C : P Token α} {f : α × Option (Spanned Str) → Span → Instruction}
    (h : NoPanic C) : NoPanic (pmapSpan f (thenIgnore (pthen C (orNot pDbgRef)) pNewlineAhead)) := by
  no_panic

theorem finish_clean {α : Type} {C : P Token α} {f : α × Option (Spanned Str) → Span → Instruction}
    (h : Clean C) : Clean (pmapSpan f (thenIgnore (pthen C (orNot pDbgRef)) pNewlineAhead)) := by
  clean

/-- An instruction parser fails if nothing it accepts is in front. -/
theorem fails_of_not_ok {α : Type} {p : P Token α} (hn : NoPanic p)
    (h : ∀ es x r, Ok p eoi s es x r → False) : Fails p eoi s := by
  rcases hn.cases eoi s with ⟨es, x, r, h'⟩ | h'
  · exact (h _ _ _ h').elim
  · exact h'

/-! ### `br target` -/

theorem pBr_ok {i} : Ok pBr eoi s es i r ↔ es = [] ∧ ∃ k t d nl r',
    r = (.newline, nl) :: r' ∧ s = [(.ident c!"br", k), identTok t] ++ dbgToks d ++ r
    ∧ i = ⟨none, (c!"br", k), [t], d, hull ([(.ident c!"br", k), identTok t] ++ dbgToks d)⟩ := by
  unfold pBr
  rw [finish_ok]
  constructor
  · rintro ⟨⟨⟨m, k⟩, t⟩, d, nl, r', h, hr, rfl⟩
    simp only [pthen_ok, pKeywordSpan_ok, pIdent_ok] at h
    obtain ⟨_, _, m, ⟨rfl, sp, e1, rfl⟩, ⟨rfl, rfl⟩, rfl⟩ := h
    cases e1
    refine ⟨rfl, k, t, d, nl, r', hr, rfl, ?_⟩
    rw [spanSince_eq (l := [(.ident c!"br", k), identTok t] ++ dbgToks d) (by simp) (by simp)]
  · rintro ⟨rfl, k, t, d, nl, r', hr, rfl, rfl⟩
    refine ⟨((c!"br", k), t), d, nl, r', ?_, hr, ?_⟩
    · simp only [pthen_ok, pKeywordSpan_ok, pIdent_ok]
      exact ⟨[], [], _, ⟨rfl, k, rfl, rfl⟩, ⟨rfl, rfl⟩, rfl⟩
    · rw [spanSince_eq (l := [(.ident c!"br", k), identTok t] ++ dbgToks d) rfl (by simp)]

theorem pBr_noPanic : NoPanic pBr := finish_noPanic (by no_panic)
theorem pBr_clean : Clean pBr := finish_clean (by clean)

/-! ### `br int1 v, then, else` -/

theorem pCondBr_ok {i} : Ok pCondBr eoi s es i r ↔ es = [] ∧ ∃ k ti v c t c' e d nl r',
    r = (.newline, nl) :: r' ∧
    s = [(.ident c!"br", k), (.type c!"int1", ti), v, (.punct ',', c), identTok t, (.punct ',', c'),
        identTok e] ++ dbgToks d ++ r
    ∧ i = ⟨none, (c!"br", k), [t, e], d, hull ([(.ident c!"br", k), (.type c!"int1", ti), v,
        (.punct ',', c), identTok t, (.punct ',', c'), identTok e] ++ dbgToks d)⟩ := by
  unfold pCondBr
  rw [finish_ok]
  constructor
  · rintro ⟨⟨⟨⟨m, k⟩, t⟩, e⟩, d, nl, r', h, hr, rfl⟩
    simp only [pthen_ok, pKeywordSpan_ok, pIdent_ok, thenIgnore_ok, just_ok, pany_ok, pPunct_ok] at h
    obtain ⟨_, _, _, ⟨_, _, _, _, ⟨_, _, _, ⟨_, _, _, _, ⟨_, _, _, _, ⟨_, _, _, _, ⟨rfl, k', e1, rfl⟩,
      ⟨rfl, rfl, ti, rfl⟩, rfl⟩, ⟨rfl, spv, rfl⟩, rfl⟩, ⟨rfl, rfl, c, rfl⟩, rfl⟩, ⟨rfl, rfl⟩, rfl⟩,
      ⟨rfl, rfl, c', rfl⟩, rfl⟩, ⟨rfl, rfl⟩, rfl⟩ := h
    cases e1
    refine ⟨rfl, k, ti, _, c, t, c', e, d, nl, r', hr, rfl, ?_⟩
    exact congrArg _ (spanSince_eq (by simp) (by simp))
  · rintro ⟨rfl, k, ti, ⟨v, spv⟩, c, t, c', e, d, nl, r', hr, rfl, rfl⟩
    refine ⟨(((c!"br", k), t), e), d, nl, r', ?_, hr, ?_⟩
    · simp only [pthen_ok, pKeywordSpan_ok, pIdent_ok, thenIgnore_ok, just_ok, pany_ok, pPunct_ok]
      exact ⟨[], [], _, ⟨[], [], _, _, ⟨[], [], _, ⟨[], [], _, _, ⟨[], [], _, _, ⟨[], [], _, _,
        ⟨rfl, k, rfl, rfl⟩, ⟨rfl, rfl, ti, rfl⟩, rfl⟩, ⟨rfl, spv, rfl⟩, rfl⟩, ⟨rfl, rfl, c, rfl⟩, rfl⟩,
        ⟨rfl, rfl⟩, rfl⟩, ⟨rfl, rfl, c', rfl⟩, rfl⟩, ⟨rfl, rfl⟩, rfl⟩
    · exact congrArg _ (spanSince_eq rfl (by simp)).symm

theorem pCondBr_noPanic : NoPanic pCondBr := finish_noPanic (by no_panic)
theorem pCondBr_clean : Clean pCondBr := finish_clean (by clean)

/-! ### Overflow branches -/

/-- The tokens behind the operands of an overflow branch. -/
def overflowTail (c k e : Span) (t : Spanned Str) (c' k' e' : Span) (t' : Spanned Str) : List Tok :=
  [(.punct ',', c), (.ident c!"cont", k), (.punct '=', e), identTok t,
   (.punct ',', c'), (.ident c!"overflow", k'), (.punct '=', e'), identTok t']

theorem stopsOps_comma {kw c k} : StopsOps kw ((.punct ',', c) :: (.ident kw, k) :: r) := by
  intro t r' h
  injection h with h1 h2
  subst h1 h2
  refine .inr ⟨rfl, ?_⟩
  intro u r'' h
  injection h with h1 h2
  subst h1
  rfl

theorem pOverflowBr_ok {i} : Ok pOverflowBr eoi s es i r ↔
    ∃ m ops c k e t c' k' e' t' d nl r',
    r = (.newline, nl) :: r' ∧ Operands c!"cont" ops ∧
    s = (identTok m :: ops ++ overflowTail c k e t c' k' e' t' ++ dbgToks d) ++ r
    ∧ i = ⟨none, m, [t, t'], d, hull (identTok m :: ops ++ overflowTail c k e t c' k' e' t' ++ dbgToks d)⟩
    ∧ (endsWith m.1 c!"br" = true ∧ es = [] ∨ endsWith m.1 c!"br" = false ∧ ∃ err, es = [err]
        ∧ err = { rem := s.length - 1, span := m.2,
                  reason := .custom c!"Instruction is not a overflow-branch instruction.",
                  expected := [], found := none }) := by
  unfold pOverflowBr
  rw [finish_ok]
  constructor
  · rintro ⟨⟨⟨m, t⟩, t'⟩, d, nl, r', h, hr, rfl⟩
    simp only [pthen_ok, pKeyword_ok, pIdent_ok, thenIgnore_ok, pPunct_ok, validate_ok] at h
    obtain ⟨_, _, _, ⟨_, _, _, _, ⟨_, _, _, _, ⟨_, _, _, _, ⟨_, _, _, ⟨_, _, _, _, ⟨_, _, _, _, ⟨_, _, _, _,
      ⟨e0, eo, _, xs, ⟨_, ⟨rfl, rfl⟩, hv⟩, ho, rfl⟩, ⟨rfl, rfl, c, rfl⟩, rfl⟩, ⟨rfl, rfl, k, rfl⟩, rfl⟩,
      ⟨rfl, rfl, e, rfl⟩, rfl⟩, ⟨rfl, rfl⟩, rfl⟩, ⟨rfl, rfl, c', rfl⟩, rfl⟩, ⟨rfl, rfl, k', rfl⟩, rfl⟩,
      ⟨rfl, rfl, e', rfl⟩, rfl⟩, ⟨rfl, rfl⟩, rfl⟩ := h
    obtain ⟨rfl, ops, hops, rfl, _⟩ := pSkipOperands_ok.mp ⟨_, ho⟩
    refine ⟨m, ops, c, k, e, t, c', k', e', t', d, nl, r', hr, hops, ?_, ?_, ?_⟩
    · simp [overflowTail]
    · exact congrArg _ (spanSince_eq (by simp [overflowTail]) (by simp))
    · rcases hv with ⟨h1, rfl⟩ | ⟨msg, e, h1, rfl, rfl⟩
      · left
        refine ⟨?_, rfl⟩
        split at h1
        · assumption
        · cases h1
      · right
        split at h1
        · cases h1
        · rename_i h2
          cases h1
          refine ⟨by simpa using h2, _, rfl, ?_⟩
          rw [spanSince_cons]
          rfl
  · rintro ⟨m, ops, c, k, e, t, c', k', e', t', d, nl, r', hr, hops, rfl, rfl, hes⟩
    refine ⟨((m, t), t'), d, nl, r', ?_, hr, ?_⟩
    · obtain ⟨xs, ho⟩ := (pSkipOperands_ok (eoi := eoi)).mpr ⟨rfl, ops, hops, rfl,
        stopsOps_comma (kw := c!"cont") (c := c) (k := k) (r := (.punct '=', e) :: identTok t ::
          (.punct ',', c') :: (.ident c!"overflow", k') :: (.punct '=', e') :: identTok t' ::
          (dbgToks d ++ r))⟩
      have hs : (identTok m :: ops ++ overflowTail c k e t c' k' e' t' ++ dbgToks d) ++ r =
        identTok m :: (ops ++ (.punct ',', c) :: (.ident c!"cont", k) :: (.punct '=', e) :: identTok t ::
          (.punct ',', c') :: (.ident c!"overflow", k') :: (.punct '=', e') :: identTok t' ::
          (dbgToks d ++ r)) := by simp [overflowTail]
      rw [hs] at hes ⊢
      simp only [pthen_ok, pKeyword_ok, pIdent_ok, thenIgnore_ok, pPunct_ok, validate_ok]
      refine ⟨es, [], _, ⟨es, [], _, _, ⟨es, [], _, _, ⟨es, [], _, _, ⟨es, [], _, ⟨es, [], _, _, ⟨es, [], _, _,
        ⟨es, [], _, _, ⟨es, [], _, _, ⟨[], ⟨rfl, rfl⟩, ?_⟩, ho, by simp⟩,
        ⟨rfl, rfl, c, rfl⟩, by simp⟩, ⟨rfl, rfl, k, rfl⟩, by simp⟩,
        ⟨rfl, rfl, e, rfl⟩, by simp⟩, ⟨rfl, rfl⟩, by simp⟩, ⟨rfl, rfl, c', rfl⟩, by simp⟩,
        ⟨rfl, rfl, k', rfl⟩, by simp⟩, ⟨rfl, rfl, e', rfl⟩, by simp⟩, ⟨rfl, rfl⟩, by simp⟩
      rcases hes with ⟨h1, rfl⟩ | ⟨h1, err, rfl, rfl⟩
      · left; simp [h1]
      · right
        refine ⟨c!"Instruction is not a overflow-branch instruction.", _, by simp [h1], rfl, ?_⟩
        rw [spanSince_cons]
        rfl
    · exact congrArg _ (spanSince_eq (by simp) (by simp [overflowTail])).symm

theorem pOverflowBr_noPanic : NoPanic pOverflowBr := finish_noPanic (by no_panic)

/-! ### Comma separated lists with a known end -/

theorem sepList_sound {α : Type} {item : P Token α} {G : α → List Tok → Prop} (hn : NoPanic item) (hc : Clean item)
    (hok : ∀ {eoi s es x r}, Ok item eoi s es x r ↔ es = [] ∧ ∃ l, G x l ∧ s = l ++ r)
    {xs} (h : Ok (separatedBy item (pPunct ',')) eoi s es xs r) :
    es = [] ∧ ∃ l, CommaSep G xs l ∧ s = l ++ r := by
  have hs : Suffix item := by
    intro eoi s es x r h
    obtain ⟨_, l, _, h2⟩ := hok.mp h
    exact ⟨l, h2⟩
  obtain ⟨h1, h2⟩ := (separatedBy_ok hn pPunct_noPanic hc pPunct_clean pPunct_progress hs).mp h
  exact ⟨h1, commaSep_of_sep (fun h => hok.mp h) h2⟩

theorem sepList_noPanic {α : Type} {item : P Token α} {G : α → List Tok → Prop} (hn : NoPanic item) (hc : Clean item)
    (hok : ∀ {eoi s es x r}, Ok item eoi s es x r ↔ es = [] ∧ ∃ l, G x l ∧ s = l ++ r) :
    NoPanic (separatedBy item (pPunct ',')) := by
  have hs : Suffix item := by
    intro eoi s es x r h
    obtain ⟨_, l, _, h2⟩ := hok.mp h
    exact ⟨l, h2⟩
  exact separatedBy_noPanic hn pPunct_noPanic hc pPunct_clean pPunct_progress hs

theorem sepList_clean {α : Type} {item : P Token α} {G : α → List Tok → Prop} (hn : NoPanic item) (hc : Clean item)
    (hok : ∀ {eoi s es x r}, Ok item eoi s es x r ↔ es = [] ∧ ∃ l, G x l ∧ s = l ++ r) :
    Clean (separatedBy item (pPunct ',')) := by
  have hs : Suffix item := by
    intro eoi s es x r h
    obtain ⟨_, l, _, h2⟩ := hok.mp h
    exact ⟨l, h2⟩
  exact separatedBy_clean hn pPunct_noPanic hc pPunct_clean pPunct_progress hs

theorem sepList_ok {α : Type} {item : P Token α} {G : α → List Tok → Prop} (hn : NoPanic item) (hc : Clean item)
    (hok : ∀ {eoi s es x r}, Ok item eoi s es x r ↔ es = [] ∧ ∃ l, G x l ∧ s = l ++ r)
    (hr : ∀ sp r', r ≠ (.punct ',', sp) :: r') (hf : Fails item eoi r) {xs} :
    Ok (separatedBy item (pPunct ',')) eoi s es xs r ↔ es = [] ∧ ∃ l, CommaSep G xs l ∧ s = l ++ r := by
  constructor
  · exact sepList_sound hn hc hok
  · rintro ⟨rfl, l, h1, rfl⟩
    have hs : Suffix item := by
      intro eoi s es x r h
      obtain ⟨_, l, _, h2⟩ := hok.mp h
      exact ⟨l, h2⟩
    refine (separatedBy_ok hn pPunct_noPanic hc pPunct_clean pPunct_progress hs).mpr ⟨rfl, ?_⟩
    exact sep_of_commaSep (fun h => hok.mpr ⟨rfl, _, h, rfl⟩) hr (fun _ => hf) h1

/-! ### `switch` -/

theorem pSwitchCase_ok {x} : Ok pSwitchCase eoi s es x r ↔ es = [] ∧ ∃ l, CaseG x l ∧ s = l ++ r := by
  unfold pSwitchCase
  simp only [ignoreThen_ok]
  constructor
  · rintro ⟨_, _, _, ⟨⟨⟨ty, v⟩, _⟩, _⟩, h, h', rfl⟩
    simp only [pthen_ok, pKeyword_ok, pIdent_ok, pany_ok, pPunct_ok, pType_ok] at h h'
    obtain ⟨_, _, _, ⟨_, _, _, ⟨_, _, _, ⟨rfl, rfl⟩, ⟨rfl, sp, rfl⟩, rfl⟩, ⟨rfl, rfl, k, rfl⟩, rfl⟩,
      ⟨rfl, rfl, e, rfl⟩, rfl⟩ := h
    obtain ⟨rfl, rfl⟩ := h'
    exact ⟨rfl, _, ⟨ty, (v, sp), k, e, rfl⟩, rfl⟩
  · rintro ⟨rfl, _, ⟨ty, ⟨v, sp⟩, k, e, rfl⟩, rfl⟩
    refine ⟨[], [], _, (((ty, v), .ident c!"label"), .punct '='), ?_, pIdent_ok.mpr ⟨rfl, rfl⟩, rfl⟩
    simp only [pthen_ok, pKeyword_ok, pany_ok, pPunct_ok, pType_ok]
    exact ⟨[], [], _, ⟨[], [], _, ⟨[], [], _, ⟨rfl, rfl⟩, ⟨rfl, sp, rfl⟩, rfl⟩, ⟨rfl, trivial, k, rfl⟩, rfl⟩,
      ⟨rfl, trivial, e, rfl⟩, rfl⟩

theorem pSwitchCase_noPanic : NoPanic pSwitchCase := by unfold pSwitchCase; no_panic
theorem pSwitchCase_clean : Clean pSwitchCase := by unfold pSwitchCase; clean

theorem pSwitchCase_fails (h : ∀ x sp r', s ≠ (.type x, sp) :: r') : Fails pSwitchCase eoi s := by
  refine fails_of_not_ok pSwitchCase_noPanic ?_
  intro es x r h'
  obtain ⟨_, _, ⟨ty, v, k, e, rfl⟩, rfl⟩ := pSwitchCase_ok.mp h'
  exact h _ _ _ rfl

theorem afterInstr_ne {d : Option (Spanned Str)} {nl : Span} {r' : List Tok} {t : Token}
    (h1 : t ≠ .newline) (h2 : ∀ x, t ≠ .debugRef x) (sp : Span) (r'' : List Tok) :
    dbgToks d ++ (.newline, nl) :: r' ≠ (t, sp) :: r'' := by
  intro h
  cases d with
  | none => injection h with h _; injection h with h _; exact h1 h.symm
  | some d => injection h with h _; injection h with h _; exact h2 _ h.symm

/-- The tokens of a `switch` before its cases. -/
def switchHead (k : Span) (ops : List Tok) (c k' e : Span) (t : Spanned Str) (c' : Span) : List Tok :=
  (.ident c!"switch", k) :: ops ++ [(.punct ',', c), (.ident c!"default", k'), (.punct '=', e),
        identTok t, (.punct ',', c')]

theorem pSwitch_ok {i} : Ok pSwitch eoi s es i r ↔ es = [] ∧ ∃ k ops c k' e t c' ts cases d nl r',
    r = (.newline, nl) :: r' ∧ Operands c!"default" ops ∧ CommaSep CaseG ts cases ∧
    s = (switchHead k ops c k' e t c' ++ cases ++ dbgToks d) ++ r
    ∧ i = ⟨none, (c!"switch", k), t :: ts, d, hull (switchHead k ops c k' e t c' ++ cases ++ dbgToks d)⟩ := by
  unfold pSwitch
  rw [finish_ok]
  constructor
  · rintro ⟨⟨⟨⟨kw, k⟩, t⟩, ts⟩, d, nl, r', h, rfl, rfl⟩
    simp only [pthen_ok, pKeyword_ok, pKeywordSpan_ok, pIdent_ok, thenIgnore_ok, pPunct_ok] at h
    obtain ⟨_, _, _, ⟨_, _, _, _, ⟨_, _, _, ⟨_, _, _, _, ⟨_, _, _, _, ⟨_, _, _, _, ⟨_, _, _, xs,
      ⟨rfl, k0, e1, rfl⟩, ho, rfl⟩, ⟨rfl, rfl, c, rfl⟩, rfl⟩, ⟨rfl, rfl, k', rfl⟩, rfl⟩,
      ⟨rfl, rfl, e, rfl⟩, rfl⟩, ⟨rfl, rfl⟩, rfl⟩, ⟨rfl, rfl, c', rfl⟩, rfl⟩, hcs, rfl⟩ := h
    cases e1
    obtain ⟨rfl, ops, hops, rfl, _⟩ := pSkipOperands_ok.mp ⟨_, ho⟩
    obtain ⟨rfl, cs, hcs', rfl⟩ := sepList_sound pSwitchCase_noPanic pSwitchCase_clean pSwitchCase_ok hcs
    refine ⟨rfl, k, ops, c, k', e, t, c', ts, cs, d, nl, r', rfl, hops, hcs', ?_, ?_⟩
    · simp [switchHead]
    · exact congrArg _ (spanSince_eq (by simp [switchHead]) (by simp [switchHead]))
  · rintro ⟨rfl, k, ops, c, k', e, t, c', ts, cs, d, nl, r', rfl, hops, hcs, rfl, rfl⟩
    refine ⟨(((c!"switch", k), t), ts), d, nl, r', ?_, rfl, ?_⟩
    · obtain ⟨xs, ho⟩ := (pSkipOperands_ok (eoi := eoi)).mpr ⟨rfl, ops, hops, rfl,
        stopsOps_comma (kw := c!"default") (c := c) (k := k') (r := (.punct '=', e) :: identTok t ::
          (.punct ',', c') :: (cs ++ (dbgToks d ++ (.newline, nl) :: r')))⟩
      have hs : (switchHead k ops c k' e t c' ++ cs ++ dbgToks d) ++ (.newline, nl) :: r' =
        (.ident c!"switch", k) :: (ops ++ (.punct ',', c) :: (.ident c!"default", k') :: (.punct '=', e) ::
          identTok t :: (.punct ',', c') :: (cs ++ (dbgToks d ++ (.newline, nl) :: r'))) := by
        simp [switchHead]
      have hsep : Ok (separatedBy pSwitchCase (pPunct ',')) eoi (cs ++ (dbgToks d ++ (.newline, nl) :: r')) [] ts
          (dbgToks d ++ (.newline, nl) :: r') :=
        (sepList_ok pSwitchCase_noPanic pSwitchCase_clean pSwitchCase_ok
          (afterInstr_ne (by simp) (by simp))
          (pSwitchCase_fails fun x => afterInstr_ne (by simp) (by simp))).mpr ⟨rfl, cs, hcs, rfl⟩
      rw [hs]
      simp only [pthen_ok, pKeyword_ok, pKeywordSpan_ok, pIdent_ok, thenIgnore_ok, pPunct_ok]
      exact ⟨[], [], _, ⟨[], [], _, _, ⟨[], [], _, ⟨[], [], _, _, ⟨[], [], _, _, ⟨[], [], _, _, ⟨[], [], _, xs,
        ⟨rfl, k, rfl, rfl⟩, ho, rfl⟩, ⟨rfl, rfl, c, rfl⟩, rfl⟩, ⟨rfl, rfl, k', rfl⟩, rfl⟩,
        ⟨rfl, rfl, e, rfl⟩, rfl⟩, ⟨rfl, rfl⟩, rfl⟩, ⟨rfl, rfl, c', rfl⟩, rfl⟩, hsep, rfl⟩
    · exact congrArg _ (spanSince_eq (by simp) (by simp [switchHead])).symm

theorem pSwitch_noPanic : NoPanic pSwitch := by
  have := sepList_noPanic pSwitchCase_noPanic pSwitchCase_clean pSwitchCase_ok
  exact finish_noPanic (by no_panic)

theorem pSkipOperands_clean {kw} : Clean (pSkipOperands kw) := by
  constructor
  · intro eoi s es x r h
    exact (pSkipOperands_ok.mp ⟨_, h⟩).1
  · intro eoi s es e h
    exact absurd ⟨_, _, h⟩ pSkipOperands_fails

theorem pSwitch_clean : Clean pSwitch := by
  have := sepList_clean pSwitchCase_noPanic pSwitchCase_clean pSwitchCase_ok
  have := pSkipOperands_clean (kw := c!"default")
  exact finish_clean (by clean)

/-! ### `phi` -/

theorem pPhiEdge_ok {x} : Ok pPhiEdge eoi s es x r ↔ es = [] ∧ ∃ l, EdgeG x l ∧ s = l ++ r := by
  unfold pPhiEdge
  simp only [delimitedBy_ok, thenIgnore_ok, pPunct_ok, pIdent_ok, noneOfs_ok]
  constructor
  · rintro ⟨_, _, _, _, _, _, _, ⟨rfl, rfl, o, rfl⟩, ⟨_, _, _, _, ⟨_, _, _, _, ⟨rfl, rfl⟩, ⟨rfl, rfl, c, rfl⟩,
      rfl⟩, ⟨rfl, l, hl, rfl, _, hs⟩, rfl⟩, ⟨rfl, rfl, e, rfl⟩, rfl⟩
    refine ⟨rfl, _, ⟨o, c, l, e, ?_, rfl⟩, by simp⟩
    intro t ht
    simpa using hl t ht
  · rintro ⟨rfl, _, ⟨o, c, l, e, hl, rfl⟩, rfl⟩
    have hs : [(.punct '[', o), identTok x, (.punct ',', c)] ++ l ++ [(.punct ']', e)] ++ r =
      (.punct '[', o) :: identTok x :: (.punct ',', c) :: (l ++ (.punct ']', e) :: r) := by simp
    rw [hs]
    refine ⟨[], [], [], _, _, _, _, ⟨rfl, rfl, o, rfl⟩, ⟨[], [], _, _, ⟨[], [], _, _, ⟨rfl, rfl⟩, ⟨rfl, rfl, c, rfl⟩,
      rfl⟩, ⟨rfl, l, ?_, rfl, rfl, ?_⟩, rfl⟩, ⟨rfl, rfl, e, rfl⟩, rfl⟩
    · intro t ht
      simpa using hl t ht
    · intro t r' h
      injection h with h _
      subst h
      simp

theorem pPhiEdge_noPanic : NoPanic pPhiEdge := by unfold pPhiEdge; no_panic

theorem noneOfs_clean {ts : List Token} : Clean (repeated (noneOf ts)) := by
  constructor
  · intro eoi s es x r h
    exact (noneOfs_ok.mp h).1
  · intro eoi s es e h
    exact absurd ⟨_, _, h⟩ (repeated_fails noneOf_noPanic noneOf_progress)

theorem pPhiEdge_clean : Clean pPhiEdge := by
  have := noneOfs_clean (ts := [Token.punct ']', Token.newline])
  unfold pPhiEdge
  clean

theorem pPhiEdge_fails (h : ∀ sp r', s ≠ (.punct '[', sp) :: r') : Fails pPhiEdge eoi s := by
  refine fails_of_not_ok pPhiEdge_noPanic ?_
  intro es x r h'
  obtain ⟨_, _, ⟨o, c, l, e, _, rfl⟩, rfl⟩ := pPhiEdge_ok.mp h'
  exact h _ _ rfl

theorem pPhi_ok {i} : Ok pPhi eoi s es i r ↔ es = [] ∧ ∃ k ts edges d nl r',
    r = (.newline, nl) :: r' ∧ CommaSep EdgeG ts edges ∧
    s = ((.ident c!"phi", k) :: edges ++ dbgToks d) ++ r
    ∧ i = ⟨none, (c!"phi", k), ts, d, hull ((.ident c!"phi", k) :: edges ++ dbgToks d)⟩ := by
  unfold pPhi
  rw [finish_ok]
  constructor
  · rintro ⟨⟨⟨kw, k⟩, ts⟩, d, nl, r', h, rfl, rfl⟩
    simp only [pthen_ok, pKeywordSpan_ok] at h
    obtain ⟨_, _, _, ⟨rfl, k0, e1, rfl⟩, hcs, rfl⟩ := h
    cases e1
    obtain ⟨rfl, cs, hcs', rfl⟩ := sepList_sound pPhiEdge_noPanic pPhiEdge_clean pPhiEdge_ok hcs
    refine ⟨rfl, k, ts, cs, d, nl, r', rfl, hcs', ?_, ?_⟩
    · simp
    · exact congrArg _ (spanSince_eq (by simp) (by simp))
  · rintro ⟨rfl, k, ts, cs, d, nl, r', rfl, hcs, rfl, rfl⟩
    refine ⟨((c!"phi", k), ts), d, nl, r', ?_, rfl, ?_⟩
    · have hsep : Ok (separatedBy pPhiEdge (pPunct ',')) eoi (cs ++ (dbgToks d ++ (.newline, nl) :: r')) [] ts
          (dbgToks d ++ (.newline, nl) :: r') :=
        (sepList_ok pPhiEdge_noPanic pPhiEdge_clean pPhiEdge_ok
          (afterInstr_ne (by simp) (by simp))
          (pPhiEdge_fails (afterInstr_ne (by simp) (by simp)))).mpr ⟨rfl, cs, hcs, rfl⟩
      simp only [pthen_ok, pKeywordSpan_ok]
      exact ⟨[], [], _, ⟨rfl, k, rfl, rfl⟩, by simpa using hsep, rfl⟩
    · exact congrArg _ (spanSince_eq (by simp) (by simp)).symm

theorem pPhi_noPanic : NoPanic pPhi := by
  have := sepList_noPanic pPhiEdge_noPanic pPhiEdge_clean pPhiEdge_ok
  exact finish_noPanic (by no_panic)

theorem pPhi_clean : Clean pPhi := by
  have := sepList_clean pPhiEdge_noPanic pPhiEdge_clean pPhiEdge_ok
  exact finish_clean (by clean)

/-! ### Any other instruction -/

def anyItem : P Token Token := pnot (por (pmap (fun _ => ()) pNewline) (pmap (fun _ => ()) pDbgRef))

theorem anyItem_noPanic : NoPanic anyItem := by unfold anyItem; no_panic

theorem anyItem_ok {x} : Ok anyItem eoi s es x r ↔ es = [] ∧ ∃ t : Tok,
    (t.1 ≠ .newline ∧ ∀ y, t.1 ≠ .debugRef y) ∧ s = t :: r ∧ x = Prod.fst t := by
  unfold anyItem
  rw [pnot_ok, por_fails, pmap_fails, pmap_fails, pNewline_fails, pDbgRef_fails]
  constructor
  · rintro ⟨rfl, ⟨h1, h2⟩, sp, rfl⟩
    refine ⟨rfl, (x, sp), ⟨?_, ?_⟩, rfl, rfl⟩
    · rintro h; exact h1 sp r (by rw [← h])
    · rintro y h; exact h2 y sp r (by rw [← h])
  · rintro ⟨rfl, ⟨y, sp⟩, ⟨h1, h2⟩, rfl, rfl⟩
    refine ⟨rfl, ⟨?_, ?_⟩, sp, rfl⟩
    · intro sp r h; injection h with h _; injection h with h _; exact h1 h
    · intro x sp r h; injection h with h _; injection h with h _; exact h2 _ h

theorem anyItem_progress : Progress anyItem := by
  intro eoi s es x r h
  obtain ⟨_, t, _, rfl, _⟩ := anyItem_ok.mp h
  simp

theorem anyItem_fails_of {d : Option (Spanned Str)} {nl r'} : Fails anyItem eoi (dbgToks d ++ (.newline, nl) :: r') := by
  refine fails_of_not_ok anyItem_noPanic ?_
  intro es x r h
  obtain ⟨_, ⟨t, sp⟩, ⟨h1, h2⟩, h3, _⟩ := anyItem_ok.mp h
  exact afterInstr_ne h1 h2 _ _ h3

theorem anyItems_ok {x} : Ok (repeated anyItem) eoi s es x r ↔
    es = [] ∧ ∃ l : List Tok, (∀ t ∈ l, t.1 ≠ .newline ∧ ∀ y, t.1 ≠ .debugRef y) ∧ s = l ++ r
      ∧ x = l.map Prod.fst ∧ Fails anyItem eoi r := by
  rw [repeated_ok anyItem_noPanic anyItem_progress,
    many_tok (f := Prod.fst) (good := fun t => t ≠ .newline ∧ ∀ y, t ≠ .debugRef y) anyItem_ok]

theorem anyItems_clean : Clean (repeated anyItem) := by
  constructor
  · intro eoi s es x r h
    exact (anyItems_ok.mp h).1
  · intro eoi s es e h
    exact absurd ⟨_, _, h⟩ (repeated_fails anyItem_noPanic anyItem_progress)

theorem pAnyInstruction_ok {i} : Ok pAnyInstruction eoi s es i r ↔ es = [] ∧ ∃ m ops d nl r',
    r = (.newline, nl) :: r' ∧ (∀ t ∈ ops, t.1 ≠ .newline ∧ ∀ y, t.1 ≠ .debugRef y) ∧
    ops.head?.map Prod.fst ≠ some (.punct ':') ∧
    s = (identTok m :: ops ++ dbgToks d) ++ r
    ∧ i = ⟨none, m, [], d, hull (identTok m :: ops ++ dbgToks d)⟩ := by
  have e : pAnyInstruction = pmapSpan
    (fun (i, d) sp =>
      { assignmentTarget := none, instruction := i, basicBlockRefs := [], dbgRef := d, span := sp })
    (thenIgnore (pthen (thenIgnore (thenIgnore pIdent (rewind (noneOf [Token.punct ':']))) (repeated anyItem))
        (orNot pDbgRef)) pNewlineAhead) := rfl
  rw [e, finish_ok]
  constructor
  · rintro ⟨m, d, nl, r', h, rfl, rfl⟩
    simp only [thenIgnore_ok, pIdent_ok, rewind_ok, noneOf_ok, anyItems_ok] at h
    obtain ⟨_, _, _, _, ⟨_, _, _, _, ⟨rfl, rfl⟩, ⟨rfl, _, rfl, hc, sp, hs⟩, rfl⟩, ⟨rfl, l, hl, rfl, _, _⟩, rfl⟩ := h
    refine ⟨rfl, m, l, d, nl, r', rfl, hl, ?_, by simp, ?_⟩
    · cases l with
      | nil => simp
      | cons t l =>
        injection hs with hs _
        subst hs
        simpa using hc
    · exact congrArg _ (spanSince_eq (by simp) (by simp))
  · rintro ⟨rfl, m, l, d, nl, r', rfl, hl, hc, rfl, rfl⟩
    refine ⟨m, d, nl, r', ?_, rfl, ?_⟩
    · simp only [thenIgnore_ok, pIdent_ok, rewind_ok, noneOf_ok, anyItems_ok]
      have hs : (identTok m :: l ++ dbgToks d) ++ (.newline, nl) :: r' =
        identTok m :: (l ++ (dbgToks d ++ (.newline, nl) :: r')) := by simp
      rw [hs]
      have : ∃ (t : Tok) (r'' : List Tok), l ++ (dbgToks d ++ (.newline, nl) :: r') = t :: r'' ∧ t.1 ∉ [Token.punct ':'] := by
        cases l with
        | nil =>
          cases d with
          | none => exact ⟨_, _, rfl, by simp⟩
          | some d => exact ⟨_, _, rfl, by simp [dbgTok]⟩
        | cons t l => exact ⟨_, _, rfl, by simpa using hc⟩
      obtain ⟨⟨t, sp⟩, r'', ht, hn⟩ := this
      exact ⟨[], [], _, _, ⟨[], [], _, t, ⟨rfl, rfl⟩, ⟨rfl, r'', rfl, hn, sp, ht⟩, rfl⟩,
        ⟨rfl, l, hl, rfl, rfl, anyItem_fails_of⟩, rfl⟩
    · exact congrArg _ (spanSince_eq (by simp) (by simp)).symm

theorem pAnyInstruction_noPanic : NoPanic pAnyInstruction := by
  have : NoPanic (repeated anyItem) := repeated_noPanic anyItem_noPanic anyItem_progress
  unfold anyItem at this
  exact finish_noPanic (by no_panic)

/-! ### Instructions -/

theorem pAssignment_ok {x} : Ok pAssignment eoi s es x r ↔ es = [] ∧ ∃ ty e,
    s = [typeTok ty, localTok x, (.punct '=', e)] ++ r := by
  unfold pAssignment
  simp only [thenIgnore_ok, ignoreThen_ok, pType_ok, pLocalName_ok, pPunct_ok]
  constructor
  · rintro ⟨_, _, _, _, ⟨_, _, _, ty, ⟨rfl, rfl⟩, ⟨rfl, rfl⟩, rfl⟩, ⟨rfl, rfl, e, rfl⟩, rfl⟩
    exact ⟨rfl, ty, e, rfl⟩
  · rintro ⟨rfl, ty, e, rfl⟩
    exact ⟨[], [], _, _, ⟨[], [], _, ty, ⟨rfl, rfl⟩, ⟨rfl, rfl⟩, rfl⟩, ⟨rfl, rfl, e, rfl⟩, rfl⟩

theorem pAssignment_noPanic : NoPanic pAssignment := by unfold pAssignment; no_panic
theorem pAssignment_clean : Clean pAssignment := by unfold pAssignment; clean

theorem pInstructionKind_noPanic : NoPanic pInstructionKind := by
  have h1 := pBr_noPanic
  have h2 := pCondBr_noPanic
  have h3 := pOverflowBr_noPanic
  have h4 := pSwitch_noPanic
  have h5 := pPhi_noPanic
  have h6 := pAnyInstruction_noPanic
  unfold pInstructionKind
  no_panic

theorem pInstruction_noPanic : NoPanic pInstruction := by
  have h1 := pInstructionKind_noPanic
  have h2 := pAssignment_noPanic
  unfold pInstruction
  no_panic

/-- Every accepted instruction has one of the documented forms. -/
theorem pInstructionKind_sound {i} (h : Ok pInstructionKind eoi s es i r) :
    ∃ l nl r', BodyForm i.instruction i.basicBlockRefs i.dbgRef l ∧ s = l ++ r
      ∧ r = (.newline, nl) :: r' := by
  unfold pInstructionKind at h
  rcases por_ok_inv h with h | h
  · rcases por_ok_inv h with h | h
    · rcases por_ok_inv h with h | h
      · rcases por_ok_inv h with h | h
        · rcases por_ok_inv h with h | h
          · obtain ⟨_, k, t, d, nl, r', rfl, rfl, rfl⟩ := pBr_ok.mp h
            exact ⟨_, nl, r', .br, rfl, rfl⟩
          · obtain ⟨_, k, ti, v, c, t, c', e, d, nl, r', rfl, rfl, rfl⟩ := pCondBr_ok.mp h
            exact ⟨_, nl, r', .condBr, rfl, rfl⟩
        · obtain ⟨m, ops, c, k, e, t, c', k', e', t', d, nl, r', rfl, hops, rfl, rfl, _⟩ := pOverflowBr_ok.mp h
          exact ⟨_, nl, r', .overflowBr hops, rfl, rfl⟩
      · obtain ⟨_, k, ops, c, k', e, t, c', ts, cs, d, nl, r', rfl, hops, hcs, rfl, rfl⟩ := pSwitch_ok.mp h
        exact ⟨_, nl, r', .switch hops hcs, rfl, rfl⟩
    · obtain ⟨_, k, ts, cs, d, nl, r', rfl, hcs, rfl, rfl⟩ := pPhi_ok.mp h
      exact ⟨_, nl, r', .phi hcs, rfl, rfl⟩
  · obtain ⟨_, m, l, d, nl, r', rfl, hl, hc, rfl, rfl⟩ := pAnyInstruction_ok.mp h
    exact ⟨_, nl, r', .other hl hc, rfl, rfl⟩

theorem bodyForm_head {m ts d l} (h : BodyForm m ts d l) : ∃ x l', l = identTok x :: l' := by
  cases h with
  | br => exact ⟨(_, _), _, rfl⟩
  | condBr => exact ⟨(_, _), _, rfl⟩
  | overflowBr => exact ⟨(_, _), _, rfl⟩
  | switch => exact ⟨(_, _), _, rfl⟩
  | phi => exact ⟨(_, _), _, rfl⟩
  | other => exact ⟨(_, _), _, rfl⟩

theorem pInstruction_sound {i} (h : Ok pInstruction eoi s es i r) :
    ∃ l nl r', InstrG i l ∧ s = l ++ r ∧ r = (.newline, nl) :: r' := by
  unfold pInstruction at h
  rw [pmapSpan_ok] at h
  obtain ⟨⟨target, i⟩, h, rfl⟩ := h
  obtain ⟨ea, eb, m, h1, h2, rfl⟩ := pthen_ok.mp h
  obtain ⟨l, nl, r', hb, rfl, rfl⟩ := pInstructionKind_sound h2
  have hl : l ≠ [] := by
    obtain ⟨x, l', rfl⟩ := bodyForm_head hb
    simp
  rcases orNot_ok.mp h1 with ⟨y, rfl, h3⟩ | ⟨rfl, rfl, rfl, _⟩
  · obtain ⟨rfl, ty, e, rfl⟩ := pAssignment_ok.mp h3
    refine ⟨_, nl, r', ⟨[typeTok ty, localTok y, (.punct '=', e)], l, .some, hb, rfl, ?_⟩, by simp, rfl⟩
    exact spanSince_eq (by simp) (by simp)
  · refine ⟨_, nl, r', ⟨[], l, .none, hb, rfl, ?_⟩, by simp, rfl⟩
    exact spanSince_eq (by simp) (by simpa using hl)

theorem instrG_ne_nil {i l} (h : InstrG i l) : l ≠ [] := by
  obtain ⟨asg, body, _, hb, rfl, _⟩ := h
  obtain ⟨x, l', rfl⟩ := bodyForm_head hb
  simp

theorem pInstruction_progress : Progress pInstruction := by
  intro eoi s es x r h
  obtain ⟨l, nl, r', hl, rfl, _⟩ := pInstruction_sound h
  have := instrG_ne_nil hl
  have : 0 < l.length := List.length_pos_iff.mpr this
  simp; omega

end
end HyperIR
