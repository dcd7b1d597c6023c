import Verif.Proofs.Stretches
import Verif.Proofs.Blame

/- The parser reads tokens exactly as described in Spec/Reading.lean (src/hir_parser.rs:170-425). -/

namespace HyperIR
open Spec

/-! ### Instructions without assignment -/

/-- Operands go on behind the end of a line only behind a comma. -/
theorem operands_newline {kw : Str} {ops : List Tok} (h : Operands kw ops) : ∀ {a b : List Tok} {nl}, ops = a ++ (.newline, nl) :: b →
    ∃ a' c, a = a' ++ [(.punct ',', c)] := by
  induction h with
  | nil => intro a b nl h; cases a <;> cases h
  | @tok t l h1 h2 _ ih =>
    intro a b nl h
    cases a with
    | nil => injection h with h _; subst h; exact absurd rfl h2
    | cons t' a =>
      injection h with h3 h4
      obtain ⟨a', c, rfl⟩ := ih h4
      exact ⟨t' :: a', c, rfl⟩
  | @comma c t l h1 _ ih =>
    intro a b nl h
    cases a with
    | nil => injection h with h _; cases h
    | cons t' a =>
      injection h with h3 h4
      subst h3
      cases a with
      | nil => exact ⟨[], c, rfl⟩
      | cons t'' a =>
        injection h4 with h5 h6
        obtain ⟨a', c', rfl⟩ := ih h6
        exact ⟨_ :: t'' :: a', c', rfl⟩

/-- The targets of an overflow branch cannot be reached behind a short line that does not end in a comma. -/
theorem overflow_not_short {kw : Str} {m : Spanned Str} {ops tail x a y : List Tok} {nl : Span} (ho : Operands kw ops)
    (ht : OneLine tail) (h8 : 8 ≤ tail.length) (h : identTok m :: ops ++ tail ++ x = a ++ (.newline, nl) :: y)
    (ha : a.length ≤ 8) (hc : ∀ a' c, a ≠ a' ++ [(.punct ',', c)]) : False := by
  cases a with
  | nil => injection h with h _; cases h
  | cons t a =>
    simp only [List.cons_append, List.append_assoc] at h
    injection h with _ h
    rcases List.append_eq_append_iff.mp h with ⟨c, rfl, h2⟩ | ⟨c, hops, h2⟩
    · refine newline_not_inside h2 ht ?_
      simp at ha
      omega
    · cases c with
      | nil =>
        simp only [List.nil_append] at h2
        cases tail with
        | nil => simp at h8
        | cons u tail =>
          injection h2 with h2 _
          exact ht u List.mem_cons_self (by rw [← h2])
      | cons u c =>
        injection h2 with h2 _
        subst h2
        obtain ⟨a', c', rfl⟩ := operands_newline ho hops
        exact hc (t :: a') c' rfl

section
variable {eoi : Span} {s r : List Tok} {es : List (LErr Token)}

theorem documented_complete {m ts d l} (h : Documented m ts d l) {nl r'} :
    Ok pInstructionKind eoi (l ++ (.newline, nl) :: r') [] ⟨none, m, ts, d, hull l⟩ ((.newline, nl) :: r') := by
  by_cases hone : OneLine l
  · exact known_complete h hone
  unfold pInstructionKind
  cases h with
  | @br k t d =>
    exact por_ok_left (por_ok_left (por_ok_left (por_ok_left (por_ok_left (pBr_ok.mpr
      ⟨rfl, k, t, d, nl, r', rfl, rfl, rfl⟩)))))
  | @condBr k i v c t c' e d =>
    refine por_ok_left (por_ok_left (por_ok_left (por_ok_left (por_ok_right ?_ (pCondBr_ok.mpr
      ⟨rfl, k, i, v, c, t, c', e, d, nl, r', rfl, rfl, rfl⟩)))))
    refine fails_of_not_ok pBr_noPanic ?_
    intro es i r h'
    obtain ⟨_, k, t, d', nl', r'', _, h, _⟩ := pBr_ok.mp h'
    simp [identTok] at h
  | @overflowBr m ops c k e t c' k' e' t' d hm ho =>
    rw [isBr_iff] at hm
    have hok := (pOverflowBr_ok (eoi := eoi) (es := [])).mpr ⟨m, ops, c, k, e, t, c', k', e', t', d, nl, r', rfl, ho, rfl, rfl,
      .inl ⟨hm, rfl⟩⟩
    have hone' : OneLine (overflowTail c k e t c' k' e' t') := by simp [OneLine, overflowTail, identTok]
    have hlen : 8 ≤ (overflowTail c k e t c' k' e' t').length := by simp [overflowTail]
    refine por_ok_left (por_ok_left (por_ok_left (por_ok_right ?_ hok)))
    rw [por_fails]
    constructor
    · refine fails_of_not_ok pBr_noPanic ?_
      intro es i r h'
      obtain ⟨_, k', t'', d', nl', r'', rfl, h, _⟩ := pBr_ok.mp h'
      rw [List.append_assoc] at h
      refine overflow_not_short ho hone' hlen h ?_ ?_
      · cases d' <;> simp [dbgToks]
      · intro a' c h
        have := congrArg List.getLast? h
        cases d' <;> simp [dbgToks, identTok, dbgTok] at this
    · refine fails_of_not_ok pCondBr_noPanic ?_
      intro es i r h'
      obtain ⟨_, k', ti, v, c, t'', c', e, d', nl', r'', rfl, h, _⟩ := pCondBr_ok.mp h'
      rw [List.append_assoc] at h
      refine overflow_not_short ho hone' hlen h ?_ ?_
      · cases d' <;> simp [dbgToks]
      · intro a' c h
        have := congrArg List.getLast? h
        cases d' <;> simp [dbgToks, identTok, dbgTok] at this
  | @switch k ops c k' e t c' ts cases d ho hc =>
    have hok := (pSwitch_ok (eoi := eoi) (es := [])).mpr ⟨rfl, k, ops, c, k', e, t, c', ts, cases, d, nl, r', rfl, ho, hc, rfl, rfl⟩
    exact por_ok_left (por_ok_left (kind_right (m := (c!"switch", k)) (pBr_fails_of (by simp [identTok]))
      (pCondBr_fails_of (by simp [identTok])) (show endsWith c!"switch" c!"br" = false by decide) hok))
  | @phi k ts lc d hc =>
    have hok := (pPhi_ok (eoi := eoi) (es := [])).mpr ⟨rfl, k, ts, lc, d, nl, r', rfl, hc, rfl, rfl⟩
    have h1 := pBr_fails_of (eoi := eoi) (s := (.ident c!"phi", k) :: lc ++ dbgToks d ++ (.newline, nl) :: r') (by simp)
    have h2 := pCondBr_fails_of (eoi := eoi) (s := (.ident c!"phi", k) :: lc ++ dbgToks d ++ (.newline, nl) :: r') (by simp)
    have h3 := pSwitch_fails_of (eoi := eoi) (s := (.ident c!"phi", k) :: lc ++ dbgToks d ++ (.newline, nl) :: r') (by simp)
    rcases pOverflowBr_not_clean (m := (c!"phi", k)) (eoi := eoi) (s := lc ++ dbgToks d ++ (.newline, nl) :: r')
        (show endsWith c!"phi" c!"br" = false by decide) with h4 | ⟨e, j, r'', h4⟩
    · exact por_ok_left (por_ok_right (por_fails.mpr ⟨por_fails.mpr ⟨por_fails.mpr ⟨h1, h2⟩, h4⟩, h3⟩) hok)
    · exact por_ok_left (por_ok_right_clean (por_ok_left_dirty (por_ok_right (por_fails.mpr ⟨h1, h2⟩) h4) h3) hok)

theorem headNoPanic : NoPanic (por (por (por (por pBr pCondBr) pOverflowBr) pSwitch) pPhi) :=
  por_noPanic (por_noPanic (por_noPanic (por_noPanic pBr_noPanic pCondBr_noPanic) pOverflowBr_noPanic)
    pSwitch_noPanic) pPhi_noPanic

/-- A line without a documented form and without errors. -/
theorem other_complete {m d l} (h : OtherForm m d l) {nl r'} (hn : ¬ StartsDocumented (l ++ (.newline, nl) :: r')) :
    Ok pInstructionKind eoi (l ++ (.newline, nl) :: r') [] ⟨none, m, [], d, hull l⟩ ((.newline, nl) :: r') := by
  obtain ⟨ops, ho, hc, rfl⟩ := h
  have hok := (pAnyInstruction_ok (eoi := eoi) (es := [])).mpr ⟨rfl, m, ops, d, nl, r', rfl, ho, hc, rfl, rfl⟩
  have no : ∀ {i r}, ¬ Ok (por (por (por (por pBr pCondBr) pOverflowBr) pSwitch) pPhi) eoi
      ((identTok m :: ops ++ dbgToks d) ++ (.newline, nl) :: r') [] i r := by
    intro i r h
    rcases por_ok_inv h with h | h
    · rcases por_ok_inv h with h | h
      · rcases por_ok_inv h with h | h
        · rcases por_ok_inv h with h | h
          · obtain ⟨_, k, t, d, nl, r', rfl, hs, hi⟩ := pBr_ok.mp h
            exact hn ⟨_, _, _, _, _, _, .br, hs⟩
          · obtain ⟨_, k, ti, v, c, t, c', e, d, nl, r', rfl, hs, hi⟩ := pCondBr_ok.mp h
            exact hn ⟨_, _, _, _, _, _, .condBr, hs⟩
        · obtain ⟨m, ops, c, k, e, t, c', k', e', t', d, nl, r', rfl, ho, hs, hi, h4⟩ := pOverflowBr_ok.mp h
          rcases h4 with ⟨h4, _⟩ | ⟨_, err, h5, _⟩
          · exact hn ⟨_, _, _, _, _, _, .overflowBr (isBr_iff.mpr h4) ho, hs⟩
          · cases h5
      · obtain ⟨_, k, ops, c, k', e, t, c', ts, cases, d, nl, r', rfl, ho, hc, hs, hi⟩ := pSwitch_ok.mp h
        exact hn ⟨_, _, _, _, _, _, .switch ho hc, hs⟩
    · obtain ⟨_, k, ts, edges, d, nl, r', rfl, hc, hs, hi⟩ := pPhi_ok.mp h
      exact hn ⟨_, _, _, _, _, _, .phi hc, hs⟩
  unfold pInstructionKind
  rcases headNoPanic.cases eoi ((identTok m :: ops ++ dbgToks d) ++ (.newline, nl) :: r') with ⟨es, x, r, h⟩ | h
  · cases es with
    | nil => exact absurd h no
    | cons e es => exact por_ok_right_clean h hok
  · exact por_ok_right h hok

/-- The error reported for a mnemonic (src/hir_parser.rs:199-205), up to bookkeeping. -/
def oddErr (sp : Span) : LErr Token :=
  { rem := 0, span := sp, reason := .custom oddMessage, expected := [], found := none }

/-- The errors are those reported for the mnemonics. -/
def Complaints (es : List (LErr Token)) (odd : List Span) : Prop :=
  es.map (fun e => { e with rem := 0 }) = odd.map oddErr

theorem Complaints.append {es es' odd odd'} (h : Complaints es odd) (h' : Complaints es' odd') :
    Complaints (es ++ es') (odd ++ odd') := by
  unfold Complaints at *
  simp [h, h']

theorem Complaints.nil : Complaints [] [] := rfl

theorem Complaints.unique {es odd odd'} (h : Complaints es odd) (h' : Complaints es odd') : odd = odd' := by
  have := congrArg (List.map LErr.span) (h.symm.trans h')
  simpa [oddErr, Function.comp_def] using this

theorem Complaints.length {es odd} (h : Complaints es odd) : es.length = odd.length := by
  have := congrArg List.length h
  simpa using this

theorem lineAt_sound {i} (h : Ok pInstructionKind eoi s es i r) :
    ∃ l nl r' odd, r = (.newline, nl) :: r' ∧ s = l ++ r ∧
      LineAt i.instruction i.basicBlockRefs i.dbgRef odd l r ∧ Complaints es odd ∧
      i = ⟨none, i.instruction, i.basicBlockRefs, i.dbgRef, hull l⟩ := by
  by_cases hd : StartsDocumented s
  · obtain ⟨m, ts, d, l, nl, r', hd, rfl⟩ := hd
    obtain ⟨rfl, rfl, rfl⟩ := h.det (documented_complete hd)
    exact ⟨l, nl, r', [], rfl, rfl, .known hd, .nil, rfl⟩
  by_cases ho : StartsOther s
  · obtain ⟨m, d, l, nl, r', ho, rfl⟩ := ho
    obtain ⟨rfl, rfl, rfl⟩ := h.det (other_complete ho hd)
    exact ⟨l, nl, r', [], rfl, rfl, .other ho hd, .nil, rfl⟩
  unfold pInstructionKind at h
  rcases por_ok_inv h with h | h
  · rcases por_ok_inv h with h | h
    · rcases por_ok_inv h with h | h
      · rcases por_ok_inv h with h | h
        · rcases por_ok_inv h with h | h
          · obtain ⟨_, k, t, d, nl, r', rfl, hs, hi⟩ := pBr_ok.mp h
            exact absurd ⟨_, _, _, _, _, _, .br, hs⟩ hd
          · obtain ⟨_, k, ti, v, c, t, c', e, d, nl, r', rfl, hs, hi⟩ := pCondBr_ok.mp h
            exact absurd ⟨_, _, _, _, _, _, .condBr, hs⟩ hd
        · obtain ⟨m, ops, c, k, e, t, c', k', e', t', d, nl, r', rfl, hops, rfl, rfl, h4⟩ := pOverflowBr_ok.mp h
          rcases h4 with ⟨h4, _⟩ | ⟨_, err, rfl, rfl⟩
          · exact absurd ⟨_, _, _, _, _, _, .overflowBr (isBr_iff.mpr h4) hops, rfl⟩ hd
          · exact ⟨_, nl, r', [m.2], rfl, rfl, .odd ⟨ops, c, k, e, t, c', k', e', t', hops, rfl, rfl⟩ hd ho, rfl, rfl⟩
      · obtain ⟨_, k, ops, c, k', e, t, c', ts, cases, d, nl, r', rfl, ho, hc, hs, hi⟩ := pSwitch_ok.mp h
        exact absurd ⟨_, _, _, _, _, _, .switch ho hc, hs⟩ hd
    · obtain ⟨_, k, ts, edges, d, nl, r', rfl, hc, hs, hi⟩ := pPhi_ok.mp h
      exact absurd ⟨_, _, _, _, _, _, .phi hc, hs⟩ hd
  · obtain ⟨_, m, ops, d, nl, r', rfl, ho', hc, hs, hi⟩ := pAnyInstruction_ok.mp h
    exact absurd ⟨m, d, _, nl, r', ⟨ops, ho', hc, rfl⟩, hs⟩ ho

theorem lineAt_complete {m ts d odd l nl r'} (h : LineAt m ts d odd l ((.newline, nl) :: r')) :
    ∃ es, Complaints es odd ∧
      Ok pInstructionKind eoi (l ++ (.newline, nl) :: r') es ⟨none, m, ts, d, hull l⟩ ((.newline, nl) :: r') := by
  cases h with
  | known h => exact ⟨[], .nil, documented_complete h⟩
  | other h1 h2 => exact ⟨[], .nil, other_complete h1 h2⟩
  | odd h1 hd ho =>
    obtain ⟨ops, c, k, e, t, c', k', e', t', hops, rfl, rfl⟩ := h1
    have hbr : endsWith m.1 c!"br" = false := by
      cases hb : endsWith m.1 c!"br" with
      | false => rfl
      | true => exact absurd ⟨_, _, _, _, _, _, .overflowBr (isBr_iff.mpr hb) hops, rfl⟩ hd
    have hok := (pOverflowBr_ok (eoi := eoi)).mpr ⟨m, ops, c, k, e, t, c', k', e', t', d, nl, r', rfl, hops, rfl, rfl,
      .inr ⟨hbr, _, rfl, rfl⟩⟩
    refine ⟨_, ?_, por_ok_left_dirty (por_ok_left_dirty (por_ok_left_dirty (por_ok_right (por_fails.mpr ⟨?_, ?_⟩) hok) ?_) ?_) ?_⟩
    · rfl
    · refine fails_of_not_ok pBr_noPanic fun es i r h => ?_
      obtain ⟨_, k, t, d, nl, r', rfl, hs, hi⟩ := pBr_ok.mp h
      exact absurd ⟨_, _, _, _, _, _, .br, hs⟩ hd
    · refine fails_of_not_ok pCondBr_noPanic fun es i r h => ?_
      obtain ⟨_, k, ti, v, c, t, c', e, d, nl, r', rfl, hs, hi⟩ := pCondBr_ok.mp h
      exact absurd ⟨_, _, _, _, _, _, .condBr, hs⟩ hd
    · refine fails_of_not_ok pSwitch_noPanic fun es i r h => ?_
      obtain ⟨_, k, ops, c, k', e, t, c', ts, cases, d, nl, r', rfl, ho, hc, hs, hi⟩ := pSwitch_ok.mp h
      exact absurd ⟨_, _, _, _, _, _, .switch ho hc, hs⟩ hd
    · refine fails_of_not_ok pPhi_noPanic fun es i r h => ?_
      obtain ⟨_, k, ts, edges, d, nl, r', rfl, hc, hs, hi⟩ := pPhi_ok.mp h
      exact absurd ⟨_, _, _, _, _, _, .phi hc, hs⟩ hd
    · refine fails_of_not_ok pAnyInstruction_noPanic fun es i r h => ?_
      obtain ⟨_, m, ops, d, nl, r', rfl, ho', hc, hs, hi⟩ := pAnyInstruction_ok.mp h
      exact absurd ⟨m, d, _, nl, r', ⟨ops, ho', hc, rfl⟩, hs⟩ ho

/-! ### Instructions -/

theorem lineAt_body {m ts d odd l} (h : LineAt m ts d odd l r) : BodyForm m ts d l := by
  cases h with
  | known h => cases h with
    | br => exact .br
    | condBr => exact .condBr
    | overflowBr _ h => exact .overflowBr h
    | switch h h' => exact .switch h h'
    | phi h => exact .phi h
  | other h =>
    obtain ⟨ops, h1, h2, rfl⟩ := h
    exact .other h1 h2
  | odd h =>
    obtain ⟨ops, c, k, e, t, c', k', e', t', hops, rfl, rfl⟩ := h
    exact .overflowBr hops

theorem instrAt_sound {i} (h : Ok pInstruction eoi s es i r) :
    ∃ l nl r' odd, InstrAt i odd l r ∧ s = l ++ r ∧ r = (.newline, nl) :: r' ∧ Complaints es odd := by
  unfold pInstruction at h
  rw [pmapSpan_ok] at h
  obtain ⟨⟨target, j⟩, h, rfl⟩ := h
  obtain ⟨ea, eb, m, h1, h2, rfl⟩ := pthen_ok.mp h
  rcases orNot_ok.mp h1 with ⟨y, rfl, h3⟩ | ⟨rfl, rfl, rfl, h3⟩
  · obtain ⟨rfl, ty, e, rfl⟩ := pAssignment_ok.mp h3
    obtain ⟨l, nl, r', odd, rfl, rfl, hl, hc, hj⟩ := lineAt_sound h2
    refine ⟨_, nl, r', odd, ⟨[typeTok ty, localTok y, (.punct '=', e)], l, .some, hl, rfl, ?_⟩, by simp, rfl, hc⟩
    rw [← List.append_assoc, spanSince_eq rfl (by simp)]
  · obtain ⟨l, nl, r', odd, rfl, rfl, hl, hc, hj⟩ := lineAt_sound h2
    obtain ⟨x, l', hx⟩ := bodyForm_head (lineAt_body hl)
    refine ⟨_, nl, r', odd, ⟨[], l, .none, hl, rfl, ?_⟩, rfl, rfl, hc⟩
    rw [spanSince_eq rfl (by simp [hx])]
    simp

theorem instrAt_complete {i odd l nl r'} (h : InstrAt i odd l ((.newline, nl) :: r')) :
    ∃ es, Complaints es odd ∧ Ok pInstruction eoi (l ++ (.newline, nl) :: r') es i ((.newline, nl) :: r') := by
  obtain ⟨asg, body, h1, h2, rfl, h4⟩ := h
  obtain ⟨es, hc, hk⟩ := lineAt_complete (eoi := eoi) h2
  obtain ⟨x, l', hx⟩ := bodyForm_head (lineAt_body h2)
  refine ⟨es, hc, ?_⟩
  unfold pInstruction
  rw [pmapSpan_ok]
  obtain ⟨tgt, ins, refs, dbg, sp⟩ := i
  simp only at h1 h2 h4 hk
  subst h4
  refine ⟨(tgt, _), pthen_ok.mpr ⟨[], es, body ++ (.newline, nl) :: r', ?_, hk, rfl⟩, ?_⟩
  · cases h1 with
    | none =>
      refine orNot_ok.mpr (.inr ⟨rfl, rfl, rfl, ?_⟩)
      refine fails_of_not_ok pAssignment_noPanic ?_
      intro es y r h
      obtain ⟨_, ty, e, h⟩ := pAssignment_ok.mp h
      subst hx
      simp [typeTok, identTok] at h
    | @some ty n e =>
      exact orNot_ok.mpr (.inl ⟨_, rfl, pAssignment_ok.mpr ⟨rfl, ty, e, by simp⟩⟩)
  · rw [spanSince_eq rfl (by simp [hx])]

theorem instrAt_head {i odd l} (h : InstrAt i odd l r) {sp r' m} (he : l ++ m = (.newline, sp) :: r') : False := by
  obtain ⟨asg, body, h1, h2, rfl, _⟩ := h
  obtain ⟨x, l', rfl⟩ := bodyForm_head (lineAt_body h2)
  generalize i.assignmentTarget = t at h1
  cases h1 <;> simp [identTok, typeTok] at he

theorem paddedInstrAt_sound (hs : ∀ sp r', s ≠ (.newline, sp) :: r') {i}
    (h : Ok pPaddedInstruction eoi s es i r) : ∃ l nls odd, InstrAt i odd l (nls ++ r) ∧ Newlines nls ∧ nls ≠ [] ∧
      s = l ++ nls ++ r ∧ (∀ sp r', r ≠ (.newline, sp) :: r') ∧ Complaints es odd := by
  unfold pPaddedInstruction at h
  obtain ⟨e1, e2, e3, m, m', y, z, h1, h2, h3, rfl⟩ := paddedBy_ok.mp h
  obtain ⟨rfl, nls, hn, rfl, _, _⟩ := newlines_ok.mp h1
  have hnil : nls = [] := by
    rcases List.eq_nil_or_concat nls with h | h
    · exact h
    · obtain ⟨nl, nls', rfl⟩ := newlines_cons hn (by obtain ⟨_, _, rfl⟩ := h; simp)
      exact absurd rfl (hs nl (nls' ++ m))
  subst hnil
  obtain ⟨l, nl, r', odd, hl, rfl, hr, hc⟩ := instrAt_sound h2
  obtain ⟨rfl, nls', hn', h4, _, h5⟩ := newlines_ok.mp h3
  refine ⟨l, nls', odd, by rw [← h4]; exact hl, hn', ?_, by simp [h4], h5, by simpa using hc⟩
  rintro rfl
  rw [hr] at h4
  exact h5 _ _ h4.symm

theorem paddedInstrAt_complete {i odd l nls} (h : InstrAt i odd l (nls ++ r)) (hn : Newlines nls) (hn' : nls ≠ [])
    (hr : ∀ sp r', r ≠ (.newline, sp) :: r') :
    ∃ es, Complaints es odd ∧ Ok pPaddedInstruction eoi (l ++ nls ++ r) es i r := by
  obtain ⟨nl, nls', rfl⟩ := newlines_cons hn hn'
  rw [List.append_assoc]
  obtain ⟨es, hc, h1⟩ := instrAt_complete (eoi := eoi) (nl := nl) (r' := nls' ++ r) h
  refine ⟨es, hc, ?_⟩
  unfold pPaddedInstruction
  refine paddedBy_ok.mpr ⟨[], es, [], _, _, _, _, newlines_ok.mpr ⟨rfl, [], by simp [Newlines], rfl, rfl, ?_⟩,
    h1, newlines_ok.mpr ⟨rfl, (.newline, nl) :: nls', hn, rfl, rfl, hr⟩, by simp⟩
  intro sp r' h'
  exact instrAt_head h h'

theorem many_instrAt_sound {is} (h : Many pPaddedInstruction eoi s es is r) :
    (∀ sp r', s ≠ (.newline, sp) :: r') → ∃ l odd, InstrsAt is odd l r ∧ s = l ++ r ∧
      (∀ sp r', r ≠ (.newline, sp) :: r') ∧ Complaints es odd := by
  induction h with
  | nil => intro hs; exact ⟨[], [], .nil, rfl, hs, .nil⟩
  | cons h1 _ ih =>
    intro hs
    obtain ⟨l, nls, odd, a1, a2, a3, rfl, a4, a5⟩ := paddedInstrAt_sound hs h1
    obtain ⟨l', odd', h2, rfl, h3, h4⟩ := ih a4
    exact ⟨_, _, .cons a1 a2 a3 h2, by simp, h3, a5.append h4⟩

theorem instrsAt_head {is odd l} (h : InstrsAt is odd l r) (hr : ∀ sp r', r ≠ (.newline, sp) :: r') :
    ∀ sp r', l ++ r ≠ (.newline, sp) :: r' := by
  intro sp r' he
  cases h with
  | nil => exact hr _ _ he
  | cons h1 =>
    simp only [List.append_assoc] at he
    exact instrAt_head h1 he

theorem many_instrAt_complete {is odd l r} (h : InstrsAt is odd l r) : EndsInstrs r →
    ∃ es, Complaints es odd ∧ Many pPaddedInstruction eoi (l ++ r) es is r := by
  induction h with
  | nil => intro hr; exact ⟨[], .nil, .nil (pPaddedInstruction_stop hr)⟩
  | @cons i is o o' l nls l' r h1 h2 h3 h4 ih =>
    intro hr
    rw [List.append_assoc (l ++ nls)]
    obtain ⟨es, hc, h5⟩ := paddedInstrAt_complete (eoi := eoi) h1 h2 h3 (instrsAt_head h4 hr.noNewline)
    obtain ⟨es', hc', h6⟩ := ih hr
    exact ⟨_, hc.append hc', .cons h5 h6⟩

/-! ### Blocks and bodies -/

theorem blockAt_sound {b} (h : Ok pBasicBlock eoi s es b r) :
    ∃ l odd, BlockAt b odd l r ∧ s = l ++ r ∧ Complaints es odd := by
  unfold pBasicBlock at h
  simp only [pmap_ok] at h
  obtain ⟨⟨⟨label, comma⟩, is⟩, h, rfl⟩ := h
  simp only [pthen_ok, thenIgnore_ok, pIdent_ok, punctSpan_ok, newlines1_ok,
    repeated_ok pPaddedInstruction_noPanic pPaddedInstruction_progress] at h
  obtain ⟨_, _, _, ⟨_, _, _, _, ⟨_, _, _, ⟨rfl, rfl⟩, ⟨rfl, c, rfl, rfl⟩, rfl⟩,
    ⟨rfl, nls, hn, hn', rfl, _, h4⟩, rfl⟩, h3, rfl⟩ := h
  obtain ⟨l, odd, hl, rfl, _, hc⟩ := many_instrAt_sound h3 h4
  exact ⟨_, odd, ⟨label, comma, nls, l, hn, hn', hl, rfl, rfl, rfl, rfl⟩, by simp, by simpa using hc⟩

theorem blockAt_complete {b odd l} (h : BlockAt b odd l r) (hr : EndsInstrs r) :
    ∃ es, Complaints es odd ∧ Ok pBasicBlock eoi (l ++ r) es b r := by
  obtain ⟨label, comma, nls, is, hn, hn', hl, rfl, hb1, hb2, hb3⟩ := h
  have e : [identTok label, (Token.punct ':', comma)] ++ nls ++ is ++ r
      = identTok label :: (Token.punct ':', comma) :: (nls ++ (is ++ r)) := by simp
  rw [e]
  obtain ⟨es, hc, hm⟩ := many_instrAt_complete (eoi := eoi) hl hr
  refine ⟨es, hc, ?_⟩
  unfold pBasicBlock
  simp only [pmap_ok]
  refine ⟨((label, comma), b.instructions), ?_, ?_⟩
  · simp only [pthen_ok, thenIgnore_ok, pIdent_ok, punctSpan_ok, newlines1_ok,
      repeated_ok pPaddedInstruction_noPanic pPaddedInstruction_progress]
    exact ⟨[], es, _, ⟨[], [], _, _, ⟨[], [], _, ⟨rfl, rfl⟩, ⟨rfl, comma, rfl, rfl⟩, rfl⟩,
      ⟨rfl, nls, hn, hn', rfl, rfl, instrsAt_head hl hr.noNewline⟩, rfl⟩, hm, rfl⟩
  · obtain ⟨b1, b2, b3, b4⟩ := b
    simp only at hb1 hb2 hb3
    subst hb1 hb2 hb3
    rfl

theorem many_blockAt_sound {bs} (h : Many pBasicBlock eoi s es bs r) :
    ∃ l odd, BlocksAt bs odd l r ∧ s = l ++ r ∧ Complaints es odd := by
  induction h with
  | nil => exact ⟨[], [], .nil, rfl, .nil⟩
  | cons h1 _ ih =>
    obtain ⟨l', odd', h2, rfl, hc'⟩ := ih
    obtain ⟨l, odd, h3, rfl, hc⟩ := blockAt_sound h1
    exact ⟨_, _, .cons h3 h2, by simp, hc.append hc'⟩

theorem blocksAt_ends {bs odd l c r'} (h : BlocksAt bs odd l ((.punct '}', c) :: r')) : EndsInstrs (l ++ (.punct '}', c) :: r') := by
  cases h with
  | nil => exact .inr ⟨c, r', rfl⟩
  | cons h1 =>
    obtain ⟨label, comma, nls, is, hn, hn', _, rfl, _⟩ := h1
    obtain ⟨nl, nls', rfl⟩ := newlines_cons hn hn'
    exact .inl ⟨label, comma, nl, _, by simp; rfl⟩

theorem many_blockAt_complete {bs odd l r} (h : BlocksAt bs odd l r) : ∀ {c r'}, r = (.punct '}', c) :: r' →
    ∃ es, Complaints es odd ∧ Many pBasicBlock eoi (l ++ r) es bs r := by
  induction h with
  | nil =>
    rintro c r' rfl
    refine ⟨[], .nil, .nil (fails_of_not_ok pBasicBlock_noPanic ?_)⟩
    intro es b r h
    obtain ⟨l, h1, h2⟩ := pBasicBlock_sound h
    obtain ⟨x, c, l', rfl⟩ := blockG_head h1
    simp [identTok] at h2
  | cons h1 h2 ih =>
    rintro c r' rfl
    rw [List.append_assoc]
    obtain ⟨es, hc, h3⟩ := blockAt_complete (eoi := eoi) h1 (blocksAt_ends h2)
    obtain ⟨es', hc', h4⟩ := ih rfl
    exact ⟨_, hc.append hc', .cons h3 h4⟩

theorem firstBlockAt_sound (hs : ∀ sp r', s ≠ (.newline, sp) :: r') {b}
    (h : Ok pInitialBlock eoi s es b r) : ∃ l odd, FirstBlockAt b odd l r ∧ s = l ++ r ∧ Complaints es odd := by
  unfold pInitialBlock at h
  obtain ⟨is, h1, h2⟩ := pmapOutcome_ok.mp h
  obtain ⟨h3, _⟩ := (repeatedAtLeast_ok pPaddedInstruction_noPanic pPaddedInstruction_progress).mp h1
  obtain ⟨l, odd, hl, rfl, _, hc⟩ := many_instrAt_sound h3 hs
  unfold mkInitialBlock at h2
  split at h2
  · rename_i f la hf hla
    cases h2
    exact ⟨l, odd, ⟨f, la, hl, hf, hla, rfl, rfl, rfl⟩, rfl, hc⟩
  · cases h2

theorem bodyAt_sound {b} (h : Ok pFuncBody eoi s es b r) : ∃ l odd, BodyAt b odd l r ∧ s = l ++ r ∧ Complaints es odd := by
  unfold pFuncBody at h
  simp only [pmap_ok] at h
  obtain ⟨⟨⟨⟨o, init⟩, bbs⟩, c⟩, h, rfl⟩ := h
  simp only [pthen_ok, thenIgnore_ok, punctSpan_ok, newlines1_ok, orNot_ok,
    repeated_ok pBasicBlock_noPanic pBasicBlock_progress] at h
  obtain ⟨_, _, _, ⟨_, _, _, ⟨_, _, _, ⟨_, _, _, _, ⟨rfl, o', rfl, rfl⟩, ⟨rfl, nls, hn, hn', rfl, _, hnl⟩, rfl⟩, hi, rfl⟩, hb, rfl⟩,
    ⟨rfl, c', rfl, rfl⟩, rfl⟩ := h
  obtain ⟨l, odd, hl, rfl, hc⟩ := many_blockAt_sound hb
  rcases hi with ⟨y, rfl, h2⟩ | ⟨rfl, rfl, rfl, _⟩
  · obtain ⟨l1, odd1, hl1, rfl, hc1⟩ := firstBlockAt_sound hnl h2
    exact ⟨_, _, ⟨nls, l1 ++ l, hn, hn', .unlabelled hl1 hl, rfl⟩, by simp, by simpa using hc1.append hc⟩
  · exact ⟨_, _, ⟨nls, l, hn, hn', .labelled hl, rfl⟩, by simp, by simpa using hc⟩

theorem bodyAt_complete {b odd l} (h : BodyAt b odd l r) :
    ∃ es, Complaints es odd ∧ Ok pFuncBody eoi (l ++ r) es b r := by
  obtain ⟨nls, bl, hn, hn', hbl, rfl⟩ := h
  obtain ⟨o, c, bbs⟩ := b
  simp only at hbl ⊢
  have e : (Token.punct '{', o) :: nls ++ bl ++ [(Token.punct '}', c)] ++ r
      = (Token.punct '{', o) :: (nls ++ (bl ++ (Token.punct '}', c) :: r)) := by simp
  rw [e]
  unfold pFuncBody
  simp only [pmap_ok]
  generalize hq : (Token.punct '}', c) :: r = q at hbl ⊢
  cases hbl with
  | labelled hb =>
    subst hq
    have hends := blocksAt_ends hb
    obtain ⟨es, hc, hm⟩ := many_blockAt_complete (eoi := eoi) hb rfl
    refine ⟨es, hc, (((o, none), bbs), c), ?_, rfl⟩
    simp only [pthen_ok, thenIgnore_ok, punctSpan_ok, newlines1_ok, orNot_ok,
      repeated_ok pBasicBlock_noPanic pBasicBlock_progress]
    refine ⟨es, [], _, ⟨[], es, _, ⟨[], [], _, ⟨[], [], _, _, ⟨rfl, o, rfl, rfl⟩, ⟨rfl, nls, hn, hn', rfl, rfl, hends.noNewline⟩, rfl⟩,
      .inr ⟨trivial, rfl, rfl, ?_⟩, rfl⟩, hm, rfl⟩, ⟨rfl, c, rfl, rfl⟩, by simp⟩
    unfold pInitialBlock
    rw [pmapOutcome_fails]
    rw [repeatedAtLeast_fails pPaddedInstruction_noPanic pPaddedInstruction_progress]
    exact ⟨_, _, _, .nil (pPaddedInstruction_stop hends), by simp⟩
  | @unlabelled b bs o1 o2 l1 l2 _ hf hb =>
    subst hq
    obtain ⟨f, la, hi, hf1, hf2, hf3, hf4, hf5⟩ := hf
    have hends := blocksAt_ends hb
    obtain ⟨es, hc, hm⟩ := many_blockAt_complete (eoi := eoi) hb rfl
    obtain ⟨es1, hc1, hm1⟩ := many_instrAt_complete (eoi := eoi) hi hends
    rw [List.append_assoc]
    refine ⟨es1 ++ es, hc1.append hc, (((o, some b), bs), c), ?_, rfl⟩
    simp only [pthen_ok, thenIgnore_ok, punctSpan_ok, newlines1_ok, orNot_ok,
      repeated_ok pBasicBlock_noPanic pBasicBlock_progress]
    refine ⟨es1 ++ es, [], _, ⟨es1, es, _, ⟨[], es1, _, ⟨[], [], _, _, ⟨rfl, o, rfl, rfl⟩, ⟨rfl, nls, hn, hn', rfl, rfl, instrsAt_head hi hends.noNewline⟩, rfl⟩,
      .inl ⟨_, rfl, ?_⟩, rfl⟩, hm, rfl⟩, ⟨rfl, c, rfl, rfl⟩, by simp⟩
    unfold pInitialBlock
    refine pmapOutcome_ok.mpr ⟨b.instructions, (repeatedAtLeast_ok pPaddedInstruction_noPanic pPaddedInstruction_progress).mpr
      ⟨hm1, ?_⟩, ?_⟩
    · cases h : b.instructions with
      | nil => rw [h] at hf1; cases hf1
      | cons => simp
    · obtain ⟨b1, b2, b3, b4⟩ := b
      simp only at hf1 hf2 hf3 hf4 hf5
      subst hf3 hf4 hf5
      simp [mkInitialBlock, hf1, hf2]

/-! ### Statements -/

theorem por_ok_left_any {α : Type} {a b : P Token α} {x} (h : Ok a eoi s es x r) (hb : Fails b eoi s) :
    Ok (por a b) eoi s es x r := by
  cases es with
  | nil => exact por_ok_left h
  | cons e es => exact por_ok_left_dirty h hb

theorem defAt_sound {x} (h : Ok pFuncDef eoi s es x r) : ∃ l eol odd, StmtAt x odd l (eol ++ r) ∧
    s = l ++ eol ++ r ∧ ((∃ sp, eol = [(.newline, sp)]) ∨ (eol = [] ∧ r = [])) ∧ Complaints es odd := by
  unfold pFuncDef at h
  simp only [pmap_ok] at h
  obtain ⟨⟨⟨k, sg⟩, b⟩, h, rfl⟩ := h
  simp only [thenIgnore_ok, pthen_ok, justSpan_ok, pFuncSignature_ok, pEol_ok] at h
  obtain ⟨_, _, _, _, ⟨_, _, _, ⟨_, _, _, ⟨rfl, k', rfl, rfl⟩, ⟨rfl, l, hl, rfl⟩, rfl⟩, hb, rfl⟩,
    ⟨rfl, rfl, h1⟩, rfl⟩ := h
  obtain ⟨bl, odd, hbl, rfl, hc⟩ := bodyAt_sound hb
  rcases h1 with ⟨sp, rfl⟩ | ⟨rfl, rfl⟩
  · exact ⟨_, [(.newline, sp)], odd, .funcDef hl hbl, by simp, .inl ⟨sp, rfl⟩, by simpa using hc⟩
  · exact ⟨_, [], odd, .funcDef hl hbl, by simp, .inr ⟨rfl, rfl⟩, by simpa using hc⟩

/-- What follows the statement `x` on its line. -/
theorem stmtAt_sound {x} (h : Ok pStatement eoi s es x r) : ∃ l eol odd, StmtAt x odd l (eol ++ r) ∧
    s = l ++ eol ++ r ∧ Newlines eol ∧ (eol = [] → StmtEnds x r) ∧ Complaints es odd := by
  unfold pStatement at h
  have hfin : ∀ (eol : List Tok), ((∃ sp, eol = [(.newline, sp)]) ∨ (eol = [] ∧ r = [])) →
      Newlines eol ∧ (eol = [] → StmtEnds x r) := by
    rintro eol (⟨sp, rfl⟩ | ⟨rfl, rfl⟩)
    · exact ⟨(by intro t ht; simp at ht; rw [ht]), (by simp)⟩
    · refine ⟨(by intro t ht; cases ht), fun _ => ?_⟩
      cases x with
      | funcDependencies n ds => cases ds <;> simp [StmtEnds]
      | _ => rfl
  have plain : ∀ {l}, (∀ k sg b, x ≠ .funcDef k sg b) → StmtX x l → StmtG x l := by
    intro l hx h
    cases h with
    | funcDef => exact absurd rfl (hx _ _ _)
    | plain _ h => exact h
  rcases por_ok_inv h with h | h
  · rcases por_ok_inv h with h | h
    · rcases por_ok_inv h with h | h
      · rcases por_ok_inv h with h | h
        · obtain ⟨rfl, n, e, d, eol, hd, rfl, rfl, h1⟩ := pGlobalVar_ok.mp h
          exact ⟨_, eol, [], .plain (by simp) (.globalVar hd), rfl, (hfin eol h1).1, (hfin eol h1).2, .nil⟩
        · obtain ⟨rfl, l, eol, h1, rfl, _, h2⟩ := pFuncDecl_sound h
          refine ⟨l, eol, [], .plain ?_ h1, rfl, (hfin eol h2).1, (hfin eol h2).2, .nil⟩
          rintro k sg b rfl
          unfold pFuncDecl at h
          simp only [pmap_ok] at h
          obtain ⟨_, _, h⟩ := h
          cases h
      · obtain ⟨l, eol, odd, h1, rfl, h2, hc⟩ := defAt_sound h
        exact ⟨l, eol, odd, h1, rfl, (hfin eol h2).1, (hfin eol h2).2, hc⟩
    · obtain ⟨rfl, hw⟩ := pFuncDependencies_whole h
      obtain ⟨l, h1, rfl, h2⟩ := pFuncDependencies_exact_sound h
      have hx : ∃ n ds, x = .funcDependencies n ds := by
        unfold pFuncDependencies at h
        simp only [pmap_ok] at h
        obtain ⟨⟨d, ds⟩, _, rfl⟩ := h
        exact ⟨_, _, rfl⟩
      obtain ⟨n, ds, rfl⟩ := hx
      refine ⟨l, [], [], .plain (by simp) (plain (by simp) h1), by simp, (by intro t ht; cases ht), fun _ => ?_, .nil⟩
      cases ds with
      | nil => exact h2 rfl
      | cons d ds =>
        intro c y sp r' hr
        obtain ⟨n', hx⟩ := hw _ _ _ _ hr
        cases hx
  · obtain ⟨rfl, n, e, d, eol, hd, rfl, rfl, h1⟩ := pDbgAnnotation_ok.mp h
    exact ⟨_, eol, [], .plain (by simp) (.dbgAnnotation hd), rfl, (hfin eol h1).1, (hfin eol h1).2, .nil⟩

theorem stmtAt_complete {x odd l} {nls : List Tok} (h : StmtAt x odd l (nls ++ r)) (hn : Newlines nls)
    (hr : nls = [] → StmtEnds x r) :
    ∃ nls' es, Complaints es odd ∧ Newlines nls' ∧ Ok pStatement eoi (l ++ (nls ++ r)) es x (nls' ++ r) := by
  cases h with
  | @funcDef k sg sl b o bl _ hs hb =>
    obtain ⟨nls', hn', heol, _, _⟩ := eol_ok (eoi := eoi) hn hr
    have e : (Token.define, k) :: sl ++ bl ++ (nls ++ r) = (Token.define, k) :: (sl ++ (bl ++ (nls ++ r))) := by simp
    rw [e]
    obtain ⟨es, hc, hb'⟩ := bodyAt_complete (eoi := eoi) hb
    refine ⟨nls', es, hc, hn', ?_⟩
    unfold pStatement
    refine por_ok_left_any (por_ok_left_any (por_ok_right (por_fails.mpr ⟨
      pGlobalVar_fails_of (by simp), pFuncDecl_fails_of (by simp)⟩) ?_) (pFuncDependencies_fails_of (by simp)))
      (fails_of_not_ok pDbgAnnotation_noPanic ?_)
    · unfold pFuncDef
      refine pmap_ok.mpr ⟨((k, sg), b), ?_, rfl⟩
      simp only [thenIgnore_ok, pthen_ok, justSpan_ok, pFuncSignature_ok]
      exact ⟨es, [], _, _, ⟨[], es, _, ⟨[], [], _, ⟨rfl, k, rfl, rfl⟩, ⟨rfl, sl, hs, rfl⟩, rfl⟩, hb', rfl⟩, heol, by simp⟩
    · intro es x r h
      obtain ⟨_, n, e, d, eol, _, _, h, _⟩ := pDbgAnnotation_ok.mp h
      simp [dbgTok] at h
  | plain hnd h =>
    have hr1 : nls = [] → r = [] ∨ Continues x r := by
      intro hnl
      have := hr hnl
      cases x with
      | funcDependencies n ds =>
        right
        rintro rfl
        exact this
      | _ => exact .inl this
    obtain ⟨nls', h1, h2⟩ := pStatement_plain_complete (eoi := eoi) hnd h hn hr1 (by
      rintro hnl n d ds rfl
      exact hr hnl)
    exact ⟨nls', [], .nil, h1, h2⟩

/-! ### Statements with the line ends around them -/

theorem stmtAt_head {x odd l} (h : StmtAt x odd l r) : ∃ t l', l = t :: l' ∧ t.1 ≠ .newline := by
  cases h with
  | funcDef => exact ⟨_, _, rfl, by simp⟩
  | plain _ h => cases h <;> exact ⟨_, _, rfl, by simp [globalTok, dbgTok]⟩

theorem foundAt_sound {x} (h : Ok pPaddedStatement eoi s es x r) :
    ∃ l odd, s = l ++ r ∧ ReadAt x odd l r ∧ Complaints es odd := by
  unfold pPaddedStatement at h
  obtain ⟨e1, e2, e3, m, m', y, z, h1, h2, h3, rfl⟩ := paddedBy_ok.mp h
  obtain ⟨rfl, nls, hn, rfl, _, _⟩ := newlines_ok.mp h1
  obtain ⟨l, eol, odd, hl, rfl, he, he', hc⟩ := stmtAt_sound h2
  obtain ⟨rfl, nls', hn', rfl, _, h5⟩ := newlines_ok.mp h3
  refine ⟨nls ++ l ++ (eol ++ nls'), odd, by simp, ⟨nls, l, eol ++ nls', hn, by simpa using hl, newlines_append he hn', rfl, ?_, h5⟩,
    by simpa using hc⟩
  intro h
  obtain ⟨rfl, rfl⟩ := List.append_eq_nil_iff.mp h
  simpa using he' rfl

theorem foundAt_complete {x odd l} (h : ReadAt x odd l r) :
    ∃ es, Complaints es odd ∧ Ok pPaddedStatement eoi (l ++ r) es x r := by
  obtain ⟨nls, body, nls', h1, h2, h3, rfl, h4, h5⟩ := h
  have e : nls ++ body ++ nls' ++ r = nls ++ (body ++ (nls' ++ r)) := by simp
  rw [e]
  obtain ⟨nls'', es, hc, h6, h7⟩ := stmtAt_complete (eoi := eoi) h2 h3 h4
  refine ⟨es, hc, ?_⟩
  unfold pPaddedStatement
  refine paddedBy_ok.mpr ⟨[], es, [], _, _, _, _, newlines_ok.mpr ⟨rfl, nls, h1, rfl, rfl, ?_⟩,
    h7, newlines_ok.mpr ⟨rfl, nls'', h6, rfl, rfl, h5⟩, by simp⟩
  intro sp r' h'
  obtain ⟨t, l', rfl, h8⟩ := stmtAt_head h2
  injection h' with h' _
  exact h8 (by rw [h'])

theorem notFound_fails : Fails pPaddedStatement eoi s ↔ ∀ x o l r, s = l ++ r → ¬ ReadAt x o l r := by
  constructor
  · rintro h x o l r rfl hx
    obtain ⟨es, _, h1⟩ := foundAt_complete (eoi := eoi) hx
    exact h1.not_fails h
  · intro h
    refine fails_of_not_ok pPaddedStatement_noPanic ?_
    intro es x r h'
    obtain ⟨l, o, hs, hx, _⟩ := foundAt_sound h'
    exact h x o l r hs hx

/-! ### Documents -/

theorem barrenAt_fails {g : List Tok} :
    BarrenAt g r ↔ g ≠ [] ∧ ∀ a b, g = a ++ b → b ≠ [] → Fails pPaddedStatement eoi (b ++ r) := by
  unfold BarrenAt
  refine and_congr_right fun _ => ?_
  constructor
  · rintro h a b rfl hb
    exact notFound_fails.mpr (h a b rfl hb)
  · rintro h a b rfl hb
    exact notFound_fails.mp (h a b rfl hb)

theorem foundAt_ne {x o l} (h : ReadAt x o l r) : l ≠ [] := by
  obtain ⟨nls, body, nls', _, h2, _, rfl, _⟩ := h
  obtain ⟨t, l', rfl, _⟩ := stmtAt_head h2
  simp

/-- Every sequence of tokens has a layout. -/
theorem layout_total : ∀ (n : Nat) (l : List Tok), l.length ≤ n → ∃ ss o gs w, Layout ss o gs w l := by
  intro n
  induction n with
  | zero =>
    intro l hl
    obtain rfl := List.length_eq_zero_iff.mp (Nat.le_zero.mp hl)
    exact ⟨[], [], [], true, .done⟩
  | succ n ih =>
    intro l hl
    have split : ∀ l : List Tok, (∀ a b, l = a ++ b → b ≠ [] → ∀ x o l1 r, b = l1 ++ r → ¬ ReadAt x o l1 r) ∨
        ∃ g x o l1 r, l = g ++ (l1 ++ r) ∧ ReadAt x o l1 r ∧
          ∀ a b, g = a ++ b → b ≠ [] → ∀ x o l2 r', b ++ (l1 ++ r) = l2 ++ r' → ¬ ReadAt x o l2 r' := by
      intro l
      induction l with
      | nil =>
        left
        intro a b h hb
        simp at h
        exact absurd h.2 hb
      | cons t l ihl =>
        by_cases h : ∃ x o l1 r, t :: l = l1 ++ r ∧ ReadAt x o l1 r
        · obtain ⟨x, o, l1, r, h1, h2⟩ := h
          right
          refine ⟨[], x, o, l1, r, h1, h2, ?_⟩
          intro a b h hb
          simp at h
          exact absurd h.2 hb
        · rcases ihl with ihl | ⟨g, x, o, l1, r, rfl, h2, h3⟩
          · left
            intro a b hab hb x o l1 r h1 h2
            cases a with
            | nil => exact h ⟨x, o, l1, r, by rw [← h1, hab]; rfl, h2⟩
            | cons t' a => injection hab with _ hab; exact ihl a b hab hb x o l1 r h1 h2
          · right
            refine ⟨t :: g, x, o, l1, r, rfl, h2, ?_⟩
            intro a b hab hb y o' l2 r' h1 h4
            cases a with
            | nil =>
              simp only [List.nil_append] at hab
              subst hab
              exact h ⟨y, o', l2, r', h1, h4⟩
            | cons t' a => injection hab with _ hab; exact h3 a b hab hb y o' l2 r' h1 h4
    rcases split l with h | ⟨g, x, o, l1, r, rfl, h2, h3⟩
    · by_cases hl0 : l = []
      · subst hl0; exact ⟨[], [], [], true, .done⟩
      · exact ⟨[], [], [l], false, .lost ⟨hl0, fun a b hab hb x o l1 r h1 => h a b hab hb x o l1 r (by simpa using h1)⟩⟩
    · have := foundAt_ne h2
      have hlen : 0 < l1.length := List.length_pos_iff.mpr this
      obtain ⟨ss, o', k, w, h4⟩ := ih r (by simp at hl; omega)
      by_cases hg : g = []
      · subst hg
        rw [List.nil_append]
        exact ⟨_, _, _, _, .stmt h2 h4⟩
      · exact ⟨_, _, _, _, .skip ⟨hg, h3⟩ h2 h4⟩

theorem Complaints.isOdd {es odd} (h : Complaints es odd) : ∀ e ∈ es, IsOdd e := by
  intro e he
  have : ({ e with rem := 0 } : LErr Token) ∈ odd.map oddErr := by
    rw [← h]; exact List.mem_map.mpr ⟨e, he, rfl⟩
  obtain ⟨m, _, hm⟩ := List.mem_map.mp this
  have := congrArg LErr.reason hm
  exact this.symm

/-- The errors that are not about mnemonics. -/
def others (es : List (LErr Token)) : List (LErr Token) := es.filter fun e => !decide (e.reason = .custom oddMessage)

theorem others_append {a b : List (LErr Token)} : others (a ++ b) = others a ++ others b := List.filter_append _ _

theorem others_odd {a : List (LErr Token)} (h : ∀ e ∈ a, IsOdd e) : others a = [] := by
  unfold others
  rw [List.filter_eq_nil_iff]
  intro e he
  have : e.reason = .custom oddMessage := h e he
  simp [this]

theorem others_single {e : LErr Token} (h : ¬ IsOdd e) : others [e] = [e] := by
  unfold others
  have : ¬ e.reason = .custom oddMessage := h
  simp [this]

theorem skips_barren {p : P Token Statement} {g R : List Tok} (hg : ∀ a b, g = a ++ b → b ≠ [] → Fails p eoi (b ++ R)) (hg0 : g ≠ []) :
    Skips p eoi (g ++ R) R := by
  induction g with
  | nil => exact absurd rfl hg0
  | cons t g ih =>
    by_cases h : g = []
    · subst h; exact .one
    · refine .cons ?_ (ih (fun a b hab hb => hg (t :: a) b (by rw [hab]; rfl) hb) h)
      exact hg [t] g rfl h

/-- What the parser makes of the tokens. -/
theorem many_docItem_layout {ss o gs w l} (h : Layout ss o gs w l) :
    ∃ es r gs', Many docItem eoi l es ss r ∧ (w = true → r = [] ∧ gs = gs') ∧ (w = false → r ≠ [] ∧ gs = gs' ++ [r]) ∧
      Each (fun e g => AtTok eoi g e) (others es) gs' ∧
      (o.map oddErr).Sublist (es.map fun e => { e with rem := 0 }) ∧ (gs' = [] → Complaints es o) := by
  induction h with
  | done => exact ⟨[], [], [], .nil docItem_nil, by simp, by simp, .nil, .slnil, fun _ => .nil⟩
  | @lost g h =>
    have h' := (barrenAt_fails (eoi := eoi) (r := [])).mp h
    refine ⟨[], g, [], .nil ?_, by simp, fun _ => ⟨h.1, rfl⟩, .nil, .slnil, fun _ => .nil⟩
    refine (recoverSkip_fails pPaddedStatement_noPanic).mpr ⟨by simpa using h'.2 [] g rfl h.1, ?_⟩
    intro s' hs
    obtain ⟨g', _, rfl⟩ := hs.suffix
    by_cases hs' : s' = []
    · subst hs'
      refine notFound_fails.mpr ?_
      intro x o l r hl hx
      simp at hl
      exact foundAt_ne hx hl.1
    · simpa using h'.2 g' s' rfl hs'
  | @stmt x ss o o' gs w l r h1 _ ih =>
    obtain ⟨es, r', gs', h2, h3, h4, h5, h6, h7⟩ := ih
    obtain ⟨es1, hc, h8⟩ := foundAt_complete (eoi := eoi) h1
    refine ⟨es1 ++ es, r', gs', .cons (recoverSkip_ok.mpr (.inl h8)) h2, h3, h4, ?_, ?_, fun h => hc.append (h7 h)⟩
    · rw [others_append, others_odd hc.isOdd]
      exact h5
    · rw [List.map_append, List.map_append]
      refine List.Sublist.append ?_ h6
      rw [hc]
      exact List.Sublist.refl _
  | @skip x ss o o' gs w g l r hg h1 _ ih =>
    obtain ⟨es, r', gs', h2, h3, h4, h5, h6, h7⟩ := ih
    obtain ⟨es1, hc, h8⟩ := foundAt_complete (eoi := eoi) h1
    obtain ⟨hg0, hg'⟩ := (barrenAt_fails (eoi := eoi)).mp hg
    have hs := skips_barren hg' hg0
    obtain ⟨es0, e, hf⟩ := hg' [] g rfl hg0
    have hfair := fair_pPaddedStatement eoi (g ++ (l ++ r))
    rw [hf] at hfair
    refine ⟨(es0 ++ [e] ++ es1) ++ es, r', (g ++ (l ++ r)) :: gs', .cons (recoverSkip_ok.mpr (.inr ⟨es0, e, l ++ r, es1, hf, hs, h8, rfl⟩)) h2, ?_, ?_, ?_, ?_, by simp⟩
    · intro hw; exact ⟨(h3 hw).1, by rw [(h3 hw).2]⟩
    · intro hw; exact ⟨(h4 hw).1, by rw [(h4 hw).2]; rfl⟩
    · rw [others_append, others_append, others_append, others_odd hc.isOdd, others_odd hfair.1, others_single hfair.2.1]
      exact .cons hfair.2 h5
    · rw [List.map_append, List.map_append]
      refine List.Sublist.append ?_ h6
      rw [List.map_append, hc]
      exact List.sublist_append_right _ _

/-! ### There is only one layout -/

theorem foundAt_unique {x x' o o' l l' r'} (h : ReadAt x o l r) (h' : ReadAt x' o' l' r') (he : l ++ r = l' ++ r') :
    x = x' ∧ o = o' ∧ l = l' ∧ r = r' := by
  obtain ⟨es, hc, h1⟩ := foundAt_complete (eoi := ⟨0, 0⟩) h
  obtain ⟨es', hc', h2⟩ := foundAt_complete (eoi := ⟨0, 0⟩) h'
  rw [← he] at h2
  obtain ⟨rfl, hx, hr⟩ := h1.det h2
  subst hr
  exact ⟨hx, hc.unique hc', List.append_cancel_right he, rfl⟩

theorem barrenAt_unique {g g' l r l' r' : List Tok} {x x' : Statement} {o o'} (hg : g = [] ∨ BarrenAt g (l ++ r))
    (hg' : g' = [] ∨ BarrenAt g' (l' ++ r')) (h : ReadAt x o l r) (h' : ReadAt x' o' l' r')
    (he : g ++ (l ++ r) = g' ++ (l' ++ r')) : g = g' := by
  have key : ∀ {g c l r l' r' : List Tok} {x : Statement} {o}, (g ++ c = [] ∨ BarrenAt (g ++ c) (l' ++ r')) →
      ReadAt x o l r → l ++ r = c ++ (l' ++ r') → c = [] := by
    intro g c l r l' r' x o hg h he
    by_cases hc : c = []
    · exact hc
    · rcases hg with hg | hg
      · simp [hc] at hg
      · exact absurd h (hg.2 g c rfl hc x o l r he.symm)
  rcases List.append_eq_append_iff.mp he with ⟨c, rfl, h2⟩ | ⟨c, rfl, h2⟩
  · rw [key hg' h h2]; simp
  · rw [key hg h' h2]; simp

theorem layout_unique {ss o gs w l} (h : Layout ss o gs w l) :
    ∀ {ss' o' gs' w' l'}, l = l' → Layout ss' o' gs' w' l' →
      ss = ss' ∧ o = o' ∧ gs = gs' ∧ w = w' := by
  have lost : ∀ {g h l r : List Tok} {x : Statement} {o}, BarrenAt g [] → ReadAt x o l r → g = h ++ (l ++ r) → False := by
    rintro g h l r x o ⟨_, hg⟩ hx rfl
    exact hg h (l ++ r) rfl (by simp [foundAt_ne hx]) x o l r (by simp) hx
  induction h with
  | done =>
    intro ss' o' gs' w' l' he h'
    cases h' with
    | done => exact ⟨rfl, rfl, rfl, rfl⟩
    | lost hg => exact absurd he.symm hg.1
    | stmt hx _ => exact absurd (List.append_eq_nil_iff.mp he.symm).1 (foundAt_ne hx)
    | skip hg _ _ => exact absurd (List.append_eq_nil_iff.mp he.symm).1 hg.1
  | @lost g hg =>
    intro ss' o' gs' w' l' he h'
    cases h' with
    | done => exact absurd he hg.1
    | lost => subst he; exact ⟨rfl, rfl, rfl, rfl⟩
    | stmt hx _ => exact (lost (h := []) hg hx he).elim
    | skip _ hx _ => exact (lost hg hx he).elim
  | @stmt x ss o o1 gs w l r hx _ ih =>
    intro ss' o' gs' w' l' he h'
    cases h' with
    | done => exact absurd (List.append_eq_nil_iff.mp he).1 (foundAt_ne hx)
    | lost hg => exact (lost (h := []) hg hx he.symm).elim
    | stmt hx' hr =>
      obtain ⟨rfl, h1, rfl, rfl⟩ := foundAt_unique hx hx' he
      obtain ⟨rfl, h2, rfl, rfl⟩ := ih rfl hr
      exact ⟨rfl, by simp [h1, h2], rfl, rfl⟩
    | skip hg hx' _ => exact absurd (barrenAt_unique (g := []) (.inl rfl) (.inr hg) hx hx' he).symm hg.1
  | @skip x ss o o1 gs w g l r hg hx _ ih =>
    intro ss' o' gs' w' l' he h'
    cases h' with
    | done => exact absurd (List.append_eq_nil_iff.mp he).1 hg.1
    | lost hg' => exact (lost hg' hx he.symm).elim
    | stmt hx' hr => exact absurd (barrenAt_unique (g' := []) (.inr hg) (.inl rfl) hx hx' he) hg.1
    | skip hg' hx' hr =>
      obtain rfl := barrenAt_unique (.inr hg) (.inr hg') hx hx' he
      obtain ⟨rfl, h1, rfl, rfl⟩ := foundAt_unique hx hx' (List.append_cancel_left he)
      obtain ⟨rfl, h2, rfl, rfl⟩ := ih rfl hr
      exact ⟨rfl, by simp [h1, h2], rfl, rfl⟩

end

end HyperIR
