import Verif.Proofs.ParserComplete
import Verif.Spec.Exact

/- The parser (src/hir_parser.rs:74-426) accepts exactly the documents of the grammar `DocX`. -/

namespace HyperIR
open Spec

/-! ### Unglued tokens -/

theorem Spec.Unglued.suffix {a b : List Tok} (h : Unglued (a ++ b)) : Unglued b := by
  obtain ⟨h1, h2, h3⟩ := h
  refine ⟨?_, ?_, ?_⟩
  · rintro x c nl y rfl; exact h1 (a ++ x) c nl y (by simp)
  · rintro x c nl y rfl; exact h2 (a ++ x) c nl y (by simp)
  · rintro x nl k e y rfl; exact h3 (a ++ x) nl k e y (by simp)

theorem Spec.Unglued.tail {t : Tok} {b : List Tok} (h : Unglued (t :: b)) : Unglued b := Unglued.suffix (a := [t]) h

theorem Spec.Unglued.assoc3 {t : Tok} {a b c e : List Tok} (h : Unglued (t :: a ++ b ++ c ++ e)) :
    Unglued (a ++ (b ++ (c ++ e))) := by
  simp only [List.append_assoc, List.cons_append] at h
  exact h.tail

theorem Spec.Unglued.assoc4 {t : Tok} {a b c d e : List Tok} (h : Unglued (t :: a ++ b ++ c ++ d ++ e)) :
    Unglued (a ++ (b ++ (c ++ (d ++ e)))) := by
  simp only [List.append_assoc, List.cons_append] at h
  exact h.tail

theorem operands_oneLine {kw : Str} {ops : List Tok} (h : Operands kw ops) : ∀ {rest : List Tok},
    Unglued (ops ++ rest) → OneLine ops := by
  induction h with
  | nil => intro _ _ t ht; cases ht
  | tok _ h2 _ ih =>
    intro rest ht x hx
    rcases List.mem_cons.mp hx with rfl | hx
    · exact h2
    · exact ih ht.tail x hx
  | @comma c t l h1 _ ih =>
    intro rest ht x hx
    rcases List.mem_cons.mp hx with rfl | hx
    · simp
    · rcases List.mem_cons.mp hx with rfl | hx
      · obtain ⟨t, sp⟩ := x
        rintro rfl
        exact ht.1 [] c sp (l ++ rest) rfl
      · exact ih ht.tail.tail x hx

theorem oneLine_append {a b : List Tok} (ha : OneLine a) (hb : OneLine b) : OneLine (a ++ b) := by
  intro t ht
  rcases List.mem_append.mp ht with h | h
  · exact ha t h
  · exact hb t h

theorem oneLine_dbg (d : Option (Spanned Str)) : OneLine (dbgToks d) := by
  cases d <;> simp [OneLine, dbgToks, dbgTok]

theorem cases_oneLine {ts : List (Spanned Str)} {l : List Tok} (h : CommaSep CaseG ts l) : ∀ {rest : List Tok},
    Unglued (l ++ rest) → OneLine l := by
  have one : ∀ {x : Spanned Str} {l rest : List Tok}, CaseG x l → Unglued (l ++ rest) → OneLine l := by
    rintro x _ rest ⟨ty, ⟨v, sp⟩, k, e, rfl⟩ ht y hy
    simp [typeTok, identTok] at hy
    rcases hy with rfl | rfl | rfl | rfl | rfl <;> try simp
    rintro rfl
    exact ht.2.2 [typeTok ty] sp k e ([identTok x] ++ rest) (by simp)
  induction h with
  | nil => intro _ _ t ht; cases ht
  | one h1 => intro rest ht; exact one h1 ht
  | @cons x l sp y ys l' h1 _ ih =>
    intro rest ht
    simp only [List.append_assoc, List.cons_append] at ht
    refine oneLine_append (one h1 ht) ?_
    intro t h
    rcases List.mem_cons.mp h with rfl | h
    · simp
    · exact ih ht.suffix.tail t h

theorem edges_oneLine {ts : List (Spanned Str)} {l : List Tok} (h : CommaSep EdgeG ts l) : OneLine l := by
  have one : ∀ {x : Spanned Str} {l : List Tok}, EdgeG x l → OneLine l := by
    rintro x _ ⟨o, c, vs, e, h, rfl⟩ y hy
    simp [identTok] at hy
    rcases hy with rfl | rfl | rfl | hy | rfl <;> try simp
    exact (h y hy).2
  induction h with
  | nil => intro t ht; cases ht
  | one h1 => exact one h1
  | cons h1 _ ih =>
    refine oneLine_append (one h1) ?_
    intro t h
    rcases List.mem_cons.mp h with rfl | h
    · simp
    · exact ih t h

/-- On tidy lines the documented forms do not cross the end of a line. -/
theorem known_oneLine {m ts d l} (h : Documented m ts d l) {rest : List Tok} (ht : Unglued (l ++ rest)) : OneLine l := by
  cases h with
  | br => exact oneLine_append (by simp [OneLine, identTok]) (oneLine_dbg _)
  | @condBr k i v c t c' e =>
    refine oneLine_append ?_ (oneLine_dbg _)
    intro x hx
    simp [identTok] at hx
    rcases hx with rfl | rfl | rfl | rfl | rfl | rfl | rfl <;> try simp
    obtain ⟨v, sp⟩ := x
    rintro rfl
    exact ht.2.1 [(.ident c!"br", k), (.type c!"int1", i)] sp c _ rfl
  | overflowBr _ ho =>
    refine oneLine_append (oneLine_append ?_ ?_) (oneLine_dbg _)
    · intro x hx
      rcases List.mem_cons.mp hx with rfl | hx
      · simp [identTok]
      · exact operands_oneLine ho (Unglued.assoc3 ht) x hx
    · simp [OneLine, identTok]
  | switch ho hc =>
    refine oneLine_append (oneLine_append (oneLine_append ?_ ?_) ?_) (oneLine_dbg _)
    · intro x hx
      rcases List.mem_cons.mp hx with rfl | hx
      · simp
      · exact operands_oneLine ho (Unglued.assoc4 ht) x hx
    · simp [OneLine, identTok]
    · exact cases_oneLine hc (Unglued.assoc4 ht).suffix.suffix
  | phi hc =>
    refine oneLine_append ?_ (oneLine_dbg _)
    intro x hx
    rcases List.mem_cons.mp hx with rfl | hx
    · simp
    · exact edges_oneLine hc x hx

/-- The first line end of the tokens. -/
theorem oneLine_unique {a b : List Tok} {sp sp' x y} (ha : OneLine a) (hb : OneLine b)
    (h : a ++ (.newline, sp) :: x = b ++ (.newline, sp') :: y) : a = b := by
  induction a generalizing b with
  | nil =>
    cases b with
    | nil => rfl
    | cons t b => injection h with h _; subst h; exact absurd rfl (hb _ List.mem_cons_self)
  | cons t a ih =>
    cases b with
    | nil => injection h with h _; subst h; exact absurd rfl (ha _ List.mem_cons_self)
    | cons t' b =>
      injection h with h1 h2
      subst h1
      rw [ih (fun t ht => ha t (List.mem_cons_of_mem _ ht)) (fun t ht => hb t (List.mem_cons_of_mem _ ht)) h2]

section
variable {eoi : Span} {s r : List Tok} {es : List (LErr Token)}

/-! ### Instructions without assignment -/

theorem known_complete {m ts d l} (h : Documented m ts d l) (hone : OneLine l) {nl r'} :
    Ok pInstructionKind eoi (l ++ (.newline, nl) :: r') [] ⟨none, m, ts, d, hull l⟩ ((.newline, nl) :: r') := by
  unfold pInstructionKind
  cases h with
  | @br k t d =>
    exact por_ok_left (por_ok_left (por_ok_left (por_ok_left (por_ok_left (pBr_ok.mpr
      ⟨rfl, k, t, d, nl, r', rfl, rfl, rfl⟩)))))
  | @condBr k i v c t c' e d =>
    refine por_ok_left (por_ok_left (por_ok_left (por_ok_left (por_ok_right ?_ (pCondBr_ok.mpr
      ⟨rfl, k, i, v, c, t, c', e, d, nl, r', rfl, rfl, rfl⟩)))))
    refine fails_of_not_ok pBr_noPanic ?_
    intro es i r h'
    obtain ⟨_, k, t, d', nl', r'', _, h, _⟩ := pBr_ok.mp h'
    simp [identTok] at h
  | @overflowBr m ops c k e t c' k' e' t' d hm ho =>
    rw [isBr_iff] at hm
    have hok := (pOverflowBr_ok (eoi := eoi) (es := [])).mpr ⟨m, ops, c, k, e, t, c', k', e', t', d, nl, r', rfl, ho, rfl, rfl,
      .inl ⟨hm, rfl⟩⟩
    have hlen : 8 < (identTok m :: ops ++ overflowTail c k e t c' k' e' t' ++ dbgToks d).length := by
      simp [overflowTail]; omega
    have hone' : OneLine (identTok m :: ops ++ overflowTail c k e t c' k' e' t' ++ dbgToks d) := hone
    refine por_ok_left (por_ok_left (por_ok_left (por_ok_right ?_ hok)))
    rw [por_fails]
    constructor
    · refine fails_of_not_ok pBr_noPanic ?_
      intro es i r h'
      obtain ⟨_, k', t'', d', nl', r'', rfl, h, _⟩ := pBr_ok.mp h'
      refine newline_not_inside h hone' (Nat.lt_of_le_of_lt ?_ hlen)
      cases d' <;> simp [dbgToks]
    · refine fails_of_not_ok pCondBr_noPanic ?_
      intro es i r h'
      obtain ⟨_, k', ti, v, c, t'', c', e, d', nl', r'', rfl, h, _⟩ := pCondBr_ok.mp h'
      refine newline_not_inside h hone' (Nat.lt_of_le_of_lt ?_ hlen)
      cases d' <;> simp [dbgToks]
  | @switch k ops c k' e t c' ts cases d ho hc =>
    have hok := (pSwitch_ok (eoi := eoi) (es := [])).mpr ⟨rfl, k, ops, c, k', e, t, c', ts, cases, d, nl, r', rfl, ho, hc, rfl, rfl⟩
    exact por_ok_left (por_ok_left (kind_right (m := (c!"switch", k)) (pBr_fails_of (by simp [identTok]))
      (pCondBr_fails_of (by simp [identTok])) (show endsWith c!"switch" c!"br" = false by decide) hok))
  | @phi k ts lc d hc =>
    have hok := (pPhi_ok (eoi := eoi) (es := [])).mpr ⟨rfl, k, ts, lc, d, nl, r', rfl, hc, rfl, rfl⟩
    have h1 := pBr_fails_of (eoi := eoi) (s := (.ident c!"phi", k) :: lc ++ dbgToks d ++ (.newline, nl) :: r') (by simp)
    have h2 := pCondBr_fails_of (eoi := eoi) (s := (.ident c!"phi", k) :: lc ++ dbgToks d ++ (.newline, nl) :: r') (by simp)
    have h3 := pSwitch_fails_of (eoi := eoi) (s := (.ident c!"phi", k) :: lc ++ dbgToks d ++ (.newline, nl) :: r') (by simp)
    rcases pOverflowBr_not_clean (m := (c!"phi", k)) (eoi := eoi) (s := lc ++ dbgToks d ++ (.newline, nl) :: r')
        (show endsWith c!"phi" c!"br" = false by decide) with h4 | ⟨e, j, r'', h4⟩
    · exact por_ok_left (por_ok_right (por_fails.mpr ⟨por_fails.mpr ⟨por_fails.mpr ⟨h1, h2⟩, h4⟩, h3⟩) hok)
    · exact por_ok_left (por_ok_right_clean (por_ok_left_dirty (por_ok_right (por_fails.mpr ⟨h1, h2⟩) h4) h3) hok)

theorem kind_sound (ht : Unglued s) {i} (h : Ok pInstructionKind eoi s [] i r) :
    ∃ l nl r', r = (.newline, nl) :: r' ∧ s = l ++ r ∧ LineX i.instruction i.basicBlockRefs i.dbgRef l ∧
      i = ⟨none, i.instruction, i.basicBlockRefs, i.dbgRef, hull l⟩ := by
  have fin : ∀ {m ts d l nl r'}, Documented m ts d l → r = (.newline, nl) :: r' → s = l ++ r →
      i = ⟨none, m, ts, d, hull l⟩ → ∃ l nl r', r = (.newline, nl) :: r' ∧ s = l ++ r ∧
        LineX i.instruction i.basicBlockRefs i.dbgRef l ∧
        i = ⟨none, i.instruction, i.basicBlockRefs, i.dbgRef, hull l⟩ := by
    rintro m ts d l nl r' hk rfl rfl rfl
    exact ⟨l, nl, r', rfl, rfl, .known hk (known_oneLine hk ht), rfl⟩
  have h0 := h
  unfold pInstructionKind at h
  rcases por_ok_inv h with h | h
  · rcases por_ok_inv h with h | h
    · rcases por_ok_inv h with h | h
      · rcases por_ok_inv h with h | h
        · rcases por_ok_inv h with h | h
          · obtain ⟨_, k, t, d, nl, r', hr, hs, hi⟩ := pBr_ok.mp h
            exact fin .br hr hs hi
          · obtain ⟨_, k, ti, v, c, t, c', e, d, nl, r', hr, hs, hi⟩ := pCondBr_ok.mp h
            exact fin .condBr hr hs hi
        · obtain ⟨m, ops, c, k, e, t, c', k', e', t', d, nl, r', hr, ho, hs, hi, h4⟩ := pOverflowBr_ok.mp h
          rcases h4 with ⟨h4, _⟩ | ⟨_, err, h5, _⟩
          · exact fin (.overflowBr (isBr_iff.mpr h4) ho) hr hs hi
          · cases h5
      · obtain ⟨_, k, ops, c, k', e, t, c', ts, cases, d, nl, r', hr, ho, hc, hs, hi⟩ := pSwitch_ok.mp h
        exact fin (.switch ho hc) hr hs hi
    · obtain ⟨_, k, ts, edges, d, nl, r', hr, hc, hs, hi⟩ := pPhi_ok.mp h
      exact fin (.phi hc) hr hs hi
  · obtain ⟨_, m, ops, d, nl, r', hr, ho, hc, hs, hi⟩ := pAnyInstruction_ok.mp h
    have hone : OneLine (identTok m :: ops ++ dbgToks d) := by
      refine oneLine_append ?_ (oneLine_dbg _)
      intro x hx
      rcases List.mem_cons.mp hx with rfl | hx
      · simp [identTok]
      · exact (ho x hx).1
    by_cases hk : ∃ m' ts d', Documented m' ts d' (identTok m :: ops ++ dbgToks d)
    · obtain ⟨m', ts, d', hk⟩ := hk
      have := known_complete (eoi := eoi) hk hone (nl := nl) (r' := r')
      rw [← hr, ← hs] at this
      exact fin hk hr hs (h0.det this).2.1
    · subst hr hs hi
      exact ⟨_, nl, r', rfl, rfl, .other ho hc (fun m' ts d' h => hk ⟨m', ts, d', h⟩), rfl⟩

/-- If the second alternative succeeds without an error, so does the choice. -/
theorem por_ok_some {α : Type} {a b : P Token α} (ha : NoPanic a) {x} (h : Ok b eoi s [] x r) :
    ∃ y r', Ok (por a b) eoi s [] y r' := by
  rcases ha.cases eoi s with ⟨es, y, r', h'⟩ | h'
  · cases es with
    | nil => exact ⟨y, r', por_ok_left h'⟩
    | cons e es => exact ⟨x, r, por_ok_right_clean h' h⟩
  · exact ⟨x, r, por_ok_right h' h⟩

theorem dbg_unique {ops ops' : List Tok} {d d' : Option (Spanned Str)}
    (h : ∀ t ∈ ops, ∀ s, t.1 ≠ .debugRef s) (h' : ∀ t ∈ ops', ∀ s, t.1 ≠ .debugRef s)
    (he : ops ++ dbgToks d = ops' ++ dbgToks d') : d = d' := by
  have key : ∀ {ops : List Tok} {d : Option (Spanned Str)}, (∀ t ∈ ops, ∀ s, t.1 ≠ .debugRef s) →
      (ops ++ dbgToks d).filterMap (fun t => match t.1 with | .debugRef x => some (x, t.2) | _ => none) = d.toList := by
    intro ops d h
    rw [List.filterMap_append, List.filterMap_eq_nil_iff.mpr ?_]
    · cases d <;> simp [dbgToks, dbgTok]
    · intro t ht
      split
      · rename_i x hx
        exact absurd hx (h t ht x)
      · rfl
  have h1 := key (d := d) h
  rw [he, key h'] at h1
  cases d <;> cases d' <;> simp_all

theorem kind_complete {m ts d l} (h : LineX m ts d l) {nl r'} (ht : Unglued (l ++ (.newline, nl) :: r')) :
    Ok pInstructionKind eoi (l ++ (.newline, nl) :: r') [] ⟨none, m, ts, d, hull l⟩ ((.newline, nl) :: r') := by
  cases h with
  | known h1 h2 => exact known_complete h1 h2
  | @other ops d ho hc hk =>
    have hone : OneLine (identTok m :: ops ++ dbgToks d) := by
      refine oneLine_append ?_ (oneLine_dbg _)
      intro x hx
      rcases List.mem_cons.mp hx with rfl | hx
      · simp [identTok]
      · exact (ho x hx).1
    have hok := (pAnyInstruction_ok (eoi := eoi) (es := [])).mpr ⟨rfl, m, ops, d, nl, r', rfl, ho, hc, rfl, rfl⟩
    have hn : NoPanic (por (por (por (por pBr pCondBr) pOverflowBr) pSwitch) pPhi) :=
      por_noPanic (por_noPanic (por_noPanic (por_noPanic pBr_noPanic pCondBr_noPanic) pOverflowBr_noPanic)
        pSwitch_noPanic) pPhi_noPanic
    obtain ⟨j, rj, hj⟩ := por_ok_some hn hok
    change Ok pInstructionKind _ _ _ _ _ at hj
    obtain ⟨l', nl', r'', rfl, he, hl', hj'⟩ := kind_sound ht hj
    have hone' : OneLine l' := by
      generalize j.instruction = a at hl'
      generalize j.basicBlockRefs = b at hl'
      generalize j.dbgRef = c at hl'
      cases hl' with
      | known _ h => exact h
      | other ho' =>
        refine oneLine_append ?_ (oneLine_dbg _)
        intro x hx
        rcases List.mem_cons.mp hx with rfl | hx
        · simp [identTok]
        · exact (ho' x hx).1
    obtain rfl := oneLine_unique hone hone' he
    obtain ⟨h1, h2⟩ := List.cons.inj (List.append_cancel_left he)
    injection h1 with _ h1
    subst h1 h2
    have : j = ⟨none, m, [], d, hull (identTok m :: ops ++ dbgToks d)⟩ := by
      rw [hj']
      generalize j.instruction = m' at hl'
      generalize j.basicBlockRefs = b at hl'
      generalize j.dbgRef = c at hl'
      clear hj' hj hok
      generalize hq : identTok m :: ops ++ dbgToks d = q at hl' ⊢
      cases hl' with
      | known h _ => exact absurd (hq ▸ h) (hk _ _ _)
      | @other ops' d' ho' =>
        injection hq with hq1 hq2
        have e1 : m = m' := by
          obtain ⟨a, b⟩ := m
          obtain ⟨a', b'⟩ := m'
          simpa [identTok] using hq1
        have e2 := dbg_unique (fun t ht => (ho t ht).2) (fun t ht => (ho' t ht).2) hq2
        rw [e1, e2]
    rw [← this]
    exact hj

/-! ### Instructions -/

theorem lineX_body {m ts d l} (h : LineX m ts d l) : BodyForm m ts d l := by
  cases h with
  | known h => cases h with
    | br => exact .br
    | condBr => exact .condBr
    | overflowBr _ h => exact .overflowBr h
    | switch h h' => exact .switch h h'
    | phi h => exact .phi h
  | other h1 h2 => exact .other h1 h2

theorem instrX_instrG {i l} (h : InstrX i l) : InstrG i l := by
  obtain ⟨asg, body, h1, h2, h3, h4⟩ := h
  exact ⟨asg, body, h1, lineX_body h2, h3, h4⟩

theorem assign_type {x l} (h : AssignG x l) (hl : l ≠ []) : ∃ ty l', l = typeTok ty :: l' := by
  cases h with
  | none => exact absurd rfl hl
  | some => exact ⟨_, _, rfl⟩

theorem pInstruction_exact_sound (ht : Unglued s) {i} (h : Ok pInstruction eoi s [] i r) :
    ∃ l nl r', InstrX i l ∧ s = l ++ r ∧ r = (.newline, nl) :: r' := by
  unfold pInstruction at h
  rw [pmapSpan_ok] at h
  obtain ⟨⟨target, j⟩, h, rfl⟩ := h
  obtain ⟨ea, eb, m, h1, h2, he⟩ := pthen_ok.mp h
  obtain ⟨rfl, rfl⟩ := List.append_eq_nil_iff.mp he.symm
  rcases orNot_ok.mp h1 with ⟨y, rfl, h3⟩ | ⟨rfl, _, rfl, h3⟩
  · obtain ⟨_, ty, e, rfl⟩ := pAssignment_ok.mp h3
    obtain ⟨l, nl, r', rfl, rfl, hl, hj⟩ := kind_sound ht.suffix h2
    refine ⟨_, nl, r', ⟨[typeTok ty, localTok y, (.punct '=', e)], l, .some, hl, rfl, ?_⟩, by simp, rfl⟩
    rw [← List.append_assoc, spanSince_eq rfl (by simp)]
  · obtain ⟨l, nl, r', rfl, rfl, hl, hj⟩ := kind_sound ht h2
    obtain ⟨x, l', hx⟩ := bodyForm_head (lineX_body hl)
    refine ⟨_, nl, r', ⟨[], l, .none, hl, rfl, ?_⟩, rfl, rfl⟩
    rw [spanSince_eq rfl (by simp [hx])]
    simp

theorem pInstruction_exact_complete {i l} (h : InstrX i l) {nl r'} (ht : Unglued (l ++ (.newline, nl) :: r')) :
    Ok pInstruction eoi (l ++ (.newline, nl) :: r') [] i ((.newline, nl) :: r') := by
  obtain ⟨asg, body, h1, h2, rfl, h4⟩ := h
  rw [List.append_assoc] at ht
  have hk := kind_complete (eoi := eoi) h2 ht.suffix
  obtain ⟨x, l', hx⟩ := bodyForm_head (lineX_body h2)
  unfold pInstruction
  rw [pmapSpan_ok]
  obtain ⟨tgt, ins, refs, dbg, sp⟩ := i
  simp only at h1 h2 h4 hk
  subst h4
  refine ⟨(tgt, _), pthen_ok.mpr ⟨[], [], body ++ (.newline, nl) :: r', ?_, hk, rfl⟩, ?_⟩
  · cases h1 with
    | none =>
      refine orNot_ok.mpr (.inr ⟨rfl, rfl, rfl, ?_⟩)
      refine fails_of_not_ok pAssignment_noPanic ?_
      intro es y r h
      obtain ⟨_, ty, e, h⟩ := pAssignment_ok.mp h
      subst hx
      simp [typeTok, identTok] at h
    | @some ty n e =>
      exact orNot_ok.mpr (.inl ⟨_, rfl, pAssignment_ok.mpr ⟨rfl, ty, e, by simp⟩⟩)
  · rw [spanSince_eq rfl (by simp [hx])]

theorem instrX_head {i l} (h : InstrX i l) {sp r' m} (he : l ++ m = (.newline, sp) :: r') : False := by
  obtain ⟨asg, body, h1, h2, rfl, _⟩ := h
  obtain ⟨x, l', rfl⟩ := bodyForm_head (lineX_body h2)
  generalize i.assignmentTarget = t at h1
  cases h1 <;> simp [identTok, typeTok] at he

theorem newlines_cons {nls : List Tok} (h : Newlines nls) (h' : nls ≠ []) :
    ∃ nl nls', nls = (.newline, nl) :: nls' := by
  cases nls with
  | nil => exact absurd rfl h'
  | cons t nls =>
    obtain ⟨t, sp⟩ := t
    have : t = .newline := h _ List.mem_cons_self
    subst this
    exact ⟨sp, nls, rfl⟩

theorem pPaddedInstruction_exact_sound (ht : Unglued s) (hs : ∀ sp r', s ≠ (.newline, sp) :: r') {i}
    (h : Ok pPaddedInstruction eoi s [] i r) : ∃ l nls, InstrX i l ∧ Newlines nls ∧ nls ≠ [] ∧
      s = l ++ nls ++ r ∧ (∀ sp r', r ≠ (.newline, sp) :: r') := by
  unfold pPaddedInstruction at h
  obtain ⟨e1, e2, e3, m, m', y, z, h1, h2, h3, he⟩ := paddedBy_ok.mp h
  have he := he.symm
  simp only [List.append_eq_nil_iff] at he
  obtain ⟨⟨rfl, rfl⟩, rfl⟩ := he
  obtain ⟨_, nls, hn, rfl, _, _⟩ := newlines_ok.mp h1
  have hnil : nls = [] := by
    rcases List.eq_nil_or_concat nls with h | h
    · exact h
    · obtain ⟨nl, nls', rfl⟩ := newlines_cons hn (by obtain ⟨_, _, rfl⟩ := h; simp)
      exact absurd rfl (hs nl (nls' ++ m))
  subst hnil
  obtain ⟨l, nl, r', hl, rfl, hr⟩ := pInstruction_exact_sound ht h2
  obtain ⟨_, nls', hn', h4, _, h5⟩ := newlines_ok.mp h3
  refine ⟨l, nls', hl, hn', ?_, by simp [h4], h5⟩
  rintro rfl
  rw [hr] at h4
  exact h5 _ _ h4.symm

theorem pPaddedInstruction_exact_complete {i l nls} (h : InstrX i l) (hn : Newlines nls) (hn' : nls ≠ [])
    (ht : Unglued (l ++ nls ++ r)) (hr : ∀ sp r', r ≠ (.newline, sp) :: r') :
    Ok pPaddedInstruction eoi (l ++ nls ++ r) [] i r := by
  obtain ⟨nl, nls', rfl⟩ := newlines_cons hn hn'
  rw [List.append_assoc] at ht ⊢
  have h1 := pInstruction_exact_complete (eoi := eoi) h (nl := nl) (r' := nls' ++ r) ht
  unfold pPaddedInstruction
  refine paddedBy_ok.mpr ⟨[], [], [], _, _, _, _, newlines_ok.mpr ⟨rfl, [], by simp [Newlines], rfl, rfl, ?_⟩,
    h1, newlines_ok.mpr ⟨rfl, (.newline, nl) :: nls', hn, rfl, rfl, hr⟩, rfl⟩
  intro sp r' h'
  exact instrX_head h h'

theorem many_instr_exact_sound {is} (h : Many pPaddedInstruction eoi s es is r) : es = [] → Unglued s →
    (∀ sp r', s ≠ (.newline, sp) :: r') → ∃ l, InstrsX is l ∧ s = l ++ r ∧ (∀ sp r', r ≠ (.newline, sp) :: r') := by
  induction h with
  | nil => intro _ _ hs; exact ⟨[], .nil, rfl, hs⟩
  | cons h1 _ ih =>
    intro he ht hs
    obtain ⟨rfl, rfl⟩ := List.append_eq_nil_iff.mp he
    obtain ⟨l, nls, a1, a2, a3, rfl, a4⟩ := pPaddedInstruction_exact_sound ht hs h1
    obtain ⟨l', h2, rfl, h3⟩ := ih rfl ht.suffix a4
    exact ⟨_, .cons a1 a2 a3 h2, by simp, h3⟩

theorem instrsX_head {is l} (h : InstrsX is l) (hr : ∀ sp r', r ≠ (.newline, sp) :: r') :
    ∀ sp r', l ++ r ≠ (.newline, sp) :: r' := by
  intro sp r' he
  cases h with
  | nil => exact hr _ _ he
  | cons h1 =>
    simp only [List.append_assoc] at he
    exact instrX_head h1 he

theorem many_instr_exact_complete {is l} (h : InstrsX is l) : Unglued (l ++ r) → EndsInstrs r →
    Many pPaddedInstruction eoi (l ++ r) [] is r := by
  induction h with
  | nil => intro _ hr; exact .nil (pPaddedInstruction_stop hr)
  | @cons i is l nls l' h1 h2 h3 h4 ih =>
    intro ht hr
    rw [List.append_assoc (l ++ nls)] at ht ⊢
    exact .cons (es := []) (pPaddedInstruction_exact_complete h1 h2 h3 ht (instrsX_head h4 hr.noNewline)) (ih ht.suffix hr)

/-! ### Blocks and bodies -/

theorem pBasicBlock_exact_sound (ht : Unglued s) {b} (h : Ok pBasicBlock eoi s [] b r) :
    ∃ l, BlockX b l ∧ s = l ++ r := by
  unfold pBasicBlock at h
  simp only [pmap_ok] at h
  obtain ⟨⟨⟨label, comma⟩, is⟩, h, rfl⟩ := h
  simp only [pthen_ok, thenIgnore_ok, pIdent_ok, punctSpan_ok, newlines1_ok,
    repeated_ok pPaddedInstruction_noPanic pPaddedInstruction_progress] at h
  obtain ⟨_, _, _, ⟨_, _, _, _, ⟨_, _, _, ⟨rfl, rfl⟩, ⟨rfl, c, rfl, rfl⟩, rfl⟩,
    ⟨rfl, nls, hn, hn', rfl, _, h4⟩, rfl⟩, h3, he⟩ := h
  obtain ⟨l, hl, rfl, _⟩ := many_instr_exact_sound h3 (by simpa using he.symm) ht.tail.tail.suffix h4
  exact ⟨_, ⟨label, comma, nls, l, hn, hn', hl, rfl, rfl, rfl, rfl⟩, by simp⟩

theorem pBasicBlock_exact_complete {b l} (h : BlockX b l) (ht : Unglued (l ++ r)) (hr : EndsInstrs r) :
    Ok pBasicBlock eoi (l ++ r) [] b r := by
  obtain ⟨label, comma, nls, is, hn, hn', hl, rfl, hb1, hb2, hb3⟩ := h
  have e : [identTok label, (Token.punct ':', comma)] ++ nls ++ is ++ r
      = identTok label :: (Token.punct ':', comma) :: (nls ++ (is ++ r)) := by simp
  rw [e] at ht ⊢
  have hm := many_instr_exact_complete (eoi := eoi) hl ht.tail.tail.suffix hr
  unfold pBasicBlock
  simp only [pmap_ok]
  refine ⟨((label, comma), b.instructions), ?_, ?_⟩
  · simp only [pthen_ok, thenIgnore_ok, pIdent_ok, punctSpan_ok, newlines1_ok,
      repeated_ok pPaddedInstruction_noPanic pPaddedInstruction_progress]
    exact ⟨[], [], _, ⟨[], [], _, _, ⟨[], [], _, ⟨rfl, rfl⟩, ⟨rfl, comma, rfl, rfl⟩, rfl⟩,
      ⟨rfl, nls, hn, hn', rfl, rfl, instrsX_head hl hr.noNewline⟩, rfl⟩, hm, rfl⟩
  · obtain ⟨b1, b2, b3, b4⟩ := b
    simp only at hb1 hb2 hb3
    subst hb1 hb2 hb3
    rfl

theorem many_block_exact_sound {bs} (h : Many pBasicBlock eoi s es bs r) : es = [] → Unglued s →
    ∃ l, BlocksX bs l ∧ s = l ++ r := by
  induction h with
  | nil => intro _ _; exact ⟨[], .nil, rfl⟩
  | cons h1 _ ih =>
    intro he ht
    obtain ⟨rfl, rfl⟩ := List.append_eq_nil_iff.mp he
    obtain ⟨l, h3, rfl⟩ := pBasicBlock_exact_sound ht h1
    obtain ⟨l', h2, rfl⟩ := ih rfl ht.suffix
    exact ⟨_, .cons h3 h2, by simp⟩

theorem blocksX_ends {bs l} (h : BlocksX bs l) {c r'} : EndsInstrs (l ++ (.punct '}', c) :: r') := by
  cases h with
  | nil => exact .inr ⟨c, r', rfl⟩
  | cons h1 =>
    obtain ⟨label, comma, nls, is, hn, hn', _, rfl, _⟩ := h1
    obtain ⟨nl, nls', rfl⟩ := newlines_cons hn hn'
    exact .inl ⟨label, comma, nl, _, by simp; rfl⟩

theorem many_block_exact_complete {bs l} (h : BlocksX bs l) {c r'} : Unglued (l ++ (.punct '}', c) :: r') →
    Many pBasicBlock eoi (l ++ (.punct '}', c) :: r') [] bs ((.punct '}', c) :: r') := by
  induction h with
  | nil =>
    intro _
    refine .nil (fails_of_not_ok pBasicBlock_noPanic ?_)
    intro es b r h
    obtain ⟨l, h1, h2⟩ := pBasicBlock_sound h
    obtain ⟨x, c, l', rfl⟩ := blockG_head h1
    simp [identTok] at h2
  | cons h1 h2 ih =>
    intro ht
    rw [List.append_assoc] at ht ⊢
    exact .cons (es := []) (pBasicBlock_exact_complete h1 ht (blocksX_ends h2)) (ih ht.suffix)

theorem pInitialBlock_exact_sound (ht : Unglued s) (hs : ∀ sp r', s ≠ (.newline, sp) :: r') {b}
    (h : Ok pInitialBlock eoi s [] b r) : ∃ l, FirstBlockX b l ∧ s = l ++ r := by
  unfold pInitialBlock at h
  obtain ⟨is, h1, h2⟩ := pmapOutcome_ok.mp h
  obtain ⟨h3, _⟩ := (repeatedAtLeast_ok pPaddedInstruction_noPanic pPaddedInstruction_progress).mp h1
  obtain ⟨l, hl, rfl, _⟩ := many_instr_exact_sound h3 rfl ht hs
  unfold mkInitialBlock at h2
  split at h2
  · rename_i f la hf hla
    cases h2
    exact ⟨l, ⟨f, la, hl, hf, hla, rfl, rfl, rfl⟩, rfl⟩
  · cases h2

theorem pFuncBody_exact_sound (ht : Unglued s) {b} (h : Ok pFuncBody eoi s [] b r) : ∃ l, BodyX b l ∧ s = l ++ r := by
  unfold pFuncBody at h
  simp only [pmap_ok] at h
  obtain ⟨⟨⟨⟨o, init⟩, bbs⟩, c⟩, h, rfl⟩ := h
  simp only [pthen_ok, thenIgnore_ok, punctSpan_ok, newlines1_ok, orNot_ok,
    repeated_ok pBasicBlock_noPanic pBasicBlock_progress] at h
  obtain ⟨_, _, _, ⟨_, _, _, ⟨_, _, _, ⟨_, _, _, _, ⟨rfl, o', rfl, rfl⟩, ⟨rfl, nls, hn, hn', rfl, _, hnl⟩, rfl⟩, hi, rfl⟩, hb, rfl⟩,
    ⟨rfl, c', rfl, rfl⟩, he⟩ := h
  simp only [List.append_nil] at he
  obtain ⟨rfl, rfl⟩ := List.append_eq_nil_iff.mp he.symm
  have ht' := ht.tail.suffix
  rcases hi with ⟨y, rfl, h2⟩ | ⟨rfl, _, rfl, _⟩
  · obtain ⟨l1, hl1, rfl⟩ := pInitialBlock_exact_sound ht' hnl h2
    obtain ⟨l, hl, rfl⟩ := many_block_exact_sound hb rfl ht'.suffix
    exact ⟨_, ⟨nls, l1 ++ l, hn, hn', .unlabelled hl1 hl, rfl⟩, by simp⟩
  · obtain ⟨l, hl, rfl⟩ := many_block_exact_sound hb rfl ht'
    exact ⟨_, ⟨nls, l, hn, hn', .labelled hl, rfl⟩, by simp⟩

theorem pFuncBody_exact_complete {b l} (h : BodyX b l) (ht : Unglued (l ++ r)) :
    Ok pFuncBody eoi (l ++ r) [] b r := by
  obtain ⟨nls, bl, hn, hn', hbl, rfl⟩ := h
  obtain ⟨o, c, bbs⟩ := b
  simp only at hbl ht ⊢
  have e : (Token.punct '{', o) :: nls ++ bl ++ [(Token.punct '}', c)] ++ r
      = (Token.punct '{', o) :: (nls ++ (bl ++ (Token.punct '}', c) :: r)) := by simp
  rw [e] at ht ⊢
  have ht' := ht.tail.suffix
  unfold pFuncBody
  simp only [pmap_ok]
  cases hbl with
  | labelled hb =>
    have hends := blocksX_ends hb (c := c) (r' := r)
    refine ⟨(((o, none), bbs), c), ?_, rfl⟩
    simp only [pthen_ok, thenIgnore_ok, punctSpan_ok, newlines1_ok, orNot_ok,
      repeated_ok pBasicBlock_noPanic pBasicBlock_progress]
    refine ⟨[], [], _, ⟨[], [], _, ⟨[], [], _, ⟨[], [], _, _, ⟨rfl, o, rfl, rfl⟩, ⟨rfl, nls, hn, hn', rfl, rfl, hends.noNewline⟩, rfl⟩,
      .inr ⟨trivial, rfl, rfl, ?_⟩, rfl⟩, many_block_exact_complete hb ht', rfl⟩, ⟨rfl, c, rfl, rfl⟩, rfl⟩
    unfold pInitialBlock
    rw [pmapOutcome_fails]
    rw [repeatedAtLeast_fails pPaddedInstruction_noPanic pPaddedInstruction_progress]
    exact ⟨_, _, _, .nil (pPaddedInstruction_stop hends), by simp⟩
  | @unlabelled b bs l1 l2 hf hb =>
    obtain ⟨f, la, hi, hf1, hf2, hf3, hf4, hf5⟩ := hf
    have hends := blocksX_ends hb (c := c) (r' := r)
    rw [List.append_assoc] at ht' ⊢
    refine ⟨(((o, some b), bs), c), ?_, rfl⟩
    simp only [pthen_ok, thenIgnore_ok, punctSpan_ok, newlines1_ok, orNot_ok,
      repeated_ok pBasicBlock_noPanic pBasicBlock_progress]
    refine ⟨[], [], _, ⟨[], [], _, ⟨[], [], _, ⟨[], [], _, _, ⟨rfl, o, rfl, rfl⟩, ⟨rfl, nls, hn, hn', rfl, rfl, instrsX_head hi hends.noNewline⟩, rfl⟩,
      .inl ⟨_, rfl, ?_⟩, rfl⟩, many_block_exact_complete hb ht'.suffix, rfl⟩, ⟨rfl, c, rfl, rfl⟩, rfl⟩
    unfold pInitialBlock
    refine pmapOutcome_ok.mpr ⟨b.instructions, (repeatedAtLeast_ok pPaddedInstruction_noPanic pPaddedInstruction_progress).mpr
      ⟨many_instr_exact_complete hi ht' hends, ?_⟩, ?_⟩
    · cases h : b.instructions with
      | nil => rw [h] at hf1; cases hf1
      | cons => simp
    · obtain ⟨b1, b2, b3, b4⟩ := b
      simp only at hf1 hf2 hf3 hf4 hf5
      subst hf3 hf4 hf5
      simp [mkInitialBlock, hf1, hf2]

/-! ### Statements -/

theorem pFuncDef_exact_sound (ht : Unglued s) {x} (h : Ok pFuncDef eoi s [] x r) : ∃ l eol, StmtX x l ∧
    s = l ++ eol ++ r ∧ ((∃ sp, eol = [(.newline, sp)]) ∨ (eol = [] ∧ r = [])) := by
  unfold pFuncDef at h
  simp only [pmap_ok] at h
  obtain ⟨⟨⟨k, sg⟩, b⟩, h, rfl⟩ := h
  simp only [thenIgnore_ok, pthen_ok, justSpan_ok, pFuncSignature_ok, pEol_ok] at h
  obtain ⟨_, _, _, _, ⟨_, _, _, ⟨_, _, _, ⟨rfl, k', rfl, rfl⟩, ⟨rfl, l, hl, rfl⟩, rfl⟩, hb, rfl⟩,
    ⟨rfl, rfl, h1⟩, he⟩ := h
  have he := he.symm
  simp only [List.append_nil, List.nil_append] at he
  subst he
  obtain ⟨bl, hbl, rfl⟩ := pFuncBody_exact_sound ht.tail.suffix hb
  rcases h1 with ⟨sp, rfl⟩ | ⟨rfl, rfl⟩
  · exact ⟨_, [(.newline, sp)], .funcDef hl hbl, by simp, .inl ⟨sp, rfl⟩⟩
  · exact ⟨_, [], .funcDef hl hbl, by simp, .inr ⟨rfl, rfl⟩⟩

theorem pFuncDependencies_exact_sound {x} (h : Ok pFuncDependencies eoi s es x r) : ∃ l, StmtX x l ∧
    s = l ++ r ∧ Continues x r := by
  unfold pFuncDependencies at h
  simp only [pmap_ok] at h
  obtain ⟨⟨d, ds⟩, h, rfl⟩ := h
  simp only [thenIgnore_ok, pthen_ok, pGlobalName_ok, pKeyword_ok] at h
  obtain ⟨_, _, _, ⟨_, _, _, _, ⟨_, _, _, _, ⟨rfl, rfl⟩, ⟨rfl, rfl, k, rfl⟩, rfl⟩, ⟨rfl, rfl, k', rfl⟩, rfl⟩, hd, rfl⟩ := h
  obtain ⟨rfl, l, hl, rfl⟩ := sepList_sound (G := fun x l => l = [globalTok x])
    pGlobalName_noPanic pGlobalName_clean depItem_ok hd
  refine ⟨_, .plain (by simp) (.funcDependencies (k := k) (k' := k') hl), by simp, ?_⟩
  rintro rfl x sp r' rfl
  cases hl
  have hf : Suffix pGlobalName := by
    intro eoi s es x r h
    obtain ⟨_, l, _, h2⟩ := depItem_ok.mp h
    exact ⟨l, h2⟩
  have hx := hd
  rw [separatedBy_ok pGlobalName_noPanic pPunct_noPanic pGlobalName_clean pPunct_clean pPunct_progress hf] at hx
  obtain ⟨_, hx⟩ := hx
  cases hx with
  | nil h => exact pGlobalName_fails.mp h x sp r' rfl

theorem pStatement_exact_sound (ht : Unglued s) {x} (h : Ok pStatement eoi s [] x r) : ∃ l eol, StmtX x l ∧
    s = l ++ eol ++ r ∧ Newlines eol ∧ (eol = [] → r = [] ∨ Continues x r) := by
  unfold pStatement at h
  have hfin : ∀ (eol : List Tok), ((∃ sp, eol = [(.newline, sp)]) ∨ (eol = [] ∧ r = [])) →
      Newlines eol ∧ (eol = [] → r = [] ∨ Continues x r) := by
    rintro eol (⟨sp, rfl⟩ | ⟨rfl, rfl⟩)
    · exact ⟨(by intro t ht; simp at ht; rw [ht]), (by simp)⟩
    · exact ⟨(by intro t ht; cases ht), fun _ => .inl rfl⟩
  rcases por_ok_inv h with h | h
  · rcases por_ok_inv h with h | h
    · rcases por_ok_inv h with h | h
      · rcases por_ok_inv h with h | h
        · obtain ⟨_, n, e, d, eol, hd, rfl, rfl, h1⟩ := pGlobalVar_ok.mp h
          exact ⟨_, eol, .plain (by simp) (.globalVar hd), rfl, hfin eol h1⟩
        · obtain ⟨_, l, eol, h1, rfl, _, h2⟩ := pFuncDecl_sound h
          refine ⟨l, eol, .plain ?_ h1, rfl, hfin eol h2⟩
          rintro k sg b rfl
          unfold pFuncDecl at h
          simp only [pmap_ok] at h
          obtain ⟨_, _, h⟩ := h
          cases h
      · obtain ⟨l, eol, h1, rfl, h2⟩ := pFuncDef_exact_sound ht h
        exact ⟨l, eol, h1, rfl, hfin eol h2⟩
    · obtain ⟨l, h1, rfl, h2⟩ := pFuncDependencies_exact_sound h
      exact ⟨l, [], h1, by simp, (by intro t ht; cases ht), fun _ => .inr h2⟩
  · obtain ⟨_, n, e, d, eol, hd, rfl, rfl, h1⟩ := pDbgAnnotation_ok.mp h
    exact ⟨_, eol, .plain (by simp) (.dbgAnnotation hd), rfl, hfin eol h1⟩

/-- What may stand behind a statement. -/
theorem stmtX_head {x l} (h : StmtX x l) : ∃ t l', l = t :: l' ∧ t.1 ≠ .newline ∧ t.1 ≠ .punct ',' := by
  cases h with
  | funcDef => exact ⟨_, _, rfl, by simp, by simp⟩
  | plain _ h => cases h <;> exact ⟨_, _, rfl, by simp [globalTok, dbgTok], by simp [globalTok, dbgTok]⟩

/-- A list ends where no further item follows. -/
theorem sep_of_commaSep_last {α : Type} {item : P Token α} {G : α → List Tok → Prop}
    (hok : ∀ {x l r}, G x l → Ok item eoi (l ++ r) [] x r) 
    {xs l} (hr : xs ≠ [] → ∀ sp r', r = (.punct ',', sp) :: r' → Fails item eoi r') (hr' : xs = [] → Fails item eoi r) (h : CommaSep G xs l) :
    Sep item (pPunct ',') eoi (l ++ r) xs r := by
  have tail : ∀ {x xs'}, xs = x :: xs' → ∃ m, Ok item eoi (l ++ r) [] x m ∧ SepTail item (pPunct ',') eoi m xs' r := by
    clear hr'
    induction h with
    | nil => intro x xs' h; cases h
    | one h1 =>
      intro x xs' h
      cases h
      refine ⟨r, hok h1, ?_⟩
      rcases (pPunct_noPanic (c := ',')).cases eoi r with ⟨es, d, m, h⟩ | h
      · obtain ⟨rfl, _, sp, rfl⟩ := pPunct_ok.mp h
        exact .noItem h (hr (by simp) _ _ rfl)
      · exact .noDelim h
    | cons h1 _ ih =>
      intro x xs' h
      cases h
      obtain ⟨m, h2, h3⟩ := ih (fun _ => hr (by simp)) rfl
      rw [List.append_assoc]
      exact ⟨_, hok h1, .cons (pPunct_ok.mpr ⟨rfl, rfl, _, rfl⟩) h2 h3⟩
  cases xs with
  | nil => cases h; exact .nil (hr' rfl)
  | cons x xs =>
    obtain ⟨m, h2, h3⟩ := tail rfl
    exact .cons h2 h3

theorem pStatement_plain_complete {x l} (hnd : ∀ k sg b, x ≠ .funcDef k sg b) (h : StmtG x l) {nls : List Tok} (hn : Newlines nls)
    (hr : nls = [] → r = [] ∨ Continues x r)
    (hc : nls = [] → ∀ n d ds, x = .funcDependencies n (d :: ds) → ∀ c y sp r', r ≠ (.punct ',', c) :: (.globalName y, sp) :: r') :
    ∃ nls', Newlines nls' ∧ Ok pStatement eoi (l ++ (nls ++ r)) [] x (nls' ++ r) := by
  have closed : (¬ Spec.Statement.openEnded x) → nls = [] → r = [] := by
    intro ho hn
    rcases hr hn with h | h
    · exact h
    · cases x <;> simp_all [Spec.Statement.openEnded, Continues]
  unfold pStatement
  cases h with
  | @globalVar n e d hd =>
    obtain ⟨nls', hn', heol, ⟨eol, heq, heol'⟩, _⟩ := eol_ok (eoi := eoi) hn (closed (by simp [Spec.Statement.openEnded]))
    exact ⟨nls', hn', por_ok_left (por_ok_left (por_ok_left (por_ok_left (pGlobalVar_ok.mpr
      ⟨rfl, n, e, d, eol, hd, rfl, by rw [heq]; simp, heol'⟩))))⟩
  | @dbgAnnotation n e d hd =>
    obtain ⟨nls', hn', heol, ⟨eol, heq, heol'⟩, _⟩ := eol_ok (eoi := eoi) hn (closed (by simp [Spec.Statement.openEnded]))
    exact ⟨nls', hn', por_ok_right (por_fails.mpr ⟨por_fails.mpr ⟨por_fails.mpr ⟨
      pGlobalVar_fails_of (by simp [dbgTok]), pFuncDecl_fails_of (by simp [dbgTok])⟩, pFuncDef_fails_of (by simp [dbgTok])⟩,
      pFuncDependencies_fails_of (by simp [dbgTok])⟩) (pDbgAnnotation_ok.mpr
      ⟨rfl, n, e, d, eol, hd, rfl, by rw [heq]; simp, heol'⟩)⟩
  | @funcDecl k sg sl d hs =>
    obtain ⟨nls', hn', heol, _, hstart⟩ := eol_ok (eoi := eoi) hn (closed (by simp [Spec.Statement.openEnded]))
    refine ⟨nls', hn', por_ok_left (por_ok_left (por_ok_left (por_ok_right
      (pGlobalVar_fails_of (by simp)) ?_)))⟩
    have hdbg : Ok (orNot pDbgRef) eoi (dbgToks d ++ (nls ++ r)) [] d (nls ++ r) := by
      refine orNotDbg_ok.mpr ⟨rfl, rfl, ?_⟩
      intro _ y sp r' h
      rcases hstart with ⟨sp', r'', h'⟩ | h' <;> rw [h'] at h <;> simp at h
    have haddr : Ok (orNot pFuncAddr) eoi (dbgToks d ++ (nls ++ r)) [] none (dbgToks d ++ (nls ++ r)) := by
      refine orNot_ok.mpr (.inr ⟨rfl, rfl, rfl, ?_⟩)
      refine fails_of_not_ok pFuncAddr_noPanic ?_
      intro es x r' h
      obtain ⟨_, e, h⟩ := pFuncAddr_ok.mp h
      cases d with
      | some => simp [dbgToks, dbgTok] at h
      | none =>
        simp only [dbgToks, List.nil_append] at h
        rcases hstart with ⟨sp', r'', h'⟩ | h' <;> rw [h'] at h <;> simp at h
    unfold pFuncDecl
    refine pmap_ok.mpr ⟨((sg, none), d), ?_, rfl⟩
    simp only [thenIgnore_ok, pthen_ok, ignoreThen_ok, just_ok, pFuncSignature_ok]
    exact ⟨[], [], _, _, ⟨[], [], _, ⟨[], [], _, ⟨[], [], _, _, ⟨rfl, rfl, k, rfl⟩, ⟨rfl, sl, hs, by simp⟩, rfl⟩, haddr, rfl⟩,
      hdbg, rfl⟩, heol, rfl⟩
  | @funcDeclAddr k sg sl e a d hs =>
    obtain ⟨nls', hn', heol, _, hstart⟩ := eol_ok (eoi := eoi) hn (closed (by simp [Spec.Statement.openEnded]))
    refine ⟨nls', hn', por_ok_left (por_ok_left (por_ok_left (por_ok_right
      (pGlobalVar_fails_of (by simp)) ?_)))⟩
    have hdbg : Ok (orNot pDbgRef) eoi (dbgToks d ++ (nls ++ r)) [] d (nls ++ r) := by
      refine orNotDbg_ok.mpr ⟨rfl, rfl, ?_⟩
      intro _ y sp r' h
      rcases hstart with ⟨sp', r'', h'⟩ | h' <;> rw [h'] at h <;> simp at h
    have haddr : Ok (orNot pFuncAddr) eoi ((.punct '=', e) :: hexTok a :: (dbgToks d ++ (nls ++ r))) [] (some a) (dbgToks d ++ (nls ++ r)) :=
      orNot_ok.mpr (.inl ⟨_, rfl, pFuncAddr_ok.mpr ⟨rfl, e, rfl⟩⟩)
    unfold pFuncDecl
    refine pmap_ok.mpr ⟨((sg, some a), d), ?_, rfl⟩
    simp only [thenIgnore_ok, pthen_ok, ignoreThen_ok, just_ok, pFuncSignature_ok]
    exact ⟨[], [], _, _, ⟨[], [], _, ⟨[], [], _, ⟨[], [], _, _, ⟨rfl, rfl, k, rfl⟩, ⟨rfl, sl, hs, by simp⟩, rfl⟩, haddr, rfl⟩,
      hdbg, rfl⟩, heol, rfl⟩
  | funcDef => exact absurd rfl (hnd _ _ _)
  | @funcDependencies n k k' ds dl hd =>
    refine ⟨nls, hn, por_ok_left (por_ok_right (por_fails.mpr ⟨por_fails.mpr ⟨
      pGlobalVar_fails_of (by simp), pFuncDecl_fails_of (by simp [globalTok])⟩, pFuncDef_fails_of (by simp [globalTok])⟩) ?_)⟩
    unfold pFuncDependencies
    refine pmap_ok.mpr ⟨(n, ds), ?_, rfl⟩
    simp only [thenIgnore_ok, pthen_ok, pGlobalName_ok, pKeyword_ok]
    refine ⟨[], [], _, ⟨[], [], _, _, ⟨[], [], _, _, ⟨rfl, rfl⟩, ⟨rfl, rfl, k, rfl⟩, rfl⟩, ⟨rfl, rfl, k', rfl⟩, rfl⟩, ?_, rfl⟩
    have hs : Suffix pGlobalName := by
      intro eoi s es x r h
      obtain ⟨_, l, _, h2⟩ := depItem_ok.mp h
      exact ⟨l, h2⟩
    refine (separatedBy_ok pGlobalName_noPanic pPunct_noPanic pGlobalName_clean pPunct_clean pPunct_progress hs).mpr ⟨rfl, ?_⟩
    refine sep_of_commaSep_last (G := fun x l => l = [globalTok x]) (fun h => depItem_ok.mpr ⟨rfl, _, h, rfl⟩) ?_ ?_ hd
    · intro hds sp r' h
      cases nls with
      | nil =>
        refine pGlobalName_fails.mpr ?_
        rintro y sp' r'' rfl
        cases ds with
        | nil => exact hds rfl
        | cons d ds => exact hc rfl _ _ _ rfl _ _ _ _ h
      | cons t nls =>
        injection h with h _
        have := hn t List.mem_cons_self
        rw [h] at this
        cases this
    · rintro rfl
      refine pGlobalName_fails.mpr ?_
      intro x sp r' h
      cases nls with
      | nil =>
        rcases hr rfl with h' | h'
        · subst h'; cases h
        · exact h' rfl _ _ _ h
      | cons t nls =>
        injection h with h _
        have := hn t List.mem_cons_self
        rw [h] at this
        cases this

theorem pStatement_exact_complete {x l} (h : StmtX x l) {nls : List Tok} (hn : Newlines nls)
    (hr : nls = [] → r = [] ∨ Continues x r)
    (hc : nls = [] → ∀ n d ds, x = .funcDependencies n (d :: ds) → ∀ c y sp r', r ≠ (.punct ',', c) :: (.globalName y, sp) :: r')
    (ht : Unglued (l ++ (nls ++ r))) :
    ∃ nls', Newlines nls' ∧ Ok pStatement eoi (l ++ (nls ++ r)) [] x (nls' ++ r) := by
  have closed : (¬ Spec.Statement.openEnded x) → nls = [] → r = [] := by
    intro ho hn
    rcases hr hn with h | h
    · exact h
    · cases x <;> simp_all [Spec.Statement.openEnded, Continues]
  unfold pStatement
  cases h with
  | @funcDef k sg sl b bl hs hb =>
    obtain ⟨nls', hn', heol, _, _⟩ := eol_ok (eoi := eoi) hn (closed (by simp [Spec.Statement.openEnded]))
    have e : (Token.define, k) :: sl ++ bl ++ (nls ++ r) = (Token.define, k) :: (sl ++ (bl ++ (nls ++ r))) := by simp
    rw [e] at ht ⊢
    have hb' := pFuncBody_exact_complete (eoi := eoi) hb ht.tail.suffix
    refine ⟨nls', hn', por_ok_left (por_ok_left (por_ok_right (por_fails.mpr ⟨
      pGlobalVar_fails_of (by simp), pFuncDecl_fails_of (by simp)⟩) ?_))⟩
    unfold pFuncDef
    refine pmap_ok.mpr ⟨((k, sg), b), ?_, rfl⟩
    simp only [thenIgnore_ok, pthen_ok, justSpan_ok, pFuncSignature_ok]
    exact ⟨[], [], _, _, ⟨[], [], _, ⟨[], [], _, ⟨rfl, k, rfl, rfl⟩, ⟨rfl, sl, hs, rfl⟩, rfl⟩, hb', rfl⟩, heol, rfl⟩
  | plain hnd h => exact pStatement_plain_complete hnd h hn hr hc

/-! ### Documents -/

theorem pPaddedStatement_exact_sound (ht : Unglued s) {x} (h : Ok pPaddedStatement eoi s [] x r) : ∃ nls l nls',
    Newlines nls ∧ StmtX x l ∧ Newlines nls' ∧ s = nls ++ (l ++ nls' ++ r) ∧
    (nls' = [] → r = [] ∨ Continues x r) ∧ (∀ sp r', r ≠ (.newline, sp) :: r') := by
  unfold pPaddedStatement at h
  obtain ⟨e1, e2, e3, m, m', y, z, h1, h2, h3, he⟩ := paddedBy_ok.mp h
  have he := he.symm
  simp only [List.append_eq_nil_iff] at he
  obtain ⟨⟨rfl, rfl⟩, rfl⟩ := he
  obtain ⟨_, nls, hn, rfl, _, _⟩ := newlines_ok.mp h1
  obtain ⟨l, eol, hl, rfl, he, he'⟩ := pStatement_exact_sound ht.suffix h2
  obtain ⟨_, nls', hn', rfl, _, h5⟩ := newlines_ok.mp h3
  refine ⟨nls, l, eol ++ nls', hn, hl, newlines_append he hn', by simp, ?_, h5⟩
  intro h
  obtain ⟨rfl, rfl⟩ := List.append_eq_nil_iff.mp h
  simpa using he' rfl

theorem pPaddedStatement_exact_complete {x l} (h : StmtX x l) {nls0 nls : List Tok} (hn0 : Newlines nls0)
    (hn : Newlines nls) (hr : nls = [] → r = [] ∨ Continues x r)
    (hc : nls = [] → ∀ n d ds, x = .funcDependencies n (d :: ds) → ∀ c y sp r', r ≠ (.punct ',', c) :: (.globalName y, sp) :: r')
    (hr' : ∀ sp r', r ≠ (.newline, sp) :: r') (ht : Unglued (l ++ (nls ++ r))) :
    Ok pPaddedStatement eoi (nls0 ++ (l ++ (nls ++ r))) [] x r := by
  obtain ⟨nls', h1, h2⟩ := pStatement_exact_complete (eoi := eoi) h hn hr hc ht
  unfold pPaddedStatement
  refine paddedBy_ok.mpr ⟨[], [], [], _, _, _, _, newlines_ok.mpr ⟨rfl, nls0, hn0, rfl, rfl, ?_⟩,
    h2, newlines_ok.mpr ⟨rfl, nls', h1, rfl, rfl, hr'⟩, rfl⟩
  intro sp r' h'
  obtain ⟨t, l', rfl, h3, _⟩ := stmtX_head h
  injection h' with h' _
  exact h3 (by rw [h'])

theorem stmtsX_head {ss l} (h : StmtsX ss l) : l = [] ∨ ∃ t l', l = t :: l' ∧ t.1 ≠ .newline ∧ t.1 ≠ .punct ',' := by
  cases h with
  | nil => exact .inl rfl
  | cons h =>
    obtain ⟨t, l', rfl, h1, h2⟩ := stmtX_head h
    exact .inr ⟨t, _, rfl, h1, h2⟩

theorem stmtsX_noNewline {ss l} (h : StmtsX ss l) : ∀ sp r', l ≠ (.newline, sp) :: r' := by
  rintro sp r' rfl
  rcases stmtsX_head h with h | ⟨t, l', h, h1, _⟩
  · cases h
  · injection h with h _
    exact h1 (by rw [← h])

theorem stmtsX_noComma {ss l} (h : StmtsX ss l) : ∀ sp r', l ≠ (.punct ',', sp) :: r' := by
  rintro sp r' rfl
  rcases stmtsX_head h with h | ⟨t, l', h, _, h1⟩
  · cases h
  · injection h with h _
    exact h1 (by rw [← h])

theorem docItem_ok_clean {x} : Ok docItem eoi s [] x r ↔ Ok pPaddedStatement eoi s [] x r := by
  constructor
  · intro h
    rcases recoverSkip_ok.mp h with h | ⟨es0, e, s', es1, _, _, _, he⟩
    · exact h
    · simp at he
  · intro h
    exact recoverSkip_ok.mpr (.inl h)

theorem many_docItem_exact_sound {ss} (h : Many docItem eoi s es ss r) : es = [] → r = [] → Unglued s →
    DocX ss s ∧ ((∀ sp r', s ≠ (.newline, sp) :: r') → StmtsX ss s) := by
  induction h with
  | nil =>
    rintro _ rfl _
    exact ⟨⟨[], [], by simp [Newlines], .nil, rfl, fun _ => rfl⟩, fun _ => .nil⟩
  | cons h1 _ ih =>
    intro he hr ht
    obtain ⟨rfl, rfl⟩ := List.append_eq_nil_iff.mp he
    obtain ⟨nls, l, nls', a1, a2, a3, rfl, a4, a5⟩ := pPaddedStatement_exact_sound ht (docItem_ok_clean.mp h1)
    obtain ⟨_, h2⟩ := ih rfl hr ht.suffix.suffix
    have h3 := StmtsX.cons a2 a3 a4 (h2 a5)
    refine ⟨⟨nls, _, a1, h3, rfl, by simp⟩, ?_⟩
    intro hs
    have : nls = [] := by
      cases nls with
      | nil => rfl
      | cons t nls =>
        obtain ⟨nl, nls', h⟩ := newlines_cons a1 (by simp)
        rw [h] at hs
        exact absurd rfl (hs _ _)
    subst this
    exact h3

theorem many_docItem_exact_complete {ss l} (h : StmtsX ss l) : ∀ {nls0 : List Tok}, Newlines nls0 →
    (ss = [] → nls0 = []) → Unglued l → Many docItem eoi (nls0 ++ l) [] ss [] := by
  induction h with
  | nil =>
    intro nls0 _ hn _
    cases hn rfl
    exact .nil docItem_nil
  | @cons x ss l nls l' h1 h2 h3 h4 ih =>
    intro nls0 hn0 _ ht
    rw [List.append_assoc] at ht ⊢
    have := ih (nls0 := []) (by simp [Newlines]) (fun _ => rfl) ht.suffix.suffix
    exact .cons (es := []) (docItem_ok_clean.mpr (pPaddedStatement_exact_complete h1 hn0 h2 h3
      (fun _ _ _ _ _ _ _ _ _ h => stmtsX_noComma h4 _ _ h) (stmtsX_noNewline h4) ht)) this

/-- The parser accepts exactly the documents of the grammar. -/
theorem many_docItem_exact (ht : Unglued s) {ss} : Many docItem eoi s [] ss [] ↔ DocX ss s := by
  constructor
  · intro h
    exact (many_docItem_exact_sound h rfl rfl ht).1
  · rintro ⟨nls, body, h1, h2, rfl, h3⟩
    exact many_docItem_exact_complete h2 h1 h3 ht.suffix

end

theorem parseTokens_exact {n : Nat} {toks : List Tok} {ss}
    (ht : Unglued (toks.filter fun t => decide (t.1 ≠ Token.comment))) :
    parseTokens n toks = .ok (some ss, []) ↔ DocX ss (toks.filter fun t => decide (t.1 ≠ Token.comment)) :=
  ⟨fun h => (many_docItem_exact ht).mp (parseTokens_some h), fun h => parseTokens_of_many ((many_docItem_exact ht).mpr h)⟩

end HyperIR
