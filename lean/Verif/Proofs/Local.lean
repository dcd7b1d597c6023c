import Verif.Proofs.ParserComplete

/- What the parser reads of an error-free statement depends on its tokens alone: anything may
follow the line which ends it (src/hir_parser.rs:107-426).  An instruction may run over a line end
behind a comma, but never over a closing bracket at the end of a line.  That bracket is the guard
used here. -/

namespace HyperIR
open Spec

/-! ### Token lists without a closing bracket at the end of a line -/

/-- No line end behind a `}`; `b`: the token before the list is a `}`. -/
def Calm : Bool → List Tok → Prop
  | _, [] => True
  | b, t :: l => (b = true → t.1 ≠ .newline) ∧ Calm (decide (t.1 = .punct '}')) l

theorem Calm.weak {b l} (h : Calm true l) : Calm b l := by
  cases l with
  | nil => trivial
  | cons t l => exact ⟨fun _ => h.1 rfl, h.2⟩

theorem Calm.append {b l l'} (h : Calm b l) (h' : Calm true l') : Calm b (l ++ l') := by
  induction l generalizing b with
  | nil => exact h'.weak
  | cons t l ih => exact ⟨h.1, ih h.2⟩

theorem Calm.not_guard {b u c n w} (h : Calm b (u ++ (.punct '}', c) :: (.newline, n) :: w)) : False := by
  induction u generalizing b with
  | nil => exact h.2.1 (by simp) rfl
  | cons t u ih => exact ih h.2

theorem calm_noNewline {b} {l : List Tok} (h : ∀ t ∈ l, t.1 ≠ .newline) : Calm b l := by
  induction l generalizing b with
  | nil => trivial
  | cons t l ih =>
    exact ⟨fun _ => h _ (List.mem_cons_self ..), ih fun t ht => h _ (List.mem_cons_of_mem _ ht)⟩

theorem calm_operands {kw l} (h : Operands kw l) : Calm true l := by
  induction h with
  | nil => trivial
  | tok _ h2 _ ih => exact ⟨fun _ => h2, ih.weak⟩
  | comma _ _ ih => exact ⟨(by simp), (by simp), ih.weak⟩

theorem calm_commaSep {α : Type} {G : α → List Tok → Prop} (hG : ∀ x l, G x l → Calm true l) {xs l}
    (h : CommaSep G xs l) : Calm true l := by
  induction h with
  | nil => trivial
  | one h => exact hG _ _ h
  | cons h _ ih => exact (hG _ _ h).append ⟨by simp, ih.weak⟩

theorem calm_case {x l} (h : CaseG x l) : Calm true l := by
  obtain ⟨ty, v, k, e, rfl⟩ := h
  simp [Calm, typeTok, identTok]

theorem calm_edge {x l} (h : EdgeG x l) : Calm true l := by
  obtain ⟨o, c, vs, e, hv, rfl⟩ := h
  refine calm_noNewline ?_
  intro t ht
  simp only [List.cons_append, List.nil_append, List.mem_cons, List.mem_append, List.not_mem_nil, or_false] at ht
  rcases ht with rfl | rfl | rfl | h | rfl
  · simp
  · simp [identTok]
  · simp
  · exact (hv _ h).2
  · simp

theorem calm_dbg {d} : Calm true (dbgToks d) := by
  cases d <;> simp [dbgToks, dbgTok, Calm]

/-- A line end behind tokens without a guard comes before the end of the guard. -/
theorem calm_prefix {T r' u w : List Tok} {nl c n : Span} (hT : Calm true T)
    (h : T ++ (.newline, nl) :: r' = u ++ (.punct '}', c) :: (.newline, n) :: w) :
    ∃ q, u ++ [(.punct '}', c), (.newline, n)] = T ++ (.newline, nl) :: q ∧ r' = q ++ w := by
  rcases List.append_eq_append_iff.mp h with ⟨a, rfl, ha⟩ | ⟨a, rfl, ha⟩
  · cases a with
    | nil =>
      injection ha with ha _
      injection ha with ha _
      cases ha
    | cons t a =>
      injection ha with h1 h2
      subst h1 h2
      exact ⟨a ++ [(.punct '}', c), (.newline, n)], by simp, by simp⟩
  · cases a with
    | nil =>
      injection ha with ha _
      injection ha with ha _
      cases ha
    | cons t a =>
      injection ha with h1 h2
      subst h1
      cases a with
      | nil =>
        injection h2 with h2 h3
        injection h2 with h2 h4
        subst h3 h4
        exact ⟨[], by simp, by simp⟩
      | cons t a =>
        injection h2 with h2 _
        subst h2
        exact hT.not_guard.elim

/-! ### Instructions -/

/-- What comes behind a guard does not matter to `p`, which stops before a line end. -/
def Bounded (p : P Token α) : Prop := ∀ ⦃eoi u c n w es x r⦄,
  Ok p eoi (u ++ (.punct '}', c) :: (.newline, n) :: w) es x r →
  ∃ T nl q, u ++ [(.punct '}', c), (.newline, n)] = T ++ (.newline, nl) :: q ∧ T ≠ [] ∧
    r = (.newline, nl) :: q ++ w ∧
    ∀ eoi' w', ∃ es', (es' = [] ↔ es = []) ∧
      Ok p eoi' (u ++ (.punct '}', c) :: (.newline, n) :: w') es' x ((.newline, nl) :: q ++ w')

theorem Bounded.fails {p : P Token α} (hp : Bounded p) (hn : NoPanic p) {eoi eoi' u c n w w'}
    (h : Fails p eoi (u ++ (.punct '}', c) :: (.newline, n) :: w)) :
    Fails p eoi' (u ++ (.punct '}', c) :: (.newline, n) :: w') := by
  refine fails_of_not_ok hn ?_
  intro es x r h'
  obtain ⟨T, nl, q, _, _, _, h1⟩ := hp h'
  obtain ⟨es', _, h2⟩ := h1 eoi w
  exact h2.not_fails h

/-- A parser reading a fixed kind of token list up to a line end is bounded. -/
theorem bounded_of {p : P Token α} (h : ∀ {eoi s es x r}, Ok p eoi s es x r → ∃ T nl r',
    r = (.newline, nl) :: r' ∧ s = T ++ r ∧ T ≠ [] ∧ Calm true T ∧
    ∀ eoi' r'', ∃ es', (es' = [] ↔ es = []) ∧ Ok p eoi' (T ++ (.newline, nl) :: r'') es' x ((.newline, nl) :: r'')) :
    Bounded p := by
  intro eoi u c n w es x r hok
  obtain ⟨T, nl, r', rfl, hs, hT0, hT, hall⟩ := h hok
  obtain ⟨q, hq, rfl⟩ := calm_prefix hT hs.symm
  refine ⟨T, nl, q, hq, hT0, rfl, ?_⟩
  intro eoi' w'
  obtain ⟨es', h1, h2⟩ := hall eoi' (q ++ w')
  refine ⟨es', h1, ?_⟩
  have : u ++ (.punct '}', c) :: (.newline, n) :: w' = T ++ (.newline, nl) :: (q ++ w') := by
    have := congrArg (· ++ w') hq
    simpa using this
  rw [this]
  exact h2

theorem bounded_por {a b : P Token α} (ha : Bounded a) (hb : Bounded b) (na : NoPanic a) (nb : NoPanic b)
    (hc : Clean a ∨ Clean b) : Bounded (por a b) := by
  intro eoi u c n w es x r h
  rcases na.cases eoi (u ++ (.punct '}', c) :: (.newline, n) :: w) with ⟨ea, xa, ra, h1⟩ | h1
  · cases ea with
    | nil =>
      obtain ⟨rfl, rfl, rfl⟩ := h.det (por_ok_left h1)
      obtain ⟨T, nl, q, h2, h3, h4, h5⟩ := ha h1
      refine ⟨T, nl, q, h2, h3, h4, fun eoi' w' => ?_⟩
      obtain ⟨es', h6, h7⟩ := h5 eoi' w'
      cases h6.mpr rfl
      exact ⟨[], h6, por_ok_left h7⟩
    | cons e ea =>
      have hcb : Clean b := by
        rcases hc with hc | hc
        · cases hc.1 h1
        · exact hc
      obtain ⟨_, _, _, _, _, _, hall⟩ := ha h1
      rcases nb.cases eoi (u ++ (.punct '}', c) :: (.newline, n) :: w) with ⟨eb, xb, rb, h2⟩ | h2
      · cases hcb.1 h2
        obtain ⟨rfl, rfl, rfl⟩ := h.det (por_ok_right_clean h1 h2)
        obtain ⟨T, nl, q, h3, h4, h5, h6⟩ := hb h2
        refine ⟨T, nl, q, h3, h4, h5, fun eoi' w' => ?_⟩
        obtain ⟨es', h7, h8⟩ := h6 eoi' w'
        cases h7.mpr rfl
        obtain ⟨ea', h9, h10⟩ := hall eoi' w'
        cases ea' with
        | nil => cases h9.mp rfl
        | cons e' ea' => exact ⟨[], h7, por_ok_right_clean h10 h8⟩
      · obtain ⟨rfl, rfl, rfl⟩ := h.det (por_ok_left_dirty h1 h2)
        obtain ⟨T, nl, q, h3, h4, h5, h6⟩ := ha h1
        refine ⟨T, nl, q, h3, h4, h5, fun eoi' w' => ?_⟩
        obtain ⟨ea', h9, h10⟩ := h6 eoi' w'
        cases ea' with
        | nil => cases h9.mp rfl
        | cons e' ea' => exact ⟨_, h9, por_ok_left_dirty h10 (hb.fails nb h2)⟩
  · rcases por_ok_inv h with h2 | h2
    · exact absurd h1 h2.not_fails
    · obtain ⟨T, nl, q, h3, h4, h5, h6⟩ := hb h2
      refine ⟨T, nl, q, h3, h4, h5, fun eoi' w' => ?_⟩
      obtain ⟨es', h7, h8⟩ := h6 eoi' w'
      exact ⟨es', h7, por_ok_right (ha.fails na h1) h8⟩

theorem pBr_bounded : Bounded pBr := by
  refine bounded_of ?_
  intro eoi s es i r h
  obtain ⟨rfl, k, t, d, nl, r', rfl, rfl, rfl⟩ := pBr_ok.mp h
  exact ⟨_, nl, r', rfl, rfl, by simp, Calm.append (by simp [Calm, identTok]) calm_dbg,
    fun eoi' r'' => ⟨[], Iff.rfl, pBr_ok.mpr ⟨rfl, k, t, d, nl, r'', rfl, rfl, rfl⟩⟩⟩

theorem pCondBr_bounded : Bounded pCondBr := by
  refine bounded_of ?_
  intro eoi s es i r h
  obtain ⟨rfl, k, ti, v, c, t, c', e, d, nl, r', rfl, rfl, rfl⟩ := pCondBr_ok.mp h
  exact ⟨_, nl, r', rfl, rfl, by simp, Calm.append (by simp [Calm, identTok]) calm_dbg,
    fun eoi' r'' => ⟨[], Iff.rfl, pCondBr_ok.mpr ⟨rfl, k, ti, v, c, t, c', e, d, nl, r'', rfl, rfl, rfl⟩⟩⟩

theorem pOverflowBr_bounded : Bounded pOverflowBr := by
  refine bounded_of ?_
  intro eoi s es i r h
  obtain ⟨m, ops, c, k, e, t, c', k', e', t', d, nl, r', rfl, hops, rfl, rfl, hes⟩ := pOverflowBr_ok.mp h
  refine ⟨_, nl, r', rfl, rfl, by simp, ?_, fun eoi' r'' => ?_⟩
  · refine Calm.append (Calm.append ⟨by simp [identTok], (calm_operands hops).weak⟩ ?_) calm_dbg
    simp [Calm, identTok, overflowTail]
  · rcases hes with ⟨h1, rfl⟩ | ⟨h1, err, rfl, _⟩
    · exact ⟨[], Iff.rfl, pOverflowBr_ok.mpr ⟨m, ops, c, k, e, t, c', k', e', t', d, nl, r'', rfl, hops, rfl, rfl,
        .inl ⟨h1, rfl⟩⟩⟩
    · exact ⟨[_], by simp, pOverflowBr_ok.mpr ⟨m, ops, c, k, e, t, c', k', e', t', d, nl, r'', rfl, hops, rfl, rfl,
        .inr ⟨h1, _, rfl, rfl⟩⟩⟩

theorem pSwitch_bounded : Bounded pSwitch := by
  refine bounded_of ?_
  intro eoi s es i r h
  obtain ⟨rfl, k, ops, c, k', e, t, c', ts, cs, d, nl, r', rfl, hops, hcs, rfl, rfl⟩ := pSwitch_ok.mp h
  refine ⟨_, nl, r', rfl, rfl, by simp [switchHead], ?_, fun eoi' r'' => ⟨[], Iff.rfl, pSwitch_ok.mpr
    ⟨rfl, k, ops, c, k', e, t, c', ts, cs, d, nl, r'', rfl, hops, hcs, rfl, rfl⟩⟩⟩
  refine Calm.append (Calm.append ?_ (calm_commaSep (fun _ _ => calm_case) hcs)) calm_dbg
  exact Calm.append ⟨by simp, (calm_operands hops).weak⟩ (by simp [Calm, identTok])

theorem pPhi_bounded : Bounded pPhi := by
  refine bounded_of ?_
  intro eoi s es i r h
  obtain ⟨rfl, k, ts, cs, d, nl, r', rfl, hcs, rfl, rfl⟩ := pPhi_ok.mp h
  refine ⟨_, nl, r', rfl, rfl, by simp, ?_, fun eoi' r'' => ⟨[], Iff.rfl, pPhi_ok.mpr
    ⟨rfl, k, ts, cs, d, nl, r'', rfl, hcs, rfl, rfl⟩⟩⟩
  exact Calm.append ⟨by simp, (calm_commaSep (fun _ _ => calm_edge) hcs).weak⟩ calm_dbg

theorem pAnyInstruction_bounded : Bounded pAnyInstruction := by
  refine bounded_of ?_
  intro eoi s es i r h
  obtain ⟨rfl, m, l, d, nl, r', rfl, hl, hc, rfl, rfl⟩ := pAnyInstruction_ok.mp h
  refine ⟨_, nl, r', rfl, rfl, by simp, ?_, fun eoi' r'' => ⟨[], Iff.rfl, pAnyInstruction_ok.mpr
    ⟨rfl, m, l, d, nl, r'', rfl, hl, hc, rfl, rfl⟩⟩⟩
  exact Calm.append ⟨by simp [identTok], calm_noNewline fun t ht => (hl t ht).1⟩ calm_dbg

theorem pAnyInstruction_clean : Clean pAnyInstruction := by
  have := anyItems_clean
  unfold anyItem at this
  exact finish_clean (by clean)

theorem pInstructionKind_bounded : Bounded pInstructionKind := by
  have n1 := pBr_noPanic
  have n2 := pCondBr_noPanic
  have n3 := pOverflowBr_noPanic
  have n4 := pSwitch_noPanic
  have n5 := pPhi_noPanic
  have n6 := pAnyInstruction_noPanic
  have c1 := pBr_clean
  have c2 := pCondBr_clean
  unfold pInstructionKind
  refine bounded_por (bounded_por (bounded_por (bounded_por (bounded_por pBr_bounded pCondBr_bounded
    n1 n2 (.inl c1)) pOverflowBr_bounded ?_ n3 (.inl ?_)) pSwitch_bounded ?_ n4 (.inr pSwitch_clean))
    pPhi_bounded ?_ n5 (.inr pPhi_clean)) pAnyInstruction_bounded ?_ n6 (.inr pAnyInstruction_clean)
  · no_panic
  · clean
  all_goals no_panic

theorem pInstruction_bounded : Bounded pInstruction := by
  intro eoi u c n w es i r h
  unfold pInstruction at h
  rw [pmapSpan_ok] at h
  obtain ⟨⟨target, j⟩, h, rfl⟩ := h
  obtain ⟨ea, eb, m, h1, h2, rfl⟩ := pthen_ok.mp h
  rcases orNot_ok.mp h1 with ⟨y, rfl, h3⟩ | ⟨rfl, rfl, rfl, h3⟩
  · obtain ⟨rfl, ty, e, hs⟩ := pAssignment_ok.mp h3
    obtain ⟨u', rfl, rfl⟩ : ∃ u', u = [typeTok ty, localTok y, (.punct '=', e)] ++ u' ∧
        m = u' ++ (.punct '}', c) :: (.newline, n) :: w := by
      rcases u with _ | ⟨a, _ | ⟨a', _ | ⟨a'', u'⟩⟩⟩
      · simp [typeTok] at hs
      · simp [localTok] at hs
      · simp at hs
      · simp at hs
        obtain ⟨rfl, rfl, rfl, rfl⟩ := hs
        exact ⟨u', by simp, by simp⟩
    obtain ⟨T, nl, q, h4, h5, rfl, h6⟩ := pInstructionKind_bounded h2
    refine ⟨[typeTok ty, localTok y, (.punct '=', e)] ++ T, nl, q, by simp [h4], by simp, rfl, fun eoi' w' => ?_⟩
    obtain ⟨es', h7, h8⟩ := h6 eoi' w'
    refine ⟨es', by simpa using h7, ?_⟩
    unfold pInstruction
    rw [pmapSpan_ok]
    refine ⟨(some y, j), pthen_ok.mpr ⟨[], es', _, orNot_ok.mpr (.inl ⟨y, rfl, pAssignment_ok.mpr ⟨rfl, ty, e, ?_⟩⟩), h8, rfl⟩, ?_⟩
    · simp
    · have e1 : ∀ w, [typeTok ty, localTok y, (.punct '=', e)] ++ u' ++ (.punct '}', c) :: (.newline, n) :: w
          = ([typeTok ty, localTok y, (.punct '=', e)] ++ T) ++ ((.newline, nl) :: q ++ w) := by
        intro w
        have := congrArg (fun l => [typeTok ty, localTok y, (.punct '=', e)] ++ (l ++ w)) h4
        simpa using this
      rw [spanSince_eq (e1 w) (by simp), spanSince_eq (e1 w') (by simp)]
  · obtain ⟨T, nl, q, h4, h5, rfl, h6⟩ := pInstructionKind_bounded h2
    refine ⟨T, nl, q, h4, h5, rfl, fun eoi' w' => ?_⟩
    obtain ⟨es', h7, h8⟩ := h6 eoi' w'
    refine ⟨es', by simpa using h7, ?_⟩
    unfold pInstruction
    rw [pmapSpan_ok]
    refine ⟨(none, j), pthen_ok.mpr ⟨[], es', _, orNot_ok.mpr (.inr ⟨rfl, rfl, rfl, ?_⟩), h8, rfl⟩, ?_⟩
    · refine fails_of_not_ok pAssignment_noPanic ?_
      intro es x r h
      obtain ⟨rfl, ty, e, hs⟩ := pAssignment_ok.mp h
      refine Ok.not_fails (x := x) (r := (u ++ (.punct '}', c) :: (.newline, n) :: w).drop 3)
        (pAssignment_ok.mpr ⟨rfl, ty, e, ?_⟩) h3
      · rcases u with _ | ⟨a, _ | ⟨a', _ | ⟨a'', u'⟩⟩⟩
        · simp [typeTok] at hs
        · simp [localTok] at hs
        · simp at hs
        · simp at hs
          obtain ⟨rfl, rfl, rfl, rfl⟩ := hs
          simp
    · have e1 : ∀ w, u ++ (.punct '}', c) :: (.newline, n) :: w = T ++ ((.newline, nl) :: q ++ w) := by
        intro w
        have := congrArg (· ++ w) h4
        simpa using this
      rw [spanSince_eq (e1 w) h5, spanSince_eq (e1 w') h5]

/-! ### Lists of instructions and blocks in front of the guard -/

/-- What comes behind the guard does not matter to a success which stops before it. -/
def Sees (p : P Token α) : Prop := ∀ ⦃eoi u c n w es x v⦄,
  Ok p eoi (u ++ (.punct '}', c) :: (.newline, n) :: w) es x (v ++ (.punct '}', c) :: (.newline, n) :: w) →
  ∀ eoi' w', ∃ es', (es = [] → es' = []) ∧
    Ok p eoi' (u ++ (.punct '}', c) :: (.newline, n) :: w') es' x (v ++ (.punct '}', c) :: (.newline, n) :: w')

/-- What comes behind the guard does not matter to a failure. -/
def Stops (p : P Token α) : Prop := ∀ ⦃eoi u c n w⦄,
  Fails p eoi (u ++ (.punct '}', c) :: (.newline, n) :: w) →
  ∀ eoi' w', Fails p eoi' (u ++ (.punct '}', c) :: (.newline, n) :: w')

theorem newlines_split {nls m u w : List Tok} {c : Span} (hn : Newlines nls)
    (h : nls ++ m = u ++ (.punct '}', c) :: w) : ∃ u', u = nls ++ u' ∧ m = u' ++ (.punct '}', c) :: w := by
  rcases List.append_eq_append_iff.mp h with ⟨a, rfl, rfl⟩ | ⟨a, rfl, ha⟩
  · exact ⟨a, rfl, rfl⟩
  · cases a with
    | nil => exact ⟨[], by simp, by simpa using ha.symm⟩
    | cons t a =>
      injection ha with ha _
      have := hn t (by simp)
      rw [← ha] at this
      cases this

theorem guard_start {v w w' : List Tok} {c n : Span}
    (h : ∀ sp r', v ++ (.punct '}', c) :: (.newline, n) :: w ≠ (.newline, sp) :: r') (sp : Span) (r' : List Tok) :
    v ++ (.punct '}', c) :: (.newline, n) :: w' ≠ (.newline, sp) :: r' := by
  cases v with
  | nil => simp
  | cons t v =>
    intro h'
    injection h' with h1 _
    exact h sp _ (by rw [h1]; rfl)

theorem pPaddedInstruction_sees : Sees pPaddedInstruction := by
  intro eoi u c n w es i v h eoi' w'
  unfold pPaddedInstruction at h
  obtain ⟨e1, e2, e3, m, m', y, z, h1, h2, h3, rfl⟩ := paddedBy_ok.mp h
  obtain ⟨rfl, nls, hn, hs, rfl, hm⟩ := newlines_ok.mp h1
  obtain ⟨u', rfl, rfl⟩ := newlines_split hn hs.symm
  obtain ⟨T, nl, q, h4, h5, rfl, h6⟩ := pInstruction_bounded h2
  obtain ⟨rfl, nls', hn', hs', rfl, hm'⟩ := newlines_ok.mp h3
  obtain ⟨es', h7, h8⟩ := h6 eoi' w'
  have hq : (.newline, nl) :: q = nls' ++ v ++ [(.punct '}', c), (.newline, n)] := by
    have : ((.newline, nl) :: q) ++ w = (nls' ++ v ++ [(.punct '}', c), (.newline, n)]) ++ w := by
      simpa using hs'
    exact List.append_cancel_right this
  refine ⟨es', by simpa using h7.mpr, ?_⟩
  unfold pPaddedInstruction
  refine paddedBy_ok.mpr ⟨[], es', [], _, _, _, _, newlines_ok.mpr ⟨rfl, nls, hn, ?_, rfl, guard_start hm⟩, h8,
    newlines_ok.mpr ⟨rfl, nls', hn', ?_, rfl, guard_start hm'⟩, by simp⟩
  · simp
  · rw [hq]; simp

theorem pPaddedInstruction_stops : Stops pPaddedInstruction := by
  intro eoi u c n w h eoi' w'
  refine fails_of_not_ok pPaddedInstruction_noPanic ?_
  intro es x r h'
  unfold pPaddedInstruction at h'
  obtain ⟨e1, e2, e3, m, m', y, z, h1, h2, h3, rfl⟩ := paddedBy_ok.mp h'
  obtain ⟨rfl, nls, hn, hs, rfl, hm⟩ := newlines_ok.mp h1
  obtain ⟨u', rfl, rfl⟩ := newlines_split hn hs.symm
  obtain ⟨T, nl, q, h4, h5, rfl, h6⟩ := pInstruction_bounded h2
  obtain ⟨es', h7, h8⟩ := h6 eoi w
  obtain ⟨es9, xs9, r9, h9⟩ := Many.exists pNewline_noPanic pNewline_progress eoi _
    ((Token.newline, nl) :: q ++ w) (Nat.le_refl _)
  have h9 := (repeated_ok pNewline_noPanic pNewline_progress).mpr h9
  have : Ok pPaddedInstruction eoi (nls ++ u' ++ (.punct '}', c) :: (.newline, n) :: w) ([] ++ es' ++ es9) x r9 := by
    unfold pPaddedInstruction
    exact paddedBy_ok.mpr ⟨[], es', es9, _, _, _, _, newlines_ok.mpr ⟨rfl, nls, hn, by simp, rfl, guard_start hm⟩, h8,
      h9, rfl⟩
  exact this.not_fails h

theorem many_sees {p : P Token α} (hp : Sees p) (hs : Stops p) (hsuf : Suffix p) {eoi u c n w es xs v}
    (h : Many p eoi (u ++ (.punct '}', c) :: (.newline, n) :: w) es xs (v ++ (.punct '}', c) :: (.newline, n) :: w))
    (eoi' w') : ∃ es', (es = [] → es' = []) ∧
      Many p eoi' (u ++ (.punct '}', c) :: (.newline, n) :: w') es' xs (v ++ (.punct '}', c) :: (.newline, n) :: w') := by
  generalize hu : u ++ (.punct '}', c) :: (.newline, n) :: w = s at h
  generalize hv : v ++ (.punct '}', c) :: (.newline, n) :: w = r at h
  induction h generalizing u with
  | nil h =>
    subst hv
    cases List.append_cancel_right hu
    exact ⟨[], fun _ => rfl, .nil (hs h eoi' w')⟩
  | @cons s es x m es2 xs r h1 h2 ih =>
    subst hu hv
    obtain ⟨pre, rfl⟩ := h2.suffix hsuf
    rw [← List.append_assoc] at h1 ih
    obtain ⟨es', h3, h4⟩ := hp h1 eoi' w'
    obtain ⟨es2', h5, h6⟩ := ih rfl rfl
    refine ⟨es' ++ es2', ?_, .cons h4 h6⟩
    intro h
    obtain ⟨a, b⟩ := List.append_eq_nil_iff.mp h
    rw [h3 a, h5 b]; rfl

theorem pPaddedInstruction_suffix : Suffix pPaddedInstruction := by
  intro eoi s es x r h
  obtain ⟨nls, l, nls', _, _, _, _, rfl, _⟩ := pPaddedInstruction_sound h
  exact ⟨_, rfl⟩

theorem pBasicBlock_suffix : Suffix pBasicBlock := by
  intro eoi s es x r h
  obtain ⟨l, _, rfl⟩ := pBasicBlock_sound h
  exact ⟨_, rfl⟩

theorem pInitialBlock_suffix : Suffix pInitialBlock := by
  intro eoi s es x r h
  obtain ⟨l, _, rfl⟩ := pInitialBlock_sound h
  exact ⟨_, rfl⟩

theorem orNot_suffix {p : P Token α} (hp : Suffix p) : Suffix (orNot p) := by
  intro eoi s es x r h
  rcases orNot_ok.mp h with ⟨y, _, h⟩ | ⟨_, _, rfl, _⟩
  · exact hp h
  · exact ⟨[], rfl⟩

theorem pBasicBlock_ok {eoi s es b r} : Ok pBasicBlock eoi s es b r ↔ ∃ label comma nls is m,
    Newlines nls ∧ nls ≠ [] ∧ (∀ sp r', m ≠ (.newline, sp) :: r') ∧
    s = identTok label :: (.punct ':', comma) :: (nls ++ m) ∧ Many pPaddedInstruction eoi m es is r ∧
    b = mkBasicBlock label comma is := by
  unfold pBasicBlock
  simp only [pmap_ok]
  constructor
  · rintro ⟨⟨⟨label, comma⟩, is⟩, h, rfl⟩
    simp only [pthen_ok, thenIgnore_ok, pIdent_ok, punctSpan_ok, newlines1_ok,
      repeated_ok pPaddedInstruction_noPanic pPaddedInstruction_progress] at h
    obtain ⟨_, _, m, ⟨_, _, _, _, ⟨_, _, _, ⟨rfl, rfl⟩, ⟨rfl, c, rfl, rfl⟩, rfl⟩,
      ⟨rfl, nls, hn, hn', rfl, _, hm⟩, rfl⟩, h3, rfl⟩ := h
    exact ⟨label, comma, nls, is, m, hn, hn', hm, rfl, by simpa using h3, rfl⟩
  · rintro ⟨label, comma, nls, is, m, hn, hn', hm, rfl, h3, rfl⟩
    refine ⟨((label, comma), is), ?_, rfl⟩
    simp only [pthen_ok, thenIgnore_ok, pIdent_ok, punctSpan_ok, newlines1_ok,
      repeated_ok pPaddedInstruction_noPanic pPaddedInstruction_progress]
    exact ⟨[], es, m, ⟨[], [], _, _, ⟨[], [], _, ⟨rfl, rfl⟩, ⟨rfl, comma, rfl, rfl⟩, rfl⟩,
      ⟨rfl, nls, hn, hn', rfl, rfl, hm⟩, rfl⟩, h3, by simp⟩

/-- The label, the colon and the line ends of a block lie in front of the guard. -/
theorem block_split {label : Spanned Str} {comma : Span} {nls m u w : List Tok} {c n : Span} (hn : Newlines nls)
    (h : u ++ (.punct '}', c) :: (.newline, n) :: w = identTok label :: (.punct ':', comma) :: (nls ++ m)) :
    ∃ u', u = identTok label :: (.punct ':', comma) :: (nls ++ u') ∧ m = u' ++ (.punct '}', c) :: (.newline, n) :: w := by
  rcases u with _ | ⟨a, _ | ⟨a', u'⟩⟩
  · simp [identTok] at h
  · simp at h
  · simp only [List.cons_append, List.cons.injEq] at h
    obtain ⟨rfl, rfl, h⟩ := h
    obtain ⟨u'', rfl, rfl⟩ := newlines_split hn h.symm
    exact ⟨u'', rfl, rfl⟩

theorem pBasicBlock_sees : Sees pBasicBlock := by
  intro eoi u c n w es b v h eoi' w'
  obtain ⟨label, comma, nls, is, m, hn, hn', hm, hs, h3, rfl⟩ := pBasicBlock_ok.mp h
  obtain ⟨u', rfl, rfl⟩ := block_split hn hs
  obtain ⟨es', h4, h5⟩ := many_sees pPaddedInstruction_sees pPaddedInstruction_stops pPaddedInstruction_suffix h3 eoi' w'
  exact ⟨es', h4, pBasicBlock_ok.mpr ⟨label, comma, nls, is, _, hn, hn', guard_start hm, by simp, h5, rfl⟩⟩

theorem pBasicBlock_stops : Stops pBasicBlock := by
  intro eoi u c n w h eoi' w'
  refine fails_of_not_ok pBasicBlock_noPanic ?_
  intro es x r h'
  obtain ⟨label, comma, nls, is, m, hn, hn', hm, hs, h3, rfl⟩ := pBasicBlock_ok.mp h'
  obtain ⟨u', rfl, rfl⟩ := block_split hn hs
  obtain ⟨es9, xs9, r9, h9⟩ := Many.exists pPaddedInstruction_noPanic pPaddedInstruction_progress eoi _
    (u' ++ (.punct '}', c) :: (.newline, n) :: w) (Nat.le_refl _)
  exact (pBasicBlock_ok.mpr ⟨label, comma, nls, xs9, _, hn, hn', guard_start hm, by simp, h9, rfl⟩).not_fails h

theorem pInitialBlock_sees : Sees pInitialBlock := by
  intro eoi u c n w es b v h eoi' w'
  unfold pInitialBlock at h
  obtain ⟨is, h1, h2⟩ := pmapOutcome_ok.mp h
  obtain ⟨h3, h4⟩ := (repeatedAtLeast_ok pPaddedInstruction_noPanic pPaddedInstruction_progress).mp h1
  obtain ⟨es', h5, h6⟩ := many_sees pPaddedInstruction_sees pPaddedInstruction_stops pPaddedInstruction_suffix h3 eoi' w'
  refine ⟨es', h5, ?_⟩
  unfold pInitialBlock
  exact pmapOutcome_ok.mpr ⟨is,
    (repeatedAtLeast_ok pPaddedInstruction_noPanic pPaddedInstruction_progress).mpr ⟨h6, h4⟩, h2⟩

theorem pInitialBlock_stops : Stops pInitialBlock := by
  intro eoi u c n w h eoi' w'
  unfold pInitialBlock at h ⊢
  obtain ⟨es, xs, r, h1, h2⟩ := (repeatedAtLeast_fails pPaddedInstruction_noPanic pPaddedInstruction_progress).mp
    (pmapOutcome_fails.mp h)
  refine pmapOutcome_fails.mpr ((repeatedAtLeast_fails pPaddedInstruction_noPanic pPaddedInstruction_progress).mpr ?_)
  cases h1 with
  | nil h1 => exact ⟨[], [], _, .nil (pPaddedInstruction_stops h1 eoi' w'), h2⟩
  | cons => simp at h2

theorem guard_inj {u pre w : List Tok} {c c' n : Span}
    (h : u ++ (.punct '}', c) :: (.newline, n) :: w = pre ++ (.punct '}', c') :: (.newline, n) :: w) :
    u = pre ∧ c = c' := by
  have h2 := List.append_inj' h (by simp)
  obtain ⟨h1, h2⟩ := h2
  simp at h2
  exact ⟨h1, h2⟩

theorem pFuncBody_local {eoi u c n w es b}
    (h : Ok pFuncBody eoi (u ++ (.punct '}', c) :: (.newline, n) :: w) es b ((.newline, n) :: w)) (eoi' w') :
    ∃ es', (es = [] → es' = []) ∧
      Ok pFuncBody eoi' (u ++ (.punct '}', c) :: (.newline, n) :: w') es' b ((.newline, n) :: w') := by
  unfold pFuncBody at h
  simp only [pmap_ok] at h
  obtain ⟨⟨⟨⟨o, init⟩, bbs⟩, k⟩, h, rfl⟩ := h
  simp only [pthen_ok, thenIgnore_ok, punctSpan_ok, newlines1_ok,
    repeated_ok pBasicBlock_noPanic pBasicBlock_progress] at h
  obtain ⟨_, _, _, ⟨ei, _, _, ⟨_, _, m0, ⟨_, _, _, _, ⟨rfl, o', rfl, hs⟩, ⟨rfl, nls, hn, hn', rfl, _, hm⟩, rfl⟩, hi, rfl⟩, hb, rfl⟩,
    ⟨rfl, c', rfl, rfl⟩, rfl⟩ := h
  obtain ⟨u1, hu1, rfl⟩ : ∃ u1, u = (.punct '{', o) :: (nls ++ u1) ∧ m0 = u1 ++ (.punct '}', c) :: (.newline, n) :: w := by
    cases u with
    | nil => simp at hs
    | cons a u =>
      rw [List.cons_append] at hs
      injection hs with h0 hs
      subst h0
      obtain ⟨u1, rfl, h1⟩ := newlines_split hn hs.symm
      exact ⟨u1, rfl, h1⟩
  subst hu1
  obtain ⟨pre, rfl⟩ := hb.suffix pBasicBlock_suffix
  obtain ⟨pre0, hpre0⟩ := (orNot_suffix pInitialBlock_suffix) hi
  rw [← List.append_assoc] at hpre0
  obtain ⟨rfl, rfl⟩ := guard_inj hpre0
  obtain ⟨eb', h1, h2⟩ := many_sees pBasicBlock_sees pBasicBlock_stops pBasicBlock_suffix (v := []) hb eoi' w'
  obtain ⟨ei', h3, h4⟩ : ∃ ei', (ei = [] → ei' = []) ∧ Ok (orNot pInitialBlock) eoi'
      (pre0 ++ pre ++ (.punct '}', c) :: (.newline, n) :: w') ei' init (pre ++ (.punct '}', c) :: (.newline, n) :: w') := by
    rcases orNot_ok.mp hi with ⟨y, rfl, h2⟩ | ⟨rfl, rfl, h0, h2⟩
    · obtain ⟨ei', h3, h4⟩ := pInitialBlock_sees h2 eoi' w'
      exact ⟨ei', h3, orNot_ok.mpr (.inl ⟨y, rfl, h4⟩)⟩
    · have : pre0 = [] := by simpa using h0
      subst this
      exact ⟨[], fun _ => rfl, orNot_ok.mpr (.inr ⟨rfl, rfl, rfl, pInitialBlock_stops h2 eoi' w'⟩)⟩
  refine ⟨ei' ++ eb', ?_, ?_⟩
  · intro h
    simp only [List.append_nil, List.append_eq_nil_iff] at h
    rw [h3 h.1, h1 h.2]; rfl
  · unfold pFuncBody
    simp only [pmap_ok]
    refine ⟨(((o, init), bbs), c), ?_, rfl⟩
    simp only [pthen_ok, thenIgnore_ok, punctSpan_ok, newlines1_ok,
      repeated_ok pBasicBlock_noPanic pBasicBlock_progress]
    exact ⟨ei' ++ eb', [], _, ⟨ei', eb', _, ⟨[], ei', _, ⟨[], [], _, _, ⟨rfl, o, rfl, rfl⟩,
      ⟨rfl, nls, hn, hn', by simp, rfl, guard_start hm⟩, rfl⟩, h4, by simp⟩, h2, rfl⟩, ⟨rfl, c, rfl, rfl⟩, by simp⟩

/-! ### Statements -/

theorem commaSep_noNewline {α : Type} {G : α → List Tok → Prop}
    (hG : ∀ x l, G x l → ∀ t ∈ l, t.1 ≠ .newline) {xs l} (h : CommaSep G xs l) :
    ∀ t ∈ l, t.1 ≠ .newline := by
  induction h with
  | nil => simp
  | one h => exact hG _ _ h
  | cons h _ ih =>
    intro t ht
    simp only [List.mem_append, List.mem_cons] at ht
    rcases ht with ht | rfl | ht
    · exact hG _ _ h t ht
    · simp
    · exact ih t ht

theorem sig_noNewline {x l} (h : SigG x l) : ∀ t ∈ l, t.1 ≠ .newline := by
  obtain ⟨o, args, c, h, rfl⟩ := h
  intro t ht
  simp only [List.mem_append, List.mem_cons, List.mem_map, List.not_mem_nil, or_false] at ht
  rcases ht with ((⟨m, _, rfl⟩ | rfl | rfl | rfl) | ht) | rfl
  · simp [modTok]
  · simp [typeTok]
  · simp [globalTok]
  · simp
  · refine commaSep_noNewline ?_ h t ht
    rintro x _ rfl t ht
    simp only [List.mem_cons, List.not_mem_nil, or_false] at ht
    rcases ht with rfl | rfl
    · simp [typeTok]
    · simp [localTok]
  · simp

/-- The same statement is read, whatever follows its last line. -/
theorem pStatement_local {eoi s x r} (h : Ok pStatement eoi s [] x r)
    (hlast : ∃ l n, s = l ++ [(.newline, n)]) (hr : ∀ sp r', r ≠ (.punct ',', sp) :: r')
    (eoi' t) : Ok pStatement eoi' (s ++ t) [] x (r ++ t) := by
  obtain ⟨l0, n0, hlast⟩ := hlast
  have hfin : ∀ (l eol : List Tok), (∀ t ∈ l, t.1 ≠ .newline) → s = l ++ eol ++ r →
      ((∃ sp, eol = [(.newline, sp)]) ∨ (eol = [] ∧ r = [])) → ∃ sp, eol = [(.newline, sp)] := by
    rintro l eol h1 h2 (h3 | ⟨rfl, rfl⟩)
    · exact h3
    · exfalso
      have h4 : (Token.newline, n0) ∈ l := by
        simp only [List.append_nil] at h2
        rw [← h2, hlast]
        simp
      exact h1 _ h4 rfl
  unfold pStatement at h ⊢
  rcases por_ok_inv h with h | h
  · rcases por_ok_inv h with h | h
    · rcases por_ok_inv h with h | h
      · rcases por_ok_inv h with h | h
        · obtain ⟨_, n, e, d, eol, hd, rfl, rfl, h1⟩ := pGlobalVar_ok.mp h
          obtain ⟨sp, rfl⟩ := hfin _ eol (by
            intro t ht
            simp only [List.mem_cons] at ht
            rcases ht with rfl | rfl | ht
            · simp [globalTok]
            · simp
            · exact hd t ht) rfl h1
          exact por_ok_left (por_ok_left (por_ok_left (por_ok_left (pGlobalVar_ok.mpr
            ⟨rfl, n, e, d, _, hd, rfl, by simp, .inl ⟨sp, rfl⟩⟩))))
        · unfold pFuncDecl at h
          simp only [pmap_ok] at h
          obtain ⟨⟨⟨sg, a⟩, d⟩, g, rfl⟩ := h
          simp only [thenIgnore_ok, pthen_ok, ignoreThen_ok, just_ok, pFuncSignature_ok, orNotDbg_ok, pEol_ok] at g
          obtain ⟨_, _, m1, _, ⟨_, _, m2, ⟨ea, _, m3, ⟨_, _, _, _, ⟨rfl, rfl, k, rfl⟩, ⟨rfl, l, hl, rfl⟩, rfl⟩, ha, rfl⟩,
            ⟨rfl, rfl, hd⟩, rfl⟩, ⟨rfl, rfl, h1⟩, he⟩ := g
          obtain ⟨la, h2, h3, h4⟩ : ∃ la : List Tok, m3 = la ++ (dbgToks d ++ m1) ∧ (∀ t ∈ la, t.1 ≠ .newline) ∧
              ∀ nl w, m1 = (.newline, nl) :: w → ∀ w', Ok (orNot pFuncAddr) eoi' (la ++ (dbgToks d ++ (.newline, nl) :: w')) [] a
                (dbgToks d ++ (.newline, nl) :: w') := by
            rcases orNot_ok.mp ha with ⟨y, rfl, h3⟩ | ⟨rfl, rfl, rfl, h3⟩
            · obtain ⟨rfl, e, rfl⟩ := pFuncAddr_ok.mp h3
              exact ⟨[(.punct '=', e), hexTok y], rfl, by simp [hexTok],
                fun nl w _ w' => orNot_ok.mpr (.inl ⟨y, rfl, pFuncAddr_ok.mpr ⟨rfl, e, rfl⟩⟩)⟩
            · refine ⟨[], rfl, by simp, fun nl w _ w' => orNot_ok.mpr (.inr ⟨rfl, rfl, rfl, ?_⟩)⟩
              refine fails_of_not_ok pFuncAddr_noPanic ?_
              intro es x r h
              obtain ⟨_, e, h⟩ := pFuncAddr_ok.mp h
              cases d <;> simp [dbgToks, dbgTok] at h
          subst h2
          obtain ⟨sp, rfl⟩ : ∃ sp, m1 = (.newline, sp) :: r := by
            rcases h1 with h1 | ⟨rfl, rfl⟩
            · exact h1
            · exfalso
              have h5 : (Token.newline, n0) ∈ (Token.declare, k) :: (l ++ (la ++ (dbgToks d ++ []))) := by
                rw [hlast]; simp
              simp only [List.append_nil, List.mem_cons, List.mem_append] at h5
              rcases h5 with h5 | h5 | h5 | h5
              · simp at h5
              · exact sig_noNewline hl _ h5 rfl
              · exact h3 _ h5 rfl
              · cases d <;> simp [dbgToks, dbgTok] at h5
          refine por_ok_left (por_ok_left (por_ok_left (por_ok_right (pGlobalVar_fails_of (by simp)) ?_)))
          unfold pFuncDecl
          refine pmap_ok.mpr ⟨((sg, a), d), ?_, rfl⟩
          simp only [thenIgnore_ok, pthen_ok, ignoreThen_ok, just_ok, pFuncSignature_ok, orNotDbg_ok, pEol_ok]
          exact ⟨[], [], _, _, ⟨[], [], _, ⟨[], [], _, ⟨[], [], _, _, ⟨rfl, rfl, k, rfl⟩, ⟨rfl, l, hl, by simp⟩, rfl⟩,
            h4 sp r rfl (r ++ t), rfl⟩, ⟨rfl, rfl, by simp⟩, rfl⟩, ⟨rfl, rfl, .inl ⟨sp, rfl⟩⟩, rfl⟩
      · unfold pFuncDef at h
        simp only [pmap_ok] at h
        obtain ⟨⟨⟨k, sg⟩, b⟩, g, rfl⟩ := h
        simp only [thenIgnore_ok, pthen_ok, justSpan_ok, pFuncSignature_ok, pEol_ok] at g
        obtain ⟨_, _, m1, _, ⟨_, _, m2, ⟨_, _, _, ⟨rfl, k', rfl, rfl⟩, ⟨rfl, l, hl, rfl⟩, rfl⟩, hb, rfl⟩,
          ⟨rfl, rfl, h1⟩, he⟩ := g
        obtain ⟨bl, hbl, rfl⟩ := pFuncBody_sound hb
        obtain ⟨nls, bl, hn, hn', hall, rfl⟩ := hbl
        obtain ⟨sp, rfl⟩ : ∃ sp, m1 = (.newline, sp) :: r := by
          rcases h1 with h1 | ⟨rfl, rfl⟩
          · exact h1
          · exfalso
            have h5 := congrArg List.getLast? hlast
            simp [List.getLast?_append, List.getLast?_cons] at h5
        simp only [List.append_nil] at he
        have he' := he.symm
        subst he'
        have hb' : Ok pFuncBody eoi (((.punct '{', b.openingBracket) :: nls ++ bl) ++
            (.punct '}', b.closingBracket) :: (.newline, sp) :: r) [] b ((.newline, sp) :: r) := by simpa using hb
        obtain ⟨es', h6, h7⟩ := pFuncBody_local hb' eoi' (r ++ t)
        cases h6 rfl
        refine por_ok_left (por_ok_left (por_ok_right (por_fails.mpr ⟨
          pGlobalVar_fails_of (by simp), pFuncDecl_fails_of (by simp)⟩) ?_))
        unfold pFuncDef
        refine pmap_ok.mpr ⟨((k, sg), b), ?_, rfl⟩
        simp only [thenIgnore_ok, pthen_ok, justSpan_ok, pFuncSignature_ok, pEol_ok]
        exact ⟨[], [], _, _, ⟨[], [], _, ⟨[], [], _, ⟨rfl, k, rfl, rfl⟩, ⟨rfl, l, hl, by simp⟩, rfl⟩, h7, rfl⟩,
          ⟨rfl, rfl, .inl ⟨sp, rfl⟩⟩, rfl⟩
    · unfold pFuncDependencies at h
      simp only [pmap_ok] at h
      obtain ⟨⟨d, ds⟩, g, rfl⟩ := h
      simp only [thenIgnore_ok, pthen_ok, pGlobalName_ok, pKeyword_ok] at g
      obtain ⟨_, _, m, ⟨_, _, _, _, ⟨_, _, _, _, ⟨rfl, rfl⟩, ⟨rfl, rfl, k, rfl⟩, rfl⟩, ⟨rfl, rfl, k', rfl⟩, rfl⟩, hd, rfl⟩ := g
      have hsuf : Suffix pGlobalName := by
        intro eoi s es x r h
        obtain ⟨_, rfl⟩ := pGlobalName_ok.mp h
        exact ⟨[_], rfl⟩
      obtain ⟨_, hsep⟩ := (separatedBy_ok pGlobalName_noPanic pPunct_noPanic pGlobalName_clean pPunct_clean
        pPunct_progress hsuf).mp hd
      obtain ⟨_, l, hl, rfl⟩ := sepList_sound (G := fun x l => l = [globalTok x])
        pGlobalName_noPanic pGlobalName_clean depItem_ok hd
      cases r with
      | nil =>
        exfalso
        have h5 : (Token.newline, n0) ∈ globalTok d :: (Token.ident c!"depends", k) :: (Token.ident c!"on", k') :: (l ++ []) := by
          rw [hlast]; simp
        simp only [List.append_nil, List.mem_cons] at h5
        rcases h5 with h5 | h5 | h5 | h5
        · simp [globalTok] at h5
        · simp at h5
        · simp at h5
        · refine commaSep_noNewline (G := fun x l => l = [globalTok x]) ?_ hl _ h5 rfl
          rintro x _ rfl t ht
          simp at ht
          simp [ht, globalTok]
      | cons a r =>
        refine por_ok_left (por_ok_right (por_fails.mpr ⟨por_fails.mpr ⟨
          pGlobalVar_fails_of (by simp), pFuncDecl_fails_of (by simp [globalTok])⟩, pFuncDef_fails_of (by simp [globalTok])⟩) ?_)
        unfold pFuncDependencies
        refine pmap_ok.mpr ⟨(d, ds), ?_, rfl⟩
        simp only [thenIgnore_ok, pthen_ok, pGlobalName_ok, pKeyword_ok]
        refine ⟨[], [], _, ⟨[], [], _, _, ⟨[], [], _, _, ⟨rfl, rfl⟩, ⟨rfl, rfl, k, rfl⟩, rfl⟩, ⟨rfl, rfl, k', rfl⟩, rfl⟩, ?_, rfl⟩
        refine (separatedBy_ok pGlobalName_noPanic pPunct_noPanic pGlobalName_clean pPunct_clean
          pPunct_progress hsuf).mpr ⟨rfl, ?_⟩
        have := sep_of_commaSep (eoi := eoi') (item := pGlobalName) (G := fun x l => l = [globalTok x]) (r := a :: r ++ t)
          (xs := ds) (l := l) (by rintro x _ r rfl; exact pGlobalName_ok.mpr ⟨rfl, rfl⟩)
          (by
            intro sp r' h
            injection h with h _
            exact hr sp r (by rw [h]))
          (by
            rintro rfl
            cases hl
            cases hsep with
            | nil hf =>
              refine pGlobalName_fails.mpr ?_
              intro x sp r' h
              injection h with h _
              exact pGlobalName_fails.mp hf x sp r (by rw [h]; rfl)) hl
        simpa using this
  · obtain ⟨_, n, e, d, eol, hd, rfl, rfl, h1⟩ := pDbgAnnotation_ok.mp h
    obtain ⟨sp, rfl⟩ := hfin _ eol (by
      intro t ht
      simp only [List.mem_cons] at ht
      rcases ht with rfl | rfl | ht
      · simp [dbgTok]
      · simp
      · exact hd t ht) rfl h1
    refine por_ok_right (por_fails.mpr ⟨por_fails.mpr ⟨por_fails.mpr ⟨
      pGlobalVar_fails_of (by simp [dbgTok]), pFuncDecl_fails_of (by simp [dbgTok])⟩, pFuncDef_fails_of (by simp [dbgTok])⟩,
      pFuncDependencies_fails_of (by simp [dbgTok])⟩) (pDbgAnnotation_ok.mpr
      ⟨rfl, n, e, d, _, hd, rfl, by simp, .inl ⟨sp, rfl⟩⟩)

/-! ### Documents -/

theorem ends_of_append {a b l : List Tok} {n : Span} (h : a ++ b = l ++ [(.newline, n)]) (hb : b ≠ []) :
    ∃ l n, b = l ++ [(.newline, n)] := by
  rcases List.append_eq_append_iff.mp h with ⟨c, rfl, rfl⟩ | ⟨c, rfl, hc⟩
  · exact ⟨c, n, rfl⟩
  · rcases List.append_eq_singleton_iff.mp hc.symm with ⟨rfl, rfl⟩ | ⟨_, rfl⟩
    · exact ⟨[], n, rfl⟩
    · exact absurd rfl hb

/-- The same statement is read with the line ends around it, whatever follows; if it is the last
one, it also takes the line ends which come next. -/
theorem pPaddedStatement_local {eoi s x m} (h : Ok pPaddedStatement eoi s [] x m)
    (hlast : ∃ l n, s = l ++ [(.newline, n)]) (hm : ∀ sp r', m ≠ (.punct ',', sp) :: r')
    (eoi' : Span) {nls0 t : List Tok} (h0 : Newlines nls0) (ht : m = [] → ∀ sp r', t ≠ (.newline, sp) :: r') :
    Ok pPaddedStatement eoi' (s ++ (nls0 ++ t)) [] x (if m = [] then t else m ++ (nls0 ++ t)) := by
  unfold pPaddedStatement at h ⊢
  obtain ⟨e1, e2, e3, s1, m1, y, z, h1, h2, h3, he⟩ := paddedBy_ok.mp h
  obtain ⟨rfl, nls, hn, rfl, rfl, hs1⟩ := newlines_ok.mp h1
  obtain ⟨rfl, nls', hn', rfl, rfl, hm1⟩ := newlines_ok.mp h3
  simp only [List.append_nil, List.nil_append] at he
  subst he
  obtain ⟨l, eol, hl, rfl, he, he'⟩ := pStatement_sound h2
  have hne : l ++ eol ++ (nls' ++ m) ≠ [] := by simp [stmtG_ne_nil hl]
  obtain ⟨l0, n0, hlast⟩ := hlast
  have h4 := pStatement_local h2 (ends_of_append hlast hne) (by
    intro sp r' h
    cases nls' with
    | nil => exact hm sp r' h
    | cons a nls' =>
      injection h with h _
      have := hn' a (by simp)
      rw [h] at this
      cases this) eoi' (nls0 ++ t)
  have h5 : Ok (repeated pNewline) eoi' (nls ++ (l ++ eol ++ (nls' ++ m)) ++ (nls0 ++ t)) []
      (nls.map Prod.fst) (l ++ eol ++ (nls' ++ m) ++ (nls0 ++ t)) := by
    refine newlines_ok.mpr ⟨rfl, nls, hn, by simp, rfl, ?_⟩
    intro sp r' h
    generalize l ++ eol ++ (nls' ++ m) = q at h hne hs1
    cases q with
    | nil => exact hne rfl
    | cons a q =>
      injection h with h _
      exact hs1 sp q (by rw [h])
  by_cases hm0 : m = []
  · subst hm0
    rw [if_pos rfl]
    exact paddedBy_ok.mpr ⟨[], [], [], _, _, _, _, h5, h4,
      newlines_ok.mpr ⟨rfl, nls' ++ nls0, newlines_append hn' h0, by simp, rfl, ht rfl⟩, rfl⟩
  · rw [if_neg hm0]
    refine paddedBy_ok.mpr ⟨[], [], [], _, _, _, _, h5, h4, newlines_ok.mpr ⟨rfl, nls', hn', by simp, rfl, ?_⟩, rfl⟩
    intro sp r' h
    cases m with
    | nil => exact hm0 rfl
    | cons a m =>
      injection h with h _
      exact hm1 sp m (by rw [h])

theorem docItem_clean {eoi s x m} (h : Ok docItem eoi s [] x m) : Ok pPaddedStatement eoi s [] x m := by
  rcases recoverSkip_ok.mp h with h | ⟨es0, e, s', es1, _, h2, h3, he⟩
  · exact h
  · simp at he

theorem stmtG_no_comma {x l sp r r'} (h : StmtG x l) : l ++ r ≠ (.punct ',', sp) :: r' := by
  intro h'
  cases h <;> simp [globalTok, dbgTok] at h'

/-- An error-free document can be continued. -/
theorem many_docItem_append {eoi s es ss q} (h : Many docItem eoi s es ss q) (he : es = []) (hq : q = [])
    (hlast : ∃ l n, s = l ++ [(.newline, n)]) {eoi' : Span} {nls0 t es' ts r} (h0 : Newlines nls0)
    (ht : ∀ sp r', t ≠ (.newline, sp) :: r') (h' : Many docItem eoi' t es' ts r) :
    Many docItem eoi' (s ++ (nls0 ++ t)) es' (ss ++ ts) r := by
  induction h with
  | nil =>
    subst hq
    obtain ⟨l, n, h⟩ := hlast
    simp at h
  | @cons s es x m es2 ss q h1 h2 ih =>
    obtain ⟨rfl, rfl⟩ := List.append_eq_nil_iff.mp he
    have h3 := docItem_clean h1
    obtain ⟨nls, l, nls', a1, a2, a3, rfl, a4⟩ := pPaddedStatement_sound h3
    have hmn : ∀ sp r', m ≠ (.punct ',', sp) :: r' := by
      intro sp r' hm'
      clear ih
      generalize hz : ([] : List (LErr Token)) = z at h2
      cases h2 with
      | nil => rw [hq] at hm'; cases hm'
      | @cons _ e1 y m2 e2 ys _ g1 g2 =>
        obtain ⟨rfl, rfl⟩ : e1 = [] ∧ e2 = [] := List.append_eq_nil_iff.mp hz.symm
        obtain ⟨nls2, l2, nls2', b1, b2, b3, b4, b5⟩ := pPaddedStatement_sound (docItem_clean g1)
        rw [hm'] at b4
        cases nls2 with
        | nil =>
          simp only [List.nil_append, List.append_assoc] at b4
          exact stmtG_no_comma b2 b4.symm
        | cons a nls2 =>
          injection b4 with b4 _
          have := b1 a (by simp)
          rw [← b4] at this
          cases this
    have h5 := pPaddedStatement_local h3 hlast hmn eoi' h0 (t := t) (fun _ => ht)
    refine .cons (es := []) (recoverSkip_ok.mpr (.inl h5)) ?_
    by_cases hm0 : m = []
    · subst hm0
      rw [if_pos rfl]
      have hss : ss = [] := by
        clear ih
        generalize ([] : List (LErr Token)) = z at h2
        cases h2 with
        | nil => rfl
        | cons h6 => exact absurd (docItem_progress h6) (by simp)
      subst hss
      exact h'
    · rw [if_neg hm0]
      obtain ⟨l', n, hl'⟩ := hlast
      exact ih rfl hq (ends_of_append hl' hm0)

end HyperIR
