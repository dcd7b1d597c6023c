import Verif.Proofs.ParserSound
import Verif.Spec.Module

/- Completeness of the parser (src/hir_parser.rs:74-426): well-formed modules are accepted without
an error and give the tree they are printed from. -/

namespace HyperIR
open Spec

/-! ### Token kinds -/

/-- The tokens without their ranges. -/
abbrev kinds (l : List Tok) : List Token := l.map Prod.fst

theorem kinds_cons {l : List Tok} {a ks} (h : kinds l = a :: ks) :
    ∃ (sp : Span) (l' : List Tok), l = (a, sp) :: l' ∧ kinds l' = ks := by
  obtain ⟨⟨b, sp⟩, l', rfl, h1, h2⟩ := List.map_eq_cons_iff.mp h
  cases h1
  exact ⟨sp, l', rfl, h2⟩

theorem kinds_nil {l : List Tok} (h : kinds l = []) : l = [] := by simpa [kinds] using h

theorem kinds_append {l : List Tok} {a b} (h : kinds l = a ++ b) :
    ∃ (l1 l2 : List Tok), l = l1 ++ l2 ∧ kinds l1 = a ∧ kinds l2 = b :=
  List.map_eq_append_iff.mp h

macro "peel " h:ident k:ident l:ident h2:ident : tactic =>
  `(tactic| (have hx := kinds_cons $h; clear $h; obtain ⟨$k:ident, $l:ident, he, $h2:ident⟩ := hx; subst he))

macro "halve " h:ident l:ident l':ident h1:ident h2:ident : tactic =>
  `(tactic| (have hx := kinds_append $h; clear $h; obtain ⟨$l:ident, $l':ident, he, $h1:ident, $h2:ident⟩ := hx; subst he))

macro "finish " h:ident : tactic =>
  `(tactic| (have hx := kinds_nil $h; clear $h; subst hx))

theorem kinds_newlines {l : List Tok} {n} (h : kinds l = lineEnds n) : Newlines l ∧ l ≠ [] := by
  constructor
  · intro t ht
    have : t.1 ∈ kinds l := List.mem_map_of_mem ht
    rw [h] at this
    exact (List.mem_replicate.mp this).2
  · rintro rfl
    simp [kinds, lineEnds, List.replicate_succ] at h

theorem kinds_operands {kw : Str} {ks : List Token} (h : OperandKinds kw ks) : ∀ {l : List Tok},
    kinds l = ks → Operands kw l ∧ OneLine l := by
  induction h with
  | nil => intro l h; finish h; exact ⟨.nil, by simp [OneLine]⟩
  | tok h1 h2 _ ih =>
    intro l h
    peel h sp l' h3
    obtain ⟨i1, i2⟩ := ih h3
    refine ⟨.tok h1 h2 i1, ?_⟩
    intro t ht
    rcases List.mem_cons.mp ht with rfl | ht
    · exact h2
    · exact i2 t ht
  | comma h1 h2 _ ih =>
    intro l h
    peel h sp l' h3
    peel h3 sp' l' h3
    obtain ⟨i1, i2⟩ := ih h3
    refine ⟨.comma h1 i1, ?_⟩
    intro t ht
    rcases List.mem_cons.mp ht with rfl | ht
    · simp
    · rcases List.mem_cons.mp ht with rfl | ht
      · exact h2
      · exact i2 t ht

theorem kinds_commaSep {α β γ : Type} {G : α → List Tok → Prop} {pr : β → List Token} {φ : α → γ} {ψ : β → γ} :
    ∀ {xs : List β} {l : List Tok},
      (∀ b ∈ xs, ∀ l : List Tok, kinds l = pr b → ∃ x, G x l ∧ φ x = ψ b) →
      kinds l = commaSeparated (xs.map pr) → ∃ ys, CommaSep G ys l ∧ ys.map φ = xs.map ψ
  | [], l, _, h => by finish h; exact ⟨[], .nil, rfl⟩
  | [b], l, hG, h => by
    obtain ⟨x, h1, h2⟩ := hG b (by simp) l h
    exact ⟨[x], .one h1, by simp [h2]⟩
  | b :: c :: bs, l, hG, h => by
    simp only [List.map_cons, commaSeparated] at h
    halve h l' l2 h1 h2
    halve h1 l1 l3 h1 h3
    peel h3 sp l4 h4
    finish h4
    obtain ⟨x, hx, hx'⟩ := hG b (by simp) l1 h1
    obtain ⟨ys, hy, hy'⟩ := kinds_commaSep (fun b' hb' => hG b' (List.mem_cons_of_mem _ hb')) h2
    cases ys with
    | nil => simp at hy'
    | cons y ys =>
      exact ⟨x :: y :: ys, by simpa using CommaSep.cons (sp := sp) hx hy, by rw [List.map_cons, hy', hx']; rfl⟩

theorem kinds_dbg {l : List Tok} {d : Option Str} (h : kinds l = d.toList.map .debugRef) :
    ∃ x : Option (Spanned Str), l = dbgToks x ∧ x.map Prod.fst = d := by
  cases d with
  | none => finish h; exact ⟨none, rfl, rfl⟩
  | some d =>
    peel h sp l' h
    finish h
    exact ⟨some (d, sp), rfl, rfl⟩

theorem isPrefix_iff : ∀ {p m : Str}, isPrefix p m = true ↔ ∃ t, m = p ++ t
  | [], m => by simp [isPrefix]
  | _ :: _, [] => by simp [isPrefix]
  | a :: as, b :: bs => by
    simp only [isPrefix, Bool.and_eq_true, decide_eq_true_eq, isPrefix_iff (p := as), List.cons_append,
      List.cons.injEq]
    constructor
    · rintro ⟨rfl, t, rfl⟩; exact ⟨t, rfl, rfl⟩
    · rintro ⟨t, rfl, rfl⟩; exact ⟨rfl, t, rfl⟩

theorem isBr_iff {m : Str} : IsBr m ↔ endsWith m c!"br" = true := by
  unfold IsBr endsWith
  rw [isPrefix_iff]
  constructor
  · rintro ⟨p, rfl⟩; exact ⟨p.reverse, by simp⟩
  · rintro ⟨p, h⟩
    refine ⟨p.reverse, ?_⟩
    have := congrArg List.reverse h
    simpa using this

/-- A line end behind `pre` cannot lie inside tokens without line ends. -/
theorem newline_not_inside {pre a l b : List Tok} {nl : Span} (h : l ++ b = pre ++ (.newline, nl) :: a)
    (hl : OneLine l) (hlen : pre.length < l.length) : False := by
  have h1 : (l ++ b)[pre.length]? = some (.newline, nl) := by rw [h]; simp
  rw [List.getElem?_append_left hlen] at h1
  exact hl _ (List.mem_of_getElem? h1) rfl

section
variable {eoi : Span} {s r : List Tok} {es : List (LErr Token)}

theorem pBr_fails_of (h : ∀ sp r', s ≠ (.ident c!"br", sp) :: r') : Fails pBr eoi s := by
  refine fails_of_not_ok pBr_noPanic ?_
  intro es i r h'
  obtain ⟨_, k, t, d, nl, r', rfl, rfl, _⟩ := pBr_ok.mp h'
  exact h _ _ rfl

theorem pCondBr_fails_of (h : ∀ sp r', s ≠ (.ident c!"br", sp) :: r') : Fails pCondBr eoi s := by
  refine fails_of_not_ok pCondBr_noPanic ?_
  intro es i r h'
  obtain ⟨_, k, ti, v, c, t, c', e, d, nl, r', rfl, rfl, _⟩ := pCondBr_ok.mp h'
  exact h _ _ rfl

theorem pSwitch_fails_of (h : ∀ sp r', s ≠ (.ident c!"switch", sp) :: r') : Fails pSwitch eoi s := by
  refine fails_of_not_ok pSwitch_noPanic ?_
  intro es i r h'
  obtain ⟨_, k, ops, c, k', e, t, c', ts, cases, d, nl, r', rfl, _, _, rfl, _⟩ := pSwitch_ok.mp h'
  exact h _ _ rfl

theorem pPhi_fails_of (h : ∀ sp r', s ≠ (.ident c!"phi", sp) :: r') : Fails pPhi eoi s := by
  refine fails_of_not_ok pPhi_noPanic ?_
  intro es i r h'
  obtain ⟨_, k, ts, edges, d, nl, r', rfl, _, rfl, _⟩ := pPhi_ok.mp h'
  exact h _ _ rfl

/-- On an instruction whose name does not end in `br`, the overflow branch parser fails or reports
an error. -/
theorem pOverflowBr_not_clean {m : Spanned Str} (hm : endsWith m.1 c!"br" = false) :
    Fails pOverflowBr eoi (identTok m :: s) ∨ ∃ e i r, Ok pOverflowBr eoi (identTok m :: s) [e] i r := by
  rcases pOverflowBr_noPanic.cases eoi (identTok m :: s) with ⟨es, i, r, h⟩ | h
  · right
    have h' := h
    obtain ⟨m', ops, c, k, e, t, c', k', e', t', d, nl, r', rfl, _, h2, _, h4⟩ := pOverflowBr_ok.mp h'
    have : m = m' := by
      have := List.cons.inj (by simpa using h2)
      obtain ⟨a, b⟩ := m
      obtain ⟨a', b'⟩ := m'
      simpa [identTok] using this.1
    subst this
    rcases h4 with ⟨h4, _⟩ | ⟨_, err, rfl, _⟩
    · rw [hm] at h4; cases h4
    · exact ⟨err, i, _, h⟩
  · exact .inl h

/-- The alternatives in front of the last ones. -/
theorem kind_right {p : P Token Instruction} {m : Spanned Str} {i}
    (h1 : Fails pBr eoi (identTok m :: s)) (h2 : Fails pCondBr eoi (identTok m :: s))
    (hm : endsWith m.1 c!"br" = false) (h : Ok p eoi (identTok m :: s) [] i r) :
    Ok (por (por (por pBr pCondBr) pOverflowBr) p) eoi (identTok m :: s) [] i r := by
  rcases pOverflowBr_not_clean (eoi := eoi) (s := s) hm with h3 | ⟨e, j, r', h3⟩
  · exact por_ok_right (por_fails.mpr ⟨por_fails.mpr ⟨h1, h2⟩, h3⟩) h
  · exact por_ok_right_clean (por_ok_right (por_fails.mpr ⟨h1, h2⟩) h3) h

/-- What the parser should make of the form `f` and debug reference `d`. -/
def Matches (f : Form) (d : Option Str) (i : Instruction) : Prop :=
  i.instruction.1 = f.mnemonic ∧ i.basicBlockRefs.map Prod.fst = f.targets ∧ i.dbgRef.map Prod.fst = d

theorem pInstructionKind_complete {f : Form} (hf : f.Good) {d : Option Str} {l : List Tok}
    (hl : kinds l = f.print ++ d.toList.map .debugRef) {nl r'} :
    ∃ i, Ok pInstructionKind eoi (l ++ (.newline, nl) :: r') [] i ((.newline, nl) :: r') ∧ Matches f d i := by
  halve hl l dl hl hd
  obtain ⟨d, rfl, rfl⟩ := kinds_dbg hd
  unfold pInstructionKind
  cases f with
  | br t =>
    peel hl k l hl
    peel hl k' l hl
    finish hl
    refine ⟨_, por_ok_left (por_ok_left (por_ok_left (por_ok_left (por_ok_left (pBr_ok.mpr
      ⟨rfl, k, (t, k'), d, nl, r', rfl, rfl, rfl⟩))))), rfl, rfl, rfl⟩
  | condBr v t e =>
    peel hl k l hl
    peel hl k1 l hl
    peel hl k2 l hl
    peel hl k3 l hl
    peel hl k4 l hl
    peel hl k5 l hl
    peel hl k6 l hl
    finish hl
    refine ⟨_, por_ok_left (por_ok_left (por_ok_left (por_ok_left (por_ok_right ?_ (pCondBr_ok.mpr
      ⟨rfl, k, k1, (v, k2), k3, (t, k4), k5, (e, k6), d, nl, r', rfl, rfl, rfl⟩))))), rfl, rfl, rfl⟩
    refine fails_of_not_ok pBr_noPanic ?_
    intro es i r h'
    obtain ⟨_, k, t, d', nl', r'', _, h, _⟩ := pBr_ok.mp h'
    simp [identTok] at h
  | overflowBr m ops t t' =>
    obtain ⟨hm, hops⟩ := hf
    rw [isBr_iff] at hm
    simp only [Form.print] at hl
    halve hl l lt hl ht
    halve hl lm lo hl ho
    peel hl k l hl
    finish hl
    obtain ⟨ho1, ho2⟩ := kinds_operands hops ho
    peel ht k1 l hl
    peel hl k2 l hl
    peel hl k3 l hl
    peel hl k4 l hl
    peel hl k5 l hl
    peel hl k6 l hl
    peel hl k7 l hl
    peel hl k8 l hl
    finish hl
    generalize htl : overflowTail k1 k2 k3 (t, k4) k5 k6 k7 (t', k8) = tl
    have hone : OneLine ((.ident m, k) :: lo ++ tl) := by
      subst htl
      intro x hx
      rcases List.mem_append.mp hx with hx | hx
      · rcases List.mem_cons.mp hx with rfl | hx
        · simp
        · exact ho2 x hx
      · simp [overflowTail, identTok] at hx
        rcases hx with rfl | rfl | rfl | rfl | rfl | rfl | rfl | rfl <;> simp
    have hlen : 8 < ((.ident m, k) :: lo ++ tl : List Tok).length := by
      subst htl; simp [overflowTail]
    have hok := (pOverflowBr_ok (eoi := eoi) (es := [])).mpr ⟨(m, k), lo, k1, k2, k3, (t, k4), k5, k6, k7, (t', k8), d, nl, r', rfl, ho1, rfl, rfl,
      .inl ⟨hm, rfl⟩⟩
    rw [htl] at hok
    have hfail : Fails (por pBr pCondBr) eoi
        ((identTok (m, k) :: lo ++ tl ++ dbgToks d) ++ (.newline, nl) :: r') := by
      rw [por_fails]
      constructor
      · refine fails_of_not_ok pBr_noPanic ?_
        intro es i r h'
        obtain ⟨_, k', t'', d', nl', r'', rfl, h, _⟩ := pBr_ok.mp h'
        rw [List.append_assoc] at h
        refine newline_not_inside h hone ?_
        cases d' <;> simp [dbgToks] <;> simp at hlen <;> omega
      · refine fails_of_not_ok pCondBr_noPanic ?_
        intro es i r h'
        obtain ⟨_, k', ti, v, c, t'', c', e, d', nl', r'', rfl, h, _⟩ := pCondBr_ok.mp h'
        rw [List.append_assoc] at h
        refine newline_not_inside h hone ?_
        cases d' <;> simp [dbgToks] <;> simp at hlen <;> omega
    have e : ([(Token.ident m, k)] ++ lo ++ [(Token.punct ',', k1), (Token.ident c!"cont", k2), (Token.punct '=', k3),
        (Token.ident t, k4), (Token.punct ',', k5), (Token.ident c!"overflow", k6), (Token.punct '=', k7), (Token.ident t', k8)] : List Tok)
          = identTok (m, k) :: lo ++ tl := by
      subst htl; rfl
    rw [e]
    exact ⟨_, por_ok_left (por_ok_left (por_ok_left (por_ok_right hfail hok))), rfl, rfl, rfl⟩
  | switch ops df cases =>
    obtain ⟨hops, hcases⟩ := hf
    simp only [Form.print] at hl
    halve hl l lc hl hc
    halve hl l lt hl ht
    halve hl lm lo hl ho
    peel hl k l hl
    finish hl
    obtain ⟨ho1, ho2⟩ := kinds_operands hops ho
    peel ht k1 l hl
    peel hl k2 l hl
    peel hl k3 l hl
    peel hl k4 l hl
    peel hl k5 l hl
    finish hl
    obtain ⟨ts, hts, hts'⟩ := kinds_commaSep (G := CaseG) (φ := Prod.fst) (ψ := fun x : Str × Token × Str => x.2.2) (by
      rintro ⟨ty, v, t⟩ _ l hl
      peel hl a1 l hl
      peel hl a2 l hl
      peel hl a3 l hl
      peel hl a4 l hl
      peel hl a5 l hl
      finish hl
      exact ⟨(t, a5), ⟨(ty, a1), (v, a2), a3, a4, rfl⟩, rfl⟩) hc
    have hok := (pSwitch_ok (eoi := eoi) (es := [])).mpr ⟨rfl, k, lo, k1, k2, k3, (df, k4), k5, ts, lc, d, nl, r', rfl, ho1, hts, rfl, rfl⟩
    have hk := kind_right (m := (c!"switch", k)) (pBr_fails_of (by simp [identTok])) (pCondBr_fails_of (by simp [identTok]))
      (show endsWith c!"switch" c!"br" = false by decide) hok
    exact ⟨_, por_ok_left (por_ok_left hk), rfl, by simp [Form.targets, hts'], rfl⟩
  | phi edges =>
    simp only [Form.print] at hl
    halve hl l lc hl hc
    peel hl k l hl
    finish hl
    obtain ⟨ts, hts, hts'⟩ := kinds_commaSep (G := EdgeG) (φ := Prod.fst) (ψ := fun x : Str × List Token => x.1) (by
      rintro ⟨lb, vs⟩ hmem l hl
      simp only at hl
      halve hl l l' hl hl'
      peel hl' a5 l'' hl'
      finish hl'
      halve hl l l' hl hl'
      peel hl a1 l hl
      peel hl a2 l hl
      peel hl a3 l hl
      finish hl
      refine ⟨(lb, a2), ⟨a1, a3, l', a5, ?_, rfl⟩, rfl⟩
      intro t ht
      exact hf _ hmem t.1 (by rw [← hl']; exact List.mem_map_of_mem ht)) hc
    have hok := (pPhi_ok (eoi := eoi) (es := [])).mpr ⟨rfl, k, ts, lc, d, nl, r', rfl, hts, rfl, rfl⟩
    have h1 := pBr_fails_of (eoi := eoi) (s := (.ident c!"phi", k) :: lc ++ dbgToks d ++ (.newline, nl) :: r') (by simp)
    have h2 := pCondBr_fails_of (eoi := eoi) (s := (.ident c!"phi", k) :: lc ++ dbgToks d ++ (.newline, nl) :: r') (by simp)
    have h3 := pSwitch_fails_of (eoi := eoi) (s := (.ident c!"phi", k) :: lc ++ dbgToks d ++ (.newline, nl) :: r') (by simp)
    rcases pOverflowBr_not_clean (m := (c!"phi", k)) (eoi := eoi) (s := lc ++ dbgToks d ++ (.newline, nl) :: r')
        (show endsWith c!"phi" c!"br" = false by decide) with h4 | ⟨e, j, r'', h4⟩
    · exact ⟨_, por_ok_left (por_ok_right (por_fails.mpr ⟨por_fails.mpr ⟨por_fails.mpr ⟨h1, h2⟩, h4⟩, h3⟩) hok), rfl, hts', rfl⟩
    · exact ⟨_, por_ok_left (por_ok_right_clean (por_ok_left_dirty (por_ok_right (por_fails.mpr ⟨h1, h2⟩) h4) h3) hok), rfl, hts', rfl⟩
  | other m ops =>
    obtain ⟨hm, hsw, hphi, hops, hcolon⟩ := hf
    rw [isBr_iff, Bool.not_eq_true] at hm
    simp only [Form.print] at hl
    halve hl l lo hl ho
    peel hl k l hl
    finish hl
    have hbr : m ≠ c!"br" := by rintro rfl; exact absurd hm (by decide)
    have hok := (pAnyInstruction_ok (eoi := eoi) (es := [])).mpr ⟨rfl, (m, k), lo, d, nl, r', rfl, (by
      intro t ht
      exact hops t.1 (by rw [← ho]; exact List.mem_map_of_mem ht)), (by
      rw [← List.head?_map]
      change (kinds lo).head? ≠ _
      rw [ho]; exact hcolon), rfl, rfl⟩
    have h1 := pBr_fails_of (eoi := eoi) (s := (.ident m, k) :: lo ++ dbgToks d ++ (.newline, nl) :: r') (by simpa using fun h => absurd h hbr)
    have h2 := pCondBr_fails_of (eoi := eoi) (s := (.ident m, k) :: lo ++ dbgToks d ++ (.newline, nl) :: r') (by simpa using fun h => absurd h hbr)
    have h3 := pSwitch_fails_of (eoi := eoi) (s := (.ident m, k) :: lo ++ dbgToks d ++ (.newline, nl) :: r') (by simpa using fun h => absurd h hsw)
    have h5 := pPhi_fails_of (eoi := eoi) (s := (.ident m, k) :: lo ++ dbgToks d ++ (.newline, nl) :: r') (by simpa using fun h => absurd h hphi)
    rcases pOverflowBr_not_clean (m := (m, k)) (eoi := eoi) (s := lo ++ dbgToks d ++ (.newline, nl) :: r') hm with h4 | ⟨e, j, r'', h4⟩
    · exact ⟨_, por_ok_right (por_fails.mpr ⟨por_fails.mpr ⟨por_fails.mpr ⟨por_fails.mpr ⟨h1, h2⟩, h4⟩, h3⟩, h5⟩) hok, rfl, rfl, rfl⟩
    · exact ⟨_, por_ok_right_clean (por_ok_left_dirty (por_ok_left_dirty (por_ok_right (por_fails.mpr ⟨h1, h2⟩) h4) h3) h5) hok, rfl, rfl, rfl⟩

/-! ### Instructions -/

theorem formPrint_head (f : Form) : ∃ x ks, f.print = .ident x :: ks := by
  cases f <;> exact ⟨_, _, rfl⟩

theorem pInstruction_complete {a : Instr} (ha : a.form.Good) {l : List Tok} (hl : kinds l = a.print) {nl r'} :
    ∃ i, Ok pInstruction eoi (l ++ (.newline, nl) :: r') [] i ((.newline, nl) :: r') ∧ instrShape i = a.shape := by
  unfold Instr.print at hl
  rw [List.append_assoc] at hl
  halve hl la lb hl1 hl2
  obtain ⟨i, hi, hm1, hm2, hm3⟩ := pInstructionKind_complete (eoi := eoi) ha hl2 (nl := nl) (r' := r')
  unfold pInstruction
  simp only [pmapSpan_ok]
  cases has : a.assign with
  | none =>
    rw [has] at hl1
    finish hl1
    refine ⟨_, ⟨(none, i), pthen_ok.mpr ⟨[], [], _, orNot_ok.mpr (.inr ⟨rfl, rfl, rfl, ?_⟩), hi, rfl⟩, rfl⟩, ?_⟩
    · refine fails_of_not_ok pAssignment_noPanic ?_
      intro es x r h
      obtain ⟨_, ty, e, h⟩ := pAssignment_ok.mp h
      obtain ⟨x, ks, hx⟩ := formPrint_head a.form
      rw [hx] at hl2
      peel hl2 k l' h2
      simp [typeTok] at h
    · simp [instrShape, Instr.shape, has, hm1, hm2, hm3]
  | some tn =>
    obtain ⟨t, n⟩ := tn
    rw [has] at hl1
    peel hl1 k1 l1 hl1
    peel hl1 k2 l1 hl1
    peel hl1 k3 l1 hl1
    finish hl1
    refine ⟨_, ⟨(some (n, k2), i), pthen_ok.mpr ⟨[], [], _, orNot_ok.mpr (.inl ⟨_, rfl, pAssignment_ok.mpr
      ⟨rfl, (t, k1), k3, by simp [typeTok, localTok]⟩⟩), hi, rfl⟩, rfl⟩, ?_⟩
    simp [instrShape, Instr.shape, has, hm1, hm2, hm3]

theorem instrPrint_head (a : Instr) {l : List Tok} (hl : kinds l = a.print) {sp r' m} (h : l ++ m = (.newline, sp) :: r') : False := by
  unfold Instr.print at hl
  cases has : a.assign with
  | none =>
    rw [has] at hl
    obtain ⟨x, ks, hx⟩ := formPrint_head a.form
    rw [hx] at hl
    peel hl k l' h2
    simp at h
  | some tn =>
    rw [has] at hl
    peel hl k1 l1 hl1
    simp at h

theorem pPaddedInstruction_complete {a : Instr} (ha : a.form.Good) {l : List Tok} (hl : kinds l = a.print)
    {nls : List Tok} (hn : Newlines nls) (hn' : nls ≠ []) (hr : ∀ sp r', r ≠ (.newline, sp) :: r') :
    ∃ i, Ok pPaddedInstruction eoi (l ++ nls ++ r) [] i r ∧ instrShape i = a.shape := by
  obtain ⟨⟨t, nl⟩, nls', rfl⟩ : ∃ t nls', nls = t :: nls' := List.exists_cons_of_ne_nil hn'
  have ht : t = .newline := hn _ List.mem_cons_self
  subst ht
  obtain ⟨i, h1, h2⟩ := pInstruction_complete (eoi := eoi) ha hl (nl := nl) (r' := nls' ++ r)
  refine ⟨i, ?_, h2⟩
  unfold pPaddedInstruction
  refine paddedBy_ok.mpr ⟨[], [], [], _, _, _, _, newlines_ok.mpr ⟨rfl, [], by simp [Newlines], rfl, rfl, ?_⟩,
    ?_, newlines_ok.mpr ⟨rfl, (.newline, nl) :: nls', hn, rfl, rfl, hr⟩, rfl⟩
  · intro sp r' h
    change (l ++ (.newline, nl) :: nls') ++ r = _ at h
    rw [List.append_assoc] at h
    exact instrPrint_head a hl h
  · simpa using h1

/-- Where a list of instructions ends. -/
def EndsInstrs (r : List Tok) : Prop :=
  (∃ x c nl r', r = identTok x :: (.punct ':', c) :: (.newline, nl) :: r') ∨ (∃ c r', r = (.punct '}', c) :: r')

theorem EndsInstrs.noNewline (h : EndsInstrs r) : ∀ sp r', r ≠ (.newline, sp) :: r' := by
  intro sp r' hr
  rcases h with ⟨x, c, nl, r', rfl⟩ | ⟨c, r', rfl⟩ <;> simp [identTok] at hr

theorem not_instr_label {i : Instruction} {l nls : List Tok} (h : InstrG i l) (hn : Newlines nls)
    (hn' : nls ≠ []) {x c nl r' m} (he : identTok x :: (.punct ':', c) :: (.newline, nl) :: r' = l ++ nls ++ m) : False := by
  obtain ⟨⟨t, nl'⟩, nls', rfl⟩ : ∃ t nls', nls = t :: nls' := List.exists_cons_of_ne_nil hn'
  have ht : t = .newline := hn _ List.mem_cons_self
  subst ht
  obtain ⟨asg, body, ha, hb, rfl, _⟩ := h
  generalize i.assignmentTarget = tgt at ha
  cases ha with
  | some => simp [typeTok, identTok] at he
  | none =>
    generalize i.instruction = m1 at hb
    generalize i.basicBlockRefs = m2 at hb
    generalize i.dbgRef = m3 at hb
    have hops : ∀ {kw : Str} {ops : List Tok} {sp rest}, Operands kw ops →
        (.punct ':', c) :: (.newline, nl) :: r' = ops ++ (.punct ',', sp) :: rest → False := by
      intro kw ops sp rest ho he
      cases ho with
      | nil => simp at he
      | tok h1 h2 h3 =>
        injection he with _ he
        cases h3 with
        | nil => simp at he
        | tok h1 h2 h3 =>
          injection he with he _
          exact h2 (by rw [← he])
        | comma => simp at he
      | comma => simp at he
    cases hb with
    | br => simp [identTok] at he
    | condBr => simp [identTok] at he
    | overflowBr ho =>
      simp only [List.cons_append, List.append_assoc, List.nil_append] at he
      injection he with _ he
      exact hops ho he
    | switch ho =>
      simp only [List.cons_append, List.append_assoc, List.nil_append] at he
      injection he with _ he
      exact hops ho he
    | @phi k ts edges d hc =>
      simp only [List.cons_append, List.append_assoc, List.nil_append] at he
      injection he with _ he
      generalize hd : m3 = m3' at *
      cases hc with
      | nil => exact afterInstr_ne (t := .punct ':') (by simp) (by simp) _ _ he.symm
      | one h1 =>
        obtain ⟨_, _, _, _, _, rfl⟩ := h1
        simp at he
      | cons h1 =>
        obtain ⟨_, _, _, _, _, rfl⟩ := h1
        simp at he
    | @other _ ops _ h1 h2 =>
      simp only [List.cons_append, List.append_assoc, List.nil_append] at he
      injection he with _ he
      cases ops with
      | nil => exact afterInstr_ne (t := .punct ':') (by simp) (by simp) _ _ he.symm
      | cons o ops =>
        injection he with he _
        subst he
        simp at h2

theorem not_instr_brace {i : Instruction} {l : List Tok} (h : InstrG i l) {c r' m}
    (he : (.punct '}', c) :: r' = l ++ m) : False := by
  obtain ⟨asg, body, ha, hb, rfl, _⟩ := h
  generalize i.assignmentTarget = tgt at ha
  cases ha with
  | some => simp [typeTok] at he
  | none =>
    obtain ⟨x, l', rfl⟩ := bodyForm_head hb
    simp [identTok] at he

theorem pPaddedInstruction_stop (h : EndsInstrs r) : Fails pPaddedInstruction eoi r := by
  refine fails_of_not_ok pPaddedInstruction_noPanic ?_
  intro es i r' h'
  obtain ⟨nls, l, nls', h1, h2, h3, h4, h5, _⟩ := pPaddedInstruction_sound h'
  have hnil : nls = [] := by
    cases nls with
    | nil => rfl
    | cons t nls =>
      obtain ⟨t, sp⟩ := t
      have : t = .newline := h1 _ List.mem_cons_self
      subst this
      exact absurd h5 (by simpa using h.noNewline _ _)
  subst hnil
  rcases h with ⟨x, c, nl, r', rfl⟩ | ⟨c, r', rfl⟩
  · exact not_instr_label h2 h3 h4 h5
  · simp only [List.nil_append, List.append_assoc] at h5
    exact not_instr_brace h2 h5

theorem many_instr_complete {as : List Instr} {ks : List Token} (h : PrintsInstrs as ks) :
    ∀ {l : List Tok}, kinds l = ks → EndsInstrs r →
      ∃ is, Many pPaddedInstruction eoi (l ++ r) [] is r ∧ is.map instrShape = as.map Instr.shape ∧
        (∀ sp r', l ++ r ≠ (.newline, sp) :: r') := by
  induction h with
  | nil =>
    intro l hl hr
    finish hl
    exact ⟨[], .nil (pPaddedInstruction_stop hr), rfl, hr.noNewline⟩
  | cons hg _ ih =>
    intro l hl hr
    halve hl l1 l2 h1 h2
    halve h1 l3 l4 h1 h3
    obtain ⟨hn, hn'⟩ := kinds_newlines h3
    obtain ⟨is, i1, i2, i3⟩ := ih h2 hr
    obtain ⟨i, j1, j2⟩ := pPaddedInstruction_complete (eoi := eoi) hg h1 hn hn' i3
    refine ⟨i :: is, ?_, by simp [j2, i2], ?_⟩
    · exact .cons (es := []) (by simpa using j1) i1
    · intro sp r' he
      simp only [List.append_assoc] at he
      exact instrPrint_head _ h1 he

/-! ### Blocks and bodies -/

theorem pBasicBlock_complete {b : Block} {n : Nat} {iks : List Token} (hb : PrintsInstrs b.instrs iks)
    {l : List Tok} (hl : kinds l = [.ident b.label, .punct ':'] ++ lineEnds n ++ iks) (hr : EndsInstrs r) :
    ∃ bb, Ok pBasicBlock eoi (l ++ r) [] bb r ∧ blockShape bb = b.shape := by
  halve hl l1 l2 h1 h2
  halve h1 l3 l4 h1 h3
  peel h1 k1 l5 h1
  peel h1 k2 l5 h1
  finish h1
  obtain ⟨hn, hn'⟩ := kinds_newlines h3
  obtain ⟨is, i1, i2, i3⟩ := many_instr_complete (eoi := eoi) hb h2 hr
  unfold pBasicBlock
  simp only [pmap_ok]
  refine ⟨_, ⟨(((b.label, k1), k2), is), ?_, rfl⟩, ?_⟩
  · simp only [pthen_ok, thenIgnore_ok, pIdent_ok, punctSpan_ok, newlines1_ok,
      repeated_ok pPaddedInstruction_noPanic pPaddedInstruction_progress]
    exact ⟨[], [], _, ⟨[], [], _, _, ⟨[], [], _, ⟨rfl, rfl⟩, ⟨rfl, k2, rfl, rfl⟩, rfl⟩,
      ⟨rfl, l4, hn, hn', by simp, rfl, i3⟩, rfl⟩, i1, rfl⟩
  · simp [blockShape, mkBasicBlock, Block.shape, i2]

theorem many_block_complete {bs : List Block} {ks : List Token} (h : PrintsBlocks bs ks) :
    ∀ {l : List Tok} {c r'}, kinds l = ks →
      ∃ bbs, Many pBasicBlock eoi (l ++ (.punct '}', c) :: r') [] bbs ((.punct '}', c) :: r')
        ∧ bbs.map blockShape = bs.map Block.shape ∧ EndsInstrs (l ++ (.punct '}', c) :: r') := by
  induction h with
  | nil =>
    intro l c r' hl
    finish hl
    refine ⟨[], .nil ?_, rfl, .inr ⟨c, r', rfl⟩⟩
    refine fails_of_not_ok pBasicBlock_noPanic ?_
    intro es b r h
    obtain ⟨l, h1, h2⟩ := pBasicBlock_sound h
    obtain ⟨x, c, l', rfl⟩ := blockG_head h1
    simp [identTok] at h2
  | cons hi _ ih =>
    intro l c r' hl
    halve hl l1 l2 h1 h2
    obtain ⟨bbs, i1, i2, i3⟩ := ih (c := c) (r' := r') h2
    obtain ⟨bb, j1, j2⟩ := pBasicBlock_complete (eoi := eoi) hi h1 i3
    refine ⟨bb :: bbs, .cons (es := []) (by simpa using j1) i1, by simp [j2, i2], .inl ?_⟩
    halve h1 l3 l4 h1 h3
    halve h1 l5 l6 h1 h4
    peel h1 k1 l7 h1
    peel h1 k2 l7 h1
    finish h1
    unfold lineEnds at h4
    rw [List.replicate_succ] at h4
    peel h4 k3 l8 h4
    exact ⟨(_, k1), k2, k3, _, by simp [identTok]; exact ⟨rfl, rfl⟩⟩

theorem pFuncBody_complete {f : List Instr} {bs : List Block} {fk bk : List Token} {n : Nat}
    (hf : PrintsInstrs f fk) (hb : PrintsBlocks bs bk) {l : List Tok}
    (hl : kinds l = [.punct '{'] ++ lineEnds n ++ fk ++ bk ++ [.punct '}']) :
    ∃ b, Ok pFuncBody eoi (l ++ r) [] b r ∧ b.basicBlocks.map blockShape
      = (if f = [] then [] else [{ label := none, instrs := f.map Instr.shape }]) ++ bs.map Block.shape := by
  halve hl l1 lc h1 hc
  halve h1 l1 lb h1 hb'
  halve h1 l1 lf h1 hf'
  halve h1 lo ln h1 hn
  peel h1 o l2 h1
  finish h1
  peel hc c l2 hc
  finish hc
  obtain ⟨hn, hn'⟩ := kinds_newlines hn
  obtain ⟨bbs, b1, b2, b3⟩ := many_block_complete (eoi := eoi) hb (c := c) (r' := r) hb'
  obtain ⟨is, i1, i2, i3⟩ := many_instr_complete (eoi := eoi) hf hf' b3
  unfold pFuncBody
  simp only [pmap_ok]
  cases is with
  | nil =>
    have hf0 : f = [] := by simpa using i2.symm
    subst hf0
    cases hf
    finish hf'
    refine ⟨_, ⟨(((o, none), bbs), c), ?_, rfl⟩, by simpa using b2⟩
    simp only [pthen_ok, thenIgnore_ok, punctSpan_ok, newlines1_ok, orNot_ok,
      repeated_ok pBasicBlock_noPanic pBasicBlock_progress]
    refine ⟨[], [], _, ⟨[], [], _, ⟨[], [], _, ⟨[], [], _, _, ⟨rfl, o, rfl, rfl⟩, ⟨rfl, ln, hn, hn', ?_, rfl, i3⟩, rfl⟩,
      .inr ⟨trivial, rfl, rfl, ?_⟩, rfl⟩, b1, rfl⟩, ⟨rfl, c, rfl, rfl⟩, rfl⟩
    · simp
    · unfold pInitialBlock
      rw [pmapOutcome_fails]
      rw [repeatedAtLeast_fails pPaddedInstruction_noPanic pPaddedInstruction_progress]
      exact ⟨_, _, _, i1, by simp⟩
  | cons i is =>
    have hf0 : f ≠ [] := by rintro rfl; simp at i2
    obtain ⟨la, hla⟩ : ∃ la, (i :: is).getLast? = some la := by
      cases h : (i :: is).getLast? with
      | none => simp at h
      | some la => exact ⟨la, rfl⟩
    refine ⟨_, ⟨(((o, some ⟨none, none, i :: is, ⟨i.span.start, la.span.stop⟩⟩), bbs), c), ?_, rfl⟩, ?_⟩
    · simp only [pthen_ok, thenIgnore_ok, punctSpan_ok, newlines1_ok, orNot_ok,
        repeated_ok pBasicBlock_noPanic pBasicBlock_progress]
      refine ⟨[], [], _, ⟨[], [], _, ⟨[], [], _, ⟨[], [], _, _, ⟨rfl, o, rfl, rfl⟩, ⟨rfl, ln, hn, hn', ?_, rfl, i3⟩, rfl⟩,
        .inl ⟨_, rfl, ?_⟩, rfl⟩, b1, rfl⟩, ⟨rfl, c, rfl, rfl⟩, rfl⟩
      · simp
      · unfold pInitialBlock
        refine pmapOutcome_ok.mpr ⟨_, (repeatedAtLeast_ok pPaddedInstruction_noPanic pPaddedInstruction_progress).mpr
          ⟨i1, by simp⟩, ?_⟩
        simp [mkInitialBlock, hla]
    · simp only [hf0, if_false, ← i2, ← b2, List.map_append]
      rfl

/-! ### Statements -/

theorem sig_complete {g : SigShape} {l : List Tok} (hl : kinds l = sigPrint g) :
    ∃ x, SigG x l ∧ sigShape x = g := by
  unfold sigPrint at hl
  halve hl l1 lc h1 hc
  halve h1 l1 la h1 ha
  halve h1 lm lh hm hh
  peel hh k1 l2 hh
  peel hh k2 l2 hh
  peel hh k3 l2 hh
  finish hh
  peel hc k4 l2 hc
  finish hc
  obtain ⟨args, a1, a2⟩ := kinds_commaSep (G := ArgG) (φ := fun a => (a.type_.1, a.name.1)) (ψ := fun x : Str × Str => (x.1, x.2)) (by
    rintro ⟨t, n⟩ _ l hl
    peel hl a1 l1 hl
    peel hl a2 l1 hl
    finish hl
    exact ⟨⟨(t, a1), (n, a2)⟩, rfl, rfl⟩) ha
  have hms : ∀ {ms : List Str} {l : List Tok}, kinds l = ms.map .funcModifier →
      ∃ xs : List (Spanned Str), l = xs.map modTok ∧ xs.map Prod.fst = ms := by
    intro ms
    induction ms with
    | nil => intro l h; finish h; exact ⟨[], rfl, rfl⟩
    | cons m ms ih =>
      intro l h
      rw [List.map_cons] at h
      peel h k l' h
      obtain ⟨xs, rfl, h2⟩ := ih h
      exact ⟨(m, k) :: xs, rfl, by simp [h2]⟩
  obtain ⟨ms, rfl, hms'⟩ := hms hm
  refine ⟨⟨ms, (g.ret, k1), (g.name, k2), args⟩, ⟨k3, la, k4, a1, rfl⟩, ?_⟩
  obtain ⟨m, rt, nm, ar⟩ := g
  simp only [sigShape, hms', a2]
  simp

/-- The line end behind a statement. -/
theorem eol_ok {nls : List Tok} (hn : Newlines nls) (hr : nls = [] → r = []) :
    ∃ nls', Newlines nls' ∧ Ok pEol eoi (nls ++ r) [] .newline (nls' ++ r) ∧
      (∃ eol, nls ++ r = eol ++ (nls' ++ r) ∧ ((∃ sp, eol = [(.newline, sp)]) ∨ (eol = [] ∧ nls' ++ r = []))) ∧
      ((∃ sp r', nls ++ r = (.newline, sp) :: r') ∨ nls ++ r = []) := by
  cases nls with
  | nil =>
    cases hr rfl
    exact ⟨[], hn, pEol_ok.mpr ⟨rfl, rfl, .inr ⟨rfl, rfl⟩⟩, ⟨[], rfl, .inr ⟨rfl, rfl⟩⟩, .inr rfl⟩
  | cons t nls =>
    obtain ⟨t, sp⟩ := t
    have : t = .newline := hn _ List.mem_cons_self
    subst this
    exact ⟨nls, fun t ht => hn t (List.mem_cons_of_mem _ ht), pEol_ok.mpr ⟨rfl, rfl, .inl ⟨sp, rfl⟩⟩,
      ⟨[(.newline, sp)], rfl, .inl ⟨sp, rfl⟩⟩, .inl ⟨sp, _, rfl⟩⟩

theorem pGlobalVar_noPanic : NoPanic pGlobalVar := by unfold pGlobalVar; no_panic
theorem pDbgAnnotation_noPanic : NoPanic pDbgAnnotation := by unfold pDbgAnnotation; no_panic
theorem pFuncDecl_noPanic : NoPanic pFuncDecl := by
  have h1 := pFuncSignature_noPanic
  have h2 := pFuncAddr_noPanic
  unfold pFuncDecl
  no_panic
theorem pFuncDef_noPanic : NoPanic pFuncDef := by
  have h1 := pFuncSignature_noPanic
  have h3 := pFuncBody_noPanic
  unfold pFuncDef
  no_panic
theorem pFuncDependencies_noPanic : NoPanic pFuncDependencies := by
  have h4 := sepList_noPanic (G := fun x l => l = [globalTok x]) pGlobalName_noPanic pGlobalName_clean depItem_ok
  unfold pFuncDependencies
  no_panic

theorem pGlobalVar_fails_of (h : ∀ x sp sp' r', s ≠ (.globalName x, sp) :: (.punct '=', sp') :: r') : Fails pGlobalVar eoi s := by
  refine fails_of_not_ok pGlobalVar_noPanic ?_
  intro es x r h'
  obtain ⟨_, n, e, d, eol, _, _, rfl, _⟩ := pGlobalVar_ok.mp h'
  exact h _ _ _ _ rfl

theorem pDbgAnnotation_fails_of (h : ∀ x sp r', s ≠ (.debugRef x, sp) :: r') : Fails pDbgAnnotation eoi s := by
  refine fails_of_not_ok pDbgAnnotation_noPanic ?_
  intro es x r h'
  obtain ⟨_, n, e, d, eol, _, _, rfl, _⟩ := pDbgAnnotation_ok.mp h'
  exact h _ _ _ rfl

theorem pFuncDecl_fails_of (h : ∀ sp r', s ≠ (.declare, sp) :: r') : Fails pFuncDecl eoi s := by
  refine fails_of_not_ok pFuncDecl_noPanic ?_
  intro es x r h'
  unfold pFuncDecl at h'
  obtain ⟨⟨⟨sg, a⟩, d⟩, h', _⟩ := pmap_ok.mp h'
  simp only [thenIgnore_ok, pthen_ok, ignoreThen_ok, just_ok] at h'
  obtain ⟨_, _, _, _, ⟨_, _, _, ⟨_, _, _, ⟨_, _, _, _, ⟨_, _, k, rfl⟩, _⟩, _⟩, _⟩, _⟩ := h'
  exact h _ _ rfl

theorem pFuncDef_fails_of (h : ∀ sp r', s ≠ (.define, sp) :: r') : Fails pFuncDef eoi s := by
  refine fails_of_not_ok pFuncDef_noPanic ?_
  intro es x r h'
  unfold pFuncDef at h'
  obtain ⟨⟨⟨k, sg⟩, b⟩, h', _⟩ := pmap_ok.mp h'
  simp only [thenIgnore_ok, pthen_ok, justSpan_ok] at h'
  obtain ⟨_, _, _, _, ⟨_, _, _, ⟨_, _, _, ⟨_, k', _, rfl⟩, _⟩, _⟩, _⟩ := h'
  exact h _ _ rfl

theorem pFuncDependencies_fails_of (h : ∀ x sp sp' r', s ≠ (.globalName x, sp) :: (.ident c!"depends", sp') :: r') :
    Fails pFuncDependencies eoi s := by
  refine fails_of_not_ok pFuncDependencies_noPanic ?_
  intro es x r h'
  unfold pFuncDependencies at h'
  obtain ⟨⟨d, ds⟩, h', _⟩ := pmap_ok.mp h'
  simp only [thenIgnore_ok, pthen_ok, pGlobalName_ok, pKeyword_ok] at h'
  obtain ⟨_, _, _, ⟨_, _, _, _, ⟨_, _, _, _, ⟨_, rfl⟩, ⟨_, _, k, rfl⟩, _⟩, _⟩, _⟩ := h'
  exact h _ _ _ _ rfl

theorem pStatement_complete {a : Stmt} {ks : List Token} (ha : PrintsStmt a ks) {l : List Tok} (hl : kinds l = ks)
    {nls : List Tok} (hn : Newlines nls) (hr : nls = [] → r = []) :
    ∃ x nls', Newlines nls' ∧ Ok pStatement eoi (l ++ (nls ++ r)) [] x (nls' ++ r) ∧ stmtShape x = a.shape := by
  obtain ⟨nls', hn', heol, ⟨eol, heq, heol'⟩, hstart⟩ := eol_ok (eoi := eoi) hn hr
  unfold pStatement
  cases ha with
  | @globalVar n d hd =>
    halve hl l1 ld h1 hd'
    peel h1 k1 l2 h1
    peel h1 k2 l2 h1
    finish h1
    refine ⟨.globalVar (n, k1) ld, nls', hn', por_ok_left (por_ok_left (por_ok_left (por_ok_left (pGlobalVar_ok.mpr
      ⟨rfl, (n, k1), k2, ld, eol, ?_, rfl, ?_, heol'⟩)))), ?_⟩
    · intro t ht; exact hd _ (by rw [← hd']; exact List.mem_map_of_mem ht)
    · rw [heq]; simp [globalTok]
    · simpa [stmtShape, Stmt.shape] using hd'
  | @dbgAnnotation n d hd =>
    halve hl l1 ld h1 hd'
    peel h1 k1 l2 h1
    peel h1 k2 l2 h1
    finish h1
    refine ⟨.dbgAnnotation (n, k1) ld, nls', hn', por_ok_right (por_fails.mpr ⟨por_fails.mpr ⟨por_fails.mpr ⟨
      pGlobalVar_fails_of (by simp), pFuncDecl_fails_of (by simp)⟩, pFuncDef_fails_of (by simp)⟩,
      pFuncDependencies_fails_of (by simp)⟩) (pDbgAnnotation_ok.mpr
      ⟨rfl, (n, k1), k2, ld, eol, ?_, rfl, ?_, heol'⟩), ?_⟩
    · intro t ht; exact hd _ (by rw [← hd']; exact List.mem_map_of_mem ht)
    · rw [heq]; simp [dbgTok]
    · simpa [stmtShape, Stmt.shape] using hd'
  | @funcDecl g a d =>
    halve hl l1 ld h1 hd'
    halve h1 l1 la h1 ha'
    halve h1 l1 ls h1 hs
    peel h1 k1 l2 h1
    finish h1
    obtain ⟨sg, hsg, hsg'⟩ := sig_complete hs
    obtain ⟨d, rfl, rfl⟩ := kinds_dbg hd'
    have hdbg : Ok (orNot pDbgRef) eoi (dbgToks d ++ (nls ++ r)) [] d (nls ++ r) := by
      refine orNotDbg_ok.mpr ⟨rfl, rfl, ?_⟩
      intro _ y sp r' h
      rcases hstart with ⟨sp', r'', h'⟩ | h'
      · rw [h'] at h; simp at h
      · rw [h'] at h; simp at h
    obtain ⟨a', haddr, ha'⟩ : ∃ a', Ok (orNot pFuncAddr) eoi (la ++ (dbgToks d ++ (nls ++ r))) [] a' (dbgToks d ++ (nls ++ r))
        ∧ a'.map Prod.fst = a := by
      cases a with
      | none =>
        finish ha'
        refine ⟨none, orNot_ok.mpr (.inr ⟨rfl, rfl, rfl, ?_⟩), rfl⟩
        refine fails_of_not_ok pFuncAddr_noPanic ?_
        intro es x r' h
        obtain ⟨_, e, h⟩ := pFuncAddr_ok.mp h
        cases d with
        | some => simp [dbgToks, dbgTok] at h
        | none =>
          simp only [dbgToks, List.nil_append] at h
          rcases hstart with ⟨sp', r'', h'⟩ | h'
          · rw [h'] at h; simp at h
          · rw [h'] at h; simp at h
      | some a =>
        peel ha' k2 l2 ha'
        peel ha' k3 l2 ha'
        finish ha'
        exact ⟨some (a, k3), orNot_ok.mpr (.inl ⟨_, rfl, pFuncAddr_ok.mpr ⟨rfl, k2, rfl⟩⟩), rfl⟩
    refine ⟨.funcDecl sg a' d, nls', hn', por_ok_left (por_ok_left (por_ok_left (por_ok_right
      (pGlobalVar_fails_of (by simp)) ?_))), ?_⟩
    · unfold pFuncDecl
      refine pmap_ok.mpr ⟨((sg, a'), d), ?_, rfl⟩
      simp only [thenIgnore_ok, pthen_ok, ignoreThen_ok, just_ok, pFuncSignature_ok]
      exact ⟨[], [], _, _, ⟨[], [], _, ⟨[], [], _, ⟨[], [], _, _, ⟨rfl, rfl, k1, rfl⟩, ⟨rfl, ls, hsg, by simp⟩, rfl⟩, haddr, rfl⟩,
        hdbg, rfl⟩, heol, rfl⟩
    · simp [stmtShape, Stmt.shape, hsg', ha']
  | @funcDef g f bs n fk bk hf hb =>
    rw [List.append_assoc, List.append_assoc, List.append_assoc, List.append_assoc] at hl
    halve hl l1 lb h1 hb'
    halve h1 l1 ls h1 hs
    peel h1 k1 l2 h1
    finish h1
    obtain ⟨sg, hsg, hsg'⟩ := sig_complete hs
    obtain ⟨b, hb1, hb2⟩ := pFuncBody_complete (eoi := eoi) (r := nls ++ r) (n := n) hf hb (l := lb) (by
      rw [hb']; simp [List.append_assoc])
    refine ⟨.funcDef k1 sg b, nls', hn', por_ok_left (por_ok_left (por_ok_right (por_fails.mpr ⟨
      pGlobalVar_fails_of (by simp), pFuncDecl_fails_of (by simp)⟩) ?_)), ?_⟩
    · unfold pFuncDef
      refine pmap_ok.mpr ⟨((k1, sg), b), ?_, rfl⟩
      simp only [thenIgnore_ok, pthen_ok, justSpan_ok, pFuncSignature_ok]
      exact ⟨[], [], _, _, ⟨[], [], _, ⟨[], [], _, ⟨rfl, k1, rfl, rfl⟩, ⟨rfl, ls, hsg, by simp⟩, rfl⟩, hb1, rfl⟩, heol, rfl⟩
    · simp [stmtShape, Stmt.shape, hsg', hb2]
  | @funcDependencies n ds =>
    halve hl l1 ld h1 hd'
    peel h1 k1 l2 h1
    peel h1 k2 l2 h1
    peel h1 k3 l2 h1
    finish h1
    obtain ⟨xs, x1, x2⟩ := kinds_commaSep (G := fun x l => l = [globalTok x]) (φ := Prod.fst) (ψ := fun x : Str => x) (by
      intro b _ l hl
      peel hl a1 l1 hl
      finish hl
      exact ⟨(b, a1), rfl, rfl⟩) hd'
    refine ⟨.funcDependencies (n, k1) xs, nls, hn, por_ok_left (por_ok_right (por_fails.mpr ⟨por_fails.mpr ⟨
      pGlobalVar_fails_of (by simp), pFuncDecl_fails_of (by simp)⟩, pFuncDef_fails_of (by simp)⟩) ?_), ?_⟩
    · unfold pFuncDependencies
      refine pmap_ok.mpr ⟨((n, k1), xs), ?_, rfl⟩
      simp only [thenIgnore_ok, pthen_ok, pGlobalName_ok, pKeyword_ok]
      refine ⟨[], [], _, ⟨[], [], _, _, ⟨[], [], _, _, ⟨rfl, rfl⟩, ⟨rfl, rfl, k2, rfl⟩, rfl⟩, ⟨rfl, rfl, k3, rfl⟩, rfl⟩, ?_, rfl⟩
      refine (sepList_ok (G := fun x l => l = [globalTok x]) pGlobalName_noPanic pGlobalName_clean depItem_ok ?_ ?_).mpr
        ⟨rfl, ld, x1, by simp⟩
      · intro sp r' h
        rcases hstart with ⟨sp', r'', h'⟩ | h'
        · rw [h'] at h; simp at h
        · rw [h'] at h; simp at h
      · refine pGlobalName_fails.mpr ?_
        intro x sp r' h
        rcases hstart with ⟨sp', r'', h'⟩ | h'
        · rw [h'] at h; simp at h
        · rw [h'] at h; simp at h
    · simp [stmtShape, Stmt.shape, x2]

theorem stmtPrint_head {a : Stmt} {ks : List Token} (ha : PrintsStmt a ks) :
    ∃ t ks', ks = t :: ks' ∧ t ≠ .newline := by
  cases ha <;> exact ⟨_, _, rfl, by simp⟩

theorem pPaddedStatement_complete {a : Stmt} {ks : List Token} (ha : PrintsStmt a ks) {l : List Tok} (hl : kinds l = ks)
    {nls0 nls : List Tok} (hn0 : Newlines nls0) (hn : Newlines nls) (hr : nls = [] → r = [])
    (hr' : ∀ sp r', r ≠ (.newline, sp) :: r') :
    ∃ x, Ok pPaddedStatement eoi (nls0 ++ (l ++ (nls ++ r))) [] x r ∧ stmtShape x = a.shape := by
  obtain ⟨x, nls', h1, h2, h3⟩ := pStatement_complete (eoi := eoi) ha hl hn hr
  refine ⟨x, ?_, h3⟩
  unfold pPaddedStatement
  refine paddedBy_ok.mpr ⟨[], [], [], _, _, _, _, newlines_ok.mpr ⟨rfl, nls0, hn0, rfl, rfl, ?_⟩,
    h2, newlines_ok.mpr ⟨rfl, nls', h1, rfl, rfl, hr'⟩, rfl⟩
  intro sp r' h
  obtain ⟨t, ks', rfl, ht⟩ := stmtPrint_head ha
  peel hl k l' hl
  simp at h
  exact ht h.1.1

theorem docItem_nil : Fails docItem eoi [] := by
  refine fails_of_not_ok docItem_noPanic ?_
  intro es x r h
  have := docItem_progress h
  simp at this

theorem many_docItem_complete {as : List Stmt} {ks : List Token} (h : Prints as ks) : ∀ {l nls0 : List Tok},
    kinds l = ks → Newlines nls0 → (as = [] → nls0 = []) →
    ∃ ss, Many docItem eoi (nls0 ++ l) [] ss [] ∧ ss.map stmtShape = as.map Stmt.shape := by
  induction h with
  | nil =>
    intro l nls0 hl _ hn
    finish hl
    cases hn rfl
    exact ⟨[], .nil docItem_nil, rfl⟩
  | last h1 =>
    intro l nls0 hl hn0 _
    obtain ⟨x, h2, h3⟩ := pPaddedStatement_complete (eoi := eoi) (r := []) (nls := []) h1 hl hn0 (by simp [Newlines]) (by simp) (by simp)
    exact ⟨[x], .cons (es := []) (recoverSkip_ok.mpr (.inl (by simpa using h2))) (.nil docItem_nil), by simp [h3]⟩
  | @cons s ss k n ks h1 h2 ih =>
    intro l nls0 hl hn0 _
    halve hl l1 l2 hl h4
    halve hl l1 ln hl h5
    obtain ⟨hn, hn'⟩ := kinds_newlines h5
    obtain ⟨xs, i1, i2⟩ := ih (nls0 := []) h4 (by simp [Newlines]) (by simp)
    have hhead : ∀ sp r', l2 ≠ (.newline, sp) :: r' := by
      intro sp r' he
      subst he
      cases h2 with
      | nil => simp at h4
      | last h2 =>
        obtain ⟨t, ks', rfl, ht⟩ := stmtPrint_head h2
        injection h4 with h4 _
        exact ht h4.symm
      | cons h2 =>
        obtain ⟨t, ks', rfl, ht⟩ := stmtPrint_head h2
        injection h4 with h4 _
        exact ht h4.symm
    obtain ⟨x, j1, j2⟩ := pPaddedStatement_complete (eoi := eoi) h1 hl hn0 hn (fun h => absurd h hn') hhead
    exact ⟨x :: xs, .cons (es := []) (recoverSkip_ok.mpr (.inl (by simpa using j1))) i1, by simp [j2, i2]⟩

end
end HyperIR
