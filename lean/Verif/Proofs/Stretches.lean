import Verif.Proofs.Exact
import Verif.Proofs.Recovery
import Verif.Proofs.Local
import Verif.Spec.Stretches

/- The parser reads exactly the statements outside of unreadable stretches (src/hir_parser.rs:413-425). -/

namespace HyperIR
open Spec

/-! ### Success without errors -/

theorem Spec.OrderlyCont.suffix {a b : List Tok} (h : OrderlyCont (a ++ b)) : OrderlyCont b := by
  rintro x t y k c rfl
  exact h (a ++ x) t y k c (by simp)

theorem Spec.OrderlyCont.tail {t : Tok} {b : List Tok} (h : OrderlyCont (t :: b)) : OrderlyCont b :=
  OrderlyCont.suffix (a := [t]) h

section
variable {eoi : Span} {s r : List Tok} {es : List (LErr Token)}

theorem kind_clean (ht : Unglued s) (ho : OrderlyCont s) {i} (h : Ok pInstructionKind eoi s es i r) : es = [] := by
  have h0 := h
  unfold pInstructionKind at h
  rcases por_ok_inv h with h | h
  · rcases por_ok_inv h with h | h
    · rcases por_ok_inv h with h | h
      · rcases por_ok_inv h with h | h
        · rcases por_ok_inv h with h | h
          · exact (pBr_ok.mp h).1
          · exact (pCondBr_ok.mp h).1
        · obtain ⟨m, ops, c, k, e, t, c', k', e', t', d, nl, r', rfl, hops, rfl, hi, h4⟩ := pOverflowBr_ok.mp h
          have hone : OneLine ops := operands_oneLine hops (Unglued.assoc3 ht)
          have hno : ∀ x ∈ ops, x.1 ≠ .punct ':' ∧ ∀ y, x.1 ≠ .debugRef y := by
            intro x hx
            obtain ⟨p, q, rfl⟩ := List.append_of_mem hx
            refine ho (identTok m :: p) x (q ++ [(.punct ',', c)]) k
              ([(.punct '=', e), identTok t, (.punct ',', c'), (.ident c!"overflow", k'), (.punct '=', e'), identTok t'] ++ dbgToks d
                ++ (.newline, nl) :: r') (by simp [overflowTail]) ?_
            refine oneLine_append (fun y hy => hone y (by simp [hy])) (by simp [OneLine])
          have hany := (pAnyInstruction_ok (eoi := eoi) (es := [])
            (s := (identTok m :: ops ++ overflowTail c k e t c' k' e' t' ++ dbgToks d) ++ (.newline, nl) :: r')
            (r := (.newline, nl) :: r')).mpr
            ⟨rfl, m, ops ++ overflowTail c k e t c' k' e' t', d, nl, r', rfl, ?_, ?_, by simp, rfl⟩
          · obtain ⟨y, r'', h5⟩ := por_ok_some (a := por (por (por (por pBr pCondBr) pOverflowBr) pSwitch) pPhi)
              (por_noPanic (por_noPanic (por_noPanic (por_noPanic pBr_noPanic pCondBr_noPanic) pOverflowBr_noPanic)
                pSwitch_noPanic) pPhi_noPanic) hany
            exact (h0.det h5).1
          · intro x hx
            rcases List.mem_append.mp hx with hx | hx
            · exact ⟨hone x hx, (hno x hx).2⟩
            · simp [overflowTail, identTok] at hx
              rcases hx with rfl | rfl | rfl | rfl | rfl | rfl | rfl | rfl <;> simp
          · cases ops with
            | nil => simp [overflowTail]
            | cons x ops =>
              simp only [List.cons_append, List.head?_cons, Option.map_some]
              intro h
              injection h with h
              exact (hno x List.mem_cons_self).1 h
      · exact (pSwitch_ok.mp h).1
    · exact (pPhi_ok.mp h).1
  · exact (pAnyInstruction_ok.mp h).1

theorem pInstruction_clean_on (ht : Unglued s) (ho : OrderlyCont s) {i} (h : Ok pInstruction eoi s es i r) : es = [] := by
  unfold pInstruction at h
  rw [pmapSpan_ok] at h
  obtain ⟨⟨target, j⟩, h, rfl⟩ := h
  obtain ⟨ea, eb, m, h1, h2, rfl⟩ := pthen_ok.mp h
  rcases orNot_ok.mp h1 with ⟨y, rfl, h3⟩ | ⟨rfl, rfl, rfl, h3⟩
  · obtain ⟨rfl, ty, e, rfl⟩ := pAssignment_ok.mp h3
    rw [kind_clean ht.suffix ho.suffix h2]; rfl
  · rw [kind_clean ht ho h2]; rfl

theorem pPaddedInstruction_clean_on (ht : Unglued s) (ho : OrderlyCont s) {i} (h : Ok pPaddedInstruction eoi s es i r) :
    es = [] := by
  unfold pPaddedInstruction at h
  obtain ⟨e1, e2, e3, m, m', y, z, h1, h2, h3, rfl⟩ := paddedBy_ok.mp h
  obtain ⟨rfl, nls, hn, rfl, _, _⟩ := newlines_ok.mp h1
  obtain ⟨rfl, nls', hn', h4, _, h5⟩ := newlines_ok.mp h3
  rw [pInstruction_clean_on ht.suffix ho.suffix h2]; rfl

theorem many_clean_on {α : Type} {p : P Token α} (hs : Suffix p)
    (hp : ∀ {s es x r}, Unglued s → OrderlyCont s → Ok p eoi s es x r → es = []) {xs} (h : Many p eoi s es xs r) :
    Unglued s → OrderlyCont s → es = [] ∧ ∃ l, s = l ++ r := by
  induction h with
  | nil => intro _ _; exact ⟨rfl, [], rfl⟩
  | cons h1 _ ih =>
    intro ht ho
    obtain rfl := hp ht ho h1
    obtain ⟨l, rfl⟩ := hs h1
    obtain ⟨rfl, l', rfl⟩ := ih ht.suffix ho.suffix
    exact ⟨rfl, l ++ l', by simp⟩

theorem pBasicBlock_clean_on (ht : Unglued s) (ho : OrderlyCont s) {b} (h : Ok pBasicBlock eoi s es b r) : es = [] := by
  unfold pBasicBlock at h
  simp only [pmap_ok] at h
  obtain ⟨⟨⟨label, comma⟩, is⟩, h, rfl⟩ := h
  simp only [pthen_ok, thenIgnore_ok, pIdent_ok, punctSpan_ok, newlines1_ok,
    repeated_ok pPaddedInstruction_noPanic pPaddedInstruction_progress] at h
  obtain ⟨_, _, _, ⟨_, _, _, _, ⟨_, _, _, ⟨rfl, rfl⟩, ⟨rfl, c, rfl, rfl⟩, rfl⟩,
    ⟨rfl, nls, hn, hn', rfl, _, h4⟩, rfl⟩, h3, rfl⟩ := h
  rw [(many_clean_on pPaddedInstruction_suffix (fun ht ho h => pPaddedInstruction_clean_on ht ho h) h3 ht.tail.tail.suffix ho.tail.tail.suffix).1]

theorem pInitialBlock_clean_on (ht : Unglued s) (ho : OrderlyCont s) {b} (h : Ok pInitialBlock eoi s es b r) :
    es = [] ∧ ∃ l, s = l ++ r := by
  unfold pInitialBlock at h
  obtain ⟨is, h1, h2⟩ := pmapOutcome_ok.mp h
  obtain ⟨h3, _⟩ := (repeatedAtLeast_ok pPaddedInstruction_noPanic pPaddedInstruction_progress).mp h1
  exact many_clean_on pPaddedInstruction_suffix (fun ht ho h => pPaddedInstruction_clean_on ht ho h) h3 ht ho

theorem pFuncBody_clean_on (ht : Unglued s) (ho : OrderlyCont s) {b} (h : Ok pFuncBody eoi s es b r) : es = [] := by
  unfold pFuncBody at h
  simp only [pmap_ok] at h
  obtain ⟨⟨⟨⟨o, init⟩, bbs⟩, c⟩, h, rfl⟩ := h
  simp only [pthen_ok, thenIgnore_ok, punctSpan_ok, newlines1_ok, orNot_ok,
    repeated_ok pBasicBlock_noPanic pBasicBlock_progress] at h
  obtain ⟨_, _, _, ⟨_, _, _, ⟨_, _, _, ⟨_, _, _, _, ⟨rfl, o', rfl, rfl⟩, ⟨rfl, nls, hn, hn', rfl, _, hnl⟩, rfl⟩, hi, rfl⟩, hb, rfl⟩,
    ⟨rfl, c', rfl, rfl⟩, rfl⟩ := h
  have ht' := ht.tail.suffix
  have ho' := ho.tail.suffix
  rcases hi with ⟨y, rfl, h2⟩ | ⟨rfl, rfl, rfl, _⟩
  · obtain ⟨rfl, l, rfl⟩ := pInitialBlock_clean_on ht' ho' h2
    rw [(many_clean_on pBasicBlock_suffix (fun ht ho h => pBasicBlock_clean_on ht ho h) hb ht'.suffix ho'.suffix).1]; rfl
  · rw [(many_clean_on pBasicBlock_suffix (fun ht ho h => pBasicBlock_clean_on ht ho h) hb ht' ho').1]; rfl

theorem pFuncDef_clean_on (ht : Unglued s) (ho : OrderlyCont s) {x} (h : Ok pFuncDef eoi s es x r) : es = [] := by
  unfold pFuncDef at h
  simp only [pmap_ok] at h
  obtain ⟨⟨⟨k, sg⟩, b⟩, h, rfl⟩ := h
  simp only [thenIgnore_ok, pthen_ok, justSpan_ok, pFuncSignature_ok, pEol_ok] at h
  obtain ⟨_, _, _, _, ⟨_, _, _, ⟨_, _, _, ⟨rfl, k', rfl, rfl⟩, ⟨rfl, l, hl, rfl⟩, rfl⟩, hb, rfl⟩,
    ⟨rfl, rfl, h1⟩, rfl⟩ := h
  rw [pFuncBody_clean_on ht.tail.suffix ho.tail.suffix hb]; rfl

/-- A list of dependencies is read to its end. -/
theorem pFuncDependencies_whole {x} (h : Ok pFuncDependencies eoi s es x r) : es = [] ∧
    ∀ c y sp r', r = (.punct ',', c) :: (.globalName y, sp) :: r' → ∃ n, x = .funcDependencies n [] := by
  unfold pFuncDependencies at h
  simp only [pmap_ok] at h
  obtain ⟨⟨d, ds⟩, h, rfl⟩ := h
  simp only [thenIgnore_ok, pthen_ok, pGlobalName_ok, pKeyword_ok] at h
  obtain ⟨_, _, _, ⟨_, _, _, _, ⟨_, _, _, _, ⟨rfl, rfl⟩, ⟨rfl, rfl, k, rfl⟩, rfl⟩, ⟨rfl, rfl, k', rfl⟩, rfl⟩, hd, rfl⟩ := h
  have hs : Suffix pGlobalName := by
    intro eoi s es x r h
    obtain ⟨_, l, _, h2⟩ := depItem_ok.mp h
    exact ⟨l, h2⟩
  rw [separatedBy_ok pGlobalName_noPanic pPunct_noPanic pGlobalName_clean pPunct_clean pPunct_progress hs] at hd
  obtain ⟨rfl, hd⟩ := hd
  refine ⟨rfl, ?_⟩
  rintro c y sp r' hr
  cases hd with
  | nil => exact ⟨d, rfl⟩
  | cons h0 ht =>
    exfalso
    clear h0
    induction ht with
    | noDelim h => exact pPunct_fails.mp h _ _ hr
    | noItem h1 h2 =>
      subst hr
      obtain ⟨_, _, _, he⟩ := pPunct_ok.mp h1
      injection he with _ he
      exact pGlobalName_fails.mp h2 _ _ _ he.symm
    | cons _ _ _ ih => exact ih hr

theorem pStatement_whole (ht : Unglued s) (ho : OrderlyCont s) {x} (h : Ok pStatement eoi s es x r) : es = [] ∧
    ∀ n d ds, x = .funcDependencies n (d :: ds) →
      ∀ c y sp r', r ≠ (.punct ',', c) :: (.globalName y, sp) :: r' := by
  unfold pStatement at h
  rcases por_ok_inv h with h1 | h1
  · rcases por_ok_inv h1 with h2 | h2
    · rcases por_ok_inv h2 with h3 | h3
      · rcases por_ok_inv h3 with h4 | h4
        · obtain ⟨rfl, n, e, d, eol, _, rfl, _⟩ := pGlobalVar_ok.mp h4
          exact ⟨rfl, by simp⟩
        · refine ⟨(pFuncDecl_sound h4).1, ?_⟩
          rintro n d ds rfl
          unfold pFuncDecl at h4
          simp only [pmap_ok] at h4
          obtain ⟨_, _, h⟩ := h4
          cases h
      · refine ⟨pFuncDef_clean_on ht ho h3, ?_⟩
        rintro n d ds rfl
        unfold pFuncDef at h3
        simp only [pmap_ok] at h3
        obtain ⟨_, _, h⟩ := h3
        cases h
    · obtain ⟨h5, h6⟩ := pFuncDependencies_whole h2
      refine ⟨h5, ?_⟩
      rintro n d ds rfl c y sp r' hr
      obtain ⟨n', hx⟩ := h6 _ _ _ _ hr
      cases hx
  · obtain ⟨rfl, n, e, d, eol, _, rfl, _⟩ := pDbgAnnotation_ok.mp h1
    exact ⟨rfl, by simp⟩

/-! ### Statements with the line ends around them -/

theorem pPaddedStatement_clean_on (ht : Unglued s) (ho : OrderlyCont s) {x} (h : Ok pPaddedStatement eoi s es x r) : es = [] := by
  unfold pPaddedStatement at h
  obtain ⟨e1, e2, e3, m, m', y, z, h1, h2, h3, rfl⟩ := paddedBy_ok.mp h
  obtain ⟨rfl, nls, hn, rfl, _, _⟩ := newlines_ok.mp h1
  obtain ⟨rfl, nls', hn', h4, _, h5⟩ := newlines_ok.mp h3
  rw [(pStatement_whole ht.suffix ho.suffix h2).1]; rfl

theorem readsAt_iff (ht : Unglued s) (ho : OrderlyCont s) {x} :
    Ok pPaddedStatement eoi s es x r ↔ es = [] ∧ ∃ l, s = l ++ r ∧ ReadsAt x l r := by
  constructor
  · intro h
    obtain rfl := pPaddedStatement_clean_on ht ho h
    refine ⟨rfl, ?_⟩
    unfold pPaddedStatement at h
    obtain ⟨e1, e2, e3, m, m', y, z, h1, h2, h3, he⟩ := paddedBy_ok.mp h
    have he := he.symm
    simp only [List.append_eq_nil_iff] at he
    obtain ⟨⟨rfl, rfl⟩, rfl⟩ := he
    obtain ⟨_, nls, hn, rfl, _, _⟩ := newlines_ok.mp h1
    have hw := (pStatement_whole ht.suffix ho.suffix h2).2
    obtain ⟨l, eol, hl, rfl, he, he'⟩ := pStatement_exact_sound ht.suffix h2
    obtain ⟨_, nls', hn', rfl, _, h5⟩ := newlines_ok.mp h3
    refine ⟨nls ++ l ++ (eol ++ nls'), by simp, nls, l, eol ++ nls', hn, hl, newlines_append he hn', rfl, ?_, h5⟩
    intro h
    obtain ⟨rfl, rfl⟩ := List.append_eq_nil_iff.mp h
    have h6 := he' rfl
    cases x with
    | funcDependencies n ds =>
      cases ds with
      | nil =>
        intro y sp r' hr
        rcases h6 with h6 | h6
        · subst hr; simp at h6
        · exact h6 rfl y sp r' (by simpa using hr)
      | cons d ds => exact fun c y sp r' hr => hw n d ds rfl c y sp r' (by simpa using hr)
    | _ => exact h6.elim (by simp [StmtEnds]) (fun h => h.elim)
  · rintro ⟨rfl, l, rfl, nls, body, nls', h1, h2, h3, rfl, h4, h5⟩
    have e : nls ++ body ++ nls' ++ r = nls ++ (body ++ (nls' ++ r)) := by simp
    rw [e] at ht ⊢
    refine pPaddedStatement_exact_complete h2 h1 h3 (fun hnl => ?_) (fun hnl => ?_) h5 ht.suffix
    · have h4 := h4 hnl
      cases x with
      | funcDependencies n ds =>
        right
        rintro rfl
        exact h4
      | _ => exact .inl h4
    · have h4 := h4 hnl
      rintro n d ds rfl
      exact h4

theorem fails_iff (ht : Unglued s) (ho : OrderlyCont s) :
    Fails pPaddedStatement eoi s ↔ ∀ x l r, s = l ++ r → ¬ ReadsAt x l r := by
  constructor
  · intro h x l r hs hx
    exact ((readsAt_iff ht ho).mpr ⟨rfl, l, hs, hx⟩).not_fails h
  · intro h
    refine fails_of_not_ok pPaddedStatement_noPanic ?_
    intro es x r h'
    obtain ⟨_, l, hs, hx⟩ := (readsAt_iff ht ho).mp h'
    exact h x l r hs hx

/-! ### Documents -/

theorem unreadable_fails {g : List Tok} (ht : Unglued (g ++ r)) (ho : OrderlyCont (g ++ r)) :
    Unreadable g r ↔ g ≠ [] ∧ ∀ a b, g = a ++ b → b ≠ [] → Fails pPaddedStatement eoi (b ++ r) := by
  unfold Unreadable
  refine and_congr_right fun _ => ?_
  constructor
  · rintro h a b rfl hb
    rw [List.append_assoc] at ht ho
    exact (fails_iff ht.suffix ho.suffix).mpr (h a b rfl hb)
  · rintro h a b rfl hb
    rw [List.append_assoc] at ht ho
    exact (fails_iff ht.suffix ho.suffix).mp (h a b rfl hb)

theorem readsAt_ne {x l} (h : ReadsAt x l r) : l ≠ [] := by
  obtain ⟨nls, body, nls', _, h2, _, rfl, _⟩ := h
  obtain ⟨t, l', rfl, _⟩ := stmtX_head h2
  simp

/-- Every sequence of tokens can be split into statements and unreadable stretches. -/
theorem stretches_total : ∀ (n : Nat) (l : List Tok), l.length ≤ n → ∃ ss k w, Stretches ss k w l := by
  intro n
  induction n with
  | zero =>
    intro l hl
    obtain rfl := List.length_eq_zero_iff.mp (Nat.le_zero.mp hl)
    exact ⟨[], 0, true, .done⟩
  | succ n ih =>
    intro l hl
    -- the first place where a statement starts
    have split : ∀ l : List Tok, (∀ a b, l = a ++ b → b ≠ [] → ∀ x l1 r, b = l1 ++ r → ¬ ReadsAt x l1 r) ∨
        ∃ g x l1 r, l = g ++ (l1 ++ r) ∧ ReadsAt x l1 r ∧
          ∀ a b, g = a ++ b → b ≠ [] → ∀ x l2 r', b ++ (l1 ++ r) = l2 ++ r' → ¬ ReadsAt x l2 r' := by
      intro l
      induction l with
      | nil =>
        left
        intro a b h hb
        simp at h
        exact absurd h.2 hb
      | cons t l ihl =>
        by_cases h : ∃ x l1 r, t :: l = l1 ++ r ∧ ReadsAt x l1 r
        · obtain ⟨x, l1, r, h1, h2⟩ := h
          right
          refine ⟨[], x, l1, r, h1, h2, ?_⟩
          intro a b h hb
          simp at h
          exact absurd h.2 hb
        · rcases ihl with ihl | ⟨g, x, l1, r, rfl, h2, h3⟩
          · left
            intro a b hab hb x l1 r h1 h2
            cases a with
            | nil => exact h ⟨x, l1, r, by rw [← h1, hab]; rfl, h2⟩
            | cons t' a => injection hab with _ hab; exact ihl a b hab hb x l1 r h1 h2
          · right
            refine ⟨t :: g, x, l1, r, rfl, h2, ?_⟩
            intro a b hab hb y l2 r' h1 h4
            cases a with
            | nil =>
              simp only [List.nil_append] at hab
              subst hab
              exact h ⟨y, l2, r', h1, h4⟩
            | cons t' a => injection hab with _ hab; exact h3 a b hab hb y l2 r' h1 h4
    rcases split l with h | ⟨g, x, l1, r, rfl, h2, h3⟩
    · by_cases hl0 : l = []
      · subst hl0; exact ⟨[], 0, true, .done⟩
      · exact ⟨[], 1, false, .lost ⟨hl0, fun a b hab hb x l1 r h1 => h a b hab hb x l1 r (by simpa using h1)⟩⟩
    · have := readsAt_ne h2
      have hlen : 0 < l1.length := List.length_pos_iff.mpr this
      obtain ⟨ss, k, w, h4⟩ := ih r (by simp at hl; omega)
      by_cases hg : g = []
      · subst hg
        rw [List.nil_append]
        exact ⟨_, _, _, .stmt h2 h4⟩
      · exact ⟨_, _, _, .skip ⟨hg, h3⟩ h2 h4⟩

/-- What the parser makes of the tokens. -/
theorem many_docItem_stretches {ss k w l} (h : Stretches ss k w l) : Unglued l → OrderlyCont l →
    ∃ es r, Many docItem eoi l es ss r ∧ (w = true ↔ r = []) ∧ (w = true → k ≤ es.length) ∧
      (w = false → k ≤ es.length + 1) ∧ (k = 0 → es = []) := by
  induction h with
  | done => intro _ _; exact ⟨[], [], .nil docItem_nil, by simp, by simp, by simp, by simp⟩
  | @lost g h =>
    intro ht ho
    have h' := (unreadable_fails (eoi := eoi) (r := []) (by simpa using ht) (by simpa using ho)).mp h
    refine ⟨[], g, .nil ?_, by simp [h.1], by simp, by simp, by simp⟩
    refine (recoverSkip_fails pPaddedStatement_noPanic).mpr ⟨by simpa using h'.2 [] g rfl h.1, ?_⟩
    intro s' hs
    obtain ⟨g', _, rfl⟩ := hs.suffix
    by_cases hs' : s' = []
    · subst hs'
      refine (fails_iff ⟨by simp, by simp, by simp⟩ (by rintro a t b k c h; simp at h)).mpr ?_
      intro x l r hl hx
      simp at hl
      exact readsAt_ne hx hl.1
    · simpa using h'.2 g' s' rfl hs'
  | @stmt x ss n w l r h1 _ ih =>
    intro ht ho
    obtain ⟨es, r', h2, h3, h4, h5, h6⟩ := ih ht.suffix ho.suffix
    have := (readsAt_iff (eoi := eoi) ht ho).mpr ⟨rfl, l, rfl, h1⟩
    exact ⟨es, r', .cons (es := []) (docItem_ok_clean.mpr this) h2, h3, h4, h5, h6⟩
  | @skip x ss n w g l r hg h1 _ ih =>
    intro ht ho
    obtain ⟨es, r', h2, h3, h4, h5, h6⟩ := ih ht.suffix.suffix ho.suffix.suffix
    have := (readsAt_iff (eoi := eoi) ht.suffix ho.suffix).mpr ⟨rfl, l, rfl, h1⟩
    obtain ⟨hg0, hg'⟩ := (unreadable_fails (eoi := eoi) ht ho).mp hg
    obtain ⟨es', h7, h8⟩ := docItem_skips (docItem_ok_clean.mpr this) hg' hg0
    have h9 := List.length_pos_iff.mpr h7
    refine ⟨es' ++ es, r', .cons h8 h2, h3, ?_, ?_, by simp⟩
    · intro hw; have := h4 hw; simp; omega
    · intro hw; have := h5 hw; simp; omega

theorem parser_err {ss} (h : Many docItem eoi s es ss r) (hr : r ≠ []) :
    ∃ es' e, parser eoi s = .err es' e ∧ es.length ≤ es'.length := by
  obtain ⟨alt, h1⟩ := (repeated_ok docItem_noPanic docItem_progress).mpr h
  obtain ⟨es2, e2, h2⟩ := (pend_fails (eoi := eoi) (s := r)).mpr hr
  have e : parser = thenIgnore (repeated docItem) pend := rfl
  rw [e]
  unfold thenIgnore pmap pthen
  rw [h1]
  simp only [h2]
  exact ⟨_, _, rfl, by simp⟩

theorem parseTokens_of_many_lost {n : Nat} {toks : List Tok} {ss}
    (h : Many docItem { start := n, stop := n + 1 } (toks.filter fun t => decide (t.1 ≠ Token.comment)) es ss r) (hr : r ≠ []) :
    ∃ errs, parseTokens n toks = .ok (none, errs) ∧ es.length + 1 ≤ errs.length := by
  obtain ⟨es', e, h1, h2⟩ := parser_err h hr
  unfold parseTokens parseRecovery
  rw [h1]
  exact ⟨_, rfl, by simpa using h2⟩

/-! ### There is only one way to split the tokens -/

theorem readsAt_unique {x x' l l' r'} (ht : Unglued (l ++ r)) (ho : OrderlyCont (l ++ r)) (h : ReadsAt x l r)
    (h' : ReadsAt x' l' r') (he : l ++ r = l' ++ r') : x = x' ∧ l = l' ∧ r = r' := by
  have h1 := (readsAt_iff (eoi := ⟨0, 0⟩) ht ho).mpr ⟨rfl, l, rfl, h⟩
  have h2 := (readsAt_iff (eoi := ⟨0, 0⟩) ht ho).mpr ⟨rfl, l', he, h'⟩
  obtain ⟨_, hx, hr⟩ := h1.det h2
  subst hr
  exact ⟨hx, List.append_cancel_right he, rfl⟩

theorem unreadable_unique {g g' l r l' r' : List Tok} {x x' : Statement} (hg : g = [] ∨ Unreadable g (l ++ r))
    (hg' : g' = [] ∨ Unreadable g' (l' ++ r')) (h : ReadsAt x l r) (h' : ReadsAt x' l' r')
    (he : g ++ (l ++ r) = g' ++ (l' ++ r')) : g = g' := by
  have key : ∀ {g c l r l' r' : List Tok} {x : Statement}, (g ++ c = [] ∨ Unreadable (g ++ c) (l' ++ r')) →
      ReadsAt x l r → l ++ r = c ++ (l' ++ r') → c = [] := by
    intro g c l r l' r' x hg h he
    by_cases hc : c = []
    · exact hc
    · rcases hg with hg | hg
      · simp [hc] at hg
      · exact absurd h (hg.2 g c rfl hc x l r he.symm)
  rcases List.append_eq_append_iff.mp he with ⟨c, rfl, h2⟩ | ⟨c, rfl, h2⟩
  · rw [key hg' h h2]; simp
  · rw [key hg h' h2]; simp

theorem stretches_unique {ss k w l} (h : Stretches ss k w l) : Unglued l → OrderlyCont l →
    ∀ {ss' k' w' l'}, l = l' → Stretches ss' k' w' l' → ss = ss' ∧ k = k' ∧ w = w' := by
  have lost : ∀ {g h l r : List Tok} {x : Statement}, Unreadable g [] → ReadsAt x l r → g = h ++ (l ++ r) → False := by
    rintro g h l r x ⟨_, hg⟩ hx rfl
    exact hg h (l ++ r) rfl (by simp [readsAt_ne hx]) x l r (by simp) hx
  induction h with
  | done =>
    intro _ _ ss' k' w' l' he h'
    cases h' with
    | done => exact ⟨rfl, rfl, rfl⟩
    | lost hg => exact absurd he.symm hg.1
    | stmt hx _ => exact absurd (List.append_eq_nil_iff.mp he.symm).1 (readsAt_ne hx)
    | skip hg _ _ => exact absurd (List.append_eq_nil_iff.mp he.symm).1 hg.1
  | @lost g hg =>
    intro _ _ ss' k' w' l' he h'
    cases h' with
    | done => exact absurd he hg.1
    | lost => exact ⟨rfl, rfl, rfl⟩
    | stmt hx _ => exact (lost (h := []) hg hx he).elim
    | skip _ hx _ => exact (lost hg hx he).elim
  | @stmt x ss n w l r hx _ ih =>
    intro ht ho ss' k' w' l' he h'
    cases h' with
    | done => exact absurd (List.append_eq_nil_iff.mp he).1 (readsAt_ne hx)
    | lost hg => exact (lost (h := []) hg hx he.symm).elim
    | stmt hx' hr =>
      obtain ⟨rfl, rfl, rfl⟩ := readsAt_unique ht ho hx hx' he
      obtain ⟨rfl, rfl, rfl⟩ := ih ht.suffix ho.suffix rfl hr
      exact ⟨rfl, rfl, rfl⟩
    | skip hg hx' _ => exact absurd (unreadable_unique (g := []) (.inl rfl) (.inr hg) hx hx' he).symm hg.1
  | @skip x ss n w g l r hg hx _ ih =>
    intro ht ho ss' k' w' l' he h'
    cases h' with
    | done => exact absurd (List.append_eq_nil_iff.mp he).1 hg.1
    | lost hg' => exact (lost hg' hx he.symm).elim
    | stmt hx' hr => exact absurd (unreadable_unique (g' := []) (.inr hg) (.inl rfl) hx hx' he) hg.1
    | skip hg' hx' hr =>
      obtain rfl := unreadable_unique (.inr hg) (.inr hg') hx hx' he
      obtain ⟨rfl, rfl, rfl⟩ := readsAt_unique ht.suffix ho.suffix hx hx' (List.append_cancel_left he)
      obtain ⟨rfl, rfl, rfl⟩ := ih ht.suffix.suffix ho.suffix.suffix rfl hr
      exact ⟨rfl, rfl, rfl⟩

end

end HyperIR
