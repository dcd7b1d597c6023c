import Verif.Proofs.Combinators2
import Verif.Spec.Grammar

/- Laws of the primitive token parsers of the parser (src/hir_parser.rs:75-109). -/

namespace HyperIR
open Spec

/-! ### Ranges -/

theorem hull_cons (t : Tok) (l : List Tok) :
    hull (t :: l) = { start := t.2.start, stop := ((t :: l).getLast (by simp)).2.stop } := by
  simp [hull, List.getLast?_eq_some_getLast]

theorem hull_singleton (t : Tok) : hull [t] = t.2 := by simp [hull]

theorem spanSince_append {eoi : Span} {l r : List Tok} (h : l ≠ []) :
    spanSince eoi (l ++ r) r = hull l := by
  unfold spanSince hull
  cases l with
  | nil => exact absurd rfl h
  | cons t l =>
    have h1 : (t :: l ++ r).length - r.length - 1 = l.length := by simp; omega
    rw [h1]
    have h2 : (t :: l ++ r)[l.length]? = (t :: l).getLast? := by
      rw [List.getElem?_append_left (by simp), List.getLast?_eq_getElem?]
      simp
    rw [h2]
    simp only [headSpan, List.cons_append, List.head?_cons]
    cases h3 : (t :: l).getLast? with
    | none => simp at h3
    | some q => rfl

theorem spanSince_cons {eoi : Span} {t : Tok} {r : List Tok} :
    spanSince eoi (t :: r) r = t.2 := by
  have := spanSince_append (eoi := eoi) (l := [t]) (r := r) (by simp)
  simpa [hull_singleton] using this

theorem hull_start_append {a b : List Tok} (h : a ≠ []) : (hull (a ++ b)).start = (hull a).start := by
  cases a with
  | nil => exact absurd rfl h
  | cons t l => rfl

/-! ### Single tokens -/

section prims
variable {eoi : Span} {s r : List Tok} {es : List (LErr Token)}

@[simp] theorem just_ok {t x : Token} :
    Ok (just t) eoi s es x r ↔ es = [] ∧ x = t ∧ ∃ sp, s = (t, sp) :: r := by
  unfold just
  rw [satisfy_ok]
  simp only [decide_eq_true_eq]
  constructor
  · rintro ⟨h1, rfl, h2⟩; exact ⟨h1, rfl, h2⟩
  · rintro ⟨h1, rfl, h2⟩; exact ⟨h1, rfl, h2⟩

@[simp] theorem just_fails {t : Token} :
    Fails (just t) eoi s ↔ ∀ sp r, s ≠ (t, sp) :: r := by
  unfold just
  rw [satisfy_fails]
  simp only [decide_eq_false_iff_not]
  constructor
  · intro h sp r h'; exact h _ _ _ h' rfl
  · rintro h x sp r h' rfl; exact h _ _ h'

@[simp] theorem pPunct_ok {c : Char} {x : Token} :
    Ok (pPunct c) eoi s es x r ↔ es = [] ∧ x = .punct c ∧ ∃ sp, s = (.punct c, sp) :: r := just_ok

@[simp] theorem pPunct_fails {c : Char} : Fails (pPunct c) eoi s ↔ ∀ sp r, s ≠ (.punct c, sp) :: r :=
  just_fails

@[simp] theorem pNewline_ok {x : Token} :
    Ok pNewline eoi s es x r ↔ es = [] ∧ x = .newline ∧ ∃ sp, s = (.newline, sp) :: r := just_ok

@[simp] theorem pNewline_fails : Fails pNewline eoi s ↔ ∀ sp r, s ≠ (.newline, sp) :: r :=
  just_fails

@[simp] theorem pKeyword_ok {k : Str} {x : Token} :
    Ok (pKeyword k) eoi s es x r ↔ es = [] ∧ x = .ident k ∧ ∃ sp, s = (.ident k, sp) :: r := just_ok

@[simp] theorem pKeyword_fails {k : Str} : Fails (pKeyword k) eoi s ↔ ∀ sp r, s ≠ (.ident k, sp) :: r :=
  just_fails

@[simp] theorem pany_ok {x : Token} :
    Ok (pany : P Token Token) eoi s es x r ↔ es = [] ∧ ∃ sp, s = (x, sp) :: r := by
  unfold pany
  rw [satisfy_ok]
  simp

@[simp] theorem pany_fails : Fails (pany : P Token Token) eoi s ↔ s = [] := by
  unfold pany
  rw [satisfy_fails]
  cases s with
  | nil => simp
  | cons t l =>
    simp only [reduceCtorEq, iff_false]
    intro h
    exact absurd (h t.1 t.2 l rfl) (by simp)

@[simp] theorem noneOf_ok {ts : List Token} {x : Token} :
    Ok (noneOf ts) eoi s es x r ↔ es = [] ∧ x ∉ ts ∧ ∃ sp, s = (x, sp) :: r := by
  unfold noneOf
  rw [satisfy_ok]
  simp

@[simp] theorem noneOf_fails {ts : List Token} :
    Fails (noneOf ts) eoi s ↔ ∀ t r, s = t :: r → t.1 ∈ ts := by
  unfold noneOf
  rw [satisfy_fails]
  simp only [decide_not, Bool.not_eq_eq_eq_not, Bool.not_false, decide_eq_true_eq]
  constructor
  · intro h t r h'; exact h t.1 t.2 r h'
  · intro h x sp r h'; exact h _ _ h'

/-- A parser for a token that carries a name. -/
theorem nameParser_ok {p : P Token (Spanned Str)} {mk : Str → Token} {f : Token → Span → Option (Spanned Str)}
    {msg : Str} (hp : p = pfilterMap f msg) (hf : ∀ t sp x, f t sp = some x ↔ t = mk x.1 ∧ sp = x.2)
    {x : Spanned Str} : Ok p eoi s es x r ↔ es = [] ∧ s = (mk x.1, x.2) :: r := by
  subst hp
  rw [pfilterMap_ok]
  constructor
  · rintro ⟨h1, t, sp, rfl, h2⟩
    obtain ⟨rfl, rfl⟩ := (hf _ _ _).mp h2
    exact ⟨h1, rfl⟩
  · rintro ⟨h1, rfl⟩
    exact ⟨h1, _, _, rfl, (hf _ _ _).mpr ⟨rfl, rfl⟩⟩

theorem nameParser_fails {p : P Token (Spanned Str)} {mk : Str → Token} {f : Token → Span → Option (Spanned Str)}
    {msg : Str} (hp : p = pfilterMap f msg) (hf : ∀ t sp x, f t sp = some x ↔ t = mk x.1 ∧ sp = x.2) :
    Fails p eoi s ↔ ∀ x sp r, s ≠ (mk x, sp) :: r := by
  subst hp
  rw [pfilterMap_fails]
  constructor
  · rintro h x sp r rfl
    have := h _ _ _ rfl
    rw [(hf _ _ (x, sp)).mpr ⟨rfl, rfl⟩] at this
    cases this
  · rintro h t sp r rfl
    cases h' : f t sp with
    | none => rfl
    | some y =>
      obtain ⟨rfl, rfl⟩ := (hf _ _ _).mp h'
      exact absurd rfl (h _ _ _)

@[simp] theorem pFuncModifier_ok {x} : Ok pFuncModifier eoi s es x r ↔ es = [] ∧ s = modTok x :: r :=
  nameParser_ok (mk := .funcModifier) rfl (by intro t sp x; cases t <;> simp [Prod.ext_iff])
@[simp] theorem pFuncModifier_fails : Fails pFuncModifier eoi s ↔ ∀ x sp r, s ≠ (.funcModifier x, sp) :: r :=
  nameParser_fails (mk := .funcModifier) rfl (by intro t sp x; cases t <;> simp [Prod.ext_iff])
@[simp] theorem pGlobalName_ok {x} : Ok pGlobalName eoi s es x r ↔ es = [] ∧ s = globalTok x :: r :=
  nameParser_ok (mk := .globalName) rfl (by intro t sp x; cases t <;> simp [Prod.ext_iff])
@[simp] theorem pGlobalName_fails : Fails pGlobalName eoi s ↔ ∀ x sp r, s ≠ (.globalName x, sp) :: r :=
  nameParser_fails (mk := .globalName) rfl (by intro t sp x; cases t <;> simp [Prod.ext_iff])
@[simp] theorem pLocalName_ok {x} : Ok pLocalName eoi s es x r ↔ es = [] ∧ s = localTok x :: r :=
  nameParser_ok (mk := .localName) rfl (by intro t sp x; cases t <;> simp [Prod.ext_iff])
@[simp] theorem pLocalName_fails : Fails pLocalName eoi s ↔ ∀ x sp r, s ≠ (.localName x, sp) :: r :=
  nameParser_fails (mk := .localName) rfl (by intro t sp x; cases t <;> simp [Prod.ext_iff])
@[simp] theorem pType_ok {x} : Ok pType eoi s es x r ↔ es = [] ∧ s = typeTok x :: r :=
  nameParser_ok (mk := .type) rfl (by intro t sp x; cases t <;> simp [Prod.ext_iff])
@[simp] theorem pType_fails : Fails pType eoi s ↔ ∀ x sp r, s ≠ (.type x, sp) :: r :=
  nameParser_fails (mk := .type) rfl (by intro t sp x; cases t <;> simp [Prod.ext_iff])
@[simp] theorem pIdent_ok {x} : Ok pIdent eoi s es x r ↔ es = [] ∧ s = identTok x :: r :=
  nameParser_ok (mk := .ident) rfl (by intro t sp x; cases t <;> simp [Prod.ext_iff])
@[simp] theorem pIdent_fails : Fails pIdent eoi s ↔ ∀ x sp r, s ≠ (.ident x, sp) :: r :=
  nameParser_fails (mk := .ident) rfl (by intro t sp x; cases t <;> simp [Prod.ext_iff])
@[simp] theorem pDbgRef_ok {x} : Ok pDbgRef eoi s es x r ↔ es = [] ∧ s = dbgTok x :: r :=
  nameParser_ok (mk := .debugRef) rfl (by intro t sp x; cases t <;> simp [Prod.ext_iff])
@[simp] theorem pDbgRef_fails : Fails pDbgRef eoi s ↔ ∀ x sp r, s ≠ (.debugRef x, sp) :: r :=
  nameParser_fails (mk := .debugRef) rfl (by intro t sp x; cases t <;> simp [Prod.ext_iff])
@[simp] theorem pHexnum_ok {x} : Ok pHexnum eoi s es x r ↔ es = [] ∧ s = hexTok x :: r :=
  nameParser_ok (mk := .hexNum) rfl (by intro t sp x; cases t <;> simp [Prod.ext_iff])
@[simp] theorem pHexnum_fails : Fails pHexnum eoi s ↔ ∀ x sp r, s ≠ (.hexNum x, sp) :: r :=
  nameParser_fails (mk := .hexNum) rfl (by intro t sp x; cases t <;> simp [Prod.ext_iff])

/-- `just(t).map_with_span(|_, sp| …)` -/
@[simp] theorem justSpan_ok {α : Type} {f : Token → Span → α} {t : Token} {x : α} :
    Ok (pmapSpan f (just t)) eoi s es x r ↔ es = [] ∧ ∃ sp, x = f t sp ∧ s = (t, sp) :: r := by
  rw [pmapSpan_ok]
  simp only [just_ok]
  constructor
  · rintro ⟨y, ⟨h1, rfl, sp, rfl⟩, rfl⟩
    exact ⟨h1, sp, by rw [spanSince_cons], rfl⟩
  · rintro ⟨h1, sp, rfl, rfl⟩
    exact ⟨t, ⟨h1, rfl, sp, rfl⟩, by rw [spanSince_cons]⟩

@[simp] theorem punctSpan_ok {α : Type} {f : Token → Span → α} {c : Char} {x : α} :
    Ok (pmapSpan f (pPunct c)) eoi s es x r ↔ es = [] ∧ ∃ sp, x = f (.punct c) sp ∧ s = (.punct c, sp) :: r :=
  justSpan_ok

@[simp] theorem pKeywordSpan_ok {k : Str} {x : Spanned Str} :
    Ok (pKeywordSpan k) eoi s es x r ↔ es = [] ∧ ∃ sp, x = (k, sp) ∧ s = (.ident k, sp) :: r :=
  justSpan_ok

@[simp] theorem pKeywordSpan_fails {k : Str} :
    Fails (pKeywordSpan k) eoi s ↔ ∀ sp r, s ≠ (.ident k, sp) :: r := by
  unfold pKeywordSpan
  rw [pmapSpan_fails, pKeyword_fails]

@[simp] theorem pNewlineAhead_ok {x} :
    Ok pNewlineAhead eoi s es x r ↔ es = [] ∧ x = .newline ∧ r = s ∧ ∃ sp s', s = (.newline, sp) :: s' := by
  unfold pNewlineAhead
  rw [rewind_ok]
  simp only [pNewline_ok]
  constructor
  · rintro ⟨rfl, r', h1, h2, sp, h3⟩; exact ⟨h1, h2, rfl, sp, r', h3⟩
  · rintro ⟨h1, h2, rfl, sp, r', h3⟩; exact ⟨rfl, r', h1, h2, sp, h3⟩

@[simp] theorem pNewlineAhead_fails : Fails pNewlineAhead eoi s ↔ ∀ sp r, s ≠ (.newline, sp) :: r := by
  unfold pNewlineAhead
  rw [rewind_fails, pNewline_fails]

/-- An end of line: the next token is a line end, or the input ends. -/
theorem pEol_ok {x} : Ok pEol eoi s es x r ↔
    es = [] ∧ x = .newline ∧ ((∃ sp, s = (.newline, sp) :: r) ∨ (s = [] ∧ r = [])) := by
  unfold pEol
  rw [por_ok_clean (by exact satisfy_clean)]
  simp only [just_ok, just_fails, pmap_ok, pend_ok]
  constructor
  · rintro (⟨rfl, rfl, h⟩ | ⟨_, y, ⟨rfl, rfl, rfl⟩, rfl⟩)
    · exact ⟨rfl, rfl, .inl h⟩
    · exact ⟨rfl, rfl, .inr ⟨rfl, rfl⟩⟩
  · rintro ⟨rfl, rfl, h | ⟨rfl, rfl⟩⟩
    · exact .inl ⟨rfl, rfl, h⟩
    · exact .inr ⟨by simp, (), ⟨rfl, rfl, rfl⟩, rfl⟩

theorem pEol_fails : Fails pEol eoi s ↔ s ≠ [] ∧ ∀ sp r, s ≠ (.newline, sp) :: r := by
  unfold pEol
  rw [por_fails, just_fails, pmap_fails, pend_fails]
  exact And.comm

end prims

/-! ### No panics, no secondary errors, progress -/

theorem just_noPanic {t : Token} : NoPanic (just t) := satisfy_noPanic
theorem pPunct_noPanic {c} : NoPanic (pPunct c) := satisfy_noPanic
theorem pNewline_noPanic : NoPanic pNewline := satisfy_noPanic
theorem pKeyword_noPanic {k} : NoPanic (pKeyword k) := satisfy_noPanic
theorem pany_noPanic : NoPanic (pany : P Token Token) := satisfy_noPanic
theorem noneOf_noPanic {ts : List Token} : NoPanic (noneOf ts) := satisfy_noPanic
theorem pFuncModifier_noPanic : NoPanic pFuncModifier := pfilterMap_noPanic
theorem pGlobalName_noPanic : NoPanic pGlobalName := pfilterMap_noPanic
theorem pLocalName_noPanic : NoPanic pLocalName := pfilterMap_noPanic
theorem pType_noPanic : NoPanic pType := pfilterMap_noPanic
theorem pIdent_noPanic : NoPanic pIdent := pfilterMap_noPanic
theorem pDbgRef_noPanic : NoPanic pDbgRef := pfilterMap_noPanic
theorem pHexnum_noPanic : NoPanic pHexnum := pfilterMap_noPanic
theorem pKeywordSpan_noPanic {k} : NoPanic (pKeywordSpan k) := pmapSpan_noPanic pKeyword_noPanic
theorem pNewlineAhead_noPanic : NoPanic pNewlineAhead := rewind_noPanic pNewline_noPanic
theorem pEol_noPanic : NoPanic pEol := por_noPanic just_noPanic (pmap_noPanic pend_noPanic)

theorem just_clean {t : Token} : Clean (just t) := satisfy_clean
theorem pPunct_clean {c} : Clean (pPunct c) := satisfy_clean
theorem pNewline_clean : Clean pNewline := satisfy_clean
theorem pKeyword_clean {k} : Clean (pKeyword k) := satisfy_clean
theorem pany_clean : Clean (pany : P Token Token) := satisfy_clean
theorem noneOf_clean {ts : List Token} : Clean (noneOf ts) := satisfy_clean
theorem pFuncModifier_clean : Clean pFuncModifier := pfilterMap_clean
theorem pGlobalName_clean : Clean pGlobalName := pfilterMap_clean
theorem pLocalName_clean : Clean pLocalName := pfilterMap_clean
theorem pType_clean : Clean pType := pfilterMap_clean
theorem pIdent_clean : Clean pIdent := pfilterMap_clean
theorem pDbgRef_clean : Clean pDbgRef := pfilterMap_clean
theorem pHexnum_clean : Clean pHexnum := pfilterMap_clean
theorem pKeywordSpan_clean {k} : Clean (pKeywordSpan k) := pmapSpan_clean pKeyword_clean
theorem pNewlineAhead_clean : Clean pNewlineAhead := rewind_clean pNewline_clean
theorem pEol_clean : Clean pEol := por_clean just_clean (pmap_clean pend_clean)

theorem pNewline_progress : Progress pNewline := by
  intro eoi s es x r h
  obtain ⟨_, _, sp, rfl⟩ := pNewline_ok.mp h
  simp
theorem pPunct_progress {c} : Progress (pPunct c) := by
  intro eoi s es x r h
  obtain ⟨_, _, sp, rfl⟩ := pPunct_ok.mp h
  simp
theorem pFuncModifier_progress : Progress pFuncModifier := by
  intro eoi s es x r h
  obtain ⟨_, rfl⟩ := pFuncModifier_ok.mp h
  simp
theorem noneOf_progress {ts : List Token} : Progress (noneOf ts) := by
  intro eoi s es x r h
  obtain ⟨_, _, sp, rfl⟩ := noneOf_ok.mp h
  simp

/-! ### Optional debug references -/

section
variable {eoi : Span} {s r : List Tok} {es : List (LErr Token)}

theorem orNotDbg_ok {x} : Ok (orNot pDbgRef) eoi s es x r ↔
    es = [] ∧ s = dbgToks x ++ r ∧ (x = none → ∀ y sp r', r ≠ (.debugRef y, sp) :: r') := by
  rw [orNot_ok]
  simp only [pDbgRef_ok, pDbgRef_fails]
  constructor
  · rintro (⟨y, rfl, rfl, rfl⟩ | ⟨rfl, rfl, rfl, h⟩)
    · exact ⟨rfl, rfl, by simp⟩
    · exact ⟨rfl, rfl, fun _ => h⟩
  · rintro ⟨rfl, rfl, h⟩
    cases x with
    | none => exact .inr ⟨rfl, rfl, rfl, h rfl⟩
    | some y => exact .inl ⟨y, rfl, rfl, rfl⟩

theorem orNotDbg_noPanic : NoPanic (orNot pDbgRef) := orNot_noPanic pDbgRef_noPanic
theorem orNotDbg_clean : Clean (orNot pDbgRef) := orNot_clean pDbgRef_clean

/-! ### Line ends -/

theorem many_newline {xs} : Many pNewline eoi s es xs r ↔
    es = [] ∧ ∃ nls, Newlines nls ∧ s = nls ++ r ∧ xs = nls.map Prod.fst
      ∧ ∀ sp r', r ≠ (.newline, sp) :: r' := by
  constructor
  · intro h
    induction h with
    | nil h =>
      refine ⟨rfl, [], ?_, rfl, rfl, pNewline_fails.mp h⟩
      intro t ht; cases ht
    | cons h1 _ ih =>
      obtain ⟨rfl, rfl, sp, rfl⟩ := pNewline_ok.mp h1
      obtain ⟨rfl, nls, h2, rfl, rfl, h3⟩ := ih
      refine ⟨rfl, (.newline, sp) :: nls, ?_, rfl, rfl, h3⟩
      intro t ht
      rcases List.mem_cons.mp ht with rfl | ht
      · rfl
      · exact h2 t ht
  · rintro ⟨rfl, nls, h1, rfl, rfl, h2⟩
    induction nls with
    | nil => exact .nil (pNewline_fails.mpr h2)
    | cons t nls ih =>
      obtain ⟨t, sp⟩ := t
      have ht : t = .newline := h1 _ (List.mem_cons_self ..)
      subst ht
      exact .cons (es := []) (pNewline_ok.mpr ⟨rfl, rfl, sp, rfl⟩)
        (ih (fun t ht => h1 t (List.mem_cons_of_mem _ ht)))

theorem newlines_ok {xs} : Ok (repeated pNewline) eoi s es xs r ↔
    es = [] ∧ ∃ nls, Newlines nls ∧ s = nls ++ r ∧ xs = nls.map Prod.fst
      ∧ ∀ sp r', r ≠ (.newline, sp) :: r' := by
  rw [repeated_ok pNewline_noPanic pNewline_progress, many_newline]

theorem newlines1_ok {xs} : Ok (repeatedAtLeast 1 pNewline) eoi s es xs r ↔
    es = [] ∧ ∃ nls, Newlines nls ∧ nls ≠ [] ∧ s = nls ++ r ∧ xs = nls.map Prod.fst
      ∧ ∀ sp r', r ≠ (.newline, sp) :: r' := by
  rw [repeatedAtLeast_ok pNewline_noPanic pNewline_progress, many_newline]
  constructor
  · rintro ⟨⟨h, nls, h1, h2, rfl, h3⟩, h4⟩
    refine ⟨h, nls, h1, ?_, h2, rfl, h3⟩
    rintro rfl
    simp at h4
  · rintro ⟨h, nls, h1, h4, h2, rfl, h3⟩
    refine ⟨⟨h, nls, h1, h2, rfl, h3⟩, ?_⟩
    cases nls with
    | nil => exact absurd rfl h4
    | cons => simp

theorem newlines_noPanic : NoPanic (repeated pNewline) := repeated_noPanic pNewline_noPanic pNewline_progress
theorem newlines1_noPanic : NoPanic (repeatedAtLeast 1 pNewline) :=
  repeatedAtLeast_noPanic pNewline_noPanic pNewline_progress
theorem newlines_fails : ¬ Fails (repeated pNewline) eoi s := repeated_fails pNewline_noPanic pNewline_progress

theorem newlines1_fails : Fails (repeatedAtLeast 1 pNewline) eoi s ↔ ∀ sp r, s ≠ (.newline, sp) :: r := by
  rw [repeatedAtLeast_fails pNewline_noPanic pNewline_progress]
  constructor
  · rintro ⟨es, xs, r, h, hl⟩ sp r' rfl
    obtain ⟨rfl, nls, h1, h2, rfl, h3⟩ := many_newline.mp h
    cases nls with
    | nil => exact h3 _ _ h2.symm
    | cons => simp at hl
  · intro h
    exact ⟨[], [], s, .nil (pNewline_fails.mpr h), by simp⟩

/-! ### Sequences of tokens -/

/-- Repetition of a single-token parser. -/
theorem many_tok {α : Type} {p : P Token α} {good : Token → Prop} {f : Tok → α} (hok : ∀ {eoi s es x r}, Ok p eoi s es x r ↔
      es = [] ∧ ∃ t, good t.1 ∧ s = t :: r ∧ x = f t)
    {xs} : Many p eoi s es xs r ↔
      es = [] ∧ ∃ l, (∀ t ∈ l, good t.1) ∧ s = l ++ r ∧ xs = l.map f ∧ Fails p eoi r := by
  constructor
  · intro h
    induction h with
    | nil h => exact ⟨rfl, [], by simp, rfl, rfl, h⟩
    | cons h1 _ ih =>
      obtain ⟨rfl, t, ht, rfl, rfl⟩ := hok.mp h1
      obtain ⟨rfl, l, h2, rfl, rfl, h3⟩ := ih
      refine ⟨rfl, t :: l, ?_, rfl, rfl, h3⟩
      intro u hu
      rcases List.mem_cons.mp hu with rfl | hu
      · exact ht
      · exact h2 u hu
  · rintro ⟨rfl, l, h1, rfl, rfl, h2⟩
    induction l with
    | nil => exact .nil h2
    | cons t l ih =>
      exact .cons (es := []) (hok.mpr ⟨rfl, t, h1 t (List.mem_cons_self ..), rfl, rfl⟩)
        (ih (fun t ht => h1 t (List.mem_cons_of_mem _ ht)))

theorem soupItem_ok {x : Spanned Token} : Ok (pmapSpan (fun t sp => (t, sp)) (noneOf [Token.newline])) eoi s es x r ↔
    es = [] ∧ ∃ t : Tok, t.1 ≠ .newline ∧ s = t :: r ∧ x = id t := by
  rw [pmapSpan_ok]
  simp only [noneOf_ok, List.mem_singleton]
  constructor
  · rintro ⟨y, ⟨rfl, h, sp, rfl⟩, rfl⟩
    exact ⟨rfl, (y, sp), h, rfl, by rw [spanSince_cons]; rfl⟩
  · rintro ⟨rfl, ⟨y, sp⟩, h, rfl, rfl⟩
    exact ⟨y, ⟨rfl, h, sp, rfl⟩, by rw [spanSince_cons]; rfl⟩

theorem soupItem_noPanic : NoPanic (pmapSpan (fun t sp => (t, sp)) (noneOf [Token.newline])) :=
  pmapSpan_noPanic noneOf_noPanic

theorem soupItem_progress : Progress (pmapSpan (fun (t : Token) sp => (t, sp)) (noneOf [Token.newline])) := by
  intro eoi s es x r h
  obtain ⟨_, t, _, rfl, _⟩ := soupItem_ok.mp h
  simp

theorem pTokenSoup_ok {x} : Ok pTokenSoup eoi s es x r ↔
    es = [] ∧ OneLine x ∧ s = x ++ r ∧ ∀ t r', r = t :: r' → t.1 = .newline := by
  unfold pTokenSoup
  rw [repeated_ok soupItem_noPanic soupItem_progress, many_tok (f := id) (good := (· ≠ .newline)) soupItem_ok]
  simp only [pmapSpan_fails, noneOf_fails, List.mem_singleton, List.map_id]
  constructor
  · rintro ⟨rfl, l, h1, rfl, rfl, h2⟩
    exact ⟨rfl, h1, rfl, h2⟩
  · rintro ⟨rfl, h1, rfl, h2⟩
    exact ⟨rfl, x, h1, rfl, rfl, h2⟩

theorem pTokenSoup_noPanic : NoPanic pTokenSoup := repeated_noPanic soupItem_noPanic soupItem_progress

theorem noneOfItem_ok {ts : List Token} {x} : Ok (noneOf ts) eoi s es x r ↔
    es = [] ∧ ∃ t : Tok, t.1 ∉ ts ∧ s = t :: r ∧ x = Prod.fst t := by
  rw [noneOf_ok]
  constructor
  · rintro ⟨rfl, h, sp, rfl⟩; exact ⟨rfl, (x, sp), h, rfl, rfl⟩
  · rintro ⟨rfl, ⟨y, sp⟩, h, rfl, rfl⟩; exact ⟨rfl, h, sp, rfl⟩

theorem noneOfs_ok {ts : List Token} {x} : Ok (repeated (noneOf ts)) eoi s es x r ↔
    es = [] ∧ ∃ l : List Tok, (∀ t ∈ l, t.1 ∉ ts) ∧ s = l ++ r ∧ x = l.map Prod.fst
      ∧ ∀ t r', r = t :: r' → t.1 ∈ ts := by
  rw [repeated_ok noneOf_noPanic noneOf_progress, many_tok (f := Prod.fst) (good := (· ∉ ts)) noneOfItem_ok]
  simp only [noneOf_fails]

theorem noneOfs_noPanic {ts : List Token} : NoPanic (repeated (noneOf ts)) :=
  repeated_noPanic noneOf_noPanic noneOf_progress

/-! ### Operands -/

/-- Where the operands of an overflow branch or switch end. -/
def StopsOps (kw : Str) (r : List Tok) : Prop :=
  ∀ t r', r = t :: r' → t.1 = .newline ∨ (t.1 = .punct ',' ∧ ∀ u r'', r' = u :: r'' → u.1 = .ident kw)

def skipItem (kw : Str) : P Token Token :=
  por (noneOf [Token.punct ',', Token.newline]) (thenIgnore (pPunct ',') (noneOf [Token.ident kw]))

theorem skipItem_noPanic {kw} : NoPanic (skipItem kw) :=
  por_noPanic noneOf_noPanic (thenIgnore_noPanic pPunct_noPanic noneOf_noPanic)

theorem skipItem_ok {kw x} : Ok (skipItem kw) eoi s es x r ↔ es = [] ∧
    ((∃ sp, x ≠ .punct ',' ∧ x ≠ .newline ∧ s = (x, sp) :: r) ∨
      (∃ c t, x = .punct ',' ∧ t.1 ≠ .ident kw ∧ s = (.punct ',', c) :: t :: r)) := by
  unfold skipItem
  rw [por_ok_clean noneOf_clean]
  simp only [noneOf_ok, thenIgnore_ok, pPunct_ok, List.mem_cons, List.not_mem_nil, or_false, not_or, noneOf_fails]
  constructor
  · rintro (⟨rfl, ⟨h1, h2⟩, sp, rfl⟩ | ⟨h, _, _, m, y, ⟨rfl, rfl, c, rfl⟩, ⟨rfl, h3, sp, rfl⟩, rfl⟩)
    · exact ⟨rfl, .inl ⟨sp, h1, h2, rfl⟩⟩
    · exact ⟨rfl, .inr ⟨c, (y, sp), rfl, h3, rfl⟩⟩
  · rintro ⟨rfl, ⟨sp, h1, h2, rfl⟩ | ⟨c, ⟨y, sp⟩, rfl, h3, rfl⟩⟩
    · exact .inl ⟨rfl, ⟨h1, h2⟩, sp, rfl⟩
    · refine .inr ⟨?_, [], [], _, y, ⟨rfl, rfl, c, rfl⟩, ⟨rfl, h3, sp, rfl⟩, rfl⟩
      intro t r' h
      injection h with h _
      subst h
      exact .inl rfl

theorem skipItem_progress {kw} : Progress (skipItem kw) := by
  intro eoi s es x r h
  obtain ⟨_, ⟨sp, _, _, rfl⟩ | ⟨c, t, _, _, rfl⟩⟩ := skipItem_ok.mp h <;> simp <;> omega

theorem skipItem_clean {kw} : Clean (skipItem kw) :=
  por_clean noneOf_clean (thenIgnore_clean pPunct_clean noneOf_clean)

theorem skipItem_fails {kw} : Fails (skipItem kw) eoi s ↔ StopsOps kw s := by
  constructor
  · rintro h t r' rfl
    by_cases h1 : t.1 = .newline
    · exact .inl h1
    by_cases h2 : t.1 = .punct ','
    · refine .inr ⟨h2, ?_⟩
      rintro u r'' rfl
      by_cases h3 : u.1 = .ident kw
      · exact h3
      · exfalso
        obtain ⟨t, sp⟩ := t
        subst h2
        exact (skipItem_ok.mpr ⟨rfl, .inr ⟨sp, u, rfl, h3, rfl⟩⟩ : Ok (skipItem kw) eoi _ [] _ _).not_fails h
    · exfalso
      obtain ⟨t, sp⟩ := t
      exact (skipItem_ok.mpr ⟨rfl, .inl ⟨sp, h2, h1, rfl⟩⟩ : Ok (skipItem kw) eoi _ [] _ _).not_fails h
  · intro h
    rcases skipItem_noPanic (kw := kw) |>.cases eoi s with ⟨es, x, r, h'⟩ | h'
    · exfalso
      obtain ⟨_, ⟨sp, h1, h2, rfl⟩ | ⟨c, t, rfl, h1, rfl⟩⟩ := skipItem_ok.mp h'
      · rcases h _ _ rfl with h3 | ⟨h3, _⟩
        · exact h2 h3
        · exact h1 h3
      · rcases h _ _ rfl with h3 | ⟨_, h3⟩
        · cases h3
        · exact h1 (h3 _ _ rfl)
    · exact h'

theorem many_skipItem {kw xs} (h : Many (skipItem kw) eoi s es xs r) :
    es = [] ∧ ∃ ops, Operands kw ops ∧ s = ops ++ r := by
  induction h with
  | nil => exact ⟨rfl, [], .nil, rfl⟩
  | cons h1 _ ih =>
    obtain ⟨rfl, ops, h2, rfl⟩ := ih
    obtain ⟨rfl, ⟨sp, h3, h4, rfl⟩ | ⟨c, t, rfl, h3, rfl⟩⟩ := skipItem_ok.mp h1
    · exact ⟨rfl, (_, sp) :: ops, .tok h3 h4 h2, rfl⟩
    · exact ⟨rfl, _ :: _ :: ops, .comma h3 h2, rfl⟩

theorem many_skipItem_of {kw ops} (h : Operands kw ops) (hr : StopsOps kw r) :
    ∃ xs, Many (skipItem kw) eoi (ops ++ r) [] xs r := by
  induction h with
  | nil => exact ⟨[], .nil (skipItem_fails.mpr hr)⟩
  | @tok t l h1 h2 _ ih =>
    obtain ⟨xs, ih⟩ := ih
    exact ⟨t.1 :: xs, .cons (es := []) (skipItem_ok.mpr ⟨rfl, .inl ⟨t.2, h1, h2, rfl⟩⟩) ih⟩
  | @comma c t l h1 _ ih =>
    obtain ⟨xs, ih⟩ := ih
    exact ⟨.punct ',' :: xs, .cons (es := []) (skipItem_ok.mpr ⟨rfl, .inr ⟨c, t, rfl, h1, rfl⟩⟩) ih⟩

/-- `pSkipOperands`, up to its (unused) output. -/
theorem pSkipOperands_ok {kw} : (∃ xs, Ok (pSkipOperands kw) eoi s es xs r) ↔
    es = [] ∧ ∃ ops, Operands kw ops ∧ s = ops ++ r ∧ StopsOps kw r := by
  have e : pSkipOperands kw = repeated (skipItem kw) := rfl
  rw [e]
  simp only [repeated_ok skipItem_noPanic skipItem_progress]
  constructor
  · rintro ⟨xs, h⟩
    have h1 := skipItem_fails.mp h.fails
    obtain ⟨rfl, ops, h2, h3⟩ := many_skipItem h
    exact ⟨rfl, ops, h2, h3, h1⟩
  · rintro ⟨rfl, ops, h1, rfl, h2⟩
    exact many_skipItem_of h1 h2

theorem pSkipOperands_noPanic {kw} : NoPanic (pSkipOperands kw) :=
  repeated_noPanic skipItem_noPanic skipItem_progress

theorem pSkipOperands_fails {kw} : ¬ Fails (pSkipOperands kw) eoi s :=
  repeated_fails skipItem_noPanic skipItem_progress

/-! ### Comma separated lists -/

theorem commaSep_of_sepTail {α : Type} {item : P Token α} {G : α → List Tok → Prop}
    (hok : ∀ {eoi s es x r}, Ok item eoi s es x r → es = [] ∧ ∃ l, G x l ∧ s = l ++ r)
    {xs} (h : SepTail item (pPunct ',') eoi s xs r) :
    ∀ {x l}, G x l → ∃ l', CommaSep G (x :: xs) (l ++ l') ∧ s = l' ++ r := by
  induction h with
  | noDelim _ => intro x l hx; exact ⟨[], by simpa using .one hx, rfl⟩
  | noItem _ _ => intro x l hx; exact ⟨[], by simpa using .one hx, rfl⟩
  | cons h1 h2 _ ih =>
    intro x l hx
    obtain ⟨_, _, sp, rfl⟩ := pPunct_ok.mp h1
    obtain ⟨_, l1, hx1, rfl⟩ := hok h2
    obtain ⟨l', h3, rfl⟩ := ih hx1
    exact ⟨(.punct ',', sp) :: (l1 ++ l'), .cons hx h3, by simp⟩

theorem commaSep_of_sep {α : Type} {item : P Token α} {G : α → List Tok → Prop}
    (hok : ∀ {eoi s es x r}, Ok item eoi s es x r → es = [] ∧ ∃ l, G x l ∧ s = l ++ r)
    {xs} (h : Sep item (pPunct ',') eoi s xs r) : ∃ l, CommaSep G xs l ∧ s = l ++ r := by
  cases h with
  | nil _ => exact ⟨[], .nil, rfl⟩
  | cons h1 h2 =>
    obtain ⟨_, l1, hx1, rfl⟩ := hok h1
    obtain ⟨l', h3, rfl⟩ := commaSep_of_sepTail hok h2 hx1
    exact ⟨_, h3, by simp⟩

theorem sepTail_of_commaSep {α : Type} {item : P Token α} {G : α → List Tok → Prop}
    (hok : ∀ {x l r}, G x l → Ok item eoi (l ++ r) [] x r) (hr : ∀ sp r', r ≠ (.punct ',', sp) :: r')
    {xs l} (h : CommaSep G xs l) :
    ∀ {x xs'}, xs = x :: xs' → ∃ m, Ok item eoi (l ++ r) [] x m ∧ SepTail item (pPunct ',') eoi m xs' r := by
  induction h with
  | nil => intro x xs' h; cases h
  | one h1 =>
    intro x xs' h
    cases h
    exact ⟨r, hok h1, .noDelim (pPunct_fails.mpr hr)⟩
  | cons h1 _ ih =>
    intro x xs' h
    cases h
    obtain ⟨m, h2, h3⟩ := ih rfl
    rw [List.append_assoc]
    exact ⟨_, hok h1, .cons (pPunct_ok.mpr ⟨rfl, rfl, _, rfl⟩) h2 h3⟩

theorem sep_of_commaSep {α : Type} {item : P Token α} {G : α → List Tok → Prop}
    (hok : ∀ {x l r}, G x l → Ok item eoi (l ++ r) [] x r) (hr : ∀ sp r', r ≠ (.punct ',', sp) :: r')
    {xs l} (hr' : xs = [] → Fails item eoi r) (h : CommaSep G xs l) :
    Sep item (pPunct ',') eoi (l ++ r) xs r := by
  cases xs with
  | nil =>
    cases h
    exact .nil (hr' rfl)
  | cons x xs =>
    obtain ⟨m, h2, h3⟩ := sepTail_of_commaSep hok hr h rfl
    exact .cons h2 h3

end

end HyperIR
