import Verif.Proofs.ParserInstr

/- Soundness and totality of the parsers for blocks, statements and documents
(src/hir_parser.rs:107-153, 325-426). -/

namespace HyperIR
open Spec

section
variable {eoi : Span} {s r : List Tok} {es : List (LErr Token)}

/-! ### Instructions with line ends around them -/

theorem pPaddedInstruction_noPanic : NoPanic pPaddedInstruction := by
  have := pInstruction_noPanic
  unfold pPaddedInstruction
  no_panic

theorem pPaddedInstruction_sound {i} (h : Ok pPaddedInstruction eoi s es i r) :
    ∃ nls l nls', Newlines nls ∧ InstrG i l ∧ Newlines nls' ∧ nls' ≠ [] ∧ s = nls ++ l ++ nls' ++ r
      ∧ (∀ sp r', r ≠ (.newline, sp) :: r') := by
  unfold pPaddedInstruction at h
  obtain ⟨e1, e2, e3, m, m', y, z, h1, h2, h3, rfl⟩ := paddedBy_ok.mp h
  obtain ⟨_, nls, hn, rfl, _, _⟩ := newlines_ok.mp h1
  obtain ⟨l, nl, r', hl, rfl, hr⟩ := pInstruction_sound h2
  obtain ⟨_, nls', hn', h4, _, h5⟩ := newlines_ok.mp h3
  refine ⟨nls, l, nls', hn, hl, hn', ?_, by simp [h4], h5⟩
  rintro rfl
  rw [hr] at h4
  exact h5 _ _ h4.symm

theorem pPaddedInstruction_progress : Progress pPaddedInstruction := by
  intro eoi s es x r h
  obtain ⟨nls, l, nls', _, _, _, h4, rfl, _⟩ := pPaddedInstruction_sound h
  have : 0 < nls'.length := List.length_pos_iff.mpr h4
  simp; omega

theorem many_instr_sound {is} (h : Many pPaddedInstruction eoi s es is r) :
    ∃ l, InstrsG is l ∧ s = l ++ r := by
  induction h with
  | nil => exact ⟨[], .nil, rfl⟩
  | cons h1 _ ih =>
    obtain ⟨l', h2, rfl⟩ := ih
    obtain ⟨nls, l, nls', a1, a2, a3, a4, rfl, _⟩ := pPaddedInstruction_sound h1
    exact ⟨_, .cons a1 a2 a3 a4 h2, by simp⟩

/-! ### Blocks -/

theorem pBasicBlock_noPanic : NoPanic pBasicBlock := by
  have : NoPanic (repeated pPaddedInstruction) :=
    repeated_noPanic pPaddedInstruction_noPanic pPaddedInstruction_progress
  unfold pBasicBlock
  no_panic

theorem pBasicBlock_sound {b} (h : Ok pBasicBlock eoi s es b r) : ∃ l, BlockG b l ∧ s = l ++ r := by
  unfold pBasicBlock at h
  simp only [pmap_ok] at h
  obtain ⟨⟨⟨label, comma⟩, is⟩, h, rfl⟩ := h
  simp only [pthen_ok, thenIgnore_ok, pIdent_ok, punctSpan_ok, newlines1_ok,
    repeated_ok pPaddedInstruction_noPanic pPaddedInstruction_progress] at h
  obtain ⟨_, _, _, ⟨_, _, _, _, ⟨_, _, _, ⟨rfl, rfl⟩, ⟨rfl, c, rfl, rfl⟩, rfl⟩,
    ⟨rfl, nls, hn, hn', rfl, _, _⟩, rfl⟩, h3, rfl⟩ := h
  obtain ⟨l, hl, rfl⟩ := many_instr_sound h3
  exact ⟨_, ⟨label, comma, nls, l, hn, hn', hl, rfl, rfl, rfl, rfl⟩, by simp⟩

theorem blockG_head {b l} (h : BlockG b l) : ∃ x c l', l = identTok x :: (.punct ':', c) :: l' := by
  obtain ⟨label, c, nls, is, _, _, _, rfl, _⟩ := h
  exact ⟨label, c, nls ++ is, rfl⟩

theorem pBasicBlock_progress : Progress pBasicBlock := by
  intro eoi s es x r h
  obtain ⟨l, h1, rfl⟩ := pBasicBlock_sound h
  obtain ⟨x, c, l', rfl⟩ := blockG_head h1
  simp; omega

theorem many_block_sound {bs} (h : Many pBasicBlock eoi s es bs r) :
    ∃ l, BlocksG bs l ∧ s = l ++ r := by
  induction h with
  | nil => exact ⟨[], .nil, rfl⟩
  | cons h1 _ ih =>
    obtain ⟨l', h2, rfl⟩ := ih
    obtain ⟨l, h3, rfl⟩ := pBasicBlock_sound h1
    exact ⟨_, .cons h3 h2, by simp⟩

theorem mkInitialBlock_noPanic {is : List Instruction} (h : 1 ≤ is.length) : mkInitialBlock is ≠ .panic := by
  unfold mkInitialBlock
  cases is with
  | nil => simp at h
  | cons i is =>
    cases h2 : (i :: is).getLast? with
    | none => simp at h2
    | some j => simp

theorem pInitialBlock_noPanic : NoPanic pInitialBlock := by
  unfold pInitialBlock
  refine pmapOutcome_noPanic (repeatedAtLeast_noPanic pPaddedInstruction_noPanic pPaddedInstruction_progress) ?_
  intro eoi s es x r h
  exact mkInitialBlock_noPanic
    ((repeatedAtLeast_ok pPaddedInstruction_noPanic pPaddedInstruction_progress).mp h).2

theorem pInitialBlock_sound {b} (h : Ok pInitialBlock eoi s es b r) : ∃ l, FirstBlockG b l ∧ s = l ++ r := by
  unfold pInitialBlock at h
  obtain ⟨is, h1, h2⟩ := pmapOutcome_ok.mp h
  obtain ⟨h3, _⟩ := (repeatedAtLeast_ok pPaddedInstruction_noPanic pPaddedInstruction_progress).mp h1
  obtain ⟨l, hl, rfl⟩ := many_instr_sound h3
  unfold mkInitialBlock at h2
  split at h2
  · rename_i f la hf hla
    cases h2
    exact ⟨l, ⟨f, la, hl, hf, hla, rfl, rfl, rfl⟩, rfl⟩
  · cases h2

theorem pFuncBody_noPanic : NoPanic pFuncBody := by
  have h1 := pInitialBlock_noPanic
  have h2 : NoPanic (repeated pBasicBlock) := repeated_noPanic pBasicBlock_noPanic pBasicBlock_progress
  unfold pFuncBody
  no_panic

theorem pFuncBody_sound {b} (h : Ok pFuncBody eoi s es b r) : ∃ l, BodyG b l ∧ s = l ++ r := by
  unfold pFuncBody at h
  simp only [pmap_ok] at h
  obtain ⟨⟨⟨⟨o, init⟩, bbs⟩, c⟩, h, rfl⟩ := h
  simp only [pthen_ok, thenIgnore_ok, punctSpan_ok, newlines1_ok, orNot_ok,
    repeated_ok pBasicBlock_noPanic pBasicBlock_progress] at h
  obtain ⟨_, _, _, ⟨_, _, _, ⟨_, _, _, ⟨_, _, _, _, ⟨rfl, o', rfl, rfl⟩, ⟨rfl, nls, hn, hn', rfl, _, _⟩, rfl⟩, hi, rfl⟩, hb, rfl⟩,
    ⟨rfl, c', rfl, rfl⟩, rfl⟩ := h
  obtain ⟨l, hl, rfl⟩ := many_block_sound hb
  rcases hi with ⟨y, rfl, h2⟩ | ⟨rfl, rfl, rfl, _⟩
  · obtain ⟨l1, hl1, rfl⟩ := pInitialBlock_sound h2
    exact ⟨_, ⟨nls, l1 ++ l, hn, hn', .unlabelled hl1 hl, rfl⟩, by simp⟩
  · exact ⟨_, ⟨nls, l, hn, hn', .labelled hl, rfl⟩, by simp⟩

/-! ### Signatures -/

theorem pFuncArg_ok {x} : Ok pFuncArg eoi s es x r ↔ es = [] ∧ ∃ l, ArgG x l ∧ s = l ++ r := by
  unfold pFuncArg ArgG
  simp only [pmap_ok]
  constructor
  · rintro ⟨⟨t, n⟩, h, rfl⟩
    simp only [pthen_ok, pType_ok, pLocalName_ok] at h
    obtain ⟨_, _, _, ⟨rfl, rfl⟩, ⟨rfl, rfl⟩, rfl⟩ := h
    exact ⟨rfl, _, rfl, rfl⟩
  · rintro ⟨rfl, _, rfl, rfl⟩
    refine ⟨(x.type_, x.name), ?_, rfl⟩
    simp only [pthen_ok, pType_ok, pLocalName_ok]
    exact ⟨[], [], _, ⟨rfl, rfl⟩, ⟨rfl, rfl⟩, rfl⟩

theorem pFuncArg_noPanic : NoPanic pFuncArg := by unfold pFuncArg; no_panic
theorem pFuncArg_clean : Clean pFuncArg := by unfold pFuncArg; clean
theorem pFuncArgs_noPanic : NoPanic pFuncArgs := sepList_noPanic pFuncArg_noPanic pFuncArg_clean pFuncArg_ok
theorem pFuncArgs_clean : Clean pFuncArgs := sepList_clean pFuncArg_noPanic pFuncArg_clean pFuncArg_ok

theorem pFuncArg_fails (h : ∀ x sp r', s ≠ (.type x, sp) :: r') : Fails pFuncArg eoi s := by
  refine fails_of_not_ok pFuncArg_noPanic ?_
  intro es x r h'
  obtain ⟨_, _, rfl, rfl⟩ := pFuncArg_ok.mp h'
  exact h _ _ _ rfl

theorem modifiers_ok {xs} : Ok (repeated pFuncModifier) eoi s es xs r ↔
    es = [] ∧ s = xs.map modTok ++ r ∧ ∀ x sp r', r ≠ (.funcModifier x, sp) :: r' := by
  rw [repeated_ok pFuncModifier_noPanic pFuncModifier_progress]
  constructor
  · intro h
    induction h with
    | nil h => exact ⟨rfl, rfl, pFuncModifier_fails.mp h⟩
    | cons h1 _ ih =>
      obtain ⟨rfl, rfl⟩ := pFuncModifier_ok.mp h1
      obtain ⟨rfl, rfl, h3⟩ := ih
      exact ⟨rfl, rfl, h3⟩
  · rintro ⟨rfl, rfl, h⟩
    induction xs with
    | nil => exact .nil (pFuncModifier_fails.mpr h)
    | cons x xs ih => exact .cons (es := []) (pFuncModifier_ok.mpr ⟨rfl, rfl⟩) ih

theorem modifiers_noPanic : NoPanic (repeated pFuncModifier) :=
  repeated_noPanic pFuncModifier_noPanic pFuncModifier_progress

theorem modifiers_clean : Clean (repeated pFuncModifier) := by
  constructor
  · intro eoi s es x r h
    exact (modifiers_ok.mp h).1
  · intro eoi s es e h
    exact absurd ⟨_, _, h⟩ (repeated_fails pFuncModifier_noPanic pFuncModifier_progress)

theorem pFuncSignature_noPanic : NoPanic pFuncSignature := by
  have h1 := modifiers_noPanic
  have h2 := pFuncArgs_noPanic
  unfold pFuncSignature
  no_panic

theorem pFuncSignature_clean : Clean pFuncSignature := by
  have h1 := modifiers_clean
  have h2 := pFuncArgs_clean
  unfold pFuncSignature
  clean

theorem pFuncSignature_ok {x} : Ok pFuncSignature eoi s es x r ↔ es = [] ∧ ∃ l, SigG x l ∧ s = l ++ r := by
  unfold pFuncSignature
  simp only [pmap_ok]
  constructor
  · rintro ⟨⟨⟨⟨ms, t⟩, n⟩, args⟩, h, rfl⟩
    simp only [pthen_ok, modifiers_ok, pType_ok, pGlobalName_ok, delimitedBy_ok, pPunct_ok] at h
    obtain ⟨_, _, _, ⟨_, _, _, ⟨_, _, _, ⟨rfl, rfl, hm⟩, ⟨rfl, rfl⟩, rfl⟩, ⟨rfl, rfl⟩, rfl⟩,
      ⟨_, _, _, _, _, _, _, ⟨rfl, rfl, o, rfl⟩, ha, ⟨rfl, rfl, c, rfl⟩, rfl⟩, rfl⟩ := h
    obtain ⟨rfl, l, hl, rfl⟩ := sepList_sound pFuncArg_noPanic pFuncArg_clean pFuncArg_ok ha
    exact ⟨rfl, _, ⟨o, l, c, hl, rfl⟩, by simp⟩
  · rintro ⟨rfl, _, ⟨o, l, c, hl, rfl⟩, rfl⟩
    refine ⟨(((x.modifiers, x.retType), x.name), x.args), ?_, rfl⟩
    simp only [pthen_ok, modifiers_ok, pType_ok, pGlobalName_ok, delimitedBy_ok, pPunct_ok]
    have ha : Ok pFuncArgs eoi (l ++ (.punct ')', c) :: r) [] x.args ((.punct ')', c) :: r) :=
      (sepList_ok pFuncArg_noPanic pFuncArg_clean pFuncArg_ok (by simp) (pFuncArg_fails (by simp))).mpr
        ⟨rfl, l, hl, rfl⟩
    refine ⟨[], [], _, ⟨[], [], _, ⟨[], [], _, ⟨rfl, ?_, ?_⟩, ⟨rfl, rfl⟩, rfl⟩, ⟨rfl, rfl⟩, rfl⟩,
      ⟨[], [], [], _, _, _, _, ⟨rfl, rfl, o, rfl⟩, ha, ⟨rfl, rfl, c, rfl⟩, rfl⟩, rfl⟩
    · simp
    · simp [typeTok]

/-! ### Statements -/

theorem pGlobalVar_ok {x} : Ok pGlobalVar eoi s es x r ↔ es = [] ∧ ∃ n e d eol,
    OneLine d ∧ x = .globalVar n d ∧ s = (globalTok n :: (.punct '=', e) :: d) ++ eol ++ r ∧
    ((∃ sp, eol = [(.newline, sp)]) ∨ (eol = [] ∧ r = [])) := by
  unfold pGlobalVar
  simp only [pmap_ok]
  constructor
  · rintro ⟨⟨n, d⟩, h, rfl⟩
    simp only [thenIgnore_ok, pthen_ok, pGlobalName_ok, pPunct_ok, pTokenSoup_ok, pEol_ok] at h
    obtain ⟨_, _, _, _, ⟨_, _, _, ⟨_, _, _, _, ⟨rfl, rfl⟩, ⟨rfl, rfl, e, rfl⟩, rfl⟩, ⟨rfl, hd, rfl, _⟩, rfl⟩,
      ⟨rfl, rfl, h1⟩, rfl⟩ := h
    rcases h1 with ⟨sp, rfl⟩ | ⟨rfl, rfl⟩
    · exact ⟨rfl, n, e, d, [(.newline, sp)], hd, rfl, by simp, .inl ⟨sp, rfl⟩⟩
    · exact ⟨rfl, n, e, d, [], hd, rfl, by simp, .inr ⟨rfl, rfl⟩⟩
  · rintro ⟨rfl, n, e, d, eol, hd, rfl, rfl, h⟩
    refine ⟨(n, d), ?_, rfl⟩
    simp only [thenIgnore_ok, pthen_ok, pGlobalName_ok, pPunct_ok, pTokenSoup_ok, pEol_ok]
    refine ⟨[], [], eol ++ r, .newline, ⟨[], [], _, ⟨[], [], _, _, ⟨rfl, rfl⟩, ⟨rfl, rfl, e, rfl⟩, rfl⟩,
      ⟨rfl, hd, by simp, ?_⟩, rfl⟩, ⟨rfl, rfl, ?_⟩, rfl⟩
    · intro t r' ht
      rcases h with ⟨sp, rfl⟩ | ⟨rfl, rfl⟩
      · injection ht with ht _; subst ht; rfl
      · cases ht
    · rcases h with ⟨sp, rfl⟩ | ⟨rfl, rfl⟩
      · exact .inl ⟨sp, rfl⟩
      · exact .inr ⟨rfl, rfl⟩

theorem pDbgAnnotation_ok {x} : Ok pDbgAnnotation eoi s es x r ↔ es = [] ∧ ∃ n e d eol,
    OneLine d ∧ x = .dbgAnnotation n d ∧ s = (dbgTok n :: (.punct '=', e) :: d) ++ eol ++ r ∧
    ((∃ sp, eol = [(.newline, sp)]) ∨ (eol = [] ∧ r = [])) := by
  unfold pDbgAnnotation
  simp only [pmap_ok]
  constructor
  · rintro ⟨⟨n, d⟩, h, rfl⟩
    simp only [thenIgnore_ok, pthen_ok, pDbgRef_ok, pPunct_ok, pTokenSoup_ok, pEol_ok] at h
    obtain ⟨_, _, _, _, ⟨_, _, _, ⟨_, _, _, _, ⟨rfl, rfl⟩, ⟨rfl, rfl, e, rfl⟩, rfl⟩, ⟨rfl, hd, rfl, _⟩, rfl⟩,
      ⟨rfl, rfl, h1⟩, rfl⟩ := h
    rcases h1 with ⟨sp, rfl⟩ | ⟨rfl, rfl⟩
    · exact ⟨rfl, n, e, d, [(.newline, sp)], hd, rfl, by simp, .inl ⟨sp, rfl⟩⟩
    · exact ⟨rfl, n, e, d, [], hd, rfl, by simp, .inr ⟨rfl, rfl⟩⟩
  · rintro ⟨rfl, n, e, d, eol, hd, rfl, rfl, h⟩
    refine ⟨(n, d), ?_, rfl⟩
    simp only [thenIgnore_ok, pthen_ok, pDbgRef_ok, pPunct_ok, pTokenSoup_ok, pEol_ok]
    refine ⟨[], [], eol ++ r, .newline, ⟨[], [], _, ⟨[], [], _, _, ⟨rfl, rfl⟩, ⟨rfl, rfl, e, rfl⟩, rfl⟩,
      ⟨rfl, hd, by simp, ?_⟩, rfl⟩, ⟨rfl, rfl, ?_⟩, rfl⟩
    · intro t r' ht
      rcases h with ⟨sp, rfl⟩ | ⟨rfl, rfl⟩
      · injection ht with ht _; subst ht; rfl
      · cases ht
    · rcases h with ⟨sp, rfl⟩ | ⟨rfl, rfl⟩
      · exact .inl ⟨sp, rfl⟩
      · exact .inr ⟨rfl, rfl⟩

theorem pFuncAddr_ok {x} : Ok pFuncAddr eoi s es x r ↔ es = [] ∧ ∃ e, s = (.punct '=', e) :: hexTok x :: r := by
  unfold pFuncAddr
  simp only [ignoreThen_ok, pPunct_ok, pHexnum_ok]
  constructor
  · rintro ⟨_, _, _, _, ⟨rfl, rfl, e, rfl⟩, ⟨rfl, rfl⟩, rfl⟩
    exact ⟨rfl, e, rfl⟩
  · rintro ⟨rfl, e, rfl⟩
    exact ⟨[], [], _, _, ⟨rfl, rfl, e, rfl⟩, ⟨rfl, rfl⟩, rfl⟩

theorem pFuncAddr_noPanic : NoPanic pFuncAddr := by unfold pFuncAddr; no_panic

theorem pFuncDecl_sound {x} (h : Ok pFuncDecl eoi s es x r) : es = [] ∧ ∃ l eol, StmtG x l ∧
    s = l ++ eol ++ r ∧ ¬ Spec.Statement.openEnded x ∧
    ((∃ sp, eol = [(.newline, sp)]) ∨ (eol = [] ∧ r = [])) := by
  unfold pFuncDecl at h
  simp only [pmap_ok] at h
  obtain ⟨⟨⟨sg, a⟩, d⟩, h, rfl⟩ := h
  simp only [thenIgnore_ok, pthen_ok, ignoreThen_ok, just_ok, pFuncSignature_ok, orNotDbg_ok, pEol_ok] at h
  obtain ⟨_, _, _, _, ⟨_, _, _, ⟨_, _, _, ⟨_, _, _, _, ⟨rfl, rfl, k, rfl⟩, ⟨rfl, l, hl, rfl⟩, rfl⟩, ha, rfl⟩,
    ⟨rfl, rfl, _⟩, rfl⟩, ⟨rfl, rfl, h1⟩, rfl⟩ := h
  rcases orNot_ok.mp ha with ⟨y, rfl, h3⟩ | ⟨rfl, rfl, rfl, _⟩
  · obtain ⟨rfl, e, rfl⟩ := pFuncAddr_ok.mp h3
    rcases h1 with ⟨sp, rfl⟩ | ⟨rfl, rfl⟩
    · exact ⟨rfl, _, [(.newline, sp)], .funcDeclAddr (k := k) (e := e) hl, by simp, by simp [Spec.Statement.openEnded], .inl ⟨sp, rfl⟩⟩
    · exact ⟨rfl, _, [], .funcDeclAddr (k := k) (e := e) hl, by simp, by simp [Spec.Statement.openEnded], .inr ⟨rfl, rfl⟩⟩
  · rcases h1 with ⟨sp, rfl⟩ | ⟨rfl, rfl⟩
    · exact ⟨rfl, _, [(.newline, sp)], .funcDecl (k := k) hl, by simp, by simp [Spec.Statement.openEnded], .inl ⟨sp, rfl⟩⟩
    · exact ⟨rfl, _, [], .funcDecl (k := k) hl, by simp, by simp [Spec.Statement.openEnded], .inr ⟨rfl, rfl⟩⟩

theorem pFuncDef_sound {x} (h : Ok pFuncDef eoi s es x r) : ∃ l eol, StmtG x l ∧
    s = l ++ eol ++ r ∧ ¬ Spec.Statement.openEnded x ∧
    ((∃ sp, eol = [(.newline, sp)]) ∨ (eol = [] ∧ r = [])) := by
  unfold pFuncDef at h
  simp only [pmap_ok] at h
  obtain ⟨⟨⟨k, sg⟩, b⟩, h, rfl⟩ := h
  simp only [thenIgnore_ok, pthen_ok, justSpan_ok, pFuncSignature_ok, pEol_ok] at h
  obtain ⟨_, _, _, _, ⟨_, _, _, ⟨_, _, _, ⟨rfl, k', rfl, rfl⟩, ⟨rfl, l, hl, rfl⟩, rfl⟩, hb, rfl⟩,
    ⟨rfl, rfl, h1⟩, rfl⟩ := h
  obtain ⟨bl, hbl, rfl⟩ := pFuncBody_sound hb
  rcases h1 with ⟨sp, rfl⟩ | ⟨rfl, rfl⟩
  · exact ⟨_, [(.newline, sp)], .funcDef hl hbl, by simp, by simp [Spec.Statement.openEnded], .inl ⟨sp, rfl⟩⟩
  · exact ⟨_, [], .funcDef hl hbl, by simp, by simp [Spec.Statement.openEnded], .inr ⟨rfl, rfl⟩⟩

theorem depItem_ok {x} : Ok pGlobalName eoi s es x r ↔ es = [] ∧ ∃ l, l = [globalTok x] ∧ s = l ++ r := by
  rw [pGlobalName_ok]
  constructor
  · rintro ⟨rfl, rfl⟩; exact ⟨rfl, _, rfl, rfl⟩
  · rintro ⟨rfl, _, rfl, rfl⟩; exact ⟨rfl, rfl⟩

theorem pFuncDependencies_sound {x} (h : Ok pFuncDependencies eoi s es x r) : es = [] ∧ ∃ l, StmtG x l ∧
    s = l ++ r ∧ Spec.Statement.openEnded x := by
  unfold pFuncDependencies at h
  simp only [pmap_ok] at h
  obtain ⟨⟨d, ds⟩, h, rfl⟩ := h
  simp only [thenIgnore_ok, pthen_ok, pGlobalName_ok, pKeyword_ok] at h
  obtain ⟨_, _, _, ⟨_, _, _, _, ⟨_, _, _, _, ⟨rfl, rfl⟩, ⟨rfl, rfl, k, rfl⟩, rfl⟩, ⟨rfl, rfl, k', rfl⟩, rfl⟩, hd, rfl⟩ := h
  obtain ⟨rfl, l, hl, rfl⟩ := sepList_sound (G := fun x l => l = [globalTok x])
    pGlobalName_noPanic pGlobalName_clean depItem_ok hd
  exact ⟨rfl, _, .funcDependencies (k := k) (k' := k') hl, by simp, trivial⟩

theorem pStatement_noPanic : NoPanic pStatement := by
  have h1 := pFuncSignature_noPanic
  have h2 := pFuncAddr_noPanic
  have h3 := pFuncBody_noPanic
  have h4 := sepList_noPanic (G := fun x l => l = [globalTok x]) pGlobalName_noPanic pGlobalName_clean depItem_ok
  unfold pStatement pGlobalVar pFuncDecl pFuncDef pFuncDependencies pDbgAnnotation
  no_panic

theorem pStatement_sound {x} (h : Ok pStatement eoi s es x r) : ∃ l eol, StmtG x l ∧ s = l ++ eol ++ r ∧
    Newlines eol ∧ (eol = [] → r = [] ∨ Spec.Statement.openEnded x) := by
  unfold pStatement at h
  have hfin : ∀ (eol : List Tok), ((∃ sp, eol = [(.newline, sp)]) ∨ (eol = [] ∧ r = [])) →
      Newlines eol ∧ (eol = [] → r = [] ∨ Spec.Statement.openEnded x) := by
    rintro eol (⟨sp, rfl⟩ | ⟨rfl, rfl⟩)
    · exact ⟨(by intro t ht; simp at ht; rw [ht]), (by simp)⟩
    · exact ⟨(by intro t ht; cases ht), fun _ => .inl rfl⟩
  rcases por_ok_inv h with h | h
  · rcases por_ok_inv h with h | h
    · rcases por_ok_inv h with h | h
      · rcases por_ok_inv h with h | h
        · obtain ⟨_, n, e, d, eol, hd, rfl, rfl, h1⟩ := pGlobalVar_ok.mp h
          exact ⟨_, eol, .globalVar hd, rfl, hfin eol h1⟩
        · obtain ⟨_, l, eol, h1, rfl, _, h2⟩ := pFuncDecl_sound h
          exact ⟨l, eol, h1, rfl, hfin eol h2⟩
      · obtain ⟨l, eol, h1, rfl, _, h2⟩ := pFuncDef_sound h
        exact ⟨l, eol, h1, rfl, hfin eol h2⟩
    · obtain ⟨_, l, h1, rfl, h2⟩ := pFuncDependencies_sound h
      exact ⟨l, [], h1, by simp, (by intro t ht; cases ht), fun _ => .inr h2⟩
  · obtain ⟨_, n, e, d, eol, hd, rfl, rfl, h1⟩ := pDbgAnnotation_ok.mp h
    exact ⟨_, eol, .dbgAnnotation hd, rfl, hfin eol h1⟩

theorem stmtG_ne_nil {x l} (h : StmtG x l) : l ≠ [] := by cases h <;> simp

/-! ### Documents -/

theorem newlines_append {a b : List Tok} (ha : Newlines a) (hb : Newlines b) : Newlines (a ++ b) := by
  intro t ht
  rcases List.mem_append.mp ht with h | h
  · exact ha t h
  · exact hb t h

theorem pPaddedStatement_noPanic : NoPanic pPaddedStatement := by
  have := pStatement_noPanic
  unfold pPaddedStatement
  no_panic

theorem pPaddedStatement_sound {x} (h : Ok pPaddedStatement eoi s es x r) : ∃ nls l nls',
    Newlines nls ∧ StmtG x l ∧ Newlines nls' ∧ s = nls ++ l ++ nls' ++ r ∧
    (nls' = [] → r = [] ∨ Spec.Statement.openEnded x) := by
  unfold pPaddedStatement at h
  obtain ⟨e1, e2, e3, m, m', y, z, h1, h2, h3, rfl⟩ := paddedBy_ok.mp h
  obtain ⟨_, nls, hn, rfl, _, _⟩ := newlines_ok.mp h1
  obtain ⟨l, eol, hl, rfl, he, he'⟩ := pStatement_sound h2
  obtain ⟨_, nls', hn', rfl, _, h5⟩ := newlines_ok.mp h3
  refine ⟨nls, l, eol ++ nls', hn, hl, newlines_append he hn', by simp, ?_⟩
  intro h
  obtain ⟨rfl, rfl⟩ := List.append_eq_nil_iff.mp h
  simpa using he' rfl

theorem pPaddedStatement_progress : Progress pPaddedStatement := by
  intro eoi s es x r h
  obtain ⟨nls, l, nls', _, h2, _, rfl, _⟩ := pPaddedStatement_sound h
  have : 0 < l.length := List.length_pos_iff.mpr (stmtG_ne_nil h2)
  simp; omega

def docItem : P Token Statement := recoverSkip pPaddedStatement

theorem docItem_noPanic : NoPanic docItem := recoverSkip_noPanic' pPaddedStatement_noPanic

theorem docItem_progress : Progress docItem := by
  intro eoi s es x r h
  rcases recoverSkip_ok.mp h with h | ⟨es0, e, s', es1, _, h2, h3, _⟩
  · exact pPaddedStatement_progress h
  · obtain ⟨g, _, rfl⟩ := h2.suffix
    have := pPaddedStatement_progress h3
    simp; omega

theorem docItem_sound {x} (h : Ok docItem eoi s es x r) : ∃ g nls l nls',
    Newlines nls ∧ StmtG x l ∧ Newlines nls' ∧ s = g ++ nls ++ l ++ nls' ++ r ∧
    (nls' = [] → r = [] ∨ Spec.Statement.openEnded x) ∧ (es = [] → g = []) := by
  rcases recoverSkip_ok.mp h with h | ⟨es0, e, s', es1, _, h2, h3, rfl⟩
  · obtain ⟨nls, l, nls', a1, a2, a3, rfl, a4⟩ := pPaddedStatement_sound h
    exact ⟨[], nls, l, nls', a1, a2, a3, by simp, a4, fun _ => rfl⟩
  · obtain ⟨g, _, rfl⟩ := h2.suffix
    obtain ⟨nls, l, nls', a1, a2, a3, rfl, a4⟩ := pPaddedStatement_sound h3
    exact ⟨g, nls, l, nls', a1, a2, a3, by simp, a4, by simp⟩

theorem many_docItem_sound {ss} (h : Many docItem eoi s es ss r) :
    ∃ l, DocSkipG ss l ∧ s = l ++ r := by
  induction h with
  | nil => exact ⟨[], .nil, rfl⟩
  | cons h1 _ ih =>
    obtain ⟨l', h2, rfl⟩ := ih
    obtain ⟨g, nls, l, nls', a1, a2, a3, rfl, _⟩ := docItem_sound h1
    exact ⟨_, .cons (g := g) a1 a2 a3 h2, by simp⟩

theorem many_docItem_clean {ss} (h : Many docItem eoi s es ss []) (he : es = []) : DocG ss s := by
  generalize hr : ([] : List Tok) = r at h
  induction h with
  | nil => subst hr; exact .nil
  | cons h1 _ ih =>
    obtain ⟨he1, he2⟩ := List.append_eq_nil_iff.mp he
    obtain ⟨g, nls, l, nls', a1, a2, a3, rfl, a4, a5⟩ := docItem_sound h1
    cases a5 he1
    have := DocG.cons a1 a2 a3 a4 (ih he2 hr)
    simpa using this

theorem parser_noPanic : NoPanic parser := by
  have : NoPanic (repeated docItem) := repeated_noPanic docItem_noPanic docItem_progress
  unfold docItem at this
  unfold parser
  exact thenIgnore_noPanic this pend_noPanic

theorem parser_ok {ss} : Ok parser eoi s es ss r ↔ r = [] ∧ Many docItem eoi s es ss [] := by
  have e : parser = thenIgnore (repeated docItem) pend := rfl
  rw [e, thenIgnore_ok]
  simp only [repeated_ok docItem_noPanic docItem_progress, pend_ok]
  constructor
  · rintro ⟨_, _, _, y, h, ⟨rfl, rfl, rfl⟩, rfl⟩
    exact ⟨rfl, by simpa using h⟩
  · rintro ⟨rfl, h⟩
    exact ⟨es, [], [], (), h, ⟨rfl, rfl, rfl⟩, by simp⟩

theorem parser_fails : Fails parser eoi s ↔ ∃ es ss r, Many docItem eoi s es ss r ∧ r ≠ [] := by
  have e : parser = thenIgnore (repeated docItem) pend := rfl
  rw [e, thenIgnore_fails]
  simp only [repeated_ok docItem_noPanic docItem_progress, repeated_fails docItem_noPanic docItem_progress,
    pend_fails, false_or]

end

/-! ### `parse_from_str` -/

/-- The tokens the parser sees. -/
theorem parseTokens_total (n : Nat) (toks : List Tok) : ∃ stmts errs, parseTokens n toks = .ok (stmts, errs) := by
  unfold parseTokens parseRecovery
  have := parser_noPanic { start := n, stop := n + 1 } (toks.filter fun t => decide (t.1 ≠ Token.comment))
  split
  · exact absurd (by assumption) this
  · exact ⟨_, _, rfl⟩
  · exact ⟨_, _, rfl⟩

theorem parseTokens_some {n : Nat} {toks : List Tok} {ss errs} (h : parseTokens n toks = .ok (some ss, errs)) :
    Many docItem { start := n, stop := n + 1 } (toks.filter fun t => decide (t.1 ≠ Token.comment)) errs ss [] := by
  unfold parseTokens parseRecovery at h
  split at h
  · cases h
  · rename_i es x alt r hp
    cases h
    exact (parser_ok.mp ⟨alt, hp⟩).2
  · cases h

theorem parseTokens_of_many {n : Nat} {toks : List Tok} {ss errs}
    (h : Many docItem { start := n, stop := n + 1 } (toks.filter fun t => decide (t.1 ≠ Token.comment)) errs ss []) :
    parseTokens n toks = .ok (some ss, errs) := by
  obtain ⟨alt, h⟩ := parser_ok.mpr ⟨rfl, h⟩
  unfold parseTokens parseRecovery
  rw [h]

theorem parseTokens_none {n : Nat} {toks : List Tok} {errs} (h : parseTokens n toks = .ok (none, errs)) :
    errs ≠ [] ∧ ∃ es ss r, Many docItem { start := n, stop := n + 1 }
      (toks.filter fun t => decide (t.1 ≠ Token.comment)) es ss r ∧ r ≠ [] := by
  unfold parseTokens parseRecovery at h
  split at h
  · cases h
  · cases h
  · rename_i es e hp
    cases h
    exact ⟨by simp, parser_fails.mp ⟨_, _, hp⟩⟩

end HyperIR
