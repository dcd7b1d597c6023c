import Verif.Proofs.Squeeze

/- The parsers of the crate on texts with and without blank lines (src/hir_parser.rs:74-426). -/

namespace HyperIR
open Spec

section
variable {α : Type} {Pre Post : LS → TL → Prop}

theorem Good.weaken {p : P Token α} (h : Good Vis p Opn) : Good Vis p Tight := h.mono (fun _ _ h => h) (fun _ _ h => h.tight)
theorem Good.tt {p : P Token α} (h : Good Vis p Tight) : Good Tight p Tight := h.mono (fun _ _ h => h.vis) (fun _ _ h => h)
theorem Good.tv {p : P Token α} (h : Good Vis p Post) : Good Tight p Post := h.mono (fun _ _ h => h.vis) (fun _ _ h => h)
theorem Good.vv {p : P Token α} (h : Good Vis p Tight) : Good Vis p Vis := h.mono (fun _ _ h => h) (fun _ _ h => h.vis)
theorem Good.av {p : P Token α} (h : Good Any p Vis) : Good Vis p Vis := h.mono (fun _ _ _ => trivial) (fun _ _ h => h)
theorem Good.any {p : P Token α} (h : Good Pre p Post) : Good Pre p Any := h.mono (fun _ _ h => h) (fun _ _ _ => trivial)

theorem after_tight {σ : LS} {t : Token} {r : TL} (h : t ≠ .newline) : Tight (σ.after t) r := fun hc => h (after_ended hc)

theorem satisfy_tight {f : Token → Bool} {ex} (h : f .newline = false) : Good Vis (satisfy f ex) Tight :=
  satisfy_good (fun _ _ h => h) fun _ t _ _ _ ht => after_tight fun hc => by rw [hc, h] at ht; cases ht

theorem satisfy_any {f : Token → Bool} {ex} : Good Vis (satisfy f ex) Any := satisfy_good (fun _ _ h => h) fun _ _ _ _ _ _ => trivial

theorem after_open {t : Token} : LineState.after .open t ≠ .ended := by
  unfold LineState.after
  split
  · simp
  · split <;> simp

theorem satisfy_open {f : Token → Bool} {ex} : Good Opn (satisfy f ex) Tight := by
  refine satisfy_good (fun _ _ h => h.tight.vis) fun σ t _ _ h _ => ?_
  obtain rfl : σ = .open := h
  exact after_open

theorem pfilterMap_tight {f : Token → Span → Option α} {m} (h : ∀ sp, f .newline sp = none) : Good Vis (pfilterMap f m) Tight :=
  pfilterMap_good (fun _ _ h => h) fun _ t sp _ _ _ ht => after_tight fun hc => by rw [hc, h] at ht; cases ht

theorem pFuncModifier_good : Good Vis pFuncModifier Tight := pfilterMap_tight fun _ => rfl
theorem pGlobalName_good : Good Vis pGlobalName Tight := pfilterMap_tight fun _ => rfl
theorem pLocalName_good : Good Vis pLocalName Tight := pfilterMap_tight fun _ => rfl
theorem pIdent_good : Good Vis pIdent Tight := pfilterMap_tight fun _ => rfl
theorem pDbgRef_good : Good Vis pDbgRef Tight := pfilterMap_tight fun _ => rfl
theorem pHexnum_good : Good Vis pHexnum Tight := pfilterMap_tight fun _ => rfl
theorem pType_open : Good Vis pType Opn := by
  refine pfilterMap_good (fun _ _ h => h) fun σ t sp r x _ ht => ?_
  cases t <;> first | rfl | cases ht
theorem pType_good : Good Vis pType Tight := pType_open.weaken

theorem just_tight {t : Token} (h : t ≠ .newline) : Good Vis (just t) Tight := satisfy_tight (decide_eq_false (fun hc => h hc.symm))
theorem just_open {t : Token} (h : leavesOpen t = true) : Good Vis (just t) Opn := by
  refine satisfy_good (fun _ _ h => h) fun σ t' sp r _ ht => ?_
  obtain rfl : t' = t := of_decide_eq_true ht
  have : t' ≠ .newline := by rintro rfl; cases h
  unfold Opn LineState.after
  rw [if_neg this, if_pos h]

theorem pPunct_good {c : Char} : Good Vis (pPunct c) Tight := just_tight (by simp)
theorem pKeyword_good {s : Str} : Good Vis (pKeyword s) Tight := just_tight (by simp)
theorem pNewline_good : Good Vis pNewline Any := satisfy_any
theorem pEol_good : Good Vis pEol Any := por_good satisfy_any (pmap_good pend_good)

theorem noneOf_tight {ts : List Token} (h : Token.newline ∈ ts) : Good Vis (noneOf ts) Tight := satisfy_tight (by simp [h])

theorem pTokenSoup_good : Good Tight pTokenSoup Tight :=
  repeated_good (pmapSpan_good (noneOf_tight (by simp))).tt soupItem_progress

theorem pGlobalVar_good : Good Vis pGlobalVar Any :=
  pmap_good (thenIgnore_good (pthen_good (thenIgnore_good pGlobalName_good pPunct_good.tt) pTokenSoup_good) pEol_good.tv)

theorem pFuncArg_good : Good Vis pFuncArg Tight := pmap_good (pthen_good pType_good pLocalName_good.tt)

theorem pFuncArg_suffix : Suffix pFuncArg := by
  intro eoi s es x r h
  obtain ⟨_, l, _, h2⟩ := pFuncArg_ok.mp h
  exact ⟨l, h2⟩
theorem pGlobalName_suffix : Suffix pGlobalName := by
  intro eoi s es x r h
  obtain ⟨_, h2⟩ := pGlobalName_ok.mp h
  exact ⟨[_], h2⟩
theorem pSwitchCase_suffix : Suffix pSwitchCase := by
  intro eoi s es x r h
  obtain ⟨_, l, _, h2⟩ := pSwitchCase_ok.mp h
  exact ⟨l, h2⟩
theorem pPhiEdge_suffix : Suffix pPhiEdge := by
  intro eoi s es x r h
  obtain ⟨_, l, _, h2⟩ := pPhiEdge_ok.mp h
  exact ⟨l, h2⟩

theorem pFuncSignature_good : Good Vis pFuncSignature Tight :=
  pmap_good (pthen_good (pthen_good (pthen_good (repeated_good pFuncModifier_good.vv pFuncModifier_progress) pType_good) pGlobalName_good.tt)
    (thenIgnore_good (ignoreThen_good pPunct_good.tt (separatedBy_good pFuncArg_good.tt pPunct_good.tt pPunct_progress pFuncArg_suffix)) pPunct_good.tt))

theorem pFuncAddr_good : Good Tight pFuncAddr Tight := ignoreThen_good pPunct_good.tt pHexnum_good.tt
theorem orDbg_good : Good Tight (orNot pDbgRef) Tight := orNot_good pDbgRef_good.tt fun _ _ h => h

theorem pFuncDecl_good : Good Vis pFuncDecl Any :=
  pmap_good (thenIgnore_good (pthen_good (pthen_good (ignoreThen_good (just_tight (by simp)) pFuncSignature_good.tt)
    (orNot_good pFuncAddr_good fun _ _ h => h)) orDbg_good) pEol_good.tv)

theorem pNewlineAhead_good : Good Tight pNewlineAhead Tight := rewind_good pNewline_good.tv
theorem pKeywordSpan_good {s : Str} : Good Vis (pKeywordSpan s) Tight := pmapSpan_good pKeyword_good

theorem pBr_good : Good Vis pBr Tight :=
  pmapSpan_good (thenIgnore_good (pthen_good (pthen_good pKeywordSpan_good pIdent_good.tt) orDbg_good) pNewlineAhead_good)

theorem pCondBr_good : Good Vis pCondBr Tight :=
  pmapSpan_good (thenIgnore_good (pthen_good (pthen_good (thenIgnore_good (pthen_good (thenIgnore_good (thenIgnore_good (thenIgnore_good
    pKeywordSpan_good (just_open rfl).tv) satisfy_open) pPunct_good.tt) pIdent_good.tt) pPunct_good.tt) pIdent_good.tt) orDbg_good) pNewlineAhead_good)

theorem pSkipOperands_good {kw : Str} : Good Tight (pSkipOperands kw) Tight :=
  repeated_good (p := skipItem kw) (por_good (noneOf_tight (by simp)) (thenIgnore_good (just_open rfl) satisfy_open)).tt skipItem_progress

theorem pOverflowBr_good : Good Vis pOverflowBr Tight :=
  pmapSpan_good (thenIgnore_good (pthen_good (pthen_good (thenIgnore_good (thenIgnore_good (thenIgnore_good (pthen_good (thenIgnore_good (thenIgnore_good
    (thenIgnore_good (thenIgnore_good (validate_good pIdent_good) pSkipOperands_good) pPunct_good.tt) pKeyword_good.tt) pPunct_good.tt) pIdent_good.tt)
    pPunct_good.tt) pKeyword_good.tt) pPunct_good.tt) pIdent_good.tt) orDbg_good) pNewlineAhead_good)

theorem pSwitchCase_good : Good Vis pSwitchCase Tight :=
  ignoreThen_good (pthen_good (pthen_good (pthen_good pType_open satisfy_open) pKeyword_good.tt) pPunct_good.tt) pIdent_good.tt

theorem pSwitch_good : Good Vis pSwitch Tight :=
  pmapSpan_good (thenIgnore_good (pthen_good (pthen_good (thenIgnore_good (pthen_good (thenIgnore_good (thenIgnore_good (thenIgnore_good (thenIgnore_good
    pKeywordSpan_good pSkipOperands_good) pPunct_good.tt) pKeyword_good.tt) pPunct_good.tt) pIdent_good.tt) pPunct_good.tt)
    (separatedBy_good pSwitchCase_good.tt pPunct_good.tt pPunct_progress pSwitchCase_suffix)) orDbg_good) pNewlineAhead_good)

theorem pPhiEdge_good : Good Vis pPhiEdge Tight :=
  thenIgnore_good (ignoreThen_good pPunct_good (thenIgnore_good (thenIgnore_good pIdent_good.tt pPunct_good.tt)
    (repeated_good (noneOf_tight (by simp)).tt noneOf_progress))) pPunct_good.tt

theorem pPhi_good : Good Vis pPhi Tight :=
  pmapSpan_good (thenIgnore_good (pthen_good (pthen_good pKeywordSpan_good
    (separatedBy_good pPhiEdge_good.tt pPunct_good.tt pPunct_progress pPhiEdge_suffix)) orDbg_good) pNewlineAhead_good)

theorem anyItem_good : Good Vis anyItem Tight := by
  refine pnot_good (por_good (pmap_good pNewline_good) (pmap_good pDbgRef_good.any)) fun eoi σ t sp r _ hf => after_tight ?_
  rintro rfl
  obtain ⟨es, e, h⟩ := hf
  simp [por, pmap, pNewline, just, satisfy] at h

theorem pAnyInstruction_good : Good Vis pAnyInstruction Tight :=
  pmapSpan_good (thenIgnore_good (pthen_good (thenIgnore_good (thenIgnore_good pIdent_good (rewind_good satisfy_any.tv))
    (repeated_good (p := anyItem) anyItem_good.tt anyItem_progress)) orDbg_good) pNewlineAhead_good)

theorem pAssignment_good : Good Vis pAssignment Tight := thenIgnore_good (ignoreThen_good pType_good pLocalName_good.tt) pPunct_good.tt

theorem pInstructionKind_good : Good Vis pInstructionKind Tight :=
  por_good (por_good (por_good (por_good (por_good pBr_good pCondBr_good) pOverflowBr_good) pSwitch_good) pPhi_good) pAnyInstruction_good

theorem pInstruction_good : Good Vis pInstruction Tight :=
  pmapSpan_good (pthen_good (orNot_good pAssignment_good.vv fun _ _ h => h) pInstructionKind_good)

theorem pPaddedInstruction_good : Good Vis pPaddedInstruction Vis := (padded_good pInstruction_good).av

theorem pBasicBlock_good : Good Vis pBasicBlock Vis := by
  unfold pBasicBlock
  rw [thenIgnore_void]
  exact pmap_good (pthen_good (thenIgnore_good (pthen_good pIdent_good (pmapSpan_good pPunct_good).tt) newlines1_good.tv)
    (repeated_good pPaddedInstruction_good pPaddedInstruction_progress))

theorem pInitialBlock_good : Good Vis pInitialBlock Vis := pmapOutcome_good (repeatedAtLeast_good pPaddedInstruction_good pPaddedInstruction_progress)

theorem pFuncBody_good : Good Vis pFuncBody Tight := by
  unfold pFuncBody
  rw [thenIgnore_void]
  exact pmap_good (pthen_good (pthen_good (pthen_good (thenIgnore_good (pmapSpan_good pPunct_good) newlines1_good.tv)
    (orNot_good pInitialBlock_good fun _ _ h => h)) (repeated_good pBasicBlock_good pBasicBlock_progress)) (pmapSpan_good pPunct_good))

theorem pFuncDef_good : Good Vis pFuncDef Any :=
  pmap_good (thenIgnore_good (pthen_good (pthen_good (pmapSpan_good (just_tight (by simp))) pFuncSignature_good.tt) pFuncBody_good.tt) pEol_good.tv)

theorem pFuncDependencies_good : Good Vis pFuncDependencies Any :=
  (pmap_good (pthen_good (thenIgnore_good (thenIgnore_good pGlobalName_good pKeyword_good.tt) pKeyword_good.tt)
    (separatedBy_good pGlobalName_good.tt pPunct_good.tt pPunct_progress pGlobalName_suffix))).any

theorem pDbgAnnotation_good : Good Vis pDbgAnnotation Any :=
  pmap_good (thenIgnore_good (pthen_good (thenIgnore_good pDbgRef_good pPunct_good.tt) pTokenSoup_good) pEol_good.tv)

theorem pStatement_good : Good Vis pStatement Any :=
  por_good (por_good (por_good (por_good pGlobalVar_good pFuncDecl_good) pFuncDef_good) pFuncDependencies_good) pDbgAnnotation_good

theorem parser_good : Good Vis parser Any :=
  thenIgnore_good (repeated_good (p := docItem) (recoverSkip_good (padded_good pStatement_good)) docItem_progress) pend_good

/-- Errors, wherever they are in the tokens. -/
def LErr.plain (e : LErr Token) : Span × Reason × List (Option Token) × Option Token := (e.span, e.reason, e.expected, e.found)

theorem ErrsAt.plain {S : TL} {es es' : List (LErr Token)} (h : ErrsAt S es es') : es'.map LErr.plain = es.map LErr.plain := by
  induction h with
  | nil => rfl
  | cons h1 _ ih => simp [LErr.plain, ih, h1.span, h1.reason, h1.expected, h1.found]

/-- The parser gives the same statements and the same errors with and without blank lines. -/
theorem parser_withoutBlank {eoi : Span} {s : TL} {so : Option (List Statement)} {es : List (LErr Token)} (h : parseRecovery parser eoi (withoutBlank .within s) = .ok (so, es)) :
    ∃ es', parseRecovery parser eoi s = .ok (so, es') ∧ es'.map LErr.plain = es.map LErr.plain := by
  have := parser_good eoi s .within s ⟨[], rfl, rfl⟩ (fun _ _ _ => by simp)
  unfold parseRecovery at h ⊢
  revert this h
  cases parser eoi s <;> cases parser eoi (withoutBlank .within s) <;> intro h this <;> first | exact this.elim | cases h
  · obtain ⟨a, b, _⟩ := this
    refine ⟨_, by rw [b], a.plain.symm⟩
  · refine ⟨_, rfl, ?_⟩
    exact (this.1.append (.cons this.2 .nil)).plain.symm

end
end HyperIR
