import Verif.Proofs.Diagnostics
import Verif.Spec.Flow

/-! The function bodies of the index in terms of the function definitions of the document. -/

namespace HyperIR
open Spec

section
variable [Unicode] {src : Str} {res : ParserResult} {ix : HIRIndex}

/-- The function bodies are the function definitions. -/
theorem bodies_eq (h : parseFromStr src = .ok res) (hix : createIndex src res.tokens res.stmts = .ok ix) :
    ix.functionBodies.map (fun b => (b.name, b.completeRange, b.basicBlocks)) = docFuncs res.stmts := by
  obtain ⟨g, hinv, _, hb, _⟩ := index_inv h hix
  rw [← docBodies_eq, ← hb]
  have := congrArg (List.map fun v : Spanned Str × Span × List BasicBlock × StrMap (List (Spanned Str)) => (v.1, v.2.1, v.2.2.1)) hinv.bodies
  rw [List.map_map, List.map_map] at this
  exact this

theorem bodies_incoming (h : parseFromStr src = .ok res) (hix : createIndex src res.tokens res.stmts = .ok ix) :
    ∀ b ∈ ix.functionBodies, b.incomingBbBranches = incomingOf (b.basicBlocks.flatMap blockEdges) := by
  obtain ⟨g, hinv, _, hb, _⟩ := index_inv h hix
  intro b hm
  have hv : b.view ∈ (docBodies res.stmts).map GBody.view := by
    rw [← hb, ← hinv.bodies]
    exact List.mem_map_of_mem hm
  obtain ⟨gb, h1, h2⟩ := List.mem_map.mp hv
  have hedges : gb.edges = gb.blocks.flatMap blockEdges := by
    clear hv h2 hm hb hinv h hix
    generalize res.stmts = ss at h1
    induction ss with
    | nil => cases h1
    | cons s ss ih =>
      cases s with
      | funcDef kw sig body =>
        simp only [docBodies, List.mem_cons] at h1
        rcases h1 with rfl | h1
        · rfl
        · exact ih h1
      | _ => exact ih h1
  simp only [GBody.view, FunctionBody.view, Prod.mk.injEq] at h2
  obtain ⟨_, _, h3, h4⟩ := h2
  rw [← h4, hedges, h3]

/-- Function bodies one by one. -/
theorem bodies_mem (h : parseFromStr src = .ok res) (hix : createIndex src res.tokens res.stmts = .ok ix) {b : FunctionBody}
    (hb : b ∈ ix.functionBodies) : (b.name, b.completeRange, b.basicBlocks) ∈ docFuncs res.stmts := by
  rw [← bodies_eq h hix]
  exact List.mem_map.mpr ⟨b, hb, rfl⟩

/-! ### Tokens of blocks -/

omit [Unicode] in
theorem docSkip_body {ss : List Statement} {l : List Tok} (h : DocSkipG ss l) {k : Span} {sig : FuncSignature} {body : FuncBody}
    (hm : .funcDef k sig body ∈ ss) : ∃ bl, BodyG body bl ∧ ∀ t ∈ bl, t ∈ l := by
  induction h with
  | nil => cases hm
  | @cons s ss g nls l nls' l' _ h2 _ _ ih =>
    rcases List.mem_cons.mp hm with rfl | hm
    · cases h2 with
      | @funcDef _ _ sl _ bl h3 h4 =>
        refine ⟨bl, h4, ?_⟩
        intro t ht
        simp [ht]
    · obtain ⟨bl, h3, h4⟩ := ih hm
      exact ⟨bl, h3, fun t ht => by simp [h4 t ht]⟩

omit [Unicode] in
/-- Instructions start with a token other than a line end. -/
theorem instrG_start {i : Instruction} {l : List Tok} (h : InstrG i l) : ∃ t ∈ l, t.1 ≠ .newline ∧ i.span.start = t.2.start := by
  obtain ⟨asg, body, ha, hb, rfl, hs⟩ := h
  rw [hs]
  clear hs
  revert hb ha
  generalize i.assignmentTarget = at', i.instruction = ins, i.basicBlockRefs = refs, i.dbgRef = dbg
  intro ha hb
  cases ha with
  | @some ty n e => exact ⟨typeTok ty, by simp, by simp [typeTok], by simp [hull]⟩
  | none =>
    refine ⟨identTok ins, ?_, by simp [identTok], ?_⟩ <;> cases hb <;> simp [hull, identTok]

omit [Unicode] in
theorem instrsG_start {is : List Instruction} {l : List Tok} (h : InstrsG is l) : ∀ i ∈ is, ∃ t ∈ l, t.1 ≠ .newline ∧ i.span.start = t.2.start := by
  induction h with
  | nil => intro i hi; cases hi
  | @cons i is nls l nls' l' _ h2 _ _ _ ih =>
    intro j hj
    rcases List.mem_cons.mp hj with rfl | hj
    · obtain ⟨t, h1, h2, h3⟩ := instrG_start h2
      exact ⟨t, by simp [h1], h2, h3⟩
    · obtain ⟨t, h1, h2, h3⟩ := ih j hj
      exact ⟨t, by simp [h1], h2, h3⟩

/-- A block starts with a token other than a line end, ends with a token, and has a label iff it has a colon. -/
structure BlockEnds (b : BasicBlock) (l : List Tok) : Prop where
  start : ∃ t ∈ l, t.1 ≠ .newline ∧ b.span.start = t.2.start
  colon : ∀ lbl, b.label = some lbl → ∃ c, b.labelCommaSpan = some c ∧ (.punct ':', c) ∈ l

omit [Unicode] in
theorem BlockEnds.mono {b : BasicBlock} {l l' : List Tok} (h : BlockEnds b l) (hs : ∀ t ∈ l, t ∈ l') : BlockEnds b l' := by
  obtain ⟨⟨t, h1, h2⟩, h3⟩ := h
  refine ⟨⟨t, hs t h1, h2⟩, fun lbl hl => ?_⟩
  obtain ⟨c, h4, h5⟩ := h3 lbl hl
  exact ⟨c, h4, hs _ h5⟩

omit [Unicode] in
theorem blockG_ends {b : BasicBlock} {l : List Tok} (h : BlockG b l) : BlockEnds b l := by
  obtain ⟨label, comma, nls, is, _, _, _, rfl, h1, h2, h3⟩ := h
  refine ⟨⟨identTok label, by simp, by simp [identTok], by rw [h3]; rfl⟩, ?_⟩
  intro lbl _
  exact ⟨comma, h2, by simp⟩

omit [Unicode] in
theorem firstBlockG_ends {b : BasicBlock} {l : List Tok} (h : FirstBlockG b l) : BlockEnds b l := by
  obtain ⟨f, la, hi, hf, _, h1, _, h3⟩ := h
  refine ⟨?_, ?_⟩
  · rw [h3]
    exact instrsG_start hi f (List.mem_of_head? hf)
  · intro lbl hl
    rw [h1] at hl
    cases hl

omit [Unicode] in
theorem blocksG_ends {bs : List BasicBlock} {l : List Tok} (h : BlocksG bs l) : ∀ b ∈ bs, BlockEnds b l := by
  induction h with
  | nil => intro b hb; cases hb
  | @cons b bs l l' h1 _ ih =>
    intro j hj
    rcases List.mem_cons.mp hj with rfl | hj
    · exact (blockG_ends h1).mono (by intro t ht; simp [ht])
    · exact (ih j hj).mono (by intro t ht; simp [ht])

omit [Unicode] in
theorem bodyG_ends {b : FuncBody} {l : List Tok} (h : BodyG b l) : ∀ blk ∈ b.basicBlocks, BlockEnds blk l := by
  obtain ⟨nls, bl, _, _, h, rfl⟩ := h
  intro blk hb
  have hsub : ∀ t ∈ bl, t ∈ (Token.punct '{', b.openingBracket) :: nls ++ bl ++ [(Token.punct '}', b.closingBracket)] := by
    intro t ht; simp [ht]
  generalize b.basicBlocks = bs at h hb
  cases h with
  | labelled h => exact (blocksG_ends h blk hb).mono hsub
  | @unlabelled b' bs l l' h1 h2 =>
    rcases List.mem_cons.mp hb with rfl | hb
    · exact (firstBlockG_ends h1).mono fun t ht => hsub t (by simp [ht])
    · exact (blocksG_ends h2 blk hb).mono fun t ht => hsub t (by simp [ht])

/-- The tokens at the ends of blocks. -/
theorem block_tokens (h : parseFromStr src = .ok res) {k : Span} {sig : FuncSignature} {body : FuncBody}
    (hm : .funcDef k sig body ∈ res.stmts) {blk : BasicBlock} (hb : blk ∈ body.basicBlocks) :
    BlockEnds blk res.tokens ∧ ∃ t ∈ res.tokens, t.1 ≠ .comment ∧ blk.span.stop = t.2.stop := by
  rcases parseFromStr_doc h with h' | h'
  · rw [h'] at hm; cases hm
  · obtain ⟨bl, h1, h2⟩ := docSkip_body h' hm
    have hw : WellOrdered (nonComments res.tokens) := (tokens_wellOrdered h).sublist List.filter_sublist
    have hsub : ∀ t ∈ bl, t ∈ res.tokens := fun t ht => (List.mem_filter.mp (h2 t ht)).1
    refine ⟨(bodyG_ends h1 blk hb).mono hsub, ?_⟩
    -- the end of the block
    have hbl : ∃ t ∈ bl, blk.span.stop = t.2.stop := by
      obtain ⟨nls, bl', _, _, h3, rfl⟩ := h1
      have hlast : ∀ {is : List Instruction} {l : List Tok}, InstrsG is l → ∀ i ∈ is, ∃ t ∈ l, i.span.stop = t.2.stop := by
        intro is l hi
        induction hi with
        | nil => intro i hi; cases hi
        | @cons i is nls l nls' l' _ h2 _ _ _ ih =>
          intro j hj
          rcases List.mem_cons.mp hj with rfl | hj
          · have hne := instrG_ne_nil h2
            obtain ⟨asg, body, _, _, rfl, hs⟩ := h2
            rw [hs]
            have hmem := List.getLast_mem hne
            refine ⟨(asg ++ body).getLast hne, ?_, ?_⟩
            · rw [List.append_assoc, List.append_assoc]
              exact List.mem_append_right _ (List.mem_append_left _ hmem)
            simp [hull, List.getLast?_eq_some_getLast hne]
          · obtain ⟨t, h1, h2⟩ := ih j hj
            exact ⟨t, by simp [h1], h2⟩
      have hblock : ∀ {b : BasicBlock} {l : List Tok}, BlockG b l → ∃ t ∈ l, b.span.stop = t.2.stop := by
        rintro b l ⟨label, comma, nls, is, _, _, hi, rfl, _, _, hs⟩
        rw [hs]
        cases hl : b.instructions.getLast? with
        | none => exact ⟨identTok label, by simp, rfl⟩
        | some la =>
          obtain ⟨t, h1, h2⟩ := hlast hi la (List.mem_of_getLast? hl)
          exact ⟨t, by simp [h1], h2⟩
      have hblocks : ∀ {bs : List BasicBlock} {l : List Tok}, BlocksG bs l → ∀ b ∈ bs, ∃ t ∈ l, b.span.stop = t.2.stop := by
        intro bs l hbs
        induction hbs with
        | nil => intro b hb; cases hb
        | cons h1 _ ih =>
          intro j hj
          rcases List.mem_cons.mp hj with rfl | hj
          · obtain ⟨t, a, b⟩ := hblock h1
            exact ⟨t, by simp [a], b⟩
          · obtain ⟨t, a, b⟩ := ih j hj
            exact ⟨t, by simp [a], b⟩
      generalize body.basicBlocks = bs at h3 hb
      cases h3 with
      | labelled h3 =>
        obtain ⟨t, a, b⟩ := hblocks h3 blk hb
        exact ⟨t, by simp [a], b⟩
      | @unlabelled b bs l l' h4 h5 =>
        rcases List.mem_cons.mp hb with rfl | hb
        · obtain ⟨f, la, hi, _, hla, _, _, hs⟩ := h4
          rw [hs]
          obtain ⟨t, a, b⟩ := hlast hi la (List.mem_of_getLast? hla)
          exact ⟨t, by simp [a], b⟩
        · obtain ⟨t, a, b⟩ := hblocks h5 blk hb
          exact ⟨t, by simp [a], b⟩
    obtain ⟨t, ht, hs⟩ := hbl
    have := List.mem_filter.mp (h2 t ht)
    exact ⟨t, this.1, by simpa using this.2, hs⟩

end
end HyperIR
