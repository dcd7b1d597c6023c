import Verif.Proofs.Flow
import Verif.Props.Navigation
import Verif.Props.Diagnostics

/-! C35–C37, C44: control flow graphs, code lenses, and the hints about control flow. -/

namespace HyperIR
open Spec

section
variable [Unicode] {env : Env} {st : ServerState} {uri text : Str} {res : ParserResult}

theorem opened_inv (hopen : Opened st uri text) (h : parseFromStr text = .ok res) :
    ∃ doc, st.docs.get? uri = some doc ∧ doc.rope = text ∧ doc.stmts = res.stmts ∧ createIndex text res.tokens res.stmts = .ok doc.index := by
  obtain ⟨doc, errs, ha, hst⟩ := hopen
  obtain ⟨res', h1, h2, h3, _, _, h6⟩ := analyze_inv ha
  rw [h] at h1
  cases h1
  exact ⟨doc, hst, h2, h3, h6⟩

omit [Unicode] in
theorem find?_map_of {α β : Type} (f : α → β) (p : β → Bool) : ∀ (l : List α),
    (l.map f).find? p = (l.find? (p ∘ f)).map f
  | [] => rfl
  | x :: l => by
    rw [List.map_cons, List.find?_cons, List.find?_cons, find?_map_of f p l]
    cases h : p (f x) <;> simp [Function.comp, h]

/-- The command, for a function defined in the document (the first one of that name). -/
theorem visualize (hopen : Opened st uri text) (h : parseFromStr text = .ok res) (name : Str) :
    (∀ g, executeCommand st c!"visualize-cfg" [.str uri, .str name] = .ok g →
      ∃ f, (docFuncs res.stmts).find? (fun f => decide (f.1.1 = name)) = some f ∧ RendersGraph f.2.2 g.dotGraph) ∧
    ((∃ f ∈ docFuncs res.stmts, f.1.1 = name) → ∃ g, executeCommand st c!"visualize-cfg" [.str uri, .str name] = .ok g) := by
  obtain ⟨doc, hst, _, _, hix⟩ := opened_inv hopen h
  have hb := bodies_eq h hix
  have hfind : (docFuncs res.stmts).find? (fun f => decide (f.1.1 = name)) =
      (doc.index.functionBodies.find? (fun b => decide (b.name.1 = name))).map fun b => (b.name, b.completeRange, b.basicBlocks) := by
    rw [← hb, find?_map_of]
    rfl
  constructor
  · intro g hg
    unfold executeCommand at hg
    simp only [decide_true, hst] at hg
    cases hf : doc.index.functionBodies.find? (fun b => decide (b.name.1 = name)) with
    | none => rw [hf] at hg; cases hg
    | some fb =>
      rw [hf] at hg hfind
      cases hg
      exact ⟨_, hfind, renders h (bodies_mem h hix (List.mem_of_find?_eq_some hf))⟩
  · rintro ⟨f, hf, rfl⟩
    unfold executeCommand
    simp only [decide_true, hst]
    cases hf' : doc.index.functionBodies.find? (fun b => decide (b.name.1 = f.1.1)) with
    | none =>
      rw [hf', Option.map_none, List.find?_eq_none] at hfind
      have := hfind f hf
      simp at this
    | some fb => exact ⟨_, rfl⟩

/-- C35: the graph shown for a function is a well-formed DOT graph whose edges are exactly the branches between the function's
labelled blocks and the blocks they name. -/
theorem C35_graph (hopen : Opened st uri text) (h : parseFromStr text = .ok res) {name : Str} {g : ShowGraph}
    (hg : executeCommand st c!"visualize-cfg" [.str uri, .str name] = .ok g) :
    ∃ f, (docFuncs res.stmts).find? (fun f => decide (f.1.1 = name)) = some f ∧ RendersGraph f.2.2 g.dotGraph :=
  (visualize hopen h name).1 g hg

/-! ### Hints -/

/-- The hint of one block. -/
theorem incomingHint_spec (h : parseFromStr text = .ok res) (hsize : text.length < 2 ^ 32) {fb : FunctionBody}
    (hf : (fb.name, fb.completeRange, fb.basicBlocks) ∈ docFuncs res.stmts)
    (hin : fb.incomingBbBranches = incomingOf (fb.basicBlocks.flatMap blockEdges)) {blk : BasicBlock} (hb : blk ∈ fb.basicBlocks) :
    (incomingHint uri text fb blk = none ∧ ¬ (∃ lbl, blk.label = some lbl ∧ ∃ a, Edge fb.basicBlocks a lbl.1)) ∨
    ∃ hint, incomingHint uri text fb blk = some hint ∧ (∃ lbl, blk.label = some lbl ∧ ∃ a, Edge fb.basicBlocks a lbl.1) ∧
      ∃ lbl colon preds, blk.label = some lbl ∧ blk.labelCommaSpan = some colon ∧ (PlainTo text colon.stop → LspOffset text hint.position colon.stop) ∧
        Predecessors fb.basicBlocks lbl.1 preds ∧ preds ≠ [] ∧
        hintText hint.label = c!"incoming: " ++ commaList (preds.map Prod.fst) ∧
        Each (LinksTo uri text) preds (hintLinks hint.label) := by
  have hnd := labels_nodup h hf
  unfold incomingHint
  cases hl : blk.label with
  | none => exact .inl ⟨rfl, by rintro ⟨_, h, _⟩; cases h⟩
  | some lbl =>
    simp only
    have hget := incoming_preds hnd lbl.1
    simp only at hget
    rw [hin, hget]
    by_cases hp : predsOf fb.basicBlocks lbl.1 = []
    · left
      rw [if_pos hp]
      refine ⟨rfl, ?_⟩
      rintro ⟨lbl', he, ha⟩
      cases he
      exact (predsOf_ne_nil.mpr ha) hp
    · right
      rw [if_neg hp]
      simp only
      obtain ⟨kw, sig, body, hm, e⟩ := docFuncs_mem hf
      simp only [Prod.mk.injEq] at e
      obtain ⟨colon, hc, htok⟩ := (block_tokens h hm (by rw [← e.2.2]; exact hb)).1.colon lbl hl
      rw [hc]
      simp only
      obtain ⟨p, hp1, hp2⟩ := tokenEnd_pos h hsize htok (by simp)
      simp only at hp1 hp2
      rw [hp1]
      have hr : ∀ q ∈ predsOf fb.basicBlocks lbl.1, (Token.ident q.1, q.2) ∈ res.tokens := by
        intro q hq
        unfold predsOf at hq
        obtain ⟨b', h1, h2⟩ := List.mem_filterMap.mp hq
        split at h2
        · exact label_token h hf h1 h2
        · cases h2
      obtain ⟨e1, e2⟩ := incomingParts_spec (uri := uri) (text := text) 0 (preds := predsOf fb.basicBlocks lbl.1)
        fun q hq => token_rangeToLsp h hsize (hr q hq)
      refine ⟨_, rfl, ⟨lbl, rfl, predsOf_ne_nil.mp hp⟩, lbl, colon, _, rfl, rfl, hp2, predecessors_predsOf _ _, hp, ?_, ?_⟩
      · rw [e1, if_neg hp, if_pos rfl]
      · refine Each.imp e2 ?_
        rintro q hq l _ ⟨h1, h2, h3⟩
        refine ⟨h1, h2, ?_⟩
        obtain ⟨r, hr1, hr2⟩ := tokens_range h hsize (hr q hq) (hr q hq) (by simp) (by simp) (Nat.le_of_lt ((C02_token_spans h).1 _ (hr q hq)).1)
        rw [show (⟨q.2.start, q.2.stop⟩ : Span) = q.2 from rfl] at hr1 hr2
        rw [h3] at hr1
        cases hr1
        exact hr2

omit [Unicode] in
theorem flatMap_filterMap_pairs {α β γ : Type} (F : α → β → Option γ) (g : α → List β) : ∀ l : List α,
    l.flatMap (fun a => (g a).filterMap (F a)) = (l.flatMap fun a => (g a).map fun b => (a, b)).filterMap fun x => F x.1 x.2
  | [] => rfl
  | a :: l => by
    rw [List.flatMap_cons, List.flatMap_cons, List.filterMap_append, flatMap_filterMap_pairs F g l, List.filterMap_map]
    rfl

theorem incomingHints_spec (h : parseFromStr text = .ok res) (hsize : text.length < 2 ^ 32) {doc : AnalyzedDocument} (hr : doc.rope = text)
    (hix : createIndex text res.tokens res.stmts = .ok doc.index) :
    ∃ blocks : List (List BasicBlock × BasicBlock), blocks.Sublist (docBlocks res.stmts) ∧
      (∀ x ∈ docBlocks res.stmts, x ∈ blocks ↔ ∃ lbl, x.2.label = some lbl ∧ ∃ a, Edge x.1 a lbl.1) ∧
      Each (fun x hint => ∃ lbl colon preds, x.2.label = some lbl ∧ x.2.labelCommaSpan = some colon ∧
        (PlainTo text colon.stop → LspOffset text hint.position colon.stop) ∧ Predecessors x.1 lbl.1 preds ∧ preds ≠ [] ∧
        hintText hint.label = c!"incoming: " ++ commaList (preds.map Prod.fst) ∧
        Each (LinksTo uri text) preds (hintLinks hint.label)) blocks (incomingHints uri doc) := by
  unfold incomingHints
  rw [hr, flatMap_filterMap_pairs (incomingHint uri text) FunctionBody.basicBlocks]
  have key := each_filterMap (l := doc.index.functionBodies.flatMap fun a => a.basicBlocks.map fun b => (a, b))
    (F := fun x => incomingHint uri text x.1 x.2) (P := fun x => ∃ lbl, x.2.label = some lbl ∧ ∃ a, Edge x.1.basicBlocks a lbl.1)
    (R := fun x hint => ∃ lbl colon preds, x.2.label = some lbl ∧ x.2.labelCommaSpan = some colon ∧
        (PlainTo text colon.stop → LspOffset text hint.position colon.stop) ∧ Predecessors x.1.basicBlocks lbl.1 preds ∧ preds ≠ [] ∧
        hintText hint.label = c!"incoming: " ++ commaList (preds.map Prod.fst) ∧
        Each (LinksTo uri text) preds (hintLinks hint.label)) (by
      rintro ⟨fb, blk⟩ hx
      obtain ⟨fb', h1, h2⟩ := List.mem_flatMap.mp hx
      obtain ⟨blk', h3, h4⟩ := List.mem_map.mp h2
      cases h4
      exact incomingHint_spec h hsize (bodies_mem h hix h1) (bodies_incoming h hix fb h1) h3)
  have hdoc : docBlocks res.stmts =
      (doc.index.functionBodies.flatMap fun a => a.basicBlocks.map fun b => (a, b)).map fun x => (x.1.basicBlocks, x.2) := by
    unfold docBlocks
    rw [← bodies_eq h hix, List.flatMap_map, List.map_flatMap]
    simp only [List.map_map]
    rfl
  obtain ⟨l', h1, h2, h3⟩ := key
  refine ⟨l'.map fun x => (x.1.basicBlocks, x.2), ?_, ?_, ?_⟩
  · rw [hdoc]
    exact h1.map _
  · rw [hdoc]
    intro x hx
    obtain ⟨y, hy, rfl⟩ := List.mem_map.mp hx
    constructor
    · intro hm
      obtain ⟨z, hz, e⟩ := List.mem_map.mp hm
      have := (h3 z (h1.subset hz)).mp hz
      simp only [Prod.mk.injEq] at e
      rw [e.1, e.2] at this
      exact this
    · intro hm
      exact List.mem_map.mpr ⟨y, (h3 y hy).mpr hm, rfl⟩
  · exact Each.map_left _ h2

theorem backtraceHints_spec (h : parseFromStr text = .ok res) (hsize : text.length < 2 ^ 32) {doc : AnalyzedDocument} (hr : doc.rope = text)
    (hs : doc.stmts = res.stmts) {roots : List Url} {bt : List InlayHint} (hbt : backtraceHints env roots doc = .ok bt) :
    ∀ hint ∈ bt, Behind text res.tokens (fun t => ∃ n, t = .debugRef n) hint := by
  unfold backtraceHints at hbt
  rw [hs] at hbt
  have hall : ∀ i ∈ allInstructions res.stmts, ∀ d, i.dbgRef = some d → (Token.debugRef d.1, d.2) ∈ res.tokens := by
    intro i hi d hd
    rw [allInstructions_eq] at hi
    unfold instructions at hi
    obtain ⟨f, hf, hi⟩ := List.mem_flatMap.mp hi
    obtain ⟨blk, hb, hi'⟩ := List.mem_flatMap.mp hi
    obtain ⟨k, sig, body, hm, rfl⟩ := docFuncs_mem hf
    refine (C07_tree_mentions_tokens h _ hm _ ?_).1
    refine List.mem_append_right _ (List.mem_cons_of_mem _ (List.mem_append_left _ (List.mem_flatMap.mpr ⟨blk, hb, ?_⟩)))
    simp only [blockMentions, List.mem_append, List.mem_flatMap]
    refine .inr ⟨i, hi', ?_⟩
    simp [instrMentions, hd, dbgToks, dbgTok]
  generalize allInstructions res.stmts = is at hall hbt
  induction is generalizing bt with
  | nil => cases hbt; intro _ hm; cases hm
  | cons i is ih =>
    simp only [collectO] at hbt
    cases h1 : backtraceHint env roots doc i with
    | panic => rw [h1] at hbt; cases hbt
    | ok ys =>
      rw [h1] at hbt
      simp only at hbt
      cases h2 : collectO (backtraceHint env roots doc) is with
      | panic => rw [h2] at hbt; cases hbt
      | ok zs =>
        rw [h2] at hbt
        cases hbt
        intro hint hm
        rcases List.mem_append.mp hm with hm | hm
        · unfold backtraceHint at h1
          split at h1
          · cases h1; cases hm
          · rename_i d hd
            split at h1
            · cases h1; cases hm
            · split at h1
              · cases h1; cases hm
              · split at h1
                · cases h1
                · cases h1; cases hm
                · split at h1
                  · cases h1; cases hm
                  · rename_i pos hpos
                    split at h1
                    · cases h1
                    · rename_i hh hhint
                      cases h1
                      simp only [List.mem_singleton] at hm
                      subst hm
                      have hposn : hint.position = pos := by
                        unfold inlayHintForBacktrace at hhint
                        simp only at hhint
                        split at hhint
                        · cases hhint; rfl
                        · split at hhint
                          · cases hhint
                          · split at hhint
                            · cases hhint
                            · cases hhint; rfl
                      have htok := hall i (by simp) d hd
                      obtain ⟨p, hp1, hp2⟩ := tokenEnd_pos h hsize htok (by simp)
                      rw [hr] at hpos
                      simp only at hp1
                      rw [hp1] at hpos
                      cases hpos
                      exact ⟨_, htok, ⟨_, rfl⟩, by rw [hposn]; exact hp2⟩
        · exact ih (fun i hi => hall i (by simp [hi])) h2 hint hm

theorem endHints_spec (h : parseFromStr text = .ok res) (hsize : text.length < 2 ^ 32) {doc : AnalyzedDocument} (hr : doc.rope = text)
    (hix : createIndex text res.tokens res.stmts = .ok doc.index) :
    Each (fun f hint => (PlainTo text f.2.1.stop → LspOffset text hint.position f.2.1.stop) ∧ hintText hint.label = f.1.1 ∧
      Each (LinksTo uri text) [f.1] (hintLinks hint.label)) (docFuncs res.stmts) (endHints uri doc) := by
  rw [← bodies_eq h hix]
  unfold endHints
  rw [hr]
  refine Each.map_left _ (each_filterMap_total ?_)
  intro fb hfb
  have hf := bodies_mem h hix hfb
  obtain ⟨_, _, c, hc, hce, _⟩ := func_tokens h hf
  obtain ⟨p, hp1, hp2⟩ := tokenEnd_pos h hsize hc (by simp)
  obtain ⟨r, hr1, hr2⟩ := func_name_range h hsize hf
  simp only at hce hp1 hp2 hr1 hr2
  simp only [hce, hp1, hr1, Option.map_some]
  refine ⟨_, rfl, hp2, by simp [hintText], ?_⟩
  exact .cons ⟨rfl, rfl, hr2⟩ .nil

theorem endHints_behind (h : parseFromStr text = .ok res) (hsize : text.length < 2 ^ 32) {doc : AnalyzedDocument} (h1 : doc.rope = text)
    (h3 : createIndex text res.tokens res.stmts = .ok doc.index) :
    ∀ hint ∈ endHints uri doc, Behind text res.tokens (fun t => t = .punct '}') hint := by
  intro hint hm
  unfold endHints at hm
  obtain ⟨fb, hfb, hm⟩ := List.mem_filterMap.mp hm
  obtain ⟨_, _, c, hc, hce, _⟩ := func_tokens h (bodies_mem h h3 hfb)
  obtain ⟨p, hp1, hp2⟩ := tokenEnd_pos h hsize hc (by simp)
  simp only at hce hp1 hp2
  rw [h1, hce, hp1] at hm
  simp only at hm
  rw [Option.map_eq_some_iff] at hm
  obtain ⟨r, _, rfl⟩ := hm
  exact ⟨_, hc, rfl, hp2⟩

theorem incomingHints_behind (h : parseFromStr text = .ok res) (hsize : text.length < 2 ^ 32) {doc : AnalyzedDocument} (h1 : doc.rope = text)
    (h3 : createIndex text res.tokens res.stmts = .ok doc.index) :
    ∀ hint ∈ incomingHints uri doc, Behind text res.tokens (fun t => t = .punct ':') hint := by
  intro hint hm
  unfold incomingHints at hm
  rw [h1] at hm
  obtain ⟨fb, hfb, hm⟩ := List.mem_flatMap.mp hm
  obtain ⟨blk, hblk, hm⟩ := List.mem_filterMap.mp hm
  unfold incomingHint at hm
  cases hl : blk.label with
  | none => rw [hl] at hm; cases hm
  | some lbl =>
    obtain ⟨kw, sig, body, hd, e⟩ := docFuncs_mem (bodies_mem h h3 hfb)
    simp only [Prod.mk.injEq] at e
    obtain ⟨colon, hc, htok⟩ := (block_tokens h hd (by rw [← e.2.2]; exact hblk)).1.colon lbl hl
    obtain ⟨p, hp1, hp2⟩ := tokenEnd_pos h hsize htok (by simp)
    simp only at hp1 hp2
    rw [hl] at hm
    simp only at hm
    split at hm
    · cases hm
    · rw [hc] at hm
      simp only [hp1, Option.map_some, Option.some.injEq] at hm
      subst hm
      exact ⟨_, htok, rfl, hp2⟩

theorem inlayHint_inv (hopen : Opened st uri text) (h : parseFromStr text = .ok res) {hints : List InlayHint}
    (hh : inlayHint env st uri = .ok (some hints)) :
    ∃ doc bt, doc.rope = text ∧ doc.stmts = res.stmts ∧ createIndex text res.tokens res.stmts = .ok doc.index ∧
      backtraceHints env st.roots doc = .ok bt ∧ hints = incomingHints uri doc ++ bt ++ endHints uri doc := by
  obtain ⟨doc, hst, h1, h2, h3⟩ := opened_inv hopen h
  unfold inlayHint at hh
  rw [hst] at hh
  simp only at hh
  cases hb : backtraceHints env st.roots doc with
  | panic => rw [hb] at hh; cases hh
  | ok bt =>
    rw [hb] at hh
    cases hh
    exact ⟨doc, bt, h1, h2, h3, hb, rfl⟩

/-- C36: the hints consist of hints behind the colons of exactly those labels that some labelled block of the same function
branches to (in source order, one hint each), and of hints behind debug references and closing brackets.  The hint behind a label
reads `incoming: ` and the labels of the branching blocks in source order, each block once, each linked to the label in the text. -/
theorem C36_incoming (hopen : Opened st uri text) (h : parseFromStr text = .ok res) (hsize : text.length < 2 ^ 32) {hints : List InlayHint}
    (hh : inlayHint env st uri = .ok (some hints)) :
    ∃ inc others, hints = inc ++ others ∧
      (∀ hint ∈ others, Behind text res.tokens (fun t => (∃ n, t = .debugRef n) ∨ t = .punct '}') hint) ∧
      ∃ blocks : List (List BasicBlock × BasicBlock), blocks.Sublist (docBlocks res.stmts) ∧
        (∀ x ∈ docBlocks res.stmts, x ∈ blocks ↔ ∃ lbl, x.2.label = some lbl ∧ ∃ a, Edge x.1 a lbl.1) ∧
        Each (fun x hint => ∃ lbl colon preds, x.2.label = some lbl ∧ x.2.labelCommaSpan = some colon ∧
          (PlainTo text colon.stop → LspOffset text hint.position colon.stop) ∧ Predecessors x.1 lbl.1 preds ∧ preds ≠ [] ∧
          hintText hint.label = c!"incoming: " ++ commaList (preds.map Prod.fst) ∧
          Each (LinksTo uri text) preds (hintLinks hint.label)) blocks inc := by
  obtain ⟨doc, bt, h1, h2, h3, h4, rfl⟩ := inlayHint_inv hopen h hh
  refine ⟨incomingHints uri doc, bt ++ endHints uri doc, by simp, ?_, incomingHints_spec h hsize h1 h3⟩
  intro hint hm
  rcases List.mem_append.mp hm with hm | hm
  · obtain ⟨t, e1, e2, e3⟩ := backtraceHints_spec h hsize h1 h2 h4 hint hm
    exact ⟨t, e1, .inl e2, e3⟩
  · obtain ⟨t, e1, e2, e3⟩ := endHints_behind h hsize h1 h3 hint hm
    exact ⟨t, e1, .inr e2, e3⟩

/-- C44: one hint per function definition, in source order, right behind the closing bracket, showing the function's name as a link to
the name in the definition.  The other hints stand behind colons and debug references. -/
theorem C44_end_hints (hopen : Opened st uri text) (h : parseFromStr text = .ok res) (hsize : text.length < 2 ^ 32) {hints : List InlayHint}
    (hh : inlayHint env st uri = .ok (some hints)) :
    ∃ others ends, hints = others ++ ends ∧
      (∀ hint ∈ others, Behind text res.tokens (fun t => (∃ n, t = .debugRef n) ∨ t = .punct ':') hint) ∧
      Each (fun f hint => (PlainTo text f.2.1.stop → LspOffset text hint.position f.2.1.stop) ∧ hintText hint.label = f.1.1 ∧
        Each (LinksTo uri text) [f.1] (hintLinks hint.label)) (docFuncs res.stmts) ends := by
  obtain ⟨doc, bt, h1, h2, h3, h4, rfl⟩ := inlayHint_inv hopen h hh
  refine ⟨incomingHints uri doc ++ bt, endHints uri doc, rfl, ?_, endHints_spec h hsize h1 h3⟩
  intro hint hm
  rcases List.mem_append.mp hm with hm | hm
  · obtain ⟨t, e1, e2, e3⟩ := incomingHints_behind h hsize h1 h3 hint hm
    exact ⟨t, e1, .inr e2, e3⟩
  · obtain ⟨t, e1, e2, e3⟩ := backtraceHints_spec h hsize h1 h2 h4 hint hm
    exact ⟨t, e1, .inl e2, e3⟩

/-! ### Code lenses -/

omit [Unicode] in
/-- Function definitions are the definitions of functions among the occurrences. -/
theorem docOccs_func {ss : List Statement} {o : SymbolOccurrence} : ∀ (i : Nat),
    (o ∈ docOccs i ss ∧ o.symbolKind = .function ∧ o.useDef = .def_ ↔ ∃ f ∈ docFuncs ss, o = occ .function .def_ none f.1) := by
  induction ss with
  | nil => intro i; simp [docOccs, docFuncs]
  | cons s ss ih =>
    intro i
    rw [docOccs, List.mem_append]
    have ih := ih (i + funcCount [s])
    cases s with
    | funcDef kw sig body =>
      simp only [docFuncs, List.mem_cons, stmtOccs]
      constructor
      · rintro ⟨(h1 | h1) | h1, h2, h3⟩
        · exact ⟨_, .inl rfl, h1⟩
        · unfold funcOccs at h1
          rcases List.mem_append.mp h1 with h1 | h1
          · obtain ⟨a, _, rfl⟩ := List.mem_map.mp h1
            cases h2
          · obtain ⟨b, _, h1⟩ := List.mem_flatMap.mp h1
            unfold blockOccs at h1
            rcases List.mem_append.mp h1 with h1 | h1
            · obtain ⟨a, _, rfl⟩ := List.mem_map.mp h1
              cases h2
            · obtain ⟨b, _, h1⟩ := List.mem_flatMap.mp h1
              unfold instrOccs at h1
              rcases List.mem_append.mp h1 with h1 | h1
              · obtain ⟨a, _, rfl⟩ := List.mem_map.mp h1
                cases h2
              · obtain ⟨a, _, rfl⟩ := List.mem_map.mp h1
                cases h2
        · obtain ⟨f, hf, e⟩ := ih.mp ⟨h1, h2, h3⟩
          exact ⟨f, .inr hf, e⟩
      · rintro ⟨f, rfl | hf, e⟩
        · exact ⟨.inl (.inl e), by rw [e]; rfl, by rw [e]; rfl⟩
        · obtain ⟨h1, h2⟩ := ih.mpr ⟨f, hf, e⟩
          exact ⟨.inr h1, h2⟩
    | globalVar n d =>
      simp only [docFuncs, stmtOccs, List.mem_singleton]
      rw [← ih]
      constructor
      · rintro ⟨rfl | h1, h2, h3⟩
        · cases h2
        · exact ⟨h1, h2, h3⟩
      · rintro ⟨h1, h2⟩
        exact ⟨.inr h1, h2⟩
    | funcDecl n d e =>
      simp only [docFuncs, stmtOccs, List.mem_singleton]
      rw [← ih]
      constructor
      · rintro ⟨rfl | h1, h2, h3⟩
        · cases h3
        · exact ⟨h1, h2, h3⟩
      · rintro ⟨h1, h2⟩
        exact ⟨.inr h1, h2⟩
    | dbgAnnotation n d =>
      simp only [docFuncs, stmtOccs, List.mem_singleton]
      rw [← ih]
      constructor
      · rintro ⟨rfl | h1, h2, h3⟩
        · cases h2
        · exact ⟨h1, h2, h3⟩
      · rintro ⟨h1, h2⟩
        exact ⟨.inr h1, h2⟩
    | funcDependencies n d =>
      simp only [docFuncs, stmtOccs, List.not_mem_nil, false_or]
      exact ih

/-- Definitions are given by statements. -/
theorem occurs_def {toks : List Tok} {ss : List Statement} {o : SymbolOccurrence} (hd : o.useDef = .def_) :
    Occurs toks ss o ↔ o ∈ docOccs 0 ss := by
  constructor
  · rintro (h | ⟨⟨t, _, h⟩, _⟩)
    · exact h
    · exfalso
      unfold tokenUse at h
      split at h
      · cases h; cases hd
      · cases h; cases hd
      · rw [Option.map_eq_some_iff] at h
        obtain ⟨_, _, rfl⟩ := h
        cases hd
      · cases h
  · exact .inl

/-- Functions with the same name at the same place are the same. -/
theorem docFuncs_span_inj (h : parseFromStr text = .ok res) {f f' : Spanned Str × Span × List BasicBlock} (hf : f ∈ docFuncs res.stmts)
    (hf' : f' ∈ docFuncs res.stmts) (he : f.1.2 = f'.1.2) : f = f' := by
  have hd := docFuncs_disjoint (mentions_wellOrdered h)
  have key : ∀ {l : List (Spanned Str × Span × List BasicBlock)}, l.Pairwise (fun f f' => f.2.1.stop ≤ f'.2.1.start) →
      (∀ g ∈ l, g.2.1.start ≤ g.1.2.start ∧ g.1.2.start < g.2.1.stop) → f ∈ l → f' ∈ l → f = f' := by
    intro l hl hin h1 h2
    induction l with
    | nil => cases h1
    | cons g l ih =>
      rw [List.pairwise_cons] at hl
      have hg := hin g (by simp)
      rcases List.mem_cons.mp h1 with rfl | h1 <;> rcases List.mem_cons.mp h2 with rfl | h2
      · rfl
      · have h3 := hl.1 _ h2
        have h4 := hin f' (by simp [h2])
        rw [he] at hg
        omega
      · rename_i h1'
        have h3 := hl.1 _ h1'
        have h4 := hin f (by simp [h1'])
        rw [← he] at hg
        omega
      · exact ih hl.2 (fun x hx => hin x (by simp [hx])) h1 h2
  refine key hd ?_ hf hf'
  intro g hg
  obtain ⟨h1, ⟨k, hk, e1, e2⟩, c, hc, e3, e4⟩ := func_tokens h hg
  have i1 := (C02_token_spans h).1 _ h1
  have i2 := (C02_token_spans h).1 _ hk
  have i3 := (C02_token_spans h).1 _ hc
  simp only [Inside] at i1 i2 i3
  omega

/-- The listed definitions of a function are the function definitions of that name. -/
theorem listed_func (h : parseFromStr text = .ok res) {ix : HIRIndex} (hix : createIndex text res.tokens res.stmts = .ok ix) {n : Str} {sp : Span} :
    sp ∈ listed ix .function none n .def_ ↔ ∃ f ∈ docFuncs res.stmts, f.1 = (n, sp) := by
  rw [listed_occurs h hix, occurs_def rfl]
  have := docOccs_func (ss := res.stmts) (o := ⟨sp, .def_, .function, n, none⟩) 0
  constructor
  · intro ho
    obtain ⟨f, hf, e⟩ := this.mp ⟨ho, rfl, rfl⟩
    unfold occ at e
    simp only [SymbolOccurrence.mk.injEq] at e
    exact ⟨f, hf, by rw [e.1, e.2.2.2.1]⟩
  · rintro ⟨f, hf, e⟩
    exact (this.mpr ⟨f, hf, by rw [e]; rfl⟩).1

/-- The lenses, with the ranges, commands and arguments the server computes. -/
theorem lenses_raw (hopen : Opened st uri text) (h : parseFromStr text = .ok res) (hsize : text.length < 2 ^ 32) {lenses : List CodeLens}
    (hl : codeLens env st uri = some lenses) :
    ∃ funcs : List (Spanned Str × Span × List BasicBlock), funcs.Nodup ∧
      (∀ f, f ∈ funcs ↔ f ∈ docFuncs res.stmts ∧ ∀ f' ∈ docFuncs res.stmts, f'.1.1 = f.1.1 → f' = f) ∧
      Each (fun f lens => (rangeToLsp text f.1.2 = some lens.range ∧ lens.command = c!"visualize-cfg" ∧ lens.arguments = [.str uri, .str f.1.1]) ∧ (PlainTo text f.1.2.stop → EditorRange text f.1.2 lens.range) ∧
        ∃ g, executeCommand st lens.command lens.arguments = .ok g ∧ RendersGraph f.2.2 g.dotGraph) funcs lenses := by
  obtain ⟨doc, hst, hr, _, hix⟩ := opened_inv hopen h
  have hdk := distinctKeys h hix
  unfold codeLens at hl
  rw [hst] at hl
  simp only [Option.map_some, Option.some.injEq] at hl
  subst hl
  rw [hr]
  -- the functions with one definition, in the order of the table
  have hentry : ∀ x ∈ env.ord.run doc.index.functions, x.2.defs = listed doc.index .function none x.1 .def_ := by
    intro x hx
    have hm := (env.ord.perm _).mem_iff.mp hx
    have : entry? doc.index .function none x.1 = some x.2 := StrMap.get?_of_mem hdk.functions hm
    exact entry_get this .def_
  have hone : ∀ {n sp}, listed doc.index .function none n .def_ = [sp] →
      ∃ f ∈ docFuncs res.stmts, f.1 = (n, sp) ∧ ∀ f' ∈ docFuncs res.stmts, f'.1.1 = n → f' = f := by
    intro n sp hl
    obtain ⟨f, hf, e⟩ := (listed_func h hix).mp (by rw [hl]; simp : sp ∈ listed doc.index .function none n .def_)
    refine ⟨f, hf, e, ?_⟩
    intro f' hf' e'
    have : f'.1.2 ∈ listed doc.index .function none n .def_ := (listed_func h hix).mpr ⟨f', hf', by rw [← e']⟩
    rw [hl, List.mem_singleton] at this
    exact docFuncs_span_inj h hf' hf (by rw [this, e])
  let pick : Str × UseDefList → Option (Spanned Str × Span × List BasicBlock) := fun x =>
    if (codeLensOf uri text x).isSome then (docFuncs res.stmts).find? fun f => decide (f.1.1 = x.1) else none
  have hpick : ∀ x ∈ env.ord.run doc.index.functions, (pick x = none ∧ codeLensOf uri text x = none) ∨
      ∃ f lens, pick x = some f ∧ codeLensOf uri text x = some lens ∧ f ∈ docFuncs res.stmts ∧ f.1.1 = x.1 ∧
        (∀ f' ∈ docFuncs res.stmts, f'.1.1 = f.1.1 → f' = f) ∧ (rangeToLsp text f.1.2 = some lens.range ∧ lens.command = c!"visualize-cfg" ∧ lens.arguments = [.str uri, .str f.1.1]) ∧ (PlainTo text f.1.2.stop → EditorRange text f.1.2 lens.range) ∧
        ∃ g, executeCommand st lens.command lens.arguments = .ok g ∧ RendersGraph f.2.2 g.dotGraph := by
    rintro ⟨n, u⟩ hx
    have he := hentry _ hx
    simp only at he
    cases hc : codeLensOf uri text (n, u) with
    | none => exact .inl ⟨by simp [pick, hc], rfl⟩
    | some lens =>
      have hc' := hc
      unfold codeLensOf at hc
      split at hc
      · rename_i sp hd
        simp only at hd
        rw [he] at hd
        obtain ⟨f, hf, e1, e2⟩ := hone hd
        right
        obtain ⟨r, hr1, hr2⟩ := func_name_range h hsize hf
        have hfind : (docFuncs res.stmts).find? (fun f => decide (f.1.1 = n)) = some f := by
          cases hfd : (docFuncs res.stmts).find? (fun f => decide (f.1.1 = n)) with
          | none =>
            rw [List.find?_eq_none] at hfd
            have := hfd f hf
            simp [e1] at this
          | some f' =>
            have := List.find?_some hfd
            rw [e2 f' (List.mem_of_find?_eq_some hfd) (by simpa using this)]
        rw [e1] at hr1
        simp only at hr1
        obtain ⟨v1, v2⟩ := visualize hopen h n
        obtain ⟨g, hg⟩ := v2 ⟨f, hf, by rw [e1]⟩
        obtain ⟨f', hf', hren⟩ := v1 g hg
        rw [hfind] at hf'
        cases hf'
        simp only [hr1, Option.map_some, Option.some.injEq] at hc
        subst hc
        refine ⟨f, _, by simp [pick, hc', hfind], rfl, hf, by rw [e1], ?_, ⟨by rw [e1]; exact hr1, rfl, by rw [e1]⟩, hr2, g, hg, hren⟩
        intro f' hf' e'
        exact e2 f' hf' (by rw [e', e1])
      · cases hc
  have hnodup := nodup_run (ord := env.ord) hdk.functions
  have hall : ∀ f ∈ docFuncs res.stmts, (∀ f' ∈ docFuncs res.stmts, f'.1.1 = f.1.1 → f' = f) →
      ∃ x ∈ env.ord.run doc.index.functions, x.1 = f.1.1 ∧ (codeLensOf uri text x).isSome := by
    intro f hf hu
    have hmem : f.1.2 ∈ listed doc.index .function none f.1.1 .def_ := (listed_func h hix).mpr ⟨f, hf, rfl⟩
    cases hent : entry? doc.index .function none f.1.1 with
    | none => unfold listed at hmem; rw [hent] at hmem; cases hmem
    | some u =>
      have hm : (f.1.1, u) ∈ env.ord.run doc.index.functions := (env.ord.perm _).mem_iff.mpr (StrMap.mem_of_get? hent)
      refine ⟨_, hm, rfl, ?_⟩
      have hd := hentry _ hm
      have hnd := listed_nodup h hix .function none f.1.1 .def_
      have hsingle : listed doc.index .function none f.1.1 .def_ = [f.1.2] := by
        have hallsp : ∀ sp ∈ listed doc.index .function none f.1.1 .def_, sp = f.1.2 := by
          intro sp hsp
          obtain ⟨f', hf', e⟩ := (listed_func h hix).mp hsp
          rw [← hu f' hf' (by rw [e]), e]
        generalize listed doc.index .function none f.1.1 .def_ = l at *
        match l, hnd, hmem, hallsp with
        | [], _, hm, _ => cases hm
        | [a], _, _, ha => rw [ha a (by simp)]
        | a :: b :: l, hn, _, ha =>
          rw [List.nodup_cons] at hn
          exact absurd (by rw [ha a (by simp), ha b (by simp)]; simp) hn.1
      rw [hsingle] at hd
      obtain ⟨r, hr1, _⟩ := func_name_range h hsize hf
      unfold codeLensOf
      simp only at hd
      simp only [hd, hr1, Option.map_some, Option.isSome_some]
  generalize env.ord.run doc.index.functions = xs at *
  refine ⟨xs.filterMap pick, ?_, ?_, ?_⟩
  · clear hentry hone hall
    induction xs with
    | nil => simp
    | cons x xs ih =>
      rw [List.map_cons, List.nodup_cons] at hnodup
      have ih := ih (fun y hy => hpick y (by simp [hy])) hnodup.2
      rw [List.filterMap_cons]
      rcases hpick x (by simp) with ⟨h1, _⟩ | ⟨f, lens, h1, _, _, h4, _⟩
      · rw [h1]; exact ih
      · rw [h1, List.nodup_cons]
        refine ⟨fun hm => ?_, ih⟩
        obtain ⟨y, hy, hyf⟩ := List.mem_filterMap.mp hm
        rcases hpick y (by simp [hy]) with ⟨h5, _⟩ | ⟨f', lens', h5, _, _, h7, _⟩
        · rw [h5] at hyf; cases hyf
        · rw [h5] at hyf
          cases hyf
          exact hnodup.1 (List.mem_map.mpr ⟨y, hy, by rw [← h7, h4]⟩)
  · intro f
    rw [List.mem_filterMap]
    constructor
    · rintro ⟨x, hx, hp⟩
      rcases hpick x hx with ⟨h1, _⟩ | ⟨f', lens, h1, _, h3, h4, h5, _⟩
      · rw [h1] at hp; cases hp
      · rw [h1] at hp; cases hp
        exact ⟨h3, h5⟩
    · rintro ⟨hf, hu⟩
      obtain ⟨x, hx, e, hs⟩ := hall f hf hu
      rcases hpick x hx with ⟨_, h2⟩ | ⟨f', lens, h1, _, h3, h4, h5, _⟩
      · rw [h2] at hs; cases hs
      · refine ⟨x, hx, ?_⟩
        rw [h1, h5 f hf (by rw [h4, e])]
  · clear hentry hone hall hnodup
    induction xs with
    | nil => exact .nil
    | cons x xs ih =>
      have ih := ih fun y hy => hpick y (by simp [hy])
      rw [List.filterMap_cons, List.filterMap_cons]
      rcases hpick x (by simp) with ⟨h1, h2⟩ | ⟨f, lens, h1, h2, _, _, _, h6⟩
      · rw [h1, h2]; exact ih
      · rw [h1, h2]; exact .cons h6 ih

/-- C37: there is exactly one code lens for every function with exactly one definition, and no other; its range is the function's name
in the definition, and executing its command with its arguments succeeds and shows the graph of that definition. -/
theorem C37_code_lens (hopen : Opened st uri text) (h : parseFromStr text = .ok res) (hsize : text.length < 2 ^ 32) {lenses : List CodeLens}
    (hl : codeLens env st uri = some lenses) :
    ∃ funcs : List (Spanned Str × Span × List BasicBlock), funcs.Nodup ∧
      (∀ f, f ∈ funcs ↔ f ∈ docFuncs res.stmts ∧ ∀ f' ∈ docFuncs res.stmts, f'.1.1 = f.1.1 → f' = f) ∧
      Each (fun f lens => (PlainTo text f.1.2.stop → EditorRange text f.1.2 lens.range) ∧
        ∃ g, executeCommand st lens.command lens.arguments = .ok g ∧ RendersGraph f.2.2 g.dotGraph) funcs lenses := by
  obtain ⟨funcs, h1, h2, h3⟩ := lenses_raw hopen h hsize hl
  exact ⟨funcs, h1, h2, Each.imp h3 fun _ _ _ _ h => h.2⟩

end

/-! ### Examples -/

section
attribute [local instance] asciiUnicode

/-- Two functions; in the first, `x` is reached from `x` itself and from `y`. -/
def flowText : Str :=
  c!"define void @f() {\nx:\n br y\ny:\n br int1 %c, x, x\nz:\n ret\n}\ndefine void @g() {\n ret\n}\n"

example : Opened (serverWith [] c!"u" flowText) c!"u" flowText := serverWith_opened (by decide +kernel)

example : (executeCommand (serverWith [] c!"u" flowText) c!"visualize-cfg" [.str c!"u", .str c!"@f"]).toOption = some
    { title := c!"CFG for @f",
      dotGraph := c!"// Control flow graph for @f\n// In VSCode, I recommend installing the `Graphviz Interactive Preview` extension to view this file.\nstrict digraph D {\n  node [shape=box];\n  \"x\" -> \"y\"\n  \"y\" -> \"x\"\n  \"y\" -> \"x\"\n}\n" } := by
  decide +kernel

example : inlayHint debugEnv (serverWith [] c!"u" flowText) c!"u" = .ok (some
    [{ position := ⟨1, 2⟩, label := [{ value := c!"incoming: " }, { value := c!"y", location := some ⟨c!"u", ⟨⟨3, 0⟩, ⟨3, 1⟩⟩⟩ }] },
     { position := ⟨3, 2⟩, label := [{ value := c!"incoming: " }, { value := c!"x", location := some ⟨c!"u", ⟨⟨1, 0⟩, ⟨1, 1⟩⟩⟩ }] },
     { position := ⟨7, 1⟩, label := [{ value := c!"@f", location := some ⟨c!"u", ⟨⟨0, 12⟩, ⟨0, 14⟩⟩⟩ }] },
     { position := ⟨10, 1⟩, label := [{ value := c!"@g", location := some ⟨c!"u", ⟨⟨8, 12⟩, ⟨8, 14⟩⟩⟩ }] }]) := by
  decide +kernel

example : (codeLens debugEnv (serverWith [] c!"u" flowText) c!"u").map (·.map CodeLens.range) =
    some [⟨⟨0, 12⟩, ⟨0, 14⟩⟩, ⟨⟨8, 12⟩, ⟨8, 14⟩⟩] := by
  decide +kernel

/-- A function defined twice has no code lens. -/
example : (codeLens debugEnv (serverWith [] c!"u" c!"define void @f() {\n ret\n}\ndefine void @f() {\n ret\n}\n") c!"u").map (·.map CodeLens.range) =
    some [] := by
  decide +kernel

end

end HyperIR
