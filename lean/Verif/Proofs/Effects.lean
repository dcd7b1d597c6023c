import Verif.Spec.Views
import Verif.Props.Answers
import Verif.Props.SemanticToken
import Verif.Props.Outline
import Verif.Props.Hints
import Verif.Props.Diagnostics
import Verif.Props.History

/-
What the server shows of a document, in any document: each view against `Spec/Views.lean`.
-/

namespace HyperIR
open Spec

theorem picks_filterMap {α β : Type} {R : α → β → Prop} {F : α → Option β} : ∀ {l : List α},
    (∀ x ∈ l, (F x = none ∧ ∀ y, ¬ R x y) ∨ ∃ y, F x = some y ∧ R x y) → Picks R l (l.filterMap F)
  | [], _ => .nil
  | x :: l, h => by
    have ih := picks_filterMap (l := l) fun y hy => h y (by simp [hy])
    rw [List.filterMap_cons]
    rcases h x (by simp) with ⟨h1, h2⟩ | ⟨y, h1, h2⟩
    · rw [h1]
      exact .skip h2 ih
    · rw [h1]
      exact .take h2 ih

theorem Picks.imp {α β : Type} {R S : α → β → Prop} {l : List α} {l' : List β} (h : Picks R l l')
    (h1 : ∀ a ∈ l, ∀ b, R a b → S a b) (h2 : ∀ a ∈ l, ∀ b, S a b → ∃ c, R a c) : Picks S l l' := by
  induction h with
  | nil => exact .nil
  | take h _ ih =>
    exact .take (h1 _ (by simp) _ h) (ih (fun a ha => h1 a (by simp [ha])) fun a ha => h2 a (by simp [ha]))
  | skip h _ ih =>
    refine .skip (fun b hb => ?_) (ih (fun a ha => h1 a (by simp [ha])) fun a ha => h2 a (by simp [ha]))
    obtain ⟨c, hc⟩ := h2 _ (by simp) b hb
    exact h c hc

theorem Picks.map_left {α β γ : Type} {R : γ → β → Prop} (f : α → γ) {l : List α} {l' : List β}
    (h : Picks (fun a b => R (f a) b) l l') : Picks R (l.map f) l' := by
  induction h with
  | nil => exact .nil
  | take h _ ih => exact .take h ih
  | skip h _ ih => exact .skip h ih

section
variable [Unicode] {env : Env} {st st' : ServerState} {uri text : Str} {res : ParserResult}

/-! ### Highlighting -/

theorem tokens_shown (hk : Known st uri text res) (hsize : text.length < 2 ^ 32) {ls : Option (List LspSemanticToken)}
    (h : semanticTokensFull env st uri = .ok ls) : ∃ l, ls = some l ∧ Picks (Highlighted text) res.tokens (decode ⟨0, 0⟩ l) := by
  obtain ⟨⟨doc, errs, ha, hst⟩, hp⟩ := hk
  obtain ⟨res', h', h2, _, _, h5, _⟩ := analyze_inv ha
  rw [hp] at h'
  cases h'
  obtain ⟨hin, hord⟩ := C02_token_spans hp
  obtain ⟨l, h1, h2', h3, h4⟩ := convert_spec env.build hsize (prev := ⟨0, 0⟩) h5 hin
    (fun t ht => by
      unfold PosLe
      simp only
      omega) hord
  unfold semanticTokensFull at h
  simp only [hst, h2, h4 env.build] at h
  cases h
  have hpos : ∀ t ∈ res.tokens, ∀ p, p = posOf text t.2.start ↔ ShownPlace text t.2.start p := by
    intro t ht p
    have hi := hin t ht
    simp only [Inside] at hi
    have := length_le_utf8Len text
    rw [← offsetToLspPos_shown hsize, offsetToLspPos_eq (by omega) hsize, Option.some.injEq]
    exact eq_comm
  refine ⟨l, rfl, Picks.imp h3 ?_ ?_⟩
  · rintro t ht h ⟨ty, e1, e2, e3, e4⟩
    exact ⟨ty, e1, e2, e3, (hpos t ht _).mp e4⟩
  · rintro t ht h ⟨ty, e1, e2, e3, e4⟩
    exact ⟨h, ty, e1, e2, e3, (hpos t ht _).mpr e4⟩

/-! ### Outline and folds -/

theorem outline_shown (hk : Known st uri text res) (hsize : text.length < 2 ^ 32) {syms : List DocumentSymbol}
    (h : documentSymbol env st uri = some syms) : Outlined text res.stmts syms := by
  obtain ⟨gs, fs, names, h1, h2, h3, h4⟩ := outline_entries hk.1 hk.2 hsize h
  refine ⟨gs, fs, names, h1, h2, Each.imp h3 ?_, Each.imp h4 ?_⟩
  · rintro n _ s _ ⟨⟨e1, e2, _⟩, e3, e4⟩
    exact ⟨e1, e2, (rangeToLsp_shown hsize).mp e3, (rangeToLsp_shown hsize).mp e4⟩
  · rintro n _ s _ ⟨⟨e1, e2, _⟩, e3, e4⟩
    exact ⟨e1, e2, (rangeToLsp_shown hsize).mp e3, (rangeToLsp_shown hsize).mp e4⟩

theorem func_range (h : parseFromStr text = .ok res) (hsize : text.length < 2 ^ 32) {f : Spanned Str × Span × List BasicBlock}
    (hf : f ∈ docFuncs res.stmts) : ∃ r, rangeToLsp text f.2.1 = some r := by
  obtain ⟨n1, ⟨k, hk, k1, k2⟩, c, hc, c1, c2⟩ := func_tokens h hf
  have i1 := (C02_token_spans h).1 _ n1
  have i2 := (C02_token_spans h).1 _ hk
  have i3 := (C02_token_spans h).1 _ hc
  simp only [Inside] at i1 i2 i3
  exact rangeToLsp_total hsize (by omega) (by omega)

theorem block_range (h : parseFromStr text = .ok res) (hsize : text.length < 2 ^ 32) {f : Spanned Str × Span × List BasicBlock}
    (hf : f ∈ docFuncs res.stmts) {blk : BasicBlock} (hb : blk ∈ f.2.2) : ∃ r, rangeToLsp text blk.span = some r := by
  obtain ⟨kw, sig, body, hd, rfl⟩ := docFuncs_mem hf
  obtain ⟨hends, t', ht', ht'c, ht's⟩ := block_tokens h hd hb
  have hne := (((C08_source_order h).2.2 _ _ _ hd).1.blocks blk hb).nonempty
  have hlast := (C02_token_spans h).1 _ ht'
  simp only [Inside] at hlast
  exact rangeToLsp_total hsize (by omega) (by omega)

omit [Unicode] in
theorem foldOf_shown (hsize : text.length < 2 ^ 32) {sp : Span} {r : Range} (h : rangeToLsp text sp = some r) (label : Str) :
    ∃ fold, foldOf text sp label = some fold ∧ FoldOver text sp fold ∧ fold.collapsedText = label := by
  unfold foldOf
  rw [h]
  exact ⟨_, rfl, ⟨r, (rangeToLsp_shown hsize).mp h, rfl, rfl⟩, rfl⟩

theorem folds_shown (hk : Known st uri text res) (hsize : text.length < 2 ^ 32) {folds : List FoldingRange}
    (h : foldingRange st uri = some folds) : Folded text res.stmts folds := by
  obtain ⟨doc, hst, hr, _, hix⟩ := opened_inv hk.1 hk.2
  unfold foldingRange at h
  rw [hst] at h
  simp only [Option.map_some, Option.some.injEq] at h
  subst h
  unfold foldsOf
  rw [hr]
  refine ⟨_, _, rfl, ?_, ?_⟩
  · rw [← bodies_eq hk.2 hix]
    refine Each.map_left _ (each_filterMap_total ?_)
    intro fb hfb
    obtain ⟨r, e⟩ := func_range hk.2 hsize (bodies_mem hk.2 hix hfb)
    obtain ⟨fold, e1, e2, e3⟩ := foldOf_shown hsize e (showNat fb.labels.length ++ c!" basic blocks")
    obtain ⟨l1, l2⟩ := labels_names hk.2 hix hfb
    refine ⟨fold, e1, e2, _, l1, l2, showNat fb.labels.length, e3, ?_⟩
    rw [List.length_map]
    exact showNat_canonical _
  · have hdoc : docBlocks res.stmts =
        (doc.index.functionBodies.flatMap fun a => a.basicBlocks.map fun b => (a, b)).map fun x => (x.1.basicBlocks, x.2) := by
      unfold docBlocks
      rw [← bodies_eq hk.2 hix, List.flatMap_map, List.map_flatMap]
      simp only [List.map_map]
      rfl
    have hflat : doc.index.functionBodies.flatMap FunctionBody.basicBlocks =
        (doc.index.functionBodies.flatMap fun a => a.basicBlocks.map fun b => (a, b)).map Prod.snd := by
      rw [List.map_flatMap]
      simp [Function.comp_def]
    rw [hdoc, hflat, List.filterMap_map]
    refine Each.map_left _ (each_filterMap_total ?_)
    rintro ⟨fb, blk⟩ hx
    obtain ⟨fb', h1, h2⟩ := List.mem_flatMap.mp hx
    obtain ⟨blk', h3, h4⟩ := List.mem_map.mp h2
    cases h4
    obtain ⟨r, e⟩ := block_range hk.2 hsize (bodies_mem hk.2 hix h1) h3
    obtain ⟨fold, e1, e2, e3⟩ := foldOf_shown hsize e (showNat blk.instructions.length ++ c!" instructions")
    exact ⟨fold, e1, e2, _, e3, showNat_canonical _⟩

/-! ### Hints -/

omit [Unicode] in
theorem incomingParts_shown (hsize : text.length < 2 ^ 32) : ∀ {preds : List (Spanned Str)} (i : Nat), (∀ p ∈ preds, ∃ r, rangeToLsp text p.2 = some r) →
    ∃ links, Each (fun (n : Spanned Str) (l : Str × Range) => l.1 = n.1 ∧ ShownRange text n.2 l.2) preds links ∧
      incomingParts uri text i preds = linkParts uri (if i = 0 then c!"incoming: " else c!", ") links
  | [], _, _ => ⟨[], .nil, rfl⟩
  | (n, sp) :: rest, i, h => by
    obtain ⟨r, hr⟩ := h (n, sp) (by simp)
    obtain ⟨links, h1, h2⟩ := incomingParts_shown hsize (preds := rest) (i + 1) fun p hp => h p (by simp [hp])
    simp only at hr
    refine ⟨(n, r) :: links, .cons ⟨rfl, (rangeToLsp_shown hsize).mp hr⟩ h1, ?_⟩
    simp only [incomingParts, linkParts]
    rw [hr, h2]
    simp

theorem incoming_shown (h : parseFromStr text = .ok res) (hsize : text.length < 2 ^ 32) {doc : AnalyzedDocument} (hr : doc.rope = text)
    (hix : createIndex text res.tokens res.stmts = .ok doc.index) : Picks (IncomingHint uri text) (docBlocks res.stmts) (incomingHints uri doc) := by
  unfold incomingHints
  rw [hr, flatMap_filterMap_pairs (incomingHint uri text) FunctionBody.basicBlocks]
  have hdoc : docBlocks res.stmts =
      (doc.index.functionBodies.flatMap fun a => a.basicBlocks.map fun b => (a, b)).map fun x => (x.1.basicBlocks, x.2) := by
    unfold docBlocks
    rw [← bodies_eq h hix, List.flatMap_map, List.map_flatMap]
    simp only [List.map_map]
    rfl
  rw [hdoc]
  refine Picks.map_left _ (picks_filterMap ?_)
  rintro ⟨fb, blk⟩ hx
  obtain ⟨fb', h1, h2⟩ := List.mem_flatMap.mp hx
  obtain ⟨blk', hb, h4⟩ := List.mem_map.mp h2
  cases h4
  have hf := bodies_mem h hix h1
  have hnd := labels_nodup h hf
  simp only
  unfold incomingHint
  cases hl : blk.label with
  | none =>
    refine .inl ⟨rfl, ?_⟩
    rintro hint ⟨_, _, _, _, e, _⟩
    simp only [hl] at e
    cases e
  | some lbl =>
    simp only
    have hget := incoming_preds hnd lbl.1
    simp only at hget
    rw [bodies_incoming h hix fb h1, hget]
    by_cases hp : predsOf fb.basicBlocks lbl.1 = []
    · left
      rw [if_pos hp]
      refine ⟨rfl, ?_⟩
      rintro hint ⟨lbl', colon, preds, links, e1, _, _, ⟨blks, e2, e3, e4⟩, e5, _⟩
      simp only [hl] at e1
      cases e1
      refine (predsOf_ne_nil.mpr ?_) hp
      cases hps : preds with
      | nil => exact absurd hps e5
      | cons q qs =>
        rw [hps] at e3
        cases hbs : blks with
        | nil => rw [hbs] at e3; cases e3
        | cons blk' rest =>
          rw [hbs] at e2 e3 e4
          simp only [List.map_cons, List.cons.injEq] at e3
          have hm : blk' ∈ fb.basicBlocks := e2.subset (by simp)
          exact ⟨q.1, blk', hm, ⟨q.2, e3.1⟩, ((e4 blk' hm).mp (by simp)).2⟩
    · right
      rw [if_neg hp]
      simp only
      obtain ⟨kw, sig, body, hm, e⟩ := docFuncs_mem hf
      simp only [Prod.mk.injEq] at e
      obtain ⟨colon, hc, htok⟩ := (block_tokens h hm (by rw [← e.2.2]; exact hb)).1.colon lbl hl
      rw [hc]
      simp only
      obtain ⟨p, hp1, _⟩ := tokenEnd_pos h hsize htok (by simp)
      simp only at hp1
      rw [hp1]
      have hrng : ∀ q ∈ predsOf fb.basicBlocks lbl.1, ∃ r, rangeToLsp text q.2 = some r := by
        intro q hq
        unfold predsOf at hq
        obtain ⟨b', h1, h2⟩ := List.mem_filterMap.mp hq
        split at h2
        · exact token_rangeToLsp h hsize (label_token h hf h1 h2)
        · cases h2
      obtain ⟨links, h5, h6⟩ := incomingParts_shown (uri := uri) hsize 0 hrng
      exact ⟨_, rfl, lbl, colon, _, links, hl, hc, (offsetToLspPos_shown hsize).mp hp1, predecessors_predsOf _ _, hp, h5, h6⟩

theorem ends_shown (h : parseFromStr text = .ok res) (hsize : text.length < 2 ^ 32) {doc : AnalyzedDocument} (hr : doc.rope = text)
    (hix : createIndex text res.tokens res.stmts = .ok doc.index) : Each (EndHint uri text) (docFuncs res.stmts) (endHints uri doc) := by
  rw [← bodies_eq h hix]
  unfold endHints
  rw [hr]
  refine Each.map_left _ (each_filterMap_total ?_)
  intro fb hfb
  have hf := bodies_mem h hix hfb
  obtain ⟨_, _, c, hc, hce, _⟩ := func_tokens h hf
  obtain ⟨p, hp1, _⟩ := tokenEnd_pos h hsize hc (by simp)
  obtain ⟨r, hr1, _⟩ := func_name_range h hsize hf
  simp only at hce hp1 hr1
  rw [← hce] at hp1
  simp only [hp1, hr1, Option.map_some]
  exact ⟨_, rfl, r, (offsetToLspPos_shown hsize).mp hp1, (rangeToLsp_shown hsize).mp hr1, rfl⟩

omit [Unicode] in
theorem parseFrame_found {fs : FileSystem} {roots : List Url} {j : Json} (hr : ∀ r ∈ roots, Opaque r ∨ Folder r)
    (ht : ∀ l file n, IsLink j l → FileLine l file n → NoTabs file) {f : Frame} (h : parseFrame fs roots j = .ok f) :
    FrameOf j f ∧ ∀ u, f.resolvedFilepath = some u ↔ ∃ file, f.filepath = some file ∧ FoundAt fs roots file u := by
  have hf := (parseFrame_total hr ht).1 f h
  refine ⟨hf, ?_⟩
  intro u
  cases hp : f.filepath with
  | none =>
    rw [(hf.2.2 hp).2.1]
    simp
  | some file =>
    obtain ⟨l, h1, h2⟩ := hf.2.1 file hp
    rw [← eq_comm] at hp
    simp only [Option.some.injEq, exists_eq_left']
    rw [← resolve_found hr (ht l file _ h1 h2)]
    unfold parseFrame at h
    simp only at h
    generalize (j.item 1).bind Json.asStr = lk at h
    cases hfl : lk.bind parseFileLine with
    | none =>
      rw [hfl] at h
      cases h
      cases hp
    | some q =>
      rw [hfl] at h
      simp only at h
      cases hres : resolveRelativePath fs roots q.1 with
      | panic => rw [hres] at h; cases h
      | ok x =>
        rw [hres] at h
        cases h
        simp only [Option.map_some, Option.some.injEq] at hp
        subst hp
        rw [hres]
        simp

theorem trace_shown (hreg : Regular env st) (hk : Known st uri text res) (hsize : text.length < 2 ^ 32) {doc : AnalyzedDocument}
    (hst : st.docs.get? uri = some doc) {i : Instruction} (hi : i ∈ instructions res.stmts) {hs : List InlayHint}
    (h : backtraceHint env st.roots doc i = .ok hs) :
    (hs = [] ∧ ∀ hint, ¬ TraceHint env st.roots text res.stmts i hint) ∨ ∃ hint, hs = [hint] ∧ TraceHint env st.roots text res.stmts i hint := by
  obtain ⟨doc', hst', hrope, hstmts, hix⟩ := opened_inv hk.1 hk.2
  rw [hst] at hst'
  cases hst'
  have hcut : ∀ name v, doc.index.dbgAnnotationValues.get? name = some v ↔ CutText text res.stmts name v := by
    intro name v
    rw [createIndex_vals hix, lastText_cut (annotationValue_of_createIndex hix)]
  unfold backtraceHint at h
  cases hd : i.dbgRef with
  | none =>
    rw [hd] at h
    cases h
    refine .inl ⟨rfl, ?_⟩
    rintro hint ⟨_, _, _, _, _, e, _⟩
    rw [hd] at e
    cases e
  | some ref =>
    rw [hd] at h
    simp only at h
    cases hv : doc.index.dbgAnnotationValues.get? ref.1 with
    | none =>
      rw [hv] at h
      cases h
      refine .inl ⟨rfl, ?_⟩
      rintro hint ⟨_, v, _, _, _, e, e2, _⟩
      rw [hd] at e
      cases e
      rw [(hcut _ _).mpr e2] at hv
      cases hv
    | some v =>
      rw [hv] at h
      simp only at h
      cases hj : env.json v with
      | none =>
        rw [hj] at h
        cases h
        refine .inl ⟨rfl, ?_⟩
        rintro hint ⟨_, v', _, _, _, e, e2, e3, _⟩
        rw [hd] at e
        cases e
        rw [(hcut _ _).mpr e2] at hv
        cases hv
        rw [hj] at e3
        cases e3
      | some j =>
        rw [hj] at h
        simp only at h
        unfold parseBacktraceFromJson at h
        cases hb : (j.field c!"backtrace").bind Json.asArray with
        | none =>
          rw [hb] at h
          cases h
          refine .inl ⟨rfl, ?_⟩
          rintro hint ⟨_, v', j', l, _, e, e2, e3, e4, _⟩
          rw [hd] at e
          cases e
          rw [(hcut _ _).mpr e2] at hv
          cases hv
          rw [hj] at e3
          cases e3
          rw [hasBacktrace_iff.mpr e4] at hb
          cases hb
        | some l =>
          have hl := hasBacktrace_iff.mp hb
          rw [hb] at h
          simp only at h
          cases hm : mapO (parseFrame env.fs st.roots) l with
          | panic => rw [hm] at h; cases h
          | ok frames =>
            rw [hm] at h
            simp only at h
            have hframes : FramesFound env.fs st.roots l frames := (mapO_total (fun e he f hf => parseFrame_found hreg.folders
              (fun lk file n h1 h2 => hreg.links v j l e lk file n hj hl he h1 h2) hf)).1 frames hm
            obtain ⟨pos, hpos, _⟩ := tokenEnd_pos hk.2 hsize (instr_dbgRef hk.2 i hi ref hd) (by simp)
            simp only at hpos
            rw [hrope, hpos] at h
            simp only at h
            rcases inlayHintForBacktrace_spec pos frames with ⟨hint, e1, e2, e3⟩ | ⟨e1, _⟩
            · rw [e1] at h
              cases h
              exact .inr ⟨hint, rfl, ref, v, j, l, frames, hd, (hcut _ _).mp hv, hj, hl, hframes,
                by rw [e2]; exact (offsetToLspPos_shown hsize).mp hpos, e3⟩
            · rw [e1] at h
              cases h

theorem traces_shown (hreg : Regular env st) (hk : Known st uri text res) (hsize : text.length < 2 ^ 32) {doc : AnalyzedDocument}
    (hst : st.docs.get? uri = some doc) {bt : List InlayHint} (h : backtraceHints env st.roots doc = .ok bt) :
    Picks (TraceHint env st.roots text res.stmts) (instructions res.stmts) bt := by
  obtain ⟨doc', hst', hrope, hstmts, hix⟩ := opened_inv hk.1 hk.2
  rw [hst] at hst'
  cases hst'
  unfold backtraceHints at h
  rw [hstmts, allInstructions_eq] at h
  have key : ∀ (is : List Instruction) (bt : List InlayHint), (∀ i ∈ is, i ∈ instructions res.stmts) →
      collectO (backtraceHint env st.roots doc) is = .ok bt → Picks (TraceHint env st.roots text res.stmts) is bt := by
    intro is
    induction is with
    | nil =>
      intro bt _ h
      cases h
      exact .nil
    | cons i is ih =>
      intro bt hsub h
      rw [collectO] at h
      cases h1 : backtraceHint env st.roots doc i with
      | panic => rw [h1] at h; cases h
      | ok hs =>
        rw [h1] at h
        simp only at h
        cases h2 : collectO (backtraceHint env st.roots doc) is with
        | panic => rw [h2] at h; cases h
        | ok rest =>
          rw [h2] at h
          cases h
          have ih := ih rest (fun j hj => hsub j (by simp [hj])) h2
          rcases trace_shown hreg hk hsize hst (hsub i (by simp)) h1 with ⟨rfl, e⟩ | ⟨hint, rfl, e⟩
          · exact .skip e ih
          · exact .take e ih
  exact key _ _ (fun _ h => h) h

/-! ### Lenses and the command -/

theorem lenses_shown (hk : Known st uri text res) (hsize : text.length < 2 ^ 32) {lenses : List CodeLens}
    (h : codeLens env st uri = some lenses) : Lensed uri text res.stmts lenses := by
  obtain ⟨funcs, h1, h2, h3⟩ := lenses_raw hk.1 hk.2 hsize h
  refine ⟨funcs, h1, h2, Each.imp h3 ?_⟩
  rintro f _ lens _ ⟨⟨e1, e2, e3⟩, _⟩
  exact ⟨(rangeToLsp_shown hsize).mp e1, e2, e3⟩

omit [Unicode] in
theorem firstFunction_of {ss : List Statement} {name : Str} {f : Spanned Str × Span × List BasicBlock}
    (h : (docFuncs ss).find? (fun f => decide (f.1.1 = name)) = some f) : FirstFunction ss name f.2.2 := by
  obtain ⟨h1, before, after, h2, h3⟩ := List.find?_eq_some_iff_append.mp h
  exact ⟨before, f, after, h2, by simpa using h1, rfl, fun f' hf' => by simpa using h3 f' hf'⟩

theorem command_shown (hall : AllOpened st) {c : Str} {args : List Json} {r : Except RpcError ShowGraph} (h : executeCommand st c args = r) :
    Displays env st (.executeCommand c args) (replyOf .graph r) := by
  unfold executeCommand at h
  split at h
  · rename_i u func hc
    rw [decide_eq_true_eq] at hc
    subst hc
    cases hd : st.docs.get? u with
    | none =>
      rw [hd] at h
      subst h
      exact .inl ⟨u, func, rfl, rfl, unknown_of hd, rfl⟩
    | some doc =>
      obtain ⟨text, res, hk⟩ := known_of hall hd
      obtain ⟨doc', hst', hrope, _, hix⟩ := opened_inv hk.1 hk.2
      rw [hd] at hst' h
      cases hst'
      simp only at h
      have hfind : (docFuncs res.stmts).find? (fun f => decide (f.1.1 = func)) =
          (doc.index.functionBodies.find? (fun b => decide (b.name.1 = func))).map fun b => (b.name, b.completeRange, b.basicBlocks) := by
        rw [← bodies_eq hk.2 hix, find?_map_of]
        rfl
      cases hf : doc.index.functionBodies.find? (fun b => decide (b.name.1 = func)) with
      | none =>
        rw [hf] at h hfind
        subst h
        refine .inr (.inl ⟨u, func, text, res, rfl, rfl, hk, ?_, rfl⟩)
        rintro blocks ⟨before, f, after, e1, e2, _⟩
        rw [Option.map_none, List.find?_eq_none] at hfind
        have := hfind f (by rw [e1]; simp)
        simp [e2] at this
      | some fb =>
        rw [hf] at h hfind
        subst h
        exact ⟨u, func, text, res, fb.basicBlocks, rfl, rfl, hk, firstFunction_of hfind, rfl,
          renders hk.2 (bodies_mem hk.2 hix (List.mem_of_find?_eq_some hf))⟩
  · rename_i hn
    subst h
    refine .inr (.inr ⟨?_, rfl⟩)
    rintro u name ⟨rfl, rfl⟩
    exact hn u name (by simp) rfl

/-! ### Diagnostics -/

omit [Unicode] in
theorem joinWith_commaList : ∀ l : List Str, joinWith c!", " l = commaList l
  | [] => rfl
  | [_] => rfl
  | a :: b :: l => by
    rw [joinWith, joinWith_commaList (b :: l)]
    rfl

omit [Unicode] in
theorem errorText (e : SErr) : ErrorText e (errorMessage e) := by
  unfold errorMessage
  cases hr : e.reason with
  | custom m => exact .inl hr
  | unexpected =>
    right
    refine ⟨hr, _, _, e.expected.map fun x => match x with | some t => t | none => c!"end of input", e.expected, ?_, List.Perm.refl _, ?_, ?_, rfl⟩
    · cases hf : e.found with
      | none => exact .inl ⟨rfl, rfl⟩
      | some _ => exact .inr ⟨by simp, rfl⟩
    · generalize e.expected = l
      induction l with
      | nil => exact .nil
      | cons x l ih =>
        refine .cons ?_ ih
        cases x with
        | none => exact .inl ⟨rfl, rfl⟩
        | some t => exact .inr rfl
    · cases e.expected with
      | nil => exact .inl ⟨rfl, rfl⟩
      | cons x l => exact .inr ⟨by simp, joinWith_commaList _⟩

theorem diagnosed {v : Int} {pub : Publish} (hsize : text.length < 2 ^ 32) (h : parseFromStr text = .ok res)
    (hc : onChange env st uri v text = .ok (st', pub)) : Diagnosed uri text res pub.diagnostics := by
  obtain ⟨ix, hix, hd⟩ := publish_inv h hc
  have hpairs : ∀ {l : List (SymbolOccurrence × Diagnostic)} {R : SymbolOccurrence → Diagnostic → Prop}, (∀ x ∈ l, R x.1 x.2) →
      Each R (l.map Prod.fst) (l.map Prod.snd) := fun hx => each_map _ _ hx
  refine ⟨_, _, _, _, _, _, _, hd, diagnosticsFromIndex_perm .., ?_, ?_, undef_nodup h hix env.ord, ?_, ?_, dup_nodup h hix env.ord uri, ?_, ?_⟩
  · unfold diagnosticsFromParser
    refine picks_filterMap ?_
    intro e _
    cases hr : rangeToLsp text e.span with
    | none =>
      refine .inl ⟨rfl, ?_⟩
      rintro d ⟨h1, _⟩
      rw [(rangeToLsp_shown hsize).mpr h1] at hr
      cases hr
    | some r => exact .inr ⟨_, rfl, (rangeToLsp_shown hsize).mp hr, errorText e, rfl⟩
  · unfold diagnosticsFromStatements
    rw [allInstructions_eq]
    refine picks_filterMap ?_
    intro i hi
    have htok : identTok i.instruction ∈ res.tokens :=
      (((instructions_sublist res.stmts).trans (mentions_sublist h)).trans List.filter_sublist).subset
        (List.mem_map.mpr ⟨i, hi, rfl⟩)
    obtain ⟨r, hr⟩ := token_rangeToLsp h hsize htok
    simp only [identTok] at hr
    unfold diagnoseInstruction
    by_cases hl : LacksTargets i
    · rw [if_pos ((lacksTargets_iff i).mpr hl), hr]
      exact .inr ⟨_, rfl, hl, (rangeToLsp_shown hsize).mp hr, rfl, rfl⟩
    · rw [if_neg fun hn => hl ((lacksTargets_iff i).mp hn)]
      exact .inl ⟨rfl, fun d hd => hl hd.1⟩
  · intro o
    rw [List.mem_map]
    constructor
    · rintro ⟨⟨o', d⟩, h1, rfl⟩
      exact ((undef_mem h hix hsize env.ord _ _).mp h1).1
    · intro hu
      obtain ⟨r, hr⟩ := occurs_rangeToLsp h hsize hu.1
      exact ⟨(o, { range := r, message := undefinedMessage o.name }),
        (undef_mem h hix hsize env.ord _ _).mpr ⟨hu, rfl, rfl, hr⟩, rfl⟩
  · refine hpairs ?_
    rintro ⟨o, d⟩ hr
    obtain ⟨h1, h2, h3, h4⟩ := (undef_mem h hix hsize env.ord _ _).mp hr
    exact ⟨(rangeToLsp_shown hsize).mp h4, h2, h3⟩
  · intro o
    rw [List.mem_map]
    constructor
    · rintro ⟨⟨o', d⟩, h1, rfl⟩
      exact ((dup_mem h hix hsize env.ord uri _ _).mp h1).1
    · intro hu
      obtain ⟨r, hr⟩ := occurs_rangeToLsp h hsize hu.1
      obtain ⟨first, hf⟩ := firstDef_exists h hix hu.1 hu.2.1
      obtain ⟨r0, hr0⟩ := occurs_rangeToLsp h hsize hf.1.1
      exact ⟨(o, { range := r, message := duplicateMessage o.name, related := [(⟨uri, r0⟩, c!"Previously defined here")] }),
        (dup_mem h hix hsize env.ord uri _ _).mpr ⟨hu, rfl, hr, first, r0, hf, hr0, rfl⟩, rfl⟩
  · refine hpairs ?_
    rintro ⟨o, d⟩ hr
    obtain ⟨h1, h2, h4, first, r0, h5, h6, h7⟩ := (dup_mem h hix hsize env.ord uri _ _).mp hr
    exact ⟨(rangeToLsp_shown hsize).mp h4, h2, first, r0, h5, (rangeToLsp_shown hsize).mp h6, h7⟩

/-! ### The state -/

theorem changed {u t : Str} {v : Int} {pub : Publish} (hc : onChange env st u v t = .ok (st', pub)) :
    TextSet st u t st' ∧ pub.uri = u ∧ pub.version = v ∧ ∃ res, parseFromStr t = .ok res ∧ (t.length < 2 ^ 32 → Diagnosed u t res pub.diagnostics) := by
  obtain ⟨res, hres⟩ := parseFromStr_total t
  have hdiag := fun hsize => diagnosed hsize hres hc
  unfold onChange at hc
  cases ha : analyze t with
  | panic => rw [ha] at hc; cases hc
  | ok d =>
    obtain ⟨doc, errs⟩ := d
    rw [ha] at hc
    cases hc
    have hopen : Opened { st with docs := st.docs.insert u doc } u t := ⟨doc, errs, ha, by rw [get?_insert, if_pos rfl]⟩
    refine ⟨⟨rfl, rfl, hopen, ?_, ?_⟩, rfl, rfl, res, hres, hdiag⟩
    · intro t' ht'
      obtain ⟨res', hres'⟩ := parseFromStr_total t'
      exact (known_unique ⟨hopen, hres⟩ ⟨ht', hres'⟩).1
    · intro u' hne t'
      unfold Opened
      rw [get?_insert, if_neg (Ne.symm hne)]

omit [Unicode] in
theorem resolves_iff (p : InitializeParams) : supportsLazyResolve p = true ↔ ResolvesActions p := by
  unfold supportsLazyResolve ResolvesActions
  cases h : p.codeAction with
  | none => simp
  | some x =>
    obtain ⟨props, data⟩ := x
    cases props <;> cases data <;> simp
    rename_i l b
    constructor
    · rintro ⟨h1, rfl⟩
      exact ⟨l, ⟨rfl, rfl⟩, h1⟩
    · rintro ⟨_, ⟨rfl, rfl⟩, h1⟩
      exact ⟨h1, rfl⟩

end
end HyperIR
