import Verif.Proofs.Kept
import Verif.Props.Outline

/- What renames do to the outline, the folding ranges and the graphs of a document. -/

namespace HyperIR
open Spec

theorem filterMap_aligned {α β γ : Type} {f : α → Option γ} {g : β → Option γ} : ∀ {as : List α} {bs : List β}, as.length = bs.length →
    (∀ (i : Nat) a b, as[i]? = some a → bs[i]? = some b → f a = g b) → as.filterMap f = bs.filterMap g
  | [], [], _, _ => rfl
  | a :: as, b :: bs, hl, h => by
    have h0 := h 0 a b rfl rfl
    have ih := filterMap_aligned (f := f) (g := g) (as := as) (bs := bs) (by simpa using hl)
      fun i x y hx hy => h (i + 1) x y (by simpa using hx) (by simpa using hy)
    simp only [List.filterMap_cons, h0, ih]

theorem nodup_length {α : Type} {P : α → Prop} {u v : α → Str} {l l' : List Str} (hl : l.Nodup) (hl' : l'.Nodup)
    (h : ∀ n, n ∈ l ↔ ∃ o, P o ∧ u o = n) (h' : ∀ n, n ∈ l' ↔ ∃ o, P o ∧ v o = n) (huv : ∀ a b, P a → P b → (u a = u b ↔ v a = v b)) :
    l.length = l'.length := by
  classical
  let g : Str → Str := fun n => if hn : ∃ o, P o ∧ u o = n then v hn.choose else []
  have hg : ∀ o, P o → g (u o) = v o := by
    intro o ho
    have hex : ∃ o', P o' ∧ u o' = u o := ⟨o, ho, rfl⟩
    simp only [g, dif_pos hex]
    exact (huv _ _ hex.choose_spec.1 ho).mp hex.choose_spec.2
  have hperm : (l.map g).Perm l' := by
    refine (List.perm_ext_iff_of_nodup ?_ hl').mpr ?_
    · rw [List.Nodup, List.pairwise_map]
      refine List.Pairwise.imp_of_mem ?_ hl
      intro a b ha hb hab he
      obtain ⟨o1, p1, rfl⟩ := (h a).mp ha
      obtain ⟨o2, p2, rfl⟩ := (h b).mp hb
      rw [hg _ p1, hg _ p2] at he
      exact hab ((huv _ _ p1 p2).mpr he)
    · intro n
      rw [h', List.mem_map]
      constructor
      · rintro ⟨m, hm, rfl⟩
        obtain ⟨o, ho, rfl⟩ := (h m).mp hm
        exact ⟨o, ho, (hg o ho).symm⟩
      · rintro ⟨o, ho, rfl⟩
        exact ⟨u o, (h _).mpr ⟨o, ho, rfl⟩, hg o ho⟩
  have := hperm.length_eq
  simpa using this

section
variable [Unicode] {G : Renaming} {text text' : Str} {res res' : ParserResult} {R : SymbolOccurrence → Str → Prop}

/-! ### Folding ranges -/

theorem foldOf_kept (hG : Carried G text text' res res') (h : parseFromStr text = .ok res) (h' : parseFromStr text' = .ok res')
    (hsize : text.length < 2 ^ 32) (hsize' : text'.length < 2 ^ 32) {sp : Span} (h1 : sp.start ≤ text.length) (h2 : sp.stop ≤ text.length) (s : Str) :
    foldOf text' (G.span sp) s = foldOf text sp s := by
  obtain ⟨r, r', e, e', l1, l2⟩ := rangeToLsp_kept hG h h' hsize hsize' h1 h2
  unfold foldOf
  rw [e, e']
  simp only [Option.map_some, l1, l2]

/-- Functions and their blocks lie inside the text. -/
theorem func_inside (h : parseFromStr text = .ok res) {f : Spanned Str × Span × List BasicBlock} (hf : f ∈ docFuncs res.stmts) :
    (f.2.1.start ≤ text.length ∧ f.2.1.stop ≤ text.length) ∧ ∀ blk ∈ f.2.2, blk.span.start ≤ text.length ∧ blk.span.stop ≤ text.length := by
  obtain ⟨n, sp, blocks⟩ := f
  obtain ⟨_, ⟨k, hk, k1, k2⟩, c, hc, c1, c2⟩ := func_tokens h hf
  have i2 := (C02_token_spans h).1 _ hk
  have i3 := (C02_token_spans h).1 _ hc
  simp only [Inside] at i2 i3
  simp only at k1 k2 c1 c2
  refine ⟨⟨by simp only; omega, by simp only; omega⟩, ?_⟩
  intro blk hblk
  obtain ⟨kw, sig, body, hd, e⟩ := docFuncs_mem hf
  simp only [Prod.mk.injEq] at e
  have hblk' : blk ∈ body.basicBlocks := by rw [← e.2.2]; exact hblk
  obtain ⟨hends, t', ht', ht'c, ht's⟩ := block_tokens h hd hblk'
  obtain ⟨t, ht, htn, hts⟩ := hends.start
  have i4 := (C02_token_spans h).1 _ ht'
  have i5 := (C02_token_spans h).1 _ ht
  simp only [Inside] at i4 i5
  omega

variable {ix ix' : HIRIndex}

theorem bodies_kept (hG : Carried G text text' res res') (h : parseFromStr text = .ok res) (h' : parseFromStr text' = .ok res')
    (hix : createIndex text res.tokens res.stmts = .ok ix) (hix' : createIndex text' res'.tokens res'.stmts = .ok ix') :
    ix'.functionBodies.map (fun b => (b.name, b.completeRange, b.basicBlocks)) =
      ix.functionBodies.map fun b => (G.name .globalName b.name, G.span b.completeRange, b.basicBlocks.map G.block) := by
  rw [bodies_eq h' hix', hG.stmts, docFuncs_ren, ← bodies_eq h hix, List.map_map]
  rfl

/-- The labels of a function are renamed one to one. -/
theorem labels_kept (hG : Carried G text text' res res') (hm : Keeps res res' R G.occ) (h : parseFromStr text = .ok res) (h' : parseFromStr text' = .ok res')
    (hix : createIndex text res.tokens res.stmts = .ok ix) (hix' : createIndex text' res'.tokens res'.stmts = .ok ix') {j : Nat} {b b' : FunctionBody}
    (hb : ix.functionBodies[j]? = some b) (hb' : ix'.functionBodies[j]? = some b') : b'.labels.length = b.labels.length := by
  obtain ⟨l1, l2⟩ := labels_names h hix (List.mem_of_getElem? hb)
  obtain ⟨l1', l2'⟩ := labels_names h' hix' (List.mem_of_getElem? hb')
  have hf : (docFuncs res.stmts)[j]? = some (b.name, b.completeRange, b.basicBlocks) := by rw [← bodies_eq h hix, List.getElem?_map, hb]; rfl
  have hf' : (docFuncs res'.stmts)[j]? = some (b'.name, b'.completeRange, b'.basicBlocks) := by rw [← bodies_eq h' hix', List.getElem?_map, hb']; rfl
  have hd : ∀ n, n ∈ b.labels.map Prod.fst ↔ ∃ o, (o ∈ docOccs 0 res.stmts ∧ o.symbolKind = .label ∧ o.funcBodyId = some j) ∧ o.name = n := by
    intro n
    rw [l2]
    have := docOccs_label (n := n) (j := j) (ss := res.stmts) 0
    rw [hf] at this
    simp only [Option.some.injEq, exists_eq_left', Nat.zero_add] at this
    rw [← this]
    simp only [and_assoc]
  have hd' : ∀ n, n ∈ b'.labels.map Prod.fst ↔
      ∃ o, (o ∈ docOccs 0 res.stmts ∧ o.symbolKind = .label ∧ o.funcBodyId = some j) ∧ (G.occ o).name = n := by
    intro n
    rw [l2']
    have := docOccs_label (n := n) (j := j) (ss := res'.stmts) 0
    rw [hf'] at this
    simp only [Option.some.injEq, exists_eq_left', Nat.zero_add] at this
    rw [← this, hG.stmts, docOccs_ren]
    constructor
    · rintro ⟨_, hm, a⟩
      obtain ⟨o, ho, rfl⟩ := List.mem_map.mp hm
      exact ⟨o, ⟨ho, a.1, a.2.1⟩, a.2.2⟩
    · rintro ⟨o, ⟨ho, a, b⟩, c⟩
      exact ⟨_, List.mem_map_of_mem ho, a, b, c⟩
  have := nodup_length l1 l1' hd hd' (by
    rintro a b ⟨ha, ka, fa⟩ ⟨hb, kb, fb⟩
    have := (hm.same a b (.inl ha) (.inl hb)).1
    constructor
    · intro e
      exact (this.mpr ⟨ka.trans kb.symm, fa.trans fb.symm, e⟩).2.2
    · intro e
      exact (this.mp ⟨ka.trans kb.symm, fa.trans fb.symm, e⟩).2.2)
  simpa using this.symm

/-- Renames keep the folding ranges. -/
theorem folds_kept (hG : Carried G text text' res res') (hm : Keeps res res' R G.occ) (h : parseFromStr text = .ok res) (h' : parseFromStr text' = .ok res')
    (hsize : text.length < 2 ^ 32) (hsize' : text'.length < 2 ^ 32) {st st' : ServerState} {uri uri' : Str} (hopen : Opened st uri text)
    (hopen' : Opened st' uri' text') : foldingRange st' uri' = foldingRange st uri := by
  obtain ⟨doc, hst, hr, _, hix⟩ := opened_inv hopen h
  obtain ⟨doc', hst', hr', _, hix'⟩ := opened_inv hopen' h'
  unfold foldingRange
  rw [hst, hst']
  simp only [Option.map_some, Option.some.injEq]
  unfold foldsOf
  rw [hr, hr']
  have hbk := bodies_kept hG h h' hix hix'
  have hlen : doc'.index.functionBodies.length = doc.index.functionBodies.length := by
    have := congrArg List.length hbk
    simpa using this
  have hget : ∀ (i : Nat) (b' b : FunctionBody), doc'.index.functionBodies[i]? = some b' → doc.index.functionBodies[i]? = some b →
      b'.completeRange = G.span b.completeRange ∧ b'.basicBlocks = b.basicBlocks.map G.block := by
    intro i b' b hb' hb
    have := congrArg (·[i]?) hbk
    simp only [List.getElem?_map, hb, hb', Option.map_some, Option.some.injEq, Prod.mk.injEq] at this
    exact this.2
  congr 1
  · refine filterMap_aligned hlen ?_
    intro i b' b hb' hb
    rw [(hget i b' b hb' hb).1, labels_kept hG hm h h' hix hix' hb hb']
    have := (func_inside h (bodies_mem h hix (List.mem_of_getElem? hb))).1
    exact foldOf_kept hG h h' hsize hsize' this.1 this.2 _
  · have e : doc'.index.functionBodies.flatMap FunctionBody.basicBlocks = (doc.index.functionBodies.flatMap FunctionBody.basicBlocks).map G.block := by
      have := congrArg (List.flatMap fun x : Spanned Str × Span × List BasicBlock => x.2.2) hbk
      rw [List.flatMap_map, List.flatMap_map] at this
      rw [List.map_flatMap]
      exact this
    rw [e, List.filterMap_map]
    refine filterMap_congr' ?_
    intro blk hblk
    obtain ⟨b, hb, hbl⟩ := List.mem_flatMap.mp hblk
    have := (func_inside h (bodies_mem h hix hb)).2 blk hbl
    simp only [Function.comp]
    rw [show (G.block blk).instructions.length = blk.instructions.length by simp [Renaming.block]]
    exact foldOf_kept hG h h' hsize hsize' this.1 this.2 _

/-! ### The outline -/

omit [Unicode] in
theorem docGlobals_ren : ∀ {ss : List Statement}, docGlobals (ss.map G.stmt) = (docGlobals ss).map (G.name .globalName)
  | [] => rfl
  | s :: ss => by cases s <;> simp only [List.map_cons, docGlobals, Renaming.stmt, docGlobals_ren (ss := ss)]

omit [Unicode] in
theorem each_zip {α β : Type} {S : α → β → Prop} {as : List α} {bs : List β} (h : Each S as bs) :
    ∃ ps : List (α × β), ps.map Prod.fst = as ∧ ps.map Prod.snd = bs ∧ ∀ p ∈ ps, S p.1 p.2 := by
  induction h with
  | nil => exact ⟨[], rfl, rfl, by simp⟩
  | @cons a b as bs h _ ih =>
    obtain ⟨ps, h1, h2, h3⟩ := ih
    refine ⟨(a, b) :: ps, by simp [h1], by simp [h2], ?_⟩
    intro p hp
    rcases List.mem_cons.mp hp with rfl | hp
    · exact h
    · exact h3 p hp

omit [Unicode] in
/-- What an occurrence is called. -/
theorem Keeps.calledAfter {m : SymbolOccurrence → SymbolOccurrence} (hm : Keeps res res' R m) {o : SymbolOccurrence}
    (ho : Occurs res.tokens res.stmts o) : CalledAfter R o (m o).name := by
  by_cases hv : ∃ v, R o v
  · obtain ⟨v, hv⟩ := hv
    left
    rw [(hm.name o ho).1 v hv]
    exact hv
  · have hv' : ∀ v, ¬ R o v := fun v hr => hv ⟨v, hr⟩
    exact .inr ⟨hv', (hm.name o ho).2 hv'⟩

omit [Unicode] in
theorem docFuncs_occurs {f : Spanned Str × Span × List BasicBlock} {ss : List Statement} (hf : f ∈ docFuncs ss) :
    ∀ i, Spec.occ .function .def_ none f.1 ∈ docOccs i ss := by
  induction ss with
  | nil => cases hf
  | cons s ss ih =>
    intro i
    rw [docOccs, List.mem_append]
    cases s with
    | funcDef k sig body =>
      rcases List.mem_cons.mp hf with rfl | hf
      · left; simp [stmtOccs]
      · exact .inr (ih hf _)
    | _ => exact .inr (ih hf _)

/-- Renames keep the outline. -/
theorem outline_kept (hG : Carried G text text' res res') (hm : Keeps res res' R G.occ) (h : parseFromStr text = .ok res) (h' : parseFromStr text' = .ok res')
    (hsize : text.length < 2 ^ 32) (hsize' : text'.length < 2 ^ 32) {st st' : ServerState} {uri uri' : Str} (hopen : Opened st uri text)
    (hopen' : Opened st' uri' text') {env env' : Env} {syms syms' : List DocumentSymbol} (hs : documentSymbol env st uri = some syms)
    (hs' : documentSymbol env' st' uri' = some syms') : OutlineKept text res R syms syms' := by
  obtain ⟨gs, fs, ns, e, hn, hg, hf⟩ := outline_entries hopen h hsize hs
  obtain ⟨gs', fs', ns', e', hn', hg', hf'⟩ := outline_entries hopen' h' hsize' hs'
  rw [hG.stmts, docGlobals_ren] at hn'
  rw [hG.stmts, docFuncs_ren] at hf'
  obtain ⟨z, z1, z2, z3⟩ := each_zip hg
  obtain ⟨z', z1', z2', z3'⟩ := each_zip hg'
  obtain ⟨y, y1, y2, y3⟩ := each_zip hf
  obtain ⟨y', y1', y2', y3'⟩ := each_zip hf'
  obtain ⟨pg, a1, b1, c1⟩ := pair_up (a := z) (b := z') (m := G.name .globalName) (by rw [z1, z1']; exact hn'.trans (hn.symm.map _))
  obtain ⟨pf, a2, b2, c2⟩ := pair_up (a := y) (b := y') (m := fun f => (G.name .globalName f.1, G.span f.2.1, f.2.2.map G.block))
    (by rw [y1, y1'])
  refine ⟨pg ++ pf, ?_, ?_, ?_⟩
  · rw [e, List.map_append, a1, a2, z2, y2]
  · rw [e', List.map_append, ← z2', ← y2']
    exact (b1.append b2).symm
  · intro p hp
    rcases List.mem_append.mp hp with hp | hp
    · obtain ⟨n, k, k'⟩ := c1 p hp
      obtain ⟨⟨n1, n2, _, n3⟩, q1, q2⟩ := z3 _ k
      obtain ⟨⟨n1', n2', _⟩, q1', q2'⟩ := z3' _ k'
      have hmem : n ∈ docGlobals res.stmts := by
        rw [← hn.mem_iff, ← z1]
        exact List.mem_map.mpr ⟨_, k, rfl⟩
      have hocc := (docOccs_global (ss := res.stmts) (o := Spec.occ .globalVar .def_ none n) 0).mpr ⟨n, hmem, rfl⟩
      have ho : Occurs res.tokens res.stmts (Spec.occ .globalVar .def_ none n) := .inl hocc.1
      have hin := (C02_token_spans h).1 _ (occurs_token h ho)
      rw [occTok_span] at hin
      simp only [Inside, Spec.occ] at hin
      refine ⟨by rw [n2, n2'], sameLines_of hG h h' hsize hsize' (by simp only; omega) (by simp only; omega) q1 q1',
        sameLines_of hG h h' hsize hsize' (by simp only; omega) (by simp only; omega) q2 q2', _, ho, rfl, fun hp => (n3 hp).2, n1, ?_⟩
      have := hm.calledAfter ho
      rw [← occ_occ (mk := .globalName) (fun _ => rfl)] at this
      rw [n1']
      exact this
    · obtain ⟨f, k, k'⟩ := c2 p hp
      obtain ⟨⟨n1, n2, _, n3⟩, q1, q2⟩ := y3 _ k
      obtain ⟨⟨n1', n2', _⟩, q1', q2'⟩ := y3' _ k'
      have hmem : f ∈ docFuncs res.stmts := by
        rw [← y1]
        exact List.mem_map.mpr ⟨_, k, rfl⟩
      have ho : Occurs res.tokens res.stmts (Spec.occ .function .def_ none f.1) := .inl (docFuncs_occurs hmem 0)
      have hin := (C02_token_spans h).1 _ (occurs_token h ho)
      rw [occTok_span] at hin
      simp only [Inside, Spec.occ] at hin
      have hfi := (func_inside h hmem).1
      have hname : PlainTo text f.1.2.stop → EditorRange text f.1.2 p.1.selectionRange := by
        intro hp
        obtain ⟨r, hr, he⟩ := func_name_range h hsize hmem
        rw [q2] at hr
        cases hr
        exact he hp
      refine ⟨by rw [n2, n2'], sameLines_of hG h h' hsize hsize' hfi.1 hfi.2 q1 q1',
        sameLines_of hG h h' hsize hsize' (by simp only; omega) (by simp only; omega) q2 q2', _, ho, rfl, hname, n1, ?_⟩
      have := hm.calledAfter ho
      rw [← occ_occ (mk := .globalName) (fun _ => rfl)] at this
      rw [n1']
      exact this

/-! ### Graphs -/

omit [Unicode] in
/-- Whether an instruction branches does not depend on names. -/
theorem isBranching_ren {i : Instruction} (h : G.ren (.ident i.instruction.1, i.instruction.2) = none) : (G.instr i).isBranching = i.isBranching := by
  unfold Instruction.isBranching
  rw [instr_ren i h]

/-- No name of an instruction of the blocks is replaced. -/
def Untouched (G : Renaming) (blocks : List BasicBlock) : Prop :=
  ∀ blk ∈ blocks, ∀ i ∈ blk.instructions, G.ren (.ident i.instruction.1, i.instruction.2) = none

theorem Carried.untouched (hG : Carried G text text' res res') {f : Spanned Str × Span × List BasicBlock} (hf : f ∈ docFuncs res.stmts) : Untouched G f.2.2 := by
  intro blk hblk i hi
  refine hG.mnemonics i ?_
  clear hG
  generalize res.stmts = ss at hf
  induction ss with
  | nil => cases hf
  | cons x ss ih =>
    unfold allInstructions at ih ⊢
    rw [List.flatMap_cons, List.mem_append]
    cases x with
    | funcDef k sig b =>
      rcases List.mem_cons.mp hf with rfl | hf
      · exact .inl (List.mem_flatMap.mpr ⟨blk, hblk, hi⟩)
      · exact .inr (ih hf)
    | _ => exact .inr (ih hf)

omit [Unicode] in
theorem cfgEdges_ren {b b' : FunctionBody} (hb : b'.basicBlocks = b.basicBlocks.map G.block) {label : Str → Str}
    (hl : ∀ blk ∈ b.basicBlocks, ∀ l, blk.label = some l → (G.name .ident l).1 = label l.1)
    (hr : ∀ blk ∈ b.basicBlocks, ∀ i ∈ blk.instructions, ∀ t ∈ i.basicBlockRefs, (G.name .ident t).1 = label t.1) (hu : Untouched G b.basicBlocks) :
    cfgEdges b' = (cfgEdges b).map fun e => (label e.1, label e.2) := by
  unfold cfgEdges
  rw [hb]
  refine flatMap_map_congr ?_
  intro blk hblk
  simp only [Renaming.block]
  refine flatMap_map_congr ?_
  intro i hi
  rw [isBranching_ren (hu blk hblk i hi)]
  split
  · cases hlb : blk.label with
    | none => simp
    | some l =>
      simp only [Option.map_some, Renaming.instr, List.map_map]
      refine List.map_congr_left ?_
      intro t ht
      simp only [Function.comp, Prod.mk.injEq]
      exact ⟨hl blk hblk l hlb, hr blk hblk i hi t ht⟩
  · rfl

omit [Unicode] in
/-- The labels of function number `j` and the branch targets in it are occurrences. -/
theorem docFuncs_labels {f : Spanned Str × Span × List BasicBlock} {ss : List Statement} : ∀ (i j : Nat), (docFuncs ss)[j]? = some f →
    ∀ blk ∈ f.2.2, (∀ l, blk.label = some l → Spec.occ .label .def_ (some (i + j)) l ∈ docOccs i ss) ∧
      ∀ ins ∈ blk.instructions, ∀ t ∈ ins.basicBlockRefs, Spec.occ .label .use (some (i + j)) t ∈ docOccs i ss := by
  induction ss with
  | nil => intro i j h; simp [docFuncs] at h
  | cons s ss ih =>
    intro i j h blk hblk
    rw [docOccs]
    simp only [List.mem_append]
    cases s with
    | funcDef k sig body =>
      simp only [docFuncs] at h
      cases j with
      | zero =>
        simp only [List.getElem?_cons_zero, Option.some.injEq] at h
        subst h
        simp only at hblk
        refine ⟨?_, ?_⟩
        · intro l hl
          left
          simp only [stmtOccs, funcOccs, List.mem_cons, List.mem_append, List.mem_flatMap, blockOccs, List.mem_map]
          exact .inr (.inr ⟨blk, hblk, .inl ⟨l, by simp [hl], rfl⟩⟩)
        · intro ins hins t ht
          left
          simp only [stmtOccs, funcOccs, List.mem_cons, List.mem_append, List.mem_flatMap, blockOccs, List.mem_map, instrOccs]
          exact .inr (.inr ⟨blk, hblk, .inr ⟨ins, hins, .inr ⟨t, ht, rfl⟩⟩⟩)
      | succ j =>
        rw [List.getElem?_cons_succ] at h
        have := ih (i + 1) j h blk hblk
        rw [show i + 1 + j = i + (j + 1) by omega] at this
        exact ⟨fun l hl => .inr (this.1 l hl), fun ins hi t ht => .inr (this.2 ins hi t ht)⟩
    | _ =>
      simp only [docFuncs] at h
      have := ih i j h blk hblk
      exact ⟨fun l hl => .inr (this.1 l hl), fun ins hi t ht => .inr (this.2 ins hi t ht)⟩

/-- Renames keep the graphs. -/
theorem graph_kept (hG : Carried G text text' res res') (hm : Keeps res res' R G.occ) (h : parseFromStr text = .ok res) (h' : parseFromStr text' = .ok res')
    {st st' : ServerState} {uri uri' : Str} (hopen : Opened st uri text) (hopen' : Opened st' uri' text') {name : Str} {g : ShowGraph}
    (hg : executeCommand st c!"visualize-cfg" [.str uri, .str name] = .ok g) :
    ∃ i f, (docFuncs res.stmts).findIdx? (fun f => decide (f.1.1 = name)) = some i ∧ (docFuncs res.stmts)[i]? = some f ∧
      ∀ name', CalledAfter R (Spec.occ .function .def_ none f.1) name' →
        ∃ g', executeCommand st' c!"visualize-cfg" [.str uri', .str name'] = .ok g' ∧ GraphKept res R i g.dotGraph g'.dotGraph := by
  classical
  obtain ⟨doc, hst, hr, _, hix⟩ := opened_inv hopen h
  obtain ⟨doc', hst', hr', _, hix'⟩ := opened_inv hopen' h'
  have hbk := bodies_kept hG h h' hix hix'
  have hlen : doc'.index.functionBodies.length = doc.index.functionBodies.length := by
    have := congrArg List.length hbk
    simpa using this
  have hget : ∀ (i : Nat) (b' b : FunctionBody), doc'.index.functionBodies[i]? = some b' → doc.index.functionBodies[i]? = some b →
      b'.name = G.name .globalName b.name ∧ b'.basicBlocks = b.basicBlocks.map G.block := by
    intro i b' b hb' hb
    have := congrArg (·[i]?) hbk
    simp only [List.getElem?_map, hb, hb', Option.map_some, Option.some.injEq, Prod.mk.injEq] at this
    exact ⟨this.1, this.2.2⟩
  have hdf : ∀ (i : Nat) b, doc.index.functionBodies[i]? = some b → (docFuncs res.stmts)[i]? = some (b.name, b.completeRange, b.basicBlocks) := by
    intro i b hb
    rw [← bodies_eq h hix, List.getElem?_map, hb]
    rfl
  unfold executeCommand at hg
  simp only [decide_true, hst] at hg
  cases hf : doc.index.functionBodies.find? (fun b => decide (b.name.1 = name)) with
  | none => rw [hf] at hg; cases hg
  | some fb =>
    rw [hf] at hg
    cases hg
    obtain ⟨hn, i, hi, hfi, hbefore⟩ := List.find?_eq_some_iff_getElem.mp hf
    simp only [decide_eq_true_eq] at hn
    have hb : doc.index.functionBodies[i]? = some fb := by rw [List.getElem?_eq_getElem hi, hfi]
    have hb' : doc'.index.functionBodies[i]? = some doc'.index.functionBodies[i] := List.getElem?_eq_getElem _
    refine ⟨i, _, ?_, hdf i fb hb, ?_⟩
    · rw [List.findIdx?_eq_some_iff_getElem]
      have hi' : i < (docFuncs res.stmts).length := by rw [← bodies_eq h hix]; simpa using hi
      have hgi : ∀ (j : Nat) (hj : j < (docFuncs res.stmts).length) (hj' : j < doc.index.functionBodies.length),
          (docFuncs res.stmts)[j].1.1 = doc.index.functionBodies[j].name.1 := by
        intro j hj hj'
        have := hdf j _ (List.getElem?_eq_getElem hj')
        rw [List.getElem?_eq_getElem hj] at this
        simp only [Option.some.injEq] at this
        rw [this]
      refine ⟨hi', ?_, ?_⟩
      · simp only [decide_eq_true_eq]
        rw [hgi i hi' hi, hfi, hn]
      · intro j hj
        have := hbefore j hj
        simp only [hgi j (by omega) (by omega)]
        simpa using this
    · intro name' hname'
      have ho : ∀ (j : Nat) b, doc.index.functionBodies[j]? = some b → Occurs res.tokens res.stmts (Spec.occ .function .def_ none b.name) :=
        fun j b hb => .inl (docFuncs_occurs (List.mem_of_getElem? (hdf j b hb)) 0)
      have hcall : name' = (G.occ (Spec.occ .function .def_ none fb.name)).name := by
        rcases hname' with hn | ⟨hn, e⟩
        · exact ((hm.name _ (ho i fb hb)).1 _ hn).symm
        · rw [(hm.name _ (ho i fb hb)).2 hn]
          exact e
      have hiff : ∀ (j : Nat) b b', doc.index.functionBodies[j]? = some b → doc'.index.functionBodies[j]? = some b' → (b'.name.1 = name' ↔ b.name.1 = name) := by
        intro j b b' hj hj'
        have hs := (hm.same _ _ (ho j b hj) (ho i fb hb)).1
        rw [(hget j b' b hj' hj).1, hcall]
        have e : (G.name .globalName b.name).1 = (G.occ (Spec.occ .function .def_ none b.name)).name := by
          rw [← occ_occ (mk := .globalName) (fun _ => rfl)]
          rfl
        rw [e, ← hn]
        exact ⟨fun he => (hs.mp ⟨rfl, rfl, he⟩).2.2, fun he => (hs.mpr ⟨rfl, rfl, he⟩).2.2⟩
      have hfind : doc'.index.functionBodies.find? (fun b => decide (b.name.1 = name')) = some doc'.index.functionBodies[i] := by
        rw [List.find?_eq_some_iff_getElem]
        refine ⟨by simpa using (hiff i _ _ hb hb').mpr hn, i, by omega, rfl, ?_⟩
        intro j hj
        have := hbefore j hj
        have hj1 : j < doc.index.functionBodies.length := by omega
        have hj2 : j < doc'.index.functionBodies.length := by omega
        have k := hiff j _ _ (List.getElem?_eq_getElem hj1) (List.getElem?_eq_getElem hj2)
        simp only [k]
        exact this
      unfold executeCommand
      simp only [decide_true, hst', hfind]
      refine ⟨_, rfl, ?_⟩
      let P : Str → SymbolOccurrence → Prop := fun n o =>
        Occurs res.tokens res.stmts o ∧ o.symbolKind = .label ∧ o.funcBodyId = some i ∧ o.name = n
      let label : Str → Str := fun n => if hx : ∃ o, P n o then (G.occ hx.choose).name else n
      have hlabel : ∀ o, P o.name o → label o.name = (G.occ o).name := by
        intro o hp
        have hx : ∃ o', P o.name o' := ⟨o, hp⟩
        simp only [label, dif_pos hx]
        obtain ⟨q1, q2, q3, q4⟩ := hx.choose_spec
        exact ((hm.same _ _ q1 hp.1).1.mpr ⟨q2.trans hp.2.1.symm, q3.trans hp.2.2.1.symm, q4⟩).2.2
      refine ⟨label, cfgEdges fb, ?_, shows h (List.mem_of_getElem? (hdf i fb hb)), ?_⟩
      · intro o ho hk hs
        rw [hlabel o ⟨ho, hk, hs, rfl⟩]
        exact hm.calledAfter ho
      · have hocc := docFuncs_labels 0 i (hdf i fb hb)
        simp only [Nat.zero_add] at hocc
        rw [← cfgEdges_ren (G := G) (hget i _ _ hb' hb).2 (label := label) (by
          intro blk hblk l hl
          have := (hocc blk hblk).1 l hl
          rw [show l.1 = (Spec.occ .label .def_ (some i) l).name from rfl, hlabel _ ⟨.inl this, rfl, rfl, rfl⟩,
            ← occ_occ (mk := .ident) (fun _ => rfl)]
          rfl) (by
          intro blk hblk ins hi t ht
          have := (hocc blk hblk).2 ins hi t ht
          rw [show t.1 = (Spec.occ .label .use (some i) t).name from rfl, hlabel _ ⟨.inl this, rfl, rfl, rfl⟩,
            ← occ_occ (mk := .ident) (fun _ => rfl)]
          rfl) (hG.untouched (List.mem_of_getElem? (hdf i fb hb)))]
        refine shows h' ?_
        rw [← bodies_eq h' hix']
        exact List.mem_map.mpr ⟨_, List.getElem_mem _, rfl⟩

end
end HyperIR
