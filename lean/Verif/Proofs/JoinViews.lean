import Verif.Proofs.JoinLines
import Verif.Proofs.MovedServer
import Verif.Props.Below
import Verif.Proofs.LexRename
import Verif.Props.Outline
import Verif.Props.Flow

/-! What the views of a document show of its parts. -/

namespace HyperIR
open Spec

/-- What views show of a function. -/
def bodyKey (fb : FunctionBody) : Spanned Str × Span × List BasicBlock × StrMap (List (Spanned Str)) × Nat :=
  (fb.name, fb.completeRange, fb.basicBlocks, fb.incomingBbBranches, fb.labels.length)

/-- The computed parts of a function follow from its blocks. -/
structure GoodBody (fb : FunctionBody) : Prop where
  incoming : fb.incomingBbBranches = incomingOf (fb.basicBlocks.flatMap blockEdges)
  nodup : (fb.labels.map Prod.fst).Nodup
  names : ∀ n, n ∈ fb.labels.map Prod.fst ↔ NamesLabel fb.basicBlocks n

theorem goodBody_key {a b : FunctionBody} (ha : GoodBody a) (hb : GoodBody b)
    (h : (a.name, a.completeRange, a.basicBlocks) = (b.name, b.completeRange, b.basicBlocks)) : bodyKey a = bodyKey b := by
  simp only [Prod.mk.injEq] at h
  obtain ⟨h1, h2, h3⟩ := h
  have hp : (a.labels.map Prod.fst).Perm (b.labels.map Prod.fst) :=
    (List.perm_ext_iff_of_nodup ha.nodup hb.nodup).mpr fun n => by rw [ha.names, hb.names, h3]
  have hl := hp.length_eq
  simp only [List.length_map] at hl
  simp only [bodyKey, h1, h2, h3, ha.incoming, hb.incoming, hl]

theorem map_bodyKey {l m : List FunctionBody} (hl : ∀ a ∈ l, GoodBody a) (hm : ∀ a ∈ m, GoodBody a)
    (h : l.map (fun b => (b.name, b.completeRange, b.basicBlocks)) = m.map (fun b => (b.name, b.completeRange, b.basicBlocks))) :
    l.map bodyKey = m.map bodyKey := by
  induction l generalizing m with
  | nil => cases m with
    | nil => rfl
    | cons b m => cases h
  | cons a l ih => cases m with
    | nil => cases h
    | cons b m =>
      rw [List.map_cons, List.map_cons, List.cons.injEq] at h
      rw [List.map_cons, List.map_cons, goodBody_key (hl a (by simp)) (hm b (by simp)) h.1,
        ih (fun a ha => hl a (by simp [ha])) (fun a ha => hm a (by simp [ha])) h.2]

section
variable {α : Type} {l m : List FunctionBody}

theorem filterMap_key (h : l.map bodyKey = m.map bodyKey) {f : FunctionBody → Option α} (hf : ∀ a b, bodyKey a = bodyKey b → f a = f b) :
    l.filterMap f = m.filterMap f := by
  induction l generalizing m with
  | nil => cases m with
    | nil => rfl
    | cons b m => cases h
  | cons a l ih => cases m with
    | nil => cases h
    | cons b m =>
      rw [List.map_cons, List.map_cons, List.cons.injEq] at h
      rw [List.filterMap_cons, List.filterMap_cons, hf a b h.1, ih h.2]

theorem flatMap_key (h : l.map bodyKey = m.map bodyKey) {f : FunctionBody → List α} (hf : ∀ a b, bodyKey a = bodyKey b → f a = f b) :
    l.flatMap f = m.flatMap f := by
  induction l generalizing m with
  | nil => cases m with
    | nil => rfl
    | cons b m => cases h
  | cons a l ih => cases m with
    | nil => cases h
    | cons b m =>
      rw [List.map_cons, List.map_cons, List.cons.injEq] at h
      rw [List.flatMap_cons, List.flatMap_cons, hf a b h.1, ih h.2]

theorem find_key (h : l.map bodyKey = m.map bodyKey) (n : Str) {f : FunctionBody → α} (hf : ∀ a b, bodyKey a = bodyKey b → f a = f b) :
    (l.find? (fun b => decide (b.name.1 = n))).map f = (m.find? (fun b => decide (b.name.1 = n))).map f := by
  induction l generalizing m with
  | nil => cases m with
    | nil => rfl
    | cons b m => cases h
  | cons a l ih => cases m with
    | nil => cases h
    | cons b m =>
      rw [List.map_cons, List.map_cons, List.cons.injEq] at h
      rw [List.find?_cons, List.find?_cons]
      have : a.name = b.name := congrArg Prod.fst h.1
      rw [this]
      split
      · rw [Option.map_some, Option.map_some, hf a b h.1]
      · exact ih h.2

end

/-! ### Moved functions -/

theorem incomingOf_moved {k : Nat} (edges : List (Str × Spanned Str)) :
    incomingOf (edges.map fun e => (e.1, moved k e.2)) = mapVals (List.map (moved k)) (incomingOf edges) := by
  unfold incomingOf
  have key : ∀ m : StrMap (List (Spanned Str)), (edges.map fun e => (e.1, moved k e.2)).foldl (fun m e => addIncoming m e.1 e.2) (mapVals (List.map (moved k)) m) =
      mapVals (List.map (moved k)) (edges.foldl (fun m e => addIncoming m e.1 e.2) m) := by
    induction edges with
    | nil => intro m; rfl
    | cons e es ih =>
      intro m
      rw [List.map_cons, List.foldl_cons, List.foldl_cons, addIncoming_moved, ih]
  exact key []

theorem blockEdges_moved {k : Nat} (b : BasicBlock) : blockEdges (movedBlock k b) = (blockEdges b).map fun e => (e.1, moved k e.2) := by
  unfold blockEdges
  rw [show (movedBlock k b).instructions = b.instructions.map (movedInstr k) from rfl, List.flatMap_map, List.map_flatMap]
  congr 1
  funext i
  rw [show (movedInstr k i).basicBlockRefs = i.basicBlockRefs.map (moved k) from rfl, List.flatMap_map, List.map_flatMap]
  congr 1
  funext r
  rw [isBranching_moved, show (movedBlock k b).label = b.label.map (moved k) from rfl, show (moved k r).1 = r.1 from rfl]
  split
  · cases b.label <;> rfl
  · rfl

theorem namesLabel_moved {k : Nat} {blocks : List BasicBlock} {n : Str} : NamesLabel (blocks.map (movedBlock k)) n ↔ NamesLabel blocks n := by
  unfold NamesLabel
  constructor
  · rintro ⟨b, hb, h⟩
    obtain ⟨b, hb', rfl⟩ := List.mem_map.mp hb
    refine ⟨b, hb', ?_⟩
    rcases h with ⟨sp, h⟩ | ⟨i, hi, h⟩
    · simp only [movedBlock, Option.map_eq_some_iff, moved, Prod.mk.injEq] at h
      obtain ⟨⟨n', sp'⟩, h1, h2, _⟩ := h
      exact .inl ⟨sp', by rw [h1]; simp only at h2; rw [h2]⟩
    · obtain ⟨i, hi', rfl⟩ := List.mem_map.mp hi
      refine .inr ⟨i, hi', ?_⟩
      simpa [movedInstr, moved, List.map_map] using h
  · rintro ⟨b, hb, h⟩
    refine ⟨_, List.mem_map_of_mem hb, ?_⟩
    rcases h with ⟨sp, h⟩ | ⟨i, hi, h⟩
    · exact .inl ⟨movedSpan k sp, by simp [movedBlock, h, moved]⟩
    · exact .inr ⟨_, List.mem_map_of_mem hi, by simpa [movedInstr, moved, List.map_map] using h⟩

theorem goodBody_moved {k : Nat} {fb : FunctionBody} (h : GoodBody fb) : GoodBody (mvFun k fb) := by
  have hk : (mvFun k fb).labels.map Prod.fst = fb.labels.map Prod.fst := by
    simp [mvFun, mvMap, mapVals, List.map_map, Function.comp_def]
  refine ⟨?_, by rw [hk]; exact h.nodup, fun n => ?_⟩
  · rw [show (mvFun k fb).incomingBbBranches = mapVals (List.map (moved k)) fb.incomingBbBranches from rfl,
      show (mvFun k fb).basicBlocks = fb.basicBlocks.map (movedBlock k) from rfl, h.incoming, ← incomingOf_moved, List.flatMap_map, List.map_flatMap]
    congr 2
    funext b
    exact (blockEdges_moved b).symm
  · rw [hk, h.names, show (mvFun k fb).basicBlocks = fb.basicBlocks.map (movedBlock k) from rfl, namesLabel_moved]

section
variable [Unicode]

theorem bodies_good {src : Str} {res : ParserResult} {ix : HIRIndex} (h : parseFromStr src = .ok res)
    (hix : createIndex src res.tokens res.stmts = .ok ix) : ∀ fb ∈ ix.functionBodies, GoodBody fb := fun fb hfb =>
  ⟨bodies_incoming h hix fb hfb, (labels_names h hix hfb).1, (labels_names h hix hfb).2⟩

variable {A B : Str} {resA resB res : ParserResult} {ixA ixB ix : HIRIndex}

/-- The functions of the whole are those of the parts. -/
theorem JoinedIx.bodies (j : JoinedIx A B resA resB res ixA ixB ix) :
    ix.functionBodies.map bodyKey = (ixA.functionBodies ++ ixB.functionBodies.map (mvFun A.length)).map bodyKey := by
  refine map_bodyKey (bodies_good j.both j.ix) ?_ ?_
  · intro fb hfb
    rcases List.mem_append.mp hfb with h | h
    · exact bodies_good j.first j.ixA fb h
    · obtain ⟨fb, h', rfl⟩ := List.mem_map.mp h
      exact goodBody_moved (bodies_good j.second j.ixB fb h')
  · rw [bodies_eq j.both j.ix, j.stmts, docFuncs_append, docFuncs_moved, List.map_append, bodies_eq j.first j.ixA, List.map_map,
      ← bodies_eq j.second j.ixB, List.map_map]
    rfl

/-! ### The first part -/

/-- The places of a function lie in its document. -/
structure BodyWithin (n : Nat) (fb : FunctionBody) : Prop where
  name : fb.name.2.start ≤ n ∧ fb.name.2.stop ≤ n
  range : fb.completeRange.start ≤ n ∧ fb.completeRange.stop ≤ n
  blocks : ∀ b ∈ fb.basicBlocks, b.span.start ≤ n ∧ b.span.stop ≤ n ∧ ∀ l c, b.label = some l → b.labelCommaSpan = some c → c.stop ≤ n
  incoming : ∀ t l, fb.incomingBbBranches.get? t = some l → ∀ x ∈ l, x.2.start ≤ n ∧ x.2.stop ≤ n

theorem bodies_within {src : Str} {res : ParserResult} {ix : HIRIndex} (h : parseFromStr src = .ok res)
    (hix : createIndex src res.tokens res.stmts = .ok ix) : ∀ fb ∈ ix.functionBodies, BodyWithin src.length fb := by
  intro fb hfb
  have hin := (C02_token_spans h).1
  have hf := bodies_mem h hix hfb
  obtain ⟨n1, ⟨k, hk, k1, k2⟩, c, hc, c1, c2⟩ := func_tokens h hf
  have i1 := hin _ n1
  have i2 := hin _ hk
  have i3 := hin _ hc
  simp only [Inside] at i1 i2 i3 k1 k2 c1 c2
  obtain ⟨kw, sig, body, hm, e⟩ := docFuncs_mem hf
  simp only [Prod.mk.injEq] at e
  refine ⟨by omega, by omega, ?_, ?_⟩
  · intro b hb
    rw [e.2.2] at hb
    obtain ⟨⟨⟨t, t1, _, t2⟩, t3⟩, t', t4, _, t5⟩ := block_tokens h hm hb
    have j1 := hin _ t1
    have j2 := hin _ t4
    simp only [Inside] at j1 j2
    refine ⟨by omega, by omega, ?_⟩
    intro l c hl hcs
    obtain ⟨c', e1, e2⟩ := t3 l hl
    rw [hcs] at e1
    cases e1
    exact (hin _ e2).2
  · intro t l hl x hx
    rw [bodies_incoming h hix fb hfb, incoming_preds (labels_nodup h hf)] at hl
    split at hl
    · cases hl
    · cases hl
      obtain ⟨blk, hb, hbx⟩ := List.mem_filterMap.mp hx
      split at hbx
      · have := hin _ (label_token h hf hb hbx)
        simp only [Inside] at this
        omega
      · cases hbx

omit [Unicode] in
theorem incomingParts_front (hu : Under A B) (uri : Str) : ∀ (l : List (Spanned Str)) (i : Nat),
    (∀ x ∈ l, x.2.start ≤ A.length ∧ x.2.stop ≤ A.length) → incomingParts uri (A ++ B) i l = incomingParts uri A i l
  | [], _, _ => rfl
  | (n, sp) :: l, i, h => by
    have h1 := h (n, sp) (by simp)
    simp only [incomingParts]
    rw [rangeToLsp_front hu h1.1 h1.2, incomingParts_front hu uri l (i + 1) fun x hx => h x (by simp [hx])]

omit [Unicode] in
theorem incomingHint_front (hu : Under A B) (uri : Str) {fb : FunctionBody} (hw : BodyWithin A.length fb) {b : BasicBlock} (hb : b ∈ fb.basicBlocks) :
    incomingHint uri (A ++ B) fb b = incomingHint uri A fb b := by
  unfold incomingHint
  cases hl : b.label with
  | none => rfl
  | some l =>
    simp only
    cases hg : fb.incomingBbBranches.get? l.1 with
    | none => rfl
    | some refs =>
      simp only
      cases hc : b.labelCommaSpan with
      | none => rfl
      | some c =>
        simp only
        rw [offsetToLspPos_front hu ((hw.blocks b hb).2.2 l c hl hc), incomingParts_front hu uri refs 0 (hw.incoming _ _ hg)]

omit [Unicode] in
theorem flatMap_eq {α β : Type} {f g : α → List β} {l : List α} (h : ∀ x ∈ l, f x = g x) : l.flatMap f = l.flatMap g := by
  induction l with
  | nil => rfl
  | cons x l ih => rw [List.flatMap_cons, List.flatMap_cons, h x (by simp), ih fun y hy => h y (by simp [hy])]

/-! ### Views of the functions -/

/-- The analysis of the second document, moved below the first. -/
def docBelow (A B : Str) (docB : AnalyzedDocument) : AnalyzedDocument :=
  { docB with rope := A ++ B, stmts := docB.stmts.map (movedStmt A.length), index := mvIx A.length docB.index }

omit [Unicode] in
theorem movedDoc_below {docB : AnalyzedDocument} (hu : Under A B) (h : docB.rope = B) : MovedDoc A B docB (docBelow A B docB) :=
  ⟨hu, h, rfl, rfl, rfl⟩

variable {docA docB doc : AnalyzedDocument}

theorem JoinedIx.outlineFunctions (j : JoinedIx A B resA resB res docA.index docB.index doc.index) (hA : docA.rope = A) (hd : doc.rope = A ++ B) :
    outlineFunctions doc = outlineFunctions docA ++ outlineFunctions (docBelow A B docB) := by
  unfold HyperIR.outlineFunctions
  rw [filterMap_key j.bodies, List.filterMap_append, hd, hA]
  · congr 1
    refine filterMap_congr' fun f hf => ?_
    have hw := bodies_within j.first j.ixA f hf
    rw [rangeToLsp_front j.under hw.range.1 hw.range.2, rangeToLsp_front j.under hw.name.1 hw.name.2]
  · intro a b h
    simp only [bodyKey, Prod.mk.injEq] at h
    rw [h.1, h.2.1]

theorem JoinedIx.folds (j : JoinedIx A B resA resB res docA.index docB.index doc.index) (hA : docA.rope = A) (hd : doc.rope = A ++ B) :
    (foldsOf doc).Perm (foldsOf docA ++ foldsOf (docBelow A B docB)) := by
  have hfront : ∀ {sp : Span} {t : Str}, sp.start ≤ A.length → sp.stop ≤ A.length → foldOf (A ++ B) sp t = foldOf A sp t := by
    intro sp t h1 h2
    unfold foldOf
    rw [rangeToLsp_front j.under h1 h2]
  have e1 : (doc.index.functionBodies.filterMap fun f => foldOf doc.rope f.completeRange (showNat f.labels.length ++ c!" basic blocks")) =
      (docA.index.functionBodies.filterMap fun f => foldOf docA.rope f.completeRange (showNat f.labels.length ++ c!" basic blocks")) ++
      ((docBelow A B docB).index.functionBodies.filterMap fun f => foldOf (A ++ B) f.completeRange (showNat f.labels.length ++ c!" basic blocks")) := by
    rw [filterMap_key j.bodies, List.filterMap_append, hd, hA]
    · congr 1
      refine filterMap_congr' fun f hf => ?_
      have hw := bodies_within j.first j.ixA f hf
      exact hfront hw.range.1 hw.range.2
    · intro a b h
      simp only [bodyKey, Prod.mk.injEq] at h
      rw [h.2.1, h.2.2.2.2]
  have e2 : ((doc.index.functionBodies.flatMap FunctionBody.basicBlocks).filterMap fun bb =>
        foldOf doc.rope bb.span (showNat bb.instructions.length ++ c!" instructions")) =
      ((docA.index.functionBodies.flatMap FunctionBody.basicBlocks).filterMap fun bb =>
        foldOf docA.rope bb.span (showNat bb.instructions.length ++ c!" instructions")) ++
      (((docBelow A B docB).index.functionBodies.flatMap FunctionBody.basicBlocks).filterMap fun bb =>
        foldOf (A ++ B) bb.span (showNat bb.instructions.length ++ c!" instructions")) := by
    rw [flatMap_key j.bodies, List.flatMap_append, List.filterMap_append, hd, hA]
    · congr 1
      refine filterMap_congr' fun b hb => ?_
      obtain ⟨f, hf, hb⟩ := List.mem_flatMap.mp hb
      have hw := (bodies_within j.first j.ixA f hf).blocks b hb
      exact hfront hw.1 hw.2.1
    · intro a b h
      simp only [bodyKey, Prod.mk.injEq] at h
      exact h.2.2.1
  unfold foldsOf
  rw [e1, e2]
  simp only [List.append_assoc]
  refine List.Perm.append_left _ ?_
  rw [← List.append_assoc, ← List.append_assoc]
  exact List.Perm.append_right _ List.perm_append_comm

theorem JoinedIx.incomingHints (j : JoinedIx A B resA resB res docA.index docB.index doc.index) (hA : docA.rope = A) (hd : doc.rope = A ++ B)
    (uri : Str) : incomingHints uri doc = incomingHints uri docA ++ incomingHints uri (docBelow A B docB) := by
  unfold HyperIR.incomingHints
  rw [flatMap_key j.bodies, List.flatMap_append, hd, hA]
  · congr 1
    refine flatMap_eq fun f hf => ?_
    refine filterMap_congr' fun b hb => ?_
    exact incomingHint_front j.under uri (bodies_within j.first j.ixA f hf) hb
  · intro a b h
    simp only [bodyKey, Prod.mk.injEq] at h
    rw [h.2.2.1]
    congr 1
    funext x
    unfold incomingHint
    rw [h.2.2.2.1]

theorem JoinedIx.endHints (j : JoinedIx A B resA resB res docA.index docB.index doc.index) (hA : docA.rope = A) (hd : doc.rope = A ++ B)
    (uri : Str) : endHints uri doc = endHints uri docA ++ endHints uri (docBelow A B docB) := by
  unfold HyperIR.endHints
  rw [filterMap_key j.bodies, List.filterMap_append, hd, hA]
  · congr 1
    refine filterMap_congr' fun f hf => ?_
    have hw := bodies_within j.first j.ixA f hf
    rw [offsetToLspPos_front j.under hw.range.2, rangeToLsp_front j.under hw.name.1 hw.name.2]
  · intro a b h
    simp only [bodyKey, Prod.mk.injEq] at h
    rw [h.1, h.2.1]

omit [Unicode] in
theorem createCfgDot_key {a b : FunctionBody} (h : bodyKey a = bodyKey b) : createCfgDot a = createCfgDot b := by
  simp only [bodyKey, Prod.mk.injEq] at h
  unfold createCfgDot cfgEdges
  rw [h.1, h.2.2.1]

theorem JoinedIx.graph (j : JoinedIx A B resA resB res docA.index docB.index doc.index) (n : Str) :
    (doc.index.functionBodies.find? (fun b => decide (b.name.1 = n))).map createCfgDot =
      ((docA.index.functionBodies.find? (fun b => decide (b.name.1 = n))).map createCfgDot).or
        ((docB.index.functionBodies.find? (fun b => decide (b.name.1 = n))).map createCfgDot) := by
  rw [find_key j.bodies n fun _ _ => createCfgDot_key, List.find?_append, List.find?_map]
  rw [show ((fun b : FunctionBody => decide (b.name.1 = n)) ∘ mvFun A.length) = fun b : FunctionBody => decide (b.name.1 = n) from rfl]
  cases docA.index.functionBodies.find? (fun b => decide (b.name.1 = n)) with
  | some f => rfl
  | none =>
    cases docB.index.functionBodies.find? (fun b => decide (b.name.1 = n)) with
    | none => rfl
    | some f => simp [createCfgDot_moved]

end

end HyperIR
