import Verif.Proofs.MovedIndex

/- The index of a document whose tokens are found at other places (src/hir_index.rs). -/

namespace HyperIR
open Spec

/-- A way to move positions that keeps their order. -/
class Rising (F : Move) : Prop where
  starts : ∀ a b, a < b → F.fs a < F.fs b
  stops : ∀ a b, a < b → F.fe a < F.fe b
  cross : ∀ a b, F.fs a < F.fe b ↔ a < b

theorem lt_iff_of_rising {g : Nat → Nat} (h : ∀ a b, a < b → g a < g b) {a b : Nat} : g a < g b ↔ a < b := by
  refine ⟨fun h1 => ?_, h a b⟩
  rcases Nat.lt_trichotomy a b with h2 | rfl | h2
  · exact h2
  · omega
  · have := h b a h2
    omega

theorem eq_iff_of_rising {g : Nat → Nat} (h : ∀ a b, a < b → g a < g b) {a b : Nat} : g a = g b ↔ a = b := by
  refine ⟨fun h1 => ?_, fun h => by rw [h]⟩
  rcases Nat.lt_trichotomy a b with h2 | h2 | h2
  · have := h a b h2
    omega
  · exact h2
  · have := h b a h2
    omega

/-- One map for starts and ends. -/
theorem rising_same {g : Nat → Nat} (h : ∀ a b, a < b → g a < g b) : Rising (Move.mk g g) :=
  ⟨h, h, fun _ _ => lt_iff_of_rising h⟩

variable {F : Move} [Rising F]

theorem Rising.lt_iff {a b : Nat} : F.fs a < F.fs b ↔ a < b := lt_iff_of_rising Rising.starts

theorem Rising.eq_iff {a b : Nat} : F.fs a = F.fs b ↔ a = b := eq_iff_of_rising Rising.starts

theorem Rising.stop_iff {a b : Nat} : F.fe a = F.fe b ↔ a = b := eq_iff_of_rising Rising.stops

theorem Rising.cross_iff {a b : Nat} : F.fs a < F.fe b ↔ a < b := Rising.cross a b

theorem Rising.le_iff {a b : Nat} : F.fs a ≤ F.fs b ↔ a ≤ b := by
  have := Rising.lt_iff (F := F) (a := b) (b := a)
  omega

/-! ### Everything in the index, moved -/

def plUses (F : Move) (u : UseDefList) : UseDefList :=
  { decls := u.decls.map F.span, defs := u.defs.map F.span, externalDefs := u.externalDefs, uses := u.uses.map F.span }

def plMap (F : Move) (m : SymMap) : SymMap := mapVals (plUses F) m

def plOcc (F : Move) (o : SymbolOccurrence) : SymbolOccurrence := { o with span := F.span o.span }

def plRev (F : Move) (m : RevIdx) : RevIdx := List.map (fun e => (F.fs e.1, plOcc F e.2)) m

def plFun (F : Move) (f : FunctionBody) : FunctionBody :=
  { name := F.spanned f.name, completeRange := F.span f.completeRange, labels := plMap F f.labels, localVars := plMap F f.localVars
    basicBlocks := f.basicBlocks.map F.block, incomingBbBranches := mapVals (List.map F.spanned) f.incomingBbBranches }

def plIx (F : Move) (ix : HIRIndex) : HIRIndex :=
  { globalVars := plMap F ix.globalVars, functions := plMap F ix.functions, dbgAnnotations := plMap F ix.dbgAnnotations
    reverseIdx := plRev F ix.reverseIdx, functionBodies := ix.functionBodies.map (plFun F), dbgAnnotationValues := ix.dbgAnnotationValues }

/-! ### Maps -/

theorem placeSpan_inj {a b : Span} : F.span a = F.span b ↔ a = b := by
  cases a; cases b
  simp [Move.span, Rising.eq_iff, Rising.stop_iff]

theorem mem_map_placeSpan {a : Span} {l : List Span} : F.span a ∈ l.map F.span ↔ a ∈ l := by
  simp [placeSpan_inj]

theorem place_inj {α : Type} {a b : Spanned α} : F.spanned a = F.spanned b ↔ a = b := by
  cases a; cases b
  simp [Move.spanned, placeSpan_inj]

omit [Rising F] in
theorem plUses_push {u : UseDefList} {ud : UseDefKind} {sp : Span} :
    (plUses F u).push ud (F.span sp) = plUses F (u.push ud sp) := by
  cases ud <;> simp [plUses, UseDefList.push]

omit [Rising F] in
theorem plUses_get {u : UseDefList} {ud : UseDefKind} : (plUses F u).get ud = (u.get ud).map F.span := by
  cases ud <;> rfl

theorem plUses_hasSpan {u : UseDefList} {sp : Span} : (plUses F u).hasSpan (F.span sp) = u.hasSpan sp := by
  simp only [plUses, UseDefList.hasSpan, mem_map_placeSpan]

theorem plRev_insert {m : RevIdx} {p : Nat} {o : SymbolOccurrence} :
    RevIdx.insert (plRev F m) (F.fs p) (plOcc F o) = plRev F (RevIdx.insert m p o) := by
  induction m with
  | nil => rfl
  | cons e m ih =>
    obtain ⟨q, o'⟩ := e
    simp only [plRev, List.map_cons, RevIdx.insert, Rising.lt_iff, Rising.eq_iff]
    split
    · rfl
    · split
      · rfl
      · simp only [List.map_cons, List.cons.injEq, true_and]
        exact ih

theorem addInternal_placed {m : SymMap} {rev : RevIdx} {fb : Option Nat} {sk : SymbolKind} {ud : UseDefKind} {sp : Span} {n : Str} :
    addInternal (plMap F m) (plRev F rev) fb sk ud (F.span sp) n =
      (plMap F (addInternal m rev fb sk ud sp n).1, plRev F (addInternal m rev fb sk ud sp n).2) := by
  unfold addInternal plMap
  rw [get?_mapVals]
  have : ((((StrMap.get? m n).map (plUses F)).getD {}).hasSpan (F.span sp)) = ((StrMap.get? m n).getD {}).hasSpan sp := by
    cases StrMap.get? m n with
    | none => rfl
    | some u => simp [plUses_hasSpan]
  rw [this]
  split
  · rfl
  · refine Prod.ext ?_ ?_
    · exact modifyEntry_mapVals rfl fun u => plUses_push
    · exact plRev_insert (p := sp.start) (o := ⟨sp, ud, sk, n, fb⟩)

/-! ### Folds -/

theorem addGlobal_placed {ix : HIRIndex} {sk : SymbolKind} {ud : UseDefKind} {sp : Span} {n : Str} :
    (plIx F ix).addGlobal sk ud (F.span sp) n = (ix.addGlobal sk ud sp n).map' (plIx F) := by
  cases sk <;> simp [HIRIndex.addGlobal, plIx, addInternal_placed, Outcome.map']

theorem addFuncLocal_placed {ix : HIRIndex} {id : Nat} {sk : SymbolKind} {ud : UseDefKind} {sp : Span} {n : Str} :
    (plIx F ix).addFuncLocal id sk ud (F.span sp) n = (ix.addFuncLocal id sk ud sp n).map' (plIx F) := by
  unfold HIRIndex.addFuncLocal
  rw [show (plIx F ix).functionBodies = ix.functionBodies.map (plFun F) from rfl, List.getElem?_map]
  cases ix.functionBodies[id]? with
  | none => rfl
  | some fb => cases sk <;> simp [plIx, plFun, addInternal_placed, Outcome.map']

omit [Rising F] in
theorem isBranching_placed {i : Instruction} : (F.instr i).isBranching = i.isBranching := rfl

theorem addIncoming_placed {m : StrMap (List (Spanned Str))} {t : Str} {l : Spanned Str} :
    addIncoming (mapVals (List.map F.spanned) m) t (F.spanned l) = mapVals (List.map F.spanned) (addIncoming m t l) := by
  unfold addIncoming
  refine modifyEntry_mapVals rfl fun v => ?_
  by_cases h : l ∈ v
  · rw [if_pos h, if_pos (List.mem_map_of_mem h)]
  · rw [if_neg h, if_neg (by
      intro hm
      obtain ⟨x, hx, e⟩ := List.mem_map.mp hm
      exact h (place_inj.mp e ▸ hx))]
    simp

theorem indexBbRef_placed {fid : Nat} {bb : BasicBlock} {i : Instruction} {ix : HIRIndex} {r : Spanned Str} :
    indexBbRef fid (F.block bb) (F.instr i) (plIx F ix) (F.spanned r) = (indexBbRef fid bb i ix r).map' (plIx F) := by
  unfold indexBbRef
  rw [show (F.spanned r).2 = F.span r.2 from rfl, show (F.spanned r).1 = r.1 from rfl, addFuncLocal_placed]
  cases ix.addFuncLocal fid .label .use r.2 r.1 with
  | panic => rfl
  | ok ix =>
    by_cases hbr : i.isBranching = true
    · simp only [Outcome.map', isBranching_placed, hbr, if_true]
      cases hl : bb.label with
      | none => simp [Move.block, hl]
      | some l =>
        simp only [Move.block, hl, Option.map_some]
        rw [show (plIx F ix).functionBodies = ix.functionBodies.map (plFun F) from rfl, List.getElem?_map]
        cases ix.functionBodies[fid]? with
        | none => rfl
        | some fb => simp [plIx, plFun, addIncoming_placed]
    · simp only [Outcome.map', isBranching_placed, hbr]
      rfl

theorem indexInstruction_placed {fid : Nat} {bb : BasicBlock} {ix : HIRIndex} {i : Instruction} :
    indexInstruction fid (F.block bb) (plIx F ix) (F.instr i) = (indexInstruction fid bb ix i).map' (plIx F) := by
  unfold indexInstruction
  cases ht : i.assignmentTarget with
  | none =>
    simp only [Move.instr, ht, Option.map_none]
    exact foldO_moved (f := indexBbRef fid bb i) (g := plIx F) (h := F.spanned) fun st x _ => indexBbRef_placed
  | some t =>
    simp only [Move.instr, ht, Option.map_some, Move.spanned]
    rw [addFuncLocal_placed]
    cases ix.addFuncLocal fid .localVar .def_ t.2 t.1 with
    | panic => rfl
    | ok ix =>
      simp only [Outcome.map']
      have := foldO_moved (st := ix) (l := i.basicBlockRefs) (f := indexBbRef fid bb i) (f' := indexBbRef fid (F.block bb) (F.instr i)) (g := plIx F) (h := F.spanned) fun st x _ => indexBbRef_placed
      simp only [Move.instr, ht, Option.map_some, Move.spanned] at this
      exact this

theorem indexBlock_placed {fid : Nat} {ix : HIRIndex} {bb : BasicBlock} :
    indexBlock fid (plIx F ix) (F.block bb) = (indexBlock fid ix bb).map' (plIx F) := by
  have key : ∀ ix, foldO (indexInstruction fid (F.block bb)) (plIx F ix) (bb.instructions.map F.instr) = (foldO (indexInstruction fid bb) ix bb.instructions).map' (plIx F) :=
    fun ix => foldO_moved fun st x _ => indexInstruction_placed
  unfold indexBlock
  rw [show (F.block bb).label = bb.label.map F.spanned from rfl, show (F.block bb).instructions = bb.instructions.map F.instr from rfl]
  cases hl : bb.label with
  | none => exact key ix
  | some l =>
    simp only [Option.map_some]
    rw [show (F.spanned l).2 = F.span l.2 from rfl, show (F.spanned l).1 = l.1 from rfl, addFuncLocal_placed]
    cases ix.addFuncLocal fid .label .def_ l.2 l.1 with
    | panic => rfl
    | ok ix => exact key ix

theorem indexFuncDef_placed {ix : HIRIndex} {kw : Span} {sig : FuncSignature} {body : FuncBody} :
    indexFuncDef (plIx F ix) (F.span kw) (F.sig sig) (F.body body) = (indexFuncDef ix kw sig body).map' (plIx F) := by
  unfold indexFuncDef
  rw [show (F.sig sig).name = (sig.name.1, F.span sig.name.2) from rfl]
  simp only [addGlobal_placed]
  cases ix.addGlobal .function .def_ sig.name.2 sig.name.1 with
  | panic => rfl
  | ok ix =>
    simp only [Outcome.map']
    let ix1 : HIRIndex := { ix with functionBodies := ix.functionBodies ++
      [{ name := sig.name, completeRange := { start := kw.start, stop := body.closingBracket.stop }, basicBlocks := body.basicBlocks }] }
    have e1 : ({ plIx F ix with functionBodies := (plIx F ix).functionBodies ++
      [{ name := (sig.name.1, F.span sig.name.2), completeRange := { start := (F.span kw).start, stop := (F.body body).closingBracket.stop }, basicBlocks := (F.body body).basicBlocks }] } : HIRIndex) = plIx F ix1 := by
      simp only [plIx, ix1, List.map_append, List.map_cons, List.map_nil]
      rfl
    rw [e1]
    have e2 : ((plIx F ix).functionBodies ++
      [({ name := (sig.name.1, F.span sig.name.2), completeRange := { start := (F.span kw).start, stop := (F.body body).closingBracket.stop }, basicBlocks := (F.body body).basicBlocks } : FunctionBody)]).length - 1 = ix1.functionBodies.length - 1 := by simp [plIx, ix1]
    rw [e2]
    have e3 : foldO (indexArg (ix1.functionBodies.length - 1)) (plIx F ix1) (F.sig sig).args =
        (foldO (indexArg (ix1.functionBodies.length - 1)) ix1 sig.args).map' (plIx F) := by
      refine foldO_moved fun st a _ => ?_
      exact addFuncLocal_placed
    rw [e3]
    show _ = Outcome.map' (plIx F) (match foldO (indexArg (ix1.functionBodies.length - 1)) ix1 sig.args with
      | .panic => .panic
      | .ok ix => foldO (indexBlock (ix1.functionBodies.length - 1)) ix body.basicBlocks)
    cases foldO (indexArg (ix1.functionBodies.length - 1)) ix1 sig.args with
    | panic => rfl
    | ok ix2 =>
      simp only [Outcome.map']
      exact foldO_moved fun st a _ => indexBlock_placed

omit [Rising F] in
theorem parseExternalDef_placed {d : List (Spanned Token)} : parseExternalDef (d.map F.spanned) = parseExternalDef d := by
  cases d with
  | nil => rfl
  | cons t d =>
    obtain ⟨t, sp⟩ := t
    cases d with
    | nil => cases t <;> rfl
    | cons u d => cases t <;> rfl

omit [Rising F] in
theorem addExternalDef_placed {ix : HIRIndex} {u : StrMap Str} {n : Str} {d : List (Spanned Token)} :
    addExternalDef (plIx F ix) u n (d.map F.spanned) = (addExternalDef ix u n d).map' (plIx F) := by
  unfold addExternalDef
  cases StrMap.get? u n with
  | none => rfl
  | some fn =>
    simp only [parseExternalDef_placed]
    cases parseExternalDef d with
    | none => rfl
    | some x =>
      simp only
      rw [show (plIx F ix).functions = mapVals (plUses F) ix.functions from rfl, get?_mapVals]
      cases StrMap.get? ix.functions fn with
      | none => rfl
      | some _ =>
        simp only [Option.map_some, Outcome.map']
        have := modifyEntry_mapVals (f := plUses F) (m := ix.functions) (n := fn) (d := {}) (d' := {}) (g := fun e => { e with externalDefs := e.externalDefs ++ [x] })
          (g' := fun e => { e with externalDefs := e.externalDefs ++ [x] }) rfl fun v => rfl
        rw [this]
        rfl

/-- The state of the statement loop, moved. -/
def plSt (F : Move) (st : StmtState) : StmtState := (plIx F st.1, st.2)

/-- The annotations of the statement say the same. -/
def SaysSame (T0 T : Str) (F : Move) : Statement → Prop
  | .dbgAnnotation _ d => annotationValue T (d.map F.spanned) = annotationValue T0 d
  | _ => True

theorem indexStatement_placed {T0 T : Str} {st : StmtState} {s : Statement} (ha : SaysSame T0 T F s) :
    indexStatement T (plSt F st) (F.stmt s) = (indexStatement T0 st s).map' (plSt F) := by
  cases s with
  | globalVar n d =>
    simp only [indexStatement, Move.stmt, plSt, Move.spanned]
    rw [addGlobal_placed]
    cases st.1.addGlobal .globalVar .def_ n.2 n.1 <;> rfl
  | funcDecl sig at_ d =>
    simp only [indexStatement, Move.stmt, plSt, Move.sig, Move.spanned]
    rw [addGlobal_placed]
    cases st.1.addGlobal .function .decl sig.name.2 sig.name.1 with
    | panic => rfl
    | ok ix => cases d <;> rfl
  | funcDef kw sig b =>
    simp only [indexStatement, Move.stmt, plSt]
    rw [indexFuncDef_placed]
    cases indexFuncDef st.1 kw sig b <;> rfl
  | funcDependencies n ds => rfl
  | dbgAnnotation n d =>
    simp only [indexStatement, Move.stmt, plSt]
    rw [show (F.spanned n).2 = F.span n.2 from rfl, show (F.spanned n).1 = n.1 from rfl, addGlobal_placed]
    cases st.1.addGlobal .dbgAnnotation .def_ n.2 n.1 with
    | panic => rfl
    | ok ix =>
      simp only [Outcome.map']
      rw [show annotationValue T (d.map F.spanned) = annotationValue T0 d from ha]
      cases annotationValue T0 d with
      | panic => rfl
      | ok v =>
        simp only
        cases v with
        | none =>
          simp only
          rw [addExternalDef_placed]
          cases addExternalDef ix st.2 n.1 d <;> rfl
        | some v =>
          have := addExternalDef_placed (F := F) (ix := { ix with dbgAnnotationValues := ix.dbgAnnotationValues.insert n.1 v }) (u := st.2) (n := n.1) (d := d)
          simp only [plIx] at this ⊢
          rw [this]
          cases addExternalDef { ix with dbgAnnotationValues := ix.dbgAnnotationValues.insert n.1 v } st.2 n.1 d <;> rfl

theorem contains_placed {sp : Span} {p : Nat} : (F.span sp).contains (F.fs p) = sp.contains p := by
  simp [Span.contains, Move.span, Rising.le_iff, Rising.cross_iff]

theorem findBody_placed {l : List FunctionBody} {p : Nat} : findBody (l.map (plFun F)) (F.fs p) = findBody l p := by
  unfold findBody
  rw [findIdx?_map']
  congr 1
  funext b
  exact contains_placed

theorem currentBody_placed {ix : HIRIndex} {c : Option Nat} {p : Nat} : currentBody (plIx F ix) c (F.fs p) = currentBody ix c p := by
  unfold currentBody
  rw [show (plIx F ix).functionBodies = ix.functionBodies.map (plFun F) from rfl]
  cases c with
  | none => simp only [findBody_placed]
  | some id =>
    simp only [List.getElem?_map]
    cases ix.functionBodies[id]? with
    | none => rfl
    | some fb =>
      simp only [Option.map_some]
      rw [show (plFun F fb).completeRange = F.span fb.completeRange from rfl, contains_placed, findBody_placed]

/-- The state of the token loop, moved. -/
def plTs (F : Move) (st : TokState) : TokState := (plIx F st.1, st.2)

theorem indexToken_placed {st : TokState} {t : Spanned Token} : indexToken (plTs F st) (F.spanned t) = (indexToken st t).map' (plTs F) := by
  obtain ⟨t, sp⟩ := t
  cases t with
  | globalName n =>
    have e : (StrMap.get? (plIx F st.1).functions n).isSome = (StrMap.get? st.1.functions n).isSome := by
      rw [show (plIx F st.1).functions = mapVals (plUses F) st.1.functions from rfl, get?_mapVals, Option.isSome_map]
    simp only [indexToken, Move.spanned, plTs, e]
    rw [addGlobal_placed]
    cases st.1.addGlobal (if (StrMap.get? st.1.functions n).isSome = true then .function else .globalVar) .use sp n <;> rfl
  | debugRef n =>
    simp only [indexToken, Move.spanned, plTs]
    rw [addGlobal_placed]
    cases st.1.addGlobal .dbgAnnotation .use sp n <;> rfl
  | localName n =>
    simp only [indexToken, Move.spanned, plTs]
    rw [show (F.span sp).start = F.fs sp.start from rfl, currentBody_placed]
    cases currentBody st.1 st.2 sp.start with
    | panic => rfl
    | ok c => cases c with
      | none => rfl
      | some id =>
        simp only
        rw [addFuncLocal_placed]
        cases st.1.addFuncLocal id .localVar .use sp n <;> rfl
  | _ => rfl

theorem foldO_relevant {σ α : Type} {f : σ → α → Outcome σ} (p : α → Bool) (h : ∀ st x, p x = false → f st x = .ok st) :
    ∀ (l : List α) (st : σ), foldO f st l = foldO f st (l.filter p)
  | [], _ => rfl
  | x :: l, st => by
    cases hp : p x with
    | true =>
      simp only [List.filter_cons, hp, if_true, foldO]
      cases f st x with
      | panic => rfl
      | ok st => exact foldO_relevant p h l st
    | false =>
      simp only [List.filter_cons, hp, foldO, h st x hp]
      exact foldO_relevant p h l st

/-- A token the index looks at. -/
def relevant (t : Tok) : Bool := decide (t.1 ≠ .newline ∧ t.1 ≠ .comment)

theorem indexToken_irrelevant (st : TokState) (t : Tok) (h : relevant t = false) : indexToken st t = .ok st := by
  obtain ⟨t, sp⟩ := t
  unfold relevant at h
  by_cases h1 : t = .newline
  · subst h1; rfl
  · by_cases h2 : t = .comment
    · subst h2; rfl
    · simp [h1, h2] at h

/-- The index of a document whose code is found elsewhere is the index of that code, moved. -/
theorem createIndex_placed {T0 T : Str} {ts ts0 : List Tok} {ss : List Statement} (hts : ts.filter relevant = (ts0.filter relevant).map F.spanned)
    (ha : ∀ s ∈ ss, SaysSame T0 T F s) : createIndex T ts (ss.map F.stmt) = (createIndex T0 ts0 ss).map' (plIx F) := by
  unfold createIndex
  have h1 := foldO_moved (st := (({}, []) : StmtState)) (l := ss) (f := indexStatement T0) (f' := indexStatement T) (g := plSt F) (h := F.stmt)
    fun st s hs => indexStatement_placed (ha s hs)
  rw [show plSt F (({}, []) : StmtState) = ({}, []) from rfl] at h1
  rw [h1]
  cases foldO (indexStatement T0) ({}, []) ss with
  | panic => rfl
  | ok st =>
    obtain ⟨ix, u⟩ := st
    simp only [Outcome.map', plSt]
    rw [foldO_relevant relevant indexToken_irrelevant ts, foldO_relevant relevant indexToken_irrelevant ts0, hts]
    have h2 := foldO_moved (st := ((ix, none) : TokState)) (l := ts0.filter relevant) (f := indexToken) (f' := indexToken) (g := plTs F) (h := F.spanned) fun st s _ => indexToken_placed
    rw [show plTs F ((ix, none) : TokState) = (plIx F ix, none) from rfl] at h2
    rw [h2]
    cases foldO indexToken (ix, none) (ts0.filter relevant) <;> rfl

end HyperIR
