import Verif.Proofs.MovedLines
import Verif.Model.Server

/- The index of a document with lines of comments in front of it (src/hir_index.rs). -/

namespace HyperIR
open Spec

variable {k : Nat}

/-! ### Everything in the index, moved -/

def mvUses (k : Nat) (u : UseDefList) : UseDefList :=
  { decls := u.decls.map (movedSpan k), defs := u.defs.map (movedSpan k), externalDefs := u.externalDefs, uses := u.uses.map (movedSpan k) }

/-- The values of a map, changed. -/
def mapVals {V W : Type} (f : V → W) (m : StrMap V) : StrMap W := List.map (fun e => (e.1, f e.2)) m

def mvMap (k : Nat) (m : SymMap) : SymMap := mapVals (mvUses k) m

def mvOcc (k : Nat) (o : SymbolOccurrence) : SymbolOccurrence := { o with span := movedSpan k o.span }

def mvRev (k : Nat) (m : RevIdx) : RevIdx := List.map (fun e => (e.1 + k, mvOcc k e.2)) m

def mvFun (k : Nat) (f : FunctionBody) : FunctionBody :=
  { name := moved k f.name, completeRange := movedSpan k f.completeRange, labels := mvMap k f.labels, localVars := mvMap k f.localVars
    basicBlocks := f.basicBlocks.map (movedBlock k), incomingBbBranches := mapVals (List.map (moved k)) f.incomingBbBranches }

def mvIx (k : Nat) (ix : HIRIndex) : HIRIndex :=
  { globalVars := mvMap k ix.globalVars, functions := mvMap k ix.functions, dbgAnnotations := mvMap k ix.dbgAnnotations
    reverseIdx := mvRev k ix.reverseIdx, functionBodies := ix.functionBodies.map (mvFun k), dbgAnnotationValues := ix.dbgAnnotationValues }

/-! ### Maps -/

theorem movedSpan_inj {a b : Span} : movedSpan k a = movedSpan k b ↔ a = b := by
  cases a; cases b
  simp [movedSpan]

theorem mem_map_movedSpan {a : Span} {l : List Span} : movedSpan k a ∈ l.map (movedSpan k) ↔ a ∈ l := by
  simp [movedSpan_inj]

theorem moved_inj {α : Type} {a b : Spanned α} : moved k a = moved k b ↔ a = b := by
  cases a; cases b
  simp [moved, movedSpan_inj]

section
variable {V W : Type} {f : V → W}

theorem get?_mapVals {m : StrMap V} {n : Str} : StrMap.get? (mapVals f m) n = (StrMap.get? m n).map f := by
  induction m with
  | nil => rfl
  | cons e m ih =>
    obtain ⟨k', v⟩ := e
    simp only [mapVals, List.map_cons, StrMap.get?]
    split
    · rfl
    · exact ih

theorem modifyEntry_mapVals {m : StrMap V} {n : Str} {d : V} {d' : W} {g : V → V} {g' : W → W} (hd : d' = f d) (hg : ∀ v, g' (f v) = f (g v)) :
    StrMap.modifyEntry d' (mapVals f m) n g' = mapVals f (StrMap.modifyEntry d m n g) := by
  subst hd
  induction m with
  | nil => simp [mapVals, StrMap.modifyEntry, hg]
  | cons e m ih =>
    obtain ⟨k', v⟩ := e
    simp only [mapVals, List.map_cons, StrMap.modifyEntry]
    split
    · simp [hg]
    · simp only [List.map_cons, List.cons.injEq, true_and]
      exact ih

theorem length_mapVals {m : StrMap V} : (mapVals f m).length = m.length := by simp [mapVals]

end

theorem mvUses_push {u : UseDefList} {ud : UseDefKind} {sp : Span} :
    (mvUses k u).push ud (movedSpan k sp) = mvUses k (u.push ud sp) := by
  cases ud <;> simp [mvUses, UseDefList.push]

theorem mvUses_get {u : UseDefList} {ud : UseDefKind} : (mvUses k u).get ud = (u.get ud).map (movedSpan k) := by
  cases ud <;> rfl

theorem mvUses_hasSpan {u : UseDefList} {sp : Span} : (mvUses k u).hasSpan (movedSpan k sp) = u.hasSpan sp := by
  simp only [mvUses, UseDefList.hasSpan, mem_map_movedSpan]

theorem mvRev_insert {m : RevIdx} {p : Nat} {o : SymbolOccurrence} :
    RevIdx.insert (mvRev k m) (p + k) (mvOcc k o) = mvRev k (RevIdx.insert m p o) := by
  induction m with
  | nil => rfl
  | cons e m ih =>
    obtain ⟨q, o'⟩ := e
    simp only [mvRev, List.map_cons, RevIdx.insert, Nat.add_lt_add_iff_right, Nat.add_right_cancel_iff]
    split
    · rfl
    · split
      · rfl
      · simp only [List.map_cons, List.cons.injEq, true_and]
        exact ih

theorem addInternal_moved {m : SymMap} {rev : RevIdx} {fb : Option Nat} {sk : SymbolKind} {ud : UseDefKind} {sp : Span} {n : Str} :
    addInternal (mvMap k m) (mvRev k rev) fb sk ud (movedSpan k sp) n =
      (mvMap k (addInternal m rev fb sk ud sp n).1, mvRev k (addInternal m rev fb sk ud sp n).2) := by
  unfold addInternal mvMap
  rw [get?_mapVals]
  have : ((((StrMap.get? m n).map (mvUses k)).getD {}).hasSpan (movedSpan k sp)) = ((StrMap.get? m n).getD {}).hasSpan sp := by
    cases StrMap.get? m n with
    | none => rfl
    | some u => simp [mvUses_hasSpan]
  rw [this]
  split
  · rfl
  · refine Prod.ext ?_ ?_
    · exact modifyEntry_mapVals rfl fun u => mvUses_push
    · exact mvRev_insert (p := sp.start) (o := ⟨sp, ud, sk, n, fb⟩)

/-! ### Folds -/

theorem map'_map' {α β γ : Type} {f : α → β} {g : β → γ} {x : Outcome α} : (x.map' f).map' g = x.map' (g ∘ f) := by cases x <;> rfl

theorem foldO_moved {σ σ' α β : Type} {f : σ → α → Outcome σ} {f' : σ' → β → Outcome σ'} {g : σ → σ'} {h : α → β} :
    ∀ {l : List α} {st : σ}, (∀ st, ∀ x ∈ l, f' (g st) (h x) = (f st x).map' g) → foldO f' (g st) (l.map h) = (foldO f st l).map' g
  | [], st, _ => rfl
  | x :: l, st, hf => by
    simp only [List.map_cons, foldO]
    rw [hf st x (by simp)]
    cases f st x with
    | panic => rfl
    | ok st' => exact foldO_moved fun st y hy => hf st y (by simp [hy])

theorem addGlobal_moved {ix : HIRIndex} {sk : SymbolKind} {ud : UseDefKind} {sp : Span} {n : Str} :
    (mvIx k ix).addGlobal sk ud (movedSpan k sp) n = (ix.addGlobal sk ud sp n).map' (mvIx k) := by
  cases sk <;> simp [HIRIndex.addGlobal, mvIx, addInternal_moved, Outcome.map']

theorem set_map {α β : Type} {f : α → β} {l : List α} {i : Nat} {x : α} : (l.map f).set i (f x) = (l.set i x).map f := by
  rw [List.map_set]

theorem addFuncLocal_moved {ix : HIRIndex} {id : Nat} {sk : SymbolKind} {ud : UseDefKind} {sp : Span} {n : Str} :
    (mvIx k ix).addFuncLocal id sk ud (movedSpan k sp) n = (ix.addFuncLocal id sk ud sp n).map' (mvIx k) := by
  unfold HIRIndex.addFuncLocal
  rw [show (mvIx k ix).functionBodies = ix.functionBodies.map (mvFun k) from rfl, List.getElem?_map]
  cases ix.functionBodies[id]? with
  | none => rfl
  | some fb => cases sk <;> simp [mvIx, mvFun, addInternal_moved, Outcome.map']

theorem isBranching_moved {i : Instruction} : (movedInstr k i).isBranching = i.isBranching := rfl

theorem addIncoming_moved {m : StrMap (List (Spanned Str))} {t : Str} {l : Spanned Str} :
    addIncoming (mapVals (List.map (moved k)) m) t (moved k l) = mapVals (List.map (moved k)) (addIncoming m t l) := by
  unfold addIncoming
  refine modifyEntry_mapVals rfl fun v => ?_
  by_cases h : l ∈ v
  · rw [if_pos h, if_pos (List.mem_map_of_mem h)]
  · rw [if_neg h, if_neg (by
      intro hm
      obtain ⟨x, hx, e⟩ := List.mem_map.mp hm
      exact h (moved_inj.mp e ▸ hx))]
    simp

theorem indexBbRef_moved {fid : Nat} {bb : BasicBlock} {i : Instruction} {ix : HIRIndex} {r : Spanned Str} :
    indexBbRef fid (movedBlock k bb) (movedInstr k i) (mvIx k ix) (moved k r) = (indexBbRef fid bb i ix r).map' (mvIx k) := by
  unfold indexBbRef
  rw [show (moved k r).2 = movedSpan k r.2 from rfl, show (moved k r).1 = r.1 from rfl, addFuncLocal_moved]
  cases ix.addFuncLocal fid .label .use r.2 r.1 with
  | panic => rfl
  | ok ix =>
    by_cases hbr : i.isBranching = true
    · simp only [Outcome.map', isBranching_moved, hbr, if_true]
      cases hl : bb.label with
      | none => simp [movedBlock, hl]
      | some l =>
        simp only [movedBlock, hl, Option.map_some]
        rw [show (mvIx k ix).functionBodies = ix.functionBodies.map (mvFun k) from rfl, List.getElem?_map]
        cases ix.functionBodies[fid]? with
        | none => rfl
        | some fb => simp [mvIx, mvFun, addIncoming_moved]
    · simp only [Outcome.map', isBranching_moved, hbr]
      rfl

theorem indexInstruction_moved {fid : Nat} {bb : BasicBlock} {ix : HIRIndex} {i : Instruction} :
    indexInstruction fid (movedBlock k bb) (mvIx k ix) (movedInstr k i) = (indexInstruction fid bb ix i).map' (mvIx k) := by
  unfold indexInstruction
  cases ht : i.assignmentTarget with
  | none =>
    simp only [movedInstr, ht, Option.map_none]
    exact foldO_moved (f := indexBbRef fid bb i) (g := mvIx k) (h := moved k) fun st x _ => indexBbRef_moved
  | some t =>
    simp only [movedInstr, ht, Option.map_some, moved]
    rw [addFuncLocal_moved]
    cases ix.addFuncLocal fid .localVar .def_ t.2 t.1 with
    | panic => rfl
    | ok ix =>
      simp only [Outcome.map']
      have := foldO_moved (st := ix) (l := i.basicBlockRefs) (f := indexBbRef fid bb i) (f' := indexBbRef fid (movedBlock k bb) (movedInstr k i)) (g := mvIx k) (h := moved k) fun st x _ => indexBbRef_moved
      simp only [movedInstr, ht, Option.map_some, moved] at this
      exact this

theorem indexBlock_moved {fid : Nat} {ix : HIRIndex} {bb : BasicBlock} :
    indexBlock fid (mvIx k ix) (movedBlock k bb) = (indexBlock fid ix bb).map' (mvIx k) := by
  have key : ∀ ix, foldO (indexInstruction fid (movedBlock k bb)) (mvIx k ix) (bb.instructions.map (movedInstr k)) = (foldO (indexInstruction fid bb) ix bb.instructions).map' (mvIx k) :=
    fun ix => foldO_moved fun st x _ => indexInstruction_moved
  unfold indexBlock
  rw [show (movedBlock k bb).label = bb.label.map (moved k) from rfl, show (movedBlock k bb).instructions = bb.instructions.map (movedInstr k) from rfl]
  cases hl : bb.label with
  | none => exact key ix
  | some l =>
    simp only [Option.map_some]
    rw [show (moved k l).2 = movedSpan k l.2 from rfl, show (moved k l).1 = l.1 from rfl, addFuncLocal_moved]
    cases ix.addFuncLocal fid .label .def_ l.2 l.1 with
    | panic => rfl
    | ok ix => exact key ix

theorem indexFuncDef_moved {ix : HIRIndex} {kw : Span} {sig : FuncSignature} {body : FuncBody} :
    indexFuncDef (mvIx k ix) (movedSpan k kw) (movedSig k sig) (movedBody k body) = (indexFuncDef ix kw sig body).map' (mvIx k) := by
  unfold indexFuncDef
  rw [show (movedSig k sig).name = (sig.name.1, movedSpan k sig.name.2) from rfl]
  simp only [addGlobal_moved]
  cases ix.addGlobal .function .def_ sig.name.2 sig.name.1 with
  | panic => rfl
  | ok ix =>
    simp only [Outcome.map']
    let ix1 : HIRIndex := { ix with functionBodies := ix.functionBodies ++
      [{ name := sig.name, completeRange := { start := kw.start, stop := body.closingBracket.stop }, basicBlocks := body.basicBlocks }] }
    have e1 : ({ mvIx k ix with functionBodies := (mvIx k ix).functionBodies ++
      [{ name := (sig.name.1, movedSpan k sig.name.2), completeRange := { start := (movedSpan k kw).start, stop := (movedBody k body).closingBracket.stop }, basicBlocks := (movedBody k body).basicBlocks }] } : HIRIndex) = mvIx k ix1 := by
      simp only [mvIx, ix1, List.map_append, List.map_cons, List.map_nil]
      rfl
    rw [e1]
    have e2 : ((mvIx k ix).functionBodies ++
      [({ name := (sig.name.1, movedSpan k sig.name.2), completeRange := { start := (movedSpan k kw).start, stop := (movedBody k body).closingBracket.stop }, basicBlocks := (movedBody k body).basicBlocks } : FunctionBody)]).length - 1 = ix1.functionBodies.length - 1 := by simp [mvIx, ix1]
    rw [e2]
    have e3 : foldO (indexArg (ix1.functionBodies.length - 1)) (mvIx k ix1) (movedSig k sig).args =
        (foldO (indexArg (ix1.functionBodies.length - 1)) ix1 sig.args).map' (mvIx k) := by
      refine foldO_moved fun st a _ => ?_
      exact addFuncLocal_moved
    rw [e3]
    show _ = Outcome.map' (mvIx k) (match foldO (indexArg (ix1.functionBodies.length - 1)) ix1 sig.args with
      | .panic => .panic
      | .ok ix => foldO (indexBlock (ix1.functionBodies.length - 1)) ix body.basicBlocks)
    cases foldO (indexArg (ix1.functionBodies.length - 1)) ix1 sig.args with
    | panic => rfl
    | ok ix2 =>
      simp only [Outcome.map']
      exact foldO_moved fun st a _ => indexBlock_moved

theorem parseExternalDef_moved {d : List (Spanned Token)} : parseExternalDef (d.map (moved k)) = parseExternalDef d := by
  cases d with
  | nil => rfl
  | cons t d =>
    obtain ⟨t, sp⟩ := t
    cases d with
    | nil => cases t <;> rfl
    | cons u d => cases t <;> rfl

theorem annotationValue_moved {A B : Str} (ha : Ascii A) {d : List (Spanned Token)} :
    annotationValue (A ++ B) (d.map (moved A.length)) = annotationValue B d := by
  unfold annotationValue
  rw [List.head?_map, List.getLast?_map]
  cases d.head? with
  | none => rfl
  | some f => cases d.getLast? with
    | none => rfl
    | some l =>
      simp only [Option.map_some, moved, movedSpan]
      rw [sliceBytes_behind ha]

theorem addExternalDef_moved {ix : HIRIndex} {u : StrMap Str} {n : Str} {d : List (Spanned Token)} :
    addExternalDef (mvIx k ix) u n (d.map (moved k)) = (addExternalDef ix u n d).map' (mvIx k) := by
  unfold addExternalDef
  cases StrMap.get? u n with
  | none => rfl
  | some fn =>
    simp only [parseExternalDef_moved]
    cases parseExternalDef d with
    | none => rfl
    | some x =>
      simp only
      rw [show (mvIx k ix).functions = mapVals (mvUses k) ix.functions from rfl, get?_mapVals]
      cases StrMap.get? ix.functions fn with
      | none => rfl
      | some _ =>
        simp only [Option.map_some, Outcome.map']
        have := modifyEntry_mapVals (f := mvUses k) (m := ix.functions) (n := fn) (d := {}) (d' := {}) (g := fun e => { e with externalDefs := e.externalDefs ++ [x] })
          (g' := fun e => { e with externalDefs := e.externalDefs ++ [x] }) rfl fun v => rfl
        rw [this]
        rfl

/-- The state of the statement loop, moved. -/
def mvSt (k : Nat) (st : StmtState) : StmtState := (mvIx k st.1, st.2)

theorem indexStatement_moved {A B : Str} (ha : Ascii A) {st : StmtState} {s : Statement} :
    indexStatement (A ++ B) (mvSt A.length st) (movedStmt A.length s) = (indexStatement B st s).map' (mvSt A.length) := by
  cases s with
  | globalVar n d =>
    simp only [indexStatement, movedStmt, mvSt, moved]
    rw [addGlobal_moved]
    cases st.1.addGlobal .globalVar .def_ n.2 n.1 <;> rfl
  | funcDecl sig at_ d =>
    simp only [indexStatement, movedStmt, mvSt, movedSig, moved]
    rw [addGlobal_moved]
    cases st.1.addGlobal .function .decl sig.name.2 sig.name.1 with
    | panic => rfl
    | ok ix => cases d <;> rfl
  | funcDef kw sig b =>
    simp only [indexStatement, movedStmt, mvSt]
    rw [indexFuncDef_moved]
    cases indexFuncDef st.1 kw sig b <;> rfl
  | funcDependencies n ds => rfl
  | dbgAnnotation n d =>
    simp only [indexStatement, movedStmt, mvSt]
    rw [show (moved A.length n).2 = movedSpan A.length n.2 from rfl, show (moved A.length n).1 = n.1 from rfl, addGlobal_moved]
    cases st.1.addGlobal .dbgAnnotation .def_ n.2 n.1 with
    | panic => rfl
    | ok ix =>
      simp only [Outcome.map']
      rw [annotationValue_moved ha]
      cases annotationValue B d with
      | panic => rfl
      | ok v =>
        simp only
        cases v with
        | none =>
          simp only
          rw [addExternalDef_moved]
          cases addExternalDef ix st.2 n.1 d <;> rfl
        | some v =>
          have := addExternalDef_moved (k := A.length) (ix := { ix with dbgAnnotationValues := ix.dbgAnnotationValues.insert n.1 v }) (u := st.2) (n := n.1) (d := d)
          simp only [mvIx] at this ⊢
          rw [this]
          cases addExternalDef { ix with dbgAnnotationValues := ix.dbgAnnotationValues.insert n.1 v } st.2 n.1 d <;> rfl

theorem contains_moved {sp : Span} {p : Nat} : (movedSpan k sp).contains (p + k) = sp.contains p := by
  simp [Span.contains, movedSpan]

theorem findIdx?_map' {α β : Type} {f : α → β} {p : β → Bool} {l : List α} : (l.map f).findIdx? p = l.findIdx? (p ∘ f) := by
  induction l with
  | nil => rfl
  | cons x l ih => simp [List.findIdx?_cons, ih]

theorem findBody_moved {l : List FunctionBody} {p : Nat} : findBody (l.map (mvFun k)) (p + k) = findBody l p := by
  unfold findBody
  rw [findIdx?_map']
  congr 1
  funext b
  exact contains_moved

theorem currentBody_moved {ix : HIRIndex} {c : Option Nat} {p : Nat} : currentBody (mvIx k ix) c (p + k) = currentBody ix c p := by
  unfold currentBody
  rw [show (mvIx k ix).functionBodies = ix.functionBodies.map (mvFun k) from rfl]
  cases c with
  | none => simp only [findBody_moved]
  | some id =>
    simp only [List.getElem?_map]
    cases ix.functionBodies[id]? with
    | none => rfl
    | some fb =>
      simp only [Option.map_some]
      rw [show (mvFun k fb).completeRange = movedSpan k fb.completeRange from rfl, contains_moved, findBody_moved]

/-- The state of the token loop, moved. -/
def mvTs (k : Nat) (st : TokState) : TokState := (mvIx k st.1, st.2)

theorem indexToken_moved {st : TokState} {t : Spanned Token} : indexToken (mvTs k st) (moved k t) = (indexToken st t).map' (mvTs k) := by
  obtain ⟨t, sp⟩ := t
  cases t with
  | globalName n =>
    have e : (StrMap.get? (mvIx k st.1).functions n).isSome = (StrMap.get? st.1.functions n).isSome := by
      rw [show (mvIx k st.1).functions = mapVals (mvUses k) st.1.functions from rfl, get?_mapVals, Option.isSome_map]
    simp only [indexToken, moved, mvTs, e]
    rw [addGlobal_moved]
    cases st.1.addGlobal (if (StrMap.get? st.1.functions n).isSome = true then .function else .globalVar) .use sp n <;> rfl
  | debugRef n =>
    simp only [indexToken, moved, mvTs]
    rw [addGlobal_moved]
    cases st.1.addGlobal .dbgAnnotation .use sp n <;> rfl
  | localName n =>
    simp only [indexToken, moved, mvTs]
    rw [show (movedSpan k sp).start = sp.start + k from rfl, currentBody_moved]
    cases currentBody st.1 st.2 sp.start with
    | panic => rfl
    | ok c => cases c with
      | none => rfl
      | some id =>
        simp only
        rw [addFuncLocal_moved]
        cases st.1.addFuncLocal id .localVar .use sp n <;> rfl
  | _ => rfl

theorem foldO_skip {σ α : Type} {f : σ → α → Outcome σ} {st : σ} {a b : List α} (h : ∀ x ∈ a, f st x = .ok st) :
    foldO f st (a ++ b) = foldO f st b := by
  induction a with
  | nil => rfl
  | cons x a ih =>
    simp only [List.cons_append, foldO]
    rw [h x (by simp)]
    exact ih fun y hy => h y (by simp [hy])

/-- The index of a document behind lines of comments is its index, moved. -/
theorem createIndex_moved {A B : Str} (ha : Ascii A) {ts tsB : List (Spanned Token)} {ss : List Statement}
    (hts : ∀ t ∈ ts, t.1 = .newline ∨ t.1 = .comment) :
    createIndex (A ++ B) (ts ++ tsB.map (moved A.length)) (ss.map (movedStmt A.length)) = (createIndex B tsB ss).map' (mvIx A.length) := by
  unfold createIndex
  have h1 := foldO_moved (st := (({}, []) : StmtState)) (l := ss) (f := indexStatement B) (f' := indexStatement (A ++ B)) (g := mvSt A.length) (h := movedStmt A.length)
    fun st s _ => indexStatement_moved ha
  rw [show mvSt A.length (({}, []) : StmtState) = ({}, []) from rfl] at h1
  rw [h1]
  cases foldO (indexStatement B) ({}, []) ss with
  | panic => rfl
  | ok st =>
    obtain ⟨ix, u⟩ := st
    simp only [Outcome.map', mvSt]
    rw [foldO_skip fun t ht => by
      obtain ⟨t, sp⟩ := t
      rcases hts _ ht with h | h <;> (simp only at h; subst h; rfl)]
    have h2 := foldO_moved (st := ((ix, none) : TokState)) (l := tsB) (f := indexToken) (f' := indexToken) (g := mvTs A.length) (h := moved A.length) fun st s _ => indexToken_moved
    rw [show mvTs A.length ((ix, none) : TokState) = (mvIx A.length ix, none) from rfl] at h2
    rw [h2]
    cases foldO indexToken (ix, none) tsB <;> rfl

end HyperIR
