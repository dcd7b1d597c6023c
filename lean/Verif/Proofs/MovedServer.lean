import Verif.Proofs.MovedIndex
import Verif.Props.Consistency

/- What the handlers answer for a document with lines of comments in front of it (src/main.rs). -/

namespace HyperIR
open Spec

/-- The analysis of the same document, behind `A`. -/
structure MovedDoc (A B : Str) (doc doc' : AnalyzedDocument) : Prop where
  under : Under A B
  rope : doc.rope = B
  rope' : doc'.rope = A ++ B
  stmts : doc'.stmts = doc.stmts.map (movedStmt A.length)
  index : doc'.index = mvIx A.length doc.index

section
variable {A B : Str} {doc doc' : AnalyzedDocument} (h : MovedDoc A B doc doc')
include h

theorem MovedDoc.range (sp : Span) : rangeToLsp doc'.rope (movedSpan A.length sp) = (rangeToLsp doc.rope sp).map (lowerRange (linesOf A)) := by
  rw [h.rope, h.rope', rangeToLsp_behind h.under]

theorem MovedDoc.pos (p : Nat) : offsetToLspPos doc'.rope (p + A.length) = (offsetToLspPos doc.rope p).map (lowerPos (linesOf A)) := by
  rw [h.rope, h.rope', offsetToLspPos_behind h.under]

theorem MovedDoc.symbolAt (p : Pos) : symbolAt doc' (lowerPos (linesOf A) p) = (symbolAt doc p).map (mvOcc A.length) := by
  unfold HyperIR.symbolAt
  rw [h.rope, h.rope', lspPosToOffset_behind h.under.lined, h.index]
  cases lspPosToOffset B p with
  | none => rfl
  | some off =>
    simp only [Option.map_some, Option.bind_some]
    unfold HIRIndex.findSymbolAtPosition
    rw [show (mvIx A.length doc.index).reverseIdx = List.map (fun e => (e.1 + A.length, mvOcc A.length e.2)) doc.index.reverseIdx from rfl, List.map_map]
    generalize doc.index.reverseIdx = l
    induction l with
    | nil => rfl
    | cons e l ih =>
      simp only [List.map_cons, Function.comp, List.find?_cons]
      rw [show (mvOcc A.length e.2).span = movedSpan A.length e.2.span from rfl, contains_moved]
      cases e.2.span.contains off with
      | true => rfl
      | false => exact ih

theorem MovedDoc.tableOf (sk : SymbolKind) (fb : Option Nat) : tableOf doc'.index sk fb = (tableOf doc.index sk fb).map' (mvMap A.length) := by
  unfold HyperIR.tableOf HIRIndex.funcBody
  rw [h.index]
  have key : ∀ f : Option FunctionBody, (mvIx A.length doc.index).getBySymbolKind sk (f.map (mvFun A.length)) = (doc.index.getBySymbolKind sk f).map' (mvMap A.length) := by
    intro f
    cases sk <;> cases f <;> rfl
  cases fb with
  | none => exact key none
  | some id =>
    rw [show (mvIx A.length doc.index).functionBodies = doc.index.functionBodies.map (mvFun A.length) from rfl]
    simp only [List.getElem?_map]
    cases doc.index.functionBodies[id]? with
    | none => rfl
    | some f => exact key (some f)

theorem MovedDoc.locations (uri : Str) (l : List Span) :
    localLocations uri doc'.rope (l.map (movedSpan A.length)) = (localLocations uri doc.rope l).map (lowerLoc (linesOf A)) := by
  unfold localLocations
  rw [List.filterMap_map, List.map_filterMap]
  congr 1
  funext sp
  simp only [Function.comp, h.range]
  cases rangeToLsp doc.rope sp <;> rfl

theorem MovedDoc.renameEdits (u : UseDefList) (n : Str) :
    getRenameEdits doc'.rope (mvUses A.length u) n = (getRenameEdits doc.rope u n).map (lowerEdit (linesOf A)) := by
  unfold getRenameEdits mvUses
  simp only
  rw [← List.map_append, ← List.map_append, List.filterMap_map, List.map_filterMap]
  congr 1
  funext sp
  simp only [Function.comp, h.range]
  cases rangeToLsp doc.rope sp <;> rfl

variable [Unicode]

omit h [Unicode] in
theorem collectO_map {α α' β β' : Type} {f : α → Outcome (List β)} {f' : α' → Outcome (List β')} {g : β → β'} {m : α → α'}
    (hf : ∀ x, f' (m x) = (f x).map' (List.map g)) : ∀ l : List α, collectO f' (l.map m) = (collectO f l).map' (List.map g)
  | [] => rfl
  | x :: l => by
    simp only [List.map_cons, collectO]
    rw [hf, collectO_map hf l]
    cases f x with
    | panic => rfl
    | ok ys => cases collectO f l with
      | panic => rfl
      | ok zs => simp [Outcome.map']

theorem MovedDoc.shiftEdits (ord : IterOrder) (b : Build) (sk : SymbolKind) (fb : Option Nat) (nr s : Int) :
    OutRel List.Perm (getShiftEdits ord b doc'.rope doc'.index sk fb nr s)
      ((getShiftEdits ord b doc.rope doc.index sk fb nr s).map' (List.map (lowerEdit (linesOf A)))) := by
  have ht := h.tableOf sk fb
  unfold HyperIR.tableOf at ht
  unfold getShiftEdits
  have key : ∀ x : Outcome SymMap, ∀ y : Outcome SymMap, y = x.map' (mvMap A.length) →
      OutRel List.Perm (match y with | .panic => Outcome.panic | .ok m => collectO (fun (name, u) => shiftEditsOf b doc'.rope nr s name u) (ord.run m))
        ((match x with | .panic => Outcome.panic | .ok m => collectO (fun (name, u) => shiftEditsOf b doc.rope nr s name u) (ord.run m)).map' (List.map (lowerEdit (linesOf A)))) := by
    intro x y e
    subst e
    cases x with
    | panic => trivial
    | ok m =>
      simp only [Outcome.map']
      refine OutRel.trans (R := List.Perm) (fun _ _ _ => List.Perm.trans)
        (collectO_perm _ ((ord.perm (mvMap A.length m)).trans ((ord.perm m).symm.map _))) ?_
      have := collectO_map (f := fun (name, u) => shiftEditsOf b doc.rope nr s name u) (f' := fun (name, u) => shiftEditsOf b doc'.rope nr s name u)
        (g := lowerEdit (linesOf A)) (m := fun e : Str × UseDefList => (e.1, mvUses A.length e.2)) (fun e => by
          obtain ⟨name, u⟩ := e
          simp only
          unfold shiftEditsOf
          cases extractNumberFromIdentifier name with
          | panic => rfl
          | ok x => cases x with
            | none => rfl
            | some x =>
              simp only
              split
              · rfl
              · cases i64Op b (x.2 + s) with
                | panic => rfl
                | ok v => simp only [Outcome.map', h.renameEdits]) (ord.run m)
      rw [this]
      exact OutRel.refl (fun _ => List.Perm.refl _) _
  revert ht
  cases doc'.index.funcBody fb with
  | panic =>
    cases doc.index.funcBody fb with
    | panic => intro _; trivial
    | ok f => exact fun ht => key _ _ ht
  | ok f' =>
    cases doc.index.funcBody fb with
    | panic => exact fun ht => key .panic _ ht
    | ok f => exact fun ht => key _ _ ht

omit [Unicode] in
theorem MovedDoc.outline (ord : IterOrder) :
    (outlineGlobals ord doc' ++ outlineFunctions doc').Perm ((outlineGlobals ord doc ++ outlineFunctions doc).map (lowerSymbol (linesOf A))) := by
  rw [List.map_append]
  refine List.Perm.append ?_ (List.Perm.of_eq ?_)
  · unfold outlineGlobals
    rw [h.index, List.map_flatMap]
    refine (((ord.perm (mvMap A.length doc.index.globalVars)).trans ((ord.perm doc.index.globalVars).symm.map _)).flatMap_right _).trans ?_
    rw [List.flatMap_map]
    refine List.Perm.of_eq ?_
    congr 1
    funext e
    simp only [mvUses]
    rw [List.filterMap_map, List.map_filterMap]
    congr 1
    funext sp
    simp only [Function.comp, h.range]
    cases rangeToLsp doc.rope sp <;> rfl
  · unfold outlineFunctions
    rw [h.index, show (mvIx A.length doc.index).functionBodies = doc.index.functionBodies.map (mvFun A.length) from rfl, List.filterMap_map, List.map_filterMap]
    congr 1
    funext f
    simp only [Function.comp, mvFun, moved, h.range]
    cases rangeToLsp doc.rope f.completeRange with
    | none => rfl
    | some r => cases rangeToLsp doc.rope f.name.2 <;> rfl

omit [Unicode] in
theorem MovedDoc.fold (sp : Span) (t : Str) : foldOf doc'.rope (movedSpan A.length sp) t = (foldOf doc.rope sp t).map (lowerFold (linesOf A)) := by
  unfold foldOf
  rw [h.range]
  cases rangeToLsp doc.rope sp <;> rfl

omit [Unicode] in
theorem MovedDoc.folds : foldsOf doc' = (foldsOf doc).map (lowerFold (linesOf A)) := by
  unfold foldsOf
  rw [h.index, show (mvIx A.length doc.index).functionBodies = doc.index.functionBodies.map (mvFun A.length) from rfl, List.map_append]
  congr 1
  · rw [List.filterMap_map, List.map_filterMap]
    congr 1
    funext f
    simp only [Function.comp, mvFun, h.fold, mvMap, length_mapVals]
  · rw [show (doc.index.functionBodies.map (mvFun A.length)).flatMap FunctionBody.basicBlocks = (doc.index.functionBodies.flatMap FunctionBody.basicBlocks).map (movedBlock A.length) by
      rw [List.flatMap_map, List.map_flatMap]; rfl, List.filterMap_map, List.map_filterMap]
    congr 1
    funext b
    simp only [Function.comp, movedBlock, h.fold, List.length_map]

omit [Unicode] in
theorem MovedDoc.parts (uri : Str) : ∀ (l : List (Spanned Str)) (i : Nat),
    incomingParts uri doc'.rope i (l.map (moved A.length)) = (incomingParts uri doc.rope i l).map (lowerPart (linesOf A))
  | [], _ => rfl
  | (n, sp) :: l, i => by
    simp only [List.map_cons, moved, incomingParts, h.range]
    cases rangeToLsp doc.rope sp with
    | none => exact MovedDoc.parts uri l (i + 1)
    | some r =>
      simp only [Option.map_some, List.map_cons]
      rw [← MovedDoc.parts uri l (i + 1)]
      rfl

omit [Unicode] in
theorem MovedDoc.incoming (uri : Str) : incomingHints uri doc' = (incomingHints uri doc).map (lowerHint (linesOf A)) := by
  unfold incomingHints
  rw [h.index, show (mvIx A.length doc.index).functionBodies = doc.index.functionBodies.map (mvFun A.length) from rfl, List.flatMap_map, List.map_flatMap]
  congr 1
  funext f
  rw [show (mvFun A.length f).basicBlocks = f.basicBlocks.map (movedBlock A.length) from rfl, List.filterMap_map, List.map_filterMap]
  congr 1
  funext b
  simp only [Function.comp]
  unfold incomingHint
  rw [show (movedBlock A.length b).label = b.label.map (moved A.length) from rfl]
  cases b.label with
  | none => rfl
  | some l =>
    simp only [Option.map_some]
    rw [show (mvFun A.length f).incomingBbBranches = mapVals (List.map (moved A.length)) f.incomingBbBranches from rfl,
      show (moved A.length l).1 = l.1 from rfl, get?_mapVals]
    cases StrMap.get? f.incomingBbBranches l.1 with
    | none => rfl
    | some refs =>
      simp only [Option.map_some]
      rw [show (movedBlock A.length b).labelCommaSpan = b.labelCommaSpan.map (movedSpan A.length) from rfl]
      cases b.labelCommaSpan with
      | none => rfl
      | some c =>
        simp only [Option.map_some]
        rw [show (movedSpan A.length c).stop = c.stop + A.length from rfl, h.pos]
        cases offsetToLspPos doc.rope c.stop with
        | none => rfl
        | some p =>
          simp only [Option.map_some, h.parts]
          rfl

omit [Unicode] in
theorem MovedDoc.ends (uri : Str) : endHints uri doc' = (endHints uri doc).map (lowerHint (linesOf A)) := by
  unfold endHints
  rw [h.index, show (mvIx A.length doc.index).functionBodies = doc.index.functionBodies.map (mvFun A.length) from rfl, List.filterMap_map, List.map_filterMap]
  congr 1
  funext f
  simp only [Function.comp]
  rw [show (mvFun A.length f).completeRange.stop = f.completeRange.stop + A.length from rfl, h.pos,
    show (mvFun A.length f).name = (f.name.1, movedSpan A.length f.name.2) from rfl]
  cases offsetToLspPos doc.rope f.completeRange.stop with
  | none => rfl
  | some p =>
    simp only [Option.map_some, h.range]
    cases rangeToLsp doc.rope f.name.2 <;> rfl

omit h [Unicode] in
theorem allInstructions_moved (k : Nat) (ss : List Statement) :
    allInstructions (ss.map (movedStmt k)) = (allInstructions ss).map (movedInstr k) := by
  unfold allInstructions
  rw [List.flatMap_map, List.map_flatMap]
  congr 1
  funext s
  cases s with
  | funcDef kw sig b =>
    simp only [movedStmt, movedBody]
    rw [List.flatMap_map, List.map_flatMap]
    rfl
  | _ => rfl

omit h in
theorem backtraceHint_lower (n : Nat) (p : Pos) (fs : List Frame) :
    inlayHintForBacktrace (lowerPos n p) fs = (inlayHintForBacktrace p fs).map' (lowerHint n) := by
  unfold inlayHintForBacktrace
  simp only
  cases identifyRelevantFrames fs with
  | none => rfl
  | some i =>
    simp only
    cases fs[i]? with
    | none => rfl
    | some f =>
      simp only
      cases shortenName f.symbol 50 <;> rfl

theorem MovedDoc.backtraces (env : Env) (roots : List Url) :
    backtraceHints env roots doc' = (backtraceHints env roots doc).map' (List.map (lowerHint (linesOf A))) := by
  unfold backtraceHints
  rw [h.stmts, allInstructions_moved]
  refine collectO_map (fun i => ?_) _
  unfold backtraceHint
  rw [show (movedInstr A.length i).dbgRef = i.dbgRef.map (moved A.length) from rfl, h.index]
  cases i.dbgRef with
  | none => rfl
  | some d =>
    simp only [Option.map_some]
    rw [show (moved A.length d).1 = d.1 from rfl, show (mvIx A.length doc.index).dbgAnnotationValues = doc.index.dbgAnnotationValues from rfl,
      show (moved A.length d).2.stop = d.2.stop + A.length from rfl]
    cases StrMap.get? doc.index.dbgAnnotationValues d.1 with
    | none => rfl
    | some txt =>
      simp only
      cases env.json txt with
      | none => rfl
      | some j =>
        simp only
        cases parseBacktraceFromJson env.fs roots j with
        | panic => rfl
        | ok fs => cases fs with
          | none => rfl
          | some fs =>
            simp only
            rw [h.pos]
            cases offsetToLspPos doc.rope d.2.stop with
            | none => rfl
            | some p =>
              simp only [Option.map_some]
              rw [backtraceHint_lower]
              cases inlayHintForBacktrace p fs <;> rfl

omit [Unicode] in
theorem MovedDoc.lenses (ord : IterOrder) (uri : Str) : ((ord.run doc'.index.functions).filterMap (codeLensOf uri doc'.rope)).Perm
    (((ord.run doc.index.functions).filterMap (codeLensOf uri doc.rope)).map (lowerLens (linesOf A))) := by
  rw [h.index]
  refine (((ord.perm (mvMap A.length doc.index.functions)).trans ((ord.perm doc.index.functions).symm.map _)).filterMap _).trans ?_
  rw [List.filterMap_map, List.map_filterMap]
  refine List.Perm.of_eq ?_
  congr 1
  funext e
  simp only [Function.comp]
  unfold codeLensOf
  simp only [mvUses]
  cases e.2.defs with
  | nil => rfl
  | cons sp l => cases l with
    | nil =>
      simp only [List.map_cons, List.map_nil, h.range]
      cases rangeToLsp doc.rope sp <;> rfl
    | cons sp' l => rfl

omit h [Unicode] in
theorem createCfgDot_moved (k : Nat) (f : FunctionBody) : createCfgDot (mvFun k f) = createCfgDot f := by
  have : cfgEdges (mvFun k f) = cfgEdges f := by
    unfold cfgEdges
    rw [show (mvFun k f).basicBlocks = f.basicBlocks.map (movedBlock k) from rfl, List.flatMap_map]
    congr 1
    funext b
    rw [show (movedBlock k b).instructions = b.instructions.map (movedInstr k) from rfl, List.flatMap_map]
    congr 1
    funext i
    rw [show (movedInstr k i).isBranching = i.isBranching from rfl, show (movedBlock k b).label = b.label.map (moved k) from rfl]
    cases b.label with
    | none => rfl
    | some l =>
      simp only [Option.map_some, movedInstr, List.map_map]
      rfl
  unfold createCfgDot
  rw [this]
  rfl

omit [Unicode] in
theorem MovedDoc.findFunction (n : Str) : doc'.index.functionBodies.find? (fun b => decide (b.name.1 = n)) =
    (doc.index.functionBodies.find? (fun b => decide (b.name.1 = n))).map (mvFun A.length) := by
  rw [h.index, show (mvIx A.length doc.index).functionBodies = doc.index.functionBodies.map (mvFun A.length) from rfl, List.find?_map]
  rfl

/-! ### Diagnostics -/

omit [Unicode] in
theorem MovedDoc.parserDiagnostics (es : List SErr) : diagnosticsFromParser doc'.rope (es.map (movedErr A.length)) =
    (diagnosticsFromParser doc.rope es).map (lowerDiagnostic (linesOf A)) := by
  unfold diagnosticsFromParser
  rw [List.filterMap_map, List.map_filterMap]
  congr 1
  funext e
  simp only [Function.comp]
  rw [show (movedErr A.length e).span = movedSpan A.length e.span from rfl, h.range]
  cases rangeToLsp doc.rope e.span <;> rfl

omit [Unicode] in
theorem MovedDoc.statementDiagnostics : diagnosticsFromStatements doc'.rope doc'.stmts =
    (diagnosticsFromStatements doc.rope doc.stmts).map (lowerDiagnostic (linesOf A)) := by
  unfold diagnosticsFromStatements
  rw [h.stmts, allInstructions_moved, List.filterMap_map, List.map_filterMap]
  congr 1
  funext i
  simp only [Function.comp]
  unfold diagnoseInstruction
  rw [show (movedInstr A.length i).isBranching = i.isBranching from rfl,
    show (movedInstr A.length i).instruction = (i.instruction.1, movedSpan A.length i.instruction.2) from rfl,
    show (movedInstr A.length i).basicBlockRefs = i.basicBlockRefs.map (moved A.length) from rfl, List.isEmpty_map]
  simp only
  split
  · rw [h.range]
    cases rangeToLsp doc.rope i.instruction.2 <;> rfl
  · rfl

omit [Unicode] in
theorem MovedDoc.diagnoseSymbol (uri n : Str) (u : UseDefList) : diagnoseSymbol doc'.rope uri n (mvUses A.length u) =
    (diagnoseSymbol doc.rope uri n u).map (lowerDiagnostic (linesOf A)) := by
  unfold HyperIR.diagnoseSymbol
  simp only [mvUses, List.isEmpty_map]
  split
  · rw [List.filterMap_map, List.map_filterMap]
    congr 1
    funext sp
    simp only [Function.comp, h.range]
    cases rangeToLsp doc.rope sp <;> rfl
  · cases u.defs with
    | nil => rfl
    | cons a l => cases l with
      | nil => rfl
      | cons b l =>
        simp only [List.map_cons]
        rw [← List.map_cons, List.filterMap_map, List.map_filterMap]
        congr 1
        funext sp
        simp only [Function.comp, h.range]
        cases rangeToLsp doc.rope a with
        | none => rfl
        | some r0 => cases rangeToLsp doc.rope sp <;> rfl

omit [Unicode] h in
theorem allUseDefs_moved (ord : IterOrder) (k : Nat) (ix : HIRIndex) :
    (allUseDefs ord (mvIx k ix)).Perm (List.map (fun e => (e.1, mvUses k e.2)) (allUseDefs ord ix)) := by
  have hp : ∀ m : SymMap, (ord.run (mvMap k m)).Perm (List.map (fun e => (e.1, mvUses k e.2)) (ord.run m)) :=
    fun m => (ord.perm (mvMap k m)).trans ((ord.perm m).symm.map _)
  have hf : ∀ (g : FunctionBody → SymMap), (∀ f, g (mvFun k f) = mvMap k (g f)) → ∀ l : List FunctionBody,
      ((l.map (mvFun k)).flatMap fun fb => ord.run (g fb)).Perm (List.map (fun e => (e.1, mvUses k e.2)) (l.flatMap fun fb => ord.run (g fb))) := by
    intro g hg l
    induction l with
    | nil => exact .refl _
    | cons f l ih =>
      simp only [List.map_cons, List.flatMap_cons, List.map_append]
      rw [hg]
      exact (hp _).append ih
  unfold allUseDefs
  simp only [List.map_append]
  exact ((((hp _).append (hp _)).append (hp _)).append (hf _ (fun _ => rfl) _)).append (hf _ (fun _ => rfl) _)

omit [Unicode] in
theorem MovedDoc.indexDiagnostics (ord : IterOrder) (uri : Str) : (diagnosticsFromIndex ord doc'.rope uri doc'.index).Perm
    ((diagnosticsFromIndex ord doc.rope uri doc.index).map (lowerDiagnostic (linesOf A))) := by
  unfold diagnosticsFromIndex
  rw [h.index]
  refine ((allUseDefs_moved ord A.length doc.index).flatMap_right _).trans ?_
  rw [List.flatMap_map, List.map_flatMap]
  refine List.Perm.of_eq ?_
  congr 1
  funext e
  obtain ⟨n, u⟩ := e
  exact h.diagnoseSymbol uri n u

omit [Unicode] in
theorem MovedDoc.diagnostics (env : Env) (uri : Str) (es : List SErr) :
    (documentDiagnostics env uri doc' (es.map (movedErr A.length))).Perm ((documentDiagnostics env uri doc es).map (lowerDiagnostic (linesOf A))) := by
  unfold documentDiagnostics
  rw [h.parserDiagnostics, h.statementDiagnostics, List.map_append, List.map_append]
  exact (h.indexDiagnostics env.ord uri).append_left _

end

end HyperIR
