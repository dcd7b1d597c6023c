import Verif.Proofs.PlacedIndex
import Verif.Props.Consistency
import Verif.Proofs.MovedServer

/- What the handlers answer for two documents that contain the same code on the same lines and columns (src/main.rs). -/

namespace HyperIR
open Spec

/-- Two analyses of the same code, found at other offsets but on the same lines and columns. -/
structure Twin (g g' : Nat → Nat) (ix0 : HIRIndex) (ss0 : List Statement) (doc doc' : AnalyzedDocument) : Prop where
  pos : ∀ x, offsetToLspPos doc'.rope (g' x) = offsetToLspPos doc.rope (g x)
  stmts : doc.stmts = ss0.map (Move.mk g g).stmt
  stmts' : doc'.stmts = ss0.map (Move.mk g' g').stmt
  index : doc.index = plIx (Move.mk g g) ix0
  index' : doc'.index = plIx (Move.mk g' g') ix0

section
variable {g g' : Nat → Nat} {ix0 : HIRIndex} {ss0 : List Statement} {doc doc' : AnalyzedDocument} (h : Twin g g' ix0 ss0 doc doc')
include h

theorem Twin.range (sp : Span) : rangeToLsp doc'.rope ((Move.mk g' g').span sp) = rangeToLsp doc.rope ((Move.mk g g).span sp) := by
  unfold rangeToLsp Move.span
  simp only [h.pos]

theorem Twin.bodies : doc.index.functionBodies = ix0.functionBodies.map (plFun (Move.mk g g)) := by rw [h.index]; rfl
theorem Twin.bodies' : doc'.index.functionBodies = ix0.functionBodies.map (plFun (Move.mk g' g')) := by rw [h.index']; rfl

theorem Twin.table (sk : SymbolKind) (fb : Option Nat) : ∃ x : Outcome SymMap,
    tableOf doc.index sk fb = x.map' (plMap (Move.mk g g)) ∧ tableOf doc'.index sk fb = x.map' (plMap (Move.mk g' g')) := by
  refine ⟨tableOf ix0 sk fb, ?_⟩
  have key : ∀ (g : Nat → Nat), tableOf (plIx (Move.mk g g) ix0) sk fb = (tableOf ix0 sk fb).map' (plMap (Move.mk g g)) := by
    intro g
    unfold HyperIR.tableOf HIRIndex.funcBody
    have key : ∀ f : Option FunctionBody, (plIx (Move.mk g g) ix0).getBySymbolKind sk (f.map (plFun (Move.mk g g))) = (ix0.getBySymbolKind sk f).map' (plMap (Move.mk g g)) := by
      intro f
      cases sk <;> cases f <;> rfl
    cases fb with
    | none => exact key none
    | some id =>
      rw [show (plIx (Move.mk g g) ix0).functionBodies = ix0.functionBodies.map (plFun (Move.mk g g)) from rfl]
      simp only [List.getElem?_map]
      cases ix0.functionBodies[id]? with
      | none => rfl
      | some f => exact key (some f)
  rw [h.index, h.index']
  exact ⟨key g, key g'⟩

theorem Twin.locations (uri : Str) (l : List Span) :
    localLocations uri doc'.rope (l.map (Move.mk g' g').span) = localLocations uri doc.rope (l.map (Move.mk g g).span) := by
  unfold localLocations
  rw [List.filterMap_map, List.filterMap_map]
  congr 1
  funext sp
  simp only [Function.comp, h.range]

theorem Twin.renameEdits (u : UseDefList) (n : Str) :
    getRenameEdits doc'.rope (plUses (Move.mk g' g') u) n = getRenameEdits doc.rope (plUses (Move.mk g g) u) n := by
  unfold getRenameEdits plUses
  simp only
  rw [← List.map_append, ← List.map_append, ← List.map_append, ← List.map_append, List.filterMap_map, List.filterMap_map]
  congr 1
  funext sp
  simp only [Function.comp, h.range]

variable [Unicode]

omit h [Unicode] in
theorem collectO_map₂ {α α₁ α₂ β : Type} {f₁ : α₁ → Outcome (List β)} {f₂ : α₂ → Outcome (List β)} {m₁ : α → α₁} {m₂ : α → α₂}
    (hf : ∀ x, f₂ (m₂ x) = f₁ (m₁ x)) : ∀ l : List α, collectO f₂ (l.map m₂) = collectO f₁ (l.map m₁)
  | [] => rfl
  | x :: l => by
    simp only [List.map_cons, collectO]
    rw [hf, collectO_map₂ hf l]

theorem Twin.shiftEdits (ord : IterOrder) (b : Build) (sk : SymbolKind) (fb : Option Nat) (nr s : Int) :
    OutRel List.Perm (getShiftEdits ord b doc'.rope doc'.index sk fb nr s) (getShiftEdits ord b doc.rope doc.index sk fb nr s) := by
  have ht := h.table sk fb
  unfold HyperIR.tableOf at ht
  unfold getShiftEdits
  have key : ∀ x : Outcome SymMap,
      OutRel List.Perm (match x.map' (plMap (Move.mk g' g')) with | .panic => Outcome.panic | .ok m => collectO (fun (name, u) => shiftEditsOf b doc'.rope nr s name u) (ord.run m))
        (match x.map' (plMap (Move.mk g g)) with | .panic => Outcome.panic | .ok m => collectO (fun (name, u) => shiftEditsOf b doc.rope nr s name u) (ord.run m)) := by
    intro x
    cases x with
    | panic => trivial
    | ok m =>
      simp only [Outcome.map']
      refine OutRel.trans (R := List.Perm) (fun _ _ _ => List.Perm.trans)
        (collectO_perm _ ((ord.perm (plMap (Move.mk g' g') m)).trans ((ord.perm m).symm.map _))) ?_
      refine OutRel.trans (R := List.Perm) (fun _ _ _ => List.Perm.trans) ?_
        (collectO_perm _ ((ord.perm (plMap (Move.mk g g) m)).trans ((ord.perm m).symm.map _)).symm)
      have := collectO_map₂ (f₁ := fun (e : Str × UseDefList) => shiftEditsOf b doc.rope nr s e.1 e.2) (f₂ := fun (e : Str × UseDefList) => shiftEditsOf b doc'.rope nr s e.1 e.2)
        (m₁ := fun e : Str × UseDefList => (e.1, plUses (Move.mk g g) e.2)) (m₂ := fun e : Str × UseDefList => (e.1, plUses (Move.mk g' g') e.2)) (fun e => by
          obtain ⟨name, u⟩ := e
          simp only
          unfold shiftEditsOf
          cases extractNumberFromIdentifier name with
          | panic => rfl
          | ok x => cases x with
            | none => rfl
            | some x =>
              simp only
              split
              · rfl
              · cases i64Op b (x.2 + s) with
                | panic => rfl
                | ok v => simp only [h.renameEdits]) (ord.run m)
      rw [this]
      exact OutRel.refl (fun _ => List.Perm.refl _) _
  obtain ⟨x, h1, h2⟩ := ht
  revert h1 h2
  cases doc.index.funcBody fb with
  | panic =>
    cases doc'.index.funcBody fb with
    | panic => intro _ _; trivial
    | ok f' =>
      intro h1 h2
      cases x with
      | panic => simp only [h2]; trivial
      | ok m => simp [Outcome.map'] at h1
  | ok f =>
    cases doc'.index.funcBody fb with
    | panic =>
      intro h1 h2
      cases x with
      | panic => simp only [h1]; trivial
      | ok m => simp [Outcome.map'] at h2
    | ok f' =>
      intro h1 h2
      simp only [h1, h2]
      exact key x

omit [Unicode] in
theorem Twin.outline (ord : IterOrder) :
    (outlineGlobals ord doc' ++ outlineFunctions doc').Perm (outlineGlobals ord doc ++ outlineFunctions doc) := by
  refine List.Perm.append ?_ (List.Perm.of_eq ?_)
  · unfold outlineGlobals
    rw [h.index, h.index']
    refine (((ord.perm (plMap (Move.mk g' g') ix0.globalVars))).flatMap_right _).trans ?_
    refine List.Perm.trans ?_ (((ord.perm (plMap (Move.mk g g) ix0.globalVars))).flatMap_right _).symm
    unfold plMap mapVals
    rw [List.flatMap_map, List.flatMap_map]
    refine List.Perm.of_eq ?_
    congr 1
    funext e
    simp only [plUses]
    rw [List.filterMap_map, List.filterMap_map]
    congr 1
    funext sp
    simp only [Function.comp, h.range]
  · unfold outlineFunctions
    rw [h.bodies, h.bodies', List.filterMap_map, List.filterMap_map]
    congr 1
    funext f
    simp only [Function.comp, plFun, Move.spanned, h.range]

omit [Unicode] in
theorem Twin.fold (sp : Span) (t : Str) : foldOf doc'.rope ((Move.mk g' g').span sp) t = foldOf doc.rope ((Move.mk g g).span sp) t := by
  unfold foldOf
  rw [h.range]

omit [Unicode] in
theorem Twin.folds : foldsOf doc' = foldsOf doc := by
  unfold foldsOf
  rw [h.bodies, h.bodies']
  congr 1
  · rw [List.filterMap_map, List.filterMap_map]
    congr 1
    funext f
    simp only [Function.comp, plFun, h.fold, plMap, length_mapVals]
  · have : ∀ g : Nat → Nat, (ix0.functionBodies.map (plFun (Move.mk g g))).flatMap FunctionBody.basicBlocks =
        (ix0.functionBodies.flatMap FunctionBody.basicBlocks).map (Move.mk g g).block := by
      intro g
      rw [List.flatMap_map, List.map_flatMap]; rfl
    rw [this, this, List.filterMap_map, List.filterMap_map]
    congr 1
    funext b
    simp only [Function.comp, Move.block, h.fold, List.length_map]

omit [Unicode] in
theorem Twin.parts (uri : Str) : ∀ (l : List (Spanned Str)) (i : Nat),
    incomingParts uri doc'.rope i (l.map (Move.mk g' g').spanned) = incomingParts uri doc.rope i (l.map (Move.mk g g).spanned)
  | [], _ => rfl
  | (n, sp) :: l, i => by
    simp only [List.map_cons, Move.spanned, incomingParts, h.range]
    rw [Twin.parts uri l (i + 1)]

omit [Unicode] in
theorem Twin.incoming (uri : Str) : incomingHints uri doc' = incomingHints uri doc := by
  unfold incomingHints
  rw [h.bodies, h.bodies', List.flatMap_map, List.flatMap_map]
  congr 1
  funext f
  rw [show ∀ g, (plFun (Move.mk g g) f).basicBlocks = f.basicBlocks.map (Move.mk g g).block from fun _ => rfl,
    show ∀ g, (plFun (Move.mk g g) f).basicBlocks = f.basicBlocks.map (Move.mk g g).block from fun _ => rfl, List.filterMap_map, List.filterMap_map]
  congr 1
  funext b
  simp only [Function.comp]
  unfold incomingHint
  simp only [Move.block]
  cases b.label with
  | none => rfl
  | some l =>
    simp only [Option.map_some]
    simp only [plFun, Move.spanned, get?_mapVals]
    cases StrMap.get? f.incomingBbBranches l.1 with
    | none => rfl
    | some refs =>
      simp only [Option.map_some]
      cases b.labelCommaSpan with
      | none => rfl
      | some c =>
        simp only [Option.map_some, Move.span, h.pos]
        cases offsetToLspPos doc.rope (g c.stop) with
        | none => rfl
        | some p =>
          rw [h.parts]

omit [Unicode] in
theorem Twin.ends (uri : Str) : endHints uri doc' = endHints uri doc := by
  unfold endHints
  rw [h.bodies, h.bodies', List.filterMap_map, List.filterMap_map]
  congr 1
  funext f
  simp only [Function.comp, plFun, Move.spanned, h.range]
  simp only [Move.span, h.pos]

omit h [Unicode] in
theorem allInstructions_placed (F : Move) (ss : List Statement) :
    allInstructions (ss.map F.stmt) = (allInstructions ss).map F.instr := by
  unfold allInstructions
  rw [List.flatMap_map, List.map_flatMap]
  congr 1
  funext s
  cases s with
  | funcDef kw sig b =>
    simp only [Move.stmt, Move.body]
    rw [List.flatMap_map, List.map_flatMap]
    rfl
  | _ => rfl

theorem Twin.backtraces (env : Env) (roots : List Url) : backtraceHints env roots doc' = backtraceHints env roots doc := by
  unfold backtraceHints
  rw [h.stmts, h.stmts', allInstructions_placed, allInstructions_placed]
  refine collectO_map₂ (fun i => ?_) _
  unfold backtraceHint
  rw [h.index, h.index']
  simp only [Move.instr]
  cases i.dbgRef with
  | none => rfl
  | some d => simp only [Option.map_some, plIx, Move.spanned, Move.span, h.pos]

omit [Unicode] in
theorem Twin.lenses (ord : IterOrder) (uri : Str) : ((ord.run doc'.index.functions).filterMap (codeLensOf uri doc'.rope)).Perm
    ((ord.run doc.index.functions).filterMap (codeLensOf uri doc.rope)) := by
  rw [h.index, h.index']
  refine ((ord.perm (plMap (Move.mk g' g') ix0.functions)).filterMap _).trans ?_
  refine List.Perm.trans ?_ ((ord.perm (plMap (Move.mk g g) ix0.functions)).filterMap _).symm
  unfold plMap mapVals
  rw [List.filterMap_map, List.filterMap_map]
  refine List.Perm.of_eq ?_
  congr 1
  funext e
  simp only [Function.comp]
  unfold codeLensOf
  simp only [plUses]
  cases e.2.defs with
  | nil => rfl
  | cons sp l => cases l with
    | nil => simp only [List.map_cons, List.map_nil, h.range]
    | cons sp' l => rfl

omit h [Unicode] in
theorem createCfgDot_placed (g : Nat → Nat) (f : FunctionBody) : createCfgDot (plFun (Move.mk g g) f) = createCfgDot f := by
  have : cfgEdges (plFun (Move.mk g g) f) = cfgEdges f := by
    unfold cfgEdges
    rw [show (plFun (Move.mk g g) f).basicBlocks = f.basicBlocks.map (Move.mk g g).block from rfl, List.flatMap_map]
    congr 1
    funext b
    rw [show ((Move.mk g g).block b).instructions = b.instructions.map (Move.mk g g).instr from rfl, List.flatMap_map]
    congr 1
    funext i
    rw [show ((Move.mk g g).instr i).isBranching = i.isBranching from rfl, show ((Move.mk g g).block b).label = b.label.map (Move.mk g g).spanned from rfl]
    cases b.label with
    | none => rfl
    | some l =>
      simp only [Option.map_some, Move.instr, List.map_map]
      rfl
  unfold createCfgDot
  rw [this]
  rfl

omit [Unicode] in
theorem Twin.findFunction (n : Str) : ∃ x : Option FunctionBody, doc.index.functionBodies.find? (fun b => decide (b.name.1 = n)) = x.map (plFun (Move.mk g g)) ∧
    doc'.index.functionBodies.find? (fun b => decide (b.name.1 = n)) = x.map (plFun (Move.mk g' g')) := by
  rw [h.bodies, h.bodies', List.find?_map, List.find?_map]
  exact ⟨_, rfl, rfl⟩

/-! ### Diagnostics -/

omit [Unicode] in
theorem Twin.statementDiagnostics : diagnosticsFromStatements doc'.rope doc'.stmts = diagnosticsFromStatements doc.rope doc.stmts := by
  unfold diagnosticsFromStatements
  rw [h.stmts, h.stmts', allInstructions_placed, allInstructions_placed, List.filterMap_map, List.filterMap_map]
  congr 1
  funext i
  simp only [Function.comp]
  unfold diagnoseInstruction
  simp only [Move.instr, Move.spanned, List.isEmpty_map, h.range]
  rfl

omit [Unicode] in
theorem Twin.diagnoseSymbol (uri n : Str) (u : UseDefList) : diagnoseSymbol doc'.rope uri n (plUses (Move.mk g' g') u) = diagnoseSymbol doc.rope uri n (plUses (Move.mk g g) u) := by
  unfold HyperIR.diagnoseSymbol
  simp only [plUses, List.isEmpty_map]
  split
  · rw [List.filterMap_map, List.filterMap_map]
    congr 1
    funext sp
    simp only [Function.comp, h.range]
  · cases u.defs with
    | nil => rfl
    | cons a l => cases l with
      | nil => rfl
      | cons b l =>
        simp only [List.map_cons]
        rw [← List.map_cons, ← List.map_cons, List.filterMap_map, List.filterMap_map]
        congr 1
        funext sp
        simp only [Function.comp, h.range]

omit [Unicode] h in
theorem allUseDefs_placed (ord : IterOrder) (g : Nat → Nat) (ix : HIRIndex) :
    (allUseDefs ord (plIx (Move.mk g g) ix)).Perm (List.map (fun e => (e.1, plUses (Move.mk g g) e.2)) (allUseDefs ord ix)) := by
  have hp : ∀ m : SymMap, (ord.run (plMap (Move.mk g g) m)).Perm (List.map (fun e => (e.1, plUses (Move.mk g g) e.2)) (ord.run m)) :=
    fun m => (ord.perm (plMap (Move.mk g g) m)).trans ((ord.perm m).symm.map _)
  have hf : ∀ (q : FunctionBody → SymMap), (∀ f, q (plFun (Move.mk g g) f) = plMap (Move.mk g g) (q f)) → ∀ l : List FunctionBody,
      ((l.map (plFun (Move.mk g g))).flatMap fun fb => ord.run (q fb)).Perm (List.map (fun e => (e.1, plUses (Move.mk g g) e.2)) (l.flatMap fun fb => ord.run (q fb))) := by
    intro q hq l
    induction l with
    | nil => exact .refl _
    | cons f l ih =>
      simp only [List.map_cons, List.flatMap_cons, List.map_append]
      rw [hq]
      exact (hp _).append ih
  unfold allUseDefs
  simp only [List.map_append]
  exact ((((hp _).append (hp _)).append (hp _)).append (hf _ (fun _ => rfl) _)).append (hf _ (fun _ => rfl) _)

omit [Unicode] in
theorem Twin.indexDiagnostics (ord : IterOrder) (uri : Str) : (diagnosticsFromIndex ord doc'.rope uri doc'.index).Perm
    (diagnosticsFromIndex ord doc.rope uri doc.index) := by
  unfold diagnosticsFromIndex
  rw [h.index, h.index']
  refine ((allUseDefs_placed ord g' ix0).flatMap_right _).trans ?_
  refine List.Perm.trans ?_ ((allUseDefs_placed ord g ix0).flatMap_right _).symm
  rw [List.flatMap_map, List.flatMap_map]
  refine List.Perm.of_eq ?_
  congr 1
  funext e
  exact h.diagnoseSymbol uri e.1 e.2

end

end HyperIR
