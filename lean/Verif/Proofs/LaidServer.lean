import Verif.Spec.Layout
import Verif.Proofs.TwinServer
import Verif.Props.Below

/- What the handlers answer for two documents that contain the same code at other places (src/main.rs). -/

namespace HyperIR
open Spec

/-! ### Lists -/

section
variable {α β γ δ : Type} {R : α → β → Prop}

theorem alike_append {a b : List α} {a' b' : List β} (h : OneByOne R a a') (h' : OneByOne R b b') : OneByOne R (a ++ b) (a' ++ b') := by
  induction a generalizing a' with
  | nil => cases a' with
    | nil => exact h'
    | cons y a' => exact h.elim
  | cons x a ih => cases a' with
    | nil => exact h.elim
    | cons y a' => exact ⟨h.1, ih h.2⟩

theorem alike_imp {S : α → β → Prop} (hi : ∀ x y, R x y → S x y) : ∀ {a : List α} {b : List β}, OneByOne R a b → OneByOne S a b
  | [], [], _ => trivial
  | _ :: _, _ :: _, h => ⟨hi _ _ h.1, alike_imp hi h.2⟩
  | [], _ :: _, h => h.elim
  | _ :: _, [], h => h.elim

theorem alike_map {f : γ → α} {f' : γ → β} {l : List γ} (h : ∀ x ∈ l, R (f x) (f' x)) : OneByOne R (l.map f) (l.map f') := by
  induction l with
  | nil => trivial
  | cons x l ih => exact ⟨h x (by simp), ih fun y hy => h y (by simp [hy])⟩

/-- Both or neither. -/
def OptAlike (R : α → β → Prop) : Option α → Option β → Prop
  | none, none => True
  | some a, some b => R a b
  | _, _ => False

theorem OptAlike.map {S : γ → δ → Prop} {f : α → γ} {f' : β → δ} (hf : ∀ a b, R a b → S (f a) (f' b)) : ∀ {a : Option α} {b : Option β}, OptAlike R a b →
    OptAlike S (a.map f) (b.map f')
  | none, none, _ => trivial
  | some _, some _, h => hf _ _ h
  | none, some _, h => h.elim
  | some _, none, h => h.elim

theorem alike_filterMap {f : γ → Option α} {f' : γ → Option β} {l : List γ} (h : ∀ x ∈ l, OptAlike R (f x) (f' x)) :
    OneByOne R (l.filterMap f) (l.filterMap f') := by
  induction l with
  | nil => trivial
  | cons x l ih =>
    have h1 := h x (by simp)
    have h2 := ih fun y hy => h y (by simp [hy])
    simp only [List.filterMap_cons]
    revert h1
    cases f x <;> cases f' x <;> intro h1
    · exact h2
    · exact h1.elim
    · exact h1.elim
    · exact ⟨h1, h2⟩

theorem alike_flatMap {f : γ → List α} {f' : γ → List β} {l : List γ} (h : ∀ x ∈ l, OneByOne R (f x) (f' x)) :
    OneByOne R (l.flatMap f) (l.flatMap f') := by
  induction l with
  | nil => trivial
  | cons x l ih =>
    simp only [List.flatMap_cons]
    exact alike_append (h x (by simp)) (ih fun y hy => h y (by simp [hy]))

/-- Reordering one side reorders the other. -/
theorem alike_perm {a a' : List α} (hp : a.Perm a') : ∀ {b : List β}, OneByOne R a b → ∃ b', OneByOne R a' b' ∧ b.Perm b' := by
  induction hp with
  | nil => intro b h; exact ⟨b, h, .refl _⟩
  | @cons x l l' _ ih =>
    intro b h
    cases b with
    | nil => exact h.elim
    | cons y b =>
      obtain ⟨b', h1, h2⟩ := ih h.2
      exact ⟨y :: b', ⟨h.1, h1⟩, h2.cons _⟩
  | @swap x y l =>
    intro b h
    cases b with
    | nil => exact h.elim
    | cons u b => cases b with
      | nil => exact h.2.elim
      | cons v b => exact ⟨v :: u :: b, ⟨h.2.1, h.1, h.2.2⟩, .swap _ _ _⟩
  | trans _ _ ih1 ih2 =>
    intro b h
    obtain ⟨b1, h1, p1⟩ := ih1 h
    obtain ⟨b2, h2, p2⟩ := ih2 h1
    exact ⟨b2, h2, p1.trans p2⟩

theorem matched_alike {a : List α} {b : List β} (h : OneByOne R a b) : Matched R a b := ⟨b, h, .refl _⟩

theorem matched_perm {a a' : List α} {b b' : List β} (h : Matched R a b) (hp : a.Perm a') (hp' : b.Perm b') : Matched R a' b' := by
  obtain ⟨m, h1, h2⟩ := h
  obtain ⟨m', h3, h4⟩ := alike_perm hp h1
  exact ⟨m', h3, h4.symm.trans (h2.trans hp')⟩

theorem matched_append {a b : List α} {a' b' : List β} (h : Matched R a a') (h' : Matched R b b') : Matched R (a ++ b) (a' ++ b') := by
  obtain ⟨m, h1, h2⟩ := h
  obtain ⟨m', h3, h4⟩ := h'
  exact ⟨m ++ m', alike_append h1 h3, h2.append h4⟩

theorem matched_imp {S : α → β → Prop} (hi : ∀ x y, R x y → S x y) {a : List α} {b : List β} (h : Matched R a b) : Matched S a b := by
  obtain ⟨m, h1, h2⟩ := h
  exact ⟨m, alike_imp hi h1, h2⟩

end

/-- Two analyses of the same code, found at other places. -/
structure Laid (F F' : Move) (ix0 : HIRIndex) (ss0 : List Statement) (P Q : Pos → Pos → Prop) (doc doc' : AnalyzedDocument) : Prop where
  start : ∀ x, OptAlike P (offsetToLspPos doc.rope (F.fs x)) (offsetToLspPos doc'.rope (F'.fs x))
  stop : ∀ x, OptAlike Q (offsetToLspPos doc.rope (F.fe x)) (offsetToLspPos doc'.rope (F'.fe x))
  stmts : doc.stmts = ss0.map F.stmt
  stmts' : doc'.stmts = ss0.map F'.stmt
  index : doc.index = plIx F ix0
  index' : doc'.index = plIx F' ix0

section
variable {F F' : Move} {ix0 : HIRIndex} {ss0 : List Statement} {P Q : Pos → Pos → Prop} {doc doc' : AnalyzedDocument} (h : Laid F F' ix0 ss0 P Q doc doc')
include h

theorem Laid.range (sp : Span) : OptAlike (AlikeRange P Q) (rangeToLsp doc.rope (F.span sp)) (rangeToLsp doc'.rope (F'.span sp)) := by
  have h1 := h.start sp.start
  have h2 := h.stop sp.stop
  unfold rangeToLsp Move.span
  simp only
  revert h1 h2
  cases offsetToLspPos doc.rope (F.fs sp.start) <;> cases offsetToLspPos doc'.rope (F'.fs sp.start) <;> intro h1 <;> first | exact h1.elim | skip
  · intro _; trivial
  · cases offsetToLspPos doc.rope (F.fe sp.stop) <;> cases offsetToLspPos doc'.rope (F'.fe sp.stop) <;> intro h2 <;> first | exact h2.elim | skip
    · trivial
    · exact ⟨h1, h2⟩

theorem Laid.bodies : doc.index.functionBodies = ix0.functionBodies.map (plFun F) := by rw [h.index]; rfl
theorem Laid.bodies' : doc'.index.functionBodies = ix0.functionBodies.map (plFun F') := by rw [h.index']; rfl

theorem Laid.table (sk : SymbolKind) (fb : Option Nat) : ∃ x : Outcome SymMap,
    tableOf doc.index sk fb = x.map' (plMap F) ∧ tableOf doc'.index sk fb = x.map' (plMap F') := by
  refine ⟨tableOf ix0 sk fb, ?_⟩
  have key : ∀ (F : Move), tableOf (plIx F ix0) sk fb = (tableOf ix0 sk fb).map' (plMap F) := by
    intro F
    unfold HyperIR.tableOf HIRIndex.funcBody
    have key : ∀ f : Option FunctionBody, (plIx F ix0).getBySymbolKind sk (f.map (plFun F)) = (ix0.getBySymbolKind sk f).map' (plMap F) := by
      intro f
      cases sk <;> cases f <;> rfl
    cases fb with
    | none => exact key none
    | some id =>
      rw [show (plIx F ix0).functionBodies = ix0.functionBodies.map (plFun F) from rfl]
      simp only [List.getElem?_map]
      cases ix0.functionBodies[id]? with
      | none => rfl
      | some f => exact key (some f)
  rw [h.index, h.index']
  exact ⟨key F, key F'⟩

theorem Laid.locations (uri : Str) (l : List Span) :
    OneByOne (AlikeLocation P Q uri) (localLocations uri doc.rope (l.map F.span)) (localLocations uri doc'.rope (l.map F'.span)) := by
  unfold localLocations
  rw [List.filterMap_map, List.filterMap_map]
  exact alike_filterMap fun sp _ => (h.range sp).map fun _ _ hr => ⟨rfl, rfl, hr⟩

theorem Laid.renameEdits (u : UseDefList) (n : Str) :
    OneByOne (AlikeEdit P Q) (getRenameEdits doc.rope (plUses F u) n) (getRenameEdits doc'.rope (plUses F' u) n) := by
  unfold getRenameEdits plUses
  simp only
  rw [← List.map_append, ← List.map_append, ← List.map_append, ← List.map_append, List.filterMap_map, List.filterMap_map]
  exact alike_filterMap fun sp _ => (h.range sp).map fun _ _ hr => ⟨hr, rfl⟩

variable [Unicode]

/-- Both panic, or both give related values. -/
def OutRel₂ {α β : Type} (R : α → β → Prop) : Outcome α → Outcome β → Prop
  | .ok a, .ok b => R a b
  | .panic, .panic => True
  | _, _ => False

omit h [Unicode] in
theorem collectO_alike {α α₁ α₂ β γ : Type} {R : β → γ → Prop} {f₁ : α₁ → Outcome (List β)} {f₂ : α₂ → Outcome (List γ)} {m₁ : α → α₁} {m₂ : α → α₂}
    (hf : ∀ x, OutRel₂ (OneByOne R) (f₁ (m₁ x)) (f₂ (m₂ x))) : ∀ l : List α, OutRel₂ (OneByOne R) (collectO f₁ (l.map m₁)) (collectO f₂ (l.map m₂))
  | [] => trivial
  | x :: l => by
    have h1 := hf x
    have h2 := collectO_alike hf l
    simp only [List.map_cons, collectO]
    revert h1
    cases f₁ (m₁ x) <;> cases f₂ (m₂ x) <;> intro h1 <;> first | exact h1.elim | trivial | skip
    revert h2
    cases collectO f₁ (l.map m₁) <;> cases collectO f₂ (l.map m₂) <;> intro h2 <;> first | exact h2.elim | trivial | exact alike_append h1 h2

theorem Laid.shiftEdits (ord : IterOrder) (b : Build) (sk : SymbolKind) (fb : Option Nat) (nr s : Int) :
    OutRel₂ (Matched (AlikeEdit P Q)) (getShiftEdits ord b doc.rope doc.index sk fb nr s) (getShiftEdits ord b doc'.rope doc'.index sk fb nr s) := by
  have e : ∀ (rope : Str) (ix : HIRIndex), getShiftEdits ord b rope ix sk fb nr s = match tableOf ix sk fb with
      | .panic => .panic
      | .ok m => collectO (fun (name, u) => shiftEditsOf b rope nr s name u) (ord.run m) := by
    intro rope ix
    unfold getShiftEdits tableOf
    cases ix.funcBody fb <;> rfl
  obtain ⟨x, h1, h2⟩ := h.table sk fb
  rw [e, e, h1, h2]
  cases x with
  | panic => trivial
  | ok m =>
    simp only [Outcome.map']
    have key := collectO_alike (R := AlikeEdit P Q) (f₁ := fun (e : Str × UseDefList) => shiftEditsOf b doc.rope nr s e.1 e.2)
      (f₂ := fun (e : Str × UseDefList) => shiftEditsOf b doc'.rope nr s e.1 e.2)
      (m₁ := fun e : Str × UseDefList => (e.1, plUses F e.2)) (m₂ := fun e : Str × UseDefList => (e.1, plUses F' e.2)) (fun e => by
        obtain ⟨name, u⟩ := e
        simp only
        unfold shiftEditsOf
        cases extractNumberFromIdentifier name with
        | panic => trivial
        | ok x => cases x with
          | none => trivial
          | some x =>
            simp only
            split
            · trivial
            · cases i64Op b (x.2 + s) with
              | panic => trivial
              | ok v => exact h.renameEdits u _) (ord.run m)
    have p1 := collectO_perm (fun (e : Str × UseDefList) => shiftEditsOf b doc.rope nr s e.1 e.2) ((ord.perm (plMap F m)).trans ((ord.perm m).symm.map _))
    have p2 := collectO_perm (fun (e : Str × UseDefList) => shiftEditsOf b doc'.rope nr s e.1 e.2) ((ord.perm (plMap F' m)).trans ((ord.perm m).symm.map _))
    revert key p1 p2
    generalize collectO (fun (e : Str × UseDefList) => shiftEditsOf b doc.rope nr s e.1 e.2) (ord.run (plMap F m)) = a
    generalize collectO (fun (e : Str × UseDefList) => shiftEditsOf b doc'.rope nr s e.1 e.2) (ord.run (plMap F' m)) = a'
    generalize collectO _ ((ord.run m).map fun e : Str × UseDefList => (e.1, plUses F e.2)) = c
    generalize collectO _ ((ord.run m).map fun e : Str × UseDefList => (e.1, plUses F' e.2)) = c'
    intro key p1 p2
    cases a <;> cases c <;> first | exact p1.elim | skip
    all_goals cases a' <;> cases c' <;> first | exact p2.elim | exact key.elim | trivial | skip
    exact matched_perm (matched_alike key) (List.Perm.symm p1) (List.Perm.symm p2)

omit [Unicode] in
theorem Laid.outline (ord : IterOrder) :
    Matched (AlikeEntry P Q) (outlineGlobals ord doc ++ outlineFunctions doc) (outlineGlobals ord doc' ++ outlineFunctions doc') := by
  refine matched_append ?_ (matched_alike ?_)
  · unfold outlineGlobals
    rw [h.index, h.index']
    refine matched_perm ?_ ((ord.perm (plMap F ix0.globalVars)).flatMap_right _).symm ((ord.perm (plMap F' ix0.globalVars)).flatMap_right _).symm
    unfold plMap mapVals
    rw [List.flatMap_map, List.flatMap_map]
    refine matched_alike (alike_flatMap fun e _ => ?_)
    simp only [plUses]
    rw [List.filterMap_map, List.filterMap_map]
    exact alike_filterMap fun sp _ => (h.range sp).map fun _ _ hr => ⟨rfl, rfl, hr, hr⟩
  · unfold outlineFunctions
    rw [h.bodies, h.bodies', List.filterMap_map, List.filterMap_map]
    refine alike_filterMap fun f _ => ?_
    simp only [Function.comp, plFun, Move.spanned]
    have h1 := h.range f.completeRange
    have h2 := h.range f.name.2
    revert h1
    cases rangeToLsp doc.rope (F.span f.completeRange) <;> cases rangeToLsp doc'.rope (F'.span f.completeRange) <;> intro h1 <;> first | exact h1.elim | trivial | skip
    exact h2.map fun _ _ hr => ⟨rfl, rfl, h1, hr⟩

omit [Unicode] in
theorem Laid.fold (sp : Span) (t : Str) : OptAlike (AlikeFold P Q) (foldOf doc.rope (F.span sp) t) (foldOf doc'.rope (F'.span sp) t) := by
  unfold foldOf
  exact (h.range sp).map fun r r' hr => ⟨rfl, r, r', hr, rfl, rfl, rfl, rfl⟩

omit [Unicode] in
theorem Laid.folds : OneByOne (AlikeFold P Q) (foldsOf doc) (foldsOf doc') := by
  unfold foldsOf
  rw [h.bodies, h.bodies']
  refine alike_append ?_ ?_
  · rw [List.filterMap_map, List.filterMap_map]
    refine alike_filterMap fun f _ => ?_
    simp only [Function.comp, plFun, plMap, length_mapVals]
    exact h.fold _ _
  · have : ∀ F : Move, (ix0.functionBodies.map (plFun F)).flatMap FunctionBody.basicBlocks =
        (ix0.functionBodies.flatMap FunctionBody.basicBlocks).map F.block := by
      intro F
      rw [List.flatMap_map, List.map_flatMap]; rfl
    rw [this, this, List.filterMap_map, List.filterMap_map]
    refine alike_filterMap fun b _ => ?_
    simp only [Function.comp, Move.block, List.length_map]
    exact h.fold _ _

omit [Unicode] in
theorem Laid.parts (uri : Str) : ∀ (l : List (Spanned Str)) (i : Nat),
    OneByOne (AlikePart P Q uri) (incomingParts uri doc.rope i (l.map F.spanned)) (incomingParts uri doc'.rope i (l.map F'.spanned))
  | [], _ => trivial
  | (n, sp) :: l, i => by
    have ih := Laid.parts uri l (i + 1)
    have h1 := h.range sp
    simp only [List.map_cons, Move.spanned, incomingParts]
    revert h1
    cases rangeToLsp doc.rope (F.span sp) <;> cases rangeToLsp doc'.rope (F'.span sp) <;> intro h1 <;> first | exact h1.elim | exact ih | skip
    exact ⟨⟨rfl, rfl, trivial⟩, ⟨rfl, rfl, rfl, rfl, h1⟩, ih⟩

omit [Unicode] in
theorem Laid.incoming (uri : Str) : OneByOne (AlikeHint P Q uri) (incomingHints uri doc) (incomingHints uri doc') := by
  unfold incomingHints
  rw [h.bodies, h.bodies', List.flatMap_map, List.flatMap_map]
  refine alike_flatMap fun f _ => ?_
  rw [show ∀ F, (plFun F f).basicBlocks = f.basicBlocks.map (Move.block F) from fun _ => rfl,
    show ∀ F, (plFun F f).basicBlocks = f.basicBlocks.map (Move.block F) from fun _ => rfl, List.filterMap_map, List.filterMap_map]
  refine alike_filterMap fun b _ => ?_
  simp only [Function.comp]
  unfold incomingHint
  simp only [Move.block]
  cases b.label with
  | none => trivial
  | some l =>
    simp only [Option.map_some]
    simp only [plFun, Move.spanned, get?_mapVals]
    cases StrMap.get? f.incomingBbBranches l.1 with
    | none => trivial
    | some refs =>
      simp only [Option.map_some]
      cases b.labelCommaSpan with
      | none => trivial
      | some c =>
        simp only [Option.map_some, Move.span]
        exact (h.stop c.stop).map fun _ _ hq => ⟨hq, h.parts uri refs 0⟩

omit [Unicode] in
theorem Laid.ends (uri : Str) : OneByOne (AlikeHint P Q uri) (endHints uri doc) (endHints uri doc') := by
  unfold endHints
  rw [h.bodies, h.bodies', List.filterMap_map, List.filterMap_map]
  refine alike_filterMap fun f _ => ?_
  simp only [Function.comp, plFun, Move.spanned]
  have h1 := h.stop f.completeRange.stop
  have h2 := h.range f.name.2
  rw [show (F.span f.completeRange).stop = F.fe f.completeRange.stop from rfl, show (F'.span f.completeRange).stop = F'.fe f.completeRange.stop from rfl]
  revert h1
  cases offsetToLspPos doc.rope (F.fe f.completeRange.stop) <;> cases offsetToLspPos doc'.rope (F'.fe f.completeRange.stop) <;> intro h1 <;> first | exact h1.elim | trivial | skip
  exact h2.map fun _ _ hr => ⟨h1, ⟨rfl, rfl, rfl, rfl, hr⟩, trivial⟩

omit h in
theorem backtraceLabel_alike {uri : Str} {p p' : Pos} (hq : Q p p') (frames : List Frame) :
    OutRel₂ (AlikeHint P Q uri) (inlayHintForBacktrace p frames) (inlayHintForBacktrace p' frames) := by
  unfold inlayHintForBacktrace
  simp only
  cases identifyRelevantFrames frames with
  | none => exact ⟨hq, ⟨rfl, rfl, trivial⟩, trivial⟩
  | some i =>
    simp only
    cases frames[i]? with
    | none => trivial
    | some f =>
      simp only
      cases shortenName f.symbol 50 with
      | panic => trivial
      | ok s => exact ⟨hq, ⟨rfl, rfl, trivial⟩, ⟨rfl, rfl, trivial⟩, ⟨rfl, rfl, trivial⟩, trivial⟩

theorem Laid.backtraces (env : Env) (roots : List Url) (uri : Str) :
    OutRel₂ (OneByOne (AlikeHint P Q uri)) (backtraceHints env roots doc) (backtraceHints env roots doc') := by
  unfold backtraceHints
  rw [h.stmts, h.stmts', allInstructions_placed, allInstructions_placed]
  refine collectO_alike (fun i => ?_) _
  unfold backtraceHint
  rw [h.index, h.index']
  simp only [Move.instr]
  cases i.dbgRef with
  | none => trivial
  | some d =>
    simp only [Option.map_some, plIx, Move.spanned, Move.span]
    cases StrMap.get? ix0.dbgAnnotationValues d.1 with
    | none => trivial
    | some txt =>
      simp only
      cases env.json txt with
      | none => trivial
      | some j =>
        simp only
        cases parseBacktraceFromJson env.fs roots j with
        | panic => trivial
        | ok fr => cases fr with
          | none => trivial
          | some fr =>
            simp only
            have h1 := h.stop d.2.stop
            revert h1
            cases offsetToLspPos doc.rope (F.fe d.2.stop) <;> cases offsetToLspPos doc'.rope (F'.fe d.2.stop) <;> intro h1 <;> first | exact h1.elim | trivial | skip
            rename_i p p'
            have h2 := backtraceLabel_alike (P := P) (Q := Q) (uri := uri) h1 fr
            simp only
            revert h2
            cases inlayHintForBacktrace p fr <;> cases inlayHintForBacktrace p' fr <;> intro h2 <;> first | exact h2.elim | trivial | exact ⟨h2, trivial⟩

omit [Unicode] in
theorem Laid.lenses (ord : IterOrder) (uri : Str) : Matched (AlikeLens P Q) ((ord.run doc.index.functions).filterMap (codeLensOf uri doc.rope))
    ((ord.run doc'.index.functions).filterMap (codeLensOf uri doc'.rope)) := by
  rw [h.index, h.index']
  refine matched_perm ?_ ((ord.perm (plMap F ix0.functions)).filterMap _).symm ((ord.perm (plMap F' ix0.functions)).filterMap _).symm
  unfold plMap mapVals
  rw [List.filterMap_map, List.filterMap_map]
  refine matched_alike (alike_filterMap fun e _ => ?_)
  simp only [Function.comp]
  unfold codeLensOf
  simp only [plUses]
  cases e.2.defs with
  | nil => trivial
  | cons sp l => cases l with
    | nil =>
      simp only [List.map_cons, List.map_nil]
      exact (h.range sp).map fun _ _ hr => ⟨hr, rfl, rfl⟩
    | cons sp' l => trivial

omit h [Unicode] in
theorem createCfgDot_laid (F : Move) (f : FunctionBody) : createCfgDot (plFun F f) = createCfgDot f := by
  have : cfgEdges (plFun F f) = cfgEdges f := by
    unfold cfgEdges
    rw [show (plFun F f).basicBlocks = f.basicBlocks.map F.block from rfl, List.flatMap_map]
    congr 1
    funext b
    rw [show (F.block b).instructions = b.instructions.map F.instr from rfl, List.flatMap_map]
    congr 1
    funext i
    rw [show (F.instr i).isBranching = i.isBranching from rfl, show (F.block b).label = b.label.map F.spanned from rfl]
    cases b.label with
    | none => rfl
    | some l =>
      simp only [Option.map_some, Move.instr, List.map_map]
      rfl
  unfold createCfgDot
  rw [this]
  rfl

omit [Unicode] in
theorem Laid.findFunction (n : Str) : ∃ x : Option FunctionBody, doc.index.functionBodies.find? (fun b => decide (b.name.1 = n)) = x.map (plFun F) ∧
    doc'.index.functionBodies.find? (fun b => decide (b.name.1 = n)) = x.map (plFun F') := by
  rw [h.bodies, h.bodies', List.find?_map, List.find?_map]
  exact ⟨_, rfl, rfl⟩

/-! ### Diagnostics -/

omit [Unicode] in
theorem Laid.statementDiagnostics (uri : Str) :
    OneByOne (AlikeProblem P Q uri) (diagnosticsFromStatements doc.rope doc.stmts) (diagnosticsFromStatements doc'.rope doc'.stmts) := by
  unfold diagnosticsFromStatements
  rw [h.stmts, h.stmts', allInstructions_placed, allInstructions_placed, List.filterMap_map, List.filterMap_map]
  refine alike_filterMap fun i _ => ?_
  simp only [Function.comp]
  have key : ∀ (G : Move) (rope : Str), diagnoseInstruction rope (G.instr i) =
      if (i.isBranching || decide (i.instruction.1 = c!"phi")) && i.basicBlockRefs.isEmpty then
        (rangeToLsp rope (G.span i.instruction.2)).map fun r =>
          { range := r, message := c!"Failed to extract basic block references from `" ++ i.instruction.1 ++ c!"` instruction" }
      else none := by
    intro G rope
    unfold diagnoseInstruction
    rw [show (G.instr i).basicBlockRefs.isEmpty = i.basicBlockRefs.isEmpty from List.isEmpty_map]
    rfl
  rw [key, key]
  split
  · exact (h.range i.instruction.2).map fun _ _ hr => ⟨hr, rfl, trivial⟩
  · trivial

omit [Unicode] in
theorem Laid.diagnoseSymbol (uri n : Str) (u : UseDefList) :
    OneByOne (AlikeProblem P Q uri) (diagnoseSymbol doc.rope uri n (plUses F u)) (diagnoseSymbol doc'.rope uri n (plUses F' u)) := by
  unfold HyperIR.diagnoseSymbol
  simp only [plUses, List.isEmpty_map]
  split
  · rw [List.filterMap_map, List.filterMap_map]
    exact alike_filterMap fun sp _ => (h.range sp).map fun _ _ hr => ⟨hr, rfl, trivial⟩
  · cases u.defs with
    | nil => trivial
    | cons a l => cases l with
      | nil => trivial
      | cons b l =>
        simp only [List.map_cons]
        rw [← List.map_cons, ← List.map_cons, List.filterMap_map, List.filterMap_map]
        refine alike_filterMap fun sp _ => ?_
        simp only [Function.comp]
        have h1 := h.range a
        have h2 := h.range sp
        revert h1
        cases rangeToLsp doc.rope (F.span a) <;> cases rangeToLsp doc'.rope (F'.span a) <;> intro h1 <;> first | exact h1.elim | trivial | skip
        revert h2
        cases rangeToLsp doc.rope (F.span sp) <;> cases rangeToLsp doc'.rope (F'.span sp) <;> intro h2 <;> first | exact h2.elim | exact ⟨h2, rfl, ⟨⟨rfl, rfl, h1⟩, rfl⟩, trivial⟩ | trivial

omit [Unicode] h in
theorem allUseDefs_laid (ord : IterOrder) (F : Move) (ix : HIRIndex) :
    (allUseDefs ord (plIx F ix)).Perm (List.map (fun e => (e.1, plUses F e.2)) (allUseDefs ord ix)) := by
  have hp : ∀ m : SymMap, (ord.run (plMap F m)).Perm (List.map (fun e => (e.1, plUses F e.2)) (ord.run m)) :=
    fun m => (ord.perm (plMap F m)).trans ((ord.perm m).symm.map _)
  have hf : ∀ (q : FunctionBody → SymMap), (∀ f, q (plFun F f) = plMap F (q f)) → ∀ l : List FunctionBody,
      ((l.map (plFun F)).flatMap fun fb => ord.run (q fb)).Perm (List.map (fun e => (e.1, plUses F e.2)) (l.flatMap fun fb => ord.run (q fb))) := by
    intro q hq l
    induction l with
    | nil => exact .refl _
    | cons f l ih =>
      simp only [List.map_cons, List.flatMap_cons, List.map_append]
      rw [hq]
      exact (hp _).append ih
  unfold allUseDefs
  simp only [List.map_append]
  exact ((((hp _).append (hp _)).append (hp _)).append (hf _ (fun _ => rfl) _)).append (hf _ (fun _ => rfl) _)

omit [Unicode] in
theorem Laid.indexDiagnostics (ord : IterOrder) (uri : Str) : Matched (AlikeProblem P Q uri) (diagnosticsFromIndex ord doc.rope uri doc.index)
    (diagnosticsFromIndex ord doc'.rope uri doc'.index) := by
  unfold diagnosticsFromIndex
  rw [h.index, h.index']
  refine matched_perm ?_ ((allUseDefs_laid ord F ix0).flatMap_right _).symm ((allUseDefs_laid ord F' ix0).flatMap_right _).symm
  rw [List.flatMap_map, List.flatMap_map]
  exact matched_alike (alike_flatMap fun e _ => h.diagnoseSymbol uri e.1 e.2)

end

end HyperIR
