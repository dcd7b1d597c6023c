import Verif.Proofs.Index

/- The index of a whole document (src/hir_index.rs:193-358). -/

namespace HyperIR
open Spec

/-! ### Statements -/

/-- `unresolved_function_dbgrefs` after a statement. -/
def unresStep (u : StrMap Str) : Statement → StrMap Str
  | .funcDecl sig _ (some d) => u.insert d.1 sig.name.1
  | _ => u

def stmtEvents (src : Str) (u : StrMap Str) (i : Nat) : Statement → List Event
  | .globalVar name _ => [.occ (occ .globalVar .def_ none name)]
  | .funcDecl sig _ _ => [.occ (occ .function .decl none sig.name)]
  | .funcDependencies _ _ => []
  | .dbgAnnotation name d => .occ (occ .dbgAnnotation .def_ none name) ::
      ((match annotationValue src d with
        | .ok (some v) => [.val name.1 v]
        | _ => []) ++
      match u.get? name.1, parseExternalDef d with
        | some fn, some x => [.ext fn x]
        | _, _ => [])
  | .funcDef kw sig body => .occ (occ .function .def_ none sig.name) ::
      .body { name := sig.name, range := ⟨kw.start, body.closingBracket.stop⟩, blocks := body.basicBlocks } ::
      funcEvents i sig body

def docEvents (src : Str) (u : StrMap Str) (i : Nat) : List Statement → List Event
  | [] => []
  | s :: ss => stmtEvents src u i s ++ docEvents src (unresStep u s) (i + funcCount [s]) ss

theorem mem_addTo {occs : List SymbolOccurrence} {o : SymbolOccurrence} (h : o ∈ occs) (o' : SymbolOccurrence) :
    o ∈ addTo occs o' := by
  unfold addTo
  split
  · exact h
  · exact List.mem_append_left _ h

theorem sameKey_addTo (occs : List SymbolOccurrence) (o : SymbolOccurrence) : ∃ o' ∈ addTo occs o, SameKey o' o := by
  unfold addTo
  split
  · assumption
  · exact ⟨o, by simp, rfl, rfl, rfl, rfl⟩

theorem mem_run {g : Ghost} {o : SymbolOccurrence} (h : o ∈ g.occs) : ∀ evs, o ∈ (g.run evs).occs := by
  intro evs
  induction evs generalizing g with
  | nil => exact h
  | cons e evs ih =>
    refine ih (g := g.step e) ?_
    cases e
    · exact mem_addTo h _
    all_goals exact h

/-- Every function that an unresolved debug reference refers to is known. -/
def UnresOk (g : Ghost) (u : StrMap Str) : Prop :=
  ∀ d fn, u.get? d = some fn → ∃ o ∈ g.occs, IsOf .function none fn o

theorem addExternalDef_inv {ix : HIRIndex} {g : Ghost} {u : StrMap Str} (h : Inv ix g) (hu : UnresOk g u) (name : Str)
    (d : List (Spanned Token)) :
    ∃ ix', addExternalDef ix u name d = .ok ix' ∧
      Inv ix' (g.run (match u.get? name, parseExternalDef d with
        | some fn, some x => [.ext fn x]
        | _, _ => [])) ∧
      UnresOk (g.run (match u.get? name, parseExternalDef d with
        | some fn, some x => [.ext fn x]
        | _, _ => [])) u ∧
      (g.run (match u.get? name, parseExternalDef d with
        | some fn, some x => [.ext fn x]
        | _, _ => [])).bodies.length = g.bodies.length := by
  simp only [addExternalDef]
  cases hud : u.get? name with
  | none => exact ⟨ix, rfl, h, hu, rfl⟩
  | some fn =>
    cases hpd : parseExternalDef d with
    | none => exact ⟨ix, rfl, h, hu, rfl⟩
    | some x =>
      have hsome := (h.keys .function none fn).mpr (hu _ _ hud)
      simp only [entry?] at hsome
      obtain ⟨ul, hul⟩ := Option.isSome_iff_exists.mp hsome
      simp only [hul]
      exact ⟨_, rfl, h.addExt hul x, hu, rfl⟩

theorem indexStatement_inv {src : Str} {ix : HIRIndex} {g : Ghost} {u : StrMap Str} (h : Inv ix g) (hu : UnresOk g u)
    (s : Statement) (hs : ∀ n d, s = .dbgAnnotation n d → annotationValue src d ≠ .panic) :
    ∃ ix', indexStatement src (ix, u) s = .ok (ix', unresStep u s) ∧ Inv ix' (g.run (stmtEvents src u g.bodies.length s)) ∧
      UnresOk (g.run (stmtEvents src u g.bodies.length s)) (unresStep u s) ∧
      (g.run (stmtEvents src u g.bodies.length s)).bodies.length = g.bodies.length + funcCount [s] := by
  have hold : ∀ evs, UnresOk (g.run evs) u := fun evs d fn hd =>
    let ⟨o, ho, h'⟩ := hu d fn hd
    ⟨o, mem_run ho evs, h'⟩
  cases s with
  | globalVar name d =>
    obtain ⟨ix1, h1, h2⟩ := addOcc_inv h (occ .globalVar .def_ none name) trivial
    simp only [addOcc, occ] at h1
    exact ⟨ix1, by simp only [indexStatement, h1]; rfl, h2, hold _, rfl⟩
  | funcDecl sig a d =>
    obtain ⟨ix1, h1, h2⟩ := addOcc_inv h (occ .function .decl none sig.name) trivial
    simp only [addOcc, occ] at h1
    refine ⟨ix1, ?_, h2, ?_, rfl⟩
    · simp only [indexStatement, h1]
      cases d <;> rfl
    · cases d with
      | none => exact hold _
      | some d =>
        intro d' fn hd
        simp only [unresStep, StrMap.insert, StrMap.get?_modifyEntry] at hd
        split at hd
        · cases hd
          obtain ⟨o', h3, h4, h5, h6, _⟩ := sameKey_addTo g.occs (occ .function .decl none sig.name)
          exact ⟨o', h3, h4, h5, h6⟩
        · exact hold _ d' fn hd
  | funcDependencies n ds => exact ⟨ix, rfl, h, hu, rfl⟩
  | dbgAnnotation name d =>
    obtain ⟨ix1, h1, h2⟩ := addOcc_inv h (occ .dbgAnnotation .def_ none name) trivial
    simp only [addOcc, occ] at h1
    have hv := hs name d rfl
    simp only [indexStatement, h1, stmtEvents]
    -- the value
    obtain ⟨ix2, g2, hix2, hg2, h3, hb⟩ : ∃ ix2 g2, (match annotationValue src d with
        | .panic => Outcome.panic
        | .ok v => .ok (match v with
          | some v => { ix1 with dbgAnnotationValues := ix1.dbgAnnotationValues.insert name.1 v }
          | none => ix1)) = .ok ix2 ∧
        g2 = ({ g with occs := addTo g.occs (occ .dbgAnnotation .def_ none name) } : Ghost).run (match annotationValue src d with
        | .ok (some v) => [.val name.1 v]
        | _ => []) ∧ Inv ix2 g2 ∧ g2.bodies.length = g.bodies.length := by
      cases ha : annotationValue src d with
      | panic => exact absurd ha hv
      | ok v =>
        cases v with
        | none => exact ⟨ix1, _, rfl, rfl, h2, rfl⟩
        | some v => exact ⟨_, _, rfl, rfl, h2.setVal name.1 v, rfl⟩
    have hrun : ∀ evs evs', g.run (.occ (occ .dbgAnnotation .def_ none name) :: (evs ++ evs')) =
        (({ g with occs := addTo g.occs (occ .dbgAnnotation .def_ none name) } : Ghost).run evs).run evs' := by
      intro evs evs'
      rw [← Ghost.run_append]
      rfl
    rw [hrun, ← hg2]
    have hfn : UnresOk g2 u := by
      rw [hg2, show ({ g with occs := addTo g.occs (occ .dbgAnnotation .def_ none name) } : Ghost) =
        g.run [.occ (occ .dbgAnnotation .def_ none name)] from rfl, ← Ghost.run_append]
      exact hold _
    obtain ⟨ix3, h4, h5, h6, h7⟩ := addExternalDef_inv h3 hfn name.1 d
    refine ⟨ix3, ?_, h5, h6, by rw [h7, hb]; rfl⟩
    cases hav : annotationValue src d with
    | panic => exact absurd hav hv
    | ok v =>
      rw [hav] at hix2
      cases v <;> simp only [Outcome.ok.injEq] at hix2 <;> subst hix2 <;> simp only [h4] <;> rfl
  | funcDef kw sig body =>
    obtain ⟨ix1, h1, h2, h3⟩ := indexFuncDef_inv h kw sig body
    exact ⟨ix1, by simp only [indexStatement, h1]; rfl, h2, hold _, h3⟩

theorem indexStatements_inv {src : Str} {ix : HIRIndex} {g : Ghost} {u : StrMap Str} (h : Inv ix g) (hu : UnresOk g u)
    (ss : List Statement) (hs : ∀ n d, .dbgAnnotation n d ∈ ss → annotationValue src d ≠ .panic) :
    ∃ ix' u', foldO (indexStatement src) (ix, u) ss = .ok (ix', u') ∧
      Inv ix' (g.run (docEvents src u g.bodies.length ss)) := by
  induction ss generalizing ix g u with
  | nil => exact ⟨ix, u, rfl, h⟩
  | cons s ss ih =>
    obtain ⟨ix1, h1, h2, h3, h4⟩ := indexStatement_inv (src := src) h hu s (fun n d e => hs n d (by simp [e]))
    obtain ⟨ix2, u2, h5, h6⟩ := ih h2 h3 (fun n d hm => hs n d (by simp [hm]))
    refine ⟨ix2, u2, ?_, ?_⟩
    · simp only [foldO, h1, h5]
    · rw [docEvents, Ghost.run_append, ← h4]
      exact h6

/-! ### What the events amount to -/

def Event.occ? : Event → Option SymbolOccurrence
  | .occ o => some o
  | _ => none

def Event.ext? : Event → Option (Str × ExternalDef)
  | .ext fn d => some (fn, d)
  | _ => none

theorem run_occs (g : Ghost) (evs : List Event) : (g.run evs).occs = (evs.filterMap Event.occ?).foldl addTo g.occs := by
  induction evs generalizing g with
  | nil => rfl
  | cons e evs ih =>
    have := ih (g.step e)
    cases e <;> exact this

theorem run_exts (g : Ghost) (evs : List Event) : (g.run evs).exts = g.exts ++ evs.filterMap Event.ext? := by
  induction evs generalizing g with
  | nil => simp [Ghost.run]
  | cons e evs ih =>
    have := ih (g.step e)
    cases e
    case ext fn d =>
      rw [Ghost.run, List.foldl_cons]
      rw [Ghost.run] at this
      rw [this]
      simp [Ghost.step, Event.ext?]
    all_goals exact this

theorem instrEvents_occs (i : Nat) (bb : BasicBlock) (ins : Instruction) :
    (instrEvents i bb ins).filterMap Event.occ? = instrOccs i ins := by
  simp only [instrEvents, instrOccs, List.filterMap_append]
  congr 1
  · cases ins.assignmentTarget <;> rfl
  · induction ins.basicBlockRefs with
    | nil => rfl
    | cons r rs ih =>
      simp only [List.flatMap_cons, List.cons_append, List.filterMap_cons, Event.occ?, List.filterMap_append, ih, List.map_cons]
      have : (edgeEvents i bb ins r).filterMap Event.occ? = [] := by
        unfold edgeEvents
        split
        · cases bb.label <;> rfl
        · rfl
      rw [this]; rfl

theorem filterMap_flatMap' {α β γ : Type} (f : α → List β) (p : β → Option γ) (l : List α) :
    (l.flatMap f).filterMap p = l.flatMap fun x => (f x).filterMap p := by
  induction l with
  | nil => rfl
  | cons x l ih => simp [List.flatMap_cons, ih]

theorem blockEvents_occs (i : Nat) (bb : BasicBlock) : (blockEvents i bb).filterMap Event.occ? = blockOccs i bb := by
  simp only [blockEvents, blockOccs, List.filterMap_append, filterMap_flatMap', instrEvents_occs]
  congr 1
  cases bb.label <;> rfl

theorem funcEvents_occs (i : Nat) (sig : FuncSignature) (body : FuncBody) :
    (funcEvents i sig body).filterMap Event.occ? = funcOccs i sig body := by
  simp only [funcEvents, funcOccs, List.filterMap_append, filterMap_flatMap', blockEvents_occs]
  congr 1
  induction sig.args with
  | nil => rfl
  | cons a as ih => rw [List.flatMap_cons, ih]; rfl

theorem stmtEvents_occs (src : Str) (u : StrMap Str) (i : Nat) (s : Statement) :
    (stmtEvents src u i s).filterMap Event.occ? = stmtOccs i s := by
  cases s with
  | globalVar => rfl
  | funcDecl => rfl
  | funcDependencies => rfl
  | dbgAnnotation name d =>
    simp only [stmtEvents, stmtOccs, List.filterMap_cons, Event.occ?, List.filterMap_append]
    have h1 : (match annotationValue src d with
        | .ok (some v) => [Event.val name.1 v]
        | _ => []).filterMap Event.occ? = [] := by split <;> rfl
    have h2 : (match u.get? name.1, parseExternalDef d with
        | some fn, some x => [Event.ext fn x]
        | _, _ => []).filterMap Event.occ? = [] := by split <;> rfl
    rw [h1, h2]; rfl
  | funcDef kw sig body =>
    simp only [stmtEvents, stmtOccs, List.filterMap_cons, Event.occ?, funcEvents_occs]

theorem docEvents_occs (src : Str) (u : StrMap Str) (i : Nat) (ss : List Statement) :
    (docEvents src u i ss).filterMap Event.occ? = docOccs i ss := by
  induction ss generalizing u i with
  | nil => rfl
  | cons s ss ih => simp only [docEvents, docOccs, List.filterMap_append, stmtEvents_occs, ih]

/-! Function bodies -/

/-- The function bodies with their branches. -/
def docBodies : List Statement → List GBody
  | [] => []
  | .funcDef kw sig body :: ss =>
    { name := sig.name, range := ⟨kw.start, body.closingBracket.stop⟩, blocks := body.basicBlocks,
      edges := body.basicBlocks.flatMap blockEdges } :: docBodies ss
  | _ :: ss => docBodies ss

def Event.edge? : Event → Option (Str × Spanned Str)
  | .edge _ t l => some (t, l)
  | _ => none

/-- Only branches of function `i`, no new function. -/
def Event.Local (i : Nat) : Event → Prop
  | .edge j _ _ => j = i
  | .body _ => False
  | _ => True

theorem modify_append_last {α : Type} (l : List α) (b : α) (f : α → α) : (l ++ [b]).modify l.length f = l ++ [f b] := by
  induction l with
  | nil => rfl
  | cons a l ih => simp [ih]

theorem run_local {l : List GBody} {b : GBody} {g : Ghost} (hg : g.bodies = l ++ [b]) {evs : List Event}
    (h : ∀ e ∈ evs, e.Local l.length) :
    (g.run evs).bodies = l ++ [{ b with edges := b.edges ++ evs.filterMap Event.edge? }] := by
  induction evs generalizing g b with
  | nil => simpa [Ghost.run] using hg
  | cons e evs ih =>
    have he := h e (by simp)
    have hrest := fun e' he' => h e' (List.mem_cons_of_mem _ he')
    cases e with
    | edge j t l' =>
      simp only [Event.Local] at he
      subst he
      have : (g.step (.edge l.length t l')).bodies = l ++ [{ b with edges := b.edges ++ [(t, l')] }] := by
        simp only [Ghost.step, hg]
        rw [modify_append_last]
      have := ih this hrest
      simp only [Ghost.run, List.foldl_cons] at this ⊢
      rw [this]
      simp [Event.edge?]
    | body b => exact absurd he (by simp [Event.Local])
    | occ o => exact ih (g := g.step (.occ o)) hg hrest
    | ext fn d => exact ih (g := g.step (.ext fn d)) hg hrest
    | val n v => exact ih (g := g.step (.val n v)) hg hrest

theorem instrEvents_edges (i : Nat) (bb : BasicBlock) (ins : Instruction) :
    (instrEvents i bb ins).filterMap Event.edge? =
      ins.basicBlockRefs.flatMap (fun r => if ins.isBranching then bb.label.toList.map fun l => (r.1, l) else []) := by
  simp only [instrEvents, List.filterMap_append]
  have : (ins.assignmentTarget.toList.map (fun t => Event.occ (occ .localVar .def_ (some i) t))).filterMap Event.edge? = [] := by
    cases ins.assignmentTarget <;> rfl
  rw [this, List.nil_append, filterMap_flatMap']
  congr 1
  funext r
  simp only [List.filterMap_cons, Event.edge?, edgeEvents]
  split
  · cases bb.label <;> rfl
  · rfl

theorem funcEvents_edges (i : Nat) (sig : FuncSignature) (body : FuncBody) :
    (funcEvents i sig body).filterMap Event.edge? = body.basicBlocks.flatMap blockEdges := by
  simp only [funcEvents, List.filterMap_append, filterMap_flatMap']
  have : sig.args.flatMap (fun a => [Event.occ (occ .localVar .def_ (some i) a.name)].filterMap Event.edge?) = [] := by
    induction sig.args with
    | nil => rfl
    | cons a as ih => simp [Event.edge?]
  rw [this, List.nil_append]
  congr 1
  funext b
  simp only [blockEvents, List.filterMap_append, filterMap_flatMap', instrEvents_edges, blockEdges]
  cases b.label <;> rfl

theorem funcEvents_local (i : Nat) (sig : FuncSignature) (body : FuncBody) : ∀ e ∈ funcEvents i sig body, e.Local i := by
  intro e he
  simp only [funcEvents, blockEvents, instrEvents, edgeEvents, List.mem_append, List.mem_flatMap, List.mem_map,
    List.mem_cons] at he
  rcases he with ⟨a, _, h⟩ | ⟨b, _, ⟨l, _, h⟩ | ⟨ins, _, ⟨t, _, h⟩ | ⟨r, _, h | h⟩⟩⟩
  · simp at h; subst h; exact trivial
  · subst h; exact trivial
  · subst h; exact trivial
  · subst h; exact trivial
  · split at h
    · simp at h
      obtain ⟨l, sp, _, h⟩ := h
      subst h; rfl
    · simp at h

theorem docEvents_bodies (src : Str) (u : StrMap Str) (ss : List Statement) (g : Ghost) :
    (g.run (docEvents src u g.bodies.length ss)).bodies = g.bodies ++ docBodies ss := by
  induction ss generalizing u g with
  | nil => simp [docEvents, Ghost.run, docBodies]
  | cons s ss ih =>
    rw [docEvents, Ghost.run_append]
    cases s with
    | funcDef kw sig body =>
      have hl := run_local (g := ((g.step (.occ (occ .function .def_ none sig.name))).step
        (.body { name := sig.name, range := ⟨kw.start, body.closingBracket.stop⟩, blocks := body.basicBlocks })))
        (l := g.bodies) rfl (funcEvents_local g.bodies.length sig body)
      rw [funcEvents_edges] at hl
      have hl' : (g.run (stmtEvents src u g.bodies.length (.funcDef kw sig body))).bodies = _ := hl
      have := ih (unresStep u (.funcDef kw sig body)) (g.run (stmtEvents src u g.bodies.length (.funcDef kw sig body)))
      rw [hl'] at this
      simp only [List.length_append, List.length_singleton] at this
      rw [show funcCount [Statement.funcDef kw sig body] = 1 from rfl, this]
      simp [docBodies]
    | globalVar n d => exact ih _ (g.run (stmtEvents src u g.bodies.length (.globalVar n d)))
    | funcDecl n d e => exact ih _ (g.run (stmtEvents src u g.bodies.length (.funcDecl n d e)))
    | funcDependencies n d => exact ih _ (g.run (stmtEvents src u g.bodies.length (.funcDependencies n d)))
    | dbgAnnotation n d =>
      have hb : (g.run (stmtEvents src u g.bodies.length (.dbgAnnotation n d))).bodies = g.bodies := by
        simp only [stmtEvents]
        cases annotationValue src d with
        | panic => cases u.get? n.1 <;> cases parseExternalDef d <;> rfl
        | ok v => cases v <;> cases u.get? n.1 <;> cases parseExternalDef d <;> rfl
      have := ih (unresStep u (.dbgAnnotation n d)) (g.run (stmtEvents src u g.bodies.length (.dbgAnnotation n d)))
      rw [hb] at this
      exact this

/-! ### Tokens -/

theorem Inv.ranges {ix : HIRIndex} {g : Ghost} (h : Inv ix g) :
    ix.functionBodies.map FunctionBody.completeRange = g.bodies.map GBody.range := by
  have := congrArg (List.map fun v => v.2.1) h.bodies
  simp only [List.map_map] at this
  exact this

/-- The function body around an offset. -/
def bodyAt (bs : List GBody) (pos : Nat) : Option Nat := bs.findIdx? fun b => b.range.contains pos

theorem Inv.findBody {ix : HIRIndex} {g : Ghost} (h : Inv ix g) (pos : Nat) :
    findBody ix.functionBodies pos = bodyAt g.bodies pos := by
  have := congrArg (List.findIdx? fun r => r.contains pos) h.ranges
  rw [List.findIdx?_map, List.findIdx?_map] at this
  exact this

/-- At most one function body around every offset. -/
def DisjointBodies (bs : List GBody) : Prop :=
  ∀ (i j : Nat) (b b' : GBody) (pos : Nat), bs[i]? = some b → bs[j]? = some b' → b.range.contains pos = true →
    b'.range.contains pos = true → i = j

theorem bodyAt_unique {bs : List GBody} (hd : DisjointBodies bs) {i : Nat} {b : GBody} {pos : Nat} (hi : bs[i]? = some b)
    (hc : b.range.contains pos = true) : bodyAt bs pos = some i := by
  unfold bodyAt
  cases hf : bs.findIdx? fun b => b.range.contains pos with
  | none =>
    rw [List.findIdx?_eq_none_iff] at hf
    have := hf b (List.mem_of_getElem? hi)
    rw [hc] at this
    cases this
  | some j =>
    obtain ⟨hj, hp, _⟩ := List.findIdx?_eq_some_iff_getElem.mp hf
    rw [hd i j b bs[j] pos hi (List.getElem?_eq_getElem hj) hc hp]

theorem currentBody_eq {ix : HIRIndex} {g : Ghost} (h : Inv ix g) (hd : DisjointBodies g.bodies) {cached : Option Nat}
    (hc : ∀ i, cached = some i → i < g.bodies.length) (pos : Nat) :
    currentBody ix cached pos = .ok (bodyAt g.bodies pos) := by
  cases cached with
  | none => simp only [currentBody, h.findBody]
  | some i =>
    have hi := hc i rfl
    have hl := h.length
    have hfb : ix.functionBodies[i]? = some ix.functionBodies[i] := List.getElem?_eq_getElem (by omega)
    simp only [currentBody, hfb, h.findBody]
    split
    · rename_i hcon
      have hr := congrArg (fun l => l[i]?) h.ranges
      simp only [List.getElem?_map, hfb, List.getElem?_eq_getElem hi, Option.map_some, Option.some.injEq] at hr
      rw [hr] at hcon
      rw [bodyAt_unique hd (List.getElem?_eq_getElem hi) hcon]
    · rfl

theorem indexTokens_inv {isFn : Str → Bool} (toks : List (Spanned Token)) {ix : HIRIndex} {g : Ghost} (h : Inv ix g)
    (hd : DisjointBodies g.bodies) {cached : Option Nat} (hc : ∀ i, cached = some i → i < g.bodies.length)
    (hfn : ∀ n, isFn n = true ↔ ∃ o ∈ g.occs, IsOf .function none n o) :
    ∃ ix' c', foldO indexToken (ix, cached) toks = .ok (ix', c') ∧
      Inv ix' { g with occs := (toks.filterMap (tokenUse isFn (bodyAt g.bodies))).foldl addTo g.occs } := by
  induction toks generalizing ix g cached with
  | nil => exact ⟨ix, cached, rfl, h⟩
  | cons t toks ih =>
    have key : ∀ o cached' ix1, Inv ix1 { g with occs := addTo g.occs o } → tokenUse isFn (bodyAt g.bodies) t = some o →
        (o.symbolKind = .function → isFn o.name = true) → o.useDef = .use →
        (∀ i, cached' = some i → i < g.bodies.length) →
        indexToken (ix, cached) t = .ok (ix1, cached') →
        ∃ ix' c', foldO indexToken (ix, cached) (t :: toks) = .ok (ix', c') ∧
          Inv ix' { g with occs := ((t :: toks).filterMap (tokenUse isFn (bodyAt g.bodies))).foldl addTo g.occs } := by
      intro o cached' ix1 h1 ht hk _ hc' hstep
      obtain ⟨ix2, c2, h2, h3⟩ := ih (g := { g with occs := addTo g.occs o }) h1 hd hc' (by
        intro n
        rw [hfn]
        constructor
        · rintro ⟨o', ho', hi⟩
          exact ⟨o', mem_addTo ho' _, hi⟩
        · rintro ⟨o', ho', hi⟩
          unfold addTo at ho'
          simp only at ho'
          split at ho'
          · exact ⟨o', ho', hi⟩
          · rcases List.mem_append.mp ho' with ho' | ho'
            · exact ⟨o', ho', hi⟩
            · simp at ho'
              subst ho'
              obtain ⟨h4, h5, h6⟩ := hi
              exact (hfn n).mp (h6 ▸ hk h4))
      refine ⟨ix2, c2, by simp only [foldO, hstep, h2], ?_⟩
      simp only [List.filterMap_cons, ht, List.foldl_cons]
      exact h3
    have skip : ∀ cached', tokenUse isFn (bodyAt g.bodies) t = none → (∀ i, cached' = some i → i < g.bodies.length) →
        indexToken (ix, cached) t = .ok (ix, cached') →
        ∃ ix' c', foldO indexToken (ix, cached) (t :: toks) = .ok (ix', c') ∧
          Inv ix' { g with occs := ((t :: toks).filterMap (tokenUse isFn (bodyAt g.bodies))).foldl addTo g.occs } := by
      intro cached' ht hc' hstep
      obtain ⟨ix2, c2, h2, h3⟩ := ih h hd hc' hfn
      refine ⟨ix2, c2, by simp only [foldO, hstep, h2], ?_⟩
      simp only [List.filterMap_cons, ht]
      exact h3
    obtain ⟨t, sp⟩ := t
    cases t with
    | globalName n =>
      have hk : (ix.functions.get? n).isSome = isFn n := by
        rw [Bool.eq_iff_iff, hfn, ← h.keys]
        rfl
      cases hb : isFn n with
      | true =>
        obtain ⟨ix1, h1, h2⟩ := addOcc_inv h (occ .function .use none (n, sp)) trivial
        simp only [addOcc, occ] at h1
        exact key _ cached ix1 h2 (by simp [tokenUse, hb]) (fun _ => hb) rfl hc (by simp [indexToken, hk, hb, h1])
      | false =>
        obtain ⟨ix1, h1, h2⟩ := addOcc_inv h (occ .globalVar .use none (n, sp)) trivial
        simp only [addOcc, occ] at h1
        exact key _ cached ix1 h2 (by simp [tokenUse, hb]) (by intro h; cases h) rfl hc (by simp [indexToken, hk, hb, h1])
    | debugRef n =>
      obtain ⟨ix1, h1, h2⟩ := addOcc_inv h (occ .dbgAnnotation .use none (n, sp)) trivial
      simp only [addOcc, occ] at h1
      exact key _ cached ix1 h2 (by simp [tokenUse]) (by intro h; cases h) rfl hc (by simp [indexToken, h1])
    | localName n =>
      have hcur := currentBody_eq h hd hc sp.start
      cases hb : bodyAt g.bodies sp.start with
      | none =>
        rw [hb] at hcur
        exact skip none (by simp [tokenUse, hb]) (by intro i hi; cases hi) (by simp [indexToken, hcur])
      | some i =>
        rw [hb] at hcur
        have hi : i < g.bodies.length := (List.findIdx?_eq_some_iff_getElem.mp hb).1
        obtain ⟨ix1, h1, h2⟩ := addOcc_inv h (occ .localVar .use (some i) (n, sp)) hi
        simp only [addOcc, occ] at h1
        exact key _ (some i) ix1 h2 (by simp [tokenUse, hb]) (by intro h; cases h) rfl
          (by intro j hj; cases hj; exact hi) (by simp [indexToken, hcur, h1])
    | _ => exact skip cached rfl hc rfl

/-! ### Occurrences at different places -/

theorem foldl_addTo {occs os : List SymbolOccurrence} (hd : (os.map (·.span)).Nodup) :
    os.foldl addTo occs = occs ++ os.filter fun o => decide (¬ ∃ o' ∈ occs, SameKey o' o) := by
  induction os generalizing occs with
  | nil => simp
  | cons o os ih =>
    simp only [List.map_cons, List.nodup_cons] at hd
    rw [List.foldl_cons, ih hd.2]
    have hf : ∀ o' ∈ os, (∃ o'' ∈ addTo occs o, SameKey o'' o') ↔ ∃ o'' ∈ occs, SameKey o'' o' := by
      intro o' ho'
      constructor
      · rintro ⟨o'', h1, h2⟩
        unfold addTo at h1
        split at h1
        · exact ⟨o'', h1, h2⟩
        · rcases List.mem_append.mp h1 with h1 | h1
          · exact ⟨o'', h1, h2⟩
          · simp at h1
            subst h1
            exact absurd (List.mem_map.mpr ⟨o', ho', h2.2.2.2.symm⟩) hd.1
      · rintro ⟨o'', h1, h2⟩
        exact ⟨o'', mem_addTo h1 _, h2⟩
    rw [List.filter_congr (q := fun o' => decide (¬ ∃ o'' ∈ occs, SameKey o'' o')) (by
      intro o' ho'
      simp only [decide_eq_decide]
      rw [hf o' ho'])]
    rw [List.filter_cons]
    unfold addTo
    by_cases h : ∃ o' ∈ occs, SameKey o' o
    · simp [h]
    · simp [h]

end HyperIR
