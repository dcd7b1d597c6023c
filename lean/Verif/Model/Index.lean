import Verif.Model.Parser

/- Model of src/hir_index.rs. -/

namespace HyperIR

/-- src/hir_index.rs:9-14 -/
inductive UseDefKind where
  | decl
  | def_
  | use
  deriving DecidableEq, Repr

/-- src/hir_index.rs:16-20 -/
structure ExternalDef where
  filepath : Str
  line : Nat
  deriving DecidableEq, Repr

/-- src/hir_index.rs:22-28 -/
structure UseDefList where
  decls : List Span := []
  defs : List Span := []
  externalDefs : List ExternalDef := []
  uses : List Span := []
  deriving DecidableEq, Repr

/-- src/hir_index.rs:31-37 -/
def UseDefList.get (u : UseDefList) : UseDefKind → List Span
  | .decl => u.decls
  | .def_ => u.defs
  | .use => u.uses

/-- src/hir_index.rs:39-45, 115: `get_use_def_kind_mut(ud).push(span)` -/
def UseDefList.push (u : UseDefList) (k : UseDefKind) (sp : Span) : UseDefList :=
  match k with
  | .decl => { u with decls := u.decls ++ [sp] }
  | .def_ => { u with defs := u.defs ++ [sp] }
  | .use => { u with uses := u.uses ++ [sp] }

/-- src/hir_index.rs:112 -/
def UseDefList.hasSpan (u : UseDefList) (sp : Span) : Bool :=
  decide (sp ∈ u.decls) || decide (sp ∈ u.defs) || decide (sp ∈ u.uses)

/-- `HashMap<String, V>`, as an association list with distinct keys.  The iteration order is not
modelled by the list: functions that iterate take an `IterOrder`. -/
abbrev StrMap (V : Type) := List (Str × V)

/-- `HashMap::get` -/
def StrMap.get? {V : Type} (m : StrMap V) (k : Str) : Option V :=
  match m with
  | [] => none
  | (k', v) :: m => if k' = k then some v else StrMap.get? m k

/-- `*map.entry(k).or_default() = f(…)` -/
def StrMap.modifyEntry {V : Type} (dflt : V) (m : StrMap V) (k : Str) (f : V → V) : StrMap V :=
  match m with
  | [] => [(k, f dflt)]
  | (k', v) :: m =>
    if k' = k then (k', f v) :: m else (k', v) :: StrMap.modifyEntry dflt m k f

/-- `HashMap::insert` -/
def StrMap.insert {V : Type} (m : StrMap V) (k : Str) (v : V) : StrMap V :=
  StrMap.modifyEntry v m k fun _ => v

/-- An arbitrary iteration order of hash maps. -/
structure IterOrder where
  run : {α : Type} → List α → List α
  perm : ∀ {α : Type} (l : List α), (run l).Perm l

abbrev SymMap := StrMap UseDefList

/-- src/hir_index.rs:48-56 -/
structure FunctionBody where
  name : Spanned Str
  completeRange : Span
  labels : SymMap := []
  localVars : SymMap := []
  basicBlocks : List BasicBlock
  incomingBbBranches : StrMap (List (Spanned Str)) := []
  deriving DecidableEq, Repr

/-- src/hir_index.rs:58-66 -/
inductive SymbolKind where
  | globalVar
  | function
  | dbgAnnotation
  | label
  | localVar
  deriving DecidableEq, Repr

/-- src/hir_index.rs:68-75 -/
structure SymbolOccurrence where
  span : Span
  useDef : UseDefKind
  symbolKind : SymbolKind
  name : Str
  funcBodyId : Option Nat
  deriving DecidableEq, Repr

/-- `BTreeMap<usize, SymbolOccurrence>`: entries in increasing key order. -/
abbrev RevIdx := List (Nat × SymbolOccurrence)

/-- `BTreeMap::insert` -/
def RevIdx.insert (m : RevIdx) (k : Nat) (v : SymbolOccurrence) : RevIdx :=
  match m with
  | [] => [(k, v)]
  | (k', v') :: m =>
    if k < k' then (k, v) :: (k', v') :: m
    else if k = k' then (k, v) :: m
    else (k', v') :: RevIdx.insert m k v

/-- src/hir_index.rs:77-85 -/
structure HIRIndex where
  globalVars : SymMap := []
  functions : SymMap := []
  dbgAnnotations : SymMap := []
  reverseIdx : RevIdx := []
  functionBodies : List FunctionBody := []
  dbgAnnotationValues : StrMap Str := []
  deriving DecidableEq, Repr

/-- src/hir_index.rs:88-100; `fb.unwrap()` may panic. -/
def HIRIndex.getBySymbolKind (ix : HIRIndex) (k : SymbolKind) (fb : Option FunctionBody) :
    Outcome SymMap :=
  match k with
  | .globalVar => .ok ix.globalVars
  | .function => .ok ix.functions
  | .dbgAnnotation => .ok ix.dbgAnnotations
  | .label => match fb with
    | some fb => .ok fb.labels
    | none => .panic
  | .localVar => match fb with
    | some fb => .ok fb.localVars
    | none => .panic

/-- The callers' `func_body_id.map(|id| &index.function_bodies[id])` (src/main.rs:391, 784,
src/rename.rs:44): out-of-range indices panic. -/
def HIRIndex.funcBody (ix : HIRIndex) : Option Nat → Outcome (Option FunctionBody)
  | none => .ok none
  | some id => match ix.functionBodies[id]? with
    | some fb => .ok (some fb)
    | none => .panic

/-- src/hir_index.rs:102-126 -/
def addInternal (map : SymMap) (rev : RevIdx) (funcBodyId : Option Nat) (k : SymbolKind)
    (ud : UseDefKind) (span : Span) (name : Str) : SymMap × RevIdx :=
  if ((map.get? name).getD {}).hasSpan span then (map, rev)
  else
    (map.modifyEntry {} name (fun e => e.push ud span),
     rev.insert span.start
      { span := span, useDef := ud, symbolKind := k, name := name, funcBodyId := funcBodyId })

/-- src/hir_index.rs:128-137 (and 139-141); `unreachable!()` for function-local kinds. -/
def HIRIndex.addGlobal (ix : HIRIndex) (k : SymbolKind) (ud : UseDefKind) (span : Span) (name : Str) :
    Outcome HIRIndex :=
  match k with
  | .globalVar =>
    let (m, r) := addInternal ix.globalVars ix.reverseIdx none k ud span name
    .ok { ix with globalVars := m, reverseIdx := r }
  | .function =>
    let (m, r) := addInternal ix.functions ix.reverseIdx none k ud span name
    .ok { ix with functions := m, reverseIdx := r }
  | .dbgAnnotation =>
    let (m, r) := addInternal ix.dbgAnnotations ix.reverseIdx none k ud span name
    .ok { ix with dbgAnnotations := m, reverseIdx := r }
  | .label => .panic
  | .localVar => .panic

/-- src/hir_index.rs:143-167 (and 169-177); `unreachable!()` for global kinds, index out of range
panics. -/
def HIRIndex.addFuncLocal (ix : HIRIndex) (funcBodyId : Nat) (k : SymbolKind) (ud : UseDefKind)
    (span : Span) (name : Str) : Outcome HIRIndex :=
  match ix.functionBodies[funcBodyId]? with
  | none => .panic
  | some fb => match k with
    | .label =>
      let (m, r) := addInternal fb.labels ix.reverseIdx (some funcBodyId) k ud span name
      .ok { ix with functionBodies := ix.functionBodies.set funcBodyId { fb with labels := m },
                    reverseIdx := r }
    | .localVar =>
      let (m, r) := addInternal fb.localVars ix.reverseIdx (some funcBodyId) k ud span name
      .ok { ix with functionBodies := ix.functionBodies.set funcBodyId { fb with localVars := m },
                    reverseIdx := r }
    | _ => .panic

/-- src/hir_index.rs:179-190 -/
def HIRIndex.findSymbolAtPosition (ix : HIRIndex) (pos : Nat) : Option SymbolOccurrence :=
  (ix.reverseIdx.map Prod.snd).find? fun e => e.span.contains pos

/-- `for x in l { st = f(st, x)? }` with panics. -/
def foldO {σ α : Type} (f : σ → α → Outcome σ) : σ → List α → Outcome σ
  | st, [] => .ok st
  | st, x :: xs => match f st x with
    | .ok st' => foldO f st' xs
    | .panic => .panic

/-- src/hir_index.rs:298-308: record the label of the current block as a predecessor. -/
def addIncoming (m : StrMap (List (Spanned Str))) (target : Str) (label : Spanned Str) :
    StrMap (List (Spanned Str)) :=
  m.modifyEntry [] target fun l => if label ∈ l then l else l ++ [label]

/-- src/hir_index.rs:291-309: one basic block reference of instruction `i` in block `bb` -/
def indexBbRef (fid : Nat) (bb : BasicBlock) (i : Instruction) (ix : HIRIndex) (r : Spanned Str) :
    Outcome HIRIndex :=
  match ix.addFuncLocal fid .label .use r.2 r.1 with
  | .panic => .panic
  | .ok ix =>
    if i.isBranching then
      match bb.label with
      | none => .ok ix
      | some label => match ix.functionBodies[fid]? with
        | none => .panic
        | some fb =>
          let fb := { fb with incomingBbBranches := addIncoming fb.incomingBbBranches r.1 label }
          .ok { ix with functionBodies := ix.functionBodies.set fid fb }
    else .ok ix

/-- src/hir_index.rs:282-310: one instruction -/
def indexInstruction (fid : Nat) (bb : BasicBlock) (ix : HIRIndex) (i : Instruction) :
    Outcome HIRIndex :=
  let r := match i.assignmentTarget with
    | some t => ix.addFuncLocal fid .localVar .def_ t.2 t.1
    | none => .ok ix
  match r with
  | .panic => .panic
  | .ok ix => foldO (indexBbRef fid bb i) ix i.basicBlockRefs

/-- src/hir_index.rs:271-311: one basic block -/
def indexBlock (fid : Nat) (ix : HIRIndex) (bb : BasicBlock) : Outcome HIRIndex :=
  let r := match bb.label with
    | some l => ix.addFuncLocal fid .label .def_ l.2 l.1
    | none => .ok ix
  match r with
  | .panic => .panic
  | .ok ix => foldO (indexInstruction fid bb) ix bb.instructions

/-- src/hir_index.rs:262-269: one function argument -/
def indexArg (fid : Nat) (ix : HIRIndex) (a : FuncArg) : Outcome HIRIndex :=
  ix.addFuncLocal fid .localVar .def_ a.name.2 a.name.1

/-- src/hir_index.rs:245-312: a function definition -/
def indexFuncDef (ix : HIRIndex) (defineKw : Span) (sig : FuncSignature) (body : FuncBody) :
    Outcome HIRIndex :=
  match ix.addGlobal .function .def_ sig.name.2 sig.name.1 with
  | .panic => .panic
  | .ok ix =>
    let ix := { ix with functionBodies := ix.functionBodies ++
      [{ name := sig.name
         completeRange := { start := defineKw.start, stop := body.closingBracket.stop }
         basicBlocks := body.basicBlocks }] }
    let fid := ix.functionBodies.length - 1
    match foldO (indexArg fid) ix sig.args with
    | .panic => .panic
    | .ok ix => foldO (indexBlock fid) ix body.basicBlocks

/-- src/hir_index.rs:226-228: `"file:line"` as the only token of an annotation -/
def parseExternalDef (def_ : List (Spanned Token)) : Option ExternalDef :=
  match def_ with
  | [(Token.str s, _)] => match splitOn ':' s with
    | [filepath, linestr] => match parseU32 linestr with
      | some line => some { filepath := filepath, line := line }
      | none => none
    | _ => none
  | _ => none

/-- src/hir_index.rs:216-223: the text of an annotation (`&src[start..end]` with the spans' offsets
used as byte offsets). -/
def annotationValue (src : Str) (def_ : List (Spanned Token)) : Outcome (Option Str) :=
  match def_.head?, def_.getLast? with
  | some f, some l => match sliceBytes src f.2.start l.2.stop with
    | .ok v => .ok (some v)
    | .panic => .panic
  | _, _ => .ok none

/-- src/hir_index.rs:225-241: attach an external definition to a declared function -/
def addExternalDef (ix : HIRIndex) (unresolved : StrMap Str) (name : Str)
    (def_ : List (Spanned Token)) : Outcome HIRIndex :=
  match unresolved.get? name with
  | none => .ok ix
  | some funcname => match parseExternalDef def_ with
    | none => .ok ix
    | some d => match ix.functions.get? funcname with
      | none => .panic
      | some _ =>
        let m := ix.functions.modifyEntry {} funcname fun e =>
          { e with externalDefs := e.externalDefs ++ [d] }
        .ok { ix with functions := m }

/-- State of the statement loop: the index and `unresolved_function_dbgrefs`. -/
abbrev StmtState := HIRIndex × StrMap Str

/-- src/hir_index.rs:200-313: one statement -/
def indexStatement (src : Str) (st : StmtState) (s : Statement) : Outcome StmtState :=
  match s with
  | .globalVar name _ => match st.1.addGlobal .globalVar .def_ name.2 name.1 with
    | .ok ix => .ok (ix, st.2)
    | .panic => .panic
  | .funcDecl sig _ dbgref => match st.1.addGlobal .function .decl sig.name.2 sig.name.1 with
    | .ok ix => .ok (ix, match dbgref with
      | some d => st.2.insert d.1 sig.name.1
      | none => st.2)
    | .panic => .panic
  | .funcDependencies _ _ => .ok st
  | .dbgAnnotation name def_ => match st.1.addGlobal .dbgAnnotation .def_ name.2 name.1 with
    | .panic => .panic
    | .ok ix => match annotationValue src def_ with
      | .panic => .panic
      | .ok v =>
        let ix := match v with
          | some v => { ix with dbgAnnotationValues := ix.dbgAnnotationValues.insert name.1 v }
          | none => ix
        match addExternalDef ix st.2 name.1 def_ with
        | .ok ix => .ok (ix, st.2)
        | .panic => .panic
  | .funcDef kw sig body => match indexFuncDef st.1 kw sig body with
    | .ok ix => .ok (ix, st.2)
    | .panic => .panic

/-- `iter().enumerate().find(|(_, e)| e.complete_range.contains(pos)).map(|t| t.0)`
(src/hir_index.rs:336-341) -/
def findBody (bodies : List FunctionBody) (pos : Nat) : Option Nat :=
  bodies.findIdx? fun b => b.completeRange.contains pos

/-- src/hir_index.rs:331-342: the cached function body if it still covers `pos`, else a search -/
def currentBody (ix : HIRIndex) (cached : Option Nat) (pos : Nat) : Outcome (Option Nat) :=
  match cached with
  | none => .ok (findBody ix.functionBodies pos)
  | some id => match ix.functionBodies[id]? with
    | none => .panic
    | some fb =>
      if fb.completeRange.contains pos then .ok (some id) else .ok (findBody ix.functionBodies pos)

/-- State of the token loop: the index and `func_body_id`. -/
abbrev TokState := HIRIndex × Option Nat

/-- src/hir_index.rs:318-355: one token -/
def indexToken (st : TokState) (t : Spanned Token) : Outcome TokState :=
  match t.1 with
  | .globalName name =>
    let k := if (st.1.functions.get? name).isSome then SymbolKind.function else SymbolKind.globalVar
    match st.1.addGlobal k .use t.2 name with
    | .ok ix => .ok (ix, st.2)
    | .panic => .panic
  | .debugRef name => match st.1.addGlobal .dbgAnnotation .use t.2 name with
    | .ok ix => .ok (ix, st.2)
    | .panic => .panic
  | .localName name => match currentBody st.1 st.2 t.2.start with
    | .panic => .panic
    | .ok none => .ok (st.1, none)
    | .ok (some id) => match st.1.addFuncLocal id .localVar .use t.2 name with
      | .ok ix => .ok (ix, some id)
      | .panic => .panic
  | _ => .ok st

/-- src/hir_index.rs:193-358 -/
def createIndex (src : Str) (tokens : List (Spanned Token)) (stmts : List Statement) :
    Outcome HIRIndex :=
  match foldO (indexStatement src) ({}, []) stmts with
  | .panic => .panic
  | .ok (ix, _) => match foldO indexToken (ix, none) tokens with
    | .panic => .panic
    | .ok (ix, _) => .ok ix

end HyperIR
