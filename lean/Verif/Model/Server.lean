import Verif.Model.SemanticToken
import Verif.Model.Rename
import Verif.Model.Cfg
import Verif.Model.Diagnostics
import Verif.Model.Backtrace

/-
Model of src/main.rs: the language server as a state machine.  A document URI is the string
`Url::to_string()` returns (which is what the code uses as key).  A panic in a handler ends the
server (tower-lsp runs the handlers inside the task of `Server::serve`).
-/

namespace HyperIR

/-- What the server depends on besides its state: the build configuration, the order in which hash
maps are iterated, the file system, and `serde_json::from_str`. -/
structure Env where
  build : Build
  ord : IterOrder
  fs : FileSystem
  json : Str → Option Json

/-- src/main.rs:28-34 -/
structure AnalyzedDocument where
  rope : Str
  semanticTokens : List HIRSemanticToken
  stmts : List Statement
  index : HIRIndex

/-- src/main.rs:36-42 (`Backend`, without the client handle) -/
structure ServerState where
  roots : List Url := []
  lazyResolve : Bool := false
  docs : StrMap AnalyzedDocument := []

/-- `tower_lsp::jsonrpc::Error` -/
inductive RpcError where
  | invalidParams (msg : Str)
  | internalError (msg : Str)
  deriving DecidableEq, Repr

/-! ### Initialization -/

/-- The part of `InitializeParams` that is read (src/main.rs:58-78): the code action capability is
its `resolve_support.properties` and `data_support`. -/
structure InitializeParams where
  workspaceFolders : Option (List Url)
  rootUri : Option Url
  codeAction : Option (Option (List Str) × Option Bool)

/-- src/main.rs:66-78 -/
def supportsLazyResolve (p : InitializeParams) : Bool :=
  match p.codeAction with
  | none => false
  | some (props, dataSupport) =>
    (match props with | some l => decide (c!"edit" ∈ l) | none => false) && dataSupport.getD false

/-- The part of `InitializeResult` that is not constant, plus the legend and the commands
(src/main.rs:84-149). -/
structure InitializeResult where
  resolveProvider : Bool
  legend : List SemType
  commands : List Str
  deriving DecidableEq, Repr

/-- src/main.rs:57-150 -/
def initializeServer (st : ServerState) (p : InitializeParams) : ServerState × InitializeResult :=
  let roots := match p.workspaceFolders with
    | some l => st.roots ++ l
    | none => match p.rootUri with
      | some u => st.roots ++ [u]
      | none => st.roots
  let lz := supportsLazyResolve p
  ({ st with roots := roots, lazyResolve := lz },
   { resolveProvider := lz, legend := legendType, commands := [c!"visualize-cfg"] })

/-! ### Text synchronization -/

/-- A `textDocument/publishDiagnostics` notification (src/main.rs:762-764) -/
structure Publish where
  uri : Str
  version : Int
  diagnostics : List Diagnostic
  deriving DecidableEq, Repr

section
variable [Unicode]

/-- src/main.rs:736-745: analysis of a text -/
def analyze (src : Str) : Outcome (AnalyzedDocument × List SErr) :=
  match parseFromStr src with
  | .panic => .panic
  | .ok pr => match semanticTokensFromTokens pr.tokens with
    | .panic => .panic
    | .ok sem => match createIndex src pr.tokens pr.stmts with
      | .panic => .panic
      | .ok ix =>
        .ok ({ rope := src, semanticTokens := sem, stmts := pr.stmts, index := ix }, pr.errors)

/-- src/main.rs:747-750 -/
def documentDiagnostics (env : Env) (uri : Str) (doc : AnalyzedDocument) (errors : List SErr) :
    List Diagnostic :=
  diagnosticsFromParser doc.rope errors ++ diagnosticsFromStatements doc.rope doc.stmts
    ++ diagnosticsFromIndex env.ord doc.rope uri doc.index

/-- src/main.rs:735-765 -/
def onChange (env : Env) (st : ServerState) (uri : Str) (version : Int) (text : Str) :
    Outcome (ServerState × Publish) :=
  match analyze text with
  | .panic => .panic
  | .ok (doc, errors) =>
    .ok ({ st with docs := st.docs.insert uri doc },
         { uri := uri, version := version, diagnostics := documentDiagnostics env uri doc errors })

/-- src/main.rs:163-170 -/
def didOpen (env : Env) (st : ServerState) (uri : Str) (version : Int) (text : Str) :
    Outcome (ServerState × Publish) := onChange env st uri version text

/-- A `TextDocumentContentChangeEvent` -/
structure ContentChange where
  range : Option Range
  text : Str

/-- src/main.rs:172-179: only the first change is used, as the full text. -/
def didChange (env : Env) (st : ServerState) (uri : Str) (version : Int)
    (changes : List ContentChange) : Outcome (ServerState × Publish) :=
  match changes with
  | [] => .panic
  | c :: _ => onChange env st uri version c.text

end

/-! ### Navigation -/

/-- src/main.rs:776-777, 316-317, 334-335, 421-422 -/
def symbolAt (doc : AnalyzedDocument) (pos : Pos) : Option SymbolOccurrence :=
  (lspPosToOffset doc.rope pos).bind doc.index.findSymbolAtPosition

/-- src/main.rs:780-786, 387-393: `get_by_symbol_kind(..)` with the symbol's function body -/
def tableOf (ix : HIRIndex) (k : SymbolKind) (fb : Option Nat) : Outcome SymMap :=
  match ix.funcBody fb with
  | .panic => .panic
  | .ok fb => ix.getBySymbolKind k fb

/-- src/main.rs:800-811: locations of external definitions -/
def externalLocations (env : Env) (roots : List Url) : List ExternalDef → Outcome (List Location)
  | [] => .ok []
  | d :: ds => match resolveRelativePath env.fs roots d.filepath with
    | .panic => .panic
    | .ok none => externalLocations env roots ds
    | .ok (some u) => match u32Sub env.build d.line 1 with
      | .panic => .panic
      | .ok l => match externalLocations env roots ds with
        | .panic => .panic
        | .ok ls =>
          .ok ({ uri := u.toStr, range := { start := ⟨l, 0⟩, stop := ⟨l, 0⟩ } } :: ls)

/-- src/main.rs:787-796 -/
def localLocations (uri : Str) (rope : Str) (spans : List Span) : List Location :=
  spans.filterMap fun sp => (rangeToLsp rope sp).map fun r => { uri := uri, range := r }

/-- src/main.rs:767-816 -/
def getUseDefRanges (env : Env) (st : ServerState) (uri : Str) (pos : Pos) (ud : UseDefKind) :
    Outcome (Option (Range × List Location)) :=
  match st.docs.get? uri with
  | none => .ok none
  | some doc => match symbolAt doc pos with
    | none => .ok none
    | some symbol => match tableOf doc.index symbol.symbolKind symbol.funcBodyId with
      | .panic => .panic
      | .ok table => match table.get? symbol.name with
        | none => .ok none
        | some usedefs =>
          let ranges := localLocations uri doc.rope (usedefs.get ud)
          match (if ud = .def_ then externalLocations env st.roots usedefs.externalDefs
                 else .ok []) with
          | .panic => .panic
          | .ok ext =>
            .ok ((rangeToLsp doc.rope symbol.span).map fun origin => (origin, ranges ++ ext))

/-- `LocationLink` (the selection range equals the range) -/
structure LocationLink where
  origin : Range
  target : Location
  deriving DecidableEq, Repr

/-- src/main.rs:188-197, 209-218 -/
def toLinks (r : Range × List Location) : List LocationLink :=
  r.2.map fun l => { origin := r.1, target := l }

/-- src/main.rs:181-200 -/
def gotoDefinition (env : Env) (st : ServerState) (uri : Str) (pos : Pos) :
    Outcome (Option (List LocationLink)) :=
  match getUseDefRanges env st uri pos .def_ with
  | .panic => .panic
  | .ok r => .ok (r.map toLinks)

/-- src/main.rs:202-221 -/
def gotoDeclaration (env : Env) (st : ServerState) (uri : Str) (pos : Pos) :
    Outcome (Option (List LocationLink)) :=
  match getUseDefRanges env st uri pos .decl with
  | .panic => .panic
  | .ok r => .ok (r.map toLinks)

/-- src/main.rs:223-228 -/
def references (env : Env) (st : ServerState) (uri : Str) (pos : Pos) :
    Outcome (Option (List Location)) :=
  match getUseDefRanges env st uri pos .use with
  | .panic => .panic
  | .ok r => .ok (r.map Prod.snd)

/-! ### Presentation -/

/-- src/main.rs:230-247 -/
def semanticTokensFull (env : Env) (st : ServerState) (uri : Str) :
    Outcome (Option (List LspSemanticToken)) :=
  match st.docs.get? uri with
  | none => .ok none
  | some doc => match convertToLspTokens env.build doc.rope 0 0 doc.semanticTokens with
    | .panic => .panic
    | .ok l => .ok (some l)

/-- `lsp_types::SymbolKind` (the two in use) -/
inductive OutlineKind where
  | constant
  | function
  deriving DecidableEq, Repr

/-- `lsp_types::DocumentSymbol` -/
structure DocumentSymbol where
  name : Str
  kind : OutlineKind
  range : Range
  selectionRange : Range
  deriving DecidableEq, Repr

/-- src/main.rs:258-284: constants -/
def outlineGlobals (ord : IterOrder) (doc : AnalyzedDocument) : List DocumentSymbol :=
  (ord.run doc.index.globalVars).flatMap fun f => f.2.defs.filterMap fun sp =>
    (rangeToLsp doc.rope sp).map fun r =>
      { name := f.1, kind := .constant, range := r, selectionRange := r }

/-- src/main.rs:286-301: functions -/
def outlineFunctions (doc : AnalyzedDocument) : List DocumentSymbol :=
  doc.index.functionBodies.filterMap fun f =>
    match rangeToLsp doc.rope f.completeRange with
    | none => none
    | some r => (rangeToLsp doc.rope f.name.2).map fun sel =>
      { name := f.name.1, kind := .function, range := r, selectionRange := sel }

/-- src/main.rs:249-307 -/
def documentSymbol (env : Env) (st : ServerState) (uri : Str) : Option (List DocumentSymbol) :=
  (st.docs.get? uri).map fun doc => outlineGlobals env.ord doc ++ outlineFunctions doc

/-- `lsp_types::FoldingRange` -/
structure FoldingRange where
  startLine : Nat
  endLine : Nat
  collapsedText : Str
  deriving DecidableEq, Repr

/-- src/main.rs:479-487, 497-505 -/
def foldOf (rope : Str) (sp : Span) (text : Str) : Option FoldingRange :=
  (rangeToLsp rope sp).map fun r =>
    { startLine := r.start.line, endLine := r.stop.line, collapsedText := text }

/-- src/main.rs:477-507 -/
def foldsOf (doc : AnalyzedDocument) : List FoldingRange :=
  (doc.index.functionBodies.filterMap fun f =>
    foldOf doc.rope f.completeRange (showNat f.labels.length ++ c!" basic blocks"))
  ++ ((doc.index.functionBodies.flatMap FunctionBody.basicBlocks).filterMap fun bb =>
    foldOf doc.rope bb.span (showNat bb.instructions.length ++ c!" instructions"))

/-- src/main.rs:470-512 -/
def foldingRange (st : ServerState) (uri : Str) : Option (List FoldingRange) :=
  (st.docs.get? uri).map foldsOf

/-- src/main.rs:532-553: the label parts of an "incoming" hint.  The separator depends on the index
in the unfiltered list. -/
def incomingParts (uri : Str) (rope : Str) : Nat → List (Spanned Str) → List LabelPart
  | _, [] => []
  | i, (name, sp) :: rest =>
    match rangeToLsp rope sp with
    | none => incomingParts uri rope (i + 1) rest
    | some r =>
      { value := if i = 0 then c!"incoming: " else c!", " }
        :: { value := name, location := some { uri := uri, range := r } }
        :: incomingParts uri rope (i + 1) rest

/-- src/main.rs:527-567: the hint of one basic block -/
def incomingHint (uri : Str) (rope : Str) (f : FunctionBody) (bb : BasicBlock) : Option InlayHint :=
  match bb.label with
  | none => none
  | some label => match f.incomingBbBranches.get? label.1 with
    | none => none
    | some refs => match bb.labelCommaSpan with
      | none => none
      | some comma =>
        (offsetToLspPos rope comma.stop).map fun p =>
          { position := p, label := incomingParts uri rope 0 refs }

/-- src/main.rs:522-569 -/
def incomingHints (uri : Str) (doc : AnalyzedDocument) : List InlayHint :=
  doc.index.functionBodies.flatMap fun f => f.basicBlocks.filterMap (incomingHint uri doc.rope f)

section
variable [Unicode]

/-- src/main.rs:583-594: the hint of one instruction -/
def backtraceHint (env : Env) (roots : List Url) (doc : AnalyzedDocument) (i : Instruction) :
    Outcome (List InlayHint) :=
  match i.dbgRef with
  | none => .ok []
  | some d => match doc.index.dbgAnnotationValues.get? d.1 with
    | none => .ok []
    | some txt => match env.json txt with
      | none => .ok []
      | some j => match parseBacktraceFromJson env.fs roots j with
        | .panic => .panic
        | .ok none => .ok []
        | .ok (some frames) => match offsetToLspPos doc.rope d.2.stop with
          | none => .ok []
          | some pos => match inlayHintForBacktrace pos frames with
            | .panic => .panic
            | .ok h => .ok [h]

/-- src/main.rs:572-595 -/
def backtraceHints (env : Env) (roots : List Url) (doc : AnalyzedDocument) :
    Outcome (List InlayHint) :=
  collectO (backtraceHint env roots doc) (allInstructions doc.stmts)

omit [Unicode] in
/-- src/main.rs:599-617 -/
def endHints (uri : Str) (doc : AnalyzedDocument) : List InlayHint :=
  doc.index.functionBodies.filterMap fun f =>
    match offsetToLspPos doc.rope f.completeRange.stop with
    | none => none
    | some p => (rangeToLsp doc.rope f.name.2).map fun r =>
      { position := p,
        label := [{ value := f.name.1, location := some { uri := uri, range := r } }] }

/-- src/main.rs:514-622 -/
def inlayHint (env : Env) (st : ServerState) (uri : Str) : Outcome (Option (List InlayHint)) :=
  match st.docs.get? uri with
  | none => .ok none
  | some doc => match backtraceHints env st.roots doc with
    | .panic => .panic
    | .ok bt => .ok (some (incomingHints uri doc ++ bt ++ endHints uri doc))

end

/-- `lsp_types::CodeLens` with its command and arguments -/
structure CodeLens where
  range : Range
  command : Str
  arguments : List Json

/-- src/main.rs:634-653 -/
def codeLensOf (uri : Str) (rope : Str) (f : Str × UseDefList) : Option CodeLens :=
  match f.2.defs with
  | [sp] => (rangeToLsp rope sp).map fun r =>
    { range := r, command := c!"visualize-cfg", arguments := [.str uri, .str f.1] }
  | _ => none

/-- src/main.rs:624-659 -/
def codeLens (env : Env) (st : ServerState) (uri : Str) : Option (List CodeLens) :=
  (st.docs.get? uri).map fun doc =>
    (env.ord.run doc.index.functions).filterMap (codeLensOf uri doc.rope)

/-- The `hyperir/showDot` request sent to the client (src/main.rs:707-726) -/
structure ShowGraph where
  title : Str
  dotGraph : Str
  deriving DecidableEq, Repr

/-- src/main.rs:661-690: the request sent to the client, or the error returned. -/
def executeCommand (st : ServerState) (command : Str) (arguments : List Json) :
    Except RpcError ShowGraph :=
  match decide (command = c!"visualize-cfg"), arguments with
  | true, [.str uri, .str func] => match st.docs.get? uri with
    | none => .error (.invalidParams (c!"document `" ++ uri ++ c!"` not found"))
    | some doc => match doc.index.functionBodies.find? (fun b => decide (b.name.1 = func)) with
      | none => .error (.invalidParams (c!"function `" ++ func ++ c!"` not found"))
      | some fb => .ok { title := c!"CFG for " ++ func, dotGraph := createCfgDot fb }
  | _, _ => .error (.invalidParams (c!"Invalid command `" ++ command ++ c!"`"))

/-! ### Rename and code actions -/

/-- `WorkspaceEdit { changes }`: edits per document -/
abbrev WorkspaceEdit := List (Str × List TextEdit)

/-- src/main.rs:309-321 -/
def prepareRename (st : ServerState) (uri : Str) (pos : Pos) : Option Range :=
  match st.docs.get? uri with
  | none => none
  | some doc => match symbolAt doc pos with
    | none => none
    | some symbol => rangeToLsp doc.rope symbol.span

/-- src/main.rs:363-369 -/
def sigilOf : SymbolKind → Str
  | .globalVar => c!"@"
  | .function => c!"@"
  | .dbgAnnotation => c!"!"
  | .label => c!""
  | .localVar => c!"%"

/-- `str::strip_prefix` followed by `if let Some` (src/main.rs:370-372) -/
def stripPrefix (pre s : Str) : Str := if isPrefix pre s then s.drop pre.length else s

section
variable [Unicode]

/-- src/main.rs:375 -/
def isNameChar (c : Char) : Bool := Unicode.alphanumeric c || decide (c = '_') || decide (c = ':')

/-- src/main.rs:363-384: checks of the new name; `chars().next().unwrap()` panics on an empty one. -/
def checkNewName (k : SymbolKind) (newName : Str) : Outcome (Except RpcError Str) :=
  let stripped := stripPrefix (sigilOf k) newName
  if stripped.any fun c => !isNameChar c then
    .ok (.error (.invalidParams c!"Name contains invalid character"))
  else match stripped with
    | [] => .panic
    | c :: _ =>
      if Unicode.numeric c && decide (k ≠ .dbgAnnotation) then
        .ok (.error (.invalidParams c!"Name must not start with a digit"))
      else .ok (.ok (sigilOf k ++ stripped))

/-- src/main.rs:341-360: `+n` / `-n`; `none` when the new name is not a relative rename -/
def relativeRename (env : Env) (doc : AnalyzedDocument) (symbol : SymbolOccurrence)
    (newName : Str) (sign : Int) : Outcome (Except RpcError (List TextEdit)) :=
  match parseI64 (newName.drop 1) with
  | none => .ok (.error (.invalidParams (c!"Invalid relative rename `" ++ newName ++ c!"`")))
  | some nr => match i64Op env.build (sign * nr) with
    | .panic => .panic
    | .ok shift => match extractNumberFromIdentifier symbol.name with
      | .panic => .panic
      | .ok none =>
        .ok (.error (.invalidParams
          c!"Relative rename can only be applied to a numbered identifier"))
      | .ok (some (_, start)) =>
        match getShiftEdits env.ord env.build doc.rope doc.index symbol.symbolKind symbol.funcBodyId
            start shift with
        | .panic => .panic
        | .ok edits => .ok (.ok edits)

/-- src/main.rs:361-396 -/
def absoluteRename (doc : AnalyzedDocument) (symbol : SymbolOccurrence) (newName : Str) :
    Outcome (Except RpcError (List TextEdit)) :=
  match checkNewName symbol.symbolKind newName with
  | .panic => .panic
  | .ok (.error e) => .ok (.error e)
  | .ok (.ok name) => match tableOf doc.index symbol.symbolKind symbol.funcBodyId with
    | .panic => .panic
    | .ok table => match table.get? symbol.name with
      | none => .panic
      | some usedefs => .ok (.ok (getRenameEdits doc.rope usedefs name))

/-- src/main.rs:341-396 -/
def renameEdits (env : Env) (doc : AnalyzedDocument) (symbol : SymbolOccurrence) (newName : Str) :
    Outcome (Except RpcError (List TextEdit)) :=
  match newName with
  | '+' :: _ => relativeRename env doc symbol newName 1
  | '-' :: _ => relativeRename env doc symbol newName (-1)
  | _ => absoluteRename doc symbol newName

/-- src/main.rs:323-402 -/
def rename (env : Env) (st : ServerState) (uri : Str) (pos : Pos) (newName : Str) :
    Outcome (Except RpcError WorkspaceEdit) :=
  match st.docs.get? uri with
  | none => .ok (.error (.invalidParams c!"Document not found"))
  | some doc => match symbolAt doc pos with
    | none => .ok (.error (.invalidParams c!"No symbol at the given position"))
    | some symbol => match renameEdits env doc symbol newName with
      | .panic => .panic
      | .ok (.error e) => .ok (.error e)
      | .ok (.ok edits) => .ok (.ok [(uri, edits)])

end

/-- src/main.rs:44-53 -/
structure CodeActionData where
  uri : Str
  symbolKind : SymbolKind
  funcBodyId : Option Nat
  renamedNr : Int
  deriving DecidableEq, Repr

/-- The JSON `data` of a code action: absent, not a `CodeActionData`, or one.  Simplification: the
serde encoding is not modelled. -/
inductive ActionData where
  | missing
  | invalid
  | shift (d : CodeActionData)
  deriving DecidableEq, Repr

/-- `lsp_types::CodeAction` -/
structure CodeAction where
  title : Str
  data : ActionData
  edit : Option WorkspaceEdit := none
  deriving DecidableEq, Repr

section
variable [Unicode]

/-- src/main.rs:818-853 -/
def codeActionResolve (env : Env) (st : ServerState) (a : CodeAction) :
    Outcome (Except RpcError CodeAction) :=
  match a.data with
  | .missing => .ok (.error (.invalidParams c!"Missing `data` in code action"))
  | .invalid => .ok (.error (.invalidParams c!"Invalid `data` for code action"))
  | .shift d => match st.docs.get? d.uri with
    | none => .ok (.error (.invalidParams c!"Document not found"))
    | some doc =>
      match getShiftEdits env.ord env.build doc.rope doc.index d.symbolKind d.funcBodyId
          d.renamedNr 1 with
      | .panic => .panic
      | .ok edits => .ok (.ok { a with edit := some [(d.uri, edits)] })

omit [Unicode] in
/-- src/main.rs:425-432 -/
def shiftTitle : SymbolKind → Str
  | .globalVar => c!"Shift global variable numbering"
  | .function => c!"Shift function numbering"
  | .dbgAnnotation => c!"Shift debug numbering"
  | .label => c!"Shift basic block numbering"
  | .localVar => c!"Shift variable numbering"

/-- src/main.rs:418-448: the actions offered at a position (unresolved) -/
def offeredActions (uri : Str) (doc : AnalyzedDocument) (pos : Pos) : Outcome (List CodeAction) :=
  match symbolAt doc pos with
  | none => .ok []
  | some symbol => match extractNumberFromIdentifier symbol.name with
    | .panic => .panic
    | .ok none => .ok []
    | .ok (some (_, nr)) =>
      .ok [{ title := shiftTitle symbol.symbolKind
             data := .shift { uri := uri, symbolKind := symbol.symbolKind,
                              funcBodyId := symbol.funcBodyId, renamedNr := nr } }]

/-- src/main.rs:452-455: `do_code_action_resolve(a).ok().unwrap()` for every action -/
def resolveAll (env : Env) (st : ServerState) : List CodeAction → Outcome (List CodeAction)
  | [] => .ok []
  | a :: as => match codeActionResolve env st a with
    | .panic => .panic
    | .ok (.error _) => .panic
    | .ok (.ok a') => match resolveAll env st as with
      | .panic => .panic
      | .ok as' => .ok (a' :: as')

/-- src/main.rs:404-464 -/
def codeAction (env : Env) (st : ServerState) (uri : Str) (range : Range) :
    Outcome (Except RpcError (Option (List CodeAction))) :=
  match st.docs.get? uri with
  | none => .ok (.error (.invalidParams c!"Document not found"))
  | some doc =>
    if range.start ≠ range.stop then .ok (.ok none)
    else match offeredActions uri doc range.start with
      | .panic => .panic
      | .ok actions =>
        if st.lazyResolve then .ok (.ok (some actions))
        else match resolveAll env st actions with
          | .panic => .panic
          | .ok as => .ok (.ok (some as))

/-! ### The server as a state machine -/

omit [Unicode] in
/-- The messages a client can send (src/main.rs:55-705) -/
inductive Msg where
  | initialize (p : InitializeParams)
  | didOpen (uri : Str) (version : Int) (text : Str)
  | didChange (uri : Str) (version : Int) (changes : List ContentChange)
  | gotoDefinition (uri : Str) (pos : Pos)
  | gotoDeclaration (uri : Str) (pos : Pos)
  | references (uri : Str) (pos : Pos)
  | semanticTokensFull (uri : Str)
  | documentSymbol (uri : Str)
  | prepareRename (uri : Str) (pos : Pos)
  | rename (uri : Str) (pos : Pos) (newName : Str)
  | codeAction (uri : Str) (range : Range)
  | codeActionResolve (a : CodeAction)
  | foldingRange (uri : Str)
  | inlayHint (uri : Str)
  | codeLens (uri : Str)
  | executeCommand (command : Str) (arguments : List Json)
  | shutdown

omit [Unicode] in
/-- What the server sends back. -/
inductive Reply where
  | initialized (r : InitializeResult)
  | published (p : Publish)
  | links (l : Option (List LocationLink))
  | locations (l : Option (List Location))
  | tokens (l : Option (List LspSemanticToken))
  | symbols (l : Option (List DocumentSymbol))
  | range (r : Option Range)
  | edit (e : WorkspaceEdit)
  | actions (l : Option (List CodeAction))
  | action (a : CodeAction)
  | folds (l : Option (List FoldingRange))
  | hints (l : Option (List InlayHint))
  | lenses (l : Option (List CodeLens))
  | graph (g : ShowGraph)
  | error (e : RpcError)
  | done

omit [Unicode] in
/-- Reply of a handler returning `Result<…>` -/
def replyOf {α : Type} (f : α → Reply) : Except RpcError α → Reply
  | .ok a => f a
  | .error e => .error e

/-- One message handled by the server: new state and reply (src/main.rs:55-705). -/
def step (env : Env) (st : ServerState) : Msg → Outcome (ServerState × Reply)
  | .initialize p => let r := initializeServer st p; .ok (r.1, .initialized r.2)
  | .didOpen u v t => (didOpen env st u v t).map' fun r => (r.1, .published r.2)
  | .didChange u v cs => (didChange env st u v cs).map' fun r => (r.1, .published r.2)
  | .gotoDefinition u p => (gotoDefinition env st u p).map' fun r => (st, .links r)
  | .gotoDeclaration u p => (gotoDeclaration env st u p).map' fun r => (st, .links r)
  | .references u p => (references env st u p).map' fun r => (st, .locations r)
  | .semanticTokensFull u => (semanticTokensFull env st u).map' fun r => (st, .tokens r)
  | .documentSymbol u => .ok (st, .symbols (documentSymbol env st u))
  | .prepareRename u p => .ok (st, .range (prepareRename st u p))
  | .rename u p n => (rename env st u p n).map' fun r => (st, replyOf .edit r)
  | .codeAction u r => (codeAction env st u r).map' fun r => (st, replyOf .actions r)
  | .codeActionResolve a => (codeActionResolve env st a).map' fun r => (st, replyOf .action r)
  | .foldingRange u => .ok (st, .folds (foldingRange st u))
  | .inlayHint u => (inlayHint env st u).map' fun r => (st, .hints r)
  | .codeLens u => .ok (st, .lenses (codeLens env st u))
  | .executeCommand c as => .ok (st, replyOf .graph (executeCommand st c as))
  | .shutdown => .ok (st, .done)

/-- A run of the server over a sequence of messages: final state and all replies.  What the server depends on (the file
system, the iteration order of hash maps) may differ from message to message. -/
def run (st : ServerState) : List (Env × Msg) → Outcome (ServerState × List Reply)
  | [] => .ok (st, [])
  | (env, m) :: ms => match step env st m with
    | .panic => .panic
    | .ok (st', r) => match run st' ms with
      | .panic => .panic
      | .ok (st'', rs) => .ok (st'', r :: rs)

end

end HyperIR
