import Verif.Spec.Answers
import Verif.Spec.Hints
import Verif.Spec.Highlight
import Verif.Spec.Outline

/-
Exactly what the server shows of a document (diagnostics, highlighting, outline, folds, hints, lenses, graphs), in documents with any characters,
errors and line ends; and with it the effect of every message.
-/

namespace HyperIR.Spec

/-- The message for a syntax error; what was expected may be listed in any order. -/
def ErrorText (e : SErr) (msg : Str) : Prop :=
  (e.reason = .custom msg) ∨
  (e.reason = .unexpected ∧ ∃ start what words order,
    (e.found = none ∧ start = c!"Unexpected end of input" ∨ e.found ≠ none ∧ start = c!"Unexpected token in input") ∧
    order.Perm e.expected ∧ Each (fun x w => (x = none ∧ w = c!"end of input") ∨ x = some w) order words ∧
    (words = [] ∧ what = c!"something else" ∨ words ≠ [] ∧ what = commaList words) ∧
    msg = start ++ c!", expected " ++ what)

/-- The diagnostics of a document: one for every syntax error for which there is a place, one for every instruction that lacks targets, one for
every use of an undefined symbol, one for every redefinition. -/
def Diagnosed (uri text : Str) (res : ParserResult) (diags : List Diagnostic) : Prop :=
  ∃ syn br index undefs dups uses defs, diags = syn ++ br ++ index ∧ index.Perm (undefs ++ dups) ∧
    Picks (fun e d => ShownRange text e.span d.range ∧ ErrorText e d.message ∧ d.related = []) res.errors syn ∧
    Picks (fun i d => LacksTargets i ∧ ShownRange text i.instruction.2 d.range ∧ d.related = [] ∧
      d.message = c!"Failed to extract basic block references from `" ++ i.instruction.1 ++ c!"` instruction") (instructions res.stmts) br ∧
    uses.Nodup ∧ (∀ o, o ∈ uses ↔ UndefinedUse res.tokens res.stmts o) ∧
    Each (fun o d => ShownRange text o.span d.range ∧ d.message = c!"Use of undefined symbol `" ++ o.name ++ c!"`" ∧ d.related = []) uses undefs ∧
    defs.Nodup ∧ (∀ o, o ∈ defs ↔ Redefinition res.tokens res.stmts o) ∧
    Each (fun o d => ShownRange text o.span d.range ∧ d.message = c!"Symbol `" ++ o.name ++ c!"` already defined previously" ∧
      ∃ first r, FirstDef res.tokens res.stmts first o ∧ ShownRange text first.span r ∧
        d.related = [({ uri := uri, range := r }, c!"Previously defined here")]) defs dups

/-- The highlighted token. -/
def Highlighted (text : Str) (t : Spanned Token) (h : Highlight) : Prop :=
  ∃ ty, Class t.1 ty ∧ legendType[h.type]? = some ty ∧ h.length = t.2.stop - t.2.start ∧ ShownPlace text t.2.start h.start

/-- The outline. -/
def Outlined (text : Str) (ss : List Statement) (syms : List DocumentSymbol) : Prop :=
  ∃ globals functions names, syms = globals ++ functions ∧ names.Perm (docGlobals ss) ∧
    Each (fun n s => s.name = n.1 ∧ s.kind = .constant ∧ ShownRange text n.2 s.range ∧ ShownRange text n.2 s.selectionRange) names globals ∧
    Each (fun f s => s.name = f.1.1 ∧ s.kind = .function ∧ ShownRange text f.2.1 s.range ∧ ShownRange text f.1.2 s.selectionRange) (docFuncs ss) functions

/-- The fold over the lines of a range. -/
def FoldOver (text : Str) (sp : Span) (fold : FoldingRange) : Prop :=
  ∃ r, ShownRange text sp r ∧ fold.startLine = r.start.line ∧ fold.endLine = r.stop.line

/-- The folds: first the functions, then all blocks. -/
def Folded (text : Str) (ss : List Statement) (folds : List FoldingRange) : Prop :=
  ∃ functions blocks, folds = functions ++ blocks ∧
    Each (fun f fold => FoldOver text f.2.1 fold ∧
      ∃ names : List Str, names.Nodup ∧ (∀ n, n ∈ names ↔ NamesLabel f.2.2 n) ∧ Counts fold.collapsedText c!"basic blocks" names.length)
      (docFuncs ss) functions ∧
    Each (fun b fold => FoldOver text b.2.span fold ∧ Counts fold.collapsedText c!"instructions" b.2.instructions.length) (docBlocks ss) blocks

/-- The parts of a label with links: `incoming: a, b, c`. -/
def linkParts (uri : Str) : Str → List (Str × Range) → List LabelPart
  | _, [] => []
  | before, (name, r) :: rest =>
    { value := before } :: { value := name, location := some { uri := uri, range := r } } :: linkParts uri c!", " rest

/-- The hint behind the colon of a label to which labelled blocks of the function branch. -/
def IncomingHint (uri text : Str) (b : List BasicBlock × BasicBlock) (hint : InlayHint) : Prop :=
  ∃ lbl colon preds links, b.2.label = some lbl ∧ b.2.labelCommaSpan = some colon ∧ ShownPlace text colon.stop hint.position ∧
    Predecessors b.1 lbl.1 preds ∧ preds ≠ [] ∧ Each (fun (n : Spanned Str) l => l.1 = n.1 ∧ ShownRange text n.2 l.2) preds links ∧
    hint.label = linkParts uri c!"incoming: " links

/-- The hint behind the closing bracket of a function. -/
def EndHint (uri text : Str) (f : Spanned Str × Span × List BasicBlock) (hint : InlayHint) : Prop :=
  ∃ r, ShownPlace text f.2.1.stop hint.position ∧ ShownRange text f.1.2 r ∧
    hint.label = [{ value := f.1.1, location := some { uri := uri, range := r } }]

/-- The frames given by the entries of a backtrace, with the files that are found. -/
def FramesFound (fs : FileSystem) (roots : List Url) (entries : List Json) (frames : List Frame) : Prop :=
  Each (fun e f => FrameOf e f ∧ ∀ u, f.resolvedFilepath = some u ↔ ∃ file, f.filepath = some file ∧ FoundAt fs roots file u) entries frames

section
variable [Unicode]

/-- The hint behind the debug reference of an instruction. -/
def TraceHint (env : Env) (roots : List Url) (text : Str) (stmts : List Statement) (i : Instruction) (hint : InlayHint) : Prop :=
  ∃ ref v j entries frames, i.dbgRef = some ref ∧ CutText text stmts ref.1 v ∧ env.json v = some j ∧ HasBacktrace j entries ∧
    FramesFound env.fs roots entries frames ∧ ShownPlace text ref.2.stop hint.position ∧ BacktraceLabel frames hint.label

/-- The lenses: one over the name of every function with exactly one definition. -/
def Lensed (uri text : Str) (ss : List Statement) (lenses : List CodeLens) : Prop :=
  ∃ funcs : List (Spanned Str × Span × List BasicBlock), funcs.Nodup ∧
    (∀ f, f ∈ funcs ↔ f ∈ docFuncs ss ∧ ∀ f' ∈ docFuncs ss, f'.1.1 = f.1.1 → f' = f) ∧
    Each (fun f lens => ShownRange text f.1.2 lens.range ∧ lens.command = c!"visualize-cfg" ∧ lens.arguments = [.str uri, .str f.1.1]) funcs lenses

/-- The first function of the document with the name. -/
def FirstFunction (ss : List Statement) (name : Str) (blocks : List BasicBlock) : Prop :=
  ∃ before f after, docFuncs ss = before ++ f :: after ∧ f.1.1 = name ∧ f.2.2 = blocks ∧ ∀ f' ∈ before, f'.1.1 ≠ name

/-- After the text of a document has been set, its text is the new one; other documents and the settings are as before. -/
def TextSet (st : ServerState) (uri text : Str) (st' : ServerState) : Prop :=
  st'.roots = st.roots ∧ st'.lazyResolve = st.lazyResolve ∧ Opened st' uri text ∧ (∀ t, Opened st' uri t → t = text) ∧
  ∀ u, u ≠ uri → ∀ t, Opened st' u t ↔ Opened st u t

/-- The client resolves code actions: it can fill in the edit of an action and preserves its data. -/
def ResolvesActions (p : InitializeParams) : Prop :=
  ∃ props, p.codeAction = some (some props, some true) ∧ c!"edit" ∈ props

/-- The folders the client gives. -/
def NewFolders (p : InitializeParams) (l : List Url) : Prop :=
  p.workspaceFolders = some l ∨ p.workspaceFolders = none ∧ p.rootUri.toList = l

/-- The message asks for a view of a document. -/
def Displays (env : Env) (st : ServerState) : Msg → Reply → Prop
  | .semanticTokensFull u, .tokens none => Unknown st u
  | .semanticTokensFull u, .tokens (some l) => ∃ text res, Known st u text res ∧ Picks (Highlighted text) res.tokens (decode ⟨0, 0⟩ l)
  | .documentSymbol u, .symbols none => Unknown st u
  | .documentSymbol u, .symbols (some l) => ∃ text res, Known st u text res ∧ Outlined text res.stmts l
  | .foldingRange u, .folds none => Unknown st u
  | .foldingRange u, .folds (some l) => ∃ text res, Known st u text res ∧ Folded text res.stmts l
  | .inlayHint u, .hints none => Unknown st u
  | .inlayHint u, .hints (some l) => ∃ text res incoming traces ends, Known st u text res ∧ l = incoming ++ traces ++ ends ∧
      Picks (IncomingHint u text) (docBlocks res.stmts) incoming ∧
      Picks (TraceHint env st.roots text res.stmts) (instructions res.stmts) traces ∧
      Each (EndHint u text) (docFuncs res.stmts) ends
  | .codeLens u, .lenses none => Unknown st u
  | .codeLens u, .lenses (some l) => ∃ text res, Known st u text res ∧ Lensed u text res.stmts l
  | .executeCommand c args, .graph g => ∃ u name text res blocks, c = c!"visualize-cfg" ∧ args = [.str u, .str name] ∧ Known st u text res ∧
      FirstFunction res.stmts name blocks ∧ g.title = c!"CFG for " ++ name ∧ RendersGraph blocks g.dotGraph
  | .executeCommand c args, .error e =>
      (∃ u name, c = c!"visualize-cfg" ∧ args = [.str u, .str name] ∧ Unknown st u ∧ e = .invalidParams (c!"document `" ++ u ++ c!"` not found")) ∨
      (∃ u name text res, c = c!"visualize-cfg" ∧ args = [.str u, .str name] ∧ Known st u text res ∧ (∀ blocks, ¬ FirstFunction res.stmts name blocks) ∧
        e = .invalidParams (c!"function `" ++ name ++ c!"` not found")) ∨
      ((∀ u name, ¬ (c = c!"visualize-cfg" ∧ args = [.str u, .str name])) ∧ e = .invalidParams (c!"Invalid command `" ++ c ++ c!"`"))
  | _, _ => False

/-- `Effect env st m st' r`: the message may lead from the first to the second state with the reply. -/
def Effect (env : Env) (st : ServerState) : Msg → ServerState → Reply → Prop
  | .initialize p, st', .initialized r =>
      (∃ l, NewFolders p l ∧ st'.roots = st.roots ++ l) ∧ (st'.lazyResolve = true ↔ ResolvesActions p) ∧ (r.resolveProvider = true ↔ ResolvesActions p) ∧
      r.legend = legendType ∧ r.commands = [c!"visualize-cfg"] ∧ ∀ u t, Opened st' u t ↔ Opened st u t
  | .didOpen u v text, st', .published p => TextSet st u text st' ∧ p.uri = u ∧ p.version = v ∧
      ∃ res, parseFromStr text = .ok res ∧ (text.length < 2 ^ 32 → Diagnosed u text res p.diagnostics)
  | .didChange u v changes, st', .published p => ∃ c rest res, changes = c :: rest ∧ TextSet st u c.text st' ∧ p.uri = u ∧ p.version = v ∧
      parseFromStr c.text = .ok res ∧ (c.text.length < 2 ^ 32 → Diagnosed u c.text res p.diagnostics)
  | .shutdown, st', .done => st' = st
  | m, st', r => st' = st ∧ (Correct env st m r ∨ Displays env st m r)

end
end HyperIR.Spec
