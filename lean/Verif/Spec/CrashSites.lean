import Verif.Spec.Crashes

/-
Exactly which messages end the server, in terms of the texts, the settings, the file system and the request.
-/

namespace HyperIR.Spec

/-- The characters that end a line (CR only if no LF follows; CRLF is one line end). -/
def BreakChar (c : Char) : Prop := c.toNat = 10 ∨ c.toNat = 11 ∨ c.toNat = 12 ∨ c.toNat = 13 ∨ c.toNat = 0x85 ∨ c.toNat = 0x2028 ∨ c.toNat = 0x2029

/-- `LineBegins text n k`: line number `n` of the text starts at character `k`, where lines end as the server counts them: besides LF, CR and
CRLF also at VT, FF, NEL, LS and PS. -/
inductive LineBegins : Str → Nat → Nat → Prop
  | first {text} : LineBegins text 0 0
  | next {line eol rest n k} : (∀ c ∈ line, ¬ BreakChar c) → (eol = ['\r', '\n'] ∨ ∃ c, eol = [c] ∧ BreakChar c) →
      (eol = ['\r'] → rest.head? ≠ some '\n') → LineBegins rest n k →
      LineBegins (line ++ eol ++ rest) (n + 1) (line.length + eol.length + k)

/-- Looking for the path in the folders meets one that is not hierarchical before the file is found. -/
def Stuck (fs : FileSystem) (roots : List Url) (path : Str) : Prop :=
  ∃ before root after, roots = before ++ root :: after ∧ Opaque root ∧ ∀ r ∈ before, ¬ Opaque r ∧ ∀ u, InFolder r path u → fs u = false

/-- The file is found in one of the folders, and all folders before it are hierarchical. -/
def Finds (fs : FileSystem) (roots : List Url) (path : Str) : Prop :=
  ∃ before root after, roots = before ++ root :: after ∧ (¬ Opaque root ∧ ∃ u, InFolder root path u ∧ fs u = true) ∧
    ∀ r ∈ before, ¬ Opaque r ∧ ∀ u, InFolder r path u → fs u = false

/-- The text of the debug annotation `name`: that of the last annotation with this name and some text.  It is cut out at the (character)
offsets of its first and last token, taken as byte offsets. -/
def CutText (text : Str) (stmts : List Statement) (name v : Str) : Prop :=
  ∃ before n d after f l a c, stmts = before ++ .dbgAnnotation n d :: after ∧ n.1 = name ∧ d.head? = some f ∧ d.getLast? = some l ∧
    (∀ n' d', .dbgAnnotation n' d' ∈ after → n'.1 = name → d' = []) ∧
    text = a ++ v ++ c ∧ utf8Len a = f.2.start ∧ utf8Len (a ++ v) = l.2.stop

section
variable [Unicode]

/-- `o` is the symbol at the position in the document, as the server counts lines and columns.  At the definition of a variable with the
name of a function it is the function. -/
def SymbolUnder (st : ServerState) (uri : Str) (p : Pos) (text : Str) (res : ParserResult) (o : SymbolOccurrence) : Prop :=
  Known st uri text res ∧ Occurs res.tokens res.stmts o ∧ ¬ Shadowed res.stmts o ∧ ∃ start, LineBegins text p.line start ∧ Covers o.span (start + p.character)

/-- The text has a debug annotation whose value cannot be cut out at its (character) offsets, taken as byte offsets. -/
def Uncut (text : Str) : Prop :=
  ∃ res name f rest l, parseFromStr text = .ok res ∧ .dbgAnnotation name (f :: rest) ∈ res.stmts ∧ (f :: rest).getLast? = some l ∧
    ¬ ∃ a b c, text = a ++ b ++ c ∧ utf8Len a = f.2.start ∧ utf8Len (a ++ b) = l.2.stop

/-- Among the symbols of the kind (for labels and variables: in the function), there is one whose name cannot be split, or (in a build with
overflow checks) one with a number from `start` on for which the new number does not fit. -/
def CannotShift (env : Env) (res : ParserResult) (k : SymbolKind) (f : Option Nat) (start shift : Int) : Prop :=
  ∃ o, Occurs res.tokens res.stmts o ∧ o.symbolKind = k ∧ (k = .label ∨ k = .localVar → o.funcBodyId = f) ∧
    (WideBeforeNumber o.name ∨
     env.build.overflowChecks = true ∧ ∃ (pre : Str) (nr : Nat), Numbered o.name pre nr ∧ start ≤ nr ∧ ¬ Fits64 (nr + shift))

/-- The hint for the instruction cannot be computed: the file of a frame cannot be looked up, or the most relevant symbol cannot be cut
after 48 bytes. -/
def HintFails (env : Env) (roots : List Url) (text : Str) (stmts : List Statement) (i : Instruction) : Prop :=
  ∃ ref v j entries, i.dbgRef = some ref ∧ CutText text stmts ref.1 v ∧ env.json v = some j ∧ HasBacktrace j entries ∧
    ((∃ e ∈ entries, ∃ l file n, IsLink e l ∧ FileLine l file n ∧ Stuck env.fs roots file) ∨
     ∃ frames k f, Each FrameOf entries frames ∧ Relevant frames k ∧ frames[k]? = some f ∧ Unshortenable f.symbol)

/-- The message ends the server. -/
def Crashes (env : Env) (st : ServerState) : Msg → Prop
  | .didOpen _ _ text => Uncut text
  | .didChange _ _ changes => changes = [] ∨ ∃ c cs, changes = c :: cs ∧ Uncut c.text
  | .gotoDefinition u p => ∃ text res o d, SymbolUnder st u p text res o ∧ o.symbolKind = .function ∧ ExternalLocation res.stmts o.name d ∧
      (Stuck env.fs st.roots d.filepath ∨ env.build.overflowChecks = true ∧ d.line = 0 ∧ Finds env.fs st.roots d.filepath)
  | .rename u p req => ∃ text res o, SymbolUnder st u p text res o ∧
      (req = [] ∨ Sigil o.symbolKind req ∨
       ∃ w i k, (req = '+' :: w ∧ k = i ∨ req = '-' :: w ∧ k = -i) ∧ SignedNumber w i ∧
        (env.build.overflowChecks = true ∧ ¬ Fits64 k ∨ WideBeforeNumber o.name ∨
         ∃ (pre : Str) (start : Nat), Numbered o.name pre start ∧ CannotShift env res o.symbolKind o.funcBodyId start k))
  | .codeAction u r => r.start = r.stop ∧ ∃ text res o, SymbolUnder st u r.start text res o ∧
      (WideBeforeNumber o.name ∨
       st.lazyResolve = false ∧ ∃ (pre : Str) (start : Nat), Numbered o.name pre start ∧ CannotShift env res o.symbolKind o.funcBodyId start 1)
  | .codeActionResolve a => ∃ d text res, a.data = .shift d ∧ Known st d.uri text res ∧
      ((∃ i, d.funcBodyId = some i ∧ (docFuncs res.stmts).length ≤ i) ∨
       (d.funcBodyId = none ∧ (d.symbolKind = .label ∨ d.symbolKind = .localVar)) ∨
       CannotShift env res d.symbolKind d.funcBodyId d.renamedNr 1)
  | .inlayHint u => ∃ text res, Known st u text res ∧ ∃ i ∈ instructions res.stmts, HintFails env st.roots text res.stmts i
  | _ => False

/-- The usual case: all documents are below 4 GiB; hierarchical workspace folders have a path; no path that is looked up contains tabs or line ends. -/
structure Regular (env : Env) (st : ServerState) : Prop where
  size : ∀ u text, Opened st u text → text.length < 2 ^ 32
  folders : ∀ r ∈ st.roots, Opaque r ∨ Folder r
  locations : ∀ u text res n d, Known st u text res → ExternalLocation res.stmts n d → NoTabs d.filepath
  links : ∀ v j entries e l file n, env.json v = some j → HasBacktrace j entries → e ∈ entries → IsLink e l → FileLine l file n → NoTabs file

end
end HyperIR.Spec
