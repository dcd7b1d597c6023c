import Verif.Spec.CrashSites
import Verif.Spec.Hints

/-
Exactly what the server answers to the requests about a symbol, in documents with any characters, errors and line ends.
-/

namespace HyperIR.Spec

/-- The place the server shows for the `off`-th character of the text: it takes the offset for a number of bytes.  With `a` the longest
beginning of the text that has at most so many bytes, the place is the one behind `a`: on the line that begins last in `a`, as many columns to
the right as characters follow in `a`. -/
def ShownPlace (text : Str) (off : Nat) (p : Pos) : Prop :=
  ∃ a b start, text = a ++ b ∧ utf8Len a ≤ off ∧ (∀ c, b.head? = some c → off < utf8Len (a ++ [c])) ∧ off ≤ utf8Len text ∧
    LineBegins text p.line start ∧ start + p.character = a.length ∧ ∀ next, LineBegins text (p.line + 1) next → a.length < next

/-- The range the server shows for a range of characters. -/
def ShownRange (text : Str) (sp : Span) (r : Range) : Prop := ShownPlace text sp.start r.start ∧ ShownPlace text sp.stop r.stop

/-- The locations of the listed occurrences, one after the other. -/
def Located (uri text : Str) (occs : List SymbolOccurrence) (locs : List Location) : Prop :=
  Each (fun o l => l.uri = uri ∧ ShownRange text o.span l.range) occs locs

/-- The edits that give the listed occurrences their new names, one after the other. -/
def Edited (text : Str) (changes : List (SymbolOccurrence × Str)) (edits : List TextEdit) : Prop :=
  Each (fun c e => e.newText = c.2 ∧ ShownRange text c.1.span e.range) changes edits

/-- The file is found in the first folder that has it. -/
def FoundAt (fs : FileSystem) (roots : List Url) (path : Str) (u : Url) : Prop :=
  ∃ before root after, roots = before ++ root :: after ∧ ¬ Opaque root ∧ InFolder root path u ∧ fs u = true ∧
    ∀ r ∈ before, ¬ Opaque r ∧ ∀ v, InFolder r path v → fs v = false

/-- Lines are numbered from 1 in locations and from 0 in the protocol; 0 becomes the largest number. -/
def LineIndex (line idx : Nat) : Prop := line = idx + 1 ∨ line = 0 ∧ idx = 2 ^ 32 - 1

/-- What is printed for a new number: it is taken to 64 bits (two's complement), and its sign is dropped unless it is the smallest number. -/
def NumberText (i : Int) (w : Str) : Prop :=
  ∃ j t : Int, Fits64 j ∧ i = j + t * 2 ^ 64 ∧ (j = -(2 ^ 63) ∧ w = c!"-9223372036854775808" ∨ j ≠ -(2 ^ 63) ∧ Canonical w j.natAbs)

/-- The request is `+n` or `-n`, where `n` itself may have a sign; the shift is taken to 64 bits. -/
def ShiftAmount (req : Str) (k : Int) : Prop :=
  ∃ w i t, SignedNumber w i ∧ Fits64 k ∧ (req = '+' :: w ∧ i = k + t * 2 ^ 64 ∨ req = '-' :: w ∧ -i = k + t * 2 ^ 64)

/-- The requested name without the sigil of the kind. -/
def WithoutSigil (k : SymbolKind) (req body : Str) : Prop :=
  ∃ sigil, Sigil k sigil ∧ (req = sigil ++ body ∨ (∀ b, req ≠ sigil ++ b) ∧ body = req)

/-- `LocationsOf function before rest ds`: the locations that the debug annotations among the statements `rest` give for the function, in order
and one for each such annotation.  An annotation counts for the function that was last declared with its name, in the statements in front of it. -/
inductive LocationsOf (function : Str) : List Statement → List Statement → List ExternalDef → Prop
  | nil {before} : LocationsOf function before [] []
  | location {before name def_ rest d ds} : IsLocation def_ d → LastDeclares before name.1 function →
      LocationsOf function (before ++ [.dbgAnnotation name def_]) rest ds → LocationsOf function before (.dbgAnnotation name def_ :: rest) (d :: ds)
  | other {before s rest ds} : (∀ name def_ d, s = .dbgAnnotation name def_ → IsLocation def_ d → ¬ LastDeclares before name.1 function) →
      LocationsOf function (before ++ [s]) rest ds → LocationsOf function before (s :: rest) ds

/-- The beginning of a line of a file in the workspace, given by the path of the file and the number of the line. -/
def WorkspaceLine (fs : FileSystem) (roots : List Url) (d : ExternalDef) (l : Location) : Prop :=
  ∃ v idx, FoundAt fs roots d.filepath v ∧ LineIndex d.line idx ∧ l = { uri := v.toStr, range := ⟨⟨idx, 0⟩, ⟨idx, 0⟩⟩ }

section
variable [Unicode]

/-- The list has exactly the occurrences with the property, each one once. -/
def Lists (res : ParserResult) (P : SymbolOccurrence → Prop) (occs : List SymbolOccurrence) : Prop :=
  occs.Nodup ∧ ∀ o, o ∈ occs ↔ Occurs res.tokens res.stmts o ∧ P o

/-- The list has the occurrences of the symbol in the role, in the order of the text. -/
def InRole (res : ParserResult) (o : SymbolOccurrence) (role : UseDefKind) (occs : List SymbolOccurrence) : Prop :=
  Lists res (fun o' => SameSymbol o' o ∧ o'.useDef = role) occs ∧ InOrder (occs.map (·.span))

/-- The document is not known. -/
def Unknown (st : ServerState) (uri : Str) : Prop := ∀ text, ¬ Opened st uri text

/-- The document is not known or there is no symbol at the position. -/
def NoSymbol (st : ServerState) (uri : Str) (p : Pos) : Prop := ∀ text res o, ¬ SymbolUnder st uri p text res o

/-- Renumbering from `start` on turns the name into the new one. -/
def Renumbers (start shift : Int) (name new : Str) : Prop :=
  ∃ (pre : Str) (nr : Nat) (w : Str), Numbered name pre nr ∧ start ≤ nr ∧ NumberText (nr + shift) w ∧ new = pre ++ w

/-- The edits renumber, among the symbols of the kind (for labels and variables: in the function), exactly those from `start` on. -/
def Renumbered (text : Str) (res : ParserResult) (k : SymbolKind) (f : Option Nat) (start shift : Int) (edits : List TextEdit) : Prop :=
  ∃ changes, Edited text changes edits ∧ (changes.map Prod.fst).Nodup ∧
    ∀ o new, (o, new) ∈ changes ↔ Occurs res.tokens res.stmts o ∧ o.symbolKind = k ∧ (k = .label ∨ k = .localVar → o.funcBodyId = f) ∧
      Renumbers start shift o.name new

/-- Why a rename of the symbol is refused. -/
def Refused (o : SymbolOccurrence) (req msg : Str) : Prop :=
  (Relative req ∧ (∀ k, ¬ ShiftAmount req k) ∧ msg = c!"Invalid relative rename `" ++ req ++ c!"`") ∨
  ((∃ k, ShiftAmount req k) ∧ (∀ pre n, ¬ Numbered o.name pre n) ∧ msg = c!"Relative rename can only be applied to a numbered identifier") ∨
  (¬ Relative req ∧ ∃ body, WithoutSigil o.symbolKind req body ∧
    ((∃ c ∈ body, ¬ NameChar c ∧ c ≠ ':') ∧ msg = c!"Name contains invalid character" ∨
     (∀ c ∈ body, NameChar c ∨ c = ':') ∧ (∃ c, body.head? = some c ∧ Unicode.numeric c = true) ∧ o.symbolKind ≠ .dbgAnnotation ∧
      msg = c!"Name must not start with a digit"))

/-- The messages about a symbol. -/
def SymbolRequest : Msg → Prop
  | .gotoDefinition .. | .gotoDeclaration .. | .references .. | .prepareRename .. | .rename .. | .codeAction .. | .codeActionResolve .. => True
  | _ => False

/-- The messages that ask for edits. -/
def EditRequest : Msg → Prop
  | .rename .. | .codeAction .. | .codeActionResolve .. => True
  | _ => False

/-- `Correct env st m r`: the reply is a correct one to the message in the state. -/
def Correct (env : Env) (st : ServerState) : Msg → Reply → Prop
  | .references u p, .locations none => NoSymbol st u p
  | .references u p, .locations (some locs) => ∃ text res o occs, SymbolUnder st u p text res o ∧
      InRole res o .use occs ∧ Located u text occs locs
  | .gotoDeclaration u p, .links none => NoSymbol st u p
  | .gotoDeclaration u p, .links (some links) => ∃ text res o occs, SymbolUnder st u p text res o ∧
      InRole res o .decl occs ∧ Located u text occs (links.map (·.target)) ∧
      ∀ k ∈ links, ShownRange text o.span k.origin
  | .gotoDefinition u p, .links none => NoSymbol st u p
  | .gotoDefinition u p, .links (some links) => ∃ text res o occs locs ext, SymbolUnder st u p text res o ∧
      InRole res o .def_ occs ∧ Located u text occs locs ∧ links.map (·.target) = locs ++ ext ∧
      (∀ k ∈ links, ShownRange text o.span k.origin) ∧
      ∃ ds, (o.symbolKind = .function ∧ LocationsOf o.name [] res.stmts ds ∨ o.symbolKind ≠ .function ∧ ds = []) ∧
        Picks (WorkspaceLine env.fs st.roots) ds ext
  | .prepareRename u p, .range none => NoSymbol st u p
  | .prepareRename u p, .range (some r) => ∃ text res o, SymbolUnder st u p text res o ∧ ShownRange text o.span r
  | .rename u p req, .error e =>
      (Unknown st u ∧ e = .invalidParams c!"Document not found") ∨
      (¬ Unknown st u ∧ NoSymbol st u p ∧ e = .invalidParams c!"No symbol at the given position") ∨
      ∃ text res o msg, SymbolUnder st u p text res o ∧ Refused o req msg ∧ e = .invalidParams msg
  | .rename u p req, .edit e => ∃ text res o edits, SymbolUnder st u p text res o ∧ e = [(u, edits)] ∧
      ((¬ Relative req ∧ ∃ name occs, NewName o.symbolKind req name ∧ Lists res (fun o' => SameSymbol o' o) occs ∧
          Edited text (occs.map fun o' => (o', name)) edits) ∨
       ∃ k pre start, ShiftAmount req k ∧ Numbered o.name pre start ∧ Renumbered text res o.symbolKind o.funcBodyId start k edits)
  | .codeAction u _, .error e => Unknown st u ∧ e = .invalidParams c!"Document not found"
  | .codeAction u r, .actions none => ¬ Unknown st u ∧ r.start ≠ r.stop
  | .codeAction u r, .actions (some l) => ¬ Unknown st u ∧ r.start = r.stop ∧
      ((l = [] ∧ ∀ text res o pre n, SymbolUnder st u r.start text res o → ¬ Numbered o.name pre n) ∨
       ∃ text res o pre nr edit, SymbolUnder st u r.start text res o ∧ Numbered o.name pre nr ∧
        l = [{ title := c!"Shift " ++ kindWord o.symbolKind ++ c!" numbering", data := .shift ⟨u, o.symbolKind, o.funcBodyId, nr⟩, edit := edit }] ∧
        (st.lazyResolve = true ∧ edit = none ∨
         st.lazyResolve = false ∧ ∃ edits, edit = some [(u, edits)] ∧ Renumbered text res o.symbolKind o.funcBodyId nr 1 edits))
  | .codeActionResolve a, .error e =>
      (a.data = .missing ∧ e = .invalidParams c!"Missing `data` in code action") ∨
      (a.data = .invalid ∧ e = .invalidParams c!"Invalid `data` for code action") ∨
      ∃ d, a.data = .shift d ∧ Unknown st d.uri ∧ e = .invalidParams c!"Document not found"
  | .codeActionResolve a, .action a' => ∃ d text res edits, a.data = .shift d ∧ Known st d.uri text res ∧
      a' = { a with edit := some [(d.uri, edits)] } ∧ Renumbered text res d.symbolKind d.funcBodyId d.renamedNr 1 edits
  | _, _ => False

end
end HyperIR.Spec
