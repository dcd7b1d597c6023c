import Verif.Spec.Hints
import Verif.Spec.Rename
import Verif.Spec.History

/-
What can end the server: for every message, the causes of a panic in terms of the texts, the settings and the request.
-/

namespace HyperIR.Spec

/-- Hierarchical URLs can name folders; `mailto:x` cannot. -/
def Opaque (u : Url) : Prop := u.cannotBeABase = true

/-- The symbol is 48 bytes or longer and the 48th byte does not end a character. -/
def Unshortenable (symbol : Str) : Prop := ∀ short, ¬ ShortSymbol symbol short

/-- The text is a number with an optional sign (64 bit, two's complement). -/
def SignedNumber (w : Str) (i : Int) : Prop :=
  ∃ ds n, Denotes ds n ∧ ((w = ds ∨ w = '+' :: ds) ∧ n < 2 ^ 63 ∧ i = n ∨ w = '-' :: ds ∧ n ≤ 2 ^ 63 ∧ i = -n)

/-- The number fits into 64 bits. -/
def Fits64 (i : Int) : Prop := -(2 ^ 63) ≤ i ∧ i < 2 ^ 63

section
variable [Unicode]

/-- The character in front of the number at the end of the name is not ASCII. -/
def WideBeforeNumber (name : Str) : Prop :=
  ∃ pre c suf, name = pre ++ c :: suf ∧ (∀ d ∈ suf, Unicode.numeric d = true) ∧ Unicode.numeric c = false ∧ ¬ c.toNat < 128

/-- The document is known with a text that parses to the given tokens and statements. -/
def Known (st : ServerState) (uri text : Str) (res : ParserResult) : Prop := Opened st uri text ∧ parseFromStr text = .ok res

/-- The function is declared with a debug reference to a location: what go-to-definition looks up in the workspace. -/
def ExternalLocation (ss : List Statement) (function : Str) (d : ExternalDef) : Prop :=
  ∃ before name def_ after, ss = before ++ .dbgAnnotation name def_ :: after ∧ IsLocation def_ d ∧ LastDeclares before name.1 function

/-- Renumbering the symbols of a kind from a number on cannot be computed: one of the names cannot be split, or (in a build with
overflow checks) one of the new numbers does not fit. -/
def Unshiftable (env : Env) (res : ParserResult) (k : SymbolKind) (start shift : Int) : Prop :=
  ∃ o, Occurs res.tokens res.stmts o ∧ o.symbolKind = k ∧
    (WideBeforeNumber o.name ∨
     env.build.overflowChecks = true ∧ ∃ (pre : Str) (nr : Nat), Numbered o.name pre nr ∧ start ≤ nr ∧ ¬ Fits64 (nr + shift))

/-- The causes of a panic, for the message in the state of the server. -/
inductive Fatal (env : Env) (st : ServerState) : Msg → Prop
  /-- A change notification without changes. -/
  | noChanges {u v} : Fatal env st (.didChange u v [])
  /-- A text with a debug annotation whose value cannot be cut out at the (character) offsets, taken as byte offsets. -/
  | text {m u v text res name f rest l} :
      (m = .didOpen u v text ∨ ∃ r cs, m = .didChange u v (⟨r, text⟩ :: cs)) →
      parseFromStr text = .ok res → .dbgAnnotation name (f :: rest) ∈ res.stmts → (f :: rest).getLast? = some l →
      (¬ ∃ a b c, text = a ++ b ++ c ∧ utf8Len a = f.2.start ∧ utf8Len (a ++ b) = l.2.stop) →
      Fatal env st m
  /-- A text of 4 GiB or more. -/
  | large {u text} : Opened st u text → 2 ^ 32 ≤ text.length → Fatal env st (.semanticTokensFull u)
  /-- Go to the definition of a function in another file: line 0, or a workspace folder that is not hierarchical. -/
  | location {u text res p o d} : Known st u text res → Occurs res.tokens res.stmts o → o.symbolKind = .function →
      ExternalLocation res.stmts o.name d →
      (env.build.overflowChecks = true ∧ d.line = 0 ∨ ∃ r ∈ st.roots, Opaque r) → Fatal env st (.gotoDefinition u p)
  /-- A hint for a backtrace with a symbol that cannot be shortened, or in a workspace with a folder that is not hierarchical. -/
  | hint {u text res i ref v j entries} : Known st u text res → i ∈ instructions res.stmts → i.dbgRef = some ref → Contains v text →
      env.json v = some j → HasBacktrace j entries →
      ((∃ e ∈ entries, ∃ s, SymbolOf e s ∧ Unshortenable s) ∨ ∃ r ∈ st.roots, Opaque r) → Fatal env st (.inlayHint u)
  /-- The new name is empty, or only the sigil. -/
  | noName {u text p o req} {res : ParserResult} : Known st u text res → Occurs res.tokens res.stmts o → (req = [] ∨ Sigil o.symbolKind req) →
      Fatal env st (.rename u p req)
  /-- The negation of the requested shift does not fit. -/
  | shift {u text p o w} {res : ParserResult} : Known st u text res → Occurs res.tokens res.stmts o → env.build.overflowChecks = true →
      SignedNumber w (-2 ^ 63) → Fatal env st (.rename u p ('-' :: w))
  /-- The symbol to be renumbered has a name that cannot be split. -/
  | wide {u text p o w c} {res : ParserResult} : Known st u text res → Occurs res.tokens res.stmts o → WideBeforeNumber o.name →
      (c = '+' ∨ c = '-') → Fatal env st (.rename u p (c :: w))
  /-- The requested shift cannot be computed. -/
  | rename {u text p o w k pre c} {start : Nat} {res : ParserResult} : Known st u text res → Occurs res.tokens res.stmts o → Numbered o.name pre start →
      SignedNumber w k → (c = '+' ∧ Unshiftable env res o.symbolKind start k ∨ c = '-' ∧ Unshiftable env res o.symbolKind start (-k)) →
      Fatal env st (.rename u p (c :: w))
  /-- The symbol at the position has a name that cannot be split. -/
  | actionWide {u text r o} {res : ParserResult} : Known st u text res → Occurs res.tokens res.stmts o → WideBeforeNumber o.name →
      Fatal env st (.codeAction u r)
  /-- The shift by one cannot be computed, and the client wants the edits with the actions. -/
  | action {u text r o pre} {start : Nat} {res : ParserResult} : Known st u text res → Occurs res.tokens res.stmts o → Numbered o.name pre start →
      st.lazyResolve = false → Unshiftable env res o.symbolKind start 1 → Fatal env st (.codeAction u r)
  /-- A code action for a function that the document does not have, or for a local symbol of no function. -/
  | stale {a d text} {res : ParserResult} : a.data = .shift d → Known st d.uri text res →
      ((∃ i, d.funcBodyId = some i ∧ (docFuncs res.stmts).length ≤ i) ∨
       d.funcBodyId = none ∧ (d.symbolKind = .label ∨ d.symbolKind = .localVar)) → Fatal env st (.codeActionResolve a)
  /-- The shift by one cannot be computed. -/
  | resolve {a d text} {res : ParserResult} : a.data = .shift d → Known st d.uri text res → Unshiftable env res d.symbolKind d.renamedNr 1 →
      Fatal env st (.codeActionResolve a)

end
end HyperIR.Spec

namespace HyperIR.Spec

/-- The JSON parser yields only backtraces whose symbols can be shortened. -/
def TameEnv (env : Env) : Prop :=
  ∀ v j entries e s, env.json v = some j → HasBacktrace j entries → e ∈ entries → SymbolOf e s → ¬ Unshortenable s

section
variable [Unicode]

/-- A text without known hazards: ASCII, below 4 GiB, locations have lines greater than 0, numbers in names are below `2^62`. -/
def TameText (text : Str) : Prop :=
  Ascii text ∧ text.length < 2 ^ 32 ∧ ∀ res, parseFromStr text = .ok res →
    (∀ function d, ExternalLocation res.stmts function d → d.line ≠ 0) ∧
    ∀ o pre n, Occurs res.tokens res.stmts o → Numbered o.name pre n → n < 2 ^ 62

/-- A message without known hazards (apart from code actions to be resolved). -/
def TameMsg : Msg → Prop
  | .initialize p => (∀ l, p.workspaceFolders = some l → ∀ u ∈ l, ¬ Opaque u) ∧ ∀ u, p.rootUri = some u → ¬ Opaque u
  | .didOpen _ _ text => TameText text
  | .didChange _ _ cs => ∃ text, cs = [⟨none, text⟩] ∧ TameText text
  | .rename _ _ req => req ≠ [] ∧ (∀ k, ¬ Sigil k req) ∧
      ∀ c w k, req = c :: w → c = '+' ∨ c = '-' → SignedNumber w k → -(2 ^ 62) ≤ k ∧ k ≤ 2 ^ 62
  | _ => True

/-- The code action is for a function that the text has, or for no function and a global kind of symbols. -/
def CurrentAction (d : CodeActionData) (text : Str) : Prop :=
  ∀ res, parseFromStr text = .ok res →
    (∀ i, d.funcBodyId = some i → i < (docFuncs res.stmts).length) ∧
    (d.funcBodyId = none → d.symbolKind ≠ .label ∧ d.symbolKind ≠ .localVar)

/-- A history without known hazards. -/
def TameHistory (ms : List Step) : Prop :=
  (∀ e ∈ ms, TameEnv e.1 ∧ TameMsg e.2) ∧
  ∀ before env a after d text, ms = before ++ (env, .codeActionResolve a) :: after → a.data = .shift d →
    latestText before d.uri = some text → CurrentAction d text

end
end HyperIR.Spec
