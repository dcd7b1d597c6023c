import Verif.Spec.Flow
import Verif.Spec.Backtrace
import Verif.Spec.Text

/-
What the backtrace hints of a document show, in terms of the document's text and of the backtraces in its annotations.
-/

namespace HyperIR.Spec

/-- `bs` has one element for every element of `as` that is related to something, in order. -/
inductive Picks {α β : Type} (R : α → β → Prop) : List α → List β → Prop
  | nil : Picks R [] []
  | take {a b as bs} : R a b → Picks R as bs → Picks R (a :: as) (b :: bs)
  | skip {a as bs} : (∀ b, ¬ R a b) → Picks R as bs → Picks R (a :: as) bs

/-- The text of the debug annotation `name`: that of the last annotation with this name and some text, from its first to its last
token. -/
def AnnotationText (text : Str) (stmts : List Statement) (name v : Str) : Prop :=
  ∃ before n d after f l, stmts = before ++ .dbgAnnotation n d :: after ∧ n.1 = name ∧ d.head? = some f ∧ d.getLast? = some l ∧
    (∀ n' d', .dbgAnnotation n' d' ∈ after → n'.1 = name → d' = []) ∧ v = slice text ⟨f.2.start, l.2.stop⟩

/-- The frames given by the entries of a backtrace, with their files resolved against the workspace folders. -/
def FramesOf (fs : FileSystem) (roots : List Url) (entries : List Json) (frames : List Frame) : Prop :=
  Each (fun e f => FrameOf e f ∧
    ∀ file, f.filepath = some file → NoTabs file → ∀ u, f.resolvedFilepath = some u ↔ Resolves fs roots file u) entries frames

section
variable [Unicode]

/-- The characters of a symbol that are shown as they are. -/
def Shown (c : Char) : Prop := Unicode.alphanumeric c = true ∨ Unicode.whitespace c = true ∨ c ∈ c!".,:+-=/*<>_"

/-- The symbol as it is shown: the other characters are replaced. -/
def ShownAs (symbol code : Str) : Prop :=
  code.length = symbol.length ∧
  ∀ (i : Nat) c c', symbol[i]? = some c → code[i]? = some c' → (Shown c → c' = c) ∧ (¬ Shown c → c' = '�')

/-- The Markdown text of a frame: the symbol, and its file and line (as a link, if the file was found). -/
def FrameText (f : Frame) (s : Str) : Prop :=
  ∃ code, ShownAs f.symbol code ∧
    ((f.filepath = none ∧ s = c!"`" ++ code ++ c!"`") ∨
     (∃ file short line, f.filepath = some file ∧ LastComponent file short ∧ Canonical line f.line ∧
       ((f.resolvedFilepath = none ∧ s = c!"`" ++ code ++ c!"` @ " ++ short ++ c!":" ++ line) ∨
        (∃ u, f.resolvedFilepath = some u ∧
          s = c!"`" ++ code ++ c!"` @ [" ++ short ++ c!":" ++ line ++ c!"](" ++ u.toStr ++ c!"#" ++ line ++ c!")"))))

/-- The lines, separated by line feeds. -/
def joinLines : List Str → Str
  | [] => []
  | [a] => a
  | a :: as => a ++ c!"\n" ++ joinLines as

/-- The Markdown text of a backtrace: a list with one item per frame. -/
def BacktraceText (frames : List Frame) (s : Str) : Prop :=
  ∃ items, Each FrameText frames items ∧ s = joinLines (items.map (c!"* " ++ ·))

/-- The (possibly shortened) symbol in the label of a hint. -/
def ShortSymbol (symbol short : Str) : Prop :=
  (utf8Len symbol < 48 ∧ short = symbol) ∨
  (48 ≤ utf8Len symbol ∧ ∃ p rest, symbol = p ++ rest ∧ utf8Len p = 48 ∧ short = p ++ ['…'])

/-- The label of the hint for a backtrace: the most relevant frame, if there is one, with its text as tooltip, and
`Full backtrace` with the text of the backtrace as tooltip. -/
def BacktraceLabel (frames : List Frame) (label : List LabelPart) : Prop :=
  ∃ full, BacktraceText frames full ∧
    (((∀ i, ¬ Relevant frames i) ∧ label = [{ value := c!"Full backtrace", tooltip := some full }]) ∨
     (∃ i f short item, Relevant frames i ∧ frames[i]? = some f ∧ ShortSymbol f.symbol short ∧ FrameText f item ∧
       label = [{ value := short, tooltip := some item }, { value := c!", " }, { value := c!"Full backtrace", tooltip := some full }]))

/-- The hint for an instruction: the instruction has a debug reference to an annotation whose text is JSON with a backtrace; the hint
stands behind the reference and shows the backtrace. -/
def BacktraceHint (env : Env) (roots : List Url) (text : Str) (stmts : List Statement) (i : Instruction) (hint : InlayHint) : Prop :=
  ∃ ref v j entries frames, i.dbgRef = some ref ∧ AnnotationText text stmts ref.1 v ∧ env.json v = some j ∧ HasBacktrace j entries ∧
    FramesOf env.fs roots entries frames ∧ LspOffset text hint.position ref.2.stop ∧ BacktraceLabel frames hint.label

end
end HyperIR.Spec
