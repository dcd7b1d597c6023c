import Verif.Spec.Diagnostics
import Verif.Spec.Edits
import Verif.Spec.Outline
import Verif.Spec.Server

/-
What an edit that only renames symbols must leave alone.
-/

namespace HyperIR.Spec

/-- The ranges start on the same line and end on the same line. -/
def SameLines (r r' : Range) : Prop := r'.start.line = r.start.line ∧ r'.stop.line = r.stop.line

/-- The diagnostics after the renames of the occurrences, given by the relation between occurrences and new names, say the same as those
before: they correspond one to one, and two that correspond are on the same lines, point to the same lines, and carry the same message,
except that the messages about undefined symbols and duplicate definitions mention the new names. -/
def DiagnosticsKept (res : ParserResult) (renamed : SymbolOccurrence → Str → Prop) (diags diags' : List Diagnostic) : Prop :=
  ∃ pairs : List (Diagnostic × Diagnostic), diags.Perm (pairs.map Prod.fst) ∧ diags'.Perm (pairs.map Prod.snd) ∧
    ∀ p ∈ pairs, SameLines p.1.range p.2.range ∧ Each (fun a b => SameLines a.1.range b.1.range ∧ b.2 = a.2) p.1.related p.2.related ∧
      (p.2.message = p.1.message ∨ ∃ o v, Occurs res.tokens res.stmts o ∧ renamed o v ∧
      ((p.1.message = c!"Use of undefined symbol `" ++ o.name ++ c!"`" ∧ p.2.message = c!"Use of undefined symbol `" ++ v ++ c!"`") ∨
       (p.1.message = c!"Symbol `" ++ o.name ++ c!"` already defined previously" ∧
        p.2.message = c!"Symbol `" ++ v ++ c!"` already defined previously")))

/-- What the occurrence is called after the renames. -/
def CalledAfter (renamed : SymbolOccurrence → Str → Prop) (o : SymbolOccurrence) (n : Str) : Prop :=
  renamed o n ∨ ((∀ v, ¬ renamed o v) ∧ n = o.name)

/-- The outlines correspond one to one: entries that correspond are of the same kind and on the same lines, and carry the name the shown
definition has after the renames. -/
def OutlineKept (text : Str) (res : ParserResult) (renamed : SymbolOccurrence → Str → Prop) (syms syms' : List DocumentSymbol) : Prop :=
  ∃ pairs : List (DocumentSymbol × DocumentSymbol), syms.Perm (pairs.map Prod.fst) ∧ syms'.Perm (pairs.map Prod.snd) ∧
    ∀ p ∈ pairs, p.2.kind = p.1.kind ∧ SameLines p.1.range p.2.range ∧ SameLines p.1.selectionRange p.2.selectionRange ∧
      ∃ o, Occurs res.tokens res.stmts o ∧ o.useDef = .def_ ∧ (PlainTo text o.span.stop → EditorRange text o.span p.1.selectionRange) ∧ p.1.name = o.name ∧
        CalledAfter renamed o p.2.name

/-- The graphs of the function number `i` before and after the renames of labels show the same edges, with the new labels. -/
def GraphKept (res : ParserResult) (renamed : SymbolOccurrence → Str → Prop) (i : Nat) (graph graph' : Str) : Prop :=
  ∃ (label : Str → Str) (edges : List (Str × Str)),
    (∀ o, Occurs res.tokens res.stmts o → o.symbolKind = .label → o.funcBodyId = some i → CalledAfter renamed o (label o.name)) ∧
    ShowsEdges edges graph ∧ ShowsEdges (edges.map fun e => (label e.1, label e.2)) graph'

section
variable [Unicode]

/-- Servers show the same structure for the document before and after the renames: the same folding ranges, outlines that correspond, and
for every function the same graph with the new labels under its new name. -/
def StructureKept (text text' : Str) (res : ParserResult) (renamed : SymbolOccurrence → Str → Prop) : Prop :=
  ∀ env st uri env' st' uri', Opened st uri text → Opened st' uri' text' →
    foldingRange st' uri' = foldingRange st uri ∧
    (∀ syms syms', documentSymbol env st uri = some syms → documentSymbol env' st' uri' = some syms' → OutlineKept text res renamed syms syms') ∧
    ∀ name g, executeCommand st c!"visualize-cfg" [.str uri, .str name] = .ok g →
      ∃ i f, (docFuncs res.stmts).findIdx? (fun f => decide (f.1.1 = name)) = some i ∧ (docFuncs res.stmts)[i]? = some f ∧
        ∀ name', CalledAfter renamed (occ .function .def_ none f.1) name' →
          ∃ g', executeCommand st' c!"visualize-cfg" [.str uri', .str name'] = .ok g' ∧ GraphKept res renamed i g.dotGraph g'.dotGraph

end

end HyperIR.Spec
