import Verif.Props.Kept
import Verif.Proofs.KeptStructure

/-! C69: renames and shifts change neither the folding ranges nor, but for names, the outline and the graphs. -/

namespace HyperIR
open Spec

section
variable [Unicode] {env : Env} {st : ServerState} {uri text : Str} {res : ParserResult}

theorem structure_kept {G : Renaming} {R : SymbolOccurrence → Str → Prop} {text' : Str} {res' : ParserResult} (hG : Carried G text text' res res')
    (hm : Keeps res res' R G.occ) (h : parseFromStr text = .ok res) (h' : parseFromStr text' = .ok res') (hsize : text.length < 2 ^ 32)
    (hsize' : text'.length < 2 ^ 32) : StructureKept text text' res R := by
  intro env st uri env' st' uri' hopen hopen'
  exact ⟨folds_kept hG hm h h' hsize hsize' hopen hopen', fun syms syms' hs hs' => outline_kept hG hm h h' hsize hsize' hopen hopen' hs hs',
    fun name g hg => graph_kept hG hm h h' hopen hopen' hg⟩

/-- C69 for renames: after a rename to a name not yet used in its scope, the folding ranges are the same, the outline has the same
entries, with the new name, and the graphs have the same edges, with the new name.  What is missing: as for `C60_references_partial`. -/
theorem C69_rename_partial (hopen : Opened st uri text) (h : parseFromStr text = .ok res) (hsize : text.length < 2 ^ 32)
    {toks : List (Spanned Token)} {errs : List (LErr Char)} (ht : tokenize text = .ok (some toks, errs)) {p : Pos} {off : Nat} (hpos : LspOffset text p off)
    {o : SymbolOccurrence} (ho : Occurs res.tokens res.stmts o) (hc : Covers o.span off) (hp : PlainSymbol text res o) (hamb : ¬ Ambiguous res.stmts o.name) {req name : Str}
    (hreq : ¬ Relative req) (hname : NewName o.symbolKind req name) (hback : ReadsBack o.symbolKind name) (hplain : Plain name)
    (hfresh : Fresh res o name)
    (hbare : ∀ o', Occurs res.tokens res.stmts o' → SameSymbol o' o → Bare o') :
    ∃ edits text', rename env st uri p req = .ok (.ok [(uri, edits)]) ∧ Applied text edits text' ∧ (∀ t, Applied text edits t → t = text') ∧
      (text'.length < 2 ^ 32 → StructureKept text text' res (fun o' v => SameSymbol o' o ∧ v = name)) := by
  obtain ⟨edits, text', errs', f, res', h1, h2, h3, h4, hts, h5, h6, h7, h8, _, hG⟩ :=
    rename_core (env := env) hopen h hsize ht hpos ho hc hp hamb hreq hname hback hplain hbare
  obtain ⟨doc, _, _, _, hix⟩ := opened_inv hopen h
  rw [← hts] at h7
  exact ⟨edits, text', h1, h2, h3, fun hsize' => structure_kept hG (rename_keeps h hix hamb hfresh h6 h7 h8) h h6 hsize hsize'⟩

/-- C69 for shifts.  What is missing: as for `C66_references_partial`. -/
theorem C69_shift_partial (hopen : Opened st uri text) (h : parseFromStr text = .ok res) (hsize : text.length < 2 ^ 32)
    {toks : List (Spanned Token)} {errs : List (LErr Char)} (ht : tokenize text = .ok (some toks, errs)) {p : Pos} {off : Nat} (hpos : LspOffset text p off)
    {o : SymbolOccurrence} (ho : Occurs res.tokens res.stmts o) (hc : Covers o.span off) (hp : PlainScope text res o) (hvis : ¬ Shadowed res.stmts o) {req : Str} {k : Int}
    (hk : ShiftBy req k) {pre : Str} {start : Nat} (hn : Numbered o.name pre start) (hsafe : ShiftSafe res o start k) :
    ∃ edits text', rename env st uri p req = .ok (.ok [(uri, edits)]) ∧ Applied text edits text' ∧ (∀ t, Applied text edits t → t = text') ∧
      (text'.length < 2 ^ 32 → StructureKept text text' res (Shifted o start k)) := by
  obtain ⟨edits, he, hed⟩ := C30_shift_partial (env := env) hopen h hsize hpos ho hc hp hvis hk hn hsafe.fits
  obtain ⟨ix, text', errs', f, res', hix, h2, h3, h4, h5, h6, h7, h8, _, hG⟩ := shift_core hopen h hsize ht ho hp (shift_plan h hsafe) hed
  exact ⟨edits, text', he, h2, h3, fun hsize' => structure_kept hG (shift_keeps h hix hsafe h6 h7 h8) h h6 hsize hsize'⟩

end

/-! ### Examples and refutations -/

section Examples
attribute [local instance] asciiUnicode

/-- The hypotheses of `C69_shift_partial` hold for `%v1` of `renText` and a shift by 2. -/
example : ∃ edits text' res, rename debugEnv (serverWith [] c!"u" renText) c!"u" ⟨1, 22⟩ c!"+2" = .ok (.ok [(c!"u", edits)]) ∧
    Applied renText edits text' ∧ parseFromStr renText = .ok res ∧
    (text'.length < 2 ^ 32 → StructureKept renText text' res (Shifted paramOcc 1 2)) := by
  obtain ⟨res, toks, h1, h2, h3, h4, h5, h6⟩ := renText_safe
  have hpos : LspOffset renText ⟨1, 22⟩ 29 := by
    refine ⟨7, c!"define void @f(int32 %v1) {", ?_, by decide, rfl⟩
    exact .later (content := c!"@a = 1") (eol := c!"\n") (by decide) (.inl rfl) (by simp)
      (.here (content := c!"define void @f(int32 %v1) {") (tail := renText.drop 34) (by decide) (by intro c cs h; left; simp [renText] at h; exact h.1.symm))
  have hk : ShiftBy c!"+2" 2 := ⟨c!"2", 2, parseNat_iff.mp (by decide +kernel), by decide, .inl ⟨rfl, rfl⟩⟩
  have hopen : Opened (serverWith [] c!"u" renText) c!"u" renText := serverWith_opened (by decide +kernel)
  obtain ⟨edits, text', e1, e2, _, e3⟩ := C69_shift_partial (env := debugEnv) hopen h1 (by decide +kernel) h2 hpos h3
    ⟨by decide, by decide⟩ (fun _ _ _ => Spec.Plain.to (by decide +kernel) _) (visible_of_clear h3 h4) hk h5 h6
  exact ⟨edits, text', res, e1, e2, h1, e3⟩

/-- What a server shows for a text: lines and texts of the folding ranges, names and lines of the outline, and the edges in the graph of
a function. -/
def shownFor (text func : Str) : List (Nat × Nat × Str) × List (Str × Nat × Nat) × Option Str :=
  let st := serverWith [] c!"u" text
  (((foldingRange st c!"u").getD []).map (fun f => (f.startLine, f.endLine, f.collapsedText)),
   ((documentSymbol debugEnv st c!"u").getD []).map (fun s => (s.name, s.range.start.line, s.range.stop.line)),
   (match executeCommand st c!"visualize-cfg" [.str c!"u", .str func] with | .ok g => some (g.dotGraph.reverse.takeWhile (· ≠ ';')).reverse | .error _ => none))

set_option synthInstance.maxSize 2000 in
set_option synthInstance.maxHeartbeats 200000 in
/-- A function before and after a rename of its label `a` to `entry`. -/
example : shownFor c!"define void @f() {\na:\n br a\n}\n" c!"@f" =
      ([(0, 3, c!"1 basic blocks"), (1, 2, c!"1 instructions")], [(c!"@f", 0, 3)],
        some c!"\n  \"a\" -> \"a\"\n}\n") ∧
    shownFor c!"define void @f() {\nentry:\n br entry\n}\n" c!"@f" =
      ([(0, 3, c!"1 basic blocks"), (1, 2, c!"1 instructions")], [(c!"@f", 0, 3)],
        some c!"\n  \"entry\" -> \"entry\"\n}\n") := by
  decide +kernel

/-- C69 fails for a rename to a name that is in use: the function is shown with one block less. -/
theorem C69_refuted_taken :
    (match rename debugEnv (serverWith [] c!"u" c!"define void @f() {\na:\n br b\nb:\n return\n}\n") c!"u" ⟨1, 0⟩ c!"b" with | .ok (.ok e) => some e | _ => none) =
      some [(c!"u", [⟨⟨⟨1, 0⟩, ⟨1, 1⟩⟩, c!"b"⟩])] ∧
    (shownFor c!"define void @f() {\na:\n br b\nb:\n return\n}\n" c!"@f").1.head? = some (0, 5, c!"2 basic blocks") ∧
    (shownFor c!"define void @f() {\nb:\n br b\nb:\n return\n}\n" c!"@f").1.head? = some (0, 5, c!"1 basic blocks") := by
  decide +kernel

/-- C69 fails for a label that is shifted to the name of a type: the function disappears. -/
theorem C69_refuted_keyword :
    (match rename debugEnv (serverWith [] c!"u" c!"define void @f() {\nint7:\n return\n}\n") c!"u" ⟨1, 0⟩ c!"+1" with | .ok (.ok e) => some e | _ => none) =
      some [(c!"u", [⟨⟨⟨1, 0⟩, ⟨1, 4⟩⟩, c!"int8"⟩])] ∧
    (shownFor c!"define void @f() {\nint7:\n return\n}\n" c!"@f").2.1 = [(c!"@f", 0, 3)] ∧
    (shownFor c!"define void @f() {\nint8:\n return\n}\n" c!"@f").2.1 = [] := by
  decide +kernel

end Examples
end HyperIR
