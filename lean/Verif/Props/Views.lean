import Verif.Props.Instances
import Verif.Proofs.KeptViews

/-! C89: renames and shifts keep the lenses, the highlighting and the hints, but for names. -/

namespace HyperIR
open Spec

section
variable [Unicode] {env : Env} {st : ServerState} {uri text : Str} {res : ParserResult}

theorem views_kept {G : Renaming} {R : SymbolOccurrence → Str → Prop} {text' : Str} {res' : ParserResult} (hG : Carried G text text' res res')
    (hN : Named res R G) (hm : Keeps res res' R G.occ) (h : parseFromStr text = .ok res) (h' : parseFromStr text' = .ok res') (hsize : text.length < 2 ^ 32)
    (hsize' : text'.length < 2 ^ 32) : ViewsKept text text' res R := by
  intro env st uri env' st' uri' hopen hopen'
  exact ⟨fun ls ls' hs hs' => lenses_kept hG hm h h' hsize hsize' hopen hopen' hs hs', highlights_kept hG hN h h' hsize hsize' hopen hopen' env env',
    fun hun hfs hj hroots => hints_kept hG hN hm hun h h' hsize hsize' hopen hopen' hfs hj hroots⟩

/-- C89 for renames: after a rename to a name not yet used in its scope, the document has the same lenses, highlighting and hints, with
the new name.  What is missing: as for `C60_references_partial`. -/
theorem C89_rename_partial (hopen : Opened st uri text) (h : parseFromStr text = .ok res) (hsize : text.length < 2 ^ 32)
    {toks : List (Spanned Token)} {errs : List (LErr Char)} (ht : tokenize text = .ok (some toks, errs)) {p : Pos} {off : Nat} (hpos : LspOffset text p off)
    {o : SymbolOccurrence} (ho : Occurs res.tokens res.stmts o) (hc : Covers o.span off) (hp : PlainSymbol text res o) (hamb : ¬ Ambiguous res.stmts o.name) {req name : Str}
    (hreq : ¬ Relative req) (hname : NewName o.symbolKind req name) (hback : ReadsBack o.symbolKind name) (hplain : Plain name)
    (hfresh : Fresh res o name)
    (hbare : ∀ o', Occurs res.tokens res.stmts o' → SameSymbol o' o → Bare o') :
    ∃ edits text', rename env st uri p req = .ok (.ok [(uri, edits)]) ∧ Applied text edits text' ∧ (∀ t, Applied text edits t → t = text') ∧
      (text'.length < 2 ^ 32 → ViewsKept text text' res (fun o' v => SameSymbol o' o ∧ v = name)) := by
  obtain ⟨edits, text', errs', f, res', h1, h2, h3, h4, hts, h5, h6, h7, h8, _, hG⟩ :=
    rename_core (env := env) hopen h hsize ht hpos ho hc hp hamb hreq hname hback hplain hbare
  obtain ⟨doc, _, _, _, hix⟩ := opened_inv hopen h
  rw [← hts] at h7
  have hN : Named res (fun o' v => SameSymbol o' o ∧ v = name) (renG res o name f) := by
    intro t ht v hv
    rw [renG_ren h ht] at hv
    have hk := (renOf_token h ht hv).2.1
    obtain ⟨rfl, o', h1, h2, h3⟩ := renOf_some hv
    refine ⟨o', h1, ⟨h2, rfl⟩, ?_⟩
    rw [h2.1, h2.2.2, h3, ← hk]
  exact ⟨edits, text', h1, h2, h3, fun hsize' => views_kept hG hN (rename_keeps h hix hamb hfresh h6 h7 h8) h h6 hsize hsize'⟩

/-- C89 for shifts.  What is missing: as for `C66_references_partial`. -/
theorem C89_shift_partial (hopen : Opened st uri text) (h : parseFromStr text = .ok res) (hsize : text.length < 2 ^ 32)
    {toks : List (Spanned Token)} {errs : List (LErr Char)} (ht : tokenize text = .ok (some toks, errs)) {p : Pos} {off : Nat} (hpos : LspOffset text p off)
    {o : SymbolOccurrence} (ho : Occurs res.tokens res.stmts o) (hc : Covers o.span off) (hp : PlainScope text res o) (hvis : ¬ Shadowed res.stmts o) {req : Str} {k : Int}
    (hk : ShiftBy req k) {pre : Str} {start : Nat} (hn : Numbered o.name pre start) (hsafe : ShiftSafe res o start k) :
    ∃ edits text', rename env st uri p req = .ok (.ok [(uri, edits)]) ∧ Applied text edits text' ∧ (∀ t, Applied text edits t → t = text') ∧
      (text'.length < 2 ^ 32 → ViewsKept text text' res (Shifted o start k)) := by
  obtain ⟨edits, he, hed⟩ := C30_shift_partial (env := env) hopen h hsize hpos ho hc hp hvis hk hn hsafe.fits
  obtain ⟨ix, text', errs', f, res', hix, h2, h3, h4, h5, h6, h7, h8, _, hG⟩ := shift_core hopen h hsize ht ho hp (shift_plan h hsafe) hed
  have hN : Named res (Shifted o start k) (renM (shift_plan h hsafe) f) := fun t _ v hv => renBy_some hv
  exact ⟨edits, text', he, h2, h3, fun hsize' => views_kept hG hN (shift_keeps h hix hsafe h6 h7 h8) h h6 hsize hsize'⟩

end

/-! ### Examples and refutations -/

namespace Instances
attribute [local instance] asciiUnicode

/-- `C89_rename_partial`. -/
example : ∃ edits text' res, rename debugEnv (srv renErr) c!"u" ⟨2, 0⟩ c!"y2" = .ok (.ok [(c!"u", edits)]) ∧ Applied renErr edits text' ∧
    parseFromStr renErr = .ok res ∧ (text'.length < 2 ^ 32 → ViewsKept renErr text' res (fun o' v => SameSymbol o' renLabel ∧ v = c!"y2")) := by
  obtain ⟨res, toks, errs, h1, h2, _, h3, h4, h5, h6, h7⟩ := renErr_facts
  obtain ⟨edits, text', a1, a2, a3, a4⟩ := C89_rename_partial (env := debugEnv) openErr h1 sizeErr h2 posErr h3 covErr h7 h4 notRelative newName readsBack
    (by decide) h5 h6
  exact ⟨edits, text', res, a1, a2, h1, a4⟩

/-- `C89_shift_partial`. -/
example : ∃ edits text' res, rename debugEnv (srv renText) c!"u" ⟨1, 22⟩ c!"+2" = .ok (.ok [(c!"u", edits)]) ∧
    Applied renText edits text' ∧ parseFromStr renText = .ok res ∧ (text'.length < 2 ^ 32 → ViewsKept renText text' res (Shifted paramOcc 1 2)) := by
  obtain ⟨res, toks, h1, h2, h3, h4, h5, h6⟩ := renText_safe
  obtain ⟨edits, text', e1, e2, _, e3⟩ := C89_shift_partial (env := debugEnv) openRen h1 sizeRen h2 paramOcc_pos h3
    covPar (fun _ _ _ => Spec.Plain.to (by decide +kernel) _) (visible_of_clear h3 h4) plusTwo h5 h6
  exact ⟨edits, text', res, e1, e2, h1, e3⟩

/-- What a server shows for a text: lines and names of the lenses, decoded highlights, and lines and texts of the hints. -/
def viewsOf (text : Str) : List (Nat × List Str) × List Highlight × List (Nat × List Str) :=
  let st := serverWith [workspace] c!"u" text
  (((codeLens hintEnv st c!"u").getD []).map (fun l => (l.range.start.line, l.arguments.map fun a => match a with | .str s => s | _ => [])),
   (match semanticTokensFull hintEnv st c!"u" with | .ok (some l) => decode ⟨0, 0⟩ l | _ => []),
   (match inlayHint hintEnv st c!"u" with | .ok (some l) => l.map (fun h => (h.position.line, h.label.map LabelPart.value)) | _ => []))

/-- A function with a lens, a branch and a backtrace. -/
def viewText : Str := c!"define void @f() {\na:\n br a !1\n}\n!1 = {\"backtrace\": 0}\n"

set_option synthInstance.maxSize 2000 in
set_option synthInstance.maxHeartbeats 200000 in
/-- A server that has `viewText` open and renames `!1` to `!19`: the views before and after. -/
example : (match rename debugEnv (srv viewText) c!"u" ⟨2, 6⟩ c!"!19" with | .ok (.ok e) => some e | _ => none) =
      some [(c!"u", [⟨⟨⟨4, 0⟩, ⟨4, 2⟩⟩, c!"!19"⟩, ⟨⟨⟨2, 6⟩, ⟨2, 8⟩⟩, c!"!19"⟩])] ∧
    viewsOf viewText = ([(0, [c!"u", c!"@f"])], [⟨⟨0, 0⟩, 6, 5⟩, ⟨⟨0, 7⟩, 4, 1⟩, ⟨⟨0, 12⟩, 2, 2⟩, ⟨⟨4, 6⟩, 11, 3⟩, ⟨⟨4, 19⟩, 1, 4⟩],
      [(1, [c!"incoming: ", c!"a"]), (2, [c!"X::Translator::consume[abi]", c!", ", c!"Full backtrace"]), (3, [c!"@f"])]) ∧
    viewsOf c!"define void @f() {\na:\n br a !19\n}\n!19 = {\"backtrace\": 0}\n" =
      ([(0, [c!"u", c!"@f"])], [⟨⟨0, 0⟩, 6, 5⟩, ⟨⟨0, 7⟩, 4, 1⟩, ⟨⟨0, 12⟩, 2, 2⟩, ⟨⟨4, 7⟩, 11, 3⟩, ⟨⟨4, 20⟩, 1, 4⟩],
      [(1, [c!"incoming: ", c!"a"]), (2, [c!"X::Translator::consume[abi]", c!", ", c!"Full backtrace"]), (3, [c!"@f"])]) := by
  decide +kernel

/-- `AnnotationsUntouched` holds for all renames in `viewText`: its annotation contains no names. -/
example (R : SymbolOccurrence → Str → Prop) : ∃ res, parseFromStr viewText = .ok res ∧ (∃ n d, .dbgAnnotation n d ∈ res.stmts ∧ d ≠ []) ∧
    AnnotationsUntouched res R := by
  generalize h : parseFromStr viewText = r
  have key : (match parseFromStr viewText with
    | .ok res => (res.stmts.any fun s => match s with | .dbgAnnotation _ d => decide (d ≠ []) | _ => false) &&
        res.stmts.all fun s => match s with
          | .dbgAnnotation _ d => (allOccs res.tokens res.stmts).all fun o => match d.head?, d.getLast? with
            | some f, some l => decide (o.span.stop ≤ f.2.start ∨ l.2.stop ≤ o.span.start)
            | _, _ => true
          | _ => true
    | _ => false) = true := by decide +kernel
  rw [h] at key
  cases r with
  | panic => cases key
  | ok res =>
    simp only [Bool.and_eq_true] at key
    obtain ⟨k1, k2⟩ := key
    refine ⟨res, rfl, ?_, ?_⟩
    · obtain ⟨s, hs, hd⟩ := List.any_eq_true.mp k1
      cases s with
      | dbgAnnotation n d => exact ⟨n, d, hs, of_decide_eq_true hd⟩
      | _ => cases hd
    · intro n d f l hs hf hl o v ho _
      have := List.all_eq_true.mp (List.all_eq_true.mp k2 _ hs) o (occurs_iff.mp ho)
      simp only [hf, hl] at this
      exact of_decide_eq_true this

/-- C89 fails for a rename to a name that is in use: the lenses of both functions disappear. -/
theorem C89_refuted_taken :
    (match rename debugEnv (srv c!"define void @f() {\n}\ndefine void @g() {\n}\n") c!"u" ⟨0, 12⟩ c!"@g" with | .ok (.ok e) => some e | _ => none) =
      some [(c!"u", [⟨⟨⟨0, 12⟩, ⟨0, 14⟩⟩, c!"@g"⟩])] ∧
    (viewsOf c!"define void @f() {\n}\ndefine void @g() {\n}\n").1 = [(0, [c!"u", c!"@f"]), (2, [c!"u", c!"@g"])] ∧
    (viewsOf c!"define void @g() {\n}\ndefine void @g() {\n}\n").1 = [] := by
  decide +kernel

end Instances
end HyperIR
