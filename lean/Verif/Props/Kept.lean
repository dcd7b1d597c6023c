import Verif.Props.ShiftText
import Verif.Proofs.Kept
import Verif.Spec.Layout

/- C68: renames and shifts change no diagnostics. -/

namespace HyperIR
open Spec

section
variable [Unicode] {env env1 env2 : Env} {st st1 st2 st3 st4 : ServerState} {uri uri1 uri2 text : Str} {res : ParserResult} {v1 v2 : Int}
  {pub1 pub2 : Publish}

/-- C68 for renames: the diagnostics of the document after a rename to a name not yet used in its scope are those from before, with the new
name.  What is missing: as for `C60_references_partial`, and labels with the name of a word that makes up instructions in a document with
statements that cannot be read. -/
theorem C68_rename_partial (hopen : Opened st uri text) (h : parseFromStr text = .ok res) (hsize : text.length < 2 ^ 32)
    {toks : List (Spanned Token)} {errs : List (LErr Char)} (ht : tokenize text = .ok (some toks, errs)) {p : Pos} {off : Nat} (hpos : LspOffset text p off)
    {o : SymbolOccurrence} (ho : Occurs res.tokens res.stmts o) (hc : Covers o.span off) (hp : PlainSymbol text res o) (hamb : ¬ Ambiguous res.stmts o.name) {req name : Str}
    (hreq : ¬ Relative req) (hname : NewName o.symbolKind req name) (hback : ReadsBack o.symbolKind name) (hplain : Plain name)
    (hlabel : (o.symbolKind = .label → PlainLabel o.name ∧ PlainLabel name) ∨ ∃ ss odd, Layout ss odd [] true (codeTokens res.tokens)) (hfresh : Fresh res o name)
    (hbare : ∀ o', Occurs res.tokens res.stmts o' → SameSymbol o' o → Bare o') :
    ∃ edits text', rename env st uri p req = .ok (.ok [(uri, edits)]) ∧ Applied text edits text' ∧ (∀ t, Applied text edits t → t = text') ∧
      (text'.length < 2 ^ 32 → ∀ env1 st1 uri1 v1 st2 pub1 env2 st3 uri2 v2 st4 pub2,
        onChange env1 st1 uri1 v1 text = .ok (st2, pub1) → onChange env2 st3 uri2 v2 text' = .ok (st4, pub2) →
        DiagnosticsKept res (fun o' v => SameSymbol o' o ∧ v = name) pub1.diagnostics pub2.diagnostics) := by
  have hkw : (o.symbolKind = .label → NotKeyword o.name ∧ NotKeyword name) ∨ ∃ ss odd, Layout ss odd [] true (codeTokens res.tokens) :=
    hlabel.imp_left fun hl hk => ⟨notKeyword_of_plain (hl hk).1, notKeyword_of_plain (hl hk).2⟩
  obtain ⟨edits, text', errs', f, res', h1, h2, h3, h4, hts, h5, h6, h7, h8, _, hG⟩ :=
    rename_core (env := env) hopen h hsize ht hpos ho hc hp hamb hreq hname hback hplain hbare
  obtain ⟨doc, _, _, _, hix⟩ := opened_inv hopen h
  rw [← hts] at h7
  refine ⟨edits, _, h1, h2, h3, ?_⟩
  intro hsize' env1 st1 uri1 v1 st2 pub1 env2 st3 uri2 v2 st4 pub2 hc1 hc2
  exact diagnostics_kept (hkw.imp_left renG_words) h h6 hG hsize hsize' (rename_keeps h hix hamb hfresh h6 h7 h8) hc1 hc2

/-- C68 for shifts: the diagnostics of the document after a shift are those from before, with the new names.  What is missing: as for
`C66_references_partial`. -/
theorem C68_shift_partial (hopen : Opened st uri text) (h : parseFromStr text = .ok res) (hsize : text.length < 2 ^ 32)
    {toks : List (Spanned Token)} {errs : List (LErr Char)} (ht : tokenize text = .ok (some toks, errs)) {p : Pos} {off : Nat} (hpos : LspOffset text p off)
    {o : SymbolOccurrence} (ho : Occurs res.tokens res.stmts o) (hc : Covers o.span off) (hp : PlainScope text res o) (hvis : ¬ Shadowed res.stmts o) {req : Str} {k : Int}
    (hk : ShiftBy req k) {pre : Str} {start : Nat} (hn : Numbered o.name pre start) (hsafe : ShiftSafe res o start k) :
    ∃ edits text', rename env st uri p req = .ok (.ok [(uri, edits)]) ∧ Applied text edits text' ∧ (∀ t, Applied text edits t → t = text') ∧
      (text'.length < 2 ^ 32 → ∀ env1 st1 uri1 v1 st2 pub1 env2 st3 uri2 v2 st4 pub2,
        onChange env1 st1 uri1 v1 text = .ok (st2, pub1) → onChange env2 st3 uri2 v2 text' = .ok (st4, pub2) →
        DiagnosticsKept res (Shifted o start k) pub1.diagnostics pub2.diagnostics) := by
  obtain ⟨edits, he, hed⟩ := C30_shift_partial (env := env) hopen h hsize hpos ho hc hp hvis hk hn hsafe.fits
  obtain ⟨ix, text', errs', f, res', hix, h2, h3, h4, h5, h6, h7, h8, _, hG⟩ := shift_core hopen h hsize ht ho hp (shift_plan h hsafe) hed
  refine ⟨edits, text', he, h2, h3, ?_⟩
  intro hsize' env1 st1 uri1 v1 st2 pub1 env2 st3 uri2 v2 st4 pub2 hc1 hc2
  exact diagnostics_kept (.inl (renM_words shift_words)) h h6 hG hsize hsize' (shift_keeps h hix hsafe h6 h7 h8) hc1 hc2

end

/-! ### Examples and refutations -/

section Examples
attribute [local instance] asciiUnicode

/-- The messages the server publishes for a text. -/
def messagesOf (text : Str) : List Str :=
  match onChange debugEnv {} c!"u" 1 text with
  | .ok (_, pub) => pub.diagnostics.map (·.message)
  | .panic => []

/-- A text with a diagnostic of each kind, before and after the shift of `@x1` by 11. -/
example : messagesOf c!"@x1 = @y\n@x1 = 2\n= =\ndefine void @f() {\nl:\n br\n}\n" =
      [c!"expected global name", c!"Failed to extract basic block references from `br` instruction",
       c!"Symbol `@x1` already defined previously", c!"Use of undefined symbol `@y`"] ∧
    messagesOf c!"@x12 = @y\n@x12 = 2\n= =\ndefine void @f() {\nl:\n br\n}\n" =
      [c!"expected global name", c!"Failed to extract basic block references from `br` instruction",
       c!"Symbol `@x12` already defined previously", c!"Use of undefined symbol `@y`"] := by decide +kernel

/-- The hypotheses of `C68_shift_partial` hold for `%v1` of `renText` and a shift by 2. -/
example : ∃ edits text' res, rename debugEnv (serverWith [] c!"u" renText) c!"u" ⟨1, 22⟩ c!"+2" = .ok (.ok [(c!"u", edits)]) ∧
    Applied renText edits text' ∧ parseFromStr renText = .ok res ∧
    (text'.length < 2 ^ 32 → ∀ env1 st1 uri1 v1 st2 pub1 env2 st3 uri2 v2 st4 pub2,
      onChange env1 st1 uri1 v1 renText = .ok (st2, pub1) → onChange env2 st3 uri2 v2 text' = .ok (st4, pub2) →
      DiagnosticsKept res (Shifted paramOcc 1 2) pub1.diagnostics pub2.diagnostics) := by
  obtain ⟨res, toks, h1, h2, h3, h4, h5, h6⟩ := renText_safe
  have hpos : LspOffset renText ⟨1, 22⟩ 29 := by
    refine ⟨7, c!"define void @f(int32 %v1) {", ?_, by decide, rfl⟩
    exact .later (content := c!"@a = 1") (eol := c!"\n") (by decide) (.inl rfl) (by simp)
      (.here (content := c!"define void @f(int32 %v1) {") (tail := renText.drop 34) (by decide) (by intro c cs h; left; simp [renText] at h; exact h.1.symm))
  have hk : ShiftBy c!"+2" 2 := ⟨c!"2", 2, parseNat_iff.mp (by decide +kernel), by decide, .inl ⟨rfl, rfl⟩⟩
  have hopen : Opened (serverWith [] c!"u" renText) c!"u" renText := serverWith_opened (by decide +kernel)
  obtain ⟨edits, text', e1, e2, _, e3⟩ := C68_shift_partial (env := debugEnv) hopen h1 (by decide +kernel) h2 hpos h3
    ⟨by decide, by decide⟩ (fun _ _ _ => Spec.Plain.to (by decide +kernel) _) (visible_of_clear h3 h4) hk h5 h6
  exact ⟨edits, text', res, e1, e2, h1, e3⟩

/-- C68 fails for a shift onto a name that is in use: `@a1` becomes `@a0`, which is defined already. -/
theorem C68_refuted_gap :
    (match rename debugEnv (serverWith [] c!"u" c!"@a0 = 1\n@a1 = 1\n") c!"u" ⟨1, 1⟩ c!"-1" with | .ok (.ok e) => some e | _ => none) =
      some [(c!"u", [⟨⟨⟨1, 0⟩, ⟨1, 3⟩⟩, c!"@a0"⟩])] ∧
    messagesOf c!"@a0 = 1\n@a1 = 1\n" = [] ∧ messagesOf c!"@a0 = 1\n@a0 = 1\n" = [c!"Symbol `@a0` already defined previously"] := by
  decide +kernel

/-- C68 fails for a label that is shifted to the name of a type: the function can no longer be read. -/
theorem C68_refuted_keyword :
    (match rename debugEnv (serverWith [] c!"u" c!"define void @f() {\nint7:\n return\n}\n") c!"u" ⟨1, 0⟩ c!"+1" with | .ok (.ok e) => some e | _ => none) =
      some [(c!"u", [⟨⟨⟨1, 0⟩, ⟨1, 4⟩⟩, c!"int8"⟩])] ∧
    messagesOf c!"define void @f() {\nint7:\n return\n}\n" = [] ∧ messagesOf c!"define void @f() {\nint8:\n return\n}\n" ≠ [] := by
  decide +kernel

/-- C68 fails for a name with unrecognizable text in front of it: the text is removed and no longer reported. -/
theorem C68_refuted_garbage :
    (match rename debugEnv (serverWith [] c!"u" c!"?@a = 5\n") c!"u" ⟨0, 2⟩ c!"@b" with | .ok (.ok e) => some e | _ => none) =
      some [(c!"u", [⟨⟨⟨0, 0⟩, ⟨0, 3⟩⟩, c!"@b"⟩])] ∧
    (messagesOf c!"?@a = 5\n").length = 1 ∧ messagesOf c!"@b = 5\n" = [] := by
  decide +kernel

/-- C68 fails for a rename to a name that is in use. -/
theorem C68_refuted_taken :
    (match rename debugEnv (serverWith [] c!"u" c!"@a = 1\n@b = 2\n") c!"u" ⟨0, 0⟩ c!"@b" with | .ok (.ok e) => some e | _ => none) =
      some [(c!"u", [⟨⟨⟨0, 0⟩, ⟨0, 2⟩⟩, c!"@b"⟩])] ∧
    messagesOf c!"@a = 1\n@b = 2\n" = [] ∧ messagesOf c!"@b = 1\n@b = 2\n" = [c!"Symbol `@b` already defined previously"] := by
  decide +kernel

end Examples
end HyperIR
