import Verif.Props.Layout

/-
C83: blank lines and lines of comments (wherever there is a line end already, except after a comma or a type name) decide only where the
answers point.
-/

namespace HyperIR
open Spec

section
variable [Unicode] {T T' uri : Str} {ts ts' : List Tok} {st st' : ServerState}

/-- C83: two ASCII texts without lexical errors that consist of the same lines of tokens, up to blank lines and lines of comments (and up to
layout within the lines): the same request about corresponding places gets the same answer, said about corresponding places. -/
theorem C83_requests (hl : Lexes 0 T ts) (hl' : Lexes 0 T' ts') (hs : SameTokens (lineTokens ts) (lineTokens ts'))
    (hv : SameValues T (lineTokens ts) T' (lineTokens ts')) (hp : Plain T) (hp' : Plain T') (hsize : T.length < 2 ^ 32) (hsize' : T'.length < 2 ^ 32)
    (hopen : Opened st uri T) (hopen' : Opened st' uri T') (hroots : st'.roots = st.roots) (hlazy : st'.lazyResolve = st.lazyResolve) (env : Env)
    {m m' : Msg} (hm : About uri m) (hask : AsksAlike (SameSpot T (lineTokens ts) T' (lineTokens ts')) m m') :
    Answers (AlikeReply (SameStart T (lineTokens ts) T' (lineTokens ts')) (SameStop T (lineTokens ts) T' (lineTokens ts')) uri) st st'
      (step env st m) (step env st' m') :=
  laid_requests hl hl' (reading_lines _) (reading_lines _) hs hv hp hp' hsize hsize' hopen hopen' hroots hlazy env hm hask

/-- C83: the problems reported for the two texts are the same ones, at corresponding places. -/
theorem C83_diagnostics {v v' : Int} {p p' : Publish} {st0 st1 st0' st1' : ServerState} {env : Env} (hl : Lexes 0 T ts) (hl' : Lexes 0 T' ts')
    (hs : SameTokens (lineTokens ts) (lineTokens ts')) (hv : SameValues T (lineTokens ts) T' (lineTokens ts')) (hp : Plain T) (hp' : Plain T')
    (hsize : T.length < 2 ^ 32) (hsize' : T'.length < 2 ^ 32) (hb : T = [] ∨ ¬ Blank T) (hb' : T' = [] ∨ ¬ Blank T')
    (h : onChange env st0 uri v T = .ok (st1, p)) (h' : onChange env st0' uri v' T' = .ok (st1', p')) :
    Matched (AlikeProblem (SameStart T (lineTokens ts) T' (lineTokens ts')) (SameStop T (lineTokens ts) T' (lineTokens ts')) uri) p.diagnostics p'.diagnostics :=
  laid_diagnostics hl hl' (reading_lines _) (reading_lines _) hs hv hp hp' hsize hsize' hb hb' h h'

end
/-! ### Concrete cases -/

section
attribute [local instance] asciiUnicode

/-- A document, and the same one with blank lines and lines of comments; both lack a bracket after `@k`, whose name counts as a use. -/
def denseText : Str := c!"!1 = {\"a\": 1}\ndeclare int8 @f() !1\ndefine int8 @g(int8 %x) {\nb1:\n int8 %2 = call int8 @f()\n return %2\n}\ndeclare int8 @k(\n@v = 1\n"
def airyText : Str := c!"!1 = {\"a\": 1}\n\n# the callee\ndeclare int8 @f() !1\n \t\r\ndefine int8 @g(int8 %x) {\n\nb1:\n\n\n int8 %2 = call int8 @f()\n#then\n return %2\n\n}\n\ndeclare int8 @k(\n\n@v = 1\n\n\n"

/-- The hypotheses hold for them. -/
example : Lexes 0 denseText (readOf denseText).tokens := lexes_readOf (by decide +kernel)
example : Lexes 0 airyText (readOf airyText).tokens := lexes_readOf (by decide +kernel)
example : SameTokens (lineTokens (readOf denseText).tokens) (lineTokens (readOf airyText).tokens) := by unfold SameTokens; decide +kernel
example : ¬ SameTokens (codeTokens (readOf denseText).tokens) (codeTokens (readOf airyText).tokens) := by unfold SameTokens; decide +kernel
example : SameValues denseText (lineTokens (readOf denseText).tokens) airyText (lineTokens (readOf airyText).tokens) := sameValues_of (by decide +kernel)
example : Plain denseText ∧ Plain airyText := by unfold Plain; decide +kernel
example : denseText.length < 2 ^ 32 ∧ airyText.length < 2 ^ 32 ∧ (readOf denseText).stmts.length = 4 := by decide +kernel
example : Opened (serverWith [workspace] c!"u" denseText) c!"u" denseText := serverWith_opened (by decide +kernel)
example : Opened (serverWith [workspace] c!"u" airyText) c!"u" airyText := serverWith_opened (by decide +kernel)

/-- The declaration of `@f`, seen from the call. -/
example : gotoDeclaration debugEnv (serverWith [workspace] c!"u" denseText) c!"u" ⟨4, 22⟩ =
      .ok (some [{ origin := ⟨⟨4, 21⟩, ⟨4, 23⟩⟩, target := { uri := c!"u", range := ⟨⟨1, 13⟩, ⟨1, 15⟩⟩ } }]) ∧
    gotoDeclaration debugEnv (serverWith [workspace] c!"u" airyText) c!"u" ⟨10, 22⟩ =
      .ok (some [{ origin := ⟨⟨10, 21⟩, ⟨10, 23⟩⟩, target := { uri := c!"u", range := ⟨⟨3, 13⟩, ⟨3, 15⟩⟩ } }]) := by decide +kernel

/-- The missing bracket is reported at the end of its line, the undefined name where it is. -/
example : (reportOf denseText).map (·.range) = [⟨⟨7, 16⟩, ⟨8, 0⟩⟩, ⟨⟨7, 13⟩, ⟨7, 15⟩⟩] ∧ (reportOf airyText).map (·.range) = [⟨⟨16, 16⟩, ⟨17, 0⟩⟩, ⟨⟨16, 13⟩, ⟨16, 15⟩⟩] ∧
    (reportOf airyText).map (·.message) = (reportOf denseText).map (·.message) := by decide +kernel

/-- After a comma an instruction may go on in the next line, but not in the one after it: blank lines count there. -/
theorem C83_refuted_open : ∃ a b : Str, Plain (a ++ c!"\n" ++ b) ∧ reportOf (a ++ c!"\n" ++ b) = [] ∧ reportOf (a ++ c!"\n\n" ++ b) ≠ [] :=
  ⟨c!"define void @f() {\nsaddbr 1,", c!"2, cont=x, overflow=x\nx:\nreturn\n}\n", by unfold Plain; decide +kernel, by decide +kernel, by decide +kernel⟩

end
end HyperIR
