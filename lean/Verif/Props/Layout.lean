import Verif.Proofs.LaidDocs

/-
C82: the layout of the code (blanks between tokens, comments, the style of the line ends) decides only where the answers point.
-/

namespace HyperIR
open Spec

section
variable [Unicode] {T T' uri : Str} {ts ts' : List Tok} {st st' : ServerState}

/-- C82: two ASCII texts without lexical errors that consist of the same tokens (comments aside) in another layout: the same request about
corresponding places gets the same answer, said about corresponding places. -/
theorem C82_requests (hl : Lexes 0 T ts) (hl' : Lexes 0 T' ts') (hs : SameTokens (codeTokens ts) (codeTokens ts'))
    (hv : SameValues T (codeTokens ts) T' (codeTokens ts')) (hp : Plain T) (hp' : Plain T') (hsize : T.length < 2 ^ 32) (hsize' : T'.length < 2 ^ 32)
    (hopen : Opened st uri T) (hopen' : Opened st' uri T') (hroots : st'.roots = st.roots) (hlazy : st'.lazyResolve = st.lazyResolve) (env : Env)
    {m m' : Msg} (hm : About uri m) (hask : AsksAlike (SameSpot T (codeTokens ts) T' (codeTokens ts')) m m') :
    Answers (AlikeReply (SameStart T (codeTokens ts) T' (codeTokens ts')) (SameStop T (codeTokens ts) T' (codeTokens ts')) uri) st st'
      (step env st m) (step env st' m') :=
  laid_requests hl hl' (reading_code _) (reading_code _) hs hv hp hp' hsize hsize' hopen hopen' hroots hlazy env hm hask

/-- C82: the problems reported for the two texts are the same ones, at corresponding places. -/
theorem C82_diagnostics {v v' : Int} {p p' : Publish} {st0 st1 st0' st1' : ServerState} {env : Env} (hl : Lexes 0 T ts) (hl' : Lexes 0 T' ts')
    (hs : SameTokens (codeTokens ts) (codeTokens ts')) (hv : SameValues T (codeTokens ts) T' (codeTokens ts')) (hp : Plain T) (hp' : Plain T')
    (hsize : T.length < 2 ^ 32) (hsize' : T'.length < 2 ^ 32) (hb : T = [] ∨ ¬ Blank T) (hb' : T' = [] ∨ ¬ Blank T')
    (h : onChange env st0 uri v T = .ok (st1, p)) (h' : onChange env st0' uri v' T' = .ok (st1', p')) :
    Matched (AlikeProblem (SameStart T (codeTokens ts) T' (codeTokens ts')) (SameStop T (codeTokens ts) T' (codeTokens ts')) uri) p.diagnostics p'.diagnostics :=
  laid_diagnostics hl hl' (reading_code _) (reading_code _) hs hv hp hp' hsize hsize' hb hb' h h'

end
/-! ### Concrete cases -/

section
attribute [local instance] asciiUnicode

/-- A document, and the same one in another layout. -/
def tidyText : Str := c!"!1 = {\"a\": 1}\ndeclare int8 @f() !1\ndefine int8 @g(int8 %x) {\nb1:\n int8 %2 = call int8 @f()\n call void @h(ptr \"a#b\")\n return %2\n}\n"
def crowdedText : Str := c!"\t!1={\"a\": 1}# note\r\ndeclare int8@f()!1\n  define\tint8 @g( int8 %x ){ #@h\nb1 :\nint8%2=call int8@f()   \n\tcall\tvoid @h ( ptr\"a#b\" )#\r\n    return %2\n}\n # end"

theorem lexes_readOf {T : Str} (h : tokenize T = .ok (some (readOf T).tokens, [])) : Lexes 0 T (readOf T).tokens := lexesErr_lexes (tokenize_sound h) rfl

/-- A way to check `SameValues`. -/
def valuesAgree (T : Str) (c : List Tok) (T' : Str) (c' : List Tok) : Bool :=
  (List.range c.length).all fun i => (List.range c.length).all fun j =>
    (match c[i - 2]? with | some (.debugRef _, _) => false | _ => true) || (match c[i - 1]? with | some (.punct '=', _) => false | _ => true) ||
    ((List.range (j + 1)).any fun m => decide (i ≤ m) && (match c[m]? with | some (.newline, _) => true | _ => false)) ||
    (match c[i]?, c[j]?, c'[i]?, c'[j]? with
      | some a, some b, some a', some b' => decide ((T.drop a.2.start).take (b.2.stop - a.2.start) = (T'.drop a'.2.start).take (b'.2.stop - a'.2.start))
      | _, _, _, _ => true)

theorem sameValues_of {T T' : Str} {c c' : List Tok} (h : valuesAgree T c T' c' = true) : SameValues T c T' c' := by
  rintro i j a b a' b' ⟨k, rfl, hij, ⟨n, hn⟩, he, hl⟩ h1 h2 h3 h4
  have := List.all_eq_true.mp (List.all_eq_true.mp h (k + 2) (List.mem_range.mpr (List.getElem?_eq_some_iff.mp h1).1)) j
    (List.mem_range.mpr (List.getElem?_eq_some_iff.mp h2).1)
  simp only [Bool.or_eq_true] at this
  rcases this with ((h5 | h5) | h5) | h5
  · cases hk : c[k]? with
    | none => rw [hk] at hn; cases hn
    | some x =>
      obtain ⟨t, sp⟩ := x
      rw [hk] at hn
      simp only [Option.map_some, Option.some.injEq] at hn
      subst hn
      rw [show k + 2 - 2 = k from rfl, hk] at h5
      cases h5
  · cases hk : c[k + 1]? with
    | none => rw [hk] at he; cases he
    | some x =>
      obtain ⟨t, sp⟩ := x
      rw [hk] at he
      simp only [Option.map_some, Option.some.injEq] at he
      subst he
      rw [show k + 2 - 1 = k + 1 from rfl, hk] at h5
      cases h5
  · obtain ⟨m, m1, m2⟩ := List.any_eq_true.mp h5
    have m1 := List.mem_range.mp m1
    simp only [Bool.and_eq_true, decide_eq_true_eq] at m2
    obtain ⟨m2, m3⟩ := m2
    obtain ⟨t, t1, t2⟩ := hl m m2 (by omega)
    rw [t1] at m3
    obtain ⟨t, sp⟩ := t
    cases t <;> first | exact absurd rfl t2 | cases m3
  · simp only [h1, h2, h3, h4] at h5
    exact of_decide_eq_true h5

/-- The hypotheses hold for them. -/
example : Lexes 0 tidyText (readOf tidyText).tokens := lexes_readOf (by decide +kernel)
example : Lexes 0 crowdedText (readOf crowdedText).tokens := lexes_readOf (by decide +kernel)
example : SameTokens (codeTokens (readOf tidyText).tokens) (codeTokens (readOf crowdedText).tokens) := by unfold SameTokens; decide +kernel
example : SameValues tidyText (codeTokens (readOf tidyText).tokens) crowdedText (codeTokens (readOf crowdedText).tokens) := sameValues_of (by decide +kernel)
example : Plain tidyText ∧ Plain crowdedText := by unfold Plain; decide +kernel
example : tidyText.length < 2 ^ 32 ∧ crowdedText.length < 2 ^ 32 ∧ (readOf tidyText).stmts.length = 3 := by decide +kernel
example : Opened (serverWith [workspace] c!"u" tidyText) c!"u" tidyText := serverWith_opened (by decide +kernel)
example : Opened (serverWith [workspace] c!"u" crowdedText) c!"u" crowdedText := serverWith_opened (by decide +kernel)

/-- The declarations of `@f`, seen from the call. -/
example : gotoDeclaration debugEnv (serverWith [workspace] c!"u" tidyText) c!"u" ⟨4, 22⟩ =
      .ok (some [{ origin := ⟨⟨4, 21⟩, ⟨4, 23⟩⟩, target := { uri := c!"u", range := ⟨⟨1, 13⟩, ⟨1, 15⟩⟩ } }]) ∧
    gotoDeclaration debugEnv (serverWith [workspace] c!"u" crowdedText) c!"u" ⟨4, 17⟩ =
      .ok (some [{ origin := ⟨⟨4, 16⟩, ⟨4, 18⟩⟩, target := { uri := c!"u", range := ⟨⟨1, 12⟩, ⟨1, 14⟩⟩ } }]) := by decide +kernel

/-- Those are corresponding places. -/
example : SameSpot tidyText (codeTokens (readOf tidyText).tokens) crowdedText (codeTokens (readOf crowdedText).tokens) ⟨1, 14⟩ ⟨1, 13⟩ := by
  refine ⟨14 + 14, 20 + 13, ⟨14, c!"declare int8 @f() !1", ?_, by decide, rfl⟩, ⟨20, c!"declare int8@f()!1", ?_, by decide, rfl⟩, ?_⟩
  · exact .later (content := c!"!1 = {\"a\": 1}") (eol := c!"\n") (by decide) (.inl rfl) (by simp)
      (.here (content := c!"declare int8 @f() !1") (tail := tidyText.drop 34) (by decide) (by intro c cs h; left; simp [tidyText] at h; exact h.1.symm))
  · exact .later (content := c!"\t!1={\"a\": 1}# note") (eol := c!"\r\n") (by decide) (.inr (.inl rfl)) (by simp)
      (.here (content := c!"declare int8@f()!1") (tail := crowdedText.drop 38) (by decide) (by intro c cs h; left; simp [crowdedText] at h; exact h.1.symm))
  · intro k a b ha hb
    have hk : ∀ k < (codeTokens (readOf tidyText).tokens).length, (match (codeTokens (readOf tidyText).tokens)[k]?, (codeTokens (readOf crowdedText).tokens)[k]? with
      | some a, some b => decide ((a.2.start ≤ 28 ↔ b.2.start ≤ 33) ∧ (a.2.stop ≤ 28 ↔ b.2.stop ≤ 33))
      | _, _ => true) = true := by decide +kernel
    have := hk k (List.getElem?_eq_some_iff.mp ha).1
    rw [ha, hb] at this
    exact of_decide_eq_true this

/-- `@h` is not defined, in either layout. -/
example : (reportOf tidyText).map (·.range) = [⟨⟨5, 11⟩, ⟨5, 13⟩⟩] ∧ (reportOf crowdedText).map (·.range) = [⟨⟨5, 11⟩, ⟨5, 13⟩⟩] := by decide +kernel

/-- Line ends are part of the code: with another one, a definition is not recognized. -/
theorem C82_refuted_line_ends : ∃ T T' : Str, Plain T ∧ Plain T' ∧
    ((readOf T).tokens.map Prod.fst).filter (fun t => decide (t ≠ .newline)) = ((readOf T').tokens.map Prod.fst).filter (fun t => decide (t ≠ .newline)) ∧
    reportOf T = [] ∧ reportOf T' ≠ [] :=
  ⟨c!"define int8 @a() {\n}\n", c!"define int8 @a()\n{\n}\n", by unfold Plain; decide +kernel, by unfold Plain; decide +kernel, by decide +kernel,
    by decide +kernel, by decide +kernel⟩

end
end HyperIR
