import Verif.Proofs.InsertLines

/-
C84: lines of blanks and comments, inserted below a complete line, move down what is below them and change nothing else.
-/

namespace HyperIR
open Spec

section
variable [Unicode] {A L B uri : Str} {n m : Nat} {ts l r : List Tok} {sp : Span} {st st' : ServerState}

/-- C84: the document `A ++ B` is cut behind a line end (at the start of line `m`) that is not preceded by a comma or a type name; `n` lines
`L` of blanks and comments are inserted there.  The same request about the same place (which is `n` lines further down if it is at or below
the inserted lines) gets the same answer about the same places. -/
theorem C84_requests (hl : Lexes 0 (A ++ B) ts) (hcut : ts = l ++ ((.newline, sp) : Tok) :: r) (hstop : sp.stop = A.length) (hcomplete : Complete l)
    (hL : CommentBlock n L) (hcr : ∀ t ∈ ts, ¬ InCrLf (A ++ B) t.2.start) (hp : Plain (A ++ B)) (hsize : (A ++ L ++ B).length < 2 ^ 32)
    (hm : LspOffset (A ++ B) ⟨m, 0⟩ A.length) (hopen : Opened st uri (A ++ B)) (hopen' : Opened st' uri (A ++ L ++ B)) (hroots : st'.roots = st.roots)
    (hlazy : st'.lazyResolve = st.lazyResolve) (env : Env) {q q' : Msg} (hq : About uri q)
    (hask : AsksAlike (fun p p' => (∃ off, LspOffset (A ++ B) p off) ∧ p' = lowerFrom m n p) q q') :
    Answers (AlikeReply (fun p p' => p' = lowerFrom m n p) (StopFrom m n) uri) st st' (step env st q) (step env st' q') := by
  have h : Inserted A L B n ts l r sp := ⟨hl, hcut, hstop, hcomplete, hL⟩
  have hsize0 : (A ++ B).length < 2 ^ 32 := by simp only [List.length_append] at hsize ⊢; omega
  obtain ⟨ts', h1, h2⟩ := h.after
  have hs := Inserted.sameTokens (L := L) (l := l) (sp := sp) (r := r)
  have hv := h.sameValues
  rw [← h.lines, ← h2] at hs hv
  refine answers_mono (fun _ _ hr => Spec.AlikeReply.mono ?_ ?_ hr)
    (C83_requests hl h1 hs hv hp (h.plain hp) hsize0 hsize hopen hopen' hroots hlazy env hq (Spec.AsksAlike.mono ?_ hask))
  · intro p p' hpp
    rw [h.lines, h2] at hpp
    exact h.start hp hsize hm hcr hpp
  · intro p p' hpp
    rw [h.lines, h2] at hpp
    exact h.stops hp hsize hm hpp
  · rintro p p' ⟨⟨off, ho⟩, rfl⟩
    rw [h.lines, h2]
    exact h.spot hp hsize hm ho

/-- C84: the problems reported are the same ones, at the same places. -/
theorem C84_diagnostics {v v' : Int} {p p' : Publish} {st0 st1 st0' st1' : ServerState} {env : Env} (hl : Lexes 0 (A ++ B) ts)
    (hcut : ts = l ++ ((.newline, sp) : Tok) :: r) (hstop : sp.stop = A.length) (hcomplete : Complete l) (hL : CommentBlock n L)
    (hcr : ∀ t ∈ ts, ¬ InCrLf (A ++ B) t.2.start) (hp : Plain (A ++ B)) (hsize : (A ++ L ++ B).length < 2 ^ 32)
    (hm : LspOffset (A ++ B) ⟨m, 0⟩ A.length) (h0 : onChange env st0 uri v (A ++ B) = .ok (st1, p))
    (h0' : onChange env st0' uri v' (A ++ L ++ B) = .ok (st1', p')) :
    Matched (AlikeProblem (fun p p' => p' = lowerFrom m n p) (StopFrom m n) uri) p.diagnostics p'.diagnostics := by
  have h : Inserted A L B n ts l r sp := ⟨hl, hcut, hstop, hcomplete, hL⟩
  have hsize0 : (A ++ B).length < 2 ^ 32 := by simp only [List.length_append] at hsize ⊢; omega
  obtain ⟨ts', h1, h2⟩ := h.after
  have hs := Inserted.sameTokens (L := L) (l := l) (sp := sp) (r := r)
  have hv := h.sameValues
  rw [← h.lines, ← h2] at hs hv
  obtain ⟨_, _, hA, hne⟩ := h.parts
  have hb : ∀ X, ¬ Blank (A ++ X) := by
    intro X hb
    rcases hA with rfl | ⟨y, rfl⟩
    · exact hne rfl
    · rcases hb '\n' (by simp) with h | h <;> exact absurd h (by decide)
  refine Spec.Matched.mono (fun _ _ hr => Spec.AlikeProblem.mono ?_ ?_ hr)
    (C83_diagnostics hl h1 hs hv hp (h.plain hp) hsize0 hsize (.inr (hb B)) (.inr (by rw [List.append_assoc]; exact hb _)) h0 h0')
  · intro p p' hpp
    rw [h.lines, h2] at hpp
    exact h.start hp hsize hm hcr hpp
  · intro p p' hpp
    rw [h.lines, h2] at hpp
    exact h.stops hp hsize hm hpp

end

/-! ### Concrete cases -/

section
attribute [local instance] asciiUnicode

/-- A function with an undefined label and a call in it, cut below its first line. -/
def aboveText : Str := c!"declare int8 @f()\ndefine int8 @g() {\n"
def betweenText : Str := c!"\n \t# the body\n\r\n"
def belowText : Str := c!"b1:\n br b2\n int8 %2 = call int8 @f()\n return %2\n}\n"

/-- The hypotheses hold for them. -/
def cutTokens : List Tok := (readOf (aboveText ++ belowText)).tokens
example : Lexes 0 (aboveText ++ belowText) cutTokens := lexes_readOf (by decide +kernel)
example : cutTokens = cutTokens.take 12 ++ ((.newline, ⟨36, 37⟩) : Tok) :: cutTokens.drop 13 ∧ aboveText.length = 37 := by decide +kernel
example : Complete (cutTokens.take 12) := by
  have h : ((cutTokens.take 12).filter fun t => decide (t.1 ≠ .comment ∧ t.1 ≠ .newline)).getLast? = some (.punct '{', ⟨35, 36⟩) := by decide +kernel
  intro t ht
  rw [h] at ht
  cases ht
  rfl
theorem betweenText_block : CommentBlock 3 betweenText :=
  .line (b := []) (c := []) (eol := ['\n']) (by simp [Blank]) (.inl rfl) (.inl rfl) <|
  .line (b := [' ', '\t']) (c := c!"# the body") (eol := ['\n']) (by simp [Blank]) (.inr ⟨c!" the body", rfl, by decide, by decide⟩) (.inl rfl) <|
  .line (b := []) (c := []) (eol := ['\r', '\n']) (l := []) (by simp [Blank]) (.inl rfl) (.inr rfl) .nil
example : ∀ t ∈ cutTokens, ¬ InCrLf (aboveText ++ belowText) t.2.start := by
  rintro t _ ⟨a, b, h, _⟩
  have hn : '\r' ∉ aboveText ++ belowText := by decide +kernel
  exact hn (by rw [h]; simp)
example : Plain (aboveText ++ belowText) ∧ (aboveText ++ betweenText ++ belowText).length < 2 ^ 32 := by unfold Plain; decide +kernel
example : LspOffset (aboveText ++ belowText) ⟨2, 0⟩ aboveText.length :=
  ⟨37, c!"b1:", .later (content := c!"declare int8 @f()") (eol := ['\n']) (start := 19) (by decide) (.inl rfl) (by simp)
    (.later (content := c!"define int8 @g() {") (eol := ['\n']) (start := 0) (by decide) (.inl rfl) (by simp)
      (.here (content := c!"b1:") (tail := c!"\n br b2\n int8 %2 = call int8 @f()\n return %2\n}\n") (by decide) (by intro c cs h; cases h; exact .inl rfl))),
    by decide, rfl⟩
example : Opened (serverWith [workspace] c!"u" (aboveText ++ belowText)) c!"u" (aboveText ++ belowText) := serverWith_opened (by decide +kernel)
example : Opened (serverWith [workspace] c!"u" (aboveText ++ betweenText ++ belowText)) c!"u" (aboveText ++ betweenText ++ belowText) :=
  serverWith_opened (by decide +kernel)

/-- The references of `@f`, seen from the call: the call is three lines further down, the declaration where it was. -/
example : references debugEnv (serverWith [workspace] c!"u" (aboveText ++ belowText)) c!"u" ⟨4, 22⟩ =
      .ok (some [{ uri := c!"u", range := ⟨⟨4, 21⟩, ⟨4, 23⟩⟩ }]) ∧
    references debugEnv (serverWith [workspace] c!"u" (aboveText ++ betweenText ++ belowText)) c!"u" ⟨7, 22⟩ =
      .ok (some [{ uri := c!"u", range := ⟨⟨7, 21⟩, ⟨7, 23⟩⟩ }]) := by decide +kernel
example : gotoDeclaration debugEnv (serverWith [workspace] c!"u" (aboveText ++ betweenText ++ belowText)) c!"u" ⟨7, 22⟩ =
    .ok (some [{ origin := ⟨⟨7, 21⟩, ⟨7, 23⟩⟩, target := { uri := c!"u", range := ⟨⟨0, 13⟩, ⟨0, 15⟩⟩ } }]) := by decide +kernel

/-- The undefined label is reported three lines further down. -/
example : (reportOf (aboveText ++ belowText)).map (·.range) = [⟨⟨3, 4⟩, ⟨3, 6⟩⟩] ∧
    (reportOf (aboveText ++ betweenText ++ belowText)).map (·.range) = [⟨⟨6, 4⟩, ⟨6, 6⟩⟩] := by decide +kernel

end
end HyperIR
