import Verif.Proofs.Compose
import Verif.Proofs.Flow
import Verif.Props.Parser

/-! C70: documents compose. -/

namespace HyperIR
open Spec

section
variable [Unicode]

theorem parseFromStr_readable {src : Str} {res : ParserResult} (h : parseFromStr src = .ok res)
    (hr : res.errors = [] ∨ res.stmts ≠ []) : ∃ te es, tokenize src = .ok (some res.tokens, te) ∧
      parseTokens (utf8Len src) res.tokens = .ok (some res.stmts, es) ∧
      res.errors = te.map (LErr.toSErr fun c => [c]) ++ es.map (LErr.toSErr Token.display) := by
  rcases parseFromStr_inv h with ⟨_, h1, h2⟩ | ⟨stmts, errs, te, h1, h2, h3, h4⟩
  · rcases hr with hr | hr
    · exact absurd hr h2
    · exact absurd h1 hr
  · cases stmts with
    | none =>
      exfalso
      rcases hr with hr | hr
      · rw [h4] at hr
        have := (List.append_eq_nil_iff.mp hr).2
        exact (parseTokens_none h2).1 (List.map_eq_nil_iff.mp this)
      · exact hr h3
    | some ss =>
      simp only [Option.getD_some] at h3
      rw [← h3] at h2
      exact ⟨te, errs, h1, h2, h4⟩

omit [Unicode] in
theorem each_append {α β : Type} {R : α → β → Prop} {a a' b b'} (h : Each R a b) (h' : Each R a' b') : Each R (a ++ a') (b ++ b') := by
  induction h with
  | nil => exact h'
  | cons h _ ih => exact .cons h ih

/-- The common part: the tokens of `A` are those of `tsA`, and the parser takes them as `ssA` when they stand in front of `B`. -/
theorem parse_append {A B : Str} {tsA : List Tok} {ssA : List Statement} {resB : ParserResult} (hA : tokenize A = .ok (some tsA, []))
    (hend : A = [] ∨ ∃ l, A = l ++ ['\n']) (hB : parseFromStr B = .ok resB) (hr : resB.errors = [] ∨ resB.stmts ≠ [])
    (hp : ∀ {eoi t es ss}, Many docItem eoi t es ss [] → ss.length = resB.stmts.length →
      Many docItem eoi ((tsA.filter fun t => decide (t.1 ≠ Token.comment)) ++ t) es (ssA ++ ss) []) :
    ∃ errors, parseFromStr (A ++ B) = .ok
        { tokens := tsA ++ resB.tokens.map (moved A.length)
          stmts := ssA ++ resB.stmts.map (movedStmt A.length)
          errors := errors } ∧ Each (MovedErr A B) resB.errors errors := by
  obtain ⟨te, es, h1, h2, h3⟩ := parseFromStr_readable hB hr
  have ht := tokenize_append hA hend h1
  have hm := hp (many_docItem_down (A := A) h1 (parseTokens_some h2)) (by simp)
  rw [← List.filter_append] at hm
  have hpt := parseTokens_of_many hm
  unfold parseFromStr
  rw [ht]
  simp only
  rw [hpt]
  refine ⟨_, rfl, ?_⟩
  rw [h3, List.map_map, List.map_map]
  refine each_append ?_ ?_
  · exact each_map _ _ fun e _ => toSErr_down A B e
  · exact each_map _ _ fun e _ => toSErr_move A B e

/-- C70: an error-free document that ends with a line feed (or is empty), followed by any document of which at least one statement
(or everything) is understood, is read as the two documents one after the other: the tokens and statements are those of the first and
those of the second, moved by the length of the first, and the errors are those of the second, moved likewise. -/
theorem C70_documents_compose {A B : Str} {resA resB : ParserResult} (hA : parseFromStr A = .ok resA) (heA : resA.errors = [])
    (hend : A = [] ∨ ∃ l, A = l ++ ['\n']) (hB : parseFromStr B = .ok resB) (hr : resB.errors = [] ∨ resB.stmts ≠ []) :
    ∃ errors, parseFromStr (A ++ B) = .ok
        { tokens := resA.tokens ++ resB.tokens.map (moved A.length)
          stmts := resA.stmts ++ resB.stmts.map (movedStmt A.length)
          errors := errors } ∧ Each (MovedErr A B) resB.errors errors := by
  obtain ⟨te, es, h1, h2, h3⟩ := parseFromStr_readable hA (.inl heA)
  rw [heA] at h3
  obtain ⟨h4, h5⟩ := List.append_eq_nil_iff.mp h3.symm
  cases List.map_eq_nil_iff.mp h4
  cases List.map_eq_nil_iff.mp h5
  refine parse_append h1 hend hB hr fun {eoi t es ss} h _ => many_docItem_two (parseTokens_some h2) ?_ h
  rcases hend with rfl | ⟨l, hl⟩
  · left
    rw [lexes_nil (lexesErr_lexes (tokenize_sound h1) rfl)]
    rfl
  · right
    obtain ⟨l', n, e⟩ := lexes_last (lexesErr_lexes (tokenize_sound h1) rfl) hl
    rw [e, List.filter_append]
    exact ⟨_, n, rfl⟩

omit [Unicode] in
theorem moved_errors {A B : Str} (hascii : Ascii A) {es errors : List SErr} (h : Each (MovedErr A B) es errors) :
    errors = es.map (movedErr A.length) := by
  induction h with
  | nil => rfl
  | @cons e e' _ _ h _ ih =>
    rw [List.map_cons, ← ih]
    congr 1
    obtain ⟨k1, k2, k3, k4, k5⟩ := h
    rw [utf8Len_ascii hascii] at k4 k5
    obtain ⟨sp, r, ex, fo⟩ := e'
    obtain ⟨st, en⟩ := sp
    simp only at k1 k2 k3 k4 k5
    unfold movedErr movedSpan
    simp only [SErr.mk.injEq, Span.mk.injEq]
    exact ⟨⟨by omega, by omega⟩, k1, k2, k3⟩

/-- For a first document in ASCII, everything moves by its length. -/
theorem C70_documents_compose_ascii {A B : Str} {resA resB : ParserResult} (hascii : Ascii A) (hA : parseFromStr A = .ok resA)
    (heA : resA.errors = []) (hend : A = [] ∨ ∃ l, A = l ++ ['\n']) (hB : parseFromStr B = .ok resB)
    (hr : resB.errors = [] ∨ resB.stmts ≠ []) :
    parseFromStr (A ++ B) = .ok
        { tokens := resA.tokens ++ resB.tokens.map (moved A.length)
          stmts := resA.stmts ++ resB.stmts.map (movedStmt A.length)
          errors := resB.errors.map (movedErr A.length) } := by
  obtain ⟨errors, h1, h2⟩ := C70_documents_compose hA heA hend hB hr
  rw [h1]
  rw [moved_errors hascii h2]

/-- C70: lines with only blanks and comments in front of a document just move it. -/
theorem C70_comment_lines {A B : Str} {resB : ParserResult} (hA : CommentLines A) (hB : parseFromStr B = .ok resB)
    (hr : resB.stmts ≠ []) :
    ∃ tokens errors, parseFromStr (A ++ B) = .ok
        { tokens := tokens ++ resB.tokens.map (moved A.length)
          stmts := resB.stmts.map (movedStmt A.length)
          errors := errors } ∧ (∀ t ∈ tokens, (t.1 = .newline ∨ t.1 = .comment) ∧ Inside A.length t.2) ∧
      Each (MovedErr A B) resB.errors errors := by
  obtain ⟨ts, h1, h2, h3⟩ := commentLines_lexes hA 0
  have h4 : tokenize A = .ok (some ts, []) := by
    obtain ⟨errs, e1, e2⟩ := tokenize_complete (lexes_lexesErr h1) (by
      rcases h3 with h3 | ⟨l, h3⟩
      · exact .inr h3
      · obtain ⟨l', n, e⟩ := lexes_last h1 h3
        left; rw [e]; simp)
    cases List.eq_nil_of_length_eq_zero e1
    exact e2
  obtain ⟨errors, h5, h6⟩ := parse_append (ssA := []) h4 h3 hB (.inr hr) fun {eoi t es ss} h hl => by
    obtain ⟨nls, t0, rfl, k1, k2⟩ := exists_newlines_split t
    have hss : ss ≠ [] := by
      rintro rfl
      exact hr (List.eq_nil_of_length_eq_zero hl.symm)
    rw [← List.append_assoc]
    refine (many_docItem_newlines ?_ k2 hss).mpr ((many_docItem_newlines k1 k2 hss).mp h)
    intro t ht
    rcases List.mem_append.mp ht with ht | ht
    · obtain ⟨ht, hc⟩ := List.mem_filter.mp ht
      rcases h2 t ht with h | h
      · exact h
      · simp [h] at hc
    · exact k1 t ht
  refine ⟨ts, errors, h5, fun t ht => ⟨h2 t ht, ?_⟩, h6⟩
  have := (lexesErr_spans (lexes_lexesErr h1)).1 t ht
  exact ⟨this.2.1, by omega⟩

end

/-! ### Concrete cases -/

section
attribute [local instance] asciiUnicode

def composeFirst : Str := c!"# head\n@g = int32 5\ndeclare void @h(int64 %b) !1\n!1 = \"a.cpp:3\"\n"
def composeSecond : Str := c!"??\ndefine void @f() {\nentry:\n  br entry\n}\n$ @v = int32 1\n"

/-- What is read (the analysis never panics, C01). -/
def readOf (text : Str) : ParserResult :=
  match parseFromStr text with
  | .ok r => r
  | .panic => ⟨[], [], []⟩

/-- The first document has no errors and three statements, the second one has errors and two statements. -/
theorem compose_facts : parseFromStr composeFirst = .ok (readOf composeFirst) ∧ parseFromStr composeSecond = .ok (readOf composeSecond) ∧
    (readOf composeFirst).errors = [] ∧ (readOf composeFirst).stmts.length = 3 ∧
    (readOf composeSecond).errors.length = 2 ∧ (readOf composeSecond).stmts.length = 2 ∧
    composeFirst = composeFirst.dropLast ++ ['\n'] := by decide +kernel

/-- Together they have the statements of both, and the errors of the second, 64 characters further down. -/
example : (readOf (composeFirst ++ composeSecond)).stmts.length = 5 ∧
    (readOf (composeFirst ++ composeSecond)).errors = (readOf composeSecond).errors.map (movedErr 64) ∧
    (readOf (composeFirst ++ composeSecond)).stmts.drop 3 = (readOf composeSecond).stmts.map (movedStmt 64) := by decide +kernel

/-- The line feed matters: without it, the second document continues the last line of the first. -/
theorem C70_needs_line_feed : ∃ A B : Str, parseFromStr A = .ok (readOf A) ∧ parseFromStr B = .ok (readOf B) ∧
    (readOf A).errors = [] ∧ (readOf B).errors = [] ∧ (readOf A).stmts.length = 1 ∧ (readOf B).stmts.length = 1 ∧
    parseFromStr (A ++ B) = .ok (readOf (A ++ B)) ∧ (readOf (A ++ B)).stmts.length = 1 :=
  ⟨c!"@g = int32 5", c!"@v = int32 1\n", by decide +kernel⟩

/-- A second document of which nothing is understood hides the first one as well. -/
theorem C70_needs_readable : ∃ A B : Str, parseFromStr A = .ok (readOf A) ∧ parseFromStr B = .ok (readOf B) ∧
    (readOf A).errors = [] ∧ A.getLast? = some '\n' ∧ (readOf A).stmts.length = 1 ∧ (readOf B).stmts = [] ∧
    parseFromStr (A ++ B) = .ok (readOf (A ++ B)) ∧ (readOf (A ++ B)).stmts = [] :=
  ⟨c!"@g = int32 5\n", c!"define\n", by decide +kernel⟩

/-- Two comment lines and an empty line. -/
example : CommentLines c!"# a\n  \n\t#b # c\r\n" := by
  refine .comment (b := []) (c := c!" a") (by intro c h; cases h) (by decide) ?_
  refine .blank (b := c!"  ") (by unfold Blank; decide) ?_
  exact .comment (b := c!"\t") (c := c!"b # c\r") (l := []) (by unfold Blank; decide) (by decide) .nil

end

end HyperIR
