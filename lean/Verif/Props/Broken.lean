import Verif.Proofs.Broken

/-! C88: text that cannot be read leaves the text below it alone. -/

namespace HyperIR
open Spec

section
variable [Unicode]

/-- C88: whole lines `X` with anything in them (no quote left open, the last line not ending with a comma), above an error-free document
`L` with at least one statement.  All tokens and statements of `L` are read as before, at their new places, and everything that is
reported lies in `X` or at most at the first token of `L`. -/
theorem C88_below {X L : Str} {tsX : List Tok} {resL : ParserResult} (hX : WholeLines X tsX) (hL : parseFromStr L = .ok resL)
    (heL : resL.errors = []) (hs : resL.stmts ≠ []) :
    ∃ stmtsX errors h, parseFromStr (X ++ L) = .ok
        { tokens := tsX ++ resL.tokens.map (moved X.length)
          stmts := stmtsX ++ resL.stmts.map (movedStmt X.length)
          errors := errors } ∧ firstToken resL.tokens = some h ∧
      ∀ e ∈ errors, e.span.start ≤ e.span.stop ∧ e.span.stop ≤ X.length + h.2.stop := by
  obtain ⟨S, EL, EP, h, h1, h2, h3, _⟩ := read_between hX hL heL hs
  exact ⟨S, EL ++ EP, h, h3, h1, h2⟩

omit [Unicode] in
theorem perm_errors {a b c d : List SErr} : ((a ++ c) ++ (b ++ d)).Perm ((a ++ b) ++ (c ++ d)) := by
  simp only [List.append_assoc]
  refine List.Perm.append_left a ?_
  rw [← List.append_assoc, ← List.append_assoc]
  exact List.perm_append_comm.append_right d

omit [Unicode] in
theorem moved_zero {α : Type} (x : Spanned α) : moved 0 x = x := rfl

/-- C88: a document that is free of errors from some line on (with at least one statement there), followed by any document of which at
least one statement (or everything) is understood, is read as the two documents one after the other; the errors are those of both. -/
theorem C88_settled {A B : Str} {resA resB : ParserResult} (hset : Settled A) (hA : parseFromStr A = .ok resA)
    (hB : parseFromStr B = .ok resB) (hr : resB.errors = [] ∨ resB.stmts ≠ []) :
    ∃ errorsB errors, parseFromStr (A ++ B) = .ok
        { tokens := resA.tokens ++ resB.tokens.map (moved A.length)
          stmts := resA.stmts ++ resB.stmts.map (movedStmt A.length)
          errors := errors } ∧ Each (MovedErr A B) resB.errors errorsB ∧ errors.Perm (resA.errors ++ errorsB) := by
  obtain ⟨X, tsX, L, resL, rfl, hX, hL, heL, hs, hend⟩ := hset
  have clean : X = [] → ∃ errorsB errors, parseFromStr ((X ++ L) ++ B) = .ok
        { tokens := resA.tokens ++ resB.tokens.map (moved (X ++ L).length)
          stmts := resA.stmts ++ resB.stmts.map (movedStmt (X ++ L).length)
          errors := errors } ∧ Each (MovedErr (X ++ L) B) resB.errors errorsB ∧ errors.Perm (resA.errors ++ errorsB) := by
    rintro rfl
    rw [List.nil_append] at hA ⊢
    rw [hL] at hA
    cases hA
    obtain ⟨errors, h1, h2⟩ := C70_documents_compose hL heL hend hB hr
    exact ⟨errors, errors, h1, h2, by rw [heL]; exact .refl _⟩
  rcases hs with hX0 | hs
  · exact clean hX0
  rcases hend with rfl | ⟨l, hl⟩
  · rw [show parseFromStr [] = .ok ⟨[], [], []⟩ from by rfl] at hL
    cases hL
    exact absurd rfl hs
  obtain ⟨S, EL, EP, h, _, _, h3, h4⟩ := read_between hX hL heL hs
  rw [hA] at h3
  cases h3
  obtain ⟨eL, eP, k1, k2⟩ := h4 l B resB hl hB hr
  exact ⟨_, _, k2, k1, perm_errors⟩

/-- C88: for a first document in ASCII, everything moves by its length. -/
theorem C88_settled_ascii {A B : Str} {resA resB : ParserResult} (hascii : Ascii A) (hset : Settled A) (hA : parseFromStr A = .ok resA)
    (hB : parseFromStr B = .ok resB) (hr : resB.errors = [] ∨ resB.stmts ≠ []) :
    ∃ errors, parseFromStr (A ++ B) = .ok
        { tokens := resA.tokens ++ resB.tokens.map (moved A.length)
          stmts := resA.stmts ++ resB.stmts.map (movedStmt A.length)
          errors := errors } ∧ errors.Perm (resA.errors ++ resB.errors.map (movedErr A.length)) := by
  obtain ⟨eB, errors, h1, h2, h3⟩ := C88_settled hset hA hB hr
  exact ⟨errors, h1, by rw [← moved_errors hascii h2]; exact h3⟩

/-- What is reported about a settled document lies inside it. -/
theorem settled_errors {A : Str} {resA : ParserResult} (hset : Settled A) (hA : parseFromStr A = .ok resA) :
    ∀ e ∈ resA.errors, e.span.start ≤ e.span.stop ∧ e.span.stop ≤ A.length := by
  obtain ⟨X, tsX, L, resL, rfl, hX, hL, heL, hs, hend⟩ := hset
  rcases hs with rfl | hs
  · rw [List.nil_append, hL] at hA
    cases hA
    rw [heL]
    simp
  · obtain ⟨S, EL, EP, h, h1, h2, h3, _⟩ := read_between hX hL heL hs
    rw [hA] at h3
    cases h3
    have hmem : h ∈ resL.tokens := (List.mem_filter.mp (List.mem_of_head? h1)).1
    have := (C02_token_spans hL).1 h hmem
    intro e he
    have k := h2 e he
    simp only [Inside] at this
    rw [List.length_append]
    omega

/-- An error-free document is settled. -/
theorem settled_of_clean {A : Str} {resA : ParserResult} (hA : parseFromStr A = .ok resA) (heA : resA.errors = [])
    (hend : A = [] ∨ ∃ l, A = l ++ ['\n']) : Settled A :=
  ⟨[], [], A, resA, rfl, ⟨.done (by intro c h; cases h), .inl rfl, by intro l c n e; simp at e⟩, hA, heA, .inl rfl, hend⟩

theorem lexesErr_closed {o : Nat} {X : Str} {ts n} (h : LexesErr o X ts n) (hq : n = 0 ∨ '"' ∉ X) : LexesClosed o X ts := by
  induction h with
  | done h => exact .done h
  | tok h1 h2 _ ih => exact .tok h1 h2 (ih (hq.imp id fun h => by intro h'; exact h (by simp [h'])))
  | skip h1 h2 h3 h4 h5 _ ih =>
    rcases hq with hq | hq
    · cases hq
    · exact .skip h1 h2 h3 h4 (by intro h'; exact hq (by simp [h'])) h5 (ih (.inr (by intro h'; exact hq (by simp [h']))))

/-- Text without quotes, or without unrecognizable text. -/
theorem wholeLines_of {X : Str} {ts es} (h : tokenize X = .ok (some ts, es)) (hq : es = [] ∨ '"' ∉ X) (hend : X = [] ∨ ∃ l, X = l ++ ['\n'])
    (hlast : ∀ l c n, (ts.filter fun t => decide (t.1 ≠ .comment)) ≠ l ++ [(.punct ',', c), (.newline, n)]) : WholeLines X ts :=
  ⟨lexesErr_closed (tokenize_sound h) (hq.imp (by rintro rfl; rfl) id), hend, hlast⟩

end

/-! ### Concrete cases -/

section
attribute [local instance] asciiUnicode

/-- A function that is being typed, with unrecognizable text, in front of others. -/
def brokenAbove : Str := c!"@v = int32 1\ndefine void @f() {\nentry:\n  int32 %x = ? load\n\n# rest\n"
def brokenBelow : Str := c!"\ndefine void @g() {\nentry:\n  br entry\n}\n@w = int32 2\n"

def tokensOf (text : Str) : List Tok :=
  match tokenize text with
  | .ok (some ts, _) => ts
  | _ => []

/-- A decidable form. -/
theorem wholeLines_check {X : Str}
    (h : (match tokenize X with
      | .ok (some ts, es) => (es.isEmpty || decide ('"' ∉ X)) && decide (X.getLast? = some '\n') &&
          decide (((ts.filter fun t => decide (t.1 ≠ .comment)).map Prod.fst).reverse.take 2 ≠ [.newline, .punct ','])
      | _ => false) = true) : WholeLines X (tokensOf X) := by
  unfold tokensOf
  generalize hk : tokenize X = r at h ⊢
  split at h
  · rename_i ts es
    simp only [Bool.and_eq_true, Bool.or_eq_true, decide_eq_true_eq, List.isEmpty_iff] at h
    obtain ⟨⟨h1, h2⟩, h3⟩ := h
    refine wholeLines_of hk h1 ?_ ?_
    · obtain ⟨l, e⟩ := List.getLast?_eq_some_iff.mp h2
      exact .inr ⟨l, e⟩
    · intro l c n e
      rw [e] at h3
      simp at h3
  · cases h

theorem broken_whole : WholeLines brokenAbove (tokensOf brokenAbove) := wholeLines_check (by decide +kernel)

/-- On its own, nothing of the text is understood, as its last statement is broken. -/
example : (readOf brokenAbove).stmts = [] ∧ (readOf brokenAbove).errors.length = 2 := by decide +kernel

/-- Below it, both statements are read as before, and the two reports are above them and at the first token. -/
example : (readOf (brokenAbove ++ brokenBelow)).stmts.length = 3 ∧
    (readOf (brokenAbove ++ brokenBelow)).stmts.drop 1 = (readOf brokenBelow).stmts.map (movedStmt brokenAbove.length) ∧
    (readOf (brokenAbove ++ brokenBelow)).errors.map SErr.span = [⟨52, 53⟩, ⟨68, 74⟩] := by decide +kernel

theorem broken_facts : parseFromStr brokenBelow = .ok (readOf brokenBelow) ∧ (readOf brokenBelow).errors = [] ∧
    (readOf brokenBelow).stmts.length = 2 := by decide +kernel

example : ∃ stmtsX errors h, parseFromStr (brokenAbove ++ brokenBelow) = .ok
        { tokens := tokensOf brokenAbove ++ (readOf brokenBelow).tokens.map (moved brokenAbove.length)
          stmts := stmtsX ++ (readOf brokenBelow).stmts.map (movedStmt brokenAbove.length)
          errors := errors } ∧ firstToken (readOf brokenBelow).tokens = some h ∧
      ∀ e ∈ errors, e.span.start ≤ e.span.stop ∧ e.span.stop ≤ brokenAbove.length + h.2.stop :=
  C88_below broken_whole broken_facts.1 broken_facts.2.1 (by intro h; have := broken_facts.2.2; rw [h] at this; cases this)

theorem broken_settled : Settled (brokenAbove ++ brokenBelow) :=
  ⟨brokenAbove, _, brokenBelow, _, rfl, broken_whole, broken_facts.1, broken_facts.2.1,
    .inr (by intro h; have := broken_facts.2.2; rw [h] at this; cases this), .inr ⟨brokenBelow.dropLast, by decide +kernel⟩⟩

/-- A comma at the end of the broken text takes in what is below: the report is at the end of the line below, and with a brace further
below, the variable is not found any more. -/
theorem C88_needs_no_comma : ∃ X L B : Str, parseFromStr L = .ok (readOf L) ∧ (readOf L).errors = [] ∧ (readOf L).stmts.length = 1 ∧
    X.getLast? = some '\n' ∧ '"' ∉ X ∧ (readOf (X ++ L)).errors.map SErr.span = [⟨59, 60⟩] ∧ X.length = 38 ∧
    (readOf (X ++ L)).stmts.length = 1 ∧ (readOf B).stmts.length = 1 ∧
    (readOf (X ++ L ++ B)).stmts.all (fun s => match s with | .globalVar n _ => decide (n.1 ≠ c!"@a") | _ => true) = true :=
  ⟨c!"define void @f() {\nentry:\n  switch x,\n", c!"@a = 1, default = y,\n", c!"}\n@b = int32 1\n", by decide +kernel⟩

/-- A quote that is left open takes in the text below. -/
theorem C88_needs_closed_quotes : ∃ X L : Str, parseFromStr L = .ok (readOf L) ∧ (readOf L).errors = [] ∧ (readOf L).stmts.length = 2 ∧
    X.getLast? = some '\n' ∧ (readOf (X ++ L)).stmts.length = 1 :=
  ⟨c!"!1 = \"\n", c!"@w = int32 2\n!2 = \"a:1\"\n", by decide +kernel⟩

end

end HyperIR
