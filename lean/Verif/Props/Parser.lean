import Verif.Proofs.Mentions
import Verif.Proofs.LexFacts
import Verif.Props.Lexer

/-
Properties C07, C08 and C10: what the statements reported by `parse_from_str`
(src/hir_parser.rs:435) say about the tokens of the document.  The specification is
`Spec/Grammar.lean` and `Spec/Mentions.lean`.
-/

namespace HyperIR
open Spec

section
variable [Unicode]

/-- The tokens other than comments. -/
def nonComments (toks : List Tok) : List Tok := toks.filter fun t => decide (t.1 ≠ Token.comment)

theorem parseFromStr_inv {src : Str} {res : ParserResult} (h : parseFromStr src = .ok res) :
    (res.tokens = [] ∧ res.stmts = [] ∧ res.errors ≠ []) ∨
    ∃ stmts errs tokErrs, tokenize src = .ok (some res.tokens, tokErrs) ∧
      parseTokens (utf8Len src) res.tokens = .ok (stmts, errs) ∧ res.stmts = stmts.getD [] ∧
      res.errors = tokErrs.map (LErr.toSErr fun c => [c]) ++ errs.map (LErr.toSErr Token.display) := by
  rcases parseFromStr_tokens h with ⟨h1, ⟨e1, h2⟩, h3⟩ | ⟨errs, h1⟩
  · left
    unfold parseFromStr at h
    rw [h2] at h
    cases h
    exact ⟨rfl, rfl, h3⟩
  · right
    unfold parseFromStr at h
    simp only [h1] at h
    split at h
    · cases h
    · rename_i stmts perrs h'
      injection h with h
      exact ⟨stmts, perrs, errs, h1, h', (congrArg ParserResult.stmts h).symm,
        (congrArg ParserResult.errors h).symm⟩

theorem parseFromStr_doc {src : Str} {res : ParserResult} (h : parseFromStr src = .ok res) :
    res.stmts = [] ∨ DocSkipG res.stmts (nonComments res.tokens) := by
  rcases parseFromStr_inv h with ⟨_, h, _⟩ | ⟨stmts, errs, te, _, h1, h2, _⟩
  · exact .inl h
  · cases stmts with
    | none => exact .inl h2
    | some ss =>
      right
      obtain ⟨l, h3, h4⟩ := many_docItem_sound (parseTokens_some h1)
      rw [h2]
      unfold nonComments
      rw [h4, List.append_nil]
      exact h3

theorem mentions_sublist {src : Str} {res : ParserResult} (h : parseFromStr src = .ok res) :
    (mentions res.stmts).Sublist (nonComments res.tokens) := by
  rcases parseFromStr_doc h with h | h
  · rw [h]; exact List.nil_sublist _
  · exact docSkipG_sublist h

theorem tokens_wellOrdered {src : Str} {res : ParserResult} (h : parseFromStr src = .ok res) :
    WellOrdered res.tokens :=
  ⟨(C02_token_spans h).2, fun t ht => ((C02_token_spans h).1 t ht).1⟩

/-! ### C07 -/

/-- C07: for every text (with or without errors), every token mentioned by a reported statement - names,
types, modifiers, arguments, labels, colons, branch targets, debug references, brackets, definitions - is
a token of the document of the expected kind and with exactly that range, and it is not a comment. -/
theorem C07_tree_mentions_tokens {src : Str} {res : ParserResult} (h : parseFromStr src = .ok res) :
    ∀ s ∈ res.stmts, ∀ t ∈ stmtMentions s, t ∈ res.tokens ∧ t.1 ≠ .comment := by
  intro s hs t ht
  have : t ∈ nonComments res.tokens :=
    (mentions_sublist h).subset (List.mem_flatMap.mpr ⟨s, hs, ht⟩)
  unfold nonComments at this
  simpa using this

/-! ### C08 -/

/-- C08: the tokens mentioned by all statements together, in the order of the statements, are a
subsequence of the document's tokens; two different statements occupy disjoint ranges in source order; and
the blocks and instructions of a function definition lie between its brackets in source order. -/
theorem C08_source_order {src : Str} {res : ParserResult} (h : parseFromStr src = .ok res) :
    (mentions res.stmts).Sublist res.tokens ∧
    res.stmts.Pairwise (fun s s' => ∀ t ∈ stmtMentions s, ∀ t' ∈ stmtMentions s', t.2.stop ≤ t'.2.start) ∧
    ∀ k sig body, .funcDef k sig body ∈ res.stmts → OrderedBody body ∧
      (∀ t ∈ sigMentions sig, k.stop ≤ t.2.start ∧ t.2.stop ≤ body.openingBracket.start) := by
  have hsub : (mentions res.stmts).Sublist res.tokens :=
    (mentions_sublist h).trans List.filter_sublist
  have hw := tokens_wellOrdered h
  refine ⟨hsub, ?_, ?_⟩
  · have hw' := hw.sublist hsub
    generalize res.stmts = ss at hw'
    induction ss with
    | nil => exact .nil
    | cons s ss ih =>
      rw [mentions, List.flatMap_cons] at hw'
      refine List.Pairwise.cons ?_ (ih hw'.right)
      intro s' hs' t ht t' ht'
      exact hw'.le ht (List.mem_flatMap.mpr ⟨s', hs', ht'⟩)
  · intro k sig body hs
    rcases parseFromStr_doc h with h' | h'
    · rw [h'] at hs; cases hs
    · have hw' : WellOrdered (nonComments res.tokens) := hw.sublist List.filter_sublist
      clear hsub hw h
      generalize nonComments res.tokens = l at h' hw'
      generalize res.stmts = ss at h' hs
      induction h' with
      | nil => cases hs
      | @cons s ss g nls l nls' l' _ h2 _ _ ih =>
        rcases List.mem_cons.mp hs with rfl | hs
        · have hwl : WellOrdered l := hw'.left.left.right
          cases h2 with
          | @funcDef _ _ sl _ bl h3 h4 =>
            refine ⟨bodyG_ordered h4 hwl.right, ?_⟩
            intro t ht
            have ht := (sigG_sublist h3).subset ht
            refine ⟨?_, ?_⟩
            · exact WellOrdered.le (l := [(Token.define, k)]) (l' := sl ++ bl) hwl
                (t := (Token.define, k)) (by simp) (by simp [ht])
            · obtain ⟨nls, bl', _, _, _, rfl⟩ := h4
              exact hwl.le (t' := (.punct '{', body.openingBracket)) (by simp [ht]) (by simp)
        · exact ih hw'.right hs

/-! ### C10 -/

/-- C10: if no error is reported, the document is exactly a sequence of the reported statements in the
given order, separated by line ends: the tokens other than comments split into these statements' tokens. -/
theorem C10_no_error_everything_understood {src : Str} {res : ParserResult} (h : parseFromStr src = .ok res)
    (he : res.errors = []) : DocG res.stmts (nonComments res.tokens) := by
  rcases parseFromStr_inv h with ⟨_, _, h⟩ | ⟨stmts, errs, te, _, h1, h2, h3⟩
  · exact absurd he h
  · rw [h3] at he
    obtain ⟨_, he⟩ := List.append_eq_nil_iff.mp he
    cases stmts with
    | none => exact absurd (List.map_eq_nil_iff.mp he) (parseTokens_none h1).1
    | some ss =>
      rw [h2]
      exact many_docItem_clean (parseTokens_some h1) (List.map_eq_nil_iff.mp he)

omit [Unicode] in
theorem docG_mem {ss l} (h : DocG ss l) : ∀ t ∈ l, t.1 ≠ .newline → ∃ s ∈ ss, ∃ l', StmtG s l' ∧ t ∈ l' := by
  induction h with
  | nil => intro t ht; cases ht
  | @cons s ss nls l nls' l' h1 h2 h3 _ _ ih =>
    intro t ht hn
    simp only [List.mem_append] at ht
    rcases ht with ((ht | ht) | ht) | ht
    · exact absurd (h1 t ht) hn
    · exact ⟨s, by simp, l, h2, ht⟩
    · exact absurd (h3 t ht) hn
    · obtain ⟨s', hs', a⟩ := ih t ht hn
      exact ⟨s', by simp [hs'], a⟩

/-- C10 for a single token: without errors, every token other than comments and line ends belongs to a
reported statement. -/
theorem C10_every_token_in_statement {src : Str} {res : ParserResult} (h : parseFromStr src = .ok res)
    (he : res.errors = []) : ∀ t ∈ res.tokens, t.1 ≠ .comment → t.1 ≠ .newline →
      ∃ s ∈ res.stmts, ∃ l, StmtG s l ∧ t ∈ l := by
  intro t ht hc hn
  refine docG_mem (C10_no_error_everything_understood h he) t ?_ hn
  unfold nonComments
  simp [ht, hc]

end

/-! ### Concrete cases -/

section
attribute [local instance] asciiUnicode

/-- A document with all kinds of statements and errors in between. -/
def exampleText : Str :=
  c!"@g = int32 5\n?? $ bad\ndefine int32 @f(int32 %a) {\nentry:\n  int32 %x = add int32 %a, 1\n  br next\nnext:\n  return %x !1\n}\n!1 = \"a.cpp:3\"\n"

def exampleResult : ParserResult :=
  match parseFromStr exampleText with
  | .ok r => r
  | .panic => ⟨[], [], []⟩

theorem exampleResult_eq : parseFromStr exampleText = .ok exampleResult := by decide +kernel

/-- C07 and C08 are about a document with three statements, one of them with two blocks, and an error. -/
example : exampleResult.stmts.length = 3 ∧ exampleResult.errors ≠ [] ∧
    (exampleResult.stmts.map fun s => (stmtMentions s).length) = [3, 17, 2] := by decide +kernel

def goodText : Str :=
  c!"@g = int32 5 # comment\n\ndeclare void @h(int64 %b) = 0x1f !1\ndefine int32 @f(int32 %a) {\nentry:\n  br next\nnext:\n  return %x !1\n}\n!1 = \"a.cpp:3\"\n"

def goodResult : ParserResult :=
  match parseFromStr goodText with
  | .ok r => r
  | .panic => ⟨[], [], []⟩

/-- C10 applies to a document with four statements. -/
example : parseFromStr goodText = .ok goodResult ∧ goodResult.errors = [] ∧ goodResult.stmts.length = 4 := by
  decide +kernel

end
end HyperIR
