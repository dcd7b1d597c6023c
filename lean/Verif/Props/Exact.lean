import Verif.Proofs.Exact
import Verif.Props.Modules

/-
Property C90: `parse_from_str` (src/hir_parser.rs:435) reports no error exactly for the documents of
the grammar `Spec/Exact.lean`, and then returns the one syntax tree the grammar gives the document.
-/

namespace HyperIR
open Spec

section
variable [Unicode]

/-! ### C90 -/

/-- C90: a text whose lines are tidy is parsed without an error, with the statements `ss`, if and only
if it consists of tokens only and these are, apart from comments, a document of the grammar with the
tree `ss`. -/
theorem C90_accepted_iff {text : Str} {ss : List Statement}
    (tidy : ∀ toks, Lexes 0 text toks → Unglued (nonComments toks)) :
    (∃ res, parseFromStr text = .ok res ∧ res.errors = [] ∧ res.stmts = ss) ↔
      ∃ toks, Lexes 0 text toks ∧ (toks ≠ [] ∨ text = []) ∧ DocX ss (nonComments toks) := by
  constructor
  · rintro ⟨res, h, he, rfl⟩
    have ht := parseFromStr_no_errors h he
    have hl := lexes_of_lexesErr (tokenize_sound ht) rfl
    refine ⟨res.tokens, hl, ?_, ?_⟩
    · by_cases hn : res.tokens = []
      · rw [hn] at ht
        right
        cases text with
        | nil => rfl
        | cons c cs =>
          exfalso
          have := tokenize_some_iff.mp ht
          generalize htoks : ([] : List Tok) = toks at this
          generalize hs : charStream 0 (c :: cs) = s at this
          generalize hr : ([] : Toks Char) = r at this
          generalize he : ([] : List (LErr Char)) = es at this
          cases this with
          | nil hf => subst hr; cases hs
          | cons => cases htoks
      · exact .inl hn
    · rcases parseFromStr_inv h with ⟨_, _, h⟩ | ⟨stmts, errs, te, _, h1, h2, h3⟩
      · exact absurd he h
      · rw [h3] at he
        obtain ⟨_, he⟩ := List.append_eq_nil_iff.mp he
        have he := List.map_eq_nil_iff.mp he
        subst he
        cases stmts with
        | none => exact absurd rfl (parseTokens_none h1).1
        | some ss =>
          rw [h2]
          exact (parseTokens_exact (tidy _ hl)).mp h1
  · rintro ⟨toks, hl, hne, hd⟩
    obtain ⟨errs, h1, h2⟩ := tokenize_complete (lexes_lexesErr hl) hne
    obtain rfl := List.length_eq_zero_iff.mp h1
    have h3 := (parseTokens_exact (n := utf8Len text) (tidy _ hl)).mpr hd
    unfold parseFromStr
    simp only [h2, h3]
    exact ⟨_, rfl, rfl, rfl⟩

omit [Unicode] in
/-- C90: the grammar gives tidy tokens at most one tree. -/
theorem C90_one_tree {l : List Tok} (tidy : Unglued l) {ss ss' : List Statement} (h : DocX ss l) (h' : DocX ss' l) :
    ss = ss' :=
  (((many_docItem_exact (eoi := ⟨0, 0⟩) tidy).mpr h).det ((many_docItem_exact tidy).mpr h')).2.1

end

/-! ### Concrete cases -/

namespace Instances

local instance : Unicode := asciiUnicode

def badStart : List Tok → Bool
  | (.punct ',', _) :: (.newline, _) :: _ => true
  | (.newline, _) :: (.punct ',', _) :: _ => true
  | (.newline, _) :: (.ident n, _) :: (.punct '=', _) :: _ => n == c!"label"
  | _ => false

def ungluedB : List Tok → Bool
  | [] => true
  | t :: r => !badStart (t :: r) && ungluedB r

theorem unglued_of_ungluedB {l : List Tok} (h : ungluedB l = true) : Unglued l := by
  have key : ∀ (a b : List Tok), ungluedB (a ++ b) = true → badStart b = false := by
    intro a
    induction a with
    | nil =>
      intro b h
      cases b with
      | nil => rfl
      | cons t b => simp [ungluedB] at h; exact h.1
    | cons t a ih =>
      intro b h
      simp [ungluedB] at h
      exact ih b h.2
  refine ⟨?_, ?_, ?_⟩
  · rintro a c nl b rfl
    have := key a _ h
    simp [badStart] at this
  · rintro a nl c b rfl
    have := key a _ h
    simp [badStart] at this
  · rintro a nl k e b rfl
    have := key a _ h
    simp [badStart] at this

/-- The tokens of a text, if there is no lexical error. -/
def toksOf (text : Str) : Option (List Tok) :=
  match tokenize text with
  | .ok (some toks, []) => some toks
  | _ => none

theorem unglued_of_toks {text : Str} {toks : List Tok} (h : toksOf text = some toks) (ht : ungluedB (nonComments toks) = true) :
    ∀ toks', Lexes 0 text toks' → Unglued (nonComments toks') := by
  intro toks' hl
  have h0 : tokenize text = .ok (some toks, []) := by
    unfold toksOf at h
    split at h
    · rename_i hh; cases h; exact hh
    · cases h
  by_cases hn : toks' = []
  · subst hn
    exact unglued_of_ungluedB rfl
  · obtain ⟨errs, h2, h3⟩ := tokenize_complete (lexes_lexesErr hl) (.inl hn)
    rw [h0] at h3
    cases h3
    exact unglued_of_ungluedB ht

/-- A module with every kind of statement and instruction. -/
def exactText : Str := c!"# module\n@g = 1\n!x = \"a\"\n@f depends on @g, @h\ndeclare pure void @h(int8 %a) = 0x1f !x\ndefine void @f(int1 %c) {\n  int8 %v = add int8 1, 2 !x\n  br int1 %c, a, b\na:\n  int8 %w = saddbr int8 %v, 1, cont=b, overflow=d\nb:\n  switch int8 %v, default=d, int8 1 label=a\nd:\n  int8 %p = phi [a, %w], [b, 1]\n  br a\n}\n"

def parsedBy (text : Str) : Option (List Statement) :=
  match parseFromStr text with
  | .ok res => if res.errors = [] then some res.stmts else none
  | .panic => none

/-- `exactText` is a document of the grammar, with five statements. -/
example : ∃ toks ss, Lexes 0 exactText toks ∧ DocX ss (nonComments toks) ∧ ss.length = 5 := by
  have h : ((parsedBy exactText).map List.length) = some 5 := by decide +kernel
  have ht : ((toksOf exactText).map (fun toks => ungluedB (nonComments toks))) = some true := by decide +kernel
  cases h1 : toksOf exactText with
  | none => rw [h1] at ht; cases ht
  | some toks =>
    rw [h1] at ht
    cases h2 : parseFromStr exactText with
    | panic => simp [parsedBy, h2] at h
    | ok res =>
      simp only [parsedBy, h2] at h
      split at h
      · rename_i he
        obtain ⟨toks', a1, _, a3⟩ := (C90_accepted_iff (unglued_of_toks h1 (by simpa using ht))).mp ⟨res, h2, he, rfl⟩
        exact ⟨toks', res.stmts, a1, a3, by simpa using h⟩
      · simp at h

/-- A text with an unfinished branch is not a document of the grammar, whatever the tree. -/
example : ¬ ∃ toks ss, Lexes 0 c!"define void @f() {\n br\na:\n switch int8 %v, default=a, int8 1 label=a 2 !x !y\n}\n" toks
    ∧ DocX ss (nonComments toks) := by
  rintro ⟨toks, ss, h1, h2⟩
  have ht : ((toksOf c!"define void @f() {\n br\na:\n switch int8 %v, default=a, int8 1 label=a 2 !x !y\n}\n").map
    (fun toks => ungluedB (nonComments toks))) = some true := by decide +kernel
  have hp : parsedBy c!"define void @f() {\n br\na:\n switch int8 %v, default=a, int8 1 label=a 2 !x !y\n}\n" = none := by
    decide +kernel
  cases h : toksOf c!"define void @f() {\n br\na:\n switch int8 %v, default=a, int8 1 label=a 2 !x !y\n}\n" with
  | none => rw [h] at ht; cases ht
  | some toks' =>
    rw [h] at ht
    obtain ⟨res, r1, r2, _⟩ := (C90_accepted_iff (unglued_of_toks h (by simpa using ht))).mpr ⟨toks, h1, by
      left
      rintro rfl
      generalize hx : c!"define void @f() {\n br\na:\n switch int8 %v, default=a, int8 1 label=a 2 !x !y\n}\n" = x at h1
      cases h1 with
      | done hb => subst hx; exact absurd (hb 'd' (by decide)) (by decide), h2⟩
    simp [parsedBy, r1, r2] at hp

/-! ### Without tidy lines -/

theorem not_known {l : List Tok} (hone : OneLine l)
    (h : (match pInstructionKind ⟨0, 0⟩ (l ++ [(.newline, ⟨0, 0⟩)]) with
      | .ok [] i _ _ => decide (i.basicBlockRefs = [] ∧ i.instruction.1 ≠ c!"phi")
      | _ => false) = true) : ∀ m ts d, ¬ Documented m ts d l := by
  intro m ts d hk
  obtain ⟨alt, h1⟩ := known_complete (eoi := ⟨0, 0⟩) hk hone (nl := ⟨0, 0⟩) (r' := [])
  rw [h1] at h
  simp at h
  cases hk <;> simp at h

/-- The line `xbr a,` takes the line below it as further operands. -/
def swallow : Str := c!"define void @f() {\nxbr a,\nret, cont=b, overflow=c\n}"

def swallowFirst : List Tok := [(.ident c!"xbr", ⟨19, 22⟩), (.ident c!"a", ⟨23, 24⟩), (.punct ',', ⟨24, 25⟩)]

def swallowSecond : List Tok := [(.ident c!"ret", ⟨26, 29⟩), (.punct ',', ⟨29, 30⟩), (.ident c!"cont", ⟨31, 35⟩),
  (.punct '=', ⟨35, 36⟩), (.ident c!"b", ⟨36, 37⟩), (.punct ',', ⟨37, 38⟩), (.ident c!"overflow", ⟨39, 47⟩),
  (.punct '=', ⟨47, 48⟩), (.ident c!"c", ⟨48, 49⟩)]

def swallowToks : List Tok := [(.define, ⟨0, 6⟩), (.type c!"void", ⟨7, 11⟩), (.globalName c!"@f", ⟨12, 14⟩),
  (.punct '(', ⟨14, 15⟩), (.punct ')', ⟨15, 16⟩), (.punct '{', ⟨17, 18⟩), (.newline, ⟨18, 19⟩)] ++ swallowFirst
  ++ [(.newline, ⟨25, 26⟩)] ++ swallowSecond ++ [(.newline, ⟨49, 50⟩), (.punct '}', ⟨50, 51⟩)]

/-- A function with two instructions, neither of which is a branch. -/
def swallowTree : List Statement := [.funcDef ⟨0, 6⟩ ⟨[], (c!"void", ⟨7, 11⟩), (c!"@f", ⟨12, 14⟩), []⟩
  ⟨⟨17, 18⟩, ⟨50, 51⟩, [⟨none, none, [⟨none, (c!"xbr", ⟨19, 22⟩), [], none, ⟨19, 25⟩⟩,
    ⟨none, (c!"ret", ⟨26, 29⟩), [], none, ⟨26, 49⟩⟩], ⟨19, 49⟩⟩]⟩]

/-- Without tidy lines both directions fail: the grammar reads two instructions, one on each line, but
the parser reports a single one that extends over both lines (and no error). -/
theorem C90_refuted_comma : toksOf swallow = some swallowToks ∧ DocX swallowTree swallowToks ∧
    ((parsedBy swallow).map fun ss => ss.map (fun s => (instructionsOf s).map Instruction.span)) = some [[⟨19, 49⟩]] := by
  refine ⟨by decide +kernel, ?_, by decide +kernel⟩
  have h1 : LineX (c!"xbr", ⟨19, 22⟩) [] none swallowFirst :=
    LineX.other (m := (c!"xbr", ⟨19, 22⟩)) (ops := swallowFirst.tail) (d := none) (by simp [swallowFirst]) (by decide +kernel)
      (not_known (l := swallowFirst) (by simp [OneLine, swallowFirst]) (by decide +kernel))
  have h2 : LineX (c!"ret", ⟨26, 29⟩) [] none swallowSecond :=
    LineX.other (m := (c!"ret", ⟨26, 29⟩)) (ops := swallowSecond.tail) (d := none) (by simp [swallowSecond]) (by decide +kernel)
      (not_known (l := swallowSecond) (by simp [OneLine, swallowSecond]) (by decide +kernel))
  have hi : InstrsX [⟨none, (c!"xbr", ⟨19, 22⟩), [], none, ⟨19, 25⟩⟩, ⟨none, (c!"ret", ⟨26, 29⟩), [], none, ⟨26, 49⟩⟩]
      (swallowFirst ++ [(.newline, ⟨25, 26⟩)] ++ (swallowSecond ++ [(.newline, ⟨49, 50⟩)] ++ [])) :=
    .cons ⟨[], _, .none, h1, rfl, rfl⟩ (by simp [Newlines]) (by simp)
      (.cons ⟨[], _, .none, h2, rfl, rfl⟩ (by simp [Newlines]) (by simp) .nil)
  refine ⟨[], swallowToks, by simp [Newlines], ?_, rfl, fun _ => rfl⟩
  refine StmtsX.cons (l := swallowToks) (nls := []) (l' := []) ?_ (by simp [Newlines]) (fun _ => .inl rfl) .nil
  exact .funcDef (sl := [(.type c!"void", ⟨7, 11⟩), (.globalName c!"@f", ⟨12, 14⟩), (.punct '(', ⟨14, 15⟩), (.punct ')', ⟨15, 16⟩)])
    ⟨⟨14, 15⟩, [], ⟨15, 16⟩, .nil, rfl⟩
    ⟨[(.newline, ⟨18, 19⟩)], _, by simp [Newlines], by simp, .unlabelled ⟨_, _, hi, rfl, rfl, rfl, rfl, rfl⟩ .nil, rfl⟩

end Instances
end HyperIR
