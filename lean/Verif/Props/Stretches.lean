import Verif.Proofs.Stretches
import Verif.Props.Exact

/-
Property C92: which statements `parse_from_str` (src/hir_parser.rs:435) reports for a text with broken parts.
The specification is `Spec/Stretches.lean`.
-/

namespace HyperIR
open Spec

section
variable [Unicode]

/-! ### C92 -/

/-- C92: the tokens of a text are, in exactly one way, a sequence of statements and unreadable stretches.  All
the statements are reported, in their order, if no unreadable stretch follows the last of them, and none at all
otherwise.  At least one error is reported for each stretch besides the lexical errors, and no other error if
there is no stretch. -/
theorem C92_recovery {text : Str} {toks : List Tok} {e : Nat} (hl : LexesErr 0 text toks e) (hne : toks ≠ [] ∨ text = [])
    (tidy : Unglued (nonComments toks)) (orderly : OrderlyCont (nonComments toks)) :
    ∃ ss k w, Stretches ss k w (nonComments toks) ∧
      (∀ ss' k' w', Stretches ss' k' w' (nonComments toks) → ss' = ss ∧ k' = k ∧ w' = w) ∧
      ∃ res, parseFromStr text = .ok res ∧ (w = true → res.stmts = ss) ∧ (w = false → res.stmts = []) ∧
        e + k ≤ res.errors.length ∧ (k = 0 → res.errors.length = e) := by
  obtain ⟨ss, k, w, hs⟩ := stretches_total _ (nonComments toks) (Nat.le_refl _)
  refine ⟨ss, k, w, hs, ?_, ?_⟩
  · intro ss' k' w' hs'
    obtain ⟨rfl, rfl, rfl⟩ := stretches_unique hs tidy orderly rfl hs'
    exact ⟨rfl, rfl, rfl⟩
  · obtain ⟨errs, h1, h2⟩ := tokenize_complete hl hne
    obtain ⟨es, r, h3, h4, h5, h6, h7⟩ := many_docItem_stretches
      (eoi := { start := utf8Len text, stop := utf8Len text + 1 }) hs tidy orderly
    unfold parseFromStr
    simp only [h2]
    cases w with
    | true =>
      obtain rfl := h4.mp rfl
      rw [parseTokens_of_many h3]
      refine ⟨_, rfl, fun _ => rfl, by simp, ?_, ?_⟩
      · have := h5 rfl
        simp; omega
      · intro hk
        simp [h7 hk, h1]
    | false =>
      obtain ⟨errs', h8, h9⟩ := parseTokens_of_many_lost h3 (fun h => by simpa using h4.mpr h)
      rw [h8]
      have := h6 rfl
      refine ⟨_, rfl, by simp, fun _ => rfl, by simp; omega, ?_⟩
      rintro rfl
      exfalso
      clear h4 h5 h6 h7 h8 h3 this
      generalize hz : 0 = z at hs
      generalize hw : false = w at hs
      generalize nonComments toks = l at hs tidy orderly
      induction hs with
      | done => cases hw
      | lost => cases hz
      | stmt _ _ ih => exact ih hz hw tidy.suffix orderly.suffix
      | skip => cases hz

/-- C92 the other way round: whatever way the tokens are split, this is what is reported. -/
theorem C92_reported {text : Str} {toks : List Tok} {e : Nat} (hl : LexesErr 0 text toks e) (hne : toks ≠ [] ∨ text = [])
    (tidy : Unglued (nonComments toks)) (orderly : OrderlyCont (nonComments toks)) {ss : List Statement} {k : Nat} {w : Bool}
    (hs : Stretches ss k w (nonComments toks)) :
    ∃ res, parseFromStr text = .ok res ∧ res.stmts = (if w then ss else []) ∧ e + k ≤ res.errors.length ∧
      (k = 0 → res.errors.length = e) := by
  obtain ⟨ss', k', w', _, h1, res, h2, h3, h4, h5⟩ := C92_recovery hl hne tidy orderly
  obtain ⟨rfl, rfl, rfl⟩ := h1 _ _ _ hs
  refine ⟨res, h2, ?_, h5⟩
  cases w with
  | true => simpa using h3 rfl
  | false => simpa using h4 rfl

end

/-! ### Concrete cases -/

namespace Instances

local instance : Unicode := asciiUnicode

def orderlyB : List Tok → Bool
  | [] => true
  | t :: r => (match t.1 with
      | .punct ':' | .debugRef _ => ((r.takeWhile fun u => u.1 != .newline).all fun u => u.1 != .ident c!"cont")
      | _ => true) && orderlyB r

theorem orderly_of_orderlyB {l : List Tok} (h : orderlyB l = true) : OrderlyCont l := by
  rintro a t b k c rfl hb
  have h1 : orderlyB (t :: (b ++ (.ident c!"cont", k) :: c)) = true := by
    induction a with
    | nil => exact h
    | cons u a ih => simp only [List.cons_append, orderlyB, Bool.and_eq_true] at h; exact ih h.2
  simp only [orderlyB, Bool.and_eq_true] at h1
  have h2 : ((Token.ident c!"cont", k) : Tok) ∈ (b ++ (.ident c!"cont", k) :: c).takeWhile fun u => u.1 != .newline := by
    rw [List.takeWhile_append_of_pos (by intro u hu; simpa using hb u hu)]
    simp
  have h3 := h1.1
  refine ⟨?_, ?_⟩
  · intro ht
    rw [ht] at h3
    simpa using List.all_eq_true.mp h3 _ h2
  · intro x ht
    rw [ht] at h3
    simpa using List.all_eq_true.mp h3 _ h2

/-- Two statements, with garbage before them, between them, and inside of a third. -/
def stretchText : Str :=
  c!"oops\n@a = 1\n%x , %y ?\ndefine void @f() {\n br a !x\n}\ndefine int8 @g() {\n br a !x !y\n}\n!x = 2\n"

/-- The same with garbage at the end. -/
def lostText : Str := stretchText ++ c!"declare\n"

/-- What the lexer and the parser make of a text: whether the tokens meet the hypotheses of C92, how many
lexical errors there are, and the statements and errors. -/
def outline (text : Str) : Option (Bool × Nat × List Str × Nat) :=
  match tokenize text, parseFromStr text with
  | .ok (some toks, errs), .ok res => some (ungluedB (nonComments toks) && orderlyB (nonComments toks) && !toks.isEmpty,
      errs.length, res.stmts.map (fun s => match s with
        | .globalVar n _ | .dbgAnnotation n _ | .funcDependencies n _ => n.1
        | .funcDecl sg _ _ | .funcDef _ sg _ => sg.name.1), res.errors.length)
  | _, _ => none

theorem outline_split {text : Str} {e : Nat} {names : List Str} {n : Nat}
    (h : outline text = some (true, e, names, n)) : ∃ toks ss k w, LexesErr 0 text toks e ∧ toks ≠ [] ∧
      Unglued (nonComments toks) ∧ OrderlyCont (nonComments toks) ∧ Stretches ss k w (nonComments toks) ∧
      (w = true → ss.length = names.length) ∧ (w = false → names = []) ∧ e + k ≤ n := by
  unfold outline at h
  split at h
  · rename_i toks errs res h1 h2
    simp only [Option.some.injEq, Prod.mk.injEq, Bool.and_eq_true] at h
    obtain ⟨⟨⟨h3, h4⟩, h5⟩, rfl, rfl, rfl⟩ := h
    have hl := tokenize_sound h1
    have hne : toks ≠ [] := by rintro rfl; simp at h5
    obtain ⟨ss, k, w, hs, _, res', h6, h7, h8, h9, _⟩ := C92_recovery hl (.inl hne) (unglued_of_ungluedB h3) (orderly_of_orderlyB h4)
    rw [h2] at h6
    cases h6
    refine ⟨toks, ss, k, w, hl, hne, unglued_of_ungluedB h3, orderly_of_orderlyB h4, hs, ?_, ?_, h9⟩
    · intro hw; simp [h7 hw]
    · intro hw; simp [h8 hw]
  · cases h

theorem stretchText_outline : outline stretchText = some (true, 1, [c!"@a", c!"@f", c!"!x"], 4) := by
  decide +kernel

/-- `stretchText` has three readable statements; they are reported although there is garbage around them. -/
example : ∃ toks ss k, LexesErr 0 stretchText toks 1 ∧ Unglued (nonComments toks) ∧ OrderlyCont (nonComments toks) ∧
    Stretches ss k true (nonComments toks) ∧ ss.length = 3 ∧ k ≤ 3 := by
  obtain ⟨toks, ss, k, w, h1, _, h2, h3, h4, h5, h6, h7⟩ := outline_split stretchText_outline
  cases w with
  | true => exact ⟨toks, ss, k, h1, h2, h3, h4, h5 rfl, by omega⟩
  | false => cases h6 rfl

/-- `lostText` ends with garbage; nothing is reported. -/
example : outline lostText = some (true, 1, [], 5) := by decide +kernel

end Instances

end HyperIR
