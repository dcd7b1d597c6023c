import Verif.Proofs.Recovery
import Verif.Props.Modules

/-
Property C11: a broken line does not hide the rest of the document.  The specification is
`Spec/Recovery.lean`.
-/

namespace HyperIR
open Spec

section
variable [Unicode]

/-- C11 for documents that end with a statement: with any number of broken lines before, between and after
other statements (and any lexical errors), every statement is still reported, in order, and if there is a
broken line an error is reported.

Missing for the full property: a broken line behind the last statement; there it does not hold, see
`C11_refuted_at_end`. -/
theorem C11_broken_lines_partial {text : Str} {toks : List Tok} {as : List Stmt} {b : Bool} {n e : Nat} {ks : List Token}
    (hl : LexesErr 0 text toks e) (hp : PrintsBroken b as ks)
    (hk : (nonComments toks).map Prod.fst = List.replicate n .newline ++ ks) :
    ∃ res, parseFromStr text = .ok res ∧ res.stmts.map stmtShape = as.map Stmt.shape ∧
      (b = true → res.errors ≠ []) := by
  have hne : toks ≠ [] := by
    rintro rfl
    obtain ⟨t, ks', rfl, _⟩ := printsBroken_head hp
    simp [nonComments] at hk
  obtain ⟨errs, h1, h2⟩ := tokenize_complete hl (.inl hne)
  obtain ⟨l1, l2, h3, h4, h5⟩ := List.map_eq_append_iff.mp hk
  have hnl : Newlines l1 := by
    intro t ht
    have : t.1 ∈ l1.map Prod.fst := List.mem_map_of_mem ht
    rw [h4] at this
    exact List.eq_of_mem_replicate this
  obtain ⟨es, ss, h6, h7, h8⟩ := many_docItem_broken (eoi := { start := utf8Len text, stop := utf8Len text + 1 }) hp h5 hnl
  rw [← h3] at h6
  have h9 := parseTokens_of_many h6
  refine ⟨_, by unfold parseFromStr; simp only [h2, h9]; rfl, h7, ?_⟩
  intro hb h
  exact h8 hb (List.map_eq_nil_iff.mp (List.append_eq_nil_iff.mp h).2)

end

/-! ### Concrete cases -/

section
attribute [local instance] asciiUnicode

/-- C11 does not hold for a broken line at the very end of the document: the statement before it is not
reported any more. -/
theorem C11_refuted_at_end :
    (∃ r, parseFromStr c!"@a = 1\n" = .ok r ∧ r.stmts.length = 1) ∧
    (∃ r, parseFromStr c!"@a = 1\nfoo\n" = .ok r ∧ r.stmts = []) ∧
    ∃ r, parseFromStr c!"@a = 1\nfoo\n@b = 2\n" = .ok r ∧ r.stmts.length = 2 := by
  refine ⟨⟨_, rfl, ?_⟩, ⟨_, rfl, ?_⟩, ⟨_, rfl, ?_⟩⟩ <;> decide +kernel

def brokenText : Str := c!"oops declare %x\n@a = 1\nfoo , ?\n\n!1 = 2\n"

def brokenTokens : List Tok :=
  match tokenize brokenText with
  | .ok (some toks, _) => toks
  | _ => []

theorem not_starts_of {t : Token} {r : List Token} (h1 : ∀ s, t ≠ .globalName s) (h2 : ∀ s, t ≠ .debugRef s)
    (h3 : t ≠ .declare) (h4 : t ≠ .define) : ¬ StartsStatement (t :: r) := by
  rintro ⟨x, l, m, h, h', _⟩
  cases h <;> simp_all [globalTok, dbgTok]

theorem sigG_head {s : FuncSignature} {l : List Tok} (h : SigG s l) :
    ∃ k sp l', l = (k, sp) :: l' ∧ ((∃ w, k = .funcModifier w) ∨ ∃ w, k = .type w) := by
  obtain ⟨o, args, c, _, rfl⟩ := h
  cases s.modifiers with
  | nil => exact ⟨_, _, _, rfl, .inr ⟨_, rfl⟩⟩
  | cons m ms => exact ⟨_, _, _, rfl, .inl ⟨_, rfl⟩⟩

/-- `C11_broken_lines_partial` applies: a broken first line (containing a keyword), a broken line with an
unknown character in the middle. -/
example : ∃ ks, PrintsBroken true [.globalVar c!"@a" [.num c!"1"], .dbgAnnotation c!"!1" [.num c!"2"]] ks ∧
    (nonComments brokenTokens).map Prod.fst = List.replicate 0 .newline ++ ks := by
  refine ⟨_, .broken (n := 0) (g := [.ident c!"oops", .declare, .localName c!"%x"]) ?_ (.stmt (n := 0) (.globalVar (by decide))
    (.broken (n := 1) (g := [.ident c!"foo", .punct ',']) ?_ (.lastLine (n := 0) (.dbgAnnotation (by decide))))), ?_⟩
  · refine ⟨by simp, by decide, ?_⟩
    intro g t g' h
    rcases g with _ | ⟨a, _ | ⟨b, _ | ⟨c, _ | ⟨d, g⟩⟩⟩⟩ <;> simp only [List.nil_append, List.cons_append, List.cons.injEq] at h
    · obtain ⟨rfl, rfl⟩ := h
      exact not_starts_of (by simp) (by simp) (by simp) (by simp)
    · obtain ⟨-, rfl, rfl⟩ := h
      rintro ⟨x, l, m, h, h', _⟩
      cases h with
      | funcDecl h | funcDeclAddr h | funcDef h =>
        obtain ⟨k, sp, l', rfl, hk⟩ := sigG_head h
        rcases hk with ⟨w, rfl⟩ | ⟨w, rfl⟩ <;> simp at h'
      | _ => simp_all [globalTok, dbgTok]
    · obtain ⟨-, -, rfl, rfl⟩ := h
      exact not_starts_of (by simp) (by simp) (by simp) (by simp)
    · obtain ⟨-, -, -, h⟩ := h; cases h
    · obtain ⟨-, -, -, h⟩ := h; cases h
  · refine ⟨by simp, by decide, ?_⟩
    intro g t g' h
    rcases g with _ | ⟨a, _ | ⟨b, _ | ⟨c, g⟩⟩⟩ <;> simp only [List.nil_append, List.cons_append, List.cons.injEq] at h
    · obtain ⟨rfl, rfl⟩ := h
      exact not_starts_of (by simp) (by simp) (by simp) (by simp)
    · obtain ⟨-, rfl, rfl⟩ := h
      exact not_starts_of (by simp) (by simp) (by simp) (by simp)
    · obtain ⟨-, -, h⟩ := h; cases h
    · obtain ⟨-, -, h⟩ := h; cases h
  · decide +kernel

end
end HyperIR
