import Verif.Proofs.Compose
import Verif.Proofs.Rope
import Verif.Spec.Below

/- Lines and columns of a text with other lines in front of it (src/lsp_utils.rs). -/

namespace HyperIR
open Spec

/-- The text is empty or its last line ends with a line feed. -/
def Lined (A : Str) : Prop := A = [] ∨ ∃ l, A = l ++ ['\n']

theorem lined_tail {c : Char} {A : Str} (h : Lined (c :: A)) : Lined A ∧ (A = [] → c = '\n') := by
  rcases h with h | ⟨l, h⟩
  · cases h
  · cases l with
    | nil =>
      simp only [List.nil_append, List.cons.injEq] at h
      exact ⟨.inl h.2, fun _ => h.1⟩
    | cons d l =>
      simp only [List.cons_append, List.cons.injEq] at h
      refine ⟨.inr ⟨l, h.2⟩, ?_⟩
      intro e
      rw [e] at h
      exact absurd (congrArg List.length h.2) (by simp)

theorem isLineBreak_behind {c : Char} {A : Str} (h : Lined (c :: A)) (B : Str) : isLineBreak c (A ++ B) = isLineBreak c A := by
  cases A with
  | nil =>
    have := (lined_tail h).2 rfl
    subst this
    rfl
  | cons d A => rfl

theorem lenLines_pos (s : Str) : 0 < lenLines s := by
  cases s with
  | nil => simp [lenLines]
  | cons c s =>
    have := lenLines_pos s
    simp only [lenLines]
    omega

theorem lenLines_le (s : Str) : lenLines s ≤ s.length + 1 := by
  induction s with
  | nil => simp [lenLines]
  | cons c s ih =>
    simp only [lenLines, List.length_cons]
    split <;> omega

/-- The number of lines in front of what follows. -/
def linesOf (A : Str) : Nat := lenLines A - 1

theorem linesOf_cons (c : Char) (A : Str) : linesOf (c :: A) = (if isLineBreak c A then 1 else 0) + linesOf A := by
  have := lenLines_pos A
  simp only [linesOf, lenLines]
  omega

theorem lenLines_append {A : Str} (h : Lined A) (B : Str) : lenLines (A ++ B) = linesOf A + lenLines B := by
  induction A with
  | nil => simp [linesOf, lenLines]
  | cons c A ih =>
    rw [linesOf_cons, List.cons_append, lenLines, ih (lined_tail h).1, isLineBreak_behind h]
    omega

theorem lineToChar_behind {A : Str} (h : Lined A) (l : Nat) (B : Str) :
    lineToChar? (linesOf A + l) (A ++ B) = (lineToChar? l B).map (· + A.length) := by
  induction A with
  | nil => cases e : lineToChar? l B <;> simp [linesOf, lenLines, e]
  | cons c A ih =>
    have ht := lined_tail h
    have hs : ∀ x : Option Nat, (x.map (· + A.length)).map (· + 1) = x.map (· + (A.length + 1)) := by
      intro x
      cases x <;> simp [Nat.add_assoc]
    rw [linesOf_cons, List.cons_append, List.length_cons]
    cases hb : isLineBreak c A with
    | true =>
      rw [if_pos rfl, show 1 + linesOf A + l = linesOf A + l + 1 by omega]
      simp only [lineToChar?]
      rw [isLineBreak_behind h, hb, if_pos rfl, ih ht.1, hs]
    | false =>
      have hA : A ≠ [] := by
        intro e
        rw [ht.2 e] at hb
        revert hb
        rw [e]
        decide
      have hpos : ∀ A : Str, Lined A → A ≠ [] → 0 < linesOf A := by
        intro A hl hne
        rcases hl with rfl | ⟨l, rfl⟩
        · exact absurd rfl hne
        · clear hne
          induction l with
          | nil => decide
          | cons d l ih => rw [List.cons_append, linesOf_cons]; omega
      have := hpos A ht.1 hA
      rw [if_neg (by simp), show 0 + linesOf A + l = (linesOf A + l - 1) + 1 by omega]
      simp only [lineToChar?]
      rw [isLineBreak_behind h, hb, if_neg (by simp), show linesOf A + l - 1 + 1 = linesOf A + l by omega, ih ht.1, hs]

theorem byteToLine_behind {A : Str} (h : Lined A) (ha : Ascii A) (b : Nat) (B : Str) :
    byteToLine (b + A.length) (A ++ B) = linesOf A + byteToLine b B := by
  induction A with
  | nil => simp [linesOf, lenLines]
  | cons c A ih =>
    rw [linesOf_cons, List.cons_append, List.length_cons]
    simp only [byteToLine]
    rw [utf8Size_ascii (ha c (by simp)), if_pos (by omega), isLineBreak_behind h, show b + (A.length + 1) - 1 = b + A.length by omega,
      ih (lined_tail h).1 (fun d hd => ha d (by simp [hd]))]
    omega

theorem byteToChar_behind {A : Str} (ha : Ascii A) (b : Nat) (B : Str) :
    byteToChar (b + A.length) (A ++ B) = byteToChar b B + A.length := by
  induction A with
  | nil => simp
  | cons c A ih =>
    rw [List.cons_append, List.length_cons]
    simp only [byteToChar]
    rw [utf8Size_ascii (ha c (by simp)), if_pos (by omega), show b + (A.length + 1) - 1 = b + A.length by omega,
      ih (fun d hd => ha d (by simp [hd]))]
    omega

/-- What is needed of the lines `A`. -/
structure Under (A B : Str) : Prop where
  lined : Lined A
  ascii : Ascii A
  size : (A ++ B).length < 2 ^ 32

theorem inside_behind {A B : Str} (ha : Ascii A) (b : Nat) : b + A.length ≤ utf8Len (A ++ B) ↔ b ≤ utf8Len B := by
  rw [utf8Len_app, utf8Len_ascii ha]
  omega

theorem offsetToLspPos_outside {s : Str} {b : Nat} (h : ¬ b ≤ utf8Len s) : offsetToLspPos s b = none := by
  unfold offsetToLspPos byteToLine?
  rw [if_neg h]

theorem offsetToLspPos_behind {A B : Str} (h : Under A B) (b : Nat) :
    offsetToLspPos (A ++ B) (b + A.length) = (offsetToLspPos B b).map (lowerPos (linesOf A)) := by
  have hsz : B.length < 2 ^ 32 := by have := h.size; simp only [List.length_append] at this; omega
  by_cases hb : b ≤ utf8Len B
  · rw [offsetToLspPos_eq ((inside_behind h.ascii b).mpr hb) h.size, offsetToLspPos_eq hb hsz]
    have h1 := lineToChar_byteToLine (b + A.length) (A ++ B)
    rw [byteToLine_behind h.lined h.ascii, lineToChar_behind h.lined, lineToChar_byteToLine] at h1
    simp only [Option.map_some, Option.some.injEq] at h1
    simp only [Option.map_some, Option.some.injEq, lowerPos, Pos.mk.injEq]
    rw [byteToLine_behind h.lined h.ascii, byteToChar_behind h.ascii, ← h1]
    omega
  · rw [offsetToLspPos_outside hb, offsetToLspPos_outside (mt (inside_behind h.ascii b).mp hb)]
    rfl

theorem rangeToLsp_behind {A B : Str} (h : Under A B) (sp : Span) :
    rangeToLsp (A ++ B) (movedSpan A.length sp) = (rangeToLsp B sp).map (lowerRange (linesOf A)) := by
  unfold rangeToLsp movedSpan
  simp only [offsetToLspPos_behind h]
  cases offsetToLspPos B sp.start with
  | none => rfl
  | some s => cases offsetToLspPos B sp.stop <;> rfl

theorem lspPosToOffset_behind {A : Str} (h : Lined A) (B : Str) (p : Pos) :
    lspPosToOffset (A ++ B) (lowerPos (linesOf A) p) = (lspPosToOffset B p).map (· + A.length) := by
  unfold lspPosToOffset lowerPos
  simp only
  rw [Nat.add_comm p.line, lineToChar_behind h]
  cases lineToChar? p.line B with
  | none => rfl
  | some x => simp; omega

theorem dropBytes_behind {A : Str} (ha : Ascii A) (b : Nat) (B : Str) : dropBytes (b + A.length) (A ++ B) = dropBytes b B := by
  induction A with
  | nil => simp
  | cons c A ih =>
    rw [List.cons_append, List.length_cons, ← Nat.add_assoc]
    simp only [dropBytes]
    rw [utf8Size_ascii (ha c (by simp)), if_pos (by omega), show b + A.length + 1 - 1 = b + A.length by omega,
      ih (fun d hd => ha d (by simp [hd]))]

theorem sliceBytes_behind {A : Str} (ha : Ascii A) (B : Str) (s e : Nat) :
    sliceBytes (A ++ B) (s + A.length) (e + A.length) = sliceBytes B s e := by
  unfold sliceBytes
  rw [dropBytes_behind ha, show e + A.length - (s + A.length) = e - s by omega]
  simp only [Nat.add_le_add_iff_right]

end HyperIR
