import Verif.Proofs.Rope

/-
C14, C15, C16: editor positions.
-/

namespace HyperIR
open Spec

/-- C14: as far as the text is plain ASCII, every offset converts to a position and back to the same offset, and every
position inside a line denotes — in both directions — the offset of that character.  What follows in the text is arbitrary. -/
theorem C14_positions_partial {text : Str} (hsize : text.length < 2 ^ 32) :
    (∀ off ≤ text.length, PlainTo text off → ∃ p, offsetToLspPos text off = some p ∧ lspPosToOffset text p = some off) ∧
    (∀ p off, LspOffset text p off → PlainTo text off → lspPosToOffset text p = some off ∧ offsetToLspPos text off = some p) := by
  have hlen := length_le_utf8Len text
  constructor
  · intro off hoff hp
    have h := offsetToLspPos_eq (rope := text) (b := off) (by omega) hsize
    refine ⟨_, h, ?_⟩
    rw [roundtrip_byte h, byteToChar_plain hp hoff]
  · rintro ⟨line, character⟩ off ⟨start, content, hl, hc, rfl⟩ hp
    obtain ⟨h1, h2, h3⟩ := lspLine_line hl
    simp only at h1 h2 h3 hc hp ⊢
    replace h1 := h1 (hp.mono (by omega))
    constructor
    · simp [lspPosToOffset, h1, Nat.add_comm]
    · rw [offsetToLspPos_eq (by omega) hsize]
      have hb := h3 _ hc hp
      have hs := lineToChar_byteToLine (start + character) text
      rw [hb, h1] at hs
      simp only [Option.some.injEq] at hs
      rw [hb, byteToChar_plain hp (by omega), ← hs]
      simp

/-- For any text the round trip turns a byte offset into the number of the character at that offset. -/
theorem C14_roundtrip_char {text : Str} {off : Nat} (hoff : off ≤ utf8Len text) (hsize : text.length < 2 ^ 32) :
    ∃ p, offsetToLspPos text off = some p ∧ lspPosToOffset text p = some (byteToChar off text) :=
  ⟨_, offsetToLspPos_eq hoff hsize, roundtrip_byte (offsetToLspPos_eq hoff hsize)⟩

/-- C14 is false for text outside ASCII: in `é@a` the round trip moves the offset of the at sign's end. -/
theorem C14_refuted_nonascii :
    ∃ (text : Str) (off : Nat) (p : Pos), off ≤ utf8Len text ∧ offsetToLspPos text off = some p ∧
      lspPosToOffset text p ≠ some off :=
  ⟨c!"é@a", 3, { line := 0, character := 2 }, by decide, by decide, by decide⟩

/-- C14 is false for ASCII text with form feeds: the protocol sees one line, the server two. -/
theorem C14_refuted_formfeed :
    ∃ (text : Str) (p : Pos) (off : Nat), LspOffset text p off ∧ lspPosToOffset text p = some off ∧
      offsetToLspPos text off ≠ some p := by
  refine ⟨['a', Char.ofNat 12, 'b'], { line := 0, character := 2 }, 2, ⟨0, ['a', Char.ofNat 12, 'b'], ?_, by decide, rfl⟩,
    by decide, by decide⟩
  exact LspLine.here (content := ['a', Char.ofNat 12, 'b']) (tail := []) (by decide) (by intro c cs h; cases h)

/-- C15: every range inside the document (in bytes, for any text) converts, start not after end, and the
conversion keeps order, hence containment. -/
theorem C15_ranges {text : Str} (hsize : text.length < 2 ^ 32) (sp : Span) (h : sp.start ≤ sp.stop)
    (hin : sp.stop ≤ utf8Len text) :
    ∃ r, rangeToLsp text sp = some r ∧ PosLe r.start r.stop ∧
      (∀ (sp' : Span) r', rangeToLsp text sp' = some r' →
        (sp.start ≤ sp'.start → PosLe r.start r'.start) ∧ (sp'.stop ≤ sp.stop → PosLe r'.stop r.stop) ∧
        (sp.stop ≤ sp'.start → PosLe r.stop r'.start)) := by
  have mono : ∀ {b b'}, b ≤ b' → PosLe { line := byteToLine b text, character := byteToChar b text - lineStart b text }
      { line := byteToLine b' text, character := byteToChar b' text - lineStart b' text } := by
    intro b b' hb
    have h1 := byteToLine_mono text hb
    have h2 := byteToChar_mono text hb
    rcases Nat.lt_or_eq_of_le h1 with h1 | h1
    · exact .inl h1
    · refine .inr ⟨h1, ?_⟩
      have h3 := lineToChar_byteToLine b text
      have h4 := lineToChar_byteToLine b' text
      rw [h1, h4] at h3
      simp only [Option.some.injEq] at h3
      simp only [h3]
      omega
  have e1 := offsetToLspPos_eq (rope := text) (b := sp.start) (by omega) hsize
  have e2 := offsetToLspPos_eq (rope := text) (b := sp.stop) (by omega) hsize
  refine ⟨⟨_, _⟩, by simp only [rangeToLsp, e1, e2], mono h, ?_⟩
  intro sp' r' hr'
  simp only [rangeToLsp] at hr'
  cases h1 : offsetToLspPos text sp'.start with
  | none => simp [h1] at hr'
  | some p1 =>
    cases h2 : offsetToLspPos text sp'.stop with
    | none => simp [h1, h2] at hr'
    | some p2 =>
      simp only [h1, h2, Option.some.injEq] at hr'
      subst hr'
      obtain ⟨_, rfl⟩ := offsetToLspPos_some h1
      obtain ⟨_, rfl⟩ := offsetToLspPos_some h2
      exact ⟨mono, mono, mono⟩

/-- On ASCII text different offsets have different positions, so ranges neither collapse nor merge. -/
theorem C15_distinct {text : Str} (hascii : Ascii text) {a b : Nat} (ha : a ≤ text.length) (hb : b ≤ text.length) {p : Pos}
    (h1 : offsetToLspPos text a = some p) (h2 : offsetToLspPos text b = some p) : a = b := by
  have e1 := roundtrip_byte h1
  have e2 := roundtrip_byte h2
  rw [byteToChar_ascii hascii ha] at e1
  rw [byteToChar_ascii hascii hb] at e2
  rw [e1] at e2
  exact Option.some.inj e2

/-- C16 is false: a column beyond the end of the first line is taken for a place on the second line. -/
theorem C16_refuted :
    ∃ (text : Str) (start : Nat) (content : Str) (p : Pos), LspLine text p.line start content ∧ content.length < p.character ∧
      lspPosToOffset text p = lspPosToOffset text { line := 1, character := 0 } ∧ p.line = 0 := by
  refine ⟨c!"a\nb", 0, ['a'], { line := 0, character := 2 }, ?_, by decide, by decide, rfl⟩
  exact LspLine.here (content := ['a']) (tail := ['\n', 'b']) (by decide)
    (by intro c cs h; cases h; exact .inl rfl)

/-- What remains of C16: a column beyond the end of the last line becomes an offset outside of the document. -/
theorem C16_last_line_partial {text : Str} {n start : Nat} {content : Str} (hp : PlainTo text start) (h : LspLine text n start content)
    (hlast : start + content.length = text.length) {k : Nat} (hk : content.length < k) :
    ∃ off, lspPosToOffset text { line := n, character := k } = some off ∧ text.length < off := by
  refine ⟨start + k, ?_, by omega⟩
  simp [lspPosToOffset, (lspLine_line h).1 hp, Nat.add_comm]

section Examples

/-- A text with three kinds of line ends. -/
def exampleLines : Str := c!"ab\r\nc\rd\n"

example : Plain exampleLines := by decide

/-- The text is plain up to the end of the second line. -/
example : PlainTo (exampleLines ++ c!"é@a") 8 ∧ ¬ Plain (exampleLines ++ c!"é@a") := by decide

example : LspLine exampleLines 2 6 ['d'] := by
  have h := LspLine.later (content := ['a', 'b']) (eol := ['\r', '\n']) (rest := c!"c\rd\n") (by decide) (.inr (.inl rfl)) (by simp)
    (.later (content := ['c']) (eol := ['\r']) (rest := c!"d\n") (by decide) (.inr (.inr rfl)) (by simp)
      (.here (content := ['d']) (tail := ['\n']) (by decide) (by intro c cs h; cases h; exact .inl rfl)))
  exact h

example : offsetToLspPos exampleLines 6 = some { line := 2, character := 0 } := by decide
example : lspPosToOffset exampleLines { line := 2, character := 1 } = some 7 := by decide
example : rangeToLsp exampleLines ⟨1, 7⟩ = some { start := { line := 0, character := 1 }, stop := { line := 2, character := 1 } } := by
  decide

end Examples

end HyperIR
