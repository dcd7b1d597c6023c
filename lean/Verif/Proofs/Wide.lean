import Verif.Spec.Wide
import Verif.Proofs.Rope

/-
Positions in texts with characters outside of ASCII.
-/

namespace HyperIR
open Spec

/-- Number of lines ended by the first `n` characters. -/
def charToLine : Nat → Str → Nat
  | 0, _ => 0
  | _ + 1, [] => 0
  | n + 1, c :: cs => (if isLineBreak c cs then 1 else 0) + charToLine n cs

theorem byteToLine_chars : ∀ (b : Nat) (s : Str), byteToLine b s = charToLine (byteToChar b s) s
  | _, [] => by simp [byteToLine, byteToChar, charToLine]
  | b, c :: cs => by
    unfold byteToLine byteToChar
    split
    · rw [Nat.add_comm 1, charToLine, byteToLine_chars]
    · simp [charToLine]

theorem charToLine_mono : ∀ (s : Str) {m n : Nat}, m ≤ n → charToLine m s ≤ charToLine n s
  | _, 0, _, _ => by simp [charToLine]
  | [], m + 1, n, _ => by simp [charToLine]
  | c :: cs, m + 1, 0, h => by omega
  | c :: cs, m + 1, n + 1, h => by
    have := charToLine_mono cs (m := m) (n := n) (by omega)
    simp only [charToLine]
    omega

/-- In text with the usual lines, the server knows only the line ends of the protocol. -/
theorem isLineBreak_usual {c : Char} {rest : Str}
    (h : c.toNat ≠ 11 ∧ c.toNat ≠ 12 ∧ c.toNat ≠ 0x85 ∧ c.toNat ≠ 0x2028 ∧ c.toNat ≠ 0x2029) (h1 : c ≠ '\n') (h2 : c ≠ '\r') :
    isLineBreak c rest = false := by
  have hn : c.toNat ≠ 10 := fun hc => h1 (by rw [← Char.ofNat_toNat (c := c), hc])
  unfold isLineBreak
  rw [if_neg h2]
  simp only [decide_eq_false_iff_not]
  omega

theorem Spec.UsualLines.append {a b : Str} : UsualLines (a ++ b) ↔ UsualLines a ∧ UsualLines b := by
  unfold UsualLines
  simp only [List.mem_append]
  exact ⟨fun h => ⟨fun c hc => h c (.inl hc), fun c hc => h c (.inr hc)⟩, fun h c hc => hc.elim (h.1 c) (h.2 c)⟩

theorem usual_content {content : Str} (hu : UsualLines content) (h : NoEol content) (tail : Str) (n : Nat) :
    lineToChar? (n + 1) (content ++ tail) = (lineToChar? (n + 1) tail).map (· + content.length) ∧
    ∀ k, charToLine (content.length + k) (content ++ tail) = charToLine k tail := by
  induction content with
  | nil => simp
  | cons c cs ih =>
    obtain ⟨i1, i2⟩ := ih (fun c hc => hu c (by simp [hc])) (fun c hc => h c (by simp [hc]))
    have hb := isLineBreak_usual (rest := cs ++ tail) (hu c (by simp)) (h c (by simp)).1 (h c (by simp)).2
    constructor
    · simp only [List.cons_append, lineToChar?, hb, Bool.false_eq_true, if_false, i1, Option.map_map, List.length_cons]
      congr 1
    · intro k
      simp only [List.length_cons, show cs.length + 1 + k = (cs.length + k) + 1 by omega, List.cons_append, charToLine, hb, Bool.false_eq_true, if_false, i2]
      omega

theorem usual_inside {content : Str} (hu : UsualLines content) (h : NoEol content) (tail : Str) {k : Nat} (hk : k ≤ content.length) :
    charToLine k (content ++ tail) = 0 := by
  have h1 := charToLine_mono (content ++ tail) (m := k) (n := content.length + 0) (by omega)
  rw [(usual_content hu h tail 0).2 0] at h1
  simpa [charToLine] using h1

theorem charToLine_eol {eol rest : Str} (h : Eol eol) (hr : eol = ['\r'] → rest.head? ≠ some '\n') (k : Nat) :
    charToLine (eol.length + k) (eol ++ rest) = charToLine k rest + 1 := by
  have h10 : ∀ r, isLineBreak '\n' r = true := fun r => by simp [isLineBreak]
  rcases h with rfl | rfl | rfl
  · simp only [List.length_singleton, List.cons_append, List.nil_append, show 1 + k = k + 1 by omega, charToLine, h10, if_true]
    omega
  · have h13 : isLineBreak '\r' ('\n' :: rest) = false := by simp [isLineBreak]
    simp only [List.length_cons, List.length_nil, List.cons_append, List.nil_append, show 0 + 1 + 1 + k = (k + 1) + 1 by omega, charToLine, h10, h13,
      if_true, Bool.false_eq_true, if_false]
    omega
  · have h13 : isLineBreak '\r' rest = true := by
      have := hr rfl
      simpa [isLineBreak] using this
    simp only [List.length_singleton, List.cons_append, List.nil_append, show 1 + k = k + 1 by omega, charToLine, h13, if_true]
    omega

/-- In text with the usual lines, the server and the protocol agree about the lines. -/
theorem lspLine_usual {text : Str} {n start : Nat} {content : Str} (h : LspLine text n start content) (hu : UsualLines text) :
    lineToChar? n text = some start ∧ start + content.length ≤ text.length ∧
    (∀ k, k ≤ content.length → charToLine (start + k) text = n) ∧ content = (text.drop start).take content.length := by
  induction h with
  | @here content tail h1 h2 =>
    refine ⟨by unfold lineToChar?; rfl, by simp, ?_, by simp⟩
    intro k hk
    rw [Nat.zero_add]
    exact usual_inside (UsualLines.append.mp hu).1 h1 _ hk
  | @later content eol rest n start c h1 h2 h3 h4 ih =>
    obtain ⟨hu1, hu2⟩ := UsualLines.append.mp hu
    obtain ⟨hu0, _⟩ := UsualLines.append.mp hu1
    obtain ⟨i1, i2, i3, i4⟩ := ih hu2
    refine ⟨?_, ?_, ?_, ?_⟩
    · rw [List.append_assoc, (usual_content hu0 h1 _ n).1, (eol_step h2 h3 n).1, i1]
      simp
      omega
    · simp; omega
    · intro k hk
      rw [List.append_assoc, show content.length + eol.length + start + k = content.length + (eol.length + (start + k)) by omega,
        (usual_content hu0 h1 (eol ++ rest) n).2, charToLine_eol h2 h3, i3 k hk]
    · rw [← List.drop_drop, show content.length + eol.length = (content ++ eol).length by simp, List.drop_left]
      exact i4

theorem utf16Len_ge : ∀ s : Str, s.length ≤ utf16Len s
  | [] => by simp [utf16Len]
  | c :: cs => by
    have := utf16Len_ge cs
    simp only [utf16Len, utf16Size, List.length_cons]
    split <;> omega

theorem utf16Len_eq : ∀ s : Str, utf16Len s = s.length ↔ Basic s
  | [] => by simp [utf16Len, Basic]
  | c :: cs => by
    have h1 := utf16Len_ge cs
    have ih := utf16Len_eq cs
    simp only [utf16Len, utf16Size, List.length_cons]
    constructor
    · intro h
      split at h
      · rename_i hc
        have := ih.mp (by omega)
        intro x hx
        rcases List.mem_cons.mp hx with rfl | hx
        · exact hc
        · exact this x hx
      · omega
    · intro h
      rw [if_pos (h c (by simp)), ih.mpr (fun x hx => h x (by simp [hx]))]
      omega

/-- The number of characters in the first `off` bytes is `off` exactly if they are ASCII. -/
theorem byteToChar_eq : ∀ {off : Nat} {s : Str}, off ≤ s.length → (byteToChar off s ≤ off ∧ (byteToChar off s = off ↔ AsciiTo s off))
  | 0, s, _ => by
    rw [byteToChar_zero]
    simp [AsciiTo, Ascii]
  | off + 1, [], h => by simp at h
  | off + 1, c :: cs, h => by
    have hpos := c.utf8Size_pos
    unfold byteToChar
    have hasc : AsciiTo (c :: cs) (off + 1) ↔ c.toNat < 128 ∧ AsciiTo cs off := by
      simp [AsciiTo, Ascii]
    by_cases hc : c.toNat < 128
    · rw [utf8Size_ascii hc, if_pos (by omega), Nat.add_sub_cancel]
      have ih := byteToChar_eq (off := off) (s := cs) (by simp at h; omega)
      rw [hasc]
      refine ⟨by omega, ?_⟩
      constructor
      · intro h1; exact ⟨hc, ih.2.mp (by omega)⟩
      · intro h1; have := ih.2.mpr h1.2; omega
    · have hbig : 2 ≤ c.utf8Size := by
        have hv : ¬ c.val ≤ 0x7f := by
          rw [UInt32.le_iff_toNat_le]
          have : c.toNat = c.val.toNat := rfl
          simp; omega
        unfold Char.utf8Size
        simp only
        split
        · rename_i hx
          exact absurd hx hv
        · split <;> (try split) <;> omega
      have hlt : (if c.utf8Size ≤ off + 1 then 1 + byteToChar (off + 1 - c.utf8Size) cs else 0) < off + 1 := by
        split
        · have ih := byteToChar_eq (off := off + 1 - c.utf8Size) (s := cs) (by simp at h; omega)
          omega
        · omega
      refine ⟨Nat.le_of_lt hlt, ?_⟩
      constructor
      · intro h1; omega
      · intro h1; exact absurd (hasc.mp h1).1 hc

/-- The place reported for a character is its place exactly if only ASCII precedes it; otherwise it lies before it. -/
theorem place_wide {text : Str} (hsize : text.length < 2 ^ 32) (hu : UsualLines text) {q : Pos} {off : Nat} (hq : Utf16Offset text q off) :
    ∃ p, offsetToLspPos text off = some p ∧ PosLe p q ∧ (p = q ↔ AsciiTo text off) := by
  obtain ⟨start, content, k, hl, hk, rfl, hcol⟩ := hq
  obtain ⟨l1, l2, l3, l4⟩ := lspLine_usual hl hu
  have hlen := length_le_utf8Len text
  refine ⟨_, offsetToLspPos_eq (by omega) hsize, ?_⟩
  obtain ⟨b1, b2⟩ := byteToChar_eq (off := start + k) (s := text) (by omega)
  have hge := utf16Len_ge (content.take k)
  rw [List.length_take, Nat.min_eq_left hk, ← hcol] at hge
  have hline : byteToLine (start + k) text ≤ q.line := by
    rw [byteToLine_chars, ← l3 k hk]
    exact charToLine_mono _ b1
  have hst := lineToChar_byteToLine (start + k) text
  rcases Nat.lt_or_eq_of_le hline with hlt | heq
  · refine ⟨.inl hlt, ?_⟩
    constructor
    · rintro rfl
      simp at hlt
    · intro ha
      have e := b2.mpr ha
      rw [byteToLine_chars, e, l3 k hk] at hlt
      omega
  · rw [heq, l1] at hst
    simp only [Option.some.injEq] at hst
    rw [heq, ← hst]
    refine ⟨.inr ⟨rfl, by simp only; omega⟩, ?_⟩
    constructor
    · intro hpq
      have : byteToChar (start + k) text - start = q.character := by rw [← hpq]
      have hle := lineStart_le (start + k) text
      rw [← hst] at hle
      exact b2.mp (by omega)
    · intro ha
      have e := b2.mpr ha
      have hb : Basic (content.take k) := by
        intro c hc
        have h2 : c ∈ text.take (start + k) := by
          rw [l4, List.take_take, Nat.min_eq_left hk] at hc
          rw [List.take_add]
          exact List.mem_append_right _ hc
        have := ha c h2
        omega
      have e2 := (utf16Len_eq _).mpr hb
      rw [List.length_take, Nat.min_eq_left hk, ← hcol] at e2
      obtain ⟨ql, qc⟩ := q
      simp only [Pos.mk.injEq, true_and]
      simp only at e2
      omega

/-- The character read for an editor position is the right one exactly if the characters before it on its line are basic; otherwise
it lies behind it. -/
theorem cursor_wide {text : Str} (hu : UsualLines text) {q : Pos} {start k : Nat} {content : Str} (hl : LspLine text q.line start content)
    (hk : k ≤ content.length) (hcol : q.character = utf16Len (content.take k)) :
    ∃ off, lspPosToOffset text q = some off ∧ start + k ≤ off ∧ (off = start + k ↔ Basic (content.take k)) := by
  obtain ⟨l1, _, _, _⟩ := lspLine_usual hl hu
  have hge := utf16Len_ge (content.take k)
  rw [List.length_take, Nat.min_eq_left hk] at hge
  have he := utf16Len_eq (content.take k)
  rw [List.length_take, Nat.min_eq_left hk] at he
  refine ⟨start + q.character, by simp [lspPosToOffset, l1, Nat.add_comm], by omega, ?_⟩
  rw [← he, hcol]
  omega

end HyperIR
