import Verif.Spec.Position

/- Facts about positions and offsets (src/lsp_utils.rs, ropey). -/

namespace HyperIR
open Spec

/-- Start of the line that contains byte `b`. -/
def lineStart : Nat → Str → Nat
  | _, [] => 0
  | b, c :: cs =>
    if c.utf8Size ≤ b then
      if isLineBreak c cs || decide (0 < byteToLine (b - c.utf8Size) cs) then lineStart (b - c.utf8Size) cs + 1 else 0
    else 0

theorem lineToChar_byteToLine : ∀ (b : Nat) (s : Str), lineToChar? (byteToLine b s) s = some (lineStart b s)
  | _, [] => rfl
  | b, c :: cs => by
    unfold byteToLine lineStart
    split
    · have ih := lineToChar_byteToLine (b - c.utf8Size) cs
      by_cases hb : isLineBreak c cs
      · simp only [hb, if_true, Bool.true_or, Nat.add_comm 1]
        simp only [lineToChar?, hb, if_true, ih]
        rfl
      · simp only [hb, Bool.false_or, decide_eq_true_eq, Nat.zero_add, Bool.false_eq_true, if_false]
        cases hm : byteToLine (b - c.utf8Size) cs with
        | zero => simp [lineToChar?]
        | succ m =>
          rw [hm] at ih
          simp [lineToChar?, hb, ih]
    · rfl

theorem lineStart_le : ∀ (b : Nat) (s : Str), lineStart b s ≤ byteToChar b s
  | _, [] => Nat.le_refl _
  | b, c :: cs => by
    unfold lineStart byteToChar
    split
    · have := lineStart_le (b - c.utf8Size) cs
      split
      · omega
      · omega
    · omega

theorem byteToChar_mono : ∀ (s : Str) {b b' : Nat}, b ≤ b' → byteToChar b s ≤ byteToChar b' s
  | [], _, _, _ => Nat.le_refl _
  | c :: cs, b, b', h => by
    unfold byteToChar
    split
    · rw [if_pos (by omega)]
      have := byteToChar_mono cs (b := b - c.utf8Size) (b' := b' - c.utf8Size) (by omega)
      omega
    · omega

theorem byteToLine_mono : ∀ (s : Str) {b b' : Nat}, b ≤ b' → byteToLine b s ≤ byteToLine b' s
  | [], _, _, _ => Nat.le_refl _
  | c :: cs, b, b', h => by
    have ih := byteToLine_mono cs (b := b - c.utf8Size) (b' := b' - c.utf8Size) (by omega)
    unfold byteToLine
    by_cases h1 : c.utf8Size ≤ b
    · rw [if_pos h1, if_pos (Nat.le_trans h1 h)]
      omega
    · rw [if_neg h1]
      omega

theorem byteToChar_le : ∀ (b : Nat) (s : Str), byteToChar b s ≤ s.length
  | _, [] => Nat.le_refl _
  | b, c :: cs => by
    unfold byteToChar
    have := byteToChar_le (b - c.utf8Size) cs
    split <;> simp <;> omega

theorem byteToLine_le : ∀ (b : Nat) (s : Str), byteToLine b s ≤ byteToChar b s
  | _, [] => Nat.le_refl _
  | b, c :: cs => by
    unfold byteToLine byteToChar
    have := byteToLine_le (b - c.utf8Size) cs
    split
    · split <;> omega
    · omega

/-- The conversion of a byte offset to a position, in one formula. -/
theorem offsetToLspPos_eq {rope : Str} {b : Nat} (hb : b ≤ utf8Len rope) (hsize : rope.length < 2 ^ 32) :
    offsetToLspPos rope b = some { line := byteToLine b rope, character := byteToChar b rope - lineStart b rope } := by
  have h1 := byteToChar_le b rope
  have h2 := byteToLine_le b rope
  unfold offsetToLspPos byteToLine? byteToChar?
  simp only [hb, if_true, lineToChar_byteToLine]
  unfold toU32?
  rw [if_pos (by omega), if_pos (by omega)]

theorem offsetToLspPos_some {rope : Str} {b : Nat} {p : Pos} (h : offsetToLspPos rope b = some p) :
    b ≤ utf8Len rope ∧ p = { line := byteToLine b rope, character := byteToChar b rope - lineStart b rope } := by
  unfold offsetToLspPos byteToLine? byteToChar? at h
  by_cases hb : b ≤ utf8Len rope
  · simp only [hb, if_true, lineToChar_byteToLine] at h
    unfold toU32? at h
    by_cases h1 : byteToLine b rope < 2 ^ 32 <;>
      by_cases h2 : byteToChar b rope - lineStart b rope < 2 ^ 32 <;> simp only [h1, h2, if_true, if_false] at h <;>
      try (cases h; done)
    · cases h
      exact ⟨hb, rfl⟩
  · simp [hb] at h

theorem roundtrip_byte {rope : Str} {b : Nat} {p : Pos} (h : offsetToLspPos rope b = some p) :
    lspPosToOffset rope p = some (byteToChar b rope) := by
  obtain ⟨_, rfl⟩ := offsetToLspPos_some h
  unfold lspPosToOffset
  rw [lineToChar_byteToLine]
  have := lineStart_le b rope
  simp only [Option.map_some, Option.some.injEq]
  omega

theorem utf8Size_ascii {c : Char} (h : c.toNat < 128) : c.utf8Size = 1 := by
  unfold Char.utf8Size
  have h' : c.val.toNat < 128 := h
  have : c.val ≤ 0x7f := by
    rw [UInt32.le_iff_toNat_le]
    exact Nat.lt_succ_iff.mp h'
  simp [this]

theorem byteToChar_ascii : ∀ {s : Str} {b : Nat}, Ascii s → b ≤ s.length → byteToChar b s = b
  | [], b, _, hb => by simp at hb; subst hb; rfl
  | c :: cs, b, h, hb => by
    unfold byteToChar
    rw [utf8Size_ascii (h c (by simp))]
    split
    · rw [byteToChar_ascii (s := cs) (fun c hc => h c (by simp [hc])) (by simp at hb; omega)]
      omega
    · omega

theorem utf8Len_ascii : ∀ {s : Str}, Ascii s → utf8Len s = s.length
  | [], _ => rfl
  | c :: cs, h => by
    unfold utf8Len
    rw [utf8Size_ascii (h c (by simp)), utf8Len_ascii (s := cs) (fun c hc => h c (by simp [hc]))]
    simp; omega

theorem Spec.Plain.ascii {s : Str} (h : Plain s) : Ascii s := fun c hc => (h c hc).1

theorem isLineBreak_plain {c : Char} {rest : Str} (h : c.toNat < 128 ∧ c.toNat ≠ 11 ∧ c.toNat ≠ 12) :
    isLineBreak c rest = true ↔ c = '\n' ∨ (c = '\r' ∧ rest.head? ≠ some '\n') := by
  unfold isLineBreak
  have hn : c.toNat = 10 ↔ c = '\n' := by
    constructor
    · intro h
      exact Char.toNat_inj.mp h
    · rintro rfl; rfl
  split
  · rename_i hc
    subst hc
    simp
  · rename_i hc
    simp only [decide_eq_true_eq, hc, false_and, or_false]
    rw [hn]
    constructor
    · rintro (h1 | h1 | h1 | h1 | h1 | h1)
      · exact h1
      all_goals omega
    · exact .inl

theorem Spec.Plain.to {s : Str} (h : Plain s) (n : Nat) : PlainTo s n := fun c hc => h c (List.mem_of_mem_take hc)

theorem Spec.PlainTo.mono {s : Str} {m n : Nat} (h : PlainTo s n) (hm : m ≤ n) : PlainTo s m :=
  fun c hc => h c ((List.take_subset_take_left s hm) hc)

theorem plainTo_length {s : Str} : PlainTo s s.length ↔ Plain s := by
  unfold PlainTo
  rw [List.take_length]

theorem plainTo_append {a b : Str} {n : Nat} : PlainTo (a ++ b) (a.length + n) ↔ Plain a ∧ PlainTo b n := by
  unfold PlainTo
  rw [List.take_length_add_append]
  unfold Plain
  simp only [List.mem_append]
  exact ⟨fun h => ⟨fun c hc => h c (.inl hc), fun c hc => h c (.inr hc)⟩, fun h c hc => hc.elim (h.1 c) (h.2 c)⟩

theorem plainTo_cons {c : Char} {s : Str} {n : Nat} : PlainTo (c :: s) (n + 1) ↔ (c.toNat < 128 ∧ c.toNat ≠ 11 ∧ c.toNat ≠ 12) ∧ PlainTo s n := by
  unfold PlainTo Plain
  simp

theorem length_le_utf8Len : ∀ s : Str, s.length ≤ utf8Len s
  | [] => Nat.le_refl _
  | c :: cs => by
    have := length_le_utf8Len cs
    have := c.utf8Size_pos
    unfold utf8Len
    simp only [List.length_cons]
    omega

theorem byteToChar_zero (s : Str) : byteToChar 0 s = 0 := by
  cases s with
  | nil => rfl
  | cons c s =>
    unfold byteToChar
    rw [if_neg (by have := c.utf8Size_pos; omega)]

theorem byteToLine_zero (s : Str) : byteToLine 0 s = 0 := by
  cases s with
  | nil => rfl
  | cons c s =>
    unfold byteToLine
    rw [if_neg (by have := c.utf8Size_pos; omega)]

theorem byteToChar_plain : ∀ {s : Str} {b : Nat}, PlainTo s b → b ≤ s.length → byteToChar b s = b
  | s, 0, _, _ => byteToChar_zero s
  | [], b + 1, _, hb => by simp at hb
  | c :: cs, b + 1, h, hb => by
    rw [plainTo_cons] at h
    unfold byteToChar
    rw [utf8Size_ascii h.1.1, if_pos (by omega), Nat.add_sub_cancel, byteToChar_plain h.2 (by simpa using hb)]
    omega

/-- The first line of a plain text. -/
theorem noBreak_content {content tail : Str} (hp : Plain content) (h : NoEol content) (n : Nat) :
    lineToChar? (n + 1) (content ++ tail) = (lineToChar? (n + 1) tail).map (· + content.length) ∧
    ∀ b, content.length ≤ b → byteToLine b (content ++ tail) = byteToLine (b - content.length) tail := by
  induction content with
  | nil => simp
  | cons c content ih =>
    have hc : isLineBreak c (content ++ tail) = false := by
      rw [Bool.eq_false_iff, Ne, isLineBreak_plain (hp c (by simp))]
      have := h c (by simp)
      simp [this.1, this.2]
    obtain ⟨h1, h2⟩ := ih (fun c hc => hp c (by simp [hc])) (fun c hc => h c (by simp [hc]))
    constructor
    · simp only [List.cons_append, lineToChar?, hc, Bool.false_eq_true, if_false, h1, Option.map_map]
      congr 1
    · intro b hb
      simp only [List.cons_append, byteToLine, hc, utf8Size_ascii (hp c (by simp)).1, Bool.false_eq_true, if_false, Nat.zero_add]
      simp only [List.length_cons] at hb
      rw [if_pos (by omega), h2 _ (by omega)]
      congr 1
      simp; omega

theorem byteToLine_content {content tail : Str} (h : NoEol content) {b : Nat} (hp : PlainTo (content ++ tail) b)
    (hb : b ≤ content.length) : byteToLine b (content ++ tail) = 0 := by
  induction content generalizing b with
  | nil =>
    simp at hb
    subst hb
    exact byteToLine_zero _
  | cons c content ih =>
    cases b with
    | zero => exact byteToLine_zero _
    | succ b =>
      rw [List.cons_append, plainTo_cons] at hp
      have hc : isLineBreak c (content ++ tail) = false := by
        rw [Bool.eq_false_iff, Ne, isLineBreak_plain hp.1]
        have := h c (by simp)
        simp [this.1, this.2]
      simp only [List.cons_append, byteToLine, hc, utf8Size_ascii hp.1.1, Bool.false_eq_true, if_false, Nat.zero_add]
      rw [if_pos (by omega), Nat.add_sub_cancel]
      exact ih (fun c hc => h c (by simp [hc])) hp.2 (by simpa using hb)

theorem eol_step {eol rest : Str} (h : Eol eol) (hr : eol = ['\r'] → rest.head? ≠ some '\n') (n : Nat) :
    lineToChar? (n + 1) (eol ++ rest) = (lineToChar? n rest).map (· + eol.length) ∧
    ∀ b, eol.length ≤ b → byteToLine b (eol ++ rest) = byteToLine (b - eol.length) rest + 1 := by
  have h10 : ∀ r, isLineBreak '\n' r = true := fun r => by simp [isLineBreak]
  have s10 : '\n'.utf8Size = 1 := by decide
  have s13 : '\r'.utf8Size = 1 := by decide
  rcases h with rfl | rfl | rfl
  · constructor
    · simp [lineToChar?, h10]
    · intro b hb
      simp at hb
      simp only [List.cons_append, List.nil_append, byteToLine, s10, h10, if_true, List.length_singleton]
      rw [if_pos hb]
      omega
  · have h13 : isLineBreak '\r' ('\n' :: rest) = false := by simp [isLineBreak]
    constructor
    · simp [lineToChar?, h10, h13, Function.comp_def]
    · intro b hb
      simp at hb
      have h1 : 1 ≤ b := by omega
      have h2 : 1 ≤ b - 1 := by omega
      have h3 : b - 1 - 1 = b - (0 + 1 + 1) := by omega
      simp only [List.cons_append, List.nil_append, byteToLine, s10, s13, h10, h13, h1, h2, if_true, List.length_cons,
        List.length_nil, Bool.false_eq_true, if_false, h3]
      omega
  · have h13 : isLineBreak '\r' rest = true := by
      simp [isLineBreak, hr rfl]
    constructor
    · simp [lineToChar?, h13]
    · intro b hb
      simp at hb
      simp only [List.cons_append, List.nil_append, byteToLine, s13, h13, if_true, List.length_singleton]
      rw [if_pos hb]
      omega

theorem lspLine_line {text : Str} {n start : Nat} {content : Str} (h : LspLine text n start content) :
    (PlainTo text start → lineToChar? n text = some start) ∧ start + content.length ≤ text.length ∧
    ∀ c, c ≤ content.length → PlainTo text (start + c) → byteToLine (start + c) text = n := by
  induction h with
  | here h1 h2 =>
    refine ⟨fun _ => by unfold lineToChar?; rfl, by simp, ?_⟩
    intro c hc hp
    rw [Nat.zero_add] at hp ⊢
    exact byteToLine_content h1 hp hc
  | @later content eol rest n start c h1 h2 h3 h4 ih =>
    obtain ⟨i1, i2, i3⟩ := ih
    obtain ⟨e1, e2⟩ := eol_step h2 h3 n
    have hpl : ∀ k, PlainTo (content ++ eol ++ rest) (content.length + eol.length + start + k) → Plain content ∧ PlainTo rest (start + k) := by
      intro k hp
      rw [List.append_assoc, show content.length + eol.length + start + k = content.length + (eol.length + (start + k)) by omega, plainTo_append] at hp
      exact ⟨hp.1, (plainTo_append.mp hp.2).2⟩
    refine ⟨?_, ?_, ?_⟩
    · intro hp
      obtain ⟨p1, p2⟩ := hpl 0 hp
      rw [List.append_assoc, (noBreak_content p1 h1 n).1, e1, i1 p2]
      simp
      omega
    · simp; omega
    · intro k hk hp
      obtain ⟨p1, p2⟩ := hpl k hp
      rw [List.append_assoc, (noBreak_content p1 h1 n).2 _ (by omega), e2 _ (by omega)]
      have : content.length + eol.length + start + k - content.length - eol.length = start + k := by omega
      rw [this, i3 k hk p2]

end HyperIR
