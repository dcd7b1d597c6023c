import Verif.Proofs.RemarkLex
import Verif.Props.Below
import Verif.Proofs.Slices

/- Lines, columns and slices of texts that differ in remarks at the end of their lines (src/lsp_utils.rs). -/

namespace HyperIR
open Spec

/-! ### Lines of a text depend on what follows only at a final CR -/

/-- The text does not end with a carriage return. -/
def NoCrEnd (w : Str) : Prop := ∀ v, w ≠ v ++ ['\r']

theorem noCrEnd_tail {c : Char} {w : Str} (h : NoCrEnd (c :: w)) : NoCrEnd w ∧ (w = [] → c ≠ '\r') := by
  refine ⟨fun v e => h (c :: v) (by rw [e]; rfl), ?_⟩
  rintro rfl rfl
  exact h [] rfl

theorem isLineBreak_follow {c : Char} {w : Str} (h : NoCrEnd (c :: w)) (u : Str) : isLineBreak c (w ++ u) = isLineBreak c w := by
  cases w with
  | nil =>
    have := (noCrEnd_tail h).2 rfl
    unfold isLineBreak
    rw [if_neg this, if_neg this]
  | cons d w => rfl

theorem byteToLine_follow {w : Str} (h : NoCrEnd w) (ha : Ascii w) (u : Str) {b : Nat} (hb : b ≤ w.length) :
    byteToLine b (w ++ u) = byteToLine b w := by
  induction w generalizing b with
  | nil =>
    simp only [List.length_nil] at hb
    have : b = 0 := by omega
    subst this
    cases u with
    | nil => rfl
    | cons c u =>
      have := Char.utf8Size_pos c
      simp only [List.nil_append, byteToLine]
      rw [if_neg (by omega)]
  | cons c w ih =>
    have h1 := utf8Size_ascii (ha c (by simp))
    simp only [List.length_cons] at hb
    simp only [List.cons_append, byteToLine, h1, isLineBreak_follow h]
    split
    · rw [ih (noCrEnd_tail h).1 (fun d hd => ha d (by simp [hd])) (by omega)]
    · rfl

theorem lineStart_follow {w : Str} (h : NoCrEnd w) (ha : Ascii w) (u : Str) {b : Nat} (hb : b ≤ w.length) :
    lineStart b (w ++ u) = lineStart b w := by
  induction w generalizing b with
  | nil =>
    simp only [List.length_nil] at hb
    have : b = 0 := by omega
    subst this
    cases u with
    | nil => rfl
    | cons c u =>
      have := Char.utf8Size_pos c
      simp only [List.nil_append, lineStart]
      rw [if_neg (by omega)]
  | cons c w ih =>
    have h1 := utf8Size_ascii (ha c (by simp))
    have h2 := noCrEnd_tail h
    have h3 : Ascii w := fun d hd => ha d (by simp [hd])
    simp only [List.length_cons] at hb
    simp only [List.cons_append, lineStart, h1, isLineBreak_follow h]
    split
    · rw [ih h2.1 h3 (by omega), byteToLine_follow h2.1 h3 u (by omega)]
    · rfl

theorem byteToChar_follow {w : Str} (ha : Ascii w) (u : Str) {b : Nat} (hb : b ≤ w.length) : byteToChar b (w ++ u) = b := by
  induction w generalizing b with
  | nil =>
    simp only [List.length_nil] at hb
    have : b = 0 := by omega
    subst this
    cases u with
    | nil => rfl
    | cons c u =>
      have := Char.utf8Size_pos c
      simp only [List.nil_append, byteToChar]
      rw [if_neg (by omega)]
  | cons c w ih =>
    have h1 := utf8Size_ascii (ha c (by simp))
    simp only [List.length_cons] at hb
    simp only [List.cons_append, byteToChar, h1]
    split
    · rw [ih (fun d hd => ha d (by simp [hd])) (by omega)]
      omega
    · omega

/-- Positions in a text do not depend on what follows. -/
theorem offsetToLspPos_follow {w u v : Str} (h : NoCrEnd w) (ha : Ascii w) (hu : (w ++ u).length < 2 ^ 32) (hv : (w ++ v).length < 2 ^ 32) {b : Nat}
    (hb : b ≤ w.length) : offsetToLspPos (w ++ u) b = offsetToLspPos (w ++ v) b := by
  have hle : ∀ x : Str, b ≤ utf8Len (w ++ x) := by
    intro x
    rw [utf8Len_app, utf8Len_ascii ha]
    omega
  rw [offsetToLspPos_eq (hle u) hu, offsetToLspPos_eq (hle v) hv, byteToLine_follow h ha u hb, byteToLine_follow h ha v hb,
    lineStart_follow h ha u hb, lineStart_follow h ha v hb, byteToChar_follow ha u hb, byteToChar_follow ha v hb]

theorem linesOf_append {w : Str} (h : NoCrEnd w) (u : Str) : linesOf (w ++ u) = linesOf w + linesOf u := by
  induction w with
  | nil => simp [linesOf, lenLines]
  | cons c w ih =>
    rw [List.cons_append, linesOf_cons, linesOf_cons, ih (noCrEnd_tail h).1, isLineBreak_follow h]
    omega

theorem byteToLine_noEol {w rest : Str} (hp : Plain w) (hn : NoEol w) {b : Nat} (hb : b ≤ w.length) : byteToLine b (w ++ rest) = 0 := by
  induction w generalizing b with
  | nil =>
    have : b = 0 := by simpa using hb
    subst this
    cases rest with
    | nil => rfl
    | cons c u =>
      have := Char.utf8Size_pos c
      simp only [List.nil_append, byteToLine]
      rw [if_neg (by omega)]
  | cons c w ih =>
    simp only [List.length_cons] at hb
    have hb' : isLineBreak c (w ++ rest) = false := by
      have h1 := hp c (by simp)
      have h2 := hn c (by simp)
      have h3 : c.toNat ≠ 10 := fun e => h2.1 (Char.ext (UInt32.toNat_inj.mp e))
      unfold isLineBreak
      rw [if_neg h2.2]
      simp only [decide_eq_false_iff_not]
      omega
    have h1 := utf8Size_ascii (hp c (by simp)).1
    simp only [List.cons_append, byteToLine, h1, hb']
    split
    · rw [ih (fun d hd => hp d (by simp [hd])) (fun d hd => hn d (by simp [hd])) (by omega)]
      rfl
    · rfl

theorem byteToLine_after {w : Str} (h : NoCrEnd w) (ha : Ascii w) (b : Nat) (B : Str) :
    byteToLine (b + w.length) (w ++ B) = linesOf w + byteToLine b B := by
  induction w with
  | nil => simp [linesOf, lenLines]
  | cons c A ih =>
    rw [linesOf_cons, List.cons_append, List.length_cons]
    simp only [byteToLine]
    rw [utf8Size_ascii (ha c (by simp)), if_pos (by omega), isLineBreak_follow h, show b + (A.length + 1) - 1 = b + A.length by omega,
      ih (noCrEnd_tail h).1 (fun d hd => ha d (by simp [hd]))]
    omega

/-! ### Code, remarks and line ends -/

theorem code_noCrEnd {w : Str} (h : Code w) : NoCrEnd w := by
  induction h with
  | nil => intro v e; simp at e
  | @char c w _ _ _ h4 _ ih =>
    intro v e
    cases v with
    | nil => exact h4 (List.cons.inj e).1
    | cons d v => exact ih v (List.cons.inj e).2
  | @str s w _ _ ih =>
    intro v e
    by_cases hw : w = []
    · subst hw
      have := congrArg List.getLast? e
      rw [List.getLast?_concat, List.getLast?_concat] at this
      exact absurd this (by decide)
    · obtain ⟨w', x, rfl⟩ : ∃ w' x, w = w' ++ [x] := ⟨w.dropLast, w.getLast hw, (List.dropLast_concat_getLast hw).symm⟩
      have := congrArg List.getLast? e
      rw [List.getLast?_concat, show '"' :: s ++ '"' :: (w' ++ [x]) = ('"' :: s ++ '"' :: w') ++ [x] by simp, List.getLast?_concat] at this
      exact ih w' (by rw [Option.some.inj this])

theorem remark_noEol {c : Str} (h : Remark c) : NoEol c := by
  obtain ⟨b, hb, h⟩ := h
  have hb' := (blank_plain hb).2
  rcases h with rfl | ⟨t, rfl, ht⟩
  · exact hb'
  · intro d hd
    simp only [List.mem_append, List.mem_cons] at hd
    rcases hd with hd | rfl | hd
    · exact hb' d hd
    · decide
    · exact ht d hd

theorem noCrEnd_noEol {w : Str} (h : NoEol w) : NoCrEnd w := by
  rintro v rfl
  exact (h '\r' (by simp)).2 rfl

theorem noCrEnd_append {w c : Str} (hw : NoCrEnd w) (hc : NoEol c) : NoCrEnd (w ++ c) := by
  intro v e
  by_cases hn : c = []
  · subst hn
    exact hw v (by simpa using e)
  · obtain ⟨w', x, rfl⟩ : ∃ w' x, c = w' ++ [x] := ⟨c.dropLast, c.getLast hn, (List.dropLast_concat_getLast hn).symm⟩
    have := congrArg List.getLast? e
    rw [List.getLast?_concat, ← List.append_assoc, List.getLast?_concat] at this
    exact (hc x (by simp)).2 (Option.some.inj this)

theorem linesOf_lineEnd {e : Str} (h : LineEnd e) : linesOf e = 1 := by
  rcases h with rfl | rfl <;> decide

theorem lineEnd_lined {w e : Str} (h : LineEnd e) : Lined (w ++ e) := by
  rcases h with rfl | rfl
  · exact .inr ⟨w, rfl⟩
  · exact .inr ⟨w ++ ['\r'], by simp⟩

theorem plain_left {a b : Str} (h : Plain (a ++ b)) : Plain a := fun c hc => h c (by simp [hc])
theorem plain_right {a b : Str} (h : Plain (a ++ b)) : Plain b := fun c hc => h c (by simp [hc])
theorem plain_asc {a : Str} (h : Plain a) : Ascii a := fun c hc => (h c hc).1

theorem linesOf_line {w c e : Str} (hw : Code w) (hc : Remark c) (he : LineEnd e) (hp : Plain c) : linesOf (w ++ c ++ e) = linesOf w + 1 := by
  rw [List.append_assoc, linesOf_append (code_noCrEnd hw), linesOf_noEol hp (remark_noEol hc), linesOf_lineEnd he]

/-! ### Positions -/

theorem placed_facts {T0 T f g} (h : Placed T0 T f g) : (∀ a b, a < b → g a < g b) ∧ f T0.length = T.length ∧ g (T0.length + 1) = T.length + 1 ∧
    g 0 = 0 ∧ (∀ x, T0.length < x → T.length < g x) ∧ (∀ x, x ≤ T0.length → g x ≤ T.length) := by
  induction h with
  | @last w c hw hc =>
    refine ⟨?_, ?_, ?_, ?_, ?_, ?_⟩
    · intro a b h
      simp only
      split <;> split <;> omega
    · simp
    · simp only
      rw [if_neg (by omega)]
      simp only [List.length_append]
      omega
    · simp
    · intro x hx
      simp only
      rw [if_neg (by omega)]
      simp only [List.length_append]
      omega
    · intro x hx
      simp only
      rw [if_pos (by omega)]
      simp only [List.length_append]
      omega
  | @line w c e l0 l f g hw hc he hp ih =>
    obtain ⟨h1, h2, h3, h4, h5, h6⟩ := ih
    refine ⟨?_, ?_, ?_, ?_, ?_, ?_⟩
    · intro a b h
      simp only
      split
      · split
        · omega
        · have : 0 < e.length := by rcases he with rfl | rfl <;> decide
          omega
      · rw [if_neg (by omega)]
        have := h1 (a - (w.length + 1)) (b - (w.length + 1)) (by omega)
        omega
    · simp only [List.length_append, List.length_cons]
      have a1 : ¬ w.length + (l0.length + 1) < w.length := by omega
      have a2 : ¬ w.length + (l0.length + 1) = w.length := by omega
      simp only [a1, a2, if_false, show w.length + (l0.length + 1) - (w.length + 1) = l0.length by omega, h2]
    · simp only [List.length_append, List.length_cons]
      have a1 : ¬ w.length + (l0.length + 1) + 1 ≤ w.length := by omega
      simp only [a1, if_false, show w.length + (l0.length + 1) + 1 - (w.length + 1) = l0.length + 1 by omega, h3]
      omega
    · simp
    · intro x hx
      simp only [List.length_append, List.length_cons] at hx ⊢
      have a1 : ¬ x ≤ w.length := by omega
      simp only [a1, if_false]
      have := h5 (x - (w.length + 1)) (by omega)
      omega
    · intro x hx
      simp only [List.length_append, List.length_cons] at hx ⊢
      split
      · omega
      · have := h6 (x - (w.length + 1)) (by omega)
        omega

theorem placed_plain {T0 T f g} (h : Placed T0 T f g) (hp : Plain T) : Plain T0 := by
  induction h with
  | last => exact plain_left hp
  | @line w c e l0 l f g hw hc he _ ih =>
    rw [List.append_assoc, List.append_assoc] at hp
    have := ih (plain_right (plain_right (plain_right hp)))
    intro d hd
    simp only [List.mem_append, List.mem_cons] at hd
    rcases hd with hd | rfl | hd
    · exact hp d (by simp [hd])
    · decide
    · exact this d hd

theorem placed_size {T0 T f g} (h : Placed T0 T f g) : T0.length ≤ T.length := by
  have := placed_facts h
  exact Nat.le_trans (by
    have hs : ∀ n, n ≤ g n := by
      intro n
      induction n with
      | zero => omega
      | succ n ih => have := this.1 n (n + 1) (by omega); omega
    exact hs T0.length) (this.2.2.2.2.2 T0.length (Nat.le_refl _))

/-- `g` keeps lines and columns. -/
theorem placed_pos {T0 T f g} (h : Placed T0 T f g) (hp : Plain T) (hs : T.length < 2 ^ 32) (x : Nat) :
    offsetToLspPos T (g x) = offsetToLspPos T0 x := by
  induction h generalizing x with
  | @last w c hw hc =>
    simp only
    split
    · rename_i hx
      have := offsetToLspPos_follow (u := c) (v := []) (code_noCrEnd hw) (plain_asc (plain_left hp)) hs (by
        simp only [List.length_append] at hs ⊢; simp; omega) hx
      simpa using this
    · rw [offsetToLspPos_outside, offsetToLspPos_outside]
      · rw [utf8Len_ascii (plain_asc (plain_left hp))]; omega
      · rw [utf8Len_ascii (plain_asc hp)]; simp only [List.length_append]; omega
  | @line w c e l0 l f g hw hc he hpl ih =>
    have hpw : Plain w := by rw [List.append_assoc, List.append_assoc] at hp; exact plain_left hp
    have hpc : Plain c := by rw [List.append_assoc] at hp; exact plain_right (plain_left hp)
    have hple : Plain (w ++ c ++ e) := plain_left hp
    have hpl' : Plain l := plain_right hp
    have hsl : l.length < 2 ^ 32 := by simp only [List.length_append] at hs; omega
    have h0 := placed_size hpl
    have hs0 : (w ++ '\n' :: l0).length < 2 ^ 32 := by
      have : 0 < e.length := by rcases he with rfl | rfl <;> decide
      simp only [List.length_append, List.length_cons] at hs ⊢; omega
    simp only
    split
    · rename_i hx
      rw [List.append_assoc, List.append_assoc] at hs ⊢
      exact offsetToLspPos_follow (code_noCrEnd hw) (plain_asc hpw) hs hs0 hx
    · rename_i hx
      obtain ⟨y, rfl⟩ : ∃ y, x = y + (w.length + 1) := ⟨x - (w.length + 1), by omega⟩
      rw [Nat.add_sub_cancel]
      have e1 := offsetToLspPos_behind (A := w ++ c ++ e) (B := l) ⟨lineEnd_lined he, (plain_asc hple), hs⟩ (g y)
      rw [show g y + (w ++ c ++ e).length = w.length + c.length + e.length + g y by simp only [List.length_append]; omega] at e1
      have e2 := offsetToLspPos_behind (A := w ++ ['\n']) (B := l0) ⟨.inr ⟨w, rfl⟩, (by
        intro d hd
        simp only [List.mem_append, List.mem_cons, List.not_mem_nil, or_false] at hd
        rcases hd with hd | rfl
        · exact (plain_asc hpw) d hd
        · decide), (by simpa using hs0)⟩ y
      rw [show y + (w ++ ['\n']).length = y + (w.length + 1) by simp, List.append_assoc, List.cons_append, List.nil_append] at e2
      rw [e1, e2, ih hpl' hsl, linesOf_line hw hc he hpc, linesOf_append (code_noCrEnd hw), show linesOf ['\n'] = 1 from by decide]

/-- `f` keeps lines. -/
theorem placed_line {T0 T f g} (h : Placed T0 T f g) (hp : Plain T) (hs : T.length < 2 ^ 32) (x : Nat) :
    (offsetToLspPos T (f x)).map Pos.line = (offsetToLspPos T0 x).map Pos.line := by
  induction h generalizing x with
  | @last w c hw hc =>
    have hsw : w.length < 2 ^ 32 := by simp only [List.length_append] at hs; omega
    simp only
    split
    · rename_i hx
      have := offsetToLspPos_follow (u := c) (v := []) (b := x) (code_noCrEnd hw) (plain_asc (plain_left hp)) hs (by simpa using hsw) (by omega)
      rw [this]
      simp
    · by_cases hx : x = w.length
      · subst hx
        have hl : w.length + c.length ≤ utf8Len (w ++ c) := by rw [utf8Len_ascii (plain_asc hp)]; simp
        have hl' : w.length ≤ utf8Len w := by rw [utf8Len_ascii (plain_asc (plain_left hp))]; omega
        rw [offsetToLspPos_eq hl hs, offsetToLspPos_eq hl' hsw]
        simp only [Option.map_some, Option.some.injEq]
        rw [Nat.add_comm, byteToLine_after (code_noCrEnd hw) (plain_asc (plain_left hp))]
        have h1 := byteToLine_after (code_noCrEnd hw) (plain_asc (plain_left hp)) 0 []
        have h2 := byteToLine_noEol (rest := []) (plain_right hp) (remark_noEol hc) (Nat.le_refl _)
        simp only [List.append_nil, Nat.zero_add] at h1 h2
        rw [h1, h2]
        rfl
      · rw [offsetToLspPos_outside, offsetToLspPos_outside]
        · rw [utf8Len_ascii (plain_asc (plain_left hp))]; omega
        · rw [utf8Len_ascii (plain_asc hp)]; simp only [List.length_append]; omega
  | @line w c e l0 l f g hw hc he hpl ih =>
    have hpw : Plain w := by rw [List.append_assoc, List.append_assoc] at hp; exact plain_left hp
    have hpc : Plain c := by rw [List.append_assoc] at hp; exact plain_right (plain_left hp)
    have hple : Plain (w ++ c ++ e) := plain_left hp
    have hpl' : Plain l := plain_right hp
    have hsl : l.length < 2 ^ 32 := by simp only [List.length_append] at hs; omega
    have h0 := placed_size hpl
    have hs0 : (w ++ '\n' :: l0).length < 2 ^ 32 := by
      have : 0 < e.length := by rcases he with rfl | rfl <;> decide
      simp only [List.length_append, List.length_cons] at hs ⊢; omega
    simp only
    split
    · rename_i hx
      rw [List.append_assoc, List.append_assoc] at hs ⊢
      rw [offsetToLspPos_follow (b := x) (code_noCrEnd hw) (plain_asc hpw) hs hs0 (by omega)]
    · split
      · rename_i hx
        subst hx
        have hn : nlStart c e ≤ c.length + e.length - 1 := by
          unfold nlStart
          split <;> (rcases he with rfl | rfl <;> simp)
        have h1 : w.length + nlStart c e ≤ utf8Len (w ++ c ++ e ++ l) := by
          rw [utf8Len_ascii (plain_asc hp)]
          simp only [List.length_append]
          omega
        have h2 : w.length ≤ utf8Len (w ++ '\n' :: l0) := by
          rw [utf8Len_app, utf8Len_ascii (plain_asc hpw)]
          omega
        rw [offsetToLspPos_eq h1 hs, offsetToLspPos_eq h2 hs0]
        simp only [Option.map_some, Option.some.injEq]
        rw [List.append_assoc, List.append_assoc, Nat.add_comm w.length, byteToLine_after (code_noCrEnd hw) (plain_asc hpw)]
        have h3 := byteToLine_after (code_noCrEnd hw) (plain_asc hpw) 0 ('\n' :: l0)
        rw [Nat.zero_add] at h3
        rw [h3, show byteToLine 0 ('\n' :: l0) = 0 by simp [byteToLine, Char.utf8Size]]
        congr 1
        by_cases hnc : nlStart c e ≤ c.length
        · exact byteToLine_noEol hpc (remark_noEol hc) hnc
        · have : e = ['\r', '\n'] ∧ nlStart c e = 1 + c.length := by
            rcases he with rfl | rfl
            · simp at hn; omega
            · simp only [List.length_cons, List.length_nil] at hn
              exact ⟨rfl, by omega⟩
          rw [this.2, this.1, byteToLine_after (noCrEnd_noEol (remark_noEol hc)) (plain_asc hpc)]
          have h4 : linesOf c = 0 := by
            have := linesOf_noEol (rest := []) hpc (remark_noEol hc)
            simpa [linesOf, lenLines] using this
          rw [h4]
          simp only [byteToLine, isLineBreak, List.cons_append, Nat.zero_add]
          simp
          intro _
          decide
      · rename_i hx hx'
        obtain ⟨y, rfl⟩ : ∃ y, x = y + (w.length + 1) := ⟨x - (w.length + 1), by omega⟩
        rw [Nat.add_sub_cancel]
        have e1 := offsetToLspPos_behind (A := w ++ c ++ e) (B := l) ⟨lineEnd_lined he, (plain_asc hple), hs⟩ (f y)
        rw [show f y + (w ++ c ++ e).length = w.length + c.length + e.length + f y by simp only [List.length_append]; omega] at e1
        have e2 := offsetToLspPos_behind (A := w ++ ['\n']) (B := l0) ⟨.inr ⟨w, rfl⟩, (by
          intro d hd
          simp only [List.mem_append, List.mem_cons, List.not_mem_nil, or_false] at hd
          rcases hd with hd | rfl
          · exact (plain_asc hpw) d hd
          · decide), (by simpa using hs0)⟩ y
        rw [show y + (w ++ ['\n']).length = y + (w.length + 1) by simp, List.append_assoc, List.cons_append, List.nil_append] at e2
        rw [e1, e2, linesOf_line hw hc he hpc, linesOf_append (code_noCrEnd hw), show linesOf ['\n'] = 1 from by decide]
        have := ih hpl' hsl y
        revert this
        cases offsetToLspPos l (f y) <;> cases offsetToLspPos l0 y <;> simp [lowerPos]

/-! ### What tokens of one line say -/

theorem sliceBytes_follow {w u : Str} (ha : Ascii (w ++ u)) {a b : Nat} (hb : b ≤ w.length) : sliceBytes (w ++ u) a b = sliceBytes w a b := by
  by_cases hab : a ≤ b
  · rw [sliceBytes_ascii ha hab (by simp only [List.length_append]; omega), sliceBytes_ascii (fun c hc => ha c (by simp [hc])) hab hb]
    congr 1
    rw [List.drop_append_of_le_length (by omega), List.take_append_of_le_length (by simp only [List.length_drop]; omega)]
  · unfold sliceBytes
    rw [if_neg hab, if_neg hab]

theorem infix_split {α : Type} {d A B : List α} {x : α} (h : d <:+: A ++ x :: B) (hx : x ∉ d) (hd : d ≠ []) : d <:+: A ∨ d <:+: B := by
  obtain ⟨s, t, h⟩ := h
  rw [List.append_assoc, List.append_eq_append_iff] at h
  rcases h with ⟨a', rfl, h⟩ | ⟨c', rfl, h⟩
  · rw [List.append_eq_append_iff] at h
    rcases h with ⟨a'', rfl, _⟩ | ⟨c', rfl, h⟩
    · exact .inl ⟨s, a'', by simp⟩
    · cases c' with
      | nil => exact .inl ⟨s, [], by simp⟩
      | cons y c' =>
        rw [List.cons_append] at h
        exact absurd (by rw [(List.cons.inj h).1]; simp) hx
  · cases c' with
    | nil =>
      cases d with
      | nil => exact absurd rfl hd
      | cons y d =>
        simp only [List.nil_append, List.cons_append] at h
        exact absurd (by rw [(List.cons.inj h).1]; simp) hx
    | cons y c' =>
      rw [List.cons_append] at h
      exact .inr ⟨c', t, by rw [(List.cons.inj h).2]; simp⟩

/-- Neighbouring tokens without a line end between them stand for the same text. -/
theorem placed_slice [Unicode] {T0 T f g} (h : Placed T0 T f g) (hp : Plain T) : ∀ {ts0}, Lexes 0 T0 ts0 → ∀ {d : List Tok} {x y : Tok}, d <:+: ts0 → OneLine d →
    d.head? = some x → d.getLast? = some y → sliceBytes T (g x.2.start) (g y.2.stop) = sliceBytes T0 x.2.start y.2.stop := by
  induction h with
  | @last w c hw hc =>
    intro ts0 h0 d x y hd _ hx hy
    have hk := lexes_code_kinds h0 hw
    have kx := hk x (hd.subset (List.mem_of_head? hx))
    have ky := hk y (hd.subset (List.mem_of_getLast? hy))
    simp only
    rw [if_pos (by omega), if_pos (by omega)]
    exact sliceBytes_follow (plain_asc hp) (by omega)
  | @line w c e l0 l f g hw hc he hpl ih =>
    intro ts0 h0 d x y hd ho hx hy
    have hend0 : TokenEnd ('\n' :: l0) := by intro c cs h; cases h; decide
    obtain ⟨tsw, ts2, rfl, h1, h2⟩ := lexes_code hend0 h0 hw rfl
    obtain ⟨ts', rfl, h3⟩ := lexes_leading (b := []) (w := ['\n']) (by intro c hc; cases hc) (longest_lf .lf) (by simpa using h2)
    obtain ⟨tl0, h4, rfl⟩ := lexes_unshift (o := 0) (k := w.length + 1) (by simpa [Nat.add_assoc] using h3)
    have hdne : d ≠ [] := by rintro rfl; cases hx
    have hk := lexes_code_kinds h1 hw
    have hp0 : Plain (w ++ '\n' :: l0) := placed_plain (.line hw hc he hpl) hp
    have hpl' : Plain l := plain_right hp
    have hple : Plain (w ++ c ++ e) := plain_left hp
    rcases infix_split hd (fun hm => ho _ hm rfl) hdne with hd | hd
    · have kx := hk x (hd.subset (List.mem_of_head? hx))
      have ky := hk y (hd.subset (List.mem_of_getLast? hy))
      simp only
      rw [if_pos (by omega), if_pos (by omega), sliceBytes_follow (plain_asc hp0) (by omega)]
      rw [List.append_assoc, List.append_assoc] at hp ⊢
      exact sliceBytes_follow (plain_asc hp) (by omega)
    · obtain ⟨s, t, hst⟩ := hd
      obtain ⟨m1, m2, e1, e2, e3⟩ := List.map_eq_append_iff.mp hst.symm
      obtain ⟨m3, m4, e4, e5, e6⟩ := List.map_eq_append_iff.mp e2
      subst e6
      rw [List.head?_map] at hx
      rw [List.getLast?_map] at hy
      obtain ⟨x, hx', rfl⟩ := Option.map_eq_some_iff.mp hx
      obtain ⟨y, hy', rfl⟩ := Option.map_eq_some_iff.mp hy
      have := ih hpl' h4 (d := m4) ⟨m3, m2, by rw [e1, e4]⟩ (fun t ht => by
        have := ho _ (List.mem_map_of_mem (f := shiftTok (w.length + 1)) ht)
        exact this) hx' hy'
      simp only [shiftTok]
      have a1 : ¬ x.2.start + (w.length + 1) ≤ w.length := by omega
      have a2 : ¬ y.2.stop + (w.length + 1) ≤ w.length := by omega
      simp only [a1, a2, if_false, Nat.add_sub_cancel]
      have b1 := sliceBytes_behind (plain_asc hple) l (g x.2.start) (g y.2.stop)
      have b2 := sliceBytes_behind (A := w ++ ['\n']) (by
        intro d hd
        simp only [List.mem_append, List.mem_cons, List.not_mem_nil, or_false] at hd
        rcases hd with hd | rfl
        · exact (hple d (by simp [hd])).1
        · decide) l0 x.2.start y.2.stop
      simp only [List.length_append, List.length_cons, List.length_nil, List.append_assoc, List.cons_append, List.nil_append, Nat.zero_add] at b1 b2
      rw [b2, ← this, ← b1]
      simp only [List.append_assoc]
      congr 1 <;> omega

end HyperIR
