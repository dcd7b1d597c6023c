import Verif.Proofs.LexFacts

/- Inserting a comment at the end of a line only adds a token. -/

namespace HyperIR
open Spec

section
variable [Unicode]

theorem nameTail_nohash {w : Str} (h : NameTail w) : '#' ∉ w := by
  intro hc
  rcases h.1 _ hc with h | h
  · revert h; exact not_nameChar_of (by decide) (by decide)
  · revert h; decide

/-- Only comments and strings contain `#`. -/
theorem spells_hash {t : Token} {w : Str} (h : Spells t w) : t = .comment ∨ (∃ v, t = .str v) ∨ '#' ∉ w := by
  rw [spells_iff] at h
  rcases h with ⟨rfl, v, rfl, _⟩ | ⟨v, _, rfl, h⟩ | ⟨_, h⟩ | ⟨v, rfl, rfl, _⟩ | ⟨c', _, rfl, h⟩
      | ⟨_, c, cs, rfl, h1, h⟩ | ⟨v, _, rfl, h⟩ | ⟨v, _, rfl, h⟩ | ⟨v, _, rfl, h⟩ | ⟨_, rfl | rfl⟩ | h
  · simp
  · right; right
    have := numeral_all h (by left; decide)
    simp only [List.mem_cons, not_or]
    refine ⟨by decide, by decide, fun hc => ?_⟩
    rcases this _ hc with h | h | h
    · exact digit_ne h (by decide) rfl
    · simp only [char_le_iff] at h
      revert h; decide
    · simp only [char_le_iff] at h
      revert h; decide
  · right; right
    have := numeral_all h (by decide)
    exact fun hc => digit_ne (this _ hc) (by decide) rfl
  · simp
  · right; right
    exact punct_forall (p := fun c => '#' ∉ [c]) (by decide) h
  · right; right
    simp only [List.mem_cons, not_or]
    refine ⟨?_, nameTail_nohash h⟩
    rintro rfl
    revert h1; exact not_head_of (by decide) (by decide)
  · right; right
    simp only [List.mem_cons, not_or]
    exact ⟨by decide, nameTail_nohash h⟩
  · right; right
    simp only [List.mem_cons, not_or]
    exact ⟨by decide, nameTail_nohash h⟩
  · right; right
    simp only [List.mem_cons, not_or]
    exact ⟨by decide, nameTail_nohash h⟩
  · right; right; decide
  · right; right; decide
  · exact h.elim

/-- A longest comment is followed by a line feed or nothing. -/
theorem longest_comment_next {w r : Str} {c : Char} (h : Longest .comment w (c :: r)) : c = '\n' := by
  apply Decidable.byContradiction
  intro hc
  obtain ⟨v, rfl, hv⟩ : ∃ v, w = '#' :: v ∧ '\n' ∉ v := by
    have h1 := h.1
    cases h1 with
    | comment h' => exact ⟨_, rfl, h'⟩
  have := h.2 .comment ('#' :: (v ++ [c])) r (.comment (by simp [hv, Ne.symm hc])) (by simp)
  simp at this
  omega

/-- A token stays the longest one if a comment is inserted somewhere behind it. -/
theorem longest_insert {t : Token} {w a b v : Str} (h : Longest t w (a ++ b))
    (hc : t = .comment → a ≠ []) : Longest t w (a ++ '#' :: v ++ b) := by
  refine ⟨h.1, ?_⟩
  intro t' w' r' hs' he
  rcases Nat.lt_or_ge (w.length + a.length) w'.length with hl | hl
  · -- the other spelling contains the `#`
    exfalso
    obtain ⟨u, rfl⟩ : ∃ u, w' = w ++ a ++ '#' :: u := by
      have h1 : (w ++ a ++ ['#']) <+: w' := by
        refine List.prefix_of_prefix_length_le (l₃ := w' ++ r') ?_ (List.prefix_append ..) (by simp; omega)
        rw [← he]
        exact ⟨v ++ b, by simp⟩
      obtain ⟨u, hu⟩ := h1
      exact ⟨u, by rw [← hu]; simp⟩
    have hne := spells_ne_nil h.1
    cases w with
    | nil => exact hne rfl
    | cons d w =>
      have f1 := spells_first h.1 rfl
      have f2 := spells_first hs' (c := d) (cs := w ++ a ++ '#' :: u) (by simp)
      rcases spells_hash hs' with rfl | ⟨x, rfl⟩ | h3
      · obtain rfl := f1.1.mp (f2.1.mpr rfl)
        cases a with
        | nil => exact hc rfl rfl
        | cons c a =>
          obtain rfl := longest_comment_next (r := a ++ b) h
          generalize hw : d :: w ++ '\n' :: a ++ '#' :: u = z at hs'
          cases hs' with
          | comment hv =>
            cases hw
            exact hv (by simp)
      · obtain ⟨v', rfl⟩ := f1.2.mp (f2.2.mpr ⟨x, rfl⟩)
        obtain ⟨hw, k1⟩ := spells_str h.1
        obtain ⟨hu, k2⟩ := spells_str hs'
        rw [hw] at hu
        have hu' : v' ++ '"' :: (a ++ '#' :: u) = x ++ '"' :: [] := by
          simpa using hu
        obtain ⟨_, h5⟩ := until_unique k1 k2 hu'
        simp at h5
      · exact h3 (by simp)
  · have h1 : w' <+: w ++ a := by
      refine List.prefix_of_prefix_length_le (l₃ := w' ++ r') (List.prefix_append ..) ?_ (by simp; omega)
      rw [← he]
      exact ⟨'#' :: v ++ b, by simp⟩
    obtain ⟨u, hu⟩ := h1
    refine h.2 t' w' (u ++ b) hs' ?_
    rw [← List.append_assoc, ← hu, List.append_assoc]

theorem lexes_lexesErr {o text toks} (h : Lexes o text toks) : LexesErr o text toks 0 := by
  induction h with
  | done h => exact .done h
  | tok h1 h2 _ ih => exact .tok h1 h2 ih

theorem lexesErr_lexes {o text toks n} (h : LexesErr o text toks n) (hn : n = 0) : Lexes o text toks := by
  induction h with
  | done h => exact .done h
  | tok h1 h2 _ ih => exact .tok h1 h2 (ih hn)
  | skip => omega

/-- Moving a text moves its tokens. -/
def shiftTok (k : Nat) (t : Spanned Token) : Spanned Token := (t.1, { start := t.2.start + k, stop := t.2.stop + k })

theorem lexes_shift {o text toks} (h : Lexes o text toks) (k : Nat) : Lexes (o + k) text (toks.map (shiftTok k)) := by
  induction h with
  | done h => exact .done h
  | @tok o b t w rest ts h1 h2 _ ih =>
    have := Lexes.tok (o := o + k) h1 h2 (ts := ts.map (shiftTok k)) (by
      have e : o + k + b.length + w.length = o + b.length + w.length + k := by omega
      rw [e]; exact ih)
    rw [List.map_cons]
    have e : shiftTok k (t, { start := o + b.length, stop := o + b.length + w.length })
        = (t, { start := o + k + b.length, stop := o + k + b.length + w.length }) := by
      simp only [shiftTok, Prod.mk.injEq, Span.mk.injEq, true_and]
      omega
    rw [e]
    exact this

/-- Inserting a comment at the end of a line (`b` is empty or starts with a line feed), outside of all
tokens and not right behind another comment. -/
theorem lexes_insert {o text toks} (h : Lexes o text toks) : ∀ {a b v : Str}, text = a ++ b →
    (∀ c cs, b = c :: cs → c = '\n') → '\n' ∉ v →
    (∀ t ∈ toks, t.2.stop ≤ o + a.length ∨ o + a.length ≤ t.2.start) →
    (∀ t ∈ toks, t.1 = .comment → t.2.stop ≠ o + a.length) →
    ∃ ta tb, toks = ta ++ tb ∧ (∀ t ∈ ta, t.2.stop ≤ o + a.length) ∧ (∀ t ∈ tb, o + a.length ≤ t.2.start) ∧
      Lexes o (a ++ '#' :: v ++ b)
        (ta ++ (.comment, { start := o + a.length, stop := o + a.length + (v.length + 1) })
          :: tb.map (shiftTok (v.length + 1))) := by
  induction h with
  | @done o bl hb =>
    intro a b v ht hbn hv _ _
    have hba : Blank a := fun c hc => hb c (by rw [ht]; simp [hc])
    obtain rfl : b = [] := by
      cases b with
      | nil => rfl
      | cons c b =>
        obtain rfl := hbn c b rfl
        have := hb '\n' (by rw [ht]; simp)
        exact absurd this (by decide)
    refine ⟨[], [], rfl, by simp, by simp, ?_⟩
    have := Lexes.tok (o := o) hba (longest_comment hv (rest := []) (by simp)) (.done (by simp [Blank]))
    exact this
  | @tok o bl t w rest ts h1 h2 h3 ih =>
    intro a b v ht hbn hv hno hcm
    have hw := spells_ne_nil h2.1
    have hwl : 0 < w.length := List.length_pos_iff.mpr hw
    have h0 := hno _ (List.mem_cons_self ..)
    simp only at h0
    rcases Nat.lt_or_ge bl.length a.length with hlt | hge
    · -- the token lies before the insertion point
      have h4 : bl.length + w.length ≤ a.length := by omega
      obtain ⟨a2, rfl⟩ : ∃ a2, a = bl ++ w ++ a2 := by
        have : bl ++ w <+: a := by
          refine List.prefix_of_prefix_length_le (l₃ := a ++ b) ?_ (List.prefix_append ..) (by simpa using h4)
          rw [← ht]
          exact List.prefix_append ..
        obtain ⟨a2, h⟩ := this
        exact ⟨a2, h.symm⟩
      have hr : rest = a2 ++ b := by
        have := ht
        simp only [List.append_assoc, List.append_cancel_left_eq] at this
        exact this
      have hal : o + (bl ++ w ++ a2).length = o + bl.length + w.length + a2.length := by simp; omega
      rw [hal] at hno hcm ⊢
      obtain ⟨ta, tb, h5, h6, h7, h8⟩ := ih hr hbn hv (fun t ht => hno t (by simp [ht])) (fun t ht => hcm t (by simp [ht]))
      refine ⟨_ :: ta, tb, by rw [h5]; rfl, ?_, h7, ?_⟩
      · intro t ht
        rcases List.mem_cons.mp ht with rfl | ht
        · simp only; omega
        · exact h6 t ht
      · have hl : Longest t w (a2 ++ '#' :: v ++ b) := by
          rw [hr] at h2
          refine longest_insert h2 ?_
          rintro rfl rfl
          exact hcm _ (List.mem_cons_self ..) rfl (by simp)
        have := Lexes.tok h1 hl h8
        simp only [List.append_assoc, List.cons_append] at this ⊢
        exact this
    · -- the insertion point lies before all tokens
      obtain ⟨b2, rfl⟩ : ∃ b2, bl = a ++ b2 := by
        have : a <+: bl := by
          refine List.prefix_of_prefix_length_le (l₃ := a ++ b) (List.prefix_append ..) ?_ hge
          rw [← ht, List.append_assoc]
          exact List.prefix_append ..
        obtain ⟨a2, h⟩ := this
        exact ⟨a2, h.symm⟩
      have hr : b = b2 ++ w ++ rest := by
        have := ht
        simp only [List.append_assoc, List.append_cancel_left_eq] at this
        simpa using this.symm
      have hba : Blank a := fun c hc => h1 c (by simp [hc])
      have hbb : Blank b2 := fun c hc => h1 c (by simp [hc])
      have hb2 : Lexes (o + a.length) b
          ((t, { start := o + (a ++ b2).length, stop := o + (a ++ b2).length + w.length }) :: ts) := by
        rw [hr]
        have e : o + (a ++ b2).length = o + a.length + b2.length := by simp; omega
        rw [e] at h3 ⊢
        exact Lexes.tok hbb h2 h3
      refine ⟨[], _, rfl, by simp, ?_, ?_⟩
      · intro t ht
        rcases List.mem_cons.mp ht with rfl | ht
        · simp only [List.length_append]; omega
        · rcases hno t (by simp [ht]) with h | h
          · exfalso
            have := (lexesErr_spans (lexes_lexesErr h3)).1 t ht
            simp only [List.length_append] at this
            omega
          · exact h
      · have := Lexes.tok (o := o) hba (longest_comment hv (rest := b) hbn)
          (ts := _) (by
            have := lexes_shift hb2 (v.length + 1)
            exact this)
        simpa using this

end
end HyperIR
