import Verif.Proofs.Tokenizer
import Verif.Spec.Text

/- Consequences of `LexesErr` for the individual tokens. -/

namespace HyperIR
open Spec

variable [Unicode]

/-- Where a token comes from. -/
theorem lexesErr_mem {o : Nat} {text : Str} {ts n} (h : LexesErr o text ts n) :
    ∀ t sp, (t, sp) ∈ ts → ∃ a g w r, text = a ++ g ++ w ++ r ∧ Longest t w r
      ∧ Garbage g (w ++ r)
      ∧ sp = { start := o + a.length, stop := o + a.length + g.length + w.length }
      ∧ (n = 0 → g = []) := by
  induction h with
  | done h => intro t sp ht; cases ht
  | @tok o b t' w rest ts n h1 h2 h3 ih =>
    intro t sp ht
    rcases List.mem_cons.mp ht with h | h
    · simp only [Prod.mk.injEq] at h
      obtain ⟨rfl, rfl⟩ := h
      exact ⟨b, [], w, rest, by simp, h2, garbage_nil _, by simp, fun _ => rfl⟩
    · obtain ⟨a, g, w', r, rfl, h5, h6, rfl, h7⟩ := ih t sp h
      refine ⟨b ++ w ++ a, g, w', r, by simp, h5, h6, ?_, h7⟩
      simp only [List.length_append, Nat.add_assoc]
  | @skip o b g' t' w rest ts n h1 hg hgb hga h2 h3 ih =>
    intro t sp ht
    rcases List.mem_cons.mp ht with h | h
    · simp only [Prod.mk.injEq] at h
      obtain ⟨rfl, rfl⟩ := h
      exact ⟨b, g', w, rest, by simp, h2, hga, by simp, by omega⟩
    · obtain ⟨a, g, w', r, rfl, h5, h6, rfl, h7⟩ := ih t sp h
      refine ⟨b ++ g' ++ w ++ a, g, w', r, by simp, h5, h6, ?_, by omega⟩
      simp only [List.length_append, Nat.add_assoc]

theorem lexesErr_spans {o : Nat} {text : Str} {ts n} (h : LexesErr o text ts n) :
    (∀ t ∈ ts, o ≤ t.2.start ∧ t.2.start < t.2.stop ∧ t.2.stop ≤ o + text.length)
      ∧ InOrder (ts.map Prod.snd) := by
  induction h with
  | done h => exact ⟨by simp, List.Pairwise.nil⟩
  | @tok o b t' w rest ts n h1 h2 h3 ih =>
    have hw : 0 < w.length := List.length_pos_iff.mpr (spells_ne_nil h2.1)
    refine ⟨?_, ?_⟩
    · intro t ht
      rcases List.mem_cons.mp ht with rfl | h
      · simp only [List.length_append]; omega
      · have := ih.1 t h
        simp only [List.length_append]; omega
    · refine List.Pairwise.cons ?_ ih.2
      intro sp hsp
      obtain ⟨t, ht, rfl⟩ := List.mem_map.mp hsp
      exact (ih.1 t ht).1
  | @skip o b g' t' w rest ts n h1 hg hgb hga h2 h3 ih =>
    have hw : 0 < w.length := List.length_pos_iff.mpr (spells_ne_nil h2.1)
    refine ⟨?_, ?_⟩
    · intro t ht
      rcases List.mem_cons.mp ht with rfl | h
      · simp only [List.length_append]; omega
      · have := ih.1 t h
        simp only [List.length_append]; omega
    · refine List.Pairwise.cons ?_ ih.2
      intro sp hsp
      obtain ⟨t, ht, rfl⟩ := List.mem_map.mp hsp
      exact (ih.1 t ht).1

/-- Every character that is not a blank is covered. -/
theorem lexesErr_covers {o : Nat} {text : Str} {ts n} (h : LexesErr o text ts n) :
    ∀ i c, text[i]? = some c → c ≠ ' ' → c ≠ '\t' → ∃ t ∈ ts, Covers t.2 (o + i) := by
  induction h with
  | done h =>
    intro i c hi h1 h2
    rcases h c (List.mem_of_getElem? hi) with h | h
    · exact absurd h h1
    · exact absurd h h2
  | @tok o b t' w rest ts n h1 h2 h3 ih =>
    intro i c hi k1 k2
    by_cases hb : i < b.length
    · rw [List.append_assoc, List.getElem?_append_left hb] at hi
      rcases h1 c (List.mem_of_getElem? hi) with h | h
      · exact absurd h k1
      · exact absurd h k2
    · by_cases hw : i < b.length + w.length
      · refine ⟨_, List.mem_cons_self, ?_⟩
        simp only [Covers]; omega
      · rw [List.getElem?_append_right (by simp; omega)] at hi
        obtain ⟨t, ht, hc⟩ := ih _ c hi k1 k2
        refine ⟨t, List.mem_cons_of_mem _ ht, ?_⟩
        simp only [List.length_append] at hc
        rwa [show o + b.length + w.length + (i - (b.length + w.length)) = o + i by omega] at hc
  | @skip o b g' t' w rest ts n h1 hg hgb hga h2 h3 ih =>
    intro i c hi k1 k2
    by_cases hb : i < b.length
    · rw [List.append_assoc, List.append_assoc, List.getElem?_append_left hb] at hi
      rcases h1 c (List.mem_of_getElem? hi) with h | h
      · exact absurd h k1
      · exact absurd h k2
    · by_cases hw : i < b.length + g'.length + w.length
      · refine ⟨_, List.mem_cons_self, ?_⟩
        simp only [Covers]; omega
      · rw [List.getElem?_append_right (by simp; omega)] at hi
        obtain ⟨t, ht, hc⟩ := ih _ c hi k1 k2
        refine ⟨t, List.mem_cons_of_mem _ ht, ?_⟩
        simp only [List.length_append] at hc
        rwa [show o + b.length + g'.length + w.length + (i - (b.length + g'.length + w.length)) = o + i by omega] at hc

omit [Unicode] in
theorem slice_mid (a w r : Str) (o : Nat) (h : o = a.length) {e : Nat} (he : e = o + w.length) :
    slice (a ++ w ++ r) { start := o, stop := e } = w := by
  subst h he
  simp [slice]

/-! ### From the parser's result to the lexical relation -/

theorem parseFromStr_tokens {src : Str} {res : ParserResult} (h : parseFromStr src = .ok res) :
    (res.tokens = [] ∧ (∃ errs, tokenize src = .ok (none, errs)) ∧ res.errors ≠ [])
    ∨ (∃ errs, tokenize src = .ok (some res.tokens, errs)) := by
  unfold parseFromStr at h
  split at h
  · cases h
  · rename_i errs h'
    injection h with h
    subst h
    left
    refine ⟨rfl, ⟨_, h'⟩, ?_⟩
    simp only [ne_eq, List.map_eq_nil_iff]
    exact tokenize_none h'
  · rename_i toks errs h'
    split at h
    · cases h
    · injection h with h
      subst h
      exact .inr ⟨_, h'⟩

/-- No error at all implies no lexical error. -/
theorem parseFromStr_no_errors {src : Str} {res : ParserResult} (h : parseFromStr src = .ok res)
    (he : res.errors = []) : tokenize src = .ok (some res.tokens, []) := by
  unfold parseFromStr at h
  split at h
  · cases h
  · rename_i errs h'
    injection h with h
    subst h
    exact absurd (List.map_eq_nil_iff.mp he) (tokenize_none h')
  · rename_i toks errs h'
    split at h
    · cases h
    · injection h with h
      subst h
      simp only [List.append_eq_nil_iff, List.map_eq_nil_iff] at he
      rw [he.1] at h'
      exact h'

/-! ### Longest tokens -/

omit [Unicode] in
theorem classify_cases (w : Str) : classifyIdent w = .declare ∨ classifyIdent w = .define ∨
    classifyIdent w = .funcModifier w ∨ classifyIdent w = .type w ∨ classifyIdent w = .ident w := by
  unfold classifyIdent
  split
  · simp
  · split
    · simp
    · split
      · simp
      · split <;> simp

/-- The characters of names. -/
def WordChar (c : Char) : Prop := NameChar c ∨ c = ':'

theorem not_nameChar_of {c : Char} (h1 : c.toNat < 128)
    (h2 : ¬ (c.isAlpha = true ∨ c.isDigit = true ∨ c = '_')) : ¬ NameChar c := by
  rw [nameChar_ascii h1]; exact h2

omit [Unicode] in
theorem digit_ne {c d : Char} (h : Digit c) (hd : d.isDigit = false) : c ≠ d := by
  rintro rfl
  exact not_digit_of hd h

omit [Unicode] in
theorem hexDigit_not {c : Char} (h : HexDigit c) : c ≠ ' ' ∧ c ≠ '\t' := by
  rcases h with h | h | h
  · exact ⟨digit_ne h (by decide), digit_ne h (by decide)⟩
  · simp only [char_le_iff] at h
    constructor <;> rintro rfl <;> revert h <;> decide
  · simp only [char_le_iff] at h
    constructor <;> rintro rfl <;> revert h <;> decide

omit [Unicode] in
theorem numeral_all {D : Char → Prop} {w : Str} (h : Numeral D w) (h0 : D '0') : ∀ c ∈ w, D c := by
  cases h with
  | zero => simpa using h0
  | pos h1 _ h2 =>
    intro c hc
    rcases List.mem_cons.mp hc with rfl | hc
    · exact h1
    · exact h2 c hc

theorem nameTail_noblank {w : Str} (h : NameTail w) : ' ' ∉ w ∧ '\t' ∉ w := by
  constructor
  · intro hc
    rcases h.1 _ hc with h | h
    · revert h; exact not_nameChar_of (by decide) (by decide)
    · revert h; decide
  · intro hc
    rcases h.1 _ hc with h | h
    · revert h; exact not_nameChar_of (by decide) (by decide)
    · revert h; decide

theorem name_noblank {w : Str} (h : Name w) : ' ' ∉ w ∧ '\t' ∉ w := by
  obtain ⟨c, cs, rfl, h1, h2⟩ := h
  have := nameTail_noblank h2
  simp only [List.mem_cons, not_or]
  refine ⟨⟨?_, this.1⟩, ⟨?_, this.2⟩⟩
  · rintro rfl; revert h1; exact not_head_of (by decide) (by decide)
  · rintro rfl; revert h1; exact not_head_of (by decide) (by decide)

/-- Only comments and strings contain blanks. -/
theorem spells_blank {t : Token} {w : Str} (h : Spells t w) :
    t = .comment ∨ (∃ v, t = .str v) ∨ (' ' ∉ w ∧ '\t' ∉ w) := by
  rw [spells_iff] at h
  rcases h with ⟨rfl, v, rfl, _⟩ | ⟨v, _, rfl, h⟩ | ⟨_, h⟩ | ⟨v, rfl, rfl, _⟩ | ⟨c', _, rfl, h⟩
      | ⟨_, h⟩ | ⟨v, _, rfl, h⟩ | ⟨v, _, rfl, h⟩ | ⟨v, _, rfl, h⟩ | ⟨_, rfl | rfl⟩ | h
  · simp
  · right; right
    have := numeral_all h (by left; decide)
    constructor
    · simp only [List.mem_cons, not_or]
      exact ⟨by decide, by decide, fun hc => (hexDigit_not (this _ hc)).1 rfl⟩
    · simp only [List.mem_cons, not_or]
      exact ⟨by decide, by decide, fun hc => (hexDigit_not (this _ hc)).2 rfl⟩
  · right; right
    have := numeral_all h (by decide)
    exact ⟨fun hc => digit_ne (this _ hc) (by decide) rfl, fun hc => digit_ne (this _ hc) (by decide) rfl⟩
  · simp
  · right; right
    exact punct_forall (p := fun c => ' ' ∉ [c] ∧ '\t' ∉ [c]) (by decide) h
  · right; right; exact name_noblank h
  · right; right
    have := nameTail_noblank h
    simp only [List.mem_cons, not_or]
    exact ⟨⟨by decide, this.1⟩, by decide, this.2⟩
  · right; right
    have := nameTail_noblank h
    simp only [List.mem_cons, not_or]
    exact ⟨⟨by decide, this.1⟩, by decide, this.2⟩
  · right; right
    have := nameTail_noblank h
    simp only [List.mem_cons, not_or]
    exact ⟨⟨by decide, this.1⟩, by decide, this.2⟩
  · right; right; decide
  · right; right; decide
  · exact h.elim

/-- The first character decides between comments, strings and the rest. -/
theorem spells_first {t : Token} {w : Str} {c : Char} {cs : Str} (h : Spells t w) (hw : w = c :: cs) :
    (c = '#' ↔ t = .comment) ∧ (c = '"' ↔ ∃ v, t = .str v) := by
  have aux : ∀ t' w' c' cs', Spells t' w' → w' = c' :: cs' → c' = '#' → t' = .comment := by
    rintro t' w' c' cs' h' rfl rfl
    rw [spells_iff] at h'
    rcases h' with ⟨rfl, _⟩ | ⟨v, _, h, _⟩ | ⟨_, h⟩ | ⟨v, rfl, h, _⟩ | ⟨c', _, h, h2⟩
        | ⟨_, c, cs, h, h2, _⟩ | ⟨v, _, h, _⟩ | ⟨v, _, h, _⟩ | ⟨v, _, h, _⟩ | ⟨_, h | h⟩ | h
    · rfl
    · cases h
    · obtain ⟨c, cs, h, hd⟩ := numeral_head (by decide) h
      cases h; exact absurd hd (by decide)
    · cases h
    · cases h; exact absurd h2 (by decide)
    · cases h; revert h2; exact fun h => absurd h (not_head_of (by decide) (by decide))
    all_goals first | cases h | exact h.elim
  have aux2 : ∀ t' w' c' cs', Spells t' w' → w' = c' :: cs' → c' = '"' → ∃ v, t' = .str v := by
    rintro t' w' c' cs' h' rfl rfl
    rw [spells_iff] at h'
    rcases h' with ⟨_, v, h, _⟩ | ⟨v, _, h, _⟩ | ⟨_, h⟩ | ⟨v, rfl, h, _⟩ | ⟨c', _, h, h2⟩
        | ⟨_, c, cs, h, h2, _⟩ | ⟨v, _, h, _⟩ | ⟨v, _, h, _⟩ | ⟨v, _, h, _⟩ | ⟨_, h | h⟩ | h
    · cases h
    · cases h
    · obtain ⟨c, cs, h, hd⟩ := numeral_head (by decide) h
      cases h; exact absurd hd (by decide)
    · exact ⟨v, rfl⟩
    · cases h; exact absurd h2 (by decide)
    · cases h; revert h2; exact fun h => absurd h (not_head_of (by decide) (by decide))
    all_goals first | cases h | exact h.elim
  refine ⟨⟨aux t w c cs h hw, ?_⟩, ⟨aux2 t w c cs h hw, ?_⟩⟩
  · rintro rfl
    subst hw
    cases h; rfl
  · rintro ⟨v, rfl⟩
    subst hw
    cases h; rfl

theorem spells_str {v w : Str} (h : Spells (.str v) w) : w = '"' :: v ++ ['"'] ∧ '"' ∉ v := by
  cases h with
  | str k => exact ⟨rfl, k⟩

/-- A token followed by a blank (or by nothing) is a longest token, unless it is a comment. -/
theorem longest_of_blank {t : Token} {w rest : Str} (h : Spells t w) (hc : t ≠ .comment)
    (hr : ∀ c cs, rest = c :: cs → c = ' ' ∨ c = '\t') : Longest t w rest := by
  refine ⟨h, ?_⟩
  intro t' w' rest' h' he
  apply Nat.le_of_not_lt
  intro hlt
  rw [List.append_eq_append_iff] at he
  rcases he with ⟨a, rfl, h2⟩ | ⟨a, h1, h2⟩
  · cases a with
    | nil => simp at hlt
    | cons x a =>
      have hx := hr x (a ++ rest') (by simpa using h2)
      cases w with
      | nil => exact spells_ne_nil h rfl
      | cons d w =>
        have f1 := spells_first h rfl
        have f2 := spells_first h' (c := d) (cs := w ++ x :: a) (by simp)
        rcases spells_blank h' with rfl | ⟨v, rfl⟩ | ⟨h3, h4⟩
        · exact hc (f1.1.mp (f2.1.mpr rfl))
        · obtain ⟨v', rfl⟩ := f1.2.mp (f2.2.mpr ⟨v, rfl⟩)
          cases h with
          | str k1 =>
            obtain ⟨hu, k2⟩ := spells_str h'
            have hu' : v' ++ '"' :: (x :: a) = v ++ '"' :: [] := by
              simpa using hu
            obtain ⟨_, h5⟩ := until_unique k1 k2 hu'
            cases h5
        · rcases hx with rfl | rfl
          · exact h3 (by simp)
          · exact h4 (by simp)
  · have := congrArg List.length h1
    simp at this
    omega

/-- A comment followed by a line feed (or by nothing) is a longest token. -/
theorem longest_comment {v rest : Str} (hv : '\n' ∉ v) (hr : ∀ c cs, rest = c :: cs → c = '\n') :
    Longest .comment ('#' :: v) rest := by
  refine ⟨.comment hv, ?_⟩
  intro t' w' rest' h' he
  apply Nat.le_of_not_lt
  intro hlt
  rw [List.append_eq_append_iff] at he
  rcases he with ⟨a, rfl, h2⟩ | ⟨a, h1, h2⟩
  · cases a with
    | nil => simp at hlt
    | cons x a =>
      obtain rfl := hr x (a ++ rest') (by simpa using h2)
      obtain rfl := (spells_first h' (c := '#') (cs := v ++ '\n' :: a) (by simp)).1.mp rfl
      generalize hg : '#' :: v ++ '\n' :: a = q at h'
      cases h' with
      | comment k =>
        simp only [List.cons_append, List.cons.injEq, true_and] at hg
        exact k (by rw [← hg]; simp)
  · have := congrArg List.length h1
    simp only [List.length_append] at this
    omega

end HyperIR
