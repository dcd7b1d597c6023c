import Verif.Proofs.Combinators
import Verif.Spec.Lexical

/- The single-token parser `tokenChoice` recognizes exactly the longest token of the specification. -/

namespace HyperIR
open Spec

/-- The characters of a stream. -/
abbrev chars (s : Toks Char) : Str := s.map Prod.fst

/-! ### ASCII facts -/

section ascii

theorem char_le_iff (a b : Char) : a ≤ b ↔ a.toNat ≤ b.toNat := by
  simp [Char.le_def, UInt32.le_iff_toNat_le]

theorem digit_toNat {c : Char} : Digit c ↔ 48 ≤ c.toNat ∧ c.toNat ≤ 57 := by
  simp [Digit, char_le_iff]

instance (c : Char) : Decidable (Digit c) := inferInstanceAs (Decidable (_ ∧ _))

instance (c : Char) : Decidable (Punctuation c) := inferInstanceAs (Decidable (_ ∈ _))

theorem isDigit_iff (c : Char) : c.isDigit = true ↔ Digit c := by
  simp [Char.isDigit, digit_toNat, UInt32.le_iff_toNat_le]

theorem isDigit16_iff (c : Char) : isDigit16 c = true ↔ HexDigit c := by
  simp [isDigit16, HexDigit, isDigit_iff, char_le_iff, or_assoc]

theorem digit_hex {c : Char} (h : Digit c) : HexDigit c := .inl h

variable [Unicode]

theorem isIdentHead_iff (c : Char) : isIdentHead c = true ↔ NameHead c := by
  simp [isIdentHead, NameHead]

theorem isIdentChar_iff (c : Char) : isIdentChar c = true ↔ NameChar c := by
  simp [isIdentChar, NameChar]

theorem nameHead_ascii {c : Char} (h : c.toNat < 128) : NameHead c ↔ (c.isAlpha = true ∨ c = '_') := by
  simp [NameHead, Unicode.alphabetic_ascii c h]

theorem nameChar_ascii {c : Char} (h : c.toNat < 128) :
    NameChar c ↔ (c.isAlpha = true ∨ c.isDigit = true ∨ c = '_') := by
  simp [NameChar, Unicode.alphanumeric, Unicode.alphabetic_ascii c h, Unicode.numeric_ascii c h,
    or_assoc]

theorem nameHead_nameChar {c : Char} (h : NameHead c) : NameChar c := by
  rcases h with h | h
  · left; simp [Unicode.alphanumeric, h]
  · right; exact h

theorem not_nameChar_colon : ¬ NameChar ':' := by
  rw [nameChar_ascii (by decide)]; decide

theorem digit_not_head {c : Char} (h : Digit c) : ¬ NameHead c := by
  have := digit_toNat.mp h
  rw [nameHead_ascii (by omega)]
  rintro (h' | rfl)
  · simp [Char.isAlpha, Char.isUpper, Char.isLower, UInt32.le_iff_toNat_le] at h'
    omega
  · revert this; decide

omit [Unicode] in
theorem punct_forall {p : Char → Prop}
    (h : ∀ c ∈ ['[', ']', '{', '}', '(', ')', '<', '>', '=', ',', ';', ':', '*', '.'], p c)
    {c : Char} (hc : Punctuation c) : p c := h c hc

omit [Unicode] in
theorem punct_toNat {c : Char} (h : Punctuation c) : c.toNat < 128 :=
  punct_forall (p := fun c => c.toNat < 128) (by decide) h

theorem punct_not_head {c : Char} (h : Punctuation c) : ¬ NameHead c := by
  rw [nameHead_ascii (punct_toNat h)]
  exact punct_forall (p := fun c => ¬ (c.isAlpha = true ∨ c = '_')) (by decide) h

omit [Unicode] in
theorem punct_not_digit {c : Char} (h : Punctuation c) : ¬ Digit c := by
  rw [← isDigit_iff]
  exact punct_forall (p := fun c => ¬ (c.isDigit = true)) (by decide) h

end ascii

/-! ### Recognizing the longest word of a language -/

/-- `p` succeeds exactly on texts starting with a word of `L`, consumes the longest such word, and
returns a value the word stands for. -/
def Recognizes {α : Type} (p : P Char α) (L : α → Str → Prop) : Prop := ∀ eoi s,
  (∃ a pre r, s = pre ++ r ∧ Ok p eoi s [] a r ∧ L a (chars pre)
    ∧ ∀ a' w' r', L a' w' → chars s = w' ++ r' → w'.length ≤ pre.length)
  ∨ (Fails p eoi s ∧ ∀ a' w' r', L a' w' → chars s ≠ w' ++ r')

section recog
variable {α β : Type}

theorem Recognizes.noPanic {p : P Char α} {L} (h : Recognizes p L) : NoPanic p := by
  intro eoi s hp
  rcases h eoi s with ⟨a, pre, r, _, ⟨alt, h⟩, _⟩ | ⟨⟨es, e, h⟩, _⟩ <;> rw [h] at hp <;> cases hp

/-- What a success means. -/
theorem Recognizes.ok {p : P Char α} {L} (h : Recognizes p L) {eoi s es a r}
    (hok : Ok p eoi s es a r) : es = [] ∧ ∃ pre, s = pre ++ r ∧ L a (chars pre)
      ∧ ∀ a' w' r', L a' w' → chars s = w' ++ r' → w'.length ≤ pre.length := by
  rcases h eoi s with ⟨a', pre, r', h1, h2, h3, h4⟩ | ⟨h', _⟩
  · obtain ⟨rfl, rfl, rfl⟩ := hok.det h2
    exact ⟨rfl, pre, h1, h3, h4⟩
  · exact absurd h' hok.not_fails

/-- What a failure means. -/
theorem Recognizes.fails {p : P Char α} {L} (h : Recognizes p L) {eoi s} (hf : Fails p eoi s) :
    ∀ a' w' r', L a' w' → chars s ≠ w' ++ r' := by
  rcases h eoi s with ⟨a', pre, r', h1, h2, h3, h4⟩ | ⟨_, h'⟩
  · exact absurd hf h2.not_fails
  · exact h'

theorem Recognizes.congr {p : P Char α} {L L' : α → Str → Prop} (h : Recognizes p L)
    (hl : ∀ a w, L a w ↔ L' a w) : Recognizes p L' := by
  have : L = L' := by
    funext a w
    exact propext (hl a w)
  exact this ▸ h

theorem recog_satisfy {f : Char → Bool} {ex} :
    Recognizes (satisfy f ex) (fun x w => f x = true ∧ w = [x]) := by
  intro eoi s
  cases s with
  | nil =>
    right
    refine ⟨by simp, ?_⟩
    rintro a' w' r' ⟨_, rfl⟩ h
    cases h
  | cons t r =>
    obtain ⟨c, sp⟩ := t
    by_cases hf : f c = true
    · left
      refine ⟨c, [(c, sp)], r, rfl, ?_, ⟨hf, rfl⟩, ?_⟩
      · simp [hf]
      · rintro a' w' r' ⟨_, rfl⟩ _
        simp
    · right
      refine ⟨?_, ?_⟩
      · simp only [satisfy_fails]
        intro x sp' r' h
        injection h with h _
        injection h with h _
        subst h
        simpa using hf
      · rintro a' w' r' ⟨h1, rfl⟩ h
        injection h with h _
        simp only at h
        subst h
        exact hf h1

theorem recog_map {p : P Char α} {L} (f : α → β) (h : Recognizes p L) :
    Recognizes (pmap f p) (fun b w => ∃ a, b = f a ∧ L a w) := by
  intro eoi s
  rcases h eoi s with ⟨a, pre, r, h1, h2, h3, h4⟩ | ⟨h', h''⟩
  · left
    refine ⟨f a, pre, r, h1, pmap_ok.mpr ⟨a, h2, rfl⟩, ⟨a, rfl, h3⟩, ?_⟩
    rintro a' w' r' ⟨a'', _, h5⟩ h6
    exact h4 _ _ _ h5 h6
  · right
    refine ⟨pmap_fails.mpr h', ?_⟩
    rintro a' w' r' ⟨a'', _, h5⟩ h6
    exact h'' _ _ _ h5 h6

/-- One character followed by a word. -/
theorem recog_cons {f : Char → Bool} {ex} {p : P Char α} {L} (h : Recognizes p L) :
    Recognizes (pthen (satisfy f ex) p)
      (fun x w => f x.1 = true ∧ ∃ w', w = x.1 :: w' ∧ L x.2 w') := by
  intro eoi s
  rcases recog_satisfy (f := f) (ex := ex) eoi s with ⟨a, pre, r, rfl, h2, ⟨h3, h3'⟩, _⟩ | ⟨h1, h2⟩
  · obtain ⟨⟨c, sp⟩, rfl⟩ : ∃ x, pre = [x] := by
      cases pre with
      | nil => cases h3'
      | cons x pre =>
        cases pre with
        | nil => exact ⟨x, rfl⟩
        | cons y pre => cases h3'
    simp only [List.map_cons, List.map_nil, List.cons.injEq, and_true] at h3'
    subst h3'
    rcases h eoi r with ⟨b, pre', r', rfl, k2, k3, k4⟩ | ⟨k1, k2⟩
    · left
      refine ⟨(c, b), (c, sp) :: pre', r', rfl, pthen_ok.mpr ⟨[], [], _, h2, k2, rfl⟩,
        ⟨h3, chars pre', rfl, k3⟩, ?_⟩
      rintro a' w' r'' ⟨_, w'', rfl, h6⟩ h7
      simp only [chars, List.cons_append, List.nil_append, List.map_cons, List.cons.injEq] at h7
      have := k4 _ _ _ h6 (by simpa using h7.2)
      simpa using this
    · right
      refine ⟨pthen_fails.mpr (.inr ⟨_, _, _, h2, k1⟩), ?_⟩
      rintro a' w' r'' ⟨_, w'', rfl, h6⟩ h7
      simp only [chars, List.cons_append, List.nil_append, List.map_cons, List.cons.injEq] at h7
      exact k2 _ _ _ h6 h7.2
  · right
    refine ⟨pthen_fails.mpr (.inl h1), ?_⟩
    rintro a' w' r'' ⟨h5, w'', rfl, h6⟩ h7
    exact h2 a'.1 [a'.1] (w'' ++ r'') ⟨h5, rfl⟩ (by simpa using h7)

/-- The longest word is not shorter than any word of the other language. -/
def Dominates (L : α → Str → Prop) (L' : β → Str → Prop) : Prop :=
  ∀ a w r a' w' r', L a w → L' a' w' → w ++ r = w' ++ r' → w'.length ≤ w.length

theorem recog_por {p q : P Char α} {L L'} (hp : Recognizes p L) (hq : Recognizes q L')
    (hd : Dominates L L') : Recognizes (por p q) (fun a w => L a w ∨ L' a w) := by
  intro eoi s
  rcases hp eoi s with ⟨a, pre, r, h1, h2, h3, h4⟩ | ⟨h', h''⟩
  · left
    refine ⟨a, pre, r, h1, por_ok_left h2, .inl h3, ?_⟩
    rintro a' w' r' (h5 | h5) h6
    · exact h4 _ _ _ h5 h6
    · have := hd a (chars pre) (chars r) a' w' r' h3 h5 (by rw [← h6, h1]; simp)
      simpa using this
  · rcases hq eoi s with ⟨a, pre, r, h1, h2, h3, h4⟩ | ⟨k', k''⟩
    · left
      refine ⟨a, pre, r, h1, por_ok_right h' h2, .inr h3, ?_⟩
      rintro a' w' r' (h5 | h5) h6
      · exact absurd h6 (h'' _ _ _ h5)
      · exact h4 _ _ _ h5 h6
    · right
      refine ⟨por_fails.mpr ⟨h', k'⟩, ?_⟩
      rintro a' w' r' (h5 | h5) h6
      · exact h'' _ _ _ h5 h6
      · exact k'' _ _ _ h5 h6

theorem recog_choice_nil {alt} : Recognizes (choice alt ([] : List (P Char α))) (fun _ _ => False) := by
  intro eoi s
  right
  exact ⟨choice_fails.mpr (by simp), by simp⟩

theorem recog_choice {p : P Char α} {ps : List (P Char α)} {L L'} (hp : Recognizes p L)
    (hq : ∀ alt, Recognizes (choice alt ps) L') (hd : Dominates L L') (alt) :
    Recognizes (choice alt (p :: ps)) (fun a w => L a w ∨ L' a w) := by
  intro eoi s
  rcases hp eoi s with ⟨a, pre, r, h1, h2, h3, h4⟩ | ⟨h', h''⟩
  · left
    refine ⟨a, pre, r, h1, choice_ok.mpr ⟨[], p, ps, rfl, by simp, h2⟩, .inl h3, ?_⟩
    rintro a' w' r' (h5 | h5) h6
    · exact h4 _ _ _ h5 h6
    · have := hd a (chars pre) (chars r) a' w' r' h3 h5 (by rw [← h6, h1]; simp)
      simpa using this
  · rcases hq alt eoi s with ⟨a, pre, r, h1, h2, h3, h4⟩ | ⟨k', k''⟩
    · left
      obtain ⟨l, q, l', rfl, h5, h6⟩ := choice_ok.mp h2
      refine ⟨a, pre, r, h1, choice_ok.mpr ⟨p :: l, q, l', rfl, ?_, h6⟩, .inr h3, ?_⟩
      · intro q' hq'
        rcases List.mem_cons.mp hq' with rfl | hq'
        · exact h'
        · exact h5 _ hq'
      · rintro a' w' r' (h5 | h5) h6
        · exact absurd h6 (h'' _ _ _ h5)
        · exact h4 _ _ _ h5 h6
    · right
      refine ⟨choice_fails.mpr ?_, ?_⟩
      · intro q' hq'
        rcases List.mem_cons.mp hq' with rfl | hq'
        · exact h'
        · exact choice_fails.mp k' _ hq'
      rintro a' w' r' (h5 | h5) h6
      · exact h'' _ _ _ h5 h6
      · exact k'' _ _ _ h5 h6

theorem satisfy_progress {τ : Type} {f : τ → Bool} {ex} : Progress (satisfy f ex) := by
  intro eoi s es x r h
  obtain ⟨_, _, sp, rfl⟩ := satisfy_ok.mp h
  simp

theorem many_satisfy {τ : Type} {f : τ → Bool} {ex eoi s es xs r}
    (h : Many (satisfy f ex) eoi s es xs r) :
    es = [] ∧ ∃ pre, s = pre ++ r ∧ pre.map Prod.fst = xs ∧ (∀ x ∈ xs, f x = true)
      ∧ ∀ x sp r', r = (x, sp) :: r' → f x = false := by
  induction h with
  | nil h => exact ⟨rfl, [], rfl, rfl, by simp, satisfy_fails.mp h⟩
  | cons h1 _ ih =>
    obtain ⟨rfl, h2, sp, rfl⟩ := satisfy_ok.mp h1
    obtain ⟨rfl, pre, rfl, rfl, h3, h4⟩ := ih
    refine ⟨rfl, _ :: pre, rfl, rfl, ?_, h4⟩
    intro x hx
    rcases List.mem_cons.mp hx with rfl | hx
    · exact h2
    · exact h3 _ hx

theorem many_satisfy_exists {τ : Type} (f : τ → Bool) (ex) (eoi : Span) (s : Toks τ) :
    ∃ pre r, s = pre ++ r ∧ Many (satisfy f ex) eoi s [] (pre.map Prod.fst) r := by
  obtain ⟨es, xs, r, h⟩ := Many.exists (satisfy_noPanic (f := f) (ex := ex)) satisfy_progress eoi
    s.length s (Nat.le_refl _)
  obtain ⟨rfl, pre, rfl, rfl, _, _⟩ := many_satisfy h
  exact ⟨pre, r, rfl, h⟩

/-- The longest prefix of characters satisfying `f`. -/
theorem recog_repeated {f : Char → Bool} {ex} :
    Recognizes (repeated (satisfy f ex)) (fun a w => a = w ∧ ∀ c ∈ w, f c = true) := by
  intro eoi s
  obtain ⟨pre, r, rfl, h⟩ := many_satisfy_exists f ex eoi s
  left
  obtain ⟨_, pre', h1, h2, h3, h4⟩ := many_satisfy h
  refine ⟨_, pre, r, rfl, (repeated_ok satisfy_noPanic satisfy_progress).mpr h, ⟨rfl, h3⟩, ?_⟩
  rintro a' w' r' ⟨_, h5⟩ h6
  apply Nat.le_of_not_lt
  intro hlt
  simp only [chars, List.map_append] at h6
  rw [List.append_eq_append_iff] at h6
  rcases h6 with ⟨a, rfl, h7⟩ | ⟨a, h7, h8⟩
  · cases r with
    | nil =>
      simp only [List.map_nil] at h7
      rw [(List.append_eq_nil_iff.mp h7.symm).1] at hlt
      simp at hlt
    | cons t r =>
      obtain ⟨c, sp⟩ := t
      cases a with
      | nil => simp at hlt
      | cons c' a =>
        simp only [List.map_cons, List.cons_append, List.cons.injEq] at h7
        have := h4 c sp r rfl
        rw [h7.1, h5 c' (by simp)] at this
        cases this
  · have := congrArg List.length h7
    simp at this
    omega

end recog

/-! ### The tokens -/

section tokens
variable [Unicode]

omit [Unicode] in
theorem recog_numeral {isD : Char → Bool} {D : Char → Prop} (hD : ∀ c, isD c = true ↔ D c) :
    Recognizes (textInt isD) (fun a w => a = w ∧ Numeral D w) := by
  have h1 := recog_map (fun (x : Char × Str) => x.1 :: x.2)
    (recog_cons (f := fun c => isD c && decide (c ≠ '0')) (ex := [])
      (recog_repeated (f := isD) (ex := [])))
  have h2 := recog_map (fun (c : Char) => [c])
    (recog_satisfy (f := fun x => decide (x = '0')) (ex := [some '0']))
  refine (recog_por h1 h2 ?_).congr ?_
  · rintro a w r a' w' r' ⟨⟨c, cs⟩, rfl, h3, w'', rfl, rfl, h4⟩ ⟨c', rfl, h5, rfl⟩ _
    simp
  · intro a w
    constructor
    · rintro (⟨⟨c, cs⟩, rfl, h3, w'', rfl, rfl, h4⟩ | ⟨c, rfl, h3, rfl⟩)
      · simp only [ne_eq, decide_not, Bool.and_eq_true, Bool.not_eq_true', decide_eq_false_iff_not] at h3
        exact ⟨rfl, .pos ((hD _).mp h3.1) h3.2 fun d hd => (hD _).mp (h4 d hd)⟩
      · simp only [decide_eq_true_eq] at h3
        subst h3
        exact ⟨rfl, .zero⟩
    · rintro ⟨rfl, h⟩
      cases h with
      | zero => right; exact ⟨'0', rfl, by simp, rfl⟩
      | pos h3 h4 h5 =>
        rename_i c cs
        left
        refine ⟨(c, cs), rfl, ?_, cs, rfl, rfl, fun d hd => (hD _).mpr (h5 d hd)⟩
        simp [(hD c).mpr h3, h4]

/-- colons followed by a name character -/
theorem recog_identItem :
    Recognizes (pthen (repeated (just ':')) (pfilter isIdentChar))
      (fun x w => w = x.1 ++ [x.2] ∧ (∀ c ∈ x.1, c = ':') ∧ NameChar x.2) := by
  intro eoi s
  rcases recog_repeated (f := fun x => decide (x = ':')) (ex := [some ':']) eoi s with
    ⟨a, pre, r, rfl, h2, ⟨rfl, h3⟩, h4⟩ | ⟨h1, h2⟩
  · have key : ∀ (a' : Str × Char) w' r', (w' = a'.1 ++ [a'.2] ∧ (∀ c ∈ a'.1, c = ':') ∧ NameChar a'.2) →
        chars (pre ++ r) = w' ++ r' → a'.1 = chars pre ∧ ∃ sp rr, r = (a'.2, sp) :: rr := by
      rintro ⟨cs, c⟩ w' r' ⟨rfl, h5, h6⟩ h7
      simp only [chars, List.map_append, List.append_assoc, List.cons_append, List.nil_append] at h7
      simp only at h5 h6
      have hc : c ≠ ':' := fun h => not_nameChar_colon (h ▸ h6)
      have hl := h4 cs cs (c :: r') ⟨rfl, fun x hx => by simp [h5 x hx]⟩ (by simpa using h7)
      rw [List.append_eq_append_iff] at h7
      rcases h7 with ⟨a, h8, h9⟩ | ⟨a, h8, h9⟩
      · cases a with
        | nil =>
          simp only [List.append_nil, List.nil_append] at h8 h9
          refine ⟨h8, ?_⟩
          cases r with
          | nil => cases h9
          | cons t r =>
            simp only [List.map_cons, List.cons.injEq] at h9
            exact ⟨t.2, r, by rw [← h9.1]⟩
        | cons x a =>
          have := congrArg List.length h8
          simp at this
          omega
      · cases a with
        | nil =>
          simp only [List.append_nil, List.nil_append] at h8 h9
          refine ⟨h8.symm, ?_⟩
          cases r with
          | nil => cases h9
          | cons t r =>
            simp only [List.map_cons, List.cons.injEq] at h9
            exact ⟨t.2, r, by rw [h9.1]⟩
        | cons x a =>
          simp only [List.cons_append, List.cons.injEq] at h9
          have := h3 x (by show x ∈ List.map Prod.fst pre; rw [h8]; simp)
          simp only [decide_eq_true_eq] at this
          exact absurd (h9.1.trans this) hc
    rcases recog_satisfy (f := isIdentChar) (ex := []) eoi r with
      ⟨c, pre', r', rfl, k2, ⟨k3, k4⟩, _⟩ | ⟨k1, k2⟩
    · left
      refine ⟨(chars pre, c), pre ++ pre', r', by simp, ?_, ⟨by simp [k4], ?_, ?_⟩, ?_⟩
      · exact pthen_ok.mpr ⟨[], [], _, h2, k2, rfl⟩
      · intro x hx; simpa using h3 x hx
      · exact (isIdentChar_iff _).mp k3
      · rintro a' w' r'' h5 h6
        obtain ⟨h7, _⟩ := key a' w' r'' h5 h6
        obtain ⟨rfl, _⟩ := h5
        have := congrArg List.length k4
        simp only [List.length_map, List.length_singleton] at this
        have := congrArg List.length h7
        simp only [List.length_map] at this
        simp
        omega
    · right
      refine ⟨pthen_fails.mpr (.inr ⟨_, _, _, h2, k1⟩), ?_⟩
      intro a' w' r' h5 h6
      obtain ⟨_, sp, rr, rfl⟩ := key a' w' r' h5 h6
      exact k2 a'.2 [a'.2] (chars rr) ⟨(isIdentChar_iff _).mpr h5.2.2, rfl⟩ rfl
  · exact absurd h1 (repeated_fails satisfy_noPanic satisfy_progress)

theorem nameTail_split : ∀ {l : Str}, (∀ c ∈ l, NameChar c ∨ c = ':') → l ≠ [] → l.getLast? ≠ some ':' →
    ∃ cs c rest, l = cs ++ c :: rest ∧ (∀ x ∈ cs, x = ':') ∧ NameChar c
  | [], _, h, _ => absurd rfl h
  | c :: l, h1, _, h3 => by
    by_cases hc : c = ':'
    · subst hc
      cases l with
      | nil => simp at h3
      | cons d l =>
        obtain ⟨cs, c, rest, h4, h5, h6⟩ := nameTail_split (l := d :: l)
          (fun x hx => h1 x (List.mem_cons_of_mem _ hx)) (by simp)
          (by simpa [List.getLast?_cons_cons] using h3)
        refine ⟨':' :: cs, c, rest, by rw [h4]; rfl, ?_, h6⟩
        intro x hx
        rcases List.mem_cons.mp hx with rfl | hx
        · rfl
        · exact h5 x hx
    · rcases h1 c (by simp) with h | h
      · exact ⟨[], c, l, rfl, by simp, h⟩
      · exact absurd h hc

omit [Unicode] in
theorem getLast?_append_ne {u v : Str} (h : v ≠ []) : (u ++ v).getLast? = v.getLast? := by
  rw [List.getLast?_append]
  cases hv : v.getLast? with
  | none => exact absurd (List.getLast?_eq_none_iff.mp hv) h
  | some c => rfl

theorem nameTail_append {u v : Str} (hu : ∀ c ∈ u, NameChar c ∨ c = ':') (hv : NameTail v)
    (hne : v ≠ []) : NameTail (u ++ v) := by
  refine ⟨?_, ?_⟩
  · intro c hc
    rcases List.mem_append.mp hc with h | h
    · exact hu c h
    · exact hv.1 c h
  · rw [getLast?_append_ne hne]
    exact hv.2

theorem recog_identTail : Recognizes identTail (fun a w => a = w ∧ NameTail w) := by
  have hn := recog_identItem.noPanic
  have hp : Progress (pthen (repeated (just ':')) (pfilter isIdentChar)) := by
    intro eoi s es x r h
    obtain ⟨_, pre, rfl, ⟨h, _⟩, _⟩ := recog_identItem.ok h
    have := congrArg List.length h
    simp at this
    simp
    omega
  intro eoi s
  left
  obtain ⟨es, xs, r, hm⟩ := Many.exists hn hp eoi s.length s (Nat.le_refl _)
  have key : ∀ {s es xs r}, Many (pthen (repeated (just ':')) (pfilter isIdentChar)) eoi s es xs r →
      es = [] ∧ ∃ pre, s = pre ++ r ∧ (xs.map fun x => x.1 ++ [x.2]).flatten = chars pre
        ∧ NameTail (chars pre) := by
    intro s es xs r hm
    induction hm with
    | nil h => exact ⟨rfl, [], rfl, rfl, by simp [NameTail]⟩
    | cons h1 _ ih =>
      obtain ⟨rfl, pre, rfl, ⟨h2, h3, h4⟩, _⟩ := recog_identItem.ok h1
      obtain ⟨rfl, pre', rfl, h5, h6⟩ := ih
      refine ⟨rfl, pre ++ pre', by simp, ?_, ?_⟩
      · simp only [List.map_cons, List.flatten_cons, h5, chars, List.map_append]
        rw [← h2]
      · have hw : ∀ c ∈ chars pre, NameChar c ∨ c = ':' := by
          rw [h2]
          intro c hc
          rcases List.mem_append.mp hc with h | h
          · exact .inr (h3 c h)
          · left; simp only [List.mem_singleton] at h; rw [h]; exact h4
        simp only [chars, List.map_append]
        by_cases hne : chars pre' = []
        · simp only [chars] at hne h2
          rw [hne, List.append_nil]
          refine ⟨hw, ?_⟩
          rw [h2]
          simp only [List.getLast?_append, List.getLast?_singleton, Option.some_or, ne_eq,
            Option.some.injEq]
          intro h
          exact not_nameChar_colon (h ▸ h4)
        · exact nameTail_append hw h6 hne
  obtain ⟨rfl, pre, rfl, h1, h2⟩ := key hm
  refine ⟨chars pre, pre, r, rfl, ?_, ⟨rfl, h2⟩, ?_⟩
  · refine pmap_ok.mpr ⟨xs, (repeated_ok hn hp).mpr hm, ?_⟩
    rw [← h1]
  · rintro a' w' r' ⟨_, h3⟩ h4
    apply Nat.le_of_not_lt
    intro hlt
    simp only [chars, List.map_append] at h4
    rw [List.append_eq_append_iff] at h4
    rcases h4 with ⟨a, h5, h6⟩ | ⟨a, h5, h6⟩
    · have hane : a ≠ [] := by
        rintro rfl
        have := congrArg List.length h5
        simp at this
        omega
      have hlast : a.getLast? ≠ some ':' := by
        have := h3.2
        rw [h5, getLast?_append_ne hane] at this
        exact this
      obtain ⟨cs, c, rest, h7, h8, h9⟩ := nameTail_split (l := a)
        (fun x hx => h3.1 x (by rw [h5]; simp [hx])) hane hlast
      refine recog_identItem.fails hm.fails (cs, c) (cs ++ [c]) (rest ++ r') ⟨rfl, h8, h9⟩ ?_
      rw [show chars r = List.map Prod.fst r from rfl, h6, h7]
      simp
    · have := congrArg List.length h5
      simp at this
      omega

omit [Unicode] in
theorem eol_or_end (eoi : Span) (s : Toks Char) :
    ((s = [] ∨ ∃ sp r, s = ('\n', sp) :: r)
      ∧ Ok (rewind (por (just '\n') (pmap (fun _ => '\n') pend))) eoi s [] '\n' s)
    ∨ (∃ c sp r, s = (c, sp) :: r ∧ c ≠ '\n'
      ∧ Fails (rewind (por (just '\n') (pmap (fun _ => '\n') pend))) eoi s) := by
  cases s with
  | nil =>
    left
    refine ⟨.inl rfl, rewind_ok.mpr ⟨?_, [], ?_⟩⟩
    · rfl
    · exact por_ok_right (satisfy_fails.mpr (by simp)) (pmap_ok.mpr ⟨(), pend_ok.mpr (by simp), rfl⟩)
  | cons t r =>
    obtain ⟨c, sp⟩ := t
    by_cases hc : c = '\n'
    · subst hc
      left
      refine ⟨.inr ⟨sp, r, rfl⟩, rewind_ok.mpr ⟨rfl, r, ?_⟩⟩
      exact por_ok_left (satisfy_ok.mpr ⟨rfl, by simp, sp, rfl⟩)
    · right
      refine ⟨c, sp, r, rfl, hc, rewind_fails.mpr (por_fails.mpr ⟨satisfy_fails.mpr ?_, pmap_fails.mpr (pend_fails.mpr ?_)⟩)⟩
      · intro x sp' r' h
        simp only [List.cons.injEq, Prod.mk.injEq] at h
        simp [← h.1.1, hc]
      · simp

omit [Unicode] in
theorem takeUntil_eol (eoi : Span) : ∀ (s : Toks Char) (outs : Str) (alt : Option (LErr Char)),
    ∃ pre r alt', s = pre ++ r ∧ '\n' ∉ chars pre ∧ (r = [] ∨ ∃ sp r', r = ('\n', sp) :: r')
      ∧ takeUntil (rewind (por (just '\n') (pmap (fun _ => '\n') pend))) eoi outs alt s
        = .ok [] (outs ++ chars pre, '\n') alt' r
  | [], outs, alt => by
    rcases eol_or_end eoi [] with ⟨_, al, h⟩ | ⟨c, sp, r, h, _⟩
    · exact ⟨[], [], _, rfl, by simp, .inl rfl, by rw [takeUntil, h]; simp; rfl⟩
    · cases h
  | (c, sp) :: s, outs, alt => by
    rcases eol_or_end eoi ((c, sp) :: s) with ⟨h1 | h1, al, h⟩ | ⟨c', sp', r, h, hc, es, e, hf⟩
    · cases h1
    · exact ⟨[], _, _, rfl, by simp, .inr h1, by rw [takeUntil, h]; simp; rfl⟩
    · obtain ⟨pre, r', alt', rfl, h2, h3, h4⟩ := takeUntil_eol eoi s (outs ++ [c]) (mergeAlts alt (some e))
      refine ⟨(c, sp) :: pre, r', alt', rfl, ?_, h3, ?_⟩
      · simp only [List.cons.injEq, Prod.mk.injEq] at h
        simp only [chars, List.map_cons, List.mem_cons, not_or]
        exact ⟨fun h' => hc (by rw [← h.1.1, ← h']), h2⟩
      · rw [takeUntil, hf]
        simp only [h4]
        simp

omit [Unicode] in
theorem recog_line :
    Recognizes (fun eoi s =>
        takeUntil (rewind (por (just '\n') (pmap (fun _ => '\n') pend))) eoi [] none s)
      (fun x w => x = (w, '\n') ∧ '\n' ∉ w) := by
  intro eoi s
  left
  obtain ⟨pre, r, alt', rfl, h2, h3, h4⟩ := takeUntil_eol eoi s [] none
  refine ⟨_, pre, r, rfl, ⟨_, h4⟩, ⟨rfl, h2⟩, ?_⟩
  rintro a' w' r' ⟨_, h5⟩ h6
  apply Nat.le_of_not_lt
  intro hlt
  simp only [chars, List.map_append] at h6
  rw [List.append_eq_append_iff] at h6
  rcases h6 with ⟨a, rfl, h7⟩ | ⟨a, h7, h8⟩
  · cases a with
    | nil => simp at hlt
    | cons c a =>
      rcases h3 with rfl | ⟨sp, r', rfl⟩
      · cases h7
      · simp only [List.map_cons, List.cons_append, List.cons.injEq] at h7
        exact h5 (by rw [← h7.1]; simp)
  · have := congrArg List.length h7
    simp at this
    omega

omit [Unicode] in
theorem recog_comment : Recognizes tComment (fun t w => t = .comment ∧ ∃ v, w = '#' :: v ∧ '\n' ∉ v) := by
  refine (recog_map _ (recog_cons recog_line)).congr ?_
  intro t w
  constructor
  · rintro ⟨⟨c, x, y⟩, rfl, h1, v, rfl, h2, h3⟩
    simp only [decide_eq_true_eq] at h1
    subst h1
    exact ⟨rfl, v, rfl, h3⟩
  · rintro ⟨rfl, v, rfl, h⟩
    exact ⟨('#', v, '\n'), rfl, by simp, v, rfl, rfl, h⟩

omit [Unicode] in
theorem recog_hexnum :
    Recognizes tHexnum (fun t w => ∃ v, t = .hexNum v ∧ w = '0' :: 'x' :: v ∧ Numeral HexDigit v) := by
  intro eoi s
  have h := recog_cons (f := fun x => decide (x = '0')) (ex := [some '0'])
    (recog_cons (f := fun x => decide (x = 'x')) (ex := [some 'x']) (recog_numeral isDigit16_iff)) eoi s
  rcases h with ⟨⟨c, d, v⟩, pre, r, h1, h2, ⟨h3, w', h4, h5, w'', h6, h7, h8⟩, h9⟩ | ⟨h1, h2⟩
  · left
    simp only [decide_eq_true_eq] at h3 h5 h6 h7
    subst h3 h5 h6 h7
    refine ⟨.hexNum v, pre, r, h1, ?_, ⟨v, rfl, h4, h8⟩, ?_⟩
    · obtain ⟨es1, es2, r1, k1, k2, k3⟩ := pthen_ok.mp h2
      obtain ⟨es3, es4, r2, k4, k5, k6⟩ := pthen_ok.mp k2
      refine pmap_ok.mpr ⟨v, ignoreThen_ok.mpr ⟨es1 ++ es3, es4, r2, ('0', 'x'), pthen_ok.mpr ⟨_, _, _, k1, k4, rfl⟩, k5, ?_⟩, rfl⟩
      rw [k3, k6]; simp
    · rintro a' w' r' ⟨v', rfl, rfl, h10⟩ h11
      exact h9 ('0', 'x', v') _ r' ⟨by simp, _, rfl, by simp, _, rfl, rfl, h10⟩ h11
  · right
    refine ⟨?_, ?_⟩
    · refine pmap_fails.mpr (ignoreThen_fails.mpr ?_)
      rcases pthen_fails.mp h1 with k | ⟨es, c, r, k1, k2⟩
      · exact .inl (pthen_fails.mpr (.inl k))
      · rcases pthen_fails.mp k2 with k | ⟨es', c', r', k3, k4⟩
        · exact .inl (pthen_fails.mpr (.inr ⟨_, _, _, k1, k⟩))
        · exact .inr ⟨_, _, _, pthen_ok.mpr ⟨_, _, _, k1, k3, rfl⟩, k4⟩
    · rintro a' w' r' ⟨v', rfl, rfl, h10⟩ h11
      exact h2 ('0', 'x', v') _ r' ⟨by simp, _, rfl, by simp, _, rfl, rfl, h10⟩ h11

omit [Unicode] in
theorem recog_num : Recognizes tNum (fun t w => t = .num w ∧ Numeral Digit w) := by
  refine (recog_map _ (recog_numeral (isD := isDigit10) isDigit_iff)).congr ?_
  intro t w
  constructor
  · rintro ⟨a, rfl, rfl, h⟩; exact ⟨rfl, h⟩
  · rintro ⟨rfl, h⟩; exact ⟨w, rfl, rfl, h⟩

omit [Unicode] in
/-- The text before the first `q` -/
theorem until_unique {q : Char} {u v x y : Str} (hu : q ∉ u) (hv : q ∉ v)
    (h : u ++ q :: x = v ++ q :: y) : u = v ∧ x = y := by
  rw [List.append_eq_append_iff] at h
  rcases h with ⟨a, rfl, h⟩ | ⟨a, rfl, h⟩
  · cases a with
    | nil => simpa using h
    | cons c a =>
      simp only [List.cons_append, List.cons.injEq] at h
      exact absurd (by rw [h.1]; simp) hv
  · cases a with
    | nil => simpa [eq_comm] using h
    | cons c a =>
      simp only [List.cons_append, List.cons.injEq] at h
      exact absurd (by rw [h.1]; simp) hu

omit [Unicode] in
theorem recog_str :
    Recognizes tStr (fun t w => ∃ v, t = .str v ∧ w = '"' :: v ++ ['"'] ∧ '"' ∉ v) := by
  intro eoi s
  have hR := recog_repeated (f := fun c => decide (c ≠ '"')) (ex := [])
  rcases recog_cons (f := fun x => decide (x = '"')) (ex := [some '"']) hR eoi s with
    ⟨⟨c, v⟩, pre, r, rfl, h2, ⟨h3, w', h4, h5, h6⟩, h9⟩ | ⟨h1, h2⟩
  · simp only [decide_eq_true_eq] at h3 h5
    subst h3 h5
    have hv : '"' ∉ v := by
      intro h
      simpa using h6 _ h
    have h2' : Ok (ignoreThen (just '"') (repeated (pfilter fun c => decide (c ≠ '"')))) eoi
        (pre ++ r) [] v r := by
      obtain ⟨es1, es2, r1, k1, k2, k3⟩ := pthen_ok.mp h2
      exact ignoreThen_ok.mpr ⟨_, _, _, _, k1, k2, k3⟩
    have key : ∀ v' r', '"' ∉ v' → chars (pre ++ r) = ('"' :: v' ++ ['"']) ++ r' →
        v' = v ∧ chars r = '"' :: r' := by
      intro v' r' hv' h
      have hl := h9 ('"', v') ('"' :: v') ('"' :: r')
        ⟨by simp, v', rfl, rfl, fun c hc => by simp; rintro rfl; exact hv' hc⟩ (by simpa using h)
      simp only [chars, List.map_append] at h h4
      rw [h4] at h
      simp only [List.cons_append, List.append_assoc, List.cons.injEq, true_and, List.nil_append] at h
      have hlen := congrArg List.length h4
      simp only [List.length_map, List.length_cons] at hlen hl
      rw [List.append_eq_append_iff] at h
      rcases h with ⟨a, h7, h8⟩ | ⟨a, h7, h8⟩
      · have := congrArg List.length h7
        simp only [List.length_append] at this
        have ha : a = [] := List.length_eq_zero_iff.mp (by omega)
        subst ha
        simp only [List.append_nil, List.nil_append] at h7 h8
        exact ⟨h7, h8⟩
      · cases a with
        | nil =>
          simp only [List.append_nil, List.nil_append] at h7 h8
          exact ⟨h7.symm, h8.symm⟩
        | cons c a =>
          simp only [List.cons_append, List.cons.injEq] at h8
          exact absurd (by rw [h7, ← h8.1]; simp) hv
    rcases recog_satisfy (f := fun x => decide (x = '"')) (ex := [some '"']) eoi r with
      ⟨c, pre', r', rfl, k2, ⟨k3, k4⟩, _⟩ | ⟨k1, k2⟩
    · left
      simp only [decide_eq_true_eq] at k3
      subst k3
      refine ⟨.str v, pre ++ pre', r', by simp, pmap_ok.mpr ⟨v, thenIgnore_ok.mpr ⟨_, _, _, _, h2', k2, rfl⟩, rfl⟩,
        ⟨v, rfl, ?_, hv⟩, ?_⟩
      · simp only [chars, List.map_append] at h4 k4 ⊢
        rw [h4, k4]
      · rintro a' w' r'' ⟨v', rfl, rfl, h10⟩ h11
        obtain ⟨rfl, _⟩ := key v' r'' h10 h11
        have := congrArg List.length h4
        have := congrArg List.length k4
        simp only [List.length_map, List.length_cons, List.length_nil, List.length_append] at *
        omega
    · right
      refine ⟨pmap_fails.mpr (thenIgnore_fails.mpr (.inr ⟨_, _, _, h2', k1⟩)), ?_⟩
      rintro a' w' r'' ⟨v', rfl, rfl, h10⟩ h11
      exact k2 '"' ['"'] r'' ⟨by simp, rfl⟩ (key v' r'' h10 h11).2
  · right
    constructor
    · rcases pthen_fails.mp h1 with k | ⟨es, c, r, k1, k2⟩
      · exact pmap_fails.mpr (thenIgnore_fails.mpr (.inl (ignoreThen_fails.mpr (.inl k))))
      · exact absurd k2 (repeated_fails satisfy_noPanic satisfy_progress)
    · rintro a' w' r' ⟨v', rfl, rfl, h10⟩ h11
      exact h2 ('"', v') ('"' :: v') ('"' :: r')
        ⟨by simp, v', rfl, rfl, fun c hc => by simp; rintro rfl; exact h10 hc⟩ (by simpa using h11)

omit [Unicode] in
theorem recog_punct : Recognizes tPunct (fun t w => ∃ c, t = .punct c ∧ w = [c] ∧ Punctuation c) := by
  refine (recog_map _ (recog_satisfy (f := fun x => decide (x ∈ punctChars)))).congr ?_
  intro t w
  simp only [decide_eq_true_eq]
  constructor
  · rintro ⟨c, rfl, h, rfl⟩; exact ⟨c, rfl, rfl, h⟩
  · rintro ⟨c, rfl, rfl, h⟩; exact ⟨c, rfl, h, rfl⟩

theorem recog_ident : Recognizes tIdent (fun t w => t = classifyIdent w ∧ Name w) := by
  refine (recog_map _ (recog_cons (f := isIdentHead) (ex := []) recog_identTail)).congr ?_
  intro t w
  constructor
  · rintro ⟨⟨c, x⟩, rfl, h1, v, rfl, h2, h3⟩
    simp only at h2
    subst h2
    exact ⟨rfl, c, x, rfl, (isIdentHead_iff _).mp h1, h3⟩
  · rintro ⟨rfl, c, x, rfl, h1, h2⟩
    exact ⟨(c, x), rfl, (isIdentHead_iff _).mpr h1, x, rfl, rfl, h2⟩

theorem recog_sigil (c : Char) (mk : Str → Token) :
    Recognizes (tSigil c mk) (fun t w => ∃ v, t = mk (c :: v) ∧ w = c :: v ∧ NameTail v) := by
  refine (recog_map _ (recog_cons (f := fun x => decide (x = c)) (ex := [some c]) recog_identTail)).congr ?_
  intro t w
  constructor
  · rintro ⟨⟨c', x⟩, rfl, h1, v, rfl, h2, h3⟩
    simp only at h2
    subst h2
    simp only [decide_eq_true_eq] at h1
    subst h1
    exact ⟨x, rfl, rfl, h3⟩
  · rintro ⟨v, rfl, rfl, h⟩
    exact ⟨(c, v), rfl, by simp, v, rfl, rfl, h⟩

omit [Unicode] in
theorem recog_newline : Recognizes tNewline (fun t w => t = .newline ∧ (w = ['\n'] ∨ w = ['\r', '\n'])) := by
  have h2 : Recognizes (thenIgnore (just '\r') (just '\n'))
      (fun c w => c = '\r' ∧ w = ['\r', '\n']) := by
    have h := recog_map Prod.fst (recog_cons (f := fun x => decide (x = '\r')) (ex := [some '\r'])
      (recog_satisfy (f := fun x => decide (x = '\n')) (ex := [some '\n'])))
    refine Recognizes.congr h ?_
    intro a w
    constructor
    · rintro ⟨⟨c, d⟩, rfl, h1, w', rfl, h3, rfl⟩
      simp only [decide_eq_true_eq] at h1 h3
      subst h1 h3
      exact ⟨rfl, rfl⟩
    · rintro ⟨rfl, rfl⟩
      exact ⟨('\r', '\n'), rfl, by simp, ['\n'], rfl, by simp, rfl⟩
  refine (recog_map _ (recog_por (recog_satisfy (f := fun x => decide (x = '\n')) (ex := [some '\n'])) h2 ?_)).congr ?_
  · rintro a w r a' w' r' ⟨h3, rfl⟩ ⟨rfl, rfl⟩ h5
    simp only [decide_eq_true_eq] at h3
    subst h3
    simp at h5
  · intro t w
    simp only [decide_eq_true_eq]
    constructor
    · rintro ⟨c, rfl, (⟨rfl, rfl⟩ | ⟨rfl, rfl⟩)⟩
      · exact ⟨rfl, .inl rfl⟩
      · exact ⟨rfl, .inr rfl⟩
    · rintro ⟨rfl, (rfl | rfl)⟩
      · exact ⟨'\n', rfl, .inl ⟨rfl, rfl⟩⟩
      · exact ⟨'\r', rfl, .inr ⟨rfl, rfl⟩⟩

/-! ### The choice of all tokens -/

/-- Every word starts with a character of `A`. -/
def First {α : Type} (L : α → Str → Prop) (A : Char → Prop) : Prop :=
  ∀ a w, L a w → ∃ c cs, w = c :: cs ∧ A c

omit [Unicode] in
theorem First.or {α : Type} {L L' : α → Str → Prop} {A B : Char → Prop} (h : First L A) (h' : First L' B) :
    First (fun a w => L a w ∨ L' a w) (fun c => A c ∨ B c) := by
  rintro a w (h1 | h1)
  · obtain ⟨c, cs, h2, h3⟩ := h a w h1
    exact ⟨c, cs, h2, .inl h3⟩
  · obtain ⟨c, cs, h2, h3⟩ := h' a w h1
    exact ⟨c, cs, h2, .inr h3⟩

omit [Unicode] in
theorem First.dominates {α β : Type} {L : α → Str → Prop} {L' : β → Str → Prop} {A B : Char → Prop}
    (h : First L A) (h' : First L' B) (hd : ∀ c, A c → ¬ B c) : Dominates L L' := by
  intro a w r a' w' r' h1 h2 h3
  obtain ⟨c, cs, rfl, h4⟩ := h _ _ h1
  obtain ⟨c', cs', rfl, h5⟩ := h' _ _ h2
  simp only [List.cons_append, List.cons.injEq] at h3
  exact absurd (h3.1 ▸ h5) (hd _ h4)

omit [Unicode] in
theorem numeral_head {D : Char → Prop} (hD : D '0') {w} (h : Numeral D w) : ∃ c cs, w = c :: cs ∧ D c := by
  cases h with
  | zero => exact ⟨'0', [], rfl, hD⟩
  | pos h _ _ => exact ⟨_, _, rfl, h⟩

theorem name_of_keyword {w : Str} (h : w = c!"declare" ∨ w = c!"define" ∨ w ∈ keywordModifiers
    ∨ w ∈ keywordTypes) : Name w := by
  have hw : w ∈ ([c!"declare", c!"define"] ++ keywordModifiers ++ keywordTypes) := by
    simp only [List.mem_append, List.mem_cons, List.not_mem_nil, or_false]
    rcases h with h | h | h | h <;> simp [h]
  have key : ∀ w ∈ ([c!"declare", c!"define"] ++ keywordModifiers ++ keywordTypes),
      (∀ c ∈ w, c.toNat < 128 ∧ (c.isAlpha = true ∨ c.isDigit = true ∨ c = '_'))
      ∧ w.head?.any (fun c => c.isAlpha) = true ∧ w.tail.getLast? ≠ some ':' := by decide +kernel
  obtain ⟨h1, h2, h3⟩ := key w hw
  cases w with
  | nil => cases h2
  | cons c cs =>
    refine ⟨c, cs, rfl, ?_, ?_, h3⟩
    · rw [nameHead_ascii (h1 c (by simp)).1]
      exact .inl (by simpa using h2)
    · intro d hd
      have := h1 d (List.mem_cons_of_mem _ hd)
      exact .inl ((nameChar_ascii this.1).mpr this.2)

/-- Identifiers and keywords. -/
theorem spells_classify {w : Str} (h : Name w) : Spells (classifyIdent w) w := by
  unfold classifyIdent
  split
  · rename_i h1; subst h1; exact .declare
  · split
    · rename_i h1; subst h1; exact .define
    · split
      · rename_i h1; exact .modifier h1
      · split
        · rename_i h1; exact .type h1
        · rename_i h1 h2 h3 h4; exact .ident h h1 h2 h3 h4

theorem spells_iff (t : Token) (w : Str) : Spells t w ↔
    (t = .comment ∧ ∃ v, w = '#' :: v ∧ '\n' ∉ v)
    ∨ (∃ v, t = .hexNum v ∧ w = '0' :: 'x' :: v ∧ Numeral HexDigit v)
    ∨ (t = .num w ∧ Numeral Digit w)
    ∨ (∃ v, t = .str v ∧ w = '"' :: v ++ ['"'] ∧ '"' ∉ v)
    ∨ (∃ c, t = .punct c ∧ w = [c] ∧ Punctuation c)
    ∨ (t = classifyIdent w ∧ Name w)
    ∨ (∃ v, t = .globalName ('@' :: v) ∧ w = '@' :: v ∧ NameTail v)
    ∨ (∃ v, t = .localName ('%' :: v) ∧ w = '%' :: v ∧ NameTail v)
    ∨ (∃ v, t = .debugRef ('!' :: v) ∧ w = '!' :: v ∧ NameTail v)
    ∨ (t = .newline ∧ (w = ['\n'] ∨ w = ['\r', '\n']))
    ∨ False := by
  constructor
  · intro h
    cases h with
    | lf => simp
    | crlf => simp
    | comment h => exact .inl ⟨rfl, _, rfl, h⟩
    | num h => exact .inr (.inr (.inl ⟨rfl, h⟩))
    | hexNum h => exact .inr (.inl ⟨_, rfl, rfl, h⟩)
    | str h => exact .inr (.inr (.inr (.inl ⟨_, rfl, rfl, h⟩)))
    | punct h => exact .inr (.inr (.inr (.inr (.inl ⟨_, rfl, rfl, h⟩))))
    | declare => exact .inr (.inr (.inr (.inr (.inr (.inl ⟨rfl, name_of_keyword (by simp)⟩)))))
    | define => exact .inr (.inr (.inr (.inr (.inr (.inl ⟨rfl, name_of_keyword (by simp)⟩)))))
    | modifier h =>
      refine .inr (.inr (.inr (.inr (.inr (.inl ⟨?_, name_of_keyword (by simp [h])⟩)))))
      have : ∀ w ∈ keywordModifiers, Token.funcModifier w = classifyIdent w := by decide +kernel
      exact this _ h
    | type h =>
      refine .inr (.inr (.inr (.inr (.inr (.inl ⟨?_, name_of_keyword (by simp [h])⟩)))))
      have : ∀ w ∈ keywordTypes, Token.type w = classifyIdent w := by decide +kernel
      exact this _ h
    | ident h h1 h2 h3 h4 =>
      refine .inr (.inr (.inr (.inr (.inr (.inl ⟨?_, h⟩)))))
      unfold classifyIdent
      rw [if_neg h1, if_neg h2, if_neg (show w ∉ modifierNames from h3),
        if_neg (show w ∉ typeNames from h4)]
    | globalName h => exact .inr (.inr (.inr (.inr (.inr (.inr (.inl ⟨_, rfl, rfl, h⟩))))))
    | localName h => exact .inr (.inr (.inr (.inr (.inr (.inr (.inr (.inl ⟨_, rfl, rfl, h⟩)))))))
    | debugRef h => exact .inr (.inr (.inr (.inr (.inr (.inr (.inr (.inr (.inl ⟨_, rfl, rfl, h⟩))))))))
  · rintro (⟨rfl, v, rfl, h⟩ | ⟨v, rfl, rfl, h⟩ | ⟨rfl, h⟩ | ⟨v, rfl, rfl, h⟩ | ⟨c, rfl, rfl, h⟩
      | ⟨rfl, h⟩ | ⟨v, rfl, rfl, h⟩ | ⟨v, rfl, rfl, h⟩ | ⟨v, rfl, rfl, h⟩ | ⟨rfl, rfl | rfl⟩ | h)
    · exact .comment h
    · exact .hexNum h
    · exact .num h
    · exact .str h
    · exact .punct h
    · exact spells_classify h
    · exact .globalName h
    · exact .localName h
    · exact .debugRef h
    · exact .lf
    · exact .crlf
    · exact h.elim

theorem not_head_of {c : Char} (h1 : c.toNat < 128) (h2 : ¬ (c.isAlpha = true ∨ c = '_')) : ¬ NameHead c := by
  rw [nameHead_ascii h1]; exact h2

omit [Unicode] in
theorem not_digit_of {c : Char} (h2 : c.isDigit = false) : ¬ Digit c := by
  rw [← isDigit_iff, h2]; simp

/-- No word stands for two values. -/
def Unambiguous {α : Type} (L : α → Str → Prop) : Prop := ∀ a a' w, L a w → L a' w → a = a'

omit [Unicode] in
theorem Unambiguous.or {α : Type} {L L' : α → Str → Prop} (h : Unambiguous L) (h' : Unambiguous L')
    (hd : ∀ a a' w, L a w → ¬ L' a' w) : Unambiguous (fun a w => L a w ∨ L' a w) := by
  rintro a a' w (h1 | h1) (h2 | h2)
  · exact h _ _ _ h1 h2
  · exact absurd h2 (hd _ _ _ h1)
  · exact absurd h1 (hd _ _ _ h2)
  · exact h' _ _ _ h1 h2

omit [Unicode] in
theorem First.disjoint {α β : Type} {L : α → Str → Prop} {L' : β → Str → Prop} {A B : Char → Prop}
    (h : First L A) (h' : First L' B) (hd : ∀ c, A c → ¬ B c) : ∀ a a' w, L a w → ¬ L' a' w := by
  intro a a' w h1 h2
  obtain ⟨c, cs, rfl, h4⟩ := h _ _ h1
  obtain ⟨c', cs', h3, h5⟩ := h' _ _ h2
  simp only [List.cons.injEq] at h3
  exact absurd (h3.1 ▸ h5) (hd _ h4)

theorem tokenChoice_facts : Recognizes tokenChoice Spells ∧ Unambiguous Spells := by
  have f1 : First (fun (t : Token) w => t = .comment ∧ ∃ v, w = '#' :: v ∧ '\n' ∉ v) (· = '#') := by
    rintro _ _ ⟨_, v, rfl, _⟩; exact ⟨_, _, rfl, rfl⟩
  have f2 : First (fun (t : Token) w => ∃ v, t = .hexNum v ∧ w = '0' :: 'x' :: v ∧ Numeral HexDigit v)
      (· = '0') := by
    rintro _ _ ⟨v, _, rfl, _⟩; exact ⟨_, _, rfl, rfl⟩
  have f3 : First (fun (t : Token) w => t = .num w ∧ Numeral Digit w) Digit := by
    rintro _ _ ⟨_, h⟩; exact numeral_head (by decide) h
  have f4 : First (fun (t : Token) w => ∃ v, t = .str v ∧ w = '"' :: v ++ ['"'] ∧ '"' ∉ v) (· = '"') := by
    rintro _ _ ⟨v, _, rfl, _⟩; exact ⟨_, _, rfl, rfl⟩
  have f5 : First (fun (t : Token) w => ∃ c, t = .punct c ∧ w = [c] ∧ Punctuation c) Punctuation := by
    rintro _ _ ⟨v, _, rfl, h⟩; exact ⟨_, _, rfl, h⟩
  have f6 : First (fun (t : Token) w => t = classifyIdent w ∧ Name w) NameHead := by
    rintro _ _ ⟨_, c, cs, rfl, h, _⟩; exact ⟨_, _, rfl, h⟩
  have f7 (c : Char) (mk : Str → Token) :
      First (fun (t : Token) w => ∃ v, t = mk (c :: v) ∧ w = c :: v ∧ NameTail v) (· = c) := by
    rintro _ _ ⟨v, _, rfl, _⟩; exact ⟨_, _, rfl, rfl⟩
  have f8 : First (fun (t : Token) w => t = .newline ∧ (w = ['\n'] ∨ w = ['\r', '\n']))
      (fun c => c = '\n' ∨ c = '\r') := by
    rintro _ _ ⟨_, rfl | rfl⟩
    · exact ⟨_, _, rfl, .inl rfl⟩
    · exact ⟨_, _, rfl, .inr rfl⟩
  have f9 : First (fun (_ : Token) (_ : Str) => False) (fun _ => False) := by
    rintro _ _ h; exact h.elim
  have g10 := f8.or f9
  have g9 := (f7 '!' Token.debugRef).or g10
  have g8 := (f7 '%' Token.localName).or g9
  have g7 := (f7 '@' Token.globalName).or g8
  have g6 := f6.or g7
  have g5 := f5.or g6
  have g4 := f4.or g5
  have g3 := f3.or g4
  have g2 := f2.or g3
  have d9 : ∀ c, c = '!' → ¬ ((c = '\n' ∨ c = '\r') ∨ False) := by rintro c rfl; decide
  have d8 : ∀ c, c = '%' → ¬ (c = '!' ∨ (c = '\n' ∨ c = '\r') ∨ False) := by rintro c rfl; decide
  have d7 : ∀ c, c = '@' → ¬ (c = '%' ∨ c = '!' ∨ (c = '\n' ∨ c = '\r') ∨ False) := by
    rintro c rfl; decide
  have d6 : ∀ c, NameHead c → ¬ (c = '@' ∨ c = '%' ∨ c = '!' ∨ (c = '\n' ∨ c = '\r') ∨ False) := by
    intro c hc
    rintro (rfl | rfl | rfl | (rfl | rfl) | h)
    all_goals first | exact h.elim | (revert hc; exact not_head_of (by decide) (by decide))
  have d5 : ∀ c, Punctuation c →
      ¬ (NameHead c ∨ c = '@' ∨ c = '%' ∨ c = '!' ∨ (c = '\n' ∨ c = '\r') ∨ False) := by
    intro c hc
    rintro (h | rfl | rfl | rfl | (rfl | rfl) | h)
    · exact punct_not_head hc h
    all_goals first | exact h.elim | (revert hc; decide)
  have d4 : ∀ c, c = '"' → ¬ (Punctuation c ∨ NameHead c ∨ c = '@' ∨ c = '%' ∨ c = '!'
      ∨ (c = '\n' ∨ c = '\r') ∨ False) := by
    rintro c rfl
    rintro (h | h | h | h | h | (h | h) | h)
    · revert h; decide
    · revert h; exact not_head_of (by decide) (by decide)
    all_goals first | exact h.elim | (revert h; decide)
  have d3 : ∀ c, Digit c → ¬ (c = '"' ∨ Punctuation c ∨ NameHead c ∨ c = '@' ∨ c = '%' ∨ c = '!'
      ∨ (c = '\n' ∨ c = '\r') ∨ False) := by
    intro c hc
    rintro (rfl | h | h | rfl | rfl | rfl | (rfl | rfl) | h)
    · revert hc; exact not_digit_of (by decide)
    · exact punct_not_digit h hc
    · exact digit_not_head hc h
    all_goals first | exact h.elim | (revert hc; exact not_digit_of (by decide))
  have d2 : ∀ c, c = '0' → ¬ (c = '"' ∨ Punctuation c ∨ NameHead c ∨ c = '@' ∨ c = '%' ∨ c = '!'
      ∨ (c = '\n' ∨ c = '\r') ∨ False) := by
    rintro c rfl; exact d3 _ (by decide)
  have d1 : ∀ c, c = '#' → ¬ (c = '0' ∨ Digit c ∨ c = '"' ∨ Punctuation c ∨ NameHead c ∨ c = '@'
      ∨ c = '%' ∨ c = '!' ∨ (c = '\n' ∨ c = '\r') ∨ False) := by
    rintro c rfl
    rintro (h | h | h | h | h | h | h | h | (h | h) | h)
    · revert h; decide
    · revert h; exact not_digit_of (by decide)
    · revert h; decide
    · revert h; decide
    · revert h; exact not_head_of (by decide) (by decide)
    all_goals first | exact h.elim | (revert h; decide)
  constructor
  · have r10 := recog_choice recog_newline (fun alt => recog_choice_nil (alt := alt))
      (f8.dominates f9 (by simp))
    have r9 := recog_choice (recog_sigil '!' Token.debugRef) r10 ((f7 _ _).dominates g10 d9)
    have r8 := recog_choice (recog_sigil '%' Token.localName) r9 ((f7 _ _).dominates g9 d8)
    have r7 := recog_choice (recog_sigil '@' Token.globalName) r8 ((f7 _ _).dominates g8 d7)
    have r6 := recog_choice recog_ident r7 (f6.dominates g7 d6)
    have r5 := recog_choice recog_punct r6 (f5.dominates g6 d5)
    have r4 := recog_choice recog_str r5 (f4.dominates g5 d4)
    have r3 := recog_choice recog_num r4 (f3.dominates g4 d3)
    have r2 := recog_choice recog_hexnum r3 (by
      rintro a w r a' w' r' h1 (⟨rfl, h2⟩ | h2) h3
      · obtain ⟨v, rfl, rfl, _⟩ := h1
        cases h2 with
        | zero => simp
        | pos h4 h5 _ =>
          simp only [List.cons_append, List.cons.injEq] at h3
          exact absurd h3.1.symm h5
      · exact f2.dominates g4 d2 a w r a' w' r' h1 h2 h3)
    have r1 := recog_choice recog_comment r2 (f1.dominates g2 d1)
    exact (r1 none).congr fun a w => (spells_iff a w).symm
  · have u7 (c : Char) (mk : Str → Token) :
        Unambiguous (fun (t : Token) w => ∃ v, t = mk (c :: v) ∧ w = c :: v ∧ NameTail v) := by
      rintro _ _ _ ⟨v, rfl, rfl, _⟩ ⟨v', rfl, h, _⟩; rw [h]
    have u10 : Unambiguous (fun (t : Token) w => t = .newline ∧ (w = ['\n'] ∨ w = ['\r', '\n'])) := by
      rintro _ _ _ ⟨rfl, _⟩ ⟨rfl, _⟩; rfl
    have u11 : Unambiguous (fun (_ : Token) (_ : Str) => False) := by
      rintro _ _ _ h; exact h.elim
    have v9 := (u7 '!' Token.debugRef).or (u10.or u11 (f8.disjoint f9 (by simp)))
      ((f7 _ _).disjoint g10 d9)
    have v8 := (u7 '%' Token.localName).or v9 ((f7 _ _).disjoint g9 d8)
    have v7 := (u7 '@' Token.globalName).or v8 ((f7 _ _).disjoint g8 d7)
    have u6 : Unambiguous (fun (t : Token) w => t = classifyIdent w ∧ Name w) := by
      rintro _ _ _ ⟨rfl, _⟩ ⟨rfl, _⟩; rfl
    have v6 := u6.or v7 (f6.disjoint g7 d6)
    have u5 : Unambiguous (fun (t : Token) w => ∃ c, t = .punct c ∧ w = [c] ∧ Punctuation c) := by
      rintro _ _ _ ⟨v, rfl, rfl, _⟩ ⟨v', rfl, h, _⟩; cases h; rfl
    have v5 := u5.or v6 (f5.disjoint g6 d5)
    have u4 : Unambiguous (fun (t : Token) w => ∃ v, t = .str v ∧ w = '"' :: v ++ ['"'] ∧ '"' ∉ v) := by
      rintro _ _ _ ⟨v, rfl, rfl, _⟩ ⟨v', rfl, h, _⟩; simp at h; rw [h]
    have v4 := u4.or v5 (f4.disjoint g5 d4)
    have u3 : Unambiguous (fun (t : Token) w => t = .num w ∧ Numeral Digit w) := by
      rintro _ _ _ ⟨rfl, _⟩ ⟨rfl, _⟩; rfl
    have v3 := u3.or v4 (f3.disjoint g4 d3)
    have u2 : Unambiguous (fun (t : Token) w => ∃ v, t = .hexNum v ∧ w = '0' :: 'x' :: v ∧ Numeral HexDigit v) := by
      rintro _ _ _ ⟨v, rfl, rfl, _⟩ ⟨v', rfl, h, _⟩; simp at h; rw [h]
    have v2 := u2.or v3 (by
      rintro a a' w h1 (⟨rfl, h2⟩ | h2)
      · obtain ⟨v, rfl, rfl, _⟩ := h1
        cases h2 with
        | pos h4 h5 _ => exact absurd rfl h5
      · exact f2.disjoint g4 d2 a a' w h1 h2)
    have u1 : Unambiguous (fun (t : Token) w => t = .comment ∧ ∃ v, w = '#' :: v ∧ '\n' ∉ v) := by
      rintro _ _ _ ⟨rfl, _⟩ ⟨rfl, _⟩; rfl
    have v1 := u1.or v2 (f1.disjoint g2 d1)
    intro t t' w h h'
    exact v1 t t' w ((spells_iff t w).mp h) ((spells_iff t' w).mp h')

theorem recog_tokenChoice : Recognizes tokenChoice Spells := tokenChoice_facts.1

/-- A text spells at most one token. -/
theorem spells_unique {t t' : Token} {w : Str} (h : Spells t w) (h' : Spells t' w) : t = t' :=
  tokenChoice_facts.2 _ _ _ h h'

theorem spells_ne_nil {t : Token} {w : Str} (h : Spells t w) : w ≠ [] := by
  rw [spells_iff] at h
  rintro rfl
  rcases h with ⟨_, v, h, _⟩ | ⟨v, _, h, _⟩ | ⟨_, h⟩ | ⟨v, _, h, _⟩ | ⟨c, _, h, _⟩
      | ⟨_, c, cs, h, _⟩ | ⟨v, _, h, _⟩ | ⟨v, _, h, _⟩ | ⟨v, _, h, _⟩ | ⟨_, h | h⟩ | h
  all_goals first | cases h | exact h.elim

end tokens

end HyperIR
