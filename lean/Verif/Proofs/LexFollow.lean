import Verif.Proofs.LexInsert

/- When a token is the longest one: what must not follow it. -/

namespace HyperIR
open Spec

section
variable [Unicode]

/-- The class of the first character of a token. -/
noncomputable def firstClass (c : Char) : Nat :=
  open Classical in
  if c = '#' then 0 else if Digit c then 1 else if c = '"' then 2 else if Punctuation c then 3 else if NameHead c then 4
  else if c = '\n' then 6 else if c = '\r' then 7 else 5

/-- What a token looks like, by its first character. -/
def Shape (t : Token) (c : Char) (cs : Str) : Nat → Prop
  | 0 => t = .comment ∧ '\n' ∉ cs
  | 1 => (c = '0' ∧ ∃ v, cs = 'x' :: v ∧ t = .hexNum v ∧ Numeral HexDigit v) ∨ (t = .num (c :: cs) ∧ Numeral Digit (c :: cs))
  | 2 => ∃ v, t = .str v ∧ cs = v ++ ['"'] ∧ '"' ∉ v
  | 3 => t = .punct c ∧ cs = []
  | 4 => t = classifyIdent (c :: cs) ∧ NameHead c ∧ NameTail cs
  | 5 => (t = .globalName (c :: cs) ∨ t = .localName (c :: cs) ∨ t = .debugRef (c :: cs)) ∧ (c = '@' ∨ c = '%' ∨ c = '!') ∧ NameTail cs
  | 6 => t = .newline ∧ cs = []
  | 7 => t = .newline ∧ cs = ['\n']
  | _ => False

theorem head_ne {c d : Char} (h : NameHead c) (h1 : d.toNat < 128) (h2 : ¬ (d.isAlpha = true ∨ d = '_')) : c ≠ d := by
  rintro rfl
  exact not_head_of h1 h2 h

theorem firstClass_head {c : Char} (h : NameHead c) : firstClass c = 4 := by
  unfold firstClass
  rw [if_neg (head_ne h (by decide) (by decide)), if_neg (fun hd => digit_not_head hd h), if_neg (head_ne h (by decide) (by decide)),
    if_neg (fun hp => punct_not_head hp h), if_pos h]

theorem firstClass_digit {c : Char} (h : Digit c) : firstClass c = 1 := by
  unfold firstClass
  rw [if_neg (digit_ne h (by decide)), if_pos h]

theorem firstClass_punct {c : Char} (h : Punctuation c) : firstClass c = 3 := by
  unfold firstClass
  rw [if_neg (punct_forall (p := fun c => c ≠ '#') (by decide) h), if_neg (punct_not_digit h),
    if_neg (punct_forall (p := fun c => c ≠ '"') (by decide) h), if_pos h]

theorem firstClass_other {c : Char} (h1 : c.toNat < 128) (h2 : ¬ (c.isAlpha = true ∨ c = '_')) (h3 : c.isDigit = false)
    (h4 : ¬ Punctuation c) : firstClass c = if c = '#' then 0 else if c = '"' then 2 else if c = '\n' then 6 else if c = '\r' then 7 else 5 := by
  unfold firstClass
  rw [if_neg (not_digit_of h3), if_neg h4, if_neg (not_head_of h1 h2)]

theorem spells_shape {t : Token} {c : Char} {cs : Str} (h : Spells t (c :: cs)) : Shape t c cs (firstClass c) := by
  rw [spells_iff] at h
  rcases h with ⟨rfl, v, h, h2⟩ | ⟨v, rfl, h, h2⟩ | ⟨rfl, h⟩ | ⟨v, rfl, h, h2⟩ | ⟨c', rfl, h, h2⟩
      | ⟨rfl, c', cs', h, h2, h3⟩ | ⟨v, rfl, h, h2⟩ | ⟨v, rfl, h, h2⟩ | ⟨v, rfl, h, h2⟩ | ⟨rfl, h | h⟩ | h
  · cases h
    rw [firstClass_other (by decide) (by decide) (by decide) (by decide)]
    exact ⟨rfl, h2⟩
  · cases h
    rw [firstClass_digit (by decide)]
    exact .inl ⟨rfl, _, rfl, rfl, h2⟩
  · obtain ⟨c', cs', h', hd⟩ := numeral_head (by decide) h
    cases h'
    rw [firstClass_digit hd]
    exact .inr ⟨rfl, h⟩
  · cases h
    rw [firstClass_other (by decide) (by decide) (by decide) (by decide)]
    exact ⟨v, rfl, rfl, h2⟩
  · cases h
    rw [firstClass_punct h2]
    exact ⟨rfl, rfl⟩
  · cases h
    rw [firstClass_head h2]
    exact ⟨rfl, h2, h3⟩
  · cases h
    rw [firstClass_other (by decide) (by decide) (by decide) (by decide)]
    exact ⟨.inl rfl, .inl rfl, h2⟩
  · cases h
    rw [firstClass_other (by decide) (by decide) (by decide) (by decide)]
    exact ⟨.inr (.inl rfl), .inr (.inl rfl), h2⟩
  · cases h
    rw [firstClass_other (by decide) (by decide) (by decide) (by decide)]
    exact ⟨.inr (.inr rfl), .inr (.inr rfl), h2⟩
  · cases h
    rw [firstClass_other (by decide) (by decide) (by decide) (by decide)]
    exact ⟨rfl, rfl⟩
  · cases h
    rw [firstClass_other (by decide) (by decide) (by decide) (by decide)]
    exact ⟨rfl, rfl⟩
  · exact h.elim

/-- A name would go on: name characters, possibly behind colons. -/
def NameGoesOn (rest : Str) : Prop := ∃ cs c r, rest = cs ++ c :: r ∧ (∀ x ∈ cs, x = ':') ∧ NameChar c

/-- The token is a name. -/
def NameTok : Token → Prop
  | .declare | .define | .funcModifier _ | .type _ | .ident _ | .globalName _ | .localName _ | .debugRef _ => True
  | _ => False

/-- Nothing behind the token `w` makes it longer. -/
def Follow : Token → Str → Prop
  | .comment, rest => ∀ c cs, rest = c :: cs → c = '\n'
  | .num w, rest => (w ≠ ['0'] → ∀ c cs, rest = c :: cs → ¬ Digit c) ∧ (w = ['0'] → ∀ d cs, rest = 'x' :: d :: cs → ¬ HexDigit d)
  | .hexNum v, rest => v ≠ ['0'] → ∀ c cs, rest = c :: cs → ¬ HexDigit c
  | .newline, _ | .str _, _ | .punct _, _ => True
  | .declare, rest | .define, rest | .funcModifier _, rest | .type _, rest | .ident _, rest | .globalName _, rest
  | .localName _, rest | .debugRef _, rest => ¬ NameGoesOn rest

omit [Unicode] in
theorem classify_nameTok (w : Str) : NameTok (classifyIdent w) := by
  rcases classify_cases w with h | h | h | h | h <;> rw [h] <;> exact trivial

theorem follow_name {t : Token} {rest : Str} (h : NameTok t) : Follow t rest ↔ ¬ NameGoesOn rest := by
  cases t <;> first | exact Iff.rfl | exact h.elim

theorem nameTail_goesOn {u v r : Str} (hu : NameTail (u ++ v)) (hv : v ≠ []) : NameGoesOn (v ++ r) := by
  obtain ⟨cs, c, rest, h1, h2, h3⟩ := nameTail_split (l := v) (fun c hc => hu.1 c (by simp [hc])) hv
    (by rw [← getLast?_append_ne hv]; exact hu.2)
  exact ⟨cs, c, rest ++ r, by rw [h1]; simp, h2, h3⟩

theorem goesOn_nameTail {rest : Str} (h : NameGoesOn rest) : ∃ v r, rest = v ++ r ∧ v ≠ [] ∧ NameTail v := by
  obtain ⟨cs, c, r, h1, h2, h3⟩ := h
  refine ⟨cs ++ [c], r, by rw [h1]; simp, by simp, ?_, ?_⟩
  · intro x hx
    rcases List.mem_append.mp hx with hx | hx
    · exact .inr (h2 x hx)
    · left
      rw [List.mem_singleton.mp hx]
      exact h3
  · rw [List.getLast?_concat]
    simp only [ne_eq, Option.some.injEq]
    rintro rfl
    exact not_nameChar_colon h3

omit [Unicode] in
theorem numeral_longer {D : Char → Prop} {w v : Str} (hv : v ≠ []) (h : Numeral D (w ++ v)) (hw : Numeral D w) :
    w ≠ ['0'] ∧ ∀ c ∈ v, D c := by
  cases hw with
  | zero =>
    cases v with
    | nil => exact absurd rfl hv
    | cons c v =>
      simp only [List.cons_append, List.nil_append] at h
      cases h with
      | pos _ h0 _ => exact absurd rfl h0
  | pos h1 h2 h3 =>
    refine ⟨by intro e; cases e; exact h2 rfl, ?_⟩
    simp only [List.cons_append] at h
    intro d hd
    generalize he : _ :: _ = z at h
    cases h with
    | zero => exact absurd (List.cons.inj he).1 h2
    | pos _ _ h4 => cases he; exact h4 d (by simp [hd])

/-- A token is the longest one exactly if nothing behind it makes it longer. -/
theorem longest_iff {t : Token} {w rest : Str} : Longest t w rest ↔ Spells t w ∧ Follow t rest := by
  constructor
  · rintro ⟨hs, hl⟩
    refine ⟨hs, ?_⟩
    have hlonger : ∀ v r, rest = v ++ r → v ≠ [] → ∀ t', ¬ Spells t' (w ++ v) := by
      intro v r he hv t' hs'
      have := hl t' (w ++ v) r hs' (by rw [he, List.append_assoc])
      simp only [List.length_append] at this
      cases v with
      | nil => exact hv rfl
      | cons => simp at this; omega
    have hname : ∀ c cs, w = c :: cs → NameHead c → NameTail cs → ¬ NameGoesOn rest := by
      rintro c cs rfl h1 h2 hg
      obtain ⟨v, r, e, hv, hn⟩ := goesOn_nameTail hg
      exact hlonger v r e hv _ (spells_classify ⟨c, cs ++ v, rfl, h1, nameTail_append h2.1 hn hv⟩)
    cases hs with
    | lf => trivial
    | crlf => trivial
    | comment h =>
      intro c cs he
      apply Decidable.byContradiction
      intro hc
      refine hlonger [c] cs (by rw [he]; rfl) (by simp) .comment ?_
      rw [List.cons_append]
      exact .comment (by simp [h, Ne.symm hc])
    | num h =>
      refine ⟨?_, ?_⟩
      · intro h0 c cs he hd
        refine hlonger [c] cs (by rw [he]; rfl) (by simp) _ (.num ?_)
        cases h with
        | zero => exact absurd rfl h0
        | pos h1 h2 h3 =>
          refine .pos h1 h2 ?_
          intro d hd'
          rcases List.mem_append.mp hd' with hd' | hd'
          · exact h3 d hd'
          · rw [List.mem_singleton.mp hd']; exact hd
      · rintro rfl d cs he hd
        refine hlonger ['x', d] cs (by rw [he]; rfl) (by simp) (.hexNum [d]) (.hexNum ?_)
        by_cases h0 : d = '0'
        · subst h0; exact .zero
        · exact .pos hd h0 (by simp)
    | hexNum h =>
      intro h0 c cs he hd
      refine hlonger [c] cs (by rw [he]; rfl) (by simp) (.hexNum (_ ++ [c])) (.hexNum ?_)
      cases h with
      | zero => exact absurd rfl h0
      | pos h1 h2 h3 =>
        refine .pos h1 h2 ?_
        intro d hd'
        rcases List.mem_append.mp hd' with hd' | hd'
        · exact h3 d hd'
        · rw [List.mem_singleton.mp hd']; exact hd
    | str h => trivial
    | punct h => trivial
    | declare => obtain ⟨c, cs, h1, h2, h3⟩ := name_of_keyword (w := c!"declare") (by simp); exact hname c cs h1 h2 h3
    | define => obtain ⟨c, cs, h1, h2, h3⟩ := name_of_keyword (w := c!"define") (by simp); exact hname c cs h1 h2 h3
    | modifier h => obtain ⟨c, cs, h1, h2, h3⟩ := name_of_keyword (w := w) (by simp [h]); exact hname c cs h1 h2 h3
    | type h => obtain ⟨c, cs, h1, h2, h3⟩ := name_of_keyword (w := w) (by simp [h]); exact hname c cs h1 h2 h3
    | ident h _ _ _ _ => obtain ⟨c, cs, h1, h2, h3⟩ := h; exact hname c cs h1 h2 h3
    | globalName h =>
      intro hg
      obtain ⟨v, r, e, hv, hn⟩ := goesOn_nameTail hg
      exact hlonger v r e hv _ (.globalName (nameTail_append h.1 hn hv))
    | localName h =>
      intro hg
      obtain ⟨v, r, e, hv, hn⟩ := goesOn_nameTail hg
      exact hlonger v r e hv _ (.localName (nameTail_append h.1 hn hv))
    | debugRef h =>
      intro hg
      obtain ⟨v, r, e, hv, hn⟩ := goesOn_nameTail hg
      exact hlonger v r e hv _ (.debugRef (nameTail_append h.1 hn hv))
  · rintro ⟨hs, hf⟩
    refine ⟨hs, ?_⟩
    intro t' w' r' hs' he
    apply Nat.le_of_not_lt
    intro hlt
    rw [List.append_eq_append_iff] at he
    rcases he with ⟨v, rfl, he⟩ | ⟨a, h1, _⟩
    rotate_left
    · have := congrArg List.length h1
      simp at this
      omega
    have hv : v ≠ [] := by rintro rfl; simp at hlt
    cases w with
    | nil => exact absurd rfl (spells_ne_nil hs)
    | cons c w =>
      have s1 := spells_shape hs
      have s2 := spells_shape (t := t') (c := c) (cs := w ++ v) (by simpa using hs')
      generalize firstClass c = k at s1 s2
      have hhead : ∃ d v', v = d :: v' ∧ rest = d :: (v' ++ r') := by
        cases v with
        | nil => exact absurd rfl hv
        | cons d v => exact ⟨d, v, rfl, by rw [he]; rfl⟩
      obtain ⟨d, v', rfl, hrest⟩ := hhead
      match k with
      | 0 =>
        obtain ⟨rfl, _⟩ := s1
        obtain rfl := hf d _ hrest
        exact s2.2 (by simp)
      | 1 =>
        rcases s1 with ⟨rfl, u, rfl, rfl, hu⟩ | ⟨rfl, hu⟩
        · rcases s2 with ⟨_, x, hx, _, hx'⟩ | ⟨_, hx'⟩
          · cases hx
            obtain ⟨h1, h2⟩ := numeral_longer hv hx' hu
            exact hf h1 d _ hrest (h2 d (by simp))
          · cases hx' with
            | pos _ h0 _ => exact absurd rfl h0
        · rcases s2 with ⟨rfl, x, hx, _, hx'⟩ | ⟨_, hx'⟩
          · cases hu with
            | zero =>
              simp only [List.nil_append, List.cons.injEq] at hx
              obtain ⟨rfl, rfl⟩ := hx
              obtain ⟨e, es, rfl, h3⟩ := numeral_head (by left; decide) hx'
              exact hf.2 rfl e _ hrest h3
            | pos _ h0 _ => exact absurd rfl h0
          · obtain ⟨h1, h2⟩ := numeral_longer (w := c :: w) hv hx' hu
            exact hf.1 h1 d _ hrest (h2 d (by simp))
      | 2 =>
        obtain ⟨u, _, rfl, hu⟩ := s1
        obtain ⟨x, _, hx, hx'⟩ := s2
        have : u ++ '"' :: (d :: v') = x ++ '"' :: [] := by simpa using hx
        obtain ⟨_, h5⟩ := until_unique hu hx' this
        cases h5
      | 3 =>
        have := s2.2
        simp at this
      | 4 =>
        obtain ⟨rfl, _, _⟩ := s1
        rw [follow_name (classify_nameTok _), he] at hf
        exact hf (nameTail_goesOn s2.2.2 hv)
      | 5 =>
        have hn : NameTok t := by rcases s1.1 with rfl | rfl | rfl <;> exact trivial
        rw [follow_name hn, he] at hf
        exact hf (nameTail_goesOn s2.2.2 hv)
      | 6 =>
        have := s2.2
        simp at this
      | 7 =>
        have h1 := s1.2
        have := s2.2
        rw [h1] at this
        simp at this
      | _ + 8 => exact s1

end
end HyperIR
