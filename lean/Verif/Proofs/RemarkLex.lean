import Verif.Proofs.LexFollow
import Verif.Proofs.Compose
import Verif.Spec.Remarks
import Verif.Props.Parser

/- Tokens of texts that differ only in remarks at the ends of their lines. -/

namespace HyperIR
open Spec

section
variable [Unicode]

/-- The characters that end a token (and the quote). -/
def breakers : Str := [' ', '\t', '#', '"', '\n', '\r']

theorem nameChar_breaker {d : Char} (h : NameChar d) : d ∉ breakers := by
  intro hd
  simp only [breakers, List.mem_cons, List.not_mem_nil, or_false] at hd
  rcases hd with rfl | rfl | rfl | rfl | rfl | rfl <;> exact not_nameChar_of (by decide) (by decide) h

theorem nameTail_breaker {w : Str} (h : NameTail w) {d : Char} (hd : d ∈ w) : d ∉ breakers := by
  rcases h.1 d hd with h | rfl
  · exact nameChar_breaker h
  · decide

omit [Unicode] in
theorem hexDigit_breaker {d : Char} (h : HexDigit d) : d ∉ breakers := by
  intro hd
  simp only [breakers, List.mem_cons, List.not_mem_nil, or_false] at hd
  rcases hd with rfl | rfl | rfl | rfl | rfl | rfl <;> revert h <;> unfold HexDigit Digit <;> simp only [char_le_iff] <;> decide

/-- A token that does not start with a quote, `#` or a line end contains no such character and no blank. -/
theorem spells_code {t : Token} {c : Char} {v : Str} (h : Spells t (c :: v)) (h1 : c ≠ '#') (h2 : c ≠ '"') (h3 : c ≠ '\n') (h4 : c ≠ '\r') :
    t ≠ .comment ∧ t ≠ .newline ∧ (∀ s, t ≠ .str s) ∧ ∀ d ∈ c :: v, d ∉ breakers := by
  rw [spells_iff] at h
  rcases h with ⟨rfl, v', h, _⟩ | ⟨v', rfl, h, hn⟩ | ⟨rfl, hn⟩ | ⟨v', rfl, h, _⟩ | ⟨c', rfl, h, hp⟩
      | ⟨rfl, c', cs, h, hh, hn⟩ | ⟨v', rfl, h, hn⟩ | ⟨v', rfl, h, hn⟩ | ⟨v', rfl, h, hn⟩ | ⟨rfl, h | h⟩ | h
  · cases h; exact absurd rfl h1
  · cases h
    refine ⟨by simp, by simp, by simp, ?_⟩
    intro d hd
    simp only [List.mem_cons] at hd
    rcases hd with rfl | rfl | hd
    · decide
    · decide
    · exact hexDigit_breaker (numeral_all hn (by left; decide) d hd)
  · refine ⟨by simp, by simp, by simp, ?_⟩
    intro d hd
    exact hexDigit_breaker (.inl (numeral_all hn (by decide) d hd))
  · cases h; exact absurd rfl h2
  · cases h
    refine ⟨by simp, by simp, by simp, ?_⟩
    intro d hd
    obtain rfl : d = c := by simpa using hd
    exact punct_forall (p := fun c => c ∉ breakers) (by decide) hp
  · cases h
    refine ⟨?_, ?_, ?_, ?_⟩
    · rcases classify_cases (c :: v) with h | h | h | h | h <;> rw [h] <;> simp
    · rcases classify_cases (c :: v) with h | h | h | h | h <;> rw [h] <;> simp
    · rcases classify_cases (c :: v) with h | h | h | h | h <;> rw [h] <;> simp
    · intro d hd
      rcases List.mem_cons.mp hd with rfl | hd
      · intro hb
        simp only [breakers, List.mem_cons, List.not_mem_nil, or_false] at hb
        rcases hb with rfl | rfl | rfl | rfl | rfl | rfl <;> exact not_head_of (by decide) (by decide) hh
      · exact nameTail_breaker hn hd
  · cases h
    refine ⟨by simp, by simp, by simp, ?_⟩
    intro d hd
    rcases List.mem_cons.mp hd with rfl | hd
    · decide
    · exact nameTail_breaker hn hd
  · cases h
    refine ⟨by simp, by simp, by simp, ?_⟩
    intro d hd
    rcases List.mem_cons.mp hd with rfl | hd
    · decide
    · exact nameTail_breaker hn hd
  · cases h
    refine ⟨by simp, by simp, by simp, ?_⟩
    intro d hd
    rcases List.mem_cons.mp hd with rfl | hd
    · decide
    · exact nameTail_breaker hn hd
  · cases h; exact absurd rfl h3
  · cases h; exact absurd rfl h4
  · exact h.elim

/-- What follows ends every token. -/
def TokenEnd (rest : Str) : Prop := ∀ c cs, rest = c :: cs → c ∈ [' ', '\t', '#', '\n', '\r']

omit [Unicode] in
theorem TokenEnd.breaker {c : Char} {cs : Str} (h : TokenEnd (c :: cs)) : c ∈ breakers := by
  have := h c cs rfl
  simp only [breakers, List.mem_cons, List.not_mem_nil, or_false] at this ⊢
  rcases this with h | h | h | h | h <;> simp [h]

theorem nameGoesOn_stop {w rest : Str} (hr : TokenEnd rest) : NameGoesOn (w ++ rest) ↔ NameGoesOn w := by
  constructor
  · rintro ⟨cs, c, r, h, hcs, hc⟩
    rw [List.append_eq_append_iff] at h
    rcases h with ⟨a, rfl, h⟩ | ⟨a, rfl, h⟩
    · cases a with
      | nil =>
        cases rest with
        | nil => cases h
        | cons x rest =>
          simp only [List.nil_append, List.cons.injEq] at h
          exact absurd (h.1 ▸ hr.breaker) (nameChar_breaker hc)
      | cons x a =>
        cases rest with
        | nil => cases h
        | cons y rest =>
          simp only [List.cons_append, List.cons.injEq] at h
          have := hcs x (by simp)
          have hb := hr.breaker
          rw [h.1, this] at hb
          exact absurd hb (by decide)
    · cases a with
      | nil =>
        cases rest with
        | nil => cases h
        | cons x rest =>
          simp only [List.nil_append, List.cons.injEq] at h
          exact absurd (h.1 ▸ hr.breaker) (nameChar_breaker hc)
      | cons x a =>
        simp only [List.cons_append, List.cons.injEq] at h
        exact ⟨cs, c, a, by rw [h.1], hcs, hc⟩
  · rintro ⟨cs, c, r, rfl, hcs, hc⟩
    exact ⟨cs, c, r ++ rest, by simp, hcs, hc⟩

theorem follow_stop {t : Token} {w rest : Str} (hr : TokenEnd rest) (hc : t ≠ .comment) : Follow t (w ++ rest) ↔ Follow t w := by
  have hd : (∀ c cs, w ++ rest = c :: cs → ¬ Digit c) ↔ (∀ c cs, w = c :: cs → ¬ Digit c) := by
    cases w with
    | nil =>
      constructor
      · intro _ c cs h; cases h
      · intro _ c cs h hd
        simp only [List.nil_append] at h
        rw [h] at hr
        exact hexDigit_breaker (.inl hd) hr.breaker
    | cons x w =>
      constructor
      · rintro h c cs rfl'
        cases rfl'
        exact h x _ rfl
      · rintro h c cs rfl'
        cases rfl'
        exact h x _ rfl
  have hh : (∀ c cs, w ++ rest = c :: cs → ¬ HexDigit c) ↔ (∀ c cs, w = c :: cs → ¬ HexDigit c) := by
    cases w with
    | nil =>
      constructor
      · intro _ c cs h; cases h
      · intro _ c cs h hd
        simp only [List.nil_append] at h
        rw [h] at hr
        exact hexDigit_breaker hd hr.breaker
    | cons x w =>
      constructor
      · rintro h c cs rfl'
        cases rfl'
        exact h x _ rfl
      · rintro h c cs rfl'
        cases rfl'
        exact h x _ rfl
  have hx : (∀ d cs, w ++ rest = 'x' :: d :: cs → ¬ HexDigit d) ↔ (∀ d cs, w = 'x' :: d :: cs → ¬ HexDigit d) := by
    cases w with
    | nil =>
      constructor
      · intro _ c cs h; cases h
      · intro _ c cs h
        simp only [List.nil_append] at h
        rw [h] at hr
        exact absurd hr.breaker (by decide)
    | cons x w =>
      cases w with
      | nil =>
        constructor
        · intro _ c cs h; cases h
        · intro _ c cs h hd
          simp only [List.cons_append, List.nil_append, List.cons.injEq] at h
          rw [h.2] at hr
          exact hexDigit_breaker hd hr.breaker
      | cons y w =>
        constructor
        · rintro h c cs rfl'
          cases rfl'
          exact h y _ rfl
        · rintro h c cs rfl'
          cases rfl'
          exact h y _ rfl
  cases t with
  | comment => exact absurd rfl hc
  | num v => simp only [Follow, hd, hx]
  | hexNum v => simp only [Follow, hh]
  | newline => exact Iff.rfl
  | str s => exact Iff.rfl
  | punct c => exact Iff.rfl
  | _ => simp only [Follow, nameGoesOn_stop hr]

omit [Unicode] in
theorem code_drop {v w : Str} (h : Code (v ++ w)) (hv : '"' ∉ v) : Code w := by
  induction v with
  | nil => exact h
  | cons c v ih =>
    rw [List.cons_append] at h
    generalize hz : c :: (v ++ w) = z at h
    cases h with
    | nil => cases hz
    | char _ _ _ _ h => cases hz; exact ih h (by simp_all)
    | str =>
      have := (List.cons.inj hz).1
      subst this
      simp at hv

/-- The first token of code. -/
theorem code_token {w rest v r : Str} {t : Token} (hw : Code w) (hne : w ≠ []) (hrest : TokenEnd rest) (h : w ++ rest = v ++ r) (hl : Spells t v) :
    ∃ w', w = v ++ w' ∧ r = w' ++ rest ∧ Code w' ∧ t ≠ .comment ∧ t ≠ .newline := by
  have hvne := spells_ne_nil hl
  cases v with
  | nil => exact absurd rfl hvne
  | cons d v =>
    cases hw with
    | nil => exact absurd rfl hne
    | @char c w h1 h2 h3 h4 hw =>
      simp only [List.cons_append, List.cons.injEq] at h
      obtain ⟨rfl, h⟩ := h
      obtain ⟨k1, k2, _, k3⟩ := spells_code hl h1 h2 h3 h4
      rw [List.append_eq_append_iff] at h
      rcases h with ⟨a, rfl, h⟩ | ⟨a, rfl, h⟩
      · cases a with
        | nil =>
          simp only [List.nil_append] at h
          exact ⟨[], by simp, by simp [h], .nil, k1, k2⟩
        | cons x a =>
          subst h
          exact absurd hrest.breaker (k3 x (by simp))
      · exact ⟨a, by simp, h, code_drop hw (fun hq => k3 '"' (by simp [hq]) (by decide)), k1, k2⟩
    | @str s w hs hw =>
      simp only [List.cons_append, List.cons.injEq] at h
      obtain ⟨rfl, h⟩ := h
      obtain ⟨x, rfl⟩ := (spells_first hl rfl).2.mp rfl
      obtain ⟨e, hx⟩ := spells_str hl
      simp only [List.cons_append, List.cons.injEq, true_and] at e
      subst e
      simp only [List.append_assoc, List.cons_append, List.nil_append] at h
      obtain ⟨rfl, h2⟩ := until_unique hs hx h
      exact ⟨w, by simp, h2.symm, hw, by simp, by simp⟩

theorem lexes_blanks {o : Nat} {b rest : Str} {ts} (hb : Blank b) (h : Lexes (o + b.length) rest ts) : Lexes o (b ++ rest) ts := by
  cases h with
  | @done _ b' h =>
    refine .done ?_
    intro c hc
    rcases List.mem_append.mp hc with hc | hc
    · exact hb c hc
    · exact h c hc
  | @tok _ b' t w rest ts h hl hr =>
    have := Lexes.tok (o := o) (b := b ++ b') (t := t) (w := w) (rest := rest) (ts := ts) (by
      intro c hc
      rcases List.mem_append.mp hc with hc | hc
      · exact hb c hc
      · exact h c hc) hl (by simpa [Nat.add_assoc] using hr)
    simpa [Nat.add_assoc] using this

omit [Unicode] in
theorem blank_noquote {b : Str} (h : Blank b) : '"' ∉ b := by
  intro hq
  rcases h _ hq with h | h <;> revert h <;> decide

theorem follow_nil {t : Token} : Follow t [] := by
  cases t <;> simp [Follow, NameGoesOn]

/-- The tokens of code, whatever ends it. -/
theorem lexes_code {rest : Str} (hr : TokenEnd rest) {o : Nat} {text : Str} {ts} (h : Lexes o text ts) : ∀ {w : Str}, Code w → text = w ++ rest →
    ∃ ts1 ts2, ts = ts1 ++ ts2 ∧ Lexes o w ts1 ∧ Lexes (o + w.length) rest ts2 := by
  induction h with
  | @done o b hb =>
    rintro w _ rfl
    exact ⟨[], [], rfl, .done fun c hc => hb c (by simp [hc]), .done fun c hc => hb c (by simp [hc])⟩
  | @tok o b t v r ts hb hl hrest ih =>
    intro w hw he
    rw [List.append_assoc, List.append_eq_append_iff] at he
    -- does the token start in the code?
    have key : ∀ w', w' ≠ [] → w = b ++ w' → v ++ r = w' ++ rest → ∃ ts1 ts2, (t, { start := o + b.length, stop := o + b.length + v.length }) :: ts = ts1 ++ ts2 ∧
        Lexes o w ts1 ∧ Lexes (o + w.length) rest ts2 := by
      rintro w' hne rfl he
      obtain ⟨w'', rfl, rfl, hc, h1, _⟩ := code_token (code_drop hw (blank_noquote hb)) hne hr he.symm hl.1
      obtain ⟨ts1, ts2, rfl, h3, h4⟩ := ih hc rfl
      refine ⟨_ :: ts1, ts2, rfl, ?_, ?_⟩
      · rw [← List.append_assoc]
        refine .tok hb ?_ h3
        rw [longest_iff] at hl ⊢
        exact ⟨hl.1, (follow_stop hr h1).mp hl.2⟩
      · simpa [Nat.add_assoc] using h4
    rcases he with ⟨w', rfl, he⟩ | ⟨b', rfl, he⟩
    · cases w' with
      | nil =>
        simp only [List.append_nil, List.nil_append] at he ⊢
        subst he
        refine ⟨[], _, rfl, .done hb, ?_⟩
        have := Lexes.tok (o := o + b.length) (b := []) (by intro c hc; cases hc) hl (by simpa using hrest)
        simpa using this
      | cons x w' => exact key (x :: w') (by simp) rfl he
    · subst he
      refine ⟨[], _, rfl, .done fun c hc => hb c (by simp [hc]), ?_⟩
      have := Lexes.tok (o := o + w.length) (b := b') (fun c hc => hb c (by simp [hc])) hl (by simpa [Nat.add_assoc] using hrest)
      simpa [Nat.add_assoc] using this

/-- The tokens of code, followed by something else. -/
theorem lexes_code_append {rest : Str} (hr : TokenEnd rest) {o : Nat} {w : Str} {ts1} (h : Lexes o w ts1) : ∀ {ts2}, Code w →
    Lexes (o + w.length) rest ts2 → Lexes o (w ++ rest) (ts1 ++ ts2) := by
  induction h with
  | @done o b hb => exact fun _ h => lexes_blanks hb h
  | @tok o b t v r ts hb hl _ ih =>
    intro ts2 hw h2
    rw [List.append_assoc] at hw
    have hw' := code_drop hw (blank_noquote hb)
    obtain ⟨w'', h3, h4, hc, h1, _⟩ := code_token (rest := []) (r := r) hw' (by simp [spells_ne_nil hl.1]) (by intro c cs h; cases h) (by simp) hl.1
    simp only [List.append_nil] at h4
    subst h4
    rw [List.append_assoc]
    refine .tok hb ?_ (ih hc (by simpa [Nat.add_assoc] using h2))
    rw [longest_iff] at hl ⊢
    exact ⟨hl.1, (follow_stop hr h1).mpr hl.2⟩

/-- Code consists of tokens other than comments and line ends. -/
theorem lexes_code_kinds {o : Nat} {w : Str} {ts} (h : Lexes o w ts) : Code w → ∀ t ∈ ts, t.1 ≠ .comment ∧ t.1 ≠ .newline ∧
    o ≤ t.2.start ∧ t.2.stop ≤ o + w.length ∧ t.2.start < t.2.stop := by
  induction h with
  | done => intro _ t ht; cases ht
  | @tok o b t v r ts hb hl _ ih =>
    intro hw
    rw [List.append_assoc] at hw
    have hw' := code_drop hw (blank_noquote hb)
    have hvne := spells_ne_nil hl.1
    have hvpos : 0 < v.length := List.length_pos_iff.mpr hvne
    obtain ⟨w'', h3, h4, hc, h1, h2⟩ := code_token (rest := []) (r := r) hw' (by simp [hvne]) (by intro c cs h; cases h) (by simp) hl.1
    simp only [List.append_nil] at h4
    subst h4
    intro x hx
    rcases List.mem_cons.mp hx with rfl | hx
    · refine ⟨h1, h2, ?_, ?_, ?_⟩ <;> simp only [List.length_append] <;> omega
    · obtain ⟨k1, k2, k3, k4, k5⟩ := ih hc x hx
      refine ⟨k1, k2, ?_, ?_, k5⟩
      · omega
      · simp only [List.length_append] at k4 ⊢
        omega

/-- The first token of a text is determined by the text. -/
theorem lexes_leading {o : Nat} {b w rest : Str} {t : Token} {ts} (hb : Blank b) (hl : Longest t w rest) (h : Lexes o (b ++ w ++ rest) ts) :
    ∃ ts', ts = (t, { start := o + b.length, stop := o + b.length + w.length }) :: ts' ∧ Lexes (o + b.length + w.length) rest ts' := by
  generalize hz : b ++ w ++ rest = z at h
  have hne := spells_ne_nil hl.1
  cases h with
  | done hb' =>
    subst hz
    have hx := spells_noBlank (rest := rest) hl.1
    have := noBlank_blank (x := w ++ rest) (fun c hc => hb' c (by
      rw [List.append_assoc]
      exact List.mem_append_right _ hc)) hx
    simp [hne] at this
  | @tok _ b' t' w' rest' ts hb' hl' hr =>
    rw [List.append_assoc, List.append_assoc] at hz
    obtain ⟨a, rfl, ha⟩ := blank_split hb hb' (spells_noBlank hl.1) hz
    obtain rfl : a = [] := by
      have hx := spells_noBlank (rest := rest') hl'.1
      rw [ha] at hx
      cases a with
      | nil => rfl
      | cons x a =>
        have := hx x _ rfl
        rcases hb x (by simp) with h | h
        · exact absurd h this.1
        · exact absurd h this.2
    simp only [List.append_nil, List.nil_append] at hz ha ⊢
    have hz := ha.symm
    have h1 := hl.2 _ _ _ hl'.1 hz
    have h2 := hl'.2 _ _ _ hl.1 hz.symm
    obtain ⟨rfl, rfl⟩ := List.append_inj hz (by omega)
    obtain rfl := spells_unique hl.1 hl'.1
    exact ⟨ts, rfl, hr⟩

theorem lexes_unshift {o k : Nat} {text toks} (h : Lexes (o + k) text toks) : ∃ toks0, Lexes o text toks0 ∧ toks = toks0.map (shiftTok k) := by
  generalize hz : o + k = z at h
  induction h generalizing o with
  | done hb => exact ⟨[], .done hb, rfl⟩
  | @tok z b t w rest ts hb hl _ ih =>
    subst hz
    obtain ⟨ts0, h1, rfl⟩ := ih (o := o + b.length + w.length) (by omega)
    refine ⟨_, .tok hb hl h1, ?_⟩
    simp only [List.map_cons, shiftTok]
    congr 2
    simp only [Span.mk.injEq]
    omega

/-- Where the line end token starts behind a remark (a comment takes the carriage return). -/
def nlStart (c e : Str) : Nat := if '#' ∈ c then c.length + e.length - 1 else c.length

omit [Unicode] in
theorem blank_nohash {b : Str} (h : Blank b) : '#' ∉ b := by
  intro hq
  rcases h _ hq with h | h <;> revert h <;> decide

/-- A remark and the line end behind it. -/
theorem lexes_remark {c e l : Str} (hc : Remark c) (he : LineEnd e) (o : Nat) : ∃ rem : List Tok, (∀ t ∈ rem, t.1 = .comment) ∧
    (∀ ts, Lexes (o + c.length + e.length) l ts → Lexes o (c ++ e ++ l)
      (rem ++ (.newline, { start := o + nlStart c e, stop := o + c.length + e.length }) :: ts)) ∧
    (∀ ts, Lexes o (c ++ e ++ l) ts → ∃ ts', Lexes (o + c.length + e.length) l ts' ∧
      ts = rem ++ (.newline, { start := o + nlStart c e, stop := o + c.length + e.length }) :: ts') := by
  have hnl : Spells .newline e := by rcases he with rfl | rfl; exact .lf; exact .crlf
  obtain ⟨b, hb, rfl | ⟨t, rfl, ht⟩⟩ := hc
  · refine ⟨[], by simp, ?_, ?_⟩
    · intro ts h
      have := Lexes.tok (o := o) hb (longest_lf (rest := l) hnl) h
      simpa [nlStart, blank_nohash hb] using this
    · intro ts h
      obtain ⟨ts', rfl, h'⟩ := lexes_leading hb (longest_lf (rest := l) hnl) h
      exact ⟨ts', h', by simp [nlStart, blank_nohash hb]⟩
  · -- the comment, and what remains of the line end
    obtain ⟨cr, rfl, hcr⟩ : ∃ cr, e = cr ++ ['\n'] ∧ '\n' ∉ cr := by
      rcases he with rfl | rfl
      · exact ⟨[], rfl, by simp⟩
      · exact ⟨['\r'], rfl, by decide⟩
    have hl1 : Longest .comment ('#' :: (t ++ cr)) ('\n' :: l) := longest_comment (by
      intro hm
      rcases List.mem_append.mp hm with hm | hm
      · exact (ht _ hm).1 rfl
      · exact hcr hm) (by intro c cs h; cases h; rfl)
    have hl2 : Longest .newline ['\n'] l := longest_lf .lf
    have e1 : b ++ '#' :: t ++ (cr ++ ['\n']) ++ l = b ++ ('#' :: (t ++ cr)) ++ ('\n' :: l) := by simp
    have e2 : nlStart (b ++ '#' :: t) (cr ++ ['\n']) = b.length + ('#' :: (t ++ cr)).length := by
      simp [nlStart]
      omega
    have e3 : (b ++ '#' :: t).length + (cr ++ ['\n']).length = b.length + ('#' :: (t ++ cr)).length + 1 := by
      simp
      omega
    rw [e1, e2, Nat.add_assoc o, e3]
    refine ⟨[(.comment, { start := o + b.length, stop := o + b.length + ('#' :: (t ++ cr)).length })], by simp, ?_, ?_⟩
    · intro ts h
      refine Lexes.tok (o := o) hb hl1 ?_
      have := Lexes.tok (o := o + b.length + ('#' :: (t ++ cr)).length) (b := []) (by intro c hc; cases hc) hl2 (ts := ts) (by
        simpa [Nat.add_assoc] using h)
      simpa [Nat.add_assoc] using this
    · intro ts h
      obtain ⟨ts', rfl, h'⟩ := lexes_leading hb hl1 h
      obtain ⟨ts'', rfl, h''⟩ := lexes_leading (b := []) (by intro c hc; cases hc) hl2 (by simpa using h')
      refine ⟨ts'', by simpa [Nat.add_assoc] using h'', ?_⟩
      simp [Nat.add_assoc]

/-- A remark at the end of the text. -/
theorem lexes_remark_last {c : Str} (hc : Remark c) (o : Nat) : ∃ rem : List Tok, (∀ t ∈ rem, t.1 = .comment) ∧ Lexes o c rem := by
  obtain ⟨b, hb, rfl | ⟨t, rfl, ht⟩⟩ := hc
  · exact ⟨[], by simp, .done hb⟩
  · have hl1 : Longest .comment ('#' :: t) [] := longest_comment (fun hm => (ht _ hm).1 rfl) (by intro c cs h; cases h)
    have := Lexes.tok (o := o) hb hl1 (.done (by intro c hc; cases hc))
    exact ⟨[(.comment, { start := o + b.length, stop := o + b.length + ('#' :: t).length })], by simp, by simpa using this⟩

/-- The code `T0`, with LF line ends and nothing behind its lines, and the text `T`: `g` keeps lines and columns, `f` is where tokens start. -/
inductive Placed : Str → Str → (Nat → Nat) → (Nat → Nat) → Prop
  | last {w c} : Code w → Remark c →
      Placed w (w ++ c) (fun x => if x < w.length then x else x + c.length) (fun x => if x ≤ w.length then x else x + c.length)
  | line {w c e l0 l f g} : Code w → Remark c → LineEnd e → Placed l0 l f g →
      Placed (w ++ '\n' :: l0) (w ++ c ++ e ++ l)
        (fun x => if x < w.length then x else if x = w.length then w.length + nlStart c e
          else w.length + c.length + e.length + f (x - (w.length + 1)))
        (fun x => if x ≤ w.length then x else w.length + c.length + e.length + g (x - (w.length + 1)))

omit [Unicode] in
theorem sameCode_placed {T T' : Str} (h : SameCode T T') : ∃ T0 f g f' g', Placed T0 T f g ∧ Placed T0 T' f' g' := by
  induction h with
  | last hw hc hc' => exact ⟨_, _, _, _, _, .last hw hc, .last hw hc'⟩
  | line hw hc hc' he he' _ ih =>
    obtain ⟨T0, f, g, f', g', h1, h2⟩ := ih
    exact ⟨_, _, _, _, _, .line hw hc he h1, .line hw hc' he' h2⟩

omit [Unicode] in
theorem tokenEnd_remark {c rest : Str} (hc : Remark c) (hr : TokenEnd rest) : TokenEnd (c ++ rest) := by
  obtain ⟨b, hb, h⟩ := hc
  cases b with
  | nil =>
    rcases h with rfl | ⟨t, rfl, _⟩
    · exact hr
    · intro c cs h; cases h; decide
  | cons x b =>
    have : ∃ y, c = x :: y := by rcases h with rfl | ⟨t, rfl, _⟩ <;> exact ⟨_, rfl⟩
    obtain ⟨y, rfl⟩ := this
    intro c cs h
    cases h
    rcases hb x (by simp) with rfl | rfl <;> decide

omit [Unicode] in
theorem tokenEnd_eol {e rest : Str} (he : LineEnd e) : TokenEnd (e ++ rest) := by
  rcases he with rfl | rfl <;> (intro c cs h; cases h; decide)

omit [Unicode] in
theorem placed_zero {T0 T f g} (h : Placed T0 T f g) : g 0 = 0 := by
  cases h <;> simp

omit [Unicode] in
theorem nonComments_comments {rem : List Tok} (h : ∀ t ∈ rem, t.1 = .comment) : nonComments rem = [] := by
  rw [nonComments, List.filter_eq_nil_iff]
  intro t ht
  simp [h t ht]

omit [Unicode] in
theorem nonComments_code {l : List Tok} (h : ∀ t ∈ l, t.1 ≠ .comment) : nonComments l = l := by
  rw [nonComments, List.filter_eq_self]
  intro t ht
  simp [h t ht]

omit [Unicode] in
theorem nonComments_shift {k : Nat} {l : List Tok} : nonComments (l.map (shiftTok k)) = (nonComments l).map (shiftTok k) := by
  unfold nonComments
  rw [List.filter_map]
  rfl

omit [Unicode] in
theorem map_spanned_self {F : Move} {l : List Tok} (h : ∀ t ∈ l, F.fs t.2.start = t.2.start ∧ F.fe t.2.stop = t.2.stop) : l.map F.spanned = l := by
  refine (List.map_congr_left (g := id) fun t ht => ?_).trans (List.map_id l)
  obtain ⟨t, sp⟩ := t
  have := h _ ht
  simp only at this
  simp only [Move.spanned, Move.span, this.1, this.2, id]

/-- The tokens of the code and the tokens of the text. -/
theorem placed_lexes {T0 T f g} (h : Placed T0 T f g) :
    (∀ ts0, Lexes 0 T0 ts0 → ∃ ts, Lexes 0 T ts ∧ nonComments ts = ts0.map (Move.mk f g).spanned ∧
      ∀ t ∈ ts0, t.1 ≠ .comment ∧ (t.1 ≠ .newline → f t.2.start = g t.2.start)) ∧
    (∀ ts, Lexes 0 T ts → ∃ ts0, Lexes 0 T0 ts0) := by
  induction h with
  | @last w c hw hc =>
    refine ⟨?_, ?_⟩
    · intro ts0 h0
      obtain ⟨rem, h1, h2⟩ := lexes_remark_last hc (0 + w.length)
      have hk := lexes_code_kinds h0 hw
      refine ⟨ts0 ++ rem, ?_, ?_, ?_⟩
      · exact lexes_code_append (by simpa using tokenEnd_remark (rest := []) hc (by intro c cs h; cases h)) h0 hw h2
      · have e : nonComments (ts0 ++ rem) = ts0 := by
          rw [nonComments, List.filter_append, ← nonComments, ← nonComments, nonComments_comments h1, nonComments_code (fun t ht => (hk t ht).1), List.append_nil]
        rw [e, map_spanned_self]
        intro t ht
        have := hk t ht
        simp only
        rw [if_pos (by omega), if_pos (by omega)]
        exact ⟨rfl, rfl⟩
      · intro t ht
        have := hk t ht
        refine ⟨this.1, fun _ => ?_⟩
        simp only
        rw [if_pos (by omega), if_pos (by omega)]
    · intro ts h
      obtain ⟨ts1, _, _, h1, _⟩ := lexes_code (by simpa using tokenEnd_remark (rest := []) hc (by intro c cs h; cases h)) h hw rfl
      exact ⟨ts1, h1⟩
  | @line w c e l0 l f g hw hc he hp ih =>
    have hend : TokenEnd (c ++ e ++ l) := by
      rw [List.append_assoc]
      exact tokenEnd_remark hc (tokenEnd_eol he)
    have hend0 : TokenEnd ('\n' :: l0) := by intro c cs h; cases h; decide
    obtain ⟨rem, hr1, hr2, hr3⟩ := lexes_remark (l := l) hc he (0 + w.length)
    refine ⟨?_, ?_⟩
    · intro ts0 h0
      obtain ⟨tsw, ts2, rfl, h1, h2⟩ := lexes_code hend0 h0 hw rfl
      obtain ⟨ts', rfl, h3⟩ := lexes_leading (b := []) (w := ['\n']) (by intro c hc; cases hc) (longest_lf .lf) (by simpa using h2)
      obtain ⟨tl0, h4, rfl⟩ := lexes_unshift (o := 0) (k := w.length + 1) (by simpa [Nat.add_assoc] using h3)
      obtain ⟨tl, h5, h6, h7⟩ := ih.1 tl0 h4
      have hk := lexes_code_kinds h1 hw
      have h8 := hr2 (tl.map (shiftTok (w.length + c.length + e.length)))
        (by simpa [Nat.add_assoc] using lexes_shift h5 (w.length + c.length + e.length))
      refine ⟨tsw ++ (rem ++ (.newline, ⟨0 + w.length + nlStart c e, 0 + w.length + c.length + e.length⟩) ::
        tl.map (shiftTok (w.length + c.length + e.length))), ?_, ?_, ?_⟩
      · have := lexes_code_append hend h1 hw h8
        rw [List.append_assoc, List.append_assoc, ← List.append_assoc c]
        exact this
      · have e : nonComments (tsw ++ (rem ++ (Token.newline, (⟨0 + w.length + nlStart c e, 0 + w.length + c.length + e.length⟩ : Span)) ::
            tl.map (shiftTok (w.length + c.length + e.length)))) = tsw ++ (Token.newline, ⟨0 + w.length + nlStart c e, 0 + w.length + c.length + e.length⟩) ::
            (nonComments tl).map (shiftTok (w.length + c.length + e.length)) := by
          rw [nonComments, List.filter_append, List.filter_append, List.filter_cons, ← nonComments, ← nonComments, ← nonComments,
            nonComments_comments hr1, nonComments_code (fun t ht => (hk t ht).1), nonComments_shift]
          simp
        rw [e, h6, List.map_append, map_spanned_self (l := tsw), List.map_cons]
        · congr 1
          congr 1
          · simp [Move.spanned, Move.span, placed_zero hp]
            omega
          · rw [List.map_map, List.map_map]
            refine List.map_congr_left fun t _ => ?_
            simp only [Function.comp, Move.spanned, Move.span, shiftTok, Prod.mk.injEq, true_and, Span.mk.injEq]
            have a1 : ¬ t.2.start + (w.length + 1) < w.length := by omega
            have a2 : ¬ t.2.start + (w.length + 1) = w.length := by omega
            have a3 : ¬ t.2.stop + (w.length + 1) ≤ w.length := by omega
            simp only [a1, a2, a3, if_false, Nat.add_sub_cancel]
            omega
        · intro t ht
          have := hk t ht
          simp only
          rw [if_pos (by omega), if_pos (by omega)]
          exact ⟨rfl, rfl⟩
      · intro t ht
        simp only [List.mem_append, List.mem_cons, List.mem_map] at ht
        rcases ht with ht | rfl | ⟨t, ht, rfl⟩
        · have := hk t ht
          refine ⟨this.1, fun _ => ?_⟩
          simp only
          rw [if_pos (by omega), if_pos (by omega)]
        · exact ⟨by simp, fun h => absurd rfl h⟩
        · have := h7 t ht
          refine ⟨this.1, fun hn => ?_⟩
          simp only [shiftTok]
          have a1 : ¬ t.2.start + (w.length + 1) < w.length := by omega
          have a2 : ¬ t.2.start + (w.length + 1) = w.length := by omega
          have a3 : ¬ t.2.start + (w.length + 1) ≤ w.length := by omega
          simp only [a1, a2, a3, if_false, Nat.add_sub_cancel, this.2 hn]
    · intro ts h
      rw [List.append_assoc, List.append_assoc, ← List.append_assoc c] at h
      obtain ⟨tsw, ts2, rfl, h1, h2⟩ := lexes_code hend h hw rfl
      obtain ⟨ts', h3, _⟩ := hr3 _ h2
      obtain ⟨tl, h4, _⟩ := lexes_unshift (o := 0) (k := w.length + c.length + e.length) (by simpa [Nat.add_assoc] using h3)
      obtain ⟨tl0, h5⟩ := ih.2 tl h4
      refine ⟨_, lexes_code_append hend0 h1 hw (?_ : Lexes (0 + w.length) ('\n' :: l0) ((.newline, ⟨0 + w.length, 0 + w.length + 1⟩) :: tl0.map (shiftTok (w.length + 1))))⟩
      have := Lexes.tok (o := 0 + w.length) (b := []) (by intro c hc; cases hc) (longest_lf (rest := l0) .lf) (ts := tl0.map (shiftTok (w.length + 1))) (by
        simpa [Nat.add_assoc] using lexes_shift h5 (w.length + 1))
      simpa using this

end
end HyperIR
