import Verif.Proofs.LexFacts

/-
Properties C02–C06: what the tokens reported by `parse_from_str` (src/hir_parser.rs:435) say about
the document.  The specification of tokens is `Spec/Lexical.lean`.
-/

namespace HyperIR
open Spec

section
variable [Unicode]

/-! ### C02 -/

/-- C02: for every text, the reported tokens have non-empty ranges inside the text, in source order
and without overlap. -/
theorem C02_token_spans {src : Str} {res : ParserResult} (h : parseFromStr src = .ok res) :
    (∀ t ∈ res.tokens, Inside src.length t.2) ∧ InOrder (res.tokens.map Prod.snd) := by
  rcases parseFromStr_tokens h with ⟨h1, _⟩ | ⟨errs, h1⟩
  · rw [h1]; exact ⟨by simp, List.Pairwise.nil⟩
  · obtain ⟨h2, h3⟩ := lexesErr_spans (tokenize_sound h1)
    exact ⟨fun t ht => ⟨(h2 t ht).2.1, by have := (h2 t ht).2.2; omega⟩, h3⟩

/-! ### C03 -/

/-- C03: without errors, the characters in a token's range are a spelling of the token, and no longer
token starts at that place. -/
theorem C03_token_spelling {src : Str} {res : ParserResult} (h : parseFromStr src = .ok res)
    (he : res.errors = []) : ∀ t sp, (t, sp) ∈ res.tokens →
      Spells t (slice src sp) ∧ Longest t (slice src sp) (src.drop sp.stop) := by
  intro t sp ht
  obtain ⟨a, g, w, r, rfl, h1, h2, rfl, h3⟩ :=
    lexesErr_mem (tokenize_sound (parseFromStr_no_errors h he)) t sp ht
  obtain rfl := h3 rfl
  have hs : slice (a ++ [] ++ w ++ r)
      { start := 0 + a.length, stop := 0 + a.length + ([] : Str).length + w.length } = w := by
    rw [List.append_nil]
    exact slice_mid a w r _ (by simp) (by simp)
  rw [hs]
  refine ⟨h1.1, ?_⟩
  have : (a ++ [] ++ w ++ r).drop (0 + a.length + ([] : Str).length + w.length) = r := by simp
  rw [this]
  exact h1

/-- C03 as soon as there is no *lexical* error (there may be syntax errors). -/
theorem C03_token_spelling_lexical {src : Str} {toks} (h : tokenize src = .ok (some toks, [])) :
    ∀ t sp, (t, sp) ∈ toks → Spells t (slice src sp) := by
  intro t sp ht
  obtain ⟨a, g, w, r, rfl, h1, h2, rfl, h3⟩ := lexesErr_mem (tokenize_sound h) t sp ht
  obtain rfl := h3 rfl
  have hs : slice (a ++ [] ++ w ++ r)
      { start := 0 + a.length, stop := 0 + a.length + ([] : Str).length + w.length } = w := by
    rw [List.append_nil]
    exact slice_mid a w r _ (by simp) (by simp)
  rw [hs]
  exact h1.1

/-- What remains true with lexical errors: a token's range ends with a spelling of the token, and
everything before it in the range is text where no token starts. -/
theorem C03_token_spelling_with_errors {src : Str} {res : ParserResult} (h : parseFromStr src = .ok res) :
    ∀ t sp, (t, sp) ∈ res.tokens →
      ∃ g w, slice src sp = g ++ w ∧ Spells t w ∧ Garbage g (w ++ src.drop sp.stop) := by
  intro t sp ht
  rcases parseFromStr_tokens h with ⟨h1, _⟩ | ⟨errs, h1⟩
  · rw [h1] at ht; cases ht
  · obtain ⟨a, g, w, r, rfl, h1, h2, rfl, h3⟩ := lexesErr_mem (tokenize_sound h1) t sp ht
    refine ⟨g, w, ?_, h1.1, ?_⟩
    · have := slice_mid a (g ++ w) r a.length rfl (e := 0 + a.length + g.length + w.length)
        (by simp; omega)
      rw [← this]
      simp
    · have : (a ++ g ++ w ++ r).drop (0 + a.length + g.length + w.length) = r := by
        rw [List.drop_append]
        simp [Nat.add_assoc]
      rw [this]; exact h2

/-! ### C04 -/

/-- C04: every character that is neither a blank nor a tab lies in a token, or an error is
reported. -/
theorem C04_nothing_skipped {src : Str} {res : ParserResult} (h : parseFromStr src = .ok res) :
    ∀ i c, src[i]? = some c → c ≠ ' ' → c ≠ '\t' →
      (∃ t ∈ res.tokens, Covers t.2 i) ∨ res.errors ≠ [] := by
  intro i c hi h1 h2
  rcases parseFromStr_tokens h with ⟨_, _, h3⟩ | ⟨errs, h3⟩
  · exact .inr h3
  · obtain ⟨t, ht, hc⟩ := lexesErr_covers (tokenize_sound h3) i c hi h1 h2
    rw [Nat.zero_add] at hc
    exact .inl ⟨t, ht, hc⟩

/-- C04, stronger: if tokens are reported at all, every such character lies in a token. -/
theorem C04_nothing_skipped_tokens {src : Str} {res : ParserResult} (h : parseFromStr src = .ok res)
    (ht : res.tokens ≠ []) : ∀ i c, src[i]? = some c → c ≠ ' ' → c ≠ '\t' →
      ∃ t ∈ res.tokens, Covers t.2 i := by
  intro i c hi h1 h2
  rcases parseFromStr_tokens h with ⟨h3, _⟩ | ⟨errs, h3⟩
  · exact absurd h3 ht
  · obtain ⟨t, ht, hc⟩ := lexesErr_covers (tokenize_sound h3) i c hi h1 h2
    rw [Nat.zero_add] at hc
    exact ⟨t, ht, hc⟩

/-! ### C05 -/

/-- `Printed toks text`: the text is a print-out of the tokens with the given spellings; tokens are
separated by at least one blank, a comment is followed by a line feed or the end of the text. -/
inductive Printed : List (Token × Str) → Str → Prop
  | nil : Printed [] []
  | tok {t w b ts text} : Spells t w → t ≠ .comment → Blank b → (b = [] → ts = []) →
      Printed ts text → Printed ((t, w) :: ts) (w ++ b ++ text)
  | comment {w ts text} : Spells .comment w → (∀ c cs, text = c :: cs → c = '\n') →
      Printed ts text → Printed ((.comment, w) :: ts) (w ++ text)

theorem printed_lexes {toks text} (h : Printed toks text) : ∀ o, ∃ out, LexesErr o text out 0
    ∧ out.map Prod.fst = toks.map Prod.fst
    ∧ ∀ pre, pre.length = o → out.map (fun t => slice (pre ++ text) t.2) = toks.map Prod.snd := by
  induction h with
  | nil => exact fun o => ⟨[], .done (by simp [Blank]), rfl, by simp⟩
  | @tok t w b ts text h1 h2 h3 h4 h5 ih =>
    intro o
    obtain ⟨out, k1, k2, k3⟩ := ih (o + w.length + b.length)
    have hl : Longest t w (b ++ text) := by
      refine longest_of_blank h1 h2 ?_
      intro c cs hc
      cases b with
      | nil =>
        obtain rfl := h4 rfl
        cases h5
        cases hc
      | cons x b =>
        simp only [List.cons_append, List.cons.injEq] at hc
        exact hc.1 ▸ h3 x (by simp)
    refine ⟨_, by
      have := LexesErr.tok (o := o) (b := []) (by simp [Blank]) hl (lexesErr_blank h3 k1)
      simpa only [List.nil_append, List.append_assoc, List.length_nil, Nat.add_zero] using this, ?_, ?_⟩
    · simp [k2]
    · intro pre hp
      simp only [List.map_cons, List.cons.injEq]
      constructor
      · have := slice_mid pre w (b ++ text) o hp.symm (e := o + w.length) rfl
        simpa only [List.append_assoc] using this
      · have := k3 (pre ++ w ++ b) (by simp [hp]; omega)
        simpa only [List.append_assoc] using this
  | @comment w ts text h1 h2 h3 ih =>
    intro o
    obtain ⟨out, k1, k2, k3⟩ := ih (o + w.length)
    obtain ⟨v, rfl, hv⟩ : ∃ v, w = '#' :: v ∧ '\n' ∉ v := by
      cases h1 with
      | comment h => exact ⟨_, rfl, h⟩
    have hl := longest_comment hv h2
    refine ⟨_, by
      have := LexesErr.tok (o := o) (b := []) (by simp [Blank]) hl k1
      simpa only [List.nil_append, List.append_assoc, List.length_nil, Nat.add_zero] using this, ?_, ?_⟩
    · simp [k2]
    · intro pre hp
      simp only [List.map_cons, List.cons.injEq]
      constructor
      · exact slice_mid pre ('#' :: v) text o hp.symm (e := o + ('#' :: v).length) rfl |> fun h => by
          simpa only [List.append_assoc] using h
      · have := k3 (pre ++ '#' :: v) (by simp [hp])
        simpa only [List.append_assoc] using this

/-- C05: tokenizing a print-out gives back the tokens, each at the place of its spelling, and no
error. -/
theorem C05_print_tokenize {toks : List (Token × Str)} {text : Str} (h : Printed toks text) :
    ∃ out, tokenize text = .ok (some out, []) ∧ out.map Prod.fst = toks.map Prod.fst
      ∧ out.map (fun t => slice text t.2) = toks.map Prod.snd := by
  obtain ⟨out, h1, h2, h3⟩ := printed_lexes h 0
  obtain ⟨errs, h4, h5⟩ := tokenize_complete h1 (by
    cases h with
    | nil => exact .inr rfl
    | tok => left; intro h; rw [h] at h2; cases h2
    | comment => left; intro h; rw [h] at h2; cases h2)
  obtain rfl := List.length_eq_zero_iff.mp h4
  exact ⟨out, h5, h2, h3 [] rfl⟩

/-! ### C06 -/

/-- Tokens that are names. -/
def IsNameToken : Token → Prop
  | .ident _ | .type _ | .funcModifier _ | .declare | .define
  | .globalName _ | .localName _ | .debugRef _ => True
  | _ => False

/-- The text continues a name: possibly colons, then a name character. -/
def ContinuesName (rest : Str) : Prop := ∃ cs c r, rest = cs ++ c :: r ∧ (∀ x ∈ cs, x = ':') ∧ NameChar c

theorem spells_extend {t : Token} {w cs : Str} {c : Char} (h : Spells t w) (hn : IsNameToken t)
    (hcs : ∀ x ∈ cs, x = ':') (hc : NameChar c) : ∃ t', Spells t' (w ++ cs ++ [c]) := by
  have hne : c ≠ ':' := fun h => not_nameChar_colon (h ▸ hc)
  have ht : NameTail (cs ++ [c]) := by
    refine ⟨?_, by simpa using hne⟩
    intro x hx
    rcases List.mem_append.mp hx with h | h
    · exact .inr (hcs x h)
    · left; simp only [List.mem_singleton] at h; exact h ▸ hc
  have happ {v : Str} (hv : NameTail v) : NameTail (v ++ (cs ++ [c])) :=
    nameTail_append hv.1 ht (by simp)
  have hname : ∀ {w}, Name w → ∃ t', Spells t' (w ++ cs ++ [c]) := by
    rintro w ⟨d, v, rfl, h1, h2⟩
    refine ⟨_, spells_classify ⟨d, v ++ (cs ++ [c]), by simp, h1, happ h2⟩⟩
  rw [spells_iff] at h
  rcases h with ⟨rfl, _⟩ | ⟨v, rfl, _⟩ | ⟨rfl, h⟩ | ⟨v, rfl, _⟩ | ⟨c', rfl, _⟩
      | ⟨_, h⟩ | ⟨v, _, rfl, h⟩ | ⟨v, _, rfl, h⟩ | ⟨v, _, rfl, h⟩ | ⟨rfl, _⟩ | h
  · exact hn.elim
  · exact hn.elim
  · exact hn.elim
  · exact hn.elim
  · exact hn.elim
  · exact hname h
  · exact ⟨_, by simpa only [List.cons_append, List.append_assoc] using Spells.globalName (happ h)⟩
  · exact ⟨_, by simpa only [List.cons_append, List.append_assoc] using Spells.localName (happ h)⟩
  · exact ⟨_, by simpa only [List.cons_append, List.append_assoc] using Spells.debugRef (happ h)⟩
  · exact hn.elim
  · exact h.elim

/-- C06 (longest names): behind a name token the text does not continue the name. -/
theorem C06_names_longest {src : Str} {res : ParserResult} (h : parseFromStr src = .ok res) :
    ∀ t sp, (t, sp) ∈ res.tokens → IsNameToken t → ¬ ContinuesName (src.drop sp.stop) := by
  intro t sp ht hn
  rcases parseFromStr_tokens h with ⟨h1, _⟩ | ⟨errs, h1⟩
  · rw [h1] at ht; cases ht
  · obtain ⟨a, g, w, r, rfl, h1, h2, rfl, h3⟩ := lexesErr_mem (tokenize_sound h1) t sp ht
    have : (a ++ g ++ w ++ r).drop (0 + a.length + g.length + w.length) = r := by
      rw [List.drop_append]
      simp [Nat.add_assoc]
    rw [this]
    rintro ⟨cs, c, r', rfl, h5, h6⟩
    obtain ⟨t', h7⟩ := spells_extend h1.1 hn h5 h6
    have := h1.2 t' _ r' h7 (by simp)
    simp only [List.length_append, List.length_singleton] at this
    omega

/-- C06 (exact keywords): an identifier is reported as keyword, type or modifier iff it is spelled
exactly like one. -/
theorem C06_keywords_exact {src : Str} {toks} (h : tokenize src = .ok (some toks, [])) :
    ∀ t sp, (t, sp) ∈ toks → Name (slice src sp) →
      (t = .declare ↔ slice src sp = c!"declare") ∧ (t = .define ↔ slice src sp = c!"define")
      ∧ ((∃ s, t = .funcModifier s) ↔ slice src sp ∈ keywordModifiers)
      ∧ ((∃ s, t = .type s) ↔ slice src sp ∈ keywordTypes)
      ∧ (t = .ident (slice src sp) ↔ slice src sp ≠ c!"declare" ∧ slice src sp ≠ c!"define"
          ∧ slice src sp ∉ keywordModifiers ∧ slice src sp ∉ keywordTypes) := by
  intro t sp ht hname
  have hs := C03_token_spelling_lexical h t sp ht
  generalize slice src sp = w at hs hname
  have kd : ∀ w ∈ keywordModifiers, w ≠ c!"declare" ∧ w ≠ c!"define" ∧ w ∉ keywordTypes := by
    decide +kernel
  have kt : ∀ w ∈ keywordTypes, w ≠ c!"declare" ∧ w ≠ c!"define" ∧ w ∉ keywordModifiers := by
    decide +kernel
  have kdc : c!"declare" ∉ keywordModifiers ∧ c!"declare" ∉ keywordTypes ∧ c!"declare" ≠ c!"define" := by
    decide +kernel
  have kdf : c!"define" ∉ keywordModifiers ∧ c!"define" ∉ keywordTypes := by decide +kernel
  obtain rfl := spells_unique hs (spells_classify hname)
  unfold classifyIdent
  split
  · rename_i h1; subst h1; simp [kdc.1, kdc.2.1]
  · rename_i h1
    split
    · rename_i h2; subst h2; simp [kdf.1, kdf.2]
    · rename_i h2
      split
      · rename_i h3
        have := kd w h3
        have h3' : w ∈ keywordModifiers := h3
        simp [h3', this]
      · rename_i h3
        have h3' : w ∉ keywordModifiers := h3
        split
        · rename_i h4
          have h4' : w ∈ keywordTypes := h4
          simp [h4', h3', h1, h2]
        · rename_i h4
          have h4' : w ∉ keywordTypes := h4
          simp [h1, h2, h3', h4']

/-- C06 (sigils): the first character of a token without error decides whether it is a global
name, local name or debug reference, and these tokens carry their complete spelling. -/
theorem C06_sigils {src : Str} {toks} (h : tokenize src = .ok (some toks, [])) :
    ∀ t sp, (t, sp) ∈ toks →
      ((∃ v, slice src sp = '@' :: v) ↔ t = .globalName (slice src sp))
      ∧ ((∃ v, slice src sp = '%' :: v) ↔ t = .localName (slice src sp))
      ∧ ((∃ v, slice src sp = '!' :: v) ↔ t = .debugRef (slice src sp)) := by
  intro t sp ht
  have hs := C03_token_spelling_lexical h t sp ht
  generalize slice src sp = w at hs
  have hclass := classify_cases w
  have hnot : ∀ c : Char, c = '@' ∨ c = '%' ∨ c = '!' → ¬ NameHead c ∧ ¬ Digit c ∧ ¬ Punctuation c := by
    rintro c (rfl | rfl | rfl)
    · exact ⟨not_head_of (by decide) (by decide), by decide, by decide⟩
    · exact ⟨not_head_of (by decide) (by decide), by decide, by decide⟩
    · exact ⟨not_head_of (by decide) (by decide), by decide, by decide⟩
  have hfirst : ∀ c v, w = c :: v → (NameHead c ∨ Digit c ∨ Punctuation c) →
      (¬ ∃ v, w = '@' :: v) ∧ (¬ ∃ v, w = '%' :: v) ∧ (¬ ∃ v, w = '!' :: v) := by
    rintro c v rfl hc
    have key : ∀ d, d = '@' ∨ d = '%' ∨ d = '!' → ¬ ∃ v', c :: v = d :: v' := by
      rintro d hd ⟨v', hv⟩
      simp only [List.cons.injEq] at hv
      have := hnot d hd
      rw [← hv.1] at this
      rcases hc with h | h | h
      · exact this.1 h
      · exact this.2.1 h
      · exact this.2.2 h
    exact ⟨key _ (.inl rfl), key _ (.inr (.inl rfl)), key _ (.inr (.inr rfl))⟩
  rw [spells_iff] at hs
  rcases hs with ⟨rfl, v, rfl, _⟩ | ⟨v, rfl, rfl, _⟩ | ⟨rfl, h⟩ | ⟨v, rfl, rfl, _⟩ | ⟨c', rfl, rfl, h⟩
      | ⟨rfl, c, cs, rfl, h, _⟩ | ⟨v, rfl, rfl, h⟩ | ⟨v, rfl, rfl, h⟩ | ⟨v, rfl, rfl, h⟩ | ⟨rfl, rfl | rfl⟩ | h
  · simp
  · simp
  · obtain ⟨c, cs, rfl, hd⟩ := numeral_head (by decide) h
    have := hfirst c cs rfl (.inr (.inl hd))
    simp only [this.1, this.2.1, this.2.2, false_iff]
    simp
  · simp
  · have := hfirst c' [] rfl (.inr (.inr h))
    simp only [this.1, this.2.1, this.2.2, false_iff]
    simp
  · have := hfirst c cs rfl (.inl h)
    have h1 := this.1
    have h2 := this.2.1
    have h3 := this.2.2
    simp only [h1, h2, h3, false_iff]
    rcases hclass with h | h | h | h | h <;> rw [h] <;> simp
  · simp
  · simp
  · simp
  · simp
  · simp
  · exact h.elim

end

/-! ### Examples: the hypotheses are met by non-trivial documents -/

section examples
attribute [local instance] asciiUnicode

/-- A document with a comment, a type, a name with inner colons, a number and a line end. -/
example : tokenize c!"# hi\ndefine int8 %a::b:, 12\n" = .ok (some
    [(.comment, ⟨0, 4⟩), (.newline, ⟨4, 5⟩), (.define, ⟨5, 11⟩), (.type c!"int8", ⟨12, 16⟩),
     (.localName c!"%a::b", ⟨17, 22⟩), (.punct ':', ⟨22, 23⟩), (.punct ',', ⟨23, 24⟩),
     (.num c!"12", ⟨25, 27⟩), (.newline, ⟨27, 28⟩)], []) := by
  decide +kernel

/-- `C02`–`C04`, `C06` apply to a document without any error. -/
example : ∃ res, parseFromStr c!"@g = int8 12 \"x\" # c\n" = .ok res ∧ res.errors = []
    ∧ res.tokens = [(.globalName c!"@g", ⟨0, 2⟩), (.punct '=', ⟨3, 4⟩), (.type c!"int8", ⟨5, 9⟩),
        (.num c!"12", ⟨10, 12⟩), (.str ['x'], ⟨13, 16⟩), (.comment, ⟨17, 20⟩), (.newline, ⟨20, 21⟩)] := by
  refine ⟨_, rfl, ?_, ?_⟩ <;> decide +kernel

/-- With a lexical error the token's range is longer than its spelling, so the hypothesis of `C03`
is needed. -/
example : ∃ errs, errs.length = 1 ∧ tokenize c!"? @g" = .ok (some [(.globalName c!"@g", ⟨0, 4⟩)], errs) := by
  refine ⟨_, ?_, rfl⟩
  decide +kernel

/-- `C05` applies: `define int8 # c` with a line end. -/
example : Printed [(.define, c!"define"), (.type c!"int8", c!"int8"), (.comment, c!"# c"),
    (.newline, ['\n'])] c!"define \tint8 # c\n" := by
  refine Printed.tok (b := [' ', '\t']) .define (by decide) (by simp [Blank]) (by simp)
    (Printed.tok (b := [' ']) (.type (by decide)) (by decide) (by simp [Blank]) (by simp)
      (Printed.comment (.comment (by decide)) ?_
        (Printed.tok (b := []) .lf (by decide) (by simp [Blank]) (by simp) .nil)))
  intro c cs h
  cases h
  rfl

end examples

end HyperIR
