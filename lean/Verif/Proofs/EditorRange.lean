import Verif.Props.Position
import Verif.Props.Parser

/-! Editor ranges of tokens. -/

namespace HyperIR
open Spec

theorem span_eol : ∀ text : Str, ∃ content tail, text = content ++ tail ∧ NoEol content ∧
    ∀ c cs, tail = c :: cs → c = '\n' ∨ c = '\r'
  | [] => ⟨[], [], rfl, by simp [NoEol], by simp⟩
  | c :: cs => by
    by_cases hc : c = '\n' ∨ c = '\r'
    · exact ⟨[], c :: cs, rfl, by simp [NoEol], by rintro c' cs' h; cases h; exact hc⟩
    · obtain ⟨content, tail, h1, h2, h3⟩ := span_eol cs
      refine ⟨c :: content, tail, by rw [h1]; rfl, ?_, h3⟩
      intro x hx
      rcases List.mem_cons.mp hx with rfl | hx
      · exact ⟨fun h => hc (.inl h), fun h => hc (.inr h)⟩
      · exact h2 x hx

/-- Every offset that is not between a carriage return and a line feed has a position. -/
theorem lspOffset_exists (n : Nat) : ∀ {text : Str} {off : Nat}, text.length ≤ n → off ≤ text.length → ¬ InCrLf text off →
    ∃ p, LspOffset text p off := by
  induction n with
  | zero =>
    intro text off hn hoff hc
    have : text = [] := List.length_eq_zero_iff.mp (by omega)
    subst this
    refine ⟨⟨0, off⟩, 0, [], LspLine.here (content := []) (tail := []) (by simp [NoEol]) (by simp), ?_, by simp⟩
    simpa using hoff
  | succ n ih =>
    intro text off hn hoff hc
    obtain ⟨content, tail, rfl, h2, h3⟩ := span_eol text
    by_cases hle : off ≤ content.length
    · exact ⟨⟨0, off⟩, 0, content, LspLine.here h2 h3, hle, by simp⟩
    · cases tail with
      | nil => simp at hoff; omega
      | cons c tail =>
        have step : ∀ eol rest, c :: tail = eol ++ rest → Eol eol → (eol = ['\r'] → rest.head? ≠ some '\n') →
            content.length + eol.length ≤ off → ∃ p, LspOffset (content ++ c :: tail) p off := by
          intro eol rest he hE hr hlen
          have hel : 1 ≤ eol.length := by rcases hE with rfl | rfl | rfl <;> simp
          rw [he] at hn hoff hc ⊢
          simp only [List.length_append] at hn hoff
          have hc' : ¬ InCrLf rest (off - content.length - eol.length) := by
            rintro ⟨a, b, rfl, h⟩
            refine hc ⟨content ++ eol ++ a, b, by simp, ?_⟩
            simp
            omega
          obtain ⟨p, start, cont, h4, h5, h6⟩ := ih (text := rest) (off := off - content.length - eol.length) (by omega) (by omega) hc'
          refine ⟨⟨p.line + 1, p.character⟩, content.length + eol.length + start, cont, ?_, h5, ?_⟩
          · rw [← List.append_assoc]
            exact LspLine.later h2 hE hr h4
          · simp only
            omega
        rcases h3 c tail rfl with rfl | rfl
        · exact step ['\n'] tail rfl (.inl rfl) (by intro h; cases h) (by simp; omega)
        · cases tail with
          | nil => exact step ['\r'] [] rfl (.inr (.inr rfl)) (by simp) (by simp; omega)
          | cons d tail =>
            by_cases hd : d = '\n'
            · subst hd
              refine step ['\r', '\n'] tail rfl (.inr (.inl rfl)) (by intro h; cases h) ?_
              have : off ≠ content.length + 1 := fun h => hc ⟨content, tail, rfl, h⟩
              simp
              omega
            · exact step ['\r'] (d :: tail) rfl (.inr (.inr rfl)) (by simpa using hd) (by simp; omega)

theorem rangeToLsp_editor {text : Str} (hsize : text.length < 2 ^ 32) {sp : Span} {r : Range} (hp : PlainTo text sp.start) (hp' : PlainTo text sp.stop)
    (h : EditorRange text sp r) : rangeToLsp text sp = some r := by
  unfold rangeToLsp
  rw [((C14_positions_partial hsize).2 _ _ h.1 hp).2, ((C14_positions_partial hsize).2 _ _ h.2 hp').2]

/-- A plain text with the same lines. -/
def flatten (text : Str) : Str := text.map fun c => if c = '\n' ∨ c = '\r' then c else 'x'

theorem flatten_plain (text : Str) : Plain (flatten text) := by
  intro c hc
  obtain ⟨d, _, rfl⟩ := List.mem_map.mp hc
  by_cases hd : d = '\n' ∨ d = '\r'
  · rw [if_pos hd]
    rcases hd with rfl | rfl <;> decide
  · rw [if_neg hd]
    decide

theorem flatten_line {text : Str} {n start : Nat} {content : Str} (h : LspLine text n start content) :
    LspLine (flatten text) n start (flatten content) := by
  have hno : ∀ {w : Str}, NoEol w → NoEol (flatten w) := by
    intro w hw c hc
    obtain ⟨d, hd, rfl⟩ := List.mem_map.mp hc
    rw [if_neg (by have := hw d hd; simp [this.1, this.2])]
    decide
  have hlen : ∀ w : Str, (flatten w).length = w.length := fun w => List.length_map _
  induction h with
  | @here content tail h1 h2 =>
    have : flatten (content ++ tail) = flatten content ++ flatten tail := List.map_append
    rw [this]
    refine .here (hno h1) ?_
    intro c cs he
    cases tail with
    | nil => cases he
    | cons d tail =>
      have hd := h2 d tail rfl
      have he' : flatten (d :: tail) = d :: flatten tail := by simp [flatten, hd]
      rw [he'] at he
      cases he
      exact hd
  | @later content eol rest n start c h1 h2 h3 _ ih =>
    have : flatten (content ++ eol ++ rest) = flatten content ++ eol ++ flatten rest := by
      have : flatten eol = eol := by rcases h2 with rfl | rfl | rfl <;> decide
      simp only [flatten, List.map_append] at this ⊢
      rw [this]
    rw [this, ← hlen content]
    refine .later (hno h1) h2 ?_ ih
    intro he hf
    refine h3 he ?_
    cases rest with
    | nil => cases hf
    | cons d rest =>
      simp only [flatten, List.map_cons, List.head?_cons, Option.some.injEq] at hf ⊢
      by_cases hd : d = '\n' ∨ d = '\r'
      · rwa [if_pos hd] at hf
      · rw [if_neg hd] at hf
        cases hf

theorem flatten_offset {text : Str} {p : Pos} {off : Nat} (h : LspOffset text p off) : LspOffset (flatten text) p off := by
  obtain ⟨start, content, h1, h2, h3⟩ := h
  refine ⟨start, _, flatten_line h1, ?_, h3⟩
  rw [flatten, List.length_map]
  exact h2

/-- A position denotes one offset, and an offset has at most one position. -/
theorem lspOffset_unique {text : Str} (hsize : text.length < 2 ^ 32) {p q : Pos} {a b : Nat} (h : LspOffset text p a) (h' : LspOffset text q b) :
    p = q ↔ a = b := by
  have hs : (flatten text).length < 2 ^ 32 := by rwa [flatten, List.length_map]
  have e1 := (C14_positions_partial hs).2 _ _ (flatten_offset h) ((flatten_plain text).to _)
  have e2 := (C14_positions_partial hs).2 _ _ (flatten_offset h') ((flatten_plain text).to _)
  constructor
  · rintro rfl
    exact Option.some.inj (e1.1.symm.trans e2.1)
  · rintro rfl
    exact Option.some.inj (e1.2.symm.trans e2.2)

theorem editorRange_inj {text : Str} (hsize : text.length < 2 ^ 32) {sp sp' : Span} {r : Range}
    (h : EditorRange text sp r) (h' : EditorRange text sp' r) : sp = sp' := by
  have e1 := (lspOffset_unique hsize h.1 h'.1).mp rfl
  have e2 := (lspOffset_unique hsize h.2 h'.2).mp rfl
  obtain ⟨a, b⟩ := sp
  obtain ⟨a', b'⟩ := sp'
  simp only at e1 e2
  rw [e1, e2]

theorem editorRange_unique {text : Str} (hsize : text.length < 2 ^ 32) {sp : Span} {r r' : Range}
    (h : EditorRange text sp r) (h' : EditorRange text sp r') : r = r' := by
  obtain ⟨a, b⟩ := r
  obtain ⟨a', b'⟩ := r'
  rw [Range.mk.injEq]
  exact ⟨(lspOffset_unique hsize h.1 h'.1).mpr rfl, (lspOffset_unique hsize h.2 h'.2).mpr rfl⟩

section
variable [Unicode]

theorem spells_last_ne_cr {t : Token} {w : Str} (h : Spells t w) (hc : t ≠ .comment) : w.getLast? ≠ some '\r' := by
  have tail : ∀ c w, NameTail w → c ≠ '\r' → (c :: w).getLast? ≠ some '\r' := by
    intro c w hw hc hl
    have := List.mem_of_getLast? hl
    rcases List.mem_cons.mp this with h | h
    · exact hc h.symm
    · rcases hw.1 _ h with h | h
      · revert h; exact not_nameChar_of (by decide) (by decide)
      · cases h
  have nm : ∀ w, Name w → w.getLast? ≠ some '\r' := by
    rintro w ⟨c, cs, rfl, h1, h2⟩
    refine tail c cs h2 ?_
    rintro rfl
    rcases h1 with h1 | h1
    · rw [Unicode.alphabetic_ascii _ (by decide)] at h1; revert h1; decide
    · cases h1
  cases h with
  | lf => decide
  | crlf => decide
  | comment h => exact absurd rfl hc
  | num h =>
    intro hl
    have := numeral_all h (by decide : Digit '0') _ (List.mem_of_getLast? hl)
    revert this; decide
  | hexNum h =>
    intro hl
    have := List.mem_of_getLast? hl
    simp only [List.mem_cons] at this
    rcases this with h' | h' | h'
    · cases h'
    · cases h'
    · have := numeral_all h (by left; decide) _ h'
      rcases this with h | h | h <;> revert h <;> decide
  | str h =>
    rw [List.getLast?_append]; simp
  | punct h =>
    intro hl
    simp at hl
    subst hl
    revert h; unfold Punctuation; decide
  | declare => decide
  | define => decide
  | @modifier w h =>
    have : ∀ w ∈ keywordModifiers, w.getLast? ≠ some '\r' := by decide
    exact this w h
  | @type w h =>
    have : ∀ w ∈ keywordTypes, w.getLast? ≠ some '\r' := by decide
    exact this w h
  | ident h => exact nm _ h
  | globalName h => exact tail _ _ h (by decide)
  | localName h => exact tail _ _ h (by decide)
  | debugRef h => exact tail _ _ h (by decide)

theorem spells_head_ne_lf {t : Token} {w : Str} (h : Spells t w) (hn : t ≠ .newline) : w.head? ≠ some '\n' := by
  cases h with
  | lf => exact absurd rfl hn
  | crlf => decide
  | comment h => simp
  | @num w h =>
    cases h with
    | zero => decide
    | pos h _ _ =>
      intro hl
      simp at hl
      subst hl
      revert h; decide
  | hexNum h => simp
  | str h => simp
  | punct h =>
    intro hl
    simp at hl
    subst hl
    revert h; unfold Punctuation; decide
  | declare => decide
  | define => decide
  | @modifier w h =>
    have : ∀ w ∈ keywordModifiers, w.head? ≠ some '\n' := by decide
    exact this w h
  | @type w h =>
    have : ∀ w ∈ keywordTypes, w.head? ≠ some '\n' := by decide
    exact this w h
  | ident h =>
    obtain ⟨c, cs, rfl, h1, h2⟩ := h
    intro hl
    simp at hl
    subst hl
    rcases h1 with h1 | h1
    · rw [Unicode.alphabetic_ascii _ (by decide)] at h1; revert h1; decide
    · cases h1
  | globalName h => simp
  | localName h => simp
  | debugRef h => simp

theorem spells_nonempty {t : Token} {w : Str} (h : Spells t w) : w ≠ [] := spells_ne_nil h

omit [Unicode] in
theorem not_inCrLf_stop {a w r : Str} (hw : w.getLast? ≠ some '\r') (hne : w ≠ []) : ¬ InCrLf (a ++ w ++ r) (a.length + w.length) := by
  rintro ⟨x, y, h, hl⟩
  have h1 : (a ++ w).getLast? = some '\r' := by
    have : a ++ w = x ++ ['\r'] := by
      have := congrArg (List.take (x.length + 1)) h
      rw [List.take_append_of_le_length (by simp; omega)] at this
      rw [List.take_of_length_le (by simp; omega)] at this
      rw [this, show x ++ '\r' :: '\n' :: y = (x ++ ['\r']) ++ '\n' :: y by simp]
      rw [List.take_append_of_le_length (by simp), List.take_of_length_le (by simp)]
    rw [this]; simp
  rw [List.getLast?_append] at h1
  cases hg : w.getLast? with
  | none => exact hne (List.getLast?_eq_none_iff.mp hg)
  | some c =>
    rw [hg] at h1 hw
    simp at h1
    exact hw (by rw [h1])

omit [Unicode] in
theorem not_inCrLf_start {a r : Str} (hr : r.head? ≠ some '\n') : ¬ InCrLf (a ++ r) a.length := by
  rintro ⟨x, y, h, hl⟩
  have : r = '\n' :: y := by
    have := congrArg (List.drop a.length) h
    rw [List.drop_left] at this
    rw [this, hl, show x ++ '\r' :: '\n' :: y = (x ++ ['\r']) ++ '\n' :: y by simp]
    rw [show x.length + 1 = (x ++ ['\r']).length by simp, List.drop_left]
  rw [this] at hr
  exact hr rfl

variable {src : Str} {res : ParserResult}

/-- The start of a token other than a line end, and the end of a token other than a comment, are not inside a CR LF. -/
theorem token_not_inCrLf (h : parseFromStr src = .ok res) {t : Token} {sp : Span} (ht : (t, sp) ∈ res.tokens) :
    (t ≠ .newline → ¬ InCrLf src sp.start) ∧ (t ≠ .comment → ¬ InCrLf src sp.stop) := by
  rcases parseFromStr_tokens h with ⟨h1, _⟩ | ⟨errs, h1⟩
  · rw [h1] at ht; cases ht
  · obtain ⟨a, g, w, r, h2, h3, h4, h5, _⟩ := lexesErr_mem (tokenize_sound h1) _ _ ht
    subst h5
    simp only [Nat.zero_add]
    rw [h2]
    constructor
    · intro hn
      rw [List.append_assoc, List.append_assoc]
      apply not_inCrLf_start
      cases g with
      | nil =>
        have := spells_head_ne_lf h3.1 hn
        cases w with
        | nil => exact absurd rfl (spells_nonempty h3.1)
        | cons c w => exact this
      | cons c g =>
        intro hc
        simp at hc
        subst hc
        exact h4 [] ('\n' :: g) rfl (by simp) .newline ['\n'] (g ++ (w ++ r)) .lf (by simp)
    · intro hn
      have := not_inCrLf_stop (a := a ++ g) (r := r) (spells_last_ne_cr h3.1 hn) (spells_nonempty h3.1)
      simpa using this

/-- Tokens other than line ends and comments have an editor range. -/
theorem token_editor (h : parseFromStr src = .ok res) {t : Token} {sp : Span} (ht : (t, sp) ∈ res.tokens)
    (hn : t ≠ .newline) (hc : t ≠ .comment) : ∃ r, EditorRange src sp r := by
  have hin := (C02_token_spans h).1 _ ht
  simp only [Inside] at hin
  obtain ⟨h1, h2⟩ := token_not_inCrLf h ht
  obtain ⟨p, hp⟩ := lspOffset_exists src.length (Nat.le_refl _) (by omega) (h1 hn)
  obtain ⟨q, hq⟩ := lspOffset_exists src.length (Nat.le_refl _) hin.2 (h2 hc)
  exact ⟨⟨p, q⟩, hp, hq⟩

end
end HyperIR
