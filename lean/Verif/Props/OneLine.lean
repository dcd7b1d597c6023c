import Verif.Props.Navigation
import Verif.Props.SemanticToken

/-! C63: highlighted places do not extend over line ends and do not overlap. -/

namespace HyperIR
open Spec

theorem lspLine_split {text : Str} {n start : Nat} {content : Str} (h : LspLine text n start content) :
    ∃ a b, text = a ++ content ++ b ∧ a.length = start ∧ ∀ c cs, b = c :: cs → c = '\n' ∨ c = '\r' := by
  induction h with
  | @here content tail _ h => exact ⟨[], tail, rfl, rfl, h⟩
  | @later content eol rest n start c _ _ _ _ ih =>
    obtain ⟨a, b, rfl, rfl, hb⟩ := ih
    exact ⟨content ++ eol ++ a, b, by simp, by simp; omega, hb⟩

/-- A place without line ends is on one line. -/
theorem onLine_of_noEol {text : Str} {p : Pos} {sp : Span} (hpos : LspOffset text p sp.start) (hin : Inside text.length sp)
    (hn : NoEol (slice text sp)) :
    ∃ start content, LspLine text p.line start content ∧ p.character + (sp.stop - sp.start) ≤ content.length ∧
      sp.start = start + p.character := by
  obtain ⟨start, content, hl, hc, e⟩ := hpos
  refine ⟨start, content, hl, ?_, e⟩
  obtain ⟨a, b, rfl, rfl, hb⟩ := lspLine_split hl
  apply Classical.byContradiction
  intro hlt
  obtain ⟨h1, h2⟩ := hin
  simp only [List.length_append] at h2
  cases b with
  | nil => simp at h2; omega
  | cons c cs =>
    have hc' := hb c cs rfl
    have : c ∈ slice (a ++ content ++ c :: cs) sp := by
      unfold slice
      rw [List.mem_iff_getElem?]
      refine ⟨content.length - p.character, ?_⟩
      rw [List.getElem?_take_of_lt (by omega), List.getElem?_drop, e]
      rw [List.getElem?_append_right (by simp; omega)]
      have : a.length + p.character + (content.length - p.character) - (a ++ content).length = 0 := by simp; omega
      rw [this]
      rfl
    have := hn c this
    rcases hc' with rfl | rfl
    · exact this.1 rfl
    · exact this.2 rfl

section
variable [Unicode] {st : ServerState} {uri text : Str} {res : ParserResult}

omit [Unicode] in
theorem numeral_no {digit : Char → Prop} {e : Char} (hd : ¬ digit e) (h0 : e ≠ '0') {w : Str} (h : Numeral digit w) : e ∉ w := by
  cases h with
  | zero => simp [h0]
  | pos h1 _ h2 =>
    intro hm
    rcases List.mem_cons.mp hm with h | h
    · exact hd (h ▸ h1)
    · exact hd (h2 _ h)

/-- A highlighted token contains no line end, unless it is a string or a comment. -/
theorem spells_noEol {t : Token} {w : Str} {ty : SemType} {e : Char} (he : e = '\n' ∨ e = '\r') (h : Spells t w) (hc : Class t ty)
    (hs : ∀ s, t = .str s → e ∉ s) (hk : t = .comment → e ∉ w) : e ∉ w := by
  have tail : ∀ v, NameTail v → e ∉ v := by
    intro v hv hm
    rcases hv.1 _ hm with h | h
    · rcases h with h | h
      · revert h
        unfold Unicode.alphanumeric
        rw [Unicode.alphabetic_ascii _ (by rcases he with rfl | rfl <;> decide), Unicode.numeric_ascii _ (by rcases he with rfl | rfl <;> decide)]
        rcases he with rfl | rfl <;> decide
      · revert h; rcases he with rfl | rfl <;> decide
    · revert h; rcases he with rfl | rfl <;> decide
  cases h with
  | lf => cases hc
  | crlf => cases hc
  | comment h => exact hk rfl
  | num h => exact numeral_no (by unfold Digit; rcases he with rfl | rfl <;> decide) (by rcases he with rfl | rfl <;> decide) h
  | hexNum h =>
    have := numeral_no (digit := HexDigit) (e := e) (by unfold HexDigit Digit; rcases he with rfl | rfl <;> decide) (by rcases he with rfl | rfl <;> decide) h
    rcases he with rfl | rfl <;> simp [this]
  | str h => rcases he with rfl | rfl <;> simp [hs _ rfl]
  | punct h => cases hc
  | declare => rcases he with rfl | rfl <;> decide
  | define => rcases he with rfl | rfl <;> decide
  | modifier h =>
    rcases he with rfl | rfl
    · exact (show ∀ v ∈ keywordModifiers, '\n' ∉ v by decide) _ h
    · exact (show ∀ v ∈ keywordModifiers, '\r' ∉ v by decide) _ h
  | type h =>
    rcases he with rfl | rfl
    · exact (show ∀ v ∈ keywordTypes, '\n' ∉ v by decide) _ h
    · exact (show ∀ v ∈ keywordTypes, '\r' ∉ v by decide) _ h
  | ident => cases hc
  | globalName h =>
    have := tail _ h
    rcases he with rfl | rfl <;> simp [this]
  | localName h =>
    have := tail _ h
    rcases he with rfl | rfl <;> simp [this]
  | debugRef h => cases hc

theorem token_noEol (h : parseFromStr text = .ok res) (hcr : ∀ a b, text = a ++ '\r' :: b → ∃ b', b = '\n' :: b') {t : Token} {sp : Span}
    (ht : (t, sp) ∈ res.tokens) {ty : SemType}
    (hc : Class t ty) (hs : ∀ s, t = .str s → NoEol s) (hk : t = .comment → '\r' ∉ slice text sp) : NoEol (slice text sp) := by
  obtain ⟨g, w, e, hw, hg⟩ := C03_token_spelling_with_errors h t sp ht
  have hin := (C02_token_spans h).1 _ ht
  have hsplit : text = text.take sp.start ++ (g ++ w) ++ text.drop sp.stop := by
    rw [← e]
    simp only [Inside] at hin
    have h1 : text.drop sp.stop = (text.drop sp.start).drop (sp.stop - sp.start) := by
      rw [List.drop_drop]
      congr 1
      omega
    rw [h1, List.append_assoc, slice, List.take_append_drop, List.take_append_drop]
  intro c hm
  refine ⟨?_, ?_⟩
  · rintro rfl
    rw [e] at hm
    rcases List.mem_append.mp hm with hm | hm
    · obtain ⟨g₁, g₂, rfl⟩ := List.append_of_mem hm
      exact hg g₁ ('\n' :: g₂) rfl (by simp) .newline ['\n'] (g₂ ++ (w ++ text.drop sp.stop)) .lf rfl
    · refine spells_noEol (.inl rfl) hw hc (fun s hs' hn => (hs s hs' _ hn).1 rfl) ?_ hm
      rintro rfl
      cases hw with
      | comment h => simp [h]
  · rintro rfl
    rw [e] at hm hk
    rcases List.mem_append.mp hm with hm | hm
    · obtain ⟨g₁, g₂, rfl⟩ := List.append_of_mem hm
      obtain ⟨b', hb⟩ := hcr (text.take sp.start ++ g₁) (g₂ ++ (w ++ text.drop sp.stop)) (by simpa using hsplit)
      exact hg g₁ ('\r' :: g₂) rfl (by simp) .newline ['\r', '\n'] b' .crlf (by simp [hb])
    · exact spells_noEol (.inr rfl) hw hc (fun s hs' hn => (hs s hs' _ hn).2 rfl) (fun ht hn => hk ht (by simp [hn])) hm

omit [Unicode] in
theorem lspOffset_mono (hsize : text.length < 2 ^ 32) {p q : Pos} {i j : Nat} (hi : LspOffset text p i)
    (hj : LspOffset text q j) (hle : i ≤ j) (hj' : j ≤ text.length) : PosLe p q := by
  have hlen : (flatten text).length = text.length := List.length_map _
  rw [← hlen] at hsize hj'
  have h1 := ((C14_positions_partial hsize).2 _ _ (flatten_offset hi) ((flatten_plain text).to _)).2
  have h2 := ((C14_positions_partial hsize).2 _ _ (flatten_offset hj) ((flatten_plain text).to _)).2
  have := length_le_utf8Len (flatten text)
  rw [offsetToLspPos_eq (by omega) hsize] at h1 h2
  simp only [Option.some.injEq] at h1 h2
  rw [← h1, ← h2]
  exact posOf_mono hle

omit [Unicode] in
/-- The highlighted places of tokens without line ends. -/
theorem highlights_lines {toks : List Tok} {hs : List Highlight} (hp : Plain text) (hsize : text.length < 2 ^ 32)
    (h : Highlights text toks hs) (hin : ∀ t ∈ toks, Inside text.length t.2) (hord : InOrder (toks.map Prod.snd))
    (hn : ∀ t ∈ toks, ∀ ty, Class t.1 ty → NoEol (slice text t.2)) :
    (∀ x ∈ hs, OnLine text x) ∧ hs.Pairwise EndsBefore ∧
      ∀ q j, LspOffset text q j → (∀ t ∈ toks, j ≤ t.2.start) → ∀ x ∈ hs, PosLe q x.start := by
  induction h with
  | nil => exact ⟨by simp, .nil, by simp⟩
  | skip hc _ ih =>
    obtain ⟨h1, h2, h3⟩ := ih (fun t ht => hin t (by simp [ht])) (List.pairwise_cons.mp hord).2 (fun t ht => hn t (by simp [ht]))
    exact ⟨h1, h2, fun q j hq hj => h3 q j hq fun t ht => hj t (by simp [ht])⟩
  | @take t sp toks hs ty p i hc hi hpos' _ ih =>
    have hpos := hpos' (hp.to _)
    obtain ⟨h1, h2, h3⟩ := ih (fun t ht => hin t (by simp [ht])) (List.pairwise_cons.mp hord).2 (fun t ht => hn t (by simp [ht]))
    obtain ⟨start, content, hl, hle, e⟩ := onLine_of_noEol hpos (hin (t, sp) (by simp)) (hn (t, sp) (by simp) ty hc)
    have hins := hin (t, sp) (by simp)
    simp only [Inside] at hins
    have hafter : ∀ x ∈ hs, EndsBefore ⟨p, sp.stop - sp.start, i⟩ x := by
      intro x hx
      have := h3 ⟨p.line, p.character + (sp.stop - sp.start)⟩ sp.stop ⟨start, content, hl, hle, by simp only; omega⟩
        (fun t' ht' => (List.pairwise_cons.mp hord).1 _ (List.mem_map_of_mem ht')) x hx
      exact this
    refine ⟨?_, List.pairwise_cons.mpr ⟨hafter, h2⟩, ?_⟩
    · intro x hx
      rcases List.mem_cons.mp hx with rfl | hx
      · exact ⟨start, content, hl, hle⟩
      · exact h1 x hx
    · intro q j hq hj x hx
      rcases List.mem_cons.mp hx with rfl | hx
      · exact lspOffset_mono hsize hq hpos (hj (t, sp) (by simp)) (by omega)
      · exact h3 q j hq (fun t' ht' => hj t' (by simp [ht'])) x hx

/-- C63: no highlighted place extends over a line end, and each one ends before the next one starts. What is missing:
strings with line ends in them (`C63_refuted_string`), comments in front of Windows line ends
(`C63_refuted_crlf`), carriage returns without line feed, and text that is not ASCII. -/
theorem C63_one_line_partial (hopen : Opened st uri text) (h : parseFromStr text = .ok res) (hp : Plain text) (hsize : text.length < 2 ^ 32)
    (hcr : ∀ a b, text = a ++ '\r' :: b → ∃ b', b = '\n' :: b') (hstr : ∀ s sp, (Token.str s, sp) ∈ res.tokens → NoEol s)
    (hcom : ∀ sp, (Token.comment, sp) ∈ res.tokens → '\r' ∉ slice text sp) (env : Env) :
    ∃ ls, semanticTokensFull env st uri = .ok (some ls) ∧ (∀ x ∈ decode ⟨0, 0⟩ ls, OnLine text x) ∧
      (decode ⟨0, 0⟩ ls).Pairwise EndsBefore := by
  obtain ⟨ls, h1, h2⟩ := C23_decode_partial hopen h hsize env
  obtain ⟨hin, hord⟩ := C02_token_spans h
  obtain ⟨h3, h4, _⟩ := highlights_lines hp hsize h2 hin hord fun t ht ty hc =>
    token_noEol h hcr ht hc (fun s hs => hstr s t.2 (by rw [← hs]; exact ht)) fun hk => hcom t.2 (by rw [← hk]; exact ht)
  exact ⟨ls, h1, h3, h4⟩

end

section Examples
attribute [local instance] asciiUnicode

/-- A document as in the theorem. -/
example : Opened (serverWith [] c!"u" semText) c!"u" semText := serverWith_opened (by decide +kernel)
example : Plain semText ∧ semText.length < 2 ^ 32 ∧ '\r' ∉ semText ∧ (match parseFromStr semText with
    | .ok res => res.tokens.all fun t => match t.1 with | .str s => !s.contains '\n' | _ => true
    | .panic => false) = true := by decide +kernel

/-- Carriage returns are in front of line feeds. -/
theorem crlf_of {text : Str} (h : (List.range text.length).all (fun i => decide (text[i]? = some '\r' → text[i + 1]? = some '\n')) = true) :
    ∀ a b, text = a ++ '\r' :: b → ∃ b', b = '\n' :: b' := by
  rintro a b rfl
  have := of_decide_eq_true (List.all_eq_true.mp h a.length (by simp)) (by simp)
  rw [List.getElem?_append_right (by omega), show a.length + 1 - a.length = 1 by omega] at this
  cases b with
  | nil => simp at this
  | cons c cs => exact ⟨cs, by simpa using this⟩

/-- A document with Windows line ends. -/
def crlfText : Str := c!"# x\n@a = \"b\"\r\ndefine void @f() {\r\n}\r\n"

example : ∃ ls, semanticTokensFull debugEnv (serverWith [] c!"u" crlfText) c!"u" = .ok (some ls) ∧ (∀ x ∈ decode ⟨0, 0⟩ ls, OnLine crlfText x) ∧
    (decode ⟨0, 0⟩ ls).Pairwise EndsBefore := by
  generalize h : parseFromStr crlfText = r
  have key : (match parseFromStr crlfText with
    | .ok res => res.tokens.all fun t => match t.1 with | .str s => decide (NoEol s) | .comment => decide ('\r' ∉ slice crlfText t.2) | _ => true
    | .panic => false) = true := by decide +kernel
  rw [h] at key
  cases r with
  | panic => cases key
  | ok res =>
    rw [List.all_eq_true] at key
    exact C63_one_line_partial (serverWith_opened (by decide +kernel)) h (by decide +kernel) (by decide +kernel) (crlf_of (by decide +kernel))
      (fun s sp hm => of_decide_eq_true (key _ hm)) (fun sp hm => of_decide_eq_true (key _ hm)) debugEnv

/-- C63 fails for a string with a line end: the place is longer than its line. -/
theorem C63_refuted_string : ∃ ls, semanticTokensFull debugEnv (serverWith [] c!"u" c!"@a = \"x\ny\"\n") c!"u" = .ok (some ls) ∧
    ⟨⟨0, 5⟩, 5, 3⟩ ∈ decode ⟨0, 0⟩ ls ∧ LspLine c!"@a = \"x\ny\"\n" 0 0 c!"@a = \"x" :=
  ⟨[⟨0, 0, 2, 2⟩, ⟨0, 5, 5, 3⟩], by decide +kernel, by decide,
    .here (content := c!"@a = \"x") (tail := c!"\ny\"\n") (by decide) (by intro c cs h; cases h; exact .inl rfl)⟩

/-- C63 fails for a comment in a document with Windows line ends: the carriage return is highlighted as well. -/
theorem C63_refuted_crlf : ∃ ls, semanticTokensFull debugEnv (serverWith [] c!"u" c!"#x\r\n") c!"u" = .ok (some ls) ∧
    ⟨⟨0, 0⟩, 3, 0⟩ ∈ decode ⟨0, 0⟩ ls ∧ LspLine c!"#x\r\n" 0 0 c!"#x" :=
  ⟨[⟨0, 0, 3, 0⟩], by decide +kernel, by decide,
    .here (content := c!"#x") (tail := c!"\r\n") (by decide) (by intro c cs h; cases h; exact .inr rfl)⟩

/-- C63 fails for a carriage return without line feed in front of a name: it is highlighted with the name. -/
theorem C63_refuted_cr : ∃ ls, semanticTokensFull debugEnv (serverWith [] c!"u" c!"\r@a = 1\n") c!"u" = .ok (some ls) ∧
    ⟨⟨0, 0⟩, 3, 2⟩ ∈ decode ⟨0, 0⟩ ls ∧ LspLine c!"\r@a = 1\n" 0 0 [] :=
  ⟨[⟨0, 0, 3, 2⟩, ⟨1, 5, 1, 4⟩], by decide +kernel, by decide,
    .here (content := []) (tail := c!"\r@a = 1\n") (by decide) (by intro c cs h; cases h; exact .inr rfl)⟩

/-- C63 fails behind a character outside of ASCII: the name in the second line is highlighted at the end of the first one. -/
theorem C63_refuted_nonascii : ∃ ls, semanticTokensFull debugEnv (serverWith [] c!"u" c!"# é\n@a = 1\n") c!"u" = .ok (some ls) ∧
    ⟨⟨0, 3⟩, 2, 2⟩ ∈ decode ⟨0, 0⟩ ls ∧ LspLine c!"# é\n@a = 1\n" 0 0 c!"# é" :=
  ⟨[⟨0, 0, 3, 0⟩, ⟨0, 3, 2, 2⟩, ⟨1, 4, 1, 4⟩], by decide +kernel, by decide,
    .here (content := c!"# é") (tail := c!"\n@a = 1\n") (by decide) (by intro c cs h; cases h; exact .inl rfl)⟩

end Examples
end HyperIR
