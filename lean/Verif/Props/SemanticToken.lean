import Verif.Spec.Highlight
import Verif.Spec.Hints
import Verif.Proofs.Navigation
import Verif.Props.Modules

/-! C23, C24: semantic tokens. -/

namespace HyperIR
open Spec

theorem semTypeOf_iff {t : Token} {ty : SemType} : semTypeOf t = some ty ↔ Class t ty := by
  constructor
  · intro h
    cases t <;> simp [semTypeOf] at h <;> subst h <;> constructor
  · intro h
    cases h <;> rfl

/-- Line and column of an offset. -/
def posOf (text : Str) (off : Nat) : Pos := { line := byteToLine off text, character := byteToChar off text - lineStart off text }

theorem posOf_mono {text : Str} {b b' : Nat} (hb : b ≤ b') : PosLe (posOf text b) (posOf text b') := by
  have h1 := byteToLine_mono text hb
  have h2 := byteToChar_mono text hb
  rcases Nat.lt_or_eq_of_le h1 with h1 | h1
  · exact .inl h1
  · refine .inr ⟨h1, ?_⟩
    have h3 := lineToChar_byteToLine b text
    have h4 := lineToChar_byteToLine b' text
    rw [h1, h4] at h3
    simp only [Option.some.injEq] at h3
    simp only [posOf, h3]
    omega

theorem semPos_eq (b : Build) {text : Str} (hsize : text.length < 2 ^ 32) {off : Nat} (h : off ≤ utf8Len text) :
    semPos b text off = .ok (some ((posOf text off).line, (posOf text off).character)) := by
  have h1 := byteToChar_le off text
  have h2 := byteToLine_le off text
  have h3 := lineStart_le off text
  unfold semPos byteToLine? byteToChar?
  have e : asU32 (byteToLine off text) = byteToLine off text := Nat.mod_eq_of_lt (by omega)
  have e1 : asU32 (byteToChar off text) = byteToChar off text := Nat.mod_eq_of_lt (by omega)
  have e2 : asU32 (lineStart off text) = lineStart off text := Nat.mod_eq_of_lt (by omega)
  simp only [h, if_true, e, lineToChar_byteToLine, e1, e2, u32Sub]
  rw [if_pos h3]
  rfl

/-- The highlighted place of a token, as it is computed. -/
def HighlightedRaw (text : Str) (t : Tok) (h : Highlight) : Prop :=
  ∃ ty, Class t.1 ty ∧ legendType[h.type]? = some ty ∧ h.length = t.2.stop - t.2.start ∧ h.start = posOf text t.2.start

theorem highlights_of_picks {text : Str} {toks : List Tok} {hs : List Highlight} (h : Picks (HighlightedRaw text) toks hs)
    (hp : ∀ t ∈ toks, ∀ ty, Class t.1 ty → PlainTo text t.2.start → LspOffset text (posOf text t.2.start) t.2.start) : Highlights text toks hs := by
  induction h with
  | nil => exact .nil
  | @take t h toks hs h1 _ ih =>
    obtain ⟨ty, h2, h3, h4, h5⟩ := h1
    obtain ⟨start, len, i⟩ := h
    simp only at h3 h4 h5
    subst h4 h5
    exact .take h2 h3 (hp t (by simp) ty h2) (ih fun t ht => hp t (by simp [ht]))
  | @skip t toks hs h1 _ ih =>
    refine .skip (fun ty hty => ?_) (ih fun t ht => hp t (by simp [ht]))
    obtain ⟨i, _, hi⟩ := createSemanticToken_total t.2 ty
    exact h1 ⟨posOf text t.2.start, t.2.stop - t.2.start, i⟩ ⟨ty, hty, hi, rfl, rfl⟩

/-- The conversion of any tokens of a text in source order, starting behind a previous offset. -/
theorem convert_spec (b : Build) {text : Str} (hsize : text.length < 2 ^ 32) : ∀ {toks : List Tok} {sem : List HIRSemanticToken} {prev : Pos},
    semanticTokensFromTokens toks = .ok sem → (∀ t ∈ toks, Inside text.length t.2) →
    (∀ t ∈ toks, PosLe prev (posOf text t.2.start)) → InOrder (toks.map Prod.snd) →
    ∃ ls, convertToLspTokens b text prev.line prev.character sem = .ok ls ∧
      (∀ l ∈ ls, l.tokenType < legendType.length) ∧
      Picks (HighlightedRaw text) toks (decode prev ls) ∧
      ∀ b', convertToLspTokens b' text prev.line prev.character sem = .ok ls
  | [], sem, prev, h, _, _, _ => by
    cases h
    exact ⟨[], rfl, by simp, .nil, fun _ => rfl⟩
  | (t, sp) :: toks, sem, prev, h, hin, hprev, hord => by
    rw [List.map_cons, InOrder, List.pairwise_cons] at hord
    have hrec : ∀ t ∈ toks, PosLe (posOf text sp.start) (posOf text t.2.start) := by
      intro t' ht'
      have h1 := hord.1 t'.2 (List.mem_map_of_mem ht')
      have h2 := hin (t, sp) (by simp)
      simp only [Inside] at h1 h2
      exact posOf_mono (by omega)
    unfold semanticTokensFromTokens at h
    cases hc : semTypeOf t with
    | none =>
      rw [hc] at h
      obtain ⟨ls, h1, h2, h3, h4⟩ := convert_spec b hsize (prev := prev) h (fun t ht => hin t (by simp [ht])) (fun t ht => hprev t (by simp [ht])) hord.2
      refine ⟨ls, h1, h2, ?_, h4⟩
      exact .skip (fun _ ⟨ty, hty, _⟩ => by rw [semTypeOf_iff.mpr hty] at hc; cases hc) h3
    | some ty =>
      rw [hc] at h
      obtain ⟨i, hi1, hi2⟩ := createSemanticToken_total sp ty
      simp only [hi1] at h
      cases hs : semanticTokensFromTokens toks with
      | panic => rw [hs] at h; cases h
      | ok sem' =>
        rw [hs] at h
        simp only [Outcome.ok.injEq] at h
        subst h
        obtain ⟨ls, h1, h2, h3, h4⟩ := convert_spec b hsize (prev := posOf text sp.start) hs (fun t ht => hin t (by simp [ht])) hrec hord.2
        have hins := hin (t, sp) (by simp)
        simp only [Inside] at hins
        have hbytes := length_le_utf8Len text
        have hpl := hprev (t, sp) (by simp)
        simp only at hpl
        have hli : i < legendType.length := (List.getElem?_eq_some_iff.mp hi2).1
        have hlen : legendType.length = 7 := rfl
        have hi : asU32 i = i := Nat.mod_eq_of_lt (by omega)
        have hl : asU32 sp.len = sp.stop - sp.start := Nat.mod_eq_of_lt (by simp only [Span.len]; omega)
        have hline : prev.line ≤ (posOf text sp.start).line := by rcases hpl with h | h <;> omega
        have hconv : ∀ b', convertToLspTokens b' text prev.line prev.character ({ start := sp.start, length := sp.len, tokenType := i } :: sem') =
            .ok ({ deltaLine := (posOf text sp.start).line - prev.line,
                   deltaStart := if (posOf text sp.start).line - prev.line = 0 then (posOf text sp.start).character - prev.character else (posOf text sp.start).character,
                   length := sp.stop - sp.start, tokenType := i } :: ls) := by
          intro b'
          unfold convertToLspTokens
          simp only [semPos_eq b' hsize (show sp.start ≤ utf8Len text by omega), h4 b', hi, hl]
          rw [show u32Sub b' (posOf text sp.start).line prev.line = .ok ((posOf text sp.start).line - prev.line) from if_pos hline]
          simp only
          by_cases h0 : (posOf text sp.start).line - prev.line = 0
          · rw [if_pos h0, if_pos h0]
            have : prev.character ≤ (posOf text sp.start).character := by rcases hpl with h | h <;> omega
            rw [show u32Sub b' (posOf text sp.start).character prev.character = .ok ((posOf text sp.start).character - prev.character) from if_pos this]
          · rw [if_neg h0, if_neg h0]
        refine ⟨_, hconv b, ?_, ?_, hconv⟩
        · intro l hl
          rcases List.mem_cons.mp hl with rfl | hl
          · exact hli
          · exact h2 l hl
        · unfold decode
          have hstart : (⟨prev.line + ((posOf text sp.start).line - prev.line),
              if (posOf text sp.start).line - prev.line = 0 then prev.character +
                (if (posOf text sp.start).line - prev.line = 0 then (posOf text sp.start).character - prev.character else (posOf text sp.start).character)
              else (if (posOf text sp.start).line - prev.line = 0 then (posOf text sp.start).character - prev.character else (posOf text sp.start).character)⟩ : Pos) =
              posOf text sp.start := by
            by_cases h0 : (posOf text sp.start).line - prev.line = 0
            · simp only [h0, if_true, Nat.add_zero]
              rcases hpl with h | h
              · omega
              · rw [h.1, Nat.add_sub_cancel' h.2]
            · simp only [h0, if_false]
              rw [Nat.add_sub_cancel' hline]
          simp only [hstart]
          exact .take ⟨ty, semTypeOf_iff.mp hc, hi2, rfl, rfl⟩ h3

section
variable [Unicode] {st : ServerState} {uri text : Str} {res : ParserResult}

/-- C24: for every open document the relative encoding is computed without underflow (the result is the same with and
without overflow checks), and every type is an index of the announced legend. -/
theorem C24_no_underflow (hopen : Opened st uri text) (hsize : text.length < 2 ^ 32) :
    ∃ ls, (∀ env, semanticTokensFull env st uri = .ok (some ls)) ∧ ∀ l ∈ ls, l.tokenType < legendType.length := by
  obtain ⟨doc, errs, ha, hst⟩ := hopen
  obtain ⟨res, h, h2, _, _, h5, _⟩ := analyze_inv ha
  obtain ⟨hin, hord⟩ := C02_token_spans h
  obtain ⟨ls, h1, h2', _, h4⟩ := convert_spec { overflowChecks := true } hsize (prev := ⟨0, 0⟩) h5 hin
    (fun t ht => by
      unfold PosLe
      simp only
      omega) hord
  refine ⟨ls, ?_, h2'⟩
  intro env
  unfold semanticTokensFull
  simp only [hst, h2, h4 env.build]

/-- C23: decoding the answer gives exactly the highlighted tokens of the document, in order, with their lengths and types, and their positions
as far as the text is plain. What is missing: the positions behind text that is not ASCII (`C23_refuted_nonascii`). -/
theorem C23_decode_partial (hopen : Opened st uri text) (h : parseFromStr text = .ok res) (hsize : text.length < 2 ^ 32) (env : Env) :
    ∃ ls, semanticTokensFull env st uri = .ok (some ls) ∧ Highlights text res.tokens (decode ⟨0, 0⟩ ls) := by
  obtain ⟨doc, errs, ha, hst⟩ := hopen
  obtain ⟨res', h', h2, _, _, h5, _⟩ := analyze_inv ha
  rw [h] at h'
  cases h'
  obtain ⟨hin, hord⟩ := C02_token_spans h
  obtain ⟨ls, h1, h2', h3, h4⟩ := convert_spec env.build hsize (prev := ⟨0, 0⟩) h5 hin
    (fun t ht => by
      unfold PosLe
      simp only
      omega) hord
  refine ⟨ls, ?_, highlights_of_picks h3 ?_⟩
  · unfold semanticTokensFull
    simp only [hst, h2, h4 env.build]
  · intro t ht ty hty hp
    have hi := hin t ht
    simp only [Inside] at hi
    have hn : t.1 ≠ .newline := by
      intro hn
      rw [hn] at hty
      cases hty
    obtain ⟨p, hpos⟩ := lspOffset_exists text.length (Nat.le_refl _) (show t.2.start ≤ text.length by omega)
      ((token_not_inCrLf h (t := t.1) (sp := t.2) ht).1 hn)
    have e := ((C14_positions_partial hsize).2 p _ hpos hp).2
    have := length_le_utf8Len text
    rw [offsetToLspPos_eq (by omega) hsize] at e
    simp only [Option.some.injEq] at e
    unfold posOf
    rw [e]
    exact hpos

omit [Unicode] in
/-- The highlighted places are determined by the document, if it is plain. -/
theorem highlights_unique {toks : List Tok} {hs hs' : List Highlight} (hp : Plain text) (hsize : text.length < 2 ^ 32)
    (h : Highlights text toks hs) (h' : Highlights text toks hs') : hs = hs' := by
  induction h generalizing hs' with
  | nil => cases h'; rfl
  | skip hc _ ih =>
    cases h' with
    | skip _ h' => exact ih h'
    | take hc' => exact absurd hc' (hc _)
  | take hc hl hpos _ ih =>
    cases h' with
    | skip hc' => exact absurd hc (hc' _)
    | take hc' hl' hpos' h' =>
      have h1 := (lspOffset_unique hsize (hpos (hp.to _)) (hpos' (hp.to _))).mpr rfl
      subst h1
      have := semTypeOf_iff.mpr hc
      rw [semTypeOf_iff.mpr hc'] at this
      cases this
      have hinj : ∀ i j : Nat, ∀ ty, legendType[i]? = some ty → legendType[j]? = some ty → i = j := by
        intro i j ty hi hj
        have hi' := (List.getElem?_eq_some_iff.mp hi).1
        have hj' := (List.getElem?_eq_some_iff.mp hj).1
        have key : ∀ i < 7, ∀ j < 7, legendType[i]? = legendType[j]? → i = j := by decide
        exact key i hi' j hj' (hi.trans hj.symm)
      rw [hinj _ _ _ hl hl', ih h']

end

section Examples
attribute [local instance] asciiUnicode

def semText : Str := c!"define int32 @f(%a) {\nx: ret 0x1F # c\n}\n"

example : semanticTokensFull ⟨⟨true⟩, ⟨fun l => l, fun l => List.Perm.refl l⟩, fun _ => true, fun _ => none⟩
    (match analyze semText with | .ok (doc, _) => { docs := [(c!"u", doc)] } | .panic => {}) c!"u" =
    .ok (some [⟨0, 0, 6, 5⟩, ⟨0, 7, 5, 1⟩, ⟨0, 6, 2, 2⟩, ⟨0, 3, 2, 2⟩, ⟨1, 7, 4, 4⟩, ⟨0, 5, 3, 0⟩]) := by
  decide +kernel

/-- C23 fails for text that is not ASCII: `@b` in line 1 is reported at the end of line 0. -/
theorem C23_refuted_nonascii :
    semanticTokensFull ⟨⟨true⟩, ⟨fun l => l, fun l => List.Perm.refl l⟩, fun _ => true, fun _ => none⟩
      (match analyze c!"# é\n@b = 1\n" with | .ok (doc, _) => { docs := [(c!"u", doc)] } | .panic => {}) c!"u" =
      .ok (some [⟨0, 0, 3, 0⟩, ⟨0, 3, 2, 2⟩, ⟨1, 4, 1, 4⟩]) := by
  decide +kernel

end Examples

end HyperIR
