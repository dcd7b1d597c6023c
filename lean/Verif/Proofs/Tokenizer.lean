import Verif.Model.Parser
import Verif.Proofs.LexToken

/- The tokenizer computes exactly the relation `LexesErr` of the specification. -/

namespace HyperIR
open Spec

/-! ### The character stream -/

theorem charStream_append (o : Nat) (a b : Str) :
    charStream o (a ++ b) = charStream o a ++ charStream (o + a.length) b := by
  induction a generalizing o with
  | nil => simp [charStream]
  | cons c a ih =>
    simp only [List.cons_append, charStream, List.length_cons, ih]
    rw [show o + 1 + a.length = o + (a.length + 1) by omega]

@[simp] theorem chars_charStream (o : Nat) (a : Str) : chars (charStream o a) = a := by
  induction a generalizing o with
  | nil => rfl
  | cons c a ih => simp [charStream, ih]

@[simp] theorem length_charStream (o : Nat) (a : Str) : (charStream o a).length = a.length := by
  rw [← List.length_map (f := Prod.fst)]
  exact congrArg List.length (chars_charStream o a)

/-- Splitting a stream splits the text. -/
theorem charStream_split {o : Nat} {text : Str} {pre r : Toks Char}
    (h : charStream o text = pre ++ r) :
    text = chars pre ++ chars r ∧ pre = charStream o (chars pre)
      ∧ r = charStream (o + (chars pre).length) (chars r) := by
  have ht : text = chars pre ++ chars r := by
    have := congrArg chars h
    simpa [chars] using this
  refine ⟨ht, ?_⟩
  rw [ht, charStream_append] at h
  exact (List.append_inj h (by simp)).imp Eq.symm Eq.symm

theorem charStream_getElem? (o : Nat) (a : Str) (i : Nat) :
    (charStream o a)[i]? = a[i]?.map fun c => (c, { start := o + i, stop := o + i + 1 }) := by
  induction a generalizing o i with
  | nil => simp [charStream]
  | cons c a ih =>
    cases i with
    | zero => simp [charStream]
    | succ i =>
      simp only [charStream, List.getElem?_cons_succ, ih]
      rw [show o + 1 + i = o + (i + 1) by omega]

theorem spanSince_charStream {eoi : Span} {o : Nat} {w r : Str} (hw : w ≠ []) :
    spanSince eoi (charStream o (w ++ r)) (charStream (o + w.length) r)
      = { start := o, stop := o + w.length } := by
  unfold spanSince
  cases w with
  | nil => exact absurd rfl hw
  | cons c w =>
    have h1 : (headSpan eoi (charStream o (c :: w ++ r))).start = o := rfl
    have h2 : (charStream o (c :: w ++ r)).length - (charStream (o + (c :: w).length) r).length - 1
        = w.length := by
      simp only [length_charStream, List.length_append, List.length_cons]; omega
    rw [h1, h2, charStream_getElem?]
    have h3 : (c :: w ++ r)[w.length]? = some ((c :: w)[w.length]'(by simp)) := by
      rw [List.getElem?_append_left (by simp)]
      exact List.getElem?_eq_getElem _
    rw [h3]
    simp only [Option.map_some, List.length_cons]
    rw [show o + w.length + 1 = o + (w.length + 1) by omega]

section
variable [Unicode]

/-! ### No secondary errors within a token -/

omit [Unicode] in
theorem repeated_clean {τ α : Type} [DecidableEq τ] {p : P τ α} (hn : NoPanic p) (hp : Progress p)
    (hc : Clean p) : Clean (repeated p) := by
  constructor
  · intro eoi s es x r h
    exact ((repeated_ok hn hp).mp h).clean hc
  · intro eoi s es e h
    exact absurd ⟨_, _, h⟩ (repeated_fails hn hp)

omit [Unicode] in
theorem repeated_satisfy_clean {τ : Type} [DecidableEq τ] {f : τ → Bool} {ex} :
    Clean (repeated (satisfy f ex)) :=
  repeated_clean satisfy_noPanic satisfy_progress satisfy_clean

omit [Unicode] in
theorem line_clean : Clean (fun eoi s =>
    takeUntil (rewind (por (just '\n') (pmap (fun _ => '\n') pend))) eoi [] none s) := by
  constructor
  · intro eoi s es x r h
    exact (recog_line.ok h).1
  · intro eoi s es e h
    obtain ⟨pre, r, alt', _, _, _, h'⟩ := takeUntil_eol eoi s [] none
    simp only [h'] at h
    cases h

theorem identItem_progress : Progress (pthen (repeated (just ':')) (pfilter isIdentChar)) := by
  intro eoi s es x r h
  obtain ⟨_, pre, rfl, ⟨h, _⟩, _⟩ := recog_identItem.ok h
  have := congrArg List.length h
  simp at this
  simp
  omega

theorem identTail_clean : Clean identTail :=
  pmap_clean (repeated_clean recog_identItem.noPanic identItem_progress
    (pthen_clean repeated_satisfy_clean satisfy_clean))

omit [Unicode] in
theorem textInt_clean {isD} : Clean (textInt isD) :=
  por_clean (pmap_clean (pthen_clean satisfy_clean repeated_satisfy_clean)) (pmap_clean satisfy_clean)

theorem tokenChoice_clean : Clean tokenChoice := by
  refine choice_clean ?_
  have h7 (c mk) : Clean (tSigil c mk) := pmap_clean (pthen_clean satisfy_clean identTail_clean)
  simp only [List.mem_cons, List.not_mem_nil, or_false]
  rintro q (rfl | rfl | rfl | rfl | rfl | rfl | rfl | rfl | rfl | rfl)
  · exact pmap_clean (pthen_clean satisfy_clean line_clean)
  · exact pmap_clean (ignoreThen_clean (pthen_clean satisfy_clean satisfy_clean) textInt_clean)
  · exact pmap_clean textInt_clean
  · exact pmap_clean (thenIgnore_clean (ignoreThen_clean satisfy_clean repeated_satisfy_clean) satisfy_clean)
  · exact pmap_clean satisfy_clean
  · exact pmap_clean (pthen_clean satisfy_clean identTail_clean)
  · exact h7 _ _
  · exact h7 _ _
  · exact h7 _ _
  · exact pmap_clean (por_clean satisfy_clean (thenIgnore_clean satisfy_clean satisfy_clean))

/-! ### One token with recovery -/

theorem tokenChoice_cases (eoi : Span) (s : Toks Char) :
    (∃ t pre r, s = pre ++ r ∧ Ok tokenChoice eoi s [] t r ∧ Longest t (chars pre) (chars r))
    ∨ (∃ e, tokenChoice eoi s = .err [] e ∧ NoToken (chars s)) := by
  rcases recog_tokenChoice eoi s with ⟨a, pre, r, rfl, h2, h3, h4⟩ | ⟨⟨es, e, h1⟩, h2⟩
  · left
    refine ⟨a, pre, r, rfl, h2, h3, ?_⟩
    intro t' w' rest' h5 h6
    have := h4 t' w' rest' h5 (by simpa [chars] using h6)
    simpa [chars] using this
  · right
    obtain rfl := tokenChoice_clean.2 h1
    exact ⟨e, h1, fun t w rest h => h2 t w rest h⟩

omit [Unicode] in
theorem garbage_nil [Unicode] (rest : Str) : Garbage [] rest := by
  intro g₁ g₂ h1 h2
  exact absurd (List.append_eq_nil_iff.mp h1.symm).2 h2

theorem garbage_cons {c : Char} {g rest : Str} (h1 : NoToken (c :: g ++ rest)) (h2 : Garbage g rest) :
    Garbage (c :: g) rest := by
  intro g₁ g₂ h3 h4
  cases g₁ with
  | nil =>
    simp only [List.nil_append] at h3
    rw [← h3]; exact h1
  | cons x g₁ =>
    simp only [List.cons_append, List.cons.injEq] at h3
    exact h2 g₁ g₂ h3.2 h4

theorem skipThenRetry_cases (eoi : Span) (e : LErr Char) : ∀ (s : Toks Char), NoToken (chars s) →
    (∃ g t pre r, s = g ++ pre ++ r ∧ g ≠ [] ∧ Garbage (chars g) (chars (pre ++ r))
      ∧ Longest t (chars pre) (chars r)
      ∧ ∃ alt, skipThenRetry tokenChoice eoi [] e s = .ok [e] t alt r)
    ∨ (Garbage (chars s) [] ∧ skipThenRetry tokenChoice eoi [] e s = .err [] e)
  | [], _ => by
    right
    exact ⟨garbage_nil _, rfl⟩
  | (c, sp) :: s, hs => by
    rcases tokenChoice_cases eoi s with ⟨t, pre, r, rfl, ⟨alt, h2⟩, h3⟩ | ⟨e', h1, h2⟩
    · left
      refine ⟨[(c, sp)], t, pre, r, rfl, by simp, ?_, h3, alt, ?_⟩
      · refine garbage_cons ?_ (garbage_nil _)
        simpa [chars] using hs
      · rw [skipThenRetry, h2]; rfl
    · rcases skipThenRetry_cases eoi e s h2 with ⟨g, t, pre, r, rfl, k1, k2, k3, alt, k4⟩ | ⟨k1, k2⟩
      · left
        refine ⟨(c, sp) :: g, t, pre, r, rfl, by simp, ?_, k3, alt, ?_⟩
        · refine garbage_cons ?_ k2
          simpa [chars] using hs
        · rw [skipThenRetry, h1]; exact k4
      · right
        refine ⟨garbage_cons (by simpa [chars] using hs) k1, ?_⟩
        rw [skipThenRetry, h1]; exact k2

theorem recoverSkip_cases (eoi : Span) (s : Toks Char) :
    (∃ t pre r, s = pre ++ r ∧ Longest t (chars pre) (chars r)
      ∧ Ok (recoverSkip tokenChoice) eoi s [] t r)
    ∨ (∃ g t pre r e, s = g ++ pre ++ r ∧ g ≠ [] ∧ Garbage (chars g) (chars (pre ++ r))
      ∧ Longest t (chars pre) (chars r) ∧ Ok (recoverSkip tokenChoice) eoi s [e] t r)
    ∨ (Garbage (chars s) [] ∧ ∃ e, recoverSkip tokenChoice eoi s = .err [] e) := by
  rcases tokenChoice_cases eoi s with ⟨t, pre, r, rfl, ⟨alt, h2⟩, h3⟩ | ⟨e', h1, h2⟩
  · left
    exact ⟨t, pre, r, rfl, h3, alt, by rw [recoverSkip, h2]⟩
  · right
    rcases skipThenRetry_cases eoi e' s h2 with ⟨g, t, pre, r, rfl, k1, k2, k3, alt, k4⟩ | ⟨k1, k2⟩
    · left
      exact ⟨g, t, pre, r, e', rfl, k1, k2, k3, alt, by rw [recoverSkip, h1]; exact k4⟩
    · right
      exact ⟨k1, e', by rw [recoverSkip, h1]; exact k2⟩

/-! ### Blanks -/

omit [Unicode] in
theorem blank_iff {w : Str} : Blank w ↔ ∀ c ∈ w, decide (c ∈ [' ', '\t']) = true := by
  simp [Blank]

/-- The text does not start with a blank. -/
def NoBlank (w : Str) : Prop := ∀ c cs, w = c :: cs → c ≠ ' ' ∧ c ≠ '\t'

omit [Unicode] in
theorem blanks_cases (eoi : Span) (s : Toks Char) :
    ∃ pre r, s = pre ++ r ∧ Blank (chars pre) ∧ NoBlank (chars r) ∧ Ok blanks eoi s [] (chars pre) r := by
  obtain ⟨pre, r, rfl, h⟩ := many_satisfy_exists (fun x => decide (x ∈ [' ', '\t'])) _ eoi s
  obtain ⟨_, pre', h1, h2, h3, h4⟩ := many_satisfy h
  refine ⟨pre, r, rfl, ?_, ?_, (repeated_ok satisfy_noPanic satisfy_progress).mpr h⟩
  · exact blank_iff.mpr h3
  · intro c cs h5
    cases r with
    | nil => cases h5
    | cons t r =>
      simp only [chars, List.map_cons, List.cons.injEq] at h5
      have := h4 t.1 t.2 r rfl
      rw [h5.1] at this
      simpa using this

omit [Unicode] in
theorem blanks_ok {eoi : Span} {s es x r} (h : Ok blanks eoi s es x r) :
    es = [] ∧ ∃ pre, s = pre ++ r ∧ Blank (chars pre) ∧ NoBlank (chars r) := by
  obtain ⟨pre, r', h1, h2, h3, h4⟩ := blanks_cases eoi s
  obtain ⟨rfl, rfl, rfl⟩ := h.det h4
  exact ⟨rfl, pre, h1, h2, h3⟩

omit [Unicode] in
theorem blanks_noPanic : NoPanic blanks := repeated_noPanic satisfy_noPanic satisfy_progress

omit [Unicode] in
theorem blanks_not_fails {eoi : Span} {s} : ¬ Fails blanks eoi s :=
  repeated_fails satisfy_noPanic satisfy_progress

theorem spells_noBlank {t : Token} {w rest : Str} (h : Spells t w) : NoBlank (w ++ rest) := by
  have hd : ∀ c : Char, (c = '#' ∨ Digit c ∨ c = '"' ∨ Punctuation c ∨ NameHead c ∨ c = '@' ∨ c = '%'
      ∨ c = '!' ∨ c = '\n' ∨ c = '\r') → c ≠ ' ' ∧ c ≠ '\t' := by
    intro c hc
    constructor
    · rintro rfl
      rcases hc with h | h | h | h | h | h | h | h | h | h
      · revert h; decide
      · revert h; decide
      · revert h; decide
      · revert h; decide
      · revert h; exact not_head_of (by decide) (by decide)
      all_goals (revert h; decide)
    · rintro rfl
      rcases hc with h | h | h | h | h | h | h | h | h | h
      · revert h; decide
      · revert h; decide
      · revert h; decide
      · revert h; decide
      · revert h; exact not_head_of (by decide) (by decide)
      all_goals (revert h; decide)
  intro c cs h'
  apply hd
  rw [spells_iff] at h
  rcases h with ⟨_, v, rfl, _⟩ | ⟨v, _, rfl, _⟩ | ⟨_, h⟩ | ⟨v, _, rfl, _⟩ | ⟨c', _, rfl, h⟩
      | ⟨_, c', cs', rfl, h, _⟩ | ⟨v, _, rfl, _⟩ | ⟨v, _, rfl, _⟩ | ⟨v, _, rfl, _⟩ | ⟨_, rfl | rfl⟩ | h
  · simp only [List.cons_append, List.cons.injEq] at h'; simp [← h'.1]
  · simp only [List.cons_append, List.cons.injEq] at h'; rw [← h'.1]; exact .inr (.inl (by decide))
  · obtain ⟨c', cs', rfl, hc⟩ := numeral_head (by decide) h
    simp only [List.cons_append, List.cons.injEq] at h'; rw [← h'.1]; exact .inr (.inl hc)
  · simp only [List.cons_append, List.cons.injEq] at h'; simp [← h'.1]
  · simp only [List.cons_append, List.cons.injEq] at h'; rw [← h'.1]; exact .inr (.inr (.inr (.inl h)))
  · simp only [List.cons_append, List.cons.injEq] at h'
    rw [← h'.1]; exact .inr (.inr (.inr (.inr (.inl h))))
  · simp only [List.cons_append, List.cons.injEq] at h'; simp [← h'.1]
  · simp only [List.cons_append, List.cons.injEq] at h'; simp [← h'.1]
  · simp only [List.cons_append, List.cons.injEq] at h'; simp [← h'.1]
  · simp only [List.cons_append, List.cons.injEq] at h'; simp [← h'.1]
  · simp only [List.cons_append, List.cons.injEq] at h'; simp [← h'.1]
  · exact h.elim

theorem spells_not_blank {t : Token} {w : Str} (h : Spells t w) : ¬ Blank w := by
  intro hb
  have hne := spells_ne_nil h
  cases w with
  | nil => exact hne rfl
  | cons c cs =>
    have h1 := spells_noBlank (rest := []) h c cs (by simp)
    rcases hb c (by simp) with h2 | h2
    · exact h1.1 h2
    · exact h1.2 h2

omit [Unicode] in
/-- Splitting off the blanks is unique. -/
theorem blank_split {b b' x x' : Str} (hb : Blank b) (hb' : Blank b') (hx : NoBlank x)
    (h : b ++ x = b' ++ x') : ∃ b'', b = b' ++ b'' ∧ x' = b'' ++ x := by
  rw [List.append_eq_append_iff] at h
  rcases h with ⟨a, rfl, h⟩ | ⟨a, rfl, h⟩
  · cases a with
    | nil => exact ⟨[], by simp, by simpa using h.symm⟩
    | cons c a =>
      have h1 := hx c (a ++ x') (by simpa using h)
      rcases hb' c (by simp) with h2 | h2
      · exact absurd h2 h1.1
      · exact absurd h2 h1.2
  · exact ⟨a, rfl, h⟩

omit [Unicode] in
theorem noBlank_blank {x : Str} (hb : Blank x) (hx : NoBlank x) : x = [] := by
  cases x with
  | nil => rfl
  | cons c cs =>
    have h1 := hx c cs rfl
    rcases hb c (by simp) with h2 | h2
    · exact absurd h2 h1.1
    · exact absurd h2 h1.2

/-! ### Padded tokens -/

theorem recoverSkip_noPanic : NoPanic (recoverSkip tokenChoice) := by
  intro eoi s h
  rcases recoverSkip_cases eoi s with ⟨_, _, _, _, _, _, h'⟩ | ⟨_, _, _, _, _, _, _, _, _, _, h'⟩ | ⟨_, _, h'⟩
    <;> rw [h] at h' <;> cases h'

theorem paddedToken_noPanic : NoPanic paddedToken :=
  paddedBy_noPanic blanks_noPanic (pmapSpan_noPanic recoverSkip_noPanic)

theorem recoverSkip_progress : Progress (recoverSkip tokenChoice) := by
  intro eoi s es x r h
  rcases recoverSkip_cases eoi s with ⟨t, pre, r', rfl, h1, h2⟩ | ⟨g, t, pre, r', e, rfl, h1, h2, h3, h4⟩ | ⟨_, e, h'⟩
  · obtain ⟨rfl, rfl, rfl⟩ := h.det h2
    have := spells_ne_nil h1.1
    cases pre with
    | nil => exact absurd rfl this
    | cons => simp; omega
  · obtain ⟨rfl, rfl, rfl⟩ := h.det h4
    cases g with
    | nil => exact absurd rfl h1
    | cons => simp; omega
  · obtain ⟨alt, h⟩ := h
    rw [h] at h'
    cases h'

theorem paddedToken_progress : Progress paddedToken := by
  intro eoi s es x r h
  obtain ⟨e1, e2, e3, m, m', y, z, h1, h2, h3, rfl⟩ := paddedBy_ok.mp h
  obtain ⟨t, h2, _⟩ := pmapSpan_ok.mp h2
  obtain ⟨_, pre, rfl, _⟩ := blanks_ok h1
  obtain ⟨_, pre', rfl, _⟩ := blanks_ok h3
  have := recoverSkip_progress h2
  simp only [List.length_append] at *
  omega

/-- More blanks in front. -/
theorem lexesErr_blank {o : Nat} {b text : Str} {ts n} (hb : Blank b)
    (h : LexesErr (o + b.length) text ts n) : LexesErr o (b ++ text) ts n := by
  have hbb {b'} (hb' : Blank b') : Blank (b ++ b') := by
    intro c hc
    rcases List.mem_append.mp hc with hc | hc
    · exact hb c hc
    · exact hb' c hc
  cases h with
  | done h => exact .done (hbb h)
  | @tok _ b' t w rest ts n h1 h2 h3 =>
    have hl : o + b.length + b'.length = o + (b ++ b').length := by simp; omega
    have := LexesErr.tok (o := o) (hbb h1) h2 (hl ▸ h3)
    rw [hl]
    simpa only [List.append_assoc] using this
  | @skip _ b' g t w rest ts n h1 h2 h3 h4 h5 h6 =>
    have hl : o + b.length + b'.length = o + (b ++ b').length := by simp; omega
    have := LexesErr.skip (o := o) (hbb h1) h2 h3 h4 h5 (hl ▸ h6)
    rw [hl]
    simpa only [List.append_assoc] using this

/-- Soundness of the loop. -/
theorem many_paddedToken {eoi : Span} {s es ts r} (h : Many paddedToken eoi s es ts r) :
    r = [] → ∀ {o text}, s = charStream o text → LexesErr o text ts es.length := by
  induction h with
  | nil h =>
    intro hr o text hs
    subst hr
    cases text with
    | nil => exact .done (by simp [Blank])
    | cons => cases hs
  | @cons s es x m es' xs r h1 h2 ih =>
    intro hr o text hs
    obtain ⟨e1, e2, e3, m1, m2, y, z, k1, k2, k3, rfl⟩ := paddedBy_ok.mp h1
    obtain ⟨rfl, pb, rfl, hb1, hb2⟩ := blanks_ok k1
    obtain ⟨rfl, pb', rfl, hb3, hb4⟩ := blanks_ok k3
    obtain ⟨t, k4, rfl⟩ := pmapSpan_ok.mp k2
    clear k2
    obtain ⟨rfl, hpb, hm1⟩ := charStream_split hs.symm
    rcases recoverSkip_cases eoi m1 with ⟨t', pre, r', rfl, c1, c2⟩ | ⟨g, t', pre, r', e, rfl, c1, c2, c3, c4⟩ | ⟨_, e, h'⟩
    · obtain ⟨rfl, rfl, rfl⟩ := k4.det c2
      obtain ⟨h5, hpre, hm2⟩ := charStream_split hm1.symm
      obtain ⟨h6, hpb', hm⟩ := charStream_split hm2.symm
      have hl := ih hr hm
      have hl' := lexesErr_blank hb3 hl
      rw [← h6] at hl'
      have := LexesErr.tok (o := o) hb1 c1 hl'
      rw [h5]
      simp only [List.nil_append, List.append_nil] at this ⊢
      rw [hm1, h5, hm2, chars_charStream, spanSince_charStream (spells_ne_nil c1.1)]
      simpa only [List.append_assoc] using this
    · obtain ⟨rfl, rfl, rfl⟩ := k4.det c4
      rw [List.append_assoc] at hm1
      obtain ⟨h5, hg, hm2⟩ := charStream_split hm1.symm
      obtain ⟨h5', hpre, hm2⟩ := charStream_split hm2.symm
      obtain ⟨h6, hpb', hm⟩ := charStream_split hm2.symm
      have hl := ih hr hm
      have hl' := lexesErr_blank hb3 hl
      rw [← h6] at hl'
      have hgne : chars g ≠ [] := by
        cases g with
        | nil => exact absurd rfl c1
        | cons => simp
      have hgb : ∀ c cs, chars g = c :: cs → c ≠ ' ' ∧ c ≠ '\t' := by
        intro c cs hc
        exact hb2 c (cs ++ chars (pre ++ (pb' ++ m))) (by
          rw [List.append_assoc]; simp only [chars, List.map_append] at hc ⊢; rw [hc]; simp)
      have hga : Garbage (chars g) (chars pre ++ chars (pb' ++ m)) := by
        have := c2
        simpa only [chars, List.map_append] using this
      have := LexesErr.skip (o := o) hb1 hgne hgb hga c3 hl'
      rw [show chars (g ++ pre ++ (pb' ++ m)) = chars g ++ (chars pre ++ chars (pb' ++ m)) by
        simp [chars]]
      have hsp : spanSince eoi (g ++ pre ++ (pb' ++ m)) (pb' ++ m) =
          { start := o + (chars pb).length, stop := o + (chars pb).length + (chars g).length + (chars pre).length } := by
        have := spanSince_charStream (eoi := eoi) (o := o + (chars pb).length)
          (w := chars g ++ chars pre) (r := chars (pb' ++ m)) (by simp [hgne])
        rw [List.append_assoc, hm1, h5, h5', hm2]
        rw [List.length_append, ← Nat.add_assoc] at this
        rw [← this, List.append_assoc, chars_charStream]
      rw [hsp]
      have he : ([] ++ [e] ++ [] ++ es').length = es'.length + 1 := by simp
      rw [he]
      simpa only [List.append_assoc] using this
    · obtain ⟨alt, k4⟩ := k4
      rw [k4] at h'
      cases h'

/-- The token at the start of a text is unique. -/
theorem longest_unique {t t' : Token} {w w' r r' : Str} (h : Longest t w r) (h' : Longest t' w' r')
    (he : w ++ r = w' ++ r') : t = t' ∧ w = w' ∧ r = r' := by
  have h1 := h.2 t' w' r' h'.1 he
  have h2 := h'.2 t w r h.1 he.symm
  obtain ⟨rfl, rfl⟩ := List.append_inj he (by omega)
  exact ⟨spells_unique h.1 h'.1, rfl, rfl⟩

theorem longest_not_noToken {t : Token} {w r : Str} (h : Longest t w r) : ¬ NoToken (w ++ r) :=
  fun hn => hn t w r h.1 rfl

theorem garbage_head {g rest : Str} (h : Garbage g rest) (hg : g ≠ []) : NoToken (g ++ rest) :=
  h [] g rfl hg

/-- The unrecognizable text in front of a token is unique. -/
theorem garbage_unique {g g' w w' r r' : Str} {t t' : Token} (h1 : Garbage g (w ++ r))
    (h2 : Garbage g' (w' ++ r')) (h3 : Longest t w r) (h4 : Longest t' w' r')
    (he : g ++ (w ++ r) = g' ++ (w' ++ r')) : g = g' := by
  rw [List.append_eq_append_iff] at he
  rcases he with ⟨a, rfl, h⟩ | ⟨a, rfl, h⟩
  · cases a with
    | nil => simp
    | cons c a =>
      exact absurd (h ▸ h2 g (c :: a) rfl (by simp)) (longest_not_noToken h3)
  · cases a with
    | nil => simp
    | cons c a =>
      exact absurd (h ▸ h1 g' (c :: a) rfl (by simp)) (longest_not_noToken h4)

/-- The parser on a text that starts with a token. -/
theorem recoverSkip_tok {eoi : Span} {o : Nat} {w rest : Str} {t : Token} (h : Longest t w rest) :
    Ok (recoverSkip tokenChoice) eoi (charStream o (w ++ rest)) [] t (charStream (o + w.length) rest) := by
  rcases recoverSkip_cases eoi (charStream o (w ++ rest)) with
    ⟨t', pre, r', h0, h1, h2⟩ | ⟨g, t', pre, r', e, h0, h1, h2, h3, h4⟩ | ⟨h1, e, h'⟩
  · obtain ⟨h5, h6, h7⟩ := charStream_split h0
    obtain ⟨rfl, rfl, rfl⟩ := longest_unique h h1 h5
    rw [← h7]; exact h2
  · exfalso
    rw [List.append_assoc] at h0
    obtain ⟨h5, h6, h7⟩ := charStream_split h0
    refine longest_not_noToken h (h5 ▸ garbage_head h2 ?_)
    intro hg; exact h1 (List.map_eq_nil_iff.mp hg)
  · exfalso
    refine longest_not_noToken h ?_
    have := garbage_head h1
    rw [chars_charStream, List.append_nil] at this
    exact this (by simp [spells_ne_nil h.1])

/-- The parser on a text that starts with unrecognizable text before a token. -/
theorem recoverSkip_garbage {eoi : Span} {o : Nat} {g w rest : Str} {t : Token} (hg : g ≠ [])
    (hga : Garbage g (w ++ rest)) (h : Longest t w rest) :
    ∃ e, Ok (recoverSkip tokenChoice) eoi (charStream o (g ++ w ++ rest)) [e] t
      (charStream (o + g.length + w.length) rest) := by
  rcases recoverSkip_cases eoi (charStream o (g ++ w ++ rest)) with
    ⟨t', pre, r', h0, h1, h2⟩ | ⟨g', t', pre, r', e, h0, h1, h2, h3, h4⟩ | ⟨h1, e, h'⟩
  · exfalso
    obtain ⟨h5, h6, h7⟩ := charStream_split h0
    refine longest_not_noToken h1 (h5 ▸ ?_)
    rw [List.append_assoc]
    exact garbage_head hga hg
  · rw [List.append_assoc, List.append_assoc] at h0
    obtain ⟨h5, h6, h7⟩ := charStream_split h0
    obtain ⟨h8, h9, h10⟩ := charStream_split h7.symm
    rw [h8] at h5
    have h2' : Garbage (chars g') (chars pre ++ chars r') := by
      simpa only [chars, List.map_append] using h2
    obtain rfl := garbage_unique hga h2' h h3 h5
    obtain ⟨rfl, rfl, rfl⟩ := longest_unique h h3 (List.append_cancel_left h5)
    exact ⟨e, by rw [← h10]; exact h4⟩
  · exfalso
    rw [chars_charStream, List.append_assoc] at h1
    have := h1 g (w ++ rest) rfl (by simp [spells_ne_nil h.1])
    rw [List.append_nil] at this
    exact longest_not_noToken h this

omit [Unicode] in
/-- Consuming the blanks of a text. -/
theorem blanks_charStream {eoi : Span} {o : Nat} {b x : Str} (hb : Blank b) (hx : NoBlank x) :
    Ok blanks eoi (charStream o (b ++ x)) [] b (charStream (o + b.length) x) := by
  obtain ⟨pre, r, h1, h2, h3, h4⟩ := blanks_cases eoi (charStream o (b ++ x))
  obtain ⟨h5, h6, h7⟩ := charStream_split h1
  obtain ⟨b'', h8, h9⟩ := blank_split hb h2 hx h5
  obtain ⟨b3, h10, h11⟩ := blank_split h2 hb h3 h5.symm
  have : b'' = [] := by
    have hl := congrArg List.length h8
    have hl' := congrArg List.length h10
    simp only [List.length_append] at hl hl'
    exact List.length_eq_zero_iff.mp (by omega)
  subst this
  simp only [List.append_nil, List.nil_append] at h8 h9
  subst h8
  subst h9
  rw [← h7]
  exact h4

omit [Unicode] in
theorem exists_blank_split (x : Str) : ∃ b y, x = b ++ y ∧ Blank b ∧ NoBlank y := by
  obtain ⟨pre, r, h1, h2, h3, h4⟩ := blanks_cases { start := 0, stop := 0 } (charStream 0 x)
  obtain ⟨h5, _⟩ := charStream_split h1
  exact ⟨_, _, h5, h2, h3⟩

theorem paddedToken_nil (eoi : Span) : Fails paddedToken eoi [] := by
  rcases paddedToken_noPanic.cases eoi [] with ⟨es, x, r, h⟩ | h
  · have := paddedToken_progress h
    simp at this
  · exact h

theorem lexesErr_nil_blank {o : Nat} {text : Str} {ts n} (h : LexesErr o text ts n) :
    ts = [] → Blank text := by
  intro hts
  cases h with
  | done h => exact h
  | tok => cases hts
  | skip => cases hts

/-- Completeness of the loop. -/
theorem many_paddedToken_of_lexes {eoi : Span} {o : Nat} {text : Str} {ts n} (h : LexesErr o text ts n) :
    ∀ b text', text = b ++ text' → Blank b → (ts ≠ [] ∨ text' = []) →
      ∃ es, es.length = n ∧ Many paddedToken eoi (charStream (o + b.length) text') es ts [] := by
  induction h with
  | done h =>
    intro b text' _ _ h2
    have : text' = [] := by rcases h2 with h2 | h2; exact absurd rfl h2; exact h2
    subst this
    exact ⟨[], rfl, .nil (paddedToken_nil eoi)⟩
  | @tok o b0 t w rest ts n h1 h2 h3 ih =>
    intro b text' he hb _
    rw [List.append_assoc] at he
    obtain ⟨b1, rfl, rfl⟩ := blank_split h1 hb (spells_noBlank h2.1) he
    obtain ⟨b2, rest2, rfl, hb2, hr2⟩ := exists_blank_split rest
    have hcond : ts ≠ [] ∨ rest2 = [] := by
      cases ts with
      | cons => left; simp
      | nil =>
        right
        exact noBlank_blank (fun c hc => lexesErr_nil_blank h3 rfl c (by simp [hc])) hr2
    obtain ⟨es, hes, hm⟩ := ih b2 rest2 rfl hb2 hcond
    have hb1 : Blank b1 := fun c hc => h1 c (by simp [hc])
    refine ⟨es, hes, ?_⟩
    have := Many.cons (es := []) (x := (t, ({ start := o + (b ++ b1).length, stop := o + (b ++ b1).length + w.length } : Span))) (paddedBy_ok.mpr
      ⟨[], [], [], _, _, b1, b2, blanks_charStream (eoi := eoi) (o := o + b.length) hb1 (spells_noBlank h2.1),
        pmapSpan_ok.mpr ⟨t, recoverSkip_tok (eoi := eoi) (o := o + b.length + b1.length) h2, ?_⟩,
        blanks_charStream (eoi := eoi) (o := o + b.length + b1.length + w.length) hb2 hr2, rfl⟩)
      (by rw [List.length_append, ← Nat.add_assoc] at hm; exact hm)
    · exact this
    · rw [spanSince_charStream (spells_ne_nil h2.1)]
      simp only [List.length_append, Nat.add_assoc]
  | @skip o b0 g t w rest ts n h1 hg hgb hga h2 h3 ih =>
    intro b text' he hb _
    have hnb : NoBlank (g ++ w ++ rest) := by
      intro c cs hc
      cases g with
      | nil => exact absurd rfl hg
      | cons d g =>
        simp only [List.cons_append, List.cons.injEq] at hc
        exact hc.1 ▸ hgb d g rfl
    rw [List.append_assoc, List.append_assoc] at he
    rw [List.append_assoc] at hnb
    obtain ⟨b1, rfl, rfl⟩ := blank_split h1 hb hnb he
    obtain ⟨b2, rest2, rfl, hb2, hr2⟩ := exists_blank_split rest
    have hcond : ts ≠ [] ∨ rest2 = [] := by
      cases ts with
      | cons => left; simp
      | nil =>
        right
        exact noBlank_blank (fun c hc => lexesErr_nil_blank h3 rfl c (by simp [hc])) hr2
    obtain ⟨es, hes, hm⟩ := ih b2 rest2 rfl hb2 hcond
    have hb1 : Blank b1 := fun c hc => h1 c (by simp [hc])
    obtain ⟨e, hrec⟩ := recoverSkip_garbage (eoi := eoi) (o := o + b.length + b1.length) hg hga h2
    rw [List.append_assoc] at hrec
    refine ⟨[e] ++ es, by simp [hes], ?_⟩
    have := Many.cons (es := [e]) (x := (t, ({ start := o + (b ++ b1).length, stop := o + (b ++ b1).length + g.length + w.length } : Span))) (paddedBy_ok.mpr
      ⟨[], [e], [], _, _, b1, b2, blanks_charStream (eoi := eoi) (o := o + b.length) hb1 hnb,
        pmapSpan_ok.mpr ⟨t, hrec, ?_⟩,
        blanks_charStream (eoi := eoi) (o := o + b.length + b1.length + g.length + w.length) hb2 hr2, rfl⟩)
      (by rw [List.length_append, ← Nat.add_assoc] at hm; exact hm)
    · exact this
    · have := spanSince_charStream (eoi := eoi) (o := o + b.length + b1.length) (w := g ++ w)
        (r := b2 ++ rest2) (by simp [hg])
      rw [List.append_assoc, List.length_append, ← Nat.add_assoc] at this
      rw [this]
      simp only [List.length_append, Nat.add_assoc]

/-! ### The tokenizer -/

theorem tokenizer_noPanic : NoPanic tokenizer :=
  thenIgnore_noPanic (repeated_noPanic paddedToken_noPanic paddedToken_progress) pend_noPanic

/-- The tokenizer never panics. -/
theorem tokenize_total (src : Str) : ∃ r, tokenize src = .ok r := by
  unfold tokenize parseRecovery
  have := tokenizer_noPanic { start := src.length, stop := src.length } (charStream 0 src)
  split
  · contradiction
  · exact ⟨_, rfl⟩
  · exact ⟨_, rfl⟩

theorem tokenizer_ok {eoi : Span} {src : Str} {es toks r} :
    Ok tokenizer eoi (charStream 0 src) es toks r ↔
      r = [] ∧ Many paddedToken eoi (charStream 0 src) es toks [] := by
  unfold tokenizer
  simp only [thenIgnore_ok, repeated_ok paddedToken_noPanic paddedToken_progress, pend_ok]
  constructor
  · rintro ⟨ea, eb, m, y, h1, ⟨rfl, rfl, rfl⟩, rfl⟩
    exact ⟨rfl, by simpa using h1⟩
  · rintro ⟨rfl, h⟩
    exact ⟨es, [], [], (), h, ⟨rfl, rfl, rfl⟩, by simp⟩

theorem tokenize_some_iff {src : Str} {toks errs} :
    tokenize src = .ok (some toks, errs) ↔
      Many paddedToken { start := src.length, stop := src.length } (charStream 0 src) errs toks [] := by
  unfold tokenize parseRecovery
  constructor
  · intro h
    split at h
    · cases h
    · rename_i es x alt r h'
      simp only [Outcome.ok.injEq, Prod.mk.injEq, Option.some.injEq] at h
      obtain ⟨rfl, rfl⟩ := h
      exact (tokenizer_ok.mp ⟨_, h'⟩).2
    · simp at h
  · intro h
    obtain ⟨alt, h'⟩ := tokenizer_ok.mpr ⟨rfl, h⟩
    rw [h']

/-- What the tokenizer returns is described by the specification. -/
theorem tokenize_sound {src : Str} {toks errs} (h : tokenize src = .ok (some toks, errs)) :
    LexesErr 0 src toks errs.length :=
  many_paddedToken (tokenize_some_iff.mp h) rfl rfl

/-- Every text described by the specification is tokenized accordingly. -/
theorem tokenize_complete {src : Str} {toks n} (h : LexesErr 0 src toks n) (hne : toks ≠ [] ∨ src = []) :
    ∃ errs, errs.length = n ∧ tokenize src = .ok (some toks, errs) := by
  obtain ⟨es, h1, h2⟩ := many_paddedToken_of_lexes (eoi := { start := src.length, stop := src.length }) h [] src rfl
    (by simp [Blank]) hne
  exact ⟨es, h1, tokenize_some_iff.mpr h2⟩

/-- Without tokens there is an error. -/
theorem tokenize_none {src : Str} {errs} (h : tokenize src = .ok (none, errs)) : errs ≠ [] := by
  unfold tokenize parseRecovery at h
  split at h
  · cases h
  · simp at h
  · simp only [Outcome.ok.injEq, Prod.mk.injEq, true_and] at h
    rw [← h]; simp

theorem lexes_of_lexesErr {o : Nat} {text : Str} {ts n} (h : LexesErr o text ts n) : n = 0 → Lexes o text ts := by
  induction h with
  | done h => exact fun _ => .done h
  | tok h1 h2 _ ih => exact fun hn => .tok h1 h2 (ih hn)
  | skip => exact fun hn => absurd hn (by omega)

theorem lexesErr_of_lexes {o : Nat} {text : Str} {ts} (h : Lexes o text ts) : LexesErr o text ts 0 := by
  induction h with
  | done h => exact .done h
  | tok h1 h2 _ ih => exact .tok h1 h2 ih

end
end HyperIR
