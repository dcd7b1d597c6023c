import Verif.Proofs.Backtrace

/-
C45–C50: backtraces, displayed names and paths (src/backtrace.rs).
-/

namespace HyperIR
open Spec

/-! ### C45 -/

theorem item_zero {j : Json} {s : Str} : (j.item 0).bind Json.asStr = some s ↔ ∃ rest, j = .arr (.str s :: rest) := by
  cases j with
  | arr l =>
    cases l with
    | nil => simp [Json.item]
    | cons a l => cases a <;> simp [Json.item, Json.asStr]
  | _ => simp [Json.item]

theorem item_one {j : Json} {s : Str} : (j.item 1).bind Json.asStr = some s ↔ IsLink j s := by
  unfold IsLink
  cases j with
  | arr l =>
    cases l with
    | nil => simp [Json.item]
    | cons a l =>
      cases l with
      | nil => simp [Json.item]
      | cons b l => cases b <;> simp [Json.item, Json.asStr]
  | _ => simp [Json.item]

theorem frameName_spec (j : Json) : SymbolOf j (frameName ((j.item 0).bind Json.asStr) ((j.item 1).bind Json.asStr)) := by
  have hname : ∀ s, IsName j s ↔ s ≠ [] ∧ (j.item 0).bind Json.asStr = some s := fun s => by rw [item_zero]; rfl
  have hlink : ∀ s, IsLink j s ↔ (j.item 1).bind Json.asStr = some s := fun s => item_one.symm
  generalize (j.item 0).bind Json.asStr = n at hname
  generalize (j.item 1).bind Json.asStr = l at hlink
  have nolink : (∀ s, ¬ IsName j s) → SymbolOf j (frameName none l) := by
    intro hn
    cases l with
    | none => exact .inr (.inr ⟨hn, (fun l h => nomatch (hlink l).mp h), rfl⟩)
    | some l => exact .inr (.inl ⟨hn, l, (hlink l).mpr rfl, shortenFilepath_spec l⟩)
  cases n with
  | none => exact nolink (fun s h => by rw [hname] at h; cases h.2)
  | some s =>
    cases s with
    | nil => exact nolink (fun s h => by rw [hname] at h; exact h.1 (Option.some.inj h.2).symm)
    | cons c cs => exact .inl ((hname _).mpr ⟨by simp [frameName], rfl⟩)

theorem parseFrame_spec {fs : FileSystem} {roots : List Url} (hr : ∀ r ∈ roots, Folder r) (j : Json) :
    ∃ f, parseFrame fs roots j = .ok f ∧ FrameOf j f ∧
      ∀ file, f.filepath = some file → NoTabs file → ∀ u, f.resolvedFilepath = some u ↔ Resolves fs roots file u := by
  unfold parseFrame
  simp only
  have hl : ∀ s, IsLink j s ↔ (j.item 1).bind Json.asStr = some s := fun s => item_one.symm
  have hnm := frameName_spec j
  generalize frameName ((j.item 0).bind Json.asStr) ((j.item 1).bind Json.asStr) = nm at hnm
  generalize (j.item 1).bind Json.asStr = l at hl
  cases hfl : l.bind parseFileLine with
  | none =>
    refine ⟨_, rfl, ⟨hnm, (fun file h => nomatch h), fun _ => ⟨rfl, rfl, ?_⟩⟩, (fun file h => nomatch h)⟩
    intro s file n h1 h2
    rw [hl] at h1
    rw [h1] at hfl
    simp only [Option.bind_some] at hfl
    rw [parseFileLine_iff.mpr h2] at hfl
    cases hfl
  | some p =>
    obtain ⟨file, n⟩ := p
    obtain ⟨s, rfl, hs⟩ := Option.bind_eq_some_iff.mp hfl
    obtain ⟨o, ho⟩ := resolveRelativePath_no_panic (fs := fs) (path := file) (fun r h => (hr r h).1)
    simp only [ho]
    refine ⟨_, rfl, ⟨hnm, ?_, by intro h; cases h⟩, ?_⟩
    · intro file' h
      cases h
      exact ⟨s, (hl s).mpr rfl, parseFileLine_iff.mp hs⟩
    · intro file' h ht u
      cases h
      obtain ⟨o', h1, h2⟩ := resolveRelativePath_spec (fs := fs) hr ht
      rw [ho] at h1
      cases h1
      exact h2 u

theorem mapO_spec {α β : Type} {f : α → Outcome β} {R : α → β → Prop} (h : ∀ a, ∃ b, f a = .ok b ∧ R a b) (l : List α) :
    ∃ l', mapO f l = .ok l' ∧ l'.length = l.length ∧ ∀ (i : Nat) a, l[i]? = some a → ∃ b, l'[i]? = some b ∧ R a b := by
  induction l with
  | nil => exact ⟨[], rfl, rfl, by simp⟩
  | cons a l ih =>
    obtain ⟨b, h1, h2⟩ := h a
    obtain ⟨l', h3, h4, h5⟩ := ih
    refine ⟨b :: l', by simp [mapO, h1, h3], by simp [h4], ?_⟩
    intro i a' hi
    cases i with
    | zero => simp at hi; subst hi; exact ⟨b, rfl, h2⟩
    | succ i => exact h5 i a' (by simpa using hi)

theorem hasBacktrace_iff {j : Json} {l : List Json} : (j.field c!"backtrace").bind Json.asArray = some l ↔ HasBacktrace j l := by
  unfold HasBacktrace
  cases j with
  | obj ps =>
    simp only [Json.field, Json.obj.injEq]
    induction ps with
    | nil => simp
    | cons p ps ih =>
      rw [List.find?_cons]
      by_cases hp : p.1 = c!"backtrace"
      · simp only [hp, decide_true, Option.map_some, Option.bind_some]
        obtain ⟨k, v⟩ := p
        simp only at hp
        subst hp
        constructor
        · intro h
          cases v <;> simp [Json.asArray] at h
          subst h
          exact ⟨[], ps, rfl, by simp⟩
        · rintro ⟨before, after, h1, h2⟩
          cases before with
          | nil => cases h1; rfl
          | cons q before =>
            cases h1
            exact absurd rfl (h2 (c!"backtrace", v) (by simp))
      · simp only [hp, decide_false]
        rw [ih]
        constructor
        · rintro ⟨before, after, rfl, h2⟩
          exact ⟨p :: before, after, rfl, by intro q hq; rcases List.mem_cons.mp hq with rfl | hq; exact hp; exact h2 q hq⟩
        · rintro ⟨before, after, h1, h2⟩
          cases before with
          | nil => cases h1; exact absurd rfl hp
          | cons q before =>
            cases h1
            exact ⟨before, after, rfl, fun q hq => h2 q (by simp [hq])⟩
  | _ => simp [Json.field]

/-- C45: every JSON value is handled; a value with a `backtrace` array gives exactly one frame per entry, in order, each as
described by the entry (and with its file resolved against the workspace folders); any other value gives no backtrace. -/
theorem C45_backtrace_total (fs : FileSystem) {roots : List Url} (hr : ∀ r ∈ roots, Folder r) (j : Json) :
    (∀ l, HasBacktrace j l → ∃ frames, parseBacktraceFromJson fs roots j = .ok (some frames) ∧ frames.length = l.length ∧
      ∀ (i : Nat) entry, l[i]? = some entry → ∃ f, frames[i]? = some f ∧ FrameOf entry f ∧
        ∀ file, f.filepath = some file → NoTabs file → ∀ u, f.resolvedFilepath = some u ↔ Resolves fs roots file u) ∧
    ((∀ l, ¬ HasBacktrace j l) → parseBacktraceFromJson fs roots j = .ok none) := by
  unfold parseBacktraceFromJson
  constructor
  · intro l hl
    rw [hasBacktrace_iff.mpr hl]
    obtain ⟨frames, h1, h2, h3⟩ := mapO_spec (fun j => parseFrame_spec (fs := fs) hr j) l
    exact ⟨frames, by simp only [h1], h2, h3⟩
  · intro hno
    cases h : (j.field c!"backtrace").bind Json.asArray with
    | none => rfl
    | some l => exact absurd (hasBacktrace_iff.mp h) (hno l)

/-- The frame of an entry is determined by the entry. -/
theorem frameOf_unique {j : Json} {f f' : Frame} (h : FrameOf j f) (h' : FrameOf j f') :
    f.symbol = f'.symbol ∧ f.filepath = f'.filepath ∧ f.line = f'.line := by
  have hlink : ∀ {l l'}, IsLink j l → IsLink j l' → l = l' := by
    rintro l l' ⟨_, _, h1⟩ ⟨_, _, h2⟩
    rw [h1] at h2
    simp at h2
    exact h2.2.1
  have hname : ∀ {l l'}, IsName j l → IsName j l' → l = l' := by
    rintro l l' ⟨_, _, h1⟩ ⟨_, _, h2⟩
    rw [h1] at h2
    simp at h2
    exact h2.1
  refine ⟨?_, ?_⟩
  · rcases h.1 with a | ⟨a, l, a1, a2⟩ | ⟨a, a1, a2⟩ <;> rcases h'.1 with b | ⟨b, l', b1, b2⟩ | ⟨b, b1, b2⟩
    · exact hname a b
    · exact absurd a (b _)
    · exact absurd a (b _)
    · exact absurd b (a _)
    · have := hlink a1 b1
      subst this
      exact lastComponent_unique a2 b2
    · exact absurd a1 (b1 _)
    · exact absurd b (a _)
    · exact absurd b1 (a1 _)
    · rw [a2, b2]
  · cases hf : f.filepath with
    | none =>
      cases hf' : f'.filepath with
      | none => exact ⟨rfl, by rw [(h.2.2 hf).1, (h'.2.2 hf').1]⟩
      | some file' =>
        obtain ⟨l', h3, h4⟩ := h'.2.1 file' hf'
        exact absurd h4 ((h.2.2 hf).2.2 l' file' _ h3)
    | some file =>
      obtain ⟨l, h1, h2⟩ := h.2.1 file hf
      cases hf' : f'.filepath with
      | none => exact absurd h2 ((h'.2.2 hf').2.2 l file _ h1)
      | some file' =>
        obtain ⟨l', h3, h4⟩ := h'.2.1 file' hf'
        have := hlink h1 h3
        subst this
        have e1 := parseFileLine_iff.mpr h2
        rw [parseFileLine_iff.mpr h4] at e1
        simp only [Option.some.injEq, Prod.mk.injEq] at e1
        exact ⟨by rw [e1.1], e1.2.symm⟩

/-! ### C46 -/

theorem findIdx?_first {α : Type} {p : α → Bool} {l : List α} {i : Nat} : l.findIdx? p = some i ↔
    (∃ a, l[i]? = some a ∧ p a = true) ∧ ∀ j < i, ∀ a, l[j]? = some a → p a = false := by
  rw [List.findIdx?_eq_some_iff_getElem]
  constructor
  · rintro ⟨h1, h2, h3⟩
    refine ⟨⟨_, List.getElem?_eq_getElem h1, h2⟩, ?_⟩
    intro j hj a ha
    obtain ⟨hj', rfl⟩ := List.getElem?_eq_some_iff.mp ha
    simpa using h3 j hj
  · rintro ⟨⟨a, h1, h2⟩, h3⟩
    obtain ⟨hi, rfl⟩ := List.getElem?_eq_some_iff.mp h1
    refine ⟨hi, h2, ?_⟩
    intro j hj
    simpa using h3 j hj _ (List.getElem?_eq_getElem (by omega))

theorem findIdx?_none {α : Type} {p : α → Bool} {l : List α} : l.findIdx? p = none ↔ ∀ (j : Nat) a, l[j]? = some a → p a = false := by
  rw [List.findIdx?_eq_none_iff]
  constructor
  · intro h j a ha; exact h a (List.mem_of_getElem? ha)
  · intro h a ha
    obtain ⟨i, hi, rfl⟩ := List.getElem_of_mem ha
    exact h i _ (List.getElem?_eq_getElem hi)

theorem findPreferred_spec (frames : List Frame) (pats : List Str) :
    (∀ i, findPreferred frames pats = some i ↔ ∃ (k : Nat) (pat : Str), pats[k]? = some pat ∧
      (∃ f, frames[i]? = some f ∧ Contains pat f.symbol) ∧
      (∀ k' < k, ∀ pat', pats[k']? = some pat' → ∀ (i' : Nat) f, frames[i']? = some f → ¬ Contains pat' f.symbol) ∧
      ∀ i' < i, ∀ f, frames[i']? = some f → ¬ Contains pat f.symbol) ∧
    (findPreferred frames pats = none ↔ ∀ (k : Nat) pat, pats[k]? = some pat → ∀ (i' : Nat) f, frames[i']? = some f → ¬ Contains pat f.symbol) := by
  induction pats with
  | nil => simp [findPreferred]
  | cons p ps ih =>
    unfold findPreferred
    cases h : frames.findIdx? (fun f => containsStr p f.symbol) with
    | some j =>
      obtain ⟨⟨g, h1, h2⟩, h3⟩ := findIdx?_first.mp h
      have h2 := containsStr_iff.mp h2
      have h3 : ∀ i' < j, ∀ f, frames[i']? = some f → ¬ Contains p f.symbol := by
        intro i' hi' f hf hc
        have := h3 i' hi' f hf
        rw [containsStr_iff.mpr hc] at this
        cases this
      constructor
      · intro i
        simp only [Option.some.injEq]
        constructor
        · rintro rfl
          exact ⟨0, p, rfl, ⟨g, h1, h2⟩, by intro k' hk'; omega, h3⟩
        · rintro ⟨k, pat, e1, ⟨f, e2, e3⟩, e4, e5⟩
          cases k with
          | zero =>
            simp at e1
            subst e1
            rcases Nat.lt_trichotomy i j with hlt | heq | hlt
            · exact absurd e3 (h3 i hlt f e2)
            · exact heq.symm
            · exact absurd h2 (e5 j hlt g h1)
          | succ k => exact absurd h2 (e4 0 (by omega) p rfl j g h1)
      · constructor
        · intro h; cases h
        · intro h'
          exact absurd h2 (h' 0 p rfl j g h1)
    | none =>
      have hno := findIdx?_none.mp h
      have hno : ∀ (i' : Nat) f, frames[i']? = some f → ¬ Contains p f.symbol := by
        intro i' f hf hc
        have := hno i' f hf
        rw [containsStr_iff.mpr hc] at this
        cases this
      constructor
      · intro i
        simp only
        rw [ih.1 i]
        constructor
        · rintro ⟨k, pat, e1, e2, e4, e5⟩
          refine ⟨k + 1, pat, by simpa using e1, e2, ?_, e5⟩
          intro k' hk' pat' hp'
          cases k' with
          | zero => simp at hp'; subst hp'; exact hno
          | succ k' => exact e4 k' (by omega) pat' (by simpa using hp')
        · rintro ⟨k, pat, e1, ⟨f, e2, e3⟩, e4, e5⟩
          cases k with
          | zero => simp at e1; subst e1; exact absurd e3 (hno i f e2)
          | succ k =>
            exact ⟨k, pat, by simpa using e1, ⟨f, e2, e3⟩,
              fun k' hk' pat' hp' => e4 (k' + 1) (by omega) pat' (by simpa using hp'), e5⟩
      · simp only
        rw [ih.2]
        constructor
        · intro h' k pat hk
          cases k with
          | zero => simp at hk; subst hk; exact hno
          | succ k => exact h' k pat (by simpa using hk)
        · intro h' k pat hk
          exact h' (k + 1) pat (by simpa using hk)

theorem external_iff {frames : List Frame} {i : Nat} : External frames i ↔ ∃ f, frames[i]? = some f ∧
    (match f.filepath with
      | some fp => !containsStr c!"hyper/ir/" fp && !containsStr c!"hyper/codegen" fp
      | none => false) = true := by
  unfold External
  constructor
  · rintro ⟨f, fp, h1, h2, h3, h4⟩
    refine ⟨f, h1, ?_⟩
    rw [h2]
    simp only [Bool.and_eq_true, Bool.not_eq_true', ← Bool.not_eq_true, containsStr_iff]
    exact ⟨h3, h4⟩
  · rintro ⟨f, h1, h2⟩
    cases h3 : f.filepath with
    | none => rw [h3] at h2; cases h2
    | some fp =>
      rw [h3] at h2
      simp only [Bool.and_eq_true, Bool.not_eq_true', ← Bool.not_eq_true, containsStr_iff] at h2
      exact ⟨f, fp, h1, h3, h2.1, h2.2⟩

/-- C46: the highlighted frame is the first frame matching the most preferred pattern that matches at all, otherwise the
first frame outside of the code generator, otherwise there is none; a chosen index is valid. -/
theorem C46_relevant_frame (frames : List Frame) :
    (∀ i, identifyRelevantFrames frames = some i ↔ Relevant frames i) ∧
    (∀ i, identifyRelevantFrames frames = some i → i < frames.length) ∧
    (identifyRelevantFrames frames = none ↔ ∀ i, ¬ Relevant frames i) := by
  have key : ∀ i, identifyRelevantFrames frames = some i ↔ Relevant frames i := by
    intro i
    obtain ⟨h1, h2⟩ := findPreferred_spec frames symbolPreferences
    unfold identifyRelevantFrames Relevant Matches
    cases h : findPreferred frames symbolPreferences with
    | some j =>
      simp only [Option.some.injEq]
      have hj := (h1 j).mp h
      constructor
      · rintro rfl
        left
        obtain ⟨k, pat, e1, ⟨f, e2, e3⟩, e4, e5⟩ := hj
        refine ⟨k, ⟨pat, f, e1, e2, e3⟩, ?_, ?_⟩
        · rintro k' hk' i' ⟨pat', f', g1, g2, g3⟩
          exact e4 k' hk' pat' g1 i' f' g2 g3
        · rintro i' hi' ⟨pat', f', g1, g2, g3⟩
          have : some pat = some pat' := e1.symm.trans g1
          cases this
          exact e5 i' hi' f' g2 g3
      · rintro (⟨k, ⟨pat, f, e1, e2, e3⟩, e4, e5⟩ | ⟨hno, _⟩)
        · have := (h1 i).mpr ⟨k, pat, e1, ⟨f, e2, e3⟩,
            fun k' hk' pat' g1 i' f' g2 g3 => e4 k' hk' i' ⟨pat', f', g1, g2, g3⟩,
            fun i' hi' f' g2 g3 => e5 i' hi' ⟨pat, f', e1, g2, g3⟩⟩
          rw [h] at this
          exact Option.some.inj this
        · obtain ⟨k, pat, e1, ⟨f, e2, e3⟩, _⟩ := hj
          exact absurd ⟨pat, f, e1, e2, e3⟩ (hno k j)
    | none =>
      have hno := h2.mp h
      have hno : ∀ (k i' : Nat), ¬ ∃ (pat : Str) (f : Frame), preferences[k]? = some pat ∧ frames[i']? = some f ∧ Contains pat f.symbol := by
        rintro k i' ⟨pat, f, g1, g2, g3⟩
        exact hno k pat g1 i' f g2 g3
      simp only
      rw [findIdx?_first]
      constructor
      · rintro ⟨h3, h4⟩
        refine .inr ⟨hno, external_iff.mpr h3, ?_⟩
        intro i' hi' he
        obtain ⟨f, g1, g2⟩ := external_iff.mp he
        exact Bool.noConfusion (Eq.trans (Eq.symm g2) (h4 i' hi' f g1))
      · rintro (⟨k, h3, _⟩ | ⟨_, h3, h4⟩)
        · exact absurd h3 (hno k i)
        · refine ⟨external_iff.mp h3, ?_⟩
          intro i' hi' f hf
          rw [← Bool.not_eq_true]
          intro ht
          exact h4 i' hi' (external_iff.mpr ⟨f, hf, ht⟩)
  refine ⟨key, ?_, ?_⟩
  · intro i hi
    rcases (key i).mp hi with ⟨k, ⟨_, f, _, h, _⟩, _⟩ | ⟨_, ⟨f, _, h, _⟩, _⟩ <;>
      exact (List.getElem?_eq_some_iff.mp h).1
  · constructor
    · intro h i hi
      rw [(key i).mpr hi] at h
      cases h
    · intro h
      cases hi : identifyRelevantFrames frames with
      | none => rfl
      | some i => exact absurd ((key i).mp hi) (h i)

/-! ### C47 -/

section
variable [Unicode]

/-- C47: the symbol is rendered with the same number of characters, and no rendered character is a backquote, a bracket,
a parenthesis, an exclamation mark, a backslash, or any other ASCII character outside letters, digits, white space and
`.,:+-=/*<>_`.  What is missing: line ends are not replaced, see `C47_refuted_newline`. -/
theorem C47_markdown_partial (s : Str) :
    (sanitizeMarkdownCode s).length = s.length ∧
    (∀ c ∈ sanitizeMarkdownCode s, c ≠ '`' ∧ c ≠ '[' ∧ c ≠ ']' ∧ c ≠ '(' ∧ c ≠ ')' ∧ c ≠ '!' ∧ c ≠ '\\') ∧
    (∀ c ∈ sanitizeMarkdownCode s, c.toNat < 128 →
      c.isAlpha = true ∨ c.isDigit = true ∨ c = ' ' ∨ (9 ≤ c.toNat ∧ c.toNat ≤ 13) ∨ c ∈ c!".,:+-=/*<>_") ∧
    (∀ (i : Nat) c, s[i]? = some c → (c.isAlpha = true ∨ c.isDigit = true ∨ c = ' ' ∨ c ∈ c!".,:+-=/*<>_") →
      (sanitizeMarkdownCode s)[i]? = some c) := by
  have hchar : ∀ c : Char, (sanitizeChar c).toNat < 128 →
      (sanitizeChar c).isAlpha = true ∨ (sanitizeChar c).isDigit = true ∨ sanitizeChar c = ' ' ∨
      (9 ≤ (sanitizeChar c).toNat ∧ (sanitizeChar c).toNat ≤ 13) ∨ sanitizeChar c ∈ c!".,:+-=/*<>_" := by
    intro c
    unfold sanitizeChar
    split
    · rename_i h
      intro hlt
      simp only [Unicode.alphanumeric, Unicode.alphabetic_ascii c hlt, Unicode.numeric_ascii c hlt,
        Unicode.whitespace_ascii c hlt, Bool.or_eq_true, decide_eq_true_eq] at h
      rcases h with (h | h) | h | h
      · exact .inl h
      · exact .inr (.inl h)
      · exact .inr (.inr (.inl h))
      · exact .inr (.inr (.inr (.inl h)))
    · split
      · rename_i h
        intro _
        exact .inr (.inr (.inr (.inr h)))
      · intro h
        revert h; decide
  refine ⟨by simp [sanitizeMarkdownCode], ?_, ?_, ?_⟩
  · intro c hc
    obtain ⟨d, _, rfl⟩ := List.mem_map.mp hc
    have h := hchar d
    refine ⟨?_, ?_, ?_, ?_, ?_, ?_, ?_⟩ <;> intro he <;> rw [he] at h <;> revert h <;> decide
  · intro c hc
    obtain ⟨d, _, rfl⟩ := List.mem_map.mp hc
    exact hchar d
  · intro i c hi hc
    unfold sanitizeMarkdownCode
    rw [List.getElem?_map, hi]
    simp only [Option.map_some, Option.some.injEq]
    unfold sanitizeChar
    have ascii : ∀ {c : Char}, c.isAlpha = true → c.toNat < 128 := by
      intro c h
      simp only [Char.isAlpha, Char.isUpper, Char.isLower, Bool.or_eq_true, Bool.and_eq_true, decide_eq_true_eq, UInt32.le_iff_toNat_le] at h
      have : c.val.toNat = c.toNat := rfl
      rcases h with h | h
      · have := h.2; simp at this; omega
      · have := h.2; simp at this; omega
    have asciiD : ∀ {c : Char}, c.isDigit = true → c.toNat < 128 := by
      intro c h
      simp only [Char.isDigit, Bool.and_eq_true, decide_eq_true_eq, UInt32.le_iff_toNat_le] at h
      have : c.val.toNat = c.toNat := rfl
      have := h.2; simp at this; omega
    rcases hc with h | h | h | h
    · simp [Unicode.alphanumeric, Unicode.alphabetic_ascii c (ascii h), h]
    · simp [Unicode.alphanumeric, Unicode.numeric_ascii c (asciiD h), h]
    · subst h
      rw [if_pos]
      simp [Unicode.whitespace_ascii ' ' (by decide)]
    · rw [if_pos h]
      simp

end

/-! ### C48 -/

/-- C48: the displayed file name is a suffix of the path without path separators, and everything after the last one. -/
theorem C48_last_component (path : Str) :
    LastComponent path (shortenFilepath path) ∧ ∀ short, LastComponent path short → short = shortenFilepath path :=
  ⟨shortenFilepath_spec path, fun _ h => lastComponent_unique h (shortenFilepath_spec path)⟩

/-! ### C49 -/

/-- C49 for ASCII names: no crash, at most 50 characters; names of less than 48 characters are kept, longer ones are cut
after 48 characters and get an ellipsis. -/
theorem C49_short_name_partial {s : Str} (h : Ascii s) :
    ∃ r, shortenName s 50 = .ok r ∧ r.length ≤ 50 ∧ (s.length < 48 → r = s) ∧
      (48 ≤ s.length → r = s.take 48 ++ ['…']) := by
  unfold shortenName
  rw [utf8Len_ascii h]
  by_cases hl : s.length < 48
  · rw [if_pos hl]
    exact ⟨s, rfl, by omega, fun _ => rfl, fun h => by omega⟩
  · rw [if_neg hl]
    rw [show 50 - 2 = 48 from rfl, takeBytes_ascii h (by omega)]
    refine ⟨_, rfl, ?_, fun h => by omega, fun _ => rfl⟩
    rw [List.length_append, List.length_take]
    simp only [List.length_singleton]
    omega

theorem length_le_bytes : ∀ s : Str, s.length ≤ utf8Len s
  | [] => Nat.le_refl _
  | c :: s => by
    have := length_le_bytes s
    have := Char.utf8Size_pos c
    simp only [List.length_cons, utf8Len]
    omega

/-- Whenever the label is computed at all (for any name), it is short, and the name itself or a prefix with an ellipsis. -/
theorem C49_short_name_any {s r : Str} (h : shortenName s 50 = .ok r) :
    r.length ≤ 50 ∧ (r = s ∨ ∃ p rest, s = p ++ rest ∧ r = p ++ ['…'] ∧ utf8Len p = 48) := by
  have take : ∀ (s : Str) (n : Nat) p, takeBytes n s = some p → utf8Len p = n ∧ ∃ rest, s = p ++ rest := by
    intro s
    induction s with
    | nil =>
      intro n p hp
      cases n with
      | zero => simp [takeBytes] at hp; subst hp; exact ⟨rfl, [], rfl⟩
      | succ n => simp [takeBytes] at hp
    | cons c s ih =>
      intro n p hp
      cases n with
      | zero => simp [takeBytes] at hp; subst hp; exact ⟨rfl, c :: s, rfl⟩
      | succ n =>
        unfold takeBytes at hp
        split at hp
        · cases hq : takeBytes (n + 1 - c.utf8Size) s with
          | none => rw [hq] at hp; cases hp
          | some q =>
            rw [hq] at hp
            simp only [Option.map_some, Option.some.injEq] at hp
            subst hp
            obtain ⟨h1, rest, rfl⟩ := ih _ _ hq
            refine ⟨?_, rest, rfl⟩
            unfold utf8Len
            omega
        · cases hp
  unfold shortenName at h
  split at h
  · cases h
    rename_i hl
    have := length_le_bytes s
    exact ⟨by omega, .inl rfl⟩
  · split at h
    · rename_i p hp
      cases h
      obtain ⟨h1, rest, rfl⟩ := take _ _ _ hp
      have := length_le_bytes p
      exact ⟨by simp; omega, .inr ⟨p, rest, rfl, rfl, h1⟩⟩
    · cases h

/-! ### C50 -/

/-- C50 for paths without tabs and line ends: the path is resolved in the first workspace folder that contains it (not at
all if there is none), and the result lies inside that folder, whatever `.` or `..` components the path has. -/
theorem C50_inside_workspace_partial (fs : FileSystem) {roots : List Url} {path : Str} (hr : ∀ r ∈ roots, Folder r) (ht : NoTabs path) :
    ∃ o, resolveRelativePath fs roots path = .ok o ∧ (∀ u, o = some u ↔ Resolves fs roots path u) ∧
      ∀ u, o = some u → ∃ r ∈ roots, Below r u := by
  obtain ⟨o, h1, h2⟩ := resolveRelativePath_spec (fs := fs) hr ht
  refine ⟨o, h1, h2, ?_⟩
  intro u hu
  obtain ⟨before, r, after, rfl, ⟨comps, _, rfl⟩, _⟩ := (h2 u).mp hu
  refine ⟨r, by simp, rfl, ?_, ?_⟩
  · by_cases h : r.segments = [[]]
    · exact .inl h
    · exact .inr ⟨_, by simp only [appendPath, if_neg h]; rfl⟩
  · intro s hs
    simp only [appendPath] at hs
    by_cases h : r.segments = [[]]
    · rw [if_pos h] at hs
      split at hs
      · left; rw [h]; exact hs
      · have := (List.dropWhile_sublist _).subset hs
        right
        simpa using (List.mem_filter.mp this).2
    · rw [if_neg h] at hs
      rcases List.mem_append.mp hs with hs | hs
      · exact .inl hs
      · right
        simpa using (List.mem_filter.mp hs).2

/-! ### Examples and refutations -/

section Examples
attribute [local instance] asciiUnicode

def workspace : Url := { origin := c!"file://", segments := [c!"home", c!"ws"] }

example : Folder workspace := ⟨rfl, by decide⟩

/-- `..` does not leave the folder. -/
example : resolveRelativePath (fun _ => true) [workspace] c!"../a/./b.cpp" =
    .ok (some { origin := c!"file://", segments := [c!"home", c!"ws", c!"a", c!"b.cpp"] }) := by decide

/-- C50 fails for a component that becomes `..` when the URL parser drops the tab in it. -/
theorem C50_refuted_tab : ∃ u, resolveRelativePath (fun _ => true) [workspace] c!".\t./secret" = .ok (some u) ∧ ¬ Below workspace u := by
  refine ⟨{ origin := c!"file://", segments := [c!"home", c!"secret"] }, by decide, ?_⟩
  rintro ⟨_, h | ⟨more, h⟩, _⟩
  · revert h; decide
  · simp [workspace] at h

/-- A workspace folder whose URL has no path crashes the resolution. -/
theorem C45_refuted_opaque : parseBacktraceFromJson (fun _ => true) [{ origin := c!"untitled:x", segments := [], cannotBeABase := true }]
    (.obj [(c!"backtrace", .arr [.arr [.str c!"f", .str c!"a.cpp:1"]])]) = .panic := by
  rfl

example : parseBacktraceFromJson (fun _ => false) [workspace]
    (.obj [(c!"x", .null), (c!"backtrace", .arr [.arr [.str c!"f", .str c!"src/a.cpp:12"], .arr [.str [], .str c!"src/b.cpp"], .null])]) =
    .ok (some [⟨c!"f", some c!"src/a.cpp", 12, none⟩, ⟨c!"b.cpp", none, 0, none⟩, ⟨c!"<invalid>", none, 0, none⟩]) := by
  rfl

/-- The second pattern wins over an earlier frame with the last pattern. -/
example : identifyRelevantFrames [⟨c!"x", none, 0, none⟩, ⟨c!"Translator::foo", none, 0, none⟩,
    ⟨c!"A::Translator::produceMaterializedResult", none, 0, none⟩] = some 2 := by decide
example : identifyRelevantFrames [⟨c!"x", none, 0, none⟩, ⟨c!"y", some c!"hyper/ir/a.cpp", 0, none⟩,
    ⟨c!"z", some c!"hyper/rts/a.cpp", 0, none⟩] = some 2 := by decide

/-- C47 fails: line ends stay, so an empty line in a symbol name ends the code span. -/
theorem C47_refuted_newline : sanitizeMarkdownCode c!"a\n\n<b>" = c!"a\n\n<b>" := by decide

example : sanitizeMarkdownCode c!"f<`x`>[1]" = c!"f<�x�>�1�" := by decide
example : shortenFilepath c!"a/b\\c.cpp" = c!"c.cpp" := by decide

/-- C49 fails: a long name with a wide character at the cut crashes. -/
theorem C49_refuted_nonascii : shortenName (List.replicate 47 'a' ++ c!"éx") 50 = .panic := by decide

/-- A name of 48 characters is marked as shortened although nothing is left out. -/
theorem C49_refuted_48 : shortenName (List.replicate 48 'a') 50 = .ok (List.replicate 48 'a' ++ ['…']) := by decide

end Examples

end HyperIR
