import Verif.Proofs.Combinators

/- Laws of `separated_by` and of the recovery strategy. -/

namespace HyperIR

variable {τ α β : Type}

section sep
variable [DecidableEq τ]

/-- After an item: delimiters and items until one is missing. -/
inductive SepTail (item : P τ α) (delim : P τ β) (eoi : Span) : Toks τ → List α → Toks τ → Prop
  | noDelim {s} : Fails delim eoi s → SepTail item delim eoi s [] s
  | noItem {s d m} : Ok delim eoi s [] d m → Fails item eoi m → SepTail item delim eoi s [] s
  | cons {s d m x m' xs r} : Ok delim eoi s [] d m → Ok item eoi m [] x m' →
      SepTail item delim eoi m' xs r → SepTail item delim eoi s (x :: xs) r

/-- What `separated_by` accepts. -/
inductive Sep (item : P τ α) (delim : P τ β) (eoi : Span) : Toks τ → List α → Toks τ → Prop
  | nil {s} : Fails item eoi s → Sep item delim eoi s [] s
  | cons {s x m xs r} : Ok item eoi s [] x m → SepTail item delim eoi m xs r →
      Sep item delim eoi s (x :: xs) r

omit [DecidableEq τ] in
theorem SepTail.det {item : P τ α} {delim : P τ β} {eoi s xs r} (h : SepTail item delim eoi s xs r) :
    ∀ {xs' r'}, SepTail item delim eoi s xs' r' → xs = xs' ∧ r = r' := by
  induction h with
  | noDelim h =>
    intro xs' r' h'
    cases h' with
    | noDelim => exact ⟨rfl, rfl⟩
    | noItem => exact ⟨rfl, rfl⟩
    | cons h1 => exact absurd h h1.not_fails
  | noItem h1 h2 =>
    intro xs' r' h'
    cases h' with
    | noDelim => exact ⟨rfl, rfl⟩
    | noItem => exact ⟨rfl, rfl⟩
    | cons k1 k2 =>
      obtain ⟨_, _, rfl⟩ := h1.det k1
      exact absurd h2 k2.not_fails
  | cons h1 h2 _ ih =>
    intro xs' r' h'
    cases h' with
    | noDelim h => exact absurd h h1.not_fails
    | noItem k1 k2 =>
      obtain ⟨_, _, rfl⟩ := h1.det k1
      exact absurd k2 h2.not_fails
    | cons k1 k2 k3 =>
      obtain ⟨_, _, rfl⟩ := h1.det k1
      obtain ⟨_, rfl, rfl⟩ := h2.det k2
      obtain ⟨rfl, rfl⟩ := ih k3
      exact ⟨rfl, rfl⟩

variable {item : P τ α} {delim : P τ β}

theorem sepLoop_of_sepTail (hci : Clean item) (hcd : Clean delim) (hpd : Progress delim)
    (hsi : Suffix item) {eoi s xs r} (h : SepTail item delim eoi s xs r) :
    ∀ fuel outs alt, s.length < fuel →
      ∃ alt', sepLoop item delim eoi fuel [] outs alt s = .ok [] (outs ++ xs) alt' r := by
  induction h with
  | noDelim h =>
    intro fuel outs alt hf
    obtain ⟨es, e, h⟩ := h
    obtain rfl := hcd.2 h
    cases fuel with
    | zero => omega
    | succ fuel => exact ⟨_, by rw [sepLoop, h]; simp; rfl⟩
  | noItem h1 h2 =>
    intro fuel outs alt hf
    obtain ⟨al, h1⟩ := h1
    obtain ⟨es, e, h2⟩ := h2
    obtain rfl := hci.2 h2
    cases fuel with
    | zero => omega
    | succ fuel => exact ⟨_, by rw [sepLoop, h1]; simp only [h2]; simp; rfl⟩
  | cons h1 h2 _ ih =>
    intro fuel outs alt hf
    have hp := hpd h1
    obtain ⟨pre, hs⟩ := hsi h2
    have hl : _ = _ := congrArg List.length hs
    rw [List.length_append] at hl
    obtain ⟨al, h1⟩ := h1
    obtain ⟨al2, h2⟩ := h2
    cases fuel with
    | zero => omega
    | succ fuel =>
      rename_i s d m x m' xs r _
      obtain ⟨alt', h3⟩ := ih fuel (outs ++ [x]) (mergeAlts (mergeAlts alt al) al2) (by omega)
      refine ⟨alt', ?_⟩
      rw [sepLoop, h1]
      simp only [h2]
      simp only [List.append_nil] at h3 ⊢
      rw [h3]
      simp

omit [DecidableEq τ] in
theorem SepTail.exists (hni : NoPanic item) (hnd : NoPanic delim) (hci : Clean item) (hcd : Clean delim)
    (hpd : Progress delim) (hsi : Suffix item) (eoi : Span) : ∀ (n : Nat) (s : Toks τ), s.length ≤ n →
    ∃ xs r, SepTail item delim eoi s xs r := by
  intro n
  induction n with
  | zero =>
    intro s hs
    rcases hnd.cases eoi s with ⟨es, d, m, h1⟩ | h1
    · have := hpd h1; omega
    · exact ⟨_, _, .noDelim h1⟩
  | succ n ih =>
    intro s hs
    rcases hnd.cases eoi s with ⟨es, d, m, h1⟩ | h1
    · obtain rfl := hcd.1 h1
      rcases hni.cases eoi m with ⟨es, x, m', h2⟩ | h2
      · obtain rfl := hci.1 h2
        have hp := hpd h1
        obtain ⟨pre, hs'⟩ := hsi h2
        have hl : _ = _ := congrArg List.length hs'
        rw [List.length_append] at hl
        obtain ⟨xs, r, h3⟩ := ih m' (by omega)
        exact ⟨_, _, .cons h1 h2 h3⟩
      · exact ⟨_, _, .noItem h1 h2⟩
    · exact ⟨_, _, .noDelim h1⟩

omit [DecidableEq τ] in
theorem Sep.exists (hni : NoPanic item) (hnd : NoPanic delim) (hci : Clean item) (hcd : Clean delim)
    (hpd : Progress delim) (hsi : Suffix item) (eoi : Span) (s : Toks τ) :
    ∃ xs r, Sep item delim eoi s xs r := by
  rcases hni.cases eoi s with ⟨es, x, m, h⟩ | h
  · obtain rfl := hci.1 h
    obtain ⟨xs, r, h'⟩ := SepTail.exists hni hnd hci hcd hpd hsi eoi m.length m (Nat.le_refl _)
    exact ⟨_, _, .cons h h'⟩
  · exact ⟨_, _, .nil h⟩

theorem separatedBy_of_sep (hci : Clean item) (hcd : Clean delim) (hpd : Progress delim)
    (hsi : Suffix item) {eoi s xs r} (h : Sep item delim eoi s xs r) :
    Ok (separatedBy item delim) eoi s [] xs r := by
  cases h with
  | nil h =>
    obtain ⟨es, e, h⟩ := h
    obtain rfl := hci.2 h
    exact ⟨_, by rw [separatedBy, h]⟩
  | cons h1 h2 =>
    obtain ⟨pre, hs⟩ := hsi h1
    have hl : _ = _ := congrArg List.length hs
    rw [List.length_append] at hl
    obtain ⟨al, h1⟩ := h1
    rename_i x _ _
    obtain ⟨alt', h3⟩ := sepLoop_of_sepTail hci hcd hpd hsi h2 (s.length + 1) [x] al (by omega)
    exact ⟨alt', by rw [separatedBy, h1]; exact h3⟩

theorem separatedBy_ok (hni : NoPanic item) (hnd : NoPanic delim) (hci : Clean item) (hcd : Clean delim)
    (hpd : Progress delim) (hsi : Suffix item) {eoi s es xs r} :
    Ok (separatedBy item delim) eoi s es xs r ↔ es = [] ∧ Sep item delim eoi s xs r := by
  constructor
  · intro h
    obtain ⟨xs', r', h'⟩ := Sep.exists hni hnd hci hcd hpd hsi eoi s
    obtain ⟨rfl, rfl, rfl⟩ := h.det (separatedBy_of_sep hci hcd hpd hsi h')
    exact ⟨rfl, h'⟩
  · rintro ⟨rfl, h⟩
    exact separatedBy_of_sep hci hcd hpd hsi h

theorem separatedBy_fails (hni : NoPanic item) (hnd : NoPanic delim) (hci : Clean item) (hcd : Clean delim)
    (hpd : Progress delim) (hsi : Suffix item) {eoi s} : ¬ Fails (separatedBy item delim) eoi s := by
  intro hf
  obtain ⟨xs', r', h'⟩ := Sep.exists hni hnd hci hcd hpd hsi eoi s
  exact (separatedBy_of_sep hci hcd hpd hsi h').not_fails hf

theorem separatedBy_noPanic (hni : NoPanic item) (hnd : NoPanic delim) (hci : Clean item) (hcd : Clean delim)
    (hpd : Progress delim) (hsi : Suffix item) : NoPanic (separatedBy item delim) := by
  intro eoi s hp
  obtain ⟨xs', r', h'⟩ := Sep.exists hni hnd hci hcd hpd hsi eoi s
  obtain ⟨alt, h⟩ := separatedBy_of_sep hci hcd hpd hsi h'
  rw [hp] at h
  cases h

theorem separatedBy_clean (hni : NoPanic item) (hnd : NoPanic delim) (hci : Clean item) (hcd : Clean delim)
    (hpd : Progress delim) (hsi : Suffix item) : Clean (separatedBy item delim) := by
  constructor
  · intro eoi s es x r h
    exact ((separatedBy_ok hni hnd hci hcd hpd hsi).mp h).1
  · intro eoi s es e h
    exact absurd ⟨_, _, h⟩ (separatedBy_fails hni hnd hci hcd hpd hsi)

end sep

/-! ### Recovery -/

/-- `p` fails at every position of the skipped tokens. -/
inductive Skips (p : P τ α) (eoi : Span) : Toks τ → Toks τ → Prop
  | one {t s} : Skips p eoi (t :: s) s
  | cons {t s s'} : Fails p eoi s → Skips p eoi s s' → Skips p eoi (t :: s) s'

theorem Skips.suffix {p : P τ α} {eoi s s'} (h : Skips p eoi s s') : ∃ g, g ≠ [] ∧ s = g ++ s' := by
  induction h with
  | one => exact ⟨[_], by simp, rfl⟩
  | cons _ _ ih =>
    obtain ⟨g, _, rfl⟩ := ih
    exact ⟨_ :: g, by simp, rfl⟩

theorem skipThenRetry_ok {p : P τ α} {eoi errs fatal x r} : ∀ {s : Toks τ} {es},
    (∃ alt, skipThenRetry p eoi errs fatal s = .ok es x alt r) ↔
      ∃ s' es', Skips p eoi s s' ∧ Ok p eoi s' es' x r ∧ es = errs ++ [fatal] ++ es'
  | [], es => by
    constructor
    · rintro ⟨alt, h⟩; cases h
    · rintro ⟨s', es', h, _⟩; cases h
  | t :: s, es => by
    rw [skipThenRetry]
    cases h : p eoi s with
    | panic =>
      simp only [reduceCtorEq, exists_false, false_iff]
      rintro ⟨s', es', h1, h2, rfl⟩
      cases h1 with
      | one => obtain ⟨alt, h2⟩ := h2; rw [h] at h2; cases h2
      | cons h1 _ => obtain ⟨_, _, h1⟩ := h1; rw [h] at h1; cases h1
    | ok es' x' alt' r' =>
      simp only [Res.ok.injEq]
      constructor
      · rintro ⟨alt, rfl, rfl, rfl, rfl⟩
        exact ⟨s, es', .one, ⟨_, h⟩, rfl⟩
      · rintro ⟨s', es'', h1, h2, rfl⟩
        cases h1 with
        | one =>
          obtain ⟨rfl, rfl, rfl⟩ := h2.det ⟨_, h⟩
          exact ⟨alt', rfl, rfl, rfl, rfl⟩
        | cons h1 _ => obtain ⟨_, _, h1⟩ := h1; rw [h] at h1; cases h1
    | err es' e' =>
      simp only
      rw [skipThenRetry_ok]
      constructor
      · rintro ⟨s', es'', h1, h2, rfl⟩
        exact ⟨s', es'', .cons ⟨_, _, h⟩ h1, h2, rfl⟩
      · rintro ⟨s', es'', h1, h2, rfl⟩
        cases h1 with
        | one => obtain ⟨alt, h2⟩ := h2; rw [h] at h2; cases h2
        | cons _ h1 => exact ⟨s', es'', h1, h2, rfl⟩

theorem recoverSkip_ok {p : P τ α} {eoi s es x r} :
    Ok (recoverSkip p) eoi s es x r ↔ Ok p eoi s es x r
      ∨ ∃ es0 e s' es1, p eoi s = .err es0 e ∧ Skips p eoi s s' ∧ Ok p eoi s' es1 x r
          ∧ es = es0 ++ [e] ++ es1 := by
  unfold Ok recoverSkip
  cases h : p eoi s with
  | panic => simp
  | ok es' x' alt' r' => simp
  | err es' e' =>
    simp only [reduceCtorEq, exists_false, false_or, Res.err.injEq]
    rw [skipThenRetry_ok]
    constructor
    · rintro ⟨s', es'', h1, h2, rfl⟩
      exact ⟨_, _, s', es'', ⟨rfl, rfl⟩, h1, h2, rfl⟩
    · rintro ⟨_, _, s', es'', ⟨rfl, rfl⟩, h1, h2, rfl⟩
      exact ⟨s', es'', h1, h2, rfl⟩

theorem skipThenRetry_noPanic {p : P τ α} (hp : NoPanic p) {eoi errs fatal} :
    ∀ s : Toks τ, skipThenRetry p eoi errs fatal s ≠ .panic
  | [] => by simp [skipThenRetry]
  | t :: s => by
    rw [skipThenRetry]
    have := hp eoi s
    split
    · contradiction
    · simp
    · exact skipThenRetry_noPanic hp s

theorem recoverSkip_noPanic' {p : P τ α} (hp : NoPanic p) : NoPanic (recoverSkip p) := by
  intro eoi s
  unfold recoverSkip
  have := hp eoi s
  split
  · contradiction
  · simp
  · exact skipThenRetry_noPanic hp s

/-- Recovery gives up iff `p` fails everywhere. -/
theorem recoverSkip_fails {p : P τ α} (hp : NoPanic p) {eoi s} :
    Fails (recoverSkip p) eoi s ↔ Fails p eoi s ∧ ∀ s', Skips p eoi s s' → Fails p eoi s' := by
  constructor
  · intro hf
    have h1 : Fails p eoi s := by
      rcases hp.cases eoi s with ⟨es, x, r, h⟩ | h
      · exact absurd hf (recoverSkip_ok.mpr (.inl h)).not_fails
      · exact h
    refine ⟨h1, ?_⟩
    intro s' hs
    rcases hp.cases eoi s' with ⟨es, x, r, h⟩ | h
    · obtain ⟨es0, e, h1⟩ := h1
      exact absurd hf (recoverSkip_ok.mpr (.inr ⟨es0, e, s', es, h1, hs, h, rfl⟩)).not_fails
    · exact h
  · rintro ⟨⟨es0, e, h1⟩, h2⟩
    rcases (recoverSkip_noPanic' hp).cases eoi s with ⟨es, x, r, h⟩ | h
    · rcases recoverSkip_ok.mp h with h | ⟨_, _, s', es1, _, h3, h4, _⟩
      · exact absurd ⟨_, _, h1⟩ h.not_fails
      · exact absurd (h2 s' h3) h4.not_fails
    · exact h

end HyperIR
