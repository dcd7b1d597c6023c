import Verif.Proofs.LexErrors
import Verif.Spec.Unread
import Verif.Spec.Flow

/-
Texts at whose end there is text that is no token: the tokenizer (src/hir_tokenizer.rs:48-147) then fails, and
its last error is the one about that text.
-/

namespace HyperIR
open Spec

section
set_option linter.unusedSectionVars false
variable {α β γ : Type}

/-! ### How far the errors of successful parsers reach -/

/-- The number of characters behind the colons at the start. -/
def behindColons (s : Toks Char) : Nat := (s.dropWhile fun t => decide (t.1 = ':')).length

theorem behindColons_le (s : Toks Char) : behindColons s ≤ s.length := by
  unfold behindColons
  induction s with
  | nil => simp
  | cons t s ih =>
    rw [List.dropWhile_cons]
    split
    · exact Nat.le_succ_of_le ih
    · exact Nat.le_refl _

theorem behindColons_mono (l r : Toks Char) : behindColons r ≤ behindColons (l ++ r) := by
  induction l with
  | nil => exact Nat.le_refl _
  | cons t l ih =>
    by_cases h : t.1 = ':'
    · have : behindColons (t :: l ++ r) = behindColons (l ++ r) := by
        simp [behindColons, List.dropWhile_cons, h]
      omega
    · have : behindColons (t :: l ++ r) = (t :: l ++ r).length := by
        simp [behindColons, List.dropWhile_cons, h]
      have := behindColons_le r
      simp only [List.cons_append, List.length_cons, List.length_append] at *
      omega

/-- The error is not located behind the colons at the start of `s`. -/
def Near (s : Toks Char) (e : LErr Char) : Prop := behindColons s ≤ e.rem

theorem Near.mono {l r : Toks Char} {e} (h : Near (l ++ r) e) : Near r e :=
  Nat.le_trans (behindColons_mono l r) h

theorem near_here {eoi : Span} {s : Toks Char} {x} : Near s (unexpectedAt eoi s x) := behindColons_le s

theorem near_maxErr {s : Toks Char} {e : LErr Char} {a} (h : Near s e) (h' : ∀ x, a = some x → Near s x) : Near s (maxErr e a) := by
  cases a with
  | none => exact h
  | some x =>
    simp only [maxErr]
    split
    · exact h
    · split
      · exact h' x rfl
      · exact h

theorem near_mergeAlts {s : Toks Char} {a b : Option (LErr Char)} (h : ∀ x, a = some x → Near s x) (h' : ∀ x, b = some x → Near s x) :
    ∀ x, mergeAlts a b = some x → Near s x := by
  intro x hx
  cases b with
  | none => exact h x hx
  | some y => cases hx; exact near_maxErr (h' y rfl) h

/-- If the parser succeeds, no error it met reaches further than the colons behind what was read. -/
def AltNear (p : P Char α) : Prop :=
  ∀ {eoi s es x alt r}, p eoi s = .ok es x alt r → (∃ l, s = l ++ r) ∧ ∀ a, alt = some a → Near r a

/-- If the parser fails, its error does not reach further than the colons ahead. -/
def ErrNear (p : P Char α) : Prop := ∀ {eoi s es e}, p eoi s = .err es e → Near s e

theorem altNear_satisfy {f : Char → Bool} {x} : AltNear (satisfy f x) := by
  intro eoi s es y alt r h
  cases s with
  | nil => cases h
  | cons t s =>
    obtain ⟨t, sp⟩ := t
    simp only [satisfy] at h
    split at h
    · cases h; exact ⟨⟨[_], rfl⟩, by simp⟩
    · cases h

theorem errNear_satisfy {f : Char → Bool} {x} : ErrNear (satisfy f x) := by
  intro eoi s es e h
  cases s with
  | nil => cases h; exact near_here
  | cons t s =>
    obtain ⟨t, sp⟩ := t
    simp only [satisfy] at h
    split at h
    · cases h
    · cases h; exact near_here

theorem altNear_pmap {f : α → β} {p : P Char α} (hp : AltNear p) : AltNear (pmap f p) := by
  intro eoi s es y alt r h
  simp only [pmap] at h
  split at h
  · rename_i h1; cases h; exact hp h1
  · cases h
  · cases h

theorem errNear_pmap {f : α → β} {p : P Char α} (hp : ErrNear p) : ErrNear (pmap f p) := by
  intro eoi s es e h
  simp only [pmap] at h
  split at h
  · cases h
  · rename_i h1; cases h; exact hp h1
  · cases h

theorem altNear_pmapSpan {f : α → Span → β} {p : P Char α} (hp : AltNear p) : AltNear (pmapSpan f p) := by
  intro eoi s es y alt r h
  simp only [pmapSpan] at h
  split at h
  · rename_i h1; cases h; exact hp h1
  · cases h
  · cases h

theorem altNear_pthen {p : P Char α} {q : P Char β} (hp : AltNear p) (hq : AltNear q) : AltNear (pthen p q) := by
  intro eoi s es y alt r h
  simp only [pthen] at h
  split at h
  · cases h
  · cases h
  · rename_i h1
    split at h
    · cases h
    · cases h
    · rename_i h2
      cases h
      obtain ⟨⟨l, rfl⟩, h3⟩ := hp h1
      obtain ⟨⟨l', rfl⟩, h4⟩ := hq h2
      exact ⟨⟨l ++ l', by simp⟩, near_mergeAlts (fun x hx => (h3 x hx).mono) h4⟩

theorem altNear_thenIgnore {p : P Char α} {q : P Char β} (hp : AltNear p) (hq : AltNear q) : AltNear (thenIgnore p q) :=
  altNear_pmap (altNear_pthen hp hq)

theorem altNear_ignoreThen {p : P Char α} {q : P Char β} (hp : AltNear p) (hq : AltNear q) : AltNear (ignoreThen p q) :=
  altNear_pmap (altNear_pthen hp hq)

theorem altNear_por {p q : P Char α} (hc : Clean p) (hp : AltNear p) (hq : AltNear q) (he : ErrNear p) : AltNear (por p q) := by
  intro eoi s es y alt r h
  simp only [por] at h
  split at h
  · cases h
  · rename_i h1; cases h; exact hp h1
  · rename_i h1
    exact absurd (hc.1 ⟨_, h1⟩) (by simp)
  · rename_i h1
    split at h
    · cases h
    · rename_i h2
      cases h
      obtain ⟨⟨l, rfl⟩, h3⟩ := hq h2
      exact ⟨⟨l, rfl⟩, near_mergeAlts h3 (fun x hx => by cases hx; exact (he h1).mono)⟩
    · split at h
      · cases h
      · split at h <;> cases h

theorem altNear_repeatLoop {p : P Char α} (hp : AltNear p) (he : ErrNear p) {eoi : Span} {whole : Toks Char} :
    ∀ {fuel old errs outs alt s es xs alt' r}, (∃ l, whole = l ++ s) → (∀ a, alt = some a → Near s a) →
      repeatLoop p 0 eoi fuel old errs outs alt s = .ok es xs alt' r → (∃ l, whole = l ++ r) ∧ ∀ a, alt' = some a → Near r a := by
  intro fuel
  induction fuel with
  | zero => intro old errs outs alt s es xs alt' r _ _ h; cases h
  | succ fuel ih =>
    intro old errs outs alt s es xs alt' r hl ha h
    rw [repeatLoop] at h
    split at h
    · cases h
    · rename_i h1
      split at h
      · cases h
      · obtain ⟨⟨l, rfl⟩, h2⟩ := hp h1
        obtain ⟨l', rfl⟩ := hl
        exact ih ⟨l' ++ l, by simp⟩ (near_mergeAlts (fun x hx => (ha x hx).mono) h2) h
    · rename_i h1
      simp only [Nat.not_lt_zero, if_false] at h
      cases h
      exact ⟨hl, near_mergeAlts ha (fun x hx => by cases hx; exact he h1)⟩

theorem altNear_repeated {p : P Char α} (hp : AltNear p) (he : ErrNear p) : AltNear (repeated p) := by
  intro eoi s es y alt r h
  exact altNear_repeatLoop hp he ⟨[], rfl⟩ (by simp) h

theorem altNear_takeUntil {p : P Char α} (hp : AltNear p) (he : ErrNear p) {eoi : Span} {whole : Toks Char} :
    ∀ {s : Toks Char} {outs alt es x alt' r}, (∃ l, whole = l ++ s) → (∀ a, alt = some a → Near s a) →
      takeUntil p eoi outs alt s = .ok es x alt' r → (∃ l, whole = l ++ r) ∧ ∀ a, alt' = some a → Near r a := by
  intro s
  induction s with
  | nil =>
    intro outs alt es x alt' r hl ha h
    rw [takeUntil] at h
    split at h
    · cases h
    · rename_i h1
      cases h
      obtain ⟨⟨l, hr⟩, h2⟩ := hp h1
      obtain ⟨l', rfl⟩ := hl
      obtain ⟨rfl, rfl⟩ := List.append_eq_nil_iff.mp hr.symm
      exact ⟨⟨l', rfl⟩, near_mergeAlts ha h2⟩
    · cases h
  | cons t s ih =>
    obtain ⟨t, sp⟩ := t
    intro outs alt es x alt' r hl ha h
    rw [takeUntil] at h
    split at h
    · cases h
    · rename_i h1
      cases h
      obtain ⟨⟨l, hr⟩, h2⟩ := hp h1
      obtain ⟨l', rfl⟩ := hl
      exact ⟨⟨l' ++ l, by rw [hr]; simp⟩, near_mergeAlts (fun x hx => (hr ▸ ha x hx : Near (l ++ _) x).mono) h2⟩
    · rename_i h1
      obtain ⟨l', rfl⟩ := hl
      exact ih ⟨l' ++ [(t, sp)], by simp⟩ (near_mergeAlts (fun x hx => (ha x hx).mono (l := [(t, sp)]))
        (fun x hx => by cases hx; exact (he h1).mono (l := [(t, sp)]))) h

theorem altNear_choice {ps : List (P Char α)} (h : ∀ p ∈ ps, AltNear p) : ∀ {alt}, AltNear (choice alt ps) := by
  induction ps with
  | nil =>
    intro alt eoi s es y al r h
    cases alt <;> cases h
  | cons p ps ih =>
    intro alt eoi s es y al r hr
    simp only [choice] at hr
    split at hr
    · cases hr
    · rename_i h1; cases hr; exact h p (by simp) h1
    · exact ih (fun q hq => h q (by simp [hq])) hr

theorem altNear_skipThenRetry {p : P Char α} (hp : AltNear p) {eoi : Span} {errs fatal} {whole : Toks Char} : ∀ {s : Toks Char} {es x alt r},
    (∃ l, whole = l ++ s) → skipThenRetry p eoi errs fatal s = .ok es x alt r → (∃ l, whole = l ++ r) ∧ ∀ a, alt = some a → Near r a := by
  intro s
  induction s with
  | nil => intro es x alt r _ h; cases h
  | cons t s ih =>
    intro es x alt r hl h
    obtain ⟨l, rfl⟩ := hl
    rw [skipThenRetry] at h
    split at h
    · cases h
    · rename_i h1
      cases h
      obtain ⟨⟨l', rfl⟩, h2⟩ := hp h1
      exact ⟨⟨l ++ t :: l', by simp⟩, h2⟩
    · exact ih ⟨l ++ [t], by simp⟩ h

theorem altNear_recoverSkip {p : P Char α} (hp : AltNear p) : AltNear (recoverSkip p) := by
  intro eoi s es y alt r h
  simp only [recoverSkip] at h
  split at h
  · cases h
  · rename_i h1; cases h; exact hp h1
  · exact altNear_skipThenRetry hp ⟨[], rfl⟩ h

/-! ### The tokens -/

theorem altNear_rewind {p : P Char α} (h : ∀ {eoi s es x alt r}, p eoi s = .ok es x alt r → ∀ a, alt = some a → Near s a) : AltNear (rewind p) := by
  intro eoi s es y alt r hr
  simp only [rewind] at hr
  split at hr
  · cases hr
  · rename_i h1; cases hr; exact ⟨⟨[], rfl⟩, h h1⟩
  · cases hr

theorem errNear_rewind {p : P Char α} (h : ErrNear p) : ErrNear (rewind p) := by
  intro eoi s es e hr
  simp only [rewind] at hr
  split at hr
  · cases hr
  · cases hr
  · rename_i h1; cases hr; exact h h1

theorem errNear_pend : ErrNear (pend : P Char Unit) := by
  intro eoi s es e h
  cases s with
  | nil => cases h
  | cons t s => cases h; exact near_here

theorem errNear_por {p q : P Char α} (hp : ErrNear p) (hq : ErrNear q) : ErrNear (por p q) := by
  intro eoi s es e h
  simp only [por] at h
  split at h
  · cases h
  · cases h
  · split at h
    · cases h
    · cases h
    · cases h
    · split at h
      · split at h
        · cases h
        · split at h
          · cases h
          · split at h <;> cases h
      · cases h
  · rename_i h1
    split at h
    · cases h
    · cases h
    · rename_i h2
      split at h
      · cases h; exact hp h1
      · split at h
        · cases h; exact hq h2
        · cases h; exact near_maxErr (hp h1) (fun x hx => by cases hx; exact hq h2)

theorem altNear_lineEnd : AltNear (rewind (por (just '\n') (pmap (fun _ => '\n') pend)) : P Char Char) := by
  refine altNear_rewind ?_
  intro eoi s es x alt r h
  cases s with
  | nil =>
    cases h
    intro a ha
    cases ha
    exact near_here
  | cons t s =>
    obtain ⟨t, sp⟩ := t
    by_cases ht : t = '\n'
    · subst ht
      cases h
      simp
    · simp [por, just, satisfy, ht, pmap, pend, unexpectedAt] at h

theorem altNear_textInt {f : Char → Bool} : AltNear (textInt f) :=
  altNear_por (pmap_clean (pthen_clean satisfy_clean repeated_satisfy_clean))
    (altNear_pmap (altNear_pthen altNear_satisfy (altNear_repeated altNear_satisfy errNear_satisfy))) (altNear_pmap altNear_satisfy)
    (errNear_pmap (by
      intro eoi s es e h
      simp only [pthen] at h
      split at h
      · cases h
      · rename_i h1; cases h; exact errNear_satisfy h1
      · rename_i h1
        obtain ⟨alt, h2⟩ := (repeated_ok satisfy_noPanic satisfy_progress).mpr (many_satisfy_exists f [] eoi _).choose_spec.choose_spec.2
        rw [h2] at h
        cases h))

/-- What follows the colons of a name is met as an error at the latest. -/
theorem errNear_nameChar {f : Char → Bool} : ErrNear (pthen (repeated (just ':')) (pfilter f)) := by
  intro eoi s es e h
  obtain ⟨pre, r, hs, hm⟩ := many_satisfy_exists (fun x => decide (x = ':')) [some ':'] eoi s
  obtain ⟨alt, h1⟩ := (repeated_ok satisfy_noPanic satisfy_progress).mpr hm
  obtain ⟨_, pre', h2, h3, h4, h5⟩ := many_satisfy hm
  have h6 := (altNear_repeated (p := just ':') altNear_satisfy errNear_satisfy h1).2
  have hr : behindColons s = r.length := by
    have hr' : behindColons r = r.length := by
      cases r with
      | nil => rfl
      | cons t r =>
        have := h5 t.1 t.2 r rfl
        simp [behindColons, List.dropWhile_cons, this]
    rw [hs, ← hr']
    have : ∀ t ∈ pre, t.1 = ':' := by
      intro t ht
      have := h4 t.1 (List.mem_map_of_mem ht)
      simpa using this
    clear h1 hm hs h2 h3 h4
    induction pre with
    | nil => rfl
    | cons t pre ih =>
      have := ih (fun x hx => this x (by simp [hx]))
      rw [← this]
      have : t.1 = ':' := by rename_i hall; exact hall t (by simp)
      simp [behindColons, List.dropWhile_cons, this]
  have hle : ∀ a, alt = some a → Near s a := by
    intro a ha
    have := h6 a ha
    unfold Near at this ⊢
    have h7 : behindColons r = r.length := by
      have := behindColons_mono pre r
      rw [← hs, hr] at this
      have := behindColons_le r
      cases r with
      | nil => rfl
      | cons t r =>
        have := h5 t.1 t.2 r rfl
        simp [behindColons, List.dropWhile_cons, this]
    omega
  have hj : repeated (just ':') eoi s = .ok [] (pre.map Prod.fst) alt r := h1
  simp only [pthen, hj] at h
  split at h
  · cases h
  · rename_i h7
    cases h
    refine near_maxErr ?_ hle
    have : Near r _ := errNear_satisfy h7
    unfold Near at this ⊢
    have h8 : behindColons r = r.length := by
      cases r with
      | nil => rfl
      | cons t r =>
        have := h5 t.1 t.2 r rfl
        simp [behindColons, List.dropWhile_cons, this]
    omega
  · cases h

variable [Unicode]

theorem altNear_identTail : AltNear identTail :=
  altNear_pmap (altNear_repeated (altNear_pthen (altNear_repeated altNear_satisfy errNear_satisfy) altNear_satisfy) errNear_nameChar)

theorem altNear_tokenChoice : AltNear tokenChoice := by
  refine altNear_choice ?_
  have h7 (c mk) : AltNear (tSigil c mk) := altNear_pmap (altNear_pthen altNear_satisfy altNear_identTail)
  simp only [List.mem_cons, List.not_mem_nil, or_false]
  rintro q (rfl | rfl | rfl | rfl | rfl | rfl | rfl | rfl | rfl | rfl)
  · refine altNear_pmap (altNear_pthen altNear_satisfy ?_)
    intro eoi s es x alt r h
    exact altNear_takeUntil altNear_lineEnd
      (errNear_rewind (errNear_por errNear_satisfy (errNear_pmap errNear_pend))) ⟨[], rfl⟩ (by simp) h
  · exact altNear_pmap (altNear_ignoreThen (altNear_pthen altNear_satisfy altNear_satisfy) altNear_textInt)
  · exact altNear_pmap altNear_textInt
  · exact altNear_pmap (altNear_thenIgnore (altNear_ignoreThen altNear_satisfy (altNear_repeated altNear_satisfy errNear_satisfy)) altNear_satisfy)
  · exact altNear_pmap altNear_satisfy
  · exact altNear_pmap (altNear_pthen altNear_satisfy altNear_identTail)
  · exact h7 _ _
  · exact h7 _ _
  · exact h7 _ _
  · exact altNear_pmap (altNear_por satisfy_clean altNear_satisfy (altNear_thenIgnore altNear_satisfy altNear_satisfy) errNear_satisfy)

theorem altNear_blanks : AltNear blanks := altNear_repeated altNear_satisfy errNear_satisfy

theorem altNear_paddedToken : AltNear paddedToken :=
  altNear_thenIgnore (altNear_ignoreThen altNear_blanks (altNear_pmapSpan (altNear_recoverSkip altNear_tokenChoice))) altNear_blanks

/-- Two errors say the same, except for what was expected. -/
def SameBut (e e' : LErr Char) : Prop := e.rem = e'.rem ∧ e.span = e'.span ∧ e.reason = e'.reason ∧ e.found = e'.found

theorem SameBut.merge {e e' f : LErr Char} (h : SameBut e e') : SameBut (mergeErr e f) e' := h

theorem sameBut_max {e : LErr Char} {a} (h : ∀ x, a = some x → e.rem ≤ x.rem) : SameBut (maxErr e a) e := by
  cases a with
  | none => exact ⟨rfl, rfl, rfl, rfl⟩
  | some x =>
    have := h x rfl
    simp only [maxErr]
    split
    · exact ⟨rfl, rfl, rfl, rfl⟩
    · split
      · omega
      · exact ⟨rfl, rfl, rfl, rfl⟩

theorem skipThenRetry_err {p : P Char α} {eoi : Span} {errs fatal} : ∀ {s : Toks Char} {es e},
    skipThenRetry p eoi errs fatal s = .err es e → es = errs ∧ e = fatal
  | [], _, _, h => by cases h; exact ⟨rfl, rfl⟩
  | _ :: s, es, e, h => by
    rw [skipThenRetry] at h
    split at h
    · cases h
    · cases h
    · exact skipThenRetry_err h

theorem tokenChoice_empty (eoi : Span) : ∃ e, tokenChoice eoi [] = .err [] e ∧ SameBut e (lexErr eoi 0 []) := by
  refine ⟨_, rfl, ?_⟩
  exact ⟨rfl, rfl, rfl, rfl⟩

theorem charStream_length (o : Nat) (y : Str) : (charStream o y).length = y.length := by
  induction y generalizing o with
  | nil => rfl
  | cons c y ih => simp [charStream, ih]

theorem lexErr_rem {eoi : Span} {o : Nat} {x : Str} : (lexErr eoi o x).rem ≤ x.length := by
  have hl := charStream_length
  cases x with
  | nil => simp [lexErr, unexpectedAt]
  | cons c y =>
    simp only [lexErr]
    split
    · simp [unexpectedAt]
    · split
      · simp [unexpectedAt, hl]
      · simp [unexpectedAt, hl]

theorem behindColons_garbage {o : Nat} {g : Str} (hga : Garbage g []) : behindColons (charStream o g) = g.length := by
  cases g with
  | nil => rfl
  | cons c g =>
    have hc : c ≠ ':' := by
      rintro rfl
      exact garbage_head hga (by simp) (.punct ':') [':'] (g ++ []) (.punct (by decide)) (by simp)
    simp [behindColons, charStream, List.dropWhile_cons, hc, charStream_length]

/-- At text that contains no token the tokenizer reports that text. -/
theorem paddedToken_garbage {eoi : Span} {o : Nat} {b g : Str} (hb : Blank b) (hg : NoBlank g) (hga : Garbage g []) :
    ∃ es e, paddedToken eoi (charStream o (b ++ g)) = .err es e ∧ SameBut e (lexErr eoi (o + b.length) g) := by
  obtain ⟨alt, h1⟩ := blanks_charStream (eoi := eoi) (o := o) hb hg
  have hnear := (altNear_blanks h1).2
  have h2 : ∃ e, tokenChoice eoi (charStream (o + b.length) g) = .err [] e ∧ SameBut e (lexErr eoi (o + b.length) g) := by
    cases g with
    | nil => exact tokenChoice_empty eoi
    | cons c g =>
      refine ⟨_, tokenChoice_noToken ?_ (by simp), rfl, rfl, rfl, rfl⟩
      have := garbage_head hga (by simp)
      simpa using this
  obtain ⟨e, h2, h3⟩ := h2
  have h4 : ∃ es, recoverSkip tokenChoice eoi (charStream (o + b.length) g) = .err es e := by
    rcases recoverSkip_cases eoi (charStream (o + b.length) g) with ⟨t, pre, r, h5, h6, _⟩ | ⟨g', t, pre, r, _, h5, _, _, h6, _⟩ | ⟨_, e', h6⟩
    · exfalso
      obtain ⟨h7, _⟩ := charStream_split h5
      have hne : g ≠ [] := by
        rintro rfl
        have := spells_ne_nil h6.1
        exact this (List.append_eq_nil_iff.mp h7.symm).1
      exact longest_not_noToken h6 (by have := garbage_head hga hne; rw [List.append_nil, h7] at this; exact this)
    · exfalso
      rw [List.append_assoc] at h5
      obtain ⟨h7, _⟩ := charStream_split h5
      rw [show chars (pre ++ r) = chars pre ++ chars r by simp [chars]] at h7
      have hne : chars pre ++ chars r ≠ [] := by simp [spells_ne_nil h6.1]
      have := hga (chars g') (chars pre ++ chars r) h7 hne
      rw [List.append_nil] at this
      exact longest_not_noToken h6 this
    · rw [recoverSkip, h2] at h6
      have h6' := skipThenRetry_err h6
      rw [recoverSkip, h2]
      exact ⟨_, by rw [h6, h6'.2]⟩
  obtain ⟨es, h4⟩ := h4
  have h5 : pmapSpan (fun t sp => (t, sp)) (recoverSkip tokenChoice) eoi (charStream (o + b.length) g) = .err es e := by
    simp only [pmapSpan, h4]
  refine ⟨[] ++ es, maxErr e alt, ?_, ?_⟩
  · unfold paddedToken paddedBy thenIgnore ignoreThen
    simp only [pmap, pthen, h1, h5]
  · have hrem : ∀ x, alt = some x → e.rem ≤ x.rem := by
      intro x hx
      have h6 := hnear x hx
      unfold Near at h6
      rw [behindColons_garbage hga] at h6
      have h7 := h3.1
      have h8 := lexErr_rem (eoi := eoi) (o := o + b.length) (x := g)
      omega
    obtain ⟨a1, a2, a3, a4⟩ := sameBut_max hrem
    obtain ⟨b1, b2, b3, b4⟩ := h3
    exact ⟨a1.trans b1, a2.trans b2, a3.trans b3, a4.trans b4⟩

/-- What remains to be read when the tokenizer stops. -/
theorem repeated_paddedToken_alt {eoi : Span} {s : Toks Char} {es xs alt r e0 es0} (h : repeated paddedToken eoi s = .ok es xs alt r)
    (he : paddedToken eoi r = .err es0 e0) : ∃ a, alt = some (maxErr e0 a) ∧ ∀ x, a = some x → Near r x := by
  have key : ∀ {fuel old errs outs alt s es xs alt'}, (∀ a, alt = some a → Near s a) →
      repeatLoop paddedToken 0 eoi fuel old errs outs alt s = .ok es xs alt' r → ∃ a, alt' = some (maxErr e0 a) ∧ ∀ x, a = some x → Near r x := by
    intro fuel
    induction fuel with
    | zero => intro old errs outs alt s es xs alt' _ h; cases h
    | succ fuel ih =>
      intro old errs outs alt s es xs alt' ha h
      rw [repeatLoop] at h
      split at h
      · cases h
      · rename_i h1
        split at h
        · cases h
        · obtain ⟨⟨l, rfl⟩, h2⟩ := altNear_paddedToken h1
          exact ih (near_mergeAlts (fun x hx => (ha x hx).mono) h2) h
      · rename_i h1
        simp only [Nat.not_lt_zero, if_false] at h
        cases h
        rw [he] at h1
        cases h1
        exact ⟨alt, rfl, ha⟩
  exact key (by simp) h

/-- The tokenizer fails if text that contains no token remains. -/
theorem tokenize_lost {src : Str} {o : Nat} {b g : Str} {es ts} (hb : Blank b) (hg : NoBlank g) (hga : Garbage g []) (hne : b ++ g ≠ [])
    (hm : Many paddedToken { start := src.length, stop := src.length } (charStream 0 src) es ts (charStream o (b ++ g))) :
    ∃ e, tokenize src = .ok (none, es ++ [e]) ∧ e.span = (lexErr { start := src.length, stop := src.length } (o + b.length) g).span ∧
      e.reason = .unexpected ∧ e.found = (lexErr { start := src.length, stop := src.length } (o + b.length) g).found := by
  obtain ⟨es0, e0, h1, h2⟩ := paddedToken_garbage (eoi := { start := src.length, stop := src.length }) (o := o) hb hg hga
  obtain ⟨alt, h3⟩ := (repeated_ok paddedToken_noPanic paddedToken_progress).mpr hm
  obtain ⟨a, rfl, h4⟩ := repeated_paddedToken_alt h3 h1
  have hlen : behindColons (charStream o (b ++ g)) = (b ++ g).length := by
    cases b with
    | nil => exact behindColons_garbage hga
    | cons c b =>
      have hc : c ≠ ':' := by
        rcases hb c (by simp) with rfl | rfl <;> decide
      simp [behindColons, charStream, List.dropWhile_cons, hc, charStream_length]
  have hrem := lexErr_rem (eoi := { start := src.length, stop := src.length }) (o := o + b.length) (x := g)
  have hA : SameBut (maxErr e0 a) (lexErr { start := src.length, stop := src.length } (o + b.length) g) := by
    obtain ⟨a1, a2, a3, a4⟩ := sameBut_max (e := e0) (a := a) (fun x hx => by
      have h5 := h4 x hx
      unfold Near at h5
      rw [hlen, List.length_append] at h5
      have := h2.1
      omega)
    obtain ⟨b1, b2, b3, b4⟩ := h2
    exact ⟨a1.trans b1, a2.trans b2, a3.trans b3, a4.trans b4⟩
  have hun : (lexErr { start := src.length, stop := src.length } (o + b.length) g).reason = .unexpected := by
    cases g with
    | nil => rfl
    | cons c y =>
      simp only [lexErr]
      split
      · rfl
      · split <;> rfl
  have hpend : (pend : P Char Unit) { start := src.length, stop := src.length } (charStream o (b ++ g)) =
      .err [] (unexpectedAt { start := src.length, stop := src.length } (charStream o (b ++ g)) [none]) := by
    cases hbg : b ++ g with
    | nil => exact absurd hbg hne
    | cons c y => rfl
  refine ⟨maxErr (unexpectedAt { start := src.length, stop := src.length } (charStream o (b ++ g)) [none]) (some (maxErr e0 a)), ?_, ?_⟩
  · unfold tokenize parseRecovery tokenizer thenIgnore pmap pthen
    simp only [h3, hpend, List.append_nil]
  · generalize maxErr e0 a = A at hA
    obtain ⟨a1, a2, a3, a4⟩ := hA
    simp only [maxErr]
    split
    · rename_i hlt
      simp only [unexpectedAt, charStream_length, List.length_append] at hlt
      omega
    · split
      · exact ⟨a2, a3.trans hun, a4⟩
      · rename_i hlt hlt'
        simp only [unexpectedAt, charStream_length, List.length_append] at hlt hlt'
        have hb0 : b = [] := List.eq_nil_of_length_eq_zero (by omega)
        subst hb0
        cases g with
        | nil => exact absurd rfl hne
        | cons c y =>
          simp only [List.nil_append, List.length_nil, Nat.add_zero, Nat.zero_add, List.length_cons] at *
          by_cases h5 : c = '"'
          · simp only [lexErr, h5, if_true, unexpectedAt, List.length_nil] at a1
            omega
          · by_cases h6 : c = '\r'
            · simp only [lexErr, h5, h6, if_true, if_false, unexpectedAt, charStream_length] at a1
              rw [if_neg (by decide)] at a1
              simp only [charStream_length] at a1
              omega
            · simp only [lexErr, h5, h6, if_false]
              exact ⟨rfl, rfl, rfl⟩

/-! ### Texts that end in text without tokens -/

/-- Either the text ends in a token (or is blank), or in text that contains no token. -/
theorem lexes_total : ∀ (n : Nat) (o : Nat) (text : Str), text.length ≤ n →
    (∃ ts ps, LexesSkip o text ts ps) ∨ ∃ ps, LexesLost o text ps := by
  intro n
  induction n with
  | zero =>
    intro o text h
    have : text = [] := List.eq_nil_of_length_eq_zero (by omega)
    subst this
    exact .inl ⟨[], [], .done (by simp [Blank])⟩
  | succ n ih =>
    intro o text h
    obtain ⟨b, y, rfl, hb, hy⟩ := exists_blank_split text
    rcases recoverSkip_cases { start := 0, stop := 0 } (charStream 0 y) with ⟨t, pre, r, h1, h2, _⟩ | ⟨g, t, pre, r, _, h1, hg, hga, h2, _⟩ | ⟨hga, _⟩
    · obtain ⟨h3, _⟩ := charStream_split h1
      have hne := List.length_pos_iff.mpr (spells_ne_nil h2.1)
      subst h3
      rcases ih (o + b.length + (chars pre).length) (chars r) (by simp only [List.length_append] at h; omega) with ⟨ts, ps, h4⟩ | ⟨ps, h4⟩
      · exact .inl ⟨_, _, by rw [← List.append_assoc]; exact .tok hb h2 h4⟩
      · exact .inr ⟨_, by rw [← List.append_assoc]; exact .tok hb h2 h4⟩
    · rw [List.append_assoc] at h1
      obtain ⟨h3, _⟩ := charStream_split h1
      rw [show chars (pre ++ r) = chars pre ++ chars r by simp [chars]] at h3 hga
      have hne := List.length_pos_iff.mpr (spells_ne_nil h2.1)
      have hgne : chars g ≠ [] := by
        cases g with
        | nil => exact absurd rfl hg
        | cons => simp
      have hgb : ∀ c cs, chars g = c :: cs → c ≠ ' ' ∧ c ≠ '\t' := by
        intro c cs hc
        exact hy c _ (by rw [h3, hc]; rfl)
      subst h3
      rcases ih (o + b.length + (chars g).length + (chars pre).length) (chars r) (by simp only [List.length_append] at h; omega) with ⟨ts, ps, h4⟩ | ⟨ps, h4⟩
      · exact .inl ⟨_, _, by rw [← List.append_assoc, ← List.append_assoc]; exact .skip hb hgne hgb hga h2 h4⟩
      · exact .inr ⟨_, by rw [← List.append_assoc, ← List.append_assoc]; exact .skip hb hgne hgb hga h2 h4⟩
    · rw [chars_charStream] at hga
      cases y with
      | nil => exact .inl ⟨[], [], .done (by simpa using hb)⟩
      | cons c y => exact .inr ⟨_, .lost hb (by simp) hy hga⟩

/-- The error about the unrecognizable text at the given place of a text that starts at `o`. -/
def ErrorsAt (eoi : Span) (o : Nat) (text : Str) (p : Nat) (e : LErr Char) : Prop :=
  ∃ pre x, text = pre ++ x ∧ p = o + pre.length ∧ x ≠ [] ∧ NoToken x ∧ e = lexErr eoi p x

theorem ErrorsAt.before {eoi : Span} {o : Nat} {a text : Str} {p e} (h : ErrorsAt eoi (o + a.length) text p e) : ErrorsAt eoi o (a ++ text) p e := by
  obtain ⟨pre, x, rfl, h1, h2⟩ := h
  exact ⟨a ++ pre, x, by simp, by rw [h1]; simp; omega, h2⟩

theorem each_imp {α β : Type} {R S : α → β → Prop} {as bs} (h : Each R as bs) (hf : ∀ a b, R a b → S a b) : Each S as bs := by
  induction h with
  | nil => exact .nil
  | cons h1 _ ih => exact .cons (hf _ _ h1) ih

/-- The tokenizer gets as far as the text without tokens. -/
theorem lost_many {eoi : Span} {o : Nat} {text : Str} {ps} (h : LexesLost o text ps) :
    ∀ b text', text = b ++ text' → Blank b → ∃ es ts pre b1 g ps', Many paddedToken eoi (charStream (o + b.length) text') es ts
        (charStream (o + b.length + pre.length) (b1 ++ g)) ∧ text' = pre ++ (b1 ++ g) ∧ Blank b1 ∧ g ≠ [] ∧ NoBlank g ∧ Garbage g [] ∧
        ps = ps' ++ [o + b.length + pre.length + b1.length] ∧ Each (ErrorsAt eoi (o + b.length) text') ps' es := by
  induction h with
  | @lost o b0 g h1 hg hgb hga =>
    intro b text' he hb
    obtain ⟨b1, rfl, rfl⟩ := blank_split h1 hb hgb he
    have hb1 : Blank b1 := fun c hc => h1 c (by simp [hc])
    refine ⟨[], [], [], b1, g, [], .nil ?_, rfl, hb1, hg, hgb, hga, by simp [Nat.add_assoc], .nil⟩
    obtain ⟨es, e, h2, _⟩ := paddedToken_garbage (eoi := eoi) (o := o + b.length) hb1 hgb hga
    exact ⟨es, e, h2⟩
  | @tok o b0 t w rest ps h1 h2 h3 ih =>
    intro b text' he hb
    rw [List.append_assoc] at he
    obtain ⟨b1, rfl, rfl⟩ := blank_split h1 hb (spells_noBlank h2.1) he
    obtain ⟨b2, rest2, rfl, hb2, hr2⟩ := exists_blank_split rest
    obtain ⟨es, ts, pre, b3, g, ps', i1, i2, i3, i4, i5, i6, i7, i8⟩ := ih b2 rest2 rfl hb2
    have hb1 : Blank b1 := fun c hc => h1 c (by simp [hc])
    have ho : o + (b ++ b1).length + w.length + b2.length = o + b.length + (b1 ++ w ++ b2).length := by simp; omega
    rw [ho] at i1 i7 i8
    have := Many.cons (es := []) (paddedBy_ok.mpr
      ⟨[], [], [], _, _, b1, b2, blanks_charStream (eoi := eoi) (o := o + b.length) hb1 (spells_noBlank h2.1),
        pmapSpan_ok.mpr ⟨t, recoverSkip_tok (eoi := eoi) (o := o + b.length + b1.length) h2, rfl⟩,
        blanks_charStream (eoi := eoi) (o := o + b.length + b1.length + w.length) hb2 hr2, rfl⟩)
      (show Many paddedToken eoi (charStream (o + b.length + b1.length + w.length + b2.length) rest2) es ts
        (charStream (o + b.length + (b1 ++ w ++ b2 ++ pre).length) (b3 ++ g)) by
        rw [show o + b.length + b1.length + w.length + b2.length = o + b.length + (b1 ++ w ++ b2).length by simp; omega,
          show o + b.length + (b1 ++ w ++ b2 ++ pre).length = o + b.length + (b1 ++ w ++ b2).length + pre.length by simp; omega]
        exact i1)
    refine ⟨_, _, b1 ++ w ++ b2 ++ pre, b3, g, ps', this, ?_, i3, i4, i5, i6, ?_, ?_⟩
    · rw [i2]; simp
    · rw [i7]; simp; omega
    · have := each_imp i8 fun p e h => h.before (o := o + b.length) (a := b1 ++ w ++ b2)
      simpa only [List.append_assoc, List.nil_append] using this
  | @skip o b0 g t w rest ps h1 hg hgb hga h2 h3 ih =>
    intro b text' he hb
    have hnb : NoBlank (g ++ (w ++ rest)) := by
      intro c cs hc
      cases g with
      | nil => exact absurd rfl hg
      | cons d g =>
        simp only [List.cons_append, List.cons.injEq] at hc
        exact hc.1 ▸ hgb d g rfl
    rw [List.append_assoc, List.append_assoc] at he
    obtain ⟨b1, rfl, rfl⟩ := blank_split h1 hb hnb he
    obtain ⟨b2, rest2, rfl, hb2, hr2⟩ := exists_blank_split rest
    obtain ⟨es, ts, pre, b3, g', ps', i1, i2, i3, i4, i5, i6, i7, i8⟩ := ih b2 rest2 rfl hb2
    have hb1 : Blank b1 := fun c hc => h1 c (by simp [hc])
    have ho : o + (b ++ b1).length + g.length + w.length + b2.length = o + b.length + (b1 ++ g ++ w ++ b2).length := by simp; omega
    rw [ho] at i1 i7 i8
    have hrec := recoverSkip_garbage_exact (eoi := eoi) (o := o + b.length + b1.length) hg hga h2
    have := Many.cons (paddedBy_ok.mpr
      ⟨[], _, [], _, _, b1, b2, blanks_charStream (eoi := eoi) (o := o + b.length) hb1 hnb,
        pmapSpan_ok.mpr ⟨t, by rw [List.append_assoc] at hrec; exact hrec, rfl⟩,
        blanks_charStream (eoi := eoi) (o := o + b.length + b1.length + g.length + w.length) hb2 hr2, rfl⟩)
      (show Many paddedToken eoi (charStream (o + b.length + b1.length + g.length + w.length + b2.length) rest2) es ts
        (charStream (o + b.length + (b1 ++ g ++ w ++ b2 ++ pre).length) (b3 ++ g')) by
        rw [show o + b.length + b1.length + g.length + w.length + b2.length = o + b.length + (b1 ++ g ++ w ++ b2).length by simp; omega,
          show o + b.length + (b1 ++ g ++ w ++ b2 ++ pre).length = o + b.length + (b1 ++ g ++ w ++ b2).length + pre.length by simp; omega]
        exact i1)
    refine ⟨_, _, b1 ++ g ++ w ++ b2 ++ pre, b3, g', (o + b.length + b1.length) :: ps', this, ?_, i3, i4, i5, i6, ?_, .cons ⟨b1, g ++ w ++ (b2 ++ rest2), by simp, rfl, by simp [hg], ?_, ?_⟩ ?_⟩
    · rw [i2]; simp
    · rw [i7]
      simp only [List.length_append, List.cons_append]
      rw [show o + (b.length + b1.length) = o + b.length + b1.length by omega]
      simp only [Nat.add_assoc]
    · have := garbage_head hga hg
      simpa only [List.append_assoc] using this
    · simp only [List.append_assoc]
    · have := each_imp i8 fun p e h => h.before (o := o + b.length) (a := b1 ++ g ++ w ++ b2)
      simp only [List.append_assoc] at this
      exact this

/-- The error of the tokenizer about the unrecognizable text at `p`. -/
def TellsOf (text : Str) (p : Nat) (e : LErr Char) : Prop :=
  ∃ pre x, text = pre ++ x ∧ p = pre.length ∧ x ≠ [] ∧ NoToken x ∧ e.reason = .unexpected ∧
    e.span = (lexErr { start := text.length, stop := text.length } p x).span ∧
    e.found = (lexErr { start := text.length, stop := text.length } p x).found

theorem tellsOf_errorsAt {text : Str} {p e} (h : ErrorsAt { start := text.length, stop := text.length } 0 text p e) : TellsOf text p e := by
  obtain ⟨pre, x, h1, h2, h3, h4, rfl⟩ := h
  refine ⟨pre, x, h1, by omega, h3, h4, ?_, rfl, rfl⟩
  unfold lexErr
  split
  · rfl
  · split
    · rfl
    · split <;> rfl

theorem each_join {α β : Type} {R : α → β → Prop} {as bs as' bs'} (h : Each R as bs) (h' : Each R as' bs') : Each R (as ++ as') (bs ++ bs') := by
  induction h with
  | nil => exact h'
  | cons h1 _ ih => exact .cons h1 ih

/-- What the tokenizer makes of a text that ends in text without tokens. -/
theorem tokenize_lexesLost {text : Str} {ps} (h : LexesLost 0 text ps) :
    ∃ es, tokenize text = .ok (none, es) ∧ Each (TellsOf text) ps es := by
  obtain ⟨b, text', he, hb, hb'⟩ := exists_blank_split text
  obtain ⟨es, ts, pre, b1, g, ps', h1, h2, h3, h4, h5, h6, h7, h8⟩ := lost_many (eoi := { start := text.length, stop := text.length }) h [] text rfl (by simp [Blank])
  rw [List.length_nil, Nat.add_zero] at h1 h7 h8
  simp only [Nat.zero_add] at h1 h7
  obtain ⟨e, k1, k2, k3, k4⟩ := tokenize_lost h3 h5 h6 (by simp [h4]) h1
  refine ⟨_, k1, ?_⟩
  rw [h7]
  refine each_join (each_imp h8 fun _ _ => tellsOf_errorsAt) (.cons ⟨pre ++ b1, g, by rw [h2]; simp, by simp, h4, ?_, k3, k2, k4⟩ .nil)
  have := garbage_head h6 h4
  rwa [List.append_nil] at this

/-- What the tokenizer makes of a text that consists of blanks. -/
theorem tokenize_blank {text : Str} (h : Blank text) (hne : text ≠ []) :
    ∃ e, tokenize text = .ok (none, [e]) ∧ e.span = { start := text.length, stop := text.length } ∧ e.reason = .unexpected ∧ e.found = none := by
  have hga : Garbage [] [] := by
    intro g1 g2 h1 h2
    exact absurd (List.append_eq_nil_iff.mp h1.symm).2 h2
  obtain ⟨es0, e0, h1, _⟩ := paddedToken_garbage (eoi := { start := text.length, stop := text.length }) (o := 0) h (g := []) (by intro c cs hc; cases hc) hga
  obtain ⟨e, k1, k2, k3, k4⟩ := tokenize_lost h (g := []) (by intro c cs hc; cases hc) hga (by simpa using hne)
    (src := text) (o := 0) (es := []) (ts := []) (by rw [List.append_nil]; exact .nil ⟨_, _, by simpa using h1⟩)
  exact ⟨e, k1, by rw [k2]; rfl, k3, by rw [k4]; rfl⟩

/-- What the tokenizer makes of a text that does not end in text without tokens. -/
theorem tokenize_lexesSkip {text : Str} {toks ps} (h : LexesSkip 0 text toks ps) (hne : toks ≠ [] ∨ text = []) :
    ∃ es, tokenize text = .ok (some toks, es) ∧ Each (TellsOf text) ps es := by
  have key : ∀ {o : Nat} {text' : Str} {ts ps}, LexesSkip o text' ts ps →
      ∃ es, LexesWith { start := text.length, stop := text.length } o text' ts es ∧
        Each (ErrorsAt { start := text.length, stop := text.length } o text') ps es := by
    intro o text' ts ps h
    induction h with
    | done h => exact ⟨[], .done h, .nil⟩
    | @tok o b t w rest ts ps h1 h2 h3 ih =>
      obtain ⟨es, i1, i2⟩ := ih
      refine ⟨es, .tok h1 h2 i1, each_imp i2 fun p e h => ?_⟩
      exact ErrorsAt.before (a := b ++ w) (by rwa [List.length_append, ← Nat.add_assoc])
    | @skip o b g t w rest ts ps h1 hg hgb hga h2 h3 ih =>
      obtain ⟨es, i1, i2⟩ := ih
      refine ⟨_, .skip h1 hg hgb hga h2 i1, .cons ⟨b, g ++ w ++ rest, by simp, rfl, by simp [hg], ?_, rfl⟩ (each_imp i2 fun p e h => ?_)⟩
      · rw [List.append_assoc]; exact garbage_head hga hg
      · exact ErrorsAt.before (a := b ++ g ++ w) (by rwa [List.length_append, List.length_append, ← Nat.add_assoc, ← Nat.add_assoc])
  obtain ⟨es, h1, h2⟩ := key h
  exact ⟨es, tokenize_exact.mpr ⟨h1, hne⟩, each_imp h2 fun _ _ => tellsOf_errorsAt⟩

/-- The three possibilities. -/
theorem tokenize_described (text : Str) :
    (∃ toks ps, LexesSkip 0 text toks ps ∧ (toks ≠ [] ∨ text = [])) ∨ (Blank text ∧ text ≠ []) ∨ ∃ ps, LexesLost 0 text ps := by
  rcases lexes_total _ 0 text (Nat.le_refl _) with ⟨ts, ps, h⟩ | h
  · cases ts with
    | cons t ts => exact .inl ⟨_, _, h, .inl (by simp)⟩
    | nil =>
      by_cases ht : text = []
      · exact .inl ⟨_, _, h, .inr ht⟩
      · generalize hx : ([] : List (Spanned Token)) = ts at h
        cases h with
        | done h => exact .inr (.inl ⟨h, ht⟩)
        | tok => cases hx
        | skip => cases hx
  · exact .inr (.inr h)

end
end HyperIR
