import Verif.Model.Parser

/-! Where errors are located and what they say: every error of the tokenizer and of the parser has a range of the input or
is at the end of the input, and its message is one of a few. -/

namespace HyperIR

section
variable {τ α β γ : Type} [DecidableEq τ] {N : Nat} {eoi : Span} {S : List Str}

/-- The error is inside the first `N` characters or at the end of input, and its message is one of `S`. -/
structure ErrOk (N : Nat) (eoi : Span) (S : List Str) (e : LErr τ) : Prop where
  span : e.span = eoi ∨ (e.span.start ≤ e.span.stop ∧ e.span.stop ≤ N)
  msg : ∀ m, e.reason = .custom m → m ∈ S

/-- The input has proper ranges, in order. -/
structure InputOk (N : Nat) (s : Toks τ) : Prop where
  inside : ∀ t ∈ s, t.2.start ≤ t.2.stop ∧ t.2.stop ≤ N
  order : s.Pairwise fun a b => a.2.stop ≤ b.2.start

omit [DecidableEq τ] in
theorem InputOk.suffix {s r : Toks τ} (h : InputOk N s) (hr : r <:+ s) : InputOk N r :=
  ⟨fun t ht => h.inside t (hr.subset ht), h.order.sublist hr.sublist⟩

/-- All errors in a result are good, and the rest is a rest of the input. -/
def SafeRes (N : Nat) (eoi : Span) (S : List Str) (s : Toks τ) : Res τ α → Prop
  | .panic => True
  | .ok es _ alt r => r <:+ s ∧ (∀ e ∈ es, ErrOk N eoi S e) ∧ (∀ e, alt = some e → ErrOk N eoi S e)
  | .err es e => (∀ e ∈ es, ErrOk N eoi S e) ∧ ErrOk N eoi S e

def Safe (N : Nat) (eoi : Span) (S : List Str) (p : P τ α) : Prop := ∀ s, InputOk N s → SafeRes N eoi S s (p eoi s)

omit [DecidableEq τ] in
theorem headSpan_ok {s : Toks τ} (h : InputOk N s) :
    headSpan eoi s = eoi ∨ ((headSpan eoi s).start ≤ (headSpan eoi s).stop ∧ (headSpan eoi s).stop ≤ N) := by
  cases s with
  | nil => exact .inl rfl
  | cons t s => exact .inr (h.inside t (by simp))

omit [DecidableEq τ] in
theorem spanSince_ok {s r : Toks τ} (h : InputOk N s) :
    spanSince eoi s r = eoi ∨ ((spanSince eoi s r).start ≤ (spanSince eoi s r).stop ∧ (spanSince eoi s r).stop ≤ N) := by
  cases s with
  | nil => left; simp [spanSince, headSpan]
  | cons t s =>
    right
    have hlt : (t :: s).length - r.length - 1 < (t :: s).length := by simp; omega
    simp only [spanSince, headSpan]
    rw [List.getElem?_eq_getElem hlt]
    have hm := List.getElem_mem hlt
    have h1 := h.inside _ hm
    refine ⟨?_, h1.2⟩
    rcases List.mem_cons.mp hm with he | hm
    · rw [he]; exact (h.inside t (by simp)).1
    · have h2 := (List.pairwise_cons.mp h.order).1 _ hm
      have h3 := h.inside t (by simp)
      show t.2.start ≤ _
      simp only at *
      omega

omit [DecidableEq τ] in
theorem unexpectedAt_ok {s : Toks τ} (h : InputOk N s) (x : List (Option τ)) : ErrOk N eoi S (unexpectedAt eoi s x) :=
  ⟨headSpan_ok h, by intro m h; cases h⟩

omit [DecidableEq τ] in
theorem customAt_ok {s : Toks τ} (h : InputOk N s) {msg : Str} (hm : msg ∈ S) : ErrOk N eoi S (customAt eoi s msg) :=
  ⟨headSpan_ok h, by intro m h; cases h; exact hm⟩

theorem mergeErr_ok {a b : LErr τ} (ha : ErrOk N eoi S a) : ErrOk N eoi S (mergeErr a b) := ⟨ha.span, ha.msg⟩

theorem maxErr_ok {a : LErr τ} {o : Option (LErr τ)} (ha : ErrOk N eoi S a) (ho : ∀ e, o = some e → ErrOk N eoi S e) :
    ErrOk N eoi S (maxErr a o) := by
  cases o with
  | none => exact ha
  | some b =>
    unfold maxErr
    simp only
    split
    · exact ha
    · split
      · exact ho b rfl
      · exact mergeErr_ok ha

theorem mergeAlts_ok {a o : Option (LErr τ)} (ha : ∀ e, a = some e → ErrOk N eoi S e) (ho : ∀ e, o = some e → ErrOk N eoi S e) :
    ∀ e, mergeAlts a o = some e → ErrOk N eoi S e := by
  intro e h
  cases o with
  | none => exact ha e h
  | some b =>
    simp only [mergeAlts, Option.some.injEq] at h
    subst h
    exact maxErr_ok (ho b rfl) ha

omit [DecidableEq τ] in
theorem append_ok {a b : List (LErr τ)} (ha : ∀ e ∈ a, ErrOk N eoi S e) (hb : ∀ e ∈ b, ErrOk N eoi S e) :
    ∀ e ∈ a ++ b, ErrOk N eoi S e := by
  intro e he
  rcases List.mem_append.mp he with h | h
  · exact ha e h
  · exact hb e h

omit [DecidableEq τ] in
theorem none_ok : ∀ e : LErr τ, none = some e → ErrOk N eoi S e := by intro e h; cases h

omit [DecidableEq τ] in
theorem some_ok {a : LErr τ} (h : ErrOk N eoi S a) : ∀ e : LErr τ, some a = some e → ErrOk N eoi S e := by
  intro e he; cases he; exact h

omit [DecidableEq τ] in
theorem nil_ok : ∀ e ∈ ([] : List (LErr τ)), ErrOk N eoi S e := by simp

omit [DecidableEq τ] in
theorem safe_satisfy (f : τ → Bool) (x : List (Option τ)) : Safe N eoi S (satisfy f x) := by
  intro s h
  cases s with
  | nil => exact ⟨nil_ok, unexpectedAt_ok h _⟩
  | cons t s =>
    unfold satisfy
    simp only
    split
    · exact ⟨List.suffix_cons _ _, nil_ok, none_ok⟩
    · exact ⟨nil_ok, unexpectedAt_ok h _⟩

omit [DecidableEq τ] in
theorem safe_pfilterMap {f : τ → Span → Option α} {msg : Str} (hm : msg ∈ S) : Safe N eoi S (pfilterMap f msg) := by
  intro s h
  cases s with
  | nil => exact ⟨nil_ok, unexpectedAt_ok h _⟩
  | cons t s =>
    unfold pfilterMap
    simp only
    split
    · exact ⟨List.suffix_cons _ _, nil_ok, none_ok⟩
    · exact ⟨nil_ok, customAt_ok h hm⟩

omit [DecidableEq τ] in
theorem safe_pend : Safe N eoi S (pend : P τ Unit) := by
  intro s h
  cases s with
  | nil => exact ⟨List.suffix_refl _, nil_ok, none_ok⟩
  | cons t s => exact ⟨nil_ok, unexpectedAt_ok h _⟩

omit [DecidableEq τ] in
theorem safe_pmap {f : α → β} {p : P τ α} (hp : Safe N eoi S p) : Safe N eoi S (pmap f p) := by
  intro s h
  have := hp s h
  unfold pmap
  cases h1 : p eoi s with
  | panic => trivial
  | ok es x alt r => rw [h1] at this; exact this
  | err es e => rw [h1] at this; exact this

omit [DecidableEq τ] in
theorem safe_pmapOutcome {f : α → Outcome β} {p : P τ α} (hp : Safe N eoi S p) : Safe N eoi S (pmapOutcome f p) := by
  intro s h
  have := hp s h
  unfold pmapOutcome
  cases h1 : p eoi s with
  | panic => trivial
  | ok es x alt r =>
    rw [h1] at this
    simp only
    cases f x with
    | panic => trivial
    | ok b => exact this
  | err es e => rw [h1] at this; exact this

omit [DecidableEq τ] in
theorem safe_pmapSpan {f : α → Span → β} {p : P τ α} (hp : Safe N eoi S p) : Safe N eoi S (pmapSpan f p) := by
  intro s h
  have := hp s h
  unfold pmapSpan
  cases h1 : p eoi s with
  | panic => trivial
  | ok es x alt r => rw [h1] at this; exact this
  | err es e => rw [h1] at this; exact this

theorem safe_pthen {a : P τ α} {b : P τ β} (ha : Safe N eoi S a) (hb : Safe N eoi S b) : Safe N eoi S (pthen a b) := by
  intro s h
  have h1 := ha s h
  unfold pthen
  cases h2 : a eoi s with
  | panic => trivial
  | err es e => rw [h2] at h1; exact h1
  | ok es x alt r =>
    rw [h2] at h1
    obtain ⟨h3, h4, h5⟩ := h1
    have h6 := hb r (h.suffix h3)
    simp only
    cases h7 : b eoi r with
    | panic => trivial
    | err es' e => rw [h7] at h6; exact ⟨append_ok h4 h6.1, maxErr_ok h6.2 h5⟩
    | ok es' y alt' r' =>
      rw [h7] at h6
      exact ⟨h6.1.trans h3, append_ok h4 h6.2.1, mergeAlts_ok h5 h6.2.2⟩

theorem safe_thenIgnore {a : P τ α} {b : P τ β} (ha : Safe N eoi S a) (hb : Safe N eoi S b) : Safe N eoi S (thenIgnore a b) :=
  safe_pmap (safe_pthen ha hb)

theorem safe_ignoreThen {a : P τ α} {b : P τ β} (ha : Safe N eoi S a) (hb : Safe N eoi S b) : Safe N eoi S (ignoreThen a b) :=
  safe_pmap (safe_pthen ha hb)

theorem safe_por {a b : P τ α} (ha : Safe N eoi S a) (hb : Safe N eoi S b) : Safe N eoi S (por a b) := by
  intro s h
  have h1 := ha s h
  have h2 := hb s h
  unfold por
  revert h1 h2
  generalize a eoi s = ra
  generalize b eoi s = rb
  intro h1 h2
  split
  · trivial
  · exact h1
  · split
    · trivial
    · exact h2
    · exact ⟨h1.1, h1.2.1, mergeAlts_ok h1.2.2 (some_ok h2.2)⟩
    · split
      · split
        · exact h2
        · split
          · exact h1
          · split
            · exact h2
            · exact h1
      · exact h1
  · split
    · trivial
    · exact ⟨h2.1, h2.2.1, mergeAlts_ok h2.2.2 (some_ok h1.2)⟩
    · split
      · exact h1
      · split
        · exact h2
        · exact ⟨h1.1, maxErr_ok h1.2 (some_ok h2.2)⟩

theorem safe_choice : ∀ {ps : List (P τ α)} {alt : Option (LErr τ)}, (∀ e, alt = some e → ErrOk N eoi S e) →
    (∀ p ∈ ps, Safe N eoi S p) → Safe N eoi S (choice alt ps)
  | [], alt, ha, _ => by
    intro s h
    unfold choice
    cases alt with
    | none => exact ⟨nil_ok, unexpectedAt_ok h _⟩
    | some e => exact ⟨nil_ok, ha e rfl⟩
  | p :: ps, alt, ha, hps => by
    intro s h
    have h1 := hps p (by simp) s h
    unfold choice
    cases h2 : p eoi s with
    | panic => trivial
    | ok es x al r => rw [h2] at h1; exact h1
    | err es e =>
      rw [h2] at h1
      exact safe_choice (mergeAlts_ok ha (some_ok h1.2)) (fun q hq => hps q (by simp [hq])) s h

omit [DecidableEq τ] in
theorem safe_orNot {p : P τ α} (hp : Safe N eoi S p) : Safe N eoi S (orNot p) := by
  intro s h
  have h1 := hp s h
  unfold orNot
  cases h2 : p eoi s with
  | panic => trivial
  | ok es x al r => rw [h2] at h1; exact h1
  | err es e => rw [h2] at h1; exact ⟨List.suffix_refl _, nil_ok, some_ok h1.2⟩

omit [DecidableEq τ] in
theorem safe_rewind {p : P τ α} (hp : Safe N eoi S p) : Safe N eoi S (rewind p) := by
  intro s h
  have h1 := hp s h
  unfold rewind
  cases h2 : p eoi s with
  | panic => trivial
  | ok es x al r => rw [h2] at h1; exact ⟨List.suffix_refl _, h1.2⟩
  | err es e => rw [h2] at h1; exact h1

omit [DecidableEq τ] in
theorem safe_pnot {p : P τ α} : Safe N eoi S (pnot p) := by
  intro s h
  unfold pnot
  cases h2 : p eoi s with
  | panic => trivial
  | ok es x al r => exact ⟨nil_ok, unexpectedAt_ok h _⟩
  | err es e =>
    cases s with
    | nil => exact ⟨nil_ok, unexpectedAt_ok h _⟩
    | cons t s => exact ⟨List.suffix_cons _ _, nil_ok, none_ok⟩

theorem safe_validate {f : α → Option Str} {p : P τ α} (hp : Safe N eoi S p) (hf : ∀ a m, f a = some m → m ∈ S) :
    Safe N eoi S (validate f p) := by
  intro s h
  have h1 := hp s h
  unfold validate
  cases h2 : p eoi s with
  | panic => trivial
  | err es e => rw [h2] at h1; exact h1
  | ok es x al r =>
    rw [h2] at h1
    simp only
    cases h3 : f x with
    | none => exact h1
    | some m =>
      refine ⟨h1.1, append_ok h1.2.1 ?_, h1.2.2⟩
      intro e he
      simp only [List.mem_singleton] at he
      subst he
      exact ⟨spanSince_ok h, by intro m' hm'; cases hm'; exact hf x m h3⟩

theorem safe_repeatLoop {p : P τ α} (hp : Safe N eoi S p) {n : Nat} {s : Toks τ} : ∀ {fuel : Nat} {old : Option Nat} {errs : List (LErr τ)} {outs : List α}
    {alt : Option (LErr τ)} {s' : Toks τ}, InputOk N s' → s' <:+ s → (∀ e ∈ errs, ErrOk N eoi S e) → (∀ e, alt = some e → ErrOk N eoi S e) →
    SafeRes N eoi S s (repeatLoop p n eoi fuel old errs outs alt s')
  | 0, _, _, _, _, _, _, _, _, _ => trivial
  | fuel + 1, old, errs, outs, alt, s', h, hs, he, ha => by
    have h1 := hp s' h
    unfold repeatLoop
    cases h2 : p eoi s' with
    | panic => trivial
    | ok es x al r =>
      rw [h2] at h1
      simp only
      split
      · trivial
      · exact safe_repeatLoop hp (h.suffix h1.1) (h1.1.trans hs) (append_ok he h1.2.1) (mergeAlts_ok ha h1.2.2)
    | err es e =>
      rw [h2] at h1
      simp only
      split
      · exact ⟨append_ok he h1.1, h1.2⟩
      · exact ⟨hs, he, mergeAlts_ok ha (some_ok h1.2)⟩

theorem safe_repeatedAtLeast {n : Nat} {p : P τ α} (hp : Safe N eoi S p) : Safe N eoi S (repeatedAtLeast n p) := fun _ h =>
  safe_repeatLoop hp h (List.suffix_refl _) nil_ok none_ok

theorem safe_repeated {p : P τ α} (hp : Safe N eoi S p) : Safe N eoi S (repeated p) := safe_repeatedAtLeast hp

theorem safe_sepLoop {item : P τ α} {delim : P τ β} (hi : Safe N eoi S item) (hd : Safe N eoi S delim) {s : Toks τ} :
    ∀ {fuel : Nat} {errs : List (LErr τ)} {outs : List α} {alt : Option (LErr τ)} {s' : Toks τ}, InputOk N s' → s' <:+ s →
    (∀ e ∈ errs, ErrOk N eoi S e) → (∀ e, alt = some e → ErrOk N eoi S e) → SafeRes N eoi S s (sepLoop item delim eoi fuel errs outs alt s')
  | 0, _, _, _, _, _, _, _, _ => trivial
  | fuel + 1, errs, outs, alt, s', h, hs, he, ha => by
    have h1 := hd s' h
    unfold sepLoop
    cases h2 : delim eoi s' with
    | panic => trivial
    | err es e => rw [h2] at h1; exact ⟨hs, append_ok he h1.1, mergeAlts_ok ha (some_ok h1.2)⟩
    | ok es x al r =>
      rw [h2] at h1
      have h3 := hi r (h.suffix h1.1)
      simp only
      cases h4 : item eoi r with
      | panic => trivial
      | err es' e =>
        rw [h4] at h3
        exact ⟨hs, append_ok (append_ok he h1.2.1) h3.1, mergeAlts_ok (mergeAlts_ok ha h1.2.2) (some_ok h3.2)⟩
      | ok es' y al' r' =>
        rw [h4] at h3
        exact safe_sepLoop hi hd ((h.suffix h1.1).suffix h3.1) ((h3.1.trans h1.1).trans hs)
          (append_ok (append_ok he h1.2.1) h3.2.1) (mergeAlts_ok (mergeAlts_ok ha h1.2.2) h3.2.2)

theorem safe_separatedBy {item : P τ α} {delim : P τ β} (hi : Safe N eoi S item) (hd : Safe N eoi S delim) :
    Safe N eoi S (separatedBy item delim) := by
  intro s h
  have h1 := hi s h
  unfold separatedBy
  cases h2 : item eoi s with
  | panic => trivial
  | err es e => rw [h2] at h1; exact ⟨List.suffix_refl _, h1.1, some_ok h1.2⟩
  | ok es x al r => rw [h2] at h1; exact safe_sepLoop hi hd (h.suffix h1.1) h1.1 h1.2.1 h1.2.2

theorem safe_delimitedBy {l : P τ β} {r : P τ γ} {p : P τ α} (hl : Safe N eoi S l) (hr : Safe N eoi S r) (hp : Safe N eoi S p) :
    Safe N eoi S (delimitedBy l r p) := safe_thenIgnore (safe_ignoreThen hl hp) hr

theorem safe_paddedBy {l : P τ β} {p : P τ α} (hl : Safe N eoi S l) (hp : Safe N eoi S p) :
    Safe N eoi S (paddedBy l p) := safe_thenIgnore (safe_ignoreThen hl hp) hl

theorem safe_takeUntil {p : P τ α} (hp : Safe N eoi S p) {s : Toks τ} : ∀ {s' : Toks τ} {outs : List τ} {alt : Option (LErr τ)}, InputOk N s' → s' <:+ s →
    (∀ e, alt = some e → ErrOk N eoi S e) → SafeRes N eoi S s (takeUntil p eoi outs alt s')
  | [], outs, alt, h, hs, ha => by
    have h1 := hp [] h
    unfold takeUntil
    cases h2 : p eoi [] with
    | panic => trivial
    | ok es x al r => rw [h2] at h1; exact ⟨h1.1.trans hs, h1.2.1, mergeAlts_ok ha h1.2.2⟩
    | err es e => rw [h2] at h1; exact h1
  | t :: s', outs, alt, h, hs, ha => by
    have h1 := hp (t :: s') h
    unfold takeUntil
    cases h2 : p eoi (t :: s') with
    | panic => trivial
    | ok es x al r => rw [h2] at h1; exact ⟨h1.1.trans hs, h1.2.1, mergeAlts_ok ha h1.2.2⟩
    | err es e =>
      rw [h2] at h1
      exact safe_takeUntil hp (h.suffix (List.suffix_cons _ _)) ((List.suffix_cons _ _).trans hs) (mergeAlts_ok ha (some_ok h1.2))

theorem safe_skipThenRetry {p : P τ α} (hp : Safe N eoi S p) {s : Toks τ} {errs : List (LErr τ)} {fatal : LErr τ} (he : ∀ e ∈ errs, ErrOk N eoi S e)
    (hf : ErrOk N eoi S fatal) : ∀ {s' : Toks τ}, InputOk N s' → s' <:+ s → SafeRes N eoi S s (skipThenRetry p eoi errs fatal s')
  | [], _, _ => ⟨he, hf⟩
  | t :: s', h, hs => by
    have h' := h.suffix (List.suffix_cons t s')
    have hs' := (List.suffix_cons t s').trans hs
    have h1 := hp s' h'
    unfold skipThenRetry
    cases h2 : p eoi s' with
    | panic => trivial
    | ok es x al r =>
      rw [h2] at h1
      refine ⟨h1.1.trans hs', append_ok (append_ok he ?_) h1.2.1, h1.2.2⟩
      intro e he'
      simp only [List.mem_singleton] at he'
      subst he'
      exact hf
    | err es e => exact safe_skipThenRetry hp he hf h' hs'

theorem safe_recoverSkip {p : P τ α} (hp : Safe N eoi S p) : Safe N eoi S (recoverSkip p) := by
  intro s h
  have h1 := hp s h
  unfold recoverSkip
  cases h2 : p eoi s with
  | panic => trivial
  | ok es x al r => rw [h2] at h1; exact h1
  | err es e => rw [h2] at h1; exact safe_skipThenRetry hp h1.1 h1.2 h (List.suffix_refl _)

end

/-- One step of a structural proof of `Safe`. -/
macro "safe_step" : tactic => `(tactic| (first
  | with_reducible assumption
  | with_reducible apply safe_thenIgnore | with_reducible apply safe_ignoreThen
  | with_reducible apply safe_delimitedBy | with_reducible apply safe_paddedBy
  | with_reducible apply safe_pmapSpan | with_reducible apply safe_pmapOutcome | with_reducible apply safe_pmap
  | with_reducible apply safe_pthen | with_reducible apply safe_por
  | with_reducible apply safe_orNot | with_reducible apply safe_rewind | with_reducible apply safe_pnot
  | with_reducible apply safe_repeatedAtLeast | with_reducible apply safe_repeated | with_reducible apply safe_separatedBy
  | with_reducible apply safe_recoverSkip
  | with_reducible apply safe_pend))

variable {N : Nat} {eoi : Span} {S : List Str}

theorem safe_just {τ : Type} [DecidableEq τ] (t : τ) : Safe N eoi S (just t) := safe_satisfy _ _
theorem safe_oneOf {τ : Type} [DecidableEq τ] (t : List τ) : Safe N eoi S (oneOf t) := safe_satisfy _ _
theorem safe_noneOf {τ : Type} [DecidableEq τ] (t : List τ) : Safe N eoi S (noneOf t) := safe_satisfy _ _
theorem safe_pfilter {τ : Type} (f : τ → Bool) : Safe N eoi S (pfilter f) := safe_satisfy _ _
theorem safe_pany {τ : Type} : Safe N eoi S (pany : P τ τ) := safe_satisfy _ _

/-- The custom messages of the parser. -/
def parserMessages : List Str :=
  [c!"expected function modifier", c!"expected global name", c!"expected local name", c!"expected type name",
   c!"expected dbgref", c!"expected a hexadecimal number", c!"Instruction is not a overflow-branch instruction."]

section
variable {N : Nat} {eoi : Span}
local notation "S" => parserMessages

theorem safe_pFuncModifier : Safe N eoi S pFuncModifier := safe_pfilterMap (by decide)
theorem safe_pGlobalName : Safe N eoi S pGlobalName := safe_pfilterMap (by decide)
theorem safe_pLocalName : Safe N eoi S pLocalName := safe_pfilterMap (by decide)
theorem safe_pType : Safe N eoi S pType := safe_pfilterMap (by decide)
theorem safe_pIdent : Safe N eoi S pIdent := safe_pfilterMap (by decide)
theorem safe_pDbgRef : Safe N eoi S pDbgRef := safe_pfilterMap (by decide)
theorem safe_pHexnum : Safe N eoi S pHexnum := safe_pfilterMap (by decide)
theorem safe_pPunct (c : Char) : Safe N eoi S (pPunct c) := safe_just _
theorem safe_pNewline : Safe N eoi S pNewline := safe_just _
theorem safe_pKeyword (k : Str) : Safe N eoi S (pKeyword k) := safe_just _
theorem safe_pEol : Safe N eoi S pEol := safe_por (safe_just _) (safe_pmap safe_pend)
theorem safe_pNewlineAhead : Safe N eoi S pNewlineAhead := safe_rewind safe_pNewline
theorem safe_pKeywordSpan (k : Str) : Safe N eoi S (pKeywordSpan k) := safe_pmapSpan (safe_pKeyword k)
theorem safe_pTokenSoup : Safe N eoi S pTokenSoup := safe_repeated (safe_pmapSpan (safe_noneOf _))

macro "safe_parser" : tactic => `(tactic| repeat (first
  | with_reducible apply safe_pFuncModifier | with_reducible apply safe_pGlobalName | with_reducible apply safe_pLocalName
  | with_reducible apply safe_pType | with_reducible apply safe_pIdent | with_reducible apply safe_pDbgRef
  | with_reducible apply safe_pHexnum | with_reducible apply safe_pPunct | with_reducible apply safe_pNewline
  | with_reducible apply safe_pKeywordSpan | with_reducible apply safe_pKeyword | with_reducible apply safe_pEol
  | with_reducible apply safe_pNewlineAhead | with_reducible apply safe_pTokenSoup
  | with_reducible apply safe_just | with_reducible apply safe_oneOf | with_reducible apply safe_noneOf
  | with_reducible apply safe_pany | with_reducible apply safe_pfilter
  | safe_step))

theorem safe_pGlobalVar : Safe N eoi S pGlobalVar := by unfold pGlobalVar; safe_parser
theorem safe_pDbgAnnotation : Safe N eoi S pDbgAnnotation := by unfold pDbgAnnotation; safe_parser
theorem safe_pFuncArgs : Safe N eoi S pFuncArgs := by unfold pFuncArgs pFuncArg; safe_parser
theorem safe_pFuncSignature : Safe N eoi S pFuncSignature := by
  have := safe_pFuncArgs (N := N) (eoi := eoi)
  unfold pFuncSignature; safe_parser
theorem safe_pFuncDecl : Safe N eoi S pFuncDecl := by
  have := safe_pFuncSignature (N := N) (eoi := eoi)
  unfold pFuncDecl pFuncAddr; safe_parser
theorem safe_pBr : Safe N eoi S pBr := by unfold pBr; safe_parser
theorem safe_pCondBr : Safe N eoi S pCondBr := by unfold pCondBr; safe_parser
theorem safe_pSkipOperands (k : Str) : Safe N eoi S (pSkipOperands k) := by unfold pSkipOperands; safe_parser
theorem safe_pOverflowBr : Safe N eoi S pOverflowBr := by
  have h := safe_pSkipOperands (N := N) (eoi := eoi) c!"cont"
  have hv : Safe N eoi S (validate (fun x : Spanned Str => if endsWith x.1 c!"br" then none
      else some c!"Instruction is not a overflow-branch instruction.") pIdent) :=
    safe_validate safe_pIdent (by
      intro a m hm
      split at hm
      · cases hm
      · cases hm; decide)
  unfold pOverflowBr; safe_parser
theorem safe_pSwitch : Safe N eoi S pSwitch := by
  have h := safe_pSkipOperands (N := N) (eoi := eoi) c!"default"
  unfold pSwitch pSwitchCase; safe_parser
theorem safe_pPhi : Safe N eoi S pPhi := by unfold pPhi pPhiEdge; safe_parser
theorem safe_pAnyInstruction : Safe N eoi S pAnyInstruction := by unfold pAnyInstruction; safe_parser
theorem safe_pPaddedInstruction : Safe N eoi S pPaddedInstruction := by
  have h1 := safe_pBr (N := N) (eoi := eoi)
  have h2 := safe_pCondBr (N := N) (eoi := eoi)
  have h3 := safe_pOverflowBr (N := N) (eoi := eoi)
  have h4 := safe_pSwitch (N := N) (eoi := eoi)
  have h5 := safe_pPhi (N := N) (eoi := eoi)
  have h6 := safe_pAnyInstruction (N := N) (eoi := eoi)
  unfold pPaddedInstruction pInstruction pAssignment pInstructionKind; safe_parser
theorem safe_pFuncBody : Safe N eoi S pFuncBody := by
  have h1 := safe_pPaddedInstruction (N := N) (eoi := eoi)
  unfold pFuncBody pInitialBlock pBasicBlock; safe_parser
theorem safe_pFuncDef : Safe N eoi S pFuncDef := by
  have h1 := safe_pFuncSignature (N := N) (eoi := eoi)
  have h2 := safe_pFuncBody (N := N) (eoi := eoi)
  unfold pFuncDef; safe_parser
theorem safe_parser : Safe N eoi S parser := by
  have h1 := safe_pGlobalVar (N := N) (eoi := eoi)
  have h2 := safe_pFuncDecl (N := N) (eoi := eoi)
  have h3 := safe_pFuncDef (N := N) (eoi := eoi)
  have h4 := safe_pDbgAnnotation (N := N) (eoi := eoi)
  have h5 : Safe N eoi S pFuncDependencies := by unfold pFuncDependencies; safe_parser
  unfold parser pPaddedStatement pStatement; safe_parser

end

section
variable [Unicode]

omit [Unicode] in
theorem safe_textInt (f : Char → Bool) : Safe N eoi S (textInt f) := by unfold textInt; safe_parser
theorem safe_identTail : Safe N eoi S identTail := by unfold identTail; safe_parser
theorem safe_tSigil (c : Char) (f : Str → Token) : Safe N eoi S (tSigil c f) := by
  have := safe_identTail (N := N) (eoi := eoi) (S := S)
  unfold tSigil; safe_parser

theorem safe_tokenChoice : Safe N eoi S tokenChoice := by
  unfold tokenChoice
  apply safe_choice none_ok
  have h1 := safe_textInt (N := N) (eoi := eoi) (S := S)
  have h2 := safe_identTail (N := N) (eoi := eoi) (S := S)
  intro p hp
  simp only [List.mem_cons, List.not_mem_nil, or_false] at hp
  rcases hp with rfl | rfl | rfl | rfl | rfl | rfl | rfl | rfl | rfl | rfl
  · unfold tComment
    apply safe_pmap
    apply safe_pthen (safe_just _)
    intro s h
    exact safe_takeUntil (by safe_parser) h (List.suffix_refl _) none_ok
  · have := h1 isDigit16; unfold tHexnum; safe_parser
  · have := h1 isDigit10; unfold tNum; safe_parser
  · unfold tStr; safe_parser
  · unfold tPunct; safe_parser
  · unfold tIdent; safe_parser
  · exact safe_tSigil _ _
  · exact safe_tSigil _ _
  · exact safe_tSigil _ _
  · unfold tNewline; safe_parser

theorem safe_tokenizer : Safe N eoi S tokenizer := by
  have := safe_tokenChoice (N := N) (eoi := eoi) (S := S)
  unfold tokenizer paddedToken blanks; safe_parser

end
end HyperIR
