import Verif.Model.Chumsky

/-
Laws of the parser combinators: how success (`Ok`), failure (`Fails`) and panics of a combined
parser follow from those of its parts.  The alternative error `alt` only influences error messages
and is hidden.
-/

namespace HyperIR

variable {τ α β γ : Type}

/-- `p` succeeds with secondary errors `es`, output `x` and remaining input `r`. -/
def Ok (p : P τ α) (eoi : Span) (s : Toks τ) (es : List (LErr τ)) (x : α) (r : Toks τ) : Prop :=
  ∃ alt, p eoi s = .ok es x alt r

/-- `p` fails. -/
def Fails (p : P τ α) (eoi : Span) (s : Toks τ) : Prop := ∃ es e, p eoi s = .err es e

/-- `p` never panics on inputs that are no longer than `n`. -/
def NoPanic (p : P τ α) : Prop := ∀ eoi s, p eoi s ≠ .panic

/-- Successes leave a suffix. -/
def Suffix (p : P τ α) : Prop := ∀ {eoi s es x r}, Ok p eoi s es x r → ∃ pre, s = pre ++ r

/-- Successes consume at least one token. -/
def Progress (p : P τ α) : Prop := ∀ {eoi s es x r}, Ok p eoi s es x r → r.length < s.length

/-- Failures carry no secondary errors and successes neither. -/
def Clean (p : P τ α) : Prop :=
  (∀ {eoi s es x r}, Ok p eoi s es x r → es = []) ∧ (∀ {eoi s es e}, p eoi s = .err es e → es = [])

theorem Ok.det {p : P τ α} {eoi s es x r es' x' r'} (h : Ok p eoi s es x r)
    (h' : Ok p eoi s es' x' r') : es = es' ∧ x = x' ∧ r = r' := by
  obtain ⟨a, h⟩ := h
  obtain ⟨b, h'⟩ := h'
  rw [h] at h'
  injection h' with h1 h2 h3 h4
  exact ⟨h1, h2, h4⟩

theorem Ok.not_fails {p : P τ α} {eoi s es x r} (h : Ok p eoi s es x r) : ¬ Fails p eoi s := by
  rintro ⟨es', e, h'⟩
  obtain ⟨a, h⟩ := h
  rw [h] at h'
  cases h'

theorem NoPanic.cases {p : P τ α} (h : NoPanic p) (eoi : Span) (s : Toks τ) :
    (∃ es x r, Ok p eoi s es x r) ∨ Fails p eoi s := by
  cases hp : p eoi s with
  | ok es x alt r => exact .inl ⟨es, x, r, alt, hp⟩
  | err es e => exact .inr ⟨es, e, hp⟩
  | panic => exact absurd hp (h eoi s)

/-! ### Primitive parsers -/

section prim

@[simp] theorem satisfy_ok {f : τ → Bool} {ex eoi s es x r} :
    Ok (satisfy f ex) eoi s es x r ↔ es = [] ∧ f x = true ∧ ∃ sp, s = (x, sp) :: r := by
  unfold Ok satisfy
  cases s with
  | nil => simp
  | cons p s =>
    obtain ⟨t, sp⟩ := p
    by_cases h : f t = true
    · simp only [h, if_true, Res.ok.injEq]
      constructor
      · rintro ⟨alt, rfl, rfl, _, rfl⟩
        exact ⟨rfl, h, sp, rfl⟩
      · rintro ⟨rfl, h1, sp', h2⟩
        injection h2 with h2 h3
        injection h2 with h2 h4
        exact ⟨none, rfl, h2, rfl, h3⟩
    · simp only [h]
      constructor
      · rintro ⟨alt, h⟩
        cases h
      · rintro ⟨rfl, h1, sp', h2⟩
        injection h2 with h2 h3
        injection h2 with h2 h4
        subst h2
        exact absurd h1 h

@[simp] theorem satisfy_fails {f : τ → Bool} {ex eoi s} :
    Fails (satisfy f ex) eoi s ↔ ∀ x sp r, s = (x, sp) :: r → f x = false := by
  unfold Fails satisfy
  cases s with
  | nil => simp
  | cons p s =>
    obtain ⟨t, sp⟩ := p
    by_cases h : f t = true
    · simp only [h, if_true, reduceCtorEq, exists_false, false_iff]
      intro h'
      have := h' t sp s rfl
      rw [h] at this
      cases this
    · simp only [h]
      constructor
      · rintro _ x sp' r h2
        injection h2 with h2 h3
        injection h2 with h2 h4
        subst h2
        simpa using h
      · intro _
        exact ⟨_, _, rfl⟩

theorem satisfy_noPanic {f : τ → Bool} {ex} : NoPanic (satisfy f ex) := by
  intro eoi s
  unfold satisfy
  split
  · split <;> simp
  · simp

theorem satisfy_clean {f : τ → Bool} {ex} : Clean (satisfy f ex) := by
  constructor
  · intro eoi s es x r h
    exact (satisfy_ok.mp h).1
  · intro eoi s es e h
    unfold satisfy at h
    split at h
    · split at h
      · cases h
      · injection h with h; exact h.symm
    · injection h with h; exact h.symm

theorem pfilterMap_ok {f : τ → Span → Option α} {msg eoi s es x r} :
    Ok (pfilterMap f msg) eoi s es x r ↔ es = [] ∧ ∃ t sp, s = (t, sp) :: r ∧ f t sp = some x := by
  unfold Ok pfilterMap
  cases s with
  | nil => simp
  | cons p s =>
    obtain ⟨t, sp⟩ := p
    cases h : f t sp with
    | none =>
      simp only [h, reduceCtorEq, exists_false, false_iff]
      rintro ⟨rfl, t', sp', h2, h3⟩
      injection h2 with h2 h4
      injection h2 with h2 h5
      subst h2 h5
      rw [h] at h3
      cases h3
    | some a =>
      simp only [h, Res.ok.injEq]
      constructor
      · rintro ⟨alt, rfl, rfl, _, rfl⟩
        exact ⟨rfl, t, sp, rfl, h⟩
      · rintro ⟨rfl, t', sp', h2, h3⟩
        injection h2 with h2 h4
        injection h2 with h2 h5
        subst h2 h5
        rw [h] at h3
        injection h3 with h3
        exact ⟨none, rfl, h3, rfl, h4⟩

theorem pfilterMap_fails {f : τ → Span → Option α} {msg eoi s} :
    Fails (pfilterMap f msg) eoi s ↔ ∀ t sp r, s = (t, sp) :: r → f t sp = none := by
  unfold Fails pfilterMap
  cases s with
  | nil => simp
  | cons p s =>
    obtain ⟨t, sp⟩ := p
    cases h : f t sp with
    | none =>
      simp only [h]
      constructor
      · rintro _ t' sp' r h2
        injection h2 with h2 h4
        injection h2 with h2 h5
        subst h2 h5
        exact h
      · intro _
        exact ⟨_, _, rfl⟩
    | some a =>
      simp only [h, reduceCtorEq, exists_false, false_iff]
      intro h'
      have := h' t sp s rfl
      rw [h] at this
      cases this

theorem pfilterMap_noPanic {f : τ → Span → Option α} {msg} : NoPanic (pfilterMap f msg) := by
  intro eoi s
  unfold pfilterMap
  split
  · split <;> simp
  · simp

theorem pfilterMap_clean {f : τ → Span → Option α} {msg} : Clean (pfilterMap f msg) := by
  constructor
  · intro eoi s es x r h
    exact (pfilterMap_ok.mp h).1
  · intro eoi s es e h
    unfold pfilterMap at h
    split at h
    · split at h
      · cases h
      · injection h with h; exact h.symm
    · injection h with h; exact h.symm

@[simp] theorem pend_ok {eoi s es x r} :
    Ok (pend : P τ Unit) eoi s es x r ↔ es = [] ∧ s = [] ∧ r = [] := by
  unfold Ok pend
  cases s with
  | nil =>
    simp only [Res.ok.injEq]
    constructor
    · rintro ⟨_, rfl, _, _, rfl⟩; simp
    · rintro ⟨rfl, _, rfl⟩; simp
  | cons => simp

@[simp] theorem pend_fails {eoi s} : Fails (pend : P τ Unit) eoi s ↔ s ≠ [] := by
  unfold Fails pend
  cases s <;> simp

theorem pend_noPanic : NoPanic (pend : P τ Unit) := by
  intro eoi s
  unfold pend
  split <;> simp

theorem pend_clean : Clean (pend : P τ Unit) := by
  constructor
  · intro eoi s es x r h
    exact (pend_ok.mp h).1
  · intro eoi s es e h
    unfold pend at h
    split at h
    · cases h
    · injection h with h; exact h.symm

end prim

/-! ### Mapping -/

@[simp] theorem pmap_ok {f : α → β} {p : P τ α} {eoi s es y r} :
    Ok (pmap f p) eoi s es y r ↔ ∃ x, Ok p eoi s es x r ∧ y = f x := by
  unfold Ok pmap
  cases p eoi s with
  | ok es' x' alt' r' =>
    simp only [Res.ok.injEq]
    constructor
    · rintro ⟨alt, rfl, rfl, rfl, rfl⟩
      exact ⟨x', ⟨alt', rfl, rfl, rfl, rfl⟩, rfl⟩
    · rintro ⟨x, ⟨alt, rfl, rfl, rfl, rfl⟩, rfl⟩
      exact ⟨alt', rfl, rfl, rfl, rfl⟩
  | err => simp
  | panic => simp

@[simp] theorem pmap_fails {f : α → β} {p : P τ α} {eoi s} :
    Fails (pmap f p) eoi s ↔ Fails p eoi s := by
  unfold Fails pmap
  cases p eoi s <;> simp

theorem pmap_noPanic {f : α → β} {p : P τ α} (h : NoPanic p) : NoPanic (pmap f p) := by
  intro eoi s
  have := h eoi s
  unfold pmap
  split <;> simp_all

theorem pmap_clean {f : α → β} {p : P τ α} (h : Clean p) : Clean (pmap f p) := by
  constructor
  · intro eoi s es x r h'
    obtain ⟨x, h', _⟩ := pmap_ok.mp h'
    exact h.1 h'
  · intro eoi s es e h'
    unfold pmap at h'
    split at h'
    · cases h'
    · rename_i he
      injection h' with h1 h2
      subst h1
      exact h.2 he
    · cases h'

@[simp] theorem pmapSpan_ok {f : α → Span → β} {p : P τ α} {eoi s es y r} :
    Ok (pmapSpan f p) eoi s es y r ↔ ∃ x, Ok p eoi s es x r ∧ y = f x (spanSince eoi s r) := by
  unfold Ok pmapSpan
  cases p eoi s with
  | ok es' x' alt' r' =>
    simp only [Res.ok.injEq]
    constructor
    · rintro ⟨alt, rfl, rfl, rfl, rfl⟩
      exact ⟨x', ⟨alt', rfl, rfl, rfl, rfl⟩, rfl⟩
    · rintro ⟨x, ⟨alt, rfl, rfl, rfl, rfl⟩, rfl⟩
      exact ⟨alt', rfl, rfl, rfl, rfl⟩
  | err => simp
  | panic => simp

@[simp] theorem pmapSpan_fails {f : α → Span → β} {p : P τ α} {eoi s} :
    Fails (pmapSpan f p) eoi s ↔ Fails p eoi s := by
  unfold Fails pmapSpan
  cases p eoi s <;> simp

theorem pmapSpan_noPanic {f : α → Span → β} {p : P τ α} (h : NoPanic p) : NoPanic (pmapSpan f p) := by
  intro eoi s
  have := h eoi s
  unfold pmapSpan
  split <;> simp_all

theorem pmapSpan_clean {f : α → Span → β} {p : P τ α} (h : Clean p) : Clean (pmapSpan f p) := by
  constructor
  · intro eoi s es x r h'
    obtain ⟨x, h', _⟩ := pmapSpan_ok.mp h'
    exact h.1 h'
  · intro eoi s es e h'
    unfold pmapSpan at h'
    split at h'
    · cases h'
    · rename_i he
      injection h' with h1 h2
      subst h1
      exact h.2 he
    · cases h'

@[simp] theorem pmapOutcome_ok {f : α → Outcome β} {p : P τ α} {eoi s es y r} :
    Ok (pmapOutcome f p) eoi s es y r ↔ ∃ x, Ok p eoi s es x r ∧ f x = .ok y := by
  unfold Ok pmapOutcome
  cases p eoi s with
  | ok es' x' alt' r' =>
    simp only [Res.ok.injEq]
    cases hf : f x' with
    | ok b =>
      simp only [Res.ok.injEq]
      constructor
      · rintro ⟨alt, rfl, rfl, rfl, rfl⟩
        exact ⟨x', ⟨alt', rfl, rfl, rfl, rfl⟩, hf⟩
      · rintro ⟨x, ⟨alt, rfl, rfl, rfl, rfl⟩, h⟩
        rw [hf] at h
        injection h with h
        exact ⟨alt', rfl, h, rfl, rfl⟩
    | panic =>
      simp only [reduceCtorEq, exists_false, false_iff]
      rintro ⟨x, ⟨alt, rfl, rfl, rfl, rfl⟩, h⟩
      rw [hf] at h
      cases h
  | err => simp
  | panic => simp

@[simp] theorem pmapOutcome_fails {f : α → Outcome β} {p : P τ α} {eoi s} :
    Fails (pmapOutcome f p) eoi s ↔ Fails p eoi s := by
  unfold Fails pmapOutcome
  cases p eoi s with
  | ok es' x' alt' r' => cases hf : f x' <;> simp [hf]
  | err => simp
  | panic => simp

theorem pmapOutcome_noPanic {f : α → Outcome β} {p : P τ α} (h : NoPanic p)
    (hf : ∀ {eoi s es x r}, Ok p eoi s es x r → f x ≠ .panic) : NoPanic (pmapOutcome f p) := by
  intro eoi s
  have hp := h eoi s
  unfold pmapOutcome
  cases hs : p eoi s with
  | ok es x alt r =>
    have := hf ⟨alt, hs⟩
    cases hx : f x with
    | ok b => simp [hx]
    | panic => exact absurd hx this
  | err => simp
  | panic => exact absurd hs hp

/-! ### Sequencing -/

section seq
variable [DecidableEq τ]

theorem pthen_ok' {a : P τ α} {b : P τ β} {eoi s es z r} :
    Ok (pthen a b) eoi s es z r ↔
      ∃ ea eb m, Ok a eoi s ea z.1 m ∧ Ok b eoi m eb z.2 r ∧ es = ea ++ eb := by
  unfold Ok pthen
  constructor
  · rintro ⟨alt, h⟩
    cases ha : a eoi s with
    | panic => rw [ha] at h; cases h
    | err => rw [ha] at h; cases h
    | ok ea x alta m =>
      rw [ha] at h
      simp only at h
      cases hb : b eoi m with
      | panic => rw [hb] at h; cases h
      | err => rw [hb] at h; cases h
      | ok eb y altb r' =>
        rw [hb] at h
        simp only [Res.ok.injEq] at h
        obtain ⟨rfl, rfl, rfl, rfl⟩ := h
        exact ⟨ea, eb, m, ⟨alta, rfl⟩, ⟨altb, hb⟩, rfl⟩
  · rintro ⟨ea, eb, m, ⟨alta, ha⟩, ⟨altb, hb⟩, rfl⟩
    refine ⟨mergeAlts alta altb, ?_⟩
    rw [ha]
    simp only
    rw [hb]

@[simp] theorem pthen_ok {a : P τ α} {b : P τ β} {eoi s es x y r} :
    Ok (pthen a b) eoi s es (x, y) r ↔
      ∃ ea eb m, Ok a eoi s ea x m ∧ Ok b eoi m eb y r ∧ es = ea ++ eb := pthen_ok'

@[simp] theorem pthen_fails {a : P τ α} {b : P τ β} {eoi s} :
    Fails (pthen a b) eoi s ↔ Fails a eoi s ∨ ∃ ea x m, Ok a eoi s ea x m ∧ Fails b eoi m := by
  unfold Fails Ok pthen
  constructor
  · rintro ⟨es, e, h⟩
    cases ha : a eoi s with
    | panic => rw [ha] at h; cases h
    | err es' e' => exact .inl ⟨es', e', rfl⟩
    | ok ea x alta m =>
      rw [ha] at h
      simp only at h
      cases hb : b eoi m with
      | panic => rw [hb] at h; cases h
      | err es' e' => exact .inr ⟨ea, x, m, ⟨alta, rfl⟩, es', e', hb⟩
      | ok eb y altb r' => rw [hb] at h; cases h
  · rintro (⟨es, e, ha⟩ | ⟨ea, x, m, ⟨alta, ha⟩, es', e', hb⟩)
    · exact ⟨es, e, by rw [ha]⟩
    · exact ⟨ea ++ es', maxErr e' alta, by rw [ha]; simp only; rw [hb]⟩

theorem pthen_noPanic {a : P τ α} {b : P τ β} (ha : NoPanic a) (hb : NoPanic b) :
    NoPanic (pthen a b) := by
  intro eoi s
  unfold pthen
  have h1 := ha eoi s
  cases h : a eoi s with
  | panic => exact absurd h h1
  | err => simp
  | ok ea x alta m =>
    simp only
    have h2 := hb eoi m
    cases h' : b eoi m with
    | panic => exact absurd h' h2
    | err => simp
    | ok => simp

theorem pthen_clean {a : P τ α} {b : P τ β} (ha : Clean a) (hb : Clean b) : Clean (pthen a b) := by
  constructor
  · intro eoi s es x r h
    obtain ⟨ea, eb, m, h1, h2, rfl⟩ := pthen_ok'.mp h
    rw [ha.1 h1, hb.1 h2]; rfl
  · intro eoi s es e h
    unfold pthen at h
    cases h1 : a eoi s with
    | panic => rw [h1] at h; cases h
    | err es' e' =>
      rw [h1] at h
      injection h with h3 h4
      subst h3
      exact ha.2 h1
    | ok ea x alta m =>
      rw [h1] at h
      simp only at h
      cases h2 : b eoi m with
      | panic => rw [h2] at h; cases h
      | err es' e' =>
        rw [h2] at h
        injection h with h3 h4
        subst h3
        rw [ha.1 ⟨_, h1⟩, hb.2 h2]; rfl
      | ok eb y altb r' => rw [h2] at h; cases h

@[simp] theorem thenIgnore_ok {a : P τ α} {b : P τ β} {eoi s es x r} :
    Ok (thenIgnore a b) eoi s es x r ↔
      ∃ ea eb m y, Ok a eoi s ea x m ∧ Ok b eoi m eb y r ∧ es = ea ++ eb := by
  unfold thenIgnore
  simp only [pmap_ok, pthen_ok']
  constructor
  · rintro ⟨z, ⟨ea, eb, m, h1, h2, h3⟩, rfl⟩
    exact ⟨ea, eb, m, z.2, h1, h2, h3⟩
  · rintro ⟨ea, eb, m, y, h1, h2, h3⟩
    exact ⟨(x, y), ⟨ea, eb, m, h1, h2, h3⟩, rfl⟩

@[simp] theorem thenIgnore_fails {a : P τ α} {b : P τ β} {eoi s} :
    Fails (thenIgnore a b) eoi s ↔ Fails a eoi s ∨ ∃ ea x m, Ok a eoi s ea x m ∧ Fails b eoi m := by
  unfold thenIgnore
  rw [pmap_fails, pthen_fails]

theorem thenIgnore_noPanic {a : P τ α} {b : P τ β} (ha : NoPanic a) (hb : NoPanic b) :
    NoPanic (thenIgnore a b) := pmap_noPanic (pthen_noPanic ha hb)

theorem thenIgnore_clean {a : P τ α} {b : P τ β} (ha : Clean a) (hb : Clean b) :
    Clean (thenIgnore a b) := pmap_clean (pthen_clean ha hb)

@[simp] theorem ignoreThen_ok {a : P τ α} {b : P τ β} {eoi s es y r} :
    Ok (ignoreThen a b) eoi s es y r ↔
      ∃ ea eb m x, Ok a eoi s ea x m ∧ Ok b eoi m eb y r ∧ es = ea ++ eb := by
  unfold ignoreThen
  simp only [pmap_ok, pthen_ok']
  constructor
  · rintro ⟨z, ⟨ea, eb, m, h1, h2, h3⟩, rfl⟩
    exact ⟨ea, eb, m, z.1, h1, h2, h3⟩
  · rintro ⟨ea, eb, m, x, h1, h2, h3⟩
    exact ⟨(x, y), ⟨ea, eb, m, h1, h2, h3⟩, rfl⟩

@[simp] theorem ignoreThen_fails {a : P τ α} {b : P τ β} {eoi s} :
    Fails (ignoreThen a b) eoi s ↔ Fails a eoi s ∨ ∃ ea x m, Ok a eoi s ea x m ∧ Fails b eoi m := by
  unfold ignoreThen
  rw [pmap_fails, pthen_fails]

theorem ignoreThen_noPanic {a : P τ α} {b : P τ β} (ha : NoPanic a) (hb : NoPanic b) :
    NoPanic (ignoreThen a b) := pmap_noPanic (pthen_noPanic ha hb)

theorem ignoreThen_clean {a : P τ α} {b : P τ β} (ha : Clean a) (hb : Clean b) :
    Clean (ignoreThen a b) := pmap_clean (pthen_clean ha hb)

@[simp] theorem delimitedBy_ok {l : P τ β} {rr : P τ γ} {p : P τ α} {eoi s es x r} :
    Ok (delimitedBy l rr p) eoi s es x r ↔
      ∃ e1 e2 e3 m m' y z, Ok l eoi s e1 y m ∧ Ok p eoi m e2 x m' ∧ Ok rr eoi m' e3 z r
        ∧ es = e1 ++ e2 ++ e3 := by
  unfold delimitedBy
  simp only [thenIgnore_ok, ignoreThen_ok]
  constructor
  · rintro ⟨ea, eb, m, y, ⟨e1, e2, m', x', h1, h2, rfl⟩, h3, rfl⟩
    exact ⟨e1, e2, eb, m', m, x', y, h1, h2, h3, rfl⟩
  · rintro ⟨e1, e2, e3, m, m', y, z, h1, h2, h3, rfl⟩
    exact ⟨e1 ++ e2, e3, m', z, ⟨e1, e2, m, y, h1, h2, rfl⟩, h3, rfl⟩

theorem delimitedBy_noPanic {l : P τ β} {r : P τ γ} {p : P τ α} (hl : NoPanic l) (hr : NoPanic r)
    (hp : NoPanic p) : NoPanic (delimitedBy l r p) :=
  thenIgnore_noPanic (ignoreThen_noPanic hl hp) hr

theorem delimitedBy_clean {l : P τ β} {r : P τ γ} {p : P τ α} (hl : Clean l) (hr : Clean r)
    (hp : Clean p) : Clean (delimitedBy l r p) :=
  thenIgnore_clean (ignoreThen_clean hl hp) hr

@[simp] theorem paddedBy_ok {pad : P τ β} {p : P τ α} {eoi s es x r} :
    Ok (paddedBy pad p) eoi s es x r ↔
      ∃ e1 e2 e3 m m' y z, Ok pad eoi s e1 y m ∧ Ok p eoi m e2 x m' ∧ Ok pad eoi m' e3 z r
        ∧ es = e1 ++ e2 ++ e3 := by
  unfold paddedBy
  simp only [thenIgnore_ok, ignoreThen_ok]
  constructor
  · rintro ⟨ea, eb, m, y, ⟨e1, e2, m', x', h1, h2, rfl⟩, h3, rfl⟩
    exact ⟨e1, e2, eb, m', m, x', y, h1, h2, h3, rfl⟩
  · rintro ⟨e1, e2, e3, m, m', y, z, h1, h2, h3, rfl⟩
    exact ⟨e1 ++ e2, e3, m', z, ⟨e1, e2, m, y, h1, h2, rfl⟩, h3, rfl⟩

theorem paddedBy_noPanic {pad : P τ β} {p : P τ α} (hl : NoPanic pad) (hp : NoPanic p) :
    NoPanic (paddedBy pad p) :=
  thenIgnore_noPanic (ignoreThen_noPanic hl hp) hl

theorem paddedBy_clean {pad : P τ β} {p : P τ α} (hl : Clean pad) (hp : Clean p) :
    Clean (paddedBy pad p) :=
  thenIgnore_clean (ignoreThen_clean hl hp) hl

end seq

/-! ### Alternatives -/

section alt
variable [DecidableEq τ]

theorem por_ok_inv {a b : P τ α} {eoi s es x r} (h : Ok (por a b) eoi s es x r) :
    Ok a eoi s es x r ∨ Ok b eoi s es x r := by
  obtain ⟨alt, h⟩ := h
  unfold por at h
  cases ha : a eoi s with
  | panic => rw [ha] at h; cases h
  | err esa ea =>
    rw [ha] at h
    simp only at h
    cases hb : b eoi s with
    | panic => rw [hb] at h; cases h
    | err esb eb =>
      rw [hb] at h
      simp only at h
      split at h
      · cases h
      · split at h <;> cases h
    | ok eb y altb r' =>
      rw [hb] at h
      simp only [Res.ok.injEq] at h
      obtain ⟨rfl, rfl, _, rfl⟩ := h
      exact .inr ⟨_, hb⟩
  | ok ea y alta m =>
    rw [ha] at h
    cases ea with
    | nil =>
      simp only [Res.ok.injEq] at h
      obtain ⟨rfl, rfl, _, rfl⟩ := h
      exact .inl ⟨_, ha⟩
    | cons e es' =>
      simp only at h
      cases hb : b eoi s with
      | panic => rw [hb] at h; cases h
      | err esb eb =>
        rw [hb] at h
        simp only [Res.ok.injEq] at h
        obtain ⟨rfl, rfl, _, rfl⟩ := h
        exact .inl ⟨_, ha⟩
      | ok eb z altb r' =>
        rw [hb] at h
        cases eb with
        | nil =>
          simp only [Res.ok.injEq] at h
          obtain ⟨rfl, rfl, _, rfl⟩ := h
          exact .inr ⟨_, hb⟩
        | cons e' es'' =>
          simp only at h
          split at h
          · split at h
            · simp only [Res.ok.injEq] at h
              obtain ⟨rfl, rfl, _, rfl⟩ := h
              exact .inr ⟨_, hb⟩
            · split at h
              · simp only [Res.ok.injEq] at h
                obtain ⟨rfl, rfl, _, rfl⟩ := h
                exact .inl ⟨_, ha⟩
              · split at h
                · simp only [Res.ok.injEq] at h
                  obtain ⟨rfl, rfl, _, rfl⟩ := h
                  exact .inr ⟨_, hb⟩
                · simp only [Res.ok.injEq] at h
                  obtain ⟨rfl, rfl, _, rfl⟩ := h
                  exact .inl ⟨_, ha⟩
          · simp only [Res.ok.injEq] at h
            obtain ⟨rfl, rfl, _, rfl⟩ := h
            exact .inl ⟨_, ha⟩

theorem por_ok_left {a b : P τ α} {eoi s x r} (h : Ok a eoi s [] x r) :
    Ok (por a b) eoi s [] x r := by
  obtain ⟨alt, h⟩ := h
  exact ⟨alt, by unfold por; rw [h]⟩

theorem por_ok_right {a b : P τ α} {eoi s es x r} (ha : Fails a eoi s) (h : Ok b eoi s es x r) :
    Ok (por a b) eoi s es x r := by
  obtain ⟨alt, h⟩ := h
  obtain ⟨esa, ea, ha⟩ := ha
  exact ⟨mergeAlts alt (some ea), by unfold por; rw [ha]; simp only; rw [h]⟩

theorem por_ok_right_clean {a b : P τ α} {eoi s e es y r' x r} (ha : Ok a eoi s (e :: es) y r')
    (h : Ok b eoi s [] x r) : Ok (por a b) eoi s [] x r := by
  obtain ⟨alt, h⟩ := h
  obtain ⟨alta, ha⟩ := ha
  exact ⟨alt, by unfold por; rw [ha]; simp only; rw [h]⟩

theorem por_ok_left_dirty {a b : P τ α} {eoi s e es x r} (ha : Ok a eoi s (e :: es) x r)
    (h : Fails b eoi s) : Ok (por a b) eoi s (e :: es) x r := by
  obtain ⟨alta, ha⟩ := ha
  obtain ⟨esb, eb, hb⟩ := h
  exact ⟨mergeAlts alta (some eb), by unfold por; rw [ha]; simp only; rw [hb]⟩

theorem por_noPanic {a b : P τ α} (ha : NoPanic a) (hb : NoPanic b) : NoPanic (por a b) := by
  intro eoi s
  have h1 := ha eoi s
  have h2 := hb eoi s
  unfold por
  cases h : a eoi s with
  | panic => exact absurd h h1
  | err esa ea =>
    simp only
    cases h' : b eoi s with
    | panic => exact absurd h' h2
    | err =>
      simp only
      split
      · simp
      · split <;> simp
    | ok => simp
  | ok ea y alta m =>
    cases ea with
    | nil => simp
    | cons e es =>
      simp only
      cases h' : b eoi s with
      | panic => exact absurd h' h2
      | err => simp
      | ok eb z altb r' =>
        cases eb with
        | nil => simp
        | cons e' es' =>
          simp only
          split
          · split
            · simp
            · split
              · simp
              · split <;> simp
          · simp

theorem por_fails {a b : P τ α} {eoi s} :
    Fails (por a b) eoi s ↔ Fails a eoi s ∧ Fails b eoi s := by
  constructor
  · intro h
    have hnot : ∀ es x r, ¬ Ok (por a b) eoi s es x r := fun es x r h' => h'.not_fails h
    obtain ⟨es, e, h⟩ := h
    cases ha : a eoi s with
    | panic => unfold por at h; rw [ha] at h; cases h
    | err esa ea =>
      refine ⟨⟨_, _, ha⟩, ?_⟩
      cases hb : b eoi s with
      | panic => unfold por at h; rw [ha] at h; simp only at h; rw [hb] at h; cases h
      | err esb eb => exact ⟨_, _, hb⟩
      | ok eb y altb r' => exact absurd (por_ok_right ⟨_, _, ha⟩ ⟨_, hb⟩) (hnot _ _ _)
    | ok ea y alta m =>
      exfalso
      cases ea with
      | nil => exact hnot _ _ _ (por_ok_left ⟨_, ha⟩)
      | cons e' es' =>
        cases hb : b eoi s with
        | panic => unfold por at h; rw [ha] at h; simp only at h; rw [hb] at h; cases h
        | err esb eb => exact hnot _ _ _ (por_ok_left_dirty ⟨_, ha⟩ ⟨_, _, hb⟩)
        | ok eb z altb r' =>
          cases eb with
          | nil => exact hnot _ _ _ (por_ok_right_clean ⟨_, ha⟩ ⟨_, hb⟩)
          | cons e'' es'' =>
            unfold por at h
            rw [ha] at h
            simp only at h
            rw [hb] at h
            simp only at h
            split at h
            · split at h
              · cases h
              · split at h
                · cases h
                · split at h <;> cases h
            · cases h
  · rintro ⟨⟨esa, ea, ha⟩, esb, eb, hb⟩
    unfold Fails por
    rw [ha]
    simp only
    rw [hb]
    simp only
    split
    · exact ⟨_, _, rfl⟩
    · split <;> exact ⟨_, _, rfl⟩

theorem por_clean {a b : P τ α} (ha : Clean a) (hb : Clean b) : Clean (por a b) := by
  constructor
  · intro eoi s es x r h
    rcases por_ok_inv h with h | h
    · exact ha.1 h
    · exact hb.1 h
  · intro eoi s es e h
    have hf := (por_fails.mp ⟨_, _, h⟩)
    obtain ⟨⟨esa, ea, h1⟩, esb, eb, h2⟩ := hf
    unfold por at h
    rw [h1] at h
    simp only at h
    rw [h2] at h
    simp only at h
    have := ha.2 h1
    have := hb.2 h2
    split at h
    · injection h with h; simp_all
    · split at h <;> (injection h with h; simp_all)

theorem por_ok_clean {a b : P τ α} (ha : Clean a) {eoi s es x r} :
    Ok (por a b) eoi s es x r ↔ Ok a eoi s es x r ∨ (Fails a eoi s ∧ Ok b eoi s es x r) := by
  constructor
  · intro h
    obtain ⟨alt, h⟩ := h
    cases h1 : a eoi s with
    | panic => unfold por at h; rw [h1] at h; cases h
    | err esa ea =>
      rcases por_ok_inv ⟨_, h⟩ with h' | h'
      · exact .inl h'
      · exact .inr ⟨⟨_, _, h1⟩, h'⟩
    | ok ea y alta m =>
      have := ha.1 ⟨_, h1⟩
      subst this
      unfold por at h
      rw [h1] at h
      simp only [Res.ok.injEq] at h
      obtain ⟨rfl, rfl, _, rfl⟩ := h
      exact .inl ⟨_, h1⟩
  · rintro (h | ⟨h1, h2⟩)
    · have := ha.1 h
      subst this
      exact por_ok_left h
    · exact por_ok_right h1 h2

/-- Members of a `choice` that fail, up to the first that succeeds. -/
theorem choice_ok {eoi : Span} {s : Toks τ} {es : List (LErr τ)} {x : α} {r : Toks τ} :
    ∀ {ps : List (P τ α)} {alt : Option (LErr τ)}, Ok (choice alt ps) eoi s es x r ↔
      ∃ l p l', ps = l ++ p :: l' ∧ (∀ q ∈ l, Fails q eoi s) ∧ Ok p eoi s es x r
  | [], alt => by
    constructor
    · rintro ⟨a, h⟩
      unfold choice at h
      split at h <;> cases h
    · rintro ⟨l, p, l', h, _⟩
      cases l <;> cases h
  | q :: ps, alt => by
    constructor
    · rintro ⟨a, h⟩
      unfold choice at h
      cases hq : q eoi s with
      | panic => simp only [hq] at h; cases h
      | ok es' x' al r' =>
        simp only [hq, Res.ok.injEq] at h
        obtain ⟨rfl, rfl, rfl, rfl⟩ := h
        exact ⟨[], q, ps, rfl, by simp, ⟨_, hq⟩⟩
      | err es' e' =>
        simp only [hq] at h
        obtain ⟨l, p, l', rfl, h1, h2⟩ := choice_ok.mp ⟨_, h⟩
        refine ⟨q :: l, p, l', rfl, ?_, h2⟩
        intro q' hq'
        rcases List.mem_cons.mp hq' with rfl | hq'
        · exact ⟨_, _, hq⟩
        · exact h1 _ hq'
    · rintro ⟨l, p, l', h, h1, h2⟩
      cases l with
      | nil =>
        injection h with h h'
        subst h
        obtain ⟨a, h2⟩ := h2
        refine ⟨a, ?_⟩
        unfold choice
        simp only [h2]
      | cons q' l =>
        injection h with h h'
        subst h
        obtain ⟨es', e', hq⟩ := h1 q (List.mem_cons_self ..)
        have := (choice_ok (alt := mergeAlts alt (some e'))).mpr
          ⟨l, p, l', h', fun q' hq' => h1 _ (List.mem_cons_of_mem _ hq'), h2⟩
        obtain ⟨a, this⟩ := this
        refine ⟨a, ?_⟩
        unfold choice
        simp only [hq]
        exact this

theorem choice_fails {eoi : Span} {s : Toks τ} :
    ∀ {ps : List (P τ α)} {alt : Option (LErr τ)}, Fails (choice alt ps) eoi s ↔
      ∀ q ∈ ps, Fails q eoi s
  | [], alt => by
    constructor
    · intro _ q hq
      cases hq
    · intro _
      unfold Fails choice
      split <;> exact ⟨_, _, rfl⟩
  | q :: ps, alt => by
    constructor
    · rintro ⟨es, e, h⟩
      unfold choice at h
      cases hq : q eoi s with
      | panic => simp only [hq] at h; cases h
      | ok es' x' al r' => simp only [hq] at h; cases h
      | err es' e' =>
        simp only [hq] at h
        have := choice_fails.mp ⟨_, _, h⟩
        intro q' hq'
        rcases List.mem_cons.mp hq' with rfl | hq'
        · exact ⟨_, _, hq⟩
        · exact this _ hq'
    · intro h
      obtain ⟨es', e', hq⟩ := h q (List.mem_cons_self ..)
      have := (choice_fails (alt := mergeAlts alt (some e'))).mpr
        fun q' hq' => h q' (List.mem_cons_of_mem _ hq')
      obtain ⟨es, e, this⟩ := this
      refine ⟨es, e, ?_⟩
      unfold choice
      simp only [hq]
      exact this

theorem choice_noPanic : ∀ {ps : List (P τ α)} {alt : Option (LErr τ)}, (∀ q ∈ ps, NoPanic q) →
    NoPanic (choice alt ps)
  | [], alt, _ => by
    intro eoi s
    unfold choice
    split <;> simp
  | q :: ps, alt, h => by
    intro eoi s
    unfold choice
    have h1 := h q (List.mem_cons_self ..) eoi s
    cases hq : q eoi s with
    | panic => exact absurd hq h1
    | ok => simp
    | err es e =>
      simp only
      exact choice_noPanic (fun q' hq' => h q' (List.mem_cons_of_mem _ hq')) eoi s

theorem choice_clean : ∀ {ps : List (P τ α)} {alt : Option (LErr τ)}, (∀ q ∈ ps, Clean q) →
    Clean (choice alt ps)
  | [], alt, _ => by
    constructor
    · rintro eoi s es x r ⟨a, h⟩
      unfold choice at h
      split at h <;> cases h
    · intro eoi s es e h
      unfold choice at h
      split at h <;> (injection h with h; exact h.symm)
  | q :: ps, alt, h => by
    have hc := h q (List.mem_cons_self ..)
    constructor
    · intro eoi s es x r h'
      obtain ⟨l, p, l', hl, h1, h2⟩ := choice_ok.mp h'
      exact (h p (by rw [hl]; simp)).1 h2
    · intro eoi s es e h'
      unfold choice at h'
      cases hq : q eoi s with
      | panic => simp only [hq] at h'; cases h'
      | ok es' x' al r' => simp only [hq] at h'; cases h'
      | err es' e' =>
        simp only [hq] at h'
        exact (choice_clean (fun q' hq' => h q' (List.mem_cons_of_mem _ hq'))).2 h'

end alt

/-! ### Look-ahead and optional parsers -/

@[simp] theorem orNot_ok {p : P τ α} {eoi s es x r} :
    Ok (orNot p) eoi s es x r ↔
      (∃ y, x = some y ∧ Ok p eoi s es y r) ∨ (x = none ∧ es = [] ∧ r = s ∧ Fails p eoi s) := by
  unfold Ok Fails orNot
  cases p eoi s with
  | ok es' x' alt' r' =>
    simp only [Res.ok.injEq, reduceCtorEq, exists_false, and_false, or_false]
    constructor
    · rintro ⟨alt, rfl, rfl, rfl, rfl⟩
      exact ⟨x', rfl, alt', rfl, rfl, rfl, rfl⟩
    · rintro ⟨y, rfl, alt, rfl, rfl, rfl, rfl⟩
      exact ⟨alt', rfl, rfl, rfl, rfl⟩
  | err es' e' =>
    simp only [Res.ok.injEq, reduceCtorEq, exists_false, and_false, false_or]
    constructor
    · rintro ⟨alt, rfl, rfl, rfl, rfl⟩
      exact ⟨rfl, rfl, rfl, _, _, rfl⟩
    · rintro ⟨rfl, rfl, rfl, _⟩
      exact ⟨some e', rfl, rfl, rfl, rfl⟩
  | panic => simp

@[simp] theorem orNot_fails {p : P τ α} {eoi s} : ¬ Fails (orNot p) eoi s := by
  unfold Fails orNot
  cases p eoi s <;> simp

theorem orNot_noPanic {p : P τ α} (h : NoPanic p) : NoPanic (orNot p) := by
  intro eoi s
  have := h eoi s
  unfold orNot
  split <;> simp_all

theorem orNot_clean {p : P τ α} (h : Clean p) : Clean (orNot p) := by
  constructor
  · intro eoi s es x r h'
    rcases orNot_ok.mp h' with ⟨y, _, h'⟩ | ⟨_, h', _⟩
    · exact h.1 h'
    · exact h'
  · intro eoi s es e h'
    exact absurd ⟨_, _, h'⟩ orNot_fails

@[simp] theorem rewind_ok {p : P τ α} {eoi s es x r} :
    Ok (rewind p) eoi s es x r ↔ r = s ∧ ∃ r', Ok p eoi s es x r' := by
  unfold Ok rewind
  cases p eoi s with
  | ok es' x' alt' r' =>
    simp only [Res.ok.injEq]
    constructor
    · rintro ⟨alt, rfl, rfl, rfl, rfl⟩
      exact ⟨rfl, r', alt', rfl, rfl, rfl, rfl⟩
    · rintro ⟨rfl, r'', alt, rfl, rfl, rfl, rfl⟩
      exact ⟨alt', rfl, rfl, rfl, rfl⟩
  | err => simp
  | panic => simp

@[simp] theorem rewind_fails {p : P τ α} {eoi s} : Fails (rewind p) eoi s ↔ Fails p eoi s := by
  unfold Fails rewind
  cases p eoi s <;> simp

theorem rewind_noPanic {p : P τ α} (h : NoPanic p) : NoPanic (rewind p) := by
  intro eoi s
  have := h eoi s
  unfold rewind
  split <;> simp_all

theorem rewind_clean {p : P τ α} (h : Clean p) : Clean (rewind p) := by
  constructor
  · intro eoi s es x r h'
    obtain ⟨_, r', h'⟩ := rewind_ok.mp h'
    exact h.1 h'
  · intro eoi s es e h'
    unfold rewind at h'
    split at h'
    · cases h'
    · cases h'
    · rename_i he
      injection h' with h1 h2
      subst h1
      exact h.2 he

@[simp] theorem pnot_ok {p : P τ α} {eoi s es x r} :
    Ok (pnot p) eoi s es x r ↔ es = [] ∧ Fails p eoi s ∧ ∃ sp, s = (x, sp) :: r := by
  unfold Ok Fails pnot
  cases p eoi s with
  | ok => simp
  | err es' e' =>
    cases s with
    | nil => simp
    | cons t s =>
      obtain ⟨t, sp⟩ := t
      simp only [Res.ok.injEq]
      constructor
      · rintro ⟨alt, rfl, rfl, rfl, rfl⟩
        exact ⟨rfl, ⟨_, _, rfl⟩, sp, rfl⟩
      · rintro ⟨rfl, _, sp', h⟩
        injection h with h h'
        injection h with h h''
        exact ⟨none, rfl, h, rfl, h'⟩
  | panic => simp

theorem pnot_fails {p : P τ α} {eoi s} (hp : NoPanic p) :
    Fails (pnot p) eoi s ↔ (∃ es x r, Ok p eoi s es x r) ∨ s = [] := by
  unfold Fails Ok pnot
  cases h : p eoi s with
  | ok => simp
  | err es' e' =>
    cases s with
    | nil => simp
    | cons t s => simp
  | panic => exact absurd h (hp _ _)

theorem pnot_noPanic {p : P τ α} (h : NoPanic p) : NoPanic (pnot p) := by
  intro eoi s
  have := h eoi s
  unfold pnot
  split
  · contradiction
  · simp
  · split <;> simp

theorem pnot_clean {p : P τ α} : Clean (pnot p) := by
  constructor
  · intro eoi s es x r h'
    exact (pnot_ok.mp h').1
  · intro eoi s es e h'
    unfold pnot at h'
    split at h'
    · cases h'
    · injection h' with h; exact h.symm
    · split at h'
      · cases h'
      · injection h' with h; exact h.symm

theorem validate_ok {f : α → Option Str} {p : P τ α} {eoi s es x r} :
    Ok (validate f p) eoi s es x r ↔ ∃ es', Ok p eoi s es' x r ∧
      ((f x = none ∧ es = es') ∨ ∃ msg e, f x = some msg ∧ es = es' ++ [e]
        ∧ e = { rem := r.length, span := spanSince eoi s r, reason := .custom msg,
                expected := [], found := none }) := by
  unfold Ok validate
  cases hp : p eoi s with
  | ok es' x' alt' r' =>
    simp only [Res.ok.injEq]
    constructor
    · rintro ⟨alt, h⟩
      cases hf : f x' with
      | none =>
        simp only [hf, Res.ok.injEq] at h
        obtain ⟨rfl, rfl, rfl, rfl⟩ := h
        exact ⟨es', ⟨alt', rfl, rfl, rfl, rfl⟩, .inl ⟨hf, rfl⟩⟩
      | some msg =>
        simp only [hf, Res.ok.injEq] at h
        obtain ⟨rfl, rfl, rfl, rfl⟩ := h
        exact ⟨es', ⟨alt', rfl, rfl, rfl, rfl⟩, .inr ⟨msg, _, hf, rfl, rfl⟩⟩
    · rintro ⟨es'', ⟨alt, rfl, rfl, rfl, rfl⟩, ⟨hf, rfl⟩ | ⟨msg, e, hf, rfl, rfl⟩⟩
      · exact ⟨alt', by simp [hf]⟩
      · exact ⟨alt', by simp [hf]⟩
  | err => simp
  | panic => simp

@[simp] theorem validate_fails {f : α → Option Str} {p : P τ α} {eoi s} :
    Fails (validate f p) eoi s ↔ Fails p eoi s := by
  unfold Fails validate
  cases hp : p eoi s with
  | ok es' x' alt' r' => cases hf : f x' <;> simp [hf]
  | err => simp
  | panic => simp

theorem validate_noPanic {f : α → Option Str} {p : P τ α} (h : NoPanic p) :
    NoPanic (validate f p) := by
  intro eoi s
  have := h eoi s
  unfold validate
  split
  · contradiction
  · simp
  · split <;> simp

/-! ### Repetition -/

/-- `Many p eoi s es xs r`: `p` succeeds repeatedly from `s`, giving `xs`, until it fails at `r`. -/
inductive Many (p : P τ α) (eoi : Span) : Toks τ → List (LErr τ) → List α → Toks τ → Prop
  | nil {s} : Fails p eoi s → Many p eoi s [] [] s
  | cons {s es x m es' xs r} : Ok p eoi s es x m → Many p eoi m es' xs r →
      Many p eoi s (es ++ es') (x :: xs) r

theorem Many.det {p : P τ α} {eoi s es xs r es' xs' r'} (h : Many p eoi s es xs r)
    (h' : Many p eoi s es' xs' r') : es = es' ∧ xs = xs' ∧ r = r' := by
  induction h generalizing es' xs' r' with
  | nil hf =>
    cases h' with
    | nil _ => exact ⟨rfl, rfl, rfl⟩
    | cons h1 _ => exact absurd hf h1.not_fails
  | cons h1 _ ih =>
    cases h' with
    | nil hf => exact absurd hf h1.not_fails
    | cons h1' h2' =>
      obtain ⟨rfl, rfl, rfl⟩ := h1.det h1'
      obtain ⟨rfl, rfl, rfl⟩ := ih h2'
      exact ⟨rfl, rfl, rfl⟩

theorem Many.length_le {p : P τ α} (hp : Progress p) {eoi s es xs r} (h : Many p eoi s es xs r) :
    r.length + xs.length ≤ s.length := by
  induction h with
  | nil => simp
  | cons h1 _ ih =>
    have := hp h1
    simp only [List.length_cons]
    omega

theorem Many.suffix {p : P τ α} (hp : Suffix p) {eoi s es xs r} (h : Many p eoi s es xs r) :
    ∃ pre, s = pre ++ r := by
  induction h with
  | nil => exact ⟨[], rfl⟩
  | cons h1 _ ih =>
    obtain ⟨pre, rfl⟩ := hp h1
    obtain ⟨pre', rfl⟩ := ih
    exact ⟨pre ++ pre', by simp⟩

theorem Many.fails {p : P τ α} {eoi s es xs r} (h : Many p eoi s es xs r) : Fails p eoi r := by
  induction h with
  | nil h => exact h
  | cons _ _ ih => exact ih

/-- Every input has a `Many` run when `p` never panics and always makes progress. -/
theorem Many.exists {p : P τ α} (hn : NoPanic p) (hp : Progress p) (eoi : Span) :
    ∀ (n : Nat) (s : Toks τ), s.length ≤ n → ∃ es xs r, Many p eoi s es xs r
  | 0, s, h => by
    rcases hn.cases eoi s with ⟨es, x, r, h'⟩ | h'
    · have := hp h'; omega
    · exact ⟨[], [], s, .nil h'⟩
  | n + 1, s, h => by
    rcases hn.cases eoi s with ⟨es, x, r, h'⟩ | h'
    · have := hp h'
      obtain ⟨es', xs, r', h''⟩ := Many.exists hn hp eoi n r (by omega)
      exact ⟨_, _, _, .cons h' h''⟩
    · exact ⟨[], [], s, .nil h'⟩

section rep
variable [DecidableEq τ]

theorem repeatLoop_of_many {p : P τ α} (hp : Progress p) {n : Nat} {eoi : Span} {s : Toks τ}
    {es' xs r} (h : Many p eoi s es' xs r) :
    ∀ {fuel old errs outs alt}, s.length < fuel → (∀ k, old = some k → s.length ≤ k) →
      n ≤ outs.length + xs.length →
      ∃ alt', repeatLoop p n eoi fuel old errs outs alt s = .ok (errs ++ es') (outs ++ xs) alt' r := by
  induction h with
  | nil hf =>
    intro fuel old errs outs alt h1 h2 h3
    obtain ⟨es, e, hf⟩ := hf
    obtain ⟨fuel, rfl⟩ : ∃ f, fuel = f + 1 := ⟨fuel - 1, by omega⟩
    unfold repeatLoop
    simp only [hf]
    rw [if_neg (by simpa using h3)]
    simp
  | cons h1 h2 ih =>
    rename_i s0 es x m es' xs r
    intro fuel old errs outs alt h3 h4 h5
    have hlt := hp h1
    obtain ⟨a, h1⟩ := h1
    obtain ⟨fuel, rfl⟩ : ∃ f, fuel = f + 1 := ⟨fuel - 1, by omega⟩
    unfold repeatLoop
    simp only [h1]
    rw [if_neg (by
      intro h
      have := h4 _ h
      omega)]
    obtain ⟨alt', h6⟩ := ih (fuel := fuel) (old := some m.length) (errs := errs ++ es)
      (outs := outs ++ [x]) (alt := mergeAlts alt a) (by omega) (by simp) (by simp at h5 ⊢; omega)
    exact ⟨alt', by rw [h6]; simp⟩

theorem repeatLoop_fails_of_many {p : P τ α} (hp : Progress p) {n : Nat} {eoi : Span} {s : Toks τ}
    {es' xs r} (h : Many p eoi s es' xs r) :
    ∀ {fuel old errs outs alt}, s.length < fuel → (∀ k, old = some k → s.length ≤ k) →
      outs.length + xs.length < n →
      ∃ es e, repeatLoop p n eoi fuel old errs outs alt s = .err es e := by
  induction h with
  | nil hf =>
    intro fuel old errs outs alt h1 h2 h3
    obtain ⟨es, e, hf⟩ := hf
    obtain ⟨fuel, rfl⟩ : ∃ f, fuel = f + 1 := ⟨fuel - 1, by omega⟩
    unfold repeatLoop
    simp only [hf]
    rw [if_pos (by simpa using h3)]
    exact ⟨_, _, rfl⟩
  | cons h1 h2 ih =>
    rename_i s0 es x m es' xs r
    intro fuel old errs outs alt h3 h4 h5
    have hlt := hp h1
    obtain ⟨a, h1⟩ := h1
    obtain ⟨fuel, rfl⟩ : ∃ f, fuel = f + 1 := ⟨fuel - 1, by omega⟩
    unfold repeatLoop
    simp only [h1]
    rw [if_neg (by
      intro h
      have := h4 _ h
      omega)]
    exact ih (fuel := fuel) (old := some m.length) (errs := errs ++ es)
      (outs := outs ++ [x]) (alt := mergeAlts alt a) (by omega) (by simp) (by simp at h5 ⊢; omega)

theorem repeatedAtLeast_of_many {p : P τ α} (hp : Progress p) {n : Nat} {eoi : Span} {s : Toks τ}
    {es xs r} (h : Many p eoi s es xs r) (hn : n ≤ xs.length) :
    Ok (repeatedAtLeast n p) eoi s es xs r := by
  obtain ⟨alt', h'⟩ := repeatLoop_of_many (n := n) hp h (fuel := s.length + 2) (old := none)
    (errs := []) (outs := []) (alt := none) (by omega) (by simp) (by simpa using hn)
  exact ⟨alt', by simpa [repeatedAtLeast] using h'⟩

theorem repeatedAtLeast_ok {p : P τ α} (hn : NoPanic p) (hp : Progress p) {n : Nat} {eoi : Span}
    {s : Toks τ} {es xs r} :
    Ok (repeatedAtLeast n p) eoi s es xs r ↔ Many p eoi s es xs r ∧ n ≤ xs.length := by
  constructor
  · intro h
    obtain ⟨es', xs', r', hm⟩ := Many.exists hn hp eoi s.length s (Nat.le_refl _)
    by_cases hle : n ≤ xs'.length
    · obtain ⟨rfl, rfl, rfl⟩ := h.det (repeatedAtLeast_of_many hp hm hle)
      exact ⟨hm, hle⟩
    · obtain ⟨es'', e'', h'⟩ := repeatLoop_fails_of_many (n := n) hp hm (fuel := s.length + 2)
        (old := none) (errs := []) (outs := []) (alt := none) (by omega) (by simp)
        (by simpa using hle)
      exact absurd ⟨_, _, h'⟩ h.not_fails
  · rintro ⟨h, hle⟩
    exact repeatedAtLeast_of_many hp h hle

theorem repeatedAtLeast_fails {p : P τ α} (hn : NoPanic p) (hp : Progress p) {n : Nat} {eoi : Span}
    {s : Toks τ} :
    Fails (repeatedAtLeast n p) eoi s ↔ ∃ es xs r, Many p eoi s es xs r ∧ xs.length < n := by
  obtain ⟨es', xs', r', hm⟩ := Many.exists hn hp eoi s.length s (Nat.le_refl _)
  constructor
  · intro h
    refine ⟨es', xs', r', hm, ?_⟩
    apply Nat.lt_of_not_le
    intro hle
    exact (repeatedAtLeast_of_many hp hm hle).not_fails h
  · rintro ⟨es, xs, r, h, hlt⟩
    obtain ⟨es'', e'', h'⟩ := repeatLoop_fails_of_many (n := n) hp h (fuel := s.length + 2)
        (old := none) (errs := []) (outs := []) (alt := none) (by omega) (by simp)
        (by simpa using hlt)
    exact ⟨_, _, h'⟩

theorem repeatedAtLeast_noPanic {p : P τ α} (hn : NoPanic p) (hp : Progress p) {n : Nat} :
    NoPanic (repeatedAtLeast n p) := by
  intro eoi s h
  obtain ⟨es', xs', r', hm⟩ := Many.exists hn hp eoi s.length s (Nat.le_refl _)
  by_cases hle : n ≤ xs'.length
  · obtain ⟨alt, h'⟩ := repeatedAtLeast_of_many hp hm hle
    rw [h] at h'
    cases h'
  · obtain ⟨es, e, h'⟩ := (repeatedAtLeast_fails hn hp).mpr ⟨_, _, _, hm, Nat.lt_of_not_le hle⟩
    rw [h] at h'
    cases h'

theorem repeated_ok {p : P τ α} (hn : NoPanic p) (hp : Progress p) {eoi : Span}
    {s : Toks τ} {es xs r} :
    Ok (repeated p) eoi s es xs r ↔ Many p eoi s es xs r := by
  unfold repeated
  rw [repeatedAtLeast_ok hn hp]
  simp

theorem repeated_fails {p : P τ α} (hn : NoPanic p) (hp : Progress p) {eoi : Span}
    {s : Toks τ} : ¬ Fails (repeated p) eoi s := by
  unfold repeated
  rw [repeatedAtLeast_fails hn hp]
  simp

theorem repeated_noPanic {p : P τ α} (hn : NoPanic p) (hp : Progress p) : NoPanic (repeated p) :=
  repeatedAtLeast_noPanic hn hp

omit [DecidableEq τ] in
theorem Many.clean {p : P τ α} (hc : Clean p) {eoi s es xs r} (h : Many p eoi s es xs r) :
    es = [] := by
  induction h with
  | nil => rfl
  | cons h1 _ ih => rw [hc.1 h1, ih]; rfl

end rep

end HyperIR
