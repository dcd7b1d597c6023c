import Verif.Proofs.ParserSound

/- What the parser does on tokens in front of a line that starts with a statement depends on these tokens and on the first token of that
line only (src/hir_parser.rs:107-426): no statement or instruction goes on there, unless the line before ends with a comma. -/

namespace HyperIR
open Spec

/-- The error with `k` more tokens behind it. -/
def upErr (k : Nat) (e : LErr Token) : LErr Token := { e with rem := e.rem + k }

/-- A result on tokens in front of `h :: t`; the numbers of remaining tokens are counted up to `h`. -/
def upRes {α : Type} (h : Tok) (t : List Tok) : Res Token α → Res Token α
  | .ok es x alt r => .ok (es.map (upErr t.length)) x (alt.map (upErr t.length)) (r ++ h :: t)
  | .err es e => .err (es.map (upErr t.length)) (upErr t.length e)
  | .panic => .panic

/-- Nothing, or tokens that end with a line end which does not stand behind a comma. -/
def LinedToks (s : List Tok) : Prop := s = [] ∨ ∃ l n, s = l ++ [(.newline, n)] ∧ ∀ l' c, l ≠ l' ++ [(.punct ',', c)]

/-- On lined tokens in front of `h` the parser does not look behind `h`.  `i`: it may be used directly at `h`; `o`: it may stop directly
at `h`. -/
def Shut {α : Type} (h : Tok) (i o : Bool) (p : P Token α) : Prop := ∀ s, LinedToks s → (s = [] → i = true) → ∃ R,
  (∀ eoi t, p eoi (s ++ h :: t) = upRes h t R) ∧
  ∀ es x alt r, R = .ok es x alt r → LinedToks r ∧ r.length ≤ s.length ∧ (r = [] → o = true)

section
variable {α β γ : Type} {h : Tok} {i o : Bool}

theorem LinedToks.tail {a : Tok} {s : List Tok} (hs : LinedToks (a :: s)) : LinedToks s := by
  rcases hs with hs | ⟨l, n, hs, hl⟩
  · cases hs
  · cases l with
    | nil => left; simp only [List.nil_append, List.cons.injEq] at hs; exact hs.2
    | cons b l =>
      simp only [List.cons_append, List.cons.injEq] at hs
      obtain ⟨rfl, rfl⟩ := hs
      exact .inr ⟨l, n, rfl, fun l' c e => hl (a :: l') c (by rw [e]; rfl)⟩

theorem LinedToks.drop {a s : List Tok} (hs : LinedToks (a ++ s)) : LinedToks s := by
  induction a with
  | nil => exact hs
  | cons x a ih => exact ih hs.tail

theorem LinedToks.last {a : Tok} (hs : LinedToks [a]) : a.1 = .newline := by
  rcases hs with hs | ⟨l, n, hs, _⟩
  · cases hs
  · cases l with
    | nil => simp at hs; rw [hs]
    | cons b l => simp at hs

theorem Shut.weak {p : P Token α} (hp : Shut h i o p) : Shut h i true p := by
  intro s hs hi
  obtain ⟨R, h1, h2⟩ := hp s hs hi
  exact ⟨R, h1, fun es x alt r e => ⟨(h2 es x alt r e).1, (h2 es x alt r e).2.1, fun _ => rfl⟩⟩

theorem Shut.inner {p : P Token α} (hp : Shut h i o p) : Shut h false o p := by
  intro s hs hi
  exact hp s hs fun e => by cases hi e

/-! ### The errors -/

theorem upErr_rem {k : Nat} {e : LErr Token} : (upErr k e).rem = e.rem + k := rfl
theorem mergeErr_up {k : Nat} {a b : LErr Token} : mergeErr (upErr k a) (upErr k b) = upErr k (mergeErr a b) := rfl

theorem maxErr_up {k : Nat} {a : LErr Token} {b : Option (LErr Token)} : maxErr (upErr k a) (b.map (upErr k)) = upErr k (maxErr a b) := by
  cases b with
  | none => rfl
  | some b =>
    simp only [maxErr, Option.map_some, upErr_rem, Nat.add_lt_add_iff_right]
    by_cases h1 : a.rem < b.rem
    · simp only [h1, if_true]
    · by_cases h2 : b.rem < a.rem
      · simp only [h1, h2, if_true, if_false]
      · simp only [h1, h2, if_false, mergeErr_up]

theorem mergeAlts_up {k : Nat} {a b : Option (LErr Token)} :
    mergeAlts (a.map (upErr k)) (b.map (upErr k)) = (mergeAlts a b).map (upErr k) := by
  cases b with
  | none => rfl
  | some b => simp only [mergeAlts, Option.map_some, maxErr_up]

theorem mergeAlts_some_up {k : Nat} {a : Option (LErr Token)} {b : LErr Token} :
    mergeAlts (a.map (upErr k)) (some (upErr k b)) = (mergeAlts a (some b)).map (upErr k) := mergeAlts_up (b := some b)

theorem lastRem_up {k : Nat} {es : List (LErr Token)} : lastRem (es.map (upErr k)) = (lastRem es).map (· + k) := by
  unfold lastRem
  rw [List.getLast?_map]
  cases es.getLast? <;> rfl

theorem unexpectedAt_up {eoi : Span} {s t : List Tok} {ex : List (Option Token)} :
    unexpectedAt eoi (s ++ h :: t) ex = upErr t.length (unexpectedAt eoi (s ++ [h]) ex) := by
  cases s <;> simp [unexpectedAt, upErr, headSpan, Nat.add_comm, Nat.add_left_comm]

theorem unexpectedAt_eoi {eoi eoi' : Span} {s : List Tok} {ex : List (Option Token)} :
    unexpectedAt eoi (s ++ [h]) ex = unexpectedAt eoi' (s ++ [h]) ex := by cases s <;> rfl

theorem customAt_up {eoi : Span} {s t : List Tok} {m : Str} : customAt eoi (s ++ h :: t) m = upErr t.length (customAt eoi (s ++ [h]) m) := by
  cases s <;> simp [customAt, upErr, headSpan, Nat.add_comm, Nat.add_left_comm]

theorem customAt_eoi {eoi eoi' : Span} {s : List Tok} {m : Str} : customAt eoi (s ++ [h]) m = customAt eoi' (s ++ [h]) m := by cases s <;> rfl

theorem spanSince_up {eoi eoi' : Span} {s r t : List Tok} : spanSince eoi (s ++ h :: t) (r ++ h :: t) = spanSince eoi' (s ++ [h]) (r ++ [h]) := by
  have e : (s ++ h :: t).length - (r ++ h :: t).length - 1 = (s ++ [h]).length - (r ++ [h]).length - 1 := by
    simp only [List.length_append, List.length_cons, List.length_nil]; omega
  have hlt : (s ++ [h]).length - (r ++ [h]).length - 1 < (s ++ [h]).length := by simp; omega
  have e2 : (s ++ h :: t)[(s ++ [h]).length - (r ++ [h]).length - 1]? = (s ++ [h])[(s ++ [h]).length - (r ++ [h]).length - 1]? := by
    rw [show s ++ h :: t = (s ++ [h]) ++ t by simp, List.getElem?_append_left hlt]
  unfold spanSince
  rw [e, e2, List.getElem?_eq_getElem hlt]
  congr 1
  cases s <;> rfl

/-! ### The combinators -/

/-- No end-of-input span matters in front of `h`. -/
def noEoi : Span := ⟨0, 0⟩

theorem satisfy_shut {f : Token → Bool} {ex} (hi : i = true → f h.1 = false) (ho : o = false → f .newline = false) :
    Shut h i o (satisfy f ex) := by
  intro s hs hsi
  cases s with
  | nil =>
    refine ⟨.err [] (unexpectedAt noEoi [h] ex), fun eoi t => ?_, by intro es x alt r e; cases e⟩
    have := unexpectedAt_up (h := h) (eoi := eoi) (s := []) (t := t) (ex := ex)
    simp only [List.nil_append] at this ⊢
    simp only [satisfy, hi (hsi rfl), upRes, List.map_nil, this]
    rfl
  | cons a s =>
    by_cases hf : f a.1 = true
    · refine ⟨.ok [] a.1 none s, fun eoi t => by simp [satisfy, hf, upRes], ?_⟩
      intro es x alt r e
      cases e
      refine ⟨hs.tail, by simp, ?_⟩
      rintro rfl
      cases o with
      | true => rfl
      | false => rw [hs.last, ho rfl] at hf; cases hf
    · refine ⟨.err [] (unexpectedAt noEoi (a :: s ++ [h]) ex), fun eoi t => ?_, by intro es x alt r e; cases e⟩
      have := unexpectedAt_up (h := h) (eoi := eoi) (s := a :: s) (t := t) (ex := ex)
      simp only [List.cons_append] at this ⊢
      simp only [satisfy, Bool.not_eq_true _ ▸ hf, upRes, List.map_nil, this]
      rfl

theorem pfilterMap_shut {f : Token → Span → Option α} {m} (hi : i = true → f h.1 h.2 = none) (ho : o = false → ∀ sp, f .newline sp = none) :
    Shut h i o (pfilterMap f m) := by
  intro s hs hsi
  cases s with
  | nil =>
    refine ⟨.err [] (customAt noEoi [h] m), fun eoi t => ?_, by intro es x alt r e; cases e⟩
    have := customAt_up (h := h) (eoi := eoi) (s := []) (t := t) (m := m)
    simp only [List.nil_append] at this ⊢
    simp only [pfilterMap, hi (hsi rfl), upRes, List.map_nil, this]
    rfl
  | cons a s =>
    cases hf : f a.1 a.2 with
    | some x =>
      refine ⟨.ok [] x none s, fun eoi t => by simp [pfilterMap, hf, upRes], ?_⟩
      intro es x alt r e
      cases e
      refine ⟨hs.tail, by simp, ?_⟩
      rintro rfl
      cases o with
      | true => rfl
      | false => rw [hs.last, ho rfl] at hf; cases hf
    | none =>
      refine ⟨.err [] (customAt noEoi (a :: s ++ [h]) m), fun eoi t => ?_, by intro es x alt r e; cases e⟩
      have := customAt_up (h := h) (eoi := eoi) (s := a :: s) (t := t) (m := m)
      simp only [List.cons_append] at this ⊢
      simp only [pfilterMap, hf, upRes, List.map_nil, this]
      rfl

theorem pend_shut : Shut h true o (pend : P Token Unit) := by
  intro s hs _
  refine ⟨.err [] (unexpectedAt noEoi (s ++ [h]) [none]), fun eoi t => ?_, by intro es x alt r e; cases e⟩
  have := unexpectedAt_up (h := h) (eoi := eoi) (s := s) (t := t) (ex := [none])
  rw [unexpectedAt_eoi (eoi' := noEoi)] at this
  cases s <;> (simp only [List.nil_append, List.cons_append] at this ⊢; simp only [pend, upRes, List.map_nil, this])

theorem pmap_shut {f : α → β} {p : P Token α} (hp : Shut h i o p) : Shut h i o (pmap f p) := by
  intro s hs hi
  obtain ⟨R, h1, h2⟩ := hp s hs hi
  cases R with
  | panic => exact ⟨.panic, fun eoi t => by simp [pmap, h1, upRes], by intro es x alt r e; cases e⟩
  | err es e => exact ⟨.err es e, fun eoi t => by simp [pmap, h1, upRes], by intro es x alt r e; cases e⟩
  | ok es x alt r =>
    refine ⟨.ok es (f x) alt r, fun eoi t => by simp [pmap, h1, upRes], ?_⟩
    intro es' x' alt' r' e
    cases e
    exact h2 _ _ _ _ rfl

theorem pmapOutcome_shut {f : α → Outcome β} {p : P Token α} (hp : Shut h i o p) : Shut h i o (pmapOutcome f p) := by
  intro s hs hi
  obtain ⟨R, h1, h2⟩ := hp s hs hi
  cases R with
  | panic => exact ⟨.panic, fun eoi t => by simp [pmapOutcome, h1, upRes], by intro es x alt r e; cases e⟩
  | err es e => exact ⟨.err es e, fun eoi t => by simp [pmapOutcome, h1, upRes], by intro es x alt r e; cases e⟩
  | ok es x alt r =>
    cases hf : f x with
    | panic => exact ⟨.panic, fun eoi t => by simp [pmapOutcome, h1, upRes, hf], by intro es x alt r e; cases e⟩
    | ok y =>
      refine ⟨.ok es y alt r, fun eoi t => by simp [pmapOutcome, h1, upRes, hf], ?_⟩
      intro es' x' alt' r' e
      cases e
      exact h2 _ _ _ _ rfl

theorem pmapSpan_shut {f : α → Span → β} {p : P Token α} (hp : Shut h i o p) : Shut h i o (pmapSpan f p) := by
  intro s hs hi
  obtain ⟨R, h1, h2⟩ := hp s hs hi
  cases R with
  | panic => exact ⟨.panic, fun eoi t => by simp [pmapSpan, h1, upRes], by intro es x alt r e; cases e⟩
  | err es e => exact ⟨.err es e, fun eoi t => by simp [pmapSpan, h1, upRes], by intro es x alt r e; cases e⟩
  | ok es x alt r =>
    refine ⟨.ok es (f x (spanSince noEoi (s ++ [h]) (r ++ [h]))) alt r, fun eoi t => ?_, ?_⟩
    · simp only [pmapSpan, h1, upRes, spanSince_up (eoi := eoi) (eoi' := noEoi)]
    · intro es' x' alt' r' e
      cases e
      exact h2 _ _ _ _ rfl

theorem pthen_shut {i' o' : Bool} {p : P Token α} {q : P Token β} (hp : Shut h i o p) (hq : Shut h i' o' q) (ho : o = true → i' = true) :
    Shut h i o' (pthen p q) := by
  intro s hs hi
  obtain ⟨R, h1, h2⟩ := hp s hs hi
  cases R with
  | panic => exact ⟨.panic, fun eoi t => by simp [pthen, h1, upRes], by intro es x alt r e; cases e⟩
  | err es e => exact ⟨.err es e, fun eoi t => by simp [pthen, h1, upRes], by intro es x alt r e; cases e⟩
  | ok es x alt r =>
    obtain ⟨l1, l2, l3⟩ := h2 _ _ _ _ rfl
    obtain ⟨R', h3, h4⟩ := hq r l1 (fun e => ho (l3 e))
    cases R' with
    | panic => exact ⟨.panic, fun eoi t => by simp [pthen, h1, h3, upRes], by intro es x alt r e; cases e⟩
    | err es' e =>
      exact ⟨.err (es ++ es') (maxErr e alt), fun eoi t => by simp [pthen, h1, h3, upRes, maxErr_up], by intro es x alt r e; cases e⟩
    | ok es' y alt' r' =>
      refine ⟨.ok (es ++ es') (x, y) (mergeAlts alt alt') r', fun eoi t => by simp [pthen, h1, h3, upRes, mergeAlts_up], ?_⟩
      intro es' x' alt' r' e
      cases e
      obtain ⟨k1, k2, k3⟩ := h4 _ _ _ _ rfl
      exact ⟨k1, by omega, k3⟩

theorem thenIgnore_shut {i' o' : Bool} {p : P Token α} {q : P Token β} (hp : Shut h i o p) (hq : Shut h i' o' q) (ho : o = true → i' = true) :
    Shut h i o' (thenIgnore p q) := pmap_shut (pthen_shut hp hq ho)

theorem ignoreThen_shut {i' o' : Bool} {p : P Token α} {q : P Token β} (hp : Shut h i o p) (hq : Shut h i' o' q) (ho : o = true → i' = true) :
    Shut h i o' (ignoreThen p q) := pmap_shut (pthen_shut hp hq ho)

theorem por_shut {p q : P Token α} (hp : Shut h i o p) (hq : Shut h i o q) : Shut h i o (por p q) := by
  intro s hs hi
  obtain ⟨R, h1, h2⟩ := hp s hs hi
  obtain ⟨R', h3, h4⟩ := hq s hs hi
  cases R with
  | panic => exact ⟨.panic, fun eoi t => by simp [por, h1, upRes], by intro es x alt r e; cases e⟩
  | ok es x alt r =>
    cases es with
    | nil =>
      refine ⟨.ok [] x alt r, fun eoi t => by simp [por, h1, upRes], ?_⟩
      intro es x alt r e
      cases e
      exact h2 _ _ _ _ rfl
    | cons e es =>
      cases R' with
      | panic => exact ⟨.panic, fun eoi t => by simp [por, h1, h3, upRes], by intro es x alt r e; cases e⟩
      | err es' e' =>
        refine ⟨.ok (e :: es) x (mergeAlts alt (some e')) r, fun eoi t => by simp [por, h1, h3, upRes, mergeAlts_some_up], ?_⟩
        intro es x alt r e
        cases e
        exact h2 _ _ _ _ rfl
      | ok es' y alt' r' =>
        cases es' with
        | nil =>
          refine ⟨.ok [] y alt' r', fun eoi t => by simp [por, h1, h3, upRes], ?_⟩
          intro es x alt r e
          cases e
          exact h4 _ _ _ _ rfl
        | cons e' es' =>
          refine ⟨match lastRem (e :: es), lastRem (e' :: es') with
            | some ra, some rb =>
              if rb < ra then .ok (e' :: es') y alt' r'
              else if ra < rb then .ok (e :: es) x alt r
              else if es'.length < es.length then .ok (e' :: es') y alt' r'
              else .ok (e :: es) x alt r
            | _, _ => .ok (e :: es) x alt r, fun eoi t => ?_, ?_⟩
          · simp only [por, h1, h3, upRes, List.map_cons]
            rw [← List.map_cons, ← List.map_cons, lastRem_up, lastRem_up]
            cases lastRem (e :: es) with
            | none => simp [upRes]
            | some ra =>
              cases lastRem (e' :: es') with
              | none => simp [upRes]
              | some rb =>
                simp only [Option.map_some, Nat.add_lt_add_iff_right, List.length_map]
                split
                · simp [upRes]
                · split
                  · simp [upRes]
                  · split <;> simp [upRes]
          · intro es0 x0 alt0 r0 e0
            have : (Res.ok es0 x0 alt0 r0 : Res Token α) = .ok (e :: es) x alt r ∨ (Res.ok es0 x0 alt0 r0 : Res Token α) = .ok (e' :: es') y alt' r' := by
              rw [← e0]
              split
              · split
                · exact .inr rfl
                · split
                  · exact .inl rfl
                  · split
                    · exact .inr rfl
                    · exact .inl rfl
              · exact .inl rfl
            rcases this with e | e
            · exact h2 _ _ _ _ e.symm
            · exact h4 _ _ _ _ e.symm
  | err esa ea =>
    cases R' with
    | panic => exact ⟨.panic, fun eoi t => by simp [por, h1, h3, upRes], by intro es x alt r e; cases e⟩
    | ok es y alt r =>
      refine ⟨.ok es y (mergeAlts alt (some ea)) r, fun eoi t => by simp [por, h1, h3, upRes, mergeAlts_some_up], ?_⟩
      intro es x alt r e
      cases e
      exact h4 _ _ _ _ rfl
    | err esb eb =>
      refine ⟨if ea.rem < eb.rem then .err esa ea else if eb.rem < ea.rem then .err esb eb else .err esa (maxErr ea (some eb)), fun eoi t => ?_, ?_⟩
      · simp only [por, h1, h3, upRes, upErr_rem, Nat.add_lt_add_iff_right]
        split
        · simp [upRes]
        · split
          · simp [upRes]
          · simp only [upRes, Res.err.injEq, true_and]
            exact maxErr_up (b := some eb)
      · intro es x alt r e
        split at e
        · cases e
        · split at e <;> cases e

theorem orNot_shut {p : P Token α} (hp : Shut h i o p) (hio : i = true → o = true) : Shut h i o (orNot p) := by
  intro s hs hi
  obtain ⟨R, h1, h2⟩ := hp s hs hi
  cases R with
  | panic => exact ⟨.panic, fun eoi t => by simp [orNot, h1, upRes], by intro es x alt r e; cases e⟩
  | err es e =>
    refine ⟨.ok [] none (some e) s, fun eoi t => by simp [orNot, h1, upRes], ?_⟩
    intro es x alt r e
    cases e
    exact ⟨hs, Nat.le_refl _, fun e => hio (hi e)⟩
  | ok es x alt r =>
    refine ⟨.ok es (some x) alt r, fun eoi t => by simp [orNot, h1, upRes], ?_⟩
    intro es' x' alt' r' e
    cases e
    exact h2 _ _ _ _ rfl

theorem rewind_shut {o' : Bool} {p : P Token α} (hp : Shut h i o' p) (hio : i = true → o = true) : Shut h i o (rewind p) := by
  intro s hs hi
  obtain ⟨R, h1, h2⟩ := hp s hs hi
  cases R with
  | panic => exact ⟨.panic, fun eoi t => by simp [rewind, h1, upRes], by intro es x alt r e; cases e⟩
  | err es e => exact ⟨.err es e, fun eoi t => by simp [rewind, h1, upRes], by intro es x alt r e; cases e⟩
  | ok es x alt r =>
    refine ⟨.ok es x alt s, fun eoi t => by simp [rewind, h1, upRes], ?_⟩
    intro es' x' alt' r' e
    cases e
    exact ⟨hs, Nat.le_refl _, fun e => hio (hi e)⟩

theorem pnot_shut {o' : Bool} {p : P Token α} (hp : Shut h false o' p)
    (hn : ∀ eoi sp s, ∃ es x alt r, p eoi ((.newline, sp) :: s) = .ok es x alt r) : Shut h false false (pnot p) := by
  intro s hs hi
  obtain ⟨R, h1, h2⟩ := hp s hs hi
  cases s with
  | nil => cases hi rfl
  | cons a s =>
    cases R with
    | panic => exact ⟨.panic, fun eoi t => by simp only [pnot, h1, upRes], by intro es x alt r e; cases e⟩
    | err es e =>
      refine ⟨.ok [] a.1 none s, fun eoi t => ?_, ?_⟩
      · simp only [pnot, h1, upRes]; simp
      · intro es' x' alt' r' e'
        cases e'
        refine ⟨hs.tail, by simp, ?_⟩
        rintro rfl
        obtain ⟨k, sp⟩ := a
        cases hs.last
        obtain ⟨es', x', alt', r', e'⟩ := hn noEoi sp [h]
        have := h1 noEoi []
        simp only [List.cons_append, List.nil_append] at this
        rw [e'] at this
        simp [upRes] at this
    | ok es x alt r =>
      refine ⟨.err [] (unexpectedAt noEoi (a :: s ++ [h]) []), fun eoi t => ?_, by intro es x alt r e; cases e⟩
      have := unexpectedAt_up (h := h) (eoi := eoi) (s := a :: s) (t := t) (ex := [])
      simp only [pnot, h1, upRes, this, List.map_nil]
      rfl

theorem validate_shut {f : α → Option Str} {p : P Token α} (hp : Shut h i o p) : Shut h i o (validate f p) := by
  intro s hs hi
  obtain ⟨R, h1, h2⟩ := hp s hs hi
  cases R with
  | panic => exact ⟨.panic, fun eoi t => by simp [validate, h1, upRes], by intro es x alt r e; cases e⟩
  | err es e => exact ⟨.err es e, fun eoi t => by simp [validate, h1, upRes], by intro es x alt r e; cases e⟩
  | ok es x alt r =>
    cases hf : f x with
    | none =>
      refine ⟨.ok es x alt r, fun eoi t => by simp [validate, h1, upRes, hf], ?_⟩
      intro es' x' alt' r' e
      cases e
      exact h2 _ _ _ _ rfl
    | some m =>
      refine ⟨.ok (es ++ [⟨r.length + 1, spanSince noEoi (s ++ [h]) (r ++ [h]), .custom m, [], none⟩]) x alt r, fun eoi t => ?_, ?_⟩
      · simp only [validate, h1, upRes, hf, spanSince_up (eoi := eoi) (eoi' := noEoi), List.map_append, List.map_cons, List.map_nil, upErr,
          List.length_append, List.length_cons]
        congr 4
        omega
      · intro es' x' alt' r' e
        cases e
        exact h2 _ _ _ _ rfl

theorem repeatLoop_shut {p : P Token α} {n : Nat} (hp : Shut h i o p) (hpr : Progress p) (hoi : o = true → i = true) : ∀ (k : Nat) (s : List Tok),
    s.length ≤ k → LinedToks s → (s = [] → i = true) → ∀ (errs : List (LErr Token)) (outs : List α) (alt : Option (LErr Token)), ∃ R,
      (∀ eoi t fuel old, s.length + 2 ≤ fuel → (∀ m, old = some m → (s ++ h :: t).length ≤ m) →
        repeatLoop p n eoi fuel old (errs.map (upErr t.length)) outs (alt.map (upErr t.length)) (s ++ h :: t) = upRes h t R) ∧
      ∀ es x alt r, R = .ok es x alt r → LinedToks r ∧ r.length ≤ s.length ∧ (r = [] → i = true)
  | k, s, hk, hs, hi, errs, outs, alt => by
    obtain ⟨R, h1, h2⟩ := hp s hs hi
    cases R with
    | panic =>
      refine ⟨.panic, fun eoi t fuel old hf _ => ?_, by intro es x alt r e; cases e⟩
      obtain ⟨fuel, rfl⟩ : ∃ m, fuel = m + 1 := ⟨fuel - 1, by omega⟩
      simp [repeatLoop, h1, upRes]
    | err es e =>
      by_cases hn : outs.length < n
      · refine ⟨.err (errs ++ es) e, fun eoi t fuel old hf _ => ?_, by intro es x alt r e; cases e⟩
        obtain ⟨fuel, rfl⟩ : ∃ m, fuel = m + 1 := ⟨fuel - 1, by omega⟩
        simp [repeatLoop, h1, upRes, hn]
      · refine ⟨.ok errs outs (mergeAlts alt (some e)) s, fun eoi t fuel old hf _ => ?_, ?_⟩
        · obtain ⟨fuel, rfl⟩ : ∃ m, fuel = m + 1 := ⟨fuel - 1, by omega⟩
          simp [repeatLoop, h1, upRes, hn, mergeAlts_some_up]
        · intro es x alt r e
          cases e
          exact ⟨hs, Nat.le_refl _, hi⟩
    | ok es x al r =>
      obtain ⟨l1, l2, l3⟩ := h2 _ _ _ _ rfl
      have hlt : r.length < s.length := by
        have := hpr ⟨_, h1 noEoi []⟩
        simpa using this
      have hk' : r.length ≤ k - 1 := by omega
      obtain ⟨R', h3, h4⟩ := repeatLoop_shut (n := n) hp hpr hoi (k - 1) r hk' l1 (fun e => hoi (l3 e)) (errs ++ es) (outs ++ [x]) (mergeAlts alt al)
      refine ⟨R', fun eoi t fuel old hf hold => ?_, ?_⟩
      · obtain ⟨fuel, rfl⟩ : ∃ m, fuel = m + 1 := ⟨fuel - 1, by omega⟩
        have hne : old ≠ some (r ++ h :: t).length := by
          intro e
          have := hold _ e
          simp at this
          omega
        have := h3 eoi t fuel (some (r ++ h :: t).length) (by omega) (by intro m e; cases e; exact Nat.le_refl _)
        simp only [List.map_append, ← mergeAlts_up] at this
        simp only [repeatLoop, h1, upRes, if_neg hne]
        exact this
      · intro es x alt r' e
        obtain ⟨k1, k2, k3⟩ := h4 _ _ _ _ e
        exact ⟨k1, by omega, k3⟩
  termination_by k s hk => s.length

theorem repeatedAtLeast_shut {p : P Token α} {n : Nat} (hp : Shut h i o p) (hpr : Progress p) (hoi : o = true → i = true) :
    Shut h i i (repeatedAtLeast n p) := by
  intro s hs hi
  obtain ⟨R, h1, h2⟩ := repeatLoop_shut (n := n) hp hpr hoi s.length s (Nat.le_refl _) hs hi [] [] none
  refine ⟨R, fun eoi t => ?_, h2⟩
  exact h1 eoi t _ none (by simp) (by intro m e; cases e)

theorem repeated_shut {p : P Token α} (hp : Shut h i o p) (hpr : Progress p) (hoi : o = true → i = true) : Shut h i i (repeated p) :=
  repeatedAtLeast_shut hp hpr hoi

theorem sepLoop_shut {p : P Token α} {q : P Token β} (hp : Shut h false false p) (hq : Shut h false false q) (hpr : Progress q) :
    ∀ (k : Nat) (s : List Tok), s.length ≤ k → LinedToks s → s ≠ [] → ∀ (errs : List (LErr Token)) (outs : List α) (alt : Option (LErr Token)), ∃ R,
      (∀ eoi t fuel, s.length + 1 ≤ fuel →
        sepLoop p q eoi fuel (errs.map (upErr t.length)) outs (alt.map (upErr t.length)) (s ++ h :: t) = upRes h t R) ∧
      ∀ es x alt r, R = .ok es x alt r → LinedToks r ∧ r.length ≤ s.length ∧ r ≠ []
  | k, s, hk, hs, hne, errs, outs, alt => by
    obtain ⟨R, h1, h2⟩ := hq s hs (fun e => absurd e hne)
    cases R with
    | panic =>
      refine ⟨.panic, fun eoi t fuel hf => ?_, by intro es x alt r e; cases e⟩
      obtain ⟨fuel, rfl⟩ : ∃ m, fuel = m + 1 := ⟨fuel - 1, by omega⟩
      simp [sepLoop, h1, upRes]
    | err es e =>
      refine ⟨.ok (errs ++ es) outs (mergeAlts alt (some e)) s, fun eoi t fuel hf => ?_, ?_⟩
      · obtain ⟨fuel, rfl⟩ : ∃ m, fuel = m + 1 := ⟨fuel - 1, by omega⟩
        simp [sepLoop, h1, upRes, mergeAlts_some_up]
      · intro es x alt r e
        cases e
        exact ⟨hs, Nat.le_refl _, hne⟩
    | ok es y al r =>
      obtain ⟨l1, l2, l3⟩ := h2 _ _ _ _ rfl
      have hlt : r.length < s.length := by
        have := hpr ⟨_, h1 noEoi []⟩
        simpa using this
      obtain ⟨R', h3, h4⟩ := hp r l1 (fun e => absurd (l3 e) (by simp))
      cases R' with
      | panic =>
        refine ⟨.panic, fun eoi t fuel hf => ?_, by intro es x alt r e; cases e⟩
        obtain ⟨fuel, rfl⟩ : ∃ m, fuel = m + 1 := ⟨fuel - 1, by omega⟩
        simp [sepLoop, h1, h3, upRes]
      | err es' e =>
        refine ⟨.ok (errs ++ es ++ es') outs (mergeAlts (mergeAlts alt al) (some e)) s, fun eoi t fuel hf => ?_, ?_⟩
        · obtain ⟨fuel, rfl⟩ : ∃ m, fuel = m + 1 := ⟨fuel - 1, by omega⟩
          simp [sepLoop, h1, h3, upRes, mergeAlts_up, mergeAlts_some_up]
        · intro es x alt r e
          cases e
          exact ⟨hs, Nat.le_refl _, hne⟩
      | ok es' x al' r' =>
        obtain ⟨k1, k2, k3⟩ := h4 _ _ _ _ rfl
        obtain ⟨R'', h5, h6⟩ := sepLoop_shut hp hq hpr (k - 1) r' (by omega) k1 (fun e => absurd (k3 e) (by simp)) (errs ++ es ++ es') (outs ++ [x])
          (mergeAlts (mergeAlts alt al) al')
        refine ⟨R'', fun eoi t fuel hf => ?_, ?_⟩
        · obtain ⟨fuel, rfl⟩ : ∃ m, fuel = m + 1 := ⟨fuel - 1, by omega⟩
          have := h5 eoi t fuel (by omega)
          simp only [List.map_append, ← mergeAlts_up] at this
          simp only [sepLoop, h1, h3, upRes]
          exact this
        · intro es x alt r e
          obtain ⟨m1, m2, m3⟩ := h6 _ _ _ _ e
          exact ⟨m1, by omega, m3⟩
  termination_by k s hk => s.length

theorem separatedBy_shut {p : P Token α} {q : P Token β} (hp : Shut h false false p) (hq : Shut h false false q) (hpr : Progress q) :
    Shut h false false (separatedBy p q) := by
  intro s hs hi
  obtain ⟨R, h1, h2⟩ := hp s hs hi
  cases R with
  | panic => exact ⟨.panic, fun eoi t => by simp [separatedBy, h1, upRes], by intro es x alt r e; cases e⟩
  | err es e =>
    refine ⟨.ok es [] (some e) s, fun eoi t => by simp [separatedBy, h1, upRes], ?_⟩
    intro es x alt r e
    cases e
    exact ⟨hs, Nat.le_refl _, fun e => hi e⟩
  | ok es x al r =>
    obtain ⟨l1, l2, l3⟩ := h2 _ _ _ _ rfl
    obtain ⟨R', h3, h4⟩ := sepLoop_shut hp hq hpr r.length r (Nat.le_refl _) l1 (fun e => absurd (l3 e) (by simp)) es [x] al
    refine ⟨R', fun eoi t => ?_, ?_⟩
    · have := h3 eoi t ((s ++ h :: t).length + 1) (by simp; omega)
      simp only [separatedBy, h1, upRes]
      exact this
    · intro es x alt r' e
      obtain ⟨m1, m2, m3⟩ := h4 _ _ _ _ e
      exact ⟨m1, by omega, fun e => absurd e m3⟩

theorem delimitedBy_shut {o1 i2 o2 i3 o3 : Bool} {l : P Token β} {r : P Token γ} {p : P Token α} (hl : Shut h i o1 l) (hp : Shut h i2 o2 p)
    (hr : Shut h i3 o3 r) (h1 : o1 = true → i2 = true) (h2 : o2 = true → i3 = true) : Shut h i o3 (delimitedBy l r p) :=
  thenIgnore_shut (ignoreThen_shut hl hp h1) hr h2

end

/-! ### The parser's parts -/

/-- The token starts a statement (src/hir_parser.rs:112-116, 144-153, 390-416). -/
def Starts (h : Tok) : Prop := (∃ n, h.1 = .globalName n) ∨ (∃ n, h.1 = .debugRef n) ∨ h.1 = .declare ∨ h.1 = .define

section
variable {h : Tok} {i o : Bool}

theorem just_shut {t : Token} (h1 : i = true → h.1 ≠ t) (h2 : o = false → t ≠ .newline) : Shut h i o (just t) :=
  satisfy_shut (fun e => by simpa using h1 e) (fun e => by simpa using (h2 e).symm)

theorem noneOf_shut {ts : List Token} (h1 : o = false → Token.newline ∈ ts) : Shut h false o (noneOf ts) :=
  satisfy_shut (fun e => by cases e) (fun e => by simpa using h1 e)

theorem pany_shut : Shut h false true (pany : P Token Token) := satisfy_shut (fun e => by cases e) (fun e => by cases e)

variable (hh : Starts h)
include hh

theorem Starts.facts : (∀ c, h.1 ≠ .punct c) ∧ (∀ s, h.1 ≠ .ident s) ∧ (∀ s, h.1 ≠ .type s) ∧ (∀ s, h.1 ≠ .localName s) ∧ h.1 ≠ .newline ∧
    (∀ s, h.1 ≠ .hexNum s) ∧ (∀ s, h.1 ≠ .funcModifier s) := by
  rcases hh with ⟨n, e⟩ | ⟨n, e⟩ | e | e <;> rw [e] <;> simp

theorem pPunct_shut {c : Char} : Shut h true false (pPunct c) := just_shut (fun _ => hh.facts.1 c) (fun _ => by simp)
theorem pKeyword_shut {s : Str} : Shut h true false (pKeyword s) := just_shut (fun _ => hh.facts.2.1 s) (fun _ => by simp)
theorem pNewline_shut : Shut h true true pNewline := just_shut (fun _ => hh.facts.2.2.2.2.1) (fun e => by cases e)
theorem pEol_shut : Shut h true true pEol := por_shut (pNewline_shut hh) (pmap_shut pend_shut)
theorem pIdent_shut : Shut h true false pIdent := by
  refine pfilterMap_shut (fun _ => ?_) (fun _ _ => rfl)
  have := hh.facts.2.1
  generalize h.1 = x at this
  cases x <;> simp_all
theorem pType_shut : Shut h true false pType := by
  refine pfilterMap_shut (fun _ => ?_) (fun _ _ => rfl)
  have := hh.facts.2.2.1
  generalize h.1 = x at this
  cases x <;> simp_all
theorem pLocalName_shut : Shut h true false pLocalName := by
  refine pfilterMap_shut (fun _ => ?_) (fun _ _ => rfl)
  have := hh.facts.2.2.2.1
  generalize h.1 = x at this
  cases x <;> simp_all
theorem pHexnum_shut : Shut h true false pHexnum := by
  refine pfilterMap_shut (fun _ => ?_) (fun _ _ => rfl)
  have := hh.facts.2.2.2.2.2.1
  generalize h.1 = x at this
  cases x <;> simp_all
theorem pFuncModifier_shut : Shut h true false pFuncModifier := by
  refine pfilterMap_shut (fun _ => ?_) (fun _ _ => rfl)
  have := hh.facts.2.2.2.2.2.2
  generalize h.1 = x at this
  cases x <;> simp_all

omit hh in
theorem pGlobalName_shut : Shut h false false pGlobalName := pfilterMap_shut (fun e => by cases e) (fun _ _ => rfl)
omit hh in
theorem pDbgRef_shut : Shut h false false pDbgRef := pfilterMap_shut (fun e => by cases e) (fun _ _ => rfl)

/-- One thing skipped among the operands: in front of `h` a comma is not the last but one token. -/
theorem skipComma_shut {kw : Str} : Shut h false false (thenIgnore (pPunct ',') (noneOf [Token.ident kw])) := by
  intro s hs hi
  obtain ⟨R, h1, h2⟩ := thenIgnore_shut (pPunct_shut hh (c := ',')) (noneOf_shut (h := h) (o := true) (ts := [Token.ident kw]) (by simp)) (by simp) s hs (by simp)
  refine ⟨R, h1, fun es x alt r e => ?_⟩
  obtain ⟨k1, k2, k3⟩ := h2 es x alt r e
  refine ⟨k1, k2, ?_⟩
  rintro rfl
  exfalso
  subst e
  have := h1 noEoi []
  rcases hs with rfl | ⟨l, n, rfl, hl⟩
  · cases hi rfl
  · cases l with
    | nil => simp [thenIgnore, pmap, pthen, pPunct, just, satisfy, upRes] at this
    | cons a l =>
      obtain ⟨k, sp⟩ := a
      by_cases hk : k = .punct ','
      · subst hk
        cases l with
        | nil => exact hl [] sp rfl
        | cons b l =>
          have hlen : ∀ {z : Res Token Token}, z = upRes h [] (Res.ok es x alt []) → ∃ es' x' alt', z = .ok es' x' alt' [h] := by
            rintro z rfl; exact ⟨_, _, _, rfl⟩
          obtain ⟨_, _, _, e⟩ := hlen this
          by_cases hb : b.1 = Token.ident kw
          · simp [thenIgnore, pmap, pthen, pPunct, just, satisfy, noneOf, hb] at e
          · simp [thenIgnore, pmap, pthen, pPunct, just, satisfy, noneOf, hb] at e
            have := congrArg List.length e.2.2.2
            simp at this
      · simp [thenIgnore, pmap, pthen, pPunct, just, satisfy, upRes, hk] at this

theorem pSkipOperands_shut {kw : Str} : Shut h false false (pSkipOperands kw) :=
  repeated_shut (p := skipItem kw) (por_shut (noneOf_shut (by simp)) (skipComma_shut hh)) skipItem_progress (by simp)

theorem pTokenSoup_shut : Shut h false false pTokenSoup :=
  repeated_shut (pmapSpan_shut (noneOf_shut (o := false) (by simp))) soupItem_progress (by simp)

theorem pGlobalVar_shut : Shut h false true pGlobalVar :=
  pmap_shut (thenIgnore_shut (pthen_shut (thenIgnore_shut pGlobalName_shut (pPunct_shut hh) (by simp)) (pTokenSoup_shut hh) (by simp)) (pEol_shut hh) (by simp))

theorem pDbgAnnotation_shut : Shut h false true pDbgAnnotation :=
  pmap_shut (thenIgnore_shut (pthen_shut (thenIgnore_shut pDbgRef_shut (pPunct_shut hh) (by simp)) (pTokenSoup_shut hh) (by simp)) (pEol_shut hh) (by simp))

theorem pFuncArgs_shut : Shut h false false pFuncArgs :=
  separatedBy_shut (pmap_shut (pthen_shut (pType_shut hh).inner (pLocalName_shut hh) (by simp))) (pPunct_shut hh).inner pPunct_progress

theorem pFuncSignature_shut : Shut h false false pFuncSignature :=
  pmap_shut (pthen_shut (pthen_shut (pthen_shut (repeated_shut (pFuncModifier_shut hh).inner pFuncModifier_progress (by simp)) (pType_shut hh) (by simp)) pGlobalName_shut (by simp))
    (delimitedBy_shut (pPunct_shut hh) (pFuncArgs_shut hh) (pPunct_shut hh) (by simp) (by simp)) (by simp))

theorem pFuncDecl_shut : Shut h false true pFuncDecl :=
  pmap_shut (thenIgnore_shut (pthen_shut (pthen_shut (ignoreThen_shut (just_shut (i := false) (o := false) (by simp) (by simp)) (pFuncSignature_shut hh) (by simp))
    (orNot_shut (ignoreThen_shut (pPunct_shut hh).inner (pHexnum_shut hh) (by simp)) (by simp)) (by simp)) (orNot_shut pDbgRef_shut (by simp)) (by simp))
    (pEol_shut hh) (by simp))

theorem pFuncDependencies_shut : Shut h false true pFuncDependencies :=
  (pmap_shut (pthen_shut (thenIgnore_shut (thenIgnore_shut pGlobalName_shut (pKeyword_shut hh) (by simp)) (pKeyword_shut hh) (by simp))
    (separatedBy_shut pGlobalName_shut (pPunct_shut hh).inner pPunct_progress) (by simp))).weak

theorem pNewlineAhead_shut : Shut h false false pNewlineAhead := rewind_shut (pNewline_shut hh).inner (by simp)

omit hh in
theorem optDbg_shut : Shut h false false (orNot pDbgRef) := orNot_shut pDbgRef_shut (by simp)

theorem pKeywordSpan_shut {s : Str} : Shut h true false (pKeywordSpan s) := pmapSpan_shut (pKeyword_shut hh)

theorem pBr_shut : Shut h true false pBr :=
  pmapSpan_shut (thenIgnore_shut (pthen_shut (pthen_shut (pKeywordSpan_shut hh) (pIdent_shut hh) (by simp)) optDbg_shut (by simp)) (pNewlineAhead_shut hh) (by simp))

theorem pCondBr_shut : Shut h true false pCondBr :=
  pmapSpan_shut (thenIgnore_shut (pthen_shut (pthen_shut (thenIgnore_shut (pthen_shut (thenIgnore_shut (thenIgnore_shut (thenIgnore_shut (pKeywordSpan_shut hh)
    (just_shut (i := false) (o := false) (by simp) (by simp)) (by simp)) pany_shut (by simp)) (pPunct_shut hh) (by simp)) (pIdent_shut hh) (by simp)) (pPunct_shut hh) (by simp))
    (pIdent_shut hh) (by simp)) optDbg_shut (by simp)) (pNewlineAhead_shut hh) (by simp))

theorem pOverflowBr_shut : Shut h true false pOverflowBr :=
  pmapSpan_shut (thenIgnore_shut (pthen_shut (pthen_shut (thenIgnore_shut (thenIgnore_shut (thenIgnore_shut (pthen_shut (thenIgnore_shut (thenIgnore_shut (thenIgnore_shut
    (thenIgnore_shut (validate_shut (pIdent_shut hh)) (pSkipOperands_shut hh) (by simp)) (pPunct_shut hh) (by simp)) (pKeyword_shut hh) (by simp)) (pPunct_shut hh) (by simp))
    (pIdent_shut hh) (by simp)) (pPunct_shut hh) (by simp)) (pKeyword_shut hh) (by simp)) (pPunct_shut hh) (by simp)) (pIdent_shut hh) (by simp)) optDbg_shut (by simp))
    (pNewlineAhead_shut hh) (by simp))

theorem pSwitchCase_shut : Shut h true false pSwitchCase :=
  ignoreThen_shut (pthen_shut (pthen_shut (pthen_shut (pType_shut hh) pany_shut (by simp)) (pKeyword_shut hh) (by simp)) (pPunct_shut hh) (by simp)) (pIdent_shut hh) (by simp)

theorem pSwitch_shut : Shut h true false pSwitch :=
  pmapSpan_shut (thenIgnore_shut (pthen_shut (pthen_shut (thenIgnore_shut (pthen_shut (thenIgnore_shut (thenIgnore_shut (thenIgnore_shut (thenIgnore_shut (pKeywordSpan_shut hh)
    (pSkipOperands_shut hh) (by simp)) (pPunct_shut hh) (by simp)) (pKeyword_shut hh) (by simp)) (pPunct_shut hh) (by simp)) (pIdent_shut hh) (by simp)) (pPunct_shut hh) (by simp))
    (separatedBy_shut (pSwitchCase_shut hh).inner (pPunct_shut hh).inner pPunct_progress) (by simp)) optDbg_shut (by simp)) (pNewlineAhead_shut hh) (by simp))

theorem pPhiEdge_shut : Shut h true false pPhiEdge :=
  delimitedBy_shut (pPunct_shut hh) (thenIgnore_shut (thenIgnore_shut (pIdent_shut hh) (pPunct_shut hh) (by simp))
    (repeated_shut (noneOf_shut (o := false) (by simp)) noneOf_progress (by simp)) (by simp)) (pPunct_shut hh) (by simp) (by simp)

theorem pPhi_shut : Shut h true false pPhi :=
  pmapSpan_shut (thenIgnore_shut (pthen_shut (pthen_shut (pKeywordSpan_shut hh) (separatedBy_shut (pPhiEdge_shut hh).inner (pPunct_shut hh).inner pPunct_progress) (by simp))
    optDbg_shut (by simp)) (pNewlineAhead_shut hh) (by simp))

theorem anyItem_shut : Shut h false false anyItem := by
  refine pnot_shut (o' := true) (por_shut (pmap_shut (pNewline_shut hh).inner) (pmap_shut pDbgRef_shut.weak)) ?_
  intro eoi sp s
  exact ⟨[], (), none, s, by simp [por, pmap, pNewline, just, satisfy]⟩

theorem pAnyInstruction_shut : Shut h true false pAnyInstruction :=
  pmapSpan_shut (thenIgnore_shut (pthen_shut (thenIgnore_shut (thenIgnore_shut (pIdent_shut hh) (rewind_shut (o := false) (noneOf_shut (o := true) (by simp)) (by simp)) (by simp))
    (repeated_shut (p := anyItem) (anyItem_shut hh) anyItem_progress (by simp)) (by simp)) optDbg_shut (by simp)) (pNewlineAhead_shut hh) (by simp))

theorem pInstruction_shut : Shut h true false pInstruction :=
  pmapSpan_shut (pthen_shut (o := true) (orNot_shut (thenIgnore_shut (ignoreThen_shut (pType_shut hh) (pLocalName_shut hh) (by simp)) (pPunct_shut hh) (by simp)).weak (by simp))
    (por_shut (por_shut (por_shut (por_shut (por_shut (pBr_shut hh) (pCondBr_shut hh)) (pOverflowBr_shut hh)) (pSwitch_shut hh)) (pPhi_shut hh)) (pAnyInstruction_shut hh)) (by simp))

theorem newlines_shut : Shut h true true (repeated pNewline) := repeated_shut (pNewline_shut hh) pNewline_progress (by simp)

theorem pPaddedInstruction_shut : Shut h true true pPaddedInstruction :=
  thenIgnore_shut (ignoreThen_shut (newlines_shut hh) (pInstruction_shut hh) (by simp)) (newlines_shut hh) (by simp)

theorem pBasicBlock_shut : Shut h true true pBasicBlock :=
  pmap_shut (pthen_shut (thenIgnore_shut (pthen_shut (pIdent_shut hh) (pmapSpan_shut (pPunct_shut hh)) (by simp))
    (repeatedAtLeast_shut (pNewline_shut hh) pNewline_progress (by simp)) (by simp)) (repeated_shut (pPaddedInstruction_shut hh) pPaddedInstruction_progress (by simp)) (by simp))

theorem pFuncBody_shut : Shut h true false pFuncBody :=
  pmap_shut (pthen_shut (pthen_shut (pthen_shut (thenIgnore_shut (pmapSpan_shut (pPunct_shut hh)) (repeatedAtLeast_shut (pNewline_shut hh) pNewline_progress (by simp)) (by simp))
    (orNot_shut (pmapOutcome_shut (repeatedAtLeast_shut (pPaddedInstruction_shut hh) pPaddedInstruction_progress (by simp))) (by simp)) (by simp))
    (repeated_shut (pBasicBlock_shut hh) pBasicBlock_progress (by simp)) (by simp)) (pmapSpan_shut (pPunct_shut hh)) (by simp))

theorem pFuncDef_shut : Shut h false true pFuncDef :=
  pmap_shut (thenIgnore_shut (pthen_shut (pthen_shut (pmapSpan_shut (just_shut (i := false) (o := false) (by simp) (by simp))) (pFuncSignature_shut hh) (by simp)) (pFuncBody_shut hh) (by simp))
    (pEol_shut hh) (by simp))

theorem pStatement_shut : Shut h false true pStatement :=
  por_shut (por_shut (por_shut (por_shut (pGlobalVar_shut hh) (pFuncDecl_shut hh)) (pFuncDef_shut hh)) (pFuncDependencies_shut hh)) (pDbgAnnotation_shut hh)

end

end HyperIR
