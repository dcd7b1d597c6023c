import Verif.Proofs.ParserSound
import Verif.Spec.BlankLines

/- The parser does not care how many line ends follow each other (src/hir_parser.rs:74-426). -/

namespace HyperIR
open Spec

abbrev LS := LineState
abbrev TL := Toks Token

/-- The state after some tokens. -/
def stateAfter (σ : LS) (l : TL) : LS := l.foldl (fun s t => s.after t.1) σ

/-- The next token is not dropped. -/
def Vis (σ : LS) (u : TL) : Prop := ∀ sp r, u = (Token.newline, sp) :: r → σ ≠ .ended
/-- The last token was not dropped. -/
def Tight (σ : LS) (_ : TL) : Prop := σ ≠ .ended
def Opn (σ : LS) (_ : TL) : Prop := σ = .open
def Any (_ : LS) (_ : TL) : Prop := True

/-- A place of the tokens `S`. -/
def Reach (S : TL) (σ : LS) (u : TL) : Prop := ∃ pre, S = pre ++ u ∧ σ = stateAfter .within pre

theorem Tight.vis {σ : LS} {u : TL} (h : Tight σ u) : Vis σ u := fun _ _ _ => h
theorem Opn.tight {σ : LS} {u : TL} (h : Opn σ u) : Tight σ u := by intro hc; rw [h] at hc; cases hc

theorem stateAfter_append {σ : LS} {a b : TL} : stateAfter σ (a ++ b) = stateAfter (stateAfter σ a) b := List.foldl_append ..

theorem Reach.later {S u r pre : TL} {σ : LS} (h : Reach S σ u) (he : u = pre ++ r) : Reach S (stateAfter σ pre) r := by
  obtain ⟨p, h1, h2⟩ := h
  exact ⟨p ++ pre, by rw [h1, he, List.append_assoc], by rw [stateAfter_append, h2]⟩

theorem wb_nil {σ : LS} : withoutBlank σ [] = [] := by cases σ <;> rfl

theorem wb_vis {σ : LS} {t : Tok} {r : TL} (h : Vis σ (t :: r)) : withoutBlank σ (t :: r) = t :: withoutBlank (σ.after t.1) r := by
  rw [withoutBlank, if_neg]
  rintro ⟨h1, h2⟩
  exact h t.2 r (by rw [← h1]) h2

theorem wb_drop {sp : Span} {r : TL} : withoutBlank .ended ((Token.newline, sp) :: r) = withoutBlank .ended r := by
  rw [withoutBlank, if_pos ⟨rfl, rfl⟩]

theorem after_ended {σ : LS} {t : Token} (h : σ.after t = .ended) : t = .newline := by
  unfold LineState.after at h
  split at h
  · assumption
  · split at h <;> cases h

/-- Tokens that are dropped leave the rest alone. -/
theorem wb_append : ∀ {a : TL} {σ : LS} {r : TL}, ∃ a', withoutBlank σ (a ++ r) = a' ++ withoutBlank (stateAfter σ a) r ∧ a'.Sublist a
  | [], σ, r => ⟨[], rfl, .slnil⟩
  | t :: a, σ, r => by
    obtain ⟨a', h1, h2⟩ := wb_append (a := a) (σ := σ.after t.1) (r := r)
    by_cases h : t.1 = .newline ∧ σ = .ended
    · refine ⟨a', ?_, h2.cons _⟩
      have h3 : σ.after t.1 = .ended := by rw [h.1, h.2]; rfl
      rw [List.cons_append, withoutBlank, if_pos h, ← h3, h1]
      rfl
    · refine ⟨t :: a', ?_, h2.cons_cons _⟩
      rw [List.cons_append, withoutBlank, if_neg h, h1]
      rfl

theorem wb_len_vis {σ : LS} {t : Tok} {r : TL} (h : Vis σ (t :: r)) : (withoutBlank (σ.after t.1) r).length < (withoutBlank σ (t :: r)).length := by
  rw [wb_vis h]
  simp

theorem suffix_cases {α : Type} {a b u v : List α} (h : a ++ u = b ++ v) (hl : u.length < v.length) : ∃ c, c ≠ [] ∧ v = c ++ u ∧ a = b ++ c := by
  rcases List.append_eq_append_iff.mp h with ⟨c, h1, h2⟩ | ⟨c, h1, h2⟩
  · rw [h2] at hl
    simp at hl
    omega
  · refine ⟨c, ?_, h2, h1⟩
    rintro rfl
    simp [h2] at hl

/-- Later places are later without the dropped line ends as well. -/
theorem reach_lt {S u v : TL} {σ σ' : LS} (h : Reach S σ u) (h' : Reach S σ' v) (hv : Vis σ' v) (hl : u.length < v.length) :
    (withoutBlank σ u).length < (withoutBlank σ' v).length := by
  obtain ⟨p, h1, h2⟩ := h
  obtain ⟨p', h1', h2'⟩ := h'
  obtain ⟨c, c1, c2, c3⟩ := suffix_cases (h1.symm.trans h1') hl
  cases c with
  | nil => exact absurd rfl c1
  | cons t c =>
    subst c2
    rw [List.cons_append] at hv ⊢
    rw [wb_vis hv]
    obtain ⟨a', w1, w2⟩ := wb_append (a := c) (σ := σ'.after t.1) (r := u)
    have : σ = stateAfter (σ'.after t.1) c := by rw [h2, c3, stateAfter_append, ← h2']; rfl
    rw [w1, this]
    simp
    omega

theorem reach_eq {S u v : TL} {σ σ' : LS} (h : Reach S σ u) (h' : Reach S σ' v) (hl : u.length = v.length) : u = v ∧ σ = σ' := by
  obtain ⟨p, h1, h2⟩ := h
  obtain ⟨p', h1', h2'⟩ := h'
  have he := h1.symm.trans h1'
  have hp : p.length = p'.length := by
    have := congrArg List.length he
    simp at this
    omega
  obtain ⟨rfl, rfl⟩ := List.append_inj he hp
  exact ⟨rfl, h2.trans h2'.symm⟩

/-! ### Results -/

/-- The same error at the same place. -/
structure ErrAt (S : TL) (e e' : LErr Token) : Prop where
  span : e'.span = e.span
  reason : e'.reason = e.reason
  expected : e'.expected = e.expected
  found : e'.found = e.found
  place : ∃ σ u, Reach S σ u ∧ Vis σ u ∧ e.rem = u.length ∧ e'.rem = (withoutBlank σ u).length

inductive ErrsAt (S : TL) : List (LErr Token) → List (LErr Token) → Prop
  | nil : ErrsAt S [] []
  | cons {e e' l l'} : ErrAt S e e' → ErrsAt S l l' → ErrsAt S (e :: l) (e' :: l')

def AltAt (S : TL) : Option (LErr Token) → Option (LErr Token) → Prop
  | none, none => True
  | some e, some e' => ErrAt S e e'
  | _, _ => False

/-- The same result with and without the dropped line ends. -/
def ResAt {α : Type} (S : TL) (σ : LS) (u : TL) (Post : LS → TL → Prop) : Res Token α → Res Token α → Prop
  | .ok es x alt r, .ok es' x' alt' r' => ErrsAt S es es' ∧ x' = x ∧ AltAt S alt alt' ∧
    ∃ pre, u = pre ++ r ∧ Post (stateAfter σ pre) r ∧ r' = withoutBlank (stateAfter σ pre) r
  | .err es e, .err es' e' => ErrsAt S es es' ∧ ErrAt S e e'
  | .panic, .panic => True
  | _, _ => False

/-- Started at a place with `Pre`, the parser gives the same result with and without the dropped line ends and stops at a place with `Post`. -/
def Good {α : Type} (Pre : LS → TL → Prop) (p : P Token α) (Post : LS → TL → Prop) : Prop :=
  ∀ eoi S σ u, Reach S σ u → Pre σ u → ResAt S σ u Post (p eoi u) (p eoi (withoutBlank σ u))

section
variable {α β γ : Type} {S u v : TL} {σ : LS} {Pre Mid Post : LS → TL → Prop}

theorem ErrsAt.append {a a' b b' : List (LErr Token)} (h : ErrsAt S a a') (h' : ErrsAt S b b') : ErrsAt S (a ++ b) (a' ++ b') := by
  induction h with
  | nil => exact h'
  | cons h1 _ ih => exact .cons h1 ih

theorem ErrsAt.length {a a' : List (LErr Token)} (h : ErrsAt S a a') : a'.length = a.length := by
  induction h with
  | nil => rfl
  | cons _ _ ih => simp [ih]

theorem ErrsAt.last {a a' : List (LErr Token)} (h : ErrsAt S a a') : AltAt S a.getLast? a'.getLast? := by
  induction h with
  | nil => trivial
  | @cons e e' l l' h1 h2 ih =>
    cases h2 with
    | nil => exact h1
    | cons h3 h4 =>
      rw [List.getLast?_cons_cons, List.getLast?_cons_cons]
      exact ih

theorem ErrAt.lt_iff {a a' b b' : LErr Token} (h : ErrAt S a a') (h' : ErrAt S b b') : a'.rem < b'.rem ↔ a.rem < b.rem := by
  obtain ⟨σ, u, p1, p2, p3, p4⟩ := h.place
  obtain ⟨σ', v, q1, q2, q3, q4⟩ := h'.place
  rw [p3, p4, q3, q4]
  constructor
  · intro hl
    rcases Nat.lt_trichotomy u.length v.length with h | h | h
    · exact h
    · obtain ⟨rfl, rfl⟩ := reach_eq p1 q1 h
      omega
    · have := reach_lt q1 p1 p2 h
      omega
  · exact reach_lt p1 q1 q2

theorem mergeErr_at {a a' b b' : LErr Token} (h : ErrAt S a a') (h' : ErrAt S b b') : ErrAt S (mergeErr a b) (mergeErr a' b') := by
  refine ⟨h.span, h.reason, ?_, h.found, h.place⟩
  simp only [mergeErr, h.expected, h'.expected]

theorem maxErr_at {a a' : LErr Token} {b b' : Option (LErr Token)} (h : ErrAt S a a') (h' : AltAt S b b') : ErrAt S (maxErr a b) (maxErr a' b') := by
  cases b with
  | none => cases b' with
    | none => exact h
    | some b' => exact h'.elim
  | some b => cases b' with
    | none => exact h'.elim
    | some b' =>
      simp only [maxErr, h.lt_iff h', ErrAt.lt_iff h' h]
      split
      · exact h
      · split
        · exact h'
        · exact mergeErr_at h h'

theorem mergeAlts_at {a a' b b' : Option (LErr Token)} (h : AltAt S a a') (h' : AltAt S b b') : AltAt S (mergeAlts a b) (mergeAlts a' b') := by
  cases b with
  | none => cases b' with
    | none => exact h
    | some b' => exact h'.elim
  | some b => cases b' with
    | none => exact h'.elim
    | some b' => exact maxErr_at h' h

theorem headSpan_at {eoi : Span} (hv : Vis σ u) : headSpan eoi (withoutBlank σ u) = headSpan eoi u := by
  cases u with
  | nil => rw [wb_nil]
  | cons t r => rw [wb_vis hv]; rfl

theorem unexpectedAt_at {eoi : Span} {ex} (hr : Reach S σ u) (hv : Vis σ u) : ErrAt S (unexpectedAt eoi u ex) (unexpectedAt eoi (withoutBlank σ u) ex) := by
  refine ⟨headSpan_at hv, rfl, rfl, ?_, σ, u, hr, hv, rfl, rfl⟩
  cases u with
  | nil => rw [wb_nil]
  | cons t r => rw [wb_vis hv]; rfl

theorem customAt_at {eoi : Span} {m} (hr : Reach S σ u) (hv : Vis σ u) : ErrAt S (customAt eoi u m) (customAt eoi (withoutBlank σ u) m) :=
  ⟨headSpan_at hv, rfl, rfl, rfl, σ, u, hr, hv, rfl, rfl⟩

theorem stateAfter_snoc {c : TL} {t : Tok} : stateAfter σ (c ++ [t]) = (stateAfter σ c).after t.1 := by rw [stateAfter_append]; rfl

/-- Ranges that end with a token that is kept are the same. -/
theorem spanSince_at {eoi : Span} {pre r : TL} (hv : Vis σ u) (he : u = pre ++ r) (ht : stateAfter σ pre ≠ .ended) :
    spanSince eoi (withoutBlank σ u) (withoutBlank (stateAfter σ pre) r) = spanSince eoi u r := by
  unfold spanSince
  rw [headSpan_at hv]
  congr 1
  rcases List.eq_nil_or_concat pre with rfl | ⟨c, t, rfl⟩
  · obtain rfl : u = r := he
    have e : stateAfter σ [] = σ := rfl
    rw [e]
    simp only [Nat.sub_self, Nat.zero_sub]
    cases u with
    | nil => rw [wb_nil]
    | cons t u => rw [wb_vis hv]; rfl
  · rw [List.concat_eq_append] at he ht ⊢
    subst he
    obtain ⟨c', w1, w2⟩ := wb_append (a := c) (σ := σ) (r := [t] ++ r)
    have hk : withoutBlank (stateAfter σ c) ([t] ++ r) = t :: withoutBlank (stateAfter σ (c ++ [t])) r := by
      rw [stateAfter_snoc]
      refine wb_vis ?_
      rintro sp r' he hs
      cases he
      rw [stateAfter_snoc, hs] at ht
      exact ht rfl
    rw [List.append_assoc, w1, hk]
    generalize withoutBlank (stateAfter σ (c ++ [t])) r = r'
    rw [show (c' ++ t :: r').length - r'.length - 1 = c'.length by simp; omega,
      show (c ++ ([t] ++ r)).length - r.length - 1 = c.length by simp; omega,
      List.getElem?_append_right (Nat.le_refl _), List.getElem?_append_right (Nat.le_refl _), Nat.sub_self, Nat.sub_self]
    rfl

/-! ### Combinators -/

theorem Good.mono {p : P Token α} {Pre' Post' : LS → TL → Prop} (h : Good Pre p Post) (h1 : ∀ σ u, Pre' σ u → Pre σ u) (h2 : ∀ σ u, Post σ u → Post' σ u) : Good Pre' p Post' := by
  intro eoi S σ u hr hp
  have := h eoi S σ u hr (h1 _ _ hp)
  revert this
  cases p eoi u <;> cases p eoi (withoutBlank σ u) <;> intro this <;> first | exact this | exact this.elim | skip
  obtain ⟨a, b, c, pre, d, e, f⟩ := this
  exact ⟨a, b, c, pre, d, h2 _ _ e, f⟩

theorem satisfy_good {f : Token → Bool} {ex} (h1 : ∀ σ u, Pre σ u → Vis σ u)
    (h2 : ∀ σ t sp r, Pre σ ((t, sp) :: r) → f t = true → Post (σ.after t) r) : Good Pre (satisfy f ex) Post := by
  intro eoi S σ u hr hp
  have hv := h1 _ _ hp
  cases u with
  | nil =>
    rw [wb_nil]
    have := unexpectedAt_at (eoi := eoi) (ex := ex) hr hv
    rw [wb_nil] at this
    exact ⟨.nil, this⟩
  | cons t r =>
    have he := unexpectedAt_at (eoi := eoi) (ex := ex) hr hv
    rw [wb_vis hv] at he ⊢
    obtain ⟨t, sp⟩ := t
    simp only [satisfy]
    split
    · rename_i hf
      exact ⟨.nil, rfl, trivial, [(t, sp)], rfl, h2 _ _ _ _ hp hf, rfl⟩
    · exact ⟨.nil, he⟩

theorem pfilterMap_good {f : Token → Span → Option α} {m} (h1 : ∀ σ u, Pre σ u → Vis σ u)
    (h2 : ∀ σ t sp r x, Pre σ ((t, sp) :: r) → f t sp = some x → Post (σ.after t) r) : Good Pre (pfilterMap f m) Post := by
  intro eoi S σ u hr hp
  have hv := h1 _ _ hp
  cases u with
  | nil =>
    have := unexpectedAt_at (eoi := eoi) (ex := []) hr hv
    rw [wb_nil] at this ⊢
    exact ⟨.nil, this⟩
  | cons t r =>
    have he := customAt_at (eoi := eoi) (m := m) hr hv
    rw [wb_vis hv] at he ⊢
    obtain ⟨t, sp⟩ := t
    simp only [pfilterMap]
    cases hf : f t sp with
    | some x => exact ⟨.nil, rfl, trivial, [(t, sp)], rfl, h2 _ _ _ _ _ hp hf, rfl⟩
    | none => exact ⟨.nil, he⟩

theorem pend_good : Good Vis pend Any := by
  intro eoi S σ u hr hv
  cases u with
  | nil =>
    rw [wb_nil]
    exact ⟨.nil, rfl, trivial, [], rfl, trivial, wb_nil.symm⟩
  | cons t r =>
    have he := unexpectedAt_at (eoi := eoi) (ex := [none]) hr hv
    rw [wb_vis hv] at he ⊢
    exact ⟨.nil, he⟩

theorem pmap_good {p : P Token α} {f : α → β} (h : Good Pre p Post) : Good Pre (pmap f p) Post := by
  intro eoi S σ u hr hp
  have := h eoi S σ u hr hp
  unfold pmap
  revert this
  cases p eoi u <;> cases p eoi (withoutBlank σ u) <;> intro this <;> first | exact this | exact this.elim | skip
  obtain ⟨a, b, c⟩ := this
  exact ⟨a, by rw [b], c⟩

theorem pmapOutcome_good {p : P Token α} {f : α → Outcome β} (h : Good Pre p Post) : Good Pre (pmapOutcome f p) Post := by
  intro eoi S σ u hr hp
  have := h eoi S σ u hr hp
  unfold pmapOutcome
  revert this
  cases p eoi u <;> cases p eoi (withoutBlank σ u) <;> intro this <;> first | exact this | exact this.elim | skip
  obtain ⟨a, rfl, c⟩ := this
  rename_i x _ _
  simp only
  cases f x with
  | ok y => exact ⟨a, rfl, c⟩
  | panic => trivial

theorem pmapSpan_good {p : P Token α} {f : α → Span → β} (h : Good Vis p Tight) : Good Vis (pmapSpan f p) Tight := by
  intro eoi S σ u hr hp
  have := h eoi S σ u hr hp
  unfold pmapSpan
  revert this
  cases p eoi u <;> cases p eoi (withoutBlank σ u) <;> intro this <;> first | exact this | exact this.elim | skip
  obtain ⟨a, rfl, c, pre, d, e, rfl⟩ := this
  exact ⟨a, by rw [spanSince_at hp d e], c, pre, d, e, rfl⟩

theorem validate_good {p : P Token α} {f : α → Option Str} (h : Good Vis p Tight) : Good Vis (validate f p) Tight := by
  intro eoi S σ u hr hp
  have := h eoi S σ u hr hp
  unfold validate
  revert this
  cases p eoi u <;> cases p eoi (withoutBlank σ u) <;> intro this <;> first | exact this | exact this.elim | skip
  obtain ⟨a, rfl, c, pre, d, e, rfl⟩ := this
  rename_i r _ x _
  simp only
  cases f x with
  | none => exact ⟨a, rfl, c, pre, d, e, rfl⟩
  | some m =>
    refine ⟨a.append (.cons ⟨spanSince_at hp d e, rfl, rfl, rfl, ?_⟩ .nil), rfl, c, pre, d, e, rfl⟩
    exact ⟨_, r, hr.later d, Tight.vis (u := r) e, rfl, rfl⟩

theorem pthen_good {p : P Token α} {q : P Token β} (hp : Good Pre p Mid) (hq : Good Mid q Post) : Good Pre (pthen p q) Post := by
  intro eoi S σ u hr hpre
  have := hp eoi S σ u hr hpre
  unfold pthen
  revert this
  cases p eoi u <;> cases p eoi (withoutBlank σ u) <;> intro this <;> first | exact this | exact this.elim | skip
  obtain ⟨a, rfl, c, pre, d, e, rfl⟩ := this
  rename_i r _ _ _
  have := hq eoi S _ r (hr.later d) e
  simp only
  revert this
  cases q eoi r <;> cases q eoi (withoutBlank (stateAfter σ pre) r) <;> intro this <;> first | exact this | exact this.elim | skip
  · obtain ⟨a', rfl, c', pre', d', e', rfl⟩ := this
    refine ⟨a.append a', rfl, mergeAlts_at c c', pre ++ pre', by rw [d, d', List.append_assoc], ?_, ?_⟩ <;> rw [stateAfter_append]
    exact e'
  · exact ⟨a.append this.1, maxErr_at this.2 c⟩

/-- Only where it stops counts. -/
def pvoid (p : P Token α) : P Token Unit := pmap (fun _ => ()) p

theorem thenIgnore_void {p : P Token α} {q : P Token β} : thenIgnore p q = thenIgnore p (pvoid q) := by
  funext eoi s
  simp only [thenIgnore, pvoid, pmap, pthen]
  cases p eoi s with
  | ok es x alt r =>
    dsimp only
    cases q eoi r <;> rfl
  | err => rfl
  | panic => rfl

theorem ignoreThen_void {p : P Token α} {q : P Token β} : ignoreThen p q = ignoreThen (pvoid p) q := by
  funext eoi s
  simp only [ignoreThen, pvoid, pmap, pthen]
  cases p eoi s with
  | ok es x alt r =>
    dsimp only
    cases q eoi r <;> rfl
  | err => rfl
  | panic => rfl

theorem thenIgnore_good {p : P Token α} {q : P Token β} (hp : Good Pre p Mid) (hq : Good Mid q Post) : Good Pre (thenIgnore p q) Post := pmap_good (pthen_good hp hq)
theorem ignoreThen_good {p : P Token α} {q : P Token β} (hp : Good Pre p Mid) (hq : Good Mid q Post) : Good Pre (ignoreThen p q) Post := pmap_good (pthen_good hp hq)

theorem por_good {p q : P Token α} (hp : Good Pre p Post) (hq : Good Pre q Post) : Good Pre (por p q) Post := by
  intro eoi S σ u hr hpre
  have h1 := hp eoi S σ u hr hpre
  have h2 := hq eoi S σ u hr hpre
  unfold por
  revert h1
  cases p eoi u <;> cases p eoi (withoutBlank σ u) <;> intro h1 <;> first | exact h1 | exact h1.elim | skip
  · obtain ⟨a, b, c, d⟩ := h1
    cases a with
    | nil => exact ⟨.nil, b, c, d⟩
    | @cons e e' l l' a1 a2 =>
      simp only
      revert h2
      cases q eoi u <;> cases q eoi (withoutBlank σ u) <;> intro h2 <;> first | exact h2 | exact h2.elim | skip
      · obtain ⟨a', b', c', d'⟩ := h2
        cases a' with
        | nil => exact ⟨.nil, b', c', d'⟩
        | @cons f f' m m' a3 a4 =>
          simp only
          have l1 := (ErrsAt.cons a1 a2).last
          have l2 := (ErrsAt.cons a3 a4).last
          have n1 := a2.length
          have n2 := a4.length
          unfold lastRem
          revert l1 l2
          cases (e :: l).getLast? <;> cases (e' :: l').getLast? <;> intro l1 l2 <;> first | exact l1.elim | skip
          · cases (f :: m).getLast? <;> cases (f' :: m').getLast? <;> exact ⟨.cons a1 a2, b, c, d⟩
          · revert l2
            cases (f :: m).getLast? <;> cases (f' :: m').getLast? <;> intro l2 <;> first | exact l2.elim | skip
            · exact ⟨.cons a1 a2, b, c, d⟩
            · simp only [Option.map_some, ErrAt.lt_iff l1 l2, ErrAt.lt_iff l2 l1, n1, n2]
              split
              · exact ⟨.cons a3 a4, b', c', d'⟩
              · split
                · exact ⟨.cons a1 a2, b, c, d⟩
                · split
                  · exact ⟨.cons a3 a4, b', c', d'⟩
                  · exact ⟨.cons a1 a2, b, c, d⟩
      · exact ⟨.cons a1 a2, b, mergeAlts_at c (b := some _) (b' := some _) h2.2, d⟩
  · simp only
    revert h2
    cases q eoi u <;> cases q eoi (withoutBlank σ u) <;> intro h2 <;> first | exact h2 | exact h2.elim | skip
    · obtain ⟨a', b', c', d'⟩ := h2
      exact ⟨a', b', mergeAlts_at c' (b := some _) (b' := some _) h1.2, d'⟩
    · simp only [ErrAt.lt_iff h1.2 h2.2, ErrAt.lt_iff h2.2 h1.2]
      split
      · exact h1
      · split
        · exact h2
        · exact ⟨h1.1, maxErr_at h1.2 (b := some _) (b' := some _) h2.2⟩

theorem orNot_good {p : P Token α} (hp : Good Pre p Post) (h : ∀ σ u, Pre σ u → Post σ u) : Good Pre (orNot p) Post := by
  intro eoi S σ u hr hpre
  have h1 := hp eoi S σ u hr hpre
  unfold orNot
  revert h1
  cases p eoi u <;> cases p eoi (withoutBlank σ u) <;> intro h1 <;> first | exact h1 | exact h1.elim | skip
  · obtain ⟨a, rfl, c⟩ := h1
    exact ⟨a, rfl, c⟩
  · exact ⟨.nil, rfl, h1.2, [], rfl, h _ _ hpre, rfl⟩

theorem rewind_good {p : P Token α} (hp : Good Pre p Post) : Good Pre (rewind p) Pre := by
  intro eoi S σ u hr hpre
  have h1 := hp eoi S σ u hr hpre
  unfold rewind
  revert h1
  cases p eoi u <;> cases p eoi (withoutBlank σ u) <;> intro h1 <;> first | exact h1 | exact h1.elim | skip
  obtain ⟨a, rfl, c, _⟩ := h1
  exact ⟨a, rfl, c, [], rfl, hpre, rfl⟩

theorem pnot_good {p : P Token α} (hp : Good Vis p Mid) (h : ∀ eoi σ t sp r, Vis σ ((t, sp) :: r) → Fails p eoi ((t, sp) :: r) → Post (σ.after t) r) : Good Vis (pnot p) Post := by
  intro eoi S σ u hr hpre
  have h1 := hp eoi S σ u hr hpre
  unfold pnot
  revert h1
  cases hu : p eoi u <;> cases p eoi (withoutBlank σ u) <;> intro h1 <;> first | exact h1 | exact h1.elim | skip
  · exact ⟨.nil, unexpectedAt_at hr hpre⟩
  · cases u with
    | nil =>
      have := unexpectedAt_at (eoi := eoi) (ex := []) hr hpre
      rw [wb_nil] at this ⊢
      exact ⟨.nil, this⟩
    | cons t r =>
      rw [wb_vis hpre]
      obtain ⟨t, sp⟩ := t
      exact ⟨.nil, rfl, trivial, [(t, sp)], rfl, h eoi σ t sp r hpre ⟨_, _, hu⟩, rfl⟩

theorem ok_progress {p : P Token α} (h : Progress p) {eoi s es x alt r} (hp : p eoi s = .ok es x alt r) : r.length < s.length := h ⟨alt, hp⟩

theorem repeatLoop_good {p : P Token α} {n : Nat} {eoi : Span} (hp : Good Pre p Pre) (hprog : Progress p) : ∀ (fuel fuel' : Nat) {old old' : Option Nat}
    {errs errs' outs alt alt'} {u : TL} {σ : LS}, Reach S σ u → Pre σ u → u.length < fuel → (withoutBlank σ u).length < fuel' →
    (old = none ∨ old = some u.length) → (old' = none ∨ old' = some (withoutBlank σ u).length) → ErrsAt S errs errs' → AltAt S alt alt' →
    ResAt S σ u Pre (repeatLoop p n eoi fuel old errs outs alt u) (repeatLoop p n eoi fuel' old' errs' outs alt' (withoutBlank σ u))
  | 0, _, _, _, _, _, _, _, _, _, _, _, _, h, _, _, _, _, _ => by omega
  | _ + 1, 0, _, _, _, _, _, _, _, _, _, _, _, _, h, _, _, _, _ => by omega
  | fuel + 1, fuel' + 1, old, old', errs, errs', outs, alt, alt', u, σ, hr, hpre, hf, hf', ho, ho', he, ha => by
    have h1 := hp eoi S σ u hr hpre
    simp only [repeatLoop]
    revert h1
    cases hu : p eoi u <;> cases hu' : p eoi (withoutBlank σ u) <;> intro h1 <;> first | exact h1 | exact h1.elim | skip
    · obtain ⟨a, rfl, c, pre, d, e, rfl⟩ := h1
      rename_i r _ x _
      have k1 := ok_progress hprog hu
      have k2 := ok_progress hprog hu'
      simp only
      rw [if_neg (by rcases ho with rfl | rfl <;> simp; omega), if_neg (by rcases ho' with rfl | rfl <;> simp; omega)]
      have := repeatLoop_good (n := n) (eoi := eoi) hp hprog fuel fuel' (old := some r.length) (old' := some (withoutBlank (stateAfter σ pre) r).length)
        (outs := outs ++ [x]) (hr.later d) e (by omega) (by omega) (.inr rfl) (.inr rfl) (he.append a) (mergeAlts_at ha c)
      revert this
      cases repeatLoop p n eoi fuel _ _ _ _ r <;> cases repeatLoop p n eoi fuel' _ _ _ _ (withoutBlank (stateAfter σ pre) r) <;> intro this <;> first | exact this | exact this.elim | skip
      obtain ⟨a', b', c', pre', d', e', f'⟩ := this
      refine ⟨a', b', c', pre ++ pre', by rw [d, d', List.append_assoc], ?_, ?_⟩ <;> rw [stateAfter_append]
      · exact e'
      · exact f'
    · simp only
      split
      · exact ⟨he.append h1.1, h1.2⟩
      · exact ⟨he, rfl, mergeAlts_at ha (b := some _) (b' := some _) h1.2, [], rfl, hpre, rfl⟩

theorem repeatedAtLeast_good {p : P Token α} {n : Nat} (hp : Good Pre p Pre) (hprog : Progress p) : Good Pre (repeatedAtLeast n p) Pre := by
  intro eoi S σ u hr hpre
  exact repeatLoop_good hp hprog _ _ hr hpre (by omega) (by omega) (.inl rfl) (.inl rfl) .nil trivial

theorem repeated_good {p : P Token α} (hp : Good Pre p Pre) (hprog : Progress p) : Good Pre (repeated p) Pre := repeatedAtLeast_good hp hprog

theorem sepLoop_good {p : P Token α} {q : P Token β} {eoi : Span} (hp : Good Pre p Pre) (hq : Good Pre q Pre) (hprog : Progress q)
    (hsuf : Suffix p) : ∀ (fuel fuel' : Nat)
    {errs errs' outs alt alt'} {u : TL} {σ : LS}, Reach S σ u → Pre σ u → u.length < fuel → (withoutBlank σ u).length < fuel' →
    ErrsAt S errs errs' → AltAt S alt alt' →
    ResAt S σ u Pre (sepLoop p q eoi fuel errs outs alt u) (sepLoop p q eoi fuel' errs' outs alt' (withoutBlank σ u))
  | 0, _, _, _, _, _, _, _, _, _, _, h, _, _, _ => by omega
  | _ + 1, 0, _, _, _, _, _, _, _, _, _, _, h, _, _ => by omega
  | fuel + 1, fuel' + 1, errs, errs', outs, alt, alt', u, σ, hr, hpre, hf, hf', he, ha => by
    have h1 := hq eoi S σ u hr hpre
    simp only [sepLoop]
    revert h1
    cases hu : q eoi u <;> cases hu' : q eoi (withoutBlank σ u) <;> intro h1 <;> first | exact h1 | exact h1.elim | skip
    · obtain ⟨a, rfl, c, pre, d, e, rfl⟩ := h1
      rename_i r _ x _
      have k1 := ok_progress hprog hu
      have k2 := ok_progress hprog hu'
      have h2 := hp eoi S _ r (hr.later d) e
      simp only
      revert h2
      cases hv : p eoi r <;> cases hv' : p eoi (withoutBlank (stateAfter σ pre) r) <;> intro h2 <;> first | exact h2 | exact h2.elim | skip
      · obtain ⟨a2, rfl, c2, pre2, d2, e2, rfl⟩ := h2
        rename_i r2 _ x _
        obtain ⟨_, s1⟩ := hsuf ⟨_, hv⟩
        obtain ⟨_, s2⟩ := hsuf ⟨_, hv'⟩
        have l1 := congrArg List.length s1
        have l2 := congrArg List.length s2
        rw [List.length_append] at l1 l2
        have := sepLoop_good (eoi := eoi) hp hq hprog hsuf fuel fuel' (outs := outs ++ [x]) ((hr.later d).later d2) e2 (by omega) (by omega)
          ((he.append a).append a2) (mergeAlts_at (mergeAlts_at ha c) c2)
        simp only
        revert this
        cases sepLoop p q eoi fuel _ _ _ r2 <;> cases sepLoop p q eoi fuel' _ _ _ (withoutBlank (stateAfter (stateAfter σ pre) pre2) r2) <;> intro this <;> first | exact this | exact this.elim | skip
        obtain ⟨a', b', c', pre', d', e', f'⟩ := this
        refine ⟨a', b', c', pre ++ (pre2 ++ pre'), by rw [d, d2, d', List.append_assoc, List.append_assoc], ?_, ?_⟩ <;> rw [stateAfter_append, stateAfter_append]
        · exact e'
        · exact f'
      · exact ⟨(he.append a).append h2.1, rfl, mergeAlts_at (mergeAlts_at ha c) (b := some _) (b' := some _) h2.2, [], rfl, hpre, rfl⟩
    · exact ⟨he.append h1.1, rfl, mergeAlts_at ha (b := some _) (b' := some _) h1.2, [], rfl, hpre, rfl⟩

theorem separatedBy_good {p : P Token α} {q : P Token β} (hp : Good Pre p Pre) (hq : Good Pre q Pre) (hprog : Progress q) (hsuf : Suffix p) :
    Good Pre (separatedBy p q) Pre := by
  intro eoi S σ u hr hpre
  have h1 := hp eoi S σ u hr hpre
  unfold separatedBy
  revert h1
  cases hu : p eoi u <;> cases hu' : p eoi (withoutBlank σ u) <;> intro h1 <;> first | exact h1 | exact h1.elim | skip
  · obtain ⟨a, rfl, c, pre, d, e, rfl⟩ := h1
    rename_i r _ x _
    obtain ⟨_, s1⟩ := hsuf ⟨_, hu⟩
    obtain ⟨_, s2⟩ := hsuf ⟨_, hu'⟩
    have l1 := congrArg List.length s1
    have l2 := congrArg List.length s2
    rw [List.length_append] at l1 l2
    have := sepLoop_good (eoi := eoi) hp hq hprog hsuf (u.length + 1) ((withoutBlank σ u).length + 1) (outs := [x]) (hr.later d) e (by omega) (by omega) a c
    simp only
    revert this
    cases sepLoop p q eoi _ _ _ _ r <;> cases sepLoop p q eoi _ _ _ _ (withoutBlank (stateAfter σ pre) r) <;> intro this <;> first | exact this | exact this.elim | skip
    obtain ⟨a', b', c', pre', d', e', f'⟩ := this
    refine ⟨a', b', c', pre ++ pre', by rw [d, d', List.append_assoc], ?_, ?_⟩ <;> rw [stateAfter_append]
    · exact e'
    · exact f'
  · exact ⟨h1.1, rfl, h1.2, [], rfl, hpre, rfl⟩

/-! ### Line ends -/

/-- The tokens after the line ends. -/
def afterEnds : TL → TL
  | [] => []
  | t :: r => if t.1 = .newline then afterEnds r else t :: r

theorem afterEnds_spec : ∀ (u : TL) (σ : LS), ∃ pre, u = pre ++ afterEnds u ∧ Vis (stateAfter σ pre) (afterEnds u) ∧
    withoutBlank (stateAfter σ pre) (afterEnds u) = afterEnds (withoutBlank σ u)
  | [], σ => ⟨[], rfl, (fun _ _ h => by cases h), by simp [wb_nil, afterEnds]⟩
  | t :: r, σ => by
    obtain ⟨t, sp⟩ := t
    by_cases ht : t = .newline
    · obtain ⟨pre, h1, h2, h3⟩ := afterEnds_spec r (σ.after t)
      refine ⟨(t, sp) :: pre, ?_, ?_, ?_⟩
      · rw [afterEnds, if_pos ht, List.cons_append, ← h1]
      · rw [afterEnds, if_pos ht]
        exact h2
      · rw [afterEnds, if_pos ht]
        refine h3.trans ?_
        by_cases hs : σ = .ended
        · subst hs ht
          rw [wb_drop]
          rfl
        · rw [wb_vis (fun _ _ _ => hs), afterEnds, if_pos ht]
    · refine ⟨[], ?_, ?_, ?_⟩
      · rw [afterEnds, if_neg ht]
        rfl
      · rw [afterEnds, if_neg ht]
        intro sp' r' h
        cases h
        exact absurd rfl ht
      · rw [afterEnds, if_neg ht]
        show withoutBlank σ _ = _
        rw [wb_vis (fun sp' r' h => by cases h; exact absurd rfl ht), afterEnds, if_neg ht]

theorem endsLoop {n : Nat} {eoi : Span} : ∀ (u : TL) (fuel : Nat) {old : Option Nat} {outs : List Token}, u.length < fuel → (old = none ∨ old = some u.length) →
    n ≤ outs.length →
    ∃ outs', repeatLoop pNewline n eoi fuel old [] outs none u = .ok [] outs' (some (unexpectedAt eoi (afterEnds u) [some .newline])) (afterEnds u)
  | _, 0, _, _, h, _, _ => by omega
  | [], fuel + 1, _, outs, _, _, hn => by
    refine ⟨outs, ?_⟩
    simp only [repeatLoop, pNewline, just, satisfy]
    rw [if_neg (by omega)]
    rfl
  | (t, sp) :: r, fuel + 1, old, outs, hf, ho, hn => by
    by_cases ht : t = .newline
    · subst ht
      obtain ⟨outs', h⟩ := endsLoop (n := n) (eoi := eoi) r fuel (old := some r.length) (outs := outs ++ [.newline]) (by simp at hf; omega) (.inr rfl) (by simp; omega)
      refine ⟨outs', ?_⟩
      simp only [repeatLoop, pNewline, just, satisfy, decide_true, if_true]
      rw [if_neg (by rcases ho with rfl | rfl <;> simp)]
      exact h
    · refine ⟨outs, ?_⟩
      simp only [repeatLoop, pNewline, just, satisfy, ht, decide_false, Bool.false_eq_true, if_false]
      rw [if_neg (by omega), afterEnds, if_neg ht]
      rfl

theorem newlines_run {eoi : Span} (u : TL) : ∃ outs, repeated pNewline eoi u = .ok [] outs (some (unexpectedAt eoi (afterEnds u) [some .newline])) (afterEnds u) :=
  endsLoop u _ (by omega) (.inl rfl) (by simp)

theorem newlines1_run {eoi : Span} {sp : Span} (u : TL) : ∃ outs, repeatedAtLeast 1 pNewline eoi ((.newline, sp) :: u) =
    .ok [] outs (some (unexpectedAt eoi (afterEnds u) [some .newline])) (afterEnds u) := by
  obtain ⟨outs, h⟩ := endsLoop (n := 1) (eoi := eoi) u (u.length + 2) (old := some u.length) (outs := [.newline]) (by omega) (.inr rfl) (by simp)
  refine ⟨outs, ?_⟩
  rw [← h]
  rfl

theorem newlines_good : Good Any (pvoid (repeated pNewline)) Vis := by
  intro eoi S σ u hr _
  obtain ⟨o, h1⟩ := newlines_run (eoi := eoi) u
  obtain ⟨o', h2⟩ := newlines_run (eoi := eoi) (withoutBlank σ u)
  obtain ⟨pre, k1, k2, k3⟩ := afterEnds_spec u σ
  simp only [pvoid, pmap, h1, h2]
  refine ⟨.nil, rfl, ?_, pre, k1, k2, k3.symm⟩
  have := unexpectedAt_at (eoi := eoi) (ex := [some .newline]) (hr.later k1) k2
  rw [k3] at this
  exact this

theorem newlines1_good : Good Vis (pvoid (repeatedAtLeast 1 pNewline)) Vis := by
  intro eoi S σ u hr hv
  cases u with
  | nil =>
    have := unexpectedAt_at (eoi := eoi) (ex := [some .newline]) hr hv
    rw [wb_nil] at this ⊢
    exact ⟨.nil, this⟩
  | cons t r =>
    obtain ⟨t, sp⟩ := t
    by_cases ht : t = .newline
    · subst ht
      rw [wb_vis hv]
      obtain ⟨o, h1⟩ := newlines1_run (eoi := eoi) (sp := sp) r
      obtain ⟨o', h2⟩ := newlines1_run (eoi := eoi) (sp := sp) (withoutBlank (σ.after .newline) r)
      obtain ⟨pre, k1, k2, k3⟩ := afterEnds_spec r (σ.after .newline)
      simp only [pvoid, pmap, h1, h2]
      refine ⟨.nil, rfl, ?_, (.newline, sp) :: pre, by rw [List.cons_append, ← k1], k2, k3.symm⟩
      have := unexpectedAt_at (eoi := eoi) (ex := [some .newline]) (hr.later (pre := (.newline, sp) :: pre) (r := afterEnds r) (by rw [List.cons_append, ← k1])) k2
      rw [show stateAfter σ ((.newline, sp) :: pre) = stateAfter (σ.after .newline) pre from rfl, k3] at this
      exact this
    · have := unexpectedAt_at (eoi := eoi) (ex := [some .newline]) hr hv
      rw [wb_vis hv] at this ⊢
      simp only [pvoid, pmap, repeatedAtLeast, repeatLoop, pNewline, just, satisfy, ht, decide_false, Bool.false_eq_true, if_false, List.length_nil, Nat.zero_lt_one, if_true]
      exact ⟨.nil, this⟩

theorem padded_good {p : P Token α} (hp : Good Vis p Post) : Good Any (paddedBy (repeated pNewline) p) Vis := by
  unfold paddedBy
  rw [thenIgnore_void, ignoreThen_void]
  exact thenIgnore_good (ignoreThen_good newlines_good hp) (newlines_good.mono (fun _ _ _ => trivial) (fun _ _ h => h))

/-! ### Recovery -/

theorem skipThenRetry_good {p : P Token α} {eoi : Span} (hp : Good Any p Vis) {errs errs' : List (LErr Token)} {f f' : LErr Token}
    (he : ErrsAt S errs errs') (hf : ErrAt S f f') : ∀ (u : TL) (σ : LS), Reach S σ u → (Vis σ u ∨ Fails p eoi (withoutBlank σ u)) →
    ResAt S σ u Vis (skipThenRetry p eoi errs f u) (skipThenRetry p eoi errs' f' (withoutBlank σ u))
  | [], σ, hr, _ => by
    rw [wb_nil]
    exact ⟨he, hf⟩
  | (t, sp) :: r, σ, hr, hv => by
    have hr' := hr.later (pre := [(t, sp)]) (r := r) rfl
    have h1 := hp eoi S _ r hr' trivial
    have up : ∀ {x y : Res Token α}, ResAt S (stateAfter σ [(t, sp)]) r Vis x y → ResAt S σ ((t, sp) :: r) Vis x y := by
      intro x y h
      cases x <;> cases y <;> first | exact h | skip
      obtain ⟨a, b, c, pre, d, e⟩ := h
      exact ⟨a, b, c, (t, sp) :: pre, by rw [d]; rfl, e⟩
    by_cases hvis : Vis σ ((t, sp) :: r)
    · rw [wb_vis hvis]
      simp only [skipThenRetry]
      rw [show stateAfter σ [(t, sp)] = σ.after t from rfl] at h1
      revert h1
      cases hu : p eoi r <;> cases hu' : p eoi (withoutBlank (σ.after t) r) <;> intro h1 <;> first | exact h1 | exact h1.elim | skip
      · obtain ⟨a, b, c⟩ := h1
        exact up ⟨(he.append (.cons hf .nil)).append a, b, c⟩
      · exact up (skipThenRetry_good hp he hf r _ hr' (.inr ⟨_, _, hu'⟩))
    · have hs : σ = .ended ∧ t = .newline := by
        unfold Vis at hvis
        simp only [Classical.not_forall, Classical.not_not] at hvis
        obtain ⟨_, _, h2, h3⟩ := hvis
        cases h2
        exact ⟨h3, rfl⟩
      obtain ⟨rfl, rfl⟩ := hs
      have hfail := hv.resolve_left hvis
      rw [wb_drop] at hfail ⊢
      simp only [skipThenRetry]
      rw [show stateAfter .ended [(Token.newline, sp)] = .ended from rfl] at h1
      obtain ⟨_, _, hu'⟩ := hfail
      rw [hu'] at h1
      revert h1
      cases hu : p eoi r <;> intro h1 <;> first | exact h1.elim | skip
      exact up (skipThenRetry_good hp he hf r .ended hr' (.inr ⟨_, _, hu'⟩))

theorem recoverSkip_good {p : P Token α} (hp : Good Any p Vis) : Good Vis (recoverSkip p) Vis := by
  intro eoi S σ u hr hv
  have h1 := hp eoi S σ u hr trivial
  unfold recoverSkip
  revert h1
  cases p eoi u <;> cases p eoi (withoutBlank σ u) <;> intro h1 <;> first | exact h1 | exact h1.elim | skip
  exact skipThenRetry_good hp h1.1 h1.2 u σ hr (.inl hv)

end
end HyperIR
