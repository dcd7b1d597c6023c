import Verif.Proofs.RenameMany
import Verif.Props.Diagnostics
import Verif.Spec.Kept

/- Renames leave everything on its line: names contain no line ends. -/

namespace HyperIR
open Spec

/-! ### Lines of a text with replaced pieces -/

theorem plain_append {a b : Str} : Plain (a ++ b) ↔ Plain a ∧ Plain b := by
  constructor
  · intro h
    exact ⟨fun c hc => h c (by simp [hc]), fun c hc => h c (by simp [hc])⟩
  · rintro ⟨h1, h2⟩ c hc
    rcases List.mem_append.mp hc with hc | hc
    · exact h1 c hc
    · exact h2 c hc

theorem byteToLine_add {r : Str} : ∀ {a : Str} (k : Nat), Plain a →
    byteToLine (a.length + k) (a ++ r) = byteToLine a.length (a ++ r) + byteToLine k r
  | [], k, _ => by
    simp [byteToLine_zero]
  | c :: a, k, h => by
    have hc : c.utf8Size = 1 := utf8Size_ascii (h c (by simp)).1
    have ih := byteToLine_add (r := r) (a := a) k fun d hd => h d (by simp [hd])
    simp only [List.cons_append, List.length_cons, byteToLine, hc]
    rw [if_pos (show 1 ≤ a.length + 1 + k by omega), if_pos (show 1 ≤ a.length + 1 by omega), show a.length + 1 + k - 1 = a.length + k by omega, show a.length + 1 - 1 = a.length by omega, ih]
    omega

theorem byteToLine_tail {r r' : Str} (hr : r.head? = some '\n' ↔ r'.head? = some '\n') : ∀ {a : Str} {k : Nat}, Plain a → k ≤ a.length →
    byteToLine k (a ++ r) = byteToLine k (a ++ r')
  | [], k, _, hk => by
    obtain rfl : k = 0 := by simpa using hk
    simp [byteToLine_zero]
  | c :: a, k, h, hk => by
    have hc : c.utf8Size = 1 := utf8Size_ascii (h c (by simp)).1
    simp only [List.cons_append, byteToLine, hc]
    split
    · rw [byteToLine_tail hr (a := a) (k := k - 1) (fun d hd => h d (by simp [hd])) (by simp at hk; omega)]
      have : isLineBreak c (a ++ r) = isLineBreak c (a ++ r') := by
        unfold isLineBreak
        cases a with
        | nil =>
          by_cases hcr : c = '\r'
          · simp only [hcr, if_true, List.nil_append, ne_eq, hr]
          · simp [hcr]
        | cons d a => rfl
      rw [this]
    · rfl

theorem movePos_ge (o o' : Nat) (cs : List (Span × Str)) (p : Nat) : o' ≤ movePos o o' cs p := by
  induction cs generalizing o o' with
  | nil => simp [movePos]
  | cons c cs ih =>
    obtain ⟨sp, v⟩ := c
    simp only [movePos]
    split
    · omega
    · exact Nat.le_trans (by omega) (ih _ _)

/-- The change replaces something by something, without line ends. -/
structure Tame (o : Nat) (text : Str) (c : Span × Str) : Prop where
  new : c.2 ≠ [] ∧ NoEol c.2
  nonempty : c.1.start < c.1.stop
  old : ∀ i ch, c.1.start ≤ o + i → o + i < c.1.stop → text[i]? = some ch → ch ≠ '\n' ∧ ch ≠ '\r'

theorem replaced_lines {o : Nat} {text : Str} {cs : List (Span × Str)} {text' : Str} (h : Replaced o text cs text')
    (hp : ∀ c ∈ cs, Plain (text.take (c.1.stop - o)) ∧ Plain c.2) (hc : ∀ c ∈ cs, Tame o text c) (o' : Nat) :
    (text.head? = some '\n' ↔ text'.head? = some '\n') ∧
    ∀ p, o ≤ p → p ≤ o + text.length → byteToLine (movePos o o' cs p - o') text' = byteToLine (p - o) text := by
  induction h generalizing o' with
  | @done o text =>
    refine ⟨Iff.rfl, ?_⟩
    intro p h1 h2
    simp only [movePos]
    rw [show o' + (p - o) - o' = p - o by omega]
  | @change o a w rest cs rest' v hrep ih =>
    have ht := hc _ (List.mem_cons_self ..)
    have hwn : w ≠ [] := by
      have := ht.nonempty
      simp only at this
      rintro rfl
      simp at this
    have hvn : v ≠ [] := ht.new.1
    have hve : NoEol v := ht.new.2
    have hwe : NoEol w := by
      intro ch hm
      obtain ⟨i, hi, rfl⟩ := List.getElem_of_mem hm
      refine ht.old (a.length + i) _ (by simp only; omega) (by simp only; omega) ?_
      rw [List.append_assoc, List.getElem?_append_right (by omega), show a.length + i - a.length = i by omega,
        List.getElem?_append_left hi, List.getElem?_eq_getElem hi]
    obtain ⟨hpw, hpv⟩ := hp _ (List.mem_cons_self ..)
    simp only at hpw hpv
    rw [show o + a.length + w.length - o = (a ++ w).length + 0 by simp only [List.length_append]; omega, List.take_length_add_append, List.take_zero,
      List.append_nil, plain_append] at hpw
    obtain ⟨hpa, hpw⟩ := hpw
    have hto : ∀ {x r : Str}, Plain x → PlainTo (x ++ r) x.length := by
      intro x r hx
      unfold PlainTo
      rw [List.take_left]
      exact hx
    obtain ⟨ih1, ih2⟩ := ih (by
      intro c hm
      have hq := (replaced_order hrep).1 _ hm
      have := hp c (by simp [hm])
      refine ⟨?_, this.2⟩
      by_cases hs : c.1.stop ≤ o + a.length + w.length
      · rw [show c.1.stop - (o + a.length + w.length) = 0 by omega]
        intro d hd
        simp at hd
      · have this := this.1
        rw [show c.1.stop - o = (a ++ w).length + (c.1.stop - (o + a.length + w.length)) by simp only [List.length_append]; omega, List.take_length_add_append] at this
        exact fun d hd => this d (List.mem_append_right _ hd)) (by
      intro c hcm
      have := hc c (List.mem_cons_of_mem _ hcm)
      refine ⟨this.new, this.nonempty, ?_⟩
      intro i ch h1 h2 h3
      refine this.old (a.length + w.length + i) ch (by omega) (by omega) ?_
      rw [List.getElem?_append_right (by simp), show a.length + w.length + i - (a ++ w).length = i by simp]
      exact h3) (o' + a.length + v.length)
    have hw0 : ∀ r, ¬ (w ++ r).head? = some '\n' := by
      intro r
      cases w with
      | nil => exact absurd rfl hwn
      | cons x xs =>
        simp only [List.cons_append, List.head?_cons, Option.some.injEq]
        exact (hwe x (by simp)).1
    have hv0 : ∀ r, ¬ (v ++ r).head? = some '\n' := by
      intro r
      cases v with
      | nil => exact absurd rfl hvn
      | cons x xs =>
        simp only [List.cons_append, List.head?_cons, Option.some.injEq]
        exact (hve x (by simp)).1
    have hhead : (w ++ rest).head? = some '\n' ↔ (v ++ rest').head? = some '\n' := ⟨fun h => absurd h (hw0 _), fun h => absurd h (hv0 _)⟩
    refine ⟨?_, ?_⟩
    · cases a with
      | nil => simpa using hhead
      | cons x xs => simp
    · intro p h1 h2
      simp only [List.append_assoc, List.length_append] at h2 ⊢
      simp only [movePos]
      split
      · by_cases hpa' : p - o ≤ a.length
        · rw [show o' + min (p - o) (o + a.length - o) - o' = p - o by omega]
          exact (byteToLine_tail hhead hpa hpa').symm
        · rw [show o' + min (p - o) (o + a.length - o) - o' = a.length by omega, ← byteToLine_tail hhead hpa (Nat.le_refl _),
            show p - o = a.length + (p - o - a.length) by omega, byteToLine_add _ hpa,
            byteToLine_content (content := w) (tail := rest) hwe ((hto hpw).mono (by omega)) (by omega)]
          rfl
      · have := ih2 p (by omega) (by omega)
        have hge := movePos_ge (o + a.length + w.length) (o' + a.length + v.length) cs p
        rw [show o' + (o + a.length - o) + v.length = o' + a.length + v.length by omega]
        rw [show movePos (o + a.length + w.length) (o' + a.length + v.length) cs p - o' =
            a.length + (v.length + (movePos (o + a.length + w.length) (o' + a.length + v.length) cs p - (o' + a.length + v.length))) by omega,
          show p - o = a.length + (w.length + (p - (o + a.length + w.length))) by omega,
          byteToLine_add _ hpa, byteToLine_add _ hpa, byteToLine_add _ hpv, byteToLine_add _ hpw, this,
          byteToLine_tail hhead hpa (Nat.le_refl _),
          byteToLine_content (content := w) (tail := rest) hwe (hto hpw) (Nat.le_refl _),
          byteToLine_content (content := v) (tail := rest') hve (hto hpv) (Nat.le_refl _)]

section
variable [Unicode]

theorem named_noEol {t : Token} {n : Str} (h : tokName t = some n) {w : Str} (hs : Spells t w) : NoEol w := by
  have hchar : ∀ c, NameChar c → c ≠ '\n' ∧ c ≠ '\r' := by
    intro c hc
    refine ⟨?_, ?_⟩
    all_goals
      rintro rfl
      rcases hc with h | h
      · revert h
        unfold Unicode.alphanumeric
        rw [Unicode.alphabetic_ascii _ (by decide), Unicode.numeric_ascii _ (by decide)]
        decide
      · revert h; decide
  have hhead : ∀ c, NameHead c → NameChar c := by
    intro c hc
    rcases hc with h | h
    · left; unfold Unicode.alphanumeric; rw [h]; rfl
    · exact .inr h
  have tail : ∀ w, NameTail w → NoEol w := by
    intro w hw c hc
    rcases hw.1 c hc with h | rfl
    · exact hchar c h
    · decide
  have cons : ∀ c w, c ≠ '\n' ∧ c ≠ '\r' → NameTail w → NoEol (c :: w) := by
    intro c w hc hw d hd
    rcases List.mem_cons.mp hd with rfl | hd
    · exact hc
    · exact tail w hw d hd
  cases hs with
  | ident hn =>
    obtain ⟨c, cs, rfl, h1, h2⟩ := hn
    exact cons c cs (hchar c (hhead c h1)) h2
  | globalName hw => exact cons _ _ (by decide) hw
  | localName hw => exact cons _ _ (by decide) hw
  | debugRef hw => exact cons _ _ (by decide) hw
  | _ => cases h

variable {G : Renaming} {text text' : Str} {res res' : ParserResult}

/-- Everything stays on its line. -/
theorem Carried.lines (hG : Carried G text text' res res') (h : parseFromStr text = .ok res) (h' : parseFromStr text' = .ok res') :
    ∀ p ≤ text.length, byteToLine (G.f p) text' = byteToLine p text := by
  obtain ⟨cs, h1, h2, h3, _⟩ := hG.changes
  have := (replaced_lines h1 (by
    intro c hc
    obtain ⟨t, ht, v, hv, rfl⟩ := h3 c hc
    exact hG.changed t ht v hv) (by
    intro c hc
    obtain ⟨t, ht, v, hv, rfl⟩ := h3 c hc
    obtain ⟨n, hn, hb⟩ := hG.bare _ ht _ hv
    have hsp : Spells t.1 (slice text t.2) := by
      obtain ⟨g, w, hg, hw, _⟩ := C03_token_spelling_with_errors h _ _ ht
      have hwn := spells_named hw hn
      have hl := congrArg List.length hg
      have hle : (slice text t.2).length ≤ t.2.stop - t.2.start := by
        unfold slice
        rw [List.length_take]
        omega
      rw [List.length_append, hwn] at hl
      have : g = [] := List.length_eq_zero_iff.mp (by omega)
      rw [hg, this]
      exact hw
    have hin := (C02_token_spans h).1 _ ht
    have hm : G.tok t ∈ res'.tokens := by rw [hG.tokens]; exact List.mem_map_of_mem ht
    have hv' : Spells (withName t.1 v) v := by
      obtain ⟨g, w, _, hw, _⟩ := C03_token_spelling_with_errors h' _ _ hm
      simp only [Renaming.tok, renTok, hv] at hw
      have hn' : tokName (withName t.1 v) = some v := by
        revert hn; cases t.1 <;> simp [tokName, withName]
      rw [spells_named hw hn'] at hw
      exact hw
    have hn' : tokName (withName t.1 v) = some v := by
      revert hn; cases t.1 <;> simp [tokName, withName]
    refine ⟨⟨spells_ne_nil hv', named_noEol hn' hv'⟩, ?_, ?_⟩
    · exact hin.1
    · intro i ch i1 i2 i3
      refine named_noEol hn hsp ch ?_
      simp only [Nat.zero_add] at i1 i2
      have hlt : i < text.length := (List.getElem?_eq_some_iff.mp i3).1
      refine List.mem_of_getElem? (i := i - t.2.start) ?_
      unfold slice
      rw [List.getElem?_take, if_pos (by omega), List.getElem?_drop, show t.2.start + (i - t.2.start) = i by omega]
      exact i3) 0).2
  intro p hp
  have := this p (by omega) (by omega)
  rw [h2]
  simpa using this

/-- A renamed range covers the same lines. -/
theorem rangeToLsp_kept (hG : Carried G text text' res res') (h : parseFromStr text = .ok res) (h' : parseFromStr text' = .ok res')
    (hsize : text.length < 2 ^ 32) (hsize' : text'.length < 2 ^ 32) {sp : Span} (h1 : sp.start ≤ text.length) (h2 : sp.stop ≤ text.length) :
    ∃ r r', rangeToLsp text sp = some r ∧ rangeToLsp text' (G.span sp) = some r' ∧ SameLines r r' := by
  have hl := length_le_utf8Len text
  have hl' := length_le_utf8Len text'
  have k1 := hG.inside _ h1
  have k2 := hG.inside _ h2
  unfold rangeToLsp Renaming.span
  rw [offsetToLspPos_eq (by omega) hsize, offsetToLspPos_eq (by omega) hsize, offsetToLspPos_eq (by simp only; omega) hsize',
    offsetToLspPos_eq (by simp only; omega) hsize']
  refine ⟨_, _, rfl, rfl, ?_, ?_⟩
  · exact hG.lines h h' _ h1
  · exact hG.lines h h' _ h2

theorem sameLines_of (hG : Carried G text text' res res') (h : parseFromStr text = .ok res) (h' : parseFromStr text' = .ok res')
    (hsize : text.length < 2 ^ 32) (hsize' : text'.length < 2 ^ 32) {sp : Span} (h1 : sp.start ≤ text.length) (h2 : sp.stop ≤ text.length) {r r' : Range}
    (hr : rangeToLsp text sp = some r) (hr' : rangeToLsp text' (G.span sp) = some r') : SameLines r r' := by
  obtain ⟨_, _, e, e', hs⟩ := rangeToLsp_kept hG h h' hsize hsize' h1 h2
  rw [hr] at e
  rw [hr'] at e'
  cases e
  cases e'
  exact hs

end

end HyperIR
