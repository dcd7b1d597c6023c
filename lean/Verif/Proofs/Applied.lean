import Verif.Proofs.LexRename
import Verif.Proofs.Rename

/- Applying edits: the result does not depend on the order in which the edits are listed. -/

namespace HyperIR
open Spec

theorem each_perm_right {α β : Type} {R : α → β → Prop} {as as' : List α} (h : as'.Perm as) : ∀ {bs : List β}, Each R as bs → ∃ bs', bs'.Perm bs ∧ Each R as' bs' := by
  induction h with
  | nil => intro bs h; exact ⟨bs, .refl _, h⟩
  | cons x _ ih =>
    intro bs h
    cases h with
    | cons h1 h2 =>
      obtain ⟨bs', h3, h4⟩ := ih h2
      exact ⟨_ :: bs', h3.cons _, .cons h1 h4⟩
  | swap x y l =>
    intro bs h
    cases h with
    | cons h1 h2 =>
      cases h2 with
      | cons h2 h3 => exact ⟨_, .swap .., .cons h2 (.cons h1 h3)⟩
  | trans _ _ ih1 ih2 =>
    intro bs h
    obtain ⟨bs1, h1, h2⟩ := ih2 h
    obtain ⟨bs2, h3, h4⟩ := ih1 h2
    exact ⟨bs2, h3.trans h1, h4⟩

theorem each_flip {α β : Type} {R : α → β → Prop} {as : List α} {bs : List β} (h : Each R as bs) : Each (fun b a => R a b) bs as := by
  induction h with
  | nil => exact .nil
  | cons h _ ih => exact .cons h ih

theorem each_unique {α β : Type} {R : α → β → Prop} (hu : ∀ a a' b, R a b → R a' b → a = a') {as as' : List α} {bs : List β} (h : Each R as bs)
    (h' : Each R as' bs) : as = as' := by
  induction h generalizing as' with
  | nil => cases h'; rfl
  | cons h1 _ ih =>
    cases h' with
    | cons h3 h4 => rw [hu _ _ _ h1 h3, ih h4]

theorem each_perm_left {α β : Type} {R : α → β → Prop} (hu : ∀ a a' b, R a b → R a' b → a = a') {as as' : List α} {bs bs' : List β} (h : Each R as bs)
    (h' : Each R as' bs') (hp : bs'.Perm bs) : as'.Perm as := by
  obtain ⟨as'', h1, h2⟩ := each_perm_right hp (each_flip h)
  rw [each_unique hu h' (each_flip h2)]
  exact h1

/-- Changes are in source order. -/
theorem replaced_order {o : Nat} {text : Str} {cs : List (Span × Str)} {text' : Str} (h : Replaced o text cs text') :
    (∀ c ∈ cs, o ≤ c.1.start) ∧ cs.Pairwise fun a b => a.1.stop ≤ b.1.start := by
  induction h with
  | done => simp
  | change _ ih =>
    refine ⟨?_, List.pairwise_cons.mpr ⟨fun c hc => ih.1 c hc, ih.2⟩⟩
    intro c hc
    rcases List.mem_cons.mp hc with rfl | hc
    · simp only; omega
    · have := ih.1 c hc; omega

theorem replaced_unique {o : Nat} {text : Str} {cs : List (Span × Str)} {t1 t2 : Str} (h1 : Replaced o text cs t1) (h2 : Replaced o text cs t2) : t1 = t2 := by
  induction h1 generalizing t2 with
  | done => cases h2; rfl
  | @change o a w rest cs rest' v h ih =>
    generalize he : a ++ w ++ rest = x at h2
    generalize hc : (({ start := o + a.length, stop := o + a.length + w.length } : Span), v) :: cs = y at h2
    cases h2 with
    | done => cases hc
    | @change _ a' w' r' cs' r'' v' h' =>
      simp only [List.cons.injEq, Prod.mk.injEq, Span.mk.injEq] at hc
      obtain ⟨⟨⟨e1, e2⟩, rfl⟩, rfl⟩ := hc
      rw [List.append_assoc, List.append_assoc] at he
      obtain ⟨ea, he'⟩ := List.append_inj he (by omega)
      subst ea
      obtain ⟨ew, er⟩ := List.append_inj he' (by omega)
      subst ew
      subst er
      rw [ih h']

/-- The whole document. -/
theorem lexes_renamed [Unicode] {ren : Spanned Token → Option Str} {text : Str} {toks : List (Spanned Token)} {es : List (LErr Char)} (h : LexesWith { start := text.length, stop := text.length } 0 text toks es)
    (hne : toks ≠ [] ∨ text = []) (hren : NamesOnly ren toks) (hnum : NoNumberBefore ren toks) :
    ∃ text' es', tokenize text' = .ok (some (toks.map (renTok ren (movePos 0 0 (renChanges ren toks)))), es') ∧
      Each (LexMoved (movePos 0 0 (renChanges ren toks)) { start := text.length, stop := text.length } { start := text'.length, stop := text'.length } 0) es es' ∧
      Replaced 0 text (renChanges ren toks) text' ∧ Replaced 0 text' (backChanges ren (movePos 0 0 (renChanges ren toks)) toks) text := by
  obtain ⟨text0, _, _, _, r0, _, _⟩ := lexes_rename h hren hnum { start := 0, stop := 0 } 0
  obtain ⟨text', es', h1, h2, h3, h4, _⟩ := lexes_rename h hren hnum { start := text0.length, stop := text0.length } 0
  have : text' = text0 := replaced_unique h3 r0
  subst this
  refine ⟨text', es', tokenize_exact.mpr ⟨h1, ?_⟩, h2, h3, h4⟩
  rcases hne with hne | rfl
  · left
    intro e
    exact hne (List.map_eq_nil_iff.mp e)
  · cases toks with
    | cons => left; simp
    | nil =>
      right
      generalize e : renChanges ren [] = cs at h3
      generalize e' : ([] : Str) = s at h3
      cases h3 with
      | done => rfl
      | change => simp [renChanges] at e

/-- The result of applying edits with non-empty ranges is unique. -/
theorem applied_unique {text : Str} (hsize : text.length < 2 ^ 32) {edits : List TextEdit} {t1 t2 : Str}
    (hne : ∀ sp, ∀ e ∈ edits, EditorRange text sp e.range → sp.start < sp.stop) (h1 : Applied text edits t1) (h2 : Applied text edits t2) : t1 = t2 := by
  obtain ⟨c1, s1, p1, e1, r1⟩ := h1
  obtain ⟨c2, s2, p2, e2, r2⟩ := h2
  have hu : ∀ (a a' : Span × Str) (e : TextEdit), (EditorRange text a.1 e.range ∧ e.newText = a.2) → (EditorRange text a'.1 e.range ∧ e.newText = a'.2) → a = a' := by
    rintro ⟨a, v⟩ ⟨a', v'⟩ e ⟨h1, h2⟩ ⟨h3, h4⟩
    simp only at h1 h2 h3 h4
    rw [editorRange_inj hsize h1 h3, ← h2, ← h4]
  have hperm := each_perm_left hu e2 e1 (p1.trans p2.symm)
  have hmem : ∀ c ∈ c1, c.1.start < c.1.stop := by
    have : ∀ {cs : List (Span × Str)} {s : List TextEdit}, Each (fun (c : Span × Str) (e : TextEdit) => EditorRange text c.1 e.range ∧ e.newText = c.2) cs s →
        (∀ e ∈ s, e ∈ edits) → ∀ c ∈ cs, c.1.start < c.1.stop := by
      intro cs s h
      induction h with
      | nil => simp
      | cons h _ ih =>
        intro hs c hc
        rcases List.mem_cons.mp hc with rfl | hc
        · exact hne _ _ (hs _ (by simp)) h.1
        · exact ih (fun e he => hs e (by simp [he])) c hc
    exact this e1 (fun e he => p1.subset he)
  have : c1 = c2 := by
    refine hperm.eq_of_pairwise (le := fun a b => a.1.stop ≤ b.1.start) ?_ (replaced_order r1).2 (replaced_order r2).2
    intro a b ha hb h1 h2
    exfalso
    have := hmem a ha
    have := hmem b (hperm.symm.subset hb)
    omega
  subst this
  exact replaced_unique r1 r2

end HyperIR
