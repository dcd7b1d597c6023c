import Verif.Proofs.IndexFacts
import Verif.Proofs.Numbers

/- External definitions (src/hir_index.rs:209-241). -/

namespace HyperIR
open Spec

theorem splitOn_ne_nil (c : Char) (s : Str) : splitOn c s ≠ [] := by
  cases s with
  | nil => simp [splitOn]
  | cons x xs =>
    unfold splitOn
    split
    · simp
    · split <;> simp

theorem splitOn_one {c : Char} {s w : Str} : splitOn c s = [w] ↔ c ∉ s ∧ w = s := by
  induction s generalizing w with
  | nil => simp [splitOn, eq_comm]
  | cons x xs ih =>
    unfold splitOn
    by_cases hx : x = c
    · have := splitOn_ne_nil c xs
      simp [hx, this]
    · simp only [hx, if_false]
      cases hs : splitOn c xs with
      | nil => exact absurd hs (splitOn_ne_nil c xs)
      | cons v ws =>
        simp only [List.cons.injEq]
        have hne : ¬ c = x := fun h => hx h.symm
        constructor
        · rintro ⟨rfl, rfl⟩
          obtain ⟨h1, h2⟩ := ih.mp hs
          exact ⟨by simp [hne, h1], by rw [h2]⟩
        · rintro ⟨h1, rfl⟩
          simp only [List.mem_cons, not_or] at h1
          have h2 := ih.mpr ⟨h1.2, rfl⟩
          rw [hs] at h2
          simp only [List.cons.injEq] at h2
          exact ⟨by rw [h2.1], h2.2⟩

theorem splitOn_two {c : Char} {s a b : Str} : splitOn c s = [a, b] ↔ c ∉ a ∧ c ∉ b ∧ s = a ++ c :: b := by
  induction s generalizing a with
  | nil => simp [splitOn]
  | cons x xs ih =>
    unfold splitOn
    by_cases hx : x = c
    · subst hx
      simp only [if_true, List.cons.injEq]
      rw [splitOn_one]
      constructor
      · rintro ⟨rfl, h1, rfl⟩
        exact ⟨by simp, h1, rfl⟩
      · rintro ⟨h1, h2, h3⟩
        cases a with
        | nil => simp at h3; exact ⟨rfl, by rw [h3]; exact h2, h3.symm⟩
        | cons y a => simp at h3; rw [h3.1] at h1; simp at h1
    · simp only [hx, if_false]
      have hne : ¬ c = x := fun h => hx h.symm
      cases hs : splitOn c xs with
      | nil => exact absurd hs (splitOn_ne_nil c xs)
      | cons v ws =>
        simp only [List.cons.injEq]
        constructor
        · rintro ⟨rfl, rfl⟩
          obtain ⟨h1, h2, h3⟩ := ih.mp hs
          exact ⟨by simp [hne, h1], h2, by rw [h3]; rfl⟩
        · rintro ⟨h1, h2, h3⟩
          cases a with
          | nil => simp at h3; exact absurd h3.1 hx
          | cons y a =>
            simp only [List.cons_append, List.cons.injEq] at h3
            obtain ⟨rfl, h3⟩ := h3
            simp only [List.mem_cons, not_or] at h1
            have h4 := ih.mpr ⟨h1.2, h2, h3⟩
            rw [hs] at h4
            simp only [List.cons.injEq] at h4
            exact ⟨by rw [h4.1], h4.2⟩

theorem parseU32_iff {w : Str} {n : Nat} :
    parseU32 w = some n ↔ (Denotes w n ∨ ∃ ds, w = '+' :: ds ∧ Denotes ds n) ∧ n < 2 ^ 32 := by
  have hplus : ∀ ds, ¬ Denotes ('+' :: ds) n := by
    intro ds h
    have := digit_range (denotes_digits h '+' (by simp))
    have : '+'.toNat = 43 := by decide
    omega
  have key : ∀ body, (match parseNat body with
      | some n => if n < 2 ^ 32 then some n else none
      | none => none) = some n ↔ Denotes body n ∧ n < 2 ^ 32 := by
    intro body
    rw [← parseNat_iff]
    cases parseNat body with
    | none => simp
    | some m =>
      simp only [Option.some.injEq]
      constructor
      · intro h
        split at h
        · cases h; exact ⟨rfl, by assumption⟩
        · cases h
      · rintro ⟨rfl, h⟩
        simp [h]
  unfold parseU32
  refine (key _).trans ?_
  split
  · rename_i ds
    constructor
    · rintro ⟨h1, h2⟩; exact ⟨.inr ⟨ds, rfl, h1⟩, h2⟩
    · rintro ⟨h1 | ⟨ds', h1, h3⟩, h2⟩
      · exact absurd h1 (hplus ds)
      · cases h1; exact ⟨h3, h2⟩
  · rename_i hne
    constructor
    · rintro ⟨h1, h2⟩; exact ⟨.inl h1, h2⟩
    · rintro ⟨h1 | ⟨ds', h1, h3⟩, h2⟩
      · exact ⟨h1, h2⟩
      · exact absurd h1 (hne ds')

theorem parseExternalDef_iff {def_ : List (Spanned Token)} {d : ExternalDef} :
    parseExternalDef def_ = some d ↔ IsLocation def_ d := by
  constructor
  · intro h
    unfold parseExternalDef at h
    split at h
    · rename_i s sp
      split at h
      · rename_i fp ls hs
        obtain ⟨h1, h2, h3⟩ := splitOn_two.mp hs
        split at h
        · rename_i line hl
          cases h
          obtain ⟨h4, h5⟩ := parseU32_iff.mp hl
          exact ⟨sp, ls, by rw [h3], h1, h2, h4, h5⟩
        · cases h
      · cases h
    · cases h
  · rintro ⟨sp, line, rfl, h1, h2, h3, h4⟩
    unfold parseExternalDef
    simp only [splitOn_two.mpr ⟨h1, h2, rfl⟩, parseU32_iff.mpr ⟨h3, h4⟩]

/-- A statement list without declarations with the debug reference. -/
def NoDecl (ss : List Statement) (r : Str) : Prop := ∀ sig addr sp, .funcDecl sig addr (some (r, sp)) ∉ ss

theorem lastDeclares_cons {s : Statement} {ss : List Statement} {r n : Str} :
    LastDeclares (s :: ss) r n ↔ LastDeclares ss r n ∨
      (NoDecl ss r ∧ ∃ sig addr sp, s = .funcDecl sig addr (some (r, sp)) ∧ sig.name.1 = n) := by
  constructor
  · rintro ⟨before, sig, addr, sp, after, h1, h2, h3⟩
    cases before with
    | nil =>
      simp only [List.nil_append, List.cons.injEq] at h1
      obtain ⟨rfl, rfl⟩ := h1
      exact .inr ⟨h3, sig, addr, sp, rfl, h2⟩
    | cons b before =>
      simp only [List.cons_append, List.cons.injEq] at h1
      exact .inl ⟨before, sig, addr, sp, after, h1.2, h2, h3⟩
  · rintro (⟨before, sig, addr, sp, after, h1, h2, h3⟩ | ⟨h1, sig, addr, sp, rfl, h2⟩)
    · exact ⟨s :: before, sig, addr, sp, after, by rw [h1]; rfl, h2, h3⟩
    · exact ⟨[], sig, addr, sp, ss, rfl, h2, h1⟩

/-- What the map of unresolved references contains after some statements. -/
theorem unres_get {ss : List Statement} {u : StrMap Str} {r n : Str} :
    (ss.foldl unresStep u).get? r = some n ↔ LastDeclares ss r n ∨ (NoDecl ss r ∧ u.get? r = some n) := by
  induction ss generalizing u with
  | nil =>
    simp only [List.foldl_nil]
    constructor
    · intro h; exact .inr ⟨(by intro _ _ _ hm; cases hm), h⟩
    · rintro (⟨before, _, _, _, _, h, _⟩ | ⟨_, h⟩)
      · simp at h
      · exact h
  | cons s ss ih =>
    rw [List.foldl_cons, ih, lastDeclares_cons]
    have hstep : (unresStep u s).get? r = some n ↔
        (∃ sig addr sp, s = .funcDecl sig addr (some (r, sp)) ∧ sig.name.1 = n) ∨
        ((∀ sig addr sp, s ≠ .funcDecl sig addr (some (r, sp))) ∧ u.get? r = some n) := by
      have other : (∀ sig addr sp, s ≠ .funcDecl sig addr (some (r, sp))) → unresStep u s = u ∨
          (∃ d fn, d ≠ r ∧ unresStep u s = u.insert d fn) := by
        intro h
        cases s with
        | funcDecl sig addr d =>
          cases d with
          | none => exact .inl rfl
          | some d =>
            refine .inr ⟨d.1, sig.name.1, ?_, rfl⟩
            rintro rfl
            exact h sig addr d.2 rfl
        | _ => exact .inl rfl
      by_cases hs : ∃ sig addr sp, s = .funcDecl sig addr (some (r, sp))
      · obtain ⟨sig, addr, sp, rfl⟩ := hs
        simp only [unresStep, StrMap.insert, StrMap.get?_modifyEntry, if_true, Option.some.injEq]
        constructor
        · intro h; exact .inl ⟨sig, addr, sp, rfl, h⟩
        · rintro (⟨sig', addr', sp', h1, h2⟩ | ⟨h1, _⟩)
          · cases h1; exact h2
          · exact absurd rfl (h1 sig addr sp)
      · have hs' : ∀ sig addr sp, s ≠ .funcDecl sig addr (some (r, sp)) := fun sig addr sp h => hs ⟨sig, addr, sp, h⟩
        have hg : (unresStep u s).get? r = u.get? r := by
          rcases other hs' with h | ⟨d, fn, hd, h⟩
          · rw [h]
          · rw [h, StrMap.insert, StrMap.get?_modifyEntry, if_neg hd]
        rw [hg]
        constructor
        · intro h; exact .inr ⟨hs', h⟩
        · rintro (⟨sig, addr, sp, h, _⟩ | h)
          · exact absurd h (hs' sig addr sp)
          · exact h.2
    rw [hstep]
    constructor
    · rintro (h | ⟨h1, h2 | h2⟩)
      · exact .inl (.inl h)
      · exact .inl (.inr ⟨h1, h2⟩)
      · refine .inr ⟨?_, h2.2⟩
        intro sig addr sp hm
        rcases List.mem_cons.mp hm with h | h
        · exact h2.1 sig addr sp h.symm
        · exact h1 sig addr sp h
    · rintro ((h | ⟨h1, h2⟩) | ⟨h1, h2⟩)
      · exact .inl h
      · exact .inr ⟨h1, .inl h2⟩
      · refine .inr ⟨fun sig addr sp hm => h1 sig addr sp (by simp [hm]), .inr ⟨?_, h2⟩⟩
        rintro sig addr sp rfl
        exact h1 sig addr sp (by simp)

theorem funcEvents_ext (i : Nat) (sig : FuncSignature) (body : FuncBody) : (funcEvents i sig body).filterMap Event.ext? = [] := by
  rw [List.filterMap_eq_nil_iff]
  intro e he
  simp only [funcEvents, blockEvents, instrEvents, edgeEvents, List.mem_append, List.mem_flatMap, List.mem_map,
    List.mem_cons] at he
  rcases he with ⟨a, _, h⟩ | ⟨b, _, ⟨l, _, h⟩ | ⟨ins, _, ⟨t, _, h⟩ | ⟨r, _, h | h⟩⟩⟩
  · simp at h; subst h; rfl
  · subst h; rfl
  · subst h; rfl
  · subst h; rfl
  · split at h
    · simp at h
      obtain ⟨l, sp, _, h⟩ := h
      subst h; rfl
    · simp at h

theorem docExts_mem {src : Str} {ss : List Statement} {u : StrMap Str} {i : Nat} {fn : Str} {d : ExternalDef} :
    (fn, d) ∈ (docEvents src u i ss).filterMap Event.ext? ↔
      ∃ before name def_ after, ss = before ++ .dbgAnnotation name def_ :: after ∧ IsLocation def_ d ∧
        (before.foldl unresStep u).get? name.1 = some fn := by
  induction ss generalizing u i with
  | nil => simp [docEvents]
  | cons s ss ih =>
    rw [docEvents, List.filterMap_append, List.mem_append, ih]
    have hs : (fn, d) ∈ (stmtEvents src u i s).filterMap Event.ext? ↔
        ∃ name def_, s = .dbgAnnotation name def_ ∧ IsLocation def_ d ∧ u.get? name.1 = some fn := by
      cases s with
      | dbgAnnotation name def_ =>
        simp only [stmtEvents, List.filterMap_cons, Event.ext?, List.filterMap_append]
        rw [List.mem_append]
        constructor
        · rintro (h | h)
          · split at h <;> simp [Event.ext?] at h
          · split at h
            · rename_i fn' x h2 h3
              simp [Event.ext?] at h
              obtain ⟨rfl, rfl⟩ := h
              exact ⟨name, def_, rfl, parseExternalDef_iff.mp h3, h2⟩
            · simp at h
        · rintro ⟨name', def', h2, h3, h4⟩
          cases h2
          right
          simp [h4, parseExternalDef_iff.mpr h3, Event.ext?]
      | funcDef kw sig body =>
        simp only [stmtEvents, List.filterMap_cons, Event.ext?, funcEvents_ext]
        simp
      | _ => simp [stmtEvents, Event.ext?]
    rw [hs]
    constructor
    · rintro (⟨name, def_, rfl, h1, h2⟩ | ⟨before, name, def_, after, rfl, h1, h2⟩)
      · exact ⟨[], name, def_, ss, rfl, h1, h2⟩
      · exact ⟨s :: before, name, def_, after, rfl, h1, h2⟩
    · rintro ⟨before, name, def_, after, h, h1, h2⟩
      cases before with
      | nil =>
        simp only [List.nil_append, List.cons.injEq] at h
        exact .inl ⟨name, def_, h.1, h1, h2⟩
      | cons b before =>
        simp only [List.cons_append, List.cons.injEq] at h
        obtain ⟨rfl, rfl⟩ := h
        exact .inr ⟨before, name, def_, after, rfl, h1, h2⟩

end HyperIR
