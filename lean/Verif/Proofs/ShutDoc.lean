import Verif.Proofs.Shut
import Verif.Proofs.Compose

/- Broken statements in front of a readable one (src/hir_parser.rs:418-426). -/

namespace HyperIR
open Spec

section
variable {h : Tok}

theorem Starts.notNewline (hh : Starts h) {t : List Tok} : ∀ sp r', h :: t ≠ (.newline, sp) :: r' := by
  intro sp r' e
  cases e
  exact hh.facts.2.2.2.2.1 rfl

theorem padded_shut (hh : Starts h) {s : List Tok} (hs : LinedToks s) (hne : s ≠ []) (hn : ∀ sp r', s ≠ (.newline, sp) :: r') : ∃ R,
    (∀ eoi t, pPaddedStatement eoi (s ++ h :: t) = upRes h t R) ∧
    ∀ es x alt r, R = .ok es x alt r → LinedToks r ∧ r.length < s.length := by
  have h0 : ∀ eoi t, ∃ xs, repeated pNewline eoi (s ++ h :: t) = .ok [] xs (some (upErr t.length (unexpectedAt noEoi (s ++ [h]) [some .newline]))) (s ++ h :: t) := by
    intro eoi t
    unfold repeated repeatedAtLeast
    rw [unexpectedAt_eoi (eoi' := eoi), ← unexpectedAt_up]
    refine newlineLoop (t := s ++ h :: t) ?_ (nls := []) (by intro t ht; cases ht) (by simp) (by simp)
    intro sp r' e
    cases s with
    | nil => exact hne rfl
    | cons a s => simp at e; exact hn sp s (by rw [e.1])
  obtain ⟨R, h1, h2⟩ := pStatement_shut hh s hs (fun e => absurd e hne)
  have key : ∃ R, (∀ eoi t, pPaddedStatement eoi (s ++ h :: t) = upRes h t R) ∧
      ∀ es x alt r, R = .ok es x alt r → LinedToks r := by
    cases R with
    | panic =>
      refine ⟨.panic, fun eoi t => ?_, by intro es x alt r e; cases e⟩
      obtain ⟨xs, h0⟩ := h0 eoi t
      simp [pPaddedStatement, paddedBy, thenIgnore, ignoreThen, pmap, pthen, h0, h1, upRes]
    | err es e =>
      refine ⟨.err es (maxErr e (some (unexpectedAt noEoi (s ++ [h]) [some .newline]))), fun eoi t => ?_, by intro es x alt r e; cases e⟩
      obtain ⟨xs, h0⟩ := h0 eoi t
      simp [pPaddedStatement, paddedBy, thenIgnore, ignoreThen, pmap, pthen, h0, h1, upRes]
      exact maxErr_up (b := some _)
    | ok es x alt r =>
      obtain ⟨l1, l2, l3⟩ := h2 _ _ _ _ rfl
      obtain ⟨R', h3, h4⟩ := newlines_shut hh r l1 (fun _ => rfl)
      have hm : ∀ t, mergeAlts (some (upErr t (unexpectedAt noEoi (s ++ [h]) [some .newline]))) (alt.map (upErr t)) =
          (mergeAlts (some (unexpectedAt noEoi (s ++ [h]) [some .newline])) alt).map (upErr t) := fun t => mergeAlts_up (a := some _)
      cases R' with
      | panic =>
        refine ⟨.panic, fun eoi t => ?_, by intro es x alt r e; cases e⟩
        obtain ⟨xs, h0⟩ := h0 eoi t
        simp [pPaddedStatement, paddedBy, thenIgnore, ignoreThen, pmap, pthen, h0, h1, h3, upRes]
      | err es' e =>
        refine ⟨.err (es ++ es') (maxErr e (mergeAlts (some (unexpectedAt noEoi (s ++ [h]) [some .newline])) alt)), fun eoi t => ?_,
          by intro es x alt r e; cases e⟩
        obtain ⟨xs, h0⟩ := h0 eoi t
        simp [pPaddedStatement, paddedBy, thenIgnore, ignoreThen, pmap, pthen, h0, h1, h3, upRes, hm, maxErr_up]
      | ok es' y alt' r' =>
        refine ⟨.ok (es ++ es') x (mergeAlts (mergeAlts (some (unexpectedAt noEoi (s ++ [h]) [some .newline])) alt) alt') r', fun eoi t => ?_, ?_⟩
        · obtain ⟨xs, h0⟩ := h0 eoi t
          simp [pPaddedStatement, paddedBy, thenIgnore, ignoreThen, pmap, pthen, h0, h1, h3, upRes, hm, mergeAlts_up]
        · intro es x alt r e
          cases e
          exact (h4 _ _ _ _ rfl).1
  obtain ⟨R, h3, h4⟩ := key
  refine ⟨R, h3, fun es x alt r e => ⟨h4 _ _ _ _ e, ?_⟩⟩
  subst e
  have := pPaddedStatement_progress ⟨_, h3 noEoi []⟩
  simpa using this

/-- A statement is read, or skipping goes on up to `h`. -/
theorem retry_shut (hh : Starts h) {s : List Tok} (hs : LinedToks s) (hne : s ≠ []) :
    (∃ (es : List (LErr Token)) (x : Statement) (alt : Option (LErr Token)) (r : List Tok), LinedToks r ∧ r.length < s.length ∧ ∀ eoi t errs fatal, skipThenRetry pPaddedStatement eoi errs fatal (s ++ h :: t) =
      .ok (errs ++ [fatal] ++ es.map (upErr t.length)) x (alt.map (upErr t.length)) (r ++ h :: t)) ∨
    ∀ eoi t errs fatal es x alt r, pPaddedStatement eoi (h :: t) = .ok es x alt r →
      skipThenRetry pPaddedStatement eoi errs fatal (s ++ h :: t) = .ok (errs ++ [fatal] ++ es) x alt r := by
  induction s with
  | nil => exact absurd rfl hne
  | cons a s ih =>
    obtain ⟨nls, s1, e, hn, hs1⟩ := exists_newlines_split s
    by_cases h1 : s1 = []
    · right
      intro eoi t errs fatal es x alt r hr
      subst h1
      rw [List.append_nil] at e
      have := pPaddedStatement_newlines (eoi := eoi) hn (hh.notNewline (t := t))
      rw [← e] at this
      simp only [List.cons_append, skipThenRetry, this, hr]
    · obtain ⟨R, k1, k2⟩ := padded_shut hh (s := s1) (by have := hs.tail; rw [e] at this; exact this.drop) h1 hs1
      have k3 : ∀ eoi t, pPaddedStatement eoi (s ++ h :: t) = upRes h t R := by
        intro eoi t
        rw [← k1, e, List.append_assoc]
        refine pPaddedStatement_newlines hn ?_
        intro sp r' e'
        cases s1 with
        | nil => exact h1 rfl
        | cons b s1 => simp at e'; exact hs1 sp s1 (by rw [e'.1])
      cases R with
      | panic =>
        exfalso
        exact pPaddedStatement_noPanic _ _ (k3 noEoi [])
      | ok es x alt r =>
        left
        obtain ⟨l1, l2⟩ := k2 _ _ _ _ rfl
        refine ⟨es, x, alt, r, l1, ?_, fun eoi t errs fatal => by simp [skipThenRetry, k3, upRes]⟩
        rw [e]; simp; omega
      | err es e' =>
        have hsn : s ≠ [] := by
          rintro rfl
          exact h1 (List.append_eq_nil_iff.mp e.symm).2
        rcases ih hs.tail hsn with ⟨es2, x, alt, r, l1, l2, l3⟩ | l
        · left
          exact ⟨es2, x, alt, r, l1, by simp; omega, fun eoi t errs fatal => by simp only [List.cons_append, skipThenRetry, k3, upRes, l3]⟩
        · right
          intro eoi t errs fatal es3 x alt r hr
          simp only [List.cons_append, skipThenRetry, k3, upRes]
          exact l eoi t errs fatal es3 x alt r hr

/-- What the parser makes of broken text in front of a readable statement that starts with `h`: nothing behind `h` matters, and what is
behind is read as it is read on its own. -/
theorem doc_shut (hh : Starts h) : ∀ (k : Nat) (s : List Tok), s.length ≤ k → LinedToks s → ∃ (ss : List Statement) (es : List (LErr Token)),
    ∀ eoi t es' ss', (∃ es x alt r, pPaddedStatement eoi (h :: t) = .ok es x alt r) → Many docItem eoi (h :: t) es' ss' [] →
      Many docItem eoi (s ++ h :: t) (es.map (upErr t.length) ++ es') (ss ++ ss') []
  | k, s, hk, hs => by
    obtain ⟨nls, s1, e, hn, hs1⟩ := exists_newlines_split s
    by_cases h1 : s1 = []
    · refine ⟨[], [], fun eoi t es' ss' ⟨es, x, alt, r, hr⟩ hm => ?_⟩
      subst h1
      rw [List.append_nil] at e
      rw [e]
      refine (many_docItem_newlines hn hh.notNewline ?_).mpr hm
      rintro rfl
      cases hm
    · obtain ⟨R, k1, k2⟩ := padded_shut hh (s := s1) (by rw [e] at hs; exact hs.drop) h1 hs1
      have k3 : ∀ eoi t, pPaddedStatement eoi (s ++ h :: t) = upRes h t R := by
        intro eoi t
        rw [← k1, e, List.append_assoc]
        refine pPaddedStatement_newlines hn ?_
        intro sp r' e'
        cases s1 with
        | nil => exact h1 rfl
        | cons b s1 => simp at e'; exact hs1 sp s1 (by rw [e'.1])
      cases R with
      | panic =>
        exfalso
        exact pPaddedStatement_noPanic _ _ (k3 noEoi [])
      | ok es x alt r =>
        obtain ⟨l1, l2⟩ := k2 _ _ _ _ rfl
        have hlt : r.length < s.length := by rw [e]; simp; omega
        obtain ⟨ss2, es2, ih⟩ := doc_shut hh (k - 1) r (by omega) l1
        refine ⟨x :: ss2, es ++ es2, fun eoi t es' ss' hr hm => ?_⟩
        rw [List.map_append, List.append_assoc, List.cons_append]
        refine .cons ⟨alt.map (upErr t.length), ?_⟩ (ih eoi t es' ss' hr hm)
        simp only [docItem, recoverSkip, k3, upRes]
      | err es er =>
        have hsn : s ≠ [] := by
          rintro rfl
          exact h1 (List.append_eq_nil_iff.mp e.symm).2
        rcases retry_shut hh hs hsn with ⟨es2, x, alt, r, l1, l2, l3⟩ | l
        · obtain ⟨ss3, es3, ih⟩ := doc_shut hh (k - 1) r (by omega) l1
          refine ⟨x :: ss3, es ++ [er] ++ es2 ++ es3, fun eoi t es' ss' hr hm => ?_⟩
          rw [List.map_append, List.append_assoc, List.cons_append]
          refine .cons ⟨alt.map (upErr t.length), ?_⟩ (ih eoi t es' ss' hr hm)
          simp only [docItem, recoverSkip, k3, upRes, l3, List.map_append, List.map_cons, List.map_nil]
        · refine ⟨[], es ++ [er], fun eoi t es' ss' ⟨es2, x, alt, r, hr⟩ hm => ?_⟩
          cases hm with
          | @cons _ es4 x4 r4 es5 ss5 _ ho hm =>
            obtain ⟨alt4, ho⟩ := ho
            simp only [docItem, recoverSkip, hr] at ho
            cases ho
            rw [List.nil_append, ← List.append_assoc]
            refine .cons ⟨alt, ?_⟩ hm
            simp only [docItem, recoverSkip, k3, upRes, l eoi t _ _ _ _ _ _ hr, List.map_append, List.map_cons, List.map_nil]
  termination_by k s => s.length

end

end HyperIR
