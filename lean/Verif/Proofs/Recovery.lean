import Verif.Proofs.ParserComplete
import Verif.Spec.Recovery

/- Error recovery of the parser (src/hir_parser.rs:413-421). -/

namespace HyperIR
open Spec

section
variable {eoi : Span}

theorem docItem_skip {t : Tok} {s es x r} (hf : Fails pPaddedStatement eoi (t :: s)) (h : Ok docItem eoi s es x r) :
    ∃ es', es' ≠ [] ∧ Ok docItem eoi (t :: s) es' x r := by
  obtain ⟨es0, e, hf⟩ := hf
  rcases recoverSkip_ok.mp h with h | ⟨es1, e1, s', es2, h1, h2, h3, rfl⟩
  · exact ⟨_, by simp, recoverSkip_ok.mpr (.inr ⟨es0, e, s, es, hf, .one, h, rfl⟩)⟩
  · exact ⟨_, by simp, recoverSkip_ok.mpr (.inr ⟨es0, e, s', es2, hf, .cons ⟨es1, e1, h1⟩ h2, h3, rfl⟩)⟩

theorem docItem_skips {R : List Tok} {es x r} (h : Ok docItem eoi R es x r) : ∀ {u : List Tok},
    (∀ u1 u2, u = u1 ++ u2 → u2 ≠ [] → Fails pPaddedStatement eoi (u2 ++ R)) → u ≠ [] →
    ∃ es', es' ≠ [] ∧ Ok docItem eoi (u ++ R) es' x r
  | [], _, hne => absurd rfl hne
  | [t], hu, _ => docItem_skip (hu [] [t] rfl (by simp)) h
  | t :: t' :: u, hu, _ => by
    obtain ⟨es', _, h'⟩ := docItem_skips h (u := t' :: u) (fun u1 u2 h1 h2 => hu (t :: u1) u2 (by rw [h1]; rfl) h2) (by simp)
    exact docItem_skip (hu [] (t :: t' :: u) rfl (by simp)) h'

/-- No statement is read on a broken line. -/
theorem padded_fails_of_not_starts {nls lg R : List Tok} (hn : Newlines nls) (hne : lg ≠ [])
    (hg : ∀ t ∈ lg, t.1 ≠ .newline) (hb : ¬ StartsStatement (kinds (lg ++ R))) :
    Fails pPaddedStatement eoi (nls ++ lg ++ R) := by
  refine fails_of_not_ok pPaddedStatement_noPanic ?_
  intro es x r h
  obtain ⟨nls1, l, nls2, h1, h2, h3, h4, h5⟩ := pPaddedStatement_sound h
  have hl := stmtG_ne_nil h2
  have hl' : ∀ sp l', l ≠ (.newline, sp) :: l' := by
    rintro sp l' rfl
    cases h2 <;> simp_all [globalTok, dbgTok]
  have key : ∀ {a b : List Tok} {c d : List Tok}, Newlines a → Newlines b → c ≠ [] → d ≠ [] →
      (∀ sp l', c ≠ (.newline, sp) :: l') → (∀ sp l', d ≠ (.newline, sp) :: l') → ∀ {e f}, a ++ c ++ e = b ++ d ++ f →
      a = b ∧ c ++ e = d ++ f := by
    intro a
    induction a with
    | nil =>
      intro b c d _ hb hc hd hc' hd' e f he
      cases b with
      | nil => exact ⟨rfl, by simpa using he⟩
      | cons t b =>
        obtain ⟨k, sp⟩ := t
        cases hb _ (List.mem_cons_self ..)
        cases c with
        | nil => exact absurd rfl hc
        | cons t' c =>
          simp only [List.nil_append, List.cons_append, List.cons.injEq] at he
          exact absurd (by rw [he.1]) (hc' sp c)
    | cons t a ih =>
      intro b c d ha hb hc hd hc' hd' e f he
      obtain ⟨k, sp⟩ := t
      cases ha _ (List.mem_cons_self ..)
      cases b with
      | nil =>
        cases d with
        | nil => exact absurd rfl hd
        | cons t' d =>
          simp only [List.nil_append, List.cons_append, List.cons.injEq] at he
          exact absurd (by rw [← he.1]) (hd' sp d)
      | cons t' b =>
        simp only [List.cons_append, List.cons.injEq] at he
        obtain ⟨rfl, he⟩ := he
        obtain ⟨rfl, h⟩ := ih (fun t ht => ha t (by simp [ht])) (fun t ht => hb t (by simp [ht])) hc hd hc' hd' he
        exact ⟨rfl, h⟩
  have hg' : ∀ sp l', lg ≠ (.newline, sp) :: l' := by
    rintro sp l' rfl
    exact hg _ (List.mem_cons_self ..) rfl
  rw [List.append_assoc (nls1 ++ l)] at h4
  obtain ⟨rfl, h6⟩ := key hn h1 hne hl hg' hl' h4
  refine hb ⟨x, l, kinds (nls2 ++ r), h2, by rw [h6]; simp [kinds], ?_⟩
  cases nls2 with
  | nil =>
    rcases h5 rfl with rfl | h
    · exact .inl rfl
    · exact .inr (.inr h)
  | cons t nls2 =>
    right; left
    have := h3 t (by simp)
    simp [kinds, this]

theorem printsBroken_ne {b as ks} (h : PrintsBroken b as ks) : as ≠ [] := by
  induction h with
  | last => simp
  | lastLine => simp
  | stmt => simp
  | broken _ _ ih => exact ih

theorem printsBroken_head {b as ks} (h : PrintsBroken b as ks) : ∃ t ks', ks = t :: ks' ∧ t ≠ .newline := by
  cases h with
  | last h => exact stmtPrint_head h
  | lastLine h =>
    obtain ⟨t, ks', rfl, ht⟩ := stmtPrint_head h
    exact ⟨t, _, rfl, ht⟩
  | stmt h =>
    obtain ⟨t, ks', rfl, ht⟩ := stmtPrint_head h
    exact ⟨t, _, rfl, ht⟩
  | @broken _ _ g _ _ h _ =>
    cases g with
    | nil => exact absurd rfl h.1
    | cons t g => exact ⟨t, _, rfl, h.2.1 t (by simp)⟩

theorem many_docItem_broken {b : Bool} {as : List Stmt} {ks : List Token} (h : PrintsBroken b as ks) :
    ∀ {l nls0 : List Tok}, kinds l = ks → Newlines nls0 →
    ∃ es ss, Many docItem eoi (nls0 ++ l) es ss [] ∧ ss.map stmtShape = as.map Stmt.shape ∧ (b = true → es ≠ []) := by
  induction h with
  | last h1 =>
    intro l nls0 hl hn0
    obtain ⟨ss, h2, h3⟩ := many_docItem_complete (eoi := eoi) (.last h1) hl hn0 (by simp)
    exact ⟨_, ss, h2, h3, by simp⟩
  | @lastLine s k n h1 =>
    intro l nls0 hl hn0
    obtain ⟨ss, h2, h3⟩ := many_docItem_complete (eoi := eoi) (.cons (n := n) h1 .nil) (by simpa using hl) hn0 (by simp)
    exact ⟨_, ss, h2, h3, by simp⟩
  | @stmt b s ss k n ks h1 h2 ih =>
    intro l nls0 hl hn0
    halve hl l1 l2 hl h4
    halve hl l1 ln hl h5
    obtain ⟨hn, hn'⟩ := kinds_newlines h5
    obtain ⟨es, xs, i1, i2, i3⟩ := ih (nls0 := []) h4 (by simp [Newlines])
    have hhead : ∀ sp r', l2 ≠ (.newline, sp) :: r' := by
      intro sp r' he
      subst he
      obtain ⟨t, ks', rfl, ht⟩ := printsBroken_head h2
      injection h4 with h4 _
      exact ht h4.symm
    obtain ⟨x, j1, j2⟩ := pPaddedStatement_complete (eoi := eoi) h1 hl hn0 hn (fun h => absurd h hn') hhead
    exact ⟨_, x :: xs, .cons (es := []) (recoverSkip_ok.mpr (.inl (by simpa using j1))) i1, by simp [j2, i2], by simpa using i3⟩
  | @broken b ss g n ks h1 h2 ih =>
    intro l nls0 hl hn0
    have hl0 := hl
    halve hl l1 l2 hl h4
    halve hl lg ln hl h5
    obtain ⟨hn, hn'⟩ := kinds_newlines h5
    obtain ⟨es, xs, i1, i2, i3⟩ := ih (nls0 := ln) h4 hn
    generalize hS : ln ++ l2 = S at i1
    generalize hE : ([] : List Tok) = E at i1
    cases i1 with
    | nil =>
      have := printsBroken_ne h2
      cases ss with
      | nil => exact absurd rfl this
      | cons => simp at i2
    | @cons _ es1 x m es2 xs _ k1 k2 =>
      subst hS hE
      have hlg : ∀ t ∈ lg, t.1 ≠ .newline := by
        intro t ht
        exact h1.2.1 _ (by rw [← hl]; exact List.mem_map_of_mem ht)
      have hlgne : lg ≠ [] := by
        rintro rfl
        exact h1.1 (by rw [← hl]; rfl)
      have hfail : ∀ g1 t g2, lg = g1 ++ t :: g2 → ¬ StartsStatement (kinds (t :: g2 ++ (ln ++ l2))) := by
        intro g1 t g2 he
        have := h1.2.2 (kinds g1) t.1 (kinds g2) (by rw [← hl, he]; simp [kinds])
        simpa [kinds, ← h5, ← h4] using this
      obtain ⟨es', e1, e2⟩ := docItem_skips k1 (u := nls0 ++ lg) (by
        intro u1 u2 hu hne
        rcases List.append_eq_append_iff.mp hu with ⟨a, rfl, rfl⟩ | ⟨a, rfl, rfl⟩
        · cases u2 with
          | nil => exact absurd rfl hne
          | cons t u2 =>
            have := padded_fails_of_not_starts (eoi := eoi) (nls := []) (lg := t :: u2) (R := ln ++ l2) (by simp [Newlines])
              (by simp) (fun t' ht' => hlg t' (by simp at ht' ⊢; exact .inr ht')) (hfail a t u2 rfl)
            simpa using this
        · cases lg with
          | nil => exact absurd rfl hlgne
          | cons t lg =>
            exact padded_fails_of_not_starts (eoi := eoi) (nls := a) (R := ln ++ l2) (fun t ht => hn0 t (by simp [ht]))
              (by simp) hlg (hfail [] t lg rfl)) (by simp [hlgne])
      refine ⟨es' ++ es2, x :: xs, ?_, i2, ?_⟩
      · have := Many.cons e2 k2
        simpa [List.append_assoc] using this
      · simp [e1]

end
end HyperIR
