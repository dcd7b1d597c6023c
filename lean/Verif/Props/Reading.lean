import Verif.Proofs.Reading
import Verif.Props.Stretches
import Verif.Proofs.Diagnostics
import Verif.Props.Unread

/-
Property C98: what `parse_from_str` (src/hir_parser.rs:435) makes of any text.  The specification is
`Spec/Reading.lean`.
-/

namespace HyperIR
open Spec

section
variable [Unicode]

theorem others_toSErr (es : List (LErr Token)) :
    syntaxErrors (es.map (LErr.toSErr Token.display)) = (others es).map (LErr.toSErr Token.display) := by
  unfold syntaxErrors others
  rw [List.filter_map]
  rfl

theorem toSErr_strip {es : List (LErr Token)} :
    es.map (LErr.toSErr Token.display) = (es.map fun e => { e with rem := 0 }).map (LErr.toSErr Token.display) := by
  rw [List.map_map]
  rfl

theorem toSErr_odd {odd : List Span} : (odd.map oddErr).map (LErr.toSErr Token.display) = odd.map oddError := by
  rw [List.map_map]
  rfl

theorem located_of_atTok {n : Nat} {g : List Tok} {e : LErr Token} (h : AtTok { start := n, stop := n + 1 } g e) :
    LocatedIn n g (LErr.toSErr Token.display e) := by
  obtain ⟨_, l, s', rfl, _, h, hb⟩ := h
  cases s' with
  | nil =>
    rcases hb with ⟨h1, h2⟩ | ⟨h1, _⟩
    · exact .inl ⟨h, h1, by simp [LErr.toSErr, h2]⟩
    · exact absurd rfl h1
  | cons t s' =>
    refine .inr ⟨t, by simp, h, ?_⟩
    rcases hb with ⟨h1, h2⟩ | ⟨_, m, hm, h1⟩
    · exact .inl ⟨h1, by simp [LErr.toSErr, h2]⟩
    · exact .inr ⟨m, hm, h1⟩

theorem each_map_left {α β γ : Type} {R : α → β → Prop} {S : γ → β → Prop} {f : α → γ} {as bs}
    (h : Each R as bs) (hf : ∀ a b, R a b → S (f a) b) : Each S (as.map f) bs := by
  induction h with
  | nil => exact .nil
  | cons h1 _ ih => exact .cons (hf _ _ h1) ih

theorem each_append_both {α β : Type} {R : α → β → Prop} {as bs as' bs'} (h : Each R as bs) (h' : Each R as' bs') :
    Each R (as ++ as') (bs ++ bs') := by
  induction h with
  | nil => exact h'
  | cons h1 _ ih => exact .cons h1 ih

theorem tokenize_some_ne {text : Str} {toks errs} (h : tokenize text = .ok (some toks, errs)) : toks ≠ [] ∨ text = [] := by
  cases toks with
  | cons t toks => exact .inl (by simp)
  | nil =>
    right
    have h := tokenize_some_iff.mp h
    generalize hs : charStream 0 text = s at h
    generalize hr : ([] : List (Char × Span)) = r at h
    generalize hx : ([] : List Tok) = x at h
    cases h with
    | nil => subst hr; cases text with
      | nil => rfl
      | cons c t => cases hs
    | cons => cases hx

theorem skip_err {o : Nat} {text : Str} {ts ps} (h : LexesSkip o text ts ps) : LexesErr o text ts ps.length := by
  induction h with
  | done h => exact .done h
  | tok h1 h2 _ ih => exact .tok h1 h2 ih
  | skip h1 h2 h3 h4 h5 _ ih => exact .skip h1 h2 h3 h4 h5 ih

theorem err_skip {o : Nat} {text : Str} {ts n} (h : LexesErr o text ts n) : ∃ ps, LexesSkip o text ts ps ∧ ps.length = n := by
  induction h with
  | done h => exact ⟨[], .done h, rfl⟩
  | tok h1 h2 _ ih =>
    obtain ⟨ps, i1, i2⟩ := ih
    exact ⟨ps, .tok h1 h2 i1, i2⟩
  | skip h1 h2 h3 h4 h5 _ ih =>
    obtain ⟨ps, i1, i2⟩ := ih
    exact ⟨_, .skip h1 h2 h3 h4 h5 i1, by simp [i2]⟩

theorem each_map_right {α β γ : Type} {R : α → β → Prop} {S : α → γ → Prop} {f : β → γ} {as bs}
    (h : Each R as bs) (hf : ∀ a b, R a b → S a (f b)) : Each S as (bs.map f) := by
  induction h with
  | nil => exact .nil
  | cons h1 _ ih => exact .cons (hf _ _ h1) ih

theorem each_empty_iff {α β : Type} {R : α → β → Prop} {as bs} (h : Each R as bs) : as = [] ↔ bs = [] := by
  cases h <;> simp

/-- The errors about unrecognizable text are located within the text. -/
theorem lexErrorAt_inside {text : Str} {p : Nat} {e : SErr} (h : LexErrorAt text p e) : e.span.stop ≤ text.length := by
  obtain ⟨c, h0, _, h1, h2, h3⟩ := h
  have hp := (List.getElem?_eq_some_iff.mp h0).1
  by_cases hq : c = '"'
  · rw [(h2 hq).1]; simp
  · by_cases hr : c = '\r'
    · cases hd : text[p + 1]? with
      | none => rw [((h3 hr).2 hd).1]; simp
      | some d =>
        have := (List.getElem?_eq_some_iff.mp hd).1
        rw [((h3 hr).1 d hd).1]
        simp only
        omega
    · rw [(h1 hq hr).1]
      simp only
      omega

theorem lexesLost_ne {o : Nat} {text : Str} {ps} (h : LexesLost o text ps) : ps ≠ [] := by
  induction h with
  | lost => simp
  | tok _ _ _ ih => exact ih
  | skip => simp

/-! ### C98 -/

/-- C98: what the tokens of a text are read as is reported. -/
theorem C98_reported {text : Str} {toks : List Tok} {ps ss odd gs w} (hl : LexesSkip 0 text toks ps)
    (hne : toks ≠ [] ∨ text = []) (hs : Layout ss odd gs w (toks.filter fun t => decide (t.1 ≠ Token.comment))) :
    ∃ res lexical others, parseFromStr text = .ok res ∧ res.tokens = toks ∧ res.stmts = (if w then ss else []) ∧
      res.errors = lexical ++ others ∧ Each (LexErrorAt text) ps lexical ∧ (odd.map oddError).Sublist others ∧
      (gs = [] → others = odd.map oddError) ∧
      Each (fun err g => LocatedIn (utf8Len text) g err) (syntaxErrors others) gs := by
  obtain ⟨errs, ht, he⟩ := tokenize_lexesSkip hl hne
  have hlx : Each (LexErrorAt text) ps (errs.map (LErr.toSErr fun c => [c])) := each_map_right he fun _ _ => tellsOf_errorAt
  obtain ⟨es, r, gs', h1, h2, h3, h4, h5, h6⟩ := many_docItem_layout
    (eoi := { start := utf8Len text, stop := utf8Len text + 1 }) hs
  have h5' : (odd.map oddError).Sublist (es.map (LErr.toSErr Token.display)) := by
    rw [toSErr_strip, ← toSErr_odd]
    exact h5.map _
  cases w with
  | true =>
    obtain ⟨rfl, rfl⟩ := h2 rfl
    refine ⟨_, errs.map (LErr.toSErr fun c => [c]), es.map (LErr.toSErr Token.display),
      by simp only [parseFromStr, ht, parseTokens_of_many h1]; rfl, rfl, rfl, rfl, hlx, h5', ?_, ?_⟩
    · intro hg
      rw [toSErr_strip, h6 hg, toSErr_odd]
    · rw [others_toSErr]
      exact each_map_left h4 fun _ _ => located_of_atTok
  | false =>
    obtain ⟨hr, rfl⟩ := h3 rfl
    obtain ⟨e, h7, h8⟩ := parseTokens_lost h1 hr
    refine ⟨_, errs.map (LErr.toSErr fun c => [c]), (es ++ [e]).map (LErr.toSErr Token.display),
      by simp only [parseFromStr, ht, h7]; rfl, rfl, rfl, rfl, hlx, ?_, by simp, ?_⟩
    · rw [List.map_append]
      exact h5'.trans (List.sublist_append_left _ _)
    · rw [others_toSErr, others_append, others_single h8.1]
      exact each_map_left (each_append_both h4 (.cons h8 .nil)) fun _ _ => located_of_atTok

/-- C98: every text is read as described. -/
theorem C98_reading (text : Str) : ∃ res, parseFromStr text = .ok res ∧ ReadsAs text res := by
  rcases tokenize_described text with ⟨toks, ps, hl, hne⟩ | ⟨hb, hne⟩ | ⟨ps, hl⟩
  · obtain ⟨ss, odd, gs, w, hs⟩ := layout_total _ (toks.filter fun t => decide (t.1 ≠ Token.comment)) (Nat.le_refl _)
    obtain ⟨res, lx, os, hp, rfl, h1⟩ := C98_reported hl hne hs
    exact ⟨res, hp, .inl ⟨ps, ss, odd, gs, w, lx, os, hl, hne, hs, h1⟩⟩
  · obtain ⟨e, ht, h1, h2, h3⟩ := tokenize_blank hb hne
    exact ⟨_, by simp only [parseFromStr, ht]; rfl, .inr ⟨rfl, rfl, .inr ⟨hb, hne, _, rfl, h1, h2, by simp [LErr.toSErr, h3]⟩⟩⟩
  · obtain ⟨errs, ht, he⟩ := tokenize_lexesLost hl
    exact ⟨_, by simp only [parseFromStr, ht]; rfl, .inr ⟨rfl, rfl, .inl ⟨ps, hl, each_map_right he fun _ _ => tellsOf_errorAt⟩⟩⟩

/-- The cases of the description exclude each other. -/
theorem skip_not_lost {text : Str} {toks : List Tok} {ps} (h : LexesSkip 0 text toks ps) (hne : toks ≠ [] ∨ text = []) :
    ¬ ((∃ ps, LexesLost 0 text ps) ∨ Blank text ∧ text ≠ []) := by
  obtain ⟨es, ht, _⟩ := tokenize_lexesSkip h hne
  rintro (⟨ps, h'⟩ | ⟨hb, hn⟩)
  · obtain ⟨es', ht', _⟩ := tokenize_lexesLost h'
    rw [ht] at ht'
    cases ht'
  · obtain ⟨e, ht', _⟩ := tokenize_blank hb hn
    rw [ht] at ht'
    cases ht'

theorem lexesErr_unique {text : Str} {toks toks' : List Tok} {e e' : Nat} (h : LexesErr 0 text toks e)
    (h' : LexesErr 0 text toks' e') (hne : toks ≠ [] ∨ text = []) (hne' : toks' ≠ [] ∨ text = []) : toks = toks' ∧ e = e' := by
  obtain ⟨errs, rfl, h1⟩ := tokenize_complete h hne
  obtain ⟨errs', rfl, h2⟩ := tokenize_complete h' hne'
  rw [h1] at h2
  cases h2
  exact ⟨rfl, rfl⟩

omit [Unicode] in
/-- Blanks in front of something else. -/
theorem blank_both {b b' x x' : Str} (hb : Blank b) (hb' : Blank b') (hx : NoBlank x) (hx' : NoBlank x') (h : b ++ x = b' ++ x') : b = b' ∧ x = x' := by
  obtain ⟨a, rfl, rfl⟩ := blank_split hb hb' hx h
  cases a with
  | nil => simp
  | cons c cs =>
    have h1 := hx' c (cs ++ x) rfl
    rcases hb c (by simp) with h2 | h2
    · exact absurd h2 h1.1
    · exact absurd h2 h1.2

/-- What comes first in a text: blanks, unrecognizable text and a token. -/
theorem front_unique {b b' g g' w w' r r' : Str} {t t' : Token} (hb : Blank b) (hb' : Blank b') (hg : NoBlank g) (hg' : NoBlank g')
    (h1 : Garbage g (w ++ r)) (h2 : Garbage g' (w' ++ r')) (h3 : Longest t w r) (h4 : Longest t' w' r')
    (he : b ++ g ++ w ++ r = b' ++ g' ++ w' ++ r') : b = b' ∧ g = g' ∧ t = t' ∧ w = w' ∧ r = r' := by
  have front : ∀ {g w r : Str} {t : Token}, NoBlank g → Longest t w r → NoBlank (g ++ (w ++ r)) := by
    intro g w r t hg hl
    cases g with
    | nil => simpa using spells_noBlank (rest := r) hl.1
    | cons c cs =>
      intro d ds e
      cases e
      exact hg c cs rfl
  simp only [List.append_assoc] at he
  obtain ⟨rfl, hx⟩ := blank_both hb hb' (front hg h3) (front hg' h4) he
  obtain rfl := garbage_unique h1 h2 h3 h4 hx
  obtain ⟨rfl, rfl, rfl⟩ := longest_unique h3 h4 (List.append_cancel_left hx)
  exact ⟨rfl, rfl, rfl, rfl, rfl⟩

omit [Unicode] in
theorem noBlank_nil : NoBlank [] := fun _ _ h => by cases h

/-- Blanks contain no token. -/
theorem front_not_blank {b g w r : Str} {t : Token} (h : Longest t w r) : ¬ Blank (b ++ g ++ w ++ r) := by
  intro hb
  exact spells_not_blank h.1 fun c hc => hb c (by simp [hc])

/-- C98: which tokens a text has and where unrecognizable text starts in it is determined. -/
theorem C98_places {o : Nat} {text : Str} {ts ts' : List (Spanned Token)} {ps ps' : List Nat} (h : LexesSkip o text ts ps) (h' : LexesSkip o text ts' ps') :
    ts = ts' ∧ ps = ps' := by
  suffices ∀ text', text = text' → LexesSkip o text' ts' ps' → ts = ts' ∧ ps = ps' from this _ rfl h'
  clear h'
  induction h generalizing ts' ps' with
  | done hb =>
    intro x hx h'
    cases h' with
    | done => exact ⟨rfl, rfl⟩
    | tok _ hl _ => subst hx; exact absurd (by simpa using hb) (front_not_blank (g := []) hl)
    | skip _ _ _ _ hl _ => subst hx; exact absurd hb (front_not_blank hl)
  | tok hb hl _ ih =>
    intro x hx h'
    cases h' with
    | done hb' => subst hx; exact absurd (by simpa using hb') (front_not_blank (g := []) hl)
    | tok hb' hl' h2 =>
      obtain ⟨rfl, _, rfl, rfl, rfl⟩ := front_unique hb hb' noBlank_nil noBlank_nil (garbage_nil _) (garbage_nil _) hl hl' (by simpa using hx)
      obtain ⟨rfl, rfl⟩ := ih _ rfl h2
      exact ⟨rfl, rfl⟩
    | skip hb' hne hg' hga' hl' h2 =>
      obtain ⟨_, e, _⟩ := front_unique hb hb' noBlank_nil hg' (garbage_nil _) hga' hl hl' (by simpa using hx)
      exact absurd e.symm hne
  | skip hb hne hg hga hl _ ih =>
    intro x hx h'
    cases h' with
    | done hb' => subst hx; exact absurd hb' (front_not_blank hl)
    | tok hb' hl' h2 =>
      obtain ⟨_, e, _⟩ := front_unique hb hb' hg noBlank_nil hga (garbage_nil _) hl hl' (by simpa using hx)
      exact absurd e hne
    | skip hb' hne' hg' hga' hl' h2 =>
      obtain ⟨rfl, rfl, rfl, rfl, rfl⟩ := front_unique hb hb' hg hg' hga hga' hl hl' hx
      obtain ⟨rfl, rfl⟩ := ih _ rfl h2
      exact ⟨rfl, rfl⟩

/-- Unrecognizable text up to the end contains no token. -/
theorem lost_no_front {b b' g g' w r : Str} {t : Token} (hb : Blank b) (hb' : Blank b') (hne : g ≠ []) (hg : NoBlank g) (hg' : NoBlank g') (hga : Garbage g [])
    (hl : Longest t w r) (he : b ++ g = b' ++ g' ++ w ++ r) : False := by
  have hw := spells_ne_nil hl.1
  have hfront : NoBlank (g' ++ (w ++ r)) := by
    cases g' with
    | nil => simpa using spells_noBlank (rest := r) hl.1
    | cons c cs =>
      intro d ds e
      cases e
      exact hg' c cs rfl
  simp only [List.append_assoc] at he
  obtain ⟨rfl, rfl⟩ := blank_both hb hb' hg hfront he
  have := hga g' (w ++ r) rfl (by simp [hw])
  rw [List.append_nil] at this
  exact longest_not_noToken hl this

/-- C98: where unrecognizable text starts in a text that ends in such text is determined. -/
theorem C98_places_lost {o : Nat} {text : Str} {ps ps' : List Nat} (h : LexesLost o text ps) (h' : LexesLost o text ps') : ps = ps' := by
  suffices ∀ text', text = text' → LexesLost o text' ps' → ps = ps' from this _ rfl h'
  clear h'
  induction h generalizing ps' with
  | lost hb hne hg hga =>
    intro x hx h'
    cases h' with
    | lost hb' hne' hg' hga' =>
      obtain ⟨rfl, rfl⟩ := blank_both hb hb' hg hg' hx
      rfl
    | tok hb' hl' _ => exact (lost_no_front hb hb' hne hg noBlank_nil hga hl' (by simpa using hx)).elim
    | skip hb' _ hg' _ hl' _ => exact (lost_no_front hb hb' hne hg hg' hga hl' hx).elim
  | tok hb hl _ ih =>
    intro x hx h'
    cases h' with
    | lost hb' hne' hg' hga' => exact (lost_no_front hb' hb hne' hg' noBlank_nil hga' hl (by simpa using hx.symm)).elim
    | tok hb' hl' h2 =>
      obtain ⟨rfl, _, rfl, rfl, rfl⟩ := front_unique hb hb' noBlank_nil noBlank_nil (garbage_nil _) (garbage_nil _) hl hl' (by simpa using hx)
      exact ih _ rfl h2
    | skip hb' hne hg' hga' hl' h2 =>
      obtain ⟨_, e, _⟩ := front_unique hb hb' noBlank_nil hg' (garbage_nil _) hga' hl hl' (by simpa using hx)
      exact absurd e.symm hne
  | skip hb hne hg hga hl _ ih =>
    intro x hx h'
    cases h' with
    | lost hb' hne' hg' hga' => exact (lost_no_front hb' hb hne' hg' hg hga' hl hx.symm).elim
    | tok hb' hl' h2 =>
      obtain ⟨_, e, _⟩ := front_unique hb hb' hg noBlank_nil hga (garbage_nil _) hl hl' (by simpa using hx)
      exact absurd e hne
    | skip hb' hne' hg' hga' hl' h2 =>
      obtain ⟨rfl, rfl, rfl, rfl, rfl⟩ := front_unique hb hb' hg hg' hga hga' hl hl' hx
      obtain rfl := ih _ rfl h2
      rfl

/-- C98: every sequence of tokens is, in exactly one way, a sequence of statements and unreadable stretches. -/
theorem C98_one_way (l : List Tok) : ∃ ss odd gs w, Layout ss odd gs w l ∧
    ∀ ss' odd' gs' w', Layout ss' odd' gs' w' l → ss' = ss ∧ odd' = odd ∧ gs' = gs ∧ w' = w := by
  obtain ⟨ss, odd, gs, w, h⟩ := layout_total _ l (Nat.le_refl _)
  exact ⟨ss, odd, gs, w, h, fun _ _ _ _ h' => layout_unique h' rfl h⟩

/-- C98: the description leaves no choice about the tokens and the statements, nor about whether there are
errors. -/
theorem C98_determined {text : Str} {res res' : ParserResult} (h : ReadsAs text res) (h' : ReadsAs text res') :
    res.tokens = res'.tokens ∧ res.stmts = res'.stmts ∧ (res.errors = [] ↔ res'.errors = []) := by
  have out : ∀ {res : ParserResult}, ((∃ ps, LexesLost 0 text ps ∧ Each (LexErrorAt text) ps res.errors) ∨
      (Blank text ∧ text ≠ [] ∧ ∃ e, res.errors = [e] ∧ e.span = { start := text.length, stop := text.length } ∧
        e.reason = .unexpected ∧ e.found = none)) → ((∃ ps, LexesLost 0 text ps) ∨ Blank text ∧ text ≠ []) ∧ res.errors ≠ [] := by
    rintro res (⟨ps, h1, h2⟩ | ⟨h1, h2, e, h3, _⟩)
    · exact ⟨.inl ⟨ps, h1⟩, fun he => lexesLost_ne h1 ((each_empty_iff h2).mpr he)⟩
    · exact ⟨.inr ⟨h1, h2⟩, by simp [h3]⟩
  rcases h with ⟨ps, ss, odd, gs, w, lx, os, h1, h2, h3, h4, h5, h6, h7, h8, h9⟩ | ⟨h2, h3, h4⟩
  · rcases h' with ⟨ps', ss', odd', gs', w', lx', os', h1', h2', h3', h4', h5', h6', h7', h8', h9'⟩ | ⟨h2', h3', h4'⟩
    · obtain ⟨ht, hps⟩ := lexesErr_unique (skip_err h1) (skip_err h1') h2 h2'
      obtain ⟨rfl, rfl, rfl, rfl⟩ := layout_unique h3 (by rw [ht]) h3'
      refine ⟨ht, h4.trans h4'.symm, ?_⟩
      have hlx : lx = [] ↔ lx' = [] := by
        rw [← each_empty_iff h6, ← each_empty_iff h6', ← List.length_eq_zero_iff, ← List.length_eq_zero_iff, hps]
      rw [h5, h5', List.append_eq_nil_iff, List.append_eq_nil_iff, hlx]
      have key : ∀ {os : List SErr}, (gs = [] → os = odd.map oddError) →
          Each (fun err g => LocatedIn (utf8Len text) g err) (syntaxErrors os) gs → (os = [] ↔ gs = [] ∧ odd = []) := by
        intro os a b
        constructor
        · rintro rfl
          have hg : gs = [] := by
            cases b
            rfl
          exact ⟨hg, by simpa using (a hg).symm⟩
        · rintro ⟨rfl, rfl⟩
          exact a rfl
      rw [key h8 h9, key h8' h9']
    · exact absurd (out h4').1 (skip_not_lost h1 h2)
  · rcases h' with ⟨ps', ss', odd', gs', w', lx', os', h1', h2', h3', h4', h5', h6', h7', h8', h9'⟩ | ⟨h2', h3', h4'⟩
    · exact absurd (out h4).1 (skip_not_lost h1' h2')
    · exact ⟨h2.trans h2'.symm, h3.trans h3'.symm, by simp [(out h4).2, (out h4').2]⟩

/-- What an error tells apart from the list of what was expected. -/
def told (e : SErr) : Span × Reason × Option Str := (e.span, e.reason, e.found)

theorem lexErrorAt_told {text : Str} {p : Nat} {e e' : SErr} (h : LexErrorAt text p e) (h' : LexErrorAt text p e') : told e = told e' := by
  obtain ⟨c, hc, hr, h1, h2, h3⟩ := h
  obtain ⟨c', hc', hr', h1', h2', h3'⟩ := h'
  obtain rfl : c = c' := by simpa [hc] using hc'
  simp only [told, hr, hr']
  by_cases a : c = '"'
  · simp [h2 a, h2' a]
  by_cases b : c = '\r'
  · cases d : text[p + 1]? with
    | none => simp [(h3 b).2 d, (h3' b).2 d]
    | some x => simp [(h3 b).1 x d, (h3' b).1 x d]
  · simp [h1 a b, h1' a b]

theorem each_told {text : Str} {ps : List Nat} {es es' : List SErr} (h : Each (LexErrorAt text) ps es)
    (h' : Each (LexErrorAt text) ps es') : es.map told = es'.map told := by
  induction h generalizing es' with
  | nil => cases h'; rfl
  | cons a _ ih =>
    cases h' with
    | cons a' b' => simp [lexErrorAt_told a a', ih b']

theorem each_len_told {α β : Type} {R : α → β → Prop} {as : List α} {bs : List β} (h : Each R as bs) : as.length = bs.length := by
  induction h with
  | nil => rfl
  | cons _ _ ih => simp [ih]

/-- C98: nor does the description leave a choice about the errors for unrecognizable text (which come first), the
number of syntax errors among the others, and the errors of a text that is read without unreadable stretches. -/
theorem C98_told {text : Str} {res res' : ParserResult} (h : ReadsAs text res) (h' : ReadsAs text res') :
    ∃ lexical lexical' others others', res.errors = lexical ++ others ∧ res'.errors = lexical' ++ others' ∧
      lexical.map told = lexical'.map told ∧ (syntaxErrors others).length = (syntaxErrors others').length ∧
      (syntaxErrors others = [] → others = others') := by
  have out : ∀ {res : ParserResult}, ((∃ ps, LexesLost 0 text ps ∧ Each (LexErrorAt text) ps res.errors) ∨
      (Blank text ∧ text ≠ [] ∧ ∃ e, res.errors = [e] ∧ e.span = { start := text.length, stop := text.length } ∧
        e.reason = .unexpected ∧ e.found = none)) → ((∃ ps, LexesLost 0 text ps) ∨ Blank text ∧ text ≠ []) := by
    rintro res (⟨ps, h1, h2⟩ | ⟨h1, h2, e, h3, _⟩)
    · exact .inl ⟨ps, h1⟩
    · exact .inr ⟨h1, h2⟩
  have lostBlank : ∀ {ps}, LexesLost 0 text ps → Blank text → False := by
    intro ps hl hb
    suffices ∀ o x, x = text → LexesLost o x ps → False from this _ _ rfl hl
    intro o x hx hl
    cases hl with
    | @lost _ b g hb' hne hg _ =>
      subst hx
      cases g with
      | nil => exact hne rfl
      | cons c cs =>
        have := hb c (by simp)
        have := hg c cs rfl
        grind
    | @tok _ b _ w rest _ hb' hl' _ =>
      subst hx
      exact front_not_blank (b := b) (g := []) hl' (by simpa using hb)
    | skip hb' _ hg' _ hl' _ => exact front_not_blank hl' (hx ▸ hb)
  rcases h with ⟨ps, ss, odd, gs, w, lx, os, h1, h2, h3, h4, h5, h6, h7, h8, h9⟩ | ⟨h2, h3, h4⟩
  · rcases h' with ⟨ps', ss', odd', gs', w', lx', os', h1', h2', h3', h4', h5', h6', h7', h8', h9'⟩ | ⟨h2', h3', h4'⟩
    · obtain ⟨ht, rfl⟩ := C98_places h1 h1'
      obtain ⟨rfl, rfl, rfl, rfl⟩ := layout_unique h3 (by rw [ht]) h3'
      refine ⟨lx, lx', os, os', h5, h5', each_told h6 h6', (each_len_told h9).trans (each_len_told h9').symm, fun he => ?_⟩
      rw [he] at h9
      have hg : gs = [] := by
        cases h9
        rfl
      rw [h8 hg, h8' hg]
    · exact absurd (out h4') (skip_not_lost h1 h2)
  · rcases h' with ⟨ps', ss', odd', gs', w', lx', os', h1', h2', h3', h4', h5', h6', h7', h8', h9'⟩ | ⟨h2', h3', h4'⟩
    · exact absurd (out h4) (skip_not_lost h1' h2')
    · refine ⟨res.errors, res'.errors, [], [], by simp, by simp, ?_, rfl, fun _ => rfl⟩
      rcases h4 with ⟨ps, a, b⟩ | ⟨a, _, e, b, b1, b2, b3⟩ <;> rcases h4' with ⟨ps', a', b'⟩ | ⟨a', _, e', b', b1', b2', b3'⟩
      · obtain rfl := C98_places_lost a a'
        exact each_told b b'
      · exact (lostBlank a a').elim
      · exact (lostBlank a' a).elim
      · simp [b, b', told, b1, b2, b3, b1', b2', b3']

/-- C98: a text is read without any error exactly if it consists of tokens that are, without stretches and odd
mnemonics, statements; those are the ones reported. -/
theorem C98_accepted (text : Str) (ss : List Statement) :
    (∃ res, parseFromStr text = .ok res ∧ res.errors = [] ∧ res.stmts = ss) ↔
      ∃ toks, LexesErr 0 text toks 0 ∧ (toks ≠ [] ∨ text = []) ∧
        Layout ss [] [] true (toks.filter fun t => decide (t.1 ≠ Token.comment)) := by
  constructor
  · rintro ⟨res, hp, he, rfl⟩
    obtain ⟨res', hp', h⟩ := C98_reading text
    rw [hp] at hp'
    cases hp'
    rcases h with ⟨e', ss', odd', gs', w', lx', os', h1', h2', h3', h4', h5', h6', h7', h8', h9'⟩ | ⟨h1', h2', h3'⟩
    · rw [he] at h5'
      obtain ⟨rfl, rfl⟩ := List.append_eq_nil_iff.mp h5'.symm
      cases h6'
      have h1' := skip_err h1'
      have hg : gs' = [] := by cases h9'; rfl
      subst hg
      have ho : odd' = [] := by simpa using (h8' rfl).symm
      subst ho
      have hw : w' = true := by
        cases w' with
        | true => rfl
        | false =>
          exfalso
          obtain ⟨_, _, _, _, _, h, _⟩ := many_docItem_layout (eoi := ⟨0, 0⟩) h3'
          simpa using (h rfl).2
      subst hw
      exact ⟨_, h1', h2', by rw [h4']; exact h3'⟩
    · rcases h3' with ⟨ps, h1, h2⟩ | ⟨_, _, e, h1, _⟩
      · exact absurd ((each_empty_iff h2).mpr he) (lexesLost_ne h1)
      · simp [h1] at he
  · rintro ⟨toks, hl, hne, hs⟩
    obtain ⟨ps, hl, hps⟩ := err_skip hl
    obtain rfl := List.length_eq_zero_iff.mp hps
    obtain ⟨res, lx, os, hp, _, h1, h2, h3, _, h4, _⟩ := C98_reported hl hne hs
    refine ⟨res, hp, ?_, h1⟩
    rw [h2, h4 rfl, (each_empty_iff h3).mp rfl]
    rfl

end

/-! ### Concrete cases -/

namespace Instances

local instance : Unicode := asciiUnicode

/-- A line with two targets whose mnemonic is none of a branch, and one that goes on behind a comma. -/
def strayText : Str :=
  c!"define void @f() {\n foo !x, cont=a, overflow=b\na:\n baz %x, %y,\n qux !x %y,\n ret %z, cont=a, overflow=b\nb:\n ret\n}\n"

/-- For a text without lexical errors: the number of statements, the mnemonics with the numbers of targets of
their instructions, and the errors with their places. -/
def strayed (text : Str) : Option (Nat × List (Str × Nat) × List (Nat × Nat × Bool)) :=
  match tokenize text, parseFromStr text with
  | .ok (some (_ :: _), []), .ok res => some (res.stmts.length, res.stmts.flatMap (fun s => match s with
      | .funcDef _ _ b => b.basicBlocks.flatMap fun x => x.instructions.map fun i => (i.instruction.1, i.basicBlockRefs.length)
      | _ => []), res.errors.map fun e => (e.span.start, e.span.stop, decide (e.reason = .custom oddMessage)))
  | _, _ => none

set_option synthInstance.maxSize 1000 in
/-- Both odd mnemonics are reported, and nothing else; `ret %z` belongs to the line before it. -/
theorem strayText_strayed : strayed strayText =
    some (1, [(c!"foo", 2), (c!"baz", 0), (c!"qux", 2), (c!"ret", 0)], [(20, 23, true), (64, 67, true)]) := by
  decide +kernel

theorem strayed_layout {text : Str} {n : Nat} {x : List (Str × Nat)} {es : List (Nat × Nat × Bool)}
    (h : strayed text = some (n, x, es)) (he : ∀ e ∈ es, e.2.2 = true) :
    ∃ toks ss odd, LexesErr 0 text toks 0 ∧ toks ≠ [] ∧
      Layout ss odd [] true (toks.filter fun t => decide (t.1 ≠ Token.comment)) ∧ ss.length = n ∧
      odd.map (fun sp => (sp.start, sp.stop, true)) = es := by
  unfold strayed at h
  split at h
  · rename_i t toks res h1 h2
    simp only [Option.some.injEq, Prod.mk.injEq] at h
    obtain ⟨rfl, rfl, rfl⟩ := h
    have hl := tokenize_sound h1
    obtain ⟨res', h3, h⟩ := C98_reading text
    rw [h2] at h3
    cases h3
    rcases h with ⟨e', ss', odd', gs', w', lx', os', h1', h2', h3', h4', h5', h6', h7', h8', h9'⟩ | ⟨h1', h2', h3'⟩
    · obtain ⟨ht, hps⟩ := lexesErr_unique hl (skip_err h1') (.inl (by simp)) h2'
      obtain rfl := (each_empty_iff h6').mp (List.length_eq_zero_iff.mp hps.symm)
      rw [List.nil_append] at h5'
      have hs : syntaxErrors os' = [] := by
        unfold syntaxErrors
        rw [List.filter_eq_nil_iff]
        intro e hm
        have := he _ (List.mem_map.mpr ⟨e, h5' ▸ hm, rfl⟩)
        simpa using this
      rw [hs] at h9'
      have hg : gs' = [] := by cases h9'; rfl
      subst hg
      have hw : w' = true := by
        cases w' with
        | true => rfl
        | false =>
          exfalso
          obtain ⟨_, _, _, _, _, h, _⟩ := many_docItem_layout (eoi := ⟨0, 0⟩) h3'
          simpa using (h rfl).2
      subst hw
      refine ⟨_, ss', odd', hl, by simp, ht ▸ h3', by simp [h4'], ?_⟩
      rw [h5', h8' rfl, List.map_map]
      simp [oddError, Function.comp_def]
    · obtain ⟨ps, hl', _⟩ := err_skip hl
      refine absurd ?_ (skip_not_lost hl' (.inl (by simp)))
      rcases h3' with ⟨ps, h, _⟩ | ⟨h, h', _⟩
      · exact .inl ⟨ps, h⟩
      · exact .inr ⟨h, h'⟩
  · cases h

/-- The tokens of `strayText` are one statement with two odd mnemonics. -/
example : ∃ toks ss odd, LexesErr 0 strayText toks 0 ∧ toks ≠ [] ∧
    Layout ss odd [] true (toks.filter fun t => decide (t.1 ≠ Token.comment)) ∧ ss.length = 1 ∧ odd.length = 2 := by
  obtain ⟨toks, ss, odd, h1, h2, h3, h4, h5⟩ := strayed_layout strayText_strayed (by decide)
  exact ⟨toks, ss, odd, h1, h2, h3, h4, by simpa using congrArg List.length h5⟩

set_option synthInstance.maxSize 1000 in
/-- Garbage before and between statements: the errors are at the tokens where the statements before them end
or behind them. -/
example : strayed (c!"oops\n@a = 1\n%x , %y\n!x = 2\n") = some (2, [], [(0, 4, false), (12, 14, false)]) := by
  decide +kernel

/-- The statements of `stretchText` and its garbage. -/
example : ∃ toks ss odd gs, LexesErr 0 stretchText toks 1 ∧ toks ≠ [] ∧
    Layout ss odd gs true (toks.filter fun t => decide (t.1 ≠ Token.comment)) ∧ ss.length = 3 ∧ 0 < gs.length := by
  obtain ⟨toks, ss', k, w, h1, h2, _⟩ := outline_split stretchText_outline
  have hlen : ∃ res, parseFromStr stretchText = .ok res ∧ res.stmts.length = 3 ∧ 1 < res.errors.length ∧
      ∀ e ∈ res.errors, e.reason ≠ .custom oddMessage := by
    have h : (match parseFromStr stretchText with
      | .ok res => decide (res.stmts.length = 3 ∧ 1 < res.errors.length ∧ ∀ e ∈ res.errors, e.reason ≠ .custom oddMessage)
      | .panic => false) = true := by decide +kernel
    split at h
    · rename_i res hp; exact ⟨res, hp, of_decide_eq_true h⟩
    · cases h
  obtain ⟨res, hp, hr, he, ho⟩ := hlen
  obtain ⟨ss, odd, gs, w, hs⟩ := layout_total _ (toks.filter fun t => decide (t.1 ≠ Token.comment)) (Nat.le_refl _)
  obtain ⟨ps, h1', hps⟩ := err_skip h1
  obtain ⟨res', lx, os, hp', _, h4, h5, h6, h7, h8, _⟩ := C98_reported h1' (.inl h2) hs
  have h6 : lx.length = 1 := by
    obtain ⟨p, rfl⟩ := List.length_eq_one_iff.mp hps
    cases h6 with
    | cons _ h => cases h; rfl
  rw [hp] at hp'
  cases hp'
  cases w with
  | false => rw [h4] at hr; simp at hr
  | true =>
    refine ⟨toks, ss, odd, gs, h1, h2, hs, by rw [h4] at hr; simpa using hr, ?_⟩
    cases gs with
    | cons => simp
    | nil =>
      exfalso
      rw [h5, h8 rfl] at he ho
      cases odd with
      | nil => simp [h6] at he
      | cons sp odd => exact ho (oddError sp) (by simp) rfl

end Instances

end HyperIR
