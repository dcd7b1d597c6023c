import Verif.Proofs.LexFollow

/- What the tokenizer reports about text that is no token. -/

namespace HyperIR
open Spec

section
set_option linter.unusedSectionVars false
variable [Unicode]

/-- A character that cannot be the first one of a token. -/
def Alien (c : Char) : Prop :=
  c ≠ '#' ∧ isDigit10 c = false ∧ c ≠ '"' ∧ c ∉ punctChars ∧ isIdentHead c = false ∧ c ≠ '@' ∧ c ≠ '%' ∧ c ≠ '!' ∧ c ≠ '\n' ∧ c ≠ '\r'

/-- What can be the first character of a token. -/
def startChars : List (Option Char) :=
  ['\n', '\r', '!', '%', '@', '[', ']', '{', '}', '(', ')', '<', '>', '=', ',', ';', ':', '*', '.', '"', '0', '#'].map some

omit [Unicode] in
theorem maxErr_same (eoi : Span) (s : Toks Char) (a b : List (Option Char)) :
    maxErr (unexpectedAt eoi s a) (some (unexpectedAt eoi s b)) = unexpectedAt eoi s (b.foldl insertExpected a) := by
  simp [maxErr, unexpectedAt, mergeErr]

omit [Unicode] in
theorem maxErr_none (a : LErr Char) : maxErr a none = a := rfl

omit [Unicode] in
theorem maxErr_further {a b : LErr Char} (h : a.rem < b.rem) : maxErr a (some b) = a := by
  simp [maxErr, h]

omit [Unicode] in
theorem maxErr_behind {a b : LErr Char} (h : a.rem < b.rem) : maxErr b (some a) = a := by
  simp [maxErr, h, Nat.lt_asymm h]

variable {eoi sp : Span} {c : Char} {r : Toks Char}

theorem tComment_fails (h : c ≠ '#') : tComment eoi ((c, sp) :: r) = .err [] (unexpectedAt eoi ((c, sp) :: r) [some '#']) := by
  simp [tComment, pmap, pthen, just, satisfy, h]

theorem isDigit10_zero : isDigit10 '0' = true := by decide

theorem tHexnum_fails (h : isDigit10 c = false) : tHexnum eoi ((c, sp) :: r) = .err [] (unexpectedAt eoi ((c, sp) :: r) [some '0']) := by
  have : c ≠ '0' := by rintro rfl; rw [isDigit10_zero] at h; cases h
  simp [tHexnum, pmap, pthen, ignoreThen, just, satisfy, this]

theorem tNum_fails (h : isDigit10 c = false) : tNum eoi ((c, sp) :: r) = .err [] (unexpectedAt eoi ((c, sp) :: r) [some '0']) := by
  have : c ≠ '0' := by rintro rfl; rw [isDigit10_zero] at h; cases h
  simp only [tNum, textInt, pmap, por, pthen, pfilter, just, satisfy, h, this, Bool.false_and, Bool.false_eq_true, if_false, decide_false]
  simp only [unexpectedAt, Nat.lt_irrefl, if_false, maxErr, mergeErr]
  rfl

theorem tStr_fails (h : c ≠ '"') : tStr eoi ((c, sp) :: r) = .err [] (unexpectedAt eoi ((c, sp) :: r) [some '"']) := by
  simp [tStr, pmap, pthen, thenIgnore, ignoreThen, just, satisfy, h]

theorem tPunct_fails (h : c ∉ punctChars) : tPunct eoi ((c, sp) :: r) = .err [] (unexpectedAt eoi ((c, sp) :: r) (punctChars.map some)) := by
  simp [tPunct, pmap, oneOf, satisfy, h]

theorem tIdent_fails (h : isIdentHead c = false) : tIdent eoi ((c, sp) :: r) = .err [] (unexpectedAt eoi ((c, sp) :: r) []) := by
  simp [tIdent, pmap, pthen, pfilter, satisfy, h]

theorem tSigil_fails {d : Char} {mk : Str → Token} (h : c ≠ d) : tSigil d mk eoi ((c, sp) :: r) = .err [] (unexpectedAt eoi ((c, sp) :: r) [some d]) := by
  simp [tSigil, pmap, pthen, just, satisfy, h]

theorem tNewline_fails (h : c ≠ '\n') (h' : c ≠ '\r') : tNewline eoi ((c, sp) :: r) = .err [] (unexpectedAt eoi ((c, sp) :: r) [some '\n', some '\r']) := by
  simp only [tNewline, pmap, por, pthen, thenIgnore, just, satisfy, h, h', Bool.false_eq_true, if_false, decide_false]
  simp only [unexpectedAt, Nat.lt_irrefl, if_false, maxErr, mergeErr]
  rfl

/-- A character that starts no token is reported where it is. -/
theorem tokenChoice_alien (h : Alien c) : tokenChoice eoi ((c, sp) :: r) = .err [] (unexpectedAt eoi ((c, sp) :: r) startChars) := by
  obtain ⟨h1, h2, h3, h4, h5, h6, h7, h8, h9, h10⟩ := h
  simp only [tokenChoice, choice, tComment_fails h1, tHexnum_fails h2, tNum_fails h2, tStr_fails h3, tPunct_fails h4, tIdent_fails h5,
    tSigil_fails h6, tSigil_fails h7, tSigil_fails h8, tNewline_fails h9 h10, mergeAlts, maxErr_none, maxErr_same]
  congr 2

/-- A carriage return without line feed: what follows it is reported. -/
theorem tokenChoice_cr (hr : ∀ d, r.head?.map Prod.fst = some d → d ≠ '\n') :
    tokenChoice eoi (('\r', sp) :: r) = .err [] (unexpectedAt eoi r [some '\n']) := by
  have hn : tNewline eoi (('\r', sp) :: r) = .err [] (unexpectedAt eoi r [some '\n']) := by
    have hj : just '\n' eoi r = .err [] (unexpectedAt eoi r [some '\n']) := by
      cases r with
      | nil => rfl
      | cons d r =>
        have := hr d.1 rfl
        simp [just, satisfy, this]
    have h1 : just '\n' eoi (('\r', sp) :: r) = .err [] (unexpectedAt eoi (('\r', sp) :: r) [some '\n']) := rfl
    have h2 : just '\r' eoi (('\r', sp) :: r) = .ok [] '\r' none r := rfl
    simp only [tNewline, pmap, por, thenIgnore, pthen, h1, h2, hj]
    rw [if_neg (by simp [unexpectedAt, maxErr]), if_pos (by simp [unexpectedAt, maxErr])]
    rfl
  simp only [tokenChoice, choice, tComment_fails (c := '\r') (by decide), tHexnum_fails (c := '\r') (by decide), tNum_fails (c := '\r') (by decide),
    tStr_fails (c := '\r') (by decide), tPunct_fails (c := '\r') (by decide),
    tIdent_fails (c := '\r') (by unfold isIdentHead; rw [Unicode.alphabetic_ascii _ (by decide)]; decide),
    tSigil_fails (c := '\r') (d := '@') (by decide), tSigil_fails (c := '\r') (d := '%') (by decide), tSigil_fails (c := '\r') (d := '!') (by decide), hn, mergeAlts, maxErr_none, maxErr_same]
  rw [maxErr_further (by simp [unexpectedAt])]

omit [Unicode] in
theorem repeatLoop_all {f : Char → Bool} {eoi : Span} : ∀ (s : Toks Char) (fuel : Nat) (old : Option Nat) (outs : Str) (alt : Option (LErr Char)),
    (∀ c ∈ s, f c.1 = true) → s.length < fuel → (∀ n, old = some n → s.length ≤ n) → (alt = none) →
    ∃ outs', repeatLoop (pfilter f) 0 eoi fuel old [] outs alt s = .ok [] outs' (some (unexpectedAt eoi [] [])) []
  | [], fuel + 1, old, outs, alt, _, _, _, ha => by
    subst ha
    exact ⟨outs, rfl⟩
  | (c, sp) :: s, fuel + 1, old, outs, alt, h, hf, ho, ha => by
    subst ha
    have hc : pfilter f eoi ((c, sp) :: s) = .ok [] c none s := by
      simp [pfilter, satisfy, h (c, sp) (by simp)]
    obtain ⟨outs', h'⟩ := repeatLoop_all (eoi := eoi) s fuel (some s.length) (outs ++ [c]) none (fun c hc => h c (by simp [hc])) (by simp at hf; omega)
      (by simp) rfl
    refine ⟨outs', ?_⟩
    rw [repeatLoop, hc]
    simp only
    rw [if_neg ?_]
    · exact h'
    · intro e
      have := ho _ e
      simp at this
      omega

/-- A quote without closing quote: the end of the text is reported. -/
theorem tokenChoice_quote (hr : ∀ d ∈ r, d.1 ≠ '"') :
    tokenChoice eoi (('"', sp) :: r) = .err [] (unexpectedAt eoi [] [some '"']) := by
  have hn : tStr eoi (('"', sp) :: r) = .err [] (unexpectedAt eoi [] [some '"']) := by
    have h2 : just '"' eoi (('"', sp) :: r) = .ok [] '"' none r := rfl
    obtain ⟨outs, h3⟩ := repeatLoop_all (f := fun c => decide (c ≠ '"')) (eoi := eoi) r (r.length + 2) none [] none
      (fun c hc => by simp [hr c hc]) (by omega) (by simp) rfl
    have h4 : repeated (pfilter fun c => decide (c ≠ '"')) eoi r = .ok [] outs (some (unexpectedAt eoi [] [])) [] := h3
    have h5 : just '"' eoi [] = .err [] (unexpectedAt eoi [] [some '"']) := rfl
    simp only [tStr, pmap, thenIgnore, ignoreThen, pthen, h2, h4, h5, mergeAlts, maxErr]
    simp [unexpectedAt, mergeErr]
  simp only [tokenChoice, choice, tComment_fails (c := '"') (by decide), tHexnum_fails (c := '"') (by decide), tNum_fails (c := '"') (by decide),
    hn, tPunct_fails (c := '"') (by decide),
    tIdent_fails (c := '"') (by unfold isIdentHead; rw [Unicode.alphabetic_ascii _ (by decide)]; decide),
    tSigil_fails (c := '"') (d := '@') (by decide), tSigil_fails (c := '"') (d := '%') (by decide), tSigil_fails (c := '"') (d := '!') (by decide),
    tNewline_fails (c := '"') (by decide) (by decide), mergeAlts, maxErr_none, maxErr_same]
  have hlt : ∀ ex, (unexpectedAt eoi ([] : Toks Char) [some '"']).rem < (unexpectedAt eoi (('"', sp) :: r) ex).rem := by
    intro ex; simp [unexpectedAt]
  rw [maxErr_further (hlt _)]
  simp only [maxErr_behind (hlt _)]

/-- Text at which no token starts. -/
theorem noToken_cases {x : Str} (h : NoToken x) (hx : x ≠ []) :
    (∃ c y, x = c :: y ∧ Alien c) ∨ (∃ y, x = '\r' :: y ∧ y.head? ≠ some '\n') ∨ ∃ y, x = '"' :: y ∧ '"' ∉ y := by
  cases x with
  | nil => exact absurd rfl hx
  | cons c y =>
    by_cases h1 : c = '\r'
    · subst h1
      refine .inr (.inl ⟨y, rfl, fun he => ?_⟩)
      cases y with
      | nil => cases he
      | cons d y => cases he; exact h .newline _ y .crlf rfl
    · by_cases h2 : c = '"'
      · subst h2
        refine .inr (.inr ⟨y, rfl, fun hm => ?_⟩)
        obtain ⟨a, b, rfl, ha⟩ := List.eq_append_cons_of_mem hm
        exact h (.str a) ('"' :: a ++ ['"']) b (.str ha) (by simp)
      · refine .inl ⟨c, y, rfl, ?_, ?_, h2, ?_, ?_, ?_, ?_, ?_, ?_, h1⟩
        · rintro rfl
          exact h .comment ['#'] y (.comment (by simp)) rfl
        · rw [Bool.eq_false_iff]
          intro hd
          have hd' : Digit c := (isDigit_iff c).mp hd
          by_cases h0 : c = '0'
          · subst h0
            exact h (.num ['0']) ['0'] y (.num .zero) rfl
          · exact h (.num [c]) [c] y (.num (.pos hd' h0 (by simp))) rfl
        · intro hp
          exact h (.punct c) [c] y (.punct hp) rfl
        · rw [Bool.eq_false_iff]
          intro hd
          exact h _ [c] y (spells_classify ⟨c, [], rfl, (isIdentHead_iff c).mp hd, by simp [NameTail]⟩) rfl
        · rintro rfl; exact h _ ['@'] y (.globalName (by simp [NameTail])) rfl
        · rintro rfl; exact h _ ['%'] y (.localName (by simp [NameTail])) rfl
        · rintro rfl; exact h _ ['!'] y (.debugRef (by simp [NameTail])) rfl
        · rintro rfl; exact h _ ['\n'] y .lf rfl

/-- The error about text that is no token; the text stands at offset `o`. -/
def lexErr (eoi : Span) (o : Nat) : Str → LErr Char
  | [] => unexpectedAt eoi [] []
  | c :: y =>
    if c = '"' then unexpectedAt eoi [] [some '"']
    else if c = '\r' then unexpectedAt eoi (charStream (o + 1) y) [some '\n']
    else unexpectedAt eoi (charStream o (c :: y)) startChars

theorem mem_charStream {o : Nat} {x : Str} {d : Char × Span} (h : d ∈ charStream o x) : d.1 ∈ x := by
  induction x generalizing o with
  | nil => cases h
  | cons c x ih =>
    rcases List.mem_cons.mp h with rfl | h
    · simp
    · exact List.mem_cons_of_mem _ (ih h)

theorem head_charStream (o : Nat) (x : Str) : (charStream o x).head?.map Prod.fst = x.head? := by
  cases x <;> rfl

/-- Where no token starts, the error is the one above. -/
theorem tokenChoice_shape {eoi : Span} {o : Nat} {x : Str}
    (h : (∃ c y, x = c :: y ∧ Alien c) ∨ (∃ y, x = '\r' :: y ∧ y.head? ≠ some '\n') ∨ ∃ y, x = '"' :: y ∧ '"' ∉ y) :
    tokenChoice eoi (charStream o x) = .err [] (lexErr eoi o x) := by
  rcases h with ⟨c, y, rfl, h⟩ | ⟨y, rfl, h⟩ | ⟨y, rfl, h⟩
  · have := tokenChoice_alien (eoi := eoi) (sp := { start := o, stop := o + 1 }) (r := charStream (o + 1) y) h
    obtain ⟨_, _, h3, _, _, _, _, _, _, h10⟩ := h
    simp only [lexErr, h3, h10, if_false]
    exact this
  · have := tokenChoice_cr (eoi := eoi) (sp := { start := o, stop := o + 1 }) (r := charStream (o + 1) y)
      (by intro d hd; rw [head_charStream] at hd; rintro rfl; exact h hd)
    simp only [lexErr, show ('\r' : Char) ≠ '"' by decide, if_false, if_true]
    exact this
  · exact tokenChoice_quote (eoi := eoi) (sp := { start := o, stop := o + 1 }) (r := charStream (o + 1) y)
      (by intro d hd e; exact h (e ▸ mem_charStream hd))

theorem tokenChoice_noToken {eoi : Span} {o : Nat} {x : Str} (h : NoToken x) (hx : x ≠ []) :
    tokenChoice eoi (charStream o x) = .err [] (lexErr eoi o x) :=
  tokenChoice_shape (noToken_cases h hx)

theorem noToken_of {x : Str} (h : (∃ c y, x = c :: y ∧ Alien c) ∨ (∃ y, x = '\r' :: y ∧ y.head? ≠ some '\n') ∨ ∃ y, x = '"' :: y ∧ '"' ∉ y) :
    NoToken x := by
  have he := tokenChoice_shape (eoi := { start := 0, stop := 0 }) (o := 0) h
  rcases tokenChoice_cases { start := 0, stop := 0 } (charStream 0 x) with ⟨t, pre, r, _, ⟨alt, h2⟩, _⟩ | ⟨_, _, h2⟩
  · rw [h2] at he; cases he
  · rwa [chars_charStream] at h2

/-- Which text is no token does not depend on what is far behind, except for quotes. -/
theorem noToken_local {g w rest rest' : Str} (h : NoToken (g ++ w ++ rest)) (hg : g ≠ []) (hw : w ≠ []) (hq : '"' ∈ rest' → '"' ∈ rest) :
    NoToken (g ++ w ++ rest') := by
  cases g with
  | nil => exact absurd rfl hg
  | cons c g =>
    refine noToken_of ?_
    rcases noToken_cases h (by simp) with ⟨c', y, he, h⟩ | ⟨y, he, h⟩ | ⟨y, he, h⟩
    · simp only [List.cons_append, List.cons.injEq] at he
      exact .inl ⟨c, g ++ w ++ rest', rfl, he.1 ▸ h⟩
    · simp only [List.cons_append, List.cons.injEq] at he
      obtain ⟨rfl, rfl⟩ := he
      refine .inr (.inl ⟨_, rfl, ?_⟩)
      cases g with
      | cons => exact h
      | nil =>
        cases w with
        | nil => exact absurd rfl hw
        | cons => exact h
    · simp only [List.cons_append, List.cons.injEq] at he
      obtain ⟨rfl, rfl⟩ := he
      refine .inr (.inr ⟨_, rfl, ?_⟩)
      intro hm
      rcases List.mem_append.mp hm with hm | hm
      · exact h (List.mem_append.mpr (.inl hm))
      · exact h (List.mem_append.mpr (.inr (hq hm)))

theorem skipThenRetry_errs {eoi : Span} {e : LErr Char} : ∀ {s : Toks Char} {es : List (LErr Char)} {t alt r},
    skipThenRetry tokenChoice eoi [] e s = .ok es t alt r → es = [e]
  | [], _, _, _, _, h => by cases h
  | _ :: s, es, t, alt, r, h => by
    rw [skipThenRetry] at h
    cases hp : tokenChoice eoi s with
    | panic => rw [hp] at h; cases h
    | ok es' x alt' r' =>
      rw [hp] at h
      cases h
      rw [tokenChoice_clean.1 ⟨_, hp⟩]
      rfl
    | err es' e' =>
      rw [hp] at h
      exact skipThenRetry_errs h

/-- The parser on a text that starts with unrecognizable text before a token. -/
theorem recoverSkip_garbage_exact {eoi : Span} {o : Nat} {g w rest : Str} {t : Token} (hg : g ≠ [])
    (hga : Garbage g (w ++ rest)) (h : Longest t w rest) :
    Ok (recoverSkip tokenChoice) eoi (charStream o (g ++ w ++ rest)) [lexErr eoi o (g ++ w ++ rest)] t
      (charStream (o + g.length + w.length) rest) := by
  obtain ⟨e, alt, h1⟩ := recoverSkip_garbage (eoi := eoi) (o := o) hg hga h
  have h2 : tokenChoice eoi (charStream o (g ++ w ++ rest)) = .err [] (lexErr eoi o (g ++ w ++ rest)) :=
    tokenChoice_noToken (by rw [List.append_assoc]; exact garbage_head hga hg) (by simp [hg])
  refine ⟨alt, ?_⟩
  have h3 := h1
  rw [recoverSkip, h2] at h3
  have := skipThenRetry_errs h3
  rw [h1, this]

/-- As `LexesErr`, with the errors themselves. -/
inductive LexesWith (eoi : Span) : Nat → Str → List (Spanned Token) → List (LErr Char) → Prop
  | done {o b} : Blank b → LexesWith eoi o b [] []
  | tok {o b t w rest ts es} : Blank b → Longest t w rest →
      LexesWith eoi (o + b.length + w.length) rest ts es →
      LexesWith eoi o (b ++ w ++ rest)
        ((t, { start := o + b.length, stop := o + b.length + w.length }) :: ts) es
  | skip {o b g t w rest ts es} : Blank b → g ≠ [] → (∀ c cs, g = c :: cs → c ≠ ' ' ∧ c ≠ '\t') →
      Garbage g (w ++ rest) → Longest t w rest →
      LexesWith eoi (o + b.length + g.length + w.length) rest ts es →
      LexesWith eoi o (b ++ g ++ w ++ rest)
        ((t, { start := o + b.length, stop := o + b.length + g.length + w.length }) :: ts)
        (lexErr eoi (o + b.length) (g ++ w ++ rest) :: es)

theorem lexesWith_of_lexesErr {eoi : Span} {o : Nat} {text : Str} {ts n} (h : LexesErr o text ts n) :
    ∃ es, LexesWith eoi o text ts es := by
  induction h with
  | done h => exact ⟨[], .done h⟩
  | tok h1 h2 _ ih =>
    obtain ⟨es, h⟩ := ih
    exact ⟨es, .tok h1 h2 h⟩
  | skip h1 h2 h3 h4 h5 _ ih =>
    obtain ⟨es, h⟩ := ih
    exact ⟨_, .skip h1 h2 h3 h4 h5 h⟩

theorem lexesWith_lexesErr {eoi : Span} {o : Nat} {text : Str} {ts es} (h : LexesWith eoi o text ts es) :
    LexesErr o text ts es.length := by
  induction h with
  | done h => exact .done h
  | tok h1 h2 _ ih => exact .tok h1 h2 ih
  | skip h1 h2 h3 h4 h5 _ ih => exact .skip h1 h2 h3 h4 h5 ih

theorem lexesWith_nil_blank {eoi : Span} {o : Nat} {text : Str} {ts es} (h : LexesWith eoi o text ts es) (hts : ts = []) : Blank text :=
  lexesErr_nil_blank (lexesWith_lexesErr h) hts

/-- The loop returns these tokens and errors. -/
theorem many_paddedToken_exact {eoi : Span} {o : Nat} {text : Str} {ts es} (h : LexesWith eoi o text ts es) :
    ∀ b text', text = b ++ text' → Blank b → (ts ≠ [] ∨ text' = []) →
      Many paddedToken eoi (charStream (o + b.length) text') es ts [] := by
  induction h with
  | done h =>
    intro b text' _ _ h2
    have : text' = [] := by rcases h2 with h2 | h2; exact absurd rfl h2; exact h2
    subst this
    exact .nil (paddedToken_nil eoi)
  | @tok o b0 t w rest ts es h1 h2 h3 ih =>
    intro b text' he hb _
    rw [List.append_assoc] at he
    obtain ⟨b1, rfl, rfl⟩ := blank_split h1 hb (spells_noBlank h2.1) he
    obtain ⟨b2, rest2, rfl, hb2, hr2⟩ := exists_blank_split rest
    have hcond : ts ≠ [] ∨ rest2 = [] := by
      cases ts with
      | cons => left; simp
      | nil =>
        right
        exact noBlank_blank (fun c hc => lexesWith_nil_blank h3 rfl c (by simp [hc])) hr2
    have hm := ih b2 rest2 rfl hb2 hcond
    have hb1 : Blank b1 := fun c hc => h1 c (by simp [hc])
    have := Many.cons (es := []) (x := (t, ({ start := o + (b ++ b1).length, stop := o + (b ++ b1).length + w.length } : Span))) (paddedBy_ok.mpr
      ⟨[], [], [], _, _, b1, b2, blanks_charStream (eoi := eoi) (o := o + b.length) hb1 (spells_noBlank h2.1),
        pmapSpan_ok.mpr ⟨t, recoverSkip_tok (eoi := eoi) (o := o + b.length + b1.length) h2, ?_⟩,
        blanks_charStream (eoi := eoi) (o := o + b.length + b1.length + w.length) hb2 hr2, rfl⟩)
      (by rw [List.length_append, ← Nat.add_assoc] at hm; exact hm)
    · exact this
    · rw [spanSince_charStream (spells_ne_nil h2.1)]
      simp only [List.length_append, Nat.add_assoc]
  | @skip o b0 g t w rest ts es h1 hg hgb hga h2 h3 ih =>
    intro b text' he hb _
    have hnb : NoBlank (g ++ w ++ rest) := by
      intro c cs hc
      cases g with
      | nil => exact absurd rfl hg
      | cons d g =>
        simp only [List.cons_append, List.cons.injEq] at hc
        exact hc.1 ▸ hgb d g rfl
    rw [List.append_assoc, List.append_assoc] at he
    rw [List.append_assoc] at hnb
    obtain ⟨b1, rfl, rfl⟩ := blank_split h1 hb hnb he
    obtain ⟨b2, rest2, rfl, hb2, hr2⟩ := exists_blank_split rest
    have hcond : ts ≠ [] ∨ rest2 = [] := by
      cases ts with
      | cons => left; simp
      | nil =>
        right
        exact noBlank_blank (fun c hc => lexesWith_nil_blank h3 rfl c (by simp [hc])) hr2
    have hm := ih b2 rest2 rfl hb2 hcond
    have hb1 : Blank b1 := fun c hc => h1 c (by simp [hc])
    have hrec := recoverSkip_garbage_exact (eoi := eoi) (o := o + b.length + b1.length) hg hga h2
    rw [show o + b.length + b1.length = o + (b ++ b1).length by simp; omega] at hrec
    rw [List.append_assoc] at hrec ⊢
    have hb1' := blanks_charStream (eoi := eoi) (o := o + b.length) hb1 hnb
    rw [show o + b.length + b1.length = o + (b ++ b1).length by simp; omega] at hb1'
    have := Many.cons (es := [_]) (x := (t, ({ start := o + (b ++ b1).length, stop := o + (b ++ b1).length + g.length + w.length } : Span))) (paddedBy_ok.mpr
      ⟨[], [_], [], _, _, b1, b2, hb1',
        pmapSpan_ok.mpr ⟨t, hrec, ?_⟩,
        blanks_charStream (eoi := eoi) (o := o + (b ++ b1).length + g.length + w.length) hb2 hr2, rfl⟩) hm
    · exact this
    · have := spanSince_charStream (eoi := eoi) (o := o + (b ++ b1).length) (w := g ++ w)
        (r := b2 ++ rest2) (by simp [hg])
      rw [List.append_assoc, List.length_append (as := g), ← Nat.add_assoc] at this
      rw [this]

/-- What the tokenizer returns. -/
theorem tokenize_exact {src : Str} {toks es} :
    tokenize src = .ok (some toks, es) ↔ LexesWith { start := src.length, stop := src.length } 0 src toks es ∧ (toks ≠ [] ∨ src = []) := by
  constructor
  · intro h
    have h1 := tokenize_sound h
    have hne : toks ≠ [] ∨ src = [] := by
      cases toks with
      | cons => left; simp
      | nil =>
        right
        have hm := tokenize_some_iff.mp h
        generalize hs : charStream 0 src = s at hm
        generalize hr : ([] : Toks Char) = r at hm
        cases hm with
        | nil _ =>
          cases src with
          | nil => rfl
          | cons => subst hr; cases hs
    obtain ⟨es', h2⟩ := lexesWith_of_lexesErr (eoi := { start := src.length, stop := src.length }) h1
    have h3 := tokenize_some_iff.mpr (many_paddedToken_exact h2 [] src rfl (by simp [Blank]) hne)
    rw [h] at h3
    cases h3
    exact ⟨h2, hne⟩
  · rintro ⟨h, hne⟩
    exact tokenize_some_iff.mpr (many_paddedToken_exact h [] src rfl (by simp [Blank]) hne)

end
end HyperIR
