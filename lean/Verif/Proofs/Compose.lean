import Verif.Proofs.Local
import Verif.Proofs.Natural
import Verif.Proofs.LexInsert
import Verif.Spec.Compose

/- One document behind another (src/hir_tokenizer.rs:48-148, src/hir_parser.rs:395-463). -/

namespace HyperIR
open Spec

/-! ### Line ends in front of a statement -/

/-- What `repeated(newline)` does. -/
theorem newlineLoop {eoi : Span} {t : List Tok} (ht : ∀ sp r', t ≠ (.newline, sp) :: r') :
    ∀ {nls : List Tok}, Newlines nls → ∀ {fuel old outs}, nls.length < fuel →
      (∀ k, old = some k → nls.length + t.length ≤ k) → ∃ xs,
      repeatLoop pNewline 0 eoi fuel old [] outs none (nls ++ t) =
        .ok [] xs (some (unexpectedAt eoi t [some .newline])) t
  | [], _, fuel, old, outs, hf, hold => by
    obtain ⟨fuel, rfl⟩ := Nat.exists_eq_succ_of_ne_zero (Nat.pos_iff_ne_zero.mp hf)
    have : pNewline eoi t = .err [] (unexpectedAt eoi t [some .newline]) := by
      cases t with
      | nil => rfl
      | cons a t =>
        obtain ⟨k, sp⟩ := a
        have hk : k ≠ .newline := by rintro rfl; exact ht sp t rfl
        unfold pNewline just satisfy
        simp [hk]
    simp only [List.nil_append, repeatLoop, this]
    exact ⟨outs, rfl⟩
  | (k, sp) :: nls, hn, fuel, old, outs, hf, hold => by
    obtain ⟨fuel, rfl⟩ := Nat.exists_eq_succ_of_ne_zero (Nat.pos_iff_ne_zero.mp (Nat.lt_of_le_of_lt (Nat.zero_le _) hf))
    have hk : k = .newline := hn (k, sp) (by simp)
    subst hk
    have : pNewline eoi ((.newline, sp) :: (nls ++ t)) = .ok [] .newline none (nls ++ t) := by
      unfold pNewline just satisfy
      simp
    have hold' : old ≠ some (nls ++ t).length := by
      intro h
      have := hold _ h
      simp at this
      omega
    simp only [List.cons_append, repeatLoop, this, if_neg hold']
    exact newlineLoop ht (fun t ht => hn t (List.mem_cons_of_mem _ ht)) (by simpa using hf)
      (by intro k hk; injection hk with hk; subst hk; simp)

theorem pPaddedStatement_newlines {eoi : Span} {nls t : List Tok} (hn : Newlines nls)
    (ht : ∀ sp r', t ≠ (.newline, sp) :: r') : pPaddedStatement eoi (nls ++ t) = pPaddedStatement eoi t := by
  have h1 : ∀ nls, Newlines nls → ∃ xs, repeated pNewline eoi (nls ++ t) =
      .ok [] xs (some (unexpectedAt eoi t [some .newline])) t := by
    intro nls hn
    unfold repeated repeatedAtLeast
    exact newlineLoop ht hn (by simp; omega) (by simp)
  obtain ⟨xs, h2⟩ := h1 nls hn
  obtain ⟨ys, h3⟩ := h1 [] (by intro t ht; cases ht)
  rw [List.nil_append] at h3
  unfold pPaddedStatement paddedBy thenIgnore ignoreThen pmap pthen
  simp only [h2, h3]
  cases pStatement eoi t with
  | panic => rfl
  | err => rfl
  | ok es x alt r => rfl

theorem docItem_newlines {eoi : Span} {nls t : List Tok} (hn : Newlines nls)
    (ht : ∀ sp r', t ≠ (.newline, sp) :: r') : docItem eoi (nls ++ t) = docItem eoi t := by
  unfold docItem recoverSkip
  rw [pPaddedStatement_newlines hn ht]
  cases h : pPaddedStatement eoi t with
  | panic => rfl
  | ok => rfl
  | err es e =>
    simp only
    induction nls with
    | nil => rfl
    | cons a nls ih =>
      have hn' : Newlines nls := fun t ht => hn t (List.mem_cons_of_mem _ ht)
      rw [List.cons_append, skipThenRetry, pPaddedStatement_newlines hn' ht, h]
      exact ih hn'

theorem many_docItem_newlines {eoi : Span} {nls t : List Tok} (hn : Newlines nls)
    (ht : ∀ sp r', t ≠ (.newline, sp) :: r') {es ss r} (hs : ss ≠ []) :
    Many docItem eoi (nls ++ t) es ss r ↔ Many docItem eoi t es ss r := by
  constructor
  · intro h
    generalize hz : nls ++ t = z at h
    cases h with
    | nil => exact absurd rfl hs
    | cons h1 h2 =>
      subst hz
      obtain ⟨alt, h1⟩ := h1
      rw [docItem_newlines hn ht] at h1
      exact .cons ⟨alt, h1⟩ h2
  · intro h
    cases h with
    | nil => exact absurd rfl hs
    | cons h1 h2 =>
      obtain ⟨alt, h1⟩ := h1
      rw [← docItem_newlines hn ht] at h1
      exact .cons ⟨alt, h1⟩ h2

theorem exists_newlines_split (l : List Tok) :
    ∃ nls t, l = nls ++ t ∧ Newlines nls ∧ ∀ sp r', t ≠ (.newline, sp) :: r' := by
  induction l with
  | nil => exact ⟨[], [], rfl, (by intro t ht; cases ht), by simp⟩
  | cons a l ih =>
    obtain ⟨k, sp⟩ := a
    by_cases hk : k = .newline
    · subst hk
      obtain ⟨nls, t, rfl, h1, h2⟩ := ih
      refine ⟨(.newline, sp) :: nls, t, rfl, ?_, h2⟩
      intro t ht
      rcases List.mem_cons.mp ht with rfl | ht
      · rfl
      · exact h1 t ht
    · refine ⟨[], _, rfl, (by intro t ht; cases ht), ?_⟩
      intro sp r' h
      injection h with h _
      injection h with h _
      exact hk h

/-- The statements of two documents, the first of which is free of errors. -/
theorem many_docItem_two {eoi eoi' : Span} {s ss t es' ts} (h : Many docItem eoi s [] ss [])
    (hlast : s = [] ∨ ∃ l n, s = l ++ [(.newline, n)]) (h' : Many docItem eoi' t es' ts []) :
    Many docItem eoi' (s ++ t) es' (ss ++ ts) [] := by
  rcases hlast with rfl | hlast
  · generalize hz : ([] : List (LErr Token)) = z at h
    cases h with
    | nil => exact h'
    | cons h1 => exact absurd (docItem_progress h1) (by simp)
  · obtain ⟨nls, t0, rfl, h1, h2⟩ := exists_newlines_split t
    refine many_docItem_append h rfl rfl hlast h1 h2 ?_
    by_cases hts : ts = []
    · subst hts
      generalize hz : nls ++ t0 = z at h'
      generalize hz' : ([] : List Tok) = z' at h'
      cases h' with
      | nil h3 =>
        subst hz'
        obtain ⟨rfl, rfl⟩ := List.append_eq_nil_iff.mp hz
        exact .nil h3
    · exact (many_docItem_newlines h1 h2 hts).mp h'

/-! ### The tokenizer commutes with moving the text -/

section
variable {τ α : Type} {F : Move} {g : α → α} [DecidableEq τ]

theorem choice_natural {ps : List (P τ α)} (hp : ∀ p ∈ ps, Natural F g p) :
    ∀ {alt eoi s}, choice (alt.map F.err) ps (F.span eoi) (F.toks s) = F.res g (choice alt ps eoi s) := by
  induction ps with
  | nil =>
    intro alt eoi s
    cases alt with
    | none => simp only [choice, Option.map_none, Move.res, List.map_nil, unexpectedAt_move]
    | some e => rfl
  | cons p ps ih =>
    intro alt eoi s
    simp only [choice]
    rw [hp p (by simp)]
    cases p eoi s with
    | panic => rfl
    | ok => rfl
    | err es e =>
      show choice (mergeAlts (Option.map F.err alt) (Option.map F.err (some e))) ps (F.span eoi) (F.toks s) = _
      rw [mergeAlts_move]
      exact ih fun q hq => hp q (List.mem_cons_of_mem _ hq)

theorem takeUntil_natural {p : P τ α} (hp : Natural F g p) {eoi : Span} : ∀ {s : Toks τ} {outs alt},
    takeUntil p (F.span eoi) outs (alt.map F.err) (F.toks s) =
      F.res (fun x => (x.1, g x.2)) (takeUntil p eoi outs alt s)
  | [], outs, alt => by
    have h := hp eoi []
    rw [toks_nil] at h
    rw [toks_nil, takeUntil, takeUntil, h]
    cases p eoi [] with
    | panic => rfl
    | ok es x al r => simp only [Move.res, mergeAlts_move]
    | err => rfl
  | (t, sp) :: s, outs, alt => by
    have h := hp eoi ((t, sp) :: s)
    rw [toks_cons] at h ⊢
    rw [takeUntil, takeUntil, h]
    cases p eoi ((t, sp) :: s) with
    | panic => rfl
    | ok es x al r => simp only [Move.res, mergeAlts_move]
    | err es e =>
      show takeUntil p (F.span eoi) (outs ++ [t]) (mergeAlts (Option.map F.err alt) (Option.map F.err (some e))) (F.toks s) = _
      rw [mergeAlts_move]
      exact takeUntil_natural hp

omit [DecidableEq τ] in
theorem many_natural {p : P τ α} (hp : Natural F g p) {eoi s es xs r} (h : Many p eoi s es xs r) :
    Many p (F.span eoi) (F.toks s) (es.map F.err) (xs.map g) (F.toks r) := by
  induction h with
  | nil h =>
    obtain ⟨es, e, h⟩ := h
    exact .nil ⟨_, _, by rw [hp, h]; rfl⟩
  | cons h1 _ ih =>
    obtain ⟨alt, h1⟩ := h1
    rw [List.map_append, List.map_cons]
    exact .cons ⟨alt.map F.err, by rw [hp, h1]; rfl⟩ ih

end

section
variable {F : Move} [Unicode]

theorem identTail_natural : Natural F id identTail :=
  pmap_natural (repeated_natural (pthen_natural (repeated_natural satisfy_natural) satisfy_natural)) (by simp)

omit [Unicode] in
theorem textInt_natural {isD} : Natural F id (textInt isD) :=
  por_natural (pmap_natural (pthen_natural satisfy_natural (repeated_natural satisfy_natural)) (by simp))
    (pmap_natural satisfy_natural (fun _ => rfl))

theorem tokenChoice_natural : Natural F id tokenChoice := by
  intro eoi s
  unfold tokenChoice
  refine choice_natural (alt := none) ?_
  have h7 (c mk) : Natural F id (tSigil c mk) :=
    pmap_natural (pthen_natural satisfy_natural identTail_natural) (fun _ => rfl)
  simp only [List.mem_cons, List.not_mem_nil, or_false]
  rintro q (rfl | rfl | rfl | rfl | rfl | rfl | rfl | rfl | rfl | rfl)
  · refine pmap_natural (pthen_natural (h := fun x : Str × Char => (x.1, id x.2)) satisfy_natural ?_) (fun _ => rfl)
    have hp : Natural F id (rewind (por (just '\n') (pmap (fun _ => '\n') pend))) :=
      rewind_natural (por_natural satisfy_natural (pmap_natural (g := id) pend_natural (fun _ => rfl)))
    intro eoi s
    exact takeUntil_natural (alt := none) hp
  · exact pmap_natural (ignoreThen_natural (pthen_natural satisfy_natural satisfy_natural) textInt_natural) (fun _ => rfl)
  · exact pmap_natural textInt_natural (fun _ => rfl)
  · exact pmap_natural (thenIgnore_natural (ignoreThen_natural satisfy_natural
      (repeated_natural satisfy_natural)) satisfy_natural) (by simp)
  · exact pmap_natural satisfy_natural (fun _ => rfl)
  · exact pmap_natural (pthen_natural satisfy_natural identTail_natural) (fun _ => rfl)
  · exact h7 _ _
  · exact h7 _ _
  · exact h7 _ _
  · exact pmap_natural (por_natural satisfy_natural (thenIgnore_natural satisfy_natural satisfy_natural)) (fun _ => rfl)

theorem paddedToken_natural : Natural F F.spanned paddedToken :=
  paddedBy_natural (repeated_natural satisfy_natural)
    (pmapSpan_natural (recoverSkip_natural tokenChoice_natural) (fun _ _ => rfl))

omit [Unicode] in
theorem docItem_natural : Natural F F.stmt docItem :=
  recoverSkip_natural (paddedBy_natural (repeated_natural pNewline_natural)
    (por_natural (por_natural (por_natural (por_natural pGlobalVar_natural pFuncDecl_natural) pFuncDef_natural)
      pFuncDependencies_natural) pDbgAnnotation_natural))

end

/-! ### The tokens of two texts -/

section
variable [Unicode]

omit [Unicode] in
theorem endsWith_append {x y l : Str} {c : Char} (h : x ++ y = l ++ [c]) (hy : y ≠ []) : ∃ l', y = l' ++ [c] := by
  rcases List.eq_nil_or_concat y with rfl | ⟨l', c', rfl⟩
  · exact absurd rfl hy
  · rw [List.concat_eq_append, ← List.append_assoc] at h
    obtain ⟨_, h⟩ := List.append_inj' h rfl
    cases h
    exact ⟨l', by simp⟩

omit [Unicode] in
theorem charStream_move {F : Move} {k : Nat} : ∀ {o : Nat} {y : Str},
    (∀ i, o ≤ i → i < o + y.length → F.fs i = i + k ∧ F.fe (i + 1) = i + 1 + k) →
    charStream (o + k) y = F.toks (charStream o y)
  | o, [], _ => rfl
  | o, c :: y, h => by
    have h0 := h o (Nat.le_refl _) (by simp)
    have e : o + k + 1 = o + 1 + k := by omega
    simp only [charStream, toks_cons, Move.span, h0.1, h0.2, e]
    rw [charStream_move (o := o + 1) fun i h1 h2 => h i (by omega) (by simp only [List.length_cons]; omega)]

theorem nameTail_noLf {w : Str} (h : NameTail w) : '\n' ∉ w := by
  intro hc
  rcases h.1 _ hc with h | h
  · revert h; exact not_nameChar_of (by decide) (by decide)
  · revert h; decide

/-- Only strings contain a line feed in front of further characters. -/
theorem spells_lf {t : Token} {a u : Str} (h : Spells t (a ++ '\n' :: u)) : (t = .newline ∧ u = []) ∨ ∃ v, t = .str v := by
  have hm : '\n' ∈ a ++ '\n' :: u := by simp
  generalize hw : a ++ '\n' :: u = w at h hm
  rw [spells_iff] at h
  rcases h with ⟨rfl, v, rfl, h⟩ | ⟨v, _, rfl, h⟩ | ⟨_, h⟩ | ⟨v, rfl, rfl, _⟩ | ⟨c', _, rfl, h⟩
      | ⟨_, c, cs, rfl, h1, h⟩ | ⟨v, _, rfl, h⟩ | ⟨v, _, rfl, h⟩ | ⟨v, _, rfl, h⟩ | ⟨h1, rfl | rfl⟩ | h
  · simp [h] at hm
  · have := numeral_all h (by left; decide)
    simp only [List.mem_cons] at hm
    rcases hm with hm | hm | hm
    · exact absurd hm (by decide)
    · exact absurd hm (by decide)
    · rcases this _ hm with h | h | h
      · exact absurd rfl (digit_ne h (by decide))
      · simp only [char_le_iff] at h
        exact absurd h (by decide)
      · simp only [char_le_iff] at h
        exact absurd h (by decide)
  · have := numeral_all h (by decide)
    exact absurd rfl (digit_ne (this _ hm) (by decide))
  · exact .inr ⟨v, rfl⟩
  · exact absurd hm (punct_forall (p := fun c => '\n' ∉ [c]) (by decide) h)
  · rcases List.mem_cons.mp hm with rfl | hm
    · revert h1; exact fun h1 => absurd h1 (not_head_of (by decide) (by decide))
    · exact absurd hm (nameTail_noLf h)
  · simp [nameTail_noLf h] at hm
  · simp [nameTail_noLf h] at hm
  · simp [nameTail_noLf h] at hm
  · left
    refine ⟨h1, ?_⟩
    have := congrArg List.length hw
    simp only [List.length_append, List.length_cons, List.length_nil] at this
    exact List.eq_nil_of_length_eq_zero (by omega)
  · left
    refine ⟨h1, ?_⟩
    cases a with
    | nil => cases hw
    | cons c a =>
      have := congrArg List.length hw
      simp only [List.length_append, List.length_cons, List.length_nil] at this
      exact List.eq_nil_of_length_eq_zero (by omega)
  · exact h.elim

/-- Behind a line feed, the text may be continued. -/
theorem longest_continue {t : Token} {w rest l B : Str} (h : Longest t w rest) (hl : w ++ rest = l ++ ['\n']) :
    Longest t w (rest ++ B) := by
  refine ⟨h.1, ?_⟩
  intro t' w' r' hs' he
  rcases Nat.lt_or_ge (w.length + rest.length) w'.length with hlt | hle
  · exfalso
    obtain ⟨u, rfl⟩ : ∃ u, w' = w ++ rest ++ u := by
      have h1 : (w ++ rest) <+: w' := by
        refine List.prefix_of_prefix_length_le (l₃ := w' ++ r') ?_ (List.prefix_append ..) (by simp; omega)
        rw [← he]
        exact ⟨B, by simp⟩
      obtain ⟨u, hu⟩ := h1
      exact ⟨u, hu.symm⟩
    have hu : u ≠ [] := by
      rintro rfl
      simp at hlt
    have hs2 := hs'
    rw [hl, List.append_assoc] at hs2
    rcases spells_lf (u := u) hs2 with ⟨_, rfl⟩ | ⟨x, rfl⟩
    · exact hu rfl
    · have hne := spells_ne_nil h.1
      cases w with
      | nil => exact hne rfl
      | cons d w =>
        have f1 := spells_first h.1 rfl
        have f2 := spells_first hs' (c := d) (cs := w ++ rest ++ u) (by simp)
        obtain ⟨v', rfl⟩ := f1.2.mp (f2.2.mpr ⟨x, rfl⟩)
        obtain ⟨hw, k1⟩ := spells_str h.1
        obtain ⟨hu', k2⟩ := spells_str hs'
        rw [hw] at hu'
        have hu'' : v' ++ '"' :: (rest ++ u) = x ++ '"' :: [] := by
          simpa using hu'
        obtain ⟨_, h5⟩ := until_unique k1 k2 hu''
        exact hu (List.append_eq_nil_iff.mp h5).2
  · have h1 : w' <+: w ++ rest := by
      refine List.prefix_of_prefix_length_le (l₃ := w' ++ r') (List.prefix_append ..) ?_ (by simp; omega)
      rw [← he]
      exact ⟨B, by simp⟩
    obtain ⟨u, hu⟩ := h1
    exact h.2 t' w' u hs' hu.symm

theorem many_paddedToken_blank {eoi : Span} {o : Nat} {b y : Str} (hb : Blank b) (hy : NoBlank y) {es ts}
    (h : Many paddedToken eoi (charStream o (b ++ y)) es ts []) :
    Many paddedToken eoi (charStream (o + b.length) y) es ts [] := by
  generalize hz : charStream o (b ++ y) = z at h
  generalize hz' : ([] : Toks Char) = z' at h
  cases h with
  | nil h3 =>
    subst hz'
    cases b with
    | cons => simp [charStream] at hz
    | nil =>
      cases y with
      | cons => simp [charStream] at hz
      | nil => exact .nil (paddedToken_nil eoi)
  | cons h1 h2 =>
    subst hz hz'
    refine .cons ?_ h2
    obtain ⟨e1, e2, e3, m, m', y1, z1, k1, k2, k3, rfl⟩ := paddedBy_ok.mp h1
    obtain ⟨rfl, rfl, rfl⟩ := k1.det (blanks_charStream hb hy)
    exact paddedBy_ok.mpr ⟨[], _, _, _, _, [], _, blanks_charStream (b := []) (o := o + y1.length)
      (by intro c hc; cases hc) hy, k2, k3, rfl⟩

/-- One token with the blanks around it. -/
theorem many_paddedToken_cons {eoi : Span} {o : Nat} {b w rest : Str} {t : Token} {es ts} (hb : Blank b)
    (hl : Longest t w rest) (h : Many paddedToken eoi (charStream (o + b.length + w.length) rest) es ts []) :
    Many paddedToken eoi (charStream o (b ++ w ++ rest)) es
      ((t, { start := o + b.length, stop := o + b.length + w.length }) :: ts) [] := by
  obtain ⟨b2, y, rfl, hb2, hy⟩ := exists_blank_split rest
  have h' := many_paddedToken_blank hb2 hy h
  rw [List.append_assoc]
  refine Many.cons (es := []) (paddedBy_ok.mpr
      ⟨[], [], [], _, _, b, b2, blanks_charStream hb (spells_noBlank hl.1),
        pmapSpan_ok.mpr ⟨t, recoverSkip_tok hl, ?_⟩, blanks_charStream hb2 hy, rfl⟩) h'
  rw [spanSince_charStream (spells_ne_nil hl.1)]

/-- The tokens of a text that ends with a line feed, followed by those of another text. -/
theorem many_paddedToken_append {eoi : Span} {o : Nat} {A : Str} {tsA} (h : Lexes o A tsA) {B : Str} {es ts}
    (hA : A = [] ∨ ∃ l, A = l ++ ['\n']) (hB : Many paddedToken eoi (charStream (o + A.length) B) es ts []) :
    Many paddedToken eoi (charStream o (A ++ B)) es (tsA ++ ts) [] := by
  induction h with
  | @done o b hb =>
    rcases hA with rfl | ⟨l, rfl⟩
    · exact hB
    · rcases hb '\n' (by simp) with h | h <;> exact absurd h (by decide)
  | @tok o b t w rest ts' hb hl hr ih =>
    rcases hA with hA | ⟨l, hA⟩
    · simp only [List.append_eq_nil_iff] at hA
      exact absurd hA.1.2 (spells_ne_nil hl.1)
    have hwr : ∃ l', w ++ rest = l' ++ ['\n'] := by
      rw [List.append_assoc] at hA
      exact endsWith_append hA (by simp [spells_ne_nil hl.1])
    have hrest : rest = [] ∨ ∃ l', rest = l' ++ ['\n'] := by
      by_cases hr : rest = []
      · exact .inl hr
      · exact .inr (endsWith_append hA hr)
    obtain ⟨l', hl'⟩ := hwr
    have := many_paddedToken_cons (o := o) hb (longest_continue (B := B) hl hl') (ih hrest (by
      simp only [List.length_append, Nat.add_assoc] at hB ⊢
      exact hB))
    simpa [List.append_assoc] using this

end

/-! ### Statements only contain positions of tokens -/

section
variable {F G : Move}

/-- The two ways to move agree on the ranges of the tokens other than line ends. -/
def Agree (F G : Move) (l : List Tok) : Prop :=
  ∀ t ∈ l, t.1 ≠ .newline → F.fs t.2.start = G.fs t.2.start ∧ F.fe t.2.stop = G.fe t.2.stop

theorem Agree.sub {l l' : List Tok} (h : Agree F G l) (hl : ∀ t ∈ l', t ∈ l) : Agree F G l' := fun t ht => h t (hl t ht)

theorem Agree.append {l l' : List Tok} : Agree F G (l ++ l') ↔ Agree F G l ∧ Agree F G l' := by
  simp only [Agree, List.mem_append]
  exact ⟨fun h => ⟨fun t ht => h t (.inl ht), fun t ht => h t (.inr ht)⟩, fun h t ht => ht.elim (h.1 t) (h.2 t)⟩

theorem Agree.nil : Agree F G [] ↔ True := iff_true_intro fun t ht => by cases ht

theorem Agree.cons {t : Tok} {l : List Tok} : Agree F G (t :: l) ↔ (t.1 ≠ .newline → F.span t.2 = G.span t.2) ∧ Agree F G l := by
  simp only [Agree, List.mem_cons, forall_eq_or_imp, Move.span, Span.mk.injEq]

theorem Agree.spanned {α : Type} {x : Spanned α} (h : F.span x.2 = G.span x.2) : F.spanned x = G.spanned x := by
  unfold Move.spanned; rw [h]

theorem Agree.map {l : List Tok} (h : Agree F G l) (hl : OneLine l) : l.map F.spanned = l.map G.spanned :=
  List.map_congr_left fun t ht => Agree.spanned (by
    have := h t ht (hl t ht)
    simp only [Move.span, this.1, this.2])

theorem Agree.map' {α : Type} {mk : Spanned α → Tok} (hmk : ∀ x, (mk x).2 = x.2) (hnl : ∀ x, (mk x).1 ≠ .newline) {l : List (Spanned α)} (h : Agree F G (l.map mk)) :
    l.map F.spanned = l.map G.spanned :=
  List.map_congr_left fun x hx => Agree.spanned (by
    have := h _ (List.mem_map_of_mem hx) (hnl x)
    simp only [hmk] at this
    simp only [Move.span, this.1, this.2])

/-- Splits an agreement into one per token. -/
local macro "split_agree " h:ident : tactic => `(tactic|
  simp only [identTok, localTok, globalTok, typeTok, dbgTok, hexTok, Agree.append, Agree.cons, Agree.nil, List.cons_append,
    List.nil_append, List.append_assoc, and_assoc, and_true, ne_eq, reduceCtorEq, not_false_eq_true, true_implies] at $h:ident)

theorem commaSep_agree {α β : Type} {P : α → List Tok → Prop} {f g : α → β} (hp : ∀ x l, P x l → Agree F G l → f x = g x) {xs l}
    (h : CommaSep P xs l) (ha : Agree F G l) : xs.map f = xs.map g := by
  induction h with
  | nil => rfl
  | one h => simp [hp _ _ h ha]
  | cons h _ ih =>
    rw [Agree.append, Agree.cons] at ha
    rw [List.map_cons, hp _ _ h ha.1, ih ha.2.2, ← List.map_cons]

theorem sig_agree {s : FuncSignature} {l : List Tok} (h : SigG s l) (ha : Agree F G l) : F.sig s = G.sig s := by
  obtain ⟨o, args, c, h1, rfl⟩ := h
  split_agree ha
  obtain ⟨hm, hr, hn, _, hargs, _⟩ := ha
  unfold Move.sig
  rw [Agree.map' (mk := modTok) (fun _ => rfl) (fun _ => by simp [modTok]) hm, Agree.spanned (x := s.retType) hr, Agree.spanned (x := s.name) hn,
    commaSep_agree (f := F.arg) (g := G.arg) ?_ h1 hargs]
  rintro x l rfl hl
  split_agree hl
  simp only [Move.arg, Agree.spanned hl.1, Agree.spanned hl.2]

theorem dbg_agree {d : Option (Spanned Str)} (h : Agree F G (dbgToks d)) : d.map F.spanned = d.map G.spanned := by
  cases d with
  | none => rfl
  | some d =>
    unfold dbgToks at h
    split_agree h
    simp only [Option.map_some, Agree.spanned h]

theorem bodyForm_agree {m ts d l} (h : BodyForm m ts d l) (ha : Agree F G l) :
    F.spanned m = G.spanned m ∧ ts.map F.spanned = ts.map G.spanned ∧ d.map F.spanned = d.map G.spanned := by
  cases h with
  | br =>
    split_agree ha
    refine ⟨Agree.spanned ha.1, ?_, dbg_agree ha.2.2⟩
    simp only [List.map_cons, List.map_nil, Agree.spanned ha.2.1]
  | condBr =>
    split_agree ha
    obtain ⟨h1, h2, h3, h4, h5, h6, h7, h8⟩ := ha
    refine ⟨Agree.spanned h1, ?_, dbg_agree h8⟩
    simp only [List.map_cons, List.map_nil, Agree.spanned h5, Agree.spanned h7]
  | overflowBr =>
    split_agree ha
    obtain ⟨h1, _, _, _, _, h5, _, _, _, h7, h8⟩ := ha
    refine ⟨Agree.spanned h1, ?_, dbg_agree h8⟩
    simp only [List.map_cons, List.map_nil, Agree.spanned h5, Agree.spanned h7]
  | switch _ hc =>
    split_agree ha
    obtain ⟨h1, _, _, _, _, h5, _, h6, h8⟩ := ha
    refine ⟨Agree.spanned h1, ?_, dbg_agree h8⟩
    rw [List.map_cons, List.map_cons, Agree.spanned h5, commaSep_agree ?_ hc h6]
    rintro x l ⟨ty, v, k, e, rfl⟩ hl
    split_agree hl
    exact Agree.spanned hl.2.2.2.2
  | phi hc =>
    split_agree ha
    refine ⟨Agree.spanned ha.1, ?_, dbg_agree ha.2.2⟩
    rw [commaSep_agree ?_ hc ha.2.1]
    rintro x l ⟨o, c, vs, e, _, rfl⟩ hl
    split_agree hl
    exact Agree.spanned hl.2.1
  | other =>
    split_agree ha
    exact ⟨Agree.spanned ha.1, rfl, dbg_agree ha.2.2⟩

theorem hull_agree {l : List Tok} {t u : Tok} (h1 : l.head? = some t) (h2 : l.getLast? = some u) (ht : t.1 ≠ .newline) (hu : u.1 ≠ .newline)
    (ha : Agree F G l) : F.span (hull l) = G.span (hull l) := by
  unfold hull Move.span
  rw [h1, h2]
  simp only [(ha _ (List.mem_of_head? h1) ht).1, (ha _ (List.mem_of_getLast? h2) hu).2]

/-- The last token, if there is one, is no line end. -/
def EndsWell (l : List Tok) : Prop := ∀ u, l.getLast? = some u → u.1 ≠ .newline

theorem EndsWell.append {a b : List Tok} (ha : EndsWell a) (hb : EndsWell b) : EndsWell (a ++ b) := by
  intro u hu
  rw [List.getLast?_append] at hu
  cases hl : b.getLast? with
  | none => rw [hl] at hu; exact ha u (by simpa using hu)
  | some v =>
    rw [hl] at hu
    simp only [Option.some_or, Option.some.injEq] at hu
    exact hb u (hu ▸ hl)

theorem EndsWell.oneLine {l : List Tok} (h : OneLine l) : EndsWell l := fun u hu => h u (List.mem_of_getLast? hu)

theorem endsWell_dbg {d : Option (Spanned Str)} : EndsWell (dbgToks d) := by
  cases d with
  | none => intro u hu; cases hu
  | some d => intro u hu; cases hu; simp [dbgTok]

theorem endsWell_commaSep {α : Type} {P : α → List Tok → Prop} (hp : ∀ x l, P x l → EndsWell l) {xs l} (h : CommaSep P xs l) : EndsWell l := by
  induction h with
  | nil => intro u hu; cases hu
  | one h => exact hp _ _ h
  | cons h _ ih =>
    rename_i sp _ _ l' _
    rw [show ∀ a : List Tok, a ++ (Token.punct ',', sp) :: l' = (a ++ [(Token.punct ',', sp)]) ++ l' by intro a; simp]
    refine EndsWell.append ?_ ih
    intro u hu
    rw [List.getLast?_concat] at hu
    cases hu
    simp

theorem bodyForm_ends {m ts d l} (h : BodyForm m ts d l) : ∃ t, l.head? = some t ∧ t.1 ≠ .newline ∧ EndsWell l := by
  cases h with
  | br => exact ⟨_, rfl, by simp, .append (by intro u hu; cases hu; simp [identTok]) endsWell_dbg⟩
  | condBr => exact ⟨_, rfl, by simp, .append (by intro u hu; cases hu; simp [identTok]) endsWell_dbg⟩
  | overflowBr =>
    refine ⟨_, rfl, by simp [identTok], .append ?_ endsWell_dbg⟩
    intro u hu
    rw [List.getLast?_append] at hu
    cases hu
    simp [identTok]
  | switch _ hc =>
    refine ⟨_, rfl, by simp, .append (.append ?_ (endsWell_commaSep ?_ hc)) endsWell_dbg⟩
    · intro u hu
      rw [List.getLast?_append] at hu
      cases hu
      simp
    · rintro x l ⟨ty, v, k, e, rfl⟩ u hu
      cases hu
      simp [identTok]
  | phi hc =>
    refine ⟨_, rfl, by simp, .append ?_ endsWell_dbg⟩
    refine EndsWell.append (a := [_]) (by intro u hu; cases hu; simp) (endsWell_commaSep ?_ hc)
    rintro x l ⟨o, c, vs, e, _, rfl⟩ u hu
    rw [List.getLast?_append] at hu
    cases hu
    simp
  | other ho =>
    refine ⟨_, rfl, by simp [identTok], .append ?_ endsWell_dbg⟩
    exact EndsWell.append (a := [_]) (by intro u hu; cases hu; simp [identTok]) (.oneLine fun t ht => (ho t ht).1)

theorem instrG_ends {i : Instruction} {l : List Tok} (h : InstrG i l) : ∃ t u, l.head? = some t ∧ l.getLast? = some u ∧ t.1 ≠ .newline ∧
    u.1 ≠ .newline := by
  obtain ⟨asg, body, h1, h2, rfl, _⟩ := h
  obtain ⟨t, k1, k2, k3⟩ := bodyForm_ends h2
  have hb : body ≠ [] := by rintro rfl; cases k1
  obtain ⟨u, hu⟩ : ∃ u, body.getLast? = some u := ⟨_, List.getLast?_eq_some_getLast hb⟩
  have hl : (asg ++ body).getLast? = some u := by rw [List.getLast?_append, hu]; rfl
  generalize i.assignmentTarget = at' at h1
  cases h1 with
  | none => exact ⟨t, u, k1, hu, k2, k3 u hu⟩
  | some => exact ⟨_, u, rfl, hl, by simp [typeTok], k3 u hu⟩

theorem instr_agree {i : Instruction} {l : List Tok} (h : InstrG i l) (ha : Agree F G l) : F.instr i = G.instr i := by
  obtain ⟨t, u, e1, e2, e3, e4⟩ := instrG_ends h
  obtain ⟨asg, body, h1, h2, rfl, h4⟩ := h
  have hs := hull_agree e1 e2 e3 e4 ha
  rw [Agree.append] at ha
  obtain ⟨k1, k2, k3⟩ := bodyForm_agree h2 ha.2
  unfold Move.instr
  rw [k1, k2, k3, h4, hs]
  have : i.assignmentTarget.map F.spanned = i.assignmentTarget.map G.spanned := by
    have ha1 := ha.1
    generalize i.assignmentTarget = at' at h1
    cases h1 with
    | none => rfl
    | some =>
      split_agree ha1
      simp only [Option.map_some, Agree.spanned ha1.2.1]
  rw [this]

theorem instrs_agree {is : List Instruction} {l : List Tok} (h : InstrsG is l) (ha : Agree F G l) :
    ∀ i ∈ is, F.instr i = G.instr i := by
  induction h with
  | nil => intro i hi; cases hi
  | cons _ h1 _ _ _ ih =>
    split_agree ha
    intro i hi
    rcases List.mem_cons.mp hi with rfl | hi
    · exact instr_agree h1 ha.2.1
    · exact ih ha.2.2.2 i hi

theorem instr_span_agree {i : Instruction} (h : F.instr i = G.instr i) : F.fs i.span.start = G.fs i.span.start ∧
    F.fe i.span.stop = G.fe i.span.stop := by
  have := congrArg Instruction.span h
  simpa [Move.instr, Move.span] using this

theorem block_agree {b : BasicBlock} {l : List Tok} (h : BlockG b l) (ha : Agree F G l) : F.block b = G.block b := by
  obtain ⟨label, comma, nls, is, _, _, h3, rfl, h5, h6, h7⟩ := h
  split_agree ha
  obtain ⟨k1, k2, _, k3⟩ := ha
  have hi := instrs_agree h3 k3
  unfold Move.block
  rw [h5, h6, List.map_congr_left hi]
  simp only [Option.map_some, Agree.spanned (F := F) (G := G) (x := label) k1]
  have k2' : F.span comma = G.span comma := k2
  rw [k2']
  have hsp : F.span b.span = G.span b.span := by
    rw [h7]
    have k1' : F.span label.2 = G.span label.2 := k1
    simp only [Move.span, Span.mk.injEq] at k1' ⊢
    refine ⟨k1'.1, ?_⟩
    cases hl : b.instructions.getLast? with
    | none => exact k1'.2
    | some i => exact (instr_span_agree (hi i (List.mem_of_getLast? hl))).2
  rw [hsp]

theorem firstBlock_agree {b : BasicBlock} {l : List Tok} (h : FirstBlockG b l) (ha : Agree F G l) : F.block b = G.block b := by
  obtain ⟨f, la, h1, h2, h3, h5, h6, h7⟩ := h
  have hi := instrs_agree h1 ha
  unfold Move.block
  rw [h5, h6, List.map_congr_left hi]
  have hsp : F.span b.span = G.span b.span := by
    rw [h7]
    simp only [Move.span, Span.mk.injEq]
    exact ⟨(instr_span_agree (hi f (List.mem_of_head? h2))).1, (instr_span_agree (hi la (List.mem_of_getLast? h3))).2⟩
  rw [hsp]
  rfl

theorem blocks_agree {bs : List BasicBlock} {l : List Tok} (h : BlocksG bs l) (ha : Agree F G l) : bs.map F.block = bs.map G.block := by
  induction h with
  | nil => rfl
  | cons h1 _ ih =>
    rw [Agree.append] at ha
    rw [List.map_cons, List.map_cons, block_agree h1 ha.1, ih ha.2]

theorem stmt_agree {s : Statement} {l : List Tok} (h : StmtG s l) (ha : Agree F G l) : F.stmt s = G.stmt s := by
  cases h with
  | globalVar ho =>
    split_agree ha
    simp only [Move.stmt, Agree.spanned ha.1, Agree.map ha.2.2 ho]
  | funcDecl hs =>
    split_agree ha
    simp only [Move.stmt, sig_agree hs ha.2.1, dbg_agree ha.2.2, Option.map_none]
  | funcDeclAddr hs =>
    split_agree ha
    obtain ⟨_, h1, _, h2, h3⟩ := ha
    simp only [Move.stmt, sig_agree hs h1, dbg_agree h3, Option.map_some, Agree.spanned h2]
  | funcDef hs hb =>
    obtain ⟨nls, bl, _, _, h3, rfl⟩ := hb
    split_agree ha
    obtain ⟨k1, k2, k3, _, k4, k5⟩ := ha
    simp only [Move.stmt, k1, sig_agree hs k2, Move.body, k3, k5]
    have : ∀ bs : List BasicBlock, AllBlocksG bs bl → bs.map F.block = bs.map G.block := by
      intro bs h
      cases h with
      | labelled h => exact blocks_agree h k4
      | unlabelled h1 h2 =>
        rw [Agree.append] at k4
        rw [List.map_cons, List.map_cons, firstBlock_agree h1 k4.1, blocks_agree h2 k4.2]
    rw [this _ h3]
  | funcDependencies hd =>
    split_agree ha
    simp only [Move.stmt, Agree.spanned ha.1]
    rw [commaSep_agree ?_ hd ha.2.2.2]
    rintro x l rfl hl
    split_agree hl
    exact Agree.spanned hl
  | dbgAnnotation ho =>
    split_agree ha
    simp only [Move.stmt, Agree.spanned ha.1, Agree.map ha.2.2 ho]

theorem docSkip_agree {ss : List Statement} {l : List Tok} (h : DocSkipG ss l) (ha : Agree F G l) : ss.map F.stmt = ss.map G.stmt := by
  induction h with
  | nil => rfl
  | cons _ h1 _ _ ih =>
    split_agree ha
    rw [List.map_cons, List.map_cons, stmt_agree h1 ha.2.2.1, ih ha.2.2.2.2]

/-- Everything moves by the same number of characters. -/
def down (k : Nat) : Move := { fs := (· + k), fe := (· + k) }

theorem down_stmt (k : Nat) (s : Statement) : (down k).stmt s = movedStmt k s := by
  cases s <;> rfl

end

/-! ### The result for two texts -/

section
variable [Unicode]

theorem lexes_nil {o : Nat} {ts} (h : Lexes o [] ts) : ts = [] := by
  generalize hz : ([] : Str) = z at h
  cases h with
  | done => rfl
  | tok _ h2 =>
    simp only [List.nil_eq, List.append_eq_nil_iff] at hz
    exact absurd hz.1.2 (spells_ne_nil h2.1)

theorem lexes_last {o : Nat} {A : Str} {ts} (h : Lexes o A ts) : ∀ {l}, A = l ++ ['\n'] → ∃ l n, ts = l ++ [(.newline, n)] := by
  induction h with
  | done hb =>
    rintro l rfl
    rcases hb '\n' (by simp) with h | h <;> exact absurd h (by decide)
  | @tok o b t w rest ts' hb hl hr ih =>
    intro l hA
    by_cases hrest : rest = []
    · subst hrest
      rw [List.append_nil] at hA
      obtain ⟨l', rfl⟩ := endsWith_append hA (spells_ne_nil hl.1)
      rcases spells_lf (u := []) hl.1 with ⟨rfl, _⟩ | ⟨v, rfl⟩
      · cases lexes_nil hr
        exact ⟨[], _, rfl⟩
      · obtain ⟨hw, _⟩ := spells_str hl.1
        have := (List.append_inj' hw rfl).2
        cases this
    · obtain ⟨l', hl'⟩ := endsWith_append hA hrest
      obtain ⟨l2, n, rfl⟩ := ih hl'
      exact ⟨_ :: l2, n, rfl⟩

theorem tokenize_append {A B : Str} {tsA tsB es} (hA : tokenize A = .ok (some tsA, [])) (hend : A = [] ∨ ∃ l, A = l ++ ['\n'])
    (hB : tokenize B = .ok (some tsB, es)) :
    tokenize (A ++ B) = .ok (some (tsA ++ tsB.map (moved A.length)), es.map (down A.length).err) := by
  rw [tokenize_some_iff] at hB ⊢
  refine many_paddedToken_append (lexesErr_lexes (tokenize_sound hA) rfl) hend ?_
  have := many_natural (F := down A.length) paddedToken_natural hB
  rw [Nat.zero_add]
  rw [← charStream_move (k := A.length) (fun i _ _ => ⟨rfl, rfl⟩), Nat.zero_add] at this
  have e : (down A.length).span ⟨B.length, B.length⟩ = ⟨(A ++ B).length, (A ++ B).length⟩ := by
    simp only [down, Move.span, List.length_append, Span.mk.injEq]
    omega
  rw [e] at this
  exact this

omit [Unicode] in
theorem chars_le_bytes : ∀ s : Str, s.length ≤ utf8Len s
  | [] => Nat.le_refl _
  | c :: s => by
    have := chars_le_bytes s
    have h : 1 ≤ c.utf8Size := Char.utf8Size_pos c
    simp only [utf8Len, List.length_cons] at *
    omega

/-- Moves the positions of the tokens of `B` by `A.length`, and its end of input by the bytes of `A`. -/
def downParser (A B : Str) : Move :=
  { fs := fun x => if x < utf8Len B then x + A.length else x + utf8Len A
    fe := fun x => if x ≤ utf8Len B then x + A.length else x + utf8Len A }

omit [Unicode] in
theorem toSErr_move (A B : Str) {τ : Type} {f : τ → Str} (e : LErr τ) :
    MovedErr A B (e.toSErr f) (((downParser A B).err e).toSErr f) := by
  refine ⟨rfl, rfl, rfl, ?_, ?_⟩ <;> simp only [LErr.toSErr, Move.err, Move.span, downParser]
  · split
    · exact .inl rfl
    · exact .inr ⟨by omega, rfl⟩
  · split
    · exact .inl rfl
    · exact .inr ⟨by omega, rfl⟩

omit [Unicode] in
theorem toSErr_down (A B : Str) {τ : Type} {f : τ → Str} (e : LErr τ) :
    MovedErr A B (e.toSErr f) (((down A.length).err e).toSErr f) := ⟨rfl, rfl, rfl, .inl rfl, .inl rfl⟩

omit [Unicode] in
theorem utf8Len_app : ∀ a b : Str, utf8Len (a ++ b) = utf8Len a + utf8Len b
  | [], b => by simp [utf8Len]
  | c :: a, b => by simp only [List.cons_append, utf8Len, utf8Len_app a b]; omega

/-- The tokens of `B`, read behind `A`. -/
theorem many_docItem_down {A B : Str} {tsB es ss te} (hB : tokenize B = .ok (some tsB, te))
    (h : Many docItem ⟨utf8Len B, utf8Len B + 1⟩ (tsB.filter fun t => decide (t.1 ≠ Token.comment)) es ss []) :
    Many docItem ⟨utf8Len (A ++ B), utf8Len (A ++ B) + 1⟩ ((tsB.map (moved A.length)).filter fun t => decide (t.1 ≠ Token.comment))
      (es.map (downParser A B).err) (ss.map (movedStmt A.length)) [] := by
  have hin : ∀ t ∈ tsB, t.2.start < utf8Len B ∧ t.2.stop ≤ utf8Len B := by
    intro t ht
    have h1 := (lexesErr_spans (tokenize_sound hB)).1 t ht
    have h2 := chars_le_bytes B
    omega
  have hag : Agree (downParser A B) (down A.length) tsB := by
    intro t ht _
    have := hin t ht
    simp only [downParser, down, if_pos this.1, if_pos this.2, and_self]
  have hm := many_natural (F := downParser A B) docItem_natural h
  obtain ⟨l, hl, h3⟩ := many_docItem_sound h
  rw [List.append_nil] at h3
  subst h3
  have hs : (downParser A B).span ⟨utf8Len B, utf8Len B + 1⟩ = ⟨utf8Len (A ++ B), utf8Len (A ++ B) + 1⟩ := by
    simp only [Move.span, downParser, utf8Len_app, Span.mk.injEq]
    rw [if_neg (by omega), if_neg (by omega)]
    omega
  rw [hs, docSkip_agree hl (hag.sub fun t ht => (List.mem_filter.mp ht).1)] at hm
  have ht : (downParser A B).toks (tsB.filter fun t => decide (t.1 ≠ Token.comment)) =
      (tsB.map (moved A.length)).filter fun t => decide (t.1 ≠ Token.comment) := by
    rw [List.filter_map]
    refine List.map_congr_left fun t ht => Agree.spanned (G := down A.length) ?_
    have := hin t (List.mem_filter.mp ht).1
    simp only [Move.span, downParser, down, if_pos this.1, if_pos this.2]
  rw [ht] at hm
  have hst : ss.map (down A.length).stmt = ss.map (movedStmt A.length) := List.map_congr_left fun s _ => down_stmt _ s
  rw [hst] at hm
  exact hm

/-! ### Lines without statements -/

theorem longest_lf {w rest : Str} (hw : Spells .newline w) : Longest .newline w rest := by
  have h : Longest .newline w [] := by
    refine ⟨hw, ?_⟩
    intro t' w' r' _ he
    have := congrArg List.length he
    simp only [List.length_append, List.length_nil] at this
    omega
  have he : ∃ l, w ++ [] = l ++ ['\n'] := by
    cases hw with
    | lf => exact ⟨[], rfl⟩
    | crlf => exact ⟨['\r'], rfl⟩
  obtain ⟨l, he⟩ := he
  exact longest_continue (rest := []) h he

theorem commentLines_lexes {A : Str} (h : CommentLines A) : ∀ o, ∃ ts, Lexes o A ts ∧
    (∀ t ∈ ts, t.1 = .newline ∨ t.1 = .comment) ∧ (A = [] ∨ (∃ l, A = l ++ ['\n'])) := by
  have aux : ∀ {x l : Str}, (l = [] ∨ ∃ l', l = l' ++ ['\n']) → ∃ l', x ++ '\n' :: l = l' ++ ['\n'] := by
    intro x l h
    rcases h with rfl | ⟨l', rfl⟩
    · exact ⟨x, rfl⟩
    · exact ⟨x ++ '\n' :: l', by simp⟩
  induction h with
  | nil => intro o; exact ⟨[], .done (by intro c hc; cases hc), by simp, .inl rfl⟩
  | @blank b l hb _ ih =>
    intro o
    obtain ⟨ts, h1, h2, h3⟩ := ih (o + b.length + ['\n'].length)
    have := Lexes.tok (o := o) hb (longest_lf (rest := l) .lf) h1
    refine ⟨_, by simpa using this, ?_, .inr (aux h3)⟩
    intro t ht
    rcases List.mem_cons.mp ht with rfl | ht
    · exact .inl rfl
    · exact h2 t ht
  | @blankCr b l hb _ ih =>
    intro o
    obtain ⟨ts, h1, h2, h3⟩ := ih (o + b.length + ['\r', '\n'].length)
    have := Lexes.tok (o := o) hb (longest_lf (rest := l) .crlf) h1
    refine ⟨_, by simpa using this, ?_, .inr ?_⟩
    · intro t ht
      rcases List.mem_cons.mp ht with rfl | ht
      · exact .inl rfl
      · exact h2 t ht
    · obtain ⟨l', h⟩ := aux (x := b ++ ['\r']) h3
      exact ⟨l', by simpa using h⟩
  | @comment b c l hb hc _ ih =>
    intro o
    obtain ⟨ts, h1, h2, h3⟩ := ih (o + b.length + ('#' :: c).length + ([] : Str).length + ['\n'].length)
    have h4 := Lexes.tok (o := o + b.length + ('#' :: c).length) (b := []) (by intro c hc; cases hc) (longest_lf (rest := l) .lf) h1
    have := Lexes.tok (o := o) hb (longest_comment (v := c) (rest := '\n' :: l) hc (by intro c cs h; cases h; rfl)) (by simpa using h4)
    refine ⟨_, by simpa using this, ?_, .inr (aux h3)⟩
    intro t ht
    rcases List.mem_cons.mp ht with rfl | ht
    · exact .inr rfl
    rcases List.mem_cons.mp ht with rfl | ht
    · exact .inl rfl
    · exact h2 t ht

end

end HyperIR
