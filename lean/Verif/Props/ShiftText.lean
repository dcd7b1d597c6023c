import Verif.Proofs.RenameMany
import Verif.Props.Shift
import Verif.Props.RenameBack

/-! C66 and C67: the document after a shift, and shifting back. -/

namespace HyperIR
open Spec

section
variable [Unicode] {env : Env} {st : ServerState} {uri text : Str} {res : ParserResult}

theorem shifts_one {start : Nat} {k : Int} {n v v' : Str} (h : Shifts start k n v) (h' : Shifts start k n v') : v = v' := by
  obtain ⟨pre, nr, w, m, h1, _, h3, h4, rfl⟩ := h
  obtain ⟨pre', nr', w', m', h1', _, h3', h4', rfl⟩ := h'
  obtain ⟨rfl, rfl⟩ := numbered_unique h1 h1'
  have : m = m' := by omega
  subst this
  rw [canonical_unique h4 h4']

omit [Unicode] in
theorem digit_last {pre w : Str} {n : Nat} (h : Denotes w n) : ∃ c, (pre ++ w).getLast? = some c ∧ Digit c := by
  have hne := denotes_ne_nil h
  refine ⟨w.getLast hne, ?_, denotes_digits h _ (List.getLast_mem hne)⟩
  rw [getLast?_append_ne hne, List.getLast?_eq_some_getLast hne]

omit [Unicode] in
theorem digits_notKeyword {pre w : Str} {n : Nat} (h : Denotes w n) : NotKeyword (pre ++ w) := by
  obtain ⟨c, hc, hd⟩ := digit_last (pre := pre) h
  constructor
  · intro hm
    have : ∀ x ∈ instrWords, ∀ c, x.getLast? = some c → ¬ Digit c := by
      intro x hx c hc hd
      rw [digit_iff] at hd
      revert c
      revert x
      decide
    exact this _ hm c hc hd
  · cases hb : endsWith (pre ++ w) c!"br" with
    | false => rfl
    | true =>
      obtain ⟨u, hu⟩ := isBr_iff.mpr hb
      rw [hu] at hc
      simp at hc
      subst hc
      rw [digit_iff] at hd
      cases hd

/-- New names are read as names. -/
theorem shifts_spells {k : SymbolKind} {n new : Str} {start : Nat} {d : Int} (hs : Spells (nameToken k n) n) (h : Shifts start d n new)
    (hkw : k = .label → new ∉ keywordTypes) : Spells (nameToken k new) new := by
  obtain ⟨pre, nr, w, m, ⟨ds, rfl, hd, _⟩, _, _, ⟨hw, _⟩, rfl⟩ := h
  have hdig := denotes_digits hd
  have hwdig : ∀ c ∈ w, NameChar c := fun c hc => .inl (by
    unfold Unicode.alphanumeric
    rw [numeric_of_digit (denotes_digits hw c hc), Bool.or_true])
  obtain ⟨lc, hlc, hld⟩ := digit_last (pre := pre) hw
  have hcolon : (pre ++ w).getLast? ≠ some ':' := by
    rw [hlc]
    intro e
    cases e
    rw [digit_iff] at hld
    cases hld
  -- the sigil belongs to the prefix
  have sig : ∀ {c : Char} {tl : Str}, ¬ Digit c → pre ++ ds = c :: tl → NameTail tl → ∃ p, pre = c :: p ∧ NameTail (p ++ w) := by
    intro c tl hc he ht
    cases pre with
    | nil =>
      rw [List.nil_append] at he
      exact absurd (hdig c (by rw [he]; simp)) hc
    | cons x p =>
      rw [List.cons_append] at he
      obtain ⟨rfl, rfl⟩ := List.cons.inj he
      refine ⟨p, rfl, ?_, ?_⟩
      · intro c hc
        rcases List.mem_append.mp hc with hc | hc
        · exact ht.1 c (by simp [hc])
        · exact .inl (hwdig c hc)
      · have hne := denotes_ne_nil hw
        rw [List.cons_append, List.getLast?_cons_of_ne_nil (by simp [hne])] at hcolon
        exact hcolon
  have nd : ∀ c ∈ ['@', '%', '!'], ¬ Digit c := by
    intro c hc hd
    rw [digit_iff] at hd
    revert c
    decide
  generalize hn : pre ++ ds = n at hs
  generalize ht : nameToken k n = t at hs
  cases hs <;> cases k <;> simp only [nameToken, reduceCtorEq] at ht
  case globalName.globalVar hw' =>
    obtain ⟨p, rfl, hp⟩ := sig (nd _ (by simp)) hn hw'
    exact .globalName hp
  case globalName.function hw' =>
    obtain ⟨p, rfl, hp⟩ := sig (nd _ (by simp)) hn hw'
    exact .globalName hp
  case localName.localVar hw' =>
    obtain ⟨p, rfl, hp⟩ := sig (nd _ (by simp)) hn hw'
    exact .localName hp
  case debugRef.dbgAnnotation hw' =>
    obtain ⟨p, rfl, hp⟩ := sig (nd _ (by simp)) hn hw'
    exact .debugRef hp
  case ident.label h1 h2 h3 h4 h5 =>
    obtain ⟨c, tl, e, hc, htl⟩ := h1
    obtain ⟨p, rfl, hp⟩ := sig (by
      intro hd
      refine digit_not_head hd hc) (hn.trans e) htl
    have key : ∀ x ∈ c!"declare" :: c!"define" :: keywordModifiers, ∀ c, x.getLast? = some c → ¬ Digit c := by
      intro x hx c hc hd
      rw [digit_iff] at hd
      revert c
      revert x
      decide
    exact .ident ⟨c, p ++ w, rfl, hc, hp⟩ (fun e => key c!"declare" (by simp) lc (by rw [← e]; exact hlc) hld)
      (fun e => key c!"define" (by simp) lc (by rw [← e]; exact hlc) hld) (fun hm => key _ (List.mem_cons_of_mem _ (List.mem_cons_of_mem _ hm)) lc hlc hld) (hkw rfl)

/-- The renames of a shift. -/
theorem shift_plan (h : parseFromStr text = .ok res)
    {o : SymbolOccurrence} {start : Nat} {k : Int} (hsafe : ShiftSafe res o start k) : Plan res (Shifted o start k) where
  one _ _ _ h1 h2 := shifts_one h1.2 h2.2
  symbol := by
    rintro o1 o2 v ⟨h1, h2, h3⟩ ⟨h4, h5⟩
    refine ⟨⟨h1.symm.trans h4.1, h2.symm.trans h4.2⟩, ?_⟩
    rw [← h3]
    exact h5
  clear := hsafe.clear
  spells := by
    intro o1 v h1 h2
    exact shifts_spells (occurs_spells h h1) h2.2 (fun hk => hsafe.keyword (h2.1.1.symm.trans hk) o1 v h1 h2)
  bare := hsafe.bare

/-- Names with a number are no words of instructions. -/
theorem shift_words {o : SymbolOccurrence} {start : Nat} {k : Int} (o1 : SymbolOccurrence) (v : Str) (_ : Occurs res.tokens res.stmts o1) (hv : Shifted o start k o1 v)
    (_ : o1.symbolKind = .label) : NotKeyword o1.name ∧ NotKeyword v := by
  obtain ⟨_, pre, nr, w, m, ⟨ds, e, hd, _⟩, _, _, ⟨hw, _⟩, rfl⟩ := hv
  rw [e]
  exact ⟨digits_notKeyword hd, digits_notKeyword hw⟩

theorem shifted_cases {o : SymbolOccurrence} {start : Nat} {k : Int} (hsafe : ShiftSafe res o start k) {o1 : SymbolOccurrence}
    (ho1 : Occurs res.tokens res.stmts o1) (hs : SameScope o1 o) (hno : ∀ v, ¬ Shifted o start k o1 v) {pre : Str} {nr : Nat}
    (hn : Numbered o1.name pre nr) : nr < start ∧ (nr : Int) < start + k := by
  have h1 : nr < start := by
    rcases Nat.lt_or_ge nr start with hlt | hge
    · exact hlt
    · have hf := hsafe.fits o1 pre nr ho1 hs hn hge
      exact absurd ⟨hs, pre, nr, _, (nr + k).toNat, hn, hge, by omega, showNat_canonical _, rfl⟩ (hno (pre ++ showNat (nr + k).toNat))
  refine ⟨h1, ?_⟩
  rcases Int.lt_or_le nr (start + k) with hlt | hge
  · exact hlt
  · have := hsafe.gap o1 pre nr ho1 hs hn hge
    omega

/-- Different symbols keep different names. -/
theorem shift_separate (h : parseFromStr text = .ok res) {ix : HIRIndex} (hix : createIndex text res.tokens res.stmts = .ok ix)
    {o : SymbolOccurrence} {start : Nat} {k : Int} (hsafe : ShiftSafe res o start k) {hR : Plan res (Shifted o start k)} {f : Nat → Nat} :
    Separate res (renM hR f) := by
  -- shifted names have the shifted numbers
  have num : ∀ {o1 v}, Occurs res.tokens res.stmts o1 → Shifted o start k o1 v →
      ∃ (pre : Str) (nr m : Nat), Numbered o1.name pre nr ∧ start ≤ nr ∧ (m : Int) = nr + k ∧ Numbered v pre m := by
    intro o1 v h1 h2
    exact shifts_numbered h2.2 (fun pre nr a b => (hsafe.fits o1 pre nr h1 h2.1 a b).2)
  -- one is shifted and the other one is not
  have mixed : ∀ {o1 o2 v}, Occurs res.tokens res.stmts o1 → Occurs res.tokens res.stmts o2 → o1.funcBodyId = o2.funcBodyId → Shifted o start k o1 v →
      (∀ v, ¬ Shifted o start k o2 v) → v ≠ o2.name := by
    intro o1 o2 v h1 h2 hb hs hno e
    have hk := hsafe.other o1 v h1 hs o2 h2 e.symm
    have hs2 : SameScope o2 o := ⟨hk, hb.symm.trans hs.1.2⟩
    obtain ⟨pre, nr, m, _, a2, a3, a4⟩ := num h1 hs
    rw [e] at a4
    have := (shifted_cases hsafe h2 hs2 hno a4).2
    omega
  intro o1 o2 h1 h2 _ hb he
  rcases renM_name (hR := hR) (f := f) h hix h1 with a | ⟨a, a'⟩
  · rcases renM_name (hR := hR) (f := f) h hix h2 with b | ⟨b, b'⟩
    · rw [he] at a
      obtain ⟨p1, n1, m1, c1, _, c3, c4⟩ := num h1 a
      obtain ⟨p2, n2, m2, d1, _, d3, d4⟩ := num h2 b
      obtain ⟨rfl, rfl⟩ := numbered_unique c4 d4
      have : n1 = n2 := by omega
      subst this
      obtain ⟨w, hw, hcw⟩ := hsafe.canonical o1 _ _ h1 a.1 c1
      obtain ⟨w', hw', hcw'⟩ := hsafe.canonical o2 _ _ h2 b.1 d1
      rw [hw, hw', canonical_unique hcw hcw']
    · rw [b'] at he
      exact absurd he (mixed h1 h2 hb a b)
  · rcases renM_name (hR := hR) (f := f) h hix h2 with b | ⟨b, b'⟩
    · rw [a'] at he
      exact absurd he.symm (mixed h2 h1 hb.symm b a)
    · rw [a', b'] at he
      exact he

/-- Everything about the document after a shift. -/
theorem shift_core (hopen : Opened st uri text) (h : parseFromStr text = .ok res) (hsize : text.length < 2 ^ 32)
    {toks : List (Spanned Token)} {errs : List (LErr Char)} (ht : tokenize text = .ok (some toks, errs)) {o : SymbolOccurrence} (ho : Occurs res.tokens res.stmts o) (hp : PlainScope text res o)
    {start : Nat} {k : Int} (hR : Plan res (Shifted o start k)) {edits : List TextEdit} (hed : ShiftEdits text res o start k edits) :
    ∃ ix text' errs' f res', createIndex text res.tokens res.stmts = .ok ix ∧ Applied text edits text' ∧ (∀ t, Applied text edits t → t = text') ∧
      (∀ q, PlainTo text q → PlainTo text' (f q)) ∧ tokenize text' = .ok (some (toks.map (renM hR f).tok), errs') ∧ parseFromStr text' = .ok res' ∧
      res'.tokens = res.tokens.map (renM hR f).tok ∧ res'.stmts = res.stmts.map (renM hR f).stmt ∧
      Replaced 0 text' (backChanges (renBy res (Shifted o start k)) f toks) text ∧ Carried (renM hR f) text text' res res' := by
  obtain ⟨doc, _, ha, _⟩ := hopen
  obtain ⟨res0, e1, _, _, _, _, hix⟩ := analyze_inv ha
  rw [h] at e1
  cases e1
  have hts := parsed_tokens h ht
  obtain ⟨changes, r1, r2, r3⟩ := hed
  obtain ⟨text', errs', j1, j2, ht', hm, j4, j5⟩ := renames_applied hR h hix ht (fun o' _ k1 k2 => hp o' k1 k2.1) hsize r1 r2 (fun o' v => by rw [r3]; rfl)
  have hp' : ∀ t ∈ toks, ∀ v, renBy res (Shifted o start k) t = some v → PlainTo text t.2.stop ∧ Plain v := by
    intro t _ v hv
    obtain ⟨o1, k1, ⟨k2, pre, nr, w, m, ⟨ds, e, _⟩, _, _, ⟨hw, _⟩, rfl⟩, rfl⟩ := renBy_some hv
    refine ⟨hp o1 k1 k2, ?_⟩
    intro c hc
    rcases List.mem_append.mp hc with hc | hc
    · exact hp o1 k1 k2 c (occurs_chars h k1 c (by rw [e]; simp [hc]))
    · have := digit_range (denotes_digits hw c hc)
      omega
  obtain ⟨res', p1, p2⟩ := renames_parse (G := renM hR (movePos 0 0 (renChanges (renBy res (Shifted o start k)) toks))) h ht hp' j4 rfl (by
    intro c hc
    obtain ⟨t, htm, he⟩ := List.mem_filterMap.mp hc
    obtain ⟨v, hv, rfl⟩ := Option.map_eq_some_iff.mp he
    exact ⟨t, htm, v, hv, rfl⟩) (fun t htm v hv => List.mem_filterMap.mpr ⟨t, htm, by
      have hv' : renBy res (Shifted o start k) t = some v := hv
      rw [hv']
      rfl⟩) (fun t htm v hv => renBy_bare hR hv) (fun _ _ _ _ hv => renBy_label hv) ht' hm
  exact ⟨_, text', errs', movePos 0 0 (renChanges (renBy res (Shifted o start k)) toks), res', hix, j1, j2, p2.plain, ht', p1, p2.tokens, p2.stmts, j5, p2⟩

/-- The occurrences after a shift. -/
theorem shift_keeps (h : parseFromStr text = .ok res) {ix : HIRIndex} (hix : createIndex text res.tokens res.stmts = .ok ix)
    {o : SymbolOccurrence} {start : Nat} {k : Int} (hsafe : ShiftSafe res o start k) {hR : Plan res (Shifted o start k)} {f : Nat → Nat}
    {text' : Str} {res' : ParserResult} (h' : parseFromStr text' = .ok res') (h7 : res'.tokens = res.tokens.map (renM hR f).tok)
    (h8 : res'.stmts = res.stmts.map (renM hR f).stmt) : Keeps res res' (Shifted o start k) (renM hR f).occ := by
  have hw := tokens_wellOrdered h'
  rw [h7] at hw
  have hsep : Separate res (renM hR f) := shift_separate h hix hsafe
  refine ⟨?_, fun _ => ⟨rfl, rfl, rfl⟩, ?_, ?_⟩
  · intro o'
    rw [h7, h8]
    exact renM_occurs h hix hsep hw
  · intro o1 ho1
    rcases renM_name (hR := hR) (f := f) h hix ho1 with a | ⟨a, a'⟩
    · exact ⟨fun v hv => hR.one _ _ _ a hv, fun hn => absurd a (hn _)⟩
    · exact ⟨fun v hv => absurd hv (a v), fun _ => a'⟩
  · intro o1 o2 ho1 ho2
    refine ⟨renM_sameSymbol h hix hsep ho1 ho2, ?_⟩
    have := (wellOrdered_order (tokens_wellOrdered h) hw (occurs_token h ho2) (occurs_token h ho1)).1
    rw [occTok_span, occTok_span] at this
    show (renM hR f).f o1.span.start < (renM hR f).f o2.span.start ↔ _
    omega

/-- The references after a shift. -/
theorem shift_references (h : parseFromStr text = .ok res) {ix : HIRIndex} (hix : createIndex text res.tokens res.stmts = .ok ix)
    {o : SymbolOccurrence} {start : Nat} {k : Int} (hsafe : ShiftSafe res o start k) {hR : Plan res (Shifted o start k)} {f : Nat → Nat}
    {text' : Str} {res' : ParserResult} (h' : parseFromStr text' = .ok res') (h7 : res'.tokens = res.tokens.map (renM hR f).tok)
    (h8 : res'.stmts = res.stmts.map (renM hR f).stmt) : ReferencesKept res (Shifted o start k) res' :=
  have hk := shift_keeps h hix hsafe h' h7 h8
  ⟨_, hk.occurs, hk.role, hk.name, hk.same⟩

/-- C66: after a shift the names of the document refer to the same things as before.  What is missing: the shifts excluded by
`ShiftSafe`, each of which can change what names refer to (`C66_refuted_…`, `C31_refuted_…`, `C30_refuted_negative`, `C32_refuted_sum`),
and documents with characters other than plain ASCII above the last name of the scope. -/
theorem C66_references_partial (hopen : Opened st uri text) (h : parseFromStr text = .ok res) (hsize : text.length < 2 ^ 32)
    {toks : List (Spanned Token)} {errs : List (LErr Char)} (ht : tokenize text = .ok (some toks, errs)) {p : Pos} {off : Nat} (hpos : LspOffset text p off)
    {o : SymbolOccurrence} (ho : Occurs res.tokens res.stmts o) (hc : Covers o.span off) (hp : PlainScope text res o) (hvis : ¬ Shadowed res.stmts o) {req : Str} {k : Int}
    (hk : ShiftBy req k) {pre : Str} {start : Nat} (hn : Numbered o.name pre start) (hsafe : ShiftSafe res o start k) :
    ∃ edits text' res', rename env st uri p req = .ok (.ok [(uri, edits)]) ∧ Applied text edits text' ∧ (∀ t, Applied text edits t → t = text') ∧
      parseFromStr text' = .ok res' ∧ res'.stmts.length = res.stmts.length ∧ ReferencesKept res (Shifted o start k) res' := by
  obtain ⟨edits, he, hed⟩ := C30_shift_partial (env := env) hopen h hsize hpos ho hc hp hvis hk hn hsafe.fits
  obtain ⟨ix, text', errs', f, res', hix, h2, h3, h4, h5, h6, h7, h8, _⟩ := shift_core hopen h hsize ht ho hp (shift_plan h hsafe) hed
  exact ⟨edits, text', res', he, h2, h3, h6, by rw [h8]; simp, shift_references h hix hsafe h6 h7 h8⟩

/-- C66 for the code action, which shifts by one. -/
theorem C66_action_partial (hopen : Opened st uri text) (h : parseFromStr text = .ok res) (hsize : text.length < 2 ^ 32)
    (heager : st.lazyResolve = false)
    {toks : List (Spanned Token)} {errs : List (LErr Char)} (ht : tokenize text = .ok (some toks, errs)) {p : Pos} {off : Nat} (hpos : LspOffset text p off)
    {o : SymbolOccurrence} (ho : Occurs res.tokens res.stmts o) (hc : Covers o.span off) (hp : PlainScope text res o) (hvis : ¬ Shadowed res.stmts o)
    {pre : Str} {start : Nat} (hn : Numbered o.name pre start) (hsafe : ShiftSafe res o start 1) :
    ∃ a edits text' res', codeAction env st uri ⟨p, p⟩ = .ok (.ok (some [a])) ∧ a.edit = some [(uri, edits)] ∧ Applied text edits text' ∧
      (∀ t, Applied text edits t → t = text') ∧ parseFromStr text' = .ok res' ∧ res'.stmts.length = res.stmts.length ∧
      ReferencesKept res (Shifted o start 1) res' := by
  obtain ⟨a, edits, he, he', hed⟩ := C30_action_partial (env := env) hopen h hsize heager hpos ho hc hp hvis hn hsafe.fits
  obtain ⟨ix, text', errs', f, res', hix, h2, h3, h4, h5, h6, h7, h8, _⟩ := shift_core hopen h hsize ht ho hp (shift_plan h hsafe) hed
  exact ⟨a, edits, text', res', he, he', h2, h3, h6, by rw [h8]; simp, shift_references h hix hsafe h6 h7 h8⟩

/-! ### C67 -/

/-- The sigil tells the sort of the name. -/
theorem nameToken_sigil {k k' : SymbolKind} {n : Str} (h : Spells (nameToken k n) n) (h' : Spells (nameToken k' n) n) :
    nameToken k [] = nameToken k' [] := by
  have nh : ∀ {c : Char} {w : Str}, c ∈ ['@', '%', '!'] → ¬ Name (c :: w) := by
    rintro c w hc ⟨d, ds, e, hd, _⟩
    obtain ⟨rfl, rfl⟩ := List.cons.inj e
    refine not_head_of ?_ ?_ hd
    · clear e hd; decide +revert
    · clear e hd; decide +revert
  generalize ht : nameToken k n = t at h
  generalize ht' : nameToken k' n = t' at h'
  cases h <;> cases k <;> simp only [nameToken, reduceCtorEq] at ht <;> cases h' <;> cases k' <;> simp only [nameToken, reduceCtorEq] at ht' ⊢ <;>
    exact absurd (by assumption) (nh (by simp))

/-- What shifting back renames. -/
theorem shift_back (h : parseFromStr text = .ok res) {ix : HIRIndex} (hix : createIndex text res.tokens res.stmts = .ok ix)
    {o : SymbolOccurrence} {start : Nat} {k : Int} (hsafe : ShiftSafe res o start k) {hR : Plan res (Shifted o start k)} {f : Nat → Nat}
    {o' : SymbolOccurrence} (hs' : SameScope o' o) {start' : Nat} (hstart : (start' : Int) = start + k) {o2 : SymbolOccurrence}
    (ho2 : Occurs res.tokens res.stmts o2) (v : Str) :
    Shifted o' start' (-k) ((renM hR f).occ o2) v ↔ (∃ w, Shifted o start k o2 w) ∧ v = o2.name := by
  have num : ∀ {v}, Shifted o start k o2 v →
      ∃ (pre : Str) (nr m : Nat), Numbered o2.name pre nr ∧ start ≤ nr ∧ (m : Int) = nr + k ∧ Numbered v pre m := by
    intro v h2
    exact shifts_numbered h2.2 (fun pre nr a b => (hsafe.fits o2 pre nr ho2 h2.1 a b).2)
  have hnm := renM_name (hR := hR) (f := f) h hix ho2
  constructor
  · rintro ⟨h1, pre', nr', w, m, h2, h3, h4, h5, rfl⟩
    have hs2 : SameScope o2 o := ⟨h1.1.trans hs'.1, h1.2.trans hs'.2⟩
    rcases hnm with a | ⟨a, a'⟩
    · refine ⟨⟨_, a⟩, ?_⟩
      obtain ⟨pre, nr, m', c1, c2, c3, c4⟩ := num a
      obtain ⟨rfl, rfl⟩ := numbered_unique c4 h2
      have : m = nr := by omega
      subst this
      obtain ⟨w0, e, hc⟩ := hsafe.canonical o2 _ _ ho2 hs2 c1
      rw [e, canonical_unique h5 hc]
    · rw [a'] at h2
      have := (shifted_cases hsafe ho2 hs2 a h2).2
      omega
  · rintro ⟨⟨w, hw⟩, rfl⟩
    rcases hnm with a | ⟨a, _⟩
    · obtain ⟨pre, nr, m', c1, c2, c3, c4⟩ := num a
      obtain ⟨w0, e, hc⟩ := hsafe.canonical o2 _ _ ho2 hw.1 c1
      exact ⟨⟨hw.1.1.trans hs'.1.symm, hw.1.2.trans hs'.2.symm⟩, pre, m', w0, nr, c4, by omega, by omega, hc, e⟩
    · exact absurd hw (a w)

/-- C67: shifting symbols by `k` and then, at any occurrence of the same symbol, by `-k` gives the original text.  What is missing: as in
C66. -/
theorem C67_back_partial (hopen : Opened st uri text) (h : parseFromStr text = .ok res) (hsize : text.length < 2 ^ 32)
    {toks : List (Spanned Token)} {errs : List (LErr Char)} (ht : tokenize text = .ok (some toks, errs)) {p : Pos} {off : Nat} (hpos : LspOffset text p off)
    {o : SymbolOccurrence} (ho : Occurs res.tokens res.stmts o) (hc : Covers o.span off) (hp : PlainScope text res o) (hvis : ¬ Shadowed res.stmts o) {req : Str} {k : Int}
    (hk : ShiftBy req k) {pre : Str} {start : Nat} (hn : Numbered o.name pre start) (hsafe : ShiftSafe res o start k) :
    ∃ edits text' res', rename env st uri p req = .ok (.ok [(uri, edits)]) ∧ Applied text edits text' ∧ (∀ t, Applied text edits t → t = text') ∧
      parseFromStr text' = .ok res' ∧
      (∃ o', Occurs res'.tokens res'.stmts o' ∧ SameScope o' o ∧ Shifts start k o.name o'.name) ∧
      ∀ (env' : Env) (st' : ServerState) (uri' : Str) (p' : Pos) (off' : Nat) (o' : SymbolOccurrence) (req' : Str),
        Opened st' uri' text' → text'.length < 2 ^ 32 → LspOffset text' p' off' → Occurs res'.tokens res'.stmts o' → Covers o'.span off' →
        SameScope o' o → Shifts start k o.name o'.name → ShiftBy req' (-k) →
        ∃ edits', rename env' st' uri' p' req' = .ok (.ok [(uri', edits')]) ∧ Applied text' edits' text ∧ ∀ t, Applied text' edits' t → t = text := by
  have hts := parsed_tokens h ht
  have hR := shift_plan h hsafe
  obtain ⟨edits, he, hed⟩ := C30_shift_partial (env := env) hopen h hsize hpos ho hc hp hvis hk hn hsafe.fits
  obtain ⟨ix, text', errs', f, res', hix, h2, h3, h4, h5, h6, h7, h8, h9⟩ := shift_core hopen h hsize ht ho hp hR hed
  have hw := tokens_wellOrdered h6
  rw [h7] at hw
  have hsep : Separate res (renM hR f) := shift_separate h hix hsafe
  have hocc : ∀ o', Occurs res'.tokens res'.stmts o' ↔ ∃ o1, Occurs res.tokens res.stmts o1 ∧ o' = (renM hR f).occ o1 := by
    intro o'
    rw [h7, h8]
    exact renM_occurs h hix hsep hw
  have hofit := hsafe.fits o pre start ho ⟨rfl, rfl⟩ hn (Nat.le_refl _)
  have hself : Shifted o start k o (pre ++ showNat (start + k).toNat) :=
    ⟨⟨rfl, rfl⟩, pre, start, _, (start + k).toNat, hn, Nat.le_refl _, by omega, showNat_canonical _, rfl⟩
  refine ⟨edits, text', res', he, h2, h3, h6, ?_, ?_⟩
  · refine ⟨_, (hocc _).mpr ⟨o, ho, rfl⟩, ⟨rfl, rfl⟩, ?_⟩
    rcases renM_name (hR := hR) (f := f) h hix ho with a | ⟨a, _⟩
    · exact a.2
    · exact absurd hself (a _)
  · intro env' st' uri' p' off' o' req' hopen' hsize' hpos' ho' hc' hs' hsh' hk'
    obtain ⟨start', hstart⟩ : ∃ start' : Nat, (start' : Int) = start + k := ⟨(start + k).toNat, by omega⟩
    have hback := fun {o2} ho2 v => shift_back (hR := hR) (f := f) (o2 := o2) h hix hsafe hs' hstart ho2 v
    -- names of shifted symbols are not ambiguous
    have hclear : ∀ o2 w, Occurs res.tokens res.stmts o2 → Shifted o start k o2 w → ¬ Ambiguous res'.stmts ((renM hR f).occ o2).name := by
      rintro o2 w ho2 hw2 ⟨⟨a, ha1, ha2, ha3⟩, b, hb1, hb2, hb3⟩
      have hx : ∀ a ∈ docOccs 0 res'.stmts, a.symbolKind = .function ∨ a.symbolKind = .globalVar → a.name = ((renM hR f).occ o2).name →
          ∃ a1 ∈ docOccs 0 res.stmts, a1.symbolKind = a.symbolKind ∧ a1.name = o2.name := by
        intro a ha hka hna
        have s1 := occurs_spells h6 (.inl ha)
        have s2 := occurs_spells h6 ((hocc _).mpr ⟨o2, ho2, rfl⟩)
        rw [← hna] at s2
        have hk12 := nameToken_sigil s1 s2
        rw [h8, docOccs_ren] at ha
        obtain ⟨a1, hm1, rfl⟩ := List.mem_map.mp ha
        refine ⟨a1, hm1, rfl, hsep a1 o2 (.inl hm1) ho2 hk12 ?_ hna⟩
        have hka1 : a1.symbolKind = .function ∨ a1.symbolKind = .globalVar := hka
        have none_of : ∀ {o : SymbolOccurrence}, Occurs res.tokens res.stmts o → o.symbolKind = .function ∨ o.symbolKind = .globalVar → o.funcBodyId = none := by
          intro o ho hk
          have := (occurs_scope h hix ho).1
          cases hb : o.funcBodyId with
          | none => rfl
          | some i =>
            rcases this.mpr ⟨i, hb⟩ with e | e <;> rcases hk with e' | e' <;> rw [e] at e' <;> cases e'
        have hk2 : o2.symbolKind = .function ∨ o2.symbolKind = .globalVar := by
          have : nameToken a1.symbolKind [] = nameToken o2.symbolKind [] := hk12
          revert this
          rcases hka1 with e | e <;> rw [e] <;> cases o2.symbolKind <;> simp [nameToken]
        rw [none_of (.inl hm1) hka1, none_of ho2 hk2]
      obtain ⟨a1, m1, e1, e2⟩ := hx a ha1 (.inl ha2) ha3
      obtain ⟨b1, m2, e3, e4⟩ := hx b hb1 (.inr hb2) hb3
      exact hsafe.clear o2 w ho2 hw2 ⟨⟨a1, m1, e1.trans ha2, e2⟩, b1, m2, e3.trans hb2, e4⟩
    obtain ⟨o1, ho1, rfl⟩ := (hocc o').mp ho'
    have hsym : SameSymbol o1 o := by
      refine (renM_sameSymbol (hR := hR) (f := f) h hix hsep ho1 ho).mp ⟨hs'.1, hs'.2, ?_⟩
      rcases renM_name (hR := hR) (f := f) h hix ho with a | ⟨a, _⟩
      · exact shifts_one hsh' a.2
      · exact absurd hself (a _)
    have hself1 : Shifted o start k o1 (pre ++ showNat (start + k).toNat) := hR.symbol _ _ _ ⟨hsym.1.symm, hsym.2.1.symm, hsym.2.2.symm⟩ hself
    have hn' : Numbered ((renM hR f).occ o1).name pre start' := by
      obtain ⟨pre1, nr1, m1, c1, _, c3, c4⟩ := shifts_numbered hsh' (fun pre nr a b => (hsafe.fits o pre nr ho ⟨rfl, rfl⟩ a b).2)
      obtain ⟨rfl, rfl⟩ := numbered_unique c1 hn
      have : m1 = start' := by omega
      subst this
      exact c4
    have hfits' : ShiftFits res' ((renM hR f).occ o1) start' (-k) := by
      intro o2' pre2 nr2 ho2' hsc hnum hge
      obtain ⟨o2, ho2, rfl⟩ := (hocc _).mp ho2'
      have hsc2 : SameScope o2 o := ⟨hsc.1.trans hs'.1, hsc.2.trans hs'.2⟩
      rcases renM_name (hR := hR) (f := f) h hix ho2 with a | ⟨a, a'⟩
      · obtain ⟨pre, nr, m', c1, c2, c3, c4⟩ := shifts_numbered a.2 (fun pre nr x y => (hsafe.fits o2 pre nr ho2 a.1 x y).2)
        obtain ⟨rfl, rfl⟩ := numbered_unique c4 hnum
        obtain ⟨_, _, _, hlt, _⟩ := c1
        omega
      · rw [a'] at hnum
        have := (shifted_cases hsafe ho2 hsc2 a hnum).2
        omega
    have hR' : Plan res' (Shifted ((renM hR f).occ o1) start' (-k)) := by
      refine ⟨fun _ _ _ h1 h2 => shifts_one h1.2 h2.2, ?_, ?_, ?_, ?_⟩
      · rintro a b v ⟨h1, h2, h3⟩ ⟨h4, h5⟩
        refine ⟨⟨h1.symm.trans h4.1, h2.symm.trans h4.2⟩, ?_⟩
        rw [← h3]
        exact h5
      · intro a v ha hv
        obtain ⟨o2, ho2, rfl⟩ := (hocc _).mp ha
        obtain ⟨⟨w, hw⟩, _⟩ := (hback ho2 v).mp hv
        exact hclear o2 w ho2 hw
      · intro a v ha hv
        obtain ⟨o2, ho2, rfl⟩ := (hocc _).mp ha
        obtain ⟨_, rfl⟩ := (hback ho2 v).mp hv
        exact occurs_spells h ho2
      · intro a v ha hv
        obtain ⟨o2, ho2, rfl⟩ := (hocc _).mp ha
        obtain ⟨⟨w, hw⟩, _⟩ := (hback ho2 v).mp hv
        exact h9.2.bare_occ h ho2 (hsafe.bare o2 w ho2 hw)
    have hp' : PlainScope text' res' ((renM hR f).occ o1) := by
      intro o2' ho2' hsc
      obtain ⟨o2, ho2, rfl⟩ := (hocc _).mp ho2'
      exact h4 _ (hp o2 ho2 ⟨hsc.1.trans hs'.1, hsc.2.trans hs'.2⟩)
    obtain ⟨edits', he', changes', r1, r2, r3⟩ := C30_shift_partial (env := env') hopen' h6 hsize' hpos' ho' hc' hp' (visible_of_clear ho' (hclear o1 _ ho1 hself1)) hk' hn' hfits'
    obtain ⟨doc, errs, ha, _⟩ := hopen'
    obtain ⟨res0, e1, _, _, _, _, hix'⟩ := analyze_inv ha
    rw [h6] at e1
    cases e1
    obtain ⟨text3, _, j1, j2, _, _, j4, _⟩ := renames_applied hR' h6 hix' h5 (fun o' _ k1 k2 => hp' o' k1 k2.1) hsize' r1 r2 (fun o' v => by rw [r3]; rfl)
    have hchg : renChanges (renBy res' (Shifted ((renM hR f).occ o1) start' (-k))) (toks.map (renM hR f).tok) = backChanges (renBy res (Shifted o start k)) f toks := by
      unfold renChanges backChanges
      rw [List.filterMap_map]
      refine filterMap_congr' ?_
      intro t htm
      have htm' : t ∈ res.tokens := by rw [hts]; exact htm
      simp only [Function.comp]
      cases hr : renBy res (Shifted o start k) t with
      | some v =>
        obtain ⟨o2, g1, g2, rfl⟩ := renBy_some hr
        have g3 : Occurs res'.tokens res'.stmts ((renM hR f).occ o2) := (hocc _).mpr ⟨o2, g1, rfl⟩
        have hof := renBy_of hR' h6 hix' g3 ((hback g1 o2.name).mpr ⟨⟨v, g2⟩, rfl⟩)
        have htok : (renM hR f).tok (nameToken o2.symbolKind o2.name, o2.span) =
            (nameToken ((renM hR f).occ o2).symbolKind ((renM hR f).occ o2).name, ((renM hR f).occ o2).span) := by
          simp only [Renaming.tok, renTok, Renaming.occ, renM, hr, Option.getD_some, (withName_nameToken o2.symbolKind o2.name v).1, Renaming.span]
        rw [htok, hof, (withName_nameToken o2.symbolKind o2.name []).2]
        rfl
      | none =>
        cases hr' : renBy res' (Shifted ((renM hR f).occ o1) start' (-k)) ((renM hR f).tok t) with
        | none => rfl
        | some v =>
          exfalso
          obtain ⟨o2', g1, g2, g3⟩ := renBy_some hr'
          obtain ⟨o2, g4, rfl⟩ := (hocc _).mp g1
          obtain ⟨⟨w, hw2⟩, _⟩ := (hback g4 v).mp g2
          have he := wellOrdered_span (tokens_wellOrdered h) hw (occurs_token h g4) htm' (by
            rw [occTok_span]
            exact congrArg Prod.snd g3)
          rw [← he, occTok_nameToken, renBy_of hR h hix g4 hw2] at hr
          cases hr
    rw [hchg] at j4
    obtain rfl := replaced_unique j4 h9.1
    exact ⟨edits', he', j1, j2⟩

end

/-! ### Examples and refutations -/

section Examples
attribute [local instance] asciiUnicode

/-- The shift of `%v1` in the example by a small number is safe. -/
theorem renText_safeBy {k : Int} (hk : 0 ≤ k) (hk' : k < 10) : ∃ res toks, parseFromStr renText = .ok res ∧ tokenize renText = .ok (some toks, []) ∧ Occurs res.tokens res.stmts paramOcc ∧
    ¬ Ambiguous res.stmts paramOcc.name ∧ Numbered paramOcc.name c!"%v" 1 ∧ ShiftSafe res paramOcc 1 k := by
  obtain ⟨res, h, ho, hamb, hfits, hcanon⟩ := renText_factsBy hk hk'
  have key : (match parseFromStr renText, tokenize renText with
    | .ok res, .ok (some _, []) => (allOccs res.tokens res.stmts).all fun o => !(decide (o.name.head? = some '%')) || decide (o.symbolKind = .localVar)
    | _, _ => false) = true := by decide +kernel
  rw [h] at key
  generalize h' : tokenize renText = r' at key
  split at key
  · rename_i res' toks hr
    cases hr
    have kind : ∀ o', Occurs res.tokens res.stmts o' → o'.name.head? = some '%' → o'.symbolKind = .localVar := by
      intro o' ho' hh
      have := List.all_eq_true.mp key o' (occurs_iff.mp ho')
      simpa [hh] using this
    -- names of local variables
    have sig : ∀ o' new, Occurs res.tokens res.stmts o' → Shifted paramOcc 1 k o' new → o'.name.head? = some '%' ∧ new.head? = some '%' := by
      rintro o' new ho' ⟨⟨hk, _⟩, hs⟩
      have hsp := occurs_spells h ho'
      have hsn := shifts_spells hsp hs (by rw [hk]; intro e; cases e)
      rw [hk] at hsp hsn
      constructor
      · generalize o'.name = n at hsp ⊢
        generalize ht : nameToken paramOcc.symbolKind n = t at hsp
        cases hsp <;> first | rfl | cases ht
      · generalize ht : nameToken paramOcc.symbolKind new = t at hsn
        cases hsn <;> first | rfl | cases ht
    refine ⟨res, toks, h, rfl, ho, hamb, ⟨c!"1", rfl, parseNat_iff.mp (by decide +kernel), by decide, ?_⟩, hfits, hcanon, ?_, ?_, ?_, ?_, fun _ _ ho' _ => bare_of_lexed h h' ho'⟩
    · intro c hc
      cases hc
      decide
    · intro o' pre nr _ _ _ h1
      omega
    · intro o' new ho' hs ha
      obtain ⟨⟨f, hf1, hf2, hf3⟩, _⟩ := ha
      have := kind f (.inl hf1) (by rw [hf3]; exact (sig o' new ho' hs).1)
      rw [this] at hf2
      cases hf2
    · intro o' new ho' hs o'' ho'' he
      exact kind o'' ho'' (by rw [he]; exact (sig o' new ho' hs).2)
    · intro hk
      cases hk
  · cases key

theorem renText_safe : ∃ res toks, parseFromStr renText = .ok res ∧ tokenize renText = .ok (some toks, []) ∧ Occurs res.tokens res.stmts paramOcc ∧
    ¬ Ambiguous res.stmts paramOcc.name ∧ Numbered paramOcc.name c!"%v" 1 ∧ ShiftSafe res paramOcc 1 2 :=
  renText_safeBy (by decide) (by decide)

/-- The hypotheses of `C66_references_partial` and `C67_back_partial` hold for `%v1` of `renText` and a shift by 2. -/
example : ∃ edits text' res res', rename debugEnv (serverWith [] c!"u" renText) c!"u" ⟨1, 22⟩ c!"+2" = .ok (.ok [(c!"u", edits)]) ∧
    Applied renText edits text' ∧ parseFromStr renText = .ok res ∧ parseFromStr text' = .ok res' ∧ ReferencesKept res (Shifted paramOcc 1 2) res' ∧
    ∃ o', Occurs res'.tokens res'.stmts o' ∧ SameScope o' paramOcc ∧ Shifts 1 2 c!"%v1" o'.name := by
  obtain ⟨res, toks, h1, h2, h3, h4, h5, h6⟩ := renText_safe
  have hpos : LspOffset renText ⟨1, 22⟩ 29 := by
    refine ⟨7, c!"define void @f(int32 %v1) {", ?_, by decide, rfl⟩
    exact .later (content := c!"@a = 1") (eol := c!"\n") (by decide) (.inl rfl) (by simp)
      (.here (content := c!"define void @f(int32 %v1) {") (tail := renText.drop 34) (by decide) (by intro c cs h; left; simp [renText] at h; exact h.1.symm))
  have hk : ShiftBy c!"+2" 2 := ⟨c!"2", 2, parseNat_iff.mp (by decide +kernel), by decide, .inl ⟨rfl, rfl⟩⟩
  have hopen : Opened (serverWith [] c!"u" renText) c!"u" renText := serverWith_opened (by decide +kernel)
  obtain ⟨edits, text', res', e1, e2, e3, e4, _, e5⟩ := C66_references_partial (env := debugEnv) hopen h1 (by decide +kernel) h2 hpos h3
    ⟨by decide, by decide⟩ (fun _ _ _ => Spec.Plain.to (by decide +kernel) _) (visible_of_clear h3 h4) hk h5 h6
  obtain ⟨edits', text'', res'', f1, f2, _, f3, f4, _⟩ := C67_back_partial (env := debugEnv) hopen h1 (by decide +kernel) h2 hpos h3
    ⟨by decide, by decide⟩ (fun _ _ _ => Spec.Plain.to (by decide +kernel) _) (visible_of_clear h3 h4) hk h5 h6
  rw [e1] at f1
  cases f1
  obtain rfl := e3 _ f2
  rw [e4] at f3
  cases f3
  exact ⟨edits, _, res, res', e1, e2, h1, e4, e5, f4⟩

/-- Shifting and shifting back. -/
example : (match rename debugEnv (serverWith [] c!"u" c!"@a9 = 1\n@b = @a9\n") c!"u" ⟨0, 1⟩ c!"+1" with | .ok (.ok e) => some e | _ => none) =
      some [(c!"u", [⟨⟨⟨0, 0⟩, ⟨0, 3⟩⟩, c!"@a10"⟩, ⟨⟨⟨1, 5⟩, ⟨1, 8⟩⟩, c!"@a10"⟩])] ∧
    (match rename debugEnv (serverWith [] c!"u" c!"@a10 = 1\n@b = @a10\n") c!"u" ⟨1, 6⟩ c!"-1" with | .ok (.ok e) => some e | _ => none) =
      some [(c!"u", [⟨⟨⟨0, 0⟩, ⟨0, 4⟩⟩, c!"@a9"⟩, ⟨⟨⟨1, 5⟩, ⟨1, 9⟩⟩, c!"@a9"⟩])] := by decide +kernel

/-- C66 fails for a function that is shifted to the name of a global variable: both are `@f2` afterwards. -/
theorem C66_refuted_kind :
    (match rename debugEnv (serverWith [] c!"u" c!"@f2 = 1\ndefine void @f1() {\nx:\n return\n}\n") c!"u" ⟨1, 12⟩ c!"+1" with | .ok (.ok e) => some e | _ => none) =
      some [(c!"u", [⟨⟨⟨1, 12⟩, ⟨1, 15⟩⟩, c!"@f2"⟩])] ∧
    (match parseFromStr c!"@f2 = 1\ndefine void @f2() {\nx:\n return\n}\n" with
      | .ok res => decide (IsFunction res.stmts c!"@f2") && decide ((docOccs 0 res.stmts).map (fun o => (o.symbolKind, o.name)) = [(.globalVar, c!"@f2"), (.function, c!"@f2"), (.label, c!"x")])
      | _ => false) = true := by
  decide +kernel

/-- C66 fails for a label that is shifted to the name of a type: the function can no longer be read. -/
theorem C66_refuted_keyword :
    (match rename debugEnv (serverWith [] c!"u" c!"define void @f() {\nint7:\n return\n}\n") c!"u" ⟨1, 0⟩ c!"+1" with | .ok (.ok e) => some e | _ => none) =
      some [(c!"u", [⟨⟨⟨1, 0⟩, ⟨1, 4⟩⟩, c!"int8"⟩])] ∧
    (match parseFromStr c!"define void @f() {\nint7:\n return\n}\n", parseFromStr c!"define void @f() {\nint8:\n return\n}\n" with
      | .ok res, .ok res' => decide ((docOccs 0 res.stmts).map (·.name) = [c!"@f", c!"int7"]) && decide (docOccs 0 res'.stmts = [])
      | _, _ => false) = true := by
  decide +kernel

/-- C67 fails if there is a symbol in the gap: `@a1` becomes `@a0`, and shifting back makes both `@a1`. -/
theorem C67_refuted_gap :
    (match rename debugEnv (serverWith [] c!"u" c!"@a0 = 1\n@a1 = 1\n") c!"u" ⟨1, 1⟩ c!"-1" with | .ok (.ok e) => some e | _ => none) =
      some [(c!"u", [⟨⟨⟨1, 0⟩, ⟨1, 3⟩⟩, c!"@a0"⟩])] ∧
    (match rename debugEnv (serverWith [] c!"u" c!"@a0 = 1\n@a0 = 1\n") c!"u" ⟨1, 1⟩ c!"+1" with | .ok (.ok e) => some e | _ => none) =
      some [(c!"u", [⟨⟨⟨0, 0⟩, ⟨0, 3⟩⟩, c!"@a1"⟩, ⟨⟨⟨1, 0⟩, ⟨1, 3⟩⟩, c!"@a1"⟩])] := by
  decide +kernel

/-- C67 fails for leading zeros, which shifting back does not restore. -/
theorem C67_refuted_leading_zeros :
    (match rename debugEnv (serverWith [] c!"u" c!"@a01 = 1\n") c!"u" ⟨0, 1⟩ c!"+1" with | .ok (.ok e) => some e | _ => none) =
      some [(c!"u", [⟨⟨⟨0, 0⟩, ⟨0, 4⟩⟩, c!"@a2"⟩])] ∧
    (match rename debugEnv (serverWith [] c!"u" c!"@a2 = 1\n") c!"u" ⟨0, 1⟩ c!"-1" with | .ok (.ok e) => some e | _ => none) =
      some [(c!"u", [⟨⟨⟨0, 0⟩, ⟨0, 3⟩⟩, c!"@a1"⟩])] := by
  decide +kernel

end Examples
end HyperIR
