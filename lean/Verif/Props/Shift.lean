import Verif.Props.Rename

/-! C30 to C34: shifts and code actions. -/

namespace HyperIR
open Spec

section
variable [Unicode] {env : Env} {st : ServerState} {uri text : Str} {res : ParserResult}

omit [Unicode] in
theorem i64Op_ok {b : Build} {x : Int} (h1 : -(2 ^ 63) ≤ x) (h2 : x < 2 ^ 63) : i64Op b x = .ok x := by
  unfold i64Op i64InRange
  rw [if_pos]
  rw [Bool.and_eq_true, decide_eq_true_eq, decide_eq_true_eq]
  exact ⟨h1, h2⟩

theorem getShiftEdits_fits {doc : AnalyzedDocument} (h : parseFromStr text = .ok res)
    (hix : createIndex text res.tokens res.stmts = .ok doc.index) (hrope : doc.rope = text) (hsize : text.length < 2 ^ 32)
    {o : SymbolOccurrence} (ho : Occurs res.tokens res.stmts o) (hp : PlainScope text res o) {start : Nat} {k : Int} (hfits : ShiftFits res o start k) :
    ∃ edits, getShiftEdits env.ord env.build doc.rope doc.index o.symbolKind o.funcBodyId start k = .ok edits ∧
      ShiftEdits text res o start k edits := by
  obtain ⟨hk, hf⟩ := occurs_scope h hix ho
  rw [hrope]
  obtain ⟨edits, he⟩ := getShiftEdits_total h hix hk hf env.ord (b := env.build) (start := start) (shift := k)
    (fun o' ho' h1 h2 => occurs_ascii h ho' (hp o' ho' ⟨h1, h2⟩))
    (fun o' pre nr h1 h2 h3 h4 h5 => by
      obtain ⟨h6, h7⟩ := hfits o' pre nr h1 ⟨h2, h3⟩ h4 (by omega)
      omega)
  obtain ⟨chs, r1, d1, m1⟩ := getShiftEdits_spec h hix hsize hk hf he
  refine ⟨edits, he, chs, r1, d1, ?_⟩
  intro o' new
  rw [m1]
  constructor
  · rintro ⟨h1, h2, h3, pre, nr, s, h4, h5, h6, rfl⟩
    obtain ⟨h7, h8⟩ := hfits o' pre nr h1 ⟨h2, h3⟩ h4 (by omega)
    refine ⟨h1, ⟨h2, h3⟩, pre, nr, showNat (nr + k).toNat, (nr + k).toNat, h4, by omega, by omega, showNat_canonical _, ?_⟩
    rw [i64Op_ok (by omega) h8] at h6
    cases h6
    unfold wrappingAbs
    rw [if_neg (by omega)]
    congr 1
    have : (nr : Int) + k = Int.ofNat (nr + k).toNat := by simp; omega
    conv => lhs; rw [this]
    rfl
  · rintro ⟨h1, ⟨h2, h3⟩, pre, nr, w, m, h4, h5, h6, h7, rfl⟩
    obtain ⟨h8, h9⟩ := hfits o' pre nr h1 ⟨h2, h3⟩ h4 h5
    refine ⟨h1, h2, h3, pre, nr, nr + k, h4, by omega, i64Op_ok (by omega) h9, ?_⟩
    · unfold wrappingAbs
      rw [if_neg (by omega)]
      congr 1
      rw [canonical_unique h7 (showNat_canonical m)]
      have : (nr : Int) + k = Int.ofNat m := by simp; omega
      rw [this]
      rfl

omit [Unicode] in
theorem parseI64_denotes {w : Str} {n : Nat} (hd : Denotes w n) (hn : n < 2 ^ 63) : parseI64 w = some (n : Int) := by
  letI := asciiUnicode
  exact (parseI64_numeric (fun c hc => numeric_of_digit (denotes_digits hd c hc))).mpr ⟨n, rfl, hd, hn⟩

theorem relativeRename_eq {doc : AnalyzedDocument} {o : SymbolOccurrence} {req pre : Str} {sign nr shift start : Int}
    (h1 : parseI64 (req.drop 1) = some nr) (h2 : i64Op env.build (sign * nr) = .ok shift)
    (h3 : extractNumberFromIdentifier o.name = .ok (some (pre, start))) :
    relativeRename env doc o req sign = (match getShiftEdits env.ord env.build doc.rope doc.index o.symbolKind o.funcBodyId start shift with
      | .panic => .panic
      | .ok edits => .ok (.ok edits)) := by
  unfold relativeRename
  simp only [h1, h2, h3]
  generalize getShiftEdits env.ord env.build doc.rope doc.index o.symbolKind o.funcBodyId start shift = g
  cases g <;> rfl

omit [Unicode] in
theorem sign_pos {n : Nat} (h : n < 2 ^ 63) : i64Op env.build (1 * (n : Int)) = .ok n := by
  rw [Int.one_mul]
  exact i64Op_ok (by omega) (by omega)

omit [Unicode] in
theorem sign_neg {n : Nat} (h : n < 2 ^ 63) : i64Op env.build (-1 * (n : Int)) = .ok (-n) := by
  rw [Int.neg_mul, Int.one_mul]
  exact i64Op_ok (by omega) (by omega)

/-- What a relative rename does. -/
theorem relative_eq {doc : AnalyzedDocument} {o : SymbolOccurrence} {req : Str} {k : Int} (hk : ShiftBy req k) {pre : Str} {start : Nat}
    (ha : Ascii o.name) (hn : Numbered o.name pre start) :
    renameEdits env doc o req = (match getShiftEdits env.ord env.build doc.rope doc.index o.symbolKind o.funcBodyId start k with
      | .panic => .panic
      | .ok edits => .ok (.ok edits)) := by
  obtain ⟨w, n, hd, hlt, hk⟩ := hk
  rcases hk with ⟨rfl, rfl⟩ | ⟨rfl, rfl⟩
  · exact relativeRename_eq (req := '+' :: w) (parseI64_denotes hd hlt) (sign_pos hlt) (extract_numbered ha hn)
  · exact relativeRename_eq (req := '-' :: w) (parseI64_denotes hd hlt) (sign_neg hlt) (extract_numbered ha hn)

/-! ### C30 -/

/-- C30: a relative rename by `k` on a numbered symbol edits, among the symbols of the same kind and scope, all occurrences of exactly
those with the same or a higher number: the number is increased by `k`.  What is missing: shifts that make a
number negative (`C30_refuted_negative`) or too large (`C32_refuted_sum`), symbols behind text that is not plain ASCII, and variables with
the name of a function. -/
theorem C30_shift_partial (hopen : Opened st uri text) (h : parseFromStr text = .ok res) (hsize : text.length < 2 ^ 32)
    {p : Pos} {off : Nat} (hpos : LspOffset text p off) {o : SymbolOccurrence} (ho : Occurs res.tokens res.stmts o) (hc : Covers o.span off)
    (hp : PlainScope text res o) (hvis : ¬ Shadowed res.stmts o) {req : Str} {k : Int} (hk : ShiftBy req k) {pre : Str} {start : Nat}
    (hn : Numbered o.name pre start) (hfits : ShiftFits res o start k) :
    ∃ edits, rename env st uri p req = .ok (.ok [(uri, edits)]) ∧ ShiftEdits text res o start k edits := by
  obtain ⟨doc, errs, ha, hst⟩ := hopen
  obtain ⟨res', h1, h2, _, _, _, h6⟩ := analyze_inv ha
  rw [h] at h1
  cases h1
  obtain ⟨o', hs, _, _, he⟩ := (symbolAt_occurs ha h hsize hpos ((hp o ho ⟨rfl, rfl⟩).mono (Nat.le_of_lt hc.2))).2 o ho hc
  obtain rfl := he hvis
  obtain ⟨edits, he, hsh⟩ := getShiftEdits_fits (env := env) h h6 h2 hsize ho hp hfits
  refine ⟨edits, ?_, hsh⟩
  unfold rename
  rw [hst]
  simp only [hs]
  rw [relative_eq hk (occurs_ascii h ho (hp o' ho ⟨rfl, rfl⟩)) hn, he]

/-- C30, code action: the edit of the shift code action on a numbered symbol shifts by one. -/
theorem C30_action_partial (hopen : Opened st uri text) (h : parseFromStr text = .ok res) (hsize : text.length < 2 ^ 32)
    (heager : st.lazyResolve = false)
    {p : Pos} {off : Nat} (hpos : LspOffset text p off) {o : SymbolOccurrence} (ho : Occurs res.tokens res.stmts o) (hc : Covers o.span off)
    (hp : PlainScope text res o) (hvis : ¬ Shadowed res.stmts o) {pre : Str} {start : Nat} (hn : Numbered o.name pre start) (hfits : ShiftFits res o start 1) :
    ∃ a edits, codeAction env st uri ⟨p, p⟩ = .ok (.ok (some [a])) ∧ a.edit = some [(uri, edits)] ∧ ShiftEdits text res o start 1 edits := by
  obtain ⟨doc, errs, ha, hst⟩ := hopen
  obtain ⟨res', h1, h2, _, _, _, h6⟩ := analyze_inv ha
  rw [h] at h1
  cases h1
  obtain ⟨o', hs, _, _, he⟩ := (symbolAt_occurs ha h hsize hpos ((hp o ho ⟨rfl, rfl⟩).mono (Nat.le_of_lt hc.2))).2 o ho hc
  obtain rfl := he hvis
  obtain ⟨edits, he, hsh⟩ := getShiftEdits_fits (env := env) h h6 h2 hsize ho hp hfits
  refine ⟨{ title := shiftTitle o'.symbolKind, data := .shift ⟨uri, o'.symbolKind, o'.funcBodyId, start⟩, edit := some [(uri, edits)] },
    edits, ?_, rfl, hsh⟩
  unfold codeAction offeredActions
  simp only [hst, hs, extract_numbered (occurs_ascii h ho (hp o' ho ⟨rfl, rfl⟩)) hn, heager, resolveAll, codeActionResolve]
  simp only [ne_eq, not_true_eq_false, if_false, Bool.false_eq_true, he]

/-! ### C31 -/

omit [Unicode] in
theorem nameAfter_changes (hsize : text.length < 2 ^ 32) {changes : List (SymbolOccurrence × Str)} {edits : List TextEdit}
    (hp : ∀ c ∈ changes, PlainTo text c.1.span.stop) (hr : Renames text changes edits) {o : SymbolOccurrence} {n : Str} (hn : NameAfter text edits o n) :
    (∃ o', (o', n) ∈ changes ∧ o'.span = o.span) ∨ ((∀ o' new, (o', new) ∈ changes → o'.span ≠ o.span) ∧ n = o.name) := by
  have key : ∀ {changes : List (SymbolOccurrence × Str)} {edits : List TextEdit}, Renames text changes edits →
      (∀ c ∈ changes, PlainTo text c.1.span.stop) →
      (∀ e ∈ edits, ∃ c ∈ changes, e.newText = c.2 ∧ EditorRange text c.1.span e.range) ∧
      (∀ c ∈ changes, ∃ e ∈ edits, e.newText = c.2 ∧ EditorRange text c.1.span e.range) := by
    intro changes edits hr hp
    induction hr with
    | nil => exact ⟨by simp, by simp⟩
    | cons h _ ih =>
      rename_i c e cs es _
      have ih := ih fun c hc => hp c (by simp [hc])
      constructor
      · intro x hx
        rcases List.mem_cons.mp hx with rfl | hx
        · exact ⟨c, by simp, h.1, h.2 (hp c (by simp))⟩
        · obtain ⟨c', h1, h2⟩ := ih.1 x hx
          exact ⟨c', by simp [h1], h2⟩
      · intro x hx
        rcases List.mem_cons.mp hx with rfl | hx
        · exact ⟨e, by simp, h.1, h.2 (hp x (by simp))⟩
        · obtain ⟨c', h1, h2⟩ := ih.2 x hx
          exact ⟨c', by simp [h1], h2⟩
  obtain ⟨k1, k2⟩ := key hr hp
  rcases hn with ⟨e, he, h1, rfl⟩ | ⟨h1, rfl⟩
  · obtain ⟨c, hc, h2, h3⟩ := k1 e he
    exact .inl ⟨c.1, by rw [h2]; exact hc, editorRange_inj hsize h3 h1⟩
  · refine .inr ⟨?_, rfl⟩
    intro o' new hm heq
    obtain ⟨e, he, _, h3⟩ := k2 _ hm
    exact h1 e he (by rw [← heq]; exact h3)

theorem shifts_numbered {start : Nat} {k : Int} {name new : Str} (h : Shifts start k name new)
    (hf : ∀ pre nr, Numbered name pre nr → start ≤ nr → nr + k < 2 ^ 63) :
    ∃ (pre : Str) (nr m : Nat), Numbered name pre nr ∧ start ≤ nr ∧ (m : Int) = nr + k ∧ Numbered new pre m := by
  obtain ⟨pre, nr, w, m, h1, h2, h3, h4, rfl⟩ := h
  refine ⟨pre, nr, m, h1, h2, h3, w, rfl, h4.1, ?_, ?_⟩
  · have := hf pre nr h1 h2
    omega
  · obtain ⟨_, _, _, _, h5⟩ := h1
    exact h5

/-- C31: after the edits of a shift, different symbols of the kind and scope have different names.  What is missing: numbers with
leading zeros (`C31_refuted_leading_zeros`), shifts to a number between which and the shifted ones another symbol is
numbered (`C31_refuted_gap`; this cannot happen for shifts upwards), numbers that do not fit, symbols behind text that is not plain ASCII. -/
theorem C31_no_merge_partial (hopen : Opened st uri text) (h : parseFromStr text = .ok res) (hsize : text.length < 2 ^ 32)
    {p : Pos} {off : Nat} (hpos : LspOffset text p off) {o : SymbolOccurrence} (ho : Occurs res.tokens res.stmts o) (hc : Covers o.span off)
    (hp : PlainScope text res o) (hvis : ¬ Shadowed res.stmts o) {req : Str} {k : Int} (hk : ShiftBy req k) {pre : Str} {start : Nat}
    (hn : Numbered o.name pre start) (hfits : ShiftFits res o start k)
    (hcanon : ∀ o' pre nr, Occurs res.tokens res.stmts o' → SameScope o' o → Numbered o'.name pre nr → ∃ w, o'.name = pre ++ w ∧ Canonical w nr)
    (hgap : ∀ o' pre (nr : Nat), Occurs res.tokens res.stmts o' → SameScope o' o → Numbered o'.name pre nr → start + k ≤ nr → start ≤ nr) :
    ∃ edits, rename env st uri p req = .ok (.ok [(uri, edits)]) ∧
      ∀ o₁ o₂ n₁ n₂, Occurs res.tokens res.stmts o₁ → SameScope o₁ o → Occurs res.tokens res.stmts o₂ → SameScope o₂ o →
        NameAfter text edits o₁ n₁ → NameAfter text edits o₂ n₂ → o₁.name ≠ o₂.name → n₁ ≠ n₂ := by
  obtain ⟨edits, he, changes, r1, _, m1⟩ := C30_shift_partial (env := env) hopen h hsize hpos ho hc hp hvis hk hn hfits
  refine ⟨edits, he, ?_⟩
  -- the name after the shift, in terms of the name before
  have after : ∀ {o' n}, Occurs res.tokens res.stmts o' → SameScope o' o → NameAfter text edits o' n →
      (∃ pre nr m, Numbered o'.name pre nr ∧ start ≤ nr ∧ ((m : Nat) : Int) = nr + k ∧ Numbered n pre m) ∨
      (n = o'.name ∧ ∀ pre nr, Numbered o'.name pre nr → nr < start) := by
    intro o' n ho' hs' hna
    rcases nameAfter_changes hsize (fun c hc => hp _ ((m1 c.1 c.2).mp hc).1 ((m1 c.1 c.2).mp hc).2.1) r1 hna with ⟨o'', hm, hspan⟩ | ⟨hno, rfl⟩
    · obtain ⟨a1, a2, a3⟩ := (m1 o'' n).mp hm
      rw [occurs_name h a1 ho' hspan] at a3
      exact .inl (shifts_numbered a3 (fun pre nr h1 h2 => (hfits o' pre nr ho' hs' h1 h2).2))
    · refine .inr ⟨rfl, ?_⟩
      intro pre nr hnum
      rcases Nat.lt_or_ge nr start with hlt | hge
      · exact hlt
      · exfalso
        have hf := hfits o' pre nr ho' hs' hnum hge
        refine hno o' (pre ++ showNat (nr + k).toNat) ((m1 _ _).mpr ⟨ho', hs', pre, nr, _, (nr + k).toNat, hnum, hge, by omega, showNat_canonical _, rfl⟩) rfl
  have same : ∀ {o₁ o₂ : SymbolOccurrence} {pre nr}, Occurs res.tokens res.stmts o₁ → SameScope o₁ o → Occurs res.tokens res.stmts o₂ → SameScope o₂ o →
      Numbered o₁.name pre nr → Numbered o₂.name pre nr → o₁.name = o₂.name := by
    intro o₁ o₂ pre nr a1 a2 b1 b2 hn1 hn2
    obtain ⟨w, hw, hcw⟩ := hcanon o₁ pre nr a1 a2 hn1
    obtain ⟨w', hw', hcw'⟩ := hcanon o₂ pre nr b1 b2 hn2
    rw [hw, hw', canonical_unique hcw hcw']
  -- a shifted and an unshifted symbol
  have mixed : ∀ {o₁ o₂ : SymbolOccurrence} {pre nr m n}, Occurs res.tokens res.stmts o₂ → SameScope o₂ o → Numbered o₁.name pre nr → start ≤ nr →
      ((m : Nat) : Int) = nr + k → Numbered n pre m → n = o₂.name → (∀ pre nr, Numbered o₂.name pre nr → nr < start) → False := by
    intro o₁ o₂ pre nr m n b1 b2 hn1 hge hm hnum heq hlt
    rw [heq] at hnum
    have h1 := hlt pre m hnum
    have h2 := hgap o₂ pre m b1 b2 hnum (by omega)
    omega
  intro o₁ o₂ n₁ n₂ a1 a2 b1 b2 hna hnb hne heq
  subst heq
  rcases after a1 a2 hna with ⟨p1, nr1, x1, c1, c2, c3, c4⟩ | ⟨c1, c2⟩
  · rcases after b1 b2 hnb with ⟨p2, nr2, x2, d1, d2, d3, d4⟩ | ⟨d1, d2⟩
    · obtain ⟨rfl, rfl⟩ := numbered_unique c4 d4
      have : nr1 = nr2 := by omega
      subst this
      exact hne (same a1 a2 b1 b2 c1 d1)
    · exact mixed (o₁ := o₁) b1 b2 c1 c2 c3 c4 d1 d2
  · rcases after b1 b2 hnb with ⟨p2, nr2, x2, d1, d2, d3, d4⟩ | ⟨d1, d2⟩
    · exact mixed (o₁ := o₂) a1 a2 d1 d2 d3 d4 c1 c2
    · exact hne (by rw [← c1, ← d1])

/-! ### C32 -/

/-- C32: a shift of which no sum is too large is answered, in every build, with edits for the numbers `|nr + k|`.  What is missing:
sums of `2^63` or more (`C32_refuted_sum`, `C32_refuted_sum_release`), requests with two signs (`C32_refuted_sign`). -/
theorem C32_no_overflow_partial (hopen : Opened st uri text) (h : parseFromStr text = .ok res) (hsize : text.length < 2 ^ 32)
    {p : Pos} {off : Nat} (hpos : LspOffset text p off) {o : SymbolOccurrence} (ho : Occurs res.tokens res.stmts o) (hc : Covers o.span off)
    (hp : PlainScope text res o) (hvis : ¬ Shadowed res.stmts o) {req : Str} {k : Int} (hk : ShiftBy req k) {pre : Str} {start : Nat}
    (hn : Numbered o.name pre start)
    (hsum : ∀ o' pre nr, Occurs res.tokens res.stmts o' → SameScope o' o → Numbered o'.name pre nr → start ≤ nr → nr + k < 2 ^ 63) :
    ∃ edits changes, rename env st uri p req = .ok (.ok [(uri, edits)]) ∧ Renames text changes edits ∧
      ∀ o' new, (o', new) ∈ changes ↔ Occurs res.tokens res.stmts o' ∧ SameScope o' o ∧
        ∃ pre nr w, Numbered o'.name pre nr ∧ start ≤ nr ∧ Canonical w (nr + k).natAbs ∧ new = pre ++ w := by
  obtain ⟨doc, errs, ha, hst⟩ := hopen
  obtain ⟨res', h1, h2, _, _, _, h6⟩ := analyze_inv ha
  rw [h] at h1
  cases h1
  obtain ⟨o', hs, _, _, he⟩ := (symbolAt_occurs ha h hsize hpos ((hp o ho ⟨rfl, rfl⟩).mono (Nat.le_of_lt hc.2))).2 o ho hc
  obtain rfl := he hvis
  obtain ⟨hkk, hf⟩ := occurs_scope h h6 ho
  have hlow : -(2 ^ 63) < k := by
    obtain ⟨w, n, hd, hlt, hk⟩ := hk
    rcases hk with ⟨_, rfl⟩ | ⟨_, rfl⟩ <;> omega
  have hshow : ∀ {x : Int}, -(2 ^ 63) < x → x < 2 ^ 63 → showInt (wrappingAbs x) = showNat x.natAbs := by
    intro x h1 h2
    unfold wrappingAbs wrapI64
    have : (if x < 0 then (-x + 2 ^ 63) % 2 ^ 64 - 2 ^ 63 else x) = Int.ofNat x.natAbs := by
      rw [Int.ofNat_eq_natCast]
      split <;> omega
    rw [this]
    rfl
  obtain ⟨edits, he⟩ := getShiftEdits_total h h6 hkk hf env.ord (b := env.build) (start := start) (shift := k)
    (fun o' ho' h1 h2 => occurs_ascii h ho' (hp o' ho' ⟨h1, h2⟩))
    (fun o' pre nr h1 h2 h3 h4 h5 => by
      have h6 := hsum o' pre nr h1 ⟨h2, h3⟩ h4 (by omega)
      omega)
  obtain ⟨chs, r1, d1, m1⟩ := getShiftEdits_spec h h6 hsize hkk hf he
  refine ⟨edits, chs, ?_, r1, ?_⟩
  · unfold rename
    rw [hst]
    simp only [hs]
    rw [relative_eq hk (occurs_ascii h ho (hp o' ho ⟨rfl, rfl⟩)) hn, h2, he]
  · intro o'' new
    rw [m1]
    constructor
    · rintro ⟨h1, h2, h3, pre, nr, s, h4, h5, h6, rfl⟩
      have h8 := hsum o'' pre nr h1 ⟨h2, h3⟩ h4 (by omega)
      rw [i64Op_ok (by omega) h8] at h6
      cases h6
      rw [hshow (by omega) h8]
      exact ⟨h1, ⟨h2, h3⟩, pre, nr, _, h4, by omega, showNat_canonical _, rfl⟩
    · rintro ⟨h1, ⟨h2, h3⟩, pre, nr, w, h4, h5, h6, rfl⟩
      have h8 := hsum o'' pre nr h1 ⟨h2, h3⟩ h4 h5
      refine ⟨h1, h2, h3, pre, nr, nr + k, h4, by omega, i64Op_ok (by omega) h8, ?_⟩
      rw [hshow (by omega) h8, canonical_unique h6 (showNat_canonical _)]

omit [Unicode] in
theorem parseI64_large {w : Str} {n : Nat} (hd : Denotes w n) (hn : 2 ^ 63 ≤ n) : parseI64 w = none := by
  letI := asciiUnicode
  cases hp : parseI64 w with
  | none => rfl
  | some i =>
    obtain ⟨m, _, h1, h2⟩ := (parseI64_numeric (fun c hc => numeric_of_digit (denotes_digits hd c hc))).mp hp
    have := denotes_unique hd h1
    omega

/-- C32: a shift by `2^63` or more is rejected. -/
theorem C32_rejected {w : Str} {n : Nat} (hd : Denotes w n) (hn : 2 ^ 63 ≤ n) (p : Pos) :
    (∃ e, rename env st uri p ('+' :: w) = .ok (.error e)) ∧ ∃ e, rename env st uri p ('-' :: w) = .ok (.error e) := by
  have hp := parseI64_large hd hn
  have h1 : ∀ doc o, ∃ e, renameEdits env doc o ('+' :: w) = .ok (.error e) := by
    intro doc o
    unfold renameEdits relativeRename
    simp only [List.drop_one, List.tail_cons, hp]
    exact ⟨_, rfl⟩
  have h2 : ∀ doc o, ∃ e, renameEdits env doc o ('-' :: w) = .ok (.error e) := by
    intro doc o
    unfold renameEdits relativeRename
    simp only [List.drop_one, List.tail_cons, hp]
    exact ⟨_, rfl⟩
  unfold rename
  cases st.docs.get? uri with
  | none => exact ⟨⟨_, rfl⟩, ⟨_, rfl⟩⟩
  | some doc =>
    simp only
    cases symbolAt doc p with
    | none => exact ⟨⟨_, rfl⟩, ⟨_, rfl⟩⟩
    | some o =>
      simp only
      obtain ⟨e1, h1⟩ := h1 doc o
      obtain ⟨e2, h2⟩ := h2 doc o
      rw [h1, h2]
      exact ⟨⟨_, rfl⟩, ⟨_, rfl⟩⟩

/-! ### C33 -/

/-- C33: the shift code action is offered iff nothing is selected and the cursor is on a numbered symbol; its title tells the kind of the
symbol (at the definition of a variable with the name of a function: that of the function).  What is missing: positions
behind or in front of text that is not plain ASCII (`C33_refuted_nonascii`). -/
theorem C33_offered_partial (hopen : Opened st uri text) (h : parseFromStr text = .ok res) (hsize : text.length < 2 ^ 32)
    (hlazy : st.lazyResolve = true) {p : Pos} {off : Nat} (hpos : LspOffset text p off) (hp : PlainTo text off)
    (hp' : ∀ o, Occurs res.tokens res.stmts o → Covers o.span off → PlainTo text o.span.stop) :
    (∀ o pre n, Occurs res.tokens res.stmts o → Covers o.span off → Numbered o.name pre n →
      ∃ a, codeAction env st uri ⟨p, p⟩ = .ok (.ok (some [a])) ∧ a.edit = none ∧
        (¬ Shadowed res.stmts o → a.title = c!"Shift " ++ kindWord o.symbolKind ++ c!" numbering")) ∧
    ((¬ ∃ o pre n, Occurs res.tokens res.stmts o ∧ Covers o.span off ∧ Numbered o.name pre n) →
      codeAction env st uri ⟨p, p⟩ = .ok (.ok (some []))) ∧
    ∀ q, q ≠ p → codeAction env st uri ⟨p, q⟩ = .ok (.ok none) := by
  obtain ⟨doc, errs, ha, hst⟩ := hopen
  obtain ⟨hsym1, hsym2⟩ := symbolAt_occurs ha h hsize hpos hp
  refine ⟨?_, ?_, ?_⟩
  · intro o pre n ho hc hn
    obtain ⟨o', hs, hspan, hname, hsame⟩ := hsym2 o ho hc
    refine ⟨{ title := shiftTitle o'.symbolKind, data := .shift ⟨uri, o'.symbolKind, o'.funcBodyId, n⟩ }, ?_, rfl, fun hvis => by
      rw [hsame hvis]
      cases o.symbolKind <;> rfl⟩
    unfold codeAction offeredActions
    rw [← hname] at hn
    simp only [hst, hs, extract_numbered (occurs_ascii h (hsym1 o' hs).1 (hp' o' (hsym1 o' hs).1 (hsym1 o' hs).2)) hn, hlazy]
    simp
  · intro hno
    unfold codeAction offeredActions
    simp only [hst]
    cases hs : symbolAt doc p with
    | none => simp [hlazy]
    | some o' =>
      obtain ⟨ho, hc⟩ := hsym1 o' hs
      simp only [extract_not_numbered (occurs_ascii h ho (hp' o' ho hc)) (fun pre n hn => hno ⟨o', pre, n, ho, hc, hn⟩)]
      simp [hlazy]
  · intro q hq
    unfold codeAction
    simp only [hst]
    rw [if_pos (fun e => hq e.symm)]

theorem resolveAll_each : ∀ {as as' : List CodeAction},
    resolveAll env st as = .ok as' ↔ Each (fun a a' => codeActionResolve env st a = .ok (.ok a')) as as'
  | [], as' => by
    constructor
    · intro h; cases h; exact .nil
    · intro h; cases h; rfl
  | a :: as, as' => by
    unfold resolveAll
    constructor
    · intro h
      cases ha : codeActionResolve env st a with
      | panic => rw [ha] at h; cases h
      | ok r =>
        rw [ha] at h
        cases r with
        | error e => cases h
        | ok a' =>
          simp only at h
          cases hr : resolveAll env st as with
          | panic => rw [hr] at h; cases h
          | ok rs => rw [hr] at h; cases h; exact .cons ha (resolveAll_each.mp hr)
    · intro h
      cases h with
      | cons h1 h2 =>
        rw [h1]
        simp only
        rw [resolveAll_each.mpr h2]

/-- C33: an eager client receives exactly the actions (with edits) that a lazy client obtains by resolving each offered action; if there is
no list of actions, the answers are the same. -/
theorem C33_eager_lazy (env : Env) (st : ServerState) (uri : Str) (range : Range) :
    (∀ offered, codeAction env { st with lazyResolve := true } uri range = .ok (.ok (some offered)) →
      ∀ actions, codeAction env { st with lazyResolve := false } uri range = .ok (.ok (some actions)) ↔
        Each (fun a a' => codeActionResolve env { st with lazyResolve := true } a = .ok (.ok a')) offered actions) ∧
    ((∀ offered, codeAction env { st with lazyResolve := true } uri range ≠ .ok (.ok (some offered))) →
      codeAction env { st with lazyResolve := false } uri range = codeAction env { st with lazyResolve := true } uri range) := by
  have hres : ∀ a, codeActionResolve env { st with lazyResolve := true } a = codeActionResolve env { st with lazyResolve := false } a := fun _ => rfl
  unfold codeAction
  dsimp only
  cases st.docs.get? uri with
  | none => exact ⟨fun _ h => (by cases h), fun _ => rfl⟩
  | some doc =>
    simp only
    by_cases hr : range.start ≠ range.stop
    · simp only [if_pos hr]
      exact ⟨fun _ h => (by cases h), fun _ => trivial⟩
    · simp only [if_neg hr]
      cases ho : offeredActions uri doc range.start with
      | panic => exact ⟨fun _ h => (by cases h), fun _ => rfl⟩
      | ok offered =>
        simp only [if_true, Bool.false_eq_true, if_false]
        refine ⟨?_, fun h => absurd rfl (h offered)⟩
        intro offered' he actions
        cases he
        simp only [hres]
        rw [← resolveAll_each]
        cases resolveAll env { st with lazyResolve := false } offered with
        | panic => exact ⟨fun h => (by cases h), fun h => (by cases h)⟩
        | ok as =>
          constructor
          · intro h; cases h; rfl
          · intro h; cases h; rfl

/-! ### C34 -/

/-- C34: resolving a code action that was offered for one text after the document has another one is answered, not crashed.  What is
missing: fewer functions than before (`C34_refuted_stale`), numbers of `2^63 - 1`, names with characters that are not ASCII. -/
theorem C34_stale_partial (hopen : Opened st uri text) (h : parseFromStr text = .ok res) (hlazy : st.lazyResolve = true)
    {range : Range} {offered : List CodeAction} (hoff : codeAction env st uri range = .ok (.ok (some offered)))
    {env' : Env} {st' : ServerState} {text' : Str} {res' : ParserResult} (hopen' : Opened st' uri text') (h' : parseFromStr text' = .ok res')
    (hfun : (docFuncs res.stmts).length ≤ (docFuncs res'.stmts).length)
    (hascii : ∀ o, Occurs res'.tokens res'.stmts o → Ascii o.name)
    (hlarge : ∀ o pre n, Occurs res'.tokens res'.stmts o → Numbered o.name pre n → n + 1 < 2 ^ 63) :
    ∀ a ∈ offered, ∃ a', codeActionResolve env' st' a = .ok (.ok a') := by
  obtain ⟨doc, hst, _, _, hix⟩ := opened_inv hopen h
  obtain ⟨doc', hst', hrope', _, hix'⟩ := opened_inv hopen' h'
  unfold codeAction at hoff
  rw [hst] at hoff
  simp only at hoff
  split at hoff
  · cases hoff
  · unfold offeredActions at hoff
    intro a ham
    cases hs : symbolAt doc range.start with
    | none =>
      rw [hs] at hoff
      simp only [hlazy, if_true, Outcome.ok.injEq, Except.ok.injEq, Option.some.injEq] at hoff
      subst hoff
      cases ham
    | some o =>
      rw [hs] at hoff
      simp only at hoff
      have ho := symbolAt_found h hix hs
      cases hx : extractNumberFromIdentifier o.name with
      | panic => rw [hx] at hoff; cases hoff
      | ok r =>
        rw [hx] at hoff
        cases r with
        | none =>
          simp only [hlazy, if_true, Outcome.ok.injEq, Except.ok.injEq, Option.some.injEq] at hoff
          subst hoff
          cases ham
        | some r =>
          obtain ⟨pre, nr⟩ := r
          simp only [hlazy, if_true, Outcome.ok.injEq, Except.ok.injEq, Option.some.injEq] at hoff
          subst hoff
          simp only [List.mem_singleton] at ham
          subst ham
          obtain ⟨hk, hf⟩ := occurs_scope h hix ho
          have hl1 : (docFuncs res.stmts).length = doc.index.functionBodies.length := by
            rw [← (C20_local_scope h hix).1, List.length_map]
          have hl2 : (docFuncs res'.stmts).length = doc'.index.functionBodies.length := by
            rw [← (C20_local_scope h' hix').1, List.length_map]
          obtain ⟨edits, he⟩ := getShiftEdits_total h' hix' hk (fun i hi => by have := hf i hi; omega) env'.ord (b := env'.build)
            (start := nr) (shift := 1) (fun o ho _ _ => hascii o ho)
            (fun o pre n h1 _ _ h2 _ => by have := hlarge o pre n h1 h2; omega)
          unfold codeActionResolve
          simp only [hst', hrope', he]
          exact ⟨_, rfl⟩

/-- C34: resolving for a document that is not known is answered with an error. -/
theorem C34_unknown {env : Env} {st : ServerState} {a : CodeAction} {d : CodeActionData} (hd : a.data = .shift d) (hno : st.docs.get? d.uri = none) :
    ∃ e, codeActionResolve env st a = .ok (.error e) := by
  unfold codeActionResolve
  simp only [hd, hno]
  exact ⟨_, rfl⟩

end

/-! ### Examples and refutations -/

section Examples
attribute [local instance] asciiUnicode

/-- Shifting `%v1` by 2. -/
example : (match rename debugEnv (serverWith [] c!"u" renText) c!"u" ⟨1, 21⟩ c!"+2" with | .ok (.ok e) => some e | _ => none) =
    some [(c!"u", [⟨⟨⟨1, 21⟩, ⟨1, 24⟩⟩, c!"%v3"⟩, ⟨⟨⟨3, 23⟩, ⟨3, 26⟩⟩, c!"%v3"⟩, ⟨⟨⟨3, 7⟩, ⟨3, 10⟩⟩, c!"%v4"⟩])] := by decide +kernel

/-- All numbers in the occurrences are less than 10 and written without leading zeros. -/
def smallNumbers (res : ParserResult) : Bool :=
  (allOccs res.tokens res.stmts).all fun o => match extractNumberFromIdentifier o.name with
    | .ok (some (pre, n)) => decide (n < 10) && decide (o.name = pre ++ showNat n.toNat)
    | _ => true

def paramOcc : SymbolOccurrence := ⟨⟨28, 31⟩, .def_, .localVar, c!"%v1", some 0⟩

/-- The hypotheses of the theorems on shifts hold for `%v1` in the example. -/
theorem renText_factsBy {k : Int} (hk : 0 ≤ k) (hk' : k < 10) : ∃ res, parseFromStr renText = .ok res ∧ Occurs res.tokens res.stmts paramOcc ∧ ¬ Ambiguous res.stmts paramOcc.name ∧
    ShiftFits res paramOcc 1 k ∧
    (∀ o' pre nr, Occurs res.tokens res.stmts o' → SameScope o' paramOcc → Numbered o'.name pre nr → ∃ w, o'.name = pre ++ w ∧ Canonical w nr) := by
  generalize h : parseFromStr renText = r
  have key : (match parseFromStr renText with
    | .ok res => decide (paramOcc ∈ allOccs res.tokens res.stmts) && decide (¬ IsFunction res.stmts paramOcc.name) && smallNumbers res
    | .panic => false) = true := by decide +kernel
  rw [h] at key
  cases r with
  | panic => cases key
  | ok res =>
    simp only [Bool.and_eq_true, decide_eq_true_eq] at key
    obtain ⟨⟨k1, k2⟩, k3⟩ := key
    have hp : Plain renText := by decide +kernel
    have num : ∀ o' pre nr, Occurs res.tokens res.stmts o' → Numbered o'.name pre nr → nr < 10 ∧ o'.name = pre ++ showNat nr := by
      intro o' pre nr ho hn
      have := List.all_eq_true.mp k3 o' (occurs_iff.mp ho)
      rw [extract_numbered (occurs_ascii h ho (hp.to _)) hn] at this
      simp only [Bool.and_eq_true, decide_eq_true_eq] at this
      exact ⟨by omega, by simpa using this.2⟩
    refine ⟨res, rfl, occurs_iff.mpr k1, fun a => k2 a.1, ?_, ?_⟩
    · intro o' pre nr h1 _ h3 _
      have := (num o' pre nr h1 h3).1
      omega
    · intro o' pre nr h1 _ h3
      exact ⟨_, (num o' pre nr h1 h3).2, showNat_canonical nr⟩

theorem renText_facts : ∃ res, parseFromStr renText = .ok res ∧ Occurs res.tokens res.stmts paramOcc ∧ ¬ Ambiguous res.stmts paramOcc.name ∧
    ShiftFits res paramOcc 1 2 ∧
    (∀ o' pre nr, Occurs res.tokens res.stmts o' → SameScope o' paramOcc → Numbered o'.name pre nr → ∃ w, o'.name = pre ++ w ∧ Canonical w nr) :=
  renText_factsBy (by decide) (by decide)

example : LspOffset renText ⟨1, 22⟩ 29 ∧ Covers paramOcc.span 29 := by
  refine ⟨⟨7, c!"define void @f(int32 %v1) {", ?_, by decide, rfl⟩, by decide, by decide⟩
  exact .later (content := c!"@a = 1") (eol := c!"\n") (by decide) (.inl rfl) (by simp)
    (.here (content := c!"define void @f(int32 %v1) {") (tail := renText.drop 34) (by decide) (by intro c cs h; left; simp [renText] at h; exact h.1.symm))

example : ShiftBy c!"+2" 2 := ⟨c!"2", 2, parseNat_iff.mp (by decide +kernel), by decide, .inl ⟨rfl, rfl⟩⟩

/-- C30 fails for negative results: 1 - 3 becomes 2. -/
theorem C30_refuted_negative :
    (match rename debugEnv (serverWith [] c!"u" c!"@a1 = 1\n") c!"u" ⟨0, 1⟩ c!"-3" with | .ok (.ok e) => some e | _ => none) =
      some [(c!"u", [⟨⟨⟨0, 0⟩, ⟨0, 3⟩⟩, c!"@a2"⟩])] := by decide +kernel

/-- C31 fails if there is a symbol in the gap: `@a1` becomes `@a0`, which exists. -/
theorem C31_refuted_gap :
    (match rename debugEnv (serverWith [] c!"u" c!"@a0 = 1\n@a1 = 1\n") c!"u" ⟨1, 1⟩ c!"-1" with | .ok (.ok e) => some e | _ => none) =
      some [(c!"u", [⟨⟨⟨1, 0⟩, ⟨1, 3⟩⟩, c!"@a0"⟩])] := by decide +kernel

/-- C31 fails for leading zeros: both `@a01` and `@a1` become `@a2`. -/
theorem C31_refuted_leading_zeros :
    (match rename debugEnv (serverWith [] c!"u" c!"@a01 = 1\n@a1 = 1\n") c!"u" ⟨1, 1⟩ c!"+1" with | .ok (.ok e) => some e | _ => none) =
      some [(c!"u", [⟨⟨⟨0, 0⟩, ⟨0, 4⟩⟩, c!"@a2"⟩, ⟨⟨⟨1, 0⟩, ⟨1, 3⟩⟩, c!"@a2"⟩])] := by decide +kernel

/-- C32 fails for the largest number: a debug build crashes. -/
theorem C32_refuted_sum :
    (match rename debugEnv (serverWith [] c!"u" c!"@a9223372036854775807 = 1\n") c!"u" ⟨0, 1⟩ c!"+1" with | .panic => true | _ => false) = true := by
  decide +kernel

/-- A release build makes it negative. -/
theorem C32_refuted_sum_release :
    (match rename { debugEnv with build := ⟨false⟩ } (serverWith [] c!"u" c!"@a9223372036854775807 = 1\n") c!"u" ⟨0, 1⟩ c!"+1" with
      | .ok (.ok e) => some e | _ => none) =
      some [(c!"u", [⟨⟨⟨0, 0⟩, ⟨0, 21⟩⟩, c!"@a-9223372036854775808"⟩])] := by decide +kernel

/-- C32 fails for two signs. -/
theorem C32_refuted_sign :
    (match rename debugEnv (serverWith [] c!"u" c!"@a1 = 1\n") c!"u" ⟨0, 1⟩ c!"--9223372036854775808" with | .panic => true | _ => false) = true := by
  decide +kernel

/-- The action on `%v1`. -/
example : (match codeAction debugEnv (serverWith [] c!"u" renText) c!"u" ⟨⟨1, 21⟩, ⟨1, 21⟩⟩ with | .ok (.ok e) => some e | _ => none) =
    some (some [{
      title := c!"Shift variable numbering"
      data := .shift ⟨c!"u", .localVar, some 0, 1⟩
      edit := some [(c!"u", [⟨⟨⟨1, 21⟩, ⟨1, 24⟩⟩, c!"%v2"⟩, ⟨⟨⟨3, 23⟩, ⟨3, 26⟩⟩, c!"%v2"⟩, ⟨⟨⟨3, 7⟩, ⟨3, 10⟩⟩, c!"%v3"⟩])] }]) := by
  decide +kernel

/-- As `asciiUnicode`, with one more letter. -/
@[reducible] def accentUnicode : Unicode where
  alphabetic c := c.isAlpha || decide (c = 'é')
  numeric c := c.isDigit
  whitespace c := decide (c = ' ') || decide (9 ≤ c.toNat ∧ c.toNat ≤ 13)
  alphabetic_ascii c hc := by
    have : c ≠ 'é' := by rintro rfl; revert hc; decide
    simp [this]
  numeric_ascii _ _ := rfl
  whitespace_ascii _ _ := rfl

/-- C33 fails for characters of more than one byte: asking for the actions crashes. -/
theorem C33_refuted_nonascii :
    (letI := accentUnicode
     match analyze c!"@é1 = 1\n" with
     | .ok (doc, _) => (match codeAction debugEnv { docs := [(c!"u", doc)] } c!"u" ⟨⟨0, 0⟩, ⟨0, 0⟩⟩ with | .panic => true | _ => false)
     | .panic => false) = true := by
  decide +kernel

/-- C34 fails: the action offered on `%v1` crashes the server if the function has been removed. -/
theorem C34_refuted_stale :
    (match codeAction debugEnv { serverWith [] c!"u" renText with lazyResolve := true } c!"u" ⟨⟨1, 21⟩, ⟨1, 21⟩⟩ with
     | .ok (.ok (some [a])) => (match codeActionResolve debugEnv (serverWith [] c!"u" c!"@a = 1\n") a with | .panic => true | _ => false)
     | _ => false) = true := by
  decide +kernel

end Examples

end HyperIR
