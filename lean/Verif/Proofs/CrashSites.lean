import Verif.Spec.CrashSites
import Verif.Props.Crashes
import Verif.Proofs.Join

/-! Exactly which messages end the server. -/

namespace HyperIR
open Spec

/-! ### Positions -/

theorem isLineBreak_not {c : Char} {rest : Str} (h : ¬ BreakChar c) : isLineBreak c rest = false := by
  unfold BreakChar at h
  unfold isLineBreak
  have h13 : c ≠ '\r' := by rintro rfl; exact h (by decide)
  rw [if_neg h13]
  simp only [decide_eq_false_iff_not]
  omega

theorem isLineBreak_break {c : Char} {rest : Str} (h : BreakChar c) (hr : c = '\r' → rest.head? ≠ some '\n') : isLineBreak c rest = true := by
  unfold isLineBreak
  split
  · rename_i hc
    exact decide_eq_true (hr hc)
  · rename_i hc
    unfold BreakChar at h
    have : c.toNat ≠ 13 := by
      intro h13
      exact hc (Char.toNat_inj.mp h13)
    exact decide_eq_true (by omega)

theorem lineToChar?_skip {line rest : Str} {n : Nat} (h : ∀ c ∈ line, ¬ BreakChar c) :
    lineToChar? (n + 1) (line ++ rest) = (lineToChar? (n + 1) rest).map (· + line.length) := by
  induction line with
  | nil => simp
  | cons c line ih =>
    rw [List.cons_append, lineToChar?, isLineBreak_not (h c (by simp)), ih fun c hc => h c (by simp [hc])]
    cases lineToChar? (n + 1) rest <;> simp; omega

theorem lineBegins_sound {text : Str} {n k : Nat} (h : LineBegins text n k) : lineToChar? n text = some k := by
  induction h with
  | @first text => cases text <;> rfl
  | @next line eol rest n k h1 h2 h3 h4 ih =>
    rw [List.append_assoc, lineToChar?_skip h1]
    rcases h2 with rfl | ⟨c, rfl, hc⟩
    · have e1 : isLineBreak '\r' ('\n' :: rest) = false := rfl
      have e2 : isLineBreak '\n' rest = true := rfl
      simp only [List.cons_append, List.nil_append, lineToChar?, e1, e2, ih]
      simp; omega
    · have e1 := isLineBreak_break (rest := rest) hc (fun e => h3 (by rw [e]))
      simp only [List.cons_append, List.nil_append, lineToChar?, e1, ih]
      simp; omega

theorem lineBegins_cons {c : Char} {text : Str} {n k : Nat} (hc : ¬ BreakChar c) (h : LineBegins text (n + 1) k) : LineBegins (c :: text) (n + 1) (k + 1) := by
  cases h with
  | @next line eol rest n k h1 h2 h3 h4 =>
    have := LineBegins.next (line := c :: line) (fun d hd => by
      rcases List.mem_cons.mp hd with rfl | hd
      · exact hc
      · exact h1 d hd) h2 h3 h4
    have e : (c :: line).length + eol.length + k = line.length + eol.length + k + 1 := by simp; omega
    rw [e] at this
    exact this

theorem lineBegins_complete : ∀ (text : Str) {n k : Nat}, lineToChar? n text = some k → LineBegins text n k ∨ text.length ≤ k
  | text, 0, k, h => by
    have : k = 0 := by cases text <;> simp [lineToChar?] at h <;> exact h.symm
    subst this
    exact .inl .first
  | [], n + 1, k, h => .inr (Nat.zero_le _)
  | c :: cs, n + 1, k, h => by
    by_cases hb : isLineBreak c cs = true
    · simp only [lineToChar?, hb, if_true, Option.map_eq_some_iff] at h
      obtain ⟨k', hk, rfl⟩ := h
      rcases lineBegins_complete cs hk with h1 | h1
      · left
        have hc : BreakChar c := by
          refine Classical.byContradiction fun hn => ?_
          rw [isLineBreak_not hn] at hb
          cases hb
        have := LineBegins.next (line := []) (eol := [c]) (by simp) (.inr ⟨c, rfl, hc⟩) (by
          intro e
          simp only [List.cons.injEq, and_true] at e
          subst e
          unfold isLineBreak at hb
          simpa using hb) h1
        simp only [List.nil_append, List.cons_append, List.length_nil, List.length_cons] at this
        have e : 0 + (0 + 1) + k' = k' + 1 := by omega
        rw [e] at this
        exact this
      · right
        simp only [List.length_cons]; omega
    · by_cases hc : BreakChar c
      · -- a carriage return before a line feed
        have h13 : c = '\r' ∧ cs.head? = some '\n' := by
          refine Classical.byContradiction fun hn => hb (isLineBreak_break hc fun e => ?_)
          exact fun e' => hn ⟨e, e'⟩
        obtain ⟨rfl, hh⟩ := h13
        cases cs with
        | nil => cases hh
        | cons d cs =>
          simp only [List.head?_cons, Option.some.injEq] at hh
          subst hh
          have e1 : isLineBreak '\r' ('\n' :: cs) = false := rfl
          have e2 : isLineBreak '\n' cs = true := rfl
          simp only [lineToChar?, e1, e2, Bool.false_eq_true, if_false, if_true, Option.map_map, Option.map_eq_some_iff, Function.comp_apply] at h
          obtain ⟨k', hk, rfl⟩ := h
          rcases lineBegins_complete cs hk with h1 | h1
          · left
            have := LineBegins.next (line := []) (eol := ['\r', '\n']) (by simp) (.inl rfl) (by simp) h1
            simp only [List.nil_append, List.cons_append, List.length_nil, List.length_cons] at this
            have e : 0 + (0 + 1 + 1) + k' = k' + 1 + 1 := by omega
            rw [e] at this
            exact this
          · right
            simp only [List.length_cons]; omega
      · simp only [lineToChar?, hb, Bool.false_eq_true, if_false, Option.map_eq_some_iff] at h
        obtain ⟨k', hk, rfl⟩ := h
        rcases lineBegins_complete cs hk with h1 | h1
        · exact .inl (lineBegins_cons hc h1)
        · right
          simp only [List.length_cons]; omega
  termination_by text => text.length

section
variable [Unicode] {env : Env} {st st' : ServerState} {uri text : Str} {res : ParserResult}

/-- The symbol that the server finds at a position. -/
theorem symbolAt_under {doc : AnalyzedDocument} (hk : Known st uri text res) (hst : st.docs.get? uri = some doc) {p : Pos}
    {o : SymbolOccurrence} : symbolAt doc p = some o ↔ SymbolUnder st uri p text res o := by
  obtain ⟨doc', errs, ha, hst'⟩ := hk.1
  rw [hst] at hst'
  cases hst'
  constructor
  · intro h
    cases hoff : lspPosToOffset text p with
    | none =>
      obtain ⟨_, _, h2, _⟩ := analyze_inv ha
      unfold symbolAt at h
      rw [h2, hoff] at h
      cases h
    | some off =>
      obtain ⟨ho, hc⟩ := (symbolAt_offset ha hk.2 hoff).1 o h
      refine ⟨hk, ho, ?_, ?_⟩
      · obtain ⟨_, k1, _, _, _, _, k2⟩ := analyze_inv ha
        rw [hk.2] at k1
        cases k1
        unfold symbolAt at h
        cases hq : lspPosToOffset doc.rope p with
        | none => rw [hq] at h; cases h
        | some i =>
          rw [hq] at h
          exact ((C19_exact hk.2 k2 i o).mp h).2.2
      unfold lspPosToOffset at hoff
      rw [Option.map_eq_some_iff] at hoff
      obtain ⟨start, hs, rfl⟩ := hoff
      rcases lineBegins_complete text hs with h1 | h1
      · exact ⟨start, h1, hc⟩
      · have := (occurs_inside hk.2 ho).2
        unfold Covers at hc
        omega
  · rintro ⟨_, ho, hv, start, hs, hc⟩
    have hoff : lspPosToOffset text p = some (start + p.character) := by
      unfold lspPosToOffset
      rw [lineBegins_sound hs]
      rfl
    obtain ⟨o', h1, _, _, h4⟩ := (symbolAt_offset ha hk.2 hoff).2 o ho hc
    rw [h1, h4 hv]

/-! ### Files -/

omit [Unicode] in
theorem resolve_stuck {fs : FileSystem} {roots : List Url} {path : Str} (hr : ∀ r ∈ roots, Opaque r ∨ Folder r) (ho : NoTabs path) :
    (resolveRelativePath fs roots path = .panic ↔ Stuck fs roots path) ∧
    ((∃ u, resolveRelativePath fs roots path = .ok (some u)) ↔ Finds fs roots path) := by
  induction roots with
  | nil =>
    simp [resolveRelativePath, Stuck, Finds]
  | cons r roots ih =>
    obtain ⟨ih1, ih2⟩ := ih fun r hm => hr r (by simp [hm])
    by_cases hop : Opaque r
    · have e : resolveRelativePath fs (r :: roots) path = .panic := by
        unfold resolveRelativePath
        exact if_pos hop
      rw [e]
      refine ⟨iff_of_true rfl ⟨[], r, roots, rfl, hop, by simp⟩, iff_of_false (by simp) ?_⟩
      rintro ⟨before, root, after, h1, h2, h3⟩
      cases before with
      | nil => cases h1; exact h2.1 hop
      | cons b before => cases h1; exact (h3 r (by simp)).1 hop
    · have hf : Folder r := (hr r (by simp)).resolve_left hop
      have hstep : resolveRelativePath fs (r :: roots) path =
          if fs (folderPath r path) then .ok (some (folderPath r path)) else resolveRelativePath fs roots path := by
        conv => lhs; unfold resolveRelativePath
        rw [if_neg (by rw [hf.1]; simp)]
        rfl
      rw [hstep]
      by_cases hx : fs (folderPath r path) = true
      · rw [if_pos hx]
        have hin : InFolder r path (folderPath r path) := (inFolder_iff hf ho).mpr rfl
        refine ⟨iff_of_false (by simp) ?_, iff_of_true ⟨_, rfl⟩ ⟨[], r, roots, rfl, ⟨hop, _, hin, hx⟩, by simp⟩⟩
        rintro ⟨before, root, after, h1, h2, h3⟩
        cases before with
        | nil => cases h1; exact hop h2
        | cons b before =>
          cases h1
          have := (h3 r (by simp)).2 _ hin
          rw [hx] at this
          cases this
      · rw [if_neg hx, ih1, ih2]
        have hno : ∀ u, InFolder r path u → fs u = false := by
          intro u hu
          rw [(inFolder_iff hf ho).mp hu]
          simpa using hx
        constructor
        · constructor
          · rintro ⟨before, root, after, rfl, h2, h3⟩
            refine ⟨r :: before, root, after, rfl, h2, fun r' hr' => ?_⟩
            rcases List.mem_cons.mp hr' with rfl | hr'
            · exact ⟨hop, hno⟩
            · exact h3 r' hr'
          · rintro ⟨before, root, after, h1, h2, h3⟩
            cases before with
            | nil => cases h1; exact absurd h2 hop
            | cons b before => cases h1; exact ⟨before, root, after, rfl, h2, fun r' hr' => h3 r' (by simp [hr'])⟩
        · constructor
          · rintro ⟨before, root, after, rfl, h2, h3⟩
            refine ⟨r :: before, root, after, rfl, h2, fun r' hr' => ?_⟩
            rcases List.mem_cons.mp hr' with rfl | hr'
            · exact ⟨hop, hno⟩
            · exact h3 r' hr'
          · rintro ⟨before, root, after, h1, h2, h3⟩
            cases before with
            | nil =>
              cases h1
              obtain ⟨_, u, hu, hu'⟩ := h2
              rw [hno u hu] at hu'
              cases hu'
            | cons b before => cases h1; exact ⟨before, root, after, rfl, h2, fun r' hr' => h3 r' (by simp [hr'])⟩

omit [Unicode] in
theorem u32Sub_one {b : Build} {x : Nat} : u32Sub b x 1 = .panic ↔ b.overflowChecks = true ∧ x = 0 := by
  unfold u32Sub
  generalize (x + 2 ^ 32 - 1) % 2 ^ 32 = y
  by_cases h : 1 ≤ x
  · rw [if_pos h]
    exact iff_of_false nofun (by omega)
  · rw [if_neg h]
    by_cases hb : b.overflowChecks = true
    · rw [if_pos hb]
      exact iff_of_true rfl ⟨hb, by omega⟩
    · rw [if_neg hb]
      exact iff_of_false nofun fun h => hb h.1

omit [Unicode] in
theorem externalLocations_panic_iff {roots : List Url} : ∀ {l : List ExternalDef}, externalLocations env roots l = .panic ↔
    ∃ d ∈ l, resolveRelativePath env.fs roots d.filepath = .panic ∨
      env.build.overflowChecks = true ∧ d.line = 0 ∧ ∃ u, resolveRelativePath env.fs roots d.filepath = .ok (some u)
  | [] => by simp [externalLocations]
  | d :: ds => by
    have ih := externalLocations_panic_iff (roots := roots) (l := ds)
    unfold externalLocations
    simp only [List.mem_cons, exists_eq_or_imp]
    cases hr : resolveRelativePath env.fs roots d.filepath with
    | panic => simp
    | ok r =>
      cases r with
      | none => simp only [ih]; simp
      | some u =>
        simp only
        cases hu : u32Sub env.build d.line 1 with
        | panic =>
          have := u32Sub_one.mp hu
          simp [this]
        | ok l =>
          have hno : ¬ (env.build.overflowChecks = true ∧ d.line = 0) := by
            rw [← u32Sub_one, hu]; simp
          simp only
          cases hx : externalLocations env roots ds with
          | panic => rw [hx] at ih; exact iff_of_true rfl (.inr (ih.mp rfl))
          | ok ls =>
            rw [hx] at ih
            refine iff_of_false (by simp) ?_
            rintro (h | h)
            · rcases h with h | h
              · cases h
              · exact hno ⟨h.1, h.2.1⟩
            · have := ih.mpr h
              cases this

/-! ### Shifts -/

theorem extract_panic_iff {id : Str} : extractNumberFromIdentifier id = .panic ↔ WideBeforeNumber id := by
  refine ⟨extract_panic, ?_⟩
  rintro ⟨pre, c, suf, rfl, h1, h2, h3⟩
  have hs := split_unique (id := pre ++ c :: suf) (pre := pre ++ [c]) (suf := suf) (by simp) h1 (by
    intro x hx
    simp at hx
    rw [← hx]; exact h2)
  unfold extractNumberFromIdentifier
  rw [hs]
  simp only [List.getLast?_append, List.getLast?_singleton, Option.some_or]
  rw [if_neg]
  intro hsz
  apply h3
  simp only [Char.utf8Size] at hsz
  split at hsz
  · rename_i hle
    have : c.val.toNat ≤ 127 := hle
    unfold Char.toNat; omega
  · split at hsz
    · omega
    · split at hsz <;> omega

omit [Unicode] in
theorem i64Op_panic_iff {b : Build} {x : Int} : i64Op b x = .panic ↔ b.overflowChecks = true ∧ ¬ Fits64 x := by
  refine ⟨i64Op_panic, ?_⟩
  rintro ⟨h1, h2⟩
  unfold i64Op
  rw [if_neg, if_pos h1]
  intro h
  apply h2
  unfold i64InRange at h
  unfold Fits64
  simpa using h

omit [Unicode] in
theorem collectO_panic_iff {α β : Type} {g : α → Outcome (List β)} : ∀ {l : List α}, collectO g l = .panic ↔ ∃ x ∈ l, g x = .panic
  | [] => by simp [collectO]
  | x :: l => by
    have ih := collectO_panic_iff (g := g) (l := l)
    unfold collectO
    simp only [List.mem_cons, exists_eq_or_imp]
    cases hx : g x with
    | panic => simp
    | ok y =>
      simp only [reduceCtorEq, false_or, ← ih]
      cases hl : collectO g l <;> simp

theorem shiftEditsOf_panic {rope name : Str} {u : UseDefList} {start shift : Int} :
    shiftEditsOf env.build rope start shift name u = .panic ↔
      WideBeforeNumber name ∨ env.build.overflowChecks = true ∧ ∃ (pre : Str) (nr : Nat), Numbered name pre nr ∧ start ≤ nr ∧ ¬ Fits64 (nr + shift) := by
  unfold shiftEditsOf
  cases hex : extractNumberFromIdentifier name with
  | panic => exact iff_of_true rfl (.inl (extract_panic hex))
  | ok r =>
    have hw : ¬ WideBeforeNumber name := by rw [← extract_panic_iff, hex]; simp
    cases r with
    | none =>
      have := (extract_spec name).2.1 hex
      refine iff_of_false (by simp) ?_
      rintro (h | ⟨_, pre, nr, h, _⟩)
      · exact hw h
      · exact this pre nr h
    | some r =>
      obtain ⟨pre, i⟩ := r
      obtain ⟨nr, rfl, hnum⟩ := (extract_spec name).1 pre i hex
      simp only
      have hiff : (WideBeforeNumber name ∨ env.build.overflowChecks = true ∧
          ∃ (pre : Str) (nr : Nat), Numbered name pre nr ∧ start ≤ nr ∧ ¬ Fits64 (nr + shift)) ↔
          env.build.overflowChecks = true ∧ start ≤ nr ∧ ¬ Fits64 (nr + shift) := by
        constructor
        · rintro (h | ⟨h1, pre', nr', h2, h3, h4⟩)
          · exact absurd h hw
          · obtain ⟨_, rfl⟩ := numbered_unique hnum h2
            exact ⟨h1, h3, h4⟩
        · rintro ⟨h1, h2, h3⟩
          exact .inr ⟨h1, pre, nr, hnum, h2, h3⟩
      rw [hiff]
      split
      · exact iff_of_false (by simp) (by omega)
      · cases hop : i64Op env.build (nr + shift) with
        | panic =>
          obtain ⟨h1, h2⟩ := i64Op_panic hop
          exact iff_of_true rfl ⟨h1, by omega, h2⟩
        | ok s =>
          refine iff_of_false (by simp) ?_
          rintro ⟨h1, _, h2⟩
          rw [i64Op_panic_iff.mpr ⟨h1, h2⟩] at hop
          cases hop

theorem getShiftEdits_panic_iff {ix : HIRIndex} (h : parseFromStr text = .ok res) (hix : createIndex text res.tokens res.stmts = .ok ix)
    {rope : Str} {k f} {start shift : Int} : getShiftEdits env.ord env.build rope ix k f start shift = .panic ↔
    (∃ i, f = some i ∧ (docFuncs res.stmts).length ≤ i) ∨ (f = none ∧ (k = .label ∨ k = .localVar)) ∨
      CannotShift env res k f start shift := by
  have hlen : (docFuncs res.stmts).length = ix.functionBodies.length := by
    rw [← (C20_local_scope h hix).1, List.length_map]
  by_cases hst : (∃ i, f = some i ∧ (docFuncs res.stmts).length ≤ i) ∨ (f = none ∧ (k = .label ∨ k = .localVar))
  · refine iff_of_true ?_ (hst.elim .inl fun h => .inr (.inl h))
    rcases hst with ⟨i, rfl, hi⟩ | ⟨rfl, hk⟩
    · unfold getShiftEdits
      have : ix.funcBody (some i) = .panic := by
        simp only [HIRIndex.funcBody]
        rw [List.getElem?_eq_none (by omega)]
      rw [this]
    · unfold getShiftEdits
      rcases hk with rfl | rfl <;> simp [HIRIndex.funcBody, HIRIndex.getBySymbolKind]
  have hred : ((∃ i, f = some i ∧ (docFuncs res.stmts).length ≤ i) ∨ (f = none ∧ (k = .label ∨ k = .localVar)) ∨
      CannotShift env res k f start shift) ↔ CannotShift env res k f start shift := by
    constructor
    · rintro (h1 | h1 | h1)
      · exact absurd (.inl h1) hst
      · exact absurd (.inr h1) hst
      · exact h1
    · exact fun h1 => .inr (.inr h1)
  rw [hred]
  -- the scope of the table
  obtain ⟨f', hk, hf, heq, hsame⟩ : ∃ f', ((k = .label ∨ k = .localVar) ↔ ∃ i, f' = some i) ∧ (∀ i, f' = some i → i < ix.functionBodies.length) ∧
      tableOf ix k f = tableOf ix k f' ∧ (k = .label ∨ k = .localVar → f' = f) := by
    cases f with
    | none =>
      refine ⟨none, ?_, (fun i hi => nomatch hi), rfl, fun _ => rfl⟩
      simp only [reduceCtorEq, exists_false, iff_false]
      exact fun hk => hst (.inr ⟨rfl, hk⟩)
    | some i =>
      have hi : i < ix.functionBodies.length := by
        have : ¬ (docFuncs res.stmts).length ≤ i := fun hle => hst (.inl ⟨i, rfl, hle⟩)
        omega
      by_cases hk : k = .label ∨ k = .localVar
      · exact ⟨some i, by simp [hk], by simp; exact hi, rfl, fun _ => rfl⟩
      · refine ⟨none, by simp [hk], (fun i hi => nomatch hi), ?_, fun h => absurd h hk⟩
        cases k <;> simp at hk <;> simp [tableOf, HIRIndex.funcBody, HIRIndex.getBySymbolKind, List.getElem?_eq_getElem hi]
  obtain ⟨m, hm, hget, hnd⟩ := tableOf_spec (distinctKeys h hix) hk hf
  rw [← heq] at hm
  rw [getShiftEdits_table hm, collectO_panic_iff]
  constructor
  · rintro ⟨x, hx, hpan⟩
    have hx' : entry? ix k f' x.1 = some x.2 := by
      rw [← hget]; exact StrMap.get?_of_mem hnd ((env.ord.perm m).mem_iff.mp hx)
    obtain ⟨o, ho, hok, hof, hon⟩ := entry_occurs h hix hx'
    refine ⟨o, ho, hok, fun hl => by rw [hof]; exact hsame hl, ?_⟩
    rw [hon]
    exact shiftEditsOf_panic.mp hpan
  · rintro ⟨o, ho, hok, hof, hc⟩
    obtain ⟨u, hu⟩ := occurs_entry h hix ho
    have hf' : o.funcBodyId = f' := by
      by_cases hl : k = .label ∨ k = .localVar
      · rw [hof hl, hsame hl]
      · have h1 := (occurs_scope h hix ho).1
        rw [hok] at h1
        cases f' with
        | some i => exact absurd (hk.mpr ⟨i, rfl⟩) hl
        | none =>
          cases hb : o.funcBodyId with
          | none => rfl
          | some i => exact absurd (h1.mpr ⟨i, hb⟩) hl
    rw [hok, hf'] at hu
    have hmem : (o.name, u) ∈ m := StrMap.mem_of_get? (by rw [hget, hu])
    exact ⟨(o.name, u), (env.ord.perm m).mem_iff.mpr hmem, shiftEditsOf_panic.mpr hc⟩

omit [Unicode] in
theorem parseI64_iff {w : Str} {i : Int} : parseI64 w = some i ↔ SignedNumber w i := by
  refine ⟨parseI64_signed, ?_⟩
  rintro ⟨ds, n, hd, ⟨hw, hn, rfl⟩ | ⟨rfl, hn, rfl⟩⟩
  · rcases hw with rfl | rfl
    · have hdig := denotes_digits hd
      unfold parseI64
      split
      · have := hdig '-' (by simp)
        exact absurd this (by decide)
      · have := hdig '+' (by simp)
        exact absurd this (by decide)
      · rw [parseNat_iff.mpr hd]
        simp only
        rw [if_pos hn]
    · unfold parseI64
      simp only [parseNat_iff.mpr hd]
      rw [if_pos hn]
  · unfold parseI64
    simp only [parseNat_iff.mpr hd]
    rw [if_pos hn]

/-! ### Hints -/

omit [Unicode] in
theorem lastText_cut {src name v : Str} {ss : List Statement} (hok : ∀ n d, .dbgAnnotation n d ∈ ss → annotationValue src d ≠ .panic) :
    lastText src name ss = some v ↔ CutText src ss name v := by
  have key : ∀ ss : List Statement, (∀ n d, .dbgAnnotation n d ∈ ss → annotationValue src d ≠ .panic) →
      (lastText src name ss = some v ↔ CutText src ss name v) ∧
      (lastText src name ss = none ↔ ∀ n d, .dbgAnnotation n d ∈ ss → n.1 = name → d = []) := by
    intro ss
    induction ss with
    | nil =>
      intro _
      refine ⟨⟨fun h => (by cases h), ?_⟩, by simp [lastText]⟩
      rintro ⟨before, _, _, _, _, _, _, _, e, _⟩
      simp at e
    | cons s ss ih =>
      intro hsub
      obtain ⟨ih1, ih2⟩ := ih fun n d hs => hsub n d (by simp [hs])
      have hval : ∀ n d, s = .dbgAnnotation n d → ((∃ v, annotationValue src d = .ok (some v)) ↔ d ≠ []) ∧
          (d = [] → annotationValue src d = .ok none) := by
        rintro n d rfl
        have := hsub n d (by simp)
        cases d with
        | nil => simp [annotationValue]
        | cons a d =>
          refine ⟨iff_of_true ?_ (by simp), by simp⟩
          unfold annotationValue at this ⊢
          cases hl : (a :: d).getLast? with
          | none => simp at hl
          | some l =>
            rw [hl] at this
            simp only [List.head?_cons] at this ⊢
            cases hs : sliceBytes src a.2.start l.2.stop with
            | panic => rw [hs] at this; exact absurd rfl this
            | ok w => exact ⟨w, rfl⟩
      have hown : (∀ n d, s = .dbgAnnotation n d → n.1 = name → d = []) ↔ ownText src name s = none := by
        cases s with
        | dbgAnnotation n d =>
          obtain ⟨h1, h2⟩ := hval n d rfl
          simp only [ownText]
          constructor
          · intro hh
            split
            · rw [h2 (hh n d rfl ‹_›)]
            · rfl
          · rintro hh n' d' e hn
            cases e
            rw [if_pos hn] at hh
            refine Classical.byContradiction fun hd => ?_
            obtain ⟨w, hw⟩ := h1.mpr hd
            rw [hw] at hh
            cases hh
        | _ => simp [ownText]
      have hown' : ∀ w, ownText src name s = some w ↔ ∃ n d f l a c, s = .dbgAnnotation n d ∧ n.1 = name ∧ d.head? = some f ∧
          d.getLast? = some l ∧ src = a ++ w ++ c ∧ utf8Len a = f.2.start ∧ utf8Len (a ++ w) = l.2.stop := by
        intro w
        cases s with
        | dbgAnnotation n d =>
          simp only [ownText]
          constructor
          · intro hh
            split at hh
            · unfold annotationValue at hh
              cases hf : d.head? with
              | none => rw [hf] at hh; cases hh
              | some f =>
                cases hl : d.getLast? with
                | none => rw [hf, hl] at hh; cases hh
                | some l =>
                  rw [hf, hl] at hh
                  simp only at hh
                  cases hs : sliceBytes src f.2.start l.2.stop with
                  | panic => rw [hs] at hh; cases hh
                  | ok w' =>
                    rw [hs] at hh
                    cases hh
                    obtain ⟨a, c, e1, e2, e3⟩ := sliceBytes_iff.mp hs
                    exact ⟨n, d, f, l, a, c, rfl, ‹_›, hf, hl, e1, e2, e3⟩
            · cases hh
          · rintro ⟨n', d', f, l, a, c, e, hn, hf, hl, e1, e2, e3⟩
            cases e
            rw [if_pos hn]
            unfold annotationValue
            simp only [hf, hl, sliceBytes_iff.mpr ⟨a, c, e1, e2, e3⟩]
        | _ => simp [ownText]
      rw [lastText]
      constructor
      · cases ht : lastText src name ss with
        | some w =>
          rw [ht] at ih1
          simp only [Option.some_or]
          rw [ih1]
          constructor
          · rintro ⟨before, n, d, after, f, l, a, c, rfl, h1⟩
            exact ⟨s :: before, n, d, after, f, l, a, c, rfl, h1⟩
          · rintro ⟨before, n, d, after, f, l, a, c, e, h1, h2, h3, h4, h5⟩
            cases before with
            | nil =>
              simp only [List.nil_append, List.cons.injEq] at e
              have : lastText src name ss = none := ih2.mpr (by rw [e.2]; exact h4)
              rw [ht] at this
              cases this
            | cons b before =>
              simp only [List.cons_append, List.cons.injEq] at e
              exact ⟨before, n, d, after, f, l, a, c, e.2, h1, h2, h3, h4, h5⟩
        | none =>
          have hno := ih2.mp ht
          simp only [Option.none_or]
          rw [hown']
          constructor
          · rintro ⟨n, d, f, l, a, c, rfl, h1, h2, h3, h4⟩
            exact ⟨[], n, d, ss, f, l, a, c, rfl, h1, h2, h3, hno, h4⟩
          · rintro ⟨before, n, d, after, f, l, a, c, e, h1, h2, h3, h4, h5⟩
            cases before with
            | nil =>
              simp only [List.nil_append, List.cons.injEq] at e
              exact ⟨n, d, f, l, a, c, e.1, h1, h2, h3, h5⟩
            | cons b before =>
              simp only [List.cons_append, List.cons.injEq] at e
              have := hno n d (by rw [e.2]; simp) h1
              subst this
              cases h2
      · rw [Option.or_eq_none_iff, ih2, ← hown]
        constructor
        · rintro ⟨h1, h2⟩ n d hm hn
          rcases List.mem_cons.mp hm with e | hm
          · exact h2 n d e.symm hn
          · exact h1 n d hm hn
        · intro hh
          exact ⟨fun n d hm hn => hh n d (by simp [hm]) hn, fun n d e hn => hh n d (by simp [e]) hn⟩
  exact (key ss hok).1

omit [Unicode] in
theorem parseFrame_total {fs : FileSystem} {roots : List Url} {j : Json} (hr : ∀ r ∈ roots, Opaque r ∨ Folder r)
    (ht : ∀ l file n, IsLink j l → FileLine l file n → NoTabs file) :
    (∀ f, parseFrame fs roots j = .ok f → FrameOf j f) ∧
    (parseFrame fs roots j = .panic ↔ ∃ l file n, IsLink j l ∧ FileLine l file n ∧ Stuck fs roots file) := by
  unfold parseFrame
  simp only
  have hl : ∀ s, IsLink j s ↔ (j.item 1).bind Json.asStr = some s := fun s => item_one.symm
  have hnm := frameName_spec j
  generalize frameName ((j.item 0).bind Json.asStr) ((j.item 1).bind Json.asStr) = nm at hnm
  generalize (j.item 1).bind Json.asStr = l at hl
  cases hfl : l.bind parseFileLine with
  | none =>
    have hno : ∀ s file n, IsLink j s → ¬ FileLine s file n := by
      intro s file n h1 h2
      rw [hl] at h1
      rw [h1] at hfl
      simp only [Option.bind_some] at hfl
      rw [parseFileLine_iff.mpr h2] at hfl
      cases hfl
    constructor
    · intro f hf
      cases hf
      exact ⟨hnm, (fun file h => nomatch h), fun _ => ⟨rfl, rfl, hno⟩⟩
    · refine iff_of_false nofun ?_
      rintro ⟨s, file, n, h1, h2, _⟩
      exact hno s file n h1 h2
  | some p =>
    obtain ⟨file, n⟩ := p
    obtain ⟨s, rfl, hs⟩ := Option.bind_eq_some_iff.mp hfl
    have hlink := (hl s).mpr rfl
    have hfile := parseFileLine_iff.mp hs
    have hstuck := (resolve_stuck (fs := fs) hr (ht s file n hlink hfile)).1
    have hiff : (∃ l file n, IsLink j l ∧ FileLine l file n ∧ Stuck fs roots file) ↔ Stuck fs roots file := by
      constructor
      · rintro ⟨l, file', n', h1, h2, h3⟩
        rw [hl] at h1
        cases h1
        have e := parseFileLine_iff.mpr h2
        rw [hs] at e
        cases e
        exact h3
      · exact fun h => ⟨s, file, n, hlink, hfile, h⟩
    rw [hiff, ← hstuck]
    simp only
    cases hres : resolveRelativePath fs roots file with
    | panic => exact ⟨fun f hf => (nomatch hf), iff_of_true rfl rfl⟩
    | ok o =>
      refine ⟨fun f hf => ?_, iff_of_false nofun nofun⟩
      cases hf
      refine ⟨hnm, ?_, by intro h; cases h⟩
      intro file' h
      cases h
      exact ⟨s, hlink, hfile⟩

omit [Unicode] in
theorem mapO_total {α β : Type} {g : α → Outcome β} {R : α → β → Prop} : ∀ {l : List α}, (∀ x ∈ l, ∀ y, g x = .ok y → R x y) →
    (∀ ys, mapO g l = .ok ys → Each R l ys) ∧ (mapO g l = .panic ↔ ∃ x ∈ l, g x = .panic)
  | [], _ => ⟨fun ys h => by cases h; exact .nil, by simp [mapO]⟩
  | x :: l, hR => by
    obtain ⟨i1, i2⟩ := mapO_total (g := g) (l := l) fun x hx => hR x (by simp [hx])
    unfold mapO
    simp only [List.mem_cons, exists_eq_or_imp]
    cases hx : g x with
    | panic => exact ⟨fun ys h => (nomatch h), by simp⟩
    | ok y =>
      simp only [reduceCtorEq, false_or, ← i2]
      cases hl : mapO g l with
      | panic => exact ⟨fun ys h => (nomatch h), by simp⟩
      | ok ys =>
        refine ⟨fun zs h => ?_, by simp⟩
        cases h
        exact .cons (hR x (by simp) y hx) (i1 ys hl)

omit [Unicode] in
theorem relevant_congr {frames frames' : List Frame} (h : frames.map (fun f : Frame => (f.symbol, f.filepath)) = frames'.map (fun f : Frame => (f.symbol, f.filepath)))
    {k : Nat} : Relevant frames k ↔ Relevant frames' k := by
  have hget : ∀ i : Nat, (frames[i]?).map (fun f : Frame => (f.symbol, f.filepath)) = (frames'[i]?).map (fun f : Frame => (f.symbol, f.filepath)) := by
    intro i
    rw [← List.getElem?_map, h, List.getElem?_map]
  have hm : ∀ fr : List Frame, ∀ k i : Nat, Spec.Matches fr k i ↔ ∃ pat s fp, preferences[k]? = some pat ∧
      (fr[i]?).map (fun f : Frame => (f.symbol, f.filepath)) = some (s, fp) ∧ Contains pat s := by
    intro fr k i
    constructor
    · rintro ⟨pat, f, h1, h2, h3⟩
      exact ⟨pat, f.symbol, f.filepath, h1, by rw [h2]; rfl, h3⟩
    · rintro ⟨pat, s, fp, h1, h2, h3⟩
      obtain ⟨f, h4, h5⟩ := Option.map_eq_some_iff.mp h2
      cases h5
      exact ⟨pat, f, h1, h4, h3⟩
  have he : ∀ fr : List Frame, ∀ i : Nat, External fr i ↔ ∃ s fp, (fr[i]?).map (fun f : Frame => (f.symbol, f.filepath)) = some (s, some fp) ∧
      ¬ Contains c!"hyper/ir/" fp ∧ ¬ Contains c!"hyper/codegen" fp := by
    intro fr i
    constructor
    · rintro ⟨f, fp, h1, h2, h3⟩
      exact ⟨f.symbol, fp, by rw [h1, ← h2]; rfl, h3⟩
    · rintro ⟨s, fp, h1, h2⟩
      obtain ⟨f, h4, h5⟩ := Option.map_eq_some_iff.mp h1
      simp only [Prod.mk.injEq] at h5
      exact ⟨f, fp, h4, h5.2, h2⟩
  have hm' : ∀ k i : Nat, Spec.Matches frames k i ↔ Spec.Matches frames' k i := fun k i => by rw [hm, hm, hget]
  have he' : ∀ i : Nat, External frames i ↔ External frames' i := fun i => by rw [he, he, hget]
  unfold Relevant
  simp only [hm', he']

omit [Unicode] in
theorem each_frames {l : List Json} {frames frames' : List Frame} (h : Each FrameOf l frames) (h' : Each FrameOf l frames') :
    frames.map (fun f : Frame => (f.symbol, f.filepath)) = frames'.map (fun f : Frame => (f.symbol, f.filepath)) := by
  induction h generalizing frames' with
  | nil => cases h'; rfl
  | cons h1 _ ih =>
    cases h' with
    | cons h2 h3 =>
      obtain ⟨e1, e2, _⟩ := frameOf_unique h1 h2
      rw [List.map_cons, List.map_cons, ih h3, e1, e2]

theorem inlayHintForBacktrace_panic {pos : Pos} {frames : List Frame} :
    inlayHintForBacktrace pos frames = .panic ↔ ∃ k f, Relevant frames k ∧ frames[k]? = some f ∧ Unshortenable f.symbol := by
  obtain ⟨hk1, _, _⟩ := C46_relevant_frame frames
  constructor
  · intro h
    rcases inlayHintForBacktrace_spec pos frames with ⟨hint, e1, _⟩ | ⟨_, h2⟩
    · rw [e1] at h; cases h
    · exact h2
  · rintro ⟨k, f, h1, h2, h3⟩
    unfold inlayHintForBacktrace
    simp only [(hk1 k).mpr h1, h2]
    cases hs : shortenName f.symbol 50 with
    | panic => rfl
    | ok s => exact absurd (shortenName_ok hs) (h3 s)

theorem backtraceHint_panic (hreg : Regular env st) (hk : Known st uri text res) {doc : AnalyzedDocument} (hst : st.docs.get? uri = some doc)
    {i : Instruction} (hi : i ∈ instructions res.stmts) :
    backtraceHint env st.roots doc i = .panic ↔ HintFails env st.roots text res.stmts i := by
  obtain ⟨doc', hst', hrope, hstmts, hix⟩ := opened_inv hk.1 hk.2
  rw [hst] at hst'
  cases hst'
  have hcut : ∀ name v, doc.index.dbgAnnotationValues.get? name = some v ↔ CutText text res.stmts name v := by
    intro name v
    rw [createIndex_vals hix, lastText_cut (annotationValue_of_createIndex hix)]
  unfold backtraceHint HintFails
  cases hd : i.dbgRef with
  | none =>
    refine iff_of_false nofun ?_
    rintro ⟨_, _, _, _, e, _⟩
    cases e
  | some ref =>
    simp only
    cases hv : doc.index.dbgAnnotationValues.get? ref.1 with
    | none =>
      refine iff_of_false nofun ?_
      rintro ⟨_, v, _, _, e, e2, _⟩
      cases e
      rw [(hcut _ _).mpr e2] at hv
      cases hv
    | some v =>
      simp only
      cases hj : env.json v with
      | none =>
        refine iff_of_false nofun ?_
        rintro ⟨_, v', _, _, e, e2, e3, _⟩
        cases e
        rw [(hcut _ _).mpr e2] at hv
        cases hv
        rw [hj] at e3
        cases e3
      | some j =>
        simp only
        unfold parseBacktraceFromJson
        cases hb : (j.field c!"backtrace").bind Json.asArray with
        | none =>
          refine iff_of_false nofun ?_
          rintro ⟨_, v', j', l, e, e2, e3, e4, _⟩
          cases e
          rw [(hcut _ _).mpr e2] at hv
          cases hv
          rw [hj] at e3
          cases e3
          rw [hasBacktrace_iff.mpr e4] at hb
          cases hb
        | some l =>
          have hl := hasBacktrace_iff.mp hb
          -- the claim for the one annotation
          have hiff : (∃ ref' v j entries, some ref = some ref' ∧ CutText text res.stmts ref'.1 v ∧ env.json v = some j ∧ HasBacktrace j entries ∧
              ((∃ e ∈ entries, ∃ l file n, IsLink e l ∧ FileLine l file n ∧ Stuck env.fs st.roots file) ∨
               ∃ frames k f, Each FrameOf entries frames ∧ Relevant frames k ∧ frames[k]? = some f ∧ Unshortenable f.symbol)) ↔
              ((∃ e ∈ l, ∃ l file n, IsLink e l ∧ FileLine l file n ∧ Stuck env.fs st.roots file) ∨
               ∃ frames k f, Each FrameOf l frames ∧ Relevant frames k ∧ frames[k]? = some f ∧ Unshortenable f.symbol) := by
            constructor
            · rintro ⟨_, v', j', l', e, e2, e3, e4, e5⟩
              cases e
              rw [(hcut _ _).mpr e2] at hv
              cases hv
              rw [hj] at e3
              cases e3
              rw [hasBacktrace_unique hl e4]
              exact e5
            · exact fun h => ⟨ref, v, j, l, rfl, (hcut _ _).mp hv, hj, hl, h⟩
          rw [hiff]
          have htabs : ∀ e ∈ l, ∀ s file n, IsLink e s → FileLine s file n → NoTabs file :=
            fun e he s file n h1 h2 => hreg.links v j l e s file n hj hl he h1 h2
          obtain ⟨m1, m2⟩ := mapO_total (g := parseFrame env.fs st.roots) (R := FrameOf) (l := l)
            fun e he y hy => (parseFrame_total (fs := env.fs) hreg.folders (htabs e he)).1 y hy
          have hstuck : mapO (parseFrame env.fs st.roots) l = .panic ↔
              ∃ e ∈ l, ∃ l file n, IsLink e l ∧ FileLine l file n ∧ Stuck env.fs st.roots file := by
            rw [m2]
            constructor
            · rintro ⟨e, he, hp⟩
              exact ⟨e, he, (parseFrame_total hreg.folders (htabs e he)).2.mp hp⟩
            · rintro ⟨e, he, hp⟩
              exact ⟨e, he, (parseFrame_total hreg.folders (htabs e he)).2.mpr hp⟩
          simp only
          cases hm : mapO (parseFrame env.fs st.roots) l with
          | panic => exact iff_of_true rfl (.inl (hstuck.mp hm))
          | ok frames =>
            have hno : ¬ ∃ e ∈ l, ∃ l file n, IsLink e l ∧ FileLine l file n ∧ Stuck env.fs st.roots file := by
              rw [← hstuck, hm]; nofun
            have heach := m1 frames hm
            obtain ⟨pos, hpos, _⟩ := tokenEnd_pos hk.2 (hreg.size uri text hk.1) (instr_dbgRef hk.2 i hi ref hd) (by simp)
            simp only at hpos
            simp only [hrope, hpos]
            have hiff2 : ((∃ e ∈ l, ∃ l file n, IsLink e l ∧ FileLine l file n ∧ Stuck env.fs st.roots file) ∨
               ∃ frames k f, Each FrameOf l frames ∧ Relevant frames k ∧ frames[k]? = some f ∧ Unshortenable f.symbol) ↔
               inlayHintForBacktrace pos frames = .panic := by
              rw [inlayHintForBacktrace_panic]
              constructor
              · rintro (h | ⟨frames', k, f, h1, h2, h3, h4⟩)
                · exact absurd h hno
                · have e := each_frames heach h1
                  have hg : (frames[k]?).map (fun f : Frame => (f.symbol, f.filepath)) = some (f.symbol, f.filepath) := by
                    rw [← List.getElem?_map, e, List.getElem?_map, h3]
                    rfl
                  obtain ⟨f', h5, h6⟩ := Option.map_eq_some_iff.mp hg
                  simp only [Prod.mk.injEq] at h6
                  exact ⟨k, f', (relevant_congr e).mpr h2, h5, by rw [h6.1]; exact h4⟩
              · rintro ⟨k, f, h1, h2, h3⟩
                exact .inr ⟨frames, k, f, heach, h1, h2, h3⟩
            rw [hiff2]
            cases hh : inlayHintForBacktrace pos frames <;> simp

end
end HyperIR
