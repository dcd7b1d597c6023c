import Verif.Spec.Answers
import Verif.Props.CrashSites
import Verif.Proofs.Wide

/-
What the server answers to the requests about a symbol, in any document.
-/

namespace HyperIR
open Spec

/-! ### Lines -/

theorem lineBegins_inv {c : Char} {cs : Str} {n k : Nat} (h : LineBegins (c :: cs) (n + 1) k) :
    ∃ k', k = k' + 1 ∧ ((isLineBreak c cs = true ∧ LineBegins cs n k') ∨ (isLineBreak c cs = false ∧ LineBegins cs (n + 1) k')) := by
  generalize ht : c :: cs = t at h
  cases h with
  | @next line eol rest n k h1 h2 h3 h4 =>
    cases line with
    | nil =>
      rcases h2 with rfl | ⟨d, rfl, hd⟩
      · obtain ⟨rfl, rfl⟩ := List.cons.inj ht
        refine ⟨k + 1, by simp; omega, .inr ⟨rfl, ?_⟩⟩
        have := LineBegins.next (line := []) (eol := ['\n']) (by simp) (.inr ⟨'\n', rfl, .inl rfl⟩) (by simp) h4
        simpa [Nat.add_comm] using this
      · obtain ⟨rfl, rfl⟩ := List.cons.inj ht
        exact ⟨k, by simp; omega, .inl ⟨isLineBreak_break hd fun e => h3 (by rw [e]), h4⟩⟩
    | cons d line =>
      obtain ⟨rfl, rfl⟩ := List.cons.inj ht
      refine ⟨line.length + eol.length + k, by simp; omega, .inr ⟨isLineBreak_not (h1 c (by simp)), ?_⟩⟩
      exact LineBegins.next (fun x hx => h1 x (by simp [hx])) h2 h3 h4

theorem lineBegins_break {c : Char} {cs : Str} {n k : Nat} (hb : isLineBreak c cs = true) (h : LineBegins cs n k) :
    LineBegins (c :: cs) (n + 1) (k + 1) := by
  have hc : BreakChar c := by
    refine Classical.byContradiction fun hn => ?_
    rw [isLineBreak_not hn] at hb
    cases hb
  have := LineBegins.next (line := []) (eol := [c]) (by simp) (.inr ⟨c, rfl, hc⟩) (by
    intro e
    simp only [List.cons.injEq, and_true] at e
    subst e
    unfold isLineBreak at hb
    simpa using hb) h
  simpa [Nat.add_comm] using this

theorem lineBegins_skip {c : Char} {cs : Str} {n k : Nat} (hb : isLineBreak c cs = false) (h : LineBegins cs (n + 1) k) :
    LineBegins (c :: cs) (n + 1) (k + 1) := by
  by_cases hc : BreakChar c
  · have h13 : c = '\r' ∧ cs.head? = some '\n' := by
      refine Classical.byContradiction fun hn => ?_
      have := isLineBreak_break (rest := cs) hc fun e e' => hn ⟨e, e'⟩
      rw [hb] at this
      cases this
    obtain ⟨rfl, hh⟩ := h13
    cases cs with
    | nil => cases hh
    | cons d cs =>
      simp only [List.head?_cons, Option.some.injEq] at hh
      subst hh
      obtain ⟨k', rfl, ⟨_, h2⟩ | ⟨h1, _⟩⟩ := lineBegins_inv h
      · have := LineBegins.next (line := []) (eol := ['\r', '\n']) (by simp) (.inl rfl) (by simp) h2
        have e : 0 + (0 + 1 + 1) + k' = k' + 1 + 1 := by omega
        simp only [List.nil_append, List.cons_append, List.length_nil, List.length_cons, e] at this
        exact this
      · cases h1
  · exact lineBegins_cons hc h

/-- The line a character is on begins at or before the character. -/
theorem lineBegins_at : ∀ (m : Nat) (s : Str), ∃ k, k ≤ m ∧ LineBegins s (charToLine m s) k
  | 0, s => ⟨0, Nat.le_refl _, .first⟩
  | m + 1, [] => ⟨0, by omega, .first⟩
  | m + 1, c :: cs => by
    obtain ⟨k, h1, h2⟩ := lineBegins_at m cs
    unfold charToLine
    cases hb : isLineBreak c cs with
    | true =>
      refine ⟨k + 1, by omega, ?_⟩
      rw [if_pos rfl, Nat.add_comm]
      exact lineBegins_break hb h2
    | false =>
      simp only [Bool.false_eq_true, if_false, Nat.zero_add]
      cases hn : charToLine m cs with
      | zero => exact ⟨0, by omega, .first⟩
      | succ n =>
        rw [hn] at h2
        exact ⟨k + 1, by omega, lineBegins_skip hb h2⟩

/-- The next line begins behind the character. -/
theorem lineBegins_after : ∀ {m : Nat} {s : Str} {k : Nat}, LineBegins s (charToLine m s + 1) k → m < k
  | 0, s, k, h => by
    cases s with
    | nil =>
      generalize ht : ([] : Str) = t at h
      cases h with
      | next _ h2 _ _ => rcases h2 with rfl | ⟨_, rfl, _⟩ <;> simp at ht
    | cons c cs =>
      obtain ⟨k', rfl, _⟩ := lineBegins_inv h
      omega
  | m + 1, [], k, h => by
    generalize ht : ([] : Str) = t at h
    cases h with
    | next _ h2 _ _ => rcases h2 with rfl | ⟨_, rfl, _⟩ <;> simp at ht
  | m + 1, c :: cs, k, h => by
    obtain ⟨k', rfl, h'⟩ := lineBegins_inv h
    unfold charToLine at h'
    rcases h' with ⟨hb, h'⟩ | ⟨hb, h'⟩
    · rw [hb, if_pos rfl, Nat.add_comm] at h'
      have := lineBegins_after h'
      omega
    · rw [hb] at h'
      simp only [Bool.false_eq_true, if_false, Nat.zero_add] at h'
      have := lineBegins_after h'
      omega

/-- All lines before a line begin before it. -/
theorem lineBegins_earlier : ∀ {s : Str} {n i k : Nat}, LineBegins s n k → i ≤ n → ∃ k', LineBegins s i k' ∧ k' ≤ k := by
  intro s n i k h
  induction h generalizing i with
  | first =>
    intro hi
    have : i = 0 := by omega
    subst this
    exact ⟨0, .first, Nat.le_refl _⟩
  | next h1 h2 h3 _ ih =>
    intro hi
    cases i with
    | zero => exact ⟨0, .first, Nat.zero_le _⟩
    | succ i =>
      obtain ⟨k', hk, hle⟩ := ih (i := i) (by omega)
      exact ⟨_, .next h1 h2 h3 hk, by omega⟩

/-- A character is on one line. -/
theorem line_unique {s : Str} {m n n' k k' : Nat} (h1 : LineBegins s n k) (h2 : k ≤ m) (h3 : ∀ j, LineBegins s (n + 1) j → m < j)
    (h1' : LineBegins s n' k') (h2' : k' ≤ m) (h3' : ∀ j, LineBegins s (n' + 1) j → m < j) : n = n' ∧ k = k' := by
  have hn : n = n' := by
    rcases Nat.lt_trichotomy n n' with h | h | h
    · obtain ⟨j, hj, hle⟩ := lineBegins_earlier h1' (i := n + 1) (by omega)
      have := h3 j hj
      omega
    · exact h
    · obtain ⟨j, hj, hle⟩ := lineBegins_earlier h1 (i := n' + 1) (by omega)
      have := h3' j hj
      omega
  subst hn
  have e1 := lineBegins_sound h1
  rw [lineBegins_sound h1'] at e1
  cases e1
  exact ⟨rfl, rfl⟩

/-! ### Bytes -/

/-- The characters that end at or before a byte. -/
theorem byteToChar_spec : ∀ (b : Nat) (s : Str), ∃ a r, s = a ++ r ∧ a.length = byteToChar b s ∧ utf8Len a ≤ b ∧
    ∀ c, r.head? = some c → b < utf8Len (a ++ [c])
  | b, [] => ⟨[], [], rfl, by simp [byteToChar], by simp [utf8Len], by simp⟩
  | b, c :: cs => by
    unfold byteToChar
    by_cases hc : c.utf8Size ≤ b
    · obtain ⟨a, r, h1, h2, h3, h4⟩ := byteToChar_spec (b - c.utf8Size) cs
      rw [if_pos hc]
      refine ⟨c :: a, r, by rw [h1]; rfl, by simp [h2]; omega, by simp only [utf8Len]; omega, ?_⟩
      intro d hd
      have := h4 d hd
      simp only [List.cons_append, utf8Len]
      omega
    · rw [if_neg hc]
      refine ⟨[], c :: cs, rfl, rfl, by simp [utf8Len], ?_⟩
      intro d hd
      simp only [List.head?_cons, Option.some.injEq] at hd
      subst hd
      simp only [List.nil_append, utf8Len]
      omega

theorem byteToChar_unique {b : Nat} {a r : Str} (h1 : utf8Len a ≤ b) (h2 : ∀ c, r.head? = some c → b < utf8Len (a ++ [c])) :
    byteToChar b (a ++ r) = a.length := by
  induction a generalizing b with
  | nil =>
    cases r with
    | nil => simp [byteToChar]
    | cons c r =>
      have := h2 c rfl
      simp only [List.nil_append, utf8Len] at this
      simp only [List.nil_append, byteToChar, List.length_nil]
      rw [if_neg (by omega)]
  | cons c a ih =>
    simp only [utf8Len] at h1
    simp only [List.cons_append, byteToChar, List.length_cons]
    rw [if_pos (by omega), ih (by omega)]
    · omega
    · intro d hd
      have := h2 d hd
      simp only [List.cons_append, utf8Len] at this
      omega

/-- The place shown for an offset. -/
theorem offsetToLspPos_shown {text : Str} (hsize : text.length < 2 ^ 32) {off : Nat} {p : Pos} :
    offsetToLspPos text off = some p ↔ ShownPlace text off p := by
  obtain ⟨k, hk, hl⟩ := lineBegins_at (byteToChar off text) text
  have hafter : ∀ j, LineBegins text (charToLine (byteToChar off text) text + 1) j → byteToChar off text < j := fun j hj => lineBegins_after hj
  have hle := byteToChar_le off text
  have hlines := byteToLine_le off text
  rw [byteToLine_chars] at hlines
  have hval : off ≤ utf8Len text → offsetToLspPos text off = some ⟨charToLine (byteToChar off text) text, byteToChar off text - k⟩ := by
    intro hb
    have hbl : byteToLine? off text = some (charToLine (byteToChar off text) text) := by
      unfold byteToLine?
      rw [if_pos hb, byteToLine_chars]
    have hbc : byteToChar? off text = some (byteToChar off text) := by
      unfold byteToChar?
      rw [if_pos hb]
    unfold offsetToLspPos
    rw [hbl]
    simp only
    rw [lineBegins_sound hl]
    simp only
    rw [hbc]
    simp only [toU32?]
    rw [if_pos (by omega), if_pos (by omega)]
  constructor
  · intro h
    by_cases hb : off ≤ utf8Len text
    · rw [hval hb] at h
      cases h
      obtain ⟨a, r, h1, h2, h3, h4⟩ := byteToChar_spec off text
      refine ⟨a, r, k, h1, h3, h4, hb, hl, ?_, ?_⟩
      · rw [h2]; simp only; omega
      · rw [h2]; exact hafter
    · unfold offsetToLspPos byteToLine? at h
      rw [if_neg hb] at h
      cases h
  · rintro ⟨a, r, start, rfl, h2, h3, h4, h5, h6, h7⟩
    rw [hval h4]
    have e := byteToChar_unique h2 h3
    rw [e] at hk hl hafter ⊢
    obtain ⟨e1, e2⟩ := line_unique hl hk hafter h5 (by omega) h7
    rw [e1, e2]
    congr 1
    cases p
    simp only at h6 ⊢
    congr 1
    omega

theorem rangeToLsp_shown {text : Str} (hsize : text.length < 2 ^ 32) {sp : Span} {r : Range} :
    rangeToLsp text sp = some r ↔ ShownRange text sp r := by
  unfold ShownRange
  rw [← offsetToLspPos_shown hsize, ← offsetToLspPos_shown hsize]
  unfold rangeToLsp
  cases offsetToLspPos text sp.start with
  | none => simp
  | some s =>
    cases offsetToLspPos text sp.stop with
    | none => simp
    | some e =>
      simp only [Option.some.injEq]
      constructor
      · rintro rfl; exact ⟨rfl, rfl⟩
      · rintro ⟨rfl, rfl⟩; rfl

/-! ### Numbers -/

theorem wrapI64_spec (x : Int) : Fits64 (wrapI64 x) ∧ ∃ t : Int, x = wrapI64 x + t * 2 ^ 64 := by
  unfold wrapI64 Fits64
  have h1 := Int.emod_nonneg (x + 2 ^ 63) (b := 2 ^ 64) (by decide)
  have h2 := Int.emod_lt_of_pos (x + 2 ^ 63) (b := 2 ^ 64) (by decide)
  have h3 := Int.emod_add_mul_ediv (x + 2 ^ 63) (2 ^ 64)
  refine ⟨by omega, (x + 2 ^ 63) / 2 ^ 64, ?_⟩
  omega

theorem i64Op_spec {b : Build} {x s : Int} (h : i64Op b x = .ok s) : Fits64 s ∧ ∃ t : Int, x = s + t * 2 ^ 64 := by
  unfold i64Op at h
  split at h
  · rename_i hr
    cases h
    unfold i64InRange at hr
    rw [Bool.and_eq_true, decide_eq_true_eq, decide_eq_true_eq] at hr
    exact ⟨hr, 0, by omega⟩
  · split at h
    · cases h
    · cases h
      exact wrapI64_spec x

theorem fits64_unique {j j' t t' : Int} (h : Fits64 j) (h' : Fits64 j') (e : j + t * 2 ^ 64 = j' + t' * 2 ^ 64) : j = j' := by
  unfold Fits64 at h h'
  omega

theorem showInt_least : showInt (-(2 ^ 63)) = c!"-9223372036854775808" := by decide +kernel

theorem showInt_abs {s : Int} (h : Fits64 s) {w : Str} :
    w = showInt (wrappingAbs s) ↔ (s = -(2 ^ 63) ∧ w = c!"-9223372036854775808" ∨ s ≠ -(2 ^ 63) ∧ Canonical w s.natAbs) := by
  by_cases hl : s = -(2 ^ 63)
  · have e : wrappingAbs s = -(2 ^ 63) := by rw [hl]; decide
    rw [e, showInt_least]
    simp [hl]
  · have e : wrappingAbs s = (s.natAbs : Int) := by
      unfold wrappingAbs
      by_cases hn : s < 0
      · rw [if_pos hn]
        unfold wrapI64
        unfold Fits64 at h
        rw [Int.emod_eq_of_lt (by omega) (by omega)]
        omega
      · rw [if_neg hn]
        omega
    rw [e]
    have e2 : showInt (s.natAbs : Int) = showNat s.natAbs := rfl
    rw [e2]
    constructor
    · rintro rfl
      exact .inr ⟨hl, showNat_canonical _⟩
    · rintro (⟨h1, _⟩ | ⟨_, h1⟩)
      · exact absurd h1 hl
      · exact canonical_unique h1 (showNat_canonical _)

theorem numberText_iff {b : Build} {x s : Int} (h : i64Op b x = .ok s) {w : Str} : NumberText x w ↔ w = showInt (wrappingAbs s) := by
  obtain ⟨h1, t, h2⟩ := i64Op_spec h
  rw [showInt_abs h1]
  unfold NumberText
  constructor
  · rintro ⟨j, t', h3, h4, h5⟩
    have : j = s := fits64_unique h3 h1 (h4.symm.trans h2)
    rw [← this]
    exact h5
  · exact fun h3 => ⟨s, t, h1, h2, h3⟩

/-! ### Files -/

theorem resolve_found {fs : FileSystem} {roots : List Url} {path : Str} (hr : ∀ r ∈ roots, Opaque r ∨ Folder r) (ho : NoTabs path) {u : Url} :
    resolveRelativePath fs roots path = .ok (some u) ↔ FoundAt fs roots path u := by
  induction roots with
  | nil => simp [resolveRelativePath, FoundAt]
  | cons r roots ih =>
    have ih := ih fun r hm => hr r (by simp [hm])
    by_cases hop : Opaque r
    · have e : resolveRelativePath fs (r :: roots) path = .panic := by
        unfold resolveRelativePath
        exact if_pos hop
      rw [e]
      refine iff_of_false nofun ?_
      rintro ⟨before, root, after, h1, h2, h3, h4, h5⟩
      cases before with
      | nil => cases h1; exact h2 hop
      | cons b before => cases h1; exact (h5 r (by simp)).1 hop
    · have hf : Folder r := (hr r (by simp)).resolve_left hop
      have hstep : resolveRelativePath fs (r :: roots) path =
          if fs (folderPath r path) then .ok (some (folderPath r path)) else resolveRelativePath fs roots path := by
        conv => lhs; unfold resolveRelativePath
        rw [if_neg (by rw [hf.1]; simp)]
        rfl
      rw [hstep]
      by_cases hx : fs (folderPath r path) = true
      · rw [if_pos hx]
        have hin : InFolder r path (folderPath r path) := (inFolder_iff hf ho).mpr rfl
        constructor
        · intro h
          cases h
          exact ⟨[], r, roots, rfl, hop, hin, hx, by simp⟩
        · rintro ⟨before, root, after, h1, h2, h3, h4, h5⟩
          cases before with
          | nil =>
            cases h1
            rw [(inFolder_iff hf ho).mp h3]
          | cons b before =>
            cases h1
            have := (h5 r (by simp)).2 _ hin
            rw [hx] at this
            cases this
      · rw [if_neg hx, ih]
        have hno : ∀ u, InFolder r path u → fs u = false := by
          intro u hu
          rw [(inFolder_iff hf ho).mp hu]
          simpa using hx
        constructor
        · rintro ⟨before, root, after, rfl, h2, h3, h4, h5⟩
          refine ⟨r :: before, root, after, rfl, h2, h3, h4, fun r' hr' => ?_⟩
          rcases List.mem_cons.mp hr' with rfl | hr'
          · exact ⟨hop, hno⟩
          · exact h5 r' hr'
        · rintro ⟨before, root, after, h1, h2, h3, h4, h5⟩
          cases before with
          | nil =>
            cases h1
            rw [hno u h3] at h4
            cases h4
          | cons b before => cases h1; exact ⟨before, root, after, rfl, h2, h3, h4, fun r' hr' => h5 r' (by simp [hr'])⟩

theorem u32Sub_index {b : Build} {x l : Nat} (hx : x < 2 ^ 32) (h : u32Sub b x 1 = .ok l) (idx : Nat) : LineIndex x idx ↔ idx = l := by
  unfold u32Sub at h
  unfold LineIndex
  by_cases h1 : 1 ≤ x
  · rw [if_pos h1] at h
    cases h
    omega
  · rw [if_neg h1] at h
    split at h
    · cases h
    · have e : x = 0 := by omega
      subst e
      cases h
      simp

theorem externalLocations_shown {env : Env} {roots : List Url} (hr : ∀ r ∈ roots, Opaque r ∨ Folder r) : ∀ {ds : List ExternalDef} {ls : List Location},
    (∀ d ∈ ds, NoTabs d.filepath ∧ d.line < 2 ^ 32) → externalLocations env roots ds = .ok ls →
    Picks (WorkspaceLine env.fs roots) ds ls
  | [], ls, _, h => by
    cases h
    exact .nil
  | d :: ds, ls, hd, h => by
    obtain ⟨hd1, hd2⟩ := hd d (by simp)
    have hfound := fun v => resolve_found (fs := env.fs) hr hd1 (u := v)
    unfold externalLocations at h
    cases hres : resolveRelativePath env.fs roots d.filepath with
    | panic => rw [hres] at h; cases h
    | ok r =>
      rw [hres] at h hfound
      cases r with
      | none =>
        refine .skip ?_ (externalLocations_shown hr (fun d hm => hd d (by simp [hm])) h)
        rintro l ⟨v, idx, h2, _⟩
        exact absurd ((hfound v).mpr h2) (by simp)
      | some u =>
        simp only at h
        cases hsub : u32Sub env.build d.line 1 with
        | panic => rw [hsub] at h; cases h
        | ok i =>
          rw [hsub] at h
          simp only at h
          cases hrest : externalLocations env roots ds with
          | panic => rw [hrest] at h; cases h
          | ok ls' =>
            rw [hrest] at h
            cases h
            exact .take ⟨u, i, (hfound u).mp rfl, (u32Sub_index hd2 hsub i).mpr rfl, rfl⟩
              (externalLocations_shown hr (fun d hm => hd d (by simp [hm])) hrest)

/-! ### The locations of functions -/

theorem docExts_locations {src function : Str} : ∀ {ss before : List Statement} {i : Nat},
    LocationsOf function before ss
      ((((docEvents src (before.foldl unresStep []) i ss).filterMap Event.ext?).filter fun e => decide (e.1 = function)).map Prod.snd)
  | [], _, _ => .nil
  | s :: ss, before, i => by
    have ih := docExts_locations (src := src) (function := function) (ss := ss) (before := before ++ [s]) (i := i + funcCount [s])
    rw [List.foldl_append, List.foldl_cons, List.foldl_nil] at ih
    have hget : ∀ r n, (before.foldl unresStep []).get? r = some n ↔ LastDeclares before r n := by
      intro r n
      rw [unres_get]
      constructor
      · rintro (h | ⟨_, h⟩)
        · exact h
        · cases h
      · exact .inl
    rw [docEvents, List.filterMap_append, List.filter_append, List.map_append]
    cases s with
    | dbgAnnotation name def_ =>
      by_cases hl : ∃ d, IsLocation def_ d ∧ LastDeclares before name.1 function
      · obtain ⟨d, h1, h2⟩ := hl
        have e : ((List.filterMap Event.ext? (stmtEvents src (before.foldl unresStep []) i (.dbgAnnotation name def_))).filter
            fun e => decide (e.1 = function)).map Prod.snd = [d] := by
          simp only [stmtEvents, List.filterMap_cons, Event.ext?, List.filterMap_append, (hget _ _).mpr h2, parseExternalDef_iff.mpr h1]
          split <;> simp [Event.ext?]
        rw [e]
        exact .location h1 h2 ih
      · have e : ((List.filterMap Event.ext? (stmtEvents src (before.foldl unresStep []) i (.dbgAnnotation name def_))).filter
            fun e => decide (e.1 = function)).map Prod.snd = [] := by
          simp only [stmtEvents, List.filterMap_cons, Event.ext?, List.filterMap_append]
          cases hg : (before.foldl unresStep []).get? name.1 with
          | none => simp only []; split <;> simp [Event.ext?]
          | some fn =>
            cases hx : parseExternalDef def_ with
            | none => simp only []; split <;> simp [Event.ext?]
            | some d =>
              have hne : fn ≠ function := by
                rintro rfl
                exact hl ⟨d, parseExternalDef_iff.mp hx, (hget _ _).mp hg⟩
              simp only []
              split <;> simp [Event.ext?, hne]
        rw [e]
        refine .other ?_ ih
        rintro name' def' d heq h1 h2
        cases heq
        exact hl ⟨d, h1, h2⟩
    | funcDef kw sig body =>
      have e : List.filterMap Event.ext? (stmtEvents src (before.foldl unresStep []) i (.funcDef kw sig body)) = [] := by
        simp only [stmtEvents, List.filterMap_cons, Event.ext?, funcEvents_ext]
      rw [e]
      exact .other (by rintro _ _ _ ⟨⟩) ih
    | _ =>
      simp only [stmtEvents, List.filterMap_cons, List.filterMap_nil, Event.ext?, List.filter_nil, List.map_nil, List.nil_append]
      exact .other (by rintro _ _ _ ⟨⟩) ih

end HyperIR
