import Verif.Proofs.Stretches
import Verif.Spec.Reading

/-
Where the errors of the parser are located (src/hir_parser.rs:75-426): every error that makes a parser fail is
located at one of the tokens it was given, or at the end of the input; the only errors reported by a parser
besides are those about mnemonics (src/hir_parser.rs:199-205).
-/

namespace HyperIR
open Spec

variable {α β γ : Type}

/-- The error is about a mnemonic. -/
def IsOdd (e : LErr Token) : Prop := e.reason = .custom oddMessage

/-- The error says that the first of the tokens is unexpected, or of the wrong kind. -/
def Blames (s : List Tok) (e : LErr Token) : Prop :=
  (e.reason = .unexpected ∧ e.found = s.head?.map Prod.fst) ∨ (s ≠ [] ∧ ∃ m ∈ kindMessages, e.reason = .custom m)

/-- The error is about something else, and located at a token of `s` or at the end of the input. -/
def AtTok (eoi : Span) (s : List Tok) (e : LErr Token) : Prop :=
  ¬ IsOdd e ∧ ∃ l s', s = l ++ s' ∧ e.rem = s'.length ∧ e.span = headSpan eoi s' ∧ Blames s' e

/-- The errors of a parser are as described above. -/
def FairRes (Q : LErr Token → Prop) (eoi : Span) (s : List Tok) : Res Token α → Prop
  | .ok es _ alt r => (∀ e ∈ es, Q e) ∧ (∀ a, alt = some a → AtTok eoi s a) ∧ ∃ l, s = l ++ r
  | .err es e => (∀ e' ∈ es, Q e') ∧ AtTok eoi s e
  | .panic => True

def Fair (p : P Token α) : Prop := ∀ eoi s, FairRes IsOdd eoi s (p eoi s)

section
variable {eoi : Span} {s r : List Tok} {e e' : LErr Token}

theorem AtTok.mono {l : List Tok} (h : AtTok eoi r e) : AtTok eoi (l ++ r) e := by
  obtain ⟨h, l', s', rfl, h1, h2⟩ := h
  exact ⟨h, l ++ l', s', by simp, h1, h2⟩

theorem atTok_unexpected {x} : AtTok eoi s (unexpectedAt eoi s x) :=
  ⟨(by unfold IsOdd unexpectedAt; simp), [], s, rfl, rfl, rfl, .inl ⟨rfl, rfl⟩⟩

theorem atTok_custom {m} (hm : m ∈ kindMessages) (hs : s ≠ []) : AtTok eoi s (customAt eoi s m) :=
  ⟨(by unfold IsOdd customAt; intro h; cases h; revert hm; decide), [], s, rfl, rfl, rfl, .inr ⟨hs, m, hm, rfl⟩⟩

theorem AtTok.merge (h : AtTok eoi s e) : AtTok eoi s (mergeErr e e') := by
  obtain ⟨h, l, s', h1, h2, h3⟩ := h
  exact ⟨h, l, s', h1, h2, h3⟩

theorem AtTok.max {a : Option (LErr Token)} (h : AtTok eoi s e) (h' : ∀ x, a = some x → AtTok eoi s x) :
    AtTok eoi s (maxErr e a) := by
  cases a with
  | none => exact h
  | some x =>
    have h' := h' x rfl
    simp only [maxErr]
    split
    · exact h
    · split
      · exact h'
      · exact h.merge

theorem atTok_mergeAlts {a b : Option (LErr Token)} (h : ∀ x, a = some x → AtTok eoi s x)
    (h' : ∀ x, b = some x → AtTok eoi s x) : ∀ x, mergeAlts a b = some x → AtTok eoi s x := by
  intro x hx
  cases b with
  | none => exact h x hx
  | some y =>
    cases hx
    exact (h' y rfl).max h

theorem fair_satisfy {f : Token → Bool} {x} : Fair (satisfy f x) := by
  intro eoi s
  unfold satisfy
  cases s with
  | nil => exact ⟨by simp, atTok_unexpected⟩
  | cons t r =>
    obtain ⟨t, sp⟩ := t
    by_cases h : f t
    · simp only [h, if_true]
      exact ⟨by simp, by simp, [(t, sp)], rfl⟩
    · simp only [h]
      exact ⟨by simp, atTok_unexpected⟩

theorem fair_filterMap {f : Token → Span → Option α} {m} (hm : m ∈ kindMessages) : Fair (pfilterMap f m) := by
  intro eoi s
  unfold pfilterMap
  cases s with
  | nil => exact ⟨by simp, atTok_unexpected⟩
  | cons t r =>
    obtain ⟨t, sp⟩ := t
    cases h : f t sp with
    | none => simp only [h]; exact ⟨by simp, atTok_custom hm (by simp)⟩
    | some a => simp only [h]; exact ⟨by simp, by simp, [(t, sp)], rfl⟩

theorem fair_end : Fair (pend : P Token Unit) := by
  intro eoi s
  unfold pend
  cases s with
  | nil => exact ⟨by simp, by simp, [], rfl⟩
  | cons t r => exact ⟨by simp, atTok_unexpected⟩

theorem fair_map {f : α → β} {p : P Token α} (h : Fair p) : Fair (pmap f p) := by
  intro eoi s
  have := h eoi s
  unfold pmap
  cases hp : p eoi s <;> rw [hp] at this <;> exact this

theorem fair_mapSpan {f : α → Span → β} {p : P Token α} (h : Fair p) : Fair (pmapSpan f p) := by
  intro eoi s
  have := h eoi s
  unfold pmapSpan
  cases hp : p eoi s <;> rw [hp] at this <;> exact this

theorem fair_mapOutcome {f : α → Outcome β} {p : P Token α} (h : Fair p) : Fair (pmapOutcome f p) := by
  intro eoi s
  have := h eoi s
  unfold pmapOutcome
  cases hp : p eoi s with
  | ok es x alt r =>
    rw [hp] at this
    simp only
    cases f x <;> simp only <;> trivial
  | err => rw [hp] at this; exact this
  | panic => trivial

theorem fair_then {a : P Token α} {b : P Token β} (ha : Fair a) (hb : Fair b) : Fair (pthen a b) := by
  intro eoi s
  have h1 := ha eoi s
  unfold pthen
  cases hpa : a eoi s with
  | panic => trivial
  | err es e => rw [hpa] at h1; exact h1
  | ok ea x alta r =>
    rw [hpa] at h1
    obtain ⟨h2, h3, l, rfl⟩ := h1
    have h4 := hb eoi r
    simp only
    cases hpb : b eoi r with
    | panic => trivial
    | err eb e =>
      rw [hpb] at h4
      refine ⟨?_, h4.2.mono.max h3⟩
      intro e' he
      rcases List.mem_append.mp he with he | he
      · exact h2 e' he
      · exact h4.1 e' he
    | ok eb y altb r' =>
      rw [hpb] at h4
      obtain ⟨h5, h6, l', rfl⟩ := h4
      refine ⟨?_, atTok_mergeAlts h3 (fun x hx => (h6 x hx).mono), l ++ l', by simp⟩
      intro e' he
      rcases List.mem_append.mp he with he | he
      · exact h2 e' he
      · exact h5 e' he

theorem fair_thenIgnore {a : P Token α} {b : P Token β} (ha : Fair a) (hb : Fair b) : Fair (thenIgnore a b) :=
  fair_map (fair_then ha hb)

theorem fair_ignoreThen {a : P Token α} {b : P Token β} (ha : Fair a) (hb : Fair b) : Fair (ignoreThen a b) :=
  fair_map (fair_then ha hb)

theorem fair_por {a b : P Token α} (ha : Fair a) (hb : Fair b) : Fair (por a b) := by
  intro eoi s
  have h1 := ha eoi s
  have h2 := hb eoi s
  unfold por
  cases hpa : a eoi s with
  | panic => trivial
  | ok es x alt r =>
    rw [hpa] at h1
    cases es with
    | nil => exact h1
    | cons e es =>
      simp only
      cases hpb : b eoi s with
      | panic => trivial
      | err eb e' =>
        rw [hpb] at h2
        refine ⟨h1.1, atTok_mergeAlts h1.2.1 (fun x hx => ?_), h1.2.2⟩
        cases hx; exact h2.2
      | ok es' y altb r' =>
        rw [hpb] at h2
        cases es' with
        | nil => exact h2
        | cons e' es' =>
          simp only
          split
          · split
            · exact h2
            · split
              · exact h1
              · split
                · exact h2
                · exact h1
          · exact h1
  | err es e =>
    rw [hpa] at h1
    simp only
    cases hpb : b eoi s with
    | panic => trivial
    | err eb e' =>
      rw [hpb] at h2
      simp only
      split
      · exact h1
      · split
        · exact h2
        · exact ⟨h1.1, h1.2.max (fun x hx => by cases hx; exact h2.2)⟩
    | ok es' y altb r' =>
      rw [hpb] at h2
      refine ⟨h2.1, atTok_mergeAlts h2.2.1 (fun x hx => ?_), h2.2.2⟩
      cases hx; exact h1.2

theorem fair_orNot {p : P Token α} (h : Fair p) : Fair (orNot p) := by
  intro eoi s
  have h1 := h eoi s
  unfold orNot
  cases hp : p eoi s with
  | panic => trivial
  | ok => rw [hp] at h1; exact h1
  | err es e =>
    rw [hp] at h1
    refine ⟨by simp, fun a ha => ?_, [], rfl⟩
    cases ha; exact h1.2

theorem fair_rewind {p : P Token α} (h : Fair p) : Fair (rewind p) := by
  intro eoi s
  have h1 := h eoi s
  unfold rewind
  cases hp : p eoi s with
  | panic => trivial
  | ok => rw [hp] at h1; exact ⟨h1.1, h1.2.1, [], rfl⟩
  | err => rw [hp] at h1; exact h1

theorem fair_not {p : P Token α} : Fair (pnot p) := by
  intro eoi s
  unfold pnot
  cases hp : p eoi s with
  | panic => trivial
  | ok => exact ⟨by simp, atTok_unexpected⟩
  | err es e =>
    cases s with
    | nil => exact ⟨by simp, atTok_unexpected⟩
    | cons t r => exact ⟨by simp, by simp, [t], rfl⟩

theorem fair_validate {f : α → Option Str} {p : P Token α} (hf : ∀ x m, f x = some m → m = oddMessage) (h : Fair p) :
    Fair (validate f p) := by
  intro eoi s
  have h1 := h eoi s
  unfold validate
  cases hp : p eoi s with
  | panic => trivial
  | err => rw [hp] at h1; exact h1
  | ok es x alt r =>
    rw [hp] at h1
    simp only
    cases hx : f x with
    | none => exact h1
    | some m =>
      refine ⟨?_, h1.2⟩
      intro e he
      rcases List.mem_append.mp he with he | he
      · exact h1.1 e he
      · simp at he
        subst he
        rw [hf x m hx]
        rfl

theorem fair_repeatLoop {p : P Token α} {Q : LErr Token → Prop} (h : ∀ eoi s, FairRes Q eoi s (p eoi s)) {n : Nat} {eoi : Span} {whole : List Tok} : ∀ (fuel : Nat) {old errs outs alt s},
    (∀ e ∈ errs, Q e) → (∀ a, alt = some a → AtTok eoi whole a) → (∃ l, whole = l ++ s) →
    FairRes Q eoi whole (repeatLoop p n eoi fuel old errs outs alt s) := by
  intro fuel
  induction fuel with
  | zero => intros; trivial
  | succ fuel ih =>
    rintro old errs outs alt s h1 h2 ⟨l, rfl⟩
    have h3 := h eoi s
    unfold repeatLoop
    cases hp : p eoi s with
    | panic => trivial
    | ok es x al r =>
      rw [hp] at h3
      simp only
      split
      · trivial
      · obtain ⟨h4, h5, l', rfl⟩ := h3
        refine ih ?_ (atTok_mergeAlts h2 (fun x hx => (h5 x hx).mono)) ⟨l ++ l', by simp⟩
        intro e he
        rcases List.mem_append.mp he with he | he
        · exact h1 e he
        · exact h4 e he
    | err es e =>
      rw [hp] at h3
      simp only
      split
      · refine ⟨?_, h3.2.mono⟩
        intro e he
        rcases List.mem_append.mp he with he | he
        · exact h1 e he
        · exact h3.1 e he
      · refine ⟨h1, atTok_mergeAlts h2 (fun x hx => ?_), l, rfl⟩
        cases hx; exact h3.2.mono

theorem fair_repeatedAtLeast {p : P Token α} {n : Nat} (h : Fair p) : Fair (repeatedAtLeast n p) := by
  intro eoi s
  exact fair_repeatLoop h _ (by simp) (by simp) ⟨[], rfl⟩

theorem fair_repeated {p : P Token α} (h : Fair p) : Fair (repeated p) := fair_repeatedAtLeast h

theorem fair_sepLoop {p : P Token α} {d : P Token β} (h : Fair p) (hd : Fair d) {eoi : Span} {whole : List Tok} :
    ∀ (fuel : Nat) {errs outs alt s},
    (∀ e ∈ errs, IsOdd e) → (∀ a, alt = some a → AtTok eoi whole a) → (∃ l, whole = l ++ s) →
    FairRes IsOdd eoi whole (sepLoop p d eoi fuel errs outs alt s) := by
  intro fuel
  induction fuel with
  | zero => intros; trivial
  | succ fuel ih =>
    rintro errs outs alt s h1 h2 ⟨l, rfl⟩
    have h3 := hd eoi s
    have app : ∀ {a b : List (LErr Token)}, (∀ e ∈ a, IsOdd e) → (∀ e ∈ b, IsOdd e) → ∀ e ∈ a ++ b, IsOdd e := by
      intro a b ha hb e he
      rcases List.mem_append.mp he with he | he
      · exact ha e he
      · exact hb e he
    unfold sepLoop
    cases hp : d eoi s with
    | panic => trivial
    | err es e =>
      rw [hp] at h3
      exact ⟨app h1 h3.1, atTok_mergeAlts h2 (fun x hx => by cases hx; exact h3.2.mono), l, rfl⟩
    | ok es x al r =>
      rw [hp] at h3
      obtain ⟨h4, h5, l', rfl⟩ := h3
      have h6 := h eoi r
      simp only
      cases hp' : p eoi r with
      | panic => trivial
      | err es' e =>
        rw [hp'] at h6
        exact ⟨app (app h1 h4) h6.1, atTok_mergeAlts (atTok_mergeAlts h2 (fun x hx => (h5 x hx).mono))
          (fun x hx => by cases hx; exact h6.2.mono.mono), l, rfl⟩
      | ok es' x' al' r' =>
        rw [hp'] at h6
        obtain ⟨h7, h8, l'', rfl⟩ := h6
        exact ih (app (app h1 h4) h7) (atTok_mergeAlts (atTok_mergeAlts h2 (fun x hx => (h5 x hx).mono))
          (fun x hx => (h8 x hx).mono.mono)) ⟨l ++ l' ++ l'', by simp⟩

theorem fair_separatedBy {p : P Token α} {d : P Token β} (h : Fair p) (hd : Fair d) : Fair (separatedBy p d) := by
  intro eoi s
  have h1 := h eoi s
  unfold separatedBy
  cases hp : p eoi s with
  | panic => trivial
  | err es e =>
    rw [hp] at h1
    exact ⟨h1.1, fun x hx => by cases hx; exact h1.2, [], rfl⟩
  | ok es x al r =>
    rw [hp] at h1
    exact fair_sepLoop h hd _ h1.1 h1.2.1 h1.2.2

theorem fair_delimitedBy {l : P Token β} {r : P Token γ} {p : P Token α} (hl : Fair l) (hr : Fair r) (hp : Fair p) :
    Fair (delimitedBy l r p) := fair_thenIgnore (fair_ignoreThen hl hp) hr

theorem fair_paddedBy {pad : P Token β} {p : P Token α} (hl : Fair pad) (hp : Fair p) : Fair (paddedBy pad p) :=
  fair_thenIgnore (fair_ignoreThen hl hp) hl

/-! ### The parsers of the crate -/

macro "fair" : tactic => `(tactic| repeat' first
  | exact fair_satisfy
  | exact fair_end
  | exact fair_not
  | exact fair_filterMap (by decide)
  | assumption
  | apply fair_map
  | apply fair_mapSpan
  | apply fair_mapOutcome
  | apply fair_thenIgnore
  | apply fair_ignoreThen
  | apply fair_then
  | apply fair_por
  | apply fair_orNot
  | apply fair_rewind
  | apply fair_repeated
  | apply fair_repeatedAtLeast
  | apply fair_separatedBy
  | apply fair_delimitedBy
  | apply fair_paddedBy)

theorem fair_pOverflowBr : Fair pOverflowBr := by
  have h : Fair (validate (fun x : Spanned Str => if endsWith x.1 c!"br" then none
      else some c!"Instruction is not a overflow-branch instruction.") pIdent) := by
    refine fair_validate ?_ (fair_filterMap (by decide))
    intro x m hx
    split at hx
    · cases hx
    · cases hx; rfl
  unfold pOverflowBr
  fair

theorem fair_pInstructionKind : Fair pInstructionKind := by
  have h1 : Fair pBr := by unfold pBr; fair
  have h2 : Fair pCondBr := by unfold pCondBr; fair
  have h3 := fair_pOverflowBr
  have h4 : Fair pSwitch := by unfold pSwitch; fair
  have h5 : Fair pPhi := by unfold pPhi; fair
  have h6 : Fair pAnyInstruction := by unfold pAnyInstruction; fair
  unfold pInstructionKind
  fair

theorem fair_pPaddedInstruction : Fair pPaddedInstruction := by
  have := fair_pInstructionKind
  unfold pPaddedInstruction pInstruction pAssignment
  fair

theorem fair_pStatement : Fair pStatement := by
  have h0 := fair_pPaddedInstruction
  have h1 : Fair pGlobalVar := by unfold pGlobalVar pTokenSoup pEol; fair
  have hs : Fair pFuncSignature := by unfold pFuncSignature pFuncArgs pFuncArg; fair
  have h2 : Fair pFuncDecl := by unfold pFuncDecl pEol pFuncAddr; fair
  have h3 : Fair pFuncDef := by unfold pFuncDef pFuncBody pInitialBlock pBasicBlock pEol; fair
  have h4 : Fair pFuncDependencies := by unfold pFuncDependencies; fair
  have h5 : Fair pDbgAnnotation := by unfold pDbgAnnotation pTokenSoup pEol; fair
  unfold pStatement
  fair

theorem fair_pPaddedStatement : Fair pPaddedStatement := by
  have := fair_pStatement
  unfold pPaddedStatement
  fair

/-! ### The errors of a document -/

theorem fair_skipThenRetry {whole : List Tok} {p : P Token α} (hp : Fair p) {eoi errs fatal} (hf : AtTok eoi whole fatal) :
    ∀ {s : List Tok}, (∃ l, whole = l ++ s) → FairRes (fun _ => True) eoi whole (skipThenRetry p eoi errs fatal s) := by
  intro s
  induction s with
  | nil => intro _; exact ⟨by simp, hf⟩
  | cons t s ih =>
    rintro ⟨l, rfl⟩
    have h1 := hp eoi s
    unfold skipThenRetry
    cases h : p eoi s with
    | panic => trivial
    | err => exact ih ⟨l ++ [t], by simp⟩
    | ok es x alt r =>
      rw [h] at h1
      obtain ⟨_, h2, l', rfl⟩ := h1
      refine ⟨by simp, fun a ha => ?_, l ++ t :: l', by simp⟩
      have := (h2 a ha).mono (l := l ++ [t])
      simpa using this

theorem fair_docItem (eoi : Span) (s : List Tok) : FairRes (fun _ => True) eoi s (docItem eoi s) := by
  have h1 := fair_pPaddedStatement eoi s
  unfold docItem recoverSkip
  cases h : pPaddedStatement eoi s with
  | panic => trivial
  | ok => rw [h] at h1; exact ⟨by simp, h1.2⟩
  | err es e =>
    rw [h] at h1
    exact fair_skipThenRetry fair_pPaddedStatement h1.2 ⟨[], rfl⟩

/-- The furthest error is one at the rest of the tokens. -/
theorem atTok_furthest {l r : List Tok} {a : Option (LErr Token)} {x} (h : ∀ e, a = some e → AtTok eoi (l ++ r) e) :
    AtTok eoi r (maxErr (unexpectedAt eoi r x) a) := by
  cases a with
  | none => exact atTok_unexpected
  | some e =>
    obtain ⟨h1, l', s', h2, h3, h4⟩ := h e rfl
    simp only [maxErr]
    split
    · exact atTok_unexpected
    · rename_i hlt
      split
      · refine ⟨h1, ?_⟩
        have hle : s'.length ≤ r.length := by
          rw [h3] at hlt
          simp only [unexpectedAt] at hlt
          rename_i hlt'
          rw [h3] at hlt'
          simp only [unexpectedAt] at hlt'
          omega
        rcases List.append_eq_append_iff.mp h2 with ⟨c, rfl, rfl⟩ | ⟨c, rfl, rfl⟩
        · exact ⟨c, s', rfl, h3, h4⟩
        · have : c = [] := by
            cases c with
            | nil => rfl
            | cons => simp at hle; omega
          subst this
          exact ⟨[], r, rfl, by simpa using h3, by simpa using h4⟩
      · exact atTok_unexpected.merge

/-- What is reported if tokens remain unread. -/
theorem parser_lost {es ss} (h : Many docItem eoi s es ss r) (hr : r ≠ []) :
    ∃ e, parser eoi s = .err es e ∧ AtTok eoi r e := by
  obtain ⟨alt, h1⟩ := (repeated_ok docItem_noPanic docItem_progress).mpr h
  have h2 : FairRes (fun _ => True) eoi s (repeated docItem eoi s) :=
    fair_repeatLoop fair_docItem _ (by simp) (by simp) ⟨[], rfl⟩
  rw [h1] at h2
  obtain ⟨_, h3, l, rfl⟩ := h2
  have e : parser = thenIgnore (repeated docItem) pend := rfl
  rw [e]
  unfold thenIgnore pmap pthen
  rw [h1]
  cases r with
  | nil => exact absurd rfl hr
  | cons t r =>
    simp only [pend, List.append_nil]
    exact ⟨_, rfl, atTok_furthest h3⟩

theorem parseTokens_lost {n : Nat} {toks : List Tok} {es ss}
    (h : Many docItem { start := n, stop := n + 1 } (toks.filter fun t => decide (t.1 ≠ Token.comment)) es ss r) (hr : r ≠ []) :
    ∃ e, parseTokens n toks = .ok (none, es ++ [e]) ∧ AtTok { start := n, stop := n + 1 } r e := by
  obtain ⟨e, h1, h2⟩ := parser_lost h hr
  unfold parseTokens parseRecovery
  rw [h1]
  exact ⟨e, rfl, h2⟩

end

end HyperIR
