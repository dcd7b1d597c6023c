import Verif.Proofs.Wide
import Verif.Props.Navigation
import Verif.Props.Hints

/-
C91: texts outside of ASCII.  Cursors are read right in every text of basic characters, but places are reported right exactly as far as
the text is ASCII, and too early behind that.
-/

namespace HyperIR
open Spec

/-- C91, from the editor to the server: the character read for an editor position is the right one exactly if the characters before it on its
line are basic ones (one UTF-16 code unit each); otherwise it lies further behind. -/
theorem C91_cursor {text : Str} (hu : UsualLines text) {q : Pos} {start k : Nat} {content : Str} (hl : LspLine text q.line start content)
    (hk : k ≤ content.length) (hcol : q.character = utf16Len (content.take k)) :
    ∃ off, lspPosToOffset text q = some off ∧ start + k ≤ off ∧ (off = start + k ↔ Basic (content.take k)) :=
  cursor_wide hu hl hk hcol

/-- C91, from the server to the editor: the place reported for a character is its place exactly if everything before it is ASCII; otherwise it
lies before it. -/
theorem C91_place {text : Str} (hsize : text.length < 2 ^ 32) (hu : UsualLines text) {q : Pos} {off : Nat} (hq : Utf16Offset text q off) :
    ∃ p, offsetToLspPos text off = some p ∧ PosLe p q ∧ (p = q ↔ AsciiTo text off) :=
  place_wide hsize hu hq

/-- Every character position has an editor position in UTF-16 code units. -/
theorem utf16Offset_of {text : Str} {p : Pos} {off : Nat} (h : LspOffset text p off) : ∃ q, Utf16Offset text q off := by
  obtain ⟨start, content, h1, h2, h3⟩ := h
  exact ⟨⟨p.line, utf16Len (content.take p.character)⟩, start, content, p.character, h1, h2, h3, rfl⟩

theorem Spec.AsciiTo.mono {text : Str} {m n : Nat} (h : AsciiTo text n) (hm : m ≤ n) : AsciiTo text m :=
  fun c hc => h c ((List.take_subset_take_left text hm) hc)

/-- The range reported for a range of characters is its editor range exactly if everything before its end is ASCII; otherwise it begins or ends
too early. -/
theorem range_wide {text : Str} (hsize : text.length < 2 ^ 32) (hu : UsualLines text) {sp : Span} (hsp : sp.start ≤ sp.stop) {q : Range}
    (hq : Utf16Range text sp q) :
    ∃ r, rangeToLsp text sp = some r ∧ PosLe r.start q.start ∧ PosLe r.stop q.stop ∧ (r = q ↔ AsciiTo text sp.stop) := by
  obtain ⟨p1, a1, b1, c1⟩ := place_wide hsize hu hq.1
  obtain ⟨p2, a2, b2, c2⟩ := place_wide hsize hu hq.2
  refine ⟨⟨p1, p2⟩, by simp only [rangeToLsp, a1, a2], b1, b2, ?_⟩
  obtain ⟨q1, q2⟩ := q
  rw [Range.mk.injEq]
  constructor
  · rintro ⟨_, e2⟩
    exact c2.mp e2
  · intro ha
    exact ⟨c1.mpr (ha.mono hsp), c2.mpr ha⟩

section
variable [Unicode] {st : ServerState} {uri text : Str} {res : ParserResult}

/-- Every occurrence of a symbol has an editor range. -/
theorem occurs_utf16 (h : parseFromStr text = .ok res) {o : SymbolOccurrence} (ho : Occurs res.tokens res.stmts o) :
    ∃ q, Utf16Range text o.span q := by
  obtain ⟨r, hr⟩ := occurs_editor h ho
  obtain ⟨q1, h1⟩ := utf16Offset_of hr.1
  obtain ⟨q2, h2⟩ := utf16Offset_of hr.2
  exact ⟨⟨q1, q2⟩, h1, h2⟩

/-- C91, the symbol under the cursor: it is found in every text, if the characters before the cursor on its line are basic; the range offered
for renaming is its range exactly if everything before its end is ASCII. -/
theorem C91_symbol (hopen : Opened st uri text) (h : parseFromStr text = .ok res) (hsize : text.length < 2 ^ 32) (hu : UsualLines text)
    {p : Pos} {start k : Nat} {content : Str} (hl : LspLine text p.line start content) (hk : k ≤ content.length)
    (hcol : p.character = utf16Len (content.take k)) (hb : Basic (content.take k)) :
    ((∃ r, prepareRename st uri p = some r) ↔ ∃ o, Occurs res.tokens res.stmts o ∧ Covers o.span (start + k)) ∧
    ∀ o, Occurs res.tokens res.stmts o → Covers o.span (start + k) → ∃ q, Utf16Range text o.span q ∧
      ∃ r, prepareRename st uri p = some r ∧ PosLe r.start q.start ∧ PosLe r.stop q.stop ∧ (r = q ↔ AsciiTo text o.span.stop) := by
  obtain ⟨off, hoff, _, hiff⟩ := cursor_wide hu hl hk hcol
  cases hiff.mpr hb
  obtain ⟨doc, errs, ha, hst⟩ := hopen
  obtain ⟨res', h1, h2, _, _, _, h6⟩ := analyze_inv ha
  rw [h] at h1
  cases h1
  have hsym := symbolAt_offset ha h hoff
  have found : ∀ o, Occurs res.tokens res.stmts o → Covers o.span (start + k) → ∃ q, Utf16Range text o.span q ∧
      ∃ r, prepareRename st uri p = some r ∧ PosLe r.start q.start ∧ PosLe r.stop q.stop ∧ (r = q ↔ AsciiTo text o.span.stop) := by
    intro o ho hc
    obtain ⟨o', hs, hspan, _, _⟩ := hsym.2 o ho hc
    obtain ⟨q, hq⟩ := occurs_utf16 h ho
    have hlt := Nat.lt_of_le_of_lt hc.1 hc.2
    obtain ⟨r, r1, r2⟩ := range_wide hsize hu (Nat.le_of_lt hlt) hq
    refine ⟨q, hq, r, ?_, r2⟩
    unfold prepareRename
    simp only [hst, hs, h2, hspan, r1]
  refine ⟨⟨?_, ?_⟩, found⟩
  · rintro ⟨r, hr⟩
    unfold prepareRename at hr
    cases hs : symbolAt doc p with
    | none => simp only [hst, hs] at hr; cases hr
    | some o => exact ⟨o, hsym.1 o hs⟩
  · rintro ⟨o, ho, hc⟩
    obtain ⟨_, _, r, hr, _⟩ := found o ho hc
    exact ⟨r, hr⟩

/-- C91, references: in every text, if the characters before the cursor on its line are basic, find-references answers one place for each use
of the symbol under the cursor and nothing else; each is the range of the use exactly if everything before its end is ASCII, and otherwise begins or
ends too early. -/
theorem C91_references (hopen : Opened st uri text) (h : parseFromStr text = .ok res) (hsize : text.length < 2 ^ 32) (hu : UsualLines text)
    {p : Pos} {start k : Nat} {content : Str} (hl : LspLine text p.line start content) (hk : k ≤ content.length)
    (hcol : p.character = utf16Len (content.take k)) (hb : Basic (content.take k)) {o : SymbolOccurrence}
    (ho : Occurs res.tokens res.stmts o) (hc : Covers o.span (start + k)) (hvis : ¬ Shadowed res.stmts o) (env : Env) :
    ∃ (locs : List Location) (uses : List SymbolOccurrence), references env st uri p = .ok (some locs) ∧ uses.Nodup ∧
      (∀ o', o' ∈ uses ↔ Occurs res.tokens res.stmts o' ∧ SameSymbol o' o ∧ o'.useDef = .use) ∧ locs.length = uses.length ∧
      ∀ x ∈ uses.zip locs, x.2.uri = uri ∧ ∃ q, Utf16Range text x.1.span q ∧ PosLe x.2.range.start q.start ∧ PosLe x.2.range.stop q.stop ∧
        (x.2.range = q ↔ AsciiTo text x.1.span.stop) := by
  obtain ⟨off, hoff, _, hiff⟩ := cursor_wide hu hl hk hcol
  cases hiff.mpr hb
  obtain ⟨doc, errs, ha, hst⟩ := hopen
  obtain ⟨r, hr, hg⟩ := getUseDefRanges_at ha h hsize hst hoff ho hc hvis env .use
  obtain ⟨res', h1, _, _, _, _, h6⟩ := analyze_inv ha
  rw [h] at h1
  cases h1
  simp only [reduceCtorEq, if_false, List.append_nil] at hg
  let mk : Span → SymbolOccurrence := fun sp => ⟨sp, .use, o.symbolKind, o.name, o.funcBodyId⟩
  refine ⟨_, (listed doc.index o.symbolKind o.funcBodyId o.name .use).map mk, by unfold references; rw [hg]; rfl, ?_, ?_, ?_⟩
  · exact (listed_nodup h h6 _ _ _ _).map (f := mk) (fun a b hab => fun e => hab (congrArg SymbolOccurrence.span e))
  · intro o'
    rw [List.mem_map]
    constructor
    · rintro ⟨sp, h1, rfl⟩
      exact ⟨(occurs_listed (o := mk sp) h h6).mp h1, ⟨rfl, rfl, rfl⟩, rfl⟩
    · rintro ⟨h1, ⟨h2, h3, h4⟩, h5⟩
      obtain ⟨sp, ud, kd, n, f⟩ := o'
      simp only at h2 h3 h4 h5
      subst h2 h3 h4 h5
      exact ⟨sp, (occurs_listed (o := mk sp) h h6).mpr h1, rfl⟩
  · have hocc : ∀ sp ∈ listed doc.index o.symbolKind o.funcBodyId o.name .use, ∃ r, rangeToLsp text sp = some r ∧ ∃ q, Utf16Range text sp q ∧
        PosLe r.start q.start ∧ PosLe r.stop q.stop ∧ (r = q ↔ AsciiTo text sp.stop) := by
      intro sp hs
      have ho' := (occurs_listed (o := mk sp) h h6).mp hs
      obtain ⟨q, hq⟩ := occurs_utf16 h ho'
      have hlt := ((C02_token_spans h).1 _ (occurs_token h ho')).1
      rw [occTok_span] at hlt
      obtain ⟨r, r1, r2⟩ := range_wide hsize hu (Nat.le_of_lt hlt) hq
      exact ⟨r, r1, q, hq, r2⟩
    generalize listed doc.index o.symbolKind o.funcBodyId o.name .use = l at hocc
    clear hg
    unfold localLocations
    induction l with
    | nil => simp
    | cons sp l ih =>
      obtain ⟨r, r1, q, hq, r2⟩ := hocc sp (by simp)
      obtain ⟨i1, i2⟩ := ih (fun sp hs => hocc sp (by simp [hs]))
      constructor
      · simp only [List.filterMap_cons, r1, Option.map_some, List.length_cons, List.map_cons, i1]
      · simp only [List.filterMap_cons, r1, Option.map_some, List.map_cons, List.zip_cons_cons, List.mem_cons]
        rintro x (rfl | hx)
        · exact ⟨rfl, q, hq, r2⟩
        · exact i2 x hx

end

namespace Instances

attribute [local instance] asciiUnicode

/-- A text with letters of two bytes, and one of two UTF-16 code units in the last line. -/
def farText : Str := c!"@a = \"é\"\n@b = @a @a\n# 😀 @a"

example : UsualLines farText ∧ Basic (farText.take 22) ∧ ¬ Basic farText := by decide

/-- The place of the `@a` in the second line. -/
theorem far_line : LspLine farText 1 9 c!"@b = @a @a" := by
  exact .later (content := c!"@a = \"é\"") (eol := ['\n']) (rest := c!"@b = @a @a\n# 😀 @a") (n := 0) (start := 0) (by decide) (.inl rfl) (by simp)
    (.here (content := c!"@b = @a @a") (tail := c!"\n# 😀 @a") (by decide) (by intro c cs h; cases h; exact .inl rfl))

/-- The cursor on the `@a` is read right, though its line is behind a wide character. -/
example : lspPosToOffset farText ⟨1, 5⟩ = some 14 ∧ Utf16Offset farText ⟨1, 5⟩ 14 := by
  refine ⟨by decide, 9, _, 5, far_line, by decide, rfl, by decide⟩

/-- Its place is reported one character too early. -/
example : offsetToLspPos farText 14 = some ⟨1, 4⟩ ∧ ¬ AsciiTo farText 14 := by decide

def farOcc : SymbolOccurrence := ⟨⟨14, 16⟩, .use, .globalVar, c!"@a", none⟩

/-- `C91_references` applied to the `@a` under the cursor: two uses, both reported one character too early. -/
example : ∃ (locs : List Location) (uses : List SymbolOccurrence),
    references debugEnv (serverWith [] c!"u" farText) c!"u" ⟨1, 5⟩ = .ok (some locs) ∧ locs.length = 2 ∧ uses.length = 2 ∧
    ∀ x ∈ uses.zip locs, ∃ q, Utf16Range farText x.1.span q ∧ PosLe x.2.range.start q.start ∧ x.2.range ≠ q := by
  have hopen : Opened (serverWith [] c!"u" farText) c!"u" farText := serverWith_opened (by decide +kernel)
  generalize h : parseFromStr farText = r
  have key : (match parseFromStr farText with
    | .ok res => decide (farOcc ∈ allOccs res.tokens res.stmts) && decide (¬ IsFunction res.stmts c!"@a") &&
        (allOccs res.tokens res.stmts).all (fun o => decide (o.useDef = .use → ¬ AsciiTo farText o.span.stop))
    | .panic => false) = true := by decide +kernel
  have hn : (match references debugEnv (serverWith [] c!"u" farText) c!"u" ⟨1, 5⟩ with | .ok (some l) => l.length | _ => 0) = 2 := by
    decide +kernel
  rw [h] at key
  cases r with
  | panic => cases key
  | ok res =>
    simp only [Bool.and_eq_true, decide_eq_true_eq] at key
    obtain ⟨⟨k1, k2⟩, k3⟩ := key
    obtain ⟨locs, uses, a1, a2, a3, a4, a5⟩ := C91_references hopen h (by decide) (by decide) far_line (k := 5) (p := ⟨1, 5⟩) (by decide) (by decide)
      (by decide) (occurs_iff.mpr k1) ⟨by decide, by decide⟩ (fun a => k2 a.2) debugEnv
    rw [a1] at hn
    simp only at hn
    refine ⟨locs, uses, a1, hn, by omega, ?_⟩
    intro x hx
    obtain ⟨_, q, b1, b2, _, b3⟩ := a5 x hx
    refine ⟨q, b1, b2, fun e => ?_⟩
    have hm := (a3 x.1).mp (List.of_mem_zip hx).1
    exact of_decide_eq_true (List.all_eq_true.mp k3 _ (occurs_iff.mp hm.1)) hm.2.2 (b3.mp e)

/-- With a character of two UTF-16 code units before it, the cursor is read too far to the right: `@a` ends before it. -/
example : Utf16Offset farText ⟨2, 5⟩ 24 ∧ lspPosToOffset farText ⟨2, 5⟩ = some 25 := by
  refine ⟨⟨20, c!"# 😀 @a", 4, ?_, by decide, rfl, by decide⟩, by decide⟩
  exact .later (content := c!"@a = \"é\"") (eol := ['\n']) (rest := c!"@b = @a @a\n# 😀 @a") (n := 1) (start := 11) (by decide) (.inl rfl) (by simp)
    (.later (content := c!"@b = @a @a") (eol := ['\n']) (rest := c!"# 😀 @a") (n := 0) (start := 0) (by decide) (.inl rfl) (by simp)
      (.here (content := c!"# 😀 @a") (tail := []) (by decide) (by intro c cs h; cases h)))

end Instances
end HyperIR
