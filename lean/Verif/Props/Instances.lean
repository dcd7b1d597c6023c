import Verif.Props.Consistency
import Verif.Props.Kept
import Verif.Props.Structure
import Verif.Props.Hints
import Verif.Props.RenameTwice

/-!
Theorems on navigation, renames and shifts applied to the label `x1` and the parameter `%v1` of small documents. Each application discharges all
hypotheses of the theorem, so that they can be seen to hold together.
-/

namespace HyperIR
open Spec
attribute [local instance] asciiUnicode

namespace Instances

/-- A server that has opened the document. -/
abbrev srv (text : Str) : ServerState := serverWith [] c!"u" text

theorem openErr : Opened (srv renErr) c!"u" renErr := serverWith_opened (by decide +kernel)
theorem openRen : Opened (srv renText) c!"u" renText := serverWith_opened (by decide +kernel)
theorem sizeErr : renErr.length < 2 ^ 32 := by decide +kernel
theorem sizeRen : renText.length < 2 ^ 32 := by decide +kernel

/-- The label `x1` in line 2 of `renErr`. -/
theorem posErr : LspOffset renErr ⟨2, 0⟩ 35 :=
  ⟨35, c!"x1:", .later (content := c!"@a = 1") (eol := c!"\n") (by decide) (.inl rfl) (by simp)
    (.later (content := c!"define void @f(int32 %v1) {") (eol := c!"\n") (by decide) (.inl rfl) (by simp)
      (.here (content := c!"x1:") (tail := renErr.drop 38) (by decide) (by intro c cs h; left; simp [renErr] at h; exact h.1.symm))), by decide, rfl⟩

theorem covErr : Covers renLabel.span 35 := ⟨by decide, by decide⟩
theorem covPar : Covers paramOcc.span 29 := ⟨by decide, by decide⟩
theorem notRelative : ¬ Relative c!"y2" := by rintro ⟨w, h | h⟩ <;> cases h
theorem newName : NewName .label c!"y2" c!"y2" :=
  ⟨[], c!"y2", rfl, .inr rfl, rfl, by simp, by simp [NameChar]; decide, by intro _ c h; simp at h; subst h; decide⟩
theorem readsBack : ReadsBack .label c!"y2" := ⟨by decide, fun _ => by decide⟩
theorem plainLabels : ∀ w ∈ [c!"x1", c!"y2"], PlainLabel w := by
  intro w hw
  refine ⟨by revert w; decide, ?_⟩
  rw [isBr_iff]
  revert w; decide
theorem plusTwo : ShiftBy c!"+2" 2 := ⟨c!"2", 2, parseNat_iff.mp (by decide +kernel), by decide, .inl ⟨rfl, rfl⟩⟩
theorem plainErr : PlainTo renErr 35 := by decide +kernel
theorem plainRen (n : Nat) : PlainTo renText n := Spec.Plain.to (by decide +kernel) _

/-- The locations in the annotations of `wideText`. -/
theorem wideText_annotated {res : ParserResult} (h : parseFromStr wideText = .ok res) (d : ExternalDef) (hd : Annotated res.stmts c!"@f" d) :
    NoTabs d.filepath ∧ 0 < d.line := by
  generalize hr : analyze wideText = r
  have key : (match analyze wideText with
    | .ok (doc, _) => (((entry? doc.index .function none c!"@f").getD {}).externalDefs).all fun d => decide (NoTabs d.filepath ∧ 0 < d.line)
    | .panic => false) = true := by decide +kernel
  rw [hr] at key
  match r, hr, key with
  | .ok (doc, errs), hr, key =>
    obtain ⟨res', h1, _, _, _, _, h6⟩ := analyze_inv hr
    rw [h] at h1
    cases h1
    exact of_decide_eq_true (List.all_eq_true.mp key d ((C22_external_defs h h6 _ _).mpr hd))

/-- A name that is both a variable and a function. -/
def clashText : Str := c!"@a = 1\ndeclare void @a()\n"

/-- The declaration of the function. -/
def clashFunc : SymbolOccurrence := ⟨⟨20, 22⟩, .decl, .function, c!"@a", none⟩

/-- The definition of the variable, and the same token as the use of the function. -/
def clashVar : SymbolOccurrence := ⟨⟨0, 2⟩, .def_, .globalVar, c!"@a", none⟩
def clashUse : SymbolOccurrence := ⟨⟨0, 2⟩, .use, .function, c!"@a", none⟩

theorem clashText_facts : ∃ res, parseFromStr clashText = .ok res ∧ Occurs res.tokens res.stmts clashFunc ∧ Occurs res.tokens res.stmts clashVar ∧
    Occurs res.tokens res.stmts clashUse ∧ Ambiguous res.stmts c!"@a" ∧ Shadowed res.stmts clashVar ∧ ¬ Shadowed res.stmts clashFunc := by
  generalize h : parseFromStr clashText = r
  have key : (match parseFromStr clashText with
    | .ok res => decide (clashFunc ∈ allOccs res.tokens res.stmts) && decide (clashVar ∈ allOccs res.tokens res.stmts) &&
        decide (clashUse ∈ allOccs res.tokens res.stmts) && decide (IsFunction res.stmts c!"@a") && decide (IsGlobalVar res.stmts c!"@a")
    | .panic => false) = true := by decide +kernel
  rw [h] at key
  cases r with
  | panic => cases key
  | ok res =>
    simp only [Bool.and_eq_true, decide_eq_true_eq] at key
    obtain ⟨⟨⟨⟨k1, k2⟩, k3⟩, k4⟩, k5⟩ := key
    exact ⟨res, rfl, occurs_iff.mpr k1, occurs_iff.mpr k2, occurs_iff.mpr k3, ⟨k4, k5⟩, ⟨rfl, k4⟩, fun a => nomatch a.1⟩

/-- `C25_rename_partial` for a name that is both: renaming the function (also at the definition of the variable) gives two edits. -/
example : ∃ edits, rename debugEnv (serverWith [] c!"u" clashText) c!"u" ⟨1, 13⟩ c!"b" = .ok (.ok [(c!"u", edits)]) ∧
    rename debugEnv (serverWith [] c!"u" clashText) c!"u" ⟨0, 0⟩ c!"b" = .ok (.ok [(c!"u", edits)]) ∧ edits.length = 2 := by
  obtain ⟨res, h1, h2, _, h3, _, _, h4⟩ := clashText_facts
  have hopen : Opened (serverWith [] c!"u" clashText) c!"u" clashText := serverWith_opened (by decide +kernel)
  have hpos : LspOffset clashText ⟨1, 13⟩ 20 :=
    ⟨7, c!"declare void @a()", .later (content := c!"@a = 1") (eol := c!"\n") (by decide) (.inl rfl) (by simp)
      (.here (content := c!"declare void @a()") (tail := c!"\n") (by decide) (by intro c cs h; left; simp at h; exact h.1.symm)), by decide, rfl⟩
  have hpos0 : LspOffset clashText ⟨0, 0⟩ 0 :=
    ⟨0, c!"@a = 1", .here (content := c!"@a = 1") (tail := clashText.drop 6) (by decide) (by intro c cs h; left; simp [clashText] at h; exact h.1.symm), by decide, rfl⟩
  have hname : NewName .function c!"b" c!"@b" := ((checkNewName_spec .function c!"b").1 _).mp (by rfl)
  obtain ⟨edits, occs, a1, a2, a3, a4, _⟩ := C25_rename_partial (env := debugEnv) hopen h1 (by decide +kernel) hpos (Spec.Plain.to (by decide +kernel) _) h2
    ⟨by decide, by decide⟩ h4 (req := c!"b") (by rintro ⟨w, h | h⟩ <;> cases h) hname
  obtain ⟨edits', occs', b1, b2, b3, b4, _⟩ := C25_rename_partial (env := debugEnv) hopen h1 (by decide +kernel) hpos0 (Spec.Plain.to (by decide +kernel) _) h3
    ⟨by decide, by decide⟩ (fun a => nomatch a.1) (req := c!"b") (by rintro ⟨w, h | h⟩ <;> cases h) hname
  have hlen : (match rename debugEnv (serverWith [] c!"u" clashText) c!"u" ⟨1, 13⟩ c!"b", rename debugEnv (serverWith [] c!"u" clashText) c!"u" ⟨0, 0⟩ c!"b" with
    | .ok (.ok [(_, e)]), .ok (.ok [(_, e')]) => decide (e = e' ∧ e.length = 2) | _, _ => false) = true := by decide +kernel
  rw [a1, b1] at hlen
  simp only [decide_eq_true_eq] at hlen
  exact ⟨edits, a1, by rw [b1, hlen.1], hlen.2⟩

/-- `C19_exact` for it: at the definition of the variable the use of the function is found. -/
example : ∃ (res : ParserResult) (ix : HIRIndex), createIndex clashText res.tokens res.stmts = .ok ix ∧ ix.findSymbolAtPosition 1 = some clashUse ∧ Listed ix clashVar := by
  obtain ⟨res, h1, _, h2, h3, _, _, _⟩ := clashText_facts
  have hopen : Opened (serverWith [] c!"u" clashText) c!"u" clashText := serverWith_opened (by decide +kernel)
  obtain ⟨doc, errs, ha, _⟩ := hopen
  obtain ⟨res', h1', _, _, _, _, hix⟩ := analyze_inv ha
  rw [h1] at h1'
  cases h1'
  exact ⟨res, doc.index, hix, (C19_exact h1 hix 1 clashUse).mpr ⟨(occurs_listed h1 hix).mpr h3, by decide, fun a => nomatch a.1⟩, (occurs_listed h1 hix).mpr h2⟩

/-- `C21_references_partial`, `C21_declaration_partial` and `C22_definition_partial` for `@f` in `wideText`. -/
example : ∃ locs decls defs, references debugEnv (serverWith [workspace] c!"u" wideText) c!"u" ⟨0, 13⟩ = .ok (some locs) ∧
    gotoDeclaration debugEnv (serverWith [workspace] c!"u" wideText) c!"u" ⟨0, 13⟩ = .ok (some decls) ∧
    gotoDefinition debugEnv (serverWith [workspace] c!"u" wideText) c!"u" ⟨0, 13⟩ = .ok (some defs) ∧
    (∃ k ∈ decls, EditorRange wideText ⟨13, 15⟩ k.target.range) ∧ ∀ k ∈ defs, EditorRange wideText ⟨13, 15⟩ k.origin := by
  obtain ⟨_, res, h1, h2, h3, h4, _⟩ := wideText_facts
  have hopen : Opened (serverWith [workspace] c!"u" wideText) c!"u" wideText := serverWith_opened (by decide +kernel)
  have hsize : wideText.length < 2 ^ 32 := by decide +kernel
  have hpos : LspOffset wideText ⟨0, 13⟩ 13 :=
    ⟨0, c!"declare void @f() !d", .here (content := c!"declare void @f() !d") (tail := wideText.drop 20) (by decide) (by intro c cs h; left; simp [wideText, navText] at h; exact h.1.symm),
      by decide, rfl⟩
  have hc : Covers wideOcc.span 13 := ⟨by decide, by decide⟩
  obtain ⟨locs, a1, _⟩ := C21_references_partial hopen h1 hsize hpos h2 hc h3 (visible_of_clear h2 h4) debugEnv
  obtain ⟨decls, b1, _, b2, b3⟩ := C21_declaration_partial hopen h1 hsize hpos h2 hc h3 (visible_of_clear h2 h4) debugEnv
  obtain ⟨defs, c1, c2, _⟩ := C22_definition_partial hopen h1 hsize hpos h2 hc h3 (visible_of_clear h2 h4) debugEnv (by decide) (wideText_annotated h1)
  obtain ⟨r, hr⟩ := (⟨⟨⟨0, 13⟩, ⟨0, 15⟩⟩, hpos, ⟨0, c!"declare void @f() !d",
    .here (content := c!"declare void @f() !d") (tail := wideText.drop 20) (by decide) (by intro c cs h; left; simp [wideText, navText] at h; exact h.1.symm), by decide, rfl⟩⟩ :
      ∃ r, EditorRange wideText wideOcc.span r)
  obtain ⟨k, hk, hl⟩ := (b3 ⟨c!"u", r⟩).mpr ⟨wideOcc, h2, ⟨rfl, rfl, rfl⟩, rfl, rfl, hr⟩
  exact ⟨locs, decls, defs, a1, b1, c1, ⟨k, hk, by rw [hl]; exact hr⟩, c2⟩

/-- `C25_rename_partial` and `C27_tokens_partial`. -/
example : ∃ edits text' toks toks' errs' res, rename debugEnv (srv renErr) c!"u" ⟨2, 0⟩ c!"y2" = .ok (.ok [(c!"u", edits)]) ∧ edits ≠ [] ∧
    Applied renErr edits text' ∧ tokenize text' = .ok (some toks', errs') ∧ TokensRenamed res renLabel c!"y2" toks toks' := by
  obtain ⟨res, toks, errs, h1, h2, _, h3, h4, h5, h6, h7⟩ := renErr_facts
  obtain ⟨edits, occs, a1, a2, _, a3, _⟩ :=
    C25_rename_partial (env := debugEnv) openErr h1 sizeErr posErr plainErr h3 covErr (visible_of_clear h3 h4) notRelative newName
  obtain ⟨edits', text', toks', errs', b1, b2, _, b3, _, b4⟩ :=
    C27_tokens_partial (env := debugEnv) openErr h1 sizeErr h2 posErr h3 covErr h7 (visible_of_clear h3 h4) notRelative newName readsBack h6
  rw [a1] at b1
  cases b1
  refine ⟨edits, text', toks, toks', errs', res, a1, ?_, b2, b3, b4⟩
  rintro rfl
  cases occs with
  | nil => exact absurd ((a3 renLabel).mpr ⟨h3, ⟨rfl, rfl, rfl⟩⟩) (by simp)
  | cons _ _ => cases a2

/-- `C26_new_names_partial`, and `C26_rejected_partial` for a name with a blank. -/
example : ∃ e, rename debugEnv (srv renErr) c!"u" ⟨2, 0⟩ c!"y 2" = .ok (.error e) := by
  obtain ⟨res, toks, errs, h1, h2, _, h3, h4, h5, h6, h7⟩ := renErr_facts
  refine C26_rejected_partial openErr h1 sizeErr posErr plainErr h3 covErr (visible_of_clear h3 h4) (by rintro ⟨w, h | h⟩ <;> cases h) (by simp) (by intro h; cases h) ?_
  rintro name ⟨sigil, body, hs, hb, _, _, hall, _⟩
  cases (show sigil = [] from hs)
  have : body = c!"y 2" := by rcases hb with h | h <;> exact h.symm
  subst this
  rcases hall ' ' (by simp) with h | h
  · revert h
    simp only [NameChar]
    decide
  · cases h

/-- `C30_shift_partial` and `C31_no_merge_partial`. -/
example : ∃ edits res, rename debugEnv (srv renText) c!"u" ⟨1, 22⟩ c!"+2" = .ok (.ok [(c!"u", edits)]) ∧ parseFromStr renText = .ok res ∧
    ShiftEdits renText res paramOcc 1 2 edits ∧
    ∀ o₁ o₂ n₁ n₂, Occurs res.tokens res.stmts o₁ → SameScope o₁ paramOcc → Occurs res.tokens res.stmts o₂ → SameScope o₂ paramOcc →
      NameAfter renText edits o₁ n₁ → NameAfter renText edits o₂ n₂ → o₁.name ≠ o₂.name → n₁ ≠ n₂ := by
  obtain ⟨res, h1, h3, h4, h5, h6⟩ := renText_facts
  obtain ⟨_, _, h1', _, _, _, hn, _⟩ := renText_safe
  obtain ⟨edits, a1, a2⟩ := C30_shift_partial (env := debugEnv) openRen h1 sizeRen paramOcc_pos h3 covPar (fun _ _ _ => plainRen _) (visible_of_clear h3 h4) plusTwo hn h5
  obtain ⟨edits', b1, b2⟩ := C31_no_merge_partial (env := debugEnv) openRen h1 sizeRen paramOcc_pos h3 covPar (fun _ _ _ => plainRen _) (visible_of_clear h3 h4) plusTwo hn h5 h6
    (by intro _ _ _ _ _ _ h; omega)
  rw [a1] at b1
  cases b1
  exact ⟨edits, res, a1, h1, a2, b2⟩

/-- `C32_no_overflow_partial`. -/
example : ∃ edits changes, rename debugEnv (srv renText) c!"u" ⟨1, 22⟩ c!"+2" = .ok (.ok [(c!"u", edits)]) ∧ Renames renText changes edits := by
  obtain ⟨res, h1, h3, h4, h5, h6⟩ := renText_facts
  obtain ⟨_, _, h1', _, _, _, hn, _⟩ := renText_safe
  obtain ⟨edits, changes, a1, a2, _⟩ := C32_no_overflow_partial (env := debugEnv) openRen h1 sizeRen paramOcc_pos h3 covPar (fun _ _ _ => plainRen _) (visible_of_clear h3 h4) plusTwo hn
    (fun o' pre nr ho' hs hn' hle => (h5 o' pre nr ho' hs hn' hle).2)
  exact ⟨edits, changes, a1, a2⟩

/-- `C68_rename_partial` and `C69_rename_partial`. -/
example : ∃ edits text' res, rename debugEnv (srv renErr) c!"u" ⟨2, 0⟩ c!"y2" = .ok (.ok [(c!"u", edits)]) ∧ Applied renErr edits text' ∧
    (text'.length < 2 ^ 32 → StructureKept renErr text' res (fun o' v => SameSymbol o' renLabel ∧ v = c!"y2") ∧
      ∀ env1 st1 uri1 v1 st2 pub1 env2 st3 uri2 v2 st4 pub2,
        onChange env1 st1 uri1 v1 renErr = .ok (st2, pub1) → onChange env2 st3 uri2 v2 text' = .ok (st4, pub2) →
        DiagnosticsKept res (fun o' v => SameSymbol o' renLabel ∧ v = c!"y2") pub1.diagnostics pub2.diagnostics) := by
  obtain ⟨res, toks, errs, h1, h2, _, h3, h4, h5, h6, h7⟩ := renErr_facts
  obtain ⟨edits, text', a1, a2, a3, a4⟩ := C68_rename_partial (env := debugEnv) openErr h1 sizeErr h2 posErr h3 covErr h7 h4 notRelative newName readsBack
    (by decide) (.inl fun _ => ⟨plainLabels _ (by simp [renLabel]), plainLabels _ (by simp)⟩) h5 h6
  obtain ⟨edits', text'', b1, b2, b3, b4⟩ := C69_rename_partial (env := debugEnv) openErr h1 sizeErr h2 posErr h3 covErr h7 h4 notRelative newName readsBack
    (by decide) h5 h6
  rw [a1] at b1
  cases b1
  obtain rfl := a3 _ b2
  exact ⟨edits, _, res, a1, a2, fun hs => ⟨b4 hs, a4 hs⟩⟩

/-- No symbol of `renErr` is called `br`. -/
theorem freshErr {res : ParserResult} (h : parseFromStr renErr = .ok res) : Fresh res renLabel c!"br" := by
  have key : (match parseFromStr renErr with
    | .ok res => (allOccs res.tokens res.stmts).all fun o => decide (o.name ≠ c!"br")
    | .panic => false) = true := by decide +kernel
  rw [h] at key
  intro o' ho' he
  exact absurd he (of_decide_eq_true (List.all_eq_true.mp key _ (occurs_iff.mp ho')))

/-- All statements of `renErr` can be read. -/
theorem readErr {res : ParserResult} (h : parseFromStr renErr = .ok res) : ∃ ss odd, Layout ss odd [] true (codeTokens res.tokens) := by
  have key : (match tokenize renErr with
    | .ok (some toks, _) => (match parseTokens (utf8Len renErr) toks with
      | .ok (some _, []) => true
      | _ => false)
    | _ => false) = true := by decide +kernel
  unfold parseFromStr at h
  split at key
  · rename_i toks _ ht
    rw [ht] at h
    simp only at h
    split at key
    · rename_i hp
      rw [hp] at h
      cases h
      obtain ⟨ss, odd, gs, w, hs⟩ := layout_total _ (toks.filter fun t => decide (t.1 ≠ Token.comment)) (Nat.le_refl _)
      obtain ⟨es, r, gs', h1, h2, h3, h4, h5, h6⟩ := many_docItem_layout (eoi := { start := utf8Len renErr, stop := utf8Len renErr + 1 }) hs
      cases w with
      | true =>
        obtain ⟨rfl, rfl⟩ := h2 rfl
        rw [parseTokens_of_many h1] at hp
        cases hp
        cases h4
        exact ⟨_, odd, hs⟩
      | false =>
        obtain ⟨hr, rfl⟩ := h3 rfl
        obtain ⟨e, h7, h8⟩ := parseTokens_lost h1 hr
        rw [h7] at hp
        cases hp
    · cases key
  · cases key

/-- `C60_references_partial`, `C68_rename_partial` and `C69_rename_partial` for a label renamed to the word for jumps: `br x1` becomes `br br`. -/
example : ∃ edits text' res res', rename debugEnv (srv renErr) c!"u" ⟨2, 0⟩ c!"br" = .ok (.ok [(c!"u", edits)]) ∧ Applied renErr edits text' ∧
    parseFromStr renErr = .ok res ∧ parseFromStr text' = .ok res' ∧ res'.stmts.length = res.stmts.length ∧ SameReferences res renLabel c!"br" res' ∧
    (text'.length < 2 ^ 32 → StructureKept renErr text' res (fun o' v => SameSymbol o' renLabel ∧ v = c!"br") ∧
      ∀ env1 st1 uri1 v1 st2 pub1 env2 st3 uri2 v2 st4 pub2,
        onChange env1 st1 uri1 v1 renErr = .ok (st2, pub1) → onChange env2 st3 uri2 v2 text' = .ok (st4, pub2) →
        DiagnosticsKept res (fun o' v => SameSymbol o' renLabel ∧ v = c!"br") pub1.diagnostics pub2.diagnostics) := by
  obtain ⟨res, toks, errs, h1, h2, _, h3, h4, _, h6, h7⟩ := renErr_facts
  have hreq : ¬ Relative c!"br" := by rintro ⟨w, h | h⟩ <;> cases h
  have hnew : NewName .label c!"br" c!"br" :=
    ⟨[], c!"br", rfl, .inr rfl, rfl, by simp, by simp [NameChar]; decide, by intro _ c h; simp at h; subst h; decide⟩
  have hback : ReadsBack .label c!"br" := ⟨by decide, fun _ => by decide⟩
  obtain ⟨edits, text', res', a1, a2, a3, a4, a5, a6⟩ := C60_references_partial (env := debugEnv) openErr h1 sizeErr h2 posErr h3 covErr h7 h4 hreq hnew hback
    (by decide) (freshErr h1) h6
  obtain ⟨edits', text'', b1, b2, b3, b4⟩ := C69_rename_partial (env := debugEnv) openErr h1 sizeErr h2 posErr h3 covErr h7 h4 hreq hnew hback
    (by decide) (freshErr h1) h6
  obtain ⟨edits3, text3, c1, c2, c3, c4⟩ := C68_rename_partial (env := debugEnv) openErr h1 sizeErr h2 posErr h3 covErr h7 h4 hreq hnew hback
    (by decide) (.inr (readErr h1)) (freshErr h1) h6
  rw [a1] at b1 c1
  cases b1
  cases c1
  obtain rfl := a3 _ b2
  obtain rfl := a3 _ c2
  exact ⟨edits, _, res, res', a1, a2, h1, a4, a5, a6, fun hs => ⟨b4 hs, c4 hs⟩⟩

/-- `C26_new_names_partial`. -/
example : (∃ e, rename debugEnv (srv renErr) c!"u" ⟨2, 0⟩ c!"y2" = .ok (.error e)) ∨
    ∃ edits, rename debugEnv (srv renErr) c!"u" ⟨2, 0⟩ c!"y2" = .ok (.ok [(c!"u", edits)]) := by
  obtain ⟨res, toks, errs, h1, _⟩ := renErr_facts
  rcases C26_new_names_partial (env := debugEnv) openErr h1 ⟨2, 0⟩ notRelative (by simp) (by intro k hk; cases k <;> cases hk) with h | ⟨_, _, edits, _, _, h, _⟩
  · exact .inl h
  · exact .inr ⟨edits, h⟩

/-- `C58_prepare_rename`. -/
example : ∃ r, prepareRename (srv renErr) c!"u" ⟨2, 0⟩ = some r ∧ EditorRange renErr ⟨35, 37⟩ r := by
  obtain ⟨res, toks, errs, h1, h2, _, h3, h4, h5, h6, h7⟩ := renErr_facts
  obtain ⟨r, a1, a2, _⟩ := (C58_prepare_rename openErr h1 sizeErr posErr plainErr).1 renLabel h3 covErr
  exact ⟨r, a1, a2 (h7 _ h3 ⟨rfl, rfl, rfl⟩)⟩

/-- `C33_offered_partial`, for a client that resolves actions later. -/
example : ∃ a, codeAction debugEnv { srv renText with lazyResolve := true } c!"u" ⟨⟨1, 22⟩, ⟨1, 22⟩⟩ = .ok (.ok (some [a])) ∧ a.edit = none ∧
    a.title = c!"Shift variable numbering" := by
  obtain ⟨res, h1, h3, h4, h5, h6⟩ := renText_facts
  obtain ⟨_, _, h1', _, _, _, hn, _⟩ := renText_safe
  obtain ⟨a, a1, a2, a3⟩ := (C33_offered_partial (env := debugEnv) (st := { srv renText with lazyResolve := true }) openRen h1 sizeRen rfl paramOcc_pos
    (plainRen _) (fun _ _ _ => plainRen _)).1 paramOcc c!"%v" 1 h3 covPar hn
  exact ⟨a, a1, a2, a3 (visible_of_clear h3 h4)⟩

/-- `C30_action_partial` and `C66_action_partial`. -/
example : ∃ a edits text' res', codeAction debugEnv (srv renText) c!"u" ⟨⟨1, 22⟩, ⟨1, 22⟩⟩ = .ok (.ok (some [a])) ∧ a.edit = some [(c!"u", edits)] ∧
    Applied renText edits text' ∧ parseFromStr text' = .ok res' := by
  obtain ⟨res, toks, h1, h2, h3, h4, hn, hs⟩ := renText_safeBy (k := 1) (by decide) (by decide)
  obtain ⟨a, edits, b1, b2, _⟩ := C30_action_partial (env := debugEnv) openRen h1 sizeRen rfl paramOcc_pos h3 covPar (fun _ _ _ => plainRen _) (visible_of_clear h3 h4) hn hs.1
  obtain ⟨a', edits', text', res', c1, c2, c3, _, c4, _⟩ :=
    C66_action_partial (env := debugEnv) openRen h1 sizeRen rfl h2 paramOcc_pos h3 covPar (fun _ _ _ => plainRen _) (visible_of_clear h3 h4) hn hs
  exact ⟨a', edits', text', res', c1, c2, c3, c4⟩

/-- The use of `x1` in the branch. -/
def renUse : SymbolOccurrence := ⟨⟨74, 76⟩, .use, .label, c!"x1", some 0⟩

theorem renUse_occurs {res : ParserResult} (h : parseFromStr renText = .ok res) : Occurs res.tokens res.stmts renUse := by
  have key : (match parseFromStr renText with | .ok res => decide (renUse ∈ allOccs res.tokens res.stmts) | .panic => false) = true := by
    decide +kernel
  rw [h] at key
  exact occurs_iff.mpr (of_decide_eq_true key)

theorem renUse_pos : LspOffset renText ⟨4, 5⟩ 75 :=
  ⟨70, c!" br x1", .later (content := c!"@a = 1") (eol := c!"\n") (by decide) (.inl rfl) (by simp)
    (.later (content := c!"define void @f(int32 %v1) {") (eol := c!"\n") (by decide) (.inl rfl) (by simp)
      (.later (content := c!"x1:") (eol := c!"\n") (by decide) (.inl rfl) (by simp)
        (.later (content := c!" int32 %v2 = add int32 %v1, @a") (eol := c!"\n") (by decide) (.inl rfl) (by simp)
          (.here (content := c!" br x1") (tail := renText.drop 76) (by decide) (by intro c cs h; left; simp [renText] at h; exact h.1.symm))))),
    by decide, rfl⟩

/-- `C61_same_answers` for the definition and the use of `x1`. -/
example : references debugEnv (srv renText) c!"u" ⟨2, 0⟩ = references debugEnv (srv renText) c!"u" ⟨4, 5⟩ ∧
    codeAction debugEnv (srv renText) c!"u" ⟨⟨2, 0⟩, ⟨2, 0⟩⟩ = codeAction debugEnv (srv renText) c!"u" ⟨⟨4, 5⟩, ⟨4, 5⟩⟩ := by
  obtain ⟨res, toks, h1, h2, h3, h4, h5, h6⟩ := renLabel_facts
  have := C61_same_answers openRen h1 sizeRen renLabel_pos renUse_pos h3 (renUse_occurs h1) covErr ⟨by decide, by decide⟩ (plainRen _) (plainRen _)
    ⟨rfl, rfl, rfl⟩ (visible_of_clear h3 h4) debugEnv
  exact ⟨this.1, this.2.2.2.2⟩

/-- The use of `@g` in `undefText`. -/
def undefOcc : SymbolOccurrence := ⟨⟨25, 27⟩, .use, .globalVar, c!"@g", none⟩

/-- `C62_undefined_nowhere` for `@g`. -/
example : ∃ st pub, onChange debugEnv {} c!"u" 1 undefText = .ok (st, pub) ∧
    ∃ d ∈ pub.diagnostics, d.message = c!"Use of undefined symbol `@g`" ∧ EditorRange undefText ⟨25, 27⟩ d.range := by
  have hopen : Opened (srv undefText) c!"u" undefText := serverWith_opened (by decide +kernel)
  generalize hr : parseFromStr undefText = r
  generalize hr' : onChange debugEnv {} c!"u" 1 undefText = r'
  have key : (match parseFromStr undefText, onChange debugEnv {} c!"u" 1 undefText with
    | .ok res, .ok _ => decide (undefOcc ∈ allOccs res.tokens res.stmts) && decide (¬ IsFunction res.stmts c!"@g")
    | _, _ => false) = true := by decide +kernel
  rw [hr, hr'] at key
  match r, r', hr, hr', key with
  | .ok res, .ok (st, pub), hr, hr', key =>
    simp only [Bool.and_eq_true, decide_eq_true_eq] at key
    refine ⟨st, pub, rfl, ?_⟩
    refine (C62_undefined_nowhere hopen hr (by decide +kernel) (p := ⟨1, 6⟩) (off := 25) ?_ (occurs_iff.mpr key.1) ⟨by decide, by decide⟩
      (Spec.Plain.to (by decide +kernel) _) rfl debugEnv hr').mpr (by decide +kernel)
    exact ⟨19, c!" call @g", .later (content := c!"define void @f() {") (eol := c!"\n") (by decide) (.inl rfl) (by simp)
      (.here (content := c!" call @g") (tail := undefText.drop 27) (by decide) (by intro c cs h; left; simp [undefText] at h; exact h.1.symm)),
      by decide, rfl⟩

end Instances
end HyperIR
