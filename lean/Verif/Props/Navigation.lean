import Verif.Proofs.Navigation
import Verif.Props.Backtrace

/-! C21, C22: go to definition, go to declaration, find references. -/

namespace HyperIR
open Spec

section
variable [Unicode] {st : ServerState} {uri text : Str} {res : ParserResult}

/-- C21, no symbol: at a position outside of all symbols there is no answer. -/
theorem C21_no_symbol (hopen : Opened st uri text) (h : parseFromStr text = .ok res) (hsize : text.length < 2 ^ 32)
    {p : Pos} {off : Nat} (hpos : LspOffset text p off) (hp : PlainTo text off) (hno : ∀ o, Occurs res.tokens res.stmts o → ¬ Covers o.span off) (env : Env) :
    references env st uri p = .ok none ∧ gotoDeclaration env st uri p = .ok none ∧ gotoDefinition env st uri p = .ok none := by
  obtain ⟨doc, errs, ha, hst⟩ := hopen
  have hs : symbolAt doc p = none := by
    cases hs : symbolAt doc p with
    | none => rfl
    | some o =>
      obtain ⟨h1, h2⟩ := (symbolAt_occurs ha h hsize hpos hp).1 o hs
      exact absurd h2 (hno o h1)
  have : ∀ ud, getUseDefRanges env st uri p ud = .ok none := by
    intro ud
    unfold getUseDefRanges
    simp only [hst, hs]
  unfold references gotoDeclaration gotoDefinition
  simp [this]

/-- C21, references: at a position inside a symbol (not a definition of a variable with the name of a function), exactly
the uses of the symbol are answered, each once, as editor range of the use. -/
theorem C21_references_partial (hopen : Opened st uri text) (h : parseFromStr text = .ok res) (hsize : text.length < 2 ^ 32)
    {p : Pos} {off : Nat} (hpos : LspOffset text p off) {o : SymbolOccurrence} (ho : Occurs res.tokens res.stmts o)
    (hc : Covers o.span off) (hp : PlainSymbol text res o) (hvis : ¬ Shadowed res.stmts o) (env : Env) :
    ∃ locs, references env st uri p = .ok (some locs) ∧ locs.Nodup ∧
      ∀ l, l ∈ locs ↔ ∃ o', Occurs res.tokens res.stmts o' ∧ SameSymbol o' o ∧ o'.useDef = .use ∧ l.uri = uri ∧ EditorRange text o'.span l.range := by
  obtain ⟨doc, errs, ha, hst⟩ := hopen
  obtain ⟨r, hr, hg⟩ := getUseDefRanges_spec ha h hsize hst hpos ho hc (hp o ho ⟨rfl, rfl, rfl⟩) hvis env .use
  obtain ⟨res', h1, _, _, _, _, h6⟩ := analyze_inv ha
  rw [h] at h1
  cases h1
  simp only [reduceCtorEq, if_false, List.append_nil] at hg
  obtain ⟨hl1, hl2⟩ := localLocations_spec h h6 hsize uri o.symbolKind o.funcBodyId o.name .use (fun sp hs => hp _ hs ⟨rfl, rfl, rfl⟩)
  refine ⟨_, by unfold references; rw [hg]; rfl, hl2, ?_⟩
  intro l
  rw [hl1]
  constructor
  · rintro ⟨sp, h1, h2, h3⟩
    exact ⟨_, h1, ⟨rfl, rfl, rfl⟩, rfl, h2, h3⟩
  · rintro ⟨⟨sp, ud, k, n, f⟩, h1, ⟨h4, h5, h6⟩, h7, h2, h3⟩
    simp only at h4 h5 h6 h7
    subst h4 h5 h6 h7
    exact ⟨sp, h1, h2, h3⟩

/-- C21, declarations. -/
theorem C21_declaration_partial (hopen : Opened st uri text) (h : parseFromStr text = .ok res) (hsize : text.length < 2 ^ 32)
    {p : Pos} {off : Nat} (hpos : LspOffset text p off) {o : SymbolOccurrence} (ho : Occurs res.tokens res.stmts o)
    (hc : Covers o.span off) (hp : PlainSymbol text res o) (hvis : ¬ Shadowed res.stmts o) (env : Env) :
    ∃ links, gotoDeclaration env st uri p = .ok (some links) ∧ links.Nodup ∧ (∀ k ∈ links, EditorRange text o.span k.origin) ∧
      ∀ l, (∃ k ∈ links, k.target = l) ↔
        ∃ o', Occurs res.tokens res.stmts o' ∧ SameSymbol o' o ∧ o'.useDef = .decl ∧ l.uri = uri ∧ EditorRange text o'.span l.range := by
  obtain ⟨doc, errs, ha, hst⟩ := hopen
  obtain ⟨r, hr, hg⟩ := getUseDefRanges_spec ha h hsize hst hpos ho hc (hp o ho ⟨rfl, rfl, rfl⟩) hvis env .decl
  obtain ⟨res', h1, _, _, _, _, h6⟩ := analyze_inv ha
  rw [h] at h1
  cases h1
  simp only [reduceCtorEq, if_false, List.append_nil] at hg
  obtain ⟨hl1, hl2⟩ := localLocations_spec h h6 hsize uri o.symbolKind o.funcBodyId o.name .decl (fun sp hs => hp _ hs ⟨rfl, rfl, rfl⟩)
  refine ⟨toLinks (r, _), by unfold gotoDeclaration; rw [hg]; rfl, ?_, ?_, ?_⟩
  · exact hl2.map (f := fun l => LocationLink.mk r l) (fun a b hab => by simpa using hab)
  · intro k hk
    obtain ⟨l, _, rfl⟩ := List.mem_map.mp hk
    exact hr
  · intro l
    have : (∃ k ∈ toLinks (r, localLocations uri text (listed doc.index o.symbolKind o.funcBodyId o.name .decl)), k.target = l) ↔
        l ∈ localLocations uri text (listed doc.index o.symbolKind o.funcBodyId o.name .decl) := by
      simp only [toLinks, List.mem_map]
      exact ⟨by rintro ⟨_, ⟨a, h1, rfl⟩, rfl⟩; exact h1, fun h1 => ⟨_, ⟨l, h1, rfl⟩, rfl⟩⟩
    rw [this, hl1]
    constructor
    · rintro ⟨sp, h1, h2, h3⟩
      exact ⟨_, h1, ⟨rfl, rfl, rfl⟩, rfl, h2, h3⟩
    · rintro ⟨⟨sp, ud, k, n, f⟩, h1, ⟨h4, h5, h6⟩, h7, h2, h3⟩
      simp only at h4 h5 h6 h7
      subst h4 h5 h6 h7
      exact ⟨sp, h1, h2, h3⟩

omit [Unicode] in
theorem externalLocations_spec (env : Env) {roots : List Url} (hr : ∀ r ∈ roots, Folder r) : ∀ {ds : List ExternalDef},
    (∀ d ∈ ds, NoTabs d.filepath ∧ 0 < d.line ∧ d.line < 2 ^ 32) →
    ∃ ls, externalLocations env roots ds = .ok ls ∧
      ∀ l, l ∈ ls ↔ ∃ d ∈ ds, ∃ u, Resolves env.fs roots d.filepath u ∧
        l = { uri := u.toStr, range := { start := ⟨d.line - 1, 0⟩, stop := ⟨d.line - 1, 0⟩ } }
  | [], _ => ⟨[], rfl, by simp⟩
  | d :: ds, hd => by
    obtain ⟨ls, h1, h2⟩ := externalLocations_spec env hr (ds := ds) (fun d h => hd d (by simp [h]))
    obtain ⟨ht, hpos, hlt⟩ := hd d (by simp)
    obtain ⟨o, h3, h4⟩ := resolveRelativePath_spec (fs := env.fs) hr ht
    unfold externalLocations
    rw [h3]
    cases o with
    | none =>
      refine ⟨ls, h1, ?_⟩
      intro l
      rw [h2]
      constructor
      · rintro ⟨d', h5, h6⟩; exact ⟨d', by simp [h5], h6⟩
      · rintro ⟨d', h5, u, h6, h7⟩
        rcases List.mem_cons.mp h5 with rfl | h5
        · have := (h4 u).mpr h6; cases this
        · exact ⟨d', h5, u, h6, h7⟩
    | some u =>
      have hsub : u32Sub env.build d.line 1 = .ok (d.line - 1) := by
        unfold u32Sub
        rw [if_pos (by omega)]
      simp only [hsub, h1]
      refine ⟨_, rfl, ?_⟩
      intro l
      rw [List.mem_cons, h2]
      constructor
      · rintro (rfl | ⟨d', h5, h6⟩)
        · exact ⟨d, by simp, u, (h4 u).mp rfl, rfl⟩
        · exact ⟨d', by simp [h5], h6⟩
      · rintro ⟨d', h5, u', h6, h7⟩
        rcases List.mem_cons.mp h5 with rfl | h5
        · have := (h4 u').mpr h6
          cases this
          exact .inl h7
        · exact .inr ⟨d', h5, u', h6, h7⟩

/-- The debug annotation with location `d` belongs to a function declared before. -/
def Annotated (ss : List Statement) (n : Str) (d : ExternalDef) : Prop :=
  ∃ before name def_ after, ss = before ++ .dbgAnnotation name def_ :: after ∧ IsLocation def_ d ∧ LastDeclares before name.1 n

/-- C21 and C22, definitions: at a position inside a symbol, the editor ranges of the symbol's definitions are answered; for
a function also the resolved source locations of the annotations belonging to its declarations, at line `line - 1`; and
nothing else.  What is missing: annotations that come before the declaration (`C22_refuted_order`), line 0
(`C22_refuted_line_zero`), and file names with tabs or line ends. -/
theorem C22_definition_partial (hopen : Opened st uri text) (h : parseFromStr text = .ok res) (hsize : text.length < 2 ^ 32)
    {p : Pos} {off : Nat} (hpos : LspOffset text p off) {o : SymbolOccurrence} (ho : Occurs res.tokens res.stmts o)
    (hc : Covers o.span off) (hp : PlainSymbol text res o) (hvis : ¬ Shadowed res.stmts o) (env : Env)
    (hroots : ∀ r ∈ st.roots, Folder r) (hann : ∀ d, Annotated res.stmts o.name d → NoTabs d.filepath ∧ 0 < d.line) :
    ∃ links, gotoDefinition env st uri p = .ok (some links) ∧ (∀ k ∈ links, EditorRange text o.span k.origin) ∧
      ∀ l, (∃ k ∈ links, k.target = l) ↔
        (∃ o', Occurs res.tokens res.stmts o' ∧ SameSymbol o' o ∧ o'.useDef = .def_ ∧ l.uri = uri ∧ EditorRange text o'.span l.range) ∨
        (o.symbolKind = .function ∧ ∃ d u, Annotated res.stmts o.name d ∧ Resolves env.fs st.roots d.filepath u ∧
          l = { uri := u.toStr, range := { start := ⟨d.line - 1, 0⟩, stop := ⟨d.line - 1, 0⟩ } }) := by
  obtain ⟨doc, errs, ha, hst⟩ := hopen
  obtain ⟨r, hr, hg⟩ := getUseDefRanges_spec ha h hsize hst hpos ho hc (hp o ho ⟨rfl, rfl, rfl⟩) hvis env .def_
  obtain ⟨res', h1, _, _, _, _, h6⟩ := analyze_inv ha
  rw [h] at h1
  cases h1
  simp only [if_true] at hg
  obtain ⟨hl1, hl2⟩ := localLocations_spec h h6 hsize uri o.symbolKind o.funcBodyId o.name .def_ (fun sp hs => hp _ hs ⟨rfl, rfl, rfl⟩)
  have hext : ∀ d, d ∈ ((entry? doc.index o.symbolKind o.funcBodyId o.name).getD {}).externalDefs ↔
      o.symbolKind = .function ∧ Annotated res.stmts o.name d := by
    intro d
    by_cases hk : o.symbolKind = .function
    · have hf : o.funcBodyId = none := by
        have hsc := (C20_local_scope h h6).2.2.1 o ((occurs_listed h h6).mpr ho)
        cases hf : o.funcBodyId with
        | none => rfl
        | some i =>
          rcases hsc.mpr ⟨i, hf⟩ with h | h <;> rw [hk] at h <;> cases h
      rw [hk, hf, C22_external_defs h h6]
      simp [Annotated]
    · obtain ⟨g, hinv, _⟩ := index_inv h h6
      rw [hinv.ext, if_neg (by simp [hk])]
      simp [hk]
  have hline : ∀ d, Annotated res.stmts o.name d → d.line < 2 ^ 32 := by
    rintro d ⟨_, _, _, _, _, ⟨_, _, _, _, _, _, h⟩, _⟩
    exact h
  obtain ⟨ls, he1, he2⟩ := externalLocations_spec env hroots
    (ds := ((entry? doc.index o.symbolKind o.funcBodyId o.name).getD {}).externalDefs)
    (fun d hd => ⟨(hann d ((hext d).mp hd).2).1, (hann d ((hext d).mp hd).2).2, hline d ((hext d).mp hd).2⟩)
  rw [he1] at hg
  refine ⟨toLinks (r, _), by unfold gotoDefinition; rw [hg]; rfl, ?_, ?_⟩
  · intro k hk
    obtain ⟨l, _, rfl⟩ := List.mem_map.mp hk
    exact hr
  · intro l
    have : (∃ k ∈ toLinks (r, localLocations uri text (listed doc.index o.symbolKind o.funcBodyId o.name .def_) ++ ls), k.target = l) ↔
        l ∈ localLocations uri text (listed doc.index o.symbolKind o.funcBodyId o.name .def_) ++ ls := by
      simp only [toLinks, List.mem_map]
      exact ⟨by rintro ⟨_, ⟨a, h1, rfl⟩, rfl⟩; exact h1, fun h1 => ⟨_, ⟨l, h1, rfl⟩, rfl⟩⟩
    rw [this, List.mem_append, hl1, he2]
    apply or_congr
    · constructor
      · rintro ⟨sp, h1, h2, h3⟩
        exact ⟨_, h1, ⟨rfl, rfl, rfl⟩, rfl, h2, h3⟩
      · rintro ⟨⟨sp, ud, k, n, f⟩, h1, ⟨h4, h5, h6⟩, h7, h2, h3⟩
        simp only at h4 h5 h6 h7
        subst h4 h5 h6 h7
        exact ⟨sp, h1, h2, h3⟩
    · constructor
      · rintro ⟨d, h1, u, h2, h3⟩
        exact ⟨((hext d).mp h1).1, d, u, ((hext d).mp h1).2, h2, h3⟩
      · rintro ⟨hk, d, u, h1, h2, h3⟩
        exact ⟨d, (hext d).mpr ⟨hk, h1⟩, u, h2, h3⟩

end

/-! ### Examples and refutations -/

section Examples
attribute [local instance] asciiUnicode

/-- A server with one open document. -/
def serverWith (roots : List Url) (uri text : Str) : ServerState :=
  match analyze text with
  | .ok (doc, _) => { roots := roots, docs := [(uri, doc)] }
  | .panic => { roots := roots }

theorem serverWith_opened {roots : List Url} {uri text : Str} (h : (match analyze text with | .ok _ => true | .panic => false) = true) :
    Opened (serverWith roots uri text) uri text := by
  unfold serverWith
  cases ha : analyze text with
  | panic => rw [ha] at h; cases h
  | ok p => exact ⟨p.1, p.2, ha, by simp [StrMap.get?]⟩

def debugEnv : Env := { build := { overflowChecks := true }, ord := ⟨fun l => l, fun l => List.Perm.refl l⟩, fs := fun _ => true, json := fun _ => none }

def navText : Str := c!"declare void @f() !d\n!d = \"src/a.cpp:12\"\ndefine void @g() {\nx:\n call @f\n br x\n}\n"

example : Opened (serverWith [workspace] c!"u" navText) c!"u" navText := serverWith_opened (by decide +kernel)
example : Plain navText ∧ navText.length < 2 ^ 32 := by decide +kernel

/-- A document that is not plain behind the occurrences of `@f`. -/
def wideText : Str := navText ++ c!"# é\n@z = 1\n"

def wideOcc : SymbolOccurrence := ⟨⟨13, 15⟩, .decl, .function, c!"@f", none⟩

/-- The hypotheses of `C21_references_partial` about the text and the symbol hold for `@f` in `wideText`, but not for `@z`. -/
theorem wideText_facts : ¬ Plain wideText ∧ ∃ res, parseFromStr wideText = .ok res ∧ Occurs res.tokens res.stmts wideOcc ∧
    PlainSymbol wideText res wideOcc ∧ ¬ Ambiguous res.stmts c!"@f" ∧ ∃ o, Occurs res.tokens res.stmts o ∧ ¬ PlainSymbol wideText res o := by
  refine ⟨by decide, ?_⟩
  generalize h : parseFromStr wideText = r
  have key : (match parseFromStr wideText with
    | .ok res => decide (wideOcc ∈ allOccs res.tokens res.stmts) &&
        ((allOccs res.tokens res.stmts).all fun o => decide (o.name = c!"@f" → PlainTo wideText o.span.stop)) &&
        decide (¬ IsGlobalVar res.stmts c!"@f") &&
        decide ((⟨⟨84, 86⟩, .def_, .globalVar, c!"@z", none⟩ : SymbolOccurrence) ∈ allOccs res.tokens res.stmts)
    | .panic => false) = true := by decide +kernel
  rw [h] at key
  cases r with
  | panic => cases key
  | ok res =>
    simp only [Bool.and_eq_true, decide_eq_true_eq] at key
    obtain ⟨⟨⟨k1, k2⟩, k3⟩, k4⟩ := key
    refine ⟨res, rfl, occurs_iff.mpr k1, ?_, fun a => k3 a.2, _, occurs_iff.mpr k4, ?_⟩
    · intro o' ho' hs
      exact of_decide_eq_true (List.all_eq_true.mp k2 _ (occurs_iff.mp ho')) hs.2.2
    · intro hp
      have := hp _ (occurs_iff.mpr k4) ⟨rfl, rfl, rfl⟩
      revert this
      decide

example : references debugEnv (serverWith [workspace] c!"u" wideText) c!"u" ⟨0, 13⟩ =
    .ok (some [{ uri := c!"u", range := ⟨⟨4, 6⟩, ⟨4, 8⟩⟩ }]) := by
  decide +kernel

/-- The definition of `@f` is found in the annotated source file. -/
example : gotoDefinition debugEnv (serverWith [workspace] c!"u" navText) c!"u" ⟨4, 6⟩ =
    .ok (some [{ origin := ⟨⟨4, 6⟩, ⟨4, 8⟩⟩, target := { uri := c!"file:///home/ws/src/a.cpp", range := ⟨⟨11, 0⟩, ⟨11, 0⟩⟩ } }]) := by
  decide +kernel
example : gotoDeclaration debugEnv (serverWith [workspace] c!"u" navText) c!"u" ⟨4, 6⟩ =
    .ok (some [{ origin := ⟨⟨4, 6⟩, ⟨4, 8⟩⟩, target := { uri := c!"u", range := ⟨⟨0, 13⟩, ⟨0, 15⟩⟩ } }]) := by
  decide +kernel
example : references debugEnv (serverWith [workspace] c!"u" navText) c!"u" ⟨3, 0⟩ =
    .ok (some [{ uri := c!"u", range := ⟨⟨5, 4⟩, ⟨5, 5⟩⟩ }]) := by
  decide +kernel

/-- C21 fails for a name that is both a global variable and a function: nothing is found from the definition of the variable. -/
theorem C21_refuted_clash : gotoDefinition debugEnv (serverWith [] c!"u" c!"@a = 1\ndeclare void @a()\n") c!"u" ⟨0, 0⟩ = .ok (some []) := by
  decide +kernel

/-- C21 fails for text that is not ASCII: the range answered for `@b` starts in the line before. -/
theorem C21_refuted_nonascii :
    gotoDefinition debugEnv (serverWith [] c!"u" c!"# é\n@b = 1\n") c!"u" ⟨1, 0⟩ =
      .ok (some [{ origin := ⟨⟨0, 3⟩, ⟨1, 1⟩⟩, target := { uri := c!"u", range := ⟨⟨0, 3⟩, ⟨1, 1⟩⟩ } }]) := by
  decide +kernel

/-- C22 fails for line 0: a debug build crashes. -/
theorem C22_refuted_line_zero :
    gotoDefinition debugEnv (serverWith [workspace] c!"u" c!"declare void @f() !d\n!d = \"a:0\"\n") c!"u" ⟨0, 13⟩ = .panic := by
  decide +kernel

/-- In a release build the line is the largest number instead. -/
theorem C22_refuted_line_zero_release :
    gotoDefinition ({ debugEnv with build := ⟨false⟩ })
      (serverWith [workspace] c!"u" c!"declare void @f() !d\n!d = \"a:0\"\n") c!"u" ⟨0, 13⟩ =
      .ok (some [{ origin := ⟨⟨0, 13⟩, ⟨0, 15⟩⟩, target := { uri := c!"file:///home/ws/a", range := ⟨⟨4294967295, 0⟩, ⟨4294967295, 0⟩⟩ } }]) := by
  decide +kernel

end Examples

end HyperIR
