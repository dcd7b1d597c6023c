import Verif.Proofs.JoinLines
import Verif.Props.Broken

/-
C79: what is found and renamed in two documents put together.
-/

namespace HyperIR

open Spec

section
variable [Unicode] {text : Str} {res : ParserResult} {st : ServerState} {uri : Str}

/-- The symbol under an offset. -/
theorem symbolAt_at {doc : AnalyzedDocument} (h : parseFromStr text = .ok res) (hix : createIndex text res.tokens res.stmts = .ok doc.index)
    (hrope : doc.rope = text) {p : Pos} {off : Nat} (hoff : lspPosToOffset text p = some off) {o : SymbolOccurrence}
    (ho : Occurs res.tokens res.stmts o) (hc : Covers o.span off) (hamb : ¬ Ambiguous res.stmts o.name) : symbolAt doc p = some o := by
  have hc' : o.span.contains off = true := by
    unfold Span.contains
    simp only [Bool.and_eq_true, decide_eq_true_eq]
    exact hc
  obtain ⟨o', h1, _, _, h2⟩ := (C18_lookup h hix off).2 o ((occurs_listed h hix).mpr ho) hc'
  rw [h2 hamb] at h1
  unfold symbolAt
  rw [hrope, hoff]
  exact h1

/-- The locations of a symbol in the document. -/
def placesOf (uri text : Str) (ix : HIRIndex) (o : SymbolOccurrence) (ud : UseDefKind) : List Location :=
  localLocations uri text (listed ix o.symbolKind o.funcBodyId o.name ud)

/-- The edits for a new name. -/
def editsAt (text : Str) (ix : HIRIndex) (o : SymbolOccurrence) (new : Str) : List TextEdit :=
  (listed ix o.symbolKind o.funcBodyId o.name .decl ++ listed ix o.symbolKind o.funcBodyId o.name .def_ ++
    listed ix o.symbolKind o.funcBodyId o.name .use).filterMap fun sp => (rangeToLsp text sp).map fun r => ⟨r, new⟩

/-- What is found at a symbol. -/
theorem found_symbol {doc : AnalyzedDocument} (h : parseFromStr text = .ok res) (hix : createIndex text res.tokens res.stmts = .ok doc.index)
    (hrope : doc.rope = text) (hp : Plain text) (hsize : text.length < 2 ^ 32) (hst : st.docs.get? uri = some doc) (env : Env) {p : Pos} {o : SymbolOccurrence}
    (hs : symbolAt doc p = some o) :
    ∃ r, rangeToLsp text o.span = some r ∧
      Found env st uri p r (placesOf uri text doc.index o .use) (placesOf uri text doc.index o .decl) (placesOf uri text doc.index o .def_) ∧
      ∀ name, name.head? ≠ some '+' → name.head? ≠ some '-' →
        rename env st uri p name = (match checkNewName o.symbolKind name with
          | .panic => .panic
          | .ok (.error e) => .ok (.error e)
          | .ok (.ok new) => .ok (.ok [(uri, editsAt text doc.index o new)])) := by
  obtain ⟨ho, m, u, r, h1, h2, h3, h4⟩ := symbolAt_entry h hix hsize hs
  obtain ⟨m', h1', hget, _⟩ := occurs_table h hix ho
  rw [h1] at h1'
  cases h1'
  have hent : entry? doc.index o.symbolKind o.funcBodyId o.name = some u := by rw [← hget, h2]
  have hl : ∀ ud, listed doc.index o.symbolKind o.funcBodyId o.name ud = u.get ud := fun ud => (entry_get hent ud).symm
  have hne : ∀ ud, ∀ l ∈ placesOf uri text doc.index o ud, l.range.start ≠ l.range.stop := by
    intro ud l hm e
    unfold placesOf localLocations at hm
    obtain ⟨sp, hsp, hr⟩ := List.mem_filterMap.mp hm
    obtain ⟨r', hr', rfl⟩ := Option.map_eq_some_iff.mp hr
    have hocc := (listed_occurs h hix).mp hsp
    obtain ⟨r2, hed⟩ := occurs_editor h hocc
    have := rangeToLsp_editor hsize (hp.to _) (hp.to _) hed
    simp only at this
    rw [hr'] at this
    cases this
    have hin := occurs_inside h hocc
    have e1 := ((C14_positions_partial hsize).2 _ _ hed.1 (hp.to _)).1
    have e2 := ((C14_positions_partial hsize).2 _ _ hed.2 (hp.to _)).1
    simp only at e e1 e2 hin
    rw [e, e2] at e1
    simp only [Option.some.injEq] at e1
    omega
  refine ⟨r, h4, ⟨?_, ?_, ?_, ?_, ?_⟩, ?_⟩
  · simp [prepareRename, hst, hs, hrope, h4]
  · simp [references, getUseDefRanges, hst, hs, h1, h2, hrope, h4, placesOf, hl]
  · simp [gotoDeclaration, getUseDefRanges, hst, hs, h1, h2, hrope, h4, toLinks, placesOf, hl]
  · cases he : externalLocations env st.roots u.externalDefs with
    | panic => left; simp [gotoDefinition, getUseDefRanges, hst, hs, h1, h2, he]
    | ok ext =>
      right
      refine ⟨ext, ?_, externalLocations_points he⟩
      simp [gotoDefinition, getUseDefRanges, hst, hs, h1, h2, hrope, h4, toLinks, he, placesOf, hl]
  · intro l hm
    simp only [List.mem_append] at hm
    rcases hm with (hm | hm) | hm <;> exact ⟨localLocations_uri l hm, hne _ l hm⟩
  · intro name hplus hminus
    have habs : renameEdits env doc o name = absoluteRename doc o name := by
      unfold renameEdits
      split
      · simp at hplus
      · simp at hminus
      · rfl
    simp only [rename, hst, hs, habs, absoluteRename, h1, h2]
    cases hc : checkNewName o.symbolKind name with
    | panic => rfl
    | ok x =>
      cases x with
      | error e => rfl
      | ok new =>
        unfold editsAt getRenameEdits
        simp only [hl, hrope, UseDefList.get]

/-! ### Two documents -/

section
variable {A B : Str} {n : Nat} {resA resB : ParserResult} {ixA ixB ix : HIRIndex}

omit [Unicode] in
theorem above_under (h : Above A n B) : Under A B ∧ n = linesOf A := by
  have hu : Under A B := ⟨h.ends, fun c hc => (h.plain c hc).1, h.size⟩
  refine ⟨hu, ?_⟩
  have h1 := (lspLine_line h.last).2.2 0 (Nat.zero_le _) (h.plain.to _)
  have h2 := byteToLine_behind hu.lined hu.ascii 0 []
  rw [Nat.add_zero] at h1
  rw [List.append_nil, Nat.zero_add, h1] at h2
  simpa [byteToLine] using h2

omit [Unicode] in
theorem filterMap_behind {α : Type} {f : Range → α} (hu : Under A B) (spans : List Span) {g : α → α} (hg : ∀ r, f (lowerRange (linesOf A) r) = g (f r)) :
    ((spans.map (movedSpan A.length)).filterMap fun sp => (rangeToLsp (A ++ B) sp).map f) =
      (spans.filterMap fun sp => (rangeToLsp B sp).map f).map g := by
  rw [List.filterMap_map, List.map_filterMap]
  congr 1
  funext sp
  simp only [Function.comp_apply]
  rw [rangeToLsp_behind hu]
  cases rangeToLsp B sp with
  | none => rfl
  | some r => simp [hg]

omit [Unicode] in
theorem filterMap_front {α : Type} {f : Range → α} (hu : Under A B) {spans : List Span} (hin : ∀ sp ∈ spans, sp.start ≤ A.length ∧ sp.stop ≤ A.length) :
    (spans.filterMap fun sp => (rangeToLsp (A ++ B) sp).map f) = spans.filterMap fun sp => (rangeToLsp A sp).map f := by
  induction spans with
  | nil => rfl
  | cons sp spans ih =>
    simp only [List.filterMap_cons]
    rw [rangeToLsp_front hu (hin sp (by simp)).1 (hin sp (by simp)).2, ih fun s hs => hin s (by simp [hs])]

theorem listed_inside (h : parseFromStr text = .ok res) (hix : createIndex text res.tokens res.stmts = .ok ix) {o : SymbolOccurrence} {ud : UseDefKind} :
    ∀ sp ∈ listed ix o.symbolKind o.funcBodyId o.name ud, sp.start ≤ text.length ∧ sp.stop ≤ text.length := by
  intro sp hsp
  have := occurs_inside h ((listed_occurs h hix).mp hsp)
  simp only at this
  omega

/-- The places of a symbol that both documents have. -/
theorem JoinedIx.places_both (j : JoinedIx A B resA resB res ixA ixB ix) {o oB : SymbolOccurrence} (ho : Occurs resA.tokens resA.stmts o)
    (hamb : ¬ Ambiguous res.stmts o.name) (hB : Occurs resB.tokens resB.stmts oB) (hg : SameGlobal o oB) :
    (∀ ud, (placesOf uri (A ++ B) ix (upper res o) ud).Perm (placesOf uri A ixA o ud ++ (placesOf uri B ixB oB ud).map (lowerLoc (linesOf A)))) ∧
    ∀ new, (editsAt (A ++ B) ix (upper res o) new).Perm (editsAt A ixA o new ++ (editsAt B ixB oB new).map (lowerEdit (linesOf A))) := by
  have hl := fun ud => (j.listed_first ho hamb ud).2 oB hB hg
  have hin := fun ud => listed_inside j.first j.ixA (o := o) (ud := ud)
  constructor
  · intro ud
    unfold placesOf localLocations
    refine ((hl ud).filterMap _).trans ?_
    rw [List.filterMap_append, filterMap_front j.under (hin ud), filterMap_behind j.under _ (g := lowerLoc (linesOf A)) fun r => rfl]
  · intro new
    unfold editsAt
    refine ((((hl .decl).append (hl .def_)).append (hl .use)).filterMap _).trans ?_
    simp only [List.filterMap_append]
    rw [filterMap_front j.under (hin .decl), filterMap_front j.under (hin .def_), filterMap_front j.under (hin .use),
      filterMap_behind j.under _ (g := lowerEdit (linesOf A)) fun r => rfl, filterMap_behind j.under _ (g := lowerEdit (linesOf A)) fun r => rfl,
      filterMap_behind j.under _ (g := lowerEdit (linesOf A)) fun r => rfl]
    simp only [List.map_append]
    generalize List.filterMap _ (listed ixA _ _ _ .decl) = a1
    generalize List.filterMap _ (listed ixA _ _ _ .def_) = a2
    generalize List.filterMap _ (listed ixA _ _ _ .use) = a3
    generalize List.map _ (List.filterMap _ (listed ixB _ _ _ .decl)) = b1
    generalize List.map _ (List.filterMap _ (listed ixB _ _ _ .def_)) = b2
    generalize List.map _ (List.filterMap _ (listed ixB _ _ _ .use)) = b3
    rw [List.perm_iff_count]
    intro x
    simp only [List.count_append]
    omega

/-- The places of a symbol that only the first document has. -/
theorem JoinedIx.places_first (j : JoinedIx A B resA resB res ixA ixB ix) {o : SymbolOccurrence} (ho : Occurs resA.tokens resA.stmts o)
    (hamb : ¬ Ambiguous res.stmts o.name) (hno : ∀ oB, Occurs resB.tokens resB.stmts oB → ¬ SameGlobal o oB) :
    (∀ ud, (placesOf uri (A ++ B) ix (upper res o) ud).Perm (placesOf uri A ixA o ud)) ∧
    ∀ new, (editsAt (A ++ B) ix (upper res o) new).Perm (editsAt A ixA o new) := by
  have hl := fun ud => (j.listed_first ho hamb ud).1 hno
  have hin := fun ud => listed_inside j.first j.ixA (o := o) (ud := ud)
  constructor
  · intro ud
    unfold placesOf localLocations
    refine ((hl ud).filterMap _).trans ?_
    rw [filterMap_front j.under (hin ud)]
  · intro new
    unfold editsAt
    refine ((((hl .decl).append (hl .def_)).append (hl .use)).filterMap _).trans ?_
    rw [filterMap_front j.under]
    intro sp hsp
    simp only [List.mem_append] at hsp
    rcases hsp with (hsp | hsp) | hsp <;> exact hin _ sp hsp

/-- The places of a symbol that only the second document has. -/
theorem JoinedIx.places_second (j : JoinedIx A B resA resB res ixA ixB ix) {o : SymbolOccurrence} (ho : Occurs resB.tokens resB.stmts o)
    (hamb : ¬ Ambiguous res.stmts o.name) (hno : ∀ oA, Occurs resA.tokens resA.stmts oA → ¬ SameGlobal oA o) :
    (∀ ud, (placesOf uri (A ++ B) ix (lower A resA res o) ud).Perm ((placesOf uri B ixB o ud).map (lowerLoc (linesOf A)))) ∧
    ∀ new, (editsAt (A ++ B) ix (lower A resA res o) new).Perm ((editsAt B ixB o new).map (lowerEdit (linesOf A))) := by
  have hl := fun ud => j.listed_second ho hamb hno ud
  constructor
  · intro ud
    unfold placesOf localLocations
    refine ((hl ud).filterMap _).trans ?_
    rw [filterMap_behind j.under _ (g := lowerLoc (linesOf A)) fun r => rfl]
  · intro new
    unfold editsAt
    refine ((((hl .decl).append (hl .def_)).append (hl .use)).filterMap _).trans ?_
    rw [← List.map_append, ← List.map_append, filterMap_behind j.under _ (g := lowerEdit (linesOf A)) fun r => rfl]

theorem checkNewName_recolour {f : Str → Prop} [DecidablePred f] {o : SymbolOccurrence} {name : Str} :
    checkNewName (recolour f o).symbolKind name = checkNewName o.symbolKind name := by
  have : checkNewName .function name = checkNewName .globalVar name := by
    unfold checkNewName sigilOf
    simp
  unfold recolour
  split <;> rename_i h
  · simp only [h]; split <;> simp [this]
  · simp only [h]; split <;> simp [this]
  · rfl

/-- The servers of the two documents and of the whole. -/
structure Servers (A B : Str) (uri : Str) (resA resB res : ParserResult) (stA stB st : ServerState) (docA docB doc : AnalyzedDocument) : Prop where
  joined : JoinedIx A B resA resB res docA.index docB.index doc.index
  ropeA : docA.rope = A
  ropeB : docB.rope = B
  rope : doc.rope = A ++ B
  getA : stA.docs.get? uri = some docA
  getB : stB.docs.get? uri = some docB
  get : st.docs.get? uri = some doc
  stmtsA : docA.stmts = resA.stmts
  stmtsB : docB.stmts = resB.stmts
  stmts : doc.stmts = res.stmts
  semA : semanticTokensFromTokens resA.tokens = .ok docA.semanticTokens
  semB : semanticTokensFromTokens resB.tokens = .ok docB.semanticTokens
  sem : semanticTokensFromTokens res.tokens = .ok doc.semanticTokens

theorem servers {stA stB st : ServerState} (hab : Above A n B) (hA : parseFromStr A = .ok resA) (heA : Settled A) (hB : parseFromStr B = .ok resB)
    (hr : resB.errors = [] ∨ resB.stmts ≠ []) (h : parseFromStr (A ++ B) = .ok res) (hopenA : Opened stA uri A) (hopenB : Opened stB uri B)
    (hopen : Opened st uri (A ++ B)) : ∃ docA docB doc, Servers A B uri resA resB res stA stB st docA docB doc := by
  obtain ⟨docA, _, aA, gA⟩ := hopenA
  obtain ⟨docB, _, aB, gB⟩ := hopenB
  obtain ⟨doc, _, a, g⟩ := hopen
  obtain ⟨rA, hA', ropeA, ssA, _, semA, ixA⟩ := analyze_inv aA
  obtain ⟨rB, hB', ropeB, ssB, _, semB, ixB⟩ := analyze_inv aB
  obtain ⟨r, h', rope, ss, _, sem, ix⟩ := analyze_inv a
  rw [hA] at hA'
  cases hA'
  rw [hB] at hB'
  cases hB'
  rw [h] at h'
  cases h'
  have hu := (above_under hab).1
  obtain ⟨_, this, _⟩ := C88_settled_ascii hu.ascii heA hA hB hr
  rw [h] at this
  simp only [Outcome.ok.injEq] at this
  exact ⟨docA, docB, doc, ⟨⟨hA, hB, h, by rw [this], by rw [this], hu⟩, ixA, ixB, ix⟩, ropeA, ropeB, rope, gA, gB, g,
    ssA, ssB, ss, semA, semB, sem⟩

omit [Unicode] in
theorem plain_joined {A B : Str} (hA : Plain A) (hB : Plain B) : Plain (A ++ B) := by
  intro c hc
  rcases List.mem_append.mp hc with h | h
  · exact hA c h
  · exact hB c h

section
variable {stA stB st : ServerState} {docA docB doc : AnalyzedDocument}

theorem Servers.at_first (s : Servers A B uri resA resB res stA stB st docA docB doc) (hab : Above A n B) {p : Pos} {o : SymbolOccurrence}
    (hp : StandsOn A resA p o) (hamb : ¬ Ambiguous res.stmts o.name) : symbolAt docA p = some o ∧ symbolAt doc p = some (upper res o) := by
  obtain ⟨off, h1, h2, h3⟩ := hp
  have hs := hab.size
  rw [List.length_append] at hs
  have hoff := ((C14_positions_partial (by omega)).2 _ _ h1 (hab.plain.to _)).1
  have hin := occurs_inside s.joined.first h2
  refine ⟨symbolAt_at s.joined.first s.joined.ixA s.ropeA hoff h2 h3 (s.joined.clearA hamb), ?_⟩
  refine symbolAt_at s.joined.both s.joined.ix s.rope (lspPosToOffset_front s.joined.under.lined B hoff (by have := h3.2; omega)) ?_ ?_ ?_
  · exact (s.joined.occurs (by rw [upper_name]; exact hamb)).mpr (.inl ⟨o, h2, rfl⟩)
  · rw [upper_span]; exact h3
  · rw [upper_name]; exact hamb

theorem Servers.at_second (s : Servers A B uri resA resB res stA stB st docA docB doc) (hab : Above A n B) {q : Pos} {o : SymbolOccurrence}
    (hq : StandsOn B resB q o) (hamb : ¬ Ambiguous res.stmts o.name) :
    symbolAt docB q = some o ∧ symbolAt doc (lowerPos n q) = some (lower A resA res o) := by
  obtain ⟨off, h1, h2, h3⟩ := hq
  have hs := hab.size
  rw [List.length_append] at hs
  have hoff := ((C14_positions_partial (by omega)).2 _ _ h1 (hab.plainB.to _)).1
  refine ⟨symbolAt_at s.joined.second s.joined.ixB s.ropeB hoff h2 h3 (s.joined.clearB hamb), ?_⟩
  have hoff' := lspPosToOffset_behind s.joined.under.lined B q
  rw [hoff, ← (above_under hab).2] at hoff'
  refine symbolAt_at s.joined.both s.joined.ix s.rope hoff' ?_ ?_ ?_
  · exact (s.joined.occurs (by rw [lower_name]; exact hamb)).mpr (.inr ⟨o, h2, rfl⟩)
  · rw [lower_span]; exact ⟨Nat.add_le_add_right h3.1 _, Nat.add_lt_add_right h3.2 _⟩
  · rw [lower_name]; exact hamb

/-- C79: a position on a global symbol in the first document and one on the global symbol of the same name in the second.  In the two
documents put together, both positions lead to the places found from the first and those found from the second, and a rename at either
of them makes the edits made in the first and those made in the second. -/
theorem C79_shared (hab : Above A n B) (hA : parseFromStr A = .ok resA) (heA : Settled A) (hB : parseFromStr B = .ok resB)
    (hr : resB.errors = [] ∨ resB.stmts ≠ []) (h : parseFromStr (A ++ B) = .ok res) (hopenA : Opened stA uri A) (hopenB : Opened stB uri B)
    (hopen : Opened st uri (A ++ B)) (env : Env) {p q : Pos} {o o' : SymbolOccurrence} (hp : StandsOn A resA p o) (hq : StandsOn B resB q o')
    (hsame : SameGlobal o o') (hamb : ¬ Ambiguous res.stmts o.name) :
    (∃ r₁ refs₁ decls₁ defs₁ r₂ refs₂ decls₂ defs₂ refs decls defs,
      Found env stA uri p r₁ refs₁ decls₁ defs₁ ∧ Found env stB uri q r₂ refs₂ decls₂ defs₂ ∧
      Found env st uri p r₁ refs decls defs ∧ Found env st uri (lowerPos n q) (lowerRange n r₂) refs decls defs ∧
      refs.Perm (refs₁ ++ refs₂.map (lowerLoc n)) ∧ decls.Perm (decls₁ ++ decls₂.map (lowerLoc n)) ∧
      defs.Perm (defs₁ ++ defs₂.map (lowerLoc n))) ∧
    ∀ name, name.head? ≠ some '+' → name.head? ≠ some '-' →
      RenamedBoth uri n (rename env stA uri p name) (rename env stB uri q name) (rename env st uri p name) ∧
      rename env st uri (lowerPos n q) name = rename env st uri p name := by
  obtain ⟨docA, docB, doc, s⟩ := servers hab hA heA hB hr h hopenA hopenB hopen
  have hs := hab.size
  rw [List.length_append] at hs
  have hn := (above_under hab).2
  have hoA : Occurs resA.tokens resA.stmts o := hp.choose_spec.2.1
  have hoB : Occurs resB.tokens resB.stmts o' := hq.choose_spec.2.1
  obtain ⟨a1, a2⟩ := s.at_first hab hp hamb
  obtain ⟨b1, b2⟩ := s.at_second hab hq (by rw [← hsame.2.2.1]; exact hamb)
  obtain ⟨r₁, e1, f1, g1⟩ := found_symbol hA s.joined.ixA s.ropeA hab.plain (by omega) s.getA env a1
  obtain ⟨r₂, e2, f2, g2⟩ := found_symbol hB s.joined.ixB s.ropeB hab.plainB (by omega) s.getB env b1
  obtain ⟨r₃, e3, f3, g3⟩ := found_symbol h s.joined.ix s.rope (plain_joined hab.plain hab.plainB) hab.size s.get env a2
  obtain ⟨r₄, e4, f4, g4⟩ := found_symbol h s.joined.ix s.rope (plain_joined hab.plain hab.plainB) hab.size s.get env b2
  obtain ⟨k1, k2⟩ := s.joined.places_both (uri := uri) hoA hamb hoB hsame
  have hin := occurs_inside hA hoA
  rw [upper_span, rangeToLsp_front s.joined.under (by omega) hin.2, e1] at e3
  cases e3
  rw [lower_span, rangeToLsp_behind s.joined.under, e2, ← hn] at e4
  cases e4
  rw [← hn] at k1 k2
  have hsym := (s.joined.cross hoA hoB).mpr hsame
  have hpl : ∀ ud, placesOf uri (A ++ B) doc.index (lower A resA res o') ud = placesOf uri (A ++ B) doc.index (upper res o) ud := by
    intro ud
    unfold placesOf
    rw [hsym.1, hsym.2.1, hsym.2.2]
  have hed : ∀ new, editsAt (A ++ B) doc.index (lower A resA res o') new = editsAt (A ++ B) doc.index (upper res o) new := by
    intro new
    unfold editsAt
    rw [hsym.1, hsym.2.1, hsym.2.2]
  rw [hpl, hpl, hpl] at f4
  refine ⟨⟨_, _, _, _, _, _, _, _, _, _, _, f1, f2, f3, f4, k1 _, k1 _, k1 _⟩, ?_⟩
  intro name np nm
  have c1 : checkNewName (upper res o).symbolKind name = checkNewName o.symbolKind name := checkNewName_recolour
  have c2 : checkNewName (lower A resA res o').symbolKind name = checkNewName (upper res o).symbolKind name := by rw [hsym.1]
  have c3 : checkNewName o'.symbolKind name = checkNewName o.symbolKind name := by
    rw [← c1, ← c2]
    exact (checkNewName_recolour (o := belowOcc A.length (funcCount resA.stmts) o')).symm
  rw [g1 name np nm, g2 name np nm, g3 name np nm, g4 name np nm, c3, c2, c1]
  cases checkNewName o.symbolKind name with
  | panic => exact ⟨.panic, rfl⟩
  | ok x =>
    cases x with
    | error e => exact ⟨.error, rfl⟩
    | ok new => exact ⟨.edits (k2 new), by simp only [hed]⟩

/-- C79: a position on a symbol that only the first document has (a label or local variable, for instance) leads to the same places and
edits in the two documents put together. -/
theorem C79_first (hab : Above A n B) (hA : parseFromStr A = .ok resA) (heA : Settled A) (hB : parseFromStr B = .ok resB)
    (hr : resB.errors = [] ∨ resB.stmts ≠ []) (h : parseFromStr (A ++ B) = .ok res) (hopenA : Opened stA uri A) (hopenB : Opened stB uri B)
    (hopen : Opened st uri (A ++ B)) (env : Env) {p : Pos} {o : SymbolOccurrence} (hp : StandsOn A resA p o)
    (hno : ∀ o', Occurs resB.tokens resB.stmts o' → ¬ SameGlobal o o') (hamb : ¬ Ambiguous res.stmts o.name) :
    (∃ r refs₁ decls₁ defs₁ refs decls defs,
      Found env stA uri p r refs₁ decls₁ defs₁ ∧ Found env st uri p r refs decls defs ∧
      refs.Perm refs₁ ∧ decls.Perm decls₁ ∧ defs.Perm defs₁) ∧
    ∀ name, name.head? ≠ some '+' → name.head? ≠ some '-' → RenamedAs uri id (rename env stA uri p name) (rename env st uri p name) := by
  obtain ⟨docA, docB, doc, s⟩ := servers hab hA heA hB hr h hopenA hopenB hopen
  have hs := hab.size
  rw [List.length_append] at hs
  have hoA : Occurs resA.tokens resA.stmts o := hp.choose_spec.2.1
  obtain ⟨a1, a2⟩ := s.at_first hab hp hamb
  obtain ⟨r₁, e1, f1, g1⟩ := found_symbol hA s.joined.ixA s.ropeA hab.plain (by omega) s.getA env a1
  obtain ⟨r₃, e3, f3, g3⟩ := found_symbol h s.joined.ix s.rope (plain_joined hab.plain hab.plainB) hab.size s.get env a2
  obtain ⟨k1, k2⟩ := s.joined.places_first (uri := uri) hoA hamb hno
  have hin := occurs_inside hA hoA
  rw [upper_span, rangeToLsp_front s.joined.under (by omega) hin.2, e1] at e3
  cases e3
  refine ⟨⟨_, _, _, _, _, _, _, f1, f3, k1 _, k1 _, k1 _⟩, ?_⟩
  intro name np nm
  have c1 : checkNewName (upper res o).symbolKind name = checkNewName o.symbolKind name := checkNewName_recolour
  rw [g1 name np nm, g3 name np nm, c1]
  cases checkNewName o.symbolKind name with
  | panic => exact .panic
  | ok x =>
    cases x with
    | error e => exact .error
    | ok new => exact .edits (by rw [List.map_id]; exact k2 new)

/-- C79: a position on a symbol that only the second document has leads, `n` lines further down, to the same places and edits, `n` lines
further down. -/
theorem C79_second (hab : Above A n B) (hA : parseFromStr A = .ok resA) (heA : Settled A) (hB : parseFromStr B = .ok resB)
    (hr : resB.errors = [] ∨ resB.stmts ≠ []) (h : parseFromStr (A ++ B) = .ok res) (hopenA : Opened stA uri A) (hopenB : Opened stB uri B)
    (hopen : Opened st uri (A ++ B)) (env : Env) {q : Pos} {o : SymbolOccurrence} (hq : StandsOn B resB q o)
    (hno : ∀ o', Occurs resA.tokens resA.stmts o' → ¬ SameGlobal o' o) (hamb : ¬ Ambiguous res.stmts o.name) :
    (∃ r refs₂ decls₂ defs₂ refs decls defs,
      Found env stB uri q r refs₂ decls₂ defs₂ ∧ Found env st uri (lowerPos n q) (lowerRange n r) refs decls defs ∧
      refs.Perm (refs₂.map (lowerLoc n)) ∧ decls.Perm (decls₂.map (lowerLoc n)) ∧ defs.Perm (defs₂.map (lowerLoc n))) ∧
    ∀ name, name.head? ≠ some '+' → name.head? ≠ some '-' →
      RenamedAs uri (lowerEdit n) (rename env stB uri q name) (rename env st uri (lowerPos n q) name) := by
  obtain ⟨docA, docB, doc, s⟩ := servers hab hA heA hB hr h hopenA hopenB hopen
  have hs := hab.size
  rw [List.length_append] at hs
  have hn := (above_under hab).2
  have hoB : Occurs resB.tokens resB.stmts o := hq.choose_spec.2.1
  obtain ⟨b1, b2⟩ := s.at_second hab hq hamb
  obtain ⟨r₂, e2, f2, g2⟩ := found_symbol hB s.joined.ixB s.ropeB hab.plainB (by omega) s.getB env b1
  obtain ⟨r₄, e4, f4, g4⟩ := found_symbol h s.joined.ix s.rope (plain_joined hab.plain hab.plainB) hab.size s.get env b2
  obtain ⟨k1, k2⟩ := s.joined.places_second (uri := uri) hoB hamb hno
  rw [lower_span, rangeToLsp_behind s.joined.under, e2, ← hn] at e4
  cases e4
  rw [← hn] at k1 k2
  refine ⟨⟨_, _, _, _, _, _, _, f2, f4, k1 _, k1 _, k1 _⟩, ?_⟩
  intro name np nm
  have c1 : checkNewName (lower A resA res o).symbolKind name = checkNewName o.symbolKind name :=
    checkNewName_recolour (o := belowOcc A.length (funcCount resA.stmts) o)
  rw [g2 name np nm, g4 name np nm, c1]
  cases checkNewName o.symbolKind name with
  | panic => exact .panic
  | ok x =>
    cases x with
    | error e => exact .error
    | ok new => exact .edits (k2 new)

end

end

end

/-! ### Examples and refutations -/

section Examples
attribute [local instance] asciiUnicode

def joinFirst : Str := c!"@v = int32 1\ndeclare void @g(int64 %b)\n"
def joinSecond : Str := c!"define void @f() {\nentry:\n  int32 %x = load int32 @v\n  call void @g(int32 %x)\n  ret void\n}\n"

/-- The declaration of `@g` in the first document. -/
def joinDecl : SymbolOccurrence := ⟨⟨26, 28⟩, .decl, .function, c!"@g", none⟩
/-- The use of `@g` in the second document, where it is not declared. -/
def joinUse : SymbolOccurrence := ⟨⟨65, 67⟩, .use, .globalVar, c!"@g", none⟩
/-- The variable `%x` of the second document. -/
def joinLocal : SymbolOccurrence := ⟨⟨34, 36⟩, .def_, .localVar, c!"%x", some 0⟩

theorem joinAbove : Above joinFirst 2 joinSecond where
  plain := by decide +kernel
  plainB := by decide +kernel
  ends := .inr ⟨c!"@v = int32 1\ndeclare void @g(int64 %b)", by decide⟩
  last := .later (content := c!"@v = int32 1") (eol := c!"\n") (by decide) (.inl rfl) (by simp)
    (.later (content := c!"declare void @g(int64 %b)") (eol := c!"\n") (by decide) (.inl rfl) (by simp)
      (.here (content := []) (tail := []) (by decide) (by intro c cs h; cases h)))
  size := by decide +kernel

theorem join_facts : ∃ resA resB res, parseFromStr joinFirst = .ok resA ∧ resA.errors = [] ∧ parseFromStr joinSecond = .ok resB ∧
    resB.errors = [] ∧ parseFromStr (joinFirst ++ joinSecond) = .ok res ∧ Occurs resA.tokens resA.stmts joinDecl ∧
    Occurs resB.tokens resB.stmts joinUse ∧ Occurs resB.tokens resB.stmts joinLocal ∧ ¬ IsGlobalVar res.stmts c!"@g" ∧
    ¬ IsGlobalVar res.stmts c!"%x" := by
  generalize h₁ : parseFromStr joinFirst = r₁
  generalize h₂ : parseFromStr joinSecond = r₂
  generalize h₃ : parseFromStr (joinFirst ++ joinSecond) = r₃
  have key : (match parseFromStr joinFirst, parseFromStr joinSecond, parseFromStr (joinFirst ++ joinSecond) with
    | .ok a, .ok b, .ok c => decide (a.errors = []) && decide (b.errors = []) && decide (joinDecl ∈ allOccs a.tokens a.stmts) &&
        decide (joinUse ∈ allOccs b.tokens b.stmts) && decide (joinLocal ∈ allOccs b.tokens b.stmts) &&
        decide (¬ IsGlobalVar c.stmts c!"@g") && decide (¬ IsGlobalVar c.stmts c!"%x")
    | _, _, _ => false) = true := by decide +kernel
  rw [h₁, h₂, h₃] at key
  split at key
  · simp only [Bool.and_eq_true, decide_eq_true_eq] at key
    obtain ⟨⟨⟨⟨⟨⟨k1, k2⟩, k3⟩, k4⟩, k5⟩, k6⟩, k7⟩ := key
    exact ⟨_, _, _, rfl, k1, rfl, k2, rfl, occurs_iff.mpr k3, occurs_iff.mpr k4, occurs_iff.mpr k5, k6, k7⟩
  · cases key

theorem joinDecl_pos : LspOffset joinFirst ⟨1, 14⟩ 27 :=
  ⟨13, c!"declare void @g(int64 %b)", .later (content := c!"@v = int32 1") (eol := c!"\n") (by decide) (.inl rfl) (by simp)
    (.here (content := c!"declare void @g(int64 %b)") (tail := c!"\n") (by decide) (by intro c cs h; left; cases h; rfl)), by decide, rfl⟩

theorem joinUse_pos : LspOffset joinSecond ⟨3, 13⟩ 66 :=
  ⟨53, c!"  call void @g(int32 %x)", .later (content := c!"define void @f() {") (eol := c!"\n") (by decide) (.inl rfl) (by simp)
    (.later (content := c!"entry:") (eol := c!"\n") (by decide) (.inl rfl) (by simp)
      (.later (content := c!"  int32 %x = load int32 @v") (eol := c!"\n") (by decide) (.inl rfl) (by simp)
        (.here (content := c!"  call void @g(int32 %x)") (tail := joinSecond.drop 77) (by decide)
          (by intro c cs h; left; simp [joinSecond] at h; exact h.1.symm)))), by decide, rfl⟩

/-- The hypotheses of `C79_shared` hold for `@g`, declared in the first document and used in the second. -/
example : ∃ r₂ refs decls defs, Found debugEnv (serverWith [] c!"u" joinSecond) c!"u" ⟨3, 13⟩ r₂ refs decls defs ∧
    ∃ refs' decls' defs', Found debugEnv (serverWith [] c!"u" (joinFirst ++ joinSecond)) c!"u" ⟨1, 14⟩ ⟨⟨1, 13⟩, ⟨1, 15⟩⟩ refs' decls' defs' := by
  obtain ⟨resA, resB, res, hA, eA, hB, eB, h, o1, o2, _, na, _⟩ := join_facts
  obtain ⟨⟨r₁, _, _, _, r₂, refs, decls, defs, refs', decls', defs', f1, f2, f3, _⟩, _⟩ := C79_shared joinAbove hA (settled_of_clean hA eA joinAbove.ends) hB (.inl eB) h
    (serverWith_opened (roots := []) (uri := c!"u") (by decide +kernel)) (serverWith_opened (roots := []) (by decide +kernel))
    (serverWith_opened (roots := []) (by decide +kernel)) debugEnv
    ⟨27, joinDecl_pos, o1, ⟨by decide, by decide⟩⟩ ⟨66, joinUse_pos, o2, ⟨by decide, by decide⟩⟩
    ⟨rfl, rfl, rfl, by simp [joinDecl, joinUse]⟩ (fun a => na a.2)
  refine ⟨r₂, refs, decls, defs, f2, refs', decls', defs', ?_⟩
  have : some r₁ = some ⟨⟨1, 13⟩, ⟨1, 15⟩⟩ := f1.prepare.symm.trans (by decide +kernel)
  cases this
  exact f3

/-- The hypotheses of `C79_second` hold for the variable `%x`. -/
example : ∃ r refs decls defs, Found debugEnv (serverWith [] c!"u" (joinFirst ++ joinSecond)) c!"u" ⟨4, 9⟩ r refs decls defs := by
  obtain ⟨resA, resB, res, hA, eA, hB, eB, h, _, _, o3, _, na⟩ := join_facts
  obtain ⟨⟨_, _, _, _, refs, decls, defs, _, f, _⟩, _⟩ := C79_second joinAbove hA (settled_of_clean hA eA joinAbove.ends) hB (.inl eB) h
    (serverWith_opened (roots := []) (uri := c!"u") (by decide +kernel)) (serverWith_opened (roots := []) (by decide +kernel))
    (serverWith_opened (roots := []) (by decide +kernel)) debugEnv (q := ⟨2, 9⟩)
    ⟨35, ⟨26, c!"  int32 %x = load int32 @v", .later (content := c!"define void @f() {") (eol := c!"\n") (by decide) (.inl rfl) (by simp)
      (.later (content := c!"entry:") (eol := c!"\n") (by decide) (.inl rfl) (by simp)
        (.here (content := c!"  int32 %x = load int32 @v") (tail := joinSecond.drop 52) (by decide)
          (by intro c cs h; left; simp [joinSecond] at h; exact h.1.symm))), by decide, rfl⟩, o3, ⟨by decide, by decide⟩⟩
    (by intro o' _ hs; cases hs.2.1) (fun a => na a.2)
  exact ⟨_, refs, decls, defs, f⟩

theorem joinAbove' : Above joinSecond 6 joinFirst where
  plain := by decide +kernel
  plainB := by decide +kernel
  ends := .inr ⟨joinSecond.dropLast, by decide +kernel⟩
  last := .later (content := c!"define void @f() {") (eol := c!"\n") (by decide) (.inl rfl) (by simp)
    (.later (content := c!"entry:") (eol := c!"\n") (by decide) (.inl rfl) (by simp)
      (.later (content := c!"  int32 %x = load int32 @v") (eol := c!"\n") (by decide) (.inl rfl) (by simp)
        (.later (content := c!"  call void @g(int32 %x)") (eol := c!"\n") (by decide) (.inl rfl) (by simp)
          (.later (content := c!"  ret void") (eol := c!"\n") (by decide) (.inl rfl) (by simp)
            (.later (content := c!"}") (eol := c!"\n") (by decide) (.inl rfl) (by simp)
              (.here (content := []) (tail := []) (by decide) (by intro c cs h; cases h)))))))
  size := by decide +kernel

/-- The hypotheses of `C79_first` hold for the variable `%x` if the documents are in the other order. -/
example : ∃ r refs decls defs, Found debugEnv (serverWith [] c!"u" (joinSecond ++ joinFirst)) c!"u" ⟨2, 9⟩ r refs decls defs := by
  obtain ⟨resA, resB, _, hA, eA, hB, eB, _, _, _, o3, _, _⟩ := join_facts
  have hw : ∃ res, parseFromStr (joinSecond ++ joinFirst) = .ok res ∧ ¬ IsGlobalVar res.stmts c!"%x" := by
    generalize h : parseFromStr (joinSecond ++ joinFirst) = r
    have key : (match parseFromStr (joinSecond ++ joinFirst) with
      | .ok c => decide (¬ IsGlobalVar c.stmts c!"%x")
      | _ => false) = true := by decide +kernel
    rw [h] at key
    split at key
    · exact ⟨_, rfl, of_decide_eq_true key⟩
    · cases key
  obtain ⟨res, h, na⟩ := hw
  obtain ⟨⟨_, _, _, _, refs, decls, defs, _, f, _⟩, _⟩ := C79_first joinAbove' hB (settled_of_clean hB eB joinAbove'.ends) hA (.inl eA) h
    (serverWith_opened (roots := []) (uri := c!"u") (by decide +kernel)) (serverWith_opened (roots := []) (by decide +kernel))
    (serverWith_opened (roots := []) (by decide +kernel)) debugEnv (p := ⟨2, 9⟩)
    ⟨35, ⟨26, c!"  int32 %x = load int32 @v", .later (content := c!"define void @f() {") (eol := c!"\n") (by decide) (.inl rfl) (by simp)
      (.later (content := c!"entry:") (eol := c!"\n") (by decide) (.inl rfl) (by simp)
        (.here (content := c!"  int32 %x = load int32 @v") (tail := joinSecond.drop 52) (by decide)
          (by intro c cs h; left; simp [joinSecond] at h; exact h.1.symm))), by decide, rfl⟩, o3, ⟨by decide, by decide⟩⟩
    (by intro o' _ hs; cases hs.1) (fun a => na a.2)
  exact ⟨_, refs, decls, defs, f⟩

/-- What is found for `@g` in each document and in the whole. -/
example : references debugEnv (serverWith [] c!"u" joinFirst) c!"u" ⟨1, 14⟩ = .ok (some []) ∧
    references debugEnv (serverWith [] c!"u" joinSecond) c!"u" ⟨3, 13⟩ = .ok (some [⟨c!"u", ⟨⟨3, 12⟩, ⟨3, 14⟩⟩⟩]) ∧
    references debugEnv (serverWith [] c!"u" (joinFirst ++ joinSecond)) c!"u" ⟨1, 14⟩ = .ok (some [⟨c!"u", ⟨⟨5, 12⟩, ⟨5, 14⟩⟩⟩]) ∧
    references debugEnv (serverWith [] c!"u" (joinFirst ++ joinSecond)) c!"u" ⟨5, 13⟩ = .ok (some [⟨c!"u", ⟨⟨5, 12⟩, ⟨5, 14⟩⟩⟩]) := by
  refine ⟨?_, ?_, ?_, ?_⟩ <;> decide +kernel

/-- Without the condition on names: a variable `@x` loses its definition when a function of the same name follows. -/
theorem C79_refuted_clash :
    gotoDefinition debugEnv (serverWith [] c!"u" c!"@x = 1\n") c!"u" ⟨0, 1⟩ =
      .ok (some [⟨⟨⟨0, 0⟩, ⟨0, 2⟩⟩, ⟨c!"u", ⟨⟨0, 0⟩, ⟨0, 2⟩⟩⟩⟩]) ∧
    gotoDefinition debugEnv (serverWith [] c!"u" c!"declare void @x()\n") c!"u" ⟨0, 14⟩ = .ok (some []) ∧
    gotoDefinition debugEnv (serverWith [] c!"u" c!"@x = 1\ndeclare void @x()\n") c!"u" ⟨0, 1⟩ = .ok (some []) := by
  refine ⟨?_, ?_, ?_⟩ <;> decide +kernel

end Examples

end HyperIR
