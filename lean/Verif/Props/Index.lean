import Verif.Proofs.External

/-
C17, C18, C19, C20: the symbol index.
-/

namespace HyperIR
open Spec

section
variable [Unicode] {src : Str} {res : ParserResult} {ix : HIRIndex}

/-! ### C17 -/

/-- A place listed for two symbols is the definition of a global variable that is also a function. -/
theorem listed_unique (h : parseFromStr src = .ok res) (hix : createIndex src res.tokens res.stmts = .ok ix)
    {o o' : SymbolOccurrence} (ho : Listed ix o) (ho' : Listed ix o') (hs : o.span = o'.span)
    (hc : o.symbolKind = .globalVar ∨ o.symbolKind = .function → ¬ (IsFunction res.stmts o.name ∧ IsGlobalVar res.stmts o.name)) :
    o = o' := by
  obtain ⟨g, hinv, hocc, _⟩ := index_inv h hix
  rw [hinv.listed_iff, hocc] at ho ho'
  unfold allOccs at ho ho'
  rcases List.mem_append.mp ho with h1 | h1 <;> rcases List.mem_append.mp ho' with h2 | h2
  · exact eq_of_nodup_span (docOccs_nodup h) h1 h2 hs
  · obtain ⟨h3, h4, h5, h6⟩ := doc_use_clash h h1 h2 hs
    exact absurd ⟨h6, o, h1, h3, rfl⟩ (hc (.inl h3))
  · obtain ⟨h3, h4, h5, h6⟩ := doc_use_clash h h2 h1 hs.symm
    refine absurd ⟨?_, o', h2, h3, h5.symm⟩ (hc (.inr h4))
    rw [h5]; exact h6
  · exact eq_of_nodup_span (tokenUses_spans_nodup h) h1 h2 hs

omit [Unicode] in
theorem count_listed {g : Ghost} (hinv : Inv ix g) (hd : g.occs.Nodup) {o : SymbolOccurrence} (ho : o ∈ g.occs)
    (hu : ∀ o' ∈ g.occs, o'.span = o.span → o' = o) :
    (listed ix o.symbolKind o.funcBodyId o.name o.useDef).count o.span = 1 := by
  rw [hinv.tab]
  generalize hp : (fun o' => decide (IsOf o.symbolKind o.funcBodyId o.name o' ∧ o'.useDef = o.useDef)) = p
  have hpo : p o = true := by rw [← hp]; simp [IsOf]
  clear hp hinv
  generalize g.occs = l at *
  induction l with
  | nil => cases ho
  | cons a l ih =>
    rw [List.nodup_cons] at hd
    rw [List.filter_cons]
    rcases List.mem_cons.mp ho with rfl | hm
    · rw [hpo]
      simp only [if_true, List.map_cons, List.count_cons_self]
      have : ((l.filter p).map (·.span)).count o.span = 0 := by
        rw [List.count_eq_zero]
        intro hm
        obtain ⟨o', h1, h2⟩ := List.mem_map.mp hm
        have h3 := (List.mem_filter.mp h1).1
        have := hu o' (by simp [h3]) h2
        rw [this] at h3
        exact hd.1 h3
      rw [this]
    · have hne : a ≠ o := by rintro rfl; exact hd.1 hm
      have ih := ih hd.2 hm (fun o' h1 h2 => hu o' (by simp [h1]) h2)
      split
      · rw [List.map_cons, List.count_cons, ih]
        have : a.span ≠ o.span := fun h => hne (hu a (by simp) h)
        simp [this]
      · exact ih

omit [Unicode] in
theorem nodup_of_spans {l : List SymbolOccurrence} (h : (l.map (·.span)).Nodup) : l.Nodup := by
  induction l with
  | nil => simp
  | cons a l ih =>
    simp only [List.map_cons, List.nodup_cons] at h ⊢
    exact ⟨fun hm => h.1 (List.mem_map_of_mem hm), ih h.2⟩

theorem allOccs_nodup (h : parseFromStr src = .ok res) : (allOccs res.tokens res.stmts).Nodup := by
  unfold allOccs
  rw [List.nodup_append]
  refine ⟨nodup_of_spans (docOccs_nodup h), nodup_of_spans (tokenUses_spans_nodup h), ?_⟩
  rintro a ha b hb rfl
  obtain ⟨h3, h4, _⟩ := doc_use_clash h ha hb rfl
  rw [h3] at h4
  cases h4

/-- An occurrence found among the tokens is indexed, in the role the statements give it or else as a use. -/
theorem indexed_token (h : parseFromStr src = .ok res) (hix : createIndex src res.tokens res.stmts = .ok ix)
    {t : Tok} (ht : t ∈ res.tokens) {o : SymbolOccurrence}
    (hu : tokenUse (fun n => decide (IsFunction res.stmts n)) (functionAt res.stmts) t = some o)
    (hc : o.symbolKind = .globalVar ∨ o.symbolKind = .function → ¬ (IsFunction res.stmts o.name ∧ IsGlobalVar res.stmts o.name)) :
    ∃ ud, IndexedOnce ix { o with useDef := ud } ∧ RightRole res.stmts { o with useDef := ud } := by
  obtain ⟨g, hinv, hocc, _⟩ := index_inv h hix
  have hd : g.occs.Nodup := by rw [hocc]; exact allOccs_nodup h
  have finish : ∀ o' : SymbolOccurrence, o' ∈ g.occs → o'.symbolKind = o.symbolKind → o'.name = o.name → IndexedOnce ix o' := by
    intro o' ho' hk hn
    have huniq : ∀ o'' ∈ g.occs, o''.span = o'.span → o'' = o' := by
      intro o'' h1 h2
      exact (listed_unique h hix ((hinv.listed_iff _).mpr ho') ((hinv.listed_iff _).mpr h1) h2.symm
        (by rw [hk, hn]; exact hc)).symm
    exact ⟨count_listed hinv hd ho' huniq, fun o'' h1 h2 => huniq o'' ((hinv.listed_iff _).mp h1) h2⟩
  have huse := (tokenUse_tok hu).2
  by_cases hk : ∃ o' ∈ docOccs 0 res.stmts, SameKey o' o
  · obtain ⟨o', h1, h2, h3, h4, h5⟩ := hk
    have ho' : o' = { o with useDef := o'.useDef } := by
      obtain ⟨a, b, c, d, e⟩ := o
      obtain ⟨a', b', c', d', e'⟩ := o'
      simp at h2 h3 h4 h5
      simp [h2, h3, h4, h5]
    refine ⟨o'.useDef, ?_⟩
    rw [← ho']
    exact ⟨finish o' (by rw [hocc]; exact List.mem_append_left _ h1) h2 h4, .inl h1⟩
  · have hmem : o ∈ tokenUses res.tokens res.stmts :=
      List.mem_filter.mpr ⟨List.mem_filterMap.mpr ⟨t, ht, hu⟩, by simpa using hk⟩
    have ho : o = { o with useDef := UseDefKind.use } := by
      obtain ⟨a, b, c, d, e⟩ := o
      simp at huse
      simp [huse]
    refine ⟨.use, ?_⟩
    rw [← ho]
    refine ⟨finish o (by rw [hocc]; exact List.mem_append_right _ hmem) rfl rfl, .inr ⟨huse, ?_⟩⟩
    intro o' h1 h2
    obtain ⟨h3, h4, h5, h6⟩ := doc_use_clash h h1 hmem h2
    exact hc (.inr h4) ⟨by rw [h5]; exact h6, o', h1, h3, h5.symm⟩

/-- C17, for names that are not both a function and a global variable: every `@global` and every `!debug` token,
and every `%local` token inside a function definition, is listed exactly once in the index, as an occurrence of the
symbol with that name — for locals of the enclosing function —, in the role its statement gives it or else as a use. -/
theorem C17_indexed_once_partial (h : parseFromStr src = .ok res) (hix : createIndex src res.tokens res.stmts = .ok ix) :
    (∀ n sp, (Token.globalName n, sp) ∈ res.tokens → ¬ (IsFunction res.stmts n ∧ IsGlobalVar res.stmts n) →
      ∃ k ud, (k = .function ↔ IsFunction res.stmts n) ∧ (k = .function ∨ k = .globalVar) ∧
        IndexedOnce ix ⟨sp, ud, k, n, none⟩ ∧ RightRole res.stmts ⟨sp, ud, k, n, none⟩) ∧
    (∀ n sp, (Token.debugRef n, sp) ∈ res.tokens →
      ∃ ud, IndexedOnce ix ⟨sp, ud, .dbgAnnotation, n, none⟩ ∧ RightRole res.stmts ⟨sp, ud, .dbgAnnotation, n, none⟩) ∧
    (∀ n sp i f, (Token.localName n, sp) ∈ res.tokens → (docFuncs res.stmts)[i]? = some f → Within sp f.2.1 →
      ∃ ud, IndexedOnce ix ⟨sp, ud, .localVar, n, some i⟩ ∧ RightRole res.stmts ⟨sp, ud, .localVar, n, some i⟩) := by
  refine ⟨?_, ?_, ?_⟩
  · intro n sp ht hc
    by_cases hf : IsFunction res.stmts n
    · obtain ⟨ud, h1⟩ := indexed_token h hix ht (o := occ .function .use none (n, sp)) (by simp [tokenUse, hf]) (fun _ => hc)
      exact ⟨.function, ud, by simp [hf], .inl rfl, h1⟩
    · obtain ⟨ud, h1⟩ := indexed_token h hix ht (o := occ .globalVar .use none (n, sp)) (by simp [tokenUse, hf]) (fun _ => hc)
      exact ⟨.globalVar, ud, by simp [hf], .inr rfl, h1⟩
  · intro n sp ht
    exact indexed_token h hix ht (o := occ .dbgAnnotation .use none (n, sp)) rfl (by rintro (h | h) <;> cases h)
  · intro n sp i f ht hf hw
    have hlt := (tokens_wellOrdered h).2 _ ht
    have hat := functionAt_eq (mentions_wellOrdered h) hf (pos := sp.start) (by
      unfold Within at hw
      simp only [Span.contains, Bool.and_eq_true, decide_eq_true_eq]
      simp only at hlt
      omega)
    exact indexed_token h hix ht (o := occ .localVar .use (some i) (n, sp)) (by simp [tokenUse, hat, occ])
      (by rintro (h | h) <;> cases h)

/-! ### C18, C19 -/

/-- C18: a lookup finds a symbol iff an indexed occurrence covers the position; what it finds is an indexed occurrence
covering the position, and it is the only such one unless its name is both a function and a global variable. -/
theorem C18_lookup (h : parseFromStr src = .ok res) (hix : createIndex src res.tokens res.stmts = .ok ix) (pos : Nat) :
    (∀ o, ix.findSymbolAtPosition pos = some o → Listed ix o ∧ o.span.contains pos = true) ∧
    (∀ o, Listed ix o → o.span.contains pos = true →
      ∃ o', ix.findSymbolAtPosition pos = some o' ∧ o'.span = o.span ∧ o'.name = o.name ∧
        (¬ (IsFunction res.stmts o.name ∧ IsGlobalVar res.stmts o.name) → o' = o)) := by
  obtain ⟨g, hinv, hocc, _⟩ := index_inv h hix
  obtain ⟨hsort, hin, hall⟩ := revOf_facts g.occs
  have found : ∀ o, ix.findSymbolAtPosition pos = some o → Listed ix o ∧ o.span.contains pos = true := by
    intro o ho
    have h1 := List.mem_of_find?_eq_some ho
    have h2 := List.find?_some ho
    rw [hinv.rev] at h1
    obtain ⟨e, h3, rfl⟩ := List.mem_map.mp h1
    exact ⟨(hinv.listed_iff _).mpr (hin e h3).1, h2⟩
  refine ⟨found, ?_⟩
  intro o ho hc
  have ho' := (hinv.listed_iff _).mp ho
  obtain ⟨e, he, hs⟩ := hall o ho'
  obtain ⟨he1, he2⟩ := hin e he
  have tok : ∀ o' ∈ g.occs, occTok o' ∈ res.tokens := by
    intro o' ho'
    rw [hocc] at ho'
    exact allOccs_token h ho'
  have hspan : e.2.span = o.span := by
    have h1 := tok _ he1
    have h2 := tok _ ho'
    have hlt1 := (tokens_wellOrdered h).2 _ h1
    have hlt2 := (tokens_wellOrdered h).2 _ h2
    rw [occTok_span] at hlt1 hlt2
    have := token_unique h h1 h2 (p := o.span.start) (by
      rw [occTok_span]
      simp only [Span.contains, Bool.and_eq_true, decide_eq_true_eq]
      omega) (by
      rw [occTok_span]
      simp only [Span.contains, Bool.and_eq_true, decide_eq_true_eq]
      omega)
    rw [← occTok_span, this, occTok_span]
  cases hf : ix.findSymbolAtPosition pos with
  | none =>
    exfalso
    unfold HIRIndex.findSymbolAtPosition at hf
    rw [List.find?_eq_none] at hf
    refine hf e.2 ?_ (by rw [hspan]; exact hc)
    rw [hinv.rev]
    exact List.mem_map_of_mem he
  | some o' =>
    obtain ⟨h1, h2⟩ := found o' hf
    have h1' := (hinv.listed_iff _).mp h1
    have htok : occTok o' = occTok o := token_unique h (tok _ h1') (tok _ ho') (p := pos) (by rw [occTok_span]; exact h2)
      (by rw [occTok_span]; exact hc)
    have hsp : o'.span = o.span := by rw [← occTok_span, htok, occTok_span]
    have hn : o'.name = o.name := by
      unfold occTok at htok
      cases hk : o.symbolKind <;> cases hk' : o'.symbolKind <;> simp [hk, hk'] at htok <;> exact htok.1
    exact ⟨o', rfl, hsp, hn, fun hcl => (listed_unique h hix ho h1 hsp.symm (fun _ => hcl)).symm⟩

/-- C19: what a lookup by position finds is listed under the same symbol in the same role; its symbol table and its entry
exist (so no request crashes on a missing entry); and unless its name is both a function and a global variable every listed
occurrence is found by position. -/
theorem C19_tables_agree_partial (h : parseFromStr src = .ok res) (hix : createIndex src res.tokens res.stmts = .ok ix) :
    (∀ pos o, ix.findSymbolAtPosition pos = some o → Listed ix o ∧
      ∃ fb m u, ix.funcBody o.funcBodyId = .ok fb ∧ ix.getBySymbolKind o.symbolKind fb = .ok m ∧ m.get? o.name = some u ∧
        o.span ∈ u.get o.useDef) ∧
    (∀ o, Listed ix o → ¬ (IsFunction res.stmts o.name ∧ IsGlobalVar res.stmts o.name) →
      ∀ pos, o.span.contains pos = true → ix.findSymbolAtPosition pos = some o) := by
  constructor
  · intro pos o ho
    have hl := ((C18_lookup h hix pos).1 o ho).1
    refine ⟨hl, ?_⟩
    have hl' := hl
    unfold Listed listed at hl'
    obtain ⟨sp, ud, k, n, f⟩ := o
    simp only at hl' ⊢
    have hnil : ∀ u : UseDefKind, (({} : UseDefList).get u) = [] := by intro u; cases u <;> rfl
    cases he : entry? ix k f n with
    | none => rw [he] at hl'; simp [hnil] at hl'
    | some u =>
      rw [he] at hl'
      simp only [Option.getD_some] at hl'
      cases k <;> cases f <;> simp only [entry?] at he <;> try (cases he; done)
      · exact ⟨none, _, u, rfl, rfl, he, hl'⟩
      · exact ⟨none, _, u, rfl, rfl, he, hl'⟩
      · exact ⟨none, _, u, rfl, rfl, he, hl'⟩
      · rename_i i
        cases hb : ix.functionBodies[i]? with
        | none => rw [hb] at he; cases he
        | some fb =>
          rw [hb] at he
          exact ⟨some fb, _, u, by simp [HIRIndex.funcBody, hb], rfl, he, hl'⟩
      · rename_i i
        cases hb : ix.functionBodies[i]? with
        | none => rw [hb] at he; cases he
        | some fb =>
          rw [hb] at he
          exact ⟨some fb, _, u, by simp [HIRIndex.funcBody, hb], rfl, he, hl'⟩
  · intro o ho hc pos hpos
    obtain ⟨o', h1, _, _, h2⟩ := (C18_lookup h hix pos).2 o ho hpos
    rw [h1, h2 hc]

omit [Unicode] in
/-- Where two lists of occurrences have the same offset, the reverse index has that of the second. -/
theorem revOf_append (l l' : List SymbolOccurrence) {o : SymbolOccurrence} (ho : o ∈ l') {e : Nat × SymbolOccurrence} (he : e ∈ revOf (l ++ l'))
    (hs : e.1 = o.span.start) : e.2 ∈ l' := by
  unfold revOf at he
  rw [List.foldl_append] at he
  have hsort : (revOf l).Sorted := (revOf_facts l).1
  change e ∈ List.foldl (fun (r : RevIdx) o => r.insert o.span.start o) (revOf l) l' at he
  suffices ∀ (l' pre : List SymbolOccurrence) (m : RevIdx), m.Sorted → (∀ e ∈ m, (∃ o ∈ pre, e.1 = o.span.start) → e.2 ∈ pre) →
      ∀ e ∈ l'.foldl (fun (r : RevIdx) o => r.insert o.span.start o) m, (∃ o ∈ pre ++ l', e.1 = o.span.start) → e.2 ∈ pre ++ l' by
    simpa using this l' [] (revOf l) hsort (by simp) e he ⟨o, by simpa using ho, hs⟩
  intro l'
  induction l' with
  | nil => intro pre m _ h2 e he; rw [List.append_nil]; exact h2 e he
  | cons a l' ih =>
    intro pre m h1 h2 e he
    have := ih (pre ++ [a]) (m.insert a.span.start a) (RevIdx.sorted_insert h1 _ _) ?_ e he
    · simpa using this
    · rintro e he ⟨o, ho, hs⟩
      rcases (RevIdx.mem_insert h1).mp he with rfl | ⟨he, hne⟩
      · simp
      · rcases List.mem_append.mp ho with ho | ho
        · have := h2 e he ⟨o, ho, hs⟩
          simp [this]
        · simp at ho
          subst ho
          exact absurd hs hne

omit [Unicode] in
/-- No token is a use of a variable with the name of a function. -/
theorem tokenUse_visible {ss : List Statement} {fa : Nat → Option Nat} {t : Tok} {o : SymbolOccurrence}
    (hu : tokenUse (fun n => decide (IsFunction ss n)) fa t = some o) : ¬ Shadowed ss o := by
  rintro ⟨hk, hf⟩
  obtain ⟨t, sp⟩ := t
  cases t <;> simp only [tokenUse] at hu <;> try (cases hu; done)
  case globalName n =>
    cases hu
    simp only [occ] at hk hf
    simp [hf] at hk
  case debugRef => cases hu; cases hk
  case localName =>
    rw [Option.map_eq_some_iff] at hu
    obtain ⟨_, _, hu⟩ := hu
    rw [← hu] at hk
    cases hk

/-- C19, exactly: what a lookup finds is the listed occurrence that covers the position; only the definition of a variable with the
name of a function is not found, since at its place the use of the function is. -/
theorem C19_exact (h : parseFromStr src = .ok res) (hix : createIndex src res.tokens res.stmts = .ok ix) (pos : Nat) (o : SymbolOccurrence) :
    ix.findSymbolAtPosition pos = some o ↔ Listed ix o ∧ o.span.contains pos = true ∧ ¬ Shadowed res.stmts o := by
  obtain ⟨g, hinv, hocc, _⟩ := index_inv h hix
  obtain ⟨hfound, hall⟩ := C18_lookup h hix pos
  have visible : ∀ o, ix.findSymbolAtPosition pos = some o → ¬ Shadowed res.stmts o := by
    rintro o ho ⟨hk, hf⟩
    have h1 := List.mem_of_find?_eq_some ho
    rw [hinv.rev] at h1
    obtain ⟨e, he, rfl⟩ := List.mem_map.mp h1
    obtain ⟨_, hin, _⟩ := revOf_facts g.occs
    obtain ⟨hm, hs⟩ := hin e he
    rw [hocc] at hm he
    have hnot : e.2 ∉ tokenUses res.tokens res.stmts := by
      intro hu
      obtain ⟨t, _, hu⟩ := List.mem_filterMap.mp (List.mem_filter.mp hu).1
      exact tokenUse_visible hu ⟨hk, hf⟩
    -- the token of the definition is a use of the function
    have htok := allOccs_token h hm
    have hd : e.2 ∈ docOccs 0 res.stmts := by
      rcases List.mem_append.mp hm with h2 | h2
      · exact h2
      · exact absurd h2 hnot
    have huse : occ .function .use none (e.2.name, e.2.span) ∈ tokenUses res.tokens res.stmts := by
      refine List.mem_filter.mpr ⟨List.mem_filterMap.mpr ⟨_, htok, ?_⟩, ?_⟩
      · simp [tokenUse, occTok, hk, hf]
      · simp only [decide_eq_true_eq]
        rintro ⟨o', ho', hkey⟩
        have := eq_of_nodup_span (docOccs_nodup h) hd ho' hkey.2.2.2.symm
        subst this
        have := hkey.1
        rw [hk] at this
        cases this
    exact hnot (revOf_append _ _ huse he hs)
  constructor
  · intro ho
    exact ⟨(hfound o ho).1, (hfound o ho).2, visible o ho⟩
  · rintro ⟨ho, hc, hv⟩
    obtain ⟨o', h1, hs, hn, _⟩ := hall o ho hc
    rw [h1]
    have hv' := visible o' h1
    have ho' := (hfound o' h1).1
    rw [hinv.listed_iff, hocc] at ho ho'
    rcases List.mem_append.mp ho with h2 | h2 <;> rcases List.mem_append.mp ho' with h3 | h3
    · rw [eq_of_nodup_span (docOccs_nodup h) h3 h2 hs]
    · obtain ⟨h4, _, _, h5⟩ := doc_use_clash h h2 h3 hs.symm
      exact absurd ⟨h4, h5⟩ hv
    · obtain ⟨h4, _, _, h5⟩ := doc_use_clash h h3 h2 hs
      exact absurd ⟨h4, h5⟩ hv'
    · rw [eq_of_nodup_span (tokenUses_spans_nodup h) h3 h2 hs]

/-- Occurrences of names that are not ambiguous are not shadowed. -/
theorem visible_of_clear {toks : List Tok} {ss : List Statement} {o : SymbolOccurrence} (ho : Occurs toks ss o) (hamb : ¬ Ambiguous ss o.name) :
    ¬ Shadowed ss o := by
  rintro ⟨hk, hf⟩
  rcases ho with ho | ⟨⟨t, _, hu⟩, _⟩
  · exact hamb ⟨hf, o, ho, hk, rfl⟩
  · exact tokenUse_visible hu ⟨hk, hf⟩

/-! ### C20 -/

/-- C20: the indexed functions are the function definitions of the document, in order; everything listed for a label or a
local variable of a function lies inside that function definition; different function definitions do not overlap; and a local
variable token inside a function definition is listed for that function and for no other symbol. -/
theorem C20_local_scope (h : parseFromStr src = .ok res) (hix : createIndex src res.tokens res.stmts = .ok ix) :
    (ix.functionBodies.map fun b => (b.name, b.completeRange, b.basicBlocks)) = docFuncs res.stmts ∧
    (∀ o i, Listed ix o → o.funcBodyId = some i →
      ∃ f, (docFuncs res.stmts)[i]? = some f ∧ Within o.span f.2.1) ∧
    (∀ o, Listed ix o → (o.symbolKind = .label ∨ o.symbolKind = .localVar ↔ ∃ i, o.funcBodyId = some i)) ∧
    (docFuncs res.stmts).Pairwise (fun f f' => f.2.1.stop ≤ f'.2.1.start) ∧
    (∀ n sp i f, (Token.localName n, sp) ∈ res.tokens → (docFuncs res.stmts)[i]? = some f → Within sp f.2.1 →
      (∃ ud, Listed ix ⟨sp, ud, .localVar, n, some i⟩) ∧
      ∀ o, Listed ix o → o.span = sp → o.symbolKind = .localVar ∧ o.name = n ∧ o.funcBodyId = some i) := by
  obtain ⟨g, hinv, hocc, hbod, _⟩ := index_inv h hix
  refine ⟨?_, ?_, ?_, docFuncs_disjoint (mentions_wellOrdered h), ?_⟩
  · have := congrArg (List.map fun v => (v.1, v.2.1, v.2.2.1)) hinv.bodies
    rw [List.map_map, List.map_map, hbod] at this
    rw [← docBodies_eq]
    exact this
  · intro o i ho hi
    rw [hinv.listed_iff, hocc] at ho
    rcases List.mem_append.mp ho with h1 | h1
    · obtain ⟨j, f, rfl, h3, h4⟩ := docOccs_inside (mentions_wellOrdered h) h1 hi
      exact ⟨f, by simpa using h3, h4⟩
    · obtain ⟨t, ht, hu⟩ := List.mem_filterMap.mp (List.mem_filter.mp h1).1
      have htok := (tokenUse_tok hu).1
      obtain ⟨t, sp⟩ := t
      cases t <;> simp only [tokenUse] at hu <;> try (cases hu; done)
      case globalName => cases hu; cases hi
      case debugRef => cases hu; cases hi
      case localName n =>
        cases hf : functionAt res.stmts sp.start with
        | none => rw [hf] at hu; cases hu
        | some j =>
          rw [hf] at hu
          simp only [Option.map_some, Option.some.injEq] at hu
          subst hu
          simp only [occ, Option.some.injEq] at hi
          subst hi
          obtain ⟨f, h2, h3⟩ := functionAt_some hf
          refine ⟨f, h2, ?_⟩
          have hcon : f.2.1.start ≤ sp.start ∧ sp.start < f.2.1.stop := by
            simpa [Span.contains] using h3
          -- the token lies before the closing bracket
          obtain ⟨kw, sig, body, h4, rfl⟩ := docFuncs_mem (List.mem_of_getElem? h2)
          have hbr := (C07_tree_mentions_tokens h _ h4 (.punct '}', body.closingBracket) (by simp [stmtMentions, bodyMentions])).1
          simp only [Within, occ]
          refine ⟨hcon.1, ?_⟩
          have hcon2 := hcon.2
          simp only at hcon2
          apply Classical.byContradiction
          intro hnot
          have hlt1 := (tokens_wellOrdered h).2 _ hbr
          simp only at hlt1
          have := token_unique h ht hbr (p := body.closingBracket.stop - 1) (by
            simp only [Span.contains, Bool.and_eq_true, decide_eq_true_eq]
            omega) (by
            simp only [Span.contains, Bool.and_eq_true, decide_eq_true_eq]
            omega)
          cases this
  · intro o ho
    rw [hinv.listed_iff, hocc] at ho
    rcases List.mem_append.mp ho with h1 | h1
    · rcases docOccs_scope o h1 with ⟨h2, h3⟩ | ⟨h2, h3⟩
      · rw [h3]
        constructor
        · rintro (h4 | h4) <;> rw [h4] at h2 <;> simp at h2
        · rintro ⟨i, hi⟩; cases hi
      · exact ⟨fun _ => h3, fun _ => h2⟩
    · obtain ⟨t, ht, hu⟩ := List.mem_filterMap.mp (List.mem_filter.mp h1).1
      obtain ⟨t, sp⟩ := t
      cases t <;> simp only [tokenUse] at hu <;> try (cases hu; done)
      case globalName n =>
        cases hu
        by_cases hf : IsFunction res.stmts n <;> simp [occ, hf]
      case debugRef => cases hu; simp [occ]
      case localName n =>
        cases hf : functionAt res.stmts sp.start with
        | none => rw [hf] at hu; cases hu
        | some j =>
          rw [hf] at hu
          simp only [Option.map_some, Option.some.injEq] at hu
          subst hu
          simp [occ]
  · intro n sp i f ht hf hw
    obtain ⟨ud, ⟨h1, h2⟩, _⟩ := (C17_indexed_once_partial h hix).2.2 n sp i f ht hf hw
    refine ⟨⟨ud, ?_⟩, ?_⟩
    · unfold Listed
      exact List.count_pos_iff.mp (by rw [h1]; exact Nat.one_pos)
    · intro o ho hs
      have := h2 o ho hs
      rw [this]
      exact ⟨rfl, rfl, rfl⟩

/-! ### C22 (index) -/

/-- The external definitions listed for a function are exactly the locations of the debug annotations that come after a
declaration of the function with that debug reference (the last declaration with this reference counts). -/
theorem C22_external_defs (h : parseFromStr src = .ok res) (hix : createIndex src res.tokens res.stmts = .ok ix)
    (n : Str) (d : ExternalDef) :
    d ∈ ((entry? ix .function none n).getD {}).externalDefs ↔
      ∃ before name def_ after, res.stmts = before ++ .dbgAnnotation name def_ :: after ∧ IsLocation def_ d ∧
        LastDeclares before name.1 n := by
  obtain ⟨g, hinv, _, _, hext⟩ := index_inv h hix
  rw [hinv.ext, hext]
  simp only [and_self, if_true, List.mem_map, List.mem_filter, decide_eq_true_eq]
  have : (∃ a, (a ∈ docExts src res.stmts ∧ a.1 = n) ∧ a.2 = d) ↔ (n, d) ∈ docExts src res.stmts := by
    constructor
    · rintro ⟨⟨a, b⟩, ⟨h1, rfl⟩, rfl⟩; exact h1
    · intro h; exact ⟨(n, d), ⟨h, rfl⟩, rfl⟩
  rw [this, docExts, docExts_mem]
  constructor
  · rintro ⟨before, name, def_, after, h1, h2, h3⟩
    rw [unres_get] at h3
    rcases h3 with h3 | ⟨_, h3⟩
    · exact ⟨before, name, def_, after, h1, h2, h3⟩
    · cases h3
  · rintro ⟨before, name, def_, after, h1, h2, h3⟩
    exact ⟨before, name, def_, after, h1, h2, unres_get.mpr (.inl h3)⟩

end

/-! ### Examples and refutations -/

section Examples
attribute [local instance] asciiUnicode

/-- The text of the repository's own test (src/hir_index.rs:361-379). -/
def indexText : Str := c!"
        @a = \"test\"
        declare int32 @foo::bar(ptr %, int32 %baz) = 0x1234 !f1
        declare int32 @_test1(int32 %foo, data128 %baz)

        define void @_test1(int32 %foo, data128 %baz) {
          some instruction
          body_0:
            int32 %res_1 = call @foo::bar(ptr @a, int32 %foo)
            br switch_1
          switch_1:
            switch int32 %res_1, default=done_1, int32 0 label=done_1
          done_1:
            ret int32 %res_1 !21 # some comment
        }

        !f1 = \"./test.cpp:12\"

        !21 = {\"some\": \"data\"}"

def indexOf (src : Str) : Option HIRIndex :=
  match parseFromStr src with
  | .panic => none
  | .ok res => (createIndex src res.tokens res.stmts).toOption

/-- The tables the repository's test expects. -/
theorem indexText_tables :
    (indexOf indexText).map (fun ix => (ix.globalVars, ix.functions, ix.dbgAnnotations)) = some
      ([(c!"@a", { defs := [⟨9, 11⟩], uses := [⟨289, 291⟩] })],
       [(c!"@foo::bar", { decls := [⟨43, 52⟩], externalDefs := [{ filepath := c!"./test.cpp", line := 12 }], uses := [⟨275, 284⟩] }),
        (c!"@_test1", { decls := [⟨107, 114⟩], defs := [⟨162, 169⟩] })],
       [(c!"!f1", { defs := [⟨504, 507⟩], uses := [⟨81, 84⟩] }), (c!"!21", { defs := [⟨535, 538⟩], uses := [⟨466, 469⟩] })]) := by
  decide +kernel

set_option synthInstance.maxSize 512 in
theorem indexText_labels :
    (indexOf indexText).map (fun ix => ix.functionBodies.map fun b => (b.name, b.completeRange, b.labels, b.localVars)) = some
      [((c!"@_test1", ⟨162, 169⟩), ⟨150, 494⟩,
        [(c!"body_0", { defs := [⟨235, 241⟩] }), (c!"switch_1", { defs := [⟨339, 347⟩], uses := [⟨320, 328⟩] }),
         (c!"done_1", { defs := [⟨429, 435⟩], uses := [⟨390, 396⟩, ⟨412, 418⟩] })],
        [(c!"%foo", { defs := [⟨176, 180⟩], uses := [⟨299, 303⟩] }), (c!"%baz", { defs := [⟨190, 194⟩] }),
         (c!"%res_1", { defs := [⟨261, 267⟩], uses := [⟨374, 380⟩, ⟨459, 465⟩] })])] := by
  decide +kernel

set_option synthInstance.maxSize 512 in
theorem indexText_blocks :
    (indexOf indexText).map (fun ix => ix.functionBodies.map fun b => (b.basicBlocks.length, b.incomingBbBranches)) = some
      [(4, [(c!"switch_1", [(c!"body_0", ⟨235, 241⟩)]), (c!"done_1", [(c!"switch_1", ⟨339, 347⟩)])])] := by
  decide +kernel

/-- The hypotheses of C17–C20 and C22 are met by this text. -/
theorem indexText_indexed : ∃ res ix, parseFromStr indexText = .ok res ∧ createIndex indexText res.tokens res.stmts = .ok ix ∧
    (Token.globalName c!"@a", (⟨289, 291⟩ : Span)) ∈ res.tokens ∧
    ix.findSymbolAtPosition 290 = some ⟨⟨289, 291⟩, .use, .globalVar, c!"@a", none⟩ ∧ ix.findSymbolAtPosition 291 = none := by
  have key : (match parseFromStr indexText with
    | .panic => false
    | .ok res => match createIndex indexText res.tokens res.stmts with
      | .panic => false
      | .ok ix => decide ((Token.globalName c!"@a", (⟨289, 291⟩ : Span)) ∈ res.tokens) &&
        decide (ix.findSymbolAtPosition 290 = some ⟨⟨289, 291⟩, .use, .globalVar, c!"@a", none⟩) &&
        decide (ix.findSymbolAtPosition 291 = none)) = true := by decide +kernel
  split at key
  · cases key
  · rename_i res hr
    split at key
    · cases key
    · rename_i ix hi
      simp only [Bool.and_eq_true, decide_eq_true_eq] at key
      exact ⟨res, ix, hr, hi, key.1.1, key.1.2, key.2⟩

/-- The index of a document. -/
def IndexOf (src : Str) (res : ParserResult) (ix : HIRIndex) : Prop :=
  parseFromStr src = .ok res ∧ createIndex src res.tokens res.stmts = .ok ix

/-- C17 and C19 fail for a name that is both a global variable and a function: the definition of the variable is also
listed as a use of the function, and the lookup only finds the latter. -/
theorem C17_refuted_clash : ∃ src res ix, IndexOf src res ix ∧
    ∃ o o', Listed ix o ∧ Listed ix o' ∧ o.span = o'.span ∧ o.useDef = .def_ ∧ o'.useDef = .use ∧
      ix.findSymbolAtPosition o.span.start = some o' := by
  refine ⟨c!"@a = 1\ndeclare void @a()\n", ?_⟩
  generalize hr : parseFromStr c!"@a = 1\ndeclare void @a()\n" = r
  cases r with
  | panic => exact absurd hr (by decide +kernel)
  | ok res =>
    generalize hi : createIndex c!"@a = 1\ndeclare void @a()\n" res.tokens res.stmts = i
    have key : (match parseFromStr c!"@a = 1\ndeclare void @a()\n" with
      | .panic => false
      | .ok res => match createIndex c!"@a = 1\ndeclare void @a()\n" res.tokens res.stmts with
        | .panic => false
        | .ok ix => decide (⟨0, 2⟩ ∈ listed ix .globalVar none c!"@a" .def_) && decide (⟨0, 2⟩ ∈ listed ix .function none c!"@a" .use) &&
          decide (ix.findSymbolAtPosition 0 = some ⟨⟨0, 2⟩, .use, .function, c!"@a", none⟩)) = true := by decide +kernel
    rw [hr] at key
    simp only [hi] at key
    cases i with
    | panic => cases key
    | ok ix =>
      simp only [Bool.and_eq_true, decide_eq_true_eq] at key
      exact ⟨res, ix, ⟨hr, hi⟩, ⟨⟨0, 2⟩, .def_, .globalVar, c!"@a", none⟩, ⟨⟨0, 2⟩, .use, .function, c!"@a", none⟩,
        key.1.1, key.1.2, rfl, rfl, rfl, key.2⟩

/-- C22 fails if the annotation comes before the declaration. -/
theorem C22_refuted_order :
    (indexOf c!"!f = \"a.cpp:1\"\ndeclare void @a() !f\n").map (fun ix => ((entry? ix .function none c!"@a").getD {}).externalDefs) =
      some [] ∧
    (indexOf c!"declare void @a() !f\n!f = \"a.cpp:1\"\n").map (fun ix => ((entry? ix .function none c!"@a").getD {}).externalDefs) =
      some [{ filepath := c!"a.cpp", line := 1 }] := by
  decide +kernel

end Examples

end HyperIR
