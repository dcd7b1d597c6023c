import Verif.Proofs.IndexMain

/- Consequences of the characterisation of the index. -/

namespace HyperIR
open Spec

/-! ### The reverse index -/

/-- Keys in increasing order. -/
def RevIdx.Sorted (m : RevIdx) : Prop := m.Pairwise fun a b => a.1 < b.1

theorem RevIdx.mem_insert {m : RevIdx} (hm : m.Sorted) {k : Nat} {v : SymbolOccurrence} {e : Nat × SymbolOccurrence} :
    e ∈ m.insert k v ↔ e = (k, v) ∨ (e ∈ m ∧ e.1 ≠ k) := by
  induction m with
  | nil => simp [RevIdx.insert]
  | cons a m ih =>
    obtain ⟨k', v'⟩ := a
    obtain ⟨h1, h2⟩ := List.pairwise_cons.mp hm
    unfold RevIdx.insert
    split
    · rename_i hlt
      simp only [List.mem_cons]
      constructor
      · rintro (h | h | h)
        · exact .inl h
        · subst h; exact .inr ⟨.inl rfl, by simp; omega⟩
        · have := h1 e h
          exact .inr ⟨.inr h, by simp at this; omega⟩
      · rintro (h | ⟨h | h, _⟩)
        · exact .inl h
        · exact .inr (.inl h)
        · exact .inr (.inr h)
    · split
      · rename_i _ heq
        subst heq
        simp only [List.mem_cons]
        constructor
        · rintro (h | h)
          · exact .inl h
          · have := h1 e h
            exact .inr ⟨.inr h, by simp at this; omega⟩
        · rintro (h | ⟨h | h, h3⟩)
          · exact .inl h
          · subst h; exact absurd rfl h3
          · exact .inr h
      · rename_i h3 h4
        simp only [List.mem_cons, ih h2]
        constructor
        · rintro (h | h | h)
          · subst h; exact .inr ⟨.inl rfl, fun h => h4 h.symm⟩
          · exact .inl h
          · exact .inr ⟨.inr h.1, h.2⟩
        · rintro (h | ⟨h | h, h5⟩)
          · exact .inr (.inl h)
          · exact .inl h
          · exact .inr (.inr ⟨h, h5⟩)

theorem RevIdx.sorted_insert {m : RevIdx} (hm : m.Sorted) (k : Nat) (v : SymbolOccurrence) : (m.insert k v).Sorted := by
  induction m with
  | nil => simp [RevIdx.insert, RevIdx.Sorted]
  | cons a m ih =>
    obtain ⟨k', v'⟩ := a
    obtain ⟨h1, h2⟩ := List.pairwise_cons.mp hm
    unfold RevIdx.insert
    split
    · rename_i hlt
      refine List.Pairwise.cons ?_ hm
      intro e he
      rcases List.mem_cons.mp he with rfl | he
      · exact hlt
      · have := h1 e he
        simp at this ⊢; omega
    · split
      · rename_i _ heq
        subst heq
        exact List.Pairwise.cons h1 h2
      · rename_i h3 h4
        refine List.Pairwise.cons ?_ (ih h2)
        intro e he
        rcases (RevIdx.mem_insert h2).mp he with rfl | ⟨he, _⟩
        · simp; omega
        · exact h1 e he

theorem revOf_facts (occs : List SymbolOccurrence) : (revOf occs).Sorted ∧
    (∀ e ∈ revOf occs, e.2 ∈ occs ∧ e.1 = e.2.span.start) ∧ ∀ o ∈ occs, ∃ e ∈ revOf occs, e.1 = o.span.start := by
  suffices ∀ (occs pre : List SymbolOccurrence) (m : RevIdx), m.Sorted → (∀ e ∈ m, e.2 ∈ pre ∧ e.1 = e.2.span.start) →
      (∀ o ∈ pre, ∃ e ∈ m, e.1 = o.span.start) →
      (occs.foldl (fun (r : RevIdx) o => r.insert o.span.start o) m).Sorted ∧
      (∀ e ∈ occs.foldl (fun (r : RevIdx) o => r.insert o.span.start o) m, e.2 ∈ pre ++ occs ∧ e.1 = e.2.span.start) ∧
      (∀ o ∈ pre ++ occs, ∃ e ∈ occs.foldl (fun (r : RevIdx) o => r.insert o.span.start o) m, e.1 = o.span.start) by
    have := this occs [] [] List.Pairwise.nil (by simp) (by simp)
    simpa [revOf] using this
  intro occs
  induction occs with
  | nil => intro pre m h1 h2 h3; rw [List.append_nil]; exact ⟨h1, h2, h3⟩
  | cons o occs ih =>
    intro pre m h1 h2 h3
    have := ih (pre ++ [o]) (m.insert o.span.start o) (RevIdx.sorted_insert h1 _ _) ?_ ?_
    · simpa using this
    · intro e he
      rcases (RevIdx.mem_insert h1).mp he with rfl | ⟨he, _⟩
      · simp
      · have := h2 e he
        exact ⟨by simp [this.1], this.2⟩
    · intro o' ho'
      by_cases hk : o'.span.start = o.span.start
      · exact ⟨_, (RevIdx.mem_insert h1).mpr (.inl rfl), hk.symm⟩
      · rcases List.mem_append.mp ho' with h | h
        · obtain ⟨e, he, hs⟩ := h3 o' h
          exact ⟨e, (RevIdx.mem_insert h1).mpr (.inr ⟨he, by rw [hs]; exact hk⟩), hs⟩
        · simp at h; subst h; exact absurd rfl hk

/-! ### Listed occurrences -/

theorem Inv.listed_iff {ix : HIRIndex} {g : Ghost} (h : Inv ix g) (o : SymbolOccurrence) : Listed ix o ↔ o ∈ g.occs := by
  unfold Listed
  rw [h.tab, List.mem_map]
  constructor
  · rintro ⟨o', h1, h2⟩
    rw [List.mem_filter, decide_eq_true_iff] at h1
    obtain ⟨h1, ⟨h3, h4, h5⟩, h6⟩ := h1
    have : o' = o := by
      obtain ⟨a, b, c, d, e⟩ := o
      obtain ⟨a', b', c', d', e'⟩ := o'
      simp at h2 h3 h4 h5 h6
      simp [h2, h3, h4, h5, h6]
    rw [← this]; exact h1
  · intro ho
    refine ⟨o, ?_, rfl⟩
    simp [List.mem_filter, ho, IsOf]

theorem docOccs_scope {i : Nat} {ss : List Statement} : ∀ o ∈ docOccs i ss,
    ((o.symbolKind = .globalVar ∨ o.symbolKind = .function ∨ o.symbolKind = .dbgAnnotation) ∧ o.funcBodyId = none) ∨
    ((o.symbolKind = .label ∨ o.symbolKind = .localVar) ∧ ∃ j, o.funcBodyId = some j) := by
  induction ss generalizing i with
  | nil => simp [docOccs]
  | cons s ss ih =>
    intro o ho
    rw [docOccs] at ho
    rcases List.mem_append.mp ho with h | h
    · cases s with
      | funcDef kw sig body =>
        simp only [stmtOccs, List.mem_cons] at h
        rcases h with rfl | h
        · simp [occ]
        · simp only [funcOccs, blockOccs, instrOccs, List.mem_append, List.mem_flatMap, List.mem_map] at h
          rcases h with ⟨_, _, rfl⟩ | ⟨_, _, ⟨_, _, rfl⟩ | ⟨_, _, ⟨_, _, rfl⟩ | ⟨_, _, rfl⟩⟩⟩ <;> simp [occ]
      | globalVar => simp [stmtOccs] at h; subst h; simp [occ]
      | funcDecl => simp [stmtOccs] at h; subst h; simp [occ]
      | funcDependencies => simp [stmtOccs] at h
      | dbgAnnotation => simp [stmtOccs] at h; subst h; simp [occ]
    · exact ih o h

theorem docOccs_kind_global {i : Nat} {ss : List Statement} {o : SymbolOccurrence} (ho : o ∈ docOccs i ss)
    (hk : o.symbolKind = .globalVar ∨ o.symbolKind = .function ∨ o.symbolKind = .dbgAnnotation) : o.funcBodyId = none := by
  rcases docOccs_scope o ho with h | ⟨h, _⟩
  · exact h.2
  · rcases hk with hk | hk | hk <;> rw [hk] at h <;> simp at h

theorem docOccs_kind_local {i : Nat} {ss : List Statement} {o : SymbolOccurrence} (ho : o ∈ docOccs i ss)
    (hk : o.symbolKind = .label ∨ o.symbolKind = .localVar) : ∃ j, o.funcBodyId = some j := by
  rcases docOccs_scope o ho with ⟨h, _⟩ | h
  · rcases hk with hk | hk <;> rw [hk] at h <;> simp at h
  · exact h.2

/-- The occurrences inside a function definition lie in its range. -/
theorem funcOccs_inside {kw : Span} {sig : FuncSignature} {body : FuncBody} (hw : WellOrdered (stmtMentions (.funcDef kw sig body)))
    {i : Nat} {o : SymbolOccurrence} (ho : o ∈ funcOccs i sig body) :
    kw.stop ≤ o.span.start ∧ o.span.stop ≤ body.closingBracket.start ∧ o.funcBodyId = some i := by
  have hf : o.funcBodyId = some i := by
    simp only [funcOccs, blockOccs, instrOccs, List.mem_append, List.mem_flatMap, List.mem_map] at ho
    rcases ho with ⟨_, _, rfl⟩ | ⟨_, _, ⟨_, _, rfl⟩ | ⟨_, _, ⟨_, _, rfl⟩ | ⟨_, _, rfl⟩⟩⟩ <;> rfl
  have hm : occTok o ∈ sigMentions sig ++ ((Token.punct '{', body.openingBracket) :: body.basicBlocks.flatMap blockMentions) := by
    have := (stmtOccs_sublist i (.funcDef kw sig body)).subset (a := occTok o)
      (List.mem_map_of_mem (List.mem_cons_of_mem _ ho))
    simp only [stmtMentions, bodyMentions, List.mem_append, List.mem_cons] at this ⊢
    rcases this with (h | h) | (h | h) | h
    · exfalso
      unfold occTok at h
      cases hk : o.symbolKind <;> simp [hk] at h
    · exact .inl h
    · exact .inr (.inl h)
    · exact .inr (.inr h)
    · exfalso
      unfold occTok at h
      cases hk : o.symbolKind <;> simp [hk] at h
  have e : stmtMentions (.funcDef kw sig body) = [(.define, kw)] ++
      (sigMentions sig ++ ((Token.punct '{', body.openingBracket) :: body.basicBlocks.flatMap blockMentions)) ++
      [(.punct '}', body.closingBracket)] := by
    simp [stmtMentions, bodyMentions]
  rw [e] at hw
  have h1 := hw.left.le (t := (.define, kw)) (by simp) hm
  have h2 := hw.le (t := occTok o) (t' := (.punct '}', body.closingBracket)) (List.mem_append_right _ hm) (by simp)
  rw [occTok_span] at h1 h2
  exact ⟨h1, h2, hf⟩

theorem docOccs_inside {ss : List Statement} (hw : WellOrdered (mentions ss)) {k : Nat} {o : SymbolOccurrence}
    (ho : o ∈ docOccs k ss) {i : Nat} (hi : o.funcBodyId = some i) :
    ∃ j f, i = k + j ∧ (docFuncs ss)[j]? = some f ∧ f.2.1.start ≤ o.span.start ∧ o.span.stop ≤ f.2.1.stop := by
  induction ss generalizing k with
  | nil => cases ho
  | cons s ss ih =>
    rw [mentions, List.flatMap_cons] at hw
    rw [docOccs] at ho
    rcases List.mem_append.mp ho with h | h
    · cases s with
      | funcDef kw sig body =>
        simp only [stmtOccs, List.mem_cons] at h
        rcases h with rfl | h
        · cases hi
        · obtain ⟨h1, h2, h3⟩ := funcOccs_inside hw.left h
          rw [hi] at h3
          cases h3
          have hk := hw.2 (.define, kw) (by simp [stmtMentions])
          have hb := hw.2 (.punct '}', body.closingBracket) (by simp [stmtMentions, bodyMentions])
          simp only at hk hb
          exact ⟨0, _, rfl, rfl, by simp; omega, by simp; omega⟩
      | globalVar => simp [stmtOccs] at h; subst h; cases hi
      | funcDecl => simp [stmtOccs] at h; subst h; cases hi
      | funcDependencies => simp [stmtOccs] at h
      | dbgAnnotation => simp [stmtOccs] at h; subst h; cases hi
    · obtain ⟨j, f, h1, h2, h3⟩ := ih hw.right h
      cases s with
      | funcDef kw sig body =>
        refine ⟨j + 1, f, ?_, ?_, h3⟩
        · rw [h1]; simp only [funcCount]; omega
        · simpa [docFuncs] using h2
      | _ => exact ⟨j, f, by simpa [funcCount] using h1, by simpa [docFuncs] using h2, h3⟩

theorem functionAt_eq {ss : List Statement} (hw : WellOrdered (mentions ss)) {i : Nat} {f} (hf : (docFuncs ss)[i]? = some f)
    {pos : Nat} (hc : f.2.1.contains pos = true) : functionAt ss pos = some i := by
  rw [← bodyAt_docBodies]
  have hb := congrArg (fun l => l[i]?) (docBodies_eq ss)
  simp only [List.getElem?_map, hf] at hb
  cases hg : (docBodies ss)[i]? with
  | none => simp [hg] at hb
  | some b =>
    simp only [hg, Option.map_some, Option.some.injEq] at hb
    refine bodyAt_unique (docBodies_disjoint hw) hg ?_
    rw [← hb] at hc
    exact hc

theorem functionAt_some {ss : List Statement} {i : Nat} {pos : Nat} (h : functionAt ss pos = some i) :
    ∃ f, (docFuncs ss)[i]? = some f ∧ f.2.1.contains pos = true := by
  obtain ⟨hi, hc, _⟩ := List.findIdx?_eq_some_iff_getElem.mp h
  exact ⟨_, List.getElem?_eq_getElem hi, hc⟩

section
variable [Unicode]
variable {src : Str} {res : ParserResult}

theorem mentions_wellOrdered (h : parseFromStr src = .ok res) : WellOrdered (mentions res.stmts) :=
  (tokens_wellOrdered h).sublist ((mentions_sublist h).trans List.filter_sublist)

theorem allOccs_token (h : parseFromStr src = .ok res) {o : SymbolOccurrence} (ho : o ∈ allOccs res.tokens res.stmts) :
    occTok o ∈ res.tokens := by
  rcases List.mem_append.mp ho with ho | ho
  · exact docOccs_token h ho
  · obtain ⟨t, h1, h2⟩ := List.mem_filterMap.mp (List.mem_filter.mp ho).1
    rw [(tokenUse_tok h2).1]
    exact h1

omit [Unicode] in
theorem eq_of_nodup_span {l : List SymbolOccurrence} (h : (l.map (·.span)).Nodup) {o o' : SymbolOccurrence} (ho : o ∈ l)
    (ho' : o' ∈ l) (hs : o.span = o'.span) : o = o' := by
  induction l with
  | nil => cases ho
  | cons a l ih =>
    simp only [List.map_cons, List.nodup_cons] at h
    rcases List.mem_cons.mp ho with rfl | h1 <;> rcases List.mem_cons.mp ho' with rfl | h2
    · rfl
    · exact absurd (List.mem_map.mpr ⟨o', h2, hs.symm⟩) h.1
    · exact absurd (List.mem_map.mpr ⟨o, h1, hs⟩) h.1
    · exact ih h.2 h1 h2

theorem tokenUses_spans_nodup (h : parseFromStr src = .ok res) : ((tokenUses res.tokens res.stmts).map (·.span)).Nodup := by
  unfold tokenUses
  exact (List.Sublist.map _ List.filter_sublist).nodup (tokenUses_nodup (tokens_wellOrdered h).spans_nodup)

theorem token_of_span (h : parseFromStr src = .ok res) {t t' : Tok} (ht : t ∈ res.tokens) (ht' : t' ∈ res.tokens)
    (hs : t.2 = t'.2) : t = t' := by
  have := (tokens_wellOrdered h).2 t ht
  refine token_unique h ht ht' (p := t.2.start) ?_ ?_
  · simp [Span.contains, this]
  · rw [← hs]; simp [Span.contains, this]

/-- Only names that are both a function and a global variable are listed twice at the same place. -/
theorem doc_use_clash (h : parseFromStr src = .ok res) {o o' : SymbolOccurrence} (ho : o ∈ docOccs 0 res.stmts)
    (ho' : o' ∈ tokenUses res.tokens res.stmts) (hs : o.span = o'.span) :
    o.symbolKind = .globalVar ∧ o'.symbolKind = .function ∧ o'.name = o.name ∧ IsFunction res.stmts o.name := by
  obtain ⟨h1, h2⟩ := List.mem_filter.mp ho'
  simp only [decide_eq_true_eq] at h2
  have hkey : ¬ SameKey o o' := fun hk => h2 ⟨o, ho, hk⟩
  obtain ⟨t, ht, hu⟩ := List.mem_filterMap.mp h1
  have htok : occTok o = t := by
    refine token_of_span h (docOccs_token h ho) ht ?_
    rw [← (tokenUse_tok hu).1, occTok_span, occTok_span, hs]
  subst htok
  obtain ⟨sp, ud, k, n, f⟩ := o
  simp only at hs hkey
  cases k with
  | label => simp [occTok, tokenUse] at hu
  | dbgAnnotation =>
    simp only [occTok, tokenUse, Option.some.injEq] at hu
    subst hu
    refine absurd ⟨rfl, ?_, rfl, rfl⟩ hkey
    cases f with
    | none => rfl
    | some i =>
      exfalso
      have := docOccs_kind_global ho (.inr (.inr rfl))
      cases this
  | globalVar =>
    simp only [occTok, tokenUse, Option.some.injEq] at hu
    by_cases hfn : IsFunction res.stmts n
    · simp only [hfn, decide_true, if_true] at hu
      subst hu
      exact ⟨rfl, rfl, rfl, hfn⟩
    · simp only [hfn, decide_false] at hu
      subst hu
      refine absurd ⟨rfl, ?_, rfl, rfl⟩ hkey
      exact docOccs_kind_global ho (.inl rfl)
  | function =>
    simp only [occTok, tokenUse, Option.some.injEq] at hu
    have hfn : IsFunction res.stmts n := ⟨_, ho, rfl, rfl⟩
    simp only [hfn, decide_true, if_true] at hu
    subst hu
    refine absurd ⟨rfl, ?_, rfl, rfl⟩ hkey
    exact docOccs_kind_global ho (.inr (.inl rfl))
  | localVar =>
    simp only [occTok, tokenUse] at hu
    obtain ⟨i, hi⟩ := docOccs_kind_local ho (.inr rfl)
    simp only at hi
    subst hi
    obtain ⟨j, fn, h3, h4, h5, h6⟩ := docOccs_inside (mentions_wellOrdered h) ho rfl
    have hlt := (tokens_wellOrdered h).2 _ ht
    have hat := functionAt_eq (mentions_wellOrdered h) h4 (pos := sp.start) (by
      simp only [Span.contains, Bool.and_eq_true, decide_eq_true_eq]
      simp only [occTok] at hlt h5 h6 ⊢
      omega)
    rw [hat] at hu
    simp only [Option.map_some, Option.some.injEq] at hu
    subst hu
    refine absurd ⟨rfl, ?_, rfl, rfl⟩ hkey
    simp only [occ, Option.some.injEq]
    omega

end

end HyperIR
