import Verif.Props.JoinViews
import Verif.Props.ShiftText
import Verif.Proofs.Flow

/-
Proofs about the problems of two documents put together.
-/

namespace HyperIR

open Spec

section
variable [Unicode] {A B text : Str} {n : Nat} {resA resB res : ParserResult} {ixA ixB ix : HIRIndex} {uri name : Str}

/-- The token of an occurrence, in a document that may have errors, spells its name. -/
theorem occurs_spelled (h : parseFromStr text = .ok res) {o : SymbolOccurrence} (ho : Occurs res.tokens res.stmts o) :
    Spells (nameToken o.symbolKind o.name) o.name := by
  have htok := occurs_token h ho
  rw [occTok_nameToken] at htok
  obtain ⟨w, hw⟩ := token_spells h htok
  have hw : Spells (nameToken o.symbolKind o.name) w := hw
  rwa [spells_named hw (withName_nameToken o.symbolKind o.name []).2] at hw

/-- Occurrences of the same name, one of a global symbol, are occurrences of the same global symbol. -/
theorem sameGlobal_name (hA : parseFromStr A = .ok resA) (hixA : createIndex A resA.tokens resA.stmts = .ok ixA) (hB : parseFromStr B = .ok resB)
    (hixB : createIndex B resB.tokens resB.stmts = .ok ixB) {o o' : SymbolOccurrence} (ho : Occurs resA.tokens resA.stmts o)
    (ho' : Occurs resB.tokens resB.stmts o') (hn : o.name = o'.name) (hg : o'.funcBodyId = none) : SameGlobal o o' := by
  have a1 := (occurs_local hA hixA ho).1
  have b1 := (occurs_local hB hixB ho').1
  have s1 := occurs_spelled hA ho
  have s2 := occurs_spelled hB ho'
  rw [← hn] at s2
  have hk := nameToken_sigil s1 s2
  refine ⟨?_, hg, hn, ?_⟩
  · cases e : o.funcBodyId with
    | none => rfl
    | some i =>
      have h1 := a1.mpr ⟨i, e⟩
      have h2 : o'.symbolKind = .label ∨ o'.symbolKind = .localVar := by
        revert hk
        rcases h1 with h1 | h1 <;> rw [h1] <;> cases o'.symbolKind <;> simp [nameToken]
      obtain ⟨i, h3⟩ := b1.mp h2
      rw [hg] at h3
      cases h3
  · revert hk
    cases o.symbolKind <;> cases o'.symbolKind <;> simp [nameToken]

/-- The uses of undefined symbols of the whole. -/
theorem JoinedIx.undefinedUse (j : JoinedIx A B resA resB res ixA ixB ix) {o : SymbolOccurrence} (hamb : ¬ Ambiguous res.stmts o.name) :
    UndefinedUse res.tokens res.stmts o ↔
      (∃ oA, UndefinedUse resA.tokens resA.stmts oA ∧ o = upper res oA ∧ ¬ Provides resB o.name) ∨
      ∃ oB, UndefinedUse resB.tokens resB.stmts oB ∧ o = lower A resA res oB ∧ ¬ Provides resA o.name := by
  have back : ∀ {x y : SymbolOccurrence}, SameGlobal x y → SameGlobal y x := fun h => ⟨h.2.1, h.1, h.2.2.1.symm, h.2.2.2.symm⟩
  constructor
  · rintro ⟨ho, hu, hall⟩
    rcases (j.occurs hamb).mp ho with ⟨oA, hA, rfl⟩ | ⟨oB, hB, rfl⟩
    · left
      have hambA : ¬ Ambiguous res.stmts oA.name := by rwa [upper_name] at hamb
      refine ⟨oA, ⟨hA, by rwa [upper_use] at hu, fun o' h1 h2 => ?_⟩, rfl, ?_⟩
      · have e := h2.2.2
        have hamb' : ¬ Ambiguous res.stmts o'.name := by rw [e]; exact hambA
        have := hall (upper res o') ((j.occurs (by rwa [upper_name])).mpr (.inl ⟨o', h1, rfl⟩)) ((j.same_first h1 hA hamb').mpr h2)
        rwa [upper_use] at this
      · rintro ⟨o', h1, h2, h3, h4⟩
        rw [upper_name] at h3
        have hs := sameGlobal_name j.first j.ixA j.second j.ixB hA h1 h3.symm h2
        have hamb' : ¬ Ambiguous res.stmts o'.name := by rw [h3]; exact hambA
        have hs' := (j.same_cross j.ixA j.ixB hA h1).mpr hs
        have := hall (lower A resA res o') ((j.occurs (by rwa [lower_name])).mpr (.inr ⟨o', h1, rfl⟩)) ⟨hs'.1.symm, hs'.2.1.symm, hs'.2.2.symm⟩
        rw [lower_use] at this
        exact h4 this
    · right
      have hambB : ¬ Ambiguous res.stmts oB.name := by rwa [lower_name] at hamb
      refine ⟨oB, ⟨hB, by rwa [lower_use] at hu, fun o' h1 h2 => ?_⟩, rfl, ?_⟩
      · have e := h2.2.2
        have hamb' : ¬ Ambiguous res.stmts o'.name := by rw [e]; exact hambB
        have := hall (lower A resA res o') ((j.occurs (by rwa [lower_name])).mpr (.inr ⟨o', h1, rfl⟩)) ((j.same_second h1 hB hamb').mpr h2)
        rwa [lower_use] at this
      · rintro ⟨o', h1, h2, h3, h4⟩
        rw [lower_name] at h3
        have hs := sameGlobal_name j.second j.ixB j.first j.ixA hB h1 h3.symm h2
        have hamb' : ¬ Ambiguous res.stmts o'.name := by rw [h3]; exact hambB
        have hs' := (j.same_cross j.ixA j.ixB h1 hB).mpr (back hs)
        have := hall (upper res o') ((j.occurs (by rwa [upper_name])).mpr (.inl ⟨o', h1, rfl⟩)) hs'
        rw [upper_use] at this
        exact h4 this
  · rintro (⟨oA, ⟨hA, hu, hall⟩, rfl, hno⟩ | ⟨oB, ⟨hB, hu, hall⟩, rfl, hno⟩)
    · have hambA : ¬ Ambiguous res.stmts oA.name := by rwa [upper_name] at hamb
      rw [upper_name] at hno
      refine ⟨(j.occurs hamb).mpr (.inl ⟨oA, hA, rfl⟩), by rwa [upper_use], fun o' h1 h2 => ?_⟩
      have hn := h2.2.2
      rcases (j.occurs (by rw [hn]; exact hamb)).mp h1 with ⟨x, hx, rfl⟩ | ⟨x, hx, rfl⟩
      · rw [upper_name, upper_name] at hn
        rw [upper_use]
        exact hall x hx ((j.same_first hx hA (by rw [hn]; exact hambA)).mp h2)
      · rw [lower_name, upper_name] at hn
        rw [lower_use]
        have hs := (j.same_cross j.ixA j.ixB hA hx).mp ⟨h2.1.symm, h2.2.1.symm, h2.2.2.symm⟩
        exact Classical.not_not.mp fun hne => hno ⟨x, hx, hs.2.1, hn, hne⟩
    · have hambB : ¬ Ambiguous res.stmts oB.name := by rwa [lower_name] at hamb
      rw [lower_name] at hno
      refine ⟨(j.occurs hamb).mpr (.inr ⟨oB, hB, rfl⟩), by rwa [lower_use], fun o' h1 h2 => ?_⟩
      have hn := h2.2.2
      rcases (j.occurs (by rw [hn]; exact hamb)).mp h1 with ⟨x, hx, rfl⟩ | ⟨x, hx, rfl⟩
      · rw [upper_name, lower_name] at hn
        rw [upper_use]
        have hs := (j.same_cross j.ixA j.ixB hx hB).mp h2
        exact Classical.not_not.mp fun hne => hno ⟨x, hx, hs.1, hn, hne⟩
      · rw [lower_name, lower_name] at hn
        rw [lower_use]
        exact hall x hx ((j.same_second hx hB (by rw [hn]; exact hambB)).mp h2)

/-- The first definition of a symbol is at one place. -/
theorem firstDef_unique (h : parseFromStr text = .ok res) (hix : createIndex text res.tokens res.stmts = .ok ix) {f f' o : SymbolOccurrence}
    (h1 : FirstDef res.tokens res.stmts f o) (h2 : FirstDef res.tokens res.stmts f' o) : f = f' := by
  have l1 := h1.2 f' h2.1.1 h2.1.2.1 h2.1.2.2
  have l2 := h2.2 f h1.1.1 h1.1.2.1 h1.1.2.2
  have hord := listed_defs_order h hix o.symbolKind o.funcBodyId o.name
  have hm : ∀ {x : SymbolOccurrence}, Occurs res.tokens res.stmts x → SameSymbol x o → x.useDef = .def_ →
      x.span ∈ listed ix o.symbolKind o.funcBodyId o.name .def_ := by
    rintro ⟨sp, ud, k, n, b⟩ hx ⟨e1, e2, e3⟩ e4
    simp only at e1 e2 e3 e4
    subst e1 e2 e3 e4
    exact (listed_occurs h hix).mpr hx
  have m1 := hm h1.1.1 h1.1.2.1 h1.1.2.2
  have m2 := hm h2.1.1 h2.1.2.1 h2.1.2.2
  have hsp : f.span = f'.span := by
    rw [List.pairwise_iff_getElem] at hord
    obtain ⟨i, hi, e⟩ := List.getElem_of_mem m1
    obtain ⟨i', hi', e'⟩ := List.getElem_of_mem m2
    rcases Nat.lt_trichotomy i i' with hlt | heq | hlt
    · have := hord i i' hi hi' hlt
      rw [e, e'] at this
      omega
    · subst heq
      rw [← e, ← e']
    · have := hord i' i hi' hi hlt
      rw [e, e'] at this
      omega
  obtain ⟨sp, ud, k, nm, b⟩ := f
  obtain ⟨sp', ud', k', nm', b'⟩ := f'
  obtain ⟨⟨_, ⟨a1, a2, a3⟩, a4⟩, _⟩ := h1
  obtain ⟨⟨_, ⟨b1, b2, b3⟩, b4⟩, _⟩ := h2
  simp only at a1 a2 a3 a4 b1 b2 b3 b4 hsp
  simp_all

theorem JoinedIx.firstDef_first (j : JoinedIx A B resA resB res ixA ixB ix) {f o : SymbolOccurrence} (ho : Occurs resA.tokens resA.stmts o)
    (hamb : ¬ Ambiguous res.stmts o.name) (h : FirstDef resA.tokens resA.stmts f o) : FirstDef res.tokens res.stmts (upper res f) (upper res o) := by
  obtain ⟨⟨h1, h2, h3⟩, h4⟩ := h
  have hf : ¬ Ambiguous res.stmts f.name := by rw [h2.2.2]; exact hamb
  refine ⟨⟨(j.occurs (by rwa [upper_name])).mpr (.inl ⟨f, h1, rfl⟩), (j.same_first h1 ho hf).mpr h2, by rwa [upper_use]⟩, ?_⟩
  intro o' g1 g2 g3
  have hn := g2.2.2
  rw [upper_name] at hn
  rw [upper_span]
  rcases (j.occurs (by rw [hn]; exact hamb)).mp g1 with ⟨x, hx, rfl⟩ | ⟨x, hx, rfl⟩
  · rw [upper_span]
    rw [upper_name] at hn
    rw [upper_use] at g3
    exact h4 x hx ((j.same_first hx ho (by rw [hn]; exact hamb)).mp g2) g3
  · rw [lower_span]
    have := occurs_inside j.first h1
    simp only [movedSpan]
    omega

theorem JoinedIx.firstDef_cross (j : JoinedIx A B resA resB res ixA ixB ix) {f o oB : SymbolOccurrence} (ho : Occurs resA.tokens resA.stmts o)
    (hB : Occurs resB.tokens resB.stmts oB) (hs : SameGlobal o oB) (hamb : ¬ Ambiguous res.stmts o.name) (h : FirstDef resA.tokens resA.stmts f o) :
    FirstDef res.tokens res.stmts (upper res f) (lower A resA res oB) := by
  have h1 := j.firstDef_first ho hamb h
  have h2 := (j.same_cross j.ixA j.ixB ho hB).mpr hs
  have tr : ∀ {a b c : SymbolOccurrence}, SameSymbol a b → SameSymbol b c → SameSymbol a c :=
    fun x y => ⟨x.1.trans y.1, x.2.1.trans y.2.1, x.2.2.trans y.2.2⟩
  have sy : ∀ {a b : SymbolOccurrence}, SameSymbol a b → SameSymbol b a := fun x => ⟨x.1.symm, x.2.1.symm, x.2.2.symm⟩
  exact ⟨⟨h1.1.1, tr h1.1.2.1 h2, h1.1.2.2⟩, fun o' g1 g2 g3 => h1.2 o' g1 (tr g2 (sy h2)) g3⟩

theorem JoinedIx.firstDef_second (j : JoinedIx A B resA resB res ixA ixB ix) {f o : SymbolOccurrence} (ho : Occurs resB.tokens resB.stmts o)
    (hamb : ¬ Ambiguous res.stmts o.name) (hno : ¬ Defines resA o.name) (h : FirstDef resB.tokens resB.stmts f o) :
    FirstDef res.tokens res.stmts (lower A resA res f) (lower A resA res o) := by
  obtain ⟨⟨h1, h2, h3⟩, h4⟩ := h
  have hf : ¬ Ambiguous res.stmts f.name := by rw [h2.2.2]; exact hamb
  refine ⟨⟨(j.occurs (by rwa [lower_name])).mpr (.inr ⟨f, h1, rfl⟩), (j.same_second h1 ho hf).mpr h2, by rwa [lower_use]⟩, ?_⟩
  intro o' g1 g2 g3
  have hn := g2.2.2
  rw [lower_name] at hn
  rw [lower_span]
  rcases (j.occurs (by rw [hn]; exact hamb)).mp g1 with ⟨x, hx, rfl⟩ | ⟨x, hx, rfl⟩
  · exfalso
    rw [upper_name] at hn
    rw [upper_use] at g3
    exact hno ⟨x, hx, ((j.same_cross j.ixA j.ixB hx ho).mp g2).1, hn, g3⟩
  · rw [lower_span]
    rw [lower_name] at hn
    rw [lower_use] at g3
    have := h4 x hx ((j.same_second hx ho (by rw [hn]; exact hamb)).mp g2) g3
    simp only [movedSpan]
    omega

theorem redefinition_iff (h : parseFromStr text = .ok res) (hix : createIndex text res.tokens res.stmts = .ok ix) {f o : SymbolOccurrence}
    (ho : Occurs res.tokens res.stmts o) (hd : o.useDef = .def_) (hf : FirstDef res.tokens res.stmts f o) :
    Redefinition res.tokens res.stmts o ↔ f.span ≠ o.span := by
  constructor
  · rintro ⟨_, _, h3⟩ e
    exact h3 ⟨⟨ho, ⟨rfl, rfl, rfl⟩, hd⟩, fun o' a b c => by rw [← e]; exact hf.2 o' a b c⟩
  · intro hne
    exact ⟨ho, hd, fun h' => hne (by rw [firstDef_unique h hix hf h'])⟩

omit [Unicode] in
/-- Functions and global variables are not used by the statements themselves. -/
theorem docOccs_provide {ss : List Statement} : ∀ {i : Nat}, ∀ o ∈ docOccs i ss, (o.symbolKind = .function ∨ o.symbolKind = .globalVar) →
    o.useDef ≠ .use ∧ o.funcBodyId = none := by
  induction ss with
  | nil => intro i o ho; cases ho
  | cons s ss ih =>
    intro i o ho hk
    simp only [docOccs, List.mem_append] at ho
    rcases ho with ho | ho
    · have hin : ∀ {i : Nat} {ins : Instruction}, ∀ o ∈ instrOccs i ins, ¬ (o.symbolKind = .function ∨ o.symbolKind = .globalVar) := by
        intro i ins o ho
        simp only [instrOccs, List.mem_append, List.mem_map] at ho
        rcases ho with ⟨_, _, rfl⟩ | ⟨_, _, rfl⟩ <;> simp [occ]
      have hbl : ∀ {i : Nat} {b : BasicBlock}, ∀ o ∈ blockOccs i b, ¬ (o.symbolKind = .function ∨ o.symbolKind = .globalVar) := by
        intro i b o ho
        simp only [blockOccs, List.mem_append, List.mem_map, List.mem_flatMap] at ho
        rcases ho with ⟨_, _, rfl⟩ | ⟨ins, _, ho⟩
        · simp [occ]
        · exact hin o ho
      cases s with
      | globalVar n d => simp only [stmtOccs, List.mem_singleton] at ho; subst ho; exact ⟨by simp [occ], rfl⟩
      | funcDecl a b c => simp only [stmtOccs, List.mem_singleton] at ho; subst ho; exact ⟨by simp [occ], rfl⟩
      | funcDependencies a b => cases ho
      | dbgAnnotation a b => simp only [stmtOccs, List.mem_singleton] at ho; subst ho; exact ⟨by simp [occ], rfl⟩
      | funcDef kw sig body =>
        simp only [stmtOccs, List.mem_cons] at ho
        rcases ho with rfl | ho
        · exact ⟨by simp [occ], rfl⟩
        · exfalso
          simp only [funcOccs, List.mem_append, List.mem_map, List.mem_flatMap] at ho
          rcases ho with ⟨_, _, rfl⟩ | ⟨b, _, ho⟩
          · simp [occ] at hk
          · exact hbl o ho hk
    · exact ih o ho hk

omit [Unicode] in
theorem isFunction_provides (h : IsFunction res.stmts name) : Provides res name := by
  obtain ⟨o, h1, h2, h3⟩ := h
  have := docOccs_provide o h1 (.inl h2)
  exact ⟨o, .inl h1, this.2, h3, this.1⟩

/-- A name that is provided has no undefined uses. -/
theorem undefined_unknown (h : parseFromStr text = .ok res) (hix : createIndex text res.tokens res.stmts = .ok ix) {o : SymbolOccurrence}
    (ho : UndefinedUse res.tokens res.stmts o) : ¬ Provides res o.name := by
  rintro ⟨o', ho', hg, hn, hu⟩
  obtain ⟨ho, huo, hall⟩ := ho
  have hs := sameGlobal_name h hix h hix ho ho' hn.symm hg
  have key : ∀ x, Occurs res.tokens res.stmts x → x.symbolKind = o.symbolKind → x.funcBodyId = none → x.name = o.name → x.useDef ≠ .use → False :=
    fun x h1 h2 h3 h4 h5 => h5 (hall x h1 ⟨h2, h3.trans hs.1.symm, h4⟩)
  have k1 := (occurs_local h hix ho).1
  have k2 := (occurs_local h hix ho').1
  have n1 : ¬ (o.symbolKind = .label ∨ o.symbolKind = .localVar) := fun hh => by obtain ⟨i, e⟩ := k1.mp hh; rw [hs.1] at e; cases e
  have n2 : ¬ (o'.symbolKind = .label ∨ o'.symbolKind = .localVar) := fun hh => by obtain ⟨i, e⟩ := k2.mp hh; rw [hg] at e; cases e
  by_cases hk : o'.symbolKind = o.symbolKind
  · exact key o' ho' hk hg hn hu
  · -- one is a function, the other a global variable
    have hdoc' : o' ∈ docOccs 0 res.stmts := by
      rcases ho' with h1 | ⟨⟨t, _, h1⟩, _⟩
      · exact h1
      · exact absurd (tokenUse_tok h1).2 hu
    have hkind : (o.symbolKind = .function ∧ o'.symbolKind = .globalVar) ∨ (o.symbolKind = .globalVar ∧ o'.symbolKind = .function) := by
      have := hs.2.2.2
      revert n1 n2 hk this
      cases o.symbolKind <;> cases o'.symbolKind <;> simp
    have huse : o.symbolKind = .function ↔ IsFunction res.stmts o.name := by
      rcases ho with h1 | ⟨⟨t, _, h1⟩, _⟩
      · refine absurd huo (docOccs_provide o h1 ?_).1
        rcases hkind with hk | hk
        · exact .inl hk.1
        · exact .inr hk.1
      · obtain ⟨t, sp⟩ := t
        cases t <;> simp only [tokenUse, reduceCtorEq] at h1
        case globalName m _ =>
          cases h1
          simp only [occ]
          by_cases hf : IsFunction res.stmts m <;> simp [hf]
        case debugRef m _ => cases h1; simp [occ] at hkind
        case localName m _ =>
          rw [Option.map_eq_some_iff] at h1
          obtain ⟨i, _, rfl⟩ := h1
          simp [occ] at hkind
    rcases hkind with ⟨e, _⟩ | ⟨e, e'⟩
    · obtain ⟨x, x1, x2, x3⟩ := huse.mp e
      have := docOccs_provide x x1 (.inl x2)
      exact key x (.inl x1) (x2.trans e.symm) this.2 x3 this.1
    · have := huse.mpr ⟨o', hdoc', e', hn⟩
      rw [e] at this
      cases this

end

end HyperIR
