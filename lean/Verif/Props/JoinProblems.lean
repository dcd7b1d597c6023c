import Verif.Proofs.JoinProblems

/-
C81: the problems of two documents put together.
-/

namespace HyperIR

open Spec

section
variable [Unicode] {A B text : Str} {n : Nat} {resA resB res : ParserResult} {ixA ixB ix : HIRIndex} {uri : Str} {env : Env}
  {stA stB st stA' stB' st' : ServerState} {vA vB v : Int} {pubA pubB pub : Publish}

/-- A published problem about an undefined symbol. -/
theorem undefined_published (hsize : text.length < 2 ^ 32) (h : parseFromStr text = .ok res) (hc : onChange env st uri v text = .ok (st', pub))
    {d : Diagnostic} {name : Str} (hm : d.message = c!"Use of undefined symbol `" ++ name ++ c!"`") :
    d ∈ pub.diagnostics ↔ ∃ o, UndefinedUse res.tokens res.stmts o ∧ o.name = name ∧ d.related = [] ∧ rangeToLsp text o.span = some d.range := by
  obtain ⟨ix, hix, hd⟩ := publish_inv h hc
  have htake : d.message.take 2 = c!"Us" := by rw [hm]; rfl
  rw [hd, List.mem_append, List.mem_append, (diagnosticsFromIndex_perm ..).mem_iff, List.mem_append]
  constructor
  · rintro ((hp | hs) | hu | hu)
    · rcases parser_take h d hp with h1 | h1 | h1 <;> rw [h1] at htake <;> exact absurd htake (by decide)
    · rw [stmts_take d hs] at htake; exact absurd htake (by decide)
    · obtain ⟨⟨o, d'⟩, h1, rfl⟩ := List.mem_map.mp hu
      obtain ⟨h2, h3, h4, h5⟩ := (undef_mem h hix hsize env.ord _ _).mp h1
      refine ⟨o, h2, ?_, h4, h5⟩
      simp only at hm
      rw [h3] at hm
      unfold undefinedMessage at hm
      simpa using hm
    · rw [dup_take d hu] at htake; exact absurd htake (by decide)
  · rintro ⟨o, h1, rfl, h3, h4⟩
    exact .inr (.inl (List.mem_map.mpr ⟨(o, d), (undef_mem h hix hsize env.ord _ _).mpr ⟨h1, hm, h3, h4⟩, rfl⟩))

/-- A published problem about a repeated definition. -/
theorem duplicate_published (hsize : text.length < 2 ^ 32) (h : parseFromStr text = .ok res) (hc : onChange env st uri v text = .ok (st', pub))
    {d : Diagnostic} {name : Str} (hm : d.message = c!"Symbol `" ++ name ++ c!"` already defined previously") :
    d ∈ pub.diagnostics ↔ ∃ o first r0, Redefinition res.tokens res.stmts o ∧ o.name = name ∧ rangeToLsp text o.span = some d.range ∧
      FirstDef res.tokens res.stmts first o ∧ rangeToLsp text first.span = some r0 ∧ d.related = [(⟨uri, r0⟩, c!"Previously defined here")] := by
  obtain ⟨ix, hix, hd⟩ := publish_inv h hc
  have htake : d.message.take 2 = c!"Sy" := by rw [hm]; rfl
  rw [hd, List.mem_append, List.mem_append, (diagnosticsFromIndex_perm ..).mem_iff, List.mem_append]
  constructor
  · rintro ((hp | hs) | hu | hu)
    · rcases parser_take h d hp with h1 | h1 | h1 <;> rw [h1] at htake <;> exact absurd htake (by decide)
    · rw [stmts_take d hs] at htake; exact absurd htake (by decide)
    · rw [undef_take d hu] at htake; exact absurd htake (by decide)
    · obtain ⟨⟨o, d'⟩, h1, rfl⟩ := List.mem_map.mp hu
      obtain ⟨h2, h3, h4, f, r0, h5, h6, h7⟩ := (dup_mem h hix hsize env.ord uri _ _).mp h1
      refine ⟨o, f, r0, h2, ?_, h4, h5, h6, h7⟩
      simp only at hm
      rw [h3] at hm
      unfold duplicateMessage at hm
      simpa using hm
  · rintro ⟨o, f, r0, h1, rfl, h3, h4, h5, h6⟩
    exact .inr (.inr (List.mem_map.mpr ⟨(o, d), (dup_mem h hix hsize env.ord uri _ _).mpr ⟨h1, hm, h3, f, r0, h4, h5, h6⟩, rfl⟩))

/-- The documents and their indexes after publication. -/
theorem published_joined (hab : Above A n B) (hA : parseFromStr A = .ok resA) (heA : Settled A) (hB : parseFromStr B = .ok resB)
    (hr : resB.errors = [] ∨ resB.stmts ≠ []) (cA : onChange env stA uri vA A = .ok (stA', pubA)) (cB : onChange env stB uri vB B = .ok (stB', pubB))
    (c : onChange env st uri v (A ++ B) = .ok (st', pub)) :
    ∃ res ixA ixB ix, JoinedIx A B resA resB res ixA ixB ix ∧ res.errors.Perm (resA.errors ++ resB.errors.map (movedErr A.length)) := by
  obtain ⟨_, h, hp⟩ := C88_settled_ascii (above_under hab).1.ascii heA hA hB hr
  obtain ⟨ixA, hixA, _⟩ := publish_inv hA cA
  obtain ⟨ixB, hixB, _⟩ := publish_inv hB cB
  obtain ⟨ix, hix, _⟩ := publish_inv h c
  exact ⟨_, ixA, ixB, ix, ⟨⟨hA, hB, h, rfl, rfl, (above_under hab).1⟩, hixA, hixB, hix⟩, hp⟩

theorem ambiguous_joined (j : Joined A B resA resB res) {name : Str} (h : ¬ Ambiguous (resA.stmts ++ resB.stmts) name) : ¬ Ambiguous res.stmts name := by
  unfold Ambiguous at h ⊢
  rwa [j.isFunction, j.isGlobalVar, ← isFunction_append, ← isGlobalVar_append]

omit [Unicode] in
theorem range_lower (hu : Under A B) {sp : Span} {r : Range} : rangeToLsp (A ++ B) (movedSpan A.length sp) = some r ↔
    ∃ r', rangeToLsp B sp = some r' ∧ r = lowerRange (linesOf A) r' := by
  rw [rangeToLsp_behind hu, Option.map_eq_some_iff]
  constructor <;> rintro ⟨a, b, c⟩ <;> exact ⟨a, b, c.symm⟩

/-- C81 (undefined symbols): put a document below a settled document (free of errors from some line on).  An undefined symbol of one part is reported in the whole exactly
if the other part does not declare or define a global symbol of that name. -/
theorem C81_undefined (hab : Above A n B) (hA : parseFromStr A = .ok resA) (heA : Settled A) (hB : parseFromStr B = .ok resB)
    (hr : resB.errors = [] ∨ resB.stmts ≠ []) (cA : onChange env stA uri vA A = .ok (stA', pubA)) (cB : onChange env stB uri vB B = .ok (stB', pubB))
    (c : onChange env st uri v (A ++ B) = .ok (st', pub)) {name : Str} {d : Diagnostic}
    (hm : d.message = c!"Use of undefined symbol `" ++ name ++ c!"`") :
    d ∈ pub.diagnostics ↔ (d ∈ pubA.diagnostics ∧ ¬ Provides resB name) ∨
      ∃ d' ∈ pubB.diagnostics, d = lowerDiagnostic n d' ∧ ¬ Provides resA name := by
  obtain ⟨res, ixA, ixB, ix, j, _⟩ := published_joined hab hA heA hB hr cA cB c
  have hn := (above_under hab).2
  have hu := (above_under hab).1
  subst hn
  have hsize := hab.size
  rw [List.length_append] at hsize
  by_cases hamb : Ambiguous res.stmts name
  · have hk : Provides resA name ∨ Provides resB name := by
      rcases j.isFunction.mp hamb.1 with hf | hf
      · exact .inl (isFunction_provides hf)
      · exact .inr (isFunction_provides hf)
    constructor
    · intro hd
      obtain ⟨o, h1, rfl, _⟩ := (undefined_published hab.size j.both c hm).mp hd
      exact absurd (isFunction_provides hamb.1) (undefined_unknown j.both j.ix h1)
    · rintro (⟨hd, hno⟩ | ⟨d', hd, rfl, hno⟩)
      · obtain ⟨o, h1, rfl, _⟩ := (undefined_published (by omega) hA cA hm).mp hd
        rcases hk with hk | hk
        · exact absurd hk (undefined_unknown hA j.ixA h1)
        · exact absurd hk hno
      · obtain ⟨o, h1, rfl, _⟩ := (undefined_published (d := d') (by omega) hB cB hm).mp hd
        rcases hk with hk | hk
        · exact absurd hk hno
        · exact absurd hk (undefined_unknown hB j.ixB h1)
  rw [undefined_published hab.size j.both c hm, undefined_published (by omega) hA cA hm]
  constructor
  · rintro ⟨o, h1, rfl, h2, h3⟩
    rcases (j.undefinedUse hamb).mp h1 with ⟨oA, g1, rfl, g2⟩ | ⟨oB, g1, rfl, g2⟩
    · have hin := occurs_inside hA g1.1
      rw [upper_span, rangeToLsp_front hu (by omega) (by omega)] at h3
      exact .inl ⟨⟨oA, g1, upper_name.symm, h2, h3⟩, g2⟩
    · rw [lower_span, range_lower hu] at h3
      obtain ⟨r', h3, h4⟩ := h3
      refine .inr ⟨{ range := r', message := d.message }, (undefined_published (d := { range := r', message := d.message }) (by omega) hB cB hm).mpr ⟨oB, g1, lower_name.symm, rfl, h3⟩, ?_, g2⟩
      obtain ⟨r, m, rel⟩ := d
      simp only at h2 h4
      simp only [lowerDiagnostic, h4, h2, List.map_nil]
  · rintro (⟨⟨o, h1, rfl, h2, h3⟩, hno⟩ | ⟨d', h1, rfl, hno⟩)
    · have hin := occurs_inside hA h1.1
      refine ⟨upper res o, (j.undefinedUse (by rwa [upper_name])).mpr (.inl ⟨o, h1, rfl, by rwa [upper_name]⟩), upper_name, h2, ?_⟩
      rw [upper_span, rangeToLsp_front hu (by omega) (by omega), h3]
    · obtain ⟨o, h1, rfl, h2, h3⟩ := (undefined_published (d := d') (by omega) hB cB hm).mp h1
      refine ⟨lower A resA res o, (j.undefinedUse (by rwa [lower_name])).mpr (.inr ⟨o, h1, rfl, by rwa [lower_name]⟩), lower_name, ?_, ?_⟩
      · simp [lowerDiagnostic, h2]
      · rw [lower_span, range_lower hu]
        exact ⟨_, h3, rfl⟩

/-- C81 (repeated definitions): the repeated definitions of the first part are reported in the whole; those of the second part are
reported in the same way if the first part does not define a global symbol of that name; and otherwise all definitions in the second part
are reported as repetitions of the first definition in the first part. -/
theorem C81_duplicates (hab : Above A n B) (hA : parseFromStr A = .ok resA) (heA : Settled A) (hB : parseFromStr B = .ok resB)
    (hr : resB.errors = [] ∨ resB.stmts ≠ []) (cA : onChange env stA uri vA A = .ok (stA', pubA)) (cB : onChange env stB uri vB B = .ok (stB', pubB))
    (c : onChange env st uri v (A ++ B) = .ok (st', pub)) {name : Str} (hamb : ¬ Ambiguous (resA.stmts ++ resB.stmts) name) {d : Diagnostic}
    (hm : d.message = c!"Symbol `" ++ name ++ c!"` already defined previously") :
    d ∈ pub.diagnostics ↔ d ∈ pubA.diagnostics ∨ (∃ d' ∈ pubB.diagnostics, d = lowerDiagnostic n d' ∧ ¬ Defines resA name) ∨
      ∃ first o r0 r, Occurs resA.tokens resA.stmts first ∧ first.funcBodyId = none ∧ first.name = name ∧ FirstDef resA.tokens resA.stmts first first ∧
        Occurs resB.tokens resB.stmts o ∧ o.funcBodyId = none ∧ o.name = name ∧ o.useDef = .def_ ∧ EditorRange A first.span r0 ∧
        EditorRange B o.span r ∧ d.range = lowerRange n r ∧ d.related = [(⟨uri, r0⟩, c!"Previously defined here")] := by
  obtain ⟨res, ixA, ixB, ix, j, _⟩ := published_joined hab hA heA hB hr cA cB c
  have hn := (above_under hab).2
  have hu := (above_under hab).1
  subst hn
  have hsize := hab.size
  rw [List.length_append] at hsize
  have hamb := ambiguous_joined j.toJoined hamb
  have sy : ∀ {a b : SymbolOccurrence}, SameSymbol a b → SameSymbol b a := fun x => ⟨x.1.symm, x.2.1.symm, x.2.2.symm⟩
  have tr : ∀ {a b c : SymbolOccurrence}, SameSymbol a b → SameSymbol b c → SameSymbol a c :=
    fun x y => ⟨x.1.trans y.1, x.2.1.trans y.2.1, x.2.2.trans y.2.2⟩
  rw [duplicate_published hab.size j.both c hm, duplicate_published (by omega) hA cA hm]
  constructor
  · rintro ⟨o, f, r0, h1, rfl, h2, h3, h4, h5⟩
    rcases (j.occurs hamb).mp h1.1 with ⟨oA, g1, rfl⟩ | ⟨oB, g1, rfl⟩
    · left
      have hd : oA.useDef = .def_ := by have := h1.2.1; rwa [upper_use] at this
      rw [upper_name] at hamb
      obtain ⟨fA, hfA⟩ := firstDef_exists hA j.ixA g1 hd
      have hf := j.firstDef_first g1 hamb hfA
      obtain rfl := firstDef_unique j.both j.ix h3 hf
      have hin := occurs_inside hA g1
      have hin' := occurs_inside hA hfA.1.1
      have hred := (redefinition_iff j.both j.ix h1.1 h1.2.1 hf).mp h1
      rw [upper_span, upper_span] at hred
      rw [upper_span, rangeToLsp_front hu (by omega) (by omega)] at h2 h4
      exact ⟨oA, fA, r0, (redefinition_iff hA j.ixA g1 hd hfA).mpr hred, upper_name.symm, h2, hfA, h4, h5⟩
    · right
      have hd : oB.useDef = .def_ := by have := h1.2.1; rwa [lower_use] at this
      rw [lower_name] at hamb ⊢
      rw [lower_span, range_lower hu] at h2
      obtain ⟨r, h2, h2'⟩ := h2
      by_cases hdef : Defines resA oB.name
      · right
        obtain ⟨oA, k1, k2, k3, k4⟩ := hdef
        obtain ⟨fA, hfA⟩ := firstDef_exists hA j.ixA k1 k4
        have hs := sameGlobal_name hB j.ixB hA j.ixA g1 k1 k3.symm k2
        have hs : SameGlobal oA oB := ⟨hs.2.1, hs.1, hs.2.2.1.symm, hs.2.2.2.symm⟩
        have hf := j.firstDef_cross k1 g1 hs (by rwa [k3]) hfA
        obtain rfl := firstDef_unique j.both j.ix h3 hf
        have hin' := occurs_inside hA hfA.1.1
        rw [upper_span, rangeToLsp_front hu (by omega) (by omega)] at h4
        exact ⟨fA, oB, r0, r, hfA.1.1, by rw [hfA.1.2.1.2.1]; exact k2, by rw [hfA.1.2.1.2.2]; exact k3,
          ⟨⟨hfA.1.1, ⟨rfl, rfl, rfl⟩, hfA.1.2.2⟩, fun o' a b e => hfA.2 o' a (tr b hfA.1.2.1) e⟩, g1, hs.2.1, rfl, hd,
          occurs_range_editor hA (by omega) hfA.1.1 h4 (hab.plain.to _), occurs_range_editor hB (by omega) g1 h2 (hab.plainB.to _), h2', h5⟩
      · left
        obtain ⟨fB, hfB⟩ := firstDef_exists hB j.ixB g1 hd
        have hf := j.firstDef_second g1 hamb hdef hfB
        obtain rfl := firstDef_unique j.both j.ix h3 hf
        have hred := (redefinition_iff j.both j.ix h1.1 h1.2.1 hf).mp h1
        rw [lower_span, range_lower hu] at h4
        obtain ⟨r1, h4, rfl⟩ := h4
        rw [lower_name] at hm
        refine ⟨{ range := r, message := d.message, related := [(⟨uri, r1⟩, c!"Previously defined here")] },
          (duplicate_published (d := { range := r, message := d.message, related := [(⟨uri, r1⟩, c!"Previously defined here")] }) (by omega) hB cB hm).mpr ⟨oB, fB, r1, (redefinition_iff hB j.ixB g1 hd hfB).mpr (fun e => hred (by
            rw [lower_span, lower_span, e])), rfl, h2, hfB, h4, rfl⟩, ?_, hdef⟩
        obtain ⟨dr, m, rel⟩ := d
        simp only at h2' h5
        simp only [lowerDiagnostic, h2', h5, List.map_cons, List.map_nil]
        rfl
  · rintro (⟨o, f, r0, h1, rfl, h2, h3, h4, h5⟩ | ⟨d', hd', rfl, hno⟩ | ⟨f, o, r0, r, h1, h2, rfl, h4, h5, h6, h7, h8, h9, h10, h11, h12⟩)
    · have hf := j.firstDef_first h1.1 hamb h3
      have hin := occurs_inside hA h1.1
      have hin' := occurs_inside hA h3.1.1
      have hocc := (j.occurs (o := upper res o) (by rwa [upper_name])).mpr (.inl ⟨o, h1.1, rfl⟩)
      refine ⟨upper res o, upper res f, r0, (redefinition_iff j.both j.ix hocc (by rw [upper_use]; exact h1.2.1) hf).mpr ?_, upper_name, ?_, hf, ?_, h5⟩
      · rw [upper_span, upper_span]
        exact (redefinition_iff hA j.ixA h1.1 h1.2.1 h3).mp h1
      · rw [upper_span, rangeToLsp_front hu (by omega) (by omega), h2]
      · rw [upper_span, rangeToLsp_front hu (by omega) (by omega), h4]
    · obtain ⟨o, f, r0, h1, rfl, h2, h3, h4, h5⟩ := (duplicate_published (d := d') (by omega) hB cB hm).mp hd'
      have hf := j.firstDef_second h1.1 hamb hno h3
      have hocc := (j.occurs (o := lower A resA res o) (by rwa [lower_name])).mpr (.inr ⟨o, h1.1, rfl⟩)
      refine ⟨lower A resA res o, lower A resA res f, lowerRange (linesOf A) r0,
        (redefinition_iff j.both j.ix hocc (by rw [lower_use]; exact h1.2.1) hf).mpr ?_, lower_name, ?_, hf, ?_, ?_⟩
      · rw [lower_span, lower_span, ne_eq, movedSpan_inj]
        exact (redefinition_iff hB j.ixB h1.1 h1.2.1 h3).mp h1
      · rw [lower_span, range_lower hu]
        exact ⟨_, h2, rfl⟩
      · rw [lower_span, range_lower hu]
        exact ⟨_, h4, rfl⟩
      · simp only [lowerDiagnostic, h5, List.map_cons, List.map_nil]
        rfl
    · have hs := sameGlobal_name hA j.ixA hB j.ixB h1 h5 h7.symm h6
      have hf := j.firstDef_cross h1 h5 hs hamb h4
      have hin' := occurs_inside hA h1
      have hocc := (j.occurs (o := lower A resA res o) (by rw [lower_name, h7]; exact hamb)).mpr (.inr ⟨o, h5, rfl⟩)
      refine ⟨lower A resA res o, upper res f, r0, (redefinition_iff j.both j.ix hocc (by rw [lower_use]; exact h8) hf).mpr ?_,
        by rw [lower_name, h7], ?_, hf, ?_, h12⟩
      · rw [lower_span, upper_span]
        intro e
        rw [e] at hin'
        simp only [movedSpan] at hin'
        omega
      · rw [lower_span, range_lower hu]
        exact ⟨_, rangeToLsp_editor (by omega) (hab.plainB.to _) (hab.plainB.to _) h10, h11⟩
      · rw [upper_span, rangeToLsp_front hu (by omega) (by omega)]
        exact rangeToLsp_editor (by omega) (hab.plain.to _) (hab.plain.to _) h9

/-- The other problems are those of the syntax and of the instructions. -/
theorem others_published (h : parseFromStr text = .ok res) (hc : onChange env st uri v text = .ok (st', pub)) :
    pub.diagnostics.filter otherProblem = diagnosticsFromParser text res.errors ++ diagnosticsFromStatements text res.stmts := by
  obtain ⟨ix, hix, hd⟩ := publish_inv h hc
  rw [hd, List.filter_append]
  have key : ∀ d : Diagnostic, otherProblem d = false → d.message.take 2 = c!"Us" ∨ d.message.take 2 = c!"Sy" := by
    intro d hd
    unfold otherProblem at hd
    simp only [Bool.and_eq_false_iff, Bool.not_eq_false', List.isPrefixOf_iff_prefix] at hd
    rcases hd with hd | hd
    · exact .inl (take_of_prefix hd (k := 2) (by decide))
    · exact .inr (take_of_prefix hd (k := 2) (by decide))
  have e1 : (diagnosticsFromParser text res.errors ++ diagnosticsFromStatements text res.stmts).filter otherProblem =
      diagnosticsFromParser text res.errors ++ diagnosticsFromStatements text res.stmts := by
    rw [List.filter_eq_self]
    intro d hd
    cases ho : otherProblem d with
    | true => rfl
    | false =>
      exfalso
      have htake : d.message.take 2 = c!"ex" ∨ d.message.take 2 = c!"In" ∨ d.message.take 2 = c!"Un" ∨ d.message.take 2 = c!"Fa" := by
        rcases List.mem_append.mp hd with hd | hd
        · rcases parser_take h d hd with h1 | h1 | h1
          · exact .inl h1
          · exact .inr (.inl h1)
          · exact .inr (.inr (.inl h1))
        · exact .inr (.inr (.inr (stmts_take d hd)))
      rcases key d ho with h1 | h1 <;> rw [h1] at htake <;> exact absurd htake (by decide)
  have e2 : (diagnosticsFromIndex env.ord text uri ix).filter otherProblem = [] := by
    rw [List.filter_eq_nil_iff]
    intro d hd
    rw [(diagnosticsFromIndex_perm ..).mem_iff, List.mem_append] at hd
    have hpre : (c!"Use of undefined symbol `" <+: d.message) ∨ c!"Symbol `" <+: d.message := by
      rcases hd with hd | hd
      · obtain ⟨⟨o, d'⟩, h1, rfl⟩ := List.mem_map.mp hd
        obtain ⟨e, _, h2⟩ := List.mem_flatMap.mp h1
        unfold undefOf at h2
        split at h2
        · obtain ⟨sp, _, h3⟩ := List.mem_filterMap.mp h2
          rw [Option.map_eq_some_iff] at h3
          obtain ⟨r, _, h4⟩ := h3
          cases h4
          exact .inl ⟨_, (List.append_assoc _ _ _).symm⟩
        · cases h2
      · obtain ⟨⟨o, d'⟩, h1, rfl⟩ := List.mem_map.mp hd
        obtain ⟨e, _, h2⟩ := List.mem_flatMap.mp h1
        unfold dupOf at h2
        split at h2
        · cases h2
        · obtain ⟨sp, _, h3⟩ := List.mem_filterMap.mp h2
          rw [Option.map_eq_some_iff] at h3
          obtain ⟨d, h4, h5⟩ := h3
          cases h5
          unfold dupDiag at h4
          split at h4
          · cases h4
          · split at h4
            · cases h4
            · cases h4
              exact .inr ⟨_, (List.append_assoc _ _ _).symm⟩
    unfold otherProblem
    rcases hpre with hp | hp
    · simp only [List.isPrefixOf_iff_prefix.mpr hp, Bool.not_true, Bool.false_and, Bool.false_eq_true, not_false_iff]
    · simp only [List.isPrefixOf_iff_prefix.mpr hp, Bool.not_true, Bool.and_false, Bool.false_eq_true, not_false_iff]
  rw [e1, e2, List.append_nil]

/-- C81 (other problems): the other problems of the whole are those of the first part and those of the second part, moved down. -/
theorem C81_others (hab : Above A n B) (hA : parseFromStr A = .ok resA) (heA : Settled A) (hB : parseFromStr B = .ok resB)
    (hr : resB.errors = [] ∨ resB.stmts ≠ []) (cA : onChange env stA uri vA A = .ok (stA', pubA)) (cB : onChange env stB uri vB B = .ok (stB', pubB))
    (c : onChange env st uri v (A ++ B) = .ok (st', pub)) :
    (pub.diagnostics.filter otherProblem).Perm
      (pubA.diagnostics.filter otherProblem ++ (pubB.diagnostics.filter otherProblem).map (lowerDiagnostic n)) := by
  obtain ⟨res, ixA, ixB, ix, j, he⟩ := published_joined hab hA heA hB hr cA cB c
  have hn := (above_under hab).2
  have hu := (above_under hab).1
  subst hn
  have hm := movedDoc_below (docB := { rope := B, semanticTokens := [], stmts := resB.stmts, index := ixB }) hu rfl
  have h1 := hm.parserDiagnostics resB.errors
  have h2 := hm.statementDiagnostics
  simp only [docBelow] at h1 h2
  rw [others_published j.both c, others_published hA cA, others_published hB cB, j.stmts]
  have h3 : diagnosticsFromStatements (A ++ B) resA.stmts = diagnosticsFromStatements A resA.stmts := by
    unfold diagnosticsFromStatements
    refine filterMap_congr' fun i hi => ?_
    rw [allInstructions_eq] at hi
    have hin := (C02_token_spans hA).1 _ (show identTok i.instruction ∈ resA.tokens from
      (((instructions_sublist resA.stmts).trans (mentions_sublist hA)).trans List.filter_sublist).subset (List.mem_map.mpr ⟨i, hi, rfl⟩))
    simp only [Inside, identTok] at hin
    unfold diagnoseInstruction
    rw [rangeToLsp_front hu (by omega) (by omega)]
  have h4 : diagnosticsFromStatements (A ++ B) (resA.stmts ++ resB.stmts.map (movedStmt A.length)) =
      diagnosticsFromStatements (A ++ B) resA.stmts ++ diagnosticsFromStatements (A ++ B) (resB.stmts.map (movedStmt A.length)) := by
    unfold diagnosticsFromStatements
    rw [allInstructions_append, List.filterMap_append]
  have h5 : (diagnosticsFromParser (A ++ B) res.errors).Perm
      (diagnosticsFromParser A resA.errors ++ (diagnosticsFromParser B resB.errors).map (lowerDiagnostic (linesOf A))) := by
    rw [← h1]
    refine (he.filterMap _).trans ?_
    rw [List.filterMap_append]
    refine List.Perm.append_right _ (List.Perm.of_eq (filterMap_congr' fun e he => ?_))
    have := settled_errors heA hA e he
    show (rangeToLsp (A ++ B) e.span).map _ = (rangeToLsp A e.span).map _
    rw [rangeToLsp_front hu (by omega) (by omega)]
  rw [h4, h3, h2, List.map_append]
  refine (h5.append_right _).trans ?_
  simp only [List.append_assoc]
  refine List.Perm.append_left _ ?_
  rw [← List.append_assoc, ← List.append_assoc]
  exact List.perm_append_comm.append_right _

end

/-! ### Examples and refutations -/

section Examples
attribute [local instance] asciiUnicode

/-- The problems of a document. -/
def problemsOf (text : Str) : List (Str × Range × List Range) :=
  match onChange debugEnv {} c!"u" 1 text with
  | .ok (_, pub) => pub.diagnostics.map fun d => (d.message, d.range, d.related.map fun r => r.1.range)
  | .panic => []

/-- The undefined symbols of `joinSecond` are declared and defined in `joinFirst`. -/
example : problemsOf joinFirst = [] ∧
    problemsOf joinSecond = [(c!"Use of undefined symbol `@v`", ⟨⟨2, 24⟩, ⟨2, 26⟩⟩, []), (c!"Use of undefined symbol `@g`", ⟨⟨3, 12⟩, ⟨3, 14⟩⟩, [])] ∧
    problemsOf (joinFirst ++ joinSecond) = [] := by
  refine ⟨?_, ?_, ?_⟩ <;> decide +kernel

/-- The hypotheses of C81 hold for them, with a name that is declared in the first. -/
example : ∃ resA resB, parseFromStr joinFirst = .ok resA ∧ resA.errors = [] ∧ parseFromStr joinSecond = .ok resB ∧ resB.errors = [] ∧
    Provides resA c!"@g" ∧ ¬ Provides resB c!"@g" := by
  obtain ⟨resA, resB, res, hA, eA, hB, eB, _, oA, _⟩ := join_facts
  refine ⟨resA, resB, hA, eA, hB, eB, ⟨joinDecl, oA, rfl, rfl, by decide⟩, ?_⟩
  have hopen : Opened (serverWith [] c!"u" joinSecond) c!"u" joinSecond := serverWith_opened (by decide +kernel)
  obtain ⟨ix, hix, _⟩ : ∃ ix, createIndex joinSecond resB.tokens resB.stmts = .ok ix ∧ True := by
    obtain ⟨doc, _, a, _⟩ := hopen
    obtain ⟨r, h1, _, _, _, _, h2⟩ := analyze_inv a
    rw [hB] at h1
    cases h1
    exact ⟨_, h2, trivial⟩
  have key : ∃ o, UndefinedUse resB.tokens resB.stmts o ∧ o.name = c!"@g" := by
    have hd : (match onChange debugEnv {} c!"u" 1 joinSecond with
      | .ok (_, pub) => pub.diagnostics.contains ⟨⟨⟨3, 12⟩, ⟨3, 14⟩⟩, c!"Use of undefined symbol `@g`", []⟩
      | .panic => false) = true := by decide +kernel
    cases hc : onChange debugEnv {} c!"u" 1 joinSecond with
    | panic => rw [hc] at hd; cases hd
    | ok r =>
      obtain ⟨st', pub⟩ := r
      rw [hc] at hd
      simp only [List.contains_iff_mem] at hd
      obtain ⟨o, h1, h2, _⟩ := (undefined_published (name := c!"@g") (by decide) hB hc rfl).mp hd
      exact ⟨o, h1, h2⟩
  obtain ⟨o, h1, h2⟩ := key
  rw [← h2]
  exact undefined_unknown hB hix h1

/-- A function that is defined in both documents. -/
example : problemsOf lensFirst = [] ∧ problemsOf lensSecond = [] ∧
    problemsOf (lensFirst ++ lensSecond) =
      [(c!"Symbol `@f` already defined previously", ⟨⟨2, 12⟩, ⟨2, 14⟩⟩, [⟨⟨0, 12⟩, ⟨0, 14⟩⟩])] := by
  refine ⟨?_, ?_, ?_⟩ <;> decide +kernel

/-- A name that is a global variable of the first and a function of the second document is not reported. -/
theorem C81_refuted_clash : problemsOf (c!"@f = int32 1\n" ++ lensFirst) = [] ∧
    (∃ resA resB, parseFromStr c!"@f = int32 1\n" = .ok resA ∧ parseFromStr lensFirst = .ok resB ∧ Defines resA c!"@f" ∧ Defines resB c!"@f") := by
  refine ⟨by decide +kernel, ?_⟩
  generalize h1 : parseFromStr c!"@f = int32 1\n" = r1
  generalize h2 : parseFromStr lensFirst = r2
  have k1 : (match parseFromStr c!"@f = int32 1\n" with
    | .ok r => decide ((⟨⟨0, 2⟩, .def_, .globalVar, c!"@f", none⟩ : SymbolOccurrence) ∈ docOccs 0 r.stmts)
    | .panic => false) = true := by decide +kernel
  have k2 : (match parseFromStr lensFirst with
    | .ok r => decide ((⟨⟨12, 14⟩, .def_, .function, c!"@f", none⟩ : SymbolOccurrence) ∈ docOccs 0 r.stmts)
    | .panic => false) = true := by decide +kernel
  rw [h1] at k1
  rw [h2] at k2
  split at k1
  · split at k2
    · exact ⟨_, _, rfl, rfl, ⟨_, .inl (of_decide_eq_true k1), rfl, rfl, rfl⟩, ⟨_, .inl (of_decide_eq_true k2), rfl, rfl, rfl⟩⟩
    · cases k2
  · cases k1

end Examples

end HyperIR
