import Verif.Proofs.Join

/-! Positions in the first of two documents. -/

namespace HyperIR
open Spec

theorem lineToChar_front {A : Str} (h : Lined A) (B : Str) {l s : Nat} (hs : lineToChar? l A = some s) (hlt : s < A.length) :
    lineToChar? l (A ++ B) = some s := by
  induction A generalizing l s with
  | nil => simp at hlt
  | cons c A ih =>
    cases l with
    | zero => rw [← hs]; rfl
    | succ l =>
      simp only [List.cons_append, lineToChar?, isLineBreak_behind h] at hs ⊢
      split at hs <;> rename_i hb
      · rw [if_pos hb]
        cases e : lineToChar? l A with
        | none => rw [e] at hs; cases hs
        | some s' =>
          rw [e] at hs
          simp only [Option.map_some, Option.some.injEq] at hs
          simp only [List.length_cons] at hlt
          rw [ih (lined_tail h).1 e (by omega), Option.map_some, hs]
      · rw [if_neg hb]
        cases e : lineToChar? (l + 1) A with
        | none => rw [e] at hs; cases hs
        | some s' =>
          rw [e] at hs
          simp only [Option.map_some, Option.some.injEq] at hs
          simp only [List.length_cons] at hlt
          rw [ih (lined_tail h).1 e (by omega), Option.map_some, hs]

theorem lspPosToOffset_front {A : Str} (h : Lined A) (B : Str) {p : Pos} {off : Nat} (hs : lspPosToOffset A p = some off) (hlt : off < A.length) :
    lspPosToOffset (A ++ B) p = some off := by
  unfold lspPosToOffset at hs ⊢
  cases e : lineToChar? p.line A with
  | none => rw [e] at hs; cases hs
  | some s =>
    rw [e] at hs
    simp only [Option.map_some, Option.some.injEq] at hs
    rw [lineToChar_front h B e (by omega), Option.map_some, hs]

theorem byteToLine_front {A : Str} (h : Lined A) (B : Str) {b : Nat} (hb : b < A.length) (ha : Ascii A) : byteToLine b (A ++ B) = byteToLine b A := by
  induction A generalizing b with
  | nil => simp at hb
  | cons c A ih =>
    simp only [List.cons_append, byteToLine, isLineBreak_behind h]
    have hc : c.utf8Size = 1 := by
      have := utf8Len_ascii (s := [c]) (fun d hd => ha d (by simp at hd; simp [hd]))
      simpa [utf8Len] using this
    rw [hc]
    by_cases h1 : 1 ≤ b
    · rw [if_pos h1, if_pos h1, ih (lined_tail h).1 (by simp only [List.length_cons] at hb; omega) (fun d hd => ha d (by simp [hd]))]
    · rw [if_neg h1, if_neg h1]

theorem byteToChar_front {A : Str} (B : Str) {b : Nat} (hb : b < A.length) (ha : Ascii A) : byteToChar b (A ++ B) = byteToChar b A := by
  induction A generalizing b with
  | nil => simp at hb
  | cons c A ih =>
    simp only [List.cons_append, byteToChar]
    have hc : c.utf8Size = 1 := by
      have := utf8Len_ascii (s := [c]) (fun d hd => ha d (by simp at hd; simp [hd]))
      simpa [utf8Len] using this
    rw [hc]
    by_cases h1 : 1 ≤ b
    · rw [if_pos h1, if_pos h1, ih (by simp only [List.length_cons] at hb; omega) (fun d hd => ha d (by simp [hd]))]
    · rw [if_neg h1, if_neg h1]

theorem offsetToLspPos_front {A B : Str} (h : Under A B) {b : Nat} (hb : b ≤ A.length) : offsetToLspPos (A ++ B) b = offsetToLspPos A b := by
  have hsz := h.size
  simp only [List.length_append] at hsz
  rcases Nat.lt_or_eq_of_le hb with hlt | rfl
  · have hbA : b ≤ utf8Len A := by rw [utf8Len_ascii h.ascii]; omega
    have hbAB : b ≤ utf8Len (A ++ B) := by rw [utf8Len_app]; omega
    rw [offsetToLspPos_eq hbAB h.size, offsetToLspPos_eq hbA (by omega)]
    have hl : lineStart b (A ++ B) = lineStart b A := by
      have h1 := lineToChar_byteToLine b A
      have h2 := lineToChar_byteToLine b (A ++ B)
      have h3 := lineStart_le b A
      rw [byteToChar_ascii h.ascii (by omega)] at h3
      rw [byteToLine_front h.lined B hlt h.ascii, lineToChar_front h.lined B h1 (by omega)] at h2
      simpa using h2.symm
    rw [hl, byteToLine_front h.lined B hlt h.ascii, byteToChar_front B hlt h.ascii]
  · have h1 := offsetToLspPos_behind h 0
    have h2 := offsetToLspPos_behind (A := A) (B := []) ⟨h.lined, h.ascii, by simp; omega⟩ 0
    rw [Nat.zero_add] at h1 h2
    rw [List.append_nil] at h2
    rw [h1, h2]
    have hz : ∀ s : Str, offsetToLspPos s 0 = some ⟨0, 0⟩ := by
      intro s
      have h0 : ∀ s : Str, byteToLine 0 s = 0 ∧ byteToChar 0 s = 0 := by
        intro s
        cases s with
        | nil => exact ⟨rfl, rfl⟩
        | cons c s =>
          have : ¬ c.utf8Size ≤ 0 := by have := c.utf8Size_pos; omega
          simp [byteToLine, byteToChar, this]
      unfold offsetToLspPos byteToLine? byteToChar?
      rw [if_pos (Nat.zero_le _), if_pos (Nat.zero_le _)]
      simp only [(h0 s).1, (h0 s).2]
      cases s <;> rfl
    rw [hz, hz]

theorem rangeToLsp_front {A B : Str} (h : Under A B) {sp : Span} (h1 : sp.start ≤ A.length) (h2 : sp.stop ≤ A.length) :
    rangeToLsp (A ++ B) sp = rangeToLsp A sp := by
  unfold rangeToLsp
  rw [offsetToLspPos_front h h1, offsetToLspPos_front h h2]

/-! ### Tables -/

section
variable [Unicode] {A B : Str} {resA resB res : ParserResult}

/-- The two documents and the whole, with their indexes. -/
structure JoinedIx (A B : Str) (resA resB res : ParserResult) (ixA ixB ix : HIRIndex) : Prop extends Joined A B resA resB res where
  ixA : createIndex A resA.tokens resA.stmts = .ok ixA
  ixB : createIndex B resB.tokens resB.stmts = .ok ixB
  ix : createIndex (A ++ B) res.tokens res.stmts = .ok ix

variable {ixA ixB ix : HIRIndex}

theorem listed_mem {src : Str} {r : ParserResult} {ix : HIRIndex} (h : parseFromStr src = .ok r) (hix : createIndex src r.tokens r.stmts = .ok ix)
    {o : SymbolOccurrence} {ud : UseDefKind} {sp : Span} : sp ∈ listed ix o.symbolKind o.funcBodyId o.name ud ↔
      ∃ o', Occurs r.tokens r.stmts o' ∧ SameSymbol o' o ∧ o'.useDef = ud ∧ o'.span = sp := by
  constructor
  · intro hm
    exact ⟨⟨sp, ud, o.symbolKind, o.name, o.funcBodyId⟩, (occurs_listed h hix).mp hm, ⟨rfl, rfl, rfl⟩, rfl, rfl⟩
  · rintro ⟨⟨sp', ud', k', n', f'⟩, h1, ⟨h2, h3, h4⟩, h5, h6⟩
    simp only at h2 h3 h4 h5 h6
    subst h2 h3 h4 h5 h6
    exact (occurs_listed h hix).mpr h1

omit [Unicode] in
theorem upper_name {o : SymbolOccurrence} : (upper res o).name = o.name := recolour_name
omit [Unicode] in
theorem upper_span {o : SymbolOccurrence} : (upper res o).span = o.span := recolour_span
omit [Unicode] in
theorem upper_use {o : SymbolOccurrence} : (upper res o).useDef = o.useDef := recolour_use
omit [Unicode] in
theorem lower_name {o : SymbolOccurrence} : (lower A resA res o).name = o.name := by unfold lower; rw [recolour_name]; rfl
omit [Unicode] in
theorem lower_span {o : SymbolOccurrence} : (lower A resA res o).span = movedSpan A.length o.span := by unfold lower; rw [recolour_span]; rfl
omit [Unicode] in
theorem lower_use {o : SymbolOccurrence} : (lower A resA res o).useDef = o.useDef := by unfold lower; rw [recolour_use]; rfl

theorem JoinedIx.cross (j : JoinedIx A B resA resB res ixA ixB ix) {o o' : SymbolOccurrence} (ho : Occurs resA.tokens resA.stmts o)
    (ho' : Occurs resB.tokens resB.stmts o') : SameSymbol (upper res o) (lower A resA res o') ↔ SameGlobal o o' :=
  j.toJoined.same_cross j.ixA j.ixB ho ho'

/-- The places of a symbol of the whole are those of its parts. -/
theorem JoinedIx.listed_parts (j : JoinedIx A B resA resB res ixA ixB ix) {o : SymbolOccurrence} (hamb : ¬ Ambiguous res.stmts o.name) {ud : UseDefKind}
    {first second : List Span}
    (h1 : ∀ sp, sp ∈ first ↔ ∃ oA, Occurs resA.tokens resA.stmts oA ∧ SameSymbol (upper res oA) o ∧ oA.useDef = ud ∧ oA.span = sp)
    (h2 : ∀ sp, sp ∈ second ↔ ∃ oB, Occurs resB.tokens resB.stmts oB ∧ SameSymbol (lower A resA res oB) o ∧ oB.useDef = ud ∧ oB.span = sp)
    (n1 : first.Nodup) (n2 : second.Nodup) :
    (listed ix o.symbolKind o.funcBodyId o.name ud).Perm (first ++ second.map (movedSpan A.length)) := by
  refine (List.perm_ext_iff_of_nodup (listed_nodup j.both j.ix _ _ _ _) ?_).mpr ?_
  · refine List.nodup_append.mpr ⟨n1, List.pairwise_map.mpr (n2.imp fun h e => h (movedSpan_inj.mp e)), ?_⟩
    intro a ha b hb e
    subst e
    obtain ⟨oA, k1, _, _, rfl⟩ := (h1 _).mp ha
    obtain ⟨sp, _, e⟩ := List.mem_map.mp hb
    have := occurs_inside j.first k1
    rw [← e] at this
    simp only [movedSpan] at this
    omega
  · intro sp
    rw [listed_mem j.both j.ix, List.mem_append, List.mem_map, h1]
    constructor
    · rintro ⟨o', k1, k2, rfl, rfl⟩
      have hamb' : ¬ Ambiguous res.stmts o'.name := by rw [k2.2.2]; exact hamb
      rcases (j.occurs hamb').mp k1 with ⟨oA, k3, rfl⟩ | ⟨oB, k3, rfl⟩
      · exact .inl ⟨oA, k3, k2, upper_use.symm, upper_span.symm⟩
      · exact .inr ⟨oB.span, (h2 _).mpr ⟨oB, k3, k2, lower_use.symm, rfl⟩, lower_span.symm⟩
    · rintro (⟨oA, k1, k2, rfl, rfl⟩ | ⟨sp, hsp, rfl⟩)
      · exact ⟨_, (j.occurs (by rw [k2.2.2]; exact hamb)).mpr (.inl ⟨oA, k1, rfl⟩), k2, upper_use, upper_span⟩
      · obtain ⟨oB, k1, k2, rfl, rfl⟩ := (h2 _).mp hsp
        exact ⟨_, (j.occurs (by rw [k2.2.2]; exact hamb)).mpr (.inr ⟨oB, k1, rfl⟩), k2, lower_use, lower_span⟩

/-- The places of a symbol of the first document: those in the first document and those of the symbol of the same name in the second. -/
theorem JoinedIx.listed_first (j : JoinedIx A B resA resB res ixA ixB ix) {o : SymbolOccurrence} (ho : Occurs resA.tokens resA.stmts o)
    (hamb : ¬ Ambiguous res.stmts o.name) (ud : UseDefKind) :
    ((∀ oB, Occurs resB.tokens resB.stmts oB → ¬ SameGlobal o oB) →
      (listed ix (upper res o).symbolKind (upper res o).funcBodyId (upper res o).name ud).Perm (listed ixA o.symbolKind o.funcBodyId o.name ud)) ∧
    ∀ oB, Occurs resB.tokens resB.stmts oB → SameGlobal o oB →
      (listed ix (upper res o).symbolKind (upper res o).funcBodyId (upper res o).name ud).Perm
        (listed ixA o.symbolKind o.funcBodyId o.name ud ++ (listed ixB oB.symbolKind oB.funcBodyId oB.name ud).map (movedSpan A.length)) := by
  have hamb' : ¬ Ambiguous res.stmts (upper res o).name := by rw [upper_name]; exact hamb
  have hfirst : ∀ sp, sp ∈ listed ixA o.symbolKind o.funcBodyId o.name ud ↔
      ∃ oA, Occurs resA.tokens resA.stmts oA ∧ SameSymbol (upper res oA) (upper res o) ∧ oA.useDef = ud ∧ oA.span = sp := by
    intro sp
    rw [listed_mem j.first j.ixA]
    constructor
    · rintro ⟨o', k1, k2, k3⟩
      exact ⟨o', k1, recolour_same k2, k3⟩
    · rintro ⟨o', k1, k2, k3⟩
      have : o'.name = o.name := upper_name.symm.trans (k2.2.2.trans upper_name)
      exact ⟨o', k1, (j.same_first k1 ho (by rw [this]; exact hamb)).mp k2, k3⟩
  constructor
  · intro hno
    have := j.listed_parts hamb' (ud := ud) (second := []) hfirst (by
      intro sp
      simp only [List.not_mem_nil, false_iff]
      rintro ⟨oB, k1, k2, _⟩
      exact hno oB k1 ((j.cross ho k1).mp ⟨k2.1.symm, k2.2.1.symm, k2.2.2.symm⟩)) (listed_nodup j.first j.ixA _ _ _ _) .nil
    simpa using this
  · intro oB hB hg
    refine j.listed_parts hamb' hfirst ?_ (listed_nodup j.first j.ixA _ _ _ _) (listed_nodup j.second j.ixB _ _ _ _)
    intro sp
    rw [listed_mem j.second j.ixB]
    have hx := (j.cross ho hB).mpr hg
    constructor
    · rintro ⟨o', k1, k2, k3⟩
      have := (recolour_same (f := IsFunction res.stmts) (belowOcc_same (k := A.length) (m := funcCount resA.stmts).mpr k2))
      exact ⟨o', k1, ⟨this.1.trans hx.1.symm, this.2.1.trans hx.2.1.symm, this.2.2.trans hx.2.2.symm⟩, k3⟩
    · rintro ⟨o', k1, k2, k3⟩
      have hs : SameSymbol (lower A resA res o') (lower A resA res oB) := ⟨k2.1.trans hx.1, k2.2.1.trans hx.2.1, k2.2.2.trans hx.2.2⟩
      have : o'.name = o.name := lower_name.symm.trans (k2.2.2.trans upper_name)
      exact ⟨o', k1, (j.same_second k1 hB (by rw [this]; exact hamb)).mp hs, k3⟩

/-- The places of a symbol of the second document. -/
theorem JoinedIx.listed_second (j : JoinedIx A B resA resB res ixA ixB ix) {o : SymbolOccurrence} (ho : Occurs resB.tokens resB.stmts o)
    (hamb : ¬ Ambiguous res.stmts o.name) (hno : ∀ oA, Occurs resA.tokens resA.stmts oA → ¬ SameGlobal oA o) (ud : UseDefKind) :
    (listed ix (lower A resA res o).symbolKind (lower A resA res o).funcBodyId (lower A resA res o).name ud).Perm
      ((listed ixB o.symbolKind o.funcBodyId o.name ud).map (movedSpan A.length)) := by
  have hamb' : ¬ Ambiguous res.stmts (lower A resA res o).name := by rw [lower_name]; exact hamb
  have := j.listed_parts hamb' (ud := ud) (first := []) (second := listed ixB o.symbolKind o.funcBodyId o.name ud) (by
      intro sp
      simp only [List.not_mem_nil, false_iff]
      rintro ⟨oA, k1, k2, _⟩
      exact hno oA k1 ((j.cross k1 ho).mp k2)) (by
      intro sp
      rw [listed_mem j.second j.ixB]
      constructor
      · rintro ⟨o', k1, k2, k3⟩
        exact ⟨o', k1, recolour_same (belowOcc_same.mpr k2), k3⟩
      · rintro ⟨o', k1, k2, k3⟩
        have : o'.name = o.name := lower_name.symm.trans (k2.2.2.trans lower_name)
        exact ⟨o', k1, (j.same_second k1 ho (by rw [this]; exact hamb)).mp k2, k3⟩) .nil (listed_nodup j.second j.ixB _ _ _ _)
  simpa using this

end

end HyperIR
