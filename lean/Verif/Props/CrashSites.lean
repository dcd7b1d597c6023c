import Verif.Proofs.CrashSites

/-! C93: exactly which messages end the server. -/

namespace HyperIR
open Spec

section
variable [Unicode] {env : Env} {st st' : ServerState} {uri text : Str} {res : ParserResult}

omit [Unicode] in
theorem map'_panic_iff {α β : Type} {o : Outcome α} {f : α → β} : o.map' f = .panic ↔ o = .panic := by
  cases o <;> simp [Outcome.map']

theorem onChange_panic {u : Str} {v : Int} {t : Str} : onChange env st u v t = .panic ↔ Uncut t := by
  have h : onChange env st u v t = .panic ↔ analyze t = .panic := by
    unfold onChange
    cases analyze t <;> simp
  rw [h]
  refine ⟨analyze_fatal, ?_⟩
  rintro ⟨res, name, f, rest, l, h1, h2, h3, h4⟩
  exact (C01_only_crash h1).mpr ⟨name, f, rest, l, h2, h3, h4⟩

/-- Which lookups end the server. -/
theorem getUseDefRanges_panic_iff (hall : AllOpened st) (hreg : Regular env st) {u : Str} {p : Pos} {ud : UseDefKind} :
    getUseDefRanges env st u p ud = .panic ↔ ud = .def_ ∧ ∃ text res o d, SymbolUnder st u p text res o ∧ o.symbolKind = .function ∧
      ExternalLocation res.stmts o.name d ∧
      (Stuck env.fs st.roots d.filepath ∨ env.build.overflowChecks = true ∧ d.line = 0 ∧ Finds env.fs st.roots d.filepath) := by
  cases hd : st.docs.get? u with
  | none =>
    unfold getUseDefRanges
    rw [hd]
    refine iff_of_false nofun ?_
    rintro ⟨_, text, res, o, d, ⟨⟨⟨doc, _, _, h⟩, _⟩, _⟩, _⟩
    rw [hd] at h
    cases h
  | some doc =>
    obtain ⟨text, res, hk⟩ := known_of hall hd
    have huniq : ∀ {text' res'}, Known st u text' res' → text' = text ∧ res' = res := by
      rintro text' res' hk'
      obtain ⟨d1, e1, e2, _⟩ := opened_inv hk'.1 hk'.2
      obtain ⟨d2, e3, e4, _⟩ := opened_inv hk.1 hk.2
      rw [e1] at e3
      cases e3
      have ht : text' = text := by rw [← e2, e4]
      subst ht
      have := hk'.2.symm.trans hk.2
      cases this
      exact ⟨rfl, rfl⟩
    obtain ⟨doc', hst', hrope, _, hix⟩ := opened_inv hk.1 hk.2
    rw [hd] at hst'
    cases hst'
    have hunder := fun o => symbolAt_under hk hd (p := p) (o := o)
    unfold getUseDefRanges
    rw [hd]
    simp only
    cases hs : symbolAt doc p with
    | none =>
      refine iff_of_false nofun ?_
      rintro ⟨_, text', res', o, d, h1, _⟩
      obtain ⟨rfl, rfl⟩ := huniq h1.1
      rw [(hunder o).mpr h1] at hs
      cases hs
    | some o =>
      have hu := (hunder o).mp hs
      have ho := hu.2.1
      obtain ⟨m, hm, hget, _⟩ := occurs_table hk.2 hix ho
      obtain ⟨ul, hul⟩ := occurs_entry hk.2 hix ho
      simp only [hm, hget, hul]
      by_cases hud : ud = .def_
      · simp only [if_pos hud]
        have hdefs : ∀ d, d ∈ ul.externalDefs ↔ o.symbolKind = .function ∧ ExternalLocation res.stmts o.name d := by
          intro d
          obtain ⟨g, hinv, _, _, hext⟩ := index_inv hk.2 hix
          by_cases hkind : o.symbolKind = .function
          · have hnone : o.funcBodyId = none := by
              cases hb : o.funcBodyId with
              | none => rfl
              | some i =>
                have := ((occurs_scope hk.2 hix ho).1).mpr ⟨i, hb⟩
                rw [hkind] at this
                simp at this
            rw [hkind, hnone] at hul
            have := C22_external_defs hk.2 hix o.name d
            rw [hul] at this
            simp only [Option.getD_some] at this
            simp only [hkind, true_and]
            exact this
          · have := hinv.ext o.symbolKind o.funcBodyId o.name
            rw [hul] at this
            simp only [Option.getD_some] at this
            rw [this, if_neg fun h => hkind h.1]
            simp [hkind]
        have hiff : (ud = .def_ ∧ ∃ text res o d, SymbolUnder st u p text res o ∧ o.symbolKind = .function ∧ ExternalLocation res.stmts o.name d ∧
            (Stuck env.fs st.roots d.filepath ∨ env.build.overflowChecks = true ∧ d.line = 0 ∧ Finds env.fs st.roots d.filepath)) ↔
            externalLocations env st.roots ul.externalDefs = .panic := by
          rw [externalLocations_panic_iff]
          constructor
          · rintro ⟨_, text', res', o', d, h1, h2, h3, h4⟩
            obtain ⟨rfl, rfl⟩ := huniq h1.1
            rw [(hunder o').mpr h1] at hs
            cases hs
            obtain ⟨r1, r2⟩ := resolve_stuck (fs := env.fs) hreg.folders (hreg.locations u _ _ o.name d hk h3)
            refine ⟨d, (hdefs d).mpr ⟨h2, h3⟩, ?_⟩
            rw [r1, r2]
            exact h4
          · rintro ⟨d, h1, h2⟩
            obtain ⟨h3, h4⟩ := (hdefs d).mp h1
            obtain ⟨r1, r2⟩ := resolve_stuck (fs := env.fs) hreg.folders (hreg.locations u _ _ o.name d hk h4)
            rw [r1, r2] at h2
            exact ⟨hud, text, res, o, d, hu, h3, h4, h2⟩
        rw [hiff]
        cases externalLocations env st.roots ul.externalDefs <;> simp
      · simp only [if_neg hud]
        exact iff_of_false nofun fun h => hud h.1

theorem relative_panic_iff (hk : Known st uri text res) {doc : AnalyzedDocument} (hst : st.docs.get? uri = some doc) {o : SymbolOccurrence}
    (ho : Occurs res.tokens res.stmts o) {c : Char} {w : Str} {sign : Int} (hs : sign = 1 ∨ sign = -1) :
    relativeRename env doc o (c :: w) sign = .panic ↔ ∃ i, SignedNumber w i ∧
        (env.build.overflowChecks = true ∧ ¬ Fits64 (sign * i) ∨ WideBeforeNumber o.name ∨
         ∃ (pre : Str) (start : Nat), Numbered o.name pre start ∧ CannotShift env res o.symbolKind o.funcBodyId start (sign * i)) := by
  obtain ⟨doc', hst', _, _, hix⟩ := opened_inv hk.1 hk.2
  rw [hst] at hst'
  cases hst'
  unfold relativeRename
  rw [List.drop_succ_cons, List.drop_zero]
  have hparse : ∀ i, parseI64 w = some i ↔ SignedNumber w i := fun i => parseI64_iff
  cases hn : parseI64 w with
  | none =>
    refine iff_of_false nofun ?_
    rintro ⟨i, h, _⟩
    rw [(hparse i).mpr h] at hn
    cases hn
  | some nr =>
    simp only
    have hiff : (∃ i, SignedNumber w i ∧ (env.build.overflowChecks = true ∧ ¬ Fits64 (sign * i) ∨ WideBeforeNumber o.name ∨
         ∃ (pre : Str) (start : Nat), Numbered o.name pre start ∧ CannotShift env res o.symbolKind o.funcBodyId start (sign * i))) ↔
        (env.build.overflowChecks = true ∧ ¬ Fits64 (sign * nr) ∨ WideBeforeNumber o.name ∨
         ∃ (pre : Str) (start : Nat), Numbered o.name pre start ∧ CannotShift env res o.symbolKind o.funcBodyId start (sign * nr)) := by
      constructor
      · rintro ⟨i, h1, h2⟩
        rw [← hparse, hn] at h1
        cases h1
        exact h2
      · exact fun h => ⟨nr, (hparse nr).mp hn, h⟩
    rw [hiff]
    cases hop : i64Op env.build (sign * nr) with
    | panic => exact iff_of_true rfl (.inl (i64Op_panic hop))
    | ok shift =>
      have hfit : ¬ (env.build.overflowChecks = true ∧ ¬ Fits64 (sign * nr)) := by
        rw [← i64Op_panic_iff, hop]; nofun
      simp only
      cases hx : extractNumberFromIdentifier o.name with
      | panic => exact iff_of_true rfl (.inr (.inl (extract_panic hx)))
      | ok r =>
        have hw : ¬ WideBeforeNumber o.name := by rw [← extract_panic_iff, hx]; nofun
        cases r with
        | none =>
          refine iff_of_false nofun ?_
          rintro (h | h | ⟨pre, start, h, _⟩)
          · exact hfit h
          · exact hw h
          · exact (extract_spec o.name).2.1 hx pre start h
        | some r =>
          obtain ⟨pre, i⟩ := r
          obtain ⟨start, rfl, hnum⟩ := (extract_spec o.name).1 pre i hx
          simp only
          have hshift : CannotShift env res o.symbolKind o.funcBodyId start (sign * nr) ↔ CannotShift env res o.symbolKind o.funcBodyId start shift := by
            unfold CannotShift
            cases hb : env.build.overflowChecks with
            | false => simp
            | true =>
              have hf : Fits64 (sign * nr) := Classical.byContradiction fun h => hfit ⟨hb, h⟩
              have : shift = sign * nr := by
                rw [i64Op_ok hf.1 hf.2] at hop
                cases hop
                rfl
              rw [this]
          have hpan : (env.build.overflowChecks = true ∧ ¬ Fits64 (sign * nr) ∨ WideBeforeNumber o.name ∨
              ∃ (pre : Str) (start : Nat), Numbered o.name pre start ∧ CannotShift env res o.symbolKind o.funcBodyId start (sign * nr)) ↔
              getShiftEdits env.ord env.build doc.rope doc.index o.symbolKind o.funcBodyId start shift = .panic := by
            rw [getShiftEdits_panic_iff hk.2 hix]
            have hlen : (docFuncs res.stmts).length = doc.index.functionBodies.length := by
              rw [← (C20_local_scope hk.2 hix).1, List.length_map]
            obtain ⟨hsc, hf⟩ := occurs_scope hk.2 hix ho
            constructor
            · rintro (h | h | ⟨pre', start', h1, h2⟩)
              · exact absurd h hfit
              · exact absurd h hw
              · obtain ⟨_, rfl⟩ := numbered_unique hnum h1
                exact .inr (.inr (hshift.mp h2))
            · rintro (⟨i, h1, h2⟩ | ⟨h1, h2⟩ | h)
              · have := hf i h1; omega
              · obtain ⟨i, hi⟩ := hsc.mp h2
                rw [h1] at hi
                cases hi
              · exact .inr (.inr ⟨pre, start, hnum, hshift.mpr h⟩)
          rw [hpan]
          cases getShiftEdits env.ord env.build doc.rope doc.index o.symbolKind o.funcBodyId start shift <;> simp

/-- Which renames of a symbol end the server. -/
theorem renameEdits_panic_iff (hk : Known st uri text res) {doc : AnalyzedDocument} (hst : st.docs.get? uri = some doc) {o : SymbolOccurrence}
    (ho : Occurs res.tokens res.stmts o) {req : Str} : renameEdits env doc o req = .panic ↔
      (req = [] ∨ Sigil o.symbolKind req ∨
       ∃ w i k, (req = '+' :: w ∧ k = i ∨ req = '-' :: w ∧ k = -i) ∧ SignedNumber w i ∧
        (env.build.overflowChecks = true ∧ ¬ Fits64 k ∨ WideBeforeNumber o.name ∨
         ∃ (pre : Str) (start : Nat), Numbered o.name pre start ∧ CannotShift env res o.symbolKind o.funcBodyId start k)) := by
  obtain ⟨doc', hst', _, _, hix⟩ := opened_inv hk.1 hk.2
  rw [hst] at hst'
  cases hst'
  have hsig : ∀ c w, (c = '+' ∨ c = '-') → ¬ (c :: w = [] ∨ Sigil o.symbolKind (c :: w)) := by
    rintro c w hc (h | h)
    · cases h
    · rw [sigil_iff] at h
      generalize o.symbolKind = k at h
      rcases hc with rfl | rfl <;> cases k <;> simp [sigilOf] at h
  unfold renameEdits
  split
  · rename_i w
    rw [relative_panic_iff hk hst ho (.inl rfl)]
    constructor
    · rintro ⟨i, h1, h2⟩
      rw [Int.one_mul] at h2
      exact .inr (.inr ⟨w, i, i, .inl ⟨rfl, rfl⟩, h1, h2⟩)
    · rintro (h | h | ⟨w', i, k, h1, h2, h3⟩)
      · exact absurd (.inl h) (hsig _ _ (.inl rfl))
      · exact absurd (.inr h) (hsig _ _ (.inl rfl))
      · rcases h1 with ⟨h1, rfl⟩ | ⟨h1, _⟩
        · cases h1
          refine ⟨k, h2, ?_⟩
          rw [Int.one_mul]
          exact h3
        · cases h1
  · rename_i w
    rw [relative_panic_iff hk hst ho (.inr rfl)]
    constructor
    · rintro ⟨i, h1, h2⟩
      rw [Int.neg_mul, Int.one_mul] at h2
      exact .inr (.inr ⟨w, i, -i, .inr ⟨rfl, rfl⟩, h1, h2⟩)
    · rintro (h | h | ⟨w', i, k, h1, h2, h3⟩)
      · exact absurd (.inl h) (hsig _ _ (.inr rfl))
      · exact absurd (.inr h) (hsig _ _ (.inr rfl))
      · rcases h1 with ⟨h1, _⟩ | ⟨h1, rfl⟩
        · cases h1
        · cases h1
          refine ⟨i, h2, ?_⟩
          rw [Int.neg_mul, Int.one_mul]
          exact h3
  · rename_i hp hm
    obtain ⟨u, _, he⟩ := absoluteRename_eq hk.2 hix ho req
    rw [he]
    have hchk := (checkNewName_spec o.symbolKind req).2
    have hiff : (req = [] ∨ Sigil o.symbolKind req ∨
       ∃ w i k, (req = '+' :: w ∧ k = i ∨ req = '-' :: w ∧ k = -i) ∧ SignedNumber w i ∧
        (env.build.overflowChecks = true ∧ ¬ Fits64 k ∨ WideBeforeNumber o.name ∨
         ∃ (pre : Str) (start : Nat), Numbered o.name pre start ∧ CannotShift env res o.symbolKind o.funcBodyId start k)) ↔
        req = [] ∨ req = sigilOf o.symbolKind := by
      rw [sigil_iff]
      constructor
      · rintro (h | h | ⟨w, i, k, ⟨h, _⟩ | ⟨h, _⟩, _⟩)
        · exact .inl h
        · exact .inr h
        · exact absurd h (hp w)
        · exact absurd h (hm w)
      · rintro (h | h)
        · exact .inl h
        · exact .inr (.inl h)
    rw [hiff, ← hchk]
    cases checkNewName o.symbolKind req with
    | panic => simp
    | ok r => cases r <;> simp

/-- C93: a message ends the server exactly if it is one of the listed ones (`Crashes`) in the state it arrives in. -/
theorem C93_exact (hall : AllOpened st) (hreg : Regular env st) (m : Msg) : step env st m = .panic ↔ Crashes env st m := by
  have huniq : ∀ {u text res text' res'}, Known st u text res → Known st u text' res' → text' = text ∧ res' = res := by
    rintro u text res text' res' hk hk'
    obtain ⟨d1, e1, e2, _⟩ := opened_inv hk'.1 hk'.2
    obtain ⟨d2, e3, e4, _⟩ := opened_inv hk.1 hk.2
    rw [e1] at e3
    cases e3
    have ht : text' = text := by rw [← e2, e4]
    subst ht
    have := hk'.2.symm.trans hk.2
    cases this
    exact ⟨rfl, rfl⟩
  have hunk : ∀ {u text res}, st.docs.get? u = none → ¬ Known st u text res := by
    rintro u text res hd ⟨⟨doc, _, _, h⟩, _⟩
    rw [hd] at h
    cases h
  have usedef : ∀ {u p ud}, ud ≠ .def_ → getUseDefRanges env st u p ud ≠ .panic := by
    intro u p ud hud h
    exact hud ((getUseDefRanges_panic_iff hall hreg).mp h).1
  cases m with
  | «initialize» p => exact iff_of_false nofun nofun
  | didOpen u v t =>
    simp only [step, map'_panic_iff, didOpen, Crashes]
    exact onChange_panic
  | didChange u v cs =>
    simp only [step, map'_panic_iff, didChange, Crashes]
    cases cs with
    | nil => exact iff_of_true rfl (.inl rfl)
    | cons c cs =>
      simp only [onChange_panic]
      constructor
      · exact fun h => .inr ⟨c, cs, rfl, h⟩
      · rintro (h | ⟨c', cs', h, h'⟩)
        · cases h
        · cases h; exact h'
  | gotoDefinition u p =>
    simp only [step, map'_panic_iff, Crashes]
    have h := getUseDefRanges_panic_iff hall hreg (u := u) (p := p) (ud := .def_)
    simp only [true_and] at h
    rw [← h]
    unfold gotoDefinition
    cases getUseDefRanges env st u p .def_ <;> simp
  | gotoDeclaration u p =>
    refine iff_of_false ?_ nofun
    simp only [step, map'_panic_iff, gotoDeclaration]
    have := usedef (u := u) (p := p) (ud := .decl) (by simp)
    cases h : getUseDefRanges env st u p .decl with
    | panic => exact absurd h this
    | ok r => nofun
  | references u p =>
    refine iff_of_false ?_ nofun
    simp only [step, map'_panic_iff, references]
    have := usedef (u := u) (p := p) (ud := .use) (by simp)
    cases h : getUseDefRanges env st u p .use with
    | panic => exact absurd h this
    | ok r => nofun
  | semanticTokensFull u =>
    refine iff_of_false ?_ nofun
    simp only [step, map'_panic_iff]
    cases hd : st.docs.get? u with
    | none => unfold semanticTokensFull; rw [hd]; nofun
    | some doc =>
      obtain ⟨text, ht⟩ := hall u doc hd
      obtain ⟨ls, h1, _⟩ := C24_no_underflow ht (hreg.size u text ht)
      rw [h1 env]
      nofun
  | documentSymbol u => exact iff_of_false nofun nofun
  | prepareRename u p => exact iff_of_false nofun nofun
  | rename u p req =>
    simp only [step, map'_panic_iff, Crashes]
    unfold rename
    cases hd : st.docs.get? u with
    | none =>
      refine iff_of_false nofun ?_
      rintro ⟨text, res, o, h, _⟩
      exact hunk hd h.1
    | some doc =>
      obtain ⟨text, res, hk⟩ := known_of hall hd
      have hunder := fun o => symbolAt_under hk hd (p := p) (o := o)
      simp only
      cases hs : symbolAt doc p with
      | none =>
        refine iff_of_false nofun ?_
        rintro ⟨text', res', o, h1, _⟩
        obtain ⟨rfl, rfl⟩ := huniq hk h1.1
        rw [(hunder o).mpr h1] at hs
        cases hs
      | some o =>
        have hu := (hunder o).mp hs
        simp only
        have hiff := renameEdits_panic_iff (env := env) hk hd hu.2.1 (req := req)
        have hiff' : (∃ text res o, SymbolUnder st u p text res o ∧
            (req = [] ∨ Sigil o.symbolKind req ∨
             ∃ w i k, (req = '+' :: w ∧ k = i ∨ req = '-' :: w ∧ k = -i) ∧ SignedNumber w i ∧
              (env.build.overflowChecks = true ∧ ¬ Fits64 k ∨ WideBeforeNumber o.name ∨
               ∃ (pre : Str) (start : Nat), Numbered o.name pre start ∧ CannotShift env res o.symbolKind o.funcBodyId start k))) ↔
            renameEdits env doc o req = .panic := by
          rw [hiff]
          constructor
          · rintro ⟨text', res', o', h1, h2⟩
            obtain ⟨rfl, rfl⟩ := huniq hk h1.1
            rw [(hunder o').mpr h1] at hs
            cases hs
            exact h2
          · exact fun h => ⟨text, res, o, hu, h⟩
        rw [hiff']
        cases renameEdits env doc o req with
        | panic => simp
        | ok r => cases r <;> simp
  | codeAction u r =>
    simp only [step, map'_panic_iff, Crashes]
    unfold codeAction
    cases hd : st.docs.get? u with
    | none =>
      refine iff_of_false nofun ?_
      rintro ⟨_, text, res, o, h, _⟩
      exact hunk hd h.1
    | some doc =>
      obtain ⟨text, res, hk⟩ := known_of hall hd
      obtain ⟨doc', hst', _, _, hix⟩ := opened_inv hk.1 hk.2
      rw [hd] at hst'
      cases hst'
      have hunder := fun o => symbolAt_under hk hd (p := r.start) (o := o)
      simp only
      by_cases hr : r.start = r.stop
      · rw [if_neg (by simpa using hr)]
        unfold offeredActions
        cases hs : symbolAt doc r.start with
        | none =>
          refine iff_of_false ?_ ?_
          · simp only [resolveAll]
            split <;> nofun
          · rintro ⟨_, text', res', o, h1, _⟩
            obtain ⟨rfl, rfl⟩ := huniq hk h1.1
            rw [(hunder o).mpr h1] at hs
            cases hs
        | some o =>
          have hu := (hunder o).mp hs
          have ho := hu.2.1
          have hiff : (r.start = r.stop ∧ ∃ text res o, SymbolUnder st u r.start text res o ∧ (WideBeforeNumber o.name ∨ st.lazyResolve = false ∧
              ∃ (pre : Str) (start : Nat), Numbered o.name pre start ∧ CannotShift env res o.symbolKind o.funcBodyId start 1)) ↔
              (WideBeforeNumber o.name ∨ st.lazyResolve = false ∧
              ∃ (pre : Str) (start : Nat), Numbered o.name pre start ∧ CannotShift env res o.symbolKind o.funcBodyId start 1) := by
            constructor
            · rintro ⟨_, text', res', o', h1, h2⟩
              obtain ⟨rfl, rfl⟩ := huniq hk h1.1
              rw [(hunder o').mpr h1] at hs
              cases hs
              exact h2
            · exact fun h => ⟨hr, text, res, o, hu, h⟩
          rw [hiff]
          simp only
          cases hx : extractNumberFromIdentifier o.name with
          | panic => exact iff_of_true rfl (.inl (extract_panic hx))
          | ok x =>
            have hw : ¬ WideBeforeNumber o.name := by rw [← extract_panic_iff, hx]; nofun
            cases x with
            | none =>
              refine iff_of_false ?_ ?_
              · simp only [resolveAll]
                split <;> nofun
              · rintro (h | ⟨_, pre, start, h, _⟩)
                · exact hw h
                · exact (extract_spec o.name).2.1 hx pre start h
            | some x =>
              obtain ⟨pre, i⟩ := x
              obtain ⟨start, rfl, hnum⟩ := (extract_spec o.name).1 pre i hx
              simp only
              cases hlazy : st.lazyResolve with
              | true =>
                refine iff_of_false (by simp) ?_
                rintro (h | ⟨h, _⟩)
                · exact hw h
                · cases h
              | false =>
                have hpan : (WideBeforeNumber o.name ∨ false = false ∧
                    ∃ (pre : Str) (start : Nat), Numbered o.name pre start ∧ CannotShift env res o.symbolKind o.funcBodyId start 1) ↔
                    getShiftEdits env.ord env.build doc.rope doc.index o.symbolKind o.funcBodyId start 1 = .panic := by
                  rw [getShiftEdits_panic_iff hk.2 hix]
                  have hlen : (docFuncs res.stmts).length = doc.index.functionBodies.length := by
                    rw [← (C20_local_scope hk.2 hix).1, List.length_map]
                  obtain ⟨hsc, hf⟩ := occurs_scope hk.2 hix ho
                  constructor
                  · rintro (h | ⟨_, pre', start', h1, h2⟩)
                    · exact absurd h hw
                    · obtain ⟨_, rfl⟩ := numbered_unique hnum h1
                      exact .inr (.inr h2)
                  · rintro (⟨i, h1, h2⟩ | ⟨h1, h2⟩ | h)
                    · have := hf i h1; omega
                    · obtain ⟨i, hi⟩ := hsc.mp h2
                      rw [h1] at hi
                      cases hi
                    · exact .inr ⟨rfl, pre, start, hnum, h⟩
                rw [hpan]
                simp only [Bool.false_eq_true, if_false, resolveAll, codeActionResolve, hd]
                cases getShiftEdits env.ord env.build doc.rope doc.index o.symbolKind o.funcBodyId start 1 <;> simp
      · rw [if_pos (by simpa using hr)]
        exact iff_of_false nofun fun h => hr h.1
  | codeActionResolve a =>
    simp only [step, map'_panic_iff, Crashes]
    unfold codeActionResolve
    cases hdat : a.data with
    | missing => exact iff_of_false nofun fun ⟨d, _, _, h, _⟩ => nomatch h
    | invalid => exact iff_of_false nofun fun ⟨d, _, _, h, _⟩ => nomatch h
    | shift d =>
      simp only
      cases hd : st.docs.get? d.uri with
      | none =>
        refine iff_of_false nofun ?_
        rintro ⟨d', text, res, h1, h2, _⟩
        cases h1
        exact hunk hd h2
      | some doc =>
        obtain ⟨text, res, hk⟩ := known_of hall hd
        obtain ⟨doc', hst', _, _, hix⟩ := opened_inv hk.1 hk.2
        rw [hd] at hst'
        cases hst'
        simp only
        have hiff : (∃ d' text res, ActionData.shift d = .shift d' ∧ Known st d'.uri text res ∧
            ((∃ i, d'.funcBodyId = some i ∧ (docFuncs res.stmts).length ≤ i) ∨
             (d'.funcBodyId = none ∧ (d'.symbolKind = .label ∨ d'.symbolKind = .localVar)) ∨
             CannotShift env res d'.symbolKind d'.funcBodyId d'.renamedNr 1)) ↔
            getShiftEdits env.ord env.build doc.rope doc.index d.symbolKind d.funcBodyId d.renamedNr 1 = .panic := by
          rw [getShiftEdits_panic_iff hk.2 hix]
          constructor
          · rintro ⟨d', text', res', h1, h2, h3⟩
            cases h1
            obtain ⟨rfl, rfl⟩ := huniq hk h2
            exact h3
          · exact fun h => ⟨d, text, res, rfl, hk, h⟩
        rw [hiff]
        cases getShiftEdits env.ord env.build doc.rope doc.index d.symbolKind d.funcBodyId d.renamedNr 1 <;> simp
  | foldingRange u => exact iff_of_false nofun nofun
  | inlayHint u =>
    simp only [step, map'_panic_iff, Crashes]
    unfold inlayHint
    cases hd : st.docs.get? u with
    | none =>
      refine iff_of_false nofun ?_
      rintro ⟨text, res, h, _⟩
      exact hunk hd h
    | some doc =>
      obtain ⟨text, res, hk⟩ := known_of hall hd
      obtain ⟨doc', hst', _, hstmts, hix⟩ := opened_inv hk.1 hk.2
      rw [hd] at hst'
      cases hst'
      have hiff : (∃ text res, Known st u text res ∧ ∃ i ∈ instructions res.stmts, HintFails env st.roots text res.stmts i) ↔
          backtraceHints env st.roots doc = .panic := by
        unfold backtraceHints
        rw [hstmts, allInstructions_eq, collectO_panic_iff]
        constructor
        · rintro ⟨text', res', h1, i, h2, h3⟩
          obtain ⟨rfl, rfl⟩ := huniq hk h1
          exact ⟨i, h2, (backtraceHint_panic hreg hk hd h2).mpr h3⟩
        · rintro ⟨i, h2, h3⟩
          exact ⟨text, res, hk, i, h2, (backtraceHint_panic hreg hk hd h2).mp h3⟩
      rw [hiff]
      simp only
      cases backtraceHints env st.roots doc <;> simp
  | codeLens u => exact iff_of_false nofun nofun
  | executeCommand c as => exact iff_of_false nofun nofun
  | shutdown => exact iff_of_false nofun nofun

/-- C93: a session ends with a panic exactly if one of its messages is one of the listed ones in the state it arrives in. -/
theorem C93_sessions {ms : List Step}
    (hreg : ∀ before env m after st rs, ms = before ++ (env, m) :: after → run {} before = .ok (st, rs) → Regular env st) :
    run {} ms = .panic ↔
      ∃ before env m after st rs, ms = before ++ (env, m) :: after ∧ run {} before = .ok (st, rs) ∧ Crashes env st m := by
  have hall : ∀ {before : List Step} {st rs}, run {} before = .ok (st, rs) → AllOpened st :=
    fun h => run_allOpened (fun u doc hd => by cases hd) h
  constructor
  · intro h
    obtain ⟨before, env, m, after, st, rs, h1, h2, h3⟩ := run_panic h
    exact ⟨before, env, m, after, st, rs, h1, h2, (C93_exact (hall h2) (hreg _ _ _ _ _ _ h1 h2) m).mp h3⟩
  · rintro ⟨before, env, m, after, st, rs, h1, h2, h3⟩
    have hs := (C93_exact (hall h2) (hreg _ _ _ _ _ _ h1 h2) m).mpr h3
    rw [h1]
    clear hreg h1 h3
    have key : ∀ (before : List Step) (s0 : ServerState) rs, run s0 before = .ok (st, rs) → run s0 (before ++ (env, m) :: after) = .panic := by
      intro before
      induction before with
      | nil =>
        intro s0 rs h
        cases h
        rw [List.nil_append]
        unfold run
        rw [hs]
      | cons e before ih =>
        intro s0 rs h
        obtain ⟨env', m'⟩ := e
        obtain ⟨s, r, rs', h4, h5, _⟩ := run_cons_inv h
        rw [List.cons_append]
        unfold run
        rw [h4]
        simp only
        rw [ih s rs' h5]
    exact key before {} rs h2

end

section Examples
attribute [local instance] asciiUnicode

/-- No string in an annotation contains tabs or line ends. -/
def calm (ss : List Statement) : Bool :=
  ss.all fun s => match s with
    | .dbgAnnotation _ [(.str v, _)] => v.all fun c => c != '\t' && c != '\n' && c != '\r'
    | _ => true

/-- A server with a calm document is regular. -/
theorem regular_of_calm {env : Env} {roots : List Url} {uri text : Str} (hlen : text.length < 2 ^ 32)
    (h : (match analyze text, parseFromStr text with | .ok _, .ok res => calm res.stmts | _, _ => false) = true)
    (hf : ∀ r ∈ roots, Opaque r ∨ Folder r)
    (hl : ∀ v j entries e l file n, env.json v = some j → HasBacktrace j entries → e ∈ entries → IsLink e l → FileLine l file n → NoTabs file) :
    AllOpened (serverWith roots uri text) ∧ Regular env (serverWith roots uri text) := by
  cases ha : analyze text with
  | panic => rw [ha] at h; simp at h
  | ok d =>
  cases hp : parseFromStr text with
  | panic => rw [ha, hp] at h; cases h
  | ok res =>
  rw [ha, hp] at h
  simp only at h
  have hop : Opened (serverWith roots uri text) uri text := serverWith_opened (by rw [ha])
  have hdocs : (serverWith roots uri text).docs = [(uri, d.1)] ∧ (serverWith roots uri text).roots = roots := by
    unfold serverWith
    rw [ha]
    exact ⟨rfl, rfl⟩
  have huri : ∀ {u doc}, (serverWith roots uri text).docs.get? u = some doc → u = uri := by
    intro u doc hd
    rw [hdocs.1] at hd
    by_cases hu : u = uri
    · exact hu
    · exfalso
      have hu' : uri ≠ u := fun e => hu e.symm
      simp [StrMap.get?, hu, hu'] at hd
  have htext : ∀ {u text'}, Opened (serverWith roots uri text) u text' → u = uri ∧ text' = text := by
    intro u text' ho
    obtain ⟨doc, _, _, hd⟩ := id ho
    have := huri hd
    subst this
    obtain ⟨res', hp'⟩ := parseFromStr_total text'
    obtain ⟨d1, e1, e2, _⟩ := opened_inv ho hp'
    obtain ⟨d2, e3, e4, _⟩ := opened_inv hop hp
    rw [e1] at e3
    cases e3
    exact ⟨rfl, by rw [← e2, e4]⟩
  have hknown : ∀ {u text' res'}, Known (serverWith roots uri text) u text' res' → res' = res := by
    rintro u text' res' ⟨ho, hp'⟩
    obtain ⟨_, rfl⟩ := htext ho
    rw [hp] at hp'
    cases hp'
    rfl
  unfold calm at h
  have h2 := List.all_eq_true.mp h
  refine ⟨fun u doc hd => ⟨text, by rw [huri hd]; exact hop⟩, fun u t ho => by rw [(htext ho).2]; exact hlen, ?_, ?_, hl⟩
  · rw [hdocs.2]
    exact hf
  · rintro u t res' n d' hk ⟨before, name, def_, after, e, ⟨sp, line, rfl, _⟩, _⟩
    rw [hknown hk] at e
    have := h2 (.dbgAnnotation name [(.str (d'.filepath ++ ':' :: line), sp)]) (by rw [e]; simp)
    simp only [List.all_append, Bool.and_eq_true, List.all_eq_true] at this
    intro c hc
    have := this.1 c hc
    simp at this
    exact ⟨this.1.1, this.1.2, this.2⟩

/-- Line 0 of another file, and a label with the largest number. -/
def crashText : Str :=
  c!"declare void @f() !d\n!d = \"src/a.cpp:0\"\ndefine void @g() {\nx9223372036854775807:\n br y7\ny7:\n ret !2\n}\n"

/-- A state of a server with the document. -/
def crashState (roots : List Url) : ServerState := serverWith roots c!"u" crashText

def releaseEnv : Env := { debugEnv with build := { overflowChecks := false } }

def mailRoot : Url := ⟨c!"mailto:x", [], true⟩

def isPanic {α : Type} : Outcome α → Bool
  | .panic => true
  | .ok _ => false

theorem isPanic_iff {α : Type} {o : Outcome α} : isPanic o = true ↔ o = .panic := by cases o <;> simp [isPanic]

theorem crashState_regular {env : Env} {roots : List Url} (hr : ∀ r ∈ roots, Opaque r ∨ Folder r) (he : ∀ v, env.json v = none) :
    AllOpened (crashState roots) ∧ Regular env (crashState roots) :=
  regular_of_calm (by decide +kernel) (by decide +kernel) hr (fun v j _ _ _ _ _ h => by rw [he v] at h; cases h)

theorem roots_regular : ∀ r ∈ [workspace, mailRoot], Opaque r ∨ Folder r := by
  intro r hr
  simp at hr
  rcases hr with rfl | rfl
  · exact .inr ⟨rfl, by decide⟩
  · exact .inl rfl

/-- The messages that `Crashes` lists for the state, in a debug build. -/
theorem crashState_debug (m : Msg) (h : isPanic (step debugEnv (crashState [workspace, mailRoot]) m) = true) :
    Crashes debugEnv (crashState [workspace, mailRoot]) m :=
  (C93_exact (crashState_regular (env := debugEnv) roots_regular (fun _ => rfl)).1 (crashState_regular roots_regular (fun _ => rfl)).2 m).mp (isPanic_iff.mp h)

theorem crashState_calm {env : Env} {roots : List Url} (hr : ∀ r ∈ roots, Opaque r ∨ Folder r) (he : ∀ v, env.json v = none) (m : Msg)
    (h : isPanic (step env (crashState roots) m) = false) : ¬ Crashes env (crashState roots) m := by
  intro hc
  rw [isPanic_iff.mpr ((C93_exact (crashState_regular hr he).1 (crashState_regular hr he).2 m).mpr hc)] at h
  cases h

/-- Going to `@f` (line 0) ends a debug build, but not a release build; shifting the largest number likewise; from `y7` on all labels
are shifted, also `x9223372036854775807`. -/
example : Crashes debugEnv (crashState [workspace, mailRoot]) (.gotoDefinition c!"u" ⟨0, 14⟩) ∧
    ¬ Crashes releaseEnv (crashState [workspace, mailRoot]) (.gotoDefinition c!"u" ⟨0, 14⟩) ∧
    Crashes debugEnv (crashState [workspace, mailRoot]) (.rename c!"u" ⟨4, 4⟩ c!"+1") ∧
    ¬ Crashes debugEnv (crashState [workspace, mailRoot]) (.rename c!"u" ⟨4, 4⟩ c!"-1") ∧
    ¬ Crashes releaseEnv (crashState [workspace, mailRoot]) (.rename c!"u" ⟨4, 4⟩ c!"+1") ∧
    Crashes debugEnv (crashState [workspace, mailRoot]) (.rename c!"u" ⟨4, 4⟩ []) ∧
    Crashes debugEnv (crashState [workspace, mailRoot]) (.rename c!"u" ⟨0, 14⟩ c!"@") ∧
    ¬ Crashes debugEnv (crashState [workspace, mailRoot]) (.rename c!"u" ⟨4, 4⟩ c!"@") := by
  refine ⟨crashState_debug _ (by decide +kernel), crashState_calm roots_regular (fun _ => rfl) _ (by decide +kernel),
    crashState_debug _ (by decide +kernel), crashState_calm roots_regular (fun _ => rfl) _ (by decide +kernel),
    crashState_calm roots_regular (fun _ => rfl) _ (by decide +kernel),
    crashState_debug _ (by decide +kernel), crashState_debug _ (by decide +kernel),
    crashState_calm roots_regular (fun _ => rfl) _ (by decide +kernel)⟩

/-- A folder `mailto:x` matters only if the file is in no folder before it. -/
example : Stuck debugEnv.fs [mailRoot, workspace] c!"src/a.cpp" ∧ ¬ Stuck debugEnv.fs [workspace, mailRoot] c!"src/a.cpp" := by
  refine ⟨⟨[], mailRoot, [workspace], rfl, rfl, nofun⟩, ?_⟩
  rintro ⟨before, root, after, h1, h2, h3⟩
  rcases before with _ | ⟨b, before⟩
  · cases h1
    cases h2
  · obtain ⟨rfl, _⟩ := List.cons.inj h1
    have := (h3 workspace (by simp)).2 { workspace with segments := appendPath workspace.segments [c!"src", c!"a.cpp"] }
      ⟨_, .more (s := c!"src") (rest := c!"a.cpp") (by decide) (.last (by decide)), rfl⟩
    cases this

/-- `Crashes` shown without running the server: the empty name for the function. -/
example : Crashes releaseEnv (crashState []) (.rename c!"u" ⟨0, 14⟩ []) := by
  have hk : Opened (crashState []) c!"u" crashText := serverWith_opened (by decide +kernel)
  obtain ⟨res, hres⟩ := parseFromStr_total crashText
  refine ⟨crashText, res, ({ span := ⟨13, 15⟩, useDef := .decl, symbolKind := .function, name := c!"@f", funcBodyId := none } : SymbolOccurrence), ⟨⟨hk, hres⟩, ?_, (by rintro ⟨a, _⟩; cases a), 0, .first, by constructor <;> decide⟩, .inl rfl⟩
  have : (match parseFromStr crashText with
    | .ok res => decide (({ span := ⟨13, 15⟩, useDef := .decl, symbolKind := .function, name := c!"@f", funcBodyId := none } : SymbolOccurrence) ∈ allOccs res.tokens res.stmts)
    | .panic => false) = true := by decide +kernel
  rw [hres] at this
  exact occurs_iff.mpr (of_decide_eq_true this)

/-- Lines as the server counts them: the vertical tab ends a line, CRLF ends one line. -/
example : LineBegins c!"a\r\nb\x0bc" 2 5 :=
  .next (line := c!"a") (eol := c!"\r\n") (rest := c!"b\x0bc") (by simp [BreakChar]) (.inl rfl) (by simp)
    (.next (line := c!"b") (eol := c!"\x0b") (rest := c!"c") (by simp [BreakChar]) (.inr ⟨_, rfl, .inr (.inl rfl)⟩) (by simp) .first)

end Examples
end HyperIR
