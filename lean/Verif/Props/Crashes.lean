import Verif.Spec.Crashes
import Verif.Props.Hints
import Verif.Props.Shift
import Verif.Props.History
import Verif.Props.SemanticToken
import Verif.Props.Analysis

/-! C65: what can end the server. -/

namespace HyperIR
open Spec

section
variable [Unicode] {env : Env} {st st' : ServerState} {uri text : Str} {res : ParserResult}

omit [Unicode] in
theorem i64Op_panic {b : Build} {x : Int} (h : i64Op b x = .panic) : b.overflowChecks = true ∧ ¬ Fits64 x := by
  refine ⟨?_, fun hf => ?_⟩
  · unfold i64Op at h
    split at h
    · cases h
    · split at h
      · assumption
      · cases h
  · rw [i64Op_ok hf.1 hf.2] at h
    cases h

omit [Unicode] in
theorem sliceBytes_contains {s v : Str} {i j : Nat} (h : sliceBytes s i j = .ok v) : Contains v s := by
  obtain ⟨a, c, hs, _⟩ := sliceBytes_iff.mp h
  exact ⟨a, c, hs⟩

omit [Unicode] in
theorem lastText_contains {src name v : Str} {ss : List Statement} (h : lastText src name ss = some v) : Contains v src := by
  induction ss with
  | nil => cases h
  | cons s ss ih =>
    rw [lastText] at h
    cases hl : lastText src name ss with
    | some w => rw [hl] at h; cases h; exact ih hl
    | none =>
      rw [hl, Option.none_or] at h
      unfold ownText at h
      split at h
      · split at h
        · split at h
          · rename_i hv
            cases h
            unfold annotationValue at hv
            split at hv
            · split at hv
              · rename_i hs; cases hv; exact sliceBytes_contains hs
              · cases hv
            · cases hv
          · cases h
        · cases h
      · cases h

theorem extract_panic {id : Str} (h : extractNumberFromIdentifier id = .panic) : WideBeforeNumber id := by
  obtain ⟨h1, h2, h3⟩ := splitNumericSuffix_eq id
  unfold extractNumberFromIdentifier at h
  generalize splitNumericSuffix id = r at *
  obtain ⟨name, nr⟩ := r
  simp only at h h1 h2 h3
  split at h
  · rename_i c hc
    obtain ⟨pre, rfl⟩ : ∃ pre, name = pre ++ [c] := by
      rw [List.getLast?_eq_some_iff] at hc; exact hc
    refine ⟨pre, c, nr, by rw [← h1]; simp, h2, h3 c hc, fun hlt => ?_⟩
    rw [if_pos (utf8Size_ascii hlt)] at h
    cases h
  · cases h

omit [Unicode] in
theorem parseI64_signed {w : Str} {i : Int} (h : parseI64 w = some i) : SignedNumber w i := by
  unfold parseI64 at h
  split at h <;> rename_i cs <;> split at h
  · rename_i n hn
    split at h
    · cases h; exact ⟨cs, n, parseNat_iff.mp hn, .inr ⟨rfl, by assumption, rfl⟩⟩
    · cases h
  · cases h
  · rename_i n hn
    split at h
    · cases h; exact ⟨cs, n, parseNat_iff.mp hn, .inl ⟨.inr rfl, by assumption, rfl⟩⟩
    · cases h
  · cases h
  · rename_i n hn
    split at h
    · cases h; exact ⟨_, n, parseNat_iff.mp hn, .inl ⟨.inl rfl, by assumption, rfl⟩⟩
    · cases h
  · cases h

omit [Unicode] in
theorem signed_fits {w : Str} {i : Int} (h : SignedNumber w i) : Fits64 i := by
  obtain ⟨_, n, _, ⟨_, h1, rfl⟩ | ⟨_, h1, rfl⟩⟩ := h <;> unfold Fits64 <;> omega

omit [Unicode] in
theorem collectO_panic_inv {α β : Type} {g : α → Outcome (List β)} : ∀ {l : List α}, collectO g l = .panic → ∃ x ∈ l, g x = .panic
  | [], h => by cases h
  | x :: l, h => by
    unfold collectO at h
    cases hx : g x with
    | panic => exact ⟨x, by simp, hx⟩
    | ok y =>
      rw [hx] at h
      simp only at h
      cases hl : collectO g l with
      | panic =>
        obtain ⟨z, hz, hp⟩ := collectO_panic_inv hl
        exact ⟨z, by simp [hz], hp⟩
      | ok ys => rw [hl] at h; cases h

/-- Every entry of a table is the name of an occurrence of the kind. -/
theorem entry_occurs {ix : HIRIndex} (h : parseFromStr text = .ok res) (hix : createIndex text res.tokens res.stmts = .ok ix) {k f n u}
    (he : entry? ix k f n = some u) : ∃ o, Occurs res.tokens res.stmts o ∧ o.symbolKind = k ∧ o.funcBodyId = f ∧ o.name = n := by
  obtain ⟨g, hinv, hocc, _⟩ := index_inv h hix
  obtain ⟨o, ho, h1⟩ := (hinv.keys k f n).mp (by rw [he]; rfl)
  exact ⟨o, occurs_iff.mpr (by rw [← hocc]; exact ho), h1.1, h1.2.1, h1.2.2⟩

theorem getShiftEdits_panic {ix : HIRIndex} (h : parseFromStr text = .ok res) (hix : createIndex text res.tokens res.stmts = .ok ix)
    {rope : Str} {k f} {start shift : Int} (hp : getShiftEdits env.ord env.build rope ix k f start shift = .panic) :
    (∃ i, f = some i ∧ (docFuncs res.stmts).length ≤ i) ∨ (f = none ∧ (k = .label ∨ k = .localVar)) ∨
      Unshiftable env res k start shift := by
  have hlen : (docFuncs res.stmts).length = ix.functionBodies.length := by
    rw [← (C20_local_scope h hix).1, List.length_map]
  by_cases hst : (∃ i, f = some i ∧ (docFuncs res.stmts).length ≤ i) ∨ (f = none ∧ (k = .label ∨ k = .localVar))
  · rcases hst with hst | hst
    · exact .inl hst
    · exact .inr (.inl hst)
  refine .inr (.inr ?_)
  -- the scope of the table
  obtain ⟨f', hk, hf, heq⟩ : ∃ f', ((k = .label ∨ k = .localVar) ↔ ∃ i, f' = some i) ∧ (∀ i, f' = some i → i < ix.functionBodies.length) ∧
      tableOf ix k f = tableOf ix k f' := by
    cases f with
    | none =>
      refine ⟨none, ?_, (fun i hi => nomatch hi), rfl⟩
      simp only [reduceCtorEq, exists_false, iff_false]
      exact fun hk => hst (.inr ⟨rfl, hk⟩)
    | some i =>
      have hi : i < ix.functionBodies.length := by
        have : ¬ (docFuncs res.stmts).length ≤ i := fun hle => hst (.inl ⟨i, rfl, hle⟩)
        omega
      by_cases hk : k = .label ∨ k = .localVar
      · exact ⟨some i, by simp [hk], by simp; exact hi, rfl⟩
      · refine ⟨none, by simp [hk], (fun i hi => nomatch hi), ?_⟩
        cases k <;> simp at hk <;> simp [tableOf, HIRIndex.funcBody, HIRIndex.getBySymbolKind, List.getElem?_eq_getElem hi]
  obtain ⟨m, hm, hget, hnd⟩ := tableOf_spec (distinctKeys h hix) hk hf
  rw [← heq] at hm
  rw [getShiftEdits_table hm] at hp
  obtain ⟨x, hx, hpan⟩ := collectO_panic_inv hp
  have hx' : entry? ix k f' x.1 = some x.2 := by
    rw [← hget]; exact StrMap.get?_of_mem hnd ((env.ord.perm m).mem_iff.mp hx)
  obtain ⟨o, ho, hok, _, hon⟩ := entry_occurs h hix hx'
  refine ⟨o, ho, hok, ?_⟩
  rw [hon]
  unfold shiftEditsOf at hpan
  cases hex : extractNumberFromIdentifier x.1 with
  | panic => exact .inl (extract_panic hex)
  | ok r =>
    rw [hex] at hpan
    cases r with
    | none => cases hpan
    | some r =>
      obtain ⟨pre, i⟩ := r
      obtain ⟨nr, rfl, hnum⟩ := (extract_spec x.1).1 pre i hex
      simp only at hpan
      split at hpan
      · cases hpan
      · split at hpan
        · rename_i hop
          obtain ⟨h1, h2⟩ := i64Op_panic hop
          exact .inr ⟨h1, pre, nr, hnum, by omega, h2⟩
        · cases hpan

/-! ### Handlers -/

theorem analyze_fatal (h : analyze text = .panic) : ∃ res name f rest l, parseFromStr text = .ok res ∧ .dbgAnnotation name (f :: rest) ∈ res.stmts ∧
    (f :: rest).getLast? = some l ∧ ¬ ∃ a b c, text = a ++ b ++ c ∧ utf8Len a = f.2.start ∧ utf8Len (a ++ b) = l.2.stop := by
  obtain ⟨res, hres⟩ := parseFromStr_total text
  obtain ⟨name, f, rest, l, h1, h2, h3⟩ := (C01_only_crash hres).mp h
  exact ⟨res, name, f, rest, l, hres, h1, h2, h3⟩

omit [Unicode] in
theorem resolve_panic {fs : FileSystem} {roots : List Url} {path : Str} (h : resolveRelativePath fs roots path = .panic) : ∃ r ∈ roots, Opaque r := by
  apply Classical.byContradiction
  intro hno
  obtain ⟨o, ho⟩ := resolveRelativePath_no_panic (fs := fs) (path := path) (roots := roots)
    (fun r hr => by
      cases hc : r.cannotBeABase with
      | false => rfl
      | true => exact absurd ⟨r, hr, hc⟩ hno)
  rw [h] at ho
  cases ho

omit [Unicode] in
theorem externalLocations_panic {roots : List Url} : ∀ {l : List ExternalDef}, externalLocations env roots l = .panic →
    ∃ d ∈ l, env.build.overflowChecks = true ∧ d.line = 0 ∨ ∃ r ∈ roots, Opaque r
  | [], h => by cases h
  | d :: ds, h => by
    unfold externalLocations at h
    split at h
    · rename_i hr; exact ⟨d, by simp, .inr (resolve_panic hr)⟩
    · obtain ⟨d', h1, h2⟩ := externalLocations_panic h; exact ⟨d', by simp [h1], h2⟩
    · split at h
      · rename_i hu
        refine ⟨d, by simp, .inl ?_⟩
        unfold u32Sub at hu
        split at hu
        · cases hu
        · split at hu
          · exact ⟨by assumption, by omega⟩
          · cases hu
      · split at h
        · rename_i hx; obtain ⟨d', h1, h2⟩ := externalLocations_panic hx; exact ⟨d', by simp [h1], h2⟩
        · cases h

/-- Looking up a symbol panics only in another file. -/
theorem getUseDefRanges_panic (hk : Known st uri text res) {p : Pos} {ud : UseDefKind} (h : getUseDefRanges env st uri p ud = .panic) :
    ud = .def_ ∧ ∃ o d, Occurs res.tokens res.stmts o ∧ o.symbolKind = .function ∧ ExternalLocation res.stmts o.name d ∧
      (env.build.overflowChecks = true ∧ d.line = 0 ∨ ∃ r ∈ st.roots, Opaque r) := by
  obtain ⟨hopen, hres⟩ := hk
  obtain ⟨doc, hst, _, _, hix⟩ := opened_inv hopen hres
  unfold getUseDefRanges at h
  rw [hst] at h
  simp only at h
  cases hs : symbolAt doc p with
  | none => rw [hs] at h; cases h
  | some o =>
    rw [hs] at h
    have ho := symbolAt_found hres hix hs
    obtain ⟨m, hm, hget, _⟩ := occurs_table hres hix ho
    simp only [hm] at h
    cases hg : m.get? o.name with
    | none => rw [hg] at h; cases h
    | some u =>
      rw [hg] at h
      simp only at h
      by_cases hud : ud = .def_
      · refine ⟨hud, ?_⟩
        rw [if_pos hud] at h
        cases hx : externalLocations env st.roots u.externalDefs with
        | ok l => rw [hx] at h; cases h
        | panic =>
          obtain ⟨d, hd, hc⟩ := externalLocations_panic hx
          have he : entry? doc.index o.symbolKind o.funcBodyId o.name = some u := by rw [← hget]; exact hg
          obtain ⟨g, hinv, _, _, hext⟩ := index_inv hres hix
          have hkind : o.symbolKind = .function ∧ o.funcBodyId = none := by
            apply Classical.byContradiction
            intro hno
            have := hinv.ext o.symbolKind o.funcBodyId o.name
            rw [he] at this
            simp only [Option.getD_some] at this
            rw [this, if_neg hno] at hd
            cases hd
          rw [hkind.1, hkind.2] at he
          refine ⟨o, d, ho, hkind.1, (C22_external_defs hres hix o.name d).mp ?_, hc⟩
          rw [he]
          exact hd
      · rw [if_neg hud] at h
        cases h


omit [Unicode] in
theorem parseFrame_inv {fs : FileSystem} {roots : List Url} {j : Json} :
    (∀ f, parseFrame fs roots j = .ok f → SymbolOf j f.symbol) ∧ (parseFrame fs roots j = .panic → ∃ r ∈ roots, Opaque r) := by
  unfold parseFrame
  simp only
  have hnm := frameName_spec j
  split
  · rename_i hr
    refine ⟨(fun f hf => nomatch hf), fun _ => ?_⟩
    split at hr
    · exact resolve_panic hr
    · cases hr
  · exact ⟨(fun f hf => by cases hf; exact hnm), fun hp => nomatch hp⟩

omit [Unicode] in
theorem mapO_inv {α β : Type} {g : α → Outcome β} : ∀ {l : List α},
    (∀ ys, mapO g l = .ok ys → ∀ y ∈ ys, ∃ x ∈ l, g x = .ok y) ∧ (mapO g l = .panic → ∃ x ∈ l, g x = .panic)
  | [] => ⟨fun ys h => by cases h; simp, fun h => nomatch h⟩
  | x :: l => by
    obtain ⟨i1, i2⟩ := mapO_inv (g := g) (l := l)
    unfold mapO
    cases hx : g x with
    | panic => exact ⟨fun ys h => (nomatch h), fun _ => ⟨x, by simp, hx⟩⟩
    | ok y =>
      simp only
      cases hl : mapO g l with
      | panic =>
        refine ⟨fun ys h => (nomatch h), fun _ => ?_⟩
        obtain ⟨z, h1, h2⟩ := i2 hl
        exact ⟨z, by simp [h1], h2⟩
      | ok ys =>
        refine ⟨fun zs h => ?_, fun h => nomatch h⟩
        cases h
        intro z hz
        rcases List.mem_cons.mp hz with rfl | hz
        · exact ⟨x, by simp, hx⟩
        · obtain ⟨w, h1, h2⟩ := i1 ys hl z hz
          exact ⟨w, by simp [h1], h2⟩

omit [Unicode] in
theorem parseBacktrace_inv {fs : FileSystem} {roots : List Url} {j : Json} :
    (∀ frames, parseBacktraceFromJson fs roots j = .ok (some frames) → ∃ l, HasBacktrace j l ∧ ∀ f ∈ frames, ∃ e ∈ l, SymbolOf e f.symbol) ∧
    (parseBacktraceFromJson fs roots j = .panic → ∃ l, HasBacktrace j l ∧ ∃ r ∈ roots, Opaque r) := by
  unfold parseBacktraceFromJson
  cases hb : (j.field c!"backtrace").bind Json.asArray with
  | none => exact ⟨fun f hf => (nomatch hf), fun h => nomatch h⟩
  | some l =>
    have hl := hasBacktrace_iff.mp hb
    simp only
    obtain ⟨m1, m2⟩ := mapO_inv (g := parseFrame fs roots) (l := l)
    cases hm : mapO (parseFrame fs roots) l with
    | panic =>
      obtain ⟨x, _, hx⟩ := m2 hm
      exact ⟨fun f hf => (nomatch hf), fun _ => ⟨l, hl, parseFrame_inv.2 hx⟩⟩
    | ok frames =>
      refine ⟨fun f hf => ?_, fun h => nomatch h⟩
      cases hf
      refine ⟨l, hl, fun f hf => ?_⟩
      obtain ⟨e, h1, h2⟩ := m1 frames hm f hf
      exact ⟨e, h1, parseFrame_inv.1 f h2⟩

theorem inlayHint_panic (hk : Known st uri text res) (h : inlayHint env st uri = .panic) :
    ∃ i ∈ instructions res.stmts, ∃ ref v j entries, i.dbgRef = some ref ∧ Contains v text ∧ env.json v = some j ∧ HasBacktrace j entries ∧
      ((∃ e ∈ entries, ∃ s, SymbolOf e s ∧ Unshortenable s) ∨ ∃ r ∈ st.roots, Opaque r) := by
  obtain ⟨hopen, hres⟩ := hk
  obtain ⟨doc, hst, hrope, hstmts, hix⟩ := opened_inv hopen hres
  unfold inlayHint at h
  rw [hst] at h
  simp only at h
  cases hb : backtraceHints env st.roots doc with
  | ok l => rw [hb] at h; cases h
  | panic =>
    unfold backtraceHints at hb
    rw [hstmts, allInstructions_eq] at hb
    obtain ⟨i, hi, hp⟩ := collectO_panic_inv hb
    refine ⟨i, hi, ?_⟩
    unfold backtraceHint at hp
    cases hd : i.dbgRef with
    | none => rw [hd] at hp; cases hp
    | some d =>
      rw [hd] at hp
      simp only at hp
      cases hv : doc.index.dbgAnnotationValues.get? d.1 with
      | none => rw [hv] at hp; cases hp
      | some v =>
        rw [hv] at hp
        simp only at hp
        have hcon : Contains v text := by
          rw [createIndex_vals hix] at hv
          exact lastText_contains hv
        cases hj : env.json v with
        | none => rw [hj] at hp; cases hp
        | some j =>
          rw [hj] at hp
          simp only at hp
          cases hbt : parseBacktraceFromJson env.fs st.roots j with
          | panic =>
            obtain ⟨l, h1, h2⟩ := parseBacktrace_inv.2 hbt
            exact ⟨d, v, j, l, rfl, hcon, hj, h1, .inr h2⟩
          | ok r =>
            rw [hbt] at hp
            cases r with
            | none => cases hp
            | some frames =>
              obtain ⟨l, h1, h2⟩ := parseBacktrace_inv.1 frames hbt
              simp only at hp
              cases hpos : offsetToLspPos doc.rope d.2.stop with
              | none => rw [hpos] at hp; cases hp
              | some pos =>
                rw [hpos] at hp
                simp only at hp
                rcases inlayHintForBacktrace_spec pos frames with ⟨hint, e1, _⟩ | ⟨_, k, f, _, e3, e4⟩
                · rw [e1] at hp; cases hp
                · obtain ⟨e, h3, h4⟩ := h2 f (List.mem_of_getElem? e3)
                  exact ⟨d, v, j, l, rfl, hcon, hj, h1, .inl ⟨e, h3, f.symbol, h4, e4⟩⟩

/-- A shift for a symbol of the document panics only if it cannot be computed. -/
theorem shift_panic {ix : HIRIndex} (h : parseFromStr text = .ok res) (hix : createIndex text res.tokens res.stmts = .ok ix)
    {o : SymbolOccurrence} (ho : Occurs res.tokens res.stmts o) {rope : Str} {start shift : Int}
    (hp : getShiftEdits env.ord env.build rope ix o.symbolKind o.funcBodyId start shift = .panic) :
    Unshiftable env res o.symbolKind start shift := by
  have hlen : (docFuncs res.stmts).length = ix.functionBodies.length := by
    rw [← (C20_local_scope h hix).1, List.length_map]
  obtain ⟨hk, hf⟩ := occurs_scope h hix ho
  rcases getShiftEdits_panic h hix hp with ⟨i, h1, h2⟩ | ⟨h1, h2⟩ | h1
  · have := hf i h1; omega
  · obtain ⟨i, hi⟩ := hk.mp h2
    rw [h1] at hi
    cases hi
  · exact h1

omit [Unicode] in
theorem unshiftable_wrap [Unicode] {k : SymbolKind} {start x y : Int} (hop : i64Op env.build x = .ok y) (h : Unshiftable env res k start y) :
    Unshiftable env res k start x := by
  obtain ⟨o, ho, hk, hc⟩ := h
  refine ⟨o, ho, hk, ?_⟩
  rcases hc with hc | ⟨hb, hc⟩
  · exact .inl hc
  · refine .inr ⟨hb, ?_⟩
    unfold i64Op at hop
    split at hop
    · cases hop; exact hc
    · first | cases hop | (rw [if_pos hb] at hop; cases hop)

theorem relative_panic (hk : Known st uri text res) {doc : AnalyzedDocument} (hst : st.docs.get? uri = some doc) {o : SymbolOccurrence}
    (ho : Occurs res.tokens res.stmts o) {c : Char} {w : Str} {sign : Int} (hc : c = '+' ∧ sign = 1 ∨ c = '-' ∧ sign = -1)
    (h : relativeRename env doc o (c :: w) sign = .panic) (p : Pos) : Fatal env st (.rename uri p (c :: w)) := by
  obtain ⟨doc', hst', _, _, hix⟩ := opened_inv hk.1 hk.2
  rw [hst] at hst'
  cases hst'
  unfold relativeRename at h
  rw [List.drop_succ_cons, List.drop_zero] at h
  cases hn : parseI64 w with
  | none => rw [hn] at h; cases h
  | some nr =>
    rw [hn] at h
    simp only at h
    have hs := parseI64_signed hn
    have hfit := signed_fits hs
    cases hop : i64Op env.build (sign * nr) with
    | panic =>
      obtain ⟨h1, h2⟩ := i64Op_panic hop
      rcases hc with ⟨rfl, rfl⟩ | ⟨rfl, rfl⟩
      · rw [Int.one_mul] at h2; exact absurd hfit h2
      · refine .shift hk ho h1 ?_
        have : nr = -2 ^ 63 := by
          unfold Fits64 at hfit h2
          omega
        rw [← this]
        exact hs
    | ok shift =>
      rw [hop] at h
      simp only at h
      cases hx : extractNumberFromIdentifier o.name with
      | panic => exact .wide hk ho (extract_panic hx) (by rcases hc with hc | hc <;> simp [hc.1])
      | ok r =>
        rw [hx] at h
        cases r with
        | none => cases h
        | some r =>
          obtain ⟨pre, i⟩ := r
          obtain ⟨start, rfl, hnum⟩ := (extract_spec o.name).1 pre i hx
          simp only at h
          cases hg : getShiftEdits env.ord env.build doc.rope doc.index o.symbolKind o.funcBodyId start shift with
          | ok e => rw [hg] at h; cases h
          | panic =>
            have := unshiftable_wrap hop (shift_panic hk.2 hix ho hg)
            rcases hc with ⟨rfl, rfl⟩ | ⟨rfl, rfl⟩
            · rw [Int.one_mul] at this
              exact .rename hk ho hnum hs (.inl ⟨rfl, this⟩)
            · rw [Int.neg_mul, Int.one_mul] at this
              exact .rename hk ho hnum hs (.inr ⟨rfl, this⟩)

theorem rename_panic (hk : Known st uri text res) {p : Pos} {req : Str} (h : rename env st uri p req = .panic) :
    Fatal env st (.rename uri p req) := by
  obtain ⟨doc, hst, _, _, hix⟩ := opened_inv hk.1 hk.2
  unfold rename at h
  rw [hst] at h
  simp only at h
  cases hs : symbolAt doc p with
  | none => rw [hs] at h; cases h
  | some o =>
    rw [hs] at h
    simp only at h
    have ho := symbolAt_found hk.2 hix hs
    have hr : renameEdits env doc o req = .panic := by
      cases hr : renameEdits env doc o req with
      | panic => rfl
      | ok r => rw [hr] at h; cases r <;> cases h
    unfold renameEdits at hr
    split at hr
    · exact relative_panic hk hst ho (.inl ⟨rfl, rfl⟩) hr p
    · exact relative_panic hk hst ho (.inr ⟨rfl, rfl⟩) hr p
    · obtain ⟨u, _, he⟩ := absoluteRename_eq hk.2 hix ho req
      rw [he] at hr
      split at hr
      · rename_i hc
        refine .noName hk ho ?_
        rcases (checkNewName_spec o.symbolKind req).2.mp hc with hc | hc
        · exact .inl hc
        · exact .inr (sigil_iff.mpr hc)
      · cases hr
      · cases hr

theorem resolve_fatal {a : CodeAction} {d : CodeActionData} (hd : a.data = .shift d) (hk : Known st d.uri text res)
    (h : codeActionResolve env st a = .panic) :
    (∃ i, d.funcBodyId = some i ∧ (docFuncs res.stmts).length ≤ i) ∨ (d.funcBodyId = none ∧ (d.symbolKind = .label ∨ d.symbolKind = .localVar)) ∨
      Unshiftable env res d.symbolKind d.renamedNr 1 := by
  obtain ⟨doc, hst, _, _, hix⟩ := opened_inv hk.1 hk.2
  unfold codeActionResolve at h
  simp only [hd, hst] at h
  cases hg : getShiftEdits env.ord env.build doc.rope doc.index d.symbolKind d.funcBodyId d.renamedNr 1 with
  | ok e => rw [hg] at h; cases h
  | panic => exact getShiftEdits_panic hk.2 hix hg

theorem codeAction_panic (hk : Known st uri text res) {r : Range} (h : codeAction env st uri r = .panic) : Fatal env st (.codeAction uri r) := by
  obtain ⟨doc, hst, _, _, hix⟩ := opened_inv hk.1 hk.2
  unfold codeAction at h
  rw [hst] at h
  simp only at h
  split at h
  · cases h
  · unfold offeredActions at h
    cases hs : symbolAt doc r.start with
    | none =>
      rw [hs] at h
      simp only [resolveAll] at h
      split at h <;> cases h
    | some o =>
      rw [hs] at h
      simp only at h
      have ho := symbolAt_found hk.2 hix hs
      cases hx : extractNumberFromIdentifier o.name with
      | panic => exact .actionWide hk ho (extract_panic hx)
      | ok r =>
        rw [hx] at h
        cases r with
        | none =>
          simp only [resolveAll] at h
          split at h <;> cases h
        | some r =>
          obtain ⟨pre, i⟩ := r
          obtain ⟨start, rfl, hnum⟩ := (extract_spec o.name).1 pre i hx
          simp only at h
          split at h
          · cases h
          · rename_i hlazy
            simp only [resolveAll, codeActionResolve, hst] at h
            cases hg : getShiftEdits env.ord env.build doc.rope doc.index o.symbolKind o.funcBodyId start 1 with
            | ok e => rw [hg] at h; cases h
            | panic => exact .action hk ho hnum (by simpa using hlazy) (shift_panic hk.2 hix ho hg)

/-! ### The server -/

/-- Every known document was analyzed. -/
def AllOpened (st : ServerState) : Prop := ∀ u doc, st.docs.get? u = some doc → ∃ text, Opened st u text

omit [Unicode] in
theorem map'_panic {α β : Type} {o : Outcome α} {f : α → β} (h : o.map' f = .panic) : o = .panic := by
  cases o with
  | panic => rfl
  | ok a => cases h

theorem known_of (hall : AllOpened st) {u : Str} {doc : AnalyzedDocument} (h : st.docs.get? u = some doc) : ∃ text res, Known st u text res := by
  obtain ⟨text, ht⟩ := hall u doc h
  obtain ⟨res, hres⟩ := parseFromStr_total text
  exact ⟨text, res, ht, hres⟩

theorem step_fatal (hall : AllOpened st) {m : Msg} (h : step env st m = .panic) : Fatal env st m := by
  have change : ∀ {u v t}, onChange env st u v t = .panic → analyze t = .panic := by
    intro u v t h
    unfold onChange at h
    split at h
    · assumption
    · cases h
  have usedef : ∀ {u p ud}, getUseDefRanges env st u p ud = .panic → ∃ text res, Known st u text res ∧ ud = .def_ ∧ ∃ o d, Occurs res.tokens res.stmts o ∧
      o.symbolKind = .function ∧ ExternalLocation res.stmts o.name d ∧ (env.build.overflowChecks = true ∧ d.line = 0 ∨ ∃ r ∈ st.roots, Opaque r) := by
    intro u p ud h
    cases hd : st.docs.get? u with
    | none => unfold getUseDefRanges at h; rw [hd] at h; cases h
    | some doc =>
      obtain ⟨text, res, hk⟩ := known_of hall hd
      exact ⟨text, res, hk, getUseDefRanges_panic hk h⟩
  cases m with
  | «initialize» p => cases h
  | didOpen u v t =>
    obtain ⟨res, name, f, rest, l, h1, h2, h3, h4⟩ := analyze_fatal (change (map'_panic h))
    exact .text (.inl rfl) h1 h2 h3 h4
  | didChange u v cs =>
    cases cs with
    | nil => exact .noChanges
    | cons c cs =>
      obtain ⟨r, t⟩ := c
      obtain ⟨res, name, f, rest, l, h1, h2, h3, h4⟩ := analyze_fatal (change (map'_panic h))
      exact .text (.inr ⟨r, cs, rfl⟩) h1 h2 h3 h4
  | gotoDefinition u p =>
    have h := map'_panic h
    have : getUseDefRanges env st u p .def_ = .panic := by
      unfold gotoDefinition at h
      split at h
      · assumption
      · cases h
    obtain ⟨text, res, hk, _, o, d, h1, h2, h3, h4⟩ := usedef this
    exact .location hk h1 h2 h3 h4
  | gotoDeclaration u p =>
    have h := map'_panic h
    have : getUseDefRanges env st u p .decl = .panic := by
      unfold gotoDeclaration at h
      split at h
      · assumption
      · cases h
    obtain ⟨text, res, hk, h1, _⟩ := usedef this
    cases h1
  | references u p =>
    have h := map'_panic h
    have : getUseDefRanges env st u p .use = .panic := by
      unfold references at h
      split at h
      · assumption
      · cases h
    obtain ⟨text, res, hk, h1, _⟩ := usedef this
    cases h1
  | semanticTokensFull u =>
    have h := map'_panic h
    cases hd : st.docs.get? u with
    | none => unfold semanticTokensFull at h; rw [hd] at h; cases h
    | some doc =>
      obtain ⟨text, ht⟩ := hall u doc hd
      by_cases hs : text.length < 2 ^ 32
      · obtain ⟨ls, h1, _⟩ := C24_no_underflow ht hs
        rw [h1 env] at h
        cases h
      · exact .large ht (by omega)
  | documentSymbol u => cases h
  | prepareRename u p => cases h
  | rename u p req =>
    have h := map'_panic h
    cases hd : st.docs.get? u with
    | none => unfold rename at h; rw [hd] at h; cases h
    | some doc =>
      obtain ⟨text, res, hk⟩ := known_of hall hd
      exact rename_panic hk h
  | codeAction u r =>
    have h := map'_panic h
    cases hd : st.docs.get? u with
    | none => unfold codeAction at h; rw [hd] at h; cases h
    | some doc =>
      obtain ⟨text, res, hk⟩ := known_of hall hd
      exact codeAction_panic hk h
  | codeActionResolve a =>
    have h := map'_panic h
    cases hdat : a.data with
    | missing => unfold codeActionResolve at h; rw [hdat] at h; cases h
    | invalid => unfold codeActionResolve at h; rw [hdat] at h; cases h
    | shift d =>
      cases hd : st.docs.get? d.uri with
      | none => unfold codeActionResolve at h; simp only [hdat, hd] at h; cases h
      | some doc =>
        obtain ⟨text, res, hk⟩ := known_of hall hd
        rcases resolve_fatal hdat hk h with h1 | h1 | h1
        · exact .stale hdat hk (.inl h1)
        · exact .stale hdat hk (.inr h1)
        · exact .resolve hdat hk h1
  | foldingRange u => cases h
  | inlayHint u =>
    have h := map'_panic h
    cases hd : st.docs.get? u with
    | none => unfold inlayHint at h; rw [hd] at h; cases h
    | some doc =>
      obtain ⟨text, res, hk⟩ := known_of hall hd
      obtain ⟨i, hi, ref, v, j, l, h1, h2, h3, h4, h5⟩ := inlayHint_panic hk h
      exact .hint hk hi h1 h2 h3 h4 h5
  | codeLens u => cases h
  | executeCommand c as => cases h
  | shutdown => cases h


theorem step_allOpened (hall : AllOpened st) {m : Msg} {r : Reply} (h : step env st m = .ok (st', r)) : AllOpened st' := by
  have change : ∀ {u : Str} {v : Int} {t : Str} {p : Publish}, onChange env st u v t = .ok (st', p) → AllOpened st' := by
    intro u v t p h
    obtain ⟨doc, errs, ha, rfl, rfl⟩ := onChange_inv h
    intro u' doc' hd
    dsimp only at hd
    by_cases hu : u = u'
    · exact ⟨t, doc, errs, ha, by dsimp only; rw [get?_insert, if_pos hu]⟩
    · rw [get?_insert, if_neg hu] at hd
      obtain ⟨text, d, e, h1, h2⟩ := hall u' doc' hd
      exact ⟨text, d, e, h1, by dsimp only; rw [get?_insert, if_neg hu]; exact h2⟩
  cases m with
  | «initialize» p => cases h; intro u doc hd; exact hall u doc hd
  | didOpen u v t =>
    simp only [step] at h
    cases ho : didOpen env st u v t with
    | panic => rw [ho] at h; cases h
    | ok x => rw [ho] at h; cases h; exact change ho
  | didChange u v cs =>
    simp only [step] at h
    cases ho : didChange env st u v cs with
    | panic => rw [ho] at h; cases h
    | ok x =>
      rw [ho] at h
      cases h
      cases cs with
      | nil => cases ho
      | cons c cs => exact change ho
  | _ => rw [C52_state (by exact trivial) h]; exact hall

theorem run_allOpened {ms : List Step} {rs : List Reply} (hall : AllOpened st) (h : run st ms = .ok (st', rs)) : AllOpened st' := by
  induction ms generalizing st rs with
  | nil => cases h; exact hall
  | cons e ms ih =>
    obtain ⟨env, m⟩ := e
    obtain ⟨s, r, rs', hs, hr, rfl⟩ := run_cons_inv h
    exact ih (step_allOpened hall hs) hr

theorem run_panic {ms : List Step} (h : run st ms = .panic) :
    ∃ before env m after st1 rs, ms = before ++ (env, m) :: after ∧ run st before = .ok (st1, rs) ∧ step env st1 m = .panic := by
  induction ms generalizing st with
  | nil => cases h
  | cons e ms ih =>
    obtain ⟨env, m⟩ := e
    cases hs : step env st m with
    | panic => exact ⟨[], env, m, ms, st, [], rfl, rfl, hs⟩
    | ok r =>
      obtain ⟨s, r⟩ := r
      have hr : run s ms = .panic := by
        unfold run at h
        rw [hs] at h
        simp only at h
        cases hr : run s ms with
        | panic => rfl
        | ok x => rw [hr] at h; cases h
      obtain ⟨before, env', m', after, st1, rs, h1, h2, h3⟩ := ih hr
      refine ⟨(env, m) :: before, env', m', after, st1, r :: rs, by rw [h1]; rfl, ?_, h3⟩
      unfold run
      rw [hs]
      simp only
      rw [h2]

/-! ### C65 -/

/-- C65: whatever the client sends, if the server ends with a panic, one of the messages has one of the listed causes (`Fatal`) in the
state it arrives in. -/
theorem C65_causes {ms : List Step} (h : run {} ms = .panic) :
    ∃ before env m after st rs, ms = before ++ (env, m) :: after ∧ run {} before = .ok (st, rs) ∧ Fatal env st m := by
  obtain ⟨before, env, m, after, st, rs, h1, h2, h3⟩ := run_panic h
  exact ⟨before, env, m, after, st, rs, h1, h2, step_fatal (run_allOpened (fun u doc hd => by cases hd) h2) h3⟩

theorem latest_known {ms : List Step} {rs : List Reply} (htame : ∀ e ∈ ms, TameMsg e.2) (h : run {} ms = .ok (st, rs)) {u text : Str}
    (ho : Opened st u text) : ∃ t, latestText ms u = some t ∧ Opened st u t ∧ TameText t := by
  have hs : SingleChanges ms := by
    intro env u v cs hm
    obtain ⟨t, ht, _⟩ := htame _ hm
    exact ⟨t, ht⟩
  have hh := holds_run (uri := u) (st := {}) (old := none) (show Holds {} u none from rfl) hs h
  have hl : ms.foldl (fun old e => textAfter u old e.2) none = latestText ms u := rfl
  rw [hl] at hh
  cases hlt : latestText ms u with
  | none =>
    rw [hlt] at hh
    obtain ⟨_, _, _, hg⟩ := ho
    rw [show st.docs.get? u = none from hh] at hg
    cases hg
  | some t =>
    rw [hlt] at hh
    refine ⟨t, rfl, hh, ?_⟩
    -- the latest text was sent
    have key : ∀ (l : List Step) (old : Option Str), (∀ e ∈ l, TameMsg e.2) → (∀ t, old = some t → TameText t) →
        ∀ t, l.foldl (fun old e => textAfter u old e.2) old = some t → TameText t := by
      intro l
      induction l with
      | nil => intro old _ h1 t h2; exact h1 t h2
      | cons e l ih =>
        intro old h0 h1 t h2
        refine ih _ (fun x hx => h0 x (by simp [hx])) ?_ t h2
        intro t' ht'
        have h3 := h0 e (by simp)
        obtain ⟨env, m⟩ := e
        cases m <;> simp only [textAfter] at ht' <;> try exact h1 t' ht'
        · split at ht'
          · cases ht'; exact h3
          · exact h1 t' ht'
        · obtain ⟨t'', rfl, h4⟩ := h3
          split at ht'
          · simp at ht'; subst ht'; exact h4
          · exact h1 t' ht'
    exact key ms none htame (fun t h => nomatch h) t hlt

omit [Unicode] in
theorem roots_tame [Unicode] {ms : List Step} {rs : List Reply} {st0 : ServerState} (htame : ∀ e ∈ ms, TameMsg e.2) (h0 : ∀ r ∈ st0.roots, ¬ Opaque r)
    (h : run st0 ms = .ok (st, rs)) : ∀ r ∈ st.roots, ¬ Opaque r := by
  induction ms generalizing st0 rs with
  | nil => cases h; exact h0
  | cons e ms ih =>
    obtain ⟨env, m⟩ := e
    obtain ⟨s, r, rs', hs, hr, rfl⟩ := run_cons_inv h
    refine ih (fun x hx => htame x (by simp [hx])) ?_ hr
    cases m with
    | «initialize» p =>
      have hp : TameMsg (.initialize p) := htame (env, .initialize p) (by simp)
      unfold step at hs
      simp only [initializeServer, Outcome.ok.injEq, Prod.mk.injEq] at hs
      obtain ⟨rfl, _⟩ := hs
      simp only
      intro r hr
      split at hr
      · rename_i l hl
        rcases List.mem_append.mp hr with hr | hr
        · exact h0 r hr
        · exact hp.1 l hl r hr
      · split at hr
        · rename_i u hu
          rcases List.mem_append.mp hr with hr | hr
          · exact h0 r hr
          · rw [List.mem_singleton] at hr; subst hr; exact hp.2 r hu
        · exact h0 r hr
    | didOpen u v t =>
      simp only [step] at hs
      cases ho : didOpen env st0 u v t with
      | panic => rw [ho] at hs; cases hs
      | ok x =>
        rw [ho] at hs
        cases hs
        obtain ⟨doc, errs, _, h1, _⟩ := onChange_inv ho
        rw [h1]
        exact h0
    | didChange u v cs =>
      simp only [step] at hs
      cases ho : didChange env st0 u v cs with
      | panic => rw [ho] at hs; cases hs
      | ok x =>
        rw [ho] at hs
        cases hs
        cases cs with
        | nil => cases ho
        | cons c cs =>
          obtain ⟨doc, errs, _, h1, _⟩ := onChange_inv ho
          rw [h1]
          exact h0
    | _ => rw [C52_state (by exact trivial) hs]; exact h0

theorem occurs_ascii' (h : parseFromStr text = .ok res) (ha : Ascii text) {o : SymbolOccurrence} (ho : Occurs res.tokens res.stmts o) :
    Ascii o.name := fun c hc => ha c (List.mem_of_mem_take (occurs_chars h ho c hc))

theorem not_wide (h : parseFromStr text = .ok res) (ha : Ascii text) {o : SymbolOccurrence} (ho : Occurs res.tokens res.stmts o) :
    ¬ WideBeforeNumber o.name := by
  rintro ⟨pre, c, suf, h1, _, _, h2⟩
  exact h2 (occurs_ascii' h ha ho c (by rw [h1]; simp))

theorem not_unshiftable (h : parseFromStr text = .ok res) (ht : TameText text) {k : SymbolKind} {start shift : Int} (h1 : -(2 ^ 62) ≤ shift)
    (h2 : shift ≤ 2 ^ 62) : ¬ Unshiftable env res k start shift := by
  rintro ⟨o, ho, _, hw | ⟨_, pre, nr, h3, _, h4⟩⟩
  · exact not_wide h ht.1 ho hw
  · have := (ht.2.2 res h).2 o pre nr ho h3
    exact h4 ⟨by omega, by omega⟩

/-- C65: the server survives every history of messages that is free of the listed hazards. -/
theorem C65_survives_partial {ms : List Step} (htame : TameHistory ms) : ∃ st rs, run {} ms = .ok (st, rs) := by
  cases hr : run {} ms with
  | ok r => exact ⟨r.1, r.2, rfl⟩
  | panic =>
    exfalso
    obtain ⟨before, env, m, after, st, rs, h1, h2, hp⟩ := run_panic hr
    have h3 := step_fatal (run_allOpened (fun u doc hd => by cases hd) h2) hp
    have hb : ∀ e ∈ before, TameMsg e.2 := fun e he => (htame.1 e (by rw [h1]; simp [he])).2
    obtain ⟨henv, hm⟩ := htame.1 (env, m) (by rw [h1]; simp)
    have hroots := roots_tame hb (fun r hr => by cases hr) h2
    have opened : ∀ {u text}, Opened st u text → latestText before u = some text ∧ TameText text := by
      intro u text ho
      obtain ⟨t, e1, e2, e3⟩ := latest_known hb h2 ho
      obtain ⟨d1, _, a1, g1⟩ := ho
      obtain ⟨d2, _, a2, g2⟩ := e2
      rw [g1] at g2
      cases g2
      obtain ⟨_, _, r1, _⟩ := analyze_inv a1
      obtain ⟨_, _, r2, _⟩ := analyze_inv a2
      rw [← r1, r2]
      exact ⟨e1, e3⟩
    cases h3 with
    | noChanges => obtain ⟨_, hc, _⟩ := hm; cases hc
    | text he _ _ _ _ =>
      rcases he with rfl | ⟨r, cs, rfl⟩
      · obtain ⟨x, hx⟩ := (C01_analysis_total_partial env st _ _ hm.1).1
        have hx' := map'_panic hp
        rw [hx] at hx'
        cases hx'
      · obtain ⟨t, hc, ht⟩ := hm
        cases hc
        obtain ⟨x, hx⟩ := (C01_analysis_total_partial env st _ _ ht.1).2 none []
        have hx' := map'_panic hp
        rw [hx] at hx'
        cases hx'
    | large ho hl => have := (opened ho).2.2.1; omega
    | location hk ho hkind hl hc =>
      rcases hc with ⟨_, hc⟩ | ⟨r, hr, hc⟩
      · exact ((opened hk.1).2.2.2 _ hk.2).1 _ _ hl hc
      · exact hroots r hr hc
    | hint hk hi hd hv hj hbt hc =>
      rcases hc with ⟨e, he, s, h4, h5⟩ | ⟨r, hr, hc⟩
      · exact henv _ _ _ e s hj hbt he h4 h5
      · exact hroots r hr hc
    | noName hk ho hc =>
      rcases hc with hc | hc
      · exact hm.1 hc
      · exact hm.2.1 _ hc
    | shift hk ho hb hs =>
      have := hm.2.2 _ _ _ rfl (.inr rfl) hs
      omega
    | wide hk ho hw _ => exact not_wide hk.2 (opened hk.1).2.1 ho hw
    | rename hk ho hn hs hc =>
      have hk' := hm.2.2 _ _ _ rfl (by rcases hc with hc | hc <;> simp [hc.1]) hs
      rcases hc with ⟨_, hc⟩ | ⟨_, hc⟩
      · exact not_unshiftable hk.2 (opened hk.1).2 (by omega) (by omega) hc
      · exact not_unshiftable hk.2 (opened hk.1).2 (by omega) (by omega) hc
    | actionWide hk ho hw => exact not_wide hk.2 (opened hk.1).2.1 ho hw
    | action hk ho hn hl hc => exact not_unshiftable hk.2 (opened hk.1).2 (by omega) (by omega) hc
    | stale hd hk hc =>
      obtain ⟨c1, c2⟩ := htame.2 before env _ after _ _ h1 hd (opened hk.1).1 _ hk.2
      rcases hc with ⟨i, hi, hle⟩ | ⟨hn, hl⟩
      · have := c1 i hi; omega
      · rcases hl with hl | hl
        · exact (c2 hn).1 hl
        · exact (c2 hn).2 hl
    | resolve hd hk hc => exact not_unshiftable hk.2 (opened hk.1).2 (by omega) (by omega) hc

end

/-! ### Examples and refutations -/

theorem denotes_lt {w : Str} {n : Nat} (h : Denotes w n) : n < 10 ^ w.length := by
  induction h with
  | digit hd =>
    have := digit_range hd
    have : '0'.toNat = 48 := rfl
    simp only [List.length_singleton]
    omega
  | more _ hd ih =>
    have := digit_range hd
    have : '0'.toNat = 48 := rfl
    rw [List.length_append, List.length_singleton, Nat.pow_succ]
    omega

section Examples
attribute [local instance] asciiUnicode

/-- A session without hazards: opening, renumbering and resolving. -/
def tameSession : List Step :=
  [(debugEnv, .initialize { workspaceFolders := none, rootUri := some ⟨c!"file://", [c!"w"], false⟩, codeAction := some (some [c!"edit"], some true) }),
   (debugEnv, .didOpen c!"u" 1 renText),
   (debugEnv, .rename c!"u" ⟨3, 8⟩ c!"+5"),
   (debugEnv, .codeAction c!"u" ⟨⟨3, 8⟩, ⟨3, 8⟩⟩),
   (debugEnv, .codeActionResolve { title := c!"", data := .shift ⟨c!"u", .localVar, some 0, 1⟩ }),
   (debugEnv, .gotoDefinition c!"u" ⟨3, 8⟩),
   (debugEnv, .inlayHint c!"u")]

theorem renText_tame : TameText renText := by
  refine ⟨by decide +kernel, by decide +kernel, fun res h => ⟨?_, ?_⟩⟩
  · rintro fn d ⟨before, name, def_, after, h1, _⟩
    have : (match parseFromStr renText with
      | .ok res => res.stmts.any fun s => match s with | .dbgAnnotation _ _ => true | _ => false
      | .panic => true) = false := by decide +kernel
    rw [h] at this
    simp only [h1, List.any_append, List.any_cons] at this
    simp at this
  · intro o pre n ho ⟨digits, h1, h2, _, _⟩
    have : (match parseFromStr renText with
      | .ok res => (allOccs res.tokens res.stmts).all fun o => decide (o.name.length ≤ 3)
      | .panic => false) = true := by decide +kernel
    rw [h] at this
    have hl := List.all_eq_true.mp this o (occurs_iff.mp ho)
    simp only [decide_eq_true_eq, h1, List.length_append] at hl
    have := denotes_lt h2
    have : 10 ^ digits.length ≤ 10 ^ 3 := Nat.pow_le_pow_right (by decide) (by omega)
    omega

theorem tameSession_tame : TameHistory tameSession := by
  constructor
  · intro e he
    have htext := renText_tame
    simp only [tameSession, List.mem_cons, List.not_mem_nil, or_false] at he
    refine ⟨?_, ?_⟩
    · have : e.1 = debugEnv := by rcases he with rfl | rfl | rfl | rfl | rfl | rfl | rfl <;> rfl
      rw [this]
      intro v j l e s hj
      cases hj
    · rcases he with rfl | rfl | rfl | rfl | rfl | rfl | rfl
      · refine ⟨(fun l hl => nomatch hl), fun u hu => ?_⟩
        cases hu
        intro ho
        cases ho
      · exact htext
      · refine ⟨by simp, fun k => by cases k <;> simp [Sigil], ?_⟩
        intro c w k hreq _ hs
        simp only [List.cons.injEq] at hreq
        obtain ⟨_, rfl⟩ := hreq
        obtain ⟨ds, n, hd, hc⟩ := hs
        have hlt := denotes_lt hd
        rcases hc with ⟨(h | h), _, rfl⟩ | ⟨h, _, _⟩
        · rw [← h] at hlt; simp at hlt; omega
        · simp at h
        · simp at h
      · trivial
      · trivial
      · trivial
      · trivial
  · intro before env a after d text h hd hl
    have : before.length = 4 := by
      rcases before with _ | ⟨b1, _ | ⟨b2, _ | ⟨b3, _ | ⟨b4, _ | ⟨b5, _ | ⟨b6, _ | ⟨b7, b⟩⟩⟩⟩⟩⟩⟩ <;> simp [tameSession] at h ⊢
    have hb : before = tameSession.take 4 := by rw [h, ← this]; simp
    have ha : (env, Msg.codeActionResolve a) = (debugEnv, .codeActionResolve { title := c!"", data := .shift ⟨c!"u", .localVar, some 0, 1⟩ }) := by
      have e1 : tameSession[4]? = some (env, Msg.codeActionResolve a) := by rw [h]; simp [← this]
      exact (Option.some.inj e1).symm
    cases ha
    cases hd
    subst hb
    have : text = renText := by
      have e1 : latestText (tameSession.take 4) c!"u" = some renText := by decide +kernel
      rw [e1] at hl
      cases hl
      rfl
    subst this
    intro res hres
    have : (match parseFromStr renText with | .ok res => (docFuncs res.stmts).length | .panic => 0) = 1 := by decide +kernel
    rw [hres] at this
    simp only at this
    rw [this]
    exact ⟨fun i hi => (by cases hi; decide), fun hn => nomatch hn⟩

example : ∃ st rs, run {} tameSession = .ok (st, rs) := C65_survives_partial tameSession_tame

/-- C65 fails: a client that asks for an empty new name ends the server. -/
theorem C65_refuted_rename :
    (match run {} [(debugEnv, .didOpen c!"u" 1 renText), (debugEnv, .rename c!"u" ⟨0, 1⟩ [])] with | .panic => true | .ok _ => false) = true := by
  decide +kernel

/-- C65 fails: the cause of `C65_refuted_rename` is the empty name. -/
example : ∃ before env m after st rs, [(debugEnv, Msg.didOpen c!"u" 1 renText), (debugEnv, .rename c!"u" ⟨0, 1⟩ [])] = before ++ (env, m) :: after ∧
    run {} before = .ok (st, rs) ∧ Fatal env st m :=
  C65_causes (by
    have := C65_refuted_rename
    cases h : run {} [(debugEnv, Msg.didOpen c!"u" 1 renText), (debugEnv, .rename c!"u" ⟨0, 1⟩ [])] with
    | panic => rfl
    | ok r => rw [h] at this; cases this)

/-- C65 fails: a workspace folder `mailto:x` and a function in another file end the server. -/
theorem C65_refuted_opaque :
    (match run {} [(debugEnv, .initialize { workspaceFolders := some [⟨c!"mailto:x", [], true⟩], rootUri := none, codeAction := none }),
        (debugEnv, .didOpen c!"u" 1 navText), (debugEnv, .gotoDefinition c!"u" ⟨0, 14⟩)] with | .panic => true | .ok _ => false) = true := by
  decide +kernel

/-- C65 fails: a text whose annotation cannot be cut out ends the server. -/
theorem C65_refuted_text :
    (match run {} [(debugEnv, .didOpen c!"u" 1 c!"!1 = \"éé\"")] with | .panic => true | .ok _ => false) = true := by
  decide +kernel

end Examples
end HyperIR
