import Verif.Spec.Inside
import Verif.Props.CrashSites
import Verif.Props.Navigation

/-! C102: the server only names the document asked about and existing files of the workspace. -/

namespace HyperIR
open Spec

section
variable [Unicode] {env : Env} {st st' : ServerState}

omit [Unicode] in
theorem resolved_exists : ∀ {roots : List Url} {path : Str} {u : Url}, resolveRelativePath env.fs roots path = .ok (some u) →
    env.fs u = true ∧ ∃ r ∈ roots, u.origin = r.origin
  | [], _, _, h => by cases h
  | r :: rs, path, u, h => by
    unfold resolveRelativePath at h
    split at h
    · cases h
    · simp only at h
      split at h
      · next hf => cases h; exact ⟨hf, r, by simp, rfl⟩
      · obtain ⟨h1, r', h2, h3⟩ := resolved_exists h
        exact ⟨h1, r', by simp [h2], h3⟩

omit [Unicode] in
theorem externalLocations_found : ∀ {roots : List Url} {ds : List ExternalDef} {ls : List Location}, externalLocations env roots ds = .ok ls →
    ∀ l ∈ ls, ∃ d ∈ ds, ∃ u, resolveRelativePath env.fs roots d.filepath = .ok (some u) ∧ l.uri = u.toStr
  | _, [], _, h, l, hl => by cases h; cases hl
  | roots, d :: ds, ls, h, l, hl => by
    unfold externalLocations at h
    split at h
    · cases h
    · obtain ⟨d', h1, h2⟩ := externalLocations_found h l hl
      exact ⟨d', by simp [h1], h2⟩
    · next u hu =>
      split at h
      · cases h
      · split at h
        · cases h
        · next ls' hls =>
          cases h
          rcases List.mem_cons.mp hl with rfl | hl
          · exact ⟨d, by simp, u, hu, rfl⟩
          · obtain ⟨d', h1, h2⟩ := externalLocations_found hls l hl
            exact ⟨d', by simp [h1], h2⟩

omit [Unicode] in
/-- The locations of a lookup: in the document, or (for definitions) where an external definition of the symbol resolves to. -/
theorem getUseDefRanges_found {u : Str} {p : Pos} {ud : UseDefKind} {r : Range × List Location}
    (h : getUseDefRanges env st u p ud = .ok (some r)) : ∀ l ∈ r.2, l.uri = u ∨ (ud = .def_ ∧
      ∃ doc o table ul, st.docs.get? u = some doc ∧ symbolAt doc p = some o ∧ tableOf doc.index o.symbolKind o.funcBodyId = .ok table ∧
        table.get? o.name = some ul ∧ ∃ d ∈ ul.externalDefs, ∃ url, resolveRelativePath env.fs st.roots d.filepath = .ok (some url) ∧
          l.uri = url.toStr) := by
  unfold getUseDefRanges at h
  split at h
  · cases h
  · next doc hd =>
    split at h
    · cases h
    · next o ho =>
      split at h
      · cases h
      · next table ht =>
        split at h
        · cases h
        · next ul hul =>
          simp only at h
          split at h
          · cases h
          · next ext he =>
            simp only [Outcome.ok.injEq, Option.map_eq_some_iff] at h
            obtain ⟨origin, _, rfl⟩ := h
            intro l hl
            rcases List.mem_append.mp hl with hl | hl
            · simp only [localLocations, List.mem_filterMap, Option.map_eq_some_iff] at hl
              obtain ⟨_, _, _, _, rfl⟩ := hl
              exact .inl rfl
            · by_cases hud : ud = .def_
              · rw [if_pos hud] at he
                exact .inr ⟨hud, doc, o, table, ul, hd, ho, ht, hul, externalLocations_found he l hl⟩
              · rw [if_neg hud] at he
                cases he
                cases hl

theorem published_names {u : Str} {v : Int} {t : Str} {x : ServerState × Publish} (h : onChange env st u v t = .ok x) {w : Str}
    (hw : NamesFile (.published x.2) w) : u = w := by
  unfold onChange at h
  split at h
  · cases h
  · next doc errs ha =>
    cases h
    rcases hw with hw | ⟨d, hd, y, hy, rfl⟩
    · exact hw
    · simp only [documentDiagnostics, List.mem_append] at hd
      rcases hd with (hd | hd) | hd
      · simp only [diagnosticsFromParser, List.mem_filterMap, Option.map_eq_some_iff] at hd
        obtain ⟨_, _, _, _, rfl⟩ := hd
        cases hy
      · simp only [diagnosticsFromStatements, List.mem_filterMap] at hd
        obtain ⟨i, _, hd⟩ := hd
        unfold diagnoseInstruction at hd
        split at hd
        · simp only [Option.map_eq_some_iff] at hd
          obtain ⟨_, _, rfl⟩ := hd
          cases hy
        · cases hd
      · simp only [diagnosticsFromIndex, List.mem_flatMap] at hd
        obtain ⟨⟨n, ud⟩, _, hd⟩ := hd
        unfold diagnoseSymbol at hd
        split at hd
        · simp only [List.mem_filterMap, Option.map_eq_some_iff] at hd
          obtain ⟨_, _, _, _, rfl⟩ := hd
          cases hy
        · split at hd
          · simp only [List.mem_filterMap] at hd
            obtain ⟨sp, _, hd⟩ := hd
            split at hd
            · cases hd
            · split at hd
              · cases hd
              · cases hd
                simp only [List.mem_singleton] at hy
                subst hy
                rfl
          · cases hd

theorem resolved_names {a a' : CodeAction} (h : codeActionResolve env st a = .ok (.ok a')) {w : Str} (hw : ActionNames a' w) :
    ∃ d, a.data = .shift d ∧ d.uri = w := by
  unfold codeActionResolve at h
  split at h
  · cases h
  · cases h
  · next d hd =>
    split at h
    · cases h
    · split at h
      · cases h
      · cases h
        rcases hw with hw | ⟨e, he, x, hx, rfl⟩
        · exact hw
        · cases he
          simp only [List.mem_singleton] at hx
          subst hx
          exact ⟨d, hd, rfl⟩

theorem resolveAll_names : ∀ {as as' : List CodeAction}, resolveAll env st as = .ok as' → ∀ a' ∈ as', ∀ w, ActionNames a' w →
    ∃ a ∈ as, ∃ d, a.data = .shift d ∧ d.uri = w
  | [], _, h, a', ha', _, _ => by cases h; cases ha'
  | a :: as, as', h, a', ha', w, hw => by
    unfold resolveAll at h
    split at h
    · cases h
    · cases h
    · next b hb =>
      split at h
      · cases h
      · next bs hbs =>
        cases h
        rcases List.mem_cons.mp ha' with rfl | ha'
        · exact ⟨a, by simp, resolved_names hb hw⟩
        · obtain ⟨c, h1, h2⟩ := resolveAll_names hbs a' ha' w hw
          exact ⟨c, by simp [h1], h2⟩

theorem offered_names {u : Str} {doc : AnalyzedDocument} {p : Pos} {as : List CodeAction} (h : offeredActions u doc p = .ok as) :
    ∀ a ∈ as, a.edit = none ∧ ∀ d, a.data = .shift d → d.uri = u := by
  unfold offeredActions at h
  split at h
  · cases h; intro a ha; cases ha
  · split at h
    · cases h
    · cases h; intro a ha; cases ha
    · cases h
      intro a ha
      simp only [List.mem_singleton] at ha
      subst ha
      refine ⟨rfl, fun d hd => ?_⟩
      cases hd
      rfl

theorem actions_names {u : Str} {rg : Range} {as : List CodeAction} (h : codeAction env st u rg = .ok (.ok (some as))) {w : Str}
    (hw : ∃ a ∈ as, ActionNames a w) : u = w := by
  obtain ⟨a, ha, hw⟩ := hw
  unfold codeAction at h
  split at h
  · cases h
  · split at h
    · cases h
    · split at h
      · cases h
      · next offered ho =>
        have hoff := offered_names ho
        split at h
        · cases h
          rcases hw with ⟨d, h1, rfl⟩ | ⟨e, h1, _⟩
          · exact ((hoff a ha).2 d h1).symm
          · rw [(hoff a ha).1] at h1; cases h1
        · split at h
          · cases h
          · next as' hr =>
            cases h
            obtain ⟨b, h1, d, h2, rfl⟩ := resolveAll_names hr a ha w hw
            exact ((hoff b h1).2 d h2).symm

omit [Unicode] in
theorem incomingParts_names {u rope : Str} : ∀ {i : Nat} {l : List (Spanned Str)}, ∀ p ∈ incomingParts u rope i l, ∀ k, p.location = some k → k.uri = u
  | _, [], p, hp, _, _ => by cases hp
  | i, (name, sp) :: rest, p, hp, k, hk => by
    unfold incomingParts at hp
    split at hp
    · exact incomingParts_names p hp k hk
    · simp only [List.mem_cons] at hp
      rcases hp with rfl | rfl | hp
      · cases hk
      · cases hk; rfl
      · exact incomingParts_names p hp k hk

omit [Unicode] in
theorem collectO_mem {α β : Type} {f : α → Outcome (List β)} : ∀ {l : List α} {ys : List β}, collectO f l = .ok ys →
    ∀ y ∈ ys, ∃ x ∈ l, ∃ zs, f x = .ok zs ∧ y ∈ zs
  | [], _, h, y, hy => by cases h; cases hy
  | x :: xs, ys, h, y, hy => by
    unfold collectO at h
    split at h
    · cases h
    · next zs hz =>
      split at h
      · cases h
      · next ws hws =>
        cases h
        rcases List.mem_append.mp hy with hy | hy
        · exact ⟨x, by simp, zs, hz, hy⟩
        · obtain ⟨x', h1, h2⟩ := collectO_mem hws y hy
          exact ⟨x', by simp [h1], h2⟩

theorem backtrace_names {doc : AnalyzedDocument} {roots : List Url} {hs : List InlayHint} (h : backtraceHints env roots doc = .ok hs) :
    ∀ x ∈ hs, ∀ p ∈ x.label, p.location = none := by
  intro x hx p hp
  obtain ⟨i, _, zs, hz, hxz⟩ := collectO_mem h x hx
  unfold backtraceHint at hz
  repeat' split at hz
  all_goals first
    | (cases hz; done)
    | (cases hz; cases hxz; done)
    | skip
  rename_i hh
  cases hz
  have hxz := List.mem_singleton.mp hxz
  subst hxz
  unfold inlayHintForBacktrace at hh
  simp only at hh
  repeat' split at hh
  all_goals first
    | (cases hh; done)
    | skip
  all_goals
    cases hh
    simp only [List.mem_cons, List.not_mem_nil, or_false] at hp
    rcases hp with rfl | rfl | rfl <;> rfl

theorem hints_names {u : Str} {hs : List InlayHint} (h : inlayHint env st u = .ok (some hs)) :
    ∀ x ∈ hs, ∀ p ∈ x.label, ∀ k, p.location = some k → k.uri = u := by
  unfold inlayHint at h
  split at h
  · cases h
  · split at h
    · cases h
    · next bt hbt =>
      cases h
      intro x hx p hp k hk
      simp only [List.mem_append] at hx
      rcases hx with (hx | hx) | hx
      · simp only [incomingHints, List.mem_flatMap, List.mem_filterMap] at hx
        obtain ⟨f, _, bb, _, hx⟩ := hx
        unfold incomingHint at hx
        repeat' split at hx
        all_goals first
          | (cases hx; done)
          | skip
        simp only [Option.map_eq_some_iff] at hx
        obtain ⟨_, _, rfl⟩ := hx
        exact incomingParts_names p hp k hk
      · rw [backtrace_names hbt x hx p hp] at hk
        cases hk
      · simp only [endHints, List.mem_filterMap] at hx
        obtain ⟨f, _, hx⟩ := hx
        split at hx
        · cases hx
        · simp only [Option.map_eq_some_iff] at hx
          obtain ⟨_, _, rfl⟩ := hx
          simp only [List.mem_singleton] at hp
          subst hp
          cases hk
          rfl

/-- What a reply names: the document asked about, or the target of an external definition. -/
theorem step_names {m : Msg} {r : Reply} (h : step env st m = .ok (st', r)) {w : Str} (hw : NamesFile r w) :
    AsksAbout m w ∨ ∃ u p, m = .gotoDefinition u p ∧
      ∃ doc o table ul, st.docs.get? u = some doc ∧ symbolAt doc p = some o ∧ tableOf doc.index o.symbolKind o.funcBodyId = .ok table ∧
        table.get? o.name = some ul ∧ ∃ d ∈ ul.externalDefs, ∃ url, resolveRelativePath env.fs st.roots d.filepath = .ok (some url) ∧
          w = url.toStr := by
  have hmap : ∀ {α : Type} {x : Outcome α} {f : α → ServerState × Reply}, x.map' f = .ok (st', r) → ∃ a, x = .ok a ∧ f a = (st', r) := by
    intro α x f hx
    cases x with
    | panic => cases hx
    | ok a => exact ⟨a, rfl, by simpa [Outcome.map'] using hx⟩
  cases m with
  | «initialize» p => cases h; cases hw
  | didOpen u v t =>
    obtain ⟨a, ha, hb⟩ := hmap h
    cases hb
    exact .inl (published_names ha hw)
  | didChange u v cs =>
    obtain ⟨a, ha, hb⟩ := hmap h
    cases hb
    cases cs with
    | nil => cases ha
    | cons c cs => exact .inl (published_names ha hw)
  | gotoDefinition u p =>
    obtain ⟨a, ha, hb⟩ := hmap h
    cases hb
    unfold gotoDefinition at ha
    split at ha
    · cases ha
    · next x hx =>
      cases ha
      cases x with
      | none => cases hw
      | some x =>
        obtain ⟨k, hk, rfl⟩ := hw
        simp only [toLinks, List.mem_map] at hk
        obtain ⟨l, hl, rfl⟩ := hk
        rcases getUseDefRanges_found hx l hl with e | ⟨_, e⟩
        · exact .inl e.symm
        · exact .inr ⟨u, p, rfl, e⟩
  | gotoDeclaration u p =>
    obtain ⟨a, ha, hb⟩ := hmap h
    cases hb
    unfold gotoDeclaration at ha
    split at ha
    · cases ha
    · next x hx =>
      cases ha
      cases x with
      | none => cases hw
      | some x =>
        obtain ⟨k, hk, rfl⟩ := hw
        simp only [toLinks, List.mem_map] at hk
        obtain ⟨l, hl, rfl⟩ := hk
        rcases getUseDefRanges_found hx l hl with e | ⟨e, _⟩
        · exact .inl e.symm
        · cases e
  | references u p =>
    obtain ⟨a, ha, hb⟩ := hmap h
    cases hb
    unfold references at ha
    split at ha
    · cases ha
    · next x hx =>
      cases ha
      cases x with
      | none => cases hw
      | some x =>
        obtain ⟨l, hl, rfl⟩ := hw
        rcases getUseDefRanges_found hx l hl with e | ⟨e, _⟩
        · exact .inl e.symm
        · cases e
  | semanticTokensFull u => obtain ⟨a, _, hb⟩ := hmap h; cases hb; cases hw
  | documentSymbol u => cases h; cases hw
  | prepareRename u p => cases h; cases hw
  | rename u p n =>
    obtain ⟨a, ha, hb⟩ := hmap h
    cases hb
    match a, ha, hw with
    | .error _, _, hw => cases hw
    | .ok e, ha, hw =>
      unfold rename at ha
      repeat' split at ha
      all_goals first
        | (cases ha; done)
        | skip
      cases ha
      obtain ⟨x, hx, rfl⟩ := hw
      simp only [List.mem_singleton] at hx
      subst hx
      exact .inl rfl
  | codeAction u rg =>
    obtain ⟨a, ha, hb⟩ := hmap h
    cases hb
    match a, ha, hw with
    | .error _, _, hw => cases hw
    | .ok none, _, hw => cases hw
    | .ok (some as), ha, hw => exact .inl (actions_names ha hw)
  | codeActionResolve a =>
    obtain ⟨x, ha, hb⟩ := hmap h
    cases hb
    match x, ha, hw with
    | .error _, _, hw => cases hw
    | .ok b, ha, hw => exact .inl (resolved_names ha hw)
  | foldingRange u => cases h; cases hw
  | inlayHint u =>
    obtain ⟨x, ha, hb⟩ := hmap h
    cases hb
    match x, ha, hw with
    | none, _, hw => cases hw
    | some hs, ha, ⟨y, hy, p, hp, k, hk, e⟩ => exact .inl ((hints_names ha y hy p hp k hk).symm.trans e)
  | codeLens u =>
    cases h
    cases hl : codeLens env st u with
    | none => rw [hl] at hw; cases hw
    | some ls =>
      rw [hl] at hw
      obtain ⟨c, hc, e⟩ := hw
      simp only [codeLens, Option.map_eq_some_iff] at hl
      obtain ⟨doc, _, rfl⟩ := hl
      simp only [List.mem_filterMap] at hc
      obtain ⟨f, _, hc⟩ := hc
      unfold codeLensOf at hc
      split at hc
      · simp only [Option.map_eq_some_iff] at hc
        obtain ⟨_, _, rfl⟩ := hc
        simp only [List.head?_cons, Option.mem_def, Option.some.injEq, Json.str.injEq] at e
        exact .inl e
      · cases hc
  | executeCommand c as =>
    cases h
    cases he : executeCommand st c as <;> rw [he] at hw <;> cases hw
  | shutdown => cases h; cases hw

/-- C102, for every state, message and reply: a document or file named in the reply is the one the message is about; only
go-to-definition may also name other files, which exist and have the scheme and host of a workspace folder. -/
theorem C102_named {m : Msg} {r : Reply} (h : step env st m = .ok (st', r)) {w : Str} (hw : NamesFile r w) :
    AsksAbout m w ∨ (∃ u p, m = .gotoDefinition u p) ∧ ∃ url root, w = url.toStr ∧ env.fs url = true ∧ root ∈ st.roots ∧ url.origin = root.origin := by
  rcases step_names h hw with e | ⟨u, p, rfl, _, _, _, _, _, _, _, _, d, _, url, h1, h2⟩
  · exact .inl e
  · obtain ⟨h3, root, h4, h5⟩ := resolved_exists h1
    exact .inr ⟨⟨u, p, rfl⟩, url, root, h2, h3, h4, h5⟩

/-- C102, where other files come from: go-to-definition on a function only names the files that the annotations of the function's
declarations resolve to; without tabs and line ends in the file names, these lie inside a workspace folder. -/
theorem C102_inside (hall : AllOpened st) (hroots : ∀ r ∈ st.roots, Folder r)
    (hloc : ∀ u text res n d, Known st u text res → ExternalLocation res.stmts n d → NoTabs d.filepath)
    {m : Msg} {r : Reply} (h : step env st m = .ok (st', r)) {w : Str} (hw : NamesFile r w) :
    AsksAbout m w ∨ ∃ u p text res o d url root, m = .gotoDefinition u p ∧ SymbolUnder st u p text res o ∧ o.symbolKind = .function ∧
      ExternalLocation res.stmts o.name d ∧ Resolves env.fs st.roots d.filepath url ∧ root ∈ st.roots ∧ Below root url ∧ w = url.toStr := by
  rcases step_names h hw with e | ⟨u, p, rfl, doc, o, table, ul, hd, hs, ht, hul, d, hdm, url, h1, h2⟩
  · exact .inl e
  · obtain ⟨text, res, hk⟩ := known_of hall hd
    obtain ⟨doc', hst', hrope, _, hix⟩ := opened_inv hk.1 hk.2
    rw [hd] at hst'
    cases hst'
    have hu := (symbolAt_under hk hd (p := p) (o := o)).mp hs
    have ho := hu.2.1
    obtain ⟨m', hm, hget, _⟩ := occurs_table hk.2 hix ho
    rw [hm] at ht
    cases ht
    rw [hget] at hul
    have hdef : o.symbolKind = .function ∧ ExternalLocation res.stmts o.name d := by
      obtain ⟨g, hinv, _, _, hext⟩ := index_inv hk.2 hix
      by_cases hkind : o.symbolKind = .function
      · have hnone : o.funcBodyId = none := by
          cases hb : o.funcBodyId with
          | none => rfl
          | some i =>
            have := ((occurs_scope hk.2 hix ho).1).mpr ⟨i, hb⟩
            rw [hkind] at this
            simp at this
        rw [hkind, hnone] at hul
        have := C22_external_defs hk.2 hix o.name d
        rw [hul] at this
        simp only [Option.getD_some] at this
        exact ⟨hkind, this.mp hdm⟩
      · have := hinv.ext o.symbolKind o.funcBodyId o.name
        rw [hul] at this
        simp only [Option.getD_some] at this
        rw [this, if_neg fun h => hkind h.1] at hdm
        cases hdm
    obtain ⟨x, h3, h4, h5⟩ := C50_inside_workspace_partial env.fs hroots (hloc u text res o.name d hk hdef.2)
    rw [h1] at h3
    cases h3
    obtain ⟨root, h6, h7⟩ := h5 url rfl
    exact .inr ⟨u, p, text, res, o, d, url, root, rfl, hu, hdef.1, hdef.2, (h4 url).mp rfl, h6, h7, h2⟩

theorem step_roots {m : Msg} {r : Reply} (h : step env st m = .ok (st', r)) {f : Url} (hf : f ∈ st'.roots) : f ∈ st.roots ∨ Announced [(env, m)] f := by
  have change : ∀ {u : Str} {v : Int} {t : Str} {x : ServerState × Publish}, onChange env st u v t = .ok x → x.1.roots = st.roots := by
    intro u v t x hx
    unfold onChange at hx
    split at hx
    · cases hx
    · cases hx; rfl
  cases m with
  | «initialize» p =>
    cases h
    simp only [initializeServer] at hf
    split at hf
    · next l hl =>
      rcases List.mem_append.mp hf with hf | hf
      · exact .inl hf
      · exact .inr ⟨env, p, by simp, .inl ⟨l, hl, hf⟩⟩
    · next hn =>
      split at hf
      · next u hu =>
        rcases List.mem_append.mp hf with hf | hf
        · exact .inl hf
        · rw [List.mem_singleton.mp hf]
          exact .inr ⟨env, p, by simp, .inr ⟨hn, hu⟩⟩
      · exact .inl hf
  | didOpen u v t =>
    simp only [step] at h
    cases ho : didOpen env st u v t with
    | panic => rw [ho] at h; cases h
    | ok x =>
      rw [ho] at h
      cases h
      rw [change ho] at hf
      exact .inl hf
  | didChange u v cs =>
    simp only [step] at h
    cases ho : didChange env st u v cs with
    | panic => rw [ho] at h; cases h
    | ok x =>
      rw [ho] at h
      cases h
      cases cs with
      | nil => cases ho
      | cons c cs =>
        rw [change ho] at hf
        exact .inl hf
  | _ => rw [C52_state (by exact trivial) h] at hf; exact .inl hf

/-- All search roots were announced. -/
theorem run_roots : ∀ {ms : List Step} {st st' : ServerState} {rs : List Reply}, run st ms = .ok (st', rs) → ∀ f ∈ st'.roots,
    f ∈ st.roots ∨ Announced ms f
  | [], _, _, _, h, f, hf => by cases h; exact .inl hf
  | (env, m) :: ms, st, st', rs, h, f, hf => by
    obtain ⟨s, r, rs', hs, hr, rfl⟩ := run_cons_inv h
    rcases run_roots hr f hf with h1 | ⟨e, p, h1, h2⟩
    · rcases step_roots hs h1 with h2 | ⟨e, p, h2, h3⟩
      · exact .inl h2
      · exact .inr ⟨e, p, by simp at h2; simp [h2], h3⟩
    · exact .inr ⟨e, p, by simp [h1], h2⟩

/-- C102 for sessions: after any messages, a reply names the document the message is about, or an existing file inside a folder the
client announced, to which an annotation of the function under the cursor resolves. -/
theorem C102_sessions {session : List Step} {rs : List Reply} (hrun : run {} session = .ok (st, rs)) (hf : ∀ f, Announced session f → Folder f)
    (hloc : ∀ u text res n d, Known st u text res → ExternalLocation res.stmts n d → NoTabs d.filepath)
    {m : Msg} {r : Reply} (h : step env st m = .ok (st', r)) {w : Str} (hw : NamesFile r w) :
    AsksAbout m w ∨ ∃ u p text res o d url folder, m = .gotoDefinition u p ∧ SymbolUnder st u p text res o ∧ o.symbolKind = .function ∧
      ExternalLocation res.stmts o.name d ∧ Resolves env.fs st.roots d.filepath url ∧ env.fs url = true ∧
      Announced session folder ∧ Below folder url ∧ w = url.toStr := by
  have hann : ∀ f ∈ st.roots, Announced session f := by
    intro f hm
    rcases run_roots hrun f hm with h1 | h1
    · cases h1
    · exact h1
  rcases C102_inside (run_allOpened (fun u doc hd => by cases hd) hrun) (fun f hm => hf f (hann f hm)) hloc h hw with
    e | ⟨u, p, text, res, o, d, url, root, h1, h2, h3, h4, h5, h6, h7, h8⟩
  · exact .inl e
  · obtain ⟨_, _, _, _, _, hex, _⟩ := id h5
    exact .inr ⟨u, p, text, res, o, d, url, root, h1, h2, h3, h4, h5, hex, hann root h6, h7, h8⟩

end

section Examples
attribute [local instance] asciiUnicode

/-- A server with `navText` meets the hypotheses. -/
example : AllOpened (serverWith [workspace] c!"u" navText) ∧ (∀ r ∈ (serverWith [workspace] c!"u" navText).roots, Folder r) ∧
    ∀ u text res n d, Known (serverWith [workspace] c!"u" navText) u text res → ExternalLocation res.stmts n d → NoTabs d.filepath := by
  have h := regular_of_calm (env := debugEnv) (roots := [workspace]) (uri := c!"u") (text := navText) (by decide +kernel) (by decide +kernel)
    (by intro r hr; rw [List.mem_singleton.mp hr]; exact .inr ⟨rfl, by decide⟩) (by intro v j entries e l file n h; cases h)
  exact ⟨h.1, by decide +kernel, h.2.locations⟩

/-- Go-to-definition on `@f` names a file of the workspace, and not the document. -/
example : ∃ st r, step debugEnv (serverWith [workspace] c!"u" navText) (.gotoDefinition c!"u" ⟨4, 6⟩) = .ok (st, r) ∧
    NamesFile r c!"file:///home/ws/src/a.cpp" ∧ ¬ AsksAbout (.gotoDefinition c!"u" ⟨4, 6⟩) c!"file:///home/ws/src/a.cpp" := by
  have h : gotoDefinition debugEnv (serverWith [workspace] c!"u" navText) c!"u" ⟨4, 6⟩ =
    .ok (some [{ origin := ⟨⟨4, 6⟩, ⟨4, 8⟩⟩, target := { uri := c!"file:///home/ws/src/a.cpp", range := ⟨⟨11, 0⟩, ⟨11, 0⟩⟩ } }]) := by
    decide +kernel
  refine ⟨serverWith [workspace] c!"u" navText, .links (some _), congrArg (fun x => Outcome.map' (fun r => (serverWith [workspace] c!"u" navText, Reply.links r)) x) h,
    ⟨_, List.mem_singleton.mpr rfl, rfl⟩, ?_⟩
  simp [AsksAbout]

/-- The references to `x` name the document. -/
example : ∃ st r, step debugEnv (serverWith [workspace] c!"u" navText) (.references c!"u" ⟨3, 0⟩) = .ok (st, r) ∧ NamesFile r c!"u" := by
  have h : references debugEnv (serverWith [workspace] c!"u" navText) c!"u" ⟨3, 0⟩ =
    .ok (some [{ uri := c!"u", range := ⟨⟨5, 4⟩, ⟨5, 5⟩⟩ }]) := by
    decide +kernel
  exact ⟨serverWith [workspace] c!"u" navText, .locations (some _), congrArg (fun x => Outcome.map' (fun r => (serverWith [workspace] c!"u" navText, Reply.locations r)) x) h,
    ⟨_, List.mem_singleton.mpr rfl, rfl⟩⟩

/-- The state of the examples is reached by a session in which the folder is announced and the document is opened. -/
example : ∃ session rs, run {} session = .ok (serverWith [workspace] c!"u" navText, rs) ∧ ∀ f, Announced session f ↔ f = workspace := by
  refine ⟨[(debugEnv, .initialize ⟨some [workspace], none, none⟩), (debugEnv, .didOpen c!"u" 1 navText)], ?_⟩
  have h : (match analyze navText with | .ok _ => true | .panic => false) = true := by decide +kernel
  cases ha : analyze navText with
  | panic => rw [ha] at h; cases h
  | ok x =>
    simp only [run, step, didOpen, onChange, ha, serverWith, Outcome.map', initializeServer]
    exact ⟨_, rfl, fun f => ⟨by rintro ⟨_, p, h1, h2⟩; simp at h1; simpa [h1.2] using h2, fun e =>
      ⟨debugEnv, ⟨some [workspace], none, none⟩, by simp, .inl ⟨[workspace], rfl, by simp [e]⟩⟩⟩⟩

/-- With a tab in the file name, go-to-definition leads out of the workspace folder `file:///home/ws`. -/
theorem C102_refuted_tab :
    gotoDefinition debugEnv (serverWith [workspace] c!"u" c!"declare void @f() !d\n!d = \".\t./secret:1\"\n") c!"u" ⟨0, 13⟩ =
      .ok (some [{ origin := ⟨⟨0, 13⟩, ⟨0, 15⟩⟩, target := { uri := c!"file:///home/secret", range := ⟨⟨0, 0⟩, ⟨0, 0⟩⟩ } }]) := by
  decide +kernel

end Examples

end HyperIR
