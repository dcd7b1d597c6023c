import Verif.Proofs.Effects

/-! C95: the effect of every message. -/

namespace HyperIR
open Spec

section
variable [Unicode] {env : Env} {st st' : ServerState}

/-- A request for a view of a document shows exactly what is to be shown; the state does not change. -/
theorem displays (hall : AllOpened st) (hreg : Regular env st) {m : Msg} {r : Reply} (h : step env st m = .ok (st', r)) :
    (match m with
      | .semanticTokensFull _ | .documentSymbol _ | .foldingRange _ | .inlayHint _ | .codeLens _ | .executeCommand _ _ => True
      | _ => False) → st' = st ∧ Displays env st m r := by
  have hmap : ∀ {α : Type} {x : Outcome α} {f : α → Reply}, (x.map' fun a => (st, f a)) = .ok (st', r) → ∃ a, x = .ok a ∧ st' = st ∧ r = f a := by
    intro α x f hx
    cases x with
    | panic => cases hx
    | ok a => cases hx; exact ⟨a, rfl, rfl, rfl⟩
  intro hm
  cases m with
  | semanticTokensFull u =>
    obtain ⟨a, ha, rfl, rfl⟩ := hmap h
    refine ⟨rfl, ?_⟩
    cases hd : st'.docs.get? u with
    | none =>
      unfold semanticTokensFull at ha
      rw [hd] at ha
      cases ha
      exact unknown_of hd
    | some doc =>
      obtain ⟨text, res, hk⟩ := known_of hall hd
      obtain ⟨l, rfl, hl⟩ := tokens_shown hk (hreg.size u text hk.1) ha
      exact ⟨text, res, hk, hl⟩
  | documentSymbol u =>
    simp only [step, Outcome.ok.injEq, Prod.mk.injEq] at h
    obtain ⟨rfl, rfl⟩ := h
    refine ⟨rfl, ?_⟩
    cases hs : documentSymbol env st u with
    | none =>
      refine unknown_of ?_
      unfold documentSymbol at hs
      simpa using hs
    | some l =>
      cases hd : st.docs.get? u with
      | none => simp [documentSymbol, hd] at hs
      | some doc =>
        obtain ⟨text, res, hk⟩ := known_of hall hd
        exact ⟨text, res, hk, outline_shown hk (hreg.size u text hk.1) hs⟩
  | foldingRange u =>
    simp only [step, Outcome.ok.injEq, Prod.mk.injEq] at h
    obtain ⟨rfl, rfl⟩ := h
    refine ⟨rfl, ?_⟩
    cases hs : foldingRange st u with
    | none =>
      refine unknown_of ?_
      unfold foldingRange at hs
      simpa using hs
    | some l =>
      cases hd : st.docs.get? u with
      | none => simp [foldingRange, hd] at hs
      | some doc =>
        obtain ⟨text, res, hk⟩ := known_of hall hd
        exact ⟨text, res, hk, folds_shown hk (hreg.size u text hk.1) hs⟩
  | codeLens u =>
    simp only [step, Outcome.ok.injEq, Prod.mk.injEq] at h
    obtain ⟨rfl, rfl⟩ := h
    refine ⟨rfl, ?_⟩
    cases hs : codeLens env st u with
    | none =>
      refine unknown_of ?_
      unfold codeLens at hs
      simpa using hs
    | some l =>
      cases hd : st.docs.get? u with
      | none => simp [codeLens, hd] at hs
      | some doc =>
        obtain ⟨text, res, hk⟩ := known_of hall hd
        exact ⟨text, res, hk, lenses_shown hk (hreg.size u text hk.1) hs⟩
  | inlayHint u =>
    obtain ⟨a, ha, rfl, rfl⟩ := hmap h
    refine ⟨rfl, ?_⟩
    unfold inlayHint at ha
    cases hd : st'.docs.get? u with
    | none =>
      rw [hd] at ha
      cases ha
      exact unknown_of hd
    | some doc =>
      obtain ⟨text, res, hk⟩ := known_of hall hd
      have hsize := hreg.size u text hk.1
      obtain ⟨doc', hst', hrope, _, hix⟩ := opened_inv hk.1 hk.2
      rw [hd] at hst' ha
      cases hst'
      simp only at ha
      cases hb : backtraceHints env st'.roots doc with
      | panic => rw [hb] at ha; cases ha
      | ok bt =>
        rw [hb] at ha
        cases ha
        exact ⟨text, res, _, bt, _, hk, rfl, incoming_shown hk.2 hsize hrope hix, traces_shown hreg hk hsize hd hb, ends_shown hk.2 hsize hrope hix⟩
  | executeCommand c args =>
    simp only [step, Outcome.ok.injEq, Prod.mk.injEq] at h
    obtain ⟨rfl, rfl⟩ := h
    exact ⟨rfl, command_shown hall rfl⟩
  | _ => exact hm.elim

/-- C95: every message has the described effect (`Effect`) on the state and the described reply.  With `C93_exact`, which says which messages end the
server instead. -/
theorem C95_server (hall : AllOpened st) (hreg : Regular env st) {m : Msg} {r : Reply} (h : step env st m = .ok (st', r)) : Effect env st m st' r := by
  have hsym : SymbolRequest m → st' = st ∧ (Correct env st m r ∨ Displays env st m r) := fun hm => (C94_answers hall hreg hm h).imp_right .inl
  have hview := fun hm => (displays hall hreg h hm).imp_right (Or.inr (a := Correct env st m r))
  cases m with
  | «initialize» p =>
    simp only [step, Outcome.ok.injEq, Prod.mk.injEq] at h
    obtain ⟨rfl, rfl⟩ := h
    refine ⟨?_, resolves_iff p, resolves_iff p, rfl, rfl, fun u t => Iff.rfl⟩
    unfold initializeServer NewFolders
    simp only
    cases p.workspaceFolders with
    | some l => exact ⟨l, .inl rfl, rfl⟩
    | none =>
      cases p.rootUri with
      | some u => exact ⟨[u], .inr ⟨rfl, rfl⟩, rfl⟩
      | none => exact ⟨[], .inr ⟨rfl, rfl⟩, (List.append_nil _).symm⟩
  | didOpen u v t =>
    cases hc : onChange env st u v t with
    | panic => simp [step, didOpen, hc, Outcome.map'] at h
    | ok x =>
      simp only [step, didOpen, hc, Outcome.map', Outcome.ok.injEq, Prod.mk.injEq] at h
      obtain ⟨rfl, rfl⟩ := h
      exact changed hc
  | didChange u v cs =>
    cases cs with
    | nil => simp [step, didChange, Outcome.map'] at h
    | cons c cs =>
      cases hc : onChange env st u v c.text with
      | panic => simp [step, didChange, hc, Outcome.map'] at h
      | ok x =>
        simp only [step, didChange, hc, Outcome.map', Outcome.ok.injEq, Prod.mk.injEq] at h
        obtain ⟨rfl, rfl⟩ := h
        obtain ⟨h1, h2, h3, res, h4, h5⟩ := changed hc
        exact ⟨c, cs, res, rfl, h1, h2, h3, h4, h5⟩
  | shutdown =>
    simp only [step, Outcome.ok.injEq, Prod.mk.injEq] at h
    obtain ⟨rfl, rfl⟩ := h
    rfl
  | gotoDefinition u p => exact hsym trivial
  | gotoDeclaration u p => exact hsym trivial
  | references u p => exact hsym trivial
  | prepareRename u p => exact hsym trivial
  | rename u p n => exact hsym trivial
  | codeAction u p => exact hsym trivial
  | codeActionResolve a => exact hsym trivial
  | semanticTokensFull u => exact hview trivial
  | documentSymbol u => exact hview trivial
  | foldingRange u => exact hview trivial
  | inlayHint u => exact hview trivial
  | codeLens u => exact hview trivial
  | executeCommand c as => exact hview trivial

/-- C95: in every session of which no message ends the server, every message has the described effect on the state it arrives in and the described
reply. -/
theorem C95_sessions {before after : List Step} {env : Env} {m : Msg} {st' : ServerState} {rs' : List Reply}
    (h : run {} (before ++ (env, m) :: after) = .ok (st', rs')) (hreg : ∀ st rs, run {} before = .ok (st, rs) → Regular env st) :
    ∃ st st1 rs r rest, run {} before = .ok (st, rs) ∧ Effect env st m st1 r ∧ run st1 after = .ok (st', rest) ∧ rs' = rs ++ r :: rest := by
  have hpre : ∀ (before : List Step) (s0 : ServerState) (rs' : List Reply), run s0 (before ++ (env, m) :: after) = .ok (st', rs') →
      ∃ st rs, run s0 before = .ok (st, rs) := by
    intro before
    induction before with
    | nil => exact fun s0 rs' _ => ⟨s0, [], rfl⟩
    | cons e before ih =>
      intro s0 rs' h
      obtain ⟨env', m'⟩ := e
      obtain ⟨s, r, rs1, h1, h2, rfl⟩ := run_cons_inv h
      obtain ⟨st, rs, h3⟩ := ih s rs1 h2
      refine ⟨st, r :: rs, ?_⟩
      unfold run
      rw [h1]
      simp only
      rw [h3]
  obtain ⟨st, rs, h1⟩ := hpre before {} rs' h
  obtain ⟨st1, r, rest, h2, h3, h4⟩ := run_middle h1 h
  exact ⟨st, st1, rs, r, rest, h1, C95_server (run_allOpened (fun u doc hd => by cases hd) h1) (hreg st rs h1) h2, h3, h4⟩

/-- C95: with `C93_exact`: every message either is one of those that end the server, or has the described effect. -/
theorem C95_total (hall : AllOpened st) (hreg : Regular env st) (m : Msg) :
    (Crashes env st m ∧ step env st m = .panic) ∨ (¬ Crashes env st m ∧ ∃ st' r, step env st m = .ok (st', r) ∧ Effect env st m st' r) := by
  cases h : step env st m with
  | panic => exact .inl ⟨(C93_exact hall hreg m).mp h, rfl⟩
  | ok x =>
    refine .inr ⟨fun hc => ?_, x.1, x.2, rfl, C95_server hall hreg h⟩
    rw [(C93_exact hall hreg m).mpr hc] at h
    cases h

end

section Examples
attribute [local instance] asciiUnicode

/-- A document with an umlaut, a line end inside a comment, a line that is not understood, an undefined symbol, a block without label and a function
that is defined twice. -/
def viewText : Str :=
  c!"# é\x0c end\n@v = 1\nnonsense\ndefine void @g2() {\nx:\n call void @h()\n br x\n}\ndefine void @g2() {\n ret\n}\n"

def viewState : ServerState := serverWith [workspace] c!"u" viewText

theorem viewState_regular {env : Env} (he : ∀ v, env.json v = none) : AllOpened viewState ∧ Regular env viewState :=
  regular_of_calm (by decide +kernel) (by decide +kernel) (by simp; exact .inr ⟨rfl, by decide⟩) (fun v j _ _ _ _ _ h => by rw [he v] at h; cases h)

theorem viewState_known : ∃ res, Known viewState c!"u" viewText res := by
  obtain ⟨res, h⟩ := parseFromStr_total viewText
  exact ⟨res, serverWith_opened (by decide +kernel), h⟩

/-- `Effect` holds of the folds that are shown. -/
example : Effect debugEnv viewState (.foldingRange c!"u") viewState (.folds (some
    [{ startLine := 3, endLine := 8, collapsedText := c!"1 basic blocks" }, { startLine := 8, endLine := 11, collapsedText := c!"0 basic blocks" },
     { startLine := 4, endLine := 7, collapsedText := c!"2 instructions" }, { startLine := 10, endLine := 10, collapsedText := c!"1 instructions" }])) := by
  obtain ⟨h1, h2⟩ := viewState_regular (env := debugEnv) fun _ => rfl
  refine C95_server h1 h2 ?_
  have : foldingRange viewState c!"u" = some
    [{ startLine := 3, endLine := 8, collapsedText := c!"1 basic blocks" }, { startLine := 8, endLine := 11, collapsedText := c!"0 basic blocks" },
     { startLine := 4, endLine := 7, collapsedText := c!"2 instructions" }, { startLine := 10, endLine := 10, collapsedText := c!"1 instructions" }] := by
    decide +kernel
  show Outcome.ok (viewState, Reply.folds (foldingRange viewState c!"u")) = _
  rw [this]

/-- It does not hold if a fold is missing. -/
example : ¬ Effect debugEnv viewState (.foldingRange c!"u") viewState (.folds (some
    [{ startLine := 3, endLine := 8, collapsedText := c!"1 basic blocks" }, { startLine := 8, endLine := 11, collapsedText := c!"0 basic blocks" },
     { startLine := 4, endLine := 7, collapsedText := c!"2 instructions" }])) := by
  rintro ⟨_, h | ⟨text, res, hk, functions, blocks, h1, h2, h3⟩⟩
  · exact h
  · obtain ⟨res', hk'⟩ := viewState_known
    obtain ⟨rfl, rfl⟩ := known_unique hk' hk
    have len : ∀ {α β : Type} {R : α → β → Prop} {l : List α} {l' : List β}, Each R l l' → l.length = l'.length := by
      intro α β R l l' h
      induction h with
      | nil => rfl
      | cons _ _ ih => simp [ih]
    have key : (match parseFromStr viewText with
        | .ok res => decide ((docFuncs res.stmts).length = 2 ∧ (docBlocks res.stmts).length = 2)
        | .panic => false) = true := by decide +kernel
    rw [hk.2] at key
    simp only [decide_eq_true_eq] at key
    have e1 := len h2
    have e2 := len h3
    have e3 := congrArg List.length h1
    rw [List.length_append, ← e1, ← e2, key.1, key.2] at e3
    simp at e3

/-- The hint at the label shows the loop, in the coordinates of the protocol as the server computes them. -/
example : (match inlayHint debugEnv viewState c!"u" with
    | .ok (some (hint :: _)) => decide (hint = { position := ⟨5, 1⟩, label := linkParts c!"u" c!"incoming: " [(c!"x", ⟨⟨4, 19⟩, ⟨5, 0⟩⟩)] })
    | _ => false) = true := by decide +kernel

/-- What is published. -/
example : (match onChange debugEnv {} c!"u" 7 viewText with
    | .ok (_, p) => decide (p.version = 7 ∧ p.diagnostics.map (fun d => (d.message, d.range.start)) =
        [(c!"expected global name", ⟨2, 6⟩), (c!"Use of undefined symbol `@h`", ⟨6, 10⟩), (c!"Symbol `@g2` already defined previously", ⟨9, 11⟩)])
    | .panic => false) = true := by decide +kernel

/-- A session that meets the hypotheses of `C95_sessions`. -/
example : ∃ st rs r, run {} [(debugEnv, .didOpen c!"u" 1 viewText)] = .ok (st, rs) ∧ Regular debugEnv st ∧
    run {} ([(debugEnv, .didOpen c!"u" 1 viewText)] ++ [(debugEnv, .foldingRange c!"u")]) = .ok (st, r) := by
  cases ha : analyze viewText with
  | panic => exact absurd ha (by
      have : (match analyze viewText with | .ok _ => true | .panic => false) = true := by decide +kernel
      intro h
      rw [h] at this
      cases this)
  | ok d =>
    have hs : serverWith [] c!"u" viewText = { docs := StrMap.insert [] c!"u" d.1 } := by
      unfold serverWith
      rw [ha]
      rfl
    obtain ⟨doc, errs⟩ := d
    have h1 : ∃ rs, run {} [(debugEnv, .didOpen c!"u" 1 viewText)] = .ok (serverWith [] c!"u" viewText, rs) := by
      rw [hs]
      simp only [run, step, didOpen, onChange, ha, Outcome.map']
      exact ⟨_, rfl⟩
    have h2 : ∃ r, run {} ([(debugEnv, .didOpen c!"u" 1 viewText)] ++ [(debugEnv, .foldingRange c!"u")]) = .ok (serverWith [] c!"u" viewText, r) := by
      rw [hs]
      simp only [List.cons_append, List.nil_append, run, step, didOpen, onChange, ha, Outcome.map']
      exact ⟨_, rfl⟩
    have h3 := (regular_of_calm (env := debugEnv) (roots := []) (uri := c!"u") (text := viewText) (by decide +kernel) (by decide +kernel) (by simp)
      (fun v j _ _ _ _ _ h => by cases h)).2
    obtain ⟨rs, h1⟩ := h1
    obtain ⟨r, h2⟩ := h2
    exact ⟨_, rs, r, h1, h3, h2⟩

end Examples
end HyperIR
