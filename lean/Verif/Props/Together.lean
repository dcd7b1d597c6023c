import Verif.Props.Answers
import Verif.Props.SemanticToken
import Verif.Spec.Together

/-! C100: the edits of a reply can be made together. -/

namespace HyperIR
open Spec

section
variable [Unicode] {env : Env} {st st' : ServerState} {text : Str} {res : ParserResult}

omit [Unicode] in
theorem shownPlace_has {off : Nat} {p : Pos} (h : ShownPlace text off p) : HasPlace text p := by
  obtain ⟨a, b, start, rfl, _, _, _, h1, h2, h3⟩ := h
  exact ⟨start, h1, by simp; omega, fun next hn => by rw [h2]; exact h3 next hn⟩

omit [Unicode] in
/-- What comes later in the text is shown at a later place, or at the same. -/
theorem shownPlace_le {i j : Nat} {p q : Pos} (hp : ShownPlace text i p) (hq : ShownPlace text j q) (hij : i ≤ j) : PosLe p q := by
  obtain ⟨a, b, start, h0, h1, _, _, h2, h3, _⟩ := hp
  obtain ⟨a', b', start', h0', _, h1', _, h2', h3', h4'⟩ := hq
  have hlen : a.length ≤ a'.length := by
    rcases Nat.lt_or_ge a'.length a.length with hlt | hle
    · exfalso
      have he : a' ++ b' = a ++ b := by rw [← h0, ← h0']
      rcases List.append_eq_append_iff.mp he with ⟨c, hc, hb⟩ | ⟨c, hc, _⟩
      · cases c with
        | nil => rw [hc] at hlt; simp at hlt
        | cons x c =>
          have := h1' x (by rw [hb]; rfl)
          rw [hc] at h1
          simp only [utf8Len_append] at this h1
          simp only [utf8Len] at this h1
          omega
      · rw [hc] at hlt
        simp at hlt
        omega
    · exact hle
  rcases Nat.lt_trichotomy p.line q.line with hl | hl | hl
  · exact .inl hl
  · rw [hl] at h2
    have e1 := lineBegins_sound h2
    rw [lineBegins_sound h2'] at e1
    cases e1
    exact .inr ⟨hl, by omega⟩
  · obtain ⟨k, hk, hle⟩ := lineBegins_earlier h2 hl
    have := h4' k hk
    omega

/-- A variable with the name of a function has definitions only. -/
theorem shadowed_shape {toks : List (Spanned Token)} {ss : List Statement} {o : SymbolOccurrence} (ho : Occurs toks ss o) (hs : Shadowed ss o) :
    o.symbolKind = .globalVar ∧ o.useDef = .def_ ∧ o.funcBodyId = none := by
  rcases ho with ho | ⟨⟨t, _, ht⟩, _⟩
  · obtain ⟨hk, _⟩ := hs
    have key : ∀ (ss : List Statement) (i : Nat), ∀ o ∈ docOccs i ss, o.symbolKind = .globalVar → o.useDef = .def_ ∧ o.funcBodyId = none := by
      intro ss
      induction ss with
      | nil => intro i o ho; cases ho
      | cons s ss ih =>
        intro i o ho hk
        rcases List.mem_append.mp ho with ho | ho
        · cases s with
          | globalVar name _ => simp [stmtOccs, occ] at ho; subst ho; simp
          | funcDecl sig _ _ => simp [stmtOccs, occ] at ho; subst ho; simp at hk
          | funcDependencies _ _ => simp [stmtOccs] at ho
          | dbgAnnotation name _ => simp [stmtOccs, occ] at ho; subst ho; simp at hk
          | funcDef _ sig body =>
            rcases List.mem_cons.mp ho with rfl | ho
            · simp [occ] at hk
            · simp only [funcOccs, blockOccs, instrOccs, List.mem_append, List.mem_map, List.mem_flatMap] at ho
              rcases ho with ⟨_, _, rfl⟩ | ⟨_, _, ⟨_, _, rfl⟩ | ⟨_, _, ⟨_, _, rfl⟩ | ⟨_, _, rfl⟩⟩⟩ <;> simp [occ] at hk
        · exact ih _ o ho hk
    exact ⟨hk, key ss 0 o ho hk⟩
  · exact absurd hs (tokenUse_visible ht)

/-- There are no two occurrences of symbols of one kind at the same range. -/
theorem occurs_kind {ix : HIRIndex} (h : parseFromStr text = .ok res) (hix : createIndex text res.tokens res.stmts = .ok ix) {o o' : SymbolOccurrence}
    (ho : Occurs res.tokens res.stmts o) (ho' : Occurs res.tokens res.stmts o') (hk : o.symbolKind = o'.symbolKind) (he : o.span = o'.span) : o = o' := by
  have hname := occurs_name h ho ho' he
  by_cases hs : Shadowed res.stmts o
  · obtain ⟨h1, h2, h3⟩ := shadowed_shape ho hs
    obtain ⟨h1', h2', h3'⟩ := shadowed_shape ho' (by unfold Shadowed at hs ⊢; rwa [← hk, ← hname])
    obtain ⟨_, _, _, _, _⟩ := o
    obtain ⟨_, _, _, _, _⟩ := o'
    simp only at *
    subst h1 h2 h3 h1' h2' h3' hname he
    rfl
  · exact occurs_visible h hix ho ho' he hs (by unfold Shadowed at hs ⊢; rwa [← hk, ← hname])

omit [Unicode] in
theorem each_source {α β : Type} {R : α → β → Prop} {as : List α} {bs : List β} (h : Each R as bs) {b : β} (hb : b ∈ bs) : ∃ a ∈ as, R a b := by
  induction h with
  | nil => cases hb
  | cons h1 _ ih =>
    rcases List.mem_cons.mp hb with rfl | hb
    · exact ⟨_, by simp, h1⟩
    · obtain ⟨a, ha, h⟩ := ih hb
      exact ⟨a, by simp [ha], h⟩

/-- Edits at different occurrences of symbols of one kind can be made together. -/
theorem together_edited (hk : Known st uri text res) {changes : List (SymbolOccurrence × Str)} {edits : List TextEdit} (he : Edited text changes edits)
    (hn : (changes.map Prod.fst).Nodup) {k : SymbolKind} (ho : ∀ c ∈ changes, Occurs res.tokens res.stmts c.1 ∧ c.1.symbolKind = k) : Together text edits := by
  obtain ⟨doc, _, _, _, hix⟩ := opened_inv hk.1 hk.2
  unfold Edited at he
  induction he with
  | nil => exact ⟨by simp, .nil⟩
  | @cons c e cs es h1 h2 ih =>
    rw [List.map_cons, List.nodup_cons] at hn
    obtain ⟨ih1, ih2⟩ := ih hn.2 (fun c hc => ho c (by simp [hc]))
    have hc := ho c (by simp)
    have htok := (C02_token_spans hk.2).1 _ (occurs_token hk.2 hc.1)
    rw [occTok_span] at htok
    constructor
    · intro x hx
      rcases List.mem_cons.mp hx with rfl | hx
      · exact ⟨shownPlace_has h1.2.1, shownPlace_has h1.2.2, shownPlace_le h1.2.1 h1.2.2 (Nat.le_of_lt htok.1)⟩
      · exact ih1 x hx
    · refine .cons (fun x hx => ?_) ih2
      obtain ⟨d, hd, h3⟩ := each_source h2 hx
      have hdo := ho d (by simp [hd])
      have hne : c.1.span ≠ d.1.span := by
        intro heq
        have := occurs_kind hk.2 hix hc.1 hdo.1 (hc.2.trans hdo.2.symm) heq
        exact hn.1 (by rw [this]; exact List.mem_map_of_mem hd)
      rcases occurs_disjoint hk.2 hc.1 hdo.1 hne with hle | hle
      · exact .inl (shownPlace_le h1.2.2 h3.2.1 hle)
      · exact .inr (shownPlace_le h3.2.2 h1.2.1 hle)

theorem together_renumbered (hk : Known st uri text res) {k : SymbolKind} {f : Option Nat} {start shift : Int} {edits : List TextEdit}
    (h : Renumbered text res k f start shift edits) : Together text edits := by
  obtain ⟨changes, h1, h2, h3⟩ := h
  exact together_edited hk h1 h2 (k := k) fun c hc => ⟨((h3 c.1 c.2).mp hc).1, ((h3 c.1 c.2).mp hc).2.1⟩

/-- C100: whatever edits a reply contains, they are edits of one open document, the one the request is about, and in its current text they can be made
together. -/
theorem C100_edits (hall : AllOpened st) (hsz : ∀ u text, Opened st u text → text.length < 2 ^ 32) {m : Msg} {r : Reply}
    (h : step env st m = .ok (st', r)) {w : WorkspaceEdit} (hw : Asks r w) :
    ∃ uri text edits, AboutDoc m uri ∧ Opened st uri text ∧ w = [(uri, edits)] ∧ Together text edits := by
  have hother : ∀ {α : Type} {x : Outcome α} {f : α → ServerState × Reply}, x.map' f = .ok (st', r) → ∃ a, f a = (st', r) := by
    intro α x f hx
    cases x with
    | panic => cases hx
    | ok a => exact ⟨a, by simpa [Outcome.map'] using hx⟩
  by_cases hm : EditRequest m
  · obtain ⟨rfl, hc⟩ := answers_edits hall hsz hm h
    cases m with
    | rename u p req =>
      cases r with
      | edit e =>
        cases hw
        obtain ⟨text, res, o, edits, h1, rfl, h2⟩ := hc
        refine ⟨u, text, edits, rfl, h1.1.1, rfl, ?_⟩
        rcases h2 with ⟨_, name, occs, _, h3, h4⟩ | ⟨k, pre, start, _, _, h3⟩
        · refine together_edited h1.1 h4 (k := o.symbolKind) ?_ ?_
          · rw [List.map_map]
            simpa [Function.comp_def] using h3.1
          · intro c hc
            obtain ⟨o', ho', rfl⟩ := List.mem_map.mp hc
            have := (h3.2 o').mp ho'
            exact ⟨this.1, this.2.1⟩
        · exact together_renumbered h1.1 h3
      | error e => exact hw.elim
      | _ => exact hc.elim
    | codeAction u p =>
      cases r with
      | actions l =>
        cases l with
        | none => exact hw.elim
        | some l =>
          obtain ⟨a, ha, hw⟩ := hw
          obtain ⟨_, _, ⟨rfl, _⟩ | ⟨text, res, o, pre, nr, edit, h1, _, rfl, h2⟩⟩ := hc
          · cases ha
          · simp only [List.mem_singleton] at ha
            subst ha
            simp only at hw
            subst hw
            rcases h2 with ⟨_, h2⟩ | ⟨_, edits, h2, h3⟩
            · cases h2
            · cases h2
              exact ⟨u, text, edits, rfl, h1.1.1, rfl, together_renumbered h1.1 h3⟩
      | error e => exact hw.elim
      | _ => exact hc.elim
    | codeActionResolve a =>
      cases r with
      | action a' =>
        obtain ⟨d, text, res, edits, h1, h2, rfl, h3⟩ := hc
        cases hw
        exact ⟨d.uri, text, edits, ⟨d, h1, rfl⟩, h2.1, rfl, together_renumbered h2 h3⟩
      | error e => exact hw.elim
      | _ => exact hc.elim
    | _ => exact hm.elim
  · cases m with
    | rename => exact absurd trivial hm
    | codeAction => exact absurd trivial hm
    | codeActionResolve => exact absurd trivial hm
    | «initialize» => simp only [step, Outcome.ok.injEq, Prod.mk.injEq] at h; rw [← h.2] at hw; exact hw.elim
    | documentSymbol => simp only [step, Outcome.ok.injEq, Prod.mk.injEq] at h; rw [← h.2] at hw; exact hw.elim
    | prepareRename => simp only [step, Outcome.ok.injEq, Prod.mk.injEq] at h; rw [← h.2] at hw; exact hw.elim
    | foldingRange => simp only [step, Outcome.ok.injEq, Prod.mk.injEq] at h; rw [← h.2] at hw; exact hw.elim
    | codeLens => simp only [step, Outcome.ok.injEq, Prod.mk.injEq] at h; rw [← h.2] at hw; exact hw.elim
    | shutdown => simp only [step, Outcome.ok.injEq, Prod.mk.injEq] at h; rw [← h.2] at hw; exact hw.elim
    | executeCommand c as =>
      simp only [step, Outcome.ok.injEq, Prod.mk.injEq] at h
      rw [← h.2] at hw
      cases hx : executeCommand st c as <;> rw [hx] at hw <;> exact hw.elim
    | _ => obtain ⟨a, ha⟩ := hother h; cases ha; exact hw.elim

/-- C100 for whole sessions. -/
theorem C100_sessions {before after : List Step} {env : Env} {m : Msg} {st st' : ServerState} {rs rs' : List Reply}
    (h : run {} before = .ok (st, rs)) (h' : run {} (before ++ (env, m) :: after) = .ok (st', rs'))
    (hsz : ∀ u text, Opened st u text → text.length < 2 ^ 32) :
    ∃ r rest, rs' = rs ++ r :: rest ∧ ∀ w, Asks r w → ∃ uri text edits, AboutDoc m uri ∧ Opened st uri text ∧ w = [(uri, edits)] ∧ Together text edits := by
  obtain ⟨st1, r, rest, h1, h2, h3⟩ := run_middle h h'
  exact ⟨r, rest, h3, fun w hw => C100_edits (run_allOpened (fun u doc hd => by cases hd) h) hsz h1 hw⟩

end

section Examples
attribute [local instance] asciiUnicode

/-- An umlaut before the symbols, so that the ranges are not those of the names; and a variable with the name of the function. -/
def togetherText : Str := c!"; é\n@f1 = 1\ndeclare void @f1()\n"

theorem together_reply : (match step debugEnv (serverWith [] c!"u" togetherText) (.rename c!"u" ⟨1, 1⟩ c!"g") with
    | .ok (_, .edit e) => some e
    | _ => none) = some [(c!"u", [⟨⟨⟨2, 12⟩, ⟨2, 15⟩⟩, c!"@g"⟩, ⟨⟨⟨0, 3⟩, ⟨1, 2⟩⟩, c!"@g"⟩])] := by
  decide +kernel

/-- The theorem says that these edits can be made together. -/
example : Together togetherText [⟨⟨⟨2, 12⟩, ⟨2, 15⟩⟩, c!"@g"⟩, ⟨⟨⟨0, 3⟩, ⟨1, 2⟩⟩, c!"@g"⟩] := by
  have h := together_reply
  split at h
  · rename_i e hs
    cases h
    have hopen : Opened (serverWith [] c!"u" togetherText) c!"u" togetherText := serverWith_opened (by decide +kernel)
    obtain ⟨hall, hreg⟩ := regular_of_calm (env := debugEnv) (roots := []) (uri := c!"u") (text := togetherText) (by decide +kernel) (by decide +kernel)
      (by simp) (fun v j _ _ _ _ _ h => by cases h)
    obtain ⟨uri, text, edits, rfl, h1, h2, h3⟩ := C100_edits hall hreg.size hs rfl
    cases h2
    obtain ⟨res, hp⟩ := parseFromStr_total text
    obtain ⟨res', hp'⟩ := parseFromStr_total togetherText
    obtain ⟨rfl, _⟩ := known_unique ⟨h1, hp⟩ ⟨hopen, hp'⟩
    exact h3
  · cases h

end Examples
end HyperIR
