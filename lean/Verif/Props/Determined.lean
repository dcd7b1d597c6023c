import Verif.Props.Effects
import Verif.Proofs.JoinProblems
import Verif.Spec.Determined

/-
The descriptions of the answers (C94) and of the effects of messages (C95) leave no freedom but the order of parts.
-/

namespace HyperIR
open Spec

theorem each_fun {α β : Type} {R : α → β → Prop} {as : List α} {bs bs' : List β} (hu : ∀ a ∈ as, ∀ b b', R a b → R a b' → b = b') (h : Each R as bs)
    (h' : Each R as bs') : bs = bs' := by
  induction h generalizing bs' with
  | nil => cases h'; rfl
  | cons h1 _ ih =>
    cases h' with
    | cons h3 h4 => rw [hu _ (by simp) _ _ h1 h3, ih (fun a ha => hu a (by simp [ha])) h4]

theorem each_perm_fun {α β : Type} {R : α → β → Prop} {as as' : List α} {bs bs' : List β} (hu : ∀ a ∈ as, ∀ b b', R a b → R a b' → b = b')
    (h : Each R as bs) (h' : Each R as' bs') (hp : as.Perm as') : bs.Perm bs' := by
  obtain ⟨cs, h1, h2⟩ := each_perm_right hp h'
  rw [each_fun hu h h2]
  exact h1

theorem picks_fun {α β : Type} {R : α → β → Prop} {as : List α} {bs bs' : List β} (hu : ∀ a ∈ as, ∀ b b', R a b → R a b' → b = b') (h : Picks R as bs)
    (h' : Picks R as bs') : bs = bs' := by
  induction h generalizing bs' with
  | nil => cases h'; rfl
  | take h1 _ ih =>
    cases h' with
    | take h3 h4 => rw [hu _ (by simp) _ _ h1 h3, ih (fun a ha => hu a (by simp [ha])) h4]
    | skip h3 h4 => exact absurd h1 (h3 _)
  | skip h1 _ ih =>
    cases h' with
    | take h3 h4 => exact absurd h3 (h1 _)
    | skip h3 h4 => exact ih (fun a ha => hu a (by simp [ha])) h4

theorem shownRange_unique {text : Str} (hsize : text.length < 2 ^ 32) {sp : Span} {r r' : Range} (h : ShownRange text sp r) (h' : ShownRange text sp r') :
    r = r' := by
  have e := (rangeToLsp_shown hsize).mpr h
  rw [(rangeToLsp_shown hsize).mpr h'] at e
  exact (Option.some.inj e).symm

theorem located_unique {uri text : Str} (hsize : text.length < 2 ^ 32) {occs : List SymbolOccurrence} {l l' : List Location} (h : Located uri text occs l)
    (h' : Located uri text occs l') : l = l' := by
  refine each_fun ?_ h h'
  rintro o _ ⟨u1, r1⟩ ⟨u2, r2⟩ ⟨rfl, h1⟩ ⟨rfl, h2⟩
  have e := shownRange_unique hsize h1 h2
  simp only at e
  subst e
  rfl

theorem isLocation_unique {def_ : List (Spanned Token)} {d d' : ExternalDef} (h : IsLocation def_ d) (h' : IsLocation def_ d') : d = d' := by
  have e := parseExternalDef_iff.mpr h
  rw [parseExternalDef_iff.mpr h'] at e
  exact (Option.some.inj e).symm

theorem locationsOf_unique {f : Str} {before ss : List Statement} {ds ds' : List ExternalDef} (h : LocationsOf f before ss ds)
    (h' : LocationsOf f before ss ds') : ds = ds' := by
  induction h generalizing ds' with
  | nil => cases h'; rfl
  | location h1 h2 _ ih =>
    cases h' with
    | location h4 h5 h6 => rw [isLocation_unique h1 h4, ih h6]
    | other h4 h5 => exact absurd h2 (h4 _ _ _ rfl h1)
  | other h1 _ ih =>
    cases h' with
    | location h4 h5 h6 => exact absurd h5 (h1 _ _ _ rfl h4)
    | other h4 h5 => exact ih h5

theorem locationsOf_member {f : Str} {before ss : List Statement} {ds : List ExternalDef} (h : LocationsOf f before ss ds) {d : ExternalDef} (hd : d ∈ ds) :
    ExternalLocation (before ++ ss) f d := by
  induction h with
  | nil => cases hd
  | location h1 h2 _ ih =>
    rcases List.mem_cons.mp hd with rfl | hd
    · exact ⟨_, _, _, _, rfl, h1, h2⟩
    · have := ih hd
      rwa [List.append_assoc] at this
  | other h1 _ ih =>
    have := ih hd
    rwa [List.append_assoc] at this

theorem lineIndex_unique {n i i' : Nat} (h : LineIndex n i) (h' : LineIndex n i') : i = i' := by
  unfold LineIndex at h h'
  omega

theorem fits_unique {k k' t t' i : Int} (h : Fits64 k) (h' : Fits64 k') (e : i = k + t * 2 ^ 64) (e' : i = k' + t' * 2 ^ 64) : k = k' :=
  fits64_unique h h' (e.symm.trans e')

theorem numberText_unique {i : Int} {w w' : Str} (h : NumberText i w) (h' : NumberText i w') : w = w' := by
  obtain ⟨j, t, h1, h2, h3⟩ := h
  obtain ⟨j', t', h4, h5, h6⟩ := h'
  have := fits_unique h1 h4 h2 h5
  subst this
  rcases h3 with ⟨h3, rfl⟩ | ⟨h3, h7⟩ <;> rcases h6 with ⟨h6, rfl⟩ | ⟨h6, h8⟩
  · rfl
  · exact absurd h3 h6
  · exact absurd h6 h3
  · exact canonical_unique h7 h8

section
variable [Unicode] {env : Env} {st : ServerState}

omit [Unicode] in
theorem shiftAmount_unique {req : Str} {k k' : Int} (h : ShiftAmount req k) (h' : ShiftAmount req k') : k = k' := by
  obtain ⟨w, i, t, h1, h2, h3⟩ := h
  obtain ⟨w', i', t', h4, h5, h6⟩ := h'
  have num : ∀ {w : Str} {i i' : Int}, SignedNumber w i → SignedNumber w i' → i = i' := by
    intro w i i' h h'
    have e := parseI64_iff.mpr h
    rw [parseI64_iff.mpr h'] at e
    exact (Option.some.inj e).symm
  rcases h3 with ⟨rfl, e⟩ | ⟨rfl, e⟩ <;> rcases h6 with ⟨h6, e'⟩ | ⟨h6, e'⟩ <;> cases h6 <;> cases num h1 h4 <;> exact fits_unique h2 h5 e e'

theorem renumbers_unique {start shift : Int} {name new new' : Str} (h : Renumbers start shift name new) (h' : Renumbers start shift name new') : new = new' := by
  obtain ⟨pre, nr, w, h1, _, h2, rfl⟩ := h
  obtain ⟨pre', nr', w', h3, _, h4, rfl⟩ := h'
  obtain ⟨rfl, rfl⟩ := numbered_unique h1 h3
  rw [numberText_unique h2 h4]

theorem edited_perm {text : Str} (hsize : text.length < 2 ^ 32) {cs cs' : List (SymbolOccurrence × Str)} {es es' : List TextEdit} (h : Edited text cs es)
    (h' : Edited text cs' es') (hp : cs.Perm cs') : es.Perm es' := by
  refine each_perm_fun ?_ h h' hp
  rintro c _ ⟨r1, n1⟩ ⟨r2, n2⟩ ⟨rfl, h1⟩ ⟨rfl, h2⟩
  have e := shownRange_unique hsize h1 h2
  simp only at e
  subst e
  rfl

theorem renumbered_perm {text : Str} (hsize : text.length < 2 ^ 32) {res : ParserResult} {k : SymbolKind} {f : Option Nat} {start shift : Int}
    {es es' : List TextEdit} (h : Renumbered text res k f start shift es) (h' : Renumbered text res k f start shift es') : es.Perm es' := by
  obtain ⟨cs, h1, h2, h3⟩ := h
  obtain ⟨cs', h4, h5, h6⟩ := h'
  have nodup : ∀ {l : List (SymbolOccurrence × Str)}, (l.map Prod.fst).Nodup → l.Nodup := by
    intro l hl
    exact (List.pairwise_map.mp hl).imp fun h e => h (by rw [e])
  refine edited_perm hsize h1 h4 ((List.perm_ext_iff_of_nodup (nodup h2) (nodup h5)).mpr ?_)
  rintro ⟨o, new⟩
  rw [h3, h6]

theorem lists_perm {res : ParserResult} {P : SymbolOccurrence → Prop} {l l' : List SymbolOccurrence} (h : Lists res P l) (h' : Lists res P l') : l.Perm l' :=
  (List.perm_ext_iff_of_nodup h.1 h'.1).mpr fun o => by rw [h.2, h'.2]

theorem inRole_unique {text : Str} {res : ParserResult} (hp : parseFromStr text = .ok res) {o : SymbolOccurrence} {ud : UseDefKind}
    {l l' : List SymbolOccurrence} (h : InRole res o ud l) (h' : InRole res o ud l') : l = l' := by
  have hl := h.2
  have hl' := h'.2
  unfold InOrder at hl hl'
  rw [List.pairwise_map] at hl hl'
  refine List.Perm.eq_of_pairwise ?_ hl hl' (lists_perm h.1 h'.1)
  intro a b ha hb h1 h2
  have := (occurs_inside hp ((h.1.2 a).mp ha).1).1
  have := (occurs_inside hp ((h'.1.2 b).mp hb).1).1
  omega

theorem newName_unique {k : SymbolKind} {req name name' : Str} (h : NewName k req name) (h' : NewName k req name') : name = name' := by
  have e := ((checkNewName_spec k req).1 name).mpr h
  rw [((checkNewName_spec k req).1 name').mpr h'] at e
  cases e
  rfl

theorem withoutSigil_eq {k : SymbolKind} {req body : Str} (h : WithoutSigil k req body) : body = stripPrefix (sigilOf k) req := by
  obtain ⟨sigil, h1, h2⟩ := h
  rw [sigil_iff] at h1
  subst h1
  rcases stripPrefix_spec (sigilOf k) req with h3 | ⟨h3, h4⟩ <;> rcases h2 with h2 | ⟨h2, rfl⟩
  · exact List.append_cancel_left (h2.symm.trans h3)
  · exact absurd h3 (h2 _)
  · exact absurd h2 (h4 _)
  · exact h3

theorem not_shiftAmount {req : Str} (h : ¬ Relative req) (k : Int) : ¬ ShiftAmount req k := by
  rintro ⟨w, i, t, _, _, ⟨rfl, _⟩ | ⟨rfl, _⟩⟩
  · exact h ⟨w, .inl rfl⟩
  · exact h ⟨w, .inr rfl⟩

theorem refused_unique {o : SymbolOccurrence} {req msg msg' : Str} (h : Refused o req msg) (h' : Refused o req msg') : msg = msg' := by
  rcases h with ⟨h1, h2, rfl⟩ | ⟨⟨k, h1⟩, h2, rfl⟩ | ⟨h1, body, h2, h3⟩ <;> rcases h' with ⟨h4, h5, rfl⟩ | ⟨⟨k', h4⟩, h5, rfl⟩ | ⟨h4, body', h5, h6⟩
  · rfl
  · exact absurd h4 (h2 _)
  · exact absurd h1 h4
  · exact absurd h1 (h5 _)
  · rfl
  · exact absurd h1 (not_shiftAmount h4 _)
  · exact absurd h4 h1
  · exact absurd h4 (not_shiftAmount h1 _)
  · rw [withoutSigil_eq h2] at h3
    rw [withoutSigil_eq h5] at h6
    rcases h3 with ⟨⟨c, hc, hn, hn'⟩, rfl⟩ | ⟨ha, _, _, rfl⟩ <;> rcases h6 with ⟨⟨c', hc', hm, hm'⟩, rfl⟩ | ⟨hb, _, _, rfl⟩
    · rfl
    · exact absurd (hb c hc) (by simp [hn, hn'])
    · exact absurd (ha c' hc') (by simp [hm, hm'])
    · rfl

/-- A refused name is not accepted. -/
theorem refused_not_newName {o : SymbolOccurrence} {req msg name : Str} (hr : ¬ Relative req) (h : Refused o req msg) : ¬ NewName o.symbolKind req name := by
  rintro ⟨sigil, body, h1, h2, _, _, h5, h6⟩
  rw [sigil_iff] at h1
  subst h1
  have hb := stripPrefix_of_body h5 h2
  rcases h with ⟨h, _⟩ | ⟨⟨k, h⟩, _⟩ | ⟨_, body', h, h'⟩
  · exact hr h
  · exact not_shiftAmount hr _ h
  · rw [withoutSigil_eq h, hb] at h'
    rcases h' with ⟨⟨c, hc, hn, hn'⟩, _⟩ | ⟨_, ⟨c, hc, hn⟩, hk, _⟩
    · exact absurd (h5 c hc) (by simp [hn, hn'])
    · rw [h6 hk c hc] at hn
      cases hn

theorem under_unique {u : Str} {p : Pos} {text text' : Str} {res res' : ParserResult} {o o' : SymbolOccurrence} (h : SymbolUnder st u p text res o)
    (h' : SymbolUnder st u p text' res' o') : text' = text ∧ res' = res ∧ o' = o := by
  obtain ⟨rfl, rfl⟩ := known_unique h.1 h'.1
  obtain ⟨doc, hst, _⟩ := opened_inv h.1.1 h.1.2
  have e := (symbolAt_under h.1 hst).mpr h
  rw [(symbolAt_under h.1 hst).mpr h'] at e
  exact ⟨rfl, rfl, Option.some.inj e⟩

omit [Unicode] in
theorem links_ext {origin : Range} : ∀ {l l' : List LocationLink}, (∀ k ∈ l, k.origin = origin) → (∀ k ∈ l', k.origin = origin) →
    l.map (·.target) = l'.map (·.target) → l = l'
  | [], [], _, _, _ => rfl
  | [], _ :: _, _, _, h => by cases h
  | _ :: _, [], _, _, h => by cases h
  | ⟨o, t⟩ :: l, ⟨o', t'⟩ :: l', h1, h2, h => by
    simp only [List.map_cons, List.cons.injEq] at h
    have e1 := h1 _ List.mem_cons_self
    have e2 := h2 _ List.mem_cons_self
    simp only at e1 e2
    rw [links_ext (fun k hk => h1 k (by simp [hk])) (fun k hk => h2 k (by simp [hk])) h.2, h.1, e1, e2]

omit [Unicode] in
theorem sameEdits_one {u : Str} {a b : List TextEdit} (h : a.Perm b) : SameEdits [(u, a)] [(u, b)] := ⟨rfl, h, trivial⟩

/-- C94: the description leaves no freedom but the order of the edits of a rename or an action: two replies that fit it are the same. -/
theorem C94_determined (hreg : Regular env st) {m : Msg} {r r' : Reply} (h : Correct env st m r) (h' : Correct env st m r') : SameReply r r' := by
  have hsz : ∀ {u p text res o}, SymbolUnder st u p text res o → text.length < 2 ^ 32 := fun hu => hreg.size _ _ hu.1.1
  have origins : ∀ {text : Str} {sp : Span} {l : List LocationLink}, text.length < 2 ^ 32 → (∀ k ∈ l, ShownRange text sp k.origin) →
      ∃ origin, ∀ l' : List LocationLink, (∀ k ∈ l', ShownRange text sp k.origin) → (l ≠ [] ∨ l' = []) → (∀ k ∈ l, k.origin = origin) ∧ ∀ k ∈ l', k.origin = origin := by
    intro text sp l hsize hl
    cases l with
    | nil => exact ⟨⟨⟨0, 0⟩, ⟨0, 0⟩⟩, fun l' _ h => ⟨by simp, by rcases h with h | rfl <;> simp_all⟩⟩
    | cons a l =>
      exact ⟨a.origin, fun l' hl' _ => ⟨fun k hk => shownRange_unique hsize (hl k hk) (hl a (by simp)),
        fun k hk => shownRange_unique hsize (hl' k hk) (hl a (by simp))⟩⟩
  have links : ∀ {text : Str} {sp : Span} {l l' : List LocationLink}, text.length < 2 ^ 32 → (∀ k ∈ l, ShownRange text sp k.origin) →
      (∀ k ∈ l', ShownRange text sp k.origin) → l.map (·.target) = l'.map (·.target) → l = l' := by
    intro text sp l l' hsize h1 h2 he
    obtain ⟨origin, ho⟩ := origins hsize h1
    have : l ≠ [] ∨ l' = [] := by
      cases l with
      | nil => exact .inr (by simpa using he.symm)
      | cons => exact .inl (by simp)
    obtain ⟨h3, h4⟩ := ho l' h2 this
    exact links_ext h3 h4 he
  cases m with
  | references u p =>
    cases r with
    | locations l =>
      cases r' with
      | locations l' =>
        cases l with
        | none =>
          cases l' with
          | none => exact .same
          | some l' => obtain ⟨text, res, o, occs, hu, _⟩ := h'; exact absurd hu (h _ _ _)
        | some l =>
          cases l' with
          | none => obtain ⟨text, res, o, occs, hu, _⟩ := h; exact absurd hu (h' _ _ _)
          | some l' =>
            obtain ⟨text, res, o, occs, hu, h1, h2⟩ := h
            obtain ⟨text', res', o', occs', hu', h3, h4⟩ := h'
            obtain ⟨rfl, rfl, rfl⟩ := under_unique hu hu'
            rw [inRole_unique hu.1.2 h1 h3] at h2
            rw [located_unique (hsz hu) h2 h4]
            exact .same
      | _ => exact h'.elim
    | _ => exact h.elim
  | gotoDeclaration u p =>
    cases r with
    | links l =>
      cases r' with
      | links l' =>
        cases l with
        | none =>
          cases l' with
          | none => exact .same
          | some l' => obtain ⟨text, res, o, occs, hu, _⟩ := h'; exact absurd hu (h _ _ _)
        | some l =>
          cases l' with
          | none => obtain ⟨text, res, o, occs, hu, _⟩ := h; exact absurd hu (h' _ _ _)
          | some l' =>
            obtain ⟨text, res, o, occs, hu, h1, h2, h5⟩ := h
            obtain ⟨text', res', o', occs', hu', h3, h4, h6⟩ := h'
            obtain ⟨rfl, rfl, rfl⟩ := under_unique hu hu'
            rw [inRole_unique hu.1.2 h1 h3] at h2
            rw [links (hsz hu) h5 h6 (located_unique (hsz hu) h2 h4)]
            exact .same
      | _ => exact h'.elim
    | _ => exact h.elim
  | gotoDefinition u p =>
    cases r with
    | links l =>
      cases r' with
      | links l' =>
        cases l with
        | none =>
          cases l' with
          | none => exact .same
          | some l' => obtain ⟨text, res, o, occs, locs, ext, hu, _⟩ := h'; exact absurd hu (h _ _ _)
        | some l =>
          cases l' with
          | none => obtain ⟨text, res, o, occs, locs, ext, hu, _⟩ := h; exact absurd hu (h' _ _ _)
          | some l' =>
            obtain ⟨text, res, o, occs, locs, ext, hu, h1, h2, h3, h4, ds, h5, h6⟩ := h
            obtain ⟨text', res', o', occs', locs', ext', hu', k1, k2, k3, k4, ds', k5, k6⟩ := h'
            obtain ⟨rfl, rfl, rfl⟩ := under_unique hu hu'
            rw [inRole_unique hu.1.2 h1 k1] at h2
            have e1 := located_unique (hsz hu) h2 k2
            have e2 : ds = ds' := by
              rcases h5 with ⟨h5, h7⟩ | ⟨h5, rfl⟩ <;> rcases k5 with ⟨k5, k7⟩ | ⟨k5, rfl⟩
              · exact locationsOf_unique h7 k7
              · exact absurd h5 k5
              · exact absurd k5 h5
              · rfl
            subst e2
            have e3 : ext = ext' := by
              refine picks_fun ?_ h6 k6
              rintro d hd x y ⟨v, i, x1, x2, rfl⟩ ⟨v', i', y1, y2, rfl⟩
              have hloc : ExternalLocation res'.stmts o'.name d := by
                rcases h5 with ⟨_, h7⟩ | ⟨_, rfl⟩
                · exact locationsOf_member h7 hd
                · cases hd
              have hn := hreg.locations _ _ _ _ _ hu.1 hloc
              have e := (resolve_found hreg.folders hn).mpr x1
              rw [(resolve_found hreg.folders hn).mpr y1] at e
              cases e
              rw [lineIndex_unique x2 y2]
            rw [links (hsz hu) h4 k4 (by rw [h3, k3, e1, e3])]
            exact .same
      | _ => exact h'.elim
    | _ => exact h.elim
  | prepareRename u p =>
    cases r with
    | range l =>
      cases r' with
      | range l' =>
        cases l with
        | none =>
          cases l' with
          | none => exact .same
          | some l' => obtain ⟨text, res, o, hu, _⟩ := h'; exact absurd hu (h _ _ _)
        | some l =>
          cases l' with
          | none => obtain ⟨text, res, o, hu, _⟩ := h; exact absurd hu (h' _ _ _)
          | some l' =>
            obtain ⟨text, res, o, hu, h1⟩ := h
            obtain ⟨text', res', o', hu', h2⟩ := h'
            obtain ⟨rfl, rfl, rfl⟩ := under_unique hu hu'
            rw [shownRange_unique (hsz hu) h1 h2]
            exact .same
      | _ => exact h'.elim
    | _ => exact h.elim
  | rename u p req =>
    have mixed : ∀ {e : RpcError} {x : WorkspaceEdit}, Correct env st (.rename u p req) (.error e) → Correct env st (.rename u p req) (.edit x) → False := by
      rintro e x h ⟨text, res, o, edits, hu, _, h1⟩
      rcases h with ⟨h, _⟩ | ⟨_, h, _⟩ | ⟨text', res', o', msg, hu', h, _⟩
      · exact h _ hu.1.1
      · exact h _ _ _ hu
      · obtain ⟨rfl, rfl, rfl⟩ := under_unique hu hu'
        rcases h1 with ⟨hr, name, occs, h1, _⟩ | ⟨k, pre, start, h1, h2, _⟩
        · exact refused_not_newName hr h h1
        · rcases h with ⟨_, h, _⟩ | ⟨_, h, _⟩ | ⟨h, _⟩
          · exact h _ h1
          · exact h _ _ h2
          · exact not_shiftAmount h _ h1
    cases r with
    | error e =>
      cases r' with
      | error e' =>
        have : e = e' := by
          rcases h with ⟨h, rfl⟩ | ⟨h0, h, rfl⟩ | ⟨text, res, o, msg, hu, h, rfl⟩ <;>
            rcases h' with ⟨h', rfl⟩ | ⟨h0', h', rfl⟩ | ⟨text', res', o', msg', hu', h', rfl⟩
          · rfl
          · exact absurd h h0'
          · exact absurd hu'.1.1 (h _)
          · exact absurd h' h0
          · rfl
          · exact absurd hu' (h _ _ _)
          · exact absurd hu.1.1 (h' _)
          · exact absurd hu (h' _ _ _)
          · obtain ⟨rfl, rfl, rfl⟩ := under_unique hu hu'
            rw [refused_unique h h']
        rw [this]
        exact .same
      | edit x => exact (mixed h h').elim
      | _ => exact h'.elim
    | edit x =>
      cases r' with
      | error e => exact (mixed h' h).elim
      | edit y =>
        obtain ⟨text, res, o, edits, hu, rfl, h1⟩ := h
        obtain ⟨text', res', o', edits', hu', rfl, h2⟩ := h'
        obtain ⟨rfl, rfl, rfl⟩ := under_unique hu hu'
        refine .edit (sameEdits_one ?_)
        rcases h1 with ⟨hr, name, occs, h1, h3, h5⟩ | ⟨k, pre, start, h1, h3, h5⟩ <;>
          rcases h2 with ⟨hr', name', occs', h2, h4, h6⟩ | ⟨k', pre', start', h2, h4, h6⟩
        · cases newName_unique h1 h2
          exact edited_perm (hsz hu) h5 h6 ((lists_perm h3 h4).map _)
        · exact absurd h2 (not_shiftAmount hr _)
        · exact absurd h1 (not_shiftAmount hr' _)
        · cases shiftAmount_unique h1 h2
          obtain ⟨rfl, rfl⟩ := numbered_unique h3 h4
          exact renumbered_perm (hsz hu) h5 h6
      | _ => exact h'.elim
    | _ => exact h.elim
  | codeAction u rg =>
    cases r with
    | error e =>
      cases r' with
      | error e' => rw [h.2, h'.2]; exact .same
      | actions l =>
        cases l with
        | none => exact absurd h.1 h'.1
        | some l => exact absurd h.1 h'.1
      | _ => exact h'.elim
    | actions l =>
      cases r' with
      | error e' =>
        cases l with
        | none => exact absurd h'.1 h.1
        | some l => exact absurd h'.1 h.1
      | actions l' =>
        cases l with
        | none =>
          cases l' with
          | none => exact .same
          | some l' => exact absurd h'.2.1 h.2
        | some l =>
          cases l' with
          | none => exact absurd h.2.1 h'.2
          | some l' =>
            refine .actions ?_
            rcases h.2.2 with ⟨rfl, h1⟩ | ⟨text, res, o, pre, nr, edit, hu, h1, rfl, h2⟩ <;>
              rcases h'.2.2 with ⟨rfl, h3⟩ | ⟨text', res', o', pre', nr', edit', hu', h3, rfl, h4⟩
            · trivial
            · exact absurd h3 (h1 _ _ _ _ _ hu')
            · exact absurd h1 (h3 _ _ _ _ _ hu)
            · obtain ⟨rfl, rfl, rfl⟩ := under_unique hu hu'
              obtain ⟨rfl, rfl⟩ := numbered_unique h1 h3
              refine ⟨⟨rfl, rfl, ?_⟩, trivial⟩
              rcases h2 with ⟨hl, rfl⟩ | ⟨hl, e, rfl, h2⟩ <;> rcases h4 with ⟨hl', rfl⟩ | ⟨hl', e', rfl, h4⟩
              · trivial
              · rw [hl] at hl'; cases hl'
              · rw [hl] at hl'; cases hl'
              · exact sameEdits_one (renumbered_perm (hsz hu) h2 h4)
      | _ => exact h'.elim
    | _ => exact h.elim
  | codeActionResolve a =>
    cases r with
    | error e =>
      cases r' with
      | error e' =>
        have : e = e' := by
          rcases h with ⟨h, rfl⟩ | ⟨h, rfl⟩ | ⟨d, h, h1, rfl⟩ <;> rcases h' with ⟨h', rfl⟩ | ⟨h', rfl⟩ | ⟨d', h', h2, rfl⟩ <;>
            first | rfl | (rw [h] at h'; cases h')
        rw [this]
        exact .same
      | action x =>
        obtain ⟨d, text, res, edits, h1, h2, _⟩ := h'
        rcases h with ⟨h, _⟩ | ⟨h, _⟩ | ⟨d', h, h3, _⟩ <;> rw [h] at h1 <;> cases h1
        exact absurd h2.1 (h3 _)
      | _ => exact h'.elim
    | action x =>
      cases r' with
      | error e =>
        obtain ⟨d, text, res, edits, h1, h2, _⟩ := h
        rcases h' with ⟨h, _⟩ | ⟨h, _⟩ | ⟨d', h, h3, _⟩ <;> rw [h] at h1 <;> cases h1
        exact absurd h2.1 (h3 _)
      | action y =>
        obtain ⟨d, text, res, edits, h1, h2, rfl, h3⟩ := h
        obtain ⟨d', text', res', edits', h4, h5, rfl, h6⟩ := h'
        rw [h1] at h4
        cases h4
        obtain ⟨rfl, rfl⟩ := known_unique h2 h5
        exact .action ⟨rfl, rfl, sameEdits_one (renumbered_perm (hreg.size _ _ h2.1) h3 h6)⟩
      | _ => exact h'.elim
    | _ => exact h.elim
  | _ => exact h.elim

/-! ### Views -/

omit [Unicode] in
theorem shownPlace_unique {text : Str} (hsize : text.length < 2 ^ 32) {off : Nat} {p p' : Pos} (h : ShownPlace text off p) (h' : ShownPlace text off p') :
    p = p' := by
  have := shownRange_unique hsize (sp := ⟨off, off⟩) (r := ⟨p, p⟩) (r' := ⟨p', p'⟩) ⟨h, h⟩ ⟨h', h'⟩
  cases this
  rfl

omit [Unicode] in
theorem decode_inj {prev : Pos} {l l' : List LspSemanticToken} (h : decode prev l = decode prev l') : l = l' := by
  induction l generalizing prev l' with
  | nil =>
    cases l' with
    | nil => rfl
    | cons => cases h
  | cons a l ih =>
    cases l' with
    | nil => cases h
    | cons b l' =>
      obtain ⟨a1, a2, a3, a4⟩ := a
      obtain ⟨b1, b2, b3, b4⟩ := b
      simp only [decode, List.cons.injEq, Highlight.mk.injEq, Pos.mk.injEq] at h
      obtain ⟨⟨⟨h1, h2⟩, rfl, rfl⟩, h3⟩ := h
      have e1 : a1 = b1 := by omega
      subst e1
      have e2 : a2 = b2 := by
        split at h2 <;> omega
      subst e2
      rw [ih h3]

omit [Unicode] in
theorem class_unique {t : Token} {a b : SemType} (h : Class t a) (h' : Class t b) : a = b := by
  cases h <;> cases h' <;> rfl

omit [Unicode] in
theorem highlighted_unique {text : Str} (hsize : text.length < 2 ^ 32) {t : Spanned Token} {a b : Highlight} (h : Highlighted text t a)
    (h' : Highlighted text t b) : a = b := by
  obtain ⟨ty, h1, h2, h3, h4⟩ := h
  obtain ⟨ty', k1, k2, k3, k4⟩ := h'
  cases class_unique h1 k1
  have e := shownPlace_unique hsize h4 k4
  obtain ⟨s, l, n⟩ := a
  obtain ⟨s', l', n'⟩ := b
  simp only at h2 h3 k2 k3 e
  have hn : legendType.Nodup := by decide
  have hlt : n < legendType.length := by
    rw [List.getElem?_eq_some_iff] at h2
    exact h2.1
  have := (List.getElem?_inj hlt hn).mp (h2.trans k2.symm)
  rw [e, h3, k3, this]

omit [Unicode] in
theorem counts_unique {a b word : Str} {n : Nat} (h : Counts a word n) (h' : Counts b word n) : a = b := by
  obtain ⟨w, rfl, h1⟩ := h
  obtain ⟨w', rfl, h2⟩ := h'
  rw [canonical_unique h1 h2]

omit [Unicode] in
theorem outlined_perm {text : Str} (hsize : text.length < 2 ^ 32) {ss : List Statement} {l l' : List DocumentSymbol} (h : Outlined text ss l)
    (h' : Outlined text ss l') : l.Perm l' := by
  obtain ⟨g, f, ns, rfl, h1, h2, h3⟩ := h
  obtain ⟨g', f', ns', rfl, k1, k2, k3⟩ := h'
  have hg : g.Perm g' := by
    refine each_perm_fun ?_ h2 k2 (h1.trans k1.symm)
    rintro a _ ⟨n1, n2, n3, n4⟩ ⟨m1, m2, m3, m4⟩ ⟨a1, a2, a3, a4⟩ ⟨b1, b2, b3, b4⟩
    have e1 := shownRange_unique hsize a3 b3
    have e2 := shownRange_unique hsize a4 b4
    simp only at a1 a2 b1 b2 e1 e2
    rw [a1, a2, b1, b2, e1, e2]
  have hf : f = f' := by
    refine each_fun ?_ h3 k3
    rintro a _ ⟨n1, n2, n3, n4⟩ ⟨m1, m2, m3, m4⟩ ⟨a1, a2, a3, a4⟩ ⟨b1, b2, b3, b4⟩
    have e1 := shownRange_unique hsize a3 b3
    have e2 := shownRange_unique hsize a4 b4
    simp only at a1 a2 b1 b2 e1 e2
    rw [a1, a2, b1, b2, e1, e2]
  rw [hf]
  exact hg.append_right _

omit [Unicode] in
theorem fold_unique {text : Str} (hsize : text.length < 2 ^ 32) {sp : Span} {a b : FoldingRange} (h : FoldOver text sp a) (h' : FoldOver text sp b)
    (ht : a.collapsedText = b.collapsedText) : a = b := by
  obtain ⟨r, h1, h2, h3⟩ := h
  obtain ⟨r', k1, k2, k3⟩ := h'
  cases shownRange_unique hsize h1 k1
  obtain ⟨a1, a2, a3⟩ := a
  obtain ⟨b1, b2, b3⟩ := b
  simp only at h2 h3 k2 k3 ht
  rw [h2, h3, k2, k3, ht]

omit [Unicode] in
theorem folded_unique {text : Str} (hsize : text.length < 2 ^ 32) {ss : List Statement} {l l' : List FoldingRange} (h : Folded text ss l)
    (h' : Folded text ss l') : l = l' := by
  obtain ⟨f, b, rfl, h1, h2⟩ := h
  obtain ⟨f', b', rfl, k1, k2⟩ := h'
  have e1 : f = f' := by
    refine each_fun ?_ h1 k1
    rintro a _ x y ⟨x1, ns, x2, x3, x4⟩ ⟨y1, ns', y2, y3, y4⟩
    have : ns.Perm ns' := (List.perm_ext_iff_of_nodup x2 y2).mpr fun n => by rw [x3, y3]
    rw [this.length_eq] at x4
    exact fold_unique hsize x1 y1 (counts_unique x4 y4)
  have e2 : b = b' := by
    refine each_fun ?_ h2 k2
    rintro a _ x y ⟨x1, x2⟩ ⟨y1, y2⟩
    exact fold_unique hsize x1 y1 (counts_unique x2 y2)
  rw [e1, e2]

omit [Unicode] in
theorem lensed_perm {uri text : Str} (hsize : text.length < 2 ^ 32) {ss : List Statement} {l l' : List CodeLens} (h : Lensed uri text ss l)
    (h' : Lensed uri text ss l') : l.Perm l' := by
  obtain ⟨fs, h1, h2, h3⟩ := h
  obtain ⟨fs', k1, k2, k3⟩ := h'
  refine each_perm_fun ?_ h3 k3 ((List.perm_ext_iff_of_nodup h1 k1).mpr fun f => by rw [h2, k2])
  rintro f _ ⟨a1, a2, a3⟩ ⟨b1, b2, b3⟩ ⟨x1, x2, x3⟩ ⟨y1, y2, y3⟩
  have e := shownRange_unique hsize x1 y1
  simp only at e x2 x3 y2 y3
  rw [e, x2, x3, y2, y3]

omit [Unicode] in
theorem sublist_filter {α : Type} [DecidableEq α] {l L : List α} (h : l.Sublist L) (hn : L.Nodup) : l = L.filter fun x => decide (x ∈ l) := by
  induction h with
  | slnil => rfl
  | @cons l L a h ih =>
    simp only [List.nodup_cons] at hn
    have : a ∉ l := fun hm => hn.1 (h.subset hm)
    rw [List.filter_cons, if_neg (by simpa using this)]
    exact ih hn.2
  | @cons_cons l L a h ih =>
    simp only [List.nodup_cons] at hn
    rw [List.filter_cons, if_pos (by simp)]
    congr 1
    refine (ih hn.2).trans (List.filter_congr fun x hx => ?_)
    have : x ≠ a := fun e => hn.1 (e ▸ hx)
    simp [this]

omit [Unicode] in
theorem predecessors_unique {blocks : List BasicBlock} (hn : (blocks.filterMap BasicBlock.label).Nodup) {b : Str} {p p' : List (Spanned Str)}
    (h : Predecessors blocks b p) (h' : Predecessors blocks b p') : p = p' := by
  have key : ∀ {p : List (Spanned Str)}, Predecessors blocks b p →
      p.Sublist (blocks.filterMap BasicBlock.label) ∧ ∀ x, x ∈ p ↔ ∃ blk ∈ blocks, blk.label = some x ∧ BranchesTo blk b := by
    rintro p ⟨blks, h1, h2, h3⟩
    have hp : blks.filterMap BasicBlock.label = p := by
      have e : ∀ l : List BasicBlock, l.filterMap BasicBlock.label = (l.map BasicBlock.label).filterMap id := by
        intro l
        rw [List.filterMap_map]
        rfl
      rw [e, h2, List.filterMap_map]
      exact List.filterMap_some
    refine ⟨hp ▸ h1.filterMap _, fun x => ?_⟩
    rw [← hp, List.mem_filterMap]
    constructor
    · rintro ⟨blk, h4, h5⟩
      exact ⟨blk, h1.subset h4, h5, ((h3 blk (h1.subset h4)).mp h4).2⟩
    · rintro ⟨blk, h4, h5, h6⟩
      exact ⟨blk, (h3 blk h4).mpr ⟨by rw [h5]; rfl, h6⟩, h5⟩
  obtain ⟨h1, h2⟩ := key h
  obtain ⟨k1, k2⟩ := key h'
  rw [sublist_filter h1 hn, sublist_filter k1 hn]
  refine List.filter_congr fun x _ => ?_
  rw [decide_eq_decide, h2, k2]

theorem incomingHint_unique {uri text : Str} {res : ParserResult} (hp : parseFromStr text = .ok res) (hsize : text.length < 2 ^ 32)
    {b : List BasicBlock × BasicBlock} (hb : b ∈ docBlocks res.stmts) {x y : InlayHint} (h : IncomingHint uri text b x) (h' : IncomingHint uri text b y) : x = y := by
  obtain ⟨f, hf, hb⟩ := List.mem_flatMap.mp hb
  obtain ⟨blk, hb, rfl⟩ := List.mem_map.mp hb
  obtain ⟨lbl, colon, preds, links, h1, h2, h3, h4, _, h5, h6⟩ := h
  obtain ⟨lbl', colon', preds', links', k1, k2, k3, k4, _, k5, k6⟩ := h'
  rw [h1] at k1
  cases k1
  rw [h2] at k2
  cases k2
  cases predecessors_unique (labels_nodup hp hf) h4 k4
  have e : links = links' := by
    refine each_fun ?_ h5 k5
    rintro n _ ⟨a1, a2⟩ ⟨b1, b2⟩ ⟨x1, x2⟩ ⟨y1, y2⟩
    have e := shownRange_unique hsize x2 y2
    simp only at x1 y1 e
    rw [x1, y1, e]
  obtain ⟨xp, xl⟩ := x
  obtain ⟨yp, yl⟩ := y
  simp only at h3 h6 k3 k6
  rw [shownPlace_unique hsize h3 k3, h6, k6, e]

omit [Unicode] in
theorem endHint_unique {uri text : Str} (hsize : text.length < 2 ^ 32) {f : Spanned Str × Span × List BasicBlock} {x y : InlayHint}
    (h : EndHint uri text f x) (h' : EndHint uri text f y) : x = y := by
  obtain ⟨r, h1, h2, h3⟩ := h
  obtain ⟨r', k1, k2, k3⟩ := h'
  cases shownRange_unique hsize h2 k2
  obtain ⟨xp, xl⟩ := x
  obtain ⟨yp, yl⟩ := y
  simp only at h1 h3 k1 k3
  rw [shownPlace_unique hsize h1 k1, h3, k3]

theorem shownAs_unique {s a b : Str} (h : ShownAs s a) (h' : ShownAs s b) : a = b := by
  refine List.ext_getElem? fun i => ?_
  by_cases hi : i < s.length
  · have ha : i < a.length := by rw [h.1]; exact hi
    have hb : i < b.length := by rw [h'.1]; exact hi
    have x := h.2 i _ _ (List.getElem?_eq_getElem hi) (List.getElem?_eq_getElem ha)
    have y := h'.2 i _ _ (List.getElem?_eq_getElem hi) (List.getElem?_eq_getElem hb)
    rw [List.getElem?_eq_getElem ha, List.getElem?_eq_getElem hb]
    by_cases hs : Shown s[i]
    · rw [x.1 hs, y.1 hs]
    · rw [x.2 hs, y.2 hs]
  · rw [List.getElem?_eq_none (by rw [h.1]; omega), List.getElem?_eq_none (by rw [h'.1]; omega)]

theorem frameText_unique {f : Frame} {a b : Str} (h : FrameText f a) (h' : FrameText f b) : a = b := by
  obtain ⟨c, h1, h2⟩ := h
  obtain ⟨c', k1, k2⟩ := h'
  cases shownAs_unique h1 k1
  rcases h2 with ⟨h2, rfl⟩ | ⟨file, short, line, h2, h3, h4, h5⟩ <;> rcases k2 with ⟨k2, rfl⟩ | ⟨file', short', line', k2, k3, k4, k5⟩
  · rfl
  · rw [h2] at k2; cases k2
  · rw [h2] at k2; cases k2
  · rw [h2] at k2
    cases k2
    cases lastComponent_unique h3 k3
    cases canonical_unique h4 k4
    rcases h5 with ⟨h5, rfl⟩ | ⟨u, h5, rfl⟩ <;> rcases k5 with ⟨k5, rfl⟩ | ⟨u', k5, rfl⟩ <;> rw [h5] at k5 <;> cases k5 <;> rfl

omit [Unicode] in
theorem relevant_unique {frames : List Frame} {i j : Nat} (h : Relevant frames i) (h' : Relevant frames j) : i = j := by
  rcases h with ⟨k, h1, h2, h3⟩ | ⟨h1, h2, h3⟩ <;> rcases h' with ⟨k', k1, k2, k3⟩ | ⟨k1, k2, k3⟩
  · have e : k = k' := by
      rcases Nat.lt_trichotomy k k' with h | h | h
      · exact absurd h1 (k2 k h i)
      · exact h
      · exact absurd k1 (h2 k' h j)
    subst e
    rcases Nat.lt_trichotomy i j with h | h | h
    · exact absurd h1 (k3 i h)
    · exact h
    · exact absurd k1 (h3 j h)
  · exact absurd h1 (k1 _ _)
  · exact absurd k1 (h1 _ _)
  · rcases Nat.lt_trichotomy i j with h | h | h
    · exact absurd h2 (k3 i h)
    · exact h
    · exact absurd k2 (h3 j h)

omit [Unicode] in
theorem utf8Len_split : ∀ {p p' r r' : Str}, p ++ r = p' ++ r' → utf8Len p = utf8Len p' → p = p'
  | [], [], _, _, _, _ => rfl
  | [], c :: p', _, _, _, h => by
    have := Char.utf8Size_pos c
    simp only [utf8Len] at h
    omega
  | c :: p, [], _, _, _, h => by
    have := Char.utf8Size_pos c
    simp only [utf8Len] at h
    omega
  | c :: p, c' :: p', r, r', e, h => by
    simp only [List.cons_append, List.cons.injEq] at e
    obtain ⟨rfl, e⟩ := e
    simp only [utf8Len] at h
    rw [utf8Len_split e (by omega)]

omit [Unicode] in
theorem shortSymbol_unique {s a b : Str} (h : ShortSymbol s a) (h' : ShortSymbol s b) : a = b := by
  rcases h with ⟨h1, rfl⟩ | ⟨h1, p, r, h2, h3, rfl⟩ <;> rcases h' with ⟨k1, rfl⟩ | ⟨k1, p', r', k2, k3, rfl⟩
  · rfl
  · omega
  · omega
  · rw [h2] at k2
    rw [utf8Len_split k2 (h3.trans k3.symm)]

theorem backtraceLabel_unique {frames : List Frame} {a b : List LabelPart} (h : BacktraceLabel frames a) (h' : BacktraceLabel frames b) : a = b := by
  obtain ⟨full, ⟨items, h1, rfl⟩, h2⟩ := h
  obtain ⟨full', ⟨items', k1, rfl⟩, k2⟩ := h'
  cases each_fun (fun f _ _ _ x y => frameText_unique (f := f) x y) h1 k1
  rcases h2 with ⟨h2, rfl⟩ | ⟨i, f, short, item, h2, h3, h4, h5, rfl⟩ <;> rcases k2 with ⟨k2, rfl⟩ | ⟨i', f', short', item', k2, k3, k4, k5, rfl⟩
  · rfl
  · exact absurd k2 (h2 _)
  · exact absurd h2 (k2 _)
  · cases relevant_unique h2 k2
    rw [h3] at k3
    cases k3
    cases shortSymbol_unique h4 k4
    cases frameText_unique h5 k5
    rfl

omit [Unicode] in
theorem framesFound_unique {fs : FileSystem} {roots : List Url} {entries : List Json} {a b : List Frame} (h : FramesFound fs roots entries a)
    (h' : FramesFound fs roots entries b) : a = b := by
  refine each_fun ?_ h h'
  rintro j _ ⟨a1, a2, a3, a4⟩ ⟨b1, b2, b3, b4⟩ ⟨x1, x2⟩ ⟨y1, y2⟩
  obtain ⟨e1, e2, e3⟩ := frameOf_unique x1 y1
  simp only at e1 e2 e3 x2 y2
  subst e1 e2 e3
  congr 1
  refine Option.ext fun u => ?_
  rw [x2, y2]

theorem traceHint_unique {uri text : Str} {res : ParserResult} (hk : Known st uri text res) (hsize : text.length < 2 ^ 32) {roots : List Url} {i : Instruction}
    {x y : InlayHint} (h : TraceHint env roots text res.stmts i x) (h' : TraceHint env roots text res.stmts i y) : x = y := by
  obtain ⟨ref, v, j, entries, frames, h1, h2, h3, h4, h5, h6, h7⟩ := h
  obtain ⟨ref', v', j', entries', frames', k1, k2, k3, k4, k5, k6, k7⟩ := h'
  obtain ⟨doc, _, _, _, hix⟩ := opened_inv hk.1 hk.2
  have hok := annotationValue_of_createIndex hix
  rw [h1] at k1
  cases k1
  have e := (lastText_cut hok).mpr h2
  rw [(lastText_cut hok).mpr k2] at e
  cases e
  rw [h3] at k3
  cases k3
  cases hasBacktrace_unique h4 k4
  cases framesFound_unique h5 k5
  obtain ⟨xp, xl⟩ := x
  obtain ⟨yp, yl⟩ := y
  have e1 := shownPlace_unique hsize h6 k6
  have e2 := backtraceLabel_unique h7 k7
  simp only at e1 e2
  rw [e1, e2]

omit [Unicode] in
theorem firstFunction_unique {ss : List Statement} {name : Str} {a b : List BasicBlock} (h : FirstFunction ss name a) (h' : FirstFunction ss name b) : a = b := by
  have key : ∀ {a}, FirstFunction ss name a → ((docFuncs ss).find? fun f => decide (f.1.1 = name)).map (fun f => f.2.2) = some a := by
    rintro a ⟨before, f, after, h1, h2, rfl, h3⟩
    rw [h1, List.find?_append, List.find?_eq_none.mpr (by simpa using h3)]
    simp [h2]
  have e := key h
  rw [key h'] at e
  exact (Option.some.inj e).symm

/-- C95: the description of the views leaves no freedom but the order of the outline and of the lenses, and the order and repetition of edges. -/
theorem C95_views_determined (hreg : Regular env st) {m : Msg} {r r' : Reply} (h : Displays env st m r) (h' : Displays env st m r') : SameView r r' := by
  have hsz : ∀ {u text res}, Known st u text res → text.length < 2 ^ 32 := fun hk => hreg.size _ _ hk.1
  cases m with
  | semanticTokensFull u =>
    cases r with
    | tokens l =>
      cases r' with
      | tokens l' =>
        cases l with
        | none =>
          cases l' with
          | none => exact .reply .same
          | some l' => obtain ⟨text, res, hk, _⟩ := h'; exact absurd hk.1 (h _)
        | some l =>
          cases l' with
          | none => obtain ⟨text, res, hk, _⟩ := h; exact absurd hk.1 (h' _)
          | some l' =>
            obtain ⟨text, res, hk, h1⟩ := h
            obtain ⟨text', res', hk', h2⟩ := h'
            obtain ⟨rfl, rfl⟩ := known_unique hk hk'
            have e := picks_fun (R := Highlighted text') (fun a _ _ _ x y => highlighted_unique (t := a) (hsz hk) x y) h1 h2
            rw [decode_inj e]
            exact .reply .same
      | _ => exact h'.elim
    | _ => exact h.elim
  | documentSymbol u =>
    cases r with
    | symbols l =>
      cases r' with
      | symbols l' =>
        cases l with
        | none =>
          cases l' with
          | none => exact .reply .same
          | some l' => obtain ⟨text, res, hk, _⟩ := h'; exact absurd hk.1 (h _)
        | some l =>
          cases l' with
          | none => obtain ⟨text, res, hk, _⟩ := h; exact absurd hk.1 (h' _)
          | some l' =>
            obtain ⟨text, res, hk, h1⟩ := h
            obtain ⟨text', res', hk', h2⟩ := h'
            obtain ⟨rfl, rfl⟩ := known_unique hk hk'
            exact .reply (.symbols (outlined_perm (hsz hk) h1 h2))
      | _ => exact h'.elim
    | _ => exact h.elim
  | foldingRange u =>
    cases r with
    | folds l =>
      cases r' with
      | folds l' =>
        cases l with
        | none =>
          cases l' with
          | none => exact .reply .same
          | some l' => obtain ⟨text, res, hk, _⟩ := h'; exact absurd hk.1 (h _)
        | some l =>
          cases l' with
          | none => obtain ⟨text, res, hk, _⟩ := h; exact absurd hk.1 (h' _)
          | some l' =>
            obtain ⟨text, res, hk, h1⟩ := h
            obtain ⟨text', res', hk', h2⟩ := h'
            obtain ⟨rfl, rfl⟩ := known_unique hk hk'
            rw [folded_unique (hsz hk) h1 h2]
            exact .reply .same
      | _ => exact h'.elim
    | _ => exact h.elim
  | inlayHint u =>
    cases r with
    | hints l =>
      cases r' with
      | hints l' =>
        cases l with
        | none =>
          cases l' with
          | none => exact .reply .same
          | some l' => obtain ⟨text, res, _, _, _, hk, _⟩ := h'; exact absurd hk.1 (h _)
        | some l =>
          cases l' with
          | none => obtain ⟨text, res, _, _, _, hk, _⟩ := h; exact absurd hk.1 (h' _)
          | some l' =>
            obtain ⟨text, res, i, t, e, hk, rfl, h1, h2, h3⟩ := h
            obtain ⟨text', res', i', t', e', hk', rfl, k1, k2, k3⟩ := h'
            obtain ⟨rfl, rfl⟩ := known_unique hk hk'
            have e1 := picks_fun (R := IncomingHint u text') (fun b hb _ _ x y => incomingHint_unique hk.2 (hsz hk) hb x y) h1 k1
            have e2 := picks_fun (R := TraceHint env st.roots text' res'.stmts) (fun i _ _ _ x y => traceHint_unique hk (hsz hk) (i := i) x y) h2 k2
            have e3 := each_fun (R := EndHint u text') (fun f _ _ _ x y => endHint_unique (hsz hk) (f := f) x y) h3 k3
            rw [e1, e2, e3]
            exact .reply .same
      | _ => exact h'.elim
    | _ => exact h.elim
  | codeLens u =>
    cases r with
    | lenses l =>
      cases r' with
      | lenses l' =>
        cases l with
        | none =>
          cases l' with
          | none => exact .reply .same
          | some l' => obtain ⟨text, res, hk, _⟩ := h'; exact absurd hk.1 (h _)
        | some l =>
          cases l' with
          | none => obtain ⟨text, res, hk, _⟩ := h; exact absurd hk.1 (h' _)
          | some l' =>
            obtain ⟨text, res, hk, h1⟩ := h
            obtain ⟨text', res', hk', h2⟩ := h'
            obtain ⟨rfl, rfl⟩ := known_unique hk hk'
            exact .reply (.lenses (lensed_perm (hsz hk) h1 h2))
      | _ => exact h'.elim
    | _ => exact h.elim
  | executeCommand c args =>
    have mixed : ∀ {e : RpcError} {g : ShowGraph}, Displays env st (.executeCommand c args) (.error e) → Displays env st (.executeCommand c args) (.graph g) → False := by
      rintro e g h ⟨u, name, text, res, blocks, rfl, rfl, hk, hf, _⟩
      rcases h with ⟨u', name', _, h, hu, _⟩ | ⟨u', name', text', res', _, h, hk', hn, _⟩ | ⟨h, _⟩
      · simp only [List.cons.injEq, Json.str.injEq, and_true] at h
        obtain ⟨rfl, rfl⟩ := h
        exact hu _ hk.1
      · simp only [List.cons.injEq, Json.str.injEq, and_true] at h
        obtain ⟨rfl, rfl⟩ := h
        obtain ⟨rfl, rfl⟩ := known_unique hk hk'
        exact hn _ hf
      · exact h u name ⟨rfl, rfl⟩
    cases r with
    | graph g =>
      cases r' with
      | graph g' =>
        obtain ⟨u, name, text, res, blocks, rfl, rfl, hk, hf, h1, edges, h2, h3⟩ := h
        obtain ⟨u', name', text', res', blocks', _, e, hk', hf', k1, edges', k2, k3⟩ := h'
        simp only [List.cons.injEq, Json.str.injEq, and_true] at e
        obtain ⟨rfl, rfl⟩ := e
        obtain ⟨rfl, rfl⟩ := known_unique hk hk'
        cases firstFunction_unique hf hf'
        obtain ⟨t, d⟩ := g
        obtain ⟨t', d'⟩ := g'
        simp only at h1 k1 h2 k2
        subst h1 k1
        exact .graph ⟨edges, edges', h2, k2, fun ⟨a, b⟩ => by rw [h3, k3]⟩
      | error e => exact (mixed h' h).elim
      | _ => exact h'.elim
    | error e =>
      cases r' with
      | graph g => exact (mixed h h').elim
      | error e' =>
        have : e = e' := by
          rcases h with ⟨u, name, h1, h2, hu, rfl⟩ | ⟨u, name, text, res, h1, h2, hk, hn, rfl⟩ | ⟨h, rfl⟩ <;>
            rcases h' with ⟨u', name', k1, k2, hu', rfl⟩ | ⟨u', name', text', res', k1, k2, hk', hn', rfl⟩ | ⟨h', rfl⟩ <;>
            (try rw [h2] at k2) <;> (try simp only [List.cons.injEq, Json.str.injEq, and_true] at k2) <;> (try obtain ⟨rfl, rfl⟩ := k2)
          · rfl
          · exact absurd hk'.1 (hu _)
          · exact absurd ⟨h1, h2⟩ (h' _ _)
          · exact absurd hk.1 (hu' _)
          · rfl
          · exact absurd ⟨h1, h2⟩ (h' _ _)
          · exact absurd ⟨k1, rfl⟩ (h _ _)
          · exact absurd ⟨k1, rfl⟩ (h _ _)
          · rfl
        rw [this]
        exact .reply .same
      | _ => exact h'.elim
    | _ => exact h.elim
  | _ => exact h.elim

/-! ### Diagnostics and settings -/

omit [Unicode] in
theorem errorText_same {e : SErr} {a b : Str} (h : ErrorText e a) (h' : ErrorText e b) : SameMessage a b := by
  rcases h with h | ⟨h, start, what, words, order, h1, h2, h3, h4, rfl⟩ <;> rcases h' with h' | ⟨h', start', what', words', order', k1, k2, k3, k4, rfl⟩
  · rw [h] at h'
    cases h'
    exact .inl rfl
  · rw [h] at h'; cases h'
  · rw [h] at h'; cases h'
  · have e1 : start = start' := by
      rcases h1 with ⟨h1, rfl⟩ | ⟨h1, rfl⟩ <;> rcases k1 with ⟨k1, rfl⟩ | ⟨k1, rfl⟩
      · rfl
      · exact absurd h1 k1
      · exact absurd k1 h1
      · rfl
    subst e1
    have hp : words.Perm words' := by
      refine each_perm_fun ?_ h3 k3 (h2.trans k2.symm)
      rintro x _ w w' (⟨rfl, rfl⟩ | rfl) (⟨h, rfl⟩ | h)
      · rfl
      · cases h
      · cases h
      · exact Option.some.inj h
    rcases h4 with ⟨h4, rfl⟩ | ⟨h4, rfl⟩ <;> rcases k4 with ⟨k4, rfl⟩ | ⟨k4, rfl⟩
    · exact .inl rfl
    · subst h4
      exact absurd (List.nil_perm.mp hp) k4
    · subst k4
      exact absurd (List.perm_nil.mp hp) h4
    · exact .inr ⟨_, words, words', hp, rfl, rfl⟩

omit [Unicode] in
theorem picks_same {α β : Type} {R : α → β → Prop} {S : β → β → Prop} {as : List α} {bs bs' : List β} (hu : ∀ a b b', R a b → R a b' → S b b')
    (h : Picks R as bs) (h' : Picks R as bs') : Each S bs bs' := by
  induction h generalizing bs' with
  | nil => cases h'; exact .nil
  | take h1 _ ih =>
    cases h' with
    | take h3 h4 => exact .cons (hu _ _ _ h1 h3) (ih h4)
    | skip h3 h4 => exact absurd h1 (h3 _)
  | skip h1 _ ih =>
    cases h' with
    | take h3 h4 => exact absurd h3 (h1 _)
    | skip h3 h4 => exact ih h4

omit [Unicode] in
theorem each_refl {β : Type} {S : β → β → Prop} (hr : ∀ b, S b b) : ∀ l : List β, Each S l l
  | [] => .nil
  | b :: l => .cons (hr b) (each_refl hr l)

theorem diagnosed_same {uri text : Str} {res : ParserResult} (hp : parseFromStr text = .ok res) (hsize : text.length < 2 ^ 32) {ix : HIRIndex}
    (hix : createIndex text res.tokens res.stmts = .ok ix) {d e : List Diagnostic} (h : Diagnosed uri text res d) (h' : Diagnosed uri text res e) :
    ∃ d', d.Perm d' ∧ Each SameDiagnostic d' e := by
  obtain ⟨syn, br, index, undefs, dups, uses, defs, rfl, h1, h2, h3, h4, h5, h6, h7, h8, h9⟩ := h
  obtain ⟨syn', br', index', undefs', dups', uses', defs', rfl, k1, k2, k3, k4, k5, k6, k7, k8, k9⟩ := h'
  have e1 : Each SameDiagnostic syn syn' := by
    refine picks_same ?_ h2 k2
    rintro a x y ⟨x1, x2, x3⟩ ⟨y1, y2, y3⟩
    exact ⟨shownRange_unique hsize x1 y1, x3.trans y3.symm, errorText_same x2 y2⟩
  have e2 : br = br' := by
    refine picks_fun ?_ h3 k3
    rintro a _ ⟨a1, a2, a3⟩ ⟨b1, b2, b3⟩ ⟨_, x1, x2, x3⟩ ⟨_, y1, y2, y3⟩
    have e := shownRange_unique hsize x1 y1
    simp only at x2 x3 y2 y3 e
    rw [x2, x3, y2, y3, e]
  have e3 : undefs.Perm undefs' := by
    refine each_perm_fun ?_ h6 k6 ((List.perm_ext_iff_of_nodup h4 k4).mpr fun o => by rw [h5, k5])
    rintro a _ ⟨a1, a2, a3⟩ ⟨b1, b2, b3⟩ ⟨x1, x2, x3⟩ ⟨y1, y2, y3⟩
    have e := shownRange_unique hsize x1 y1
    simp only at x2 x3 y2 y3 e
    rw [x2, x3, y2, y3, e]
  have e4 : dups.Perm dups' := by
    refine each_perm_fun ?_ h9 k9 ((List.perm_ext_iff_of_nodup h7 k7).mpr fun o => by rw [h8, k8])
    rintro a _ ⟨a1, a2, a3⟩ ⟨b1, b2, b3⟩ ⟨x1, x2, f, r, x3, x4, x5⟩ ⟨y1, y2, f', r', y3, y4, y5⟩
    have e := shownRange_unique hsize x1 y1
    cases firstDef_unique hp hix x3 y3
    cases shownRange_unique hsize x4 y4
    simp only at x2 x5 y2 y5 e
    rw [x2, x5, y2, y5, e]
  have e5 : index.Perm index' := h1.trans ((e3.append e4).trans k1.symm)
  have rfl' : ∀ d, SameDiagnostic d d := fun d => ⟨rfl, rfl, .inl rfl⟩
  subst e2
  exact ⟨syn ++ br ++ index', e5.append_left _, each_append (each_append e1 (each_refl rfl' br)) (each_refl rfl' index')⟩

theorem textSet_same {u text : Str} {s s' : ServerState} (h : TextSet st u text s) (h' : TextSet st u text s') : SameServer s s' := by
  obtain ⟨h1, h2, h3, h4, h5⟩ := h
  obtain ⟨k1, k2, k3, k4, k5⟩ := h'
  refine ⟨h1.trans k1.symm, h2.trans k2.symm, fun v t => ?_⟩
  by_cases hv : v = u
  · subst hv
    exact ⟨fun h => by rw [h4 t h]; exact k3, fun h => by rw [k4 t h]; exact h3⟩
  · rw [h5 v hv, k5 v hv]

theorem published_same {u text : Str} {s : ServerState} {v : Int} (hs : TextSet st u text s) {res res' : ParserResult} (hp : parseFromStr text = .ok res)
    (hp' : parseFromStr text = .ok res') (hsize : text.length < 2 ^ 32) {d e : List Diagnostic} (h : Diagnosed u text res d) (h' : Diagnosed u text res' e) :
    SameView (.published ⟨u, v, d⟩) (.published ⟨u, v, e⟩) := by
  rw [hp] at hp'
  cases hp'
  obtain ⟨doc, _, _, _, hix⟩ := opened_inv hs.2.2.1 hp
  obtain ⟨d', h1, h2⟩ := diagnosed_same hp hsize hix h h'
  exact .diagnostics h1 h2

/-- C95: the description of the effects leaves no freedom: two effects of one message are the same, for the server and to the client. -/
theorem C95_determined (hreg : Regular env st) {m : Msg} (hm : SmallTexts m) {s s' : ServerState} {r r' : Reply} (h : Effect env st m s r)
    (h' : Effect env st m s' r') : SameServer s s' ∧ SameView r r' := by
  have symbol : (s = st ∧ (Correct env st m r ∨ Displays env st m r)) → (s' = st ∧ (Correct env st m r' ∨ Displays env st m r')) →
      ((Correct env st m r → ¬ Displays env st m r') ∧ (Correct env st m r' → ¬ Displays env st m r)) → SameServer s s' ∧ SameView r r' := by
    rintro ⟨rfl, h⟩ ⟨rfl, h'⟩ hx
    refine ⟨⟨rfl, rfl, fun _ _ => Iff.rfl⟩, ?_⟩
    rcases h with h | h <;> rcases h' with h' | h'
    · exact .reply (C94_determined hreg h h')
    · exact absurd h' (hx.1 h)
    · exact absurd h (hx.2 h')
    · exact C95_views_determined hreg h h'
  cases m with
  | «initialize» p =>
    cases r with
    | initialized i =>
      cases r' with
      | initialized i' =>
        obtain ⟨⟨l, h1, h2⟩, h3, h4, h5, h6, h7⟩ := h
        obtain ⟨⟨l', k1, k2⟩, k3, k4, k5, k6, k7⟩ := h'
        have e : l = l' := by
          rcases h1 with h1 | ⟨h1, rfl⟩ <;> rcases k1 with k1 | ⟨k1, rfl⟩ <;> rw [h1] at k1 <;> cases k1 <;> rfl
        subst e
        refine ⟨⟨h2.trans k2.symm, Bool.eq_iff_iff.mpr (h3.trans k3.symm), fun u t => by rw [h7, k7]⟩, ?_⟩
        have : i = i' := by
          obtain ⟨a1, a2, a3⟩ := i
          obtain ⟨b1, b2, b3⟩ := i'
          simp only at h4 h5 h6 k4 k5 k6
          have := Bool.eq_iff_iff.mpr (h4.trans k4.symm)
          rw [h5, h6, k5, k6, this]
        rw [this]
        exact .reply .same
      | _ => rcases h' with ⟨_, h' | h'⟩ <;> exact h'.elim
    | _ => rcases h with ⟨_, h | h⟩ <;> exact h.elim
  | didOpen u v text =>
    cases r with
    | published p =>
      cases r' with
      | published p' =>
        obtain ⟨h1, h2, h3, res, h4, h5⟩ := h
        obtain ⟨k1, k2, k3, res', k4, k5⟩ := h'
        obtain ⟨a1, a2, a3⟩ := p
        obtain ⟨b1, b2, b3⟩ := p'
        simp only at h2 h3 h5 k2 k3 k5
        subst h2 h3 k2 k3
        exact ⟨textSet_same h1 k1, published_same h1 h4 k4 hm (h5 hm) (k5 hm)⟩
      | _ => rcases h' with ⟨_, h' | h'⟩ <;> exact h'.elim
    | _ => rcases h with ⟨_, h | h⟩ <;> exact h.elim
  | didChange u v changes =>
    cases r with
    | published p =>
      cases r' with
      | published p' =>
        obtain ⟨c, rest, res, rfl, h1, h2, h3, h4, h5⟩ := h
        obtain ⟨c', rest', res', e, k1, k2, k3, k4, k5⟩ := h'
        cases e
        obtain ⟨a1, a2, a3⟩ := p
        obtain ⟨b1, b2, b3⟩ := p'
        simp only at h2 h3 h5 k2 k3 k5
        subst h2 h3 k2 k3
        have hm := hm c (by simp)
        exact ⟨textSet_same h1 k1, published_same h1 h4 k4 hm (h5 hm) (k5 hm)⟩
      | _ => rcases h' with ⟨_, h' | h'⟩ <;> exact h'.elim
    | _ => rcases h with ⟨_, h | h⟩ <;> exact h.elim
  | shutdown =>
    cases r with
    | done =>
      cases r' with
      | done =>
        cases h
        cases h'
        exact ⟨⟨rfl, rfl, fun _ _ => Iff.rfl⟩, .reply .same⟩
      | _ => rcases h' with ⟨_, h' | h'⟩ <;> exact h'.elim
    | _ => rcases h with ⟨_, h | h⟩ <;> exact h.elim
  | gotoDefinition => exact symbol h h' ⟨fun _ h => h, fun _ h => h⟩
  | gotoDeclaration => exact symbol h h' ⟨fun _ h => h, fun _ h => h⟩
  | references => exact symbol h h' ⟨fun _ h => h, fun _ h => h⟩
  | prepareRename => exact symbol h h' ⟨fun _ h => h, fun _ h => h⟩
  | rename => exact symbol h h' ⟨fun _ h => h, fun _ h => h⟩
  | codeAction => exact symbol h h' ⟨fun _ h => h, fun _ h => h⟩
  | codeActionResolve => exact symbol h h' ⟨fun _ h => h, fun _ h => h⟩
  | semanticTokensFull => exact symbol h h' ⟨fun h _ => h, fun h _ => h⟩
  | documentSymbol => exact symbol h h' ⟨fun h _ => h, fun h _ => h⟩
  | foldingRange => exact symbol h h' ⟨fun h _ => h, fun h _ => h⟩
  | inlayHint => exact symbol h h' ⟨fun h _ => h, fun h _ => h⟩
  | codeLens => exact symbol h h' ⟨fun h _ => h, fun h _ => h⟩
  | executeCommand => exact symbol h h' ⟨fun h _ => h, fun h _ => h⟩

/-- C95: what the server does is, up to order, the only thing that fits the description. -/
theorem C95_only (hall : AllOpened st) (hreg : Regular env st) {m : Msg} (hm : SmallTexts m) {s s' : ServerState} {r r' : Reply}
    (h : step env st m = .ok (s, r)) (h' : Effect env st m s' r') : SameServer s s' ∧ SameView r r' :=
  C95_determined hreg hm (C95_server hall hreg h) h'

end

section Examples
attribute [local instance] asciiUnicode

/-- Only one answer to this request for references fits the description. -/
example (r : Reply) (h : Correct debugEnv answerState (.references c!"u" ⟨2, 14⟩) r) :
    r = .locations (some [{ uri := c!"u", range := ⟨⟨7, 10⟩, ⟨7, 13⟩⟩ }]) := by
  obtain ⟨hall, hreg⟩ := answerState_regular (env := debugEnv) (fun _ => rfl)
  have hr : (match step debugEnv answerState (.references c!"u" ⟨2, 14⟩) with
    | .ok (_, .locations l) => decide (l = some [{ uri := c!"u", range := ⟨⟨7, 10⟩, ⟨7, 13⟩⟩ }])
    | _ => false) = true := by decide +kernel
  split at hr
  · rename_i s l e
    cases of_decide_eq_true hr
    have := C94_determined hreg (C94_answers hall hreg (m := .references c!"u" ⟨2, 14⟩) trivial e).2 h
    cases this
    rfl
  · cases hr

/-- Only these folds fit the description. -/
example (st : ServerState) (r : Reply) (h : Effect debugEnv viewState (.foldingRange c!"u") st r) : SameServer viewState st ∧ r = .folds (some
    [{ startLine := 3, endLine := 8, collapsedText := c!"1 basic blocks" }, { startLine := 8, endLine := 11, collapsedText := c!"0 basic blocks" },
     { startLine := 4, endLine := 7, collapsedText := c!"2 instructions" }, { startLine := 10, endLine := 10, collapsedText := c!"1 instructions" }]) := by
  obtain ⟨hall, hreg⟩ := viewState_regular (env := debugEnv) fun _ => rfl
  have : foldingRange viewState c!"u" = some
    [{ startLine := 3, endLine := 8, collapsedText := c!"1 basic blocks" }, { startLine := 8, endLine := 11, collapsedText := c!"0 basic blocks" },
     { startLine := 4, endLine := 7, collapsedText := c!"2 instructions" }, { startLine := 10, endLine := 10, collapsedText := c!"1 instructions" }] := by
    decide +kernel
  obtain ⟨h1, h2⟩ := C95_only (m := .foldingRange c!"u") hall hreg trivial (s := viewState) rfl h
  rw [this] at h2
  rcases h2 with ⟨⟨⟩⟩
  exact ⟨h1, rfl⟩

/-- A message that lists the expected words in another order is the same; another message is not. -/
example : SameMessage c!"Unexpected end of input, expected a, b" c!"Unexpected end of input, expected b, a" ∧
    ¬ SameMessage c!"Unexpected end of input" c!"Unexpected token in input" := by
  refine ⟨.inr ⟨c!"Unexpected end of input, expected ", [c!"a", c!"b"], [c!"b", c!"a"], .swap _ _ _, rfl, rfl⟩, ?_⟩
  rintro (h | ⟨start, ws, ws', hp, h1, h2⟩)
  · exact absurd h (by decide)
  · have count : ∀ ws : List Str, (commaList ws).length = (ws.map List.length).sum + 2 * (ws.length - 1) := by
      intro ws
      induction ws with
      | nil => rfl
      | cons a ws ih =>
        cases ws with
        | nil => simp [commaList]
        | cons b ws =>
          simp only [commaList, List.length_append, ih, List.map_cons, List.sum_cons, List.length_cons]
          simp
          omega
    have e1 := congrArg List.length h1
    have e2 := congrArg List.length h2
    rw [List.length_append, count] at e1 e2
    rw [(hp.map List.length).sum_nat, hp.length_eq] at e1
    rw [← e2] at e1
    exact absurd e1 (by decide)

end Examples
end HyperIR
