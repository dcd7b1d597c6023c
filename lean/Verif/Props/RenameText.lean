import Verif.Proofs.Applied
import Verif.Proofs.LabelBefore

/-! C27: the document after a rename. -/

namespace HyperIR
open Spec

section
variable [Unicode] {env : Env} {st : ServerState} {uri text : Str} {res : ParserResult}

/-- The new names of a rename. -/
noncomputable def renOf (res : ParserResult) (o : SymbolOccurrence) (name : Str) (t : Spanned Token) : Option Str :=
  open Classical in
  if ∃ o', Occurs res.tokens res.stmts o' ∧ SameSymbol o' o ∧ o'.span = t.2 then some name else none

omit [Unicode] in
theorem renOf_some {o : SymbolOccurrence} {name v : Str} {t : Spanned Token} (h : renOf res o name t = some v) :
    v = name ∧ ∃ o', Occurs res.tokens res.stmts o' ∧ SameSymbol o' o ∧ o'.span = t.2 := by
  unfold renOf at h
  split at h
  · rename_i h1; exact ⟨(Option.some.inj h).symm, h1⟩
  · cases h

omit [Unicode] in
theorem renOf_of {o o' : SymbolOccurrence} {name : Str} {t : Spanned Token} (h : Occurs res.tokens res.stmts o') (h1 : SameSymbol o' o)
    (h2 : o'.span = t.2) : renOf res o name t = some name := by
  unfold renOf
  rw [if_pos ⟨o', h, h1, h2⟩]

omit [Unicode] in
theorem occTok_nameToken (o : SymbolOccurrence) : occTok o = (nameToken o.symbolKind o.name, o.span) := by
  unfold occTok nameToken
  cases o.symbolKind <;> rfl

omit [Unicode] in
theorem withName_nameToken (k : SymbolKind) (n v : Str) : withName (nameToken k n) v = nameToken k v ∧ tokName (nameToken k n) = some n := by
  cases k <;> exact ⟨rfl, rfl⟩

/-- The token of a renamed occurrence. -/
theorem renOf_token (h : parseFromStr text = .ok res) {o : SymbolOccurrence} {name v : Str} {t : Spanned Token} (ht : t ∈ res.tokens)
    (hr : renOf res o name t = some v) : v = name ∧ t.1 = nameToken o.symbolKind o.name ∧ ∃ o', Occurs res.tokens res.stmts o' ∧ SameSymbol o' o ∧ o'.span = t.2 := by
  obtain ⟨rfl, o', h1, h2, h3⟩ := renOf_some hr
  refine ⟨rfl, ?_, o', h1, h2, h3⟩
  have hm := occurs_token h h1
  rw [occTok_nameToken] at hm
  have := token_eq (tokens_wellOrdered h) ht hm h3.symm
  rw [this, h2.1, h2.2.2]

/-- Names that are accepted and can be read back: the last character is not a colon, and a label does not start with a colon and is no
keyword. -/
def ReadsBack (k : SymbolKind) (name : Str) : Prop :=
  name.getLast? ≠ some ':' ∧ (k = .label → name.head? ≠ some ':' ∧ name ≠ c!"declare" ∧ name ≠ c!"define" ∧ name ∉ keywordModifiers ∧ name ∉ keywordTypes)

theorem readsBack_spells {k : SymbolKind} {req name : Str} (hn : NewName k req name) (hr : ReadsBack k name) : Spells (nameToken k name) name := by
  obtain ⟨sigil, body, h1, _, rfl, h4, h5, h6⟩ := hn
  rw [sigil_iff] at h1
  have htail : NameTail body := ⟨h5, by rw [← getLast?_append_ne (u := sigil) h4]; exact hr.1⟩
  subst h1
  cases k with
  | globalVar => exact .globalName htail
  | function => exact .globalName htail
  | dbgAnnotation => exact .debugRef htail
  | localVar => exact .localName htail
  | label =>
    simp only [sigilOf, List.nil_append] at hr ⊢
    obtain ⟨k1, k2, k3, k4, k5⟩ := hr.2 rfl
    cases body with
    | nil => exact absurd rfl h4
    | cons c cs =>
      refine .ident ⟨c, cs, rfl, ?_, ?_, ?_⟩ k2 k3 k4 k5
      · rcases h5 c (by simp) with h | rfl
        · rcases h with h | rfl
          · have := h6 (by simp) c rfl
            unfold Unicode.alphanumeric at h
            rw [this, Bool.or_false] at h
            exact .inl h
          · exact .inr rfl
        · exact absurd rfl k1
      · exact fun d hd => h5 d (by simp [hd])
      · cases cs with
        | nil => simp
        | cons d ds => have := htail.2; rwa [List.getLast?_cons_cons] at this

omit [Unicode] in
theorem each_same_length {α β : Type} {R : α → β → Prop} {as : List α} {bs : List β} (h : Each R as bs) : bs.length = as.length := by
  induction h with
  | nil => rfl
  | cons _ _ ih => simp [ih]

/-- Nothing but names is replaced. -/
theorem renOf_bare (h : parseFromStr text = .ok res) {o : SymbolOccurrence} {name : Str} (hbare : ∀ o', Occurs res.tokens res.stmts o' → SameSymbol o' o → Bare o')
    {t : Spanned Token} (ht : t ∈ res.tokens) {v : Str} (hv : renOf res o name t = some v) :
    ∃ n, tokName t.1 = some n ∧ t.2.stop = t.2.start + n.length := by
  obtain ⟨_, h1, o', h2, h3, h4⟩ := renOf_token h ht hv
  refine ⟨o.name, by rw [h1]; exact (withName_nameToken o.symbolKind o.name []).2, ?_⟩
  have := hbare o' h2 h3
  unfold Bare at this
  rw [h4, h3.2.2] at this
  exact this

/-- What the edits of a rename do to the text and the tokens. -/
theorem rename_applied (h : parseFromStr text = .ok res) {toks : List (Spanned Token)} {errs : List (LErr Char)} (ht : tokenize text = .ok (some toks, errs))
    {o : SymbolOccurrence} {name : Str} (hspell : Spells (nameToken o.symbolKind name) name) {occs : List SymbolOccurrence} {edits : List TextEdit}
    (hp : PlainSymbol text res o) (hren : Renames text (occs.map fun o' => (o', name)) edits) (hnd : (occs.map (·.span)).Nodup)
    (hmem : ∀ o', o' ∈ occs ↔ Occurs res.tokens res.stmts o' ∧ SameSymbol o' o)
    (hbare : ∀ o', Occurs res.tokens res.stmts o' → SameSymbol o' o → Bare o') :
    ∃ text' errs', Applied text edits text' ∧
      tokenize text' = .ok (some (toks.map (renTok (renOf res o name) (movePos 0 0 (renChanges (renOf res o name) toks)))), errs') ∧
      Each (LexMoved (movePos 0 0 (renChanges (renOf res o name) toks)) { start := text.length, stop := text.length }
        { start := text'.length, stop := text'.length } 0) errs errs' ∧
      Replaced 0 text (renChanges (renOf res o name) toks) text' ∧
      Replaced 0 text' (backChanges (renOf res o name) (movePos 0 0 (renChanges (renOf res o name) toks)) toks) text := by
  have hts : res.tokens = toks := by
    rcases parseFromStr_tokens h with ⟨h1, ⟨e, h2⟩, _⟩ | ⟨errs, h1⟩
    · rw [h2] at ht; cases ht
    · rw [h1] at ht; cases ht; rfl
  obtain ⟨hlex, hne⟩ := tokenize_exact.mp ht
  obtain ⟨text', errs', h1, he, h2, h3⟩ := lexes_renamed (ren := renOf res o name) hlex hne (by
      intro t htm v hr
      rw [← hts] at htm
      refine ⟨renOf_bare h hbare htm hr, ?_⟩
      obtain ⟨rfl, h1, _⟩ := renOf_token h htm hr
      rw [h1, (withName_nameToken o.symbolKind o.name v).1]
      exact hspell) (by
      intro pre t n sp post he hnum hadj
      cases hr : renOf res o name (.ident n, sp) with
      | none => rfl
      | some v =>
        exfalso
        rw [← hts] at he
        obtain ⟨rfl, h1, o', h2, h3, h4⟩ := renOf_token h (t := (.ident n, sp)) (by rw [he]; simp) hr
        have hk : o.symbolKind = .label := by
          revert h1
          cases o.symbolKind <;> simp [nameToken]
        simp only at h4
        rw [← h4] at he
        exact label_not_behind_number h h2 (h3.1.trans hk) he hnum)
  refine ⟨text', errs', ?_, h1, he, h2, h3⟩
  -- the changes are the edits, in source order
  have hE : Each (fun (c : Span × Str) (e : TextEdit) => EditorRange text c.1 e.range ∧ e.newText = c.2) (occs.map fun o' => (o'.span, name)) edits := by
    unfold Renames at hren
    have hp : ∀ o' ∈ occs, PlainTo text o'.span.stop := fun o' ho' => hp o' ((hmem o').mp ho').1 ((hmem o').mp ho').2
    clear hnd hmem
    generalize hl : (occs.map fun o' => (o', name)) = l at hren
    induction hren generalizing occs with
    | nil =>
      rw [List.map_eq_nil_iff] at hl
      subst hl
      exact .nil
    | cons h1 _ ih =>
      obtain ⟨x, xs, rfl, rfl, rfl⟩ := List.map_eq_cons_iff.mp hl
      exact .cons ⟨h1.2 (hp x (by simp)), h1.1⟩ (ih (fun o' ho' => hp o' (by simp [ho'])) rfl)
  have hperm : (renChanges (renOf res o name) toks).Perm (occs.map fun o' => (o'.span, name)) := by
    refine (List.perm_ext_iff_of_nodup ?_ ?_).mpr ?_
    · have := (replaced_order h2).2
      refine (List.Pairwise.imp_of_mem ?_ this)
      intro a b ha hb hab e
      subst e
      unfold renChanges at ha
      obtain ⟨t, ht1, ht2⟩ := List.mem_filterMap.mp ha
      obtain ⟨v, _, rfl⟩ := Option.map_eq_some_iff.mp ht2
      have := lexesWith_spans hlex t ht1
      simp only at hab
      omega
    · have : (occs.map fun o' => (o'.span, name)) = (occs.map (·.span)).map fun s => (s, name) := by rw [List.map_map]; rfl
      rw [this]
      refine List.Pairwise.map _ ?_ hnd
      intro a b hab e
      exact hab (congrArg Prod.fst e)
    · rintro ⟨sp, v⟩
      unfold renChanges
      rw [List.mem_filterMap, List.mem_map]
      constructor
      · rintro ⟨t, ht1, ht2⟩
        obtain ⟨v', hv, he⟩ := Option.map_eq_some_iff.mp ht2
        cases he
        obtain ⟨rfl, o', k1, k2, k3⟩ := renOf_some hv
        exact ⟨o', (hmem o').mpr ⟨k1, k2⟩, by rw [k3]⟩
      · rintro ⟨o', ho', he⟩
        cases he
        obtain ⟨k1, k2⟩ := (hmem o').mp ho'
        have hm := occurs_token h k1
        rw [hts] at hm
        refine ⟨_, hm, ?_⟩
        rw [renOf_of k1 k2 (occTok_span o').symm, occTok_span]
        rfl
  obtain ⟨sorted, hs1, hs2⟩ := each_perm_right hperm hE
  exact ⟨_, sorted, hs1, hs2, h2⟩

/-- C27: after a rename with an accepted name the document consists of the same tokens, except that exactly the occurrences of the symbol carry
the new name.  What is missing: names that are accepted although they cannot be read back as one token of the symbol's kind
(`C27_refuted_colon`, `C27_refuted_keyword`), variables with the name of a function (see `C25_refuted_clash`), names with
unrecognizable text directly in front of them (`C27_refuted_garbage`), and text that is not plain ASCII in front of an occurrence of the symbol
(see `C25_refuted_nonascii`). -/
theorem C27_tokens_partial (hopen : Opened st uri text) (h : parseFromStr text = .ok res) (hsize : text.length < 2 ^ 32)
    {toks : List (Spanned Token)} {errs : List (LErr Char)} (ht : tokenize text = .ok (some toks, errs)) {p : Pos} {off : Nat} (hpos : LspOffset text p off)
    {o : SymbolOccurrence} (ho : Occurs res.tokens res.stmts o) (hc : Covers o.span off) (hp : PlainSymbol text res o)
    (hvis : ¬ Shadowed res.stmts o) {req name : Str}
    (hreq : ¬ Relative req) (hname : NewName o.symbolKind req name) (hback : ReadsBack o.symbolKind name)
    (hbare : ∀ o', Occurs res.tokens res.stmts o' → SameSymbol o' o → Bare o') :
    ∃ edits text' toks' errs', rename env st uri p req = .ok (.ok [(uri, edits)]) ∧ Applied text edits text' ∧ (∀ t, Applied text edits t → t = text') ∧
      tokenize text' = .ok (some toks', errs') ∧ errs'.length = errs.length ∧ TokensRenamed res o name toks toks' := by
  obtain ⟨edits, occs, h1, h2, h3, h4, h5, _⟩ := C25_rename_partial (env := env) hopen h hsize hpos
    ((hp o ho ⟨rfl, rfl, rfl⟩).mono (Nat.le_of_lt hc.2)) ho hc hvis hreq hname
  have hts : res.tokens = toks := by
    rcases parseFromStr_tokens h with ⟨h1, ⟨e, h2⟩, _⟩ | ⟨errs, h1⟩
    · rw [h2] at ht; cases ht
    · rw [h1] at ht; cases ht; rfl
  have hspan : ∀ o' ∈ occs, o'.span.start < o'.span.stop := by
    intro o' ho'
    have := (tokens_wellOrdered h).2 _ (occurs_token h ((h4 o').mp ho').1)
    rwa [occTok_span] at this
  have hnd : (occs.map (·.span)).Nodup := by
    unfold Disjoint at h5
    refine List.Pairwise.imp_of_mem ?_ h5
    intro a b ha hb hab e
    subst e
    obtain ⟨o', ho', rfl⟩ := List.mem_map.mp ha
    have := hspan o' ho'
    omega
  obtain ⟨text', errs', k1, k2, k3, _⟩ := rename_applied h ht (readsBack_spells hname hback) hp h2 hnd h4 hbare
  refine ⟨edits, text', toks.map (renTok (renOf res o name) (movePos 0 0 (renChanges (renOf res o name) toks))), errs', h1, k1, ?_, k2, each_same_length k3, ?_⟩
  · intro t hta
    refine applied_unique hsize ?_ hta k1
    intro sp e he hr
    have : ∀ {l : List (SymbolOccurrence × Str)} {es : List TextEdit}, Renames text l es →
        (∀ c ∈ l, PlainTo text c.1.span.stop) → ∀ e ∈ es, ∃ c ∈ l, EditorRange text c.1.span e.range := by
      intro l es h hp
      unfold Renames at h
      induction h with
      | nil => simp
      | cons h _ ih =>
        intro e he
        have ih := ih fun c hc => hp c (by simp [hc])
        rcases List.mem_cons.mp he with rfl | he
        · exact ⟨_, by simp, h.2 (hp _ (by simp))⟩
        · obtain ⟨c, hc, hr⟩ := ih e he
          exact ⟨c, by simp [hc], hr⟩
    obtain ⟨c, hc1, hc2⟩ := this h2 (by
      intro c hc
      obtain ⟨o', ho', rfl⟩ := List.mem_map.mp hc
      exact hp o' ((h4 o').mp ho').1 ((h4 o').mp ho').2) e he
    obtain ⟨o', ho', rfl⟩ := List.mem_map.mp hc1
    rw [editorRange_inj hsize hr hc2]
    exact hspan o' ho'
  · unfold TokensRenamed
    have : toks = toks.map id := by simp
    conv => arg 2; rw [this]
    apply each_map
    intro t htm
    simp only [id, renTok]
    cases hr : renOf res o name t with
    | some v =>
      obtain ⟨rfl, e1, e2⟩ := renOf_token h (by rw [hts]; exact htm) hr
      left
      refine ⟨e2, ?_⟩
      rw [e1]
      exact (withName_nameToken ..).1
    | none =>
      right
      refine ⟨?_, rfl⟩
      intro o' k1 k2 k3
      rw [renOf_of k1 k2 k3] at hr
      cases hr

end

/-! ### Examples and refutations -/

section Examples
attribute [local instance] asciiUnicode

/-- `renText` meets the hypotheses: it can be tokenized, `@b` and `y:z` are accepted names that can be read back. -/
example : (match tokenize renText with | .ok (some _, []) => true | _ => false) = true := by decide +kernel
example : ReadsBack .globalVar c!"@b" ∧ ReadsBack .label c!"y:z" := by
  refine ⟨⟨by decide, by simp⟩, by decide, fun _ => ?_⟩
  decide
example : NewName .label c!"y:z" c!"y:z" :=
  ⟨[], c!"y:z", rfl, .inr rfl, rfl, by simp, by simp [NameChar]; decide, by intro _ c h; simp at h; subst h; decide⟩

/-- Renaming the label of `renText`: the edits, and the tokens of the document with the edits applied. -/
example : (match rename debugEnv (serverWith [] c!"u" renText) c!"u" ⟨2, 0⟩ c!"y:z" with | .ok (.ok e) => some e | _ => none) =
    some [(c!"u", [⟨⟨⟨2, 0⟩, ⟨2, 2⟩⟩, c!"y:z"⟩, ⟨⟨⟨4, 4⟩, ⟨4, 6⟩⟩, c!"y:z"⟩])] := by decide +kernel

def lineText : Str := c!"@a = 1\n"

theorem lineText_range {a b : Nat} (h : a ≤ 6 ∧ b ≤ 6) : EditorRange lineText ⟨a, b⟩ ⟨⟨0, a⟩, ⟨0, b⟩⟩ := by
  have hl : LspLine lineText 0 0 c!"@a = 1" := .here (content := c!"@a = 1") (tail := ['\n']) (by decide) (by rintro c cs h; cases h; exact .inl rfl)
  exact ⟨⟨0, _, hl, h.1, by simp⟩, ⟨0, _, hl, h.2, by simp⟩⟩

/-- C27 fails for accepted names that end in a colon: the colon becomes a token of its own. -/
theorem C27_refuted_colon : ∃ edits,
    (match rename debugEnv (serverWith [] c!"u" lineText) c!"u" ⟨0, 0⟩ c!"b:" with | .ok (.ok e) => some e | _ => none) = some [(c!"u", edits)] ∧
    Applied lineText edits c!"@b: = 1\n" ∧
    (match tokenize lineText with | .ok (some ts, []) => some (ts.map Prod.fst) | _ => none) =
      some [.globalName c!"@a", .punct '=', .num c!"1", .newline] ∧
    (match tokenize c!"@b: = 1\n" with | .ok (some ts, []) => some (ts.map Prod.fst) | _ => none) =
      some [.globalName c!"@b", .punct ':', .punct '=', .num c!"1", .newline] := by
  refine ⟨[⟨⟨⟨0, 0⟩, ⟨0, 2⟩⟩, c!"@b:"⟩], by decide +kernel, ?_, by decide +kernel, by decide +kernel⟩
  exact ⟨[(⟨0, 2⟩, c!"@b:")], _, .refl _, .cons ⟨lineText_range (by omega), rfl⟩ .nil,
    .change (o := 0) (a := []) (w := c!"@a") (rest := c!" = 1\n") (v := c!"@b:") .done⟩

def blockText : Str := c!"define void @f() {\nx:\nret\n}\n"

/-- C27 fails for labels that are given the name of a keyword: the label becomes a keyword. -/
theorem C27_refuted_keyword : ∃ edits,
    (match rename debugEnv (serverWith [] c!"u" blockText) c!"u" ⟨1, 0⟩ c!"pure" with | .ok (.ok e) => some e | _ => none) = some [(c!"u", edits)] ∧
    Applied blockText edits c!"define void @f() {\npure:\nret\n}\n" ∧
    (match tokenize c!"define void @f() {\npure:\nret\n}\n" with | .ok (some ts, []) => (ts.map Prod.fst)[7]? | _ => none) =
      some (.funcModifier c!"pure") := by
  refine ⟨[⟨⟨⟨1, 0⟩, ⟨1, 1⟩⟩, c!"pure"⟩], by decide +kernel, ?_, by decide +kernel⟩
  have hl : LspLine blockText 1 19 c!"x:" :=
    .later (content := c!"define void @f() {") (eol := ['\n']) (rest := c!"x:\nret\n}\n") (n := 0) (start := 0) (by decide) (.inl rfl) (by simp)
      (.here (content := c!"x:") (tail := c!"\nret\n}\n") (by decide) (by rintro c cs h; cases h; exact .inl rfl))
  exact ⟨[(⟨19, 20⟩, c!"pure")], _, .refl _, .cons ⟨⟨⟨19, _, hl, by decide, rfl⟩, ⟨19, _, hl, by decide, rfl⟩⟩, rfl⟩ .nil,
    .change (o := 0) (a := c!"define void @f() {\n") (w := c!"x") (rest := c!":\nret\n}\n") (v := c!"pure") .done⟩

def garbageText : Str := c!"define void @f() {\ny:\nbr?y\n}\n"

/-- C27 fails for names with unrecognizable text in front of them: the text is removed, and the name becomes one with the word before it. -/
theorem C27_refuted_garbage : ∃ edits,
    (match rename debugEnv (serverWith [] c!"u" garbageText) c!"u" ⟨1, 0⟩ c!"z" with | .ok (.ok e) => some e | _ => none) = some [(c!"u", edits)] ∧
    Applied garbageText edits c!"define void @f() {\nz:\nbrz\n}\n" ∧
    (match tokenize garbageText with | .ok (some ts, _) => (ts.map Prod.fst).filter fun t => decide ((tokName t).isSome) | _ => []) =
      [.globalName c!"@f", .ident c!"y", .ident c!"br", .ident c!"y"] ∧
    (match tokenize c!"define void @f() {\nz:\nbrz\n}\n" with | .ok (some ts, _) => (ts.map Prod.fst).filter fun t => decide ((tokName t).isSome) | _ => []) =
      [.globalName c!"@f", .ident c!"z", .ident c!"brz"] := by
  refine ⟨[⟨⟨⟨1, 0⟩, ⟨1, 1⟩⟩, c!"z"⟩, ⟨⟨⟨2, 2⟩, ⟨2, 4⟩⟩, c!"z"⟩], by decide +kernel, ?_, by decide +kernel, by decide +kernel⟩
  have h1 : LspLine garbageText 1 19 c!"y:" :=
    .later (content := c!"define void @f() {") (eol := ['\n']) (rest := c!"y:\nbr?y\n}\n") (n := 0) (start := 0) (by decide) (.inl rfl) (by simp)
      (.here (content := c!"y:") (tail := c!"\nbr?y\n}\n") (by decide) (by rintro c cs h; cases h; exact .inl rfl))
  have h2 : LspLine garbageText 2 22 c!"br?y" :=
    .later (content := c!"define void @f() {") (eol := ['\n']) (rest := c!"y:\nbr?y\n}\n") (n := 1) (start := 3) (by decide) (.inl rfl) (by simp)
      (.later (content := c!"y:") (eol := ['\n']) (rest := c!"br?y\n}\n") (n := 0) (start := 0) (by decide) (.inl rfl) (by simp)
        (.here (content := c!"br?y") (tail := c!"\n}\n") (by decide) (by rintro c cs h; cases h; exact .inl rfl)))
  exact ⟨[(⟨19, 20⟩, c!"z"), (⟨24, 26⟩, c!"z")], _, .refl _,
    .cons ⟨⟨⟨19, _, h1, by decide, rfl⟩, ⟨19, _, h1, by decide, rfl⟩⟩, rfl⟩ (.cons ⟨⟨⟨22, _, h2, by decide, rfl⟩, ⟨22, _, h2, by decide, rfl⟩⟩, rfl⟩ .nil),
    .change (o := 0) (a := c!"define void @f() {\n") (w := c!"y") (rest := c!":\nbr?y\n}\n") (v := c!"z")
      (.change (o := 20) (a := c!":\nbr") (w := c!"?y") (rest := c!"\n}\n") (v := c!"z") .done)⟩

end Examples

end HyperIR
