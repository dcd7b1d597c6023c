import Verif.Proofs.RenameMeaning
import Verif.Props.Analysis

/-! C28 and C60: what the names of the document refer to after a rename, and renaming back. -/

namespace HyperIR
open Spec

section
variable [Unicode] {env : Env} {st : ServerState} {uri text : Str} {res : ParserResult}

omit [Unicode] in
theorem notKeyword_of_plain {n : Str} (h : PlainLabel n) : NotKeyword n := by
  have he : endsWith n c!"br" = false := by
    cases hb : endsWith n c!"br" with
    | false => rfl
    | true => exact absurd (isBr_iff.mpr hb) h.2
  refine ⟨?_, he⟩
  intro hm
  unfold instrWords at hm
  rcases List.mem_cons.mp hm with rfl | hm
  · exact h.2 ⟨[], rfl⟩
  · exact h.1 hm

/-- The token of an occurrence spells its name. -/
theorem occurs_spells (h : parseFromStr text = .ok res)
    {o : SymbolOccurrence} (ho : Occurs res.tokens res.stmts o) : Spells (nameToken o.symbolKind o.name) o.name := by
  have htok := occurs_token h ho
  rw [occTok_nameToken] at htok
  obtain ⟨g, w, _, this, _⟩ := C03_token_spelling_with_errors h _ _ htok
  rwa [spells_named this (withName_nameToken o.symbolKind o.name []).2] at this

/-- Without unrecognizable text, there is none in front of names. -/
theorem bare_of_lexed (h : parseFromStr text = .ok res) {toks : List (Spanned Token)} (ht : tokenize text = .ok (some toks, []))
    {o : SymbolOccurrence} (ho : Occurs res.tokens res.stmts o) : Bare o := by
  have hts := parsed_tokens h ht
  have htok := occurs_token h ho
  have hin := (C02_token_spans h).1 _ htok
  rw [occTok_nameToken] at htok hin
  have := C03_token_spelling_lexical ht _ _ (by rw [← hts]; exact htok)
  have := congrArg List.length (spells_named this (withName_nameToken o.symbolKind o.name []).2)
  unfold slice at this
  rw [List.length_take, List.length_drop] at this
  have h1 := hin.1
  have h2 := hin.2
  simp only at h1 h2
  unfold Bare
  omega

theorem readsBack_of_spells {k : SymbolKind} {n : Str} (h : Spells (nameToken k n) n) : ReadsBack k n := by
  have htail : ∀ {w : Str} {c : Char}, c ≠ ':' → NameTail w → (c :: w).getLast? ≠ some ':' := by
    intro w c hc hw
    cases w with
    | nil => simpa using hc
    | cons d ds => rw [List.getLast?_cons_cons]; exact hw.2
  generalize ht : nameToken k n = t at h
  cases h <;> cases k <;> simp [nameToken] at ht
  case ident.label h1 h2 h3 h4 h5 =>
    obtain ⟨c, cs, rfl, hc, hcs⟩ := h1
    have hne : c ≠ ':' := by
      rintro rfl
      exact not_head_of (by decide) (by decide) hc
    exact ⟨htail hne hcs, fun _ => ⟨by simpa using hne, h2, h3, h4, h5⟩⟩
  all_goals
    rename_i hw
    exact ⟨htail (by decide) hw, by simp⟩

/-- Names show of what sort they are. -/
theorem spells_head {k : SymbolKind} {n : Str} (h : Spells (nameToken k n) n) :
    (nameToken k [] = .globalName [] → n.head? = some '@') ∧ (nameToken k [] ≠ .globalName [] → n.head? ≠ some '@') := by
  generalize ht : nameToken k n = t at h
  cases h <;> cases k <;> simp [nameToken] at ht <;> simp [nameToken]
  case ident.label h1 h2 h3 h4 h5 =>
    obtain ⟨c, cs, rfl, hc, _⟩ := h1
    simp only [List.head?_cons, Option.some.injEq]
    rintro rfl
    exact not_head_of (by decide) (by decide) hc
  all_goals subst ht; simp

/-- Global symbols have no function. -/
theorem occurs_global {o : SymbolOccurrence} (ho : Occurs res.tokens res.stmts o) (hk : nameToken o.symbolKind [] = .globalName []) : o.funcBodyId = none := by
  rcases ho with hm | ⟨⟨t, _, hu⟩, _⟩
  · refine docOccs_kind_global hm ?_
    revert hk
    cases o.symbolKind <;> simp [nameToken]
  · obtain ⟨t, sp⟩ := t
    cases t <;> simp only [tokenUse] at hu
    case globalName n => cases hu; rfl
    case debugRef n => cases hu; rfl
    case localName n =>
      cases hf : functionAt res.stmts sp.start with
      | none => simp [hf] at hu
      | some i => simp [hf] at hu; subst hu; simp [Spec.occ, nameToken] at hk
    all_goals cases hu

/-- Everything about the document after the rename. -/
theorem rename_core (hopen : Opened st uri text) (h : parseFromStr text = .ok res) (hsize : text.length < 2 ^ 32)
    {toks : List (Spanned Token)} {errs : List (LErr Char)} (ht : tokenize text = .ok (some toks, errs)) {p : Pos} {off : Nat} (hpos : LspOffset text p off)
    {o : SymbolOccurrence} (ho : Occurs res.tokens res.stmts o) (hc : Covers o.span off) (hp : PlainSymbol text res o) (hamb : ¬ Ambiguous res.stmts o.name) {req name : Str}
    (hreq : ¬ Relative req) (hname : NewName o.symbolKind req name) (hback : ReadsBack o.symbolKind name) (hplain : Plain name)
    (hbare : ∀ o', Occurs res.tokens res.stmts o' → SameSymbol o' o → Bare o') :
    ∃ edits text' errs' f res', rename env st uri p req = .ok (.ok [(uri, edits)]) ∧ Applied text edits text' ∧ (∀ t, Applied text edits t → t = text') ∧
      (∀ q, PlainTo text q → PlainTo text' (f q)) ∧ res.tokens = toks ∧ tokenize text' = .ok (some (toks.map (renG res o name f).tok), errs') ∧ parseFromStr text' = .ok res' ∧
      res'.tokens = toks.map (renG res o name f).tok ∧ res'.stmts = res.stmts.map (renG res o name f).stmt ∧
      Replaced 0 text' (backChanges (renOf res o name) f toks) text ∧ Carried (renG res o name f) text text' res res' := by
  obtain ⟨edits, occs, h1, h2, h3, h4, h5, _⟩ := C25_rename_partial (env := env) hopen h hsize hpos ((hp o ho ⟨rfl, rfl, rfl⟩).mono (Nat.le_of_lt hc.2)) ho hc (visible_of_clear ho hamb) hreq hname
  obtain ⟨edits1, text1, _, _, k1, k2, k3, k4, _⟩ := C27_tokens_partial (env := env) hopen h hsize ht hpos ho hc hp (visible_of_clear ho hamb) hreq hname hback hbare
  rw [h1] at k1
  cases k1
  have hspan : ∀ o' ∈ occs, o'.span.start < o'.span.stop := by
    intro o' ho'
    have := (tokens_wellOrdered h).2 _ (occurs_token h ((h4 o').mp ho').1)
    rwa [occTok_span] at this
  have hnd : (occs.map (·.span)).Nodup := by
    unfold Disjoint at h5
    refine List.Pairwise.imp_of_mem ?_ h5
    intro a b ha hb hab e
    subst e
    obtain ⟨o', ho', rfl⟩ := List.mem_map.mp ha
    have := hspan o' ho'
    omega
  obtain ⟨text', errs', j1, ht', he, j3, j4⟩ := rename_applied h ht (readsBack_spells hname hback) hp h2 hnd h4 hbare
  obtain rfl := k3 _ j1
  have hts := parsed_tokens h ht
  obtain ⟨res', r1, r2⟩ := parse_renamed h ht hp hplain j3 rfl hbare ht' he
  have hmap : toks.map (renTok (renOf res o name) (movePos 0 0 (renChanges (renOf res o name) toks))) = toks.map (renG res o name (movePos 0 0 (renChanges (renOf res o name) toks))).tok := by
    refine List.map_congr_left ?_
    intro t htm
    rw [renG_tok h (by rw [hts]; exact htm)]
  exact ⟨edits, text', errs', movePos 0 0 (renChanges (renOf res o name) toks), res', h1, k2, k3, r2.plain, hts, by rw [← hmap]; exact ht', r1, hts ▸ r2.tokens, r2.stmts, j4, r2⟩

/-- The occurrences after a rename to a name not yet used in the scope. -/
theorem rename_keeps (h : parseFromStr text = .ok res) {ix : HIRIndex} (hix : createIndex text res.tokens res.stmts = .ok ix)
    {o : SymbolOccurrence} (hamb : ¬ Ambiguous res.stmts o.name) {name : Str} (hfresh : Fresh res o name) {f : Nat → Nat}
    {text' : Str} {res' : ParserResult} (h' : parseFromStr text' = .ok res')
    (h7 : res'.tokens = res.tokens.map (renG res o name f).tok) (h8 : res'.stmts = res.stmts.map (renG res o name f).stmt) :
    Keeps res res' (fun o' v => SameSymbol o' o ∧ v = name) (renG res o name f).occ := by
  have hw := tokens_wellOrdered h'
  rw [h7] at hw
  refine ⟨?_, fun _ => ⟨rfl, rfl, rfl⟩, ?_, ?_⟩
  · intro o'
    rw [h7, h8]
    exact occurs_ren h hix hamb hfresh hw
  · intro o1 ho1
    rcases renG_occ_name (name := name) (f := f) h hix hamb ho1 with ⟨s, n⟩ | ⟨s, n⟩
    · exact ⟨fun v hv => by rw [hv.2]; exact n, fun hn => absurd ⟨s, rfl⟩ (hn name)⟩
    · exact ⟨fun v hv => absurd hv.1 s, fun _ => n⟩
  · intro o1 o2 ho1 ho2
    refine ⟨occ_sameSymbol h hix hamb hfresh ho1 ho2, ?_⟩
    have := (wellOrdered_order (tokens_wellOrdered h) hw (occurs_token h ho2) (occurs_token h ho1)).1
    rw [occTok_span, occTok_span] at this
    show (renG res o name f).f o1.span.start < (renG res o name f).f o2.span.start ↔ _
    omega

/-- C60: after a rename to a name not yet used in its scope, the names of the document refer to the same things as before.  What
is missing: names that are accepted although they cannot be read back (`C27_refuted_colon`, `C27_refuted_keyword`) or are not plain
ASCII, names that are both a function and a global variable, and documents with
other characters above the last occurrence of the name or with unrecognizable text directly in front of the name (`C27_refuted_garbage`). -/
theorem C60_references_partial (hopen : Opened st uri text) (h : parseFromStr text = .ok res) (hsize : text.length < 2 ^ 32)
    {toks : List (Spanned Token)} {errs : List (LErr Char)} (ht : tokenize text = .ok (some toks, errs)) {p : Pos} {off : Nat} (hpos : LspOffset text p off)
    {o : SymbolOccurrence} (ho : Occurs res.tokens res.stmts o) (hc : Covers o.span off) (hp : PlainSymbol text res o) (hamb : ¬ Ambiguous res.stmts o.name) {req name : Str}
    (hreq : ¬ Relative req) (hname : NewName o.symbolKind req name) (hback : ReadsBack o.symbolKind name) (hplain : Plain name)
    (hfresh : Fresh res o name)
    (hbare : ∀ o', Occurs res.tokens res.stmts o' → SameSymbol o' o → Bare o') :
    ∃ edits text' res', rename env st uri p req = .ok (.ok [(uri, edits)]) ∧ Applied text edits text' ∧ (∀ t, Applied text edits t → t = text') ∧
      parseFromStr text' = .ok res' ∧ res'.stmts.length = res.stmts.length ∧ SameReferences res o name res' := by
  obtain ⟨edits, text', errs', f, res', h1, h2, h3, h4, hts, h5, h6, h7, h8, _⟩ :=
    rename_core (env := env) hopen h hsize ht hpos ho hc hp hamb hreq hname hback hplain hbare
  obtain ⟨doc, errs, ha, _⟩ := hopen
  obtain ⟨res0, e1, _, _, _, _, hix⟩ := analyze_inv ha
  rw [h] at e1
  cases e1
  rw [← hts] at h7
  have hk := rename_keeps h hix hamb hfresh h6 h7 h8
  exact ⟨edits, text', res', h1, h2, h3, h6, by rw [h8]; simp, _, hk.occurs, hk.role,
    fun o1 ho1 => ⟨fun hs => (hk.name o1 ho1).1 name ⟨hs, rfl⟩, fun hs => (hk.name o1 ho1).2 fun v hv => hs hv.1⟩, hk.same⟩

omit [Unicode] in
theorem newName_not_relative [Unicode] {k : SymbolKind} {name : Str} (h : NewName k name name) : ¬ Relative name := by
  obtain ⟨sigil, body, h1, _, rfl, h4, h5, _⟩ := h
  rw [sigil_iff] at h1
  subst h1
  rintro ⟨w, hw⟩
  cases body with
  | nil => exact h4 rfl
  | cons c cs =>
    have hc := h5 c (by simp)
    have key : c = '+' ∨ c = '-' → False := by
      rintro (rfl | rfl)
      · rcases hc with (hc | hc) | hc
        · simp [Unicode.alphanumeric, Unicode.alphabetic_ascii, Unicode.numeric_ascii] at hc
        · cases hc
        · cases hc
      · rcases hc with (hc | hc) | hc
        · simp [Unicode.alphanumeric, Unicode.alphabetic_ascii, Unicode.numeric_ascii] at hc
        · cases hc
        · cases hc
    cases k <;> simp [sigilOf] at hw
    exact key (by rcases hw with hw | hw <;> simp [hw.1])

/-- C28: renaming a symbol to a name not yet used in its scope and then renaming it back, at any of its occurrences, gives the
original text.  What is missing: old names that are not accepted as new names (`C28_refuted_number`), and the cases missing in C60. -/
theorem C28_back_partial (hopen : Opened st uri text) (h : parseFromStr text = .ok res) (hsize : text.length < 2 ^ 32)
    {toks : List (Spanned Token)} {errs : List (LErr Char)} (ht : tokenize text = .ok (some toks, errs)) {p : Pos} {off : Nat} (hpos : LspOffset text p off)
    {o : SymbolOccurrence} (ho : Occurs res.tokens res.stmts o) (hc : Covers o.span off) (hp : PlainSymbol text res o) (hamb : ¬ Ambiguous res.stmts o.name) {req name : Str}
    (hreq : ¬ Relative req) (hname : NewName o.symbolKind req name) (hback : ReadsBack o.symbolKind name) (hplain : Plain name)
    (hfresh : Fresh res o name)
    (hold : NewName o.symbolKind o.name o.name)
    (hbare : ∀ o', Occurs res.tokens res.stmts o' → SameSymbol o' o → Bare o') :
    ∃ edits text' res', rename env st uri p req = .ok (.ok [(uri, edits)]) ∧ Applied text edits text' ∧ (∀ t, Applied text edits t → t = text') ∧
      parseFromStr text' = .ok res' ∧
      (∃ o', Occurs res'.tokens res'.stmts o' ∧ o'.symbolKind = o.symbolKind ∧ o'.funcBodyId = o.funcBodyId ∧ o'.name = name) ∧
      ∀ (env' : Env) (st' : ServerState) (uri' : Str) (p' : Pos) (off' : Nat) (o' : SymbolOccurrence),
        Opened st' uri' text' → text'.length < 2 ^ 32 → LspOffset text' p' off' → Occurs res'.tokens res'.stmts o' → Covers o'.span off' →
        o'.symbolKind = o.symbolKind → o'.funcBodyId = o.funcBodyId → o'.name = name →
        ∃ edits', rename env' st' uri' p' o.name = .ok (.ok [(uri', edits')]) ∧ Applied text' edits' text ∧ ∀ t, Applied text' edits' t → t = text := by
  obtain ⟨edits, text', errs', f, res', h1, h2, h3, h4, hts, h5, h6, h7, h8, h9⟩ :=
    rename_core (env := env) hopen h hsize ht hpos ho hc hp hamb hreq hname hback hplain hbare
  obtain ⟨doc, errs, ha, _⟩ := hopen
  obtain ⟨res0, e1, _, _, _, _, hix⟩ := analyze_inv ha
  rw [h] at e1
  cases e1
  have hw := tokens_wellOrdered h6
  rw [h7, ← hts] at hw
  have hocc : ∀ o', Occurs res'.tokens res'.stmts o' ↔ ∃ o1, Occurs res.tokens res.stmts o1 ∧ o' = (renG res o name f).occ o1 := by
    intro o'
    rw [h7, h8, ← hts]
    exact occurs_ren h hix hamb hfresh hw
  have hnm := fun {o1} ho1 => renG_occ_name (name := name) (f := f) (o1 := o1) h hix hamb ho1
  -- the occurrences of the new name are those of the old one
  have hsame : ∀ o1, Occurs res.tokens res.stmts o1 → o1.funcBodyId = o.funcBodyId → ((renG res o name f).occ o1).name = name → SameSymbol o1 o := by
    intro o1 ho1 hb hn
    rcases hnm ho1 with ⟨s, _⟩ | ⟨_, n⟩
    · exact s
    · rw [n] at hn
      exact absurd hb (hfresh o1 ho1 hn)
  refine ⟨edits, text', res', h1, h2, h3, h6, ?_, ?_⟩
  · refine ⟨_, (hocc _).mpr ⟨o, ho, rfl⟩, rfl, rfl, ?_⟩
    rcases hnm ho with ⟨_, n⟩ | ⟨s, _⟩
    · exact n
    · exact absurd ⟨rfl, rfl, rfl⟩ s
  · intro env' st' uri' p' off' o' hopen' hsize' hpos' ho' hc' hk hb hn
    have hspell : Spells (nameToken o'.symbolKind o.name) o.name := by rw [hk]; exact occurs_spells h ho
    have hamb' : ¬ Ambiguous res'.stmts o'.name := by
      rw [hn, h8]
      rintro ⟨⟨a, ha1, ha2, ha3⟩, b, hb1, hb2, hb3⟩
      rw [docOccs_ren] at ha1 hb1
      obtain ⟨a1, hm1, rfl⟩ := List.mem_map.mp ha1
      obtain ⟨b1, hm2, rfl⟩ := List.mem_map.mp hb1
      have hspell := occurs_spells h6 ho'
      have hspell1 := occurs_spells h6 ((hocc _).mpr ⟨a1, .inl hm1, rfl⟩)
      rw [ha2, ha3, ← hn] at hspell1
      have hglobal : nameToken o.symbolKind [] = .globalName [] := by
        rw [← hk]
        exact Classical.byContradiction fun hno => (spells_head hspell).2 hno ((spells_head hspell1).1 rfl)
      have hnone := occurs_global ho hglobal
      have s1 := (hsame _ (.inl hm1) ((docOccs_function_global _ hm1 ha2).trans hnone.symm) ha3).1
      have s2 := (hsame _ (.inl hm2) ((docOccs_kind_global hm2 (.inl hb2)).trans hnone.symm) hb3).1
      have k1 : a1.symbolKind = .function := ha2
      have k2 : b1.symbolKind = .globalVar := hb2
      rw [k1] at s1
      rw [k2, ← s1] at s2
      cases s2
    have hold' : NewName o'.symbolKind o.name o.name := by rw [hk]; exact hold
    have hrel := newName_not_relative hold
    have hp' : PlainSymbol text' res' o' := by
      intro o2 ho2 hs
      obtain ⟨o1, ho1, rfl⟩ := (hocc o2).mp ho2
      exact h4 _ (hp o1 ho1 (hsame o1 ho1 (hs.2.1.trans hb) (hs.2.2.trans hn)))
    obtain ⟨edits', occs, c1, c2, c3, c4, c5, _⟩ := C25_rename_partial (env := env') hopen' h6 hsize' hpos' ((hp' o' ho' ⟨rfl, rfl, rfl⟩).mono (Nat.le_of_lt hc'.2)) ho' hc' (visible_of_clear ho' hamb') hrel hold'
    have hbare' : ∀ o2, Occurs res'.tokens res'.stmts o2 → SameSymbol o2 o' → Bare o2 := by
      intro o2 ho2 hs
      obtain ⟨o1, ho1, rfl⟩ := (hocc o2).mp ho2
      exact h9.2.bare_occ h ho1 (hbare o1 ho1 (hsame o1 ho1 (hs.2.1.trans hb) (hs.2.2.trans hn)))
    obtain ⟨_, text2, _, _, d1, d2, d3, _⟩ := C27_tokens_partial (env := env') hopen' h6 hsize' h5 hpos' ho' hc' hp' (visible_of_clear ho' hamb') hrel hold' (readsBack_of_spells hspell) hbare'
    rw [c1] at d1
    cases d1
    have hnd : (occs.map (·.span)).Nodup := by
      unfold Disjoint at c5
      refine List.Pairwise.imp_of_mem ?_ c5
      intro a b ha hb hab e
      subst e
      obtain ⟨o2, ho2, rfl⟩ := List.mem_map.mp ha
      have := (tokens_wellOrdered h6).2 _ (occurs_token h6 ((c4 o2).mp ho2).1)
      rw [occTok_span] at this
      omega
    obtain ⟨text3, _, j1, _, _, j3, _⟩ := rename_applied h6 h5 hspell hp' c2 hnd c4 hbare'
    have hchg : renChanges (renOf res' o' o.name) (toks.map (renG res o name f).tok) = backChanges (renOf res o name) f toks := by
      unfold renChanges backChanges
      rw [List.filterMap_map]
      refine filterMap_congr' ?_
      intro t htm
      have htm' : t ∈ res.tokens := by rw [hts]; exact htm
      simp only [Function.comp]
      cases hr : renOf res o name t with
      | some v =>
        obtain ⟨rfl, e1, o1, g1, g2, g3⟩ := renOf_token h htm' hr
        rw [renOf_of (o' := (renG res o v f).occ o1) ((hocc _).mpr ⟨o1, g1, rfl⟩) ?_ ?_]
        · simp only [Option.map_some, Option.some.injEq, Prod.mk.injEq]
          refine ⟨rfl, ?_⟩
          rw [e1, (withName_nameToken o.symbolKind o.name []).2]
          rfl
        · refine ⟨g2.1.trans hk.symm, g2.2.1.trans hb.symm, ?_⟩
          rw [hn]
          rcases hnm g1 with ⟨_, n⟩ | ⟨s, _⟩
          · exact n
          · exact absurd g2 s
        · show (renG res o v f).span o1.span = (renG res o v f).span t.2
          rw [g3]
      | none =>
        cases hr' : renOf res' o' o.name ((renG res o name f).tok t) with
        | none => rfl
        | some v =>
          exfalso
          obtain ⟨_, o2, g1, g2, g3⟩ := renOf_some hr'
          obtain ⟨o1, g4, rfl⟩ := (hocc _).mp g1
          have s := hsame o1 g4 (g2.2.1.trans hb) (g2.2.2.trans hn)
          have he := wellOrdered_span (tokens_wellOrdered h) hw (occurs_token h g4) htm' (by rw [occTok_span]; exact g3)
          rw [renOf_of g4 s (by rw [← he, occTok_span])] at hr
          cases hr
    rw [hchg] at j3
    obtain rfl := replaced_unique j3 h9.1
    obtain rfl := d3 _ j1
    exact ⟨edits', c1, j1, d3⟩

end

/-! ### Examples and refutations -/

section Examples
attribute [local instance] asciiUnicode

def renLabel : SymbolOccurrence := ⟨⟨35, 37⟩, .def_, .label, c!"x1", some 0⟩

theorem renLabel_facts : ∃ res toks, parseFromStr renText = .ok res ∧ tokenize renText = .ok (some toks, []) ∧ Occurs res.tokens res.stmts renLabel ∧
    ¬ Ambiguous res.stmts renLabel.name ∧ Fresh res renLabel c!"y2" ∧ ∀ o', Occurs res.tokens res.stmts o' → Bare o' := by
  generalize h : parseFromStr renText = r
  generalize h' : tokenize renText = r'
  have key : (match parseFromStr renText, tokenize renText with
    | .ok res, .ok (some toks, []) => decide (renLabel ∈ allOccs res.tokens res.stmts) && decide (¬ IsFunction res.stmts renLabel.name) &&
        (allOccs res.tokens res.stmts).all fun o => decide (o.name ≠ c!"y2")
    | _, _ => false) = true := by decide +kernel
  rw [h, h'] at key
  split at key
  · rename_i res toks
    simp only [Bool.and_eq_true, decide_eq_true_eq] at key
    obtain ⟨⟨k1, k2⟩, k3⟩ := key
    refine ⟨res, toks, rfl, rfl, occurs_iff.mpr k1, fun a => k2 a.1, ?_, fun _ => bare_of_lexed h h'⟩
    intro o' ho' he
    have := List.all_eq_true.mp k3 _ (occurs_iff.mp ho')
    exact absurd he (of_decide_eq_true this)
  · cases key

/-- The hypotheses of `C28_back_partial` and `C60_references_partial` hold for the label `x1` of `renText` and the new name `y2`. -/
example : ∃ edits text' res', rename debugEnv (serverWith [] c!"u" renText) c!"u" ⟨2, 0⟩ c!"y2" = .ok (.ok [(c!"u", edits)]) ∧
    Applied renText edits text' ∧ parseFromStr text' = .ok res' ∧
    ∃ o', Occurs res'.tokens res'.stmts o' ∧ o'.symbolKind = .label ∧ o'.funcBodyId = some 0 ∧ o'.name = c!"y2" := by
  obtain ⟨res, toks, h1, h2, h3, h4, h5, h6⟩ := renLabel_facts
  have hn : ∀ w : Str, (∀ c ∈ w, c.isAlphanum = true) → (∀ c, w.head? = some c → c.isDigit = false) → (∀ c ∈ w, c.toNat < 128) → w ≠ [] → NewName .label w w := by
    intro w a1 a2 a3 a4
    refine ⟨[], w, rfl, .inr rfl, rfl, a4, ?_, ?_⟩
    · intro c hc
      left; left
      have := a1 c hc
      simpa [Unicode.alphanumeric, Unicode.alphabetic_ascii c (a3 c hc), Unicode.numeric_ascii c (a3 c hc), Char.isAlphanum] using this
    · intro _ c hc
      rw [Unicode.numeric_ascii c (a3 c (List.mem_of_mem_head? hc))]
      exact a2 c hc
  obtain ⟨edits, text', res', e1, e2, _, e3, e4, _⟩ := C28_back_partial (env := debugEnv) (st := serverWith [] c!"u" renText) (uri := c!"u") (p := ⟨2, 0⟩)
    (off := 35) (req := c!"y2") (name := c!"y2") (serverWith_opened (by decide +kernel)) h1 (by decide +kernel) h2
    ⟨35, c!"x1:", .later (content := c!"@a = 1") (eol := c!"\n") (by decide) (.inl rfl) (by simp)
      (.later (content := c!"define void @f(int32 %v1) {") (eol := c!"\n") (by decide) (.inl rfl) (by simp)
        (.here (content := c!"x1:") (tail := renText.drop 38) (by decide) (by intro c cs h; left; simp [renText] at h; exact h.1.symm))), by decide, rfl⟩
    h3 ⟨by decide, by decide⟩ (fun _ _ _ => Spec.Plain.to (by decide +kernel) _) h4 (by rintro ⟨w, h | h⟩ <;> cases h) (hn _ (by decide) (by intro c h; cases h; decide) (by decide) (by simp))
    ⟨by decide, fun _ => by decide⟩ (by decide) h5
    (hn _ (by decide) (by intro c h; cases h; decide) (by decide) (by simp [renLabel])) (fun o' ho' _ => h6 o' ho')
  exact ⟨edits, text', res', e1, e2, e3, e4⟩

/-- `renText` with a question mark in front of a use of `%v1` and a string that is not ASCII below. -/
def renErr : Str := c!"@a = 1\ndefine void @f(int32 %v1) {\nx1:\n int32 %v2 = add int32 ?%v1, @a\n br x1\n}\n@s = \"né\"\n"

theorem renErr_facts : ∃ res toks errs, parseFromStr renErr = .ok res ∧ tokenize renErr = .ok (some toks, errs) ∧ errs ≠ [] ∧
    Occurs res.tokens res.stmts renLabel ∧ ¬ Ambiguous res.stmts renLabel.name ∧ Fresh res renLabel c!"y2" ∧
    (∀ o', Occurs res.tokens res.stmts o' → SameSymbol o' renLabel → Bare o') ∧ PlainSymbol renErr res renLabel := by
  generalize h : parseFromStr renErr = r
  generalize h' : tokenize renErr = r'
  have key : (match parseFromStr renErr, tokenize renErr with
    | .ok res, .ok (some toks, errs) => decide (errs.length = 1) && decide (renLabel ∈ allOccs res.tokens res.stmts) && decide (¬ IsFunction res.stmts renLabel.name) &&
        ((allOccs res.tokens res.stmts).all fun o => decide (o.name ≠ c!"y2")) &&
        ((allOccs res.tokens res.stmts).all fun o => decide (o.name = renLabel.name → o.span.stop = o.span.start + o.name.length)) &&
        (allOccs res.tokens res.stmts).all fun o => decide (o.name = renLabel.name → PlainTo renErr o.span.stop)
    | _, _ => false) = true := by decide +kernel
  rw [h, h'] at key
  split at key
  · rename_i res toks errs
    simp only [Bool.and_eq_true, decide_eq_true_eq] at key
    obtain ⟨⟨⟨⟨⟨k0, k1⟩, k2⟩, k3⟩, k4⟩, k5⟩ := key
    refine ⟨res, toks, errs, rfl, rfl, ?_, occurs_iff.mpr k1, fun a => k2 a.1, ?_, ?_, ?_⟩
    · rintro rfl
      cases k0
    · intro o' ho' he
      have := List.all_eq_true.mp k3 _ (occurs_iff.mp ho')
      exact absurd he (of_decide_eq_true this)
    · intro o' ho' hs
      have := List.all_eq_true.mp k4 o' (occurs_iff.mp ho')
      exact of_decide_eq_true this hs.2.2
    · intro o' ho' hs
      have := List.all_eq_true.mp k5 o' (occurs_iff.mp ho')
      exact of_decide_eq_true this hs.2.2
  · cases key

/-- The hypotheses of `C28_back_partial` and `C60_references_partial` hold for the label `x1` of `renErr`, which has a question mark in front of a
use of `%v1` and text that is not ASCII below, and the new name `y2`. -/
example : ∃ edits text' res', rename debugEnv (serverWith [] c!"u" renErr) c!"u" ⟨2, 0⟩ c!"y2" = .ok (.ok [(c!"u", edits)]) ∧
    Applied renErr edits text' ∧ parseFromStr text' = .ok res' ∧
    ∃ o', Occurs res'.tokens res'.stmts o' ∧ o'.symbolKind = .label ∧ o'.funcBodyId = some 0 ∧ o'.name = c!"y2" := by
  obtain ⟨res, toks, errs, h1, h2, _, h3, h4, h5, h6, h7⟩ := renErr_facts
  have hn : ∀ w : Str, (∀ c ∈ w, c.isAlphanum = true) → (∀ c, w.head? = some c → c.isDigit = false) → (∀ c ∈ w, c.toNat < 128) → w ≠ [] → NewName .label w w := by
    intro w a1 a2 a3 a4
    refine ⟨[], w, rfl, .inr rfl, rfl, a4, ?_, ?_⟩
    · intro c hc
      left; left
      have := a1 c hc
      simpa [Unicode.alphanumeric, Unicode.alphabetic_ascii c (a3 c hc), Unicode.numeric_ascii c (a3 c hc), Char.isAlphanum] using this
    · intro _ c hc
      rw [Unicode.numeric_ascii c (a3 c (List.mem_of_mem_head? hc))]
      exact a2 c hc
  obtain ⟨edits, text', res', e1, e2, _, e3, e4, _⟩ := C28_back_partial (env := debugEnv) (st := serverWith [] c!"u" renErr) (uri := c!"u") (p := ⟨2, 0⟩)
    (off := 35) (req := c!"y2") (name := c!"y2") (serverWith_opened (by decide +kernel)) h1 (by decide +kernel) h2
    ⟨35, c!"x1:", .later (content := c!"@a = 1") (eol := c!"\n") (by decide) (.inl rfl) (by simp)
      (.later (content := c!"define void @f(int32 %v1) {") (eol := c!"\n") (by decide) (.inl rfl) (by simp)
        (.here (content := c!"x1:") (tail := renErr.drop 38) (by decide) (by intro c cs h; left; simp [renErr] at h; exact h.1.symm))), by decide, rfl⟩
    h3 ⟨by decide, by decide⟩ h7 h4 (by rintro ⟨w, h | h⟩ <;> cases h) (hn _ (by decide) (by intro c h; cases h; decide) (by decide) (by simp))
    ⟨by decide, fun _ => by decide⟩ (by decide) h5
    (hn _ (by decide) (by intro c h; cases h; decide) (by decide) (by simp [renLabel])) h6
  exact ⟨edits, text', res', e1, e2, e3, e4⟩

/-- Renaming the label and renaming it back. -/
example : (match rename debugEnv (serverWith [] c!"u" renText) c!"u" ⟨2, 0⟩ c!"y2" with | .ok (.ok e) => some e | _ => none) =
      some [(c!"u", [⟨⟨⟨2, 0⟩, ⟨2, 2⟩⟩, c!"y2"⟩, ⟨⟨⟨4, 4⟩, ⟨4, 6⟩⟩, c!"y2"⟩])] ∧
    (match rename debugEnv (serverWith [] c!"u" c!"@a = 1\ndefine void @f(int32 %v1) {\ny2:\n int32 %v2 = add int32 %v1, @a\n br y2\n}\n") c!"u" ⟨4, 4⟩ c!"x1" with
      | .ok (.ok e) => some e | _ => none) =
      some [(c!"u", [⟨⟨⟨2, 0⟩, ⟨2, 2⟩⟩, c!"x1"⟩, ⟨⟨⟨4, 4⟩, ⟨4, 6⟩⟩, c!"x1"⟩])] := by decide +kernel

/-- C28 fails for names that start with a digit: they can be renamed, but renaming back is refused. -/
theorem C28_refuted_number :
    (match rename debugEnv (serverWith [] c!"u" c!"@1 = 5\n") c!"u" ⟨0, 0⟩ c!"@b" with | .ok (.ok e) => some e | _ => none) =
      some [(c!"u", [⟨⟨⟨0, 0⟩, ⟨0, 2⟩⟩, c!"@b"⟩])] ∧
    (match rename debugEnv (serverWith [] c!"u" c!"@b = 5\n") c!"u" ⟨0, 0⟩ c!"@1" with | .ok (.error _) => true | _ => false) = true := by
  decide +kernel

/-- C28 fails for names with unrecognizable text in front of them: the text is lost. -/
theorem C28_refuted_garbage :
    (match rename debugEnv (serverWith [] c!"u" c!"?@a = 5\n") c!"u" ⟨0, 2⟩ c!"@b" with | .ok (.ok e) => some e | _ => none) =
      some [(c!"u", [⟨⟨⟨0, 0⟩, ⟨0, 3⟩⟩, c!"@b"⟩])] ∧
    (match rename debugEnv (serverWith [] c!"u" c!"@b = 5\n") c!"u" ⟨0, 0⟩ c!"@a" with | .ok (.ok e) => some e | _ => none) =
      some [(c!"u", [⟨⟨⟨0, 0⟩, ⟨0, 2⟩⟩, c!"@a"⟩])] := by
  decide +kernel

/-- The new name must not be used in the scope: otherwise two symbols become one. -/
theorem C60_fresh_needed :
    (match rename debugEnv (serverWith [] c!"u" c!"@a = 1\n@b = 2\n") c!"u" ⟨0, 0⟩ c!"@b" with | .ok (.ok e) => some e | _ => none) =
      some [(c!"u", [⟨⟨⟨0, 0⟩, ⟨0, 2⟩⟩, c!"@b"⟩])] ∧
    (match parseFromStr c!"@a = 1\n@b = 2\n", parseFromStr c!"@b = 1\n@b = 2\n" with
      | .ok res, .ok res' => decide ((docOccs 0 res.stmts).map (·.name) = [c!"@a", c!"@b"]) && decide ((docOccs 0 res'.stmts).map (·.name) = [c!"@b", c!"@b"])
      | _, _ => false) = true := by
  decide +kernel

end Examples
end HyperIR
