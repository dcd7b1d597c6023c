import Verif.Proofs.RenameMeaning

/- Several symbols renamed at once: the text, the tokens, the statements and the occurrences afterwards. -/

namespace HyperIR
open Spec

section
variable [Unicode] {text text' : Str} {res : ParserResult} {R : SymbolOccurrence → Str → Prop}

/-- The occurrences that are renamed, and to what. -/
structure Plan (res : ParserResult) (R : SymbolOccurrence → Str → Prop) : Prop where
  one : ∀ o v v', R o v → R o v' → v = v'
  symbol : ∀ o o' v, SameSymbol o o' → R o v → R o' v
  clear : ∀ o v, Occurs res.tokens res.stmts o → R o v → ¬ Ambiguous res.stmts o.name
  spells : ∀ o v, Occurs res.tokens res.stmts o → R o v → Spells (nameToken o.symbolKind v) v
  bare : ∀ o v, Occurs res.tokens res.stmts o → R o v → Bare o

/-- The new names of the tokens. -/
noncomputable def renBy (res : ParserResult) (R : SymbolOccurrence → Str → Prop) (t : Spanned Token) : Option Str :=
  open Classical in
  if h : ∃ v o, Occurs res.tokens res.stmts o ∧ R o v ∧ (nameToken o.symbolKind o.name, o.span) = t then some h.choose else none

omit [Unicode] in
theorem renBy_some {t : Spanned Token} {v : Str} (h : renBy res R t = some v) :
    ∃ o, Occurs res.tokens res.stmts o ∧ R o v ∧ (nameToken o.symbolKind o.name, o.span) = t := by
  unfold renBy at h
  split at h
  · rename_i h1
    cases h
    exact h1.choose_spec
  · cases h

theorem renBy_of (hR : Plan res R) (h : parseFromStr text = .ok res) {ix : HIRIndex} (hix : createIndex text res.tokens res.stmts = .ok ix)
    {o : SymbolOccurrence} {v : Str} (ho : Occurs res.tokens res.stmts o) (hv : R o v) :
    renBy res R (nameToken o.symbolKind o.name, o.span) = some v := by
  cases hr : renBy res R (nameToken o.symbolKind o.name, o.span) with
  | none =>
    unfold renBy at hr
    rw [dif_pos ⟨v, o, ho, hv, rfl⟩] at hr
    cases hr
  | some v' =>
    obtain ⟨o', h1, h2, h3⟩ := renBy_some hr
    have := occurs_unique h hix h1 ho (congrArg Prod.snd h3) (hR.clear _ _ h1 h2)
    subst this
    rw [hR.one _ _ _ h2 hv]

theorem renBy_not (hR : Plan res R) (h : parseFromStr text = .ok res) {ix : HIRIndex} (hix : createIndex text res.tokens res.stmts = .ok ix)
    {o : SymbolOccurrence} (ho : Occurs res.tokens res.stmts o) (hv : ∀ v, ¬ R o v) :
    renBy res R (nameToken o.symbolKind o.name, o.span) = none := by
  cases hr : renBy res R (nameToken o.symbolKind o.name, o.span) with
  | none => rfl
  | some v' =>
    obtain ⟨o', h1, h2, h3⟩ := renBy_some hr
    have := occurs_unique h hix h1 ho (congrArg Prod.snd h3) (hR.clear _ _ h1 h2)
    subst this
    exact absurd h2 (hv _)

/-- The renaming. -/
noncomputable def renM (hR : Plan res R) (f : Nat → Nat) : Renaming where
  ren := renBy res R
  f := f
  named := by
    intro t v h
    obtain ⟨o, _, _, rfl⟩ := renBy_some h
    exact ⟨_, (withName_nameToken o.symbolKind o.name v).2⟩

theorem renM_words {hR : Plan res R} {f : Nat → Nat}
    (hw : ∀ o v, Occurs res.tokens res.stmts o → R o v → o.symbolKind = .label → NotKeyword o.name ∧ NotKeyword v) : (renM hR f).Words where
  plain := by
    intro n sp v h
    obtain ⟨o, h1, h2, h3⟩ := renBy_some h
    have : o.symbolKind = .label ∧ o.name = n := by
      have := congrArg Prod.fst h3
      revert this
      simp only
      cases o.symbolKind <;> simp [nameToken]
    have hw := hw o v h1 h2 this.1
    rwa [this.2] at hw

omit [Unicode] in
/-- Renamed identifiers are labels. -/
theorem renBy_label {m : Str} {sp : Span} {v : Str} (h : renBy res R (.ident m, sp) = some v) : ∃ o' ∈ docOccs 0 res.stmts, o'.symbolKind = .label ∧ o'.span = sp := by
  obtain ⟨o, h1, h2, h3⟩ := renBy_some h
  refine label_occurs h1 ?_ (congrArg Prod.snd h3)
  have := congrArg Prod.fst h3
  revert this
  simp only
  cases o.symbolKind <;> simp [nameToken]

/-- Nothing but names is replaced. -/
theorem renBy_bare (hR : Plan res R) {t : Spanned Token} {v : Str} (hv : renBy res R t = some v) : ∃ n, tokName t.1 = some n ∧ t.2.stop = t.2.start + n.length := by
  obtain ⟨o, h1, h2, rfl⟩ := renBy_some hv
  exact ⟨o.name, (withName_nameToken o.symbolKind o.name []).2, hR.bare o v h1 h2⟩

/-- What the edits do to the text and the tokens. -/
theorem renames_applied (hR : Plan res R) (h : parseFromStr text = .ok res) {ix : HIRIndex} (hix : createIndex text res.tokens res.stmts = .ok ix)
    {toks : List (Spanned Token)} {errs : List (LErr Char)} (ht : tokenize text = .ok (some toks, errs))
    {changes : List (SymbolOccurrence × Str)} {edits : List TextEdit}
    (hp : ∀ o v, Occurs res.tokens res.stmts o → R o v → PlainTo text o.span.stop) (hsize : text.length < 2 ^ 32) (hren : Renames text changes edits) (hnd : (changes.map Prod.fst).Nodup)
    (hmem : ∀ o v, (o, v) ∈ changes ↔ Occurs res.tokens res.stmts o ∧ R o v) :
    ∃ text' errs', Applied text edits text' ∧ (∀ t, Applied text edits t → t = text') ∧
      tokenize text' = .ok (some (toks.map (renTok (renBy res R) (movePos 0 0 (renChanges (renBy res R) toks)))), errs') ∧
      Each (LexMoved (movePos 0 0 (renChanges (renBy res R) toks)) { start := text.length, stop := text.length }
        { start := text'.length, stop := text'.length } 0) errs errs' ∧
      Replaced 0 text (renChanges (renBy res R) toks) text' ∧
      Replaced 0 text' (backChanges (renBy res R) (movePos 0 0 (renChanges (renBy res R) toks)) toks) text := by
  have hts := parsed_tokens h ht
  obtain ⟨hlex, hne⟩ := tokenize_exact.mp ht
  obtain ⟨text', errs', h1, he, h2, h3⟩ := lexes_renamed (ren := renBy res R) hlex hne (by
      intro t htm v hr
      obtain ⟨o, k1, k2, rfl⟩ := renBy_some hr
      obtain ⟨e1, e2⟩ := withName_nameToken o.symbolKind o.name v
      simp only
      rw [e1]
      exact ⟨⟨_, e2, hR.bare o v k1 k2⟩, hR.spells o v k1 k2⟩) (by
      intro pre t n sp post he hnum hadj
      cases hr : renBy res R (.ident n, sp) with
      | none => rfl
      | some v =>
        exfalso
        rw [← hts] at he
        obtain ⟨o, k1, _, k3⟩ := renBy_some hr
        have hk : o.symbolKind = .label := by
          have := congrArg Prod.fst k3
          revert this
          simp only
          cases o.symbolKind <;> simp [nameToken]
        have hsp : o.span = sp := congrArg Prod.snd k3
        rw [← hsp] at he
        exact label_not_behind_number h k1 hk he hnum)
  have hE : Each (fun (c : Span × Str) (e : TextEdit) => EditorRange text c.1 e.range ∧ e.newText = c.2) (changes.map fun c => (c.1.span, c.2)) edits := by
    unfold Renames at hren
    have hpc : ∀ c ∈ changes, PlainTo text c.1.span.stop := fun c hc => hp c.1 c.2 ((hmem c.1 c.2).mp hc).1 ((hmem c.1 c.2).mp hc).2
    clear hnd hmem
    induction hren with
    | nil => exact .nil
    | cons h1 _ ih => exact .cons ⟨h1.2 (hpc _ (by simp)), h1.1⟩ (ih fun c hc => hpc c (by simp [hc]))
  have hspan : ∀ c ∈ changes, c.1.span.start < c.1.span.stop := by
    intro c hc
    have := (tokens_wellOrdered h).2 _ (occurs_token h ((hmem c.1 c.2).mp hc).1)
    rwa [occTok_span] at this
  have hperm : (renChanges (renBy res R) toks).Perm (changes.map fun c => (c.1.span, c.2)) := by
    refine (List.perm_ext_iff_of_nodup ?_ ?_).mpr ?_
    · have := (replaced_order h2).2
      refine (List.Pairwise.imp_of_mem ?_ this)
      intro a b ha hb hab e
      subst e
      unfold renChanges at ha
      obtain ⟨t, ht1, ht2⟩ := List.mem_filterMap.mp ha
      obtain ⟨v, _, rfl⟩ := Option.map_eq_some_iff.mp ht2
      have := lexesWith_spans hlex t ht1
      simp only at hab
      omega
    · have hnd' : changes.Pairwise fun a b => a.1 ≠ b.1 := List.pairwise_map.mp hnd
      rw [List.Nodup, List.pairwise_map]
      refine List.Pairwise.imp_of_mem ?_ hnd'
      intro a b ha hb hab e
      have e1 : a.1.span = b.1.span := congrArg Prod.fst e
      obtain ⟨a1, a2⟩ := (hmem a.1 a.2).mp ha
      obtain ⟨b1, b2⟩ := (hmem b.1 b.2).mp hb
      have := occurs_unique h hix a1 b1 e1 (hR.clear _ _ a1 a2)
      exact hab this
    · rintro ⟨sp, v⟩
      unfold renChanges
      rw [List.mem_filterMap, List.mem_map]
      constructor
      · rintro ⟨t, ht1, ht2⟩
        obtain ⟨v', hv, he⟩ := Option.map_eq_some_iff.mp ht2
        cases he
        obtain ⟨o, k1, k2, rfl⟩ := renBy_some hv
        exact ⟨(o, v), (hmem o v).mpr ⟨k1, k2⟩, rfl⟩
      · rintro ⟨⟨o, v'⟩, ho, he⟩
        cases he
        obtain ⟨k1, k2⟩ := (hmem o v').mp ho
        have hm := occurs_token h k1
        rw [hts, occTok_nameToken] at hm
        refine ⟨_, hm, ?_⟩
        rw [renBy_of hR h hix k1 k2]
        rfl
  obtain ⟨sorted, hs1, hs2⟩ := each_perm_right hperm hE
  have happ : Applied text edits text' := ⟨_, sorted, hs1, hs2, h2⟩
  refine ⟨text', errs', happ, ?_, h1, he, h2, h3⟩
  intro t hta
  refine applied_unique hsize ?_ hta happ
  intro sp e he hr
  have : ∀ {l : List (SymbolOccurrence × Str)} {es : List TextEdit}, Renames text l es → (∀ c ∈ l, PlainTo text c.1.span.stop) →
      ∀ e ∈ es, ∃ c ∈ l, EditorRange text c.1.span e.range := by
    intro l es h
    unfold Renames at h
    induction h with
    | nil => simp
    | cons h _ ih =>
      intro hpc e he
      rcases List.mem_cons.mp he with rfl | he
      · exact ⟨_, by simp, h.2 (hpc _ (by simp))⟩
      · obtain ⟨c, hc, hr⟩ := ih (fun c hc => hpc c (by simp [hc])) e he
        exact ⟨c, by simp [hc], hr⟩
  obtain ⟨c, hc1, hc2⟩ := this hren (fun c hc => hp c.1 c.2 ((hmem c.1 c.2).mp hc).1 ((hmem c.1 c.2).mp hc).2) e he
  rw [editorRange_inj hsize hr hc2]
  exact hspan c hc1

/-! ### Occurrences -/

variable {hR : Plan res R} {f : Nat → Nat}

/-- The new name of an occurrence. -/
theorem renM_name (h : parseFromStr text = .ok res) {ix : HIRIndex} (hix : createIndex text res.tokens res.stmts = .ok ix)
    {o : SymbolOccurrence} (ho : Occurs res.tokens res.stmts o) :
    R o ((renM hR f).occ o).name ∨ ((∀ v, ¬ R o v) ∧ ((renM hR f).occ o).name = o.name) := by
  by_cases hv : ∃ v, R o v
  · obtain ⟨v, hv⟩ := hv
    left
    simp only [Renaming.occ, renM, renBy_of hR h hix ho hv, Option.getD_some]
    exact hv
  · right
    have hv' : ∀ v, ¬ R o v := fun v hr => hv ⟨v, hr⟩
    refine ⟨hv', ?_⟩
    simp only [Renaming.occ, renM, renBy_not hR h hix ho hv', Option.getD_none]

/-- Names of the same sort and scope stay different. -/
def Separate (res : ParserResult) (G : Renaming) : Prop :=
  ∀ o1 o2, Occurs res.tokens res.stmts o1 → Occurs res.tokens res.stmts o2 → nameToken o1.symbolKind [] = nameToken o2.symbolKind [] →
    o1.funcBodyId = o2.funcBodyId → (G.occ o1).name = (G.occ o2).name → o1.name = o2.name

/-- Occurrences stay occurrences of the same symbols. -/
theorem renM_sameSymbol (h : parseFromStr text = .ok res) {ix : HIRIndex} (hix : createIndex text res.tokens res.stmts = .ok ix)
    (hsep : Separate res (renM hR f)) {o1 o2 : SymbolOccurrence} (ho1 : Occurs res.tokens res.stmts o1) (ho2 : Occurs res.tokens res.stmts o2) :
    SameSymbol ((renM hR f).occ o1) ((renM hR f).occ o2) ↔ SameSymbol o1 o2 := by
  have hk : ∀ o1, ((renM hR f).occ o1).symbolKind = o1.symbolKind := fun _ => rfl
  have hb : ∀ o1, ((renM hR f).occ o1).funcBodyId = o1.funcBodyId := fun _ => rfl
  constructor
  · rintro ⟨h1, h2, h3⟩
    rw [hk, hk] at h1
    rw [hb, hb] at h2
    exact ⟨h1, h2, hsep o1 o2 ho1 ho2 (by rw [h1]) h2 h3⟩
  · intro hs
    refine ⟨hs.1, hs.2.1, ?_⟩
    rcases renM_name (hR := hR) (f := f) h hix ho1 with h1 | ⟨h1, h1'⟩
    · rcases renM_name (hR := hR) (f := f) h hix ho2 with h2 | ⟨h2, _⟩
      · exact hR.one _ _ _ (hR.symbol _ _ _ hs h1) h2
      · exact absurd (hR.symbol _ _ _ hs h1) (h2 _)
    · rcases renM_name (hR := hR) (f := f) h hix ho2 with h2 | ⟨_, h2'⟩
      · exact absurd (hR.symbol _ _ _ ⟨hs.1.symm, hs.2.1.symm, hs.2.2.symm⟩ h2) (h1 _)
      · rw [h1', h2', hs.2.2]

/-- Functions stay functions. -/
theorem renM_isFunction (h : parseFromStr text = .ok res) {ix : HIRIndex} (hix : createIndex text res.tokens res.stmts = .ok ix)
    (hsep : Separate res (renM hR f)) {n : Str} {sp : Span} (ht : (Token.globalName n, sp) ∈ res.tokens) :
    IsFunction (res.stmts.map (renM hR f).stmt) ((renM hR f).name .globalName (n, sp)).1 ↔ IsFunction res.stmts n := by
  obtain ⟨o1, ho1, rfl, rfl, hb1, hf1, hf2⟩ := global_occurs ht
  have hgk : o1.symbolKind = .function ∨ o1.symbolKind = .globalVar := by
    by_cases h : IsFunction res.stmts o1.name
    · exact .inl (hf1 h)
    · exact .inr (hf2 h)
  have hname : ((renM hR f).name .globalName (o1.name, o1.span)).1 = ((renM hR f).occ o1).name := by
    rcases hgk with hk | hk <;> simp only [Renaming.name, Renaming.occ, hk, nameToken]
  rw [hname]
  unfold IsFunction
  rw [docOccs_ren]
  constructor
  · rintro ⟨_, hm, hk, hn⟩
    obtain ⟨o2, hm2, rfl⟩ := List.mem_map.mp hm
    have hk2 : o2.symbolKind = .function := hk
    refine ⟨o2, hm2, hk2, ?_⟩
    refine hsep o2 o1 (.inl hm2) ho1 ?_ ((docOccs_function_global _ hm2 hk2).trans hb1.symm) hn
    rcases hgk with hk | hk <;> rw [hk, hk2] <;> rfl
  · rintro ⟨o2, hm2, hk2, hn⟩
    have ho2 : Occurs res.tokens res.stmts o2 := .inl hm2
    refine ⟨_, List.mem_map_of_mem hm2, hk2, ?_⟩
    have hk1 : o1.symbolKind = .function := hf1 ⟨o2, hm2, hk2, hn⟩
    have hsame : SameSymbol o2 o1 := ⟨hk2.trans hk1.symm, (docOccs_function_global _ hm2 hk2).trans hb1.symm, hn⟩
    exact ((renM_sameSymbol (hR := hR) (f := f) h hix hsep ho2 ho1).mpr hsame).2.2

/-- The occurrences after the renames. -/
theorem renM_occurs (h : parseFromStr text = .ok res) {ix : HIRIndex} (hix : createIndex text res.tokens res.stmts = .ok ix)
    (hsep : Separate res (renM hR f)) (hw : WellOrdered (res.tokens.map (renM hR f).tok)) {o' : SymbolOccurrence} :
    Occurs (res.tokens.map (renM hR f).tok) (res.stmts.map (renM hR f).stmt) o' ↔ ∃ o1, Occurs res.tokens res.stmts o1 ∧ o' = (renM hR f).occ o1 :=
  occurs_kept h (fun _ _ ht => renM_isFunction h hix hsep ht) hw

end
end HyperIR
