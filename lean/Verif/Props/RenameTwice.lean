import Verif.Proofs.RenameTwice

/-! C76, C77 and C78: renaming again, renaming different symbols, and shifting again. -/

namespace HyperIR
open Spec

section
variable [Unicode] {env : Env} {st : ServerState} {uri text : Str} {res : ParserResult}

theorem opened_index (hopen : Opened st uri text) (h : parseFromStr text = .ok res) : ∃ ix, createIndex text res.tokens res.stmts = .ok ix := by
  obtain ⟨doc, errs, ha, _⟩ := hopen
  obtain ⟨res0, e1, _, _, _, _, hix⟩ := analyze_inv ha
  rw [h] at e1
  cases e1
  exact ⟨_, hix⟩

/-- C76: renaming a symbol to a name not yet used in its scope and then, at any of its occurrences, to a second name gives the same
text as renaming it to the second name right away.  What is missing: as in C60. -/
theorem C76_rename_again_partial (hopen : Opened st uri text) (h : parseFromStr text = .ok res) (hsize : text.length < 2 ^ 32)
    {toks : List (Spanned Token)} {errs : List (LErr Char)} (ht : tokenize text = .ok (some toks, errs)) {p : Pos} {off : Nat} (hpos : LspOffset text p off)
    {o : SymbolOccurrence} (ho : Occurs res.tokens res.stmts o) (hc : Covers o.span off) (hp : PlainSymbol text res o) (hamb : ¬ Ambiguous res.stmts o.name)
    {req name : Str} (hreq : ¬ Relative req) (hname : NewName o.symbolKind req name) (hback : ReadsBack o.symbolKind name) (hplain : Plain name)
    (hfresh : Fresh res o name)
    {req2 name2 : Str} (hreq2 : ¬ Relative req2) (hname2 : NewName o.symbolKind req2 name2) (hback2 : ReadsBack o.symbolKind name2)
    (hbare : ∀ o', Occurs res.tokens res.stmts o' → SameSymbol o' o → Bare o') :
    ∃ edits text' res' edits2 text2, rename env st uri p req = .ok (.ok [(uri, edits)]) ∧ Applied text edits text' ∧
      (∀ t, Applied text edits t → t = text') ∧ parseFromStr text' = .ok res' ∧
      rename env st uri p req2 = .ok (.ok [(uri, edits2)]) ∧ Applied text edits2 text2 ∧ (∀ t, Applied text edits2 t → t = text2) ∧
      (∃ o', Occurs res'.tokens res'.stmts o' ∧ o'.symbolKind = o.symbolKind ∧ o'.funcBodyId = o.funcBodyId ∧ o'.name = name) ∧
      ∀ (env' : Env) (st' : ServerState) (uri' : Str) (p' : Pos) (off' : Nat) (o' : SymbolOccurrence),
        Opened st' uri' text' → text'.length < 2 ^ 32 → LspOffset text' p' off' → Occurs res'.tokens res'.stmts o' → Covers o'.span off' →
        o'.symbolKind = o.symbolKind → o'.funcBodyId = o.funcBodyId → o'.name = name →
        ∃ edits', rename env' st' uri' p' req2 = .ok (.ok [(uri', edits')]) ∧ Applied text' edits' text2 ∧ ∀ t, Applied text' edits' t → t = text2 := by
  obtain ⟨ix, hix⟩ := opened_index hopen h
  have hts := parsed_tokens h ht
  have hspell2 : Spells (nameToken o.symbolKind name2) name2 := readsBack_spells hname2 hback2
  have hR : Plan res (To o name) := to_plan hamb (readsBack_spells hname hback) hbare
  have hD : Plan res (To o name2) := to_plan hamb hspell2 hbare
  obtain ⟨edits, changes, e1, e2, e3, e4⟩ := to_edits (env := env) hopen h hsize ((hp o ho ⟨rfl, rfl, rfl⟩).mono (Nat.le_of_lt hc.2)) hpos ho hc hamb hreq hname
  obtain ⟨text', f, res', a1, a2, hs⟩ := plan_stage hR h hix ht (fun o' _ k1 k2 => hp o' k1 k2.1) hsize e2 e3 e4 ho (fun _ _ _ hv => hv.2 ▸ hplain) (fun f => to_separate h hix hfresh f)
  obtain ⟨edits2, changes2, d1, d2, d3, d4⟩ := to_edits (env := env) hopen h hsize ((hp o ho ⟨rfl, rfl, rfl⟩).mono (Nat.le_of_lt hc.2)) hpos ho hc hamb hreq2 hname2
  obtain ⟨text2, b1, b2, b3⟩ := plan_changed hD h hix ht (fun o' _ k1 k2 => hp o' k1 k2.1) hsize d2 d3 d4
  have hnm := fun {o1} ho1 => renM_name (hR := hR) (f := f) (o := o1) h hix ho1
  have hself : ((renM hR f).occ o).name = name := by
    rcases hnm ho with a | ⟨a, _⟩
    · exact a.2
    · exact absurd ⟨⟨rfl, rfl, rfl⟩, rfl⟩ (a name)
  -- the occurrences of the new name are those of the old one
  have hsame : ∀ o1, Occurs res.tokens res.stmts o1 → o1.funcBodyId = o.funcBodyId → ((renM hR f).occ o1).name = name → SameSymbol o1 o := by
    intro o1 ho1 hb hn
    rcases hnm ho1 with a | ⟨_, n⟩
    · exact a.1
    · rw [n] at hn
      exact absurd hb (hfresh o1 ho1 hn)
  refine ⟨edits, text', res', edits2, text2, e1, a1, a2, hs.parsed', d1, b1, b2, ⟨_, (hs.occurs _).mpr ⟨o, ho, rfl⟩, rfl, rfl, hself⟩, ?_⟩
  intro env' st' uri' p' off' o' hopen' hsize' hpos' ho' hc' hk hb hn
  obtain ⟨o1, ho1, rfl⟩ := (hs.occurs o').mp ho'
  have hs1 := hsame o1 ho1 hb hn
  have hamb1 : ¬ Ambiguous res.stmts o1.name := by rw [hs1.2.2]; exact hamb
  have hamb' := stage_clear hs hix ho1 hamb1
  have hname2' : NewName ((renM hR f).occ o1).symbolKind req2 name2 := by rw [hk]; exact hname2
  obtain ⟨ix', hix'⟩ := opened_index hopen' hs.parsed'
  have hp' : PlainSymbol text' res' ((renM hR f).occ o1) := by
    intro o2' ho2' hs2
    obtain ⟨o2, ho2, rfl⟩ := (hs.occurs o2').mp ho2'
    exact hs.plain _ (hp o2 ho2 (hsame o2 ho2 (hs2.2.1.trans hb) (hs2.2.2.trans hn)))
  obtain ⟨edits', changes', c1, c2, c3, c4⟩ := to_edits (env := env') hopen' hs.parsed' hsize' ((hp' _ ho' ⟨rfl, rfl, rfl⟩).mono (Nat.le_of_lt hc'.2)) hpos' ho' hc' hamb' hreq2 hname2'
  have hR2 : Plan res' (To ((renM hR f).occ o1) name2) := to_plan hamb' (by rw [hk]; exact hspell2) (by
    intro o2' ho2' hs2
    obtain ⟨o2, ho2, rfl⟩ := (hs.occurs o2').mp ho2'
    exact hs.carried.bare_occ h ho2 (hbare o2 ho2 (hsame o2 ho2 (hs2.2.1.trans hb) (hs2.2.2.trans hn))))
  obtain ⟨errs', hlexed⟩ := hs.lexed
  obtain ⟨text3, g1, g2, g3⟩ := plan_changed hR2 hs.parsed' hix' hlexed (fun o' _ k1 k2 => hp' o' k1 k2.1) hsize' c2 c3 c4
  have hboth := stage_then hs hix hR2 hix' g3
  obtain rfl : text3 = text2 := changed_unique hboth (changed_of hD h hix b3) (by
    intro o2 v ho2
    have hiff : SameSymbol ((renM hR f).occ o2) ((renM hR f).occ o1) ↔ SameSymbol o2 o := by
      rw [renM_sameSymbol h hix hs.separate ho2 ho1]
      constructor
      · intro hh
        exact ⟨hh.1.trans hs1.1, hh.2.1.trans hs1.2.1, hh.2.2.trans hs1.2.2⟩
      · intro hh
        exact ⟨hh.1.trans hs1.1.symm, hh.2.1.trans hs1.2.1.symm, hh.2.2.trans hs1.2.2.symm⟩
    constructor
    · rintro (hh | ⟨hh, hh'⟩)
      · exact ⟨hiff.mp hh.1, hh.2⟩
      · exact absurd ⟨hiff.mpr hh'.1, rfl⟩ (hh name2)
    · exact fun hh => .inl ⟨hiff.mpr hh.1, hh.2⟩)
  exact ⟨edits', c1, g1, g2⟩

/-- The symbol of `o1` gets the name `v1`, and that of `o`, if it is another one, the name `v`. -/
def Over (o1 : SymbolOccurrence) (v1 : Str) (o : SymbolOccurrence) (v : Str) (o' : SymbolOccurrence) (w : Str) : Prop :=
  SameSymbol o' o1 ∧ w = v1 ∨ ¬ SameSymbol o' o1 ∧ SameSymbol o' o ∧ w = v

omit [Unicode] in
theorem sameSymbol_symm {o o' : SymbolOccurrence} (h : SameSymbol o o') : SameSymbol o' o := ⟨h.1.symm, h.2.1.symm, h.2.2.symm⟩

omit [Unicode] in
theorem sameSymbol_trans {o1 o2 o3 : SymbolOccurrence} (h : SameSymbol o1 o2) (h' : SameSymbol o2 o3) : SameSymbol o1 o3 :=
  ⟨h.1.trans h'.1, h.2.1.trans h'.2.1, h.2.2.trans h'.2.2⟩

/-- Renaming a symbol after the renaming of another one. -/
theorem rename_second {o : SymbolOccurrence} {name : Str} {hR : Plan res (To o name)} {f : Nat → Nat} {text' : Str} {res' : ParserResult}
    (hs : Stage text text' res res' hR f) {ix : HIRIndex} (hix : createIndex text res.tokens res.stmts = .ok ix)
    {o1 : SymbolOccurrence} (ho1 : Occurs res.tokens res.stmts o1) (hp1 : PlainSymbol text res o1) (hamb1 : ¬ Ambiguous res.stmts o1.name) {req2 name2 : Str} (hreq2 : ¬ Relative req2)
    (hname2 : NewName o1.symbolKind req2 name2) (hback2 : ReadsBack o1.symbolKind name2)
    (hbare1 : ∀ o', Occurs res.tokens res.stmts o' → SameSymbol o' o1 → Bare o')
    {env' : Env} {st' : ServerState} {uri' : Str} {p' : Pos} {off' : Nat} (hopen' : Opened st' uri' text') (hsize' : text'.length < 2 ^ 32)
    (hpos' : LspOffset text' p' off') (hc' : Covers ((renM hR f).occ o1).span off') :
    ∃ edits' text2, rename env' st' uri' p' req2 = .ok (.ok [(uri', edits')]) ∧ Applied text' edits' text2 ∧ (∀ t, Applied text' edits' t → t = text2) ∧
      Changed text res (Over o1 name2 o name) text2 := by
  have h := hs.parsed
  have ho' := (hs.occurs _).mpr ⟨o1, ho1, rfl⟩
  have hamb' := stage_clear hs hix ho1 hamb1
  obtain ⟨ix', hix'⟩ := opened_index hopen' hs.parsed'
  have hp' : PlainSymbol text' res' ((renM hR f).occ o1) := by
    intro o2' ho2' hs2
    obtain ⟨o2, ho2, rfl⟩ := (hs.occurs o2').mp ho2'
    exact hs.plain _ (hp1 o2 ho2 ((renM_sameSymbol (hR := hR) (f := f) h hix hs.separate ho2 ho1).mp hs2))
  obtain ⟨edits', changes', c1, c2, c3, c4⟩ := to_edits (env := env') hopen' hs.parsed' hsize' ((hp' _ ho' ⟨rfl, rfl, rfl⟩).mono (Nat.le_of_lt hc'.2)) hpos' ho' hc' hamb' hreq2 hname2
  have hR2 : Plan res' (To ((renM hR f).occ o1) name2) := to_plan hamb' (readsBack_spells hname2 hback2) (by
    intro o2' ho2' hs2
    obtain ⟨o2, ho2, rfl⟩ := (hs.occurs o2').mp ho2'
    exact hs.carried.bare_occ h ho2 (hbare1 o2 ho2 ((renM_sameSymbol (hR := hR) (f := f) h hix hs.separate ho2 ho1).mp hs2)))
  obtain ⟨errs', hlexed⟩ := hs.lexed
  obtain ⟨text2, g1, g2, g3⟩ := plan_changed hR2 hs.parsed' hix' hlexed (fun o' _ k1 k2 => hp' o' k1 k2.1) hsize' c2 c3 c4
  refine ⟨edits', text2, c1, g1, g2, ?_⟩
  obtain ⟨c, k1, k2⟩ := stage_then hs hix hR2 hix' g3
  refine ⟨c, k1, fun t ht v => ?_⟩
  rw [k2 t ht v]
  have hiff : ∀ o2, Occurs res.tokens res.stmts o2 → (Then (To o name) (To ((renM hR f).occ o1) name2) (renM hR f).occ o2 v ↔ Over o1 name2 o name o2 v) := by
    intro o2 ho2
    have hsame := renM_sameSymbol (hR := hR) (f := f) h hix hs.separate ho2 ho1
    constructor
    · rintro (hh | ⟨hh, hh'⟩)
      · exact .inl ⟨hsame.mp hh.1, hh.2⟩
      · exact .inr ⟨fun hn => hh name2 ⟨hsame.mpr hn, rfl⟩, hh'⟩
    · rintro (hh | ⟨hh, hh'⟩)
      · exact .inl ⟨hsame.mpr hh.1, hh.2⟩
      · exact .inr ⟨fun w hw => hh (hsame.mp hw.1), hh'⟩
  constructor <;> rintro ⟨o2, ho2, he, hv⟩
  · exact ⟨o2, ho2, he, (hiff o2 ho2).mp hv⟩
  · exact ⟨o2, ho2, he, (hiff o2 ho2).mpr hv⟩

/-- Renaming the symbol of `o` and then that of `o1`, which is another one. -/
theorem rename_both (hopen : Opened st uri text) (h : parseFromStr text = .ok res) (hsize : text.length < 2 ^ 32)
    {toks : List (Spanned Token)} {errs : List (LErr Char)} (ht : tokenize text = .ok (some toks, errs)) {p : Pos} {off : Nat} (hpos : LspOffset text p off)
    {o : SymbolOccurrence} (ho : Occurs res.tokens res.stmts o) (hc : Covers o.span off) (hp : PlainSymbol text res o) (hamb : ¬ Ambiguous res.stmts o.name)
    {req name : Str} (hreq : ¬ Relative req) (hname : NewName o.symbolKind req name) (hback : ReadsBack o.symbolKind name) (hplain : Plain name)
    (hfresh : Fresh res o name)
    {o1 : SymbolOccurrence} (ho1 : Occurs res.tokens res.stmts o1) (hp1 : PlainSymbol text res o1) (hamb1 : ¬ Ambiguous res.stmts o1.name) (hne : ¬ SameSymbol o1 o)
    {req1 name1 : Str} (hreq1 : ¬ Relative req1) (hname1 : NewName o1.symbolKind req1 name1) (hback1 : ReadsBack o1.symbolKind name1)
    (hbare : ∀ o', Occurs res.tokens res.stmts o' → SameSymbol o' o → Bare o')
    (hbare1 : ∀ o', Occurs res.tokens res.stmts o' → SameSymbol o' o1 → Bare o') :
    ∃ edits text' res', rename env st uri p req = .ok (.ok [(uri, edits)]) ∧ Applied text edits text' ∧
      (∀ t, Applied text edits t → t = text') ∧ parseFromStr text' = .ok res' ∧
      (∃ o', Occurs res'.tokens res'.stmts o' ∧ SameSymbol o' o1) ∧
      ∀ (env' : Env) (st' : ServerState) (uri' : Str) (p' : Pos) (off' : Nat) (o' : SymbolOccurrence),
        Opened st' uri' text' → text'.length < 2 ^ 32 → LspOffset text' p' off' → Occurs res'.tokens res'.stmts o' → Covers o'.span off' → SameSymbol o' o1 →
        ∃ edits' text2, rename env' st' uri' p' req1 = .ok (.ok [(uri', edits')]) ∧ Applied text' edits' text2 ∧ (∀ t, Applied text' edits' t → t = text2) ∧
          Changed text res (Over o1 name1 o name) text2 := by
  obtain ⟨ix, hix⟩ := opened_index hopen h
  have hts := parsed_tokens h ht
  have hR : Plan res (To o name) := to_plan hamb (readsBack_spells hname hback) hbare
  obtain ⟨edits, changes, e1, e2, e3, e4⟩ := to_edits (env := env) hopen h hsize ((hp o ho ⟨rfl, rfl, rfl⟩).mono (Nat.le_of_lt hc.2)) hpos ho hc hamb hreq hname
  obtain ⟨text', f, res', a1, a2, hs⟩ := plan_stage hR h hix ht (fun o' _ k1 k2 => hp o' k1 k2.1) hsize e2 e3 e4 ho (fun _ _ _ hv => hv.2 ▸ hplain) (fun f => to_separate h hix hfresh f)
  have hkeep : ∀ o2, Occurs res.tokens res.stmts o2 → ¬ SameSymbol o2 o → ((renM hR f).occ o2).name = o2.name := by
    intro o2 ho2 hn
    rcases renM_name (hR := hR) (f := f) h hix ho2 with a | ⟨_, a⟩
    · exact absurd a.1 hn
    · exact a
  refine ⟨edits, text', res', e1, a1, a2, hs.parsed', ⟨_, (hs.occurs _).mpr ⟨o1, ho1, rfl⟩, rfl, rfl, hkeep o1 ho1 hne⟩, ?_⟩
  intro env' st' uri' p' off' o' hopen' hsize' hpos' ho' hc' hsame
  obtain ⟨o2, ho2, rfl⟩ := (hs.occurs o').mp ho'
  have hs2 : SameSymbol o2 o1 := by
    refine (renM_sameSymbol (hR := hR) (f := f) h hix hs.separate ho2 ho1).mp ⟨hsame.1, hsame.2.1, ?_⟩
    rw [hkeep o1 ho1 hne]
    exact hsame.2.2
  obtain ⟨edits', text2, g1, g2, g3, g4⟩ := rename_second hs hix ho2 (fun x hx hxs => hp1 x hx (sameSymbol_trans hxs hs2)) (by rw [hs2.2.2]; exact hamb1) hreq1 (hs2.1 ▸ hname1) (hs2.1 ▸ hback1) (fun x hx hxs => hbare1 x hx (sameSymbol_trans hxs hs2)) (env' := env') hopen' hsize' hpos' hc'
  refine ⟨edits', text2, g1, g2, g3, ?_⟩
  obtain ⟨c, k1, k2⟩ := g4
  refine ⟨c, k1, fun t ht v => ?_⟩
  rw [k2 t ht v]
  have hiff : ∀ x, SameSymbol x o2 ↔ SameSymbol x o1 :=
    fun x => ⟨fun hh => sameSymbol_trans hh hs2, fun hh => sameSymbol_trans hh (sameSymbol_symm hs2)⟩
  simp only [Over, hiff]

/-- C77: two different symbols are renamed to names not yet used in their scopes; the resulting text does not depend on the order.  What is
missing: as in C60. -/
theorem C77_rename_order_partial (hopen : Opened st uri text) (h : parseFromStr text = .ok res) (hsize : text.length < 2 ^ 32)
    {toks : List (Spanned Token)} {errs : List (LErr Char)} (ht : tokenize text = .ok (some toks, errs))
    {p1 p2 : Pos} {off1 off2 : Nat} (hpos1 : LspOffset text p1 off1) (hpos2 : LspOffset text p2 off2) {o1 o2 : SymbolOccurrence}
    (ho1 : Occurs res.tokens res.stmts o1) (ho2 : Occurs res.tokens res.stmts o2) (hc1 : Covers o1.span off1) (hc2 : Covers o2.span off2)
    (hp1 : PlainSymbol text res o1) (hp2 : PlainSymbol text res o2)
    (hamb1 : ¬ Ambiguous res.stmts o1.name) (hamb2 : ¬ Ambiguous res.stmts o2.name) (hne : ¬ SameSymbol o1 o2)
    {req1 name1 req2 name2 : Str} (hreq1 : ¬ Relative req1) (hreq2 : ¬ Relative req2)
    (hname1 : NewName o1.symbolKind req1 name1) (hname2 : NewName o2.symbolKind req2 name2)
    (hback1 : ReadsBack o1.symbolKind name1) (hback2 : ReadsBack o2.symbolKind name2) (hplain1 : Plain name1) (hplain2 : Plain name2)
    (hfresh1 : Fresh res o1 name1) (hfresh2 : Fresh res o2 name2)
    (hbare1 : ∀ o', Occurs res.tokens res.stmts o' → SameSymbol o' o1 → Bare o')
    (hbare2 : ∀ o', Occurs res.tokens res.stmts o' → SameSymbol o' o2 → Bare o') :
    ∃ edits1 text1 res1 edits2 text2 res2,
      rename env st uri p1 req1 = .ok (.ok [(uri, edits1)]) ∧ Applied text edits1 text1 ∧ (∀ t, Applied text edits1 t → t = text1) ∧
      rename env st uri p2 req2 = .ok (.ok [(uri, edits2)]) ∧ Applied text edits2 text2 ∧ (∀ t, Applied text edits2 t → t = text2) ∧
      parseFromStr text1 = .ok res1 ∧ parseFromStr text2 = .ok res2 ∧
      (∃ o', Occurs res1.tokens res1.stmts o' ∧ SameSymbol o' o2) ∧ (∃ o', Occurs res2.tokens res2.stmts o' ∧ SameSymbol o' o1) ∧
      ∀ (env1 env2 : Env) (st1 st2 : ServerState) (uri1 uri2 : Str) (q1 q2 : Pos) (n1 n2 : Nat) (s1 s2 : SymbolOccurrence),
        Opened st1 uri1 text1 → text1.length < 2 ^ 32 → LspOffset text1 q2 n2 → Occurs res1.tokens res1.stmts s2 → Covers s2.span n2 → SameSymbol s2 o2 →
        Opened st2 uri2 text2 → text2.length < 2 ^ 32 → LspOffset text2 q1 n1 → Occurs res2.tokens res2.stmts s1 → Covers s1.span n1 → SameSymbol s1 o1 →
        ∃ edits12 edits21 text', rename env1 st1 uri1 q2 req2 = .ok (.ok [(uri1, edits12)]) ∧ rename env2 st2 uri2 q1 req1 = .ok (.ok [(uri2, edits21)]) ∧
          Applied text1 edits12 text' ∧ (∀ t, Applied text1 edits12 t → t = text') ∧
          Applied text2 edits21 text' ∧ (∀ t, Applied text2 edits21 t → t = text') := by
  have hne' : ¬ SameSymbol o2 o1 := fun hh => hne (sameSymbol_symm hh)
  obtain ⟨edits1, text1, res1, a1, a2, a3, a4, a5, a6⟩ := rename_both (env := env) hopen h hsize ht hpos1 ho1 hc1 hp1 hamb1 hreq1 hname1 hback1 hplain1
    hfresh1 ho2 hp2 hamb2 hne' hreq2 hname2 hback2 hbare1 hbare2
  obtain ⟨edits2, text2, res2, b1, b2, b3, b4, b5, b6⟩ := rename_both (env := env) hopen h hsize ht hpos2 ho2 hc2 hp2 hamb2 hreq2 hname2 hback2 hplain2
    hfresh2 ho1 hp1 hamb1 hne hreq1 hname1 hback1 hbare2 hbare1
  refine ⟨edits1, text1, res1, edits2, text2, res2, a1, a2, a3, b1, b2, b3, a4, b4, a5, b5, ?_⟩
  intro env1 env2 st1 st2 uri1 uri2 q1 q2 n1 n2 s1 s2 c1 c2 c3 c4 c5 c6 d1 d2 d3 d4 d5 d6
  obtain ⟨edits12, t12, x1, x2, x3, x4⟩ := a6 env1 st1 uri1 q2 n2 s2 c1 c2 c3 c4 c5 c6
  obtain ⟨edits21, t21, y1, y2, y3, y4⟩ := b6 env2 st2 uri2 q1 n1 s1 d1 d2 d3 d4 d5 d6
  obtain rfl : t12 = t21 := changed_unique x4 y4 (by
    intro o v _
    have key : SameSymbol o o1 → ¬ SameSymbol o o2 := fun e1 e2 => hne (sameSymbol_trans (sameSymbol_symm e1) e2)
    unfold Over
    constructor
    · rintro (⟨e1, e2⟩ | ⟨_, e2, e3⟩)
      · exact .inr ⟨fun e => key e e1, e1, e2⟩
      · exact .inl ⟨e2, e3⟩
    · rintro (⟨e1, e2⟩ | ⟨_, e2, e3⟩)
      · exact .inr ⟨key e1, e1, e2⟩
      · exact .inl ⟨e2, e3⟩)
  exact ⟨edits12, edits21, t12, x1, y1, x2, x3, y2, y3⟩

/-- C78: shifting symbols by `k` and then, at any occurrence of the same symbol, by `l` gives the same text as shifting them by `k + l`.  What is
missing: as in C66. -/
theorem C78_shift_again_partial (hopen : Opened st uri text) (h : parseFromStr text = .ok res) (hsize : text.length < 2 ^ 32)
    {toks : List (Spanned Token)} {errs : List (LErr Char)} (ht : tokenize text = .ok (some toks, errs)) {p : Pos} {off : Nat} (hpos : LspOffset text p off)
    {o : SymbolOccurrence} (ho : Occurs res.tokens res.stmts o) (hc : Covers o.span off) (hp : PlainScope text res o) (hamb : ¬ Ambiguous res.stmts o.name) {req req2 : Str} {k l : Int}
    (hk : ShiftBy req k) (hsum : ShiftBy req2 (k + l)) {pre : Str} {start : Nat} (hn : Numbered o.name pre start) (hsafe : ShiftSafe res o start k)
    (hfits : ShiftFits res o start (k + l))
    (hkw : o.symbolKind = .label → ∀ o' new, Occurs res.tokens res.stmts o' → Shifted o start (k + l) o' new → new ∉ keywordTypes) :
    ∃ edits text' res' edits2 text2, rename env st uri p req = .ok (.ok [(uri, edits)]) ∧ Applied text edits text' ∧
      (∀ t, Applied text edits t → t = text') ∧ parseFromStr text' = .ok res' ∧
      rename env st uri p req2 = .ok (.ok [(uri, edits2)]) ∧ Applied text edits2 text2 ∧ (∀ t, Applied text edits2 t → t = text2) ∧
      (∃ o', Occurs res'.tokens res'.stmts o' ∧ SameScope o' o ∧ Shifts start k o.name o'.name) ∧
      ∀ (env' : Env) (st' : ServerState) (uri' : Str) (p' : Pos) (off' : Nat) (o' : SymbolOccurrence) (req' : Str),
        Opened st' uri' text' → text'.length < 2 ^ 32 → LspOffset text' p' off' → Occurs res'.tokens res'.stmts o' → Covers o'.span off' →
        SameScope o' o → Shifts start k o.name o'.name → ShiftBy req' l →
        ∃ edits', rename env' st' uri' p' req' = .ok (.ok [(uri', edits')]) ∧ Applied text' edits' text2 ∧ ∀ t, Applied text' edits' t → t = text2 := by
  obtain ⟨ix, hix⟩ := opened_index hopen h
  have hts := parsed_tokens h ht
  have hR := shift_plan h hsafe
  -- the same symbols are shifted by both
  have hex : ∀ {o2 v}, Occurs res.tokens res.stmts o2 → Shifted o start (k + l) o2 v → ∃ w, Shifted o start k o2 w := by
    rintro o2 v ho2 ⟨hsc, pre2, nr, _, _, h1, h2, _⟩
    have hf := hsafe.fits o2 pre2 nr ho2 hsc h1 h2
    exact ⟨_, hsc, pre2, nr, _, (nr + k).toNat, h1, h2, by omega, showNat_canonical _, rfl⟩
  have hD : Plan res (Shifted o start (k + l)) := by
    refine ⟨fun _ _ _ h1 h2 => shifts_one h1.2 h2.2, ?_, ?_, ?_, fun o2 v ho2 hv => (hex ho2 hv).elim fun w hw => hsafe.bare o2 w ho2 hw⟩
    · rintro a b v ⟨h1, h2, h3⟩ ⟨h4, h5⟩
      refine ⟨⟨h1.symm.trans h4.1, h2.symm.trans h4.2⟩, ?_⟩
      rw [← h3]
      exact h5
    · intro o2 v ho2 hv
      obtain ⟨w, hw⟩ := hex ho2 hv
      exact hsafe.clear o2 w ho2 hw
    · intro o2 v ho2 hv
      exact shifts_spells (occurs_spells h ho2) hv.2 (fun hl => hkw (hv.1.1.symm.trans hl) o2 v ho2 hv)
  have hplain : ∀ o2 v, Occurs res.tokens res.stmts o2 → Shifted o start k o2 v → Plain v := by
    rintro o2 v ho2 ⟨hs2, pre, nr, w, m, ⟨ds, e, _⟩, _, _, ⟨hw, _⟩, rfl⟩ c hc
    rcases List.mem_append.mp hc with hc | hc
    · exact hp o2 ho2 hs2 c (occurs_chars h ho2 c (by rw [e]; simp [hc]))
    · have := digit_range (denotes_digits hw c hc)
      omega
  obtain ⟨edits, e1, changes, e2, e3, e4⟩ := C30_shift_partial (env := env) hopen h hsize hpos ho hc hp (visible_of_clear ho hamb) hk hn hsafe.fits
  obtain ⟨text', f, res', a1, a2, hs⟩ := plan_stage hR h hix ht (fun o' _ k1 k2 => hp o' k1 k2.1) hsize e2 e3 (fun o' v => by rw [e4]; rfl) ho hplain (fun f => shift_separate h hix hsafe)
  obtain ⟨edits2, d1, changes2, d2, d3, d4⟩ := C30_shift_partial (env := env) hopen h hsize hpos ho hc hp (visible_of_clear ho hamb) hsum hn hfits
  obtain ⟨text2, b1, b2, b3⟩ := plan_changed hD h hix ht (fun o' _ k1 k2 => hp o' k1 k2.1) hsize d2 d3 (fun o' v => by rw [d4]; rfl)
  have hofit := hsafe.fits o pre start ho ⟨rfl, rfl⟩ hn (Nat.le_refl _)
  have hself : Shifted o start k o (pre ++ showNat (start + k).toNat) :=
    ⟨⟨rfl, rfl⟩, pre, start, _, (start + k).toNat, hn, Nat.le_refl _, by omega, showNat_canonical _, rfl⟩
  refine ⟨edits, text', res', edits2, text2, e1, a1, a2, hs.parsed', d1, b1, b2, ?_, ?_⟩
  · refine ⟨_, (hs.occurs _).mpr ⟨o, ho, rfl⟩, ⟨rfl, rfl⟩, ?_⟩
    rcases renM_name (hR := hR) (f := f) h hix ho with a | ⟨a, _⟩
    · exact a.2
    · exact absurd hself (a _)
  · intro env' st' uri' p' off' o' req' hopen' hsize' hpos' ho' hc' hs' hsh' hk'
    obtain ⟨start', hstart⟩ : ∃ start' : Nat, (start' : Int) = start + k := ⟨(start + k).toNat, by omega⟩
    obtain ⟨o1, ho1, rfl⟩ := (hs.occurs o').mp ho'
    have num : ∀ {o2 v}, Occurs res.tokens res.stmts o2 → Shifted o start k o2 v →
        ∃ (pre : Str) (nr m : Nat), Numbered o2.name pre nr ∧ start ≤ nr ∧ (m : Int) = nr + k ∧ Numbered v pre m := by
      intro o2 v ho2 h2
      exact shifts_numbered h2.2 (fun pre nr a b => (hsafe.fits o2 pre nr ho2 h2.1 a b).2)
    -- both shifts together
    have hboth : ∀ o2 v, Occurs res.tokens res.stmts o2 →
        (Shifted ((renM hR f).occ o1) start' l ((renM hR f).occ o2) v ↔ Shifted o start (k + l) o2 v) := by
      intro o2 v ho2
      have hnm := renM_name (hR := hR) (f := f) h hix ho2
      constructor
      · rintro ⟨k1, pre', nr', w, m, k2, k3, k4, k5, rfl⟩
        have hs2 : SameScope o2 o := ⟨k1.1.trans hs'.1, k1.2.trans hs'.2⟩
        rcases hnm with a | ⟨a, a'⟩
        · obtain ⟨pre2, nr, m', c1, c2, c3, c4⟩ := num ho2 a
          obtain ⟨rfl, rfl⟩ := numbered_unique c4 k2
          exact ⟨hs2, _, nr, w, m, c1, c2, by omega, k5, rfl⟩
        · rw [a'] at k2
          have := (shifted_cases hsafe ho2 hs2 a k2).2
          omega
      · intro hv
        obtain ⟨w, hw⟩ := hex ho2 hv
        rcases hnm with a | ⟨a, _⟩
        · obtain ⟨pre2, nr, m', c1, c2, c3, c4⟩ := num ho2 a
          obtain ⟨hsc, pre3, nr3, w3, m3, k1, k2, k3, k4, rfl⟩ := hv
          obtain ⟨rfl, rfl⟩ := numbered_unique c1 k1
          exact ⟨⟨hsc.1.trans hs'.1.symm, hsc.2.trans hs'.2.symm⟩, _, m', w3, m3, c4, by omega, by omega, k4, rfl⟩
        · exact absurd hw (a w)
    have hsym : SameSymbol o1 o := by
      refine (renM_sameSymbol (hR := hR) (f := f) h hix hs.separate ho1 ho).mp ⟨hs'.1, hs'.2, ?_⟩
      rcases renM_name (hR := hR) (f := f) h hix ho with a | ⟨a, _⟩
      · exact shifts_one hsh' a.2
      · exact absurd hself (a _)
    have hn' : Numbered ((renM hR f).occ o1).name pre start' := by
      obtain ⟨pre1, nr1, m1, c1, _, c3, c4⟩ := shifts_numbered hsh' (fun pre nr a b => (hsafe.fits o pre nr ho ⟨rfl, rfl⟩ a b).2)
      obtain ⟨rfl, rfl⟩ := numbered_unique c1 hn
      have : m1 = start' := by omega
      subst this
      exact c4
    have hfits' : ShiftFits res' ((renM hR f).occ o1) start' l := by
      intro o2' pre2 nr2 ho2' hsc hnum hge
      obtain ⟨o2, ho2, rfl⟩ := (hs.occurs _).mp ho2'
      have hsc2 : SameScope o2 o := ⟨hsc.1.trans hs'.1, hsc.2.trans hs'.2⟩
      rcases renM_name (hR := hR) (f := f) h hix ho2 with a | ⟨a, a'⟩
      · obtain ⟨pre, nr, m', c1, c2, c3, c4⟩ := num ho2 a
        obtain ⟨rfl, rfl⟩ := numbered_unique c4 hnum
        have := hfits o2 _ nr ho2 hsc2 c1 c2
        omega
      · rw [a'] at hnum
        have := (shifted_cases hsafe ho2 hsc2 a hnum).2
        omega
    have hR2 : Plan res' (Shifted ((renM hR f).occ o1) start' l) := by
      refine ⟨fun _ _ _ h1 h2 => shifts_one h1.2 h2.2, ?_, ?_, ?_, ?_⟩
      · rintro a b v ⟨h1, h2, h3⟩ ⟨h4, h5⟩
        refine ⟨⟨h1.symm.trans h4.1, h2.symm.trans h4.2⟩, ?_⟩
        rw [← h3]
        exact h5
      · intro a v ha hv
        obtain ⟨o2, ho2, rfl⟩ := (hs.occurs _).mp ha
        have hv2 := (hboth o2 v ho2).mp hv
        exact stage_clear hs hix ho2 (hD.clear o2 v ho2 hv2)
      · intro a v ha hv
        obtain ⟨o2, ho2, rfl⟩ := (hs.occurs _).mp ha
        exact hD.spells o2 v ho2 ((hboth o2 v ho2).mp hv)
      · intro a v ha hv
        obtain ⟨o2, ho2, rfl⟩ := (hs.occurs _).mp ha
        exact hs.carried.bare_occ h ho2 (hD.bare o2 v ho2 ((hboth o2 v ho2).mp hv))
    have hamb' := stage_clear hs hix ho1 (by rw [hsym.2.2]; exact hamb)
    have hp' : PlainScope text' res' ((renM hR f).occ o1) := by
      intro o2' ho2' hsc
      obtain ⟨o2, ho2, rfl⟩ := (hs.occurs _).mp ho2'
      exact hs.plain _ (hp o2 ho2 ⟨hsc.1.trans hs'.1, hsc.2.trans hs'.2⟩)
    obtain ⟨edits', c1, changes', c2, c3, c4⟩ := C30_shift_partial (env := env') hopen' hs.parsed' hsize' hpos' ho' hc' hp' (visible_of_clear ho' hamb') hk' hn' hfits'
    obtain ⟨ix', hix'⟩ := opened_index hopen' hs.parsed'
    obtain ⟨errs', hlexed⟩ := hs.lexed
    obtain ⟨text3, g1, g2, g3⟩ := plan_changed hR2 hs.parsed' hix' hlexed (fun o' _ k1 k2 => hp' o' k1 k2.1) hsize' c2 c3 (fun o' v => by rw [c4]; rfl)
    obtain rfl : text3 = text2 := changed_unique (stage_then hs hix hR2 hix' g3) (changed_of hD h hix b3) (by
      intro o2 v ho2
      constructor
      · rintro (hh | ⟨hh, hh'⟩)
        · exact (hboth o2 v ho2).mp hh
        · exfalso
          obtain ⟨hsc, pre2, nr, w, m, k1, k2, _⟩ := hh'
          have hf := hfits o2 pre2 nr ho2 hsc k1 k2
          exact hh _ ((hboth o2 _ ho2).mpr ⟨hsc, pre2, nr, _, (nr + (k + l)).toNat, k1, k2, by omega, showNat_canonical _, rfl⟩)
      · exact fun hh => .inl ((hboth o2 v ho2).mpr hh))
    exact ⟨edits', c1, g1, g2⟩

end

/-! ### Examples and refutations -/

section Examples
attribute [local instance] asciiUnicode

/-- Edits of a request. -/
def editsOf (text : Str) (p : Pos) (req : Str) : Option (List TextEdit) :=
  match rename debugEnv (serverWith [] c!"u" text) c!"u" p req with
  | .ok (.ok [(_, e)]) => some e
  | _ => none

/-- Renaming the label of `renText` to `y2` and then to `z:3`, and right away to `z:3`: the edits are at the places of the names. -/
example : editsOf renText ⟨2, 0⟩ c!"y2" = some [⟨⟨⟨2, 0⟩, ⟨2, 2⟩⟩, c!"y2"⟩, ⟨⟨⟨4, 4⟩, ⟨4, 6⟩⟩, c!"y2"⟩] ∧
    editsOf c!"@a = 1\ndefine void @f(int32 %v1) {\ny2:\n int32 %v2 = add int32 %v1, @a\n br y2\n}\n" ⟨4, 4⟩ c!"z:3" =
      some [⟨⟨⟨2, 0⟩, ⟨2, 2⟩⟩, c!"z:3"⟩, ⟨⟨⟨4, 4⟩, ⟨4, 6⟩⟩, c!"z:3"⟩] ∧
    editsOf renText ⟨2, 0⟩ c!"z:3" = some [⟨⟨⟨2, 0⟩, ⟨2, 2⟩⟩, c!"z:3"⟩, ⟨⟨⟨4, 4⟩, ⟨4, 6⟩⟩, c!"z:3"⟩] := by decide +kernel

theorem newName_word {k : SymbolKind} {sigil w : Str} (hs : Sigil k sigil) (a1 : ∀ c ∈ w, c.isAlphanum = true) (a2 : ∀ c, w.head? = some c → c.isDigit = false)
    (a3 : ∀ c ∈ w, c.toNat < 128) (a4 : w ≠ []) : NewName k (sigil ++ w) (sigil ++ w) := by
  refine ⟨sigil, w, hs, .inl rfl, rfl, a4, ?_, ?_⟩
  · intro c hc
    left; left
    have := a1 c hc
    simpa [Unicode.alphanumeric, Unicode.alphabetic_ascii c (a3 c hc), Unicode.numeric_ascii c (a3 c hc), Char.isAlphanum] using this
  · intro _ c hc
    rw [Unicode.numeric_ascii c (a3 c (List.mem_of_mem_head? hc))]
    exact a2 c hc

theorem renLabel_pos : LspOffset renText ⟨2, 0⟩ 35 :=
  ⟨35, c!"x1:", .later (content := c!"@a = 1") (eol := c!"\n") (by decide) (.inl rfl) (by simp)
    (.later (content := c!"define void @f(int32 %v1) {") (eol := c!"\n") (by decide) (.inl rfl) (by simp)
      (.here (content := c!"x1:") (tail := renText.drop 38) (by decide) (by intro c cs h; left; simp [renText] at h; exact h.1.symm))), by decide, rfl⟩

theorem paramOcc_pos : LspOffset renText ⟨1, 22⟩ 29 :=
  ⟨7, c!"define void @f(int32 %v1) {", .later (content := c!"@a = 1") (eol := c!"\n") (by decide) (.inl rfl) (by simp)
    (.here (content := c!"define void @f(int32 %v1) {") (tail := renText.drop 34) (by decide) (by intro c cs h; left; simp [renText] at h; exact h.1.symm)), by decide, rfl⟩

theorem fresh_param : ∃ res, parseFromStr renText = .ok res ∧ Fresh res paramOcc c!"%w" := by
  generalize h : parseFromStr renText = r
  have key : (match parseFromStr renText with
    | .ok res => (allOccs res.tokens res.stmts).all fun o => decide (o.name ≠ c!"%w")
    | _ => false) = true := by decide +kernel
  rw [h] at key
  split at key
  · refine ⟨_, rfl, ?_⟩
    intro o' ho' he
    have := List.all_eq_true.mp key _ (occurs_iff.mp ho')
    exact absurd he (of_decide_eq_true this)
  · cases key

/-- The hypotheses of `C76_rename_again_partial` hold for the label `x1` of `renText` and the names `y2` and `z3`. -/
example : ∃ edits text' edits2 text2, rename debugEnv (serverWith [] c!"u" renText) c!"u" ⟨2, 0⟩ c!"y2" = .ok (.ok [(c!"u", edits)]) ∧
    Applied renText edits text' ∧ rename debugEnv (serverWith [] c!"u" renText) c!"u" ⟨2, 0⟩ c!"z3" = .ok (.ok [(c!"u", edits2)]) ∧ Applied renText edits2 text2 := by
  obtain ⟨res, toks, h1, h2, h3, h4, h5, h6⟩ := renLabel_facts
  obtain ⟨edits, text', res', edits2, text2, e1, e2, _, _, e3, e4, _⟩ := C76_rename_again_partial (env := debugEnv) (st := serverWith [] c!"u" renText)
    (uri := c!"u") (name := c!"y2") (name2 := c!"z3") (serverWith_opened (by decide +kernel)) h1 (by decide +kernel) h2 renLabel_pos
    h3 ⟨by decide, by decide⟩ (fun _ _ _ => Spec.Plain.to (by decide +kernel) _) h4 (by rintro ⟨w, h | h⟩ <;> cases h) (newName_word (sigil := []) rfl (by decide) (by intro c h; cases h; decide) (by decide) (by simp))
    ⟨by decide, fun _ => by decide⟩ (by decide) h5
    (by rintro ⟨w, h | h⟩ <;> cases h) (newName_word (sigil := []) rfl (by decide) (by intro c h; cases h; decide) (by decide) (by simp))
    ⟨by decide, fun _ => by decide⟩ (fun o' ho' _ => h6 o' ho')
  exact ⟨edits, text', edits2, text2, e1, e2, e3, e4⟩

/-- The hypotheses of `C77_rename_order_partial` hold for the label `x1` and the parameter `%v1` of `renText` and the names `y2` and `%w`. -/
example : ∃ edits1 text1 edits2 text2, rename debugEnv (serverWith [] c!"u" renText) c!"u" ⟨2, 0⟩ c!"y2" = .ok (.ok [(c!"u", edits1)]) ∧
    Applied renText edits1 text1 ∧ rename debugEnv (serverWith [] c!"u" renText) c!"u" ⟨1, 22⟩ c!"%w" = .ok (.ok [(c!"u", edits2)]) ∧ Applied renText edits2 text2 := by
  obtain ⟨res, toks, h1, h2, h3, h4, h5, h6⟩ := renLabel_facts
  obtain ⟨res', toks', g1, _, g3, g4, _⟩ := renText_safe
  obtain ⟨res'', k1, k2⟩ := fresh_param
  rw [h1] at g1 k1
  cases g1
  cases k1
  obtain ⟨edits1, text1, _, edits2, text2, _, e1, e2, _, e3, e4, _⟩ := C77_rename_order_partial (env := debugEnv) (st := serverWith [] c!"u" renText)
    (uri := c!"u") (name1 := c!"y2") (name2 := c!"%w") (serverWith_opened (by decide +kernel)) h1 (by decide +kernel) h2
    renLabel_pos paramOcc_pos h3 g3 ⟨by decide, by decide⟩ ⟨by decide, by decide⟩ (fun _ _ _ => Spec.Plain.to (by decide +kernel) _)
    (fun _ _ _ => Spec.Plain.to (by decide +kernel) _) h4 g4 (by rintro ⟨h, _⟩; cases h)
    (by rintro ⟨w, h | h⟩ <;> cases h) (by rintro ⟨w, h | h⟩ <;> cases h)
    (newName_word (sigil := []) rfl (by decide) (by intro c h; cases h; decide) (by decide) (by simp))
    (newName_word (sigil := c!"%") (w := c!"w") rfl (by decide) (by intro c h; cases h; decide) (by decide) (by simp))
    ⟨by decide, fun _ => by decide⟩ ⟨by decide, fun hk => nomatch hk⟩ (by decide) (by decide)
    h5 k2 (fun o' ho' _ => h6 o' ho') (fun o' ho' _ => h6 o' ho')
  exact ⟨edits1, text1, edits2, text2, e1, e2, e3, e4⟩

/-- Renaming the label and the parameter of `renText` in both orders. -/
example : editsOf c!"@a = 1\ndefine void @f(int32 %v1) {\ny2:\n int32 %v2 = add int32 %v1, @a\n br y2\n}\n" ⟨1, 22⟩ c!"%w" =
      some [⟨⟨⟨1, 21⟩, ⟨1, 24⟩⟩, c!"%w"⟩, ⟨⟨⟨3, 23⟩, ⟨3, 26⟩⟩, c!"%w"⟩] ∧
    editsOf c!"@a = 1\ndefine void @f(int32 %w) {\nx1:\n int32 %v2 = add int32 %w, @a\n br x1\n}\n" ⟨2, 0⟩ c!"y2" =
      some [⟨⟨⟨2, 0⟩, ⟨2, 2⟩⟩, c!"y2"⟩, ⟨⟨⟨4, 4⟩, ⟨4, 6⟩⟩, c!"y2"⟩] := by decide +kernel

/-- The hypotheses of `C78_shift_again_partial` hold for `%v1` of `renText`, shifted by 2 and then by 3. -/
example : ∃ edits text' edits2 text2, rename debugEnv (serverWith [] c!"u" renText) c!"u" ⟨1, 22⟩ c!"+2" = .ok (.ok [(c!"u", edits)]) ∧
    Applied renText edits text' ∧ rename debugEnv (serverWith [] c!"u" renText) c!"u" ⟨1, 22⟩ c!"+5" = .ok (.ok [(c!"u", edits2)]) ∧ Applied renText edits2 text2 := by
  obtain ⟨res, toks, h1, h2, h3, h4, h5, h6⟩ := renText_safe
  have hk : ShiftBy c!"+2" 2 := ⟨c!"2", 2, parseNat_iff.mp (by decide +kernel), by decide, .inl ⟨rfl, rfl⟩⟩
  have hk2 : ShiftBy c!"+5" (2 + 3) := ⟨c!"5", 5, parseNat_iff.mp (by decide +kernel), by decide, .inl ⟨rfl, rfl⟩⟩
  have key : (match parseFromStr renText with
    | .ok res => (allOccs res.tokens res.stmts).all fun o => match extractNumberFromIdentifier o.name with | .ok (some (_, n)) => decide (n < 10) | _ => true
    | _ => false) = true := by decide +kernel
  rw [h1] at key
  obtain ⟨edits, text', _, edits2, text2, e1, e2, _, _, e3, e4, _⟩ := C78_shift_again_partial (env := debugEnv) (st := serverWith [] c!"u" renText) (uri := c!"u")
    (serverWith_opened (by decide +kernel)) h1 (by decide +kernel) h2 paramOcc_pos h3 ⟨by decide, by decide⟩
    (fun _ _ _ => Spec.Plain.to (by decide +kernel) _) h4 hk hk2 h5 h6
    (by
      intro o' pre nr ho' _ hnum _
      have := List.all_eq_true.mp key o' (occurs_iff.mp ho')
      have hasc : Ascii o'.name := by
        have key2 : (match parseFromStr renText with
          | .ok res => (allOccs res.tokens res.stmts).all fun o => decide (∀ c ∈ o.name, c.toNat < 128)
          | _ => false) = true := by decide +kernel
        rw [h1] at key2
        have := List.all_eq_true.mp key2 o' (occurs_iff.mp ho')
        exact of_decide_eq_true this
      rw [extract_numbered hasc hnum] at this
      simp only [decide_eq_true_eq] at this
      omega)
    (fun hk => nomatch hk)
  exact ⟨edits, text', edits2, text2, e1, e2, e3, e4⟩

/-- Shifting by 2, then by 3, and by 5. -/
example : editsOf c!"@a9 = 1\n@b = @a9\n" ⟨0, 1⟩ c!"+2" = some [⟨⟨⟨0, 0⟩, ⟨0, 3⟩⟩, c!"@a11"⟩, ⟨⟨⟨1, 5⟩, ⟨1, 8⟩⟩, c!"@a11"⟩] ∧
    editsOf c!"@a11 = 1\n@b = @a11\n" ⟨1, 6⟩ c!"+3" = some [⟨⟨⟨0, 0⟩, ⟨0, 4⟩⟩, c!"@a14"⟩, ⟨⟨⟨1, 5⟩, ⟨1, 9⟩⟩, c!"@a14"⟩] ∧
    editsOf c!"@a9 = 1\n@b = @a9\n" ⟨0, 1⟩ c!"+5" = some [⟨⟨⟨0, 0⟩, ⟨0, 3⟩⟩, c!"@a14"⟩, ⟨⟨⟨1, 5⟩, ⟨1, 8⟩⟩, c!"@a14"⟩] := by decide +kernel

/-- C76 fails for accepted names that cannot be read back: `@a` becomes `@b:`, and renaming that leaves the colon. -/
theorem C76_refuted_colon :
    editsOf c!"@a = 1\n" ⟨0, 1⟩ c!"b:" = some [⟨⟨⟨0, 0⟩, ⟨0, 2⟩⟩, c!"@b:"⟩] ∧
    editsOf c!"@b: = 1\n" ⟨0, 1⟩ c!"c" = some [⟨⟨⟨0, 0⟩, ⟨0, 2⟩⟩, c!"@c"⟩] ∧
    editsOf c!"@a = 1\n" ⟨0, 1⟩ c!"c" = some [⟨⟨⟨0, 0⟩, ⟨0, 2⟩⟩, c!"@c"⟩] := by decide +kernel

/-- The first new name must not be used in the scope: otherwise the second rename changes more. -/
theorem C76_fresh_needed :
    editsOf c!"@a = 1\n@b = 2\n" ⟨0, 1⟩ c!"b" = some [⟨⟨⟨0, 0⟩, ⟨0, 2⟩⟩, c!"@b"⟩] ∧
    editsOf c!"@b = 1\n@b = 2\n" ⟨0, 1⟩ c!"c" = some [⟨⟨⟨0, 0⟩, ⟨0, 2⟩⟩, c!"@c"⟩, ⟨⟨⟨1, 0⟩, ⟨1, 2⟩⟩, c!"@c"⟩] ∧
    editsOf c!"@a = 1\n@b = 2\n" ⟨0, 1⟩ c!"c" = some [⟨⟨⟨0, 0⟩, ⟨0, 2⟩⟩, c!"@c"⟩] := by decide +kernel

/-- C77 fails for labels that are given the name of a keyword: the other label is no longer found; the other order works. -/
theorem C77_refuted_keyword :
    editsOf c!"define void @f() {\nx:\n br y\ny:\n ret\n}\n" ⟨1, 0⟩ c!"pure" = some [⟨⟨⟨1, 0⟩, ⟨1, 1⟩⟩, c!"pure"⟩] ∧
    editsOf c!"define void @f() {\npure:\n br y\ny:\n ret\n}\n" ⟨3, 0⟩ c!"z" = none ∧
    editsOf c!"define void @f() {\nx:\n br y\ny:\n ret\n}\n" ⟨3, 0⟩ c!"z" = some [⟨⟨⟨3, 0⟩, ⟨3, 1⟩⟩, c!"z"⟩, ⟨⟨⟨2, 4⟩, ⟨2, 5⟩⟩, c!"z"⟩] ∧
    editsOf c!"define void @f() {\nx:\n br z\nz:\n ret\n}\n" ⟨1, 0⟩ c!"pure" = some [⟨⟨⟨1, 0⟩, ⟨1, 1⟩⟩, c!"pure"⟩] := by decide +kernel

/-- C78 fails if there is a symbol in the gap: `@a1` becomes `@a0`, and shifting by 2 makes both `@a2`; shifting by 1 right away does not. -/
theorem C78_refuted_gap :
    editsOf c!"@a0 = 1\n@a1 = 1\n" ⟨1, 1⟩ c!"-1" = some [⟨⟨⟨1, 0⟩, ⟨1, 3⟩⟩, c!"@a0"⟩] ∧
    editsOf c!"@a0 = 1\n@a0 = 1\n" ⟨1, 1⟩ c!"+2" = some [⟨⟨⟨0, 0⟩, ⟨0, 3⟩⟩, c!"@a2"⟩, ⟨⟨⟨1, 0⟩, ⟨1, 3⟩⟩, c!"@a2"⟩] ∧
    editsOf c!"@a0 = 1\n@a1 = 1\n" ⟨1, 1⟩ c!"+1" = some [⟨⟨⟨1, 0⟩, ⟨1, 3⟩⟩, c!"@a2"⟩] := by decide +kernel

end Examples
end HyperIR
