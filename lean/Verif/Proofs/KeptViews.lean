import Verif.Proofs.KeptStructure
import Verif.Proofs.JoinViews2
import Verif.Props.Agreement
import Verif.Spec.KeptViews

/- What renames do to the lenses, the highlighting and the hints of a document. -/

namespace HyperIR
open Spec

/-! ### Lists that correspond -/

theorem each_of_get {α β : Type} {S : α → β → Prop} : ∀ {as : List α} {bs : List β}, as.length = bs.length →
    (∀ (i : Nat) a b, as[i]? = some a → bs[i]? = some b → S a b) → Each S as bs
  | [], [], _, _ => .nil
  | a :: as, b :: bs, hl, h => .cons (h 0 a b rfl rfl)
    (each_of_get (by simpa using hl) fun i x y hx hy => h (i + 1) x y (by simpa using hx) (by simpa using hy))

theorem each_flatMap {α β γ δ : Type} {S : γ → δ → Prop} {f : α → List γ} {g : β → List δ} {as : List α} {bs : List β}
    (h : Each (fun a b => Each S (f a) (g b)) as bs) : Each S (as.flatMap f) (bs.flatMap g) := by
  induction h with
  | nil => exact .nil
  | cons h _ ih =>
    rw [List.flatMap_cons, List.flatMap_cons]
    exact each_append' h ih

/-- Both have nothing, or both have something that corresponds. -/
def Both {γ δ : Type} (S : γ → δ → Prop) (x : Option γ) (y : Option δ) : Prop :=
  (x = none ∧ y = none) ∨ ∃ a b, x = some a ∧ y = some b ∧ S a b

theorem each_filterMap_both {α β γ δ : Type} {S : γ → δ → Prop} {f : α → Option γ} {g : β → Option δ} {as : List α} {bs : List β}
    (h : Each (fun a b => Both S (f a) (g b)) as bs) : Each S (as.filterMap f) (bs.filterMap g) := by
  induction h with
  | nil => exact .nil
  | cons h _ ih =>
    rcases h with ⟨h1, h2⟩ | ⟨x, y, h1, h2, h3⟩
    · simp only [List.filterMap_cons, h1, h2]; exact ih
    · simp only [List.filterMap_cons, h1, h2]; exact .cons h3 ih

theorem each_map_self {α β : Type} {S : α → β → Prop} {g : α → β} {as : List α} (h : ∀ a ∈ as, S a (g a)) : Each S as (as.map g) := by
  induction as with
  | nil => exact .nil
  | cons a as ih => exact .cons (h a (by simp)) (ih fun b hb => h b (by simp [hb]))

theorem each_collectO {α β γ δ : Type} {S : γ → δ → Prop} {f : α → Outcome (List γ)} {g : β → Outcome (List δ)} {as : List α} {bs : List β}
    (h : Each (fun a b => (f a = .panic ∧ g b = .panic) ∨ ∃ x y, f a = .ok x ∧ g b = .ok y ∧ Each S x y) as bs) :
    (collectO f as = .panic ∧ collectO g bs = .panic) ∨ ∃ x y, collectO f as = .ok x ∧ collectO g bs = .ok y ∧ Each S x y := by
  induction h with
  | nil => exact .inr ⟨[], [], rfl, rfl, .nil⟩
  | cons h _ ih =>
    simp only [collectO]
    rcases h with ⟨h1, h2⟩ | ⟨x, y, h1, h2, h3⟩
    · left; rw [h1, h2]; exact ⟨rfl, rfl⟩
    · rw [h1, h2]
      rcases ih with ⟨i1, i2⟩ | ⟨u, v, i1, i2, i3⟩
      · left; rw [i1, i2]; exact ⟨rfl, rfl⟩
      · right; rw [i1, i2]; exact ⟨_, _, rfl, rfl, each_append' h3 i3⟩

/-! ### Slices between the changes -/

theorem takeBytes_follow {w u : Str} : ∀ {n : Nat}, Ascii w → n ≤ w.length → takeBytes n (w ++ u) = takeBytes n w := by
  induction w with
  | nil => intro n _ hn; obtain rfl : n = 0 := by simpa using hn
           simp [takeBytes]
  | cons c w ih =>
    intro n ha hn
    cases n with
    | zero => simp [takeBytes]
    | succ n =>
      have hc : c.utf8Size = 1 := utf8Size_ascii (ha c (by simp))
      simp only [List.cons_append, takeBytes, hc]
      rw [ih (fun d hd => ha d (by simp [hd])) (by simp at hn; omega)]

theorem sliceBytes_same {w u u' : Str} (ha : Ascii w) {a b : Nat} (hb : b ≤ w.length) : sliceBytes (w ++ u) a b = sliceBytes (w ++ u') a b := by
  by_cases hab : a ≤ b
  · have key : ∀ u, sliceBytes (w ++ u) a b = Outcome.unwrap (takeBytes (b - a) (w.drop a)) := by
      intro u
      unfold sliceBytes
      have hw : w = w.take a ++ w.drop a := (List.take_append_drop a w).symm
      have hl : utf8Len (w.take a) = a := by
        rw [utf8Len_ascii fun c hc => ha c (List.mem_of_mem_take hc), List.length_take]; omega
      have : dropBytes a (w ++ u) = some (w.drop a ++ u) := by
        conv => lhs; rw [hw, List.append_assoc]
        have := @dropBytes_append (w.take a) (w.drop a ++ u)
        rw [hl] at this
        exact this
      rw [if_pos hab, this]
      simp only
      rw [takeBytes_follow (fun c hc => ha c (List.mem_of_mem_drop hc)) (by simp; omega)]
    rw [key, key]
  · unfold sliceBytes
    rw [if_neg hab, if_neg hab]

theorem replaced_slice {o : Nat} {text : Str} {cs : List (Span × Str)} {text' : Str} (h : Replaced o text cs text')
    (hp : ∀ c ∈ cs, Plain (text.take (c.1.stop - o)) ∧ Plain c.2) (hne : ∀ c ∈ cs, c.1.start < c.1.stop) (o' : Nat) {a b : Nat} (ho : o ≤ a) (hab : a < b)
    (hc : ∀ c ∈ cs, c.1.stop ≤ a ∨ b ≤ c.1.start) :
    sliceBytes text' (movePos o o' cs a - o') (movePos o o' cs b - o') = sliceBytes text (a - o) (b - o) := by
  induction h generalizing o' with
  | @done o text =>
    simp only [movePos]
    rw [show o' + (a - o) - o' = a - o by omega, show o' + (b - o) - o' = b - o by omega]
  | @change o x w rest cs rest' v hrep ih =>
    obtain ⟨hpw, hpv⟩ := hp _ (List.mem_cons_self ..)
    have hn := hne _ (List.mem_cons_self ..)
    have hx := hc _ (List.mem_cons_self ..)
    simp only at hn hx hpw hpv
    rw [show o + x.length + w.length - o = (x ++ w).length + 0 by simp only [List.length_append]; omega, List.take_length_add_append, List.take_zero,
      List.append_nil, plain_append] at hpw
    have asc : ∀ {s : Str}, Plain s → Ascii s := fun h c hc => (h c hc).1
    simp only [movePos]
    rcases hx with hx | hx
    · rw [if_neg (by omega), if_neg (by omega)]
      have := ih (by
        intro c hm
        have hq := (replaced_order hrep).1 _ hm
        have := hp c (by simp [hm])
        refine ⟨?_, this.2⟩
        by_cases hs : c.1.stop ≤ o + x.length + w.length
        · rw [show c.1.stop - (o + x.length + w.length) = 0 by omega]
          intro d hd
          simp at hd
        · have this := this.1
          rw [show c.1.stop - o = (x ++ w).length + (c.1.stop - (o + x.length + w.length)) by simp only [List.length_append]; omega, List.take_length_add_append] at this
          exact fun d hd => this d (List.mem_append_right _ hd)) (fun c hc => hne c (List.mem_cons_of_mem _ hc)) (o' + x.length + v.length) hx
        (fun c hm => hc c (List.mem_cons_of_mem _ hm))
      rw [show o' + (o + x.length - o) + v.length = o' + x.length + v.length by omega]
      have g1 := movePos_ge (o + x.length + w.length) (o' + x.length + v.length) cs a
      have g2 := movePos_ge (o + x.length + w.length) (o' + x.length + v.length) cs b
      have e1 := sliceBytes_behind (A := x ++ v) (asc (plain_append.mpr ⟨hpw.1, hpv⟩)) rest'
        (movePos (o + x.length + w.length) (o' + x.length + v.length) cs a - (o' + x.length + v.length))
        (movePos (o + x.length + w.length) (o' + x.length + v.length) cs b - (o' + x.length + v.length))
      have e2 := sliceBytes_behind (A := x ++ w) (asc (plain_append.mpr hpw)) rest (a - (o + x.length + w.length)) (b - (o + x.length + w.length))
      rw [this] at e1
      rw [← e2] at e1
      simp only [List.length_append] at e1
      rw [show a - (o + x.length + w.length) + (x.length + w.length) = a - o by omega,
        show b - (o + x.length + w.length) + (x.length + w.length) = b - o by omega] at e1
      rw [← e1]
      congr 1 <;> omega
    · rw [if_pos (by omega), if_pos (by omega)]
      rw [show o' + min (a - o) (o + x.length - o) - o' = a - o by omega, show o' + min (b - o) (o + x.length - o) - o' = b - o by omega]
      rw [List.append_assoc, List.append_assoc]
      exact sliceBytes_same (asc hpw.1) (by omega)

section
variable [Unicode] {G : Renaming} {text text' : Str} {res res' : ParserResult} {R : SymbolOccurrence → Str → Prop}

/-- Every changed token is an occurrence that is renamed. -/
def Named (res : ParserResult) (R : SymbolOccurrence → Str → Prop) (G : Renaming) : Prop :=
  ∀ t ∈ res.tokens, ∀ v, G.ren t = some v → ∃ o, Occurs res.tokens res.stmts o ∧ R o v ∧ (nameToken o.symbolKind o.name, o.span) = t

/-! ### Lenses -/

theorem lenses_kept (hG : Carried G text text' res res') (hm : Keeps res res' R G.occ) (h : parseFromStr text = .ok res) (h' : parseFromStr text' = .ok res')
    (hsize : text.length < 2 ^ 32) (hsize' : text'.length < 2 ^ 32) {st st' : ServerState} {uri uri' : Str} (hopen : Opened st uri text)
    (hopen' : Opened st' uri' text') {env env' : Env} {ls ls' : List CodeLens} (hs : codeLens env st uri = some ls)
    (hs' : codeLens env' st' uri' = some ls') : LensesKept text res R uri uri' ls ls' := by
  classical
  obtain ⟨_, _, _, _, _, _, _, _, _, _, _, c1, n1, _⟩ := C74_function_views hopen hsize env
  obtain ⟨_, _, _, _, _, _, _, _, _, _, _, c1', n1', _⟩ := C74_function_views hopen' hsize' env'
  rw [hs] at c1
  rw [hs'] at c1'
  cases c1
  cases c1'
  obtain ⟨doc, hst, hr, _, hix⟩ := opened_inv hopen h
  obtain ⟨doc', hst', hr', _, hix'⟩ := opened_inv hopen' h'
  have hl : ls = (env.ord.run doc.index.functions).filterMap (codeLensOf uri doc.rope) := by
    unfold codeLens at hs
    rw [hst] at hs
    exact (Option.some.inj hs).symm
  have hl' : ls' = (env'.ord.run doc'.index.functions).filterMap (codeLensOf uri' doc'.rope) := by
    unfold codeLens at hs'
    rw [hst'] at hs'
    exact (Option.some.inj hs').symm
  have hocc : ∀ f ∈ docFuncs res.stmts, Occurs res.tokens res.stmts (Spec.occ .function .def_ none f.1) := fun f hf => .inl (docFuncs_occurs hf 0)
  have hname : ∀ f : Spanned Str × Span × List BasicBlock, (G.name .globalName f.1).1 = (G.occ (Spec.occ .function .def_ none f.1)).name := by
    intro f
    rw [← occ_occ (mk := .globalName) (fun _ => rfl)]
    rfl
  have hsame : ∀ f ∈ docFuncs res.stmts, ∀ g ∈ docFuncs res.stmts, ((G.name .globalName f.1).1 = (G.name .globalName g.1).1 ↔ f.1.1 = g.1.1) := by
    intro f hf g hg
    have := (hm.same _ _ (hocc f hf) (hocc g hg)).1
    rw [hname, hname]
    exact ⟨fun e => (this.mp ⟨rfl, rfl, e⟩).2.2, fun e => (this.mpr ⟨rfl, rfl, e⟩).2.2⟩
  have hrange : ∀ f ∈ docFuncs res.stmts, ∃ r r', rangeToLsp text f.1.2 = some r ∧ rangeToLsp text' (G.span f.1.2) = some r' ∧ SameLines r r' := by
    intro f hf
    have hin := (C02_token_spans h).1 _ (occurs_token h (hocc f hf))
    rw [occTok_span] at hin
    simp only [Inside, Spec.occ] at hin
    exact rangeToLsp_kept hG h h' hsize hsize' (by omega) (by omega)
  let U := (docFuncs res.stmts).filter fun f => decide (∀ g ∈ docFuncs res.stmts, g.1.1 = f.1.1 → g = f)
  let q : Spanned Str × Span × List BasicBlock → Range := fun f => (rangeToLsp text f.1.2).getD ⟨⟨0, 0⟩, ⟨0, 0⟩⟩
  let q' : Spanned Str × Span × List BasicBlock → Range := fun f => (rangeToLsp text' (G.span f.1.2)).getD ⟨⟨0, 0⟩, ⟨0, 0⟩⟩
  have hU : ∀ f, f ∈ U ↔ f ∈ docFuncs res.stmts ∧ ∀ g ∈ docFuncs res.stmts, g.1.1 = f.1.1 → g = f := by
    intro f
    simp only [U, List.mem_filter, decide_eq_true_eq]
  have hnd : (docFuncs res.stmts).Nodup := by
    refine List.Pairwise.imp_of_mem ?_ (docFuncs_disjoint (mentions_wellOrdered h))
    rintro a b ha hb hab rfl
    obtain ⟨h1, ⟨k, hk, e1, e2⟩, c, hc, e3, e4⟩ := func_tokens h ha
    have i1 := (C02_token_spans h).1 _ h1
    have i2 := (C02_token_spans h).1 _ hk
    have i3 := (C02_token_spans h).1 _ hc
    simp only [Inside] at i1 i2 i3
    omega
  have hUnd : U.Nodup := hnd.filter _
  refine ⟨U.map fun f => (lensAt uri f.1.1 (q f), lensAt uri' (G.name .globalName f.1).1 (q' f)), ?_, ?_, ?_⟩
  · rw [List.map_map]
    refine (List.perm_ext_iff_of_nodup n1 ?_).mpr ?_
    · rw [List.Nodup, List.pairwise_map]
      refine List.Pairwise.imp_of_mem ?_ hUnd
      intro a b ha hb hab he
      simp only [Function.comp, lensAt, CodeLens.mk.injEq, List.cons.injEq, Json.str.injEq] at he
      exact hab (((hU b).mp hb).2 a ((hU a).mp ha).1 he.2.2.2.1)
    · intro l
      rw [hl, lens_mem h hix hr, List.mem_map]
      constructor
      · rintro ⟨f, hf, hu, r, e, rfl⟩
        exact ⟨f, (hU f).mpr ⟨hf, hu⟩, by simp only [Function.comp, q, e, Option.getD_some]⟩
      · rintro ⟨f, hf, rfl⟩
        obtain ⟨h1, h2⟩ := (hU f).mp hf
        obtain ⟨r, r', e, _, _⟩ := hrange f h1
        exact ⟨f, h1, h2, r, e, by simp only [Function.comp, q, e, Option.getD_some]⟩
  · rw [List.map_map]
    refine (List.perm_ext_iff_of_nodup n1' ?_).mpr ?_
    · rw [List.Nodup, List.pairwise_map]
      refine List.Pairwise.imp_of_mem ?_ hUnd
      intro a b ha hb hab he
      simp only [Function.comp, lensAt, CodeLens.mk.injEq, List.cons.injEq, Json.str.injEq] at he
      exact hab (((hU b).mp hb).2 a ((hU a).mp ha).1 ((hsame a ((hU a).mp ha).1 b ((hU b).mp hb).1).mp he.2.2.2.1))
    · intro l
      rw [hl', lens_mem h' hix' hr', List.mem_map, hG.stmts, docFuncs_ren]
      constructor
      · rintro ⟨_, hf0, hu, r, e, rfl⟩
        obtain ⟨f, hf, rfl⟩ := List.mem_map.mp hf0
        refine ⟨f, (hU f).mpr ⟨hf, ?_⟩, ?_⟩
        · intro g hg e
          have := hu _ (List.mem_map_of_mem hg) ((hsame g hg f hf).mpr e)
          simp only [Prod.mk.injEq] at this
          have hsp : G.span g.1.2 = G.span f.1.2 := by
            have := congrArg Prod.snd this.1
            exact this
          have hstart := (hm.same _ _ (hocc g hg) (hocc f hf)).2
          have hstart' := (hm.same _ _ (hocc f hf) (hocc g hg)).2
          have es : G.f g.1.2.start = G.f f.1.2.start := congrArg Span.start hsp
          have k1 : ¬ g.1.2.start < f.1.2.start := by
            intro hlt
            have := hstart.mpr hlt
            have : G.f g.1.2.start < G.f f.1.2.start := this
            omega
          have k2 : ¬ f.1.2.start < g.1.2.start := by
            intro hlt
            have := hstart'.mpr hlt
            have : G.f f.1.2.start < G.f g.1.2.start := this
            omega
          have t1 := occurs_token h (hocc g hg)
          have t2 := occurs_token h (hocc f hf)
          have i1 := (C02_token_spans h).1 _ t1
          have i2 := (C02_token_spans h).1 _ t2
          refine docFuncs_span_inj h hg hf ?_
          refine Classical.byContradiction fun hne => ?_
          have := wellOrdered_apart (tokens_wellOrdered h) t1 t2 (by
            intro e
            have := congrArg Prod.snd e
            rw [occTok_span, occTok_span] at this
            exact hne this)
          simp only [occTok_span, Inside, Spec.occ] at this i1 i2
          omega
        · simp only at e
          have e2 : rangeToLsp text' (G.span f.1.2) = some r := e
          simp only [Function.comp, q', e2, Option.getD_some]
      · rintro ⟨f, hf, rfl⟩
        obtain ⟨h1, h2⟩ := (hU f).mp hf
        obtain ⟨r, r', _, e, _⟩ := hrange f h1
        refine ⟨_, List.mem_map_of_mem h1, ?_, r', e, by simp only [Function.comp, q', e, Option.getD_some]⟩
        intro g hg0 e
        obtain ⟨g, hg, rfl⟩ := List.mem_map.mp hg0
        rw [h2 g hg ((hsame g hg f h1).mp e)]
  · intro p hp
    obtain ⟨f, hf, rfl⟩ := List.mem_map.mp hp
    obtain ⟨h1, _⟩ := (hU f).mp hf
    obtain ⟨r, r', e, e', hsl⟩ := hrange f h1
    refine ⟨rfl, ?_, _, _, hocc f h1, rfl, rfl, ?_, hm.calledAfter (hocc f h1), rfl, ?_⟩
    · simp only [lensAt, q, q', e, e', Option.getD_some]
      exact hsl
    · intro hp
      obtain ⟨r2, k1, k2⟩ := func_name_range h hsize h1
      rw [e] at k1
      cases k1
      simp only [lensAt, q, e, Option.getD_some]
      exact k2 hp
    · simp only [lensAt, hname]

/-! ### Highlighting -/

omit [Unicode] in
theorem semTypeOf_ren (t : Tok) : semTypeOf (G.tok t).1 = semTypeOf t.1 := by
  unfold Renaming.tok renTok
  cases hr : G.ren t with
  | none => rfl
  | some v =>
    obtain ⟨n, hn⟩ := G.named t v hr
    simp only
    revert hn
    cases t.1 <;> simp [tokName, withName, semTypeOf]

omit [Unicode] in
theorem semanticTokens_ren {toks : List Tok} {sem sem' : List HIRSemanticToken} (h : semanticTokensFromTokens toks = .ok sem)
    (h' : semanticTokensFromTokens (toks.map G.tok) = .ok sem') :
    Each (fun x x' => x'.tokenType = x.tokenType ∧ ∃ t ∈ toks, x.start = t.2.start ∧ x.length = t.2.len ∧ x'.start = (G.span t.2).start ∧ x'.length = (G.span t.2).len)
      sem sem' := by
  induction toks generalizing sem sem' with
  | nil => cases h; cases h'; exact .nil
  | cons t toks ih =>
    have hsp : (G.tok t).2 = G.span t.2 := by
      unfold Renaming.tok renTok Renaming.span
      cases G.ren t <;> rfl
    have hst := semTypeOf_ren (G := G) t
    rw [List.map_cons] at h'
    obtain ⟨t1, sp⟩ := t
    simp only [semanticTokensFromTokens] at h
    rw [show G.tok (t1, sp) = ((G.tok (t1, sp)).1, (G.tok (t1, sp)).2) from rfl, semanticTokensFromTokens, hst, hsp] at h'
    simp only at h' hst
    cases hs : semTypeOf t1 with
    | none =>
      rw [hs] at h h'
      refine HyperIR.Each.imp (ih h h') ?_
      rintro x _ x' _ ⟨a, t, ht, b⟩
      exact ⟨a, t, by simp [ht], b⟩
    | some ty =>
      rw [hs] at h h'
      simp only [createSemanticToken] at h h'
      cases hi : legendType.findIdx? (fun t => decide (t = ty)) with
      | none => rw [hi] at h; cases h
      | some i =>
      rw [hi] at h h'
      simp only at h h'
      cases hr1 : semanticTokensFromTokens toks with
      | panic => rw [hr1] at h; cases h
      | ok r1 =>
      cases hr2 : semanticTokensFromTokens (toks.map G.tok) with
      | panic => rw [hr2] at h'; cases h'
      | ok r2 =>
      rw [hr1] at h
      rw [hr2] at h'
      cases h
      cases h'
      refine .cons ⟨rfl, (t1, sp), by simp, rfl, rfl, rfl, rfl⟩ ?_
      refine HyperIR.Each.imp (ih hr1 hr2) ?_
      rintro x _ x' _ ⟨a, t, ht, b⟩
      exact ⟨a, t, by simp [ht], b⟩

/-- How wide a token is after the renames. -/
theorem width_kept (hG : Carried G text text' res res') (h : parseFromStr text = .ok res) {t : Tok} (ht : t ∈ res.tokens) :
    (∃ v, G.ren t = some v ∧ (G.span t.2).len = v.length) ∨ (G.ren t = none ∧ (G.span t.2).len = t.2.len) := by
  obtain ⟨cs, h1, h2, h3, h4⟩ := hG.changes
  have hne : ∀ c ∈ cs, c.1.start < c.1.stop := by
    intro c hc
    obtain ⟨t, ht, v, hv, rfl⟩ := h3 c hc
    exact ((C02_token_spans h).1 _ ht).1
  have hlt := ((C02_token_spans h).1 _ ht).1
  simp only [Renaming.span, Span.len, h2]
  cases hr : G.ren t with
  | some v =>
    left
    exact ⟨v, rfl, by rw [movePos_width h1 0 hne (h4 _ ht v hr)]; omega⟩
  | none =>
    right
    refine ⟨rfl, ?_⟩
    rw [movePos_kept h1 0 hne (Nat.zero_le _) hlt (by
      intro c hc
      obtain ⟨t2, ht2, v, hv, rfl⟩ := h3 c hc
      exact wellOrdered_apart (tokens_wellOrdered h) ht2 ht (by rintro rfl; rw [hr] at hv; cases hv))]
    omega

theorem highlights_kept (hG : Carried G text text' res res') (hN : Named res R G) (h : parseFromStr text = .ok res) (h' : parseFromStr text' = .ok res')
    (hsize : text.length < 2 ^ 32) (hsize' : text'.length < 2 ^ 32) {st st' : ServerState} {uri uri' : Str} (hopen : Opened st uri text)
    (hopen' : Opened st' uri' text') (env env' : Env) : ∃ ls ls', semanticTokensFull env st uri = .ok (some ls) ∧
      semanticTokensFull env' st' uri' = .ok (some ls') ∧ HighlightsKept text res R (decode ⟨0, 0⟩ ls) (decode ⟨0, 0⟩ ls') := by
  have conv : ∀ {text : Str} {r : ParserResult} {st : ServerState} {uri : Str} (env : Env), parseFromStr text = .ok r → text.length < 2 ^ 32 → Opened st uri text →
      ∃ s l, semanticTokensFromTokens r.tokens = .ok s ∧ semanticTokensFull env st uri = .ok (some l) ∧ decode ⟨0, 0⟩ l = s.map (highlightOf text) := by
    intro text r st uri env hr hlen hopen
    obtain ⟨doc, errs, ha, hst⟩ := hopen
    obtain ⟨r', h1, hrope, _, _, hs, _⟩ := analyze_inv ha
    rw [hr] at h1
    cases h1
    obtain ⟨q1, q2⟩ := C02_token_spans hr
    obtain ⟨s1, s2, _⟩ := semanticTokens_starts hs q1 q2
    obtain ⟨l, k1, k2⟩ := convert_decode env.build hlen (prev := ⟨0, 0⟩) s1 (fun t _ => by unfold PosLe; simp only; omega) s2
    refine ⟨_, l, hs, ?_, k2⟩
    unfold semanticTokensFull
    rw [hst]
    simp only [hrope, k1]
  obtain ⟨s, l, a1, a2, a3⟩ := conv env h hsize hopen
  obtain ⟨s', l', b1, b2, b3⟩ := conv env' h' hsize' hopen'
  refine ⟨l, l', a2, b2, ?_⟩
  rw [a3, b3]
  rw [hG.tokens] at b1
  have key := semanticTokens_ren a1 b1
  unfold HighlightsKept
  have hmap : ∀ {α β γ δ : Type} {S : γ → δ → Prop} {f : α → γ} {g : β → δ} {as : List α} {bs : List β}, Each (fun a b => S (f a) (g b)) as bs →
      Each S (as.map f) (bs.map g) := by
    intro α β γ δ S f g as bs h
    induction h with
    | nil => exact .nil
    | cons h _ ih => exact .cons h ih
  refine hmap (HyperIR.Each.imp key ?_)
  rintro x _ x' _ ⟨ht, t, hm, e1, e2, e3, e4⟩
  have hin := (C02_token_spans h).1 _ hm
  simp only [Inside] at hin
  have hin1 := hG.inside t.2.start (by omega)
  have hin2 := hG.inside t.2.stop (by omega)
  have hlen : x.length < 2 ^ 32 := by rw [e2]; simp only [Span.len]; omega
  have hlen' : x'.length < 2 ^ 32 := by rw [e4]; simp only [Span.len, Renaming.span]; omega
  simp only [highlightOf, asU32, ht]
  rw [Nat.mod_eq_of_lt hlen, Nat.mod_eq_of_lt hlen']
  refine ⟨trivial, ?_, ?_⟩
  · simp only [posOf, e1, e3]
    exact hG.lines h h' _ (by omega)
  · rcases width_kept hG h hm with ⟨v, hv, hw⟩ | ⟨_, hw⟩
    · right
      obtain ⟨o, ho, hr, e⟩ := hN t hm v hv
      obtain ⟨n, hn, hb⟩ := hG.bare t hm v hv
      subst e
      have hon : n = o.name := by
        rw [(withName_nameToken o.symbolKind o.name []).2] at hn
        exact (Option.some.inj hn).symm
      refine ⟨o, v, ho, hr, ?_, ?_, by rw [e4, hw]⟩
      · have hpl := (hG.changed _ hm v hv).1
        rw [e1]
        obtain ⟨p, k1, k2⟩ := tokenStart_pos h hsize hm (by cases o.symbolKind <;> simp [nameToken])
        have := k2 (hpl.mono (by simp only at hin ⊢; omega))
        simp only at hin
        have hl := length_le_utf8Len text
        rw [offsetToLspPos_eq (by simp only; omega) hsize] at k1
        rw [← Option.some.inj k1] at this
        exact this
      · rw [e2]
        simp only [Span.len]
        simp only at hb
        rw [hb, hon]
        omega
    · left
      rw [e4, e2, hw]

/-! ### Hints -/

omit [Unicode] in
theorem predsOf_ren {blocks : List BasicBlock} {b : Str} {b' : Str}
    (hb : ∀ blk ∈ blocks, ∀ i ∈ blk.instructions, ∀ t ∈ i.basicBlockRefs, ((G.name .ident t).1 = b' ↔ t.1 = b)) (hu : Untouched G blocks) :
    predsOf (blocks.map G.block) b' = (predsOf blocks b).map (G.name .ident) := by
  unfold predsOf
  rw [List.filterMap_map, List.map_filterMap]
  refine filterMap_congr' fun blk hblk => ?_
  have : branchesToB (G.block blk) b' = branchesToB blk b := by
    rw [Bool.eq_iff_iff]
    unfold branchesToB
    simp only [Renaming.block, List.any_map, List.any_eq_true, Function.comp, Bool.and_eq_true, decide_eq_true_eq]
    constructor
    · rintro ⟨i, hi, h1, h2⟩
      rw [isBranching_ren (hu blk hblk i hi)] at h1
      refine ⟨i, hi, h1, ?_⟩
      obtain ⟨x, hx, e⟩ := List.mem_map.mp h2
      obtain ⟨t, ht, rfl⟩ := List.mem_map.mp (show x ∈ i.basicBlockRefs.map (G.name .ident) from hx)
      exact List.mem_map.mpr ⟨t, ht, (hb blk hblk i hi t ht).mp e⟩
    · rintro ⟨i, hi, h1, h2⟩
      rw [← isBranching_ren (hu blk hblk i hi)] at h1
      refine ⟨i, hi, h1, ?_⟩
      obtain ⟨t, ht, e⟩ := List.mem_map.mp h2
      refine List.mem_map.mpr ⟨G.name .ident t, ?_, (hb blk hblk i hi t ht).mpr e⟩
      exact List.mem_map_of_mem (f := G.name .ident) ht
  simp only [Function.comp, this]
  split <;> rfl

/-- Positions stay on their lines. -/
theorem offsetToLspPos_lines (hG : Carried G text text' res res') (h : parseFromStr text = .ok res) (h' : parseFromStr text' = .ok res')
    (hsize : text.length < 2 ^ 32) (hsize' : text'.length < 2 ^ 32) {p : Nat} (hp : p ≤ text.length) :
    ∃ q q', offsetToLspPos text p = some q ∧ offsetToLspPos text' (G.f p) = some q' ∧ q'.line = q.line := by
  have hl := length_le_utf8Len text
  have hl' := length_le_utf8Len text'
  have hi := hG.inside p hp
  exact ⟨_, _, offsetToLspPos_eq (by omega) hsize, offsetToLspPos_eq (by omega) hsize', hG.lines h h' p hp⟩

omit [Unicode] in
theorem incomingParts_kept {S : LabelPart → LabelPart → Prop} {uri uri' : Str} (hsep : ∀ v, S { value := v } { value := v }) :
    ∀ {preds : List (Spanned Str)} (k : Nat), (∀ q ∈ preds, ∃ r r', rangeToLsp text q.2 = some r ∧ rangeToLsp text' (G.span q.2) = some r' ∧
      S { value := q.1, location := some { uri := uri, range := r } } { value := (G.name .ident q).1, location := some { uri := uri', range := r' } }) →
    Each S (incomingParts uri text k preds) (incomingParts uri' text' k (preds.map (G.name .ident)))
  | [], _, _ => .nil
  | q :: preds, k, hq => by
    obtain ⟨r, r', h1, h2, h3⟩ := hq q (by simp)
    obtain ⟨n, sp⟩ := q
    rw [List.map_cons, show G.name .ident (n, sp) = ((G.name .ident (n, sp)).1, G.span sp) from rfl, incomingParts, incomingParts]
    simp only at h1 h2
    rw [h1, h2]
    exact .cons (hsep _) (.cons h3 (incomingParts_kept hsep _ fun q hq' => hq q (by simp [hq'])))

/-- The hints of two documents, one per body, correspond. -/
abbrev HintKept (text : Str) (res : ParserResult) (R : SymbolOccurrence → Str → Prop) (uri uri' : Str) (h h' : InlayHint) : Prop :=
  h'.position.line = h.position.line ∧ Each (PartKept text res R uri uri') h.label h'.label

theorem partKept_link (hG : Carried G text text' res res') (hm : Keeps res res' R G.occ) (h : parseFromStr text = .ok res) (h' : parseFromStr text' = .ok res')
    (hsize : text.length < 2 ^ 32) (hsize' : text'.length < 2 ^ 32) {o : SymbolOccurrence} (ho : Occurs res.tokens res.stmts o) (uri uri' : Str) :
    ∃ r r', rangeToLsp text o.span = some r ∧ rangeToLsp text' (G.span o.span) = some r' ∧
      PartKept text res R uri uri' { value := o.name, location := some { uri := uri, range := r } }
        { value := (G.occ o).name, location := some { uri := uri', range := r' } } := by
  have ht := occurs_token h ho
  have hin := (C02_token_spans h).1 _ ht
  rw [occTok_span] at hin
  simp only [Inside] at hin
  obtain ⟨r, r', e, e', hsl⟩ := rangeToLsp_kept hG h h' hsize hsize' (sp := o.span) (by omega) (by omega)
  refine ⟨r, r', e, e', .inr ⟨o, r, r', ho, rfl, hm.calledAfter ho, rfl, rfl, rfl, rfl, hsl, ?_⟩⟩
  intro hp
  obtain ⟨r2, k1, k2⟩ := tokens_range h hsize ht ht (occTok_plain o).1 (occTok_plain o).2 (by rw [occTok_span]; omega)
  rw [occTok_span] at k1 k2
  rw [show (⟨o.span.start, o.span.stop⟩ : Span) = o.span from rfl] at k1 k2
  rw [e] at k1
  cases k1
  exact k2 hp

section
variable {ix ix' : HIRIndex} {uri uri' : Str}

theorem bodies_each (hG : Carried G text text' res res') (h : parseFromStr text = .ok res) (h' : parseFromStr text' = .ok res')
    (hix : createIndex text res.tokens res.stmts = .ok ix) (hix' : createIndex text' res'.tokens res'.stmts = .ok ix') :
    Each (fun b b' => b ∈ ix.functionBodies ∧ b' ∈ ix'.functionBodies ∧
      (∃ j : Nat, (docFuncs res.stmts)[j]? = some (b.name, b.completeRange, b.basicBlocks)) ∧
      b'.name = G.name .globalName b.name ∧ b'.completeRange = G.span b.completeRange ∧ b'.basicBlocks = b.basicBlocks.map G.block)
      ix.functionBodies ix'.functionBodies := by
  have hbk := bodies_kept hG h h' hix hix'
  have hlen : ix.functionBodies.length = ix'.functionBodies.length := by
    have := congrArg List.length hbk
    simpa using this.symm
  refine each_of_get hlen ?_
  intro i b b' hb hb'
  have := congrArg (·[i]?) hbk
  simp only [List.getElem?_map, hb, hb', Option.map_some, Option.some.injEq, Prod.mk.injEq] at this
  refine ⟨List.mem_of_getElem? hb, List.mem_of_getElem? hb', ⟨i, ?_⟩, this.1, this.2.1, this.2.2⟩
  rw [← bodies_eq h hix, List.getElem?_map, hb]
  rfl

theorem incomingHints_kept (hG : Carried G text text' res res') (hm : Keeps res res' R G.occ) (h : parseFromStr text = .ok res) (h' : parseFromStr text' = .ok res')
    (hsize : text.length < 2 ^ 32) (hsize' : text'.length < 2 ^ 32) {doc doc' : AnalyzedDocument} (hr : doc.rope = text) (hr' : doc'.rope = text')
    (hix : createIndex text res.tokens res.stmts = .ok doc.index) (hix' : createIndex text' res'.tokens res'.stmts = .ok doc'.index) :
    Each (HintKept text res R uri uri') (incomingHints uri doc) (incomingHints uri' doc') := by
  unfold incomingHints
  refine each_flatMap (HyperIR.Each.imp (bodies_each hG h h' hix hix') ?_)
  rintro b _ b' _ ⟨hb, hb', ⟨j, hj⟩, _, _, hbl⟩
  rw [hbl, List.filterMap_map]
  refine each_filterMap_both (each_of_get rfl ?_)
  intro i bb bb2 h1 h2
  rw [h1] at h2
  cases h2
  have hbb := List.mem_of_getElem? h1
  have hf := List.mem_of_getElem? hj
  have hnd := labels_nodup h hf
  have hf' : (b'.name, b'.completeRange, b'.basicBlocks) ∈ docFuncs res'.stmts := bodies_mem h' hix' hb'
  have hnd' := labels_nodup h' hf'
  have hlab := docFuncs_labels 0 j hj
  simp only [Nat.zero_add] at hlab
  simp only [Function.comp]
  unfold incomingHint
  cases hl : bb.label with
  | none =>
    left
    simp only [Renaming.block, hl, Option.map_none]
    exact ⟨trivial, trivial⟩
  | some lbl =>
    simp only [Renaming.block, hl, Option.map_some]
    have hod : Occurs res.tokens res.stmts (Spec.occ .label .def_ (some j) lbl) := .inl ((hlab bb hbb).1 lbl hl)
    have hnm : ∀ ud (x : Spanned Str), (G.name .ident x).1 = (G.occ (Spec.occ .label ud (some j) x)).name := by
      intro ud x
      rw [← occ_occ (mk := .ident) (fun _ => rfl)]
      rfl
    have hp : predsOf b'.basicBlocks (G.name .ident lbl).1 = (predsOf b.basicBlocks lbl.1).map (G.name .ident) := by
      rw [hbl]
      refine predsOf_ren ?_ (hG.untouched hf)
      intro blk hblk ins hins t ht
      have hou : Occurs res.tokens res.stmts (Spec.occ .label .use (some j) t) := .inl ((hlab blk hblk).2 ins hins t ht)
      have := (hm.same _ _ hou hod).1
      rw [hnm .use t, hnm .def_ lbl]
      exact ⟨fun e => (this.mp ⟨rfl, rfl, e⟩).2.2, fun e => (this.mpr ⟨rfl, rfl, e⟩).2.2⟩
    have e1 := incoming_preds hnd lbl.1
    have e2 := incoming_preds hnd' (G.name .ident lbl).1
    simp only at e1 e2
    rw [bodies_incoming h hix b hb, bodies_incoming h' hix' b' hb', e1, e2, hp]
    by_cases hnil : predsOf b.basicBlocks lbl.1 = []
    · left
      simp [hnil]
    · right
      rw [if_neg hnil, if_neg (by simpa using hnil)]
      simp only
      obtain ⟨kw, sig, body, hmem, e⟩ := docFuncs_mem hf
      simp only [Prod.mk.injEq] at e
      obtain ⟨colon, hc, htok⟩ := (block_tokens h hmem (by rw [← e.2.2]; exact hbb)).1.colon lbl hl
      have hin := (C02_token_spans h).1 _ htok
      simp only [Inside] at hin
      obtain ⟨q, q', q1, q2, q3⟩ := offsetToLspPos_lines hG h h' hsize hsize' hin.2
      simp only [hc, Option.map_some, hr, hr']
      rw [q1, show (G.span colon).stop = G.f colon.stop from rfl, q2]
      refine ⟨_, _, rfl, rfl, q3, ?_⟩
      refine incomingParts_kept (fun v => .inl ⟨rfl, rfl⟩) 0 ?_
      intro x hx
      unfold predsOf at hx
      obtain ⟨blk, hblk, hx⟩ := List.mem_filterMap.mp hx
      split at hx
      · have hox : Occurs res.tokens res.stmts (Spec.occ .label .def_ (some j) x) := .inl ((hlab blk hblk).1 x hx)
        have := partKept_link hG hm h h' hsize hsize' hox uri uri'
        rw [hnm .def_ x]
        exact this
      · cases hx

theorem endHints_kept (hG : Carried G text text' res res') (hm : Keeps res res' R G.occ) (h : parseFromStr text = .ok res) (h' : parseFromStr text' = .ok res')
    (hsize : text.length < 2 ^ 32) (hsize' : text'.length < 2 ^ 32) {doc doc' : AnalyzedDocument} (hr : doc.rope = text) (hr' : doc'.rope = text')
    (hix : createIndex text res.tokens res.stmts = .ok doc.index) (hix' : createIndex text' res'.tokens res'.stmts = .ok doc'.index) :
    Each (HintKept text res R uri uri') (endHints uri doc) (endHints uri' doc') := by
  unfold endHints
  refine each_filterMap_both (HyperIR.Each.imp (bodies_each hG h h' hix hix') ?_)
  rintro b _ b' _ ⟨hb, hb', ⟨j, hj⟩, hn, hc, _⟩
  have hf := List.mem_of_getElem? hj
  have hin := (func_inside h hf).1
  have ho : Occurs res.tokens res.stmts (Spec.occ .function .def_ none b.name) := .inl (docFuncs_occurs hf 0)
  obtain ⟨q, q', q1, q2, q3⟩ := offsetToLspPos_lines hG h h' hsize hsize' hin.2
  obtain ⟨r, r', r1, r2, r3⟩ := partKept_link hG hm h h' hsize hsize' ho uri uri'
  right
  simp only at q1 q2
  have r1' : rangeToLsp text b.name.2 = some r := r1
  have r2' : rangeToLsp text' (G.span b.name.2) = some r' := r2
  rw [hn, hc, hr, hr', q1, show (G.span b.completeRange).stop = G.f b.completeRange.stop from rfl, q2]
  simp only
  rw [r1', show (G.name .globalName b.name).2 = G.span b.name.2 from rfl, r2']
  refine ⟨_, _, rfl, rfl, q3, .cons ?_ .nil⟩
  rw [show (G.name .globalName b.name).1 = (G.occ (Spec.occ .function .def_ none b.name)).name by
    rw [← occ_occ (mk := .globalName) (fun _ => rfl)]
    rfl]
  exact r3

end

/-! ### Backtraces -/

/-- The text of an annotation goes from a token to the same or a later one. -/
theorem annotation_ends (h : parseFromStr text = .ok res) {n : Spanned Str} {d : List Tok} (hs : .dbgAnnotation n d ∈ res.stmts) {f l : Tok}
    (hf : d.head? = some f) (hl : d.getLast? = some l) : f.2.start < l.2.stop ∧ l.2.stop ≤ text.length := by
  have hmem : ∀ t ∈ d, Inside text.length t.2 := fun t ht =>
    (C02_token_spans h).1 t (C07_tree_mentions_tokens h _ hs t (by simp [stmtMentions, ht])).1
  have hsub : d.Sublist res.tokens := by
    refine List.Sublist.trans ?_ (C08_source_order h).1
    have h1 : (stmtMentions (.dbgAnnotation n d)).Sublist (mentions res.stmts) := by
      obtain ⟨a, b, e⟩ := List.append_of_mem hs
      rw [e, mentions, List.flatMap_append, List.flatMap_cons]
      exact (List.sublist_append_left _ _).trans (List.sublist_append_right _ _)
    exact (List.sublist_cons_self _ _).trans h1
  have hw := (tokens_wellOrdered h).sublist hsub
  cases d with
  | nil => cases hf
  | cons f' ds =>
    cases hf
    have hlm := List.mem_of_getLast? hl
    refine ⟨?_, (hmem l hlm).2⟩
    rcases List.mem_cons.mp hlm with rfl | hm
    · exact (hmem _ (by simp)).1
    · have h1 := WellOrdered.le (l := [f]) (l' := ds) hw (t := f) (by simp) hm
      have h2 := (hmem f (by simp)).1
      have h3 := (hmem l (by simp [hm])).1
      omega

/-- Debug references are occurrences. -/
theorem debugRef_occurs {n : Str} {sp : Span} (ht : (Token.debugRef n, sp) ∈ res.tokens) :
    ∃ o, Occurs res.tokens res.stmts o ∧ o.symbolKind = .dbgAnnotation ∧ o.funcBodyId = none ∧ o.name = n ∧ o.span = sp := by
  refine Classical.byContradiction fun hno => ?_
  let u : SymbolOccurrence := Spec.occ .dbgAnnotation .use none (n, sp)
  have hu : tokenUse (fun n => decide (IsFunction res.stmts n)) (functionAt res.stmts) (.debugRef n, sp) = some u := rfl
  by_cases hd : ∃ o' ∈ docOccs 0 res.stmts, SameSymbol o' u ∧ o'.span = u.span
  · obtain ⟨o', h1, h2, h3⟩ := hd
    exact hno ⟨o', .inl h1, h2.1, h2.2.1, h2.2.2, h3⟩
  · exact hno ⟨u, .inr ⟨⟨_, ht, hu⟩, hd⟩, rfl, rfl, rfl, rfl⟩

theorem annotationValue_kept (hG : Carried G text text' res res') (hN : Named res R G) (hun : AnnotationsUntouched res R) (h : parseFromStr text = .ok res)
    {n : Spanned Str} {d : List Tok} (hs : .dbgAnnotation n d ∈ res.stmts) : annotationValue text' (d.map G.tok) = annotationValue text d := by
  have hsp : ∀ t : Tok, (G.tok t).2 = G.span t.2 := by
    intro t
    unfold Renaming.tok renTok Renaming.span
    cases G.ren t <;> rfl
  unfold annotationValue
  rw [List.head?_map, List.getLast?_map]
  cases hf : d.head? with
  | none => rfl
  | some f =>
    cases hl : d.getLast? with
    | none => rfl
    | some l =>
      simp only [Option.map_some, hsp, Renaming.span]
      obtain ⟨k1, k2⟩ := annotation_ends h hs hf hl
      obtain ⟨cs, h1, h2, h3, _⟩ := hG.changes
      have := replaced_slice h1 (by
        intro c hc
        obtain ⟨t, ht, v, hv, rfl⟩ := h3 c hc
        have := hG.changed t ht v hv
        exact ⟨by simpa [PlainTo] using this.1, this.2⟩) (by
        intro c hc
        obtain ⟨t, ht, v, hv, rfl⟩ := h3 c hc
        exact ((C02_token_spans h).1 _ ht).1) 0 (Nat.zero_le _) k1 (by
        intro c hc
        obtain ⟨t, ht, v, hv, rfl⟩ := h3 c hc
        obtain ⟨o, ho, hr, e⟩ := hN t ht v hv
        have := hun n d f l hs hf hl o v ho hr
        rw [← e]
        exact this)
      simp only [Nat.sub_zero] at this
      rw [h2, this]

theorem lastText_kept (hG : Carried G text text' res res') (hN : Named res R G) (hm : Keeps res res' R G.occ) (hun : AnnotationsUntouched res R)
    (h : parseFromStr text = .ok res) {d : Spanned Str} (hd : (Token.debugRef d.1, d.2) ∈ res.tokens) : ∀ {ss : List Statement}, (∀ s ∈ ss, s ∈ res.stmts) →
      lastText text' (G.name .debugRef d).1 (ss.map G.stmt) = lastText text d.1 ss
  | [], _ => rfl
  | s :: ss, hsub => by
    rw [List.map_cons, lastText, lastText, lastText_kept hG hN hm hun h hd fun s hs => hsub s (by simp [hs])]
    congr 1
    cases s with
    | dbgAnnotation n x =>
      have hs := hsub _ (List.mem_cons_self ..)
      simp only [Renaming.stmt, ownText]
      rw [annotationValue_kept hG hN hun h hs]
      obtain ⟨o1, ho1, k1, f1, n1, s1⟩ := debugRef_occurs hd
      have ho2 : Occurs res.tokens res.stmts (Spec.occ .dbgAnnotation .def_ none n) := by
        left
        obtain ⟨a, b, e⟩ := List.append_of_mem hs
        rw [e]
        have : ∀ (a : List Statement) (i : Nat), Spec.occ .dbgAnnotation .def_ none n ∈ docOccs i (a ++ .dbgAnnotation n x :: b) := by
          intro a
          induction a with
          | nil => intro i; simp [docOccs, stmtOccs]
          | cons s a ih => intro i; simp only [List.cons_append, docOccs, List.mem_append]; exact .inr (ih _)
        exact this a 0
      have key := (hm.same _ _ ho2 ho1).1
      have e1 : (G.name .debugRef n).1 = (G.occ (Spec.occ .dbgAnnotation .def_ none n)).name := by
        rw [← occ_occ (mk := .debugRef) (fun _ => rfl)]
        rfl
      have e2 : (G.name .debugRef d).1 = (G.occ o1).name := by
        simp only [Renaming.name, Renaming.occ, k1, nameToken, n1, s1]
      have : (G.name .debugRef n).1 = (G.name .debugRef d).1 ↔ n.1 = d.1 := by
        rw [e1, e2]
        constructor
        · intro e
          have := (key.mp ⟨k1.symm, f1.symm, e⟩).2.2
          rw [n1] at this
          exact this
        · intro e
          exact (key.mpr ⟨k1.symm, f1.symm, by rw [n1]; exact e⟩).2.2
      simp only [this]
    | _ => rfl

theorem inlayHintForBacktrace_pos (p p' : Pos) (frames : List Frame) :
    (inlayHintForBacktrace p frames = .panic ∧ inlayHintForBacktrace p' frames = .panic) ∨
    ∃ label, inlayHintForBacktrace p frames = .ok ⟨p, label⟩ ∧ inlayHintForBacktrace p' frames = .ok ⟨p', label⟩ ∧ ∀ x ∈ label, x.location = none := by
  unfold inlayHintForBacktrace
  simp only
  cases identifyRelevantFrames frames with
  | none => exact .inr ⟨_, rfl, rfl, by simp⟩
  | some i =>
    simp only
    cases frames[i]? with
    | none => exact .inl ⟨rfl, rfl⟩
    | some f =>
      simp only
      cases shortenName f.symbol 50 with
      | panic => exact .inl ⟨rfl, rfl⟩
      | ok s => exact .inr ⟨_, rfl, rfl, by simp⟩

theorem backtraceHints_kept (hG : Carried G text text' res res') (hN : Named res R G) (hm : Keeps res res' R G.occ) (hun : AnnotationsUntouched res R)
    (h : parseFromStr text = .ok res) (h' : parseFromStr text' = .ok res') (hsize : text.length < 2 ^ 32) (hsize' : text'.length < 2 ^ 32)
    {doc doc' : AnalyzedDocument} (hr : doc.rope = text) (hr' : doc'.rope = text') (hss : doc.stmts = res.stmts) (hss' : doc'.stmts = res'.stmts)
    (hix : createIndex text res.tokens res.stmts = .ok doc.index) (hix' : createIndex text' res'.tokens res'.stmts = .ok doc'.index)
    {env env' : Env} (hfs : env'.fs = env.fs) (hj : env'.json = env.json) (roots : List Url) (uri uri' : Str) :
    (backtraceHints env roots doc = .panic ∧ backtraceHints env' roots doc' = .panic) ∨
    ∃ x y, backtraceHints env roots doc = .ok x ∧ backtraceHints env' roots doc' = .ok y ∧ Each (HintKept text res R uri uri') x y := by
  unfold backtraceHints
  rw [hss, hss', hG.stmts, allInstructions_ren]
  refine each_collectO (each_map_self ?_)
  intro i hi
  rw [allInstructions_eq] at hi
  unfold backtraceHint
  cases hd : i.dbgRef with
  | none =>
    right
    simp only [Renaming.instr, hd, Option.map_none]
    exact ⟨_, _, rfl, rfl, .nil⟩
  | some d =>
    have ht := instr_dbgRef h i hi d hd
    simp only [Renaming.instr, hd, Option.map_some]
    rw [createIndex_vals hix, createIndex_vals hix', hG.stmts, lastText_kept hG hN hm hun h ht fun _ hs => hs, hj, hfs]
    cases lastText text d.1 res.stmts with
    | none => exact .inr ⟨_, _, rfl, rfl, .nil⟩
    | some v =>
      simp only
      cases env.json v with
      | none => exact .inr ⟨_, _, rfl, rfl, .nil⟩
      | some j =>
        simp only
        cases parseBacktraceFromJson env.fs roots j with
        | panic => exact .inl ⟨rfl, rfl⟩
        | ok fr =>
          cases fr with
          | none => exact .inr ⟨_, _, rfl, rfl, .nil⟩
          | some frames =>
            simp only
            have hin := (C02_token_spans h).1 _ ht
            simp only [Inside] at hin
            obtain ⟨q, q', q1, q2, q3⟩ := offsetToLspPos_lines hG h h' hsize hsize' hin.2
            rw [hr, hr', q1, show (G.name .debugRef d).2.stop = G.f d.2.stop from rfl, q2]
            simp only
            rcases inlayHintForBacktrace_pos q q' frames with ⟨e1, e2⟩ | ⟨label, e1, e2, e3⟩
            · rw [e1, e2]; exact .inl ⟨rfl, rfl⟩
            · rw [e1, e2]
              right
              refine ⟨_, _, rfl, rfl, .cons ⟨q3, ?_⟩ .nil⟩
              have := each_map_self (S := PartKept text res R uri uri') (g := fun x : LabelPart => x) (as := label) fun x hx => .inl ⟨rfl, e3 x hx⟩
              simpa using this

/-- Renames keep the hints. -/
theorem hints_kept (hG : Carried G text text' res res') (hN : Named res R G) (hm : Keeps res res' R G.occ) (hun : AnnotationsUntouched res R)
    (h : parseFromStr text = .ok res) (h' : parseFromStr text' = .ok res') (hsize : text.length < 2 ^ 32) (hsize' : text'.length < 2 ^ 32)
    {st st' : ServerState} {uri uri' : Str} (hopen : Opened st uri text) (hopen' : Opened st' uri' text') {env env' : Env} (hfs : env'.fs = env.fs)
    (hj : env'.json = env.json) (hroots : st'.roots = st.roots) :
    (inlayHint env st uri = .panic ∧ inlayHint env' st' uri' = .panic) ∨
    ∃ hints hints', inlayHint env st uri = .ok (some hints) ∧ inlayHint env' st' uri' = .ok (some hints') ∧
      HintsKept text res R uri uri' hints hints' := by
  obtain ⟨doc, hst, hr, hss, hix⟩ := opened_inv hopen h
  obtain ⟨doc', hst', hr', hss', hix'⟩ := opened_inv hopen' h'
  unfold inlayHint
  rw [hst, hst', hroots]
  simp only
  rcases backtraceHints_kept hG hN hm hun h h' hsize hsize' hr hr' hss hss' hix hix' hfs hj st.roots uri uri' with ⟨e1, e2⟩ | ⟨x, y, e1, e2, e3⟩
  · rw [e1, e2]; exact .inl ⟨rfl, rfl⟩
  · rw [e1, e2]
    right
    exact ⟨_, _, rfl, rfl, each_append' (each_append' (incomingHints_kept hG hm h h' hsize hsize' hr hr' hix hix') e3)
      (endHints_kept hG hm h h' hsize hsize' hr hr' hix hix')⟩

end
end HyperIR
