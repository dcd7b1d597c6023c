import Verif.Props.ShiftText
import Verif.Proofs.KeptLines

/- Renaming twice: the text after the second renames is the original text with the new names of both. -/

namespace HyperIR
open Spec

/-! ### Changes after changes -/

theorem replaced_behind {o : Nat} {text text' p r : Str} {cs : List (Span × Str)} (h : Replaced o text cs text') (hc : ∀ c ∈ cs, o + p.length ≤ c.1.start)
    (ht : text = p ++ r) : ∃ r', text' = p ++ r' ∧ Replaced (o + p.length) r cs r' := by
  cases h with
  | done => exact ⟨r, ht, .done⟩
  | @change o a w rest cs rest' v h =>
    have hle := hc _ (List.mem_cons_self ..)
    simp only at hle
    rw [List.append_assoc] at ht
    obtain ⟨a2, rfl, h2⟩ : ∃ a2, a = p ++ a2 ∧ r = a2 ++ (w ++ rest) := by
      rcases List.append_eq_append_iff.mp ht with ⟨x, hx, hy⟩ | ⟨x, hx, hy⟩
      · have hl := congrArg List.length hx
        rw [List.length_append] at hl
        have : x = [] := List.length_eq_zero_iff.mp (by omega)
        subst this
        exact ⟨[], by simpa using hx.symm, by simpa using hy.symm⟩
      · exact ⟨x, hx, hy⟩
    subst h2
    refine ⟨a2 ++ v ++ rest', by simp, ?_⟩
    rw [← List.append_assoc]
    refine replaced_change ?_ ?_ ?_ h <;> simp <;> omega

theorem replaced_behind' {o : Nat} {text text' p r' : Str} {cs : List (Span × Str)} (h : Replaced o text cs text') (hc : ∀ c ∈ cs, o + p.length ≤ c.1.start)
    (ht : text' = p ++ r') : ∃ r, text = p ++ r ∧ Replaced (o + p.length) r cs r' := by
  cases h with
  | done => exact ⟨r', ht, .done⟩
  | @change o a w rest cs rest' v h =>
    have hle := hc _ (List.mem_cons_self ..)
    simp only at hle
    rw [List.append_assoc] at ht
    obtain ⟨a2, rfl, h2⟩ : ∃ a2, a = p ++ a2 ∧ r' = a2 ++ (v ++ rest') := by
      rcases List.append_eq_append_iff.mp ht with ⟨x, hx, hy⟩ | ⟨x, hx, hy⟩
      · have hl := congrArg List.length hx
        rw [List.length_append] at hl
        have : x = [] := List.length_eq_zero_iff.mp (by omega)
        subst this
        exact ⟨[], by simpa using hx.symm, by simpa using hy.symm⟩
      · exact ⟨x, hx, hy⟩
    subst h2
    refine ⟨a2 ++ w ++ rest, by simp, ?_⟩
    rw [← List.append_assoc]
    refine replaced_change ?_ ?_ ?_ h <;> simp <;> omega

theorem replaced_cons {o : Nat} {text text' : Str} {sp : Span} {v : Str} {cs : List (Span × Str)} (h : Replaced o text ((sp, v) :: cs) text') :
    ∃ a w rest rest', text = a ++ w ++ rest ∧ text' = a ++ v ++ rest' ∧ sp.start = o + a.length ∧ sp.stop = o + a.length + w.length ∧
      Replaced sp.stop rest cs rest' := by
  cases h with
  | change h => exact ⟨_, _, _, _, rfl, rfl, rfl, rfl, h⟩

theorem renChanges_none {r : Spanned Token → Option Str} {t : Spanned Token} {l : List (Spanned Token)} (h : r t = none) :
    renChanges r (t :: l) = renChanges r l := by
  unfold renChanges
  rw [List.filterMap_cons, h]
  rfl

theorem renChanges_some {r : Spanned Token → Option Str} {t : Spanned Token} {l : List (Spanned Token)} {v : Str} (h : r t = some v) :
    renChanges r (t :: l) = (t.2, v) :: renChanges r l := by
  unfold renChanges
  rw [List.filterMap_cons, h]
  rfl

/-- Changes of tokens, then changes of the changed tokens: together they are changes of the tokens. -/
theorem replaced_then {r1 r2 : Spanned Token → Option Str} : ∀ {toks : List (Spanned Token)} {o o' : Nat} {text text1 text2 : Str},
    WellOrdered toks → (∀ t ∈ toks, o ≤ t.2.start) → Replaced o text (renChanges r1 toks) text1 →
    Replaced o' text1 (renChanges r2 (toks.map (renTok r1 (movePos o o' (renChanges r1 toks))))) text2 →
    Replaced o text (renChanges (fun t => (r2 (renTok r1 (movePos o o' (renChanges r1 toks)) t)).or (r1 t)) toks) text2
  | [], o, o', text, text1, text2, _, _, h1, h2 => by
    simp only [renChanges, List.map_nil, List.filterMap_nil] at *
    cases h1
    cases h2
    exact .done
  | t :: ts, o, o', text, text1, text2, hw, ho, h1, h2 => by
    have hpos := hw.2 t (by simp)
    have hot := ho t (by simp)
    have hord : ∀ t' ∈ ts, t.2.stop ≤ t'.2.start ∧ t'.2.start < t'.2.stop := by
      intro t' ht'
      have := hw.1
      unfold InOrder at this
      rw [List.map_cons, List.pairwise_cons] at this
      exact ⟨this.1 _ (List.mem_map_of_mem ht'), hw.2 t' (by simp [ht'])⟩
    have hw' : WellOrdered ts := hw.sublist (List.sublist_cons_self ..)
    have hcs : ∀ c ∈ renChanges r1 ts, t.2.stop ≤ c.1.start ∧ c.1.start < c.1.stop := by
      intro c hc
      obtain ⟨t', ht', he⟩ := List.mem_filterMap.mp hc
      obtain ⟨v, _, rfl⟩ := Option.map_eq_some_iff.mp he
      exact hord t' ht'
    -- the rest after an offset
    have step : ∀ {f g : Nat → Nat}, (∀ p, t.2.stop ≤ p → f p = g p) →
        (renChanges r2 (ts.map (renTok r1 f)) = renChanges r2 (ts.map (renTok r1 g))) ∧
        renChanges (fun t => (r2 (renTok r1 f t)).or (r1 t)) ts = renChanges (fun t => (r2 (renTok r1 g t)).or (r1 t)) ts := by
      intro f g hfg
      have key : ∀ t' ∈ ts, renTok r1 f t' = renTok r1 g t' := by
        intro t' ht'
        have := hord t' ht'
        exact renTok_congr (hfg _ (by omega)) (hfg _ (by omega))
      constructor
      · rw [List.map_congr_left key]
      · unfold renChanges
        exact filterMap_congr' fun t' ht' => by simp only [key t' ht']
    cases e1 : r1 t with
    | none =>
      have hch : renChanges r1 (t :: ts) = renChanges r1 ts := renChanges_none e1
      rw [hch] at h1 h2 ⊢
      cases e2 : r2 (renTok r1 (movePos o o' (renChanges r1 ts)) t) with
      | none =>
        rw [renChanges_none (by simp only [e1, e2, Option.or_none])]
        refine replaced_then hw' (fun t' ht' => ho t' (by simp [ht'])) h1 ?_
        rw [List.map_cons, renChanges_none e2] at h2
        exact h2
      | some v =>
        have hsp : (renTok r1 (movePos o o' (renChanges r1 ts)) t).2 = { start := o' + (t.2.start - o), stop := o' + (t.2.stop - o) } := by
          unfold renTok
          simp only
          rw [movePos_before (fun c hc => by have := hcs c hc; omega), movePos_before (fun c hc => by have := hcs c hc; omega)]
        have hc2 : renChanges r2 ((t :: ts).map (renTok r1 (movePos o o' (renChanges r1 ts)))) =
            ({ start := o' + (t.2.start - o), stop := o' + (t.2.stop - o) }, v) :: renChanges r2 (ts.map (renTok r1 (movePos o o' (renChanges r1 ts)))) := by
          rw [List.map_cons, renChanges_some e2, hsp]
        have hc3 : renChanges (fun t => (r2 (renTok r1 (movePos o o' (renChanges r1 ts)) t)).or (r1 t)) (t :: ts) =
            (t.2, v) :: renChanges (fun t => (r2 (renTok r1 (movePos o o' (renChanges r1 ts)) t)).or (r1 t)) ts := by
          rw [renChanges_some (v := v) (by simp only [e2, Option.some_or])]
        rw [hc2] at h2
        rw [hc3]
        obtain ⟨a, w, rest1, rest2, rfl, rfl, p1, p2, h3⟩ := replaced_cons h2
        simp only at p1 p2 h3
        obtain ⟨rest, rfl, h4⟩ := replaced_behind' (p := a ++ w) h1 (fun c hc => by have := hcs c hc; rw [List.length_append]; omega) rfl
        refine replaced_change (q := o + (a ++ w).length) (by omega) (by omega) (by rw [List.length_append]; omega) ?_
        have hmv : ∀ p, t.2.stop ≤ p → movePos o o' (renChanges r1 ts) p = movePos (o + (a ++ w).length) (o' + (a ++ w).length) (renChanges r1 ts) p := by
          intro p hp
          rw [List.length_append]
          exact (movePos_shift (by omega) (fun c hc => by have := hcs c hc; omega)).symm
        rw [(step hmv).2]
        rw [(step hmv).1] at h3
        refine replaced_then hw' (fun t' ht' => by have := hord t' ht'; rw [List.length_append]; omega) h4 ?_
        rw [show o' + (a ++ w).length = o' + (t.2.stop - o) by rw [List.length_append]; omega] at h3 ⊢
        exact h3
    | some v1 =>
      have hch : renChanges r1 (t :: ts) = (t.2, v1) :: renChanges r1 ts := renChanges_some e1
      rw [hch] at h1 h2 ⊢
      obtain ⟨a, w, rest, rest1, rfl, rfl, p1, p2, h3⟩ := replaced_cons h1
      have hmv : ∀ p, t.2.stop ≤ p → movePos o o' ((t.2, v1) :: renChanges r1 ts) p = movePos t.2.stop (o' + (a ++ v1).length) (renChanges r1 ts) p := by
        intro p hp
        simp only [movePos]
        rw [if_neg (by omega), List.length_append, show o' + (t.2.start - o) + v1.length = o' + (a.length + v1.length) by omega]
      have hsp : (renTok r1 (movePos o o' ((t.2, v1) :: renChanges r1 ts)) t).2 = { start := o' + a.length, stop := o' + (a ++ v1).length } := by
        unfold renTok
        simp only
        rw [hmv _ (Nat.le_refl _), movePos_before (o := t.2.stop) (fun c hc => by have := hcs c hc; omega)]
        simp only [movePos]
        rw [if_pos (by omega)]
        congr 1 <;> omega
      have hnext : ∀ c ∈ renChanges r2 (ts.map (renTok r1 (movePos o o' ((t.2, v1) :: renChanges r1 ts)))), o' + (a ++ v1).length ≤ c.1.start := by
        intro c hc
        obtain ⟨t', ht', he⟩ := List.mem_filterMap.mp hc
        obtain ⟨v, _, rfl⟩ := Option.map_eq_some_iff.mp he
        obtain ⟨t2, ht2, rfl⟩ := List.mem_map.mp ht'
        have := hord t2 ht2
        simp only [renTok]
        rw [hmv _ (by omega)]
        exact movePos_ge ..
      rw [(step hmv).1] at hnext
      cases e2 : r2 (renTok r1 (movePos o o' ((t.2, v1) :: renChanges r1 ts)) t) with
      | none =>
        have hc2 : renChanges r2 ((t :: ts).map (renTok r1 (movePos o o' ((t.2, v1) :: renChanges r1 ts)))) =
            renChanges r2 (ts.map (renTok r1 (movePos o o' ((t.2, v1) :: renChanges r1 ts)))) := by
          rw [List.map_cons, renChanges_none e2]
        have hc3 : renChanges (fun x => (r2 (renTok r1 (movePos o o' ((t.2, v1) :: renChanges r1 ts)) x)).or (r1 x)) (t :: ts) =
            (t.2, v1) :: renChanges (fun x => (r2 (renTok r1 (movePos o o' ((t.2, v1) :: renChanges r1 ts)) x)).or (r1 x)) ts := by
          rw [renChanges_some (v := v1) (by simp only [e2, e1, Option.none_or])]
        rw [hc2, (step hmv).1] at h2
        rw [hc3, (step hmv).2]
        obtain ⟨rest2, rfl, h4⟩ := replaced_behind (p := a ++ v1) h2 hnext rfl
        exact replaced_change p1 p2 rfl (p2 ▸ replaced_then hw' (fun t' ht' => (hord t' ht').1) h3 h4)
      | some v =>
        have hc2 : renChanges r2 ((t :: ts).map (renTok r1 (movePos o o' ((t.2, v1) :: renChanges r1 ts)))) =
            ({ start := o' + a.length, stop := o' + (a ++ v1).length }, v) ::
              renChanges r2 (ts.map (renTok r1 (movePos o o' ((t.2, v1) :: renChanges r1 ts)))) := by
          rw [List.map_cons, renChanges_some e2, hsp]
        have hc3 : renChanges (fun x => (r2 (renTok r1 (movePos o o' ((t.2, v1) :: renChanges r1 ts)) x)).or (r1 x)) (t :: ts) =
            (t.2, v) :: renChanges (fun x => (r2 (renTok r1 (movePos o o' ((t.2, v1) :: renChanges r1 ts)) x)).or (r1 x)) ts := by
          rw [renChanges_some (v := v) (by simp only [e2, Option.some_or])]
        rw [hc2, (step hmv).1] at h2
        rw [hc3, (step hmv).2]
        obtain ⟨a', w', rest1', rest2, he, rfl, q1, q2, h4⟩ := replaced_cons h2
        simp only at q1 q2 h4
        rw [List.length_append] at q2
        obtain ⟨he1, he2⟩ := List.append_inj he (by simp only [List.length_append]; omega)
        obtain ⟨rfl, rfl⟩ := List.append_inj he1 (by omega)
        subst he2
        exact replaced_change p1 p2 rfl (p2 ▸ replaced_then hw' (fun t' ht' => (hord t' ht').1) h3 h4)

/-! ### Renames after renames -/

section
variable [Unicode] {text text' : Str} {res res' : ParserResult} {R R2 : SymbolOccurrence → Str → Prop}

/-- The tokens of the occurrences in `T` get their new names, and nothing else changes. -/
def Changed (text : Str) (res : ParserResult) (T : SymbolOccurrence → Str → Prop) (text' : Str) : Prop :=
  ∃ c, Replaced 0 text (renChanges c res.tokens) text' ∧
    ∀ t ∈ res.tokens, ∀ v, c t = some v ↔ ∃ o, Occurs res.tokens res.stmts o ∧ (nameToken o.symbolKind o.name, o.span) = t ∧ T o v

omit [Unicode] in
theorem changed_unique {T T' : SymbolOccurrence → Str → Prop} {t1 t2 : Str} (h1 : Changed text res T t1) (h2 : Changed text res T' t2)
    (hT : ∀ o v, Occurs res.tokens res.stmts o → (T o v ↔ T' o v)) : t1 = t2 := by
  obtain ⟨c1, r1, s1⟩ := h1
  obtain ⟨c2, r2, s2⟩ := h2
  have : renChanges c1 res.tokens = renChanges c2 res.tokens := by
    unfold renChanges
    refine filterMap_congr' fun t ht => ?_
    have : c1 t = c2 t := by
      apply Option.ext
      intro v
      rw [s1 t ht v, s2 t ht v]
      constructor <;> rintro ⟨o, ho, he, hv⟩
      · exact ⟨o, ho, he, (hT o v ho).mp hv⟩
      · exact ⟨o, ho, he, (hT o v ho).mpr hv⟩
    rw [this]
  rw [this] at r1
  exact replaced_unique r1 r2

theorem renBy_iff (hR : Plan res R) (h : parseFromStr text = .ok res) {ix : HIRIndex} (hix : createIndex text res.tokens res.stmts = .ok ix)
    (t : Spanned Token) (v : Str) :
    renBy res R t = some v ↔ ∃ o, Occurs res.tokens res.stmts o ∧ (nameToken o.symbolKind o.name, o.span) = t ∧ R o v := by
  constructor
  · intro hr
    obtain ⟨o, h1, h2, h3⟩ := renBy_some hr
    exact ⟨o, h1, h3, h2⟩
  · rintro ⟨o, h1, rfl, h2⟩
    exact renBy_of hR h hix h1 h2

theorem changed_of (hR : Plan res R) (h : parseFromStr text = .ok res) {ix : HIRIndex} (hix : createIndex text res.tokens res.stmts = .ok ix)
    (hr : Replaced 0 text (renChanges (renBy res R) res.tokens) text') : Changed text res R text' :=
  ⟨_, hr, fun t _ v => renBy_iff hR h hix t v⟩

/-- The document after the renames. -/
structure Stage (text text' : Str) (res res' : ParserResult) {R : SymbolOccurrence → Str → Prop} (hR : Plan res R) (f : Nat → Nat) : Prop where
  parsed : parseFromStr text = .ok res
  parsed' : parseFromStr text' = .ok res'
  moves : f = movePos 0 0 (renChanges (renBy res R) res.tokens)
  tokens : res'.tokens = res.tokens.map (renM hR f).tok
  replaced : Replaced 0 text (renChanges (renBy res R) res.tokens) text'
  occurs : ∀ o', Occurs res'.tokens res'.stmts o' ↔ ∃ o1, Occurs res.tokens res.stmts o1 ∧ o' = (renM hR f).occ o1
  stmts : res'.stmts = res.stmts.map (renM hR f).stmt
  lexed : ∃ errs', tokenize text' = .ok (some res'.tokens, errs')
  carried : Carried (renM hR f) text text' res res'
  separate : Separate res (renM hR f)
  plain : ∀ q, PlainTo text q → PlainTo text' (f q)

/-- The token of an occurrence after the renames. -/
theorem renM_tok {hR : Plan res R} {f : Nat → Nat} (o : SymbolOccurrence) : (renM hR f).tok (nameToken o.symbolKind o.name, o.span) =
    (nameToken ((renM hR f).occ o).symbolKind ((renM hR f).occ o).name, ((renM hR f).occ o).span) := by
  simp only [Renaming.tok, renTok, Renaming.occ, renM, Renaming.span]
  cases hr : renBy res R (nameToken o.symbolKind o.name, o.span) with
  | none => simp only [Option.getD_none]
  | some v => simp only [Option.getD_some, (withName_nameToken o.symbolKind o.name v).1]

/-- The new names after two renames. -/
def Then (R R2 : SymbolOccurrence → Str → Prop) (m : SymbolOccurrence → SymbolOccurrence) (o : SymbolOccurrence) (v : Str) : Prop :=
  R2 (m o) v ∨ (∀ w, ¬ R2 (m o) w) ∧ R o v

/-- Two renames together. -/
theorem stage_then {hR : Plan res R} {f : Nat → Nat} (hs : Stage text text' res res' hR f)
    {ix : HIRIndex} (hix : createIndex text res.tokens res.stmts = .ok ix) (hR2 : Plan res' R2)
    {ix' : HIRIndex} (hix' : createIndex text' res'.tokens res'.stmts = .ok ix') {text2 : Str}
    (h2 : Replaced 0 text' (renChanges (renBy res' R2) res'.tokens) text2) : Changed text res (Then R R2 (renM hR f).occ) text2 := by
  have hw := tokens_wellOrdered hs.parsed
  have hw' := tokens_wellOrdered hs.parsed'
  rw [hs.tokens] at hw'
  have h2' := h2
  rw [hs.tokens, hs.moves] at h2'
  refine ⟨_, replaced_then hw (fun _ _ => Nat.zero_le _) hs.replaced h2', ?_⟩
  rw [← hs.moves]
  intro t ht v
  have htok : renTok (renBy res R) f t = (renM hR f).tok t := rfl
  rw [htok]
  -- the occurrence of a token that is renamed again
  have again : ∀ v, renBy res' R2 ((renM hR f).tok t) = some v ↔
      ∃ o, Occurs res.tokens res.stmts o ∧ (nameToken o.symbolKind o.name, o.span) = t ∧ R2 ((renM hR f).occ o) v := by
    intro v
    rw [renBy_iff hR2 hs.parsed' hix']
    constructor
    · rintro ⟨o', ho', he, hv⟩
      obtain ⟨o, ho, rfl⟩ := (hs.occurs o').mp ho'
      refine ⟨o, ho, ?_, hv⟩
      have hm := occurs_token hs.parsed ho
      have := wellOrdered_span hw hw' hm ht (by rw [occTok_span]; exact congrArg Prod.snd he)
      rw [← this, occTok_nameToken]
    · rintro ⟨o, ho, rfl, hv⟩
      exact ⟨_, (hs.occurs _).mpr ⟨o, ho, rfl⟩, (renM_tok o).symm, hv⟩
  constructor
  · intro hc
    cases h1 : renBy res' R2 ((renM hR f).tok t) with
    | some w =>
      rw [h1, Option.some_or] at hc
      cases hc
      obtain ⟨o, ho, he, hv⟩ := (again v).mp h1
      exact ⟨o, ho, he, .inl hv⟩
    | none =>
      rw [h1, Option.none_or] at hc
      obtain ⟨o, ho, he, hv⟩ := (renBy_iff hR hs.parsed hix t v).mp hc
      refine ⟨o, ho, he, .inr ⟨fun w hw2 => ?_, hv⟩⟩
      rw [(again w).mpr ⟨o, ho, he, hw2⟩] at h1
      cases h1
  · rintro ⟨o, ho, he, hv | ⟨hno, hv⟩⟩
    · rw [(again v).mpr ⟨o, ho, he, hv⟩]
      rfl
    · cases h1 : renBy res' R2 ((renM hR f).tok t) with
      | none =>
        rw [Option.none_or]
        exact (renBy_iff hR hs.parsed hix t v).mpr ⟨o, ho, he, hv⟩
      | some w =>
        exfalso
        obtain ⟨o', ho', he', hv'⟩ := (again w).mp h1
        have := occurs_unique hs.parsed hix ho ho' (congrArg Prod.snd (he.trans he'.symm)) (hR.clear _ _ ho hv)
        subst this
        exact hno w hv'

/-- What the edits of a plan do. -/
theorem plan_changed (hR : Plan res R) (h : parseFromStr text = .ok res) {ix : HIRIndex} (hix : createIndex text res.tokens res.stmts = .ok ix)
    {toks : List (Spanned Token)} {errs : List (LErr Char)} (ht : tokenize text = .ok (some toks, errs)) {changes : List (SymbolOccurrence × Str)} {edits : List TextEdit}
    (hp : ∀ o v, Occurs res.tokens res.stmts o → R o v → PlainTo text o.span.stop) (hsize : text.length < 2 ^ 32) (hren : Renames text changes edits) (hnd : (changes.map Prod.fst).Nodup)
    (hmem : ∀ o v, (o, v) ∈ changes ↔ Occurs res.tokens res.stmts o ∧ R o v) :
    ∃ text', Applied text edits text' ∧ (∀ t, Applied text edits t → t = text') ∧ Replaced 0 text (renChanges (renBy res R) res.tokens) text' := by
  obtain ⟨text', _, j1, j2, _, _, j4, _⟩ := renames_applied hR h hix ht hp hsize hren hnd hmem
  rw [← parsed_tokens h ht] at j4
  exact ⟨text', j1, j2, j4⟩

/-- The document after the edits of a plan. -/
theorem plan_stage (hR : Plan res R) (h : parseFromStr text = .ok res) {ix : HIRIndex} (hix : createIndex text res.tokens res.stmts = .ok ix)
    {toks : List (Spanned Token)} {errs : List (LErr Char)} (ht : tokenize text = .ok (some toks, errs)) {changes : List (SymbolOccurrence × Str)} {edits : List TextEdit}
    (hp : ∀ o v, Occurs res.tokens res.stmts o → R o v → PlainTo text o.span.stop) (hsize : text.length < 2 ^ 32) (hren : Renames text changes edits) (hnd : (changes.map Prod.fst).Nodup)
    (hmem : ∀ o v, (o, v) ∈ changes ↔ Occurs res.tokens res.stmts o ∧ R o v) {o : SymbolOccurrence} (ho : Occurs res.tokens res.stmts o)
    (hplain : ∀ o v, Occurs res.tokens res.stmts o → R o v → Plain v) (hsep : ∀ f, Separate res (renM hR f)) :
    ∃ text' f res', Applied text edits text' ∧ (∀ t, Applied text edits t → t = text') ∧ Stage text text' res res' hR f := by
  have hts := parsed_tokens h ht
  obtain ⟨text', errs', j1, j2, ht', hm, j4, _⟩ := renames_applied hR h hix ht hp hsize hren hnd hmem
  have hp' : ∀ t ∈ toks, ∀ v, renBy res R t = some v → PlainTo text t.2.stop ∧ Plain v := by
    intro t _ v hv
    obtain ⟨o1, k1, k2, rfl⟩ := renBy_some hv
    exact ⟨hp o1 v k1 k2, hplain o1 v k1 k2⟩
  obtain ⟨res', p1, p2⟩ := renames_parse (G := renM hR (movePos 0 0 (renChanges (renBy res R) toks))) h ht hp' j4 rfl (by
    intro c hc
    obtain ⟨t, htm, he⟩ := List.mem_filterMap.mp hc
    obtain ⟨v, hv, rfl⟩ := Option.map_eq_some_iff.mp he
    exact ⟨t, htm, v, hv, rfl⟩) (fun t htm v hv => List.mem_filterMap.mpr ⟨t, htm, by
      have hv' : renBy res R t = some v := hv
      rw [hv']
      rfl⟩) (fun t htm v hv => renBy_bare hR hv) (fun _ _ _ _ hv => renBy_label hv) ht' hm
  have hw := tokens_wellOrdered p1
  rw [p2.tokens] at hw
  refine ⟨text', _, res', j1, j2, h, p1, by rw [hts], p2.tokens, by rw [hts]; exact j4, ?_, p2.stmts, ⟨errs', ?_⟩, p2, hsep _, p2.plain⟩
  · intro o'
    rw [p2.tokens, p2.stmts]
    exact renM_occurs h hix (hsep _) hw
  · rw [p2.tokens, hts]
    exact ht'

/-- Names that stand for one thing still do after the renames. -/
theorem stage_clear {hR : Plan res R} {f : Nat → Nat} (hs : Stage text text' res res' hR f)
    {ix : HIRIndex} (hix : createIndex text res.tokens res.stmts = .ok ix) {o2 : SymbolOccurrence} (ho2 : Occurs res.tokens res.stmts o2)
    (hamb : ¬ Ambiguous res.stmts o2.name) : ¬ Ambiguous res'.stmts ((renM hR f).occ o2).name := by
  rintro ⟨⟨a, ha1, ha2, ha3⟩, b, hb1, hb2, hb3⟩
  have h := hs.parsed
  have hx : ∀ a ∈ docOccs 0 res'.stmts, a.symbolKind = .function ∨ a.symbolKind = .globalVar → a.name = ((renM hR f).occ o2).name →
      ∃ a1 ∈ docOccs 0 res.stmts, a1.symbolKind = a.symbolKind ∧ a1.name = o2.name := by
    intro a ha hka hna
    have s1 := occurs_spells hs.parsed' (.inl ha)
    have s2 := occurs_spells hs.parsed' ((hs.occurs _).mpr ⟨o2, ho2, rfl⟩)
    rw [← hna] at s2
    have hk12 := nameToken_sigil s1 s2
    rw [hs.stmts, docOccs_ren] at ha
    obtain ⟨a1, hm1, rfl⟩ := List.mem_map.mp ha
    refine ⟨a1, hm1, rfl, hs.separate a1 o2 (.inl hm1) ho2 hk12 ?_ hna⟩
    have hka1 : a1.symbolKind = .function ∨ a1.symbolKind = .globalVar := hka
    have none_of : ∀ {o : SymbolOccurrence}, Occurs res.tokens res.stmts o → o.symbolKind = .function ∨ o.symbolKind = .globalVar → o.funcBodyId = none := by
      intro o ho hk
      have := (occurs_scope h hix ho).1
      cases hb : o.funcBodyId with
      | none => rfl
      | some i =>
        rcases this.mpr ⟨i, hb⟩ with e | e <;> rcases hk with e' | e' <;> rw [e] at e' <;> cases e'
    have hk2 : o2.symbolKind = .function ∨ o2.symbolKind = .globalVar := by
      have : nameToken a1.symbolKind [] = nameToken o2.symbolKind [] := hk12
      revert this
      rcases hka1 with e | e <;> rw [e] <;> cases o2.symbolKind <;> simp [nameToken]
    rw [none_of (.inl hm1) hka1, none_of ho2 hk2]
  obtain ⟨a1, m1, e1, e2⟩ := hx a ha1 (.inl ha2) ha3
  obtain ⟨b1, m2, e3, e4⟩ := hx b hb1 (.inr hb2) hb3
  exact hamb ⟨⟨a1, m1, e1.trans ha2, e2⟩, b1, m2, e3.trans hb2, e4⟩

/-! ### One symbol -/

/-- One symbol gets a new name. -/
def To (o : SymbolOccurrence) (name : Str) (o' : SymbolOccurrence) (v : Str) : Prop := SameSymbol o' o ∧ v = name

theorem to_plan {o : SymbolOccurrence} (hamb : ¬ Ambiguous res.stmts o.name) {name : Str} (hspell : Spells (nameToken o.symbolKind name) name)
    (hbare : ∀ o', Occurs res.tokens res.stmts o' → SameSymbol o' o → Bare o') : Plan res (To o name) where
  one _ _ _ h1 h2 := h1.2.trans h2.2.symm
  symbol := by
    rintro o1 o2 v h1 ⟨h2, rfl⟩
    exact ⟨⟨h1.1.symm.trans h2.1, h1.2.1.symm.trans h2.2.1, h1.2.2.symm.trans h2.2.2⟩, rfl⟩
  clear := by
    rintro o1 v _ ⟨h2, rfl⟩
    rw [h2.2.2]
    exact hamb
  spells := by
    rintro o1 v _ ⟨h2, rfl⟩
    rw [h2.1]
    exact hspell
  bare o1 v h1 h2 := hbare o1 h1 h2.1

theorem to_separate (h : parseFromStr text = .ok res) {ix : HIRIndex} (hix : createIndex text res.tokens res.stmts = .ok ix)
    {o : SymbolOccurrence} {name : Str} (hfresh : Fresh res o name) {hR : Plan res (To o name)} (f : Nat → Nat) : Separate res (renM hR f) := by
  intro o1 o2 h1 h2 _ hb he
  rcases renM_name (hR := hR) (f := f) h hix h1 with a | ⟨a, a'⟩
  · rcases renM_name (hR := hR) (f := f) h hix h2 with b | ⟨b, b'⟩
    · rw [a.1.2.2, b.1.2.2]
    · rw [a.2, b'] at he
      exact absurd (hb.symm.trans a.1.2.1) (hfresh o2 h2 he.symm)
  · rcases renM_name (hR := hR) (f := f) h hix h2 with b | ⟨b, b'⟩
    · rw [b.2, a'] at he
      exact absurd (hb.trans b.1.2.1) (hfresh o1 h1 he)
    · rw [a', b'] at he
      exact he

/-- The edits that rename a symbol. -/
theorem to_edits {env : Env} {st : ServerState} {uri : Str} (hopen : Opened st uri text) (h : parseFromStr text = .ok res) 
    (hsize : text.length < 2 ^ 32) {p : Pos} {off : Nat} (hp : PlainTo text off) (hpos : LspOffset text p off) {o : SymbolOccurrence} (ho : Occurs res.tokens res.stmts o)
    (hc : Covers o.span off) (hamb : ¬ Ambiguous res.stmts o.name) {req name : Str} (hreq : ¬ Relative req) (hname : NewName o.symbolKind req name) :
    ∃ edits changes, rename env st uri p req = .ok (.ok [(uri, edits)]) ∧ Renames text changes edits ∧ (changes.map Prod.fst).Nodup ∧
      ∀ o' v, (o', v) ∈ changes ↔ Occurs res.tokens res.stmts o' ∧ To o name o' v := by
  obtain ⟨edits, occs, h1, h2, h3, h4, _⟩ := C25_rename_partial (env := env) hopen h hsize hpos hp ho hc (visible_of_clear ho hamb) hreq hname
  refine ⟨edits, _, h1, h2, by rw [List.map_map]; simpa [Function.comp_def] using h3, ?_⟩
  intro o' v
  rw [List.mem_map]
  constructor
  · rintro ⟨o1, hm, he⟩
    cases he
    exact ⟨((h4 _).mp hm).1, ((h4 _).mp hm).2, rfl⟩
  · rintro ⟨k1, k2, rfl⟩
    exact ⟨o', (h4 o').mpr ⟨k1, k2⟩, rfl⟩

end
end HyperIR
