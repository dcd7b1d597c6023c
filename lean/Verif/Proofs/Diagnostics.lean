import Verif.Proofs.Errors
import Verif.Proofs.Tables
import Verif.Proofs.ParserComplete
import Verif.Spec.Diagnostics
import Verif.Model.Server
import Verif.Props.Modules

/-! Diagnostics. -/

namespace HyperIR
open Spec

/-! ### Syntax errors -/

theorem inputOk_charStream : ∀ (o : Nat) (s : Str) {N : Nat}, o + s.length ≤ N →
    InputOk N (charStream o s) ∧ ∀ t ∈ charStream o s, o ≤ t.2.start
  | o, [], N, _ => ⟨⟨by simp [charStream], by simp [charStream]⟩, by simp [charStream]⟩
  | o, c :: s, N, h => by
    simp only [List.length_cons] at h
    obtain ⟨⟨h1, h2⟩, h3⟩ := inputOk_charStream (o + 1) s (N := N) (by omega)
    refine ⟨⟨?_, ?_⟩, ?_⟩
    · intro t ht
      simp only [charStream, List.mem_cons] at ht
      rcases ht with rfl | ht
      · simp; omega
      · exact h1 t ht
    · simp only [charStream, List.pairwise_cons]
      exact ⟨fun t ht => by have := h3 t ht; simpa using this, h2⟩
    · intro t ht
      simp only [charStream, List.mem_cons] at ht
      rcases ht with rfl | ht
      · simp
      · have := h3 t ht; omega

theorem parseRecovery_errs {τ α : Type} {p : P τ α} {eoi : Span} {s : Toks τ} {N S x es} (hp : Safe N eoi S p) (hs : InputOk N s)
    (h : parseRecovery p eoi s = .ok (x, es)) : ∀ e ∈ es, ErrOk N eoi S e := by
  have := hp s hs
  unfold parseRecovery at h
  generalize p eoi s = r at *
  cases r with
  | panic => cases h
  | ok es' x' alt rest => cases h; exact this.2.1
  | err es' e =>
    cases h
    intro e' he'
    rcases List.mem_append.mp he' with h1 | h1
    · exact this.1 e' h1
    · simp at h1; subst h1; exact this.2

section
variable [Unicode] {src : Str} {res : ParserResult}

/-- Where syntax errors are and what they say. -/
theorem errors_ok (h : parseFromStr src = .ok res) : ∀ e ∈ res.errors,
    (e.span = ⟨utf8Len src, utf8Len src + 1⟩ ∨ (e.span.start ≤ e.span.stop ∧ e.span.stop ≤ src.length)) ∧
    ∀ m, e.reason = .custom m → m ∈ parserMessages := by
  have hlex : ∀ {x es}, tokenize src = .ok (x, es) → ∀ e ∈ es.map (LErr.toSErr fun c => [c]),
      (e.span = ⟨utf8Len src, utf8Len src + 1⟩ ∨ (e.span.start ≤ e.span.stop ∧ e.span.stop ≤ src.length)) ∧
      ∀ m, e.reason = .custom m → m ∈ parserMessages := by
    intro x es ht e he
    obtain ⟨e0, h1, rfl⟩ := List.mem_map.mp he
    have hin := (inputOk_charStream 0 src (N := src.length) (by omega)).1
    have := parseRecovery_errs (safe_tokenizer (S := parserMessages)) hin ht e0 h1
    refine ⟨.inr ?_, this.msg⟩
    rcases this.span with h2 | h2
    · show e0.span.start ≤ e0.span.stop ∧ e0.span.stop ≤ src.length
      rw [h2]; simp
    · exact h2
  have htok := C02_token_spans h
  unfold parseFromStr at h
  cases h1 : tokenize src with
  | panic => rw [h1] at h; cases h
  | ok r =>
    obtain ⟨x, es⟩ := r
    rw [h1] at h
    cases x with
    | none =>
      cases h
      exact hlex h1
    | some toks =>
      simp only at h
      cases h2 : parseTokens (utf8Len src) toks with
      | panic => rw [h2] at h; cases h
      | ok r2 =>
        obtain ⟨ss, pes⟩ := r2
        rw [h2] at h
        cases h
        simp only at htok ⊢
        intro e he
        rcases List.mem_append.mp he with he | he
        · exact hlex h1 e he
        · obtain ⟨e0, h3, rfl⟩ := List.mem_map.mp he
          have hin : InputOk src.length (toks.filter fun t => decide (t.1 ≠ Token.comment)) := by
            constructor
            · intro t ht
              have := htok.1 t (List.mem_filter.mp ht).1
              exact ⟨by have := this.1; omega, this.2⟩
            · have := htok.2.sublist ((List.filter_sublist (p := fun t : Tok => decide (t.1 ≠ Token.comment)) (l := toks)).map Prod.snd)
              unfold InOrder at this
              rwa [List.pairwise_map] at this
          have := parseRecovery_errs safe_parser hin h2 e0 h3
          exact ⟨this.span, this.msg⟩

end

/-! ### Splitting lists of diagnostics -/

theorem perm_flatMap_append {α β : Type} (f g : α → List β) : ∀ l : List α,
    (l.flatMap fun a => f a ++ g a).Perm (l.flatMap f ++ l.flatMap g)
  | [] => .refl _
  | a :: l => by
    simp only [List.flatMap_cons]
    refine ((perm_flatMap_append f g l).append_left _).trans ?_
    rw [List.append_assoc, List.append_assoc]
    refine List.Perm.append_left _ ?_
    rw [← List.append_assoc, ← List.append_assoc]
    exact List.perm_append_comm.append_right _

/-- The reports of undefined symbols for an entry. -/
def undefOf (text : Str) (e : Entry) : List (SymbolOccurrence × Diagnostic) :=
  if e.2.decls.isEmpty && e.2.defs.isEmpty then
    e.2.uses.filterMap fun sp => (rangeToLsp text sp).map fun r =>
      (⟨sp, .use, e.1.1, e.1.2.2, e.1.2.1⟩, { range := r, message := undefinedMessage e.1.2.2 })
  else []

def dupDiag (text uri name : Str) (first sp : Span) : Option Diagnostic :=
  match rangeToLsp text first with
  | none => none
  | some r0 => match rangeToLsp text sp with
    | none => none
    | some r =>
      some { range := r, message := duplicateMessage name,
             related := [({ uri := uri, range := r0 }, c!"Previously defined here")] }

/-- The reports of duplicate definitions for an entry. -/
def dupOf (text uri : Str) (e : Entry) : List (SymbolOccurrence × Diagnostic) :=
  match e.2.defs with
  | [] => []
  | first :: rest => rest.filterMap fun sp => (dupDiag text uri e.1.2.2 first sp).map fun d =>
      (⟨sp, .def_, e.1.1, e.1.2.2, e.1.2.1⟩, d)

theorem map_filterMap_map {α β γ δ : Type} (l : List α) (f : α → Option β) (g : α → β → γ) (h : γ → δ) (k : α → β → δ)
    (hk : ∀ a b, h (g a b) = k a b) :
    (l.filterMap fun a => (f a).map (g a)).map h = l.filterMap fun a => (f a).map (k a) := by
  rw [List.map_filterMap]
  congr 1
  funext a
  cases f a <;> simp [hk]

theorem diagnoseSymbol_eq (text uri : Str) (e : Entry) :
    diagnoseSymbol text uri e.1.2.2 e.2 = (undefOf text e).map Prod.snd ++ (dupOf text uri e).map Prod.snd := by
  obtain ⟨⟨k, f, n⟩, u⟩ := e
  unfold diagnoseSymbol undefOf dupOf
  simp only
  by_cases hc : (u.decls.isEmpty && u.defs.isEmpty) = true
  · rw [if_pos hc, if_pos hc]
    have hd : u.defs = [] := by
      rw [Bool.and_eq_true] at hc
      exact List.isEmpty_iff.mp hc.2
    rw [hd]
    rw [map_filterMap_map (k := fun _ r => { range := r, message := undefinedMessage n })]
    · simp
    · intros; rfl
  · rw [if_neg hc, if_neg hc]
    simp only [List.map_nil, List.nil_append]
    cases u.defs with
    | nil => rfl
    | cons first rest =>
      cases rest with
      | nil => rfl
      | cons second rest =>
        simp only
        rw [map_filterMap_map (k := fun _ d => d)]
        · congr 1
          funext sp
          show dupDiag text uri n first sp = (dupDiag text uri n first sp).map fun d => d
          simp
        · intros; rfl

theorem diagnosticsFromIndex_perm (ord : IterOrder) (text uri : Str) (ix : HIRIndex) :
    (diagnosticsFromIndex ord text uri ix).Perm
      (((entries ord ix).flatMap (undefOf text)).map Prod.snd ++ ((entries ord ix).flatMap (dupOf text uri)).map Prod.snd) := by
  unfold diagnosticsFromIndex
  rw [← entries_untag, List.flatMap_map]
  have : (fun e : Entry => diagnoseSymbol text uri e.1.2.2 e.2) =
      fun e => (undefOf text e).map Prod.snd ++ (dupOf text uri e).map Prod.snd := funext (diagnoseSymbol_eq text uri)
  show List.Perm (List.flatMap (fun e : Entry => diagnoseSymbol text uri e.1.2.2 e.2) _) _
  rw [this, List.map_flatMap, List.map_flatMap]
  exact perm_flatMap_append _ _ _

section
variable [Unicode] {src : Str} {res : ParserResult} {ix : HIRIndex}

/-- The lists of an entry. -/
theorem entry_get {k f n u} (he : entry? ix k f n = some u) (ud : UseDefKind) : u.get ud = listed ix k f n ud := by
  unfold listed
  rw [he]
  rfl

theorem listed_occurs (h : parseFromStr src = .ok res) (hix : createIndex src res.tokens res.stmts = .ok ix) {k f n ud sp} :
    sp ∈ listed ix k f n ud ↔ Occurs res.tokens res.stmts ⟨sp, ud, k, n, f⟩ :=
  occurs_listed (o := ⟨sp, ud, k, n, f⟩) h hix

/-- Definitions are listed in source order. -/
theorem listed_defs_order (h : parseFromStr src = .ok res) (hix : createIndex src res.tokens res.stmts = .ok ix)
    (k : SymbolKind) (f : Option Nat) (n : Str) : (listed ix k f n .def_).Pairwise fun a b => a.start < b.start := by
  obtain ⟨g, hinv, hocc, _⟩ := index_inv h hix
  rw [hinv.tab, hocc]
  unfold allOccs
  rw [List.filter_append]
  have hu : (tokenUses res.tokens res.stmts).filter (fun o => decide (IsOf k f n o ∧ o.useDef = .def_)) = [] := by
    rw [List.filter_eq_nil_iff]
    intro o ho
    obtain ⟨h1, _⟩ := List.mem_filter.mp ho
    obtain ⟨t, _, hu⟩ := List.mem_filterMap.mp h1
    simp [(tokenUse_tok hu).2]
  rw [hu, List.append_nil]
  have hw := (mentions_wellOrdered h).sublist (docOccs_sublist 0 res.stmts)
  have : (docOccs 0 res.stmts).Pairwise fun a b => a.span.start < b.span.start := by
    have h1 := hw.1
    unfold InOrder at h1
    rw [List.map_map, List.pairwise_map] at h1
    refine List.Pairwise.imp_of_mem ?_ h1
    intro a b ha hb hab
    have := hw.2 _ (List.mem_map_of_mem ha)
    simp only [Function.comp, occTok_span] at hab this
    omega
  rw [List.pairwise_map]
  exact this.sublist List.filter_sublist

/-- Where the text is plain, the range of an occurrence is converted to its editor range. -/
theorem occurs_range_editor (h : parseFromStr src = .ok res) (hsize : src.length < 2 ^ 32) {o : SymbolOccurrence}
    (ho : Occurs res.tokens res.stmts o) {r : Range} (hr : rangeToLsp src o.span = some r) (hp : PlainTo src o.span.stop) : EditorRange src o.span r := by
  obtain ⟨r', hr'⟩ := occurs_editor h ho
  rw [occurs_range h hsize ho hp hr'] at hr
  cases hr
  exact hr'

/-- Entries of distinct symbols have distinct reports. -/
theorem reports_nodup {β : Type} {es : List Entry} (hes : (es.map Prod.fst).Nodup) {f : Entry → List (SymbolOccurrence × β)}
    (hf : ∀ e ∈ es, ((f e).map Prod.fst).Nodup)
    (hk : ∀ e ∈ es, ∀ r ∈ f e, (r.1.symbolKind, r.1.funcBodyId, r.1.name) = e.1) :
    ((es.flatMap f).map Prod.fst).Nodup := by
  rw [List.map_flatMap]
  unfold List.Nodup
  rw [List.pairwise_flatMap]
  refine ⟨hf, ?_⟩
  rw [List.Nodup, List.pairwise_map] at hes
  refine hes.imp_of_mem ?_
  intro a b ha hb hab x hx y hy hxy
  subst hxy
  obtain ⟨r, hr, rfl⟩ := List.mem_map.mp hx
  obtain ⟨r', hr', h'⟩ := List.mem_map.mp hy
  apply hab
  rw [← hk a ha r hr, ← hk b hb r' hr', h']

theorem nodup_filterMap_fst {α β γ : Type} {l : List α} (hl : l.Nodup) {F : α → Option (γ × β)} (g : α → γ)
    (hg : ∀ a b, g a = g b → a = b) (hF : ∀ a x, F a = some x → x.1 = g a) : ((l.filterMap F).map Prod.fst).Nodup := by
  induction l with
  | nil => simp
  | cons a l ih =>
    rw [List.nodup_cons] at hl
    rw [List.filterMap_cons]
    cases hf : F a with
    | none => simpa using ih hl.2
    | some b =>
      simp only [List.map_cons, List.nodup_cons]
      refine ⟨?_, ih hl.2⟩
      intro hm
      obtain ⟨x, hx, hx'⟩ := List.mem_map.mp hm
      obtain ⟨a', ha', he⟩ := List.mem_filterMap.mp hx
      have := hF _ _ hf
      have := hF _ _ he
      exact hl.1 (hg a a' (by simp_all) ▸ ha')

section
variable (h : parseFromStr src = .ok res) (hix : createIndex src res.tokens res.stmts = .ok ix)
  (hsize : src.length < 2 ^ 32) (ord : IterOrder)
include h hix

theorem distinctKeys : DistinctKeys ix := by
  obtain ⟨g, hinv, _⟩ := index_inv h hix
  exact hinv.nodup

theorem undef_nodup : (((entries ord ix).flatMap (undefOf src)).map Prod.fst).Nodup := by
  have hd := distinctKeys h hix
  apply reports_nodup (entries_nodup hd)
  · rintro ⟨⟨k, f, n⟩, u⟩ he
    have he := (mem_entries hd).mp he
    unfold undefOf
    split
    · have : u.uses.Nodup := by
        have := entry_get he .use
        simp only [UseDefList.get] at this
        rw [this]
        exact listed_nodup h hix k f n .use
      exact nodup_filterMap_fst this (fun sp => (⟨sp, .use, k, n, f⟩ : SymbolOccurrence)) (by intro a b h; cases h; rfl) (by
        intro a x hx
        rw [Option.map_eq_some_iff] at hx
        obtain ⟨_, _, rfl⟩ := hx
        rfl)
    · simp
  · rintro ⟨⟨k, f, n⟩, u⟩ he r hr
    unfold undefOf at hr
    split at hr
    · obtain ⟨sp, _, h2⟩ := List.mem_filterMap.mp hr
      cases hr : rangeToLsp src sp with
      | none => rw [hr] at h2; cases h2
      | some r => rw [hr] at h2; cases h2; rfl
    · cases hr

include hsize in
theorem undef_mem (o : SymbolOccurrence) (d : Diagnostic) : (o, d) ∈ (entries ord ix).flatMap (undefOf src) ↔
    UndefinedUse res.tokens res.stmts o ∧ d.message = undefinedMessage o.name ∧ d.related = [] ∧
      rangeToLsp src o.span = some d.range := by
  have hd := distinctKeys h hix
  rw [List.mem_flatMap]
  constructor
  · rintro ⟨⟨⟨k, f, n⟩, u⟩, he, hr⟩
    have he := (mem_entries hd).mp he
    unfold undefOf at hr
    split at hr
    · rename_i hc
      simp only [Bool.and_eq_true, List.isEmpty_iff] at hc
      obtain ⟨sp, h1, h2⟩ := List.mem_filterMap.mp hr
      have h1' : sp ∈ listed ix k f n .use := by rw [← entry_get he]; exact h1
      have hocc := (listed_occurs h hix).mp h1'
      obtain ⟨r, hr1⟩ := occurs_rangeToLsp h hsize hocc
      simp only at hr1
      rw [hr1] at h2
      cases h2
      refine ⟨⟨hocc, rfl, ?_⟩, rfl, rfl, hr1⟩
      rintro ⟨sp', ud, k', n', f'⟩ ho' ⟨e1, e2, e3⟩
      simp only at e1 e2 e3 ⊢
      subst e1 e2 e3
      have h3 := (listed_occurs h hix).mpr ho'
      rw [← entry_get he] at h3
      cases ud with
      | use => rfl
      | decl => simp only [UseDefList.get] at h3; rw [hc.1] at h3; cases h3
      | def_ => simp only [UseDefList.get] at h3; rw [hc.2] at h3; cases h3
    · cases hr
  · obtain ⟨sp, ud, k, n, f⟩ := o
    rintro ⟨⟨h1, h2, h3⟩, h4, h5, h6⟩
    simp only at h2 h4 h6
    subst h2
    have hl := (listed_occurs h hix).mpr h1
    have hsome : ∃ u, entry? ix k f n = some u := by
      cases he : entry? ix k f n with
      | none => unfold listed at hl; rw [he] at hl; cases hl
      | some u => exact ⟨u, rfl⟩
    obtain ⟨u, he⟩ := hsome
    have hempty : ∀ ud, ud ≠ .use → u.get ud = [] := by
      intro ud hud
      rw [entry_get he]
      rw [List.eq_nil_iff_forall_not_mem]
      intro sp' hs'
      exact hud (h3 _ ((listed_occurs h hix).mp hs') ⟨rfl, rfl, rfl⟩)
    refine ⟨((k, f, n), u), (mem_entries hd).mpr he, ?_⟩
    unfold undefOf
    have hdecl : u.decls = [] := hempty .decl (by simp)
    have hdef : u.defs = [] := hempty .def_ (by simp)
    rw [if_pos (by simp [hdecl, hdef])]
    rw [List.mem_filterMap]
    rw [← entry_get he] at hl
    refine ⟨sp, hl, ?_⟩
    rw [h6]
    obtain ⟨r, m, l⟩ := d
    simp only at h4 h5
    subst h4 h5
    rfl

theorem dup_nodup (uri : Str) : (((entries ord ix).flatMap (dupOf src uri)).map Prod.fst).Nodup := by
  have hd := distinctKeys h hix
  apply reports_nodup (entries_nodup hd)
  · rintro ⟨⟨k, f, n⟩, u⟩ he
    have he := (mem_entries hd).mp he
    have hnd : u.defs.Nodup := by
      have := entry_get he .def_
      simp only [UseDefList.get] at this
      rw [this]
      exact listed_nodup h hix k f n .def_
    unfold dupOf
    simp only
    split
    · simp
    · rename_i first rest hdefs
      rw [hdefs, List.nodup_cons] at hnd
      exact nodup_filterMap_fst hnd.2 (fun sp => (⟨sp, .def_, k, n, f⟩ : SymbolOccurrence)) (by intro a b h; cases h; rfl) (by
        intro a x hx
        rw [Option.map_eq_some_iff] at hx
        obtain ⟨_, _, rfl⟩ := hx
        rfl)
  · rintro ⟨⟨k, f, n⟩, u⟩ he r hr
    unfold dupOf at hr
    split at hr
    · cases hr
    · obtain ⟨sp, _, h2⟩ := List.mem_filterMap.mp hr
      rw [Option.map_eq_some_iff] at h2
      obtain ⟨d, _, rfl⟩ := h2
      rfl

include hsize in
theorem dup_mem (uri : Str) (o : SymbolOccurrence) (d : Diagnostic) : (o, d) ∈ (entries ord ix).flatMap (dupOf src uri) ↔
    Redefinition res.tokens res.stmts o ∧ d.message = duplicateMessage o.name ∧ rangeToLsp src o.span = some d.range ∧
    ∃ first r0, FirstDef res.tokens res.stmts first o ∧ rangeToLsp src first.span = some r0 ∧
      d.related = [(⟨uri, r0⟩, c!"Previously defined here")] := by
  have hd := distinctKeys h hix
  rw [List.mem_flatMap]
  constructor
  · rintro ⟨⟨⟨k, f, n⟩, u⟩, he, hr⟩
    have he := (mem_entries hd).mp he
    unfold dupOf at hr
    simp only at hr
    split at hr
    · cases hr
    · rename_i first rest hdefs
      have hg := entry_get he .def_
      simp only [UseDefList.get] at hg
      rw [hdefs] at hg
      have hord := listed_defs_order h hix k f n
      rw [← hg, List.pairwise_cons] at hord
      obtain ⟨sp, h1, h2⟩ := List.mem_filterMap.mp hr
      have hocc := (listed_occurs h hix (k := k) (f := f) (n := n) (ud := .def_) (sp := sp)).mp (by rw [← hg]; simp [h1])
      have hocc0 := (listed_occurs h hix (k := k) (f := f) (n := n) (ud := .def_) (sp := first)).mp (by rw [← hg]; simp)
      obtain ⟨r, hr1⟩ := occurs_rangeToLsp h hsize hocc
      obtain ⟨r0, hr3⟩ := occurs_rangeToLsp h hsize hocc0
      simp only at hr1 hr3
      unfold dupDiag at h2
      rw [hr3, hr1] at h2
      cases h2
      have hfirst : FirstDef res.tokens res.stmts ⟨first, .def_, k, n, f⟩ ⟨sp, .def_, k, n, f⟩ := by
        refine ⟨⟨hocc0, ⟨rfl, rfl, rfl⟩, rfl⟩, ?_⟩
        rintro ⟨sp', ud, k', n', f'⟩ ho' ⟨e1, e2, e3⟩ hud
        simp only at e1 e2 e3 hud ⊢
        subst e1 e2 e3 hud
        have h3 := (listed_occurs h hix).mpr ho'
        rw [← hg] at h3
        rcases List.mem_cons.mp h3 with rfl | h3
        · exact Nat.le_refl _
        · exact Nat.le_of_lt (hord.1 _ h3)
      refine ⟨⟨hocc, rfl, ?_⟩, rfl, hr1, _, r0, hfirst, hr3, rfl⟩
      intro hf
      have := hf.2 _ hocc0 ⟨rfl, rfl, rfl⟩ rfl
      have := hord.1 _ h1
      simp only at *
      omega
  · obtain ⟨sp, ud, k, n, f⟩ := o
    rintro ⟨⟨h1, h2, h3⟩, h4, h5, ⟨sp0, ud0, k0, n0, f0⟩, r0, ⟨⟨hf1, ⟨e1, e2, e3⟩, e4⟩, hf2⟩, h7, h8⟩
    simp only at h2 h4 h5 e1 e2 e3 e4 h7
    subst h2 e1 e2 e3 e4
    have hl := (listed_occurs h hix).mpr h1
    have hl0 := (listed_occurs h hix).mpr hf1
    have hsome : ∃ u, entry? ix k0 f0 n0 = some u := by
      cases he : entry? ix k0 f0 n0 with
      | none => unfold listed at hl; rw [he] at hl; cases hl
      | some u => exact ⟨u, rfl⟩
    obtain ⟨u, he⟩ := hsome
    refine ⟨((k0, f0, n0), u), (mem_entries hd).mpr he, ?_⟩
    have hg := entry_get he .def_
    simp only [UseDefList.get] at hg
    have hord := listed_defs_order h hix k0 f0 n0
    have hall : ∀ x ∈ u.defs, sp0.start ≤ x.start := by
      intro x hx
      rw [hg] at hx
      exact hf2 _ ((listed_occurs h hix).mp hx) ⟨rfl, rfl, rfl⟩ rfl
    rw [← hg] at hl hl0 hord
    have hne : sp ≠ sp0 := by
      rintro rfl
      exact h3 ⟨⟨h1, ⟨rfl, rfl, rfl⟩, rfl⟩, hf2⟩
    unfold dupOf
    cases hdefs : u.defs with
    | nil => rw [hdefs] at hl; cases hl
    | cons first rest =>
      rw [hdefs] at hl hl0 hord hall
      rw [List.pairwise_cons] at hord
      have hfirst : first = sp0 := by
        rcases List.mem_cons.mp hl0 with h' | h'
        · exact h'.symm
        · have := hord.1 _ h'
          have := hall first (by simp)
          omega
      subst hfirst
      have hl : sp ∈ rest := by simpa [hne] using hl
      simp only
      rw [List.mem_filterMap]
      refine ⟨sp, hl, ?_⟩
      unfold dupDiag
      rw [h7, h5]
      obtain ⟨r, m, l⟩ := d
      simp only at h4 h8
      subst h4 h8
      rfl

end
end
end HyperIR
