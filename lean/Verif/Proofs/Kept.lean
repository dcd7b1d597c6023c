import Verif.Proofs.KeptLines

/- What renames do to the diagnostics of a document. -/

namespace HyperIR
open Spec

/-- Tokens that start at the same place are the same. -/
theorem wellOrdered_inj {l : List Tok} (h : WellOrdered l) {a b : Tok} (ha : a ∈ l) (hb : b ∈ l) (he : a.2.start = b.2.start) : a = b := by
  obtain ⟨h1, h2⟩ := h
  unfold InOrder at h1
  rw [List.pairwise_map] at h1
  induction l with
  | nil => cases ha
  | cons x l ih =>
    rw [List.pairwise_cons] at h1
    rcases List.mem_cons.mp ha with rfl | ha' <;> rcases List.mem_cons.mp hb with rfl | hb'
    · rfl
    · have := h1.1 _ hb'
      have := h2 _ ha
      omega
    · have := h1.1 _ ha'
      have := h2 _ hb
      omega
    · exact ih ha' hb' h1.2 (fun t ht => h2 t (by simp [ht]))

/-- Lists with corresponding keys can be paired up. -/
theorem pair_up {α β : Type} {a b : List (α × β)} {m : α → α} (h : (b.map Prod.fst).Perm ((a.map Prod.fst).map m)) :
    ∃ pairs : List (β × β), pairs.map Prod.fst = a.map Prod.snd ∧ (pairs.map Prod.snd).Perm (b.map Prod.snd) ∧
      ∀ p ∈ pairs, ∃ x, (x, p.1) ∈ a ∧ (m x, p.2) ∈ b := by
  have hb : Each (fun (x : α) (y : α × β) => y.1 = x) (b.map Prod.fst) b := by
    clear h
    induction b with
    | nil => exact .nil
    | cons y b ih => exact .cons rfl ih
  obtain ⟨b', h1, h2⟩ := each_perm_right h.symm hb
  suffices hs : ∀ (a b' : List (α × β)), Each (fun (x : α) (y : α × β) => y.1 = x) ((a.map Prod.fst).map m) b' →
      ∃ pairs : List (β × β), pairs.map Prod.fst = a.map Prod.snd ∧ pairs.map Prod.snd = b'.map Prod.snd ∧
        ∀ p ∈ pairs, ∃ x, (x, p.1) ∈ a ∧ (m x, p.2) ∈ b' by
    obtain ⟨pairs, p1, p2, p3⟩ := hs a b' h2
    refine ⟨pairs, p1, by rw [p2]; exact h1.map _, ?_⟩
    intro p hp
    obtain ⟨x, hx, hx'⟩ := p3 p hp
    exact ⟨x, hx, h1.mem_iff.mp hx'⟩
  clear h h1 h2 hb
  intro a
  induction a with
  | nil =>
    intro b' h
    cases h
    exact ⟨[], rfl, rfl, by simp⟩
  | cons x a ih =>
    intro b' h
    cases h with
    | @cons _ y _ b' h1 h2 =>
      obtain ⟨pairs, p1, p2, p3⟩ := ih _ h2
      refine ⟨(x.2, y.2) :: pairs, by simp [p1], by simp [p2], ?_⟩
      intro p hp
      rcases List.mem_cons.mp hp with rfl | hp
      · refine ⟨x.1, by simp, ?_⟩
        rw [← h1]
        simp
      · obtain ⟨z, hz, hz'⟩ := p3 p hp
        exact ⟨z, by simp [hz], by simp [hz']⟩

section
variable [Unicode] {text text' : Str} {res res' : ParserResult} {R : SymbolOccurrence → Str → Prop} {m : SymbolOccurrence → SymbolOccurrence}

omit [Unicode] in
theorem referencesKept_iff : ReferencesKept res R res' ↔ ∃ m, Keeps res res' R m :=
  ⟨fun ⟨m, a, b, c, d⟩ => ⟨m, a, b, c, d⟩, fun ⟨m, h⟩ => ⟨m, h.1, h.2, h.3, h.4⟩⟩

/-- Different occurrences stay different. -/
theorem Keeps.inj (hm : Keeps res res' R m) (h : parseFromStr text = .ok res) {o1 o2 : SymbolOccurrence} (h1 : Occurs res.tokens res.stmts o1)
    (h2 : Occurs res.tokens res.stmts o2) (he : m o1 = m o2) : o1 = o2 := by
  have hs := (hm.same _ _ h1 h2).1.mp (by rw [he]; exact ⟨rfl, rfl, rfl⟩)
  have hu : o1.useDef = o2.useDef := by rw [← (hm.role o1).2.1, ← (hm.role o2).2.1, he]
  have hlt := (hm.same _ _ h1 h2).2
  have hgt := (hm.same _ _ h2 h1).2
  rw [he] at hlt hgt
  have hstart : o1.span.start = o2.span.start := by omega
  have hsp : o1.span = o2.span := by
    have t1 := occurs_token h h1
    have t2 := occurs_token h h2
    have hw := tokens_wellOrdered h
    have hc := wellOrdered_inj hw t1 t2 (by rw [occTok_span, occTok_span]; exact hstart)
    have := congrArg Prod.snd hc
    rwa [occTok_span, occTok_span] at this
  obtain ⟨sp1, u1, k1, n1, f1⟩ := o1
  obtain ⟨sp2, u2, k2, n2, f2⟩ := o2
  obtain ⟨a, b, c⟩ := hs
  simp only at a b c hu hsp
  subst a b c hu hsp
  rfl

/-- The first definition of a symbol is at one place. -/
theorem firstDef_same (h : parseFromStr text = .ok res) {f f' o : SymbolOccurrence} (h1 : FirstDef res.tokens res.stmts f o)
    (h2 : FirstDef res.tokens res.stmts f' o) : f = f' := by
  have l1 := h1.2 f' h2.1.1 h2.1.2.1 h2.1.2.2
  have l2 := h2.2 f h1.1.1 h1.1.2.1 h1.1.2.2
  have hsp : f.span = f'.span := by
    have hc := wellOrdered_inj (tokens_wellOrdered h) (occurs_token h h1.1.1) (occurs_token h h2.1.1) (by rw [occTok_span, occTok_span]; omega)
    have := congrArg Prod.snd hc
    rwa [occTok_span, occTok_span] at this
  obtain ⟨_, ⟨a1, b1, c1⟩, d1⟩ := h1.1
  obtain ⟨_, ⟨a2, b2, c2⟩, d2⟩ := h2.1
  obtain ⟨sp1, u1, k1, n1, f1⟩ := f
  obtain ⟨sp2, u2, k2, n2, f2⟩ := f'
  simp only at a1 b1 c1 d1 a2 b2 c2 d2 hsp
  subst a1 b1 c1 d1 d2 hsp
  rw [a2, b2, c2]

omit [Unicode] in
theorem Keeps.undefined (hm : Keeps res res' R m) (o' : SymbolOccurrence) :
    UndefinedUse res'.tokens res'.stmts o' ↔ ∃ o1, UndefinedUse res.tokens res.stmts o1 ∧ o' = m o1 := by
  unfold UndefinedUse
  constructor
  · rintro ⟨h1, h2, h3⟩
    obtain ⟨o1, ho1, rfl⟩ := (hm.occurs o').mp h1
    refine ⟨o1, ⟨ho1, (hm.role o1).2.1 ▸ h2, ?_⟩, rfl⟩
    intro o2 ho2 hs
    have := h3 (m o2) ((hm.occurs _).mpr ⟨o2, ho2, rfl⟩) ((hm.same _ _ ho2 ho1).1.mpr hs)
    rwa [(hm.role o2).2.1] at this
  · rintro ⟨o1, ⟨h1, h2, h3⟩, rfl⟩
    refine ⟨(hm.occurs _).mpr ⟨o1, h1, rfl⟩, by rw [(hm.role o1).2.1]; exact h2, ?_⟩
    intro o' ho' hs
    obtain ⟨o2, ho2, rfl⟩ := (hm.occurs o').mp ho'
    rw [(hm.role o2).2.1]
    exact h3 o2 ho2 ((hm.same _ _ ho2 h1).1.mp hs)

omit [Unicode] in
theorem Keeps.firstDef (hm : Keeps res res' R m) {f1 o1 : SymbolOccurrence} (hf : Occurs res.tokens res.stmts f1) (ho : Occurs res.tokens res.stmts o1) :
    FirstDef res'.tokens res'.stmts (m f1) (m o1) ↔ FirstDef res.tokens res.stmts f1 o1 := by
  unfold FirstDef
  constructor
  · rintro ⟨⟨_, h2, h3⟩, h4⟩
    refine ⟨⟨hf, (hm.same _ _ hf ho).1.mp h2, (hm.role f1).2.1 ▸ h3⟩, ?_⟩
    intro o2 ho2 hs hd
    have := h4 (m o2) ((hm.occurs _).mpr ⟨o2, ho2, rfl⟩) ((hm.same _ _ ho2 ho).1.mpr hs) (by rw [(hm.role o2).2.1]; exact hd)
    have := (hm.same _ _ ho2 hf).2
    omega
  · rintro ⟨⟨_, h2, h3⟩, h4⟩
    refine ⟨⟨(hm.occurs _).mpr ⟨f1, hf, rfl⟩, (hm.same _ _ hf ho).1.mpr h2, by rw [(hm.role f1).2.1]; exact h3⟩, ?_⟩
    intro o' ho' hs hd
    obtain ⟨o2, ho2, rfl⟩ := (hm.occurs o').mp ho'
    have := h4 o2 ho2 ((hm.same _ _ ho2 ho).1.mp hs) ((hm.role o2).2.1 ▸ hd)
    have := (hm.same _ _ ho2 hf).2
    omega

omit [Unicode] in
theorem Keeps.redefinition (hm : Keeps res res' R m) (o' : SymbolOccurrence) :
    Redefinition res'.tokens res'.stmts o' ↔ ∃ o1, Redefinition res.tokens res.stmts o1 ∧ o' = m o1 := by
  unfold Redefinition
  constructor
  · rintro ⟨h1, h2, h3⟩
    obtain ⟨o1, ho1, rfl⟩ := (hm.occurs o').mp h1
    exact ⟨o1, ⟨ho1, (hm.role o1).2.1 ▸ h2, fun hf => h3 ((hm.firstDef ho1 ho1).mpr hf)⟩, rfl⟩
  · rintro ⟨o1, ⟨h1, h2, h3⟩, rfl⟩
    exact ⟨(hm.occurs _).mpr ⟨o1, h1, rfl⟩, by rw [(hm.role o1).2.1]; exact h2, fun hf => h3 ((hm.firstDef h1 h1).mp hf)⟩

omit [Unicode] in
/-- The new name of an occurrence. -/
theorem Keeps.named (hm : Keeps res res' R m) {o1 : SymbolOccurrence} (ho : Occurs res.tokens res.stmts o1) :
    (m o1).name = o1.name ∨ R o1 (m o1).name := by
  by_cases hv : ∃ v, R o1 v
  · obtain ⟨v, hv⟩ := hv
    right
    rw [(hm.name o1 ho).1 v hv]
    exact hv
  · left
    exact (hm.name o1 ho).2 fun v hr => hv ⟨v, hr⟩

omit [Unicode] in
theorem allInstructions_ren {G : Renaming} (ss : List Statement) : allInstructions (ss.map G.stmt) = (allInstructions ss).map G.instr := by
  unfold allInstructions
  rw [List.flatMap_map, List.map_flatMap]
  congr 1
  funext s
  cases s with
  | funcDef k sig b =>
    simp only [Renaming.stmt, Renaming.body]
    rw [List.flatMap_map, List.map_flatMap]
    rfl
  | _ => rfl

omit [Unicode] in
/-- The names of instructions stay. -/
theorem instr_ren {G : Renaming} (i : Instruction) (hr : G.ren (.ident i.instruction.1, i.instruction.2) = none) : (G.instr i).instruction.1 = i.instruction.1 := by
  simp [Renaming.instr, Renaming.name, hr]

/-- The diagnostics of syntax errors correspond. -/
theorem parserDiagnostics_kept {G : Renaming} (hwords : G.Words ∨ ∃ ss o, Layout ss o [] true (res.tokens.filter fun t => decide (t.1 ≠ Token.comment)))
    (h : parseFromStr text = .ok res) (h' : parseFromStr text' = .ok res') (hG : Carried G text text' res res')
    (hsize : text.length < 2 ^ 32) (hsize' : text'.length < 2 ^ 32) :
    Each (fun d d' : Diagnostic => SameLines d.range d'.range ∧ Each (fun a b => SameLines a.1.range b.1.range ∧ b.2 = a.2) d.related d'.related ∧ d'.message = d.message)
      (diagnosticsFromParser text res.errors) (diagnosticsFromParser text' res'.errors) := by
  have hlen := length_le_utf8Len text
  have hlen' := length_le_utf8Len text'
  have hnone : ∀ (t : Str), rangeToLsp t ⟨utf8Len t, utf8Len t + 1⟩ = none := by
    intro t
    cases hr : rangeToLsp t ⟨utf8Len t, utf8Len t + 1⟩ with
    | none => rfl
    | some r =>
      exfalso
      unfold rangeToLsp at hr
      simp only at hr
      split at hr
      · cases hr
      · split at hr
        · cases hr
        · rename_i h2
          have := (offsetToLspPos_some h2).1
          omega
  have hok := errors_ok h
  have hok' := errors_ok h'
  have herr := hG.errors hwords
  unfold diagnosticsFromParser
  generalize res.errors = es at hok herr
  generalize res'.errors = es' at hok' herr
  induction herr with
  | nil => exact .nil
  | @cons e e' es es' h1 _ ih =>
    have ih := ih (fun e he => hok e (by simp [he])) (fun e he => hok' e (by simp [he]))
    rw [List.filterMap_cons, List.filterMap_cons]
    rcases (hok e (by simp)).1 with k | k
    · have k' : e'.span = ⟨utf8Len text', utf8Len text' + 1⟩ := by rw [h1.1, k, hG.eoi]
      rw [k, k', hnone, hnone]
      exact ih
    · have k' : e'.span.start ≤ e'.span.stop ∧ e'.span.stop ≤ text'.length := by
        rcases (hok' e' (by simp)).1 with k' | k'
        · exfalso
          have := hG.inside _ k.2
          have : e'.span.stop = G.f e.span.stop := by rw [h1.1]; rfl
          rw [k'] at this
          simp only at this
          omega
        · exact k'
      obtain ⟨r, hr⟩ := rangeToLsp_total hsize k.1 k.2
      obtain ⟨r', hr'⟩ := rangeToLsp_total hsize' k'.1 k'.2
      rw [hr, hr']
      refine .cons ⟨?_, .nil, h1.2⟩ ih
      rw [h1.1] at hr'
      exact sameLines_of hG h h' hsize hsize' (by omega) k.2 hr hr'

/-- The diagnostics of instructions correspond. -/
theorem statementDiagnostics_kept {G : Renaming} (h : parseFromStr text = .ok res) (h' : parseFromStr text' = .ok res') (hG : Carried G text text' res res')
    (hsize : text.length < 2 ^ 32) (hsize' : text'.length < 2 ^ 32) :
    Each (fun d d' : Diagnostic => SameLines d.range d'.range ∧ Each (fun a b => SameLines a.1.range b.1.range ∧ b.2 = a.2) d.related d'.related ∧ d'.message = d.message)
      (diagnosticsFromStatements text res.stmts) (diagnosticsFromStatements text' res'.stmts) := by
  have htok : ∀ {text res}, parseFromStr text = .ok res → ∀ i ∈ allInstructions res.stmts, identTok i.instruction ∈ res.tokens := by
    intro text res h i hi
    rw [allInstructions_eq] at hi
    exact (((instructions_sublist res.stmts).trans (mentions_sublist h)).trans List.filter_sublist).subset (List.mem_map.mpr ⟨i, hi, rfl⟩)
  have h1 := htok h
  have h2 := htok h'
  rw [hG.stmts, allInstructions_ren] at h2
  unfold diagnosticsFromStatements
  rw [hG.stmts, allInstructions_ren]
  have h3 := hG.mnemonics
  generalize allInstructions res.stmts = l at h1 h2 h3
  induction l with
  | nil => exact .nil
  | cons i l ih =>
    have ih := ih (fun j hj => h1 j (by simp [hj])) (fun j hj => h2 j (by simp only [List.map_cons, List.mem_cons]; exact .inr hj)) (fun j hj => h3 j (by simp [hj]))
    rw [List.map_cons, List.filterMap_cons, List.filterMap_cons]
    obtain ⟨r, hr⟩ := token_rangeToLsp h hsize (h1 i (by simp))
    obtain ⟨r', hr'⟩ := token_rangeToLsp h' hsize' (h2 (G.instr i) (by simp))
    simp only [identTok] at hr hr'
    have e2 := instr_ren i (h3 i (by simp))
    have e1 : ((G.instr i).isBranching || decide ((G.instr i).instruction.1 = c!"phi")) = (i.isBranching || decide (i.instruction.1 = c!"phi")) := by
      unfold Instruction.isBranching
      rw [e2]
    have e3 : (G.instr i).basicBlockRefs.isEmpty = i.basicBlockRefs.isEmpty := by
      simp only [Renaming.instr]
      cases i.basicBlockRefs <;> rfl
    generalize hx : diagnoseInstruction text i = x
    generalize hy : diagnoseInstruction text' (G.instr i) = y
    unfold diagnoseInstruction at hx hy
    rw [hr] at hx
    rw [e1, e3, hr'] at hy
    cases hc : (i.isBranching || decide (i.instruction.1 = c!"phi")) && i.basicBlockRefs.isEmpty with
    | false =>
      rw [hc, if_neg (by decide)] at hx hy
      subst hx hy
      exact ih
    | true =>
      rw [hc, if_pos rfl] at hx hy
      subst hx hy
      rw [Bool.and_eq_true] at hc
      refine .cons ⟨?_, .nil, ?_⟩ ih
      · have hin := (C02_token_spans h).1 _ (h1 i (by simp))
        simp only [Inside, identTok] at hin
        refine sameLines_of hG h h' hsize hsize' ?_ ?_ hr ?_
        · omega
        · omega
        · rw [← hr']
          simp [Renaming.instr, Renaming.name]
      · simp only
        rw [e2]

omit [Unicode] in
theorem each_pairs {α : Type} {S : α → α → Prop} {as bs : List α} (h : Each S as bs) :
    ∃ pairs : List (α × α), pairs.map Prod.fst = as ∧ pairs.map Prod.snd = bs ∧ ∀ p ∈ pairs, S p.1 p.2 := by
  induction h with
  | nil => exact ⟨[], rfl, rfl, by simp⟩
  | @cons a b as bs h _ ih =>
    obtain ⟨ps, h1, h2, h3⟩ := ih
    refine ⟨(a, b) :: ps, by simp [h1], by simp [h2], ?_⟩
    intro p hp
    rcases List.mem_cons.mp hp with rfl | hp
    · exact h
    · exact h3 p hp

/-- Reports about occurrences that correspond. -/
theorem reports_kept (hm : Keeps res res' R m) (h : parseFromStr text = .ok res) {P P' : SymbolOccurrence → Prop} (hP : ∀ o, P o → Occurs res.tokens res.stmts o)
    (hPP : ∀ o', P' o' ↔ ∃ o, P o ∧ o' = m o) {l l' : List (SymbolOccurrence × Diagnostic)} (hl : (l.map Prod.fst).Nodup)
    (hl' : (l'.map Prod.fst).Nodup) (hmem : ∀ o, o ∈ l.map Prod.fst ↔ P o) (hmem' : ∀ o, o ∈ l'.map Prod.fst ↔ P' o) :
    (l'.map Prod.fst).Perm ((l.map Prod.fst).map m) := by
  refine (List.perm_ext_iff_of_nodup hl' ?_).mpr ?_
  · rw [List.Nodup, List.pairwise_map]
    refine List.Pairwise.imp_of_mem ?_ hl
    intro a b ha hb hab he
    exact hab (hm.inj h (hP _ ((hmem a).mp ha)) (hP _ ((hmem b).mp hb)) he)
  · intro o'
    rw [hmem', hPP, List.mem_map]
    constructor
    · rintro ⟨o, ho, rfl⟩
      exact ⟨o, (hmem o).mpr ho, rfl⟩
    · rintro ⟨o, ho, rfl⟩
      exact ⟨o, (hmem o).mp ho, rfl⟩

variable {env env' : Env} {st st1 st2 st3 : ServerState} {uri uri' : Str} {v v' : Int} {pub pub' : Publish}

/-- Renames keep the diagnostics. -/
theorem diagnostics_kept {G : Renaming} (hwords : G.Words ∨ ∃ ss o, Layout ss o [] true (res.tokens.filter fun t => decide (t.1 ≠ Token.comment)))
    (h : parseFromStr text = .ok res) (h' : parseFromStr text' = .ok res') (hG : Carried G text text' res res')
    (hsize : text.length < 2 ^ 32) (hsize' : text'.length < 2 ^ 32) (hm : Keeps res res' R G.occ)
    (hc : onChange env st uri v text = .ok (st1, pub)) (hc' : onChange env' st2 uri' v' text' = .ok (st3, pub')) :
    DiagnosticsKept res R pub.diagnostics pub'.diagnostics := by
  obtain ⟨ix, hix, hd⟩ := publish_inv h hc
  obtain ⟨ix', hix', hd'⟩ := publish_inv h' hc'
  obtain ⟨p1, a1, b1, c1⟩ := each_pairs (parserDiagnostics_kept hwords h h' hG hsize hsize')
  obtain ⟨p2, a2, b2, c2⟩ := each_pairs (statementDiagnostics_kept h h' hG hsize hsize')
  have umem : ∀ {text res ix ord}, parseFromStr text = .ok res → createIndex text res.tokens res.stmts = .ok ix → text.length < 2 ^ 32 →
      ∀ o, o ∈ ((entries ord ix).flatMap (undefOf text)).map Prod.fst ↔ UndefinedUse res.tokens res.stmts o := by
    intro text res ix ord h hix hsize o
    rw [List.mem_map]
    constructor
    · rintro ⟨⟨o', d⟩, h1, rfl⟩
      exact ((undef_mem h hix hsize ord _ _).mp h1).1
    · intro hu
      obtain ⟨r, hr⟩ := occurs_rangeToLsp h hsize hu.1
      exact ⟨(o, { range := r, message := undefinedMessage o.name }), (undef_mem h hix hsize ord _ _).mpr ⟨hu, rfl, rfl, hr⟩, rfl⟩
  have dmem : ∀ {text res ix ord uri}, parseFromStr text = .ok res → createIndex text res.tokens res.stmts = .ok ix → text.length < 2 ^ 32 →
      ∀ o, o ∈ ((entries ord ix).flatMap (dupOf text uri)).map Prod.fst ↔ Redefinition res.tokens res.stmts o := by
    intro text res ix ord uri h hix hsize o
    rw [List.mem_map]
    constructor
    · rintro ⟨⟨o', d⟩, h1, rfl⟩
      exact ((dup_mem h hix hsize ord uri _ _).mp h1).1
    · intro hu
      obtain ⟨r, hr⟩ := occurs_rangeToLsp h hsize hu.1
      obtain ⟨first, hf⟩ := firstDef_exists h hix hu.1 hu.2.1
      obtain ⟨r0, hr0⟩ := occurs_rangeToLsp h hsize hf.1.1
      exact ⟨(o, { range := r, message := duplicateMessage o.name, related := [(⟨uri, r0⟩, c!"Previously defined here")] }),
        (dup_mem h hix hsize ord uri _ _).mpr ⟨hu, rfl, hr, first, r0, hf, hr0, rfl⟩, rfl⟩
  obtain ⟨p3, a3, b3, c3⟩ := pair_up (reports_kept hm h (fun o ho => ho.1) hm.undefined (undef_nodup h hix env.ord) (undef_nodup h' hix' env'.ord)
    (umem h hix hsize) (umem h' hix' hsize'))
  obtain ⟨p4, a4, b4, c4⟩ := pair_up (reports_kept hm h (fun o ho => ho.1) hm.redefinition (dup_nodup h hix env.ord uri) (dup_nodup h' hix' env'.ord uri')
    (dmem h hix hsize) (dmem h' hix' hsize'))
  refine ⟨p1 ++ p2 ++ (p3 ++ p4), ?_, ?_, ?_⟩
  · rw [hd]
    simp only [List.map_append, a1, a2, a3, a4]
    exact (diagnosticsFromIndex_perm ..).append_left _
  · rw [hd']
    simp only [List.map_append, b1, b2]
    exact ((diagnosticsFromIndex_perm ..).trans (b3.symm.append b4.symm)).append_left _
  · have hlines : ∀ {o : SymbolOccurrence} {r r' : Range}, Occurs res.tokens res.stmts o → rangeToLsp text o.span = some r →
        rangeToLsp text' (G.occ o).span = some r' → SameLines r r' := by
      intro o r r' ho hr hr'
      have hin := (C02_token_spans h).1 _ (occurs_token h ho)
      rw [occTok_span] at hin
      simp only [Inside] at hin
      exact sameLines_of hG h h' hsize hsize' (by omega) (by omega) hr hr'
    intro p hp
    simp only [List.mem_append] at hp
    rcases hp with (hp | hp) | hp | hp
    · exact ⟨(c1 p hp).1, (c1 p hp).2.1, .inl (c1 p hp).2.2⟩
    · exact ⟨(c2 p hp).1, (c2 p hp).2.1, .inl (c2 p hp).2.2⟩
    · obtain ⟨o, k, k'⟩ := c3 p hp
      obtain ⟨u, e, l, r⟩ := (undef_mem h hix hsize env.ord _ _).mp k
      obtain ⟨_, e', l', r'⟩ := (undef_mem h' hix' hsize' env'.ord _ _).mp k'
      refine ⟨hlines u.1 r r', by rw [l, l']; exact .nil, ?_⟩
      rcases hm.named u.1 with hn | hn
      · left; rw [e, e', hn]
      · exact .inr ⟨o, _, u.1, hn, .inl ⟨e, e'⟩⟩
    · obtain ⟨o, k, k'⟩ := c4 p hp
      obtain ⟨u, e, r, first, r0, hf, hr0, l⟩ := (dup_mem h hix hsize env.ord uri _ _).mp k
      obtain ⟨_, e', r', first', r0', hf', hr0', l'⟩ := (dup_mem h' hix' hsize' env'.ord uri' _ _).mp k'
      obtain ⟨first1, hf1, rfl⟩ := (hm.occurs first').mp hf'.1.1
      have hsame : first1 = first := firstDef_same h ((hm.firstDef hf1 u.1).mp hf') hf
      subst hsame
      refine ⟨hlines u.1 r r', by rw [l, l']; exact .cons ⟨hlines hf.1.1 hr0 hr0', rfl⟩ .nil, ?_⟩
      rcases hm.named u.1 with hn | hn
      · left; rw [e, e', hn]
      · exact .inr ⟨o, _, u.1, hn, .inr ⟨e, e'⟩⟩

end
end HyperIR
