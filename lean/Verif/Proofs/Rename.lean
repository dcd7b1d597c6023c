import Verif.Spec.Rename
import Verif.Proofs.Diagnostics
import Verif.Proofs.Numbers
import Verif.Proofs.Flow

/-! Renames and shifts. -/

namespace HyperIR
open Spec

section
variable [Unicode]

/-! ### Numbered identifiers -/

theorem numeric_of_digit {c : Char} (h : Digit c) : Unicode.numeric c = true := by
  have := digit_range h
  rw [Unicode.numeric_ascii c (by omega)]
  exact digit_iff.mp h

theorem splitNumericSuffix_eq (id : Str) : (splitNumericSuffix id).1 ++ (splitNumericSuffix id).2 = id ∧
    (∀ c ∈ (splitNumericSuffix id).2, Unicode.numeric c = true) ∧
    (∀ c, (splitNumericSuffix id).1.getLast? = some c → Unicode.numeric c = false) := by
  unfold splitNumericSuffix
  simp only
  have hsplit := List.takeWhile_append_dropWhile (p := fun c => Unicode.numeric c) (l := id.reverse)
  have hid : id = (id.reverse.dropWhile fun c => Unicode.numeric c).reverse ++ (id.reverse.takeWhile fun c => Unicode.numeric c).reverse := by
    rw [← List.reverse_append, hsplit, List.reverse_reverse]
  have htake : id.take (id.length - (id.reverse.takeWhile fun c => Unicode.numeric c).reverse.length) =
      (id.reverse.dropWhile fun c => Unicode.numeric c).reverse := by
    conv => lhs; rw [hid]
    rw [List.take_append_of_le_length (by simp)]
    rw [List.take_of_length_le (by simp)]
  rw [htake]
  refine ⟨hid.symm, ?_, ?_⟩
  · intro c hc
    rw [List.mem_reverse] at hc
    have := List.all_takeWhile (l := id.reverse) (p := fun c => Unicode.numeric c)
    rw [List.all_eq_true] at this
    exact this c hc
  · intro c hc
    rw [List.getLast?_reverse] at hc
    have := List.head?_dropWhile_not (fun c => Unicode.numeric c) id.reverse
    rw [hc] at this
    simpa using this

theorem split_unique {id pre suf : Str} (h : id = pre ++ suf) (hs : ∀ c ∈ suf, Unicode.numeric c = true)
    (hp : ∀ c, pre.getLast? = some c → Unicode.numeric c = false) : splitNumericSuffix id = (pre, suf) := by
  obtain ⟨h1, h2, h3⟩ := splitNumericSuffix_eq id
  generalize splitNumericSuffix id = r at h1 h2 h3
  obtain ⟨p, s⟩ := r
  simp only at h1 h2 h3
  rw [h] at h1
  have key : ∀ {a b c d : Str}, a ++ b = c ++ d → (∀ x ∈ b, Unicode.numeric x = true) → (∀ x, c.getLast? = some x → Unicode.numeric x = false) →
      a.length ≤ c.length → a = c := by
    intro a b c d he hb hc hl
    rw [List.append_eq_append_iff] at he
    rcases he with ⟨m, rfl, rfl⟩ | ⟨m, rfl, rfl⟩
    · cases hm : m.getLast? with
      | none => rw [List.getLast?_eq_none_iff] at hm; simp [hm]
      | some x =>
        have h1 := hc x (by rw [List.getLast?_append, hm]; rfl)
        have h2 := hb x (by simp [List.mem_of_getLast? hm])
        rw [h1] at h2
        cases h2
    · have : m = [] := by
        rw [List.length_append] at hl
        exact List.length_eq_zero_iff.mp (by omega)
      simp [this]
  have hpe : p = pre := by
    rcases Nat.le_total p.length pre.length with hl | hl
    · exact key h1 h2 hp hl
    · exact (key h1.symm hs h3 hl).symm
  subst hpe
  rw [List.append_cancel_left h1]

omit [Unicode] in
theorem utf8Size_one {c : Char} (h : c.toNat < 128) : c.utf8Size = 1 := by
  unfold Char.utf8Size
  have : c.val ≤ 0x7f := by
    rw [UInt32.le_iff_toNat_le]
    show c.toNat ≤ 127
    omega
  simp [this]

theorem parseI64_numeric {w : Str} (hw : ∀ c ∈ w, Unicode.numeric c = true) {i : Int} :
    parseI64 w = some i ↔ ∃ n : Nat, i = n ∧ Denotes w n ∧ n < 2 ^ 63 := by
  have hns : ∀ c ∈ w, c ≠ '-' ∧ c ≠ '+' := by
    intro c hc
    have := hw c hc
    constructor <;> rintro rfl <;> rw [Unicode.numeric_ascii _ (by decide)] at this <;> revert this <;> decide
  have heq : parseI64 w = (match parseNat w with | some n => if n < 2 ^ 63 then some (n : Int) else none | none => none) := by
    unfold parseI64
    cases w with
    | nil => rfl
    | cons c cs =>
      have h1 := (hns c (by simp)).1
      have h2 := (hns c (by simp)).2
      split
      · rename_i heq; simp only [List.cons.injEq] at heq; exact absurd heq.1 h1
      · rename_i heq; simp only [List.cons.injEq] at heq; exact absurd heq.1 h2
      · rfl
  rw [heq]
  cases hp : parseNat w with
  | none =>
    simp only [reduceCtorEq, false_iff]
    rintro ⟨n, _, hd, _⟩
    rw [parseNat_iff.mpr hd] at hp
    cases hp
  | some m =>
    have hm := parseNat_iff.mp hp
    simp only
    constructor
    · intro h
      split at h
      · cases h
        exact ⟨m, rfl, hm, ‹_›⟩
      · cases h
    · rintro ⟨n, rfl, hd, hlt⟩
      have := denotes_unique hd hm
      subst this
      rw [if_pos hlt]

/-- Splitting numbered identifiers. -/
theorem extract_spec (id : Str) :
    (∀ p i, extractNumberFromIdentifier id = .ok (some (p, i)) → ∃ n : Nat, i = n ∧ Numbered id p n) ∧
    (extractNumberFromIdentifier id = .ok none → ∀ p n, ¬ Numbered id p n) ∧
    (extractNumberFromIdentifier id = .panic → ∃ c ∈ id, ¬ c.toNat < 128) := by
  obtain ⟨h1, h2, h3⟩ := splitNumericSuffix_eq id
  have hnone : (parseI64 (splitNumericSuffix id).2).map (fun n => ((splitNumericSuffix id).1, n)) = none → ∀ p n, ¬ Numbered id p n := by
    rintro hn p n ⟨digits, hd, hden, hlt, hp⟩
    rw [split_unique hd (fun c hc => numeric_of_digit (denotes_digits hden c hc)) hp] at hn
    rw [(parseI64_numeric (i := (n : Int)) (fun c hc => numeric_of_digit (denotes_digits hden c hc))).mpr ⟨n, rfl, hden, hlt⟩] at hn
    cases hn
  have hsome : ∀ p i, (parseI64 (splitNumericSuffix id).2).map (fun n => ((splitNumericSuffix id).1, n)) = some (p, i) →
      ∃ n : Nat, i = n ∧ Numbered id p n := by
    intro p i hs
    rw [Option.map_eq_some_iff] at hs
    obtain ⟨j, hj, e⟩ := hs
    simp only [Prod.mk.injEq] at e
    obtain ⟨rfl, rfl⟩ := e
    obtain ⟨n, rfl, hd, hlt⟩ := (parseI64_numeric h2).mp hj
    exact ⟨n, rfl, _, h1.symm, hd, hlt, h3⟩
  unfold extractNumberFromIdentifier
  generalize splitNumericSuffix id = r at *
  obtain ⟨name, nr⟩ := r
  simp only at *
  cases hl : name.getLast? with
  | none =>
    simp only
    refine ⟨fun p i h => hsome p i (by simpa using h), fun h => hnone (by simpa using h), fun h => by cases h⟩
  | some c =>
    simp only
    by_cases hc : c.utf8Size = 1
    · simp only [hc, if_true]
      refine ⟨fun p i h => hsome p i (by simpa using h), fun h => hnone (by simpa using h), fun h => by cases h⟩
    · simp only [hc, if_false]
      refine ⟨fun p i h => (by cases h), fun h => (by cases h), fun _ => ⟨c, ?_, fun h => hc (utf8Size_one h)⟩⟩
      rw [← h1]
      exact List.mem_append_left _ (List.mem_of_getLast? hl)

theorem numbered_unique {id p p' : Str} {n n' : Nat} (h : Numbered id p n) (h' : Numbered id p' n') : p = p' ∧ n = n' := by
  obtain ⟨d, e, hd, _, hp⟩ := h
  obtain ⟨d', e', hd', _, hp'⟩ := h'
  have h1 := split_unique e (fun c hc => numeric_of_digit (denotes_digits hd c hc)) hp
  rw [split_unique e' (fun c hc => numeric_of_digit (denotes_digits hd' c hc)) hp'] at h1
  simp only [Prod.mk.injEq] at h1
  obtain ⟨rfl, rfl⟩ := h1
  exact ⟨rfl, denotes_unique hd hd'⟩

/-! ### Tables -/

variable {src : Str} {res : ParserResult} {ix : HIRIndex}

omit [Unicode] in
theorem tableOf_spec {k : SymbolKind} {f : Option Nat} (hd : DistinctKeys ix) (hk : (k = .label ∨ k = .localVar) ↔ ∃ i, f = some i)
    (hf : ∀ i, f = some i → i < ix.functionBodies.length) :
    ∃ m, tableOf ix k f = .ok m ∧ (∀ n, m.get? n = entry? ix k f n) ∧ (m.map Prod.fst).Nodup := by
  cases f with
  | none =>
    cases k <;> simp at hk
    · exact ⟨_, rfl, fun _ => rfl, hd.globalVars⟩
    · exact ⟨_, rfl, fun _ => rfl, hd.functions⟩
    · exact ⟨_, rfl, fun _ => rfl, hd.dbg⟩
  | some i =>
    have hi := hf i rfl
    have hb : ix.functionBodies[i]? = some ix.functionBodies[i] := List.getElem?_eq_getElem hi
    have hn := hd.bodies _ (List.getElem_mem hi)
    unfold tableOf HIRIndex.funcBody
    simp only [hb]
    cases k <;> simp at hk
    · refine ⟨_, rfl, fun n => ?_, hn.1⟩
      simp [entry?, hb]
    · refine ⟨_, rfl, fun n => ?_, hn.2⟩
      simp [entry?, hb]

theorem occurs_scope (h : parseFromStr src = .ok res) (hix : createIndex src res.tokens res.stmts = .ok ix) {o : SymbolOccurrence}
    (ho : Occurs res.tokens res.stmts o) :
    ((o.symbolKind = .label ∨ o.symbolKind = .localVar) ↔ ∃ i, o.funcBodyId = some i) ∧
    ∀ i, o.funcBodyId = some i → i < ix.functionBodies.length := by
  have hl : Listed ix o := (occurs_listed h hix).mpr ho
  obtain ⟨c1, c2, c3, _⟩ := C20_local_scope h hix
  refine ⟨c3 o hl, ?_⟩
  intro i hi
  obtain ⟨f, hf, _⟩ := c2 o i hl hi
  have := (List.getElem?_eq_some_iff.mp hf).1
  rw [← c1, List.length_map] at this
  exact this

theorem occurs_table (h : parseFromStr src = .ok res) (hix : createIndex src res.tokens res.stmts = .ok ix) {o : SymbolOccurrence}
    (ho : Occurs res.tokens res.stmts o) :
    ∃ m, tableOf ix o.symbolKind o.funcBodyId = .ok m ∧ (∀ n, m.get? n = entry? ix o.symbolKind o.funcBodyId n) ∧ (m.map Prod.fst).Nodup := by
  obtain ⟨h1, h2⟩ := occurs_scope h hix ho
  exact tableOf_spec (distinctKeys h hix) h1 h2

/-- All occurrences of a symbol. -/
def occsOf (ix : HIRIndex) (k : SymbolKind) (f : Option Nat) (n : Str) : List SymbolOccurrence :=
  (listed ix k f n .decl).map (fun sp => ⟨sp, .decl, k, n, f⟩) ++ (listed ix k f n .def_).map (fun sp => ⟨sp, .def_, k, n, f⟩) ++
    (listed ix k f n .use).map (fun sp => ⟨sp, .use, k, n, f⟩)

theorem mem_occsOf (h : parseFromStr src = .ok res) (hix : createIndex src res.tokens res.stmts = .ok ix) {k f n} {o : SymbolOccurrence} :
    o ∈ occsOf ix k f n ↔ Occurs res.tokens res.stmts o ∧ o.symbolKind = k ∧ o.funcBodyId = f ∧ o.name = n := by
  unfold occsOf
  simp only [List.mem_append, List.mem_map, listed_occurs h hix]
  constructor
  · rintro ((⟨sp, h1, rfl⟩ | ⟨sp, h1, rfl⟩) | ⟨sp, h1, rfl⟩) <;> exact ⟨h1, rfl, rfl, rfl⟩
  · obtain ⟨sp, ud, k', n', f'⟩ := o
    rintro ⟨h1, rfl, rfl, rfl⟩
    cases ud
    · exact .inl (.inl ⟨sp, h1, rfl⟩)
    · exact .inl (.inr ⟨sp, h1, rfl⟩)
    · exact .inr ⟨sp, h1, rfl⟩

theorem occsOf_nodup (h : parseFromStr src = .ok res) (hix : createIndex src res.tokens res.stmts = .ok ix) (k f n) :
    (occsOf ix k f n).Nodup := by
  have hm : ∀ ud, ((listed ix k f n ud).map fun sp => (⟨sp, ud, k, n, f⟩ : SymbolOccurrence)).Nodup := by
    intro ud
    exact List.Pairwise.map _ (fun a b hab e => hab (by simpa using e)) (listed_nodup h hix k f n ud)
  unfold occsOf
  rw [List.nodup_append, List.nodup_append]
  refine ⟨⟨hm _, hm _, ?_⟩, hm _, ?_⟩
  · intro a ha b hb e
    obtain ⟨_, _, rfl⟩ := List.mem_map.mp ha
    obtain ⟨_, _, rfl⟩ := List.mem_map.mp hb
    cases e
  · intro a ha b hb e
    obtain ⟨_, _, rfl⟩ := List.mem_map.mp hb
    rcases List.mem_append.mp ha with ha | ha <;> obtain ⟨_, _, rfl⟩ := List.mem_map.mp ha <;> cases e

omit [Unicode] in
/-- The edits as computed: one for each occurrence, at its range. -/
def RawEdits (rope : Str) (changes : List (SymbolOccurrence × Str)) (edits : List TextEdit) : Prop :=
  Each (fun c e => e.newText = c.2 ∧ rangeToLsp rope c.1.span = some e.range) changes edits

theorem renames_of_raw (h : parseFromStr src = .ok res) (hsize : src.length < 2 ^ 32) {chs : List (SymbolOccurrence × Str)} {edits : List TextEdit}
    (hr : RawEdits src chs edits) (ho : ∀ o new, (o, new) ∈ chs → Occurs res.tokens res.stmts o) : Renames src chs edits := by
  unfold RawEdits at hr
  unfold Renames
  induction hr with
  | nil => exact .nil
  | @cons c e _ _ h1 _ ih =>
    exact .cons ⟨h1.1, occurs_range_editor h hsize (ho c.1 c.2 (by simp)) h1.2⟩ (ih fun o new hm => ho o new (by simp [hm]))

/-- The edits of one symbol, as computed. -/
theorem getRenameEdits_raw (h : parseFromStr src = .ok res) (hix : createIndex src res.tokens res.stmts = .ok ix)
    (hsize : src.length < 2 ^ 32) {k f n u} (hent : entry? ix k f n = some u) (new : Str) :
    RawEdits src ((occsOf ix k f n).map fun o => (o, new)) (getRenameEdits src u new) := by
  unfold getRenameEdits RawEdits occsOf
  have hu : ∀ ud, u.get ud = listed ix k f n ud := entry_get hent
  have hp : ∀ ud, Each (fun (c : SymbolOccurrence × Str) (e : TextEdit) => e.newText = c.2 ∧ rangeToLsp src c.1.span = some e.range)
      (((listed ix k f n ud).map fun sp => (⟨sp, ud, k, n, f⟩ : SymbolOccurrence)).map fun o => (o, new))
      ((u.get ud).filterMap fun sp => (rangeToLsp src sp).map fun r => { range := r, newText := new }) := by
    intro ud
    rw [← hu ud, List.map_map]
    refine Each.map_left _ (each_filterMap_total ?_)
    intro sp hsp
    rw [hu ud] at hsp
    have ho := (listed_occurs h hix).mp hsp
    obtain ⟨r, hr⟩ := occurs_rangeToLsp h hsize ho
    simp only at hr
    exact ⟨{ range := r, newText := new }, by rw [hr]; rfl, rfl, hr⟩
  have happ : ∀ {α β : Type} {R : α → β → Prop} {a a' : List α} {b b' : List β}, Each R a b → Each R a' b' → Each R (a ++ a') (b ++ b') := by
    intro α β R a a' b b' h1 h2
    induction h1 with
    | nil => exact h2
    | cons h _ ih => exact .cons h ih
  rw [List.map_append, List.map_append, List.filterMap_append, List.filterMap_append]
  exact happ (happ (hp .decl) (hp .def_)) (hp .use)

/-- The edits of one symbol. -/
theorem getRenameEdits_spec (h : parseFromStr src = .ok res) (hix : createIndex src res.tokens res.stmts = .ok ix)
    (hsize : src.length < 2 ^ 32) {k f n u} (hent : entry? ix k f n = some u) (new : Str) :
    Renames src ((occsOf ix k f n).map fun o => (o, new)) (getRenameEdits src u new) := by
  refine renames_of_raw h hsize (getRenameEdits_raw h hix hsize hent new) ?_
  intro o new' hm
  obtain ⟨o', h1, e⟩ := List.mem_map.mp hm
  cases e
  exact ((mem_occsOf h hix).mp h1).1

/-! ### Shifts -/

omit [Unicode] in
theorem Each.append {α β : Type} {R : α → β → Prop} {a a' : List α} {b b' : List β} (h1 : Each R a b) (h2 : Each R a' b') :
    Each R (a ++ a') (b ++ b') := by
  induction h1 with
  | nil => exact h2
  | cons h _ ih => exact .cons h ih

/-- What a shift makes of the name of a symbol. -/
def ShiftOf (b : Build) (start shift : Int) (name new : Str) : Prop :=
  ∃ pre nr s, Numbered name pre nr ∧ start ≤ nr ∧ i64Op b (nr + shift) = .ok s ∧ new = pre ++ showInt (wrappingAbs s)

theorem shiftOf_unique {b : Build} {start shift : Int} {name new new' : Str} (h : ShiftOf b start shift name new)
    (h' : ShiftOf b start shift name new') : new = new' := by
  obtain ⟨pre, nr, s, h1, h2, h3, rfl⟩ := h
  obtain ⟨pre', nr', s', h1', h2', h3', rfl⟩ := h'
  obtain ⟨rfl, rfl⟩ := numbered_unique h1 h1'
  rw [h3] at h3'
  cases h3'
  rfl

theorem shiftEditsOf_raw (h : parseFromStr src = .ok res) (hix : createIndex src res.tokens res.stmts = .ok ix)
    (hsize : src.length < 2 ^ 32) {k f n u} (hent : entry? ix k f n = some u) {b : Build} {start shift : Int} {ys : List TextEdit}
    (hok : shiftEditsOf b src start shift n u = .ok ys) :
    ∃ chs, RawEdits src chs ys ∧ (chs.map Prod.fst).Nodup ∧ ∀ o new, (o, new) ∈ chs ↔
      Occurs res.tokens res.stmts o ∧ o.symbolKind = k ∧ o.funcBodyId = f ∧ o.name = n ∧ ShiftOf b start shift n new := by
  obtain ⟨e1, e2, _⟩ := extract_spec n
  unfold shiftEditsOf at hok
  cases hx : extractNumberFromIdentifier n with
  | panic => rw [hx] at hok; cases hok
  | ok r =>
    rw [hx] at hok
    cases r with
    | none =>
      cases hok
      refine ⟨[], .nil, .nil, ?_⟩
      intro o new
      simp only [List.not_mem_nil, false_iff]
      rintro ⟨_, _, _, _, pre, nr, s, h1, _⟩
      exact e2 hx pre nr h1
    | some r =>
      obtain ⟨pre, i⟩ := r
      obtain ⟨nr, rfl, hnum⟩ := e1 pre i hx
      simp only at hok
      split at hok
      · cases hok
        refine ⟨[], .nil, .nil, ?_⟩
        intro o new
        simp only [List.not_mem_nil, false_iff]
        rintro ⟨_, _, _, _, pre', nr', s, h1, h2, _⟩
        obtain ⟨rfl, rfl⟩ := numbered_unique hnum h1
        omega
      · rename_i hge
        cases hop : i64Op b (nr + shift) with
        | panic => rw [hop] at hok; cases hok
        | ok s =>
          rw [hop] at hok
          cases hok
          refine ⟨_, getRenameEdits_raw h hix hsize hent _, ?_, ?_⟩
          · rw [List.map_map]
            show (List.map (fun o => o) _).Nodup
            rw [List.map_id']
            exact occsOf_nodup h hix k f n
          · intro o new
            rw [List.mem_map]
            have hs : ShiftOf b start shift n (pre ++ showInt (wrappingAbs s)) := ⟨pre, nr, s, hnum, by omega, hop, rfl⟩
            constructor
            · rintro ⟨o', h1, e⟩
              cases e
              obtain ⟨h2, h3, h4, h5⟩ := (mem_occsOf h hix).mp h1
              exact ⟨h2, h3, h4, h5, hs⟩
            · rintro ⟨h2, h3, h4, h5, h6⟩
              exact ⟨o, (mem_occsOf h hix).mpr ⟨h2, h3, h4, h5⟩, by rw [shiftOf_unique h6 hs]⟩

theorem collectShift_raw (h : parseFromStr src = .ok res) (hix : createIndex src res.tokens res.stmts = .ok ix)
    (hsize : src.length < 2 ^ 32) {k f} {b : Build} {start shift : Int} : ∀ {l : StrMap UseDefList} {ys : List TextEdit},
    (∀ x ∈ l, entry? ix k f x.1 = some x.2) → (l.map Prod.fst).Nodup →
    collectO (fun (name, u) => shiftEditsOf b src start shift name u) l = .ok ys →
    ∃ chs, RawEdits src chs ys ∧ (chs.map Prod.fst).Nodup ∧ ∀ o new, (o, new) ∈ chs ↔
      Occurs res.tokens res.stmts o ∧ o.symbolKind = k ∧ o.funcBodyId = f ∧ o.name ∈ l.map Prod.fst ∧ ShiftOf b start shift o.name new
  | [], ys, _, _, hok => by
    cases hok
    exact ⟨[], .nil, .nil, by simp⟩
  | (n, u) :: l, ys, hl, hn, hok => by
    unfold collectO at hok
    simp only at hok
    cases h1 : shiftEditsOf b src start shift n u with
    | panic => rw [h1] at hok; cases hok
    | ok y =>
      rw [h1] at hok
      simp only at hok
      cases h2 : collectO (fun x : Str × UseDefList => shiftEditsOf b src start shift x.1 x.2) l with
      | panic => rw [h2] at hok; cases hok
      | ok zs =>
        rw [h2] at hok
        cases hok
        rw [List.map_cons, List.nodup_cons] at hn
        obtain ⟨c1, r1, d1, m1⟩ := shiftEditsOf_raw h hix hsize (hl (n, u) (by simp)) h1
        obtain ⟨c2, r2, d2, m2⟩ := collectShift_raw h hix hsize (fun x hx => hl x (by simp [hx])) hn.2 h2
        refine ⟨c1 ++ c2, Each.append r1 r2, ?_, ?_⟩
        · rw [List.map_append, List.nodup_append]
          refine ⟨d1, d2, ?_⟩
          intro a ha b hb e
          subst e
          obtain ⟨x, hx, e1⟩ := List.mem_map.mp ha
          obtain ⟨y, hy, e2⟩ := List.mem_map.mp hb
          obtain ⟨_, _, _, h3, _⟩ := (m1 x.1 x.2).mp hx
          obtain ⟨_, _, _, h4, _⟩ := (m2 y.1 y.2).mp hy
          rw [e1] at h3
          rw [e2] at h4
          exact hn.1 (by rw [← h3]; exact h4)
        · intro o new
          rw [List.mem_append, m1, m2, List.map_cons, List.mem_cons]
          constructor
          · rintro (⟨a1, a2, a3, rfl, a5⟩ | ⟨a1, a2, a3, a4, a5⟩)
            · exact ⟨a1, a2, a3, .inl rfl, a5⟩
            · exact ⟨a1, a2, a3, .inr a4, a5⟩
          · rintro ⟨a1, a2, a3, a4 | a4, a5⟩
            · exact .inl ⟨a1, a2, a3, a4, by rw [← a4]; exact a5⟩
            · exact .inr ⟨a1, a2, a3, a4, a5⟩

theorem getShiftEdits_table {ord : IterOrder} {b : Build} {rope : Str} {k : SymbolKind} {f : Option Nat} {start shift : Int}
    {m : StrMap UseDefList} (hm : tableOf ix k f = .ok m) :
    getShiftEdits ord b rope ix k f start shift =
      collectO (fun (x : Str × UseDefList) => shiftEditsOf b rope start shift x.1 x.2) (ord.run m) := by
  unfold getShiftEdits
  unfold tableOf at hm
  cases hb : ix.funcBody f with
  | panic => rw [hb] at hm; cases hm
  | ok fb =>
    rw [hb] at hm
    simp only at hm ⊢
    rw [hm]

theorem occurs_entry (h : parseFromStr src = .ok res) (hix : createIndex src res.tokens res.stmts = .ok ix) {o : SymbolOccurrence}
    (ho : Occurs res.tokens res.stmts o) : ∃ u, entry? ix o.symbolKind o.funcBodyId o.name = some u := by
  have hl : Listed ix o := (occurs_listed h hix).mpr ho
  unfold Listed listed at hl
  cases he : entry? ix o.symbolKind o.funcBodyId o.name with
  | some u => exact ⟨u, rfl⟩
  | none =>
    rw [he] at hl
    cases hud : o.useDef <;> rw [hud] at hl <;> simp [UseDefList.get] at hl

/-- The edits of a shift, as computed. -/
theorem getShiftEdits_raw (h : parseFromStr src = .ok res) (hix : createIndex src res.tokens res.stmts = .ok ix)
    (hsize : src.length < 2 ^ 32) {k f} (hk : (k = .label ∨ k = .localVar) ↔ ∃ i, f = some i)
    (hf : ∀ i, f = some i → i < ix.functionBodies.length) {ord : IterOrder} {b : Build} {start shift : Int} {edits : List TextEdit}
    (hok : getShiftEdits ord b src ix k f start shift = .ok edits) :
    ∃ chs, RawEdits src chs edits ∧ (chs.map Prod.fst).Nodup ∧ ∀ o new, (o, new) ∈ chs ↔
      Occurs res.tokens res.stmts o ∧ o.symbolKind = k ∧ o.funcBodyId = f ∧ ShiftOf b start shift o.name new := by
  obtain ⟨m, hm, hget, hnd⟩ := tableOf_spec (distinctKeys h hix) hk hf
  rw [getShiftEdits_table hm] at hok
  have hperm := ord.perm m
  obtain ⟨chs, r1, d1, m1⟩ := collectShift_raw h hix hsize (k := k) (f := f) (l := ord.run m)
    (fun x hx => by rw [← hget]; exact StrMap.get?_of_mem hnd (hperm.mem_iff.mp hx)) ((hperm.map Prod.fst).nodup_iff.mpr hnd) hok
  refine ⟨chs, r1, d1, ?_⟩
  intro o new
  rw [m1]
  constructor
  · rintro ⟨a1, a2, a3, _, a5⟩
    exact ⟨a1, a2, a3, a5⟩
  · rintro ⟨a1, a2, a3, a5⟩
    refine ⟨a1, a2, a3, ?_, a5⟩
    obtain ⟨u, hu⟩ := occurs_entry h hix a1
    rw [a2, a3, ← hget] at hu
    exact List.mem_map.mpr ⟨_, hperm.mem_iff.mpr (StrMap.mem_of_get? hu), rfl⟩

/-- The edits of a shift. -/
theorem getShiftEdits_spec (h : parseFromStr src = .ok res) (hix : createIndex src res.tokens res.stmts = .ok ix)
    (hsize : src.length < 2 ^ 32) {k f} (hk : (k = .label ∨ k = .localVar) ↔ ∃ i, f = some i)
    (hf : ∀ i, f = some i → i < ix.functionBodies.length) {ord : IterOrder} {b : Build} {start shift : Int} {edits : List TextEdit}
    (hok : getShiftEdits ord b src ix k f start shift = .ok edits) :
    ∃ chs, Renames src chs edits ∧ (chs.map Prod.fst).Nodup ∧ ∀ o new, (o, new) ∈ chs ↔
      Occurs res.tokens res.stmts o ∧ o.symbolKind = k ∧ o.funcBodyId = f ∧ ShiftOf b start shift o.name new := by
  obtain ⟨chs, h1, h2, h3⟩ := getShiftEdits_raw h hix hsize hk hf hok
  exact ⟨chs, renames_of_raw h hsize h1 fun o new hm => ((h3 o new).mp hm).1, h2, h3⟩

omit [Unicode] in
theorem collectO_ok {α β : Type} {g : α → Outcome (List β)} : ∀ {l : List α}, (∀ x ∈ l, ∃ y, g x = .ok y) → ∃ ys, collectO g l = .ok ys
  | [], _ => ⟨[], rfl⟩
  | x :: xs, hx => by
    obtain ⟨y, hy⟩ := hx x (by simp)
    obtain ⟨ys, hys⟩ := collectO_ok (l := xs) (fun z hz => hx z (by simp [hz]))
    exact ⟨y ++ ys, by unfold collectO; rw [hy]; simp only; rw [hys]⟩

omit [Unicode] in
theorem collectO_panic {α β : Type} {g : α → Outcome (List β)} : ∀ {l : List α} {x : α}, x ∈ l → g x = .panic → collectO g l = .panic
  | y :: ys, x, hx, hg => by
    unfold collectO
    rcases List.mem_cons.mp hx with rfl | hx
    · rw [hg]
    · cases g y with
      | panic => rfl
      | ok z => simp only; rw [collectO_panic hx hg]

/-- A shift does not crash if the new numbers are in range. -/
theorem getShiftEdits_total (h : parseFromStr src = .ok res) (hix : createIndex src res.tokens res.stmts = .ok ix)
    {k f} (hk : (k = .label ∨ k = .localVar) ↔ ∃ i, f = some i)
    (hf : ∀ i, f = some i → i < ix.functionBodies.length) (ord : IterOrder) {b : Build} {start shift : Int}
    (hwide : ∀ o, Occurs res.tokens res.stmts o → o.symbolKind = k → o.funcBodyId = f → Ascii o.name)
    (hrange : ∀ o pre nr, Occurs res.tokens res.stmts o → o.symbolKind = k → o.funcBodyId = f → Numbered o.name pre nr → start ≤ nr →
      nr + shift < 2 ^ 63 ∧ -(2 ^ 63) ≤ nr + shift) :
    ∃ edits, getShiftEdits ord b src ix k f start shift = .ok edits := by
  obtain ⟨m, hm, hget, hnd⟩ := tableOf_spec (distinctKeys h hix) hk hf
  rw [getShiftEdits_table hm]
  apply collectO_ok
  intro x hx
  have hx' : entry? ix k f x.1 = some x.2 := by
    rw [← hget]; exact StrMap.get?_of_mem hnd ((ord.perm m).mem_iff.mp hx)
  obtain ⟨o, ho, hok, hof, hon⟩ : ∃ o, Occurs res.tokens res.stmts o ∧ o.symbolKind = k ∧ o.funcBodyId = f ∧ o.name = x.1 := by
    obtain ⟨g, hinv, hocc, _⟩ := index_inv h hix
    have := (hinv.keys k f x.1).mp (by rw [hx']; rfl)
    obtain ⟨o, ho, h1⟩ := this
    exact ⟨o, occurs_iff.mpr (by rw [← hocc]; exact ho), h1.1, h1.2.1, h1.2.2⟩
  unfold shiftEditsOf
  obtain ⟨e1, _, e3⟩ := extract_spec x.1
  cases hx : extractNumberFromIdentifier x.1 with
  | panic =>
    obtain ⟨c, hc, hlt⟩ := e3 hx
    exact absurd (hwide o ho hok hof c (by rw [hon]; exact hc)) hlt
  | ok r =>
    cases r with
    | none => exact ⟨_, rfl⟩
    | some r =>
      obtain ⟨pre, i⟩ := r
      obtain ⟨nr, rfl, hnum⟩ := e1 pre i hx
      simp only
      split
      · exact ⟨_, rfl⟩
      · have := hrange o pre nr ho hok hof (by rw [hon]; exact hnum) (by omega)
        have hop : i64Op b (nr + shift) = .ok (nr + shift) := by
          unfold i64Op i64InRange
          rw [if_pos (by simp; omega)]
        rw [hop]
        exact ⟨_, rfl⟩

end

end HyperIR
