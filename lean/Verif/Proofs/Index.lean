import Verif.Spec.Symbols

/- The index as a function of the list of occurrences (src/hir_index.rs). -/

namespace HyperIR
open Spec

/-! ### Maps -/

section Map
variable {V : Type}

theorem StrMap.get?_modifyEntry (d : V) (m : StrMap V) (k k' : Str) (f : V → V) :
    (m.modifyEntry d k f).get? k' = if k = k' then some (f ((m.get? k).getD d)) else m.get? k' := by
  induction m with
  | nil => simp [StrMap.modifyEntry, StrMap.get?]
  | cons e m ih =>
    obtain ⟨k0, v⟩ := e
    by_cases h0 : k0 = k
    · subst h0
      by_cases h1 : k0 = k' <;> simp [StrMap.modifyEntry, StrMap.get?, h1]
    · by_cases h1 : k0 = k'
      · subst h1
        have : k ≠ k0 := fun h => h0 h.symm
        simp [StrMap.modifyEntry, StrMap.get?, h0, this]
      · simp [StrMap.modifyEntry, StrMap.get?, h0, h1, ih]

theorem StrMap.get?_isSome {m : StrMap V} {k : Str} : (m.get? k).isSome ↔ k ∈ m.map Prod.fst := by
  induction m with
  | nil => simp [StrMap.get?]
  | cons e m ih =>
    obtain ⟨k0, v⟩ := e
    by_cases h0 : k0 = k
    · simp [StrMap.get?, h0]
    · have : ¬ k = k0 := fun h => h0 h.symm
      simp only [StrMap.get?, h0, if_false, ih, List.map_cons, List.mem_cons, this, false_or]

theorem StrMap.mem_keys_modifyEntry {d : V} {m : StrMap V} {k k' : Str} {f : V → V} :
    k' ∈ (m.modifyEntry d k f).map Prod.fst ↔ k' = k ∨ k' ∈ m.map Prod.fst := by
  rw [← StrMap.get?_isSome, ← StrMap.get?_isSome, StrMap.get?_modifyEntry]
  by_cases h : k = k'
  · simp [h]
  · have : ¬ k' = k := fun h' => h h'.symm
    simp [h, this]

theorem StrMap.nodup_modifyEntry {d : V} {m : StrMap V} {k : Str} {f : V → V} (h : (m.map Prod.fst).Nodup) :
    ((m.modifyEntry d k f).map Prod.fst).Nodup := by
  induction m with
  | nil => simp [StrMap.modifyEntry]
  | cons e m ih =>
    obtain ⟨k0, v⟩ := e
    simp only [List.map_cons, List.nodup_cons] at h
    by_cases h0 : k0 = k
    · simp [StrMap.modifyEntry, h0, h.2]
      simpa [h0] using h.1
    · simp only [StrMap.modifyEntry, h0, if_false, List.map_cons, List.nodup_cons]
      refine ⟨?_, ih h.2⟩
      rw [StrMap.mem_keys_modifyEntry]
      rintro (h' | h')
      · exact h0 h'
      · exact h.1 h'

theorem StrMap.get?_of_mem {m : StrMap V} (h : (m.map Prod.fst).Nodup) {k : Str} {v : V} (hm : (k, v) ∈ m) :
    m.get? k = some v := by
  induction m with
  | nil => cases hm
  | cons e m ih =>
    obtain ⟨k0, v0⟩ := e
    simp only [List.map_cons, List.nodup_cons] at h
    rcases List.mem_cons.mp hm with h1 | h1
    · cases h1; simp [StrMap.get?]
    · have : k0 ≠ k := by
        rintro rfl
        exact h.1 (List.mem_map.mpr ⟨_, h1, rfl⟩)
      simp [StrMap.get?, this, ih h.2 h1]

theorem StrMap.mem_of_get? {m : StrMap V} {k : Str} {v : V} (h : m.get? k = some v) : (k, v) ∈ m := by
  induction m with
  | nil => simp [StrMap.get?] at h
  | cons e m ih =>
    obtain ⟨k0, v0⟩ := e
    by_cases h0 : k0 = k
    · simp [StrMap.get?, h0] at h; simp [h0, h]
    · simp only [StrMap.get?, h0, if_false] at h
      exact List.mem_cons_of_mem _ (ih h)

end Map

/-! ### Ghost state -/

/-- A function body as seen by the index: name, range, blocks and (target, label of the branching block) for every
branch so far. -/
structure GBody where
  name : Spanned Str
  range : Span
  blocks : List BasicBlock
  edges : List (Str × Spanned Str) := []

/-- What the index represents. -/
structure Ghost where
  occs : List SymbolOccurrence := []
  bodies : List GBody := []
  exts : List (Str × ExternalDef) := []
  vals : StrMap Str := []

/-- Same symbol, same place. -/
def SameKey (o o' : SymbolOccurrence) : Prop :=
  o.symbolKind = o'.symbolKind ∧ o.funcBodyId = o'.funcBodyId ∧ o.name = o'.name ∧ o.span = o'.span

instance (o o' : SymbolOccurrence) : Decidable (SameKey o o') := by unfold SameKey; infer_instance

/-- Occurrences are only added once. -/
def addTo (occs : List SymbolOccurrence) (o : SymbolOccurrence) : List SymbolOccurrence :=
  if ∃ o' ∈ occs, SameKey o' o then occs else occs ++ [o]

/-- The reverse index of occurrences. -/
def revOf (occs : List SymbolOccurrence) : RevIdx :=
  occs.foldl (fun r o => r.insert o.span.start o) []

/-- A symbol in its scope. -/
def Scoped (n : Nat) (o : SymbolOccurrence) : Prop :=
  match o.symbolKind, o.funcBodyId with
  | .globalVar, none => True
  | .function, none => True
  | .dbgAnnotation, none => True
  | .label, some i => i < n
  | .localVar, some i => i < n
  | _, _ => False

/-- The fixed part of a function body. -/
def FunctionBody.view (b : FunctionBody) : Spanned Str × Span × List BasicBlock × StrMap (List (Spanned Str)) :=
  (b.name, b.completeRange, b.basicBlocks, b.incomingBbBranches)

def incomingOf (edges : List (Str × Spanned Str)) : StrMap (List (Spanned Str)) :=
  edges.foldl (fun m e => addIncoming m e.1 e.2) []

def GBody.view (b : GBody) : Spanned Str × Span × List BasicBlock × StrMap (List (Spanned Str)) :=
  (b.name, b.range, b.blocks, incomingOf b.edges)

/-- The symbol of an occurrence. -/
def IsOf (k : SymbolKind) (f : Option Nat) (n : Str) (o : SymbolOccurrence) : Prop :=
  o.symbolKind = k ∧ o.funcBodyId = f ∧ o.name = n

instance (k f n o) : Decidable (IsOf k f n o) := by unfold IsOf; infer_instance

/-- The tables have distinct keys. -/
structure DistinctKeys (ix : HIRIndex) : Prop where
  globalVars : (ix.globalVars.map Prod.fst).Nodup
  functions : (ix.functions.map Prod.fst).Nodup
  dbg : (ix.dbgAnnotations.map Prod.fst).Nodup
  bodies : ∀ b ∈ ix.functionBodies, (b.labels.map Prod.fst).Nodup ∧ (b.localVars.map Prod.fst).Nodup

structure Inv (ix : HIRIndex) (g : Ghost) : Prop where
  tab : ∀ k f n ud, listed ix k f n ud =
    (g.occs.filter fun o => decide (IsOf k f n o ∧ o.useDef = ud)).map (·.span)
  rev : ix.reverseIdx = revOf g.occs
  keys : ∀ k f n, (entry? ix k f n).isSome ↔ ∃ o ∈ g.occs, IsOf k f n o
  nodup : DistinctKeys ix
  inScope : ∀ o ∈ g.occs, Scoped g.bodies.length o
  bodies : ix.functionBodies.map FunctionBody.view = g.bodies.map GBody.view
  ext : ∀ k f n, ((entry? ix k f n).getD {}).externalDefs =
    if k = .function ∧ f = none then (g.exts.filter fun e => decide (e.1 = n)).map Prod.snd else []
  vals : ix.dbgAnnotationValues = g.vals

theorem inv_empty : Inv {} {} where
  tab k f n ud := by cases k <;> cases f <;> cases ud <;> rfl
  rev := rfl
  keys k f n := by cases k <;> cases f <;> simp [entry?, StrMap.get?]
  nodup := ⟨by simp, by simp, by simp, by simp⟩
  inScope := by simp
  bodies := rfl
  ext k f n := by cases k <;> cases f <;> simp [entry?, StrMap.get?]
  vals := rfl

theorem Inv.length {ix : HIRIndex} {g : Ghost} (h : Inv ix g) : ix.functionBodies.length = g.bodies.length := by
  have := congrArg List.length h.bodies
  simpa using this

/-! ### Adding an occurrence -/

theorem UseDefList.get_push (u : UseDefList) (k k' : UseDefKind) (sp : Span) :
    (u.push k sp).get k' = u.get k' ++ if k = k' then [sp] else [] := by
  cases k <;> cases k' <;> simp [UseDefList.push, UseDefList.get]

theorem UseDefList.hasSpan_iff (u : UseDefList) (sp : Span) : u.hasSpan sp = true ↔ ∃ k, sp ∈ u.get k := by
  simp only [UseDefList.hasSpan, Bool.or_eq_true, decide_eq_true_eq]
  constructor
  · rintro ((h | h) | h)
    · exact ⟨.decl, h⟩
    · exact ⟨.def_, h⟩
    · exact ⟨.use, h⟩
  · rintro ⟨k, h⟩
    cases k
    · exact .inl (.inl h)
    · exact .inl (.inr h)
    · exact .inr h

theorem Inv.hasSpan {ix : HIRIndex} {g : Ghost} (h : Inv ix g) (k : SymbolKind) (f : Option Nat) (n : Str) (sp : Span) :
    ((entry? ix k f n).getD {}).hasSpan sp = true ↔ ∃ o ∈ g.occs, IsOf k f n o ∧ o.span = sp := by
  rw [UseDefList.hasSpan_iff]
  have ht := h.tab k f n
  unfold listed at ht
  simp only [ht, List.mem_map, List.mem_filter, decide_eq_true_eq]
  constructor
  · rintro ⟨ud, o, ⟨h1, h2, h3⟩, h4⟩
    exact ⟨o, h1, h2, h4⟩
  · rintro ⟨o, h1, h2, h3⟩
    exact ⟨o.useDef, o, ⟨h1, h2, rfl⟩, h3⟩

theorem Inv.push {ix ix' : HIRIndex} {g : Ghost} (h : Inv ix g) (o : SymbolOccurrence)
    (hentry : ∀ k f n, entry? ix' k f n =
      if IsOf k f n o then some (((entry? ix k f n).getD {}).push o.useDef o.span) else entry? ix k f n)
    (hrev : ix'.reverseIdx = ix.reverseIdx.insert o.span.start o)
    (hnodup : DistinctKeys ix') (hscoped : Scoped g.bodies.length o)
    (hviews : ix'.functionBodies.map FunctionBody.view = ix.functionBodies.map FunctionBody.view)
    (hvals : ix'.dbgAnnotationValues = ix.dbgAnnotationValues) :
    Inv ix' { g with occs := g.occs ++ [o] } where
  tab k f n ud := by
    have ht := h.tab k f n ud
    unfold listed at ht ⊢
    rw [hentry]
    simp only [List.filter_append, List.map_append, ← ht]
    by_cases hk : IsOf k f n o
    · simp only [hk, if_true, Option.getD_some, UseDefList.get_push]
      by_cases hu : o.useDef = ud <;> simp [hu, hk]
    · simp [hk]
  rev := by simp only [hrev, h.rev, revOf, List.foldl_append, List.foldl_cons, List.foldl_nil]
  keys k f n := by
    rw [hentry]
    have := h.keys k f n
    by_cases hk : IsOf k f n o <;> simp [hk, this]
  nodup := hnodup
  inScope := by
    intro o' ho'
    rcases List.mem_append.mp ho' with h1 | h1
    · exact h.inScope o' h1
    · simp at h1; subst h1; exact hscoped
  bodies := by rw [hviews, h.bodies]
  ext k f n := by
    rw [hentry, ← h.ext k f n]
    by_cases hk : IsOf k f n o
    · simp only [hk, if_true, Option.getD_some]
      cases o.useDef <;> rfl
    · simp [hk]
  vals := by rw [hvals, h.vals]

/-- Adding an occurrence to the index. -/
def addOcc (ix : HIRIndex) (o : SymbolOccurrence) : Outcome HIRIndex :=
  match o.funcBodyId with
  | none => ix.addGlobal o.symbolKind o.useDef o.span o.name
  | some i => ix.addFuncLocal i o.symbolKind o.useDef o.span o.name

theorem set_self {α : Type} {l : List α} {i : Nat} {x : α} (h : l[i]? = some x) : l.set i x = l := by
  obtain ⟨hi, rfl⟩ := List.getElem?_eq_some_iff.mp h
  simp

theorem addOcc_inv {ix : HIRIndex} {g : Ghost} (h : Inv ix g) (o : SymbolOccurrence) (hs : Scoped g.bodies.length o) :
    ∃ ix', addOcc ix o = .ok ix' ∧ Inv ix' { g with occs := addTo g.occs o } := by
  have hany : (∃ o' ∈ g.occs, SameKey o' o) ↔
      ((entry? ix o.symbolKind o.funcBodyId o.name).getD {}).hasSpan o.span = true := by
    rw [h.hasSpan]
    constructor
    · rintro ⟨o', h1, h2, h3, h4, h5⟩; exact ⟨o', h1, ⟨h2, h3, h4⟩, h5⟩
    · rintro ⟨o', h1, ⟨h2, h3, h4⟩, h5⟩; exact ⟨o', h1, h2, h3, h4, h5⟩
  unfold addTo
  obtain ⟨span, ud, kind, name, fid⟩ := o
  simp only [addOcc] at hany ⊢
  by_cases hb : ((entry? ix kind fid name).getD {}).hasSpan span = true
  · -- already there
    rw [if_pos (hany.mpr hb)]
    refine ⟨ix, ?_, h⟩
    cases kind <;> cases fid <;> simp only [Scoped] at hs
    · simp only [entry?] at hb
      simp [HIRIndex.addGlobal, addInternal, hb]
    · simp only [entry?] at hb
      simp [HIRIndex.addGlobal, addInternal, hb]
    · simp only [entry?] at hb
      simp [HIRIndex.addGlobal, addInternal, hb]
    · rename_i i
      obtain ⟨fb, hfb⟩ : ∃ fb, ix.functionBodies[i]? = some fb :=
        ⟨_, List.getElem?_eq_getElem (by rw [h.length]; exact hs)⟩
      simp only [entry?, hfb, Option.bind_some] at hb
      simp [HIRIndex.addFuncLocal, hfb, addInternal, hb, set_self hfb]
    · rename_i i
      obtain ⟨fb, hfb⟩ : ∃ fb, ix.functionBodies[i]? = some fb :=
        ⟨_, List.getElem?_eq_getElem (by rw [h.length]; exact hs)⟩
      simp only [entry?, hfb, Option.bind_some] at hb
      simp [HIRIndex.addFuncLocal, hfb, addInternal, hb, set_self hfb]
  · rw [if_neg (fun hh => hb (hany.mp hh))]
    cases kind <;> cases fid <;> simp only [Scoped] at hs
    · simp only [entry?] at hb
      refine ⟨_, by simp only [HIRIndex.addGlobal, addInternal, hb, Bool.false_eq_true, if_false]; rfl, ?_⟩
      refine h.push _ ?_ rfl ⟨StrMap.nodup_modifyEntry h.nodup.1, h.nodup.2, h.nodup.3, h.nodup.4⟩ hs rfl rfl
      intro k f n
      cases k <;> cases f <;> simp [entry?, IsOf, StrMap.get?_modifyEntry]
      by_cases hn : name = n <;> simp [hn]
    · simp only [entry?] at hb
      refine ⟨_, by simp only [HIRIndex.addGlobal, addInternal, hb, Bool.false_eq_true, if_false]; rfl, ?_⟩
      refine h.push _ ?_ rfl ⟨h.nodup.1, StrMap.nodup_modifyEntry h.nodup.2, h.nodup.3, h.nodup.4⟩ hs rfl rfl
      intro k f n
      cases k <;> cases f <;> simp [entry?, IsOf, StrMap.get?_modifyEntry]
      by_cases hn : name = n <;> simp [hn]
    · simp only [entry?] at hb
      refine ⟨_, by simp only [HIRIndex.addGlobal, addInternal, hb, Bool.false_eq_true, if_false]; rfl, ?_⟩
      refine h.push _ ?_ rfl ⟨h.nodup.1, h.nodup.2, StrMap.nodup_modifyEntry h.nodup.3, h.nodup.4⟩ hs rfl rfl
      intro k f n
      cases k <;> cases f <;> simp [entry?, IsOf, StrMap.get?_modifyEntry]
      by_cases hn : name = n <;> simp [hn]
    · rename_i i
      have hlt : i < ix.functionBodies.length := by rw [h.length]; exact hs
      obtain ⟨fb, hfb'⟩ : ∃ fb, ix.functionBodies[i] = fb := ⟨_, rfl⟩
      have hfb : ix.functionBodies[i]? = some fb := by rw [List.getElem?_eq_getElem hlt, hfb']
      have hmem : fb ∈ ix.functionBodies := List.mem_of_getElem? hfb
      simp only [entry?, hfb, Option.bind_some] at hb
      refine ⟨_, by simp only [HIRIndex.addFuncLocal, hfb, addInternal, hb, Bool.false_eq_true, if_false]; rfl, ?_⟩
      refine h.push _ ?_ rfl ⟨h.nodup.1, h.nodup.2, h.nodup.3, ?_⟩ hs ?_ rfl
      · intro k f n
        cases k <;> cases f <;> simp [entry?, IsOf]
        · rename_i j
          rw [List.getElem?_set]
          by_cases hij : i = j
          · subst hij
            simp [hlt, hfb', StrMap.get?_modifyEntry]
            by_cases hn : name = n <;> simp [hn]
          · simp [hij]
        · rename_i j
          rw [List.getElem?_set]
          by_cases hij : i = j
          · subst hij
            simp [hlt, hfb']
          · simp [hij]
      · intro b hb'
        rcases List.mem_or_eq_of_mem_set hb' with h1 | h1
        · exact h.nodup.4 b h1
        · subst h1
          exact ⟨StrMap.nodup_modifyEntry (h.nodup.4 fb hmem).1, (h.nodup.4 fb hmem).2⟩
      · rw [List.map_set]
        exact set_self (by rw [List.getElem?_map, hfb]; rfl)
    · rename_i i
      have hlt : i < ix.functionBodies.length := by rw [h.length]; exact hs
      obtain ⟨fb, hfb'⟩ : ∃ fb, ix.functionBodies[i] = fb := ⟨_, rfl⟩
      have hfb : ix.functionBodies[i]? = some fb := by rw [List.getElem?_eq_getElem hlt, hfb']
      have hmem : fb ∈ ix.functionBodies := List.mem_of_getElem? hfb
      simp only [entry?, hfb, Option.bind_some] at hb
      refine ⟨_, by simp only [HIRIndex.addFuncLocal, hfb, addInternal, hb, Bool.false_eq_true, if_false]; rfl, ?_⟩
      refine h.push _ ?_ rfl ⟨h.nodup.1, h.nodup.2, h.nodup.3, ?_⟩ hs ?_ rfl
      · intro k f n
        cases k <;> cases f <;> simp [entry?, IsOf]
        · rename_i j
          rw [List.getElem?_set]
          by_cases hij : i = j
          · subst hij
            simp [hlt, hfb']
          · simp [hij]
        · rename_i j
          rw [List.getElem?_set]
          by_cases hij : i = j
          · subst hij
            simp [hlt, hfb', StrMap.get?_modifyEntry]
            by_cases hn : name = n <;> simp [hn]
          · simp [hij]
      · intro b hb'
        rcases List.mem_or_eq_of_mem_set hb' with h1 | h1
        · exact h.nodup.4 b h1
        · subst h1
          exact ⟨(h.nodup.4 fb hmem).1, StrMap.nodup_modifyEntry (h.nodup.4 fb hmem).2⟩
      · rw [List.map_set]
        exact set_self (by rw [List.getElem?_map, hfb]; rfl)

/-! ### The other changes of the index -/

theorem Inv.pushBody {ix : HIRIndex} {g : Ghost} (h : Inv ix g) (name : Spanned Str) (range : Span) (blocks : List BasicBlock) :
    Inv { ix with functionBodies := ix.functionBodies ++ [{ name := name, completeRange := range, basicBlocks := blocks }] }
      { g with bodies := g.bodies ++ [{ name := name, range := range, blocks := blocks }] } := by
  have hno : ∀ k n, ∀ o ∈ g.occs, ¬ IsOf k (some ix.functionBodies.length) n o := by
    intro k n o ho ⟨h1, h2, h3⟩
    have hs := h.inScope o ho
    unfold Scoped at hs
    have hl := h.length
    rw [h2] at hs
    cases hk : o.symbolKind <;> simp only [hk] at hs <;> omega
  have hentry : ∀ k f n, entry? { ix with functionBodies := ix.functionBodies ++
      [{ name := name, completeRange := range, basicBlocks := blocks }] } k f n = entry? ix k f n := by
    intro k f n
    cases k <;> cases f <;> simp only [entry?]
    · rename_i i
      rw [List.getElem?_append]
      split
      · rfl
      · rename_i hi
        rw [List.getElem?_eq_none (Nat.le_of_not_lt hi)]
        cases i - ix.functionBodies.length <;> simp [StrMap.get?]
    · rename_i i
      rw [List.getElem?_append]
      split
      · rfl
      · rename_i hi
        rw [List.getElem?_eq_none (Nat.le_of_not_lt hi)]
        cases i - ix.functionBodies.length <;> simp [StrMap.get?]
  refine ⟨?_, h.rev, ?_, ⟨h.nodup.1, h.nodup.2, h.nodup.3, ?_⟩, ?_, ?_, ?_, h.vals⟩
  · intro k f n ud
    unfold listed
    rw [hentry]
    exact h.tab k f n ud
  · intro k f n
    rw [hentry]
    exact h.keys k f n
  · intro b hb
    rcases List.mem_append.mp hb with h1 | h1
    · exact h.nodup.4 b h1
    · simp at h1; subst h1; simp
  · intro o ho
    have := h.inScope o ho
    unfold Scoped at this ⊢
    cases hk : o.symbolKind <;> cases hf : o.funcBodyId <;> simp only [hk, hf] at this ⊢ <;> simp <;> omega
  · simp [h.bodies, FunctionBody.view, GBody.view, incomingOf]
  · intro k f n
    rw [hentry]
    exact h.ext k f n

theorem Inv.addEdge {ix : HIRIndex} {g : Ghost} (h : Inv ix g) {i : Nat} {fb : FunctionBody}
    (hfb : ix.functionBodies[i]? = some fb) (target : Str) (label : Spanned Str) :
    Inv { ix with functionBodies := (ix.functionBodies.set i
            { fb with incomingBbBranches := addIncoming fb.incomingBbBranches target label }) }
      { g with bodies := g.bodies.modify i (fun b => { b with edges := b.edges ++ [(target, label)] }) } := by
  obtain ⟨hlt, hfb'⟩ := List.getElem?_eq_some_iff.mp hfb
  have hentry : ∀ k f n, entry? { ix with functionBodies := (ix.functionBodies.set i
      { fb with incomingBbBranches := addIncoming fb.incomingBbBranches target label }) } k f n = entry? ix k f n := by
    intro k f n
    cases k <;> cases f <;> simp only [entry?]
    all_goals
      rename_i j
      rw [List.getElem?_set]
      by_cases hij : i = j
      · subst hij
        simp [hlt, hfb']
      · simp [hij]
  refine ⟨?_, h.rev, ?_, ⟨h.nodup.1, h.nodup.2, h.nodup.3, ?_⟩, ?_, ?_, ?_, h.vals⟩
  · intro k f n ud
    unfold listed
    rw [hentry]
    exact h.tab k f n ud
  · intro k f n
    rw [hentry]
    exact h.keys k f n
  · intro b hb
    rcases List.mem_or_eq_of_mem_set hb with h1 | h1
    · exact h.nodup.4 b h1
    · subst h1
      exact h.nodup.4 fb (List.mem_of_getElem? hfb)
  · simpa using h.inScope
  · have hb := congrArg (fun l => l[i]?) h.bodies
    simp only [List.getElem?_map, hfb, Option.map_some] at hb
    apply List.ext_getElem?
    intro j
    have hj := congrArg (fun l => l[j]?) h.bodies
    simp only [List.getElem?_map] at hj
    simp only [List.getElem?_map, List.getElem?_set, List.getElem?_modify]
    by_cases hij : i = j
    · subst hij
      cases hg : g.bodies[i]? with
      | none => simp [hg] at hb
      | some gb =>
        simp only [hg, Option.map_some, Option.some.injEq] at hb
        simp only [hlt, if_true, Option.map_some, Option.some.injEq, Option.map_eq_map]
        unfold FunctionBody.view GBody.view at hb
        simp only [Prod.mk.injEq] at hb
        simp [FunctionBody.view, GBody.view, hb.1, hb.2.1, hb.2.2.1, hb.2.2.2, incomingOf, List.foldl_append]
    · simp [hij, hj]
  · intro k f n
    rw [hentry]
    exact h.ext k f n

theorem Inv.addExt {ix : HIRIndex} {g : Ghost} (h : Inv ix g) {fn : Str} {u : UseDefList} (hfn : ix.functions.get? fn = some u)
    (d : ExternalDef) :
    Inv { ix with functions := ix.functions.modifyEntry {} fn (fun e => { e with externalDefs := e.externalDefs ++ [d] }) }
      { g with exts := g.exts ++ [(fn, d)] } := by
  have hentry : ∀ k f n, entry? { ix with functions := ix.functions.modifyEntry {} fn (fun e =>
      { e with externalDefs := e.externalDefs ++ [d] }) } k f n =
      if k = .function ∧ f = none ∧ n = fn then some { u with externalDefs := u.externalDefs ++ [d] } else entry? ix k f n := by
    intro k f n
    cases k <;> cases f <;> simp [entry?]
    rw [StrMap.get?_modifyEntry, hfn]
    by_cases hn : n = fn
    · simp [hn]
    · have : fn ≠ n := fun h => hn h.symm
      simp [hn, this]
  have hu : entry? ix .function none fn = some u := hfn
  refine ⟨?_, h.rev, ?_, ⟨h.nodup.1, StrMap.nodup_modifyEntry h.nodup.2, h.nodup.3, h.nodup.4⟩, h.inScope, h.bodies, ?_, h.vals⟩
  · intro k f n ud
    have := h.tab k f n ud
    unfold listed at this ⊢
    rw [hentry]
    split
    · rename_i hk
      obtain ⟨rfl, rfl, rfl⟩ := hk
      rw [hu] at this
      rw [← this]
      cases ud <;> rfl
    · exact this
  · intro k f n
    rw [hentry]
    split
    · rename_i hk
      obtain ⟨rfl, rfl, rfl⟩ := hk
      have := (h.keys .function none n)
      rw [hu] at this
      simpa using this
    · exact h.keys k f n
  · intro k f n
    rw [hentry]
    have := h.ext k f n
    split
    · rename_i hk
      obtain ⟨rfl, rfl, rfl⟩ := hk
      rw [hu] at this
      simp only [Option.getD_some] at this
      simp [this]
    · rename_i hk
      rw [this]
      by_cases hk' : k = .function ∧ f = none
      · have hn : fn ≠ n := fun hn => hk ⟨hk'.1, hk'.2, hn.symm⟩
        simp [hk', hn]
      · simp [hk']

theorem Inv.setVal {ix : HIRIndex} {g : Ghost} (h : Inv ix g) (n v : Str) :
    Inv { ix with dbgAnnotationValues := ix.dbgAnnotationValues.insert n v } { g with vals := g.vals.insert n v } := by
  have hentry : ∀ k f m, entry? { ix with dbgAnnotationValues := ix.dbgAnnotationValues.insert n v } k f m = entry? ix k f m := by
    intro k f m
    cases k <;> cases f <;> rfl
  refine ⟨?_, h.rev, ?_, ⟨h.nodup.1, h.nodup.2, h.nodup.3, h.nodup.4⟩, h.inScope, h.bodies, ?_, ?_⟩
  · intro k f m ud
    unfold listed
    rw [hentry]
    exact h.tab k f m ud
  · intro k f m
    rw [hentry]
    exact h.keys k f m
  · intro k f m
    rw [hentry]
    exact h.ext k f m
  · simp [h.vals]

/-! ### Events -/

inductive Event where
  | occ (o : SymbolOccurrence)
  | body (b : GBody)
  | edge (i : Nat) (target : Str) (label : Spanned Str)
  | ext (fn : Str) (d : ExternalDef)
  | val (n v : Str)

def Ghost.step (g : Ghost) : Event → Ghost
  | .occ o => { g with occs := addTo g.occs o }
  | .body b => { g with bodies := g.bodies ++ [b] }
  | .edge i t l => { g with bodies := g.bodies.modify i (fun b => { b with edges := b.edges ++ [(t, l)] }) }
  | .ext fn d => { g with exts := g.exts ++ [(fn, d)] }
  | .val n v => { g with vals := g.vals.insert n v }

def Ghost.run (g : Ghost) (evs : List Event) : Ghost := evs.foldl Ghost.step g

theorem Ghost.run_append (g : Ghost) (a b : List Event) : g.run (a ++ b) = (g.run a).run b := by
  simp [Ghost.run]

/-- With `n` functions so far, `f` performs the events and adds no function. -/
def Works (n : Nat) (f : HIRIndex → Outcome HIRIndex) (evs : List Event) : Prop :=
  ∀ ix g, Inv ix g → g.bodies.length = n → ∃ ix', f ix = .ok ix' ∧ Inv ix' (g.run evs) ∧ (g.run evs).bodies.length = n

theorem works_pure {n : Nat} : Works n .ok [] := fun ix _ h hn => ⟨ix, rfl, h, hn⟩

theorem works_occ {n : Nat} {o : SymbolOccurrence} (hs : Scoped n o) : Works n (fun ix => addOcc ix o) [.occ o] := by
  intro ix g h hn
  obtain ⟨ix', h1, h2⟩ := addOcc_inv h o (by rw [hn]; exact hs)
  exact ⟨ix', h1, h2, hn⟩

theorem works_seq {n : Nat} {f f' : HIRIndex → Outcome HIRIndex} {a b : List Event} (hf : Works n f a) (hf' : Works n f' b) :
    Works n (fun ix => match f ix with | .panic => .panic | .ok ix => f' ix) (a ++ b) := by
  intro ix g h hn
  obtain ⟨ix1, h1, h2, h3⟩ := hf ix g h hn
  obtain ⟨ix2, h4, h5, h6⟩ := hf' ix1 _ h2 h3
  exact ⟨ix2, by simp only [h1, h4], by rw [Ghost.run_append]; exact h5, by rw [Ghost.run_append]; exact h6⟩

theorem works_fold {n : Nat} {α : Type} {f : HIRIndex → α → Outcome HIRIndex} {evs : α → List Event}
    (hf : ∀ x, Works n (fun ix => f ix x) (evs x)) (xs : List α) : Works n (fun ix => foldO f ix xs) (xs.flatMap evs) := by
  induction xs with
  | nil => exact works_pure
  | cons x xs ih =>
    intro ix g h hn
    obtain ⟨ix1, h1, h2, h3⟩ := hf x ix g h hn
    obtain ⟨ix2, h4, h5, h6⟩ := ih ix1 _ h2 h3
    refine ⟨ix2, by simp only [foldO, h1, h4], ?_, ?_⟩ <;> rw [List.flatMap_cons, Ghost.run_append]
    · exact h5
    · exact h6

/-- Branches out of a labelled block. -/
def edgeEvents (i : Nat) (bb : BasicBlock) (ins : Instruction) (r : Spanned Str) : List Event :=
  if ins.isBranching then bb.label.toList.map (fun l => .edge i r.1 l) else []

def instrEvents (i : Nat) (bb : BasicBlock) (ins : Instruction) : List Event :=
  ins.assignmentTarget.toList.map (fun t => .occ (occ .localVar .def_ (some i) t)) ++
    ins.basicBlockRefs.flatMap fun r => .occ (occ .label .use (some i) r) :: edgeEvents i bb ins r

def blockEvents (i : Nat) (bb : BasicBlock) : List Event :=
  bb.label.toList.map (fun l => .occ (occ .label .def_ (some i) l)) ++ bb.instructions.flatMap (instrEvents i bb)

def funcEvents (i : Nat) (sig : FuncSignature) (body : FuncBody) : List Event :=
  sig.args.flatMap (fun a => [.occ (occ .localVar .def_ (some i) a.name)]) ++ body.basicBlocks.flatMap (blockEvents i)

theorem works_bbRef {n i : Nat} (hi : i < n) (bb : BasicBlock) (ins : Instruction) (r : Spanned Str) :
    Works n (fun ix => indexBbRef i bb ins ix r) (.occ (occ .label .use (some i) r) :: edgeEvents i bb ins r) := by
  intro ix g h hn
  obtain ⟨ix1, h1, h2⟩ := addOcc_inv h (occ .label .use (some i) r) (by rw [hn]; exact hi)
  simp only [addOcc, occ] at h1
  simp only [indexBbRef, h1, edgeEvents]
  by_cases hb : ins.isBranching
  · simp only [hb, if_true]
    cases hl : bb.label with
    | none => exact ⟨ix1, rfl, h2, hn⟩
    | some l =>
      obtain ⟨fb, hfb⟩ : ∃ fb, ix1.functionBodies[i]? = some fb :=
        ⟨_, List.getElem?_eq_getElem (by rw [h2.length]; simpa [hn] using hi)⟩
      simp only [hfb]
      refine ⟨_, rfl, h2.addEdge hfb r.1 l, ?_⟩
      simpa [Ghost.run, Ghost.step] using hn
  · simp only [hb]
    exact ⟨ix1, rfl, h2, hn⟩

theorem works_instr {n i : Nat} (hi : i < n) (bb : BasicBlock) (ins : Instruction) :
    Works n (fun ix => indexInstruction i bb ix ins) (instrEvents i bb ins) := by
  have := works_fold (f := indexBbRef i bb ins) (works_bbRef hi bb ins) ins.basicBlockRefs
  unfold instrEvents
  cases ht : ins.assignmentTarget with
  | none =>
    simp only [indexInstruction, ht]
    exact this
  | some t =>
    simp only [indexInstruction, ht]
    exact works_seq (works_occ (o := occ .localVar .def_ (some i) t) hi) this

theorem works_block {n i : Nat} (hi : i < n) (bb : BasicBlock) :
    Works n (fun ix => indexBlock i ix bb) (blockEvents i bb) := by
  have := works_fold (f := indexInstruction i bb) (works_instr hi bb) bb.instructions
  unfold blockEvents
  cases ht : bb.label with
  | none =>
    simp only [indexBlock, ht]
    exact this
  | some t =>
    simp only [indexBlock, ht]
    exact works_seq (works_occ (o := occ .label .def_ (some i) t) hi) this

theorem indexFuncDef_inv {ix : HIRIndex} {g : Ghost} (h : Inv ix g) (kw : Span) (sig : FuncSignature) (body : FuncBody) :
    ∃ ix', indexFuncDef ix kw sig body = .ok ix' ∧
      Inv ix' (g.run (.occ (occ .function .def_ none sig.name) ::
        .body { name := sig.name, range := ⟨kw.start, body.closingBracket.stop⟩, blocks := body.basicBlocks } ::
        funcEvents g.bodies.length sig body)) ∧
      (g.run (.occ (occ .function .def_ none sig.name) ::
        .body { name := sig.name, range := ⟨kw.start, body.closingBracket.stop⟩, blocks := body.basicBlocks } ::
        funcEvents g.bodies.length sig body)).bodies.length = g.bodies.length + 1 := by
  obtain ⟨ix1, h1, h2⟩ := addOcc_inv h (occ .function .def_ none sig.name) trivial
  simp only [addOcc, occ] at h1
  have h3 := h2.pushBody sig.name ⟨kw.start, body.closingBracket.stop⟩ body.basicBlocks
  have hl := h2.length
  simp only at hl
  have hw := works_seq (works_fold (n := g.bodies.length + 1) (f := indexArg g.bodies.length)
      (evs := fun a => [.occ (occ .localVar .def_ (some g.bodies.length) a.name)])
      (fun a => works_occ (o := occ .localVar .def_ (some g.bodies.length) a.name) (Nat.lt_succ_self _)) sig.args)
    (works_fold (n := g.bodies.length + 1) (f := indexBlock g.bodies.length)
      (fun b => works_block (Nat.lt_succ_self _) b) body.basicBlocks)
  obtain ⟨ix2, h4, h5, h6⟩ := hw _ _ h3 (by simp)
  refine ⟨ix2, ?_, h5, h6⟩
  simp only [indexFuncDef, h1, List.length_append, hl, List.length_singleton, Nat.add_sub_cancel]
  exact h4

end HyperIR
