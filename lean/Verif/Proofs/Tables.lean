import Verif.Model.Diagnostics
import Verif.Proofs.Navigation

/-! The symbol tables as one list of symbols. -/

namespace HyperIR
open Spec

/-- A symbol (kind, function, name) and its entry. -/
abbrev Entry := (SymbolKind × Option Nat × Str) × UseDefList

def tagged (k : SymbolKind) (f : Option Nat) (m : List (Str × UseDefList)) : List Entry := m.map fun e => ((k, f, e.1), e.2)

/-- The entries of a kind of local symbols, functions numbered from `i`. -/
def localEntries (ord : IterOrder) (k : SymbolKind) (tab : FunctionBody → SymMap) : Nat → List FunctionBody → List Entry
  | _, [] => []
  | i, b :: bs => tagged k (some i) (ord.run (tab b)) ++ localEntries ord k tab (i + 1) bs

/-- All entries, in the order of `allUseDefs`. -/
def entries (ord : IterOrder) (ix : HIRIndex) : List Entry :=
  tagged .globalVar none (ord.run ix.globalVars) ++ tagged .function none (ord.run ix.functions)
    ++ tagged .dbgAnnotation none (ord.run ix.dbgAnnotations)
    ++ localEntries ord .label FunctionBody.labels 0 ix.functionBodies
    ++ localEntries ord .localVar FunctionBody.localVars 0 ix.functionBodies

theorem tagged_untag (k f m) : (tagged k f m).map (fun e => (e.1.2.2, e.2)) = m := by
  unfold tagged
  rw [List.map_map]
  conv => rhs; rw [← List.map_id m]
  rfl

theorem localEntries_untag (ord : IterOrder) (k tab) : ∀ i bs,
    (localEntries ord k tab i bs).map (fun e => (e.1.2.2, e.2)) = bs.flatMap fun b => ord.run (tab b)
  | _, [] => rfl
  | i, b :: bs => by
    rw [localEntries, List.map_append, tagged_untag, localEntries_untag ord k tab (i + 1) bs, List.flatMap_cons]

theorem entries_untag (ord : IterOrder) (ix : HIRIndex) : (entries ord ix).map (fun e => (e.1.2.2, e.2)) = allUseDefs ord ix := by
  unfold entries allUseDefs
  simp only [List.map_append, tagged_untag, localEntries_untag]

theorem mem_tagged {k f m} {e : Entry} : e ∈ tagged k f m ↔ e.1.1 = k ∧ e.1.2.1 = f ∧ (e.1.2.2, e.2) ∈ m := by
  unfold tagged
  rw [List.mem_map]
  obtain ⟨⟨k', f', n⟩, u⟩ := e
  constructor
  · rintro ⟨⟨n', u'⟩, h, h'⟩
    cases h'
    exact ⟨rfl, rfl, h⟩
  · rintro ⟨rfl, rfl, h⟩
    exact ⟨_, h, rfl⟩

theorem mem_localEntries {ord : IterOrder} {k tab} {e : Entry} : ∀ {i bs}, e ∈ localEntries ord k tab i bs ↔
    e.1.1 = k ∧ ∃ (j : Nat) (b : FunctionBody), bs[j]? = some b ∧ e.1.2.1 = some (i + j) ∧ (e.1.2.2, e.2) ∈ tab b
  | i, [] => by simp [localEntries]
  | i, b :: bs => by
    rw [localEntries, List.mem_append, mem_tagged, mem_localEntries, (ord.perm _).mem_iff]
    constructor
    · rintro (⟨h1, h2, h3⟩ | ⟨h1, j, b', h2, h3, h4⟩)
      · exact ⟨h1, 0, b, rfl, h2, h3⟩
      · exact ⟨h1, j + 1, b', h2, by rw [h3]; congr 1; omega, h4⟩
    · rintro ⟨h1, j, b', h2, h3, h4⟩
      cases j with
      | zero => cases h2; exact .inl ⟨h1, h3, h4⟩
      | succ j => exact .inr ⟨h1, j, b', h2, by rw [h3]; congr 1; omega, h4⟩

theorem nodup_run {ord : IterOrder} {V : Type} {m : List (Str × V)} (h : (m.map Prod.fst).Nodup) :
    ((ord.run m).map Prod.fst).Nodup := (((ord.perm m).map Prod.fst).nodup_iff).mpr h

theorem tagged_nodup {k f} {m : List (Str × UseDefList)} (h : (m.map Prod.fst).Nodup) : ((tagged k f m).map Prod.fst).Nodup := by
  unfold tagged
  rw [List.map_map]
  have : (Prod.fst ∘ fun e : Str × UseDefList => ((k, f, e.1), e.2)) = (fun n => (k, f, n)) ∘ Prod.fst := rfl
  rw [this, ← List.map_map]
  refine List.Pairwise.map _ ?_ h
  intro a b hab h'
  exact hab (by simpa using h')

theorem localEntries_nodup {ord : IterOrder} {k tab} : ∀ {i bs}, (∀ b ∈ bs, ((tab b).map Prod.fst).Nodup) →
    ((localEntries ord k tab i bs).map Prod.fst).Nodup
  | _, [], _ => by simp [localEntries]
  | i, b :: bs, h => by
    rw [localEntries, List.map_append, List.nodup_append]
    refine ⟨tagged_nodup (nodup_run (h b (by simp))), localEntries_nodup fun b hb => h b (by simp [hb]), ?_⟩
    intro x hx y hy hxy
    subst hxy
    obtain ⟨e, he, rfl⟩ := List.mem_map.mp hx
    obtain ⟨e', he', h'⟩ := List.mem_map.mp hy
    obtain ⟨_, j, _, _, h1, _⟩ := mem_localEntries.mp he'
    have h2 := (mem_tagged.mp he).2.1
    rw [h', h2] at h1
    simp only [Option.some.injEq] at h1
    omega

theorem entries_nodup {ord : IterOrder} {ix : HIRIndex} (h : DistinctKeys ix) : ((entries ord ix).map Prod.fst).Nodup := by
  unfold entries
  simp only [List.map_append, List.nodup_append]
  refine ⟨⟨⟨⟨tagged_nodup (nodup_run h.globalVars), tagged_nodup (nodup_run h.functions), ?_⟩,
    tagged_nodup (nodup_run h.dbg), ?_⟩, localEntries_nodup fun b hb => (h.bodies b hb).1, ?_⟩,
    localEntries_nodup fun b hb => (h.bodies b hb).2, ?_⟩
  all_goals
    intro x hx y hy hxy
    subst hxy
    have hk := (List.mem_map.mp hy)
    obtain ⟨e', he', h'⟩ := hk
    simp only [List.mem_append, List.mem_map, mem_tagged, mem_localEntries] at hx he'
    grind

theorem mem_entries {ord : IterOrder} {ix : HIRIndex} (h : DistinctKeys ix) {k f n u} :
    ((k, f, n), u) ∈ entries ord ix ↔ entry? ix k f n = some u := by
  have hg : ∀ {V : Type} {m : StrMap V} {n v}, (m.map Prod.fst).Nodup → ((n, v) ∈ m ↔ m.get? n = some v) := fun hm =>
    ⟨StrMap.get?_of_mem hm, StrMap.mem_of_get?⟩
  unfold entries
  simp only [List.mem_append, mem_tagged, mem_localEntries, (ord.perm _).mem_iff]
  rw [hg h.globalVars, hg h.functions, hg h.dbg]
  have hloc : ∀ (tab : FunctionBody → SymMap), (∀ b ∈ ix.functionBodies, ((tab b).map Prod.fst).Nodup) →
      ((∃ (j : Nat) (b : FunctionBody), ix.functionBodies[j]? = some b ∧ f = some (0 + j) ∧ (n, u) ∈ tab b) ↔
        ∃ j, f = some j ∧ (ix.functionBodies[j]?.bind fun b => (tab b).get? n) = some u) := by
    intro tab ht
    constructor
    · rintro ⟨j, b, h1, h2, h3⟩
      refine ⟨j, by simpa using h2, ?_⟩
      rw [h1]
      exact (hg (ht b (List.mem_of_getElem? h1))).mp h3
    · rintro ⟨j, h1, h2⟩
      cases hb : ix.functionBodies[j]? with
      | none => rw [hb] at h2; cases h2
      | some b =>
        rw [hb] at h2
        exact ⟨j, b, hb, by simpa using h1, (hg (ht b (List.mem_of_getElem? hb))).mpr h2⟩
  rw [hloc _ fun b hb => (h.bodies b hb).1, hloc _ fun b hb => (h.bodies b hb).2]
  cases k <;> cases f <;> simp [entry?]

end HyperIR
