import Verif.Proofs.External
import Verif.Proofs.Slices
import Verif.Spec.Backtrace

/-! Lemmas about src/backtrace.rs. -/

namespace HyperIR
open Spec

/-! ### Substrings -/

theorem isPrefix_iff {p s : Str} : isPrefix p s = true ↔ ∃ b, s = p ++ b := by
  induction p generalizing s with
  | nil => simp [isPrefix]
  | cons a p ih =>
    cases s with
    | nil => simp [isPrefix]
    | cons c s =>
      simp only [isPrefix, Bool.and_eq_true, decide_eq_true_eq, ih, List.cons_append, List.cons.injEq]
      constructor
      · rintro ⟨rfl, b, rfl⟩; exact ⟨b, rfl, rfl⟩
      · rintro ⟨b, rfl, rfl⟩; exact ⟨rfl, b, rfl⟩

theorem containsStr_iff {p s : Str} : containsStr p s = true ↔ Contains p s := by
  induction s with
  | nil =>
    unfold containsStr Contains
    rw [isPrefix_iff]
    constructor
    · rintro ⟨b, h⟩; exact ⟨[], b, h⟩
    · rintro ⟨a, b, h⟩
      refine ⟨b, ?_⟩
      cases a with
      | nil => exact h
      | cons => simp at h
  | cons c s ih =>
    unfold containsStr
    rw [Bool.or_eq_true, isPrefix_iff, ih]
    constructor
    · rintro (⟨b, h⟩ | ⟨a, b, h⟩)
      · exact ⟨[], b, h⟩
      · exact ⟨c :: a, b, by rw [h]; rfl⟩
    · rintro ⟨a, b, h⟩
      cases a with
      | nil => exact .inl ⟨b, h⟩
      | cons x a =>
        simp at h
        exact .inr ⟨a, b, by simpa using h.2⟩

/-! ### Path components -/

theorem shortenFilepath_spec (path : Str) : LastComponent path (shortenFilepath path) := by
  unfold shortenFilepath
  have h := List.takeWhile_append_dropWhile (p := fun c => decide (c ≠ '/') && decide (c ≠ '\\')) (l := path.reverse)
  have hall := List.all_takeWhile (p := fun c => decide (c ≠ '/') && decide (c ≠ '\\')) (l := path.reverse)
  rw [List.all_eq_true] at hall
  have hhead := List.head?_dropWhile_not (p := fun c => decide (c ≠ '/') && decide (c ≠ '\\')) (l := path.reverse)
  generalize path.reverse.takeWhile (fun c => decide (c ≠ '/') && decide (c ≠ '\\')) = a at h hall ⊢
  generalize path.reverse.dropWhile (fun c => decide (c ≠ '/') && decide (c ≠ '\\')) = d at h hhead
  have hp : path = d.reverse ++ a.reverse := by
    rw [← List.reverse_append, h, List.reverse_reverse]
  refine ⟨?_, ?_, ?_⟩
  · intro hc
    have := hall _ (List.mem_reverse.mp hc)
    simp at this
  · intro hc
    have := hall _ (List.mem_reverse.mp hc)
    simp at this
  · cases d with
    | nil => left; simpa using hp
    | cons s d =>
      right
      refine ⟨d.reverse, s, by rw [hp]; simp, ?_⟩
      simp only [List.head?_cons] at hhead
      by_cases h1 : s = '/'
      · exact .inl h1
      · simp [h1] at hhead
        exact .inr hhead

theorem lastComponent_unique {path a b : Str} (ha : LastComponent path a) (hb : LastComponent path b) : a = b := by
  obtain ⟨a1, a2, a3⟩ := ha
  obtain ⟨b1, b2, b3⟩ := hb
  rcases a3 with rfl | ⟨d, s, rfl, hs⟩
  · rcases b3 with rfl | ⟨d', s', rfl, hs'⟩
    · rfl
    · rcases hs' with rfl | rfl <;> simp at a1 a2
  · rcases b3 with rfl | ⟨d', s', h, hs'⟩
    · rcases hs with rfl | rfl <;> simp at b1 b2
    · rcases List.append_eq_append_iff.mp h with ⟨x, h1, h2⟩ | ⟨x, h1, h2⟩
      · cases x with
        | nil => simp at h2; exact h2.2
        | cons y x =>
          simp at h2
          obtain ⟨rfl, rfl⟩ := h2
          rcases hs' with rfl | rfl <;> simp at a1 a2
      · cases x with
        | nil => simp at h2; exact h2.2.symm
        | cons y x =>
          simp at h2
          obtain ⟨rfl, rfl⟩ := h2
          rcases hs with rfl | rfl <;> simp at b1 b2

theorem parseFileLine_iff {s file : Str} {n : Nat} : parseFileLine s = some (file, n) ↔ FileLine s file n := by
  unfold parseFileLine FileLine
  constructor
  · intro h
    split at h
    · rename_i a b hs
      obtain ⟨h1, h2, rfl⟩ := splitOn_two.mp hs
      cases hp : parseU32 b with
      | none => rw [hp] at h; cases h
      | some m =>
        rw [hp] at h
        simp only [Option.map_some, Option.some.injEq, Prod.mk.injEq] at h
        obtain ⟨rfl, rfl⟩ := h
        obtain ⟨h3, h4⟩ := parseU32_iff.mp hp
        exact ⟨b, rfl, h1, h2, h3, h4⟩
    · cases h
  · rintro ⟨line, rfl, h1, h2, h3, h4⟩
    rw [splitOn_two.mpr ⟨h1, h2, rfl⟩]
    simp only
    rw [parseU32_iff.mpr ⟨h3, h4⟩]
    rfl

theorem splitOn_components : ∀ path : Str, Components path (splitOn '/' path)
  | [] => .last (by simp)
  | c :: cs => by
    have ih := splitOn_components cs
    unfold splitOn
    split
    · rename_i h; subst h
      exact .more (s := []) (by simp) ih
    · rename_i hne
      cases hs : splitOn '/' cs with
      | nil => exact absurd hs (splitOn_ne_nil _ _)
      | cons w ws =>
        rw [hs] at ih
        simp only
        generalize hl : w :: ws = l at ih
        cases ih with
        | last h =>
          cases hl
          exact .last (by simp [h, Ne.symm hne])
        | more h1 h2 =>
          cases hl
          rw [← List.cons_append]
          exact .more (by simp [h1, Ne.symm hne]) h2

theorem components_splitOn {path : Str} {l : List Str} (h : Components path l) : splitOn '/' path = l := by
  induction h with
  | last h => exact splitOn_one.mpr ⟨h, rfl⟩
  | @more s rest l h1 h2 ih =>
    clear h2
    induction s with
    | nil => simp [splitOn, ih]
    | cons c s ih' =>
      simp only [List.mem_cons, not_or] at h1
      simp only [List.cons_append]
      unfold splitOn
      rw [if_neg (fun e => h1.1 e.symm), ih' h1.2]

theorem components_noTabs {path : Str} {l : List Str} (h : Components path l) (ho : NoTabs path) : ∀ s ∈ l, NoTabs s := by
  induction h with
  | last h => intro s hs; simp at hs; subst hs; exact ho
  | more h1 h2 ih =>
    intro s hs
    rcases List.mem_cons.mp hs with rfl | hs
    · exact fun c hc => ho c (by simp [hc])
    · exact ih (fun c hc => ho c (by simp [hc])) s hs

theorem pushSegment_noTabs {segs : List Str} {s : Str} (h : NoTabs s) :
    pushSegment segs s = if s = c!"." ∨ s = c!".." then segs else if segs = [[]] then [s] else segs ++ [s] := by
  have hf : s.filter (fun c => !ignoredInUrl c) = s := by
    rw [List.filter_eq_self]
    intro c hc
    have := h c hc
    simp [ignoredInUrl, this]
  unfold pushSegment
  by_cases h1 : s = c!"." ∨ s = c!".."
  · rw [if_pos h1, if_pos h1]
  · rw [if_neg h1, if_neg h1]
    simp only [hf]
    rw [not_or] at h1
    rw [if_neg h1.2, if_neg h1.1]

theorem extendSegments_ne {segs : List Str} (h1 : segs ≠ []) (h2 : segs ≠ [[]]) {l : List Str} (hl : ∀ s ∈ l, NoTabs s) :
    extendSegments segs l = segs ++ l.filter fun s => decide (s ≠ c!"." ∧ s ≠ c!"..") := by
  unfold extendSegments
  induction l generalizing segs with
  | nil => simp
  | cons s l ih =>
    rw [List.foldl_cons, pushSegment_noTabs (hl s (by simp)), List.filter_cons]
    have hl' : ∀ s ∈ l, NoTabs s := fun s hs => hl s (by simp [hs])
    by_cases hs : s = c!"." ∨ s = c!".."
    · rw [if_pos hs, ih h1 h2 hl', if_neg (by simp; rcases hs with rfl | rfl <;> simp)]
    · rw [if_neg hs, if_neg h2, ih (by simp) ?_ hl', if_pos (by simpa [not_or] using hs)]
      · simp
      · intro h
        cases segs with
        | nil => exact h1 rfl
        | cons a segs => cases segs <;> simp at h

theorem extendSegments_root {l : List Str} (hl : ∀ s ∈ l, NoTabs s) : extendSegments [[]] l = appendPath [[]] l := by
  unfold appendPath
  simp only [if_true]
  induction l with
  | nil => rfl
  | cons s l ih =>
    have hl' : ∀ s ∈ l, NoTabs s := fun s hs => hl s (by simp [hs])
    unfold extendSegments
    rw [List.foldl_cons, pushSegment_noTabs (hl s (by simp)), List.filter_cons]
    by_cases hs : s = c!"." ∨ s = c!".."
    · rw [if_pos hs, if_neg (c := decide (s ≠ c!"." ∧ s ≠ c!"..") = true) (by simp; rcases hs with rfl | rfl <;> simp)]
      exact ih hl'
    · rw [if_neg hs, if_pos (c := decide (s ≠ c!"." ∧ s ≠ c!"..") = true) (by simpa [not_or] using hs), if_pos rfl]
      by_cases he : s = []
      · subst he
        simp only [List.dropWhile_cons, decide_true, if_true]
        exact ih hl'
      · have := extendSegments_ne (segs := [s]) (by simp) (by simpa using he) hl'
        unfold extendSegments at this
        rw [this]
        simp [List.dropWhile_cons, he]

/-- Where the code looks for a path in a folder. -/
def folderPath (r : Url) (path : Str) : Url := { r with segments := extendSegments r.segments (splitOn '/' path) }

theorem inFolder_iff {r u : Url} {path : Str} (hr : Folder r) (ho : NoTabs path) : InFolder r path u ↔ u = folderPath r path := by
  have hl := components_noTabs (splitOn_components path) ho
  have key : ∀ comps, comps = splitOn '/' path → appendPath r.segments comps = extendSegments r.segments (splitOn '/' path) := by
    rintro comps rfl
    by_cases h : r.segments = [[]]
    · rw [h, extendSegments_root hl]
    · rw [extendSegments_ne hr.2 h hl]
      simp only [appendPath, if_neg h]
  unfold InFolder folderPath
  constructor
  · rintro ⟨comps, h1, rfl⟩
    rw [key comps (components_splitOn h1).symm]
  · rintro rfl
    exact ⟨_, splitOn_components path, by rw [key _ rfl]⟩

theorem resolveRelativePath_spec {fs : FileSystem} {roots : List Url} {path : Str} (hr : ∀ r ∈ roots, Folder r) (ho : NoTabs path) :
    ∃ o, resolveRelativePath fs roots path = .ok o ∧ ∀ u, o = some u ↔ Resolves fs roots path u := by
  induction roots with
  | nil => exact ⟨none, rfl, by simp [Resolves]⟩
  | cons r roots ih =>
    have hr1 := hr r (by simp)
    have hstep : resolveRelativePath fs (r :: roots) path =
        if fs (folderPath r path) then .ok (some (folderPath r path)) else resolveRelativePath fs roots path := by
      conv => lhs; unfold resolveRelativePath
      rw [if_neg (by rw [hr1.1]; simp)]
      rfl
    rw [hstep]
    by_cases hf : fs (folderPath r path) = true
    · rw [if_pos hf]
      refine ⟨_, rfl, fun u => ?_⟩
      constructor
      · intro h
        cases h
        exact ⟨[], r, roots, rfl, (inFolder_iff hr1 ho).mpr rfl, hf, by simp⟩
      · rintro ⟨before, root, after, h1, h2, h3, h4⟩
        cases before with
        | nil =>
          cases h1
          rw [(inFolder_iff hr1 ho).mp h2]
        | cons b before =>
          cases h1
          have := h4 r (by simp) _ ((inFolder_iff hr1 ho).mpr rfl)
          rw [hf] at this
          cases this
    · rw [if_neg hf]
      obtain ⟨o, h1, h2⟩ := ih (fun r hm => hr r (by simp [hm]))
      refine ⟨o, h1, fun u => ?_⟩
      rw [h2]
      constructor
      · rintro ⟨before, root, after, rfl, h4, h5, h6⟩
        refine ⟨r :: before, root, after, rfl, h4, h5, ?_⟩
        intro r' hr' u' hu'
        rcases List.mem_cons.mp hr' with rfl | hr'
        · rw [(inFolder_iff hr1 ho).mp hu']
          simpa using hf
        · exact h6 r' hr' u' hu'
      · rintro ⟨before, root, after, h3, h4, h5, h6⟩
        cases before with
        | nil =>
          cases h3
          rw [(inFolder_iff hr1 ho).mp h4] at h5
          exact absurd h5 hf
        | cons b before =>
          cases h3
          exact ⟨before, root, after, rfl, h4, h5, fun r' hr' => h6 r' (by simp [hr'])⟩

theorem resolveRelativePath_no_panic {fs : FileSystem} {roots : List Url} {path : Str} (hr : ∀ r ∈ roots, r.cannotBeABase = false) :
    ∃ o, resolveRelativePath fs roots path = .ok o := by
  induction roots with
  | nil => exact ⟨none, rfl⟩
  | cons r roots ih =>
    unfold resolveRelativePath
    rw [hr r (by simp)]
    simp only [Bool.false_eq_true, if_false]
    split
    · exact ⟨_, rfl⟩
    · exact ih (fun r hm => hr r (by simp [hm]))

end HyperIR
