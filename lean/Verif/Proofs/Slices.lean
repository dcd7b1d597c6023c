import Verif.Proofs.Rope

/-! Byte slices. -/

namespace HyperIR
open Spec

theorem Spec.Ascii.tail {c : Char} {s : Str} (h : Ascii (c :: s)) : Ascii s := fun x hx => h x (by simp [hx])

theorem Spec.Ascii.drop {s : Str} (h : Ascii s) (n : Nat) : Ascii (s.drop n) := fun x hx => h x (List.mem_of_mem_drop hx)

theorem dropBytes_ascii : ∀ {s : Str} {n : Nat}, Ascii s → n ≤ s.length → dropBytes n s = some (s.drop n)
  | s, 0, _, _ => by cases s <;> rfl
  | [], n + 1, _, h => by simp at h
  | c :: cs, n + 1, ha, h => by
    unfold dropBytes
    rw [utf8Size_ascii (ha c (by simp))]
    simp only [Nat.le_add_left, if_true, Nat.add_sub_cancel, List.drop_succ_cons]
    exact dropBytes_ascii ha.tail (by simpa using h)

theorem takeBytes_ascii : ∀ {s : Str} {n : Nat}, Ascii s → n ≤ s.length → takeBytes n s = some (s.take n)
  | s, 0, _, _ => by cases s <;> rfl
  | [], n + 1, _, h => by simp at h
  | c :: cs, n + 1, ha, h => by
    unfold takeBytes
    rw [utf8Size_ascii (ha c (by simp))]
    simp only [Nat.le_add_left, if_true, Nat.add_sub_cancel, List.take_succ_cons]
    rw [takeBytes_ascii ha.tail (by simpa using h)]
    rfl

theorem sliceBytes_ascii {s : Str} {a b : Nat} (h : Ascii s) (hab : a ≤ b) (hb : b ≤ s.length) :
    sliceBytes s a b = .ok ((s.drop a).take (b - a)) := by
  unfold sliceBytes
  rw [if_pos hab, dropBytes_ascii h (by omega)]
  simp only
  rw [takeBytes_ascii (h.drop a) (by simp; omega)]
  rfl

theorem takeBytes_iff {n : Nat} {s p : Str} : takeBytes n s = some p ↔ ∃ rest, s = p ++ rest ∧ utf8Len p = n := by
  induction s generalizing n p with
  | nil =>
    cases n with
    | zero =>
      simp only [takeBytes, Option.some.injEq]
      constructor
      · rintro rfl; exact ⟨[], rfl, rfl⟩
      · rintro ⟨rest, h, _⟩; simp at h; exact h.1.symm
    | succ n =>
      simp only [takeBytes]
      constructor
      · intro h; cases h
      · rintro ⟨rest, h, h2⟩
        simp at h
        rw [h.1] at h2
        cases h2
  | cons c s ih =>
    cases n with
    | zero =>
      simp only [takeBytes, Option.some.injEq]
      constructor
      · rintro rfl; exact ⟨c :: s, rfl, rfl⟩
      · rintro ⟨rest, h, h2⟩
        cases p with
        | nil => rfl
        | cons d p =>
          have := Char.utf8Size_pos d
          simp only [utf8Len] at h2
          omega
    | succ n =>
      rw [takeBytes]
      constructor
      · intro h
        split at h
        · rename_i hle
          rw [Option.map_eq_some_iff] at h
          obtain ⟨q, hq, rfl⟩ := h
          obtain ⟨rest, h1, h2⟩ := ih.mp hq
          exact ⟨rest, by rw [h1]; rfl, by simp only [utf8Len, h2]; omega⟩
        · cases h
      · rintro ⟨rest, h, h2⟩
        cases p with
        | nil => cases h2
        | cons d p =>
          simp only [List.cons_append, List.cons.injEq] at h
          obtain ⟨rfl, h⟩ := h
          simp only [utf8Len] at h2
          rw [if_pos (by omega), Option.map_eq_some_iff]
          exact ⟨p, ih.mpr ⟨rest, h, by omega⟩, rfl⟩

theorem dropBytes_append {a b : Str} : dropBytes (utf8Len a) (a ++ b) = some b := by
  induction a with
  | nil => rw [utf8Len]; unfold dropBytes; cases b <;> rfl
  | cons c a ih =>
    have := Char.utf8Size_pos c
    obtain ⟨n, hn⟩ : ∃ n, utf8Len (c :: a) = n + 1 := ⟨utf8Len (c :: a) - 1, by simp only [utf8Len]; omega⟩
    rw [hn, List.cons_append, dropBytes, if_pos (by simp only [utf8Len] at hn; omega)]
    rw [show n + 1 - c.utf8Size = utf8Len a by simp only [utf8Len] at hn; omega]
    exact ih

theorem utf8Len_append (a b : Str) : utf8Len (a ++ b) = utf8Len a + utf8Len b := by
  induction a with
  | nil => simp [utf8Len]
  | cons c a ih => simp only [List.cons_append, utf8Len, ih]; omega

theorem sliceBytes_cut {a b c : Str} : sliceBytes (a ++ b ++ c) (utf8Len a) (utf8Len (a ++ b)) = .ok b := by
  unfold sliceBytes
  rw [if_pos (by rw [utf8Len_append]; omega), List.append_assoc, dropBytes_append]
  simp only
  rw [show utf8Len (a ++ b) - utf8Len a = utf8Len b by rw [utf8Len_append]; omega, takeBytes_iff.mpr ⟨c, rfl, rfl⟩]
  rfl

theorem dropBytes_cut : ∀ {s : Str} {n : Nat} {r : Str}, dropBytes n s = some r → ∃ a, s = a ++ r ∧ utf8Len a = n
  | s, 0, r, h => by
    unfold dropBytes at h
    cases s <;> cases h <;> exact ⟨[], rfl, rfl⟩
  | [], n + 1, r, h => by unfold dropBytes at h; cases h
  | c :: s, n + 1, r, h => by
    unfold dropBytes at h
    split at h
    · obtain ⟨a, rfl, ha⟩ := dropBytes_cut h
      exact ⟨c :: a, rfl, by simp only [utf8Len, ha]; omega⟩
    · cases h

/-- `&s[i..j]` is the part between the two offsets, counted in bytes; otherwise it panics. -/
theorem sliceBytes_iff {s v : Str} {i j : Nat} :
    sliceBytes s i j = .ok v ↔ ∃ a c, s = a ++ v ++ c ∧ utf8Len a = i ∧ utf8Len (a ++ v) = j := by
  constructor
  · intro h
    unfold sliceBytes at h
    split at h
    · rename_i hij
      split at h
      · rename_i rest hd
        obtain ⟨a, rfl, ha⟩ := dropBytes_cut hd
        cases ht : takeBytes (j - i) rest with
        | none => rw [ht] at h; cases h
        | some p =>
          rw [ht] at h
          cases h
          obtain ⟨r, hr, hl⟩ := takeBytes_iff.mp ht
          exact ⟨a, r, by rw [hr]; simp, ha, by rw [utf8Len_append]; omega⟩
      · cases h
    · cases h
  · rintro ⟨a, c, rfl, rfl, rfl⟩
    exact sliceBytes_cut

theorem sliceBytes_panic {s : Str} {i j : Nat} :
    sliceBytes s i j = .panic ↔ ¬ ∃ a v c, s = a ++ v ++ c ∧ utf8Len a = i ∧ utf8Len (a ++ v) = j := by
  constructor
  · rintro h ⟨a, v, c, hs⟩
    rw [sliceBytes_iff.mpr ⟨a, c, hs⟩] at h
    cases h
  · intro h
    cases hs : sliceBytes s i j with
    | panic => rfl
    | ok v =>
      obtain ⟨a, c, hc⟩ := sliceBytes_iff.mp hs
      exact absurd ⟨a, v, c, hc⟩ h

end HyperIR
