import Verif.Spec.Numbers

/- Parsing and printing decimal numbers. -/

namespace HyperIR
open Spec

theorem digit_iff {c : Char} : Digit c ↔ c.isDigit = true := by
  unfold Digit Char.isDigit
  simp only [Bool.and_eq_true, decide_eq_true_eq]
  exact Iff.rfl

theorem digit_range {c : Char} (h : Digit c) : 48 ≤ c.toNat ∧ c.toNat ≤ 57 := by
  unfold Digit at h
  have h1 : ('0' : Char).val ≤ c.val := h.1
  have h2 : c.val ≤ ('9' : Char).val := h.2
  rw [UInt32.le_iff_toNat_le] at h1 h2
  exact ⟨h1, h2⟩

theorem digitVal_iff {c : Char} {d : Nat} : digitVal? c = some d ↔ Digit c ∧ d = c.toNat - 48 := by
  unfold digitVal?
  rw [digit_iff]
  split
  · rename_i h
    simp [h, eq_comm]
  · rename_i h
    simp [h]

theorem parseDigits_append (acc : Nat) (a b : Str) :
    parseDigits acc (a ++ b) = (parseDigits acc a).bind fun n => parseDigits n b := by
  induction a generalizing acc with
  | nil => rfl
  | cons c a ih =>
    simp only [List.cons_append, parseDigits]
    cases digitVal? c with
    | none => rfl
    | some d => exact ih _

theorem denotes_ne_nil {w : Str} {n : Nat} (h : Denotes w n) : w ≠ [] := by
  cases h <;> simp

theorem parseDigits_of_denotes {w : Str} {n : Nat} (h : Denotes w n) : parseDigits 0 w = some n := by
  induction h with
  | @digit c hc => simp [parseDigits, digitVal_iff.mpr ⟨hc, rfl⟩]
  | @more w n c h hc ih =>
    rw [parseDigits_append, ih]
    simp only [Option.bind_some, parseDigits, digitVal_iff.mpr ⟨hc, rfl⟩]
    congr 1
    have : '0'.toNat = 48 := by decide
    omega

theorem denotes_of_parseDigits : ∀ {k : Nat} {w : Str} {n : Nat}, w.length = k → w ≠ [] → parseDigits 0 w = some n → Denotes w n
  | 0, w, n, hk, hne, _ => absurd (List.length_eq_zero_iff.mp hk) hne
  | k + 1, w, n, hk, hne, h => by
    obtain ⟨w', c, rfl⟩ : ∃ w' c, w = w' ++ [c] := ⟨w.dropLast, w.getLast hne, (List.dropLast_concat_getLast hne).symm⟩
    rw [parseDigits_append] at h
    cases hp : parseDigits 0 w' with
    | none => rw [hp] at h; cases h
    | some m =>
      rw [hp] at h
      simp only [Option.bind_some, parseDigits] at h
      cases hd : digitVal? c with
      | none => rw [hd] at h; cases h
      | some d =>
        rw [hd] at h
        obtain ⟨hc, rfl⟩ := digitVal_iff.mp hd
        simp only [Option.some.injEq] at h
        cases w' with
        | nil =>
          simp [parseDigits] at hp
          subst hp
          have := Denotes.digit hc
          rw [show n = c.toNat - '0'.toNat from by rw [← h]; simp]
          exact this
        | cons a w' =>
          have ih := denotes_of_parseDigits (k := k) (w := a :: w') (by simp at hk ⊢; omega) (by simp) hp
          have := Denotes.more ih hc
          rw [show n = 10 * m + (c.toNat - '0'.toNat) from by rw [← h]; have : '0'.toNat = 48 := by decide
                                                              omega]
          exact this

theorem parseNat_iff {w : Str} {n : Nat} : parseNat w = some n ↔ Denotes w n := by
  cases w with
  | nil =>
    simp only [parseNat]
    constructor
    · intro h; cases h
    · intro h; exact absurd rfl (denotes_ne_nil h)
  | cons c w =>
    simp only [parseNat]
    exact ⟨denotes_of_parseDigits rfl (by simp), parseDigits_of_denotes⟩

theorem denotes_unique {w : Str} {n m : Nat} (h : Denotes w n) (h' : Denotes w m) : n = m := by
  have h1 := parseNat_iff.mpr h
  rw [parseNat_iff.mpr h'] at h1
  cases h1; rfl

theorem denotes_digits {w : Str} {n : Nat} (h : Denotes w n) : ∀ c ∈ w, Digit c := by
  induction h with
  | digit hc => simpa using hc
  | more h hc ih =>
    intro c hm
    rcases List.mem_append.mp hm with hm | hm
    · exact ih c hm
    · simp at hm; subst hm; exact hc

theorem digitChar_digit {d : Nat} (h : d < 10) : Digit (digitChar d) ∧ (digitChar d).toNat = 48 + d := by
  have : d = 0 ∨ d = 1 ∨ d = 2 ∨ d = 3 ∨ d = 4 ∨ d = 5 ∨ d = 6 ∨ d = 7 ∨ d = 8 ∨ d = 9 := by omega
  rcases this with rfl | rfl | rfl | rfl | rfl | rfl | rfl | rfl | rfl | rfl <;> exact ⟨digit_iff.mpr (by decide), by decide⟩

theorem showNatAux_denotes : ∀ {fuel n : Nat}, n < fuel → Denotes (showNatAux fuel n) n
  | 0, n, h => absurd h (Nat.not_lt_zero _)
  | fuel + 1, n, h => by
    unfold showNatAux
    split
    · rename_i hn
      obtain ⟨h1, h2⟩ := digitChar_digit hn
      have := Denotes.digit h1
      rw [h2] at this
      have e : 48 + n - '0'.toNat = n := by have : '0'.toNat = 48 := by decide
                                            omega
      rw [e] at this
      exact this
    · rename_i hn
      have ih := showNatAux_denotes (fuel := fuel) (n := n / 10) (by omega)
      obtain ⟨h1, h2⟩ := digitChar_digit (d := n % 10) (by omega)
      have := Denotes.more ih h1
      rw [h2] at this
      have e : 10 * (n / 10) + (48 + n % 10 - '0'.toNat) = n := by
        have : '0'.toNat = 48 := by decide
        omega
      rw [e] at this
      exact this

theorem showNat_denotes (n : Nat) : Denotes (showNat n) n := showNatAux_denotes (Nat.lt_succ_self n)

theorem showNatAux_canonical : ∀ {fuel n : Nat}, n < fuel → (showNatAux fuel n).head? = some '0' → n = 0
  | 0, n, h, _ => absurd h (Nat.not_lt_zero _)
  | fuel + 1, n, h, h0 => by
    unfold showNatAux at h0
    split at h0
    · rename_i hn
      simp only [List.head?_cons, Option.some.injEq] at h0
      have := (digitChar_digit hn).2
      rw [h0] at this
      have : '0'.toNat = 48 := by decide
      omega
    · rename_i hn
      have hne := denotes_ne_nil (showNatAux_denotes (fuel := fuel) (n := n / 10) (by omega))
      rw [List.head?_append] at h0
      cases hh : (showNatAux fuel (n / 10)).head? with
      | none => exact absurd (List.head?_eq_none_iff.mp hh) hne
      | some c =>
        rw [hh] at h0
        simp only [Option.some_or, Option.some.injEq] at h0
        subst h0
        have := showNatAux_canonical (fuel := fuel) (n := n / 10) (by omega) hh
        omega

theorem showNat_canonical (n : Nat) : Canonical (showNat n) n := by
  refine ⟨showNat_denotes n, fun h => ?_⟩
  have := showNatAux_canonical (Nat.lt_succ_self n) h
  subst this
  decide

theorem parseNat_showNat (n : Nat) : parseNat (showNat n) = some n := parseNat_iff.mpr (showNat_denotes n)

theorem showNat_inj {n m : Nat} (h : showNat n = showNat m) : n = m := by
  have h1 := parseNat_showNat n
  rw [h, parseNat_showNat] at h1
  cases h1; rfl

theorem denotes_zero {w : Str} (h : Denotes w 0) : w.head? = some '0' := by
  have key : ∀ {w : Str} {n : Nat}, Denotes w n → n = 0 → w.head? = some '0' := by
    intro w n h
    induction h with
    | digit hc =>
      intro h0
      have := digit_range hc
      have e : '0'.toNat = 48 := by decide
      rename_i c
      have : c.toNat = '0'.toNat := by omega
      simp only [List.head?_cons, Option.some.injEq]
      exact Char.toNat_inj.mp this
    | more h hc ih =>
      intro h0
      rw [List.head?_append, ih (by omega)]
      rfl
  exact key h rfl

theorem canonical_unique {w w' : Str} {n : Nat} (h : Canonical w n) (h' : Canonical w' n) : w = w' := by
  have e0 : '0'.toNat = 48 := by decide
  have digit_eq : ∀ {c d : Char}, Digit c → Digit d → c.toNat - '0'.toNat = d.toNat - '0'.toNat → c = d := by
    intro c d hc hd he
    have h1 := digit_range hc
    have h2 := digit_range hd
    exact Char.toNat_inj.mp (by omega)
  have nonzero : ∀ {v : Str} {m : Nat} {c : Char}, Denotes v m → ((v ++ [c]).head? = some '0' → v ++ [c] = ['0']) → 0 < m := by
    intro v m c hv h0
    cases Nat.eq_zero_or_pos m with
    | inr h => exact h
    | inl h =>
      subst h
      have h1 := denotes_zero hv
      have h2 := h0 (by rw [List.head?_append, h1]; rfl)
      have h3 := denotes_ne_nil hv
      have h4 := congrArg List.length h2
      simp at h4
      exact absurd h4 h3
  obtain ⟨hd, hz⟩ := h
  obtain ⟨hd', hz'⟩ := h'
  have tail : ∀ {v : Str} {m : Nat} {c : Char}, Denotes v m → ((v ++ [c]).head? = some '0' → v ++ [c] = ['0']) →
      (v.head? = some '0' → v = ['0']) := by
    intro v m c hv h0 h1
    have h2 := h0 (by rw [List.head?_append, h1]; rfl)
    have h4 := congrArg List.length h2
    simp at h4
    exact absurd h4 (denotes_ne_nil hv)
  generalize hm : n = m at hd'
  induction hd generalizing w' m with
  | digit hc =>
    have h1 := digit_range hc
    cases hd' with
    | digit hc' => rw [digit_eq hc hc' hm]
    | more hv' hc' =>
      have := nonzero hv' hz'
      omega
  | more hv hc ih =>
    have h1 := digit_range hc
    have h3 := nonzero hv hz
    cases hd' with
    | digit hc' =>
      have := digit_range hc'
      omega
    | more hv' hc' =>
      have h2 := digit_range hc'
      rw [digit_eq hc hc' (by omega), ih (tail hv hz) (tail hv' hz') _ (by omega) hv']

end HyperIR
