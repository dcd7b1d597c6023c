import Verif.Spec.Clear
import Verif.Props.Reading
import Verif.Proofs.JoinProblems
import Verif.Proofs.Effects

/-
Property C99: for which texts `on_change` (src/main.rs:735) publishes no diagnostics.  The specification is
`Spec/Clear.lean`.
-/

namespace HyperIR
open Spec

section
variable [Unicode]
variable {env : Env} {st st' : ServerState} {uri text : Str} {v : Int} {pub : Publish} {res : ParserResult}

theorem picks_nil_iff {α β : Type} {R : α → β → Prop} {as : List α} {bs : List β} (h : Picks R as bs) :
    bs = [] ↔ ∀ a ∈ as, ∀ b, ¬ R a b := by
  induction h with
  | nil => simp
  | take h _ ih =>
    simp only [List.mem_cons, forall_eq_or_imp]
    exact ⟨fun h' => by simp at h', fun h' => absurd h (h'.1 _)⟩
  | skip h _ ih => rw [ih]; simp [h]

theorem each_nil_iff {α β : Type} {R : α → β → Prop} {as : List α} {bs : List β} (h : Each R as bs) :
    bs = [] ↔ as = [] := by
  cases h <;> simp

theorem each_len {α β : Type} {R : α → β → Prop} {as : List α} {bs : List β} (h : Each R as bs) : as.length = bs.length := by
  induction h with
  | nil => rfl
  | cons _ _ ih => simp [ih]

theorem rangeToLsp_end (t : Str) : rangeToLsp t ⟨utf8Len t, utf8Len t + 1⟩ = none := by
  have := length_le_utf8Len t
  cases hr : rangeToLsp t ⟨utf8Len t, utf8Len t + 1⟩ with
  | none => rfl
  | some r =>
    exfalso
    unfold rangeToLsp at hr
    simp only at hr
    split at hr
    · cases hr
    · split at hr
      · cases hr
      · rename_i h2
        have := (offsetToLspPos_some h2).1
        omega

/-- An error has no place exactly at the end of the text. -/
theorem error_unshown (hsize : text.length < 2 ^ 32) (h : parseFromStr text = .ok res) {e : SErr} (he : e ∈ res.errors) :
    (∀ r, ¬ ShownRange text e.span r) ↔ e.span = { start := utf8Len text, stop := utf8Len text + 1 } := by
  constructor
  · intro hn
    rcases (errors_ok h e he).1 with h1 | h1
    · exact h1
    · obtain ⟨r, hr⟩ := rangeToLsp_total hsize h1.1 h1.2
      exact absurd ((rangeToLsp_shown hsize).mp hr) (hn r)
  · intro h1 r hr
    have := (rangeToLsp_shown hsize).mpr hr
    rw [h1, rangeToLsp_end] at this
    cases this

theorem errorText_exists (e : SErr) : ∃ msg, ErrorText e msg := ⟨_, errorText e⟩

theorem sound_iff (h : parseFromStr text = .ok res) (hix : ∃ ix, createIndex text res.tokens res.stmts = .ok ix) :
    Sound res.tokens res.stmts ↔ (∀ o, ¬ UndefinedUse res.tokens res.stmts o) ∧ (∀ o, ¬ Redefinition res.tokens res.stmts o) ∧
      ∀ i ∈ instructions res.stmts, ¬ LacksTargets i := by
  obtain ⟨ix, hix⟩ := hix
  constructor
  · rintro ⟨h1, h2, h3⟩
    refine ⟨?_, ?_, h3⟩
    · rintro o ⟨ho, _, hall⟩
      obtain ⟨d, hd, hs, hu⟩ := h1 o ho
      exact hu (hall d hd hs)
    · rintro o ⟨ho, hd, hn⟩
      refine hn ⟨⟨ho, ⟨rfl, rfl, rfl⟩, hd⟩, ?_⟩
      intro o' ho' hs hd'
      rw [h2 o' o ho' ho hs hd' hd]
      exact Nat.le_refl _
  · rintro ⟨h1, h2, h3⟩
    refine ⟨?_, ?_, h3⟩
    · intro o ho
      refine Classical.byContradiction fun hn => ?_
      have hall : ∀ o', Occurs res.tokens res.stmts o' → SameSymbol o' o → o'.useDef = .use := fun o' ho' hs =>
        Classical.byContradiction fun hu => hn ⟨o', ho', hs, hu⟩
      exact h1 o ⟨ho, hall o ho ⟨rfl, rfl, rfl⟩, hall⟩
    · intro d d' hd hd' hs hu hu'
      have f1 : FirstDef res.tokens res.stmts d d := Classical.byContradiction fun hn => h2 d ⟨hd, hu, hn⟩
      have f2 : FirstDef res.tokens res.stmts d' d' := Classical.byContradiction fun hn => h2 d' ⟨hd', hu', hn⟩
      refine firstDef_unique h hix f1 ⟨⟨hd', ⟨hs.1.symm, hs.2.1.symm, hs.2.2.symm⟩, hu'⟩, ?_⟩
      intro o ho hso
      exact f2.2 o ho ⟨hso.1.trans hs.1, hso.2.1.trans hs.2.1, hso.2.2.trans hs.2.2⟩

/-- No diagnostics, in terms of what is parsed. -/
theorem clear_iff (hsize : text.length < 2 ^ 32) (h : parseFromStr text = .ok res) (hc : onChange env st uri v text = .ok (st', pub)) :
    pub.diagnostics = [] ↔ (∀ e ∈ res.errors, e.span = { start := utf8Len text, stop := utf8Len text + 1 }) ∧
      Sound res.tokens res.stmts := by
  obtain ⟨ix, hix, _⟩ := publish_inv h hc
  obtain ⟨syn, br, index, undefs, dups, uses, defs, hd, hp, h1, h2, _, h3, h4, _, h5, h6⟩ := diagnosed hsize h hc
  have hindex : index = [] ↔ undefs = [] ∧ dups = [] := by
    rw [← List.append_eq_nil_iff]
    exact ⟨fun e => by rw [e] at hp; exact hp.symm.eq_nil, fun e => by rw [e] at hp; exact hp.eq_nil⟩
  rw [sound_iff h ⟨ix, hix⟩, hd, List.append_eq_nil_iff, List.append_eq_nil_iff, hindex, picks_nil_iff h1, picks_nil_iff h2,
    each_nil_iff h4, each_nil_iff h6]
  have hs : (∀ a ∈ res.errors, ∀ b : Diagnostic, ¬ (ShownRange text a.span b.range ∧ ErrorText a b.message ∧ b.related = [])) ↔
      ∀ e ∈ res.errors, e.span = { start := utf8Len text, stop := utf8Len text + 1 } := by
    refine forall_congr' fun e => forall_congr' fun he => ?_
    rw [← error_unshown hsize h he]
    obtain ⟨msg, hm⟩ := errorText_exists e
    exact ⟨fun hn r hr => hn { range := r, message := msg } ⟨hr, hm, rfl⟩, fun hn b hb => hn _ hb.1⟩
  have hb : (∀ a ∈ instructions res.stmts, ∀ b : Diagnostic, ¬ (LacksTargets a ∧ ShownRange text a.instruction.2 b.range ∧ b.related = [] ∧
      b.message = c!"Failed to extract basic block references from `" ++ a.instruction.1 ++ c!"` instruction")) ↔
      ∀ i ∈ instructions res.stmts, ¬ LacksTargets i := by
    refine forall_congr' fun i => forall_congr' fun hi => ?_
    refine ⟨fun hn hl => ?_, fun hn b hb => hn hb.1⟩
    have htok : identTok i.instruction ∈ res.tokens :=
      (((instructions_sublist res.stmts).trans (mentions_sublist h)).trans List.filter_sublist).subset
        (List.mem_map.mpr ⟨i, hi, rfl⟩)
    obtain ⟨r, hr⟩ := token_rangeToLsp h hsize htok
    exact hn { range := r, message := _ } ⟨hl, (rangeToLsp_shown hsize).mp hr, rfl, rfl⟩
  have hu : uses = [] ↔ ∀ o, ¬ UndefinedUse res.tokens res.stmts o := by
    rw [List.eq_nil_iff_forall_not_mem]
    exact forall_congr' fun o => not_congr (h3 o)
  have hdf : defs = [] ↔ ∀ o, ¬ Redefinition res.tokens res.stmts o := by
    rw [List.eq_nil_iff_forall_not_mem]
    exact forall_congr' fun o => not_congr (h5 o)
  rw [hs, hb, hu, hdf]
  grind

/-! ### Odd mnemonics are tokens -/

theorem lineAt_odd {m ts d o l r} (h : LineAt m ts d o l r) : ∀ sp ∈ o, ∃ t ∈ l, sp = t.2 := by
  cases h with
  | known => simp
  | other => simp
  | odd h =>
    obtain ⟨ops, c, k, e, t, c', k', e', t', _, _, rfl⟩ := h
    intro sp hsp
    simp only [List.mem_singleton] at hsp
    exact ⟨identTok m, by simp, hsp⟩

theorem instrsAt_odd {is o l r} (h : InstrsAt is o l r) : ∀ sp ∈ o, ∃ t ∈ l, sp = t.2 := by
  induction h with
  | nil => simp
  | cons h _ _ _ ih =>
    obtain ⟨asg, body, _, hb, rfl, _⟩ := h
    intro sp hsp
    rcases List.mem_append.mp hsp with hsp | hsp
    · obtain ⟨t, ht, e⟩ := lineAt_odd hb sp hsp
      exact ⟨t, by simp [ht], e⟩
    · obtain ⟨t, ht, e⟩ := ih sp hsp
      exact ⟨t, by simp [ht], e⟩

theorem blocksAt_odd {bs o l r} (h : BlocksAt bs o l r) : ∀ sp ∈ o, ∃ t ∈ l, sp = t.2 := by
  induction h with
  | nil => simp
  | cons h _ ih =>
    obtain ⟨label, comma, nls, is, _, _, hi, rfl, _⟩ := h
    intro sp hsp
    rcases List.mem_append.mp hsp with hsp | hsp
    · obtain ⟨t, ht, e⟩ := instrsAt_odd hi sp hsp
      exact ⟨t, by simp [ht], e⟩
    · obtain ⟨t, ht, e⟩ := ih sp hsp
      exact ⟨t, by simp [ht], e⟩

theorem allBlocksAt_odd {bs o l r} (h : AllBlocksAt bs o l r) : ∀ sp ∈ o, ∃ t ∈ l, sp = t.2 := by
  cases h with
  | labelled h => exact blocksAt_odd h
  | unlabelled h h' =>
    obtain ⟨f, la, hi, _⟩ := h
    intro sp hsp
    rcases List.mem_append.mp hsp with hsp | hsp
    · obtain ⟨t, ht, e⟩ := instrsAt_odd hi sp hsp
      exact ⟨t, by simp [ht], e⟩
    · obtain ⟨t, ht, e⟩ := blocksAt_odd h' sp hsp
      exact ⟨t, by simp [ht], e⟩

theorem readAt_odd {x o l r} (h : ReadAt x o l r) : ∀ sp ∈ o, ∃ t ∈ l, sp = t.2 := by
  obtain ⟨nls, body, nls', _, hs, _, rfl, _⟩ := h
  cases hs with
  | plain => simp
  | funcDef _ hb =>
    obtain ⟨nls, bl, _, _, hb, rfl⟩ := hb
    intro sp hsp
    obtain ⟨t, ht, e⟩ := allBlocksAt_odd hb sp hsp
    exact ⟨t, by simp [ht], e⟩

theorem layout_odd {ss o gs w l} (h : Layout ss o gs w l) : ∀ sp ∈ o, ∃ t ∈ l, sp = t.2 := by
  induction h with
  | done => simp
  | lost => simp
  | stmt h _ ih =>
    intro sp hsp
    rcases List.mem_append.mp hsp with hsp | hsp
    · obtain ⟨t, ht, e⟩ := readAt_odd h sp hsp
      exact ⟨t, by simp [ht], e⟩
    · obtain ⟨t, ht, e⟩ := ih sp hsp
      exact ⟨t, by simp [ht], e⟩
  | skip _ h _ ih =>
    intro sp hsp
    rcases List.mem_append.mp hsp with hsp | hsp
    · obtain ⟨t, ht, e⟩ := readAt_odd h sp hsp
      exact ⟨t, by simp [ht], e⟩
    · obtain ⟨t, ht, e⟩ := ih sp hsp
      exact ⟨t, by simp [ht], e⟩

/-! ### C99 -/

/-- C99: no diagnostics are published exactly for the sound texts and for those cut short. -/
theorem C99_clear (hsize : text.length < 2 ^ 32) (hc : onChange env st uri v text = .ok (st', pub)) :
    pub.diagnostics = [] ↔ SoundText text ∨ ∃ res, parseFromStr text = .ok res ∧ CutShort text res := by
  obtain ⟨res, h, hr⟩ := C98_reading text
  have hk := clear_iff hsize h hc
  have hspan := C02_token_spans h
  have hlen := length_le_utf8Len text
  have hin : ∀ p x, LexErrorAt text p x → x.span ≠ { start := utf8Len text, stop := utf8Len text + 1 } := by
    intro p x hx he
    have hx := lexErrorAt_inside hx
    rw [he] at hx
    simp only at hx
    omega
  constructor
  · intro he
    obtain ⟨h1, h2⟩ := hk.mp he
    rcases hr with ⟨ps, ss, odd, gs, w, lx, os, a1, a2, a3, a4, a5, a6, a7, a8, a9⟩ | ⟨b1, b2, b3⟩
    · have hlx : lx = [] := by
        cases a6 with
        | nil => rfl
        | cons h _ => exact absurd (h1 _ (by rw [a5]; simp)) (hin _ _ h)
      subst hlx
      cases a6
      have a1 := skip_err a1
      rw [List.nil_append] at a5
      have hodd : odd = [] := by
        cases odd with
        | nil => rfl
        | cons sp odd =>
          exfalso
          have hm : oddError sp ∈ res.errors := by
            rw [a5]
            exact a7.subset (by simp)
          obtain ⟨t, ht, hsp⟩ := layout_odd a3 sp (by simp)
          have hb := (hspan.1 t (List.mem_filter.mp ht).1).2
          have := h1 _ hm
          simp only [oddError] at this
          rw [← hsp, this] at hb
          simp only at hb
          omega
      subst hodd
      by_cases hg : gs = []
      · left
        subst hg
        have hw : w = true := by
          cases w with
          | true => rfl
          | false =>
            exfalso
            obtain ⟨_, _, _, _, _, h, _⟩ := many_docItem_layout (eoi := ⟨0, 0⟩) a3
            simpa using (h rfl).2
        subst hw
        exact ⟨res.tokens, ss, a1, a2, a3, by rw [if_pos rfl] at a4; rw [← a4]; exact h2⟩
      · right
        refine ⟨res, h, ss, gs, w, a1, a3, a4, hg, ?_, h1, h2⟩
        rw [a5, each_len a9]
    · exfalso
      rcases b3 with ⟨ps, c1, c2⟩ | ⟨_, _, e, c1, c2, _⟩
      · generalize res.errors = es at c2 h1
        cases c2 with
        | nil => exact lexesLost_ne c1 rfl
        | cons h _ => exact hin _ _ h (h1 _ (by simp))
      · have := h1 e (by simp [c1])
        rw [c2] at this
        simp only [Span.mk.injEq] at this
        omega
  · rintro (⟨toks, ss, a1, a2, a3, a4⟩ | ⟨res', h', ss, gs, w, a1, a2, a3, a4, a5, a6, a7⟩)
    · obtain ⟨ps, a1, hps⟩ := err_skip a1
      obtain rfl := List.length_eq_zero_iff.mp hps
      obtain ⟨res', lx, os, hp, b1, b2, b3, b4, _, b5, _⟩ := C98_reported a1 a2 a3
      rw [h] at hp
      cases hp
      refine hk.mpr ⟨?_, by rw [b1, b2]; exact a4⟩
      rw [b3, b5 rfl, (each_empty_iff b4).mp rfl]
      simp
    · rw [h] at h'
      cases h'
      exact hk.mpr ⟨a6, a7⟩

/-- C99: a text without errors has no diagnostics exactly if it is sound. -/
theorem C99_whole (hsize : text.length < 2 ^ 32) (hc : onChange env st uri v text = .ok (st', pub)) :
    SoundText text ↔ pub.diagnostics = [] ∧ ∃ res, parseFromStr text = .ok res ∧ res.errors = [] := by
  constructor
  · intro h
    obtain ⟨toks, ss, a1, a2, a3, a4⟩ := id h
    obtain ⟨res, hp, he, _⟩ := (C98_accepted text ss).mpr ⟨toks, a1, a2, a3⟩
    exact ⟨(C99_clear hsize hc).mpr (.inl h), res, hp, he⟩
  · rintro ⟨hd, res, hp, he⟩
    rcases (C99_clear hsize hc).mp hd with h | ⟨res', hp', ss, gs, w, a1, a2, a3, a4, a5, _⟩
    · exact h
    · rw [hp] at hp'
      cases hp'
      rw [he] at a5
      exact absurd (List.length_eq_zero_iff.mp a5.symm) a4

end

/-! ### Concrete cases -/

namespace Instances

local instance : Unicode := asciiUnicode

/-- A module that mentions nothing undefined. -/
def soundText : Str := c!"declare void @g()\n@a = 1\ndefine void @f(int8 %x) {\n br b\nb:\n int8 %y = add %x, @a !1\n call @g()\n ret\n}\n!1 = 2\n"

/-- The numbers of diagnostics and of errors of a text. -/
def problems (text : Str) : Option (Nat × Nat) :=
  match diagnosticsOf text, parseFromStr text with
  | some l, .ok res => some (l.length, res.errors.length)
  | _, _ => none

theorem problems_inv {text : Str} {n k : Nat} (h : problems text = some (n, k)) : ∃ st' pub res,
    onChange debugEnv { docs := [], roots := [] } c!"u" 1 text = .ok (st', pub) ∧ parseFromStr text = .ok res ∧
      pub.diagnostics.length = n ∧ res.errors.length = k := by
  unfold problems diagnosticsOf at h
  cases h1 : onChange debugEnv { docs := [], roots := [] } c!"u" 1 text with
  | panic => rw [h1] at h; cases h
  | ok x =>
    cases h2 : parseFromStr text with
    | panic => rw [h1, h2] at h; cases h
    | ok res =>
      rw [h1, h2] at h
      simp only [Option.some.injEq, Prod.mk.injEq] at h
      exact ⟨x.1, x.2, res, rfl, rfl, h.1, h.2⟩

/-- `soundText` is sound. -/
theorem soundText_sound : SoundText soundText := by
  have h : problems soundText = some (0, 0) := by decide +kernel
  obtain ⟨st', pub, res, h1, h2, h3, h4⟩ := problems_inv h
  exact (C99_whole (by decide) h1).mpr ⟨List.length_eq_zero_iff.mp h3, res, h2, List.length_eq_zero_iff.mp h4⟩

/-- A function without its end that contains something like a statement: this statement is all that is
reported, and nothing is said about the rest. -/
def cutText : Str := c!"define void @a() {\n foo @a = 1\n"

/-- C99: an unfinished document may be silently misread. -/
theorem C99_cut : ∃ res, parseFromStr cutText = .ok res ∧ CutShort cutText res ∧ res.stmts.length = 1 ∧ ¬ SoundText cutText := by
  have h : problems cutText = some (0, 1) := by decide +kernel
  obtain ⟨st', pub, res, h1, h2, h3, h4⟩ := problems_inv h
  have hn : ¬ SoundText cutText := by
    intro hs
    obtain ⟨_, res', h5, h6⟩ := (C99_whole (by decide) h1).mp hs
    rw [h2] at h5
    cases h5
    rw [h6] at h4
    cases h4
  rcases (C99_clear (by decide) h1).mp (List.length_eq_zero_iff.mp h3) with hs | ⟨res', h5, hcut⟩
  · exact absurd hs hn
  · rw [h2] at h5
    cases h5
    have hk : (match parseFromStr cutText with | .ok res => res.stmts.length | .panic => 0) = 1 := by decide +kernel
    rw [h2] at hk
    exact ⟨res, h2, hcut, hk, hn⟩

end Instances

end HyperIR
