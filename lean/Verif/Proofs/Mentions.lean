import Verif.Proofs.ParserSound
import Verif.Spec.Mentions

/- The grammar relations of `Spec/Grammar.lean` imply that trees mention their tokens in order. -/

namespace HyperIR
open Spec

/-! ### Mentions are sublists of the tokens -/

theorem commaSep_sublist {α : Type} {G : α → List Tok → Prop} {f : α → List Tok}
    (hf : ∀ {x l}, G x l → (f x).Sublist l) {xs l} (h : CommaSep G xs l) : (xs.flatMap f).Sublist l := by
  induction h with
  | nil => simp
  | one h => simpa using hf h
  | cons h _ ih =>
    rw [List.flatMap_cons]
    exact (hf h).append (ih.cons _)

theorem commaSep_sublist_map {α : Type} {G : α → List Tok → Prop} {f : α → Tok}
    (hf : ∀ {x l}, G x l → f x ∈ l) {xs l} (h : CommaSep G xs l) : (xs.map f).Sublist l := by
  have := commaSep_sublist (f := fun x => [f x]) (fun h => List.singleton_sublist.mpr (hf h)) h
  rw [List.map_eq_flatMap]
  exact this

theorem sigG_sublist {s l} (h : SigG s l) : (sigMentions s).Sublist l := by
  obtain ⟨o, args, c, h1, rfl⟩ := h
  have h2 : (s.args.flatMap argMentions).Sublist args :=
    commaSep_sublist (fun h => by rw [show _ = argMentions _ from h]; exact .refl _) h1
  unfold sigMentions
  simp only [List.append_assoc]
  refine (List.Sublist.refl _).append ?_
  refine List.Sublist.cons_cons _ (List.Sublist.cons_cons _ (List.Sublist.cons _ ?_))
  exact h2.trans (List.sublist_append_left ..)

theorem bodyForm_sublist {m ts d l} (h : BodyForm m ts d l) :
    (identTok m :: ts.map identTok ++ dbgToks d).Sublist l := by
  cases h with
  | br => exact List.Sublist.refl _
  | condBr =>
    exact .cons_cons _ (.cons _ (.cons _ (.cons _ (.cons_cons _ (.cons _ (.cons_cons _ (.refl _)))))))
  | overflowBr h =>
    refine (List.Sublist.append ?_ (.refl _))
    refine .cons_cons _ (List.Sublist.trans ?_ (List.sublist_append_right ..))
    exact .cons _ (.cons _ (.cons _ (.cons_cons _ (.cons _ (.cons _ (.cons _ (.cons_cons _ (.refl _))))))))
  | switch h1 h2 =>
    refine (List.Sublist.append ?_ (.refl _))
    simp only [List.cons_append, List.append_assoc]
    refine .cons_cons _ (List.Sublist.trans ?_ (List.sublist_append_right ..))
    refine .cons _ (.cons _ (.cons _ (.cons_cons _ (.cons _ ?_))))
    refine commaSep_sublist_map ?_ h2
    rintro x l ⟨ty, v, k, e, rfl⟩
    simp
  | phi h =>
    refine (List.Sublist.append (.cons_cons _ ?_) (.refl _))
    refine commaSep_sublist_map ?_ h
    rintro x l ⟨ty, v, k, e, _, rfl⟩
    simp
  | other h => exact (List.Sublist.append (.cons_cons _ (List.nil_sublist _)) (.refl _))

theorem instrG_sublist {i l} (h : InstrG i l) : (instrMentions i).Sublist l := by
  obtain ⟨asg, body, h1, h2, rfl, _⟩ := h
  unfold instrMentions
  rw [List.append_assoc, List.append_assoc]
  refine List.Sublist.append ?_ (bodyForm_sublist h2)
  generalize i.assignmentTarget = a at h1
  cases h1 with
  | none => exact .refl _
  | some => exact .cons _ (.cons_cons _ (List.nil_sublist _))

theorem instrsG_sublist {is l} (h : InstrsG is l) : (is.flatMap instrMentions).Sublist l := by
  induction h with
  | nil => exact .refl _
  | cons _ h2 _ _ _ ih =>
    rw [List.flatMap_cons]
    refine List.Sublist.append ?_ ih
    exact ((instrG_sublist h2).trans (List.sublist_append_right ..)).trans (List.sublist_append_left ..)

theorem blockG_sublist {b l} (h : BlockG b l) : (blockMentions b).Sublist l := by
  obtain ⟨label, comma, nls, is, _, _, h, rfl, h1, h2, _⟩ := h
  unfold blockMentions
  rw [h1, h2]
  refine .cons_cons _ (.cons_cons _ ?_)
  exact (instrsG_sublist h).trans (List.sublist_append_right ..)

theorem firstBlockG_sublist {b l} (h : FirstBlockG b l) : (blockMentions b).Sublist l := by
  obtain ⟨f, la, h, _, _, h1, h2, _⟩ := h
  unfold blockMentions
  rw [h1, h2]
  exact instrsG_sublist h

theorem blocksG_sublist {bs l} (h : BlocksG bs l) : (bs.flatMap blockMentions).Sublist l := by
  induction h with
  | nil => exact .refl _
  | cons h1 _ ih => rw [List.flatMap_cons]; exact (blockG_sublist h1).append ih

theorem allBlocksG_sublist {bs l} (h : AllBlocksG bs l) : (bs.flatMap blockMentions).Sublist l := by
  cases h with
  | labelled h => exact blocksG_sublist h
  | unlabelled h1 h2 => rw [List.flatMap_cons]; exact (firstBlockG_sublist h1).append (blocksG_sublist h2)

theorem bodyG_sublist {b l} (h : BodyG b l) : (bodyMentions b).Sublist l := by
  obtain ⟨nls, bl, _, _, h, rfl⟩ := h
  refine List.Sublist.append (.cons_cons _ ?_) (.refl _)
  exact (allBlocksG_sublist h).trans (List.sublist_append_right ..)

theorem stmtG_sublist {s l} (h : StmtG s l) : (stmtMentions s).Sublist l := by
  cases h with
  | globalVar _ => exact .cons_cons _ (.cons _ (.refl _))
  | dbgAnnotation _ => exact .cons_cons _ (.cons _ (.refl _))
  | funcDecl h =>
    refine List.Sublist.append ?_ (.refl _)
    simpa using .cons _ (sigG_sublist h)
  | funcDeclAddr h =>
    refine List.Sublist.append (List.Sublist.append (.cons _ (sigG_sublist h)) ?_) (.refl _)
    exact .cons _ (.refl _)
  | funcDef h1 h2 => exact List.Sublist.append (.cons_cons _ (sigG_sublist h1)) (bodyG_sublist h2)
  | funcDependencies h =>
    refine .cons_cons _ (.cons _ (.cons _ ?_))
    refine commaSep_sublist_map ?_ h
    rintro x l rfl
    simp

theorem docSkipG_sublist {ss l} (h : DocSkipG ss l) : (mentions ss).Sublist l := by
  unfold mentions
  induction h with
  | nil => exact .refl _
  | cons _ h2 _ _ ih =>
    rw [List.flatMap_cons]
    refine List.Sublist.append ?_ ih
    exact ((stmtG_sublist h2).trans (List.sublist_append_right ..)).trans (List.sublist_append_left ..)

/-! ### Order -/

/-- Tokens with non-empty ranges in source order. -/
def WellOrdered (l : List Tok) : Prop := InOrder (l.map Prod.snd) ∧ ∀ t ∈ l, t.2.start < t.2.stop

theorem WellOrdered.sublist {l l' : List Tok} (h : WellOrdered l) (hs : l'.Sublist l) : WellOrdered l' :=
  ⟨h.1.sublist (hs.map _), fun t ht => h.2 t (hs.subset ht)⟩

theorem WellOrdered.left {l l' : List Tok} (h : WellOrdered (l ++ l')) : WellOrdered l :=
  h.sublist (List.sublist_append_left ..)

theorem WellOrdered.right {l l' : List Tok} (h : WellOrdered (l ++ l')) : WellOrdered l' :=
  h.sublist (List.sublist_append_right ..)

theorem WellOrdered.le {l l' : List Tok} (h : WellOrdered (l ++ l')) {t t' : Tok} (ht : t ∈ l) (ht' : t' ∈ l') :
    t.2.stop ≤ t'.2.start := by
  have := h.1
  unfold InOrder at this
  rw [List.map_append, List.pairwise_append] at this
  exact this.2.2 _ (List.mem_map_of_mem ht) _ (List.mem_map_of_mem ht')

/-- The range starts and ends with tokens of the list. -/
def Fits (sp : Span) (l : List Tok) : Prop :=
  (∃ t ∈ l, sp.start = t.2.start) ∧ (∃ t ∈ l, sp.stop = t.2.stop) ∧ sp.start < sp.stop

theorem Fits.mono {sp : Span} {l l' : List Tok} (h : Fits sp l) (hs : ∀ t ∈ l, t ∈ l') : Fits sp l' := by
  obtain ⟨⟨t, h1, h2⟩, ⟨t', h3, h4⟩, h5⟩ := h
  exact ⟨⟨t, hs _ h1, h2⟩, ⟨t', hs _ h3, h4⟩, h5⟩

theorem Fits.le {a b : Span} {l l' : List Tok} (h : WellOrdered (l ++ l')) (ha : Fits a l) (hb : Fits b l') :
    a.stop ≤ b.start := by
  obtain ⟨_, ⟨t, h1, h2⟩, _⟩ := ha
  obtain ⟨⟨t', h3, h4⟩, _⟩ := hb
  rw [h2, h4]
  exact h.le h1 h3

theorem Fits.tok {t : Tok} {l : List Tok} (h : WellOrdered l) (ht : t ∈ l) : Fits t.2 l :=
  ⟨⟨t, ht, rfl⟩, ⟨t, ht, rfl⟩, h.2 t ht⟩

theorem hull_within {l : List Tok} (h : WellOrdered l) {t : Tok} (ht : t ∈ l) : Within t.2 (hull l) := by
  constructor
  · cases l with
    | nil => cases ht
    | cons t0 l =>
      show t0.2.start ≤ _
      rcases List.mem_cons.mp ht with rfl | ht
      · exact Nat.le_refl _
      · have h1 := WellOrdered.le (l := [t0]) h (List.mem_singleton_self _) ht
        have h2 := h.2 t0 (List.mem_cons_self ..)
        omega
  · rcases List.eq_nil_or_concat l with rfl | ⟨l', t0, rfl⟩
    · cases ht
    · have e : (hull (l'.concat t0)).stop = t0.2.stop := by simp [hull]
      rw [e]
      rw [List.concat_eq_append] at ht h
      rcases List.mem_append.mp ht with ht | ht
      · have h1 := h.le ht (List.mem_singleton_self _)
        have h2 := h.2 t0 (by simp)
        omega
      · simp at ht; subst ht; exact Nat.le_refl _

theorem hull_fits {l : List Tok} (h : WellOrdered l) (hl : l ≠ []) : Fits (hull l) l := by
  cases l with
  | nil => exact absurd rfl hl
  | cons t0 l =>
    have hw := hull_within h (List.mem_cons_self ..)
    have h2 := h.2 t0 (List.mem_cons_self ..)
    refine ⟨⟨t0, List.mem_cons_self .., rfl⟩, ⟨(t0 :: l).getLast (by simp), List.getLast_mem _, ?_⟩, ?_⟩
    · rw [hull_cons]
    · have := hw.1; have := hw.2; omega

theorem instrG_fits {i l} (h : InstrG i l) (hw : WellOrdered l) : Fits i.span l := by
  have hn := instrG_ne_nil h
  obtain ⟨_, _, _, _, _, h⟩ := h
  rw [h]
  exact hull_fits hw hn

theorem instrsG_order {is l} (h : InstrsG is l) (hw : WellOrdered l) :
    InOrder (is.map Instruction.span) ∧ (∀ i ∈ is, Fits i.span l)
      ∧ ∀ i ∈ is, ∀ t ∈ instrMentions i, Within t.2 i.span := by
  induction h with
  | nil => exact ⟨.nil, by simp, by simp⟩
  | @cons i is nls l nls' l' _ h2 _ _ _ ih =>
    obtain ⟨a1, a2, a3⟩ := ih hw.right
    have hwl : WellOrdered l := hw.left.left.right
    have hf : Fits i.span (nls ++ l ++ nls') := (instrG_fits h2 hwl).mono (by
      intro t ht; simp [ht])
    refine ⟨?_, ?_, ?_⟩
    · rw [List.map_cons]
      refine List.Pairwise.cons ?_ a1
      intro sp hsp
      obtain ⟨j, hj, rfl⟩ := List.mem_map.mp hsp
      exact hf.le hw (a2 j hj)
    · intro j hj
      rcases List.mem_cons.mp hj with rfl | hj
      · exact hf.mono (by intro t ht; grind)
      · exact (a2 j hj).mono (by intro t ht; simp [ht])
    · intro j hj
      rcases List.mem_cons.mp hj with rfl | hj
      · intro t ht
        have hi := (instrG_sublist h2).subset ht
        obtain ⟨_, _, _, _, _, h⟩ := h2
        rw [h]
        exact hull_within hwl hi
      · exact a3 j hj

theorem inOrder_within {spans : List Span} (h : InOrder spans) (hne : ∀ s ∈ spans, s.start < s.stop) {f la : Span}
    (hf : spans.head? = some f) (hl : spans.getLast? = some la) :
    ∀ s ∈ spans, f.start ≤ s.start ∧ s.stop ≤ la.stop := by
  intro s hs
  constructor
  · cases spans with
    | nil => cases hs
    | cons a l =>
      cases hf
      rcases List.mem_cons.mp hs with rfl | hs
      · exact Nat.le_refl _
      · have := List.rel_of_pairwise_cons h hs
        have := hne _ (List.mem_cons_self ..)
        omega
  · rcases List.eq_nil_or_concat spans with rfl | ⟨l', t0, rfl⟩
    · cases hs
    · rw [List.concat_eq_append] at *
      rw [List.getLast?_append] at hl
      simp at hl
      subst hl
      rcases List.mem_append.mp hs with hs | hs
      · have := (List.pairwise_append.mp h).2.2 _ hs _ (List.mem_singleton_self _)
        have := hne t0 (by simp)
        omega
      · simp at hs; subst hs; exact Nat.le_refl _

theorem blockG_ordered {b l} (h : BlockG b l) (hw : WellOrdered l) : Fits b.span l ∧ OrderedBlock b := by
  obtain ⟨label, comma, nls, is, _, _, hi, rfl, h1, h2, h3⟩ := h
  obtain ⟨a1, a2, a3⟩ := instrsG_order hi hw.right
  have hwl : Fits label.2 [identTok label, (.punct ':', comma)] :=
    Fits.tok hw.left.left (t := identTok label) (by simp)
  have hlab : ∀ i ∈ b.instructions, label.2.stop ≤ i.span.start := by
    intro i hi
    refine (hwl.mono ?_).le hw (a2 i hi)
    intro t ht; grind
  have hlabne : label.2.start < label.2.stop := hwl.2.2
  have hlast : ∀ i ∈ b.instructions, i.span.stop ≤ b.span.stop := by
    intro i hi
    cases hl : b.instructions.getLast? with
    | none =>
      rw [List.getLast?_eq_none_iff] at hl
      rw [hl] at hi; cases hi
    | some la =>
      rw [h3, hl]
      cases hh : b.instructions with
      | nil => rw [hh] at hi; cases hi
      | cons f fs =>
        refine (inOrder_within a1 ?_ (f := f.span) (la := la.span) (by simp [hh]) (by simp [hl]) i.span
          (List.mem_map_of_mem hi)).2
        intro s hs
        obtain ⟨j, hj, rfl⟩ := List.mem_map.mp hs
        exact (a2 j hj).2.2
  have hstart : b.span.start = label.2.start := by rw [h3]
  have hlabstop : label.2.stop ≤ b.span.stop := by
    rw [h3]
    cases hl : b.instructions.getLast? with
    | none => exact Nat.le_refl _
    | some la =>
      have hm := List.mem_of_getLast? hl
      have := hlab la hm
      have := (a2 la hm).2.2
      simp only
      omega
  refine ⟨⟨⟨identTok label, by simp, hstart⟩, ?_, by omega⟩, ⟨a1, ?_, ?_, ?_, a3, by omega⟩⟩
  · rw [h3]
    cases hl : b.instructions.getLast? with
    | none => exact ⟨identTok label, by simp, rfl⟩
    | some la =>
      obtain ⟨_, ⟨t, ht, ht'⟩, _⟩ := a2 la (List.mem_of_getLast? hl)
      exact ⟨t, by simp [ht], ht'⟩
  · intro i hi
    have := hlab i hi
    exact ⟨by omega, hlast i hi⟩
  · intro l hl
    rw [h1] at hl
    cases hl
    exact ⟨by omega, hlabstop⟩
  · intro l hl
    rw [h1] at hl
    cases hl
    exact hlab

theorem firstBlockG_ordered {b l} (h : FirstBlockG b l) (hw : WellOrdered l) : Fits b.span l ∧ OrderedBlock b := by
  obtain ⟨f, la, hi, hf, hla, h1, h2, h3⟩ := h
  obtain ⟨a1, a2, a3⟩ := instrsG_order hi hw
  have hin : ∀ i ∈ b.instructions, Within i.span b.span := by
    intro i hi
    have := inOrder_within a1 ?_ (f := f.span) (la := la.span) (by simp [hf]) (by simp [hla]) i.span
      (List.mem_map_of_mem hi)
    · rw [h3]; exact this
    · intro s hs
      obtain ⟨j, hj, rfl⟩ := List.mem_map.mp hs
      exact (a2 j hj).2.2
  have hfm := List.mem_of_head? hf
  have hne : b.span.start < b.span.stop := by
    have := hin f hfm
    have h5 := (a2 f hfm).2.2
    have := this.1; have := (hin f hfm).2
    omega
  refine ⟨⟨?_, ?_, hne⟩, ⟨a1, hin, by simp [h1], by simp [h1], a3, hne⟩⟩
  · rw [h3]; exact (a2 f hfm).1
  · rw [h3]; exact (a2 la (List.mem_of_getLast? hla)).2.1

theorem blocksG_ordered {bs l} (h : BlocksG bs l) (hw : WellOrdered l) :
    InOrder (bs.map BasicBlock.span) ∧ ∀ b ∈ bs, Fits b.span l ∧ OrderedBlock b := by
  induction h with
  | nil => exact ⟨.nil, by simp⟩
  | @cons b bs l l' h1 _ ih =>
    obtain ⟨a1, a2⟩ := ih hw.right
    obtain ⟨b1, b2⟩ := blockG_ordered h1 hw.left
    refine ⟨?_, ?_⟩
    · rw [List.map_cons]
      refine List.Pairwise.cons ?_ a1
      intro sp hsp
      obtain ⟨j, hj, rfl⟩ := List.mem_map.mp hsp
      exact b1.le hw (a2 j hj).1
    · intro j hj
      rcases List.mem_cons.mp hj with rfl | hj
      · exact ⟨b1.mono (by intro t ht; simp [ht]), b2⟩
      · exact ⟨(a2 j hj).1.mono (by intro t ht; simp [ht]), (a2 j hj).2⟩

theorem allBlocksG_ordered {bs l} (h : AllBlocksG bs l) (hw : WellOrdered l) :
    InOrder (bs.map BasicBlock.span) ∧ ∀ b ∈ bs, Fits b.span l ∧ OrderedBlock b := by
  cases h with
  | labelled h => exact blocksG_ordered h hw
  | @unlabelled b bs l l' h1 h2 =>
    obtain ⟨a1, a2⟩ := blocksG_ordered h2 hw.right
    obtain ⟨b1, b2⟩ := firstBlockG_ordered h1 hw.left
    refine ⟨?_, ?_⟩
    · rw [List.map_cons]
      refine List.Pairwise.cons ?_ a1
      intro sp hsp
      obtain ⟨j, hj, rfl⟩ := List.mem_map.mp hsp
      exact b1.le hw (a2 j hj).1
    · intro j hj
      rcases List.mem_cons.mp hj with rfl | hj
      · exact ⟨b1.mono (by intro t ht; simp [ht]), b2⟩
      · exact ⟨(a2 j hj).1.mono (by intro t ht; simp [ht]), (a2 j hj).2⟩

theorem bodyG_ordered {b l} (h : BodyG b l) (hw : WellOrdered l) : OrderedBody b := by
  obtain ⟨nls, bl, _, _, h, rfl⟩ := h
  obtain ⟨a1, a2⟩ := allBlocksG_ordered h hw.left.right
  refine ⟨a1, ?_, fun b hb => (a2 b hb).2, ?_⟩
  · intro bb hb
    have hf := (a2 bb hb).1
    constructor
    · refine Fits.le (a := b.openingBracket) hw.left (Fits.tok (t := (.punct '{', b.openingBracket)) hw.left.left ?_) hf
      simp
    · refine Fits.le (b := b.closingBracket) hw (hf.mono ?_) (Fits.tok (t := (.punct '}', b.closingBracket)) hw.right ?_)
      · intro t ht; simp [ht]
      · simp
  · exact hw.le (t := (.punct '{', b.openingBracket)) (t' := (.punct '}', b.closingBracket)) (by simp) (by simp)

end HyperIR
