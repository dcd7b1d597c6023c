import Verif.Props.Rename

/- What stands in front of a label: never a number. -/

namespace HyperIR
open Spec

/-- The token stands directly behind a token with the property. -/
def Behind (p : Tok → Prop) (x : Tok) (l : List Tok) : Prop := ∃ pre t post, l = pre ++ t :: x :: post ∧ p t

/-- Not a number. -/
def NotNumber (t : Tok) : Prop := (∀ w, t.1 ≠ .num w) ∧ ∀ w, t.1 ≠ .hexNum w

theorem Behind.left {p : Tok → Prop} {x : Tok} {l : List Tok} (h : Behind p x l) (a : List Tok) : Behind p x (a ++ l) := by
  obtain ⟨pre, t, post, rfl, ht⟩ := h
  exact ⟨a ++ pre, t, post, by simp, ht⟩

theorem Behind.right {p : Tok → Prop} {x : Tok} {l : List Tok} (h : Behind p x l) (a : List Tok) : Behind p x (l ++ a) := by
  obtain ⟨pre, t, post, rfl, ht⟩ := h
  exact ⟨pre, t, post ++ a, by simp, ht⟩

theorem Behind.cons {p : Tok → Prop} {x : Tok} {l : List Tok} (h : Behind p x l) (a : Tok) : Behind p x (a :: l) := h.left [a]

theorem commaSep_behind {α : Type} {G : α → List Tok → Prop} {p : Tok → Prop} {f : α → Tok} (hG : ∀ x l, G x l → Behind p (f x) l) {xs : List α} {l : List Tok}
    (h : CommaSep G xs l) : ∀ x ∈ xs, Behind p (f x) l := by
  induction h with
  | nil => simp
  | one h => intro x hx; rw [List.mem_singleton.mp hx]; exact hG _ _ h
  | cons h _ ih =>
    intro x hx
    rcases List.mem_cons.mp hx with rfl | hx
    · exact (hG _ _ h).right _
    · exact ((ih x hx).cons _).left _

theorem caseG_behind {x : Spanned Str} {l : List Tok} (h : CaseG x l) : Behind NotNumber (identTok x) l := by
  obtain ⟨ty, v, k, e, rfl⟩ := h
  exact ⟨[typeTok ty, v, (.ident c!"label", k)], (.punct '=', e), [], rfl, by simp [NotNumber]⟩

theorem edgeG_behind {x : Spanned Str} {l : List Tok} (h : EdgeG x l) : Behind NotNumber (identTok x) l := by
  obtain ⟨o, c, vs, e, _, rfl⟩ := h
  exact ⟨[], (.punct '[', o), (.punct ',', c) :: vs ++ [(.punct ']', e)], by simp, by simp [NotNumber]⟩

theorem bodyForm_behind {m : Spanned Str} {ts : List (Spanned Str)} {d : Option (Spanned Str)} {l : List Tok} (h : BodyForm m ts d l) :
    ∀ x ∈ ts, Behind NotNumber (identTok x) l := by
  cases h with
  | @br k t =>
    intro x hx
    rw [List.mem_singleton.mp hx]
    exact ⟨[], _, _, rfl, by simp [NotNumber]⟩
  | @condBr k i v c t c' e =>
    intro x hx
    rcases List.mem_cons.mp hx with rfl | hx
    · exact ⟨[(.ident c!"br", k), (.type c!"int1", i), v], (.punct ',', c), (.punct ',', c') :: identTok e :: dbgToks d, by simp, by simp [NotNumber]⟩
    · rw [List.mem_singleton.mp hx]
      exact ⟨[(.ident c!"br", k), (.type c!"int1", i), v, (.punct ',', c), identTok t], (.punct ',', c'), dbgToks d, by simp, by simp [NotNumber]⟩
  | @overflowBr m ops c k e t c' k' e' t' _ h =>
    intro x hx
    rcases List.mem_cons.mp hx with rfl | hx
    · exact ⟨identTok m :: ops ++ [(.punct ',', c), (.ident c!"cont", k)], (.punct '=', e),
        (.punct ',', c') :: (.ident c!"overflow", k') :: (.punct '=', e') :: identTok t' :: dbgToks d, by simp, by simp [NotNumber]⟩
    · rw [List.mem_singleton.mp hx]
      exact ⟨identTok m :: ops ++ [(.punct ',', c), (.ident c!"cont", k), (.punct '=', e), identTok t, (.punct ',', c'), (.ident c!"overflow", k')],
        (.punct '=', e'), dbgToks d, by simp, by simp [NotNumber]⟩
  | @switch k ops c k' e t c' ts cases d h1 h2 =>
    intro x hx
    rcases List.mem_cons.mp hx with rfl | hx
    · exact ⟨(.ident c!"switch", k) :: ops ++ [(.punct ',', c), (.ident c!"default", k')], (.punct '=', e), (.punct ',', c') :: cases ++ dbgToks d,
        by simp, by simp [NotNumber]⟩
    · exact ((commaSep_behind (f := identTok) (fun _ _ hg => caseG_behind hg) h2 x hx).left _).right _
  | phi h => intro x hx; exact ((commaSep_behind (f := identTok) (fun _ _ hg => edgeG_behind hg) h x hx).cons _).right _
  | other => simp

theorem instrG_behind {i : Instruction} {l : List Tok} (h : InstrG i l) : ∀ x ∈ i.basicBlockRefs, Behind NotNumber (identTok x) l := by
  obtain ⟨asg, body, _, h2, rfl, _⟩ := h
  exact fun x hx => (bodyForm_behind h2 x hx).left _

theorem instrsG_behind {is : List Instruction} {l : List Tok} (h : InstrsG is l) : ∀ i ∈ is, ∀ x ∈ i.basicBlockRefs, Behind NotNumber (identTok x) l := by
  induction h with
  | nil => simp
  | cons _ h2 _ _ _ ih =>
    intro i hi x hx
    rcases List.mem_cons.mp hi with rfl | hi
    · exact (((instrG_behind h2 x hx).left _).right _).right _
    · exact (ih i hi x hx).left _

/-- Ends in a line end. -/
def EndsLine (l : List Tok) : Prop := ∃ l' sp, l = l' ++ [(.newline, sp)]

theorem newlines_endsLine {l : List Tok} (h : Newlines l) (hne : l ≠ []) : EndsLine l := by
  rw [← List.dropLast_concat_getLast hne]
  have := h _ (List.getLast_mem hne)
  generalize l.getLast hne = t at this
  obtain ⟨t, sp⟩ := t
  cases this
  exact ⟨_, _, rfl⟩

theorem EndsLine.left {l : List Tok} (h : EndsLine l) (a : List Tok) : EndsLine (a ++ l) := by
  obtain ⟨l', sp, rfl⟩ := h
  exact ⟨a ++ l', sp, by simp⟩

theorem instrsG_endsLine {is : List Instruction} {l : List Tok} (h : InstrsG is l) : l = [] ∨ EndsLine l := by
  induction h with
  | nil => simp
  | cons _ _ h3 h4 _ ih =>
    right
    rcases ih with rfl | ih
    · rw [List.append_nil]
      exact (newlines_endsLine h3 h4).left _
    · exact ih.left _

theorem blockG_endsLine {b : BasicBlock} {l : List Tok} (h : BlockG b l) : EndsLine l := by
  obtain ⟨label, comma, nls, is, h1, h2, h3, rfl, _⟩ := h
  rcases instrsG_endsLine h3 with rfl | h3
  · rw [List.append_nil]; exact (newlines_endsLine h1 h2).left _
  · exact h3.left _

/-- The labels in a block are behind something that is not a number, given the text before the block. -/
def BlockLabels (b : BasicBlock) (l : List Tok) : Prop :=
  (∀ x, b.label = some x → Behind NotNumber (identTok x) l) ∧ ∀ i ∈ b.instructions, ∀ x ∈ i.basicBlockRefs, Behind NotNumber (identTok x) l

theorem BlockLabels.left {b : BasicBlock} {l : List Tok} (h : BlockLabels b l) (a : List Tok) : BlockLabels b (a ++ l) :=
  ⟨fun x hx => (h.1 x hx).left a, fun i hi x hx => (h.2 i hi x hx).left a⟩

theorem BlockLabels.right {b : BasicBlock} {l : List Tok} (h : BlockLabels b l) (a : List Tok) : BlockLabels b (l ++ a) :=
  ⟨fun x hx => (h.1 x hx).right a, fun i hi x hx => (h.2 i hi x hx).right a⟩

theorem blocksG_behind {bs : List BasicBlock} {l : List Tok} (h : BlocksG bs l) {before : List Tok} (hb : EndsLine before) :
    ∀ b ∈ bs, BlockLabels b (before ++ l) := by
  induction h generalizing before with
  | nil => simp
  | @cons b bs l l' h _ ih =>
    intro b' hb'
    rcases List.mem_cons.mp hb' with rfl | hb'
    · rw [← List.append_assoc]
      apply BlockLabels.right
      obtain ⟨label, comma, nls, is, h1, h2, h3, rfl, h4, _⟩ := h
      obtain ⟨l0, sp, rfl⟩ := hb
      refine ⟨?_, fun i hi x hx => ((instrsG_behind h3 i hi x hx).left _).left _⟩
      intro x hx
      rw [h4] at hx
      cases hx
      exact ⟨l0, (.newline, sp), (.punct ':', comma) :: nls ++ is, by simp, by simp [NotNumber]⟩
    · rw [← List.append_assoc]
      exact ih ((blockG_endsLine h).left before) b' hb'

theorem bodyG_behind {f : FuncBody} {l : List Tok} (h : BodyG f l) : ∀ b ∈ f.basicBlocks, BlockLabels b l := by
  obtain ⟨nls, bl, h1, h2, h3, rfl⟩ := h
  have hnl := newlines_endsLine h1 h2
  intro b hb
  rw [← List.singleton_append, List.append_assoc, List.append_assoc]
  refine BlockLabels.left ?_ _
  rw [← List.append_assoc]
  refine BlockLabels.right ?_ _
  generalize f.basicBlocks = blocks at h3 hb
  cases h3 with
  | labelled h => exact blocksG_behind h hnl b hb
  | @unlabelled b0 bs l l' h h' =>
    obtain ⟨_, _, k1, k2, _, k4, _⟩ := h
    rcases List.mem_cons.mp hb with hb | hb
    · subst hb
      refine ⟨fun x hx => (by rw [k4] at hx; cases hx), fun i hi x hx => (((instrsG_behind k1 i hi x hx).right _).left _)⟩
    · rw [← List.append_assoc]
      refine blocksG_behind h' ?_ b hb
      rcases instrsG_endsLine k1 with rfl | k1
      · rw [List.append_nil]; exact hnl
      · exact k1.left _

theorem stmt_behind {s : Statement} {l : List Tok} (h : StmtG s l) {i : Nat} : ∀ o ∈ stmtOccs i s, o.symbolKind = .label →
    Behind NotNumber (.ident o.name, o.span) l := by
  intro o ho hk
  cases h with
  | funcDef hs hb =>
    simp only [stmtOccs, funcOccs, List.mem_cons, List.mem_append, List.mem_map, List.mem_flatMap] at ho
    rcases ho with rfl | ⟨a, _, rfl⟩ | ⟨b, h1, h2⟩
    · cases hk
    · cases hk
    · apply Behind.left
      obtain ⟨k1, k2⟩ := bodyG_behind hb b h1
      simp only [blockOccs, instrOccs, List.mem_append, List.mem_map, List.mem_flatMap, Option.mem_toList] at h2
      rcases h2 with ⟨x, hx, rfl⟩ | ⟨ins, hi, ⟨x, _, rfl⟩ | ⟨x, hx, rfl⟩⟩
      · exact k1 x hx
      · cases hk
      · exact k2 ins hi x hx
  | globalVar => rw [List.mem_singleton.mp ho] at hk; cases hk
  | funcDecl => rw [List.mem_singleton.mp ho] at hk; cases hk
  | funcDeclAddr => rw [List.mem_singleton.mp ho] at hk; cases hk
  | dbgAnnotation => rw [List.mem_singleton.mp ho] at hk; cases hk
  | funcDependencies => cases ho

theorem doc_behind {ss : List Statement} {l : List Tok} (h : DocSkipG ss l) {i : Nat} : ∀ o ∈ docOccs i ss, o.symbolKind = .label →
    Behind NotNumber (.ident o.name, o.span) l := by
  induction h generalizing i with
  | nil => simp [docOccs]
  | cons _ h2 _ _ ih =>
    intro o ho hk
    rcases List.mem_append.mp ho with ho | ho
    · exact (((stmt_behind h2 o ho hk).left _).right _).right _
    · exact (ih o ho hk).left _

theorem wellOrdered_split {l : List Tok} (h : WellOrdered l) {a a' b b' : List Tok} {x : Tok} (h1 : l = a ++ x :: b) (h2 : l = a' ++ x :: b') :
    a = a' := by
  have key : ∀ {a a' b b' : List Tok}, WellOrdered (a ++ x :: b) → a ++ x :: b = a' ++ x :: b' → ¬ a.length < a'.length := by
    intro a a' b b' hw he hlt
    rw [List.append_eq_append_iff] at he
    rcases he with ⟨c, rfl, he⟩ | ⟨c, rfl, _⟩
    · cases c with
      | nil => simp at hlt
      | cons y c =>
        simp only [List.cons_append, List.cons.injEq] at he
        obtain ⟨rfl, rfl⟩ := he
        have h1 := hw.1
        have h2 := hw.2 x (by simp)
        simp only [List.map_append, List.map_cons, InOrder] at h1
        have := (List.pairwise_append.mp h1).2.1
        have := (List.pairwise_cons.mp this).1 x.2 (by simp)
        omega
    · simp only [List.length_append] at hlt; omega
  subst h1
  have e1 := key h h2
  have e2 := key (h2 ▸ h) h2.symm
  have : a.length = a'.length := by omega
  exact (List.append_inj h2 this).1

section
variable [Unicode] {src : Str} {res : ParserResult}

/-- The token right before a label is not a number. -/
theorem label_not_behind_number (h : parseFromStr src = .ok res) {o : SymbolOccurrence} (ho : Occurs res.tokens res.stmts o) (hk : o.symbolKind = .label)
    {pre : List Tok} {t : Tok} {n : Str} {post : List Tok} (he : res.tokens = pre ++ t :: (.ident n, o.span) :: post)
    (ht : (∃ w, t.1 = .num w) ∨ ∃ w, t.1 = .hexNum w) : False := by
  have hn := occurs_token h ho
  have hwo := tokens_wellOrdered h
  have hstmt : o ∈ docOccs 0 res.stmts := by
    rcases ho with ho | ⟨⟨t, _, hu⟩, _⟩
    · exact ho
    · exfalso
      unfold tokenUse at hu
      split at hu
      · cases hu; simp only [occ] at hk; split at hk <;> cases hk
      · cases hu; cases hk
      · obtain ⟨i, _, rfl⟩ := Option.map_eq_some_iff.mp hu
        cases hk
      · cases hu
  rcases parseFromStr_doc h with h0 | hd
  · rw [h0] at hstmt; cases hstmt
  · obtain ⟨pre', t', post', h1, h2⟩ := doc_behind hd o hstmt hk
    have hname : n = o.name := by
      have hm : (Token.ident n, o.span) ∈ res.tokens := by rw [he]; simp
      have hm' : (Token.ident o.name, o.span) ∈ res.tokens := by
        unfold occTok at hn
        rw [hk] at hn
        exact hn
      have := token_eq hwo hm hm' rfl
      cases this; rfl
    subst hname
    have ht' : t.1 ≠ .comment := by rcases ht with ⟨w, h⟩ | ⟨w, h⟩ <;> rw [h] <;> simp
    have hf : nonComments res.tokens = (nonComments pre ++ [t]) ++ (Token.ident o.name, o.span) :: nonComments post := by
      rw [he]
      unfold nonComments
      simp [ht']
    have hwo' : WellOrdered (nonComments res.tokens) := hwo.sublist (List.filter_sublist)
    have := wellOrdered_split hwo' hf (a' := pre' ++ [t']) (b' := post') (by rw [h1]; simp)
    have e := (List.append_inj' this rfl).2
    cases e
    rcases ht with ⟨w, h⟩ | ⟨w, h⟩
    · exact h2.1 w h
    · exact h2.2 w h

end
end HyperIR
