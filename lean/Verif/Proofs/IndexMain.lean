import Verif.Proofs.IndexDoc
import Verif.Props.Parser

/- The index of a parsed document in terms of its statements and tokens. -/

namespace HyperIR
open Spec

/-- The token at which a symbol occurs. -/
def occTok (o : SymbolOccurrence) : Tok :=
  match o.symbolKind with
  | .globalVar => (.globalName o.name, o.span)
  | .function => (.globalName o.name, o.span)
  | .dbgAnnotation => (.debugRef o.name, o.span)
  | .label => (.ident o.name, o.span)
  | .localVar => (.localName o.name, o.span)

theorem occTok_span (o : SymbolOccurrence) : (occTok o).2 = o.span := by
  unfold occTok; cases o.symbolKind <;> rfl

theorem sublist_flatMap {α β : Type} {f g : α → List β} (l : List α) (h : ∀ x ∈ l, (f x).Sublist (g x)) :
    (l.flatMap f).Sublist (l.flatMap g) := by
  induction l with
  | nil => exact List.Sublist.refl _
  | cons x l ih =>
    rw [List.flatMap_cons, List.flatMap_cons]
    exact (h x (by simp)).append (ih fun y hy => h y (by simp [hy]))

theorem instrOccs_sublist (i : Nat) (ins : Instruction) : ((instrOccs i ins).map occTok).Sublist (instrMentions ins) := by
  unfold instrOccs instrMentions
  rw [List.map_append, List.map_map, List.map_map]
  have e1 : occTok ∘ occ .localVar .def_ (some i) = localTok := rfl
  have e2 : occTok ∘ occ .label .use (some i) = identTok := rfl
  rw [e1, e2]
  refine List.Sublist.trans ?_ (List.sublist_append_left _ _)
  refine List.Sublist.append ?_ (List.Sublist.refl _)
  exact List.sublist_append_left _ _

theorem blockOccs_sublist (i : Nat) (b : BasicBlock) : ((blockOccs i b).map occTok).Sublist (blockMentions b) := by
  unfold blockOccs blockMentions
  rw [List.map_append, List.map_map, List.map_flatMap]
  have e1 : occTok ∘ occ .label .def_ (some i) = identTok := rfl
  rw [e1]
  refine List.Sublist.append (List.sublist_append_left _ _) ?_
  exact sublist_flatMap _ fun ins _ => instrOccs_sublist i ins

theorem stmtOccs_sublist (i : Nat) (s : Statement) : ((stmtOccs i s).map occTok).Sublist (stmtMentions s) := by
  cases s with
  | globalVar n d => exact List.Sublist.cons_cons _ (List.nil_sublist _)
  | funcDecl sig a d =>
    have : (globalTok sig.name) ∈ sigMentions sig := by simp [sigMentions]
    simp only [stmtOccs, stmtMentions, List.map_cons, List.map_nil]
    refine List.Sublist.trans ?_ (List.sublist_append_left _ _)
    refine List.Sublist.trans ?_ (List.sublist_append_left _ _)
    exact List.singleton_sublist.mpr this
  | funcDependencies n ds => exact List.nil_sublist _
  | dbgAnnotation n d => exact List.Sublist.cons_cons _ (List.nil_sublist _)
  | funcDef kw sig body =>
    simp only [stmtOccs, stmtMentions, List.map_cons, funcOccs, List.map_append, List.map_map]
    refine List.Sublist.cons _ ?_
    rw [← List.cons_append]
    refine List.Sublist.append ?_ ?_
    · unfold sigMentions
      rw [List.append_assoc]
      refine List.Sublist.trans ?_ (List.sublist_append_right _ _)
      refine List.Sublist.cons _ ?_
      refine List.Sublist.cons_cons _ ?_
      have : ∀ as : List FuncArg, (as.map (occTok ∘ fun a => occ .localVar .def_ (some i) a.name)).Sublist (as.flatMap argMentions) := by
        intro as
        induction as with
        | nil => exact List.Sublist.refl _
        | cons a as ih =>
          rw [List.flatMap_cons, List.map_cons]
          exact List.Sublist.cons _ (List.Sublist.cons_cons _ ih)
      exact this sig.args
    · unfold bodyMentions
      refine List.Sublist.trans ?_ (List.sublist_append_left _ _)
      refine List.Sublist.cons _ ?_
      rw [List.map_flatMap]
      exact sublist_flatMap _ fun b _ => blockOccs_sublist i b

theorem docOccs_sublist (i : Nat) (ss : List Statement) : ((docOccs i ss).map occTok).Sublist (mentions ss) := by
  induction ss generalizing i with
  | nil => exact List.nil_sublist _
  | cons s ss ih =>
    rw [docOccs, List.map_append, mentions, List.flatMap_cons]
    exact (stmtOccs_sublist i s).append (ih _)

theorem WellOrdered.spans_nodup {l : List Tok} (h : WellOrdered l) : (l.map Prod.snd).Nodup := by
  induction l with
  | nil => simp
  | cons t l ih =>
    have h1 : WellOrdered ([t] ++ l) := h
    simp only [List.map_cons, List.nodup_cons]
    refine ⟨?_, ih h1.right⟩
    intro hm
    obtain ⟨t', ht', he⟩ := List.mem_map.mp hm
    have := h1.le (t := t) (by simp) ht'
    have := h.2 t (by simp)
    rw [he] at *
    omega

section
variable [Unicode]

theorem docOccs_nodup {src : Str} {res : ParserResult} (h : parseFromStr src = .ok res) :
    ((docOccs 0 res.stmts).map (·.span)).Nodup := by
  have hw := tokens_wellOrdered h
  have := (hw.sublist (((docOccs_sublist 0 res.stmts).trans (mentions_sublist h)).trans List.filter_sublist)).spans_nodup
  rw [List.map_map] at this
  have e : Prod.snd ∘ occTok = fun o : SymbolOccurrence => o.span := funext occTok_span
  rw [e] at this
  exact this

theorem docOccs_token {src : Str} {res : ParserResult} (h : parseFromStr src = .ok res) {o : SymbolOccurrence}
    (ho : o ∈ docOccs 0 res.stmts) : occTok o ∈ res.tokens :=
  (((docOccs_sublist 0 res.stmts).trans (mentions_sublist h)).trans List.filter_sublist).subset (List.mem_map_of_mem ho)

/-- Tokens are determined by their range. -/
theorem token_unique {src : Str} {res : ParserResult} (h : parseFromStr src = .ok res) {t t' : Tok} (ht : t ∈ res.tokens)
    (ht' : t' ∈ res.tokens) {p : Nat} (h1 : t.2.contains p = true) (h2 : t'.2.contains p = true) : t = t' := by
  have hw := tokens_wellOrdered h
  simp only [Span.contains, Bool.and_eq_true, decide_eq_true_eq] at h1 h2
  generalize res.tokens = l at ht ht' hw
  induction l with
  | nil => cases ht
  | cons a l ih =>
    have hw' : WellOrdered ([a] ++ l) := hw
    rcases List.mem_cons.mp ht with rfl | ht1 <;> rcases List.mem_cons.mp ht' with rfl | ht2
    · rfl
    · have := hw'.le (t := t) (by simp) ht2
      omega
    · have := hw'.le (t := t') (by simp) ht1
      omega
    · exact ih ht1 ht2 hw'.right

end

theorem tokenUse_tok {isFn : Str → Bool} {fa : Nat → Option Nat} {t : Tok} {o : SymbolOccurrence} (h : tokenUse isFn fa t = some o) :
    occTok o = t ∧ o.useDef = .use := by
  obtain ⟨t, sp⟩ := t
  cases t <;> simp only [tokenUse] at h
  case globalName n =>
    cases h
    refine ⟨?_, rfl⟩
    cases isFn n <;> rfl
  case debugRef n => cases h; exact ⟨rfl, rfl⟩
  case localName n =>
    cases hf : fa sp.start with
    | none => simp [hf] at h
    | some i => simp [hf] at h; subst h; exact ⟨rfl, rfl⟩
  all_goals cases h

theorem tokenUses_nodup {isFn : Str → Bool} {fa : Nat → Option Nat} {l : List Tok} (h : (l.map Prod.snd).Nodup) :
    ((l.filterMap (tokenUse isFn fa)).map (·.span)).Nodup := by
  induction l with
  | nil => simp
  | cons t l ih =>
    simp only [List.map_cons, List.nodup_cons] at h
    rw [List.filterMap_cons]
    split
    · exact ih h.2
    · rename_i o ho
      simp only [List.map_cons, List.nodup_cons]
      refine ⟨?_, ih h.2⟩
      intro hm
      obtain ⟨o', h1, h2⟩ := List.mem_map.mp hm
      obtain ⟨t', h3, h4⟩ := List.mem_filterMap.mp h1
      apply h.1
      refine List.mem_map.mpr ⟨t', h3, ?_⟩
      rw [← (tokenUse_tok h4).1, ← (tokenUse_tok ho).1, occTok_span, occTok_span, h2]

/-! ### Function ranges -/

theorem docBodies_eq (ss : List Statement) : (docBodies ss).map (fun b => (b.name, b.range, b.blocks)) = docFuncs ss := by
  induction ss with
  | nil => rfl
  | cons s ss ih => cases s <;> simp [docBodies, docFuncs, ih]

theorem bodyAt_docBodies (ss : List Statement) : bodyAt (docBodies ss) = functionAt ss := by
  funext pos
  unfold bodyAt functionAt
  rw [← docBodies_eq, List.findIdx?_map]
  rfl

theorem docFuncs_mem {ss : List Statement} {f : Spanned Str × Span × List BasicBlock} (h : f ∈ docFuncs ss) :
    ∃ kw sig body, .funcDef kw sig body ∈ ss ∧ f = (sig.name, ⟨kw.start, body.closingBracket.stop⟩, body.basicBlocks) := by
  induction ss with
  | nil => cases h
  | cons s ss ih =>
    cases s with
    | funcDef kw sig body =>
      simp only [docFuncs, List.mem_cons] at h
      rcases h with rfl | h
      · exact ⟨kw, sig, body, by simp, rfl⟩
      · obtain ⟨kw', sig', body', h1, h2⟩ := ih h
        exact ⟨kw', sig', body', by simp [h1], h2⟩
    | _ =>
      obtain ⟨kw', sig', body', h1, h2⟩ := ih h
      exact ⟨kw', sig', body', by simp [h1], h2⟩

theorem docFuncs_disjoint {ss : List Statement} (h : WellOrdered (mentions ss)) :
    (docFuncs ss).Pairwise fun f f' => f.2.1.stop ≤ f'.2.1.start := by
  induction ss with
  | nil => exact .nil
  | cons s ss ih =>
    rw [mentions, List.flatMap_cons] at h
    have ih := ih h.right
    cases s with
    | funcDef kw sig body =>
      refine List.Pairwise.cons ?_ ih
      intro f hf
      obtain ⟨kw', sig', body', h1, rfl⟩ := docFuncs_mem hf
      exact h.le (t := (.punct '}', body.closingBracket)) (t' := (.define, kw'))
        (by simp [stmtMentions, bodyMentions]) (List.mem_flatMap.mpr ⟨_, h1, by simp [stmtMentions]⟩)
    | _ => exact ih

theorem docBodies_disjoint {ss : List Statement} (h : WellOrdered (mentions ss)) : DisjointBodies (docBodies ss) := by
  have hp := docFuncs_disjoint h
  rw [← docBodies_eq, List.pairwise_map, List.pairwise_iff_getElem] at hp
  intro i j b b' pos hi hj h1 h2
  obtain ⟨hi', rfl⟩ := List.getElem?_eq_some_iff.mp hi
  obtain ⟨hj', rfl⟩ := List.getElem?_eq_some_iff.mp hj
  simp only [Span.contains, Bool.and_eq_true, decide_eq_true_eq] at h1 h2
  rcases Nat.lt_trichotomy i j with hlt | heq | hlt
  · have := hp i j hi' hj' hlt
    simp only at this
    omega
  · exact heq
  · have := hp j i hj' hi' hlt
    simp only at this
    omega

/-! ### The whole index -/


/-- The uses found in the tokens: those that no statement already accounts for. -/
def tokenUses (toks : List Tok) (ss : List Statement) : List SymbolOccurrence :=
  (toks.filterMap (tokenUse (fun n => decide (IsFunction ss n)) (functionAt ss))).filter fun o =>
    decide (¬ ∃ o' ∈ docOccs 0 ss, SameKey o' o)

/-- All indexed occurrences. -/
def allOccs (toks : List Tok) (ss : List Statement) : List SymbolOccurrence := docOccs 0 ss ++ tokenUses toks ss

/-- The external definitions of the declared functions. -/
def docExts (src : Str) (ss : List Statement) : List (Str × ExternalDef) := (docEvents src [] 0 ss).filterMap Event.ext?

theorem docOccs_function_global {i : Nat} {ss : List Statement} : ∀ o ∈ docOccs i ss, o.symbolKind = .function → o.funcBodyId = none := by
  induction ss generalizing i with
  | nil => simp [docOccs]
  | cons s ss ih =>
    intro o ho hk
    rw [docOccs] at ho
    rcases List.mem_append.mp ho with h | h
    · cases s with
      | funcDef kw sig body =>
        simp only [stmtOccs, List.mem_cons] at h
        rcases h with rfl | h
        · rfl
        · simp only [funcOccs, blockOccs, instrOccs, List.mem_append, List.mem_flatMap, List.mem_map] at h
          rcases h with ⟨_, _, rfl⟩ | ⟨_, _, ⟨_, _, rfl⟩ | ⟨_, _, ⟨_, _, rfl⟩ | ⟨_, _, rfl⟩⟩⟩ <;> cases hk
      | globalVar => simp [stmtOccs] at h; subst h; rfl
      | funcDecl => simp [stmtOccs] at h; subst h; rfl
      | funcDependencies => simp [stmtOccs] at h
      | dbgAnnotation => simp [stmtOccs] at h; subst h; rfl
    · exact ih o h hk

section
variable [Unicode]

theorem createIndex_inv {src : Str} {res : ParserResult} (h : parseFromStr src = .ok res)
    (hs : ∀ n d, .dbgAnnotation n d ∈ res.stmts → annotationValue src d ≠ .panic) :
    ∃ ix g, createIndex src res.tokens res.stmts = .ok ix ∧ Inv ix g ∧ g.occs = allOccs res.tokens res.stmts ∧
      g.bodies = docBodies res.stmts ∧ g.exts = docExts src res.stmts := by
  obtain ⟨ix1, u1, h1, h2⟩ := indexStatements_inv (src := src) inv_empty (u := []) (by intro d fn hd; cases hd) res.stmts hs
  have hb := docEvents_bodies src [] res.stmts {}
  simp only [List.nil_append] at hb
  have ho := run_occs {} (docEvents src [] 0 res.stmts)
  rw [docEvents_occs, foldl_addTo (docOccs_nodup h)] at ho
  simp only [List.not_mem_nil, false_and, exists_false, not_false_eq_true, decide_true, List.nil_append] at ho
  rw [List.filter_eq_self.mpr (by simp)] at ho
  have hx := run_exts {} (docEvents src [] 0 res.stmts)
  simp only [List.nil_append] at hx
  have hd : DisjointBodies (docBodies res.stmts) :=
    docBodies_disjoint ((tokens_wellOrdered h).sublist ((mentions_sublist h).trans List.filter_sublist))
  obtain ⟨ix2, c2, h3, h4⟩ := indexTokens_inv (isFn := fun n => decide (IsFunction res.stmts n)) res.tokens h2
    (by simp only [List.length_nil] at hb ⊢; rw [hb]; exact hd) (cached := none) (by intro i hi; cases hi) (by
      intro n
      rw [decide_eq_true_iff]
      simp only [List.length_nil, ho, IsFunction, IsOf]
      constructor
      · rintro ⟨o, h1, h2, h3⟩
        exact ⟨o, h1, h2, docOccs_function_global o h1 h2, h3⟩
      · rintro ⟨o, h1, h2, _, h3⟩
        exact ⟨o, h1, h2, h3⟩)
  refine ⟨ix2, _, ?_, h4, ?_, hb, hx⟩
  · simp only [createIndex, h1, h3]
  · simp only [List.length_nil] at hb ⊢
    rw [hb, bodyAt_docBodies, ho, foldl_addTo (tokenUses_nodup (tokens_wellOrdered h).spans_nodup)]
    rfl

end

theorem annotationValue_of_createIndex {src : Str} {toks : List Tok} {ss : List Statement} {ix : HIRIndex}
    (h : createIndex src toks ss = .ok ix) : ∀ n d, .dbgAnnotation n d ∈ ss → annotationValue src d ≠ .panic := by
  unfold createIndex at h
  cases h1 : foldO (indexStatement src) ({}, []) ss with
  | panic => rw [h1] at h; cases h
  | ok st =>
    clear h
    revert h1
    generalize (({}, []) : StmtState) = st0
    induction ss generalizing st0 with
    | nil => simp
    | cons s ss ih =>
      intro h1 n d hm ha
      rw [foldO] at h1
      cases h2 : indexStatement src st0 s with
      | panic => rw [h2] at h1; cases h1
      | ok st1 =>
        rw [h2] at h1
        rcases List.mem_cons.mp hm with rfl | hm
        · simp only [indexStatement, ha] at h2
          split at h2 <;> cases h2
        · exact ih st1 h1 n d hm ha

section
variable [Unicode]

/-- The index of a document. -/
theorem index_inv {src : Str} {res : ParserResult} {ix : HIRIndex} (h : parseFromStr src = .ok res)
    (hix : createIndex src res.tokens res.stmts = .ok ix) :
    ∃ g, Inv ix g ∧ g.occs = allOccs res.tokens res.stmts ∧ g.bodies = docBodies res.stmts ∧ g.exts = docExts src res.stmts := by
  obtain ⟨ix', g, h1, h2⟩ := createIndex_inv h (annotationValue_of_createIndex hix)
  rw [hix] at h1
  cases h1
  exact ⟨g, h2⟩

end

end HyperIR
