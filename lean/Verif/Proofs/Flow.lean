import Verif.Proofs.Bodies

/-! Control flow: predecessors, rendered graphs, hints. -/

namespace HyperIR
open Spec

/-! ### Lists that correspond -/

theorem Each.map_left {α β γ : Type} {R : γ → β → Prop} (f : α → γ) : ∀ {as : List α} {bs : List β},
    Each (fun a b => R (f a) b) as bs → Each R (as.map f) bs
  | _, _, .nil => .nil
  | _, _, .cons h t => .cons h (Each.map_left f t)

theorem Each.imp {α β : Type} {R S : α → β → Prop} : ∀ {as : List α} {bs : List β},
    Each R as bs → (∀ a ∈ as, ∀ b ∈ bs, R a b → S a b) → Each S as bs
  | _, _, .nil, _ => .nil
  | _, _, .cons h t, hi => .cons (hi _ (by simp) _ (by simp) h) (Each.imp t fun a ha b hb => hi a (by simp [ha]) b (by simp [hb]))

theorem each_map {α β γ : Type} {R : α → β → Prop} (f : γ → α) (g : γ → β) : ∀ {l : List γ}, (∀ x ∈ l, R (f x) (g x)) →
    Each R (l.map f) (l.map g)
  | [], _ => .nil
  | x :: l, h => .cons (h x (by simp)) (each_map f g fun y hy => h y (by simp [hy]))

/-- All elements have an image. -/
theorem each_filterMap_total {α β : Type} {R : α → β → Prop} {F : α → Option β} : ∀ {l : List α},
    (∀ x ∈ l, ∃ y, F x = some y ∧ R x y) → Each R l (l.filterMap F)
  | [], _ => .nil
  | x :: l, h => by
    obtain ⟨y, h1, h2⟩ := h x (by simp)
    rw [List.filterMap_cons, h1]
    exact .cons h2 (each_filterMap_total fun y hy => h y (by simp [hy]))

/-- Some elements have an image. -/
theorem each_filterMap {α β : Type} {R : α → β → Prop} {P : α → Prop} {F : α → Option β} {l : List α}
    (h : ∀ x ∈ l, (F x = none ∧ ¬ P x) ∨ ∃ y, F x = some y ∧ P x ∧ R x y) :
    ∃ l' : List α, l'.Sublist l ∧ Each R l' (l.filterMap F) ∧ ∀ x ∈ l, x ∈ l' ↔ P x := by
  refine ⟨l.filter fun x => (F x).isSome, List.filter_sublist, ?_, ?_⟩
  · induction l with
    | nil => exact .nil
    | cons x l ih =>
      have ih := ih fun y hy => h y (by simp [hy])
      rw [List.filterMap_cons, List.filter_cons]
      rcases h x (by simp) with ⟨h1, _⟩ | ⟨y, h1, _, h3⟩
      · simpa [h1] using ih
      · simp only [h1, Option.isSome_some, if_true]
        exact .cons h3 ih
  · intro x hx
    rw [List.mem_filter]
    rcases h x hx with ⟨h1, h2⟩ | ⟨y, h1, h2, _⟩
    · simp [h1, h2]
    · simp [h1, h2, hx]

/-! ### Predecessors -/

theorem branches_iff (i : Instruction) : Branches i ↔ i.isBranching = true := by
  unfold Branches Instruction.isBranching
  rw [isBr_iff]
  simp

def addL (l : List (Spanned Str)) (x : Spanned Str) : List (Spanned Str) := if x ∈ l then l else l ++ [x]

theorem incoming_get (es : List (Str × Spanned Str)) (b : Str) : ∀ m : StrMap (List (Spanned Str)),
    (es.foldl (fun m e => addIncoming m e.1 e.2) m).get? b =
      if (es.filter fun e => decide (e.1 = b)) = [] then m.get? b
      else some (((es.filter fun e => decide (e.1 = b)).map Prod.snd).foldl addL ((m.get? b).getD [])) := by
  induction es with
  | nil => intro m; simp
  | cons e es ih =>
    intro m
    rw [List.foldl_cons, ih, List.filter_cons]
    have hget : (addIncoming m e.1 e.2).get? b = if e.1 = b then some (addL ((m.get? b).getD []) e.2) else m.get? b := by
      unfold addIncoming
      rw [StrMap.get?_modifyEntry]
      by_cases h : e.1 = b
      · simp [h, addL]
      · simp [h]
    by_cases h : e.1 = b
    · simp only [h, decide_true, if_true, List.map_cons, List.foldl_cons, reduceCtorEq, if_false] at hget ⊢
      rw [hget]
      by_cases hn : (es.filter fun e => decide (e.1 = b)) = []
      · simp [hn]
      · simp [hn]
    · simp only [h, decide_false, Bool.false_eq_true, if_false] at hget ⊢
      rw [hget]

def branchesToB (blk : BasicBlock) (b : Str) : Bool :=
  blk.instructions.any fun i => i.isBranching && decide (b ∈ i.basicBlockRefs.map Prod.fst)

theorem branchesTo_iff (blk : BasicBlock) (b : Str) : BranchesTo blk b ↔ branchesToB blk b = true := by
  unfold BranchesTo branchesToB
  simp only [branches_iff, List.any_eq_true, Bool.and_eq_true, decide_eq_true_eq]

/-- The predecessors of `b`. -/
def predsOf (blocks : List BasicBlock) (b : Str) : List (Spanned Str) :=
  blocks.filterMap fun blk => if branchesToB blk b then blk.label else none

theorem blockEdges_filter (blk : BasicBlock) (b : Str) :
    (∀ x ∈ ((blockEdges blk).filter fun e => decide (e.1 = b)).map Prod.snd, blk.label = some x) ∧
    (((blockEdges blk).filter fun e => decide (e.1 = b)).map Prod.snd ≠ [] ↔ blk.label.isSome ∧ branchesToB blk b = true) := by
  have hmem : ∀ x, x ∈ ((blockEdges blk).filter fun e => decide (e.1 = b)).map Prod.snd ↔
      blk.label = some x ∧ branchesToB blk b = true := by
    intro x
    rw [← branchesTo_iff]
    unfold BranchesTo
    simp only [branches_iff]
    rw [List.mem_map]
    constructor
    · rintro ⟨e, he, rfl⟩
      obtain ⟨h1, h2⟩ := List.mem_filter.mp he
      simp only [decide_eq_true_eq] at h2
      unfold blockEdges at h1
      obtain ⟨i, hi, h1⟩ := List.mem_flatMap.mp h1
      obtain ⟨r, hr, h1⟩ := List.mem_flatMap.mp h1
      split at h1
      · rename_i hb
        obtain ⟨l, hl, rfl⟩ := List.mem_map.mp h1
        rw [Option.mem_toList] at hl
        exact ⟨hl, i, hi, hb, List.mem_map.mpr ⟨r, hr, h2⟩⟩
      · cases h1
    · rintro ⟨hl, i, hi, hb, hr0⟩
      obtain ⟨r, hr, rfl⟩ := List.mem_map.mp hr0
      refine ⟨(r.1, x), List.mem_filter.mpr ⟨?_, by simp⟩, rfl⟩
      unfold blockEdges
      refine List.mem_flatMap.mpr ⟨i, hi, List.mem_flatMap.mpr ⟨r, hr, ?_⟩⟩
      rw [if_pos hb, hl]
      simp
  refine ⟨fun x hx => ((hmem x).mp hx).1, ?_⟩
  constructor
  · intro hne
    obtain ⟨x, hx⟩ := List.exists_mem_of_ne_nil _ hne
    have := (hmem x).mp hx
    exact ⟨by simp [this.1], this.2⟩
  · rintro ⟨h1, h2⟩ hnil
    obtain ⟨x, hx⟩ := Option.isSome_iff_exists.mp h1
    have := (hmem x).mpr ⟨hx, h2⟩
    rw [hnil] at this
    cases this

theorem foldl_addL_copies {x : Spanned Str} : ∀ {l : List (Spanned Str)} {acc : List (Spanned Str)}, x ∈ acc → (∀ y ∈ l, y = x) →
    l.foldl addL acc = acc
  | [], _, _, _ => rfl
  | y :: l, acc, hx, h => by
    have := h y (by simp)
    subst this
    rw [List.foldl_cons, show addL acc y = acc by simp [addL, hx]]
    exact foldl_addL_copies hx fun z hz => h z (by simp [hz])

theorem foldl_addL_block {blk : BasicBlock} {b : Str} {acc : List (Spanned Str)} (hacc : ∀ x, blk.label = some x → x ∉ acc) :
    (((blockEdges blk).filter fun e => decide (e.1 = b)).map Prod.snd).foldl addL acc =
      acc ++ (if branchesToB blk b then blk.label else none).toList := by
  obtain ⟨h1, h2⟩ := blockEdges_filter blk b
  generalize ((blockEdges blk).filter fun e => decide (e.1 = b)).map Prod.snd = l at h1 h2
  cases l with
  | nil =>
    have : ¬ (blk.label.isSome ∧ branchesToB blk b = true) := fun h => (h2.mpr h) rfl
    by_cases hb : branchesToB blk b = true
    · cases hl : blk.label with
      | none => simp
      | some x => exact absurd ⟨by simp [hl], hb⟩ this
    · simp [hb]
  | cons y l =>
    have hb := (h2.mp (by simp)).2
    have hl := h1 y (by simp)
    rw [hb, if_pos rfl, hl, List.foldl_cons]
    rw [show addL acc y = acc ++ [y] by simp [addL, hacc y hl]]
    rw [foldl_addL_copies (x := y) (by simp)]
    · simp
    · intro z hz
      have := h1 z (by simp [hz])
      rw [hl] at this
      cases this
      rfl

theorem foldl_addL_blocks {b : Str} : ∀ {blocks : List BasicBlock} {acc : List (Spanned Str)},
    (blocks.filterMap BasicBlock.label).Nodup → (∀ x ∈ blocks.filterMap BasicBlock.label, x ∉ acc) →
    (((blocks.flatMap blockEdges).filter fun e => decide (e.1 = b)).map Prod.snd).foldl addL acc = acc ++ predsOf blocks b
  | [], acc, _, _ => by simp [predsOf]
  | blk :: blocks, acc, hnd, hacc => by
    rw [List.flatMap_cons, List.filter_append, List.map_append, List.foldl_append,
      foldl_addL_block (blk := blk) (b := b) (acc := acc) (by
        intro x hx
        exact hacc x (by simp [hx]))]
    have hsub : (blocks.filterMap BasicBlock.label).Nodup := by
      rw [List.filterMap_cons] at hnd
      cases hl : blk.label with
      | none => simpa [hl] using hnd
      | some x => simp only [hl, List.nodup_cons] at hnd; exact hnd.2
    rw [foldl_addL_blocks hsub]
    · have e : predsOf (blk :: blocks) b = (if branchesToB blk b = true then blk.label else none).toList ++ predsOf blocks b := by
        unfold predsOf
        rw [List.filterMap_cons]
        cases (if branchesToB blk b = true then blk.label else none) <;> rfl
      rw [e, List.append_assoc]
    · intro x hx hm
      rcases List.mem_append.mp hm with hm | hm
      · exact hacc x (by rw [List.filterMap_cons]; cases blk.label <;> simp_all) hm
      · rw [Option.mem_toList] at hm
        split at hm
        · rw [List.filterMap_cons, hm] at hnd
          simp only [List.nodup_cons] at hnd
          exact hnd.1 hx
        · cases hm

/-- The recorded predecessors. -/
theorem incoming_preds {blocks : List BasicBlock} (hnd : (blocks.filterMap BasicBlock.label).Nodup) (b : Str) :
    (incomingOf (blocks.flatMap blockEdges)).get? b = if predsOf blocks b = [] then none else some (predsOf blocks b) := by
  unfold incomingOf
  rw [incoming_get]
  have key := foldl_addL_blocks (b := b) (acc := []) hnd (by simp)
  rw [List.nil_append] at key
  simp only [StrMap.get?, Option.getD_none]
  rw [key]
  by_cases h : ((blocks.flatMap blockEdges).filter fun e => decide (e.1 = b)) = []
  · rw [if_pos h]
    rw [h] at key
    have : predsOf blocks b = [] := key.symm
    rw [if_pos this]
  · rw [if_neg h]
    have : predsOf blocks b ≠ [] := by
      intro hp
      rw [hp] at key
      have hmono : ∀ (l acc : List (Spanned Str)), (acc ≠ [] ∨ l ≠ []) → l.foldl addL acc ≠ [] := by
        intro l
        induction l with
        | nil => intro acc h; simpa using h
        | cons x l ih =>
          intro acc _
          rw [List.foldl_cons]
          refine ih _ (.inl ?_)
          unfold addL
          split
          · rename_i hm; intro hn; rw [hn] at hm; cases hm
          · simp
      exact hmono _ [] (.inr (by simpa using h)) key
    rw [if_neg this]

theorem predecessors_predsOf (blocks : List BasicBlock) (b : Str) : Predecessors blocks b (predsOf blocks b) := by
  refine ⟨blocks.filter fun blk => blk.label.isSome && branchesToB blk b, List.filter_sublist, ?_, ?_⟩
  · unfold predsOf
    induction blocks with
    | nil => rfl
    | cons blk blocks ih =>
      rw [List.filter_cons, List.filterMap_cons]
      cases hl : blk.label with
      | none => simpa [hl] using ih
      | some x =>
        by_cases hb : branchesToB blk b = true
        · simp [hb, hl, ih]
        · simpa [hb, hl] using ih
  · intro blk hb
    rw [List.mem_filter, branchesTo_iff]
    simp [hb]

theorem predsOf_ne_nil {blocks : List BasicBlock} {b : Str} : predsOf blocks b ≠ [] ↔ ∃ a, Edge blocks a b := by
  constructor
  · intro h
    obtain ⟨x, hx⟩ := List.exists_mem_of_ne_nil _ h
    unfold predsOf at hx
    obtain ⟨blk, h1, h2⟩ := List.mem_filterMap.mp hx
    split at h2
    · rename_i hb
      exact ⟨x.1, blk, h1, ⟨x.2, h2⟩, (branchesTo_iff _ _).mpr hb⟩
    · cases h2
  · rintro ⟨a, blk, h1, ⟨sp, h2⟩, h3⟩ hn
    have : (a, sp) ∈ predsOf blocks b := by
      unfold predsOf
      refine List.mem_filterMap.mpr ⟨blk, h1, ?_⟩
      rw [if_pos ((branchesTo_iff _ _).mp h3)]
      exact h2
    rw [hn] at this
    cases this

/-- The parts of a hint. -/
theorem incomingParts_spec {uri text : Str} : ∀ (i : Nat) {preds : List (Spanned Str)}, (∀ p ∈ preds, ∃ r, rangeToLsp text p.2 = some r) →
    hintText (incomingParts uri text i preds) =
      (if preds = [] then [] else (if i = 0 then c!"incoming: " else c!", ") ++ commaList (preds.map Prod.fst)) ∧
    Each (fun p l => l.1 = p.1 ∧ l.2.uri = uri ∧ rangeToLsp text p.2 = some l.2.range) preds (hintLinks (incomingParts uri text i preds))
  | _, [], _ => ⟨rfl, .nil⟩
  | i, (n, sp) :: rest, h => by
    obtain ⟨r, hr⟩ := h (n, sp) (by simp)
    obtain ⟨ih1, ih2⟩ := incomingParts_spec (uri := uri) (i + 1) (preds := rest) fun p hp => h p (by simp [hp])
    simp only [incomingParts]
    simp only at hr
    rw [hr]
    constructor
    · simp only [hintText, List.flatMap_cons] at ih1 ⊢
      rw [ih1]
      cases rest with
      | nil => simp [commaList]
      | cons p rest => simp [commaList]
    · simp only [hintLinks, List.filterMap_cons, Option.map_none, Option.map_some] at ih2 ⊢
      exact .cons ⟨rfl, rfl, hr⟩ ih2

end HyperIR

namespace HyperIR
open Spec

section
variable [Unicode] {src : Str} {res : ParserResult} {ix : HIRIndex}

/-! ### Names -/

theorem token_spells (h : parseFromStr src = .ok res) {t : Tok} (ht : t ∈ res.tokens) : ∃ w, Spells t.1 w := by
  rcases parseFromStr_tokens h with ⟨h1, _⟩ | ⟨errs, h1⟩
  · rw [h1] at ht; cases ht
  · obtain ⟨a, g, w, r, _, h3, _⟩ := lexesErr_mem (tokenize_sound h1) t.1 t.2 ht
    exact ⟨w, h3.1⟩

theorem name_quotable {w : Str} (h : ∀ c ∈ w, NameChar c ∨ c = ':') : Quotable w := by
  refine ⟨fun hm => ?_, fun hm => ?_, fun hm => ?_⟩ <;> rcases h _ hm with h' | h' <;>
    first | (cases h'; done) | exact not_nameChar_of (by decide) (by decide) h'

theorem ident_quotable (h : parseFromStr src = .ok res) {n : Str} {sp : Span} (ht : (Token.ident n, sp) ∈ res.tokens) : Quotable n := by
  obtain ⟨w, hw⟩ := token_spells h ht
  cases hw with
  | ident hn =>
    obtain ⟨c, cs, rfl, h1, h2, _⟩ := hn
    refine name_quotable fun d hd => ?_
    rcases List.mem_cons.mp hd with rfl | hd
    · exact .inl (nameHead_nameChar h1)
    · exact h2 d hd

theorem globalName_newline (h : parseFromStr src = .ok res) {n : Str} {sp : Span} (ht : (Token.globalName n, sp) ∈ res.tokens) : '\n' ∉ n := by
  obtain ⟨w, hw⟩ := token_spells h ht
  cases hw with
  | globalName hn =>
    intro hm
    rcases List.mem_cons.mp hm with hm | hm
    · cases hm
    · exact (name_quotable hn.1).2.2 hm

/-! ### Tokens of functions -/

variable {f : Spanned Str × Span × List BasicBlock}

theorem func_tokens (h : parseFromStr src = .ok res) (hf : f ∈ docFuncs res.stmts) :
    (Token.globalName f.1.1, f.1.2) ∈ res.tokens ∧ (∃ k, (Token.define, k) ∈ res.tokens ∧ f.2.1.start = k.start ∧ k.stop ≤ f.1.2.start) ∧
    (∃ c, (Token.punct '}', c) ∈ res.tokens ∧ f.2.1.stop = c.stop ∧ f.1.2.stop ≤ c.start) := by
  obtain ⟨kw, sig, body, hm, rfl⟩ := docFuncs_mem hf
  have hmem := C07_tree_mentions_tokens h _ hm
  have hord := (C08_source_order h).2.2 _ _ _ hm
  have hn : globalTok sig.name ∈ sigMentions sig := by simp [sigMentions]
  have h1 := hord.2 _ hn
  have h2 := hord.1.brackets
  have h3 := (C02_token_spans h).1 _ (hmem (Token.punct '{', body.openingBracket) (by simp [stmtMentions, bodyMentions])).1
  simp only [Inside] at h3
  refine ⟨(hmem _ (by simp [stmtMentions, sigMentions, globalTok])).1, ⟨kw, (hmem _ (by simp [stmtMentions])).1, rfl, h1.1⟩,
    body.closingBracket, (hmem _ (by simp [stmtMentions, bodyMentions])).1, rfl, ?_⟩
  have := h1.2
  simp only [globalTok] at this ⊢
  omega

theorem label_token (h : parseFromStr src = .ok res) (hf : f ∈ docFuncs res.stmts) {blk : BasicBlock} (hb : blk ∈ f.2.2)
    {l : Spanned Str} (hl : blk.label = some l) : (Token.ident l.1, l.2) ∈ res.tokens := by
  obtain ⟨kw, sig, body, hm, rfl⟩ := docFuncs_mem hf
  refine (C07_tree_mentions_tokens h _ hm _ ?_).1
  refine List.mem_append_right _ (List.mem_cons_of_mem _ (List.mem_append_left _ (List.mem_flatMap.mpr ⟨blk, hb, ?_⟩)))
  simp [blockMentions, hl, identTok]

theorem ref_token (h : parseFromStr src = .ok res) (hf : f ∈ docFuncs res.stmts) {blk : BasicBlock} (hb : blk ∈ f.2.2)
    {i : Instruction} (hi : i ∈ blk.instructions) {r : Spanned Str} (hr : r ∈ i.basicBlockRefs) : (Token.ident r.1, r.2) ∈ res.tokens := by
  obtain ⟨kw, sig, body, hm, rfl⟩ := docFuncs_mem hf
  refine (C07_tree_mentions_tokens h _ hm _ ?_).1
  refine List.mem_append_right _ (List.mem_cons_of_mem _ (List.mem_append_left _ (List.mem_flatMap.mpr ⟨blk, hb, ?_⟩)))
  simp only [blockMentions, List.mem_append, List.mem_flatMap]
  refine .inr ⟨i, hi, ?_⟩
  simp only [instrMentions, List.mem_append, List.mem_map]
  exact .inl (.inr ⟨r, hr, rfl⟩)

theorem labels_nodup (h : parseFromStr src = .ok res) (hf : f ∈ docFuncs res.stmts) : (f.2.2.filterMap BasicBlock.label).Nodup := by
  obtain ⟨kw, sig, body, hm, rfl⟩ := docFuncs_mem hf
  have hw := mentions_wellOrdered h
  have hsub : (stmtMentions (.funcDef kw sig body)).Sublist (mentions res.stmts) := by
    obtain ⟨a, b, e⟩ := List.append_of_mem hm
    rw [e, mentions, List.flatMap_append, List.flatMap_cons]
    exact (List.sublist_append_left _ _).trans (List.sublist_append_right _ _)
  have hsub2 : (body.basicBlocks.flatMap blockMentions).Sublist (stmtMentions (.funcDef kw sig body)) := by
    simp only [stmtMentions, bodyMentions]
    exact ((List.sublist_append_left _ _).cons _).trans (List.sublist_append_right _ _)
  have hsub3 : ((body.basicBlocks.filterMap BasicBlock.label).map identTok).Sublist (body.basicBlocks.flatMap blockMentions) := by
    clear hsub2 hsub hm hf
    induction body.basicBlocks with
    | nil => exact List.nil_sublist _
    | cons b bs ih =>
      rw [List.flatMap_cons, List.filterMap_cons]
      cases hl : b.label with
      | none => exact ih.trans (List.sublist_append_right _ _)
      | some l =>
        simp only [List.map_cons]
        have : [identTok l].Sublist (blockMentions b) := by
          rw [List.singleton_sublist]
          simp [blockMentions, hl]
        exact this.append ih
  have := (hw.sublist (hsub3.trans (hsub2.trans hsub))).spans_nodup
  rw [List.map_map] at this
  exact List.Pairwise.of_map _ (fun a b hab e => hab (by rw [e])) this

/-! ### Positions -/

theorem tokenEnd_pos (h : parseFromStr src = .ok res) (hsize : src.length < 2 ^ 32) {t : Tok} (ht : t ∈ res.tokens) (hc : t.1 ≠ .comment) :
    ∃ p, offsetToLspPos src t.2.stop = some p ∧ (PlainTo src t.2.stop → LspOffset src p t.2.stop) := by
  have hin := (C02_token_spans h).1 t ht
  simp only [Inside] at hin
  have := length_le_utf8Len src
  refine ⟨_, offsetToLspPos_eq (by omega) hsize, fun hp => ?_⟩
  obtain ⟨p, hp'⟩ := lspOffset_exists src.length (Nat.le_refl _) hin.2 ((token_not_inCrLf h ht).2 hc)
  have := ((C14_positions_partial hsize).2 _ _ hp' hp).2
  rw [offsetToLspPos_eq (by omega) hsize] at this
  cases this
  exact hp'

theorem tokenStart_pos (h : parseFromStr src = .ok res) (hsize : src.length < 2 ^ 32) {t : Tok} (ht : t ∈ res.tokens) (hc : t.1 ≠ .newline) :
    ∃ p, offsetToLspPos src t.2.start = some p ∧ (PlainTo src t.2.start → LspOffset src p t.2.start) := by
  have hin := (C02_token_spans h).1 t ht
  simp only [Inside] at hin
  have := length_le_utf8Len src
  refine ⟨_, offsetToLspPos_eq (by omega) hsize, fun hp => ?_⟩
  obtain ⟨p, hp'⟩ := lspOffset_exists src.length (Nat.le_refl _) (by omega) ((token_not_inCrLf h ht).1 hc)
  have := ((C14_positions_partial hsize).2 _ _ hp' hp).2
  rw [offsetToLspPos_eq (by omega) hsize] at this
  cases this
  exact hp'

/-- A range from the start of a token to the end of a token. -/
theorem tokens_range (h : parseFromStr src = .ok res) (hsize : src.length < 2 ^ 32) {t t' : Tok} (ht : t ∈ res.tokens) (ht' : t' ∈ res.tokens)
    (hc : t.1 ≠ .newline) (hc' : t'.1 ≠ .comment) (hle : t.2.start ≤ t'.2.stop) :
    ∃ r, rangeToLsp src ⟨t.2.start, t'.2.stop⟩ = some r ∧ (PlainTo src t'.2.stop → EditorRange src ⟨t.2.start, t'.2.stop⟩ r) := by
  obtain ⟨p, h1, h2⟩ := tokenStart_pos h hsize ht hc
  obtain ⟨q, h3, h4⟩ := tokenEnd_pos h hsize ht' hc'
  refine ⟨⟨p, q⟩, ?_, fun hp => ⟨h2 (hp.mono hle), h4 hp⟩⟩
  unfold rangeToLsp
  simp only [h1, h3]

theorem func_name_range (h : parseFromStr src = .ok res) (hsize : src.length < 2 ^ 32) (hf : f ∈ docFuncs res.stmts) :
    ∃ r, rangeToLsp src f.1.2 = some r ∧ (PlainTo src f.1.2.stop → EditorRange src f.1.2 r) := by
  have ht := (func_tokens h hf).1
  exact tokens_range h hsize ht ht (by simp) (by simp) (Nat.le_of_lt ((C02_token_spans h).1 _ ht).1)

/-! ### The rendered graph -/

omit [Unicode] in
theorem escape_quotable {n : Str} (h : Quotable n) : escapeDotLabel n = '"' :: n ++ ['"'] := by
  unfold escapeDotLabel
  have : ∀ l : Str, '"' ∉ l → (l.flatMap fun c => if c = '"' then ['"', '"'] else [c]) = l := by
    intro l hl
    induction l with
    | nil => rfl
    | cons c l ih =>
      simp only [List.mem_cons, not_or] at hl
      rw [List.flatMap_cons, if_neg (Ne.symm hl.1), ih hl.2]
      rfl
  rw [this n h.1]

omit [Unicode] in
theorem mem_cfgEdges {fb : FunctionBody} {a b : Str} : (a, b) ∈ cfgEdges fb ↔ Edge fb.basicBlocks a b := by
  unfold cfgEdges Edge BranchesTo
  simp only [branches_iff]
  rw [List.mem_flatMap]
  constructor
  · rintro ⟨bb, h1, h2⟩
    obtain ⟨i, hi, h2⟩ := List.mem_flatMap.mp h2
    split at h2
    · rename_i hb
      cases hl : bb.label with
      | none => rw [hl] at h2; cases h2
      | some l =>
        rw [hl] at h2
        obtain ⟨t, ht, he⟩ := List.mem_map.mp h2
        simp only [Prod.mk.injEq] at he
        obtain ⟨rfl, rfl⟩ := he
        exact ⟨bb, h1, ⟨l.2, hl⟩, i, hi, hb, List.mem_map.mpr ⟨t, ht, rfl⟩⟩
    · cases h2
  · rintro ⟨bb, h1, ⟨sp, hl⟩, i, hi, hb, hr⟩
    obtain ⟨t, ht, rfl⟩ := List.mem_map.mp hr
    refine ⟨bb, h1, List.mem_flatMap.mpr ⟨i, hi, ?_⟩⟩
    rw [if_pos hb, hl]
    exact List.mem_map.mpr ⟨t, ht, rfl⟩

theorem shows (h : parseFromStr src = .ok res) {fb : FunctionBody} (hf : (fb.name, fb.completeRange, fb.basicBlocks) ∈ docFuncs res.stmts) :
    ShowsEdges (cfgEdges fb) (createCfgDot fb) := by
  have hq : ∀ e ∈ cfgEdges fb, Quotable e.1 ∧ Quotable e.2 := by
    rintro ⟨a, b⟩ he
    obtain ⟨bb, h1, ⟨sp, hl⟩, i, hi, _, hr⟩ := mem_cfgEdges.mp he
    obtain ⟨t, ht, rfl⟩ := List.mem_map.mp hr
    exact ⟨ident_quotable h (label_token h hf h1 hl), ident_quotable h (ref_token h hf h1 hi ht)⟩
  have hname : '\n' ∉ fb.name.1 := globalName_newline h (func_tokens h hf).1
  refine ⟨[c!"// Control flow graph for " ++ fb.name.1,
    c!"// In VSCode, I recommend installing the `Graphviz Interactive Preview` extension to view this file."], ⟨?_, ?_⟩, ?_, hq⟩
  · show (c!"// Control flow graph for " ++ fb.name.1 ++ ['\n'])
      ++ (c!"// In VSCode, I recommend installing the `Graphviz Interactive Preview` extension to view this file." ++ ['\n'])
      ++ (c!"strict digraph D {" ++ ['\n']) ++ (c!"  node [shape=box];" ++ ['\n']) ++ (cfgEdges fb).flatMap cfgEdgeLine ++ (c!"}" ++ ['\n']) = _
    generalize c!"// Control flow graph for " = c1
    generalize c!"// In VSCode, I recommend installing the `Graphviz Interactive Preview` extension to view this file." = c2
    generalize c!"strict digraph D {" = c3
    generalize c!"  node [shape=box];" = c4
    simp only [List.flatMap_append, List.flatMap_cons, List.flatMap_nil, List.append_nil, List.append_assoc, List.cons_append, List.nil_append]
    have he : (cfgEdges fb).flatMap cfgEdgeLine = ((cfgEdges fb).map dotEdge).flatMap (· ++ ['\n']) := by
      rw [List.flatMap_map]
      have : ∀ l : List (Str × Str), (∀ e ∈ l, Quotable e.1 ∧ Quotable e.2) → l.flatMap cfgEdgeLine = l.flatMap fun a => dotEdge a ++ ['\n'] := by
        intro l hl
        induction l with
        | nil => rfl
        | cons e l ih =>
          rw [List.flatMap_cons, List.flatMap_cons, ih fun x hx => hl x (by simp [hx])]
          congr 1
          unfold cfgEdgeLine dotEdge
          rw [escape_quotable (hl e (by simp)).1, escape_quotable (hl e (by simp)).2]
          simp
      exact this _ hq
    rw [he]
  · intro l hl
    simp only [List.mem_append, List.mem_cons, List.mem_map, List.not_mem_nil, or_false] at hl
    rcases hl with (((rfl | rfl) | (rfl | rfl)) | ⟨e, he, rfl⟩) | rfl
    · simp only [List.mem_append, not_or]
      exact ⟨by decide, hname⟩
    · decide
    · decide
    · decide
    · have := hq e he
      unfold dotEdge
      simp only [List.mem_append, not_or]
      exact ⟨⟨⟨⟨by decide, this.1.2.2⟩, by decide⟩, this.2.2.2⟩, by decide⟩
    · decide
  · intro c hc
    simp only [List.mem_cons, List.not_mem_nil, or_false] at hc
    rcases hc with rfl | rfl
    · exact ⟨_, rfl⟩
    · exact ⟨_, rfl⟩

theorem renders (h : parseFromStr src = .ok res) {fb : FunctionBody} (hf : (fb.name, fb.completeRange, fb.basicBlocks) ∈ docFuncs res.stmts) :
    RendersGraph fb.basicBlocks (createCfgDot fb) := ⟨cfgEdges fb, shows h hf, fun _ _ => mem_cfgEdges⟩

end

end HyperIR
