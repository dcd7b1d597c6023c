import Verif.Proofs.RelabelDoc
import Verif.Props.RenameText

/- After a rename to a new name the document has the same statements and the same symbol occurrences, up to the name. -/

namespace HyperIR
open Spec

namespace Renaming
variable (G : Renaming)

/-- What becomes of an occurrence. -/
def occ (o : SymbolOccurrence) : SymbolOccurrence :=
  { o with span := G.span o.span, name := (G.ren (nameToken o.symbolKind o.name, o.span)).getD o.name }

end Renaming

section
variable {G : Renaming}

theorem occ_occ {k : SymbolKind} {ud : UseDefKind} {f : Option Nat} {x : Spanned Str} {mk : Str → Token} (h : ∀ n, nameToken k n = mk n) :
    Spec.occ k ud f (G.name mk x) = G.occ (Spec.occ k ud f x) := by
  simp only [Spec.occ, Renaming.occ, Renaming.name, h]

theorem instrOccs_ren {i : Nat} {ins : Instruction} : instrOccs i (G.instr ins) = (instrOccs i ins).map G.occ := by
  unfold instrOccs Renaming.instr
  rw [List.map_append, List.map_map, List.map_map]
  simp only
  congr 1
  · cases ins.assignmentTarget with
    | none => rfl
    | some x => simp only [Option.map_some, Option.toList_some, List.map_cons, List.map_nil, Function.comp]; rfl
  · rw [List.map_map]
    refine List.map_congr_left ?_
    intro x _
    exact occ_occ (fun _ => rfl)

theorem flatMap_map_congr {α β γ δ : Type} {l : List α} {g : α → β} {f : β → List γ} {f' : α → List δ} {k : δ → γ} (h : ∀ x ∈ l, f (g x) = (f' x).map k) :
    (l.map g).flatMap f = (l.flatMap f').map k := by
  induction l with
  | nil => rfl
  | cons x l ih =>
    rw [List.map_cons, List.flatMap_cons, List.flatMap_cons, List.map_append, h x (by simp), ih (fun y hy => h y (by simp [hy]))]

theorem blockOccs_ren {i : Nat} {b : BasicBlock} : blockOccs i (G.block b) = (blockOccs i b).map G.occ := by
  unfold blockOccs Renaming.block
  rw [List.map_append]
  simp only
  congr 1
  · cases b.label with
    | none => rfl
    | some x => simp only [Option.map_some, Option.toList_some, List.map_cons, List.map_nil]; rfl
  · exact flatMap_map_congr (fun x _ => instrOccs_ren)

theorem funcOccs_ren {i : Nat} {sig : FuncSignature} {body : FuncBody} : funcOccs i (G.sig sig) (G.body body) = (funcOccs i sig body).map G.occ := by
  unfold funcOccs Renaming.sig Renaming.body
  rw [List.map_append]
  simp only
  congr 1
  · rw [List.map_map, List.map_map]
    refine List.map_congr_left ?_
    intro x _
    exact occ_occ (fun _ => rfl)
  · exact flatMap_map_congr (fun x _ => blockOccs_ren)

theorem stmtOccs_ren {i : Nat} {s : Statement} : stmtOccs i (G.stmt s) = (stmtOccs i s).map G.occ := by
  cases s with
  | globalVar n d => simp only [Renaming.stmt, stmtOccs, List.map_cons, List.map_nil]; rfl
  | funcDecl s a d => simp only [Renaming.stmt, stmtOccs, List.map_cons, List.map_nil, Renaming.sig]; rfl
  | funcDef k s b =>
    simp only [Renaming.stmt, stmtOccs, List.map_cons, ← funcOccs_ren]
    rw [← occ_occ (mk := .globalName) (fun _ => rfl)]
    rfl
  | funcDependencies n ds => rfl
  | dbgAnnotation n d => simp only [Renaming.stmt, stmtOccs, List.map_cons, List.map_nil]; rfl

theorem docOccs_ren {i : Nat} : ∀ {ss : List Statement}, docOccs i (ss.map G.stmt) = (docOccs i ss).map G.occ
  | [] => rfl
  | s :: ss => by
    simp only [List.map_cons, docOccs, List.map_append, stmtOccs_ren]
    have : funcCount [G.stmt s] = funcCount [s] := by cases s <;> rfl
    rw [this, docOccs_ren]

theorem docFuncs_ren : ∀ {ss : List Statement},
    docFuncs (ss.map G.stmt) = (docFuncs ss).map fun f => (G.name .globalName f.1, G.span f.2.1, f.2.2.map G.block)
  | [] => rfl
  | s :: ss => by cases s <;> simp only [List.map_cons, docFuncs, Renaming.stmt, docFuncs_ren (ss := ss)] <;> rfl

/-- Renaming keeps the order of the tokens. -/
theorem wellOrdered_order {l : List Tok} (h : WellOrdered l) (h' : WellOrdered (l.map G.tok)) {a b : Tok} (ha : a ∈ l) (hb : b ∈ l) :
    (a.2.start ≤ b.2.start ↔ G.f a.2.start ≤ G.f b.2.start) ∧ (b.2.start < a.2.stop ↔ G.f b.2.start < G.f a.2.stop) := by
  have hpos := h.2
  have hpos' : ∀ t ∈ l, G.f t.2.start < G.f t.2.stop := fun t ht => h'.2 _ (List.mem_map_of_mem ht)
  have h1 := h.1
  have h2 := h'.1
  clear h h'
  unfold InOrder at h1 h2
  induction l with
  | nil => cases ha
  | cons x l ih =>
    simp only [List.map_cons, List.pairwise_cons] at h1 h2
    have hx := hpos x (by simp)
    have hx' := hpos' x (by simp)
    rcases List.mem_cons.mp ha with rfl | ha' <;> rcases List.mem_cons.mp hb with rfl | hb'
    · exact ⟨by simp, by omega⟩
    · have k1 := h1.1 _ (List.mem_map_of_mem hb')
      have k2 := h2.1 _ (List.mem_map_of_mem (List.mem_map_of_mem hb'))
      simp only [Renaming.tok, renTok] at k2
      omega
    · have k1 := h1.1 _ (List.mem_map_of_mem ha')
      have k2 := h2.1 _ (List.mem_map_of_mem (List.mem_map_of_mem ha'))
      have k3 := hpos a (by simp [ha'])
      have k4 := hpos' a (by simp [ha'])
      simp only [Renaming.tok, renTok] at k2
      omega
    · exact ih ha' hb' (fun t ht => hpos t (by simp [ht])) (fun t ht => hpos' t (by simp [ht])) h1.2 h2.2

theorem wellOrdered_span {l : List Tok} (h : WellOrdered l) (h' : WellOrdered (l.map G.tok)) {a b : Tok} (ha : a ∈ l) (hb : b ∈ l)
    (he : G.span a.2 = G.span b.2) : a = b := by
  have h1 := (wellOrdered_order h h' ha hb).1
  have h2 := (wellOrdered_order h h' hb ha).1
  simp only [Renaming.span, Span.mk.injEq] at he
  have e : a.2.start = b.2.start := by omega
  have p1 := h.2 a ha
  have p2 := h.2 b hb
  have hw := h.1
  clear h h' h1 h2 he
  unfold InOrder at hw
  induction l with
  | nil => cases ha
  | cons x l ih =>
    rw [List.map_cons, List.pairwise_cons] at hw
    rcases List.mem_cons.mp ha with rfl | ha' <;> rcases List.mem_cons.mp hb with rfl | hb'
    · rfl
    · have := hw.1 _ (List.mem_map_of_mem hb'); omega
    · have := hw.1 _ (List.mem_map_of_mem ha'); omega
    · exact ih ha' hb' hw.2

end

theorem findIdx?_congr' {α : Type} {p q : α → Bool} : ∀ {l : List α}, (∀ x ∈ l, p x = q x) → l.findIdx? p = l.findIdx? q
  | [], _ => rfl
  | x :: l, h => by
    rw [List.findIdx?_cons, List.findIdx?_cons, h x (by simp), findIdx?_congr' (fun y hy => h y (by simp [hy]))]

theorem movePos_end {o : Nat} {text : Str} {cs : List (Span × Str)} {text' : Str} (h : Replaced o text cs text') (o' k : Nat) :
    movePos o o' cs (o + text.length + k) = o' + text'.length + k := by
  induction h generalizing o' with
  | done => simp only [movePos]; omega
  | @change o a w rest cs rest' v h ih =>
    simp only [movePos]
    rw [if_neg (by simp only [List.length_append]; omega)]
    have := ih (o' + a.length + v.length)
    simp only [List.length_append] at this ⊢
    rw [show o + (a.length + w.length + rest.length) + k = o + a.length + w.length + rest.length + k by omega,
      show o' + (o + a.length - o) + v.length = o' + a.length + v.length by omega, this]
    omega

theorem movePos_le {o : Nat} {text : Str} {cs : List (Span × Str)} {text' : Str} (h : Replaced o text cs text') (o' : Nat) {p : Nat}
    (hp : p ≤ o + text.length) : movePos o o' cs p ≤ o' + text'.length := by
  induction h generalizing o' with
  | done => simp only [movePos]; omega
  | @change o a w rest cs rest' v h ih =>
    simp only [movePos]
    simp only [List.length_append] at hp ⊢
    split
    · omega
    · have := ih (o' + (o + a.length - o) + v.length) (by omega)
      omega

/-- Text that is plain up to a place is plain up to where the place goes. -/
theorem replaced_plainTo {o : Nat} {text : Str} {cs : List (Span × Str)} {text' : Str} (h : Replaced o text cs text') (hc : ∀ c ∈ cs, Plain c.2) (o' : Nat) {p : Nat}
    (hp : Plain (text.take (p - o))) : Plain (text'.take (movePos o o' cs p - o')) := by
  induction h generalizing o' with
  | done => simp only [movePos]; rwa [show ∀ a : Nat, o' + a - o' = a by omega]
  | @change o a w rest cs rest' v h ih =>
    simp only [movePos]
    split
    · rename_i hlt
      intro c hm
      rw [List.append_assoc, List.take_append_of_le_length (by omega)] at hm
      refine hp c ?_
      rw [List.append_assoc, List.take_append]
      exact List.mem_append_left _ ((List.take_subset_take_left _ (by omega)) hm)
    · rename_i hge
      have hpre : p - o = (a ++ w).length + (p - (o + a.length + w.length)) := by simp only [List.length_append]; omega
      rw [hpre, List.take_length_add_append] at hp
      have := ih (fun c hm => hc c (by simp [hm])) (o' + (o + a.length - o) + v.length) (fun c hm => hp c (List.mem_append_right _ hm))
      intro c hm
      rw [List.take_append] at hm
      rcases List.mem_append.mp hm with hm | hm
      · rcases List.mem_append.mp (List.mem_of_mem_take hm) with hm | hm
        · exact hp c (by simp [hm])
        · exact hc _ (List.mem_cons_self ..) c hm
      · refine this c ?_
        rwa [show ∀ q, q - (o' + (o + a.length - o) + v.length) = q - o' - (a ++ v).length by intro q; simp only [List.length_append]; omega]

/-- Replacing ASCII text by ASCII text changes the number of bytes by the number of characters. -/
theorem replaced_bytes {o : Nat} {text : Str} {cs : List (Span × Str)} {text' : Str} (h : Replaced o text cs text') (hc : ∀ c ∈ cs, Plain c.2)
    (hp : ∀ c ∈ cs, Plain (text.take (c.1.stop - o))) : utf8Len text' + text.length = utf8Len text + text'.length := by
  induction h with
  | done => rfl
  | @change o a w rest cs rest' v h ih =>
    have hw := hp _ (List.mem_cons_self ..)
    simp only at hw
    rw [show o + a.length + w.length - o = (a ++ w).length + 0 by simp only [List.length_append]; omega, List.take_length_add_append] at hw
    have ew : utf8Len w = w.length := utf8Len_ascii fun c hm => (hw c (by simp [hm])).1
    have ev : utf8Len v = v.length := utf8Len_ascii fun c hm => (hc _ (List.mem_cons_self ..) c hm).1
    have := ih (fun c hm => hc c (by simp [hm])) (by
      intro c hm
      have hq := (replaced_order h).1 _ hm
      have := hp c (by simp [hm])
      by_cases hs : c.1.stop ≤ o + a.length + w.length
      · rw [show c.1.stop - (o + a.length + w.length) = 0 by omega]
        intro d hd
        simp at hd
      · rw [show c.1.stop - o = (a ++ w).length + (c.1.stop - (o + a.length + w.length)) by simp only [List.length_append]; omega, List.take_length_add_append] at this
        exact fun d hd => this d (List.mem_append_right _ hd))
    simp only [utf8Len_append, List.length_append] at this ⊢
    omega

/-- A change makes its range as long as the new text. -/
theorem movePos_width {o : Nat} {text : Str} {cs : List (Span × Str)} {text' : Str} (h : Replaced o text cs text') (o' : Nat)
    (hne : ∀ c ∈ cs, c.1.start < c.1.stop) {sp : Span} {v : Str} (hc : (sp, v) ∈ cs) : movePos o o' cs sp.stop = movePos o o' cs sp.start + v.length := by
  induction h generalizing o' with
  | done => cases hc
  | @change o a w rest cs rest' v' h ih =>
    have hn := hne _ (List.mem_cons_self ..)
    simp only at hn
    rcases List.mem_cons.mp hc with e | hc
    · cases e
      simp only [movePos]
      rw [if_neg (by omega), if_pos (by omega)]
      have hq : ∀ c ∈ cs, o + a.length + w.length ≤ c.1.start := (replaced_order h).1
      cases cs with
      | nil => simp only [movePos]; omega
      | cons c cs =>
        have := hq c (by simp)
        have := hne c (by simp)
        simp only [movePos]
        rw [if_pos (by omega)]
        omega
    · have := (replaced_order h).1 _ hc
      have := hne _ (List.mem_cons_of_mem _ hc)
      simp only at *
      simp only [movePos]
      rw [if_neg (by omega), if_neg (by omega)]
      exact ih _ (fun c hc => hne c (List.mem_cons_of_mem _ hc)) hc

/-- Text between the changes keeps its length. -/
theorem movePos_kept {o : Nat} {text : Str} {cs : List (Span × Str)} {text' : Str} (h : Replaced o text cs text') (o' : Nat)
    (hne : ∀ c ∈ cs, c.1.start < c.1.stop) {a b : Nat} (ho : o ≤ a) (hab : a < b) (hc : ∀ c ∈ cs, c.1.stop ≤ a ∨ b ≤ c.1.start) :
    movePos o o' cs b = movePos o o' cs a + (b - a) := by
  induction h generalizing o' with
  | done => simp only [movePos]; omega
  | @change o x w rest cs rest' v' h ih =>
    have hn := hne _ (List.mem_cons_self ..)
    have hx := hc _ (List.mem_cons_self ..)
    simp only at hn hx
    simp only [movePos]
    rcases hx with hx | hx
    · rw [if_neg (by omega), if_neg (by omega)]
      exact ih _ (fun c hc => hne c (List.mem_cons_of_mem _ hc)) hx (fun c hm => hc c (List.mem_cons_of_mem _ hm))
    · rw [if_pos (by omega), if_pos (by omega)]
      omega

theorem wellOrdered_apart {l : List Tok} (h : WellOrdered l) {a b : Tok} (ha : a ∈ l) (hb : b ∈ l) (hne : a ≠ b) : a.2.stop ≤ b.2.start ∨ b.2.stop ≤ a.2.start := by
  have := h.1
  unfold InOrder at this
  rw [List.pairwise_map] at this
  clear h
  induction l with
  | nil => cases ha
  | cons x l ih =>
    rw [List.pairwise_cons] at this
    rcases List.mem_cons.mp ha with rfl | ha'
    · rcases List.mem_cons.mp hb with rfl | hb'
      · exact absurd rfl hne
      · exact .inl (this.1 _ hb')
    · rcases List.mem_cons.mp hb with rfl | hb'
      · exact .inr (this.1 _ ha')
      · exact ih ha' hb' this.2

section
variable [Unicode] {text text' : Str} {res : ParserResult}

/-- The renaming of a symbol of a document. -/
noncomputable def renG (res : ParserResult) (o : SymbolOccurrence) (name : Str) (f : Nat → Nat) : Renaming where
  ren t := if t.1 = nameToken o.symbolKind o.name then renOf res o name t else none
  f := f
  named := by
    intro t v h
    split at h
    · rename_i he; rw [he]; exact ⟨_, (withName_nameToken o.symbolKind o.name v).2⟩
    · cases h

variable {o : SymbolOccurrence} {name : Str} {f : Nat → Nat}

omit [Unicode] in
theorem renG_words (hkw : o.symbolKind = .label → NotKeyword o.name ∧ NotKeyword name) : (renG res o name f).Words where
  plain := by
    intro n sp v h
    simp only [renG] at h
    split at h
    · rename_i he
      have : o.symbolKind = .label ∧ n = o.name := by
        revert he; cases o.symbolKind <;> simp [nameToken]
      obtain ⟨rfl, _⟩ := renOf_some h
      rw [this.2]
      exact hkw this.1
    · cases h

theorem renG_ren (h : parseFromStr text = .ok res) {t : Spanned Token} (ht : t ∈ res.tokens) : (renG res o name f).ren t = renOf res o name t := by
  simp only [renG]
  split
  · rfl
  · rename_i hne
    cases hr : renOf res o name t with
    | none => rfl
    | some v => exact absurd (renOf_token h ht hr).2.1 hne

theorem renG_tok (h : parseFromStr text = .ok res) {t : Spanned Token} (ht : t ∈ res.tokens) :
    (renG res o name f).tok t = renTok (renOf res o name) f t := by
  unfold Renaming.tok renTok
  rw [renG_ren h ht]
  rfl

/-- The document `res'` is the document `res` with the new names and at the new places. -/
structure Carried (G : Renaming) (text text' : Str) (res res' : ParserResult) : Prop where
  tokens : res'.tokens = res.tokens.map G.tok
  stmts : res'.stmts = res.stmts.map G.stmt
  errors : (G.Words ∨ ∃ ss o, Layout ss o [] true (res.tokens.filter fun t => decide (t.1 ≠ Token.comment))) → Each (fun e e' : SErr => e'.span = G.span e.span ∧ errorMessage e' = errorMessage e) res.errors res'.errors
  mnemonics : ∀ i ∈ allInstructions res.stmts, G.ren (.ident i.instruction.1, i.instruction.2) = none
  inside : ∀ p ≤ text.length, G.f p ≤ text'.length
  eoi : G.span { start := utf8Len text, stop := utf8Len text + 1 } = { start := utf8Len text', stop := utf8Len text' + 1 }
  plain : ∀ q, PlainTo text q → PlainTo text' (G.f q)
  bare : ∀ t ∈ res.tokens, ∀ v, G.ren t = some v → ∃ n, tokName t.1 = some n ∧ t.2.stop = t.2.start + n.length
  changes : ∃ cs, Replaced 0 text cs text' ∧ G.f = movePos 0 0 cs ∧ (∀ c ∈ cs, ∃ t ∈ res.tokens, ∃ v, G.ren t = some v ∧ c = (t.2, v)) ∧
    ∀ t ∈ res.tokens, ∀ v, G.ren t = some v → (t.2, v) ∈ cs
  changed : ∀ t ∈ res.tokens, ∀ v, G.ren t = some v → PlainTo text t.2.stop ∧ Plain v

omit [Unicode] in
theorem errors_carried (G : Renaming) : ∀ es : List (LErr Token),
    Each (fun e e' : SErr => e'.span = G.span e.span ∧ errorMessage e' = errorMessage e) (es.map (LErr.toSErr Token.display))
      ((es.map G.err).map (LErr.toSErr Token.display))
  | [] => .nil
  | e :: es => by
    refine .cons ⟨rfl, ?_⟩ (errors_carried G es)
    obtain ⟨_, _, reason, _, found⟩ := e
    cases reason with
    | custom m => rfl
    | unexpected => cases found <;> rfl

theorem lexErrors_carried {G : Renaming} {eoi eoi' : Span} (heoi : G.span eoi = eoi') {o : Nat} {es es' : List (LErr Char)}
    (h : Each (LexMoved G.f eoi eoi' o) es es') :
    Each (fun e e' : SErr => e'.span = G.span e.span ∧ errorMessage e' = errorMessage e) (es.map (LErr.toSErr fun c => [c])) (es'.map (LErr.toSErr fun c => [c])) := by
  induction h with
  | nil => exact .nil
  | @cons e e' _ _ h _ ih =>
    obtain ⟨h1, h2, h3, h4⟩ := h
    refine .cons ⟨?_, ?_⟩ ih
    · rcases h4 with ⟨k1, k2⟩ | ⟨_, _, k⟩
      · show e'.span = G.span e.span
        rw [k1, k2, heoi]
      · exact k
    · clear h4
      obtain ⟨_, _, r, x, d⟩ := e
      obtain ⟨_, _, r', x', d'⟩ := e'
      simp only at h1 h2 h3
      subst h1 h2 h3
      rfl

omit [Unicode] in
theorem each_append' {α β : Type} {P : α → β → Prop} {a c : List α} {b d : List β} (h : Each P a b) (h' : Each P c d) : Each P (a ++ c) (b ++ d) := by
  induction h with
  | nil => exact h'
  | cons h1 _ ih => exact .cons h1 ih

theorem parsed_tokens (h : parseFromStr text = .ok res) {toks : List (Spanned Token)} {errs} (ht : tokenize text = .ok (some toks, errs)) : res.tokens = toks := by
  rcases parseFromStr_tokens h with ⟨h1, ⟨e, h2⟩, _⟩ | ⟨errs, h1⟩
  · rw [h2] at ht; cases ht
  · rw [h1] at ht; cases ht; rfl

/-- The parser errors after renames. -/
theorem parseTokens_errors {G : Renaming} [G.Words] {n n' : Nat} {toks : List (Spanned Token)} {so es} (h : parseTokens n toks = .ok (so, es))
    (heoi : G.span { start := n, stop := n + 1 } = { start := n', stop := n' + 1 }) :
    parseTokens n' (toks.map G.tok) = .ok (so.map (List.map G.stmt), es.map G.err) := by
  unfold parseTokens parseRecovery at h ⊢
  rw [filter_renamed, ← heoi]
  rcases rel_cases (parser_equi (G := G) { start := n, stop := n + 1 } (toks.filter fun t => decide (t.1 ≠ Token.comment)))
    with ⟨es, a, al, r, es', a', al', h1, h2, h3, h4, h5⟩ | ⟨es, e, es', e', h1, h2, h3, h4⟩ | ⟨h1, h2⟩
  · rw [h1] at h
    cases h
    rw [h2, h3, h4]
    rfl
  · rw [h1] at h
    cases h
    rw [h2, h3, h4]
    simp
  · rw [h1] at h
    cases h

/-- The document after renames. -/
theorem renames_parse {G : Renaming} (h : parseFromStr text = .ok res) {toks : List (Spanned Token)} {errs errs' : List (LErr Char)} (ht : tokenize text = .ok (some toks, errs))
    {cs : List (Span × Str)} (hp : ∀ t ∈ toks, ∀ v, G.ren t = some v → PlainTo text t.2.stop ∧ Plain v) (hrep : Replaced 0 text cs text') (hf : G.f = movePos 0 0 cs)
    (hcs : ∀ c ∈ cs, ∃ t ∈ toks, ∃ v, G.ren t = some v ∧ c = (t.2, v)) (hcs' : ∀ t ∈ toks, ∀ v, G.ren t = some v → (t.2, v) ∈ cs)
    (hbare : ∀ t ∈ toks, ∀ v, G.ren t = some v → ∃ n, tokName t.1 = some n ∧ t.2.stop = t.2.start + n.length)
    (hlab : ∀ m sp v, (.ident m, sp) ∈ toks → G.ren (.ident m, sp) = some v → ∃ o' ∈ docOccs 0 res.stmts, o'.symbolKind = .label ∧ o'.span = sp)
    (ht' : tokenize text' = .ok (some (toks.map G.tok), errs'))
    (hmoved : Each (LexMoved G.f { start := text.length, stop := text.length } { start := text'.length, stop := text'.length } 0) errs errs') :
    ∃ res', parseFromStr text' = .ok res' ∧ Carried G text text' res res' := by
  have hts := parsed_tokens h ht
  have hpc : ∀ c ∈ cs, PlainTo text c.1.stop ∧ Plain c.2 := by
    intro c hc
    obtain ⟨t, ht1, v, hv, rfl⟩ := hcs c hc
    exact hp t ht1 v hv
  have hlen := replaced_bytes hrep (fun c hc => (hpc c hc).2) (fun c hc => (hpc c hc).1)
  have hle := length_le_utf8Len text
  have hplain : ∀ q, PlainTo text q → PlainTo text' (G.f q) := by
    intro q hq
    rw [hf]
    exact replaced_plainTo hrep (fun c hc => (hpc c hc).2) 0 hq
  have heoi : G.span { start := utf8Len text, stop := utf8Len text + 1 } = { start := utf8Len text', stop := utf8Len text' + 1 } := by
    have e0 := movePos_end hrep 0 (utf8Len text - text.length)
    have e1 := movePos_end hrep 0 (utf8Len text - text.length + 1)
    rw [show 0 + text.length + (utf8Len text - text.length) = utf8Len text by omega,
      show 0 + text'.length + (utf8Len text - text.length) = utf8Len text' by omega] at e0
    rw [show 0 + text.length + (utf8Len text - text.length + 1) = utf8Len text + 1 by omega,
      show 0 + text'.length + (utf8Len text - text.length + 1) = utf8Len text' + 1 by omega] at e1
    simp only [Renaming.span, hf, e0, e1]
  have hlexed := lexErrors_carried (G := G) (by
    have e0 := movePos_end hrep 0 0
    simp only [Nat.zero_add, Nat.add_zero] at e0
    simp only [Renaming.span, hf, e0]) hmoved
  have hins : ∀ p ≤ text.length, G.f p ≤ text'.length := by
    intro p hle
    have := movePos_le hrep 0 (p := p) (by omega)
    rw [hf]
    omega
  have hw := tokens_wellOrdered h
  rw [hts] at hw
  have hnd : (toks.map Prod.snd).Nodup := by
    obtain ⟨w1, w2⟩ := hw
    unfold InOrder at w1
    rw [List.pairwise_map] at w1
    rw [List.Nodup, List.pairwise_map]
    refine List.Pairwise.imp_of_mem ?_ w1
    intro a b ha hb hab e
    have := w2 b hb
    rw [e] at hab
    omega
  unfold parseFromStr at h ⊢
  rw [ht] at h
  rw [ht']
  simp only at h ⊢
  cases hpt : parseTokens (utf8Len text) toks with
  | panic => rw [hpt] at h; cases h
  | ok x =>
    obtain ⟨so, es⟩ := x
    rw [hpt] at h
    simp only [Outcome.ok.injEq] at h
    obtain ⟨⟨es', h1, hs⟩, h2⟩ := parseTokens_renamed (G := G) hpt hnd heoi (by
      intro m sp v hm hv
      have := hlab m sp v hm hv
      rwa [← h] at this)
    rw [h1]
    refine ⟨_, rfl, by rw [hts], ?_, ?_, ?_, hins, heoi, hplain, by rw [hts]; exact hbare, ⟨cs, hrep, hf, by rw [hts]; exact hcs, by rw [hts]; exact hcs'⟩, by rw [hts]; exact hp⟩
    · rw [← h]
      cases so <;> rfl
    · rintro (hwords | hread)
      · have := parseTokens_errors (G := G) hpt heoi
        rw [h1] at this
        cases this
        rw [← h]
        exact each_append' hlexed (errors_carried G es)
      · rw [hts] at hread
        rw [← h]
        refine each_append' hlexed ?_
        have strip : ∀ es : List (LErr Token), es.map (LErr.toSErr Token.display) = (es.map fun e => { e with rem := 0 }).map (LErr.toSErr Token.display) := by
          intro es
          rw [List.map_map]
          rfl
        rw [strip es', hs hread, ← strip]
        exact errors_carried G es
    · intro i hi
      rw [← h] at hi
      simp only [allInstructions, List.mem_flatMap] at hi
      obtain ⟨x, hx, hi⟩ := hi
      cases x with
      | funcDef k sg b =>
        simp only [List.mem_flatMap] at hi
        obtain ⟨blk, hb, hi⟩ := hi
        exact h2 k sg b hx blk hb i hi
      | _ => cases hi

omit [Unicode] in
/-- Labels are named by the statements. -/
theorem label_occurs {o' : SymbolOccurrence} {sp : Span} (h : Occurs res.tokens res.stmts o') (hk : o'.symbolKind = .label) (hs : o'.span = sp) :
    ∃ o' ∈ docOccs 0 res.stmts, o'.symbolKind = .label ∧ o'.span = sp := by
  rcases h with h | ⟨⟨t, _, hu⟩, _⟩
  · exact ⟨o', h, hk, hs⟩
  · exfalso
    obtain ⟨t, sp'⟩ := t
    cases t with
    | globalName n =>
      cases hu
      revert hk
      simp only [Spec.occ]
      split <;> simp
    | localName n =>
      simp only [tokenUse] at hu
      obtain ⟨i, _, rfl⟩ := Option.map_eq_some_iff.mp hu
      cases hk
    | debugRef n => cases hu; cases hk
    | _ => cases hu

/-- The document after the rename. -/
theorem parse_renamed (h : parseFromStr text = .ok res) {toks : List (Spanned Token)} {errs errs' : List (LErr Char)} (ht : tokenize text = .ok (some toks, errs))
    (hp : PlainSymbol text res o) (hplain : Plain name) (hrep : Replaced 0 text (renChanges (renOf res o name) toks) text')
    (hf : f = movePos 0 0 (renChanges (renOf res o name) toks))
    (hbare : ∀ o', Occurs res.tokens res.stmts o' → SameSymbol o' o → Bare o')
    (ht' : tokenize text' = .ok (some (toks.map (renTok (renOf res o name) f)), errs'))
    (hmoved : Each (LexMoved f { start := text.length, stop := text.length } { start := text'.length, stop := text'.length } 0) errs errs') :
    ∃ res', parseFromStr text' = .ok res' ∧ Carried (renG res o name f) text text' res res' := by
  have hmap : toks.map (renTok (renOf res o name) f) = toks.map (renG res o name f).tok := by
    refine List.map_congr_left ?_
    intro t htm
    rw [renG_tok h (by rw [parsed_tokens h ht]; exact htm)]
  rw [hmap] at ht'
  refine renames_parse h ht ?_ hrep hf ?_ ?_ ?_ ?_ ht' hmoved
  · intro t htm v hv
    have htm' : t ∈ res.tokens := by rw [parsed_tokens h ht]; exact htm
    rw [renG_ren h htm'] at hv
    obtain ⟨rfl, o', k1, k2, k3⟩ := renOf_some hv
    exact ⟨k3 ▸ hp o' k1 k2, hplain⟩
  · intro c hc
    obtain ⟨t, htm, he⟩ := List.mem_filterMap.mp hc
    obtain ⟨v, hv, rfl⟩ := Option.map_eq_some_iff.mp he
    exact ⟨t, htm, v, by rw [renG_ren h (by rw [parsed_tokens h ht]; exact htm), hv], rfl⟩
  · intro t htm v hv
    rw [renG_ren h (by rw [parsed_tokens h ht]; exact htm)] at hv
    exact List.mem_filterMap.mpr ⟨t, htm, by rw [hv]; rfl⟩
  · intro t htm v hv
    have htm' : t ∈ res.tokens := by rw [parsed_tokens h ht]; exact htm
    rw [renG_ren h htm'] at hv
    exact renOf_bare h hbare htm' hv
  · intro m sp v htm hv
    have htm' : (Token.ident m, sp) ∈ res.tokens := by rw [parsed_tokens h ht]; exact htm
    rw [renG_ren h htm'] at hv
    have hk := (renOf_token h htm' hv).2.1
    obtain ⟨rfl, o', k1, k2, k3⟩ := renOf_some hv
    refine label_occurs k1 (k2.1.trans ?_) k3
    revert hk
    cases o.symbolKind <;> simp [nameToken]

/-- Names without unrecognizable text in front of them stay so. -/
theorem Carried.bare_occ {G : Renaming} {res' : ParserResult} (hG : Carried G text text' res res') (h : parseFromStr text = .ok res) {o1 : SymbolOccurrence}
    (ho : Occurs res.tokens res.stmts o1) (hb : Bare o1) : Bare (G.occ o1) := by
  obtain ⟨cs, h1, h2, h3, h4⟩ := hG.changes
  have hw := tokens_wellOrdered h
  have hm := occurs_token h ho
  rw [occTok_nameToken] at hm
  have hne : ∀ c ∈ cs, c.1.start < c.1.stop := by
    intro c hc
    obtain ⟨t, ht, v, _, rfl⟩ := h3 c hc
    exact hw.2 t ht
  have hlt : o1.span.start < o1.span.stop := hw.2 _ hm
  unfold Bare at hb ⊢
  show G.f o1.span.stop = G.f o1.span.start + ((G.ren (nameToken o1.symbolKind o1.name, o1.span)).getD o1.name).length
  rw [h2]
  cases hr : G.ren (nameToken o1.symbolKind o1.name, o1.span) with
  | some v =>
    exact movePos_width h1 0 hne (h4 _ hm v hr)
  | none =>
    have := movePos_kept h1 0 hne (Nat.zero_le _) hlt (by
      intro c hc
      obtain ⟨t, ht, v, hv, rfl⟩ := h3 c hc
      exact wellOrdered_apart hw ht hm (by rintro rfl; rw [hr] at hv; cases hv))
    simp only [Option.getD_none]
    omega

/-! ### Occurrences -/

/-- What `ReferencesKept` says about the map between occurrences. -/
structure Keeps (res res' : ParserResult) (R : SymbolOccurrence → Str → Prop) (m : SymbolOccurrence → SymbolOccurrence) : Prop where
  occurs : ∀ o', Occurs res'.tokens res'.stmts o' ↔ ∃ o1, Occurs res.tokens res.stmts o1 ∧ o' = m o1
  role : ∀ o1, (m o1).symbolKind = o1.symbolKind ∧ (m o1).useDef = o1.useDef ∧ (m o1).funcBodyId = o1.funcBodyId
  name : ∀ o1, Occurs res.tokens res.stmts o1 → (∀ v, R o1 v → (m o1).name = v) ∧ ((∀ v, ¬ R o1 v) → (m o1).name = o1.name)
  same : ∀ o1 o2, Occurs res.tokens res.stmts o1 → Occurs res.tokens res.stmts o2 →
      (SameSymbol (m o1) (m o2) ↔ SameSymbol o1 o2) ∧ ((m o1).span.start < (m o2).span.start ↔ o1.span.start < o2.span.start)

/-- The new name of an occurrence. -/
theorem renG_occurs (h : parseFromStr text = .ok res) {ix : HIRIndex} (hix : createIndex text res.tokens res.stmts = .ok ix)
    (hamb : ¬ Ambiguous res.stmts o.name) {o1 : SymbolOccurrence} (ho1 : Occurs res.tokens res.stmts o1) :
    (SameSymbol o1 o ∧ (renG res o name f).ren (nameToken o1.symbolKind o1.name, o1.span) = some name) ∨
    (¬ SameSymbol o1 o ∧ (renG res o name f).ren (nameToken o1.symbolKind o1.name, o1.span) = none) := by
  have htok := occurs_token h ho1
  rw [occTok_nameToken] at htok
  rw [renG_ren h htok]
  by_cases hs : SameSymbol o1 o
  · exact .inl ⟨hs, renOf_of ho1 hs rfl⟩
  · refine .inr ⟨hs, ?_⟩
    cases hr : renOf res o name (nameToken o1.symbolKind o1.name, o1.span) with
    | none => rfl
    | some v =>
      obtain ⟨_, o', h1, h2, h3⟩ := renOf_some hr
      have := occurs_unique h hix h1 ho1 h3 (by rw [h2.2.2]; exact hamb)
      subst this
      exact absurd h2 hs

theorem renG_occ_name (h : parseFromStr text = .ok res) {ix : HIRIndex} (hix : createIndex text res.tokens res.stmts = .ok ix)
    (hamb : ¬ Ambiguous res.stmts o.name) {o1 : SymbolOccurrence} (ho1 : Occurs res.tokens res.stmts o1) :
    (SameSymbol o1 o ∧ ((renG res o name f).occ o1).name = name) ∨ (¬ SameSymbol o1 o ∧ ((renG res o name f).occ o1).name = o1.name) := by
  rcases renG_occurs (name := name) (f := f) h hix hamb ho1 with ⟨h1, h2⟩ | ⟨h1, h2⟩
  · left; refine ⟨h1, ?_⟩; simp only [Renaming.occ, h2, Option.getD_some]
  · right; refine ⟨h1, ?_⟩; simp only [Renaming.occ, h2, Option.getD_none]

/-- Occurrences stay occurrences of the same symbols. -/
theorem occ_sameSymbol (h : parseFromStr text = .ok res) {ix : HIRIndex} (hix : createIndex text res.tokens res.stmts = .ok ix)
    (hamb : ¬ Ambiguous res.stmts o.name) (hfresh : Fresh res o name) {o1 o2 : SymbolOccurrence} (ho1 : Occurs res.tokens res.stmts o1)
    (ho2 : Occurs res.tokens res.stmts o2) :
    SameSymbol ((renG res o name f).occ o1) ((renG res o name f).occ o2) ↔ SameSymbol o1 o2 := by
  have f1 := hfresh o1 ho1
  have f2 := hfresh o2 ho2
  have hk : ∀ o1, ((renG res o name f).occ o1).symbolKind = o1.symbolKind := fun _ => rfl
  have hb : ∀ o1, ((renG res o name f).occ o1).funcBodyId = o1.funcBodyId := fun _ => rfl
  rcases renG_occ_name (name := name) (f := f) h hix hamb ho1 with ⟨s1, n1⟩ | ⟨s1, n1⟩ <;>
    rcases renG_occ_name (name := name) (f := f) h hix hamb ho2 with ⟨s2, n2⟩ | ⟨s2, n2⟩ <;> unfold SameSymbol at * <;> rw [hk, hk, hb, hb, n1, n2]
  · exact ⟨fun _ => ⟨s1.1.trans s2.1.symm, s1.2.1.trans s2.2.1.symm, s1.2.2.trans s2.2.2.symm⟩, fun h => ⟨h.1, h.2.1, rfl⟩⟩
  · refine ⟨fun h => absurd (h.2.1.symm.trans s1.2.1) (f2 h.2.2.symm), fun h => absurd ⟨h.1.symm.trans s1.1, h.2.1.symm.trans s1.2.1, h.2.2.symm.trans s1.2.2⟩ s2⟩
  · refine ⟨fun h => absurd (h.2.1.trans s2.2.1) (f1 h.2.2), fun h => absurd ⟨h.1.trans s2.1, h.2.1.trans s2.2.1, h.2.2.trans s2.2.2⟩ s1⟩

/-- Global names are occurrences. -/
theorem global_occurs {n : Str} {sp : Span} (ht : (Token.globalName n, sp) ∈ res.tokens) :
    ∃ o1, Occurs res.tokens res.stmts o1 ∧ o1.name = n ∧ o1.span = sp ∧ o1.funcBodyId = none ∧
      (IsFunction res.stmts n → o1.symbolKind = .function) ∧ (¬ IsFunction res.stmts n → o1.symbolKind = .globalVar) := by
  refine Classical.byContradiction fun hno => ?_
  let u : SymbolOccurrence := Spec.occ (if decide (IsFunction res.stmts n) then .function else .globalVar) .use none (n, sp)
  have hu : tokenUse (fun n => decide (IsFunction res.stmts n)) (functionAt res.stmts) (.globalName n, sp) = some u := rfl
  have hk1 : IsFunction res.stmts n → u.symbolKind = .function := fun h => by simp [u, h, Spec.occ]
  have hk2 : ¬ IsFunction res.stmts n → u.symbolKind = .globalVar := fun h => by simp [u, h, Spec.occ]
  by_cases hd : ∃ o' ∈ docOccs 0 res.stmts, SameSymbol o' u ∧ o'.span = u.span
  · obtain ⟨o', h1, h2, h3⟩ := hd
    exact hno ⟨o', .inl h1, h2.2.2, h3, h2.2.1, fun h => h2.1.trans (hk1 h), fun h => h2.1.trans (hk2 h)⟩
  · exact hno ⟨u, .inr ⟨⟨_, ht, hu⟩, hd⟩, rfl, rfl, rfl, hk1, hk2⟩

/-- Functions stay functions. -/
theorem isFunction_ren (h : parseFromStr text = .ok res) {ix : HIRIndex} (hix : createIndex text res.tokens res.stmts = .ok ix)
    (hamb : ¬ Ambiguous res.stmts o.name) (hfresh : Fresh res o name) {n : Str} {sp : Span}
    (ht : (Token.globalName n, sp) ∈ res.tokens) :
    IsFunction (res.stmts.map (renG res o name f).stmt) ((renG res o name f).name .globalName (n, sp)).1 ↔ IsFunction res.stmts n := by
  obtain ⟨o1, ho1, rfl, rfl, hb1, hf1, hf2⟩ := global_occurs ht
  have hgk : o1.symbolKind = .function ∨ o1.symbolKind = .globalVar := by
    by_cases h : IsFunction res.stmts o1.name
    · exact .inl (hf1 h)
    · exact .inr (hf2 h)
  have hname : ((renG res o name f).name .globalName (o1.name, o1.span)).1 = ((renG res o name f).occ o1).name := by
    rcases hgk with hk | hk <;> simp only [Renaming.name, Renaming.occ, hk, nameToken]
  rw [hname]
  unfold IsFunction
  rw [docOccs_ren]
  constructor
  · rintro ⟨_, hm, hk, hn⟩
    obtain ⟨o2, hm2, rfl⟩ := List.mem_map.mp hm
    have hk2 : o2.symbolKind = .function := hk
    have ho2 : Occurs res.tokens res.stmts o2 := .inl hm2
    rcases renG_occ_name (name := name) (f := f) h hix hamb ho1 with ⟨s1, n1⟩ | ⟨s1, n1⟩ <;>
      rcases renG_occ_name (name := name) (f := f) h hix hamb ho2 with ⟨s2, n2⟩ | ⟨s2, n2⟩ <;> rw [n1, n2] at hn
    · exact ⟨o2, hm2, hk2, s2.2.2.trans s1.2.2.symm⟩
    · exact absurd (((docOccs_function_global _ hm2 hk2).trans hb1.symm).trans s1.2.1) (hfresh o2 ho2 hn)
    · exact absurd ((hb1.trans (docOccs_function_global _ hm2 hk2).symm).trans s2.2.1) (hfresh o1 ho1 hn.symm)
    · exact ⟨o2, hm2, hk2, hn⟩
  · rintro ⟨o2, hm2, hk2, hn⟩
    have ho2 : Occurs res.tokens res.stmts o2 := .inl hm2
    refine ⟨_, List.mem_map_of_mem hm2, hk2, ?_⟩
    have hk1 : o1.symbolKind = .function := hf1 ⟨o2, hm2, hk2, hn⟩
    have hsame : SameSymbol o2 o1 := ⟨hk2.trans hk1.symm, (docOccs_function_global _ hm2 hk2).trans hb1.symm, hn⟩
    exact ((occ_sameSymbol (name := name) (f := f) h hix hamb hfresh ho2 ho1).mpr hsame).2.2

/-- Functions stay around their tokens. -/
theorem functionAt_ren (h : parseFromStr text = .ok res) (G : Renaming) (hw : WellOrdered (res.tokens.map G.tok)) {t : Tok} (ht : t ∈ res.tokens) :
    functionAt (res.stmts.map G.stmt) (G.f t.2.start) = functionAt res.stmts t.2.start := by
  unfold functionAt
  rw [docFuncs_ren, List.findIdx?_map]
  refine findIdx?_congr' ?_
  intro fn hfn
  obtain ⟨_, ⟨k, hk, e1, _⟩, c, hc, e2, _⟩ := func_tokens h hfn
  have h1 := (wellOrdered_order (tokens_wellOrdered h) hw hk ht).1
  have h2 := (wellOrdered_order (tokens_wellOrdered h) hw hc ht).2
  simp only [Function.comp, Span.contains, Renaming.span, e1, e2]
  simp only at h1 h2
  rw [decide_eq_decide.mpr h1.symm, decide_eq_decide.mpr h2.symm]

/-- Uses after a renaming that keeps functions. -/
theorem tokenUse_kept {G : Renaming} (h : parseFromStr text = .ok res)
    (hfn : ∀ n sp, (Token.globalName n, sp) ∈ res.tokens → (IsFunction (res.stmts.map G.stmt) (G.name .globalName (n, sp)).1 ↔ IsFunction res.stmts n))
    (hw : WellOrdered (res.tokens.map G.tok)) {t : Tok} (ht : t ∈ res.tokens) :
    tokenUse (fun n => decide (IsFunction (res.stmts.map G.stmt) n)) (functionAt (res.stmts.map G.stmt)) (G.tok t)
      = (tokenUse (fun n => decide (IsFunction res.stmts n)) (functionAt res.stmts) t).map G.occ := by
  have hat := functionAt_ren h G hw ht
  obtain ⟨t, sp⟩ := t
  have hG : G.tok (t, sp) = ((G.tok (t, sp)).1, G.span sp) := rfl
  have hst : (G.span sp).start = G.f sp.start := rfl
  rcases tok_cases G (t, sp) with ⟨e1, e2⟩ | ⟨m, v, e1, e2, e3⟩
  · rw [hG, e2]
    cases t with
    | globalName n =>
      have := hfn n sp ht
      simp only [Renaming.name, e1, Option.getD_none] at this
      simp only [tokenUse, Option.map_some, Spec.occ, Renaming.occ, this]
      split <;> simp only [nameToken, e1, Option.getD_none]
    | localName n =>
      simp only at hat
      simp only [tokenUse, hst, hat]
      cases functionAt res.stmts sp.start with
      | none => rfl
      | some i => simp only [Option.map_some, Spec.occ, Renaming.occ, nameToken, e1, Option.getD_none]
    | debugRef n => simp only [tokenUse, Option.map_some, Spec.occ, Renaming.occ, nameToken, e1, Option.getD_none]
    | _ => rfl
  · rw [hG, e3]
    cases t with
    | globalName n =>
      have := hfn n sp ht
      simp only [Renaming.name, e1, Option.getD_some] at this
      simp only [withName, tokenUse, Option.map_some, Spec.occ, Renaming.occ, this]
      split <;> simp only [nameToken, e1, Option.getD_some]
    | localName n =>
      simp only at hat
      simp only [withName, tokenUse, hst, hat]
      cases functionAt res.stmts sp.start with
      | none => rfl
      | some i => simp only [Option.map_some, Spec.occ, Renaming.occ, nameToken, e1, Option.getD_some]
    | debugRef n => simp only [withName, tokenUse, Option.map_some, Spec.occ, Renaming.occ, nameToken, e1, Option.getD_some]
    | _ => rfl

/-- The occurrences after a renaming that keeps functions. -/
theorem occurs_kept {G : Renaming} (h : parseFromStr text = .ok res)
    (hfn : ∀ n sp, (Token.globalName n, sp) ∈ res.tokens → (IsFunction (res.stmts.map G.stmt) (G.name .globalName (n, sp)).1 ↔ IsFunction res.stmts n))
    (hw : WellOrdered (res.tokens.map G.tok)) {o' : SymbolOccurrence} :
    Occurs (res.tokens.map G.tok) (res.stmts.map G.stmt) o' ↔ ∃ o1, Occurs res.tokens res.stmts o1 ∧ o' = G.occ o1 := by
  have huse := fun t ht => tokenUse_kept (G := G) (t := t) h hfn hw ht
  have key : ∀ o1 ∈ docOccs 0 res.stmts, ∀ u t, t ∈ res.tokens →
      tokenUse (fun n => decide (IsFunction res.stmts n)) (functionAt res.stmts) t = some u →
      ((SameSymbol (G.occ o1) (G.occ u) ∧ (G.occ o1).span = (G.occ u).span) ↔ (SameSymbol o1 u ∧ o1.span = u.span)) := by
    intro o1 hm1 u t ht hu
    have ht1 := occurs_token h (.inl hm1)
    have htu := (tokenUse_tok hu).1
    constructor
    · rintro ⟨h1, h2⟩
      have h2' : G.span (occTok o1).2 = G.span t.2 := by rw [← htu, occTok_span, occTok_span]; exact h2
      have he := wellOrdered_span (tokens_wellOrdered h) hw ht1 ht h2'
      rw [← htu] at he
      have hs : o1.span = u.span := by rw [← occTok_span o1, he, occTok_span]
      refine ⟨⟨h1.1, h1.2.1, ?_⟩, hs⟩
      have hk : o1.symbolKind = u.symbolKind := h1.1
      rw [occTok_nameToken, occTok_nameToken, hk] at he
      have := congrArg (fun x => tokName x.1) he
      simp only [(withName_nameToken _ _ []).2, Option.some.injEq] at this
      exact this
    · rintro ⟨h1, h2⟩
      refine ⟨⟨h1.1, h1.2.1, ?_⟩, ?_⟩
      · simp only [Renaming.occ, h1.1, h1.2.2, h2]
      · simp only [Renaming.occ, h2]
  unfold Occurs
  rw [docOccs_ren]
  constructor
  · rintro (hm | ⟨⟨t', ht', hu'⟩, hno⟩)
    · obtain ⟨o1, h1, rfl⟩ := List.mem_map.mp hm
      exact ⟨o1, .inl h1, rfl⟩
    · obtain ⟨t, ht, rfl⟩ := List.mem_map.mp ht'
      rw [huse t ht] at hu'
      obtain ⟨u, hu, rfl⟩ := Option.map_eq_some_iff.mp hu'
      refine ⟨u, .inr ⟨⟨t, ht, hu⟩, ?_⟩, rfl⟩
      rintro ⟨o1, h1, h2⟩
      exact hno ⟨_, List.mem_map_of_mem h1, (key o1 h1 u t ht hu).mpr h2⟩
  · rintro ⟨o1, hm | ⟨⟨t, ht, hu⟩, hno⟩, rfl⟩
    · exact .inl (List.mem_map_of_mem hm)
    · refine .inr ⟨⟨_, List.mem_map_of_mem ht, by rw [huse t ht, hu]; rfl⟩, ?_⟩
      rintro ⟨_, h1, h2⟩
      obtain ⟨o2, h3, rfl⟩ := List.mem_map.mp h1
      exact hno ⟨o2, h3, (key o2 h3 o1 t ht hu).mp h2⟩

/-- The occurrences after the rename. -/
theorem occurs_ren (h : parseFromStr text = .ok res) {ix : HIRIndex} (hix : createIndex text res.tokens res.stmts = .ok ix)
    (hamb : ¬ Ambiguous res.stmts o.name) (hfresh : Fresh res o name)
    (hw : WellOrdered (res.tokens.map (renG res o name f).tok)) {o' : SymbolOccurrence} :
    Occurs (res.tokens.map (renG res o name f).tok) (res.stmts.map (renG res o name f).stmt) o' ↔
      ∃ o1, Occurs res.tokens res.stmts o1 ∧ o' = (renG res o name f).occ o1 :=
  occurs_kept h (fun _ _ ht => isFunction_ren h hix hamb hfresh ht) hw

end
end HyperIR
