import Verif.Spec.Names
import Verif.Proofs.LaidDoc
import Verif.Proofs.RenameMeaning

/-! C101: what names are called does not matter for how a document is read. -/

namespace HyperIR
open Spec

/-! ### Tokens -/

theorem oneByOne_get {α β : Type} {R : α → β → Prop} : ∀ {l : List α} {l' : List β}, OneByOne R l l' → l'.length = l.length ∧
    ∀ (k : Nat) (x : α), l[k]? = some x → ∃ y, l'[k]? = some y ∧ R x y
  | [], [], _ => ⟨rfl, fun k x h => by simp at h⟩
  | [], _ :: _, h => h.elim
  | _ :: _, [], h => h.elim
  | x :: l, y :: l', ⟨h1, h2⟩ => by
    obtain ⟨e, ih⟩ := oneByOne_get h2
    refine ⟨by simp [e], ?_⟩
    intro k x' hk
    cases k with
    | zero => simp at hk; subst hk; exact ⟨y, rfl, h1⟩
    | succ k => simp at hk; simpa using ih k x' hk

/-- The renaming of counted tokens to those of the other text. -/
def otherNames (c' : List Tok) : Renaming where
  ren t := match c'[t.2.start]? with
    | some t' => if tokName t'.1 = tokName t.1 then none else if (tokName t.1).isSome then tokName t'.1 else none
    | none => none
  f := id
  named := by
    intro t v h
    split at h
    · split at h
      · cases h
      · split at h
        · rename_i hs
          exact Option.isSome_iff_exists.mp hs
        · cases h
    · cases h

section
variable {L : Span → Prop} {c c' : List Tok}

theorem otherNames_tok {t t' : Tok} {k : Nat} (h : SameButName L t t') (hk : c'[k]? = some t') :
    (otherNames c').tok (t.1, ⟨k, k + 1⟩) = (t'.1, ⟨k, k + 1⟩) := by
  unfold Renaming.tok renTok otherNames
  simp only [hk, id]
  cases h with
  | same => simp
  | globalName => rename_i n n' _ _; by_cases e : n' = n <;> simp [tokName, withName, e]
  | localName => rename_i n n' _ _; by_cases e : n' = n <;> simp [tokName, withName, e]
  | debugRef => rename_i n n' _ _; by_cases e : n' = n <;> simp [tokName, withName, e]
  | label _ => rename_i n n' _ _ _; by_cases e : n' = n <;> simp [tokName, withName, e]

theorem otherNames_counted (h : OneByOne (SameButName L) c c') :
    (countedFrom 0 (c.map Prod.fst)).map (otherNames c').tok = countedFrom 0 (c'.map Prod.fst) := by
  obtain ⟨hlen, hget⟩ := oneByOne_get h
  refine List.ext_getElem? ?_
  intro k
  rw [List.getElem?_map, counted_get, counted_get]
  simp only [List.getElem?_map, Nat.zero_add]
  cases hc : c[k]? with
  | none =>
    have : c'[k]? = none := by
      rw [List.getElem?_eq_none_iff] at hc ⊢
      omega
    simp [this]
  | some t =>
    obtain ⟨t', ht', hs⟩ := hget k t hc
    simp only [Option.map_some, ht', otherNames_tok hs ht']

end

/-! ### Statements without names -/

section
variable {G : Renaming} {F : Move}

theorem nameless_eq : nameless = fun _ => blank [] := rfl

theorem namelessTok_ren {t : Tok} (h : ∀ n, t.1 = .ident n → G.ren t = none) : namelessTok (G.tok t) = namelessTok t := by
  obtain ⟨t, sp⟩ := t
  unfold Renaming.tok renTok
  cases hr : G.ren (t, sp) with
  | none => rfl
  | some v =>
    cases t with
    | ident n => have := h n rfl; rw [hr] at this; cases this
    | _ => rfl

theorem namelessInstr_ren {i : Instruction} (h : G.ren (.ident i.instruction.1, i.instruction.2) = none) : namelessInstr (G.instr i) = namelessInstr i := by
  unfold namelessInstr Renaming.instr
  simp [Renaming.name, h, blank, Function.comp_def, nameless_eq]

theorem namelessBlock_ren {b : BasicBlock} (h : ∀ i ∈ b.instructions, G.ren (.ident i.instruction.1, i.instruction.2) = none) :
    namelessBlock (G.block b) = namelessBlock b := by
  unfold namelessBlock Renaming.block
  simp [Function.comp_def, nameless_eq]
  exact fun i hi => namelessInstr_ren (h i hi)

theorem namelessSig_ren {s : FuncSignature} : namelessSig (G.sig s) = namelessSig s := by
  unfold namelessSig Renaming.sig
  simp [Function.comp_def, nameless_eq, Renaming.moved, Renaming.arg]

theorem namelessInstr_move {i : Instruction} : namelessInstr (F.instr i) = namelessInstr i := by
  unfold namelessInstr Move.instr
  simp [Move.spanned, blank, Function.comp_def, nameless_eq]

theorem namelessBlock_move {b : BasicBlock} : namelessBlock (F.block b) = namelessBlock b := by
  unfold namelessBlock Move.block
  simp [Function.comp_def, nameless_eq, namelessInstr_move]

theorem namelessSig_move {s : FuncSignature} : namelessSig (F.sig s) = namelessSig s := by
  unfold namelessSig Move.sig
  simp [Function.comp_def, nameless_eq, Move.spanned, Move.arg]

theorem namelessTok_move (t : Tok) : namelessTok (F.spanned t) = namelessTok t := by
  obtain ⟨t, sp⟩ := t
  cases t <;> rfl

theorem namelessStmt_move {s : Statement} : namelessStmt (F.stmt s) = namelessStmt s := by
  have hd : ∀ d : List Tok, (d.map F.spanned).map namelessTok = d.map namelessTok := by
    intro d
    rw [List.map_map]
    exact List.map_congr_left fun t _ => namelessTok_move t
  cases s <;> simp only [namelessStmt, Move.stmt, hd, namelessSig_move] <;> simp [Function.comp_def, nameless_eq, Move.spanned, Move.body, namelessBlock_move]

/-- The occurrences in moved statements. -/
theorem docOccs_move : ∀ {ss : List Statement} {i : Nat}, docOccs i (ss.map F.stmt) = (docOccs i ss).map (plOcc F)
  | [], _ => rfl
  | s :: ss, i => by
    simp only [List.map_cons, docOccs, List.map_append]
    have e : funcCount [F.stmt s] = funcCount [s] := by cases s <;> rfl
    have h1 : ∀ (j : Nat) (x : Instruction), instrOccs j (F.instr x) = (instrOccs j x).map (plOcc F) := by
      intro j x
      unfold instrOccs Move.instr
      cases x.assignmentTarget <;> simp [Function.comp_def, Spec.occ, plOcc, Move.spanned]
    have h2 : ∀ (j : Nat) (b : BasicBlock), blockOccs j (F.block b) = (blockOccs j b).map (plOcc F) := by
      intro j b
      unfold blockOccs Move.block
      rw [List.map_append]
      congr 1
      · cases b.label <;> simp [Spec.occ, plOcc, Move.spanned]
      · exact flatMap_map_congr (fun x _ => h1 j x)
    have h3 : stmtOccs i (F.stmt s) = (stmtOccs i s).map (plOcc F) := by
      cases s with
      | funcDef k s b =>
        simp only [Move.stmt, stmtOccs, funcOccs, List.map_cons, List.map_append, Move.sig, Move.body]
        congr 1
        congr 1
        · simp [Function.comp_def, Spec.occ, plOcc, Move.spanned, Move.arg]
        · exact flatMap_map_congr (fun x _ => h2 i x)
      | _ => simp [Move.stmt, stmtOccs, Spec.occ, plOcc, Move.spanned, Move.sig]
    rw [e, h3, docOccs_move]

end
/-- No label stands in the value of a variable or annotation. -/
theorem value_label {n : Spanned Str} {d : List Tok} {t : Tok} {o : SymbolOccurrence} (ht : t ∈ d) (hk : o.symbolKind = .label) :
    ∀ {ss : List Statement} {i : Nat}, ((mentions ss).map Prod.snd).Nodup → (.globalVar n d ∈ ss ∨ .dbgAnnotation n d ∈ ss) → o ∈ docOccs i ss → o.span ≠ t.2
  | [], _, _, h, _ => by rcases h with h | h <;> cases h
  | x :: xs, i, hnd, hs, ho => by
    have hm : mentions (x :: xs) = stmtMentions x ++ mentions xs := by simp [mentions]
    rw [hm, List.map_append, List.nodup_append] at hnd
    obtain ⟨_, h2, h3⟩ := hnd
    have hocc : ∀ {j : Nat} {ys : List Statement}, o ∈ docOccs j ys → o.span ∈ (mentions ys).map Prod.snd := by
      intro j ys ho
      rw [← occTok_span]
      exact List.mem_map_of_mem ((docOccs_sublist j ys).subset (List.mem_map_of_mem ho))
    have hin : ∀ {ys : List Statement}, (.globalVar n d ∈ ys ∨ .dbgAnnotation n d ∈ ys) → t.2 ∈ (mentions ys).map Prod.snd := by
      intro ys hy
      refine List.mem_map_of_mem ?_
      rcases hy with hy | hy
      · exact List.mem_flatMap.mpr ⟨_, hy, List.mem_cons_of_mem _ ht⟩
      · exact List.mem_flatMap.mpr ⟨_, hy, List.mem_cons_of_mem _ ht⟩
    have hone : mentions [x] = stmtMentions x := by simp [mentions]
    have hhead : o ∈ stmtOccs i x → o ∈ docOccs i [x] := by simp [docOccs]
    simp only [docOccs, List.mem_append] at ho
    by_cases hx : .globalVar n d ∈ xs ∨ .dbgAnnotation n d ∈ xs
    · rcases ho with ho | ho
      · have := hocc (hhead ho)
        rw [hone] at this
        exact h3 _ this _ (hin hx)
      · exact value_label ht hk h2 hx ho
    · have hx' : .globalVar n d = x ∨ .dbgAnnotation n d = x := by
        simp only [List.mem_cons] at hs
        rcases hs with (h | h) | (h | h)
        · exact .inl h
        · exact absurd (.inl h) hx
        · exact .inr h
        · exact absurd (.inr h) hx
      rcases ho with ho | ho
      · rcases hx' with rfl | rfl <;>
        · simp only [stmtOccs, List.mem_singleton] at ho
          subst ho
          cases hk
      · have h4 : t.2 ∈ (stmtMentions x).map Prod.snd := by
          rw [← hone]
          exact hin (by simpa [eq_comm] using hx')
        exact fun e => h3 _ h4 _ (hocc ho) e.symm

section
variable [Unicode] {T T' : Str} {res res' : ParserResult}

/-- C101: two texts that differ in names only are read alike.  (The layout may differ as well, and there may be syntax errors.) -/
theorem C101_names (h : parseFromStr T = .ok res) (h' : parseFromStr T' = .ok res')
    (hs : OneByOne (SameButName (LabelAt res.stmts)) (codeTokens res.tokens) (codeTokens res'.tokens)) :
    res'.stmts.map namelessStmt = res.stmts.map namelessStmt ∧
    OneByOne (SameMention (codeTokens res.tokens) (codeTokens res'.tokens)) (docOccs 0 res.stmts) (docOccs 0 res'.stmts) := by
  obtain ⟨so, es, p1, p2⟩ := parseFromStr_parseTokens h
  obtain ⟨so', es', p1', p2'⟩ := parseFromStr_parseTokens h'
  obtain ⟨hlen, hget⟩ := oneByOne_get hs
  generalize hc : codeTokens res.tokens = c at *
  generalize hc' : codeTokens res'.tokens = c' at *
  obtain ⟨s0, e0, q⟩ := parseTokens_total c.length (countedFrom 0 (c.map Prod.fst))
  have hcode : ∀ t ∈ c, t.1 ≠ .comment := by
    intro t ht
    rw [← hc] at ht
    simpa using (List.mem_filter.mp ht).2
  have hcode' : ∀ t ∈ c', t.1 ≠ .comment := by
    intro t ht
    rw [← hc'] at ht
    simpa using (List.mem_filter.mp ht).2
  have hn0 := counted_code hcode
  have hn0' := counted_code hcode'
  have hlay : Laying c T.length := by
    rw [← hc]
    refine laying_filter (fun t ht => ?_) (C02_token_spans h).2 _
    have := (C02_token_spans h).1 t ht
    exact ⟨this.1, this.2⟩
  have hmv := parseTokens_move (F := layMove c (utf8Len T)) (toks' := res.tokens) (n' := utf8Len T) layMove_eoi
    (by rw [hn0]; exact hc.trans (counted_map c (utf8Len T)).symm) q
  rw [p1] at hmv
  cases hmv
  have hst : res.stmts = (s0.getD []).map (layMove c (utf8Len T)).stmt := by
    rw [p2]
    cases s0 <;> rfl
  -- the tokens of the tree, counted
  have hmen : (mentions (s0.getD [])).Sublist (countedFrom 0 (c.map Prod.fst)) := by
    cases s0 with
    | none => exact List.nil_sublist _
    | some ss =>
      obtain ⟨l, h3, h4⟩ := many_docItem_sound (parseTokens_some q)
      rw [List.append_nil] at h4
      have := docSkipG_sublist h3
      rw [← h4] at this
      exact this.trans List.filter_sublist
  have hnd : ((countedFrom 0 (c.map Prod.fst)).map Prod.snd).Nodup := by
    rw [List.Nodup, List.pairwise_iff_getElem]
    intro i j hi hj hij e
    have e1 : ((countedFrom 0 (c.map Prod.fst)).map Prod.snd)[i]? = ((countedFrom 0 (c.map Prod.fst)).map Prod.snd)[j]? := by
      rw [List.getElem?_eq_getElem hi, List.getElem?_eq_getElem hj, e]
    rw [List.length_map, counted_length, List.length_map] at hi hj
    rw [List.getElem?_map, List.getElem?_map, counted_get, counted_get] at e1
    simp [hi, hj] at e1
    omega
  have hplace : ∀ o ∈ docOccs 0 (s0.getD []), ∃ k t, c[k]? = some t ∧ o.span = ⟨k, k + 1⟩ := by
    intro o ho
    have h1 := hmen.subset ((docOccs_sublist 0 _).subset (List.mem_map_of_mem ho))
    obtain ⟨k, hk⟩ := List.getElem?_of_mem h1
    rw [counted_get, List.getElem?_map] at hk
    cases hck : c[k]? with
    | none => simp [hck] at hk
    | some t =>
      simp only [hck, Option.map_some, Option.some.injEq, Nat.zero_add] at hk
      refine ⟨k, t, hck, ?_⟩
      rw [← occTok_span, ← hk]
  have hlab : ∀ m sp v, (.ident m, sp) ∈ countedFrom 0 (c.map Prod.fst) → (otherNames c').ren (.ident m, sp) = some v →
      ∃ o' ∈ docOccs 0 (s0.getD []), o'.symbolKind = .label ∧ o'.span = sp := by
    intro m sp v hm hv
    obtain ⟨k, hk⟩ := List.getElem?_of_mem hm
    rw [counted_get, List.getElem?_map] at hk
    cases hck : c[k]? with
    | none => simp [hck] at hk
    | some t =>
      simp only [hck, Option.map_some, Option.some.injEq, Nat.zero_add, Prod.mk.injEq] at hk
      obtain ⟨ht, rfl⟩ := hk
      obtain ⟨t', ht', hb⟩ := hget k t hck
      unfold otherNames at hv
      simp only [ht'] at hv
      have hl : LabelAt res.stmts t.2 := by
        cases hb with
        | same => simp only at ht; subst ht; simp at hv
        | label hl => exact hl
        | _ => cases ht
      obtain ⟨o, ho, hk, hsp⟩ := hl
      rw [hst, docOccs_move] at ho
      obtain ⟨o0, ho0, rfl⟩ := List.mem_map.mp ho
      refine ⟨o0, ho0, hk, ?_⟩
      obtain ⟨j, u, hj, hsp0⟩ := hplace o0 ho0
      have : (layMove c (utf8Len T)).span o0.span = u.2 := by
        rw [hsp0]
        unfold Move.span
        simp only [layMove_fs_lt hj, layMove_fe_lt hj]
      have hu : u.2 = t.2 := this.symm.trans hsp
      have hjk : j = k := by
        rcases Nat.lt_trichotomy j k with hlt | rfl | hlt
        · have h1 := hlay.order j k _ _ hlt hj hck
          have h2 := hlay.span j _ hj
          rw [hu] at h1 h2
          omega
        · rfl
        · have h1 := hlay.order k j _ _ hlt hck hj
          have h2 := hlay.span k _ hck
          rw [hu] at h1
          omega
      rw [hsp0, hjk]
  obtain ⟨⟨e1, r1, _⟩, r2⟩ := parseTokens_renamed (G := otherNames c') (n' := c.length) q hnd rfl hlab
  rw [otherNames_counted hs] at r1
  have hmv' := parseTokens_move (F := layMove c' (utf8Len T')) (toks' := res'.tokens) (n' := utf8Len T') (by rw [← hlen]; exact layMove_eoi)
    (by rw [hn0']; exact hc'.trans (counted_map c' (utf8Len T')).symm) r1
  rw [p1'] at hmv'
  cases hmv'
  have hst' : res'.stmts = ((s0.getD []).map (otherNames c').stmt).map (layMove c' (utf8Len T')).stmt := by
    rw [p2']
    cases s0 <;> rfl
  constructor
  · rw [hst, hst', List.map_map, List.map_map, List.map_map]
    refine List.map_congr_left ?_
    intro x hx
    simp only [Function.comp, namelessStmt_move]
    have hval : ∀ n d, (.globalVar n d ∈ s0.getD [] ∨ .dbgAnnotation n d ∈ s0.getD []) → (d.map (otherNames c').tok).map namelessTok = d.map namelessTok := by
      intro n d hd
      rw [List.map_map]
      refine List.map_congr_left ?_
      intro t ht
      refine namelessTok_ren ?_
      intro m hm
      cases hv : (otherNames c').ren t with
      | none => rfl
      | some v =>
        exfalso
        obtain ⟨tk, sp⟩ := t
        simp only at hm
        subst hm
        have hin : (.ident m, sp) ∈ mentions (s0.getD []) := by
          rcases hd with hd | hd
          · exact List.mem_flatMap.mpr ⟨_, hd, List.mem_cons_of_mem _ ht⟩
          · exact List.mem_flatMap.mpr ⟨_, hd, List.mem_cons_of_mem _ ht⟩
        obtain ⟨o, ho, hk, hsp⟩ := hlab m sp v (hmen.subset hin) hv
        exact value_label ht hk (hnd.sublist (hmen.map _)) hd ho hsp
    cases x with
    | globalVar n d => simp only [namelessStmt, Renaming.stmt, hval n d (.inl hx)]; rfl
    | dbgAnnotation n d => simp only [namelessStmt, Renaming.stmt, hval n d (.inr hx)]; rfl
    | funcDecl s a d => simp only [namelessStmt, Renaming.stmt, namelessSig_ren]; simp [Function.comp_def, nameless_eq, Renaming.moved]
    | funcDependencies n ds => simp only [namelessStmt, Renaming.stmt]; simp [Function.comp_def, nameless_eq]
    | funcDef k s b =>
      simp only [namelessStmt, Renaming.stmt, namelessSig_ren, Renaming.body]
      congr 2
      rw [List.map_map]
      refine List.map_congr_left ?_
      intro y hy
      exact namelessBlock_ren fun i hi => r2 k s b hx y hy i hi
  · rw [hst, hst', docOccs_move, docOccs_move, docOccs_ren]
    generalize hD : docOccs 0 (s0.getD []) = D at hplace
    clear hD
    induction D with
    | nil => trivial
    | cons o D ih =>
      refine ⟨⟨rfl, rfl, rfl, ?_⟩, ih fun o ho => hplace o (List.mem_cons_of_mem _ ho)⟩
      obtain ⟨k, t, hk, hsp⟩ := hplace o (by simp)
      obtain ⟨t', ht', _⟩ := hget k t hk
      refine ⟨k, t, t', hk, ht', ?_, ?_⟩
      · simp only [plOcc, hsp, Move.span, layMove_fs_lt hk, layMove_fe_lt hk]
      · simp only [plOcc, Renaming.occ, hsp, Renaming.span, otherNames, id, Move.span, layMove_fs_lt ht', layMove_fe_lt ht']

end


/-! ### Concrete cases -/

section
attribute [local instance] asciiUnicode

/-- Checks `SameButName`. -/
def sameButName (labels : List Span) (t t' : Tok) : Bool :=
  match t.1, t'.1 with
  | .globalName _, .globalName _ | .localName _, .localName _ | .debugRef _, .debugRef _ => true
  | .ident n, .ident n' => decide (n = n') || decide (t.2 ∈ labels)
  | a, b => decide (a = b)

def sameTexts (labels : List Span) : List Tok → List Tok → Bool
  | [], [] => true
  | t :: l, t' :: l' => sameButName labels t t' && sameTexts labels l l'
  | _, _ => false

theorem sameButName_sound {labels : List Span} {L : Span → Prop} (hL : ∀ sp ∈ labels, L sp) {t t' : Tok} (h : sameButName labels t t' = true) : SameButName L t t' := by
  obtain ⟨a, sp⟩ := t
  obtain ⟨b, sp'⟩ := t'
  unfold sameButName at h
  split at h
  · rename_i h1 h2; simp only at h1 h2; subst h1 h2; exact .globalName
  · rename_i h1 h2; simp only at h1 h2; subst h1 h2; exact .localName
  · rename_i h1 h2; simp only at h1 h2; subst h1 h2; exact .debugRef
  · rename_i h1 h2
    simp only at h1 h2
    subst h1 h2
    simp only [Bool.or_eq_true, decide_eq_true_eq] at h
    rcases h with rfl | h
    · exact .same
    · exact .label (hL _ h)
  · simp only [decide_eq_true_eq] at h
    subst h
    exact .same

theorem sameTexts_sound {labels : List Span} {L : Span → Prop} (hL : ∀ sp ∈ labels, L sp) : ∀ {l l' : List Tok}, sameTexts labels l l' = true → OneByOne (SameButName L) l l'
  | [], [], _ => trivial
  | [], _ :: _, h => by cases h
  | _ :: _, [], h => by cases h
  | t :: l, t' :: l', h => by
    simp only [sameTexts, Bool.and_eq_true] at h
    exact ⟨sameButName_sound hL h.1, sameTexts_sound hL h.2⟩

/-- A document with a broken line, and the same one with other names and in another layout: the labels are called like the words of instructions. -/
def namedText : Str := c!"define void @f(int1 %a) {\nx:\n br int1 %a, x, y\ny:\n int32 %b = phi [x, %a]\n br x\n}\ndeclare )\n@v = 1\n"
def otherText : Str := c!"define void @phi(int1 %br) { # entry\nbr:\n br int1 %br, br, phi\nphi:\n  int32 %x = phi [ br , %br ]\n br br\n}\ndeclare )\n@f = 1\n"

/-- The labels of a document. -/
def labelsOf (res : ParserResult) : List Span := ((docOccs 0 res.stmts).filter fun o => decide (o.symbolKind = .label)).map (·.span)

theorem labelsOf_at {res : ParserResult} : ∀ sp ∈ labelsOf res, LabelAt res.stmts sp := by
  intro sp h
  obtain ⟨o, ho, rfl⟩ := List.mem_map.mp h
  obtain ⟨h1, h2⟩ := List.mem_filter.mp ho
  exact ⟨o, h1, of_decide_eq_true h2, rfl⟩

/-- `C101_names` applies to the two texts, whose names differ. -/
example : ∃ res res', parseFromStr namedText = .ok res ∧ parseFromStr otherText = .ok res' ∧ res.stmts.length = 2 ∧ (docOccs 0 res.stmts).length = 10 ∧
    res.errors ≠ [] ∧ (docOccs 0 res'.stmts).map (·.name) ≠ (docOccs 0 res.stmts).map (·.name) ∧
    res'.stmts.map namelessStmt = res.stmts.map namelessStmt ∧
    OneByOne (SameMention (codeTokens res.tokens) (codeTokens res'.tokens)) (docOccs 0 res.stmts) (docOccs 0 res'.stmts) := by
  generalize h : parseFromStr namedText = r
  generalize h' : parseFromStr otherText = r'
  have key : (match parseFromStr namedText, parseFromStr otherText with
    | .ok res, .ok res' => sameTexts (labelsOf res) (codeTokens res.tokens) (codeTokens res'.tokens) && decide (res.stmts.length = 2) &&
        decide ((docOccs 0 res.stmts).length = 10) && !res.errors.isEmpty && decide ((docOccs 0 res'.stmts).map (·.name) ≠ (docOccs 0 res.stmts).map (·.name))
    | _, _ => false) = true := by decide +kernel
  rw [h, h'] at key
  split at key
  · rename_i res res'
    simp only [Bool.and_eq_true, decide_eq_true_eq, Bool.not_eq_true'] at key
    obtain ⟨⟨⟨⟨k1, k2⟩, k3⟩, k4⟩, k5⟩ := key
    obtain ⟨a, b⟩ := C101_names h h' (sameTexts_sound labelsOf_at k1)
    refine ⟨res, res', rfl, rfl, k2, k3, ?_, k5, a, b⟩
    intro e
    rw [e] at k4
    cases k4
  · cases key

/-- The words of instructions that are no labels matter: `go` is no branch. -/
theorem C101_mnemonics_matter : ∃ T T' : Str, ∃ res res', parseFromStr T = .ok res ∧ parseFromStr T' = .ok res' ∧
    OneByOne (SameButName fun sp => sp = ⟨24, 26⟩) (codeTokens res.tokens) (codeTokens res'.tokens) ∧ res.tokens[10]? = some (.ident c!"br", ⟨24, 26⟩) ∧
    (docOccs 0 res'.stmts).length ≠ (docOccs 0 res.stmts).length := by
  refine ⟨c!"define void @f() {\nx:\n  br x\n}\n", c!"define void @f() {\nx:\n  go x\n}\n", ?_⟩
  generalize h : parseFromStr c!"define void @f() {\nx:\n  br x\n}\n" = r
  generalize h' : parseFromStr c!"define void @f() {\nx:\n  go x\n}\n" = r'
  have key : (match parseFromStr c!"define void @f() {\nx:\n  br x\n}\n", parseFromStr c!"define void @f() {\nx:\n  go x\n}\n" with
    | .ok res, .ok res' => sameTexts [⟨24, 26⟩] (codeTokens res.tokens) (codeTokens res'.tokens) && decide (res.tokens[10]? = some (.ident c!"br", ⟨24, 26⟩)) &&
        decide ((docOccs 0 res'.stmts).length ≠ (docOccs 0 res.stmts).length)
    | _, _ => false) = true := by decide +kernel
  rw [h, h'] at key
  split at key
  · rename_i res res'
    simp only [Bool.and_eq_true, decide_eq_true_eq] at key
    obtain ⟨⟨k1, k2⟩, k3⟩ := key
    exact ⟨res, res', rfl, rfl, sameTexts_sound (by simp) k1, k2, k3⟩
  · cases key

end
end HyperIR
