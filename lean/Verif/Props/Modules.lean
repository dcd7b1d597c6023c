import Verif.Proofs.Rope
import Verif.Proofs.ParserComplete
import Verif.Proofs.Natural
import Verif.Props.Parser
import Verif.Proofs.LexInsert

/-
Properties C09, C12 and C13: well-formed modules are parsed completely, comments (and spacing) do not
matter, and branch targets are extracted.  The specification of modules is `Spec/Module.lean`.
-/

namespace HyperIR
open Spec

section
variable [Unicode]

/-! ### C09 -/

/-- C09: a text that consists of the tokens of a well-formed module (plus comments, blanks and blank
lines) is parsed without error, and exactly the statements of the module are reported. -/
theorem C09_modules_parse {text : Str} {toks : List Tok} {as : List Stmt} {n : Nat} {ks : List Token}
    (hl : Lexes 0 text toks) (hne : toks ≠ [] ∨ text = []) (hp : Prints as ks) (hn : as = [] → n = 0)
    (hk : (nonComments toks).map Prod.fst = List.replicate n .newline ++ ks) :
    ∃ res, parseFromStr text = .ok res ∧ res.errors = [] ∧ res.tokens = toks ∧
      res.stmts.map stmtShape = as.map Stmt.shape := by
  obtain ⟨errs, h1, h2⟩ := tokenize_complete (lexes_lexesErr hl) hne
  obtain rfl := List.length_eq_zero_iff.mp h1
  obtain ⟨l1, l2, h3, h4, h5⟩ := List.map_eq_append_iff.mp hk
  have hnl : Newlines l1 := by
    intro t ht
    have : t.1 ∈ l1.map Prod.fst := List.mem_map_of_mem ht
    rw [h4] at this
    exact List.eq_of_mem_replicate this
  obtain ⟨ss, h6, h7⟩ := many_docItem_complete (eoi := { start := utf8Len text, stop := utf8Len text + 1 }) hp h5 hnl
    (by
      intro h
      rw [hn h] at h4
      exact List.map_eq_nil_iff.mp h4)
  rw [← h3] at h6
  have h8 := parseTokens_of_many h6
  refine ⟨{ tokens := toks, stmts := ss, errors := [] }, ?_, rfl, rfl, h7⟩
  unfold parseFromStr
  simp only [h2, h8]
  rfl

/-- C09 for a print-out: any layout of the module with blanks between the tokens and comments before
line ends. -/
theorem C09_print_parse {text : Str} {ptoks : List (Token × Str)} {as : List Stmt} {n : Nat} {ks : List Token}
    (hp : Prints as ks) (hn : as = [] → n = 0) (ht : Printed ptoks text)
    (hk : (ptoks.map Prod.fst).filter (fun t => decide (t ≠ .comment)) = List.replicate n .newline ++ ks) :
    ∃ res, parseFromStr text = .ok res ∧ res.errors = [] ∧ res.stmts.map stmtShape = as.map Stmt.shape := by
  obtain ⟨out, h1, h2, _⟩ := C05_print_tokenize ht
  have h3 : (nonComments out).map Prod.fst = List.replicate n .newline ++ ks := by
    rw [← hk, ← h2]
    unfold nonComments
    rw [List.filter_map]
    rfl
  obtain ⟨l1, l2, h3, h4, h5⟩ := List.map_eq_append_iff.mp h3
  have hnl : Newlines l1 := by
    intro t ht
    have : t.1 ∈ l1.map Prod.fst := List.mem_map_of_mem ht
    rw [h4] at this
    exact List.eq_of_mem_replicate this
  obtain ⟨ss, h6, h7⟩ := many_docItem_complete (eoi := { start := utf8Len text, stop := utf8Len text + 1 }) hp h5 hnl
    (by
      intro h
      rw [hn h] at h4
      exact List.map_eq_nil_iff.mp h4)
  rw [← h3] at h6
  have h8 := parseTokens_of_many h6
  refine ⟨{ tokens := out, stmts := ss, errors := [] }, ?_, rfl, h7⟩
  unfold parseFromStr
  simp only [h1, h8]
  rfl

/-! ### C13 -/

omit [Unicode] in
theorem stmtShape_refs {s : Statement} {a : Stmt} (h : stmtShape s = a.shape) :
    (instructionsOf s).map (fun i => i.basicBlockRefs.map Prod.fst) = a.instrs.map (fun i => i.form.targets) := by
  cases s <;> cases a <;> simp only [stmtShape, Stmt.shape] at h <;> try (cases h; done)
  all_goals try rfl
  rename_i k sig b sg f bs
  simp only [StmtShape.funcDef.injEq] at h
  have h2 := congrArg (List.flatMap (fun b : BlockShape => b.instrs.map InstrShape.refs)) h.2
  simp only [instructionsOf, Stmt.instrs, List.map_append, List.map_flatMap]
  have e1 : List.flatMap (fun b : BlockShape => b.instrs.map InstrShape.refs) (List.map blockShape b.basicBlocks)
      = b.basicBlocks.flatMap (fun b => b.instructions.map (fun i => i.basicBlockRefs.map Prod.fst)) := by
    rw [List.flatMap_map]
    congr 1
    funext b
    simp [blockShape, instrShape, Function.comp_def]
  rw [e1] at h2
  rw [h2, List.flatMap_append, List.flatMap_map]
  congr 1
  · by_cases hf : f = []
    · simp [hf]
    · simp [hf, Instr.shape, Function.comp_def]
  · congr 1
    funext b
    simp [Block.shape, Instr.shape, Function.comp_def]

omit [Unicode] in
theorem shapes_refs : ∀ {ss : List Statement} {as : List Stmt}, ss.map stmtShape = as.map Stmt.shape →
    (ss.flatMap instructionsOf).map (fun i => i.basicBlockRefs.map Prod.fst)
      = (as.flatMap Stmt.instrs).map (fun i => i.form.targets)
  | [], [], _ => rfl
  | [], _ :: _, h => by cases h
  | _ :: _, [], h => by cases h
  | s :: ss, a :: as, h => by
    simp only [List.map_cons, List.cons.injEq] at h
    simp only [List.flatMap_cons, List.map_append, stmtShape_refs h.1, shapes_refs h.2]

omit [Unicode] in
theorem instr_refs_mentioned {s : Statement} {i : Instruction} {r} (hi : i ∈ instructionsOf s)
    (hr : r ∈ i.basicBlockRefs) : (Token.ident r.1, r.2) ∈ stmtMentions s := by
  cases s <;> simp only [instructionsOf] at hi <;> try (cases hi; done)
  rename_i body
  obtain ⟨b, hb, hi⟩ := List.mem_flatMap.mp hi
  have h1 : (Token.ident r.1, r.2) ∈ blockMentions b := by
    refine List.mem_append.mpr (.inr (List.mem_flatMap.mpr ⟨i, hi, ?_⟩))
    refine List.mem_append.mpr (.inl (List.mem_append.mpr (.inr ?_)))
    exact List.mem_map_of_mem (f := identTok) hr
  have h2 : (Token.ident r.1, r.2) ∈ bodyMentions body := by
    refine List.mem_cons_of_mem _ (List.mem_append.mpr (.inl (List.mem_flatMap.mpr ⟨b, hb, h1⟩)))
  exact List.mem_append.mpr (.inr h2)

/-- C13: in a well-formed module the labels named by the branching and phi instructions - and nothing
else - are reported as basic block references, in order, whatever the operands and however many cases;
each reference's range is the place where the label is spelled. -/
theorem C13_branch_targets {text : Str} {toks : List Tok} {as : List Stmt} {n : Nat} {ks : List Token}
    (hl : Lexes 0 text toks) (hne : toks ≠ [] ∨ text = []) (hp : Prints as ks) (hn : as = [] → n = 0)
    (hk : (nonComments toks).map Prod.fst = List.replicate n .newline ++ ks) :
    ∃ res, parseFromStr text = .ok res ∧
      (res.stmts.flatMap instructionsOf).map (fun i => i.basicBlockRefs.map Prod.fst)
        = (as.flatMap Stmt.instrs).map (fun i => i.form.targets) ∧
      ∀ s ∈ res.stmts, ∀ i ∈ instructionsOf s, ∀ r ∈ i.basicBlockRefs, slice text r.2 = r.1 := by
  obtain ⟨res, h1, h2, h3, h4⟩ := C09_modules_parse hl hne hp hn hk
  refine ⟨res, h1, shapes_refs h4, ?_⟩
  intro s hs i hi r hr
  have h5 := (C07_tree_mentions_tokens h1 s hs _ (instr_refs_mentioned hi hr)).1
  have h6 := (C03_token_spelling h1 h2 _ _ h5).1
  generalize slice text r.2 = w at h6
  generalize hr : Token.ident r.1 = k at h6
  cases h6 <;> simp_all

/-! ### C12 -/

omit [Unicode] in
theorem exists_map : ∀ {l l' : List Nat} (_ : l.length = l'.length) (_ : l.Pairwise (· ≠ ·)) (a b : Nat) (_ : a ∉ l),
    ∃ g : Nat → Nat, l.map g = l' ∧ g a = b
  | [], [], _, _, _, b, _ => ⟨fun _ => b, rfl, rfl⟩
  | [], _ :: _, h, _, _, _, _ => by simp at h
  | _ :: _, [], h, _, _, _, _ => by simp at h
  | x :: l, y :: l', h, hp, a, b, ha => by
    simp only [List.length_cons, Nat.add_right_cancel_iff] at h
    simp only [List.pairwise_cons, List.mem_cons, not_or] at hp ha
    obtain ⟨g, h1, h2⟩ := exists_map h hp.2 a b ha.2
    refine ⟨fun n => if n = x then y else g n, ?_, ?_⟩
    · simp only [List.map_cons, if_true, List.cons.injEq, true_and]
      rw [← h1]
      refine List.map_congr_left ?_
      intro n hn
      have := hp.1 n hn
      simp [this.symm]
    · simp [ha.1, h2]

omit [Unicode] in
theorem starts_distinct {l : List Tok} (h : WellOrdered l) : (l.map fun t => t.2.start).Pairwise (· ≠ ·) := by
  rw [List.pairwise_map]
  have := List.pairwise_map.mp h.1
  refine List.Pairwise.imp_of_mem ?_ this
  intro a b ha _ hab
  have := h.2 a ha
  omega

omit [Unicode] in
theorem stops_distinct {l : List Tok} (h : WellOrdered l) : (l.map fun t => t.2.stop).Pairwise (· ≠ ·) := by
  rw [List.pairwise_map]
  have := List.pairwise_map.mp h.1
  refine List.Pairwise.imp_of_mem ?_ this
  intro a b ha hb hab
  have := h.2 b hb
  omega

omit [Unicode] in
theorem parseTokens_move {F : Move} {n n' : Nat} {toks toks' : List Tok}
    (he : F.span { start := n, stop := n + 1 } = { start := n', stop := n' + 1 })
    (ht : nonComments toks' = F.toks (nonComments toks)) {ss errs}
    (h : parseTokens n toks = .ok (ss, errs)) :
    parseTokens n' toks' = .ok (ss.map (List.map F.stmt), errs.map F.err) := by
  unfold parseTokens parseRecovery at h ⊢
  unfold nonComments at ht
  rw [ht, ← he, parser_natural]
  revert h
  cases parser { start := n, stop := n + 1 } (List.filter (fun t => decide (t.fst ≠ Token.comment)) toks) with
  | panic => intro h; cases h
  | ok es x alt r => intro h; cases h; rfl
  | err es e =>
    intro h
    cases h
    simp [Move.res]

theorem tokens_of_tokenize {src : Str} {res : ParserResult} {toks errs} (ht : tokenize src = .ok (some toks, errs))
    (h : parseFromStr src = .ok res) : res.tokens = toks := by
  rcases parseFromStr_tokens h with ⟨_, ⟨e, h7⟩, _⟩ | ⟨e, h7⟩
  · rw [ht] at h7; cases h7
  · rw [ht] at h7; cases h7; rfl

theorem parseFromStr_parseTokens {src : Str} {res : ParserResult} (h : parseFromStr src = .ok res) :
    ∃ stmts errs, parseTokens (utf8Len src) res.tokens = .ok (stmts, errs) ∧ res.stmts = stmts.getD [] := by
  rcases parseFromStr_inv h with ⟨h1, h2, _⟩ | ⟨stmts, errs, _, _, h1, h2, _⟩
  · refine ⟨some [], [], ?_, by rw [h2]; rfl⟩
    rw [h1]
    exact parseTokens_of_many (Many.nil docItem_nil)
  · exact ⟨stmts, errs, h1, h2⟩

theorem stmts_move {src src' : Str} {res res' : ParserResult} {F : Move}
    (h : parseFromStr src = .ok res) (h' : parseFromStr src' = .ok res')
    (hs : F.fs (utf8Len src) = utf8Len src') (he : F.fe (utf8Len src + 1) = utf8Len src' + 1)
    (ht : nonComments res'.tokens = (nonComments res.tokens).map F.spanned) :
    res'.stmts = res.stmts.map F.stmt := by
  obtain ⟨ss, errs, h1, h2⟩ := parseFromStr_parseTokens h
  obtain ⟨ss', errs', h3, h4⟩ := parseFromStr_parseTokens h'
  have := parseTokens_move (F := F) (n' := utf8Len src') (by simp [Move.span, hs, he]) ht h1
  rw [h3] at this
  injection this with this
  injection this with h5 h6
  rw [h2, h4, h5]
  cases ss <;> rfl

/-- C12: comments - and blanks - do not matter to the parser.  If two texts have the same tokens except
for comments, the same statements are reported; only the positions differ, and they differ exactly as the
positions of the tokens do. -/
theorem C12_comments_ignored {src src' : Str} {res res' : ParserResult}
    (h : parseFromStr src = .ok res) (h' : parseFromStr src' = .ok res')
    (hk : (nonComments res'.tokens).map Prod.fst = (nonComments res.tokens).map Prod.fst) :
    ∃ F : Move, nonComments res'.tokens = (nonComments res.tokens).map F.spanned ∧
      res'.stmts = res.stmts.map F.stmt := by
  have hw : WellOrdered (nonComments res.tokens) := (tokens_wellOrdered h).sublist List.filter_sublist
  have hin : ∀ t ∈ nonComments res.tokens, t.2.start < utf8Len src ∧ t.2.stop ≤ utf8Len src := by
    intro t ht
    have h1 := (C02_token_spans h).1 t (List.filter_sublist.subset ht)
    have h2 := length_le_utf8Len src
    exact ⟨Nat.lt_of_lt_of_le h1.1 (Nat.le_trans h1.2 h2), Nat.le_trans h1.2 h2⟩
  have hlen : (nonComments res.tokens).length = (nonComments res'.tokens).length := by
    have := congrArg List.length hk
    simpa using this.symm
  obtain ⟨fs, f1, f2⟩ := exists_map (l := (nonComments res.tokens).map fun t => t.2.start)
    (l' := (nonComments res'.tokens).map fun t => t.2.start) (by simpa using hlen) (starts_distinct hw)
    (utf8Len src) (utf8Len src') (by
      intro h
      obtain ⟨t, h1, h2⟩ := List.mem_map.mp h
      have := (hin t h1).1
      omega)
  obtain ⟨fe, e1, e2⟩ := exists_map (l := (nonComments res.tokens).map fun t => t.2.stop)
    (l' := (nonComments res'.tokens).map fun t => t.2.stop) (by simpa using hlen) (stops_distinct hw)
    (utf8Len src + 1) (utf8Len src' + 1) (by
      intro h
      obtain ⟨t, h1, h2⟩ := List.mem_map.mp h
      have := (hin t h1).2
      omega)
  have ht : nonComments res'.tokens = (nonComments res.tokens).map (Move.mk fs fe).spanned := by
    clear hw hin
    generalize nonComments res.tokens = l at *
    generalize nonComments res'.tokens = l' at *
    induction l generalizing l' with
    | nil => cases l' with
      | nil => rfl
      | cons => simp at hlen
    | cons x l ih => cases l' with
      | nil => simp at hlen
      | cons y l' =>
        simp only [List.map_cons, List.cons.injEq] at hk f1 e1 ⊢
        refine ⟨?_, ih _ hk.2 (by simpa using hlen) f1.2 e1.2⟩
        obtain ⟨k, sp⟩ := y
        obtain ⟨k', sp'⟩ := x
        simp only [Move.spanned, Move.span, Prod.mk.injEq]
        exact ⟨hk.1, by rw [f1.1, e1.1]⟩
  exact ⟨⟨fs, fe⟩, ht, stmts_move h h' f2 e2 ht⟩

/-- C12 on the level of text: writing a comment at the end of a line (outside of all tokens, not right
behind another comment) of a text without lexical errors leaves the reported statements as they are, except
that the positions behind the comment move by its length. -/
theorem C12_insert_comment {a b v : Str} {res res' : ParserResult} {toks : List Tok}
    (hb : ∀ c cs, b = c :: cs → c = '\n') (hv : '\n' ∉ v)
    (ht : tokenize (a ++ b) = .ok (some toks, []))
    (hout : ∀ t ∈ toks, t.2.stop ≤ a.length ∨ a.length ≤ t.2.start)
    (hcm : ∀ t ∈ toks, t.1 = .comment → t.2.stop ≠ a.length)
    (h : parseFromStr (a ++ b) = .ok res) (h' : parseFromStr (a ++ '#' :: v ++ b) = .ok res') :
    ∃ F : Move, (∀ n, n < a.length → F.fs n = n) ∧ (∀ n, n ≤ a.length → F.fe n = n) ∧
      (∀ n, a.length ≤ n → n < (a ++ b).length → F.fs n = n + (v.length + 1)) ∧
      (∀ n, a.length < n → n ≤ (a ++ b).length → F.fe n = n + (v.length + 1)) ∧
      res'.stmts = res.stmts.map F.stmt := by
  have hsound := tokenize_sound ht
  obtain ⟨ta, tb, h1, h2, h3, h4⟩ := lexes_insert (lexesErr_lexes hsound rfl) rfl hb hv
    (by simpa using hout) (by simpa using hcm)
  obtain ⟨errs, h5, h6⟩ := tokenize_complete (lexes_lexesErr h4) (.inl (by simp))
  have hres := tokens_of_tokenize ht h
  have hres' := (tokens_of_tokenize h6 h').symm
  have hl1 := length_le_utf8Len (a ++ b)
  let F : Move :=
    { fs := fun n => if n = utf8Len (a ++ b) then utf8Len (a ++ '#' :: v ++ b)
        else if n < a.length then n else n + (v.length + 1)
      fe := fun n => if n = utf8Len (a ++ b) + 1 then utf8Len (a ++ '#' :: v ++ b) + 1
        else if n ≤ a.length then n else n + (v.length + 1) }
  have hlen : a.length ≤ (a ++ b).length := by simp
  have f1 : ∀ n, n < a.length → F.fs n = n := by
    intro n hn
    have : n ≠ utf8Len (a ++ b) := by omega
    simp only [F, this, if_false, hn, if_true]
  have f2 : ∀ n, n ≤ a.length → F.fe n = n := by
    intro n hn
    have : n ≠ utf8Len (a ++ b) + 1 := by omega
    simp only [F, this, if_false, hn, if_true]
  have f3 : ∀ n, a.length ≤ n → n < (a ++ b).length → F.fs n = n + (v.length + 1) := by
    intro n hn hn2
    have : n ≠ utf8Len (a ++ b) := by omega
    have h' : ¬ n < a.length := by omega
    simp only [F, this, if_false, h']
  have f4 : ∀ n, a.length < n → n ≤ (a ++ b).length → F.fe n = n + (v.length + 1) := by
    intro n hn hn2
    have : n ≠ utf8Len (a ++ b) + 1 := by omega
    have h' : ¬ n ≤ a.length := by omega
    simp only [F, this, if_false, h']
  have hsp := (lexesErr_spans hsound).1
  refine ⟨F, f1, f2, f3, f4, stmts_move h h' (by simp [F]) (by simp [F]) ?_⟩
  rw [hres, ← hres']
  have e1 : ta.map F.spanned = ta := by
    have : ∀ t ∈ ta, F.spanned t = t := by
      rintro ⟨k, sp⟩ ht
      have h5 := h2 _ ht
      have h6 := hsp (k, sp) (by rw [h1]; simp [ht])
      simp only at h5 h6
      simp only [Move.spanned, Move.span, f1 _ (show sp.start < a.length by omega), f2 _ (show sp.stop ≤ a.length by omega)]
    rw [List.map_congr_left this, List.map_id']
  have e2 : tb.map F.spanned = tb.map (shiftTok (v.length + 1)) := by
    refine List.map_congr_left ?_
    rintro ⟨k, sp⟩ ht
    have h5 := h3 _ ht
    have h6 := hsp (k, sp) (by rw [h1]; simp [ht])
    simp only at h5 h6
    simp only [Move.spanned, Move.span, shiftTok, f3 _ (show a.length ≤ sp.start by omega) (by omega),
      f4 _ (show a.length < sp.stop by omega) (by omega)]
  have e3 : ∀ l : List Tok, (nonComments l).map F.spanned = nonComments (l.map F.spanned) := by
    intro l
    unfold nonComments
    rw [List.filter_map]
    rfl
  rw [e3, h1, List.map_append, e1, e2]
  unfold nonComments
  simp

end

/-! ### Concrete cases -/

section
attribute [local instance] asciiUnicode

/-- A module with every kind of statement and instruction. -/
def exampleModule : List Stmt :=
  [.globalVar c!"@g" [.type c!"int32", .num c!"5"],
   .funcDecl ⟨[c!"pure"], c!"void", c!"@h", [(c!"int64", c!"%a"), (c!"ptr", c!"%b")]⟩ (some c!"1f") (some c!"!1"),
   .funcDef ⟨[], c!"int32", c!"@f", [(c!"int32", c!"%a")]⟩
     [⟨none, .br c!"entry", none⟩]
     [⟨c!"entry", [⟨some (c!"int32", c!"%x"),
          .overflowBr c!"saddbr" [.type c!"int32", .localName c!"%a", .punct ',', .num c!"1"] c!"next" c!"ovf", some c!"!1"⟩]⟩,
      ⟨c!"next", [⟨none, .condBr (.localName c!"%c") c!"exit" c!"ovf", none⟩]⟩,
      ⟨c!"ovf", [⟨none, .switch [.type c!"int32", .localName c!"%a"] c!"exit"
          [(c!"int32", .num c!"1", c!"next"), (c!"int32", .num c!"2", c!"ovf")], none⟩]⟩,
      ⟨c!"exit", [⟨some (c!"int32", c!"%p"),
          .phi [(c!"next", [.num c!"0"]), (c!"ovf", [.localName c!"%x"])], none⟩,
        ⟨none, .other c!"return" [.type c!"int32", .localName c!"%p"], none⟩]⟩],
   .funcDependencies c!"@f" [c!"@g", c!"@h"],
   .dbgAnnotation c!"!1" [.str c!"a.cpp:3"]]

def exampleModuleText : Str :=
  c!"# a module\n\n@g = int32 5\ndeclare pure void @h(int64 %a, ptr %b) = 0x1f !1\n\ndefine int32 @f(int32 %a) { # f\nbr entry\nentry:\nint32 %x = saddbr int32 %a, 1, cont=next, overflow=ovf !1\n\nnext:\nbr int1 %c, exit, ovf\novf:\nswitch int32 %a, default=exit, int32 1 label=next, int32 2 label=ovf\nexit:\nint32 %p = phi [next, 0], [ovf, %x]\nreturn int32 %p\n}\n@f depends on @g, @h\n!1 = \"a.cpp:3\" # end"

def exampleModuleTokens : List Tok :=
  match tokenize exampleModuleText with
  | .ok (some toks, _) => toks
  | _ => []

theorem exampleModule_lexes : Lexes 0 exampleModuleText exampleModuleTokens :=
  lexesErr_lexes (tokenize_sound (errs := []) (by decide +kernel)) rfl

/-- `C09` and `C13` apply to this text. -/
theorem exampleModule_prints : ∃ ks, Prints exampleModule ks ∧
    (nonComments exampleModuleTokens).map Prod.fst = List.replicate 2 .newline ++ ks := by
  refine ⟨_, Prints.cons (n := 0) (.globalVar ?_) (.cons (n := 1) .funcDecl (.cons (n := 0)
    (.funcDef (n := 0) (.cons (n := 0) ?_ .nil)
      (.cons (n := 0) (.cons (n := 1) ?_ .nil) (.cons (n := 0) (.cons (n := 0) ?_ .nil)
        (.cons (n := 0) (.cons (n := 0) ?_ .nil) (.cons (n := 0) (.cons (n := 0) ?_ (.cons (n := 0) ?_ .nil)) .nil)))))
    (.cons (n := 0) .funcDependencies (.last (.dbgAnnotation ?_))))), ?_⟩
  · decide
  · trivial
  · exact ⟨⟨c!"sadd", rfl⟩, .tok (by decide) (by decide) (.tok (by decide) (by decide)
      (.comma (by decide) (by decide) .nil))⟩
  · simp [Form.Good]
  · exact ⟨.tok (by decide) (by decide) (.tok (by decide) (by decide) .nil), by decide⟩
  · simp [Form.Good]
  · refine ⟨?_, by decide, by decide, by simp, by decide⟩
    rintro ⟨p, h⟩
    have := congrArg (fun l => l.reverse.head?) h
    simp at this
  · decide
  · decide +kernel

example : ∃ res, parseFromStr exampleModuleText = .ok res ∧ res.errors = [] ∧ res.tokens = exampleModuleTokens ∧
    res.stmts.map stmtShape = exampleModule.map Stmt.shape := by
  obtain ⟨ks, h1, h2⟩ := exampleModule_prints
  exact C09_modules_parse exampleModule_lexes (.inl (by decide +kernel)) h1 (by intro h; cases h) h2

example : (exampleModule.flatMap Stmt.instrs).map (fun i => i.form.targets) =
    [[c!"entry"], [c!"next", c!"ovf"], [c!"exit", c!"ovf"], [c!"exit", c!"next", c!"ovf"], [c!"next", c!"ovf"], []] := by
  decide

/-- `C12_insert_comment` applies: a comment behind `br next` in the middle of a document. -/
example : ∃ toks, tokenize (c!"define void @f() {\na:\n br next" ++ c!"\nnext:\n ret\n}") = .ok (some toks, []) ∧
    (∀ t ∈ toks, t.2.stop ≤ (c!"define void @f() {\na:\n br next").length ∨
      (c!"define void @f() {\na:\n br next").length ≤ t.2.start) ∧
    (∀ t ∈ toks, t.1 = .comment → t.2.stop ≠ (c!"define void @f() {\na:\n br next").length) := by
  refine ⟨_, rfl, ?_, ?_⟩ <;> decide +kernel

/-- A module without statements must not be laid out as line ends or blanks: both are reported as errors. -/
theorem C09_refuted_blank :
    (match parseFromStr c!"\n" with | .ok res => decide (res.stmts = [] ∧ res.errors.length = 1) | .panic => false) = true ∧
    (match parseFromStr c!" " with | .ok res => decide (res.stmts = [] ∧ res.errors.length = 1) | .panic => false) = true := by
  decide +kernel

end
end HyperIR
