import Verif.Props.Agreement
import Verif.Props.Compose
import Verif.Spec.Join
import Verif.Proofs.MovedIndex

/-! The symbol occurrences of two documents one after the other. -/

namespace HyperIR
open Spec

/-! ### Statements -/

/-- An occurrence in the second document, seen from the whole: `k` characters further down, functions numbered from `m` on. -/
def belowOcc (k m : Nat) (o : SymbolOccurrence) : SymbolOccurrence :=
  { o with span := movedSpan k o.span, funcBodyId := o.funcBodyId.map (· + m) }

theorem funcCount_append (a b : List Statement) : funcCount (a ++ b) = funcCount a + funcCount b := by
  induction a with
  | nil => simp [funcCount]
  | cons s a ih => cases s <;> simp only [List.cons_append, funcCount, ih] <;> omega

theorem docFuncs_append (a b : List Statement) : docFuncs (a ++ b) = docFuncs a ++ docFuncs b := by
  induction a with
  | nil => rfl
  | cons s a ih => cases s <;> simp [docFuncs, ih]

theorem docFuncs_length (a : List Statement) : (docFuncs a).length = funcCount a := by
  induction a with
  | nil => rfl
  | cons s a ih => cases s <;> simp [docFuncs, funcCount, ih]

section
variable {k m : Nat}

theorem occ_below {sk : SymbolKind} {ud : UseDefKind} {f : Option Nat} {s : Spanned Str} :
    occ sk ud (f.map (· + m)) (moved k s) = belowOcc k m (occ sk ud f s) := rfl

theorem instrOccs_below {i : Nat} {ins : Instruction} : instrOccs (i + m) (movedInstr k ins) = (instrOccs i ins).map (belowOcc k m) := by
  unfold instrOccs movedInstr
  cases ins.assignmentTarget <;> simp [← occ_below]

theorem blockOccs_below {i : Nat} {b : BasicBlock} : blockOccs (i + m) (movedBlock k b) = (blockOccs i b).map (belowOcc k m) := by
  unfold blockOccs movedBlock
  rw [List.map_append, List.map_flatMap, List.flatMap_map]
  congr 1
  · cases b.label <;> simp [← occ_below]
  · congr 1
    funext ins
    exact instrOccs_below

theorem stmtOccs_below {i : Nat} {s : Statement} : stmtOccs (i + m) (movedStmt k s) = (stmtOccs i s).map (belowOcc k m) := by
  cases s with
  | funcDef kw sig body =>
    simp only [stmtOccs, movedStmt, List.map_cons, funcOccs, List.map_append, List.map_flatMap, movedSig, movedBody, List.flatMap_map, List.map_map]
    refine congr (congrArg List.cons rfl) (congr (congrArg HAppend.hAppend ?_) ?_)
    · congr 1
    · congr 1
      funext b
      exact blockOccs_below
  | _ => simp [stmtOccs, movedStmt, movedSig, ← occ_below]

theorem funcCount_moved (ss : List Statement) : funcCount (ss.map (movedStmt k)) = funcCount ss := by
  induction ss with
  | nil => rfl
  | cons s ss ih => cases s <;> simp [funcCount, movedStmt, ih]

theorem docOccs_below (i : Nat) (ss : List Statement) : docOccs (i + m) (ss.map (movedStmt k)) = (docOccs i ss).map (belowOcc k m) := by
  induction ss generalizing i with
  | nil => rfl
  | cons s ss ih =>
    rw [List.map_cons, docOccs, docOccs, List.map_append, stmtOccs_below, ← ih,
      show funcCount [movedStmt k s] = funcCount [s] from funcCount_moved (k := k) [s]]
    congr 2
    omega

def movedFunc (k : Nat) (f : Spanned Str × Span × List BasicBlock) : Spanned Str × Span × List BasicBlock :=
  (moved k f.1, movedSpan k f.2.1, f.2.2.map (movedBlock k))

theorem docFuncs_moved (ss : List Statement) : docFuncs (ss.map (movedStmt k)) = (docFuncs ss).map (movedFunc k) := by
  induction ss with
  | nil => rfl
  | cons s ss ih => cases s <;> simp [docFuncs, movedStmt, ih, movedFunc, movedSpan, movedBody, movedSig]

theorem isFunction_moved {ss : List Statement} {n : Str} : IsFunction (ss.map (movedStmt k)) n ↔ IsFunction ss n := by
  unfold IsFunction
  have := docOccs_below (k := k) (m := 0) 0 ss
  rw [this]
  simp only [List.mem_map]
  constructor
  · rintro ⟨_, ⟨o, h, rfl⟩, h2⟩
    exact ⟨o, h, h2⟩
  · rintro ⟨o, h, h2⟩
    exact ⟨_, ⟨o, h, rfl⟩, h2⟩

theorem isGlobalVar_moved {ss : List Statement} {n : Str} : IsGlobalVar (ss.map (movedStmt k)) n ↔ IsGlobalVar ss n := by
  unfold IsGlobalVar
  have := docOccs_below (k := k) (m := 0) 0 ss
  rw [this]
  simp only [List.mem_map]
  constructor
  · rintro ⟨_, ⟨o, h, rfl⟩, h2⟩
    exact ⟨o, h, h2⟩
  · rintro ⟨o, h, h2⟩
    exact ⟨_, ⟨o, h, rfl⟩, h2⟩

end

theorem docOccs_kinds {i j : Nat} {ss : List Statement} {k : SymbolKind} {n : Str}
    (h : ∃ o ∈ docOccs i ss, o.symbolKind = k ∧ o.name = n) : ∃ o ∈ docOccs j ss, o.symbolKind = k ∧ o.name = n := by
  have h0 := docOccs_below (k := 0) (m := i) 0 ss
  have h1 := docOccs_below (k := 0) (m := j) 0 ss
  have hid : ss.map (movedStmt 0) = ss := by
    have e : ∀ {α : Type}, (moved (α := α) 0) = id := by intro α; funext x; rfl
    have e2 : movedSpan 0 = id := rfl
    have e3 : movedInstr 0 = id := by funext x; simp [movedInstr, e, e2]
    have e4 : movedBlock 0 = id := by funext x; simp [movedBlock, e, e2, e3]
    have e5 : movedBody 0 = id := by funext x; simp [movedBody, e2, e4]
    have e6 : movedSig 0 = id := by funext x; simp [movedSig, e]
    have e7 : movedStmt 0 = id := by funext x; cases x <;> simp [movedStmt, e, e2, e5, e6]
    rw [e7, List.map_id]
  rw [hid, Nat.zero_add] at h0 h1
  rw [h0] at h
  rw [h1]
  simp only [List.mem_map] at h ⊢
  obtain ⟨_, ⟨o, ho, rfl⟩, h2⟩ := h
  exact ⟨_, ⟨o, ho, rfl⟩, h2⟩

theorem isFunction_append {a b : List Statement} {n : Str} : IsFunction (a ++ b) n ↔ IsFunction a n ∨ IsFunction b n := by
  unfold IsFunction
  rw [docOccs_append]
  simp only [List.mem_append, or_and_right, exists_or]
  refine or_congr Iff.rfl ⟨docOccs_kinds, docOccs_kinds⟩

theorem isGlobalVar_append {a b : List Statement} {n : Str} : IsGlobalVar (a ++ b) n ↔ IsGlobalVar a n ∨ IsGlobalVar b n := by
  unfold IsGlobalVar
  rw [docOccs_append]
  simp only [List.mem_append, or_and_right, exists_or]
  refine or_congr Iff.rfl ⟨docOccs_kinds, docOccs_kinds⟩

/-! ### Kinds of global names -/

/-- The kind that an occurrence of the name has if exactly the given names are functions. -/
def recolour (isFun : Str → Prop) [DecidablePred isFun] (o : SymbolOccurrence) : SymbolOccurrence :=
  match o.symbolKind with
  | .function | .globalVar => { o with symbolKind := if isFun o.name then .function else .globalVar }
  | _ => o

section
variable {f g : Str → Prop} [DecidablePred f] [DecidablePred g] {o o' : SymbolOccurrence}

theorem recolour_name : (recolour f o).name = o.name := by unfold recolour; split <;> rfl
theorem recolour_span : (recolour f o).span = o.span := by unfold recolour; split <;> rfl
theorem recolour_use : (recolour f o).useDef = o.useDef := by unfold recolour; split <;> rfl
theorem recolour_body : (recolour f o).funcBodyId = o.funcBodyId := by unfold recolour; split <;> rfl

theorem recolour_recolour : recolour f (recolour g o) = recolour f o := by
  obtain ⟨sp, ud, k, n, b⟩ := o
  cases k with
  | function => unfold recolour; by_cases h : g n <;> simp only [h, if_true, if_false]
  | globalVar => unfold recolour; by_cases h : g n <;> simp only [h, if_true, if_false]
  | _ => rfl

theorem recolour_same (h : SameSymbol o o') : SameSymbol (recolour f o) (recolour f o') := by
  obtain ⟨sp, ud, k, n, b⟩ := o
  obtain ⟨sp', ud', k', n', b'⟩ := o'
  obtain ⟨h1, h2, h3⟩ := h
  simp only at h1 h2 h3
  subst h1 h2 h3
  cases k <;> simp [recolour, SameSymbol]

theorem recolour_below {k m : Nat} : recolour f (belowOcc k m o) = belowOcc k m (recolour f o) := by
  obtain ⟨sp, ud, sk, n, b⟩ := o
  cases sk <;> rfl

end

theorem recolour_doc {ss : List Statement} {o : SymbolOccurrence} (ho : o ∈ docOccs 0 ss) (hamb : ¬ Ambiguous ss o.name) :
    recolour (IsFunction ss) o = o := by
  obtain ⟨sp, ud, k, n, b⟩ := o
  cases k with
  | function =>
    have : IsFunction ss n := ⟨_, ho, rfl, rfl⟩
    simp [recolour, this]
  | globalVar =>
    have h1 : IsGlobalVar ss n := ⟨_, ho, rfl, rfl⟩
    have : ¬ IsFunction ss n := fun h => hamb ⟨h, h1⟩
    simp [recolour, this]
  | _ => rfl

theorem tokenUse_recolour {ss : List Statement} {g : Str → Bool} {fa : Nat → Option Nat} {t : Spanned Token} :
    tokenUse (fun n => decide (IsFunction ss n)) fa t = (tokenUse g fa t).map (recolour (IsFunction ss)) := by
  unfold tokenUse
  cases t.1 with
  | globalName n =>
    simp only [decide_eq_true_eq, Option.map_some]
    congr 1
    cases g n <;> simp [occ, recolour]
  | debugRef n => rfl
  | localName n => cases fa t.2.start <;> rfl
  | _ => rfl

theorem recolour_occurs {toks : List Tok} {ss : List Statement} {o : SymbolOccurrence} (ho : Occurs toks ss o) (hamb : ¬ Ambiguous ss o.name) :
    recolour (IsFunction ss) o = o := by
  rcases ho with ho | ⟨⟨t, _, ht⟩, _⟩
  · exact recolour_doc ho hamb
  · rw [tokenUse_recolour (g := fun _ => false)] at ht
    cases h : tokenUse (fun _ => false) (functionAt ss) t with
    | none => rw [h] at ht; cases ht
    | some o' =>
      rw [h] at ht
      simp only [Option.map_some, Option.some.injEq] at ht
      rw [← ht, recolour_recolour]

/-! ### Two documents -/

section
variable [Unicode] {A B : Str} {resA resB res : ParserResult}

/-- `res` is what is read in `A` followed by `B`. -/
structure Joined (A B : Str) (resA resB res : ParserResult) : Prop where
  first : parseFromStr A = .ok resA
  second : parseFromStr B = .ok resB
  both : parseFromStr (A ++ B) = .ok res
  tokens : res.tokens = resA.tokens ++ resB.tokens.map (moved A.length)
  stmts : res.stmts = resA.stmts ++ resB.stmts.map (movedStmt A.length)
  under : Under A B

theorem Joined.isFunction (j : Joined A B resA resB res) {n : Str} : IsFunction res.stmts n ↔ IsFunction resA.stmts n ∨ IsFunction resB.stmts n := by
  rw [j.stmts, isFunction_append, isFunction_moved]

theorem Joined.isGlobalVar (j : Joined A B resA resB res) {n : Str} : IsGlobalVar res.stmts n ↔ IsGlobalVar resA.stmts n ∨ IsGlobalVar resB.stmts n := by
  rw [j.stmts, isGlobalVar_append, isGlobalVar_moved]

theorem Joined.clearA (j : Joined A B resA resB res) {n : Str} (h : ¬ Ambiguous res.stmts n) : ¬ Ambiguous resA.stmts n :=
  fun hh => h ⟨j.isFunction.mpr (.inl hh.1), j.isGlobalVar.mpr (.inl hh.2)⟩

theorem Joined.clearB (j : Joined A B resA resB res) {n : Str} (h : ¬ Ambiguous res.stmts n) : ¬ Ambiguous resB.stmts n :=
  fun hh => h ⟨j.isFunction.mpr (.inr hh.1), j.isGlobalVar.mpr (.inr hh.2)⟩

theorem Joined.docOccs (j : Joined A B resA resB res) :
    Spec.docOccs 0 res.stmts = Spec.docOccs 0 resA.stmts ++ (Spec.docOccs 0 resB.stmts).map (belowOcc A.length (funcCount resA.stmts)) := by
  rw [j.stmts, docOccs_append, docOccs_below]

theorem occurs_inside {src : Str} {r : ParserResult} (h : parseFromStr src = .ok r) {o : SymbolOccurrence} (ho : Occurs r.tokens r.stmts o) :
    o.span.start < o.span.stop ∧ o.span.stop ≤ src.length := by
  have := (C02_token_spans h).1 _ (occurs_token h ho)
  rwa [occTok_span] at this

omit [Unicode] in
theorem findIdx?_left {α : Type} {p : α → Bool} {a b : List α} (h : ∀ x ∈ b, p x = false) : (a ++ b).findIdx? p = a.findIdx? p := by
  rw [List.findIdx?_append]
  rw [List.findIdx?_eq_none_iff.mpr h]
  cases a.findIdx? p <;> rfl

omit [Unicode] in
theorem findIdx?_right {α : Type} {p : α → Bool} {a b : List α} (h : ∀ x ∈ a, p x = false) :
    (a ++ b).findIdx? p = (b.findIdx? p).map (· + a.length) := by
  rw [List.findIdx?_append]
  rw [List.findIdx?_eq_none_iff.mpr h]
  rfl

omit [Unicode] in
theorem contains_eq (sp : Span) (n : Nat) : sp.contains n = (decide (sp.start ≤ n) && decide (n < sp.stop)) := rfl

theorem Joined.functionAt_first (j : Joined A B resA resB res) {pos : Nat} (h : pos < A.length) : functionAt res.stmts pos = functionAt resA.stmts pos := by
  unfold functionAt
  rw [j.stmts, docFuncs_append, docFuncs_moved]
  refine findIdx?_left fun x hx => ?_
  obtain ⟨f, _, rfl⟩ := List.mem_map.mp hx
  rw [contains_eq]
  have : ¬ (movedFunc A.length f).2.1.start ≤ pos := by
    simp only [movedFunc, movedSpan]
    omega
  simp [this]

theorem Joined.functionAt_second (j : Joined A B resA resB res) {pos : Nat} :
    functionAt res.stmts (pos + A.length) = (functionAt resB.stmts pos).map (· + funcCount resA.stmts) := by
  unfold functionAt
  rw [j.stmts, docFuncs_append, docFuncs_moved, findIdx?_right, docFuncs_length, List.findIdx?_map]
  · congr 2
    funext f
    simp only [Function.comp, contains_eq, movedFunc, movedSpan]
    congr 1 <;> simp only [Nat.add_le_add_iff_right, Nat.add_lt_add_iff_right]
  · intro f hf
    obtain ⟨_, _, c, hc, e, _⟩ := func_tokens j.first hf
    have := (C02_token_spans j.first).1 _ hc
    unfold Inside at this
    rw [contains_eq]
    simp only [Bool.and_eq_false_iff, decide_eq_false_iff_not]
    simp only at this
    omega

/-- The occurrence as one of the whole. -/
def upper (res : ParserResult) (o : SymbolOccurrence) : SymbolOccurrence := recolour (IsFunction res.stmts) o

/-- The occurrence of the second document as one of the whole. -/
def lower (A : Str) (resA res : ParserResult) (o : SymbolOccurrence) : SymbolOccurrence :=
  recolour (IsFunction res.stmts) (belowOcc A.length (funcCount resA.stmts) o)

omit [Unicode] in
theorem tokenUse_fields {g : Str → Bool} {fa : Nat → Option Nat} {t : Spanned Token} {o : SymbolOccurrence} (h : tokenUse g fa t = some o) :
    o.span = t.2 ∧ o.useDef = .use := by
  unfold tokenUse at h
  split at h
  · cases h; exact ⟨rfl, rfl⟩
  · cases h; exact ⟨rfl, rfl⟩
  · cases hf : fa t.2.start with
    | none => rw [hf] at h; cases h
    | some i => rw [hf] at h; cases h; exact ⟨rfl, rfl⟩
  · cases h

theorem Joined.use_first (j : Joined A B resA resB res) {t : Tok} (ht : t ∈ resA.tokens) :
    tokenUse (fun n => decide (IsFunction res.stmts n)) (functionAt res.stmts) t =
      (tokenUse (fun n => decide (IsFunction resA.stmts n)) (functionAt resA.stmts) t).map (upper res) := by
  rw [tokenUse_recolour (g := fun n => decide (IsFunction resA.stmts n))]
  congr 1
  have := (C02_token_spans j.first).1 _ ht
  unfold Inside at this
  unfold tokenUse
  rw [j.functionAt_first (by omega)]

theorem Joined.use_second (j : Joined A B resA resB res) (t : Tok) :
    tokenUse (fun n => decide (IsFunction res.stmts n)) (functionAt res.stmts) (moved A.length t) =
      (tokenUse (fun n => decide (IsFunction resB.stmts n)) (functionAt resB.stmts) t).map (lower A resA res) := by
  rw [tokenUse_recolour (g := fun n => decide (IsFunction resB.stmts n))]
  unfold lower tokenUse
  obtain ⟨t, sp⟩ := t
  simp only [moved]
  cases t with
  | globalName n => rfl
  | debugRef n => rfl
  | localName n =>
    simp only [movedSpan]
    rw [j.functionAt_second]
    cases functionAt resB.stmts sp.start <;> rfl
  | _ => rfl

omit [Unicode] in
theorem belowOcc_same {k m : Nat} {o o' : SymbolOccurrence} : SameSymbol (belowOcc k m o) (belowOcc k m o') ↔ SameSymbol o o' := by
  unfold SameSymbol belowOcc
  simp only
  rw [Option.map_inj_right (fun a b h => Nat.add_right_cancel h)]

/-- The occurrences of the whole with a name that is not both a function and a global variable. -/
theorem Joined.occurs (j : Joined A B resA resB res) {o : SymbolOccurrence} (hamb : ¬ Ambiguous res.stmts o.name) :
    Occurs res.tokens res.stmts o ↔ (∃ oA, Occurs resA.tokens resA.stmts oA ∧ o = upper res oA) ∨
      ∃ oB, Occurs resB.tokens resB.stmts oB ∧ o = lower A resA res oB := by
  have hA := j.clearA hamb
  have hB := j.clearB hamb
  have hdoc : ∀ {o' : SymbolOccurrence}, o' ∈ Spec.docOccs 0 res.stmts → o'.name = o.name → upper res o' = o' :=
    fun h e => recolour_doc h (by rw [e]; exact hamb)
  have hinA : ∀ {o' : SymbolOccurrence}, o' ∈ Spec.docOccs 0 resA.stmts → o'.span.start < A.length := fun h => by
    have := occurs_inside j.first (.inl h)
    omega
  constructor
  · rintro (ho | ⟨⟨t, ht, he⟩, hno⟩)
    · have hc := hdoc ho rfl
      rw [j.docOccs, List.mem_append, List.mem_map] at ho
      rcases ho with ho | ⟨oB, ho, rfl⟩
      · exact .inl ⟨o, .inl ho, hc.symm⟩
      · exact .inr ⟨oB, .inl ho, hc.symm⟩
    · rw [j.tokens, List.mem_append, List.mem_map] at ht
      rcases ht with ht | ⟨t, ht, rfl⟩
      · left
        rw [j.use_first ht] at he
        cases hu : tokenUse (fun n => decide (IsFunction resA.stmts n)) (functionAt resA.stmts) t with
        | none => rw [hu] at he; cases he
        | some oA =>
          rw [hu] at he
          obtain rfl : upper res oA = o := by simpa using he
          refine ⟨oA, .inr ⟨⟨t, ht, hu⟩, ?_⟩, rfl⟩
          rintro ⟨o', h1, h2, h3⟩
          have h4 : o' ∈ Spec.docOccs 0 res.stmts := by rw [j.docOccs]; exact List.mem_append_left _ h1
          have h5 := hdoc h4 (h2.2.2.trans recolour_name.symm)
          refine hno ⟨o', h4, ?_, h3.trans recolour_span.symm⟩
          rw [← h5]
          exact recolour_same h2
      · right
        rw [j.use_second] at he
        cases hu : tokenUse (fun n => decide (IsFunction resB.stmts n)) (functionAt resB.stmts) t with
        | none => rw [hu] at he; cases he
        | some oB =>
          rw [hu] at he
          obtain rfl : lower A resA res oB = o := by simpa using he
          refine ⟨oB, .inr ⟨⟨t, ht, hu⟩, ?_⟩, rfl⟩
          rintro ⟨o', h1, h2, h3⟩
          have h4 : belowOcc A.length (funcCount resA.stmts) o' ∈ Spec.docOccs 0 res.stmts := by
            rw [j.docOccs]; exact List.mem_append_right _ (List.mem_map_of_mem h1)
          have h5 := hdoc h4 (h2.2.2.trans (recolour_name (f := IsFunction res.stmts) (o := belowOcc A.length (funcCount resA.stmts) oB)).symm)
          refine hno ⟨_, h4, ?_, ?_⟩
          · rw [← h5]
            exact recolour_same (belowOcc_same.mpr h2)
          · unfold lower
            rw [recolour_span]
            simp only [belowOcc]
            rw [h3]
  · rintro (⟨oA, ho, rfl⟩ | ⟨oB, ho, rfl⟩)
    · have hn : (upper res oA).name = oA.name := recolour_name
      rw [hn] at hamb hA
      have hcA := recolour_occurs ho hA
      rcases ho with ho | ⟨⟨t, ht, he⟩, hno⟩
      · left
        have h4 : oA ∈ Spec.docOccs 0 res.stmts := by rw [j.docOccs]; exact List.mem_append_left _ ho
        rw [hdoc h4 hn.symm]
        exact h4
      · right
        refine ⟨⟨t, by rw [j.tokens]; exact List.mem_append_left _ ht, by rw [j.use_first ht, he]; rfl⟩, ?_⟩
        rintro ⟨o', h1, h2, h3⟩
        have hsp : (upper res oA).span = t.2 := recolour_span.trans (tokenUse_fields he).1
        have htin := (C02_token_spans j.first).1 _ ht
        unfold Inside at htin
        rw [j.docOccs, List.mem_append, List.mem_map] at h1
        rcases h1 with h1 | ⟨o', h1, rfl⟩
        · refine hno ⟨o', h1, ?_, h3.trans recolour_span⟩
          have h5 := recolour_doc h1 (by rw [h2.2.2, hn]; exact hA)
          have := recolour_same (f := IsFunction resA.stmts) h2
          unfold upper at this
          rwa [recolour_recolour, h5, hcA] at this
        · rw [hsp] at h3
          rw [← h3] at htin
          simp only [belowOcc, movedSpan] at htin
          omega
    · have hn : (lower A resA res oB).name = oB.name := recolour_name
      rw [hn] at hamb hB
      have hcB := recolour_occurs ho hB
      rcases ho with ho | ⟨⟨t, ht, he⟩, hno⟩
      · left
        have h4 : belowOcc A.length (funcCount resA.stmts) oB ∈ Spec.docOccs 0 res.stmts := by
          rw [j.docOccs]; exact List.mem_append_right _ (List.mem_map_of_mem ho)
        have := hdoc h4 hn.symm
        unfold upper at this
        unfold lower
        rw [this]
        exact h4
      · right
        refine ⟨⟨moved A.length t, by rw [j.tokens]; exact List.mem_append_right _ (List.mem_map_of_mem ht), by rw [j.use_second, he]; rfl⟩, ?_⟩
        rintro ⟨o', h1, h2, h3⟩
        have hsp : (lower A resA res oB).span = movedSpan A.length t.2 := by
          unfold lower
          rw [recolour_span, ← (tokenUse_fields he).1]
          rfl
        rw [j.docOccs, List.mem_append, List.mem_map] at h1
        rcases h1 with h1 | ⟨o', h1, rfl⟩
        · have := hinA h1
          rw [h3, hsp] at this
          simp only [movedSpan] at this
          omega
        · refine hno ⟨o', h1, ?_, ?_⟩
          · have h5 := recolour_doc h1 (by
              have : o'.name = oB.name := h2.2.2.trans hn
              rw [this]; exact hB)
            have := recolour_same (f := IsFunction resB.stmts) h2
            unfold lower at this
            rw [recolour_recolour, recolour_below, recolour_below, h5, hcB] at this
            exact belowOcc_same.mp this
          · rw [hsp] at h3
            simp only [belowOcc] at h3
            rw [movedSpan_inj] at h3
            rw [h3, (tokenUse_fields he).1]

/-! ### The same symbol -/

theorem Joined.same_first (j : Joined A B resA resB res) {o o' : SymbolOccurrence} (ho : Occurs resA.tokens resA.stmts o) (ho' : Occurs resA.tokens resA.stmts o')
    (hamb : ¬ Ambiguous res.stmts o.name) : SameSymbol (upper res o) (upper res o') ↔ SameSymbol o o' := by
  constructor
  · intro h
    have hn : o.name = o'.name := by simpa only [upper, recolour_name] using h.2.2
    have := recolour_same (f := IsFunction resA.stmts) h
    unfold upper at this
    rwa [recolour_recolour, recolour_recolour, recolour_occurs ho (j.clearA hamb), recolour_occurs ho' (j.clearA (by rw [← hn]; exact hamb))] at this
  · exact recolour_same

theorem Joined.same_second (j : Joined A B resA resB res) {o o' : SymbolOccurrence} (ho : Occurs resB.tokens resB.stmts o) (ho' : Occurs resB.tokens resB.stmts o')
    (hamb : ¬ Ambiguous res.stmts o.name) : SameSymbol (lower A resA res o) (lower A resA res o') ↔ SameSymbol o o' := by
  constructor
  · intro h
    have hn : o.name = o'.name := by
      have := h.2.2
      unfold lower at this
      rw [recolour_name, recolour_name] at this
      exact this
    have := recolour_same (f := IsFunction resB.stmts) h
    unfold lower at this
    rw [recolour_recolour, recolour_recolour, recolour_below, recolour_below, recolour_occurs ho (j.clearB hamb),
      recolour_occurs ho' (j.clearB (by rw [← hn]; exact hamb))] at this
    exact belowOcc_same.mp this
  · exact fun h => recolour_same (belowOcc_same.mpr h)

theorem occurs_local {src : Str} {r : ParserResult} (h : parseFromStr src = .ok r) {ix : HIRIndex} (hix : createIndex src r.tokens r.stmts = .ok ix)
    {o : SymbolOccurrence} (ho : Occurs r.tokens r.stmts o) :
    ((o.symbolKind = .label ∨ o.symbolKind = .localVar) ↔ ∃ i, o.funcBodyId = some i) ∧ ∀ i, o.funcBodyId = some i → i < funcCount r.stmts := by
  obtain ⟨h1, h2⟩ := occurs_scope h hix ho
  refine ⟨h1, fun i hi => ?_⟩
  have := h2 i hi
  have e := (C20_local_scope h hix).1
  rw [← docFuncs_length, ← e, List.length_map]
  exact this

omit [Unicode] in
theorem recolour_global {f : Str → Prop} [DecidablePred f] {o : SymbolOccurrence} (h : ¬ (o.symbolKind = .label ∨ o.symbolKind = .localVar))
    (h2 : o.symbolKind ≠ .dbgAnnotation) : (recolour f o).symbolKind = if f o.name then .function else .globalVar := by
  obtain ⟨sp, ud, k, n, b⟩ := o
  cases k <;> simp_all [recolour]

omit [Unicode] in
theorem recolour_dbg {f : Str → Prop} [DecidablePred f] {o : SymbolOccurrence} : (recolour f o).symbolKind = .dbgAnnotation ↔ o.symbolKind = .dbgAnnotation := by
  obtain ⟨sp, ud, k, n, b⟩ := o
  cases k <;> simp [recolour] <;> split <;> simp

theorem Joined.same_cross (j : Joined A B resA resB res) {ixA ixB : HIRIndex} (hixA : createIndex A resA.tokens resA.stmts = .ok ixA)
    (hixB : createIndex B resB.tokens resB.stmts = .ok ixB) {o o' : SymbolOccurrence} (ho : Occurs resA.tokens resA.stmts o)
    (ho' : Occurs resB.tokens resB.stmts o') : SameSymbol (upper res o) (lower A resA res o') ↔ SameGlobal o o' := by
  obtain ⟨a1, a2⟩ := occurs_local j.first hixA ho
  obtain ⟨b1, b2⟩ := occurs_local j.second hixB ho'
  have key : ∀ {x : SymbolOccurrence}, ((x.symbolKind = .label ∨ x.symbolKind = .localVar) ↔ ∃ i, x.funcBodyId = some i) → x.funcBodyId = none →
      ¬ (x.symbolKind = .label ∨ x.symbolKind = .localVar) := by
    intro x h hx hh
    obtain ⟨i, e⟩ := h.mp hh
    rw [hx] at e
    cases e
  unfold upper lower
  constructor
  · rintro ⟨h1, h2, h3⟩
    rw [recolour_body, recolour_body] at h2
    rw [recolour_name, recolour_name] at h3
    have hnone : o.funcBodyId = none ∧ o'.funcBodyId = none := by
      cases e : o.funcBodyId with
      | none =>
        rw [e] at h2
        simp only [belowOcc] at h2
        cases e' : o'.funcBodyId with
        | none => exact ⟨rfl, rfl⟩
        | some i => rw [e'] at h2; cases h2
      | some i =>
        exfalso
        have := a2 i e
        rw [e] at h2
        simp only [belowOcc] at h2
        cases e' : o'.funcBodyId with
        | none => rw [e'] at h2; cases h2
        | some i' =>
          rw [e'] at h2
          simp only [Option.map_some, Option.some.injEq] at h2
          omega
    refine ⟨hnone.1, hnone.2, h3, ?_⟩
    rw [← recolour_dbg (f := IsFunction res.stmts) (o := o), h1, recolour_dbg]
    rfl
  · rintro ⟨h1, h2, h3, h4⟩
    refine ⟨?_, ?_, ?_⟩
    · by_cases hd : o.symbolKind = .dbgAnnotation
      · rw [recolour_dbg.mpr hd]
        exact ((recolour_dbg (o := belowOcc A.length (funcCount resA.stmts) o')).mpr (h4.mp hd)).symm
      · have hk' : ¬ (o'.symbolKind = .label ∨ o'.symbolKind = .localVar) := key b1 h2
        rw [recolour_global (key a1 h1) hd, recolour_global (o := belowOcc A.length (funcCount resA.stmts) o') hk' (fun hh => hd (h4.mpr hh)), h3]
        rfl
    · rw [recolour_body, recolour_body, h1]
      simp only [belowOcc, h2, Option.map_none]
    · rw [recolour_name, recolour_name, h3]
      rfl

end

end HyperIR
