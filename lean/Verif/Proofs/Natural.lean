import Verif.Proofs.ParserSound

/- The parser commutes with moving tokens: only the order and kinds of tokens decide what is
parsed (src/hir_parser.rs:74-426). -/

namespace HyperIR

/-- A change of positions: where range starts and where range ends go. -/
structure Move where
  fs : Nat → Nat
  fe : Nat → Nat

namespace Move
variable (F : Move)

def span (sp : Span) : Span := { start := F.fs sp.start, stop := F.fe sp.stop }
def spanned {α : Type} (x : Spanned α) : Spanned α := (x.1, F.span x.2)
def toks {τ : Type} (s : Toks τ) : Toks τ := s.map F.spanned

def err {τ : Type} (e : LErr τ) : LErr τ := { e with span := F.span e.span }

def instr (i : Instruction) : Instruction :=
  { assignmentTarget := i.assignmentTarget.map F.spanned
    instruction := F.spanned i.instruction
    basicBlockRefs := i.basicBlockRefs.map F.spanned
    dbgRef := i.dbgRef.map F.spanned
    span := F.span i.span }

def block (b : BasicBlock) : BasicBlock :=
  { label := b.label.map F.spanned
    labelCommaSpan := b.labelCommaSpan.map F.span
    instructions := b.instructions.map F.instr
    span := F.span b.span }

def body (b : FuncBody) : FuncBody :=
  { openingBracket := F.span b.openingBracket
    closingBracket := F.span b.closingBracket
    basicBlocks := b.basicBlocks.map F.block }

def arg (a : FuncArg) : FuncArg := { type_ := F.spanned a.type_, name := F.spanned a.name }

def sig (s : FuncSignature) : FuncSignature :=
  { modifiers := s.modifiers.map F.spanned
    retType := F.spanned s.retType
    name := F.spanned s.name
    args := s.args.map F.arg }

def stmt : Statement → Statement
  | .globalVar n d => .globalVar (F.spanned n) (d.map F.spanned)
  | .funcDecl s a d => .funcDecl (F.sig s) (a.map F.spanned) (d.map F.spanned)
  | .funcDef k s b => .funcDef (F.span k) (F.sig s) (F.body b)
  | .funcDependencies n ds => .funcDependencies (F.spanned n) (ds.map F.spanned)
  | .dbgAnnotation n d => .dbgAnnotation (F.spanned n) (d.map F.spanned)

def res {τ α β : Type} (g : α → β) : Res τ α → Res τ β
  | .ok es x alt r => .ok (es.map F.err) (g x) (alt.map F.err) (F.toks r)
  | .err es e => .err (es.map F.err) (F.err e)
  | .panic => .panic

end Move

/-- `p` commutes with moving the tokens; `g` says what moving does to the output. -/
def Natural {τ α : Type} (F : Move) (g : α → α) (p : P τ α) : Prop :=
  ∀ eoi s, p (F.span eoi) (F.toks s) = F.res g (p eoi s)

section
variable {τ α β γ : Type} {F : Move} {g : α → α} {h : β → β} {eoi : Span} {s : Toks τ}

@[simp] theorem toks_length : (F.toks s).length = s.length := by simp [Move.toks]
@[simp] theorem toks_nil : F.toks ([] : Toks τ) = [] := rfl
@[simp] theorem toks_cons {t : τ × Span} : F.toks (t :: s) = (t.1, F.span t.2) :: F.toks s := rfl
@[simp] theorem err_rem {e : LErr τ} : (F.err e).rem = e.rem := rfl

theorem headSpan_move : headSpan (F.span eoi) (F.toks s) = F.span (headSpan eoi s) := by
  cases s <;> rfl

theorem unexpectedAt_move {ex : List (Option τ)} :
    unexpectedAt (F.span eoi) (F.toks s) ex = F.err (unexpectedAt eoi s ex) := by
  unfold unexpectedAt Move.err
  rw [headSpan_move]
  cases s <;> simp [Move.toks, Move.spanned]

theorem customAt_move {m : Str} : customAt (F.span eoi) (F.toks s) m = F.err (customAt eoi s m) := by
  unfold customAt Move.err
  rw [headSpan_move]
  simp

theorem spanSince_move {r : Toks τ} :
    spanSince (F.span eoi) (F.toks s) (F.toks r) = F.span (spanSince eoi s r) := by
  unfold spanSince
  rw [headSpan_move]
  simp only [toks_length, Move.span, Span.mk.injEq, true_and]
  unfold Move.toks
  rw [List.getElem?_map]
  cases s[s.length - r.length - 1]? with
  | none => rfl
  | some t => rfl

variable [DecidableEq τ]

theorem mergeErr_move {a b : LErr τ} : mergeErr (F.err a) (F.err b) = F.err (mergeErr a b) := rfl

theorem maxErr_move {a : LErr τ} {b : Option (LErr τ)} : maxErr (F.err a) (b.map F.err) = F.err (maxErr a b) := by
  cases b with
  | none => rfl
  | some b =>
    simp only [maxErr, Option.map_some, err_rem]
    by_cases h1 : a.rem < b.rem
    · simp only [h1, if_true]
    · by_cases h2 : b.rem < a.rem
      · simp only [h1, h2, if_true, if_false]
      · simp only [h1, h2, if_false, mergeErr_move]

theorem mergeAlts_move {a b : Option (LErr τ)} : mergeAlts (a.map F.err) (b.map F.err) = (mergeAlts a b).map F.err := by
  cases b with
  | none => rfl
  | some b => simp only [mergeAlts, Option.map_some, maxErr_move]

omit [DecidableEq τ] in
theorem lastRem_move {es : List (LErr τ)} : lastRem (es.map F.err) = lastRem es := by
  unfold lastRem
  rw [List.getLast?_map]
  cases es.getLast? <;> rfl

omit [DecidableEq τ] in
theorem satisfy_natural {f : τ → Bool} {ex} : Natural F id (satisfy f ex) := by
  intro eoi s
  cases s with
  | nil => simp only [toks_nil, satisfy, Move.res, List.map_nil]; rw [← unexpectedAt_move]; rfl
  | cons t s =>
    simp only [toks_cons, satisfy]
    split
    · rfl
    · simp only [Move.res, List.map_nil]; rw [← unexpectedAt_move]; rfl

omit [DecidableEq τ] in
theorem pfilterMap_natural {f : τ → Span → Option α} {m} (hf : ∀ t sp, f t (F.span sp) = (f t sp).map g) :
    Natural F g (pfilterMap f m) := by
  intro eoi s
  cases s with
  | nil => simp only [toks_nil, pfilterMap, Move.res, List.map_nil]; rw [← unexpectedAt_move]; rfl
  | cons t s =>
    simp only [toks_cons, pfilterMap, hf]
    cases f t.1 t.2 with
    | none => simp only [Option.map_none, Move.res, List.map_nil]; rw [← customAt_move]; rfl
    | some a => rfl

omit [DecidableEq τ] in
theorem pend_natural : Natural F id (pend : P τ Unit) := by
  intro eoi s
  cases s with
  | nil => rfl
  | cons t s => simp only [toks_cons, pend, Move.res, List.map_nil]; rw [← unexpectedAt_move]; rfl

omit [DecidableEq τ] in
theorem pmap_natural {f : α → β} {p : P τ α} (hp : Natural F g p) (hf : ∀ x, f (g x) = h (f x)) :
    Natural F h (pmap f p) := by
  intro eoi s
  unfold pmap
  rw [hp]
  cases p eoi s <;> simp [Move.res, hf]

omit [DecidableEq τ] in
theorem pmapOutcome_natural {f : α → Outcome β} {p : P τ α} (hp : Natural F g p)
    (hf : ∀ x, f (g x) = match f x with | .ok y => .ok (h y) | .panic => .panic) :
    Natural F h (pmapOutcome f p) := by
  intro eoi s
  unfold pmapOutcome
  rw [hp]
  cases p eoi s with
  | ok es x alt r =>
    simp only [Move.res, hf]
    cases f x <;> rfl
  | err => rfl
  | panic => rfl

omit [DecidableEq τ] in
theorem pmapSpan_natural {f : α → Span → β} {p : P τ α} (hp : Natural F g p)
    (hf : ∀ x sp, f (g x) (F.span sp) = h (f x sp)) : Natural F h (pmapSpan f p) := by
  intro eoi s
  unfold pmapSpan
  rw [hp]
  cases p eoi s <;> simp [Move.res, spanSince_move, hf]

theorem pthen_natural {p : P τ α} {q : P τ β} (hp : Natural F g p) (hq : Natural F h q) :
    Natural F (fun x => (g x.1, h x.2)) (pthen p q) := by
  intro eoi s
  unfold pthen
  rw [hp]
  cases p eoi s with
  | ok es x alt r =>
    simp only [Move.res]
    rw [hq]
    cases q eoi r <;> simp [Move.res, maxErr_move, mergeAlts_move]
  | err => rfl
  | panic => rfl

theorem thenIgnore_natural {p : P τ α} {q : P τ β} (hp : Natural F g p) (hq : Natural F h q) :
    Natural F g (thenIgnore p q) := pmap_natural (pthen_natural hp hq) (fun _ => rfl)

theorem ignoreThen_natural {p : P τ α} {q : P τ β} (hp : Natural F g p) (hq : Natural F h q) :
    Natural F h (ignoreThen p q) := pmap_natural (pthen_natural hp hq) (fun _ => rfl)

theorem delimitedBy_natural {l : P τ β} {r : P τ γ} {k : γ → γ} {p : P τ α} (hl : Natural F h l) (hr : Natural F k r)
    (hp : Natural F g p) : Natural F g (delimitedBy l r p) := thenIgnore_natural (ignoreThen_natural hl hp) hr

theorem paddedBy_natural {l : P τ β} {p : P τ α} (hl : Natural F h l) (hp : Natural F g p) :
    Natural F g (paddedBy l p) := thenIgnore_natural (ignoreThen_natural hl hp) hl

theorem mergeAlts_some_move {a : Option (LErr τ)} {b : LErr τ} :
    mergeAlts (a.map F.err) (some (F.err b)) = (mergeAlts a (some b)).map F.err := mergeAlts_move (b := some b)

theorem por_natural {p q : P τ α} (hp : Natural F g p) (hq : Natural F g q) : Natural F g (por p q) := by
  intro eoi s
  unfold por
  rw [hp]
  cases p eoi s with
  | panic => rfl
  | ok es x alt r =>
    cases es with
    | nil => rfl
    | cons e es =>
      simp only [Move.res, List.map_cons]
      rw [hq]
      cases q eoi s with
      | panic => rfl
      | err => simp only [Move.res, mergeAlts_some_move, List.map_cons]
      | ok es' y altb r' =>
        cases es' with
        | nil => rfl
        | cons e' es' =>
          simp only [Move.res, List.map_cons]
          rw [← List.map_cons, ← List.map_cons, lastRem_move, lastRem_move]
          cases lastRem (e :: es) with
          | none => rfl
          | some ra =>
            cases lastRem (e' :: es') with
            | none => rfl
            | some rb =>
              simp only [List.length_map]
              split
              · rfl
              · split
                · rfl
                · split <;> rfl
  | err esa ea =>
    simp only [Move.res]
    rw [hq]
    cases q eoi s with
    | panic => rfl
    | ok es y alt r => simp only [Move.res, mergeAlts_some_move]
    | err esb eb =>
      simp only [Move.res, err_rem]
      by_cases h1 : ea.rem < eb.rem
      · simp only [h1, if_true]
      · by_cases h2 : eb.rem < ea.rem
        · simp only [h1, h2, if_true, if_false]
        · simp only [h1, h2, if_false, Res.err.injEq, true_and]
          exact maxErr_move (b := some eb)

omit [DecidableEq τ] in
theorem orNot_natural {p : P τ α} (hp : Natural F g p) : Natural F (Option.map g) (orNot p) := by
  intro eoi s
  unfold orNot
  rw [hp]
  cases p eoi s <;> rfl

omit [DecidableEq τ] in
theorem rewind_natural {p : P τ α} (hp : Natural F g p) : Natural F g (rewind p) := by
  intro eoi s
  unfold rewind
  rw [hp]
  cases p eoi s <;> rfl

omit [DecidableEq τ] in
theorem pnot_natural {p : P τ α} (hp : Natural F g p) : Natural F id (pnot p) := by
  intro eoi s
  unfold pnot
  rw [hp]
  cases p eoi s with
  | panic => rfl
  | ok => simp only [Move.res, List.map_nil, unexpectedAt_move]
  | err =>
    cases s with
    | nil => simp only [toks_nil, Move.res, List.map_nil]; rw [← unexpectedAt_move]; rfl
    | cons t s => rfl

omit [DecidableEq τ] in
theorem validate_natural {f : α → Option Str} {p : P τ α} (hp : Natural F g p) (hf : ∀ x, f (g x) = f x) :
    Natural F g (validate f p) := by
  intro eoi s
  unfold validate
  rw [hp]
  cases p eoi s with
  | panic => rfl
  | err => rfl
  | ok es x alt r =>
    simp only [Move.res, hf]
    cases f x with
    | none => rfl
    | some m => simp [Move.res, Move.err, spanSince_move]

theorem repeatLoop_natural {p : P τ α} {n : Nat} (hp : Natural F g p) :
    ∀ {fuel old errs outs alt} {s : Toks τ},
      repeatLoop p n (F.span eoi) fuel old (errs.map F.err) (outs.map g) (alt.map F.err) (F.toks s)
        = F.res (List.map g) (repeatLoop p n eoi fuel old errs outs alt s)
  | 0, _, _, _, _, _ => rfl
  | fuel + 1, old, errs, outs, alt, s => by
    simp only [repeatLoop]
    rw [hp]
    cases p eoi s with
    | panic => rfl
    | ok es x al r =>
      simp only [Move.res, toks_length]
      split
      · rfl
      · have := repeatLoop_natural (n := n) hp (fuel := fuel) (old := some r.length) (errs := errs ++ es) (outs := outs ++ [x])
          (alt := mergeAlts alt al) (s := r)
        simp only [List.map_append, List.map_cons, List.map_nil, ← mergeAlts_move] at this
        exact this
    | err es e =>
      simp only [Move.res, List.length_map]
      split
      · simp [Move.res]
      · simp only [Move.res, mergeAlts_some_move]

theorem repeatedAtLeast_natural {p : P τ α} {n : Nat} (hp : Natural F g p) :
    Natural F (List.map g) (repeatedAtLeast n p) := by
  intro eoi s
  unfold repeatedAtLeast
  rw [toks_length]
  exact repeatLoop_natural hp (errs := []) (outs := []) (alt := none)

theorem repeated_natural {p : P τ α} (hp : Natural F g p) : Natural F (List.map g) (repeated p) :=
  repeatedAtLeast_natural hp

theorem sepLoop_natural {p : P τ α} {q : P τ β} (hp : Natural F g p) (hq : Natural F h q) :
    ∀ {fuel errs outs alt} {s : Toks τ},
      sepLoop p q (F.span eoi) fuel (errs.map F.err) (outs.map g) (alt.map F.err) (F.toks s)
        = F.res (List.map g) (sepLoop p q eoi fuel errs outs alt s)
  | 0, _, _, _, _ => rfl
  | fuel + 1, errs, outs, alt, s => by
    simp only [sepLoop]
    rw [hq]
    cases q eoi s with
    | panic => rfl
    | err es e => simp only [Move.res, mergeAlts_some_move, List.map_append]
    | ok es y al r =>
      simp only [Move.res]
      rw [hp]
      cases p eoi r with
      | panic => rfl
      | err es' e => simp only [Move.res, mergeAlts_move, mergeAlts_some_move, List.map_append]
      | ok es' x al' r' =>
        have := sepLoop_natural hp hq (fuel := fuel) (errs := errs ++ es ++ es') (outs := outs ++ [x])
          (alt := mergeAlts (mergeAlts alt al) al') (s := r')
        simp only [List.map_append, List.map_cons, List.map_nil, ← mergeAlts_move] at this
        exact this

theorem separatedBy_natural {p : P τ α} {q : P τ β} (hp : Natural F g p) (hq : Natural F h q) :
    Natural F (List.map g) (separatedBy p q) := by
  intro eoi s
  unfold separatedBy
  rw [hp]
  cases p eoi s with
  | panic => rfl
  | err => rfl
  | ok es x al r =>
    simp only [Move.res, toks_length]
    exact sepLoop_natural hp hq (outs := [x])

omit [DecidableEq τ] in
theorem skipThenRetry_natural {p : P τ α} (hp : Natural F g p) {errs fatal} : ∀ {s : Toks τ},
    skipThenRetry p (F.span eoi) (errs.map F.err) (F.err fatal) (F.toks s)
      = F.res g (skipThenRetry p eoi errs fatal s)
  | [] => rfl
  | t :: s => by
    simp only [toks_cons, skipThenRetry]
    rw [hp]
    cases p eoi s with
    | panic => rfl
    | ok => simp [Move.res]
    | err => exact skipThenRetry_natural hp

omit [DecidableEq τ] in
theorem recoverSkip_natural {p : P τ α} (hp : Natural F g p) : Natural F g (recoverSkip p) := by
  intro eoi s
  unfold recoverSkip
  rw [hp]
  cases p eoi s with
  | panic => rfl
  | ok => rfl
  | err => exact skipThenRetry_natural hp

end

/-! ### The parsers of the crate -/

section
variable {F : Move}

theorem pFuncModifier_natural : Natural F F.spanned pFuncModifier :=
  pfilterMap_natural (by intro t sp; cases t <;> rfl)
theorem pGlobalName_natural : Natural F F.spanned pGlobalName :=
  pfilterMap_natural (by intro t sp; cases t <;> rfl)
theorem pLocalName_natural : Natural F F.spanned pLocalName :=
  pfilterMap_natural (by intro t sp; cases t <;> rfl)
theorem pType_natural : Natural F F.spanned pType :=
  pfilterMap_natural (by intro t sp; cases t <;> rfl)
theorem pIdent_natural : Natural F F.spanned pIdent :=
  pfilterMap_natural (by intro t sp; cases t <;> rfl)
theorem pDbgRef_natural : Natural F F.spanned pDbgRef :=
  pfilterMap_natural (by intro t sp; cases t <;> rfl)
theorem pHexnum_natural : Natural F F.spanned pHexnum :=
  pfilterMap_natural (by intro t sp; cases t <;> rfl)
theorem pPunct_natural {c} : Natural F id (pPunct c) := satisfy_natural
theorem pNewline_natural : Natural F id pNewline := satisfy_natural
theorem pKeyword_natural {c} : Natural F id (pKeyword c) := satisfy_natural
theorem just_natural {c : Token} : Natural F id (just c) := satisfy_natural
theorem pany_natural : Natural F id (pany : P Token Token) := satisfy_natural
theorem noneOf_natural {ts : List Token} : Natural F id (noneOf ts) := satisfy_natural

theorem pEol_natural : Natural F id pEol :=
  por_natural satisfy_natural (pmap_natural pend_natural (fun _ => rfl))

theorem pTokenSoup_natural : Natural F (List.map F.spanned) pTokenSoup :=
  repeated_natural (pmapSpan_natural noneOf_natural (fun _ _ => rfl))

theorem pGlobalVar_natural : Natural F F.stmt pGlobalVar :=
  pmap_natural (thenIgnore_natural (pthen_natural (thenIgnore_natural pGlobalName_natural pPunct_natural)
    pTokenSoup_natural) pEol_natural) (fun _ => rfl)

theorem pFuncArg_natural : Natural F F.arg pFuncArg :=
  pmap_natural (pthen_natural pType_natural pLocalName_natural) (fun _ => rfl)

theorem pFuncSignature_natural : Natural F F.sig pFuncSignature :=
  pmap_natural (pthen_natural (pthen_natural (pthen_natural (repeated_natural pFuncModifier_natural) pType_natural)
    pGlobalName_natural) (delimitedBy_natural pPunct_natural pPunct_natural
      (separatedBy_natural pFuncArg_natural pPunct_natural))) (fun _ => rfl)

theorem pFuncAddr_natural : Natural F F.spanned pFuncAddr := ignoreThen_natural pPunct_natural pHexnum_natural

theorem pFuncDecl_natural : Natural F F.stmt pFuncDecl :=
  pmap_natural (thenIgnore_natural (pthen_natural (pthen_natural (ignoreThen_natural just_natural pFuncSignature_natural)
    (orNot_natural pFuncAddr_natural)) (orNot_natural pDbgRef_natural)) pEol_natural) (fun _ => rfl)

theorem pNewlineAhead_natural : Natural F id pNewlineAhead := rewind_natural pNewline_natural

theorem pKeywordSpan_natural {c} : Natural F F.spanned (pKeywordSpan c) :=
  pmapSpan_natural pKeyword_natural (fun _ _ => rfl)

theorem pBr_natural : Natural F F.instr pBr :=
  pmapSpan_natural (thenIgnore_natural (pthen_natural (pthen_natural pKeywordSpan_natural pIdent_natural)
    (orNot_natural pDbgRef_natural)) pNewlineAhead_natural) (fun _ _ => rfl)

theorem pCondBr_natural : Natural F F.instr pCondBr :=
  pmapSpan_natural (thenIgnore_natural (pthen_natural (pthen_natural (thenIgnore_natural (pthen_natural
    (thenIgnore_natural (thenIgnore_natural (thenIgnore_natural pKeywordSpan_natural just_natural) pany_natural)
      pPunct_natural) pIdent_natural) pPunct_natural) pIdent_natural) (orNot_natural pDbgRef_natural))
    pNewlineAhead_natural) (fun _ _ => rfl)

theorem pSkipOperands_natural {kw} : Natural F id (pSkipOperands kw) := by
  have := repeated_natural (por_natural (noneOf_natural (F := F) (ts := [Token.punct ',', Token.newline]))
      (thenIgnore_natural (pPunct_natural (c := ',')) (noneOf_natural (ts := [Token.ident kw]))))
  rw [List.map_id_fun] at this
  exact this

theorem pOverflowBr_natural : Natural F F.instr pOverflowBr :=
  pmapSpan_natural (thenIgnore_natural (pthen_natural (pthen_natural (thenIgnore_natural (thenIgnore_natural
    (thenIgnore_natural (pthen_natural (thenIgnore_natural (thenIgnore_natural (thenIgnore_natural (thenIgnore_natural
      (validate_natural pIdent_natural (fun _ => rfl)) pSkipOperands_natural) pPunct_natural) pKeyword_natural)
      pPunct_natural) pIdent_natural) pPunct_natural) pKeyword_natural) pPunct_natural) pIdent_natural)
    (orNot_natural pDbgRef_natural)) pNewlineAhead_natural) (fun _ _ => rfl)

theorem pSwitchCase_natural : Natural F F.spanned pSwitchCase :=
  ignoreThen_natural (pthen_natural (pthen_natural (pthen_natural pType_natural pany_natural) pKeyword_natural)
    pPunct_natural) pIdent_natural

theorem pSwitch_natural : Natural F F.instr pSwitch :=
  pmapSpan_natural (thenIgnore_natural (pthen_natural (pthen_natural (thenIgnore_natural (pthen_natural
    (thenIgnore_natural (thenIgnore_natural (thenIgnore_natural (thenIgnore_natural pKeywordSpan_natural
      pSkipOperands_natural) pPunct_natural) pKeyword_natural) pPunct_natural) pIdent_natural) pPunct_natural)
    (separatedBy_natural pSwitchCase_natural pPunct_natural)) (orNot_natural pDbgRef_natural))
    pNewlineAhead_natural) (fun _ _ => rfl)

theorem pPhiEdge_natural : Natural F F.spanned pPhiEdge :=
  delimitedBy_natural pPunct_natural pPunct_natural (thenIgnore_natural (thenIgnore_natural pIdent_natural
    pPunct_natural) (repeated_natural noneOf_natural))

theorem pPhi_natural : Natural F F.instr pPhi :=
  pmapSpan_natural (thenIgnore_natural (pthen_natural (pthen_natural pKeywordSpan_natural
    (separatedBy_natural pPhiEdge_natural pPunct_natural)) (orNot_natural pDbgRef_natural))
    pNewlineAhead_natural) (fun _ _ => rfl)

theorem pAnyInstruction_natural : Natural F F.instr pAnyInstruction :=
  pmapSpan_natural (thenIgnore_natural (pthen_natural (thenIgnore_natural (thenIgnore_natural pIdent_natural
    (rewind_natural noneOf_natural)) (repeated_natural (pnot_natural (g := id) (por_natural
      (pmap_natural (h := id) pNewline_natural (fun _ => rfl)) (pmap_natural (h := id) pDbgRef_natural (fun _ => rfl))))))
    (orNot_natural pDbgRef_natural)) pNewlineAhead_natural) (fun _ _ => rfl)

theorem pAssignment_natural : Natural F F.spanned pAssignment :=
  thenIgnore_natural (ignoreThen_natural pType_natural pLocalName_natural) pPunct_natural

theorem pInstructionKind_natural : Natural F F.instr pInstructionKind :=
  por_natural (por_natural (por_natural (por_natural (por_natural pBr_natural pCondBr_natural) pOverflowBr_natural)
    pSwitch_natural) pPhi_natural) pAnyInstruction_natural

theorem pInstruction_natural : Natural F F.instr pInstruction :=
  pmapSpan_natural (pthen_natural (orNot_natural pAssignment_natural) pInstructionKind_natural) (fun _ _ => rfl)

theorem pPaddedInstruction_natural : Natural F F.instr pPaddedInstruction :=
  paddedBy_natural (repeated_natural pNewline_natural) pInstruction_natural

theorem pBasicBlock_natural : Natural F F.block pBasicBlock :=
  pmap_natural (pthen_natural (thenIgnore_natural (pthen_natural pIdent_natural
    (pmapSpan_natural (h := F.span) pPunct_natural (fun _ _ => rfl))) (repeatedAtLeast_natural pNewline_natural))
    (repeated_natural pPaddedInstruction_natural)) (by
      rintro ⟨⟨l, c⟩, is⟩
      simp only [mkBasicBlock, Move.block, Option.map_some, List.getLast?_map]
      cases is.getLast? <;> rfl)

theorem pInitialBlock_natural : Natural F F.block pInitialBlock :=
  pmapOutcome_natural (repeatedAtLeast_natural pPaddedInstruction_natural) (by
    intro is
    unfold mkInitialBlock
    rw [List.head?_map, List.getLast?_map]
    cases is.head? <;> cases is.getLast? <;> rfl)

theorem pFuncBody_natural : Natural F F.body pFuncBody :=
  pmap_natural (pthen_natural (pthen_natural (pthen_natural (thenIgnore_natural
    (pmapSpan_natural (h := F.span) pPunct_natural (fun _ _ => rfl)) (repeatedAtLeast_natural pNewline_natural))
    (orNot_natural pInitialBlock_natural)) (repeated_natural pBasicBlock_natural))
    (pmapSpan_natural (h := F.span) pPunct_natural (fun _ _ => rfl))) (by
      rintro ⟨⟨⟨o, i⟩, bs⟩, c⟩
      cases i <;> rfl)

theorem pFuncDef_natural : Natural F F.stmt pFuncDef :=
  pmap_natural (thenIgnore_natural (pthen_natural (pthen_natural
    (pmapSpan_natural (h := F.span) just_natural (fun _ _ => rfl)) pFuncSignature_natural) pFuncBody_natural)
    pEol_natural) (fun _ => rfl)

theorem pFuncDependencies_natural : Natural F F.stmt pFuncDependencies :=
  pmap_natural (pthen_natural (thenIgnore_natural (thenIgnore_natural pGlobalName_natural pKeyword_natural)
    pKeyword_natural) (separatedBy_natural pGlobalName_natural pPunct_natural)) (fun _ => rfl)

theorem pDbgAnnotation_natural : Natural F F.stmt pDbgAnnotation :=
  pmap_natural (thenIgnore_natural (pthen_natural (thenIgnore_natural pDbgRef_natural pPunct_natural)
    pTokenSoup_natural) pEol_natural) (fun _ => rfl)

theorem parser_natural : Natural F (List.map F.stmt) parser :=
  thenIgnore_natural (repeated_natural (recoverSkip_natural (paddedBy_natural (repeated_natural pNewline_natural)
    (por_natural (por_natural (por_natural (por_natural pGlobalVar_natural pFuncDecl_natural) pFuncDef_natural)
      pFuncDependencies_natural) pDbgAnnotation_natural)))) pend_natural

end
end HyperIR
