import Verif.Spec.Edit
import Verif.Props.JoinViews
import Verif.Props.Analysis

/-
C87: editing one part of a document leaves the answers about the rest alone.
-/

namespace HyperIR

open Spec

section
variable [Unicode] {X X' A B Y Y' : Str} {n n' : Nat} {resX resX' resA resB resY resY' res res' : ParserResult} {st st' : ServerState} {uri : Str}

/-- A server that has an ASCII document open. -/
theorem opened_somewhere (uri : Str) {text : Str} (ha : Ascii text) : ∃ st, Opened st uri text := by
  obtain ⟨res, h⟩ := parseFromStr_total text
  obtain ⟨ix, _, hix, _⟩ := createIndex_inv h (fun n d hs => annotationValue_ascii h ha hs)
  obtain ⟨doc, errs, hd⟩ := analyze_of_createIndex h hix
  exact ⟨{ docs := [(uri, doc)], roots := [] }, doc, errs, hd, by simp [StrMap.get?]⟩

theorem renamedAlike_of {f g h : Outcome (Except RpcError WorkspaceEdit)} {n m : Nat} (h1 : RenamedAs uri (lowerEdit n) f g)
    (h2 : RenamedAs uri (lowerEdit m) f h) : RenamedAlike uri n m g h := by
  cases h1 with
  | panic => cases h2; exact .panic
  | error => cases h2; exact .error
  | edits p1 => cases h2 with | edits p2 => exact .edits p1 p2

theorem lowerRange_zero (r : Range) : lowerRange 0 r = r := by simp [lowerRange, lowerPos]
theorem lowerLoc_zero : lowerLoc 0 = id := by funext l; simp [lowerLoc, lowerRange_zero]
theorem lowerEdit_zero : lowerEdit 0 = id := by funext l; simp [lowerEdit, lowerRange_zero]

/-- What is found at a symbol that only the first document has. -/
theorem first_found {stA stB : ServerState} {docA : AnalyzedDocument} (hab : Above A n B) (hA : parseFromStr A = .ok resA) (heA : Settled A)
    (hB : parseFromStr B = .ok resB) (hr : resB.errors = [] ∨ resB.stmts ≠ []) (h : parseFromStr (A ++ B) = .ok res) (hopenA : Opened stA uri A)
    (hopenB : Opened stB uri B) (hopen : Opened st uri (A ++ B)) (env : Env) {p : Pos} {o : SymbolOccurrence} (hp : StandsOn A resA p o)
    (hno : ∀ o', Occurs resB.tokens resB.stmts o' → ¬ SameGlobal o o') (hamb : ¬ Ambiguous res.stmts o.name) (hget : stA.docs.get? uri = some docA) :
    ∃ r refs decls defs, rangeToLsp A o.span = some r ∧ Found env st uri p r refs decls defs ∧
      refs.Perm (placesOf uri A docA.index o .use) ∧ decls.Perm (placesOf uri A docA.index o .decl) ∧ defs.Perm (placesOf uri A docA.index o .def_) := by
  obtain ⟨docA', docB, doc, s⟩ := servers hab hA heA hB hr h hopenA hopenB hopen
  cases hget.symm.trans s.getA
  have hs := hab.size
  rw [List.length_append] at hs
  have hoA : Occurs resA.tokens resA.stmts o := hp.choose_spec.2.1
  obtain ⟨a1, a2⟩ := s.at_first hab hp hamb
  obtain ⟨r₃, e3, f3, _⟩ := found_symbol h s.joined.ix s.rope (plain_joined hab.plain hab.plainB) hab.size s.get env a2
  obtain ⟨k1, _⟩ := s.joined.places_first (uri := uri) hoA hamb hno
  have hin := occurs_inside hA hoA
  rw [upper_span, rangeToLsp_front s.joined.under (by omega) hin.2] at e3
  exact ⟨r₃, _, _, _, e3, f3, k1 _, k1 _, k1 _⟩

/-- What is found at a symbol that only the second document has. -/
theorem second_found {stA stB : ServerState} {docB : AnalyzedDocument} (hab : Above A n B) (hA : parseFromStr A = .ok resA) (heA : Settled A)
    (hB : parseFromStr B = .ok resB) (hr : resB.errors = [] ∨ resB.stmts ≠ []) (h : parseFromStr (A ++ B) = .ok res) (hopenA : Opened stA uri A)
    (hopenB : Opened stB uri B) (hopen : Opened st uri (A ++ B)) (env : Env) {q : Pos} {o : SymbolOccurrence} (hq : StandsOn B resB q o)
    (hno : ∀ o', Occurs resA.tokens resA.stmts o' → ¬ SameGlobal o' o) (hamb : ¬ Ambiguous res.stmts o.name) (hget : stB.docs.get? uri = some docB) :
    ∃ r refs decls defs, rangeToLsp B o.span = some r ∧ Found env st uri (lowerPos n q) (lowerRange n r) refs decls defs ∧
      refs.Perm ((placesOf uri B docB.index o .use).map (lowerLoc n)) ∧ decls.Perm ((placesOf uri B docB.index o .decl).map (lowerLoc n)) ∧
      defs.Perm ((placesOf uri B docB.index o .def_).map (lowerLoc n)) := by
  obtain ⟨docA, docB', doc, s⟩ := servers hab hA heA hB hr h hopenA hopenB hopen
  cases hget.symm.trans s.getB
  have hn := (above_under hab).2
  have hoB : Occurs resB.tokens resB.stmts o := hq.choose_spec.2.1
  obtain ⟨b1, b2⟩ := s.at_second hab hq hamb
  obtain ⟨r₄, e4, f4, _⟩ := found_symbol h s.joined.ix s.rope (plain_joined hab.plain hab.plainB) hab.size s.get env b2
  obtain ⟨k1, _⟩ := s.joined.places_second (uri := uri) hoB hamb hno
  rw [lower_span, rangeToLsp_behind s.joined.under, ← hn] at e4
  obtain ⟨r, e, rfl⟩ := Option.map_eq_some_iff.mp e4
  rw [← hn] at k1
  exact ⟨r, _, _, _, e, f4, k1 _, k1 _, k1 _⟩

/-- C87: let the text `X` above `B` be replaced by `X'` (both without errors).  A position of `B` on a symbol that stands neither in `X` nor in
`X'` finds the same in both versions, at the places of `B` moved by the lines of the text above, and a rename does the same. -/
theorem C87_below (hab : Above X n B) (hab' : Above X' n' B) (hX : parseFromStr X = .ok resX) (heX : Settled X)
    (hX' : parseFromStr X' = .ok resX') (heX' : Settled X') (hB : parseFromStr B = .ok resB) (hr : resB.errors = [] ∨ resB.stmts ≠ [])
    (h : parseFromStr (X ++ B) = .ok res) (h' : parseFromStr (X' ++ B) = .ok res') (hopen : Opened st uri (X ++ B))
    (hopen' : Opened st' uri (X' ++ B)) (env : Env) {q : Pos} {o : SymbolOccurrence} (hq : StandsOn B resB q o)
    (hno : ∀ o', Occurs resX.tokens resX.stmts o' ∨ Occurs resX'.tokens resX'.stmts o' → ¬ SameGlobal o' o)
    (hamb : ¬ Ambiguous res.stmts o.name) (hamb' : ¬ Ambiguous res'.stmts o.name) :
    FoundAlike env uri n st (lowerPos n q) n' st' (lowerPos n' q) ∧
    ∀ name, name.head? ≠ some '+' → name.head? ≠ some '-' →
      RenamedAlike uri n n' (rename env st uri (lowerPos n q) name) (rename env st' uri (lowerPos n' q) name) := by
  obtain ⟨stX, oX⟩ := opened_somewhere uri (fun c hc => (hab.plain c hc).1)
  obtain ⟨stX', oX'⟩ := opened_somewhere uri (fun c hc => (hab'.plain c hc).1)
  obtain ⟨stB, oB⟩ := opened_somewhere uri (fun c hc => (hab.plainB c hc).1)
  have k := (C79_second hab hX heX hB hr h oX oB hopen env hq (fun o' ho' => hno o' (.inl ho')) hamb).2
  have k' := (C79_second hab' hX' heX' hB hr h' oX' oB hopen' env hq (fun o' ho' => hno o' (.inr ho')) hamb').2
  obtain ⟨docB, _, _, hget⟩ := id oB
  obtain ⟨r, _, _, _, e, f, p1, p2, p3⟩ := second_found hab hX heX hB hr h oX oB hopen env hq (fun o' ho' => hno o' (.inl ho')) hamb hget
  obtain ⟨r', _, _, _, e', f', p1', p2', p3'⟩ :=
    second_found hab' hX' heX' hB hr h' oX' oB hopen' env hq (fun o' ho' => hno o' (.inr ho')) hamb' hget
  cases e.symm.trans e'
  exact ⟨⟨_, _, _, _, _, _, _, _, _, _, f, f', p1, p2, p3, p1', p2', p3'⟩, fun name h1 h2 => renamedAlike_of (k name h1 h2) (k' name h1 h2)⟩

/-- C87: let the text `Y` below `A` be replaced by `Y'` (each without errors, or with some statement that can be read).  A position of `A` on a
symbol that stands neither in `Y` nor in `Y'` finds the same in both versions, and a rename does the same. -/
theorem C87_above (hab : Above A n Y) (hab' : Above A n Y') (hA : parseFromStr A = .ok resA) (heA : Settled A)
    (hY : parseFromStr Y = .ok resY) (hr : resY.errors = [] ∨ resY.stmts ≠ []) (hY' : parseFromStr Y' = .ok resY')
    (hr' : resY'.errors = [] ∨ resY'.stmts ≠ []) (h : parseFromStr (A ++ Y) = .ok res) (h' : parseFromStr (A ++ Y') = .ok res')
    (hopen : Opened st uri (A ++ Y)) (hopen' : Opened st' uri (A ++ Y')) (env : Env) {p : Pos} {o : SymbolOccurrence} (hp : StandsOn A resA p o)
    (hno : ∀ o', Occurs resY.tokens resY.stmts o' ∨ Occurs resY'.tokens resY'.stmts o' → ¬ SameGlobal o o')
    (hamb : ¬ Ambiguous res.stmts o.name) (hamb' : ¬ Ambiguous res'.stmts o.name) :
    FoundAlike env uri 0 st p 0 st' p ∧
    ∀ name, name.head? ≠ some '+' → name.head? ≠ some '-' → RenamedAlike uri 0 0 (rename env st uri p name) (rename env st' uri p name) := by
  obtain ⟨stA, oA⟩ := opened_somewhere uri (fun c hc => (hab.plain c hc).1)
  obtain ⟨stY, oY⟩ := opened_somewhere uri (fun c hc => (hab.plainB c hc).1)
  obtain ⟨stY', oY'⟩ := opened_somewhere uri (fun c hc => (hab'.plainB c hc).1)
  have k := (C79_first hab hA heA hY hr h oA oY hopen env hp (fun o' ho' => hno o' (.inl ho')) hamb).2
  have k' := (C79_first hab' hA heA hY' hr' h' oA oY' hopen' env hp (fun o' ho' => hno o' (.inr ho')) hamb').2
  obtain ⟨docA, _, _, hget⟩ := id oA
  obtain ⟨r, _, _, _, e, f, p1, p2, p3⟩ := first_found hab hA heA hY hr h oA oY hopen env hp (fun o' ho' => hno o' (.inl ho')) hamb hget
  obtain ⟨r', _, _, _, e', f', p1', p2', p3'⟩ :=
    first_found hab' hA heA hY' hr' h' oA oY' hopen' env hp (fun o' ho' => hno o' (.inr ho')) hamb' hget
  cases e.symm.trans e'
  refine ⟨⟨r, placesOf uri A docA.index o .use, placesOf uri A docA.index o .decl, placesOf uri A docA.index o .def_, _, _, _, _, _, _,
    by rw [lowerRange_zero]; exact f, by rw [lowerRange_zero]; exact f', ?_⟩, fun name h1 h2 => renamedAlike_of (f := rename env stA uri p name) ?_ ?_⟩
  · rw [lowerLoc_zero]
    simp only [List.map_id]
    exact ⟨p1, p2, p3, p1', p2', p3'⟩
  · rw [lowerEdit_zero]; exact k name h1 h2
  · rw [lowerEdit_zero]; exact k' name h1 h2

/-- C87: the graph of a function does not change if a text below its document is replaced, nor if a text above is replaced in which, before
and after, no function of that name is defined. -/
theorem C87_graph (hab : Above X n Y) (hab' : Above X' n' Y') (hX : parseFromStr X = .ok resX) (heX : Settled X)
    (hX' : parseFromStr X' = .ok resX') (heX' : Settled X') (hY : parseFromStr Y = .ok resY) (hr : resY.errors = [] ∨ resY.stmts ≠ [])
    (hY' : parseFromStr Y' = .ok resY') (hr' : resY'.errors = [] ∨ resY'.stmts ≠ []) (hopen : Opened st uri (X ++ Y))
    (hopen' : Opened st' uri (X' ++ Y')) (name : Str) :
    (X = X' → (∃ f ∈ docFuncs resX.stmts, f.1.1 = name) →
      executeCommand st' c!"visualize-cfg" [.str uri, .str name] = executeCommand st c!"visualize-cfg" [.str uri, .str name]) ∧
    (Y = Y' → (∀ f ∈ docFuncs resX.stmts ++ docFuncs resX'.stmts, f.1.1 ≠ name) →
      executeCommand st' c!"visualize-cfg" [.str uri, .str name] = executeCommand st c!"visualize-cfg" [.str uri, .str name]) := by
  obtain ⟨stX, oX⟩ := opened_somewhere uri (fun c hc => (hab.plain c hc).1)
  obtain ⟨stX', oX'⟩ := opened_somewhere uri (fun c hc => (hab'.plain c hc).1)
  obtain ⟨stY, oY⟩ := opened_somewhere uri (fun c hc => (hab.plainB c hc).1)
  obtain ⟨stY', oY'⟩ := opened_somewhere uri (fun c hc => (hab'.plainB c hc).1)
  constructor
  · rintro rfl hf
    cases hX.symm.trans hX'
    rw [(C80_graph hab hX heX hY hr oX oY hopen name).1 hf, (C80_graph hab' hX heX hY' hr' oX oY' hopen' name).1 hf]
  · rintro rfl hf
    cases hY.symm.trans hY'
    rw [(C80_graph hab hX heX hY hr oX oY hopen name).2 (fun f m => hf f (List.mem_append_left _ m)),
      (C80_graph hab' hX' heX' hY hr oX' oY hopen' name).2 (fun f m => hf f (List.mem_append_right _ m))]

end

/-! ### Examples -/

section Examples
attribute [local instance] asciiUnicode

/-- Another text in the place of `joinFirst`, with one line more. -/
def joinOther : Str := c!"@v = int32 1\n\ndeclare void @g(int64 %b)\n"

theorem otherAbove : Above joinOther 3 joinSecond where
  plain := by decide +kernel
  plainB := by decide +kernel
  ends := .inr ⟨joinOther.dropLast, by decide +kernel⟩
  last := .later (content := c!"@v = int32 1") (eol := c!"\n") (by decide) (.inl rfl) (by simp)
    (.later (content := []) (eol := c!"\n") (by decide) (.inl rfl) (by simp)
      (.later (content := c!"declare void @g(int64 %b)") (eol := c!"\n") (by decide) (.inl rfl) (by simp)
        (.here (content := []) (tail := []) (by decide) (by intro c cs h; cases h))))
  size := by decide +kernel

theorem other_facts : ∃ resA res, parseFromStr joinOther = .ok resA ∧ resA.errors = [] ∧ parseFromStr (joinOther ++ joinSecond) = .ok res ∧
    ¬ IsGlobalVar res.stmts c!"%x" := by
  generalize h₁ : parseFromStr joinOther = r₁
  generalize h₃ : parseFromStr (joinOther ++ joinSecond) = r₃
  have key : (match parseFromStr joinOther, parseFromStr (joinOther ++ joinSecond) with
    | .ok a, .ok c => decide (a.errors = []) && decide (¬ IsGlobalVar c.stmts c!"%x")
    | _, _ => false) = true := by decide +kernel
  rw [h₁, h₃] at key
  split at key
  · simp only [Bool.and_eq_true, decide_eq_true_eq] at key
    exact ⟨_, _, rfl, key.1, rfl, key.2⟩
  · cases key

/-- The hypotheses of `C87_below` hold for the variable `%x` when a line is inserted above: it is found one line further down. -/
example : FoundAlike debugEnv c!"u" 2 (serverWith [] c!"u" (joinFirst ++ joinSecond)) ⟨4, 9⟩
    3 (serverWith [] c!"u" (joinOther ++ joinSecond)) ⟨5, 9⟩ := by
  obtain ⟨resA, resB, res, hA, eA, hB, eB, h, _, _, o3, _, na⟩ := join_facts
  obtain ⟨resA', res', hA', eA', h', na'⟩ := other_facts
  exact (C87_below joinAbove otherAbove hA (settled_of_clean hA eA joinAbove.ends) hA' (settled_of_clean hA' eA' otherAbove.ends) hB (.inl eB) h h' (serverWith_opened (by decide +kernel)) (serverWith_opened (by decide +kernel))
    debugEnv (q := ⟨2, 9⟩)
    ⟨35, ⟨26, c!"  int32 %x = load int32 @v", .later (content := c!"define void @f() {") (eol := c!"\n") (by decide) (.inl rfl) (by simp)
      (.later (content := c!"entry:") (eol := c!"\n") (by decide) (.inl rfl) (by simp)
        (.here (content := c!"  int32 %x = load int32 @v") (tail := joinSecond.drop 52) (by decide)
          (by intro c cs h; left; simp [joinSecond] at h; exact h.1.symm))), by decide, rfl⟩, o3, ⟨by decide, by decide⟩⟩
    (by intro o' _ hs; cases hs.2.1) (fun a => na a.2) (fun a => na' a.2)).1

/-- What is found for `%x` in both versions. -/
example : references debugEnv (serverWith [] c!"u" (joinFirst ++ joinSecond)) c!"u" ⟨4, 9⟩ = .ok (some [⟨c!"u", ⟨⟨5, 21⟩, ⟨5, 23⟩⟩⟩]) ∧
    references debugEnv (serverWith [] c!"u" (joinOther ++ joinSecond)) c!"u" ⟨5, 9⟩ = .ok (some [⟨c!"u", ⟨⟨6, 21⟩, ⟨6, 23⟩⟩⟩]) := by
  constructor <;> decide +kernel

/-- The hypotheses of `C87_above` hold for `%x` when the text below its function is replaced. -/
example : FoundAlike debugEnv c!"u" 0 (serverWith [] c!"u" (joinSecond ++ joinFirst)) ⟨2, 9⟩
    0 (serverWith [] c!"u" (joinSecond ++ [])) ⟨2, 9⟩ := by
  obtain ⟨resA, resB, _, hA, eA, hB, eB, _, _, _, o3, _, _⟩ := join_facts
  have hw : ∀ t, (match parseFromStr (joinSecond ++ t) with | .ok c => decide (¬ IsGlobalVar c.stmts c!"%x") | _ => false) = true →
      ∃ res, parseFromStr (joinSecond ++ t) = .ok res ∧ ¬ IsGlobalVar res.stmts c!"%x" := by
    intro t key
    generalize parseFromStr (joinSecond ++ t) = r at key
    split at key
    · exact ⟨_, rfl, of_decide_eq_true key⟩
    · cases key
  have hw0 : ∃ res, parseFromStr [] = .ok res ∧ res.errors = [] := by
    have key : (match parseFromStr [] with | .ok c => decide (c.errors = []) | _ => false) = true := by decide +kernel
    generalize parseFromStr [] = r at key
    split at key
    · exact ⟨_, rfl, of_decide_eq_true key⟩
    · cases key
  obtain ⟨res, h, na⟩ := hw joinFirst (by decide +kernel)
  obtain ⟨res', h', na'⟩ := hw [] (by decide +kernel)
  obtain ⟨res0, h0, e0⟩ := hw0
  exact (C87_above joinAbove' ⟨joinAbove'.plain, by decide +kernel, joinAbove'.ends, joinAbove'.last, by decide +kernel⟩ hB (settled_of_clean hB eB joinAbove'.ends) hA (.inl eA) h0 (.inl e0)
    h h' (serverWith_opened (by decide +kernel)) (serverWith_opened (by decide +kernel)) debugEnv (p := ⟨2, 9⟩)
    ⟨35, ⟨26, c!"  int32 %x = load int32 @v", .later (content := c!"define void @f() {") (eol := c!"\n") (by decide) (.inl rfl) (by simp)
      (.later (content := c!"entry:") (eol := c!"\n") (by decide) (.inl rfl) (by simp)
        (.here (content := c!"  int32 %x = load int32 @v") (tail := joinSecond.drop 52) (by decide)
          (by intro c cs h; left; simp [joinSecond] at h; exact h.1.symm))), by decide, rfl⟩, o3, ⟨by decide, by decide⟩⟩
    (by intro o' _ hs; cases hs.1) (fun a => na a.2) (fun a => na' a.2)).1

/-- Above `joinFirst`, a function is being typed. -/
def joinTyping : Str := c!"define ?void @h(\n" ++ joinFirst

theorem typingAbove : Above joinTyping 3 joinSecond where
  plain := by decide +kernel
  plainB := by decide +kernel
  ends := .inr ⟨joinTyping.dropLast, by decide +kernel⟩
  last := .later (content := c!"define ?void @h(") (eol := c!"\n") (by decide) (.inl rfl) (by simp) joinAbove.last
  size := by decide +kernel

theorem typing_settled : Settled joinTyping := by
  obtain ⟨resA, _, _, hA, eA, _⟩ := join_facts
  refine ⟨c!"define ?void @h(\n", _, joinFirst, resA, rfl, wholeLines_check (by decide +kernel), hA, eA, .inr ?_, joinAbove.ends⟩
  have key : (match parseFromStr joinFirst with | .ok a => decide (a.stmts ≠ []) | _ => false) = true := by decide +kernel
  rw [hA] at key
  exact of_decide_eq_true key

/-- Typing a function above (the document has two errors now) leaves the answers below as they are, one line further down. -/
example : FoundAlike debugEnv c!"u" 2 (serverWith [] c!"u" (joinFirst ++ joinSecond)) ⟨4, 9⟩
    3 (serverWith [] c!"u" (joinTyping ++ joinSecond)) ⟨5, 9⟩ := by
  obtain ⟨resA, resB, res, hA, eA, hB, eB, h, _, _, o3, _, na⟩ := join_facts
  have key : (match parseFromStr joinTyping, parseFromStr (joinTyping ++ joinSecond) with
    | .ok a, .ok c => decide (a.errors.length = 2) && decide (¬ IsGlobalVar c.stmts c!"%x")
    | _, _ => false) = true := by decide +kernel
  generalize h₁ : parseFromStr joinTyping = r₁ at key
  generalize h₃ : parseFromStr (joinTyping ++ joinSecond) = r₃ at key
  split at key
  · simp only [Bool.and_eq_true, decide_eq_true_eq] at key
    exact (C87_below joinAbove typingAbove hA (settled_of_clean hA eA joinAbove.ends) h₁ typing_settled hB (.inl eB) h h₃
      (serverWith_opened (by decide +kernel)) (serverWith_opened (by decide +kernel)) debugEnv (q := ⟨2, 9⟩)
      ⟨35, ⟨26, c!"  int32 %x = load int32 @v", .later (content := c!"define void @f() {") (eol := c!"\n") (by decide) (.inl rfl) (by simp)
        (.later (content := c!"entry:") (eol := c!"\n") (by decide) (.inl rfl) (by simp)
          (.here (content := c!"  int32 %x = load int32 @v") (tail := joinSecond.drop 52) (by decide)
            (by intro c cs h; left; simp [joinSecond] at h; exact h.1.symm))), by decide, rfl⟩, o3, ⟨by decide, by decide⟩⟩
      (by intro o' _ hs; cases hs.2.1) (fun a => na a.2) (fun a => key.2 a.2)).1
  · cases key

/-- The graph of `@f` is the same in both versions. -/
example : executeCommand (serverWith [] c!"u" (joinOther ++ joinSecond)) c!"visualize-cfg" [.str c!"u", .str c!"@f"] =
    executeCommand (serverWith [] c!"u" (joinFirst ++ joinSecond)) c!"visualize-cfg" [.str c!"u", .str c!"@f"] := by
  obtain ⟨resA, resB, res, hA, eA, hB, eB, _⟩ := join_facts
  obtain ⟨resA', res', hA', eA', _⟩ := other_facts
  refine (C87_graph joinAbove otherAbove hA (settled_of_clean hA eA joinAbove.ends) hA' (settled_of_clean hA' eA' otherAbove.ends) hB (.inl eB) hB (.inl eB) (serverWith_opened (by decide +kernel))
    (serverWith_opened (by decide +kernel)) c!"@f").2 rfl ?_
  have key : (match parseFromStr joinFirst, parseFromStr joinOther with
    | .ok a, .ok c => (docFuncs a.stmts ++ docFuncs c.stmts).all fun f => decide (f.1.1 ≠ c!"@f")
    | _, _ => false) = true := by decide +kernel
  rw [hA, hA'] at key
  intro f hf
  exact of_decide_eq_true (List.all_eq_true.mp key f hf)

end Examples

end HyperIR
