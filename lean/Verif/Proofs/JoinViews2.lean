import Verif.Proofs.JoinViews
import Verif.Proofs.Annotations
import Verif.Proofs.RemarkLines
import Verif.Props.Hints

/-! What the views of a document show of its parts: outline, lenses, highlighting and backtraces. -/

namespace HyperIR
open Spec

/-! ### Outline -/

theorem docGlobals_append (a b : List Statement) : docGlobals (a ++ b) = docGlobals a ++ docGlobals b := by
  induction a with
  | nil => rfl
  | cons s a ih => cases s <;> simp [docGlobals, ih]

theorem docGlobals_moved {k : Nat} (ss : List Statement) : docGlobals (ss.map (movedStmt k)) = (docGlobals ss).map (moved k) := by
  induction ss with
  | nil => rfl
  | cons s ss ih => cases s <;> simp [docGlobals, movedStmt, ih]

/-- The entry of a global variable. -/
def constantAt (rope : Str) (n : Spanned Str) : Option DocumentSymbol :=
  (rangeToLsp rope n.2).map fun r => { name := n.1, kind := .constant, range := r, selectionRange := r }

section
variable [Unicode] {A B : Str} {resA resB res : ParserResult} {docA docB doc : AnalyzedDocument}

theorem outlineGlobals_perm {text : Str} (h : parseFromStr text = .ok res) (hix : createIndex text res.tokens res.stmts = .ok doc.index)
    (ord : IterOrder) : (outlineGlobals ord doc).Perm ((docGlobals res.stmts).filterMap (constantAt doc.rope)) := by
  refine List.Perm.trans (List.Perm.of_eq ?_) ((outline_names h hix ord).filterMap (constantAt doc.rope))
  unfold outlineGlobals
  generalize ord.run doc.index.globalVars = xs
  induction xs with
  | nil => rfl
  | cons x xs ih =>
    rw [List.flatMap_cons, List.flatMap_cons, List.filterMap_append, ih, List.filterMap_map]
    rfl

theorem JoinedIx.outlineGlobals (j : JoinedIx A B resA resB res docA.index docB.index doc.index) (hA : docA.rope = A) (hB : docB.rope = B)
    (hd : doc.rope = A ++ B) (ord : IterOrder) :
    (outlineGlobals ord doc).Perm (outlineGlobals ord docA ++ (outlineGlobals ord docB).map (lowerSymbol (linesOf A))) := by
  refine (outlineGlobals_perm j.both j.ix ord).trans ?_
  refine List.Perm.trans ?_ ((outlineGlobals_perm j.first j.ixA ord).append ((outlineGlobals_perm j.second j.ixB ord).map _)).symm
  refine List.Perm.of_eq ?_
  rw [j.stmts, docGlobals_append, docGlobals_moved, List.filterMap_append, hd, hA, hB]
  congr 1
  · refine filterMap_congr' fun n hn => ?_
    have := (C02_token_spans j.first).1 _ (docGlobals_token j.first hn)
    simp only [Inside] at this
    unfold constantAt
    rw [rangeToLsp_front j.under (by omega) (by omega)]
  · rw [List.filterMap_map, List.map_filterMap]
    congr 1
    funext n
    simp only [Function.comp, constantAt, moved, rangeToLsp_behind j.under]
    cases rangeToLsp B n.2 <;> rfl

/-! ### Lenses -/

/-- The lens of a function. -/
def lensAt (uri : Str) (name : Str) (r : Range) : CodeLens := { range := r, command := c!"visualize-cfg", arguments := [.str uri, .str name] }

theorem lens_mem {text : Str} (h : parseFromStr text = .ok res) (hix : createIndex text res.tokens res.stmts = .ok doc.index) (hr : doc.rope = text)
    (ord : IterOrder) {uri : Str} {lens : CodeLens} : lens ∈ (ord.run doc.index.functions).filterMap (codeLensOf uri doc.rope) ↔
      ∃ f ∈ docFuncs res.stmts, (∀ f' ∈ docFuncs res.stmts, f'.1.1 = f.1.1 → f' = f) ∧ ∃ r, rangeToLsp text f.1.2 = some r ∧ lens = lensAt uri f.1.1 r := by
  have hdk := distinctKeys h hix
  have hentry : ∀ x ∈ ord.run doc.index.functions, x.2.defs = listed doc.index .function none x.1 .def_ := by
    intro x hx
    have hm := (ord.perm _).mem_iff.mp hx
    have : entry? doc.index .function none x.1 = some x.2 := StrMap.get?_of_mem hdk.functions hm
    exact entry_get this .def_
  rw [List.mem_filterMap, hr]
  constructor
  · rintro ⟨x, hx, hl⟩
    have he := hentry x hx
    unfold codeLensOf at hl
    split at hl
    · rename_i sp hd
      rw [he] at hd
      obtain ⟨f, hf, e⟩ := (listed_func h hix).mp (by rw [hd]; simp : sp ∈ listed doc.index .function none x.1 .def_)
      cases hrg : rangeToLsp text sp with
      | none => rw [hrg] at hl; cases hl
      | some r =>
        rw [hrg] at hl
        simp only [Option.map_some, Option.some.injEq] at hl
        refine ⟨f, hf, ?_, r, by rw [e]; exact hrg, by rw [← hl, e]; rfl⟩
        intro f' hf' e'
        have : f'.1.2 ∈ listed doc.index .function none x.1 .def_ := (listed_func h hix).mpr ⟨f', hf', by rw [e] at e'; rw [← e']⟩
        rw [hd, List.mem_singleton] at this
        exact docFuncs_span_inj h hf' hf (by rw [this, e])
    · cases hl
  · rintro ⟨f, hf, hu, r, hrg, rfl⟩
    have hmem : f.1.2 ∈ listed doc.index .function none f.1.1 .def_ := (listed_func h hix).mpr ⟨f, hf, rfl⟩
    cases hent : entry? doc.index .function none f.1.1 with
    | none => unfold listed at hmem; rw [hent] at hmem; cases hmem
    | some u =>
      have hm : (f.1.1, u) ∈ ord.run doc.index.functions := (ord.perm _).mem_iff.mpr (StrMap.mem_of_get? hent)
      refine ⟨_, hm, ?_⟩
      have hd := hentry _ hm
      have hnd := listed_nodup h hix .function none f.1.1 .def_
      have hsingle : listed doc.index .function none f.1.1 .def_ = [f.1.2] := by
        have hallsp : ∀ sp ∈ listed doc.index .function none f.1.1 .def_, sp = f.1.2 := by
          intro sp hsp
          obtain ⟨f', hf', e⟩ := (listed_func h hix).mp hsp
          rw [← hu f' hf' (by rw [e]), e]
        generalize listed doc.index .function none f.1.1 .def_ = l at *
        match l, hnd, hmem, hallsp with
        | [], _, hm, _ => cases hm
        | [a], _, _, ha => rw [ha a (by simp)]
        | a :: b :: l, hn, _, ha =>
          rw [List.nodup_cons] at hn
          exact absurd (by rw [ha a (by simp), ha b (by simp)]; simp) hn.1
      rw [hsingle] at hd
      unfold codeLensOf
      simp only at hd
      simp only [hd, hrg, Option.map_some]
      rfl

/-! ### Highlighting -/

omit [Unicode] in
theorem posOf_front (hu : Under A B) {b : Nat} (hb : b < A.length) : posOf (A ++ B) b = posOf A b := by
  have h1 := lineToChar_byteToLine b A
  have h2 := lineToChar_byteToLine b (A ++ B)
  have h3 := lineStart_le b A
  rw [byteToChar_ascii hu.ascii (by omega)] at h3
  rw [byteToLine_front hu.lined B hb hu.ascii, lineToChar_front hu.lined B h1 (by omega)] at h2
  have hl : lineStart b (A ++ B) = lineStart b A := by simpa using h2.symm
  unfold posOf
  rw [hl, byteToLine_front hu.lined B hb hu.ascii, byteToChar_front B hb hu.ascii]

theorem Joined.highlights (j : Joined A B resA resB res) {semA semB sem : List HIRSemanticToken} (hA : semanticTokensFromTokens resA.tokens = .ok semA)
    (hB : semanticTokensFromTokens resB.tokens = .ok semB) (h : semanticTokensFromTokens res.tokens = .ok sem) (b : Build) :
    ∃ lA lB l, convertToLspTokens b A 0 0 semA = .ok lA ∧ convertToLspTokens b B 0 0 semB = .ok lB ∧ convertToLspTokens b (A ++ B) 0 0 sem = .ok l ∧
      decode ⟨0, 0⟩ l = decode ⟨0, 0⟩ lA ++ (decode ⟨0, 0⟩ lB).map (lowerHighlight (linesOf A)) := by
  have hsz := j.under.size
  have hsz' := hsz
  rw [List.length_append] at hsz'
  have hzero : ∀ (t : Str) (x : Nat), PosLe ⟨0, 0⟩ (posOf t x) := by
    intro t x
    unfold PosLe
    simp only
    omega
  have conv : ∀ {text : Str} {r : ParserResult} {s : List HIRSemanticToken}, parseFromStr text = .ok r → semanticTokensFromTokens r.tokens = .ok s →
      text.length < 2 ^ 32 → ∃ l, convertToLspTokens b text 0 0 s = .ok l ∧ decode ⟨0, 0⟩ l = s.map (highlightOf text) := by
    intro text r s hr hs hlen
    obtain ⟨q1, q2⟩ := C02_token_spans hr
    obtain ⟨s1, s2, _⟩ := semanticTokens_starts hs q1 q2
    exact convert_decode b hlen (prev := ⟨0, 0⟩) s1 (fun t _ => hzero _ _) s2
  obtain ⟨lA, a1, a2⟩ := conv j.first hA (by omega)
  obtain ⟨lB, b1, b2⟩ := conv j.second hB (by omega)
  obtain ⟨l, c1, c2⟩ := conv j.both h hsz
  refine ⟨lA, lB, l, a1, b1, c1, ?_⟩
  have hmv : semanticTokensFromTokens (resB.tokens.map (moved A.length)) = .ok (semB.map (mvSem A.length)) := by
    rw [semanticTokens_moved, hB]
    rfl
  have hcat := semanticTokens_append hA hmv
  rw [← j.tokens, h] at hcat
  simp only [Outcome.ok.injEq] at hcat
  subst hcat
  rw [a2, b2, c2, List.map_append, List.map_map, List.map_map]
  congr 1
  · refine List.map_congr_left fun t ht => ?_
    obtain ⟨q1, q2⟩ := C02_token_spans j.first
    obtain ⟨_, _, s3⟩ := semanticTokens_starts hA q1 q2
    obtain ⟨t', k1, k2, _⟩ := s3 t ht
    have := q1 t' k1
    simp only [Inside] at this
    simp only [highlightOf, posOf_front j.under (show t.start < A.length by omega)]
  · refine List.map_congr_left fun t _ => ?_
    simp only [Function.comp, highlightOf, mvSem, lowerHighlight, posOf_behind j.under]

/-! ### Backtraces -/

omit [Unicode] in
theorem lastText_append {src name : Str} (a b : List Statement) : lastText src name (a ++ b) = (lastText src name b).or (lastText src name a) := by
  induction a with
  | nil => simp [lastText]
  | cons s a ih => rw [List.cons_append, lastText, lastText, ih, Option.or_assoc]

omit [Unicode] in
theorem lastText_moved (ha : Ascii A) (name : Str) (ss : List Statement) :
    lastText (A ++ B) name (ss.map (movedStmt A.length)) = lastText B name ss := by
  induction ss with
  | nil => rfl
  | cons s ss ih =>
    rw [List.map_cons, lastText, lastText, ih]
    congr 1
    cases s with
    | dbgAnnotation n d =>
      simp only [movedStmt, ownText]
      rw [annotationValue_moved ha]
      rfl
    | _ => rfl

theorem lastText_front (h : parseFromStr A = .ok resA) (ha : Ascii (A ++ B)) (name : Str) :
    lastText (A ++ B) name resA.stmts = lastText A name resA.stmts := by
  have key : ∀ ss : List Statement, (∀ s ∈ ss, s ∈ resA.stmts) → lastText (A ++ B) name ss = lastText A name ss := by
    intro ss
    induction ss with
    | nil => intro _; rfl
    | cons s ss ih =>
      intro hsub
      rw [lastText, lastText, ih fun s hs => hsub s (by simp [hs])]
      congr 1
      cases s with
      | dbgAnnotation n d =>
        simp only [ownText]
        have : annotationValue (A ++ B) d = annotationValue A d := by
          unfold annotationValue
          cases hf : d.head? with
          | none => rfl
          | some f => cases hl : d.getLast? with
            | none => rfl
            | some l =>
              simp only
              have hin := (C02_token_spans h).1 l
                (C07_tree_mentions_tokens h _ (hsub _ (List.mem_cons_self)) l (by simp [stmtMentions, List.mem_of_getLast? hl])).1
              simp only [Inside] at hin
              rw [sliceBytes_follow ha hin.2]
        rw [this]
      | _ => rfl
  exact key _ fun _ hs => hs

omit [Unicode] in
theorem lastText_stmt {src name : Str} {ss : List Statement} (h : ∀ n d, .dbgAnnotation n d ∈ ss → n.1 ≠ name) : lastText src name ss = none := by
  induction ss with
  | nil => rfl
  | cons s ss ih =>
    rw [lastText, ih fun n d hm => h n d (by simp [hm])]
    cases s with
    | dbgAnnotation n d => simp [ownText, h n d (by simp)]
    | _ => rfl

omit [Unicode] in
theorem collectO_append {α β : Type} {f : α → Outcome (List β)} (a b : List α) : collectO f (a ++ b) =
    match collectO f a, collectO f b with
    | .ok x, .ok y => .ok (x ++ y)
    | _, _ => .panic := by
  induction a with
  | nil => simp only [List.nil_append, collectO]; cases collectO f b <;> rfl
  | cons x a ih =>
    simp only [List.cons_append, collectO, ih]
    cases f x with
    | panic => simp
    | ok y => cases collectO f a <;> cases collectO f b <;> simp

omit [Unicode] in
theorem collectO_eq {α β : Type} {f g : α → Outcome (List β)} {l : List α} (h : ∀ x ∈ l, f x = g x) : collectO f l = collectO g l := by
  induction l with
  | nil => rfl
  | cons x l ih => simp only [collectO, h x (by simp), ih fun y hy => h y (by simp [hy])]

omit [Unicode] in
theorem allInstructions_append (a b : List Statement) : allInstructions (a ++ b) = allInstructions a ++ allInstructions b := by
  unfold allInstructions
  rw [List.flatMap_append]

theorem JoinedIx.backtraces (j : JoinedIx A B resA resB res docA.index docB.index doc.index) (hA : docA.rope = A) (hB : docB.rope = B)
    (hd : doc.rope = A ++ B) (sA : docA.stmts = resA.stmts) (sB : docB.stmts = resB.stmts) (sd : doc.stmts = res.stmts)
    (ha : Ascii (A ++ B)) (n1 : NoRefs resA.stmts resB.stmts) (n2 : NoRefs resB.stmts resA.stmts) (env : Env) (roots : List Url) :
    backtraceHints env roots doc = match backtraceHints env roots docA, (backtraceHints env roots docB).map' (List.map (lowerHint (linesOf A))) with
      | .ok x, .ok y => .ok (x ++ y)
      | _, _ => .panic := by
  have hvals : ∀ name, doc.index.dbgAnnotationValues.get? name =
      (docB.index.dbgAnnotationValues.get? name).or (docA.index.dbgAnnotationValues.get? name) := by
    intro name
    rw [createIndex_vals j.ix, createIndex_vals j.ixA, createIndex_vals j.ixB, j.stmts, lastText_append, lastText_moved j.under.ascii,
      lastText_front j.first ha]
  rw [← (movedDoc_below j.under hB).backtraces env roots]
  unfold backtraceHints
  rw [sd, j.stmts, allInstructions_append, collectO_append, sA, show (docBelow A B docB).stmts = docB.stmts.map (movedStmt A.length) from rfl, sB]
  have e1 : collectO (backtraceHint env roots doc) (allInstructions resA.stmts) = collectO (backtraceHint env roots docA) (allInstructions resA.stmts) := by
    refine collectO_eq fun i hi => ?_
    rw [allInstructions_eq] at hi
    unfold backtraceHint
    cases hr : i.dbgRef with
    | none => rfl
    | some d =>
      simp only
      have hnone : docB.index.dbgAnnotationValues.get? d.1 = none := by
        rw [createIndex_vals j.ixB]
        exact lastText_stmt fun n x hm => n1 i hi d hr n x hm
      have hin := (C02_token_spans j.first).1 _ (instr_dbgRef j.first i hi d hr)
      simp only [Inside] at hin
      rw [hvals, hnone, Option.none_or, hd, hA, offsetToLspPos_front j.under hin.2]
  have e2 : collectO (backtraceHint env roots doc) (allInstructions (resB.stmts.map (movedStmt A.length))) =
      collectO (backtraceHint env roots (docBelow A B docB)) (allInstructions (resB.stmts.map (movedStmt A.length))) := by
    refine collectO_eq fun i hi => ?_
    rw [allInstructions_moved] at hi
    obtain ⟨i, hi', rfl⟩ := List.mem_map.mp hi
    rw [allInstructions_eq] at hi'
    unfold backtraceHint
    cases hr : (movedInstr A.length i).dbgRef with
    | none => rfl
    | some d =>
      simp only
      have hnone : docA.index.dbgAnnotationValues.get? d.1 = none := by
        rw [show (movedInstr A.length i).dbgRef = i.dbgRef.map (moved A.length) from rfl, Option.map_eq_some_iff] at hr
        obtain ⟨d', hr, rfl⟩ := hr
        rw [createIndex_vals j.ixA]
        exact lastText_stmt fun n x hm => n2 i hi' d' hr n x hm
      rw [hvals, hnone, Option.or_none, hd]
      rfl
  rw [e1, e2]
  generalize collectO (backtraceHint env roots docA) (allInstructions resA.stmts) = x,
    collectO (backtraceHint env roots (docBelow A B docB)) (allInstructions (resB.stmts.map (movedStmt A.length))) = y
  cases x <;> cases y <;> rfl

end

end HyperIR
