import Verif.Props.Join
import Verif.Proofs.JoinViews2

/-
C80: the views of two documents put together.
-/

namespace HyperIR

open Spec

section
variable [Unicode] {A B : Str} {n : Nat} {resA resB res : ParserResult} {stA stB st : ServerState} {uri : Str}

/-- The whole is read as its parts. -/
theorem joined_parse (hab : Above A n B) (hA : parseFromStr A = .ok resA) (heA : Settled A) (hB : parseFromStr B = .ok resB)
    (hr : resB.errors = [] ∨ resB.stmts ≠ []) : ∃ res, parseFromStr (A ++ B) = .ok res :=
  let ⟨_, h, _⟩ := C88_settled_ascii (above_under hab).1.ascii heA hA hB hr
  ⟨_, h⟩

/-- C80: put a document below a settled document (free of errors from some line on).  The outline and the folding ranges of the whole are those of the first document and
those of the second, moved down; and so is the highlighting. -/
theorem C80_views (hab : Above A n B) (hA : parseFromStr A = .ok resA) (heA : Settled A) (hB : parseFromStr B = .ok resB)
    (hr : resB.errors = [] ∨ resB.stmts ≠ []) (hopenA : Opened stA uri A) (hopenB : Opened stB uri B) (hopen : Opened st uri (A ++ B)) (env : Env) :
    (∃ lA lB l, documentSymbol env stA uri = some lA ∧ documentSymbol env stB uri = some lB ∧ documentSymbol env st uri = some l ∧
      l.Perm (lA ++ lB.map (lowerSymbol n))) ∧
    (∃ lA lB l, foldingRange stA uri = some lA ∧ foldingRange stB uri = some lB ∧ foldingRange st uri = some l ∧
      l.Perm (lA ++ lB.map (lowerFold n))) ∧
    (∃ lA lB l, semanticTokensFull env stA uri = .ok (some lA) ∧ semanticTokensFull env stB uri = .ok (some lB) ∧
      semanticTokensFull env st uri = .ok (some l) ∧
      decode ⟨0, 0⟩ l = decode ⟨0, 0⟩ lA ++ (decode ⟨0, 0⟩ lB).map (lowerHighlight n)) := by
  obtain ⟨res, h⟩ := joined_parse hab hA heA hB hr
  obtain ⟨docA, docB, doc, s⟩ := servers hab hA heA hB hr h hopenA hopenB hopen
  have hn := (above_under hab).2
  have hm := movedDoc_below s.joined.under s.ropeB
  subst hn
  refine ⟨⟨_, _, _, by unfold documentSymbol; rw [s.getA]; rfl, by unfold documentSymbol; rw [s.getB]; rfl,
      by unfold documentSymbol; rw [s.get]; rfl, ?_⟩,
    ⟨_, _, _, by unfold foldingRange; rw [s.getA]; rfl, by unfold foldingRange; rw [s.getB]; rfl,
      by unfold foldingRange; rw [s.get]; rfl, ?_⟩, ?_⟩
  · have e : outlineFunctions (docBelow A B docB) = (outlineFunctions docB).map (lowerSymbol (linesOf A)) := by
      unfold outlineFunctions
      rw [show (docBelow A B docB).index.functionBodies = docB.index.functionBodies.map (mvFun A.length) from rfl, List.filterMap_map, List.map_filterMap]
      congr 1
      funext f
      simp only [Function.comp, mvFun, moved, hm.range]
      cases rangeToLsp docB.rope f.completeRange with
      | none => rfl
      | some r => cases rangeToLsp docB.rope f.name.2 <;> rfl
    simp only
    rw [s.joined.outlineFunctions s.ropeA s.rope, e, List.map_append]
    refine ((s.joined.outlineGlobals s.ropeA s.ropeB s.rope env.ord).append_right _).trans ?_
    simp only [List.append_assoc]
    refine List.Perm.append_left _ ?_
    rw [← List.append_assoc, ← List.append_assoc]
    exact List.Perm.append_right _ List.perm_append_comm
  · rw [← hm.folds]
    exact s.joined.folds s.ropeA s.rope
  · obtain ⟨lA, lB, l, a1, a2, a3, a4⟩ := s.joined.highlights s.semA s.semB s.sem env.build
    refine ⟨lA, lB, l, ?_, ?_, ?_, a4⟩
    · unfold semanticTokensFull; rw [s.getA]; simp only; rw [s.ropeA, a1]
    · unfold semanticTokensFull; rw [s.getB]; simp only; rw [s.ropeB, a2]
    · unfold semanticTokensFull; rw [s.get]; simp only; rw [s.rope, a3]

/-- C80: the lenses of the whole are those of the parts, without the lenses of functions that are defined in both. -/
theorem C80_lenses (hab : Above A n B) (hA : parseFromStr A = .ok resA) (heA : Settled A) (hB : parseFromStr B = .ok resB)
    (hr : resB.errors = [] ∨ resB.stmts ≠ []) (hopenA : Opened stA uri A) (hopenB : Opened stB uri B) (hopen : Opened st uri (A ++ B)) (env : Env) :
    ∃ lA lB l, codeLens env stA uri = some lA ∧ codeLens env stB uri = some lB ∧ codeLens env st uri = some l ∧ ∀ lens, lens ∈ l ↔
      (lens ∈ lA ∧ ∀ f ∈ docFuncs resB.stmts, lens.arguments ≠ [.str uri, .str f.1.1]) ∨
      ∃ lens' ∈ lB, lens = lowerLens n lens' ∧ ∀ f ∈ docFuncs resA.stmts, lens.arguments ≠ [.str uri, .str f.1.1] := by
  obtain ⟨res, h⟩ := joined_parse hab hA heA hB hr
  obtain ⟨docA, docB, doc, s⟩ := servers hab hA heA hB hr h hopenA hopenB hopen
  have hn := (above_under hab).2
  have hu := s.joined.under
  subst hn
  refine ⟨_, _, _, by unfold codeLens; rw [s.getA]; rfl, by unfold codeLens; rw [s.getB]; rfl, by unfold codeLens; rw [s.get]; rfl, ?_⟩
  intro lens
  rw [lens_mem hA s.joined.ixA s.ropeA, lens_mem h s.joined.ix s.rope]
  have hname : ∀ {u x y : Str} {r : Range}, (lensAt u x r).arguments ≠ [.str u, .str y] ↔ y ≠ x := by
    intro u x y r
    simp only [lensAt, ne_eq, List.cons.injEq, Json.str.injEq, true_and, and_true]
    exact ⟨fun a b => a b.symm, fun a b => a b.symm⟩
  have hin : ∀ f ∈ docFuncs resA.stmts, rangeToLsp (A ++ B) f.1.2 = rangeToLsp A f.1.2 := by
    intro f hf
    have := (C02_token_spans hA).1 _ (func_tokens hA hf).1
    simp only [Inside] at this
    exact rangeToLsp_front hu (by omega) (by omega)
  have hinB : ∀ f, rangeToLsp (A ++ B) (movedFunc A.length f).1.2 = (rangeToLsp B f.1.2).map (lowerRange (linesOf A)) := fun f => by
    simp only [movedFunc, moved]
    exact rangeToLsp_behind hu _
  have hmem : ∀ f, f ∈ docFuncs res.stmts ↔ f ∈ docFuncs resA.stmts ∨ ∃ f' ∈ docFuncs resB.stmts, movedFunc A.length f' = f := by
    intro f
    rw [s.joined.toJoined.stmts, docFuncs_append, docFuncs_moved, List.mem_append, List.mem_map]
  -- a function of the first document is not one of the second
  have hapart : ∀ f ∈ docFuncs resA.stmts, ∀ f' : Spanned Str × Span × List BasicBlock, movedFunc A.length f' ≠ f := by
    intro f hf f' e
    have := (C02_token_spans hA).1 _ (func_tokens hA hf).1
    rw [← e] at this
    simp only [Inside, movedFunc, moved, movedSpan] at this
    omega
  constructor
  · rintro ⟨f, hf, huq, r, hrg, rfl⟩
    rcases (hmem f).mp hf with hfA | ⟨f, hfB, rfl⟩
    · left
      refine ⟨⟨f, hfA, fun f' hf' => huq f' ((hmem _).mpr (.inl hf')), r, by rw [← hin f hfA]; exact hrg, rfl⟩, ?_⟩
      intro f' hf'
      rw [hname]
      intro e
      exact hapart f hfA f' (huq _ ((hmem _).mpr (.inr ⟨f', hf', rfl⟩)) e)
    · right
      rw [hinB, Option.map_eq_some_iff] at hrg
      obtain ⟨r, hrg, rfl⟩ := hrg
      refine ⟨lensAt uri f.1.1 r, (lens_mem hB s.joined.ixB s.ropeB _).mpr ⟨f, hfB, ?_, r, hrg, rfl⟩, rfl, ?_⟩
      · intro f' hf' e
        have := huq _ ((hmem _).mpr (.inr ⟨f', hf', rfl⟩)) e
        exact docFuncs_span_inj hB hf' hfB (movedSpan_inj.mp (congrArg (fun x => x.1.2) this))
      · intro f' hf'
        rw [hname]
        intro e
        exact hapart f' hf' f (huq f' ((hmem _).mpr (.inl hf')) e).symm
  · rintro (⟨⟨f, hf, huq, r, hrg, rfl⟩, hno⟩ | ⟨lens', hl', rfl, hno⟩)
    · refine ⟨f, (hmem _).mpr (.inl hf), ?_, r, by rw [hin f hf]; exact hrg, rfl⟩
      intro f' hf' e
      rcases (hmem f').mp hf' with h1 | ⟨f'', h1, rfl⟩
      · exact huq f' h1 e
      · exact absurd e (hname.mp (hno f'' h1))
    · obtain ⟨f, hf, huq, r, hrg, rfl⟩ := (lens_mem hB s.joined.ixB s.ropeB _).mp hl'
      refine ⟨movedFunc A.length f, (hmem _).mpr (.inr ⟨f, hf, rfl⟩), ?_, lowerRange (linesOf A) r, by rw [hinB, hrg]; rfl, rfl⟩
      intro f' hf' e
      rcases (hmem f').mp hf' with h1 | ⟨f'', h1, rfl⟩
      · exact absurd e (hname.mp (hno f' h1))
      · rw [huq f'' h1 e]

/-- C80: the graph of a function is that of the first document that defines it. -/
theorem C80_graph (hab : Above A n B) (hA : parseFromStr A = .ok resA) (heA : Settled A) (hB : parseFromStr B = .ok resB)
    (hr : resB.errors = [] ∨ resB.stmts ≠ []) (hopenA : Opened stA uri A) (hopenB : Opened stB uri B) (hopen : Opened st uri (A ++ B)) (name : Str) :
    ((∃ f ∈ docFuncs resA.stmts, f.1.1 = name) →
      executeCommand st c!"visualize-cfg" [.str uri, .str name] = executeCommand stA c!"visualize-cfg" [.str uri, .str name]) ∧
    ((∀ f ∈ docFuncs resA.stmts, f.1.1 ≠ name) →
      executeCommand st c!"visualize-cfg" [.str uri, .str name] = executeCommand stB c!"visualize-cfg" [.str uri, .str name]) := by
  obtain ⟨res, h⟩ := joined_parse hab hA heA hB hr
  obtain ⟨docA, docB, doc, s⟩ := servers hab hA heA hB hr h hopenA hopenB hopen
  have hg := s.joined.graph name
  have hexec : ∀ {st : ServerState} {doc : AnalyzedDocument}, st.docs.get? uri = some doc →
      executeCommand st c!"visualize-cfg" [.str uri, .str name] =
        match (doc.index.functionBodies.find? (fun b => decide (b.name.1 = name))).map createCfgDot with
        | none => .error (.invalidParams (c!"function `" ++ name ++ c!"` not found"))
        | some g => .ok { title := c!"CFG for " ++ name, dotGraph := g } := by
    intro st doc hst
    unfold executeCommand
    rw [decide_eq_true rfl]
    simp only [hst]
    cases doc.index.functionBodies.find? (fun b => decide (b.name.1 = name)) <;> rfl
  have hfuncs : ∀ b ∈ docA.index.functionBodies, (b.name, b.completeRange, b.basicBlocks) ∈ docFuncs resA.stmts := fun b hb => bodies_mem hA s.joined.ixA hb
  rw [hexec s.get, hexec s.getA, hexec s.getB, hg]
  constructor
  · rintro ⟨f, hf, e⟩
    rw [← bodies_eq hA s.joined.ixA] at hf
    obtain ⟨b, hb, rfl⟩ := List.mem_map.mp hf
    cases hfd : docA.index.functionBodies.find? (fun b => decide (b.name.1 = name)) with
    | none =>
      rw [List.find?_eq_none] at hfd
      exact absurd (decide_eq_true e) (hfd b hb)
    | some f => rfl
  · intro hno
    cases hfd : docA.index.functionBodies.find? (fun b => decide (b.name.1 = name)) with
    | none => rfl
    | some f => 
      have := List.find?_some hfd
      exact absurd (of_decide_eq_true this) (hno _ (hfuncs f (List.mem_of_find?_eq_some hfd)))

/-- C80: the hints of the whole are those of the parts, if no instruction of one document refers to an annotation of the other. -/
theorem C80_hints (hab : Above A n B) (hA : parseFromStr A = .ok resA) (heA : Settled A) (hB : parseFromStr B = .ok resB)
    (hr : resB.errors = [] ∨ resB.stmts ≠ []) (hopenA : Opened stA uri A) (hopenB : Opened stB uri B) (hopen : Opened st uri (A ++ B))
    (rA : stA.roots = st.roots) (rB : stB.roots = st.roots) (n1 : NoRefs resA.stmts resB.stmts) (n2 : NoRefs resB.stmts resA.stmts) (env : Env) :
    (inlayHint env st uri = .panic ↔ inlayHint env stA uri = .panic ∨ inlayHint env stB uri = .panic) ∧
    ∀ lA lB, inlayHint env stA uri = .ok (some lA) → inlayHint env stB uri = .ok (some lB) →
      ∃ l, inlayHint env st uri = .ok (some l) ∧ l.Perm (lA ++ lB.map (lowerHint n)) := by
  obtain ⟨res, h⟩ := joined_parse hab hA heA hB hr
  obtain ⟨docA, docB, doc, s⟩ := servers hab hA heA hB hr h hopenA hopenB hopen
  have hn := (above_under hab).2
  have hm := movedDoc_below s.joined.under s.ropeB
  subst hn
  have hbt := s.joined.backtraces s.ropeA s.ropeB s.rope s.stmtsA s.stmtsB s.stmts (fun c hc => (plain_joined hab.plain hab.plainB c hc).1) n1 n2 env st.roots
  unfold inlayHint
  rw [s.get, s.getA, s.getB]
  simp only
  rw [rA, rB, hbt, s.joined.incomingHints s.ropeA s.rope, s.joined.endHints s.ropeA s.rope, hm.incoming, hm.ends]
  cases backtraceHints env st.roots docA with
  | panic => simp
  | ok x =>
    cases backtraceHints env st.roots docB with
    | panic => simp [Outcome.map']
    | ok y =>
      simp only [Outcome.map', reduceCtorEq, or_self, true_and, Outcome.ok.injEq, Option.some.injEq]
      rintro lA lB rfl rfl
      refine ⟨_, rfl, ?_⟩
      simp only [List.map_append]
      refine List.perm_iff_count.mpr ?_
      intro a
      simp only [List.count_append]
      omega

end

/-! ### Examples and refutations -/

section Examples
attribute [local instance] asciiUnicode

/-- The hypotheses of C80 hold for the documents `joinFirst` and `joinSecond`. -/
example : ∃ lA lB l, documentSymbol debugEnv (serverWith [] c!"u" joinFirst) c!"u" = some lA ∧
    documentSymbol debugEnv (serverWith [] c!"u" joinSecond) c!"u" = some lB ∧
    documentSymbol debugEnv (serverWith [] c!"u" (joinFirst ++ joinSecond)) c!"u" = some l ∧ l.Perm (lA ++ lB.map (lowerSymbol 2)) := by
  obtain ⟨resA, resB, res, hA, eA, hB, eB, _⟩ := join_facts
  exact (C80_views joinAbove hA (settled_of_clean hA eA joinAbove.ends) hB (.inl eB) (serverWith_opened (by decide +kernel)) (serverWith_opened (by decide +kernel))
    (serverWith_opened (by decide +kernel)) debugEnv).1

example : ∃ resA resB, parseFromStr joinFirst = .ok resA ∧ parseFromStr joinSecond = .ok resB ∧ NoRefs resA.stmts resB.stmts ∧
    NoRefs resB.stmts resA.stmts := by
  generalize h₁ : parseFromStr joinFirst = r₁
  generalize h₂ : parseFromStr joinSecond = r₂
  have key : (match parseFromStr joinFirst, parseFromStr joinSecond with
    | .ok a, .ok b => (instructions a.stmts ++ instructions b.stmts).all fun i => decide (i.dbgRef = none)
    | _, _ => false) = true := by decide +kernel
  rw [h₁, h₂] at key
  split at key
  · rename_i a b
    have hno : ∀ i ∈ instructions a.stmts ++ instructions b.stmts, i.dbgRef = none := fun i hi =>
      of_decide_eq_true (List.all_eq_true.mp key i hi)
    refine ⟨a, b, rfl, rfl, ?_, ?_⟩
    · intro i hi r hr
      rw [hno i (List.mem_append_left _ hi)] at hr
      cases hr
    · intro i hi r hr
      rw [hno i (List.mem_append_right _ hi)] at hr
      cases hr
  · cases key

/-- The outline, the folding ranges and the hints of the whole. -/
example : (documentSymbol debugEnv (serverWith [] c!"u" (joinFirst ++ joinSecond)) c!"u").map (·.map fun s => (s.name, s.range)) =
      some [(c!"@v", ⟨⟨0, 0⟩, ⟨0, 2⟩⟩), (c!"@f", ⟨⟨2, 0⟩, ⟨7, 1⟩⟩)] ∧
    (foldingRange (serverWith [] c!"u" (joinFirst ++ joinSecond)) c!"u").map (·.map fun f => (f.startLine, f.endLine)) =
      some [(2, 7), (3, 6)] ∧
    (inlayHint debugEnv (serverWith [] c!"u" (joinFirst ++ joinSecond)) c!"u").map' (·.map (·.map fun h => h.position)) = .ok (some [⟨7, 1⟩]) := by
  refine ⟨?_, ?_, ?_⟩ <;> decide +kernel

def lensFirst : Str := c!"define void @f() {\n}\n"
def lensSecond : Str := c!"define void @f() {\nx:\n br x\n}\ndefine void @g() {\n}\n"

/-- A function that is defined in both documents has a lens in each, but none in the whole. -/
example : (codeLens debugEnv (serverWith [] c!"u" lensFirst) c!"u").map (·.map fun l => l.range) = some [⟨⟨0, 12⟩, ⟨0, 14⟩⟩] ∧
    (codeLens debugEnv (serverWith [] c!"u" lensSecond) c!"u").map (·.map fun l => l.range) = some [⟨⟨0, 12⟩, ⟨0, 14⟩⟩, ⟨⟨4, 12⟩, ⟨4, 14⟩⟩] ∧
    (codeLens debugEnv (serverWith [] c!"u" (lensFirst ++ lensSecond)) c!"u").map (·.map fun l => l.range) = some [⟨⟨6, 12⟩, ⟨6, 14⟩⟩] := by
  refine ⟨?_, ?_, ?_⟩ <;> decide +kernel

/-- The graph of such a function is that of the first document. -/
example : executeCommand (serverWith [] c!"u" (lensFirst ++ lensSecond)) c!"visualize-cfg" [.str c!"u", .str c!"@f"] =
      executeCommand (serverWith [] c!"u" lensFirst) c!"visualize-cfg" [.str c!"u", .str c!"@f"] ∧
    executeCommand (serverWith [] c!"u" (lensFirst ++ lensSecond)) c!"visualize-cfg" [.str c!"u", .str c!"@g"] =
      executeCommand (serverWith [] c!"u" lensSecond) c!"visualize-cfg" [.str c!"u", .str c!"@g"] := by
  constructor <;> rfl

/-- The numbers of hints in the two documents and in the whole. -/
def hintCounts (env : Env) (a b : Str) : List (Option Nat) :=
  [a, b, a ++ b].map fun t => match inlayHint env (serverWith [] c!"u" t) c!"u" with
    | .ok (some l) => some l.length
    | _ => none

/-- Without the condition on annotations: an instruction that refers to an annotation of the other document gets a hint. -/
theorem C80_refuted_annotation :
    hintCounts { debugEnv with json := fun _ => some (.obj [(c!"backtrace", .arr [])]) }
      c!"!1 = \"x\"\n" c!"define void @f() {\nx:\n ret !1\n}\n" = [some 0, some 1, some 2] := by
  decide +kernel

end Examples

end HyperIR
