import Verif.Proofs.Flow
import Verif.Spec.Hints

/- The texts of the annotations in the index (src/hir_index.rs:216-224). -/

namespace HyperIR
open Spec

/-! ### What does not touch the annotations -/

theorem foldO_keeps {σ α γ : Type} {f : σ → α → Outcome σ} {v : σ → γ} (h : ∀ s a s', f s a = .ok s' → v s' = v s) :
    ∀ {l : List α} {s s' : σ}, foldO f s l = .ok s' → v s' = v s := by
  intro l
  induction l with
  | nil => intro s s' hs; cases hs; rfl
  | cons a l ih =>
    intro s s' hs
    rw [foldO] at hs
    cases h1 : f s a with
    | panic => rw [h1] at hs; cases hs
    | ok s1 => rw [h1] at hs; rw [ih hs, h s a s1 h1]

theorem addGlobal_vals {ix ix' : HIRIndex} {k : SymbolKind} {ud : UseDefKind} {sp : Span} {n : Str}
    (h : ix.addGlobal k ud sp n = .ok ix') : ix'.dbgAnnotationValues = ix.dbgAnnotationValues := by
  cases k <;> simp only [HIRIndex.addGlobal] at h <;> cases h <;> rfl

theorem addFuncLocal_vals {ix ix' : HIRIndex} {i : Nat} {k : SymbolKind} {ud : UseDefKind} {sp : Span} {n : Str}
    (h : ix.addFuncLocal i k ud sp n = .ok ix') : ix'.dbgAnnotationValues = ix.dbgAnnotationValues := by
  unfold HIRIndex.addFuncLocal at h
  split at h
  · cases h
  · cases k <;> simp only at h <;> cases h <;> rfl

theorem indexBbRef_vals {fid : Nat} {bb : BasicBlock} {i : Instruction} (ix : HIRIndex) (r : Spanned Str) (ix' : HIRIndex)
    (h : indexBbRef fid bb i ix r = .ok ix') : ix'.dbgAnnotationValues = ix.dbgAnnotationValues := by
  unfold indexBbRef at h
  split at h
  · cases h
  · rename_i ix1 h1
    have := addFuncLocal_vals h1
    split at h
    · split at h
      · cases h; exact this
      · split at h
        · cases h
        · cases h; exact this
    · cases h; exact this

theorem indexInstruction_vals {fid : Nat} {bb : BasicBlock} (ix : HIRIndex) (i : Instruction) (ix' : HIRIndex)
    (h : indexInstruction fid bb ix i = .ok ix') : ix'.dbgAnnotationValues = ix.dbgAnnotationValues := by
  unfold indexInstruction at h
  cases ht : i.assignmentTarget with
  | none =>
    rw [ht] at h
    exact foldO_keeps (v := HIRIndex.dbgAnnotationValues) indexBbRef_vals h
  | some t =>
    rw [ht] at h
    simp only at h
    split at h
    · cases h
    · rename_i ix1 h1
      rw [foldO_keeps (v := HIRIndex.dbgAnnotationValues) indexBbRef_vals h, addFuncLocal_vals h1]

theorem indexBlock_vals {fid : Nat} (ix : HIRIndex) (bb : BasicBlock) (ix' : HIRIndex)
    (h : indexBlock fid ix bb = .ok ix') : ix'.dbgAnnotationValues = ix.dbgAnnotationValues := by
  unfold indexBlock at h
  cases ht : bb.label with
  | none =>
    rw [ht] at h
    exact foldO_keeps (v := HIRIndex.dbgAnnotationValues) indexInstruction_vals h
  | some t =>
    rw [ht] at h
    simp only at h
    split at h
    · cases h
    · rename_i ix1 h1
      rw [foldO_keeps (v := HIRIndex.dbgAnnotationValues) indexInstruction_vals h, addFuncLocal_vals h1]

theorem indexFuncDef_vals {ix ix' : HIRIndex} {kw : Span} {sig : FuncSignature} {body : FuncBody}
    (h : indexFuncDef ix kw sig body = .ok ix') : ix'.dbgAnnotationValues = ix.dbgAnnotationValues := by
  unfold indexFuncDef at h
  split at h
  · cases h
  · rename_i ix1 h1
    simp only at h
    split at h
    · cases h
    · rename_i ix2 h2
      have e2 := foldO_keeps (v := HIRIndex.dbgAnnotationValues) (fun _ _ _ h => addFuncLocal_vals h) h2
      have e1 := addGlobal_vals h1
      rw [foldO_keeps (v := HIRIndex.dbgAnnotationValues) indexBlock_vals h, e2, ← e1]

theorem addExternalDef_vals {ix ix' : HIRIndex} {u : StrMap Str} {n : Str} {d : List (Spanned Token)}
    (h : addExternalDef ix u n d = .ok ix') : ix'.dbgAnnotationValues = ix.dbgAnnotationValues := by
  unfold addExternalDef at h
  split at h
  · cases h; rfl
  · split at h
    · cases h; rfl
    · split at h
      · cases h
      · cases h; rfl

theorem indexToken_vals (st : TokState) (t : Spanned Token) (st' : TokState) (h : indexToken st t = .ok st') :
    st'.1.dbgAnnotationValues = st.1.dbgAnnotationValues := by
  unfold indexToken at h
  split at h
  · simp only at h
    split at h
    · rename_i h1; cases h; exact addGlobal_vals h1
    · cases h
  · split at h
    · rename_i h1; cases h; exact addGlobal_vals h1
    · cases h
  · split at h
    · cases h
    · cases h; rfl
    · split at h
      · rename_i h1; cases h; exact addFuncLocal_vals h1
      · cases h
  · cases h; rfl

/-! ### What the annotations are -/

/-- The text a statement gives to the annotation `name`. -/
def ownText (src : Str) (name : Str) : Statement → Option Str
  | .dbgAnnotation n d => if n.1 = name then (match annotationValue src d with | .ok v => v | .panic => none) else none
  | _ => none

/-- The last text given to the annotation `name`. -/
def lastText (src : Str) (name : Str) : List Statement → Option Str
  | [] => none
  | s :: ss => (lastText src name ss).or (ownText src name s)

theorem indexStatement_vals {src : Str} {st st' : StmtState} {s : Statement} (h : indexStatement src st s = .ok st') (name : Str) :
    st'.1.dbgAnnotationValues.get? name = (ownText src name s).or (st.1.dbgAnnotationValues.get? name) := by
  cases s with
  | globalVar n d =>
    simp only [indexStatement] at h
    split at h
    · rename_i h1; cases h; simp [ownText, addGlobal_vals h1]
    · cases h
  | funcDecl sig a d =>
    simp only [indexStatement] at h
    split at h
    · rename_i h1; cases h; simp [ownText, addGlobal_vals h1]
    · cases h
  | funcDependencies n d => cases h; simp [ownText]
  | funcDef kw sig body =>
    simp only [indexStatement] at h
    split at h
    · rename_i h1; cases h; simp [ownText, indexFuncDef_vals h1]
    · cases h
  | dbgAnnotation n d =>
    simp only [indexStatement] at h
    split at h
    · cases h
    · rename_i ix1 h1
      have e1 := addGlobal_vals h1
      cases hv : annotationValue src d with
      | panic => rw [hv] at h; cases h
      | ok v =>
        rw [hv] at h
        simp only at h
        split at h
        · rename_i ix2 h2
          cases h
          simp only [addExternalDef_vals h2, ownText, hv]
          cases v with
          | none => simp [e1]
          | some v =>
            simp only [StrMap.insert, StrMap.get?_modifyEntry, e1]
            by_cases hn : n.1 = name <;> simp [hn]
        · cases h

theorem indexStatements_vals {src : Str} (name : Str) : ∀ {ss : List Statement} {st st' : StmtState}, foldO (indexStatement src) st ss = .ok st' →
    st'.1.dbgAnnotationValues.get? name = (lastText src name ss).or (st.1.dbgAnnotationValues.get? name) := by
  intro ss
  induction ss with
  | nil => intro st st' h; cases h; simp [lastText]
  | cons s ss ih =>
    intro st st' h
    rw [foldO] at h
    cases h1 : indexStatement src st s with
    | panic => rw [h1] at h; cases h
    | ok st1 =>
      rw [h1] at h
      rw [ih h, indexStatement_vals h1 name, lastText, Option.or_assoc]

theorem createIndex_vals {src : Str} {toks : List (Spanned Token)} {ss : List Statement} {ix : HIRIndex} (h : createIndex src toks ss = .ok ix)
    (name : Str) : ix.dbgAnnotationValues.get? name = lastText src name ss := by
  unfold createIndex at h
  split at h
  · cases h
  · rename_i ix1 u1 h1
    split at h
    · cases h
    · rename_i ix2 c2 h2
      cases h
      have e2 := foldO_keeps (v := fun s : TokState => s.1.dbgAnnotationValues) indexToken_vals h2
      simp only at e2
      rw [e2, indexStatements_vals name h1]
      simp [StrMap.get?]

section
variable [Unicode] {src : Str} {res : ParserResult}

theorem annotationValue_eq (h : parseFromStr src = .ok res) (ha : Ascii src) {n : Spanned Str} {d : List (Spanned Token)}
    (hs : .dbgAnnotation n d ∈ res.stmts) :
    annotationValue src d = .ok (match d.head?, d.getLast? with
      | some f, some l => some (slice src ⟨f.2.start, l.2.stop⟩)
      | _, _ => none) := by
  have hne := annotationValue_ascii h ha hs
  unfold annotationValue at hne ⊢
  cases hf : d.head? with
  | none => rfl
  | some f =>
    cases hl : d.getLast? with
    | none => rfl
    | some l =>
      rw [hf, hl] at hne
      simp only at hne ⊢
      have hle : f.2.start ≤ l.2.stop := by
        refine Classical.byContradiction fun hn => hne ?_
        unfold sliceBytes
        rw [if_neg hn]
      have hin := (C02_token_spans h).1 l
        (C07_tree_mentions_tokens h _ hs l (by simp [stmtMentions, List.mem_of_getLast? hl])).1
      simp only [Inside] at hin
      rw [sliceBytes_ascii ha hle hin.2]
      rfl

theorem lastText_iff (h : parseFromStr src = .ok res) (ha : Ascii src) {name v : Str} :
    lastText src name res.stmts = some v ↔ AnnotationText src res.stmts name v := by
  have key : ∀ ss : List Statement, (∀ s ∈ ss, s ∈ res.stmts) →
      (lastText src name ss = some v ↔ AnnotationText src ss name v) ∧
      (lastText src name ss = none ↔ ∀ n d, .dbgAnnotation n d ∈ ss → n.1 = name → d = []) := by
    intro ss
    induction ss with
    | nil =>
      intro _
      refine ⟨⟨fun h => (by cases h), ?_⟩, by simp [lastText]⟩
      rintro ⟨before, _, _, _, _, _, e, _⟩
      simp at e
    | cons s ss ih =>
      intro hsub
      obtain ⟨ih1, ih2⟩ := ih fun s hs => hsub s (by simp [hs])
      have hown : (∀ n d, s = .dbgAnnotation n d → n.1 = name → d = []) ↔ ownText src name s = none := by
        cases s with
        | dbgAnnotation n d =>
          have := annotationValue_eq h ha (hsub _ (List.mem_cons_self))
          simp only [ownText, this, Statement.dbgAnnotation.injEq, and_imp]
          constructor
          · intro hh
            split
            · have := hh n d rfl rfl ‹_›
              subst this
              rfl
            · rfl
          · rintro hh n' d' rfl rfl hn
            rw [if_pos hn] at hh
            cases d with
            | nil => rfl
            | cons a d =>
              simp only [List.head?_cons] at hh
              cases hl : (a :: d).getLast? with
              | none => simp at hl
              | some l => rw [hl] at hh; cases hh
        | _ => simp [ownText]
      have hown' : ∀ w, ownText src name s = some w ↔ ∃ n d f l, s = .dbgAnnotation n d ∧ n.1 = name ∧ d.head? = some f ∧
          d.getLast? = some l ∧ w = slice src ⟨f.2.start, l.2.stop⟩ := by
        intro w
        cases s with
        | dbgAnnotation n d =>
          have := annotationValue_eq h ha (hsub _ (List.mem_cons_self))
          simp only [ownText, this]
          constructor
          · intro hh
            split at hh
            · cases hf : d.head? with
              | none => rw [hf] at hh; cases hh
              | some f =>
                cases hl : d.getLast? with
                | none => rw [hf, hl] at hh; cases hh
                | some l =>
                  rw [hf, hl] at hh
                  cases hh
                  exact ⟨n, d, f, l, rfl, ‹_›, hf, hl, rfl⟩
            · cases hh
          · rintro ⟨n', d', f, l, e, hn, hf, hl, rfl⟩
            cases e
            rw [if_pos hn, hf, hl]
        | _ => simp [ownText]
      rw [lastText]
      constructor
      · cases ht : lastText src name ss with
        | some w =>
          rw [ht] at ih1
          simp only [Option.some_or]
          rw [ih1]
          constructor
          · rintro ⟨before, n, d, after, f, l, rfl, h1, h2⟩
            exact ⟨s :: before, n, d, after, f, l, rfl, h1, h2⟩
          · rintro ⟨before, n, d, after, f, l, e, h1, h2, h3, h4, h5⟩
            cases before with
            | nil =>
              simp only [List.nil_append, List.cons.injEq] at e
              have : lastText src name ss = none := ih2.mpr (by rw [e.2]; exact h4)
              rw [ht] at this
              cases this
            | cons b before =>
              simp only [List.cons_append, List.cons.injEq] at e
              exact ⟨before, n, d, after, f, l, e.2, h1, h2, h3, h4, h5⟩
        | none =>
          have hno := ih2.mp ht
          simp only [Option.none_or]
          rw [hown']
          constructor
          · rintro ⟨n, d, f, l, rfl, h1, h2, h3, h4⟩
            exact ⟨[], n, d, ss, f, l, rfl, h1, h2, h3, hno, h4⟩
          · rintro ⟨before, n, d, after, f, l, e, h1, h2, h3, h4, h5⟩
            cases before with
            | nil =>
              simp only [List.nil_append, List.cons.injEq] at e
              exact ⟨n, d, f, l, e.1, h1, h2, h3, h5⟩
            | cons b before =>
              simp only [List.cons_append, List.cons.injEq] at e
              have := hno n d (by rw [e.2]; simp) h1
              subst this
              cases h2
      · rw [Option.or_eq_none_iff, ih2, ← hown]
        constructor
        · rintro ⟨h1, h2⟩ n d hm hn
          rcases List.mem_cons.mp hm with e | hm
          · exact h2 n d e.symm hn
          · exact h1 n d hm hn
        · intro hh
          exact ⟨fun n d hm hn => hh n d (by simp [hm]) hn, fun n d e hn => hh n d (by simp [e]) hn⟩
  exact (key res.stmts fun _ hs => hs).1

/-- The annotations of the index are those of the text. -/
theorem annotation_iff (h : parseFromStr src = .ok res) (ha : Ascii src) {ix : HIRIndex}
    (hix : createIndex src res.tokens res.stmts = .ok ix) {name v : Str} :
    ix.dbgAnnotationValues.get? name = some v ↔ AnnotationText src res.stmts name v := by
  rw [createIndex_vals hix, lastText_iff h ha]

end
end HyperIR
