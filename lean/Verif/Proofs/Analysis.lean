import Verif.Props.Index
import Verif.Proofs.Slices
import Verif.Spec.Server

/-! What an analysed document consists of. -/

namespace HyperIR
open Spec

section
variable [Unicode]

theorem parseFromStr_total (src : Str) : ∃ res, parseFromStr src = .ok res := by
  obtain ⟨⟨toks, errs⟩, h⟩ := tokenize_total src
  unfold parseFromStr
  rw [h]
  cases toks with
  | none => exact ⟨_, rfl⟩
  | some toks =>
    obtain ⟨ss, es, h2⟩ := parseTokens_total (utf8Len src) toks
    simp only [h2]
    exact ⟨_, rfl⟩

omit [Unicode] in
theorem createSemanticToken_total (sp : Span) (ty : SemType) :
    ∃ i, createSemanticToken sp ty = .ok { start := sp.start, length := sp.len, tokenType := i } ∧ legendType[i]? = some ty := by
  cases ty
  · exact ⟨0, rfl, rfl⟩
  · exact ⟨1, rfl, rfl⟩
  · exact ⟨2, rfl, rfl⟩
  · exact ⟨3, rfl, rfl⟩
  · exact ⟨4, rfl, rfl⟩
  · exact ⟨5, rfl, rfl⟩
  · exact ⟨6, rfl, rfl⟩

omit [Unicode] in
theorem semanticTokens_total : ∀ toks : List Tok, ∃ l, semanticTokensFromTokens toks = .ok l
  | [] => ⟨[], rfl⟩
  | (t, sp) :: ts => by
    obtain ⟨l, hl⟩ := semanticTokens_total ts
    unfold semanticTokensFromTokens
    cases semTypeOf t with
    | none => exact ⟨l, hl⟩
    | some ty =>
      obtain ⟨i, h1, _⟩ := createSemanticToken_total sp ty
      simp only [h1, hl]
      exact ⟨_, rfl⟩

theorem analyze_inv {src : Str} {doc : AnalyzedDocument} {errs : List SErr} (h : analyze src = .ok (doc, errs)) :
    ∃ res, parseFromStr src = .ok res ∧ doc.rope = src ∧ doc.stmts = res.stmts ∧ errs = res.errors ∧
      semanticTokensFromTokens res.tokens = .ok doc.semanticTokens ∧
      createIndex src res.tokens res.stmts = .ok doc.index := by
  unfold analyze at h
  split at h
  · cases h
  · rename_i res h1
    split at h
    · cases h
    · rename_i sem h2
      split at h
      · cases h
      · rename_i ix h3
        simp only [Outcome.ok.injEq, Prod.mk.injEq] at h
        obtain ⟨rfl, rfl⟩ := h
        exact ⟨res, h1, rfl, rfl, rfl, h2, h3⟩

theorem analyze_of_createIndex {src : Str} {res : ParserResult} {ix : HIRIndex} (h : parseFromStr src = .ok res)
    (hix : createIndex src res.tokens res.stmts = .ok ix) : ∃ doc errs, analyze src = .ok (doc, errs) := by
  unfold analyze
  obtain ⟨l, hl⟩ := semanticTokens_total res.tokens
  simp only [h, hl, hix]
  exact ⟨_, _, rfl⟩

theorem annotationValue_ascii {src : Str} {res : ParserResult} (h : parseFromStr src = .ok res) (ha : Ascii src)
    {n : Spanned Str} {d : List Tok} (hs : .dbgAnnotation n d ∈ res.stmts) : annotationValue src d ≠ .panic := by
  have hmem : ∀ t ∈ d, Inside src.length t.2 := fun t ht =>
    (C02_token_spans h).1 t (C07_tree_mentions_tokens h _ hs t (by simp [stmtMentions, ht])).1
  have hsub : d.Sublist res.tokens := by
    refine List.Sublist.trans ?_ (C08_source_order h).1
    have h1 : (stmtMentions (.dbgAnnotation n d)).Sublist (mentions res.stmts) := by
      unfold mentions
      generalize res.stmts = ss at hs
      induction ss with
      | nil => cases hs
      | cons s ss ih =>
        rw [List.flatMap_cons]
        rcases List.mem_cons.mp hs with rfl | hs
        · exact List.sublist_append_left _ _
        · exact (ih hs).trans (List.sublist_append_right _ _)
    exact (List.sublist_cons_self _ _).trans h1
  have hw := (tokens_wellOrdered h).sublist hsub
  unfold annotationValue
  cases d with
  | nil => simp
  | cons f ds =>
    simp only [List.head?_cons]
    cases hl : (f :: ds).getLast? with
    | none => simp at hl
    | some l =>
      have hlm := List.mem_of_getLast? hl
      have hle : f.2.start ≤ l.2.stop := by
        rcases List.mem_cons.mp hlm with rfl | hm
        · exact Nat.le_of_lt (hmem _ (by simp)).1
        · have h1 := WellOrdered.le (l := [f]) (l' := ds) hw (t := f) (by simp) hm
          have h2 := (hmem f (by simp)).1
          have h3 := (hmem l (by simp [hm])).1
          omega
      simp only [sliceBytes_ascii ha hle (hmem l hlm).2]
      simp

end
end HyperIR
