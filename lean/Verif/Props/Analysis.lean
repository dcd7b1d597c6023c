import Verif.Proofs.Analysis

/-
C01: analysing a document never crashes.  All functions of the model are total, so a result always
exists; what is to be shown is that it is not a panic.
-/

namespace HyperIR
open Spec

section
variable [Unicode]

/-- For every text, of any characters, tokenizer, parser and highlighting return a value. -/
theorem C01_parse_total (src : Str) :
    ∃ res sem, parseFromStr src = .ok res ∧ semanticTokensFromTokens res.tokens = .ok sem := by
  obtain ⟨res, h⟩ := parseFromStr_total src
  obtain ⟨sem, h'⟩ := semanticTokens_total res.tokens
  exact ⟨res, sem, h, h'⟩

/-- C01 for ASCII texts: opening a document, or changing it to the text, always succeeds. -/
theorem C01_analysis_total_partial (env : Env) (st : ServerState) (uri : Str) (version : Int) {text : Str} (ha : Ascii text) :
    (∃ r, didOpen env st uri version text = .ok r) ∧
    ∀ range cs, ∃ r, didChange env st uri version (⟨range, text⟩ :: cs) = .ok r := by
  obtain ⟨res, h⟩ := parseFromStr_total text
  obtain ⟨ix, _, hix, _⟩ := createIndex_inv h (fun n d hs => annotationValue_ascii h ha hs)
  obtain ⟨doc, errs, hd⟩ := analyze_of_createIndex h hix
  have : ∃ r, onChange env st uri version text = .ok r := by
    unfold onChange
    rw [hd]
    exact ⟨_, rfl⟩
  exact ⟨this, fun _ _ => this⟩

/-- For all texts: the only way to crash is a debug annotation whose value, cut out of the text with
character offsets taken as byte offsets, does not start and end at character boundaries inside the text. -/
theorem C01_only_crash {src : Str} {res : ParserResult} (h : parseFromStr src = .ok res) :
    analyze src = .panic ↔
      ∃ name f rest l, .dbgAnnotation name (f :: rest) ∈ res.stmts ∧ (f :: rest).getLast? = some l ∧
        ¬ ∃ a v c, src = a ++ v ++ c ∧ utf8Len a = f.2.start ∧ utf8Len (a ++ v) = l.2.stop := by
  simp only [← sliceBytes_panic]
  constructor
  · intro hp
    apply Classical.byContradiction
    intro hno
    obtain ⟨ix, _, hix, _⟩ := createIndex_inv h (fun n d hs => by
      intro hv
      unfold annotationValue at hv
      cases d with
      | nil => simp at hv
      | cons f rest =>
        simp only [List.head?_cons] at hv
        cases hl : (f :: rest).getLast? with
        | none => rw [hl] at hv; cases hv
        | some l =>
          rw [hl] at hv
          simp only at hv
          cases hsl : sliceBytes src f.2.start l.2.stop with
          | ok v => rw [hsl] at hv; cases hv
          | panic => exact hno ⟨n, f, rest, l, hs, hl, hsl⟩)
    obtain ⟨doc, errs, hd⟩ := analyze_of_createIndex h hix
    rw [hp] at hd
    cases hd
  · rintro ⟨name, f, rest, l, hs, hl, hsl⟩
    cases ha : analyze src with
    | panic => rfl
    | ok r =>
      obtain ⟨doc, errs⟩ := r
      obtain ⟨res', h1, _, _, _, _, h2⟩ := analyze_inv ha
      rw [h] at h1
      cases h1
      refine absurd ?_ (annotationValue_of_createIndex h2 name _ hs)
      unfold annotationValue
      simp only [List.head?_cons, hl, hsl]

end

section Examples
attribute [local instance] asciiUnicode

/-- C01 fails in general: this document kills the server. -/
theorem C01_refuted : ∃ text : Str, ∀ env st uri v, didOpen env st uri v text = .panic := by
  refine ⟨c!"!1 = \"éé\"", fun env st uri v => ?_⟩
  have h : (match analyze c!"!1 = \"éé\"" with | .panic => true | .ok _ => false) = true := by decide +kernel
  unfold didOpen onChange
  split at h
  · rename_i h'; rw [h']
  · cases h

/-- A text with an error, an annotation and a function is ASCII. -/
example : Ascii c!"!1 = \"e\"\n)x\ndefine void @f(ptr %a) {\n b:\n br b\n}\n" := by decide

end Examples
end HyperIR
