import Verif.Proofs.Lost
import Verif.Props.Diagnostics
import Verif.Spec.Unread
import Verif.Spec.Flow

/-
C85: where unrecognizable text is reported.
-/

namespace HyperIR
open Spec

section
variable [Unicode]

omit [Unicode] in
theorem inCrLf_chars {text : Str} {p : Nat} (h : InCrLf text p) : text[p]? = some '\n' ∧ 0 < p ∧ text[p - 1]? = some '\r' := by
  obtain ⟨a, b, rfl, rfl⟩ := h
  simp

omit [Unicode] in
theorem rangeToLsp_ends {text : Str} (hsize : text.length < 2 ^ 32) {sp : Span} {r : Range} (hr : rangeToLsp text sp = some r) {p : Pos} :
    (LspOffset text p sp.start → PlainTo text sp.start → LspOffset text r.start sp.start) ∧
    (LspOffset text p sp.stop → PlainTo text sp.stop → LspOffset text r.stop sp.stop) := by
  unfold rangeToLsp at hr
  split at hr
  · cases hr
  · rename_i s hs
    split at hr
    · cases hr
    · rename_i e he
      cases hr
      constructor
      · intro h hp
        rw [((C14_positions_partial hsize).2 _ _ h hp).2] at hs
        cases hs
        exact h
      · intro h hp
        rw [((C14_positions_partial hsize).2 _ _ h hp).2] at he
        cases he
        exact h

omit [Unicode] in
theorem errorMessage_some {e : LErr Char} {c : Char} (hr : e.reason = .unexpected) (hf : e.found = some c) :
    c!"Unexpected token in input" <+: errorMessage (LErr.toSErr (fun c => [c]) e) := by
  simp only [LErr.toSErr, errorMessage, hr, hf, Option.map_some, Option.isSome_some, if_true]
  simp only [List.append_assoc]
  exact List.prefix_append _ _

omit [Unicode] in
theorem errorMessage_none {e : LErr Char} (hr : e.reason = .unexpected) (hf : e.found = none) :
    c!"Unexpected end of input" <+: errorMessage (LErr.toSErr (fun c => [c]) e) := by
  simp only [LErr.toSErr, errorMessage, hr, hf, Option.map_none, Option.isSome_none, Bool.false_eq_true, if_false]
  simp only [List.append_assoc]
  exact List.prefix_append _ _

/-- The end of the text as a place. -/
theorem rangeToLsp_textEnd {text : Str} (hsize : text.length < 2 ^ 32) :
    ∃ r, rangeToLsp text { start := text.length, stop := text.length } = some r ∧
      (PlainTo text text.length → EditorRange text { start := text.length, stop := text.length } r) := by
  have n1 : ¬ InCrLf text text.length := by
    intro hi
    have := (inCrLf_chars hi).1
    simp at this
  obtain ⟨p1, hp1⟩ := lspOffset_exists text.length (Nat.le_refl _) (Nat.le_refl _) n1
  obtain ⟨r, hr⟩ := rangeToLsp_total (src := text) (sp := { start := text.length, stop := text.length }) hsize (by simp) (by simp)
  exact ⟨r, hr, fun hp => ⟨(rangeToLsp_ends hsize hr).1 hp1 hp, (rangeToLsp_ends hsize hr).2 hp1 hp⟩⟩

/-- The error about unrecognizable text, in characters. -/
theorem tellsOf_errorAt {text : Str} {p : Nat} {e : LErr Char} (h : TellsOf text p e) : LexErrorAt text p (LErr.toSErr (fun c => [c]) e) := by
  obtain ⟨pre, x, ht, rfl, hx, hn, hr, hs, hf⟩ := h
  have hlen : text.length = pre.length + x.length := by rw [ht]; simp
  have hno : ∀ c cs, x = c :: cs → text[pre.length]? = some c := by
    intro c cs e
    rw [ht, e]; simp
  rcases noToken_cases hn hx with ⟨c, y, rfl, h⟩ | ⟨y, rfl, h⟩ | ⟨y, rfl, h⟩
  · have hcr : c ≠ '\r' := h.2.2.2.2.2.2.2.2.2
    have hq : c ≠ '"' := h.2.2.1
    refine ⟨c, hno c y rfl, hr, fun _ _ => ?_, fun e => absurd e hq, fun e => absurd e hcr⟩
    simp only [lexErr, hq, hcr, if_false] at hs hf
    exact ⟨hs, by simp [LErr.toSErr, hf, unexpectedAt, charStream]⟩
  · refine ⟨_, hno _ y rfl, hr, fun _ e => absurd rfl e, fun e => absurd e (by decide), fun _ => ?_⟩
    cases y with
    | nil =>
      have hd : text[pre.length + 1]? = none := by rw [ht]; simp
      refine ⟨fun d hd' => (by rw [hd] at hd'; cases hd'), fun _ => ⟨hs, by simp [LErr.toSErr, hf, lexErr, unexpectedAt, charStream]⟩⟩
    | cons d z =>
      have hd : text[pre.length + 1]? = some d := by rw [ht]; simp
      refine ⟨fun d' hd' => ?_, fun hd' => (by rw [hd] at hd'; cases hd')⟩
      rw [hd] at hd'
      cases hd'
      exact ⟨hs, by simp [LErr.toSErr, hf, lexErr, unexpectedAt, charStream]⟩
  · refine ⟨_, hno _ y rfl, hr, fun e => absurd rfl e, fun _ => ?_, fun e => absurd e (by decide)⟩
    exact ⟨hs, by simp [LErr.toSErr, hf, lexErr, unexpectedAt]⟩

/-- The error about unrecognizable text, as it is published. -/
theorem tellsOf_reported {text : Str} {p : Nat} {e : LErr Char} (hsize : text.length < 2 ^ 32) (h : TellsOf text p e) :
    ∃ r, rangeToLsp text e.span = some r ∧ Reported text p r (errorMessage (LErr.toSErr (fun c => [c]) e)) := by
  obtain ⟨pre, x, ht, rfl, hx, hn, hre, hs, hf⟩ := h
  have hlen : text.length = pre.length + x.length := by rw [ht]; simp
  have hno : ∀ c cs, x = c :: cs → text[pre.length]? = some c := by
    intro c cs e
    rw [ht, e]; simp
  rw [hs]
  rcases noToken_cases hn hx with ⟨c, y, rfl, h⟩ | ⟨y, rfl, h⟩ | ⟨y, rfl, h⟩
  · have hc := hno c y rfl
    have hcr : c ≠ '\r' := h.2.2.2.2.2.2.2.2.2
    have hq : c ≠ '"' := h.2.2.1
    have hlf : c ≠ '\n' := h.2.2.2.2.2.2.2.2.1
    have n1 : ¬ InCrLf text pre.length := by
      intro hi
      have := (inCrLf_chars hi).1
      rw [hc] at this
      exact hlf (Option.some.inj this)
    have n2 : ¬ InCrLf text (pre.length + 1) := by
      intro hi
      have := (inCrLf_chars hi).2.2
      rw [Nat.add_sub_cancel, hc] at this
      exact hcr (Option.some.inj this)
    simp only [List.length_cons] at hlen
    obtain ⟨p1, hp1⟩ := lspOffset_exists text.length (Nat.le_refl _) (by omega) n1
    obtain ⟨p2, hp2⟩ := lspOffset_exists text.length (Nat.le_refl _) (by omega) n2
    obtain ⟨r, hr⟩ := rangeToLsp_total (src := text) (sp := { start := pre.length, stop := pre.length + 1 }) hsize (by simp) (by simp; omega)
    simp only [lexErr, hq, hcr, if_false] at hf ⊢
    refine ⟨r, hr, c, hc, ?_, fun e => absurd e hq, fun e => absurd e hcr⟩
    intro _ _
    exact ⟨(rangeToLsp_ends hsize hr).1 hp1, (rangeToLsp_ends hsize hr).2 hp2, errorMessage_some (c := c) hre hf⟩
  · have hc := hno '\r' y rfl
    cases y with
    | cons d z =>
      have hd : text[pre.length + 1]? = some d := by rw [ht]; simp
      have hlf : d ≠ '\n' := by rintro rfl; exact h rfl
      have n1 : ¬ InCrLf text (pre.length + 1) := by
        intro hi
        have := (inCrLf_chars hi).1
        rw [hd] at this
        exact hlf (Option.some.inj this)
      simp only [List.length_cons] at hlen
      obtain ⟨p1, hp1⟩ := lspOffset_exists text.length (Nat.le_refl _) (by omega) n1
      have hsp : (lexErr { start := text.length, stop := text.length } pre.length ('\r' :: d :: z)).span = { start := pre.length + 1, stop := pre.length + 2 } := rfl
      obtain ⟨r, hr⟩ := rangeToLsp_total (src := text) (sp := { start := pre.length + 1, stop := pre.length + 2 }) hsize (by simp) (by simp; omega)
      refine ⟨r, by rw [hsp]; exact hr, '\r', hc, fun _ e => absurd rfl e, fun e => absurd e (by decide), fun _ => ⟨?_, ?_⟩⟩
      · exact (rangeToLsp_ends hsize hr).1 hp1
      · rw [if_pos (by omega)]
        exact errorMessage_some (c := d) hre hf
    | nil =>
      simp only [List.length_cons, List.length_nil] at hlen
      obtain ⟨r, hr, hp⟩ := rangeToLsp_textEnd hsize
      refine ⟨r, hr, '\r', hc, fun _ e => absurd rfl e, fun e => absurd e (by decide), fun _ => ⟨?_, ?_⟩⟩
      · intro hpl
        rw [show pre.length + 1 = text.length by omega] at hpl ⊢
        exact (hp hpl).1
      · rw [if_neg (by omega)]
        exact errorMessage_none hre hf
  · have hc := hno '"' y rfl
    obtain ⟨r, hr, hp⟩ := rangeToLsp_textEnd hsize
    refine ⟨r, hr, '"', hc, fun e => absurd rfl e, fun _ => ⟨fun h => hp (h.to _), ?_⟩, fun e => absurd e (by decide)⟩
    exact errorMessage_none hre hf

/-- All of them. -/
theorem tellsOf_diagnostics {text : Str} (hsize : text.length < 2 ^ 32) {ps : List Nat} {errs : List (LErr Char)} (h : Each (TellsOf text) ps errs) :
    Each (fun p (d : Diagnostic) => Reported text p d.range d.message ∧ d.related = []) ps
      (diagnosticsFromParser text (errs.map (LErr.toSErr fun c => [c]))) := by
  induction h with
  | nil => exact .nil
  | @cons p e ps es h _ ih =>
    obtain ⟨r, k1, k2⟩ := tellsOf_reported hsize h
    unfold diagnosticsFromParser at ih ⊢
    rw [List.map_cons, List.filterMap_cons]
    have : (LErr.toSErr (fun c => [c]) e).span = e.span := rfl
    rw [this, k1]
    exact .cons ⟨k2, rfl⟩ ih

variable {text : Str} {env : Env} {st st' : ServerState} {uri : Str} {v : Int} {pub : Publish}

/-- C85: the problems that are published begin with one for each piece of unrecognizable text, in the order of the text, each at the place
where that text starts (as far as the text before it is plain). -/
theorem C85_unread {toks : List (Spanned Token)} {ps : List Nat} (hsize : text.length < 2 ^ 32)
    (hl : LexesSkip 0 text toks ps) (hne : toks ≠ [] ∨ text = []) (hc : onChange env st uri v text = .ok (st', pub)) :
    ∃ ds others, pub.diagnostics = ds ++ others ∧ Each (fun p (d : Diagnostic) => Reported text p d.range d.message ∧ d.related = []) ps ds := by
  obtain ⟨errs, ht, h2⟩ := tokenize_lexesSkip hl hne
  obtain ⟨res, hres⟩ : ∃ res, parseFromStr text = .ok res := parseFromStr_total text
  obtain ⟨ix, hix, hd⟩ := publish_inv hres hc
  obtain ⟨es, hes⟩ : ∃ es, res.errors = errs.map (LErr.toSErr fun c => [c]) ++ es := by
    unfold parseFromStr at hres
    rw [ht] at hres
    simp only at hres
    split at hres
    · cases hres
    · cases hres; exact ⟨_, rfl⟩
  refine ⟨_, diagnosticsFromParser text es ++ diagnosticsFromStatements text res.stmts ++ diagnosticsFromIndex env.ord text uri ix, ?_, tellsOf_diagnostics hsize h2⟩
  rw [hd, hes, diagnosticsFromParser, List.filterMap_append]
  simp only [diagnosticsFromParser, List.append_assoc]

/-- Nothing else is published for a text of which no tokens are known. -/
theorem publish_lost {errs : List (LErr Char)} (ht : tokenize text = .ok (none, errs)) (hc : onChange env st uri v text = .ok (st', pub)) :
    pub.diagnostics = diagnosticsFromParser text (errs.map (LErr.toSErr fun c => [c])) := by
  have hres : parseFromStr text = .ok { stmts := [], tokens := [], errors := errs.map (LErr.toSErr fun c => [c]) } := by
    simp only [parseFromStr, ht]
  obtain ⟨ix, hix, hd⟩ := publish_inv hres hc
  cases hix
  have h0 : ∀ {α : Type}, env.ord.run ([] : List α) = [] := fun {α} => (env.ord.perm []).eq_nil
  rw [hd]
  simp [diagnosticsFromStatements, diagnosticsFromIndex, allUseDefs, allInstructions, h0]

/-- C85: if there is unrecognizable text at the end of the document, behind which there is no token, then exactly the unrecognizable text is
reported, in the order of the text, and nothing else. -/
theorem C85_lost {ps : List Nat} (hsize : text.length < 2 ^ 32) (hl : LexesLost 0 text ps) (hc : onChange env st uri v text = .ok (st', pub)) :
    Each (fun p (d : Diagnostic) => Reported text p d.range d.message ∧ d.related = []) ps pub.diagnostics := by
  obtain ⟨errs, ht, h2⟩ := tokenize_lexesLost hl
  rw [publish_lost ht hc]
  exact tellsOf_diagnostics hsize h2

/-- C85: if the document consists of blanks, then its end is reported and nothing else. -/
theorem C85_blank (hsize : text.length < 2 ^ 32) (hb : Blank text) (hne : text ≠ []) (hc : onChange env st uri v text = .ok (st', pub)) :
    ∃ d, pub.diagnostics = [d] ∧ EditorRange text { start := text.length, stop := text.length } d.range ∧
      c!"Unexpected end of input" <+: d.message ∧ d.related = [] := by
  obtain ⟨e, ht, h1, h2, h3⟩ := tokenize_blank hb hne
  obtain ⟨r, hr, hp⟩ := rangeToLsp_textEnd hsize
  refine ⟨{ range := r, message := errorMessage (LErr.toSErr (fun c => [c]) e), related := [] }, ?_, hp ?_, errorMessage_none h2 h3, rfl⟩
  · rw [publish_lost ht hc]
    unfold diagnosticsFromParser
    rw [List.map_cons, List.filterMap_cons]
    have : (LErr.toSErr (fun c => [c]) e).span = e.span := rfl
    rw [this, h1, hr]
    rfl
  · intro c hc
    rcases hb c (List.mem_of_mem_take hc) with rfl | rfl <;> decide

/-- C85: every document is of one of these three kinds. -/
theorem C85_every (text : Str) :
    (∃ toks ps, LexesSkip 0 text toks ps ∧ (toks ≠ [] ∨ text = [])) ∨ (Blank text ∧ text ≠ []) ∨ ∃ ps, LexesLost 0 text ps :=
  tokenize_described text

/-- The hypotheses of C85 hold for every document the tokenizer gets through: one place for each of its errors. -/
theorem C85_applies {toks : List (Spanned Token)} {errs : List (LErr Char)} (ht : tokenize text = .ok (some toks, errs)) :
    ∃ ps, LexesSkip 0 text toks ps ∧ ps.length = errs.length ∧ (toks ≠ [] ∨ text = []) := by
  have key : ∀ {o : Nat} {text : Str} {ts n}, LexesErr o text ts n → ∃ ps, LexesSkip o text ts ps ∧ ps.length = n := by
    intro o text ts n h
    induction h with
    | done h => exact ⟨[], .done h, rfl⟩
    | tok h1 h2 _ ih =>
      obtain ⟨ps, i1, i2⟩ := ih
      exact ⟨ps, .tok h1 h2 i1, i2⟩
    | skip h1 h2 h3 h4 h5 _ ih =>
      obtain ⟨ps, i1, i2⟩ := ih
      exact ⟨_, .skip h1 h2 h3 h4 h5 i1, by simp [i2]⟩
  obtain ⟨ps, h1, h2⟩ := key (tokenize_sound ht)
  exact ⟨ps, h1, h2, (tokenize_exact.mp ht).2⟩

end

/-! ### A document with unrecognizable text -/

section
attribute [local instance] asciiUnicode

/-- The message begins like this. -/
def startsWith (p m : Str) : Bool := decide (m.take p.length = p)

/-- A stray character in the first line and a quote without closing quote in the second one. -/
def unreadText : Str := c!"@a = $ 1\n@b = \"oops\n"

example : Plain unreadText ∧ (match tokenize unreadText with | .ok (some _, errs) => errs.length | _ => 0) = 2 := by
  decide +kernel

/-- The stray character is marked; the quote is reported at the end of the document. -/
example : (diagnosticsOf unreadText).map (fun ds => (ds.take 2).map fun d => (d.range, startsWith c!"Unexpected token in input" d.message)) =
    some [(⟨⟨0, 5⟩, ⟨0, 6⟩⟩, true), (⟨⟨2, 0⟩, ⟨2, 0⟩⟩, false)] := by
  decide +kernel

/-- A character that is not ASCII: the place where it starts is marked, but with an empty range. -/
example : (diagnosticsOf c!"@a = £ 1\n").map (fun ds => (ds.take 1).map fun d => (d.range, startsWith c!"Unexpected token in input" d.message)) =
    some [(⟨⟨0, 5⟩, ⟨0, 5⟩⟩, true)] := by
  decide +kernel

/-- A carriage return that is not part of a line end: what follows is marked. -/
example : (diagnosticsOf c!"@a =\r 1\n").map (fun ds => (ds.take 1).map fun d => (d.range, startsWith c!"Unexpected token in input" d.message)) =
    some [(⟨⟨1, 0⟩, ⟨1, 1⟩⟩, true)] := by
  decide +kernel

/-- Unrecognizable text at the end, behind a duplicate definition. -/
def lostText : Str := c!"@a = $ 1\n@a = 2\n$"

/-- It is of the third kind, with two places. -/
theorem lostText_lost : ∃ ps, LexesLost 0 lostText ps ∧ ps.length = 2 := by
  have h : (match tokenize lostText with | .ok (none, errs) => errs.length | _ => 0) = 2 := by decide +kernel
  rcases tokenize_described lostText with ⟨toks, ps, h1, h2⟩ | ⟨h1, _⟩ | ⟨ps, h1⟩
  · obtain ⟨es, ht, _⟩ := tokenize_lexesSkip h1 h2
    rw [ht] at h
    cases h
  · exact absurd (h1 '@' (by decide)) (by decide)
  · obtain ⟨es, ht, h2⟩ := tokenize_lexesLost h1
    rw [ht] at h
    have hlen : ∀ {ps : List Nat} {es : List (LErr Char)}, Each (TellsOf lostText) ps es → es.length = ps.length := by
      intro ps es h
      induction h with
      | nil => rfl
      | cons _ _ ih => simp [ih]
    exact ⟨ps, h1, (hlen h2).symm.trans h⟩

/-- Both places are reported; the duplicate definition is not. -/
example : (diagnosticsOf lostText).map (fun ds => ds.map fun d => (d.range, startsWith c!"Unexpected token in input" d.message)) =
    some [(⟨⟨0, 5⟩, ⟨0, 6⟩⟩, true), (⟨⟨2, 0⟩, ⟨2, 1⟩⟩, true)] := by
  decide +kernel

/-- A carriage return at the end. -/
example : (diagnosticsOf c!"@a = 1\r").map (fun ds => ds.map fun d => (d.range, startsWith c!"Unexpected end of input" d.message)) =
    some [(⟨⟨1, 0⟩, ⟨1, 0⟩⟩, true)] := by
  decide +kernel

/-- Nothing but blanks. -/
example : (diagnosticsOf c!"  ").map (fun ds => ds.map fun d => (d.range, startsWith c!"Unexpected end of input" d.message)) =
    some [(⟨⟨0, 2⟩, ⟨0, 2⟩⟩, true)] := by
  decide +kernel

end
end HyperIR
