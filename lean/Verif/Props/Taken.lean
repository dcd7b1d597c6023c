import Verif.Spec.Taken
import Verif.Props.RenameBack

/-! C86: a rename to a name that is in use joins two symbols and changes nothing else. -/

namespace HyperIR
open Spec

section
variable [Unicode] {env : Env} {st : ServerState} {uri text : Str} {res : ParserResult} {o : SymbolOccurrence} {name : Str} {f : Nat → Nat}

/-- Functions stay functions, if no symbol of another kind has the name. -/
theorem isFunction_taken (h : parseFromStr text = .ok res) {ix : HIRIndex} (hix : createIndex text res.tokens res.stmts = .ok ix)
    (hamb : ¬ Ambiguous res.stmts o.name) (hkind : ∀ o', Occurs res.tokens res.stmts o' → o'.name = name → o'.symbolKind = o.symbolKind) {n : Str} {sp : Span}
    (ht : (Token.globalName n, sp) ∈ res.tokens) :
    IsFunction (res.stmts.map (renG res o name f).stmt) ((renG res o name f).name .globalName (n, sp)).1 ↔ IsFunction res.stmts n := by
  obtain ⟨o1, ho1, rfl, rfl, hb1, hf1, hf2⟩ := global_occurs ht
  have hgk : o1.symbolKind = .function ∨ o1.symbolKind = .globalVar := by
    by_cases h : IsFunction res.stmts o1.name
    · exact .inl (hf1 h)
    · exact .inr (hf2 h)
  have hfn : o1.symbolKind = .function → IsFunction res.stmts o1.name := by
    intro hk
    refine Classical.byContradiction fun hno => ?_
    rw [hf2 hno] at hk
    cases hk
  have hname : ((renG res o name f).name .globalName (o1.name, o1.span)).1 = ((renG res o name f).occ o1).name := by
    rcases hgk with hk | hk <;> simp only [Renaming.name, Renaming.occ, hk, nameToken]
  rw [hname]
  constructor
  · unfold IsFunction
    rw [docOccs_ren]
    rintro ⟨_, hm, hk, hn⟩
    obtain ⟨o2, hm2, rfl⟩ := List.mem_map.mp hm
    have hk2 : o2.symbolKind = .function := hk
    have ho2 : Occurs res.tokens res.stmts o2 := .inl hm2
    rcases renG_occ_name (name := name) (f := f) h hix hamb ho1 with ⟨s1, n1⟩ | ⟨s1, n1⟩ <;>
      rcases renG_occ_name (name := name) (f := f) h hix hamb ho2 with ⟨s2, n2⟩ | ⟨s2, n2⟩ <;> rw [n1, n2] at hn
    · exact ⟨o2, hm2, hk2, s2.2.2.trans s1.2.2.symm⟩
    · exact hfn (s1.1.trans ((hkind o2 ho2 hn).symm.trans hk2))
    · exact hfn ((hkind o1 ho1 hn.symm).trans (s2.1.symm.trans hk2))
    · exact ⟨o2, hm2, hk2, hn⟩
  · rintro ⟨o2, hm2, hk2, hn⟩
    have ho2 : Occurs res.tokens res.stmts o2 := .inl hm2
    unfold IsFunction
    rw [docOccs_ren]
    refine ⟨_, List.mem_map_of_mem hm2, hk2, ?_⟩
    have hk1 : o1.symbolKind = .function := hf1 ⟨o2, hm2, hk2, hn⟩
    have hsame : SameSymbol o2 o1 := ⟨hk2.trans hk1.symm, (docOccs_function_global _ hm2 hk2).trans hb1.symm, hn⟩
    rcases renG_occ_name (name := name) (f := f) h hix hamb ho1 with ⟨s1, n1⟩ | ⟨s1, n1⟩ <;>
      rcases renG_occ_name (name := name) (f := f) h hix hamb ho2 with ⟨s2, n2⟩ | ⟨s2, n2⟩ <;> rw [n1, n2]
    · exact absurd ⟨hsame.1.trans s1.1, hsame.2.1.trans s1.2.1, hsame.2.2.trans s1.2.2⟩ s2
    · exact absurd ⟨hsame.1.symm.trans s2.1, hsame.2.1.symm.trans s2.2.1, hsame.2.2.symm.trans s2.2.2⟩ s1
    · exact hsame.2.2

/-- The occurrences after a rename to a name that may be in use. -/
theorem rename_joins (h : parseFromStr text = .ok res) {ix : HIRIndex} (hix : createIndex text res.tokens res.stmts = .ok ix)
    (hamb : ¬ Ambiguous res.stmts o.name) (hkind : ∀ o', Occurs res.tokens res.stmts o' → o'.name = name → o'.symbolKind = o.symbolKind)
    {text' : Str} {res' : ParserResult} (h' : parseFromStr text' = .ok res')
    (h7 : res'.tokens = res.tokens.map (renG res o name f).tok) (h8 : res'.stmts = res.stmts.map (renG res o name f).stmt) :
    ReferencesJoined res o name res' (renG res o name f).occ := by
  have hw := tokens_wellOrdered h'
  rw [h7] at hw
  have hnm := fun {o1} ho1 => renG_occ_name (name := name) (f := f) (o1 := o1) h hix hamb ho1
  refine ⟨?_, fun _ => ⟨rfl, rfl, rfl⟩, ?_, ?_⟩
  · intro o'
    rw [h7, h8]
    exact occurs_kept h (fun _ _ ht => isFunction_taken h hix hamb hkind ht) hw
  · intro o1 ho1
    rcases hnm ho1 with ⟨s, n⟩ | ⟨s, n⟩
    · exact ⟨fun _ => n, fun hn => absurd s hn⟩
    · exact ⟨fun hs => absurd hs s, fun _ => n⟩
  · intro o1 o2 ho1 ho2
    constructor
    · have hk : ∀ o1, ((renG res o name f).occ o1).symbolKind = o1.symbolKind := fun _ => rfl
      have hb : ∀ o1, ((renG res o name f).occ o1).funcBodyId = o1.funcBodyId := fun _ => rfl
      unfold Involved SameScope
      rcases hnm ho1 with ⟨s1, n1⟩ | ⟨s1, n1⟩ <;> rcases hnm ho2 with ⟨s2, n2⟩ | ⟨s2, n2⟩ <;> unfold SameSymbol at * <;> rw [hk, hk, hb, hb, n1, n2]
      · exact ⟨fun _ => .inr ⟨.inl s1, .inl s2⟩, fun _ => ⟨s1.1.trans s2.1.symm, s1.2.1.trans s2.2.1.symm, rfl⟩⟩
      · refine ⟨fun e => .inr ⟨.inl s1, .inr ⟨⟨e.1.symm.trans s1.1, e.2.1.symm.trans s1.2.1⟩, e.2.2.symm⟩⟩, ?_⟩
        rintro (e | ⟨_, e | e⟩)
        · exact absurd ⟨e.1.symm.trans s1.1, e.2.1.symm.trans s1.2.1, e.2.2.symm.trans s1.2.2⟩ s2
        · exact absurd e s2
        · exact ⟨s1.1.trans e.1.1.symm, s1.2.1.trans e.1.2.symm, e.2.symm⟩
      · refine ⟨fun e => .inr ⟨.inr ⟨⟨e.1.trans s2.1, e.2.1.trans s2.2.1⟩, e.2.2⟩, .inl s2⟩, ?_⟩
        rintro (e | ⟨e | e, _⟩)
        · exact absurd ⟨e.1.trans s2.1, e.2.1.trans s2.2.1, e.2.2.trans s2.2.2⟩ s1
        · exact absurd e s1
        · exact ⟨e.1.1.trans s2.1.symm, e.1.2.trans s2.2.1.symm, e.2⟩
      · refine ⟨fun e => .inl e, ?_⟩
        rintro (e | ⟨e | e, e' | e'⟩)
        · exact e
        · exact absurd e s1
        · exact absurd e s1
        · exact absurd e' s2
        · exact ⟨e.1.1.trans e'.1.1.symm, e.1.2.trans e'.1.2.symm, e.2.trans e'.2.symm⟩
    · have := (wellOrdered_order (tokens_wellOrdered h) hw (occurs_token h ho2) (occurs_token h ho1)).1
      rw [occTok_span, occTok_span] at this
      show (renG res o name f).f o1.span.start < (renG res o name f).f o2.span.start ↔ _
      omega

/-- C86: a rename to a name that is in use, but not by a symbol of another kind, makes one symbol of the two and changes nothing else about what
the names of the document refer to; in particular, find-references then lists the uses of both. -/
theorem C86_taken (hopen : Opened st uri text) (h : parseFromStr text = .ok res) (hsize : text.length < 2 ^ 32)
    {toks : List (Spanned Token)} {errs : List (LErr Char)} (ht : tokenize text = .ok (some toks, errs)) {p : Pos} {off : Nat} (hpos : LspOffset text p off)
    (ho : Occurs res.tokens res.stmts o) (hc : Covers o.span off)
    (hp : ∀ o', Occurs res.tokens res.stmts o' → Involved o name o' → PlainTo text o'.span.stop) (hamb : ¬ Ambiguous res.stmts o.name) {req : Str}
    (hreq : ¬ Relative req) (hname : NewName o.symbolKind req name) (hback : ReadsBack o.symbolKind name) (hplain : Plain name)
    (hkind : ∀ o', Occurs res.tokens res.stmts o' → o'.name = name → o'.symbolKind = o.symbolKind)
    (hbare : ∀ o', Occurs res.tokens res.stmts o' → SameSymbol o' o → Bare o') :
    ∃ edits text' res' m, rename env st uri p req = .ok (.ok [(uri, edits)]) ∧ Applied text edits text' ∧ (∀ t, Applied text edits t → t = text') ∧
      parseFromStr text' = .ok res' ∧ res'.stmts.length = res.stmts.length ∧ ReferencesJoined res o name res' m ∧
      ∀ (env' : Env) (st' : ServerState) (uri' : Str) (p' : Pos) (off' : Nat) (o1 : SymbolOccurrence),
        Opened st' uri' text' → text'.length < 2 ^ 32 → LspOffset text' p' off' → Occurs res.tokens res.stmts o1 → Covers (m o1).span off' → Involved o name o1 →
        ∃ locs, references env' st' uri' p' = .ok (some locs) ∧ locs.Nodup ∧
          ∀ l, l ∈ locs ↔ ∃ o2, Occurs res.tokens res.stmts o2 ∧ Involved o name o2 ∧ o2.useDef = .use ∧ l.uri = uri' ∧ EditorRange text' (m o2).span l.range := by
  obtain ⟨edits, text', errs', f, res', h1, h2, h3, h4, hts, h5, h6, h7, h8, _⟩ :=
    rename_core (env := env) hopen h hsize ht hpos ho hc (fun o' k1 k2 => hp o' k1 (.inl k2)) hamb hreq hname hback hplain hbare
  obtain ⟨doc, errs, ha, _⟩ := hopen
  obtain ⟨res0, e1, _, _, _, _, hix⟩ := analyze_inv ha
  rw [h] at e1
  cases e1
  rw [← hts] at h7
  have hj := rename_joins h hix hamb hkind h6 h7 h8
  refine ⟨edits, text', res', _, h1, h2, h3, h6, by rw [h8]; simp, hj, ?_⟩
  intro env' st' uri' p' off' o1 hopen' hsize' hpos' ho1 hc' hinv
  have hname1 : ((renG res o name f).occ o1).name = name := by
    rcases renG_occ_name (name := name) (f := f) h hix hamb ho1 with ⟨_, n⟩ | ⟨s, n⟩
    · exact n
    · rcases hinv with hs | hs
      · exact absurd hs s
      · rw [n]
        exact hs.2
  have hkind1 : ∀ o2, Occurs res.tokens res.stmts o2 → ((renG res o name f).occ o2).name = name → o2.symbolKind = o.symbolKind := by
    intro o2 ho2 hn2
    rcases renG_occ_name (name := name) (f := f) h hix hamb ho2 with ⟨s, _⟩ | ⟨_, n⟩
    · exact s.1
    · exact hkind o2 ho2 (n ▸ hn2)
  have hamb' : ¬ Ambiguous res'.stmts ((renG res o name f).occ o1).name := by
    rw [hname1, h8]
    rintro ⟨⟨a, ha1, ha2, ha3⟩, b, hb1, hb2, hb3⟩
    rw [docOccs_ren] at ha1 hb1
    obtain ⟨a1, hm1, rfl⟩ := List.mem_map.mp ha1
    obtain ⟨b1, hm2, rfl⟩ := List.mem_map.mp hb1
    have s1 := hkind1 _ (.inl hm1) ha3
    have s2 := hkind1 _ (.inl hm2) hb3
    have k1 : a1.symbolKind = .function := ha2
    have k2 : b1.symbolKind = .globalVar := hb2
    rw [k1] at s1
    rw [k2, ← s1] at s2
    cases s2
  have hboth : ∀ o2, Occurs res.tokens res.stmts o2 → (SameSymbol ((renG res o name f).occ o2) ((renG res o name f).occ o1) ↔ Involved o name o2) := by
    intro o2 ho2
    rw [(hj.2.2.2 o2 o1 ho2 ho1).1]
    constructor
    · rintro (e | e)
      · rcases hinv with hs | hs
        · exact .inl ⟨e.1.trans hs.1, e.2.1.trans hs.2.1, e.2.2.trans hs.2.2⟩
        · exact .inr ⟨⟨e.1.trans hs.1.1, e.2.1.trans hs.1.2⟩, e.2.2.trans hs.2⟩
      · exact e.1
    · exact fun e => .inr ⟨e, hinv⟩
  have hp' : PlainSymbol text' res' ((renG res o name f).occ o1) := by
    intro o2' ho2' hs
    obtain ⟨o2, ho2, rfl⟩ := (hj.1 o2').mp ho2'
    exact h4 _ (hp o2 ho2 ((hboth o2 ho2).mp hs))
  obtain ⟨locs, l1, l2, l3⟩ := C21_references_partial hopen' h6 hsize' hpos' ((hj.1 _).mpr ⟨o1, ho1, rfl⟩) hc' hp' (visible_of_clear ((hj.1 _).mpr ⟨o1, ho1, rfl⟩) hamb') env'
  refine ⟨locs, l1, l2, fun l => ?_⟩
  rw [l3]
  constructor
  · rintro ⟨o', ho', hs, hu, e1, e2⟩
    obtain ⟨o2, ho2, rfl⟩ := (hj.1 o').mp ho'
    exact ⟨o2, ho2, (hboth o2 ho2).mp hs, hu, e1, e2⟩
  · rintro ⟨o2, ho2, hs, hu, e1, e2⟩
    exact ⟨_, (hj.1 _).mpr ⟨o2, ho2, rfl⟩, (hboth o2 ho2).mpr hs, hu, e1, e2⟩

end

/-! ### Examples and refutations -/

section Examples
attribute [local instance] asciiUnicode

/-- Two functions that both use `%a`, and one that uses `%b` too. -/
def takenText : Str := c!"define void @f(int32 %a, int32 %b) {\nx:\n int32 %c = add int32 %a, %b\n return\n}\ndefine void @g(int32 %a) {\n return\n}\n"

def takenOcc : SymbolOccurrence := ⟨⟨21, 23⟩, .def_, .localVar, c!"%a", some 0⟩

def takenOcc2 : SymbolOccurrence := ⟨⟨100, 102⟩, .def_, .localVar, c!"%a", some 1⟩

theorem takenText_facts : ∃ res toks, parseFromStr takenText = .ok res ∧ tokenize takenText = .ok (some toks, []) ∧
    Occurs res.tokens res.stmts takenOcc ∧ Occurs res.tokens res.stmts takenOcc2 ∧ ¬ Ambiguous res.stmts c!"%a" ∧
    (∀ o', Occurs res.tokens res.stmts o' → o'.name = c!"%b" → o'.symbolKind = .localVar ∧ o'.funcBodyId = some 0) ∧
    (∃ o', Occurs res.tokens res.stmts o' ∧ o'.name = c!"%b") ∧ ∀ o', Occurs res.tokens res.stmts o' → Bare o' := by
  generalize h : parseFromStr takenText = r
  generalize h' : tokenize takenText = r'
  have key : (match parseFromStr takenText, tokenize takenText with
    | .ok res, .ok (some _, []) => decide (takenOcc ∈ allOccs res.tokens res.stmts) && decide (takenOcc2 ∈ allOccs res.tokens res.stmts) &&
        decide (¬ IsFunction res.stmts c!"%a") &&
        ((allOccs res.tokens res.stmts).all fun o => decide (o.name = c!"%b" → o.symbolKind = .localVar ∧ o.funcBodyId = some 0)) &&
        (allOccs res.tokens res.stmts).any fun o => decide (o.name = c!"%b")
    | _, _ => false) = true := by decide +kernel
  rw [h, h'] at key
  split at key
  · rename_i res toks
    simp only [Bool.and_eq_true, decide_eq_true_eq] at key
    obtain ⟨⟨⟨⟨k1, k2⟩, k3⟩, k4⟩, k5⟩ := key
    obtain ⟨x, hx, hxn⟩ := List.any_eq_true.mp k5
    refine ⟨res, toks, rfl, rfl, occurs_iff.mpr k1, occurs_iff.mpr k2, fun a => k3 a.1, ?_, ⟨x, occurs_iff.mpr hx, of_decide_eq_true hxn⟩, fun _ => bare_of_lexed h h'⟩
    intro o' ho' he
    have := List.all_eq_true.mp k4 _ (occurs_iff.mp ho')
    exact of_decide_eq_true this he
  · cases key

theorem newName_b : NewName .localVar c!"%b" c!"%b" := by
  refine ⟨c!"%", c!"b", rfl, .inl rfl, rfl, by simp, ?_, ?_⟩
  · intro c hc
    rw [List.mem_singleton.mp hc]
    exact .inl (.inl (by simp [Unicode.alphanumeric, Unicode.alphabetic_ascii]))
  · intro _ c hc
    cases hc
    simp [Unicode.numeric_ascii]

/-- The hypotheses of `C86_taken` hold for the parameter `%a` of the first function of `takenText` and the name `%b`, which is in use. -/
example : ∃ res edits text' res' m, parseFromStr takenText = .ok res ∧
    rename debugEnv (serverWith [] c!"u" takenText) c!"u" ⟨0, 22⟩ c!"%b" = .ok (.ok [(c!"u", edits)]) ∧ Applied takenText edits text' ∧
    parseFromStr text' = .ok res' ∧ ReferencesJoined res takenOcc c!"%b" res' m := by
  obtain ⟨res, toks, h1, h2, h3, _, h4, h5, _, h6⟩ := takenText_facts
  obtain ⟨edits, text', res', m, e1, e2, _, e3, _, e4, _⟩ := C86_taken (env := debugEnv) (st := serverWith [] c!"u" takenText) (uri := c!"u") (p := ⟨0, 22⟩)
    (off := 22) (serverWith_opened (by decide +kernel)) h1 (by decide +kernel) h2
    ⟨0, takenText.takeWhile (· ≠ '\n'), .here (content := takenText.takeWhile (· ≠ '\n')) (tail := takenText.drop 36) (by decide)
      (by intro c cs h; left; simp [takenText] at h; exact h.1.symm), by decide, rfl⟩
    h3 ⟨by decide, by decide⟩ (fun _ _ _ => Spec.Plain.to (by decide +kernel) _) h4 (by rintro ⟨w, h | h⟩ <;> cases h) newName_b ⟨by decide, fun hk => nomatch hk⟩ (by decide)
    (fun o' ho' he => (h5 o' ho' he).1) (fun o' ho' _ => h6 o' ho')
  exact ⟨res, edits, text', res', m, h1, e1, e2, e3, e4⟩

/-- The hypotheses of `C60_references_partial` hold for the parameter `%a` of the second function of `takenText` and the name `%b`, which is in
use in the first one only. -/
example : ∃ res edits text' res', parseFromStr takenText = .ok res ∧
    rename debugEnv (serverWith [] c!"u" takenText) c!"u" ⟨5, 21⟩ c!"%b" = .ok (.ok [(c!"u", edits)]) ∧ Applied takenText edits text' ∧
    parseFromStr text' = .ok res' ∧ SameReferences res takenOcc2 c!"%b" res' := by
  obtain ⟨res, toks, h1, h2, _, h3, h4, h5, _, h6⟩ := takenText_facts
  have hpos : LspOffset takenText ⟨5, 21⟩ 100 :=
    ⟨79, c!"define void @g(int32 %a) {", .later (content := c!"define void @f(int32 %a, int32 %b) {") (eol := c!"\n") (by decide) (.inl rfl) (by simp)
      (.later (content := c!"x:") (eol := c!"\n") (by decide) (.inl rfl) (by simp)
      (.later (content := c!" int32 %c = add int32 %a, %b") (eol := c!"\n") (by decide) (.inl rfl) (by simp)
      (.later (content := c!" return") (eol := c!"\n") (by decide) (.inl rfl) (by simp)
      (.later (content := c!"}") (eol := c!"\n") (by decide) (.inl rfl) (by simp)
      (.here (content := c!"define void @g(int32 %a) {") (tail := takenText.drop 105) (by decide) (by intro c cs h; left; simp [takenText] at h; exact h.1.symm)))))),
      by decide, rfl⟩
  obtain ⟨edits, text', res', e1, e2, _, e3, _, e4⟩ := C60_references_partial (env := debugEnv) (st := serverWith [] c!"u" takenText) (uri := c!"u")
    (serverWith_opened (by decide +kernel)) h1 (by decide +kernel) h2 hpos
    h3 ⟨by decide, by decide⟩ (fun _ _ _ => Spec.Plain.to (by decide +kernel) _) h4 (by rintro ⟨w, h | h⟩ <;> cases h) newName_b ⟨by decide, fun hk => nomatch hk⟩ (by decide)
    (fun o' ho' he hb => nomatch (h5 o' ho' he).2.symm.trans hb) (fun o' ho' _ => h6 o' ho')
  exact ⟨res, edits, text', res', h1, e1, e2, e3, e4⟩

/-- Kinds and names of the occurrences: first those in statements, then the other uses. -/
def kindsOf (text : Str) : List (SymbolKind × Str) :=
  match parseFromStr text with
  | .ok res => (allOccs res.tokens res.stmts).map fun o => (o.symbolKind, o.name)
  | _ => []

/-- The name must not belong to a symbol of another kind: after the rename of the variable `@a` to the name of the function `@f`, the use of the
variable is a use of the function (as is its definition, see C17). -/
theorem C86_refuted_kind :
    (match rename debugEnv (serverWith [] c!"u" c!"@a = 1\ndeclare void @f()\n@c = @a\n") c!"u" ⟨0, 0⟩ c!"@f" with | .ok (.ok e) => some e | _ => none) =
      some [(c!"u", [⟨⟨⟨0, 0⟩, ⟨0, 2⟩⟩, c!"@f"⟩, ⟨⟨⟨2, 5⟩, ⟨2, 7⟩⟩, c!"@f"⟩])] ∧
    kindsOf c!"@a = 1\ndeclare void @f()\n@c = @a\n" = [(.globalVar, c!"@a"), (.function, c!"@f"), (.globalVar, c!"@c"), (.globalVar, c!"@a")] ∧
    kindsOf c!"@f = 1\ndeclare void @f()\n@c = @f\n" = [(.globalVar, c!"@f"), (.function, c!"@f"), (.globalVar, c!"@c"), (.function, c!"@f"), (.function, c!"@f")] := by
  decide +kernel

end Examples
end HyperIR
