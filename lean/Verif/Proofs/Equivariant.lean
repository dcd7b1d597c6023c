import Verif.Proofs.Natural
import Verif.Proofs.LexRename
import Verif.Proofs.Rename

/- The parser commutes with giving new names to tokens: as long as no keyword of an instruction is involved, what is parsed only
depends on the kinds of the tokens (src/hir_parser.rs:74-426). -/

namespace HyperIR
open Spec

/-- The words the parser looks for. -/
def instrWords : List Str := [c!"br", c!"switch", c!"phi", c!"cont", c!"overflow", c!"default", c!"label", c!"depends", c!"on"]

/-- No word the parser looks for. -/
def NotKeyword (n : Str) : Prop :=
  n ∉ instrWords ∧ endsWith n c!"br" = false

/-- New names for tokens, and new places. -/
structure Renaming where
  ren : Spanned Token → Option Str
  f : Nat → Nat
  named : ∀ t v, ren t = some v → ∃ n, tokName t.1 = some n

/-- No word the parser looks for is replaced, and none is a new name. -/
class Renaming.Words (G : Renaming) : Prop where
  plain : ∀ n sp v, G.ren (.ident n, sp) = some v → NotKeyword n ∧ NotKeyword v

namespace Renaming
variable (G : Renaming)

def span (sp : Span) : Span := { start := G.f sp.start, stop := G.f sp.stop }
def tok (t : Spanned Token) : Spanned Token := renTok G.ren G.f t
def toks (s : Toks Token) : Toks Token := s.map G.tok
def moved {α : Type} (x : Spanned α) : Spanned α := (x.1, G.span x.2)

/-- What becomes of a name that stands in a token. -/
def name (mk : Str → Token) (x : Spanned Str) : Spanned Str := ((G.ren (mk x.1, x.2)).getD x.1, G.span x.2)

def instr (i : Instruction) : Instruction :=
  { assignmentTarget := i.assignmentTarget.map (G.name .localName)
    instruction := G.name .ident i.instruction
    basicBlockRefs := i.basicBlockRefs.map (G.name .ident)
    dbgRef := i.dbgRef.map (G.name .debugRef)
    span := G.span i.span }

def block (b : BasicBlock) : BasicBlock :=
  { label := b.label.map (G.name .ident)
    labelCommaSpan := b.labelCommaSpan.map G.span
    instructions := b.instructions.map G.instr
    span := G.span b.span }

def body (b : FuncBody) : FuncBody :=
  { openingBracket := G.span b.openingBracket
    closingBracket := G.span b.closingBracket
    basicBlocks := b.basicBlocks.map G.block }

def arg (a : FuncArg) : FuncArg := { type_ := G.moved a.type_, name := G.name .localName a.name }

def sig (s : FuncSignature) : FuncSignature :=
  { modifiers := s.modifiers.map G.moved
    retType := G.moved s.retType
    name := G.name .globalName s.name
    args := s.args.map G.arg }

def stmt : Statement → Statement
  | .globalVar n d => .globalVar (G.name .globalName n) (d.map G.tok)
  | .funcDecl s a d => .funcDecl (G.sig s) (a.map G.moved) (d.map (G.name .debugRef))
  | .funcDef k s b => .funcDef (G.span k) (G.sig s) (G.body b)
  | .funcDependencies n ds => .funcDependencies (G.name .globalName n) (ds.map (G.name .globalName))
  | .dbgAnnotation n d => .dbgAnnotation (G.name .debugRef n) (d.map G.tok)

/-- An error, elsewhere. -/
def err (e : LErr Token) : LErr Token :=
  { e with span := G.span e.span, found := e.found.map fun t => (G.tok (t, e.span)).1 }

/-- Results that correspond: same control flow, outputs related, errors at the same places. -/
def Rel {α β : Type} (R : α → β → Prop) : Res Token α → Res Token β → Prop
  | .ok es x alt r, .ok es' x' alt' r' => es' = es.map G.err ∧ R x x' ∧ alt' = alt.map G.err ∧ r' = G.toks r
  | .err es e, .err es' e' => es' = es.map G.err ∧ e' = G.err e
  | .panic, .panic => True
  | _, _ => False

end Renaming

/-- `p` commutes with the renaming; `R` says what it does to the output. -/
def Equi {α : Type} (G : Renaming) (R : α → α → Prop) (p : P Token α) : Prop :=
  ∀ eoi s, G.Rel R (p eoi s) (p (G.span eoi) (G.toks s))

/-- The output is mapped. -/
def Via {α : Type} (g : α → α) (x y : α) : Prop := y = g x

/-- The output does not matter. -/
def Whatever {α : Type} (_ _ : α) : Prop := True

section
variable {α β γ : Type} {G : Renaming} {R : α → α → Prop} {S : β → β → Prop} {eoi : Span} {s : Toks Token}

@[simp] theorem rtoks_length : (G.toks s).length = s.length := by simp [Renaming.toks]
@[simp] theorem rtoks_nil : G.toks ([] : Toks Token) = [] := rfl
@[simp] theorem rtoks_cons {t : Token × Span} : G.toks (t :: s) = ((G.tok t).1, G.span t.2) :: G.toks s := rfl

theorem Renaming.tok_eq (G : Renaming) (t : Spanned Token) : G.tok t = ((G.tok t).1, G.span t.2) := rfl

theorem headSpan_ren : headSpan (G.span eoi) (G.toks s) = G.span (headSpan eoi s) := by
  cases s <;> rfl

theorem spanSince_ren {r : Toks Token} :
    spanSince (G.span eoi) (G.toks s) (G.toks r) = G.span (spanSince eoi s r) := by
  unfold spanSince
  rw [headSpan_ren]
  simp only [rtoks_length, Renaming.span, Span.mk.injEq, true_and]
  unfold Renaming.toks
  rw [List.getElem?_map]
  cases s[s.length - r.length - 1]? with
  | none => rfl
  | some t => rfl

theorem unexpectedAt_ren {ex} : unexpectedAt (G.span eoi) (G.toks s) ex = G.err (unexpectedAt eoi s ex) := by
  cases s with
  | nil => rfl
  | cons t s => simp [unexpectedAt, Renaming.err, headSpan, Renaming.tok]

theorem customAt_ren {m} : customAt (G.span eoi) (G.toks s) m = G.err (customAt eoi s m) := by
  cases s with
  | nil => rfl
  | cons t s => simp [customAt, Renaming.err, headSpan]

theorem maxErr_ren {a a' : LErr Token} {b b' : Option (LErr Token)} (h : a' = G.err a) (hb : b' = b.map G.err) :
    maxErr a' b' = G.err (maxErr a b) := by
  subst h hb
  cases b with
  | none => rfl
  | some b =>
    simp only [Option.map_some, maxErr]
    by_cases h1 : a.rem < b.rem
    · rw [if_pos (show (G.err a).rem < (G.err b).rem from h1), if_pos h1]
    · rw [if_neg (show ¬ (G.err a).rem < (G.err b).rem from h1), if_neg h1]
      by_cases h2 : b.rem < a.rem
      · rw [if_pos (show (G.err b).rem < (G.err a).rem from h2), if_pos h2]
      · rw [if_neg (show ¬ (G.err b).rem < (G.err a).rem from h2), if_neg h2]; rfl

theorem mergeAlts_ren {a a' b b' : Option (LErr Token)} (ha : a' = a.map G.err) (hb : b' = b.map G.err) :
    mergeAlts a' b' = (mergeAlts a b).map G.err := by
  subst ha hb
  cases b with
  | none => rfl
  | some b => simp only [mergeAlts, Option.map_some]; rw [maxErr_ren rfl rfl]

theorem lastRem_eq {es es' : List (LErr Token)} (h : es' = es.map G.err) : lastRem es' = lastRem es := by
  subst h
  unfold lastRem
  rw [List.getLast?_map, Option.map_map]
  rfl

/-- The cases of related results. -/
theorem rel_cases {α β : Type} {R : α → β → Prop} {x : Res Token α} {y : Res Token β} (h : G.Rel R x y) :
    (∃ es a alt r es' a' alt', x = .ok es a alt r ∧ y = .ok es' a' alt' (G.toks r) ∧ es' = es.map G.err ∧ R a a' ∧
      alt' = alt.map G.err) ∨
    (∃ es e es' e', x = .err es e ∧ y = .err es' e' ∧ es' = es.map G.err ∧ e' = G.err e) ∨ (x = .panic ∧ y = .panic) := by
  cases x <;> cases y <;> simp only [Renaming.Rel] at h
  · obtain ⟨h1, h2, h3, rfl⟩ := h
    exact .inl ⟨_, _, _, _, _, _, _, rfl, rfl, h1, h2, h3⟩
  · exact .inr (.inl ⟨_, _, _, _, rfl, rfl, h.1, h.2⟩)
  · exact .inr (.inr ⟨rfl, rfl⟩)

theorem equi_mono {R R' : α → α → Prop} {p : P Token α} (h : Equi G R p) (hR : ∀ x y, R x y → R' x y) : Equi G R' p := by
  intro eoi s
  rcases rel_cases (h eoi s) with ⟨es, a, alt, r, es', a', alt', h1, h2, h3, h4, h5⟩ | ⟨es, e, es', e', h1, h2, h3, h4⟩ | ⟨h1, h2⟩
  · rw [h1, h2]; exact ⟨h3, hR _ _ h4, h5, rfl⟩
  · rw [h1, h2]; exact ⟨h3, h4⟩
  · rw [h1, h2]; trivial

theorem satisfy_equi {f : Token → Bool} {ex} {R : Token → Token → Prop} (hf : ∀ t, f (G.tok t).1 = f t.1)
    (hR : ∀ t, f t.1 = true → R t.1 (G.tok t).1) : Equi G R (satisfy f ex) := by
  intro eoi s
  cases s with
  | nil => exact ⟨rfl, rfl⟩
  | cons t s =>
    simp only [rtoks_cons, satisfy, hf]
    cases h : f t.1 with
    | true => simp only [if_true]; exact ⟨rfl, hR t h, rfl, rfl⟩
    | false => simp only [Bool.false_eq_true, if_false]; exact ⟨rfl, unexpectedAt_ren (s := t :: s)⟩

theorem pfilterMap_equi {f : Token → Span → Option α} {m} {g : α → α} (hf : ∀ t, f (G.tok t).1 (G.span t.2) = (f t.1 t.2).map g) :
    Equi G (Via g) (pfilterMap f m) := by
  intro eoi s
  cases s with
  | nil => exact ⟨rfl, rfl⟩
  | cons t s =>
    simp only [rtoks_cons, pfilterMap, hf]
    cases f t.1 t.2 with
    | none => exact ⟨rfl, customAt_ren (s := t :: s)⟩
    | some a => exact ⟨rfl, rfl, rfl, rfl⟩

theorem pend_equi : Equi G Whatever (pend : P Token Unit) := by
  intro eoi s
  cases s with
  | nil => exact ⟨rfl, trivial, rfl, rfl⟩
  | cons t s => exact ⟨rfl, unexpectedAt_ren (s := t :: s)⟩

theorem pmap_equi {f : α → β} {p : P Token α} (hp : Equi G R p) (hf : ∀ x y, R x y → S (f x) (f y)) : Equi G S (pmap f p) := by
  intro eoi s
  unfold pmap
  rcases rel_cases (hp eoi s) with ⟨es, a, alt, r, es', a', alt', h1, h2, h3, h4, h5⟩ | ⟨es, e, es', e', h1, h2, h3, h4⟩ | ⟨h1, h2⟩ <;> rw [h1, h2]
  · exact ⟨h3, hf _ _ h4, h5, rfl⟩
  · exact ⟨h3, h4⟩
  · trivial

theorem pmapOutcome_equi {f : α → Outcome β} {p : P Token α} (hp : Equi G R p)
    (hf : ∀ x y, R x y → match f x, f y with | .ok a, .ok b => S a b | .panic, .panic => True | _, _ => False) : Equi G S (pmapOutcome f p) := by
  intro eoi s
  unfold pmapOutcome
  rcases rel_cases (hp eoi s) with ⟨es, a, alt, r, es', a', alt', h1, h2, h3, h4, h5⟩ | ⟨es, e, es', e', h1, h2, h3, h4⟩ | ⟨h1, h2⟩ <;> rw [h1, h2]
  · have := hf _ _ h4
    simp only
    revert this
    cases f a <;> cases f a' <;> intro this
    · exact ⟨h3, this, h5, rfl⟩
    · exact this.elim
    · exact this.elim
    · trivial
  · exact ⟨h3, h4⟩
  · trivial

theorem pmapSpan_equi {f : α → Span → β} {p : P Token α} (hp : Equi G R p) (hf : ∀ x y sp, R x y → S (f x sp) (f y (G.span sp))) :
    Equi G S (pmapSpan f p) := by
  intro eoi s
  unfold pmapSpan
  rcases rel_cases (hp eoi s) with ⟨es, a, alt, r, es', a', alt', h1, h2, h3, h4, h5⟩ | ⟨es, e, es', e', h1, h2, h3, h4⟩ | ⟨h1, h2⟩ <;> rw [h1, h2]
  · simp only [spanSince_ren]
    exact ⟨h3, hf _ _ _ h4, h5, rfl⟩
  · exact ⟨h3, h4⟩
  · trivial

theorem pthen_equi {p : P Token α} {q : P Token β} (hp : Equi G R p) (hq : Equi G S q) :
    Equi G (fun x y => R x.1 y.1 ∧ S x.2 y.2) (pthen p q) := by
  intro eoi s
  unfold pthen
  rcases rel_cases (hp eoi s) with ⟨es, a, alt, r, es', a', alt', h1, h2, h3, h4, h5⟩ | ⟨es, e, es', e', h1, h2, h3, h4⟩ | ⟨h1, h2⟩ <;> rw [h1, h2]
  · simp only
    rcases rel_cases (hq eoi r) with ⟨fs, b, blt, q, fs', b', blt', k1, k2, k3, k4, k5⟩ | ⟨fs, e, fs', e', k1, k2, k3, k4⟩ | ⟨k1, k2⟩ <;> rw [k1, k2]
    · exact ⟨by simp [h3, k3], ⟨h4, k4⟩, mergeAlts_ren h5 k5, rfl⟩
    · exact ⟨by simp [h3, k3], maxErr_ren k4 h5⟩
    · trivial
  · exact ⟨h3, h4⟩
  · trivial

theorem thenIgnore_equi {p : P Token α} {q : P Token β} (hp : Equi G R p) (hq : Equi G S q) : Equi G R (thenIgnore p q) :=
  pmap_equi (pthen_equi hp hq) (fun _ _ h => h.1)

theorem ignoreThen_equi {p : P Token α} {q : P Token β} (hp : Equi G R p) (hq : Equi G S q) : Equi G S (ignoreThen p q) :=
  pmap_equi (pthen_equi hp hq) (fun _ _ h => h.2)

theorem delimitedBy_equi {l : P Token β} {r : P Token γ} {T : γ → γ → Prop} {p : P Token α} (hl : Equi G S l) (hr : Equi G T r)
    (hp : Equi G R p) : Equi G R (delimitedBy l r p) := thenIgnore_equi (ignoreThen_equi hl hp) hr

theorem paddedBy_equi {l : P Token β} {p : P Token α} (hl : Equi G S l) (hp : Equi G R p) : Equi G R (paddedBy l p) :=
  thenIgnore_equi (ignoreThen_equi hl hp) hl

theorem map_err_nil {es' : List (LErr Token)} (h : es' = ([] : List (LErr Token)).map G.err) : es' = [] := h

theorem map_err_cons {es' es : List (LErr Token)} {e : LErr Token} (h : es' = (e :: es).map G.err) :
    ∃ d ds, es' = d :: ds ∧ d = G.err e ∧ ds = es.map G.err := ⟨_, _, h, rfl, rfl⟩

theorem por_equi {p q : P Token α} (hp : Equi G R p) (hq : Equi G R q) : Equi G R (por p q) := by
  intro eoi s
  unfold por
  rcases rel_cases (hp eoi s) with ⟨es, a, alt, r, es', a', alt', h1, h2, h3, h4, h5⟩ | ⟨es, e, es', e', h1, h2, h3, h4⟩ | ⟨h1, h2⟩ <;> rw [h1, h2]
  · cases es with
    | nil =>
      obtain rfl := map_err_nil h3
      exact ⟨rfl, h4, h5, rfl⟩
    | cons e es =>
      obtain ⟨e', es', rfl, h3a, h3b⟩ := map_err_cons h3
      simp only
      rcases rel_cases (hq eoi s) with ⟨fs, b, blt, q, fs', b', blt', k1, k2, k3, k4, k5⟩ | ⟨fs, e, fs', e', k1, k2, k3, k4⟩ | ⟨k1, k2⟩ <;> rw [k1, k2]
      · cases fs with
        | nil =>
          obtain rfl := map_err_nil k3
          exact ⟨rfl, k4, k5, rfl⟩
        | cons d ds =>
          obtain ⟨d', ds', rfl, k3a, k3b⟩ := map_err_cons k3
          simp only
          rw [lastRem_eq h3, lastRem_eq k3]
          have hl : es'.length = es.length := by simpa using congrArg List.length h3b
          have kl : ds'.length = ds.length := by simpa using congrArg List.length k3b
          rw [hl, kl]
          cases lastRem (e :: es) with
          | none => exact ⟨h3, h4, h5, rfl⟩
          | some ra =>
            cases lastRem (d :: ds) with
            | none => exact ⟨h3, h4, h5, rfl⟩
            | some rb =>
              simp only
              split
              · exact ⟨k3, k4, k5, rfl⟩
              · split
                · exact ⟨h3, h4, h5, rfl⟩
                · split
                  · exact ⟨k3, k4, k5, rfl⟩
                  · exact ⟨h3, h4, h5, rfl⟩
      · exact ⟨h3, h4, mergeAlts_ren h5 (by simp [k4]), rfl⟩
      · trivial
  · simp only
    rcases rel_cases (hq eoi s) with ⟨fs, b, blt, q, fs', b', blt', k1, k2, k3, k4, k5⟩ | ⟨fs, d, fs', d', k1, k2, k3, k4⟩ | ⟨k1, k2⟩ <;> rw [k1, k2]
    · exact ⟨k3, k4, mergeAlts_ren k5 (by simp [h4]), rfl⟩
    · subst h4 k4
      simp only
      by_cases h4 : e.rem < d.rem
      · rw [if_pos h4, if_pos (show (G.err e).rem < (G.err d).rem from h4)]
        exact ⟨h3, rfl⟩
      · rw [if_neg h4, if_neg (show ¬ (G.err e).rem < (G.err d).rem from h4)]
        by_cases k4 : d.rem < e.rem
        · rw [if_pos k4, if_pos (show (G.err d).rem < (G.err e).rem from k4)]
          exact ⟨k3, rfl⟩
        · rw [if_neg k4, if_neg (show ¬ (G.err d).rem < (G.err e).rem from k4)]
          exact ⟨h3, maxErr_ren rfl rfl⟩
    · trivial
  · trivial

/-- Optional outputs. -/
inductive OptRel {α : Type} (R : α → α → Prop) : Option α → Option α → Prop
  | none : OptRel R none none
  | some {x y} : R x y → OptRel R (some x) (some y)

theorem optRel_via {g : α → α} {x y : Option α} (h : OptRel (Via g) x y) : y = x.map g := by
  cases h with
  | none => rfl
  | some h => rw [h]; rfl

theorem orNot_equi {p : P Token α} (hp : Equi G R p) : Equi G (OptRel R) (orNot p) := by
  intro eoi s
  unfold orNot
  rcases rel_cases (hp eoi s) with ⟨es, a, alt, r, es', a', alt', h1, h2, h3, h4, h5⟩ | ⟨es, e, es', e', h1, h2, h3, h4⟩ | ⟨h1, h2⟩ <;> rw [h1, h2]
  · exact ⟨h3, .some h4, h5, rfl⟩
  · exact ⟨rfl, .none, by simp [h4], rfl⟩
  · trivial

theorem rewind_equi {p : P Token α} (hp : Equi G R p) : Equi G R (rewind p) := by
  intro eoi s
  unfold rewind
  rcases rel_cases (hp eoi s) with ⟨es, a, alt, r, es', a', alt', h1, h2, h3, h4, h5⟩ | ⟨es, e, es', e', h1, h2, h3, h4⟩ | ⟨h1, h2⟩ <;> rw [h1, h2]
  · exact ⟨h3, h4, h5, rfl⟩
  · exact ⟨h3, h4⟩
  · trivial

theorem pnot_equi {p : P Token α} (hp : Equi G R p) : Equi G Whatever (pnot p) := by
  intro eoi s
  unfold pnot
  rcases rel_cases (hp eoi s) with ⟨es, a, alt, r, es', a', alt', h1, h2, h3, h4, h5⟩ | ⟨es, e, es', e', h1, h2, h3, h4⟩ | ⟨h1, h2⟩ <;> rw [h1, h2]
  · exact ⟨rfl, unexpectedAt_ren⟩
  · cases s with
    | nil => exact ⟨rfl, rfl⟩
    | cons t s => exact ⟨rfl, trivial, rfl, rfl⟩
  · trivial

theorem validate_equi {f : α → Option Str} {p : P Token α} (hp : Equi G R p) (hf : ∀ x y, R x y → f y = f x) :
    Equi G R (validate f p) := by
  intro eoi s
  unfold validate
  rcases rel_cases (hp eoi s) with ⟨es, a, alt, r, es', a', alt', h1, h2, h3, h4, h5⟩ | ⟨es, e, es', e', h1, h2, h3, h4⟩ | ⟨h1, h2⟩ <;> rw [h1, h2]
  · simp only [hf _ _ h4]
    cases f a with
    | none => exact ⟨h3, h4, h5, rfl⟩
    | some m => exact ⟨by simp [h3, spanSince_ren, Renaming.err], h4, h5, rfl⟩
  · exact ⟨h3, h4⟩
  · trivial

theorem each_snoc {as bs : List α} {a b : α} (h : Each R as bs) (h1 : R a b) : Each R (as ++ [a]) (bs ++ [b]) :=
  Each.append h (.cons h1 .nil)

theorem each_length {as bs : List α} (h : Each R as bs) : bs.length = as.length := by
  induction h with
  | nil => rfl
  | cons _ _ ih => simp [ih]

theorem each_via {g : α → α} {as bs : List α} (h : Each (Via g) as bs) : bs = as.map g := by
  induction h with
  | nil => rfl
  | cons h _ ih => rw [h, ih]; rfl

theorem repeatLoop_equi {p : P Token α} {n : Nat} (hp : Equi G R p) : ∀ {fuel old errs errs' outs outs' alt alt'} {s : Toks Token},
    errs' = errs.map G.err → Each R outs outs' → alt' = alt.map G.err →
      G.Rel (Each R) (repeatLoop p n eoi fuel old errs outs alt s) (repeatLoop p n (G.span eoi) fuel old errs' outs' alt' (G.toks s))
  | 0, _, _, _, _, _, _, _, _, _, _, _ => trivial
  | fuel + 1, old, errs, errs', outs, outs', alt, alt', s, he, ho, ha => by
    simp only [repeatLoop]
    rcases rel_cases (hp eoi s) with ⟨es, a, al, r, es', a', al', h1, h2, h3, h4, h5⟩ | ⟨es, e, es', e', h1, h2, h3, h4⟩ | ⟨h1, h2⟩ <;> rw [h1, h2]
    · simp only [rtoks_length]
      split
      · trivial
      · exact repeatLoop_equi hp (by simp [he, h3]) (each_snoc ho h4) (mergeAlts_ren ha h5)
    · simp only [each_length ho]
      split
      · exact ⟨by simp [he, h3], h4⟩
      · exact ⟨he, ho, mergeAlts_ren ha (by simp [h4]), rfl⟩
    · trivial

theorem repeatedAtLeast_equi {p : P Token α} {n : Nat} (hp : Equi G R p) : Equi G (Each R) (repeatedAtLeast n p) := by
  intro eoi s
  unfold repeatedAtLeast
  rw [rtoks_length]
  exact repeatLoop_equi hp rfl .nil rfl

theorem repeated_equi {p : P Token α} (hp : Equi G R p) : Equi G (Each R) (repeated p) := repeatedAtLeast_equi hp

theorem sepLoop_equi {p : P Token α} {q : P Token β} (hp : Equi G R p) (hq : Equi G S q) :
    ∀ {fuel errs errs' outs outs' alt alt'} {s : Toks Token},
    errs' = errs.map G.err → Each R outs outs' → alt' = alt.map G.err →
      G.Rel (Each R) (sepLoop p q eoi fuel errs outs alt s) (sepLoop p q (G.span eoi) fuel errs' outs' alt' (G.toks s))
  | 0, _, _, _, _, _, _, _, _, _, _ => trivial
  | fuel + 1, errs, errs', outs, outs', alt, alt', s, he, ho, ha => by
    simp only [sepLoop]
    rcases rel_cases (hq eoi s) with ⟨es, a, al, r, es', a', al', h1, h2, h3, h4, h5⟩ | ⟨es, e, es', e', h1, h2, h3, h4⟩ | ⟨h1, h2⟩ <;> rw [h1, h2]
    · simp only
      rcases rel_cases (hp eoi r) with ⟨fs, b, blt, q, fs', b', blt', k1, k2, k3, k4, k5⟩ | ⟨fs, d, fs', d', k1, k2, k3, k4⟩ | ⟨k1, k2⟩ <;> rw [k1, k2]
      · exact sepLoop_equi hp hq (by simp [he, h3, k3]) (each_snoc ho k4) (mergeAlts_ren (mergeAlts_ren ha h5) k5)
      · exact ⟨by simp [he, h3, k3], ho, mergeAlts_ren (mergeAlts_ren ha h5) (by simp [k4]), rfl⟩
      · trivial
    · exact ⟨by simp [he, h3], ho, mergeAlts_ren ha (by simp [h4]), rfl⟩
    · trivial

theorem separatedBy_equi {p : P Token α} {q : P Token β} (hp : Equi G R p) (hq : Equi G S q) : Equi G (Each R) (separatedBy p q) := by
  intro eoi s
  unfold separatedBy
  rcases rel_cases (hp eoi s) with ⟨es, a, al, r, es', a', al', h1, h2, h3, h4, h5⟩ | ⟨es, e, es', e', h1, h2, h3, h4⟩ | ⟨h1, h2⟩ <;> rw [h1, h2]
  · simp only [rtoks_length]
    exact sepLoop_equi hp hq h3 (.cons h4 .nil) h5
  · exact ⟨h3, .nil, by simp [h4], rfl⟩
  · trivial

theorem skipThenRetry_equi {p : P Token α} (hp : Equi G R p) {errs errs' fatal fatal'} (he : errs' = errs.map G.err)
    (hf : fatal' = G.err fatal) : ∀ {s : Toks Token}, G.Rel R (skipThenRetry p eoi errs fatal s) (skipThenRetry p (G.span eoi) errs' fatal' (G.toks s))
  | [] => ⟨he, hf⟩
  | t :: s => by
    simp only [rtoks_cons, skipThenRetry]
    rcases rel_cases (hp eoi s) with ⟨es, a, al, r, es', a', al', h1, h2, h3, h4, h5⟩ | ⟨es, e, es', e', h1, h2, h3, h4⟩ | ⟨h1, h2⟩ <;> rw [h1, h2]
    · exact ⟨by simp [he, hf, h3], h4, h5, rfl⟩
    · exact skipThenRetry_equi hp he hf
    · trivial

theorem recoverSkip_equi {p : P Token α} (hp : Equi G R p) : Equi G R (recoverSkip p) := by
  intro eoi s
  unfold recoverSkip
  rcases rel_cases (hp eoi s) with ⟨es, a, al, r, es', a', al', h1, h2, h3, h4, h5⟩ | ⟨es, e, es', e', h1, h2, h3, h4⟩ | ⟨h1, h2⟩ <;> rw [h1, h2]
  · exact ⟨h3, h4, h5, rfl⟩
  · exact skipThenRetry_equi hp h3 h4
  · trivial

end

/-! ### Tokens -/

section
variable {G : Renaming}

/-- A token that keeps its kind. -/
theorem tok_cases (G : Renaming) (t : Spanned Token) :
    (G.ren t = none ∧ (G.tok t).1 = t.1) ∨ (∃ n v, G.ren t = some v ∧ tokName t.1 = some n ∧ (G.tok t).1 = withName t.1 v) := by
  unfold Renaming.tok renTok
  cases h : G.ren t with
  | none => exact .inl ⟨rfl, rfl⟩
  | some v =>
    obtain ⟨n, hn⟩ := G.named t v h
    exact .inr ⟨n, v, rfl, hn, rfl⟩

/-- Tokens without a name stay as they are, and no others become one. -/
theorem tok_unnamed {t : Spanned Token} {c : Token} (hc : tokName c = none) : (G.tok t).1 = c ↔ t.1 = c := by
  rcases tok_cases G t with ⟨_, h⟩ | ⟨n, v, h1, h2, h3⟩
  · rw [h]
  · rw [h3]
    obtain ⟨t, sp⟩ := t
    constructor
    · rintro rfl
      cases t <;> simp [tokName, withName] at h2 hc
    · rintro rfl
      simp only at h2
      rw [hc] at h2
      cases h2

variable [G.Words]

/-- Keywords stay as they are, and nothing else becomes one. -/
theorem tok_keyword {t : Spanned Token} {n : Str}
    (hn : n ∈ instrWords) :
    (G.tok t).1 = .ident n ↔ t.1 = .ident n := by
  rcases tok_cases G t with ⟨_, h⟩ | ⟨m, v, h1, h2, h3⟩
  · rw [h]
  · rw [h3]
    obtain ⟨t, sp⟩ := t
    constructor
    · intro h
      cases t <;> simp [tokName, withName] at h2 h
      subst h
      exact absurd hn (Renaming.Words.plain (G := G) _ _ _ h1).2.1
    · rintro rfl
      exact absurd hn (Renaming.Words.plain (G := G) _ _ _ h1).1.1

theorem just_equi {c : Token} (hc : tokName c = none) : Equi G Whatever (just c) :=
  satisfy_equi (fun t => by simp only [tok_unnamed hc]) (fun _ _ => trivial)

theorem pPunct_equi {c} : Equi G Whatever (pPunct c) := just_equi rfl
theorem pNewline_equi : Equi G Whatever pNewline := just_equi rfl

theorem pKeyword_equi {n : Str}
    (hn : n ∈ instrWords) : Equi G Whatever (pKeyword n) :=
  satisfy_equi (fun t => by simp only [tok_keyword hn]) (fun _ _ => trivial)

theorem noneOf_equi {ts : List Token} (h : ∀ c ∈ ts, tokName c = none ∨
    ∃ n ∈ instrWords, c = .ident n) :
    Equi G Whatever (noneOf ts) := by
  refine satisfy_equi (fun t => ?_) (fun _ _ => trivial)
  rw [decide_eq_decide]
  refine not_congr ?_
  constructor
  · intro hm
    rcases h _ hm with hc | ⟨n, hn, hc⟩
    · rwa [← (tok_unnamed hc).mp rfl] at hm
    · rw [hc] at hm
      rwa [(tok_keyword hn).mp hc]
  · intro hm
    rcases h _ hm with hc | ⟨n, hn, hc⟩
    · rwa [(tok_unnamed (G := G) hc).mpr rfl]
    · rw [hc] at hm
      rwa [(tok_keyword (G := G) hn).mpr hc]

theorem pany_equi : Equi G Whatever (pany : P Token Token) := satisfy_equi (fun _ => rfl) (fun _ _ => trivial)

theorem pFuncModifier_equi : Equi G (Via G.moved) pFuncModifier := by
  refine pfilterMap_equi ?_
  rintro ⟨t, sp⟩
  rcases tok_cases G (t, sp) with ⟨_, h⟩ | ⟨m, v, h1, h2, h3⟩
  · rw [h]; cases t <;> rfl
  · rw [h3]; cases t <;> first | rfl | (simp [tokName] at h2)

theorem pType_equi : Equi G (Via G.moved) pType := by
  refine pfilterMap_equi ?_
  rintro ⟨t, sp⟩
  rcases tok_cases G (t, sp) with ⟨_, h⟩ | ⟨m, v, h1, h2, h3⟩
  · rw [h]; cases t <;> rfl
  · rw [h3]; cases t <;> first | rfl | (simp [tokName] at h2)

theorem pHexnum_equi : Equi G (Via G.moved) pHexnum := by
  refine pfilterMap_equi ?_
  rintro ⟨t, sp⟩
  rcases tok_cases G (t, sp) with ⟨_, h⟩ | ⟨m, v, h1, h2, h3⟩
  · rw [h]; cases t <;> rfl
  · rw [h3]; cases t <;> first | rfl | (simp [tokName] at h2)

theorem pGlobalName_equi : Equi G (Via (G.name .globalName)) pGlobalName := by
  refine pfilterMap_equi ?_
  rintro ⟨t, sp⟩
  rcases tok_cases G (t, sp) with ⟨h0, h⟩ | ⟨m, v, h1, h2, h3⟩
  · rw [h]; cases t <;> first | rfl | simp [Renaming.name, h0]
  · rw [h3]; cases t <;> first | rfl | simp [Renaming.name, h1, withName]

theorem pLocalName_equi : Equi G (Via (G.name .localName)) pLocalName := by
  refine pfilterMap_equi ?_
  rintro ⟨t, sp⟩
  rcases tok_cases G (t, sp) with ⟨h0, h⟩ | ⟨m, v, h1, h2, h3⟩
  · rw [h]; cases t <;> first | rfl | simp [Renaming.name, h0]
  · rw [h3]; cases t <;> first | rfl | simp [Renaming.name, h1, withName]

theorem pIdent_equi : Equi G (Via (G.name .ident)) pIdent := by
  refine pfilterMap_equi ?_
  rintro ⟨t, sp⟩
  rcases tok_cases G (t, sp) with ⟨h0, h⟩ | ⟨m, v, h1, h2, h3⟩
  · rw [h]; cases t <;> first | rfl | simp [Renaming.name, h0]
  · rw [h3]; cases t <;> first | rfl | simp [Renaming.name, h1, withName]

theorem pDbgRef_equi : Equi G (Via (G.name .debugRef)) pDbgRef := by
  refine pfilterMap_equi ?_
  rintro ⟨t, sp⟩
  rcases tok_cases G (t, sp) with ⟨h0, h⟩ | ⟨m, v, h1, h2, h3⟩
  · rw [h]; cases t <;> first | rfl | simp [Renaming.name, h0]
  · rw [h3]; cases t <;> first | rfl | simp [Renaming.name, h1, withName]

/-! ### The parsers of the crate -/

theorem pEol_equi : Equi G Whatever pEol := por_equi (just_equi rfl) (pmap_equi pend_equi (fun _ _ _ => trivial))

theorem pSoupToken_equi : Equi G (Via G.tok) (pmapSpan (fun t sp => (t, sp)) (noneOf [Token.newline])) := by
  intro eoi s
  cases s with
  | nil => exact ⟨rfl, rfl⟩
  | cons t s =>
    have h := tok_unnamed (G := G) (t := t) (c := .newline) rfl
    by_cases hn : t.1 = .newline
    · simp only [pmapSpan, noneOf, satisfy, rtoks_cons, List.mem_singleton, h, hn, decide_not, decide_true, Bool.not_true, Bool.false_eq_true, if_false]
      exact ⟨rfl, by rw [← unexpectedAt_ren, rtoks_cons]⟩
    · simp only [pmapSpan, noneOf, satisfy, rtoks_cons, List.mem_singleton, h, hn, decide_not, decide_false, Bool.not_false, if_true]
      refine ⟨rfl, ?_, rfl, rfl⟩
      unfold Via
      rw [Renaming.tok_eq]
      have h1 : spanSince eoi (t :: s) s = t.2 := by unfold spanSince headSpan; simp
      have h2 : spanSince (G.span eoi) (((G.tok t).1, G.span t.2) :: G.toks s) (G.toks s) = G.span t.2 := by unfold spanSince headSpan; simp
      have h3 : spanSince eoi ((t.1, t.2) :: s) s = t.2 := h1
      rw [h2, h3]
      rfl

theorem pTokenSoup_equi : Equi G (Via (List.map G.tok)) pTokenSoup :=
  equi_mono (repeated_equi pSoupToken_equi) (fun _ _ h => each_via h)

theorem pGlobalVar_equi : Equi G (Via G.stmt) pGlobalVar :=
  pmap_equi (thenIgnore_equi (pthen_equi (thenIgnore_equi pGlobalName_equi pPunct_equi) pTokenSoup_equi) pEol_equi)
    (by rintro ⟨_, _⟩ ⟨_, _⟩ ⟨h1, h2⟩; cases h1; cases h2; rfl)

theorem pFuncArg_equi : Equi G (Via G.arg) pFuncArg :=
  pmap_equi (pthen_equi pType_equi pLocalName_equi) (by rintro ⟨_, _⟩ ⟨_, _⟩ ⟨h1, h2⟩; cases h1; cases h2; rfl)

theorem pFuncSignature_equi : Equi G (Via G.sig) pFuncSignature :=
  pmap_equi (pthen_equi (pthen_equi (pthen_equi (repeated_equi pFuncModifier_equi) pType_equi)
    pGlobalName_equi) (delimitedBy_equi pPunct_equi pPunct_equi (separatedBy_equi pFuncArg_equi pPunct_equi)))
    (by rintro ⟨⟨⟨_, _⟩, _⟩, _⟩ ⟨⟨⟨_, _⟩, _⟩, _⟩ ⟨⟨⟨h1, h2⟩, h3⟩, h4⟩; cases each_via h1; cases h2; cases h3; cases each_via h4; rfl)

theorem pFuncAddr_equi : Equi G (Via G.moved) pFuncAddr := ignoreThen_equi pPunct_equi pHexnum_equi

theorem pOptDbgRef_equi : Equi G (Via (Option.map (G.name .debugRef))) (orNot pDbgRef) :=
  equi_mono (orNot_equi pDbgRef_equi) (fun _ _ h => optRel_via h)

theorem pFuncDecl_equi : Equi G (Via G.stmt) pFuncDecl :=
  pmap_equi (thenIgnore_equi (pthen_equi (pthen_equi (ignoreThen_equi (just_equi rfl) pFuncSignature_equi)
    (orNot_equi pFuncAddr_equi)) pOptDbgRef_equi) pEol_equi)
    (by rintro ⟨⟨_, _⟩, _⟩ ⟨⟨_, _⟩, _⟩ ⟨⟨h1, h2⟩, h3⟩; cases h1; cases optRel_via h2; cases h3; rfl)

theorem pNewlineAhead_equi : Equi G Whatever pNewlineAhead := rewind_equi pNewline_equi

theorem pKeywordSpan_equi {n : Str}
    (hn : n ∈ instrWords) :
    Equi G (Via (G.name .ident)) (pKeywordSpan n) := by
  refine pmapSpan_equi (pKeyword_equi hn) ?_
  intro _ _ sp _
  unfold Via Renaming.name
  cases h : G.ren (.ident n, sp) with
  | none => rfl
  | some v => exact absurd hn (Renaming.Words.plain (G := G) _ _ _ h).1.1

theorem pBr_equi : Equi G (Via G.instr) pBr :=
  pmapSpan_equi (thenIgnore_equi (pthen_equi (pthen_equi (pKeywordSpan_equi (by decide)) pIdent_equi) pOptDbgRef_equi) pNewlineAhead_equi)
    (by rintro ⟨⟨_, _⟩, _⟩ ⟨⟨_, _⟩, _⟩ _ ⟨⟨h1, h2⟩, h3⟩; cases h1; cases h2; cases h3; rfl)

theorem pCondBr_equi : Equi G (Via G.instr) pCondBr :=
  pmapSpan_equi (thenIgnore_equi (pthen_equi (pthen_equi (thenIgnore_equi (pthen_equi
    (thenIgnore_equi (thenIgnore_equi (thenIgnore_equi (pKeywordSpan_equi (by decide)) (just_equi rfl)) pany_equi)
      pPunct_equi) pIdent_equi) pPunct_equi) pIdent_equi) pOptDbgRef_equi) pNewlineAhead_equi)
    (by rintro ⟨⟨⟨_, _⟩, _⟩, _⟩ ⟨⟨⟨_, _⟩, _⟩, _⟩ _ ⟨⟨⟨h1, h2⟩, h3⟩, h4⟩; cases h1; cases h2; cases h3; cases h4; rfl)

theorem pSkipOperands_equi {kw : Str}
    (hn : kw ∈ instrWords) : Equi G Whatever (pSkipOperands kw) :=
  equi_mono (repeated_equi (por_equi (noneOf_equi (by intro c hc; left; rcases List.mem_cons.mp hc with rfl | hc; rfl; rw [List.mem_singleton] at hc; subst hc; rfl))
    (thenIgnore_equi pPunct_equi (noneOf_equi (by intro c hc; right; exact ⟨kw, hn, by simpa using hc⟩))))) (fun _ _ _ => trivial)

theorem endsWith_name {x y : Spanned Str} (h : Via (G.name .ident) x y) : endsWith y.1 c!"br" = endsWith x.1 c!"br" := by
  cases h
  unfold Renaming.name
  cases h : G.ren (.ident x.1, x.2) with
  | none => rfl
  | some v =>
    have := Renaming.Words.plain (G := G) _ _ _ h
    simp only [Option.getD_some]
    rw [this.1.2, this.2.2]

theorem pOverflowBr_equi : Equi G (Via G.instr) pOverflowBr :=
  pmapSpan_equi (thenIgnore_equi (pthen_equi (pthen_equi (thenIgnore_equi (thenIgnore_equi
    (thenIgnore_equi (pthen_equi (thenIgnore_equi (thenIgnore_equi (thenIgnore_equi (thenIgnore_equi
      (validate_equi pIdent_equi (fun _ _ h => by rw [endsWith_name h])) (pSkipOperands_equi (by decide))) pPunct_equi) (pKeyword_equi (by decide)))
      pPunct_equi) pIdent_equi) pPunct_equi) (pKeyword_equi (by decide))) pPunct_equi) pIdent_equi)
    pOptDbgRef_equi) pNewlineAhead_equi)
    (by rintro ⟨⟨⟨_, _⟩, _⟩, _⟩ ⟨⟨⟨_, _⟩, _⟩, _⟩ _ ⟨⟨⟨h1, h2⟩, h3⟩, h4⟩; cases h1; cases h2; cases h3; cases h4; rfl)

theorem pSwitchCase_equi : Equi G (Via (G.name .ident)) pSwitchCase :=
  ignoreThen_equi (pthen_equi (pthen_equi (pthen_equi pType_equi pany_equi) (pKeyword_equi (by decide))) pPunct_equi) pIdent_equi

theorem pSwitch_equi : Equi G (Via G.instr) pSwitch :=
  pmapSpan_equi (thenIgnore_equi (pthen_equi (pthen_equi (thenIgnore_equi (pthen_equi
    (thenIgnore_equi (thenIgnore_equi (thenIgnore_equi (thenIgnore_equi (pKeywordSpan_equi (by decide))
      (pSkipOperands_equi (by decide))) pPunct_equi) (pKeyword_equi (by decide))) pPunct_equi) pIdent_equi) pPunct_equi)
    (separatedBy_equi pSwitchCase_equi pPunct_equi)) pOptDbgRef_equi) pNewlineAhead_equi)
    (by rintro ⟨⟨⟨_, _⟩, _⟩, _⟩ ⟨⟨⟨_, _⟩, _⟩, _⟩ _ ⟨⟨⟨h1, h2⟩, h3⟩, h4⟩; cases h1; cases h2; cases each_via h3; cases h4; rfl)

theorem pPhiEdge_equi : Equi G (Via (G.name .ident)) pPhiEdge :=
  delimitedBy_equi pPunct_equi pPunct_equi (thenIgnore_equi (thenIgnore_equi pIdent_equi
    pPunct_equi) (repeated_equi (noneOf_equi (by intro c hc; left; rcases List.mem_cons.mp hc with rfl | hc; rfl; rw [List.mem_singleton] at hc; subst hc; rfl))))

theorem pPhi_equi : Equi G (Via G.instr) pPhi :=
  pmapSpan_equi (thenIgnore_equi (pthen_equi (pthen_equi (pKeywordSpan_equi (by decide))
    (separatedBy_equi pPhiEdge_equi pPunct_equi)) pOptDbgRef_equi) pNewlineAhead_equi)
    (by rintro ⟨⟨_, _⟩, _⟩ ⟨⟨_, _⟩, _⟩ _ ⟨⟨h1, h2⟩, h3⟩; cases h1; cases each_via h2; cases h3; rfl)

theorem pAnyInstruction_equi : Equi G (Via G.instr) pAnyInstruction :=
  pmapSpan_equi (thenIgnore_equi (pthen_equi (thenIgnore_equi (thenIgnore_equi pIdent_equi
    (rewind_equi (noneOf_equi (by intro c hc; left; rw [List.mem_singleton] at hc; subst hc; rfl))))
    (repeated_equi (pnot_equi (R := Whatever) (por_equi
      (pmap_equi pNewline_equi (fun _ _ _ => trivial)) (pmap_equi pDbgRef_equi (fun _ _ _ => trivial))))))
    pOptDbgRef_equi) pNewlineAhead_equi)
    (by rintro ⟨_, _⟩ ⟨_, _⟩ _ ⟨h1, h2⟩; cases h1; cases h2; rfl)

theorem pAssignment_equi : Equi G (Via (G.name .localName)) pAssignment :=
  thenIgnore_equi (ignoreThen_equi pType_equi pLocalName_equi) pPunct_equi

theorem pInstructionKind_equi : Equi G (Via G.instr) pInstructionKind :=
  por_equi (por_equi (por_equi (por_equi (por_equi pBr_equi pCondBr_equi) pOverflowBr_equi)
    pSwitch_equi) pPhi_equi) pAnyInstruction_equi

theorem pInstruction_equi : Equi G (Via G.instr) pInstruction :=
  pmapSpan_equi (pthen_equi (orNot_equi pAssignment_equi) pInstructionKind_equi)
    (by rintro ⟨_, _⟩ ⟨_, _⟩ _ ⟨h1, h2⟩; cases optRel_via h1; cases h2; rfl)

theorem pPaddedInstruction_equi : Equi G (Via G.instr) pPaddedInstruction :=
  paddedBy_equi (repeated_equi pNewline_equi) pInstruction_equi

theorem pPunctSpan_equi {c : Char} : Equi G (Via G.span) (pmapSpan (fun _ sp => sp) (pPunct c)) :=
  pmapSpan_equi pPunct_equi (fun _ _ _ _ => rfl)

theorem pBasicBlock_equi : Equi G (Via G.block) pBasicBlock :=
  pmap_equi (pthen_equi (thenIgnore_equi (pthen_equi pIdent_equi pPunctSpan_equi) (repeatedAtLeast_equi pNewline_equi))
    (repeated_equi pPaddedInstruction_equi)) (by
      rintro ⟨⟨l, c⟩, is⟩ ⟨⟨_, _⟩, _⟩ ⟨⟨h1, h2⟩, h3⟩
      cases h1; cases h2; cases each_via h3
      simp only [Via, mkBasicBlock, Renaming.block, Option.map_some, List.getLast?_map]
      cases is.getLast? <;> rfl)

theorem pInitialBlock_equi : Equi G (Via G.block) pInitialBlock :=
  pmapOutcome_equi (repeatedAtLeast_equi pPaddedInstruction_equi) (by
    intro is is' h
    cases each_via h
    unfold mkInitialBlock
    rw [List.head?_map, List.getLast?_map]
    cases is.head? <;> cases is.getLast? <;> first | trivial | rfl)

theorem pFuncBody_equi : Equi G (Via G.body) pFuncBody :=
  pmap_equi (pthen_equi (pthen_equi (pthen_equi (thenIgnore_equi pPunctSpan_equi (repeatedAtLeast_equi pNewline_equi))
    (orNot_equi pInitialBlock_equi)) (repeated_equi pBasicBlock_equi)) pPunctSpan_equi) (by
      rintro ⟨⟨⟨o, i⟩, bs⟩, c⟩ ⟨⟨⟨_, _⟩, _⟩, _⟩ ⟨⟨⟨h1, h2⟩, h3⟩, h4⟩
      cases h1; cases optRel_via h2; cases each_via h3; cases h4
      cases i <;> rfl)

theorem pFuncDef_equi : Equi G (Via G.stmt) pFuncDef :=
  pmap_equi (thenIgnore_equi (pthen_equi (pthen_equi
    (pmapSpan_equi (S := Via G.span) (just_equi rfl) (fun _ _ _ _ => rfl)) pFuncSignature_equi) pFuncBody_equi) pEol_equi)
    (by rintro ⟨⟨_, _⟩, _⟩ ⟨⟨_, _⟩, _⟩ ⟨⟨h1, h2⟩, h3⟩; cases h1; cases h2; cases h3; rfl)

theorem pFuncDependencies_equi : Equi G (Via G.stmt) pFuncDependencies :=
  pmap_equi (pthen_equi (thenIgnore_equi (thenIgnore_equi pGlobalName_equi (pKeyword_equi (by decide)))
    (pKeyword_equi (by decide))) (separatedBy_equi pGlobalName_equi pPunct_equi))
    (by rintro ⟨_, _⟩ ⟨_, _⟩ ⟨h1, h2⟩; cases h1; cases each_via h2; rfl)

theorem pDbgAnnotation_equi : Equi G (Via G.stmt) pDbgAnnotation :=
  pmap_equi (thenIgnore_equi (pthen_equi (thenIgnore_equi pDbgRef_equi pPunct_equi) pTokenSoup_equi) pEol_equi)
    (by rintro ⟨_, _⟩ ⟨_, _⟩ ⟨h1, h2⟩; cases h1; cases h2; rfl)

theorem parser_equi : Equi G (Via (List.map G.stmt)) parser :=
  equi_mono (thenIgnore_equi (repeated_equi (recoverSkip_equi (paddedBy_equi (repeated_equi pNewline_equi)
    (por_equi (por_equi (por_equi (por_equi pGlobalVar_equi pFuncDecl_equi) pFuncDef_equi)
      pFuncDependencies_equi) pDbgAnnotation_equi)))) pend_equi) (fun _ _ h => each_via h)

end
end HyperIR
