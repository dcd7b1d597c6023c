import Verif.Model.Basic

/-
The combinators of chumsky 0.9.3 used by the crate (library code, not in /repo; modelled from
the library's documented and implemented behaviour, see DESIGN.md "Trusted base").

A parser maps the end-of-input span and the remaining tokens to a result.  The stream offset of
chumsky is represented by the remaining tokens; the offset `at` of an error is represented by the
number `rem` of tokens that remained, so "further" errors have a smaller `rem`.
-/

namespace HyperIR

variable {τ α β γ : Type}

/-- The remaining input (`chumsky::Stream`). -/
abbrev Toks (τ : Type) := List (τ × Span)

/-- `chumsky::error::SimpleReason` (`Unclosed` is never produced by the combinators in use). -/
inductive Reason where
  | unexpected
  | custom (msg : Str)
  deriving DecidableEq, Repr

/-- `Located<I, Simple<I>>`. -/
structure LErr (τ : Type) where
  rem : Nat
  span : Span
  reason : Reason
  expected : List (Option τ)
  found : Option τ
  deriving DecidableEq, Repr

/-- `PResult`: secondary errors plus either an output with an alternative error, or an error.
`panic` is chumsky's "Repeated parser iteration succeeded but consumed no inputs" panic (also
used when the loop bound of `repeated` is exceeded, i.e. for a loop that would not terminate). -/
inductive Res (τ α : Type) where
  | ok (errs : List (LErr τ)) (out : α) (alt : Option (LErr τ)) (rest : Toks τ)
  | err (errs : List (LErr τ)) (e : LErr τ)
  | panic
  deriving Repr

/-- `trait Parser`: first argument is the span of the end of input. -/
abbrev P (τ α : Type) := Span → Toks τ → Res τ α

/-- Insert into the `expected` set (a `HashSet` in chumsky; order not modelled). -/
def insertExpected [DecidableEq τ] (l : List (Option τ)) (x : Option τ) : List (Option τ) :=
  if x ∈ l then l else l ++ [x]

/-- `Simple::merge`: everything from the first error (only `Unclosed` reasons would have precedence), and the expected tokens of both. -/
def mergeErr [DecidableEq τ] (a b : LErr τ) : LErr τ :=
  { a with expected := b.expected.foldl insertExpected a.expected }

/-- `Located::max` -/
def maxErr [DecidableEq τ] (a : LErr τ) : Option (LErr τ) → LErr τ
  | none => a
  | some b => if a.rem < b.rem then a else if b.rem < a.rem then b else mergeErr a b

/-- `merge_alts(error, Some(other))` -/
def mergeAlts [DecidableEq τ] (a : Option (LErr τ)) : Option (LErr τ) → Option (LErr τ)
  | none => a
  | some b => some (maxErr b a)

/-- Span of the next token (or of the end of input), cf. `Stream::next`. -/
def headSpan (eoi : Span) : Toks τ → Span
  | [] => eoi
  | (_, sp) :: _ => sp

/-- `Error::expected_input_found` located at the next token. -/
def unexpectedAt (eoi : Span) (s : Toks τ) (expected : List (Option τ)) : LErr τ :=
  { rem := s.length, span := headSpan eoi s, reason := .unexpected, expected := expected,
    found := s.head?.map Prod.fst }

/-- `Simple::custom` located at the next token. -/
def customAt (eoi : Span) (s : Toks τ) (msg : Str) : LErr τ :=
  { rem := s.length, span := headSpan eoi s, reason := .custom msg, expected := [], found := none }

/-- `Stream::span_since`: from the first token of `s` to the last token before `rest`. -/
def spanSince (eoi : Span) (s rest : Toks τ) : Span :=
  { start := (headSpan eoi s).start
    stop := match s[s.length - rest.length - 1]? with
      | some (_, sp) => sp.stop
      | none => eoi.stop }

/-- `filter(f)` with the given `expected` set: `filter`, `any`, `one_of`, `none_of`. -/
def satisfy (f : τ → Bool) (expected : List (Option τ)) : P τ τ := fun eoi s =>
  match s with
  | (t, _) :: r => if f t then .ok [] t none r else .err [] (unexpectedAt eoi s expected)
  | [] => .err [] (unexpectedAt eoi s expected)

/-- `filter(f)` -/
def pfilter (f : τ → Bool) : P τ τ := satisfy f []

/-- `any()` -/
def pany : P τ τ := satisfy (fun _ => true) []

/-- `just(t)` -/
def just [DecidableEq τ] (t : τ) : P τ τ := satisfy (fun x => decide (x = t)) [some t]

/-- `one_of(ts)` -/
def oneOf [DecidableEq τ] (ts : List τ) : P τ τ := satisfy (fun x => decide (x ∈ ts)) (ts.map some)

/-- `none_of(ts)` -/
def noneOf [DecidableEq τ] (ts : List τ) : P τ τ := satisfy (fun x => decide (x ∉ ts)) []

/-- `filter_map(f)` where a rejected token gives `Simple::custom(span, msg)`. -/
def pfilterMap (f : τ → Span → Option α) (msg : Str) : P τ α := fun eoi s =>
  match s with
  | (t, sp) :: r => match f t sp with
    | some a => .ok [] a none r
    | none => .err [] (customAt eoi s msg)
  | [] => .err [] (unexpectedAt eoi s [])

/-- `end()` -/
def pend : P τ Unit := fun eoi s =>
  match s with
  | [] => .ok [] () none []
  | _ :: _ => .err [] (unexpectedAt eoi s [none])

/-- `p.map(f)` -/
def pmap (f : α → β) (p : P τ α) : P τ β := fun eoi s =>
  match p eoi s with
  | .ok es a alt r => .ok es (f a) alt r
  | .err es e => .err es e
  | .panic => .panic

/-- `p.map(f)` where `f` may panic. -/
def pmapOutcome (f : α → Outcome β) (p : P τ α) : P τ β := fun eoi s =>
  match p eoi s with
  | .ok es a alt r => match f a with
    | .ok b => .ok es b alt r
    | .panic => .panic
  | .err es e => .err es e
  | .panic => .panic

/-- `p.map_with_span(f)` -/
def pmapSpan (f : α → Span → β) (p : P τ α) : P τ β := fun eoi s =>
  match p eoi s with
  | .ok es a alt r => .ok es (f a (spanSince eoi s r)) alt r
  | .err es e => .err es e
  | .panic => .panic

/-- `a.then(b)` -/
def pthen [DecidableEq τ] (a : P τ α) (b : P τ β) : P τ (α × β) := fun eoi s =>
  match a eoi s with
  | .panic => .panic
  | .err es e => .err es e
  | .ok ea x alta r => match b eoi r with
    | .panic => .panic
    | .err eb e => .err (ea ++ eb) (maxErr e alta)
    | .ok eb y altb r' => .ok (ea ++ eb) (x, y) (mergeAlts alta altb) r'

/-- `a.then_ignore(b)` -/
def thenIgnore [DecidableEq τ] (a : P τ α) (b : P τ β) : P τ α := pmap Prod.fst (pthen a b)

/-- `a.ignore_then(b)` -/
def ignoreThen [DecidableEq τ] (a : P τ α) (b : P τ β) : P τ β := pmap Prod.snd (pthen a b)

/-- The secondary errors' last position, for `Or`. -/
def lastRem (es : List (LErr τ)) : Option Nat := es.getLast?.map LErr.rem

/-- `a.or(b)`.  The first alternative wins when it succeeds without secondary errors, then the
second; otherwise a success wins over a failure, two successes are compared by the position of
their last secondary error and their number, and two failures are merged by position. -/
def por [DecidableEq τ] (a b : P τ α) : P τ α := fun eoi s =>
  match a eoi s with
  | .panic => .panic
  | .ok [] x alt r => .ok [] x alt r
  | .ok (e :: es) x alt r => match b eoi s with
    | .panic => .panic
    | .ok [] y altb r' => .ok [] y altb r'
    | .err _ eb => .ok (e :: es) x (mergeAlts alt (some eb)) r
    | .ok (e' :: es') y altb r' =>
      match lastRem (e :: es), lastRem (e' :: es') with
      | some ra, some rb =>
        if rb < ra then .ok (e' :: es') y altb r'
        else if ra < rb then .ok (e :: es) x alt r
        else if es'.length < es.length then .ok (e' :: es') y altb r'
        else .ok (e :: es) x alt r
      | _, _ => .ok (e :: es) x alt r
  | .err esa ea => match b eoi s with
    | .panic => .panic
    | .ok es y alt r => .ok es y (mergeAlts alt (some ea)) r
    | .err esb eb =>
      if ea.rem < eb.rem then .err esa ea
      else if eb.rem < ea.rem then .err esb eb
      else .err esa (maxErr ea (some eb))

/-- `choice((p1, p2, …))` -/
def choice [DecidableEq τ] : Option (LErr τ) → List (P τ α) → P τ α
  | alt, [] => fun eoi s => match alt with
    | some e => .err [] e
    | none => .err [] (unexpectedAt eoi s [])
  | alt, p :: ps => fun eoi s =>
    match p eoi s with
    | .panic => .panic
    | .ok es x al r => .ok es x al r
    | .err _ e => choice (mergeAlts alt (some e)) ps eoi s

/-- `p.or_not()` -/
def orNot (p : P τ α) : P τ (Option α) := fun eoi s =>
  match p eoi s with
  | .panic => .panic
  | .ok es x alt r => .ok es (some x) alt r
  | .err _ e => .ok [] none (some e) s

/-- `p.rewind()` -/
def rewind (p : P τ α) : P τ α := fun eoi s =>
  match p eoi s with
  | .panic => .panic
  | .ok es x alt _ => .ok es x alt s
  | .err es e => .err es e

/-- `p.not()`: consumes one token at which `p` does not succeed. -/
def pnot (p : P τ α) : P τ τ := fun eoi s =>
  match p eoi s with
  | .panic => .panic
  | .ok _ _ _ _ => .err [] (unexpectedAt eoi s [])
  | .err _ _ => match s with
    | (t, _) :: r => .ok [] t none r
    | [] => .err [] (unexpectedAt eoi s [])

/-- `p.validate(f)` where `f` keeps the output and emits at most one custom error. -/
def validate (f : α → Option Str) (p : P τ α) : P τ α := fun eoi s =>
  match p eoi s with
  | .panic => .panic
  | .err es e => .err es e
  | .ok es x alt r => match f x with
    | none => .ok es x alt r
    | some msg =>
      .ok (es ++ [{ rem := r.length, span := spanSince eoi s r, reason := .custom msg,
                    expected := [], found := none }]) x alt r

/-- Loop of `p.repeated().at_least(n)`.  `old` is the number of remaining tokens after the previous
iteration; a second iteration ending at the same offset panics. -/
def repeatLoop [DecidableEq τ] (p : P τ α) (atLeast : Nat) (eoi : Span) :
    Nat → Option Nat → List (LErr τ) → List α → Option (LErr τ) → Toks τ → Res τ (List α)
  | 0, _, _, _, _, _ => .panic
  | fuel + 1, old, errs, outs, alt, s =>
    match p eoi s with
    | .panic => .panic
    | .ok es x al r =>
      if old = some r.length then .panic
      else repeatLoop p atLeast eoi fuel (some r.length) (errs ++ es) (outs ++ [x])
        (mergeAlts alt al) r
    | .err es e =>
      if outs.length < atLeast then .err (errs ++ es) e
      else .ok errs outs (mergeAlts alt (some e)) s

/-- `p.repeated().at_least(n)`.  An iteration either makes progress or panics the second time,
so `length + 2` iterations bound every run of the loop. -/
def repeatedAtLeast [DecidableEq τ] (n : Nat) (p : P τ α) : P τ (List α) := fun eoi s =>
  repeatLoop p n eoi (s.length + 2) none [] [] none s

/-- `p.repeated()` -/
def repeated [DecidableEq τ] (p : P τ α) : P τ (List α) := repeatedAtLeast 0 p

/-- Loop of `item.separated_by(delim)` after an item was parsed; `s` is the position after it. -/
def sepLoop [DecidableEq τ] (item : P τ α) (delim : P τ β) (eoi : Span) :
    Nat → List (LErr τ) → List α → Option (LErr τ) → Toks τ → Res τ (List α)
  | 0, _, _, _, _ => .panic
  | fuel + 1, errs, outs, alt, s =>
    match delim eoi s with
    | .panic => .panic
    | .err es e => .ok (errs ++ es) outs (mergeAlts alt (some e)) s
    | .ok es _ al r => match item eoi r with
      | .panic => .panic
      | .err es' e => .ok (errs ++ es ++ es') outs (mergeAlts (mergeAlts alt al) (some e)) s
      | .ok es' x al' r' =>
        sepLoop item delim eoi fuel (errs ++ es ++ es') (outs ++ [x])
          (mergeAlts (mergeAlts alt al) al') r'

/-- `item.separated_by(delim)` (no leading or trailing delimiter, no minimum).  The fuel bounds
the number of iterations of a loop whose delimiter consumes at least one token. -/
def separatedBy [DecidableEq τ] (item : P τ α) (delim : P τ β) : P τ (List α) := fun eoi s =>
  match item eoi s with
  | .panic => .panic
  | .err es e => .ok es [] (some e) s
  | .ok es x al r => sepLoop item delim eoi (s.length + 1) es [x] al r

/-- `p.delimited_by(l, r)` -/
def delimitedBy [DecidableEq τ] (l : P τ β) (r : P τ γ) (p : P τ α) : P τ α :=
  thenIgnore (ignoreThen l p) r

/-- `p.padded_by(pad)` -/
def paddedBy [DecidableEq τ] (pad : P τ β) (p : P τ α) : P τ α :=
  thenIgnore (ignoreThen pad p) pad

/-- `take_until(p)`: the skipped tokens and the output of `p`. -/
def takeUntil [DecidableEq τ] (p : P τ α) (eoi : Span) :
    List τ → Option (LErr τ) → Toks τ → Res τ (List τ × α)
  | outs, alt, [] => match p eoi [] with
    | .panic => .panic
    | .ok es x al r => .ok es (outs, x) (mergeAlts alt al) r
    | .err es e => .err es e
  | outs, alt, (t, sp) :: s => match p eoi ((t, sp) :: s) with
    | .panic => .panic
    | .ok es x al r => .ok es (outs, x) (mergeAlts alt al) r
    | .err _ e => takeUntil p eoi (outs ++ [t]) (mergeAlts alt (some e)) s

/-- Loop of `skip_then_retry_until([])`: skip one token, retry. -/
def skipThenRetry (p : P τ α) (eoi : Span) (errs : List (LErr τ)) (fatal : LErr τ) :
    Toks τ → Res τ α
  | [] => .err errs fatal
  | _ :: s => match p eoi s with
    | .panic => .panic
    | .ok es x alt r => .ok (errs ++ [fatal] ++ es) x alt r
    | .err _ _ => skipThenRetry p eoi errs fatal s

/-- `p.recover_with(skip_then_retry_until([]))` -/
def recoverSkip (p : P τ α) : P τ α := fun eoi s =>
  match p eoi s with
  | .panic => .panic
  | .ok es x alt r => .ok es x alt r
  | .err es e => skipThenRetry p eoi es e s

/-- `Parser::parse_recovery`: output if any, and all errors. -/
def parseRecovery (p : P τ α) (eoi : Span) (s : Toks τ) : Outcome (Option α × List (LErr τ)) :=
  match p eoi s with
  | .panic => .panic
  | .ok es x _ _ => .ok (some x, es)
  | .err es e => .ok (none, es ++ [e])

end HyperIR
