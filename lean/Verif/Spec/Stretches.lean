import Verif.Spec.Exact

/-
Which statements survive in a document with unreadable parts (property C92).  The tokens are split into
statements of the exact grammar (Spec/Exact.lean) and stretches within which no statement starts.
Independent of the parser.
-/

namespace HyperIR.Spec

/-- What may follow a statement on its line: nothing, except for dependencies, which anything may follow
that does not go on with their list. -/
def StmtEnds : Statement → List Tok → Prop
  | .funcDependencies _ [], r => ∀ y sp r', r ≠ (.globalName y, sp) :: r'
  | .funcDependencies _ (_ :: _), r => ∀ c y sp r', r ≠ (.punct ',', c) :: (.globalName y, sp) :: r'
  | _, r => r = []

/-- The tokens `l` are the statement `x` with all the line ends around it; `r` is what follows. -/
def ReadsAt (x : Statement) (l r : List Tok) : Prop := ∃ nls body nls',
  Newlines nls ∧ StmtX x body ∧ Newlines nls' ∧ l = nls ++ body ++ nls' ∧
  (nls' = [] → StmtEnds x r) ∧ ∀ sp r', r ≠ (.newline, sp) :: r'

/-- No statement starts anywhere in `g`, where `r` follows. -/
def Unreadable (g r : List Tok) : Prop :=
  g ≠ [] ∧ ∀ a b, g = a ++ b → b ≠ [] → ∀ x l r', b ++ r = l ++ r' → ¬ ReadsAt x l r'

/-- `Stretches ss n whole l`: read from the front, the tokens `l` consist of the statements `ss`, with `n`
unreadable stretches before, between and behind them; `whole` says that there is none behind the last
statement. -/
inductive Stretches : List Statement → Nat → Bool → List Tok → Prop
  | done : Stretches [] 0 true []
  | lost {g} : Unreadable g [] → Stretches [] 1 false g
  | stmt {x ss n w l r} : ReadsAt x l r → Stretches ss n w r → Stretches (x :: ss) n w (l ++ r)
  | skip {x ss n w g l r} : Unreadable g (l ++ r) → ReadsAt x l r → Stretches ss n w r →
      Stretches (x :: ss) (n + 1) w (g ++ (l ++ r))

/-- No line mentions a debug reference or a colon before the word `cont`.  (The parser takes a line with
the targets `cont=…, overflow=…` and such a token before them for a branch, with an error, even if its
mnemonic is not one of a branch.) -/
def OrderlyCont (l : List Tok) : Prop := ∀ a t b k c,
  l = a ++ t :: (b ++ (.ident c!"cont", k) :: c) → OneLine b → t.1 ≠ .punct ':' ∧ ∀ x, t.1 ≠ .debugRef x

end HyperIR.Spec
