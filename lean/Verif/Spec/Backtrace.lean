import Verif.Model.Backtrace
import Verif.Spec.Numbers

/-
What a backtrace is, and how it is to be displayed, independent of the code.
-/

namespace HyperIR.Spec

/-- `pat` occurs in `s`. -/
def Contains (pat s : Str) : Prop := ∃ a b, s = a ++ pat ++ b

/-- `short` is everything after the last path separator of `path`. -/
def LastComponent (path short : Str) : Prop :=
  '/' ∉ short ∧ '\\' ∉ short ∧ (path = short ∨ ∃ dir sep, path = dir ++ sep :: short ∧ (sep = '/' ∨ sep = '\\'))

/-- The text has the form `file:line` with a 32 bit line number and no other colon. -/
def FileLine (s file : Str) (n : Nat) : Prop :=
  ∃ line, s = file ++ ':' :: line ∧ ':' ∉ file ∧ ':' ∉ line ∧ (Denotes line n ∨ ∃ ds, line = '+' :: ds ∧ Denotes ds n) ∧
    n < 2 ^ 32

/-- First entry of a frame: the symbol. -/
def IsName (j : Json) (s : Str) : Prop := s ≠ [] ∧ ∃ rest, j = .arr (.str s :: rest)

/-- Second entry of a frame: the link. -/
def IsLink (j : Json) (s : Str) : Prop := ∃ name rest, j = .arr (name :: .str s :: rest)

/-- The symbol shown for a frame: its name, or else the file name in its link, or else `<invalid>`. -/
def SymbolOf (j : Json) (s : Str) : Prop :=
  IsName j s ∨ ((∀ n, ¬ IsName j n) ∧ ∃ l, IsLink j l ∧ LastComponent l s) ∨
  ((∀ n, ¬ IsName j n) ∧ (∀ l, ¬ IsLink j l) ∧ s = c!"<invalid>")

/-- The frame described by a JSON value: file and line are present iff the link has the form `file:line`; without them,
the line is 0 and there is no location. -/
def FrameOf (j : Json) (f : Frame) : Prop :=
  SymbolOf j f.symbol ∧ (∀ file, f.filepath = some file → ∃ l, IsLink j l ∧ FileLine l file f.line) ∧
  (f.filepath = none → f.line = 0 ∧ f.resolvedFilepath = none ∧ ∀ l file n, IsLink j l → ¬ FileLine l file n)

/-- The JSON value has a backtrace with these entries. -/
def HasBacktrace (j : Json) (l : List Json) : Prop :=
  ∃ before after, j = .obj (before ++ (c!"backtrace", .arr l) :: after) ∧ ∀ p ∈ before, p.1 ≠ c!"backtrace"

/-- The preferred symbols, most preferred first. -/
def preferences : List Str :=
  [c!"Translator::consume", c!"Translator::produceMaterializedResult", c!"Translator::drivePipeline",
   c!"Translator::deriveValue", c!"Translator::"]

/-- Frame number `i` matches pattern number `k`. -/
def Matches (frames : List Frame) (k i : Nat) : Prop :=
  ∃ pat f, preferences[k]? = some pat ∧ frames[i]? = some f ∧ Contains pat f.symbol

/-- Frame number `i` lies in a file outside of the code generator. -/
def External (frames : List Frame) (i : Nat) : Prop :=
  ∃ f fp, frames[i]? = some f ∧ f.filepath = some fp ∧ ¬ Contains c!"hyper/ir/" fp ∧ ¬ Contains c!"hyper/codegen" fp

/-- The frame to be highlighted. -/
def Relevant (frames : List Frame) (i : Nat) : Prop :=
  (∃ k, Matches frames k i ∧ (∀ k' < k, ∀ i', ¬ Matches frames k' i') ∧ ∀ i' < i, ¬ Matches frames k i') ∨
  ((∀ k i', ¬ Matches frames k i') ∧ External frames i ∧ ∀ i' < i, ¬ External frames i')

/-- The path has no tabs or line ends. -/
def NoTabs (path : Str) : Prop := ∀ c ∈ path, c ≠ '\t' ∧ c ≠ '\n' ∧ c ≠ '\r'

instance (path : Str) : Decidable (NoTabs path) :=
  inferInstanceAs (Decidable (∀ c ∈ path, c ≠ '\t' ∧ c ≠ '\n' ∧ c ≠ '\r'))

/-- The components of a path. -/
inductive Components : Str → List Str → Prop
  | last {s} : '/' ∉ s → Components s [s]
  | more {s rest l} : '/' ∉ s → Components rest l → Components (s ++ '/' :: rest) (s :: l)

/-- Appending path components to those of a folder: `.` and `..` are left out; at the root of a file system, empty leading
components are dropped. -/
def appendPath (folder comps : List Str) : List Str :=
  let comps := comps.filter fun s => decide (s ≠ c!"." ∧ s ≠ c!"..")
  if folder = [[]] then
    if comps.dropWhile (fun s => decide (s = [])) = [] then [[]] else comps.dropWhile fun s => decide (s = [])
  else folder ++ comps

/-- The location of a path in a folder. -/
def InFolder (folder : Url) (path : Str) (u : Url) : Prop :=
  ∃ comps, Components path comps ∧ u = { folder with segments := appendPath folder.segments comps }

/-- The location lies inside the folder. -/
def Below (folder u : Url) : Prop :=
  u.origin = folder.origin ∧ (folder.segments = [[]] ∨ ∃ more, u.segments = folder.segments ++ more) ∧
  (∀ s ∈ u.segments, s ∈ folder.segments ∨ (s ≠ c!"." ∧ s ≠ c!".."))

/-- The path resolves to `u`: the first folder that contains it. -/
def Resolves (fs : FileSystem) (roots : List Url) (path : Str) (u : Url) : Prop :=
  ∃ before root after, roots = before ++ root :: after ∧ InFolder root path u ∧ fs u = true ∧
    ∀ r ∈ before, ∀ u', InFolder r path u' → fs u' = false

end HyperIR.Spec

namespace HyperIR.Spec

/-- A URL that can name a folder: hierarchical, with at least an empty path segment (as all `file:` URLs have). -/
def Folder (u : Url) : Prop := u.cannotBeABase = false ∧ u.segments ≠ []

instance (u : Url) : Decidable (Folder u) := inferInstanceAs (Decidable (u.cannotBeABase = false ∧ u.segments ≠ []))

end HyperIR.Spec
