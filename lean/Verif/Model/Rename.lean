import Verif.Model.Index
import Verif.Model.Rope

/- Model of src/rename.rs. -/

namespace HyperIR

/-- `lsp_types::TextEdit` -/
structure TextEdit where
  range : Range
  newText : Str
  deriving DecidableEq, Repr

variable [Unicode]

/-- `id.split_at(id.rfind(|c| !c.is_numeric()) + 1 or 0)` (src/rename.rs:10-14), computed from the
end: the longest numeric suffix and what precedes it.  `i + 1` is a character boundary only if the
last non-numeric character is one byte long; otherwise `split_at` panics. -/
def splitNumericSuffix (id : Str) : Str × Str :=
  let suffix := (id.reverse.takeWhile fun c => Unicode.numeric c).reverse
  (id.take (id.length - suffix.length), suffix)

/-- src/rename.rs:9-16.  `rfind` returns the byte index of the start of the last non-numeric
character; the code adds one, so `split_at` panics when that character is wider than a byte. -/
def extractNumberFromIdentifier (id : Str) : Outcome (Option (Str × Int)) :=
  let (name, nr) := splitNumericSuffix id
  match name.getLast? with
  | some c =>
    if c.utf8Size = 1 then .ok ((parseI64 nr).map fun n => (name, n)) else .panic
  | none => .ok ((parseI64 nr).map fun n => (name, n))

omit [Unicode] in
/-- src/rename.rs:18-31 -/
def getRenameEdits (rope : Str) (u : UseDefList) (newName : Str) : List TextEdit :=
  (u.decls ++ u.defs ++ u.uses).filterMap fun sp =>
    (rangeToLsp rope sp).map fun r => { range := r, newText := newName }

/-- src/rename.rs:47-54: the edits for one symbol -/
def shiftEditsOf (b : Build) (rope : Str) (renamedNr shift : Int) (name : Str) (u : UseDefList) :
    Outcome (List TextEdit) :=
  match extractNumberFromIdentifier name with
  | .panic => .panic
  | .ok none => .ok []
  | .ok (some (pre, nr)) =>
    if nr < renamedNr then .ok []
    else match i64Op b (nr + shift) with
      | .panic => .panic
      | .ok s => .ok (getRenameEdits rope u (pre ++ showInt (wrappingAbs s)))

/-- `iter().filter_map(..).flatten().collect()` with panics -/
def collectO {α β : Type} (f : α → Outcome (List β)) : List α → Outcome (List β)
  | [] => .ok []
  | x :: xs => match f x with
    | .panic => .panic
    | .ok ys => match collectO f xs with
      | .panic => .panic
      | .ok zs => .ok (ys ++ zs)

/-- src/rename.rs:33-57 -/
def getShiftEdits (ord : IterOrder) (b : Build) (rope : Str) (ix : HIRIndex) (k : SymbolKind)
    (funcBodyId : Option Nat) (renamedNr shift : Int) : Outcome (List TextEdit) :=
  match ix.funcBody funcBodyId with
  | .panic => .panic
  | .ok fb => match ix.getBySymbolKind k fb with
    | .panic => .panic
    | .ok m => collectO (fun (name, u) => shiftEditsOf b rope renamedNr shift name u) (ord.run m)

end HyperIR
