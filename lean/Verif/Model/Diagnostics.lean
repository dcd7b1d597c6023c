import Verif.Model.Index
import Verif.Model.Rope

/- Model of src/diagnostics.rs. -/

namespace HyperIR

/-- `lsp_types::Diagnostic` (fields that are ever set) -/
structure Diagnostic where
  range : Range
  message : Str
  related : List (Location × Str) := []
  deriving DecidableEq, Repr

/-- `Vec<String>::join` -/
def joinWith (sep : Str) : List Str → Str
  | [] => []
  | [x] => x
  | x :: y :: xs => x ++ sep ++ joinWith sep (y :: xs)

/-- src/diagnostics.rs:16-43: message of a syntax error.  Simplification: the expected tokens are
listed in the order of the model's list (a hash set in the code). -/
def errorMessage (e : SErr) : Str :=
  match e.reason with
  | .custom msg => msg
  | .unexpected =>
    (if e.found.isSome then c!"Unexpected token in input" else c!"Unexpected end of input")
      ++ c!", expected "
      ++ (match e.expected with
        | [] => c!"something else"
        | l => joinWith c!", " (l.map fun x => match x with
          | some t => t
          | none => c!"end of input"))

/-- src/diagnostics.rs:11-49 -/
def diagnosticsFromParser (rope : Str) (errors : List SErr) : List Diagnostic :=
  errors.filterMap fun e =>
    (rangeToLsp rope e.span).map fun r => { range := r, message := errorMessage e }

/-- src/diagnostics.rs:57-65: all instructions of all function definitions -/
def allInstructions (stmts : List Statement) : List Instruction :=
  stmts.flatMap fun s => match s with
    | .funcDef _ _ body => body.basicBlocks.flatMap BasicBlock.instructions
    | _ => []

/-- src/diagnostics.rs:66-80: diagnostic of one instruction -/
def diagnoseInstruction (rope : Str) (i : Instruction) : Option Diagnostic :=
  if (i.isBranching || decide (i.instruction.1 = c!"phi")) && i.basicBlockRefs.isEmpty then
    (rangeToLsp rope i.instruction.2).map fun r =>
      { range := r
        message := c!"Failed to extract basic block references from `" ++ i.instruction.1
          ++ c!"` instruction" }
  else none

/-- src/diagnostics.rs:51-81 -/
def diagnosticsFromStatements (rope : Str) (stmts : List Statement) : List Diagnostic :=
  (allInstructions stmts).filterMap (diagnoseInstruction rope)

/-- src/diagnostics.rs:110 -/
def undefinedMessage (name : Str) : Str := c!"Use of undefined symbol `" ++ name ++ c!"`"

/-- src/diagnostics.rs:120 -/
def duplicateMessage (name : Str) : Str := c!"Symbol `" ++ name ++ c!"` already defined previously"

/-- src/diagnostics.rs:102-145: the diagnostics of one symbol -/
def diagnoseSymbol (rope : Str) (uri : Str) (name : Str) (ud : UseDefList) : List Diagnostic :=
  if ud.decls.isEmpty && ud.defs.isEmpty then
    ud.uses.filterMap fun sp =>
      (rangeToLsp rope sp).map fun r => { range := r, message := undefinedMessage name }
  else match ud.defs with
    | first :: second :: rest =>
      (second :: rest).filterMap fun sp =>
        match rangeToLsp rope first with
        | none => none
        | some r0 => match rangeToLsp rope sp with
          | none => none
          | some r =>
            some { range := r, message := duplicateMessage name,
                   related := [({ uri := uri, range := r0 }, c!"Previously defined here")] }
    | _ => []

/-- src/diagnostics.rs:88-99: all symbol tables, chained -/
def allUseDefs (ord : IterOrder) (ix : HIRIndex) : List (Str × UseDefList) :=
  ord.run ix.globalVars ++ ord.run ix.functions ++ ord.run ix.dbgAnnotations
    ++ ix.functionBodies.flatMap (fun fb => ord.run fb.labels)
    ++ ix.functionBodies.flatMap (fun fb => ord.run fb.localVars)

/-- src/diagnostics.rs:83-147 -/
def diagnosticsFromIndex (ord : IterOrder) (rope : Str) (uri : Str) (ix : HIRIndex) :
    List Diagnostic :=
  (allUseDefs ord ix).flatMap fun (name, ud) => diagnoseSymbol rope uri name ud

end HyperIR
