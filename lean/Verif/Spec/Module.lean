import Verif.Model.Parser

/-
Abstract HIR modules, how they are printed as tokens, and the "shape" of a syntax tree: the tree
without source ranges.  Independent of the parser; used for properties C09, C11 and C13.
-/

namespace HyperIR.Spec

/-! ### Shapes: syntax trees without ranges -/

structure InstrShape where
  target : Option Str
  mnemonic : Str
  refs : List Str
  dbg : Option Str
  deriving DecidableEq, Repr

structure BlockShape where
  label : Option Str
  instrs : List InstrShape
  deriving DecidableEq, Repr

structure SigShape where
  modifiers : List Str
  ret : Str
  name : Str
  args : List (Str × Str)
  deriving DecidableEq, Repr

inductive StmtShape where
  | globalVar (name : Str) (definition : List Token)
  | funcDecl (sig : SigShape) (addr dbg : Option Str)
  | funcDef (sig : SigShape) (blocks : List BlockShape)
  | funcDependencies (name : Str) (deps : List Str)
  | dbgAnnotation (name : Str) (definition : List Token)
  deriving DecidableEq, Repr

def instrShape (i : Instruction) : InstrShape :=
  { target := i.assignmentTarget.map Prod.fst, mnemonic := i.instruction.1,
    refs := i.basicBlockRefs.map Prod.fst, dbg := i.dbgRef.map Prod.fst }

def blockShape (b : BasicBlock) : BlockShape :=
  { label := b.label.map Prod.fst, instrs := b.instructions.map instrShape }

def sigShape (s : FuncSignature) : SigShape :=
  { modifiers := s.modifiers.map Prod.fst, ret := s.retType.1, name := s.name.1,
    args := s.args.map fun a => (a.type_.1, a.name.1) }

def stmtShape : Statement → StmtShape
  | .globalVar n d => .globalVar n.1 (d.map Prod.fst)
  | .funcDecl s a d => .funcDecl (sigShape s) (a.map Prod.fst) (d.map Prod.fst)
  | .funcDef _ s b => .funcDef (sigShape s) (b.basicBlocks.map blockShape)
  | .funcDependencies n ds => .funcDependencies n.1 (ds.map Prod.fst)
  | .dbgAnnotation n d => .dbgAnnotation n.1 (d.map Prod.fst)

/-! ### Abstract instructions -/

/-- Operands: anything but line ends; a comma is not followed by the given keyword. -/
inductive OperandKinds (kw : Str) : List Token → Prop
  | nil : OperandKinds kw []
  | tok {t l} : t ≠ .punct ',' → t ≠ .newline → OperandKinds kw l → OperandKinds kw (t :: l)
  | comma {t l} : t ≠ .ident kw → t ≠ .newline → OperandKinds kw l →
      OperandKinds kw (.punct ',' :: t :: l)

/-- The documented instruction forms. -/
inductive Form where
  /-- `br target` -/
  | br (target : Str)
  /-- `br int1 value, then, else` -/
  | condBr (value : Token) (thenTarget elseTarget : Str)
  /-- `saddbr operands, cont=target, overflow=target` -/
  | overflowBr (mnemonic : Str) (operands : List Token) (cont overflow : Str)
  /-- `switch operands, default=target, type value label=target, …` -/
  | switch (operands : List Token) (dflt : Str) (cases : List (Str × Token × Str))
  /-- `phi [label, value…], …` -/
  | phi (edges : List (Str × List Token))
  /-- any other instruction -/
  | other (mnemonic : Str) (operands : List Token)

/-- `xs` separated by commas. -/
def commaSeparated : List (List Token) → List Token
  | [] => []
  | [x] => x
  | x :: y :: ys => x ++ [.punct ','] ++ commaSeparated (y :: ys)

def Form.print : Form → List Token
  | .br t => [.ident c!"br", .ident t]
  | .condBr v t e => [.ident c!"br", .type c!"int1", v, .punct ',', .ident t, .punct ',', .ident e]
  | .overflowBr m ops t t' =>
    [.ident m] ++ ops ++ [.punct ',', .ident c!"cont", .punct '=', .ident t, .punct ',',
      .ident c!"overflow", .punct '=', .ident t']
  | .switch ops d cases =>
    [.ident c!"switch"] ++ ops ++ [.punct ',', .ident c!"default", .punct '=', .ident d, .punct ',']
      ++ commaSeparated (cases.map fun (ty, v, t) => [.type ty, v, .ident c!"label", .punct '=', .ident t])
  | .phi edges =>
    [.ident c!"phi"] ++ commaSeparated (edges.map fun (l, vs) =>
      [.punct '[', .ident l, .punct ','] ++ vs ++ [.punct ']'])
  | .other m ops => [.ident m] ++ ops

def Form.mnemonic : Form → Str
  | .br _ => c!"br"
  | .condBr _ _ _ => c!"br"
  | .overflowBr m _ _ _ => m
  | .switch _ _ _ => c!"switch"
  | .phi _ => c!"phi"
  | .other m _ => m

/-- The labels a form names, in order. -/
def Form.targets : Form → List Str
  | .br t => [t]
  | .condBr _ t e => [t, e]
  | .overflowBr _ _ t t' => [t, t']
  | .switch _ d cases => d :: cases.map fun (_, _, t) => t
  | .phi edges => edges.map Prod.fst
  | .other _ _ => []

/-- The instruction name ends in `br`. -/
def IsBr (m : Str) : Prop := ∃ p, m = p ++ c!"br"

/-- Restrictions on names and operands. -/
def Form.Good : Form → Prop
  | .br _ => True
  | .condBr v _ _ => v ≠ .newline
  | .overflowBr m ops _ _ => IsBr m ∧ OperandKinds c!"cont" ops
  | .switch ops _ cases => OperandKinds c!"default" ops ∧ ∀ c ∈ cases, c.2.1 ≠ .newline
  | .phi edges => ∀ e ∈ edges, ∀ t ∈ e.2, t ≠ .punct ']' ∧ t ≠ .newline
  | .other m ops => ¬ IsBr m ∧ m ≠ c!"switch" ∧ m ≠ c!"phi" ∧
      (∀ t ∈ ops, t ≠ .newline ∧ ∀ s, t ≠ .debugRef s) ∧ ops.head? ≠ some (.punct ':')

/-- An instruction with optional assignment (`type %name =`) and debug reference. -/
structure Instr where
  assign : Option (Str × Str)
  form : Form
  dbg : Option Str

def Instr.print (i : Instr) : List Token :=
  (match i.assign with | some (t, n) => [.type t, .localName n, .punct '='] | none => [])
    ++ i.form.print ++ i.dbg.toList.map .debugRef

def Instr.shape (i : Instr) : InstrShape :=
  { target := i.assign.map Prod.snd, mnemonic := i.form.mnemonic, refs := i.form.targets, dbg := i.dbg }

/-! ### Abstract modules and their layouts -/

/-- At least one line end. -/
def lineEnds (n : Nat) : List Token := List.replicate (n + 1) .newline

/-- Instructions, each followed by one or more line ends. -/
inductive PrintsInstrs : List Instr → List Token → Prop
  | nil : PrintsInstrs [] []
  | cons {i is n ks} : i.form.Good → PrintsInstrs is ks → PrintsInstrs (i :: is) (i.print ++ lineEnds n ++ ks)

structure Block where
  label : Str
  instrs : List Instr

inductive PrintsBlocks : List Block → List Token → Prop
  | nil : PrintsBlocks [] []
  | cons {b bs n is ks} : PrintsInstrs b.instrs is → PrintsBlocks bs ks →
      PrintsBlocks (b :: bs) ([.ident b.label, .punct ':'] ++ lineEnds n ++ is ++ ks)

def sigPrint (s : SigShape) : List Token :=
  s.modifiers.map .funcModifier ++ [.type s.ret, .globalName s.name, .punct '(']
    ++ commaSeparated (s.args.map fun (t, n) => [.type t, .localName n]) ++ [.punct ')']

/-- Statements of a module.  A function body may start with instructions before the first label. -/
inductive Stmt where
  | globalVar (name : Str) (definition : List Token)
  | funcDecl (sig : SigShape) (addr dbg : Option Str)
  | funcDef (sig : SigShape) (first : List Instr) (blocks : List Block)
  | funcDependencies (name : Str) (deps : List Str)
  | dbgAnnotation (name : Str) (definition : List Token)

inductive PrintsStmt : Stmt → List Token → Prop
  | globalVar {n d} : (∀ t ∈ d, t ≠ .newline) →
      PrintsStmt (.globalVar n d) ([.globalName n, .punct '='] ++ d)
  | funcDecl {s a d} : PrintsStmt (.funcDecl s a d)
      ([.declare] ++ sigPrint s ++ (match a with | some a => [.punct '=', .hexNum a] | none => [])
        ++ d.toList.map .debugRef)
  | funcDef {s f bs n fk bk} : PrintsInstrs f fk → PrintsBlocks bs bk →
      PrintsStmt (.funcDef s f bs) ([.define] ++ sigPrint s ++ [.punct '{'] ++ lineEnds n ++ fk ++ bk
        ++ [.punct '}'])
  | funcDependencies {n ds} : PrintsStmt (.funcDependencies n ds)
      ([.globalName n, .ident c!"depends", .ident c!"on"]
        ++ commaSeparated (ds.map fun d => [.globalName d]))
  | dbgAnnotation {n d} : (∀ t ∈ d, t ≠ .newline) →
      PrintsStmt (.dbgAnnotation n d) ([.debugRef n, .punct '='] ++ d)

/-- A module: statements, each followed by line ends (the last one possibly by none). -/
inductive Prints : List Stmt → List Token → Prop
  | nil : Prints [] []
  | last {s k} : PrintsStmt s k → Prints [s] k
  | cons {s ss k n ks} : PrintsStmt s k → Prints ss ks → Prints (s :: ss) (k ++ lineEnds n ++ ks)

def Block.shape (b : Block) : BlockShape := { label := some b.label, instrs := b.instrs.map Instr.shape }

def Stmt.shape : Stmt → StmtShape
  | .globalVar n d => .globalVar n d
  | .funcDecl s a d => .funcDecl s a d
  | .funcDef s f bs => .funcDef s
      ((if f = [] then [] else [{ label := none, instrs := f.map Instr.shape }]) ++ bs.map Block.shape)
  | .funcDependencies n ds => .funcDependencies n ds
  | .dbgAnnotation n d => .dbgAnnotation n d

/-- The instructions of a statement, in source order. -/
def Stmt.instrs : Stmt → List Instr
  | .funcDef _ f bs => f ++ bs.flatMap Block.instrs
  | _ => []

/-- The instructions of a parsed statement, in source order. -/
def instructionsOf : Statement → List Instruction
  | .funcDef _ _ b => b.basicBlocks.flatMap BasicBlock.instructions
  | _ => []

end HyperIR.Spec
