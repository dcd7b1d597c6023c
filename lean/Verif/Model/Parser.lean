import Verif.Model.Tokenizer

/- Model of src/hir_parser.rs. -/

namespace HyperIR

/-- src/hir_parser.rs:5-9 -/
structure FuncArg where
  type_ : Spanned Str
  name : Spanned Str
  deriving DecidableEq, Repr

/-- src/hir_parser.rs:11-17 -/
structure FuncSignature where
  modifiers : List (Spanned Str)
  retType : Spanned Str
  name : Spanned Str
  args : List FuncArg
  deriving DecidableEq, Repr

/-- src/hir_parser.rs:60-67 -/
structure Instruction where
  assignmentTarget : Option (Spanned Str)
  instruction : Spanned Str
  basicBlockRefs : List (Spanned Str)
  dbgRef : Option (Spanned Str)
  span : Span
  deriving DecidableEq, Repr

/-- src/hir_parser.rs:69-73 -/
def Instruction.isBranching (i : Instruction) : Bool :=
  endsWith i.instruction.1 c!"br" || decide (i.instruction.1 = c!"switch")

/-- src/hir_parser.rs:52-58 -/
structure BasicBlock where
  label : Option (Spanned Str)
  labelCommaSpan : Option Span
  instructions : List Instruction
  span : Span
  deriving DecidableEq, Repr

/-- src/hir_parser.rs:45-50 -/
structure FuncBody where
  openingBracket : Span
  closingBracket : Span
  basicBlocks : List BasicBlock
  deriving DecidableEq, Repr

/-- src/hir_parser.rs:19-43 -/
inductive Statement where
  | globalVar (name : Spanned Str) (def_ : List (Spanned Token))
  | funcDecl (signature : FuncSignature) (addr : Option (Spanned Str)) (dbgref : Option (Spanned Str))
  | funcDef (defineKw : Span) (signature : FuncSignature) (body : FuncBody)
  | funcDependencies (dependent : Spanned Str) (dependencies : List (Spanned Str))
  | dbgAnnotation (name : Spanned Str) (def_ : List (Spanned Token))
  deriving DecidableEq, Repr

/-- src/hir_parser.rs:76 -/
def pEol : P Token Token := por (just .newline) (pmap (fun _ => Token.newline) pend)

/-- src/hir_parser.rs:77-80 -/
def pFuncModifier : P Token (Spanned Str) :=
  pfilterMap (fun t sp => match t with | .funcModifier s => some (s, sp) | _ => none)
    c!"expected function modifier"

/-- src/hir_parser.rs:81-84 -/
def pGlobalName : P Token (Spanned Str) :=
  pfilterMap (fun t sp => match t with | .globalName s => some (s, sp) | _ => none)
    c!"expected global name"

/-- src/hir_parser.rs:85-88 -/
def pLocalName : P Token (Spanned Str) :=
  pfilterMap (fun t sp => match t with | .localName s => some (s, sp) | _ => none)
    c!"expected local name"

/-- src/hir_parser.rs:89-92 -/
def pType : P Token (Spanned Str) :=
  pfilterMap (fun t sp => match t with | .type s => some (s, sp) | _ => none)
    c!"expected type name"

/-- src/hir_parser.rs:93-96 -/
def pIdent : P Token (Spanned Str) :=
  pfilterMap (fun t sp => match t with | .ident s => some (s, sp) | _ => none)
    c!"expected global name"

/-- src/hir_parser.rs:97-100 -/
def pDbgRef : P Token (Spanned Str) :=
  pfilterMap (fun t sp => match t with | .debugRef s => some (s, sp) | _ => none)
    c!"expected dbgref"

/-- src/hir_parser.rs:101-104 -/
def pHexnum : P Token (Spanned Str) :=
  pfilterMap (fun t sp => match t with | .hexNum s => some (s, sp) | _ => none)
    c!"expected a hexadecimal number"

/-- `just(Token::Punctuation(c))` -/
def pPunct (c : Char) : P Token Token := just (.punct c)

/-- `just(Token::Newline)` -/
def pNewline : P Token Token := just .newline

/-- `just(Token::Ident(s))` -/
def pKeyword (s : Str) : P Token Token := just (.ident s)

/-- src/hir_parser.rs:107-109 -/
def pTokenSoup : P Token (List (Spanned Token)) :=
  repeated (pmapSpan (fun t sp => (t, sp)) (noneOf [Token.newline]))

/-- src/hir_parser.rs:112-116 -/
def pGlobalVar : P Token Statement :=
  pmap (fun (n, d) => Statement.globalVar n d)
    (thenIgnore (pthen (thenIgnore pGlobalName (pPunct '=')) pTokenSoup) pEol)

/-- src/hir_parser.rs:119-121 -/
def pFuncArg : P Token FuncArg := pmap (fun (t, n) => { type_ := t, name := n }) (pthen pType pLocalName)

/-- src/hir_parser.rs:124 -/
def pFuncArgs : P Token (List FuncArg) := separatedBy pFuncArg (pPunct ',')

/-- src/hir_parser.rs:127-138 -/
def pFuncSignature : P Token FuncSignature :=
  pmap (fun (((m, r), n), a) => { modifiers := m, retType := r, name := n, args := a })
    (pthen (pthen (pthen (repeated pFuncModifier) pType) pGlobalName)
      (delimitedBy (pPunct '(') (pPunct ')') pFuncArgs))

/-- src/hir_parser.rs:141 -/
def pFuncAddr : P Token (Spanned Str) := ignoreThen (pPunct '=') pHexnum

/-- src/hir_parser.rs:144-153 -/
def pFuncDecl : P Token Statement :=
  pmap (fun ((s, a), d) => Statement.funcDecl s a d)
    (thenIgnore
      (pthen (pthen (ignoreThen (just .declare) pFuncSignature) (orNot pFuncAddr)) (orNot pDbgRef))
      pEol)

/-- src/hir_parser.rs:160 etc.: `just(Token::Newline).rewind()` -/
def pNewlineAhead : P Token Token := rewind pNewline

/-- src/hir_parser.rs:156-157 etc.: a keyword with its span -/
def pKeywordSpan (s : Str) : P Token (Spanned Str) := pmapSpan (fun _ sp => (s, sp)) (pKeyword s)

/-- src/hir_parser.rs:156-167 -/
def pBr : P Token Instruction :=
  pmapSpan
    (fun ((i, target), d) sp =>
      { assignmentTarget := none, instruction := i, basicBlockRefs := [target], dbgRef := d, span := sp })
    (thenIgnore (pthen (pthen (pKeywordSpan c!"br") pIdent) (orNot pDbgRef)) pNewlineAhead)

/-- src/hir_parser.rs:170-188 -/
def pCondBr : P Token Instruction :=
  pmapSpan
    (fun (((i, t), e), d) sp =>
      { assignmentTarget := none, instruction := i, basicBlockRefs := [t, e], dbgRef := d, span := sp })
    (thenIgnore
      (pthen
        (pthen
          (thenIgnore
            (pthen
              (thenIgnore
                (thenIgnore
                  (thenIgnore (pKeywordSpan c!"br") (just (Token.type c!"int1")))
                  pany)
                (pPunct ','))
              pIdent)
            (pPunct ','))
          pIdent)
        (orNot pDbgRef))
      pNewlineAhead)

/-- src/hir_parser.rs:203-206, 233-236: anything up to `, kw` -/
def pSkipOperands (kw : Str) : P Token (List Token) :=
  repeated
    (por (noneOf [Token.punct ',', Token.newline])
      (thenIgnore (pPunct ',') (noneOf [Token.ident kw])))

/-- src/hir_parser.rs:192-226 -/
def pOverflowBr : P Token Instruction :=
  pmapSpan
    (fun (((i, t1), t2), d) sp =>
      { assignmentTarget := none, instruction := i, basicBlockRefs := [t1, t2], dbgRef := d, span := sp })
    (thenIgnore
      (pthen
        (pthen
          (thenIgnore
            (thenIgnore
              (thenIgnore
                (pthen
                  (thenIgnore
                    (thenIgnore
                      (thenIgnore
                        (thenIgnore
                          (validate
                            (fun x => if endsWith x.1 c!"br" then none
                              else some c!"Instruction is not a overflow-branch instruction.")
                            pIdent)
                          (pSkipOperands c!"cont"))
                        (pPunct ','))
                      (pKeyword c!"cont"))
                    (pPunct '='))
                  pIdent)
                (pPunct ','))
              (pKeyword c!"overflow"))
            (pPunct '='))
          pIdent)
        (orNot pDbgRef))
      pNewlineAhead)

/-- src/hir_parser.rs:244-248: one `type value label=target` case -/
def pSwitchCase : P Token (Spanned Str) :=
  ignoreThen (pthen (pthen (pthen pType pany) (pKeyword c!"label")) (pPunct '=')) pIdent

/-- src/hir_parser.rs:230-264 -/
def pSwitch : P Token Instruction :=
  pmapSpan
    (fun (((i, dflt), targets), d) sp =>
      { assignmentTarget := none, instruction := i, basicBlockRefs := dflt :: targets, dbgRef := d,
        span := sp })
    (thenIgnore
      (pthen
        (pthen
          (thenIgnore
            (pthen
              (thenIgnore
                (thenIgnore
                  (thenIgnore
                    (thenIgnore (pKeywordSpan c!"switch") (pSkipOperands c!"default"))
                    (pPunct ','))
                  (pKeyword c!"default"))
                (pPunct '='))
              pIdent)
            (pPunct ','))
          (separatedBy pSwitchCase (pPunct ',')))
        (orNot pDbgRef))
      pNewlineAhead)

/-- src/hir_parser.rs:270-273: one `[label, value]` edge -/
def pPhiEdge : P Token (Spanned Str) :=
  delimitedBy (pPunct '[') (pPunct ']')
    (thenIgnore (thenIgnore pIdent (pPunct ','))
      (repeated (noneOf [Token.punct ']', Token.newline])))

/-- src/hir_parser.rs:267-284 -/
def pPhi : P Token Instruction :=
  pmapSpan
    (fun ((i, targets), d) sp =>
      { assignmentTarget := none, instruction := i, basicBlockRefs := targets, dbgRef := d, span := sp })
    (thenIgnore
      (pthen (pthen (pKeywordSpan c!"phi") (separatedBy pPhiEdge (pPunct ','))) (orNot pDbgRef))
      pNewlineAhead)

/-- src/hir_parser.rs:287-303 -/
def pAnyInstruction : P Token Instruction :=
  pmapSpan
    (fun (i, d) sp =>
      { assignmentTarget := none, instruction := i, basicBlockRefs := [], dbgRef := d, span := sp })
    (thenIgnore
      (pthen
        (thenIgnore
          (thenIgnore pIdent (rewind (noneOf [Token.punct ':'])))
          (repeated
            (pnot (por (pmap (fun _ => ()) pNewline) (pmap (fun _ => ()) pDbgRef)))))
        (orNot pDbgRef))
      pNewlineAhead)

/-- src/hir_parser.rs:306-309 -/
def pAssignment : P Token (Spanned Str) := thenIgnore (ignoreThen pType pLocalName) (pPunct '=')

/-- src/hir_parser.rs:311-316 -/
def pInstructionKind : P Token Instruction :=
  por (por (por (por (por pBr pCondBr) pOverflowBr) pSwitch) pPhi) pAnyInstruction

/-- src/hir_parser.rs:306-322 -/
def pInstruction : P Token Instruction :=
  pmapSpan (fun (target, i) sp => { i with assignmentTarget := target, span := sp })
    (pthen (orNot pAssignment) pInstructionKind)

/-- src/hir_parser.rs:330-331, 353-354 -/
def pPaddedInstruction : P Token Instruction := paddedBy (repeated pNewline) pInstruction

/-- src/hir_parser.rs:335-346 -/
def mkBasicBlock (label : Spanned Str) (comma : Span) (instructions : List Instruction) : BasicBlock :=
  { label := some label
    labelCommaSpan := some comma
    instructions := instructions
    span := { start := label.2.start
              stop := match instructions.getLast? with
                | some i => i.span.stop
                | none => label.2.stop } }

/-- src/hir_parser.rs:325-346 -/
def pBasicBlock : P Token BasicBlock :=
  pmap (fun ((l, c), is) => mkBasicBlock l c is)
    (pthen
      (thenIgnore (pthen pIdent (pmapSpan (fun _ sp => sp) (pPunct ':'))) (repeatedAtLeast 1 pNewline))
      (repeated pPaddedInstruction))

/-- src/hir_parser.rs:358-369: the unlabelled initial block; `first().unwrap()`, `last().unwrap()`. -/
def mkInitialBlock (instructions : List Instruction) : Outcome BasicBlock :=
  match instructions.head?, instructions.getLast? with
  | some f, some l =>
    .ok { label := none, labelCommaSpan := none, instructions := instructions,
          span := { start := f.span.start, stop := l.span.stop } }
  | _, _ => .panic

/-- src/hir_parser.rs:353-369 -/
def pInitialBlock : P Token BasicBlock :=
  pmapOutcome mkInitialBlock (repeatedAtLeast 1 pPaddedInstruction)

/-- src/hir_parser.rs:349-387 -/
def pFuncBody : P Token FuncBody :=
  pmap
    (fun (((o, init), bbs), c) =>
      { openingBracket := o, closingBracket := c,
        basicBlocks := (match init with | some b => [b] | none => []) ++ bbs })
    (pthen
      (pthen
        (pthen
          (thenIgnore (pmapSpan (fun _ sp => sp) (pPunct '{')) (repeatedAtLeast 1 pNewline))
          (orNot pInitialBlock))
        (repeated pBasicBlock))
      (pmapSpan (fun _ sp => sp) (pPunct '}')))

/-- src/hir_parser.rs:390-399 -/
def pFuncDef : P Token Statement :=
  pmap (fun ((k, s), b) => Statement.funcDef k s b)
    (thenIgnore
      (pthen (pthen (pmapSpan (fun _ sp => sp) (just Token.define)) pFuncSignature) pFuncBody)
      pEol)

/-- src/hir_parser.rs:402-409 -/
def pFuncDependencies : P Token Statement :=
  pmap (fun (d, ds) => Statement.funcDependencies d ds)
    (pthen (thenIgnore (thenIgnore pGlobalName (pKeyword c!"depends")) (pKeyword c!"on"))
      (separatedBy pGlobalName (pPunct ',')))

/-- src/hir_parser.rs:412-416 -/
def pDbgAnnotation : P Token Statement :=
  pmap (fun (n, d) => Statement.dbgAnnotation n d)
    (thenIgnore (pthen (thenIgnore pDbgRef (pPunct '=')) pTokenSoup) pEol)

/-- src/hir_parser.rs:418-422 -/
def pStatement : P Token Statement :=
  por (por (por (por pGlobalVar pFuncDecl) pFuncDef) pFuncDependencies) pDbgAnnotation

/-- src/hir_parser.rs:418-423 -/
def pPaddedStatement : P Token Statement := paddedBy (repeated pNewline) pStatement

/-- src/hir_parser.rs:75, 418-426 `parser()` -/
def parser : P Token (List Statement) :=
  thenIgnore (repeated (recoverSkip pPaddedStatement)) pend

/-- `Simple<String>`: an error after `e.map(|t| t.to_string())` (src/hir_parser.rs:452-456). -/
structure SErr where
  span : Span
  reason : Reason
  expected : List (Option Str)
  found : Option Str
  deriving DecidableEq, Repr

/-- src/hir_parser.rs:454-455 -/
def LErr.toSErr {τ : Type} (f : τ → Str) (e : LErr τ) : SErr :=
  { span := e.span, reason := e.reason, expected := e.expected.map (Option.map f),
    found := e.found.map f }

/-- src/hir_parser.rs:429-433 -/
structure ParserResult where
  tokens : List (Spanned Token)
  stmts : List Statement
  errors : List SErr
  deriving DecidableEq, Repr

variable [Unicode]

/-- Result of `tokenizer().parse_recovery(src)` (src/hir_parser.rs:437).  chumsky's stream for
`&str` counts characters; its end-of-input span is `len..len`. -/
def tokenize (src : Str) : Outcome (Option (List (Spanned Token)) × List (LErr Char)) :=
  parseRecovery tokenizer { start := src.length, stop := src.length } (charStream 0 src)

/-- src/hir_parser.rs:442-446 (`strlen` is the length in bytes). -/
def parseTokens (strlen : Nat) (tokens : List (Spanned Token)) :
    Outcome (Option (List Statement) × List (LErr Token)) :=
  parseRecovery parser { start := strlen, stop := strlen + 1 }
    (tokens.filter fun t => decide (t.1 ≠ Token.comment))

/-- src/hir_parser.rs:435-463 -/
def parseFromStr (src : Str) : Outcome ParserResult :=
  match tokenize src with
  | .panic => .panic
  | .ok (none, tokErrs) =>
    .ok { tokens := [], stmts := [], errors := tokErrs.map (LErr.toSErr fun c => [c]) }
  | .ok (some tokens, tokErrs) =>
    match parseTokens (utf8Len src) tokens with
    | .panic => .panic
    | .ok (stmts, parseErrs) =>
      .ok { tokens := tokens
            stmts := stmts.getD []
            errors := tokErrs.map (LErr.toSErr fun c => [c])
              ++ parseErrs.map (LErr.toSErr Token.display) }

end HyperIR
