import Verif.Model.Server

/-
The unit tests of the crate, repeated on the model.  They say nothing about all inputs; they are here to check the model
(and the reading of the chumsky library) against what the authors run.
-/

namespace HyperIR

attribute [local instance] asciiUnicode

set_option synthInstance.maxSize 2000
set_option maxRecDepth 4000

/-- `tokenizer().parse(e)` of the tests, without the spans: all errors are failures. -/
def testTokens (e : Str) : Option (List Token) :=
  match tokenize e with
  | .ok (some l, []) => some (l.map Prod.fst)
  | _ => none

/-- `parse_from_str(e)` of the tests: number of errors and statements -/
def testStmts (e : Str) : Option (Nat × List Statement) :=
  match parseFromStr e with
  | .ok r => some (r.errors.length, r.stmts)
  | .panic => none

/-! ### src/hir_tokenizer.rs:150-300 -/

example : testTokens c!"" = some [] := by decide +kernel
example : testTokens c!"123" = some [.num c!"123"] := by decide +kernel
example : testTokens c!"0xDead0123beef" = some [.hexNum c!"Dead0123beef"] := by decide +kernel
example : testTokens c!"\"abc\"" = some [.str c!"abc"] := by decide +kernel
example : testTokens c!"\"\"" = some [.str c!""] := by decide +kernel
example : testTokens c!"%abc::def_foo" = some [.localName c!"%abc::def_foo"] := by decide +kernel
example : testTokens c!"%" = some [.localName c!"%"] := by decide +kernel
example : testTokens c!"\n\n" = some [.newline, .newline] := by decide +kernel
example : testTokens c!"\r\n\r\n" = some [.newline, .newline] := by decide +kernel
example : testTokens c!"@abc::def_foo" = some [.globalName c!"@abc::def_foo"] := by decide +kernel
example : testTokens c!"!123" = some [.debugRef c!"!123"] := by decide +kernel
example : testTokens c!"!addr_2" = some [.debugRef c!"!addr_2"] := by decide +kernel
example : testTokens c!"void" = some [.type c!"void"] := by decide +kernel
example : testTokens c!"ptr" = some [.type c!"ptr"] := by decide +kernel
example : testTokens c!"ptr234" = some [.ident c!"ptr234"] := by decide +kernel
example : testTokens c!"x" = some [.ident c!"x"] := by decide +kernel
example : testTokens c!"my_lbl:" = some [.ident c!"my_lbl", .punct ':'] := by decide +kernel
example : testTokens c!"my_lbl::" = some [.ident c!"my_lbl", .punct ':', .punct ':'] := by decide +kernel
example : testTokens c!"exported" = some [.funcModifier c!"exported"] := by decide +kernel
example : testTokens c!"async" = some [.funcModifier c!"async"] := by decide +kernel
example : testTokens c!"memberfunc" = some [.funcModifier c!"memberfunc"] := by decide +kernel
example : testTokens c!"declare" = some [.declare] := by decide +kernel
example : testTokens c!"define" = some [.define] := by decide +kernel
example : testTokens c!":" = some [.punct ':'] := by decide +kernel
example : testTokens c!"# comment\n" = some [.comment, .newline] := by decide +kernel
example : testTokens c!"# comment" = some [.comment] := by decide +kernel
example : testTokens c!"declare void @foo(ptr %1) # comment" = some [.declare, .type c!"void", .globalName c!"@foo", .punct '(', .type c!"ptr", .localName c!"%1", .punct ')', .comment] := by decide +kernel

/-! ### src/hir_parser.rs:465-766 -/

example : (testStmts c!"@var1 = [0,0,4,0]").map (fun r => (r.1, r.2.map fun s => match s with | .globalVar n _ => n.1 | _ => [])) =
    some (0, [c!"@var1"]) := by decide +kernel

example : testStmts c!"declare exported int64 @_2_test()" =
    some (0, [.funcDecl { modifiers := [(c!"exported", ⟨8, 16⟩)], retType := (c!"int64", ⟨17, 22⟩), name := (c!"@_2_test", ⟨23, 31⟩), args := [] } none none]) := by
  decide +kernel

example : testStmts c!"declare void @foo::bar(int1 %, data128 %baz) = 0x123 !proxy_12" =
    some (0, [.funcDecl { modifiers := [], retType := (c!"void", ⟨8, 12⟩), name := (c!"@foo::bar", ⟨13, 22⟩), args := [⟨(c!"int1", ⟨23, 27⟩), (c!"%", ⟨28, 29⟩)⟩, ⟨(c!"data128", ⟨31, 38⟩), (c!"%baz", ⟨39, 43⟩)⟩] }
      (some (c!"123", ⟨47, 52⟩)) (some (c!"!proxy_12", ⟨53, 62⟩))]) := by
  decide +kernel

def testFuncDef : Str := c!"\n    define void @foo::bar(ptr %arg1_2, data128 %baz) {\n        some instruction\n    body_0:\n        int32 %v1 = load int32 ptr %arg1_2 !161  # generateBinaryOperatorFcf\n        # comment on separate line\n        br int1 %v1 doneIsNull_1, elseIsNull_2\n    doneIsNull_1:\n        # empty block; not actually valid but accepted\n    elseIsNull_2:\n        ret\n    }"

example : (testStmts testFuncDef).map (fun r => (r.1, r.2.map fun s => match s with
      | .funcDef _ sig _ => (sig.modifiers.length, sig.retType.1, sig.name.1, sig.args.map fun a => (a.type_.1, a.name.1))
      | _ => (0, [], [], []))) =
    some (0, [(0, c!"void", c!"@foo::bar", [(c!"ptr", c!"%arg1_2"), (c!"data128", c!"%baz")])]) := by
  decide +kernel

example : (testStmts testFuncDef).map (fun r => r.2.map fun s => match s with
      | .funcDef _ _ body => (body.openingBracket, body.closingBracket, body.basicBlocks.map fun b => b.label.map Prod.fst)
      | _ => (⟨0, 0⟩, ⟨0, 0⟩, [])) =
    some [(⟨54, 55⟩, ⟨359, 360⟩, [none, some c!"body_0", some c!"doneIsNull_1", some c!"elseIsNull_2"])] := by
  decide +kernel

def testRefs : Str := c!"\n    define void @foo::bar(ptr %arg1_2, data128 %baz) {\n    test_0:\n        br next_1\n        br next_1                         !1\n        br int1 %v33, loop_2, loopDone_3  !2\n        int64 %v10 = phi [body_0, int64 0], [loop_3, int64 %v15]\n        int32 %v17 = saddbr int32 %v9, int32 %v11, cont=add_cont_3, overflow=overflow_4    !30\n        switch int32 %v10, default=unreachable_5, int32 0 label=bb_0, int32 1 label=bb_1, int32 2 label=bb_2\n    }"

example : (testStmts testRefs).map (fun r => (r.1, r.2.map fun s => match s with
      | .funcDef _ _ body => body.basicBlocks.map fun b => b.instructions.map fun i => (i.instruction.1, i.basicBlockRefs)
      | _ => [])) =
    some (0, [[[(c!"br", [(c!"next_1", ⟨79, 85⟩)]),
      (c!"br", [(c!"next_1", ⟨97, 103⟩)]),
      (c!"br", [(c!"loop_2", ⟨153, 159⟩), (c!"loopDone_3", ⟨161, 171⟩)]),
      (c!"phi", [(c!"body_0", ⟨202, 208⟩), (c!"loop_3", ⟨221, 227⟩)]),
      (c!"saddbr", [(c!"add_cont_3", ⟨297, 307⟩), (c!"overflow_4", ⟨318, 328⟩)]),
      (c!"switch", [(c!"unreachable_5", ⟨371, 384⟩), (c!"bb_0", ⟨400, 404⟩), (c!"bb_1", ⟨420, 424⟩), (c!"bb_2", ⟨440, 444⟩)])]]]) := by
  decide +kernel

example : (testStmts c!"@foo depends on @bar, @baz").map (fun r => (r.1, r.2.map fun s => match s with
      | .funcDependencies d l => (d.1, l.map Prod.fst) | _ => ([], []))) =
    some (0, [(c!"@foo", [c!"@bar", c!"@baz"])]) := by decide +kernel

example : (testStmts c!"!123 = {}").map (fun r => (r.1, r.2.map fun s => match s with | .dbgAnnotation n _ => n.1 | _ => [])) =
    some (0, [c!"!123"]) := by decide +kernel

example : (testStmts c!"@1 = [12]\n    declare void @foo()").map (fun r => (r.1, r.2.map fun s => match s with
      | .globalVar n _ => (n.1, [], none, none)
      | .funcDecl sig a d => (sig.name.1, sig.retType.1, a, d)
      | _ => ([], [], none, none))) =
    some (0, [(c!"@1", [], none, none), (c!"@foo", c!"void", none, none)]) := by decide +kernel

example : (testStmts c!"@1 = [12]\n    broken line\n    @bar = [32]\n    ").map (fun r => (r.1, r.2.map fun s => match s with
      | .globalVar n _ => n.1 | _ => [])) =
    some (1, [c!"@1", c!"@bar"]) := by decide +kernel

/-! ### src/hir_index.rs:360-543 -/

def testIndexText : Str := c!"\n        @a = \"test\"\n        declare int32 @foo::bar(ptr %, int32 %baz) = 0x1234 !f1\n        declare int32 @_test1(int32 %foo, data128 %baz)\n\n        define void @_test1(int32 %foo, data128 %baz) {\n          some instruction\n          body_0:\n            int32 %res_1 = call @foo::bar(ptr @a, int32 %foo)\n            br switch_1\n          switch_1:\n            switch int32 %res_1, default=done_1, int32 0 label=done_1\n          done_1:\n            ret int32 %res_1 !21 # some comment\n        }\n\n        !f1 = \"./test.cpp:12\"\n\n        !21 = {\"some\": \"data\"}"

def testIndex : Option HIRIndex :=
  match parseFromStr testIndexText with
  | .ok r => if r.errors = [] then (createIndex testIndexText r.tokens r.stmts).toOption else none
  | .panic => none

example : testIndex.map (fun ix => ix.globalVars) = some [(c!"@a", { defs := [⟨9, 11⟩], uses := [⟨289, 291⟩] })] := by
  decide +kernel

example : testIndex.map (fun ix => ix.functions) =
    some [(c!"@foo::bar", { decls := [⟨43, 52⟩], externalDefs := [⟨c!"./test.cpp", 12⟩], uses := [⟨275, 284⟩] }),
      (c!"@_test1", { decls := [⟨107, 114⟩], defs := [⟨162, 169⟩] })] := by
  decide +kernel

example : testIndex.map (fun ix => ix.dbgAnnotations.get? c!"!21") = some (some { defs := [⟨535, 538⟩], uses := [⟨466, 469⟩] }) ∧
    testIndex.map (fun ix => ix.dbgAnnotations.get? c!"!f1") = some (some { defs := [⟨504, 507⟩], uses := [⟨81, 84⟩] }) ∧
    testIndex.map (fun ix => ix.dbgAnnotations.length) = some 2 := by
  decide +kernel

example : testIndex.map (fun ix => ix.functionBodies.map fun fb => (fb.name, fb.completeRange, fb.basicBlocks.length)) =
    some [((c!"@_test1", ⟨162, 169⟩), ⟨150, 494⟩, 4)] := by decide +kernel

example : testIndex.map (fun ix => ix.functionBodies.map fun fb =>
      (fb.labels.length, fb.labels.get? c!"body_0", fb.labels.get? c!"switch_1", fb.labels.get? c!"done_1")) =
    some [(3, some { defs := [⟨235, 241⟩] }, some { defs := [⟨339, 347⟩], uses := [⟨320, 328⟩] },
      some { defs := [⟨429, 435⟩], uses := [⟨390, 396⟩, ⟨412, 418⟩] })] := by decide +kernel

example : testIndex.map (fun ix => ix.functionBodies.map fun fb =>
      (fb.localVars.length, fb.localVars.get? c!"%foo", fb.localVars.get? c!"%baz", fb.localVars.get? c!"%res_1")) =
    some [(3, some { defs := [⟨176, 180⟩], uses := [⟨299, 303⟩] }, some { defs := [⟨190, 194⟩] },
      some { defs := [⟨261, 267⟩], uses := [⟨374, 380⟩, ⟨459, 465⟩] })] := by decide +kernel

example : testIndex.map (fun ix => ix.functionBodies.map fun fb =>
      (fb.incomingBbBranches.length, fb.incomingBbBranches.get? c!"switch_1", fb.incomingBbBranches.get? c!"done_1")) =
    some [(2, some [(c!"body_0", ⟨235, 241⟩)], some [(c!"switch_1", ⟨339, 347⟩)])] := by decide +kernel

/-! ### src/backtrace.rs:227-310 -/

/-- `parse_test_frame` -/
def testFrames (frames : List Json) : Option (List (Str × Option Str × Nat)) :=
  match parseBacktraceFromJson (fun _ => false) [] (.obj [(c!"backtrace", .arr frames)]) with
  | .ok (some l) => some (l.map fun f => (f.symbol, f.filepath, f.line))
  | _ => none

example : testFrames [.arr [.str c!"myFunc", .str c!"./my/File.cpp:11"]] = some [(c!"myFunc", some c!"./my/File.cpp", 11)] := by decide +kernel
example : testFrames [.arr [.str c!"myFunc"]] = some [(c!"myFunc", none, 0)] := by decide +kernel
example : testFrames [.arr [.str [], .str c!"./my/File.cpp:11"]] = some [(c!"File.cpp:11", some c!"./my/File.cpp", 11)] := by decide +kernel
example : testFrames [.arr [.str [], .str c!".\\my\\File.cpp:11"]] = some [(c!"File.cpp:11", some c!".\\my\\File.cpp", 11)] := by decide +kernel
example : (testFrames [.arr [.null, .str c!"./my/File.cpp:11"]]).map (List.map Prod.fst) = some [c!"File.cpp:11"] := by decide +kernel
example : (testFrames [.arr [.num c!"123", .str c!"./my/File.cpp:11"]]).map (List.map Prod.fst) = some [c!"File.cpp:11"] := by decide +kernel
example : testFrames [.arr []] = some [(c!"<invalid>", none, 0)] := by decide +kernel
example : testFrames [.arr [.null, .null]] = some [(c!"<invalid>", none, 0)] := by decide +kernel
example : testFrames [.arr [.str []]] = some [(c!"<invalid>", none, 0)] := by decide +kernel
example : testFrames [.arr [.str c!"myFunc", .str c!"./my/File.cpp:11"], .arr [.str c!"yourFunc", .str c!"./your/File.cpp:12"]] =
    some [(c!"myFunc", some c!"./my/File.cpp", 11), (c!"yourFunc", some c!"./your/File.cpp", 12)] := by decide +kernel

end HyperIR
