import Verif.Model.Rope

/- Model of src/backtrace.rs. -/

namespace HyperIR

/-- `url::Url` as far as used: everything before the path, the path segments, and whether the URL
cannot be a base (no path segments).  Simplification: percent-encoding is left out. -/
structure Url where
  origin : Str
  segments : List Str
  cannotBeABase : Bool := false
  deriving DecidableEq, Repr

/-- `Url::to_string` -/
def Url.toStr (u : Url) : Str :=
  u.origin ++ u.segments.flatMap fun s => '/' :: s

/-- Characters the URL parser ignores (`ascii_tab_or_new_line` of the url crate). -/
def ignoredInUrl (c : Char) : Bool := decide (c = '\t') || decide (c = '\n') || decide (c = '\r')

/-- `PathSegmentsMut::push` (url 2.4.1): the segments `.` and `..` are ignored; the root path `/` is
replaced.  What is pushed goes through the URL parser, which drops tabs and line ends and only then
recognizes `.` and `..` (src/backtrace.rs:11). -/
def pushSegment (segs : List Str) (s : Str) : List Str :=
  if s = c!"." ∨ s = c!".." then segs
  else
    let s := s.filter fun c => !ignoredInUrl c
    if s = c!".." then segs.dropLast
    else if s = c!"." then segs ++ [[]]
    else if segs = [[]] then [s] else segs ++ [s]

/-- `PathSegmentsMut::extend` -/
def extendSegments (segs : List Str) (l : List Str) : List Str := l.foldl pushSegment segs

/-- The file system: `uri.to_file_path().ok()?.exists()`. -/
abbrev FileSystem := Url → Bool

/-- src/backtrace.rs:8-18; `path_segments_mut().unwrap()` panics on cannot-be-a-base URLs. -/
def resolveRelativePath (fs : FileSystem) : List Url → Str → Outcome (Option Url)
  | [], _ => .ok none
  | u :: us, path =>
    if u.cannotBeABase then .panic
    else
      let uri := { u with segments := extendSegments u.segments (splitOn '/' path) }
      if fs uri then .ok (some uri) else resolveRelativePath fs us path

/-- src/backtrace.rs:20-26 -/
structure Frame where
  symbol : Str
  filepath : Option Str
  line : Nat
  resolvedFilepath : Option Url
  deriving DecidableEq, Repr

/-- src/backtrace.rs:28-31: the part after the last `/` or `\`. -/
def shortenFilepath (path : Str) : Str :=
  (path.reverse.takeWhile fun c => decide (c ≠ '/') && decide (c ≠ '\\')).reverse

/-- `serde_json::Value`; object keys are distinct. -/
inductive Json where
  | null
  | bool (b : Bool)
  | num (n : Str)
  | str (s : Str)
  | arr (l : List Json)
  | obj (l : List (Str × Json))

/-- `Value::get(&str)` -/
def Json.field (j : Json) (k : Str) : Option Json :=
  match j with
  | .obj l => (l.find? fun p => decide (p.1 = k)).map Prod.snd
  | _ => none

/-- `Value::get(usize)` -/
def Json.item (j : Json) (i : Nat) : Option Json :=
  match j with
  | .arr l => l[i]?
  | _ => none

/-- `Value::as_str` -/
def Json.asStr : Json → Option Str
  | .str s => some s
  | _ => none

/-- `Value::as_array` -/
def Json.asArray : Json → Option (List Json)
  | .arr l => some l
  | _ => none

/-- src/backtrace.rs:56-63: `file:linenr` -/
def parseFileLine (s : Str) : Option (Str × Nat) :=
  match splitOn ':' s with
  | [filepath, linestr] => (parseU32 linestr).map fun line => (filepath, line)
  | _ => none

/-- src/backtrace.rs:47-53: the displayed symbol -/
def frameName (jsonName jsonLink : Option Str) : Str :=
  match jsonName with
  | some (c :: cs) => c :: cs
  | _ => match jsonLink with
    | some link => shortenFilepath link
    | none => c!"<invalid>"

/-- src/backtrace.rs:40-77: one frame -/
def parseFrame (fs : FileSystem) (roots : List Url) (frame : Json) : Outcome Frame :=
  let jsonName := (frame.item 0).bind Json.asStr
  let jsonLink := (frame.item 1).bind Json.asStr
  let fl := jsonLink.bind parseFileLine
  let resolved := match fl with
    | some f => resolveRelativePath fs roots f.1
    | none => .ok none
  match resolved with
  | .panic => .panic
  | .ok r =>
    .ok { symbol := frameName jsonName jsonLink
          filepath := fl.map Prod.fst
          line := (fl.map Prod.snd).getD 0
          resolvedFilepath := r }

/-- `iter().map(..).collect()` with panics -/
def mapO {α β : Type} (f : α → Outcome β) : List α → Outcome (List β)
  | [] => .ok []
  | x :: xs => match f x with
    | .panic => .panic
    | .ok y => match mapO f xs with
      | .panic => .panic
      | .ok ys => .ok (y :: ys)

/-- src/backtrace.rs:33-80 -/
def parseBacktraceFromJson (fs : FileSystem) (roots : List Url) (json : Json) :
    Outcome (Option (List Frame)) :=
  match (json.field c!"backtrace").bind Json.asArray with
  | none => .ok none
  | some l => match mapO (parseFrame fs roots) l with
    | .panic => .panic
    | .ok frames => .ok (some frames)

/-- src/backtrace.rs:84-90 -/
def symbolPreferences : List Str :=
  [c!"Translator::consume", c!"Translator::produceMaterializedResult", c!"Translator::drivePipeline",
   c!"Translator::deriveValue", c!"Translator::"]

/-- src/backtrace.rs:91-96 -/
def findPreferred (frames : List Frame) : List Str → Option Nat
  | [] => none
  | p :: ps => match frames.findIdx? (fun f => containsStr p f.symbol) with
    | some i => some i
    | none => findPreferred frames ps

/-- src/backtrace.rs:82-105 -/
def identifyRelevantFrames (frames : List Frame) : Option Nat :=
  match findPreferred frames symbolPreferences with
  | some i => some i
  | none => frames.findIdx? fun f => match f.filepath with
    | some fp => !containsStr c!"hyper/ir/" fp && !containsStr c!"hyper/codegen" fp
    | none => false

variable [Unicode]

/-- src/backtrace.rs:117-132 -/
def sanitizeChar (c : Char) : Char :=
  if Unicode.alphanumeric c || Unicode.whitespace c then c
  else if c ∈ c!".,:+-=/*<>_" then c
  else Char.ofNat 0xFFFD

/-- src/backtrace.rs:109-137 -/
def sanitizeMarkdownCode (s : Str) : Str := s.map sanitizeChar

/-- src/backtrace.rs:139-164 -/
def formatFrameAsMd (f : Frame) : Str :=
  let code := c!"`" ++ sanitizeMarkdownCode f.symbol ++ c!"`"
  match f.filepath with
  | none => code
  | some fp =>
    let short := shortenFilepath fp
    match f.resolvedFilepath with
    | some u =>
      code ++ c!" @ [" ++ short ++ c!":" ++ showNat f.line ++ c!"](" ++ u.toStr ++ c!"#"
        ++ showNat f.line ++ c!")"
    | none => code ++ c!" @ " ++ short ++ c!":" ++ showNat f.line

/-- src/backtrace.rs:166-172 -/
def backtraceToMd : List Frame → Str
  | [] => []
  | [f] => c!"* " ++ formatFrameAsMd f
  | f :: g :: fs => c!"* " ++ formatFrameAsMd f ++ c!"\n" ++ backtraceToMd (g :: fs)

omit [Unicode] in
/-- src/backtrace.rs:174-180; `s[..len - 2]` slices bytes. -/
def shortenName (s : Str) (len : Nat) : Outcome Str :=
  if utf8Len s < len - 2 then .ok s
  else match takeBytes (len - 2) s with
    | some p => .ok (p ++ [Char.ofNat 0x2026])
    | none => .panic

/-- `lsp_types::InlayHintLabelPart` (tooltip text, link target) -/
structure LabelPart where
  value : Str
  tooltip : Option Str := none
  location : Option Location := none
  deriving DecidableEq, Repr

/-- `lsp_types::InlayHint` (position and label; padding is constant) -/
structure InlayHint where
  position : Pos
  label : List LabelPart
  deriving DecidableEq, Repr

/-- src/backtrace.rs:182-225 -/
def inlayHintForBacktrace (pos : Pos) (frames : List Frame) : Outcome InlayHint :=
  let full : LabelPart := { value := c!"Full backtrace", tooltip := some (backtraceToMd frames) }
  match identifyRelevantFrames frames with
  | none => .ok { position := pos, label := [full] }
  | some idx => match frames[idx]? with
    | none => .panic
    | some frame => match shortenName frame.symbol 50 with
      | .panic => .panic
      | .ok symbol =>
        .ok { position := pos
              label := [{ value := symbol, tooltip := some (formatFrameAsMd frame) },
                        { value := c!", " }, full] }

end HyperIR
