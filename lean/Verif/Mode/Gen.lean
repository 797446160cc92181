import Verif.Mode.Model
/-!
# Model of `apertium-gen-modes`

`apertium/gen_modes.cc`.  Texts are lists of characters (strings of bytes in the code).  Simplifications:

* The XML file is a tree of elements; `children` of lttoolbox is taken to give the element children in their order.  An
  attribute with an empty value has no child node in libxml2, so that reading it dereferences a null pointer: `none`.
* `std::map` is a list of pairs ordered by the key (`put`, `get`).
* Paths are texts, and two paths are equal if the texts are; `fs::absolute` and `/` are parameters (`Paths`).
* Opening the files, the messages and the help text are not modelled.
-/
namespace Verif.GenModes
open Verif.Mode (hasSub join)

/-- An element of the XML file. -/
inductive Xml where
  | elem (name : Text) (attrs : List (Text × Text)) (children : List Xml)

def Xml.name : Xml → Text | .elem n _ _ => n
def Xml.attrs : Xml → List (Text × Text) | .elem _ a _ => a
def Xml.children : Xml → List Xml | .elem _ _ c => c

/-- `struct program` (gen_modes.cc:34-39). -/
structure Step where
  command : Text := []
  suffixes : List Text := []
  args : List (Text × Bool) := []
  deriving DecidableEq, Repr

/-- `struct pipeline` (gen_modes.cc:41-46). -/
structure Pipeline where
  name : Text := []
  install : Bool := false
  debug : Bool := false
  steps : List Step := []
  deriving DecidableEq, Repr

/-- `xml2str` (gen_modes.cc:53-57). -/
def xml2str (v : Text) : Option Text := if v = [] then none else some v

/-- The arguments of a program (gen_modes.cc:69-77): the first attribute `name` of every child. -/
def readArgs : List Xml → Option (List (Text × Bool))
  | [] => some []
  | x :: xs =>
    match x.attrs.find? (fun a => decide (a.1 = t!"name")) with
    | none => readArgs xs
    | some a => do
      let v ← xml2str a.2
      let r ← readArgs xs
      return (v, decide (x.name = t!"file")) :: r

/-- The attributes of a program (gen_modes.cc:62-68). -/
def readStepAttrs : List (Text × Text) → Step → Option Step
  | [], s => some s
  | (k, v) :: as, s =>
    if k = t!"name" then do readStepAttrs as { s with command := ← xml2str v }
    else if k = t!"debug-suff" then do readStepAttrs as { s with suffixes := s.suffixes ++ ['-' :: (← xml2str v)] }
    else readStepAttrs as s

/-- `read_program` (gen_modes.cc:59-79). -/
def readProgram (x : Xml) : Option Step := do
  let s ← readStepAttrs x.attrs {}
  return { s with args := ← readArgs x.children }

/-- The attributes of a mode (gen_modes.cc:87-95). -/
def readModeAttrs : List (Text × Text) → Pipeline → Option Pipeline
  | [], p => some p
  | (k, v) :: as, p =>
    if k = t!"name" then do readModeAttrs as { p with name := ← xml2str v }
    else if k = t!"install" then do readModeAttrs as { p with install := decide ((← xml2str v) = t!"yes") }
    else if k = t!"gendebug" then do readModeAttrs as { p with debug := decide ((← xml2str v) = t!"yes") }
    else readModeAttrs as p

/-- One mode (gen_modes.cc:83-101). -/
def readMode (x : Xml) : Option Pipeline := do
  let p ← readModeAttrs x.attrs {}
  let steps ← ((x.children.filter (fun c => decide (c.name = t!"pipeline"))).flatMap (·.children)).mapM readProgram
  return { p with steps }

/-- The map from names to modes, ordered by the names. -/
abbrev Modes := List (Text × Pipeline)

/-- `modes.find(k)`. -/
def get (ms : Modes) (k : Text) : Option Pipeline := (ms.find? (fun p => decide (p.1 = k))).map (·.2)

/-- `modes[k] = v`. -/
def put (k : Text) (v : Pipeline) : Modes → Modes
  | [] => [(k, v)]
  | (k', v') :: r => if k = k' then (k, v) :: r else if k < k' then (k, v) :: (k', v') :: r else (k', v') :: put k v r

/-- `read_modes` (gen_modes.cc:81-104): of two modes with the same name the last is kept. -/
def readModes (x : Xml) : Option Modes := do
  let ps ← x.children.mapM readMode
  return ps.foldl (fun ms p => put p.name p ms) []

/-- `starts_with` (gen_modes.cc:107-110). -/
def startsWith (cmd prog : Text) : Bool := decide (cmd.take prog.length = prog)

/-- The suffixes for a command (gen_modes.cc:116-174). -/
def suffixesOf (c : Text) : List Text :=
  if startsWith c t!"cg-proc" then [t!"-disam"]
  else if startsWith c t!"apertium-tagger" then [t!"-tagger"]
  else if startsWith c t!"apertium-pretransfer" then [t!"-pretransfer"]
  else if startsWith c t!"apertium-posttransfer" then [t!"-posttransfer"]
  else if startsWith c t!"lrx-proc" then [t!"-lex", t!"-lextor"]
  else if startsWith c t!"apertium-transfer" then
    if hasSub t!" -n" c then [t!"-transfer2"] else [t!"-chunker", t!"-transfer"]
  else if startsWith c t!"apertium-interchunk" then [t!"-interchunk"]
  else if startsWith c t!"apertium-postchunk" then [t!"-postchunk"]
  else if hasSub t!"$1" c then [t!"-dgen", t!"-generador"]
  else if startsWith c t!"lt-proc" then
    if hasSub t!" -b" c then [t!"-biltrans"]
    else if hasSub t!" -p" c then [t!"-pgen"]
    else [t!"-morph"] ++ (if hasSub t!" -g" c then [] else [t!"-anmor"])
  else if startsWith c t!"hfst-proc" then [t!"-morph"] ++ (if hasSub t!" -g" c then [] else [t!"-anmor"])
  else if startsWith c t!"lsx-proc" then if hasSub t!" -p" c then [t!"-pgen"] else [t!"-autoseq"]
  else if startsWith c t!"rtx-proc" then [t!"-transfer"]
  else if startsWith c t!"apertium-anaphora" then [t!"-anaph"]
  else if startsWith c t!"apertium-extract-caps" then [t!"-decase"]
  else if startsWith c t!"apertium-restore-caps" then [t!"-recase"]
  else [t!"-NAMEME"]

/-- `set_debug_suffixes` (gen_modes.cc:112-176). -/
def setSuffixes (p : Pipeline) : Pipeline :=
  { p with steps := p.steps.map (fun s => if s.suffixes = [] then { s with suffixes := suffixesOf s.command } else s) }

/-- `cmd.replace(cmd.find("$1"), 2, "-d")`. -/
def replaceDollar : Text → Text
  | [] => []
  | c :: s => if (c :: s).take 2 = t!"$1" then t!"-d" ++ s.drop 1 else c :: replaceDollar s

/-- The command with its trace option (gen_modes.cc:183-198). -/
def traceCmd (c : Text) : Text :=
  if startsWith c t!"cg-proc" || startsWith c t!"lrx-proc" || startsWith c t!"apertium-transfer" ||
      startsWith c t!"apertium-interchunk" || startsWith c t!"apertium-postchunk" then c ++ t!" -t"
  else if startsWith c t!"rtx-proc" then c ++ t!" -r"
  else if startsWith c t!"apertium-anaphora" then c ++ t!" -d"
  else if hasSub t!"$1" c then replaceDollar c
  else c

/-- `set_trace_opt` (gen_modes.cc:178-199): the last step. -/
def setTrace : List Step → List Step
  | [] => []
  | [s] => [{ s with command := traceCmd s.command }]
  | s :: t :: r => s :: setTrace (t :: r)

/-- `rfind(".automorf.")` and `replace` (gen_modes.cc:238-241): the last occurrence. -/
def untrimArg : Text → Text
  | [] => []
  | c :: s =>
    if hasSub t!".automorf." s then c :: untrimArg s
    else if (c :: s).take 10 = t!".automorf." then t!".automorf-untrimmed." ++ s.drop 9
    else c :: s

/-- Every argument of every step (gen_modes.cc:236-243). -/
def untrim (st : List Step) : List Step := st.map (fun s => { s with args := s.args.map (fun a => (untrimArg a.1, a.2)) })

/-- The body of the inner loop (gen_modes.cc:215-247). -/
def addDebug (modeName : Text) (steps : List Step) (i : Nat) (suff : Text) (ms : Modes) : Modes :=
  let n := modeName ++ suff
  if (get ms n).isSome then ms
  else
    let st := setTrace (steps.take (i + 1))
    let ms := put n { name := n, install := false, debug := false, steps := st } ms
    let u := '@' :: n
    if (get ms u).isSome then ms
    else put u { name := u, install := false, debug := false, steps := setTrace (untrim st) } ms

/-- The loops on the steps and their suffixes, from step `i` on (gen_modes.cc:213-249). -/
def debugLoop (modeName : Text) (steps : List Step) (i : Nat) : List Step → Modes → Modes
  | [], ms => ms
  | s :: rest, ms => debugLoop modeName steps (i + 1) rest (s.suffixes.foldl (fun ms suff => addDebug modeName steps i suff ms) ms)

/-- The first loop (gen_modes.cc:203-209): the suffixes of the modes that are to be debugged are set. -/
def withSuffixes (ms : Modes) : Modes := ms.map (fun q => if q.2.debug then (q.1, setSuffixes q.2) else q)

/-- `gen_debug_modes` (gen_modes.cc:201-250).  `modes[mode_name]` is a reference, but nothing writes to the mode in the loop. -/
def genDebug (ms : Modes) : Modes :=
  let ms := withSuffixes ms
  ((ms.filter (fun q => q.2.debug)).map (·.1)).foldl
    (fun acc n => match get acc n with
      | none => acc
      | some m => debugLoop n m.steps 0 m.steps acc) ms

/-- `file_dir / name` made absolute, and `write_dir / name`. -/
structure Paths where
  absolute : Text → Text → Text
  slash : Text → Text → Text

/-- The arguments of one step (gen_modes.cc:268-274). -/
def renderArgs (P : Paths) (fileDir : Text) (args : List (Text × Bool)) : Text :=
  args.flatMap (fun a => if a.2 then t!" '" ++ P.absolute fileDir a.1 ++ t!"'" else ' ' :: a.1)

/-- The text of a mode file (gen_modes.cc:262-276). -/
def renderMode (P : Paths) (fileDir : Text) (m : Pipeline) : Text :=
  join (m.steps.map (fun s => s.command ++ renderArgs P fileDir s.args)) ++ t!"\n"

/-- `gen_modes` (gen_modes.cc:279-296): the files that are written, with their texts. -/
def genModes (P : Paths) (ms : Modes) (installDir devDir : Text) : List (Text × Text) :=
  let installing := !decide (installDir = devDir)
  let fileDir := if installing then installDir else devDir
  let writeDir := if installing then devDir else P.slash devDir t!"modes"
  (ms.filter (fun q => !(installing && !q.2.install))).map
    (fun q => (P.slash writeDir (q.2.name ++ t!".mode"), renderMode P fileDir q.2))

/-- `main` (gen_modes.cc:298-340): `xmlDir` is the directory of `modes.xml`, `prefix` the second file argument (empty if it is
not given).  `fail`: the two directories are the same; `ub`: an empty attribute. -/
def genMain (P : Paths) (full loc : Bool) (xmlDir pre : Text) (doc : Xml) : Outcome (List (Text × Text)) :=
  if full ∧ pre ≠ [] ∧ pre = xmlDir then .fail
  else
    let installDir := if full ∧ pre ≠ [] then pre else xmlDir
    let devDir := if loc then t!"." else xmlDir
    match readModes doc with
    | none => .ub
    | some ms => .ok (genModes P (genDebug ms) installDir devDir)

end Verif.GenModes
