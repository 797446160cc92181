import Verif.Base
/-!
# Model of the command line of apertium-tagger (apertium/tagger.cc, file_tagger.cc, shell_utils.cc, tagger_flags.cc)

The arguments are given as `getopt_long` (C library) reports them: the options in order, each with its argument, and the other arguments (the files) in order.  What is done with
the files is the list of actions of the program; whether one of them fails (a file that is not there, a training that ends with an error) is left open, and the program
ends at the first that does.
-/
namespace Verif.Driver

/-- An option as it is written: `-c ARG` or `--name=ARG`; the argument is `[]` for options without one. -/
inductive Arg where
  | short (c : Char) (arg : Text := [])
  | long (name : Text) (arg : Text := [])
  deriving DecidableEq, Repr

/-- tagger.cc:63: the letters of `"bdfegmpr:s:t:u:wxz"`. -/
def shortOpts : List Char := ['b', 'd', 'f', 'e', 'g', 'm', 'p', 'r', 's', 't', 'u', 'w', 'x', 'z']

/-- tagger.cc:374-390 -/
def longOpts : List (Text × Char) :=
  [(t!"help", 'h'), (t!"sent-seg", 'b'), (t!"debug", 'd'), (t!"skip-on-error", 'e'), (t!"first", 'f'), (t!"mark", 'm'), (t!"show-superficial", 'p'), (t!"null-flush", 'z'),
   (t!"unigram", 'u'), (t!"sliding-window", 'w'), (t!"perceptron", 'x'), (t!"tagger", 'g'), (t!"retrain", 'r'), (t!"supervised", 's'), (t!"train", 't')]

/-- `getopt_long`: what it returns, and `optarg`.  An option that is not known is `?`.  Abbreviated long names, which it completes, are left out. -/
def Arg.val : Arg → Char × Text
  | .short c a => (if c ∈ shortOpts then c else '?', a)
  | .long n a => (((longOpts.find? (fun x => decide (x.1 = n))).map (·.2)).getD '?', a)

/-- tagger_flags.h:55-61 -/
inductive Flag where
  | debug | sentSeg | skipErrors | first | mark | showSuperficial | nullFlush
  deriving DecidableEq, Repr

/-- tagger.h: `FunctionTypeType` -/
inductive Kind where
  | unigram | slidingWindow | perceptron
  deriving DecidableEq, Repr

/-- tagger.h: `FunctionType` -/
inductive Func where
  | tagger | retrain | supervised | train
  deriving DecidableEq, Repr

/-- The fields of `apertium_tagger`, tagger.h. -/
structure St where
  flags : Flag → Bool
  kind : Option Kind := none
  model : Option Nat := none
  func : Option Func := none
  iters : Nat := 0

/-- tagger_flags.cc:22-24: `SentSeg` and `SkipErrors` are not initialised; what they are is `junk`. -/
def flags0 (junk : Flag → Bool) : Flag → Bool
  | .sentSeg => junk .sentSeg
  | .skipErrors => junk .skipErrors
  | _ => false

def isSpace (c : Char) : Bool := decide (c ∈ [' ', '\t', '\n', '\x0b', '\x0c', '\r'])

def isDigit (c : Char) : Bool := decide ('0' ≤ c ∧ c ≤ '9')

def ulongMax : Nat := 2 ^ 64 - 1

/-- The value of a string of digits. -/
def digitsVal (ds : List Char) : Nat := ds.foldl (fun n c => 10 * n + (c.toNat - 48)) 0

/-- `strtoul(val, &str_end, 10)` (C library): the value, the rest after the number, whether it was out of range.  `unsigned long` has 64 bits. -/
def strtoul (v : Text) : Nat × Text × Bool :=
  let s := v.dropWhile isSpace
  let (neg, r) := match s with
    | '-' :: r => (true, r)
    | '+' :: r => (false, r)
    | _ => (false, s)
  let ds := r.takeWhile isDigit
  if ds = [] then (0, v, false)
  else if digitsVal ds > ulongMax then (ulongMax, r.dropWhile isDigit, true)
  else ((if neg then (ulongMax + 1 - digitsVal ds) % (ulongMax + 1) else digitsVal ds), r.dropWhile isDigit, false)

/-- tagger.cc:492-517 -/
def parseUnsignedLong (v : Text) : Option Nat :=
  let (n, rest, range) := strtoul v
  if rest ≠ [] then none
  else if v = [] then none
  else if range then none
  else some n

/-- What the reading of the options ends with: `help`, an error message, or the fields. -/
inductive Opts where
  | help
  | error
  | done (s : St)

/-- tagger.cc:436-447 -/
def flagCase (f : Flag) (s : St) : Option St := if s.flags f then none else some { s with flags := fun g => if g = f then true else s.flags g }

/-- tagger.cc:453-465 -/
def kindCase (k : Kind) (s : St) : Option St := if s.kind.isSome then none else some { s with kind := some k }

/-- tagger.cc:467-479 -/
def funcCase (f : Func) (s : St) : Option St := if s.func.isSome then none else some { s with func := some f }

/-- tagger.cc:481-490: after `-r`, `-s`, `-t`. -/
def itersCase (arg : Text) (s : St) : Option St := (parseUnsignedLong arg).map (fun n => { s with iters := n })

/-- tagger.cc:101-129: `strncmp(optarg, "1", 1)` looks at the first letter only. -/
def unigramCase (arg : Text) (s : St) : Option St :=
  (kindCase .unigram s).bind fun s =>
    match arg with
    | '1' :: _ => some { s with model := some 1 }
    | '2' :: _ => some { s with model := some 2 }
    | '3' :: _ => some { s with model := some 3 }
    | _ => none

/-- tagger.cc:70-150: one option; `none` is an error. -/
def optionCase (v : Char) (arg : Text) (s : St) : Option St :=
  if v = 'b' then flagCase .sentSeg s
  else if v = 'd' then flagCase .debug s
  else if v = 'e' then flagCase .skipErrors s
  else if v = 'f' then flagCase .first s
  else if v = 'm' then flagCase .mark s
  else if v = 'p' then flagCase .showSuperficial s
  else if v = 'z' then flagCase .nullFlush s
  else if v = 'u' then unigramCase arg s
  else if v = 'w' then kindCase .slidingWindow s
  else if v = 'x' then kindCase .perceptron s
  else if v = 'g' then funcCase .tagger s
  else if v = 'r' then (funcCase .retrain s).bind (itersCase arg)
  else if v = 's' then (funcCase .supervised s).bind (itersCase arg)
  else if v = 't' then (funcCase .train s).bind (itersCase arg)
  else none

/-- tagger.cc:62-153: the loop. -/
def readOpts : List Arg → St → Opts
  | [], s => .done s
  | a :: as, s =>
    if a.val.1 = 'h' then .help
    else match optionCase a.val.1 a.val.2 s with
      | none => .error
      | some s => readOpts as s

/-- The algorithms a tagger file can be for. -/
inductive Algo where
  | hmm | window | unigram (model : Nat) | perceptron
  deriving DecidableEq, Repr

/-- What the program does, in order.  Each of these can fail, and then nothing more is done. -/
inductive Act where
  /-- the tagger file is opened and read -/
  | load (a : Algo) (f : Text)
  /-- the same, for a file that is found not to be a tagger of this kind -/
  | tryLoad (a : Algo) (f : Text)
  /-- the text to be tagged is opened; `none`: standard input -/
  | input (f : Option Text)
  /-- a file is opened for writing: whatever was in it is gone -/
  | create (f : Text)
  /-- the text is tagged; `none`: to standard output -/
  | tag (a : Algo) (out : Option Text)
  /-- the tagger definition is read -/
  | spec (a : Algo) (f : Text)
  /-- a file is opened for reading, to see that it is there -/
  | look (f : Text)
  /-- the ambiguity classes of a dictionary are added; `none`: of standard input -/
  | dict (f : Option Text)
  /-- the probabilities are thrown away, and memory for them is allocated (and not initialised) -/
  | reset
  /-- the probabilities are estimated from a tagged text and the same text untagged -/
  | initTagged (tagged untagged : Text)
  /-- the probabilities are estimated by Kupiec's method -/
  | initKupiec (f : Text)
  /-- so many iterations of training -/
  | iterate (f : Text) (n : Nat)
  /-- training of the other taggers; `untagged` and `n` for the perceptron only -/
  | trainStream (a : Algo) (tagged : Text) (untagged : Option Text) (n : Nat)
  /-- the tagger is written to the file that was opened, and it is closed -/
  | save (f : Text)
  deriving DecidableEq, Repr

/-- How the program goes: help, an error message before anything was done, `abort`, or the actions. -/
inductive Res where
  | help
  | error
  | abort
  | acts (l : List Act)
  deriving DecidableEq, Repr

/-- shell_utils.cc:24-40: `expect_file_arguments(actual, lower, upper)` -/
def expect (files : List Text) (lower upper : Nat) (r : Res) : Res := if files.length < lower ∨ files.length ≥ upper then .error else r

/-- `argv[optind + i]` (within the arguments, by `expect`) -/
def arg (files : List Text) (i : Nat) : Text := files.getD i []

/-- tagger.cc:569-604 (`g_StreamTagger`).  The input is opened before the output. -/
def gStream (a : Algo) (files : List Text) : Res :=
  expect files 1 4 <| .acts <|
    if files.length < 2 then [.load a (arg files 0), .input none, .tag a none]
    else if files.length < 3 then [.load a (arg files 0), .input (some (arg files 1)), .tag a none]
    else [.load a (arg files 0), .input (some (arg files 1)), .create (arg files 2), .tag a (some (arg files 2))]

/-- tagger.cc:642-662 (`g_FILE_Tagger`), file_tagger.cc:41-45.  The output is opened before the input. -/
def gFile (a : Algo) (files : List Text) : Res :=
  expect files 1 4 <| .acts <|
    if files.length < 2 then [.load a (arg files 0), .input none, .tag a none]
    else if files.length < 3 then [.load a (arg files 0), .input (some (arg files 1)), .tag a none]
    else [.load a (arg files 0), .create (arg files 2), .input (some (arg files 1)), .tag a (some (arg files 2))]

/-- tagger.cc:606-640 (`s_StreamTaggerTrainer`); `perceptron` has its definition as the fourth file. -/
def sStream (a : Algo) (iters : Nat) (files : List Text) : Res :=
  if iters ≠ 0 ∧ a ≠ .perceptron then .error
  else if a = .perceptron then
    expect files 4 5 <| .acts
      [.input (some (arg files 1)), .input (some (arg files 2)), .spec a (arg files 3), .trainStream a (arg files 1) (some (arg files 2)) iters, .create (arg files 0), .save (arg files 0)]
  else
    expect files 2 3 <| .acts [.input (some (arg files 1)), .trainStream a (arg files 1) none 0, .create (arg files 0), .save (arg files 0)]

/-- The files as `get_file_arguments` assigns them; one that is not assigned is `none`. -/
structure Files where
  dic : Option Text := none
  crp : Option Text := none
  tagged : Option Text := none
  untagged : Option Text := none
  tsx : Option Text := none
  prob : Option Text := none
  deriving DecidableEq

/-- tagger.cc:523-549 (`get_file_arguments`): the position in the arguments is threaded. -/
def getFiles (f : Func) (getCrp : Bool) (files : List Text) : Files :=
  let (i, r) : Nat × Files := (0, {})
  let (i, r) := if f ≠ .retrain then (i + 1, { r with dic := some (arg files i) }) else (i, r)
  let (i, r) := if getCrp then (i + 1, { r with crp := some (arg files i) }) else (i, r)
  let (i, r) := if f = .supervised then (i + 3, { r with tsx := some (arg files i), prob := some (arg files (i + 1)), tagged := some (arg files (i + 2)) }) else (i, r)
  let (i, r) := (i + 1, { r with untagged := some (arg files i) })
  let r := if f = .supervised ∧ getCrp = false then { r with crp := r.untagged } else r
  if f ≠ .supervised then
    let (i, r) := if f ≠ .retrain then (i + 1, { r with tsx := some (arg files i) }) else (i, r)
    { r with prob := some (arg files i) }
  else r

/-- tagger.cc:556-566 (`setup_untagged_morpho_stream`), file_tagger.cc:83-87 (`read_dictionary`), hmm.cc:416-422 and lswpost.cc:232-239 (`post_ambg_class_scan`).
`read_dictionary(NULL)` reads standard input (tagger_utils.cc:98-102: a `FileMorphoStream` on `NULL`). -/
def setup (dic : Option Text) (untagged : Text) : List Act := [.look untagged, .dict dic, .reset]

/-- tagger.cc:664-697 (`r_FILE_Tagger`) -/
def rFile (a : Algo) (iters : Nat) (files : List Text) : Res :=
  expect files 2 3 <|
    let r := getFiles .retrain false files
    let u := r.untagged.getD []
    let p := r.prob.getD []
    .acts ([.load a p] ++ setup r.dic u ++ [.iterate u iters, .create p, .save p])

/-- tagger.cc:699-735 (`s_FILE_Tagger`) -/
def sFile (a : Algo) (iters : Nat) (files : List Text) : Res :=
  (if iters = 0 then expect files 5 7 else expect files 6 7) <|
    let unsup := decide (files.length = 6)
    let r := getFiles .supervised unsup files
    let u := r.untagged.getD []
    let p := r.prob.getD []
    .acts ([.spec a (r.tsx.getD [])] ++ setup r.dic u ++ [.initTagged (r.tagged.getD []) u] ++ (if unsup then [.iterate (r.crp.getD []) iters] else []) ++ [.create p, .save p])

/-- tagger.cc:737-765 (`t_FILE_Tagger`), file_tagger.cc:47-50 -/
def tFile (a : Algo) (iters : Nat) (files : List Text) : Res :=
  expect files 4 5 <|
    let r := getFiles .train false files
    let u := r.untagged.getD []
    let p := r.prob.getD []
    .acts ([.spec a (r.tsx.getD [])] ++ setup r.dic u ++ [.initKupiec u, .iterate u iters, .create p, .save p])

/-- tagger.cc:160-290: what is done, by function and algorithm.  `isPerceptron`: the tagger file can be read as one of the averaged perceptron. -/
def dispatch (isPerceptron : Text → Bool) (s : St) (files : List Text) : Res :=
  match s.func with
  | none => .help
  | some .tagger =>
    match s.kind with
    | none =>
      if isPerceptron (arg files 0) then gStream .perceptron files
      else expect files 1 4 <|
        match gFile .hmm files with
        | .acts l => .acts (.tryLoad .perceptron (arg files 0) :: l)
        | r => r
    | some .unigram => gStream (.unigram (s.model.getD 0)) files
    | some .slidingWindow => gFile .window files
    | some .perceptron => gStream .perceptron files
  | some .retrain =>
    match s.kind with
    | none => rFile .hmm s.iters files
    | some .unigram => .error
    | some .slidingWindow => rFile .window s.iters files
    | some .perceptron => .abort
  | some .supervised =>
    match s.kind with
    | none => sFile .hmm s.iters files
    | some .unigram => sStream (.unigram (s.model.getD 0)) s.iters files
    | some .slidingWindow => .error
    | some .perceptron => sStream .perceptron s.iters files
  | some .train =>
    match s.kind with
    | none => tFile .hmm s.iters files
    | some .unigram => .error
    | some .slidingWindow => tFile .window s.iters files
    | some .perceptron => .abort

/-- tagger.cc:51-296: the whole program. -/
def run (junk : Flag → Bool) (isPerceptron : Text → Bool) (args : List Arg) (files : List Text) : Res × (Flag → Bool) :=
  match readOpts args { flags := flags0 junk } with
  | .help => (.help, flags0 junk)
  | .error => (.error, flags0 junk)
  | .done s => (dispatch isPerceptron s files, s.flags)

end Verif.Driver
