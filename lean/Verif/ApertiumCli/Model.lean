import Verif.Base
/-!
# The command line of `apertium`

The main part of `apertium/apertium-header.sh`: bash's `getopts` on the arguments as they are given, and what is decided from them.
What the translation itself does is not modelled here, only with what it is called.
-/
namespace Verif.ApertiumCli

/-- The variables (apertium-header.sh:489-499). -/
structure Vars where
  format : Text := t!"txt"
  /-- `DATADIR`; `none` is the value it has been installed with. -/
  dataDir : Option Text := none
  /-- `TRANSLATION_MEMORY_FILE`. -/
  tm : Text := []
  /-- `TRANSLATION_MEMORY_DIRECTION=$PAIR`, when `PAIR` is empty still. -/
  tmDir : Text := []
  /-- `TMXPROC_OPTIONS`. -/
  tmx : List Text := []
  /-- `UWORDS="no"`. -/
  noMarks : Bool := false
  /-- `FORMAT_OPTIONS`. -/
  fmt : List Text := []
  /-- `TF_EXTRACT_OPTIONS`. -/
  tf : List Text := []
  /-- `OPTION_TAGGER="-m"`. -/
  tagger : Bool := false
  /-- `LIST_MODES_AND_EXIT`. -/
  list : Bool := false
  /-- `NULL_FLUSH`. -/
  flush : List Text := []
  deriving DecidableEq

/-- What the program does. -/
inductive Result where
  /-- The usage message; the status is 1. -/
  | usage
  | version
  | list (dataDir : Option Text)
  /-- "Mode … does not exist". -/
  | noMode
  /-- The function `translate_…` of this name, or, if `generic`, the programs `apertium-des…` and `apertium-re…`; `option` and `tagger` are given to the programs of the mode. -/
  | translate (generic : Bool) (format : Text) (option : Text) (pair input : Text) (output : Option Text) (vars : Vars)
  deriving DecidableEq

/-- How `getopts` goes on after the letters of one argument. -/
inductive Step where
  | next (v : Vars)
  | needArg (c : Char) (v : Vars)
  | stop (r : Result)

/-- The options with an argument, of `":uahlVzf:d:m:o:snH"` (apertium-header.sh:513). -/
def withArg (c : Char) : Prop := c = 'f' ∨ c = 'd' ∨ c = 'm' ∨ c = 'o'

instance (c : Char) : Decidable (withArg c) := by unfold withArg; infer_instance

/-- An option with its argument (apertium-header.sh:515-518). -/
def setArg (c : Char) (x : Text) (v : Vars) : Vars :=
  if c = 'f' then { v with format := x }
  else if c = 'd' then { v with dataDir := some x }
  else if c = 'm' then { v with tm := x }
  else { v with tmDir := x }

/-- The letters after a `-` (apertium-header.sh:513-532; `getopts` of bash). -/
def letters : Text → Vars → Step
  | [], v => .next v
  | c :: cs, v =>
    if withArg c then (if cs = [] then .needArg c v else .next (setArg c cs v))
    else if c = 's' then letters cs { v with tmx := v.tmx ++ [t!"-s"] }
    else if c = 'u' then letters cs { v with noMarks := true }
    else if c = 'n' then letters cs { v with fmt := v.fmt ++ [t!"-n"], tf := v.tf ++ [t!"--apertium-n"] }
    else if c = 'H' then letters cs { v with fmt := v.fmt ++ [t!"-o"], tf := v.tf ++ [t!"-H"] }
    else if c = 'a' then letters cs { v with tagger := true }
    else if c = 'l' then letters cs { v with list := true }
    else if c = 'V' then .stop .version
    else if c = 'z' then letters cs { v with flush := v.flush ++ [t!"-z"] }
    else .stop .usage

/-- The `while getopts` (apertium-header.sh:513-532): the variables and the arguments that are left, or the end of the program. -/
def options : List Text → Vars → Result ⊕ (Vars × List Text)
  | [], v => .inr (v, [])
  | a :: r, v =>
    if a = t!"--" then .inr (v, r)
    else match a with
      | '-' :: c :: cs =>
        match letters (c :: cs) v with
        | .next v' => options r v'
        | .stop x => .inl x
        | .needArg o v' =>
          match r with
          | [] => .inl .usage
          | x :: r' => options r' (setArg o x v')
      | _ => .inr (v, a :: r)

/-- What is asked of the outside: files that can be read, memories that `lt-tmxcomp` compiles for a direction, modes. -/
structure World where
  readable : Text → Prop
  compiles : Text → Text → Prop
  mode : Option Text → Text → Prop

/-- The `case "$FORMAT"` (apertium-header.sh:595-744): is it done by the programs `apertium-des…`, the format, and `OPTION`.  The locale for `rtfu` is taken to be there. -/
def formatCase (f : Text) (u : Bool) : Bool × Text × Text :=
  let g := if u = true then t!"-n" else t!"-g"
  if f ∈ [t!"none", t!"txt", t!"rtf", t!"xpresstag", t!"mediawiki", t!"wxml"] then (true, f, g)
  else if f ∈ [t!"odt", t!"odp"] then (false, t!"odt", g)
  else if f ∈ [t!"latex", t!"latex-raw", t!"line", t!"docx", t!"xlsx", t!"pptx", t!"html", t!"html-noent", t!"html-alt"] then (false, f, g)
  else if f = t!"txtu" then (true, t!"txt", t!"-n")
  else if f = t!"htmlu" then (true, t!"html", t!"-n")
  else if f = t!"xpresstagu" then (true, t!"xpresstag", t!"-n")
  else if f = t!"rtfu" then (true, t!"rtf", t!"-n")
  else if f ∈ [t!"odtu", t!"odpu"] then (false, t!"odt", t!"-n")
  else if f = t!"docxu" then (false, t!"docx", t!"-n")
  else if f = t!"xlsxu" then (false, t!"xlsx", t!"-n")
  else if f = t!"pptxu" then (false, t!"pptx", t!"-n")
  else if f = t!"wxmlu" then (true, t!"wxmlu", t!"-n")
  else (true, t!"txt", t!"-g")

open Classical in
/-- After the arguments are known (apertium-header.sh:558-593).  The directory of modes is taken to be there if the mode is. -/
noncomputable def translate (w : World) (v : Vars) (pair input : Text) (output : Option Text) : Result :=
  if ¬w.readable input then .usage
  else if v.tm ≠ [] ∧ ¬w.compiles v.tmDir v.tm then .usage
  else if ¬w.mode v.dataDir pair then .noMode
  else .translate (formatCase v.format v.noMarks).1 (formatCase v.format v.noMarks).2.1 (formatCase v.format v.noMarks).2.2 pair input output v

/-- The program (apertium-header.sh:501-556): the arguments before the options are put back before the others. -/
noncomputable def run (w : World) (args : List Text) : Result :=
  match options (args.dropWhile fun a => a.head? ≠ some '-') {} with
  | .inl r => r
  | .inr (v, rest) =>
    if v.list = true then .list v.dataDir
    else match args.takeWhile (fun a => a.head? ≠ some '-') ++ rest with
      | [p] => translate w v p t!"/dev/stdin" none
      | [p, i] => translate w v p i none
      | [p, i, o] => translate w v p i (some o)
      | _ => .usage

end Verif.ApertiumCli
