import Verif.Base
/-!
# The command line of apertium-transfer

`apertium/apertium_transfer.cc`.  The arguments are given as `getopt_long` (C library) finds them: the options in order, and the other arguments (the files) in order.
What is done with the files is a list of actions; each of them may fail, and then nothing more is done.
-/
namespace Verif.TransferCli

/-- An option: `-c ARG` or `--name=ARG`; the argument is `[]` for options without one. -/
inductive Arg where
  | short (c : Char) (arg : Text := [])
  | long (name : Text) (arg : Text := [])
  deriving DecidableEq, Repr

/-- The letters of `"nbx:cwztTh"` (apertium_transfer.cc:93). -/
def shortOpts : List Char := ['n', 'b', 'x', 'c', 'w', 'z', 't', 'T', 'h']

/-- apertium_transfer.cc:79-91. -/
def longOpts : List (Text × Char) :=
  [(t!"from-bilingual", 'b'), (t!"no-bilingual", 'n'), (t!"extended", 'x'), (t!"case-sensitive", 'c'), (t!"dictionary-case", 'w'), (t!"null-flush", 'z'),
   (t!"trace", 't'), (t!"trace_att", 'T'), (t!"help", 'h')]

/-- `getopt_long`: what it returns, and `optarg`; `?` for an option that is not known.  (Abbreviated long names are left out.) -/
def Arg.val : Arg → Char × Text
  | .short c a => (if c ∈ shortOpts then c else '?', a)
  | .long n a => (((longOpts.find? fun x => decide (x.1 = n)).map (·.2)).getD '?', a)

/-- What the options set (transfer.cc:1444-1472, 899-903, transfer_base.cc:622-638). -/
structure Settings where
  pre : Bool
  bil : Bool
  case : Bool
  dict : Bool
  trace : Bool
  att : Bool
  flush : Bool
  deriving DecidableEq, Repr

/-- A new `Transfer` (transfer.h:41-48, transfer_base.h:60-63). -/
def settings0 : Settings := ⟨false, true, false, false, false, false, false⟩

/-- What the program does. -/
inductive Act where
  | ext (f : Text)
  | output (f : Text)
  | input (f : Text)
  | stat (f : Text)
  | read (t p : Text) (b : Option Text)
  | transfer (s : Settings)
  | help
  deriving DecidableEq, Repr

/-- The loop over the options (apertium_transfer.cc:77-141): what is done, and the settings, `none` after the usage message (which ends the program). -/
def readOpts : List Arg → Settings → List Act × Option Settings
  | [], s => ([], some s)
  | a :: r, s =>
    if a.val.1 = 'b' then readOpts r { s with pre := true, bil := false }
    else if a.val.1 = 'n' then readOpts r { s with bil := false }
    else if a.val.1 = 'x' then (.ext a.val.2 :: (readOpts r s).1, (readOpts r s).2)
    else if a.val.1 = 'c' then readOpts r { s with case := true }
    else if a.val.1 = 'w' then readOpts r { s with dict := true }
    else if a.val.1 = 't' then readOpts r { s with trace := true }
    else if a.val.1 = 'T' then readOpts r { s with trace := true, att := true }
    else if a.val.1 = 'z' then readOpts r { s with flush := true }
    else ([.help], none)

/-- The files (apertium_transfer.cc:143-209). -/
def files (s : Settings) : List Text → List Act
  | [t, p, b, i, o] => [.output o, .input i, .stat b, .stat p, .stat t, .read t p (some b), .transfer s]
  | [f1, f2, f3, f4] =>
    if s.bil = false ∨ s.pre = true then [.output f4, .input f3, .stat f2, .stat f1, .read f1 f2 none, .transfer s]
    else [.input f4, .stat f3, .stat f2, .stat f1, .read f1 f2 (some f3), .transfer s]
  | [f1, f2, f3] =>
    if s.bil = false ∨ s.pre = true then [.input f3, .stat f2, .stat f1, .read f1 f2 none, .transfer s]
    else [.stat f3, .stat f2, .stat f1, .read f1 f2 (some f3), .transfer s]
  | [f1, f2] =>
    if s.bil = false ∨ s.pre = true then [.stat f2, .stat f1, .read f1 f2 none, .transfer s]
    else [.help]
  | _ => [.help]

/-- The program (apertium_transfer.cc:69-213): what it does if nothing fails. -/
def plan (args : List Arg) (fs : List Text) : List Act :=
  match (readOpts args settings0).2 with
  | none => (readOpts args settings0).1
  | some s => (readOpts args settings0).1 ++ files s fs

/-- What it does if the actions succeed for which `can` is true: it ends at the first that fails. -/
def run (can : Act → Bool) (args : List Arg) (fs : List Text) : List Act := (plan args fs).takeWhile can

end Verif.TransferCli
