import Verif.TransferCli.Model
/-!
# C99: the usage message of apertium-transfer

From the model the types are used, and `Arg.val` (which letter does an option stand for?).
-/
namespace Verif.TransferCli

/-- The letter `c` is among the options. -/
def Has (args : List Arg) (c : Char) : Prop := ∃ a ∈ args, a.val.1 = c

instance (args : List Arg) (c : Char) : Decidable (Has args c) := by unfold Has; infer_instance

/-- Only options of the usage message, and not `-h`. -/
def Known (args : List Arg) : Prop := ∀ a ∈ args, a.val.1 ∈ ['b', 'n', 'x', 'c', 'w', 't', 'T', 'z']

/-- What the options mean: `-b` input from lexical transfer, `-n` don't use the bilingual dictionary, … -/
def meaning (args : List Arg) : Settings :=
  { pre := decide (Has args 'b'), bil := decide (¬ Has args 'b' ∧ ¬ Has args 'n'), case := decide (Has args 'c'), dict := decide (Has args 'w'),
    trace := decide (Has args 't' ∨ Has args 'T'), att := decide (Has args 'T'), flush := decide (Has args 'z') }

/-- The user dictionaries of the options. -/
def dictionaries (args : List Arg) : List Text := (args.filter fun a => a.val.1 = 'x').map fun a => a.val.2

/-- The files that are named: the rules, their preprocessed form, the bilingual dictionary unless `-b` or `-n` is given, and perhaps the input and the output. -/
structure Files where
  trules : Text
  preproc : Text
  biltrans : Option Text
  input : Option Text
  output : Option Text

/-- They are written in this order; there is no output without input. -/
def Files.written (f : Files) : List Text := [f.trules, f.preproc] ++ f.biltrans.toList ++ f.input.toList ++ f.output.toList

/-- As the usage message says. -/
def Files.Right (f : Files) (args : List Arg) : Prop := (f.biltrans = none ↔ Has args 'b' ∨ Has args 'n') ∧ (f.input = none → f.output = none)

end Verif.TransferCli
