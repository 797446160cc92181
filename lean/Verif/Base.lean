/-!
# Common vocabulary of the models

A text is a list of code points.  The end of the input is the end of the list; the C++ code sees it as
`U_EOF` (0xFFFF), see `Verif.eofChar`.  Inputs containing the noncharacter U+FFFF itself are
outside the model.
-/
namespace Verif

abbrev Text := List Char

/-- `t!"abc"` is the list `['a', 'b', 'c']`, written out when the file is read. -/
syntax:max "t!" str : term
macro_rules
  | `(t! $s:str) => do
    let cs := s.getString.toList.toArray.map Lean.Syntax.mkCharLit
    `(([$cs,*] : Text))

/-- `U_EOF`, the value `InputFile::get` returns at the end of the input (ICU's `ustdio.h`, 0xFFFF).
Some tools write it to the output when the input ends after a backslash. -/
def eofChar : Char := '\uFFFF'

/-- How a run of a C++ function ends: normally with a value, by `exit(EXIT_FAILURE)` or an exception that
nobody catches (`fail`), never (`diverge`), or by executing undefined behaviour (`ub`). -/
inductive Outcome (α : Type) where
  | ok (a : α)
  | fail
  | diverge
  | ub
  deriving DecidableEq, Repr

namespace Outcome
/-- Sequencing: anything but a normal end is final. -/
def bind {α β : Type} : Outcome α → (α → Outcome β) → Outcome β
  | ok a, f => f a
  | fail, _ => fail
  | diverge, _ => diverge
  | ub, _ => ub

def map {α β : Type} (f : α → β) : Outcome α → Outcome β
  | ok a => ok (f a)
  | fail => fail
  | diverge => diverge
  | ub => ub

instance : Monad Outcome where
  pure := ok
  bind := bind

@[simp] theorem bind_ok {α β : Type} (a : α) (f : α → Outcome β) : (ok a >>= f) = f a := rfl
@[simp] theorem bind_fail {α β : Type} (f : α → Outcome β) : ((fail : Outcome α) >>= f) = fail := rfl
@[simp] theorem bind_diverge {α β : Type} (f : α → Outcome β) : ((diverge : Outcome α) >>= f) = diverge := rfl
@[simp] theorem bind_ub {α β : Type} (f : α → Outcome β) : ((ub : Outcome α) >>= f) = ub := rfl
@[simp] theorem pure_eq {α : Type} (a : α) : (pure a : Outcome α) = ok a := rfl
@[simp] theorem map_ok {α β : Type} (f : α → β) (a : α) : map f (ok a) = ok (f a) := rfl
@[simp] theorem map_fail {α β : Type} (f : α → β) : map f (fail : Outcome α) = fail := rfl
@[simp] theorem map_diverge {α β : Type} (f : α → β) : map f (diverge : Outcome α) = diverge := rfl
@[simp] theorem map_ub {α β : Type} (f : α → β) : map f (ub : Outcome α) = ub := rfl
@[simp] theorem map_map {α β γ : Type} (f : α → β) (g : β → γ) (o : Outcome α) :
    map g (map f o) = map (g ∘ f) o := by cases o <;> rfl
end Outcome

end Verif
