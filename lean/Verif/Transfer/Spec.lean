import Verif.Transfer.Model
/-!
# Specification of conditions (independent of the interpreter)
-/
namespace Verif.Transfer

mutual
/-- What a condition means, given the values of the expressions, the lower-case function and the lists.
`caseless` compares the lower-case forms. -/
def Cond.holds (val : Expr → Text) (lower : Text → Text) (list : Text → List Text) : Cond → Prop
  | .equal false a b => val a = val b
  | .equal true a b => lower (val a) = lower (val b)
  | .beginsWith false a b => val b <+: val a
  | .beginsWith true a b => lower (val b) <+: lower (val a)
  | .endsWith false a b => val b <:+ val a
  | .endsWith true a b => lower (val b) <:+ lower (val a)
  | .containsSubstring false a b => val b <:+: val a
  | .containsSubstring true a b => lower (val b) <:+: lower (val a)
  | .beginsWithList false a l => ∃ x ∈ list l, x <+: val a
  | .beginsWithList true a l => ∃ x ∈ list l, lower x <+: lower (val a)
  | .endsWithList false a l => ∃ x ∈ list l, x <:+ val a
  | .endsWithList true a l => ∃ x ∈ list l, lower x <:+ lower (val a)
  | .isIn false a l => val a ∈ list l
  | .isIn true a l => ∃ x ∈ list l, lower x = lower (val a)
  | .and cs => Cond.holdsAll val lower list cs
  | .or cs => Cond.holdsAny val lower list cs
  | .not [c] => ¬ Cond.holds val lower list c
  | .not _ => False
  | .unknown => False
def Cond.holdsAll (val : Expr → Text) (lower : Text → Text) (list : Text → List Text) : List Cond → Prop
  | [] => True
  | c :: cs => Cond.holds val lower list c ∧ Cond.holdsAll val lower list cs
def Cond.holdsAny (val : Expr → Text) (lower : Text → Text) (list : Text → List Text) : List Cond → Prop
  | [] => False
  | c :: cs => Cond.holds val lower list c ∨ Cond.holdsAny val lower list cs
end

theorem Cond.holdsAll_iff (val : Expr → Text) (lower : Text → Text) (list : Text → List Text) (cs : List Cond) :
    Cond.holdsAll val lower list cs ↔ ∀ c ∈ cs, Cond.holds val lower list c := by
  induction cs with
  | nil => simp [Cond.holdsAll]
  | cons c cs ih => simp [Cond.holdsAll, ih]

theorem Cond.holdsAny_iff (val : Expr → Text) (lower : Text → Text) (list : Text → List Text) (cs : List Cond) :
    Cond.holdsAny val lower list cs ↔ ∃ c ∈ cs, Cond.holds val lower list c := by
  induction cs with
  | nil => simp [Cond.holdsAny]
  | cons c cs ih => simp [Cond.holdsAny, ih]

mutual
/-- The expressions of a condition, and whether each `<not>` has exactly one condition in it (as the DTD asks). -/
def Cond.exprs : Cond → List Expr
  | .equal _ a b => [a, b]
  | .beginsWith _ a b => [a, b]
  | .endsWith _ a b => [a, b]
  | .containsSubstring _ a b => [a, b]
  | .beginsWithList _ a _ => [a]
  | .endsWithList _ a _ => [a]
  | .isIn _ a _ => [a]
  | .and cs => Cond.exprsL cs
  | .or cs => Cond.exprsL cs
  | .not cs => Cond.exprsL cs
  | .unknown => []
def Cond.exprsL : List Cond → List Expr
  | [] => []
  | c :: cs => Cond.exprs c ++ Cond.exprsL cs
end

mutual
/-- Every `<not>` has one child (transfer.dtd:225). -/
def Cond.wf : Cond → Prop
  | .and cs => Cond.wfL cs
  | .or cs => Cond.wfL cs
  | .not cs => cs.length = 1 ∧ Cond.wfL cs
  | _ => True
def Cond.wfL : List Cond → Prop
  | [] => True
  | c :: cs => Cond.wf c ∧ Cond.wfL cs
end

/-- The blanks occur in the text, one after the other, in this order. -/
def InOrder : List Text → Text → Prop
  | [], _ => True
  | b :: bs, t => ∃ pre post, t = pre ++ b ++ post ∧ InOrder bs post

end Verif.Transfer
