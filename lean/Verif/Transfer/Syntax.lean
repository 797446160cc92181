import Verif.Base
/-!
# Abstract syntax of t1x / t2x / t3x rules

The C++ code interprets libxml2 trees by element name (transfer_base.cc:202-420).  Here the tree is given as
typed syntax, one constructor for each element name the code tests for, plus a constructor for any other name.
Simplification: `<equal>` and the other two-argument conditions have their two children (the DTD asks for it;
the code throws on a missing one, transfer_base.cc:205).
-/
namespace Verif.Transfer

/-- The attribute `side` of `<clip>`: `sl`, `tl`, `ref`; `other` when missing or anything else. -/
inductive Side where
  | sl | tl | ref | other
  deriving DecidableEq, Repr

/-- The expressions the DTD allows in `<get-case-from>` (transfer.dtd:425).  `pos` is the number written in
the rule (`atoi`). -/
inductive Simple where
  | clip (pos : Int) (side : Side) (part : Text) (queue : Bool) (linkTo : Text)
  | lit (v : Text)
  | var (n : Text)
  deriving DecidableEq, Repr

/-- Expressions (transfer_base.cc:202-250). -/
inductive Expr where
  | simple (e : Simple)
  | litTag (v : Text)
  | blank
  | getCaseFrom (pos : Int) (param : Simple)
  | luCount
  | caseOf (pos : Int) (side : Side) (part : Text)
  | concat (es : List Expr)
  | lu (es : List Expr)
  | mlu (lus : List (List Expr))
  | chunk (name namefrom caseVar : Text) (items : List Expr)
  /-- `<tags>`: only legal inside `<chunk>`; one list for each `<tag>`. -/
  | tags (ts : List (List Expr))
  | unknown

/-- Conditions (transfer_base.cc:375-420). -/
inductive Cond where
  | equal (caseless : Bool) (a b : Expr)
  | beginsWith (caseless : Bool) (a b : Expr)
  | endsWith (caseless : Bool) (a b : Expr)
  | containsSubstring (caseless : Bool) (a b : Expr)
  | beginsWithList (caseless : Bool) (a : Expr) (list : Text)
  | endsWithList (caseless : Bool) (a : Expr) (list : Text)
  | isIn (caseless : Bool) (a : Expr) (list : Text)
  | and (cs : List Cond)
  | or (cs : List Cond)
  | not (cs : List Cond)
  | unknown

mutual
/-- Instructions (transfer_base.cc:275-308). -/
inductive Instr where
  | choose (opts : List Opt)
  | assign (l r : Expr)
  | append (n : Text) (es : List Expr)
  | out (es : List Expr)
  | callMacro (n : Text) (args : List Int)
  | modifyCase (l r : Expr)
  | reject (shifting : Text)
  | unknown
/-- Children of `<choose>` (transfer_base.cc:331-358). -/
inductive Opt where
  | «when» (items : List WhenItem)
  | otherwise (body : List Instr)
  | unknown
/-- Children of `<when>`: `<test>` (with the list of its children) or an instruction. -/
inductive WhenItem where
  | test (cs : List Cond)
  | instr (i : Instr)
end

end Verif.Transfer
