import Verif.Percep.Machine
/-!
# Model of the reader of `.mtx` files

`apertium/mtx_reader.cc`: the code that is emitted for an expression.  Reading XML is not modelled: an expression is a tree.
Variables are numbered as the reader does: `for-each` number `k` of a feature or macro has slot `k`.  A call of a macro is the number of the
global that it becomes.  `<toklen>`, `<strlen>`, `<arrlen>` are left out: the reader does not step into them (mtx_reader.cc:231-245), so that
no file with them is accepted.
-/
namespace Verif.VM
open Verif.Unigram
open Verif.Percep (Tagged)

/-- The comparisons. -/
inductive Cmp where
  | lt | lte | gt | gte | eq | neq
  deriving DecidableEq, Repr

/-- Expressions.  `seq` are the operands of `and`, `or` and `addr-of-ints`. -/
inductive Expr where
  | sentlen | pathlen | tokaddr | wrdidx | wrdaddr
  | lit (i : Int)
  | add (a b : Expr)
  | gvar (k : Nat)
  | var (k : Nat)
  | seq (a b : Expr)
  | and (e : Expr)
  | or (e : Expr)
  | not (e : Expr)
  | cmp (o : Cmp) (a b : Expr)
  | streq (k : Nat) (e : Expr)
  | strin (k : Nat) (e : Expr)
  | sethasany (k : Nat) (e : Expr)
  | sethasall (k : Nat) (e : Expr)
  | addAddr (a b : Expr)
  | adjust (e : Expr)
  | clamp (e : Expr)
  | wordoid (e : Expr)
  | surf (e : Expr)
  | lem (e : Expr)
  | coarse (e : Expr)
  | join (k : Nat) (e : Expr)
  | tags (e : Expr)
  | ambgset (e : Expr)
  | wordoids (e : Expr)
  | slice (b e : Int) (x : Expr)
  | subscript (i : Nat) (x : Expr)
  | forEach (wrd : Bool) (k : Nat) (src body : Expr)
  deriving DecidableEq, Repr

/-- `emitInt` (mtx_reader.cc:72-76), for numbers that pass the assertion. -/
def intByte (i : Int) : Cell := .arg (if i < 0 then (i + 256).toNat else i.toNat)

/-- The number of operands (`operand_count`, mtx_reader.cc:186-197). -/
def operandCount : Expr → Nat
  | .seq a b => operandCount a + operandCount b
  | _ => 1

/-- The instruction of a comparison (mtx_reader.cc:489-518). -/
def Cmp.op : Cmp → Op
  | .lt => .lt
  | .lte => .lte
  | .gt => .gt
  | .gte => .gte
  | .eq => .eq
  | .neq => .neq

/-- The code of an expression: `procIntExpr` (mtx_reader.cc:199-252), `procStrArrExpr` (254-281), `tryProcSubscript` (283-296), `tryProcSlice`
(298-322), `tryProcVar` (343-425), `procStrExpr` (427-466), `procBoolExpr` (468-565), `procAddrExpr` (567-606), `procWordoidArrExpr` (608-630),
`procWordoidExpr` (632-653), `procForEach` (966-1018). -/
def compile : Expr → List Cell
  | .sentlen => [.op .sentlentok]
  | .pathlen => [.op .sentlenwrd]
  | .tokaddr => [.op .pushtokaddr]
  | .wrdidx => [.op .pushwrdaddr]
  | .wrdaddr => [.op .pushaddr]
  | .lit i => [.op .pushint, intByte i]
  | .add a b => compile a ++ compile b ++ [.op .add]
  | .gvar k => [.op .getgvar, .arg k]
  | .var k => [.op .getvar, .arg k]
  | .seq a b => compile a ++ compile b
  | .and e => compile e ++ List.replicate (operandCount e - 1) (.op .and)
  | .or e => compile e ++ List.replicate (operandCount e - 1) (.op .or)
  | .not e => compile e ++ [.op .not]
  | .cmp o a b => compile a ++ compile b ++ [.op o.op]
  | .streq k e => compile e ++ [.op .streq, .arg k]
  | .strin k e => compile e ++ [.op .strin, .arg k]
  | .sethasany k e => compile e ++ [.op .sethasany, .arg k]
  | .sethasall k e => compile e ++ [.op .sethasall, .arg k]
  | .addAddr a b => compile a ++ compile b ++ [.op .add2]
  | .adjust e => compile e ++ [.op .adjaddr]
  | .clamp e => compile e ++ [.op .clampaddr]
  | .wordoid e => compile e ++ [.op .getwrd]
  | .surf e => compile e ++ [.op .extoksurf]
  | .lem e => compile e ++ [.op .exwrdlemma]
  | .coarse e => compile e ++ [.op .exwrdcoarsetag]
  | .join k e => compile e ++ [.op .join, .arg k]
  | .tags e => compile e ++ [.op .extags]
  | .ambgset e => compile e ++ [.op .exambgset]
  | .wordoids e => compile e ++ [.op .exwrdarr]
  | .slice b e x => compile x ++ [.op .slice, intByte b, intByte e]
  | .subscript i x => compile x ++ [.op .subscript, .arg i]
  | .forEach _ k src body =>
    compile src ++ [.op .foreachinit, .op .foreach, .arg k, .arg (((compile body).length + 2) % 256)] ++ compile body ++
      [.op .endforeach, .arg ((compile body).length + 5)]

/-- The instructions of a `<feat>` (mtx_reader.cc:1020-1041), without `<inst>`; the kind of an `<out>` is that of its expression (822-845). -/
inductive Stmt where
  | pred (e : Expr)
  | outStr (e : Expr)
  | outBool (e : Expr)
  | outInt (e : Expr)
  | outMany (e : Expr)
  | forEach (k : Nat) (src : Expr) (body : Stmt)
  deriving DecidableEq, Repr

/-- The code of an instruction: `procPred` (655-663), `procOut` (822-845), `procOutMany` (847-855), `procForEach` (966-1018). -/
def Stmt.compile : Stmt → List Cell
  | .pred e => VM.compile e ++ [.op .dieiffalse]
  | .outStr e => VM.compile e ++ [.op .fcatstr]
  | .outBool e => VM.compile e ++ [.op .fcatbool]
  | .outInt e => VM.compile e ++ [.op .fcatint]
  | .outMany e => VM.compile e ++ [.op .fcatstrarr]
  | .forEach k src body =>
    VM.compile src ++ [.op .foreachinit, .op .foreach, .arg k, .arg ((body.compile.length + 2) % 256)] ++ body.compile ++
      [.op .endforeach, .arg (body.compile.length + 5)]

/-- The code of a `<feat>` (mtx_reader.cc:1107-1119). -/
def compileFeat (ss : List Stmt) : List Cell := ss.flatMap Stmt.compile

/-! ### `get_features` -/

/-- A specification: the code of the global predicate, of the globals and of the features. -/
structure Spec where
  globalPred : List Cell
  globals : List (List Cell)
  features : List (List Cell)

/-- The loop on the globals (perceptron_spec.cc:133-138). -/
def runGlobals (c : Ctx) (fuel : Nat) : List (List Cell) → List Val → Outcome (List Val)
  | [], done => .ok done
  | g :: gs, done => (runValue { c with globals := done } g fuel (.start [])).bind (fun v => runGlobals c fuel gs (done ++ [v]))

/-- The loop on the features (perceptron_spec.cc:139-157): the first part of a key is the number of the feature, as a character. -/
def runFeatures (c : Ctx) (fuel : Nat) : Nat → List (List Cell) → Outcome (List Key)
  | _, [] => .ok []
  | i, f :: fs => (runFeature c f fuel (.start [[[i % 256]]])).bind (fun ks => (runFeatures c fuel (i + 1) fs).map (fun r => ks ++ r))

/-- `get_features` (perceptron_spec.cc:107-158).  (An exception of the kind `VMError` in the global predicate means no features; the
reader's code does not throw it, so that it is not told from other failures here.) -/
def getFeatures (c : Ctx) (fuel : Nat) (s : Spec) : Outcome (List Key) :=
  let rest := (runGlobals c fuel s.globals []).bind (fun gs => runFeatures { c with globals := gs } fuel 0 s.features)
  if s.globalPred = [] then rest
  else
    (runValue { c with globals := [] } s.globalPred fuel (.start [])).bind (fun v =>
      match v with
      | .bool true => rest
      | .bool false => .ok []
      | _ => .fail)

end Verif.VM
