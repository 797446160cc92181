import Verif.Percep.Beam
/-!
# Model of the virtual machine of the perceptron tagger

`apertium/perceptron_spec.cc`: the machine that runs feature templates, for the instructions that the reader of
`.mtx` files emits for expressions (`mtx_reader.cc`; not those that only `<inst>` can ask for).  Strings are the byte strings
of the machine; the conversion to UTF-8 and the coarse tag of a wordoid are parameters.  Assertions are on, as in the default build: a failed assertion,
like an exception, is `fail`.  Integers do not overflow.
-/
namespace Verif.VM
open Verif.Unigram
open Verif.Percep (Tagged)

/-- `std::string`. -/
abbrev Str := List Nat

/-- `StackValue` (perceptron_spec.h:164-355). -/
inductive Val where
  | int (i : Int)
  | bool (b : Bool)
  | str (s : Str)
  | strs (l : List Str)
  | wrd (m : Morpheme)
  | wrds (l : List Morpheme)
  deriving DecidableEq, Repr

/-- `Opcode` (perceptron_spec.h:38-149), without the instructions named above. -/
inductive Op where
  | or | and | not | add | add2 | pushint | lt | lte | gt | gte | eq | neq
  | dieiffalse | foreachinit | foreach | endforeach | getgvar | getvar
  | streq | strin | pushtokaddr | pushwrdaddr | pushaddr | adjaddr | clampaddr
  | getwrd | extoksurf | exwrdlemma | exwrdcoarsetag | exambgset | extags | sentlentok | sentlenwrd
  | exwrdarr | sethasany | sethasall | slice | subscript | join
  | fcatstrarr | fcatstr | fcatbool | fcatint
  deriving DecidableEq, Repr

/-- A byte of a `FeatureDefn`: an instruction or an operand.  (Which of the two a byte is is known to the reader and to the
machine by its place only.) -/
inductive Cell where
  | op (o : Op)
  | arg (n : Nat)
  deriving DecidableEq, Repr

/-- What a run does not change: the sentence, the position, the constants and globals of the specification. `leftFirst` is the
order in which the compiler of the machine has the operands of a comparison evaluated, which C++ leaves open. -/
structure Ctx where
  tagged : Tagged
  untagged : List LexicalUnit
  tok : Int
  wrd : Int
  strConsts : List Str
  setConsts : List (List Str)
  globals : List Val
  enc : Text → Str
  coarsen : Morpheme → Str
  leftFirst : Bool

/-- `LoopState` (perceptron_spec.h:446-451). -/
structure Loop where
  initial : Nat
  iterable : Val
  iteration : Nat
  acc : Val
  deriving DecidableEq, Repr

/-- `FeatureKey`. -/
abbrev Key := List Str

/-- The changing part of a `Machine`; a slot without a value is an uninitialised `StackValue`. -/
structure State where
  pc : Nat
  stack : List Val
  loops : List Loop
  slots : List (Option Val)
  feats : List Key
  deriving DecidableEq, Repr

/-! ### Addresses and fetching -/

/-- The sentinels (perceptron_spec.cc:60-97). -/
def sentinel (lem tag : Text) : Morpheme := ⟨lem, [tag]⟩
def untaggedSentinel : List Morpheme := [sentinel "!UNTAGGED!".toList "!UT!".toList]
def underflowWrd : Morpheme := sentinel "!TOK_UNDERFLOW!".toList "!TUF!".toList
def overflowWrd : Morpheme := sentinel "!TOK_OVERFLOW!".toList "!TOF!".toList
def underflowTok : LexicalUnit := ⟨"!SURF_UNDERFLOW!".toList, [⟨[underflowWrd]⟩]⟩
def overflowTok : LexicalUnit := ⟨"!SURF_OVERFLOW!".toList, [⟨[overflowWrd]⟩]⟩

/-- `get_token` (perceptron_spec.cc:205-215). -/
def getToken (c : Ctx) (i : Int) : LexicalUnit :=
  if i < 0 then underflowTok else (c.untagged[i.toNat]?).getD overflowTok

/-- `tagged_to_wordoids` (perceptron_spec.cc:217-224). -/
def toWordoids : Option Analysis → List Morpheme
  | none => untaggedSentinel
  | some a => a.morphemes

/-- `get_wordoid` (perceptron_spec.cc:226-247). -/
def getWordoid (c : Ctx) (t w : Int) : Morpheme :=
  if t < 0 then underflowWrd
  else match c.tagged[t.toNat]? with
    | none => overflowWrd
    | some x => if w < 0 then underflowWrd else ((toWordoids x)[w.toNat]?).getD overflowWrd

/-- The number of wordoids of the token `t`. -/
def wrdLen (l : Tagged) (t : Nat) : Int := (((l[t]?).map (fun x => ((toWordoids x).length : Int))).getD 0)

/-- The first loop of `ADJADDR` (perceptron_spec.cc:456-460); `t` is the token. -/
def adjDown (l : Tagged) : Nat → Int → Nat × Int
  | 0, w => (0, w)
  | t + 1, w => if w < 0 then adjDown l t (w + wrdLen l t) else (t + 1, w)

/-- The second loop (perceptron_spec.cc:461-466); `n` is the number of tokens after `t`. -/
def adjUp (l : Tagged) : Nat → Nat → Int → Nat × Int
  | 0, t, w => (t, w)
  | n + 1, t, w => if wrdLen l t ≤ w then adjUp l n (t + 1) (w - wrdLen l t) else (t, w)

/-- `ADJADDR` (perceptron_spec.cc:449-470). -/
def adjAddr (l : Tagged) (t w : Int) : Int × Int :=
  if 0 ≤ t ∧ t < l.length then
    let d := adjDown l t.toNat w
    let u := adjUp l (l.length - 1 - d.1) d.1 d.2
    ((u.1 : Int), u.2)
  else (t, w)

/-- `clamp` (perceptron_spec.cc:264-267). -/
def clamp (lower upper x : Int) : Int := min (max x lower) upper

/-- `CLAMPADDR` (perceptron_spec.cc:471-479); undefined without tagged tokens. -/
def clampAddr (l : Tagged) (t w : Int) : Int × Int :=
  let t := clamp 0 ((l.length : Int) - 1) t
  (t, clamp 0 (wrdLen l t.toNat - 1) w)

/-- `EXWRDARR` (perceptron_spec.cc:562-571). -/
def wordoidsAt (c : Ctx) (t : Int) : List Morpheme :=
  if t < 0 then [underflowWrd]
  else match c.tagged[t.toNat]? with
    | none => [overflowWrd]
    | some x => toWordoids x

/-- The loop of `EXAMBGSET` for one analysis (perceptron_spec.cc:508-518); undefined without wordoids. -/
def ambgTag (c : Ctx) : List Morpheme → Str
  | [] => []
  | [m] => c.coarsen m
  | m :: ms => c.coarsen m ++ [43] ++ ambgTag c ms

/-- `slice` (perceptron_spec.cc:269-281). -/
def sliceList {α : Type} (l : List α) (b e : Int) : Option (List α) :=
  let n : Int := l.length
  let b := if b < 0 then n + b else b
  let e := if e ≤ 0 then n + e else e
  let b := clamp 0 (n - 1) b
  let e := clamp 0 n e
  if 0 ≤ b ∧ b ≤ e then some ((l.take e.toNat).drop b.toNat) else none

/-- `subscript` (perceptron_spec.cc:283-290), for an index that is not negative. -/
def subscriptList {α : Type} (l : List α) (i : Nat) : Option α := l[min i (l.length - 1)]?

/-- `JOIN` (perceptron_spec.cc:646-657): a separator before each string once the result is not empty. -/
def joinLoop (sep : Str) : Str → List Str → Str
  | r, [] => r
  | r, x :: xs => joinLoop sep ((if r = [] then r else r ++ sep) ++ x) xs

/-- `get_str_operand` (perceptron_spec.cc:178-185): 255 is the string ".". -/
def strOperand (c : Ctx) (n : Nat) : Option Str := if n = 255 then some [46] else c.strConsts[n]?

/-- `get_int_operand` (perceptron_spec.cc:192-195). -/
def toInt8 (n : Nat) : Int := if n < 128 then n else (n : Int) - 256

/-- A number as decimal digits (`FCATINT`). -/
def intStr (i : Int) : Str := (toString i).toList.map Char.toNat

/-! ### Instructions -/

/-- The number of operands. -/
def Op.operands : Op → Nat
  | .pushint | .endforeach | .getgvar | .getvar | .streq | .strin | .sethasany | .sethasall | .subscript | .join => 1
  | .foreach | .slice => 2
  | _ => 0

/-- The next instruction, with a new stack. -/
def State.next (s : State) (o : Op) (stack : List Val) : Outcome (Option State) :=
  .ok (some { s with pc := s.pc + 1 + o.operands, stack := stack })

/-- The two operands of a comparison, in the order in which they are compared: both pop the stack. -/
def ordered (c : Ctx) (first second : Int) : Int × Int := if c.leftFirst then (first, second) else (second, first)

/-- `execCommonOp` and the switch of `getFeature` (perceptron_spec.cc:305-663, 671-713).  `a` and `b` are the bytes that follow. `ok none`:
the features are thrown away and the run is over. -/
def exec (c : Ctx) (o : Op) (a b : Nat) (s : State) : Outcome (Option State) :=
  match o, s.stack with
  -- a bool is popped; the second one only if it matters
  | .or, .bool x :: st =>
    if x then s.next o (.bool true :: st)
    else match st with
      | .bool y :: st => s.next o (.bool y :: st)
      | _ => .fail
  | .and, .bool x :: st =>
    if x then
      match st with
      | .bool y :: st => s.next o (.bool y :: st)
      | _ => .fail
    else s.next o (.bool false :: st)
  | .not, .bool x :: st => s.next o (.bool (!x) :: st)
  | .add, .int x :: .int y :: st => s.next o (.int (x + y) :: st)
  | .add2, .int b2 :: .int b1 :: .int a2 :: .int a1 :: st => s.next o (.int (a2 + b2) :: .int (a1 + b1) :: st)
  | .pushint, st => s.next o (.int (toInt8 a) :: st)
  | .lt, .int x :: .int y :: st => s.next o (.bool (decide ((ordered c x y).1 < (ordered c x y).2)) :: st)
  | .lte, .int x :: .int y :: st => s.next o (.bool (decide ((ordered c x y).1 ≤ (ordered c x y).2)) :: st)
  | .gt, .int x :: .int y :: st => s.next o (.bool (decide ((ordered c x y).2 < (ordered c x y).1)) :: st)
  | .gte, .int x :: .int y :: st => s.next o (.bool (decide ((ordered c x y).2 ≤ (ordered c x y).1)) :: st)
  | .eq, .int x :: .int y :: st => s.next o (.bool (decide (x = y)) :: st)
  | .neq, .int x :: .int y :: st => s.next o (.bool (decide (x ≠ y)) :: st)
  | .dieiffalse, .bool x :: st => if x then s.next o st else .ok none
  -- loops (perceptron_spec.cc:366-425)
  | .foreachinit, x :: st =>
    .ok (some { s with pc := s.pc + 1, stack := st, loops := ⟨st.length, x, 0, .int 0⟩ :: s.loops })
  | .foreach, st =>
    match s.loops with
    | [] => .ub
    | l :: ls =>
      match l.iterable with
      | .strs xs =>
        if l.iteration = xs.length then .ok (some { s with pc := s.pc + 3 + b, stack := l.acc :: st, loops := ls })
        else match xs[l.iteration]? with
          | none => .ub
          | some x => .ok (some { s with pc := s.pc + 3, slots := (s.slots ++ List.replicate (a + 1 - s.slots.length) none).set a (some (.str x)) })
      | .wrds xs =>
        if l.iteration = xs.length then .ok (some { s with pc := s.pc + 3 + b, stack := l.acc :: st, loops := ls })
        else match xs[l.iteration]? with
          | none => .ub
          | some x => .ok (some { s with pc := s.pc + 3, slots := (s.slots ++ List.replicate (a + 1 - s.slots.length) none).set a (some (.wrd x)) })
      | _ => .fail
  | .endforeach, st =>
    match s.loops with
    | [] => .ub
    | l :: ls =>
      if l.initial < st.length then
        match st with
        | .wrd m :: st =>
          match (if l.iteration = 0 then .wrds [] else l.acc) with
          | .wrds ms => .ok (some { s with pc := s.pc + 2 - a, stack := st, loops := { l with iteration := l.iteration + 1, acc := .wrds (ms ++ [m]) } :: ls })
          | _ => .fail
        | .str x :: st =>
          match (if l.iteration = 0 then .strs [] else l.acc) with
          | .strs xs => .ok (some { s with pc := s.pc + 2 - a, stack := st, loops := { l with iteration := l.iteration + 1, acc := .strs (xs ++ [x]) } :: ls })
          | _ => .fail
        | _ => .fail
      else .ok (some { s with pc := s.pc + 2 - a })
  | .getgvar, st =>
    match c.globals[a]? with
    | none => .ub
    | some v => s.next o (v :: st)
  | .getvar, st =>
    match s.slots[a]? with
    | some (some v) => s.next o (v :: st)
    | _ => .ub
  | .streq, .str x :: st =>
    match strOperand c a with
    | none => .ub
    | some y => s.next o (.bool (decide (y = x)) :: st)
  | .strin, .str x :: st =>
    match c.setConsts[a]? with
    | none => .ub
    | some y => s.next o (.bool (decide (x ∈ y)) :: st)
  | .pushtokaddr, st => s.next o (.int c.tok :: st)
  | .pushwrdaddr, st => s.next o (.int c.wrd :: st)
  | .pushaddr, st => s.next o (.int c.wrd :: .int c.tok :: st)
  | .adjaddr, .int w :: .int t :: st => s.next o (.int (adjAddr c.tagged t w).2 :: .int (adjAddr c.tagged t w).1 :: st)
  | .clampaddr, .int w :: .int t :: st =>
    if c.tagged = [] then .ub else s.next o (.int (clampAddr c.tagged t w).2 :: .int (clampAddr c.tagged t w).1 :: st)
  | .getwrd, .int w :: .int t :: st => s.next o (.wrd (getWordoid c t w) :: st)
  | .extoksurf, .int t :: st => s.next o (.str (c.enc (getToken c t).surface) :: st)
  | .exwrdlemma, .wrd m :: st => s.next o (.str (c.enc m.lemma) :: st)
  | .exwrdcoarsetag, .wrd m :: st => s.next o (.str (c.coarsen m) :: st)
  | .exambgset, .int t :: st =>
    if ∃ an ∈ (getToken c t).analyses, an.morphemes = [] then .ub
    else s.next o (.strs ((getToken c t).analyses.map (fun an => ambgTag c an.morphemes)) :: st)
  | .extags, .wrd m :: st => s.next o (.strs (m.tags.map c.enc) :: st)
  | .sentlentok, st => s.next o (.int c.untagged.length :: st)
  | .exwrdarr, .int t :: st => s.next o (.wrds (wordoidsAt c t) :: st)
  | .sethasany, .strs l :: st =>
    match c.setConsts[a]? with
    | none => .ub
    | some y => s.next o (.bool (l.any (fun x => decide (x ∈ y))) :: st)
  | .sethasall, .strs l :: st =>
    match c.setConsts[a]? with
    | none => .ub
    | some y => s.next o (.bool (l.all (fun x => decide (x ∈ y))) :: st)
  | .slice, .str x :: st =>
    match sliceList x (toInt8 a) (toInt8 b) with
    | none => .ub
    | some y => s.next o (.str y :: st)
  | .slice, .strs x :: st =>
    match sliceList x (toInt8 a) (toInt8 b) with
    | none => .ub
    | some y => s.next o (.strs y :: st)
  | .slice, .wrds x :: st =>
    match sliceList x (toInt8 a) (toInt8 b) with
    | none => .ub
    | some y => s.next o (.wrds y :: st)
  | .slice, v :: st => s.next o (v :: st)
  | .subscript, .strs x :: st =>
    match subscriptList x a with
    | none => .ub
    | some y => s.next o (.str y :: st)
  | .subscript, .wrds x :: st =>
    match subscriptList x a with
    | none => .ub
    | some y => s.next o (.wrd y :: st)
  | .subscript, v :: st => s.next o (v :: st)
  | .join, .strs l :: st =>
    match strOperand c a with
    | none => .ub
    | some sep => s.next o (.str (joinLoop sep [] l) :: st)
  | .fcatstrarr, .strs l :: st =>
    if l = [] then .ok none
    else .ok (some { s with pc := s.pc + 1, stack := st, feats := l.flatMap (fun x => s.feats.map (fun k => k ++ [x])) })
  | .fcatstr, .str x :: st => .ok (some { s with pc := s.pc + 1, stack := st, feats := s.feats.map (fun k => k ++ [x]) })
  | .fcatbool, .bool x :: st =>
    .ok (some { s with pc := s.pc + 1, stack := st, feats := s.feats.map (fun k => k ++ [if x then [116] else [102]]) })
  | .fcatint, .int i :: st => .ok (some { s with pc := s.pc + 1, stack := st, feats := s.feats.map (fun k => k ++ [intStr i]) })
  -- an empty stack, a value of another type, `SENTLENWRD`
  | _, _ => .fail

/-- The byte at an address, if it is an operand. -/
def argAt (code : List Cell) (i : Nat) : Option Nat :=
  match code[i]? with
  | some (.arg n) => some n
  | _ => none

/-- One round of the loop of `getFeature` (perceptron_spec.cc:666-713) for the instruction at `pc`. -/
def step (c : Ctx) (code : List Cell) (s : State) : Outcome (Option State) :=
  match code[s.pc]? with
  | some (.op o) =>
    match o.operands, argAt code (s.pc + 1), argAt code (s.pc + 2) with
    | 0, _, _ => exec c o 0 0 s
    | 1, some a, _ => exec c o a 0 s
    | 2, some a, some b => exec c o a b s
    | _, _, _ => .ub
  | _ => .ub

/-- The loop of `getFeature`, at most `fuel` rounds, and its end (perceptron_spec.cc:714). -/
def runFeature (c : Ctx) (code : List Cell) : Nat → State → Outcome (List Key)
  | 0, _ => .diverge
  | n + 1, s =>
    if s.pc = code.length then (if s.stack = [] then .ok s.feats else .fail)
    else
      match step c code s with
      | .ok (some s') => runFeature c code n s'
      | .ok none => .ok []
      | .fail => .fail
      | .diverge => .diverge
      | .ub => .ub

/-- The instructions that `getValue` does not have. -/
def Op.isFeature : Op → Bool
  | .dieiffalse | .fcatstrarr | .fcatstr | .fcatbool | .fcatint => true
  | _ => false

/-- `getValue` (perceptron_spec.cc:717-733). -/
def runValue (c : Ctx) (code : List Cell) : Nat → State → Outcome Val
  | 0, _ => .diverge
  | n + 1, s =>
    if s.pc = code.length then
      (match s.stack with
        | [v] => .ok v
        | _ => .fail)
    else if (match code[s.pc]? with | some (.op o) => o.isFeature | _ => false) then .fail
    else
      match step c code s with
      | .ok (some s') => runValue c code n s'
      | .ok none => .fail
      | .fail => .fail
      | .diverge => .diverge
      | .ub => .ub

/-- A new machine. -/
def State.start (feats : List Key) : State := ⟨0, [], [], [], feats⟩

end Verif.VM
