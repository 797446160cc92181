import Verif.Caps.Restore
/-!
# Model of apertium-compile-caps and of the use of its output

`apertium/caps_compiler.cc` (the compilation of the rules) and `apertium/caps_restorer.cc` (the steps in the transducer).

lttoolbox (not in the repository) is assumed to do the following:

* `Transducer::insertSingleTransduction(a, p)`: the target of the edge from `p` with the label `a`, which is made with a new state if there is
  none; `insertNewSingleTransduction(a, p)` makes a new state and an edge to it in every case.  `linkStates(p, q, a)` adds an edge, unless there is one.
  `insertTransducer(p, t)` adds a copy of `t` below `p`, whose final state is the result.  `optional()` adds the empty sequence.
* `minimize` is a parameter; what is assumed of it (`Minimal`, in the specification) is stated at the theorems.
* `State` is a list of nodes with the output on the way to them.  `step` follows the labels given, then those without input; `step_optional`
  also keeps the old states; `merge` adds states.  `filterFinalsLRX` cuts the output of the final states at `<$>`: the last part is the rule, the
  others (if not empty) are the marks.
* `Alphabet::tokenize`: the code points of the text and its tags; after a backslash, the next character is taken as it is.  A tag which is not in
  the alphabet is 0.

The XML reader is not modelled: rules are given as trees.
-/
namespace Verif.Crx
open Verif.Caps (Mark Auto)

/-- Labels of the input side: code points (in the compiler: UTF-16 code units) and tags, by their text with the brackets. -/
inductive Sym where
  | chr (n : Nat)
  | tag (t : Text)
  deriving DecidableEq, Repr

/-- `any_tag` and so on (caps_compiler.cc:60-65, caps_restorer.cc:18-24). -/
def anyTag : Sym := .tag t!"<ANY_TAG>"
def anyChar : Sym := .tag t!"<ANY_CHAR>"
def anyUpper : Sym := .tag t!"<ANY_UPPER>"
def anyLower : Sym := .tag t!"<ANY_LOWER>"
def wordBoundary : Sym := .tag t!"<$>"
def nullBoundary : Sym := .tag t!"<$$>"

/-- Labels: `s:0`, `<$>:<$>`, `0:<AA>` and so on, `0:<n>` (caps_compiler.cc:60-71, 122).  The label `0:0` is `none` below. -/
inductive Lab where
  | inp (s : Sym)
  | bound
  | mark (m : Mark)
  | rule (n : Nat)
  deriving DecidableEq, Repr

/-- An edge: source, label (`none` is the empty one, 0), target. -/
abbrev Edge := Nat × Option Lab × Nat

/-- `Transducer` (lttoolbox).  The states are the numbers below `next`. -/
structure Trans where
  initial : Nat := 0
  next : Nat := 1
  edges : List Edge := []
  finals : List Nat := []
  deriving DecidableEq, Repr

/-- `insertSingleTransduction`. -/
def insertSingle (a : Lab) (x : Trans × Nat) : Trans × Nat :=
  match x.1.edges.find? (fun e => decide (e.1 = x.2 ∧ e.2.1 = some a)) with
  | some e => (x.1, e.2.2)
  | none => ({ x.1 with next := x.1.next + 1, edges := x.1.edges ++ [(x.2, some a, x.1.next)] }, x.1.next)

/-- `insertNewSingleTransduction(0, p)`. -/
def insertNew (x : Trans × Nat) : Trans × Nat :=
  ({ x.1 with next := x.1.next + 1, edges := x.1.edges ++ [(x.2, none, x.1.next)] }, x.1.next)

/-- `linkStates(p, q, a)`. -/
def link (t : Trans) (p q : Nat) (a : Option Lab) : Trans :=
  if (p, a, q) ∈ t.edges then t else { t with edges := t.edges ++ [(p, a, q)] }

/-- `setFinal(q)`. -/
def setFinal (x : Trans × Nat) : Trans := { x.1 with finals := x.2 :: x.1.finals }

/-- A copy with other numbers. -/
def shift (k : Nat) (e : Edge) : Edge := (e.1 + k, e.2.1, e.2.2 + k)

/-- `insertTransducer(p, c)`.  Here `c` has one final state (caps_compiler.cc:278); otherwise the model ends with an error. -/
def insertTrans (c : Trans) (x : Trans × Nat) : Option (Trans × Nat) :=
  match c.finals with
  | [f] => some ({ x.1 with
      next := x.1.next + c.next
      edges := x.1.edges ++ (x.2, none, c.initial + x.1.next) :: c.edges.map (shift x.1.next) }, f + x.1.next)
  | _ => none

/-- `optional()`.  Here the transducer has one final state. -/
def optional (c : Trans) : Option Trans :=
  match c.finals with
  | [f] => some {
      initial := c.next
      next := c.next + 2
      edges := c.edges ++ [(c.next, none, c.initial), (f, none, c.next + 1), (c.next, none, c.next + 1)]
      finals := [c.next + 1] }
  | _ => none

/-! ## The compiler -/

/-- The UTF-16 code units of a character. -/
def units (c : Char) : List Nat :=
  if c.toNat < 0x10000 then [c.toNat] else [0xD800 + (c.toNat - 0x10000) / 0x400, 0xDC00 + (c.toNat - 0x10000) % 0x400]

/-- `add_loop` (caps_compiler.cc:147-153). -/
def addLoop (a : Sym) (x : Trans × Nat) : Trans × Nat :=
  let y := insertSingle (.inp a) x
  (link y.1 y.2 y.2 (some (.inp a)), y.2)

/-- One round of the loop in `compile_caps_specifier` (caps_compiler.cc:158-168); `upper` is ICU's `u_isupper`. -/
def capsUnit (upper : Nat → Bool) (n : Nat) (x : Trans × Nat) : Trans × Nat :=
  if n = '*'.toNat then addLoop anyChar x
  else if n = ' '.toNat then addLoop (.chr n) x
  else if upper n = true then addLoop anyUpper x
  else addLoop anyLower x

/-- `compile_caps_specifier` (caps_compiler.cc:155-170). -/
def capsSpec (upper : Nat → Bool) (s : Text) (x : Trans × Nat) : Trans × Nat := (s.flatMap units).foldl (fun x n => capsUnit upper n x) x

/-- One round of the loop over `lemma` or `surface` (caps_compiler.cc:199-205, 230-236). -/
def globUnit (n : Nat) (x : Trans × Nat) : Trans × Nat :=
  if n = '*'.toNat then addLoop anyChar x else insertSingle (.inp (.chr n)) x

/-- The loop over `lemma` or `surface` (caps_compiler.cc:199-205, 230-236). -/
def globText (s : Text) (x : Trans × Nat) : Trans × Nat := (s.flatMap units).foldl (fun x n => globUnit n x) x

/-- One round of the loop over the tags (caps_compiler.cc:208-224). -/
def tagItem (t : Text) (x : Trans × Nat) : Trans × Nat :=
  if t = t!"+" then addLoop anyTag x
  else if t = t!"*" then
    let y := insertNew x
    (link y.1 y.2 y.2 (some (.inp anyTag)), y.2)
  else if t = t!"?" then insertSingle (.inp anyTag) x
  else if t = [] then x
  else insertSingle (.inp (.tag (t!"<" ++ t ++ t!">"))) x

/-- The attributes of a `match` (caps_compiler.cc:175-182).  The tags are those of `split_escaped(tags, '.')`. -/
structure Match where
  lem : Text := t!"*"
  tags : List Text := [t!"*"]
  surf : Text := t!"*"
  srcsurf : Text := t!"*"
  trgsurf : Text := t!"*"
  srclem : Text := t!"*"
  trglem : Text := t!"*"
  select : Text := []

/-- The value of `select` (caps_compiler.cc:240-252). -/
def selectMark (s : Text) : Option Mark :=
  if s = [] then some .skip
  else if s = t!"AA" then some .AA
  else if s = t!"Aa" then some .Aa
  else if s = t!"aa" then some .aa
  else if s = t!"dix" then some .dix
  else none

/-- `compile_match` (caps_compiler.cc:172-255); `none` is an error. -/
def compileMatch (upper : Nat → Bool) (m : Match) (x : Trans × Nat) : Option (Trans × Nat) :=
  if m.lem ≠ t!"*" ∧ m.trglem ≠ t!"*" then none
  else if m.surf ≠ t!"*" ∧ m.trgsurf ≠ t!"*" then none
  else
    let x := capsSpec upper m.srcsurf x
    let x := insertSingle (.inp (.chr '/'.toNat)) x
    let x := capsSpec upper m.srclem x
    let x := insertSingle (.inp (.chr '/'.toNat)) x
    let x := if m.lem = t!"*" then capsSpec upper m.trglem x else globText m.lem x
    let x := m.tags.foldl (fun x t => tagItem t x) x
    let x := insertSingle (.inp (.chr '/'.toNat)) x
    let x := if m.surf = t!"*" then capsSpec upper m.trgsurf x else globText m.surf x
    let x := insertSingle .bound x
    (selectMark m.select).map (fun k => insertSingle (.mark k) x)

/-- The elements of a rule. -/
inductive Node where
  | word (m : Match)
  | or (cs : List Node)
  | rep (lo hi : Int) (cs : List Node)
  | start

/-- A function, so many times (caps_compiler.cc:280-286). -/
def timesOpt (f : Trans × Nat → Option (Trans × Nat)) : Nat → Trans × Nat → Option (Trans × Nat)
  | 0, x => some x
  | n + 1, x => (f x).bind (timesOpt f n)

mutual
/-- `compile_node` (caps_compiler.cc:128-145), `compile_or` (caps_compiler.cc:257-268) and `compile_repeat` (caps_compiler.cc:270-289). -/
def compileNode (upper : Nat → Bool) : Node → Trans × Nat → Option (Trans × Nat)
  | .word m, x => compileMatch upper m x
  | .or cs, x => compileOr upper x.2 cs x
  | .rep lo hi cs, x =>
    if lo < 0 ∨ hi < 0 then none
    else if lo > hi then none
    else
      (compileSeq upper cs ({}, 0)).bind fun c =>
      (timesOpt (insertTrans (setFinal c)) lo.toNat x).bind fun x =>
      (optional (setFinal c)).bind fun c' =>
      timesOpt (insertTrans c') (hi - lo).toNat x
  | .start, x => some (insertSingle (.inp nullBoundary) x)

/-- The loops over the children (caps_compiler.cc:117-119, 277-279). -/
def compileSeq (upper : Nat → Bool) : List Node → Trans × Nat → Option (Trans × Nat)
  | [], x => some x
  | c :: cs, x => (compileNode upper c x).bind (compileSeq upper cs)

/-- The loop of `compile_or` (caps_compiler.cc:261-266): `x.2` is `end_state`. -/
def compileOr (upper : Nat → Bool) (start : Nat) : List Node → Trans × Nat → Option (Trans × Nat)
  | [], x => some x
  | c :: cs, x =>
    (compileNode upper c (insertNew (x.1, start))).bind fun y =>
      compileOr upper start cs (if x.2 = start then y else (link y.1 y.2 x.2 none, x.2))
end

/-- A `rule`; the weight is the value of the attribute, if there is one. -/
structure Rule where
  weight : Option Int := none
  body : List Node

/-- The weight of a rule (caps_compiler.cc:104-112).  Weights are integers, in a unit such that `one` is 1.0. -/
def Rule.value (one : Int) (r : Rule) : Int :=
  match r.weight with
  | none => one
  | some w => if w ≤ -2147483647 * one then one else w

/-- The transducer and `rule_weights`. -/
structure RSt where
  trans : Trans := {}
  weights : List Int := []

/-- `compile_rule` (caps_compiler.cc:101-126). -/
def compileRule (upper : Nat → Bool) (one : Int) (r : Rule) (s : RSt) : Option RSt :=
  (compileSeq upper r.body (insertNew (s.trans, s.trans.initial))).map fun x =>
    { trans := setFinal (insertSingle (.rule s.weights.length) (insertSingle .bound x))
      weights := s.weights ++ [r.value one] }

/-- The loop of `parse` (caps_compiler.cc:84-98). -/
def compileRules (upper : Nat → Bool) (one : Int) : List Rule → RSt → Option RSt
  | [], s => some s
  | r :: rs, s => (compileRule upper one r s).bind (compileRules upper one rs)

/-- `parse` (caps_compiler.cc:84-99). -/
def compile (upper : Nat → Bool) (one : Int) (minimize : Trans → Trans) (rs : List Rule) : Option RSt :=
  (compileRules upper one rs {}).map fun s => { s with trans := minimize s.trans }

/-! ## The restorer -/

/-- What `tokenize` gives for a text. -/
inductive Tok where
  | chr (c : Char)
  | tag (t : Text)
  deriving DecidableEq, Repr

/-- `Alphabet::tokenize` (lttoolbox).  Tags are given by their text; a backslash at the end is followed by NUL. -/
def tokenize : Nat → Text → List Tok
  | 0, _ => []
  | _ + 1, [] => []
  | n + 1, c :: r =>
    if c = '\\' then
      match r with
      | [] => [.chr '\x00']
      | d :: r => .chr d :: tokenize n r
    else if c = '<' ∧ '>' ∈ r then .tag (c :: r.takeWhile (fun d => decide (d ≠ '>')) ++ ['>']) :: tokenize n ((r.dropWhile (fun d => decide (d ≠ '>'))).tail)
    else .chr c :: tokenize n r

def tokens (t : Text) : List Tok := tokenize t.length t

/-- A node and the output on the way to it. -/
abbrev Thread := Nat × List Lab

/-- The input of a label. -/
def Lab.input : Lab → Option Sym
  | .inp s => some s
  | .bound => some wordBoundary
  | _ => none

/-- The output of a label. -/
def Lab.output : Lab → List Lab
  | .inp _ => []
  | l => [l]

/-- The threads after an edge with a label for which `f` is true. -/
def follow (m : Trans) (f : Option Lab → Bool) (S : List Thread) : List Thread :=
  S.flatMap fun th => (m.edges.filter fun e => decide (e.1 = th.1) && f e.2.1).map fun e => (e.2.2, th.2 ++ (e.2.1.map Lab.output).getD [])

/-- The label has no input. -/
def silent (l : Option Lab) : Bool := decide ((l.bind Lab.input) = none)

/-- `epsilonClosure`. -/
def closure (m : Trans) : Nat → List Thread → List Thread
  | 0, S => S
  | n + 1, S => S ++ closure m n (follow m silent S)

/-- `step(a, ..)`: the labels with one of the inputs `as`. -/
def stepOn (m : Trans) (as : List Sym) (S : List Thread) : List Thread :=
  closure m m.next (follow m (fun l => (l.bind Lab.input).any (fun a => decide (a ∈ as))) S)

/-- `step_optional(a)`. -/
def stepOptional (m : Trans) (a : Sym) (S : List Thread) : List Thread :=
  closure m m.next (S ++ follow m (fun l => (l.bind Lab.input).any (fun b => decide (b = a))) S)

/-- `CapsRestorer::step` for a code point (caps_restorer.cc:133-145).  (`sym == 0` is NUL.) -/
def stepChr (upper : Nat → Bool) (m : Trans) (n : Nat) (S : List Thread) : List Thread :=
  if n = 0 then stepOn m [anyTag] S
  else if upper n = true then stepOn m [.chr n, anyChar, anyUpper] S
  else stepOn m [.chr n, anyChar, anyLower] S

/-- `CapsRestorer::step` for something from `tokenize` (caps_restorer.cc:133-145).  No edge has the label of a tag that is not in the alphabet, so that
for it (`sym == 0`) this is the same as `step(any_tag)`. -/
def stepTok (upper : Nat → Bool) (m : Trans) (t : Tok) (S : List Thread) : List Thread :=
  match t with
  | .chr c => stepChr upper m c.toNat S
  | .tag t => stepOn m [.tag t, anyTag] S

/-- One round of the loop over `src_caps` (caps_restorer.cc:198-204). -/
def stepCaps (upper : Nat → Bool) (m : Trans) (n : Nat) (S : List Thread) : List Thread :=
  if n = '/'.toNat then stepOn m [.chr '/'.toNat] S else stepChr upper m n S

/-- The steps of `read_word` (caps_restorer.cc:198-213). -/
def stepWord (upper : Nat → Bool) (m : Trans) (S : List Thread) (caps form surf : Text) : List Thread :=
  let S := (caps.flatMap units).foldl (fun S n => stepCaps upper m n S) S
  let S := stepOn m [.chr '/'.toNat] S
  let S := (tokens form).foldl (fun S t => stepTok upper m t S) S
  let S := stepOn m [.chr '/'.toNat] S
  let S := (tokens surf).foldl (fun S t => stepTok upper m t S) S
  stepOn m [wordBoundary] S

/-- The name of a rule (caps_compiler.cc:115, caps_restorer.cc:30). -/
def ruleId (n : Nat) : Text := t!"<" ++ Nat.toDigits 10 n ++ t!">"

/-- The text of an output symbol. -/
def outText : Lab → Text
  | .mark .AA => t!"<AA>"
  | .mark .Aa => t!"<Aa>"
  | .mark .aa => t!"<aa>"
  | .mark .dix => t!"<dix>"
  | .mark .skip => t!"<skip>"
  | .rule n => ruleId n
  | _ => []

/-- The loop over the output in `filterFinalsLRX`: `cur` is the current part. -/
def cutOutput : Text → List Lab → Text × List Text
  | cur, [] => (cur, [])
  | cur, l :: ls =>
    if l = .bound then
      let r := cutOutput [] ls
      (r.1, if cur = [] then r.2 else cur :: r.2)
    else cutOutput (cur ++ outText l) ls

/-- The comparisons in caps_restorer.cc:67-75; anything else adds nothing, as `<skip>`. -/
def markOf (t : Text) : Mark :=
  if t = t!"<AA>" then .AA else if t = t!"<Aa>" then .Aa else if t = t!"<aa>" then .aa else if t = t!"<dix>" then .dix else .skip

/-- `isFinal` and `filterFinalsLRX` (caps_restorer.cc:53-54).  The result of the program is a set, here it is a list; nothing that is proved depends on the order,
as only rules that match in one way are considered (`OneWay`). -/
def threadPaths (m : Trans) (S : List Thread) : List (Text × List Mark) :=
  (S.filter fun th => decide (th.1 ∈ m.finals)).map fun th => ((cutOutput [] th.2).1, (cutOutput [] th.2).2.map markOf)

/-- `initial_state` (caps_restorer.cc:34). -/
def startState (m : Trans) : List Thread := closure m m.next [(m.initial, [])]

/-- `weights` (caps_restorer.cc:28-32): a rule that is not there has 0. -/
def weightOf : Nat → List Int → Text → Int
  | _, [], _ => 0
  | k, w :: ws, r => if r = ruleId k then w else weightOf (k + 1) ws r

/-- The compiled rules, as the model of the restorer (`Verif.Caps.restore`) uses them. -/
def auto (upper : Nat → Bool) (s : RSt) : Auto (List Thread) where
  start := startState s.trans
  nullBoundary := stepOptional s.trans nullBoundary
  word := fun S caps form surf => stepWord upper s.trans S caps form surf
  wordBoundary := stepOptional s.trans wordBoundary
  paths := threadPaths s.trans
  isEmpty := fun S => decide (S = [])
  restart := fun S => S ++ startState s.trans
  weight := weightOf 0 s.weights

end Verif.Crx
