import Verif.Mtx.Model
import Verif.Percep.FeatureProps
import Verif.Driver.Spec
import Verif.Tsx.Spec
/-!
# What an `.mtx` file says

The conditions and templates of a file are given here with the strings and the names of variables that are written in it (`X`, `Template`); `xmeaning` and `xcolumns` say what they
stand for at a place of a sentence, without numbers of constants, slots and globals.  A macro stands for its expression.  `W` says which sequences of nodes are a way to write an
expression, and `Writes` which are a way to write a file.
-/
namespace Verif.Mtx
open Verif.Unigram
open Verif.VM (Ctx Val Str Cmp Env getToken getWordoid adjAddr clampAddr wordoidsAt part elems collect bools one each Choice intStr)
open Verif.Tsx (Node Gap Start End)

inductive Leaf where
  | sentlen | pathlen | tokaddr | wrdidx | wrdaddr
  deriving DecidableEq

inductive Un where
  | not | adjust | clamp | wordoid | surf | lem | coarse | tags | ambgset | wordoids
  deriving DecidableEq

inductive Bin where
  | add | addAddr | ints | cmp (o : Cmp)
  deriving DecidableEq

inductive SetTest where
  | strin | any | all
  deriving DecidableEq

/-- Expressions.  `seq`: operands of `and` and `or`.  `forEach wrd v src body`: the list of the `body` for each `v` in `src`, of wordoids if `wrd`. -/
inductive X where
  | leaf (o : Leaf)
  | int (i : Int)
  | var (v : Text)
  | un (o : Un) (x : X)
  | bin (o : Bin) (a b : X)
  | seq (a b : X)
  | and (x : X)
  | or (x : X)
  | streq (s : Text) (x : X)
  | set (o : SetTest) (l : List Text) (x : X)
  | join (sep : Option Text) (x : X)
  | slice (b e : Int) (x : X)
  | subscript (i : Nat) (x : X)
  | forEach (wrd : Bool) (v : Text) (src body : X)
  deriving DecidableEq

/-! ### Meaning -/

/-- Values of the variables. -/
abbrev NEnv := Text → Option Val

def nupd (env : NEnv) (v : Text) (x : Val) : NEnv := fun i => if i = v then some x else env i

def Leaf.val (c : Ctx) : Leaf → Option (List Val)
  | .sentlen => some [.int c.untagged.length]
  | .pathlen => none
  | .tokaddr => some [.int c.tok]
  | .wrdidx => some [.int c.wrd]
  | .wrdaddr => some [.int c.wrd, .int c.tok]

def Un.val (c : Ctx) : Un → List Val → Option (List Val)
  | .not, [.bool x] => some [.bool (!x)]
  | .adjust, [.int w, .int t] => some [.int (adjAddr c.tagged t w).2, .int (adjAddr c.tagged t w).1]
  | .clamp, [.int w, .int t] => if c.tagged = [] then none else some [.int (clampAddr c.tagged t w).2, .int (clampAddr c.tagged t w).1]
  | .wordoid, [.int w, .int t] => some [.wrd (getWordoid c t w)]
  | .surf, [.int t] => some [.str (c.enc (getToken c t).surface)]
  | .lem, [.wrd m] => some [.str (c.enc m.lemma)]
  | .coarse, [.wrd m] => some [.str (c.coarsen m)]
  | .tags, [.wrd m] => some [.strs (m.tags.map c.enc)]
  | .ambgset, [.int t] =>
    if ∃ an ∈ (getToken c t).analyses, an.morphemes = [] then none
    else some [.strs ((getToken c t).analyses.map (fun an => ([43] : Str).intercalate (an.morphemes.map c.coarsen)))]
  | .wordoids, [.int t] => some [.wrds (wordoidsAt c t)]
  | _, _ => none

def Bin.val : Bin → List Val → List Val → Option (List Val)
  | .add, [.int x], [.int y] => some [.int (x + y)]
  | .addAddr, [.int w, .int t], [.int w', .int t'] => some [.int (w + w'), .int (t + t')]
  | .ints, x, y => some (y ++ x)
  | .cmp o, [.int x], [.int y] => some [.bool (o.holds x y)]
  | _, _, _ => none

/-- The strings `y` are those of a set of the file. -/
def SetTest.val (y : List Str) : SetTest → List Val → Option (List Val)
  | .strin, [.str x] => some [.bool (decide (x ∈ y))]
  | .any, [.strs l] => some [.bool (decide (∃ x ∈ l, x ∈ y))]
  | .all, [.strs l] => some [.bool (decide (∀ x ∈ l, x ∈ y))]
  | _, _ => none

/-- The separator of a `join`: a full stop if there is none. -/
def sepStr (c : Ctx) : Option Text → Str
  | none => [46]
  | some s => c.enc s

/-- The values an expression stands for, the last one first; `none`: no meaning. -/
def xmeaning (c : Ctx) : X → NEnv → Option (List Val)
  | .leaf o, _ => o.val c
  | .int i, _ => some [.int i]
  | .var v, env => (env v).map (fun v => [v])
  | .un o x, env => (xmeaning c x env).bind (o.val c)
  | .bin o a b, env => (xmeaning c a env).bind fun x => (xmeaning c b env).bind fun y => o.val x y
  | .seq a b, env => (xmeaning c a env).bind fun x => (xmeaning c b env).bind fun y => some (y ++ x)
  | .and x, env => ((xmeaning c x env).bind bools).bind fun l => if l = [] then none else some [.bool (l.all id)]
  | .or x, env => ((xmeaning c x env).bind bools).bind fun l => if l = [] then none else some [.bool (l.any id)]
  | .streq s x, env =>
    match xmeaning c x env with
    | some [.str y] => some [.bool (decide (y = c.enc s))]
    | _ => none
  | .set o l x, env => (xmeaning c x env).bind (o.val (l.map c.enc))
  | .join sep x, env =>
    match xmeaning c x env with
    | some [.strs l] => some [.str ((sepStr c sep).intercalate l)]
    | _ => none
  | .slice b e x, env =>
    match xmeaning c x env with
    | some [.str l] => (part l b e).map (fun r => [.str r])
    | some [.strs l] => (part l b e).map (fun r => [.strs r])
    | some [.wrds l] => (part l b e).map (fun r => [.wrds r])
    | _ => none
  | .subscript i x, env =>
    match xmeaning c x env with
    | some [.strs l] => (l[i]?).map (fun r => [.str r])
    | some [.wrds l] => (l[i]?).map (fun r => [.wrd r])
    | _ => none
  | .forEach w v src body, env =>
    match xmeaning c src env with
    | some [l] => ((elems l).bind (fun xs => (each (fun x => (xmeaning c body (nupd env v x)).bind one) xs).bind (collect w))).map (fun r => [r])
    | _ => none

/-- The number of elements of a string or list. -/
def sizeOf : Val → Option Nat
  | .str l => some l.length
  | .strs l => some l.length
  | .wrds l => some l.length
  | _ => none

/-- The cases that the machine gets right, as in C58. -/
def XClean (c : Ctx) : X → NEnv → Prop
  | .leaf _, _ | .int _, _ | .var _, _ => True
  | .un _ x, env | .streq _ x, env | .set _ _ x, env | .subscript _ x, env => XClean c x env
  | .bin o a b, env => XClean c a env ∧ XClean c b env ∧ ∀ o', o = .cmp o' → o' = .eq ∨ o' = .neq ∨ c.leftFirst = false
  | .seq a b, env => XClean c a env ∧ XClean c b env
  | .and x, env => XClean c x env ∧ ∀ vs, (xmeaning c x env).bind bools = some vs → ∀ b ∈ vs.dropLast, b = true
  | .or x, env => XClean c x env ∧ ∀ vs, (xmeaning c x env).bind bools = some vs → ∀ b ∈ vs.dropLast, b = false
  | .join _ x, env => XClean c x env ∧ ∀ l, xmeaning c x env = some [.strs l] → l.length ≤ 1 ∨ l.head? ≠ some []
  | .slice b _ x, env => XClean c x env ∧ ∀ v n, xmeaning c x env = some [v] → sizeOf v = some n → 0 < n ∧ b < (n : Int)
  | .forEach _ v src body, env => XClean c src env ∧
      ∀ l xs, xmeaning c src env = some [l] → elems l = some xs → xs ≠ [] ∧ ∀ x ∈ xs, XClean c body (nupd env v x)

/-- The instructions of a template. -/
inductive Instr where
  | pred (x : X)
  | outStr (x : X)
  | outBool (x : X)
  | outInt (x : X)
  | outMany (x : X)
  deriving DecidableEq

abbrev Template := List Instr

def noNames : NEnv := fun _ => none

/-- What a template offers for each part of its keys, as in C58. -/
def xcolumns (c : Ctx) : Template → Option (Option (List (List Str)))
  | [] => some (some [])
  | .pred x :: ss =>
    match xmeaning c x noNames with
    | some [.bool true] => xcolumns c ss
    | some [.bool false] => some none
    | _ => none
  | .outStr x :: ss =>
    match xmeaning c x noNames with
    | some [.str s] => (xcolumns c ss).map (Option.map ([s] :: ·))
    | _ => none
  | .outBool x :: ss =>
    match xmeaning c x noNames with
    | some [.bool b] => (xcolumns c ss).map (Option.map ([if b then [116] else [102]] :: ·))
    | _ => none
  | .outInt x :: ss =>
    match xmeaning c x noNames with
    | some [.int i] => (xcolumns c ss).map (Option.map ([intStr i] :: ·))
    | _ => none
  | .outMany x :: ss =>
    match xmeaning c x noNames with
    | some [.strs []] => some none
    | some [.strs l] => (xcolumns c ss).map (Option.map (l :: ·))
    | _ => none

/-- The cases that the machine gets right.  In an `and` that is all of a condition any operand may be false, as in C58. -/
def Instr.Clean (c : Ctx) : Instr → Prop
  | .pred (.and x) => XClean c x noNames
  | .pred x | .outStr x | .outBool x | .outInt x | .outMany x => XClean c x noNames

/-- The same for the instructions of a template that are run. -/
def XCleanFeat (c : Ctx) : Template → Prop
  | [] => True
  | i :: f => i.Clean c ∧ (xcolumns c [i] ≠ some none → XCleanFeat c f)

/-! ### Ways to write an expression -/

def Leaf.elem : Leaf → Text
  | .sentlen => t!"sentlen"
  | .pathlen => t!"pathlen"
  | .tokaddr => t!"tokaddr"
  | .wrdidx => t!"wrdidx"
  | .wrdaddr => t!"wrdaddr"

def Leaf.res : Leaf → Ty
  | .wrdaddr => .addr
  | _ => .int

def Un.elem : Un → Text
  | .not => t!"not"
  | .adjust => t!"adjust"
  | .clamp => t!"clamp"
  | .wordoid => t!"ex-wordoid"
  | .surf => t!"ex-surf"
  | .lem => t!"ex-lemma"
  | .coarse => t!"ex-coarse"
  | .tags => t!"ex-tags"
  | .ambgset => t!"ex-ambgset"
  | .wordoids => t!"ex-wordoids"

def Un.arg : Un → Ty
  | .not => .bool
  | .adjust | .clamp | .wordoid => .addr
  | .surf | .ambgset | .wordoids => .int
  | .lem | .coarse | .tags => .wrd

def Un.res : Un → Ty
  | .not => .bool
  | .adjust | .clamp => .addr
  | .wordoid => .wrd
  | .surf | .lem | .coarse => .str
  | .tags | .ambgset => .strs
  | .wordoids => .wrds

def Bin.elem : Bin → Text
  | .add | .addAddr => t!"add"
  | .ints => t!"addr-of-ints"
  | .cmp .lt => t!"lt"
  | .cmp .lte => t!"lte"
  | .cmp .gt => t!"gt"
  | .cmp .gte => t!"gte"
  | .cmp .eq => t!"eq"
  | .cmp .neq => t!"neq"

def Bin.arg : Bin → Ty
  | .addAddr => .addr
  | _ => .int

def Bin.res : Bin → Ty
  | .add => .int
  | .addAddr | .ints => .addr
  | .cmp _ => .bool

/-- The size of the code of the element itself. -/
def Bin.cells : Bin → Nat
  | .ints => 0
  | _ => 1

def SetTest.elem : SetTest → Text
  | .strin => t!"strin"
  | .any => t!"sethasany"
  | .all => t!"sethasall"

def SetTest.arg : SetTest → Ty
  | .strin => .str
  | _ => .strs

/-- The names that can be used: the strings, the newest first, and the macros, if they can be called here. -/
structure Scope where
  strs : List (Text × Text) := []
  macros : List (Text × Ty × X) := []
  calls : Bool := false

def look {α : Type} (l : List (Text × α)) (n : Text) : Option α := (l.find? (fun e => decide (e.1 = n))).map (·.2)

/-- An element without content, `<x/>` or `<x></x>`, with the property `p` of its attributes. -/
inductive Bare (x : Text) (p : Node → Prop) : List Node → Prop where
  | short (n : Node) : Start x n → p n → Bare x p [n]
  | long (n e : Node) : Start x n → p n → End x e → Bare x p [n, e]

def blanks : List Char := [' ', '\t', '\n', '\x0b', '\x0c', '\r']

/-- A text is these words, with white space between them. -/
inductive Words : List Text → Text → Prop where
  | nil (b : Text) : (∀ c ∈ b, c ∈ blanks) → Words [] b
  | cons (b w r : Text) (ws : List Text) : (∀ c ∈ b, c ∈ blanks) → w ≠ [] → (∀ c ∈ w, c ∉ blanks) → (r = [] ∨ ∃ c r', r = c :: r' ∧ c ∈ blanks) → Words ws r →
      Words (w :: ws) (b ++ w ++ r)

/-- A text is this number, in decimal. -/
def IntLit (t : Text) (i : Int) : Prop := ∃ d n, Driver.Numeral d n ∧ ((t = d ∧ i = n) ∨ (t = '-' :: d ∧ i = -n))

/-- An attribute is this number; if it is not there, 0. -/
def IntAttr (t : Text) (i : Int) : Prop := (t = [] ∧ i = 0) ∨ IntLit t i

/-- A string is given by the attribute `val`, or by its name. -/
def StrAttr (D : Scope) (n : Node) (s : Text) : Prop :=
  (n.attrib t!"name" = [] ∧ n.attrib t!"val" = s ∧ s ≠ []) ∨ (n.attrib t!"name" ≠ [] ∧ look D.strs (n.attrib t!"name") = some s)

/-- A separator: a string, or nothing. -/
def SepAttr (D : Scope) (n : Node) : Option Text → Prop
  | none => n.attrib t!"name" = [] ∧ n.attrib t!"val" = []
  | some s => StrAttr D n s

/-- What is written: an expression of a type, or operands of `and` and `or`. -/
inductive Cat where
  | ty (t : Ty)
  | ops

def listTy (wrd : Bool) : Ty := if wrd then .wrds else .strs

def elemTy (wrd : Bool) : Ty := if wrd then .wrd else .str

/-- The first node has this name. -/
def Heads (x : Text) (ns : List Node) : Prop := ∃ n r, ns = n :: r ∧ n.name = x

/-- `W D κ Γ lp cat x ns k`: the nodes `ns` are a way to write `x`, where the strings and macros `D` and the variables `Γ` can be used, `for-each` only if `lp`; all the `for-each` of the
file go over lists of the same kind, `κ`.  `k` is the size of the code (for operands, and one for each of them). -/
inductive W (D : Scope) (κ : Bool) : List Text → Bool → Cat → X → List Node → Nat → Prop where
  | leaf {Γ lp} (o : Leaf) (ns) : Bare o.elem (fun _ => True) ns → W D κ Γ lp (.ty o.res) (.leaf o) ns 1
  | int {Γ lp} (i ns) : Bare t!"int" (fun n => IntLit (n.attrib t!"val") i) ns → -128 ≤ i → i < 128 → W D κ Γ lp (.ty .int) (.int i) ns 2
  | var {Γ lp} (v ns) : v ∈ Γ → Bare t!"var" (fun n => n.attrib t!"name" = v) ns → W D κ Γ lp (.ty (elemTy κ)) (.var v) ns 2
  | un {Γ lp} (o : Un) {x ns k} (n g g' e) : W D κ Γ lp (.ty o.arg) x ns k → Start o.elem n → Gap g → Gap g' → End o.elem e →
      W D κ Γ lp (.ty o.res) (.un o x) (n :: (g ++ ns ++ g' ++ [e])) (k + 1)
  | bin {Γ lp} (o : Bin) {x ns k y ms l} (n g g' g'' e) : W D κ Γ lp (.ty o.arg) x ns k → W D κ Γ lp (.ty o.arg) y ms l → Start o.elem n → Gap g → Gap g' → Gap g'' →
      End o.elem e → W D κ Γ lp (.ty o.res) (.bin o x y) (n :: (g ++ ns ++ g' ++ ms ++ g'' ++ [e])) (k + l + o.cells)
  | one {Γ lp x ns k} : W D κ Γ lp (.ty .bool) x ns k → W D κ Γ lp .ops x ns (k + 1)
  | more {Γ lp x ns k y ms l} (g) : W D κ Γ lp (.ty .bool) x ns k → Gap g → W D κ Γ lp .ops y ms l → W D κ Γ lp .ops (.seq x y) (ns ++ g ++ ms) (k + 1 + l)
  | and {Γ lp x ns k} (n g g' e) : W D κ Γ lp .ops x ns k → Start t!"and" n → Gap g → Gap g' → End t!"and" e →
      W D κ Γ lp (.ty .bool) (.and x) (n :: (g ++ ns ++ g' ++ [e])) (k - 1)
  | or {Γ lp x ns k} (n g g' e) : W D κ Γ lp .ops x ns k → Start t!"or" n → Gap g → Gap g' → End t!"or" e →
      W D κ Γ lp (.ty .bool) (.or x) (n :: (g ++ ns ++ g' ++ [e])) (k - 1)
  | streq {Γ lp} (s) {x ns k} (n g g' e) : W D κ Γ lp (.ty .str) x ns k → Start t!"streq" n → StrAttr D n s → Gap g → Gap g' → End t!"streq" e →
      W D κ Γ lp (.ty .bool) (.streq s x) (n :: (g ++ ns ++ g' ++ [e])) (k + 2)
  | set {Γ lp} (o : SetTest) (l) {x ns k} (n g g' e) : W D κ Γ lp (.ty o.arg) x ns k → Start o.elem n → n.attrib t!"name" = [] → n.attrib t!"val" ≠ [] →
      Words l (n.attrib t!"val") → Gap g → Gap g' → End o.elem e → W D κ Γ lp (.ty .bool) (.set o l x) (n :: (g ++ ns ++ g' ++ [e])) (k + 2)
  | join {Γ lp} (s) {x ns k} (n g g' e) : W D κ Γ lp (.ty .strs) x ns k → Start t!"join" n → SepAttr D n s → Gap g → Gap g' → End t!"join" e →
      W D κ Γ lp (.ty .str) (.join s x) (n :: (g ++ ns ++ g' ++ [e])) (k + 2)
  | slice {Γ lp ty} (b e) {x ns k} (n g g' z) : ty = .str ∨ ty = .strs ∨ ty = .wrds → W D κ Γ lp (.ty ty) x ns k → Start t!"slice" n → z.attrs = n.attrs →
      IntAttr (n.attrib t!"start") b → IntAttr (n.attrib t!"end") e → -128 ≤ b → b < 128 → -128 ≤ e → e < 128 → Gap g → Gap g' → End t!"slice" z →
      W D κ Γ lp (.ty ty) (.slice b e x) (n :: (g ++ ns ++ g' ++ [z])) (k + 3)
  | subscript {Γ lp} (w : Bool) (i : Nat) {x ns k} (n g g' e) : W D κ Γ lp (.ty (listTy w)) x ns k → Start t!"subscript" n → IntLit (n.attrib t!"idx") i → i < 256 → Gap g → Gap g' →
      End t!"subscript" e → W D κ Γ lp (.ty (elemTy w)) (.subscript i x) (n :: (g ++ ns ++ g' ++ [e])) (k + 2)
  | forEach {Γ} (w : Bool) (v) {x ns k y ms l} (n g g' g'' e) : v ≠ [] → v ∉ Γ → W D κ Γ false (.ty (listTy κ)) x ns k → (κ = true → Heads t!"ex-wordoids" ns) →
      W D κ (v :: Γ) true (.ty (elemTy w)) y ms l → l + 5 < 128 → Start t!"for-each" n → n.attrib t!"as" = v → Gap g → Gap g' → Gap g'' → End t!"for-each" e →
      W D κ Γ true (.ty (listTy w)) (.forEach w v x y) (n :: (g ++ ns ++ g' ++ ms ++ g'' ++ [e])) (k + 4 + l + 2)
  | call {Γ lp} (m ty x) (n g e) : D.calls = true → look D.macros m = some (ty, x) → Start t!"macro" n → n.attrib t!"name" = m → Gap g → End t!"macro" e →
      W D κ Γ lp (.ty ty) x (n :: (g ++ [e])) 2

/-! ### Ways to write a file -/

inductive Def where
  | str (n s : Text)
  | mac (n : Text) (ty : Ty) (x : X)
  deriving DecidableEq

/-- A file: the tagger definition for coarse tags, the definitions, the condition for all features and the templates. -/
structure Doc where
  coarse : Option Text := none
  defs : List Def := []
  cond : Option X := none
  feats : List Template := []

/-- What can be the expression of a macro: which type it has is found out from its first element. -/
def MacroHead : Ty → Text → Prop
  | .int, _ | .bool, _ | .str, _ => True
  | .strs, x => x ≠ t!"slice"
  | .wrds, x => x = t!"ex-wordoids"
  | .wrd, x => x = t!"ex-wordoid"
  | _, _ => False

/-- The name of a definition, and the scope after it. -/
def Scope.add (D : Scope) : Def → Scope
  | .str n s => { D with strs := (n, s) :: D.strs }
  | .mac n ty x => { D with macros := (n, ty, x) :: D.macros }

/-- The nodes write the definitions, `D` being those before.  No macro is called in another. -/
inductive WDefs (κ : Bool) : Scope → List Def → List Node → Prop where
  | nil {D} : WDefs κ D [] []
  | str {D ds ms} (n s) (ns g) : Bare t!"def-str" (fun m => m.attrib t!"name" = n ∧ ((m.attrib t!"tag" = s ∧ s ≠ []) ∨ (m.attrib t!"tag" = [] ∧ m.attrib t!"str" = s))) ns → Gap g →
      WDefs κ (D.add (.str n s)) ds ms → WDefs κ D (.str n s :: ds) (ns ++ g ++ ms)
  | mac {D ds ms} (nm ty x) {ns k} (n g g' e g'') : nm ≠ [] → Start t!"def-macro" n → n.attrib t!"as" = nm → n.attrib t!"args" = [] →
      W { strs := D.strs } κ [] true (.ty ty) x ns k → (∃ y, Heads y ns ∧ MacroHead ty y) → Gap g → Gap g' → End t!"def-macro" e → Gap g'' →
      WDefs κ (D.add (.mac nm ty x)) ds ms → WDefs κ D (.mac nm ty x :: ds) (n :: (g ++ ns ++ g' ++ [e]) ++ g'' ++ ms)

/-- The nodes write an instruction.  The kind of an `out` is found out from its first element, and is a string if that is a macro. -/
inductive WInstr (D : Scope) (κ : Bool) : Instr → List Node → Prop where
  | pred {x ns k} (n g g' e) : W D κ [] true (.ty .bool) x ns k → Start t!"pred" n → Gap g → Gap g' → End t!"pred" e → WInstr D κ (.pred x) (n :: (g ++ ns ++ g' ++ [e]))
  | outStr {x ns k} (n g g' e) : W D κ [] true (.ty .str) x ns k → Start t!"out" n → Gap g → Gap g' → End t!"out" e → WInstr D κ (.outStr x) (n :: (g ++ ns ++ g' ++ [e]))
  | outBool {x ns k} (n g g' e) : W D κ [] true (.ty .bool) x ns k → ¬ Heads t!"macro" ns → Start t!"out" n → Gap g → Gap g' → End t!"out" e →
      WInstr D κ (.outBool x) (n :: (g ++ ns ++ g' ++ [e]))
  | outInt {x ns k} (n g g' e) : W D κ [] true (.ty .int) x ns k → ¬ Heads t!"macro" ns → Start t!"out" n → Gap g → Gap g' → End t!"out" e →
      WInstr D κ (.outInt x) (n :: (g ++ ns ++ g' ++ [e]))
  | outMany {x ns k} (n g g' e) : W D κ [] true (.ty .strs) x ns k → Start t!"out-many" n → Gap g → Gap g' → End t!"out-many" e → WInstr D κ (.outMany x) (n :: (g ++ ns ++ g' ++ [e]))

/-- Things written one after another, with text and comments after each. -/
inductive Row {α : Type} (R : α → List Node → Prop) : List α → List Node → Prop where
  | nil : Row R [] []
  | cons {a as ns ms} (g) : R a ns → Gap g → Row R as ms → Row R (a :: as) (ns ++ g ++ ms)

inductive WFeat (D : Scope) (κ : Bool) : Template → List Node → Prop where
  | mk {f ns} (n g e) : Row (WInstr D κ) f ns → Start t!"feat" n → Gap g → End t!"feat" e → WFeat D κ f (n :: (g ++ ns ++ [e]))

def Doc.scope (d : Doc) : Scope := d.defs.foldl Scope.add {}

/-- The sections, each with the text and comments after it; each may be missing if it is empty. -/
inductive WCoarse : Option Text → List Node → Prop where
  | none : WCoarse none []
  | some (p ns g) : Bare t!"coarse-tags" (fun n => n.attrib t!"tag" = p) ns → Gap g → WCoarse (some p) (ns ++ g)

inductive WDefns (κ : Bool) : List Def → List Node → Prop where
  | none : WDefns κ [] []
  | some {ds ns} (n g e g') : WDefs κ {} ds ns → Start t!"defns" n → Gap g → End t!"defns" e → Gap g' → WDefns κ ds (n :: (g ++ ns ++ [e]) ++ g')

inductive WCond (D : Scope) (κ : Bool) : Option X → List Node → Prop where
  | none : WCond D κ none []
  | some {x ns k} (n g g' e g'') : W D κ [] true (.ty .bool) x ns k → Start t!"global-pred" n → Gap g → Gap g' → End t!"global-pred" e → Gap g'' →
      WCond D κ (some x) (n :: (g ++ ns ++ g' ++ [e]) ++ g'')

inductive WFeats (D : Scope) (κ : Bool) : List Template → List Node → Prop where
  | none : WFeats D κ [] []
  | some {fs ns} (n g e g') : Row (WFeat D κ) fs ns → Start t!"feats" n → Gap g → End t!"feats" e → Gap g' → WFeats D κ fs (n :: (g ++ ns ++ [e]) ++ g')

/-- The nodes are a way to write the file.  No macro is called in the condition. -/
inductive Writes (κ : Bool) (d : Doc) : List Node → Prop where
  | mk {n1 n2 n3 n4} (g n g' e tl) : Gap g → Start t!"metatag" n → Gap g' → WCoarse d.coarse n1 → WDefns κ d.defs n2 → WCond { strs := d.scope.strs } κ d.cond n3 →
      WFeats { d.scope with calls := true } κ d.feats n4 → End t!"metatag" e → Writes κ d (g ++ n :: (g' ++ n1 ++ n2 ++ n3 ++ n4 ++ [e]) ++ tl)

/-- The name `r` of a file that is called `file` in the file `path`: it is in the same directory, if it is not absolute (as on Unix, or with the letter of a drive). -/
def Beside (path file r : Text) : Prop :=
  if file.head? = some '/' ∨ file[1]? = some ':' then r = file
  else ∃ dir base, path = dir ++ base ∧ '/' ∉ base ∧ (dir = [] ∨ dir.getLast? = some '/') ∧ r = dir ++ file

/-- The number of elements with one of these names. -/
def tally (xs : List Text) (ns : List Node) : Nat := (ns.filter (fun n => decide (n.name ∈ xs ∧ n.isEnd = false))).length

def strElems : List Text := [t!"streq", t!"join", t!"def-str"]
def setElems : List Text := [t!"strin", t!"sethasany", t!"sethasall"]

/-- Numbers of strings, sets, macro calls and loops have to fit into a byte. -/
def Small (ns : List Node) : Prop :=
  tally strElems ns ≤ 255 ∧ tally setElems ns ≤ 256 ∧ tally [t!"macro"] ns ≤ 256 ∧ tally [t!"for-each"] ns ≤ 256

end Verif.Mtx
