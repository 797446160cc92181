import Verif.Caps.Input
/-!
# Model of apertium-restore-caps (apertium/caps_restorer.cc)

The transducer of the rules and lttoolbox's `State` are parameters (`Auto`), so are the case functions of lttoolbox (`Casing`).  The
weights are integers (in the code: doubles).
-/
namespace Verif.Caps

/-- The marks a rule gives to the words it matches (caps_compiler.cc:35-39). -/
inductive Mark where
  | AA | Aa | aa | dix | skip
  deriving DecidableEq, Repr

/-- The compiled rules, as caps_restorer.cc uses them. -/
structure Auto (σ : Type) where
  /-- `initial_state` -/
  start : σ
  /-- `step_optional(null_boundary)` -/
  nullBoundary : σ → σ
  /-- The steps of `read_word` over the source case, the form and the surface form (caps_restorer.cc:193-213). -/
  word : σ → Text → Text → Text → σ
  /-- `step_optional(word_boundary)` -/
  wordBoundary : σ → σ
  /-- `filterFinalsLRX`: rules and the marks of the words they match (empty if the state is not final). -/
  paths : σ → List (Text × List Mark)
  /-- `size() == 0` -/
  isEmpty : σ → Bool
  /-- `merge(initial_state)` -/
  restart : σ → σ
  /-- `weights` -/
  weight : Text → Int

/-- `StringUtils::tolower`, `totitle` and `toupper`. -/
structure Casing where
  lower : Text → Text
  title : Text → Text
  upper : Text → Text

/-- `struct LU` (caps_restorer.h:44-53). -/
structure LU where
  blank : Text
  wblank : Text
  form : Text
  surf : Text
  dix : Int := 0
  AA : Int := 0
  Aa : Int := 0
  aa : Int := 0
  deriving DecidableEq, Repr

/-- `read_seg` (caps_restorer.cc:110-131).  The flag says that the reading is inside a tag (`readBlock('<', '>')`). -/
def readSeg : Bool → Text → Text × In
  | _, [] => ([eofChar], ⟨[], true⟩)
  | _, '\\' :: [] => (['\\', eofChar], ⟨[], true⟩)
  | m, '\\' :: d :: r => cat ['\\', d] (readSeg m r)
  | true, c :: r => cat [c] (readSeg (decide (c ≠ '>')) r)
  | false, c :: r =>
    if c = '<' then cat [c] (readSeg true r)
    else if c = '/' ∨ c = '$' then ([], ⟨c :: r, false⟩)
    else cat [c] (readSeg false r)

/-- The segments after the first (caps_restorer.cc:165-171): `temp` collects all of them.  `fuel` is more than the length of the input. -/
def readSegs : Nat → In → Text × In
  | 0, i => ([], i)
  | n + 1, i =>
    let (s, i1) := if i.hit then ([], i) else readSeg false i.rest
    match i1.rest with
    | [] => (s, ⟨[], true⟩)
    | '/' :: r => cat s (readSegs n ⟨r, i1.hit⟩)
    | _ :: r => (s, ⟨r, i1.hit⟩)

/-- The form and the surface form of a unit, after `^` (caps_restorer.cc:160-173). -/
def readForms (t : Text) : Text × Text × In :=
  let (form, i) := readSeg false t
  match i.rest with
  | '$' :: r => ([], form, ⟨r, i.hit⟩)
  | _ =>
    let (surf, i') := readSegs (t.length + 1) ⟨i.rest.tail, decide (i.hit = true ∨ i.rest = [])⟩
    (form, surf, i')

/-- The loop over the pieces of a word-bound blank (caps_restorer.cc:179-186): the pieces kept, and the source case, if found. -/
def wblankPieces (delete : Bool) : List Text → List Text × Option Text
  | [] => ([], none)
  | p :: ps =>
    if p.take 2 = t!"c:" then ([], some (p.drop 2))
    else
      let (n, s) := wblankPieces delete ps
      (if delete then p :: n else n, s)

/-- The source case and the new word-bound blank (caps_restorer.cc:175-197); `delete` is `delete_wblanks`. -/
def wblankCase (delete : Bool) (wblank : Text) : Text × Text :=
  if wblank = [] then (t!"aa/aa", [])
  else
    let (new, caps) := wblankPieces delete
      (splitSemi [] ((wblank.drop 2).take (if wblank.length < 4 then wblank.length else wblank.length - 4)))
    (caps.getD t!"aa/aa",
      if delete then (if joinSemi new = [] then [] else t!"[[" ++ joinSemi new ++ t!"]]") else wblank)

/-- `read_word` (caps_restorer.cc:147-216): the new word, the new state, and the rest. -/
def readWord {σ : Type} (A : Auto σ) (delete : Bool) (q : σ) (t : Text) : LU × σ × In :=
  let (blank, i1) := readBlank false t
  let (wblank, i2) :=
    match i1.rest with
    | '[' :: r => (t!"[[" ++ (finishWBlank r.tail).1, (finishWBlank r.tail).2)
    | _ => (([] : Text), i1)
  match i2.rest with
  | '^' :: r =>
    let (form, surf, i3) := readForms r
    let (caps, wblank') := wblankCase delete wblank
    ({ blank := blank, wblank := wblank', form := form, surf := surf }, A.word q caps form surf, i3)
  | r => ({ blank := blank, wblank := wblank, form := [], surf := [] }, q, ⟨r, decide (i2.hit = true ∨ r = [])⟩)

/-- The weight of a rule added to a word (caps_restorer.cc:67-75). -/
def LU.add (w : LU) (m : Mark) (x : Int) : LU :=
  match m with
  | .AA => { w with AA := w.AA + x }
  | .Aa => { w with Aa := w.Aa + x }
  | .aa => { w with aa := w.aa + x }
  | .dix => { w with dix := w.dix + x }
  | .skip => w

/-- The loop over a path (caps_restorer.cc:64-76), from the last word on: both lists are reversed.  A path that is longer than `words`
gives an index out of bounds. -/
def addPath (x : Int) : List Mark → List LU → Outcome (List LU)
  | [], ws => .ok ws
  | _ :: _, [] => .ub
  | m :: ms, w :: ws => (addPath x ms ws).map (w.add m x :: ·)

/-- The loop over the paths (caps_restorer.cc:57-78); `seen` are the rules seen. -/
def addPaths {σ : Type} (A : Auto σ) : List Text → List (Text × List Mark) → List LU → Outcome (List LU)
  | _, [], ws => .ok ws
  | seen, (r, p) :: ps, ws =>
    if r ∈ seen then addPaths A seen ps ws
    else (addPath (A.weight r) p.reverse ws.reverse).bind fun ws' => addPaths A (r :: seen) ps ws'.reverse

/-- The variant written (caps_restorer.cc:93-101). -/
def LU.choice (w : LU) : Mark :=
  if w.dix ≥ w.AA ∧ w.dix ≥ w.Aa ∧ w.dix ≥ w.aa then .dix
  else if w.aa ≥ w.AA ∧ w.aa ≥ w.Aa then .aa
  else if w.Aa ≥ w.AA then .Aa
  else .AA

def Casing.apply (cs : Casing) : Mark → Text → Text
  | .aa, t => cs.lower t
  | .Aa, t => cs.title t
  | .AA, t => cs.upper t
  | _, t => t

/-- `output_all` for one word (caps_restorer.cc:90-106). -/
def LU.output (cs : Casing) (w : LU) : Text :=
  w.blank ++
    if w.surf = [] then []
    else if w.wblank = [] then cs.apply w.choice w.surf
    else w.wblank ++ cs.apply w.choice w.surf ++ t!"[[/]]"

/-- `output_all` (caps_restorer.cc:87-108). -/
def outputAll (cs : Casing) (ws : List LU) : Text := ws.flatMap (·.output cs)

/-- The loop of `process` (caps_restorer.cc:38-85); every round reads a character or is the last, `fuel` is more than the length of the
input. -/
def processLoop {σ : Type} (A : Auto σ) (cs : Casing) (delete : Bool) : Nat → List LU → σ → In → Outcome Text
  | 0, _, _, _ => .diverge
  | n + 1, ws, q, i =>
    if i.hit then .ok (outputAll cs ws)
    else match i.rest with
      | '\x00' :: r => (processLoop A cs delete n [] (A.nullBoundary A.start) ⟨r, false⟩).map fun o => outputAll cs ws ++ '\x00' :: o
      | _ =>
        let (w, q1, i') := readWord A delete q i.rest
        let q2 := A.wordBoundary q1
        (addPaths A [] (A.paths q2) (ws ++ [w])).bind fun ws' =>
          if A.isEmpty q2 then (processLoop A cs delete n [] A.start i').map fun o => outputAll cs ws' ++ o
          else processLoop A cs delete n ws' (A.restart q2) i'

/-- `CapsRestorer::process`. -/
def restore {σ : Type} (A : Auto σ) (cs : Casing) (delete : Bool) (t : Text) : Outcome Text :=
  processLoop A cs delete (t.length + 2) [] (A.nullBoundary A.start) ⟨t, false⟩

/-! ## Examples -/

/-- ASCII letters. -/
def ascii : Casing where
  lower := List.map Char.toLower
  title := fun t => match t with | [] => [] | c :: r => c.toUpper :: r.map Char.toLower
  upper := List.map Char.toUpper

/-- One rule, as in tests/data/basic.crx: words whose surface form and lemma were in capitals in the source are written in small
letters; the states count nothing. -/
def oneRule : Auto (Option Bool) where
  start := none
  nullBoundary := id
  word := fun _ caps _ _ => some (decide (caps = t!"AA/AA"))
  wordBoundary := id
  paths := fun q => if q = some true then [(t!"<0>", [.aa])] else []
  isEmpty := fun _ => false
  restart := fun _ => none
  weight := fun _ => 1

example : restore oneRule ascii false t!"[[c:AA/AA]]^xyz<vblex>/XyZ$ ^qry<adj>/Qry$" = .ok t!"[[c:AA/AA]]xyz[[/]] Qry" := by decide +kernel
example : restore oneRule ascii true t!"[[c:AA/AA]]^xyz<vblex>/XyZ$[x] ^qry<adj>/Qry$\n" = .ok t!"xyz[x] Qry\n" := by decide +kernel
example : restore oneRule ascii true t!"[[t:b; c:AA/AA]]^XyZ$\x00[[t:i]]^Q<n>/Q$" = .ok t!"[[t:b]]xyz[[/]]\x00[[t:i]]Q[[/]]" := by decide +kernel

end Verif.Caps
