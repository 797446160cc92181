import Verif.Stream.Grammar
import Verif.Tagger.Stream
import Verif.Tagger.HmmSpec
import Verif.Tagger.ClassesProps
/-!
# Tagger streams: what the HMM tagger reads and what it should write (C20)
-/
namespace Verif.Tagger
open Verif.Stream

/-- A lexical unit `^sf/analysis/…$` with the text before it. -/
structure TLu where
  blank : List Atom
  sf : List Atom
  ans : List (List Atom)

def TLu.render (l : TLu) : Text :=
  renderAtoms l.blank ++ '^' :: renderAtoms l.sf ++ (l.ans.flatMap fun a => '/' :: renderAtoms a) ++ ['$']

/-- A request: lexical units and the text after the last one. -/
structure TReq where
  lus : List TLu
  tail : List Atom

def TReq.render (r : TReq) : Text := r.lus.flatMap TLu.render ++ renderAtoms r.tail

/-- A single analysis that begins with `*`: the word is unknown. -/
def TLu.Unknown (l : TLu) : Prop := ∃ a, l.ans = [.lit '*' :: a]

/-- The recogniser on a whole analysis: the text after the `<` of a tag up to the `>`, and the rest. -/
def takeTag : Text → Option (Text × Text)
  | [] => none
  | '\\' :: [] => none
  | '\\' :: d :: r => (takeTag r).map fun x => ('\\' :: d :: x.1, x.2)
  | c :: r => if c = '>' then some ([c], r) else (takeTag r).map fun x => (c :: x.1, x.2)

/-- Run of the recogniser over an analysis; `none`: it dies. -/
def mrun (m : PMatcher) : Nat → m.S → Text → Option m.S
  | _, s, [] => some s
  | 0, _, _ :: _ => none
  | n + 1, s, c :: r =>
    if c = '<' then
      match takeTag r with
      | some (tg, r') => if m.dead (m.tag s ('<' :: tg)) = true then none else mrun m n (m.tag s ('<' :: tg)) r'
      | none => if m.dead (m.tag s []) = true then none else mrun m n (m.tag s []) r
    else if m.dead (m.char s c) = true then none else mrun m n (m.char s c) r

/-- The coarse tag of an analysis as a whole: the class of the recogniser, or TAG_kUNDEF. -/
def classOf (cfg : MCfg) (a : Text) : Nat :=
  match mrun cfg.m a.length cfg.m.init a with
  | some s => (cfg.m.fin s).getD cfg.kundef
  | none => cfg.kundef

/-- The recogniser accepts the analysis as a whole. -/
def Accepts (cfg : MCfg) (a : Text) : Prop :=
  ∃ s c, mrun cfg.m a.length cfg.m.init a = some s ∧ cfg.m.fin s = some c

/-- Well-formed lexical units, with analyses that are not multiwords for the tagger: special characters are
escaped, and each analysis is recognised as a whole or contains no `+`; the word is unknown, or no analysis begins
with `*`; no analysis has the coarse tag TAG_kEOF. -/
structure TLu.Wf (cfg : MCfg) (l : TLu) : Prop where
  blank : ∀ a ∈ l.blank, a.wf ['^']
  sf : ∀ a ∈ l.sf, a.wf ['/', '$']
  ans : ∀ x ∈ l.ans, ∀ a ∈ x, a.wf ['/', '$']
  ne : l.ans ≠ []
  star : l.Unknown ∨ ∀ x ∈ l.ans, x.head? ≠ some (.lit '*') ∧
    (Accepts cfg (renderAtoms x) ∨ '+' ∉ renderAtoms x) ∧ classOf cfg (renderAtoms x) ≠ cfg.keof

structure TReq.Wf (cfg : MCfg) (r : TReq) : Prop where
  lus : ∀ l ∈ r.lus, l.Wf cfg
  tail : ∀ a ∈ r.tail, a.wf ['^']

/-- The text of several requests: separated by NUL. -/
def renderReqs : List TReq → Text
  | [] => []
  | [r] => r.render
  | r :: rs => r.render ++ '\x00' :: renderReqs rs

/-- What may be written for lexical units: the text before each, and one of its own analyses (after its
superficial form if that is wanted); for an unknown word `*` and the superficial form. -/
inductive TagsOk (showSf : Bool) : List TLu → Text → Prop
  | nil : TagsOk showSf [] []
  | cons (l : TLu) (ls : List TLu) (a out : Text) :
      (l.Unknown → a = '*' :: renderAtoms l.sf) → (¬ l.Unknown → ∃ x ∈ l.ans, a = renderAtoms x) →
      TagsOk showSf ls out →
      TagsOk showSf (l :: ls) (renderAtoms l.blank ++ '^' :: (if showSf = true then renderAtoms l.sf ++ ['/'] else []) ++
        a ++ '$' :: out)

/-- What may be written for the requests; with null flush a NUL follows each. -/
inductive ReqsOk (showSf nf : Bool) : List TReq → Text → Prop
  | nil : ReqsOk showSf nf [] []
  | cons (r : TReq) (rs : List TReq) (o out : Text) : TagsOk showSf r.lus o → ReqsOk showSf nf rs out →
      ReqsOk showSf nf (r :: rs) (o ++ renderAtoms r.tail ++ (if nf = true then ['\x00'] else []) ++ out)

/-- The discard rules behave: of a word with one analysis per tag they keep some analyses with their tags, and
nothing else of it changes (see C23 for when the rules of the code do). -/
def DiscOk (disc : TW → TW) : Prop :=
  ∀ w : TW, w.tags = w.forms.map (·.1) → w.forms ≠ [] →
    (disc w).tags = (disc w).forms.map (·.1) ∧ (disc w).forms ≠ [] ∧ (disc w).forms.Sublist w.forms ∧
    (disc w).sf = w.sf ∧ (disc w).ignored = w.ignored ∧ (disc w).plusCut = w.plusCut ∧
    (disc w).prevPlusCut = w.prevPlusCut

/-- The tagger data of a model: the open class is a non-empty set without TAG_kEOF, and the only ambiguity
class with TAG_kEOF is that tag alone. -/
structure TD.Model (td : TD) (keof : Nat) : Prop where
  wf : td.output.WF
  ne : td.openClass ≠ []
  nodup : td.openClass.Nodup
  nodups : ∀ e ∈ td.output.element, e.Nodup
  notOpen : keof ∉ td.openClass
  alone : ∀ e ∈ td.output.element, keof ∈ e → e = [keof]

/-- `HMM::tagger` from text to text: the words of the stream are tagged, each is written by `fmt`. -/
def tagText {W : Type} [Weight W] (cfg : MCfg) (p : Params W) (nf : Bool) (disc : TW → TW) (td : TD)
    (fmt : TW → Nat → Text) (t : Text) : Outcome Text :=
  (stream cfg nf disc t).bind fun ws =>
    match hmmOut p nf td (ws.map fun x => { word := x.1, tags := x.1.tags, eof := x.2 }) with
    | none => .ub
    | some evs => .ok (evs.flatMap fun e => match e with
        | .word w t => fmt w t
        | .nul => ['\x00'])

/-! ## the most likely tags, on texts (C19) -/

/-- The coarse tags of the analyses of a lexical unit; none if the word is unknown. -/
def TLu.tags (cfg : MCfg) (l : TLu) : Tags :=
  match l.ans with
  | [.lit '*' :: _] => []
  | ans => ans.foldl (fun s a => sinsert (classOf cfg (renderAtoms a)) s) []

/-- A request as a sequence of words for the HMM: its lexical units, and the text at its end with TAG_kEOF. -/
def TReq.items (cfg : MCfg) (r : TReq) : List (Item (TLu ⊕ List Atom)) :=
  r.lus.map (fun l => { word := .inl l, tags := l.tags cfg, eof := false }) ++
    [{ word := .inr r.tail, tags := [cfg.keof], eof := true }]

/-- What is written for one word with a tag: the text before it and one of its analyses with that coarse tag, `*` and the superficial
form for an unknown word; the text at the end of a request as it is. -/
inductive EvText (cfg : MCfg) (showSf : Bool) : Ev (TLu ⊕ List Atom) → Text → Prop
  | unknown (l : TLu) (t : Nat) : l.Unknown → EvText cfg showSf (.word (.inl l) t) (renderAtoms l.blank ++
      '^' :: (if showSf = true then renderAtoms l.sf ++ ['/'] else []) ++ '*' :: renderAtoms l.sf ++ ['$'])
  | known (l : TLu) (t : Nat) (x : List Atom) : ¬ l.Unknown → x ∈ l.ans → classOf cfg (renderAtoms x) = t →
      EvText cfg showSf (.word (.inl l) t) (renderAtoms l.blank ++
      '^' :: (if showSf = true then renderAtoms l.sf ++ ['/'] else []) ++ renderAtoms x ++ ['$'])
  | tail (as : List Atom) (t : Nat) : EvText cfg showSf (.word (.inr as) t) (renderAtoms as)
  | nul : EvText cfg showSf .nul ['\x00']

/-- The same for a sequence. -/
inductive EvsText (cfg : MCfg) (showSf : Bool) : List (Ev (TLu ⊕ List Atom)) → Text → Prop
  | nil : EvsText cfg showSf [] []
  | cons {e : Ev (TLu ⊕ List Atom)} {es : List (Ev (TLu ⊕ List Atom))} {t ts : Text} :
      EvText cfg showSf e t → EvsText cfg showSf es ts → EvsText cfg showSf (e :: es) (t ++ ts)

end Verif.Tagger
