import Verif.Driver.Model
/-!
# What the usage of apertium-tagger says

`Job` are the lines of `apertium-tagger --help` (tagger.cc:302-339); `Job.acts` what is done for each, and `Spells` how its options can be written.
-/
namespace Verif.Driver

/-- What an option says. -/
inductive Sem where
  | flag (f : Flag)
  | unigram (model : Nat)
  | slidingWindow
  | perceptron
  | tagger
  | retrain (n : Nat)
  | supervised (n : Nat)
  | train (n : Nat)
  deriving DecidableEq

/-- The value of a decimal number that is written with its last digit first. -/
def decimal : Text → Nat
  | [] => 0
  | c :: cs => (c.toNat - '0'.toNat) + 10 * decimal cs

/-- The text is a decimal number, with this value. -/
def Numeral (t : Text) (n : Nat) : Prop := t ≠ [] ∧ (∀ c ∈ t, '0' ≤ c ∧ c ≤ '9') ∧ n = decimal t.reverse

example : Numeral t!"120" 120 := by refine ⟨by decide, by decide, by decide +kernel⟩

/-- The ways to write an option. -/
inductive Spells : Arg → Sem → Prop where
  | b (t : Text) : Spells (.short 'b' t) (.flag .sentSeg)
  | sentSeg (t : Text) : Spells (.long t!"sent-seg" t) (.flag .sentSeg)
  | d (t : Text) : Spells (.short 'd' t) (.flag .debug)
  | debug (t : Text) : Spells (.long t!"debug" t) (.flag .debug)
  | e (t : Text) : Spells (.short 'e' t) (.flag .skipErrors)
  | skipErrors (t : Text) : Spells (.long t!"skip-on-error" t) (.flag .skipErrors)
  | f (t : Text) : Spells (.short 'f' t) (.flag .first)
  | first (t : Text) : Spells (.long t!"first" t) (.flag .first)
  | m (t : Text) : Spells (.short 'm' t) (.flag .mark)
  | mark (t : Text) : Spells (.long t!"mark" t) (.flag .mark)
  | p (t : Text) : Spells (.short 'p' t) (.flag .showSuperficial)
  | showSuperficial (t : Text) : Spells (.long t!"show-superficial" t) (.flag .showSuperficial)
  | z (t : Text) : Spells (.short 'z' t) (.flag .nullFlush)
  | nullFlush (t : Text) : Spells (.long t!"null-flush" t) (.flag .nullFlush)
  | u1 : Spells (.short 'u' t!"1") (.unigram 1)
  | u2 : Spells (.short 'u' t!"2") (.unigram 2)
  | u3 : Spells (.short 'u' t!"3") (.unigram 3)
  | unigram1 : Spells (.long t!"unigram" t!"1") (.unigram 1)
  | unigram2 : Spells (.long t!"unigram" t!"2") (.unigram 2)
  | unigram3 : Spells (.long t!"unigram" t!"3") (.unigram 3)
  | w (t : Text) : Spells (.short 'w' t) .slidingWindow
  | slidingWindow (t : Text) : Spells (.long t!"sliding-window" t) .slidingWindow
  | x (t : Text) : Spells (.short 'x' t) .perceptron
  | perceptron (t : Text) : Spells (.long t!"perceptron" t) .perceptron
  | g (t : Text) : Spells (.short 'g' t) .tagger
  | tagger (t : Text) : Spells (.long t!"tagger" t) .tagger
  | r (t : Text) (n : Nat) : Numeral t n → n < 2 ^ 64 → Spells (.short 'r' t) (.retrain n)
  | retrain (t : Text) (n : Nat) : Numeral t n → n < 2 ^ 64 → Spells (.long t!"retrain" t) (.retrain n)
  | s (t : Text) (n : Nat) : Numeral t n → n < 2 ^ 64 → Spells (.short 's' t) (.supervised n)
  | supervised (t : Text) (n : Nat) : Numeral t n → n < 2 ^ 64 → Spells (.long t!"supervised" t) (.supervised n)
  | t (t : Text) (n : Nat) : Numeral t n → n < 2 ^ 64 → Spells (.short 't' t) (.train n)
  | train (t : Text) (n : Nat) : Numeral t n → n < 2 ^ 64 → Spells (.long t!"train" t) (.train n)

/-- `l` is a way to write the options `os`, in this order. -/
inductive SpellsAll : List Arg → List Sem → Prop where
  | nil : SpellsAll [] []
  | cons {a : Arg} {o : Sem} {as : List Arg} {os : List Sem} : Spells a o → SpellsAll as os → SpellsAll (a :: as) (o :: os)

/-- The lines of the usage.  `window`: with `-w`. -/
inductive Job where
  | tag (a : Algo) (tagger : Text)
  | tagFrom (a : Algo) (tagger input : Text)
  | tagTo (a : Algo) (tagger input output : Text)
  | retrain (window : Bool) (n : Nat) (corpus tagger : Text)
  | supervised (n : Nat) (dic corpus tsx tagger tagged untagged : Text)
  | supervised0 (dic tsx tagger tagged untagged : Text)
  | unigram (model : Nat) (tagger tagged : Text)
  | perceptron (n : Nat) (tagger tagged untagged mtx : Text)
  | train (window : Bool) (n : Nat) (dic corpus tsx tagger : Text)

def Algo.sems : Algo → List Sem
  | .hmm => []
  | .window => [.slidingWindow]
  | .unigram m => [.unigram m]
  | .perceptron => [.perceptron]

def windowAlgo (window : Bool) : Algo := if window then .window else .hmm

/-- The options of a line. -/
def Job.sems : Job → List Sem
  | .tag a _ => .tagger :: a.sems
  | .tagFrom a _ _ => .tagger :: a.sems
  | .tagTo a _ _ _ => .tagger :: a.sems
  | .retrain w n _ _ => .retrain n :: (windowAlgo w).sems
  | .supervised n _ _ _ _ _ _ => [.supervised n]
  | .supervised0 _ _ _ _ _ => [.supervised 0]
  | .unigram m _ _ => [.supervised 0, .unigram m]
  | .perceptron n _ _ _ _ => [.supervised n, .perceptron]
  | .train w n _ _ _ _ => .train n :: (windowAlgo w).sems

/-- The files of a line, in the order of the usage. -/
def Job.files : Job → List Text
  | .tag _ t => [t]
  | .tagFrom _ t i => [t, i]
  | .tagTo _ t i o => [t, i, o]
  | .retrain _ _ c t => [c, t]
  | .supervised _ d c x t tg u => [d, c, x, t, tg, u]
  | .supervised0 d x t tg u => [d, x, t, tg, u]
  | .unigram _ t tg => [t, tg]
  | .perceptron _ t tg u m => [t, tg, u, m]
  | .train _ _ d c x t => [d, c, x, t]

/-- What comes before the tagging: with the tagger read as `a`.  A tagger file without an option is first looked at as one of the perceptron. -/
def loads (isPerceptron : Text → Bool) (a : Algo) (t : Text) : List Act × Algo :=
  if a = .hmm then (if isPerceptron t then ([.load .perceptron t], .perceptron) else ([.tryLoad .perceptron t, .load .hmm t], .hmm)) else ([.load a t], a)

/-- The input and the output are opened, in an order that depends on the program. -/
def opens (a : Algo) (i o : Text) : List Act := if a = .hmm ∨ a = .window then [.create o, .input (some i)] else [.input (some i), .create o]

/-- What is done for a line of the usage. -/
def Job.acts (isPerceptron : Text → Bool) : Job → List Act
  | .tag a t => let (l, b) := loads isPerceptron a t; l ++ [.input none, .tag b none]
  | .tagFrom a t i => let (l, b) := loads isPerceptron a t; l ++ [.input (some i), .tag b none]
  | .tagTo a t i o => let (l, b) := loads isPerceptron a t; l ++ opens b i o ++ [.tag b (some o)]
  | .retrain w n c t => [.load (windowAlgo w) t, .look c, .dict none, .reset, .iterate c n, .create t, .save t]
  | .supervised n d c x t tg u => [.spec .hmm x, .look u, .dict (some d), .reset, .initTagged tg u, .iterate c n, .create t, .save t]
  | .supervised0 d x t tg u => [.spec .hmm x, .look u, .dict (some d), .reset, .initTagged tg u, .create t, .save t]
  | .unigram m t tg => [.input (some tg), .trainStream (.unigram m) tg none 0, .create t, .save t]
  | .perceptron n t tg u m => [.input (some tg), .input (some u), .spec .perceptron m, .trainStream .perceptron tg (some u) n, .create t, .save t]
  | .train w n d c x t => [.spec (windowAlgo w) x, .look c, .dict (some d), .reset, .initKupiec c, .iterate c n, .create t, .save t]

/-- The file that a line of the usage writes. -/
def Job.target : Job → Option Text
  | .tag _ _ => none
  | .tagFrom _ _ _ => none
  | .tagTo _ _ _ o => some o
  | .retrain _ _ _ t => some t
  | .supervised _ _ _ _ t _ _ => some t
  | .supervised0 _ _ t _ _ => some t
  | .unigram _ t _ => some t
  | .perceptron _ t _ _ _ => some t
  | .train _ _ _ _ _ t => some t

/-- What an option is about: a flag, the algorithm, the function. -/
inductive Slot where
  | flag (f : Flag)
  | kind
  | func
  deriving DecidableEq

def Sem.slot : Sem → Slot
  | .flag f => .flag f
  | .unigram _ => .kind
  | .slidingWindow => .kind
  | .perceptron => .kind
  | .tagger => .func
  | .retrain _ => .func
  | .supervised _ => .func
  | .train _ => .func

end Verif.Driver
