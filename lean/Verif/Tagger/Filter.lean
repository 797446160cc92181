import Verif.Tagger.Stream
/-!
# apertium-filter-ambiguity

Models of `TaggerWord::outputOriginal` (apertium/tagger_word.cc), `HMM::filter_ambiguity_classes`
(apertium/hmm.cc) and the main function of apertium/apertium_filter_ambiguity.cc.
-/
namespace Verif.Tagger

/-- `s.c_str()` as a format argument of `u_fprintf` (tagger_word.cc:337): the text up to the first NUL. -/
def cstr (s : Text) : Text := s.takeWhile fun c => decide (c ≠ '\x00')

/-- `TaggerWord::outputOriginal`, tagger_word.cc:324-339: the superficial form and the lexical forms by
increasing coarse tag; empty ones are left out. -/
def TW.original (w : TW) : Text :=
  let s := w.sf ++ w.forms.flatMap fun x => if x.2 = [] then [] else '/' :: x.2
  if s = [] then [] else '^' :: cstr s ++ ['$', '\n']

/-- The loop of `HMM::filter_ambiguity_classes`, hmm.cc:424-443; `seen` is the set `ambiguity_classes`. -/
def filterLoop : List Tags → List TW → Text
  | _, [] => []
  | seen, w :: ws =>
    if w.tags.length > 0 then
      if w.tags ∈ seen then filterLoop seen ws
      else w.original ++ filterLoop (w.tags :: seen) ws
    else filterLoop seen ws

/-- apertium_filter_ambiguity.cc:39-79 and hmm.cc:424-443: from the text of the corpus to the text written.
`disc` applies the discard rules of the tagger definition; null flush is off. -/
def filterAmb (cfg : MCfg) (disc : TW → TW) (t : Text) : Outcome Text :=
  (stream cfg false disc t).map fun ws => filterLoop [] (ws.map (·.1))

end Verif.Tagger
