import Verif.Tagger.Filter
import Verif.Tagger.StreamSpec
/-!
# Filtering a corpus by ambiguity classes: what should be written (C88)
-/
namespace Verif.Tagger
open Verif.Stream

/-- The analyses written for a lexical unit: analyses of its own, one for each of its coarse tags, in the order
of the tags. -/
structure Kept (cfg : MCfg) (l : TLu) (as : List (List Atom)) : Prop where
  own : ∀ a ∈ as, a ∈ l.ans
  tags : as.map (fun a => classOf cfg (renderAtoms a)) = l.tags cfg

/-- One line: the superficial form and the analyses. -/
def line (sf : List Atom) (as : List (List Atom)) : Text :=
  '^' :: renderAtoms sf ++ (as.flatMap fun a => '/' :: renderAtoms a) ++ ['$', '\n']

/-- `ks` are the representatives of the ambiguity classes among `ls`: for each class of a known word its first word. -/
structure Reps (cfg : MCfg) (ls ks : List TLu) : Prop where
  sub : ks.Sublist ls
  nodup : (ks.map (·.tags cfg)).Nodup
  all : ∀ c : Tags, c ∈ ks.map (·.tags cfg) ↔ c ≠ [] ∧ c ∈ ls.map (·.tags cfg)
  first : ∀ k ∈ ks, ∃ pre post, ls = pre ++ k :: post ∧ ∀ l ∈ pre, l.tags cfg ≠ k.tags cfg

/-- Lexical units, and the lines for them. -/
inductive Lines (cfg : MCfg) : List TLu → Text → Prop
  | nil : Lines cfg [] []
  | cons (k : TLu) (ks : List TLu) (as : List (List Atom)) (out : Text) : Kept cfg k as → Lines cfg ks out →
      Lines cfg (k :: ks) (line k.sf as ++ out)

/-- Corpora for the filter: well-formed, no NUL in words and no empty analysis. -/
structure Corpus (cfg : MCfg) (r : TReq) : Prop where
  wf : r.Wf cfg
  nul : ∀ l ∈ r.lus, '\x00' ∉ renderAtoms l.sf ∧ ∀ a ∈ l.ans, '\x00' ∉ renderAtoms a
  ne : ∀ l ∈ r.lus, ∀ a ∈ l.ans, a ≠ []

/-- The sets of coarse tags of the words of a text, as the trainers read them. -/
def classes (cfg : MCfg) (t : Text) : Outcome (List Tags) := (stream cfg false id t).map fun ws => ws.map (·.1.tags)

end Verif.Tagger
