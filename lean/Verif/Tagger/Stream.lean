import Verif.Base
import Verif.Tagger.Classes
/-!
# Words and streams of the HMM/LSW taggers

Models of apertium/tagger_word.cc and apertium/file_morpho_stream.cc.
-/
namespace Verif.Tagger

/-! ## tagger_word.cc -/

/-- `TaggerWord`, tagger_word.h: superficial form, tags, `map<TTag, UString> lexical_forms` (listed by
increasing tag), ignored string, and the two flags for multiwords cut at `+`. -/
structure TW where
  sf : Text := []
  tags : Tags := []
  forms : List (Nat × Text) := []
  ignored : Text := []
  plusCut : Bool := false
  prevPlusCut : Bool := false
  deriving DecidableEq, Repr

/-- `map[k] = v` on the listing by increasing key. -/
def mset (k : Nat) (v : Text) : List (Nat × Text) → List (Nat × Text)
  | [] => [(k, v)]
  | (k', v') :: r => if k < k' then (k, v) :: (k', v') :: r else if k = k' then (k, v) :: r else (k', v') :: mset k v r

/-- `map[k]` read; a missing key is inserted with the empty string, which nobody sees afterwards. -/
def mget (k : Nat) (l : List (Nat × Text)) : Text := ((l.find? (·.1 = k)).map (·.2)).getD []

/-- `TaggerWord::add_tag`, tagger_word.cc:99-119.  `pref lf` stands for "some prefer rule matches `lf`"; the
rules are regular expressions (`Verif.Regex` models their engine). -/
def TW.addTag (pref : Text → Bool) (w : TW) (t : Nat) (lf : Text) : TW :=
  if t ∈ w.tags then
    if pref lf = true then { w with forms := mset t lf w.forms } else w
  else { w with tags := sinsert t w.tags, forms := mset t lf w.forms }

/-- `TaggerWord::isAmbiguous`, tagger_word.cc:126-130. -/
def TW.isAmbiguous (w : TW) : Bool := decide (w.tags.length > 1)

/-- `TaggerWord::add_ignored_string`, tagger_word.cc:278-281. -/
def TW.addIgnored (w : TW) (s : Text) : TW := { w with ignored := w.ignored ++ s }

/-- `TaggerWord::get_lexical_form`, tagger_word.cc:148-200, with `show_ignored_string` true and
`generate_marks` false (their initial values, tagger_word.cc:22, 26); `eofTag` is TAG_kEOF. -/
def TW.lexicalForm (showSf : Bool) (eofTag : Nat) (w : TW) (t : Nat) : Text :=
  if t = eofTag then w.ignored
  else
    let ret := w.ignored ++ (if w.prevPlusCut = true then [] else
      '^' :: (if showSf = true then w.sf ++ ['/'] else []))
    let ret := ret ++
      (match w.forms with
       | [] => '*' :: w.sf
       | (_, f) :: _ => if f.head? = some '*' then '*' :: w.sf else mget t w.forms)
    if ret = w.ignored then ret else ret ++ (if w.plusCut = true then ['+'] else ['$'])

/-- `TaggerWord::get_all_chosen_tag_first`, tagger_word.cc:202-246 (option `-f`). -/
def TW.allFirst (eofTag : Nat) (w : TW) (t : Nat) : Text :=
  if t = eofTag then w.ignored
  else
    let ret := w.ignored ++ (if w.prevPlusCut = true then [] else ['^']) ++ w.sf
    let ret := ret ++
      (if w.forms = [] then '/' :: '*' :: w.sf
       else '/' :: mget t w.forms ++
        (if w.forms.length > 1 then
          (w.tags.filter (· ≠ t)).flatMap fun u => '/' :: mget u w.forms
         else []))
    if ret = w.ignored then ret else ret ++ (if w.plusCut = true then ['+'] else ['$'])

/-! ### discardOnAmbiguity -/

/-- The loop of `discardOnAmbiguity`, tagger_word.cc:350-369.  `l` is `lexical_forms`, `pos` the position of
the iterator, `new` is `newsettag`.  After an erasure the iterator restarts at `begin()` and is then advanced
(`it = lexical_forms.begin(); … it++`), so the new first element is skipped.  If the erased element was the last one left … the loop
ends when one form is left.  The result is `lexical_forms` and `newsettag`. -/
def discardLoop (mt : Text → Bool) : Nat → List (Nat × Text) → Nat → Tags → List (Nat × Text) × Tags
  | 0, l, _, new => (l, new)
  | n + 1, l, pos, new =>
    match l[pos]? with
    | none => (l, new)
    | some (t, f) =>
      let (l1, pos1, new1) := if mt f = true then (l.eraseIdx pos, 0, new) else (l, pos, sinsert t new)
      match l1 with
      | [(t1, _)] => (l1, sinsert t1 new1)
      | _ => discardLoop mt n l1 (pos1 + 1) new1

/-- `TaggerWord::discardOnAmbiguity`, tagger_word.cc:342-374.  `mt` is the pattern; `plen` is the length of the
pattern text: the parameter `tags` shadows the member, so `tags.size() != newsettag.size()` compares the length
of the pattern with the number of tags kept. -/
def TW.discard (mt : Text → Bool) (plen : Nat) (w : TW) : TW :=
  if w.isAmbiguous = true then
    let r := discardLoop mt ((w.forms.length + 1) * (w.forms.length + 1)) w.forms 0 []
    if plen ≠ r.2.length then { w with forms := r.1, tags := r.2 } else { w with forms := r.1 }
  else w

/-! ## file_morpho_stream.cc -/

/-- The recogniser of coarse tags built from the tagger definition (lttoolbox `MatchState`/`MatchExe`, not in
this repository): an arbitrary deterministic machine over characters and whole `<tags>`.  Simplification: it
reads code points, C++ UTF-16 units. -/
structure PMatcher where
  S : Type
  init : S
  char : S → Char → S
  tag : S → Text → S
  dead : S → Bool
  fin : S → Option Nat

/-- The configuration of a stream: the recogniser, TAG_kEOF, TAG_kUNDEF, and whether a prefer rule matches. -/
structure MCfg where
  m : PMatcher
  keof : Nat
  kundef : Nat
  pref : Text → Bool

/-- `std::string::substr(pos, n)` with a count converted from a signed integer: negative counts are huge. -/
def substr (s : Text) (pos : Nat) (n : Int) : Text :=
  if n < 0 then s.drop pos else (s.drop pos).take n.toNat

/-- file_morpho_stream.cc:162-178: position of the `>` that ends a tag, skipping escaped characters; `none` if
there is none. -/
def closeTag : Nat → Text → Nat → Option Nat
  | 0, _, _ => none
  | n + 1, s, j =>
    match s[j]? with
    | none => none
    | some c => if c = '\\' then closeTag n s (j + 2) else if c = '>' then some j else closeTag n s (j + 1)

/-- The local variables of `lrlmClassify` and the words `vwords`.  `lastType` is `none` for -1. -/
structure LSt (S : Type) where
  i : Nat
  floor : Nat
  lastType : Option Nat
  lastPos : Int
  iv : Nat
  ms : S
  vw : List TW

/-- Change the word number `k`. -/
def modWord (k : Nat) (f : TW → TW) (vw : List TW) : List TW :=
  match vw[k]? with
  | none => vw
  | some w => vw.set k (f w)

/-- file_morpho_stream.cc:193-210 and 229-246: the form recognised so far is added; at a `+` the word is cut.
`extra` is 1 in the first place (line 200, `last_pos = floor + 1`) and 0 in the second (line 236,
`last_pos = floor`). -/
def cutForm (cfg : MCfg) (str : Text) (extra : Int) (s : LSt cfg.m.S) : LSt cfg.m.S :=
  let vw := modWord s.iv (fun w => w.addTag cfg.pref (s.lastType.getD 0)
    (substr str s.floor (s.lastPos - s.floor + 1))) s.vw
  let nx := (s.lastPos + 1).toNat
  if str[nx]? = some '+' then
    let vw := modWord s.iv (fun w => { w with plusCut := true }) vw
    let vw := if vw.length ≤ s.iv + 1 then vw ++ [{ prevPlusCut := true }] else vw
    { s with vw := vw, iv := s.iv + 1, ms := cfg.m.init, lastPos := (nx : Int) + extra, i := nx, floor := nx + 1 }
  else { s with vw := vw, i := s.floor, floor := s.floor + 1 }

/-- file_morpho_stream.cc:214-216 and 250-252: no coarse tag. -/
def undefForm (cfg : MCfg) (str : Text) (s : LSt cfg.m.S) : List TW :=
  modWord s.iv (fun w => w.addTag cfg.pref cfg.kundef (str.drop s.floor)) s.vw

/-- file_morpho_stream.cc:152-187: one turn of the loop up to the step of the recogniser: a character, or a whole
tag.  A recognised prefix is remembered at `+`. -/
def lrlmRead (cfg : MCfg) (str : Text) (c : Char) (s : LSt cfg.m.S) : LSt cfg.m.S :=
  if c ≠ '<' then
    let s := if c = '+' then
        match cfg.m.fin s.ms with
        | some v => { s with lastPos := (s.i : Int) - 1, lastType := some v }
        | none => s
      else s
    { s with ms := cfg.m.char s.ms c }
  else
    match closeTag str.length str (s.i + 1) with
    | some j => { s with ms := cfg.m.tag s.ms ((str.drop s.i).take (j - s.i + 1)), i := j }
    | none => { s with ms := cfg.m.tag s.ms [] }

/-- file_morpho_stream.cc:150-257: the loop.  Either the function returns in the loop (`.inl`), or the loop ends
(`.inr`). -/
def lrlmLoop (cfg : MCfg) (str : Text) : Nat → LSt cfg.m.S → Outcome (List TW ⊕ LSt cfg.m.S)
  | 0, _ => .diverge
  | n + 1, s =>
    match str[s.i]? with
    | none => .ok (.inr s)
    | some c =>
      let s := lrlmRead cfg str c s
      if cfg.m.dead s.ms = true then
        if s.lastPos ≠ s.floor then
          let s := cutForm cfg str 1 s
          lrlmLoop cfg str n { s with i := s.i + 1 }
        else .ok (.inl (undefForm cfg str s))
      else if s.i + 1 = str.length ∧ cfg.m.fin s.ms = none then
        if s.lastPos ≠ s.floor then
          let s := cutForm cfg str 0 s
          lrlmLoop cfg str n { s with i := s.i + 1 }
        else .ok (.inl (undefForm cfg str s))
      else lrlmLoop cfg str n { s with i := s.i + 1 }

/-- `FileMorphoStream::lrlmClassify`, file_morpho_stream.cc:140-286, with `ivwords` = 0 at the call (as it always
is).  In the undo branch (lines 268-276) `delete vwords[ivwords]; vwords.pop_back()` assumes that
`ivwords` is the last word; if it is not, a dangling pointer stays in `vwords` (`ub`). -/
def classify (cfg : MCfg) (str : Text) (vw : List TW) : Outcome (List TW) :=
  (lrlmLoop cfg str ((str.length + 2) * (str.length + 2))
    { i := 0, floor := 0, lastType := none, lastPos := 0, iv := 0, ms := cfg.m.init, vw := vw }).bind fun r =>
  match r with
  | .inl vw => .ok vw
  | .inr s =>
    match cfg.m.fin s.ms with
    | some v => .ok (modWord s.iv (fun w => w.addTag cfg.pref v (str.drop s.floor)) s.vw)
    | none =>
      if s.iv > 0 then
        if s.vw.length = s.iv + 1 then
          .ok (modWord 0 (fun w =>
            ({ w with plusCut := false, tags := w.tags.filter (· ≠ s.lastType.getD 0) } : TW).addTag cfg.pref
              (s.lastType.getD 0) str) (s.vw.take 1))
        else .ub
      else .ok (modWord s.iv (fun w => w.addTag cfg.pref cfg.kundef (str.drop s.floor)) s.vw)

/-- What `InputFile::get` at the end of the input leaves behind: is the rest of the text empty? -/
def atEnd (nf : Bool) : Text → Option (Text × Bool)
  | [] => some ([], true)
  | c :: r => if nf = true ∧ c = '\x00' then some (r, false) else none

/-- The result of reading one batch of words: the words, whether `end_of_file` was set, the rest of the input,
and whether the end of the input itself was reached (`input.eof()`). -/
structure Batch where
  words : List TW
  eof : Bool
  rest : Text
  inputEof : Bool
  deriving DecidableEq, Repr

/-- The end of the input inside a word or before it, file_morpho_stream.cc:85-90 etc.: the text read so far is
ignored text of the first word, which gets the tag TAG_kEOF. -/
def endBatch (cfg : MCfg) (vw : List TW) (str rest : Text) (ie : Bool) : Batch :=
  { words := modWord 0 (fun w => (w.addIgnored str).addTag cfg.pref cfg.keof []) vw, eof := true, rest := rest,
    inputEof := ie }

/-- `readRestOfWord`, file_morpho_stream.cc:339-390: the analyses. -/
def readAnalyses (cfg : MCfg) (nf : Bool) : Nat → Text → List TW → Text → Outcome Batch
  | 0, _, _, _ => .diverge
  | n + 1, t, vw, str =>
    match atEnd nf t with
    | some (r, ie) => .ok (endBatch cfg vw str r ie)
    | none =>
      match t with
      | [] => .diverge
      | '\\' :: r =>
        match r with
        | [] => readAnalyses cfg nf n [] vw (str ++ ['\\', eofChar])
        | d :: r' => readAnalyses cfg nf n r' vw (str ++ ['\\', d])
      | c :: r =>
        if c = '/' then (classify cfg str vw).bind fun vw' => readAnalyses cfg nf n r vw' []
        else if c = '$' then
          if str.head? = some '*' then .ok { words := vw, eof := false, rest := r, inputEof := false }
          else (classify cfg str vw).map fun vw' => { words := vw', eof := false, rest := r, inputEof := false }
        else readAnalyses cfg nf n r vw (str ++ [c])

/-- `readRestOfWord`, file_morpho_stream.cc:288-337: the superficial form.  A word without analyses (`^sf$`)
goes on reading analyses behind the `$`. -/
def readSurface (cfg : MCfg) (nf : Bool) : Nat → Text → List TW → Text → Outcome Batch
  | 0, _, _, _ => .diverge
  | n + 1, t, vw, str =>
    match atEnd nf t with
    | some (r, ie) => .ok (endBatch cfg vw str r ie)
    | none =>
      match t with
      | [] => .diverge
      | '\\' :: r =>
        match r with
        | [] => readSurface cfg nf n [] vw (str ++ ['\\', eofChar])
        | d :: r' => readSurface cfg nf n r' vw (str ++ ['\\', d])
      | c :: r =>
        if c = '/' then readAnalyses cfg nf n r (modWord 0 (fun w => { w with sf := str }) vw) []
        else if c = '$' then
          readAnalyses cfg nf n r (modWord 0 (fun w => ({ w with sf := str } : TW).addIgnored ['$']) vw) str
        else readSurface cfg nf n r vw (str ++ [c])

/-- `get_next_word`, file_morpho_stream.cc:79-137: the text before the word, then the word.  `first`: no
character has been read yet (then the end of the input after a backslash is not noticed at once). -/
def readBatch (cfg : MCfg) (nf : Bool) : Nat → Bool → Text → Text → Outcome Batch
  | 0, _, _, _ => .diverge
  | n + 1, first, t, str =>
    match atEnd nf t with
    | some (r, ie) => .ok (endBatch cfg [{}] str r ie)
    | none =>
      match t with
      | [] => .diverge
      | '\\' :: r =>
        if first = true then
          match r with
          | [] => readBatch cfg nf n false [] (str ++ ['\\', eofChar])
          | d :: r' => readBatch cfg nf n false r' (str ++ ['\\', d])
        else
          match atEnd nf r with
          | some (r', ie) => .ok (endBatch cfg [{}] (str ++ ['\\']) r' ie)
          | none =>
            match r with
            | [] => .diverge
            | d :: r' => readBatch cfg nf n false r' (str ++ ['\\', d])
      | c :: r =>
        if c = '^' then readSurface cfg nf n r [({} : TW).addIgnored str] []
        else readBatch cfg nf n false r (str ++ [c])

/-- `get_next_word` until it returns NULL, file_morpho_stream.cc:57-77: all words, each with the value of
`getEndOfFile()` the tagger sees after it (the tagger resets the flag after each word).  `disc` applies the
discard rules to an ambiguous word. -/
def readWords (cfg : MCfg) (nf : Bool) (disc : TW → TW) : Nat → Text → Outcome (List (TW × Bool))
  | 0, _ => .diverge
  | n + 1, t =>
    (readBatch cfg nf (2 * t.length + 2) true t []).bind fun b =>
      let ws := b.words.map fun w => if w.isAmbiguous = true then disc w else w
      let items := match ws with
        | [] => []
        | w :: r => (w, b.eof) :: r.map fun w => (w, false)
      if b.inputEof = true then .ok items
      else (readWords cfg nf disc n b.rest).map (items ++ ·)

/-- All words of a text. -/
def stream (cfg : MCfg) (nf : Bool) (disc : TW → TW) (t : Text) : Outcome (List (TW × Bool)) :=
  readWords cfg nf disc (t.length + 1) t

end Verif.Tagger
