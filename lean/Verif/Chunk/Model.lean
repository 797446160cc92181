import Verif.Transfer.Word
/-!
# Model of the functions of apertium-postchunk that read a chunk (apertium/postchunk.cc:774-1182)

A position `i` in the text of the chunk is the rest of the text from there; `chunk[i]` at the end of the text, on which the loops
here do not stop, is undefined behaviour.  (Reading exactly one place after the end gives NUL in C++; the loops go on after that.)
-/
namespace Verif.Chunk

/-- `StringUtils::getcase`. -/
inductive Case where
  | aa | Aa | AA
  deriving DecidableEq, Repr

/-- The functions of ICU and lttoolbox that are used. -/
structure Uni where
  toupper : Char → Char
  isalnum : Char → Bool
  isdigit : Char → Bool
  stoi : Text → Int
  getcase : Text → Case

/-- `getVecTags` (postchunk.cc:773-802).  The first argument is `mytag` inside the inner loop. -/
def getVecTags : Option Text → Text → Outcome (List Text)
  | none, [] => .ok []
  | none, c :: r =>
    if c = '\\' then
      match r with
      | [] => .ub
      | _ :: r' => getVecTags none r'
    else if c = '<' then getVecTags (some ['<']) r
    else if c = '{' then .ok []
    else getVecTags none r
  | some _, [] => .ub
  | some t, c :: r => if c = '>' then (getVecTags none r).map ((t ++ ['>']) :: ·) else getVecTags (some (t ++ [c])) r

/-- `beginChunk` (postchunk.cc:804-819): the text from there. -/
def beginChunk : Text → Outcome Text
  | [] => .ok []
  | c :: r =>
    if c = '\\' then
      match r with
      | [] => .ub
      | _ :: r' => beginChunk r'
    else if c = '{' then .ok r
    else beginChunk r

/-- The loop of `wordzero` and `pseudolemma` (postchunk.cc:827-861): the text before the first unescaped character
in `stop`, or nothing. -/
def before (stop : List Char) : Text → Text → Outcome Text
  | _, [] => .ok []
  | acc, c :: r =>
    if c = '\\' then
      match r with
      | [] => .ub
      | d :: r' => before stop (acc ++ [c, d]) r'
    else if c ∈ stop then .ok acc
    else before stop (acc ++ [c]) r

/-- `wordzero` (postchunk.cc:827-843). -/
def wordzero (t : Text) : Outcome Text := before ['{'] [] t

/-- `pseudolemma` (postchunk.cc:845-861). -/
def pseudolemma (t : Text) : Outcome Text := before ['<', '{'] [] t

/-- Where the loop over a word is: in the text, in a tag, in a reference to a tag of the chunk. -/
inductive WMode where
  | text
  | tag
  | ref (digits : Text)

/-- `vectags[value]` with `value = stoi(..) - 1` as an unsigned number (postchunk.cc:902-906). -/
def tagRef (u : Uni) (tags : List Text) (digits : Text) : Text :=
  if 1 ≤ u.stoi digits then (tags[(u.stoi digits - 1).toNat]?).getD [] else []

/-- The loop `while(chunk[++i] != '$')` (postchunk.cc:889-942, 993-1045, 1082-1133: three copies): what is written for the word,
`uppercase_first` after it and the rest of the text after the `$`. -/
def wordBody (u : Uni) (tags : List Text) (all : Bool) : WMode → Bool → Text → Outcome (Text × Bool × Text)
  | _, _, [] => .ub
  | .text, first, c :: r =>
    if c = '$' then .ok ([], first, r)
    else if c = '\\' then
      match r with
      | [] => .ub
      | d :: r' => (wordBody u tags all .text first r').map fun (o, f, t) => (c :: d :: o, f, t)
    else if c = '<' then
      match r with
      | [] => .ub
      | d :: r' =>
        if u.isdigit d then wordBody u tags all (.ref [d]) first r'
        else (wordBody u tags all .tag first (d :: r')).map fun (o, f, t) => (c :: o, f, t)
    else if all then (wordBody u tags all .text first r).map fun (o, f, t) => (u.toupper c :: o, f, t)
    else if first = true ∧ u.isalnum c = true then
      (wordBody u tags all .text false r).map fun (o, f, t) => (u.toupper c :: o, f, t)
    else (wordBody u tags all .text first r).map fun (o, f, t) => (c :: o, f, t)
  | .tag, first, c :: r =>
    if c = '>' then (wordBody u tags all .text first r).map fun (o, f, t) => (c :: o, f, t)
    else (wordBody u tags all .tag first r).map fun (o, f, t) => (c :: o, f, t)
  | .ref ds, first, c :: r =>
    if c = '>' then (wordBody u tags all .text first r).map fun (o, f, t) => (tagRef u tags ds ++ o, f, t)
    else wordBody u tags all (.ref (ds ++ [c])) first r

/-- The loop `while(chunk[++i] != ']')` (postchunk.cc:947-961, 1149-1161): what is copied, without the `]`, and the rest after it. -/
def supBody : Text → Outcome (Text × Text)
  | [] => .ub
  | c :: r =>
    if c = ']' then .ok ([], r)
    else if c = '\\' then
      match r with
      | [] => .ub
      | d :: r' => (supBody r').map fun (o, t) => (c :: d :: o, t)
    else (supBody r).map fun (o, t) => (c :: o, t)

/-- The main loop of `unchunk` (postchunk.cc:880-969).  `endChunk` is `size() - 2` (postchunk.cc:821-825), so the loop goes on
while more than two characters are left.  (The fuel is the length of the text.) -/
def unLoop (u : Uni) (tags : List Text) (all : Bool) : Nat → Bool → Text → Outcome Text
  | 0, _, _ => .ok []
  | n + 1, first, t =>
    match t with
    | [] => .ok []
    | c :: r =>
      if r.length < 2 then .ok []
      else if c = '\\' then
        match r with
        | [] => .ub
        | d :: r' => (unLoop u tags all n first r').map fun o => c :: d :: o
      else if c = '^' then
        (wordBody u tags all .text first r).bind fun (o, f, r') =>
          (unLoop u tags all n f r').map fun o' => '^' :: o ++ '$' :: o'
      else if c = '[' then
        (supBody r).bind fun (o, r') => (unLoop u tags all n first r').map fun o' => '[' :: o ++ ']' :: o'
      else (unLoop u tags all n first r).map fun o => c :: o

/-- `unchunk` (postchunk.cc:863-969). -/
def unchunk (u : Uni) (dictionaryCase : Bool) (chunk : Text) : Outcome Text :=
  (getVecTags none chunk).bind fun tags =>
  (pseudolemma chunk).bind fun lem =>
  (beginChunk chunk).bind fun t =>
    unLoop u tags (!dictionaryCase && decide (u.getcase lem = .AA)) t.length
      (!dictionaryCase && decide (u.getcase lem = .Aa)) t

/-- The loop over a word-bound blank (postchunk.cc:1063-1080), and the `^` after it, which is skipped: `prev` is `chunk[i-1]`. -/
def wbBody : Char → Text → Outcome (Text × Text)
  | _, [] => .ub
  | prev, c :: r =>
    if c = '\\' then
      match r with
      | [] => .ub
      | d :: r' => (wbBody d r').map fun (o, t) => (c :: d :: o, t)
    else if c = ']' ∧ prev = ']' then
      match r with
      | [] => .ub
      | _ :: r' => .ok ([c], r')
    else (wbBody c r).map fun (o, t) => (c :: o, t)

/-- The state of `splitWordsAndBlanks`. -/
structure SplitSt where
  words : List Text
  blanks : List Text
  lastblank : Bool
  first : Bool

/-- `blanks.push_back(new UString(""))` if the last thing was not a blank (postchunk.cc:985-989, 1054-1058). -/
def SplitSt.sep (s : SplitSt) : SplitSt := if s.lastblank then s else { s with blanks := s.blanks ++ [[]] }

/-- Text is added to the last blank, or to a new one after a word (postchunk.cc:1142-1181). `blanks.back()` with no
blanks is undefined behaviour. -/
def SplitSt.addBlank (s : SplitSt) (t : Text) : Outcome SplitSt :=
  if s.lastblank then
    match s.blanks.getLast? with
    | none => .ub
    | some b => .ok { s with blanks := s.blanks.dropLast ++ [b ++ t] }
  else .ok { s with blanks := s.blanks ++ [t], lastblank := true }

/-- The main loop of `splitWordsAndBlanks` (postchunk.cc:983-1181). -/
def splitLoop (u : Uni) (tags : List Text) (all : Bool) : Nat → SplitSt → Text → Outcome SplitSt
  | 0, s, _ => .ok s
  | n + 1, s, t =>
    match t with
    | [] => .ok s
    | c :: r =>
      if r.length < 2 then .ok s
      else if c = '^' then
        (wordBody u tags all .text s.first r).bind fun (o, f, r') =>
          splitLoop u tags all n { s.sep with words := s.words ++ [o], lastblank := false, first := f } r'
      else if c = '[' ∧ r.head? = some '[' then
        (wbBody '[' (c :: r)).bind fun (wb, r1) =>
        (wordBody u tags all .text s.first r1).bind fun (o, f, r') =>
          splitLoop u tags all n { s.sep with words := s.words ++ [wb ++ o], lastblank := false, first := f } r'
      else if c = '[' then
        (supBody r).bind fun (o, r') => (s.addBlank ('[' :: o ++ [']'])).bind fun s' => splitLoop u tags all n s' r'
      else if c = '\\' then
        match r with
        | [] => .ub
        | d :: r' => (s.addBlank [c, d]).bind fun s' => splitLoop u tags all n s' r'
      else (s.addBlank [c]).bind fun s' => splitLoop u tags all n s' r

/-- `splitWordsAndBlanks` (postchunk.cc:971-1182); `blanks` is what the vector of blanks holds before. -/
def splitWordsAndBlanks (u : Uni) (chunk : Text) (blanks : List Text) : Outcome (List Text × List Text) :=
  (getVecTags none chunk).bind fun tags =>
  (pseudolemma chunk).bind fun lem =>
  (beginChunk chunk).bind fun t =>
    (splitLoop u tags (decide (u.getcase lem = .AA)) t.length
      { words := [], blanks := blanks, lastblank := true, first := decide (u.getcase lem = .Aa) } t).map fun s =>
      (s.words, s.blanks)

/-- What a rule sees (`applyRule`, postchunk.cc:682-699): word 0 and the words of the chunk, and the queue of blanks.
`tmpblank` holds the blank read after the chunk, which comes first in `tmpblank`, and which is a reference to the token in the input
buffer: what it holds in the end is what is written after the chunk. -/
structure RuleView where
  zero : Text
  words : List Text
  blanks : List Text
  following : Text
  deriving DecidableEq, Repr

def ruleView (u : Uni) (chunk following : Text) : Outcome RuleView :=
  (splitWordsAndBlanks u chunk [following]).bind fun (ws, bs) =>
  (wordzero chunk).bind fun z =>
    if ws.length ≤ bs.length ∨ ws.length ≤ 1 then
      .ok { zero := z, words := ws, blanks := (bs.drop 1).take (ws.length - 1), following := (bs.head?).getD [] }
    else .ub

end Verif.Chunk
