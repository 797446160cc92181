import Verif.Transfer.Loop
/-!
# Model of the tokenizers of apertium-transfer, -interchunk and -postchunk, and of null flush

`Transfer::readToken` (transfer.cc:791-897), `Interchunk::readToken` (interchunk.cc:363-438), `Postchunk::readToken`
(postchunk.cc:457-528, the same code).  The functions here give all tokens up to the first `tt_eof`, what is left of the input, and
whether the end was a NUL (in null flush mode) or the end of the input.  Simplification: in the code tokens are read when the main
loop asks for them.

A loop that gets `U_EOF` for ever and adds it to a string is `diverge` (it ends when memory does).  An escape at the end of the input
adds `U_EOF` to the token.
-/
namespace Verif.Token
open Verif.Transfer (Tok Matcher Actions LoopSt loopRun loopInit)

/-- The result of reading to an end-of-file token. -/
structure Read where
  toks : List Tok
  rest : Text
  more : Bool
  deriving DecidableEq, Repr

def Read.cons (t : Tok) (r : Read) : Read := { r with toks := t :: r.toks }

/-- The loop over a superblank (interchunk.cc:386-398). -/
def supBody : Text → Outcome (Text × Text)
  | [] => .diverge
  | c :: r =>
    if c = '\\' then
      match r with
      | [] => .diverge
      | d :: r' => (supBody r').map fun (o, t) => (c :: d :: o, t)
    else if c = ']' then .ok ([c], r)
    else (supBody r).map fun (o, t) => (c :: o, t)

/-- The loop over the content of a chunk (interchunk.cc:400-417): it ends at a `}` that is followed by `$`. -/
def braceBody : Text → Outcome (Text × Text)
  | [] => .diverge
  | c :: r =>
    if c = '\\' then
      match r with
      | [] => .diverge
      | d :: r' => (braceBody r').map fun (o, t) => (c :: d :: o, t)
    else if c = '}' then
      if r.head? = some '$' then .ok ([c], r) else (braceBody r).map fun (o, t) => (c :: o, t)
    else (braceBody r).map fun (o, t) => (c :: o, t)

/-- `readToken` of interchunk and postchunk, again and again until `tt_eof`: `flush` is `internal_null_flush`, `content` is what is
in the current token.  The second component is `inword` at the end.  (The fuel is more than the length of the input.) -/
def icTokens (flush : Bool) : Nat → Bool → Text → Text → Outcome (Read × Bool)
  | 0, _, _, _ => .diverge
  | _ + 1, inword, content, [] => .ok ({ toks := [.eof content], rest := [], more := false }, inword)
  | n + 1, inword, content, c :: r =>
    if flush = true ∧ c = '\x00' then .ok ({ toks := [.eof content], rest := r, more := true }, inword)
    else if c = '\\' then
      match r with
      | [] => icTokens flush n inword (content ++ [c, eofChar]) []
      | d :: r' => icTokens flush n inword (content ++ [c, d]) r'
    else if c = '[' then (supBody r).bind fun (o, r') => icTokens flush n inword (content ++ c :: o) r'
    else if inword = true ∧ c = '{' then (braceBody r).bind fun (o, r') => icTokens flush n inword (content ++ c :: o) r'
    else if inword = true ∧ c = '$' then (icTokens flush n false [] r).map fun (x, w) => (x.cons (.word content), w)
    else if c = '^' then (icTokens flush n true [] r).map fun (x, w) => (x.cons (.blank content), w)
    else icTokens flush n inword (content ++ [c]) r

/-- The loop over a superblank in transfer.cc:848-880: what is added to the token, whether it stopped at a second `[` (word-bound
blank), and the rest.  At the end of the input, and before a NUL, it just stops. -/
def trSup : Text → Text × Bool × Text
  | [] => ([], false, [])
  | c :: r =>
    if c = '\\' then
      match r with
      | [] => ([c, eofChar], false, [])
      | d :: r' => (c :: d :: (trSup r').1, (trSup r').2)
    else if c = '[' then ([], true, r)
    else if c = ']' then ([c], false, r)
    else if c = '\x00' then ([], false, c :: r)
    else (c :: (trSup r).1, (trSup r).2)

/-- The loop over a word with word-bound blank (transfer.cc:812-835), after `[[` and the first character: to the next `$` that is
not escaped.  (`null_flush` is false there: transfer.cc:915, 933.) -/
def trWb : Text → Outcome (Text × Text)
  | [] => .diverge
  | c :: r =>
    if c = '\\' then
      match r with
      | [] => .diverge
      | d :: r' => (trWb r').map fun (o, t) => (c :: d :: o, t)
    else if c = '$' then .ok ([], r)
    else (trWb r).map fun (o, t) => (c :: o, t)

/-- `Transfer::readToken`, again and again until `tt_eof`; `wb` is `in_wblank`. -/
def trTokens (flush : Bool) : Nat → Bool → Text → Text → Outcome Read
  | 0, _, _, _ => .diverge
  | _ + 1, _, content, [] => .ok { toks := [.eof content], rest := [], more := false }
  | n + 1, wb, content, c :: r =>
    if flush = true ∧ c = '\x00' then .ok { toks := [.eof content], rest := r, more := true }
    else if wb = true then
      (trWb r).bind fun (o, r') => (trTokens flush n false [] r').map (·.cons (.word ('[' :: '[' :: c :: o)))
    else if c = '\\' then
      match r with
      | [] => trTokens flush n wb (content ++ [c, eofChar]) []
      | d :: r' => trTokens flush n wb (content ++ [c, d]) r'
    else if c = '[' then
      if (trSup r).2.1 then
        -- `content.pop_back()` removes the last character, whatever it is
        (trTokens flush n true [] (trSup r).2.2).map (·.cons (.blank (content ++ c :: (trSup r).1).dropLast))
      else trTokens flush n wb (content ++ c :: (trSup r).1) (trSup r).2.2
    else if c = '$' then (trTokens flush n wb [] r).map (·.cons (.word content))
    else if c = '^' then (trTokens flush n wb [] r).map (·.cons (.blank content))
    else trTokens flush n wb (content ++ [c]) r

/-! ## Null flush -/

variable {σ V : Type}

/-- `interchunk_wrapper_null_flush` (interchunk.cc:440-452), the same in postchunk.cc:530-547 and (with `inword` always false:
`in_wblank` is reset by every end of file, transfer.cc:806) transfer.cc:913-929: the main loop on every part of the input, each with the
variables at their defaults `v`, then NUL.  `tokens` is the tokenizer. `while(!in.eof())`: `eof()` is false after a NUL has been read.
`fuel` bounds the steps of each run of the main loop, `none`: more are needed. -/
def flushRun (m : Matcher σ) (a : Actions V) (tokens : Bool → Text → Outcome (Read × Bool)) (v : V) (fuel : Nat) :
    Nat → Bool → Text → Option (Outcome Text)
  | 0, _, _ => none
  | n + 1, inword, t =>
    match tokens inword t with
    | .ok (rd, inword') =>
      match loopRun m a rd.toks fuel (loopInit m v) with
      | some (.ok o) =>
        if rd.more then
          (flushRun m a tokens v fuel n inword' rd.rest).map fun x => x.map fun o' => o ++ '\x00' :: o'
        else some (.ok (o ++ ['\x00']))
      | x => x
    | .fail => some .fail
    | .diverge => some .diverge
    | .ub => some .ub

/-- The tokenizers, from the text. -/
def icRead (flush : Bool) (inword : Bool) (t : Text) : Outcome (Read × Bool) := icTokens flush (t.length + 1) inword [] t
def trRead (flush : Bool) (t : Text) : Outcome Read := trTokens flush (t.length + 1) false [] t

end Verif.Token
