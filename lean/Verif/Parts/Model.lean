import Verif.Transfer.Word
/-!
# Model of the predefined parts of words (apertium/transfer_data.cc:46-54)

The parts `lem`, `lemh`, `lemq`, `tags`, `whole`, `chname`, `chcontent` and `content` that can be given in `<clip>` are regular expressions for ICU.  ICU is not part of the
repository: what is said here of its regular expressions is the part that these eight use (ICU User Guide, "Regular Expressions"), with the flags of apertium_re.cc:47
(`UREGEX_DOTALL`: a full stop is any character; `UREGEX_CASE_INSENSITIVE` makes no difference, since no character in them has case).
-/
namespace Verif.Parts
open Verif.Transfer

/-- The regular expressions used.  `esc` is a character after a backslash; `bos` is `^`. -/
inductive PRe where
  | chr (c : Char)
  | esc (c : Char)
  | set (cs : List Char)
  | nset (cs : List Char)
  | any
  | bos
  | seq (rs : List PRe)
  | alt (rs : List PRe)
  | plus (r : PRe)
  | grp (r : PRe)

mutual
/-- How the expression is written. -/
def PRe.text : PRe → Text
  | .chr c => [c]
  | .esc c => ['\\', c]
  | .set cs => '[' :: cs ++ [']']
  | .nset cs => '[' :: '^' :: cs ++ [']']
  | .any => ['.']
  | .bos => ['^']
  | .seq rs => textSeq rs
  | .alt rs => textAlt rs
  | .plus r => r.text ++ ['+']
  | .grp r => '(' :: r.text ++ [')']
def textSeq : List PRe → Text
  | [] => []
  | r :: rs => r.text ++ textSeq rs
def textAlt : List PRe → Text
  | [] => []
  | [r] => r.text
  | r :: rs => r.text ++ '|' :: textAlt rs
end

/-- One or more times, as often as possible first.  The number bounds the repetitions (each takes at least one character). -/
def iter (f : Text → List Text) : Nat → Text → List Text
  | 0, _ => []
  | k + 1, s => (f s).flatMap fun s' => iter f k s' ++ [s']

mutual
/-- What is left of the text after each way to match, in the order in which ICU tries them; `n` is the length of the whole text. -/
def PRe.run (n : Nat) : PRe → Text → List Text
  | .chr c, s => one (fun x => decide (x = c)) s
  | .esc c, s => one (fun x => decide (x = c)) s
  | .set cs, s => one (fun x => decide (x ∈ cs)) s
  | .nset cs, s => one (fun x => decide (x ∉ cs)) s
  | .any, s => one (fun _ => true) s
  | .bos, s => if s.length = n then [s] else []
  | .seq rs, s => runSeq n rs s
  | .alt rs, s => runAlt n rs s
  | .plus r, s => iter (r.run n) s.length s
  | .grp r, s => r.run n s
def runSeq (n : Nat) : List PRe → Text → List Text
  | [], s => [s]
  | r :: rs, s => (r.run n s).flatMap (runSeq n rs)
def runAlt (n : Nat) : List PRe → Text → List Text
  | [], _ => []
  | r :: rs, s => r.run n s ++ runAlt n rs s
/-- One character. -/
def one (p : Char → Bool) : Text → List Text
  | [] => []
  | x :: s => if p x then [s] else []
end

/-- `RegexMatcher::find` from position `i` on, where the text is `s`: the leftmost match. -/
def findFrom (r : PRe) (n : Nat) : Nat → Text → Option (Nat × Nat)
  | i, [] =>
    match r.run n [] with
    | t :: _ => some (i, i + (0 - t.length))
    | [] => none
  | i, x :: s =>
    match r.run n (x :: s) with
    | t :: _ => some (i, i + ((x :: s).length - t.length))
    | [] => findFrom r n (i + 1) s

/-- The expression as it is used by `ApertiumRE::match` and `ApertiumRE::replace` (apertium_re.cc:72-136). -/
def PRe.toRe (r : PRe) : Re := ⟨fun t => findFrom r t.length 0 t⟩

/-- A tag, `<[^>]+>`. -/
def tagP : PRe := .grp (.seq [.chr '<', .plus (.nset ['>']), .chr '>'])

/-- `attr_items["lem"]` (transfer_data.cc:47). -/
def lemP : PRe := .seq [.bos, .grp (.plus (.grp (.alt [.nset ['<'], .seq [.chr '"', .esc '<', .chr '"']])))]
/-- `attr_items["lemq"]` (transfer_data.cc:48). -/
def lemqP : PRe := .seq [.esc '#', .set ['-', ' ', '_'], .plus (.nset ['<'])]
/-- `attr_items["lemh"]` (transfer_data.cc:49). -/
def lemhP : PRe := .seq [.bos, .grp (.plus (.grp (.alt [.nset ['<', '#'], .seq [.chr '"', .esc '<', .chr '"'], .seq [.chr '"', .esc '#', .chr '"']])))]
/-- `attr_items["whole"]` (transfer_data.cc:50). -/
def wholeP : PRe := .grp (.plus .any)
/-- `attr_items["tags"]` (transfer_data.cc:51). -/
def tagsP : PRe := .grp (.plus tagP)
/-- `attr_items["chname"]` (transfer_data.cc:52). -/
def chnameP : PRe := .grp (.seq [.esc '{', .grp (.plus (.nset ['/'])), .esc '/'])
/-- `attr_items["chcontent"]` and `attr_items["content"]` (transfer_data.cc:53-54). -/
def contentP : PRe := .grp (.seq [.esc '{', .plus .any])

/-- The expressions are those of the source. -/
example : lemP.text = t!"^(([^<]|\"\\<\")+)" ∧ lemqP.text = t!"\\#[- _][^<]+" ∧ lemhP.text = t!"^(([^<#]|\"\\<\"|\"\\#\")+)" ∧ wholeP.text = t!"(.+)" ∧
    tagsP.text = t!"((<[^>]+>)+)" ∧ chnameP.text = t!"(\\{([^/]+)\\/)" ∧ contentP.text = t!"(\\{.+)" := by decide +kernel

/-- The constructor of `TransferData` (transfer_data.cc:44-55): the predefined parts; `other` are those that the rules define. -/
def attrOf (other : Text → Re) (n : Text) : Re :=
  if n = t!"lem" then lemP.toRe
  else if n = t!"lemq" then lemqP.toRe
  else if n = t!"lemh" then lemhP.toRe
  else if n = t!"whole" then wholeP.toRe
  else if n = t!"tags" then tagsP.toRe
  else if n = t!"chname" then chnameP.toRe
  else if n = t!"chcontent" then contentP.toRe
  else if n = t!"content" then contentP.toRe
  else other n

end Verif.Parts
