import Verif.Format.Deformat
/-!
# The formats of apertium (apertium/*-format.xml)

GENERATED by tools/gen_formats.py from the files in the repository: the original expressions are in the comments.  All of them
have `case-sensitive` set to `no`, so letters stand for both cases.  An expression ends at a space that is not quoted.
-/
namespace Verif.Format

/-- The same letter in the other case. -/
def swapCase (b : UInt8) : UInt8 :=
  if 0x41 ≤ b ∧ b ≤ 0x5A then b + 0x20 else if 0x61 ≤ b ∧ b ≤ 0x7A then b - 0x20 else b

/-- A character class of flex under `%option caseless`, negated or not. -/
def cc (neg : Bool) (l : List (UInt8 × UInt8)) : Re :=
  .cls (fun b => neg != l.any (fun p => decide ((p.1 ≤ b ∧ b ≤ p.2) ∨ (p.1 ≤ swapCase b ∧ swapCase b ≤ p.2))))

def seqs : List Re → Re
  | [] => .eps
  | [r] => r
  | r :: rs => .seq r (seqs rs)

def alts : List Re → Re
  | [] => .none
  | [r] => r
  | r :: rs => .alt r (alts rs)

/-- A literal text under `%option caseless`. -/
def lit (s : String) : Re := seqs ((bytes s).map (fun c => .cls (fun b => decide (b = c ∨ swapCase b = c))))

def plus (r : Re) : Re := .seq r (.star r)
def opt (r : Re) : Re := .alt r .eps

/-- `r{m,n}`, or `r{m,}`. -/
def rep (m : Nat) (n : Option Nat) (r : Re) : Re :=
  match n with
  | none => seqs (List.replicate m r ++ [.star r])
  | some n => seqs (List.replicate m r ++ List.replicate (n - m) (opt r))

/-- txt-format.xml, rule 1: `(("\n\n")|("\r\n\r\n"))+` -/
def txtRule1 : Rule :=
  { re := (plus (alts [(lit "\n\n"), (lit "\r\n\r\n")])), eos := true, prio := 1 }

/-- The format txt (txt-format.xml:1-18). -/
def txt : Fmt where
  large := 8192
  escape := fun b => [0x5D, 0x5B, 0x5C, 0x2F, 0x40, 0x3C, 0x3E, 0x5E, 0x24, 0x7B, 0x7D].contains b
  space := fun b => [0x20, 0x0A, 0x09, 0x0D, 0x7E].contains b
  rules := [txtRule1]

/-- html-noent-format.xml, rule 1: `"<!--" … "-->"` -/
def htmlNoentRule1 : Rule :=
  { re := (lit "<!--")
    fin := some (lit "-->"), prio := 1 }

/-- html-noent-format.xml, rule 2: `"{{" … "}}"` -/
def htmlNoentRule2 : Rule :=
  { re := (lit "{{")
    fin := some (lit "}}"), prio := 1 }

/-- html-noent-format.xml, rule 3: `"<script"(" "[^>]*)?">" … "</script"(" "[^>]*)?">"` -/
def htmlNoentRule3 : Rule :=
  { re := (seqs [(lit "<script"), (opt (seqs [(lit " "), (.star (cc true [(0x3E, 0x3E)]))])), (lit ">")])
    fin := some (seqs [(lit "</script"), (opt (seqs [(lit " "), (.star (cc true [(0x3E, 0x3E)]))])), (lit ">")]), prio := 2 }

/-- html-noent-format.xml, rule 4: `"<apertium-notrans"(" "[^>]*)?">" … "</apertium-notrans>"` -/
def htmlNoentRule4 : Rule :=
  { re := (seqs [(lit "<apertium-notrans"), (opt (seqs [(lit " "), (.star (cc true [(0x3E, 0x3E)]))])), (lit ">")])
    fin := some (lit "</apertium-notrans>"), prio := 2 }

/-- html-noent-format.xml, rule 5: `"<style"(" "[^>]*)?">" … "</style"(" "[^>]*)?">"` -/
def htmlNoentRule5 : Rule :=
  { re := (seqs [(lit "<style"), (opt (seqs [(lit " "), (.star (cc true [(0x3E, 0x3E)]))])), (lit ">")])
    fin := some (seqs [(lit "</style"), (opt (seqs [(lit " "), (.star (cc true [(0x3E, 0x3E)]))])), (lit ">")]), prio := 2 }

/-- html-noent-format.xml, rule 6: `"<br"(" "[^>]*)?">"|"<hr"(" "[^>]*)?">"|"<p"(" "[^>]*)?">"` -/
def htmlNoentRule6 : Rule :=
  { re := (alts [(seqs [(lit "<br"), (opt (seqs [(lit " "), (.star (cc true [(0x3E, 0x3E)]))])), (lit ">")]), (seqs [(lit "<hr"), (opt (seqs [(lit " "), (.star (cc true [(0x3E, 0x3E)]))])), (lit ">")]), (seqs [(lit "<p"), (opt (seqs [(lit " "), (.star (cc true [(0x3E, 0x3E)]))])), (lit ">")])]), eos := true, prio := 3 }

/-- html-noent-format.xml, rule 7: `"<li"(" "[^>]*)?">"|"<ul"(" "[^>]*)?">"|"<ol"(" "[^>]*)?">"` -/
def htmlNoentRule7 : Rule :=
  { re := (alts [(seqs [(lit "<li"), (opt (seqs [(lit " "), (.star (cc true [(0x3E, 0x3E)]))])), (lit ">")]), (seqs [(lit "<ul"), (opt (seqs [(lit " "), (.star (cc true [(0x3E, 0x3E)]))])), (lit ">")]), (seqs [(lit "<ol"), (opt (seqs [(lit " "), (.star (cc true [(0x3E, 0x3E)]))])), (lit ">")])]), eos := true, prio := 3 }

/-- html-noent-format.xml, rule 8: `"<tr"(" "[^>]*)?">"|"<td"(" "[^>]*)?">"|"<th"(" "[^>]*)?">"` -/
def htmlNoentRule8 : Rule :=
  { re := (alts [(seqs [(lit "<tr"), (opt (seqs [(lit " "), (.star (cc true [(0x3E, 0x3E)]))])), (lit ">")]), (seqs [(lit "<td"), (opt (seqs [(lit " "), (.star (cc true [(0x3E, 0x3E)]))])), (lit ">")]), (seqs [(lit "<th"), (opt (seqs [(lit " "), (.star (cc true [(0x3E, 0x3E)]))])), (lit ">")])]), eos := true, prio := 3 }

/-- html-noent-format.xml, rule 9: `"</br"(" "[^>]*)?">"|"</hr"(" "[^>]*)?">"|"</p"(" "[^>]*)?">"` -/
def htmlNoentRule9 : Rule :=
  { re := (alts [(seqs [(lit "</br"), (opt (seqs [(lit " "), (.star (cc true [(0x3E, 0x3E)]))])), (lit ">")]), (seqs [(lit "</hr"), (opt (seqs [(lit " "), (.star (cc true [(0x3E, 0x3E)]))])), (lit ">")]), (seqs [(lit "</p"), (opt (seqs [(lit " "), (.star (cc true [(0x3E, 0x3E)]))])), (lit ">")])]), eos := true, prio := 3 }

/-- html-noent-format.xml, rule 10: `"</li"(" "[^>]*)?">"|"</ul"(" "[^>]*)?">"|"</ol"(" "[^>]*)?">"` -/
def htmlNoentRule10 : Rule :=
  { re := (alts [(seqs [(lit "</li"), (opt (seqs [(lit " "), (.star (cc true [(0x3E, 0x3E)]))])), (lit ">")]), (seqs [(lit "</ul"), (opt (seqs [(lit " "), (.star (cc true [(0x3E, 0x3E)]))])), (lit ">")]), (seqs [(lit "</ol"), (opt (seqs [(lit " "), (.star (cc true [(0x3E, 0x3E)]))])), (lit ">")])]), eos := true, prio := 3 }

/-- html-noent-format.xml, rule 11: `"</tr"(" "[^>]*)?">"|"</td"(" "[^>]*)?">"|"</th"(" "[^>]*)?">"` -/
def htmlNoentRule11 : Rule :=
  { re := (alts [(seqs [(lit "</tr"), (opt (seqs [(lit " "), (.star (cc true [(0x3E, 0x3E)]))])), (lit ">")]), (seqs [(lit "</td"), (opt (seqs [(lit " "), (.star (cc true [(0x3E, 0x3E)]))])), (lit ">")]), (seqs [(lit "</th"), (opt (seqs [(lit " "), (.star (cc true [(0x3E, 0x3E)]))])), (lit ">")])]), eos := true, prio := 3 }

/-- html-noent-format.xml, rule 12: `"<title"(" "[^>]*)?">"|"<div"(" "[^>]*)?">"|"<option"(" "[^>]*)?">"|"<h"[1-6](" "[^>]*)?">"` -/
def htmlNoentRule12 : Rule :=
  { re := (alts [(seqs [(lit "<title"), (opt (seqs [(lit " "), (.star (cc true [(0x3E, 0x3E)]))])), (lit ">")]), (seqs [(lit "<div"), (opt (seqs [(lit " "), (.star (cc true [(0x3E, 0x3E)]))])), (lit ">")]), (seqs [(lit "<option"), (opt (seqs [(lit " "), (.star (cc true [(0x3E, 0x3E)]))])), (lit ">")]), (seqs [(lit "<h"), (cc false [(0x31, 0x36)]), (opt (seqs [(lit " "), (.star (cc true [(0x3E, 0x3E)]))])), (lit ">")])]), eos := true, prio := 3 }

/-- html-noent-format.xml, rule 13: `"</div"(" "[^>]*)?">"|"</option"(" "[^>]*)?">"` -/
def htmlNoentRule13 : Rule :=
  { re := (alts [(seqs [(lit "</div"), (opt (seqs [(lit " "), (.star (cc true [(0x3E, 0x3E)]))])), (lit ">")]), (seqs [(lit "</option"), (opt (seqs [(lit " "), (.star (cc true [(0x3E, 0x3E)]))])), (lit ">")])]), eos := true, prio := 3 }

/-- html-noent-format.xml, rule 14: `"</title"(" "[^>]*)?">"|"</h"[1-6](" "[^>]*)?">"` -/
def htmlNoentRule14 : Rule :=
  { re := (alts [(seqs [(lit "</title"), (opt (seqs [(lit " "), (.star (cc true [(0x3E, 0x3E)]))])), (lit ">")]), (seqs [(lit "</h"), (cc false [(0x31, 0x36)]), (opt (seqs [(lit " "), (.star (cc true [(0x3E, 0x3E)]))])), (lit ">")])]), eos := true, eoh := true, prio := 3 }

/-- html-noent-format.xml, rule 15: `"<"("img"|"link")(" "[^>]*)?">"` -/
def htmlNoentRule15 : Rule :=
  { re := (seqs [(lit "<"), (alts [(lit "img"), (lit "link")]), (opt (seqs [(lit " "), (.star (cc true [(0x3E, 0x3E)]))])), (lit ">")]), prio := 4 }

/-- html-noent-format.xml, rule 16: `("<!"|"<?")[a-zA-Z][^>]*">"` -/
def htmlNoentRule16 : Rule :=
  { re := (seqs [(alts [(lit "<!"), (lit "<?")]), (cc false [(0x61, 0x7A), (0x41, 0x5A)]), (.star (cc true [(0x3E, 0x3E)])), (lit ">")]), prio := 5 }

/-- html-noent-format.xml, rule 17: `"<"[a-zA-Z][^>]*">"` -/
def htmlNoentRule17 : Rule :=
  { re := (seqs [(lit "<"), (cc false [(0x61, 0x7A), (0x41, 0x5A)]), (.star (cc true [(0x3E, 0x3E)])), (lit ">")]), prio := 5 }

/-- html-noent-format.xml, rule 18: `"</"[a-zA-Z][^>]*">"` -/
def htmlNoentRule18 : Rule :=
  { re := (seqs [(lit "</"), (cc false [(0x61, 0x7A), (0x41, 0x5A)]), (.star (cc true [(0x3E, 0x3E)])), (lit ">")]), prio := 5 }

/-- The format html-noent (html-noent-format.xml:1-99). -/
def htmlNoent : Fmt where
  large := 8192
  escape := fun b => [0x5D, 0x5B, 0x5E, 0x40, 0x5C, 0x2F, 0x24, 0x7B, 0x7D].contains b
  space := fun b => [0x20, 0x0A, 0x09, 0x0D, 0x3C, 0x3E, 0x7E].contains b
  rules := [htmlNoentRule1, htmlNoentRule2, htmlNoentRule3, htmlNoentRule4, htmlNoentRule5, htmlNoentRule6, htmlNoentRule7, htmlNoentRule8, htmlNoentRule9, htmlNoentRule10, htmlNoentRule11, htmlNoentRule12, htmlNoentRule13, htmlNoentRule14, htmlNoentRule15, htmlNoentRule16, htmlNoentRule17, htmlNoentRule18]

/-- html-format.xml, rule 1: `"<!--" … "-->"` -/
def htmlRule1 : Rule :=
  { re := (lit "<!--")
    fin := some (lit "-->"), prio := 1 }

/-- html-format.xml, rule 2: `"{{" … "}}"` -/
def htmlRule2 : Rule :=
  { re := (lit "{{")
    fin := some (lit "}}"), prio := 1 }

/-- html-format.xml, rule 3: `"<script"(" "[^>]*)?">" … "</script"(" "[^>]*)?">"` -/
def htmlRule3 : Rule :=
  { re := (seqs [(lit "<script"), (opt (seqs [(lit " "), (.star (cc true [(0x3E, 0x3E)]))])), (lit ">")])
    fin := some (seqs [(lit "</script"), (opt (seqs [(lit " "), (.star (cc true [(0x3E, 0x3E)]))])), (lit ">")]), prio := 2 }

/-- html-format.xml, rule 4: `"<apertium-notrans"(" "[^>]*)?">" … "</apertium-notrans>"` -/
def htmlRule4 : Rule :=
  { re := (seqs [(lit "<apertium-notrans"), (opt (seqs [(lit " "), (.star (cc true [(0x3E, 0x3E)]))])), (lit ">")])
    fin := some (lit "</apertium-notrans>"), prio := 2 }

/-- html-format.xml, rule 5: `"<style"(" "[^>]*)?">" … "</style"(" "[^>]*)?">"` -/
def htmlRule5 : Rule :=
  { re := (seqs [(lit "<style"), (opt (seqs [(lit " "), (.star (cc true [(0x3E, 0x3E)]))])), (lit ">")])
    fin := some (seqs [(lit "</style"), (opt (seqs [(lit " "), (.star (cc true [(0x3E, 0x3E)]))])), (lit ">")]), prio := 2 }

/-- html-format.xml, rule 6: `"<br"(" "[^>]*)?">"|"<hr"(" "[^>]*)?">"|"<p"(" "[^>]*)?">"` -/
def htmlRule6 : Rule :=
  { re := (alts [(seqs [(lit "<br"), (opt (seqs [(lit " "), (.star (cc true [(0x3E, 0x3E)]))])), (lit ">")]), (seqs [(lit "<hr"), (opt (seqs [(lit " "), (.star (cc true [(0x3E, 0x3E)]))])), (lit ">")]), (seqs [(lit "<p"), (opt (seqs [(lit " "), (.star (cc true [(0x3E, 0x3E)]))])), (lit ">")])]), eos := true, prio := 3 }

/-- html-format.xml, rule 7: `"<li"(" "[^>]*)?">"|"<ul"(" "[^>]*)?">"|"<ol"(" "[^>]*)?">"` -/
def htmlRule7 : Rule :=
  { re := (alts [(seqs [(lit "<li"), (opt (seqs [(lit " "), (.star (cc true [(0x3E, 0x3E)]))])), (lit ">")]), (seqs [(lit "<ul"), (opt (seqs [(lit " "), (.star (cc true [(0x3E, 0x3E)]))])), (lit ">")]), (seqs [(lit "<ol"), (opt (seqs [(lit " "), (.star (cc true [(0x3E, 0x3E)]))])), (lit ">")])]), eos := true, prio := 3 }

/-- html-format.xml, rule 8: `"<tr"(" "[^>]*)?">"|"<td"(" "[^>]*)?">"|"<th"(" "[^>]*)?">"` -/
def htmlRule8 : Rule :=
  { re := (alts [(seqs [(lit "<tr"), (opt (seqs [(lit " "), (.star (cc true [(0x3E, 0x3E)]))])), (lit ">")]), (seqs [(lit "<td"), (opt (seqs [(lit " "), (.star (cc true [(0x3E, 0x3E)]))])), (lit ">")]), (seqs [(lit "<th"), (opt (seqs [(lit " "), (.star (cc true [(0x3E, 0x3E)]))])), (lit ">")])]), eos := true, prio := 3 }

/-- html-format.xml, rule 9: `"</br"(" "[^>]*)?">"|"</hr"(" "[^>]*)?">"|"</p"(" "[^>]*)?">"` -/
def htmlRule9 : Rule :=
  { re := (alts [(seqs [(lit "</br"), (opt (seqs [(lit " "), (.star (cc true [(0x3E, 0x3E)]))])), (lit ">")]), (seqs [(lit "</hr"), (opt (seqs [(lit " "), (.star (cc true [(0x3E, 0x3E)]))])), (lit ">")]), (seqs [(lit "</p"), (opt (seqs [(lit " "), (.star (cc true [(0x3E, 0x3E)]))])), (lit ">")])]), eos := true, prio := 3 }

/-- html-format.xml, rule 10: `"</li"(" "[^>]*)?">"|"</ul"(" "[^>]*)?">"|"</ol"(" "[^>]*)?">"` -/
def htmlRule10 : Rule :=
  { re := (alts [(seqs [(lit "</li"), (opt (seqs [(lit " "), (.star (cc true [(0x3E, 0x3E)]))])), (lit ">")]), (seqs [(lit "</ul"), (opt (seqs [(lit " "), (.star (cc true [(0x3E, 0x3E)]))])), (lit ">")]), (seqs [(lit "</ol"), (opt (seqs [(lit " "), (.star (cc true [(0x3E, 0x3E)]))])), (lit ">")])]), eos := true, prio := 3 }

/-- html-format.xml, rule 11: `"</tr"(" "[^>]*)?">"|"</td"(" "[^>]*)?">"|"</th"(" "[^>]*)?">"` -/
def htmlRule11 : Rule :=
  { re := (alts [(seqs [(lit "</tr"), (opt (seqs [(lit " "), (.star (cc true [(0x3E, 0x3E)]))])), (lit ">")]), (seqs [(lit "</td"), (opt (seqs [(lit " "), (.star (cc true [(0x3E, 0x3E)]))])), (lit ">")]), (seqs [(lit "</th"), (opt (seqs [(lit " "), (.star (cc true [(0x3E, 0x3E)]))])), (lit ">")])]), eos := true, prio := 3 }

/-- html-format.xml, rule 12: `"<title"(" "[^>]*)?">"|"<div"(" "[^>]*)?">"|"<option"(" "[^>]*)?">"|"<h"[1-6](" "[^>]*)?">"` -/
def htmlRule12 : Rule :=
  { re := (alts [(seqs [(lit "<title"), (opt (seqs [(lit " "), (.star (cc true [(0x3E, 0x3E)]))])), (lit ">")]), (seqs [(lit "<div"), (opt (seqs [(lit " "), (.star (cc true [(0x3E, 0x3E)]))])), (lit ">")]), (seqs [(lit "<option"), (opt (seqs [(lit " "), (.star (cc true [(0x3E, 0x3E)]))])), (lit ">")]), (seqs [(lit "<h"), (cc false [(0x31, 0x36)]), (opt (seqs [(lit " "), (.star (cc true [(0x3E, 0x3E)]))])), (lit ">")])]), eos := true, prio := 3 }

/-- html-format.xml, rule 13: `"</div"(" "[^>]*)?">"|"</option"(" "[^>]*)?">"` -/
def htmlRule13 : Rule :=
  { re := (alts [(seqs [(lit "</div"), (opt (seqs [(lit " "), (.star (cc true [(0x3E, 0x3E)]))])), (lit ">")]), (seqs [(lit "</option"), (opt (seqs [(lit " "), (.star (cc true [(0x3E, 0x3E)]))])), (lit ">")])]), eos := true, prio := 3 }

/-- html-format.xml, rule 14: `"</title"(" "[^>]*)?">"|"</h"[1-6](" "[^>]*)?">"` -/
def htmlRule14 : Rule :=
  { re := (alts [(seqs [(lit "</title"), (opt (seqs [(lit " "), (.star (cc true [(0x3E, 0x3E)]))])), (lit ">")]), (seqs [(lit "</h"), (cc false [(0x31, 0x36)]), (opt (seqs [(lit " "), (.star (cc true [(0x3E, 0x3E)]))])), (lit ">")])]), eos := true, eoh := true, prio := 3 }

/-- html-format.xml, rule 15: `"<"("img"|"link")(" "[^>]*)?">"` -/
def htmlRule15 : Rule :=
  { re := (seqs [(lit "<"), (alts [(lit "img"), (lit "link")]), (opt (seqs [(lit " "), (.star (cc true [(0x3E, 0x3E)]))])), (lit ">")]), prio := 4 }

/-- html-format.xml, rule 16: `("<!"|"<?")[a-zA-Z][^>]*">"` -/
def htmlRule16 : Rule :=
  { re := (seqs [(alts [(lit "<!"), (lit "<?")]), (cc false [(0x61, 0x7A), (0x41, 0x5A)]), (.star (cc true [(0x3E, 0x3E)])), (lit ">")]), prio := 5 }

/-- html-format.xml, rule 17: `"<"[a-zA-Z][^>]*">"` -/
def htmlRule17 : Rule :=
  { re := (seqs [(lit "<"), (cc false [(0x61, 0x7A), (0x41, 0x5A)]), (.star (cc true [(0x3E, 0x3E)])), (lit ">")]), prio := 5 }

/-- html-format.xml, rule 18: `"</"[a-zA-Z][^>]*">"` -/
def htmlRule18 : Rule :=
  { re := (seqs [(lit "</"), (cc false [(0x61, 0x7A), (0x41, 0x5A)]), (.star (cc true [(0x3E, 0x3E)])), (lit ">")]), prio := 5 }

/-- html-format.xml, replacement rule 1: `"&"([a-zA-Z]+|"#x"[0-9a-fA-F]{1,4}|"#"[0-9]{1,8});` with its 287 entries (source, target, preferred). -/
def htmlRepl1 : Repl where
  re := (seqs [(lit "&"), (alts [(plus (cc false [(0x61, 0x7A), (0x41, 0x5A)])), (seqs [(lit "#x"), (rep 1 (some 4) (cc false [(0x30, 0x39), (0x61, 0x66), (0x41, 0x46)]))]), (seqs [(lit "#"), (rep 1 (some 8) (cc false [(0x30, 0x39)]))])]), (lit ";")])
  table := [([0x26, 0x41, 0x67, 0x72, 0x61, 0x76, 0x65, 0x3B], [0xC3, 0x80], true),
    ([0x26, 0x23, 0x31, 0x39, 0x32, 0x3B], [0xC3, 0x80], false),
    ([0x26, 0x23, 0x78, 0x43, 0x30, 0x3B], [0xC3, 0x80], false),
    ([0x26, 0x23, 0x78, 0x63, 0x30, 0x3B], [0xC3, 0x80], false),
    ([0x26, 0x41, 0x61, 0x63, 0x75, 0x74, 0x65, 0x3B], [0xC3, 0x81], true),
    ([0x26, 0x23, 0x31, 0x39, 0x33, 0x3B], [0xC3, 0x81], false),
    ([0x26, 0x23, 0x78, 0x43, 0x31, 0x3B], [0xC3, 0x81], false),
    ([0x26, 0x23, 0x78, 0x63, 0x31, 0x3B], [0xC3, 0x81], false),
    ([0x26, 0x41, 0x63, 0x69, 0x72, 0x63, 0x3B], [0xC3, 0x82], true),
    ([0x26, 0x23, 0x31, 0x39, 0x34, 0x3B], [0xC3, 0x82], false),
    ([0x26, 0x23, 0x78, 0x43, 0x32, 0x3B], [0xC3, 0x82], false),
    ([0x26, 0x23, 0x78, 0x63, 0x32, 0x3B], [0xC3, 0x82], false),
    ([0x26, 0x41, 0x74, 0x69, 0x6C, 0x64, 0x65, 0x3B], [0xC3, 0x83], true),
    ([0x26, 0x23, 0x31, 0x39, 0x35, 0x3B], [0xC3, 0x83], false),
    ([0x26, 0x23, 0x78, 0x43, 0x33, 0x3B], [0xC3, 0x83], false),
    ([0x26, 0x23, 0x78, 0x63, 0x33, 0x3B], [0xC3, 0x83], false),
    ([0x26, 0x41, 0x75, 0x6D, 0x6C, 0x3B], [0xC3, 0x84], true),
    ([0x26, 0x23, 0x31, 0x39, 0x36, 0x3B], [0xC3, 0x84], false),
    ([0x26, 0x23, 0x78, 0x43, 0x34, 0x3B], [0xC3, 0x84], false),
    ([0x26, 0x23, 0x78, 0x63, 0x34, 0x3B], [0xC3, 0x84], false),
    ([0x26, 0x41, 0x72, 0x69, 0x6E, 0x67, 0x3B], [0xC3, 0x85], true),
    ([0x26, 0x23, 0x31, 0x39, 0x37, 0x3B], [0xC3, 0x85], false),
    ([0x26, 0x23, 0x78, 0x43, 0x35, 0x3B], [0xC3, 0x85], false),
    ([0x26, 0x23, 0x78, 0x63, 0x35, 0x3B], [0xC3, 0x85], false),
    ([0x26, 0x41, 0x45, 0x6C, 0x69, 0x67, 0x3B], [0xC3, 0x86], true),
    ([0x26, 0x23, 0x31, 0x39, 0x38, 0x3B], [0xC3, 0x86], false),
    ([0x26, 0x23, 0x78, 0x43, 0x36, 0x3B], [0xC3, 0x86], false),
    ([0x26, 0x23, 0x78, 0x63, 0x36, 0x3B], [0xC3, 0x86], false),
    ([0x26, 0x43, 0x63, 0x65, 0x64, 0x69, 0x6C, 0x3B], [0xC3, 0x87], true),
    ([0x26, 0x23, 0x31, 0x39, 0x39, 0x3B], [0xC3, 0x87], false),
    ([0x26, 0x23, 0x78, 0x43, 0x37, 0x3B], [0xC3, 0x87], false),
    ([0x26, 0x23, 0x78, 0x63, 0x37, 0x3B], [0xC3, 0x87], false),
    ([0x26, 0x45, 0x67, 0x72, 0x61, 0x76, 0x65, 0x3B], [0xC3, 0x88], true),
    ([0x26, 0x23, 0x32, 0x30, 0x30, 0x3B], [0xC3, 0x88], false),
    ([0x26, 0x23, 0x78, 0x43, 0x38, 0x3B], [0xC3, 0x88], false),
    ([0x26, 0x23, 0x78, 0x63, 0x38, 0x3B], [0xC3, 0x88], false),
    ([0x26, 0x45, 0x61, 0x63, 0x75, 0x74, 0x65, 0x3B], [0xC3, 0x89], true),
    ([0x26, 0x23, 0x32, 0x30, 0x31, 0x3B], [0xC3, 0x89], false),
    ([0x26, 0x23, 0x78, 0x43, 0x39, 0x3B], [0xC3, 0x89], false),
    ([0x26, 0x23, 0x78, 0x63, 0x39, 0x3B], [0xC3, 0x89], false),
    ([0x26, 0x45, 0x63, 0x69, 0x72, 0x63, 0x3B], [0xC3, 0x8A], true),
    ([0x26, 0x23, 0x32, 0x30, 0x32, 0x3B], [0xC3, 0x8A], false),
    ([0x26, 0x23, 0x78, 0x43, 0x41, 0x3B], [0xC3, 0x8A], false),
    ([0x26, 0x23, 0x78, 0x63, 0x61, 0x3B], [0xC3, 0x8A], false),
    ([0x26, 0x45, 0x75, 0x6D, 0x6C, 0x3B], [0xC3, 0x8B], true),
    ([0x26, 0x23, 0x32, 0x30, 0x33, 0x3B], [0xC3, 0x8B], false),
    ([0x26, 0x23, 0x78, 0x43, 0x42, 0x3B], [0xC3, 0x8B], false),
    ([0x26, 0x23, 0x78, 0x63, 0x62, 0x3B], [0xC3, 0x8B], false),
    ([0x26, 0x49, 0x67, 0x72, 0x61, 0x76, 0x65, 0x3B], [0xC3, 0x8C], true),
    ([0x26, 0x23, 0x32, 0x30, 0x34, 0x3B], [0xC3, 0x8C], false),
    ([0x26, 0x23, 0x78, 0x43, 0x43, 0x3B], [0xC3, 0x8C], false),
    ([0x26, 0x23, 0x78, 0x63, 0x63, 0x3B], [0xC3, 0x8C], false),
    ([0x26, 0x49, 0x61, 0x63, 0x75, 0x74, 0x65, 0x3B], [0xC3, 0x8D], true),
    ([0x26, 0x23, 0x32, 0x30, 0x35, 0x3B], [0xC3, 0x8D], false),
    ([0x26, 0x23, 0x78, 0x43, 0x44, 0x3B], [0xC3, 0x8D], false),
    ([0x26, 0x23, 0x78, 0x63, 0x64, 0x3B], [0xC3, 0x8D], false),
    ([0x26, 0x49, 0x63, 0x69, 0x72, 0x63, 0x3B], [0xC3, 0x8E], true),
    ([0x26, 0x23, 0x32, 0x30, 0x36, 0x3B], [0xC3, 0x8E], false),
    ([0x26, 0x23, 0x78, 0x43, 0x45, 0x3B], [0xC3, 0x8E], false),
    ([0x26, 0x23, 0x78, 0x63, 0x65, 0x3B], [0xC3, 0x8E], false),
    ([0x26, 0x49, 0x75, 0x6D, 0x6C, 0x3B], [0xC3, 0x8F], true),
    ([0x26, 0x23, 0x32, 0x30, 0x37, 0x3B], [0xC3, 0x8F], false),
    ([0x26, 0x23, 0x78, 0x43, 0x46, 0x3B], [0xC3, 0x8F], false),
    ([0x26, 0x23, 0x78, 0x63, 0x66, 0x3B], [0xC3, 0x8F], false),
    ([0x26, 0x45, 0x54, 0x48, 0x3B], [0xC3, 0x90], true),
    ([0x26, 0x23, 0x32, 0x30, 0x38, 0x3B], [0xC3, 0x90], false),
    ([0x26, 0x23, 0x78, 0x44, 0x30, 0x3B], [0xC3, 0x90], false),
    ([0x26, 0x23, 0x78, 0x64, 0x30, 0x3B], [0xC3, 0x90], false),
    ([0x26, 0x4E, 0x74, 0x69, 0x6C, 0x64, 0x65, 0x3B], [0xC3, 0x91], true),
    ([0x26, 0x23, 0x32, 0x30, 0x39, 0x3B], [0xC3, 0x91], false),
    ([0x26, 0x23, 0x78, 0x44, 0x31, 0x3B], [0xC3, 0x91], false),
    ([0x26, 0x23, 0x78, 0x64, 0x31, 0x3B], [0xC3, 0x91], false),
    ([0x26, 0x4F, 0x67, 0x72, 0x61, 0x76, 0x65, 0x3B], [0xC3, 0x92], true),
    ([0x26, 0x23, 0x32, 0x31, 0x30, 0x3B], [0xC3, 0x92], false),
    ([0x26, 0x23, 0x78, 0x44, 0x32, 0x3B], [0xC3, 0x92], false),
    ([0x26, 0x23, 0x78, 0x64, 0x32, 0x3B], [0xC3, 0x92], false),
    ([0x26, 0x4F, 0x61, 0x63, 0x75, 0x74, 0x65, 0x3B], [0xC3, 0x93], true),
    ([0x26, 0x23, 0x32, 0x31, 0x31, 0x3B], [0xC3, 0x93], false),
    ([0x26, 0x23, 0x78, 0x44, 0x33, 0x3B], [0xC3, 0x93], false),
    ([0x26, 0x23, 0x78, 0x64, 0x33, 0x3B], [0xC3, 0x93], false),
    ([0x26, 0x4F, 0x63, 0x69, 0x72, 0x63, 0x3B], [0xC3, 0x94], true),
    ([0x26, 0x23, 0x32, 0x31, 0x32, 0x3B], [0xC3, 0x94], false),
    ([0x26, 0x23, 0x78, 0x44, 0x34, 0x3B], [0xC3, 0x94], false),
    ([0x26, 0x23, 0x78, 0x64, 0x34, 0x3B], [0xC3, 0x94], false),
    ([0x26, 0x4F, 0x74, 0x69, 0x6C, 0x64, 0x65, 0x3B], [0xC3, 0x95], true),
    ([0x26, 0x23, 0x32, 0x31, 0x33, 0x3B], [0xC3, 0x95], false),
    ([0x26, 0x23, 0x78, 0x44, 0x35, 0x3B], [0xC3, 0x95], false),
    ([0x26, 0x23, 0x78, 0x64, 0x35, 0x3B], [0xC3, 0x95], false),
    ([0x26, 0x4F, 0x75, 0x6D, 0x6C, 0x3B], [0xC3, 0x96], true),
    ([0x26, 0x23, 0x32, 0x31, 0x34, 0x3B], [0xC3, 0x96], false),
    ([0x26, 0x23, 0x78, 0x44, 0x36, 0x3B], [0xC3, 0x96], false),
    ([0x26, 0x23, 0x78, 0x64, 0x36, 0x3B], [0xC3, 0x96], false),
    ([0x26, 0x4F, 0x73, 0x6C, 0x61, 0x73, 0x68, 0x3B], [0xC3, 0x98], true),
    ([0x26, 0x23, 0x32, 0x31, 0x36, 0x3B], [0xC3, 0x98], false),
    ([0x26, 0x23, 0x78, 0x44, 0x38, 0x3B], [0xC3, 0x98], false),
    ([0x26, 0x23, 0x78, 0x64, 0x38, 0x3B], [0xC3, 0x98], false),
    ([0x26, 0x55, 0x67, 0x72, 0x61, 0x76, 0x65, 0x3B], [0xC3, 0x99], true),
    ([0x26, 0x23, 0x32, 0x31, 0x37, 0x3B], [0xC3, 0x99], false),
    ([0x26, 0x23, 0x78, 0x44, 0x39, 0x3B], [0xC3, 0x99], false),
    ([0x26, 0x23, 0x78, 0x64, 0x39, 0x3B], [0xC3, 0x99], false),
    ([0x26, 0x55, 0x61, 0x63, 0x75, 0x74, 0x65, 0x3B], [0xC3, 0x9A], true),
    ([0x26, 0x23, 0x32, 0x31, 0x38, 0x3B], [0xC3, 0x9A], false),
    ([0x26, 0x23, 0x78, 0x44, 0x41, 0x3B], [0xC3, 0x9A], false),
    ([0x26, 0x23, 0x78, 0x64, 0x61, 0x3B], [0xC3, 0x9A], false),
    ([0x26, 0x55, 0x63, 0x69, 0x72, 0x63, 0x3B], [0xC3, 0x9B], true),
    ([0x26, 0x23, 0x32, 0x31, 0x39, 0x3B], [0xC3, 0x9B], false),
    ([0x26, 0x23, 0x78, 0x44, 0x42, 0x3B], [0xC3, 0x9B], false),
    ([0x26, 0x23, 0x78, 0x64, 0x62, 0x3B], [0xC3, 0x9B], false),
    ([0x26, 0x55, 0x75, 0x6D, 0x6C, 0x3B], [0xC3, 0x9C], true),
    ([0x26, 0x23, 0x32, 0x32, 0x30, 0x3B], [0xC3, 0x9C], false),
    ([0x26, 0x23, 0x78, 0x44, 0x43, 0x3B], [0xC3, 0x9C], false),
    ([0x26, 0x23, 0x78, 0x64, 0x63, 0x3B], [0xC3, 0x9C], false),
    ([0x26, 0x59, 0x61, 0x63, 0x75, 0x74, 0x65, 0x3B], [0xC3, 0x9D], true),
    ([0x26, 0x23, 0x32, 0x32, 0x31, 0x3B], [0xC3, 0x9D], false),
    ([0x26, 0x23, 0x78, 0x44, 0x44, 0x3B], [0xC3, 0x9D], false),
    ([0x26, 0x23, 0x78, 0x64, 0x64, 0x3B], [0xC3, 0x9D], false),
    ([0x26, 0x54, 0x48, 0x4F, 0x52, 0x4E, 0x3B], [0xC3, 0x9E], true),
    ([0x26, 0x23, 0x32, 0x32, 0x32, 0x3B], [0xC3, 0x9E], false),
    ([0x26, 0x23, 0x78, 0x44, 0x45, 0x3B], [0xC3, 0x9E], false),
    ([0x26, 0x23, 0x78, 0x64, 0x65, 0x3B], [0xC3, 0x9E], false),
    ([0x26, 0x73, 0x7A, 0x6C, 0x69, 0x67, 0x3B], [0xC3, 0x9F], true),
    ([0x26, 0x23, 0x32, 0x32, 0x33, 0x3B], [0xC3, 0x9F], false),
    ([0x26, 0x23, 0x78, 0x44, 0x46, 0x3B], [0xC3, 0x9F], false),
    ([0x26, 0x23, 0x78, 0x64, 0x66, 0x3B], [0xC3, 0x9F], false),
    ([0x26, 0x61, 0x67, 0x72, 0x61, 0x76, 0x65, 0x3B], [0xC3, 0xA0], true),
    ([0x26, 0x23, 0x32, 0x32, 0x34, 0x3B], [0xC3, 0xA0], false),
    ([0x26, 0x23, 0x78, 0x45, 0x30, 0x3B], [0xC3, 0xA0], false),
    ([0x26, 0x23, 0x78, 0x65, 0x30, 0x3B], [0xC3, 0xA0], false),
    ([0x26, 0x61, 0x61, 0x63, 0x75, 0x74, 0x65, 0x3B], [0xC3, 0xA1], true),
    ([0x26, 0x23, 0x32, 0x32, 0x35, 0x3B], [0xC3, 0xA1], false),
    ([0x26, 0x23, 0x78, 0x45, 0x31, 0x3B], [0xC3, 0xA1], false),
    ([0x26, 0x23, 0x78, 0x65, 0x31, 0x3B], [0xC3, 0xA1], false),
    ([0x26, 0x61, 0x63, 0x69, 0x72, 0x63, 0x3B], [0xC3, 0xA2], true),
    ([0x26, 0x23, 0x32, 0x32, 0x36, 0x3B], [0xC3, 0xA2], false),
    ([0x26, 0x23, 0x78, 0x45, 0x32, 0x3B], [0xC3, 0xA2], false),
    ([0x26, 0x23, 0x78, 0x65, 0x32, 0x3B], [0xC3, 0xA2], false),
    ([0x26, 0x61, 0x74, 0x69, 0x6C, 0x64, 0x65, 0x3B], [0xC3, 0xA3], true),
    ([0x26, 0x23, 0x32, 0x32, 0x37, 0x3B], [0xC3, 0xA3], false),
    ([0x26, 0x23, 0x78, 0x45, 0x33, 0x3B], [0xC3, 0xA3], false),
    ([0x26, 0x23, 0x78, 0x65, 0x33, 0x3B], [0xC3, 0xA3], false),
    ([0x26, 0x61, 0x75, 0x6D, 0x6C, 0x3B], [0xC3, 0xA4], true),
    ([0x26, 0x23, 0x32, 0x32, 0x38, 0x3B], [0xC3, 0xA4], false),
    ([0x26, 0x23, 0x78, 0x45, 0x34, 0x3B], [0xC3, 0xA4], false),
    ([0x26, 0x23, 0x78, 0x65, 0x34, 0x3B], [0xC3, 0xA4], false),
    ([0x26, 0x61, 0x72, 0x69, 0x6E, 0x67, 0x3B], [0xC3, 0xA5], true),
    ([0x26, 0x23, 0x32, 0x32, 0x39, 0x3B], [0xC3, 0xA5], false),
    ([0x26, 0x23, 0x78, 0x45, 0x35, 0x3B], [0xC3, 0xA5], false),
    ([0x26, 0x23, 0x78, 0x65, 0x35, 0x3B], [0xC3, 0xA5], false),
    ([0x26, 0x61, 0x65, 0x6C, 0x69, 0x67, 0x3B], [0xC3, 0xA6], true),
    ([0x26, 0x23, 0x32, 0x33, 0x30, 0x3B], [0xC3, 0xA6], false),
    ([0x26, 0x23, 0x78, 0x45, 0x36, 0x3B], [0xC3, 0xA6], false),
    ([0x26, 0x23, 0x78, 0x65, 0x36, 0x3B], [0xC3, 0xA6], false),
    ([0x26, 0x63, 0x63, 0x65, 0x64, 0x69, 0x6C, 0x3B], [0xC3, 0xA7], true),
    ([0x26, 0x23, 0x32, 0x33, 0x31, 0x3B], [0xC3, 0xA7], false),
    ([0x26, 0x23, 0x78, 0x45, 0x37, 0x3B], [0xC3, 0xA7], false),
    ([0x26, 0x23, 0x78, 0x65, 0x37, 0x3B], [0xC3, 0xA7], false),
    ([0x26, 0x65, 0x67, 0x72, 0x61, 0x76, 0x65, 0x3B], [0xC3, 0xA8], true),
    ([0x26, 0x23, 0x32, 0x33, 0x32, 0x3B], [0xC3, 0xA8], false),
    ([0x26, 0x23, 0x78, 0x45, 0x38, 0x3B], [0xC3, 0xA8], false),
    ([0x26, 0x23, 0x78, 0x65, 0x38, 0x3B], [0xC3, 0xA8], false),
    ([0x26, 0x65, 0x61, 0x63, 0x75, 0x74, 0x65, 0x3B], [0xC3, 0xA9], true),
    ([0x26, 0x23, 0x32, 0x33, 0x33, 0x3B], [0xC3, 0xA9], false),
    ([0x26, 0x23, 0x78, 0x45, 0x39, 0x3B], [0xC3, 0xA9], false),
    ([0x26, 0x23, 0x78, 0x65, 0x39, 0x3B], [0xC3, 0xA9], false),
    ([0x26, 0x65, 0x63, 0x69, 0x72, 0x63, 0x3B], [0xC3, 0xAA], true),
    ([0x26, 0x23, 0x32, 0x33, 0x34, 0x3B], [0xC3, 0xAA], false),
    ([0x26, 0x23, 0x78, 0x45, 0x41, 0x3B], [0xC3, 0xAA], false),
    ([0x26, 0x23, 0x78, 0x65, 0x61, 0x3B], [0xC3, 0xAA], false),
    ([0x26, 0x65, 0x75, 0x6D, 0x6C, 0x3B], [0xC3, 0xAB], true),
    ([0x26, 0x23, 0x32, 0x33, 0x35, 0x3B], [0xC3, 0xAB], false),
    ([0x26, 0x23, 0x78, 0x45, 0x42, 0x3B], [0xC3, 0xAB], false),
    ([0x26, 0x23, 0x78, 0x65, 0x62, 0x3B], [0xC3, 0xAB], false),
    ([0x26, 0x69, 0x67, 0x72, 0x61, 0x76, 0x65, 0x3B], [0xC3, 0xAC], true),
    ([0x26, 0x23, 0x32, 0x33, 0x36, 0x3B], [0xC3, 0xAC], false),
    ([0x26, 0x23, 0x78, 0x45, 0x43, 0x3B], [0xC3, 0xAC], false),
    ([0x26, 0x23, 0x78, 0x65, 0x63, 0x3B], [0xC3, 0xAC], false),
    ([0x26, 0x69, 0x61, 0x63, 0x75, 0x74, 0x65, 0x3B], [0xC3, 0xAD], true),
    ([0x26, 0x23, 0x32, 0x33, 0x37, 0x3B], [0xC3, 0xAD], false),
    ([0x26, 0x23, 0x78, 0x45, 0x44, 0x3B], [0xC3, 0xAD], false),
    ([0x26, 0x23, 0x78, 0x65, 0x64, 0x3B], [0xC3, 0xAD], false),
    ([0x26, 0x69, 0x63, 0x69, 0x72, 0x63, 0x3B], [0xC3, 0xAE], true),
    ([0x26, 0x23, 0x32, 0x33, 0x38, 0x3B], [0xC3, 0xAE], false),
    ([0x26, 0x23, 0x78, 0x45, 0x45, 0x3B], [0xC3, 0xAE], false),
    ([0x26, 0x23, 0x78, 0x65, 0x65, 0x3B], [0xC3, 0xAE], false),
    ([0x26, 0x69, 0x75, 0x6D, 0x6C, 0x3B], [0xC3, 0xAF], true),
    ([0x26, 0x23, 0x32, 0x33, 0x39, 0x3B], [0xC3, 0xAF], false),
    ([0x26, 0x23, 0x78, 0x45, 0x46, 0x3B], [0xC3, 0xAF], false),
    ([0x26, 0x23, 0x78, 0x65, 0x66, 0x3B], [0xC3, 0xAF], false),
    ([0x26, 0x65, 0x74, 0x68, 0x3B], [0xC3, 0xB0], true),
    ([0x26, 0x23, 0x32, 0x34, 0x30, 0x3B], [0xC3, 0xB0], false),
    ([0x26, 0x23, 0x78, 0x46, 0x30, 0x3B], [0xC3, 0xB0], false),
    ([0x26, 0x23, 0x78, 0x66, 0x30, 0x3B], [0xC3, 0xB0], false),
    ([0x26, 0x6E, 0x74, 0x69, 0x6C, 0x64, 0x65, 0x3B], [0xC3, 0xB1], true),
    ([0x26, 0x23, 0x32, 0x34, 0x31, 0x3B], [0xC3, 0xB1], false),
    ([0x26, 0x23, 0x78, 0x46, 0x31, 0x3B], [0xC3, 0xB1], false),
    ([0x26, 0x23, 0x78, 0x66, 0x31, 0x3B], [0xC3, 0xB1], false),
    ([0x26, 0x6F, 0x67, 0x72, 0x61, 0x76, 0x65, 0x3B], [0xC3, 0xB2], true),
    ([0x26, 0x23, 0x32, 0x34, 0x32, 0x3B], [0xC3, 0xB2], false),
    ([0x26, 0x23, 0x78, 0x46, 0x32, 0x3B], [0xC3, 0xB2], false),
    ([0x26, 0x23, 0x78, 0x66, 0x32, 0x3B], [0xC3, 0xB2], false),
    ([0x26, 0x6F, 0x61, 0x63, 0x75, 0x74, 0x65, 0x3B], [0xC3, 0xB3], true),
    ([0x26, 0x23, 0x32, 0x34, 0x33, 0x3B], [0xC3, 0xB3], false),
    ([0x26, 0x23, 0x78, 0x46, 0x33, 0x3B], [0xC3, 0xB3], false),
    ([0x26, 0x23, 0x78, 0x66, 0x33, 0x3B], [0xC3, 0xB3], false),
    ([0x26, 0x6F, 0x63, 0x69, 0x72, 0x63, 0x3B], [0xC3, 0xB4], true),
    ([0x26, 0x23, 0x32, 0x34, 0x34, 0x3B], [0xC3, 0xB4], false),
    ([0x26, 0x23, 0x78, 0x46, 0x34, 0x3B], [0xC3, 0xB4], false),
    ([0x26, 0x23, 0x78, 0x66, 0x34, 0x3B], [0xC3, 0xB4], false),
    ([0x26, 0x6F, 0x74, 0x69, 0x6C, 0x64, 0x65, 0x3B], [0xC3, 0xB5], true),
    ([0x26, 0x23, 0x32, 0x34, 0x35, 0x3B], [0xC3, 0xB5], false),
    ([0x26, 0x23, 0x78, 0x46, 0x35, 0x3B], [0xC3, 0xB5], false),
    ([0x26, 0x23, 0x78, 0x66, 0x35, 0x3B], [0xC3, 0xB5], false),
    ([0x26, 0x6F, 0x75, 0x6D, 0x6C, 0x3B], [0xC3, 0xB6], true),
    ([0x26, 0x23, 0x32, 0x34, 0x36, 0x3B], [0xC3, 0xB6], false),
    ([0x26, 0x23, 0x78, 0x46, 0x36, 0x3B], [0xC3, 0xB6], false),
    ([0x26, 0x23, 0x78, 0x66, 0x36, 0x3B], [0xC3, 0xB6], false),
    ([0x26, 0x6F, 0x73, 0x6C, 0x61, 0x73, 0x68, 0x3B], [0xC3, 0xB8], true),
    ([0x26, 0x23, 0x32, 0x34, 0x38, 0x3B], [0xC3, 0xB8], false),
    ([0x26, 0x23, 0x78, 0x46, 0x38, 0x3B], [0xC3, 0xB8], false),
    ([0x26, 0x23, 0x78, 0x66, 0x38, 0x3B], [0xC3, 0xB8], false),
    ([0x26, 0x75, 0x67, 0x72, 0x61, 0x76, 0x65, 0x3B], [0xC3, 0xB9], true),
    ([0x26, 0x23, 0x32, 0x34, 0x39, 0x3B], [0xC3, 0xB9], false),
    ([0x26, 0x23, 0x78, 0x46, 0x39, 0x3B], [0xC3, 0xB9], false),
    ([0x26, 0x23, 0x78, 0x66, 0x39, 0x3B], [0xC3, 0xB9], false),
    ([0x26, 0x75, 0x61, 0x63, 0x75, 0x74, 0x65, 0x3B], [0xC3, 0xBA], true),
    ([0x26, 0x23, 0x32, 0x35, 0x30, 0x3B], [0xC3, 0xBA], false),
    ([0x26, 0x23, 0x78, 0x46, 0x41, 0x3B], [0xC3, 0xBA], false),
    ([0x26, 0x23, 0x78, 0x66, 0x61, 0x3B], [0xC3, 0xBA], false),
    ([0x26, 0x75, 0x63, 0x69, 0x72, 0x63, 0x3B], [0xC3, 0xBB], true),
    ([0x26, 0x23, 0x32, 0x35, 0x31, 0x3B], [0xC3, 0xBB], false),
    ([0x26, 0x23, 0x78, 0x46, 0x42, 0x3B], [0xC3, 0xBB], false),
    ([0x26, 0x23, 0x78, 0x66, 0x62, 0x3B], [0xC3, 0xBB], false),
    ([0x26, 0x75, 0x75, 0x6D, 0x6C, 0x3B], [0xC3, 0xBC], true),
    ([0x26, 0x23, 0x32, 0x35, 0x32, 0x3B], [0xC3, 0xBC], false),
    ([0x26, 0x23, 0x78, 0x46, 0x43, 0x3B], [0xC3, 0xBC], false),
    ([0x26, 0x23, 0x78, 0x66, 0x63, 0x3B], [0xC3, 0xBC], false),
    ([0x26, 0x79, 0x61, 0x63, 0x75, 0x74, 0x65, 0x3B], [0xC3, 0xBD], true),
    ([0x26, 0x23, 0x32, 0x35, 0x33, 0x3B], [0xC3, 0xBD], false),
    ([0x26, 0x23, 0x78, 0x46, 0x44, 0x3B], [0xC3, 0xBD], false),
    ([0x26, 0x23, 0x78, 0x66, 0x64, 0x3B], [0xC3, 0xBD], false),
    ([0x26, 0x74, 0x68, 0x6F, 0x72, 0x6E, 0x3B], [0xC3, 0xBE], true),
    ([0x26, 0x23, 0x32, 0x35, 0x34, 0x3B], [0xC3, 0xBE], false),
    ([0x26, 0x23, 0x78, 0x46, 0x45, 0x3B], [0xC3, 0xBE], false),
    ([0x26, 0x23, 0x78, 0x66, 0x65, 0x3B], [0xC3, 0xBE], false),
    ([0x26, 0x79, 0x75, 0x6D, 0x6C, 0x3B], [0xC3, 0xBF], true),
    ([0x26, 0x23, 0x32, 0x35, 0x35, 0x3B], [0xC3, 0xBF], false),
    ([0x26, 0x23, 0x78, 0x46, 0x46, 0x3B], [0xC3, 0xBF], false),
    ([0x26, 0x23, 0x78, 0x66, 0x66, 0x3B], [0xC3, 0xBF], false),
    ([0x26, 0x6D, 0x69, 0x64, 0x64, 0x6F, 0x74, 0x3B], [0xC2, 0xB7], true),
    ([0x26, 0x23, 0x31, 0x38, 0x33, 0x3B], [0xC2, 0xB7], false),
    ([0x26, 0x23, 0x78, 0x42, 0x37, 0x3B], [0xC2, 0xB7], false),
    ([0x26, 0x23, 0x78, 0x62, 0x37, 0x3B], [0xC2, 0xB7], false),
    ([0x26, 0x6C, 0x61, 0x71, 0x75, 0x6F, 0x3B], [0xC2, 0xAB], true),
    ([0x26, 0x23, 0x31, 0x37, 0x31, 0x3B], [0xC2, 0xAB], false),
    ([0x26, 0x23, 0x78, 0x41, 0x42, 0x3B], [0xC2, 0xAB], false),
    ([0x26, 0x23, 0x78, 0x61, 0x62, 0x3B], [0xC2, 0xAB], false),
    ([0x26, 0x72, 0x61, 0x71, 0x75, 0x6F, 0x3B], [0xC2, 0xBB], true),
    ([0x26, 0x23, 0x31, 0x38, 0x37, 0x3B], [0xC2, 0xBB], false),
    ([0x26, 0x23, 0x78, 0x42, 0x42, 0x3B], [0xC2, 0xBB], false),
    ([0x26, 0x23, 0x78, 0x62, 0x62, 0x3B], [0xC2, 0xBB], false),
    ([0x26, 0x72, 0x73, 0x71, 0x75, 0x6F, 0x3B], [0x27], false),
    ([0x26, 0x69, 0x65, 0x78, 0x63, 0x6C, 0x3B], [0xC2, 0xA1], true),
    ([0x26, 0x23, 0x31, 0x36, 0x31, 0x3B], [0xC2, 0xA1], false),
    ([0x26, 0x23, 0x78, 0x41, 0x31, 0x3B], [0xC2, 0xA1], false),
    ([0x26, 0x23, 0x78, 0x61, 0x31, 0x3B], [0xC2, 0xA1], false),
    ([0x26, 0x23, 0x78, 0x30, 0x30, 0x41, 0x31, 0x3B], [0xC2, 0xA1], false),
    ([0x26, 0x23, 0x78, 0x30, 0x30, 0x61, 0x31, 0x3B], [0xC2, 0xA1], false),
    ([0x26, 0x69, 0x71, 0x75, 0x65, 0x73, 0x74, 0x3B], [0xC2, 0xBF], true),
    ([0x26, 0x23, 0x31, 0x39, 0x31, 0x3B], [0xC2, 0xBF], false),
    ([0x26, 0x23, 0x78, 0x42, 0x46, 0x3B], [0xC2, 0xBF], false),
    ([0x26, 0x23, 0x78, 0x62, 0x66, 0x3B], [0xC2, 0xBF], false),
    ([0x26, 0x23, 0x78, 0x30, 0x30, 0x42, 0x46, 0x3B], [0xC2, 0xBF], false),
    ([0x26, 0x23, 0x78, 0x30, 0x30, 0x62, 0x66, 0x3B], [0xC2, 0xBF], false),
    ([0x26, 0x23, 0x32, 0x36, 0x34, 0x3B], [0xC4, 0x88], true),
    ([0x26, 0x23, 0x32, 0x36, 0x35, 0x3B], [0xC4, 0x89], true),
    ([0x26, 0x23, 0x32, 0x38, 0x34, 0x3B], [0xC4, 0x9C], true),
    ([0x26, 0x23, 0x32, 0x38, 0x35, 0x3B], [0xC4, 0x9D], true),
    ([0x26, 0x23, 0x32, 0x39, 0x32, 0x3B], [0xC4, 0xA4], true),
    ([0x26, 0x23, 0x32, 0x39, 0x33, 0x3B], [0xC4, 0xA5], true),
    ([0x26, 0x23, 0x33, 0x30, 0x38, 0x3B], [0xC4, 0xB4], true),
    ([0x26, 0x23, 0x33, 0x30, 0x39, 0x3B], [0xC4, 0xB5], true),
    ([0x26, 0x23, 0x33, 0x34, 0x38, 0x3B], [0xC5, 0x9C], true),
    ([0x26, 0x23, 0x33, 0x34, 0x39, 0x3B], [0xC5, 0x9D], true),
    ([0x26, 0x23, 0x33, 0x36, 0x34, 0x3B], [0xC5, 0xAC], true),
    ([0x26, 0x23, 0x33, 0x36, 0x35, 0x3B], [0xC5, 0xAD], true),
    ([0x26, 0x23, 0x33, 0x39, 0x3B], [0x27], false),
    ([0x27], [0x27], true)]

/-- The format html (html-format.xml:1-401). -/
def html : Fmt where
  large := 8192
  escape := fun b => [0x5D, 0x5B, 0x5E, 0x40, 0x5C, 0x2F, 0x24, 0x7B, 0x7D].contains b
  space := fun b => [0x20, 0x0A, 0x09, 0x0D, 0x3C, 0x3E, 0x7E].contains b
  rules := [htmlRule1, htmlRule2, htmlRule3, htmlRule4, htmlRule5, htmlRule6, htmlRule7, htmlRule8, htmlRule9, htmlRule10, htmlRule11, htmlRule12, htmlRule13, htmlRule14, htmlRule15, htmlRule16, htmlRule17, htmlRule18]
  repls := [htmlRepl1]

/-- html-alt-format.xml, rule 1: `"<!--" … "-->"` -/
def htmlAltRule1 : Rule :=
  { re := (lit "<!--")
    fin := some (lit "-->"), prio := 1 }

/-- html-alt-format.xml, rule 2: `"{{" … "}}"` -/
def htmlAltRule2 : Rule :=
  { re := (lit "{{")
    fin := some (lit "}}"), prio := 1 }

/-- html-alt-format.xml, rule 3: `"<script"(" "[^>]*)?">" … "</script"(" "[^>]*)?">"` -/
def htmlAltRule3 : Rule :=
  { re := (seqs [(lit "<script"), (opt (seqs [(lit " "), (.star (cc true [(0x3E, 0x3E)]))])), (lit ">")])
    fin := some (seqs [(lit "</script"), (opt (seqs [(lit " "), (.star (cc true [(0x3E, 0x3E)]))])), (lit ">")]), prio := 2 }

/-- html-alt-format.xml, rule 4: `"<apertium-notrans"(" "[^>]*)?">" … "</apertium-notrans>"` -/
def htmlAltRule4 : Rule :=
  { re := (seqs [(lit "<apertium-notrans"), (opt (seqs [(lit " "), (.star (cc true [(0x3E, 0x3E)]))])), (lit ">")])
    fin := some (lit "</apertium-notrans>"), prio := 2 }

/-- html-alt-format.xml, rule 5: `"<style"(" "[^>]*)?">" … "</style"(" "[^>]*)?">"` -/
def htmlAltRule5 : Rule :=
  { re := (seqs [(lit "<style"), (opt (seqs [(lit " "), (.star (cc true [(0x3E, 0x3E)]))])), (lit ">")])
    fin := some (seqs [(lit "</style"), (opt (seqs [(lit " "), (.star (cc true [(0x3E, 0x3E)]))])), (lit ">")]), prio := 2 }

/-- html-alt-format.xml, rule 6: `"<br"(" "[^>]*)?">"|"<hr"(" "[^>]*)?">"|"<p"(" "[^>]*)?">"` -/
def htmlAltRule6 : Rule :=
  { re := (alts [(seqs [(lit "<br"), (opt (seqs [(lit " "), (.star (cc true [(0x3E, 0x3E)]))])), (lit ">")]), (seqs [(lit "<hr"), (opt (seqs [(lit " "), (.star (cc true [(0x3E, 0x3E)]))])), (lit ">")]), (seqs [(lit "<p"), (opt (seqs [(lit " "), (.star (cc true [(0x3E, 0x3E)]))])), (lit ">")])]), eos := true, prio := 3 }

/-- html-alt-format.xml, rule 7: `"<li"(" "[^>]*)?">"|"<ul"(" "[^>]*)?">"|"<ol"(" "[^>]*)?">"` -/
def htmlAltRule7 : Rule :=
  { re := (alts [(seqs [(lit "<li"), (opt (seqs [(lit " "), (.star (cc true [(0x3E, 0x3E)]))])), (lit ">")]), (seqs [(lit "<ul"), (opt (seqs [(lit " "), (.star (cc true [(0x3E, 0x3E)]))])), (lit ">")]), (seqs [(lit "<ol"), (opt (seqs [(lit " "), (.star (cc true [(0x3E, 0x3E)]))])), (lit ">")])]), eos := true, prio := 3 }

/-- html-alt-format.xml, rule 8: `"<tr"(" "[^>]*)?">"|"<td"(" "[^>]*)?">"|"<th"(" "[^>]*)?">"` -/
def htmlAltRule8 : Rule :=
  { re := (alts [(seqs [(lit "<tr"), (opt (seqs [(lit " "), (.star (cc true [(0x3E, 0x3E)]))])), (lit ">")]), (seqs [(lit "<td"), (opt (seqs [(lit " "), (.star (cc true [(0x3E, 0x3E)]))])), (lit ">")]), (seqs [(lit "<th"), (opt (seqs [(lit " "), (.star (cc true [(0x3E, 0x3E)]))])), (lit ">")])]), eos := true, prio := 3 }

/-- html-alt-format.xml, rule 9: `"</br"(" "[^>]*)?">"|"</hr"(" "[^>]*)?">"|"</p"(" "[^>]*)?">"` -/
def htmlAltRule9 : Rule :=
  { re := (alts [(seqs [(lit "</br"), (opt (seqs [(lit " "), (.star (cc true [(0x3E, 0x3E)]))])), (lit ">")]), (seqs [(lit "</hr"), (opt (seqs [(lit " "), (.star (cc true [(0x3E, 0x3E)]))])), (lit ">")]), (seqs [(lit "</p"), (opt (seqs [(lit " "), (.star (cc true [(0x3E, 0x3E)]))])), (lit ">")])]), eos := true, prio := 3 }

/-- html-alt-format.xml, rule 10: `"</li"(" "[^>]*)?">"|"</ul"(" "[^>]*)?">"|"</ol"(" "[^>]*)?">"` -/
def htmlAltRule10 : Rule :=
  { re := (alts [(seqs [(lit "</li"), (opt (seqs [(lit " "), (.star (cc true [(0x3E, 0x3E)]))])), (lit ">")]), (seqs [(lit "</ul"), (opt (seqs [(lit " "), (.star (cc true [(0x3E, 0x3E)]))])), (lit ">")]), (seqs [(lit "</ol"), (opt (seqs [(lit " "), (.star (cc true [(0x3E, 0x3E)]))])), (lit ">")])]), eos := true, prio := 3 }

/-- html-alt-format.xml, rule 11: `"</tr"(" "[^>]*)?">"|"</td"(" "[^>]*)?">"|"</th"(" "[^>]*)?">"` -/
def htmlAltRule11 : Rule :=
  { re := (alts [(seqs [(lit "</tr"), (opt (seqs [(lit " "), (.star (cc true [(0x3E, 0x3E)]))])), (lit ">")]), (seqs [(lit "</td"), (opt (seqs [(lit " "), (.star (cc true [(0x3E, 0x3E)]))])), (lit ">")]), (seqs [(lit "</th"), (opt (seqs [(lit " "), (.star (cc true [(0x3E, 0x3E)]))])), (lit ">")])]), eos := true, prio := 3 }

/-- html-alt-format.xml, rule 12: `"<title"(" "[^>]*)?">"|"<div"(" "[^>]*)?">"|"<option"(" "[^>]*)?">"|"<h"[1-6](" "[^>]*)?">"` -/
def htmlAltRule12 : Rule :=
  { re := (alts [(seqs [(lit "<title"), (opt (seqs [(lit " "), (.star (cc true [(0x3E, 0x3E)]))])), (lit ">")]), (seqs [(lit "<div"), (opt (seqs [(lit " "), (.star (cc true [(0x3E, 0x3E)]))])), (lit ">")]), (seqs [(lit "<option"), (opt (seqs [(lit " "), (.star (cc true [(0x3E, 0x3E)]))])), (lit ">")]), (seqs [(lit "<h"), (cc false [(0x31, 0x36)]), (opt (seqs [(lit " "), (.star (cc true [(0x3E, 0x3E)]))])), (lit ">")])]), eos := true, prio := 3 }

/-- html-alt-format.xml, rule 13: `"</div"(" "[^>]*)?">"|"</option"(" "[^>]*)?">"` -/
def htmlAltRule13 : Rule :=
  { re := (alts [(seqs [(lit "</div"), (opt (seqs [(lit " "), (.star (cc true [(0x3E, 0x3E)]))])), (lit ">")]), (seqs [(lit "</option"), (opt (seqs [(lit " "), (.star (cc true [(0x3E, 0x3E)]))])), (lit ">")])]), eos := true, prio := 3 }

/-- html-alt-format.xml, rule 14: `"</title"(" "[^>]*)?">"|"</h"[1-6](" "[^>]*)?">"` -/
def htmlAltRule14 : Rule :=
  { re := (alts [(seqs [(lit "</title"), (opt (seqs [(lit " "), (.star (cc true [(0x3E, 0x3E)]))])), (lit ">")]), (seqs [(lit "</h"), (cc false [(0x31, 0x36)]), (opt (seqs [(lit " "), (.star (cc true [(0x3E, 0x3E)]))])), (lit ">")])]), eos := true, eoh := true, prio := 3 }

/-- html-alt-format.xml, rule 15: `"<"("link")(" "[^>]*)?">"` -/
def htmlAltRule15 : Rule :=
  { re := (seqs [(lit "<"), (lit "link"), (opt (seqs [(lit " "), (.star (cc true [(0x3E, 0x3E)]))])), (lit ">")]), prio := 4 }

/-- html-alt-format.xml, rule 16: `("<!"|"<?")[a-zA-Z][^>]*">"` -/
def htmlAltRule16 : Rule :=
  { re := (seqs [(alts [(lit "<!"), (lit "<?")]), (cc false [(0x61, 0x7A), (0x41, 0x5A)]), (.star (cc true [(0x3E, 0x3E)])), (lit ">")]), prio := 5 }

/-- html-alt-format.xml, rule 17: `"<"("img"|"input"|"area")(" "[^><]+)*" alt="[\"']` -/
def htmlAltRule17 : Rule :=
  { re := (seqs [(lit "<"), (alts [(lit "img"), (lit "input"), (lit "area")]), (.star (seqs [(lit " "), (plus (cc true [(0x3E, 0x3E), (0x3C, 0x3C)]))])), (lit " alt="), (cc false [(0x22, 0x22), (0x27, 0x27)])]), prio := 5 }

/-- html-alt-format.xml, rule 18: `[\"'][^><]*">"` -/
def htmlAltRule18 : Rule :=
  { re := (seqs [(cc false [(0x22, 0x22), (0x27, 0x27)]), (.star (cc true [(0x3E, 0x3E), (0x3C, 0x3C)])), (lit ">")]), prio := 5 }

/-- html-alt-format.xml, rule 19: `"<"[a-zA-Z]+  … [^>]*">"` -/
def htmlAltRule19 : Rule :=
  { re := (seqs [(lit "<"), (plus (cc false [(0x61, 0x7A), (0x41, 0x5A)]))])
    fin := some (seqs [(.star (cc true [(0x3E, 0x3E)])), (lit ">")]), prio := 4 }

/-- html-alt-format.xml, rule 20: `"</"[a-zA-Z][^>]*">"` -/
def htmlAltRule20 : Rule :=
  { re := (seqs [(lit "</"), (cc false [(0x61, 0x7A), (0x41, 0x5A)]), (.star (cc true [(0x3E, 0x3E)])), (lit ">")]), prio := 5 }

/-- The format html-alt (html-alt-format.xml:1-108). -/
def htmlAlt : Fmt where
  large := 8192
  escape := fun b => [0x5D, 0x5B, 0x5E, 0x40, 0x5C, 0x2F, 0x24, 0x7B, 0x7D].contains b
  space := fun b => [0x20, 0x0A, 0x09, 0x0D, 0x3C, 0x3E, 0x7E].contains b
  rules := [htmlAltRule1, htmlAltRule2, htmlAltRule3, htmlAltRule4, htmlAltRule5, htmlAltRule6, htmlAltRule7, htmlAltRule8, htmlAltRule9, htmlAltRule10, htmlAltRule11, htmlAltRule12, htmlAltRule13, htmlAltRule14, htmlAltRule15, htmlAltRule16, htmlAltRule17, htmlAltRule18, htmlAltRule19, htmlAltRule20]

/-- latex-format.xml, rule 1: `"<!--" … "-->"` -/
def latexRule1 : Rule :=
  { re := (lit "<!--")
    fin := some (lit "-->"), prio := 1 }

/-- latex-format.xml, rule 2: `"<COMMENT>" … "</COMMENT>"` -/
def latexRule2 : Rule :=
  { re := (lit "<COMMENT>")
    fin := some (lit "</COMMENT>"), prio := 1 }

/-- latex-format.xml, rule 3: `"<VERB>" … "</VERB>"` -/
def latexRule3 : Rule :=
  { re := (lit "<VERB>")
    fin := some (lit "</VERB>"), prio := 1 }

/-- latex-format.xml, rule 4: `"<cite"(_STAR)?"/>"[ \t\n\r]*"<CONTENTS>" … "</CONTENTS>"` -/
def latexRule4 : Rule :=
  { re := (seqs [(lit "<cite"), (opt (lit "_STAR")), (lit "/>"), (.star (cc false [(0x20, 0x20), (0x09, 0x09), (0x0A, 0x0A), (0x0D, 0x0D)])), (lit "<CONTENTS>")])
    fin := some (lit "</CONTENTS>"), prio := 2 }

/-- latex-format.xml, rule 5: `"<ref"(_STAR)?"/>"[ \t\n\r]*"<CONTENTS>" … "</CONTENTS>"` -/
def latexRule5 : Rule :=
  { re := (seqs [(lit "<ref"), (opt (lit "_STAR")), (lit "/>"), (.star (cc false [(0x20, 0x20), (0x09, 0x09), (0x0A, 0x0A), (0x0D, 0x0D)])), (lit "<CONTENTS>")])
    fin := some (lit "</CONTENTS>"), prio := 2 }

/-- latex-format.xml, rule 6: `"<part"(_STAR)?"/>"[ \t\n\r]*"<CONTENTS>"` -/
def latexRule6 : Rule :=
  { re := (seqs [(lit "<part"), (opt (lit "_STAR")), (lit "/>"), (.star (cc false [(0x20, 0x20), (0x09, 0x09), (0x0A, 0x0A), (0x0D, 0x0D)])), (lit "<CONTENTS>")]), eos := true, prio := 2 }

/-- latex-format.xml, rule 7: `"<part"(_STAR)?"/>"[ \t\n\r]*"<PARAM>"` -/
def latexRule7 : Rule :=
  { re := (seqs [(lit "<part"), (opt (lit "_STAR")), (lit "/>"), (.star (cc false [(0x20, 0x20), (0x09, 0x09), (0x0A, 0x0A), (0x0D, 0x0D)])), (lit "<PARAM>")]), eos := true, prio := 2 }

/-- latex-format.xml, rule 8: `"<chapter"(_STAR)?"/>"[ \t\n\r]*"<CONTENTS>"` -/
def latexRule8 : Rule :=
  { re := (seqs [(lit "<chapter"), (opt (lit "_STAR")), (lit "/>"), (.star (cc false [(0x20, 0x20), (0x09, 0x09), (0x0A, 0x0A), (0x0D, 0x0D)])), (lit "<CONTENTS>")]), eos := true, prio := 2 }

/-- latex-format.xml, rule 9: `"<chapter"(_STAR)?"/>"[ \t\n\r]*"<PARAM>"` -/
def latexRule9 : Rule :=
  { re := (seqs [(lit "<chapter"), (opt (lit "_STAR")), (lit "/>"), (.star (cc false [(0x20, 0x20), (0x09, 0x09), (0x0A, 0x0A), (0x0D, 0x0D)])), (lit "<PARAM>")]), eos := true, prio := 2 }

/-- latex-format.xml, rule 10: `"<section"(_STAR)?"/>"[ \t\n\r]*"<CONTENTS>"` -/
def latexRule10 : Rule :=
  { re := (seqs [(lit "<section"), (opt (lit "_STAR")), (lit "/>"), (.star (cc false [(0x20, 0x20), (0x09, 0x09), (0x0A, 0x0A), (0x0D, 0x0D)])), (lit "<CONTENTS>")]), eos := true, prio := 2 }

/-- latex-format.xml, rule 11: `"<section"(_STAR)?"/>"[ \t\n\r]*"<PARAM>"` -/
def latexRule11 : Rule :=
  { re := (seqs [(lit "<section"), (opt (lit "_STAR")), (lit "/>"), (.star (cc false [(0x20, 0x20), (0x09, 0x09), (0x0A, 0x0A), (0x0D, 0x0D)])), (lit "<PARAM>")]), eos := true, prio := 2 }

/-- latex-format.xml, rule 12: `"<title"(_STAR)?"/>"[ \t\n\r]*"<CONTENTS>"` -/
def latexRule12 : Rule :=
  { re := (seqs [(lit "<title"), (opt (lit "_STAR")), (lit "/>"), (.star (cc false [(0x20, 0x20), (0x09, 0x09), (0x0A, 0x0A), (0x0D, 0x0D)])), (lit "<CONTENTS>")]), eos := true, prio := 2 }

/-- latex-format.xml, rule 13: `"<title"(_STAR)?"/>"[ \t\n\r]*"<PARAM>"` -/
def latexRule13 : Rule :=
  { re := (seqs [(lit "<title"), (opt (lit "_STAR")), (lit "/>"), (.star (cc false [(0x20, 0x20), (0x09, 0x09), (0x0A, 0x0A), (0x0D, 0x0D)])), (lit "<PARAM>")]), eos := true, prio := 2 }

/-- latex-format.xml, rule 14: `"<mline"(_STAR)?"/>"[ \t\n\r]*"<CONTENTS>"` -/
def latexRule14 : Rule :=
  { re := (seqs [(lit "<mline"), (opt (lit "_STAR")), (lit "/>"), (.star (cc false [(0x20, 0x20), (0x09, 0x09), (0x0A, 0x0A), (0x0D, 0x0D)])), (lit "<CONTENTS>")]), eos := true, prio := 2 }

/-- latex-format.xml, rule 15: `"<thanks"(_STAR)?"/>"[ \t\n\r]*"<CONTENTS>"` -/
def latexRule15 : Rule :=
  { re := (seqs [(lit "<thanks"), (opt (lit "_STAR")), (lit "/>"), (.star (cc false [(0x20, 0x20), (0x09, 0x09), (0x0A, 0x0A), (0x0D, 0x0D)])), (lit "<CONTENTS>")]), eos := true, prio := 2 }

/-- latex-format.xml, rule 16: `"<subsection"(_STAR)?"/>"[ \t\n\r]*"<CONTENTS>"` -/
def latexRule16 : Rule :=
  { re := (seqs [(lit "<subsection"), (opt (lit "_STAR")), (lit "/>"), (.star (cc false [(0x20, 0x20), (0x09, 0x09), (0x0A, 0x0A), (0x0D, 0x0D)])), (lit "<CONTENTS>")]), eos := true, prio := 2 }

/-- latex-format.xml, rule 17: `"<paragraph"(_STAR)?"/>"[ \t\n\r]*"<CONTENTS>"` -/
def latexRule17 : Rule :=
  { re := (seqs [(lit "<paragraph"), (opt (lit "_STAR")), (lit "/>"), (.star (cc false [(0x20, 0x20), (0x09, 0x09), (0x0A, 0x0A), (0x0D, 0x0D)])), (lit "<CONTENTS>")]), eos := true, prio := 2 }

/-- latex-format.xml, rule 18: `"<subsection"(_STAR)?"/>"[ \t\n\r]*"<PARAM>"` -/
def latexRule18 : Rule :=
  { re := (seqs [(lit "<subsection"), (opt (lit "_STAR")), (lit "/>"), (.star (cc false [(0x20, 0x20), (0x09, 0x09), (0x0A, 0x0A), (0x0D, 0x0D)])), (lit "<PARAM>")]), eos := true, prio := 2 }

/-- latex-format.xml, rule 19: `"<subsubsection"(_STAR)?"/>"[ \t\n\r]*"<CONTENTS>"` -/
def latexRule19 : Rule :=
  { re := (seqs [(lit "<subsubsection"), (opt (lit "_STAR")), (lit "/>"), (.star (cc false [(0x20, 0x20), (0x09, 0x09), (0x0A, 0x0A), (0x0D, 0x0D)])), (lit "<CONTENTS>")]), eos := true, prio := 2 }

/-- latex-format.xml, rule 20: `"<subsubsection"(_STAR)?"/>"[ \t\n\r]*"<PARAM>"` -/
def latexRule20 : Rule :=
  { re := (seqs [(lit "<subsubsection"), (opt (lit "_STAR")), (lit "/>"), (.star (cc false [(0x20, 0x20), (0x09, 0x09), (0x0A, 0x0A), (0x0D, 0x0D)])), (lit "<PARAM>")]), eos := true, prio := 2 }

/-- latex-format.xml, rule 21: `"<subsubsubsection"(_STAR)?"/>"[ \t\n\r]*"<CONTENTS>"` -/
def latexRule21 : Rule :=
  { re := (seqs [(lit "<subsubsubsection"), (opt (lit "_STAR")), (lit "/>"), (.star (cc false [(0x20, 0x20), (0x09, 0x09), (0x0A, 0x0A), (0x0D, 0x0D)])), (lit "<CONTENTS>")]), eos := true, prio := 2 }

/-- latex-format.xml, rule 22: `"<subsubsubsection"(_STAR)?"/>"[ \t\n\r]*"<PARAM>"` -/
def latexRule22 : Rule :=
  { re := (seqs [(lit "<subsubsubsection"), (opt (lit "_STAR")), (lit "/>"), (.star (cc false [(0x20, 0x20), (0x09, 0x09), (0x0A, 0x0A), (0x0D, 0x0D)])), (lit "<PARAM>")]), eos := true, prio := 2 }

/-- latex-format.xml, rule 23: `"<subsubsubsubsection"(_STAR)?"/>"[ \t\n\r]*"<CONTENTS>"` -/
def latexRule23 : Rule :=
  { re := (seqs [(lit "<subsubsubsubsection"), (opt (lit "_STAR")), (lit "/>"), (.star (cc false [(0x20, 0x20), (0x09, 0x09), (0x0A, 0x0A), (0x0D, 0x0D)])), (lit "<CONTENTS>")]), eos := true, prio := 2 }

/-- latex-format.xml, rule 24: `"<subsubsubsubsection"(_STAR)?"/>"[ \t\n\r]*"<PARAM>"` -/
def latexRule24 : Rule :=
  { re := (seqs [(lit "<subsubsubsubsection"), (opt (lit "_STAR")), (lit "/>"), (.star (cc false [(0x20, 0x20), (0x09, 0x09), (0x0A, 0x0A), (0x0D, 0x0D)])), (lit "<PARAM>")]), eos := true, prio := 2 }

/-- latex-format.xml, rule 25: `"<subsubsubsubsubsection"(_STAR)?"/>"[ \t\n\r]*"<CONTENTS>"` -/
def latexRule25 : Rule :=
  { re := (seqs [(lit "<subsubsubsubsubsection"), (opt (lit "_STAR")), (lit "/>"), (.star (cc false [(0x20, 0x20), (0x09, 0x09), (0x0A, 0x0A), (0x0D, 0x0D)])), (lit "<CONTENTS>")]), eos := true, prio := 2 }

/-- latex-format.xml, rule 26: `"<subsubsubsubsubsection"(_STAR)?"/>"[ \t\n\r]*"<PARAM>"` -/
def latexRule26 : Rule :=
  { re := (seqs [(lit "<subsubsubsubsubsection"), (opt (lit "_STAR")), (lit "/>"), (.star (cc false [(0x20, 0x20), (0x09, 0x09), (0x0A, 0x0A), (0x0D, 0x0D)])), (lit "<PARAM>")]), eos := true, prio := 2 }

/-- latex-format.xml, rule 27: `"<frametitle"(_STAR)?"/>"[ \t\n\r]*"<CONTENTS>"` -/
def latexRule27 : Rule :=
  { re := (seqs [(lit "<frametitle"), (opt (lit "_STAR")), (lit "/>"), (.star (cc false [(0x20, 0x20), (0x09, 0x09), (0x0A, 0x0A), (0x0D, 0x0D)])), (lit "<CONTENTS>")]), eos := true, prio := 2 }

/-- latex-format.xml, rule 28: `"<frametitle"(_STAR)?"/>"[ \t\n\r]*"<PARAM>"` -/
def latexRule28 : Rule :=
  { re := (seqs [(lit "<frametitle"), (opt (lit "_STAR")), (lit "/>"), (.star (cc false [(0x20, 0x20), (0x09, 0x09), (0x0A, 0x0A), (0x0D, 0x0D)])), (lit "<PARAM>")]), eos := true, prio := 2 }

/-- latex-format.xml, rule 29: `"<block>"[ \t\n\r]*"<CONTENTS>"` -/
def latexRule29 : Rule :=
  { re := (seqs [(lit "<block>"), (.star (cc false [(0x20, 0x20), (0x09, 0x09), (0x0A, 0x0A), (0x0D, 0x0D)])), (lit "<CONTENTS>")]), eos := true, prio := 2 }

/-- latex-format.xml, rule 30: `"<caption"(_STAR)?"/>"[ \t\n\r]*"<CONTENTS>"` -/
def latexRule30 : Rule :=
  { re := (seqs [(lit "<caption"), (opt (lit "_STAR")), (lit "/>"), (.star (cc false [(0x20, 0x20), (0x09, 0x09), (0x0A, 0x0A), (0x0D, 0x0D)])), (lit "<CONTENTS>")]), eos := true, prio := 2 }

/-- latex-format.xml, rule 31: `"<footnote"(_STAR)?"/>"[ \t\n\r]*"<CONTENTS>"` -/
def latexRule31 : Rule :=
  { re := (seqs [(lit "<footnote"), (opt (lit "_STAR")), (lit "/>"), (.star (cc false [(0x20, 0x20), (0x09, 0x09), (0x0A, 0x0A), (0x0D, 0x0D)])), (lit "<CONTENTS>")]), eos := true, prio := 2 }

/-- latex-format.xml, rule 32: `"<framebox"(_STAR)?"/>"[ \t\n\r]*"<CONTENTS>"` -/
def latexRule32 : Rule :=
  { re := (seqs [(lit "<framebox"), (opt (lit "_STAR")), (lit "/>"), (.star (cc false [(0x20, 0x20), (0x09, 0x09), (0x0A, 0x0A), (0x0D, 0x0D)])), (lit "<CONTENTS>")]), eos := true, prio := 2 }

/-- latex-format.xml, rule 33: `"<parbox"(_STAR)?"/>"[ \t\n\r]*"<CONTENTS>"[^\<]+"</CONTENTS>"[ \t\n\r]*"<CONTENTS>"` -/
def latexRule33 : Rule :=
  { re := (seqs [(lit "<parbox"), (opt (lit "_STAR")), (lit "/>"), (.star (cc false [(0x20, 0x20), (0x09, 0x09), (0x0A, 0x0A), (0x0D, 0x0D)])), (lit "<CONTENTS>"), (plus (cc true [(0x3C, 0x3C)])), (lit "</CONTENTS>"), (.star (cc false [(0x20, 0x20), (0x09, 0x09), (0x0A, 0x0A), (0x0D, 0x0D)])), (lit "<CONTENTS>")]), eos := true, prio := 2 }

/-- latex-format.xml, rule 34: `"<item"(_STAR)?"/><PARAM>"` -/
def latexRule34 : Rule :=
  { re := (seqs [(lit "<item"), (opt (lit "_STAR")), (lit "/><PARAM>")]), eos := true, prio := 2 }

/-- latex-format.xml, rule 35: `"<textit"(_STAR)?"/>"[ \t\n\r]*"<CONTENTS>"` -/
def latexRule35 : Rule :=
  { re := (seqs [(lit "<textit"), (opt (lit "_STAR")), (lit "/>"), (.star (cc false [(0x20, 0x20), (0x09, 0x09), (0x0A, 0x0A), (0x0D, 0x0D)])), (lit "<CONTENTS>")]), prio := 2 }

/-- latex-format.xml, rule 36: `"</CONTENTS-noeos>"` -/
def latexRule36 : Rule :=
  { re := (lit "</CONTENTS-noeos>"), prio := 2 }

/-- latex-format.xml, rule 37: `"<emph"(_STAR)?"/>"[ \t\n\r]*"<CONTENTS>"` -/
def latexRule37 : Rule :=
  { re := (seqs [(lit "<emph"), (opt (lit "_STAR")), (lit "/>"), (.star (cc false [(0x20, 0x20), (0x09, 0x09), (0x0A, 0x0A), (0x0D, 0x0D)])), (lit "<CONTENTS>")]), prio := 2 }

/-- latex-format.xml, rule 38: `"<textbf"(_STAR)?"/>"[ \t\n\r]*"<CONTENTS>"` -/
def latexRule38 : Rule :=
  { re := (seqs [(lit "<textbf"), (opt (lit "_STAR")), (lit "/>"), (.star (cc false [(0x20, 0x20), (0x09, 0x09), (0x0A, 0x0A), (0x0D, 0x0D)])), (lit "<CONTENTS>")]), prio := 2 }

/-- latex-format.xml, rule 39: `"<CONTENTS>"[ \t\n\r]*"<sf/>"` -/
def latexRule39 : Rule :=
  { re := (seqs [(lit "<CONTENTS>"), (.star (cc false [(0x20, 0x20), (0x09, 0x09), (0x0A, 0x0A), (0x0D, 0x0D)])), (lit "<sf/>")]), eos := true, prio := 4 }

/-- latex-format.xml, rule 40: `"<CONTENTS>"[ \t\n\r]*"<bf/>"` -/
def latexRule40 : Rule :=
  { re := (seqs [(lit "<CONTENTS>"), (.star (cc false [(0x20, 0x20), (0x09, 0x09), (0x0A, 0x0A), (0x0D, 0x0D)])), (lit "<bf/>")]), eos := true, prio := 4 }

/-- latex-format.xml, rule 41: `"<CONTENTS>"[ \t\n\r]*"<em/>"` -/
def latexRule41 : Rule :=
  { re := (seqs [(lit "<CONTENTS>"), (.star (cc false [(0x20, 0x20), (0x09, 0x09), (0x0A, 0x0A), (0x0D, 0x0D)])), (lit "<em/>")]), eos := true, prio := 4 }

/-- latex-format.xml, rule 42: `"<CONTENTS>"[ \t\n\r]*"<sc/>"` -/
def latexRule42 : Rule :=
  { re := (seqs [(lit "<CONTENTS>"), (.star (cc false [(0x20, 0x20), (0x09, 0x09), (0x0A, 0x0A), (0x0D, 0x0D)])), (lit "<sc/>")]), eos := true, prio := 4 }

/-- latex-format.xml, rule 43: `"<CONTENTS>" … "</CONTENTS>"` -/
def latexRule43 : Rule :=
  { re := (lit "<CONTENTS>")
    fin := some (lit "</CONTENTS>"), eos := true, prio := 4 }

/-- latex-format.xml, rule 44: `"</CONTENTS>"` -/
def latexRule44 : Rule :=
  { re := (lit "</CONTENTS>"), eos := true, prio := 4 }

/-- latex-format.xml, rule 45: `"<PARAM>" … "</PARAM>"` -/
def latexRule45 : Rule :=
  { re := (lit "<PARAM>")
    fin := some (lit "</PARAM>"), eos := true, prio := 4 }

/-- latex-format.xml, rule 46: `"</PARAM>"` -/
def latexRule46 : Rule :=
  { re := (lit "</PARAM>"), eos := true, prio := 4 }

/-- latex-format.xml, rule 47: `"<MATH_DOLLAR>" … "</MATH_DOLLAR>"` -/
def latexRule47 : Rule :=
  { re := (lit "<MATH_DOLLAR>")
    fin := some (lit "</MATH_DOLLAR>"), prio := 4 }

/-- latex-format.xml, rule 48: `"<MATH_DOLLARS>" … "</MATH_DOLLARS>"` -/
def latexRule48 : Rule :=
  { re := (lit "<MATH_DOLLARS>")
    fin := some (lit "</MATH_DOLLARS>"), eos := true, prio := 4 }

/-- latex-format.xml, rule 49: `"<equation"(_STAR)?">" … "</equation"(_STAR)?">"` -/
def latexRule49 : Rule :=
  { re := (seqs [(lit "<equation"), (opt (lit "_STAR")), (lit ">")])
    fin := some (seqs [(lit "</equation"), (opt (lit "_STAR")), (lit ">")]), eos := true, prio := 4 }

/-- latex-format.xml, rule 50: `"<thebibliography"(_STAR)?">" … "</thebibliography"(_STAR)?">"` -/
def latexRule50 : Rule :=
  { re := (seqs [(lit "<thebibliography"), (opt (lit "_STAR")), (lit ">")])
    fin := some (seqs [(lit "</thebibliography"), (opt (lit "_STAR")), (lit ">")]), eos := true, prio := 4 }

/-- latex-format.xml, rule 51: `"<eqnarray"(_STAR)?">" … "</eqnarray"(_STAR)?">"` -/
def latexRule51 : Rule :=
  { re := (seqs [(lit "<eqnarray"), (opt (lit "_STAR")), (lit ">")])
    fin := some (seqs [(lit "</eqnarray"), (opt (lit "_STAR")), (lit ">")]), eos := true, prio := 4 }

/-- latex-format.xml, rule 52: `"<itemize"(_STAR)?">"` -/
def latexRule52 : Rule :=
  { re := (seqs [(lit "<itemize"), (opt (lit "_STAR")), (lit ">")]), eos := true, prio := 4 }

/-- latex-format.xml, rule 53: `"</itemize"(_STAR)?">"` -/
def latexRule53 : Rule :=
  { re := (seqs [(lit "</itemize"), (opt (lit "_STAR")), (lit ">")]), eos := true, prio := 4 }

/-- latex-format.xml, rule 54: `"<item/>"` -/
def latexRule54 : Rule :=
  { re := (lit "<item/>"), eos := true, prio := 4 }

/-- latex-format.xml, rule 55: `"<"[a-zA-Z][^>]*">"` -/
def latexRule55 : Rule :=
  { re := (seqs [(lit "<"), (cc false [(0x61, 0x7A), (0x41, 0x5A)]), (.star (cc true [(0x3E, 0x3E)])), (lit ">")]), prio := 5 }

/-- latex-format.xml, rule 56: `"</"[a-zA-Z][^>]*">"` -/
def latexRule56 : Rule :=
  { re := (seqs [(lit "</"), (cc false [(0x61, 0x7A), (0x41, 0x5A)]), (.star (cc true [(0x3E, 0x3E)])), (lit ">")]), prio := 5 }

/-- latex-format.xml, rule 57: `"</PARAM>"[ \t\n\r]*"<CONTENTS>"` -/
def latexRule57 : Rule :=
  { re := (seqs [(lit "</PARAM>"), (.star (cc false [(0x20, 0x20), (0x09, 0x09), (0x0A, 0x0A), (0x0D, 0x0D)])), (lit "<CONTENTS>")]), eos := true, prio := 6 }

/-- latex-format.xml, replacement rule 1: `"&"([a-zA-Z]+|"#x"[0-9a-fA-F]{1,4}|"#"[0-9]{1,8});` with its 1 entries (source, target, preferred). -/
def latexRepl1 : Repl where
  re := (seqs [(lit "&"), (alts [(plus (cc false [(0x61, 0x7A), (0x41, 0x5A)])), (seqs [(lit "#x"), (rep 1 (some 4) (cc false [(0x30, 0x39), (0x61, 0x66), (0x41, 0x46)]))]), (seqs [(lit "#"), (rep 1 (some 8) (cc false [(0x30, 0x39)]))])]), (lit ";")])
  table := [([0x26, 0x61, 0x70, 0x6F, 0x73, 0x3B], [0x27], false)]

/-- The format latex (latex-format.xml:1-268). -/
def latex : Fmt where
  large := 8192
  escape := fun b => [0x5D, 0x5B, 0x5E, 0x40, 0x5C, 0x2F, 0x24, 0x7B, 0x7D].contains b
  space := fun b => [0x20, 0x0A, 0x09, 0x0D, 0x3C, 0x3E, 0x7E].contains b
  rules := [latexRule1, latexRule2, latexRule3, latexRule4, latexRule5, latexRule6, latexRule7, latexRule8, latexRule9, latexRule10, latexRule11, latexRule12, latexRule13, latexRule14, latexRule15, latexRule16, latexRule17, latexRule18, latexRule19, latexRule20, latexRule21, latexRule22, latexRule23, latexRule24, latexRule25, latexRule26, latexRule27, latexRule28, latexRule29, latexRule30, latexRule31, latexRule32, latexRule33, latexRule34, latexRule35, latexRule36, latexRule37, latexRule38, latexRule39, latexRule40, latexRule41, latexRule42, latexRule43, latexRule44, latexRule45, latexRule46, latexRule47, latexRule48, latexRule49, latexRule50, latexRule51, latexRule52, latexRule53, latexRule54, latexRule55, latexRule56, latexRule57]
  repls := [latexRepl1]

/-- mediawiki-format.xml, rule 1: `"<!--" … "-->"` -/
def mediawikiRule1 : Rule :=
  { re := (lit "<!--")
    fin := some (lit "-->"), prio := 1 }

/-- mediawiki-format.xml, rule 2: `"&lt;!--" … "--&gt;"` -/
def mediawikiRule2 : Rule :=
  { re := (lit "&lt;!--")
    fin := some (lit "--&gt;"), prio := 1 }

/-- mediawiki-format.xml, rule 3: `"<script"(" "[^>]*)?">" … "</script"(" "[^>]*)?">"` -/
def mediawikiRule3 : Rule :=
  { re := (seqs [(lit "<script"), (opt (seqs [(lit " "), (.star (cc true [(0x3E, 0x3E)]))])), (lit ">")])
    fin := some (seqs [(lit "</script"), (opt (seqs [(lit " "), (.star (cc true [(0x3E, 0x3E)]))])), (lit ">")]), prio := 2 }

/-- mediawiki-format.xml, rule 4: `"<apertium-notrans"(" "[^>]*)?">" … "</apertium-notrans>"` -/
def mediawikiRule4 : Rule :=
  { re := (seqs [(lit "<apertium-notrans"), (opt (seqs [(lit " "), (.star (cc true [(0x3E, 0x3E)]))])), (lit ">")])
    fin := some (lit "</apertium-notrans>"), prio := 2 }

/-- mediawiki-format.xml, rule 5: `"<siteinfo>" … "</siteinfo>"` -/
def mediawikiRule5 : Rule :=
  { re := (lit "<siteinfo>")
    fin := some (lit "</siteinfo>"), prio := 2 }

/-- mediawiki-format.xml, rule 6: `"<comment>" … "</comment>"` -/
def mediawikiRule6 : Rule :=
  { re := (lit "<comment>")
    fin := some (lit "</comment>"), prio := 2 }

/-- mediawiki-format.xml, rule 7: `"<id>" … "</id>"` -/
def mediawikiRule7 : Rule :=
  { re := (lit "<id>")
    fin := some (lit "</id>"), prio := 2 }

/-- mediawiki-format.xml, rule 8: `"<contributor>" … "</contributor>"` -/
def mediawikiRule8 : Rule :=
  { re := (lit "<contributor>")
    fin := some (lit "</contributor>"), prio := 2 }

/-- mediawiki-format.xml, rule 9: `"<timestamp>" … "</timestamp>"` -/
def mediawikiRule9 : Rule :=
  { re := (lit "<timestamp>")
    fin := some (lit "</timestamp>"), prio := 2 }

/-- mediawiki-format.xml, rule 10: `"{{" … "}}"` -/
def mediawikiRule10 : Rule :=
  { re := (lit "{{")
    fin := some (lit "}}"), prio := 2 }

/-- mediawiki-format.xml, rule 11: `"&lt;math&gt;" … "&lt;/math&gt;"` -/
def mediawikiRule11 : Rule :=
  { re := (lit "&lt;math&gt;")
    fin := some (lit "&lt;/math&gt;"), prio := 2 }

/-- mediawiki-format.xml, rule 12: `"<style"(" "[^>]*)?">" … "</style"(" "[^>]*)?">"` -/
def mediawikiRule12 : Rule :=
  { re := (seqs [(lit "<style"), (opt (seqs [(lit " "), (.star (cc true [(0x3E, 0x3E)]))])), (lit ">")])
    fin := some (seqs [(lit "</style"), (opt (seqs [(lit " "), (.star (cc true [(0x3E, 0x3E)]))])), (lit ">")]), prio := 2 }

/-- mediawiki-format.xml, rule 13: `"<br"(" "[^>]*)?">"|"<hr"(" "[^>]*)?">"|"<p"(" "[^>]*)?">"` -/
def mediawikiRule13 : Rule :=
  { re := (alts [(seqs [(lit "<br"), (opt (seqs [(lit " "), (.star (cc true [(0x3E, 0x3E)]))])), (lit ">")]), (seqs [(lit "<hr"), (opt (seqs [(lit " "), (.star (cc true [(0x3E, 0x3E)]))])), (lit ">")]), (seqs [(lit "<p"), (opt (seqs [(lit " "), (.star (cc true [(0x3E, 0x3E)]))])), (lit ">")])]), eos := true, prio := 3 }

/-- mediawiki-format.xml, rule 14: `"<li"(" "[^>]*)?">"|"<ul"(" "[^>]*)?">"|"<ol"(" "[^>]*)?">"` -/
def mediawikiRule14 : Rule :=
  { re := (alts [(seqs [(lit "<li"), (opt (seqs [(lit " "), (.star (cc true [(0x3E, 0x3E)]))])), (lit ">")]), (seqs [(lit "<ul"), (opt (seqs [(lit " "), (.star (cc true [(0x3E, 0x3E)]))])), (lit ">")]), (seqs [(lit "<ol"), (opt (seqs [(lit " "), (.star (cc true [(0x3E, 0x3E)]))])), (lit ">")])]), eos := true, prio := 3 }

/-- mediawiki-format.xml, rule 15: `"<tr"(" "[^>]*)?">"|"<td"(" "[^>]*)?">"|"<th"(" "[^>]*)?">"` -/
def mediawikiRule15 : Rule :=
  { re := (alts [(seqs [(lit "<tr"), (opt (seqs [(lit " "), (.star (cc true [(0x3E, 0x3E)]))])), (lit ">")]), (seqs [(lit "<td"), (opt (seqs [(lit " "), (.star (cc true [(0x3E, 0x3E)]))])), (lit ">")]), (seqs [(lit "<th"), (opt (seqs [(lit " "), (.star (cc true [(0x3E, 0x3E)]))])), (lit ">")])]), eos := true, prio := 3 }

/-- mediawiki-format.xml, rule 16: `"</br"(" "[^>]*)?">"|"</hr"(" "[^>]*)?">"|"</p"(" "[^>]*)?">"` -/
def mediawikiRule16 : Rule :=
  { re := (alts [(seqs [(lit "</br"), (opt (seqs [(lit " "), (.star (cc true [(0x3E, 0x3E)]))])), (lit ">")]), (seqs [(lit "</hr"), (opt (seqs [(lit " "), (.star (cc true [(0x3E, 0x3E)]))])), (lit ">")]), (seqs [(lit "</p"), (opt (seqs [(lit " "), (.star (cc true [(0x3E, 0x3E)]))])), (lit ">")])]), eos := true, prio := 3 }

/-- mediawiki-format.xml, rule 17: `"</li"(" "[^>]*)?">"|"</ul"(" "[^>]*)?">"|"</ol"(" "[^>]*)?">"` -/
def mediawikiRule17 : Rule :=
  { re := (alts [(seqs [(lit "</li"), (opt (seqs [(lit " "), (.star (cc true [(0x3E, 0x3E)]))])), (lit ">")]), (seqs [(lit "</ul"), (opt (seqs [(lit " "), (.star (cc true [(0x3E, 0x3E)]))])), (lit ">")]), (seqs [(lit "</ol"), (opt (seqs [(lit " "), (.star (cc true [(0x3E, 0x3E)]))])), (lit ">")])]), eos := true, prio := 3 }

/-- mediawiki-format.xml, rule 18: `"</tr"(" "[^>]*)?">"|"</td"(" "[^>]*)?">"|"</th"(" "[^>]*)?">"` -/
def mediawikiRule18 : Rule :=
  { re := (alts [(seqs [(lit "</tr"), (opt (seqs [(lit " "), (.star (cc true [(0x3E, 0x3E)]))])), (lit ">")]), (seqs [(lit "</td"), (opt (seqs [(lit " "), (.star (cc true [(0x3E, 0x3E)]))])), (lit ">")]), (seqs [(lit "</th"), (opt (seqs [(lit " "), (.star (cc true [(0x3E, 0x3E)]))])), (lit ">")])]), eos := true, prio := 3 }

/-- mediawiki-format.xml, rule 19: `"["` -/
def mediawikiRule19 : Rule :=
  { re := (lit "["), prio := 1 }

/-- mediawiki-format.xml, rule 20: `"]"` -/
def mediawikiRule20 : Rule :=
  { re := (lit "]"), prio := 1 }

/-- mediawiki-format.xml, rule 21: `"'"([']+)` -/
def mediawikiRule21 : Rule :=
  { re := (seqs [(lit "'"), (plus (cc false [(0x27, 0x27)]))]), prio := 1 }

/-- mediawiki-format.xml, rule 22: `^([\*=:;#]+)` -/
def mediawikiRule22 : Rule :=
  { re := (plus (cc false [(0x2A, 0x2A), (0x3D, 0x3D), (0x3A, 0x3A), (0x3B, 0x3B), (0x23, 0x23)])), bol := true, prio := 1 }

/-- mediawiki-format.xml, rule 23: `"="([=]+)` -/
def mediawikiRule23 : Rule :=
  { re := (seqs [(lit "="), (plus (cc false [(0x3D, 0x3D)]))]), eos := true, prio := 1 }

/-- mediawiki-format.xml, rule 24: `"[["([a-z][a-z]|[a-z][a-z][a-z]|"image"|"file")":"([^\]]*)"]]"` -/
def mediawikiRule24 : Rule :=
  { re := (seqs [(lit "[["), (alts [(seqs [(cc false [(0x61, 0x7A)]), (cc false [(0x61, 0x7A)])]), (seqs [(cc false [(0x61, 0x7A)]), (cc false [(0x61, 0x7A)]), (cc false [(0x61, 0x7A)])]), (lit "image"), (lit "file")]), (lit ":"), (.star (cc true [(0x5D, 0x5D)])), (lit "]]")]), prio := 3 }

/-- mediawiki-format.xml, rule 25: `"<title"(" "[^>]*)?">"|"<div"(" "[^>]*)?">"|"<option"(" "[^>]*)?">"|"<h"[1-6](" "[^>]*)?">"` -/
def mediawikiRule25 : Rule :=
  { re := (alts [(seqs [(lit "<title"), (opt (seqs [(lit " "), (.star (cc true [(0x3E, 0x3E)]))])), (lit ">")]), (seqs [(lit "<div"), (opt (seqs [(lit " "), (.star (cc true [(0x3E, 0x3E)]))])), (lit ">")]), (seqs [(lit "<option"), (opt (seqs [(lit " "), (.star (cc true [(0x3E, 0x3E)]))])), (lit ">")]), (seqs [(lit "<h"), (cc false [(0x31, 0x36)]), (opt (seqs [(lit " "), (.star (cc true [(0x3E, 0x3E)]))])), (lit ">")])]), eos := true, prio := 3 }

/-- mediawiki-format.xml, rule 26: `"</title"(" "[^>]*)?">"|"</div"(" "[^>]*)?">"|"</option"(" "[^>]*)?">"|"</h"[1-6](" "[^>]*)?">"` -/
def mediawikiRule26 : Rule :=
  { re := (alts [(seqs [(lit "</title"), (opt (seqs [(lit " "), (.star (cc true [(0x3E, 0x3E)]))])), (lit ">")]), (seqs [(lit "</div"), (opt (seqs [(lit " "), (.star (cc true [(0x3E, 0x3E)]))])), (lit ">")]), (seqs [(lit "</option"), (opt (seqs [(lit " "), (.star (cc true [(0x3E, 0x3E)]))])), (lit ">")]), (seqs [(lit "</h"), (cc false [(0x31, 0x36)]), (opt (seqs [(lit " "), (.star (cc true [(0x3E, 0x3E)]))])), (lit ">")])]), eos := true, prio := 3 }

/-- mediawiki-format.xml, rule 27: `"<"("img"|"link")(" "[^>]*)?">"` -/
def mediawikiRule27 : Rule :=
  { re := (seqs [(lit "<"), (alts [(lit "img"), (lit "link")]), (opt (seqs [(lit " "), (.star (cc true [(0x3E, 0x3E)]))])), (lit ">")]), prio := 4 }

/-- mediawiki-format.xml, rule 28: `("<!"|"<?")[a-zA-Z][^>]*">"` -/
def mediawikiRule28 : Rule :=
  { re := (seqs [(alts [(lit "<!"), (lit "<?")]), (cc false [(0x61, 0x7A), (0x41, 0x5A)]), (.star (cc true [(0x3E, 0x3E)])), (lit ">")]), prio := 5 }

/-- mediawiki-format.xml, rule 29: `"<"[a-zA-Z][^>]*">"` -/
def mediawikiRule29 : Rule :=
  { re := (seqs [(lit "<"), (cc false [(0x61, 0x7A), (0x41, 0x5A)]), (.star (cc true [(0x3E, 0x3E)])), (lit ">")]), prio := 5 }

/-- mediawiki-format.xml, rule 30: `"</"[a-zA-Z][^>]*">"` -/
def mediawikiRule30 : Rule :=
  { re := (seqs [(lit "</"), (cc false [(0x61, 0x7A), (0x41, 0x5A)]), (.star (cc true [(0x3E, 0x3E)])), (lit ">")]), prio := 5 }

/-- mediawiki-format.xml, rule 31: `"&lt;"[a-zA-Z][^&]*"&gt;"` -/
def mediawikiRule31 : Rule :=
  { re := (seqs [(lit "&lt;"), (cc false [(0x61, 0x7A), (0x41, 0x5A)]), (.star (cc true [(0x26, 0x26)])), (lit "&gt;")]), prio := 5 }

/-- mediawiki-format.xml, rule 32: `"&lt;/"[a-zA-Z][^&]*"&gt;"` -/
def mediawikiRule32 : Rule :=
  { re := (seqs [(lit "&lt;/"), (cc false [(0x61, 0x7A), (0x41, 0x5A)]), (.star (cc true [(0x26, 0x26)])), (lit "&gt;")]), prio := 5 }

/-- The format mediawiki (mediawiki-format.xml:1-161). -/
def mediawiki : Fmt where
  large := 8192
  escape := fun b => [0x5D, 0x5B, 0x5E, 0x40, 0x5C, 0x2F, 0x24].contains b
  space := fun b => [0x20, 0x0A, 0x09, 0x0D, 0x3C, 0x3E, 0x7B, 0x7D, 0x7E].contains b
  rules := [mediawikiRule1, mediawikiRule2, mediawikiRule3, mediawikiRule4, mediawikiRule5, mediawikiRule6, mediawikiRule7, mediawikiRule8, mediawikiRule9, mediawikiRule10, mediawikiRule11, mediawikiRule12, mediawikiRule13, mediawikiRule14, mediawikiRule15, mediawikiRule16, mediawikiRule17, mediawikiRule18, mediawikiRule19, mediawikiRule20, mediawikiRule21, mediawikiRule22, mediawikiRule23, mediawikiRule24, mediawikiRule25, mediawikiRule26, mediawikiRule27, mediawikiRule28, mediawikiRule29, mediawikiRule30, mediawikiRule31, mediawikiRule32]

/-- odt-format.xml, rule 1: `"<!--" … "-->"` -/
def odtRule1 : Rule :=
  { re := (lit "<!--")
    fin := some (lit "-->"), prio := 1 }

/-- odt-format.xml, rule 2: `"<math:"[a-zA-Z]+(" "[^>]*)?">" … "</math:"[a-zA-Z]+(" "[^>]*)?">"` -/
def odtRule2 : Rule :=
  { re := (seqs [(lit "<math:"), (plus (cc false [(0x61, 0x7A), (0x41, 0x5A)])), (opt (seqs [(lit " "), (.star (cc true [(0x3E, 0x3E)]))])), (lit ">")])
    fin := some (seqs [(lit "</math:"), (plus (cc false [(0x61, 0x7A), (0x41, 0x5A)])), (opt (seqs [(lit " "), (.star (cc true [(0x3E, 0x3E)]))])), (lit ">")]), prio := 2 }

/-- odt-format.xml, rule 3: `"<math"(" xmlns="[^>]*)?">" … "</math>"` -/
def odtRule3 : Rule :=
  { re := (seqs [(lit "<math"), (opt (seqs [(lit " xmlns="), (.star (cc true [(0x3E, 0x3E)]))])), (lit ">")])
    fin := some (lit "</math>"), prio := 2 }

/-- odt-format.xml, rule 4: `"&lt;apertium-notrans"(" "[^>]*)?"&gt;" … "&lt;/apertium-notrans&gt;"` -/
def odtRule4 : Rule :=
  { re := (seqs [(lit "&lt;apertium-notrans"), (opt (seqs [(lit " "), (.star (cc true [(0x3E, 0x3E)]))])), (lit "&gt;")])
    fin := some (lit "&lt;/apertium-notrans&gt;"), prio := 2 }

/-- odt-format.xml, rule 5: `"<text:"[hp](" "[^>]*)?">"` -/
def odtRule5 : Rule :=
  { re := (seqs [(lit "<text:"), (cc false [(0x68, 0x68), (0x70, 0x70)]), (opt (seqs [(lit " "), (.star (cc true [(0x3E, 0x3E)]))])), (lit ">")]), eos := true, prio := 3 }

/-- odt-format.xml, rule 6: `"</text:"[hp](" "[^>]*)?">"` -/
def odtRule6 : Rule :=
  { re := (seqs [(lit "</text:"), (cc false [(0x68, 0x68), (0x70, 0x70)]), (opt (seqs [(lit " "), (.star (cc true [(0x3E, 0x3E)]))])), (lit ">")]), eos := true, prio := 3 }

/-- odt-format.xml, rule 7: `("<!"|"<?")[a-zA-Z][^>]*">"` -/
def odtRule7 : Rule :=
  { re := (seqs [(alts [(lit "<!"), (lit "<?")]), (cc false [(0x61, 0x7A), (0x41, 0x5A)]), (.star (cc true [(0x3E, 0x3E)])), (lit ">")]), prio := 4 }

/-- odt-format.xml, rule 8: `"<"[a-zA-Z][^>]*">"` -/
def odtRule8 : Rule :=
  { re := (seqs [(lit "<"), (cc false [(0x61, 0x7A), (0x41, 0x5A)]), (.star (cc true [(0x3E, 0x3E)])), (lit ">")]), prio := 4 }

/-- odt-format.xml, rule 9: `"</"[a-zA-Z][^>]*">"` -/
def odtRule9 : Rule :=
  { re := (seqs [(lit "</"), (cc false [(0x61, 0x7A), (0x41, 0x5A)]), (.star (cc true [(0x3E, 0x3E)])), (lit ">")]), prio := 4 }

/-- odt-format.xml, replacement rule 1: `"&"([a-zA-Z]+|"#x"[0-9a-fA-F]{1,4}|"#"[0-9]{1,8});` with its 1 entries (source, target, preferred). -/
def odtRepl1 : Repl where
  re := (seqs [(lit "&"), (alts [(plus (cc false [(0x61, 0x7A), (0x41, 0x5A)])), (seqs [(lit "#x"), (rep 1 (some 4) (cc false [(0x30, 0x39), (0x61, 0x66), (0x41, 0x46)]))]), (seqs [(lit "#"), (rep 1 (some 8) (cc false [(0x30, 0x39)]))])]), (lit ";")])
  table := [([0x26, 0x61, 0x70, 0x6F, 0x73, 0x3B], [0x27], false)]

/-- The format odt (odt-format.xml:1-60). -/
def odt : Fmt where
  large := 8192
  escape := fun b => [0x5D, 0x5B, 0x5E, 0x40, 0x5C, 0x2F, 0x24].contains b
  space := fun b => [0x20, 0x0A, 0x09, 0x0D, 0x3C, 0x3E, 0x7B, 0x7D, 0x7E].contains b
  rules := [odtRule1, odtRule2, odtRule3, odtRule4, odtRule5, odtRule6, odtRule7, odtRule8, odtRule9]
  repls := [odtRepl1]

/-- pptx-format.xml, rule 1: `"<!--" … "-->"` -/
def pptxRule1 : Rule :=
  { re := (lit "<!--")
    fin := some (lit "-->"), prio := 1 }

/-- pptx-format.xml, rule 2: `"<pkg:binaryData"(" "[^>]*)?">" … "</pkg:binaryData"(" "[^>]*)?">"` -/
def pptxRule2 : Rule :=
  { re := (seqs [(lit "<pkg:binaryData"), (opt (seqs [(lit " "), (.star (cc true [(0x3E, 0x3E)]))])), (lit ">")])
    fin := some (seqs [(lit "</pkg:binaryData"), (opt (seqs [(lit " "), (.star (cc true [(0x3E, 0x3E)]))])), (lit ">")]), eos := true, prio := 2 }

/-- pptx-format.xml, rule 3: `"<p:timing"(" "[^>]*)?">" … "</p:timing"(" "[^>]*)?">"` -/
def pptxRule3 : Rule :=
  { re := (seqs [(lit "<p:timing"), (opt (seqs [(lit " "), (.star (cc true [(0x3E, 0x3E)]))])), (lit ">")])
    fin := some (seqs [(lit "</p:timing"), (opt (seqs [(lit " "), (.star (cc true [(0x3E, 0x3E)]))])), (lit ">")]), eos := true, prio := 2 }

/-- pptx-format.xml, rule 4: `"<a:p"(" "[^>]*)?">"` -/
def pptxRule4 : Rule :=
  { re := (seqs [(lit "<a:p"), (opt (seqs [(lit " "), (.star (cc true [(0x3E, 0x3E)]))])), (lit ">")]), eos := true, prio := 3 }

/-- pptx-format.xml, rule 5: `"</a:p"(" "[^>]*)?">"` -/
def pptxRule5 : Rule :=
  { re := (seqs [(lit "</a:p"), (opt (seqs [(lit " "), (.star (cc true [(0x3E, 0x3E)]))])), (lit ">")]), eos := true, prio := 3 }

/-- pptx-format.xml, rule 6: `"&lt;apertium-notrans"(" "[^>]*)?"&gt;" … "&lt;/apertium-notrans&gt;"` -/
def pptxRule6 : Rule :=
  { re := (seqs [(lit "&lt;apertium-notrans"), (opt (seqs [(lit " "), (.star (cc true [(0x3E, 0x3E)]))])), (lit "&gt;")])
    fin := some (lit "&lt;/apertium-notrans&gt;"), prio := 2 }

/-- pptx-format.xml, rule 7: `("<!"|"<?")[a-zA-Z][^>]*">"` -/
def pptxRule7 : Rule :=
  { re := (seqs [(alts [(lit "<!"), (lit "<?")]), (cc false [(0x61, 0x7A), (0x41, 0x5A)]), (.star (cc true [(0x3E, 0x3E)])), (lit ">")]), prio := 4 }

/-- pptx-format.xml, rule 8: `"<"[a-zA-Z][^>]*">"` -/
def pptxRule8 : Rule :=
  { re := (seqs [(lit "<"), (cc false [(0x61, 0x7A), (0x41, 0x5A)]), (.star (cc true [(0x3E, 0x3E)])), (lit ">")]), prio := 4 }

/-- pptx-format.xml, rule 9: `"</"[a-zA-Z][^>]*">"` -/
def pptxRule9 : Rule :=
  { re := (seqs [(lit "</"), (cc false [(0x61, 0x7A), (0x41, 0x5A)]), (.star (cc true [(0x3E, 0x3E)])), (lit ">")]), prio := 4 }

/-- pptx-format.xml, replacement rule 1: `"&"([a-zA-Z]+|"#x"[0-9a-fA-F]{1,4}|"#"[0-9]{1,8});` with its 1 entries (source, target, preferred). -/
def pptxRepl1 : Repl where
  re := (seqs [(lit "&"), (alts [(plus (cc false [(0x61, 0x7A), (0x41, 0x5A)])), (seqs [(lit "#x"), (rep 1 (some 4) (cc false [(0x30, 0x39), (0x61, 0x66), (0x41, 0x46)]))]), (seqs [(lit "#"), (rep 1 (some 8) (cc false [(0x30, 0x39)]))])]), (lit ";")])
  table := [([0x26, 0x61, 0x70, 0x6F, 0x73, 0x3B], [0x27], false)]

/-- The format pptx (pptx-format.xml:1-60). -/
def pptx : Fmt where
  large := 8192
  escape := fun b => [0x5D, 0x5B, 0x5E, 0x40, 0x5C, 0x2F, 0x24].contains b
  space := fun b => [0x20, 0x0A, 0x09, 0x0D, 0x3C, 0x3E, 0x7B, 0x7D, 0x7E].contains b
  rules := [pptxRule1, pptxRule2, pptxRule3, pptxRule4, pptxRule5, pptxRule6, pptxRule7, pptxRule8, pptxRule9]
  repls := [pptxRepl1]

/-- wxml-format.xml, rule 1: `"<!--" … "-->"` -/
def wxmlRule1 : Rule :=
  { re := (lit "<!--")
    fin := some (lit "-->"), prio := 1 }

/-- wxml-format.xml, rule 2: `"<Properties"(" "[^>]*)?">" … "</Properties"(" "[^>]*)?">"` -/
def wxmlRule2 : Rule :=
  { re := (seqs [(lit "<Properties"), (opt (seqs [(lit " "), (.star (cc true [(0x3E, 0x3E)]))])), (lit ">")])
    fin := some (seqs [(lit "</Properties"), (opt (seqs [(lit " "), (.star (cc true [(0x3E, 0x3E)]))])), (lit ">")]), prio := 2 }

/-- wxml-format.xml, rule 3: `"<pkg:binaryData"(" "[^>]*)?">" … "</pkg:binaryData"(" "[^>]*)?">"` -/
def wxmlRule3 : Rule :=
  { re := (seqs [(lit "<pkg:binaryData"), (opt (seqs [(lit " "), (.star (cc true [(0x3E, 0x3E)]))])), (lit ">")])
    fin := some (seqs [(lit "</pkg:binaryData"), (opt (seqs [(lit " "), (.star (cc true [(0x3E, 0x3E)]))])), (lit ">")]), eos := true, prio := 3 }

/-- wxml-format.xml, rule 4: `"<w:instrText"(" "[^>]*)?">" … "</w:instrText"(" "[^>]*)?">"` -/
def wxmlRule4 : Rule :=
  { re := (seqs [(lit "<w:instrText"), (opt (seqs [(lit " "), (.star (cc true [(0x3E, 0x3E)]))])), (lit ">")])
    fin := some (seqs [(lit "</w:instrText"), (opt (seqs [(lit " "), (.star (cc true [(0x3E, 0x3E)]))])), (lit ">")]), eos := true, prio := 3 }

/-- wxml-format.xml, rule 5: `"&lt;apertium-notrans"(" "[^>]*)?"&gt;" … "&lt;/apertium-notrans&gt;"` -/
def wxmlRule5 : Rule :=
  { re := (seqs [(lit "&lt;apertium-notrans"), (opt (seqs [(lit " "), (.star (cc true [(0x3E, 0x3E)]))])), (lit "&gt;")])
    fin := some (lit "&lt;/apertium-notrans&gt;"), prio := 2 }

/-- wxml-format.xml, rule 6: `"<w:drawing"(" "[^>]*)?">" … "</w:drawing"(" "[^>]*)?">"` -/
def wxmlRule6 : Rule :=
  { re := (seqs [(lit "<w:drawing"), (opt (seqs [(lit " "), (.star (cc true [(0x3E, 0x3E)]))])), (lit ">")])
    fin := some (seqs [(lit "</w:drawing"), (opt (seqs [(lit " "), (.star (cc true [(0x3E, 0x3E)]))])), (lit ">")]), eos := true, prio := 3 }

/-- wxml-format.xml, rule 7: `"<w:p"(" "[^>]*)?">"` -/
def wxmlRule7 : Rule :=
  { re := (seqs [(lit "<w:p"), (opt (seqs [(lit " "), (.star (cc true [(0x3E, 0x3E)]))])), (lit ">")]), eos := true, prio := 4 }

/-- wxml-format.xml, rule 8: `"</w:p"(" "[^>]*)?">"` -/
def wxmlRule8 : Rule :=
  { re := (seqs [(lit "</w:p"), (opt (seqs [(lit " "), (.star (cc true [(0x3E, 0x3E)]))])), (lit ">")]), eos := true, prio := 4 }

/-- wxml-format.xml, rule 9: `("<!"|"<?")[a-zA-Z][^>]*">"` -/
def wxmlRule9 : Rule :=
  { re := (seqs [(alts [(lit "<!"), (lit "<?")]), (cc false [(0x61, 0x7A), (0x41, 0x5A)]), (.star (cc true [(0x3E, 0x3E)])), (lit ">")]), prio := 5 }

/-- wxml-format.xml, rule 10: `"<"[a-zA-Z][^>]*">"` -/
def wxmlRule10 : Rule :=
  { re := (seqs [(lit "<"), (cc false [(0x61, 0x7A), (0x41, 0x5A)]), (.star (cc true [(0x3E, 0x3E)])), (lit ">")]), prio := 5 }

/-- wxml-format.xml, rule 11: `"</"[a-zA-Z][^>]*">"` -/
def wxmlRule11 : Rule :=
  { re := (seqs [(lit "</"), (cc false [(0x61, 0x7A), (0x41, 0x5A)]), (.star (cc true [(0x3E, 0x3E)])), (lit ">")]), prio := 5 }

/-- wxml-format.xml, replacement rule 1: `"&"([a-zA-Z]+|"#x"[0-9a-fA-F]{1,4}|"#"[0-9]{1,8});` with its 1 entries (source, target, preferred). -/
def wxmlRepl1 : Repl where
  re := (seqs [(lit "&"), (alts [(plus (cc false [(0x61, 0x7A), (0x41, 0x5A)])), (seqs [(lit "#x"), (rep 1 (some 4) (cc false [(0x30, 0x39), (0x61, 0x66), (0x41, 0x46)]))]), (seqs [(lit "#"), (rep 1 (some 8) (cc false [(0x30, 0x39)]))])]), (lit ";")])
  table := [([0x26, 0x61, 0x70, 0x6F, 0x73, 0x3B], [0x27], false)]

/-- The format wxml (wxml-format.xml:1-72). -/
def wxml : Fmt where
  large := 8192
  escape := fun b => [0x5D, 0x5B, 0x5E, 0x40, 0x5C, 0x2F, 0x24, 0x7B, 0x7D].contains b
  space := fun b => [0x20, 0x0A, 0x09, 0x0D, 0x3C, 0x3E, 0x7E].contains b
  rules := [wxmlRule1, wxmlRule2, wxmlRule3, wxmlRule4, wxmlRule5, wxmlRule6, wxmlRule7, wxmlRule8, wxmlRule9, wxmlRule10, wxmlRule11]
  repls := [wxmlRepl1]

/-- xlsx-format.xml, rule 1: `"<!--" … "-->"` -/
def xlsxRule1 : Rule :=
  { re := (lit "<!--")
    fin := some (lit "-->"), prio := 1 }

/-- xlsx-format.xml, rule 2: `"<f"(" "[^>]*)?">" … "</f"(" "[^>]*)?">"` -/
def xlsxRule2 : Rule :=
  { re := (seqs [(lit "<f"), (opt (seqs [(lit " "), (.star (cc true [(0x3E, 0x3E)]))])), (lit ">")])
    fin := some (seqs [(lit "</f"), (opt (seqs [(lit " "), (.star (cc true [(0x3E, 0x3E)]))])), (lit ">")]), eos := true, prio := 2 }

/-- xlsx-format.xml, rule 3: `"<si"(" "[^>]*)?">"` -/
def xlsxRule3 : Rule :=
  { re := (seqs [(lit "<si"), (opt (seqs [(lit " "), (.star (cc true [(0x3E, 0x3E)]))])), (lit ">")]), eos := true, prio := 3 }

/-- xlsx-format.xml, rule 4: `"</si"(" "[^>]*)?">"` -/
def xlsxRule4 : Rule :=
  { re := (seqs [(lit "</si"), (opt (seqs [(lit " "), (.star (cc true [(0x3E, 0x3E)]))])), (lit ">")]), eos := true, prio := 3 }

/-- xlsx-format.xml, rule 5: `("<!"|"<?")[a-zA-Z][^>]*">"` -/
def xlsxRule5 : Rule :=
  { re := (seqs [(alts [(lit "<!"), (lit "<?")]), (cc false [(0x61, 0x7A), (0x41, 0x5A)]), (.star (cc true [(0x3E, 0x3E)])), (lit ">")]), prio := 4 }

/-- xlsx-format.xml, rule 6: `"&lt;apertium-notrans"(" "[^>]*)?"&gt;" … "&lt;/apertium-notrans&gt;"` -/
def xlsxRule6 : Rule :=
  { re := (seqs [(lit "&lt;apertium-notrans"), (opt (seqs [(lit " "), (.star (cc true [(0x3E, 0x3E)]))])), (lit "&gt;")])
    fin := some (lit "&lt;/apertium-notrans&gt;"), prio := 2 }

/-- xlsx-format.xml, rule 7: `"<"[a-zA-Z][^>]*">"` -/
def xlsxRule7 : Rule :=
  { re := (seqs [(lit "<"), (cc false [(0x61, 0x7A), (0x41, 0x5A)]), (.star (cc true [(0x3E, 0x3E)])), (lit ">")]), prio := 4 }

/-- xlsx-format.xml, rule 8: `"</"[a-zA-Z][^>]*">"` -/
def xlsxRule8 : Rule :=
  { re := (seqs [(lit "</"), (cc false [(0x61, 0x7A), (0x41, 0x5A)]), (.star (cc true [(0x3E, 0x3E)])), (lit ">")]), prio := 4 }

/-- xlsx-format.xml, replacement rule 1: `"&"([a-zA-Z]+|"#x"[0-9a-fA-F]{1,4}|"#"[0-9]{1,8});` with its 1 entries (source, target, preferred). -/
def xlsxRepl1 : Repl where
  re := (seqs [(lit "&"), (alts [(plus (cc false [(0x61, 0x7A), (0x41, 0x5A)])), (seqs [(lit "#x"), (rep 1 (some 4) (cc false [(0x30, 0x39), (0x61, 0x66), (0x41, 0x46)]))]), (seqs [(lit "#"), (rep 1 (some 8) (cc false [(0x30, 0x39)]))])]), (lit ";")])
  table := [([0x26, 0x61, 0x70, 0x6F, 0x73, 0x3B], [0x27], false)]

/-- The format xlsx (xlsx-format.xml:1-56). -/
def xlsx : Fmt where
  large := 8192
  escape := fun b => [0x5D, 0x5B, 0x5E, 0x40, 0x5C, 0x2F, 0x24, 0x7B, 0x7D].contains b
  space := fun b => [0x20, 0x0A, 0x09, 0x0D, 0x3C, 0x3E, 0x7E].contains b
  rules := [xlsxRule1, xlsxRule2, xlsxRule3, xlsxRule4, xlsxRule5, xlsxRule6, xlsxRule7, xlsxRule8]
  repls := [xlsxRepl1]

/-- xpresstag-format.xml, rule 1: `"<"[^->]+"->"` -/
def xpresstagRule1 : Rule :=
  { re := (seqs [(lit "<"), (plus (cc true [(0x2D, 0x2D), (0x3E, 0x3E)])), (lit "->")]), eos := true, prio := 1 }

/-- xpresstag-format.xml, rule 2: `"<"[^>]+">"` -/
def xpresstagRule2 : Rule :=
  { re := (seqs [(lit "<"), (plus (cc true [(0x3E, 0x3E)])), (lit ">")]), prio := 2 }

/-- xpresstag-format.xml, rule 3: `"@"[^<:]+":"` -/
def xpresstagRule3 : Rule :=
  { re := (seqs [(lit "@"), (plus (cc true [(0x3C, 0x3C), (0x3A, 0x3A)])), (lit ":")]), eos := true, prio := 3 }

/-- xpresstag-format.xml, rule 4: `"@"[^<=]+"="` -/
def xpresstagRule4 : Rule :=
  { re := (seqs [(lit "@"), (plus (cc true [(0x3C, 0x3C), (0x3D, 0x3D)])), (lit "=")]), eos := true, prio := 3 }

/-- xpresstag-format.xml, rule 5: `"@"[^<=]+"=["[^]]+"]"` -/
def xpresstagRule5 : Rule :=
  { re := (seqs [(lit "@"), (plus (cc true [(0x3C, 0x3C), (0x3D, 0x3D)])), (lit "=["), (plus (cc true [(0x5D, 0x5D)])), (lit "]")]), eos := true, prio := 3 }

/-- The format xpresstag (xpresstag-format.xml:1-33). -/
def xpresstag : Fmt where
  large := 8192
  escape := fun b => [0x5D, 0x5B, 0x5E, 0x40, 0x5C, 0x2F, 0x24, 0x7B, 0x7D].contains b
  space := fun b => [0x20, 0x0A, 0x09, 0x0D, 0x2A, 0x3C, 0x3E, 0x7E].contains b
  rules := [xpresstagRule1, xpresstagRule2, xpresstagRule3, xpresstagRule4, xpresstagRule5]

/-- rtf-format.xml, rule 1: `"{"[ \n\r]*(\\[^'][^ \n\r\\]*[ \n\r]*)*"\\snext" … ";"` -/
def rtfRule1 : Rule :=
  { re := (seqs [(lit "{"), (.star (cc false [(0x20, 0x20), (0x0A, 0x0A), (0x0D, 0x0D)])), (.star (seqs [(lit "\\"), (cc true [(0x27, 0x27)]), (.star (cc true [(0x20, 0x20), (0x0A, 0x0A), (0x0D, 0x0D), (0x5C, 0x5C)])), (.star (cc false [(0x20, 0x20), (0x0A, 0x0A), (0x0D, 0x0D)]))])), (lit "\\snext")])
    fin := some (lit ";"), prio := 1 }

/-- rtf-format.xml, rule 2: `"{"[ \n\r]*(\\[^'][^ \n\r\\]*[ \n\r]*)*"\\keycode" … ";"` -/
def rtfRule2 : Rule :=
  { re := (seqs [(lit "{"), (.star (cc false [(0x20, 0x20), (0x0A, 0x0A), (0x0D, 0x0D)])), (.star (seqs [(lit "\\"), (cc true [(0x27, 0x27)]), (.star (cc true [(0x20, 0x20), (0x0A, 0x0A), (0x0D, 0x0D), (0x5C, 0x5C)])), (.star (cc false [(0x20, 0x20), (0x0A, 0x0A), (0x0D, 0x0D)]))])), (lit "\\keycode")])
    fin := some (lit ";"), prio := 1 }

/-- rtf-format.xml, rule 3: `"{"[ \n\r]*(\\[^'][^ \n\r\\]*[ \n\r]*)*"\\fcharset" … ";"` -/
def rtfRule3 : Rule :=
  { re := (seqs [(lit "{"), (.star (cc false [(0x20, 0x20), (0x0A, 0x0A), (0x0D, 0x0D)])), (.star (seqs [(lit "\\"), (cc true [(0x27, 0x27)]), (.star (cc true [(0x20, 0x20), (0x0A, 0x0A), (0x0D, 0x0D), (0x5C, 0x5C)])), (.star (cc false [(0x20, 0x20), (0x0A, 0x0A), (0x0D, 0x0D)]))])), (lit "\\fcharset")])
    fin := some (lit ";"), prio := 1 }

/-- rtf-format.xml, rule 4: `"{"[ \n\r]*(\\[^'][^ \n\r\\]*[ \n\r]*)*"\\fnil" … ";"` -/
def rtfRule4 : Rule :=
  { re := (seqs [(lit "{"), (.star (cc false [(0x20, 0x20), (0x0A, 0x0A), (0x0D, 0x0D)])), (.star (seqs [(lit "\\"), (cc true [(0x27, 0x27)]), (.star (cc true [(0x20, 0x20), (0x0A, 0x0A), (0x0D, 0x0D), (0x5C, 0x5C)])), (.star (cc false [(0x20, 0x20), (0x0A, 0x0A), (0x0D, 0x0D)]))])), (lit "\\fnil")])
    fin := some (lit ";"), prio := 1 }

/-- rtf-format.xml, rule 5: `"{"[ \n\r]*(\\[^'][^ \n\r\\]*[ \n\r]*)*"\\froman" … ";"` -/
def rtfRule5 : Rule :=
  { re := (seqs [(lit "{"), (.star (cc false [(0x20, 0x20), (0x0A, 0x0A), (0x0D, 0x0D)])), (.star (seqs [(lit "\\"), (cc true [(0x27, 0x27)]), (.star (cc true [(0x20, 0x20), (0x0A, 0x0A), (0x0D, 0x0D), (0x5C, 0x5C)])), (.star (cc false [(0x20, 0x20), (0x0A, 0x0A), (0x0D, 0x0D)]))])), (lit "\\froman")])
    fin := some (lit ";"), prio := 1 }

/-- rtf-format.xml, rule 6: `"{"[ \n\r]*(\\[^'][^ \n\r\\]*[ \n\r]*)*"\\fswiss" … ";"` -/
def rtfRule6 : Rule :=
  { re := (seqs [(lit "{"), (.star (cc false [(0x20, 0x20), (0x0A, 0x0A), (0x0D, 0x0D)])), (.star (seqs [(lit "\\"), (cc true [(0x27, 0x27)]), (.star (cc true [(0x20, 0x20), (0x0A, 0x0A), (0x0D, 0x0D), (0x5C, 0x5C)])), (.star (cc false [(0x20, 0x20), (0x0A, 0x0A), (0x0D, 0x0D)]))])), (lit "\\fswiss")])
    fin := some (lit ";"), prio := 1 }

/-- rtf-format.xml, rule 7: `"{"[ \n\r]*(\\[^'][^ \n\r\\]*[ \n\r]*)*"\\fmodern" … ";"` -/
def rtfRule7 : Rule :=
  { re := (seqs [(lit "{"), (.star (cc false [(0x20, 0x20), (0x0A, 0x0A), (0x0D, 0x0D)])), (.star (seqs [(lit "\\"), (cc true [(0x27, 0x27)]), (.star (cc true [(0x20, 0x20), (0x0A, 0x0A), (0x0D, 0x0D), (0x5C, 0x5C)])), (.star (cc false [(0x20, 0x20), (0x0A, 0x0A), (0x0D, 0x0D)]))])), (lit "\\fmodern")])
    fin := some (lit ";"), prio := 1 }

/-- rtf-format.xml, rule 8: `"{"[ \n\r]*(\\[^'][^ \n\r\\]*[ \n\r]*)*"\\fscript" … ";"` -/
def rtfRule8 : Rule :=
  { re := (seqs [(lit "{"), (.star (cc false [(0x20, 0x20), (0x0A, 0x0A), (0x0D, 0x0D)])), (.star (seqs [(lit "\\"), (cc true [(0x27, 0x27)]), (.star (cc true [(0x20, 0x20), (0x0A, 0x0A), (0x0D, 0x0D), (0x5C, 0x5C)])), (.star (cc false [(0x20, 0x20), (0x0A, 0x0A), (0x0D, 0x0D)]))])), (lit "\\fscript")])
    fin := some (lit ";"), prio := 1 }

/-- rtf-format.xml, rule 9: `"{"[ \n\r]*(\\[^'][^ \n\r\\]*[ \n\r]*)*"\\fdecor" … ";"` -/
def rtfRule9 : Rule :=
  { re := (seqs [(lit "{"), (.star (cc false [(0x20, 0x20), (0x0A, 0x0A), (0x0D, 0x0D)])), (.star (seqs [(lit "\\"), (cc true [(0x27, 0x27)]), (.star (cc true [(0x20, 0x20), (0x0A, 0x0A), (0x0D, 0x0D), (0x5C, 0x5C)])), (.star (cc false [(0x20, 0x20), (0x0A, 0x0A), (0x0D, 0x0D)]))])), (lit "\\fdecor")])
    fin := some (lit ";"), prio := 1 }

/-- rtf-format.xml, rule 10: `"{"[ \n\r]*(\\[^'][^ \n\r\\]*[ \n\r]*)*"\\ftech" … ";"` -/
def rtfRule10 : Rule :=
  { re := (seqs [(lit "{"), (.star (cc false [(0x20, 0x20), (0x0A, 0x0A), (0x0D, 0x0D)])), (.star (seqs [(lit "\\"), (cc true [(0x27, 0x27)]), (.star (cc true [(0x20, 0x20), (0x0A, 0x0A), (0x0D, 0x0D), (0x5C, 0x5C)])), (.star (cc false [(0x20, 0x20), (0x0A, 0x0A), (0x0D, 0x0D)]))])), (lit "\\ftech")])
    fin := some (lit ";"), prio := 1 }

/-- rtf-format.xml, rule 11: `"{"[ \n\r]*(\\[^'][^ \n\r\\]*[ \n\r]*)*"\\fbidi" … ";"` -/
def rtfRule11 : Rule :=
  { re := (seqs [(lit "{"), (.star (cc false [(0x20, 0x20), (0x0A, 0x0A), (0x0D, 0x0D)])), (.star (seqs [(lit "\\"), (cc true [(0x27, 0x27)]), (.star (cc true [(0x20, 0x20), (0x0A, 0x0A), (0x0D, 0x0D), (0x5C, 0x5C)])), (.star (cc false [(0x20, 0x20), (0x0A, 0x0A), (0x0D, 0x0D)]))])), (lit "\\fbidi")])
    fin := some (lit ";"), prio := 1 }

/-- rtf-format.xml, rule 12: `"{"[ \n\r]*(\\[^'][^ \n\r\\]*[ \n\r]*)*"\\falt" … ";"` -/
def rtfRule12 : Rule :=
  { re := (seqs [(lit "{"), (.star (cc false [(0x20, 0x20), (0x0A, 0x0A), (0x0D, 0x0D)])), (.star (seqs [(lit "\\"), (cc true [(0x27, 0x27)]), (.star (cc true [(0x20, 0x20), (0x0A, 0x0A), (0x0D, 0x0D), (0x5C, 0x5C)])), (.star (cc false [(0x20, 0x20), (0x0A, 0x0A), (0x0D, 0x0D)]))])), (lit "\\falt")])
    fin := some (lit ";"), prio := 1 }

/-- rtf-format.xml, rule 13: `"{"[ \n\r]*(\\[^'][^ \n\r\\]*[ \n\r]*)*"\\fontfile" … ";"` -/
def rtfRule13 : Rule :=
  { re := (seqs [(lit "{"), (.star (cc false [(0x20, 0x20), (0x0A, 0x0A), (0x0D, 0x0D)])), (.star (seqs [(lit "\\"), (cc true [(0x27, 0x27)]), (.star (cc true [(0x20, 0x20), (0x0A, 0x0A), (0x0D, 0x0D), (0x5C, 0x5C)])), (.star (cc false [(0x20, 0x20), (0x0A, 0x0A), (0x0D, 0x0D)]))])), (lit "\\fontfile")])
    fin := some (lit ";"), prio := 1 }

/-- rtf-format.xml, rule 14: `"{"[ \n\r]*(\\[^'][^ \n\r\\]*[ \n\r]*)*"\\fn" … ";"` -/
def rtfRule14 : Rule :=
  { re := (seqs [(lit "{"), (.star (cc false [(0x20, 0x20), (0x0A, 0x0A), (0x0D, 0x0D)])), (.star (seqs [(lit "\\"), (cc true [(0x27, 0x27)]), (.star (cc true [(0x20, 0x20), (0x0A, 0x0A), (0x0D, 0x0D), (0x5C, 0x5C)])), (.star (cc false [(0x20, 0x20), (0x0A, 0x0A), (0x0D, 0x0D)]))])), (lit "\\fn")])
    fin := some (lit ";"), prio := 1 }

/-- rtf-format.xml, rule 15: `"{"[ \n\r]*(\\[^'][^ \n\r\\]*[ \n\r]*)*"\\sbasedon" … ";"` -/
def rtfRule15 : Rule :=
  { re := (seqs [(lit "{"), (.star (cc false [(0x20, 0x20), (0x0A, 0x0A), (0x0D, 0x0D)])), (.star (seqs [(lit "\\"), (cc true [(0x27, 0x27)]), (.star (cc true [(0x20, 0x20), (0x0A, 0x0A), (0x0D, 0x0D), (0x5C, 0x5C)])), (.star (cc false [(0x20, 0x20), (0x0A, 0x0A), (0x0D, 0x0D)]))])), (lit "\\sbasedon")])
    fin := some (lit ";"), prio := 1 }

/-- rtf-format.xml, rule 16: `"{"[ \n\r]*(\\[^'][^ \n\r\\]*[ \n\r]*)*"\\additive" … ";"` -/
def rtfRule16 : Rule :=
  { re := (seqs [(lit "{"), (.star (cc false [(0x20, 0x20), (0x0A, 0x0A), (0x0D, 0x0D)])), (.star (seqs [(lit "\\"), (cc true [(0x27, 0x27)]), (.star (cc true [(0x20, 0x20), (0x0A, 0x0A), (0x0D, 0x0D), (0x5C, 0x5C)])), (.star (cc false [(0x20, 0x20), (0x0A, 0x0A), (0x0D, 0x0D)]))])), (lit "\\additive")])
    fin := some (lit ";"), prio := 1 }

/-- rtf-format.xml, rule 17: `"{"[ \n\r]*(\\[^'][^ \n\r\\]*[ \n\r]*)*"\\file" … "}"` -/
def rtfRule17 : Rule :=
  { re := (seqs [(lit "{"), (.star (cc false [(0x20, 0x20), (0x0A, 0x0A), (0x0D, 0x0D)])), (.star (seqs [(lit "\\"), (cc true [(0x27, 0x27)]), (.star (cc true [(0x20, 0x20), (0x0A, 0x0A), (0x0D, 0x0D), (0x5C, 0x5C)])), (.star (cc false [(0x20, 0x20), (0x0A, 0x0A), (0x0D, 0x0D)]))])), (lit "\\file")])
    fin := some (lit "}"), prio := 1 }

/-- rtf-format.xml, rule 18: `"{"[ \n\r]*(\\[^'][^ \n\r\\]*[ \n\r]*)*"\\listname" … ";"` -/
def rtfRule18 : Rule :=
  { re := (seqs [(lit "{"), (.star (cc false [(0x20, 0x20), (0x0A, 0x0A), (0x0D, 0x0D)])), (.star (seqs [(lit "\\"), (cc true [(0x27, 0x27)]), (.star (cc true [(0x20, 0x20), (0x0A, 0x0A), (0x0D, 0x0D), (0x5C, 0x5C)])), (.star (cc false [(0x20, 0x20), (0x0A, 0x0A), (0x0D, 0x0D)]))])), (lit "\\listname")])
    fin := some (lit ";"), prio := 1 }

/-- rtf-format.xml, rule 19: `"{"[ \n\r]*(\\[^'][^ \n\r\\]*[ \n\r]*)*"\\leveltext" … ";"` -/
def rtfRule19 : Rule :=
  { re := (seqs [(lit "{"), (.star (cc false [(0x20, 0x20), (0x0A, 0x0A), (0x0D, 0x0D)])), (.star (seqs [(lit "\\"), (cc true [(0x27, 0x27)]), (.star (cc true [(0x20, 0x20), (0x0A, 0x0A), (0x0D, 0x0D), (0x5C, 0x5C)])), (.star (cc false [(0x20, 0x20), (0x0A, 0x0A), (0x0D, 0x0D)]))])), (lit "\\leveltext")])
    fin := some (lit ";"), prio := 1 }

/-- rtf-format.xml, rule 20: `"{"[ \n\r]*(\\[^'][^ \n\r\\]*[ \n\r]*)*"\\levelnumbers" … ";"` -/
def rtfRule20 : Rule :=
  { re := (seqs [(lit "{"), (.star (cc false [(0x20, 0x20), (0x0A, 0x0A), (0x0D, 0x0D)])), (.star (seqs [(lit "\\"), (cc true [(0x27, 0x27)]), (.star (cc true [(0x20, 0x20), (0x0A, 0x0A), (0x0D, 0x0D), (0x5C, 0x5C)])), (.star (cc false [(0x20, 0x20), (0x0A, 0x0A), (0x0D, 0x0D)]))])), (lit "\\levelnumbers")])
    fin := some (lit ";"), prio := 1 }

/-- rtf-format.xml, rule 21: `"{"[ \n\r]*(\\[^'][^ \n\r\\]*[ \n\r]*)*"\\pict" … "}"` -/
def rtfRule21 : Rule :=
  { re := (seqs [(lit "{"), (.star (cc false [(0x20, 0x20), (0x0A, 0x0A), (0x0D, 0x0D)])), (.star (seqs [(lit "\\"), (cc true [(0x27, 0x27)]), (.star (cc true [(0x20, 0x20), (0x0A, 0x0A), (0x0D, 0x0D), (0x5C, 0x5C)])), (.star (cc false [(0x20, 0x20), (0x0A, 0x0A), (0x0D, 0x0D)]))])), (lit "\\pict")])
    fin := some (lit "}"), prio := 1 }

/-- rtf-format.xml, rule 22: `"{"[ \n\r]*(\\[^'][^ \n\r\\]*[ \n\r]*)*"\\sn" … "}"` -/
def rtfRule22 : Rule :=
  { re := (seqs [(lit "{"), (.star (cc false [(0x20, 0x20), (0x0A, 0x0A), (0x0D, 0x0D)])), (.star (seqs [(lit "\\"), (cc true [(0x27, 0x27)]), (.star (cc true [(0x20, 0x20), (0x0A, 0x0A), (0x0D, 0x0D), (0x5C, 0x5C)])), (.star (cc false [(0x20, 0x20), (0x0A, 0x0A), (0x0D, 0x0D)]))])), (lit "\\sn")])
    fin := some (lit "}"), prio := 1 }

/-- rtf-format.xml, rule 23: `"{"[ \n\r]*(\\[^'][^ \n\r\\]*[ \n\r]*)*"\\sv" … "}"` -/
def rtfRule23 : Rule :=
  { re := (seqs [(lit "{"), (.star (cc false [(0x20, 0x20), (0x0A, 0x0A), (0x0D, 0x0D)])), (.star (seqs [(lit "\\"), (cc true [(0x27, 0x27)]), (.star (cc true [(0x20, 0x20), (0x0A, 0x0A), (0x0D, 0x0D), (0x5C, 0x5C)])), (.star (cc false [(0x20, 0x20), (0x0A, 0x0A), (0x0D, 0x0D)]))])), (lit "\\sv")])
    fin := some (lit "}"), prio := 1 }

/-- rtf-format.xml, rule 24: `"{"[ \n\r]*(\\[^'][^ \n\r\\]*[ \n\r]*)*"{\\\*\\blipuid  "[^ \n\r]+"}" … "}"` -/
def rtfRule24 : Rule :=
  { re := (seqs [(lit "{"), (.star (cc false [(0x20, 0x20), (0x0A, 0x0A), (0x0D, 0x0D)])), (.star (seqs [(lit "\\"), (cc true [(0x27, 0x27)]), (.star (cc true [(0x20, 0x20), (0x0A, 0x0A), (0x0D, 0x0D), (0x5C, 0x5C)])), (.star (cc false [(0x20, 0x20), (0x0A, 0x0A), (0x0D, 0x0D)]))])), (lit "{\\*\\blipuid  "), (plus (cc true [(0x20, 0x20), (0x0A, 0x0A), (0x0D, 0x0D)])), (lit "}")])
    fin := some (lit "}"), prio := 1 }

/-- rtf-format.xml, rule 25: `"{"[ \n\r]*(\\[^'][^ \n\r\\]*[ \n\r]*)*"\\object" … "}"` -/
def rtfRule25 : Rule :=
  { re := (seqs [(lit "{"), (.star (cc false [(0x20, 0x20), (0x0A, 0x0A), (0x0D, 0x0D)])), (.star (seqs [(lit "\\"), (cc true [(0x27, 0x27)]), (.star (cc true [(0x20, 0x20), (0x0A, 0x0A), (0x0D, 0x0D), (0x5C, 0x5C)])), (.star (cc false [(0x20, 0x20), (0x0A, 0x0A), (0x0D, 0x0D)]))])), (lit "\\object")])
    fin := some (lit "}"), prio := 1 }

/-- rtf-format.xml, rule 26: `"{"[ \n\r]*(\\[^'][^ \n\r\\]*[ \n\r]*)*"\\docvar" … "}"` -/
def rtfRule26 : Rule :=
  { re := (seqs [(lit "{"), (.star (cc false [(0x20, 0x20), (0x0A, 0x0A), (0x0D, 0x0D)])), (.star (seqs [(lit "\\"), (cc true [(0x27, 0x27)]), (.star (cc true [(0x20, 0x20), (0x0A, 0x0A), (0x0D, 0x0D), (0x5C, 0x5C)])), (.star (cc false [(0x20, 0x20), (0x0A, 0x0A), (0x0D, 0x0D)]))])), (lit "\\docvar")])
    fin := some (lit "}"), prio := 1 }

/-- rtf-format.xml, rule 27: `"{"[ \n\r]*(\\[^'][^ \n\r\\]*[ \n\r]*)*"\\bkmkstart" … "}"` -/
def rtfRule27 : Rule :=
  { re := (seqs [(lit "{"), (.star (cc false [(0x20, 0x20), (0x0A, 0x0A), (0x0D, 0x0D)])), (.star (seqs [(lit "\\"), (cc true [(0x27, 0x27)]), (.star (cc true [(0x20, 0x20), (0x0A, 0x0A), (0x0D, 0x0D), (0x5C, 0x5C)])), (.star (cc false [(0x20, 0x20), (0x0A, 0x0A), (0x0D, 0x0D)]))])), (lit "\\bkmkstart")])
    fin := some (lit "}"), prio := 1 }

/-- rtf-format.xml, rule 28: `"{"[ \n\r]*(\\[^'][^ \n\r\\]*[ \n\r]*)*"\\bkmkend" … "}"` -/
def rtfRule28 : Rule :=
  { re := (seqs [(lit "{"), (.star (cc false [(0x20, 0x20), (0x0A, 0x0A), (0x0D, 0x0D)])), (.star (seqs [(lit "\\"), (cc true [(0x27, 0x27)]), (.star (cc true [(0x20, 0x20), (0x0A, 0x0A), (0x0D, 0x0D), (0x5C, 0x5C)])), (.star (cc false [(0x20, 0x20), (0x0A, 0x0A), (0x0D, 0x0D)]))])), (lit "\\bkmkend")])
    fin := some (lit "}"), prio := 1 }

/-- rtf-format.xml, rule 29: `"{"[ \n\r]*(\\[^'][^ \n\r\\]*[ \n\r]*)*"\\rxe" … "}"` -/
def rtfRule29 : Rule :=
  { re := (seqs [(lit "{"), (.star (cc false [(0x20, 0x20), (0x0A, 0x0A), (0x0D, 0x0D)])), (.star (seqs [(lit "\\"), (cc true [(0x27, 0x27)]), (.star (cc true [(0x20, 0x20), (0x0A, 0x0A), (0x0D, 0x0D), (0x5C, 0x5C)])), (.star (cc false [(0x20, 0x20), (0x0A, 0x0A), (0x0D, 0x0D)]))])), (lit "\\rxe")])
    fin := some (lit "}"), prio := 1 }

/-- rtf-format.xml, rule 30: `"{"[ \n\r]*(\\[^'][^ \n\r\\]*[ \n\r]*)*"\\fldinst" … "}"` -/
def rtfRule30 : Rule :=
  { re := (seqs [(lit "{"), (.star (cc false [(0x20, 0x20), (0x0A, 0x0A), (0x0D, 0x0D)])), (.star (seqs [(lit "\\"), (cc true [(0x27, 0x27)]), (.star (cc true [(0x20, 0x20), (0x0A, 0x0A), (0x0D, 0x0D), (0x5C, 0x5C)])), (.star (cc false [(0x20, 0x20), (0x0A, 0x0A), (0x0D, 0x0D)]))])), (lit "\\fldinst")])
    fin := some (lit "}"), prio := 1 }

/-- rtf-format.xml, rule 31: `"{"[ \n\r]*(\\[^'][^ \n\r\\]*[ \n\r]*)*"\\fldrslt" … "}"` -/
def rtfRule31 : Rule :=
  { re := (seqs [(lit "{"), (.star (cc false [(0x20, 0x20), (0x0A, 0x0A), (0x0D, 0x0D)])), (.star (seqs [(lit "\\"), (cc true [(0x27, 0x27)]), (.star (cc true [(0x20, 0x20), (0x0A, 0x0A), (0x0D, 0x0D), (0x5C, 0x5C)])), (.star (cc false [(0x20, 0x20), (0x0A, 0x0A), (0x0D, 0x0D)]))])), (lit "\\fldrslt")])
    fin := some (lit "}"), prio := 1 }

/-- rtf-format.xml, rule 32: `"{"[ \n\r]*(\\[^'][^ \n\r\\]*[ \n\r]*)*"\\pntxt" … "}"` -/
def rtfRule32 : Rule :=
  { re := (seqs [(lit "{"), (.star (cc false [(0x20, 0x20), (0x0A, 0x0A), (0x0D, 0x0D)])), (.star (seqs [(lit "\\"), (cc true [(0x27, 0x27)]), (.star (cc true [(0x20, 0x20), (0x0A, 0x0A), (0x0D, 0x0D), (0x5C, 0x5C)])), (.star (cc false [(0x20, 0x20), (0x0A, 0x0A), (0x0D, 0x0D)]))])), (lit "\\pntxt")])
    fin := some (lit "}"), prio := 1 }

/-- rtf-format.xml, rule 33: `"{"[ \n\r]*(\\[^'][^ \n\r\\]*[ \n\r]*)*"\\colortbl" … "}"` -/
def rtfRule33 : Rule :=
  { re := (seqs [(lit "{"), (.star (cc false [(0x20, 0x20), (0x0A, 0x0A), (0x0D, 0x0D)])), (.star (seqs [(lit "\\"), (cc true [(0x27, 0x27)]), (.star (cc true [(0x20, 0x20), (0x0A, 0x0A), (0x0D, 0x0D), (0x5C, 0x5C)])), (.star (cc false [(0x20, 0x20), (0x0A, 0x0A), (0x0D, 0x0D)]))])), (lit "\\colortbl")])
    fin := some (lit "}"), prio := 1 }

/-- rtf-format.xml, rule 34: `[a-f0-9]{20,}` -/
def rtfRule34 : Rule :=
  { re := (rep 20 none (cc false [(0x61, 0x66), (0x30, 0x39)])), eos := true, prio := 1 }

/-- rtf-format.xml, rule 35: `"\\par"|"\\row"|"\\cell"` -/
def rtfRule35 : Rule :=
  { re := (alts [(lit "\\par"), (lit "\\row"), (lit "\\cell")]), eos := true, prio := 2 }

/-- rtf-format.xml, rule 36: `"{"[ \n\r]*\\[^'][^ \n\r\\]*[ \n\r]*` -/
def rtfRule36 : Rule :=
  { re := (seqs [(lit "{"), (.star (cc false [(0x20, 0x20), (0x0A, 0x0A), (0x0D, 0x0D)])), (lit "\\"), (cc true [(0x27, 0x27)]), (.star (cc true [(0x20, 0x20), (0x0A, 0x0A), (0x0D, 0x0D), (0x5C, 0x5C)])), (.star (cc false [(0x20, 0x20), (0x0A, 0x0A), (0x0D, 0x0D)]))]), prio := 3 }

/-- rtf-format.xml, rule 37: `\\[^r'][^ \n\r\\]*[ \n\r]*` -/
def rtfRule37 : Rule :=
  { re := (seqs [(lit "\\"), (cc true [(0x72, 0x72), (0x27, 0x27)]), (.star (cc true [(0x20, 0x20), (0x0A, 0x0A), (0x0D, 0x0D), (0x5C, 0x5C)])), (.star (cc false [(0x20, 0x20), (0x0A, 0x0A), (0x0D, 0x0D)]))]), prio := 3 }

/-- rtf-format.xml, rule 38: `\\r[^q][^ \n\r\\]*[ \n\r]*` -/
def rtfRule38 : Rule :=
  { re := (seqs [(lit "\\r"), (cc true [(0x71, 0x71)]), (.star (cc true [(0x20, 0x20), (0x0A, 0x0A), (0x0D, 0x0D), (0x5C, 0x5C)])), (.star (cc false [(0x20, 0x20), (0x0A, 0x0A), (0x0D, 0x0D)]))]), prio := 3 }

/-- rtf-format.xml, rule 39: `\\rq[^u][^ \n\r\\]*[ \n\r]*` -/
def rtfRule39 : Rule :=
  { re := (seqs [(lit "\\rq"), (cc true [(0x75, 0x75)]), (.star (cc true [(0x20, 0x20), (0x0A, 0x0A), (0x0D, 0x0D), (0x5C, 0x5C)])), (.star (cc false [(0x20, 0x20), (0x0A, 0x0A), (0x0D, 0x0D)]))]), prio := 3 }

/-- rtf-format.xml, rule 40: `\\rqu[^o][^ \n\r\\]*[ \n\r]*` -/
def rtfRule40 : Rule :=
  { re := (seqs [(lit "\\rqu"), (cc true [(0x6F, 0x6F)]), (.star (cc true [(0x20, 0x20), (0x0A, 0x0A), (0x0D, 0x0D), (0x5C, 0x5C)])), (.star (cc false [(0x20, 0x20), (0x0A, 0x0A), (0x0D, 0x0D)]))]), prio := 3 }

/-- rtf-format.xml, rule 41: `\\rquo[^t][^ \n\r\\]*[ \n\r]*` -/
def rtfRule41 : Rule :=
  { re := (seqs [(lit "\\rquo"), (cc true [(0x74, 0x74)]), (.star (cc true [(0x20, 0x20), (0x0A, 0x0A), (0x0D, 0x0D), (0x5C, 0x5C)])), (.star (cc false [(0x20, 0x20), (0x0A, 0x0A), (0x0D, 0x0D)]))]), prio := 3 }

/-- rtf-format.xml, rule 42: `\\rquot[^e][^ \n\r\\]*[ \n\r]*` -/
def rtfRule42 : Rule :=
  { re := (seqs [(lit "\\rquot"), (cc true [(0x65, 0x65)]), (.star (cc true [(0x20, 0x20), (0x0A, 0x0A), (0x0D, 0x0D), (0x5C, 0x5C)])), (.star (cc false [(0x20, 0x20), (0x0A, 0x0A), (0x0D, 0x0D)]))]), prio := 3 }

/-- rtf-format.xml, rule 43: `\\rquote[^ \n\r\\]+[ \n\r]*` -/
def rtfRule43 : Rule :=
  { re := (seqs [(lit "\\rquote"), (plus (cc true [(0x20, 0x20), (0x0A, 0x0A), (0x0D, 0x0D), (0x5C, 0x5C)])), (.star (cc false [(0x20, 0x20), (0x0A, 0x0A), (0x0D, 0x0D)]))]), prio := 3 }

/-- rtf-format.xml, rule 44: `"}"` -/
def rtfRule44 : Rule :=
  { re := (lit "}"), prio := 4 }

/-- rtf-format.xml, rule 45: `"{"` -/
def rtfRule45 : Rule :=
  { re := (lit "{"), prio := 4 }

/-- rtf-format.xml, replacement rule 1: `"\\rquote "` with its 2 entries (source, target, preferred). -/
def rtfRepl1 : Repl where
  re := (lit "\\rquote ")
  table := [([0x5C, 0x72, 0x71, 0x75, 0x6F, 0x74, 0x65, 0x20], [0x27], false),
    ([0x27], [0x27], false)]

/-- rtf-format.xml, replacement rule 2: `"\\'"[0-9a-fA-F][0-9a-fA-F](\r|\n|"\r\n")?` with its 250 entries (source, target, preferred). -/
def rtfRepl2 : Repl where
  re := (seqs [(lit "\\'"), (cc false [(0x30, 0x39), (0x61, 0x66), (0x41, 0x46)]), (cc false [(0x30, 0x39), (0x61, 0x66), (0x41, 0x46)]), (opt (alts [(lit "\r"), (lit "\n"), (lit "\r\n")]))])
  table := [([0x5C, 0x27, 0x63, 0x30], [0xC3, 0x80], true),
    ([0x5C, 0x27, 0x63, 0x31], [0xC3, 0x81], true),
    ([0x5C, 0x27, 0x63, 0x32], [0xC3, 0x82], true),
    ([0x5C, 0x27, 0x63, 0x33], [0xC3, 0x83], true),
    ([0x5C, 0x27, 0x63, 0x34], [0xC3, 0x84], true),
    ([0x5C, 0x27, 0x63, 0x35], [0xC3, 0x85], true),
    ([0x5C, 0x27, 0x63, 0x36], [0xC3, 0x86], true),
    ([0x5C, 0x27, 0x63, 0x37], [0xC3, 0x87], true),
    ([0x5C, 0x27, 0x63, 0x38], [0xC3, 0x88], true),
    ([0x5C, 0x27, 0x63, 0x39], [0xC3, 0x89], true),
    ([0x5C, 0x27, 0x63, 0x61], [0xC3, 0x8A], true),
    ([0x5C, 0x27, 0x63, 0x62], [0xC3, 0x8B], true),
    ([0x5C, 0x27, 0x63, 0x63], [0xC3, 0x8C], true),
    ([0x5C, 0x27, 0x63, 0x64], [0xC3, 0x8D], true),
    ([0x5C, 0x27, 0x63, 0x65], [0xC3, 0x8E], true),
    ([0x5C, 0x27, 0x63, 0x66], [0xC3, 0x8F], true),
    ([0x5C, 0x27, 0x64, 0x30], [0xC3, 0x90], true),
    ([0x5C, 0x27, 0x64, 0x31], [0xC3, 0x91], true),
    ([0x5C, 0x27, 0x64, 0x32], [0xC3, 0x92], true),
    ([0x5C, 0x27, 0x64, 0x33], [0xC3, 0x93], true),
    ([0x5C, 0x27, 0x64, 0x34], [0xC3, 0x94], true),
    ([0x5C, 0x27, 0x64, 0x35], [0xC3, 0x95], true),
    ([0x5C, 0x27, 0x64, 0x36], [0xC3, 0x96], true),
    ([0x5C, 0x27, 0x64, 0x38], [0xC3, 0x98], true),
    ([0x5C, 0x27, 0x64, 0x39], [0xC3, 0x99], true),
    ([0x5C, 0x27, 0x64, 0x61], [0xC3, 0x9A], true),
    ([0x5C, 0x27, 0x64, 0x62], [0xC3, 0x9B], true),
    ([0x5C, 0x27, 0x64, 0x63], [0xC3, 0x9C], true),
    ([0x5C, 0x27, 0x64, 0x64], [0xC3, 0x9D], true),
    ([0x5C, 0x27, 0x64, 0x65], [0xC3, 0x9E], true),
    ([0x5C, 0x27, 0x64, 0x66], [0xC3, 0x9F], true),
    ([0x5C, 0x27, 0x65, 0x30], [0xC3, 0xA0], true),
    ([0x5C, 0x27, 0x65, 0x31], [0xC3, 0xA1], true),
    ([0x5C, 0x27, 0x65, 0x32], [0xC3, 0xA2], true),
    ([0x5C, 0x27, 0x65, 0x33], [0xC3, 0xA3], true),
    ([0x5C, 0x27, 0x65, 0x34], [0xC3, 0xA4], true),
    ([0x5C, 0x27, 0x65, 0x35], [0xC3, 0xA5], true),
    ([0x5C, 0x27, 0x65, 0x36], [0xC3, 0xA6], true),
    ([0x5C, 0x27, 0x65, 0x37], [0xC3, 0xA7], true),
    ([0x5C, 0x27, 0x65, 0x38], [0xC3, 0xA8], true),
    ([0x5C, 0x27, 0x65, 0x39], [0xC3, 0xA9], true),
    ([0x5C, 0x27, 0x65, 0x61], [0xC3, 0xAA], true),
    ([0x5C, 0x27, 0x65, 0x62], [0xC3, 0xAB], true),
    ([0x5C, 0x27, 0x65, 0x63], [0xC3, 0xAC], true),
    ([0x5C, 0x27, 0x65, 0x64], [0xC3, 0xAD], true),
    ([0x5C, 0x27, 0x65, 0x65], [0xC3, 0xAE], true),
    ([0x5C, 0x27, 0x65, 0x66], [0xC3, 0xAF], true),
    ([0x5C, 0x27, 0x66, 0x30], [0xC3, 0xB0], true),
    ([0x5C, 0x27, 0x66, 0x31], [0xC3, 0xB1], true),
    ([0x5C, 0x27, 0x66, 0x32], [0xC3, 0xB2], true),
    ([0x5C, 0x27, 0x66, 0x33], [0xC3, 0xB3], true),
    ([0x5C, 0x27, 0x66, 0x34], [0xC3, 0xB4], true),
    ([0x5C, 0x27, 0x66, 0x35], [0xC3, 0xB5], true),
    ([0x5C, 0x27, 0x66, 0x36], [0xC3, 0xB6], true),
    ([0x5C, 0x27, 0x66, 0x38], [0xC3, 0xB8], true),
    ([0x5C, 0x27, 0x66, 0x39], [0xC3, 0xB9], true),
    ([0x5C, 0x27, 0x66, 0x61], [0xC3, 0xBA], true),
    ([0x5C, 0x27, 0x66, 0x62], [0xC3, 0xBB], true),
    ([0x5C, 0x27, 0x66, 0x63], [0xC3, 0xBC], true),
    ([0x5C, 0x27, 0x66, 0x64], [0xC3, 0xBD], true),
    ([0x5C, 0x27, 0x66, 0x65], [0xC3, 0xBE], true),
    ([0x5C, 0x27, 0x66, 0x66], [0xC3, 0xBF], true),
    ([0x5C, 0x27, 0x63, 0x30, 0x0D, 0x0A], [0xC3, 0x80], false),
    ([0x5C, 0x27, 0x63, 0x31, 0x0D, 0x0A], [0xC3, 0x81], false),
    ([0x5C, 0x27, 0x63, 0x32, 0x0D, 0x0A], [0xC3, 0x82], false),
    ([0x5C, 0x27, 0x63, 0x33, 0x0D, 0x0A], [0xC3, 0x83], false),
    ([0x5C, 0x27, 0x63, 0x34, 0x0D, 0x0A], [0xC3, 0x84], false),
    ([0x5C, 0x27, 0x63, 0x35, 0x0D, 0x0A], [0xC3, 0x85], false),
    ([0x5C, 0x27, 0x63, 0x36, 0x0D, 0x0A], [0xC3, 0x86], false),
    ([0x5C, 0x27, 0x63, 0x37, 0x0D, 0x0A], [0xC3, 0x87], false),
    ([0x5C, 0x27, 0x63, 0x38, 0x0D, 0x0A], [0xC3, 0x88], false),
    ([0x5C, 0x27, 0x63, 0x39, 0x0D, 0x0A], [0xC3, 0x89], false),
    ([0x5C, 0x27, 0x63, 0x61, 0x0D, 0x0A], [0xC3, 0x8A], false),
    ([0x5C, 0x27, 0x63, 0x62, 0x0D, 0x0A], [0xC3, 0x8B], false),
    ([0x5C, 0x27, 0x63, 0x63, 0x0D, 0x0A], [0xC3, 0x8C], false),
    ([0x5C, 0x27, 0x63, 0x64, 0x0D, 0x0A], [0xC3, 0x8D], false),
    ([0x5C, 0x27, 0x63, 0x65, 0x0D, 0x0A], [0xC3, 0x8E], false),
    ([0x5C, 0x27, 0x63, 0x66, 0x0D, 0x0A], [0xC3, 0x8F], false),
    ([0x5C, 0x27, 0x64, 0x30, 0x0D, 0x0A], [0xC3, 0x90], false),
    ([0x5C, 0x27, 0x64, 0x31, 0x0D, 0x0A], [0xC3, 0x91], false),
    ([0x5C, 0x27, 0x64, 0x32, 0x0D, 0x0A], [0xC3, 0x92], false),
    ([0x5C, 0x27, 0x64, 0x33, 0x0D, 0x0A], [0xC3, 0x93], false),
    ([0x5C, 0x27, 0x64, 0x34, 0x0D, 0x0A], [0xC3, 0x94], false),
    ([0x5C, 0x27, 0x64, 0x35, 0x0D, 0x0A], [0xC3, 0x95], false),
    ([0x5C, 0x27, 0x64, 0x36, 0x0D, 0x0A], [0xC3, 0x96], false),
    ([0x5C, 0x27, 0x64, 0x38, 0x0D, 0x0A], [0xC3, 0x98], false),
    ([0x5C, 0x27, 0x64, 0x39, 0x0D, 0x0A], [0xC3, 0x99], false),
    ([0x5C, 0x27, 0x64, 0x61, 0x0D, 0x0A], [0xC3, 0x9A], false),
    ([0x5C, 0x27, 0x64, 0x62, 0x0D, 0x0A], [0xC3, 0x9B], false),
    ([0x5C, 0x27, 0x64, 0x63, 0x0D, 0x0A], [0xC3, 0x9C], false),
    ([0x5C, 0x27, 0x64, 0x64, 0x0D, 0x0A], [0xC3, 0x9D], false),
    ([0x5C, 0x27, 0x64, 0x65, 0x0D, 0x0A], [0xC3, 0x9E], false),
    ([0x5C, 0x27, 0x64, 0x66, 0x0D, 0x0A], [0xC3, 0x9F], false),
    ([0x5C, 0x27, 0x65, 0x30, 0x0D, 0x0A], [0xC3, 0xA0], false),
    ([0x5C, 0x27, 0x65, 0x31, 0x0D, 0x0A], [0xC3, 0xA1], false),
    ([0x5C, 0x27, 0x65, 0x32, 0x0D, 0x0A], [0xC3, 0xA2], false),
    ([0x5C, 0x27, 0x65, 0x33, 0x0D, 0x0A], [0xC3, 0xA3], false),
    ([0x5C, 0x27, 0x65, 0x34, 0x0D, 0x0A], [0xC3, 0xA4], false),
    ([0x5C, 0x27, 0x65, 0x35, 0x0D, 0x0A], [0xC3, 0xA5], false),
    ([0x5C, 0x27, 0x65, 0x36, 0x0D, 0x0A], [0xC3, 0xA6], false),
    ([0x5C, 0x27, 0x65, 0x37, 0x0D, 0x0A], [0xC3, 0xA7], false),
    ([0x5C, 0x27, 0x65, 0x38, 0x0D, 0x0A], [0xC3, 0xA8], false),
    ([0x5C, 0x27, 0x65, 0x39, 0x0D, 0x0A], [0xC3, 0xA9], false),
    ([0x5C, 0x27, 0x65, 0x61, 0x0D, 0x0A], [0xC3, 0xAA], false),
    ([0x5C, 0x27, 0x65, 0x62, 0x0D, 0x0A], [0xC3, 0xAB], false),
    ([0x5C, 0x27, 0x65, 0x63, 0x0D, 0x0A], [0xC3, 0xAC], false),
    ([0x5C, 0x27, 0x65, 0x64, 0x0D, 0x0A], [0xC3, 0xAD], false),
    ([0x5C, 0x27, 0x65, 0x65, 0x0D, 0x0A], [0xC3, 0xAE], false),
    ([0x5C, 0x27, 0x65, 0x66, 0x0D, 0x0A], [0xC3, 0xAF], false),
    ([0x5C, 0x27, 0x66, 0x30, 0x0D, 0x0A], [0xC3, 0xB0], false),
    ([0x5C, 0x27, 0x66, 0x31, 0x0D, 0x0A], [0xC3, 0xB1], false),
    ([0x5C, 0x27, 0x66, 0x32, 0x0D, 0x0A], [0xC3, 0xB2], false),
    ([0x5C, 0x27, 0x66, 0x33, 0x0D, 0x0A], [0xC3, 0xB3], false),
    ([0x5C, 0x27, 0x66, 0x34, 0x0D, 0x0A], [0xC3, 0xB4], false),
    ([0x5C, 0x27, 0x66, 0x35, 0x0D, 0x0A], [0xC3, 0xB5], false),
    ([0x5C, 0x27, 0x66, 0x36, 0x0D, 0x0A], [0xC3, 0xB6], false),
    ([0x5C, 0x27, 0x66, 0x38, 0x0D, 0x0A], [0xC3, 0xB8], false),
    ([0x5C, 0x27, 0x66, 0x39, 0x0D, 0x0A], [0xC3, 0xB9], false),
    ([0x5C, 0x27, 0x66, 0x61, 0x0D, 0x0A], [0xC3, 0xBA], false),
    ([0x5C, 0x27, 0x66, 0x62, 0x0D, 0x0A], [0xC3, 0xBB], false),
    ([0x5C, 0x27, 0x66, 0x63, 0x0D, 0x0A], [0xC3, 0xBC], false),
    ([0x5C, 0x27, 0x66, 0x64, 0x0D, 0x0A], [0xC3, 0xBD], false),
    ([0x5C, 0x27, 0x66, 0x65, 0x0D, 0x0A], [0xC3, 0xBE], false),
    ([0x5C, 0x27, 0x66, 0x66, 0x0D, 0x0A], [0xC3, 0xBF], false),
    ([0x5C, 0x27, 0x63, 0x30, 0x0A], [0xC3, 0x80], false),
    ([0x5C, 0x27, 0x63, 0x31, 0x0A], [0xC3, 0x81], false),
    ([0x5C, 0x27, 0x63, 0x32, 0x0A], [0xC3, 0x82], false),
    ([0x5C, 0x27, 0x63, 0x33, 0x0A], [0xC3, 0x83], false),
    ([0x5C, 0x27, 0x63, 0x34, 0x0A], [0xC3, 0x84], false),
    ([0x5C, 0x27, 0x63, 0x35, 0x0A], [0xC3, 0x85], false),
    ([0x5C, 0x27, 0x63, 0x36, 0x0A], [0xC3, 0x86], false),
    ([0x5C, 0x27, 0x63, 0x37, 0x0A], [0xC3, 0x87], false),
    ([0x5C, 0x27, 0x63, 0x38, 0x0A], [0xC3, 0x88], false),
    ([0x5C, 0x27, 0x63, 0x39, 0x0A], [0xC3, 0x89], false),
    ([0x5C, 0x27, 0x63, 0x61, 0x0A], [0xC3, 0x8A], false),
    ([0x5C, 0x27, 0x63, 0x62, 0x0A], [0xC3, 0x8B], false),
    ([0x5C, 0x27, 0x63, 0x63, 0x0A], [0xC3, 0x8C], false),
    ([0x5C, 0x27, 0x63, 0x64, 0x0A], [0xC3, 0x8D], false),
    ([0x5C, 0x27, 0x63, 0x65, 0x0A], [0xC3, 0x8E], false),
    ([0x5C, 0x27, 0x63, 0x66, 0x0A], [0xC3, 0x8F], false),
    ([0x5C, 0x27, 0x64, 0x30, 0x0A], [0xC3, 0x90], false),
    ([0x5C, 0x27, 0x64, 0x31, 0x0A], [0xC3, 0x91], false),
    ([0x5C, 0x27, 0x64, 0x32, 0x0A], [0xC3, 0x92], false),
    ([0x5C, 0x27, 0x64, 0x33, 0x0A], [0xC3, 0x93], false),
    ([0x5C, 0x27, 0x64, 0x34, 0x0A], [0xC3, 0x94], false),
    ([0x5C, 0x27, 0x64, 0x35, 0x0A], [0xC3, 0x95], false),
    ([0x5C, 0x27, 0x64, 0x36, 0x0A], [0xC3, 0x96], false),
    ([0x5C, 0x27, 0x64, 0x38, 0x0A], [0xC3, 0x98], false),
    ([0x5C, 0x27, 0x64, 0x39, 0x0A], [0xC3, 0x99], false),
    ([0x5C, 0x27, 0x64, 0x61, 0x0A], [0xC3, 0x9A], false),
    ([0x5C, 0x27, 0x64, 0x62, 0x0A], [0xC3, 0x9B], false),
    ([0x5C, 0x27, 0x64, 0x63, 0x0A], [0xC3, 0x9C], false),
    ([0x5C, 0x27, 0x64, 0x64, 0x0A], [0xC3, 0x9D], false),
    ([0x5C, 0x27, 0x64, 0x65, 0x0A], [0xC3, 0x9E], false),
    ([0x5C, 0x27, 0x64, 0x66, 0x0A], [0xC3, 0x9F], false),
    ([0x5C, 0x27, 0x65, 0x30, 0x0A], [0xC3, 0xA0], false),
    ([0x5C, 0x27, 0x65, 0x31, 0x0A], [0xC3, 0xA1], false),
    ([0x5C, 0x27, 0x65, 0x32, 0x0A], [0xC3, 0xA2], false),
    ([0x5C, 0x27, 0x65, 0x33, 0x0A], [0xC3, 0xA3], false),
    ([0x5C, 0x27, 0x65, 0x34, 0x0A], [0xC3, 0xA4], false),
    ([0x5C, 0x27, 0x65, 0x35, 0x0A], [0xC3, 0xA5], false),
    ([0x5C, 0x27, 0x65, 0x36, 0x0A], [0xC3, 0xA6], false),
    ([0x5C, 0x27, 0x65, 0x37, 0x0A], [0xC3, 0xA7], false),
    ([0x5C, 0x27, 0x65, 0x38, 0x0A], [0xC3, 0xA8], false),
    ([0x5C, 0x27, 0x65, 0x39, 0x0A], [0xC3, 0xA9], false),
    ([0x5C, 0x27, 0x65, 0x61, 0x0A], [0xC3, 0xAA], false),
    ([0x5C, 0x27, 0x65, 0x62, 0x0A], [0xC3, 0xAB], false),
    ([0x5C, 0x27, 0x65, 0x63, 0x0A], [0xC3, 0xAC], false),
    ([0x5C, 0x27, 0x65, 0x64, 0x0A], [0xC3, 0xAD], false),
    ([0x5C, 0x27, 0x65, 0x65, 0x0A], [0xC3, 0xAE], false),
    ([0x5C, 0x27, 0x65, 0x66, 0x0A], [0xC3, 0xAF], false),
    ([0x5C, 0x27, 0x66, 0x30, 0x0A], [0xC3, 0xB0], false),
    ([0x5C, 0x27, 0x66, 0x31, 0x0A], [0xC3, 0xB1], false),
    ([0x5C, 0x27, 0x66, 0x32, 0x0A], [0xC3, 0xB2], false),
    ([0x5C, 0x27, 0x66, 0x33, 0x0A], [0xC3, 0xB3], false),
    ([0x5C, 0x27, 0x66, 0x34, 0x0A], [0xC3, 0xB4], false),
    ([0x5C, 0x27, 0x66, 0x35, 0x0A], [0xC3, 0xB5], false),
    ([0x5C, 0x27, 0x66, 0x36, 0x0A], [0xC3, 0xB6], false),
    ([0x5C, 0x27, 0x66, 0x38, 0x0A], [0xC3, 0xB8], false),
    ([0x5C, 0x27, 0x66, 0x39, 0x0A], [0xC3, 0xB9], false),
    ([0x5C, 0x27, 0x66, 0x61, 0x0A], [0xC3, 0xBA], false),
    ([0x5C, 0x27, 0x66, 0x62, 0x0A], [0xC3, 0xBB], false),
    ([0x5C, 0x27, 0x66, 0x63, 0x0A], [0xC3, 0xBC], false),
    ([0x5C, 0x27, 0x66, 0x64, 0x0A], [0xC3, 0xBD], false),
    ([0x5C, 0x27, 0x66, 0x65, 0x0A], [0xC3, 0xBE], false),
    ([0x5C, 0x27, 0x66, 0x66, 0x0A], [0xC3, 0xBF], false),
    ([0x5C, 0x27, 0x63, 0x30, 0x0D], [0xC3, 0x80], false),
    ([0x5C, 0x27, 0x63, 0x31, 0x0D], [0xC3, 0x81], false),
    ([0x5C, 0x27, 0x63, 0x32, 0x0D], [0xC3, 0x82], false),
    ([0x5C, 0x27, 0x63, 0x33, 0x0D], [0xC3, 0x83], false),
    ([0x5C, 0x27, 0x63, 0x34, 0x0D], [0xC3, 0x84], false),
    ([0x5C, 0x27, 0x63, 0x35, 0x0D], [0xC3, 0x85], false),
    ([0x5C, 0x27, 0x63, 0x36, 0x0D], [0xC3, 0x86], false),
    ([0x5C, 0x27, 0x63, 0x37, 0x0D], [0xC3, 0x87], false),
    ([0x5C, 0x27, 0x63, 0x38, 0x0D], [0xC3, 0x88], false),
    ([0x5C, 0x27, 0x63, 0x39, 0x0D], [0xC3, 0x89], false),
    ([0x5C, 0x27, 0x63, 0x61, 0x0D], [0xC3, 0x8A], false),
    ([0x5C, 0x27, 0x63, 0x62, 0x0D], [0xC3, 0x8B], false),
    ([0x5C, 0x27, 0x63, 0x63, 0x0D], [0xC3, 0x8C], false),
    ([0x5C, 0x27, 0x63, 0x64, 0x0D], [0xC3, 0x8D], false),
    ([0x5C, 0x27, 0x63, 0x65, 0x0D], [0xC3, 0x8E], false),
    ([0x5C, 0x27, 0x63, 0x66, 0x0D], [0xC3, 0x8F], false),
    ([0x5C, 0x27, 0x64, 0x30, 0x0D], [0xC3, 0x90], false),
    ([0x5C, 0x27, 0x64, 0x31, 0x0D], [0xC3, 0x91], false),
    ([0x5C, 0x27, 0x64, 0x32, 0x0D], [0xC3, 0x92], false),
    ([0x5C, 0x27, 0x64, 0x33, 0x0D], [0xC3, 0x93], false),
    ([0x5C, 0x27, 0x64, 0x34, 0x0D], [0xC3, 0x94], false),
    ([0x5C, 0x27, 0x64, 0x35, 0x0D], [0xC3, 0x95], false),
    ([0x5C, 0x27, 0x64, 0x36, 0x0D], [0xC3, 0x96], false),
    ([0x5C, 0x27, 0x64, 0x38, 0x0D], [0xC3, 0x98], false),
    ([0x5C, 0x27, 0x64, 0x39, 0x0D], [0xC3, 0x99], false),
    ([0x5C, 0x27, 0x64, 0x61, 0x0D], [0xC3, 0x9A], false),
    ([0x5C, 0x27, 0x64, 0x62, 0x0D], [0xC3, 0x9B], false),
    ([0x5C, 0x27, 0x64, 0x63, 0x0D], [0xC3, 0x9C], false),
    ([0x5C, 0x27, 0x64, 0x64, 0x0D], [0xC3, 0x9D], false),
    ([0x5C, 0x27, 0x64, 0x65, 0x0D], [0xC3, 0x9E], false),
    ([0x5C, 0x27, 0x64, 0x66, 0x0D], [0xC3, 0x9F], false),
    ([0x5C, 0x27, 0x65, 0x30, 0x0D], [0xC3, 0xA0], false),
    ([0x5C, 0x27, 0x65, 0x31, 0x0D], [0xC3, 0xA1], false),
    ([0x5C, 0x27, 0x65, 0x32, 0x0D], [0xC3, 0xA2], false),
    ([0x5C, 0x27, 0x65, 0x33, 0x0D], [0xC3, 0xA3], false),
    ([0x5C, 0x27, 0x65, 0x34, 0x0D], [0xC3, 0xA4], false),
    ([0x5C, 0x27, 0x65, 0x35, 0x0D], [0xC3, 0xA5], false),
    ([0x5C, 0x27, 0x65, 0x36, 0x0D], [0xC3, 0xA6], false),
    ([0x5C, 0x27, 0x65, 0x37, 0x0D], [0xC3, 0xA7], false),
    ([0x5C, 0x27, 0x65, 0x38, 0x0D], [0xC3, 0xA8], false),
    ([0x5C, 0x27, 0x65, 0x39, 0x0D], [0xC3, 0xA9], false),
    ([0x5C, 0x27, 0x65, 0x61, 0x0D], [0xC3, 0xAA], false),
    ([0x5C, 0x27, 0x65, 0x62, 0x0D], [0xC3, 0xAB], false),
    ([0x5C, 0x27, 0x65, 0x63, 0x0D], [0xC3, 0xAC], false),
    ([0x5C, 0x27, 0x65, 0x64, 0x0D], [0xC3, 0xAD], false),
    ([0x5C, 0x27, 0x65, 0x65, 0x0D], [0xC3, 0xAE], false),
    ([0x5C, 0x27, 0x65, 0x66, 0x0D], [0xC3, 0xAF], false),
    ([0x5C, 0x27, 0x66, 0x30, 0x0D], [0xC3, 0xB0], false),
    ([0x5C, 0x27, 0x66, 0x31, 0x0D], [0xC3, 0xB1], false),
    ([0x5C, 0x27, 0x66, 0x32, 0x0D], [0xC3, 0xB2], false),
    ([0x5C, 0x27, 0x66, 0x33, 0x0D], [0xC3, 0xB3], false),
    ([0x5C, 0x27, 0x66, 0x34, 0x0D], [0xC3, 0xB4], false),
    ([0x5C, 0x27, 0x66, 0x35, 0x0D], [0xC3, 0xB5], false),
    ([0x5C, 0x27, 0x66, 0x36, 0x0D], [0xC3, 0xB6], false),
    ([0x5C, 0x27, 0x66, 0x38, 0x0D], [0xC3, 0xB8], false),
    ([0x5C, 0x27, 0x66, 0x39, 0x0D], [0xC3, 0xB9], false),
    ([0x5C, 0x27, 0x66, 0x61, 0x0D], [0xC3, 0xBA], false),
    ([0x5C, 0x27, 0x66, 0x62, 0x0D], [0xC3, 0xBB], false),
    ([0x5C, 0x27, 0x66, 0x63, 0x0D], [0xC3, 0xBC], false),
    ([0x5C, 0x27, 0x66, 0x64, 0x0D], [0xC3, 0xBD], false),
    ([0x5C, 0x27, 0x66, 0x65, 0x0D], [0xC3, 0xBE], false),
    ([0x5C, 0x27, 0x66, 0x66, 0x0D], [0xC3, 0xBF], false),
    ([0x5C, 0x75, 0x32, 0x33, 0x37], [0xC3, 0xAD], false),
    ([0x5C, 0x75, 0x32, 0x34, 0x33], [0xC3, 0xB3], false)]

/-- The format rtf (rtf-format.xml:1-473). -/
def rtf : Fmt where
  large := 8192
  escape := fun b => [0x5C, 0x5D, 0x5B, 0x3C, 0x3E, 0x40, 0x5E, 0x24, 0x2F, 0x7B, 0x7D].contains b
  space := fun b => [0x20, 0x0A, 0x09, 0x0D, 0x24, 0x2A, 0x7E].contains b
  rules := [rtfRule1, rtfRule2, rtfRule3, rtfRule4, rtfRule5, rtfRule6, rtfRule7, rtfRule8, rtfRule9, rtfRule10, rtfRule11, rtfRule12, rtfRule13, rtfRule14, rtfRule15, rtfRule16, rtfRule17, rtfRule18, rtfRule19, rtfRule20, rtfRule21, rtfRule22, rtfRule23, rtfRule24, rtfRule25, rtfRule26, rtfRule27, rtfRule28, rtfRule29, rtfRule30, rtfRule31, rtfRule32, rtfRule33, rtfRule34, rtfRule35, rtfRule36, rtfRule37, rtfRule38, rtfRule39, rtfRule40, rtfRule41, rtfRule42, rtfRule43, rtfRule44, rtfRule45]
  repls := [rtfRepl1, rtfRepl2]

end Verif.Format
