#!/usr/bin/env python3
"""Writes lean/Verif/Format/Formats.lean: the *-format.xml files of /repo/apertium as `Fmt` terms.

The flex expressions are parsed here; each is written as a term of `Re` with the original beside it."""
import os, re
import xml.etree.ElementTree as ET

REPO = "/repo/apertium"
OUT = os.path.join(os.path.dirname(__file__), "../lean/Verif/Format/Formats.lean")
NAMES = ["txt", "html-noent", "html", "html-alt", "latex", "mediawiki", "odt", "pptx", "wxml", "xlsx", "xpresstag", "rtf"]


class P:
    """A parser for the part of flex's pattern language that the formats use."""

    def __init__(self, s):
        self.s, self.i = s, 0

    def peek(self):
        return self.s[self.i] if self.i < len(self.s) else None

    def get(self):
        c = self.s[self.i]
        self.i += 1
        return c

    def escape(self):
        c = self.get()
        return {"n": "\n", "t": "\t", "r": "\r"}.get(c, c)

    def alt(self):
        parts = [self.seq()]
        while self.peek() == "|":
            self.get()
            parts.append(self.seq())
        return parts[0] if len(parts) == 1 else ("alt", parts)

    def seq(self):
        parts = []
        while self.peek() not in (None, "|", ")", " ", "\t"):
            parts.append(self.post())
        # neighbouring literals are one literal
        out = []
        for p in parts:
            if p[0] == "lit" and out and out[-1][0] == "lit":
                out[-1] = ("lit", out[-1][1] + p[1])
            else:
                out.append(p)
        return out[0] if len(out) == 1 else ("seq", out)

    def post(self):
        a = self.atom()
        while self.peek() in ("*", "+", "?", "{"):
            c = self.get()
            if c == "{":
                j = self.s.index("}", self.i)
                lo, hi = self.s[self.i:j].split(",")
                self.i = j + 1
                a = ("rep", a, int(lo), int(hi) if hi else None)
            else:
                a = ({"*": "star", "+": "plus", "?": "opt"}[c], a)
        return a

    def atom(self):
        c = self.get()
        if c == "(":
            a = self.alt()
            assert self.get() == ")"
            return ("grp", a)
        if c == '"':
            t = ""
            while True:
                c = self.get()
                if c == '"':
                    break
                t += self.escape() if c == "\\" else c
            return ("lit", t)
        if c == "[":
            neg = self.peek() == "^" and self.s[self.i + 1] != None
            # `[^…]`; in the option classes `[][^…]` the circumflex is not the first
            if neg:
                self.get()
            items, first = [], True
            while first or self.peek() != "]":
                first = False
                c = self.get()
                c = self.escape() if c == "\\" else c
                if self.peek() == "-" and self.s[self.i + 1] != "]" and c != "^":
                    self.get()
                    d = self.get()
                    items.append((c, self.escape() if d == "\\" else d))
                else:
                    items.append((c, c))
            self.get()
            return ("cls", neg, items)
        if c == "\\":
            return ("lit", self.escape())
        assert c not in "^$/.*+?{}<>|)]", (c, self.s)
        return ("lit", c)


def strip(a):
    while a[0] == "grp":
        a = a[1]
    return a


def byte(c):
    assert ord(c) < 128
    return "0x%02X" % ord(c)


def lstr(t):
    return '"' + "".join({"\n": "\\n", "\t": "\\t", "\r": "\\r", '"': '\\"', "\\": "\\\\"}.get(c, c) for c in t) + '"'


def term(a):
    a = strip(a)
    k = a[0]
    if k == "lit":
        return "(lit %s)" % lstr(a[1])
    if k == "cls":
        return "(cc %s [%s])" % ("true" if a[1] else "false", ", ".join("(%s, %s)" % (byte(x), byte(y)) for x, y in a[2]))
    if k == "alt":
        return "(alts [%s])" % ", ".join(term(x) for x in a[1])
    if k == "seq":
        return "(seqs [%s])" % ", ".join(term(x) for x in a[1])
    if k in ("star", "plus", "opt"):
        return "(%s %s)" % ({"star": ".star", "plus": "plus", "opt": "opt"}[k], term(a[1]))
    if k == "rep":
        return "(rep %d %s %s)" % (a[2], "none" if a[3] is None else "(some %d)" % a[3], term(a[1]))
    raise ValueError(k)


def rx(s):
    p = P(s)
    bol = False
    if p.peek() == "^":
        p.get()
        bol = True
    a = p.alt()
    rest = s[p.i:]
    assert rest.strip() == "", (s, rest)
    return bol, term(a)


def chars(s):
    """The characters of an escape-chars or space-chars class."""
    a = strip(P(s).alt())
    if a[0] == "alt":
        res = []
        for x in a[1]:
            x = strip(x)
            res += list(x[1]) if x[0] == "lit" else [c for c, d in x[2]]
        return res
    assert a[0] == "cls" and not a[1] and all(x == y for x, y in a[2])
    return [x for x, _ in a[2]]


def blist(t):
    """The bytes of a text that the stylesheet puts in a C string literal."""
    t = re.sub(r"\\(.)", lambda m: {"n": "\n", "r": "\r", "t": "\t"}.get(m.group(1), m.group(1)), t)
    return "[" + ", ".join("0x%02X" % b for b in t.encode("utf-8")) + "]"


def main():
    w = open(OUT, "w").write
    w('''import Verif.Format.Deformat
/-!
# The formats of apertium (apertium/*-format.xml)

GENERATED by tools/gen_formats.py from the files in the repository: the original expressions are in the comments.  All of them
have `case-sensitive` set to `no`, so letters stand for both cases.  An expression ends at a space that is not quoted.
-/
namespace Verif.Format

/-- The same letter in the other case. -/
def swapCase (b : UInt8) : UInt8 :=
  if 0x41 ≤ b ∧ b ≤ 0x5A then b + 0x20 else if 0x61 ≤ b ∧ b ≤ 0x7A then b - 0x20 else b

/-- A character class of flex under `%option caseless`, negated or not. -/
def cc (neg : Bool) (l : List (UInt8 × UInt8)) : Re :=
  .cls (fun b => neg != l.any (fun p => decide ((p.1 ≤ b ∧ b ≤ p.2) ∨ (p.1 ≤ swapCase b ∧ swapCase b ≤ p.2))))

def seqs : List Re → Re
  | [] => .eps
  | [r] => r
  | r :: rs => .seq r (seqs rs)

def alts : List Re → Re
  | [] => .none
  | [r] => r
  | r :: rs => .alt r (alts rs)

/-- A literal text under `%option caseless`. -/
def lit (s : String) : Re := seqs ((bytes s).map (fun c => .cls (fun b => decide (b = c ∨ swapCase b = c))))

def plus (r : Re) : Re := .seq r (.star r)
def opt (r : Re) : Re := .alt r .eps

/-- `r{m,n}`, or `r{m,}`. -/
def rep (m : Nat) (n : Option Nat) (r : Re) : Re :=
  match n with
  | none => seqs (List.replicate m r ++ [.star r])
  | some n => seqs (List.replicate m r ++ List.replicate (n - m) (opt r))

''')
    for name in NAMES:
        path = "%s/%s-format.xml" % (REPO, name)
        src = open(path, "rb").read()
        nlines = src.count(b"\n")
        root = ET.fromstring(src)
        opts = root.find("options")
        assert opts.find("case-sensitive").get("value") == "no"
        esc, spc = chars(opts.find("escape-chars").get("regexp")), chars(opts.find("space-chars").get("regexp"))
        ident = re.sub(r"-(.)", lambda m: m.group(1).upper(), name)
        begins = []
        rules, n = [], 0
        for r in root.find("rules"):
            if r.tag != "format-rule":
                continue
            n += 1
            tag, beg, end = r.find("tag"), r.find("begin"), r.find("end")
            eos, eoh = r.get("eos") == "yes", r.get("eoh") == "yes"
            assert (r.get("type") == "comment") == (beg is not None), name
            if beg is not None:
                begins.append(beg.get("regexp"))
                bol, t = rx(beg.get("regexp"))
                _, u = rx(end.get("regexp"))
                com = "%s … %s" % (beg.get("regexp"), end.get("regexp"))
                x = "{ re := %s\n    fin := some %s" % (t, u)
            else:
                bol, t = rx(tag.get("regexp"))
                com = tag.get("regexp")
                x = "{ re := %s" % t
            if bol:
                x += ", bol := true"
            if eos:
                x += ", eos := true"
            if eoh:
                x += ", eoh := true"
            x += ", prio := %s }" % r.get("priority")
            com = com.replace("\n", "\\n").replace("/-", "/ -").replace("-/", "- /")
            rules.append("/-- %s-format.xml, rule %d: `%s` -/\ndef %sRule%d : Rule :=\n  %s\n" % (name, n, com, ident, n, x))
        assert len(set(begins)) == len(begins), (name, "two comment rules with the same begin")
        for x in rules:
            w(x + "\n")
        reps = []
        for k, r in enumerate(root.find("rules").findall("replacement-rule")):
            _, t = rx(r.get("regexp"))
            ents = []
            for q in r.findall("replace"):
                ents.append("(%s, %s, %s)" % (blist(q.get("source")), blist(q.get("target")),
                                              "true" if q.get("prefer") == "yes" else "false"))
            w("/-- %s-format.xml, replacement rule %d: `%s` with its %d entries (source, target, preferred). -/\n" %
              (name, k + 1, r.get("regexp"), len(ents)))
            w("def %sRepl%d : Repl where\n  re := %s\n  table := [%s]\n\n" % (ident, k + 1, t, ",\n    ".join(ents)))
            reps.append("%sRepl%d" % (ident, k + 1))
        w("/-- The format %s (%s-format.xml:1-%d). -/\n" % (name, name, nlines))
        w("def %s : Fmt where\n  large := %s\n" % (ident, opts.find("largeblocks").get("size")))
        w("  escape := fun b => [%s].contains b\n" % ", ".join(byte(c) for c in esc))
        w("  space := fun b => [%s].contains b\n" % ", ".join(byte(c) for c in spc))
        w("  rules := [%s]\n" % ", ".join("%sRule%d" % (ident, i + 1) for i in range(n)))
        if reps:
            w("  repls := [%s]\n" % ", ".join(reps))
        w("\n")
    w("end Verif.Format\n")


main()
