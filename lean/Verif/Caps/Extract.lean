import Verif.Caps.Input
/-!
# Model of apertium-extract-caps (apertium/apertium_extract_caps.cc)

`StringUtils::getcase` is the parameter `getcase` (in lttoolbox it returns `aa`, `Aa` or `AA`).
-/
namespace Verif.Caps

/-- `read_until_slash` (apertium_extract_caps.cc:31-47): `unget` leaves the stopping character in the input. -/
def readUntilSlash : Text → Text × In
  | [] => ([eofChar], ⟨[], true⟩)
  | '\\' :: [] => (['\\', eofChar], ⟨[], true⟩)
  | '\\' :: d :: r => cat ['\\', d] (readUntilSlash r)
  | c :: r => if c = '/' ∨ c = '$' ∨ c = '\x00' then ([], ⟨c :: r, false⟩) else cat [c] (readUntilSlash r)

/-- The loop over the other readings (apertium_extract_caps.cc:56-59); `fuel` is more than the length of the input, and every round
reads at least one character. -/
def skipReadings : Nat → In → In
  | 0, i => i
  | n + 1, i =>
    if i.hit then i
    else match i.rest with
      | [] => ⟨[], true⟩
      | c :: r => if c = '\x00' ∨ c = '$' then i else skipReadings n (readUntilSlash r).2

/-- The first reading (apertium_extract_caps.cc:52-60), after the surface form. -/
def readReading (i : In) : Text × In :=
  match i.rest with
  | '/' :: r => ((readUntilSlash r).1, skipReadings ((readUntilSlash r).2.rest.length + 1) (readUntilSlash r).2)
  | _ => ([], i)

/-- apertium_extract_caps.cc:61. -/
def skipDollar (i : In) : In :=
  match i.rest with
  | '$' :: r => ⟨r, i.hit⟩
  | _ => i

/-- `read_lu` (apertium_extract_caps.cc:49-63): the surface form, the first reading, and the rest. -/
def readLu (t : Text) : Text × Text × In :=
  ((readUntilSlash t).1, (readReading (readUntilSlash t).2).1, skipDollar (readReading (readUntilSlash t).2).2)

/-- `lu.rfind(">+")`. -/
def rfindPlus : Text → Option Nat
  | [] => none
  | [_] => none
  | c :: d :: r =>
    match rfindPlus (d :: r) with
    | some k => some (k + 1)
    | none => if c = '>' ∧ d = '+' then some 0 else none

/-- `lu.find('<', k)`, and the prefix up to there (the whole text if there is none). -/
def takeLt : Nat → Text → Text
  | _, [] => []
  | 0, c :: r => if c = '<' then [] else c :: takeLt 0 r
  | k + 1, c :: r => c :: takeLt k r

/-- The text whose case is taken by `lemma_case` (apertium_extract_caps.cc:65-71). -/
def lemmaPrefix (lu : Text) : Text := takeLt ((rfindPlus lu).getD 0) lu

/-- The word-bound blank and the unit written for a unit (apertium_extract_caps.cc:111-126). -/
def writeUnit (getcase : Text → Text) (keep : Bool) (wblank surf reading : Text) : Text :=
  mergeWblanks wblank (t!"[[c:" ++ getcase surf ++ ['/'] ++ getcase (lemmaPrefix reading) ++ t!"]]") ++
    ['^'] ++ (if keep then surf ++ ['/'] else []) ++ reading ++ ['$']

/-- The loop of `main` (apertium_extract_caps.cc:92-127); every round reads at least one character, `fuel` is more than the length of
the input. -/
def extractLoop (getcase : Text → Text) (keep : Bool) : Nat → In → Outcome Text
  | 0, _ => .diverge
  | n + 1, i =>
    if i.hit then .ok []
    else
      let (b, i1) := readBlank false i.rest
      match i1.rest with
      | [] => .ok b
      | c :: r =>
        if c = '\x00' then (extractLoop getcase keep n ⟨r, false⟩).map fun o => b ++ c :: o
        else
          let (wblank, i2) :=
            if c = '[' then
              let (w, i) := finishWBlank r.tail
              (t!"[[" ++ w, i)
            else ([], i1)
          match i2.rest with
          | '^' :: r' =>
            let (surf, reading, i3) := readLu r'
            (extractLoop getcase keep n i3).map fun o => b ++ writeUnit getcase keep wblank surf reading ++ o
          | [] => .ok (b ++ wblank)
          | _ => (extractLoop getcase keep n i2).map fun o => b ++ wblank ++ o

/-- `main` of apertium-extract-caps; `keep` is the option `-s`. -/
def extract (getcase : Text → Text) (keep : Bool) (t : Text) : Outcome Text :=
  extractLoop getcase keep (t.length + 1) ⟨t, false⟩

/-- `getcase` on ASCII letters, for the examples (lttoolbox's looks at the first and the last letter:
tests/capitalization/__init__.py, `ExtractCapsTest`). -/
def asciiCase (t : Text) : Text :=
  match t.filter Char.isAlpha with
  | [] => t!"aa"
  | [c] => if c.isUpper then t!"Aa" else t!"aa"
  | c :: d :: r => if c.isUpper then (if ((d :: r).getLast (by simp)).isUpper then t!"AA" else t!"Aa") else t!"aa"

-- the tests of tests/capitalization/__init__.py
example : extract asciiCase false t!"^aaa/xyz<n>$" = .ok t!"[[c:aa/aa]]^xyz<n>$" := by decide +kernel
example : extract asciiCase false t!"^AaA/xyz<n>$" = .ok t!"[[c:AA/aa]]^xyz<n>$" := by decide +kernel
example : extract asciiCase false t!"^AAa/XYZ<n>$" = .ok t!"[[c:Aa/AA]]^XYZ<n>$" := by decide +kernel
example : extract asciiCase false t!"^Distrikts-NRK/Distrikts-<np><guess><cmp><guio>+NRK<np><org>$"
    = .ok t!"[[c:AA/AA]]^Distrikts-<np><guess><cmp><guio>+NRK<np><org>$" := by decide +kernel
example : extract asciiCase false t!"^NooJ-like/NooJ<np>+like<adv>$" = .ok t!"[[c:Aa/Aa]]^NooJ<np>+like<adv>$" := by decide +kernel
example : extract asciiCase true t!"a[x] [[t:b]]^Foo/foo<n>/fo<v>$ [[u]].\x00[y]"
    = .ok t!"a[x] [[t:b; c:Aa/aa]]^Foo/foo<n>$ [[u]].\x00[y]" := by decide +kernel

end Verif.Caps
