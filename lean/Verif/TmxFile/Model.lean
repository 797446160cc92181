import Verif.TmxBuild.Model
/-!
# The TMX file that apertium-tmxbuild writes

`apertium/tmx_builder.cc`: `generateTMX` around the units of `outputTU`.
-/
namespace Verif.TmxFile

/-- What `printTU` writes (tmx_builder.cc:763-767). -/
def unit (l1 l2 : Text) (u : Text × Text) : Text :=
  t!"<tu>\n  <tuv xml:lang=\"" ++ l1 ++ t!"\"><seg>" ++ u.1 ++ t!"</seg></tuv>\n" ++
  t!"  <tuv xml:lang=\"" ++ l2 ++ t!"\"><seg>" ++ u.2 ++ t!"</seg></tuv>\n</tu>\n"

/-- What `generateTMX` writes before the units (tmx_builder.cc:417-427); `v` is PACKAGE_VERSION. -/
def head (v l1 l2 : Text) : Text :=
  t!"<?xml version=\"1.0\"?>\n" ++ t!"<tmx version=\"1.4\">\n" ++ t!"<header creationtool=\"Apertium TMX Builder\"\n" ++
  t!"        creationtoolversion=\"" ++ v ++ t!"\"\n" ++ t!"        segtype=\"sentence\"\n" ++
  t!"        srclang=\"" ++ l1 ++ t!"\"\n" ++ t!"        adminlang=\"" ++ l2 ++ t!"\"\n" ++
  t!"        datatype=\"plaintext\"\n" ++ t!"        o-tmf=\"none\">\n" ++ t!"</header>\n" ++ t!"<body>\n"

/-- The file (tmx_builder.cc:414-431) for the pairs that come from the aligner (`TmxBuild.pairs`). -/
def file (k : Tmx.Ctype) (v l1 l2 : Text) (ps : List (Text × Text)) : Text :=
  head v l1 l2 ++ (ps.filterMap fun p => Tmx.printTU k p.1 p.2).flatMap (unit l1 l2) ++ t!"</body>\n</tmx>\n"

/-- The program: without a file from the aligner it ends with an error. -/
def program (k : Tmx.Ctype) (utf : Bool) (o : Tmx.Options) (c : Tmx.Choices) (num : Nat → Text) (v l1 l2 t1 t2 : Text) : Outcome Text :=
  (TmxBuild.pairs k utf o c num t1 t2).bind fun ps =>
    match ps with
    | none => .fail
    | some ps => .ok (file k v l1 l2 ps)

end Verif.TmxFile
