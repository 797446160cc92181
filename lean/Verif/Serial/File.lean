import Verif.Tagger.ClassesProps
/-!
# Model of reading and writing the files of the HMM and LSW taggers

`apertium/tagger_data_hmm.cc`, `apertium/tagger_data_lsw.cc`, `apertium/constant_manager.cc`, `apertium/collection.cc`,
`apertium/endian_double_util.cc`.  A file is a list of bytes.  `Compression::multibyte_write`, `string_write` and the file format of a pattern list are those of
lttoolbox, which is not in this repository: the first two are written down here as they are known, the last is a parameter.
-/
namespace Verif.Serial
open Verif.Tagger (Tags Coll sinsert)

abbrev Bytes := List Nat

/-- A string of UTF-16 units. -/
abbrev UStr := List Nat

/-- Writing: `none` is the error exit of `multibyte_write`. -/
abbrev Wr := Option Bytes

/-- Reading.  `none`: the file ends too early (what the C++ code then reads is not determined). -/
abbrev Rd (α : Type) := Bytes → Option (α × Bytes)

/-- One after the other. -/
def Wr.seq (a b : Wr) : Wr := a.bind (fun x => b.map (fun y => x ++ y))

/-- A `for` loop. -/
def Wr.all {α : Type} (f : α → Wr) : List α → Wr
  | [] => some []
  | x :: xs => Wr.seq (f x) (Wr.all f xs)

def Rd.pure {α : Type} (a : α) : Rd α := fun bs => some (a, bs)

def Rd.bind {α β : Type} (r : Rd α) (f : α → Rd β) : Rd β := fun bs => (r bs).bind (fun p => f p.1 p.2)

/-- A `for` loop of `n` rounds. -/
def Rd.times {σ : Type} (step : σ → Rd σ) : Nat → σ → Rd σ
  | 0, s => Rd.pure s
  | n + 1, s => Rd.bind (step s) (fun s' => Rd.times step n s')

/-! ### lttoolbox -/

/-- `Compression::multibyte_write` (assumed): one to four bytes, the first two bits tell how many. -/
def mbWrite (n : Nat) : Wr :=
  if n < 0x40 then some [n]
  else if n < 0x4000 then some [n / 0x100 + 0x40, n % 0x100]
  else if n < 0x400000 then some [n / 0x10000 + 0x80, n / 0x100 % 0x100, n % 0x100]
  else if n < 0x40000000 then some [n / 0x1000000 + 0xc0, n / 0x10000 % 0x100, n / 0x100 % 0x100, n % 0x100]
  else none

/-- `Compression::multibyte_read` (assumed). -/
def mbRead : Rd Nat
  | [] => none
  | a :: r =>
    if a < 0x40 then some (a, r)
    else if a < 0x80 then
      match r with
      | b :: r => some ((a - 0x40) * 0x100 + b, r)
      | _ => none
    else if a < 0xc0 then
      match r with
      | b :: c :: r => some ((a - 0x80) * 0x10000 + b * 0x100 + c, r)
      | _ => none
    else
      match r with
      | b :: c :: d :: r => some ((a - 0xc0) * 0x1000000 + b * 0x10000 + c * 0x100 + d, r)
      | _ => none

/-- `Compression::string_write` (assumed): the length and the units. -/
def strWrite (s : UStr) : Wr := Wr.seq (mbWrite s.length) (Wr.all mbWrite s)

/-- `Compression::string_read` (assumed). -/
def strRead : Rd UStr := Rd.bind mbRead (fun n => Rd.times (fun s => Rd.bind mbRead (fun c => Rd.pure (s ++ [c]))) n [])

/-- The file format of `PatternList` (lttoolbox), any. -/
structure PatternFormat (P : Type) where
  write : P → Bytes
  read : Rd P
  roundtrip : ∀ p rest, read (write p ++ rest) = some (p, rest)

/-! ### Doubles -/

/-- The eight bytes of a double (its 64 bits as a number) in the order of significance, the least first. -/
def doubleBytes (v : Nat) : Bytes := (List.range 8).map (fun i => v / 256 ^ i % 256)

/-- The bytes in memory. -/
def inMemory (bigEndian : Bool) (v : Nat) : Bytes := if bigEndian then (doubleBytes v).reverse else doubleBytes v

/-- `EndianDoubleUtil::write` (endian_double_util.cc:63-77). -/
def doubleWrite (bigEndian : Bool) (v : Nat) : Bytes :=
  if bigEndian then inMemory bigEndian v else (inMemory bigEndian v).reverse

/-- The double with these bytes in memory. -/
def fromMemory (bigEndian : Bool) (m : Bytes) : Nat :=
  ((if bigEndian then m.reverse else m).zipIdx.map (fun p => p.1 * 256 ^ p.2)).sum

/-- `EndianDoubleUtil::read` (endian_double_util.cc:26-44), before the end of the file. -/
def doubleRead (bigEndian : Bool) : Rd Nat := fun bs =>
  if bs.length < 8 then none
  else some (fromMemory bigEndian (if bigEndian then bs.take 8 else (bs.take 8).reverse), bs.drop 8)

/-! ### Sets and maps -/

/-- `std::map::operator[]` with an assignment, on the sorted listing. -/
def minsert (k : UStr) (v : Nat) : List (UStr × Nat) → List (UStr × Nat)
  | [] => [(k, v)]
  | (k', v') :: r => if k < k' then (k, v) :: (k', v') :: r else if k' < k then (k', v') :: minsert k v r else (k, v) :: r

/-! ### Tagger data -/

/-- `TaggerData` (tagger_data.h:35-44). Simplification: tags and constants are not negative. -/
structure Data (P : Type) where
  openClass : Tags
  forbid : List (Nat × Nat)
  tagIndex : List (UStr × Nat)
  arrayTags : List UStr
  enforce : List (Nat × List Nat)
  prefer : List UStr
  constants : List (UStr × Nat)
  output : Coll
  plist : P
  discard : List UStr

/-- `TaggerData::copy` (tagger_data.cc:22-34), into `t`. -/
def Data.copy {P : Type} (t o : Data P) : Data P :=
  { t with openClass := o.openClass, forbid := o.forbid, tagIndex := o.tagIndex, arrayTags := o.arrayTags, enforce := o.enforce, prefer := o.prefer,
           constants := o.constants, output := o.output, plist := o.plist }

/-- tagger_data_hmm.cc:291-299 (lsw: 223-231): differences. -/
def openWrite : Nat → Tags → Wr
  | _, [] => some []
  | val, t :: ts => if val ≤ t then Wr.seq (mbWrite (t - val)) (openWrite t ts) else none

/-- tagger_data_hmm.cc:173-179. -/
def openRead (n : Nat) (s : Tags) : Rd Tags :=
  Rd.bind (Rd.times (fun (p : Nat × Tags) => Rd.bind mbRead (fun d => Rd.pure (p.1 + d, sinsert (p.1 + d) p.2))) n (0, s)) (fun p => Rd.pure p.2)

/-- `ConstantManager::write` (constant_manager.cc:71-82) and the loop on `tag_index` (tagger_data_hmm.cc:316-321). -/
def mapWrite (m : List (UStr × Nat)) : Wr :=
  Wr.seq (mbWrite m.length) (Wr.all (fun p => Wr.seq (strWrite p.1) (mbWrite p.2)) m)

/-- `ConstantManager::read` (constant_manager.cc:84-94) and tagger_data_hmm.cc:197-202, into `m`. -/
def mapRead (m : List (UStr × Nat)) : Rd (List (UStr × Nat)) :=
  Rd.bind mbRead (fun n => Rd.times (fun m => Rd.bind strRead (fun k => Rd.bind mbRead (fun v => Rd.pure (minsert k v m)))) n m)

/-- `Collection::write` (collection.cc:62-76). -/
def collWrite (c : Coll) : Wr :=
  Wr.seq (mbWrite c.element.length) (Wr.all (fun s => Wr.seq (mbWrite s.length) (Wr.all mbWrite s)) c.element)

/-- `Collection::read` (collection.cc:78-93). -/
def collRead (c : Coll) : Rd Coll :=
  Rd.bind mbRead (fun n => Rd.times (fun c =>
    Rd.bind mbRead (fun k => Rd.bind (Rd.times (fun s => Rd.bind mbRead (fun x => Rd.pure (sinsert x s))) k []) (fun s => Rd.pure (c.add s).1))) n c)

/-- The part of `write` that HMM and LSW have in common (tagger_data_hmm.cc:291-346, tagger_data_lsw.cc:223-278). -/
def Data.write {P : Type} (d : Data P) : Wr :=
  Wr.seq (Wr.seq (mbWrite d.openClass.length) (openWrite 0 d.openClass)) <|
  Wr.seq (Wr.seq (mbWrite d.forbid.length) (Wr.all (fun r => Wr.seq (mbWrite r.1) (mbWrite r.2)) d.forbid)) <|
  Wr.seq (Wr.seq (mbWrite d.arrayTags.length) (Wr.all strWrite d.arrayTags)) <|
  Wr.seq (mapWrite d.tagIndex) <|
  Wr.seq (Wr.seq (mbWrite d.enforce.length)
    (Wr.all (fun r => Wr.seq (mbWrite r.1) (Wr.seq (mbWrite r.2.length) (Wr.all mbWrite r.2))) d.enforce)) <|
  Wr.seq (Wr.seq (mbWrite d.prefer.length) (Wr.all strWrite d.prefer)) <|
  Wr.seq (mapWrite d.constants) (collWrite d.output)

/-- `push_back` of strings. -/
def strsRead (l : List UStr) : Rd (List UStr) :=
  Rd.bind mbRead (fun n => Rd.times (fun l => Rd.bind strRead (fun s => Rd.pure (l ++ [s]))) n l)

/-- The part of `read` that HMM and LSW have in common (tagger_data_hmm.cc:173-226, tagger_data_lsw.cc:118-171), into `d`. -/
def Data.read {P : Type} (d : Data P) : Rd (Data P) :=
  Rd.bind (Rd.bind mbRead (fun n => openRead n d.openClass)) fun oc =>
  Rd.bind (Rd.bind mbRead (fun n => Rd.times (fun l => Rd.bind mbRead (fun i => Rd.bind mbRead (fun j => Rd.pure (l ++ [(i, j)])))) n d.forbid)) fun fr =>
  Rd.bind (strsRead d.arrayTags) fun at_ =>
  Rd.bind (mapRead d.tagIndex) fun ti =>
  Rd.bind (Rd.bind mbRead (fun n => Rd.times (fun l => Rd.bind mbRead (fun i => Rd.bind mbRead (fun k =>
    Rd.bind (Rd.times (fun js => Rd.bind mbRead (fun j => Rd.pure (js ++ [j]))) k []) (fun js => Rd.pure (l ++ [(i, js)]))))) n d.enforce)) fun er =>
  Rd.bind (strsRead d.prefer) fun pr =>
  Rd.bind (mapRead []) fun cs =>
  Rd.bind (collRead d.output) fun out =>
  Rd.pure { d with openClass := oc, forbid := fr, arrayTags := at_, tagIndex := ti, enforce := er, prefer := pr, constants := cs, output := out }

/-- The end of a file: nothing is written for an empty list (tagger_data_hmm.cc:390-399). -/
def discardWrite (l : List UStr) : Wr :=
  if l = [] then some [] else Wr.seq (mbWrite l.length) (Wr.all strWrite l)

/-- tagger_data_hmm.cc:272-284: at the end of the file there are none. -/
def discardRead : Rd (List UStr) := fun bs => if bs = [] then some ([], []) else strsRead [] bs

/-! ### HMM -/

abbrev Matrix := Nat → Nat → Nat

def Matrix.put (m : Matrix) (i j x : Nat) : Matrix := fun i' j' => if i' = i ∧ j' = j then x else m i' j'

/-- `TaggerDataHMM`; doubles are their bits. -/
structure Hmm (P : Type) where
  data : Data P
  n : Nat
  m : Nat
  a : Matrix
  b : Matrix

/-- The pairs below `n` and `m`, in the order of the loops. -/
def pairs (n m : Nat) : List (Nat × Nat) := (List.range n).flatMap (fun i => (List.range m).map (fun j => (i, j)))

/-- `output[j].find(i) != output[j].end()`; `output[j]` must exist. -/
def useful (c : Coll) (p : Nat × Nat) : Bool := ((c.element[p.2]?).getD []).contains p.1

/-- `TaggerDataHMM::write` (tagger_data_hmm.cc:287-400). -/
def Hmm.write {P : Type} (pf : PatternFormat P) (big : Bool) (x : Hmm P) : Wr :=
  Wr.seq x.data.write <|
  Wr.seq (mbWrite x.n) <| Wr.seq (mbWrite x.m) <|
  Wr.seq (Wr.all (fun p => some (doubleWrite big (x.a p.1 p.2))) (pairs x.n x.n)) <|
  Wr.seq (mbWrite ((pairs x.n x.m).filter (useful x.data.output)).length) <|
  Wr.seq (Wr.all (fun p => Wr.seq (mbWrite p.1) (Wr.seq (mbWrite p.2) (some (doubleWrite big (x.b p.1 p.2)))))
    ((pairs x.n x.m).filter (useful x.data.output))) <|
  Wr.seq (some (pf.write x.data.plist)) (discardWrite x.data.discard)

/-- The loops on the pairs (tagger_data_hmm.cc:241-248). -/
def matrixRead (big : Bool) : List (Nat × Nat) → Matrix → Rd Matrix
  | [], m => Rd.pure m
  | p :: ps, m => Rd.bind (doubleRead big) (fun v => matrixRead big ps (m.put p.1 p.2 v))

/-- `TaggerDataHMM::read` (tagger_data_hmm.cc:168-285), into an object with the data `d`.  `zeroBits` are the bits of `ZERO`.  New arrays hold
anything: here 0, which is overwritten. -/
def Hmm.read {P : Type} (pf : PatternFormat P) (big : Bool) (zeroBits : Nat) (d : Data P) : Rd (Hmm P) :=
  Rd.bind d.read fun d =>
  Rd.bind mbRead fun n => Rd.bind mbRead fun m =>
  Rd.bind (matrixRead big (pairs n n) (fun _ _ => 0)) fun a =>
  Rd.bind mbRead fun nval =>
  Rd.bind (Rd.times (fun (b : Matrix) => Rd.bind mbRead (fun i => Rd.bind mbRead (fun j => Rd.bind (doubleRead big) (fun v => Rd.pure (b.put i j v)))))
    nval (fun _ _ => zeroBits)) fun b =>
  Rd.bind pf.read fun pl =>
  Rd.bind discardRead fun dis =>
  Rd.pure ⟨{ d with plist := pl, discard := dis }, n, m, a, b⟩

/-! ### LSW -/

abbrev Cube := Nat → Nat → Nat → Nat

def Cube.put (m : Cube) (i j k x : Nat) : Cube := fun i' j' k' => if i' = i ∧ j' = j ∧ k' = k then x else m i' j' k'

/-- `TaggerDataLSW`. -/
structure Lsw (P : Type) where
  data : Data P
  n : Nat
  d : Cube

def triples (n : Nat) : List (Nat × Nat × Nat) :=
  (List.range n).flatMap (fun i => (List.range n).flatMap (fun j => (List.range n).map (fun k => (i, j, k))))

/-- `TaggerDataLSW::write` (tagger_data_lsw.cc:219-321); `pos v` is `v > ZERO`. -/
def Lsw.write {P : Type} (pf : PatternFormat P) (big : Bool) (pos : Nat → Bool) (x : Lsw P) : Wr :=
  Wr.seq x.data.write <|
  Wr.seq (mbWrite x.n) <|
  Wr.seq (mbWrite ((triples x.n).filter (fun t => pos (x.d t.1 t.2.1 t.2.2))).length) <|
  Wr.seq (Wr.all (fun t => Wr.seq (mbWrite t.1) (Wr.seq (mbWrite t.2.1) (Wr.seq (mbWrite t.2.2) (some (doubleWrite big (x.d t.1 t.2.1 t.2.2))))))
    ((triples x.n).filter (fun t => pos (x.d t.1 t.2.1 t.2.2)))) <|
  Wr.seq (some (pf.write x.data.plist)) (discardWrite x.data.discard)

/-- `TaggerDataLSW::read` (tagger_data_lsw.cc:113-217); the bits of 0.0 are 0. -/
def Lsw.read {P : Type} (pf : PatternFormat P) (big : Bool) (d : Data P) : Rd (Lsw P) :=
  Rd.bind d.read fun d =>
  Rd.bind mbRead fun n =>
  Rd.bind mbRead fun nval =>
  Rd.bind (Rd.times (fun (b : Cube) => Rd.bind mbRead (fun i => Rd.bind mbRead (fun j => Rd.bind mbRead (fun k =>
    Rd.bind (doubleRead big) (fun v => Rd.pure (b.put i j k v)))))) nval (fun _ _ _ => 0)) fun b =>
  Rd.bind pf.read fun pl =>
  Rd.bind discardRead fun dis =>
  Rd.pure ⟨{ d with plist := pl, discard := dis }, n, b⟩

end Verif.Serial
