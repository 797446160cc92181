import Verif.Serial.Proofs
import Verif.Tagger.HmmProps
/-!
# C29: what is read back from a file of the HMM and LSW taggers
-/
namespace Verif.Serial
open Verif.Tagger (Tags Coll sinsert Sorted)

variable {P : Type}

theorem seq_some {a b : Wr} {bs : Bytes} (h : Wr.seq a b = some bs) : ∃ x y, a = some x ∧ b = some y ∧ bs = x ++ y := by
  cases a with
  | none => cases h
  | some x =>
    cases b with
    | none => cases h
    | some y => cases h; exact ⟨x, y, rfl, rfl, rfl⟩

theorem bind_some {α β : Type} {r : Rd α} {f : α → Rd β} {bs rest : Bytes} {a : α} (h : r bs = some (a, rest)) : Rd.bind r f bs = f a rest := by
  unfold Rd.bind
  rw [h]
  rfl

theorem hmm_read (pf : PatternFormat P) (big big' : Bool) (zeroBits : Nat) (p0 : P) (x : Hmm P) (hv : x.data.Valid)
    (ha : ∀ i j, x.a i j < 2 ^ 64) (hb : ∀ i j, x.b i j < 2 ^ 64) (bs : Bytes) (h : x.write pf big = some bs) :
    Hmm.read pf big' zeroBits (Data.new p0) bs = some (⟨x.data, x.n, x.m,
      (pairs x.n x.n).foldl (fun (m : Matrix) p => m.put p.1 p.2 (x.a p.1 p.2)) (fun _ _ => 0),
      ((pairs x.n x.m).filter (useful x.data.output)).foldl (fun (m : Matrix) p => m.put p.1 p.2 (x.b p.1 p.2)) (fun _ _ => zeroBits)⟩, []) := by
  unfold Hmm.write at h
  obtain ⟨b1, r1, h1, g1, rfl⟩ := seq_some h
  obtain ⟨b2, r2, h2, g2, rfl⟩ := seq_some g1
  obtain ⟨b3, r3, h3, g3, rfl⟩ := seq_some g2
  obtain ⟨b4, r4, h4, g4, rfl⟩ := seq_some g3
  obtain ⟨b5, r5, h5, g5, rfl⟩ := seq_some g4
  obtain ⟨b6, r6, h6, g6, rfl⟩ := seq_some g5
  obtain ⟨b7, r7, h7, g7, rfl⟩ := seq_some g6
  cases h7
  have hb6 := Reads.times (f := fun (p : Nat × Nat) => Wr.seq (mbWrite p.1) (Wr.seq (mbWrite p.2) (some (doubleWrite big (x.b p.1 p.2)))))
    (step := fun (b : Matrix) => Rd.bind mbRead (fun i => Rd.bind mbRead (fun j => Rd.bind (doubleRead big') (fun v => Rd.pure (b.put i j v)))))
    (g := fun (m : Matrix) p => m.put p.1 p.2 (x.b p.1 p.2)) ((pairs x.n x.m).filter (useful x.data.output)) (fun _ _ => zeroBits)
    (fun s p _ => Reads.seq (reads_mb p.1) (Reads.seq (reads_mb p.2)
      ((reads_double big big' _ (hb p.1 p.2)).map (fun v => s.put p.1 p.2 v))))
  unfold Hmm.read
  rw [bind_some (reads_data x.data p0 hv b1 h1 _), bind_some (reads_mb _ b2 h2 _), bind_some (reads_mb _ b3 h3 _),
    bind_some (reads_matrix big big' x.a _ _ (fun p _ => ha p.1 p.2) b4 h4 _), bind_some (reads_mb _ b5 h5 _), bind_some (hb6 b6 h6 _),
    bind_some (pf.roundtrip _ _), bind_some (discard_read _ _ g7)]
  rfl

/-- **C29 (HMM).**  Whatever tagger data `x` is written to a file, on a machine of either byte order, reading the file on a machine of either byte
order into a new object uses up the file exactly and gives the same open class, rules, tags, constants, ambiguity classes, patterns and discards, the
same dimensions and the same transition probabilities to the last bit; an emission probability is the same if the tag is in the ambiguity class, and
is the constant `ZERO` otherwise. -/
theorem C29_hmm (pf : PatternFormat P) (big big' : Bool) (zeroBits : Nat) (p0 : P) (x : Hmm P) (hv : x.data.Valid)
    (ha : ∀ i j, x.a i j < 2 ^ 64) (hb : ∀ i j, x.b i j < 2 ^ 64) (bs : Bytes) (h : x.write pf big = some bs) :
    ∃ y, Hmm.read pf big' zeroBits (Data.new p0) bs = some (y, []) ∧ y.data = x.data ∧ y.n = x.n ∧ y.m = x.m ∧
      (∀ i j, i < x.n → j < x.n → y.a i j = x.a i j) ∧
      (∀ i j, i < x.n → j < x.m → y.b i j = if i ∈ (x.data.output.element[j]?).getD [] then x.b i j else zeroBits) := by
  refine ⟨_, hmm_read pf big big' zeroBits p0 x hv ha hb bs h, rfl, rfl, rfl, ?_, ?_⟩
  · intro i j hi hj
    simp only [foldl_put, mem_pairs]
    rw [if_pos ⟨hi, hj⟩]
  · intro i j hi hj
    simp only [foldl_put, List.mem_filter, mem_pairs, useful, List.contains_iff_mem]
    by_cases hm : i ∈ (x.data.output.element[j]?).getD []
    · rw [if_pos ⟨⟨hi, hj⟩, hm⟩, if_pos hm]
    · rw [if_neg (fun h => hm h.2), if_neg hm]

theorem all_congr {α : Type} {f g : α → Wr} (l : List α) (h : ∀ x ∈ l, f x = g x) : Wr.all f l = Wr.all g l := by
  induction l with
  | nil => rfl
  | cons x l ih =>
    unfold Wr.all
    rw [h x (List.mem_cons_self ..), ih (fun y hy => h y (List.mem_cons_of_mem _ hy))]

/-- **C29 (HMM, again).**  Writing what was read gives the same file, byte for byte. -/
theorem C29_hmm_again (pf : PatternFormat P) (big big' big'' : Bool) (zeroBits : Nat) (p0 : P) (x : Hmm P) (hv : x.data.Valid)
    (ha : ∀ i j, x.a i j < 2 ^ 64) (hb : ∀ i j, x.b i j < 2 ^ 64) (bs : Bytes) (h : x.write pf big = some bs) (y : Hmm P) (rest : Bytes)
    (hy : Hmm.read pf big' zeroBits (Data.new p0) bs = some (y, rest)) : y.write pf big'' = some bs := by
  obtain ⟨z, hz, hd, hn, hm, hA, hB⟩ := C29_hmm pf big big' zeroBits p0 x hv ha hb bs h
  rw [hz] at hy
  cases hy
  rw [← h]
  unfold Hmm.write
  rw [hd, hn, hm]
  have e1 : Wr.all (fun p => some (doubleWrite big'' (y.a p.1 p.2))) (pairs x.n x.n)
      = Wr.all (fun p => some (doubleWrite big (x.a p.1 p.2))) (pairs x.n x.n) := by
    apply all_congr
    intro p hp
    rw [mem_pairs] at hp
    rw [doubleWrite_eq, doubleWrite_eq, hA p.1 p.2 hp.1 hp.2]
  have e2 : Wr.all (fun p => Wr.seq (mbWrite p.1) (Wr.seq (mbWrite p.2) (some (doubleWrite big'' (y.b p.1 p.2)))))
        ((pairs x.n x.m).filter (useful x.data.output))
      = Wr.all (fun p => Wr.seq (mbWrite p.1) (Wr.seq (mbWrite p.2) (some (doubleWrite big (x.b p.1 p.2)))))
        ((pairs x.n x.m).filter (useful x.data.output)) := by
    apply all_congr
    intro p hp
    rw [List.mem_filter, mem_pairs] at hp
    rw [doubleWrite_eq, doubleWrite_eq, hB p.1 p.2 hp.1.1 hp.1.2, if_pos (by simpa [useful, List.contains_iff_mem] using hp.2)]
  rw [e1, e2]

/-- **C29 (LSW).**  The same for the light sliding-window tagger: a cell is the same if it is greater than `ZERO`, and 0.0 otherwise. -/
theorem C29_lsw (pf : PatternFormat P) (big big' : Bool) (pos : Nat → Bool) (p0 : P) (x : Lsw P) (hv : x.data.Valid)
    (hd : ∀ i j k, x.d i j k < 2 ^ 64) (bs : Bytes) (h : x.write pf big pos = some bs) :
    ∃ y, Lsw.read pf big' (Data.new p0) bs = some (y, []) ∧ y.data = x.data ∧ y.n = x.n ∧
      (∀ i j k, i < x.n → j < x.n → k < x.n → y.d i j k = if pos (x.d i j k) = true then x.d i j k else 0) := by
  unfold Lsw.write at h
  obtain ⟨b1, r1, h1, g1, rfl⟩ := seq_some h
  obtain ⟨b2, r2, h2, g2, rfl⟩ := seq_some g1
  obtain ⟨b5, r5, h5, g5, rfl⟩ := seq_some g2
  obtain ⟨b6, r6, h6, g6, rfl⟩ := seq_some g5
  obtain ⟨b7, r7, h7, g7, rfl⟩ := seq_some g6
  cases h7
  have hb6 := Reads.times (f := fun (t : Nat × Nat × Nat) => Wr.seq (mbWrite t.1) (Wr.seq (mbWrite t.2.1) (Wr.seq (mbWrite t.2.2)
      (some (doubleWrite big (x.d t.1 t.2.1 t.2.2))))))
    (step := fun (b : Cube) => Rd.bind mbRead (fun i => Rd.bind mbRead (fun j => Rd.bind mbRead (fun k =>
      Rd.bind (doubleRead big') (fun v => Rd.pure (b.put i j k v))))))
    (g := fun (m : Cube) p => m.put p.1 p.2.1 p.2.2 (x.d p.1 p.2.1 p.2.2)) ((triples x.n).filter (fun t => pos (x.d t.1 t.2.1 t.2.2)))
    (fun _ _ _ => 0)
    (fun s p _ => Reads.seq (reads_mb p.1) (Reads.seq (reads_mb p.2.1) (Reads.seq (reads_mb p.2.2)
      ((reads_double big big' _ (hd p.1 p.2.1 p.2.2)).map (fun v => s.put p.1 p.2.1 p.2.2 v)))))
  have hr : Lsw.read pf big' (Data.new p0) (b1 ++ (b2 ++ (b5 ++ (b6 ++ (pf.write x.data.plist ++ r7))))) = some (⟨x.data, x.n,
      ((triples x.n).filter (fun t => pos (x.d t.1 t.2.1 t.2.2))).foldl (fun (m : Cube) p => m.put p.1 p.2.1 p.2.2 (x.d p.1 p.2.1 p.2.2))
        (fun _ _ _ => 0)⟩, []) := by
    unfold Lsw.read
    rw [bind_some (reads_data x.data p0 hv b1 h1 _), bind_some (reads_mb _ b2 h2 _), bind_some (reads_mb _ b5 h5 _), bind_some (hb6 b6 h6 _),
      bind_some (pf.roundtrip _ _), bind_some (discard_read _ _ g7)]
    rfl
  refine ⟨_, hr, rfl, rfl, ?_⟩
  intro i j k hi hj hk
  simp only [foldl_put3, List.mem_filter, mem_triples]
  by_cases hp : pos (x.d i j k) = true
  · rw [if_pos ⟨⟨hi, hj, hk⟩, hp⟩, if_pos hp]
  · rw [if_neg (fun h => hp h.2), if_neg hp]

/-! ### When the file can be written -/

/-- The file can hold this number: less than 2³⁰. -/
def Fits (n : Nat) : Prop := n < 2 ^ 30

instance (n : Nat) : Decidable (Fits n) := inferInstanceAs (Decidable (_ < _))

theorem fits_iff (n : Nat) : Fits n ↔ ∃ bs, mbWrite n = some bs := by
  unfold Fits mbWrite
  constructor
  · intro h
    split
    · exact ⟨_, rfl⟩
    · split
      · exact ⟨_, rfl⟩
      · split
        · exact ⟨_, rfl⟩
        · exact ⟨_, rfl⟩
  · rintro ⟨bs, h⟩
    split at h
    · omega
    · split at h
      · omega
      · split at h
        · omega
        · split at h
          · omega
          · cases h

def Writes (w : Wr) : Prop := ∃ bs, w = some bs

theorem Writes.seq {a b : Wr} (ha : Writes a) (hb : Writes b) : Writes (Wr.seq a b) := by
  obtain ⟨x, rfl⟩ := ha
  obtain ⟨y, rfl⟩ := hb
  exact ⟨_, rfl⟩

theorem Writes.all {α : Type} {f : α → Wr} (l : List α) (h : ∀ x ∈ l, Writes (f x)) : Writes (Wr.all f l) := by
  induction l with
  | nil => exact ⟨_, rfl⟩
  | cons x l ih => exact Writes.seq (h x (List.mem_cons_self ..)) (ih (fun y hy => h y (List.mem_cons_of_mem _ hy)))

theorem Writes.mb {n : Nat} (h : Fits n) : Writes (mbWrite n) := (fits_iff n).1 h

def FitsStr (s : UStr) : Prop := Fits s.length ∧ ∀ c ∈ s, Fits c

theorem Writes.str {s : UStr} (h : FitsStr s) : Writes (strWrite s) := Writes.seq (.mb h.1) (Writes.all _ (fun c hc => .mb (h.2 c hc)))

theorem Writes.opens (val : Nat) (l : Tags) (h1 : ∀ x ∈ l, val ≤ x) (h2 : Sorted l) (h3 : ∀ x ∈ l, Fits x) : Writes (openWrite val l) := by
  induction l generalizing val with
  | nil => exact ⟨_, rfl⟩
  | cons x l ih =>
    unfold openWrite
    rw [if_pos (h1 x (List.mem_cons_self ..))]
    refine Writes.seq (.mb ?_) (ih x (fun y hy => Nat.le_of_lt ((List.pairwise_cons.1 h2).1 y hy)) (List.pairwise_cons.1 h2).2
      (fun y hy => h3 y (List.mem_cons_of_mem _ hy)))
    have := h3 x (List.mem_cons_self ..)
    unfold Fits at *
    omega

/-- Every number, every length and every unit of a string is below 2³⁰. -/
structure Data.Small (d : Data P) : Prop where
  openClass : Fits d.openClass.length ∧ ∀ x ∈ d.openClass, Fits x
  forbid : Fits d.forbid.length ∧ ∀ r ∈ d.forbid, Fits r.1 ∧ Fits r.2
  arrayTags : Fits d.arrayTags.length ∧ ∀ s ∈ d.arrayTags, FitsStr s
  tagIndex : Fits d.tagIndex.length ∧ ∀ p ∈ d.tagIndex, FitsStr p.1 ∧ Fits p.2
  enforce : Fits d.enforce.length ∧ ∀ r ∈ d.enforce, Fits r.1 ∧ Fits r.2.length ∧ ∀ j ∈ r.2, Fits j
  prefer : Fits d.prefer.length ∧ ∀ s ∈ d.prefer, FitsStr s
  constants : Fits d.constants.length ∧ ∀ p ∈ d.constants, FitsStr p.1 ∧ Fits p.2
  output : Fits d.output.element.length ∧ ∀ c ∈ d.output.element, Fits c.length ∧ ∀ t ∈ c, Fits t
  discard : Fits d.discard.length ∧ ∀ s ∈ d.discard, FitsStr s

theorem Writes.data (d : Data P) (h : d.Small) (hv : d.Valid) : Writes d.write := by
  unfold Data.write mapWrite collWrite
  refine .seq (.seq (.mb h.openClass.1) (.opens 0 _ (fun _ _ => Nat.zero_le _) hv.openClass h.openClass.2)) ?_
  refine .seq (.seq (.mb h.forbid.1) (.all _ (fun r hr => .seq (.mb (h.forbid.2 r hr).1) (.mb (h.forbid.2 r hr).2)))) ?_
  refine .seq (.seq (.mb h.arrayTags.1) (.all _ (fun s hs => .str (h.arrayTags.2 s hs)))) ?_
  refine .seq (.seq (.mb h.tagIndex.1) (.all _ (fun p hp => .seq (.str (h.tagIndex.2 p hp).1) (.mb (h.tagIndex.2 p hp).2)))) ?_
  refine .seq (.seq (.mb h.enforce.1) (.all _ (fun r hr => .seq (.mb (h.enforce.2 r hr).1)
    (.seq (.mb (h.enforce.2 r hr).2.1) (.all _ (fun j hj => .mb ((h.enforce.2 r hr).2.2 j hj))))))) ?_
  refine .seq (.seq (.mb h.prefer.1) (.all _ (fun s hs => .str (h.prefer.2 s hs)))) ?_
  refine .seq (.seq (.mb h.constants.1) (.all _ (fun p hp => .seq (.str (h.constants.2 p hp).1) (.mb (h.constants.2 p hp).2)))) ?_
  exact .seq (.mb h.output.1) (.all _ (fun c hc => .seq (.mb (h.output.2 c hc).1) (.all _ (fun t ht => .mb ((h.output.2 c hc).2 t ht)))))

theorem Writes.discards (l : List UStr) (h : Fits l.length ∧ ∀ s ∈ l, FitsStr s) : Writes (discardWrite l) := by
  unfold discardWrite
  split
  · exact ⟨_, rfl⟩
  · exact .seq (.mb h.1) (.all _ (fun s hs => .str (h.2 s hs)))

/-- **C29 (a file is written).**  If every number to be written is below 2³⁰ and the matrices have fewer than 2³⁰ entries, the file is written. -/
theorem C29_hmm_writes (pf : PatternFormat P) (big : Bool) (x : Hmm P) (hv : x.data.Valid) (hs : x.data.Small) (h1 : Fits x.n) (h2 : Fits x.m)
    (h3 : Fits ((pairs x.n x.m).filter (useful x.data.output)).length) : ∃ bs, x.write pf big = some bs := by
  unfold Hmm.write
  have hp : ∀ p ∈ (pairs x.n x.m).filter (useful x.data.output), Fits p.1 ∧ Fits p.2 := by
    intro p hp
    rw [List.mem_filter, mem_pairs] at hp
    unfold Fits at *
    omega
  exact Writes.seq (.data _ hs hv) <| .seq (.mb h1) <| .seq (.mb h2) <| .seq (.all _ (fun _ _ => ⟨_, rfl⟩)) <| .seq (.mb h3) <|
    .seq (.all _ (fun p hm => .seq (.mb (hp p hm).1) (.seq (.mb (hp p hm).2) ⟨_, rfl⟩))) <| .seq ⟨_, rfl⟩ (.discards _ hs.discard)

/-- The same for LSW. -/
theorem C29_lsw_writes (pf : PatternFormat P) (big : Bool) (pos : Nat → Bool) (x : Lsw P) (hv : x.data.Valid) (hs : x.data.Small) (h1 : Fits x.n)
    (h3 : Fits ((triples x.n).filter (fun t => pos (x.d t.1 t.2.1 t.2.2))).length) : ∃ bs, x.write pf big pos = some bs := by
  unfold Lsw.write
  have hp : ∀ p ∈ (triples x.n).filter (fun t => pos (x.d t.1 t.2.1 t.2.2)), Fits p.1 ∧ Fits p.2.1 ∧ Fits p.2.2 := by
    intro p hp
    rw [List.mem_filter, mem_triples] at hp
    unfold Fits at *
    omega
  exact Writes.seq (.data _ hs hv) <| .seq (.mb h1) <| .seq (.mb h3) <|
    .seq (.all _ (fun p hm => .seq (.mb (hp p hm).1) (.seq (.mb (hp p hm).2.1) (.seq (.mb (hp p hm).2.2) ⟨_, rfl⟩)))) <|
    .seq ⟨_, rfl⟩ (.discards _ hs.discard)

/-! ### What a user may not rely on -/

/-- The data of a tagger definition reach the tagger through `TaggerData::copy` (hmm.cc:70-73, lswpost.cc:65-68), which forgets the discards: whatever is
trained from a definition with discards, the file read back has none. -/
theorem C29_training_discard_violation (pf : PatternFormat P) (big big' : Bool) (zeroBits : Nat) (p0 : P) (o : Data P) (ho : o.Valid) (n m : Nat)
    (a b : Matrix) (ha : ∀ i j, a i j < 2 ^ 64) (hb : ∀ i j, b i j < 2 ^ 64) (bs : Bytes)
    (h : (Hmm.mk ((Data.new p0).copy o) n m a b).write pf big = some bs) :
    ∃ y, Hmm.read pf big' zeroBits (Data.new p0) bs = some (y, []) ∧ y.data = { o with discard := [] } := by
  have hv : ((Data.new p0).copy o).Valid := ⟨ho.openClass, ho.tagIndex, ho.constants, ho.output⟩
  obtain ⟨y, hy, hd, _⟩ := C29_hmm pf big big' zeroBits p0 ⟨(Data.new p0).copy o, n, m, a, b⟩ hv ha hb bs h
  exact ⟨y, hy, hd⟩

/-- `read` does not begin with an empty object: what was there before stays.  Reading the same file twice into one object doubles the rules. -/
theorem C29_read_twice_violation : ∃ (pf : PatternFormat Unit) (x : Hmm Unit) (bs : Bytes) (y z : Hmm Unit), x.data.Valid ∧ x.write pf false = some bs ∧
    Hmm.read pf false 0 (Data.new ()) bs = some (y, []) ∧ Hmm.read pf false 0 y.data bs = some (z, []) ∧
    y.data.forbid = [(0, 1)] ∧ z.data.forbid = [(0, 1), (0, 1)] := by
  refine ⟨⟨fun _ => [], fun bs => some ((), bs), fun _ _ => rfl⟩, ⟨⟨[], [(0, 1)], [], [], [], [], [], {}, (), []⟩, 0, 0, fun _ _ => 0, fun _ _ => 0⟩,
    [0, 1, 0, 1, 0, 0, 0, 0, 0, 0, 0, 0, 0], _, _, ⟨by simp [Sorted], by simp, by simp, [], by simp, rfl⟩, rfl, rfl, rfl, rfl, rfl⟩

/-- The end of the data is the end of the file: two taggers without discards in one file cannot be read one after the other, since the second is taken for
the discards of the first. -/
theorem C29_concatenation_violation : ∃ (pf : PatternFormat Unit) (x : Hmm Unit) (bs : Bytes), x.data.Valid ∧ x.write pf false = some bs ∧
    ¬ ∃ y, Hmm.read pf false 0 (Data.new ()) (bs ++ bs) = some (y, bs) := by
  refine ⟨⟨fun _ => [], fun bs => some ((), bs), fun _ _ => rfl⟩, ⟨⟨[], [], [], [], [], [], [], {}, (), []⟩, 0, 0, fun _ _ => 0, fun _ _ => 0⟩,
    [0, 0, 0, 0, 0, 0, 0, 0, 0, 0, 0], ⟨by simp [Sorted], by simp, by simp, [], by simp, rfl⟩, rfl, ?_⟩
  rintro ⟨y, hy⟩
  have h2 : ((Hmm.read (⟨fun _ => [], fun bs => some ((), bs), fun _ _ => rfl⟩ : PatternFormat Unit) false 0 (Data.new ())
    ([0, 0, 0, 0, 0, 0, 0, 0, 0, 0, 0] ++ [0, 0, 0, 0, 0, 0, 0, 0, 0, 0, 0])).map (·.2)) = some [0, 0, 0, 0, 0, 0, 0, 0, 0, 0] := rfl
  rw [hy] at h2
  cases h2

/-! ### A case -/

/-- a data set with rules, two tags, three classes and a discard -/
def sample : Hmm Nat :=
  ⟨⟨[0, 2], [(0, 1), (1, 1)], [([97], 0), ([97, 98], 1), ([98], 2)], [[97], [98], [97, 98]], [(1, [0, 2])], [[99]], [([107], 300)],
    Coll.ofList [[0, 2], [0], [1], [2]], 7, [[100, 0x4000]]⟩, 3, 4, fun i j => i + 2 ^ 60 * j, fun i j => 5 + i + j⟩

theorem sample_valid : sample.data.Valid :=
  ⟨by decide +kernel, by decide +kernel, by decide +kernel, [[0, 2], [0], [1], [2]], by decide +kernel, rfl⟩

/-- a pattern list of one byte -/
def oneByte : PatternFormat Nat := ⟨fun p => [p], fun bs => match bs with | [] => none | b :: r => some (b, r), fun _ _ => rfl⟩

/-- the whole file; a value in no class comes back as `ZERO` (here 99) -/
example : (sample.write oneByte false).bind (fun bs => (Hmm.read oneByte true 99 (Data.new 0) bs).map
    (fun p => (p.1.data.forbid, [p.1.a 2 1, p.1.b 2 0, p.1.b 1 0], p.1.data.discard, p.2)))
    = some ([(0, 1), (1, 1)], [2 + 2 ^ 60, 7, 99], [[100, 0x4000]], []) := by decide +kernel

end Verif.Serial
