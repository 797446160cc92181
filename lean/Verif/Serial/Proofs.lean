import Verif.Serial.File
/-!
# Lemmas on writing and reading
-/
namespace Verif.Serial
open Verif.Tagger (Tags Coll sinsert Sorted)

/-- The reader, on what was written followed by anything, gives `a` and leaves what follows. -/
def Reads {α : Type} (w : Wr) (r : Rd α) (a : α) : Prop := ∀ bs, w = some bs → ∀ rest, r (bs ++ rest) = some (a, rest)

variable {α β σ P : Type}

theorem Reads.nil (a : α) : Reads (some []) (Rd.pure a) a := by
  intro bs h rest
  cases h
  rfl

theorem Reads.seq {w1 w2 : Wr} {r : Rd α} {f : α → Rd β} {a : α} {b : β} (h1 : Reads w1 r a) (h2 : Reads w2 (f a) b) :
    Reads (Wr.seq w1 w2) (Rd.bind r f) b := by
  intro bs h rest
  cases e1 : w1 with
  | none => rw [e1] at h; cases h
  | some x =>
    cases e2 : w2 with
    | none => rw [e1, e2] at h; cases h
    | some y =>
      rw [e1, e2] at h
      cases h
      unfold Rd.bind
      rw [List.append_assoc, h1 x e1]
      exact h2 y e2 rest

theorem Reads.map {w : Wr} {r : Rd α} {a : α} (h1 : Reads w r a) (f : α → β) :
    Reads w (Rd.bind r (fun x => Rd.pure (f x))) (f a) := by
  intro bs h rest
  unfold Rd.bind
  rw [h1 bs h]
  rfl

theorem Reads.times {f : α → Wr} {step : σ → Rd σ} {g : σ → α → σ} (l : List α) (s : σ)
    (h : ∀ s, ∀ x ∈ l, Reads (f x) (step s) (g s x)) : Reads (Wr.all f l) (Rd.times step l.length s) (l.foldl g s) := by
  induction l generalizing s with
  | nil => exact Reads.nil s
  | cons x l ih =>
    exact Reads.seq (h s x (List.mem_cons_self ..)) (ih _ (fun s y hy => h s y (List.mem_cons_of_mem _ hy)))

/-! ### lttoolbox -/

theorem reads_mb (n : Nat) : Reads (mbWrite n) mbRead n := by
  intro bs h rest
  unfold mbWrite at h
  split at h
  · cases h
    simp only [List.cons_append, List.nil_append, mbRead]
    rw [if_pos (by omega)]
  · split at h
    · cases h
      simp only [List.cons_append, List.nil_append, mbRead]
      rw [if_neg (by omega), if_pos (by omega)]
      congr 2
      omega
    · split at h
      · cases h
        simp only [List.cons_append, List.nil_append, mbRead]
        rw [if_neg (by omega), if_neg (by omega), if_pos (by omega)]
        congr 2
        omega
      · split at h
        · cases h
          simp only [List.cons_append, List.nil_append, mbRead]
          rw [if_neg (by omega), if_neg (by omega), if_neg (by omega)]
          congr 2
          omega
        · cases h

theorem reads_count {f : α → Wr} {step : σ → Rd σ} {g : σ → α → σ} (l : List α) (s : σ)
    (h : ∀ s, ∀ x ∈ l, Reads (f x) (step s) (g s x)) :
    Reads (Wr.seq (mbWrite l.length) (Wr.all f l)) (Rd.bind mbRead (fun n => Rd.times step n s)) (l.foldl g s) :=
  Reads.seq (reads_mb _) (Reads.times l s h)

theorem foldl_push (l s : List α) : l.foldl (fun s x => s ++ [x]) s = s ++ l := by
  induction l generalizing s with
  | nil => simp
  | cons x l ih => rw [List.foldl_cons, ih]; simp

theorem reads_str (s : UStr) : Reads (strWrite s) strRead s := by
  have h := reads_count (f := mbWrite) (step := fun s => Rd.bind mbRead (fun c => Rd.pure (s ++ [c]))) (g := fun s x => s ++ [x]) s []
    (fun s x _ => (reads_mb x).map (fun c => s ++ [c]))
  rw [foldl_push] at h
  exact h

theorem reads_strs (l : List UStr) : Reads (Wr.seq (mbWrite l.length) (Wr.all strWrite l)) (strsRead []) l := by
  have h := reads_count (f := strWrite) (step := fun s => Rd.bind strRead (fun c => Rd.pure (s ++ [c]))) (g := fun s x => s ++ [x]) l []
    (fun s x _ => (reads_str x).map (fun c => s ++ [c]))
  rw [foldl_push] at h
  exact h

/-! ### Doubles -/

theorem digits_sum (v n : Nat) :
    ((((List.range n).map (fun i => v / 256 ^ i % 256)).zipIdx).map (fun p => p.1 * 256 ^ p.2)).sum = v % 256 ^ n := by
  induction n with
  | zero => simp [Nat.mod_one]
  | succ n ih =>
    rw [List.range_succ, List.map_append, List.zipIdx_append, List.map_append, List.sum_append, ih, Nat.mod_pow_succ]
    simp [Nat.mul_comm]

theorem doubleWrite_eq (big : Bool) (v : Nat) : doubleWrite big v = (doubleBytes v).reverse := by
  cases big <;> rfl

theorem doubleRead_eq (big : Bool) (m rest : Bytes) (h : m.length = 8) :
    doubleRead big (m ++ rest) = some (fromMemory false m.reverse, rest) := by
  unfold doubleRead
  rw [if_neg (by rw [List.length_append]; omega)]
  rw [List.take_append_of_le_length (by omega), List.take_of_length_le (by omega), List.drop_append_of_le_length (by omega),
    List.drop_of_length_le (by omega)]
  cases big <;> simp [fromMemory]

theorem reads_double (big big' : Bool) (v : Nat) (h : v < 2 ^ 64) : Reads (some (doubleWrite big v)) (doubleRead big') v := by
  intro bs hb rest
  cases hb
  rw [doubleWrite_eq, doubleRead_eq _ _ _ (by simp [doubleBytes]), List.reverse_reverse]
  unfold fromMemory doubleBytes
  rw [if_neg (by decide), digits_sum, Nat.mod_eq_of_lt (by rw [show (256 ^ 8 : Nat) = 2 ^ 64 from by decide]; exact h)]

/-! ### Sets and maps -/

theorem reads_open (val : Nat) (l : Tags) (s : Tags) (hs : ∀ x ∈ s, x ≤ val) (hl : ∀ x ∈ l, val ≤ x) (h : Sorted (s ++ l)) :
    Reads (openWrite val l) (Rd.times (fun (p : Nat × Tags) => Rd.bind mbRead (fun d => Rd.pure (p.1 + d, sinsert (p.1 + d) p.2))) l.length (val, s))
      (l.foldl (fun _ x => x) val, s ++ l) := by
  induction l generalizing val s with
  | nil => rw [List.append_nil]; exact Reads.nil _
  | cons x l ih =>
    have hv : val ≤ x := hl x (List.mem_cons_self ..)
    have hsx : ∀ y ∈ s, y < x := fun y hy => (List.pairwise_append.1 h).2.2 y hy x (List.mem_cons_self ..)
    have hxl : ∀ y ∈ l, x < y := (List.pairwise_cons.1 (List.pairwise_append.1 h).2.1).1
    unfold openWrite
    rw [if_pos hv]
    refine Reads.seq (a := (x, s ++ [x])) ?_ ?_
    · have hm := (reads_mb (x - val)).map (fun d => (val + d, sinsert (val + d) s))
      have he : val + (x - val) = x := by omega
      simp only [he] at hm
      rw [Tagger.Coll.sinsert_append x s hsx] at hm
      exact hm
    · have := ih x (s ++ [x]) (by
        intro y hy
        rcases List.mem_append.1 hy with hy | hy
        · exact Nat.le_of_lt (hsx y hy)
        · exact Nat.le_of_eq (List.mem_singleton.1 hy)) (fun y hy => Nat.le_of_lt (hxl y hy)) (by simpa using h)
      rw [List.append_assoc] at this
      exact this

theorem lt_asymm (a b : UStr) (h : a < b) : ¬ b < a := by
  intro h'
  exact List.lt_irrefl a (List.lt_trans h h')

theorem minsert_append (k : UStr) (v : Nat) (m : List (UStr × Nat)) (h : ∀ p ∈ m, p.1 < k) : minsert k v m = m ++ [(k, v)] := by
  induction m with
  | nil => rfl
  | cons p r ih =>
    obtain ⟨k', v'⟩ := p
    have hk : k' < k := h (k', v') (List.mem_cons_self ..)
    unfold minsert
    rw [if_neg (lt_asymm _ _ hk), if_pos hk, ih (fun p hp => h p (List.mem_cons_of_mem _ hp))]
    rfl

theorem foldl_minsert (l m : List (UStr × Nat)) (h : (m ++ l).Pairwise (fun p q => p.1 < q.1)) :
    l.foldl (fun m p => minsert p.1 p.2 m) m = m ++ l := by
  induction l generalizing m with
  | nil => simp
  | cons p l ih =>
    have hp : ∀ q ∈ m, q.1 < p.1 := fun q hq => (List.pairwise_append.1 h).2.2 q hq p (List.mem_cons_self ..)
    rw [List.foldl_cons, minsert_append _ _ _ hp, ih _ (by simpa using h)]
    simp

theorem reads_map (m : List (UStr × Nat)) (h : m.Pairwise (fun p q => p.1 < q.1)) : Reads (mapWrite m) (mapRead []) m := by
  have := reads_count (f := fun (p : UStr × Nat) => Wr.seq (strWrite p.1) (mbWrite p.2))
    (step := fun m => Rd.bind strRead (fun k => Rd.bind mbRead (fun v => Rd.pure (minsert k v m))))
    (g := fun m p => minsert p.1 p.2 m) m []
    (fun s p _ => Reads.seq (reads_str p.1) ((reads_mb p.2).map (fun v => minsert p.1 v s)))
  rw [foldl_minsert _ _ (by simpa using h)] at this
  exact this

theorem foldl_sinsert (l s : Tags) (h : Sorted (s ++ l)) : l.foldl (fun s x => sinsert x s) s = s ++ l := by
  induction l generalizing s with
  | nil => simp
  | cons x l ih =>
    have hx : ∀ y ∈ s, y < x := fun y hy => (List.pairwise_append.1 h).2.2 y hy x (List.mem_cons_self ..)
    rw [List.foldl_cons, Tagger.Coll.sinsert_append x s hx, ih _ (by simpa using h)]
    simp

theorem reads_set (l : Tags) (h : Sorted l) :
    Reads (Wr.seq (mbWrite l.length) (Wr.all mbWrite l))
      (Rd.bind mbRead (fun k => Rd.times (fun s => Rd.bind mbRead (fun x => Rd.pure (sinsert x s))) k [])) l := by
  have := reads_count (f := mbWrite) (step := fun s => Rd.bind mbRead (fun x => Rd.pure (sinsert x s))) (g := fun s x => sinsert x s) l []
    (fun s x _ => (reads_mb x).map (fun x => sinsert x s))
  rw [foldl_sinsert _ _ (by simpa using h)] at this
  exact this

theorem bind_assoc {γ : Type} (r : Rd α) (f : α → Rd β) (g : β → Rd γ) : Rd.bind (Rd.bind r f) g = Rd.bind r (fun x => Rd.bind (f x) g) := by
  funext bs
  unfold Rd.bind
  cases r bs <;> rfl

theorem reads_coll (ts : List Tags) (h : ∀ t ∈ ts, Sorted t) : Reads (collWrite (Coll.ofList ts)) (collRead {}) (Coll.ofList ts) := by
  have hm : ∀ t ∈ (Coll.ofList ts).element, Sorted t := by
    intro t ht
    have := (Tagger.Coll.mem_foldl Tagger.Coll.WF.empty ts t).1 ht
    exact h t (by simpa using this)
  have := reads_count (f := fun (s : Tags) => Wr.seq (mbWrite s.length) (Wr.all mbWrite s))
    (step := fun (c : Coll) => Rd.bind mbRead (fun k => Rd.bind (Rd.times (fun s => Rd.bind mbRead (fun x => Rd.pure (sinsert x s))) k [])
      (fun s => Rd.pure (c.add s).1)))
    (g := fun c s => (c.add s).1) (Coll.ofList ts).element {}
    (fun c s hs => by
      have := (reads_set s (hm s hs)).map (fun s => (c.add s).1)
      rw [bind_assoc] at this
      exact this)
  have he := Tagger.Coll.ofList_element ts
  have he' : List.foldl (fun c s => (Coll.add c s).1) {} (Coll.ofList ts).element = Coll.ofList ts := he
  rw [he'] at this
  exact this

/-! ### Tagger data -/

/-- What the C++ types guarantee: sets and maps list their keys in order, the table of classes was filled by insertions. -/
structure Data.Valid (d : Data P) : Prop where
  openClass : Sorted d.openClass
  tagIndex : d.tagIndex.Pairwise (fun p q => p.1 < q.1)
  constants : d.constants.Pairwise (fun p q => p.1 < q.1)
  output : ∃ ts, (∀ t ∈ ts, Sorted t) ∧ d.output = Coll.ofList ts

/-- A new object. -/
def Data.new (p : P) : Data P := ⟨[], [], [], [], [], [], [], {}, p, []⟩

theorem reads_data (d : Data P) (p : P) (h : d.Valid) : Reads d.write (Data.read (Data.new p)) { d with plist := p, discard := [] } := by
  obtain ⟨h1, h2, h3, ts, h4, h5⟩ := h
  unfold Data.write Data.read Data.new
  refine Reads.seq (a := d.openClass) ?_ ?_
  · refine Reads.seq (reads_mb _) ?_
    have := (reads_open 0 d.openClass [] (by simp) (by intro x _; exact Nat.zero_le x) (by simpa using h1)).map (fun p => p.2)
    exact this
  refine Reads.seq (a := d.forbid) ?_ ?_
  · have := reads_count (f := fun (r : Nat × Nat) => Wr.seq (mbWrite r.1) (mbWrite r.2))
      (step := fun l => Rd.bind mbRead (fun i => Rd.bind mbRead (fun j => Rd.pure (l ++ [(i, j)])))) (g := fun s x => s ++ [x]) d.forbid []
      (fun s x _ => Reads.seq (reads_mb x.1) ((reads_mb x.2).map (fun j => s ++ [(x.1, j)])))
    rw [foldl_push] at this
    exact this
  refine Reads.seq (a := d.arrayTags) (reads_strs _) ?_
  refine Reads.seq (a := d.tagIndex) (reads_map _ h2) ?_
  refine Reads.seq (a := d.enforce) ?_ ?_
  · have := reads_count (f := fun (r : Nat × List Nat) => Wr.seq (mbWrite r.1) (Wr.seq (mbWrite r.2.length) (Wr.all mbWrite r.2)))
      (step := fun l => Rd.bind mbRead (fun i => Rd.bind mbRead (fun k =>
        Rd.bind (Rd.times (fun js => Rd.bind mbRead (fun j => Rd.pure (js ++ [j]))) k []) (fun js => Rd.pure (l ++ [(i, js)])))))
      (g := fun s x => s ++ [x]) d.enforce []
      (fun s x _ => Reads.seq (reads_mb x.1) (by
        have hr := reads_count (f := mbWrite) (step := fun s => Rd.bind mbRead (fun c => Rd.pure (s ++ [c]))) (g := fun s x => s ++ [x]) x.2 []
          (fun s x _ => (reads_mb x).map (fun c => s ++ [c]))
        rw [foldl_push] at hr
        have hr := hr.map (fun js => s ++ [(x.1, js)])
        rw [bind_assoc] at hr
        exact hr))
    rw [foldl_push] at this
    exact this
  refine Reads.seq (a := d.prefer) (reads_strs _) ?_
  refine Reads.seq (a := d.constants) (reads_map _ h3) ?_
  have := (reads_coll ts h4).map (fun out => ({ d with output := out, plist := p, discard := [] } : Data P))
  rw [← h5] at this
  exact this

theorem discard_read (l : List UStr) (bs : Bytes) (h : discardWrite l = some bs) : discardRead bs = some (l, []) := by
  unfold discardWrite at h
  unfold discardRead
  split at h
  · rename_i hl
    cases h
    rw [hl]
    rfl
  · rename_i hl
    have := reads_strs l bs h []
    rw [List.append_nil] at this
    rw [if_neg ?_, this]
    rintro rfl
    -- the length is not nothing
    cases h1 : mbWrite l.length with
    | none => rw [h1] at h; cases h
    | some x =>
      rw [h1] at h
      cases h2 : Wr.all strWrite l with
      | none => rw [h2] at h; cases h
      | some y =>
        rw [h2] at h
        have hx : x = [] := by
          have := Option.some.inj h
          exact (List.append_eq_nil_iff.1 this).1
        subst hx
        unfold mbWrite at h1
        repeat' split at h1
        all_goals cases h1

/-! ### Matrices -/

theorem mem_pairs (n m : Nat) (p : Nat × Nat) : p ∈ pairs n m ↔ p.1 < n ∧ p.2 < m := by
  obtain ⟨i, j⟩ := p
  simp [pairs, List.mem_flatMap]

theorem mem_triples (n : Nat) (p : Nat × Nat × Nat) : p ∈ triples n ↔ p.1 < n ∧ p.2.1 < n ∧ p.2.2 < n := by
  obtain ⟨i, j, k⟩ := p
  simp only [triples, List.mem_flatMap, List.mem_map, List.mem_range]
  constructor
  · rintro ⟨a, ha, b, hb, c, hc, h⟩
    cases h
    exact ⟨ha, hb, hc⟩
  · rintro ⟨h1, h2, h3⟩
    exact ⟨i, h1, j, h2, k, h3, rfl⟩

theorem foldl_put (f : Nat → Nat → Nat) (l : List (Nat × Nat)) (m : Matrix) (i j : Nat) :
    (l.foldl (fun (m : Matrix) p => m.put p.1 p.2 (f p.1 p.2)) m) i j = if (i, j) ∈ l then f i j else m i j := by
  induction l generalizing m with
  | nil => simp
  | cons p l ih =>
    obtain ⟨i', j'⟩ := p
    rw [List.foldl_cons, ih]
    by_cases h : (i, j) ∈ l
    · rw [if_pos h, if_pos (List.mem_cons_of_mem _ h)]
    · rw [if_neg h]
      unfold Matrix.put
      by_cases h' : i = i' ∧ j = j'
      · rw [if_pos h', if_pos (by rw [h'.1, h'.2]; exact List.mem_cons_self ..)]
        rw [h'.1, h'.2]
      · rw [if_neg h', if_neg]
        intro hm
        rcases List.mem_cons.1 hm with hm | hm
        · cases hm; exact h' ⟨rfl, rfl⟩
        · exact h hm

theorem foldl_put3 (f : Nat → Nat → Nat → Nat) (l : List (Nat × Nat × Nat)) (m : Cube) (i j k : Nat) :
    (l.foldl (fun (m : Cube) p => m.put p.1 p.2.1 p.2.2 (f p.1 p.2.1 p.2.2)) m) i j k = if (i, j, k) ∈ l then f i j k else m i j k := by
  induction l generalizing m with
  | nil => simp
  | cons p l ih =>
    obtain ⟨i', j', k'⟩ := p
    rw [List.foldl_cons, ih]
    by_cases h : (i, j, k) ∈ l
    · rw [if_pos h, if_pos (List.mem_cons_of_mem _ h)]
    · rw [if_neg h]
      unfold Cube.put
      by_cases h' : i = i' ∧ j = j' ∧ k = k'
      · rw [if_pos h', if_pos (by rw [h'.1, h'.2.1, h'.2.2]; exact List.mem_cons_self ..)]
        rw [h'.1, h'.2.1, h'.2.2]
      · rw [if_neg h', if_neg]
        intro hm
        rcases List.mem_cons.1 hm with hm | hm
        · cases hm; exact h' ⟨rfl, rfl, rfl⟩
        · exact h hm

theorem reads_matrix (big big' : Bool) (f : Matrix) (l : List (Nat × Nat)) (m : Matrix) (h : ∀ p ∈ l, f p.1 p.2 < 2 ^ 64) :
    Reads (Wr.all (fun p => some (doubleWrite big (f p.1 p.2))) l) (matrixRead big' l m)
      (l.foldl (fun (m : Matrix) p => m.put p.1 p.2 (f p.1 p.2)) m) := by
  induction l generalizing m with
  | nil => exact Reads.nil _
  | cons p l ih =>
    exact Reads.seq (reads_double big big' _ (h p (List.mem_cons_self ..))) (ih _ (fun q hq => h q (List.mem_cons_of_mem _ hq)))

end Verif.Serial
