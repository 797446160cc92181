import Verif.Tagger.HmmSpec
import Verif.Tagger.ClassesProps
/-!
# C19 and C20: the HMM tagger writes most likely tags, each word once
-/
namespace Verif.Tagger
variable {W α : Type}

theorem Weight.refl [Weight W] (a : W) : Weight.le a a := (Weight.total a a).elim id id

section
variable [Weight W] (p : Params W) (k : Nat) (first : Bool) (pa : Nat → W) (pb : Nat → List Nat)

/-- the value tried for the pair `i`, `j` -/
def tryW (i j : Nat) : W := Weight.mul (Weight.mul (pa j) (p.A j i)) (p.B i k)

theorem relax_pos (i j : Nat) (ab : (Nat → W) × (Nat → List Nat)) (h : Weight.le (ab.1 i) (tryW p k pa i j)) :
    relax p k first pa pb i ab j =
      (upd ab.1 i (tryW p k pa i j), upd ab.2 i ((if first = true then ab.2 i else pb j) ++ [i])) := by
  unfold relax
  exact if_pos h

theorem relax_neg (i j : Nat) (ab : (Nat → W) × (Nat → List Nat))
    (h : ¬ Weight.le (ab.1 i) (tryW p k pa i j)) :
    relax p k first pa pb i ab j = ab := by
  unfold relax
  exact if_neg h

theorem relax_other (i j m : Nat) (hm : m ≠ i) (ab : (Nat → W) × (Nat → List Nat)) :
    (relax p k first pa pb i ab j).1 m = ab.1 m ∧ (relax p k first pa pb i ab j).2 m = ab.2 m := by
  by_cases h : Weight.le (ab.1 i) (tryW p k pa i j)
  · rw [relax_pos _ _ _ _ _ _ _ _ h]; simp [upd, hm]
  · rw [relax_neg _ _ _ _ _ _ _ _ h]; exact ⟨rfl, rfl⟩

theorem relaxes_other (i m : Nat) (hm : m ≠ i) (pre : List Nat) (ab : (Nat → W) × (Nat → List Nat)) :
    (pre.foldl (relax p k first pa pb i) ab).1 m = ab.1 m ∧
    (pre.foldl (relax p k first pa pb i) ab).2 m = ab.2 m := by
  induction pre generalizing ab with
  | nil => exact ⟨rfl, rfl⟩
  | cons j r ih =>
    rw [List.foldl_cons]
    obtain ⟨h1, h2⟩ := ih (relax p k first pa pb i ab j)
    obtain ⟨h3, h4⟩ := relax_other p k first pa pb i j m hm ab
    exact ⟨h1.trans h3, h2.trans h4⟩

/-- The entry of tag `i` after the inner loop over `pre`: a maximal candidate and its sequence. -/
def Good (pre : List Nat) (i : Nat) (v : W) (l : List Nat) : Prop :=
  ∃ j ∈ pre, v = tryW p k pa i j ∧ l = (if first = true then [] else pb j) ++ [i] ∧
    ∀ j' ∈ pre, Weight.le (tryW p k pa i j') v

theorem relaxes_later (hf : first = false) (i : Nat) (pre done : List Nat) (ab : (Nat → W) × (Nat → List Nat))
    (h : Good p k first pa pb done i (ab.1 i) (ab.2 i)) :
    Good p k first pa pb (done ++ pre) i ((pre.foldl (relax p k first pa pb i) ab).1 i)
      ((pre.foldl (relax p k first pa pb i) ab).2 i) := by
  induction pre generalizing ab done with
  | nil => simpa using h
  | cons j r ih =>
    rw [List.foldl_cons]
    have := ih (done ++ [j]) (relax p k first pa pb i ab j) (by
      obtain ⟨j0, hj0, hv, hl, hmax⟩ := h
      by_cases hle : Weight.le (ab.1 i) (tryW p k pa i j)
      · rw [relax_pos _ _ _ _ _ _ _ _ hle]
        refine ⟨j, by simp, by simp [upd], by simp [upd, hf], ?_⟩
        intro j' hj'
        simp only [upd, if_true]
        rcases List.mem_append.1 hj' with hj' | hj'
        · exact Weight.trans _ _ _ (hmax j' hj') hle
        · rw [List.mem_singleton.1 hj']; exact Weight.refl _
      · rw [relax_neg _ _ _ _ _ _ _ _ hle]
        refine ⟨j0, by simp [hj0], hv, hl, ?_⟩
        intro j' hj'
        rcases List.mem_append.1 hj' with hj' | hj'
        · exact hmax j' hj'
        · rw [List.mem_singleton.1 hj']
          exact (Weight.total _ _).resolve_left hle)
    simpa using this

theorem relaxes_first (i : Nat) (pre : List Nat) (ab : (Nat → W) × (Nat → List Nat))
    (hpre : pre ≠ []) (hf : first = true → pre.length = 1) (h1 : ab.1 i = Weight.zero) (h2 : ab.2 i = []) :
    Good p k first pa pb pre i ((pre.foldl (relax p k first pa pb i) ab).1 i)
      ((pre.foldl (relax p k first pa pb i) ab).2 i) := by
  cases pre with
  | nil => exact absurd rfl hpre
  | cons j r =>
    rw [List.foldl_cons]
    have hle : Weight.le (ab.1 i) (tryW p k pa i j) := by rw [h1]; exact Weight.zero_le _
    have hg : Good p k first pa pb [j] i ((relax p k first pa pb i ab j).1 i)
        ((relax p k first pa pb i ab j).2 i) := by
      rw [relax_pos _ _ _ _ _ _ _ _ hle]
      refine ⟨j, by simp, by simp [upd], by simp [upd, h2], ?_⟩
      intro j' hj'
      rw [List.mem_singleton.1 hj']
      simp only [upd, if_true]
      exact Weight.refl _
    cases hfirst : first with
    | false =>
      subst hfirst
      exact relaxes_later p k false pa pb rfl i r [j] _ hg
    | true =>
      subst hfirst
      have := hf rfl
      have hr : r = [] := by cases r with | nil => rfl | cons _ _ => simp at this
      subst hr
      simpa using hg

theorem induct_aux (pre : List Nat) (hpre : pre ≠ []) (hf : first = true → pre.length = 1) (tags : List Nat)
    (hn : tags.Nodup) (ab : (Nat → W) × (Nat → List Nat))
    (h : ∀ i ∈ tags, ab.1 i = Weight.zero ∧ ab.2 i = []) :
    let r := tags.foldl (fun ab i => pre.foldl (relax p k first pa pb i) ab) ab
    (∀ i ∈ tags, Good p k first pa pb pre i (r.1 i) (r.2 i)) ∧
    (∀ m, m ∉ tags → r.1 m = ab.1 m ∧ r.2 m = ab.2 m) := by
  induction tags generalizing ab with
  | nil => exact ⟨by simp, fun m _ => ⟨rfl, rfl⟩⟩
  | cons i r ih =>
    have hn' := List.nodup_cons.1 hn
    have := ih hn'.2 (pre.foldl (relax p k first pa pb i) ab) (by
      intro m hm
      have hne : m ≠ i := fun he => hn'.1 (he ▸ hm)
      obtain ⟨h1, h2⟩ := relaxes_other p k first pa pb i m hne pre ab
      obtain ⟨h3, h4⟩ := h m (List.mem_cons_of_mem _ hm)
      exact ⟨h1.trans h3, h2.trans h4⟩)
    simp only [List.foldl_cons] at this ⊢
    constructor
    · intro m hm
      rcases List.mem_cons.1 hm with rfl | hm
      · obtain ⟨h1, h2⟩ := this.2 m hn'.1
        rw [h1, h2]
        obtain ⟨h3, h4⟩ := h m (List.mem_cons_self ..)
        exact relaxes_first p k first pa pb m pre ab hpre hf h3 h4
      · exact this.1 m hm
    · intro m hm
      have hne : m ≠ i := fun he => hm (he ▸ List.mem_cons_self ..)
      obtain ⟨h1, h2⟩ := this.2 m (fun h => hm (List.mem_cons_of_mem _ h))
      obtain ⟨h3, h4⟩ := relaxes_other p k first pa pb i m hne pre ab
      exact ⟨h1.trans h3, h2.trans h4⟩

theorem induct_good (pre tags : List Nat) (hpre : pre ≠ []) (hf : first = true → pre.length = 1)
    (hn : tags.Nodup) :
    ∀ i ∈ tags, Good p k first pa pb pre i ((induct p k first pa pb tags pre).1 i)
      ((induct p k first pa pb tags pre).2 i) :=
  (induct_aux p k first pa pb pre hpre hf tags hn _ (fun _ _ => ⟨rfl, rfl⟩)).1
end

/-! ## choices and probabilities of a segment with one more word -/

theorem Choice.length_eq {seg : List (RItem α)} {ts : List Nat} (h : Choice seg ts) : ts.length = seg.length := by
  induction h with
  | nil => rfl
  | cons _ _ ih => simp [ih]

theorem Choice.snoc {seg : List (RItem α)} {ts : List Nat} (h : Choice seg ts) (w : RItem α) (i : Nat)
    (hi : i ∈ w.tags) : Choice (seg ++ [w]) (ts ++ [i]) := by
  induction h with
  | nil => exact .cons hi .nil
  | cons h1 _ ih => exact .cons h1 ih

theorem Choice.snoc_inv {seg : List (RItem α)} {w : RItem α} {ts : List Nat} (h : Choice (seg ++ [w]) ts) :
    ∃ ts0 i, ts = ts0 ++ [i] ∧ Choice seg ts0 ∧ i ∈ w.tags := by
  induction seg generalizing ts with
  | nil =>
    cases h with
    | cons h1 h2 =>
      cases h2
      exact ⟨[], _, rfl, .nil, h1⟩
  | cons x r ih =>
    cases h with
    | cons h1 h2 =>
      obtain ⟨ts0, i, rfl, hc, hi⟩ := ih h2
      exact ⟨_ :: ts0, i, rfl, .cons h1 hc, hi⟩

/-- the tag before position `ts.length` -/
def lastTag (start : Nat) (ts : List Nat) : Nat := ts.getLast?.getD start

theorem pathProb_snoc [Weight W] (p : Params W) (acc : W) (start t k : Nat) (l : List (Nat × Nat)) :
    pathProb p acc start (l ++ [(t, k)]) =
      Weight.mul (Weight.mul (pathProb p acc start l) (p.A (lastTag start (l.map (·.1))) t)) (p.B t k) := by
  induction l generalizing acc start with
  | nil => rfl
  | cons x r ih =>
    obtain ⟨t', k'⟩ := x
    simp only [List.cons_append, pathProb, ih, List.map_cons]
    congr 3
    cases r with
    | nil => rfl
    | cons y r => simp [lastTag, List.getLast?_cons]

theorem prob_snoc [Weight W] (p : Params W) (start : Nat) (seg : List (RItem α)) (w : RItem α) (ts : List Nat)
    (i : Nat) (h : Choice seg ts) :
    prob p start (seg ++ [w]) (ts ++ [i]) =
      Weight.mul (Weight.mul (prob p start seg ts) (p.A (lastTag start ts) i)) (p.B i w.cls) := by
  have hl := h.length_eq
  unfold prob
  rw [List.map_append, List.zip_append (by simpa using hl)]
  show pathProb p Weight.one start (ts.zip (seg.map (·.cls)) ++ [(i, w.cls)]) = _
  rw [pathProb_snoc]
  congr 4
  rw [List.map_fst_zip]
  simp [hl]

/-! ## the invariant of the loop -/

/-- The state after the words `seg` since the last unambiguous word, whose tag (or the end-of-sentence tag) is
`start`. -/
structure HInv [Weight W] (p : Params W) (s : HSt W α) (start : Nat) (seg : List (RItem α)) : Prop where
  wpend : s.wpend = seg.map (·.word)
  tagsNil : seg = [] → s.tags = [start]
  ne : s.tags ≠ []
  cover : ∀ ts, Choice seg ts → lastTag start ts ∈ s.tags
  opt : ∀ i ∈ s.tags, ∃ ts, Choice seg ts ∧ lastTag start ts = i ∧
    (seg ≠ [] → s.best (decide (seg.length % 2 = 1)) i = ts) ∧
    s.alpha (decide (seg.length % 2 = 1)) i = prob p start seg ts ∧
    ∀ ts', Choice seg ts' → lastTag start ts' = i → Weight.le (prob p start seg ts') (prob p start seg ts)

theorem lastTag_snoc (start : Nat) (ts : List Nat) (i : Nat) : lastTag start (ts ++ [i]) = i := by
  simp [lastTag]

theorem HInv.start [Weight W] (p : Params W) (s : HSt W α) (start : Nat) (h1 : s.wpend = [])
    (h2 : s.tags = [start]) (h3 : s.alpha false start = Weight.one) : HInv p s start [] := by
  refine ⟨by simpa using h1, fun _ => h2, by simp [h2], ?_, ?_⟩
  · intro ts h
    cases h
    simp [h2, lastTag]
  · intro i hi
    rw [h2] at hi
    rw [List.mem_singleton.1 hi]
    refine ⟨[], .nil, rfl, by simp, h3, ?_⟩
    intro ts' h _
    cases h
    exact Weight.refl _

/-- The rows after the two nested loops hold the best sequences for the segment extended by the word. -/
theorem induct_opt [Weight W] (p : Params W) (s : HSt W α) (start : Nat) (seg : List (RItem α)) (w : RItem α)
    (hs : HInv p s start seg) (hn : w.tags.Nodup) :
    let cur := decide ((seg.length + 1) % 2 = 1)
    let ab := induct p w.cls (decide (seg.length + 1 = 1)) (s.alpha (!cur)) (s.best (!cur)) w.tags s.tags
    ∀ i ∈ w.tags, ∃ ts, Choice (seg ++ [w]) ts ∧ lastTag start ts = i ∧ ab.2 i = ts ∧
      ab.1 i = prob p start (seg ++ [w]) ts ∧
      ∀ ts', Choice (seg ++ [w]) ts' → lastTag start ts' = i →
        Weight.le (prob p start (seg ++ [w]) ts') (prob p start (seg ++ [w]) ts) := by
  intro cur ab i hi
  have hrow : (!cur) = decide (seg.length % 2 = 1) := by
    simp only [cur]
    by_cases h : seg.length % 2 = 1
    · have : ¬ (seg.length + 1) % 2 = 1 := by omega
      simp [h, this]
    · have : (seg.length + 1) % 2 = 1 := by omega
      simp [h, this]
  have hfirst : decide (seg.length + 1 = 1) = true → s.tags.length = 1 := by
    intro h
    have h0 : seg = [] := List.length_eq_zero_iff.1 (by simpa using h)
    rw [hs.tagsNil h0]; rfl
  obtain ⟨j, hj, hv, hl, hmax⟩ := induct_good p w.cls (decide (seg.length + 1 = 1)) (s.alpha (!cur)) (s.best (!cur))
    s.tags w.tags hs.ne hfirst hn i hi
  obtain ⟨ts, hc, hlast, hb, ha, hopt⟩ := hs.opt j hj
  rw [hrow] at hv hl hmax
  refine ⟨ts ++ [i], hc.snoc w i hi, lastTag_snoc .., ?_, ?_, ?_⟩
  · show (induct _ _ _ _ _ _ _).2 i = _
    rw [hrow, hl]
    by_cases h0 : seg = []
    · subst h0
      cases hc
      simp
    · have : ¬ seg.length + 1 = 1 := by
        intro h; exact h0 (List.length_eq_zero_iff.1 (by omega))
      simp only [this, decide_false, Bool.false_eq_true, if_false]
      rw [hb h0]
  · show (induct _ _ _ _ _ _ _).1 i = _
    rw [hrow, hv, prob_snoc p start seg w ts i hc, hlast, ← ha]
    rfl
  · intro ts' hc' hlast'
    obtain ⟨ts0, i', rfl, hc0, hi'⟩ := hc'.snoc_inv
    rw [lastTag_snoc] at hlast'
    subst hlast'
    rw [prob_snoc p start seg w ts0 i' hc0, prob_snoc p start seg w ts i' hc, hlast, ← ha]
    have hm := hs.cover ts0 hc0
    obtain ⟨ts1, hc1, hl1, _, ha1, hopt1⟩ := hs.opt (lastTag start ts0) hm
    have h1 := hopt1 ts0 hc0 rfl
    have h2 := hmax (lastTag start ts0) hm
    rw [hv] at h2
    unfold tryW at h2
    refine Weight.trans _ _ _ ?_ h2
    rw [ha1]
    exact Weight.mul_mono _ _ _ (Weight.mul_mono _ _ _ h1)

theorem writeBest_choice (seg : List (RItem α)) (ts : List Nat) (h : ts.length = seg.length) :
    writeBest (seg.map (·.word)) ts = some (List.zipWith (fun x t => Ev.word x.word t) seg ts) := by
  induction seg generalizing ts with
  | nil =>
    cases ts with
    | nil => rfl
    | cons _ _ => simp at h
  | cons x r ih =>
    cases ts with
    | nil => simp at h
    | cons t ts =>
      simp only [List.map_cons, writeBest, List.zipWith_cons_cons]
      rw [ih ts (by simpa using h)]
      rfl

/-! ## tagger data -/

/-- What `TaggerData` read from a well-formed model satisfies: the open class is not empty, and the classes are
sets. -/
structure TD.Ok (td : TD) : Prop where
  ne : td.openClass ≠ []
  nodup : td.openClass.Nodup
  nodups : ∀ e ∈ td.output.element, e.Nodup

theorem add_element_mem (c : Coll) (t e : Tags) (h : e ∈ (c.add t).1.element) : e ∈ c.element ∨ e = t := by
  unfold Coll.add at h
  cases hf : c.find t with
  | some i => rw [hf] at h; exact .inl h
  | none =>
    rw [hf] at h
    simpa using h

theorem resolve_ok (td : TD) (tags : Tags) (h : td.Ok) (hn : tags.Nodup) :
    (resolve td tags).1.Ok ∧ (resolve td tags).2.1 ≠ [] ∧ (resolve td tags).2.1.Nodup ∧
    (tags ≠ [] → (resolve td tags).2.1 = tags) := by
  unfold resolve
  generalize ht' : (if tags = [] then td.openClass else tags) = t'
  have hne : t' ≠ [] := by
    subst ht'; split
    · exact h.ne
    · assumption
  have hnd : t'.Nodup := by
    subst ht'; split
    · exact h.nodup
    · exact hn
  have hsim : (requireSimilar td t').1.openClass ≠ [] ∧ (requireSimilar td t').1.openClass.Nodup ∧
      (requireSimilar td t').1.output = td.output ∧ (requireSimilar td t').2.Nodup := by
    unfold requireSimilar findSimilar
    split
    · rcases similarLoop_spec t' td.output.element td.openClass with ⟨h1, _⟩ | ⟨l1, l2, h1, hi, _, _, _⟩
      · simp only []; rw [h1]; exact ⟨h.ne, h.nodup, trivial, h.nodup⟩
      · simp only []
        have hin : similarLoop t' td.output.element td.openClass ∈
            l1 ++ similarLoop t' td.output.element td.openClass :: l2 := by simp
        rw [← h1] at hin
        refine ⟨?_, h.nodups _ hin, trivial, h.nodups _ hin⟩
        intro h0
        rw [h0] at hi
        obtain ⟨x, hx⟩ := List.exists_mem_of_ne_nil _ hne
        exact absurd ((includes_iff [] t').1 hi x hx) (by simp)
    · exact ⟨h.ne, h.nodup, rfl, hnd⟩
  simp only []
  refine ⟨⟨hsim.1, hsim.2.1, ?_⟩, hne, hnd, ?_⟩
  · intro e he
    rcases add_element_mem _ _ _ he with he | rfl
    · rw [hsim.2.2.1] at he; exact h.nodups e he
    · exact hsim.2.2.2
  · intro h0
    rw [← ht', if_neg h0]

/-! ## one word -/

/-- the word as resolved by the tagger data of the state -/
def ritem (td : TD) (it : Item α) : RItem α :=
  { word := it.word, tags := (resolve td it.tags).2.1, cls := (resolve td it.tags).2.2, eof := it.eof }

theorem hmmStep_ambiguous [Weight W] (p : Params W) (nf : Bool) (s : HSt W α) (start : Nat)
    (seg : List (RItem α)) (it : Item α) (hs : HInv p s start seg) (htd : s.td.Ok) (hn : it.tags.Nodup)
    (hamb : (ritem s.td it).tags.length ≠ 1) (heof : it.eof = false) :
    ∃ s', hmmStep p nf s it = some s' ∧ HInv p s' start (seg ++ [ritem s.td it]) ∧
      s'.td = (resolve s.td it.tags).1 ∧ s'.out = s.out := by
  obtain ⟨hok, hne, hnd, _⟩ := resolve_ok s.td it.tags htd hn
  have hlen : (s.wpend ++ [it.word]).length = seg.length + 1 := by
    rw [hs.wpend]; simp
  have hopt := induct_opt p s start seg (ritem s.td it) hs hnd
  unfold hmmStep
  simp only [hlen, heof, Bool.false_eq_true, false_and, if_false]
  split
  · rename_i tag htag
    exact absurd (by simp [ritem, htag]) hamb
  · refine ⟨_, rfl, ?_, rfl, rfl⟩
    refine ⟨?_, ?_, hne, ?_, ?_⟩
    · simp [hs.wpend, ritem]
    · intro h; simp at h
    · intro ts hc
      obtain ⟨ts0, i, rfl, _, hi⟩ := hc.snoc_inv
      rw [lastTag_snoc]
      exact hi
    · intro i hi
      obtain ⟨ts, hc, hl, hb, ha, hm⟩ := hopt i hi
      refine ⟨ts, hc, hl, ?_, ?_, hm⟩
      · intro _
        simp only [List.length_append, List.length_singleton, updRow, if_true]
        exact hb
      · simp only [List.length_append, List.length_singleton, updRow, if_true]
        exact ha

theorem hmmStep_unambiguous [Weight W] (p : Params W) (nf : Bool) (s : HSt W α) (start tag : Nat)
    (seg : List (RItem α)) (it : Item α) (hs : HInv p s start seg)
    (htag : (ritem s.td it).tags = [tag]) :
    ∃ s' ts, hmmStep p nf s it = some s' ∧
      HInv p s' (if it.eof = true ∧ nf = true then p.eos else tag) [] ∧
      s'.td = (resolve s.td it.tags).1 ∧
      Best p start (seg ++ [ritem s.td it]) ts ∧
      s'.out = s.out ++ (List.zipWith (fun x t => Ev.word x.word t) (seg ++ [ritem s.td it]) ts ++
        (if it.eof = true ∧ nf = true then [Ev.nul] else [])) := by
  have hnd : (ritem s.td it).tags.Nodup := by rw [htag]; simp
  have hlen : (s.wpend ++ [it.word]).length = seg.length + 1 := by
    rw [hs.wpend]; simp
  have hopt := induct_opt p s start seg (ritem s.td it) hs hnd
  obtain ⟨ts, hc, hl, hb, ha, hm⟩ := hopt tag (by rw [htag]; simp)
  have hbest : Best p start (seg ++ [ritem s.td it]) ts := by
    refine ⟨hc, ?_⟩
    intro ts' hc'
    refine hm ts' hc' ?_
    obtain ⟨ts0, i, rfl, _, hi⟩ := hc'.snoc_inv
    rw [htag] at hi
    rw [lastTag_snoc, List.mem_singleton.1 hi]
  have hwp : s.wpend ++ [it.word] = (seg ++ [ritem s.td it]).map (·.word) := by
    simp [hs.wpend, ritem]
  have htag' : (resolve s.td it.tags).2.1 = [tag] := htag
  have hstep : hmmStep p nf s it =
      ((writeBest (s.wpend ++ [it.word]) ts).map fun o =>
        let cur := decide ((seg.length + 1) % 2 = 1)
        let ab := induct p (ritem s.td it).cls (decide (seg.length + 1 = 1)) (s.alpha (!cur)) (s.best (!cur))
          [tag] s.tags
        let alpha := updRow s.alpha cur ab.1
        ({ alpha := updRow alpha false (upd (alpha false) tag Weight.one), best := updRow s.best cur ab.2,
           wpend := [], tags := [tag], td := (resolve s.td it.tags).1, out := s.out ++ o } : HSt W α)).map
        fun s1 => if it.eof = true ∧ nf = true then
          { s1 with out := s1.out ++ [.nul], tags := [p.eos],
                    alpha := updRow s1.alpha false (upd (s1.alpha false) p.eos Weight.one) }
        else s1 := by
    have hb' : (induct p (ritem s.td it).cls (decide (seg.length + 1 = 1))
        (s.alpha (!decide ((seg.length + 1) % 2 = 1))) (s.best (!decide ((seg.length + 1) % 2 = 1)))
          (ritem s.td it).tags s.tags).2 tag = ts := hb
    rw [htag] at hb'
    unfold hmmStep
    simp only [hlen, htag', updRow, if_true]
    rw [← hb']
    rfl
  rw [hstep, hwp, writeBest_choice _ _ hc.length_eq]
  simp only [Option.map_some]
  by_cases he : it.eof = true ∧ nf = true
  · simp only [if_pos he]
    refine ⟨_, ts, rfl, HInv.start p _ _ rfl rfl (by simp [updRow, upd]), rfl, hbest, by simp⟩
  · simp only [if_neg he]
    refine ⟨_, ts, rfl, HInv.start p _ _ rfl rfl (by simp [updRow, upd]), rfl, hbest, by simp⟩

/-! ## the whole text -/

theorem hmmRun_spec [Weight W] (p : Params W) (nf : Bool) (items : List (Item α)) (s : HSt W α) (start : Nat)
    (seg : List (RItem α)) (hs : HInv p s start seg) (htd : s.td.Ok)
    (hseg : ∀ w ∈ seg, w.tags.length ≠ 1) (hn : ∀ it ∈ items, it.tags.Nodup)
    (heof : ∀ it ∈ items, it.eof = true → it.tags.length = 1) :
    ∃ s' o, hmmRun p nf s items = some s' ∧ s'.out = s.out ++ o ∧
      Tagging p nf start (seg ++ resolveAll s.td items) o := by
  induction items generalizing s start seg with
  | nil => exact ⟨s, [], rfl, by simp, by simpa [resolveAll] using Tagging.pending start seg hseg⟩
  | cons it r ih =>
    have hn1 := hn it (List.mem_cons_self ..)
    have hn2 : ∀ it ∈ r, it.tags.Nodup := fun x hx => hn x (List.mem_cons_of_mem _ hx)
    have he2 : ∀ it ∈ r, it.eof = true → it.tags.length = 1 := fun x hx => heof x (List.mem_cons_of_mem _ hx)
    obtain ⟨hok, hne, hnd, hkeep⟩ := resolve_ok s.td it.tags htd hn1
    by_cases hamb : (ritem s.td it).tags.length = 1
    · obtain ⟨tag, htag⟩ := List.length_eq_one_iff.1 hamb
      obtain ⟨s1, ts, hstep, hinv, htd1, hbest, hout⟩ := hmmStep_unambiguous p nf s start tag seg it hs htag
      obtain ⟨s', o, hrun, ho, htg⟩ := ih s1 _ [] hinv (by rw [htd1]; exact hok) (by simp) hn2 he2
      refine ⟨s', (List.zipWith (fun x t => Ev.word x.word t) (seg ++ [ritem s.td it]) ts ++
        (if it.eof = true ∧ nf = true then [Ev.nul] else [])) ++ o, ?_, ?_, ?_⟩
      · simp only [hmmRun, hstep, Option.bind_some, hrun]
      · rw [ho, hout, List.append_assoc]
      · rw [htd1] at htg
        exact Tagging.segment start seg (ritem s.td it) tag _ ts o hseg htag hbest htg
    · have hef : it.eof = false := by
        cases h : it.eof with
        | false => rfl
        | true =>
          exfalso
          have h1 := heof it (List.mem_cons_self ..) h
          have h2 : it.tags ≠ [] := by intro h0; simp [h0] at h1
          exact hamb (by simp only [ritem]; rw [hkeep h2]; exact h1)
      obtain ⟨s1, hstep, hinv, htd1, hout⟩ := hmmStep_ambiguous p nf s start seg it hs htd hn1 hamb hef
      obtain ⟨s', o, hrun, ho, htg⟩ := ih s1 start (seg ++ [ritem s.td it]) hinv (by rw [htd1]; exact hok)
        (by
          intro w hw
          rcases List.mem_append.1 hw with hw | hw
          · exact hseg w hw
          · rw [List.mem_singleton.1 hw]; exact hamb) hn2 he2
      refine ⟨s', o, ?_, by rw [ho, hout], ?_⟩
      · simp only [hmmRun, hstep, Option.bind_some, hrun]
      · rw [htd1] at htg
        simpa [resolveAll, ritem] using htg

/-- **C19.**  For every model, every text and both modes, if the word at which the stream reports the end of the
file is always unambiguous, the HMM tagger runs to the end without leaving its arrays and what it writes is a
correct tagging: between two unambiguous words the tags written have maximal probability among all choices. -/
theorem C19_viterbi [Weight W] (p : Params W) (nf : Bool) (td : TD) (items : List (Item α)) (htd : td.Ok)
    (hn : ∀ it ∈ items, it.tags.Nodup) (heof : ∀ it ∈ items, it.eof = true → it.tags.length = 1) :
    ∃ out, hmmOut p nf td items = some out ∧ Tagging p nf p.eos (resolveAll td items) out := by
  obtain ⟨s', o, hrun, ho, ht⟩ := hmmRun_spec p nf items (hmmInit p td) p.eos []
    (HInv.start p _ _ rfl rfl (by simp [hmmInit, updRow, upd])) htd (by simp) hn heof
  refine ⟨o, ?_, ht⟩
  simp only [hmmOut, hrun, Option.map_some, ho]
  rfl

/-! ## C20: every word once -/

/-- the words of an output with their tags, without the NULs -/
def evWords : List (Ev α) → List (α × Nat)
  | [] => []
  | .word w t :: r => (w, t) :: evWords r
  | .nul :: r => evWords r

theorem evWords_append (a b : List (Ev α)) : evWords (a ++ b) = evWords a ++ evWords b := by
  induction a with
  | nil => rfl
  | cons e r ih => cases e <;> simp [evWords, ih]

theorem evWords_zip (seg : List (RItem α)) (ts : List Nat) :
    evWords (List.zipWith (fun x t => Ev.word x.word t) seg ts) = (seg.map (·.word)).zip ts := by
  induction seg generalizing ts with
  | nil => cases ts <;> rfl
  | cons x r ih => cases ts with
    | nil => rfl
    | cons t ts => simp [evWords, ih]

/-- How the NULs are interleaved: one after each word with the end-of-file mark, in null-flush mode. -/
def flat (nf : Bool) : List (RItem α) → List Nat → List (Ev α)
  | w :: r, t :: ts => Ev.word w.word t :: ((if w.eof = true ∧ nf = true then [Ev.nul] else []) ++ flat nf r ts)
  | _, _ => []

theorem flat_append (nf : Bool) (a b : List (RItem α)) (ts us : List Nat) (h : ts.length = a.length) :
    flat nf (a ++ b) (ts ++ us) = flat nf a ts ++ flat nf b us := by
  induction a generalizing ts with
  | nil => cases ts with
    | nil => simp [flat]
    | cons _ _ => simp at h
  | cons w r ih => cases ts with
    | nil => simp at h
    | cons t ts => simp [flat, ih ts (by simpa using h)]

theorem flat_noeof (nf : Bool) (a : List (RItem α)) (ts : List Nat) (h : ∀ w ∈ a, w.eof = false) :
    flat nf a ts = List.zipWith (fun x t => Ev.word x.word t) a ts := by
  induction a generalizing ts with
  | nil => cases ts <;> simp [flat]
  | cons w r ih => cases ts with
    | nil => simp [flat]
    | cons t ts => simp [flat, ih ts (fun x hx => h x (List.mem_cons_of_mem _ hx)), h w (List.mem_cons_self ..)]

theorem Tagging.choice [Weight W] {p : Params W} {nf : Bool} {start : Nat} {text : List (RItem α)}
    {out : List (Ev α)} (h : Tagging p nf start text out)
    (heof : ∀ w ∈ text, w.eof = true → w.tags.length = 1)
    (hlast : ∀ w, text.getLast? = some w → w.tags.length = 1) :
    ∃ ts, Choice text ts ∧ out = flat nf text ts := by
  induction h with
  | pending start seg hseg =>
    cases hs : seg.getLast? with
    | none =>
      have : seg = [] := List.getLast?_eq_none_iff.1 hs
      subst this
      exact ⟨[], .nil, rfl⟩
    | some w => exact absurd (hlast w hs) (hseg w (List.mem_of_getLast? hs))
  | segment start seg w tag rest ts out hseg htag hbest _ ih =>
    have hl : ∀ x, rest.getLast? = some x → x.tags.length = 1 := by
      intro x hx
      apply hlast
      rw [List.getLast?_append, List.getLast?_cons, hx]
      rfl
    obtain ⟨us, hc, rfl⟩ := ih (fun x hx => heof x (by simp [hx])) hl
    obtain ⟨ts0, i, rfl, hc0, hi⟩ := hbest.1.snoc_inv
    refine ⟨ts0 ++ i :: us, ?_, ?_⟩
    · clear hbest
      induction hc0 with
      | nil => exact .cons hi hc
      | cons h1 _ ih2 =>
        refine .cons h1 (ih2 ?_ ?_ ?_)
        · exact fun x hx => hseg x (List.mem_cons_of_mem _ hx)
        · exact fun x hx => heof x (List.mem_cons_of_mem _ hx)
        · intro x hx
          apply hlast
          rw [List.cons_append, List.getLast?_cons, hx]
          rfl
    · rw [flat_append nf _ _ _ _ hc0.length_eq]
      have hno : ∀ x ∈ seg, x.eof = false := by
        intro x hx
        cases hxe : x.eof with
        | false => rfl
        | true => exact absurd (heof x (by simp [hx]) hxe) (hseg x hx)
      rw [flat_noeof nf seg ts0 hno, List.zipWith_append (by simp [hc0.length_eq])]
      simp [flat]

/-- **C20.**  If the last word and every word carrying the end-of-file mark are unambiguous (the stream reader
ends every text with the unambiguous end-of-file word, `C20_stream`), then the tagger writes every word exactly
once, in order, with one of its tags, and in null-flush mode one NUL directly after each word with the
end-of-file mark. -/
theorem C20_once [Weight W] (p : Params W) (nf : Bool) (td : TD) (items : List (Item α)) (htd : td.Ok)
    (hn : ∀ it ∈ items, it.tags.Nodup) (heof : ∀ it ∈ items, it.eof = true → it.tags.length = 1)
    (hlast : ∀ it, items.getLast? = some it → it.tags.length = 1) :
    ∃ ts, Choice (resolveAll td items) ts ∧ hmmOut p nf td items = some (flat nf (resolveAll td items) ts) := by
  obtain ⟨out, ho, ht⟩ := C19_viterbi p nf td items htd hn heof
  have hres : ∀ (items : List (Item α)) (td : TD), td.Ok → (∀ it ∈ items, it.tags.Nodup) →
      (∀ it ∈ items, it.eof = true → it.tags.length = 1) →
      (∀ it, items.getLast? = some it → it.tags.length = 1) →
      (∀ w ∈ resolveAll td items, w.eof = true → w.tags.length = 1) ∧
      (∀ w, (resolveAll td items).getLast? = some w → w.tags.length = 1) := by
    intro items
    induction items with
    | nil => intro td _ _ _ _; simp [resolveAll]
    | cons it r ih =>
      intro td htd hn heof hlast
      obtain ⟨hok, _, _, hkeep⟩ := resolve_ok td it.tags htd (hn it (List.mem_cons_self ..))
      have := ih _ hok (fun x hx => hn x (List.mem_cons_of_mem _ hx))
        (fun x hx => heof x (List.mem_cons_of_mem _ hx)) (by
          intro x hx
          apply hlast
          rw [List.getLast?_cons, hx]
          rfl)
      constructor
      · intro w hw he
        rcases List.mem_cons.1 hw with rfl | hw
        · have h1 := heof it (List.mem_cons_self ..) he
          have h2 : it.tags ≠ [] := by intro h0; simp [h0] at h1
          show (resolve td it.tags).2.1.length = 1
          rw [hkeep h2]; exact h1
        · exact this.1 w hw he
      · intro w hw
        simp only [resolveAll] at hw
        rw [List.getLast?_cons] at hw
        cases hr : (resolveAll (resolve td it.tags).1 r).getLast? with
        | some w' =>
          rw [hr] at hw
          cases hw
          exact this.2 _ hr
        | none =>
          rw [hr] at hw
          cases hw
          have hr0 : r = [] := by
            cases r with
            | nil => rfl
            | cons a b => simp [resolveAll] at hr
          subst hr0
          have h1 := hlast it rfl
          have h2 : it.tags ≠ [] := by intro h0; simp [h0] at h1
          show (resolve td it.tags).2.1.length = 1
          rw [hkeep h2]; exact h1
  obtain ⟨h1, h2⟩ := hres items td htd hn heof hlast
  obtain ⟨ts, hc, rfl⟩ := ht.choice h1 h2
  exact ⟨ts, hc, ho⟩

/-- The words of the output, without the NULs, are the words of the input. -/
theorem C20_words [Weight W] (p : Params W) (nf : Bool) (td : TD) (items : List (Item α)) (htd : td.Ok)
    (hn : ∀ it ∈ items, it.tags.Nodup) (heof : ∀ it ∈ items, it.eof = true → it.tags.length = 1)
    (hlast : ∀ it, items.getLast? = some it → it.tags.length = 1) :
    ∃ out, hmmOut p nf td items = some out ∧ (evWords out).map (·.1) = items.map (·.word) := by
  obtain ⟨ts, hc, ho⟩ := C20_once p nf td items htd hn heof hlast
  refine ⟨_, ho, ?_⟩
  have hw : ∀ (items : List (Item α)) (td : TD), (resolveAll td items).map (·.word) = items.map (·.word) := by
    intro items
    induction items with
    | nil => intro td; rfl
    | cons it r ih => intro td; simp [resolveAll, ih]
  have hf : ∀ (text : List (RItem α)) (ts : List Nat), Choice text ts →
      (evWords (flat nf text ts)).map (·.1) = text.map (·.word) := by
    intro text ts h
    induction h with
    | nil => rfl
    | @cons w t seg ts h1 h2 ih =>
      simp only [flat]
      by_cases he : w.eof = true ∧ nf = true
      · simp only [if_pos he]; simp [evWords, ih]
      · simp only [if_neg he]; simp [evWords, ih]
  rw [hf _ _ hc, hw]

/-! ## the whole text, for exact arithmetic -/

/-- Weights with exact arithmetic. -/
class ExactWeight (W : Type) extends Weight W where
  mul_assoc : ∀ a b c : W, mul (mul a b) c = mul a (mul b c)
  mul_comm : ∀ a b : W, mul a b = mul b a
  one_mul : ∀ a : W, mul one a = a

theorem pathProb_acc [ExactWeight W] (p : Params W) (acc : W) (start : Nat) (l : List (Nat × Nat)) :
    pathProb p acc start l = Weight.mul acc (pathProb p Weight.one start l) := by
  induction l generalizing acc start with
  | nil => simp only [pathProb]; rw [ExactWeight.mul_comm, ExactWeight.one_mul]
  | cons x r ih =>
    obtain ⟨t, k⟩ := x
    simp only [pathProb]
    rw [ih (Weight.mul (Weight.mul acc _) _), ih (Weight.mul (Weight.mul Weight.one _) _)]
    simp only [ExactWeight.mul_assoc, ExactWeight.one_mul]

theorem pathProb_append [ExactWeight W] (p : Params W) (acc : W) (start : Nat) (l1 l2 : List (Nat × Nat)) :
    pathProb p acc start (l1 ++ l2) =
      Weight.mul (pathProb p acc start l1) (pathProb p Weight.one (lastTag start (l1.map (·.1))) l2) := by
  induction l1 generalizing acc start with
  | nil => exact pathProb_acc p acc start l2
  | cons x r ih =>
    obtain ⟨t, k⟩ := x
    simp only [List.cons_append, pathProb, ih, List.map_cons]
    congr 2
    cases r with
    | nil => rfl
    | cons y r => simp [lastTag, List.getLast?_cons]

theorem Choice.append_inv {a b : List (RItem α)} {ts : List Nat} (h : Choice (a ++ b) ts) :
    ∃ t1 t2, ts = t1 ++ t2 ∧ Choice a t1 ∧ Choice b t2 := by
  induction a generalizing ts with
  | nil => exact ⟨[], ts, rfl, .nil, h⟩
  | cons x r ih =>
    cases h with
    | cons h1 h2 =>
      obtain ⟨t1, t2, rfl, hc1, hc2⟩ := ih h2
      exact ⟨_ :: t1, t2, rfl, .cons h1 hc1, hc2⟩

theorem Choice.append {a b : List (RItem α)} {t1 t2 : List Nat} (h : Choice a t1) (h2 : Choice b t2) :
    Choice (a ++ b) (t1 ++ t2) := by
  induction h with
  | nil => exact h2
  | cons h1 _ ih => exact .cons h1 ih

theorem prob_append [ExactWeight W] (p : Params W) (start : Nat) (a b : List (RItem α)) (t1 t2 : List Nat)
    (h : Choice a t1) :
    prob p start (a ++ b) (t1 ++ t2) =
      Weight.mul (prob p start a t1) (prob p (lastTag start t1) b t2) := by
  unfold prob
  rw [List.map_append, List.zip_append (by simpa using h.length_eq), pathProb_append]
  congr 2
  rw [List.map_fst_zip]
  simp [h.length_eq]

/-- **C19, whole text.**  With exact arithmetic and without null flush, the tags written for a text that ends
with an unambiguous word have maximal probability among *all* tag sequences for the whole text. -/
theorem C19_whole_text [ExactWeight W] (p : Params W) (td : TD) (items : List (Item α)) (htd : td.Ok)
    (hn : ∀ it ∈ items, it.tags.Nodup) (heof : ∀ it ∈ items, it.eof = true → it.tags.length = 1)
    (hlast : ∀ w, (resolveAll td items).getLast? = some w → w.tags.length = 1) :
    ∃ ts, Best p p.eos (resolveAll td items) ts ∧
      hmmOut p false td items = some (List.zipWith (fun x t => Ev.word x.word t) (resolveAll td items) ts) := by
  obtain ⟨out, ho, ht⟩ := C19_viterbi p false td items htd hn heof
  suffices h : ∀ (start : Nat) (text : List (RItem α)) (out : List (Ev α)), Tagging p false start text out →
      (∀ w, text.getLast? = some w → w.tags.length = 1) →
      ∃ ts, Best p start text ts ∧ out = List.zipWith (fun x t => Ev.word x.word t) text ts by
    obtain ⟨ts, hb, rfl⟩ := h _ _ _ ht hlast
    exact ⟨ts, hb, ho⟩
  intro start text out h
  clear ho ht hlast hn heof htd
  induction h with
  | pending start seg hseg =>
    intro hlast
    cases hs : seg.getLast? with
    | none =>
      have : seg = [] := List.getLast?_eq_none_iff.1 hs
      subst this
      refine ⟨[], ⟨.nil, ?_⟩, rfl⟩
      intro ts' h
      cases h
      exact Weight.refl _
    | some w => exact absurd (hlast w hs) (hseg w (List.mem_of_getLast? hs))
  | segment start seg w tag rest ts out hseg htag hbest _ ih =>
    intro hlast
    simp only [Bool.false_eq_true, and_false, if_false] at ih ⊢
    obtain ⟨us, hb, rfl⟩ := ih (by
      intro x hx
      apply hlast
      rw [List.getLast?_append, List.getLast?_cons, hx]
      rfl)
    have hend : ∀ t1, Choice (seg ++ [w]) t1 → lastTag start t1 = tag := by
      intro t1 h1
      obtain ⟨ts0, i, rfl, _, hi⟩ := h1.snoc_inv
      rw [htag] at hi
      rw [lastTag_snoc, List.mem_singleton.1 hi]
    have hsplit : seg ++ w :: rest = (seg ++ [w]) ++ rest := by simp
    rw [hsplit]
    refine ⟨ts ++ us, ⟨hbest.1.append hb.1, ?_⟩, ?_⟩
    · intro ts' hc'
      obtain ⟨t1, t2, rfl, h1, h2⟩ := hc'.append_inv
      rw [prob_append p start _ _ _ _ h1, prob_append p start _ _ _ _ hbest.1, hend t1 h1, hend ts hbest.1]
      refine Weight.trans _ _ _ (Weight.mul_mono _ _ _ (hbest.2 t1 h1)) ?_
      rw [ExactWeight.mul_comm, ExactWeight.mul_comm (prob p start (seg ++ [w]) ts)]
      exact Weight.mul_mono _ _ _ (hb.2 t2 h2)
    · rw [List.zipWith_append (by simp [hbest.1.length_eq])]
      simp

/-! ## instances and examples -/

/-- exact arithmetic on naturals (weights scaled to integers) -/
instance : ExactWeight Nat where
  zero := 0
  one := 1
  mul := (· * ·)
  le := (· ≤ ·)
  dec := inferInstance
  total := Nat.le_total
  trans := fun _ _ _ => Nat.le_trans
  zero_le := Nat.zero_le
  mul_mono := fun _ _ c h => Nat.mul_le_mul_right c h
  mul_assoc := Nat.mul_assoc
  mul_comm := Nat.mul_comm
  one_mul := Nat.one_mul

/-- Rounded arithmetic: multiples of 1/100, products rounded down.  Not associative. -/
structure Cent where
  n : Nat
  deriving DecidableEq, Repr

instance : Weight Cent where
  zero := ⟨0⟩
  one := ⟨100⟩
  mul := fun a b => ⟨a.n * b.n / 100⟩
  le := fun a b => a.n ≤ b.n
  dec := fun _ _ => inferInstance
  total := fun a b => Nat.le_total a.n b.n
  trans := fun _ _ _ => Nat.le_trans
  zero_le := fun a => Nat.zero_le a.n
  mul_mono := fun _ _ c h => Nat.div_le_div_right (Nat.mul_le_mul_right c.n h)

/-- tags: 0 end of sentence, 1 determiner, 2 noun, 3 verb, 4 end of file; classes as listed -/
def exTD : TD := ⟨[2, 3], Coll.ofList [[2, 3], [0], [1], [2], [3], [4], [1, 2, 3]]⟩

/-- transitions: a determiner is followed by a noun, a noun by a verb -/
def exParams : Params Cent where
  A := fun i j => if i = 1 ∧ j = 2 ∨ i = 2 ∧ j = 3 then ⟨90⟩ else ⟨20⟩
  B := fun _ _ => ⟨50⟩
  eos := 0

/-- `the/DET walks/{NOUN,VERB} unknown/{} ./SENT <eof>` -/
def exItems : List (Item Nat) :=
  [⟨10, [1], false⟩, ⟨11, [2, 3], false⟩, ⟨12, [], false⟩, ⟨13, [0], false⟩, ⟨14, [4], true⟩]

/-- The hypotheses of `C19_viterbi`, `C20_once` and `C20_words` hold for this text, and the tags written are
determiner, noun, verb, … -/
example : hmmOut exParams true exTD exItems =
      some [.word 10 1, .word 11 2, .word 12 3, .word 13 0, .word 14 4, .nul] ∧
    (∀ it ∈ exItems, it.tags.Nodup) ∧ (∀ it ∈ exItems, it.eof = true → it.tags.length = 1) ∧
    (∀ it, exItems.getLast? = some it → it.tags.length = 1) := by
  refine ⟨by decide +kernel, by decide +kernel, by decide +kernel, ?_⟩
  intro it h
  cases h
  rfl

example : exTD.Ok := ⟨by decide, by decide, by decide +kernel⟩

/-- If the stream reports the end of the file at an ambiguous word, which happens for input that ends inside a
lexical unit (see `Verif.Tagger.Stream`), the word is never written. -/
theorem C20_ambiguous_end_violation :
    ∃ (items : List (Item Nat)), (∀ it ∈ items, it.tags.Nodup) ∧
      (hmmOut exParams false exTD items).map evWords = some [(10, 1)] ∧
      items.map (·.word) = [10, 11] :=
  ⟨[⟨10, [1], false⟩, ⟨11, [2, 4], true⟩], by decide +kernel, by decide +kernel, rfl⟩

/-! ## which classes are used -/

/-- **C19, classes.**  If every word is unknown (no tags) or its set of tags is in the table of ambiguity classes, and the open
class is in the table, then for every word the emission probabilities of the number of its own set of tags are used (of the
open class for unknown words), and its tags compete (those of the open class for unknown words). -/
theorem C19_classes (td : TD) (items : List (Item α)) (h : td.output.WF)
    (ho : td.openClass ∈ td.output.element) (hk : ∀ it ∈ items, it.tags = [] ∨ it.tags ∈ td.output.element) :
    (resolveAll td items).length = items.length ∧
    ∀ (n : Nat) (it : Item α) (w : RItem α), items[n]? = some it → (resolveAll td items)[n]? = some w →
      w.word = it.word ∧ w.eof = it.eof ∧ w.tags = (if it.tags = [] then td.openClass else it.tags) ∧
      td.output.element[w.cls]? = some w.tags := by
  induction items with
  | nil => exact ⟨rfl, by simp⟩
  | cons it r ih =>
    have hmem : (if it.tags = [] then td.openClass else it.tags) ∈ td.output.element := by
      rcases hk it (List.mem_cons_self ..) with h0 | h0
      · rw [if_pos h0]; exact ho
      · split
        · exact ho
        · exact h0
    obtain ⟨k, hk1⟩ := List.mem_iff_getElem?.1 hmem
    have hf := (h.iff _ k).2 hk1
    have hres : resolve td it.tags = (td, (if it.tags = [] then td.openClass else it.tags), k) := by
      unfold resolve requireSimilar Coll.hasNot
      simp only [hf, Option.isNone_some, Bool.false_eq_true, if_false]
      unfold Coll.add
      rw [hf]
    obtain ⟨i1, i2⟩ := ih (fun x hx => hk x (List.mem_cons_of_mem _ hx))
    simp only [resolveAll, hres, List.length_cons, i1, true_and]
    intro n it' w hn hw
    cases n with
    | zero =>
      simp only [List.getElem?_cons_zero, Option.some.injEq] at hn hw
      subst hn; subst hw
      exact ⟨rfl, rfl, rfl, hk1⟩
    | succ n =>
      simp only [List.getElem?_cons_succ] at hn hw
      exact i2 n it' w hn hw

example : exTD.output.WF ∧ exTD.openClass ∈ exTD.output.element ∧
    ∀ it ∈ exItems, it.tags = [] ∨ it.tags ∈ exTD.output.element :=
  ⟨Coll.WF.ofList _, by decide +kernel, by decide +kernel⟩

end Verif.Tagger
