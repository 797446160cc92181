import Verif.Tmx.Cases
import Verif.Tmx.Output
/-!
# C62: the aligned text is complete
-/
namespace Verif.Tmx

/-- `t'` is `t` without some of its inner points. -/
def Inner (t t' : List Point) : Prop := t'.Sublist t ∧ t'.head? = t.head? ∧ t'.getLast? = t.getLast?

theorem Inner.refl (t : List Point) : Inner t t := ⟨List.Sublist.refl _, rfl, rfl⟩
theorem Inner.trans {a b c : List Point} (h1 : Inner a b) (h2 : Inner b c) : Inner a c :=
  ⟨h2.1.trans h1.1, h2.2.1.trans h1.2.1, h2.2.2.trans h1.2.2⟩

theorem removeFrom_sublist (kill : List Nat) (i : Nat) (t : List Point) : (removeFrom kill i t).Sublist t := by
  induction t generalizing i with
  | nil => exact List.Sublist.refl _
  | cons p t ih =>
    rw [removeFrom]
    split
    · exact (ih _).cons _
    · exact (ih _).cons_cons _

theorem removeFrom_last (kill : List Nat) (t : List Point) (i : Nat) (h : ∀ j ∈ kill, j + 1 < i + t.length) :
    (removeFrom kill i t).getLast? = t.getLast? := by
  induction t generalizing i with
  | nil => rfl
  | cons p t ih =>
    rw [removeFrom]
    cases t with
    | nil =>
      rw [if_neg]
      · rfl
      · intro hi; have := h i hi; simp at this
    | cons q t =>
      have e := ih (i + 1) fun j hj => by have := h j hj; simp only [List.length_cons] at this ⊢; omega
      split
      · rw [e]; simp [List.getLast?_cons]
      · rw [List.getLast?_cons, e]; simp [List.getLast?_cons]

theorem removeRundles_inner (kill : List Nat) (t : List Point) (h0 : 0 ∉ kill) (h1 : ∀ j ∈ kill, j + 1 < t.length) : Inner t (removeRundles kill t) := by
  refine ⟨removeFrom_sublist _ _ _, ?_, removeFrom_last _ _ _ (by simpa using h1)⟩
  cases t with
  | nil => rfl
  | cons p t => rw [removeRundles, removeFrom, if_neg h0]; rfl

theorem kill_inner (t : List Point) (l : List Nat) (h : ∀ pos ∈ l, pos ∈ positions t) : Inner t (removeRundles (l.flatMap (killAt t)) t) := by
  refine removeRundles_inner _ _ ?_ ?_
  · intro hm
    obtain ⟨pos, h1, h2⟩ := List.mem_flatMap.mp hm
    have h3 := h pos h1
    simp only [positions, killAt, List.mem_filter, decide_eq_true_eq] at h2 h3
    omega
  · intro j hm
    obtain ⟨pos, h1, h2⟩ := List.mem_flatMap.mp hm
    simp only [killAt, List.mem_filter, decide_eq_true_eq] at h2
    omega

theorem prune_inner (o : Options) (c : Choices) (t : List Point) : Inner t (prune o c t) := by
  have h1 : ∀ x t, Inner t (postprocessTrail c.score x t) := fun x t => kill_inner _ _ fun pos h => (List.mem_filter.mp h).1
  have h2 : ∀ x t, Inner t (postprocessTrailStart c.score x t) := fun x t => kill_inner _ _ fun pos h => (List.takeWhile_sublist _).subset h
  have h3 : ∀ x t, Inner t (postprocessTrailEnd c.score x t) := fun x t =>
    kill_inner _ _ fun pos h => List.mem_reverse.mp ((List.takeWhile_sublist _).subset h)
  have h4 : ∀ x t, Inner t (postprocessTrailByTopology x t) := fun x t => kill_inner _ _ fun pos h => (List.mem_filter.mp h).1
  obtain ⟨o1, o2, o3, _, _⟩ := o
  have a1 : ∀ t, Inner t (match o1 with | some x => postprocessTrail c.score x t | none => t) := by
    intro t; cases o1
    · exact Inner.refl _
    · exact h1 _ _
  have a2 : ∀ t, Inner t (match o2 with | some x => postprocessTrailEnd c.score x (postprocessTrailStart c.score x t) | none => t) := by
    intro t; cases o2
    · exact Inner.refl _
    · exact (h2 _ _).trans (h3 _ _)
  have a3 : ∀ t, Inner t (match o3 with | some x => postprocessTrailByTopology x t | none => t) := by
    intro t; cases o3
    · exact Inner.refl _
    · exact h4 _ _
  exact (a1 t).trans ((a2 _).trans (a3 _))

theorem eraseIdx_inner (t : List Point) (i : Nat) (h0 : 0 < i) (h1 : i + 1 < t.length) : Inner t (t.eraseIdx i) := by
  refine ⟨List.eraseIdx_sublist _ _, ?_, ?_⟩
  · cases t with
    | nil => rfl
    | cons p t =>
      obtain ⟨k, rfl⟩ : ∃ k, i = k + 1 := ⟨i - 1, by omega⟩
      rfl
  · rw [List.getLast?_eq_getElem?, List.getLast?_eq_getElem?, List.length_eraseIdx, if_pos (by omega), List.getElem?_eraseIdx]
    rw [if_neg (by omega)]
    congr 1
    omega

theorem Inner.length {t t' : List Point} (h : Inner t t') (hd : t.Nodup) (h2 : 2 ≤ t.length) : 2 ≤ t'.length := by
  obtain ⟨_, h3, h4⟩ := h
  match t, t', h2, h3, h4, hd with
  | p :: q :: t, [], _, h3, _, _ => simp at h3
  | p :: q :: t, [x], _, h3, h4, hd =>
    exfalso
    simp at h3
    subst h3
    rw [List.getLast?_cons, List.getLast?_cons_cons] at h4
    simp at h4
    have hm : (q :: t).getLast (by simp) = x := by
      rw [List.getLast?_eq_some_getLast (by simp)] at h4
      simpa using h4.symm
    have : x ∈ q :: t := hm ▸ List.getLast_mem _
    exact (List.nodup_cons.mp hd).1 this
  | _, x :: y :: t', _, _, _, _ => simp

theorem spaceOutLoop_inner (act : Point → Point → Point → Point → Act) (n : Nat) : ∀ i t, 0 < i → 2 ≤ t.length → t.Nodup →
    ∃ t', spaceOutLoop act n i t = some t' ∧ Inner t t' := by
  induction n with
  | zero => intro i t _ _ _; exact ⟨t, rfl, Inner.refl _⟩
  | succ n ih =>
    intro i t hi h2 hd
    rw [spaceOutLoop, if_neg (by omega)]
    by_cases hlt : i < t.length - 2
    · rw [if_pos hlt]
      cases act (t.getD (i - 1) (0, 0)) (t.getD i (0, 0)) (t.getD (i + 1) (0, 0)) (t.getD (i + 2) (0, 0)) with
      | keep => exact ih (i + 1) t (by omega) h2 hd
      | left =>
        have hI := eraseIdx_inner t i hi (by omega)
        obtain ⟨t', h3, h4⟩ := ih i (t.eraseIdx i) hi (hI.length hd h2) (hd.sublist hI.1)
        exact ⟨t', h3, hI.trans h4⟩
      | right =>
        have hI := eraseIdx_inner t (i + 1) (by omega) (by omega)
        obtain ⟨t', h3, h4⟩ := ih i (t.eraseIdx (i + 1)) hi (hI.length hd h2) (hd.sublist hI.1)
        exact ⟨t', h3, hI.trans h4⟩
    · rw [if_neg hlt]; exact ⟨t, rfl, Inner.refl _⟩

/-- A list of positions that increase gives a sublist. -/
theorem pick_sublist (t : List Point) (n : Nat) (hn : n ≤ t.length) (f : Nat → Bool) :
    (((List.range n).filter f).map fun i => t.getD i (0, 0)).Sublist (t.take n) := by
  induction n with
  | zero => simp
  | succ n ih =>
    rw [List.range_succ, List.filter_append, List.map_append, List.take_add_one, List.getElem?_eq_getElem (by omega)]
    refine (ih (by omega)).append ?_
    simp only [List.filter_cons, List.filter_nil, Option.toList_some]
    split
    · simp [List.getD_eq_getElem?_getD, List.getElem?_eq_getElem (show n < t.length by omega)]
    · simp

theorem quality_inner (score : Point → Point → ℚ) (threshold : ℚ) (t : List Point) (h2 : 2 ≤ t.length) : Inner t (filterTrailByQuality score threshold t) := by
  obtain ⟨p, m, q, rfl⟩ : ∃ p m q, t = p :: m ++ [q] := by
    match t, h2 with
    | p :: r, h =>
      refine ⟨p, r.dropLast, r.getLast (by intro e; subst e; simp at h), ?_⟩
      rw [List.cons_append, List.dropLast_append_getLast]
  have e : filterTrailByQuality score threshold (p :: m ++ [q]) =
      p :: ((((List.range (p :: m).length).filter fun i => 1 ≤ i ∧ score ((p :: m ++ [q]).getD i (0, 0)) ((p :: m ++ [q]).getD (i + 1) (0, 0)) ≥ threshold).map
        fun i => (p :: m ++ [q]).getD i (0, 0)) ++ [q]) := by
    simp [filterTrailByQuality, List.getD_eq_getElem?_getD]
  rw [e]
  refine ⟨?_, by simp, by simp [List.getLast?_cons]⟩
  rw [List.cons_append]
  refine List.Sublist.cons_cons _ (List.Sublist.append ?_ (List.Sublist.refl _))
  rw [List.length_cons, List.range_succ_eq_map, List.filter_cons, if_neg (by simp), List.filter_map, List.map_map]
  have h := pick_sublist m m.length (Nat.le_refl _) (fun i => decide (1 ≤ i + 1 ∧ score ((p :: m ++ [q]).getD (i + 1) (0, 0)) ((p :: m ++ [q]).getD (i + 1 + 1) (0, 0)) ≥ threshold))
  rw [List.take_length] at h
  refine Eq.subst (motive := fun l => List.Sublist l m) (Eq.symm ?_) h
  refine List.map_congr_left ?_
  intro i hi
  have hi := List.mem_range.mp (List.mem_filter.mp hi).1
  simp [List.getD_eq_getElem?_getD, List.getElem?_append_left hi]

/-! ## Segments -/

/-- Both positions grow. -/
def Mono (t : List Point) : Prop := t.Pairwise fun p q => p.1 ≤ q.1 ∧ p.2 ≤ q.2

theorem segments_cons {α : Type} (hu en : List α) (p q : Point) (t : List Point) :
    segments hu en (p :: q :: t) = ((hu.drop p.1).take (q.1 - p.1), (en.drop p.2).take (q.2 - p.2)) :: segments hu en (q :: t) := by
  simp only [segments, List.length_cons, Nat.add_sub_cancel]
  rw [List.range_succ_eq_map, List.map_cons, List.map_map]
  simp [Function.comp_def]

theorem take_drop_append {α : Type} (l : List α) (a b c : Nat) (h1 : a ≤ b) (h2 : b ≤ c) :
    (l.drop a).take (b - a) ++ (l.drop b).take (c - b) = (l.drop a).take (c - a) := by
  have h : l.drop b = (l.drop a).drop (b - a) := by rw [List.drop_drop]; congr 1; omega
  rw [h, show c - a = (b - a) + (c - b) by omega, List.take_add]

theorem segments_flat {α : Type} (hu en : List α) (t : List Point) (p q : Point) (hm : Mono t) (hp : t.head? = some p) (hq : t.getLast? = some q) :
    ((segments hu en t).flatMap Prod.fst, (segments hu en t).flatMap Prod.snd) = ((hu.drop p.1).take (q.1 - p.1), (en.drop p.2).take (q.2 - p.2)) := by
  induction t generalizing p with
  | nil => simp at hp
  | cons x t ih =>
    simp at hp; subst hp
    cases t with
    | nil => simp at hq; subst hq; simp [segments]
    | cons y t =>
      have hm' : Mono (y :: t) := (List.pairwise_cons.mp hm).2
      have := ih y hm' rfl (by simpa [List.getLast?_cons] using hq)
      rw [segments_cons]
      injection this with h1 h2
      simp only [List.flatMap_cons]
      rw [h1, h2]
      have hxy := (List.pairwise_cons.mp hm).1 y (by simp)
      have hyq : y.1 ≤ q.1 ∧ y.2 ≤ q.2 := by
        have hq' : (y :: t).getLast? = some q := by simpa [List.getLast?_cons] using hq
        have hmem := List.mem_of_getLast? hq'
        rcases List.mem_cons.mp hmem with e | e
        · subst e; exact ⟨Nat.le_refl _, Nat.le_refl _⟩
        · exact (List.pairwise_cons.mp hm').1 q e
      rw [take_drop_append _ _ _ _ hxy.1 hyq.1, take_drop_append _ _ _ _ hxy.2 hyq.2]

/-! ## The trail of the aligner -/

theorem points_mono (A : List Piece) (i j : Nat) : (points i j A).Pairwise fun p q => p.1 ≤ q.1 ∧ p.2 ≤ q.2 ∧ p ≠ q := by
  have low : ∀ (A : List Piece) (i j : Nat) (q : Point), q ∈ points i j A → i ≤ q.1 ∧ j ≤ q.2 := by
    intro A
    induction A with
    | nil => intro i j q h; simp [points] at h; subst h; simp
    | cons a A ih =>
      intro i j q h
      rw [points, List.mem_cons] at h
      rcases h with h | h
      · subst h; simp
      · have := ih _ _ _ h; omega
  induction A generalizing i j with
  | nil => simp [points]
  | cons a A ih =>
    rw [points, List.pairwise_cons]
    refine ⟨?_, ih _ _⟩
    intro q hq
    have := low _ _ _ _ hq
    refine ⟨by simp; omega, by simp; omega, ?_⟩
    intro e
    subst e
    cases a <;> simp [Piece.hu, Piece.en] at this

/-- The trail of the aligner: both positions grow, it ends at the end of both books, and it starts where one of the books starts. -/
theorem align_trail (b : Book) (hb : Sound b) :
    (align b).Pairwise (fun p q => p.1 ≤ q.1 ∧ p.2 ≤ q.2 ∧ p ≠ q) ∧ (align b).getLast? = some (b.hu.length, b.en.length) ∧ ∃ s, (align b).head? = some s ∧ Border s := by
  obtain ⟨A, ⟨ha, he, _⟩, _, before, p, after, h1, h2, h3, _⟩ := C35_optimal_partial b hb
  refine ⟨?_, ?_, p, by rw [h2]; rfl, h3⟩
  · have := points_mono A 0 0
    rw [h1, List.pairwise_append] at this
    rw [h2]; exact this.2.1
  · obtain ⟨l, hl⟩ := points_last A 0 0
    rw [Nat.zero_add, Nat.zero_add, ha, he] at hl
    have : (points 0 0 A).getLast? = some (b.hu.length, b.en.length) := by rw [hl]; simp
    rw [h1, List.getLast?_append, List.getLast?_cons] at this
    rw [h2, List.getLast?_cons]
    simpa using this

theorem finish_inner (o : Options) (c : Choices) (t : List Point) (hc : o.cautious = false) (hd : t.Nodup) (h2 : 2 ≤ t.length) :
    ∃ t', finish o c t = some t' ∧ Inner t t' := by
  have hp := prune_inner o c t
  obtain ⟨t', h3, h4⟩ := spaceOutLoop_inner c.act ((prune o c t).length + 1) 1 (prune o c t) (by omega) (hp.length hd h2) (hd.sublist hp.1)
  refine ⟨t', ?_, hp.trans h4⟩
  rw [finish, spaceOut, h3, hc]
  rfl

/-- C62: without `-cautious`, the lines that are written contain all the sentences of both books, each once and in order; only the sentences of one of the books before
the first aligned one are left out.  (Both books have sentences.) -/
theorem C62_text_partial {α : Type} (b : Book) (hb : Sound b) (o : Options) (c : Choices) (hc : o.cautious = false) (hu en : List α)
    (h1 : hu.length = b.hu.length) (h2 : en.length = b.en.length) (n1 : hu ≠ []) (n2 : en ≠ []) :
    ∃ lines i j, writeText o c hu en (align b) = some lines ∧ (i = 0 ∨ j = 0) ∧
      lines.flatMap Prod.fst = hu.drop i ∧ lines.flatMap Prod.snd = en.drop j := by
  obtain ⟨hpw, hl, s, hs, hB⟩ := align_trail b hb
  have hd : (align b).Nodup := hpw.imp fun h => h.2.2
  have hlen : 2 ≤ (align b).length := by
    match ha : align b with
    | [] => rw [ha] at hs; simp at hs
    | [x] =>
      exfalso
      rw [ha] at hs hl
      simp at hs hl
      subst hs hl
      rcases hB with e | e
      · exact n1 (List.eq_nil_of_length_eq_zero (by simp at e; simp [h1, e]))
      · exact n2 (List.eq_nil_of_length_eq_zero (by simp at e; simp [h2, e]))
    | _ :: _ :: _ => simp
  obtain ⟨t', h3, h4⟩ := finish_inner o c (align b) hc hd hlen
  have h5 := h4.trans (quality_inner c.score o.thresh t' (h4.length hd hlen))
  refine ⟨_, s.1, s.2, by rw [writeText, h3]; rfl, hB, ?_⟩
  have h6 := segments_flat hu en _ s (b.hu.length, b.en.length) ((hpw.imp fun h => ⟨h.1, h.2.1⟩).sublist h5.1) (h5.2.1.trans hs) (h5.2.2.trans hl)
  injection h6 with h6 h7
  refine ⟨h6.trans (List.take_of_length_le ?_), h7.trans (List.take_of_length_le ?_)⟩
  · simp [h1]
  · simp [h2]

/-! ## Pairs of sentences -/

theorem bisentences_cons (p q : Point) (t : List Point) :
    bisentences (p :: q :: t) = (if q = (p.1 + 1, p.2 + 1) then [p] else []) ++ bisentences (q :: t) := by
  simp only [bisentences, List.length_cons, Nat.add_sub_cancel]
  rw [List.range_succ_eq_map, List.filter_cons, List.filter_map]
  have e : oneToOne (p :: q :: t) 0 ↔ q = (p.1 + 1, p.2 + 1) := by
    obtain ⟨a, b⟩ := q
    simp [oneToOne]
  by_cases h : q = (p.1 + 1, p.2 + 1)
  · rw [if_pos (decide_eq_true (e.mpr h)), if_pos h]
    simp [Function.comp_def, oneToOne]
  · rw [if_neg (by rw [decide_eq_true_eq, e]; exact h), if_neg h]
    simp [Function.comp_def, oneToOne]

theorem bisentences_spec (t : List Point) (hm : t.Pairwise fun p q => p.1 ≤ q.1 ∧ p.2 ≤ q.2 ∧ p ≠ q) :
    (bisentences t).Pairwise (fun p q => p.1 < q.1 ∧ p.2 < q.2) ∧ ∀ p ∈ bisentences t, p ∈ t ∧ (p.1 + 1, p.2 + 1) ∈ t := by
  induction t with
  | nil => exact ⟨List.Pairwise.nil, by simp [bisentences]⟩
  | cons p t ih =>
    cases t with
    | nil => exact ⟨List.Pairwise.nil, by simp [bisentences]⟩
    | cons q t =>
      obtain ⟨hp, hm'⟩ := List.pairwise_cons.mp hm
      obtain ⟨i1, i2⟩ := ih hm'
      rw [bisentences_cons]
      by_cases h : q = (p.1 + 1, p.2 + 1)
      · rw [if_pos h]
        refine ⟨?_, ?_⟩
        · rw [List.singleton_append, List.pairwise_cons]
          refine ⟨?_, i1⟩
          intro x hx
          have hx := (i2 x hx).1
          have : q.1 ≤ x.1 ∧ q.2 ≤ x.2 := by
            rcases List.mem_cons.mp hx with e | e
            · subst e; exact ⟨Nat.le_refl _, Nat.le_refl _⟩
            · have := (List.pairwise_cons.mp hm').1 x e
              exact ⟨this.1, this.2.1⟩
          rw [h] at this
          simp only at this
          omega
        · intro x hx
          rw [List.singleton_append, List.mem_cons] at hx
          rcases hx with e | e
          · subst e; rw [← h]; simp
          · exact ⟨List.mem_cons_of_mem _ (i2 x e).1, List.mem_cons_of_mem _ (i2 x e).2⟩
      · rw [if_neg h]
        exact ⟨i1, fun x e => ⟨List.mem_cons_of_mem _ (i2 x e).1, List.mem_cons_of_mem _ (i2 x e).2⟩⟩

theorem cautious_sublist (t : List Point) : (cautiouslyFilterTrail t).Sublist t :=
  (pick_sublist t (t.length - 1) (by omega) _).trans (List.take_sublist _ _)

/-- C62: with `-bisent`, each sentence is written in at most one pair, the pairs are in the order of both books, and every pair lies between two points of the alignment. -/
theorem C62_bisent_partial (b : Book) (hb : Sound b) (n1 : b.hu ≠ []) (n2 : b.en ≠ []) (o : Options) (c : Choices) (cell : Point → ℚ) :
    ∃ l, writeBisent o c cell (align b) = some l ∧ l.Pairwise (fun p q => p.1 < q.1 ∧ p.2 < q.2) ∧
      ∀ p ∈ l, p.1 < b.hu.length ∧ p.2 < b.en.length ∧ p ∈ align b ∧ (p.1 + 1, p.2 + 1) ∈ align b ∧ o.thresh ≤ cell p := by
  obtain ⟨hpw, hl, s, hs, hB⟩ := align_trail b hb
  have hd : (align b).Nodup := hpw.imp fun h => h.2.2
  have hlen : 2 ≤ (align b).length := by
    match ha : align b with
    | [] => rw [ha] at hs; simp at hs
    | [x] =>
      exfalso
      rw [ha] at hs hl
      simp at hs hl
      subst hs hl
      rcases hB with e | e
      · exact n1 (List.eq_nil_of_length_eq_zero e)
      · exact n2 (List.eq_nil_of_length_eq_zero e)
    | _ :: _ :: _ => simp
  obtain ⟨t', h3, h4⟩ := finish_inner { o with cautious := false } c (align b) rfl hd hlen
  obtain ⟨t'', h5, h6⟩ : ∃ t'', finish o c (align b) = some t'' ∧ t''.Sublist (align b) := by
    have e : finish o c (align b) = (finish { o with cautious := false } c (align b)).map fun t => if o.cautious then cautiouslyFilterTrail t else t := by
      simp only [finish, Option.map_map]
      rfl
    rw [e, h3]
    refine ⟨_, rfl, ?_⟩
    dsimp only
    split
    · exact (cautious_sublist t').trans h4.1
    · exact h4.1
  have h7 := bisentences_spec t'' (hpw.sublist h6)
  refine ⟨_, by rw [writeBisent, h5]; rfl, h7.1.sublist List.filter_sublist, ?_⟩
  intro p hp
  have hp' := List.mem_filter.mp hp
  have h8 := h7.2 p hp'.1
  have h9 := h6.subset h8.2
  have hle : (p.1 + 1, p.2 + 1).1 ≤ b.hu.length ∧ (p.1 + 1, p.2 + 1).2 ≤ b.en.length := by
    obtain ⟨l, hl'⟩ : ∃ l, align b = l ++ [(b.hu.length, b.en.length)] := by
      rw [List.getLast?_eq_some_iff] at hl
      exact hl
    rw [hl', List.mem_append] at h9
    rcases h9 with h9 | h9
    · rw [hl', List.pairwise_append] at hpw
      have := hpw.2.2 _ h9 (b.hu.length, b.en.length) (by simp)
      exact ⟨this.1, this.2.1⟩
    · simp at h9
      simp [h9.1, h9.2]
  simp only at hle
  exact ⟨by omega, by omega, h6.subset h8.1, h9, of_decide_eq_true hp'.2⟩

/-! ## Examples -/

/-- No option. -/
def plain : Options := ⟨none, none, none, false, -100⟩
/-- Choices for the examples. -/
def someChoices : Choices := ⟨fun _ _ => 0, fun _ _ _ _ => .keep⟩

example : writeText plain someChoices ["A", "B", "CD"] ["a", "b", "c", "d"] (align demo) = some [(["A"], ["a"]), (["B"], ["b"]), (["CD"], ["c", "d"])] := by
  decide +kernel
example : writeBisent plain someChoices (fun _ => 0) (align demo) = some [(0, 0), (1, 1)] := by decide +kernel

/-- C62 fails: the sentences before the first aligned pair are lost. -/
theorem C62_start_violation :
    writeText plain someChoices ["x", "y", "A", "B"] ["a", "b"] (align late) = some [(["A"], ["a"]), (["B"], ["b"])] := by decide +kernel

/-- Three pairs of sentences. -/
def three : Book := ⟨fun i j => if i = j then 1 else 0, [10, 20, 30], [10, 20, 30], 500⟩

/-- C62 fails: with `-cautious` the last point of the trail is always thrown away, the end of both books is lost. -/
theorem C62_cautious_violation :
    writeText { plain with cautious := true } someChoices ["A", "B", "C"] ["a", "b", "c"] (align three) = some [(["A"], ["a"]), (["B"], ["b"])] := by
  decide +kernel

/-- A book without sentences and one with four: accepted by the tool. -/
def noBook : Book := ⟨fun _ _ => 0, [1, 2, 3, 4], [], 500⟩

/-- C62 fails: with an empty book, the program reads behind the end of the trail. -/
theorem C62_empty_violation : Sound noBook ∧ ¬ noBook.en.length < noBook.hu.length / 5 ∧ align noBook = [(4, 0)] ∧
    writeText plain someChoices ["A", "B", "C", "D"] [] (align noBook) = none := by
  refine ⟨sound_of _ (by decide +kernel) (by decide +kernel) ?_ (by decide) (by decide) (by decide), ?_, ?_, ?_⟩
  · intro i j; simp only [noBook]; norm_num
  all_goals decide +kernel

end Verif.Tmx
