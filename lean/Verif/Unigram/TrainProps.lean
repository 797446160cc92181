import Mathlib.Tactic.Linarith
import Mathlib.Tactic.FieldSimp
import Mathlib.Tactic.Ring
import Mathlib.Tactic.NormNum
import Mathlib.Tactic.Positivity
import Mathlib.Data.List.Dedup
import Verif.Unigram.Train
import Verif.Unigram.TagProps
/-!
# C26: the counters of the unigram tagger
-/
namespace Verif.Unigram

/-! ### Specification -/

/-- How often training on the analyses of a unit meets the key. -/
def occurrences (md : Model) (k : Key) (u : LexicalUnit) : Nat := (u.analyses.map (fun a => (keys md a).count k)).sum

/-- The weight of a key in a corpus: the sum over its units of the occurrences of the key among the unit's analyses,
divided by the number of analyses of the unit. -/
def weight (md : Model) (k : Key) (us : List LexicalUnit) : ℚ :=
  (us.map (fun u => (occurrences md k u : ℚ) / (u.analyses.length : ℚ))).sum

/-- What training counts in an analysis with the morphemes `ms`, written without recursion: model 1 the analysis as a whole;
model 2 the lemma of the first morpheme together with its tags and the other morphemes; model 3 the lemma of the first
morpheme with its tags and then, for each two adjacent morphemes, the second's lemma with the first's tags and the
second's lemma with its own tags. -/
def counted (md : Model) : List Morpheme → List Key
  | [] => match md with
    | .one => [.m1 ⟨[]⟩]
    | _ => []
  | m :: ms => match md with
    | .one => [.m1 ⟨m :: ms⟩]
    | .two => [.m2 m.tags ms m.lemma]
    | .three => [.lt m.tags m.lemma] ++
        ((m :: ms).zip ms).flatMap (fun pq => [.clct pq.1.tags pq.2.lemma, .ctcl pq.2.lemma pq.2.tags])

/-- **C26**: the events that `weight` sums up are those that the three models are meant to count. -/
theorem C26_keys (md : Model) (ms : List Morpheme) : keys md ⟨ms⟩ = counted md ms := by
  cases ms with
  | nil => cases md <;> rfl
  | cons m ms =>
    cases md with
    | one => rfl
    | two => rfl
    | three =>
      have h : ∀ (ms : List Morpheme) (m : Morpheme), keysMore m ms =
          ((m :: ms).zip ms).flatMap (fun pq => [.clct pq.1.tags pq.2.lemma, .ctcl pq.2.lemma pq.2.tags]) := by
        intro ms
        induction ms with
        | nil => intro m; rfl
        | cons x ms ih =>
          intro m
          rw [keysMore, ih x]
          rfl
      show Key.lt m.tags m.lemma :: keysMore m ms = _
      rw [h]
      rfl

/-! ### Tables -/

/-- The counter of a key (0 if it has none). -/
def counter (k : Key) (t : Table) : Nat := (findKey k t).getD 0

theorem counter_add (k k' : Key) (c : Nat) (t : Table) :
    counter k (addKey k' c t) = counter k t + (if k' = k then c else 0) := by
  induction t with
  | nil => by_cases h : k' = k <;> simp [addKey, counter, findKey, h]
  | cons e t ih =>
    obtain ⟨x, v⟩ := e
    by_cases h1 : x = k'
    · by_cases h2 : x = k
      · simp [addKey, counter, findKey, ← h1, h2]
      · have h3 : ¬ k' = k := by rw [← h1]; exact h2
        simp [addKey, counter, findKey, h1, h3]
    · by_cases h2 : x = k
      · have h3 : ¬ k' = k := by rw [← h2]; exact fun h => h1 h.symm
        simp [addKey, counter, findKey, h2, h3]
        rw [if_neg (by rw [← h2]; exact h1)]
        simp [findKey]
      · unfold counter at *
        simp only [addKey, h1, if_false, findKey, h2]
        exact ih

theorem counter_addAll (k : Key) (c : Nat) (ks : List Key) (t : Table) :
    counter k (ks.foldl (fun t k => addKey k c t) t) = counter k t + c * ks.count k := by
  induction ks generalizing t with
  | nil => simp
  | cons k' ks ih =>
    rw [List.foldl_cons, ih, counter_add, List.count_cons]
    by_cases h : k' = k
    · simp [h]; ring
    · simp [h]

theorem counter_unit (md : Model) (k : Key) (c : Nat) (as : List Analysis) (t : Table) :
    counter k (as.foldl (fun t a => trainAnalysis md a c t) t) =
      counter k t + c * (as.map (fun a => (keys md a).count k)).sum := by
  induction as generalizing t with
  | nil => simp
  | cons a as ih =>
    rw [List.foldl_cons, ih]
    unfold trainAnalysis
    rw [counter_addAll]
    simp only [List.map_cons, List.sum_cons]
    ring

theorem counter_multiply (k : Key) (m : Nat) (t : Table) : counter k (multiply m t) = counter k t * m := by
  induction t with
  | nil => simp [multiply, counter, findKey]
  | cons e t ih =>
    obtain ⟨x, v⟩ := e
    unfold counter at *
    by_cases h : x = k
    · simp [multiply, findKey, h]
    · simp only [multiply, List.map_cons, findKey, h, if_false]
      exact ih

theorem trainUnit_step (md : Model) (u : LexicalUnit) (s s' : Nat × Table) (hs : 0 < s.1)
    (h : trainUnit md u s = .ok s') :
    0 < s'.1 ∧ u.analyses ≠ [] ∧ ∀ k w, (counter k s.2 : ℚ) = s.1 * w →
      (counter k s'.2 : ℚ) = s'.1 * (w + (occurrences md k u : ℚ) / (u.analyses.length : ℚ)) := by
  unfold trainUnit at h
  by_cases hne : u.analyses = []
  · simp [hne] at h
  · rw [if_neg hne] at h
    simp only [Outcome.ok.injEq] at h
    have hn : 0 < u.analyses.length := List.length_pos_iff.mpr hne
    generalize hN : u.analyses.length = n at *
    have hnq : (n : ℚ) ≠ 0 := by
      have : (0 : ℚ) < n := by exact_mod_cast hn
      exact ne_of_gt this
    by_cases hd : s.1 % n = 0
    · simp only [hd, ne_eq, not_true_eq_false, if_false] at h
      subst h
      refine ⟨hs, hne, fun k w hw => ?_⟩
      rw [counter_unit]
      have hdiv : ((s.1 / n : Nat) : ℚ) = s.1 / n := by
        obtain ⟨q, hq⟩ := Nat.dvd_of_mod_eq_zero hd
        rw [hq, Nat.mul_div_cancel_left _ hn]
        push_cast
        field_simp
      push_cast
      rw [hw, hdiv]
      rw [show ((List.map (fun a => List.count k (keys md a)) u.analyses).sum : ℚ) = (occurrences md k u : ℚ) from rfl]
      field_simp
    · simp only [ne_eq, hd, not_false_eq_true, if_true] at h
      subst h
      refine ⟨Nat.mul_pos hs hn, hne, fun k w hw => ?_⟩
      rw [counter_unit, counter_multiply]
      have hdiv : s.1 * n / n = s.1 := Nat.mul_div_cancel _ hn
      simp only [hdiv]
      push_cast
      rw [hw, show ((List.map (fun a => List.count k (keys md a)) u.analyses).sum : ℚ) = (occurrences md k u : ℚ) from rfl]
      field_simp

theorem trainUnits_step (md : Model) (us : List LexicalUnit) (s s' : Nat × Table) (hs : 0 < s.1)
    (h : trainUnits md us s = .ok s') :
    0 < s'.1 ∧ (∀ u ∈ us, u.analyses ≠ []) ∧ ∀ k w, (counter k s.2 : ℚ) = s.1 * w →
      (counter k s'.2 : ℚ) = s'.1 * (w + weight md k us) := by
  induction us generalizing s with
  | nil =>
    simp [trainUnits] at h
    subst h
    exact ⟨hs, by simp, fun k w hw => by simp [weight, hw]⟩
  | cons u us ih =>
    rw [trainUnits] at h
    cases h1 : trainUnit md u s with
    | fail => simp [h1] at h
    | diverge => simp [h1] at h
    | ub => simp [h1] at h
    | ok s1 =>
      rw [h1] at h
      simp only [Outcome.bind_ok] at h
      obtain ⟨g1, g2, g3⟩ := trainUnit_step md u s s1 hs h1
      obtain ⟨k1, k2, k3⟩ := ih s1 g1 h
      refine ⟨k1, ?_, fun k w hw => ?_⟩
      · intro x hx
        rcases List.mem_cons.mp hx with rfl | hx
        · exact g2
        · exact k2 x hx
      · rw [k3 k _ (g3 k w hw)]
        simp [weight, add_assoc]

theorem trainUnits_ok (md : Model) (us : List LexicalUnit) (hu : ∀ u ∈ us, u.analyses ≠ []) (s : Nat × Table) :
    ∃ s', trainUnits md us s = .ok s' := by
  induction us generalizing s with
  | nil => exact ⟨s, rfl⟩
  | cons u us ih =>
    have : ∃ s1, trainUnit md u s = .ok s1 := by
      unfold trainUnit
      rw [if_neg (hu u (by simp))]
      exact ⟨_, rfl⟩
    obtain ⟨s1, h1⟩ := this
    obtain ⟨s2, h2⟩ := ih (fun x hx => hu x (by simp [hx])) s1
    exact ⟨s2, by rw [trainUnits, h1, Outcome.bind_ok, h2]⟩

/-! ### The corpus as a stream -/

/-- The lexical units of a stream. -/
def units : List Item → List LexicalUnit
  | [] => []
  | .unit u :: is => u :: units is
  | _ :: is => units is

theorem trainStream_blank (md : Model) (b : Text) (hb : BlankText b) (n : Nat) (t : Text) (s : Nat × Table) :
    trainStream md n (b ++ t) s = trainStream md n t s := by
  cases n with
  | zero => rfl
  | succ n =>
    rw [trainStream, trainStream, get_blank b hb]
    cases get t with
    | fail => rfl
    | diverge => rfl
    | ub => rfl
    | ok p =>
      obtain ⟨⟨x, l⟩, fl, t'⟩ := p
      cases l <;> rfl

theorem render_head_nul (is : List Item) (hw : ∀ i ∈ is, i.wf) (hz : Item.nul ∉ is) : (render is).head? ≠ some '\x00' := by
  induction is with
  | nil => simp [render]
  | cons i is ih =>
    have e : render (i :: is) = i.text ++ render is := rfl
    rw [e]
    have ih := ih (fun x hx => hw x (by simp [hx])) (fun h => hz (by simp [h]))
    cases i with
    | nul => exact absurd (by simp) hz
    | unit u => simp [Item.text, LexicalUnit.text]
    | blank b =>
      have hb : BlankText b := hw (.blank b) (by simp)
      simp only [Item.text]
      cases hb with
      | nil => simpa using ih
      | chr h1 h2 h3 h4 _ => simp [h2]
      | esc h1 _ => simp
      | block _ _ => simp

theorem trainStream_ok (md : Model) (is : List Item) (hw : ∀ i ∈ is, i.wf) (hz : Item.nul ∉ is) (n : Nat)
    (hn : (render is).length < n) (s : Nat × Table) :
    trainStream md n (render is) s = trainUnits md (units is) s := by
  induction is generalizing n s with
  | nil =>
    obtain ⟨n, rfl⟩ : ∃ m, n = m + 1 := ⟨n - 1, by omega⟩
    simp [render, trainStream, get_nil, units, trainUnits]
  | cons i is ih =>
    have hw' : ∀ x ∈ is, x.wf := fun x hx => hw x (by simp [hx])
    have hz' : Item.nul ∉ is := fun h => hz (by simp [h])
    have ih := ih hw' hz'
    have e : render (i :: is) = i.text ++ render is := rfl
    rw [e] at hn ⊢
    have hi := hw i (by simp)
    simp only [List.length_append] at hn
    cases i with
    | nul => exact absurd (by simp) hz
    | blank b =>
      simp only [Item.text] at hn ⊢
      rw [trainStream_blank md b hi, ih n (by omega)]
      rfl
    | unit u =>
      simp only [Item.text] at hn ⊢
      have := u.text_length
      obtain ⟨n, rfl⟩ : ∃ m, n = m + 1 := ⟨n - 1, by omega⟩
      have he : endGet ⟨[], some u⟩ (render is) = (⟨[], some u⟩, false, render is) := by
        have := render_head_nul is hw' hz'
        cases hr : render is with
        | nil => rfl
        | cons c t =>
          rw [hr] at this
          have hc : c ≠ '\x00' := by simpa using this
          simp [endGet, hc]
      rw [trainStream, get_unit u hi, he]
      simp only [Outcome.bind_ok, units, trainUnits]
      cases trainUnit md u s with
      | ok s' => simp only [Outcome.bind_ok]; exact ih n (by omega) s'
      | fail => rfl
      | diverge => rfl
      | ub => rfl

/-- **C26** training on any corpus (any stream without NUL whose words are all known) succeeds; afterwards the counter
of every key is exactly the coefficient times the weight of the key in the corpus: no rounding, whatever the mix of
ambiguities. -/
theorem C26_counts (md : Model) (is : List Item) (hw : ∀ i ∈ is, i.wf) (hz : Item.nul ∉ is)
    (hk : ∀ u ∈ units is, u.analyses ≠ []) :
    ∃ oc t, train md (render is) = .ok (oc, t) ∧ 0 < oc ∧
      ∀ k, (((findKey k t).getD 0 : Nat) : ℚ) = oc * weight md k (units is) := by
  obtain ⟨⟨oc, t⟩, h⟩ := trainUnits_ok md (units is) hk (1, [])
  obtain ⟨h1, _, h3⟩ := trainUnits_step md (units is) (1, []) (oc, t) (by decide) h
  refine ⟨oc, t, ?_, h1, fun k => ?_⟩
  · unfold train
    rw [trainStream_ok md is hw hz _ (by omega)]
    exact h
  · have := h3 k 0 (by simp [counter, findKey])
    simpa [counter] using this

/-- **C26** an unknown word in the corpus makes training fail. -/
theorem C26_unknown (md : Model) (us : List LexicalUnit) (s : Nat × Table) (u : LexicalUnit) (hu : u ∈ us)
    (h : u.analyses = []) : ∀ s', trainUnits md us s ≠ .ok s' := by
  induction us generalizing s with
  | nil => simp at hu
  | cons v us ih =>
    intro s' hs
    rw [trainUnits] at hs
    rcases List.mem_cons.mp hu with rfl | hu
    · simp [trainUnit, h] at hs
    · cases h1 : trainUnit md v s with
      | ok s1 => rw [h1] at hs; exact ih s1 hu s' hs
      | fail => simp [h1] at hs
      | diverge => simp [h1] at hs
      | ub => simp [h1] at hs

theorem weight_perm (md : Model) (k : Key) (us us' : List LexicalUnit) (h : us.Perm us') :
    weight md k us = weight md k us' := (h.map _).sum_eq

/-- **C26** the order of the corpus does not change the ratio between any two counters: with coefficients `oc1` and
`oc2`, `counter1 / oc1 = counter2 / oc2`. -/
theorem C26_permutation (md : Model) (us us' : List LexicalUnit) (h : us.Perm us') (oc1 oc2 : Nat) (t1 t2 : Table)
    (h1 : trainUnits md us (1, []) = .ok (oc1, t1)) (h2 : trainUnits md us' (1, []) = .ok (oc2, t2)) (k : Key) :
    (findKey k t1).getD 0 * oc2 = (findKey k t2).getD 0 * oc1 := by
  obtain ⟨_, _, g1⟩ := trainUnits_step md us (1, []) (oc1, t1) (by decide) h1
  obtain ⟨_, _, g2⟩ := trainUnits_step md us' (1, []) (oc2, t2) (by decide) h2
  have e1 := g1 k 0 (by simp [counter, findKey])
  have e2 := g2 k 0 (by simp [counter, findKey])
  simp only [counter, zero_add] at e1 e2
  have : (((findKey k t1).getD 0 : Nat) : ℚ) * oc2 = ((findKey k t2).getD 0 : Nat) * oc1 := by
    rw [e1, e2, weight_perm md k us us' h]; ring
  exact_mod_cast this

/-- The comparison of the scores. -/
def gtQ (a b : ℚ) : Bool := decide (b < a)

theorem gtQ_strictWeak : StrictWeak gtQ := by
  refine ⟨fun a => by simp [gtQ], fun a b c h1 h2 => ?_, fun a b c h1 h2 => ?_⟩
  · simp only [gtQ, decide_eq_true_eq] at *; exact lt_trans h2 h1
  · simp only [gtQ, decide_eq_false_iff_not, not_lt] at *; exact le_trans h1 h2

theorem choose_congr {W W' : Type} (f : Analysis → W) (g : Analysis → W') (gt : W → W → Bool) (gt' : W' → W' → Bool)
    (h : ∀ a b, gt (f a) (f b) = gt' (g a) (g b)) (as : List Analysis) (o : Option Analysis) :
    (choose f gt (o.map (fun a => (a, f a))) as).map (·.1) = (choose g gt' (o.map (fun a => (a, g a))) as).map (·.1) := by
  induction as generalizing o with
  | nil => cases o <;> simp [choose]
  | cons a as ih =>
    cases o with
    | none => simp only [Option.map_none, choose]; exact ih (some a)
    | some b =>
      simp only [Option.map_some, choose, h]
      split
      · exact ih (some a)
      · exact ih (some b)

/-- **C26** model 1: the order of the corpus does not change the analysis selected for any lexical unit. -/
theorem C26_choice_model1 (us us' : List LexicalUnit) (h : us.Perm us') (oc1 oc2 : Nat) (t1 t2 : Table)
    (h1 : trainUnits .one us (1, []) = .ok (oc1, t1)) (h2 : trainUnits .one us' (1, []) = .ok (oc2, t2))
    (u : LexicalUnit) : best (score .one t1) gtQ u = best (score .one t2) gtQ u := by
  refine choose_congr _ _ _ _ (fun a b => ?_) u.analyses none
  obtain ⟨p1, _, _⟩ := trainUnits_step .one us (1, []) (oc1, t1) (by decide) h1
  obtain ⟨p2, _, _⟩ := trainUnits_step .one us' (1, []) (oc2, t2) (by decide) h2
  have ea := C26_permutation .one us us' h oc1 oc2 t1 t2 h1 h2 (.m1 a)
  have eb := C26_permutation .one us us' h oc1 oc2 t1 t2 h1 h2 (.m1 b)
  simp only [gtQ, score, tokens]
  simp only [Nat.cast_add, Nat.cast_one, add_lt_add_iff_left, Nat.cast_lt]
  congr 1
  apply propext
  constructor
  · intro hlt
    have : (findKey (.m1 b) t1).getD 0 * oc2 < (findKey (.m1 a) t1).getD 0 * oc2 := Nat.mul_lt_mul_of_pos_right hlt p2
    rw [ea, eb] at this
    exact Nat.lt_of_mul_lt_mul_right this
  · intro hlt
    have : (findKey (.m1 b) t2).getD 0 * oc1 < (findKey (.m1 a) t2).getD 0 * oc1 := Nat.mul_lt_mul_of_pos_right hlt p1
    rw [← ea, ← eb] at this
    exact Nat.lt_of_mul_lt_mul_right this

/-! ### The totals and the numbers of types that enter the scores -/

theorem sumOf_add (p : Key → Bool) (k : Key) (c : Nat) (t : Table) :
    sumOf p (addKey k c t) = sumOf p t + (if p k then c else 0) := by
  induction t with
  | nil => cases h : p k <;> simp [addKey, sumOf, h]
  | cons e t ih =>
    obtain ⟨x, v⟩ := e
    by_cases h1 : x = k
    · subst h1
      cases h : p x <;> simp [addKey, sumOf, h]
      omega
    · simp only [addKey, h1, if_false]
      unfold sumOf at *
      cases h : p x
      · simpa [h] using ih
      · simp [h, ih]; omega

theorem sumOf_addAll (p : Key → Bool) (c : Nat) (ks : List Key) (t : Table) :
    sumOf p (ks.foldl (fun t k => addKey k c t) t) = sumOf p t + c * (ks.filter p).length := by
  induction ks generalizing t with
  | nil => simp
  | cons k ks ih =>
    rw [List.foldl_cons, ih, sumOf_add]
    cases h : p k <;> simp [h]
    ring

theorem sumOf_unit (md : Model) (p : Key → Bool) (c : Nat) (as : List Analysis) (t : Table) :
    sumOf p (as.foldl (fun t a => trainAnalysis md a c t) t) =
      sumOf p t + c * (as.map (fun a => ((keys md a).filter p).length)).sum := by
  induction as generalizing t with
  | nil => simp
  | cons a as ih =>
    rw [List.foldl_cons, ih]
    unfold trainAnalysis
    rw [sumOf_addAll]
    simp only [List.map_cons, List.sum_cons]
    ring

theorem sumOf_multiply (p : Key → Bool) (m : Nat) (t : Table) : sumOf p (multiply m t) = sumOf p t * m := by
  induction t with
  | nil => simp [multiply, sumOf]
  | cons e t ih =>
    obtain ⟨x, v⟩ := e
    unfold sumOf multiply at *
    cases h : p x
    · simpa [h] using ih
    · simp [h, ih, Nat.add_mul]

/-- How many keys of a kind training on a unit meets. -/
def occurrencesOf (md : Model) (p : Key → Bool) (u : LexicalUnit) : Nat :=
  (u.analyses.map (fun a => ((keys md a).filter p).length)).sum

/-- The weight of a kind of keys in a corpus. -/
def weightOf (md : Model) (p : Key → Bool) (us : List LexicalUnit) : ℚ :=
  (us.map (fun u => (occurrencesOf md p u : ℚ) / (u.analyses.length : ℚ))).sum

theorem sumOf_trainUnit (md : Model) (p : Key → Bool) (u : LexicalUnit) (s s' : Nat × Table) (hs : 0 < s.1)
    (h : trainUnit md u s = .ok s') (w : ℚ) (hw : (sumOf p s.2 : ℚ) = s.1 * w) :
    0 < s'.1 ∧ (sumOf p s'.2 : ℚ) = s'.1 * (w + (occurrencesOf md p u : ℚ) / (u.analyses.length : ℚ)) := by
  unfold trainUnit at h
  by_cases hne : u.analyses = []
  · simp [hne] at h
  · rw [if_neg hne] at h
    simp only [Outcome.ok.injEq] at h
    have hn : 0 < u.analyses.length := List.length_pos_iff.mpr hne
    generalize hN : u.analyses.length = n at *
    have hnq : (n : ℚ) ≠ 0 := by
      have : (0 : ℚ) < n := by exact_mod_cast hn
      exact ne_of_gt this
    by_cases hd : s.1 % n = 0
    · simp only [hd, ne_eq, not_true_eq_false, if_false] at h
      subst h
      refine ⟨hs, ?_⟩
      rw [sumOf_unit]
      have hdiv : ((s.1 / n : Nat) : ℚ) = s.1 / n := by
        obtain ⟨q, hq⟩ := Nat.dvd_of_mod_eq_zero hd
        rw [hq, Nat.mul_div_cancel_left _ hn]
        push_cast
        field_simp
      push_cast
      rw [hw, hdiv]
      rw [show ((List.map (fun a => ((keys md a).filter p).length) u.analyses).sum : ℚ) = (occurrencesOf md p u : ℚ) from rfl]
      field_simp
    · simp only [ne_eq, hd, not_false_eq_true, if_true] at h
      subst h
      refine ⟨Nat.mul_pos hs hn, ?_⟩
      rw [sumOf_unit, sumOf_multiply]
      have hdiv : s.1 * n / n = s.1 := Nat.mul_div_cancel _ hn
      simp only [hdiv]
      push_cast
      rw [hw, show ((List.map (fun a => ((keys md a).filter p).length) u.analyses).sum : ℚ) = (occurrencesOf md p u : ℚ) from rfl]
      field_simp

/-- **C26** the totals of the inner maps: for every kind of keys (for instance the keys of one tag sequence) the sum of
their counters is the coefficient times their weight. -/
theorem C26_totals (md : Model) (p : Key → Bool) (us : List LexicalUnit) (s s' : Nat × Table) (hs : 0 < s.1) (w : ℚ)
    (hw : (sumOf p s.2 : ℚ) = s.1 * w) (h : trainUnits md us s = .ok s') :
    (sumOf p s'.2 : ℚ) = s'.1 * (w + weightOf md p us) := by
  induction us generalizing s w with
  | nil =>
    simp [trainUnits] at h
    subst h
    simp [weightOf, hw]
  | cons u us ih =>
    rw [trainUnits] at h
    cases h1 : trainUnit md u s with
    | fail => simp [h1] at h
    | diverge => simp [h1] at h
    | ub => simp [h1] at h
    | ok s1 =>
      rw [h1] at h
      simp only [Outcome.bind_ok] at h
      obtain ⟨g1, g2⟩ := sumOf_trainUnit md p u s s1 hs h1 w hw
      rw [ih s1 g1 _ g2 h]
      simp [weightOf, add_assoc]

/-- The keys that training meets in a corpus. -/
def corpusKeys (md : Model) (us : List LexicalUnit) : List Key := us.flatMap (fun u => u.analyses.flatMap (keys md))

theorem addKey_keys (k : Key) (c : Nat) (t : Table) (hnd : (t.map (·.1)).Nodup) :
    ((addKey k c t).map (·.1)).Nodup ∧ ∀ x, x ∈ (addKey k c t).map (·.1) ↔ x ∈ t.map (·.1) ∨ x = k := by
  induction t with
  | nil => simp [addKey]
  | cons e t ih =>
    obtain ⟨y, v⟩ := e
    simp only [List.map_cons, List.nodup_cons] at hnd
    by_cases h : y = k
    · subst h
      simp only [addKey, if_true, List.map_cons, List.nodup_cons, List.mem_cons]
      refine ⟨hnd, fun x => ?_⟩
      constructor
      · intro hx; exact Or.inl hx
      · rintro (hx | hx)
        · exact hx
        · exact Or.inl hx
    · obtain ⟨i1, i2⟩ := ih hnd.2
      simp only [addKey, h, if_false, List.map_cons, List.nodup_cons, List.mem_cons]
      refine ⟨⟨?_, i1⟩, fun x => ?_⟩
      · rw [i2]
        rintro (hx | hx)
        · exact hnd.1 hx
        · exact h hx
      · rw [i2]; exact or_assoc.symm

theorem foldl_keys (c : Nat) (ks : List Key) (t : Table) (hnd : (t.map (·.1)).Nodup) :
    ((ks.foldl (fun t k => addKey k c t) t).map (·.1)).Nodup ∧
      ∀ x, x ∈ (ks.foldl (fun t k => addKey k c t) t).map (·.1) ↔ x ∈ t.map (·.1) ∨ x ∈ ks := by
  induction ks generalizing t with
  | nil => simp [hnd]
  | cons k ks ih =>
    obtain ⟨a1, a2⟩ := addKey_keys k c t hnd
    obtain ⟨i1, i2⟩ := ih _ a1
    refine ⟨i1, fun x => ?_⟩
    rw [List.foldl_cons, i2, a2, List.mem_cons, or_assoc]

theorem unit_keys (md : Model) (c : Nat) (as : List Analysis) (t : Table) (hnd : (t.map (·.1)).Nodup) :
    ((as.foldl (fun t a => trainAnalysis md a c t) t).map (·.1)).Nodup ∧
      ∀ x, x ∈ (as.foldl (fun t a => trainAnalysis md a c t) t).map (·.1) ↔ x ∈ t.map (·.1) ∨ x ∈ as.flatMap (keys md) := by
  induction as generalizing t with
  | nil => simp [hnd]
  | cons a as ih =>
    obtain ⟨a1, a2⟩ := foldl_keys c (keys md a) t hnd
    obtain ⟨i1, i2⟩ := ih _ a1
    refine ⟨i1, fun x => ?_⟩
    have := i2 x
    rw [a2, or_assoc] at this
    rw [List.flatMap_cons, List.mem_append]
    exact this

/-- **C26** the entries of the tables are the keys met in the corpus, each once: the numbers of types in the scores are
numbers of different lemmas (or tag sequences) seen. -/
theorem C26_types (md : Model) (us : List LexicalUnit) (s s' : Nat × Table) (hnd : (s.2.map (·.1)).Nodup)
    (h : trainUnits md us s = .ok s') :
    (s'.2.map (·.1)).Nodup ∧ ∀ x, x ∈ s'.2.map (·.1) ↔ x ∈ s.2.map (·.1) ∨ x ∈ corpusKeys md us := by
  induction us generalizing s with
  | nil =>
    simp [trainUnits] at h
    subst h
    simp [corpusKeys, hnd]
  | cons u us ih =>
    rw [trainUnits] at h
    cases h1 : trainUnit md u s with
    | fail => simp [h1] at h
    | diverge => simp [h1] at h
    | ub => simp [h1] at h
    | ok s1 =>
      rw [h1] at h
      simp only [Outcome.bind_ok] at h
      have hs1 : (s1.2.map (·.1)).Nodup ∧ ∀ x, x ∈ s1.2.map (·.1) ↔ x ∈ s.2.map (·.1) ∨ x ∈ u.analyses.flatMap (keys md) := by
        unfold trainUnit at h1
        split at h1
        · simp at h1
        · simp only [Outcome.ok.injEq] at h1
          have hmul : ∀ m, (multiply m s.2).map (·.1) = s.2.map (·.1) := by intro m; simp [multiply]
          by_cases hd : s.1 % u.analyses.length = 0
          · simp only [hd, ne_eq, not_true_eq_false, if_false] at h1
            subst h1
            exact unit_keys md _ _ _ hnd
          · simp only [ne_eq, hd, not_false_eq_true, if_true] at h1
            subst h1
            have := unit_keys md (s.1 * u.analyses.length / u.analyses.length) u.analyses (multiply u.analyses.length s.2)
              (by rw [hmul]; exact hnd)
            rw [hmul] at this
            exact this
      obtain ⟨i1, i2⟩ := ih s1 hs1.1 h
      refine ⟨i1, fun x => ?_⟩
      rw [i2, hs1.2]
      simp only [corpusKeys, List.flatMap_cons, List.mem_append, or_assoc]

/-- **C26** the score of model 2 after training on a corpus, from the weights of the corpus: with `w` the weight of the
analysis' lemma with its tags, `W` the weight of these tags with any lemma and `T` the number of lemmas seen with
them (one more if this lemma was not), it is `(oc·w + 1)(oc·W + 1) / (oc·W + 1 + T)`. -/
theorem C26_score_model2 (us : List LexicalUnit) (oc : Nat) (t : Table) (h : trainUnits .two us (1, []) = .ok (oc, t))
    (m : Morpheme) (ms : List Morpheme) :
    ∃ L : List Key, L.Nodup ∧ (∀ k, k ∈ L ↔ k ∈ corpusKeys .two us ∧ isM2 m.tags ms k = true) ∧
      score .two t ⟨m :: ms⟩ =
        (oc * weight .two (.m2 m.tags ms m.lemma) us + 1) * (oc * weightOf .two (isM2 m.tags ms) us + 1) /
        (oc * weightOf .two (isM2 m.tags ms) us + 1 +
          ((L.length + (if Key.m2 m.tags ms m.lemma ∈ corpusKeys .two us then 0 else 1) : Nat) : ℚ)) := by
  obtain ⟨h1, _, h3⟩ := trainUnits_step .two us (1, []) (oc, t) (by decide) h
  have e1 := h3 (.m2 m.tags ms m.lemma) 0 (by simp [counter, findKey])
  have e2 := C26_totals .two (isM2 m.tags ms) us (1, []) (oc, t) (by decide) 0 (by simp [sumOf]) h
  obtain ⟨k1, k2⟩ := C26_types .two us (1, []) (oc, t) (by simp) h
  simp only [List.map_nil, List.not_mem_nil, false_or] at k2
  refine ⟨(t.map (·.1)).filter (isM2 m.tags ms), k1.filter _, fun k => ?_, ?_⟩
  · rw [List.mem_filter, k2]
  · have hfind : ∀ (k : Key) (t : Table), (findKey k t).isSome = true ↔ k ∈ t.map (·.1) := by
      intro k t
      induction t with
      | nil => simp [findKey]
      | cons e t ih =>
        obtain ⟨x, v⟩ := e
        by_cases hx : x = k
        · simp [findKey, hx]
        · simp only [findKey, hx, if_false, ih, List.map_cons, List.mem_cons]
          constructor
          · exact Or.inr
          · rintro (hh | hh)
            · exact absurd hh.symm hx
            · exact hh
    have hlen : ((t.map (·.1)).filter (isM2 m.tags ms)).length = sizeOf' (isM2 m.tags ms) t := by
      rw [List.filter_map, List.length_map]; rfl
    simp only [score, tokens, total, types]
    simp only [counter, zero_add] at e1 e2
    rw [hlen]
    have hty : (if (findKey (Key.m2 m.tags ms m.lemma) t).isSome = true then 0 else 1) =
        (if Key.m2 m.tags ms m.lemma ∈ corpusKeys .two us then 0 else 1) := by
      have := hfind (Key.m2 m.tags ms m.lemma) t
      rw [k2] at this
      by_cases hc : Key.m2 m.tags ms m.lemma ∈ corpusKeys .two us
      · simp [hc, this.mpr hc]
      · have : ¬ (findKey (Key.m2 m.tags ms m.lemma) t).isSome = true := fun hh => hc (this.mp hh)
        simp [hc, this]
    rw [hty]
    push_cast
    rw [e1, e2]
    ring

/-- The number of different keys of a kind seen in a corpus, plus one if `k` is not among them. -/
def typesIn (md : Model) (p : Key → Bool) (k : Key) (us : List LexicalUnit) : Nat :=
  ((corpusKeys md us).filter p).dedup.length + (if k ∈ corpusKeys md us then 0 else 1)

theorem findKey_isSome (k : Key) (t : Table) : (findKey k t).isSome = true ↔ k ∈ t.map (·.1) := by
  induction t with
  | nil => simp [findKey]
  | cons e t ih =>
    obtain ⟨x, v⟩ := e
    by_cases hx : x = k
    · simp [findKey, hx]
    · simp only [findKey, hx, if_false, ih, List.map_cons, List.mem_cons]
      constructor
      · exact Or.inr
      · rintro (hh | hh)
        · exact absurd hh.symm hx
        · exact hh

/-- The numbers that enter the scores, from the corpus. -/
theorem score_numbers (md : Model) (us : List LexicalUnit) (oc : Nat) (t : Table)
    (h : trainUnits md us (1, []) = .ok (oc, t)) (p : Key → Bool) (k : Key) :
    ((tokens k t : Nat) : ℚ) = 1 + oc * weight md k us ∧ ((total p t : Nat) : ℚ) = 1 + oc * weightOf md p us ∧
      types p k t = typesIn md p k us := by
  obtain ⟨h1, _, h3⟩ := trainUnits_step md us (1, []) (oc, t) (by decide) h
  have e1 := h3 k 0 (by simp [counter, findKey])
  have e2 := C26_totals md p us (1, []) (oc, t) (by decide) 0 (by simp [sumOf]) h
  obtain ⟨k1, k2⟩ := C26_types md us (1, []) (oc, t) (by simp) h
  simp only [List.map_nil, List.not_mem_nil, false_or] at k2
  simp only [counter, zero_add] at e1 e2
  refine ⟨by simp only [tokens]; push_cast; rw [e1], by simp only [total]; push_cast; rw [e2], ?_⟩
  have hlen : sizeOf' p t = ((corpusKeys md us).filter p).dedup.length := by
    have e : sizeOf' p t = ((t.map (·.1)).filter p).length := by
      rw [List.filter_map, List.length_map]; rfl
    rw [e]
    apply List.Perm.length_eq
    rw [List.perm_ext_iff_of_nodup (k1.filter _) (List.nodup_dedup _)]
    intro x
    rw [List.mem_dedup, List.mem_filter, List.mem_filter, k2]
  unfold types typesIn
  rw [hlen, Nat.add_comm]
  congr 1
  have := findKey_isSome k t
  rw [k2] at this
  by_cases hc : k ∈ corpusKeys md us
  · simp [hc, this.mpr hc]
  · have : ¬ (findKey k t).isSome = true := fun hh => hc (this.mp hh)
    simp [hc, this]

/-- The smoothed count of a key and the smoothed total of its kind, in a corpus trained with coefficient `oc`. -/
def smoothed (oc : Nat) (us : List LexicalUnit) (k : Key) : ℚ := 1 + oc * weight .three k us
def smoothedTotal (oc : Nat) (us : List LexicalUnit) (p : Key → Bool) : ℚ := 1 + oc * weightOf .three p us

/-- The factor that model 3 has for two adjacent morphemes: the smoothed relative frequency of the second lemma after the
tags of the first, times that of the tags of the second with its lemma. -/
def adjacentFactor (oc : Nat) (us : List LexicalUnit) (prev m : Morpheme) : ℚ :=
  smoothed oc us (.clct prev.tags m.lemma) /
      (smoothedTotal oc us (isClct prev.tags) + typesIn .three (isClct prev.tags) (.clct prev.tags m.lemma) us) *
    (smoothed oc us (.ctcl m.lemma m.tags) /
      (smoothedTotal oc us (isCtcl m.lemma) + typesIn .three (isCtcl m.lemma) (.ctcl m.lemma m.tags) us))

/-- **C26** the score of model 3 after training on a corpus, from the weights of the corpus: the factor of the first
morpheme (as in model 2, with its tags only) times the factors of the pairs of adjacent morphemes. -/
theorem C26_score_model3 (us : List LexicalUnit) (oc : Nat) (t : Table) (h : trainUnits .three us (1, []) = .ok (oc, t))
    (m : Morpheme) (ms : List Morpheme) :
    score .three t ⟨m :: ms⟩ =
      smoothed oc us (.lt m.tags m.lemma) * smoothedTotal oc us (isLt m.tags) /
        (smoothedTotal oc us (isLt m.tags) + typesIn .three (isLt m.tags) (.lt m.tags m.lemma) us) *
      (((m :: ms).zip ms).map (fun p => adjacentFactor oc us p.1 p.2)).prod := by
  have hn := fun p k => score_numbers .three us oc t h p k
  have hmore : ∀ (ms : List Morpheme) (m : Morpheme),
      (((score3More t m ms).1 : Nat) : ℚ) / (((score3More t m ms).2 : Nat) : ℚ) =
        (((m :: ms).zip ms).map (fun p => adjacentFactor oc us p.1 p.2)).prod := by
    intro ms
    induction ms with
    | nil => intro m; simp [score3More]
    | cons m' ms ih =>
      intro m
      have := ih m'
      simp only [List.zip_cons_cons, List.map_cons, List.prod_cons]
      rw [← this]
      simp only [score3More, adjacentFactor, smoothed, smoothedTotal]
      rw [← (hn (isClct m.tags) (.clct m.tags m'.lemma)).1, ← (hn (isClct m.tags) (.clct m.tags m'.lemma)).2.1,
        ← (hn (isClct m.tags) (.clct m.tags m'.lemma)).2.2, ← (hn (isCtcl m'.lemma) (.ctcl m'.lemma m'.tags)).1,
        ← (hn (isCtcl m'.lemma) (.ctcl m'.lemma m'.tags)).2.1, ← (hn (isCtcl m'.lemma) (.ctcl m'.lemma m'.tags)).2.2]
      push_cast
      simp only [div_eq_mul_inv, mul_inv]
      ring
  rw [← hmore ms m]
  simp only [score, smoothed, smoothedTotal]
  rw [← (hn (isLt m.tags) (.lt m.tags m.lemma)).1, ← (hn (isLt m.tags) (.lt m.tags m.lemma)).2.1,
    ← (hn (isLt m.tags) (.lt m.tags m.lemma)).2.2]
  push_cast
  simp only [div_eq_mul_inv, mul_inv]
  ring

/-! ### Models 2 and 3 depend on the order of the corpus -/

def an (l t : Text) : Analysis := ⟨[⟨l, [t]⟩]⟩
def xUnit1 : LexicalUnit := ⟨t!"u", [an t!"b" t!"x", an t!"c" t!"x"]⟩
def xUnit2 : LexicalUnit := ⟨t!"v", [an t!"a" t!"n", an t!"a" t!"v", an t!"d" t!"x", an t!"a" t!"x"]⟩
def xUnit3 : LexicalUnit := ⟨t!"w", [an t!"a" t!"v"]⟩
def xTest : LexicalUnit := ⟨t!"z", [an t!"a" t!"n", an t!"d" t!"x"]⟩

/-- **C26 fails for the choice of models 2 and 3**: the coefficient depends on the order of the corpus (8 or 4 here), and
with it the weight of the added ones: the same three units in two orders make the tagger select different analyses of
the same word. -/
theorem C26_choice_violation (md : Model) (hmd : md = .two ∨ md = .three) :
    ∃ t1 t2, trainUnits md [xUnit1, xUnit2, xUnit3] (1, []) = .ok (8, t1) ∧
      trainUnits md [xUnit3, xUnit2, xUnit1] (1, []) = .ok (4, t2) ∧
      best (score md t1) gtQ xTest = some (an t!"d" t!"x") ∧ best (score md t2) gtQ xTest = some (an t!"a" t!"n") := by
  rcases hmd with rfl | rfl
  · exact ⟨_, _, rfl, rfl, by decide +kernel, by decide +kernel⟩
  · exact ⟨_, _, rfl, rfl, by decide +kernel, by decide +kernel⟩

end Verif.Unigram
