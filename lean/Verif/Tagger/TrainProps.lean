import Mathlib.Tactic.Linarith
import Mathlib.Tactic.FieldSimp
import Mathlib.Tactic.Ring
import Mathlib.Tactic.NormNum
import Mathlib.Tactic.Positivity
import Verif.Tagger.Train
/-!
# C21 (tag sequence rules), C49 (initial parameters are the smoothed counts, and probability distributions)
-/
namespace Verif.Tagger.Train

/-! ## sums -/

theorem sumTo_congr (n : Nat) (f g : Nat → ℚ) (h : ∀ j < n, f j = g j) : sumTo n f = sumTo n g := by
  induction n with
  | zero => rfl
  | succ n ih => rw [sumTo, sumTo, ih (fun j hj => h j (by omega)), h n (by omega)]

theorem sumTo_nonneg (n : Nat) (f : Nat → ℚ) (h : ∀ j < n, 0 ≤ f j) : 0 ≤ sumTo n f := by
  induction n with
  | zero => exact le_refl _
  | succ n ih =>
    have := ih (fun j hj => h j (by omega))
    have := h n (by omega)
    rw [sumTo]; linarith

theorem sumTo_ge (n : Nat) (f : Nat → ℚ) (h : ∀ j < n, 0 ≤ f j) (i : Nat) (hi : i < n) : f i ≤ sumTo n f := by
  induction n with
  | zero => omega
  | succ n ih =>
    rw [sumTo]
    by_cases hin : i = n
    · subst hin
      have := sumTo_nonneg i f (fun j hj => h j (by omega))
      linarith
    · have := ih (fun j hj => h j (by omega)) (by omega)
      have := h n (by omega)
      linarith

theorem sumTo_div (n : Nat) (f : Nat → ℚ) (c : ℚ) : sumTo n (fun j => f j / c) = sumTo n f / c := by
  induction n with
  | zero => simp [sumTo]
  | succ n ih => rw [sumTo, sumTo, ih]; ring

theorem sumTo_add (n : Nat) (f g : Nat → ℚ) : sumTo n (fun j => f j + g j) = sumTo n f + sumTo n g := by
  induction n with
  | zero => simp [sumTo]
  | succ n ih => rw [sumTo, sumTo, sumTo, ih]; ring

/-! ## C21 -/

/-- The transition from `i` to `j` is ruled out. -/
def Banned (r : Rules) (i j : Nat) : Prop := (i, j) ∈ r.forbid ∨ ∃ e ∈ r.enforce, e.1 = i ∧ j ∉ e.2

/-- The weights before the rows are divided by their sums: the matrix with the ruled out transitions set to 1e-10. -/
noncomputable def ruled (r : Rules) (a : Mat) (i j : Nat) : ℚ :=
  open Classical in if Banned r i j then ZERO else a i j

theorem applyForbid_spec (rs : List (Nat × Nat)) (a : Mat) (i j : Nat) :
    applyForbid rs a i j = if (i, j) ∈ rs then ZERO else a i j := by
  unfold applyForbid
  induction rs generalizing a with
  | nil => simp
  | cons r rs ih =>
    rw [List.foldl_cons, ih]
    unfold setCell
    by_cases h : (i, j) ∈ rs
    · simp [h]
    · by_cases h2 : (i, j) = r
      · subst h2; simp
      · have : ¬ (i = r.1 ∧ j = r.2) := fun hh => h2 (by rw [hh.1, hh.2])
        simp [h, h2, this]

theorem enforceRow_spec (js : List Nat) (t : Nat) (l : List Nat) (a : Mat) (i j : Nat) :
    js.foldl (fun a j => if j ∈ l then a else setCell a t j ZERO) a i j =
      if i = t ∧ j ∈ js ∧ j ∉ l then ZERO else a i j := by
  induction js generalizing a with
  | nil => simp
  | cons x js ih =>
    rw [List.foldl_cons, ih]
    by_cases hx : x ∈ l
    · simp only [hx, if_true]
      have : (i = t ∧ j ∈ x :: js ∧ j ∉ l) ↔ (i = t ∧ j ∈ js ∧ j ∉ l) := by
        constructor
        · rintro ⟨h1, h2, h3⟩
          rcases List.mem_cons.1 h2 with rfl | h2
          · exact absurd hx h3
          · exact ⟨h1, h2, h3⟩
        · rintro ⟨h1, h2, h3⟩
          exact ⟨h1, List.mem_cons_of_mem _ h2, h3⟩
      simp only [this]
    · simp only [hx, if_false, setCell]
      by_cases h1 : i = t ∧ j ∈ js ∧ j ∉ l
      · simp [h1]
      · by_cases h2 : i = t ∧ j = x
        · obtain ⟨rfl, rfl⟩ := h2
          simp [hx]
        · rw [if_neg h1, if_neg h2, if_neg]
          rintro ⟨h3, h4, h5⟩
          rcases List.mem_cons.1 h4 with h4 | h4
          · exact h2 ⟨h3, h4⟩
          · exact h1 ⟨h3, h4, h5⟩

theorem applyEnforce_spec (n : Nat) (rs : List (Nat × List Nat)) (a : Mat) (i j : Nat) (hj : j < n) :
    (applyEnforce n rs a i j = ZERO ∧ ∃ e ∈ rs, e.1 = i ∧ j ∉ e.2) ∨
    (applyEnforce n rs a i j = a i j ∧ ¬ ∃ e ∈ rs, e.1 = i ∧ j ∉ e.2) := by
  unfold applyEnforce
  induction rs generalizing a with
  | nil => right; simp
  | cons r rs ih =>
    rw [List.foldl_cons]
    rcases ih ((List.range n).foldl (fun a j => if j ∈ r.2 then a else setCell a r.1 j ZERO) a) with ⟨h1, e, he, h2⟩ | ⟨h1, h2⟩
    · exact .inl ⟨h1, e, List.mem_cons_of_mem _ he, h2⟩
    · rw [enforceRow_spec] at h1
      by_cases h3 : i = r.1 ∧ j ∈ List.range n ∧ j ∉ r.2
      · rw [if_pos h3] at h1
        exact .inl ⟨h1, r, List.mem_cons_self .., h3.1.symm, h3.2.2⟩
      · rw [if_neg h3] at h1
        refine .inr ⟨h1, ?_⟩
        rintro ⟨e, he, h4, h5⟩
        rcases List.mem_cons.1 he with rfl | he
        · exact h3 ⟨h4.symm, by simpa using hj, h5⟩
        · exact h2 ⟨e, he, h4, h5⟩

theorem beforeNorm_spec (n : Nat) (r : Rules) (a : Mat) (i j : Nat) (hj : j < n) :
    applyEnforce n r.enforce (applyForbid r.forbid a) i j = ruled r a i j := by
  classical
  unfold ruled
  rcases applyEnforce_spec n r.enforce (applyForbid r.forbid a) i j hj with ⟨h1, h2⟩ | ⟨h1, h2⟩
  · rw [h1, if_pos (.inr h2)]
  · rw [h1, applyForbid_spec]
    by_cases h3 : (i, j) ∈ r.forbid
    · rw [if_pos h3, if_pos (.inl h3)]
    · rw [if_neg h3, if_neg]
      rintro (h | h)
      · exact h3 h
      · exact h2 h

theorem zero_pos : 0 < ZERO := by unfold ZERO; norm_num

theorem ruled_nonneg (r : Rules) (a : Mat) (i j : Nat) (h : 0 ≤ a i j) : 0 ≤ ruled r a i j := by
  classical
  unfold ruled
  split
  · exact le_of_lt zero_pos
  · exact h

/-- The exact effect of the rules: every row is the row of the weights with the ruled out transitions set to 1e-10,
divided by its sum. -/
theorem applyRules_exact (n : Nat) (r : Rules) (a : Mat) (ha : ∀ i < n, ∀ j < n, 0 ≤ a i j) (i j : Nat) (hi : i < n)
    (hj : j < n) : applyRules n r a i j = ruled r a i j / sumTo n (ruled r a i) := by
  unfold applyRules normalize
  rw [if_pos ⟨hi, hj⟩, beforeNorm_spec n r a i j hj,
    sumTo_congr n _ (ruled r a i) (fun k hk => beforeNorm_spec n r a i k hk)]
  have h0 := sumTo_nonneg n (ruled r a i) (fun k hk => ruled_nonneg r a i k (ha i hi k hk))
  split
  · rfl
  · rename_i h
    have : sumTo n (ruled r a i) = 0 := le_antisymm (not_lt.1 h) h0
    rw [this]; simp

/-- **C21 (partial).**  For every matrix of non-negative numbers and every set of rules: after `apply_rules`
(1) every row is a probability distribution, or the whole row is zero and no transition from that tag is ruled out;
(2) a ruled out transition has probability at most 1e-10 divided by any weight that was permitted to stay in its row;
(3) permitted transitions keep their proportions.
*Missing*: "probability zero" — see `C21_never_zero_violation` and `C21_certain_violation`. -/
theorem C21_rules_partial (n : Nat) (r : Rules) (a : Mat) (ha : ∀ i < n, ∀ j < n, 0 ≤ a i j) (i : Nat) (hi : i < n) :
    ((∀ j < n, 0 ≤ applyRules n r a i j) ∧
      (sumTo n (applyRules n r a i) = 1 ∨
        ((∀ j < n, applyRules n r a i j = 0) ∧ ∀ j < n, a i j = 0 ∧ ¬ Banned r i j))) ∧
    (∀ j < n, Banned r i j → ∀ j' < n, ¬ Banned r i j' → 0 < a i j' → applyRules n r a i j ≤ ZERO / a i j') ∧
    (∀ j < n, ∀ j' < n, ¬ Banned r i j → ¬ Banned r i j' →
      applyRules n r a i j * a i j' = applyRules n r a i j' * a i j) := by
  classical
  have hnn : ∀ k < n, 0 ≤ ruled r a i k := fun k hk => ruled_nonneg r a i k (ha i hi k hk)
  have h0 := sumTo_nonneg n (ruled r a i) hnn
  have hex : ∀ j < n, applyRules n r a i j = ruled r a i j / sumTo n (ruled r a i) :=
    fun j hj => applyRules_exact n r a ha i j hi hj
  refine ⟨⟨fun j hj => by rw [hex j hj]; exact div_nonneg (hnn j hj) h0, ?_⟩, ?_, ?_⟩
  · rcases eq_or_lt_of_le h0 with h | h
    · right
      have hz : ∀ j < n, ruled r a i j = 0 := by
        intro j hj
        have := sumTo_ge n _ hnn j hj
        have := hnn j hj
        linarith
      refine ⟨fun j hj => by rw [hex j hj, hz j hj]; simp, fun j hj => ?_⟩
      have hb : ¬ Banned r i j := by
        intro hb
        have := hz j hj
        unfold ruled at this
        rw [if_pos hb] at this
        have := zero_pos
        linarith
      have := hz j hj
      unfold ruled at this
      rw [if_neg hb] at this
      exact ⟨this, hb⟩
    · left
      rw [sumTo_congr n _ _ hex, sumTo_div, div_self (ne_of_gt h)]
  · intro j hj hb j' hj' hb' hpos
    rw [hex j hj]
    have h1 : ruled r a i j = ZERO := by unfold ruled; rw [if_pos hb]
    have h2 : ruled r a i j' = a i j' := by unfold ruled; rw [if_neg hb']
    have h3 := sumTo_ge n _ hnn j' hj'
    rw [h2] at h3
    rw [h1]
    exact div_le_div_of_nonneg_left (le_of_lt zero_pos) hpos h3
  · intro j hj j' hj' hb hb'
    rw [hex j hj, hex j' hj']
    have h1 : ruled r a i j = a i j := by unfold ruled; rw [if_neg hb]
    have h2 : ruled r a i j' = a i j' := by unfold ruled; rw [if_neg hb']
    rw [h1, h2]
    ring

/-- A ruled out transition never gets probability zero: the code writes `ZERO`, which is 1e-10 (hmm.h:47), and
the row is then divided by its sum. -/
theorem C21_never_zero_violation (n : Nat) (r : Rules) (a : Mat) (ha : ∀ i < n, ∀ j < n, 0 ≤ a i j) (i j : Nat)
    (hi : i < n) (hj : j < n) (hb : Banned r i j) : 0 < applyRules n r a i j := by
  classical
  have hnn : ∀ k < n, 0 ≤ ruled r a i k := fun k hk => ruled_nonneg r a i k (ha i hi k hk)
  have h1 : ruled r a i j = ZERO := by unfold ruled; rw [if_pos hb]
  have h2 := sumTo_ge n _ hnn j hj
  have := zero_pos
  rw [applyRules_exact n r a ha i j hi hj, h1]
  apply div_pos zero_pos
  linarith

/-- If all other transitions from the tag have weight zero, the forbidden one becomes certain. -/
theorem C21_certain_violation :
    ∃ (n : Nat) (r : Rules) (a : Mat) (i j : Nat), (∀ i < n, ∀ j < n, 0 ≤ a i j) ∧ i < n ∧ j < n ∧
      (i, j) ∈ r.forbid ∧ applyRules n r a i j = 1 := by
  refine ⟨2, ⟨[(0, 1)], []⟩, fun _ j => if j = 1 then 1 else 0, 0, 1, ?_, by omega, by omega, by simp, ?_⟩
  · intro i _ j _; positivity
  · unfold applyRules normalize
    rw [if_pos (by omega)]
    simp [sumTo, applyEnforce, applyForbid, setCell, zero_pos, ne_of_gt zero_pos]

/-- a case with a forbid and an enforce rule -/
example : let r : Rules := ⟨[(0, 1)], [(1, [0])]⟩
    (Banned r 0 1 ∧ Banned r 1 2 ∧ ¬ Banned r 0 0 ∧ ¬ Banned r 2 2) := by
  refine ⟨.inl (by simp), .inr ⟨(1, [0]), by simp, rfl, by simp⟩, ?_, ?_⟩ <;> rintro (h | ⟨e, he, h1, h2⟩) <;> simp_all

/-! ## C49: counting -/

/-- How often `y` comes directly after `x` in a sequence. -/
def follows {β : Type} [DecidableEq β] (l : List β) (x y : β) : Nat := (l.zip l.tail).count (x, y)

theorem kupiecCount_spec (k0 : Nat) (ks : List Nat) :
    (∀ k, (kupiecCount k0 ks).occ k = 1 + ((k0 :: ks).dropLast.count k : Nat)) ∧
    (∀ x y, (kupiecCount k0 ks).pair x y = 1 + (follows (k0 :: ks) x y : Nat)) := by
  have hgen : ∀ (ks : List Nat) (s : KSt),
      (∀ k, (ks.foldl kupiecStep s).occ k = s.occ k + ((s.k1 :: ks).dropLast.count k : Nat)) ∧
      (∀ x y, (ks.foldl kupiecStep s).pair x y = s.pair x y + (follows (s.k1 :: ks) x y : Nat)) := by
    intro ks
    induction ks with
    | nil => intro s; constructor <;> intros <;> simp [follows]
    | cons k2 ks ih =>
      intro s
      rw [List.foldl_cons]
      obtain ⟨h1, h2⟩ := ih (kupiecStep s k2)
      have hk : (kupiecStep s k2).k1 = k2 := rfl
      rw [hk] at h1 h2
      constructor
      · intro k
        rw [h1 k]
        simp only [kupiecStep, List.dropLast_cons_cons, List.count_cons]
        by_cases hk : k = s.k1
        · subst hk
          simp
          ring
        · have : ¬ (s.k1 = k) := fun h => hk h.symm
          simp [hk, this]
      · intro x y
        rw [h2 x y]
        simp only [kupiecStep, setCell, follows, List.tail_cons, List.zip_cons_cons, List.count_cons]
        by_cases hxy : x = s.k1 ∧ y = k2
        · obtain ⟨rfl, rfl⟩ := hxy
          simp
          ring
        · have : ¬ ((s.k1, k2) = (x, y)) := by
            intro h
            simp only [Prod.mk.injEq] at h
            exact hxy ⟨h.1.symm, h.2.symm⟩
          simp [hxy, this]
  exact hgen ks _

theorem sumTo_pos (n : Nat) (f : Nat → ℚ) (h : ∀ j < n, 0 ≤ f j) (i : Nat) (hi : i < n) (hp : 0 < f i) : 0 < sumTo n f :=
  lt_of_lt_of_le hp (sumTo_ge n f h i hi)

/-- The smoothed expected number of transitions from tag `i` to tag `j` in a text with the ambiguity classes `l`:
every pair of classes is counted once more than it occurs, and shared evenly among its pairs of tags. -/
def expected (m : Nat) (cls : Nat → Tags) (l : List Nat) (i j : Nat) : ℚ :=
  sumTo m fun x => sumTo m fun y =>
    if i ∈ cls x ∧ j ∈ cls y then (1 + (follows l x y : ℚ)) / (((cls x).length : ℚ) * (cls y).length) else 0

/-- The same for the words of class `k` with tag `i`. -/
def expectedWords (cls : Nat → Tags) (l : List Nat) (k : Nat) : ℚ :=
  (1 + (l.dropLast.count k : ℚ)) / (cls k).length

theorem expected_nonneg (m : Nat) (cls : Nat → Tags) (l : List Nat) (i j : Nat) : 0 ≤ expected m cls l i j := by
  unfold expected
  apply sumTo_nonneg
  intro x _
  apply sumTo_nonneg
  intro y _
  split
  · positivity
  · exact le_refl _

theorem expected_pos (m : Nat) (cls : Nat → Tags) (l : List Nat) (i j x y : Nat) (hx : x < m) (hy : y < m) (hi : i ∈ cls x)
    (hj : j ∈ cls y) : 0 < expected m cls l i j := by
  have h1 : 0 < (cls x).length := List.length_pos_of_mem hi
  have h2 : 0 < (cls y).length := List.length_pos_of_mem hj
  have h1' : (0 : ℚ) < (cls x).length := by exact_mod_cast h1
  have h2' : (0 : ℚ) < (cls y).length := by exact_mod_cast h2
  unfold expected
  apply sumTo_pos m _ _ x hx
  · apply sumTo_pos m _ _ y hy
    · rw [if_pos ⟨hi, hj⟩]; positivity
    · intro y _
      split
      · positivity
      · exact le_refl _
  · intro x _
    apply sumTo_nonneg
    intro y _
    split
    · positivity
    · exact le_refl _

/-- **C49, unsupervised.**  For every sequence of ambiguity classes: the transition probability from `i` to `j` is the
smoothed expected number of such transitions divided by that of all transitions from `i`; the emission probability of class
`k` from one of its tags `i` is the smoothed expected number of words of that class with that tag divided by that of all words with
that tag.  For a tag that is in some class both are probability distributions, and all values are positive. -/
theorem C49_kupiec (n m : Nat) (cls : Nat → Tags) (k0 : Nat) (ks : List Nat) (b : Mat) (i x : Nat) (hi : i < n)
    (hx : x < m) (hix : i ∈ cls x) :
    (∀ j < n, kupiecA n m cls (kupiecCount k0 ks) i j =
      expected m cls (k0 :: ks) i j / sumTo n (expected m cls (k0 :: ks) i)) ∧
    sumTo n (kupiecA n m cls (kupiecCount k0 ks) i) = 1 ∧
    (∀ j < n, ∀ y < m, j ∈ cls y → 0 < kupiecA n m cls (kupiecCount k0 ks) i j) ∧
    (∀ k < m, i ∈ cls k → kupiecB m cls (kupiecCount k0 ks) b i k = expectedWords cls (k0 :: ks) k /
      sumTo m (fun k => if i ∈ cls k then expectedWords cls (k0 :: ks) k else 0)) ∧
    sumTo m (fun k => if i ∈ cls k then kupiecB m cls (kupiecCount k0 ks) b i k else 0) = 1 ∧
    (∀ k < m, i ∈ cls k → 0 < kupiecB m cls (kupiecCount k0 ks) b i k) := by
  obtain ⟨hocc, hpair⟩ := kupiecCount_spec k0 ks
  have hP : ∀ j, pairEstimate m cls (kupiecCount k0 ks).pair i j = expected m cls (k0 :: ks) i j := by
    intro j
    unfold pairEstimate expected
    apply sumTo_congr; intro x _
    apply sumTo_congr; intro y _
    rw [hpair]
  have hsum : 0 < sumTo n (expected m cls (k0 :: ks) i) :=
    sumTo_pos n _ (fun j _ => expected_nonneg m cls _ i j) i hi (expected_pos m cls _ i i x x hx hx hix hix)
  have hA : ∀ j, kupiecA n m cls (kupiecCount k0 ks) i j =
      expected m cls (k0 :: ks) i j / sumTo n (expected m cls (k0 :: ks) i) := by
    intro j
    unfold kupiecA
    simp only []
    rw [sumTo_congr n _ (expected m cls (k0 :: ks) i) (fun j _ => hP j), if_pos hsum, hP]
  have hE : tagsEstimate m cls (kupiecCount k0 ks).occ i =
      sumTo m (fun k => if i ∈ cls k then expectedWords cls (k0 :: ks) k else 0) := by
    unfold tagsEstimate
    apply sumTo_congr; intro k _
    by_cases h : i ∈ cls k
    · rw [if_pos h, if_pos h, hocc]; rfl
    · rw [if_neg h, if_neg h]
  have hwpos : ∀ k, i ∈ cls k → 0 < expectedWords cls (k0 :: ks) k := by
    intro k hk
    have h1 : 0 < (cls k).length := List.length_pos_of_mem hk
    have h1' : (0 : ℚ) < (cls k).length := by exact_mod_cast h1
    unfold expectedWords
    positivity
  have hwnn : ∀ k < m, (0 : ℚ) ≤ if i ∈ cls k then expectedWords cls (k0 :: ks) k else 0 := by
    intro k _
    split
    · exact le_of_lt (hwpos k (by assumption))
    · exact le_refl _
  have hEpos : 0 < sumTo m (fun k => if i ∈ cls k then expectedWords cls (k0 :: ks) k else 0) :=
    sumTo_pos m _ hwnn x hx (by simp only [hix, if_true]; exact hwpos x hix)
  have hB : ∀ k, i ∈ cls k → kupiecB m cls (kupiecCount k0 ks) b i k = expectedWords cls (k0 :: ks) k /
      sumTo m (fun k => if i ∈ cls k then expectedWords cls (k0 :: ks) k else 0) := by
    intro k hk
    unfold kupiecB
    rw [if_pos hk, hE, if_pos hEpos, hocc]
    rfl
  refine ⟨fun j _ => hA j, ?_, ?_, fun k _ hk => hB k hk, ?_, ?_⟩
  · rw [sumTo_congr n _ _ (fun j _ => hA j), sumTo_div, div_self (ne_of_gt hsum)]
  · intro j hj y hy hjy
    rw [hA]
    exact div_pos (expected_pos m cls _ i j x y hx hy hix hjy) hsum
  · rw [sumTo_congr m _ (fun k => (if i ∈ cls k then expectedWords cls (k0 :: ks) k else 0) /
      sumTo m (fun k => if i ∈ cls k then expectedWords cls (k0 :: ks) k else 0)), sumTo_div, div_self (ne_of_gt hEpos)]
    intro k _
    by_cases h : i ∈ cls k
    · rw [if_pos h, if_pos h, hB k h]
    · rw [if_neg h, if_neg h]; simp
  · intro k _ hk
    rw [hB k hk]
    exact div_pos (hwpos k hk) hEpos

/-! ### supervised -/

theorem supCount_spec (eos : Nat) (ws : List SWord) :
    (∀ x y, (supCount eos ws).pair x y = (follows (some eos :: ws.map (·.tag)) (some x) (some y) : Nat)) ∧
    (∀ t k, (supCount eos ws).emission t k = ((ws.map fun w => (w.tag, w.cls)).count (some t, k) : Nat)) := by
  have hgen : ∀ (ws : List SWord) (s : SSt),
      (∀ x y, (ws.foldl supStep s).pair x y = s.pair x y + (follows (s.tag1 :: ws.map (·.tag)) (some x) (some y) : Nat)) ∧
      (∀ t k, (ws.foldl supStep s).emission t k = s.emission t k + ((ws.map fun w => (w.tag, w.cls)).count (some t, k) : Nat)) := by
    intro ws
    induction ws with
    | nil => intro s; constructor <;> intros <;> simp [follows]
    | cons w ws ih =>
      intro s
      rw [List.foldl_cons]
      obtain ⟨h1, h2⟩ := ih (supStep s w)
      have hk : (supStep s w).tag1 = w.tag := rfl
      rw [hk] at h1
      constructor
      · intro x y
        rw [h1 x y]
        simp only [supStep, follows, List.map_cons, List.tail_cons, List.zip_cons_cons, List.count_cons]
        cases h3 : s.tag1 with
        | none => simp
        | some t2 =>
          cases h4 : w.tag with
          | none => simp
          | some t1 =>
            simp only [setCell]
            by_cases hxy : x = t2 ∧ y = t1
            · obtain ⟨rfl, rfl⟩ := hxy
              simp
              ring
            · have : ¬ ((some t2, some t1) = (some x, some y)) := by
                intro h
                simp only [Prod.mk.injEq, Option.some.injEq] at h
                exact hxy ⟨h.1.symm, h.2.symm⟩
              simp [hxy, this]
      · intro t k
        rw [h2 t k]
        simp only [supStep, List.map_cons, List.count_cons]
        cases h4 : w.tag with
        | none => simp
        | some t1 =>
          simp only [setCell]
          by_cases hxy : t = t1 ∧ k = w.cls
          · obtain ⟨rfl, rfl⟩ := hxy
            simp
            ring
          · have : ¬ ((some t1, w.cls) = (some t, k)) := by
              intro h
              simp only [Prod.mk.injEq, Option.some.injEq] at h
              exact hxy ⟨h.1.symm, h.2.symm⟩
            simp [hxy, this]
  obtain ⟨h1, h2⟩ := hgen ws { tag1 := some eos, pair := fun _ _ => 0, emission := fun _ _ => 0 }
  refine ⟨fun x y => ?_, fun t k => ?_⟩
  · unfold supCount; rw [h1 x y]; simp
  · unfold supCount; rw [h2 t k]; simp

theorem sumTo_one (n : Nat) : sumTo n (fun _ => 1) = n := by
  induction n with
  | zero => simp [sumTo]
  | succ n ih => rw [sumTo, ih]; push_cast; ring

/-- **C49, supervised.**  For every tagged text: the transition probability from `i` to `j` is (1 + the number of times `j`
follows `i`) / (number of tags + number of times a tag follows `i`), every row of transitions is a probability
distribution with positive values; and the emission probabilities of the classes of a tag are (number of times the tag occurs with the
class + 1/number of its classes)/(1 + number of times it occurs with one of its classes), a probability distribution with
positive values. -/
theorem C49_supervised (n m : Nat) (cls : Nat → Tags) (eos : Nat) (ws : List SWord) (b : Mat) (i : Nat) (hn : 0 < n) :
    let c := fun x y => ((follows (some eos :: ws.map (·.tag)) (some x) (some y) : Nat) : ℚ)
    let e := fun t k => (((ws.map fun w => (w.tag, w.cls)).count (some t, k) : Nat) : ℚ)
    (∀ j < n, supA n (supCount eos ws) i j = (c i j + 1) / (n + sumTo n (c i))) ∧
    sumTo n (supA n (supCount eos ws) i) = 1 ∧
    (∀ j < n, 0 < supA n (supCount eos ws) i j) ∧
    (∀ x < m, i ∈ cls x →
      (∀ k < m, i ∈ cls k → supB m cls (supCount eos ws) b i k =
        (e i k + 1 / sumTo m (fun k => if i ∈ cls k then 1 else 0)) /
          (1 + sumTo m (fun k => if i ∈ cls k then e i k else 0)) ∧ 0 < supB m cls (supCount eos ws) b i k) ∧
      sumTo m (fun k => if i ∈ cls k then supB m cls (supCount eos ws) b i k else 0) = 1) := by
  intro c e
  obtain ⟨hpair, hem⟩ := supCount_spec eos ws
  have hc : ∀ x y, (supCount eos ws).pair x y = c x y := hpair
  have he : ∀ t k, (supCount eos ws).emission t k = e t k := hem
  have hcn : ∀ x y, 0 ≤ c x y := fun x y => Nat.cast_nonneg _
  have hen : ∀ x y, 0 ≤ e x y := fun x y => Nat.cast_nonneg _
  have hs : sumTo n (fun j => (supCount eos ws).pair i j + 1) = n + sumTo n (c i) := by
    rw [sumTo_add, sumTo_one, sumTo_congr n _ (c i) (fun j _ => hc i j)]; ring
  have hspos : (0 : ℚ) < n + sumTo n (c i) := by
    have := sumTo_nonneg n (c i) (fun j _ => hcn i j)
    have : (0 : ℚ) < n := by exact_mod_cast hn
    linarith
  have hA : ∀ j, supA n (supCount eos ws) i j = (c i j + 1) / (n + sumTo n (c i)) := by
    intro j; unfold supA; rw [hs, hc]
  refine ⟨fun j _ => hA j, ?_, ?_, ?_⟩
  · rw [sumTo_congr n _ _ (fun j _ => hA j), sumTo_div, sumTo_add, sumTo_one, add_comm (sumTo n fun j => c i j),
      div_self (ne_of_gt hspos)]
  · intro j _
    rw [hA]
    have := hcn i j
    positivity
  · intro x hx hix
    have h1 : (0 : ℚ) < sumTo m (fun k => if i ∈ cls k then 1 else 0) :=
      sumTo_pos m _ (fun k _ => by split <;> norm_num) x hx (by simp [hix])
    have h2 : (0 : ℚ) ≤ sumTo m (fun k => if i ∈ cls k then e i k else 0) :=
      sumTo_nonneg m _ (fun k _ => by split; exact hen i k; exact le_refl _)
    have hB : ∀ k, i ∈ cls k → supB m cls (supCount eos ws) b i k =
        (e i k + 1 / sumTo m (fun k => if i ∈ cls k then 1 else 0)) /
          (1 + sumTo m (fun k => if i ∈ cls k then e i k else 0)) := by
      intro k hk
      unfold supB
      have hs2 : sumTo m (fun k => if i ∈ cls k then (supCount eos ws).emission i k else 0) =
          sumTo m (fun k => if i ∈ cls k then e i k else 0) := sumTo_congr m _ _ (fun k _ => by rw [he])
      rw [if_pos hk, he, add_comm 1, hs2]
    refine ⟨fun k _ hk => ⟨hB k hk, ?_⟩, ?_⟩
    · rw [hB k hk]
      have := hen i k
      positivity
    · have hterm : ∀ k < m, (if i ∈ cls k then supB m cls (supCount eos ws) b i k else 0) =
          ((if i ∈ cls k then e i k else 0) + (if i ∈ cls k then 1 else 0) / sumTo m (fun k => if i ∈ cls k then 1 else 0)) /
            (1 + sumTo m (fun k => if i ∈ cls k then e i k else 0)) := by
        intro k _
        by_cases h : i ∈ cls k
        · rw [if_pos h, if_pos h, if_pos h, hB k h]
        · rw [if_neg h, if_neg h, if_neg h]; simp
      rw [sumTo_congr m _ _ hterm, sumTo_div, sumTo_add, sumTo_div, div_self (ne_of_gt h1), add_comm, div_self]
      linarith

/-- three tags, two classes, a text of three words -/
example : expected 2 (fun k => if k = 0 then [0] else [1, 2]) [0, 1, 1, 0] 1 2 = 1 / 2 := by
  simp [expected, sumTo, follows]
  norm_num

end Verif.Tagger.Train
