import Verif.TmxSim.Spec
import Verif.Tmx.Cases
/-!
# C95: proofs
-/
namespace Verif.TmxSim

/-- The numbers that only `a` has and that come before some word of `b`: the others the code does not see. -/
def seen (a b : Phrase) : Nat := (extra a b).countP fun w => isNumber w = true ∧ ∃ v ∈ b, w < v

theorem count_zero {x : Word} {p : Phrase} (h : ∀ v ∈ p, x < v) : Multiset.count x (p : Multiset Word) = 0 :=
  Multiset.count_eq_zero.2 fun hm => lt_irrefl x (h x (by simpa using hm))

theorem count_other {x w : Word} {p : Phrase} (h : ¬ w = x) : Multiset.count w ((x :: p : List Word) : Multiset Word) = Multiset.count w (p : Multiset Word) := by
  rw [← Multiset.cons_coe, Multiset.count_cons_of_ne h]

theorem count_this {w : Word} {p : Phrase} : Multiset.count w ((w :: p : List Word) : Multiset Word) = Multiset.count w (p : Multiset Word) + 1 := by
  rw [← Multiset.cons_coe, Multiset.count_cons_self]

theorem common_lt {x y : Word} {xs ys : Phrase} (h : ∀ v ∈ y :: ys, x < v) : common (x :: xs) (y :: ys) = common xs (y :: ys) := by
  ext w
  simp only [common, Multiset.count_inter]
  by_cases hw : w = x
  · subst hw
    rw [count_zero h]
    simp
  · rw [count_other hw]

theorem common_gt {x y : Word} {xs ys : Phrase} (h : ∀ v ∈ x :: xs, y < v) : common (x :: xs) (y :: ys) = common (x :: xs) ys := by
  have := common_lt (x := y) (y := x) (xs := ys) (ys := xs) h
  unfold common at *
  rw [Multiset.inter_comm, this, Multiset.inter_comm]

theorem common_eq (x : Word) (xs ys : Phrase) : common (x :: xs) (x :: ys) = x ::ₘ common xs ys := by
  ext w
  simp only [common, Multiset.count_inter]
  by_cases hw : w = x
  · subst hw
    rw [count_this, count_this, Multiset.count_cons_self, Multiset.count_inter]
    omega
  · rw [count_other hw, count_other hw, Multiset.count_cons_of_ne hw, Multiset.count_inter]

theorem extra_lt {x y : Word} {xs ys : Phrase} (h : ∀ v ∈ y :: ys, x < v) : extra (x :: xs) (y :: ys) = x ::ₘ extra xs (y :: ys) := by
  ext w
  simp only [extra, Multiset.count_sub]
  by_cases hw : w = x
  · subst hw
    rw [count_zero h, count_this, Multiset.count_cons_self, Multiset.count_sub, count_zero h]
    omega
  · rw [count_other hw, Multiset.count_cons_of_ne hw, Multiset.count_sub]

theorem extra_gt {x y : Word} {xs ys : Phrase} (h : ∀ v ∈ x :: xs, y < v) : extra (x :: xs) (y :: ys) = extra (x :: xs) ys := by
  ext w
  simp only [extra, Multiset.count_sub]
  by_cases hw : w = y
  · subst hw
    rw [count_zero h]
    omega
  · rw [count_other (x := y) hw]

theorem extra_eq (x : Word) (xs ys : Phrase) : extra (x :: xs) (x :: ys) = extra xs ys := by
  ext w
  simp only [extra, Multiset.count_sub]
  by_cases hw : w = x
  · subst hw
    rw [count_this, count_this]
    omega
  · rw [count_other hw, count_other hw]

theorem mem_extra {w : Word} {a b : Phrase} (h : w ∈ extra a b) : w ∈ a := by
  have := Multiset.mem_of_le (Multiset.sub_le_self (a : Multiset Word) b) h
  simpa using this

theorem seen_lt {x y : Word} {xs ys : Phrase} (h : ∀ v ∈ y :: ys, x < v) :
    seen (x :: xs) (y :: ys) = seen xs (y :: ys) + if isNumber x = true then 1 else 0 := by
  unfold seen
  rw [extra_lt h, Multiset.countP_cons]
  congr 1
  by_cases hn : isNumber x = true
  · rw [if_pos hn, if_pos ⟨hn, y, by simp, h y (by simp)⟩]
  · rw [if_neg hn, if_neg (fun hh => hn hh.1)]

theorem seen_gt {x y : Word} {xs ys : Phrase} (h : ∀ v ∈ x :: xs, y < v) : seen (x :: xs) (y :: ys) = seen (x :: xs) ys := by
  unfold seen
  rw [extra_gt h]
  apply Multiset.countP_congr rfl
  intro w hw
  have := h w (mem_extra hw)
  simp only [List.mem_cons, exists_eq_or_imp, not_lt_of_gt this, false_or]

theorem seen_eq {x : Word} {xs ys : Phrase} (h : ∀ v ∈ xs, x ≤ v) : seen (x :: xs) (x :: ys) = seen xs ys := by
  unfold seen
  rw [extra_eq]
  apply Multiset.countP_congr rfl
  intro w hw
  have := h w (mem_extra hw)
  simp only [List.mem_cons, exists_eq_or_imp, not_lt_of_ge this, false_or]

theorem seen_nil_right (a : Phrase) : seen a [] = 0 := by
  unfold seen
  rw [Multiset.countP_eq_zero]
  rintro w _ ⟨_, v, hv, _⟩
  simp at hv

theorem seen_nil_left (b : Phrase) : seen [] b = 0 := by
  unfold seen
  rw [Multiset.countP_eq_zero]
  intro w hw
  have := mem_extra hw
  simp at this

/-- The loop on ordered sentences. -/
theorem walk_eq : ∀ (xs ys : Phrase), xs.Pairwise (· ≤ ·) → ys.Pairwise (· ≤ ·) →
    walk xs ys = ⟨(common xs ys).card, seen xs ys + seen ys xs, numbers (common xs ys)⟩
  | [], ys, _, _ => by
    rw [walk, seen_nil_left, seen_nil_right]
    simp [common, numbers]
  | x :: xs, [], _, _ => by
    rw [walk, seen_nil_left, seen_nil_right]
    simp [common, numbers]
  | x :: xs, y :: ys, hx, hy => by
    have hx1 := (List.pairwise_cons.1 hx).1
    have hy1 := (List.pairwise_cons.1 hy).1
    have hx2 := (List.pairwise_cons.1 hx).2
    have hy2 := (List.pairwise_cons.1 hy).2
    rw [walk]
    by_cases h : x < y
    · have hall : ∀ v ∈ y :: ys, x < v := by
        intro v hv
        rcases List.mem_cons.1 hv with rfl | hv
        · exact h
        · exact lt_of_lt_of_le h (hy1 v hv)
      rw [if_pos h, walk_eq xs (y :: ys) hx2 hy, common_lt hall, seen_lt hall, seen_gt hall]
      simp only [Counts.mk.injEq, true_and, and_true]
      omega
    · rw [if_neg h]
      by_cases h' : y < x
      · have hall : ∀ v ∈ x :: xs, y < v := by
          intro v hv
          rcases List.mem_cons.1 hv with rfl | hv
          · exact h'
          · exact lt_of_lt_of_le h' (hx1 v hv)
        rw [if_pos h', walk_eq (x :: xs) ys hx hy2, common_gt hall, seen_lt hall, seen_gt hall]
        simp only [Counts.mk.injEq, true_and, and_true]
        omega
      · rw [if_neg h']
        have e : x = y := le_antisymm (not_lt.1 h') (not_lt.1 h)
        subst e
        rw [walk_eq xs ys hx2 hy2, common_eq, seen_eq hx1, seen_eq hy1]
        simp only [numbers, Multiset.card_cons, Multiset.countP_cons]
termination_by xs ys => xs.length + ys.length

theorem sorted_perm (p : Phrase) : (sorted p).Perm p := List.mergeSort_perm _ _

theorem sorted_pairwise (p : Phrase) : (sorted p).Pairwise (· ≤ ·) := by
  have := List.pairwise_mergeSort (le := fun a b : Word => decide (a ≤ b)) (fun a b c h1 h2 => by simp only [decide_eq_true_eq] at *; exact le_trans h1 h2)
    (fun a b => by simp only [Bool.or_eq_true, decide_eq_true_eq]; exact le_total a b) p
  exact this.imp fun h => by simpa using h

theorem common_perm {a a' b b' : Phrase} (h : a.Perm a') (h' : b.Perm b') : common a b = common a' b' := by
  unfold common
  rw [Multiset.coe_eq_coe.2 h, Multiset.coe_eq_coe.2 h']

theorem extra_perm {a a' b b' : Phrase} (h : a.Perm a') (h' : b.Perm b') : extra a b = extra a' b' := by
  unfold extra
  rw [Multiset.coe_eq_coe.2 h, Multiset.coe_eq_coe.2 h']

theorem seen_perm {a a' b b' : Phrase} (h : a.Perm a') (h' : b.Perm b') : seen a b = seen a' b' := by
  unfold seen
  rw [extra_perm h h']
  simp only [h'.mem_iff]

theorem paragraph_sorted (p : Phrase) : isParagraph (sorted p) = isParagraph p := by
  have : sorted p = [[60, 112, 62]] ↔ p = [[60, 112, 62]] := by
    constructor
    · intro h
      have := sorted_perm p
      rw [h] at this
      exact (List.perm_singleton.1 this.symm)
    · rintro rfl; simp [sorted]
  unfold isParagraph
  simp only [this]

/-- The similarity that the code finds. -/
theorem C95_exact (a b : Phrase) : scoreByIdentity (sorted a) (sorted b) =
    if isParagraph a = true ∧ isParagraph b = true then 31 / 100
    else if isParagraph a = true ∨ isParagraph b = true then -1
    else 3 * ((((common a b).card + if 0 < numbers (common a b) ∧ 5 * (seen a b + seen b a) ≤ numbers (common a b) then 10 else 0 : Nat) : ℚ) /
      ((min a.length b.length : Nat) + 1)) := by
  unfold scoreByIdentity specializedIntersectionSize
  rw [walk_eq _ _ (sorted_pairwise a) (sorted_pairwise b), paragraph_sorted, paragraph_sorted, common_perm (sorted_perm a) (sorted_perm b),
    seen_perm (sorted_perm a) (sorted_perm b), seen_perm (sorted_perm b) (sorted_perm a), (sorted_perm a).length_eq, (sorted_perm b).length_eq]
  have h5 : ∀ x y : Nat, x ≤ y / 5 ↔ 5 * x ≤ y := fun x y => by omega
  simp only [h5]
  by_cases h : 0 < numbers (common a b) ∧ 5 * (seen a b + seen b a) ≤ numbers (common a b)
  · simp only [if_pos h, mul_comm]
  · simp only [if_neg h, mul_comm, add_zero]

/-- The numbers are the words of digits. -/
theorem C95_number (w : Word) : isNumber w = true ↔ ∀ c ∈ w, c ∈ (t!"0123456789").map Char.toNat := by
  have h : (t!"0123456789").map Char.toNat = [48, 49, 50, 51, 52, 53, 54, 55, 56, 57] := by decide
  rw [h]
  simp only [isNumber, List.all_eq_true, decide_eq_true_eq, List.mem_cons, List.not_mem_nil, or_false]
  constructor
  · intro h c hc
    have := h c hc
    omega
  · intro h c hc
    have := h c hc
    omega

theorem number_lt {w : Word} (h : isNumber w = true) {c : Nat} {r : Word} (hc : 57 < c) : w < c :: r := by
  cases w with
  | nil => exact List.Lex.nil
  | cons d s =>
    simp only [isNumber, List.all_cons, Bool.and_eq_true, decide_eq_true_eq] at h
    exact List.Lex.rel (by omega)

theorem seen_late {a b : Phrase} (h : HasLate b) : seen a b = numbers (extra a b) := by
  unfold seen numbers
  apply Multiset.countP_congr rfl
  intro w _
  obtain ⟨v, hv, c, r, rfl, hc⟩ := h
  simp only [eq_iff_iff, and_iff_left_iff_imp]
  intro hw
  exact ⟨_, hv, number_lt hw hc⟩

/-- The similarity is the one wanted, if each of the sentences has a word that comes after all numbers. -/
theorem C95_score_partial (a b : Phrase) (ha : HasLate a) (hb : HasLate b) : scoreByIdentity (sorted a) (sorted b) = Similarity a b := by
  rw [C95_exact, seen_late hb, seen_late ha]
  rfl

/-- It does not matter in which order the words are, -/
theorem C95_order {a a' b b' : Phrase} (ha : a.Perm a') (hb : b.Perm b') : scoreByIdentity (sorted a) (sorted b) = scoreByIdentity (sorted a') (sorted b') := by
  have hp : ∀ {p q : Phrase}, p.Perm q → sorted p = sorted q := by
    intro p q h
    exact ((sorted_perm p).trans (h.trans (sorted_perm q).symm)).eq_of_pairwise (fun a b _ _ h1 h2 => le_antisymm h1 h2) (sorted_pairwise p) (sorted_pairwise q)
  rw [hp ha, hp hb]

/-- nor which sentence comes first. -/
theorem C95_symmetric (a b : Phrase) : scoreByIdentity (sorted a) (sorted b) = scoreByIdentity (sorted b) (sorted a) := by
  have hc : common a b = common b a := Multiset.inter_comm _ _
  rw [C95_exact, C95_exact, hc, min_comm, Nat.add_comm (seen a b)]
  simp only [and_comm, or_comm]

theorem common_le (a b : Phrase) : (common a b).card ≤ min a.length b.length := by
  have h1 := Multiset.card_le_card (Multiset.inter_le_left (s := (a : Multiset Word)) (t := b))
  have h2 := Multiset.card_le_card (Multiset.inter_le_right (s := (a : Multiset Word)) (t := b))
  simp only [Multiset.coe_card] at h1 h2
  exact le_min h1 h2

theorem numbers_le (s : Multiset Word) : numbers s ≤ s.card := Multiset.countP_le_card _ _

/-- The similarity is between -1 and 16.5. -/
theorem C95_bounds (a b : Phrase) : -1 ≤ scoreByIdentity (sorted a) (sorted b) ∧ scoreByIdentity (sorted a) (sorted b) ≤ 33 / 2 := by
  rw [C95_exact]
  split
  · constructor <;> norm_num
  · split
    · constructor <;> norm_num
    · have hc := common_le a b
      have hn := numbers_le (common a b)
      generalize (common a b).card = c at *
      generalize numbers (common a b) = n at *
      generalize min a.length b.length = m at *
      have hm : (0 : ℚ) < (m : ℚ) + 1 := by positivity
      constructor
      · have : (0 : ℚ) ≤ 3 * (((c + if 0 < n ∧ 5 * (seen a b + seen b a) ≤ n then 10 else 0 : Nat) : ℚ) / ((m : Nat) + 1)) := by positivity
        linarith
      · have h2 : 2 * (c + if 0 < n ∧ 5 * (seen a b + seen b a) ≤ n then 10 else 0) ≤ 11 * (m + 1) := by
          split <;> omega
        have h3 : (2 : ℚ) * ((c + if 0 < n ∧ 5 * (seen a b + seen b a) ≤ n then 10 else 0 : Nat) : ℚ) ≤ 11 * ((m : ℚ) + 1) := by exact_mod_cast h2
        have h4 : ((c + if 0 < n ∧ 5 * (seen a b + seen b a) ≤ n then 10 else 0 : Nat) : ℚ) / ((m : Nat) + 1) ≤ 11 / 2 := by
          rw [div_le_iff₀ hm]; linarith
        linarith

/-- A sentence without numbers is as similar to itself as any sentence is to it (a paragraph mark apart). -/
theorem C95_self (a b : Phrase) (hn : numbers (a : Multiset Word) = 0) (hp : isParagraph a = false) :
    scoreByIdentity (sorted a) (sorted b) ≤ scoreByIdentity (sorted a) (sorted a) := by
  have h0 : ∀ c, numbers (common a c) = 0 := by
    intro c
    have := Multiset.countP_le_of_le (fun w => isNumber w = true) (Multiset.inter_le_left (s := (a : Multiset Word)) (t := c))
    unfold numbers common at *
    omega
  have hs : common a a = (a : Multiset Word) := by
    unfold common
    ext w
    simp
  rw [C95_exact, C95_exact, h0, h0, hs]
  simp only [hp, Bool.false_eq_true, false_and, false_or, if_false, lt_irrefl, add_zero, or_self, min_self, Multiset.coe_card]
  have hmin := common_le a b
  have hle : min a.length b.length ≤ a.length := min_le_left _ _
  have hpos : (0 : ℚ) ≤ 3 * ((a.length : ℚ) / ((a.length : Nat) + 1)) := by positivity
  split
  · linarith
  · generalize (common a b).card = c at *
    generalize min a.length b.length = m at *
    have h1 : (0 : ℚ) < (m : ℚ) + 1 := by positivity
    have h2 : (0 : ℚ) < (a.length : ℚ) + 1 := by positivity
    have : (c : ℚ) / ((m : Nat) + 1) ≤ (a.length : ℚ) / ((a.length : Nat) + 1) := by
      rw [div_le_div_iff₀ h1 h2]
      have h3 : (c : ℚ) ≤ m := by exact_mod_cast hmin
      have h4 : (m : ℚ) ≤ a.length := by exact_mod_cast hle
      nlinarith
    linarith

/-! ## The alignment of two files -/

theorem matrix_le (hu en : List Phrase) (thick i j : Nat) : matrix hu en thick i j ≤ 1000000 := by
  unfold matrix Tmx.Band.read
  split
  · have := (C95_bounds (hu.getD i []) (en.getD j [])).2
    linarith
  · norm_num

theorem phraseLength_nonneg (utf : Bool) (p : Phrase) : 0 ≤ phraseLength utf p := by
  unfold phraseLength
  split
  · norm_num
  · positivity

/-- The cells of the band hold the similarities. -/
theorem C95_matrix (hu en : List Phrase) (thick i j : Nat) (h : (Tmx.Band.mk hu.length en.length thick).has i j) :
    ∃ a b, hu[i]? = some a ∧ en[j]? = some b ∧ matrix hu en thick i j = scoreByIdentity (sorted a) (sorted b) := by
  have hi : i < hu.length := h.1
  have hj : j < en.length := by
    have := h.2.2
    simp only [Tmx.Band.stop] at this
    omega
  refine ⟨hu[i], en[j], by simp [hi], by simp [hj], ?_⟩
  unfold matrix Tmx.Band.read
  rw [if_pos h]
  simp [hi, hj]

/-- For books that are not too big and not of too different sizes the trail is that of an alignment that no other one surpasses, with the similarities of the sentences and
their lengths. -/
theorem C95_tool_partial (utf : Bool) (hu en : List Phrase) (hh : 0 < hu.length) (size : hu.length ≤ 200000) (size' : hu.length + en.length ≤ 3000000)
    (ratio : ¬ (en.length < hu.length / 5 ∨ hu.length < en.length / 5)) :
    ∃ A, Tmx.Allowed (book utf hu en) A ∧ (∀ B, Tmx.Allowed (book utf hu en) B → Tmx.total (book utf hu en) 0 0 B ≤ Tmx.total (book utf hu en) 0 0 A) ∧
      ∃ t, tool utf hu en = some t ∧ Tmx.TrailOf A t := by
  have ht : 500 ≤ thickness hu.length en.length := by
    unfold thickness
    have : 500 ≤ 41943040000 / (408 * hu.length) := by
      rw [Nat.le_div_iff_mul_le (by omega)]
      omega
    omega
  obtain ⟨A, h1, h2, h3⟩ := Tmx.C35_tool_partial (book utf hu en) (fun x hx => by
      simp only [book, List.mem_map] at hx
      obtain ⟨p, _, rfl⟩ := hx
      exact phraseLength_nonneg utf p) (fun x hx => by
      simp only [book, List.mem_map] at hx
      obtain ⟨p, _, rfl⟩ := hx
      exact phraseLength_nonneg utf p) (fun i j => matrix_le hu en _ i j) (by simpa [book] using size') (by simp only [book, List.length_map]; omega) ht
  exact ⟨A, h1, h2, _, by unfold tool; rw [if_neg ratio], h3⟩

/-! ## Cases -/

/-- `the year 1984 of` and `in 1984` -/
def exA : Phrase := [[116], [121], [49, 57], [111]]
def exB : Phrase := [[105], [49, 57]]

theorem exA_late : HasLate exA := ⟨[116], by simp [exA], 116, [], rfl, by omega⟩
theorem exB_late : HasLate exB := ⟨[105], by simp [exB], 105, [], rfl, by omega⟩

/-- The hypotheses of `C95_score_partial` are met; one common word, a number: 3 · 11 / 3. -/
example : scoreByIdentity (sorted exA) (sorted exB) = 11 := by
  rw [C95_score_partial exA exB exA_late exB_late]
  decide +kernel

example := C95_self [[97], [98], [97]] [[97], [99]] (by decide +kernel) (by decide +kernel)

example := C95_tool_partial false [exA, [[60, 112, 62]], exB] [exB, exA] (by decide) (by decide) (by decide) (by decide)

/-- Numbers at the end of the order are not compared: of the numbers `1`, `2`, `3`, `4` the sentence `1` has only one, but gets the points for numbers that agree. -/
theorem C95_numbers_violation : ¬ Agree [[49]] [[49], [50], [51], [52]] ∧ Similarity [[49]] [[49], [50], [51], [52]] = 3 / 2 ∧
    scoreByIdentity (sorted [[49]]) (sorted [[49], [50], [51], [52]]) = 33 / 2 := by
  refine ⟨by decide +kernel, by decide +kernel, ?_⟩
  rw [C95_exact]
  decide +kernel

end Verif.TmxSim
