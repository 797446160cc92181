import Mathlib.Tactic.Linarith
import Mathlib.Tactic.Ring
import Mathlib.Tactic.NormNum
import Mathlib.Tactic.Positivity
import Mathlib.Tactic.FieldSimp
import Verif.Tmx.Spec
/-!
# C35: the alignment of sentences is optimal
-/
namespace Verif.Tmx

/-! ## Filling the matrices -/

/-- All cells, in the order of the loops. -/
def cells (b : Book) : List (Nat × Nat) :=
  (List.range (b.hu.length + 1)).flatMap fun i => ((List.range (b.band.stop i)).filter fun j => b.band.start i ≤ j).map fun j => (i, j)

theorem build_eq (b : Book) : build b = (cells b).foldl (fun m c => fillCell b m c.1 c.2) ⟨fun _ _ => 0, fun _ _ => .none⟩ := by
  have h : ∀ (l : List Nat) m, l.foldl (fillRow b) m = (l.flatMap fun i => ((List.range (b.band.stop i)).filter fun j => b.band.start i ≤ j).map fun j => (i, j)).foldl
      (fun m c => fillCell b m c.1 c.2) m := by
    intro l
    induction l with
    | nil => intro m; rfl
    | cons i l ih =>
      intro m
      rw [List.foldl_cons, ih, List.flatMap_cons, List.foldl_append, List.foldl_map]
      rfl
  exact h _ _

theorem mem_cells (b : Book) (c : Nat × Nat) : c ∈ cells b ↔ b.band.has c.1 c.2 := by
  obtain ⟨i, j⟩ := c
  simp only [cells, List.mem_flatMap, List.mem_range, List.mem_map, List.mem_filter, Band.has, Book.band]
  constructor
  · rintro ⟨i', h1, j', ⟨h2, h3⟩, h4⟩
    injection h4 with h4 h5
    subst h4 h5
    exact ⟨h1, of_decide_eq_true h3, h2⟩
  · rintro ⟨h1, h2, h3⟩
    exact ⟨i, h1, j, ⟨h3, decide_eq_true h2⟩, rfl⟩

/-- The order of the loops. -/
def Before (c d : Nat × Nat) : Prop := c.1 < d.1 ∨ c.1 = d.1 ∧ c.2 < d.2

theorem cells_sorted (b : Book) : (cells b).Pairwise Before := by
  have h : ∀ l : List Nat, l.Pairwise (· < ·) → (l.flatMap fun i => ((List.range (b.band.stop i)).filter fun j => b.band.start i ≤ j).map fun j => (i, j)).Pairwise Before := by
    intro l
    induction l with
    | nil => intro _; simp
    | cons i l ih =>
      intro h
      rw [List.pairwise_cons] at h
      rw [List.flatMap_cons, List.pairwise_append]
      refine ⟨?_, ih h.2, ?_⟩
      · rw [List.pairwise_map]
        exact (List.pairwise_lt_range.filter _).imp fun h => .inr ⟨rfl, h⟩
      · intro c hc d hd
        simp only [List.mem_map, List.mem_flatMap] at hc hd
        obtain ⟨j, _, rfl⟩ := hc
        obtain ⟨i', hi', j', _, rfl⟩ := hd
        exact .inl (h.1 i' hi')
  exact h _ List.pairwise_lt_range

/-- `values` looks only at cells before. -/
theorem values_congr (b : Book) (v v' : Nat → Nat → ℚ) (i j : Nat) (h : ∀ r c, Before (r, c) (i, j) → v r c = v' r c) :
    values b v i j = values b v' i j := by
  unfold values
  have h1 : 0 < i → ∀ c, v (i - 1) c = v' (i - 1) c := fun hi c => h _ _ (.inl (by simp; omega))
  have h2 : 0 < j → v i (j - 1) = v' i (j - 1) := fun hj => h _ _ (.inr ⟨rfl, by simp; omega⟩)
  by_cases hi : 0 < i
  · by_cases hj : 0 < j
    · rw [h1 hi, h1 hi, h1 hi, h2 hj]
    · simp [hi, hj, h1 hi, show ¬ 1 < j by omega]
  · by_cases hj : 0 < j
    · simp [hi, h2 hj]
    · simp [hi, hj]

/-- After the loops, every cell of the band is what `fillCell` computes from the final sums. -/
theorem build_cell (b : Book) (i j : Nat) (h : b.band.has i j) :
    ((build b).t i j, (build b).v i j) = cellValue (pick (values b (b.band.read outside (build b).v) i j)) := by
  -- cells that are not visited keep their values
  have keep : ∀ (l : List (Nat × Nat)) (m : Mats) (r c : Nat), (r, c) ∉ l →
      (l.foldl (fun m c => fillCell b m c.1 c.2) m).v r c = m.v r c ∧ (l.foldl (fun m c => fillCell b m c.1 c.2) m).t r c = m.t r c := by
    intro l
    induction l with
    | nil => intros; exact ⟨rfl, rfl⟩
    | cons d l ih =>
      intro m r c hn
      simp only [List.mem_cons, not_or] at hn
      rw [List.foldl_cons]
      have := ih (fillCell b m d.1 d.2) r c hn.2
      rw [this.1, this.2]
      have hd : ¬ (r = d.1 ∧ c = d.2) := fun hh => hn.1 (by rw [hh.1, hh.2])
      exact ⟨by simp [fillCell, set, hd], by simp [fillCell, set, hd]⟩
  have hm : (i, j) ∈ cells b := (mem_cells b (i, j)).mpr h
  obtain ⟨pre, post, hs⟩ := List.append_of_mem hm
  have hsort := cells_sorted b
  rw [hs, List.pairwise_append, List.pairwise_cons] at hsort
  have hpost : ∀ c, Before c (i, j) ∨ c = (i, j) → c ∉ post := by
    intro c hc hp
    have h1 := hsort.2.1.1 c hp
    obtain ⟨r, k⟩ := c
    simp only [Before, Prod.mk.injEq] at hc h1
    omega
  rw [build_eq, hs, List.foldl_append, List.foldl_cons]
  generalize hm0 : pre.foldl (fun m c => fillCell b m c.1 c.2) ⟨fun _ _ => 0, fun _ _ => .none⟩ = m0
  have hij := keep post (fillCell b m0 i j) i j (hpost _ (.inr rfl))
  dsimp only at hij ⊢
  rw [hij.1, hij.2]
  have e : values b (b.band.read outside m0.v) i j =
      values b (b.band.read outside (post.foldl (fun m c => fillCell b m c.1 c.2) (fillCell b m0 i j)).v) i j := by
    refine values_congr _ _ _ _ _ ?_
    intro r c hb
    unfold Band.read
    split
    · have := (keep post (fillCell b m0 i j) r c (hpost _ (.inl hb))).1
      rw [this]
      have hne : ¬ (r = i ∧ c = j) := by
        rintro ⟨rfl, rfl⟩
        simp [Before] at hb
      simp [fillCell, set, hne]
    · rfl
  rw [← e]
  simp [fillCell, set]

/-! ## One cell -/

theorem pick_spec (l : List (Dir × ℚ)) :
    (∀ x ∈ l, (pick l).2 ≤ x.2) ∧ (pick l = (.dead, infinity) ∨ (pick l ∈ l ∧ (pick l).2 < infinity)) := by
  have key : ∀ (l : List (Dir × ℚ)) (a : Dir × ℚ),
      (l.foldl (fun best x => if x.2 < best.2 then x else best) a).2 ≤ a.2 ∧
      (∀ x ∈ l, (l.foldl (fun best x => if x.2 < best.2 then x else best) a).2 ≤ x.2) ∧
      (l.foldl (fun best x => if x.2 < best.2 then x else best) a = a ∨
        (l.foldl (fun best x => if x.2 < best.2 then x else best) a ∈ l ∧ (l.foldl (fun best x => if x.2 < best.2 then x else best) a).2 < a.2)) := by
    intro l
    induction l with
    | nil => intro a; simp
    | cons y l ih =>
      intro a
      rw [List.foldl_cons]
      by_cases h : y.2 < a.2
      · rw [if_pos h]
        obtain ⟨h1, h2, h3⟩ := ih y
        refine ⟨by linarith, ?_, ?_⟩
        · intro x hx
          rcases List.mem_cons.mp hx with hx | hx
          · subst hx; exact h1
          · exact h2 x hx
        · right
          refine ⟨?_, by linarith⟩
          rcases h3 with h3 | h3
          · rw [h3]; simp
          · exact List.mem_cons_of_mem _ h3.1
      · rw [if_neg h]
        obtain ⟨h1, h2, h3⟩ := ih a
        refine ⟨h1, ?_, ?_⟩
        · intro x hx
          rcases List.mem_cons.mp hx with hx | hx
          · subst hx; linarith
          · exact h2 x hx
        · rcases h3 with h3 | h3
          · exact .inl h3
          · exact .inr ⟨List.mem_cons_of_mem _ h3.1, h3.2⟩
  obtain ⟨_, h2, h3⟩ := key l (.dead, infinity)
  exact ⟨h2, h3⟩

theorem closeness_le (a b : ℚ) (ha : 0 ≤ a) (hb : 0 ≤ b) : closeness a b ≤ 3 / 10 := by
  unfold closeness
  have h : 1 ≤ (if a > b then (a + 1) / (b + 1) else (b + 1) / (a + 1)) := by
    split
    · rw [le_div_iff₀ (by linarith)]; linarith
    · rw [le_div_iff₀ (by linarith)]; linarith
  linarith

theorem len_nonneg (l : List ℚ) (h : ∀ x ∈ l, 0 ≤ x) (i : Nat) : 0 ≤ len l i := by
  unfold len
  by_cases hi : i < l.length
  · rw [List.getD_eq_getElem?_getD, List.getElem?_eq_getElem hi]
    exact h _ (List.getElem_mem hi)
  · rw [List.getD_eq_getElem?_getD, List.getElem?_eq_none (by omega)]
    simp

/-- The direction for a piece. -/
def dirOf : Piece → Dir
  | .pair => .diag
  | .huAlone => .huSkip
  | .enAlone => .enSkip
  | .oneTwo => .huEnEn

theorem score_le (b : Book) (hb : Sound b) (p : Piece) (i j : Nat) : p.score b i j ≤ 1000001 := by
  cases p with
  | pair =>
    have h1 := hb.w i j
    have h2 := closeness_le _ _ (len_nonneg _ hb.hu i) (len_nonneg _ hb.en j)
    simp only [Piece.score]; linarith
  | huAlone => simp only [Piece.score, skipScore]; norm_num
  | enAlone => simp only [Piece.score, skipScore]; norm_num
  | oneTwo =>
    have h1 := hb.w i j
    have h3 := len_nonneg _ hb.en j
    have h4 := len_nonneg _ hb.en (j + 1)
    have h2 := closeness_le _ _ (show 0 ≤ len b.en j + len b.en (j + 1) + 2 by linarith) (len_nonneg _ hb.hu i)
    have h5 := min_le_left (b.w i j) (b.w i (j + 1))
    simp only [Piece.score, skipScore]; linarith

/-- The value that a piece gives. -/
theorem values_piece (b : Book) (v : Nat → Nat → ℚ) (p : Piece) (i j : Nat) :
    (dirOf p, v i j - p.score b i j) ∈ values b v (i + p.hu) (j + p.en) := by
  cases p with
  | pair => simp [values, Piece.hu, Piece.en, Piece.score, dirOf, sub_sub]
  | huAlone => simp [values, Piece.hu, Piece.en, Piece.score, dirOf]
  | enAlone => simp [values, Piece.hu, Piece.en, Piece.score, dirOf]
  | oneTwo =>
    have e : (if b.w i (j + 1) < b.w i j then b.w i (j + 1) else b.w i j) = min (b.w i j) (b.w i (j + 1)) := by
      rw [min_def]
      split <;> split <;> linarith
    have hm : ∀ x y z u a : Dir × ℚ, a ∈ [x, y, z, u, a] := by intros; simp
    have e2 : v i j - Piece.score b i j .oneTwo = (if 0 < i + 1 ∧ 1 < j + 2 then
      v (i + 1 - 1) (j + 2 - 2) - (if b.w (i + 1 - 1) (j + 2 - 1) < b.w (i + 1 - 1) (j + 2 - 2) then b.w (i + 1 - 1) (j + 2 - 1) else b.w (i + 1 - 1) (j + 2 - 2)) - skipScore -
        closeness (len b.en (j + 2 - 2) + len b.en (j + 2 - 1) + 2) (len b.hu (i + 1 - 1))
      else infinity) := by
      rw [if_pos (by omega)]
      simp only [Nat.add_sub_cancel, show j + 2 - 1 = j + 1 by omega]
      rw [e, Piece.score]
      ring
    rw [e2]
    exact hm _ _ _ _ _

/-- The values that are smaller than infinity come from pieces. -/
theorem values_mem (b : Book) (v : Nat → Nat → ℚ) (i j : Nat) (x : Dir × ℚ) (h : x ∈ values b v i j) (hx : x.2 < infinity) :
    ∃ p i' j', i = i' + Piece.hu p ∧ j = j' + Piece.en p ∧ x = (dirOf p, v i' j' - p.score b i' j') := by
  simp only [values, List.mem_cons, List.not_mem_nil, or_false] at h
  have fin : ¬ infinity < infinity := lt_irrefl _
  rcases h with h | h | h | h | h
  · subst h
    split at hx
    · rename_i hc
      refine ⟨.pair, i - 1, j - 1, by simp [Piece.hu]; omega, by simp [Piece.en]; omega, ?_⟩
      rw [if_pos hc]; simp [dirOf, Piece.score, sub_sub]
    · exact absurd hx fin
  · subst h
    split at hx
    · rename_i hc
      refine ⟨.huAlone, i - 1, j, by simp [Piece.hu]; omega, by simp [Piece.en], ?_⟩
      rw [if_pos hc]; simp [dirOf, Piece.score]
    · exact absurd hx fin
  · subst h
    split at hx
    · rename_i hc
      refine ⟨.enAlone, i, j - 1, by simp [Piece.hu], by simp [Piece.en]; omega, ?_⟩
      rw [if_pos hc]; simp [dirOf, Piece.score]
    · exact absurd hx fin
  · subst h; exact absurd hx fin
  · subst h
    split at hx
    · rename_i hc
      obtain ⟨i', rfl⟩ : ∃ i', i = i' + 1 := ⟨i - 1, by omega⟩
      obtain ⟨j', rfl⟩ : ∃ j', j = j' + 2 := ⟨j - 2, by omega⟩
      refine ⟨.oneTwo, i', j', rfl, rfl, ?_⟩
      rw [if_pos hc]
      have e : (if b.w i' (j' + 1) < b.w i' j' then b.w i' (j' + 1) else b.w i' j') = min (b.w i' j') (b.w i' (j' + 1)) := by
        rw [min_def]
        split <;> split <;> linarith
      simp only [dirOf, Piece.score, Prod.mk.injEq, true_and, Nat.add_sub_cancel, show j' + 2 - 1 = j' + 1 by omega]
      rw [e]
      ring
    · exact absurd hx fin

theorem values_dir (b : Book) (v : Nat → Nat → ℚ) (i j : Nat) (x : Dir × ℚ) (h : x ∈ values b v i j) : x.1 ≠ .dead := by
  simp only [values, List.mem_cons, List.not_mem_nil, or_false] at h
  rcases h with h | h | h | h | h <;> subst h <;> simp

theorem start_zero (b : Band) : b.start 0 = 0 := by simp [Band.start]

theorem has_zero (b : Book) (hb : Sound b) : b.band.has 0 0 := by
  refine ⟨by simp [Book.band], by rw [start_zero], ?_⟩
  by_cases h : b.hu.length = 0
  · have := hb.last
    rw [h] at this
    have := this.2.2
    omega
  · have := hb.overlap 0 (by omega)
    omega

theorem start_mono (b : Band) (i : Nat) : b.start i ≤ b.start (i + 1) := by
  unfold Band.start
  have : i * b.width / b.height ≤ (i + 1) * b.width / b.height := Nat.div_le_div_right (Nat.mul_le_mul_right _ (by omega))
  omega

/-- A sentence without partner can be put before every cell. -/
theorem has_pred (b : Book) (hb : Sound b) (i j : Nat) (h : b.band.has i j) (hn : ¬ (i = 0 ∧ j = 0)) :
    (0 < i ∧ b.band.has (i - 1) j) ∨ (0 < j ∧ b.band.has i (j - 1)) := by
  obtain ⟨h1, h2, h3⟩ := h
  by_cases hs : b.band.start i < j
  · exact .inr ⟨by omega, h1, by omega, by omega⟩
  · have hj : j = b.band.start i := by omega
    by_cases hi : i = 0
    · subst hi
      rw [start_zero] at hj
      exact absurd ⟨rfl, hj⟩ hn
    · left
      obtain ⟨k, rfl⟩ : ∃ k, i = k + 1 := ⟨i - 1, by omega⟩
      simp only [Book.band] at h1
      have := hb.overlap k (by omega)
      have := start_mono b.band k
      refine ⟨by omega, ?_, ?_, ?_⟩
      · simp only [Book.band]; omega
      · simp only [Nat.add_sub_cancel]; omega
      · simp only [Nat.add_sub_cancel]; omega

theorem has_le (b : Book) (i j : Nat) (h : b.band.has i j) : i ≤ b.hu.length ∧ j ≤ b.en.length := by
  obtain ⟨h1, _, h3⟩ := h
  simp only [Book.band, Band.stop] at h1 h3
  omega

theorem cell_zero (b : Book) (hb : Sound b) : (build b).v 0 0 = 0 := by
  have h := build_cell b 0 0 (has_zero b hb)
  have hv : values b (b.band.read outside (build b).v) 0 0 = [(.diag, infinity), (.huSkip, infinity), (.enSkip, infinity), (.huHuEn, infinity), (.huEnEn, infinity)] := by
    simp [values]
  rw [hv] at h
  have : cellValue (pick [(.diag, infinity), (.huSkip, infinity), (.enSkip, infinity), (.huHuEn, infinity), (.huEnEn, infinity)]) = (.dead, 0) := by
    simp [pick, cellValue]
  rw [this] at h
  exact congrArg Prod.snd h

/-- The cells other than the first: bounds, and the sums of all cells before. -/
theorem cell_bound (b : Book) (hb : Sound b) (n : Nat) : ∀ i j, i + j ≤ n → b.band.has i j →
    (build b).v i j ≤ 3 / 10 * ((i + j : Nat) : ℚ) ∧
    (¬ (i = 0 ∧ j = 0) →
      let p := pick (values b (b.band.read outside (build b).v) i j)
      p.2 < infinity ∧ p ∈ values b (b.band.read outside (build b).v) i j ∧ (build b).t i j = p.1 ∧ (build b).v i j = p.2) := by
  induction n with
  | zero =>
    intro i j hn h
    have h0 : i = 0 ∧ j = 0 := by omega
    obtain ⟨rfl, rfl⟩ := h0
    exact ⟨by rw [cell_zero b hb]; simp, fun hh => absurd ⟨rfl, rfl⟩ hh⟩
  | succ n ih =>
    intro i j hn h
    by_cases h0 : i = 0 ∧ j = 0
    · obtain ⟨rfl, rfl⟩ := h0
      exact ⟨by rw [cell_zero b hb]; simp, fun hh => absurd ⟨rfl, rfl⟩ hh⟩
    · -- a value from a sentence without partner
      have hle := has_le b i j h
      have hsize := hb.size
      have hsk : ∃ x ∈ values b (b.band.read outside (build b).v) i j, x.2 ≤ 3 / 10 * ((i + j : Nat) : ℚ) := by
        rcases has_pred b hb i j h h0 with ⟨hi, hp⟩ | ⟨hj, hp⟩
        · have h1 := (ih (i - 1) j (by omega) hp).1
          refine ⟨_, by
            have := values_piece b (b.band.read outside (build b).v) .huAlone (i - 1) j
            simp only [Piece.hu, Piece.en, Nat.sub_add_cancel hi, Nat.add_zero] at this
            exact this, ?_⟩
          simp only [Piece.score, skipScore, Band.read, if_pos hp]
          have e : ((i + j : Nat) : ℚ) = ((i - 1 + j : Nat) : ℚ) + 1 := by
            have : i + j = i - 1 + j + 1 := by omega
            rw [this]; push_cast; ring
          rw [e]; linarith
        · have h1 := (ih i (j - 1) (by omega) hp).1
          refine ⟨_, by
            have := values_piece b (b.band.read outside (build b).v) .enAlone i (j - 1)
            simp only [Piece.hu, Piece.en, Nat.sub_add_cancel hj, Nat.add_zero] at this
            exact this, ?_⟩
          simp only [Piece.score, skipScore, Band.read, if_pos hp]
          have e : ((i + j : Nat) : ℚ) = ((i + (j - 1) : Nat) : ℚ) + 1 := by
            have : i + j = i + (j - 1) + 1 := by omega
            rw [this]; push_cast; ring
          rw [e]; linarith
      obtain ⟨x, hx, hxl⟩ := hsk
      have hbig : ((i + j : Nat) : ℚ) ≤ 3000000 := by
        have : i + j ≤ 3000000 := by omega
        exact_mod_cast this
      obtain ⟨p1, p2⟩ := pick_spec (values b (b.band.read outside (build b).v) i j)
      have hpx := p1 x hx
      have hlt : (pick (values b (b.band.read outside (build b).v) i j)).2 < infinity := by
        unfold infinity; linarith
      have hmem : pick (values b (b.band.read outside (build b).v) i j) ∈ values b (b.band.read outside (build b).v) i j := by
        rcases p2 with p2 | p2
        · rw [p2] at hlt
          exact absurd hlt (lt_irrefl _)
        · exact p2.1
      have hc := build_cell b i j h
      rw [cellValue, if_neg (values_dir _ _ _ _ _ hmem)] at hc
      have ht := congrArg Prod.fst hc
      have hv := congrArg Prod.snd hc
      dsimp only at ht hv
      exact ⟨by rw [hv]; linarith, fun _ => ⟨hlt, hmem, ht, hv⟩⟩

/-- No piece that ends at a cell gives more than the cell has. -/
theorem cell_best (b : Book) (hb : Sound b) (p : Piece) (i j : Nat) (h : b.band.has i j) (h' : b.band.has (i + p.hu) (j + p.en)) :
    (build b).v (i + p.hu) (j + p.en) ≤ (build b).v i j - p.score b i j := by
  have hn : ¬ (i + p.hu = 0 ∧ j + p.en = 0) := by cases p <;> simp [Piece.hu, Piece.en]
  obtain ⟨_, _, _, hv⟩ := (cell_bound b hb _ _ _ (Nat.le_refl _) h').2 hn
  have := (pick_spec _).1 _ (values_piece b (b.band.read outside (build b).v) p i j)
  simp only [Band.read, if_pos h] at this
  rw [hv]
  exact this

/-- Every cell has its sum from a piece. -/
theorem cell_from (b : Book) (hb : Sound b) (i j : Nat) (h : b.band.has i j) (hn : ¬ (i = 0 ∧ j = 0)) :
    ∃ p i' j', i = i' + Piece.hu p ∧ j = j' + Piece.en p ∧ b.band.has i' j' ∧ (build b).v i j = (build b).v i' j' - p.score b i' j' ∧
      (build b).t i j = dirOf p := by
  obtain ⟨hlt, hmem, ht, hv⟩ := (cell_bound b hb _ _ _ (Nat.le_refl _) h).2 hn
  obtain ⟨p, i', j', hi, hj, he⟩ := values_mem _ _ _ _ _ hmem hlt
  rw [he] at ht hv hlt
  have hin : b.band.has i' j' := by
    by_contra hout
    simp only [Band.read, if_neg hout] at hlt
    have := score_le b hb p i' j'
    simp only [outside, infinity] at hlt
    linarith
  refine ⟨p, i', j', hi, hj, hin, ?_, ht⟩
  rw [hv]
  simp only [Band.read, if_pos hin]

/-! ## Alignments -/

theorem total_append (b : Book) (A B : List Piece) (i j : Nat) :
    total b i j (A ++ B) = total b i j A + total b (i + (A.map Piece.hu).sum) (j + (A.map Piece.en).sum) B := by
  induction A generalizing i j with
  | nil => simp [total]
  | cons p A ih =>
    rw [List.cons_append, total, ih, total]
    simp only [List.map_cons, List.sum_cons, ← Nat.add_assoc]
    ring

theorem points_snoc (A : List Piece) (p : Piece) (i j : Nat) :
    points i j (A ++ [p]) = points i j A ++ [(i + (A.map Piece.hu).sum + p.hu, j + (A.map Piece.en).sum + p.en)] := by
  induction A generalizing i j with
  | nil => simp [points]
  | cons q A ih =>
    rw [List.cons_append, points, ih, points]
    simp only [List.map_cons, List.sum_cons, ← Nat.add_assoc, List.cons_append]

theorem points_last (A : List Piece) (i j : Nat) : ∃ l, points i j A = l ++ [(i + (A.map Piece.hu).sum, j + (A.map Piece.en).sum)] := by
  induction A generalizing i j with
  | nil => exact ⟨[], rfl⟩
  | cons q A ih =>
    obtain ⟨l, hl⟩ := ih (i + q.hu) (j + q.en)
    refine ⟨(i, j) :: l, ?_⟩
    rw [points, hl]
    simp only [List.map_cons, List.sum_cons, ← Nat.add_assoc, List.cons_append]

/-- No alignment has a better score than the matrix says. -/
theorem total_le (b : Book) (hb : Sound b) (A : List Piece) (i j : Nat) (h : ∀ p ∈ points i j A, b.band.has p.1 p.2) :
    (build b).v (i + (A.map Piece.hu).sum) (j + (A.map Piece.en).sum) ≤ (build b).v i j - total b i j A := by
  induction A generalizing i j with
  | nil => simp [total]
  | cons p A ih =>
    rw [points] at h
    have h1 := ih (i + p.hu) (j + p.en) fun q hq => h q (List.mem_cons_of_mem _ hq)
    have hin : b.band.has (i + p.hu) (j + p.en) := by
      refine h (i + p.hu, j + p.en) (List.mem_cons_of_mem _ ?_)
      cases A <;> simp [points]
    have h2 := cell_best b hb p i j (h (i, j) (by simp)) hin
    simp only [List.map_cons, List.sum_cons, ← Nat.add_assoc, total]
    linarith

/-- The alignment of the ladder. -/
theorem ladder_from (b : Book) (hb : Sound b) (n : Nat) : ∀ i j, i + j ≤ n → b.band.has i j →
    ∃ A, (A.map Piece.hu).sum = i ∧ (A.map Piece.en).sum = j ∧ (∀ p ∈ points 0 0 A, b.band.has p.1 p.2) ∧ total b 0 0 A = - (build b).v i j ∧
      ∃ before p after, points 0 0 A = before ++ p :: after ∧ Border p ∧ (∀ q ∈ after, ¬ Border q) ∧
        ∀ k, i + j ≤ k → ∀ acc, ladderLoop (b.band.read .dead (build b).t) k i j ((i, j) :: acc) = some (p :: after ++ acc) := by
  induction n with
  | zero =>
    intro i j hn h
    have h0 : i = 0 ∧ j = 0 := by omega
    obtain ⟨rfl, rfl⟩ := h0
    refine ⟨[], rfl, rfl, by simpa [points] using h, by rw [cell_zero b hb]; simp [total], [], (0, 0), [], rfl, .inl rfl, by simp, ?_⟩
    intro k _ acc
    cases k <;> simp [ladderLoop]
  | succ n ih =>
    intro i j hn h
    by_cases h0 : i = 0 ∧ j = 0
    · exact ih i j (by omega) h
    · obtain ⟨p, i', j', hi, hj, hin, hv, ht⟩ := cell_from b hb i j h h0
      have hdec : i' + j' + 1 ≤ i + j := by cases p <;> simp [Piece.hu, Piece.en] at hi hj <;> omega
      obtain ⟨A, a1, a2, a3, a4, before, q, after, a5, a6, a7, a8⟩ := ih i' j' (by omega) hin
      have hp : points 0 0 (A ++ [p]) = points 0 0 A ++ [(i, j)] := by
        rw [points_snoc, a1, a2, hi, hj]; simp
      refine ⟨A ++ [p], by simp [a1, hi], by simp [a2, hj], ?_, ?_, ?_⟩
      · intro x hx
        rw [hp, List.mem_append] at hx
        rcases hx with hx | hx
        · exact a3 x hx
        · simp at hx; subst hx; exact h
      · rw [total_append, a4, a1, a2, hv]
        simp only [total, Nat.zero_add]
        ring
      · by_cases hB : i = 0 ∨ j = 0
        · refine ⟨points 0 0 A, (i, j), [], hp, hB, by simp, ?_⟩
          intro k _ acc
          cases k with
          | zero => rfl
          | succ k => rw [ladderLoop, if_pos hB]; rfl
        · refine ⟨before, q, after ++ [(i, j)], by rw [hp, a5]; simp, a6, ?_, ?_⟩
          · intro x hx
            rw [List.mem_append] at hx
            rcases hx with hx | hx
            · exact a7 x hx
            · simp at hx; subst hx; exact hB
          · intro k hk acc
            obtain ⟨k, rfl⟩ : ∃ k', k = k' + 1 := ⟨k - 1, by omega⟩
            rw [ladderLoop, if_neg hB]
            have hr : b.band.read .dead (build b).t i j = dirOf p := by rw [Band.read, if_pos h, ht]
            rw [hr]
            have := a8 k (by omega) ((i, j) :: acc)
            cases p <;> simp only [dirOf] <;> simp only [Piece.hu, Piece.en] at hi hj <;> subst hi hj <;>
              simp only [Nat.add_sub_cancel, Nat.add_zero, Nat.add_assoc] at this ⊢ <;> rw [this] <;> simp

/-- C35: the program finds an alignment that is at least as good as every other one (made of the same kinds of pieces, inside the band); the trail is this alignment, but
without the sentences at the start that have no partner. -/
theorem C35_optimal_partial (b : Book) (hb : Sound b) :
    ∃ A, Allowed b A ∧ (∀ B, Allowed b B → total b 0 0 B ≤ total b 0 0 A) ∧ TrailOf A (align b) := by
  obtain ⟨A, a1, a2, a3, a4, before, p, after, a5, a6, a7, a8⟩ := ladder_from b hb _ _ _ (Nat.le_refl _) hb.last
  refine ⟨A, ⟨a1, a2, a3⟩, ?_, before, p, after, a5, ?_, a6, a7⟩
  · intro B ⟨b1, b2, b3⟩
    have := total_le b hb B 0 0 b3
    rw [Nat.zero_add, Nat.zero_add, b1, b2, cell_zero b hb] at this
    linarith
  · rw [align, ladder, a8 _ (by omega) []]
    simp

end Verif.Tmx
