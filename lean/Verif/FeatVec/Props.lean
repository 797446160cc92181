import Mathlib.Tactic.Ring
import Mathlib.Tactic.Linarith
import Mathlib.Data.List.Count
import Mathlib.Data.List.Nodup
import Verif.FeatVec.Spec
/-!
# C97: feature vectors are vectors
-/
namespace Verif.FeatVec

/-- The keys of the maps are in lexicographic order: of their strings, and these of their bytes. -/
theorem C97_order (a b : Key) : keyLt a b = true ↔ a < b := by
  induction a generalizing b with
  | nil => cases b with
    | nil => simp [keyLt]
    | cons y b => simp [keyLt]
  | cons x a ih => cases b with
    | nil => simp [keyLt]
    | cons y b =>
      rw [keyLt, List.cons_lt_cons_iff]
      by_cases h1 : x < y
      · simp [h1]
      · by_cases h2 : y < x
        · have : x ≠ y := fun h => h1 (h ▸ h2)
          simp [h1, h2, this]
        · have : x = y := le_antisymm (not_lt.1 h2) (not_lt.1 h1)
          simp [this, ih]

theorem keyLt_false (a b : Key) : keyLt a b = false ↔ ¬ a < b := by rw [← C97_order]; simp

theorem val_nil (k : Key) : val [] k = 0 := by simp [val]
theorem val_cons (e : Key × ℚ) (v : Vec) (k : Key) : val (e :: v) k = (if e.1 = k then e.2 else 0) + val v k := by
  by_cases h : e.1 = k
  · simp [val, h]
  · simp [val, h]

theorem val_addAt (k : Key) (x : ℚ) (m : Vec) (j : Key) : val (addAt k x m) j = val m j + if k = j then x else 0 := by
  induction m with
  | nil => simp [addAt, val_cons, val_nil]
  | cons e m ih =>
    obtain ⟨k', y⟩ := e
    simp only [addAt, C97_order]
    by_cases h1 : k' < k
    · simp only [if_pos h1, val_cons, ih]; ring
    · by_cases h2 : k < k'
      · simp only [if_neg h1, if_pos h2, val_cons]; split <;> ring
      · have : k' = k := le_antisymm (not_lt.1 h2) (not_lt.1 h1)
        subst this
        simp only [if_neg h1, val_cons]; split <;> ring

theorem mem_addAt {k : Key} {x : ℚ} {m : Vec} {e : Key × ℚ} (h : e ∈ addAt k x m) : e.1 = k ∨ ∃ f ∈ m, f.1 = e.1 := by
  induction m with
  | nil => simp [addAt] at h; exact .inl (by rw [h])
  | cons f m ih =>
    obtain ⟨k', y⟩ := f
    simp only [addAt] at h
    split at h
    · rcases List.mem_cons.1 h with rfl | h
      · exact .inr ⟨_, by simp, rfl⟩
      · rcases ih h with h | ⟨g, hg, h⟩
        · exact .inl h
        · exact .inr ⟨g, by simp [hg], h⟩
    · split at h
      · rcases List.mem_cons.1 h with rfl | h
        · exact .inl rfl
        · exact .inr ⟨e, h, rfl⟩
      · rcases List.mem_cons.1 h with rfl | h
        · exact .inr ⟨(k', y), by simp, rfl⟩
        · exact .inr ⟨e, by simp [h], rfl⟩

theorem sorted_addAt (k : Key) (x : ℚ) {m : Vec} (h : Sorted m) : Sorted (addAt k x m) := by
  induction m with
  | nil => simp [addAt, Sorted]
  | cons e m ih =>
    obtain ⟨k', y⟩ := e
    obtain ⟨h1, h2⟩ := List.pairwise_cons.1 h
    simp only [addAt, C97_order]
    split
    · rename_i hk
      refine List.pairwise_cons.2 ⟨?_, ih h2⟩
      intro e he
      rcases mem_addAt he with he | ⟨f, hf, he⟩
      · rw [he]; exact hk
      · rw [← he]; exact h1 f hf
    · split
      · rename_i hk
        refine List.pairwise_cons.2 ⟨?_, h⟩
        intro e he
        rcases List.mem_cons.1 he with rfl | he
        · exact hk
        · exact lt_trans hk (h1 e he)
      · exact List.pairwise_cons.2 ⟨h1, h2⟩

theorem val_unary (x : ℚ) (fs : List Key) (m : Vec) (j : Key) : val (fs.foldl (fun m k => addAt k x m) m) j = val m j + x * fs.count j := by
  induction fs generalizing m with
  | nil => simp
  | cons f fs ih =>
    rw [List.foldl_cons, ih, val_addAt, List.count_cons]
    by_cases h : f = j
    · simp [h]; ring
    · simp [h]

theorem val_vec (g : ℚ → ℚ) (s : ℚ) (hg : ∀ x, g x = s * x) (v m : Vec) (j : Key) :
    val (v.foldl (fun m e => addAt e.1 (g e.2) m) m) j = val m j + s * val v j := by
  induction v generalizing m with
  | nil => simp [val_nil]
  | cons f v ih =>
    rw [List.foldl_cons, ih, val_addAt, val_cons, hg]
    split <;> ring

theorem sorted_fold {α : Type} (key : α → Key) (num : α → ℚ) (l : List α) {m : Vec} (h : Sorted m) :
    Sorted (l.foldl (fun m e => addAt (key e) (num e) m) m) := by
  induction l generalizing m with
  | nil => exact h
  | cons f l ih => exact ih (sorted_addAt _ _ h)

theorem step_spec (m : Vec) (o : Op) : (Sorted m → Sorted (step m o)) ∧ ∀ k, val (step m o) k = val m k + o.delta k := by
  cases o with
  | addU fs => exact ⟨sorted_fold id (fun _ => 1) fs, fun k => by simp [step, addUnary, val_unary, Op.delta]⟩
  | add v => exact ⟨sorted_fold Prod.fst Prod.snd v, fun k => by simpa [Op.delta, step, FeatVec.add] using val_vec id 1 (by simp) v m k⟩
  | subU fs => exact ⟨sorted_fold id (fun _ => -1) fs, fun k => by simp [step, subUnary, val_unary, Op.delta]⟩
  | sub v => exact ⟨sorted_fold Prod.fst (fun e => -e.2) v, fun k => by simpa [Op.delta, step, FeatVec.sub] using val_vec (fun x => -x) (-1) (by simp) v m k⟩

/-- After any history the map is well formed and each feature has the sum of what was added to it. -/
theorem C97_run (m : Vec) (h : Sorted m) (ops : List Op) : Sorted (run m ops) ∧ ∀ k, val (run m ops) k = val m k + (ops.map (Op.delta k)).sum := by
  induction ops generalizing m with
  | nil => exact ⟨h, by simp [run]⟩
  | cons o ops ih =>
    obtain ⟨h1, h2⟩ := ih (step m o) ((step_spec m o).1 h)
    refine ⟨h1, fun k => ?_⟩
    have := h2 k
    rw [(step_spec m o).2] at this
    simp only [run, List.foldl_cons, List.map_cons, List.sum_cons] at this ⊢
    rw [this]; ring

theorem val_above {m : Vec} {k : Key} (h : ∀ e ∈ m, k < e.1) : val m k = 0 := by
  induction m with
  | nil => exact val_nil k
  | cons e m ih =>
    rw [val_cons, ih (fun e he => h e (by simp [he]))]
    have := h e (by simp)
    simp [ne_of_gt this]

theorem find_val {m : Vec} (h : Sorted m) (k : Key) : (find k m).getD 0 = val m k := by
  induction m with
  | nil => simp [find, val_nil]
  | cons e m ih =>
    obtain ⟨k', y⟩ := e
    obtain ⟨h1, h2⟩ := List.pairwise_cons.1 h
    simp only [find, C97_order, val_cons]
    by_cases l1 : k' < k
    · simp [if_pos l1, ih h2, ne_of_lt l1]
    · by_cases l2 : k < k'
      · have : val m k = 0 := val_above fun e he => lt_trans l2 (h1 e he)
        simp [if_neg l1, if_pos l2, this, ne_of_gt l2]
      · have : k' = k := le_antisymm (not_lt.1 l2) (not_lt.1 l1)
        subst this
        have : val m k' = 0 := val_above h1
        simp [this]

/-- The score of a word: the sum of the weights of its features, each as often as it occurs. -/
theorem C97_score (m : Vec) (h : Sorted m) (fs : List Key) : dotUnary m fs = (fs.map (val m)).sum := by
  have : ∀ r, fs.foldl (fun r k => match find k m with | some x => r + x | none => r) r = r + (fs.map (val m)).sum := by
    induction fs with
    | nil => simp
    | cons f fs ih =>
      intro r
      rw [List.foldl_cons, ih, List.map_cons, List.sum_cons, ← find_val h f]
      cases find f m with
      | none => simp
      | some x => simp; ring
  exact (this 0).trans (zero_add _)

theorem dot_skip {a : Vec} {e : Key × ℚ} {b : Vec} (h : ∀ f ∈ a, e.1 ≠ f.1) : (a.map fun f => f.2 * val (e :: b) f.1).sum = (a.map fun f => f.2 * val b f.1).sum := by
  congr 1
  apply List.map_congr_left
  intro f hf
  rw [val_cons, if_neg (h f hf), zero_add]

theorem dotLoop_eq (n : Nat) : ∀ (a b : Vec) (r : ℚ), a.length + b.length ≤ n → Sorted a → Sorted b →
    dotLoop n a b r = r + (a.map fun e => e.2 * val b e.1).sum := by
  induction n with
  | zero =>
    intro a b r hn _ _
    have : a = [] := List.length_eq_zero_iff.1 (by omega)
    subst this
    simp [dotLoop]
  | succ n ih =>
    intro a b r hn ha hb
    match a, b with
    | [], _ => simp [dotLoop]
    | _ :: _, [] => simp [dotLoop, val_nil]
    | (k, x) :: a, (k', y) :: b =>
      obtain ⟨a1, a2⟩ := List.pairwise_cons.1 ha
      obtain ⟨b1, b2⟩ := List.pairwise_cons.1 hb
      simp only [List.length_cons] at hn
      rw [dotLoop]
      by_cases l1 : k < k'
      · rw [if_pos l1, ih _ _ _ (by simp only [List.length_cons]; omega) a2 hb, List.map_cons, List.sum_cons]
        have : val ((k', y) :: b) k = 0 := val_above (by
          intro e he
          rcases List.mem_cons.1 he with rfl | he
          · exact l1
          · exact lt_trans l1 (b1 e he))
        simp [this]
      · by_cases l2 : k' < k
        · rw [if_neg l1, if_pos l2, ih _ _ _ (by simp only [List.length_cons]; omega) ha b2]
          rw [dot_skip]
          intro f hf
          rcases List.mem_cons.1 hf with rfl | hf
          · exact ne_of_lt l2
          · exact ne_of_lt (lt_trans l2 (a1 f hf))
        · have : k = k' := le_antisymm (not_lt.1 l2) (not_lt.1 l1)
          subst this
          have hv : val b k = 0 := val_above b1
          have hs := dot_skip (e := (k, y)) (b := b) (fun f hf => ne_of_lt (a1 f hf))
          rw [if_neg l1, if_neg l2, ih _ _ _ (by omega) a2 b2, List.map_cons, List.sum_cons, hs, val_cons, hv]
          simp; ring

/-- The product of two vectors is the sum of the products of the values. -/
theorem C97_dot (a b : Vec) (ha : Sorted a) (hb : Sorted b) : dot a b = (a.map fun e => e.2 * val b e.1).sum := by
  rw [dot, dotLoop_eq _ a b 0 le_rfl ha hb, zero_add]

theorem sum_addAt (g : Key → ℚ) (k : Key) (x : ℚ) (m : Vec) : ((addAt k x m).map fun e => e.2 * g e.1).sum = (m.map fun e => e.2 * g e.1).sum + x * g k := by
  induction m with
  | nil => simp [addAt]
  | cons e m ih =>
    obtain ⟨k', y⟩ := e
    simp only [addAt, C97_order]
    by_cases h1 : k' < k
    · simp only [if_pos h1, List.map_cons, List.sum_cons, ih]; ring
    · by_cases h2 : k < k'
      · simp only [if_neg h1, if_pos h2, List.map_cons, List.sum_cons]; ring
      · have : k' = k := le_antisymm (not_lt.1 h2) (not_lt.1 h1)
        subst this
        simp only [if_neg h1, List.map_cons, List.sum_cons]; ring

/-- It is linear in what is added to the left vector … -/
theorem C97_linear (a b c : Vec) (ha : Sorted a) (hb : Sorted b) (hc : Sorted c) : dot (add a c) b = dot a b + dot c b ∧ dot (sub a c) b = dot a b - dot c b := by
  have h1 : Sorted (add a c) := (step_spec a (.add c)).1 ha
  have h2 : Sorted (sub a c) := (step_spec a (.sub c)).1 ha
  rw [C97_dot _ _ h1 hb, C97_dot _ _ h2 hb, C97_dot _ _ ha hb, C97_dot _ _ hc hb]
  constructor
  · clear h1 h2 ha hc
    unfold add
    induction c generalizing a with
    | nil => simp
    | cons e c ih => rw [List.foldl_cons, ih, sum_addAt, List.map_cons, List.sum_cons]; ring
  · clear h1 h2 ha hc
    unfold sub
    induction c generalizing a with
    | nil => simp
    | cons e c ih => rw [List.foldl_cons, ih, sum_addAt, List.map_cons, List.sum_cons]; ring

theorem dot_comm_sum (a b : Vec) : (a.map fun e => e.2 * val b e.1).sum = (b.map fun e => e.2 * val a e.1).sum := by
  induction a with
  | nil => simp [val_nil]
  | cons e a ih =>
    rw [List.map_cons, List.sum_cons, ih]
    clear ih
    induction b with
    | nil => simp [val_nil]
    | cons f b ih =>
      simp only [List.map_cons, List.sum_cons, val_cons] at ih ⊢
      by_cases h : e.1 = f.1
      · simp only [h, if_true] at ih ⊢; linarith
      · have : ¬ f.1 = e.1 := fun x => h x.symm
        simp only [if_neg h, if_neg this] at ih ⊢; linarith

/-- … and symmetric. -/
theorem C97_symmetric (a b : Vec) (ha : Sorted a) (hb : Sorted b) : dot a b = dot b a := by
  rw [C97_dot a b ha hb, C97_dot b a hb ha, dot_comm_sum]

/-- A score is the product with the vector to which the features were added. -/
theorem C97_unary (m : Vec) (h : Sorted m) (fs : List Key) : dotUnary m fs = dot m (addUnary [] fs) := by
  have hs : Sorted (addUnary [] fs) := (step_spec [] (.addU fs)).1 List.Pairwise.nil
  rw [C97_symmetric m _ h hs, C97_dot _ _ hs h, C97_score m h]
  have : ∀ v : Vec, ((addUnary v fs).map fun e => e.2 * val m e.1).sum = (v.map fun e => e.2 * val m e.1).sum + (fs.map (val m)).sum := by
    unfold addUnary
    induction fs with
    | nil => simp
    | cons f fs ih =>
      intro v
      rw [List.foldl_cons, ih (sorted_fold id (fun _ => 1) fs List.Pairwise.nil), sum_addAt, List.map_cons, List.sum_cons]; ring
  rw [this]; simp

/-! ## Vectors made from features -/

theorem insert_eq (k : Key) (x : ℚ) {m : Vec} (h : Sorted m) : insert k x m = if k ∈ m.map Prod.fst then m else addAt k x m := by
  induction m with
  | nil => simp [insert, addAt]
  | cons e m ih =>
    obtain ⟨k', y⟩ := e
    obtain ⟨h1, h2⟩ := List.pairwise_cons.1 h
    simp only [insert, addAt, C97_order]
    by_cases l1 : k' < k
    · rw [if_pos l1, if_pos l1, ih h2]
      by_cases hm : k ∈ m.map Prod.fst
      · rw [if_pos hm, if_pos (by simp only [List.map_cons, List.mem_cons]; exact .inr hm)]
      · rw [if_neg hm, if_neg]
        simp only [List.map_cons, List.mem_cons, not_or]
        exact ⟨ne_of_gt l1, hm⟩
    · by_cases l2 : k < k'
      · rw [if_neg l1, if_pos l2, if_neg l1, if_pos l2, if_neg]
        · simp
        · simp only [List.map_cons, List.mem_cons, not_or]
          refine ⟨ne_of_lt l2, fun hm => ?_⟩
          obtain ⟨e, he, rfl⟩ := List.mem_map.1 hm
          exact lt_asymm l2 (h1 e he)
      · have : k' = k := le_antisymm (not_lt.1 l2) (not_lt.1 l1)
        subst this
        simp

theorem keys_addAt (k : Key) (x : ℚ) (m : Vec) (j : Key) : j ∈ (addAt k x m).map Prod.fst ↔ j = k ∨ j ∈ m.map Prod.fst := by
  induction m with
  | nil => simp [addAt]
  | cons e m ih =>
    obtain ⟨k', y⟩ := e
    simp only [addAt, C97_order]
    by_cases h1 : k' < k
    · simp only [if_pos h1, List.map_cons, List.mem_cons, ih, or_left_comm]
    · by_cases h2 : k < k'
      · simp only [if_neg h1, if_pos h2, List.map_cons, List.mem_cons]
      · have : k' = k := le_antisymm (not_lt.1 h2) (not_lt.1 h1)
        subst this
        simp [List.map_cons]

theorem make_spec (fs : List Key) : ∀ m : Vec, Sorted m → (∀ k, k ∈ m.map Prod.fst → val m k = 1) →
    Sorted (fs.foldl (fun m k => insert k 1 m) m) ∧
      ∀ k, val (fs.foldl (fun m k => insert k 1 m) m) k = if k ∈ fs then 1 else val m k := by
  induction fs with
  | nil => intro m h _; exact ⟨h, fun k => by simp⟩
  | cons f fs ih =>
    intro m h hv
    rw [List.foldl_cons, insert_eq f 1 h]
    by_cases hf : f ∈ m.map Prod.fst
    · rw [if_pos hf]
      obtain ⟨g1, g2⟩ := ih m h hv
      refine ⟨g1, fun k => ?_⟩
      rw [g2]
      by_cases hk : k ∈ fs
      · simp [hk]
      · by_cases hkf : k = f
        · subst hkf; simp [hk, hv k hf]
        · simp [hk, hkf]
    · rw [if_neg hf]
      have h0 : val m f = 0 := by
        have := find_val h f
        unfold val
        rw [List.filter_eq_nil_iff.2]
        · rfl
        · intro e he
          have : e.1 ≠ f := fun x => hf (List.mem_map.2 ⟨e, he, x⟩)
          simpa using this
      obtain ⟨g1, g2⟩ := ih (addAt f 1 m) (sorted_addAt f 1 h) (by
        intro k hk
        rw [val_addAt]
        rw [keys_addAt] at hk
        by_cases hkf : f = k
        · subst hkf; rw [if_pos rfl, h0]; simp
        · rw [if_neg hkf, hv k (by rcases hk with rfl | hk; exact absurd rfl hkf; exact hk)]; simp)
      refine ⟨g1, fun k => ?_⟩
      rw [g2, val_addAt]
      by_cases hk : k ∈ fs
      · simp [hk]
      · by_cases hkf : f = k
        · subst hkf; simp [h0]
        · have : ¬ k = f := fun x => hkf x.symm
          simp [hk, hkf, this]

/-- A vector made from features has the value 1 for each of them, no matter how often it occurs. -/
theorem C97_make (fs : List Key) : Sorted (make fs) ∧ ∀ k, val (make fs) k = if k ∈ fs then 1 else 0 := by
  obtain ⟨h1, h2⟩ := make_spec fs [] List.Pairwise.nil (by simp)
  exact ⟨h1, fun k => by rw [make, h2, val_nil]⟩

/-- If no feature of a word occurs twice, the score is the product of the weights with the vector that is printed. -/
theorem C97_explain_partial (w : Vec) (h : Sorted w) (fs : List Key) (hn : fs.Nodup) : (explain w fs).2 = dot w (explain w fs).1 := by
  simp only [explain]
  rw [C97_symmetric w _ h (C97_make fs).1, C97_dot _ _ (C97_make fs).1 h, dot_comm_sum, C97_unary w h,
    C97_dot w (addUnary [] fs) h ((step_spec [] (.addU fs)).1 List.Pairwise.nil)]
  congr 1
  apply List.map_congr_left
  intro e _
  have h1 := (step_spec [] (.addU fs)).2 e.1
  simp only [step, val_nil, Op.delta] at h1
  rw [h1, (C97_make fs).2]
  by_cases he : e.1 ∈ fs
  · rw [if_pos he, List.count_eq_one_of_mem hn he]; simp
  · rw [if_neg he, List.count_eq_zero_of_not_mem he]; simp

/-! ## Cases -/

/-- Weights and features. -/
def exW : Vec := [([[1], [100]], 2), ([[1], [100], [101]], -3), ([[2]], 5)]

theorem exW_sorted : Sorted exW := by simp [Sorted, exW]; decide

example := C97_explain_partial exW exW_sorted [[[2]], [[1], [100], [101]], [[7]]] (by decide)
example : explain exW [[[2]], [[1], [100], [101]], [[7]]] = ([([[1], [100], [101]], 1), ([[2]], 1), ([[7]], 1)], 2) := by decide +kernel
example := C97_run exW exW_sorted [.addU [[[2]]], .sub exW, .add [([[3]], 1)]]
example := C97_linear exW exW exW exW_sorted exW_sorted exW_sorted

/-- A feature that occurs twice counts twice in the score, but is printed with the value 1. -/
theorem C97_repeated_violation : (explain exW [[[2]], [[2]]]).1 = [([[2]], 1)] ∧ (explain exW [[[2]], [[2]]]).2 = 10 ∧ dot exW (explain exW [[[2]], [[2]]]).1 = 5 := by
  decide +kernel

end Verif.FeatVec
