import Mathlib.Tactic.Linarith
import Mathlib.Tactic.Ring
import Mathlib.Tactic.FieldSimp
import Verif.Percep.Average
/-!
# C32: averaged perceptron weights
-/
namespace Verif.Percep

variable {κ : Type} [DecidableEq κ]

/-! ### Specification -/

/-- The change that an operation makes to the weight of `k`. -/
def change (k : κ) : Op κ → ℚ
  | .add v => ((v.filter (fun e => decide (e.1 = k))).map Prod.snd).sum
  | .sub v => - ((v.filter (fun e => decide (e.1 = k))).map Prod.snd).sum
  | .inc => 0

/-- The running weight of `k` after the operations, from the weights `w`. -/
def running (w : Vec κ) (k : κ) (ops : List (Op κ)) : ℚ := value k w + (ops.map (change k)).sum

/-- The number of iterations. -/
def rounds : List (Op κ) → Nat
  | [] => 0
  | .inc :: ops => rounds ops + 1
  | _ :: ops => rounds ops

/-- The running weights of `k` at the ends of the iterations; `done` are the operations before. -/
def snapshots (w : Vec κ) (k : κ) (done : List (Op κ)) : List (Op κ) → List ℚ
  | [] => []
  | .inc :: ops => running w k done :: snapshots w k (done ++ [.inc]) ops
  | op :: ops => snapshots w k (done ++ [op]) ops

/-- The mean of a list of numbers. -/
def mean (l : List ℚ) : ℚ := l.sum / (l.length : ℚ)

/-! ### Maps -/

theorem value_addAt (k k' : κ) (v : ℚ) (w : Vec κ) : value k (addAt k' v w) = value k w + (if k' = k then v else 0) := by
  induction w with
  | nil => by_cases h : k' = k <;> simp [addAt, value, h]
  | cons e w ih =>
    obtain ⟨x, y⟩ := e
    by_cases h1 : x = k'
    · by_cases h2 : x = k
      · simp [addAt, value, ← h1, h2]
      · have h3 : ¬ k' = k := by rw [← h1]; exact h2
        simp [addAt, value, h1, h3]
    · by_cases h2 : x = k
      · have h3 : ¬ k' = k := by rw [← h2]; exact fun h => h1 h.symm
        have h4 : ¬ k = k' := fun h => h3 h.symm
        simp [addAt, value, h2, h3, h4]
      · simp only [addAt, h1, if_false, value, h2]
        exact ih

theorem keys_addAt (k k' : κ) (v : ℚ) (w : Vec κ) : k ∈ (addAt k' v w).map Prod.fst ↔ k ∈ w.map Prod.fst ∨ k = k' := by
  induction w with
  | nil => simp [addAt]
  | cons e w ih =>
    obtain ⟨x, y⟩ := e
    by_cases h1 : x = k'
    · simp only [addAt, h1, if_true, List.map_cons, List.mem_cons]
      tauto
    · simp only [addAt, h1, if_false, List.map_cons, List.mem_cons, ih]
      tauto

theorem nodup_addAt (k : κ) (v : ℚ) (w : Vec κ) (h : (w.map Prod.fst).Nodup) : ((addAt k v w).map Prod.fst).Nodup := by
  induction w with
  | nil => simp [addAt]
  | cons e w ih =>
    obtain ⟨x, y⟩ := e
    simp only [List.map_cons, List.nodup_cons] at h
    by_cases h1 : x = k
    · simp only [addAt, h1, if_true, List.map_cons, List.nodup_cons]
      rw [← h1]; exact h
    · simp only [addAt, h1, if_false, List.map_cons, List.nodup_cons]
      refine ⟨?_, ih h.2⟩
      rw [keys_addAt]
      rintro (h' | h')
      · exact h.1 h'
      · exact h1 h'

theorem value_addVec (k : κ) (v w : Vec κ) :
    value k (addVec w v) = value k w + ((v.filter (fun e => decide (e.1 = k))).map Prod.snd).sum := by
  induction v generalizing w with
  | nil => simp [addVec]
  | cons e v ih =>
    have := ih (addAt e.1 e.2 w)
    unfold addVec at this ⊢
    rw [List.foldl_cons, this, value_addAt]
    by_cases h : e.1 = k
    · simp [h]; ring
    · simp [h]

theorem value_subVec (k : κ) (v w : Vec κ) :
    value k (subVec w v) = value k w - ((v.filter (fun e => decide (e.1 = k))).map Prod.snd).sum := by
  induction v generalizing w with
  | nil => simp [subVec]
  | cons e v ih =>
    have := ih (addAt e.1 (-e.2) w)
    unfold subVec at this ⊢
    rw [List.foldl_cons, this, value_addAt]
    by_cases h : e.1 = k
    · simp [h]; ring
    · simp [h]

theorem value_absent (k : κ) (w : Vec κ) (h : k ∉ w.map Prod.fst) : value k w = 0 := by
  induction w with
  | nil => rfl
  | cons e w ih =>
    obtain ⟨x, y⟩ := e
    simp only [List.map_cons, List.mem_cons, not_or] at h
    rw [value, if_neg (fun e => h.1 e.symm)]
    exact ih h.2

theorem value_mem {k : κ} {x : ℚ} {w : Vec κ} (hn : (w.map Prod.fst).Nodup) (h : (k, x) ∈ w) : value k w = x := by
  induction w with
  | nil => simp at h
  | cons e w ih =>
    obtain ⟨k', y⟩ := e
    simp only [List.map_cons, List.nodup_cons] at hn
    rcases List.mem_cons.1 h with h | h
    · simp only [Prod.mk.injEq] at h; simp [value, h.1, h.2]
    · rw [value, if_neg]
      · exact ih hn.2 h
      · intro e; subst e; exact hn.1 (List.mem_map.2 ⟨_, h, rfl⟩)

theorem stamp_set (k k' : κ) (n : Nat) (t : List (κ × Nat)) : stamp k (setStamp k' n t) = if k' = k then n else stamp k t := by
  induction t with
  | nil => simp [setStamp, stamp]
  | cons e t ih =>
    obtain ⟨x, y⟩ := e
    by_cases h1 : x = k'
    · subst h1
      by_cases h2 : x = k <;> simp [setStamp, stamp, h2]
    · by_cases h2 : x = k
      · subst h2
        have : ¬ k' = x := fun h => h1 h.symm
        simp [setStamp, stamp, h1, this]
      · simp only [setStamp, h1, if_false, stamp, h2, ih]

/-! ### The invariant -/

/-- The total of `k` if `average` were called now. -/
def fullTotal (s : Averager κ) (k : κ) : ℚ := value k s.totals + due s k

theorem touch_facts (s : Averager κ) (k k' : κ) (hst : ∀ k, stamp k s.tstamps ≤ s.iterations) :
    fullTotal (touch s k') k = fullTotal s k ∧ value k (touch s k').weights = value k s.weights ∧
      (touch s k').iterations = s.iterations ∧ stamp k (touch s k').tstamps ≤ s.iterations ∧
      (stamp k (touch s k').tstamps = if k' = k then s.iterations else stamp k s.tstamps) ∧
      (k ∈ (touch s k').weights.map Prod.fst ↔ k ∈ s.weights.map Prod.fst ∨ k = k') := by
  have h1 : value k (touch s k').weights = value k s.weights := by
    simp only [touch, value_addAt]; split <;> simp
  have h2 : stamp k (touch s k').tstamps = if k' = k then s.iterations else stamp k s.tstamps := by
    simp only [touch, stamp_set]
  refine ⟨?_, h1, rfl, ?_, h2, ?_⟩
  · unfold fullTotal due
    rw [h1, h2]
    simp only [touch, value_addAt]
    by_cases h : k' = k
    · subst h; simp [due]
    · simp [h]
  · rw [h2]; split
    · exact Nat.le_refl _
    · exact hst k
  · simp only [touch]
    exact keys_addAt k k' 0 s.weights

theorem touchAll_facts (s : Averager κ) (v : Vec κ) (hst : ∀ k, stamp k s.tstamps ≤ s.iterations) (k : κ) :
    fullTotal (touchAll s v) k = fullTotal s k ∧ value k (touchAll s v).weights = value k s.weights ∧
      (touchAll s v).iterations = s.iterations ∧ stamp k (touchAll s v).tstamps ≤ s.iterations ∧
      (k ∈ v.map Prod.fst → stamp k (touchAll s v).tstamps = s.iterations) := by
  induction v generalizing s with
  | nil => exact ⟨rfl, rfl, rfl, hst k, by simp⟩
  | cons e v ih =>
    have ht := fun k => touch_facts s k e.1 hst
    have h2 := ih (touch s e.1) (fun k => by rw [(ht k).2.2.1]; exact (ht k).2.2.2.1)
    have hk := ht k
    simp only [touchAll, List.foldl_cons] at h2 ⊢
    refine ⟨h2.1.trans hk.1, h2.2.1.trans hk.2.1, h2.2.2.1.trans hk.2.2.1, ?_, ?_⟩
    · rw [← hk.2.2.1]; exact h2.2.2.2.1
    · intro hmem
      by_cases hv : k ∈ v.map Prod.fst
      · rw [← hk.2.2.1]; exact h2.2.2.2.2 hv
      · simp only [List.map_cons, List.mem_cons, hv, or_false] at hmem
        -- untouched by the others
        have : ∀ (v : Vec κ) (s : Averager κ), k ∉ v.map Prod.fst → (∀ k, stamp k s.tstamps ≤ s.iterations) →
            stamp k (v.foldl (fun s e => touch s e.1) s).tstamps = stamp k s.tstamps := by
          intro v
          induction v with
          | nil => intros; rfl
          | cons e v ih =>
            intro s hv hs
            simp only [List.map_cons, List.mem_cons, not_or] at hv
            have ht := fun k => touch_facts s k e.1 hs
            rw [List.foldl_cons, ih _ hv.2 (fun k => by rw [(ht k).2.2.1]; exact (ht k).2.2.2.1), (ht k).2.2.2.2.1,
              if_neg (fun h => hv.1 h.symm)]
        rw [this v _ hv (fun k => by rw [(ht k).2.2.1]; exact (ht k).2.2.2.1), hk.2.2.2.2.1, if_pos hmem.symm]

/-- The state after the operations `done` from the weights `w`. -/
structure Inv (w : Vec κ) (done : List (Op κ)) (s : Averager κ) : Prop where
  iter : s.iterations = rounds done
  stamps : ∀ k, stamp k s.tstamps ≤ s.iterations
  val : ∀ k, value k s.weights = running w k done
  nodup : (s.weights.map Prod.fst).Nodup

theorem filter_absent (k : κ) (v : Vec κ) (h : k ∉ v.map Prod.fst) : v.filter (fun e => decide (e.1 = k)) = [] := by
  rw [List.filter_eq_nil_iff]
  intro e he
  simp only [decide_eq_true_eq]
  intro hk
  exact h (List.mem_map.2 ⟨e, he, hk⟩)

theorem rounds_append (a b : List (Op κ)) : rounds (a ++ b) = rounds a + rounds b := by
  induction a with
  | nil => simp [rounds]
  | cons o a ih => cases o <;> simp [rounds, ih]; omega

theorem running_append (w : Vec κ) (k : κ) (done : List (Op κ)) (o : Op κ) :
    running w k (done ++ [o]) = running w k done + change k o := by
  simp [running]; ring

theorem nodup_touchAll (s : Averager κ) (v : Vec κ) (h : (s.weights.map Prod.fst).Nodup) :
    ((touchAll s v).weights.map Prod.fst).Nodup := by
  induction v generalizing s with
  | nil => exact h
  | cons e v ih => exact ih (touch s e.1) (nodup_addAt _ _ _ h)

theorem nodup_fold {α : Type} (f : α → κ) (g : α → ℚ) (v : List α) (w : Vec κ) (h : (w.map Prod.fst).Nodup) :
    ((v.foldl (fun w e => addAt (f e) (g e) w) w).map Prod.fst).Nodup := by
  induction v generalizing w with
  | nil => exact h
  | cons e v ih => exact ih _ (nodup_addAt _ _ _ h)

theorem step_inv {w : Vec κ} {done : List (Op κ)} {s : Averager κ} (h : Inv w done s) (o : Op κ) :
    Inv w (done ++ [o]) (step s o) ∧
      ∀ k, fullTotal (step s o) k = fullTotal s k + (match o with | .inc => running w k done | _ => 0) := by
  have ha : ∀ (v : Vec κ) (wt : Vec κ) (d : κ → ℚ), (∀ k, value k wt = value k s.weights + d k) →
      (∀ k, k ∉ v.map Prod.fst → d k = 0) → ∀ k, fullTotal { touchAll s v with weights := wt } k = fullTotal s k := by
    intro v wt d hwt hd k
    obtain ⟨h1, h2, h3, h4, h5⟩ := touchAll_facts s v h.stamps k
    rw [← h1]
    unfold fullTotal due
    simp only
    by_cases hk : k ∈ v.map Prod.fst
    · rw [h5 hk, h3]; simp
    · rw [hwt, hd k hk, h2]; simp
  cases o with
  | inc =>
    refine ⟨⟨?_, ?_, ?_, h.nodup⟩, ?_⟩
    · rw [rounds_append]; simp [step, rounds, h.iter]
    · intro k; have := h.stamps k; simp only [step]; omega
    · intro k; rw [running_append]; simp [step, change, h.val]
    · intro k
      have := h.stamps k
      have e : s.iterations + 1 - stamp k s.tstamps = (s.iterations - stamp k s.tstamps) + 1 := by omega
      simp only [step, fullTotal, due, e]
      rw [← h.val k]
      push_cast
      ring
  | add v =>
    have hv : ∀ k, value k (step s (.add v)).weights = value k s.weights + change k (.add v) := by
      intro k
      simp only [step, value_addVec, change, (touchAll_facts s v h.stamps k).2.1]
    refine ⟨⟨?_, ?_, ?_, ?_⟩, ?_⟩
    · rw [rounds_append]
      by_cases hne : ∃ k : κ, True
      · obtain ⟨k, -⟩ := hne
        simp [step, rounds, (touchAll_facts s v h.stamps k).2.2.1, h.iter]
      · cases v with
        | nil => simp [step, rounds, touchAll, h.iter]
        | cons e v => exact absurd ⟨e.1, trivial⟩ hne
    · intro k; simp only [step]; rw [(touchAll_facts s v h.stamps k).2.2.1]; exact (touchAll_facts s v h.stamps k).2.2.2.1
    · intro k; rw [running_append, hv, h.val]
    · exact nodup_fold _ _ _ _ (nodup_touchAll s v h.nodup)
    · intro k
      simp only [add_zero]
      exact ha v _ (fun k => change k (.add v)) hv (fun k hk => by simp [change, filter_absent k v hk]) k
  | sub v =>
    have hv : ∀ k, value k (step s (.sub v)).weights = value k s.weights + change k (.sub v) := by
      intro k
      simp only [step, value_subVec, change, (touchAll_facts s v h.stamps k).2.1]
      ring
    refine ⟨⟨?_, ?_, ?_, ?_⟩, ?_⟩
    · rw [rounds_append]
      by_cases hne : ∃ k : κ, True
      · obtain ⟨k, -⟩ := hne
        simp [step, rounds, (touchAll_facts s v h.stamps k).2.2.1, h.iter]
      · cases v with
        | nil => simp [step, rounds, touchAll, h.iter]
        | cons e v => exact absurd ⟨e.1, trivial⟩ hne
    · intro k; simp only [step]; rw [(touchAll_facts s v h.stamps k).2.2.1]; exact (touchAll_facts s v h.stamps k).2.2.2.1
    · intro k; rw [running_append, hv, h.val]
    · exact nodup_fold _ _ _ _ (nodup_touchAll s v h.nodup)
    · intro k
      simp only [add_zero]
      exact ha v _ (fun k => change k (.sub v)) hv (fun k hk => by simp [change, filter_absent k v hk]) k

theorem run_inv {w : Vec κ} {done : List (Op κ)} {s : Averager κ} (h : Inv w done s) (ops : List (Op κ)) :
    Inv w (done ++ ops) (run s ops) ∧ ∀ k, fullTotal (run s ops) k = fullTotal s k + (snapshots w k done ops).sum := by
  induction ops generalizing done s with
  | nil => simp [run, snapshots, h]
  | cons o ops ih =>
    obtain ⟨h1, h2⟩ := step_inv h o
    obtain ⟨h3, h4⟩ := ih h1
    have e : done ++ [o] ++ ops = done ++ o :: ops := by simp
    rw [e] at h3
    refine ⟨h3, ?_⟩
    intro k
    have e2 : run s (o :: ops) = run (step s o) ops := rfl
    rw [e2, h4, h2]
    cases o <;> simp [snapshots] ; ring

theorem start_inv (w : Vec κ) (hw : (w.map Prod.fst).Nodup) : Inv w [] (start w) :=
  ⟨rfl, fun _ => Nat.le_refl _, fun k => by simp [running, start], hw⟩

theorem snapshots_length (w : Vec κ) (k : κ) (done ops : List (Op κ)) : (snapshots w k done ops).length = rounds ops := by
  induction ops generalizing done with
  | nil => rfl
  | cons o ops ih => cases o <;> simp [snapshots, rounds, ih]

theorem averageLoop_ok (s : Averager κ) (t : Vec κ) (h : ∀ k x, (k, x) ∈ t → value k s.totals + ((s.iterations - stamp k s.tstamps : Nat) : ℚ) * x ≠ 0) :
    averageLoop s t = .ok (t.map (fun e => (e.1, (value e.1 s.totals + ((s.iterations - stamp e.1 s.tstamps : Nat) : ℚ) * e.2) / (s.iterations : ℚ)))) := by
  induction t with
  | nil => rfl
  | cons e t ih =>
    obtain ⟨k, x⟩ := e
    rw [averageLoop]
    rw [if_neg (h k x (by simp)), ih (fun k x hk => h k x (by simp [hk]))]
    rfl

theorem averageLoop_ub (s : Averager κ) (t : Vec κ) (k : κ) (x : ℚ) (hm : (k, x) ∈ t)
    (h : value k s.totals + ((s.iterations - stamp k s.tstamps : Nat) : ℚ) * x = 0) : averageLoop s t = .ub := by
  induction t with
  | nil => simp at hm
  | cons e t ih =>
    obtain ⟨k', x'⟩ := e
    rw [averageLoop]
    split
    · rfl
    · rename_i hne
      rcases List.mem_cons.1 hm with hm | hm
      · simp only [Prod.mk.injEq] at hm
        rw [← hm.1, ← hm.2] at hne
        exact absurd h hne
      · rw [ih hm]; rfl

theorem total_eq (w : Vec κ) (hw : (w.map Prod.fst).Nodup) (ops : List (Op κ)) (k : κ) (x : ℚ)
    (hm : (k, x) ∈ (run (start w) ops).weights) :
    value k (run (start w) ops).totals + (((run (start w) ops).iterations - stamp k (run (start w) ops).tstamps : Nat) : ℚ) * x
      = (snapshots w k [] ops).sum := by
  obtain ⟨h1, h2⟩ := run_inv (start_inv w hw) ops
  have := h2 k
  rw [← value_mem h1.nodup hm]
  unfold fullTotal due at this
  simpa [start, value] using this

theorem value_map (f : κ → ℚ → ℚ) (k : κ) (w : Vec κ) (h : k ∈ w.map Prod.fst) :
    value k (w.map (fun e => (e.1, f e.1 e.2))) = f k (value k w) := by
  induction w with
  | nil => simp at h
  | cons e w ih =>
    obtain ⟨k', x⟩ := e
    by_cases hk : k' = k
    · simp [value, hk]
    · simp only [List.map_cons, value, hk, if_false]
      exact ih (by simpa [Ne.symm hk] using h)

/-- **C32**: after any history of updates, `average` gives each weight the mean of its values at the ends of the iterations,
provided that none of the means is 0. -/
theorem C32_average_partial (w : Vec κ) (hw : (w.map Prod.fst).Nodup) (ops : List (Op κ))
    (hne : ∀ k ∈ (run (start w) ops).weights.map Prod.fst, mean (snapshots w k [] ops) ≠ 0) :
    ∃ w', average (run (start w) ops) = .ok w' ∧ w'.map Prod.fst = (run (start w) ops).weights.map Prod.fst ∧
      ∀ k ∈ w'.map Prod.fst, value k w' = mean (snapshots w k [] ops) := by
  have hiter := (run_inv (start_inv w hw) ops).1.iter
  rw [List.nil_append] at hiter
  have hsum : ∀ k, mean (snapshots w k [] ops) = (snapshots w k [] ops).sum / ((run (start w) ops).iterations : ℚ) := by
    intro k; unfold mean; rw [snapshots_length, hiter]
  refine ⟨_, averageLoop_ok _ _ ?_, ?_, ?_⟩
  · intro k x hm h0
    rw [total_eq w hw ops k x hm] at h0
    have := hne k (List.mem_map.2 ⟨_, hm, rfl⟩)
    rw [hsum, h0] at this
    simp at this
  · simp [List.map_map, Function.comp_def]
  · intro k hk
    have hk' : k ∈ (run (start w) ops).weights.map Prod.fst := by
      simpa [List.map_map, Function.comp_def] using hk
    rw [value_map (fun k x => (value k (run (start w) ops).totals +
      (((run (start w) ops).iterations - stamp k (run (start w) ops).tstamps : Nat) : ℚ) * x) / ((run (start w) ops).iterations : ℚ)) k _ hk']
    obtain ⟨e, he, rfl⟩ := List.mem_map.1 hk'
    rw [value_mem (run_inv (start_inv w hw) ops).1.nodup (show (e.1, e.2) ∈ _ from he), total_eq w hw ops e.1 e.2 he, hsum]

/-- **C32 fails for a weight whose mean is 0**: the entry is erased from the map that is being traversed, and
its iterator is incremented afterwards. -/
theorem C32_zero_violation (w : Vec κ) (hw : (w.map Prod.fst).Nodup) (ops : List (Op κ)) (k : κ)
    (hk : k ∈ (run (start w) ops).weights.map Prod.fst) (h0 : mean (snapshots w k [] ops) = 0) :
    average (run (start w) ops) = .ub := by
  obtain ⟨e, he, rfl⟩ := List.mem_map.1 hk
  refine averageLoop_ub _ _ e.1 e.2 he ?_
  rw [total_eq w hw ops e.1 e.2 he]
  unfold mean at h0
  rcases div_eq_zero_iff.1 h0 with h | h
  · exact h
  · have : (snapshots w e.1 [] ops) = [] := by
      rw [← List.length_eq_zero_iff]; exact_mod_cast h
    rw [this]; rfl

/-- The keys with weights after the updates: those of the start and those of the updates. -/
theorem C32_keys (w : Vec κ) (ops : List (Op κ)) (k : κ) :
    k ∈ (run (start w) ops).weights.map Prod.fst ↔
      k ∈ w.map Prod.fst ∨ ∃ o ∈ ops, match o with | .add v => k ∈ v.map Prod.fst | .sub v => k ∈ v.map Prod.fst | .inc => False := by
  have hfold : ∀ (v : Vec κ) (f : κ × ℚ → ℚ) (w : Vec κ), k ∈ (v.foldl (fun w e => addAt e.1 (f e) w) w).map Prod.fst ↔ k ∈ w.map Prod.fst ∨ k ∈ v.map Prod.fst := by
    intro v f
    induction v with
    | nil => intro w; simp
    | cons e v ih =>
      intro w
      rw [List.foldl_cons, ih, keys_addAt, List.map_cons, List.mem_cons]
      tauto
  have htouch : ∀ (v : Vec κ) (s : Averager κ), k ∈ (touchAll s v).weights.map Prod.fst ↔ k ∈ s.weights.map Prod.fst ∨ k ∈ v.map Prod.fst := by
    intro v
    induction v with
    | nil => intro s; simp [touchAll]
    | cons e v ih =>
      intro s
      have := ih (touch s e.1)
      simp only [touchAll, List.foldl_cons] at this ⊢
      rw [this, List.map_cons, List.mem_cons]
      simp only [touch]
      rw [keys_addAt]
      tauto
  have hgen : ∀ (ops : List (Op κ)) (s : Averager κ), k ∈ (run s ops).weights.map Prod.fst ↔
      k ∈ s.weights.map Prod.fst ∨ ∃ o ∈ ops, match o with | .add v => k ∈ v.map Prod.fst | .sub v => k ∈ v.map Prod.fst | .inc => False := by
    intro ops
    induction ops with
    | nil => intro s; simp [run]
    | cons o ops ih =>
      intro s
      have e2 : run s (o :: ops) = run (step s o) ops := rfl
      rw [e2, ih]
      cases o with
      | inc => simp [step]
      | add v =>
        simp only [step, addVec, hfold v (fun e => e.2), htouch, List.mem_cons, exists_eq_or_imp]
        tauto
      | sub v =>
        simp only [step, subVec, hfold v (fun e => -e.2), htouch, List.mem_cons, exists_eq_or_imp]
        tauto
  exact hgen ops (start w)

/-! ### Examples -/

/-- Two updates: features 1 and 2 change, then only feature 1. -/
def exOps : List (Op Nat) := [.sub [(1, 1)], .add [(2, 1)], .inc, .add [(1, 3)], .inc]

example : average (run (start []) exOps) = .ok [(1, 1/2), (2, 1)] := by decide +kernel
example : snapshots [] 1 [] exOps = [-1, 2] ∧ snapshots [] 2 [] exOps = [1, 1] := by decide +kernel

/-- A feature that the chosen and the right analyses share, in the first update of a training run: its weight stays 0. -/
theorem C32_shared_feature_violation : average (run (start []) [Op.sub [(1, 1), (2, 1)], .add [(1, 1), (3, 1)], .inc]) = .ub := by
  decide +kernel

end Verif.Percep
