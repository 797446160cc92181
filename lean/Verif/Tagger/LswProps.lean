import Mathlib.Tactic.Linarith
import Mathlib.Tactic.FieldSimp
import Mathlib.Tactic.Ring
import Mathlib.Tactic.NormNum
import Mathlib.Tactic.Positivity
import Verif.Tagger.Lsw
import Verif.Tagger.StreamSpec
/-!
# The sliding-window tagger: C22 (rules), C50 (training), C51 (tagging)
-/
namespace Verif.Tagger.Lsw
open Verif.Tagger.Train

/-! ## C22 -/

/-- Specification: the tag `j` must not come directly after `i`. -/
def Banned (r : Rules) (i j : Nat) : Prop := (i, j) ∈ r.forbid ∨ ∃ e ∈ r.enforce, e.1 = i ∧ j ∉ e.2

/-- What the code decides, for all triples. -/
theorem isValid_iff (r : Rules) (a b c : Nat) :
    isValid r a b c = true ↔ ¬ Banned r a b ∧ (b, c) ∉ r.forbid ∧ (a ≠ b → ¬ Banned r b c) := by
  unfold isValid Banned
  by_cases hf : r.forbid.any (fun f => decide ((a = f.1 ∧ b = f.2) ∨ (b = f.1 ∧ c = f.2))) = true
  · rw [if_pos hf]
    obtain ⟨f, hm, h⟩ := List.any_eq_true.1 hf
    simp only [Bool.false_eq_true, false_iff]
    rcases of_decide_eq_true h with ⟨rfl, rfl⟩ | ⟨rfl, rfl⟩
    · rintro ⟨h1, _⟩; exact h1 (.inl hm)
    · rintro ⟨_, h1, _⟩; exact h1 hm
  · rw [if_neg hf]
    have hf' : ∀ f ∈ r.forbid, ¬ ((a = f.1 ∧ b = f.2) ∨ (b = f.1 ∧ c = f.2)) := by
      intro f hm h
      exact hf (List.any_eq_true.2 ⟨f, hm, decide_eq_true h⟩)
    have n1 : (a, b) ∉ r.forbid := fun h => hf' _ h (.inl ⟨rfl, rfl⟩)
    have n2 : (b, c) ∉ r.forbid := fun h => hf' _ h (.inr ⟨rfl, rfl⟩)
    rw [List.all_eq_true]
    constructor
    · intro h
      refine ⟨?_, n2, ?_⟩
      · rintro (h1 | ⟨e, he, h1, h2⟩)
        · exact n1 h1
        · have := h e he
          rw [if_pos h1.symm] at this
          exact h2 (of_decide_eq_true this)
      · intro hab
        rintro (h1 | ⟨e, he, h1, h2⟩)
        · exact n2 h1
        · have := h e he
          rw [if_neg (fun hh => hab (hh.trans h1)), if_pos h1.symm] at this
          exact h2 (of_decide_eq_true this)
    · rintro ⟨h1, _, h3⟩ e he
      by_cases ha : a = e.1
      · rw [if_pos ha]
        apply decide_eq_true
        exact Classical.byContradiction fun hn => h1 (.inr ⟨e, he, ha.symm, hn⟩)
      · rw [if_neg ha]
        by_cases hb : b = e.1
        · rw [if_pos hb]
          apply decide_eq_true
          exact Classical.byContradiction fun hn => h3 (fun hh => ha (hh.trans hb)) (.inr ⟨e, he, hb.symm, hn⟩)
        · rw [if_neg hb]

/-- **C22, partial.**  For all rules and triples whose first two tags differ, the code accepts the triple exactly when
neither of its two bigrams is ruled out.  Missing: triples that begin with twice the same tag, see
`C22_repeated_violation`. -/
theorem C22_valid_partial (r : Rules) (a b c : Nat) (h : a ≠ b) :
    isValid r a b c = true ↔ ¬ Banned r a b ∧ ¬ Banned r b c := by
  rw [isValid_iff]
  constructor
  · rintro ⟨h1, _, h3⟩; exact ⟨h1, h3 h⟩
  · rintro ⟨h1, h2⟩; exact ⟨h1, fun hf => h2 (.inl hf), fun _ => h2⟩

/-- No acceptable triple is refused, whatever the tags; and forbid rules and the first bigram are always checked. -/
theorem C22_sound (r : Rules) (a b c : Nat) :
    (¬ Banned r a b ∧ ¬ Banned r b c → isValid r a b c = true) ∧
    (isValid r a b c = true → ¬ Banned r a b ∧ (b, c) ∉ r.forbid) := by
  rw [isValid_iff]
  exact ⟨fun ⟨h1, h2⟩ => ⟨h1, fun hf => h2 (.inl hf), fun _ => h2⟩, fun ⟨h1, h2, _⟩ => ⟨h1, h2⟩⟩

/-- For every enforce rule that allows its own tag, and every tag it does not allow, the triple with twice the own tag
and then that tag is accepted (unless another rule refuses it; here there is no other). -/
theorem C22_repeated_violation (t x : Nat) (l : List Nat) (ht : t ∈ l) (hx : x ∉ l) :
    isValid ⟨[], [(t, l)]⟩ t t x = true ∧ Banned ⟨[], [(t, l)]⟩ t x :=
  ⟨by simp [isValid, ht], .inr ⟨(t, l), by simp, rfl, hx⟩⟩

example : isValid ⟨[(0, 1)], [(1, [0])]⟩ 2 1 0 = true ∧ isValid ⟨[(0, 1)], [(1, [0])]⟩ 2 0 1 = false ∧
    isValid ⟨[(0, 1)], [(1, [0])]⟩ 2 1 2 = false := by decide

/-! ## C50: training -/

theorem mem_triples (w : Win) (a b c : Nat) : (a, b, c) ∈ w.triples ↔ a ∈ w.left ∧ b ∈ w.mid ∧ c ∈ w.right := by
  unfold Win.triples
  simp only [List.mem_flatMap, List.mem_map, Prod.mk.injEq]
  constructor
  · rintro ⟨l, hl, m, hm, r, hr, rfl, rfl, rfl⟩; exact ⟨hl, hm, hr⟩
  · rintro ⟨hl, hm, hr⟩; exact ⟨a, hl, b, hm, c, hr, rfl, rfl, rfl⟩

/-- The sets of tags of a window have no repeated elements (they are sets). -/
structure Win.Ok (w : Win) : Prop where
  left : w.left.Nodup
  mid : w.mid.Nodup
  right : w.right.Nodup

theorem nodup_flatMap {α β : Type} (l : List α) (f : α → List β) (h1 : l.Nodup) (h2 : ∀ a ∈ l, (f a).Nodup)
    (h3 : ∀ a b, a ≠ b → ∀ x ∈ f a, x ∉ f b) : (l.flatMap f).Nodup := by
  induction l with
  | nil => simp
  | cons a l ih =>
    rw [List.flatMap_cons, List.nodup_append]
    obtain ⟨ha, hl⟩ := List.nodup_cons.1 h1
    refine ⟨h2 a (List.mem_cons_self ..), ih hl fun b hb => h2 b (List.mem_cons_of_mem _ hb), ?_⟩
    rintro x hx y hy rfl
    obtain ⟨b, hb, hxb⟩ := List.mem_flatMap.1 hy
    exact h3 a b (fun h => ha (h ▸ hb)) x hx hxb

theorem nodup_triples (w : Win) (h : w.Ok) : w.triples.Nodup := by
  unfold Win.triples
  apply nodup_flatMap _ _ h.left
  · intro l _
    apply nodup_flatMap _ _ h.mid
    · intro m _
      exact List.Pairwise.map _ (fun a b hab heq => hab (by simpa using heq)) h.right
    · intro m m' hm x hx hx'
      obtain ⟨r, _, rfl⟩ := List.mem_map.1 hx
      obtain ⟨r', _, h'⟩ := List.mem_map.1 hx'
      simp only [Prod.mk.injEq] at h'
      exact hm h'.2.1.symm
  · intro l l' hl x hx hx'
    obtain ⟨m, _, hx⟩ := List.mem_flatMap.1 hx
    obtain ⟨m', _, hx'⟩ := List.mem_flatMap.1 hx'
    obtain ⟨r, _, rfl⟩ := List.mem_map.1 hx
    obtain ⟨r', _, h'⟩ := List.mem_map.1 hx'
    simp only [Prod.mk.injEq] at h'
    exact hl h'.1.symm

theorem length_triples (w : Win) : w.triples.length = w.left.length * w.mid.length * w.right.length := by
  unfold Win.triples
  rw [List.length_flatMap]
  have : ∀ (m : List Nat) (l : Nat), (m.flatMap fun m => w.right.map fun r => (l, m, r)).length = m.length * w.right.length := by
    intro m l
    rw [List.length_flatMap]
    induction m with
    | nil => simp
    | cons a m ih => simp only [List.map_cons, List.sum_cons, List.length_map, List.length_cons] at *; rw [Nat.succ_mul]; omega
  induction w.left with
  | nil => simp
  | cons a l ih =>
    simp only [List.map_cons, List.sum_cons, List.length_cons, this] at ih ⊢
    rw [ih, Nat.add_mul, Nat.add_mul, Nat.one_mul]; omega

/-- The weight that a list of windows gives to a triple: the sum over the windows that have the triple of what the
window gives it. -/
def given (share : Win → Nat × Nat × Nat → ℚ) (ws : List Win) (t : Nat × Nat × Nat) : ℚ :=
  (ws.map fun w => if t.1 ∈ w.left ∧ t.2.1 ∈ w.mid ∧ t.2.2 ∈ w.right then share w t else 0).sum

theorem foldl_addCell (ts : List (Nat × Nat × Nat)) (f : Nat × Nat × Nat → ℚ) (hn : ts.Nodup) :
    ∀ (d : Cube) (a b c : Nat),
    ts.foldl (fun d t => addCell d t (f t)) d a b c = d a b c + if (a, b, c) ∈ ts then f (a, b, c) else 0 := by
  induction ts with
  | nil => intros; simp
  | cons t ts ih =>
    intro d a b c
    obtain ⟨h1, h2⟩ := List.nodup_cons.1 hn
    rw [List.foldl_cons, ih h2]
    unfold addCell
    obtain ⟨x, y, z⟩ := t
    by_cases h : a = x ∧ b = y ∧ c = z
    · obtain ⟨rfl, rfl, rfl⟩ := h
      simp [h1]
    · have h' : ¬ (a, b, c) = (x, y, z) := by simpa using h
      simp only [if_neg h, List.mem_cons, h', false_or]

theorem foldl_cond (p : Nat × Nat × Nat → Bool) (f : Nat × Nat × Nat → ℚ) (ts : List (Nat × Nat × Nat)) (hn : ts.Nodup)
    (d : Cube) (a b c : Nat) :
    ts.foldl (fun d t => if p t = true then addCell d t (f t) else d) d a b c =
      d a b c + if (a, b, c) ∈ ts ∧ p (a, b, c) = true then f (a, b, c) else 0 := by
  have h : ∀ d : Cube, ts.foldl (fun d t => if p t = true then addCell d t (f t) else d) d =
      (ts.filter p).foldl (fun d t => addCell d t (f t)) d := by
    clear hn
    induction ts with
    | nil => intro d; rfl
    | cons t ts ih =>
      intro d
      rw [List.foldl_cons, ih, List.filter_cons]
      by_cases hp : p t = true
      · rw [if_pos hp, if_pos hp]; rfl
      · rw [if_neg hp, if_neg hp]
  rw [h, foldl_addCell _ _ (hn.sublist List.filter_sublist)]
  simp only [List.mem_filter]

theorem count_valid (p : Nat × Nat × Nat → Bool) (ts : List (Nat × Nat × Nat)) (k : Int) :
    ts.foldl (fun n t => if p t = true then n else n - 1) k = k - ts.length + (ts.countP p : Nat) := by
  induction ts generalizing k with
  | nil => simp
  | cons t ts ih =>
    rw [List.foldl_cons, ih, List.length_cons, List.countP_cons]
    by_cases hp : p t = true
    · rw [if_pos hp, if_pos hp]; omega
    · rw [if_neg hp, if_neg hp]; omega

/-- Specification: how many triples of a window the rules accept. -/
def validCount (r : Rules) (w : Win) : Nat := w.triples.countP fun t => isValid r t.1 t.2.1 t.2.2

theorem initWin_spec (r : Rules) (w : Win) (hw : w.Ok) (d : Cube) (a b c : Nat) :
    initWin r d w a b c = d a b c +
      if a ∈ w.left ∧ b ∈ w.mid ∧ c ∈ w.right then (if isValid r a b c = true then 1 / (validCount r w : ℚ) else 0) else 0 := by
  unfold initWin
  have hn : w.triples.foldl (fun n t => if isValid r t.1 t.2.1 t.2.2 = true then n else n - 1)
      ((w.left.length : Int) * w.mid.length * w.right.length) = (validCount r w : Nat) := by
    rw [count_valid (fun t => isValid r t.1 t.2.1 t.2.2)]
    rw [length_triples]; unfold validCount; push_cast; ring
  simp only [hn]
  by_cases h0 : ((validCount r w : Nat) : Int) ≠ 0
  · rw [if_pos h0, foldl_cond (fun t => isValid r t.1 t.2.1 t.2.2) _ _ (nodup_triples w hw)]
    simp only [mem_triples, Int.cast_natCast]
    by_cases h : a ∈ w.left ∧ b ∈ w.mid ∧ c ∈ w.right
    · simp [h]
    · rw [if_neg h, if_neg (fun hh => h hh.1)]
  · rw [if_neg h0]
    have h0' : validCount r w = 0 := by omega
    by_cases h : a ∈ w.left ∧ b ∈ w.mid ∧ c ∈ w.right
    · have hv : ¬ isValid r a b c = true := by
        intro hv
        unfold validCount at h0'
        rw [List.countP_eq_zero] at h0'
        exact h0' (a, b, c) ((mem_triples w a b c).2 h) hv
      rw [if_pos h, if_neg hv, add_zero]
    · rw [if_neg h, add_zero]

theorem trainWin_spec (old : Cube) (w : Win) (hw : w.Ok) (d : Cube) (a b c : Nat) :
    trainWin old d w a b c = d a b c +
      if a ∈ w.left ∧ b ∈ w.mid ∧ c ∈ w.right then
        (if (w.triples.map fun t => old t.1 t.2.1 t.2.2).sum > ZERO then
          old a b c / (w.triples.map fun t => old t.1 t.2.1 t.2.2).sum else 0) else 0 := by
  have hs : ∀ (ts : List (Nat × Nat × Nat)) (k : ℚ),
      ts.foldl (fun s t => s + old t.1 t.2.1 t.2.2) k = k + (ts.map fun t => old t.1 t.2.1 t.2.2).sum := by
    intro ts
    induction ts with
    | nil => intro k; simp
    | cons t ts ih => intro k; rw [List.foldl_cons, ih, List.map_cons, List.sum_cons]; ring
  unfold trainWin
  simp only [hs, zero_add]
  by_cases h0 : (w.triples.map fun t => old t.1 t.2.1 t.2.2).sum > ZERO
  · simp only [if_pos h0]
    rw [foldl_addCell _ _ (nodup_triples w hw)]
    simp only [mem_triples]
  · simp only [if_neg h0, ite_self, add_zero]
    have : ∀ (ts : List (Nat × Nat × Nat)) (d : Cube), ts.foldl (fun d _ => d) d = d := by
      intro ts
      induction ts with
      | nil => intro d; rfl
      | cons t ts ih => intro d; rw [List.foldl_cons, ih]
    rw [this]

theorem foldl_given (step : Cube → Win → Cube) (share : Win → Nat × Nat × Nat → ℚ)
    (ws : List Win) (hok : ∀ w ∈ ws, w.Ok)
    (h : ∀ w : Win, w.Ok → ∀ (d : Cube) a b c, step d w a b c = d a b c +
      if a ∈ w.left ∧ b ∈ w.mid ∧ c ∈ w.right then share w (a, b, c) else 0) (a b c : Nat) :
    ∀ d : Cube, ws.foldl step d a b c = d a b c + given share ws (a, b, c) := by
  induction ws with
  | nil => intro d; simp [given]
  | cons w ws ih =>
    intro d
    rw [List.foldl_cons, ih (fun x hx => hok x (List.mem_cons_of_mem _ hx)), h w (hok w (List.mem_cons_self ..))]
    simp only [given, List.map_cons, List.sum_cons]
    ring

theorem windows_ok (ts : List Tags) (h : ∀ t ∈ ts, t.Nodup) : ∀ w ∈ windows ts, w.Ok := by
  induction ts with
  | nil => intro w hw; simp [windows] at hw
  | cons a ts ih =>
    intro w hw
    match ts, hw with
    | b :: c :: rest, hw =>
      rw [windows] at hw
      rcases List.mem_cons.1 hw with rfl | hw
      · exact ⟨h a (by simp), h b (by simp), h c (by simp)⟩
      · exact ih (fun t ht => h t (List.mem_cons_of_mem _ ht)) w hw
    | [], hw => simp [windows] at hw
    | [_], hw => simp [windows] at hw

/-- What a window gives to a triple at the start: each triple accepted by the rules gets an equal share of 1. -/
def evenShare (r : Rules) (w : Win) (t : Nat × Nat × Nat) : ℚ :=
  if isValid r t.1 t.2.1 t.2.2 = true then 1 / (validCount r w : ℚ) else 0

/-- What a window gives to a triple in training: 1 shared in proportion to the old parameters; nothing if these
are all (nearly) zero in the window. -/
def proportion (old : Cube) (w : Win) (t : Nat × Nat × Nat) : ℚ :=
  let total := (w.triples.map fun t => old t.1 t.2.1 t.2.2).sum
  if total > ZERO then old t.1 t.2.1 t.2.2 / total else 0

/-- **C50.**  For all rules and texts, the initial parameters: every three consecutive words give 1, shared equally
among the triples of their tags that the rules accept; in an iteration of training they give 1 shared in proportion to the
old parameters. -/
theorem C50_parameters (r : Rules) (old : Cube) (ts : List Tags) (hts : ∀ t ∈ ts, t.Nodup) (a b c : Nat) :
    init r ts a b c = given (evenShare r) (windows ts) (a, b, c) ∧
    train old ts a b c = given (proportion old) (windows ts) (a, b, c) := by
  constructor
  · have := foldl_given (initWin r) (evenShare r) (windows ts) (windows_ok ts hts) (initWin_spec r) a b c fun _ _ _ => 0
    rw [zero_add] at this
    exact this
  · have := foldl_given (trainWin old) (proportion old) (windows ts) (windows_ok ts hts) (trainWin_spec old) a b c
      fun _ _ _ => 0
    rw [zero_add] at this
    exact this

/-! ### consequences -/

theorem given_zero (share : Win → Nat × Nat × Nat → ℚ) (ws : List Win) (t : Nat × Nat × Nat)
    (h : ∀ w, share w t = 0) : given share ws t = 0 := by
  unfold given
  induction ws with
  | nil => rfl
  | cons w ws ih => simp [ih, h w]

theorem given_nonneg (share : Win → Nat × Nat × Nat → ℚ) (ws : List Win) (t : Nat × Nat × Nat)
    (h : ∀ w, 0 ≤ share w t) : 0 ≤ given share ws t := by
  unfold given
  induction ws with
  | nil => exact le_refl _
  | cons w ws ih =>
    simp only [List.map_cons, List.sum_cons]
    have := h w
    split <;> linarith

/-- `k` iterations of training. -/
def trainTimes (ts : List Tags) : Nat → Cube → Cube
  | 0, d => d
  | k + 1, d => trainTimes ts k (train d ts)

/-- **C50.**  However many iterations of training follow, a triple refused by the rules keeps the weight zero, and
no weight is negative. -/
theorem C50_refused (r : Rules) (ts ts' : List Tags) (hts : ∀ t ∈ ts, t.Nodup) (hts' : ∀ t ∈ ts', t.Nodup) (k : Nat) :
    (∀ a b c, isValid r a b c = false → trainTimes ts' k (init r ts) a b c = 0) ∧
    ∀ a b c, 0 ≤ trainTimes ts' k (init r ts) a b c := by
  have step : ∀ (k : Nat) (d : Cube), (∀ a b c, isValid r a b c = false → d a b c = 0) → (∀ a b c, 0 ≤ d a b c) →
      (∀ a b c, isValid r a b c = false → trainTimes ts' k d a b c = 0) ∧ ∀ a b c, 0 ≤ trainTimes ts' k d a b c := by
    intro k
    induction k with
    | zero => intro d h1 h2; exact ⟨h1, h2⟩
    | succ k ih =>
      intro d h1 h2
      apply ih
      · intro a b c h
        rw [(C50_parameters r d ts' hts' a b c).2]
        apply given_zero
        intro w
        unfold proportion
        simp [h1 a b c h]
      · intro a b c
        rw [(C50_parameters r d ts' hts' a b c).2]
        apply given_nonneg
        intro w
        unfold proportion
        simp only []
        split
        · rename_i h
          exact div_nonneg (h2 a b c) (le_of_lt (lt_trans (by unfold ZERO; norm_num) h))
        · exact le_refl _
  apply step
  · intro a b c h
    rw [(C50_parameters r (fun _ _ _ => 0) ts hts a b c).1]
    apply given_zero
    intro w
    unfold evenShare
    simp [h]
  · intro a b c
    rw [(C50_parameters r (fun _ _ _ => 0) ts hts a b c).1]
    apply given_nonneg
    intro w
    unfold evenShare
    split
    · positivity
    · exact le_refl _

/-- The sum of all parameters for `n` tags. -/
def mass (n : Nat) (d : Cube) : ℚ := sumTo n fun a => sumTo n fun b => sumTo n fun c => d a b c

theorem sumTo_congr' (n : Nat) (f g : Nat → ℚ) (h : ∀ j < n, f j = g j) : sumTo n f = sumTo n g := by
  induction n with
  | zero => rfl
  | succ n ih => rw [sumTo, sumTo, ih fun j hj => h j (by omega), h n (by omega)]

theorem sumTo_add' (n : Nat) (f g : Nat → ℚ) : sumTo n (fun j => f j + g j) = sumTo n f + sumTo n g := by
  induction n with
  | zero => simp [sumTo]
  | succ n ih => rw [sumTo, sumTo, sumTo, ih]; ring

theorem sumTo_zero' (n : Nat) : sumTo n (fun _ => 0) = 0 := by
  induction n with
  | zero => rfl
  | succ n ih => rw [sumTo, ih]; ring

theorem sumTo_single (n i : Nat) (x : ℚ) (hi : i < n) : sumTo n (fun j => if j = i then x else 0) = x := by
  induction n with
  | zero => omega
  | succ n ih =>
    rw [sumTo]
    by_cases h : i = n
    · subst h
      have : sumTo i (fun j => if j = i then x else 0) = sumTo i fun _ => 0 := by
        apply sumTo_congr'; intro j hj; rw [if_neg (by omega)]
      rw [this, sumTo_zero', if_pos rfl]; ring
    · rw [ih (by omega), if_neg (fun hh => h hh.symm)]; ring

theorem mass_add (n : Nat) (d e : Cube) : mass n (fun a b c => d a b c + e a b c) = mass n d + mass n e := by
  unfold mass
  rw [← sumTo_add']
  apply sumTo_congr'; intro a _
  rw [← sumTo_add']
  apply sumTo_congr'; intro b _
  rw [← sumTo_add']

theorem mass_single (n : Nat) (x : ℚ) (i j k : Nat) (hi : i < n) (hj : j < n) (hk : k < n) :
    mass n (fun a b c => if (a, b, c) = (i, j, k) then x else 0) = x := by
  unfold mass
  refine Eq.trans (sumTo_congr' n _ _ ?_) (sumTo_single n i x hi)
  intro a _
  by_cases ha : a = i
  · rw [if_pos ha]
    refine Eq.trans (sumTo_congr' n _ _ ?_) (sumTo_single n j x hj)
    intro b _
    by_cases hb : b = j
    · rw [if_pos hb]
      refine Eq.trans (sumTo_congr' n _ _ ?_) (sumTo_single n k x hk)
      intro c _
      simp [ha, hb]
    · rw [if_neg hb]
      rw [sumTo_congr' n _ (fun _ => 0) (fun c _ => by simp [hb]), sumTo_zero']
  · rw [if_neg ha]
    rw [sumTo_congr' n _ (fun _ => 0) (fun b _ => ?_), sumTo_zero']
    rw [sumTo_congr' n _ (fun _ => 0) (fun c _ => by simp [ha]), sumTo_zero']

theorem mass_list (n : Nat) (f : Nat × Nat × Nat → ℚ) (ts : List (Nat × Nat × Nat)) (hn : ts.Nodup)
    (hr : ∀ t ∈ ts, t.1 < n ∧ t.2.1 < n ∧ t.2.2 < n) :
    mass n (fun a b c => if (a, b, c) ∈ ts then f (a, b, c) else 0) = (ts.map f).sum := by
  induction ts with
  | nil =>
    simp only [List.not_mem_nil, if_false, List.map_nil, List.sum_nil]
    unfold mass
    rw [sumTo_congr' n _ (fun _ => 0) (fun a _ => ?_), sumTo_zero']
    rw [sumTo_congr' n _ (fun _ => 0) (fun b _ => ?_), sumTo_zero']
    rw [sumTo_zero']
  | cons t ts ih =>
    obtain ⟨h1, h2⟩ := List.nodup_cons.1 hn
    rw [List.map_cons, List.sum_cons, ← ih h2 (fun t ht => hr t (List.mem_cons_of_mem _ ht))]
    obtain ⟨i, j, k⟩ := t
    have hb := hr (i, j, k) (List.mem_cons_self ..)
    rw [← mass_single n (f (i, j, k)) i j k hb.1 hb.2.1 hb.2.2, ← mass_add]
    congr 1
    funext a b c
    by_cases h : (a, b, c) = (i, j, k)
    · rw [if_pos (by rw [h]; simp), if_pos h, if_neg (by rw [h]; exact h1), h]; ring
    · rw [if_neg h]
      simp [List.mem_cons, h]

theorem mass_given (n : Nat) (share : Win → Nat × Nat × Nat → ℚ) (ws : List Win) (hok : ∀ w ∈ ws, w.Ok)
    (hr : ∀ w ∈ ws, ∀ t ∈ w.triples, t.1 < n ∧ t.2.1 < n ∧ t.2.2 < n) :
    mass n (fun a b c => given share ws (a, b, c)) = (ws.map fun w => (w.triples.map (share w)).sum).sum := by
  induction ws with
  | nil =>
    simp only [given, List.map_nil, List.sum_nil]
    unfold mass
    simp only [sumTo_zero']
  | cons w ws ih =>
    rw [List.map_cons, List.sum_cons, ← ih (fun x hx => hok x (List.mem_cons_of_mem _ hx))
      (fun x hx => hr x (List.mem_cons_of_mem _ hx)),
      ← mass_list n (share w) w.triples (nodup_triples w (hok w (List.mem_cons_self ..))) (hr w (List.mem_cons_self ..)),
      ← mass_add]
    congr 1
    funext a b c
    simp only [given, List.map_cons, List.sum_cons, mem_triples]

theorem sum_filter (p : Nat × Nat × Nat → Bool) (x : ℚ) (ts : List (Nat × Nat × Nat)) :
    (ts.map fun t => if p t = true then x else 0).sum = (ts.countP p : Nat) * x := by
  induction ts with
  | nil => simp
  | cons t ts ih =>
    rw [List.map_cons, List.sum_cons, ih, List.countP_cons]
    by_cases hp : p t = true
    · rw [if_pos hp, if_pos hp]; push_cast; ring
    · rw [if_neg hp, if_neg hp]; push_cast; ring

theorem sum_map_div (f : Nat × Nat × Nat → ℚ) (x : ℚ) (ts : List (Nat × Nat × Nat)) :
    (ts.map fun t => f t / x).sum = (ts.map f).sum / x := by
  induction ts with
  | nil => simp
  | cons t ts ih => rw [List.map_cons, List.sum_cons, ih, List.map_cons, List.sum_cons]; ring

theorem sum_indicator {β : Type} (ws : List β) (f : β → ℚ) (P : β → Bool)
    (h : ∀ w ∈ ws, f w = if P w = true then 1 else 0) : (ws.map f).sum = (ws.countP P : Nat) := by
  induction ws with
  | nil => simp
  | cons w ws ih =>
    rw [List.map_cons, List.sum_cons, ih (fun x hx => h x (List.mem_cons_of_mem _ hx)), List.countP_cons,
      h w (List.mem_cons_self ..)]
    split <;> push_cast <;> ring

/-- **C50.**  No weight is lost or invented: the parameters add up to the number of places of the text where the rules accept
some triple (at the start), or where the old parameters are not zero (in training). -/
theorem C50_mass (n : Nat) (r : Rules) (old : Cube) (ts : List Tags) (hts : ∀ t ∈ ts, t.Nodup)
    (hr : ∀ t ∈ ts, ∀ x ∈ t, x < n) :
    mass n (init r ts) = ((windows ts).countP fun w => decide (0 < validCount r w) : Nat) ∧
    mass n (train old ts) =
      ((windows ts).countP fun w => decide ((w.triples.map fun t => old t.1 t.2.1 t.2.2).sum > ZERO) : Nat) := by
  have hok := windows_ok ts hts
  have hrng : ∀ w ∈ windows ts, ∀ t ∈ w.triples, t.1 < n ∧ t.2.1 < n ∧ t.2.2 < n := by
    have hmem : ∀ (ts : List Tags), ∀ w ∈ windows ts, w.left ∈ ts ∧ w.mid ∈ ts ∧ w.right ∈ ts := by
      intro ts
      induction ts with
      | nil => intro w hw; simp [windows] at hw
      | cons a ts ih =>
        intro w hw
        match ts, hw with
        | b :: c :: rest, hw =>
          rw [windows] at hw
          rcases List.mem_cons.1 hw with rfl | hw
          · simp
          · have := ih w hw
            exact ⟨List.mem_cons_of_mem _ this.1, List.mem_cons_of_mem _ this.2.1, List.mem_cons_of_mem _ this.2.2⟩
        | [], hw => simp [windows] at hw
        | [_], hw => simp [windows] at hw
    rintro w hw ⟨a, b, c⟩ ht
    have hm := hmem ts w hw
    have := (mem_triples w a b c).1 ht
    exact ⟨hr _ hm.1 _ this.1, hr _ hm.2.1 _ this.2.1, hr _ hm.2.2 _ this.2.2⟩
  constructor
  · have : init r ts = fun a b c => given (evenShare r) (windows ts) (a, b, c) := by
      funext a b c; exact (C50_parameters r old ts hts a b c).1
    rw [this, mass_given n _ _ hok hrng]
    apply sum_indicator
    intro w _
    unfold evenShare
    rw [sum_filter (fun t => isValid r t.1 t.2.1 t.2.2)]
    by_cases h : 0 < validCount r w
    · have hv : (w.triples.countP fun t => isValid r t.1 t.2.1 t.2.2) = validCount r w := rfl
      rw [if_pos (decide_eq_true h), hv]
      have : ((validCount r w : Nat) : ℚ) ≠ 0 := by exact_mod_cast (by omega)
      field_simp
    · have hv : (w.triples.countP fun t => isValid r t.1 t.2.1 t.2.2) = 0 := by
        have : validCount r w = 0 := by omega
        exact this
      rw [hv, if_neg (by simpa using h)]; simp
  · have : train old ts = fun a b c => given (proportion old) (windows ts) (a, b, c) := by
      funext a b c; exact (C50_parameters r old ts hts a b c).2
    rw [this, mass_given n _ _ hok hrng]
    apply sum_indicator
    intro w _
    unfold proportion
    simp only []
    by_cases h : (w.triples.map fun t => old t.1 t.2.1 t.2.2).sum > ZERO
    · simp only [if_pos h, decide_eq_true h, if_true]
      rw [sum_map_div, div_self]
      have : (0 : ℚ) < ZERO := by unfold ZERO; norm_num
      exact ne_of_gt (lt_trans this h)
    · have hd : decide ((w.triples.map fun t => old t.1 t.2.1 t.2.2).sum > ZERO) = false := decide_eq_false h
      simp only [if_neg h, hd, Bool.false_eq_true, if_false]
      simp

/-- a text with ambiguous words and a rule that refuses some triples -/
example : mass 3 (init ⟨[(1, 2)], []⟩ [[0], [1, 2], [1, 2]]) = 1 := by
  have := (C50_mass 3 ⟨[(1, 2)], []⟩ (fun _ _ _ => 0) [[0], [1, 2], [1, 2]] (by decide) (by decide)).1
  rw [this]
  rfl

/-! ## C51: tagging -/

/-- Specification: `t` is the first of the tags of the word in the middle with the greatest weight. -/
def FirstBest (d : Cube) (w : Win) (t : Nat) : Prop :=
  let weight := fun m => (w.left.map fun l => (w.right.map fun r => d l m r).sum).sum
  ∃ before after, w.mid = before ++ t :: after ∧ (∀ m ∈ before, weight m < weight t) ∧ ∀ m ∈ after, weight m ≤ weight t

theorem score_eq (d : Cube) (left right : Tags) (m : Nat) :
    score d left right m = (left.map fun l => (right.map fun r => d l m r).sum).sum := by
  have h1 : ∀ (l : Nat) (rs : List Nat) (k : ℚ), rs.foldl (fun n r => n + d l m r) k = k + (rs.map fun r => d l m r).sum := by
    intro l rs
    induction rs with
    | nil => intro k; simp
    | cons r rs ih => intro k; rw [List.foldl_cons, ih, List.map_cons, List.sum_cons]; ring
  have h2 : ∀ (ls : List Nat) (k : ℚ), ls.foldl (fun n l => right.foldl (fun n r => n + d l m r) n) k =
      k + (ls.map fun l => (right.map fun r => d l m r).sum).sum := by
    intro ls
    induction ls with
    | nil => intro k; simp
    | cons l ls ih => intro k; rw [List.foldl_cons, ih, h1, List.map_cons, List.sum_cons]; ring
  unfold score
  rw [h2, zero_add]

theorem argmax_foldl (f : Nat → ℚ) (ms : List Nat) : ∀ (done : List Nat) (b : ℚ × Nat),
    (∃ before after, done = before ++ b.2 :: after ∧ b.1 = f b.2 ∧ (∀ m ∈ before, f m < f b.2) ∧ ∀ m ∈ after, f m ≤ f b.2) →
    ∃ before after, done ++ ms = before ++ (ms.foldl (fun (b : ℚ × Nat) m => if f m > b.1 then (f m, m) else b) b).2 :: after ∧
      (∀ m ∈ before, f m < f (ms.foldl (fun (b : ℚ × Nat) m => if f m > b.1 then (f m, m) else b) b).2) ∧
      ∀ m ∈ after, f m ≤ f (ms.foldl (fun (b : ℚ × Nat) m => if f m > b.1 then (f m, m) else b) b).2 := by
  induction ms with
  | nil =>
    rintro done b ⟨x, y, h1, _, h3, h4⟩
    exact ⟨x, y, by simpa using h1, h3, h4⟩
  | cons m ms ih =>
    rintro done b ⟨x, y, h1, h2, h3, h4⟩
    rw [List.foldl_cons]
    have := ih (done ++ [m]) (if f m > b.1 then (f m, m) else b) ?_
    · rw [List.append_assoc] at this
      exact this
    · by_cases h : f m > b.1
      · rw [if_pos h]
        refine ⟨done, [], rfl, rfl, ?_, by simp⟩
        intro z hz
        rw [h1] at hz
        rw [h2] at h
        rcases List.mem_append.1 hz with hz | hz
        · exact lt_trans (h3 z hz) h
        · rcases List.mem_cons.1 hz with rfl | hz
          · exact h
          · exact lt_of_le_of_lt (h4 z hz) h
      · rw [if_neg h]
        refine ⟨x, y ++ [m], by rw [h1]; simp, h2, h3, ?_⟩
        intro z hz
        rcases List.mem_append.1 hz with hz | hz
        · exact h4 z hz
        · obtain rfl : z = m := by simpa using hz
          rw [← h2]; exact not_lt.1 h

/-- The tag chosen for a word with tags. -/
theorem choose_spec (d : Cube) (hd : ∀ a b c, 0 ≤ d a b c) (left mid right : Tags) (h : mid ≠ []) :
    ∃ t, choose d left mid right = some t ∧ FirstBest d ⟨left, mid, right⟩ t := by
  match mid, h with
  | t0 :: ms, _ =>
    refine ⟨_, rfl, ?_⟩
    have h0 : ∀ m, 0 ≤ score d left right m := by
      intro m
      rw [score_eq]
      apply List.sum_nonneg
      intro x hx
      obtain ⟨l, _, rfl⟩ := List.mem_map.1 hx
      apply List.sum_nonneg
      intro y hy
      obtain ⟨r, _, rfl⟩ := List.mem_map.1 hy
      exact hd l m r
    rw [List.foldl_cons, if_pos (show score d left right t0 > (-1 : ℚ) by linarith [h0 t0])]
    have := argmax_foldl (score d left right) ms [t0] (score d left right t0, t0)
      ⟨[], [], rfl, rfl, by simp, by simp⟩
    unfold FirstBest
    simp only [← score_eq]
    exact this

/-- The words written, with their tags. -/
def evWords {α : Type} (evs : List (Ev α)) : List (α × Nat) :=
  evs.filterMap fun e => match e with | .word w t => some (w, t) | .nul => none

/-- `P` holds of the elements of two lists of the same length, pairwise. -/
inductive Pairs {A B : Type} (P : A → B → Prop) : List A → List B → Prop
  | nil : Pairs P [] []
  | cons {a : A} {b : B} {as : List A} {bs : List B} : P a b → Pairs P as bs → Pairs P (a :: as) (b :: bs)

theorem run_spec {α : Type} (d : Cube) (hd : ∀ a b c, 0 ≤ d a b c) (nf : Bool) (rest : List (Item α)) :
    ∀ (left : Tags) (mid : Item α), (∀ it ∈ (mid :: rest).dropLast, it.tags ≠ []) →
    ∃ out ts, run d nf left mid rest = some out ∧
      Pairs (FirstBest d) (windows (left :: (mid :: rest).map (·.tags))) ts ∧
      evWords out = ((mid :: rest).dropLast.map (·.word)).zip ts := by
  induction rest with
  | nil => intro left mid _; exact ⟨[], [], rfl, by simp [windows]; exact .nil, by simp [evWords]⟩
  | cons right rest ih =>
    intro left mid h
    obtain ⟨t, h1, h2⟩ := choose_spec d hd left mid.tags right.tags (h mid (by simp))
    obtain ⟨out, ts, h3, h4, h5⟩ := ih mid.tags right (fun it hit => h it (by
      rw [List.dropLast_cons_of_ne_nil (by simp)]; exact List.mem_cons_of_mem _ hit))
    refine ⟨Ev.word mid.word t :: ((if right.eof = true ∧ nf = true then [Ev.nul] else []) ++ out), t :: ts, ?_, ?_, ?_⟩
    · unfold run; rw [h1, h3]; rfl
    · rw [List.map_cons, List.map_cons, windows]
      exact .cons h2 (by simpa using h4)
    · rw [List.dropLast_cons_of_ne_nil (by simp), List.map_cons, List.zip_cons_cons, ← h5]
      split <;> simp [evWords]

/-- **C51, partial.**  For all parameters and all texts of at least two words (the last one stands for the end of the
text) in which all words but the last have some tag and the first is not the end of the text: all words but the last are written, once and in
order, each with the first of its tags of greatest weight between its two neighbours (the end of sentence before the
first word).  Missing: the last word, see `C51_tail_violation`, and unknown words, see `C51_unknown_violation`. -/
theorem C51_words_partial {α : Type} (d : Cube) (hd : ∀ a b c, 0 ≤ d a b c) (nf : Bool) (eos : Nat) (items : List (Item α))
    (hlen : 2 ≤ items.length) (htags : ∀ it ∈ items.dropLast, it.tags ≠ [])
    (hfirst : ∀ it, items.head? = some it → it.eof = false) :
    ∃ out ts, tagger d nf eos items = some out ∧
      Pairs (FirstBest d) (windows ([eos] :: items.map (·.tags))) ts ∧
      evWords out = (items.dropLast.map (·.word)).zip ts ∧ ts.length = items.dropLast.length := by
  match items, hlen with
  | a :: b :: rest, _ =>
    have he : a.eof = false := hfirst a rfl
    obtain ⟨out, ts, h1, h2, h3⟩ := run_spec d hd nf (b :: rest) [eos] a htags
    refine ⟨out, ts, ?_, h2, h3, ?_⟩
    · unfold tagger
      simp only [he, Bool.false_eq_true, if_false]
      exact h1
    · have hp : ∀ {A B : Type} {P : A → B → Prop} {as : List A} {bs : List B}, Pairs P as bs → bs.length = as.length := by
        intro A B P as bs h
        induction h with
        | nil => rfl
        | cons _ _ ih => simp [ih]
      have hw : ∀ (l : List Tags), (windows l).length = l.length - 2 := by
        intro l
        induction l with
        | nil => rfl
        | cons x l ih =>
          match l, ih with
          | y :: z :: r, ih => rw [windows, List.length_cons, ih]; simp
          | [], _ => rfl
          | [_], _ => rfl
      rw [hp h2, hw]
      simp

/-- `LSWPoST::tagger` from text to text. -/
def tagText (cfg : MCfg) (d : Cube) (nf : Bool) (eos : Nat) (showSf : Bool) (t : Text) : Outcome Text :=
  (stream cfg nf id t).bind fun ws =>
    match tagger d nf eos (ws.map fun x => { word := x.1, tags := x.1.tags, eof := x.2 }) with
    | none => .ub
    | some evs => .ok (evs.flatMap fun e => match e with
        | .word w t => w.lexicalForm showSf cfg.keof t
        | .nul => ['\x00'])

end Verif.Tagger.Lsw
