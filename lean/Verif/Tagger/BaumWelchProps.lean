import Mathlib.Tactic.Linarith
import Mathlib.Tactic.FieldSimp
import Mathlib.Tactic.Ring
import Mathlib.Tactic.NormNum
import Mathlib.Tactic.Positivity
import Verif.Tagger.BaumWelchSpec
/-!
# C52: an iteration of Baum–Welch training computes the expected counts
-/
namespace Verif.Tagger.Train
namespace BWP

/-! ## sums over lists -/

def S (l : List Nat) (f : Nat → ℚ) : ℚ := (l.map f).sum

@[simp] theorem S_nil (f : Nat → ℚ) : S [] f = 0 := rfl
@[simp] theorem S_cons (a : Nat) (l : List Nat) (f : Nat → ℚ) : S (a :: l) f = f a + S l f := by simp [S]

theorem S_congr (l : List Nat) (f g : Nat → ℚ) (h : ∀ x ∈ l, f x = g x) : S l f = S l g := by
  induction l with
  | nil => rfl
  | cons a l ih => rw [S_cons, S_cons, ih fun x hx => h x (List.mem_cons_of_mem _ hx), h a (List.mem_cons_self ..)]

theorem S_add (l : List Nat) (f g : Nat → ℚ) : S l (fun x => f x + g x) = S l f + S l g := by
  induction l with
  | nil => simp
  | cons a l ih => rw [S_cons, S_cons, S_cons, ih]; ring

theorem S_mul (l : List Nat) (c : ℚ) (f : Nat → ℚ) : S l (fun x => c * f x) = c * S l f := by
  induction l with
  | nil => simp
  | cons a l ih => rw [S_cons, S_cons, ih]; ring

theorem S_mul_right (l : List Nat) (c : ℚ) (f : Nat → ℚ) : S l (fun x => f x * c) = S l f * c := by
  induction l with
  | nil => simp
  | cons a l ih => rw [S_cons, S_cons, ih]; ring

theorem S_zero (l : List Nat) : S l (fun _ => 0) = 0 := by
  induction l with
  | nil => simp
  | cons a l ih => rw [S_cons, ih]; ring

theorem S_comm (l m : List Nat) (f : Nat → Nat → ℚ) : S l (fun x => S m (f x)) = S m fun y => S l fun x => f x y := by
  induction l with
  | nil => simp [S_zero]
  | cons a l ih => simp only [S_cons]; rw [S_add, ih]

theorem S_single (l : List Nat) (hn : l.Nodup) (i : Nat) (f : Nat → ℚ) :
    S l (fun x => if x = i then f x else 0) = if i ∈ l then f i else 0 := by
  induction l with
  | nil => simp
  | cons a l ih =>
    obtain ⟨h1, h2⟩ := List.nodup_cons.1 hn
    rw [S_cons, ih h2]
    by_cases h : a = i
    · subst h; simp [h1]
    · have h' : i ≠ a := fun hh => h hh.symm
      simp [h, h']

theorem S_nonneg (l : List Nat) (f : Nat → ℚ) (h : ∀ x ∈ l, 0 ≤ f x) : 0 ≤ S l f := by
  induction l with
  | nil => simp
  | cons a l ih =>
    rw [S_cons]
    have := h a (List.mem_cons_self ..)
    have := ih fun x hx => h x (List.mem_cons_of_mem _ hx)
    linarith

theorem S_pos (l : List Nat) (f : Nat → ℚ) (h : ∀ x ∈ l, 0 < f x) (hne : l ≠ []) : 0 < S l f := by
  cases l with
  | nil => exact absurd rfl hne
  | cons a l =>
    rw [S_cons]
    have := h a (List.mem_cons_self ..)
    have := S_nonneg l f fun x hx => le_of_lt (h x (List.mem_cons_of_mem _ hx))
    linarith

/-! ## sums over paths -/

/-- Sum over the paths of `seg` after `j` of weight times `f`. -/
def W (p : BW) (j : Nat) (seg : List Tags) (f : List Nat → ℚ) : ℚ :=
  ((paths seg).map fun q => weight p j seg q * f q).sum

theorem W_nil (p : BW) (j : Nat) (f : List Nat → ℚ) : W p j [] f = f [] := by
  simp [W, paths, weight]

theorem W_cons (p : BW) (j : Nat) (T : Tags) (r : List Tags) (f : List Nat → ℚ) :
    W p j (T :: r) f = S T fun i => p.A j i * p.B i (p.num T) * W p i r fun q => f (i :: q) := by
  unfold W
  rw [paths]
  have key : ∀ (T0 : Tags), ((T0.flatMap fun t => (paths r).map (t :: ·)).map fun q => weight p j (T :: r) q * f q).sum =
      S T0 fun i => p.A j i * p.B i (p.num T) * ((paths r).map fun q => weight p i r q * f (i :: q)).sum := by
    intro T0
    induction T0 with
    | nil => simp
    | cons t T0 ih =>
      rw [List.flatMap_cons, List.map_append, List.sum_append, ih, S_cons, List.map_map]
      congr 1
      induction paths r with
      | nil => simp
      | cons q qs ih2 =>
        rw [List.map_cons, List.sum_cons, List.map_cons, List.sum_cons, ih2]
        simp only [Function.comp, weight]
        ring
  exact key T

theorem W_add (p : BW) (j : Nat) (seg : List Tags) (f g : List Nat → ℚ) :
    W p j seg (fun q => f q + g q) = W p j seg f + W p j seg g := by
  unfold W
  induction paths seg with
  | nil => simp
  | cons q qs ih => simp only [List.map_cons, List.sum_cons]; rw [ih]; ring

theorem W_const (p : BW) (j : Nat) (seg : List Tags) (c : ℚ) : W p j seg (fun _ => c) = c * W p j seg fun _ => 1 := by
  unfold W
  induction paths seg with
  | nil => simp
  | cons q qs ih => simp only [List.map_cons, List.sum_cons]; rw [ih]; ring

/-- backward probability -/
def beta (p : BW) (seg : List Tags) (j : Nat) : ℚ := W p j seg fun _ => 1

theorem beta_cons (p : BW) (j : Nat) (T : Tags) (r : List Tags) :
    beta p (T :: r) j = S T fun i => p.A j i * p.B i (p.num T) * beta p r i := W_cons ..

/-- A sum over the steps of a path: `c prev tag class`. -/
def cost (p : BW) (c : Nat → Nat → Nat → ℚ) : Nat → List Tags → List Nat → ℚ
  | j, T :: r, i :: q => c j i (p.num T) + cost p c i r q
  | _, _, _ => 0

/-- forward step -/
def fwd (p : BW) (F : Nat → ℚ) (pre T : Tags) (i : Nat) : ℚ :=
  if i ∈ T then S pre fun j => F j * p.A j i * p.B i (p.num T) else 0

/-- What one step contributes. -/
def term (p : BW) (c : Nat → Nat → Nat → ℚ) (F : Nat → ℚ) (pre T : Tags) (b : Nat → ℚ) : ℚ :=
  S pre fun j => S T fun i => F j * p.A j i * p.B i (p.num T) * b i * c j i (p.num T)

theorem cost_step (p : BW) (c : Nat → Nat → Nat → ℚ) (F : Nat → ℚ) (pre T : Tags) (r : List Tags) :
    (S pre fun j => F j * W p j (T :: r) (cost p c j (T :: r))) =
      term p c F pre T (beta p r) + S T fun i => fwd p F pre T i * W p i r (cost p c i r) := by
  have h1 : ∀ j, F j * W p j (T :: r) (cost p c j (T :: r)) =
      (S T fun i => F j * p.A j i * p.B i (p.num T) * beta p r i * c j i (p.num T)) +
      S T fun i => F j * p.A j i * p.B i (p.num T) * W p i r (cost p c i r) := by
    intro j
    rw [W_cons, ← S_mul, ← S_add]
    apply S_congr
    intro i _
    have : (W p i r fun q => cost p c j (T :: r) (i :: q)) =
        c j i (p.num T) * beta p r i + W p i r (cost p c i r) := by
      show (W p i r fun q => c j i (p.num T) + cost p c i r q) = _
      rw [W_add, W_const]
      rfl
    rw [this]; ring
  rw [S_congr pre _ _ fun j _ => h1 j, S_add]
  congr 1
  rw [S_comm]
  apply S_congr
  intro i hi
  unfold fwd
  rw [if_pos hi, S_mul_right]

/-! ## the stack -/

/-- The forward row of the top of a stack of sets of tags. -/
def rowOf (p : BW) (s : Nat) : List Tags → Nat → ℚ
  | [] => fun _ => 0
  | [_] => setRow (fun _ => 0) s 1
  | T :: pre :: st => fwd p (rowOf p s (pre :: st)) pre T

/-- What all the steps of a stack contribute. -/
def total (p : BW) (s : Nat) (c : Nat → Nat → Nat → ℚ) : List Tags → List Tags → ℚ
  | T :: pre :: st, post => term p c (rowOf p s (pre :: st)) pre T (beta p post) + total p s c (pre :: st) (T :: post)
  | _, _ => 0

theorem total_spec (p : BW) (s : Nat) (c : Nat → Nat → Nat → ℚ) (seg : List Tags) :
    ∀ post, total p s c (seg ++ [[s]]) post +
      (S ((seg ++ [[s]]).headD []) fun j => rowOf p s (seg ++ [[s]]) j * W p j post (cost p c j post)) =
      W p s (seg.reverse ++ post) (cost p c s (seg.reverse ++ post)) := by
  induction seg with
  | nil => intro post; simp [total, rowOf, setRow]
  | cons T seg ih =>
    intro post
    have hne : ∃ pre st, seg ++ [[s]] = pre :: st := by
      cases seg with
      | nil => exact ⟨_, _, rfl⟩
      | cons a b => exact ⟨_, _, rfl⟩
    obtain ⟨pre, st, he⟩ := hne
    have ih' := ih (T :: post)
    rw [List.cons_append, he]
    rw [he] at ih'
    rw [List.headD_cons] at ih' ⊢
    rw [cost_step] at ih'
    rw [total, rowOf, List.reverse_cons, List.append_assoc, List.singleton_append]
    rw [← ih']
    ring

theorem cost_nil (p : BW) (c : Nat → Nat → Nat → ℚ) (j : Nat) : cost p c j [] = fun _ => 0 := by
  funext q; cases q <;> rfl

/-- The sum over all paths of a piece. -/
theorem total_seg (p : BW) (s : Nat) (c : Nat → Nat → Nat → ℚ) (seg : List Tags) :
    total p s c (seg ++ [[s]]) [] = W p s seg.reverse (cost p c s seg.reverse) := by
  have := total_spec p s c seg []
  simp only [cost_nil, List.append_nil] at this
  rw [← this]
  have h0 : ∀ j, W p j [] (fun _ => (0 : ℚ)) = 0 := fun j => by rw [W_nil]
  simp [h0, S_zero]

theorem prob_spec (p : BW) (s : Nat) (seg : List Tags) :
    ∀ post, (S ((seg ++ [[s]]).headD []) fun j => rowOf p s (seg ++ [[s]]) j * beta p post j) =
      beta p (seg.reverse ++ post) s := by
  induction seg with
  | nil => intro post; simp [rowOf, setRow]
  | cons T seg ih =>
    intro post
    have hne : ∃ pre st, seg ++ [[s]] = pre :: st := by
      cases seg with
      | nil => exact ⟨_, _, rfl⟩
      | cons a b => exact ⟨_, _, rfl⟩
    obtain ⟨pre, st, he⟩ := hne
    have ih' := ih (T :: post)
    rw [List.cons_append, he]
    rw [he] at ih'
    rw [List.headD_cons] at ih' ⊢
    rw [List.reverse_cons, List.append_assoc, List.singleton_append, ← ih', rowOf]
    rw [S_congr pre _ (fun j => S T fun i => rowOf p s (pre :: st) j * p.A j i * p.B i (p.num T) * beta p post i)
      (fun j _ => by rw [beta_cons, ← S_mul]; apply S_congr; intro i _; ring)]
    rw [S_comm]
    apply S_congr
    intro i hi
    unfold fwd
    rw [if_pos hi, ← S_mul_right]

/-! ## positivity -/

/-- The set of tags of a word: not empty, no repetitions, and its tags are possible. -/
structure Good (p : BW) (T : Tags) : Prop where
  ne : T ≠ []
  nodup : T.Nodup
  em : ∀ i ∈ T, 0 < p.B i (p.num T)

theorem beta_pos (p : BW) (post : List Tags) :
    ∀ (j : Nat), (∀ T ∈ post, Good p T) → (∀ T ∈ post, ∀ i ∈ T, ∀ j', (j' = j ∨ ∃ T' ∈ post, j' ∈ T') → 0 < p.A j' i) →
    0 < beta p post j := by
  induction post with
  | nil => intro j _ _; rw [beta, W_nil]; norm_num
  | cons T r ih =>
    intro j hg hA
    rw [beta_cons]
    have hT := hg T (List.mem_cons_self ..)
    apply S_pos _ _ _ hT.ne
    intro i hi
    have h1 := hA T (List.mem_cons_self ..) i hi j (.inl rfl)
    have h2 := hT.em i hi
    have h3 := ih i (fun T' h => hg T' (List.mem_cons_of_mem _ h)) (fun T' hT' i' hi' j' hj' => by
      apply hA T' (List.mem_cons_of_mem _ hT') i' hi' j'
      rcases hj' with rfl | ⟨T2, h, h'⟩
      · exact .inr ⟨T, List.mem_cons_self .., hi⟩
      · exact .inr ⟨T2, List.mem_cons_of_mem _ h, h'⟩)
    positivity

theorem row_pos (p : BW) (s : Nat) (seg : List Tags) (hg : ∀ T ∈ seg, Good p T)
    (hA : ∀ T ∈ seg, ∀ i ∈ T, ∀ T' ∈ seg ++ [[s]], ∀ j ∈ T', 0 < p.A j i) :
    ∀ i ∈ (seg ++ [[s]]).headD [], 0 < rowOf p s (seg ++ [[s]]) i := by
  induction seg with
  | nil =>
    intro i hi
    obtain rfl : i = s := by simpa using hi
    simp [rowOf, setRow]
  | cons T seg ih =>
    intro i hi
    have hne : ∃ pre st, seg ++ [[s]] = pre :: st := by
      cases seg with
      | nil => exact ⟨_, _, rfl⟩
      | cons a b => exact ⟨_, _, rfl⟩
    obtain ⟨pre, st, he⟩ := hne
    have ih' := ih (fun T' h => hg T' (List.mem_cons_of_mem _ h))
      (fun T' h i hi T2 h2 => hA T' (List.mem_cons_of_mem _ h) i hi T2 (List.mem_cons_of_mem _ h2))
    have hA' := hA T (List.mem_cons_self ..)
    rw [List.cons_append, he] at hi ⊢
    rw [List.cons_append, he] at hA'
    rw [he] at ih'
    rw [List.headD_cons] at hi ih'
    rw [rowOf, fwd, if_pos hi]
    have hT := hg T (List.mem_cons_self ..)
    have hpre : pre ≠ [] := by
      cases seg with
      | nil => simp at he; rw [← he.1]; simp
      | cons a b => simp at he; rw [← he.1]; exact (hg a (by simp)).ne
    apply S_pos _ _ _ hpre
    intro j hj
    have h1 := ih' j hj
    have h2 := hA' i hi pre (by simp) j hj
    have h3 := hT.em i hi
    positivity

/-! ## the loops of the code -/

theorem forwardRow_inner (p : BW) (prev : Nat → ℚ) (k i : Nat) (pretags : Tags) : ∀ (row : Nat → ℚ) (x : Nat),
    pretags.foldl (fun row j => setRow row i (row i + prev j * p.A j i * p.B i k)) row x =
      if x = i then row i + S pretags fun j => prev j * p.A j i * p.B i k else row x := by
  induction pretags with
  | nil => intro row x; by_cases h : x = i <;> simp [h]
  | cons j l ih =>
    intro row x
    rw [List.foldl_cons, ih, S_cons]
    unfold setRow
    by_cases h : x = i
    · simp [h]; ring
    · simp [h]

theorem forwardRow_spec (p : BW) (prev : Nat → ℚ) (pretags tags : Tags) (hn : tags.Nodup)
    (hpos : ∀ i ∈ tags, (S pretags fun j => prev j * p.A j i * p.B i (p.num tags)) ≠ 0) :
    forwardRow p prev pretags tags (p.num tags) = fwd p prev pretags tags := by
  have key : ∀ (l : Tags) (k : Nat) (row : Nat → ℚ), l.Nodup → (∀ i ∈ l, row i = 0) →
      (∀ i ∈ l, (S pretags fun j => prev j * p.A j i * p.B i k) ≠ 0) → ∀ x,
      l.foldl (fun row i =>
        let row := pretags.foldl (fun row j => setRow row i (row i + prev j * p.A j i * p.B i k)) row
        if row i = 0 then setRow row i p.tiny else row) row x =
      if x ∈ l then S pretags fun j => prev j * p.A j x * p.B x k else row x := by
    intro l k
    induction l with
    | nil => intro row _ _ _ x; simp
    | cons i l ih =>
      intro row hn h0 hp x
      obtain ⟨h1, h2⟩ := List.nodup_cons.1 hn
      rw [List.foldl_cons]
      have hstep : (let row' := pretags.foldl (fun row j => setRow row i (row i + prev j * p.A j i * p.B i k)) row
          if row' i = 0 then setRow row' i p.tiny else row') =
          pretags.foldl (fun row j => setRow row i (row i + prev j * p.A j i * p.B i k)) row := by
        simp only [forwardRow_inner, if_true]
        rw [if_neg (by rw [h0 i (List.mem_cons_self ..), zero_add]; exact hp i (List.mem_cons_self ..))]
      rw [hstep, ih _ h2 (fun y hy => ?_) (fun y hy => hp y (List.mem_cons_of_mem _ hy))]
      · simp only [forwardRow_inner]
        by_cases h : x = i
        · subst h
          simp [h1, h0 x (List.mem_cons_self ..)]
        · simp [h]
      · rw [forwardRow_inner, if_neg (show ¬ y = i from fun hh => h1 (hh ▸ hy))]
        exact h0 y (List.mem_cons_of_mem _ hy)
  funext x
  unfold forwardRow fwd
  rw [key tags (p.num tags) _ hn (fun _ _ => rfl) hpos]

/-- The effect of the pass over one word on the counts and on `beta`. -/
structure Passed (p : BW) (prob : ℚ) (prev cur bt : Nat → ℚ) (k : Nat) (pretags tags : Tags) (s r : (Nat → ℚ) × Counts) :
    Prop where
  beta : ∀ j, r.1 j = s.1 j + if j ∈ pretags then S tags fun i => p.A j i * p.B i k * bt i else 0
  xsi : ∀ j i, r.2.xsi j i = s.2.xsi j i +
    if j ∈ pretags ∧ i ∈ tags then prev j * p.A j i * p.B i k * bt i / prob else 0
  gamma : ∀ i, r.2.gamma i = s.2.gamma i + if i ∈ tags then cur i * bt i / prob else 0
  phi : ∀ i k', r.2.phi i k' = s.2.phi i k' + if i ∈ tags ∧ k' = k then cur i * bt i / prob else 0

theorem backPair_fold (p : BW) (prob : ℚ) (prev bt : Nat → ℚ) (k i : Nat) (pretags : Tags) :
    pretags.Nodup → ∀ (s : (Nat → ℚ) × Counts),
    let r := pretags.foldl (backPair p prob prev bt k i) s
    (∀ j, r.1 j = s.1 j + if j ∈ pretags then p.A j i * p.B i k * bt i else 0) ∧
    (∀ j i', r.2.xsi j i' = s.2.xsi j i' + if j ∈ pretags ∧ i' = i then prev j * p.A j i * p.B i k * bt i / prob else 0) ∧
    r.2.gamma = s.2.gamma ∧ r.2.phi = s.2.phi := by
  induction pretags with
  | nil => intro _ s; simp
  | cons j0 l ih =>
    intro hn s
    obtain ⟨h1, h2⟩ := List.nodup_cons.1 hn
    obtain ⟨a, b, c, d⟩ := ih h2 (backPair p prob prev bt k i s j0)
    simp only [List.foldl_cons]
    refine ⟨?_, ?_, ?_, ?_⟩
    · intro j
      rw [a]
      simp only [backPair, setRow]
      by_cases h : j = j0
      · subst h; simp [h1]
      · simp [h]
    · intro j i'
      rw [b]
      simp only [backPair, setCell]
      by_cases h : j = j0
      · subst h
        by_cases h' : i' = i
        · subst h'; simp [h1]
        · simp [h']
      · simp [h]
    · rw [c]; rfl
    · rw [d]; rfl

theorem pass (p : BW) (prob : ℚ) (prev cur bt : Nat → ℚ) (k : Nat) (pretags : Tags) (hpre : pretags.Nodup) (tags : Tags) :
    tags.Nodup → ∀ (s : (Nat → ℚ) × Counts), (∀ i, 0 ≤ s.2.gamma i) → (∀ i ∈ tags, 0 < cur i * bt i / prob) →
    Passed p prob prev cur bt k pretags tags s (tags.foldl (backTag p prob prev cur bt k pretags) s) := by
  induction tags with
  | nil => intro _ s _ _; exact ⟨by simp, by simp, by simp, by simp⟩
  | cons i l ih =>
    intro hn s hg hp
    obtain ⟨h1, h2⟩ := List.nodup_cons.1 hn
    obtain ⟨a, b, c, d⟩ := backPair_fold p prob prev bt k i pretags hpre s
    have hi := hp i (List.mem_cons_self ..)
    have hs : backTag p prob prev cur bt k pretags s i =
        ((pretags.foldl (backPair p prob prev bt k i) s).1,
          { xsi := (pretags.foldl (backPair p prob prev bt k i) s).2.xsi,
            gamma := setRow s.2.gamma i (s.2.gamma i + cur i * bt i / prob),
            phi := setCell s.2.phi i k (s.2.phi i k + cur i * bt i / prob) }) := by
      unfold backTag
      simp only [c, d]
      rw [if_neg]
      simp only [setRow, if_true]
      have := hg i
      intro hh
      linarith
    have := ih h2 (backTag p prob prev cur bt k pretags s i) (by
      intro x; rw [hs]; simp only [setRow]
      split
      · have := hg i; linarith
      · exact hg x) (fun x hx => hp x (List.mem_cons_of_mem _ hx))
    obtain ⟨e1, e2, e3, e4⟩ := this
    rw [List.foldl_cons]
    rw [hs] at e1 e2 e3 e4 ⊢
    refine ⟨?_, ?_, ?_, ?_⟩
    · intro j
      rw [e1, a, S_cons]
      by_cases h : j ∈ pretags
      · simp [h]; ring
      · simp [h]
    · intro j i'
      rw [e2, b]
      by_cases h' : i' = i
      · subst h'; simp [h1]
      · by_cases h : j ∈ pretags <;> simp [h, h']
    · intro x
      rw [e3]
      simp only [setRow]
      by_cases h : x = i
      · subst h; simp [h1]
      · simp [h]
    · intro x k'
      rw [e4]
      simp only [setCell]
      by_cases h : x = i
      · subst h
        by_cases h' : k' = k
        · subst h'; simp [h1]
        · simp [h']
      · simp [h]

/-- The three costs: transitions, tags, emissions. -/
def cT (j i : Nat) : Nat → Nat → Nat → ℚ := fun j' i' _ => if j' = j ∧ i' = i then 1 else 0
def cG (i : Nat) : Nat → Nat → Nat → ℚ := fun _ i' _ => if i' = i then 1 else 0
def cE (i k : Nat) : Nat → Nat → Nat → ℚ := fun _ i' k' => if i' = i ∧ k' = k then 1 else 0

theorem term_T (p : BW) (F b : Nat → ℚ) (pre T : Tags) (hpre : pre.Nodup) (hT : T.Nodup) (j i : Nat) :
    term p (cT j i) F pre T b = if j ∈ pre ∧ i ∈ T then F j * p.A j i * p.B i (p.num T) * b i else 0 := by
  unfold term cT
  have h1 : ∀ x, (S T fun i' => F x * p.A x i' * p.B i' (p.num T) * b i' * (if x = j ∧ i' = i then 1 else 0)) =
      if x = j then (if i ∈ T then F x * p.A x i * p.B i (p.num T) * b i else 0) else 0 := by
    intro x
    by_cases hx : x = j
    · rw [if_pos hx, ← S_single T hT i (fun i' => F x * p.A x i' * p.B i' (p.num T) * b i')]
      apply S_congr
      intro y _
      by_cases hy : y = i <;> simp [hx, hy]
    · rw [if_neg hx]
      rw [S_congr T _ (fun _ => 0) (fun y _ => by simp [hx]), S_zero]
  rw [S_congr pre _ _ (fun x _ => h1 x), S_single pre hpre j]
  by_cases hj : j ∈ pre <;> by_cases hi : i ∈ T <;> simp [hj, hi]

theorem term_G (p : BW) (F b : Nat → ℚ) (pre T : Tags) (hT : T.Nodup) (i : Nat) :
    term p (cG i) F pre T b = if i ∈ T then fwd p F pre T i * b i else 0 := by
  unfold term cG
  rw [S_comm]
  have h1 : ∀ y ∈ T, (S pre fun x => F x * p.A x y * p.B y (p.num T) * b y * (if y = i then 1 else 0)) =
      if y = i then fwd p F pre T y * b y else 0 := by
    intro y hy
    by_cases h : y = i
    · simp only [if_pos h]; unfold fwd; rw [if_pos hy, ← S_mul_right]
      apply S_congr; intro x _; simp
    · simp only [if_neg h]; rw [S_congr pre _ (fun _ => 0) (fun x _ => by simp), S_zero]
  rw [S_congr T _ _ h1, S_single T hT i]

theorem term_E (p : BW) (F b : Nat → ℚ) (pre T : Tags) (hT : T.Nodup) (i k : Nat) :
    term p (cE i k) F pre T b = if i ∈ T ∧ k = p.num T then fwd p F pre T i * b i else 0 := by
  by_cases hk : p.num T = k
  · have : term p (cE i k) F pre T b = term p (cG i) F pre T b := by
      unfold term cE cG
      simp [hk]
    rw [this, term_G p F b pre T hT]
    simp [hk.symm]
  · have : term p (cE i k) F pre T b = 0 := by
      unfold term cE
      simp [hk, S_zero]
    rw [this, if_neg (fun h => hk h.2.symm)]

theorem backLoop_spec (p : BW) (prob : ℚ) (hprob : 0 < prob) (s : Nat) (alpha : Nat → Nat → ℚ) (seg : List Tags) :
    ∀ (t : Nat) (T : Tags) (post : List Tags) (bet : Nat → Nat → ℚ) (c : Counts),
    (∀ T' ∈ T :: seg, Good p T') → (∀ i, 0 ≤ c.gamma i) →
    (∀ l ≤ seg.length + 1, alpha l = rowOf p s ((T :: seg ++ [[s]]).drop (seg.length + 1 - l))) →
    (∀ l ≤ seg.length + 1, ∀ i ∈ ((T :: seg ++ [[s]]).drop (seg.length + 1 - l)).headD [], 0 < alpha l i) →
    (∀ i ∈ T, bet (t % 2) i = beta p post i) →
    (∀ T' ∈ T :: seg, ∀ i ∈ T', ∀ post', 0 < beta p post i ∧ (post' ⊆ (T :: seg) → 0 < beta p (post' ++ post) i)) →
    let r := backLoop p prob alpha (seg.length + 1) t (seg ++ [[s]]) T bet c
    (∀ j i, r.xsi j i = c.xsi j i + total p s (cT j i) (T :: seg ++ [[s]]) post / prob) ∧
    (∀ i, r.gamma i = c.gamma i + total p s (cG i) (T :: seg ++ [[s]]) post / prob) ∧
    (∀ i k, r.phi i k = c.phi i k + total p s (cE i k) (T :: seg ++ [[s]]) post / prob) ∧
    ∀ i, 0 ≤ r.gamma i := by
  induction seg with
  | nil =>
    intro t T post bet c hg hc hal hpos hb hbp
    have hT := hg T (by simp)
    have ha0 : alpha 0 = rowOf p s [[s]] := by simpa using hal 0 (by simp)
    have ha1 : alpha 1 = rowOf p s [T, [s]] := by simpa using hal 1 (by simp)
    have hcur : ∀ i ∈ T, 0 < alpha 1 i := by simpa using hpos 1 (by simp)
    have hbpos : ∀ i ∈ T, 0 < bet (t % 2) i := fun i hi => by rw [hb i hi]; exact (hbp T (by simp) i hi []).1
    have hP := pass p prob (alpha 0) (alpha 1) (bet (t % 2)) (p.num T) [s] (by simp) T hT.nodup (fun _ => 0, c) hc
      (fun i hi => by have := hcur i hi; have := hbpos i hi; positivity)
    simp only [List.length_nil, Nat.zero_add, backLoop, List.nil_append, List.cons_append, total, add_zero]
    obtain ⟨_, h2, h3, h4⟩ := hP
    refine ⟨?_, ?_, ?_, ?_⟩
    · intro j i
      rw [h2, term_T _ _ _ _ _ (by simp) hT.nodup, ha0]
      congr 1
      by_cases h : j ∈ [s] ∧ i ∈ T
      · rw [if_pos h, if_pos h, hb i h.2]
      · rw [if_neg h, if_neg h, zero_div]
    · intro i
      rw [h3, term_G _ _ _ _ _ hT.nodup, ha1]
      congr 1
      by_cases h : i ∈ T
      · rw [if_pos h, if_pos h, hb i h]; rfl
      · rw [if_neg h, if_neg h, zero_div]
    · intro i k
      rw [h4, term_E _ _ _ _ _ hT.nodup, ha1]
      congr 1
      by_cases h : i ∈ T ∧ k = p.num T
      · rw [if_pos h, if_pos h, hb i h.1]; rfl
      · rw [if_neg h, if_neg h, zero_div]
    · intro i
      rw [h3]
      have := hc i
      split
      · rename_i hi
        have := hcur i hi; have := hbpos i hi
        have : 0 < alpha 1 i * bet (t % 2) i / prob := by positivity
        linarith
      · linarith
  | cons U seg ih =>
    intro t T post bet c hg hc hal hpos hb hbp
    have hT := hg T (by simp)
    have hU := hg U (by simp)
    have ha0 : alpha (seg.length + 1) = rowOf p s (U :: seg ++ [[s]]) := by
      simpa using hal (seg.length + 1) (by simp)
    have ha1 : alpha (seg.length + 1 + 1) = rowOf p s (T :: (U :: seg ++ [[s]])) := by
      simpa using hal (seg.length + 1 + 1) (by simp)
    have hcur : ∀ i ∈ T, 0 < alpha (seg.length + 1 + 1) i := by
      simpa using hpos (seg.length + 1 + 1) (by simp)
    have hbpos : ∀ i ∈ T, 0 < bet (t % 2) i := fun i hi => by rw [hb i hi]; exact (hbp T (by simp) i hi []).1
    have hP := pass p prob (alpha (seg.length + 1)) (alpha (seg.length + 1 + 1)) (bet (t % 2)) (p.num T) U hU.nodup T
      hT.nodup (fun _ => 0, c) hc (fun i hi => by have := hcur i hi; have := hbpos i hi; positivity)
    simp only [List.length_cons, backLoop, List.cons_append]
    obtain ⟨h1, h2, h3, h4⟩ := hP
    have hgam : ∀ i, 0 ≤ (T.foldl (backTag p prob (alpha (seg.length + 1)) (alpha (seg.length + 1 + 1)) (bet (t % 2))
        (p.num T) U) (fun _ => 0, c)).2.gamma i := by
      intro i
      rw [h3]
      have := hc i
      show 0 ≤ c.gamma i + _
      split
      · rename_i hi
        have := hcur i hi; have := hbpos i hi
        have : 0 < alpha (seg.length + 1 + 1) i * bet (t % 2) i / prob := by positivity
        linarith
      · linarith
    have hih := ih (t + 1) U (T :: post)
      (fun b => if b = 1 - t % 2 then (T.foldl (backTag p prob (alpha (seg.length + 1)) (alpha (seg.length + 1 + 1))
        (bet (t % 2)) (p.num T) U) (fun _ => 0, c)).1 else bet b)
      (T.foldl (backTag p prob (alpha (seg.length + 1)) (alpha (seg.length + 1 + 1)) (bet (t % 2))
        (p.num T) U) (fun _ => 0, c)).2
      (fun T' h => hg T' (List.mem_cons_of_mem _ h)) hgam
      (fun l hl => by
        rw [hal l (by simp; omega)]
        simp only [List.length_cons]
        rw [show seg.length + 1 + 1 - l = (seg.length + 1 - l) + 1 from by omega]
        rfl)
      (fun l hl => by
        have := hpos l (by simp; omega)
        simp only [List.length_cons] at this
        rw [show seg.length + 1 + 1 - l = (seg.length + 1 - l) + 1 from by omega] at this
        exact this)
      (fun j hj => by
        have hmod : (t + 1) % 2 = 1 - t % 2 := by omega
        simp only [hmod, if_true]
        rw [h1, if_pos hj, beta_cons, zero_add]
        apply S_congr
        intro i hi
        rw [hb i hi])
      (fun T' hT' i hi post' => by
        have hh := hbp T' (List.mem_cons_of_mem _ hT') i hi
        constructor
        · have := (hh [T]).2 (by simp)
          simpa using this
        · intro hs
          have := (hh (post' ++ [T])).2 (by
            intro x hx
            rcases List.mem_append.1 hx with hx | hx
            · exact List.mem_cons_of_mem _ (hs hx)
            · simp at hx; simp [hx])
          simpa using this)
    obtain ⟨g1, g2, g3, g4⟩ := hih
    refine ⟨?_, ?_, ?_, g4⟩
    · intro j i
      rw [g1, h2, total, term_T _ _ _ _ _ hU.nodup hT.nodup, ha0]
      rw [List.cons_append]
      by_cases h : j ∈ U ∧ i ∈ T
      · rw [if_pos h, if_pos h, hb i h.2]; simp only [List.cons_append]; ring
      · rw [if_neg h, if_neg h]; ring
    · intro i
      rw [g2, h3, total, term_G _ _ _ _ _ hT.nodup, ha1]
      simp only [List.cons_append]
      by_cases h : i ∈ T
      · rw [if_pos h, if_pos h, hb i h]; simp only [rowOf]; ring
      · rw [if_neg h, if_neg h]; ring
    · intro i k
      rw [g3, h4, total, term_E _ _ _ _ _ hT.nodup, ha1]
      simp only [List.cons_append]
      by_cases h : i ∈ T ∧ k = p.num T
      · rw [if_pos h, if_pos h, hb i h.1]; simp only [rowOf]; ring
      · rw [if_neg h, if_neg h]; ring

/-! ## costs are counts -/

theorem W_congr (p : BW) (j : Nat) (seg : List Tags) (f g : List Nat → ℚ) (h : ∀ q ∈ paths seg, f q = g q) :
    W p j seg f = W p j seg g := by
  unfold W
  congr 1
  apply List.map_congr_left
  intro q hq
  rw [h q hq]

theorem cost_T (p : BW) (j i : Nat) (seg : List Tags) : ∀ (s : Nat), ∀ q ∈ paths seg,
    cost p (cT j i) s seg q = (((s :: q).zip q).count (j, i) : Nat) := by
  induction seg with
  | nil => intro s q hq; simp [paths] at hq; subst hq; simp [cost]
  | cons T r ih =>
    intro s q hq
    rw [paths] at hq
    obtain ⟨t, _, hq⟩ := List.mem_flatMap.1 hq
    obtain ⟨q', hq', rfl⟩ := List.mem_map.1 hq
    rw [cost, ih t q' hq', List.zip_cons_cons, List.count_cons]
    unfold cT
    by_cases h : s = j ∧ t = i
    · rw [if_pos h, if_pos (by simp [h])]; push_cast; ring
    · rw [if_neg h, if_neg (by simpa using h)]; push_cast; ring

theorem cost_G (p : BW) (i : Nat) (seg : List Tags) : ∀ (s : Nat), ∀ q ∈ paths seg,
    cost p (cG i) s seg q = (q.count i : Nat) := by
  induction seg with
  | nil => intro s q hq; simp [paths] at hq; subst hq; simp [cost]
  | cons T r ih =>
    intro s q hq
    rw [paths] at hq
    obtain ⟨t, _, hq⟩ := List.mem_flatMap.1 hq
    obtain ⟨q', hq', rfl⟩ := List.mem_map.1 hq
    rw [cost, ih t q' hq', List.count_cons]
    unfold cG
    by_cases h : t = i
    · rw [if_pos h, if_pos (by simp [h])]; push_cast; ring
    · rw [if_neg h, if_neg (by simpa using h)]; push_cast; ring

theorem cost_E (p : BW) (i k : Nat) (seg : List Tags) : ∀ (s : Nat), ∀ q ∈ paths seg,
    cost p (cE i k) s seg q = ((q.zip (seg.map p.num)).count (i, k) : Nat) := by
  induction seg with
  | nil => intro s q hq; simp [paths] at hq; subst hq; simp [cost]
  | cons T r ih =>
    intro s q hq
    rw [paths] at hq
    obtain ⟨t, _, hq⟩ := List.mem_flatMap.1 hq
    obtain ⟨q', hq', rfl⟩ := List.mem_map.1 hq
    rw [cost, ih t q' hq', List.map_cons, List.zip_cons_cons, List.count_cons]
    unfold cE
    by_cases h : t = i ∧ p.num T = k
    · rw [if_pos h, if_pos (by simp [h])]; push_cast; ring
    · rw [if_neg h, if_neg (by simpa using h)]; push_cast; ring

theorem expect_eq (p : BW) (s : Nat) (seg : List Tags) (f : List Nat → ℚ) :
    expect p s seg f = W p s seg f / beta p seg s := by
  unfold expect beta W
  simp

/-! ## the main loop -/

/-- The words of the text: possible tags, all below `n`, and all transitions are possible. -/
structure Text (p : BW) (n eos : Nat) (ws : List Tags) : Prop where
  good : ∀ T ∈ ws, Good p T
  lt : ∀ T ∈ ws, ∀ i ∈ T, i < n
  eos : eos < n
  trans : ∀ i < n, ∀ j < n, 0 < p.A i j

structure Inv (p : BW) (n start : Nat) (acc : List Tags) (s : BSt) : Prop where
  pending : s.pending = acc.reverse ++ [[start]]
  alpha : ∀ l ≤ acc.length, s.alpha l = rowOf p start ((acc.reverse ++ [[start]]).drop (acc.length - l))
  gamma : ∀ i, 0 ≤ s.counts.gamma i
  lt : start < n
  good : ∀ T ∈ acc, Good p T
  acclt : ∀ T ∈ acc, ∀ i ∈ T, i < n

theorem rev_cons (acc : List Tags) (T : Tags) : (acc ++ [T]).reverse = T :: acc.reverse := by simp

theorem Inv.rowpos {p : BW} {n start : Nat} {acc : List Tags} {s : BSt} (h : Inv p n start acc s)
    (hA : ∀ i < n, ∀ j < n, 0 < p.A i j) (acc' : List Tags) (hs : acc' ⊆ acc) :
    ∀ i ∈ (acc' ++ [[start]]).headD [], 0 < rowOf p start (acc' ++ [[start]]) i := by
  apply row_pos
  · intro T hT; exact h.good T (hs hT)
  · intro T hT i hi T' hT' j hj
    apply hA
    · rcases List.mem_append.1 hT' with hT' | hT'
      · exact h.acclt T' (hs hT') j hj
      · simp at hT'; subst hT'; simp at hj; subst hj; exact h.lt
    · exact h.acclt T (hs hT) i hi

/-- The forward row of the next word. -/
theorem Inv.row {p : BW} {n start : Nat} {acc : List Tags} {s : BSt} (h : Inv p n start acc s)
    (hA : ∀ i < n, ∀ j < n, 0 < p.A i j) (T : Tags) (hT : Good p T) (hlt : ∀ i ∈ T, i < n) :
    forwardRow p (s.alpha (s.pending.length - 1)) (s.pending.headD []) T (p.num T) =
      rowOf p start (T :: (acc.reverse ++ [[start]])) := by
  have hlen : s.pending.length - 1 = acc.length := by rw [h.pending]; simp
  have hne : ∃ pre st, acc.reverse ++ [[start]] = pre :: st := by
    cases acc.reverse with
    | nil => exact ⟨_, _, rfl⟩
    | cons a b => exact ⟨_, _, rfl⟩
  obtain ⟨pre, st, he⟩ := hne
  have hal : s.alpha acc.length = rowOf p start (acc.reverse ++ [[start]]) := by
    have := h.alpha acc.length (Nat.le_refl _); simpa using this
  have hrp := h.rowpos hA acc.reverse (by intro x hx; simpa using hx)
  rw [hlen, hal, h.pending, he, rowOf, List.headD_cons]
  rw [he, List.headD_cons] at hrp
  apply forwardRow_spec p _ _ _ hT.nodup
  intro i hi
  have hpre : pre ≠ [] ∧ ∀ j ∈ pre, j < n := by
    cases hac : acc.reverse with
    | nil =>
      rw [hac] at he
      simp at he
      rw [← he.1]
      exact ⟨by simp, fun j hj => by simp at hj; subst hj; exact h.lt⟩
    | cons a b =>
      rw [hac] at he
      simp at he
      have ha : a ∈ acc := by
        have : a ∈ acc.reverse := by rw [hac]; simp
        simpa using this
      rw [← he.1]
      exact ⟨(h.good a ha).ne, h.acclt a ha⟩
  apply ne_of_gt
  apply S_pos _ _ _ hpre.1
  intro j hj
  have h1 := hrp j hj
  have h2 := hA j (hpre.2 j hj) i (hlt i hi)
  have h3 := hT.em i hi
  positivity

theorem Inv.alpha_next {p : BW} {n start : Nat} {acc : List Tags} {s : BSt} (h : Inv p n start acc s) (T : Tags) :
    ∀ l ≤ acc.length + 1,
      (if l = s.pending.length then rowOf p start (T :: (acc.reverse ++ [[start]])) else s.alpha l) =
        rowOf p start ((T :: (acc.reverse ++ [[start]])).drop (acc.length + 1 - l)) := by
  intro l hl
  have hlen : s.pending.length = acc.length + 1 := by rw [h.pending]; simp
  rw [hlen]
  by_cases he : l = acc.length + 1
  · subst he; rw [if_pos rfl]; simp
  · rw [if_neg he, h.alpha l (by omega), show acc.length + 1 - l = (acc.length - l) + 1 from by omega]
    rfl

theorem bw_main (p : BW) (n eos : Nat) (openClass : Tags) (ws : List Tags) :
    Text p n eos (ws.map fun w => if w = [] then openClass else w) →
    ∀ (start : Nat) (acc : List Tags) (s : BSt), Inv p n start acc s →
    let r := (ws.foldl (bwStep p openClass) s).counts
    let ps := pieces start acc (ws.map fun w => if w = [] then openClass else w)
    (∀ i j, r.xsi i j = s.counts.xsi i j + expTransitions p ps i j) ∧
    (∀ i, r.gamma i = s.counts.gamma i + expTags p ps i) ∧
    (∀ i k, r.phi i k = s.counts.phi i k + expEmissions p ps i k) ∧ ∀ i, 0 ≤ r.gamma i := by
  induction ws with
  | nil =>
    intro _ start acc s hinv
    simp only [List.foldl_nil, List.map_nil, pieces, expTransitions, expTags, expEmissions, List.sum_nil, add_zero]
    exact ⟨fun _ _ => trivial, fun _ => trivial, fun _ _ => trivial, hinv.gamma⟩
  | cons w ws ih =>
    intro htext start acc s hinv
    rw [List.map_cons] at htext
    have htext' : Text p n eos (ws.map fun w => if w = [] then openClass else w) :=
      ⟨fun T h => htext.good T (List.mem_cons_of_mem _ h), fun T h => htext.lt T (List.mem_cons_of_mem _ h), htext.eos,
        htext.trans⟩
    have hT := htext.good _ (List.mem_cons_self ..)
    have hlt := htext.lt _ (List.mem_cons_self ..)
    simp only [List.foldl_cons, List.map_cons]
    have hrow := hinv.row htext.trans _ hT hlt
    generalize hTd : (if w = [] then openClass else w) = T at hT hlt hrow ⊢
    have hA := htext.trans
    have halpha := hinv.alpha_next T
    have hlen : s.pending.length = acc.length + 1 := by rw [hinv.pending]; simp
    by_cases hone : ∃ tag, T = [tag]
    · obtain ⟨tag, rfl⟩ := hone
      have htagn : tag < n := hlt tag (by simp)
      -- the state after the word
      have hstep : bwStep p openClass s w =
          { pending := [[tag]],
            alpha := fun l => if l = 0 then setRow (fun _ => 0) tag 1 else
              if l = s.pending.length then rowOf p start ([tag] :: (acc.reverse ++ [[start]])) else s.alpha l,
            counts := backLoop p (rowOf p start ([tag] :: (acc.reverse ++ [[start]])) tag)
              (fun l => if l = s.pending.length then rowOf p start ([tag] :: (acc.reverse ++ [[start]])) else s.alpha l)
              s.pending.length 0 s.pending [tag]
              (fun b => if b = 0 then setRow (fun _ => 0) tag 1 else fun _ => 0) s.counts } := by
        unfold bwStep
        simp only [hTd, hrow]
      have hinvT : Inv p n start (acc ++ [[tag]])
          ⟨[tag] :: s.pending, (fun l => if l = s.pending.length then
            rowOf p start ([tag] :: (acc.reverse ++ [[start]])) else s.alpha l), s.counts⟩ := by
        refine ⟨by simp [hinv.pending], ?_, hinv.gamma, hinv.lt, ?_, ?_⟩
        · intro l hl
          rw [rev_cons]
          simp only [List.length_append, List.length_singleton] at hl ⊢
          exact halpha l hl
        · intro T h; rcases List.mem_append.1 h with h | h
          · exact hinv.good T h
          · simp at h; subst h; exact hT
        · intro T h; rcases List.mem_append.1 h with h | h
          · exact hinv.acclt T h
          · simp at h; subst h; exact hlt
      have hpb : rowOf p start ([tag] :: (acc.reverse ++ [[start]])) tag = beta p (acc ++ [[tag]]) start := by
        have := prob_spec p start ([tag] :: acc.reverse) []
        simp only [List.cons_append, List.headD_cons, S_cons, S_nil, add_zero, List.reverse_cons, List.reverse_reverse,
          List.append_nil] at this
        rw [← this]
        simp [beta, W_nil]
      have hprob : 0 < rowOf p start ([tag] :: (acc.reverse ++ [[start]])) tag := by
        have := hinvT.rowpos hA ([tag] :: acc.reverse) (by intro x hx; simp at hx ⊢; exact hx.symm)
        simpa using this
      have hbl := backLoop_spec p (rowOf p start ([tag] :: (acc.reverse ++ [[start]])) tag) hprob start
        (fun l => if l = s.pending.length then rowOf p start ([tag] :: (acc.reverse ++ [[start]])) else s.alpha l)
        acc.reverse 0 [tag] [] (fun b => if b = 0 then setRow (fun _ => 0) tag 1 else fun _ => 0) s.counts
        (by
          intro T' h
          rcases List.mem_cons.1 h with rfl | h
          · exact hT
          · exact hinv.good T' (by simpa using h))
        hinv.gamma
        (by intro l hl; rw [List.length_reverse] at hl ⊢; exact halpha l hl)
        (by
          intro l hl i hi
          rw [List.length_reverse] at hl hi
          show 0 < (if l = s.pending.length then _ else s.alpha l) i
          rw [halpha l hl]
          have hdrop : ([tag] :: (acc.reverse ++ [[start]])).drop (acc.length + 1 - l) =
              ([tag] :: acc.reverse).drop (acc.length + 1 - l) ++ [[start]] := by
            rw [← List.cons_append, List.drop_append_of_le_length (by simp)]
          rw [List.cons_append] at hi
          rw [hdrop] at hi ⊢
          refine hinvT.rowpos hA _ ?_ i hi
          intro x hx
          have := List.mem_of_mem_drop hx
          simp at this ⊢
          exact this.symm)
        (by intro i hi; simp at hi; subst hi; simp [setRow, beta, W_nil])
        (by
          intro T' hT' i hi post'
          have hi' : i < n := by
            rcases List.mem_cons.1 hT' with rfl | h
            · exact hlt i hi
            · exact hinv.acclt T' (by simpa using h) i hi
          refine ⟨by rw [beta, W_nil]; norm_num, ?_⟩
          intro hsub
          rw [List.append_nil]
          have hmem : ∀ T ∈ post', Good p T ∧ ∀ i ∈ T, i < n := by
            intro T hTp
            rcases List.mem_cons.1 (hsub hTp) with rfl | h
            · exact ⟨hT, hlt⟩
            · exact ⟨hinv.good T (by simpa using h), hinv.acclt T (by simpa using h)⟩
          apply beta_pos p post' i (fun T h => (hmem T h).1)
          intro T hTp i' hi'' j' hj'
          apply hA
          · rcases hj' with rfl | ⟨T2, h2, h3⟩
            · exact hi'
            · exact (hmem T2 h2).2 j' h3
          · exact (hmem T hTp).2 i' hi'')
      simp only [List.length_reverse, ← hinv.pending, ← hlen] at hbl
      obtain ⟨b1, b2, b3, b4⟩ := hbl
      simp only [← hinv.pending] at hstep hpb
      have hnext : Inv p n tag [] (bwStep p openClass s w) := by
        rw [hstep]
        refine ⟨rfl, ?_, b4, htagn, by simp, by simp⟩
        intro l hl
        simp at hl
        subst hl
        simp [rowOf]
      obtain ⟨r1, r2, r3, r4⟩ := ih htext' tag [] _ hnext
      have hexp : ∀ (c : Nat → Nat → Nat → ℚ) (f : List Nat → ℚ),
          (∀ q ∈ paths (acc ++ [[tag]]), cost p c start (acc ++ [[tag]]) q = f q) →
          total p start c ([tag] :: s.pending) [] /
            rowOf p start ([tag] :: s.pending) tag = expect p start (acc ++ [[tag]]) f := by
        intro c f hf
        rw [hpb, expect_eq]
        congr 1
        rw [hinv.pending]
        have := total_seg p start c ([tag] :: acc.reverse)
        simp only [List.cons_append, List.reverse_cons, List.reverse_reverse] at this
        rw [this]
        exact W_congr _ _ _ _ _ hf
      rw [hstep] at r1 r2 r3 r4 ⊢
      simp only [pieces]
      simp only [List.cons_append, ← hinv.pending] at b1 b2 b3
      refine ⟨?_, ?_, ?_, r4⟩
      · intro i j
        rw [r1, b1, hexp _ _ (cost_T p i j _ start)]
        simp only [expTransitions, List.map_cons, List.sum_cons]
        ring
      · intro i
        rw [r2, b2, hexp _ _ (cost_G p i _ start)]
        simp only [expTags, List.map_cons, List.sum_cons]
        ring
      · intro i k
        rw [r3, b3, hexp _ _ (cost_E p i k _ start)]
        simp only [expEmissions, List.map_cons, List.sum_cons]
        ring
    · have hstep : bwStep p openClass s w =
          ⟨T :: s.pending, (fun l => if l = s.pending.length then
            rowOf p start (T :: (acc.reverse ++ [[start]])) else s.alpha l), s.counts⟩ := by
        unfold bwStep
        simp only [hTd, hrow]
        split
        · rename_i tag; exact absurd ⟨tag, rfl⟩ hone
        · rfl
      have hpieces : pieces start acc (T :: ws.map fun w => if w = [] then openClass else w) =
          pieces start (acc ++ [T]) (ws.map fun w => if w = [] then openClass else w) := by
        rw [pieces]
        intro t h
        exact hone ⟨t, h⟩
      rw [hpieces]
      have hnext : Inv p n start (acc ++ [T]) (bwStep p openClass s w) := by
        rw [hstep]
        refine ⟨by simp [hinv.pending], ?_, hinv.gamma, hinv.lt, ?_, ?_⟩
        · intro l hl
          rw [rev_cons]
          simp only [List.length_append, List.length_singleton] at hl ⊢
          exact halpha l hl
        · intro T' h; rcases List.mem_append.1 h with h | h
          · exact hinv.good T' h
          · simp at h; subst h; exact hT
        · intro T' h; rcases List.mem_append.1 h with h | h
          · exact hinv.acclt T' h
          · simp at h; subst h; exact hlt
      have := ih htext' start (acc ++ [T]) _ hnext
      rw [hstep] at this ⊢
      exact this

end BWP

open BWP

/-- The hypothesis of the theorems: the text after the open class has replaced empty sets; `cls` lists the ambiguity
classes. -/
structure BWText (p : BW) (n m : Nat) (cls : Nat → Tags) (openClass : Tags) (eos : Nat) (ws : List Tags) : Prop where
  known : ∀ w ∈ ws, p.num (if w = [] then openClass else w) < m ∧
    cls (p.num (if w = [] then openClass else w)) = (if w = [] then openClass else w)
  sets : ∀ w ∈ ws, (if w = [] then openClass else w) ≠ [] ∧ (if w = [] then openClass else w).Nodup ∧
    ∀ i ∈ (if w = [] then openClass else w), i < n
  eos : eos < n

/-- The parameters are positive where they are used: all transitions, and the emission of each class by its members. -/
def Positive (n m : Nat) (cls : Nat → Tags) (p : BW) : Prop :=
  (∀ i < n, ∀ j < n, 0 < p.A i j) ∧ ∀ k < m, ∀ i ∈ cls k, 0 < p.B i k

/-- **C52, counting.**  For all positive parameters and all texts: the forward-backward procedure computes the expected number of
transitions, of occurrences of each tag and of emissions, the expectation being over all sequences of tags of each piece
of the text between unambiguous words. -/
theorem C52_counts (p : BW) (n m : Nat) (cls : Nat → Tags) (openClass : Tags) (eos : Nat) (ws : List Tags)
    (ht : BWText p n m cls openClass eos ws) (hp : Positive n m cls p) :
    let ps := pieces eos [] (ws.map fun w => if w = [] then openClass else w)
    let c := bwCounts p openClass eos ws
    (∀ i j, c.xsi i j = expTransitions p ps i j) ∧ (∀ i, c.gamma i = expTags p ps i) ∧
    (∀ i k, c.phi i k = expEmissions p ps i k) := by
  have htext : Text p n eos (ws.map fun w => if w = [] then openClass else w) := by
    refine ⟨?_, ?_, ht.eos, hp.1⟩
    · intro T hT
      obtain ⟨w, hw, rfl⟩ := List.mem_map.1 hT
      obtain ⟨k1, k2⟩ := ht.known w hw
      obtain ⟨s1, s2, _⟩ := ht.sets w hw
      refine ⟨s1, s2, ?_⟩
      intro i hi
      apply hp.2 _ k1
      rw [k2]; exact hi
    · intro T hT
      obtain ⟨w, hw, rfl⟩ := List.mem_map.1 hT
      exact (ht.sets w hw).2.2
  have hinv : Inv p n eos []
      { pending := [[eos]], alpha := fun l => if l = 0 then setRow (fun _ => 0) eos 1 else fun _ => 0,
        counts := { xsi := fun _ _ => 0, gamma := fun _ => 0, phi := fun _ _ => 0 } } := by
    refine ⟨rfl, ?_, fun _ => le_refl _, ht.eos, by simp, by simp⟩
    intro l hl
    simp at hl
    subst hl
    simp [rowOf]
  obtain ⟨h1, h2, h3, _⟩ := bw_main p n eos openClass ws htext eos [] _ hinv
  simp only [zero_add] at h1 h2 h3
  exact ⟨h1, h2, h3⟩

theorem sumTo_pos' (n : Nat) (f : Nat → ℚ) (h : ∀ j < n, 0 ≤ f j) (i : Nat) (hi : i < n) (hp : 0 < f i) :
    0 < sumTo n f := by
  have hn : ∀ n (f : Nat → ℚ), (∀ j < n, 0 ≤ f j) → 0 ≤ sumTo n f := by
    intro n f
    induction n with
    | zero => intro _; exact le_refl _
    | succ n ih =>
      intro h
      rw [sumTo]
      have := ih fun j hj => h j (by omega)
      have := h n (by omega)
      linarith
  induction n with
  | zero => omega
  | succ n ih =>
    rw [sumTo]
    have h0 := hn n f fun j hj => h j (by omega)
    have h1 := h n (by omega)
    by_cases he : i = n
    · subst he; linarith
    · have := ih (fun j hj => h j (by omega)) (by omega); linarith

theorem sumTo_divc (n : Nat) (f : Nat → ℚ) (c : ℚ) : sumTo n (fun j => f j / c) = sumTo n f / c := by
  induction n with
  | zero => simp [sumTo]
  | succ n ih => rw [sumTo, sumTo, ih]; ring

theorem bwTrain_gamma (p : BW) (n m : Nat) (cls : Nat → Tags) (openClass : Tags) (eos : Nat) (ws : List Tags)
    (ht : BWText p n m cls openClass eos ws) (hp : Positive n m cls p) : ∀ i, 0 ≤ (bwCounts p openClass eos ws).gamma i := by
  have htext : Text p n eos (ws.map fun w => if w = [] then openClass else w) := by
    refine ⟨?_, ?_, ht.eos, hp.1⟩
    · intro T hT
      obtain ⟨w, hw, rfl⟩ := List.mem_map.1 hT
      obtain ⟨k1, k2⟩ := ht.known w hw
      obtain ⟨s1, s2, _⟩ := ht.sets w hw
      refine ⟨s1, s2, ?_⟩
      intro i hi
      apply hp.2 _ k1
      rw [k2]; exact hi
    · intro T hT
      obtain ⟨w, hw, rfl⟩ := List.mem_map.1 hT
      exact (ht.sets w hw).2.2
  have hinv : Inv p n eos []
      { pending := [[eos]], alpha := fun l => if l = 0 then setRow (fun _ => 0) eos 1 else fun _ => 0,
        counts := { xsi := fun _ _ => 0, gamma := fun _ => 0, phi := fun _ _ => 0 } } := by
    refine ⟨rfl, ?_, fun _ => le_refl _, ht.eos, by simp, by simp⟩
    intro l hl
    simp at hl
    subst hl
    simp [rowOf]
  exact (bw_main p n eos openClass ws htext eos [] _ hinv).2.2.2

namespace BWP

theorem weight_nonneg (p : BW) (n : Nat) (hA : ∀ i < n, ∀ j < n, 0 < p.A i j) (seg : List Tags) :
    ∀ (s : Nat), s < n → (∀ T ∈ seg, Good p T ∧ ∀ i ∈ T, i < n) → ∀ q ∈ paths seg, 0 ≤ weight p s seg q := by
  induction seg with
  | nil => intro s _ _ q hq; simp [paths] at hq; subst hq; simp [weight]
  | cons T r ih =>
    intro s hs hg q hq
    rw [paths] at hq
    obtain ⟨t, htT, hq⟩ := List.mem_flatMap.1 hq
    obtain ⟨q', hq', rfl⟩ := List.mem_map.1 hq
    obtain ⟨g1, g2⟩ := hg T (List.mem_cons_self ..)
    have h1 := hA s hs t (g2 t htT)
    have h2 := g1.em t htT
    have h3 := ih t (g2 t htT) (fun T' h => hg T' (List.mem_cons_of_mem _ h)) q' hq'
    rw [weight]
    positivity

theorem sum_le (qs : List (List Nat)) (f g : List Nat → ℚ) (h : ∀ q ∈ qs, f q ≤ g q) : (qs.map f).sum ≤ (qs.map g).sum := by
  induction qs with
  | nil => exact le_refl _
  | cons q qs ih =>
    simp only [List.map_cons, List.sum_cons]
    have := h q (List.mem_cons_self ..)
    have := ih fun x hx => h x (List.mem_cons_of_mem _ hx)
    linarith

theorem expect_mono (p : BW) (s : Nat) (seg : List Tags) (f g : List Nat → ℚ) (hw : ∀ q ∈ paths seg, 0 ≤ weight p s seg q)
    (h : ∀ q, f q ≤ g q) : expect p s seg f ≤ expect p s seg g := by
  unfold expect
  have hz : 0 ≤ ((paths seg).map fun q => weight p s seg q).sum := by
    have := sum_le (paths seg) (fun _ => 0) (fun q => weight p s seg q) hw
    simpa using this
  apply div_le_div_of_nonneg_right _ hz
  apply sum_le
  intro q hq
  exact mul_le_mul_of_nonneg_left (h q) (hw q hq)

theorem count_zip_le (q ks : List Nat) (i k : Nat) : (q.zip ks).count (i, k) ≤ q.count i := by
  induction q generalizing ks with
  | nil => simp
  | cons a q ih =>
    cases ks with
    | nil => simp
    | cons b ks =>
      rw [List.zip_cons_cons, List.count_cons, List.count_cons]
      have := ih ks
      by_cases h : a = i ∧ b = k
      · simp [h]; exact this
      · have : ((a, b) == (i, k)) = false := by simpa using h
        rw [this]; simp; have := ih ks; omega

theorem pieces_mem (P : Tags → Prop) (Q : Nat → Prop) (ws : List Tags) : ∀ (start : Nat) (acc : List Tags),
    Q start → (∀ T ∈ acc, P T) → (∀ T ∈ ws, P T ∧ ∀ i ∈ T, Q i) → ∀ x ∈ pieces start acc ws, Q x.1 ∧ ∀ T ∈ x.2, P T := by
  induction ws with
  | nil => intro _ _ _ _ _ x hx; simp [pieces] at hx
  | cons T ws ih =>
    intro start acc hs hacc hws x hx
    have hT := hws T (List.mem_cons_self ..)
    have hacc' : ∀ T' ∈ acc ++ [T], P T' := by
      intro T' h; rcases List.mem_append.1 h with h | h
      · exact hacc T' h
      · simp at h; subst h; exact hT.1
    by_cases hone : ∃ t, T = [t]
    · obtain ⟨t, rfl⟩ := hone
      rw [pieces] at hx
      rcases List.mem_cons.1 hx with rfl | hx
      · exact ⟨hs, hacc'⟩
      · exact ih t [] (hT.2 t (by simp)) (by simp) (fun T h => hws T (List.mem_cons_of_mem _ h)) x hx
    · have hp : pieces start acc (T :: ws) = pieces start (acc ++ [T]) ws := by
        rw [pieces]
        intro t h
        exact hone ⟨t, h⟩
      rw [hp] at hx
      exact ih start _ hs hacc' (fun T h => hws T (List.mem_cons_of_mem _ h)) x hx

end BWP

theorem bwText_good {p : BW} {n m : Nat} {cls : Nat → Tags} {openClass : Tags} {eos : Nat} {ws : List Tags}
    (ht : BWText p n m cls openClass eos ws) (hp : Positive n m cls p) :
    ∀ T ∈ ws.map (fun w => if w = [] then openClass else w), Good p T ∧ ∀ i ∈ T, i < n := by
  intro T hT
  obtain ⟨w, hw, rfl⟩ := List.mem_map.1 hT
  obtain ⟨k1, k2⟩ := ht.known w hw
  obtain ⟨s1, s2, s3⟩ := ht.sets w hw
  refine ⟨⟨s1, s2, ?_⟩, s3⟩
  intro i hi
  apply hp.2 _ k1
  rw [k2]; exact hi

theorem emissions_le_tags (p : BW) (n m : Nat) (cls : Nat → Tags) (openClass : Tags) (eos : Nat) (ws : List Tags)
    (ht : BWText p n m cls openClass eos ws) (hp : Positive n m cls p) (i k : Nat) :
    let ps := pieces eos [] (ws.map fun w => if w = [] then openClass else w)
    expEmissions p ps i k ≤ expTags p ps i := by
  intro ps
  have hps : ∀ x ∈ ps, x.1 < n ∧ ∀ T ∈ x.2, Good p T ∧ ∀ i ∈ T, i < n := by
    apply pieces_mem (fun T => Good p T ∧ ∀ i ∈ T, i < n) (fun i => i < n) _ eos [] ht.eos (by simp)
    intro T hT
    have := bwText_good ht hp T hT
    exact ⟨this, this.2⟩
  unfold expEmissions expTags
  revert hps
  induction ps with
  | nil => intro _; exact le_refl _
  | cons x ps ih =>
    intro hps
    simp only [List.map_cons, List.sum_cons]
    have h1 := ih fun y hy => hps y (List.mem_cons_of_mem _ hy)
    have hx := hps x (List.mem_cons_self ..)
    have h2 := expect_mono p x.1 x.2 (fun q => ((q.zip (x.2.map p.num)).count (i, k) : Nat)) (fun q => (q.count i : Nat))
      (weight_nonneg p n hp.1 x.2 x.1 hx.1 hx.2) (fun q => by exact_mod_cast count_zip_le _ _ _ _)
    linarith

/-- The new parameters before normalisation, by specification: relative expected frequencies, 1e-10 for what is never
expected. -/
def relA (p : BW) (ps : List (Nat × List Tags)) (i j : Nat) : ℚ :=
  if expTransitions p ps i j > 0 then
    expTransitions p ps i j / (if expTags p ps i = 0 then p.tiny else expTags p ps i) else ZERO

def relB (p : BW) (ps : List (Nat × List Tags)) (i k : Nat) : ℚ :=
  if expEmissions p ps i k > 0 then expEmissions p ps i k / expTags p ps i else ZERO

/-- **C52, parameters.**  After an iteration of training: the transition probabilities from each tag are the relative expected
frequencies, normalised; they are positive and add up to 1.  Likewise the emission probabilities of a tag over the classes that
contain it. -/
theorem C52_parameters (p : BW) (n m : Nat) (cls : Nat → Tags) (openClass : Tags) (eos : Nat) (ws : List Tags)
    (ht : BWText p n m cls openClass eos ws) (hp : Positive n m cls p) (htiny : 0 < p.tiny) :
    let ps := pieces eos [] (ws.map fun w => if w = [] then openClass else w)
    let p' := bwTrain n m cls openClass eos ws p
    (∀ i < n, (∀ j < n, p'.A i j = relA p ps i j / sumTo n (relA p ps i) ∧ 0 < p'.A i j) ∧ sumTo n (p'.A i) = 1) ∧
    ∀ i x, x < m → i ∈ cls x →
      (∀ k < m, i ∈ cls k → p'.B i k = relB p ps i k / sumTo m (fun k => if i ∈ cls k then relB p ps i k else 0) ∧
        0 < p'.B i k) ∧
      sumTo m (fun k => if i ∈ cls k then p'.B i k else 0) = 1 := by
  intro ps p'
  obtain ⟨hx, hg, hf⟩ := C52_counts p n m cls openClass eos ws ht hp
  have hgn := bwTrain_gamma p n m cls openClass eos ws ht hp
  have hz : (0 : ℚ) < ZERO := by unfold ZERO; norm_num
  have hAr : rawA p (bwCounts p openClass eos ws) = relA p ps := by
    funext i j
    unfold rawA relA
    rw [hx, hg]
  have hBr : rawB (bwCounts p openClass eos ws) = relB p ps := by
    funext i k
    unfold rawB relB
    rw [hf, hg]
  have hgn' : ∀ i, 0 ≤ expTags p ps i := fun i => by rw [← hg]; exact hgn i
  have hApos : ∀ i j, 0 < relA p ps i j := by
    intro i j
    unfold relA
    split
    · rename_i h
      apply div_pos h
      split
      · exact htiny
      · rename_i h0
        exact lt_of_le_of_ne (hgn' i) (Ne.symm h0)
    · exact hz
  have hBpos : ∀ i k, 0 < relB p ps i k := by
    intro i k
    unfold relB
    split
    · rename_i h
      apply div_pos h
      exact lt_of_lt_of_le h (emissions_le_tags p n m cls openClass eos ws ht hp i k)
    · exact hz
  have hA' : ∀ i j, p'.A i j = relA p ps i j / sumTo n (relA p ps i) := by
    intro i j
    show newA n p (bwCounts p openClass eos ws) i j = _
    unfold newA
    rw [hAr]
  have hB' : ∀ i k, i ∈ cls k →
      p'.B i k = relB p ps i k / sumTo m (fun k => if i ∈ cls k then relB p ps i k else 0) := by
    intro i k hk
    show newB m cls (bwCounts p openClass eos ws) i k = _
    unfold newB
    rw [if_pos hk, hBr]
  constructor
  · intro i hi
    have hs : 0 < sumTo n (relA p ps i) := sumTo_pos' n _ (fun j _ => le_of_lt (hApos i j)) i hi (hApos i i)
    refine ⟨fun j _ => ⟨hA' i j, by rw [hA']; exact div_pos (hApos i j) hs⟩, ?_⟩
    rw [show p'.A i = fun j => relA p ps i j / sumTo n (relA p ps i) from funext (hA' i), sumTo_divc]
    exact div_self (ne_of_gt hs)
  · intro i x hx hix
    have hs : 0 < sumTo m (fun k => if i ∈ cls k then relB p ps i k else 0) :=
      sumTo_pos' m _ (fun k _ => by split; exact le_of_lt (hBpos i k); exact le_refl _) x hx (by rw [if_pos hix]; exact hBpos i x)
    refine ⟨fun k _ hk => ⟨hB' i k hk, by rw [hB' i k hk]; exact div_pos (hBpos i k) hs⟩, ?_⟩
    have : (fun k => if i ∈ cls k then p'.B i k else 0) = fun k =>
        (if i ∈ cls k then relB p ps i k else 0) / sumTo m (fun k => if i ∈ cls k then relB p ps i k else 0) := by
      funext k
      by_cases hk : i ∈ cls k
      · rw [if_pos hk, if_pos hk, hB' i k hk]
      · rw [if_neg hk, if_neg hk, zero_div]
    rw [this, sumTo_divc]
    exact div_self (ne_of_gt hs)

/-- **C52.**  Where all transitions are expected, the new probabilities are exactly the relative expected frequencies. -/
theorem C52_relative (p : BW) (n m : Nat) (cls : Nat → Tags) (openClass : Tags) (eos : Nat) (ws : List Tags)
    (ht : BWText p n m cls openClass eos ws) (hp : Positive n m cls p) (htiny : 0 < p.tiny) (i : Nat) (hi : i < n) :
    let ps := pieces eos [] (ws.map fun w => if w = [] then openClass else w)
    (∀ j < n, 0 < expTransitions p ps i j) →
    ∀ j < n, (bwTrain n m cls openClass eos ws p).A i j = expTransitions p ps i j / sumTo n (expTransitions p ps i) := by
  intro ps hall j hj
  have hgn := bwTrain_gamma p n m cls openClass eos ws ht hp
  obtain ⟨_, hg, _⟩ := C52_counts p n m cls openClass eos ws ht hp
  rw [(((C52_parameters p n m cls openClass eos ws ht hp htiny).1 i hi).1 j hj).1]
  have hd : 0 < (if expTags p ps i = 0 then p.tiny else expTags p ps i) := by
    split
    · exact htiny
    · rename_i h0
      have h1 : 0 ≤ expTags p ps i := by rw [← hg]; exact hgn i
      exact lt_of_le_of_ne h1 (Ne.symm h0)
  have hrel : ∀ k < n, relA p ps i k = expTransitions p ps i k / (if expTags p ps i = 0 then p.tiny else expTags p ps i) := by
    intro k hk
    unfold relA
    rw [if_pos (hall k hk)]
  have hsum : sumTo n (relA p ps i) = sumTo n (expTransitions p ps i) / (if expTags p ps i = 0 then p.tiny else expTags p ps i) := by
    rw [← sumTo_divc]
    have : ∀ k, k ≤ n → sumTo k (relA p ps i) =
        sumTo k (fun j => expTransitions p ps i j / (if expTags p ps i = 0 then p.tiny else expTags p ps i)) := by
      intro k
      induction k with
      | zero => intro _; rfl
      | succ k ih => intro hk; rw [sumTo, sumTo, ih (by omega), hrel k (by omega)]
    exact this n (Nat.le_refl _)
  have hs : 0 < sumTo n (expTransitions p ps i) :=
    sumTo_pos' n _ (fun k hk => le_of_lt (hall k hk)) j hj (hall j hj)
  rw [hrel j hj, hsum]
  field_simp

/-- `k` iterations (`apertium-tagger -r`, or `-t` with several iterations). -/
def bwTimes (n m : Nat) (cls : Nat → Tags) (openClass : Tags) (eos : Nat) (ws : List Tags) : Nat → BW → BW
  | 0, p => p
  | k + 1, p => bwTrain n m cls openClass eos ws (bwTimes n m cls openClass eos ws k p)

/-- **C52.**  Positive parameters stay positive: whatever the number of iterations, the above applies to each of them. -/
theorem C52_iterations (p : BW) (n m : Nat) (cls : Nat → Tags) (openClass : Tags) (eos : Nat) (ws : List Tags)
    (ht : BWText p n m cls openClass eos ws) (hp : Positive n m cls p) (htiny : 0 < p.tiny) (k : Nat) :
    let pk := bwTimes n m cls openClass eos ws k p
    BWText pk n m cls openClass eos ws ∧ Positive n m cls pk ∧ 0 < pk.tiny := by
  induction k with
  | zero => exact ⟨ht, hp, htiny⟩
  | succ k ih =>
    obtain ⟨h1, h2, h3⟩ := ih
    have := C52_parameters _ n m cls openClass eos ws h1 h2 h3
    refine ⟨⟨h1.known, h1.sets, h1.eos⟩, ⟨?_, ?_⟩, h3⟩
    · intro i hi j hj
      exact ((this.1 i hi).1 j hj).2
    · intro x hx i hi
      exact ((this.2 i x hx hi).1 x hx hi).2

/-- If the parameters are not positive the counts are wrong: a text that the parameters say is impossible gets forward probability
`DBL_MIN` (hmm.cc:516), the counts are then divided by it. Here the counts of the only path of a word with probability zero: no
transition is counted, but one occurrence of the tag is. -/
theorem C52_impossible_violation :
    let p : BW := { A := fun _ _ => 0, B := fun _ _ => 1, num := fun _ => 0, tiny := 1 / 1000 }
    (bwCounts p [1] 0 [[1]]).xsi 0 1 = 0 ∧ (bwCounts p [1] 0 [[1]]).gamma 1 = 1 := by
  decide +kernel

/-- the hypotheses are met by a text of three words, one of them ambiguous and one unknown -/
def exBW : BW := { A := fun _ _ => 1 / 3, B := fun i k => if i = 1 ∧ k = 2 then 1 / 4 else 1 / 2,
                   num := fun T => if T = [0] then 0 else if T = [1] then 1 else 2, tiny := 1 / 1000 }

def exCls : Nat → Tags := fun k => if k = 0 then [0] else if k = 1 then [1] else [1, 2]

example : BWText exBW 3 3 exCls [1, 2] 0 [[1, 2], [], [0]] ∧ Positive 3 3 exCls exBW := by
  refine ⟨⟨by decide, by decide, by decide⟩, ?_, ?_⟩
  · intro i _ j _; show (0 : ℚ) < 1 / 3; norm_num
  · intro k _ i _; simp only [exBW]; split <;> norm_num

/-- a text with four paths: a text with two ambiguous words -/
example : (bwCounts exBW [1, 2] 0 [[1, 2], [], [0]]).xsi 1 2 = 2 / 9 ∧
    expTransitions exBW (pieces 0 [] [[1, 2], [1, 2], [0]]) 1 2 = 2 / 9 := by
  constructor <;> decide +kernel

end Verif.Tagger.Train
