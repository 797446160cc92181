import Verif.Tmx.Props
/-!
# C35: the inputs that the tool accepts are sound, and counterexamples
-/
namespace Verif.Tmx

theorem div_step (i W H : Nat) (hH : 0 < H) (hW : W ≤ 5 * H) : (i + 1) * W / H ≤ i * W / H + 5 := by
  have h : (i + 1) * W ≤ i * W + 5 * H := by rw [Nat.add_mul, Nat.one_mul]; omega
  calc (i + 1) * W / H ≤ (i * W + 5 * H) / H := Nat.div_le_div_right h
    _ = i * W / H + 5 := by rw [Nat.add_mul_div_right _ _ hH]

theorem div_bound (i W H : Nat) (hi : i < H) (hW : 0 < W) : i * W / H < W := by
  rw [Nat.div_lt_iff_lt_mul (by omega), Nat.mul_comm W H]
  exact Nat.mul_lt_mul_of_pos_right hi hW

/-- The books that the tool does not reject (tmx_aligner_tool.cc: no book is more than five times as long as the other), with the thickness that it chooses. -/
theorem sound_of (b : Book) (hu : ∀ x ∈ b.hu, 0 ≤ x) (en : ∀ x ∈ b.en, 0 ≤ x) (w : ∀ i j, b.w i j ≤ 1000000)
    (size : b.hu.length + b.en.length ≤ 3000000) (ratio : ¬ b.hu.length < b.en.length / 5) (thick : 500 ≤ b.thick) : Sound b := by
  have hW : b.en.length + 1 ≤ 5 * (b.hu.length + 1) := by omega
  refine ⟨hu, en, w, size, ?_, ?_⟩
  · intro i hi
    have h1 := div_step i (b.en.length + 1) (b.hu.length + 1) (by omega) hW
    have h2 := div_bound (i + 1) (b.en.length + 1) (b.hu.length + 1) (by omega) (by omega)
    simp only [Band.start, Band.stop, Book.band]
    refine lt_min ?_ ?_
    · generalize (i + 1) * (b.en.length + 1) / (b.hu.length + 1) = x at *
      generalize i * (b.en.length + 1) / (b.hu.length + 1) = y at *
      omega
    · omega
  · have h1 := div_step b.hu.length (b.en.length + 1) (b.hu.length + 1) (by omega) hW
    have h2 := div_bound b.hu.length (b.en.length + 1) (b.hu.length + 1) (by omega) (by omega)
    have h3 : (b.hu.length + 1) * (b.en.length + 1) / (b.hu.length + 1) = b.en.length + 1 := Nat.mul_div_cancel_left _ (by omega)
    refine ⟨by simp [Book.band], ?_, ?_⟩
    · simp only [Band.start, Book.band]
      omega
    · simp only [Band.stop, Book.band]
      refine lt_min ?_ (by omega)
      generalize b.hu.length * (b.en.length + 1) / (b.hu.length + 1) = y at *
      omega

/-- C35: for all the books that the tool aligns. -/
theorem C35_tool_partial (b : Book) (hu : ∀ x ∈ b.hu, 0 ≤ x) (en : ∀ x ∈ b.en, 0 ≤ x) (w : ∀ i j, b.w i j ≤ 1000000)
    (size : b.hu.length + b.en.length ≤ 3000000) (ratio : ¬ b.hu.length < b.en.length / 5) (thick : 500 ≤ b.thick) :
    ∃ A, Allowed b A ∧ (∀ B, Allowed b B → total b 0 0 B ≤ total b 0 0 A) ∧ TrailOf A (align b) :=
  C35_optimal_partial b (sound_of b hu en w size ratio thick)

theorem demo_sound : Sound demo := by
  refine sound_of _ (by decide +kernel) (by decide +kernel) ?_ (by decide) (by decide) (by decide)
  intro i j
  simp only [demo]
  split <;> norm_num

example : total demo 0 0 [.pair, .pair, .oneTwo] = 111 / 31 := by
  simp [total, Piece.score, Piece.hu, Piece.en, demo, closeness, len, skipScore]
  norm_num

/-- `demo` with the two books exchanged. -/
def demo' : Book where
  w := fun i j => demo.w j i
  hu := demo.en
  en := demo.hu
  thick := 500

theorem demo'_sound : Sound demo' := by
  refine sound_of _ (by decide +kernel) (by decide +kernel) ?_ (by decide) (by decide) (by decide)
  intro i j
  simp only [demo', demo]
  split <;> norm_num

/-- C35 fails: two sentences of the first book are never aligned with one of the second book, although `HuHuEnSkip` is meant for this (its value is computed but not stored). -/
theorem C35_two_to_one_violation (b : Book) (hb : Sound b) (k : Nat) (p q : Nat × Nat) (hp : (align b)[k]? = some p) (hq : (align b)[k + 1]? = some q) :
    q.1 ≤ p.1 + 1 := by
  obtain ⟨A, _, _, before, x, after, h1, h2, _, _⟩ := C35_optimal_partial b hb
  have key : ∀ (A : List Piece) (i j n : Nat) (p q : Nat × Nat), (points i j A)[n]? = some p → (points i j A)[n + 1]? = some q → q.1 ≤ p.1 + 1 := by
    intro A
    induction A with
    | nil => intro i j n p q _ h; simp [points] at h
    | cons a A ih =>
      intro i j n p q hp hq
      cases n with
      | zero =>
        rw [points] at hp hq
        simp only [List.getElem?_cons_zero, Option.some.injEq, List.getElem?_cons_succ] at hp hq
        have e : (points (i + a.hu) (j + a.en) A)[0]? = some (i + a.hu, j + a.en) := by cases A <;> rfl
        rw [e] at hq
        injection hq with hq
        subst hp hq
        cases a <;> simp [Piece.hu]
      | succ n => exact ih _ _ n p q (by simpa [points] using hp) (by simpa [points] using hq)
  rw [h2] at hp hq
  refine key A 0 0 (before.length + k) p q ?_ ?_
  · rw [h1, List.getElem?_append_right (by omega)]
    simpa using hp
  · rw [h1, List.getElem?_append_right (by omega), show before.length + k + 1 - before.length = k + 1 by omega]
    exact hq

/-- C35 fails: the same books, exchanged, are aligned in another way: a sentence that is split in the second book is aligned with both parts; a sentence that is split in the
first book with one part only. -/
theorem C35_exchange_violation : align demo = [(0, 0), (1, 1), (2, 2), (3, 4)] ∧ align demo' = [(0, 0), (1, 1), (2, 2), (3, 2), (4, 3)] := by
  decide +kernel

/-- A book with two sentences at the start that are not in the other one. -/
def late : Book where
  w := fun i j => if i = j + 2 then 1 else 0
  hu := [40, 50, 10, 20]
  en := [10, 20]
  thick := 500

theorem late_sound : Sound late := by
  refine sound_of _ (by decide +kernel) (by decide +kernel) ?_ (by decide) (by decide) (by decide)
  intro i j
  simp only [late]
  split <;> norm_num

/-- C35 fails: the trail does not have to start at the start of the books. -/
theorem C35_start_violation : align late = [(2, 0), (3, 1), (4, 2)] := by decide +kernel

end Verif.Tmx
