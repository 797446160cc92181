import Verif.Post.Model
/-!
# Properties C01 and C10 (posttransfer)
-/
namespace Verif.Post

/-! ## Specification -/

/-- `Collapses t u`: `u` is `t` with every maximal run of spaces replaced by one space. -/
inductive Collapses : Text → Text → Prop
  | nil : Collapses [] []
  | char {c t u} : c ≠ ' ' → Collapses t u → Collapses (c :: t) (c :: u)
  | run {t u} (n : Nat) : t.head? ≠ some ' ' → Collapses t u →
      Collapses (List.replicate (n + 1) ' ' ++ t) (' ' :: u)

/-! ## Helper lemmas -/

theorem loop_true_replicate (n : Nat) (t : Text) :
    loop true (List.replicate n ' ' ++ t) = loop true t := by
  induction n with
  | zero => simp
  | succ n ih => simp [List.replicate_succ, loop, ih]

theorem loop_true_of_head (t : Text) (h : t.head? ≠ some ' ') : loop true t = loop false t := by
  cases t with
  | nil => rfl
  | cons c t => simp at h; simp [loop, h]

theorem Collapses.eq {t u : Text} (h : Collapses t u) : loop false t = u := by
  induction h with
  | nil => rfl
  | char hc _ ih => simp [loop, ih, hc]
  | run n hh _ ih => simp [List.replicate_succ, loop, loop_true_replicate, loop_true_of_head _ hh, ih]

theorem exists_run (t : Text) : ∃ n t', t = List.replicate n ' ' ++ t' ∧ t'.head? ≠ some ' ' := by
  induction t with
  | nil => exact ⟨0, [], by simp, by simp⟩
  | cons c t ih =>
    by_cases hc : c = ' '
    · obtain ⟨n, t', h, hh⟩ := ih
      exact ⟨n + 1, t', by simp [List.replicate_succ, h, hc], hh⟩
    · exact ⟨0, c :: t, by simp, by simpa using hc⟩

theorem collapses_total (n : Nat) : ∀ t : Text, t.length ≤ n → ∃ u, Collapses t u := by
  induction n with
  | zero => intro t h; cases t with
    | nil => exact ⟨_, .nil⟩
    | cons c t => simp at h
  | succ n ih =>
    intro t h
    cases t with
    | nil => exact ⟨_, .nil⟩
    | cons c t =>
      by_cases hc : c = ' '
      · obtain ⟨k, t', ht, hh⟩ := exists_run t
        have hl : t'.length ≤ n := by simp [ht] at h; omega
        obtain ⟨u, hu⟩ := ih t' hl
        exact ⟨' ' :: u, by subst hc ht; exact .run k hh hu⟩
      · obtain ⟨u, hu⟩ := ih t (by simpa using h)
        exact ⟨_, .char hc hu⟩

/-! ## C01 -/

/-- C01: the output is the input with every maximal run of spaces replaced by one space. -/
theorem C01_collapses (t : Text) : Collapses t (processStream t) := by
  obtain ⟨u, hu⟩ := collapses_total _ t (Nat.le_refl _)
  have := hu.eq
  unfold processStream
  rw [this]; exact hu

/-- C01: the specification determines the output (there is only one way of collapsing). -/
theorem C01_unique (t u : Text) (h : Collapses t u) : processStream t = u := h.eq

example : Collapses t!"a   b c" t!"a b c" :=
  .char (by decide) (.run 2 (by decide) (.char (by decide) (.run 0 (by decide) (.char (by decide) .nil))))

/-- C01: two consecutive spaces are never written. -/
theorem C01_no_double_space (t : Text) : ¬ [' ', ' '] <:+: processStream t := by
  have key : ∀ (t : Text) (b : Bool), ¬ [' ', ' '] <:+: loop b t ∧ (b = true → (loop b t).head? ≠ some ' ') := by
    intro t
    induction t with
    | nil => intro b; simp [loop]
    | cons c t ih =>
      intro b
      by_cases hc : c = ' '
      · subst hc
        obtain ⟨h1, h2⟩ := ih true
        cases b
        · simp only [loop, true_or, if_true, decide_true]
          refine ⟨?_, by simp⟩
          rw [List.infix_cons_iff]
          rintro (h | h)
          · rw [List.cons_prefix_cons] at h
            have := h.2
            have h2 := h2 rfl
            cases hl : loop true t with
            | nil => simp [hl] at this
            | cons d l => rw [hl] at this h2; simp at this h2; exact h2 this.symm
          · exact h1 h
        · simpa [loop] using ⟨h1, h2 rfl⟩
      · obtain ⟨h1, _⟩ := ih false
        have : loop b (c :: t) = c :: loop false t := by simp [loop, hc]
        rw [this]
        refine ⟨?_, by simp [hc]⟩
        rw [List.infix_cons_iff]
        rintro (h | h)
        · rw [List.cons_prefix_cons] at h; exact hc h.1.symm
        · exact h1 h
  exact (key t false).1

/-- C01: every character other than a space is written, unchanged and in the same order, and a space is
written exactly where the input had at least one. -/
theorem C01_keeps_others (t : Text) :
    (processStream t).filter (· ≠ ' ') = t.filter (· ≠ ' ') := by
  have key : ∀ (t : Text) (b : Bool), (loop b t).filter (· ≠ ' ') = t.filter (· ≠ ' ') := by
    intro t
    induction t with
    | nil => simp [loop]
    | cons c t ih => intro b; by_cases hc : c = ' ' <;> cases b <;> simp_all [loop]
  exact key t false

/-- C01: running the tool on its own output changes nothing. -/
theorem C01_idempotent (t : Text) : processStream (processStream t) = processStream t := by
  have key : ∀ (t : Text) (b : Bool), loop b (loop b t) = loop b t := by
    intro t
    induction t with
    | nil => simp [loop]
    | cons c t ih =>
      intro b
      by_cases hc : c = ' '
      · subst hc; cases b <;> simp [loop, ih]
      · have : loop b (c :: t) = c :: loop false t := by simp [loop, hc]
        rw [this]; simp [loop, hc, ih]
  exact key t false

/-- C10: two requests separated by NUL are processed independently. -/
theorem C10_posttransfer_null_flush (a b : Text) :
    processStream (a ++ '\x00' :: b) = processStream a ++ '\x00' :: processStream b := by
  have key : ∀ (a : Text) (s : Bool), loop s (a ++ '\x00' :: b) = loop s a ++ '\x00' :: loop false b := by
    intro a
    induction a with
    | nil => intro s; simp [loop]
    | cons c t ih => intro s; by_cases hc : c = ' ' <;> cases s <;> simp_all [loop]
  exact key a false

end Verif.Post
