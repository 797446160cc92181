/-
  The new lengths of the runs of a paragraph (C87): `adjust` moves the end of
  every run to the boundary found from it, and never leaves the vectors.
-/
import Verif.Docx.Boundary

namespace Verif.Docx

open Spec

/-! ### Sums of prefixes -/

theorem sum_take_set : ∀ (L : List Nat) (i v k x : Nat), L[i]? = some x →
    ((L.set i v).take k).sum + (if i < k then x else 0) = (L.take k).sum + (if i < k then v else 0) := by
  intro L
  induction L with
  | nil => intro i v k x h; simp at h
  | cons a L ih =>
    intro i v k x h
    cases k with
    | zero => simp
    | succ k =>
      cases i with
      | zero =>
        simp at h
        subst h
        simp; omega
      | succ i =>
        have := ih i v k x (by simpa using h)
        simp at this ⊢
        omega

theorem endOf_succ (L : List Nat) (k x : Nat) (h : L[k + 1]? = some x) : endOf L (k + 1) = endOf L k + x := by
  simp only [endOf]
  rw [List.take_add_one, h]
  simp

theorem endOf_at (L : List Nat) (k x : Nat) (h : L[k]? = some x) : endOf L k = (L.take k).sum + x := by
  simp only [endOf]
  rw [List.take_add_one, h]
  simp

theorem endOf_mono (L : List Nat) {j k : Nat} (h : j ≤ k) : endOf L j ≤ endOf L k := by
  induction h with
  | refl => exact Nat.le_refl _
  | step h ih =>
    rename_i m
    refine Nat.le_trans ih ?_
    cases hx : L[m + 1]? with
    | none =>
      simp only [endOf]
      rw [List.take_add_one (i := m + 1), hx]; simp
    | some x => rw [endOf_succ L m x hx]; omega

theorem endOf_zeros (L : List Nat) (j : Nat) : ∀ k, j ≤ k → (∀ i, j < i → i ≤ k → L[i]? = some 0) →
    endOf L k = endOf L j := by
  intro k hk
  induction hk with
  | refl => intro _; rfl
  | step h ih =>
    rename_i m
    intro hz
    have hx := hz (m + 1) (by have : j ≤ m := h; omega) (Nat.le_refl _)
    rw [endOf_succ L m 0 hx, Nat.add_zero]
    exact ih (fun i h1 h2 => hz i h1 (by omega))

theorem endOf_last (L : List Nat) (k : Nat) (h : L.length ≤ k + 1) : endOf L k = L.sum := by
  simp only [endOf]
  rw [List.take_of_length_le h]

theorem endOf_le_sum (L : List Nat) (k : Nat) : endOf L k ≤ L.sum := by
  rcases Nat.le_total L.length (k + 1) with h | h
  · exact Nat.le_of_eq (endOf_last L k h)
  · have := endOf_mono L (j := k) (k := L.length) (by omega)
    rw [endOf_last L L.length (by omega)] at this
    exact this

/-- Moving `m` from the run `right` to the run `left`. -/
theorem endOf_transfer (L : List Nat) (left right l r m : Nat) (hlr : left < right) (hl : L[left]? = some l)
    (hr : L[right]? = some r) (hm : m ≤ r) (k : Nat) :
    endOf ((L.set left (l + m)).set right (r - m)) k =
      if left ≤ k ∧ k < right then endOf L k + m else endOf L k := by
  have h1 := sum_take_set L left (l + m) (k + 1) l hl
  have hr' : (L.set left (l + m))[right]? = some r := by
    rw [List.getElem?_set_ne (by omega)]; exact hr
  have h2 := sum_take_set (L.set left (l + m)) right (r - m) (k + 1) r hr'
  simp only [endOf]
  have hx : right < k + 1 → r ≤ ((L.set left (l + m)).take (k + 1)).sum := by
    intro hk
    have : endOf (L.set left (l + m)) right ≤ endOf (L.set left (l + m)) k := endOf_mono _ (by omega)
    have h3 := endOf_at (L.set left (l + m)) right r hr'
    simp only [endOf] at this h3
    omega
  by_cases c1 : left < k + 1
  · by_cases c2 : right < k + 1
    · have c3 : ¬ (left ≤ k ∧ k < right) := by omega
      have := hx c2
      simp only [c1, c2, c3, if_true, if_false] at h1 h2 ⊢
      omega
    · have c3 : left ≤ k ∧ k < right := by omega
      simp only [c1, c2, c3, if_true, if_false] at h1 h2 ⊢
      simp
      omega
  · have c2 : ¬ right < k + 1 := by omega
    have c3 : ¬ (left ≤ k ∧ k < right) := by omega
    simp only [c1, c2, c3, if_false] at h1 h2 ⊢
    omega

/-! ### The inner loop -/

theorem move_spec : ∀ (fuel : Nat) (L : List Nat) (left right endLeft t : Nat),
    left < right → right ≤ L.length → L.length - right < fuel →
    endLeft = endOf L left → endLeft + t ≤ L.sum →
    (∀ k, left < k → k < right → L[k]? = some 0) →
    ∃ L' right', move fuel L left right endLeft t = some (L', right', endLeft + t) ∧
      L'.length = L.length ∧ right ≤ right' ∧ right' ≤ L.length ∧
      (∀ k, left < k → k < right' → L'[k]? = some 0) ∧
      (∀ k, k < left → endOf L' k = endOf L k) ∧
      (∀ k, left ≤ k → endOf L' k = max (endLeft + t) (endOf L k)) := by
  intro fuel
  induction fuel with
  | zero => intro L left right endLeft t _ _ h; omega
  | succ fuel ih =>
    intro L left right endLeft t hlr hrn hf he hs hz
    have hconst : ∀ k, left ≤ k → k < right → endOf L k = endLeft := by
      intro k h1 h2
      rw [he]
      exact endOf_zeros L left k h1 (fun i h3 h4 => hz i h3 (by omega))
    by_cases hc : t > 0 ∧ right < L.length
    · have hl : L[left]? = some L[left] := List.getElem?_eq_getElem (by omega)
      have hr : L[right]? = some L[right] := List.getElem?_eq_getElem hc.2
      rw [move.eq_def]
      simp only [hc, hl, hr, Option.bind_some, and_self, if_true]
      generalize L[left] = l at hl
      generalize L[right] = r at hr
      have hge : ∀ k, right ≤ k → endLeft + r ≤ endOf L k := by
        intro k hk
        have e1 := endOf_mono L (j := right) (k := k) hk
        have e2 : endOf L right = endOf L (right - 1) + r := by
          have := endOf_succ L (right - 1) r (by rw [show right - 1 + 1 = right by omega]; exact hr)
          rw [show right - 1 + 1 = right by omega] at this
          exact this
        rw [hconst (right - 1) (by omega) (by omega)] at e2
        omega
      by_cases hcmp : t ≥ r
      · rw [if_pos hcmp]
        have htr := endOf_transfer L left right l r r hlr hl hr (Nat.le_refl _)
        rw [Nat.sub_self] at htr
        have hsum : ((L.set left (l + r)).set right 0).sum = L.sum := by
          have := htr L.length
          rw [if_neg (by omega), endOf_last _ _ (by simp), endOf_last L L.length (by omega)] at this
          exact this
        obtain ⟨L', right', e1, e2, e3, e4, e5, e6, e7⟩ :=
          ih ((L.set left (l + r)).set right 0) left (right + 1) (endLeft + r) (t - r)
            (by omega) (by simp; omega) (by simp; omega)
            (by rw [htr, if_pos (by omega), he]) (by rw [hsum]; omega)
            (by
              intro k h1 h2
              by_cases hk : k = right
              · subst hk
                rw [List.getElem?_set_self (by simp; omega)]
              · rw [List.getElem?_set_ne (by omega), List.getElem?_set_ne (by omega)]
                exact hz k h1 (by omega))
        refine ⟨L', right', ?_, by simpa using e2, by omega, by simpa using e4, e5, ?_, ?_⟩
        · rw [e1]; congr 3; omega
        · intro k hk
          rw [e6 k hk, htr, if_neg (by omega)]
        · intro k hk
          rw [e7 k hk, htr]
          by_cases h2 : k < right
          · rw [if_pos ⟨hk, h2⟩, hconst k hk h2]
            omega
          · rw [if_neg (by omega)]
            congr 1
            omega
      · rw [if_neg hcmp]
        have htr := endOf_transfer L left right l r t hlr hl hr (by omega)
        rw [move.eq_def]
        simp only [Nat.lt_irrefl, false_and, if_false, gt_iff_lt]
        refine ⟨_, right, rfl, by simp, Nat.le_refl _, hrn, ?_, ?_, ?_⟩
        · intro k h1 h2
          rw [List.getElem?_set_ne (by omega), List.getElem?_set_ne (by omega)]
          exact hz k h1 h2
        · intro k hk
          rw [htr, if_neg (by omega)]
        · intro k hk
          rw [htr]
          by_cases h2 : k < right
          · rw [if_pos ⟨hk, h2⟩, hconst k hk h2]
            omega
          · rw [if_neg (by omega)]
            have := hge k (by omega)
            omega
    · have ht : t = 0 := by
        rcases Nat.eq_zero_or_pos t with h | h
        · exact h
        · have hrl : right = L.length := by
            rcases Nat.lt_or_ge right L.length with h' | h'
            · exact absurd ⟨h, h'⟩ hc
            · omega
          have := endOf_last L (right - 1) (by omega)
          rw [hconst (right - 1) (by omega) (by omega)] at this
          omega
      subst ht
      rw [move.eq_def]
      simp only [hc, if_false]
      refine ⟨L, right, by simp, rfl, Nat.le_refl _, hrn, hz, fun _ _ => rfl, ?_⟩
      intro k hk
      have := endOf_mono L hk
      omega

/-! ### The outer loop -/

structure Inv (al : Char → Bool) (join : Text) (E : List Nat) (s : St) : Prop where
  len : s.lengths.length = E.length
  left_lt : s.left < E.length
  le : s.left ≤ s.right
  right_le : s.right ≤ E.length
  done : ∀ k, k < s.left → endOf s.lengths k = findBoundary al join (endOf E k)
  todo : ∀ k, s.left ≤ k → endOf s.lengths k = max (s.lengths.take s.left).sum (endOf E k)
  endLeft : s.endLeft = endOf s.lengths s.left
  zeros : ∀ k, s.left ≤ k → k + 1 < s.right → s.lengths[k]? = some 0
  same : s.changes = false → s.lengths = E
  moved : s.changes = true → ∃ k, k + 1 < E.length ∧ endOf E k < findBoundary al join (endOf E k)

theorem take_sum_done {L : List Nat} {left : Nat} (h : 0 < left) : (L.take left).sum = endOf L (left - 1) := by
  simp only [endOf]
  rw [show left - 1 + 1 = left by omega]

/-- `++left; endLeft += lengths[left]` when the run `left` is in its place. -/
theorem advance_inv {al : Char → Bool} {join : Text} {E : List Nat} {s : St}
    (hlen : s.lengths.length = E.length) (hl : s.left + 1 < E.length) (hle : s.left < s.right)
    (hr : s.right ≤ E.length)
    (hdone : ∀ k, k ≤ s.left → endOf s.lengths k = findBoundary al join (endOf E k))
    (htodo : ∀ k, s.left < k → endOf s.lengths k = max (endOf s.lengths s.left) (endOf E k))
    (he : s.endLeft = endOf s.lengths s.left)
    (hz : ∀ k, s.left < k → k + 1 < s.right → s.lengths[k]? = some 0)
    (hs : s.changes = false → s.lengths = E)
    (hm : s.changes = true → ∃ k, k + 1 < E.length ∧ endOf E k < findBoundary al join (endOf E k)) :
    ∃ s', advance s = some s' ∧ Inv al join E s' ∧ s'.left = s.left + 1 ∧ s'.right = s.right := by
  have hx : s.lengths[s.left + 1]? = some s.lengths[s.left + 1] := List.getElem?_eq_getElem (by omega)
  refine ⟨{ s with left := s.left + 1, endLeft := s.endLeft + s.lengths[s.left + 1] }, by simp [advance, hx], ?_,
    rfl, rfl⟩
  constructor
  · exact hlen
  · exact hl
  · exact hle
  · exact hr
  · intro k hk
    exact hdone k (Nat.lt_succ_iff.1 hk)
  · intro k hk
    exact htodo k hk
  · show s.endLeft + _ = endOf s.lengths (s.left + 1)
    rw [he, endOf_succ _ _ _ hx]
  · intro k hk h2
    exact hz k hk h2
  · exact hs
  · exact hm

theorem round_inv {al : Char → Bool} (hlet : Letters al) {join : Text} {E : List Nat} (hsum : join.length = E.sum)
    {s : St} (h : Inv al join E s) (hr : s.right < E.length) :
    ∃ s', round al join s = some s' ∧ Inv al join E s' ∧ s.left + s.right < s'.left + s'.right := by
  obtain ⟨hlen, hl, hle, hrn, hdone, htodo, hend, hz, hs, hmvd⟩ := h
  by_cases heq : s.left = s.right
  · refine ⟨{ s with right := s.right + 1 }, by simp [round, heq], ?_, by simp⟩
    constructor
    · exact hlen
    · exact hl
    · show s.left ≤ s.right + 1; omega
    · show s.right + 1 ≤ _; omega
    · exact hdone
    · exact htodo
    · exact hend
    · intro k hk h2
      have h3 : s.left ≤ k := hk
      have h4 : k + 1 < s.right + 1 := h2
      omega
    · exact hs
    · exact hmvd
  · have hx : s.lengths[s.left]? = some s.lengths[s.left] := List.getElem?_eq_getElem (by omega)
    have hat := endOf_at _ _ _ hx
    have hF : ∀ c, endOf E c ≤ (s.lengths.take s.left).sum → s.left ≤ c →
        (s.lengths.take s.left).sum = findBoundary al join (endOf E c) := by
      intro c hc hlc
      by_cases h0 : s.left = 0
      · rw [h0] at hc ⊢
        have : endOf E c = 0 := by simpa using hc
        rw [this, findBoundary_zero]; simp
      · rw [take_sum_done (by omega), hdone _ (by omega)] at hc ⊢
        exact (findBoundary_between hlet join _ _ (endOf_mono E (by omega))
          (by rw [hsum]; exact endOf_le_sum E _) hc).symm
    have hlast := htodo s.left (Nat.le_refl _)
    by_cases hzero : s.lengths[s.left] = 0
    · rw [hzero] at hx hat
      obtain ⟨s', e1, e2, e3, e4⟩ := advance_inv (al := al) (join := join) (E := E) (s := s) hlen (by omega) (by omega) hrn
        (by
          intro k hk
          by_cases h2 : k = s.left
          · subst h2
            rw [hat, Nat.add_zero]
            exact hF _ (by omega) (Nat.le_refl _)
          · exact hdone k (by omega))
        (by
          intro k hk
          rw [htodo k (by omega)]
          congr 1
          omega)
        hend (fun k h1 h2 => hz k (by omega) h2) hs hmvd
      refine ⟨s', ?_, e2, by omega⟩
      simp only [round, heq, if_false, hx, Option.bind_some, if_true]
      exact e1
    · have hendE : endOf s.lengths s.left = endOf E s.left := by omega
      have hge := findBoundary_ge hlet join s.endLeft
      have hle2 := findBoundary_le hlet join s.endLeft (by rw [hend, hendE, hsum]; exact endOf_le_sum E _)
      have hsumL : s.lengths.sum = E.sum := by
        have h1 := htodo E.length (by omega)
        rw [endOf_last _ _ (by omega), endOf_last E _ (by omega)] at h1
        have h2 : (s.lengths.take s.left).sum ≤ E.sum := by
          rcases Nat.eq_zero_or_pos s.left with h0 | h0
          · rw [h0]; simp
          · rw [take_sum_done h0, hdone _ (by omega), ← hsum]
            exact findBoundary_le hlet join _ (by rw [hsum]; exact endOf_le_sum E _)
        omega
      by_cases hmv : findBoundary al join s.endLeft - s.endLeft > 0
      · obtain ⟨L', right', m1, m2, m3, m4, m5, m6, m7⟩ :=
          move_spec (s.lengths.length + 1) s.lengths s.left s.right s.endLeft
            (findBoundary al join s.endLeft - s.endLeft) (by omega) (by omega) (by omega) hend
            (by rw [hsumL, ← hsum]; omega)
            (by
              intro k h1 h2
              -- between `left` and `right` there is nothing, or `left` itself would be empty
              rcases Nat.lt_or_ge (s.left + 1) s.right with h3 | h3
              · have := hz s.left (Nat.le_refl _) h3
                rw [hx] at this
                exact absurd (Option.some.inj this) hzero
              · omega)
        have hfb : s.endLeft + (findBoundary al join s.endLeft - s.endLeft) = findBoundary al join s.endLeft := by
          omega
        rw [hfb] at m1 m7
        have hL' : endOf L' s.left = findBoundary al join (endOf E s.left) := by
          rw [m7 _ (Nat.le_refl _), hend, hendE]
          rw [hend, hendE] at hge
          omega
        obtain ⟨s', e1, e2, e3, e4⟩ := advance_inv (al := al) (join := join) (E := E)
          (s := { lengths := L', left := s.left, right := right', endLeft := findBoundary al join s.endLeft,
                  changes := true })
          (by show L'.length = _; omega) (by show s.left + 1 < _; omega) (by show s.left < right'; omega)
          (by show right' ≤ _; omega)
          (by
            intro k hk
            show endOf L' k = _
            have hk' : k ≤ s.left := hk
            by_cases h2 : k = s.left
            · subst h2; exact hL'
            · rw [m6 k (by omega)]; exact hdone k (by omega))
          (by
            intro k hk
            have hk' : s.left < k := hk
            show endOf L' k = max (endOf L' s.left) _
            rw [m7 k (by omega), htodo k (by omega), hL', hend, hendE]
            have hF' : (s.lengths.take s.left).sum ≤ findBoundary al join (endOf E s.left) := by
              rw [hend, hendE] at hge
              omega
            omega)
          (by
            show _ = endOf L' s.left
            rw [hL', hend, hendE])
          (fun k h1 h2 => m5 k h1 (by have : k + 1 < right' := h2; omega)) (by simp)
          (fun _ => ⟨s.left, by omega, by rw [← hendE, ← hend]; omega⟩)
        refine ⟨s', ?_, e2, ?_⟩
        · simp only [round, heq, if_false, hx, Option.bind_some, hzero, hmv, if_true, m1]
          exact e1
        · have e3' : s'.left = s.left + 1 := e3
          have e4' : s'.right = right' := e4
          omega
      · have hfb : findBoundary al join (endOf E s.left) = endOf E s.left := by
          rw [← hendE, ← hend]; omega
        obtain ⟨s', e1, e2, e3, e4⟩ := advance_inv (al := al) (join := join) (E := E) (s := s) hlen (by omega) (by omega) hrn
          (by
            intro k hk
            by_cases h2 : k = s.left
            · subst h2; rw [hfb]; exact hendE
            · exact hdone k (by omega))
          (by
            intro k hk
            rw [htodo k (by omega), hendE]
            have := endOf_mono E (Nat.le_of_lt hk)
            omega)
          hend (fun k h1 h2 => hz k (by omega) h2) hs hmvd
        refine ⟨s', ?_, e2, by omega⟩
        simp only [round, heq, if_false, hx, Option.bind_some, hzero, hmv]
        exact e1

theorem loop_inv {al : Char → Bool} (hlet : Letters al) {join : Text} {E : List Nat} (hsum : join.length = E.sum) :
    ∀ (fuel : Nat) (s : St), Inv al join E s → 2 * E.length ≤ fuel + s.left + s.right →
      ∃ s', loop al join fuel s = some s' ∧ Inv al join E s' ∧ s'.right = E.length := by
  intro fuel
  induction fuel with
  | zero =>
    intro s h hf
    have h1 := h.left_lt
    have h2 := h.right_le
    omega
  | succ fuel ih =>
    intro s h hf
    by_cases hr : s.right < E.length
    · obtain ⟨s1, e1, e2, e3⟩ := round_inv hlet hsum h hr
      obtain ⟨s', f1, f2, f3⟩ := ih s1 e2 (by omega)
      refine ⟨s', ?_, f2, f3⟩
      rw [loop, h.len, if_pos hr, e1]
      exact f1
    · refine ⟨s, ?_, h, by have := h.right_le; omega⟩
      rw [loop, h.len, if_neg hr]

/-- What `adjust` does: the new lengths (the old ones if there is no change) put the end of every run but
    the last at the boundary found from its old end. -/
theorem adjust_spec {al : Char → Bool} (hlet : Letters al) {join : Text} {E : List Nat} (hsum : join.length = E.sum)
    (hE : E ≠ []) :
    ∃ r, adjust al join E = some r ∧ (r.getD E).length = E.length ∧ (r.getD E).sum = E.sum ∧
      (∀ k, k + 1 < E.length → endOf (r.getD E) k = findBoundary al join (endOf E k)) ∧
      (r ≠ none → ∃ k, k + 1 < E.length ∧ endOf E k < findBoundary al join (endOf E k)) := by
  have hpos : 0 < E.length := List.length_pos_iff.2 hE
  by_cases h1 : E.length = 1
  · exact ⟨none, by simp [adjust, h1], rfl, rfl, fun k hk => by omega, fun h => absurd rfl h⟩
  · have h0 : E[0]? = some E[0] := List.getElem?_eq_getElem hpos
    obtain ⟨s, e1, e2, e3⟩ := loop_inv hlet hsum (2 * E.length)
      { lengths := E, left := 0, right := 1, endLeft := E[0], changes := false }
      ⟨rfl, hpos, by show 0 ≤ 1; omega, by show 1 ≤ _; omega, fun k hk => absurd hk (Nat.not_lt_zero k),
        fun k _ => by simp,
        by
          show E[0] = endOf E 0
          rw [endOf_at E 0 _ h0]; simp,
        fun k _ h2 => by
          have : k + 1 < 1 := h2
          omega,
        fun _ => rfl, fun h => absurd h (by simp)⟩ (by omega)
    refine ⟨if s.changes then some s.lengths else none, by simp [adjust, h1, h0, e1], ?_⟩
    have hget : (if s.changes then some s.lengths else none).getD E = s.lengths := by
      cases hc : s.changes with
      | true => simp
      | false => simp [e2.same hc]
    rw [hget]
    have hbnd : (s.lengths.take s.left).sum ≤ E.sum := by
      rcases Nat.eq_zero_or_pos s.left with h0 | h0
      · rw [h0]; simp
      · rw [take_sum_done h0, e2.done _ (by omega), ← hsum]
        exact findBoundary_le hlet join _ (by rw [hsum]; exact endOf_le_sum E _)
    refine ⟨e2.len, ?_, ?_, ?_⟩
    rotate_left
    rotate_left
    · intro hc
      apply e2.moved
      cases h : s.changes with
      | true => rfl
      | false => rw [h] at hc; exact absurd rfl hc
    · have h1 := e2.todo E.length (by have := e2.left_lt; omega)
      rw [endOf_last _ _ (by have := e2.len; omega), endOf_last E _ (by omega)] at h1
      omega
    · intro k hk
      rcases Nat.lt_or_ge k s.left with hlt | hge
      · exact e2.done k hlt
      · have hz : ∀ i, s.left ≤ i → i ≤ k → s.lengths[i]? = some 0 :=
          fun i h1 h2 => e2.zeros i h1 (by omega)
        have hl0 := endOf_at _ _ _ (hz s.left (Nat.le_refl _) hge)
        have hc := endOf_zeros s.lengths s.left k hge (fun i h1 h2 => hz i (by omega) h2)
        have ht := e2.todo k hge
        rw [hc, hl0, Nat.add_zero] at ht ⊢
        rcases Nat.eq_zero_or_pos s.left with h0 | h0
        · rw [h0] at ht ⊢
          have : endOf E k = 0 := by simp at ht; omega
          rw [this, findBoundary_zero]; simp
        · rw [take_sum_done h0, e2.done _ (by omega)] at ht ⊢
          exact (findBoundary_between hlet join _ _ (endOf_mono E (by omega))
            (by rw [hsum]; exact endOf_le_sum E _) (by omega)).symm

end Verif.Docx
