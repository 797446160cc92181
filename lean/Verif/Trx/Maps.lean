import Verif.Trx.Sections
/-!
# Maps, and the tables of the reader
-/
namespace Verif.Trx
open Verif.Pattern (Trans RSt CatItem)

variable {α : Type}

def keys (m : List (Text × α)) : List Text := m.map (·.1)

theorem find_nil (k : Text) : find ([] : List (Text × α)) k = none := rfl

theorem find_cons (e : Text × α) (m : List (Text × α)) (k : Text) : find (e :: m) k = if e.1 = k then some e.2 else find m k := by
  by_cases h : e.1 = k <;> simp [find, h]

theorem find_append (m m' : List (Text × α)) (k : Text) : find (m ++ m') k = (find m k).or (find m' k) := by
  induction m with
  | nil => simp [find_nil]
  | cons e m ih => rw [List.cons_append, find_cons, find_cons]; split <;> simp [ih]

theorem find_map_other (m : List (Text × α)) (k : Text) (v : α) (j : Text) :
    find (m.map fun e => if e.1 = k then (k, v) else e) j = if j = k then (if (find m k).isSome then some v else none) else find m j := by
  induction m with
  | nil => simp [find_nil]
  | cons e m ih =>
    rw [List.map_cons, find_cons, ih, find_cons, find_cons]
    by_cases hk : e.1 = k
    · by_cases hj : j = k
      · simp [hk, hj]
      · simp [hk, hj, Ne.symm hj]
    · by_cases hj : j = k
      · subst hj; simp [hk]
      · simp [hk, hj]

theorem find_put (m : List (Text × α)) (k : Text) (v : α) (j : Text) : find (put m k v) j = if j = k then some v else find m j := by
  simp only [put]
  split
  · rename_i h; rw [find_map_other]; simp [h]
  · rename_i h
    rw [find_append, find_cons, find_nil]
    by_cases hj : j = k
    · subst hj
      cases hf : find m j with
      | none => simp
      | some x => rw [hf] at h; simp at h
    · have : (if k = j then some v else none) = none := if_neg (Ne.symm hj)
      simp [hj, this]

theorem find_isSome (m : List (Text × α)) (k : Text) : (find m k).isSome = true ↔ k ∈ keys m := by
  induction m with
  | nil => simp [find_nil, keys]
  | cons e m ih =>
    rw [find_cons]
    by_cases h : e.1 = k
    · simp [h, keys]
    · simp only [if_neg h, ih, keys, List.map_cons, List.mem_cons]
      exact ⟨.inr, fun e => e.resolve_left (Ne.symm h)⟩

theorem keys_put (m : List (Text × α)) (k : Text) (v : α) : keys (put m k v) = if k ∈ keys m then keys m else keys m ++ [k] := by
  simp only [put]
  by_cases h : (find m k).isSome = true
  · rw [if_pos h, if_pos ((find_isSome m k).1 h)]
    simp only [keys, List.map_map]
    apply List.map_congr_left
    intro e _
    by_cases he : e.1 = k <;> simp [he]
  · rw [if_neg h, if_neg fun e => h ((find_isSome m k).2 e)]
    simp [keys]

theorem nodup_put {m : List (Text × α)} (h : (keys m).Nodup) (k : Text) (v : α) : (keys (put m k v)).Nodup := by
  rw [keys_put]
  split
  · exact h
  · rename_i hk
    rw [List.nodup_append]
    exact ⟨h, by simp, fun a ha b hb e => by simp at hb; exact hk (hb ▸ e ▸ ha)⟩

theorem mem_find {m : List (Text × α)} (h : (keys m).Nodup) (k : Text) (v : α) : (k, v) ∈ m ↔ find m k = some v := by
  induction m with
  | nil => simp [find_nil]
  | cons e m ih =>
    simp only [keys, List.map_cons, List.nodup_cons] at h
    rw [find_cons, List.mem_cons, ih h.2]
    by_cases he : e.1 = k
    · rw [if_pos he]
      constructor
      · rintro (rfl | hf)
        · rfl
        · exact absurd (he ▸ (find_isSome m k).1 (by rw [hf]; rfl)) h.1
      · intro e'; left; cases e'; cases e; simp_all
    · rw [if_neg he]
      constructor
      · rintro (rfl | hf)
        · exact absurd rfl he
        · exact hf
      · exact .inr

theorem last_nil (k : Text) (v : α) : ¬ Last ([] : List (Text × α)) k v := by
  rintro ⟨pre, post, h, -⟩
  simp at h

theorem last_snoc (l : List (Text × α)) (e : Text × α) (k : Text) (v : α) : Last (l ++ [e]) k v ↔ if e.1 = k then e.2 = v else Last l k v := by
  constructor
  · rintro ⟨pre, post, h, hp⟩
    rcases List.eq_nil_or_concat post with rfl | ⟨post, b, rfl⟩
    · have := List.append_inj' h rfl
      obtain ⟨-, h2⟩ := this
      simp only [List.cons.injEq, and_true] at h2
      subst h2; simp
    · have h' : l ++ [e] = (pre ++ (k, v) :: post) ++ [b] := by rw [h]; simp
      obtain ⟨h1, h2⟩ := List.append_inj' h' rfl
      simp only [List.cons.injEq, and_true] at h2
      subst h2
      rw [if_neg (hp e (by simp))]
      exact ⟨pre, post, h1, fun e he => hp e (by simp [he])⟩
  · intro h
    by_cases hk : e.1 = k
    · rw [if_pos hk] at h
      refine ⟨l, [], ?_, by simp⟩
      cases e; simp_all
    · rw [if_neg hk] at h
      obtain ⟨pre, post, rfl, hp⟩ := h
      refine ⟨pre, post ++ [e], by simp, fun x hx => ?_⟩
      rcases List.mem_append.1 hx with hx | hx
      · exact hp x hx
      · simp only [List.mem_singleton] at hx; exact hx ▸ hk

theorem last_unique (l : List (Text × α)) (k : Text) {v w : α} (h1 : Last l k v) (h2 : Last l k w) : v = w := by
  rcases List.eq_nil_or_concat l with rfl | ⟨l, e, rfl⟩
  · exact absurd h1 (last_nil k v)
  · induction hl : l.length generalizing l e with
    | zero =>
      obtain rfl := List.length_eq_zero_iff.1 hl
      rw [List.concat_eq_append, last_snoc] at h1 h2
      split at h1
      · rename_i h; rw [if_pos h] at h2; exact h1.symm.trans h2
      · exact absurd h1 (last_nil k v)
    | succ n ih =>
      rw [List.concat_eq_append, last_snoc] at h1 h2
      split at h1
      · rename_i h; rw [if_pos h] at h2; exact h1.symm.trans h2
      · rename_i h; rw [if_neg h] at h2
        rcases List.eq_nil_or_concat l with rfl | ⟨l', e', rfl⟩
        · simp at hl
        · exact ih l' e' h1 h2 (by simpa using hl)

theorem find_fold (l m : List (Text × α)) (k : Text) (v : α) :
    find (l.foldl (fun m c => put m c.1 c.2) m) k = some v ↔ Last l k v ∨ (k ∉ l.map (·.1) ∧ find m k = some v) := by
  have : ∀ l' : List (Text × α), find (l'.reverse.foldl (fun m c => put m c.1 c.2) m) k = some v ↔ Last l'.reverse k v ∨ (k ∉ l'.reverse.map (·.1) ∧ find m k = some v) := by
    intro l'
    induction l' with
    | nil => simp [last_nil]
    | cons e l' ih =>
      rw [List.reverse_cons, List.foldl_append, last_snoc]
      simp only [List.foldl_cons, List.foldl_nil, find_put]
      by_cases he : e.1 = k
      · simp [he]
      · rw [if_neg (Ne.symm he), if_neg he, ih]
        simp only [List.map_append, List.map_cons, List.map_nil, List.mem_append, List.mem_singleton, not_or]
        constructor
        · rintro (h | h)
          · exact .inl h
          · exact .inr ⟨⟨h.1, Ne.symm he⟩, h.2⟩
        · rintro (h | h)
          · exact .inl h
          · exact .inr ⟨h.1.1, h.2⟩
  have := this l.reverse
  rwa [List.reverse_reverse] at this

theorem nodup_fold (l m : List (Text × α)) (h : (keys m).Nodup) : (keys (l.foldl (fun m c => put m c.1 c.2) m)).Nodup := by
  induction l generalizing m with
  | nil => exact h
  | cons e l ih => exact ih _ (nodup_put h _ _)

/-- Entering entries with different keys, none of which is there, is adding them at the end. -/
theorem fold_append (l m : List (Text × α)) (h : (keys (m ++ l)).Nodup) : l.foldl (fun m c => put m c.1 c.2) m = m ++ l := by
  induction l generalizing m with
  | nil => simp
  | cons e l ih =>
    have hne : ¬ (find m e.1).isSome = true := by
      rw [find_isSome]
      intro hm
      simp only [keys, List.map_append, List.map_cons] at h
      rw [List.nodup_append] at h
      exact h.2.2 _ hm _ (List.mem_cons_self ..) rfl
    have hp : put m e.1 e.2 = m ++ [e] := by simp [put, hne]
    rw [List.foldl_cons, hp, ih _ (by simpa using h)]
    simp

/-! ### Lists -/

theorem mem_add (s : List Text) (v w : Text) : w ∈ add s v ↔ w = v ∨ w ∈ s := by
  simp only [add]
  split
  · rename_i h
    exact ⟨.inr, fun e => e.elim (fun e => e ▸ h) id⟩
  · simp [or_comm]

theorem mem_listAdd (m : List (Text × List Text)) (k v j w : Text) : w ∈ (find (listAdd m k v) j).getD [] ↔ (j = k ∧ w = v) ∨ w ∈ (find m j).getD [] := by
  simp only [listAdd, find_put]
  by_cases h : j = k
  · subst h; simp [mem_add]
  · simp [h]

theorem mem_listFold (l : List Text) (g : Text → Text) (m : List (Text × List Text)) (k j w : Text) :
    w ∈ (find (l.foldl (fun m v => listAdd m k (g v)) m) j).getD [] ↔ (j = k ∧ ∃ v ∈ l, w = g v) ∨ w ∈ (find m j).getD [] := by
  induction l generalizing m with
  | nil => simp
  | cons v l ih =>
    rw [List.foldl_cons, ih, mem_listAdd]
    constructor
    · rintro (⟨h, v', hv, rfl⟩ | ⟨h, rfl⟩ | h)
      · exact .inl ⟨h, v', by simp [hv], rfl⟩
      · exact .inl ⟨h, v, by simp, rfl⟩
      · exact .inr h
    · rintro (⟨h, v', hv, rfl⟩ | h)
      · rcases List.mem_cons.1 hv with rfl | hv
        · exact .inr (.inl ⟨h, rfl⟩)
        · exact .inl ⟨h, v', hv, rfl⟩
      · exact .inr (.inr h)

theorem mem_listsFold (ls : List (Text × List Text)) (g : Text → Text) (m : List (Text × List Text)) (j w : Text) :
    w ∈ (find (ls.foldl (fun m c => c.2.foldl (fun m v => listAdd m c.1 (g v)) m) m) j).getD [] ↔
      (∃ l, (j, l) ∈ ls ∧ ∃ v ∈ l, w = g v) ∨ w ∈ (find m j).getD [] := by
  induction ls generalizing m with
  | nil => simp
  | cons c ls ih =>
    rw [List.foldl_cons, ih, mem_listFold]
    constructor
    · rintro (⟨l, hl, v, hv, rfl⟩ | ⟨h, v, hv, rfl⟩ | h)
      · exact .inl ⟨l, by simp [hl], v, hv, rfl⟩
      · exact .inl ⟨c.2, by simp [h], v, hv, rfl⟩
      · exact .inr h
    · rintro (⟨l, hl, v, hv, rfl⟩ | h)
      · rcases List.mem_cons.1 hl with hl | hl
        · refine .inr (.inl ⟨?_, v, ?_, rfl⟩)
          · rw [← hl]
          · rw [← hl]; exact hv
        · exact .inl ⟨l, hl, v, hv, rfl⟩
      · exact .inr (.inr h)

theorem nodup_listsFold (ls : List (Text × List Text)) (g : Text → Text) (m : List (Text × List Text)) (h : (keys m).Nodup) :
    (keys (ls.foldl (fun m c => c.2.foldl (fun m v => listAdd m c.1 (g v)) m) m)).Nodup := by
  induction ls generalizing m with
  | nil => exact h
  | cons c ls ih =>
    refine ih _ ?_
    clear ih
    show (keys (c.2.foldl (fun m v => listAdd m c.1 (g v)) m)).Nodup
    generalize c.2 = l
    induction l generalizing m with
    | nil => exact h
    | cons v l ih => exact ih _ (nodup_put h _ _)

end Verif.Trx
