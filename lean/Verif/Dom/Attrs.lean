import Verif.Dom.Sim
/-! # Loops over attributes find what is looked up by name -/
namespace Verif.Dom
open Verif.Transfer

theorem attrLoop_ok (ks : List Text) : ∀ (as : List (Text × Text)) (m : Text → Option Text),
    (as.map (·.1)).Nodup → (∀ p ∈ as, m p.1 = none) →
    ∃ m', attrLoop ks as m = .ok m' ∧ ∀ k ∈ ks, m' k = match look as k with | some v => some v | none => m k
  | [], m, _, _ => ⟨m, rfl, fun k _ => by simp [look]⟩
  | (n, v) :: as, m, hn, hm => by
    have hn' : n ∉ as.map (·.1) ∧ (as.map (·.1)).Nodup := List.nodup_cons.1 hn
    simp only [attrLoop]
    by_cases hk : n ∈ ks
    · rw [if_pos hk]
      obtain ⟨m', h1, h2⟩ := attrLoop_ok ks as (fun x => if x = n then some v else m x) hn'.2
        (fun p hp => by
          have : p.1 ≠ n := fun h => hn'.1 (List.mem_map.2 ⟨p, hp, h⟩)
          simp only [if_neg this]; exact hm p (List.mem_cons_of_mem _ hp))
      refine ⟨m', h1, fun k hkk => ?_⟩
      rw [h2 k hkk]
      by_cases hkn : n = k
      · subst hkn
        have : look as n = none := by
          simp only [look, Option.map_eq_none_iff, List.find?_eq_none, decide_eq_true_eq]
          intro p hp h
          exact hn'.1 (List.mem_map.2 ⟨p, hp, h⟩)
        have h3 : look ((n, v) :: as) n = some v := by simp [look]
        rw [this, h3]; simp
      · have : look ((n, v) :: as) k = look as k := by simp [look, hkn]
        rw [this]
        have hkn' : ¬ k = n := fun h => hkn h.symm
        cases look as k <;> simp [hkn']
    · rw [if_neg hk]
      obtain ⟨m', h1, h2⟩ := attrLoop_ok ks as m hn'.2
        (fun p hp => hm p (List.mem_cons_of_mem _ hp))
      refine ⟨m', h1, fun k hkk => ?_⟩
      rw [h2 k hkk]
      have hkn : ¬ n = k := fun h => hk (h ▸ hkk)
      have : look ((n, v) :: as) k = look as k := by simp [look, hkn]
      rw [this]

/-- The loop finds each attribute. -/
theorem attrLoop_distinct (ks : List Text) {as : List (Text × Text)} (h : distinct as = true) :
    ∃ m, attrLoop ks as (fun _ => none) = .ok m ∧ ∀ k ∈ ks, m k = look as k := by
  simp only [distinct, decide_eq_true_eq] at h
  obtain ⟨m, h1, h2⟩ := attrLoop_ok ks as (fun _ => none) h (fun _ _ => rfl)
  refine ⟨m, h1, fun k hk => ?_⟩
  rw [h2 k hk]
  cases look as k <;> rfl

theorem onlyAttr_eq {as : List (Text × Text)} {k v : Text} (h : onlyAttr as k = some v) : as = [(k, v)] := by
  simp only [onlyAttr] at h
  split at h
  · split at h
    · rename_i hc
      cases h; rw [hc]
    · cases h
  · cases h

theorem firstAttr_only {as : List (Text × Text)} {k v : Text} (h : onlyAttr as k = some v) : firstAttr as = .ok v := by
  cases onlyAttr_eq h
  rfl

/-- In a document an element is known by its address. -/
theorem Unique.eq {D : List (XNode × Role)} (h : Unique D) {p q : XNode × Role} (hp : p ∈ D) (hq : q ∈ D) (he : p.1.id = q.1.id) : p = q := by
  induction D with
  | nil => cases hp
  | cons a D ih =>
    have h' := List.nodup_cons.1 (show ((a :: D).map fun p => p.1.id).Nodup from h)
    rcases List.mem_cons.1 hp with h1 | h1 <;> rcases List.mem_cons.1 hq with h2 | h2
    · rw [h1, h2]
    · exact (h'.1 (List.mem_map.2 ⟨q, h2, by rw [← he, h1]⟩)).elim
    · exact (h'.1 (List.mem_map.2 ⟨p, h1, by rw [he, h2]⟩)).elim
    · exact ih h'.2 h1 h2

end Verif.Dom
