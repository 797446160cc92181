import Verif.Tagger.Classes
/-!
# C24 (table of ambiguity classes) and C25 (replacement of unknown ambiguity classes)
-/
namespace Verif.Tagger
namespace Coll

/-- The link between the two fields that every collection built by insertions has. -/
structure WF (c : Coll) : Prop where
  len : c.index.length = c.element.length
  nodup : c.element.Nodup
  iff : ∀ t i, c.find t = some i ↔ c.element[i]? = some t

theorem WF.empty : WF {} := ⟨rfl, List.nodup_nil, by intro t i; simp [find]⟩

theorem find_cons (t u : Tags) (n : Nat) (c : Coll) (e : List Tags) :
    find { index := (u, n) :: c.index, element := e } t = if u = t then some n else c.find t := by
  unfold find
  by_cases h : u = t
  · simp [List.find?, h]
  · simp [List.find?, h]

theorem WF.add {c : Coll} (h : WF c) (t : Tags) : WF (c.add t).1 := by
  unfold Coll.add
  cases hf : c.find t with
  | some i => exact h
  | none =>
    have hnot : t ∉ c.element := by
      intro hm
      obtain ⟨i, hi⟩ := List.mem_iff_getElem?.1 hm
      have := (h.iff t i).2 hi
      simp [hf] at this
    refine ⟨by simp [h.len], ?_, ?_⟩
    · refine List.nodup_append.2 ⟨h.nodup, by simp, ?_⟩
      intro a ha b hb
      rw [List.mem_singleton.1 hb]
      rintro rfl
      exact hnot ha
    · intro u i
      rw [find_cons]
      by_cases hu : t = u
      · subst hu
        rw [if_pos rfl]
        constructor
        · intro hi
          cases hi
          simp [h.len]
        · intro hi
          rw [List.getElem?_append] at hi
          split at hi
          · rename_i hlt
            exact absurd (List.mem_of_getElem? hi) hnot
          · rename_i hge
            have : i - c.element.length = 0 := by
              apply Classical.byContradiction
              intro hne
              rw [List.getElem?_eq_none (by simp; omega)] at hi
              cases hi
            rw [h.len]
            congr 1
            omega
      · rw [if_neg hu, h.iff]
        rw [List.getElem?_append]
        split
        · rfl
        · rename_i hge
          constructor
          · intro hi
            rw [List.getElem?_eq_none (by omega)] at hi
            cases hi
          · intro hi
            exfalso
            have hm := List.mem_of_getElem? hi
            exact hu (List.mem_singleton.1 hm).symm

theorem WF.foldl {c : Coll} (h : WF c) (ts : List Tags) : WF (ts.foldl (fun c t => (c.add t).1) c) := by
  induction ts generalizing c with
  | nil => exact h
  | cons t r ih => exact ih (h.add t)

theorem WF.ofList (ts : List Tags) : WF (Coll.ofList ts) := WF.empty.foldl ts

theorem WF.ofFind {c : Coll} (h : WF c) (t : Tags) : c.find t = none ↔ t ∉ c.element := by
  constructor
  · intro hf hm
    obtain ⟨i, hi⟩ := List.mem_iff_getElem?.1 hm
    rw [(h.iff t i).2 hi] at hf
    cases hf
  · intro hm
    cases hf : c.find t with
    | none => rfl
    | some i => exact absurd (List.mem_of_getElem? ((h.iff t i).1 hf)) hm

theorem add_element (c : Coll) (h : WF c) (t : Tags) :
    (c.add t).1.element = if t ∈ c.element then c.element else c.element ++ [t] := by
  unfold Coll.add
  cases hf : c.find t with
  | some i => rw [if_pos (List.mem_of_getElem? ((h.iff t i).1 hf))]
  | none => rw [if_neg ((h.ofFind t).1 hf)]

theorem mem_foldl {c : Coll} (h : WF c) (ts : List Tags) (u : Tags) :
    u ∈ (ts.foldl (fun c t => (c.add t).1) c).element ↔ u ∈ c.element ∨ u ∈ ts := by
  induction ts generalizing c with
  | nil => simp
  | cons t r ih =>
    rw [List.foldl_cons, ih (h.add t), add_element c h]
    by_cases ht : t ∈ c.element
    · rw [if_pos ht]
      simp only [List.mem_cons]
      constructor
      · rintro (h1 | h1) <;> simp [h1]
      · rintro (h1 | rfl | h1)
        · exact .inl h1
        · exact .inl ht
        · exact .inr h1
    · rw [if_neg ht]
      simp [or_assoc]

/-! ## writing and reading -/

theorem mem_sinsert (x y : Nat) (s : Tags) : y ∈ sinsert x s ↔ y = x ∨ y ∈ s := by
  induction s with
  | nil => simp [sinsert]
  | cons z r ih =>
    unfold sinsert
    split
    · simp
    · split
      · rename_i h; subst h; simp
      · simp [ih]
        constructor <;> rintro (h | h | h) <;> simp [h]

theorem sinsert_append (x : Nat) (s : Tags) (h : ∀ y ∈ s, y < x) : sinsert x s = s ++ [x] := by
  induction s with
  | nil => rfl
  | cons z r ih =>
    have hz : z < x := h z (List.mem_cons_self ..)
    unfold sinsert
    rw [if_neg (by omega), if_neg (by omega), ih (fun y hy => h y (List.mem_cons_of_mem _ hy))]
    rfl

theorem readSet_append (s acc : Tags) (r : List Nat) (h : Sorted (acc ++ s)) :
    readSet s.length acc (s ++ r) = some (acc ++ s, r) := by
  induction s generalizing acc with
  | nil => simp [readSet]
  | cons x s ih =>
    have hx : ∀ y ∈ acc, y < x := fun y hy =>
      (List.pairwise_append.1 h).2.2 y hy x (List.mem_cons_self ..)
    simp only [List.length_cons, List.cons_append, readSet]
    rw [sinsert_append x acc hx, ih _ (by simpa using h)]
    simp

theorem readSets_append (es : List Tags) (c : Coll) (r : List Nat) (h : ∀ e ∈ es, Sorted e) :
    readSets es.length c (es.flatMap (fun s => s.length :: s) ++ r) =
      some (es.foldl (fun c t => (c.add t).1) c, r) := by
  induction es generalizing c with
  | nil => simp [readSets]
  | cons e es ih =>
    simp only [List.length_cons, List.flatMap_cons, List.cons_append, List.append_assoc, readSets]
    have := readSet_append e [] (es.flatMap (fun s => s.length :: s) ++ r)
      (by simpa using h e (List.mem_cons_self ..))
    rw [this]
    simp only [List.nil_append]
    rw [ih _ (fun x hx => h x (List.mem_cons_of_mem _ hx))]
    rfl

/-- `Canon c`: the map lists the keys in reverse order of insertion, which is what insertions produce. -/
def Canon (c : Coll) : Prop := c.index = (c.element.zipIdx).reverse

theorem Canon.add {c : Coll} (h : Canon c) (t : Tags) : Canon (c.add t).1 := by
  unfold Coll.add
  cases c.find t with
  | some i => exact h
  | none =>
    unfold Canon at *
    simp only [List.zipIdx_append, List.reverse_append, h]
    simp

theorem Canon.foldl {c : Coll} (h : Canon c) (ts : List Tags) :
    Canon (ts.foldl (fun c t => (c.add t).1) c) := by
  induction ts generalizing c with
  | nil => exact h
  | cons t r ih => exact ih (h.add t)

theorem ext_element {c d : Coll} (hc : Canon c) (hd : Canon d) (h : c.element = d.element) : c = d := by
  cases c; cases d
  simp only [Canon] at *
  subst h
  rw [hc, hd]

theorem foldl_element (ts : List Tags) {c : Coll} (h : WF c) (hn : (c.element ++ ts).Nodup) :
    (ts.foldl (fun c t => (c.add t).1) c).element = c.element ++ ts := by
  induction ts generalizing c with
  | nil => simp
  | cons t r ih =>
    have hnm : t ∉ c.element := by
      intro hm
      exact (List.nodup_append.1 hn).2.2 t hm t (List.mem_cons_self ..) rfl
    have he : (c.add t).1.element = c.element ++ [t] := by rw [add_element c h, if_neg hnm]
    rw [List.foldl_cons, ih (h.add t) (by rw [he]; simpa using hn), he]
    simp

/-- `Coll.ofList` of the elements of a collection rebuilds it. -/
theorem ofList_element (ts : List Tags) : Coll.ofList (Coll.ofList ts).element = Coll.ofList ts := by
  have hw := WF.ofList ts
  have he : (Coll.ofList (Coll.ofList ts).element).element = (Coll.ofList ts).element := by
    have := foldl_element (Coll.ofList ts).element WF.empty (by simpa using hw.nodup)
    simpa [Coll.ofList] using this
  have h0 : Canon {} := rfl
  exact ext_element (h0.foldl _) (h0.foldl _) he

end Coll

open Coll in
/-- **C24.**  After any sequence of insertions `ts` into an empty table:
* a class is in the table exactly if it was inserted;
* lookup by class and lookup by number are inverse to each other, and the numbers in use are `0 … size-1`;
* inserting another class `t` returns the number under which `t` is found, and changes no number given out
  before;
* if the inserted classes are sets (strictly increasing listings), then writing the table and reading it back
  (whatever follows in the file) gives the same table and leaves what follows unread. -/
theorem C24_collection (ts : List Tags) :
    (∀ t, (ofList ts).hasNot t = false ↔ t ∈ ts) ∧
    (∀ t i, (ofList ts).find t = some i ↔ (ofList ts).at? i = some t) ∧
    (∀ i, i < (ofList ts).size ↔ ∃ t ∈ ts, (ofList ts).find t = some i) ∧
    (∀ t, ((ofList ts).add t).1.find t = some ((ofList ts).add t).2) ∧
    (∀ t u i, (ofList ts).find u = some i → ((ofList ts).add t).1.find u = some i) ∧
    ((∀ t ∈ ts, Sorted t) → ∀ r, Coll.read {} ((ofList ts).write ++ r) = some (ofList ts, r)) := by
  have hw := WF.ofList ts
  have hmem : ∀ t, t ∈ (ofList ts).element ↔ t ∈ ts := by
    intro t
    have := mem_foldl WF.empty ts t
    simpa [ofList] using this
  refine ⟨?_, fun t i => hw.iff t i, ?_, ?_, ?_, ?_⟩
  · intro t
    rw [← hmem]
    unfold hasNot
    by_cases h : t ∈ (ofList ts).element
    · simp only [h, iff_true]
      cases hf : (ofList ts).find t with
      | none => exact absurd h ((hw.ofFind t).1 hf)
      | some i => rfl
    · simp only [h, iff_false]
      rw [(hw.ofFind t).2 h]
      simp
  · intro i
    unfold size
    constructor
    · intro hi
      have hg := List.getElem?_eq_getElem hi
      exact ⟨_, (hmem _).1 (List.getElem_mem hi), (hw.iff _ i).2 hg⟩
    · rintro ⟨t, _, hf⟩
      exact (List.getElem?_eq_some_iff.1 ((hw.iff t i).1 hf)).1
  · intro t
    unfold Coll.add
    cases hf : (ofList ts).find t with
    | some i => exact hf
    | none => rw [find_cons]; simp
  · intro t u i hu
    unfold Coll.add
    cases hf : (ofList ts).find t with
    | some i => exact hu
    | none =>
      rw [find_cons]
      by_cases h : t = u
      · subst h; rw [hf] at hu; cases hu
      · rw [if_neg h]; exact hu
  · intro hs r
    unfold Coll.write Coll.read
    simp only [List.cons_append]
    rw [readSets_append _ _ _ (fun e he => hs e ((hmem e).1 he))]
    exact congrArg (fun c => some (c, r)) (ofList_element ts)

/-- three different classes, one of them inserted twice -/
example : let c := Coll.ofList [[1, 2], [3], [1, 2], [0, 4]]
    c.size = 3 ∧ c.at? 1 = some [3] ∧ c.find [0, 4] = some 2 ∧ c.write = [3, 2, 1, 2, 1, 3, 2, 0, 4] ∧
    ∀ t ∈ [[1, 2], [3], [1, 2], [0, 4]], Sorted t := by decide +kernel

/-! ## C25 -/

theorem includes_iff (a c : Tags) : includes a c = true ↔ ∀ x ∈ c, x ∈ a := by
  simp [includes]

/-- What the loop returns: the value it started from, or the first of the smallest listed classes that include
`c` and are smaller than that value. -/
theorem similarLoop_spec (c : Tags) (l : List Tags) (ret : Tags) :
    (similarLoop c l ret = ret ∧ ∀ a ∈ l, includes a c = true → ret.length ≤ a.length) ∨
    (∃ l1 l2, l = l1 ++ similarLoop c l ret :: l2 ∧ includes (similarLoop c l ret) c = true ∧
      (similarLoop c l ret).length < ret.length ∧
      (∀ a ∈ l1, includes a c = true → (similarLoop c l ret).length < a.length) ∧
      (∀ a ∈ l2, includes a c = true → (similarLoop c l ret).length ≤ a.length)) := by
  induction l generalizing ret with
  | nil => left; simp [similarLoop]
  | cons a l ih =>
    unfold similarLoop
    by_cases h1 : a.length > ret.length ∨ a.length = ret.length
    · rw [if_pos h1]
      rcases ih ret with ⟨h, h2⟩ | ⟨l1, l2, h, hi, hl, ha, hb⟩
      · left
        refine ⟨h, ?_⟩
        intro b hb hbi
        rcases List.mem_cons.1 hb with rfl | hb
        · omega
        · exact h2 b hb hbi
      · right
        refine ⟨a :: l1, l2, by rw [List.cons_append, ← h], hi, hl, ?_, hb⟩
        intro b hb hbi
        rcases List.mem_cons.1 hb with rfl | hb
        · omega
        · exact ha b hb hbi
    · rw [if_neg h1]
      by_cases h2 : includes a c = true
      · rw [if_pos h2]
        rcases ih a with ⟨h, h3⟩ | ⟨l1, l2, h, hi, hl, ha, hb⟩
        · right
          rw [h]
          exact ⟨[], l, rfl, h2, by omega, by simp, h3⟩
        · right
          refine ⟨a :: l1, l2, by rw [List.cons_append, ← h], hi, by omega, ?_, hb⟩
          intro b hb hbi
          rcases List.mem_cons.1 hb with rfl | hb
          · exact hl
          · exact ha b hb hbi
      · rw [if_neg h2]
        rcases ih ret with ⟨h, h3⟩ | ⟨l1, l2, h, hi, hl, ha, hb⟩
        · left
          refine ⟨h, ?_⟩
          intro b hb hbi
          rcases List.mem_cons.1 hb with rfl | hb
          · exact absurd hbi h2
          · exact h3 b hb hbi
        · right
          refine ⟨a :: l1, l2, by rw [List.cons_append, ← h], hi, hl, ?_, hb⟩
          intro b hb hbi
          rcases List.mem_cons.1 hb with rfl | hb
          · exact absurd hbi h2
          · exact ha b hb hbi

/-- **C25 (partial).**  One query for a set of tags `c` that the current open class contains: the class returned
contains every tag of `c`, it is the open class or one of the classes of the table, and no class of the table
(nor the open class) that contains `c` is smaller.  A known set of tags is returned unchanged and nothing else
changes.  *Missing*: independence of earlier queries, which is false (`C25_history_violation`,
`C25_open_class_violation`), and containment when the open class does not contain `c`
(`C25_superset_violation`). -/
theorem C25_similar_partial (td : TD) (c : Tags) :
    (td.output.hasNot c = false → requireSimilar td c = (td, c)) ∧
    (td.output.hasNot c = true → (∀ x ∈ c, x ∈ td.openClass) →
      let r := (requireSimilar td c).2
      (∀ x ∈ c, x ∈ r) ∧ (r = td.openClass ∨ r ∈ td.output.element) ∧
      r.length ≤ td.openClass.length ∧
      (∀ a ∈ td.output.element, (∀ x ∈ c, x ∈ a) → r.length ≤ a.length)) := by
  refine ⟨?_, ?_⟩
  · intro h
    simp [requireSimilar, h]
  · intro h hc
    simp only [requireSimilar, h, if_true, findSimilar]
    rcases similarLoop_spec c td.output.element td.openClass with ⟨h, h2⟩ | ⟨l1, l2, h, hi, hl, ha, hb⟩
    · rw [h]
      exact ⟨hc, .inl rfl, Nat.le_refl _, fun a ha hac => h2 a ha ((includes_iff a c).2 hac)⟩
    · have hin : similarLoop c td.output.element td.openClass ∈
          l1 ++ similarLoop c td.output.element td.openClass :: l2 := by simp
      rw [← h] at hin
      refine ⟨(includes_iff _ c).1 hi, .inr hin, by omega, ?_⟩
      intro a hm hac
      have hai := (includes_iff a c).2 hac
      rw [h] at hm
      rcases List.mem_append.1 hm with hm | hm
      · exact Nat.le_of_lt (ha a hm hai)
      · rcases List.mem_cons.1 hm with rfl | hm
        · exact Nat.le_refl _
        · exact hb a hm hai

/-- a table with classes {0,1,2}, {0,1,3}, {3} and open class {0,1,2,3,4}; the query {0,2} gets {0,1,2} -/
example : let td : TD := ⟨[0, 1, 2, 3, 4], Coll.ofList [[0, 1, 2, 3, 4], [0, 1, 2], [0, 1, 3], [3]]⟩
    td.output.hasNot [0, 2] = true ∧ (∀ x ∈ [0, 2], x ∈ td.openClass) ∧
    (requireSimilar td [0, 2]).2 = [0, 1, 2] := by decide +kernel

/-- The answer to a query depends on the queries made before: `find_similar_ambiguity_class` assigns through a
reference to the open class (tagger_utils.cc:150, 160).  Asked for {0,3} first, the class {0,1,3} is returned;
asked after a query for {0,2}, the class returned does not even contain 3. -/
theorem C25_history_violation :
    ∃ td c1 c2, (∀ x ∈ c2, x ∈ td.openClass) ∧ (∀ x ∈ c2, x ∈ (requireSimilar td c2).2) ∧
      ¬ (∀ x ∈ c2, x ∈ (requireSimilar (requireSimilar td c1).1 c2).2) :=
  ⟨⟨[0, 1, 2, 3, 4], Coll.ofList [[0, 1, 2, 3, 4], [0, 1, 2], [0, 1, 3], [3]]⟩, [0, 2], [0, 3],
    by decide +kernel, by decide +kernel, by decide +kernel⟩

/-- One query shrinks the open class, which is the set of tags given to every later unknown word. -/
theorem C25_open_class_violation :
    ∃ td c, (∀ x ∈ c, x ∈ td.openClass) ∧ ((requireSimilar td c).1.openClass ≠ td.openClass) ∧
      ∃ x ∈ td.openClass, x ∉ (requireSimilar td c).1.openClass :=
  ⟨⟨[0, 1, 2, 3, 4], Coll.ofList [[0, 1, 2, 3, 4], [0, 1, 2], [0, 1, 3], [3]]⟩, [0, 2],
    by decide +kernel, by decide +kernel, 4, by decide +kernel⟩

/-- A set with a tag outside the open class (a closed tag) and outside every listed superset is replaced by a
class that does not contain it. -/
theorem C25_superset_violation :
    ∃ td c, td.output.hasNot c = true ∧ ∃ x ∈ c, x ∉ (requireSimilar td c).2 :=
  ⟨⟨[0, 1], Coll.ofList [[0, 1], [2]]⟩, [1, 2], by decide +kernel, 2, by decide +kernel⟩

/-- The open class never grows over any history of queries, and it stays a listed class or the original one:
so every query's answer is a class with a number in the table whenever the original open class has one. -/
theorem C25_history_bound (td : TD) (qs : List Tags)
    (ho : td.openClass ∈ td.output.element) :
    let td' := qs.foldl (fun d c => (requireSimilar d c).1) td
    td'.output = td.output ∧ td'.openClass ∈ td.output.element ∧
      td'.openClass.length ≤ td.openClass.length := by
  induction qs generalizing td with
  | nil => exact ⟨rfl, ho, Nat.le_refl _⟩
  | cons q qs ih =>
    have h1 : (requireSimilar td q).1.output = td.output := by
      unfold requireSimilar findSimilar; split <;> rfl
    have h2 : (requireSimilar td q).1.openClass ∈ td.output.element ∧
        (requireSimilar td q).1.openClass.length ≤ td.openClass.length := by
      unfold requireSimilar findSimilar
      split
      · rcases similarLoop_spec q td.output.element td.openClass with ⟨h, _⟩ | ⟨l1, l2, h, _, hl, _, _⟩
        · simp only []; rw [h]; exact ⟨ho, Nat.le_refl _⟩
        · refine ⟨?_, Nat.le_of_lt hl⟩
          simp only []
          have : similarLoop q td.output.element td.openClass ∈
              l1 ++ similarLoop q td.output.element td.openClass :: l2 := by simp
          rwa [← h] at this
      · exact ⟨ho, Nat.le_refl _⟩
    have := ih (requireSimilar td q).1 (by rw [h1]; exact h2.1)
    simp only [List.foldl_cons] at this ⊢
    rw [h1] at this
    exact ⟨this.1, this.2.1, Nat.le_trans this.2.2 h2.2⟩

/-- the necessary classes put the open class and every singleton into the table -/
theorem C25_necessary (td : TD) (n : Nat) (h : td.output.WF) :
    (addNecessary td n).openClass ∈ (addNecessary td n).output.element ∧
    ∀ i < n, [i] ∈ (addNecessary td n).output.element := by
  unfold addNecessary
  have hf : ∀ c : Coll, (List.range n).foldl (fun c i => (c.add [i]).1) c =
      ((List.range n).map (fun i => [i])).foldl (fun c t => (c.add t).1) c := by
    intro c; rw [List.foldl_map]
  have hin : td.openClass ∈ (td.output.add td.openClass).1.element := by
    rw [Coll.add_element _ h]
    split
    · assumption
    · simp
  simp only [hf]
  constructor
  · rw [Coll.mem_foldl (h.add _)]
    exact .inl hin
  · intro i hi
    rw [Coll.mem_foldl (h.add _)]
    exact .inr (List.mem_map.2 ⟨i, List.mem_range.2 hi, rfl⟩)

end Verif.Tagger
