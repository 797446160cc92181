import Mathlib.Tactic.Linarith
import Mathlib.Tactic.Ring
import Verif.Percep.Beam
import Verif.Percep.AverageProps
import Verif.Unigram.SentenceProps
/-!
# C56, C57: the perceptron tagger
-/
namespace Verif.Percep
open Verif.Unigram

set_option linter.unusedSectionVars false
variable {κ : Type} [DecidableEq κ]

/-! ### Specification -/

/-- `Choice us t`: `t` gives each word one of its analyses, and nothing to a word without analyses. -/
inductive Choice : List LexicalUnit → Tagged → Prop
  | nil : Choice [] []
  | none {u us t} : u.analyses = [] → Choice us t → Choice (u :: us) (none :: t)
  | some {u us t a} : a ∈ u.analyses → Choice us t → Choice (u :: us) (some a :: t)

/-- The sum of the weights of the features of a word with the analysis `a`; `before` are the analyses of the words up to it. -/
def wordScore (w : Vec κ) (ft : Features κ) (before : Tagged) (idx : Nat) (a : Analysis) : ℚ :=
  ((List.range a.morphemes.length).map (fun j => ((ft before idx j).map (fun k => value k w)).sum)).sum

/-- The sum of the scores of the words that `flags` marks, for a choice of analyses; `done` are the analyses of the
words before. -/
def pathScore (w : Vec κ) (ft : Features κ) : Tagged → List Bool → Tagged → ℚ
  | done, b :: bs, c :: cs =>
    (match b, c with
      | true, some a => wordScore w ft (done ++ [c]) done.length a
      | _, _ => 0) + pathScore w ft (done ++ [c]) bs cs
  | _, _, _ => 0

/-- The words with more than one analysis. -/
def ambiguous (us : List LexicalUnit) : List Bool := us.map (fun u => decide (2 ≤ u.analyses.length))

/-- The number of choices. -/
def combinations : List LexicalUnit → Nat
  | [] => 1
  | u :: us => max 1 u.analyses.length * combinations us

/-- The product of two vectors. -/
def dot (w v : Vec κ) : ℚ := (v.map (fun e => e.2 * value e.1 w)).sum

/-! ### Scores -/

theorem foldl_sum {α : Type} (f : α → ℚ) (l : List α) (x : ℚ) : l.foldl (fun r a => r + f a) x = x + (l.map f).sum := by
  induction l generalizing x with
  | nil => simp
  | cons a l ih => rw [List.foldl_cons, ih]; simp; ring

theorem dotUnary_eq (w : Vec κ) (fs : List κ) : dotUnary w fs = (fs.map (fun k => value k w)).sum := by
  unfold dotUnary; rw [foldl_sum]; simp

theorem dot_addAt (w : Vec κ) (k : κ) (x : ℚ) (v : Vec κ) : dot w (addAt k x v) = dot w v + x * value k w := by
  induction v with
  | nil => simp [addAt, dot]
  | cons e v ih =>
    obtain ⟨k', y⟩ := e
    unfold dot at ih ⊢
    by_cases h : k' = k
    · subst h; simp [addAt]; ring
    · simp only [addAt, h, if_false, List.map_cons, List.sum_cons, ih]; ring

theorem dot_addUnary (w : Vec κ) (fs : List κ) (v : Vec κ) : dot w (addUnary v fs) = dot w v + (fs.map (fun k => value k w)).sum := by
  induction fs generalizing v with
  | nil => simp [addUnary]
  | cons k fs ih =>
    have := ih (addAt k 1 v)
    unfold addUnary at this ⊢
    rw [List.foldl_cons, this, dot_addAt]
    simp; ring

theorem wordoids_facts (w : Vec κ) (ft : Features κ) (idx : Nat) (j n : Nat) (it : Item κ) :
    (wordoids w ft idx j n it).tagged = it.tagged ∧
    (wordoids w ft idx j n it).score = it.score + ((List.range' j n).map (fun j => ((ft it.tagged idx j).map (fun k => value k w)).sum)).sum ∧
    ∀ w', dot w' (wordoids w ft idx j n it).vec =
      dot w' it.vec + ((List.range' j n).map (fun j => ((ft it.tagged idx j).map (fun k => value k w')).sum)).sum := by
  induction n generalizing j it with
  | zero => simp [wordoids]
  | succ n ih =>
    obtain ⟨h1, h2, h3⟩ := ih (j + 1) { it with score := it.score + dotUnary w (ft it.tagged idx j), vec := addUnary it.vec (ft it.tagged idx j) }
    simp only [wordoids]
    refine ⟨h1, ?_, ?_⟩
    · rw [h2, dotUnary_eq]; simp [List.range'_succ]; ring
    · intro w'; rw [h3, dot_addUnary]; simp [List.range'_succ]; ring

theorem extend_facts (w : Vec κ) (ft : Features κ) (idx : Nat) (it : Item κ) (a : Analysis) :
    (extend w ft idx it a).tagged = it.tagged ++ [some a] ∧
    (extend w ft idx it a).score = it.score + wordScore w ft (it.tagged ++ [some a]) idx a ∧
    ∀ w', dot w' (extend w ft idx it a).vec = dot w' it.vec + wordScore w' ft (it.tagged ++ [some a]) idx a := by
  unfold extend wordScore
  obtain ⟨h1, h2, h3⟩ := wordoids_facts w ft idx 0 a.morphemes.length { it with tagged := it.tagged ++ [some a] }
  rw [List.range_eq_range']
  exact ⟨h1, h2, h3⟩

theorem pathScore_append (w : Vec κ) (ft : Features κ) (done t t' : Tagged) (bs bs' : List Bool) (h : t.length = bs.length) :
    pathScore w ft done (bs ++ bs') (t ++ t') = pathScore w ft done bs t + pathScore w ft (done ++ t) bs' t' := by
  induction bs generalizing done t with
  | nil =>
    have : t = [] := List.length_eq_zero_iff.1 (by simpa using h)
    subst this
    simp [pathScore]
  | cons b bs ih =>
    cases t with
    | nil => simp at h
    | cons c t =>
      simp only [List.cons_append, pathScore]
      rw [ih _ _ (by simpa using h)]
      simp
      ring

theorem Choice.length {us : List LexicalUnit} {t : Tagged} (h : Choice us t) : t.length = us.length := by
  induction h with
  | nil => rfl
  | none _ _ ih => simp [ih]
  | some _ _ ih => simp [ih]

theorem Choice.append {us vs : List LexicalUnit} {t t' : Tagged} (h : Choice us t) (h' : Choice vs t') : Choice (us ++ vs) (t ++ t') := by
  induction h with
  | nil => exact h'
  | none h1 _ ih => exact .none h1 ih
  | some h1 _ ih => exact .some h1 ih

theorem Choice.split {us vs : List LexicalUnit} {t : Tagged} (h : Choice (us ++ vs) t) :
    ∃ t1 t2, t = t1 ++ t2 ∧ Choice us t1 ∧ Choice vs t2 := by
  induction us generalizing t with
  | nil => exact ⟨[], t, rfl, .nil, h⟩
  | cons u us ih =>
    rw [List.cons_append] at h
    cases h with
    | none h1 h2 => obtain ⟨t1, t2, rfl, h3, h4⟩ := ih h2; exact ⟨_ :: t1, t2, rfl, .none h1 h3, h4⟩
    | some h1 h2 => obtain ⟨t1, t2, rfl, h3, h4⟩ := ih h2; exact ⟨_ :: t1, t2, rfl, .some h1 h3, h4⟩

/-! ### The agenda -/

/-- What holds of the agenda after the words `us`, of which `flags` are scored. -/
structure Agenda (w : Vec κ) (ft : Features κ) (us : List LexicalUnit) (flags : List Bool) (ag : List (Item κ)) : Prop where
  ne : ag ≠ []
  choice : ∀ it ∈ ag, Choice us it.tagged
  score : ∀ it ∈ ag, it.score = pathScore w ft [] flags it.tagged
  vec : ∀ it ∈ ag, ∀ w', dot w' it.vec = pathScore w' ft [] flags it.tagged
  sorted : ag.Pairwise (fun a b => b.score ≤ a.score)

theorem agenda_start (w : Vec κ) (ft : Features κ) : Agenda w ft [] [] [⟨[], 0, []⟩] :=
  ⟨by simp, by simp; exact .nil, by simp [pathScore], by simp [pathScore, dot], by simp⟩

theorem extendAll_mem {a : Option Analysis} {ag : List (Item κ)} {it : Item κ} (h : it ∈ extendAll a ag) :
    ∃ it' ∈ ag, it = { it' with tagged := it'.tagged ++ [a] } := by
  obtain ⟨x, hx, rfl⟩ := List.mem_map.1 h
  exact ⟨x, hx, rfl⟩

theorem Agenda.skip {w : Vec κ} {ft : Features κ} {us : List LexicalUnit} {fl : List Bool} {ag : List (Item κ)} (h : Agenda w ft us fl ag)
    (hl : fl.length = us.length) (u : LexicalUnit) (c : Option Analysis) (hc : Choice [u] [c]) :
    Agenda w ft (us ++ [u]) (fl ++ [false]) (extendAll c ag) := by
  have hlen : ∀ it ∈ ag, it.tagged.length = fl.length := fun it hi => by rw [(h.choice it hi).length, hl]
  refine ⟨by simp [extendAll, h.ne], ?_, ?_, ?_, ?_⟩
  · intro it hi
    obtain ⟨x, hx, rfl⟩ := extendAll_mem hi
    exact (h.choice x hx).append hc
  · intro it hi
    obtain ⟨x, hx, rfl⟩ := extendAll_mem hi
    simp only
    rw [pathScore_append _ _ _ _ _ _ _ (hlen x hx), h.score x hx]
    simp [pathScore]
  · intro it hi w'
    obtain ⟨x, hx, rfl⟩ := extendAll_mem hi
    simp only
    rw [pathScore_append _ _ _ _ _ _ _ (hlen x hx), h.vec x hx]
    simp [pathScore]
  · unfold extendAll
    rw [List.pairwise_map]
    exact h.sorted

theorem expand_mem {w : Vec κ} {ft : Features κ} {idx : Nat} {as : List Analysis} {ag : List (Item κ)} {it : Item κ} :
    it ∈ expand w ft idx as ag ↔ ∃ x ∈ ag, ∃ a ∈ as, it = extend w ft idx x a := by
  unfold expand
  rw [List.mem_flatMap]
  constructor
  · rintro ⟨x, hx, h⟩
    obtain ⟨a, ha, rfl⟩ := List.mem_map.1 h
    exact ⟨x, hx, a, ha, rfl⟩
  · rintro ⟨x, hx, a, ha, rfl⟩
    exact ⟨x, hx, List.mem_map.2 ⟨a, ha, rfl⟩⟩

theorem top_mem {top : Nat → List (Item κ) → List (Item κ)} (ht : IsTop top) {n : Nat} {l : List (Item κ)} {it : Item κ}
    (h : it ∈ top n l) : it ∈ l := by
  obtain ⟨-, -, rest, hp, -⟩ := ht n l
  exact hp.subset (List.mem_append_left _ h)

theorem Agenda.score_step {w : Vec κ} {ft : Features κ} {us : List LexicalUnit} {fl : List Bool} {ag : List (Item κ)} (h : Agenda w ft us fl ag)
    (hl : fl.length = us.length) {x : Item κ} (hx : x ∈ ag) (a : Analysis) :
    (extend w ft us.length x a).score = pathScore w ft [] (fl ++ [true]) (extend w ft us.length x a).tagged ∧
    ∀ w', dot w' (extend w ft us.length x a).vec = pathScore w' ft [] (fl ++ [true]) (extend w ft us.length x a).tagged := by
  have hlen : x.tagged.length = fl.length := by rw [(h.choice x hx).length, hl]
  obtain ⟨e1, e2, e3⟩ := extend_facts w ft us.length x a
  have hu : us.length = x.tagged.length := by rw [hlen, hl]
  refine ⟨?_, fun w' => ?_⟩
  · rw [e2, e1, pathScore_append _ _ _ _ _ _ _ hlen, h.score x hx, hu]
    simp [pathScore]
  · rw [e3, e1, pathScore_append _ _ _ _ _ _ _ hlen, h.vec x hx, hu]
    simp [pathScore]

theorem Agenda.expand {top : Nat → List (Item κ) → List (Item κ)} (ht : IsTop top) {n : Nat} (hn : 0 < n)
    {w : Vec κ} {ft : Features κ} {us : List LexicalUnit} {fl : List Bool} {ag : List (Item κ)} (h : Agenda w ft us fl ag)
    (hl : fl.length = us.length) (u : LexicalUnit) (hu : u.analyses ≠ []) :
    Agenda w ft (us ++ [u]) (fl ++ [true]) (top n (Percep.expand w ft us.length u.analyses ag)) := by
  refine ⟨?_, ?_, ?_, ?_, (ht n _).2.1⟩
  · intro e
    have hlen := (ht n (Percep.expand w ft us.length u.analyses ag)).1
    rw [e] at hlen
    have : 0 < (Percep.expand w ft us.length u.analyses ag).length := by
      obtain ⟨x, hx⟩ := List.exists_mem_of_ne_nil ag h.ne
      obtain ⟨a, ha⟩ := List.exists_mem_of_ne_nil _ hu
      exact List.length_pos_of_mem (expand_mem.2 ⟨x, hx, a, ha, rfl⟩)
    simp only [List.length_nil] at hlen
    omega
  · intro it hi
    obtain ⟨x, hx, a, ha, rfl⟩ := expand_mem.1 (top_mem ht hi)
    rw [(extend_facts w ft us.length x a).1]
    exact (h.choice x hx).append (.some ha .nil)
  · intro it hi
    obtain ⟨x, hx, a, ha, rfl⟩ := expand_mem.1 (top_mem ht hi)
    exact (h.score_step hl hx a).1
  · intro it hi
    obtain ⟨x, hx, a, ha, rfl⟩ := expand_mem.1 (top_mem ht hi)
    exact (h.score_step hl hx a).2

/-- The three kinds of words. -/
theorem unit_cases (u : LexicalUnit) : (u.analyses = []) ∨ (∃ a, u.analyses = [a]) ∨
    (∃ a b r, u.analyses = a :: b :: r) := by
  rcases u with ⟨s, as⟩
  cases as with
  | nil => exact Or.inl rfl
  | cons a as =>
    cases as with
    | nil => exact Or.inr (Or.inl ⟨a, rfl⟩)
    | cons b r => exact Or.inr (Or.inr ⟨a, b, r, rfl⟩)

theorem tagLoop_step (top : Nat → List (Item κ) → List (Item κ)) (beam : Nat) (w : Vec κ) (ft : Features κ) (idx : Nat)
    (u : LexicalUnit) (us : List LexicalUnit) (ag : List (Item κ)) :
    tagLoop top beam w ft idx (u :: us) ag = tagLoop top beam w ft (idx + 1) us (tagLoop top beam w ft idx [u] ag) := by
  rcases unit_cases u with h | ⟨a, h⟩ | ⟨a, b, r, h⟩ <;> simp only [tagLoop, h]

theorem tagLoop_agenda {top : Nat → List (Item κ) → List (Item κ)} (ht : IsTop top) {n : Nat} (hn : 0 < n)
    {w : Vec κ} {ft : Features κ} (vs : List LexicalUnit) {us : List LexicalUnit} {ag : List (Item κ)}
    (h : Agenda w ft us (ambiguous us) ag) :
    Agenda w ft (us ++ vs) (ambiguous (us ++ vs)) (tagLoop top n w ft us.length vs ag) := by
  induction vs generalizing us ag with
  | nil => simpa [tagLoop] using h
  | cons u vs ih =>
    have hl : (ambiguous us).length = us.length := by simp [ambiguous]
    have h1 : Agenda w ft (us ++ [u]) (ambiguous (us ++ [u])) (tagLoop top n w ft us.length [u] ag) := by
      rcases unit_cases u with hu | ⟨a, hu⟩ | ⟨a, b, r, hu⟩
      · have := h.skip hl u none (.none hu .nil)
        simp only [tagLoop, hu]
        simpa [ambiguous, hu] using this
      · have := h.skip hl u (some a) (.some (by simp [hu]) .nil)
        simp only [tagLoop, hu]
        simpa [ambiguous, hu] using this
      · have := h.expand ht hn hl u (by simp [hu])
        simp only [tagLoop, hu]
        rw [hu] at this
        simpa [ambiguous, hu] using this
    have := ih h1
    rw [tagLoop_step]
    simpa using this

/-- **C56, choices**: the tagger gives each word of the sentence, in order, one of its analyses, and none to a word without
analyses. -/
theorem C56_choice (top : Nat → List (Item κ) → List (Item κ)) (ht : IsTop top) (beam : Nat) (hb : 0 < beam)
    (w : Vec κ) (ft : Features κ) (us : List LexicalUnit) :
    ∃ t, tagSentence top beam w ft us = .ok t ∧ Choice us t := by
  have h := tagLoop_agenda ht hb us (agenda_start w ft)
  rw [List.nil_append] at h
  unfold tagSentence
  cases hag : tagLoop top beam w ft 0 us [⟨[], 0, []⟩] with
  | nil => exact absurd hag h.ne
  | cons it ag =>
    refine ⟨it.tagged, rfl, h.choice it ?_⟩
    rw [show ([] : List LexicalUnit).length = 0 from rfl, hag]
    simp

theorem Choice.fits {us : List LexicalUnit} {t : Tagged} (h : Choice us t) : Fits us t := by
  induction h with
  | nil => exact .nil
  | none _ _ ih => exact .cons (by simp) ih
  | some h _ ih => exact .cons (fun a e => by simp at e; exact e ▸ h) ih

/-- **C56, streams**: the whole tagger, from stream to stream: `C54_sentence_stream` holds of it. -/
theorem C56_stream (top : Nat → List (Item κ) → List (Item κ)) (ht : IsTop top) (beam : Nat) (hb : 0 < beam)
    (w : Vec κ) (ft : List LexicalUnit → Features κ) (f : Flags) (seg : Bool) (is : List Unigram.Item) (hw : ∀ i ∈ is, i.wf) :
    ∃ tagS : List LexicalUnit → Tagged, (∀ us, tagSentence top beam w (ft us) us = .ok (tagS us) ∧ Choice us (tagS us)) ∧
      sentenceTag f seg tagS (render is) = .ok (fill f (pieces false is) ((sentences seg [] false is).flatMap tagS)) := by
  have h := fun us => C56_choice top ht beam hb w (ft us) us
  refine ⟨fun us => (h us).choose, fun us => (h us).choose_spec, ?_⟩
  exact C54_sentence_stream f seg _ (fun us => ((h us).choose_spec.2).fits) is hw

/-! ### The best choice -/

/-- All the choices are on the agenda. -/
def Complete (us : List LexicalUnit) (ag : List (Item κ)) : Prop := ∀ t, Choice us t → ∃ it ∈ ag, it.tagged = t

theorem choice_one {u : LexicalUnit} {t : Tagged} (h : Choice [u] t) :
    (t = [none] ∧ u.analyses = []) ∨ ∃ a ∈ u.analyses, t = [some a] := by
  cases h with
  | none h1 h2 => cases h2; exact Or.inl ⟨rfl, h1⟩
  | some h1 h2 => cases h2; exact Or.inr ⟨_, h1, rfl⟩

theorem combinations_append (us vs : List LexicalUnit) : combinations (us ++ vs) = combinations us * combinations vs := by
  induction us with
  | nil => simp [combinations]
  | cons u us ih => simp only [List.cons_append, combinations, ih]; ring

theorem combinations_pos (us : List LexicalUnit) : 0 < combinations us := by
  induction us with
  | nil => simp [combinations]
  | cons u us ih => exact Nat.mul_pos (by omega) ih

theorem top_all {top : Nat → List (Item κ) → List (Item κ)} (ht : IsTop top) {n : Nat} {l : List (Item κ)} (h : l.length ≤ n)
    {it : Item κ} (hi : it ∈ l) : it ∈ top n l := by
  obtain ⟨h1, -, rest, hp, -⟩ := ht n l
  have hlen := hp.length_eq
  rw [List.length_append, h1] at hlen
  have : rest = [] := List.length_eq_zero_iff.1 (by omega)
  subst this
  rw [List.append_nil] at hp
  exact hp.symm.subset hi

theorem complete_skip {us : List LexicalUnit} {ag : List (Item κ)} (h : Complete us ag) (u : LexicalUnit) (c : Option Analysis)
    (hu : ∀ t, Choice [u] t → t = [c]) : Complete (us ++ [u]) (extendAll c ag) := by
  intro t hc
  obtain ⟨t1, t2, rfl, h1, h2⟩ := hc.split
  obtain ⟨it, hi, e⟩ := h t1 h1
  refine ⟨{ it with tagged := it.tagged ++ [c] }, List.mem_map.2 ⟨it, hi, rfl⟩, ?_⟩
  rw [hu t2 h2, e]

theorem expand_length (w : Vec κ) (ft : Features κ) (idx : Nat) (as : List Analysis) (ag : List (Item κ)) :
    (expand w ft idx as ag).length = ag.length * as.length := by
  induction ag with
  | nil => simp [expand]
  | cons x ag ih =>
    unfold expand at ih ⊢
    rw [List.flatMap_cons, List.length_append, ih, List.length_map, List.length_cons]
    ring

theorem complete_expand {us : List LexicalUnit} {ag : List (Item κ)} (h : Complete us ag) (w : Vec κ) (ft : Features κ)
    (u : LexicalUnit) (hu : u.analyses ≠ []) : Complete (us ++ [u]) (expand w ft us.length u.analyses ag) := by
  intro t hc
  obtain ⟨t1, t2, rfl, h1, h2⟩ := hc.split
  obtain ⟨it, hi, e⟩ := h t1 h1
  rcases choice_one h2 with ⟨-, he⟩ | ⟨a, ha, rfl⟩
  · exact absurd he hu
  · exact ⟨_, expand_mem.2 ⟨it, hi, a, ha, rfl⟩, by rw [(extend_facts w ft us.length it a).1, e]⟩

theorem tagLoop_complete {top : Nat → List (Item κ) → List (Item κ)} (ht : IsTop top) {n : Nat}
    {w : Vec κ} {ft : Features κ} (vs : List LexicalUnit) {us : List LexicalUnit} {ag : List (Item κ)}
    (h : Complete us ag) (hlen : ag.length ≤ combinations us) (hn : combinations (us ++ vs) ≤ n) :
    Complete (us ++ vs) (tagLoop top n w ft us.length vs ag) := by
  induction vs generalizing us ag with
  | nil => simpa [tagLoop] using h
  | cons u vs ih =>
    have hn1 : combinations (us ++ [u]) ≤ n := by
      refine Nat.le_trans ?_ hn
      rw [show us ++ u :: vs = (us ++ [u]) ++ vs by simp, combinations_append (us ++ [u]) vs]
      exact Nat.le_mul_of_pos_right _ (combinations_pos vs)
    have h1 : Complete (us ++ [u]) (tagLoop top n w ft us.length [u] ag) ∧
        (tagLoop top n w ft us.length [u] ag).length ≤ combinations (us ++ [u]) := by
      rw [combinations_append] at hn1 ⊢
      rcases unit_cases u with hu | ⟨a, hu⟩ | ⟨a, b, r, hu⟩
      · simp only [tagLoop, hu]
        refine ⟨complete_skip h u none ?_, by simpa [extendAll, combinations, hu] using hlen⟩
        intro t hc
        rcases choice_one hc with ⟨e, -⟩ | ⟨a, ha, -⟩
        · exact e
        · rw [hu] at ha; simp at ha
      · simp only [tagLoop, hu]
        refine ⟨complete_skip h u (some a) ?_, by simpa [extendAll, combinations, hu] using hlen⟩
        intro t hc
        rcases choice_one hc with ⟨-, e⟩ | ⟨x, ha, e⟩
        · rw [hu] at e; simp at e
        · rw [hu] at ha; simp at ha; rw [e, ha]
      · simp only [tagLoop, hu]
        have hlen2 : (expand w ft us.length (a :: b :: r) ag).length ≤ combinations us * combinations [u] := by
          rw [expand_length]
          refine Nat.mul_le_mul hlen ?_
          simp only [combinations, hu, Nat.mul_one]
          omega
        refine ⟨?_, ?_⟩
        · intro t hc
          have hne : u.analyses ≠ [] := by simp [hu]
          obtain ⟨it, hi, e⟩ := complete_expand h w ft u hne t hc
          rw [hu] at hi
          exact ⟨it, top_all ht (Nat.le_trans hlen2 hn1) hi, e⟩
        · rw [(ht n _).1]
          exact Nat.le_trans (Nat.min_le_right _ _) hlen2
    have := ih h1.1 h1.2 (by simpa using hn)
    rw [tagLoop_step]
    simpa using this

/-- The first item is at least as good as all the choices. -/
def Best (w : Vec κ) (ft : Features κ) (us : List LexicalUnit) (ag : List (Item κ)) : Prop :=
  ∀ it ∈ ag.head?, ∀ t, Choice us t → pathScore w ft [] (ambiguous us) t ≤ it.score

theorem best_skip {w : Vec κ} {ft : Features κ} {us : List LexicalUnit} {ag : List (Item κ)} (h : Best w ft us ag)
    (u : LexicalUnit) (c : Option Analysis) (hu : ambiguous [u] = [false]) : Best w ft (us ++ [u]) (extendAll c ag) := by
  intro it hi t hc
  obtain ⟨t1, t2, rfl, h1, h2⟩ := hc.split
  unfold extendAll at hi
  rw [List.head?_map] at hi
  cases hh : ag.head? with
  | none => rw [hh] at hi; simp at hi
  | some x =>
    rw [hh] at hi
    simp at hi
    subst hi
    have := h x (by rw [hh]; rfl) t1 h1
    have e : ambiguous (us ++ [u]) = ambiguous us ++ [false] := by rw [← hu]; simp [ambiguous]
    rw [e, pathScore_append _ _ _ _ _ _ _ (by rw [h1.length]; simp [ambiguous])]
    have : pathScore w ft ([] ++ t1) [false] t2 = 0 := by
      rcases choice_one h2 with ⟨rfl, -⟩ | ⟨a, -, rfl⟩ <;> simp [pathScore]
    rw [this]
    simpa

theorem tagLoop_best {top : Nat → List (Item κ) → List (Item κ)} {n : Nat}
    {w : Vec κ} {ft : Features κ} (vs : List LexicalUnit) (hvs : ∀ v ∈ vs, v.analyses.length < 2) {us : List LexicalUnit} {ag : List (Item κ)}
    (h : Best w ft us ag) (idx : Nat) : Best w ft (us ++ vs) (tagLoop top n w ft idx vs ag) := by
  induction vs generalizing us ag idx with
  | nil => simpa [tagLoop] using h
  | cons u vs ih =>
    have hu := hvs u (by simp)
    have hamb : ambiguous [u] = [false] := by simp [ambiguous]; omega
    have h1 : ∃ c, tagLoop top n w ft idx [u] ag = extendAll c ag := by
      rcases unit_cases u with hu' | ⟨a, hu'⟩ | ⟨a, b, r, hu'⟩
      · exact ⟨none, by simp only [tagLoop, hu']⟩
      · exact ⟨some a, by simp only [tagLoop, hu']⟩
      · rw [hu'] at hu; simp at hu; omega
    obtain ⟨c, e⟩ := h1
    rw [tagLoop_step, e]
    have := ih (fun v hv => hvs v (by simp [hv])) (best_skip h u c hamb) (idx + 1)
    simpa using this

theorem top_head {top : Nat → List (Item κ) → List (Item κ)} (ht : IsTop top) {n : Nat} {l : List (Item κ)} {x it : Item κ}
    (hx : x ∈ (top n l).head?) (hi : it ∈ l) : it.score ≤ x.score := by
  obtain ⟨-, h2, rest, hp, h3⟩ := ht n l
  cases htl : top n l with
  | nil => rw [htl] at hx; simp at hx
  | cons y r =>
    rw [htl] at hx h2 hp h3
    simp at hx
    subst hx
    rcases List.mem_append.1 (hp.symm.subset hi) with h | h
    · rcases List.mem_cons.1 h with rfl | h
      · exact le_refl _
      · exact (List.pairwise_cons.1 h2).1 it h
    · exact h3 y (by simp) it h

/-- **C56, optimality**: if the beam holds all the choices for the words before the last ambiguous one, the answer has the
best score of all choices, where the score sums the weights of the features of the ambiguous words. -/
theorem C56_optimal_partial (top : Nat → List (Item κ) → List (Item κ)) (ht : IsTop top) (beam : Nat)
    (w : Vec κ) (ft : Features κ) (us : List LexicalUnit) (u : LexicalUnit) (vs : List LexicalUnit)
    (hb : combinations us ≤ beam) (hvs : ∀ v ∈ vs, v.analyses.length < 2) :
    ∃ t, tagSentence top beam w ft (us ++ u :: vs) = .ok t ∧ Choice (us ++ u :: vs) t ∧
      ∀ t', Choice (us ++ u :: vs) t' →
        pathScore w ft [] (ambiguous (us ++ u :: vs)) t' ≤ pathScore w ft [] (ambiguous (us ++ u :: vs)) t := by
  have hb0 : 0 < beam := Nat.lt_of_lt_of_le (combinations_pos us) hb
  have hA := tagLoop_agenda ht hb0 (us ++ u :: vs) (agenda_start w ft)
  rw [List.nil_append] at hA
  have hA1 := tagLoop_agenda ht hb0 us (agenda_start w ft)
  rw [List.nil_append] at hA1
  have hC := tagLoop_complete ht us (us := []) (ag := [⟨[], 0, []⟩]) (w := w) (ft := ft) (n := beam)
    (by intro t hc; cases hc; exact ⟨⟨[], 0, []⟩, by simp, rfl⟩) (by simp [combinations]) (by simpa using hb)
  rw [List.nil_append] at hC
  simp only [List.length_nil] at hA hA1 hC
  -- the loop in three parts
  have happ : ∀ (xs ys : List LexicalUnit) (idx : Nat) (ag : List (Item κ)),
      tagLoop top beam w ft idx (xs ++ ys) ag = tagLoop top beam w ft (idx + xs.length) ys (tagLoop top beam w ft idx xs ag) := by
    intro xs
    induction xs with
    | nil => intro ys idx ag; simp [tagLoop]
    | cons x xs ih =>
      intro ys idx ag
      rw [List.cons_append, tagLoop_step, ih, tagLoop_step (us := xs)]
      simp only [List.length_cons]
      rw [show idx + 1 + xs.length = idx + (xs.length + 1) by omega]
  have hB : Best w ft (us ++ [u]) (tagLoop top beam w ft us.length [u] (tagLoop top beam w ft 0 us [⟨[], 0, []⟩])) := by
    have hl : (ambiguous us).length = us.length := by simp [ambiguous]
    generalize tagLoop top beam w ft 0 us [⟨[], 0, []⟩] = ag at hA1 hC
    have hbest : Best w ft us ag := by
      intro it hi t hc
      obtain ⟨x, hx, rfl⟩ := hC t hc
      rw [← hA1.score x hx]
      cases ag with
      | nil => simp at hi
      | cons y r =>
        simp at hi; subst hi
        rcases List.mem_cons.1 hx with rfl | hx
        · exact le_refl _
        · exact (List.pairwise_cons.1 hA1.sorted).1 x hx
    rcases unit_cases u with hu | ⟨a, hu⟩ | ⟨a, b, r, hu⟩
    · simp only [tagLoop, hu]
      exact best_skip hbest u none (by simp [ambiguous, hu])
    · simp only [tagLoop, hu]
      exact best_skip hbest u (some a) (by simp [ambiguous, hu])
    · have hexp := complete_expand hC w ft u (by simp [hu])
      have hsc := fun (x : Item κ) (hx : x ∈ ag) (a : Analysis) => (hA1.score_step hl hx a).1
      simp only [tagLoop, hu]
      rw [hu] at hexp
      intro it hi t hc
      obtain ⟨x, hx, rfl⟩ := hexp t hc
      have hx' := hx
      obtain ⟨y, hy, a', ha', rfl⟩ := expand_mem.1 hx
      have e : ambiguous (us ++ [u]) = ambiguous us ++ [true] := by simp [ambiguous, hu]
      rw [e, ← hsc y hy a']
      exact top_head ht hi hx'
  have hfinal := tagLoop_best (top := top) (n := beam) vs hvs hB (us.length + 1)
  have e1 : tagLoop top beam w ft 0 (us ++ u :: vs) [⟨[], 0, []⟩] =
      tagLoop top beam w ft (us.length + 1) vs (tagLoop top beam w ft us.length [u] (tagLoop top beam w ft 0 us [⟨[], 0, []⟩])) := by
    rw [happ, tagLoop_step]; simp
  rw [← e1] at hfinal
  have e2 : us ++ [u] ++ vs = us ++ u :: vs := by simp
  rw [e2] at hfinal
  unfold tagSentence
  cases hag : tagLoop top beam w ft 0 (us ++ u :: vs) [⟨[], 0, []⟩] with
  | nil => exact absurd hag hA.ne
  | cons it ag =>
    rw [hag] at hA hfinal
    refine ⟨it.tagged, rfl, hA.choice it (by simp), ?_⟩
    intro t' hc
    rw [← hA.score it (by simp)]
    exact hfinal it (by simp) t' hc


/-! ### Non-vacuity and counterexamples -/

/-- Insertion by score. -/
def insertItem (x : Item κ) : List (Item κ) → List (Item κ)
  | [] => [x]
  | y :: l => if y.score ≤ x.score then x :: y :: l else y :: insertItem x l

/-- A possible `partial_sort_copy`. -/
def topSort (n : Nat) (l : List (Item κ)) : List (Item κ) := (l.foldr insertItem []).take n

theorem insertItem_perm (x : Item κ) (l : List (Item κ)) : List.Perm (insertItem x l) (x :: l) := by
  induction l with
  | nil => exact List.Perm.refl _
  | cons y l ih =>
    rw [insertItem]
    split
    · exact List.Perm.refl _
    · exact (ih.cons y).trans (List.Perm.swap x y l)

theorem insertItem_sorted (x : Item κ) (l : List (Item κ)) (h : l.Pairwise (fun a b => b.score ≤ a.score)) :
    (insertItem x l).Pairwise (fun a b => b.score ≤ a.score) := by
  induction l with
  | nil => simp [insertItem]
  | cons y l ih =>
    obtain ⟨h1, h2⟩ := List.pairwise_cons.1 h
    rw [insertItem]
    split
    · rename_i hc
      refine List.pairwise_cons.2 ⟨fun b hb => ?_, h⟩
      rcases List.mem_cons.1 hb with rfl | hb
      · exact hc
      · exact le_trans (h1 b hb) hc
    · rename_i hc
      refine List.pairwise_cons.2 ⟨fun b hb => ?_, ih h2⟩
      rcases List.mem_cons.1 ((insertItem_perm x l).subset hb) with rfl | hb
      · exact le_of_lt (not_le.1 hc)
      · exact h1 b hb

theorem isTop_topSort : IsTop (topSort : Nat → List (Item κ) → List (Item κ)) := by
  intro n l
  have hp : List.Perm (l.foldr insertItem []) l := by
    induction l with
    | nil => exact List.Perm.refl _
    | cons x l ih => exact (insertItem_perm x _).trans (ih.cons x)
  have hs' : (l.foldr insertItem []).Pairwise (fun a b => b.score ≤ a.score) := by
    clear hp
    induction l with
    | nil => simp
    | cons x l ih => exact insertItem_sorted x _ ih
  unfold topSort
  generalize l.foldr insertItem [] = m at hp hs'
  refine ⟨by rw [List.length_take, hp.length_eq], hs'.sublist (List.take_sublist n m), m.drop n, ?_, ?_⟩
  · rw [List.take_append_drop]; exact hp
  · rw [← List.take_append_drop n m] at hs'
    exact fun a ha b hb => (List.pairwise_append.1 hs').2.2 a ha b hb

/-- An analysis with one morpheme without tags, and a word. -/
def an (s : String) : Analysis := ⟨[⟨s.toList, []⟩]⟩
def word (s : String) (as : List Analysis) : LexicalUnit := ⟨s.toList, as⟩

/-- Features of the last two analyses: the lemma of the current word, and the pair of lemmas. -/
def exFeatures : Features (List (Option Analysis)) := fun t _ _ =>
  [t.reverse.take 1, t.reverse.take 2]

/-- Two words with two analyses each, of which the second pair is worth more. -/
def exWeights : Vec (List (Option Analysis)) := [([some (an "a")], 1), ([some (an "c"), some (an "b")], 5)]

def exSentence : List LexicalUnit := [word "x" [an "a", an "b"], word "y" [an "c", an "d"]]

/-- With a beam of two the best choice is found, -/
example : tagSentence topSort 2 exWeights exFeatures exSentence = .ok [some (an "b"), some (an "c")] := by decide +kernel
example : combinations [word "x" [an "a", an "b"]] ≤ 2 := by decide

/-- **C56, violation**: with a beam of one it is not, -/
theorem C56_narrow_violation : tagSentence topSort 1 exWeights exFeatures exSentence = .ok [some (an "a"), some (an "c")] ∧
    pathScore exWeights exFeatures [] (ambiguous exSentence) [some (an "a"), some (an "c")] <
      pathScore exWeights exFeatures [] (ambiguous exSentence) [some (an "b"), some (an "c")] := by decide +kernel

/-- **C56, violation**: the features of a word with one analysis do not count, although they depend on the choices for other
words: whatever the beam, the worse of two choices is taken. -/
theorem C56_single_violation (beam : Nat) (h : 0 < beam) :
    let us := [word "x" [an "a", an "b"], word "y" [an "c"]]
    tagSentence topSort beam exWeights exFeatures us = .ok [some (an "a"), some (an "c")] ∧ Choice us [some (an "b"), some (an "c")] ∧
    pathScore exWeights exFeatures [] [true, true] [some (an "a"), some (an "c")] <
      pathScore exWeights exFeatures [] [true, true] [some (an "b"), some (an "c")] := by
  refine ⟨?_, .some (by decide) (.some (by decide) .nil), by decide +kernel⟩
  obtain ⟨n, rfl⟩ : ∃ n, beam = n + 1 := ⟨beam - 1, by omega⟩
  have : topSort (n + 1) (Percep.expand exWeights exFeatures 0 [an "a", an "b"] [⟨[], 0, []⟩]) =
      ((Percep.expand exWeights exFeatures 0 [an "a", an "b"] [⟨[], 0, []⟩]).foldr insertItem []).take (n + 1) := rfl
  have hm : (Percep.expand exWeights exFeatures 0 [an "a", an "b"] [⟨[], 0, []⟩]).foldr insertItem [] =
      (Percep.expand exWeights exFeatures 0 [an "a", an "b"] [⟨[], 0, []⟩]) := by decide +kernel
  rw [hm] at this
  simp only [tagSentence, tagLoop, word, this]
  rfl

/-- **C56, violation**: a beam width of 0 (the width is read from the specification and not checked): `front()` of an empty agenda. -/
theorem C56_zero_beam_violation (top : Nat → List (Item κ) → List (Item κ)) (ht : IsTop top) (w : Vec κ) (ft : Features κ)
    (us : List LexicalUnit) (h : ∃ u ∈ us, 2 ≤ u.analyses.length) : tagSentence top 0 w ft us = .ub := by
  have h0 : ∀ l, top 0 l = [] := fun l => List.length_eq_zero_iff.1 (by rw [(ht 0 l).1]; simp)
  have hnil : ∀ (vs : List LexicalUnit) (idx : Nat), tagLoop top 0 w ft idx vs [] = [] := by
    intro vs
    induction vs with
    | nil => intro idx; rfl
    | cons v vs ih =>
      intro idx
      rcases unit_cases v with hu | ⟨a, hu⟩ | ⟨a, b, r, hu⟩ <;> simp only [tagLoop, hu, extendAll, List.map_nil, h0] <;> exact ih _
  have hmain : ∀ (vs : List LexicalUnit) (idx : Nat) (ag : List (Item κ)), (∃ u ∈ vs, 2 ≤ u.analyses.length) →
      tagLoop top 0 w ft idx vs ag = [] := by
    intro vs
    induction vs with
    | nil => rintro idx ag ⟨u, hu, -⟩; simp at hu
    | cons v vs ih =>
      rintro idx ag ⟨u, hu, h2⟩
      rcases List.mem_cons.1 hu with rfl | hu
      · rcases unit_cases u with hu | ⟨a, hu⟩ | ⟨a, b, r, hu⟩
        · rw [hu] at h2; simp at h2
        · rw [hu] at h2; simp at h2
        · simp only [tagLoop, hu, h0]; exact hnil _ _
      · rw [tagLoop_step]; exact ih _ _ ⟨u, hu, h2⟩
  rw [tagSentence, hmain us 0 _ h]

end Verif.Percep
