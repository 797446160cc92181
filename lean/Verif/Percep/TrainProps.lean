import Mathlib.Algebra.Order.BigOperators.Ring.Finset
import Mathlib.Tactic.LinearCombination
import Verif.Percep.Train
import Verif.Percep.BeamProps
/-!
# C57: training of the perceptron tagger
-/
namespace Verif.Percep
open Verif.Unigram

set_option linter.unusedSectionVars false
variable {κ : Type} [DecidableEq κ]

/-! ### Specification -/

/-- The features of the words that `flags` marks, for a choice of analyses. -/
def pathFeatures (ft : Features κ) : Tagged → List Bool → Tagged → List κ
  | done, b :: bs, c :: cs =>
    (match b, c with
      | true, some a => (List.range a.morphemes.length).flatMap (ft (done ++ [c]) done.length)
      | _, _ => []) ++ pathFeatures ft (done ++ [c]) bs cs
  | _, _, _ => []

/-- The right analyses and the words of a sentence. -/
def golds (s : Sentence) : Tagged := s.map Prod.fst
def units (s : Sentence) : List LexicalUnit := s.map Prod.snd

/-- Each word has its right analysis among its analyses (or no analysis at all), and the right analyses have morphemes. -/
def Consistent (s : Sentence) : Prop :=
  Choice (units s) (golds s) ∧ ∀ g u, (some g, u) ∈ s → g.morphemes ≠ []

/-- The features of the analyses `t` for the words `us`. -/
def features (ft : Features κ) (us : List LexicalUnit) (t : Tagged) : List κ := pathFeatures ft [] (ambiguous us) t

/-! ### Features and scores -/

theorem sum_flatMap {α β : Type} (f : β → ℚ) (g : α → List β) (l : List α) :
    ((l.flatMap g).map f).sum = (l.map (fun a => ((g a).map f).sum)).sum := by
  induction l with
  | nil => rfl
  | cons a l ih => simp [List.flatMap_cons, List.map_append, List.sum_append, ih]

theorem pathScore_eq (w : Vec κ) (ft : Features κ) (done t : Tagged) (fl : List Bool) :
    pathScore w ft done fl t = ((pathFeatures ft done fl t).map (fun k => value k w)).sum := by
  induction fl generalizing done t with
  | nil => simp [pathScore, pathFeatures]
  | cons b fl ih =>
    cases t with
    | nil => simp [pathScore, pathFeatures]
    | cons c t =>
      simp only [pathScore, pathFeatures, List.map_append, List.sum_append]
      rw [ih]
      congr 1
      cases b <;> cases c <;> simp [wordScore, sum_flatMap]

theorem sum_count (k : κ) (l : List κ) : (l.map (fun k' => value k' [(k, 1)])).sum = (l.count k : ℚ) := by
  induction l with
  | nil => simp
  | cons a l ih =>
    rw [List.map_cons, List.sum_cons, ih, List.count_cons]
    by_cases h : k = a
    · subst h; simp [value]; ring
    · have : ¬ a = k := fun e => h e.symm
      simp [value, h, this]

/-- How much of the feature `k` a vector has. -/
theorem dot_single (k : κ) (v : Vec κ) : dot [(k, 1)] v = ((v.filter (fun e => decide (e.1 = k))).map Prod.snd).sum := by
  induction v with
  | nil => rfl
  | cons e v ih =>
    unfold dot at ih ⊢
    rw [List.map_cons, List.sum_cons, ih]
    by_cases h : e.1 = k
    · simp [value, h]
    · have : ¬ k = e.1 := fun e => h e.symm
      simp [value, h, this]

/-! ### The loop -/

theorem tagLoop_extends {top : Nat → List (Item κ) → List (Item κ)} (ht : IsTop top) {n : Nat} {w : Vec κ} {ft : Features κ}
    (vs : List LexicalUnit) (idx : Nat) (ag : List (Item κ)) :
    ∀ it ∈ tagLoop top n w ft idx vs ag, ∃ x ∈ ag, ∃ t, it.tagged = x.tagged ++ t := by
  induction vs generalizing idx ag with
  | nil => intro it hi; exact ⟨it, hi, [], by simp⟩
  | cons u vs ih =>
    intro it hi
    rw [tagLoop_step] at hi
    obtain ⟨y, hy, t, e⟩ := ih _ _ it hi
    have : ∃ x ∈ ag, ∃ t, y.tagged = x.tagged ++ t := by
      rcases unit_cases u with hu | ⟨a, hu⟩ | ⟨a, b, r, hu⟩
      · simp only [tagLoop, hu] at hy
        obtain ⟨x, hx, rfl⟩ := extendAll_mem hy
        exact ⟨x, hx, _, rfl⟩
      · simp only [tagLoop, hu] at hy
        obtain ⟨x, hx, rfl⟩ := extendAll_mem hy
        exact ⟨x, hx, _, rfl⟩
      · simp only [tagLoop, hu] at hy
        obtain ⟨x, hx, a', ha', rfl⟩ := expand_mem.1 (top_mem ht hy)
        exact ⟨x, hx, _, (extend_facts w ft idx x a').1⟩
    obtain ⟨x, hx, t', e'⟩ := this
    exact ⟨x, hx, t' ++ t, by rw [e, e', List.append_assoc]⟩

theorem findTagged_some {t : Tagged} {l : List (Item κ)} {i : Nat} (h : findTagged t l = some i) :
    ∃ it, l[i]? = some it ∧ it.tagged = t := by
  induction l generalizing i with
  | nil => simp [findTagged] at h
  | cons x l ih =>
    rw [findTagged] at h
    split at h
    · rename_i hx
      simp at h; subst h
      exact ⟨x, rfl, hx⟩
    · cases hf : findTagged t l with
      | none => rw [hf] at h; simp at h
      | some j =>
        rw [hf] at h; simp at h; subst h
        obtain ⟨it, h1, h2⟩ := ih hf
        exact ⟨it, by simpa using h1, h2⟩

theorem findTagged_none {t : Tagged} {l : List (Item κ)} (h : findTagged t l = none) : ∀ it ∈ l, it.tagged ≠ t := by
  induction l with
  | nil => simp
  | cons x l ih =>
    rw [findTagged] at h
    split at h
    · simp at h
    · rename_i hx
      simp at h
      intro it hi
      rcases List.mem_cons.1 hi with rfl | hi
      · exact hx
      · exact ih h it hi

theorem rightItem_some {w : Vec κ} {ft : Features κ} {idx : Nat} {as : List Analysis} {g : Analysis} {it : Item κ}
    (hg : g ∈ as) (hm : g.morphemes ≠ []) : rightItem w ft idx as g it = some (extend w ft idx it g) := by
  unfold rightItem
  have hmem : g ∈ as.filter (fun a => decide (a = g) && !decide (a.morphemes = [])) := by simp [hg, hm]
  have hall : ∀ a ∈ as.filter (fun a => decide (a = g) && !decide (a.morphemes = [])), a = g := by
    intro a ha; simp at ha; exact ha.2.1
  generalize as.filter (fun a => decide (a = g) && !decide (a.morphemes = [])) = l at hmem hall
  rw [List.getLast?_map]
  cases hl : l.getLast? with
  | none => rw [List.getLast?_eq_none_iff] at hl; subst hl; simp at hmem
  | some a => rw [hall a (List.mem_of_getLast? hl)]; rfl

/-- How training on the sentence `pre ++ s` can end, when the words of `pre` are done. -/
def Ends (w : Vec κ) (ft : Features κ) (s : Sentence) (tagged : Option Tagged) (r : Trained κ) : Prop :=
  (r = .same ∧ tagged = some (golds s)) ∨
  (tagged ≠ some (golds s) ∧ ∃ f c pre t, r = .update f c ∧ pre <+: s ∧ Choice (units pre) t ∧ t ≠ golds pre ∧
    pathScore w ft [] (ambiguous (units pre)) (golds pre) ≤ pathScore w ft [] (ambiguous (units pre)) t ∧
    (∀ w', dot w' f = pathScore w' ft [] (ambiguous (units pre)) t) ∧
    (∀ w', dot w' c = pathScore w' ft [] (ambiguous (units pre)) (golds pre)))

theorem trainLoop_ends {top : Nat → List (Item κ) → List (Item κ)} (ht : IsTop top) {n : Nat} (hn : 0 < n)
    {w : Vec κ} {ft : Features κ} (s pre : Sentence) (hs : Consistent (pre ++ s)) {ag : List (Item κ)}
    (h : Agenda w ft (units pre) (ambiguous (units pre)) ag) {pos : Nat} {right it : Item κ} (hp : ag[pos]? = some it)
    (hit : it.tagged = golds pre) (hrt : right.tagged = golds pre) 
    (hrv : ∀ w', dot w' right.vec = pathScore w' ft [] (ambiguous (units pre)) (golds pre)) :
    Ends w ft (pre ++ s) ((tagLoop top n w ft pre.length (units s) ag).head?.map Item.tagged)
      (trainLoop top n w ft pre.length s ag pos right) := by
  induction s generalizing pre ag pos right it with
  | nil =>
    have hmem : it ∈ ag := List.mem_of_getElem? hp
    cases hag : ag with
    | nil => exact absurd hag h.ne
    | cons x l =>
      rw [hag] at h hmem
      simp only [units, List.map_nil, tagLoop, trainLoop, List.head?_cons, Option.map_some, List.append_nil]
      by_cases hx : x.tagged = right.tagged
      · rw [if_neg (by simpa using hx)]
        exact Or.inl ⟨rfl, by rw [hx, hrt]⟩
      · rw [if_pos hx]
        refine Or.inr ⟨by rw [← hrt]; simpa using hx, x.vec, right.vec, pre, x.tagged, rfl, List.prefix_rfl,
          h.choice x (by simp), by rw [← hrt]; exact hx, ?_, h.vec x (by simp), ?_⟩
        · rw [← h.score x (by simp), ← hit, ← h.score it hmem]
          rcases List.mem_cons.1 hmem with rfl | hm
          · exact le_refl _
          · exact (List.pairwise_cons.1 h.sorted).1 it hm
        · exact hrv
  | cons e s ih =>
    obtain ⟨gold, u⟩ := e
    have hs' : Consistent ((pre ++ [(gold, u)]) ++ s) := by simpa using hs
    have hl : (ambiguous (units pre)).length = (units pre).length := by simp [ambiguous]
    have hul : pre.length = (units pre).length := by simp [units]
    have hmem : it ∈ ag := List.mem_of_getElem? hp
    have hgold : Choice [u] [gold] := by
      have h1 := hs.1
      unfold units golds at h1
      rw [List.map_append, List.map_append] at h1
      obtain ⟨t1, t2, e, h2, h3⟩ := h1.split
      have hlen : t1.length = (pre.map Prod.fst).length := by rw [h2.length]; simp
      obtain ⟨e1, e2⟩ := List.append_inj e hlen.symm
      subst e2
      simp only [List.map_cons] at h3
      cases h3 with
      | none h4 h5 => exact .none h4 .nil
      | some h4 h5 => exact .some h4 .nil
    have eu : units (pre ++ [(gold, u)]) = units pre ++ [u] := by simp [units]
    have eg : golds (pre ++ [(gold, u)]) = golds pre ++ [gold] := by simp [golds]
    -- words that are not ambiguous
    have hskip : ∀ (_ : u.analyses.length < 2),
        Ends w ft ((pre ++ [(gold, u)]) ++ s)
          ((tagLoop top n w ft (pre.length + 1) (units s) (extendAll gold ag)).head?.map Item.tagged)
          (trainLoop top n w ft (pre.length + 1) s (extendAll gold ag) pos { right with tagged := right.tagged ++ [gold] }) := by
      intro hu
      have hamb : ambiguous (units (pre ++ [(gold, u)])) = ambiguous (units pre) ++ [false] := by
        rw [eu]; simp [ambiguous]; omega
      have hA := h.skip hl u gold hgold
      rw [← eu, ← hamb] at hA
      have := ih (pre ++ [(gold, u)]) hs' hA (pos := pos) (it := { it with tagged := it.tagged ++ [gold] })
        (right := { right with tagged := right.tagged ++ [gold] })
        (by simp [extendAll, hp]) (by rw [eg, ← hit]) (by rw [eg, ← hrt]) (by
          intro w'
          rw [hamb, eg, pathScore_append _ _ _ _ _ _ _ (by simp [golds, ambiguous, units]), hrv]
          simp [pathScore])
      simpa using this
    have e1 : pre ++ (gold, u) :: s = (pre ++ [(gold, u)]) ++ s := by simp
    rw [e1]
    rcases unit_cases u with hu | ⟨a, hu⟩ | ⟨a, b, r, hu⟩
    · rcases choice_one hgold with ⟨hg, -⟩ | ⟨x, hx, -⟩
      · simp at hg; subst hg
        simp only [units, List.map_cons, tagLoop, trainLoop, hu]
        exact hskip (by simp [hu])
      · rw [hu] at hx; simp at hx
    · rcases choice_one hgold with ⟨-, hg⟩ | ⟨x, hx, hg⟩
      · rw [hu] at hg; simp at hg
      · rw [hu] at hx; simp at hx; subst hx
        simp at hg; subst hg
        simp only [units, List.map_cons, tagLoop, trainLoop, hu]
        exact hskip (by simp [hu])
    · rcases choice_one hgold with ⟨-, hg⟩ | ⟨g, hg, hg'⟩
      · rw [hu] at hg; simp at hg
      · simp at hg'; subst hg'
        have hgm : g.morphemes ≠ [] := hs.2 g u (by simp)
        have hamb : ambiguous (units (pre ++ [(some g, u)])) = ambiguous (units pre) ++ [true] := by
          rw [eu]; simp [ambiguous, hu]
        have hA := h.expand ht hn hl u (by simp [hu])
        rw [← eu, ← hamb, hu, ← hul] at hA
        obtain ⟨x1, x2, x3⟩ := extend_facts w ft pre.length it g
        obtain ⟨y1, y2⟩ := h.score_step hl hmem g
        rw [← hul, ← hamb] at y1 y2
        have hin : extend w ft pre.length it g ∈ Percep.expand w ft pre.length (a :: b :: r) ag :=
          expand_mem.2 ⟨it, hmem, g, by rw [← hu]; exact hg, rfl⟩
        have hxt : (extend w ft pre.length it g).tagged = golds (pre ++ [(some g, u)]) := by rw [x1, eg, hit]
        simp only [units, List.map_cons, tagLoop, trainLoop, hu, hp, Option.bind_some]
        rw [rightItem_some (by rw [← hu]; exact hg) hgm]
        simp only
        cases hf : findTagged (extend w ft pre.length it g).tagged (top n (Percep.expand w ft pre.length (a :: b :: r) ag)) with
        | some i =>
          simp only
          obtain ⟨z, hz, hz'⟩ := findTagged_some hf
          have := ih (pre ++ [(some g, u)]) hs' hA (pos := i) (it := z) (right := extend w ft pre.length it g)
            hz (by rw [hz', hxt]) hxt (fun w' => by rw [y2, hxt])
          simpa [units] using this
        | none =>
          simp only
          have hno := findTagged_none hf
          cases htop : top n (Percep.expand w ft pre.length (a :: b :: r) ag) with
          | nil => exact absurd htop hA.ne
          | cons first rest =>
            simp only
            have hhead : (extend w ft pre.length it g).score ≤ first.score :=
              top_head ht (by rw [htop]; rfl) hin
            rw [htop] at hA hno
            refine Or.inr ⟨?_, first.vec, (extend w ft pre.length it g).vec, pre ++ [(some g, u)], first.tagged, rfl,
              List.prefix_append _ _, hA.choice first (by simp), by rw [← hxt]; exact hno first (by simp), ?_, hA.vec first (by simp),
              fun w' => by rw [y2, hxt]⟩
            · intro hc
              cases hfin : (tagLoop top n w ft (pre.length + 1) (List.map Prod.snd s) (first :: rest)).head? with
              | none => rw [hfin] at hc; simp at hc
              | some y =>
                rw [hfin] at hc
                simp only [Option.map_some, Option.some.injEq] at hc
                obtain ⟨x, hx, t, e⟩ := tagLoop_extends ht _ _ _ y (List.mem_of_head? hfin)
                have hlx := (hA.choice x hx).length
                rw [hc] at e
                have e' : golds (pre ++ [(some g, u)]) ++ golds s = x.tagged ++ t := by
                  rw [← e]; simp [golds]
                obtain ⟨e2, -⟩ := List.append_inj e' (by rw [hlx]; simp [golds, units])
                exact hno x hx (by rw [hxt, e2])
            · rw [← hA.score first (by simp), ← hxt, ← y1]
              exact hhead

/-! ### One sentence -/

theorem touchAll_iter (s : Averager κ) (v : Vec κ) : (touchAll s v).iterations = s.iterations := by
  induction v generalizing s with
  | nil => rfl
  | cons e v ih => exact ih (touch s e.1)

theorem update_iter (s : Averager κ) (f c : Vec κ) : (run s (Trained.update f c).ops).iterations = s.iterations + 1 := by
  simp only [Trained.ops, run, List.foldl_cons, List.foldl_nil, step, touchAll_iter]

/-- The weights after the operations of an update. -/
theorem value_update (s : Averager κ) (f c : Vec κ) (k : κ) :
    value k (run s (Trained.update f c).ops).weights = value k s.weights - dot [(k, 1)] f + dot [(k, 1)] c := by
  have hw : ∀ (v : Vec κ) (s : Averager κ), value k (touchAll s v).weights = value k s.weights := by
    intro v
    induction v with
    | nil => intro s; rfl
    | cons e v ih =>
      intro s
      have h1 := ih (touch s e.1)
      unfold touchAll at h1 ⊢
      rw [List.foldl_cons, h1]
      simp only [touch, value_addAt]
      split <;> simp
  simp only [Trained.ops, run, List.foldl_cons, List.foldl_nil, step]
  rw [value_addVec, hw, dot_single, dot_single]
  simp only
  rw [value_subVec, hw]

/-- **C57, one sentence**: on a consistent sentence training either leaves the weights alone, which it does if and only if the
tagger with the current weights answers the right analyses, or makes one update: some choice of analyses for the first words of
the sentence, other than the right one, scores at least as well, and each weight grows by the number of times the right
analyses of these words have the feature minus the number of times the chosen ones have it. -/
theorem C57_sentence (top : Nat → List (Item κ) → List (Item κ)) (ht : IsTop top) (beam : Nat) (hb : 0 < beam)
    (ft : List LexicalUnit → Features κ) (skip : Bool) (s : Averager κ) (sent : Sentence) (hc : Consistent sent) :
    ∃ s', trainOne top beam ft skip s sent = .ok s' ∧
      ((s' = s ∧ tagSentence top beam s.weights (ft (units sent)) (units sent) = .ok (golds sent)) ∨
       (tagSentence top beam s.weights (ft (units sent)) (units sent) ≠ .ok (golds sent) ∧ s'.iterations = s.iterations + 1 ∧
        ∃ pre t, pre <+: sent ∧ Choice (units pre) t ∧ t ≠ golds pre ∧
          pathScore s.weights (ft (units sent)) [] (ambiguous (units pre)) (golds pre) ≤
            pathScore s.weights (ft (units sent)) [] (ambiguous (units pre)) t ∧
          ∀ k, value k s'.weights = value k s.weights + ((features (ft (units sent)) (units pre) (golds pre)).count k : ℚ)
            - ((features (ft (units sent)) (units pre) t).count k : ℚ))) := by
  have h := trainLoop_ends ht hb (w := s.weights) (ft := ft (units sent)) sent [] (by simpa using hc)
    (agenda_start _ _) (pos := 0) (it := ⟨[], 0, []⟩) (right := ⟨[], 0, []⟩) rfl rfl rfl
    (by intro w'; simp [dot, golds, units, ambiguous, pathScore])
  simp only [List.nil_append, List.length_nil] at h
  have hA := tagLoop_agenda ht hb (units sent) (agenda_start s.weights (ft (units sent)))
  simp only [List.nil_append, List.length_nil] at hA
  have htag : ∀ t, tagSentence top beam s.weights (ft (units sent)) (units sent) = .ok t ↔
      (tagLoop top beam s.weights (ft (units sent)) 0 (units sent) [⟨[], 0, []⟩]).head?.map Item.tagged = some t := by
    intro t
    unfold tagSentence
    cases hl : tagLoop top beam s.weights (ft (units sent)) 0 (units sent) [⟨[], 0, []⟩] with
    | nil => exact absurd hl hA.ne
    | cons x l => simp
  unfold trainOne trainSentence
  rw [show sent.map Prod.snd = units sent from rfl]
  rcases h with ⟨h1, h2⟩ | ⟨h1, f, c, pre, t, h2, h3, h4, h5, h6, h7, h8⟩
  · rw [h1]
    exact ⟨s, rfl, Or.inl ⟨rfl, (htag _).2 h2⟩⟩
  · rw [h2]
    refine ⟨_, rfl, Or.inr ⟨fun e => h1 ((htag _).1 e), update_iter s f c, pre, t, h3, h4, h5, h6, ?_⟩⟩
    intro k
    rw [value_update s f c k, h7, h8, pathScore_eq, pathScore_eq, sum_count, sum_count]
    unfold features
    ring

/-! ### The number of updates -/

/-- An update: the features of the right analyses and those of the chosen ones. -/
abbrev Update (κ : Type) := List κ × List κ

/-- The weight of `k` after the updates (the last one first). -/
def wt (us : List (Update κ)) (k : κ) : ℚ := (us.map (fun p => (p.1.count k : ℚ) - (p.2.count k : ℚ))).sum

/-- Each update was made because the chosen analyses did not score less. -/
inductive Valid : List (Update κ) → Prop
  | nil : Valid []
  | cons {r f us} : Valid us → (r.map (wt us)).sum ≤ (f.map (wt us)).sum → Valid ((r, f) :: us)

theorem sum_count_mul (S : Finset κ) (g : κ → ℚ) (l : List κ) (h : ∀ k ∈ l, k ∈ S) :
    ∑ k ∈ S, g k * (l.count k : ℚ) = (l.map g).sum := by
  induction l with
  | nil => simp
  | cons a l ih =>
    have h1 := ih (fun k hk => h k (by simp [hk]))
    have h2 : ∀ k, g k * ((a :: l).count k : ℚ) = g k * (l.count k : ℚ) + (if a = k then g k else 0) := by
      intro k
      rw [List.count_cons]
      by_cases hk : a = k
      · subst hk; simp; ring
      · simp [hk]
    simp only [h2, Finset.sum_add_distrib, h1, Finset.sum_ite_eq, h a (by simp), if_true, List.map_cons, List.sum_cons]
    ring

theorem sum_sq_bound (S : Finset κ) (r f : List κ) (N : Nat) (hr : r.length ≤ N) (hf : f.length ≤ N)
    (hrS : ∀ k ∈ r, k ∈ S) (hfS : ∀ k ∈ f, k ∈ S) :
    ∑ k ∈ S, ((r.count k : ℚ) - (f.count k : ℚ)) ^ 2 ≤ (2 * N : ℚ) ^ 2 := by
  have h1 : ∀ k ∈ S, ((r.count k : ℚ) - (f.count k : ℚ)) ^ 2 ≤ (2 * N : ℚ) * ((r.count k : ℚ) + (f.count k : ℚ)) := by
    intro k _
    have a1 : (0 : ℚ) ≤ (r.count k : ℚ) := by positivity
    have a2 : (0 : ℚ) ≤ (f.count k : ℚ) := by positivity
    have a3 : (r.count k : ℚ) ≤ N := by exact_mod_cast Nat.le_trans List.count_le_length hr
    have a4 : (f.count k : ℚ) ≤ N := by exact_mod_cast Nat.le_trans List.count_le_length hf
    nlinarith
  refine le_trans (Finset.sum_le_sum h1) ?_
  rw [← Finset.mul_sum, Finset.sum_add_distrib]
  have e1 := sum_count_mul S (fun _ => (1 : ℚ)) r hrS
  have e2 := sum_count_mul S (fun _ => (1 : ℚ)) f hfS
  simp only [one_mul] at e1 e2
  rw [e1, e2]
  have b1 : (r.map (fun _ => (1 : ℚ))).sum = r.length := by simp
  have b2 : (f.map (fun _ => (1 : ℚ))).sum = f.length := by simp
  rw [b1, b2]
  have b3 : (r.length : ℚ) ≤ N := by exact_mod_cast hr
  have b4 : (f.length : ℚ) ≤ N := by exact_mod_cast hf
  have b5 : (0 : ℚ) ≤ N := by positivity
  nlinarith

theorem novikoff (S : Finset κ) (u : κ → ℚ) (δ : ℚ) (hδ : 0 ≤ δ) (N : Nat) (us : List (Update κ)) (hv : Valid us)
    (hS : ∀ p ∈ us, (∀ k ∈ p.1, k ∈ S) ∧ ∀ k ∈ p.2, k ∈ S)
    (hm : ∀ p ∈ us, (p.2.map u).sum + δ ≤ (p.1.map u).sum)
    (hN : ∀ p ∈ us, p.1.length ≤ N ∧ p.2.length ≤ N) :
    (us.length : ℚ) * δ ^ 2 ≤ (∑ k ∈ S, u k ^ 2) * (2 * N : ℚ) ^ 2 := by
  have hA : (us.length : ℚ) * δ ≤ ∑ k ∈ S, u k * wt us k := by
    clear hv hN
    induction us with
    | nil => simp [wt]
    | cons p us ih =>
      have h1 := ih (fun q hq => hS q (by simp [hq])) (fun q hq => hm q (by simp [hq]))
      have h2 := hm p (by simp)
      obtain ⟨h3, h4⟩ := hS p (by simp)
      have e : ∑ k ∈ S, u k * wt (p :: us) k = ∑ k ∈ S, u k * wt us k + ((p.1.map u).sum - (p.2.map u).sum) := by
        rw [← sum_count_mul S u p.1 h3, ← sum_count_mul S u p.2 h4, ← Finset.sum_sub_distrib, ← Finset.sum_add_distrib]
        refine Finset.sum_congr rfl (fun k _ => ?_)
        simp only [wt, List.map_cons, List.sum_cons]
        ring
      rw [e, List.length_cons]
      push_cast
      linarith
  have hB : ∑ k ∈ S, wt us k ^ 2 ≤ (us.length : ℚ) * (2 * N : ℚ) ^ 2 := by
    clear hm hA
    induction hv with
    | nil => simp [wt]
    | @cons r f us hv hle ih =>
      have h1 := ih (fun q hq => hS q (by simp [hq])) (fun q hq => hN q (by simp [hq]))
      obtain ⟨h3, h4⟩ := hS (r, f) (by simp)
      obtain ⟨h5, h6⟩ := hN (r, f) (by simp)
      have e : ∑ k ∈ S, wt ((r, f) :: us) k ^ 2 = ∑ k ∈ S, wt us k ^ 2 + 2 * ((r.map (wt us)).sum - (f.map (wt us)).sum) +
          ∑ k ∈ S, ((r.count k : ℚ) - (f.count k : ℚ)) ^ 2 := by
        rw [← sum_count_mul S (wt us) r h3, ← sum_count_mul S (wt us) f h4, ← Finset.sum_sub_distrib, Finset.mul_sum,
          ← Finset.sum_add_distrib, ← Finset.sum_add_distrib]
        refine Finset.sum_congr rfl (fun k _ => ?_)
        simp only [wt, List.map_cons, List.sum_cons]
        ring
      have h7 := sum_sq_bound S r f N h5 h6 h3 h4
      rw [e, List.length_cons]
      push_cast
      linarith
  have hC := Finset.sum_mul_sq_le_sq_mul_sq S u (wt us)
  have hU : 0 ≤ ∑ k ∈ S, u k ^ 2 := Finset.sum_nonneg (fun k _ => by positivity)
  cases us with
  | nil => simp only [List.length_nil, Nat.cast_zero, zero_mul]; positivity
  | cons p us =>
    have hn : (0 : ℚ) < ((p :: us).length : ℚ) := by simp; positivity
    generalize ((p :: us).length : ℚ) = n at hA hB hn
    have h1 : (n * δ) ^ 2 ≤ (∑ k ∈ S, u k * wt (p :: us) k) ^ 2 := by
      have : 0 ≤ n * δ := by positivity
      exact pow_le_pow_left₀ this hA 2
    have h2 : (∑ k ∈ S, u k ^ 2) * (∑ k ∈ S, wt (p :: us) k ^ 2) ≤ (∑ k ∈ S, u k ^ 2) * (n * (2 * N : ℚ) ^ 2) :=
      mul_le_mul_of_nonneg_left hB hU
    have h3 : n * (n * δ ^ 2) ≤ n * ((∑ k ∈ S, u k ^ 2) * (2 * N : ℚ) ^ 2) := by
      calc n * (n * δ ^ 2) = (n * δ) ^ 2 := by ring
        _ ≤ _ := h1
        _ ≤ _ := hC
        _ ≤ _ := h2
        _ = _ := by ring
    exact le_of_mul_le_mul_left h3 hn

theorem sum_value_sq (u : Vec κ) (hu : (u.map Prod.fst).Nodup) (S : Finset κ) :
    ∑ k ∈ S, value k u ^ 2 ≤ (u.map (fun e => e.2 ^ 2)).sum := by
  induction u generalizing S with
  | nil => simp [value]
  | cons e u ih =>
    obtain ⟨k', x⟩ := e
    simp only [List.map_cons, List.nodup_cons] at hu
    have h1 := ih hu.2 S
    have h0 : value k' u = 0 := value_absent k' u hu.1
    have e1 : ∀ k, value k ((k', x) :: u) ^ 2 = value k u ^ 2 + (if k' = k then x ^ 2 else 0) := by
      intro k
      by_cases hk : k' = k
      · subst hk; simp [value, h0]
      · simp [value, hk]
    simp only [e1, Finset.sum_add_distrib, Finset.sum_ite_eq, List.map_cons, List.sum_cons]
    have : (0 : ℚ) ≤ x ^ 2 := by positivity
    split <;> linarith

/-- **C57, training ends**: if some weights `u` tell the right analyses of every beginning of every sentence from all other
choices with the margin `δ`, and no choice has more than `N` features, then training from scratch makes at most `(2N)² |u|² / δ²` updates,
whatever the beam, the number of iterations and the order of the sentences. -/
theorem C57_updates (top : Nat → List (Item κ) → List (Item κ)) (ht : IsTop top) (beam : Nat) (hb : 0 < beam)
    (ft : List LexicalUnit → Features κ) (skip : Bool) (sents : List Sentence) (hc : ∀ s ∈ sents, Consistent s)
    (u : Vec κ) (hu : (u.map Prod.fst).Nodup) (δ : ℚ) (hδ : 0 ≤ δ) (N : Nat)
    (hm : ∀ s ∈ sents, ∀ pre, pre <+: s → ∀ t, Choice (units pre) t → t ≠ golds pre →
      pathScore u (ft (units s)) [] (ambiguous (units pre)) t + δ ≤ pathScore u (ft (units s)) [] (ambiguous (units pre)) (golds pre))
    (hN : ∀ s ∈ sents, ∀ pre, pre <+: s → ∀ t, Choice (units pre) t → (features (ft (units s)) (units pre) t).length ≤ N) :
    ∃ s', trainAll top beam ft skip (start []) sents = .ok s' ∧
      (s'.iterations : ℚ) * δ ^ 2 ≤ (u.map (fun e => e.2 ^ 2)).sum * (2 * N : ℚ) ^ 2 := by
  have hmain : ∀ (sents : List Sentence), (∀ s ∈ sents, Consistent s) →
      (∀ s ∈ sents, ∀ pre, pre <+: s → ∀ t, Choice (units pre) t → t ≠ golds pre →
        pathScore u (ft (units s)) [] (ambiguous (units pre)) t + δ ≤ pathScore u (ft (units s)) [] (ambiguous (units pre)) (golds pre)) →
      (∀ s ∈ sents, ∀ pre, pre <+: s → ∀ t, Choice (units pre) t → (features (ft (units s)) (units pre) t).length ≤ N) →
      ∀ (s : Averager κ) (us : List (Update κ)), Valid us → (∀ k, value k s.weights = wt us k) → s.iterations = us.length →
      (∀ p ∈ us, (p.2.map (fun k => value k u)).sum + δ ≤ (p.1.map (fun k => value k u)).sum) →
      (∀ p ∈ us, p.1.length ≤ N ∧ p.2.length ≤ N) →
      ∃ s' us', trainAll top beam ft skip s sents = .ok s' ∧ Valid us' ∧ s'.iterations = us'.length ∧
        (∀ p ∈ us', (p.2.map (fun k => value k u)).sum + δ ≤ (p.1.map (fun k => value k u)).sum) ∧
        (∀ p ∈ us', p.1.length ≤ N ∧ p.2.length ≤ N) := by
    intro sents
    induction sents with
    | nil => intro _ _ _ s us h1 h2 h3 h4 h5; exact ⟨s, us, rfl, h1, h3, h4, h5⟩
    | cons sent sents ih =>
      intro hc hm hN s us h1 h2 h3 h4 h5
      have ih' := ih (fun x hx => hc x (by simp [hx])) (fun x hx => hm x (by simp [hx])) (fun x hx => hN x (by simp [hx]))
      obtain ⟨s', e, h⟩ := C57_sentence top ht beam hb ft skip s sent (hc sent (by simp))
      rw [trainAll, e]
      rcases h with ⟨rfl, -⟩ | ⟨-, hi, pre, t, hp, hch, hne, hle, hval⟩
      · exact ih' s' us h1 h2 h3 h4 h5
      · have hgch : Choice (units pre) (golds pre) := by
          obtain ⟨z, hz⟩ := hp
          have := (hc sent (by simp)).1
          rw [← hz] at this
          unfold units golds at this ⊢
          rw [List.map_append, List.map_append] at this
          obtain ⟨t1, t2, e1, e2, e3⟩ := this.split
          obtain ⟨e4, -⟩ := List.append_inj e1 (by rw [e2.length]; simp)
          rw [e4]; exact e2
        refine ih' s' ((features (ft (units sent)) (units pre) (golds pre), features (ft (units sent)) (units pre) t) :: us)
          (.cons h1 ?_) ?_ ?_ ?_ ?_
        · rw [pathScore_eq, pathScore_eq] at hle
          simpa [features, h2] using hle
        · intro k
          rw [hval k, h2 k]
          simp only [wt, List.map_cons, List.sum_cons]
          ring
        · rw [hi, h3]; rfl
        · intro p hp'
          rcases List.mem_cons.1 hp' with rfl | hp'
          · have := hm sent (by simp) pre hp t hch hne
            rw [pathScore_eq, pathScore_eq] at this
            exact this
          · exact h4 p hp'
        · intro p hp'
          rcases List.mem_cons.1 hp' with rfl | hp'
          · exact ⟨hN sent (by simp) pre hp _ hgch, hN sent (by simp) pre hp t hch⟩
          · exact h5 p hp'
  obtain ⟨s', us', e, h1, h2, h3, h4⟩ := hmain sents hc hm hN (start []) [] .nil (fun k => by simp [start, value, wt]) rfl
    (by simp) (by simp)
  refine ⟨s', e, ?_⟩
  have hS := novikoff (us'.flatMap (fun p => p.1 ++ p.2)).toFinset (fun k => value k u) δ hδ N us' h1
    (by
      intro p hp
      refine ⟨fun k hk => ?_, fun k hk => ?_⟩ <;>
      · rw [List.mem_toFinset, List.mem_flatMap]
        exact ⟨p, hp, by simp [hk]⟩) h3 h4
  rw [h2]
  refine le_trans hS ?_
  exact mul_le_mul_of_nonneg_right (sum_value_sq u hu _) (by positivity)

theorem trainAll_append (top : Nat → List (Item κ) → List (Item κ)) (beam : Nat) (ft : List LexicalUnit → Features κ) (skip : Bool)
    (s : Averager κ) (a b : List Sentence) :
    trainAll top beam ft skip s (a ++ b) = (trainAll top beam ft skip s a).bind (fun s' => trainAll top beam ft skip s' b) := by
  induction a generalizing s with
  | nil => rfl
  | cons x a ih =>
    rw [List.cons_append, trainAll, trainAll]
    cases trainOne top beam ft skip s x with
    | ok s' => exact ih s'
    | fail => rfl
    | diverge => rfl
    | ub => rfl

theorem trainAll_mono {top : Nat → List (Item κ) → List (Item κ)} (ht : IsTop top) {beam : Nat} (hb : 0 < beam)
    {ft : List LexicalUnit → Features κ} {skip : Bool} (sents : List Sentence) (hc : ∀ s ∈ sents, Consistent s) (s : Averager κ) :
    ∃ s', trainAll top beam ft skip s sents = .ok s' ∧ s.iterations ≤ s'.iterations ∧
      (s'.iterations = s.iterations → s' = s ∧
        ∀ sent ∈ sents, tagSentence top beam s.weights (ft (units sent)) (units sent) = .ok (golds sent)) := by
  induction sents generalizing s with
  | nil => exact ⟨s, rfl, Nat.le_refl _, fun _ => ⟨rfl, by simp⟩⟩
  | cons sent sents ih =>
    obtain ⟨s1, e, h⟩ := C57_sentence top ht beam hb ft skip s sent (hc sent (by simp))
    obtain ⟨s', e', h1, h2⟩ := ih (fun x hx => hc x (by simp [hx])) s1
    refine ⟨s', by rw [trainAll, e]; exact e', ?_, ?_⟩
    · rcases h with ⟨rfl, -⟩ | ⟨-, hi, -⟩ <;> omega
    · intro hs
      rcases h with ⟨rfl, htag⟩ | ⟨-, hi, -⟩
      · obtain ⟨h3, h4⟩ := h2 hs
        refine ⟨h3, fun x hx => ?_⟩
        rcases List.mem_cons.1 hx with rfl | hx
        · exact htag
        · exact h4 x hx
      · omega

/-- **C57, convergence**: under the same conditions, with more iterations than this bound there is one after which the tagger,
with the running weights, answers the right analyses for all sentences of the iteration.  (The weights that `train` leaves are not these ones but
the averages of the weights after the updates.) -/
theorem C57_converges (top : Nat → List (Item κ) → List (Item κ)) (ht : IsTop top) (beam : Nat) (hb : 0 < beam)
    (ft : List LexicalUnit → Features κ) (skip : Bool) (orders : List (List Sentence)) (hc : ∀ o ∈ orders, ∀ s ∈ o, Consistent s)
    (u : Vec κ) (hu : (u.map Prod.fst).Nodup) (δ : ℚ) (hδ : 0 ≤ δ) (N : Nat)
    (hm : ∀ o ∈ orders, ∀ s ∈ o, ∀ pre, pre <+: s → ∀ t, Choice (units pre) t → t ≠ golds pre →
      pathScore u (ft (units s)) [] (ambiguous (units pre)) t + δ ≤ pathScore u (ft (units s)) [] (ambiguous (units pre)) (golds pre))
    (hN : ∀ o ∈ orders, ∀ s ∈ o, ∀ pre, pre <+: s → ∀ t, Choice (units pre) t → (features (ft (units s)) (units pre) t).length ≤ N)
    (hlen : (u.map (fun e => e.2 ^ 2)).sum * (2 * N : ℚ) ^ 2 < (orders.length : ℚ) * δ ^ 2) :
    ∃ before o after s, orders = before ++ o :: after ∧ trainAll top beam ft skip (start []) before.flatten = .ok s ∧
      trainAll top beam ft skip s o = .ok s ∧
      ∀ sent ∈ o, tagSentence top beam s.weights (ft (units sent)) (units sent) = .ok (golds sent) := by
  have hmem : ∀ s ∈ orders.flatten, ∃ o ∈ orders, s ∈ o := fun s hs => List.mem_flatten.1 hs
  obtain ⟨s', e, hle⟩ := C57_updates top ht beam hb ft skip orders.flatten
    (fun s hs => by obtain ⟨o, ho, h⟩ := hmem s hs; exact hc o ho s h) u hu δ hδ N
    (fun s hs => by obtain ⟨o, ho, h⟩ := hmem s hs; exact hm o ho s h)
    (fun s hs => by obtain ⟨o, ho, h⟩ := hmem s hs; exact hN o ho s h)
  have hlt : (s'.iterations : ℚ) * δ ^ 2 < (orders.length : ℚ) * δ ^ 2 := lt_of_le_of_lt hle hlen
  have hlt' : s'.iterations < orders.length := by
    have : (s'.iterations : ℚ) < (orders.length : ℚ) := lt_of_mul_lt_mul_right hlt (by positivity)
    exact_mod_cast this
  -- some iteration makes no update
  have hmain : ∀ (rest before : List (List Sentence)) (s : Averager κ), (∀ o ∈ rest, ∀ x ∈ o, Consistent x) →
      trainAll top beam ft skip (start []) before.flatten = .ok s →
      ∀ s', trainAll top beam ft skip s rest.flatten = .ok s' → s'.iterations < s.iterations + rest.length →
      ∃ b o a s, before ++ rest = b ++ o :: a ∧ trainAll top beam ft skip (start []) b.flatten = .ok s ∧
        trainAll top beam ft skip s o = .ok s ∧
        ∀ sent ∈ o, tagSentence top beam s.weights (ft (units sent)) (units sent) = .ok (golds sent) := by
    intro rest
    induction rest with
    | nil =>
      intro before s _ _ s' h1 h2
      simp only [List.flatten_nil, trainAll, Outcome.ok.injEq] at h1
      subst h1
      simp at h2
    | cons o rest ih =>
      intro before s hcr hb0 s' h1 h2
      obtain ⟨s1, e1, h3, h4⟩ := trainAll_mono ht hb (ft := ft) (skip := skip) o (hcr o (by simp)) s
      rw [List.flatten_cons, trainAll_append, e1] at h1
      by_cases hs : s1.iterations = s.iterations
      · obtain ⟨rfl, h5⟩ := h4 hs
        exact ⟨before, o, rest, s1, rfl, hb0, e1, h5⟩
      · obtain ⟨b, o', a, s2, h5, h6⟩ := ih (before ++ [o]) s1 (fun x hx => hcr x (by simp [hx]))
          (by rw [List.flatten_append, trainAll_append, hb0]; simpa [Outcome.bind] using e1) s' h1
          (by rw [List.length_cons] at h2; omega)
        exact ⟨b, o', a, s2, by rw [← h5]; simp, h6⟩
  exact hmain orders [] (start []) hc rfl s' e (by simpa [start] using hlt')

/-! ### Examples and counterexamples -/

/-- The analyses of the last word. -/
def exLast : List LexicalUnit → Features (List (Option Analysis)) := fun _ t _ _ => [t.reverse.take 1]

/-- The same and a feature that all analyses have. -/
def exBias : List LexicalUnit → Features (List (Option Analysis)) := fun _ t _ _ => [[], t.reverse.take 1]

def exGold : Sentence := [(some (an "b"), word "x" [an "a", an "b"])]

/-- The conditions of `C57_converges` are met: with 9 iterations, -/
theorem exGold_converges : ∃ before o after s, List.replicate 9 [exGold] = before ++ o :: after ∧
      trainAll topSort 1 exLast false (start []) before.flatten = .ok s ∧ trainAll topSort 1 exLast false s o = .ok s ∧
      ∀ sent ∈ o, tagSentence topSort 1 s.weights (exLast (units sent)) (units sent) = .ok (golds sent) := by
  have hmem : ∀ o ∈ List.replicate 9 [exGold], ∀ s ∈ o, s = exGold := by
    intro o ho s hs
    rw [List.eq_of_mem_replicate ho] at hs
    simpa using hs
  have hpre : ∀ pre, pre <+: exGold → pre = [] ∨ pre = exGold := by
    rintro pre ⟨z, hz⟩
    cases pre with
    | nil => exact Or.inl rfl
    | cons e pre =>
      right
      unfold exGold at hz ⊢
      simp at hz
      rw [hz.1, hz.2.1]
  have hch : ∀ t, Choice (units exGold) t → t = [some (an "a")] ∨ t = [some (an "b")] := by
    intro t h
    rcases choice_one h with ⟨-, h⟩ | ⟨a, ha, rfl⟩
    · exact absurd h (by decide)
    · have : a = an "a" ∨ a = an "b" := by simpa [word] using ha
      rcases this with rfl | rfl
      · exact Or.inl rfl
      · exact Or.inr rfl
  refine C57_converges topSort isTop_topSort 1 (by decide) exLast false (List.replicate 9 [exGold]) ?_ [([some (an "b")], 1), ([some (an "a")], -1)]
    (by decide) 2 (by decide) 1 ?_ ?_ (by decide +kernel)
  · intro o ho s hs
    rw [hmem o ho s hs]
    exact ⟨.some (by decide) .nil, by intro g u h; simp [exGold] at h; rw [h.1]; decide⟩
  · intro o ho s hs pre hp t ht hne
    rw [hmem o ho s hs] at hp ⊢
    rcases hpre pre hp with rfl | rfl
    · cases ht; exact absurd rfl hne
    · rcases hch t ht with rfl | rfl
      · decide +kernel
      · exact absurd rfl hne
  · intro o ho s hs pre hp t ht
    rw [hmem o ho s hs] at hp ⊢
    rcases hpre pre hp with rfl | rfl
    · cases ht; decide
    · rcases hch t ht with rfl | rfl <;> decide

/-- and a training run to the end. -/
example : train topSort 1 exLast false [] [[exGold], [exGold]] = .ok [([some (an "a")], -1), ([some (an "b")], 1)] := by decide +kernel

/-- **C57, violation**: a feature that the right and the chosen analyses share makes the average undefined. -/
theorem C57_shared_violation : train topSort 1 exBias false [] [[exGold], [exGold]] = .ub := by decide +kernel

/-- **C57, violation**: without iterations a variable without a value is read. -/
theorem C57_zero_iterations_violation (top : Nat → List (Item κ) → List (Item κ)) (beam : Nat) (ft : List LexicalUnit → Features κ) (skip : Bool) :
    train top beam ft skip [] [] = .ub := rfl

/-- **C57, violation**: a word whose only analysis is not the right one counts as an error of the tagger: an update
without features, which no training can avoid, and which counts in the averages. -/
theorem C57_forced_violation (top : Nat → List (Item κ) → List (Item κ)) (beam : Nat) (w : Vec κ) (ft : Features κ)
    (a g : Analysis) (x : Text) (h : a ≠ g) : trainSentence top beam w ft [(some g, ⟨x, [a]⟩)] = .update [] [] := by
  simp [trainSentence, trainLoop, extendAll, h]

/-- **C57, unavailable**: a word with several analyses of which none is the right one stops training unless `--skip-on-error` is given. -/
theorem C57_unavailable (top : Nat → List (Item κ) → List (Item κ)) (beam : Nat) (ft : List LexicalUnit → Features κ) (skip : Bool)
    (s : Averager κ) (g : Analysis) (u : LexicalUnit) (rest : Sentence) (hu : 2 ≤ u.analyses.length) (hg : g ∉ u.analyses) :
    trainOne top beam ft skip s ((some g, u) :: rest) = if skip then .ok s else .fail := by
  have hr : ∀ (ft : Features κ) (it : Item κ), rightItem s.weights ft 0 u.analyses g it = none := by
    intro ft it
    unfold rightItem
    have : u.analyses.filter (fun a => decide (a = g) && !decide (a.morphemes = [])) = [] := by
      rw [List.filter_eq_nil_iff]
      intro a ha
      have : a ≠ g := fun e => hg (e ▸ ha)
      simp [this]
    rw [this]; rfl
  rcases unit_cases u with h | ⟨a, h⟩ | ⟨a, b, r, h⟩
  · rw [h] at hu; simp at hu
  · rw [h] at hu; simp at hu
  · simp only [h] at hr
    simp only [trainOne, trainSentence, trainLoop, h, List.getElem?_cons_zero, Option.bind_some, hr]

end Verif.Percep
