import Verif.Parts.Spec
import Verif.Regex.Props
/-!
# C77: the predefined parts of words
-/
namespace Verif.Parts
open Verif.Transfer

/-! ## Matching -/

theorem one_nil (p : Char → Bool) : one p [] = [] := by simp only [one]
theorem one_cons (p : Char → Bool) (x : Char) (s : Text) : one p (x :: s) = if p x then [s] else [] := by simp only [one]

/-- Repetition takes all the pieces there are. -/
theorem iter_head {f : Text → List Text} {r : Text} (hr : f r = []) : ∀ (pieces : List Text) (k : Nat), pieces ≠ [] → pieces.length ≤ k →
    (∀ c post, (c :: post) <:+ pieces → f (c ++ post.flatten ++ r) = [post.flatten ++ r]) → (iter f k (pieces.flatten ++ r)).head? = some r
  | [], _, h, _, _ => absurd rfl h
  | c :: post, 0, _, hk, _ => by simp at hk
  | c :: post, k + 1, _, hk, hf => by
    have h1 := hf c post (List.suffix_refl _)
    simp only [iter, List.flatten_cons, h1, List.flatMap_cons, List.flatMap_nil, List.append_nil]
    cases post with
    | nil =>
      cases k with
      | zero => simp [iter]
      | succ k => simp [iter, hr]
    | cons c' post' =>
      have := iter_head hr (c' :: post') k (by simp) (by simpa using hk) (fun d p h => hf d p (h.trans (List.suffix_cons _ _)))
      rw [List.head?_append, this]; rfl

theorem flatten_single (a : Text) : (a.map fun c => [c]).flatten = a := by
  induction a with
  | nil => rfl
  | cons x a ih => simp [ih]

theorem iter_chars {f : Text → List Text} {r : Text} (hr : f r = []) (a : Text) (k : Nat) (h : a ≠ []) (hk : a.length ≤ k)
    (hf : ∀ x b, (x :: b) <:+ a → f (x :: (b ++ r)) = [b ++ r]) : (iter f k (a ++ r)).head? = some r := by
  have := iter_head hr (a.map fun c => [c]) k (by simpa using h) (by simpa using hk) (by
    rintro c post ⟨pre, e⟩
    obtain ⟨a1, a2, rfl, h1, h2⟩ := List.map_eq_append_iff.1 e.symm
    obtain ⟨x, b, rfl, h3, h4⟩ := List.map_eq_cons_iff.1 h2
    subst h3 h4
    have := hf x b ⟨a1, rfl⟩
    simpa [flatten_single] using this)
  rwa [flatten_single] at this

theorem findFrom_here {r : PRe} {n i : Nat} {s t : Text} (h : (r.run n s).head? = some t) : findFrom r n i s = some (i, i + (s.length - t.length)) := by
  cases s with
  | nil =>
    simp only [findFrom]
    cases hr : r.run n [] with
    | nil => rw [hr] at h; cases h
    | cons x l => rw [hr] at h; cases h; rfl
  | cons c s =>
    simp only [findFrom]
    cases hr : r.run n (c :: s) with
    | nil => rw [hr] at h; cases h
    | cons x l => rw [hr] at h; cases h; rfl

theorem findFrom_skip {r : PRe} {n : Nat} {s : Text} : ∀ (a : Text) (i : Nat), (∀ x b, (x :: b) <:+ a → r.run n (x :: (b ++ s)) = []) →
    findFrom r n i (a ++ s) = findFrom r n (i + a.length) s
  | [], i, _ => rfl
  | c :: a, i, h => by
    have h1 := h c a (List.suffix_refl _)
    simp only [List.cons_append, findFrom, h1]
    rw [findFrom_skip a (i + 1) (fun x b hx => h x b (hx.trans (List.suffix_cons _ _)))]
    simp only [List.length_cons]
    congr 1
    omega

theorem findFrom_none {r : PRe} {n : Nat} (h0 : r.run n [] = []) (a : Text) (i : Nat) (h : ∀ x b, (x :: b) <:+ a → r.run n (x :: b) = []) :
    findFrom r n i a = none := by
  have := findFrom_skip (r := r) (n := n) (s := []) a i (by simpa using h)
  rw [List.append_nil] at this
  rw [this]
  simp only [findFrom, h0]

/-! ## The parts -/

theorem suffix_mem {x : Char} {b a : Text} (h : (x :: b) <:+ a) : x ∈ a := by
  obtain ⟨p, rfl⟩ := h
  simp

/-- A tag is matched in one way. -/
theorem run_tag (n : Nat) (t s : Text) (ht : t ≠ []) (hg : '>' ∉ t) : tagP.run n ('<' :: t ++ '>' :: s) = [s] := by
  have key : ∀ (t : Text) (k : Nat), t ≠ [] → '>' ∉ t → t.length ≤ k →
      (iter (one fun x => decide (x ∉ ['>'])) k (t ++ '>' :: s)).flatMap (one fun x => decide (x = '>')) = [s] := by
    intro t
    induction t with
    | nil => intro k h; exact absurd rfl h
    | cons c t ih =>
      intro k _ hg hk
      have hc : c ≠ '>' := fun h => hg (by simp [h])
      cases k with
      | zero => simp at hk
      | succ k =>
        simp only [List.cons_append, iter, one_cons, List.mem_singleton, hc, not_false_eq_true, decide_true, if_true, List.flatMap_cons, List.flatMap_nil, List.append_nil,
          List.flatMap_append]
        cases t with
        | nil =>
          have : iter (one fun x => decide (x ∉ ['>'])) k ('>' :: s) = [] := by
            cases k with
            | zero => rfl
            | succ k => simp [iter, one_cons]
          simp only [List.mem_singleton, List.nil_append] at this ⊢
          rw [this]
          simp [one_cons]
        | cons d t =>
          have h1 := ih k (by simp) (fun h => hg (by simp [h])) (by simpa using hk)
          have hd : d ≠ '>' := fun h => hg (by simp [h])
          simp only [List.mem_singleton] at h1
          rw [h1]
          simp [one_cons, hd]
  simp only [tagP, PRe.run, runSeq, List.cons_append, one_cons, decide_true, if_true, List.flatMap_cons, List.flatMap_nil, List.append_nil]
  have := key t (t ++ '>' :: s).length ht hg (by simp)
  have e : (fun s' : Text => (one (fun x => decide (x = '>')) s').flatMap fun s => [s]) = one fun x => decide (x = '>') := by
    funext s'
    simp [List.flatMap_singleton']
  rw [e]
  exact this

theorem run_tag_none (n : Nat) (s : Text) (h : s.head? ≠ some '<') : tagP.run n s = [] := by
  cases s with
  | nil => simp [tagP, PRe.run, runSeq, one_nil]
  | cons c s =>
    have : c ≠ '<' := by simpa using h
    simp [tagP, PRe.run, runSeq, one_cons, this]

variable {l : Lu}

theorem Lu.Fine.noLt (h : l.Fine) : ∀ c ∈ l.head ++ l.queueText, c ≠ '<' := by
  intro c hc
  rcases List.mem_append.1 hc with hc | hc
  · exact (h.head.2 c hc).1
  · unfold Lu.queueText at hc
    cases hq : l.queue with
    | none => rw [hq] at hc; simp at hc
    | some q =>
      rw [hq] at hc
      obtain ⟨d, r, rfl, h1, _, h3⟩ := h.queue q hq
      rcases List.mem_cons.1 hc with rfl | hc
      · decide
      · rcases List.mem_cons.1 hc with rfl | hc
        · rintro rfl; simp at h1
        · rintro rfl; exact h3 hc

theorem tagText_head (l : Lu) : l.tagText = [] ∨ ∃ s, l.tagText = '<' :: s := by
  unfold Lu.tagText
  cases l.tags with
  | nil => exact Or.inl rfl
  | cons t ts => exact Or.inr ⟨t ++ ['>'] ++ ts.flatMap fun t => '<' :: t ++ ['>'], by simp⟩

/-- `"<"` is not in the word. -/
theorem Lu.Fine.noQuote (h : l.Fine) : ∀ s, l.tagText ≠ '<' :: '"' :: s := by
  intro s hs
  unfold Lu.tagText at hs
  cases ht : l.tags with
  | nil => rw [ht] at hs; simp at hs
  | cons t ts =>
    rw [ht] at hs
    obtain ⟨h1, _, h3⟩ := h.tags t (by rw [ht]; simp)
    cases t with
    | nil => exact h1 rfl
    | cons c t =>
      simp only [List.flatMap_cons, List.cons_append, List.cons.injEq, true_and] at hs
      exact h3 (by simp [hs.1])

/-- The alternative `"\<"` is not used. -/
theorem quote_none {c : Char} (hc : c = '<' ∨ c = '#') (n : Nat) {a r : Text} {x : Char} {b : Text} (hx : (x :: b) <:+ a) (ha : ∀ y ∈ a, y ≠ c) (hr : ∀ s, r ≠ c :: '"' :: s) :
    runSeq n [.chr '"', .esc c, .chr '"'] (x :: (b ++ r)) = [] := by
  by_cases hq : x = '"'
  · simp only [PRe.run, runSeq, one_cons, hq, decide_true, if_true, List.flatMap_cons, List.flatMap_nil, List.append_nil]
    cases b with
    | nil =>
      cases r with
      | nil => simp [one_nil]
      | cons y r =>
        by_cases hy : y = c
        · subst hy
          cases r with
          | nil => simp [one_cons, one_nil]
          | cons z r =>
            have : z ≠ '"' := fun h => hr r (by rw [h])
            simp [one_cons, this]
        · simp [one_cons, hy]
    | cons y b =>
      have hy : y ≠ c := ha y (by
        obtain ⟨p, rfl⟩ := hx
        simp)
      simp [one_cons, hy]
  · simp [PRe.run, runSeq, one_cons, hq]

theorem find_lem (h : l.Fine) : lemP.toRe.find l.render = some (0, (l.head ++ l.queueText).length) := by
  have hrun : (lemP.run l.render.length l.render).head? = some l.tagText := by
    simp only [lemP, PRe.run, runSeq, if_true, List.flatMap_cons, List.flatMap_nil, List.append_nil]
    simp only [List.flatMap_singleton']
    unfold Lu.render
    apply iter_chars
    · rcases tagText_head l with e | ⟨s, e⟩
      · rw [e]; simp [runAlt, PRe.run, runSeq, one_nil]
      · rw [e]; simp [runAlt, PRe.run, runSeq, one_cons]
    · simp [h.head.1]
    · simp
    · intro x b hx
      have hl : x ≠ '<' := h.noLt x (suffix_mem hx)
      have hq := quote_none (Or.inl rfl) (n := (l.head ++ l.queueText ++ l.tagText).length) hx (fun y hy => h.noLt y hy) (r := l.tagText) h.noQuote
      simp only [runAlt, PRe.run, hq, one_cons, List.mem_singleton, hl, not_false_eq_true, decide_true, if_true, List.append_nil]
  have := findFrom_here (i := 0) hrun
  show findFrom lemP l.render.length 0 l.render = _
  rw [this]
  simp [Lu.render]
  omega

theorem find_lemh (h : l.Fine) : lemhP.toRe.find l.render = some (0, l.head.length) := by
  have hrun : (lemhP.run l.render.length l.render).head? = some (l.queueText ++ l.tagText) := by
    simp only [lemhP, PRe.run, runSeq, if_true, List.flatMap_cons, List.flatMap_nil, List.append_nil]
    simp only [List.flatMap_singleton']
    have hnext : (l.queueText ++ l.tagText = [] ∨ ∃ s, l.queueText ++ l.tagText = '<' :: s ∧ l.tagText = '<' :: s) ∨ ∃ c s, l.queueText ++ l.tagText = '#' :: c :: s ∧ c ∈ ['-', ' ', '_'] := by
      cases hq : l.queue with
      | none =>
        left
        have : l.queueText = [] := by simp [Lu.queueText, hq]
        rw [this]
        rcases tagText_head l with e | ⟨s, e⟩
        · left; simpa using e
        · right; exact ⟨s, by simpa using e, e⟩
      | some q =>
        right
        obtain ⟨c, r, rfl, h1, _⟩ := h.queue q hq
        exact ⟨c, r ++ l.tagText, by simp [Lu.queueText, hq], h1⟩
    have hlt : ∀ s, l.queueText ++ l.tagText ≠ '<' :: '"' :: s := by
      intro s hs
      rcases hnext with (e | ⟨s', e, e'⟩) | ⟨c, s', e, _⟩
      · rw [e] at hs; cases hs
      · rw [e] at hs; rw [hs] at e; cases hs; exact h.noQuote s e'
      · rw [e] at hs; cases hs
    have hha : ∀ s, l.queueText ++ l.tagText ≠ '#' :: '"' :: s := by
      intro s hs
      rcases hnext with (e | ⟨s', e, e'⟩) | ⟨c, s', e, hc⟩
      · rw [e] at hs; cases hs
      · rw [e] at hs; cases hs
      · rw [e] at hs; cases hs; simp at hc
    show (iter _ l.render.length l.render).head? = _
    have er : l.render = l.head ++ (l.queueText ++ l.tagText) := by simp [Lu.render]
    rw [er]
    apply iter_chars
    · rcases hnext with (e | ⟨s', e, e'⟩) | ⟨c, s', e, hc⟩
      · rw [e]; simp [runAlt, PRe.run, runSeq, one_nil]
      · rw [e]; simp [runAlt, PRe.run, runSeq, one_cons]
      · rw [e]; simp [runAlt, PRe.run, runSeq, one_cons]
    · exact h.head.1
    · simp
    · intro x b hx
      have hl := h.head.2 x (suffix_mem hx)
      have hq := fun n => quote_none (Or.inl rfl) n hx (fun y hy => (h.head.2 y hy).1) hlt
      have hq' := fun n => quote_none (Or.inr rfl) n hx (fun y hy => (h.head.2 y hy).2) hha
      simp only [runAlt, PRe.run, hq, hq', one_cons, List.append_nil]
      simp [hl.1, hl.2]
  have := findFrom_here (i := 0) hrun
  show findFrom lemhP l.render.length 0 l.render = _
  rw [this]
  simp [Lu.render]

theorem find_whole {t : Text} (h : t ≠ []) : wholeP.toRe.find t = some (0, t.length) := by
  have hrun : (wholeP.run t.length t).head? = some [] := by
    simp only [wholeP, PRe.run]
    have := iter_chars (f := one fun _ => true) (r := []) (one_nil _) t t.length h (Nat.le_refl _) (by intro x b _; simp [one_cons])
    rwa [List.append_nil] at this
  have := findFrom_here (i := 0) hrun
  show findFrom wholeP t.length 0 t = _
  rw [this]
  simp

theorem find_tags (h : l.Fine) : tagsP.toRe.find l.render = if l.tags = [] then none else some ((l.head ++ l.queueText).length, l.render.length) := by
  show findFrom tagsP l.render.length 0 l.render = _
  have hskip : findFrom tagsP l.render.length 0 l.render = findFrom tagsP l.render.length (0 + (l.head ++ l.queueText).length) l.tagText := by
    conv => lhs; rw [show l.render = l.head ++ l.queueText ++ l.tagText from rfl]
    apply findFrom_skip
    intro x b hx
    have hl := h.noLt x (suffix_mem hx)
    have : tagP.run l.render.length (x :: (b ++ l.tagText)) = [] := run_tag_none _ _ (by simpa using hl)
    show iter (tagP.run l.render.length) _ _ = []
    simp only [List.length_cons, iter, this, List.flatMap_nil]
  rw [hskip]
  by_cases ht : l.tags = []
  · rw [if_pos ht]
    simp [Lu.tagText, ht, findFrom, tagsP, PRe.run, iter]
  · rw [if_neg ht]
    have hrun : (tagsP.run l.render.length l.tagText).head? = some [] := by
      simp only [tagsP, PRe.run]
      have e : l.tagText = (l.tags.map fun t => '<' :: t ++ ['>']).flatten ++ [] := by simp [Lu.tagText, List.flatMap_def]
      rw [e]
      apply iter_head
      · exact run_tag_none _ _ (by simp)
      · simpa using ht
      · have : ∀ ts : List Text, ts.length ≤ (ts.map fun t => '<' :: t ++ ['>']).flatten.length := by
          intro ts
          induction ts with
          | nil => simp
          | cons t ts ih => simp at ih ⊢; omega
        simpa using this l.tags
      · rintro c post ⟨pre, e⟩
        obtain ⟨a1, a2, e1, h1, h2⟩ := List.map_eq_append_iff.1 e.symm
        obtain ⟨t, ts, rfl, h3, h4⟩ := List.map_eq_cons_iff.1 h2
        subst h3
        obtain ⟨h5, h6, _⟩ := h.tags t (by rw [e1]; simp)
        have := run_tag l.render.length t (post.flatten ++ []) h5 (fun hx => (h6 _ hx).2.1 rfl)
        simpa using this
    rw [findFrom_here hrun]
    simp [Lu.render]
    omega

theorem find_lemq (h : l.Fine) : lemqP.toRe.find l.render = if l.queue = none then none else some (l.head.length, (l.head ++ l.queueText).length) := by
  show findFrom lemqP l.render.length 0 l.render = _
  have hno : ∀ (n : Nat) (x : Char) (s : Text), x ≠ '#' → lemqP.run n (x :: s) = [] := by
    intro n x s hx
    simp [lemqP, PRe.run, runSeq, one_cons, hx]
  have hskip : findFrom lemqP l.render.length 0 l.render = findFrom lemqP l.render.length (0 + l.head.length) (l.queueText ++ l.tagText) := by
    conv => lhs; rw [show l.render = l.head ++ (l.queueText ++ l.tagText) by simp [Lu.render]]
    have := findFrom_skip (r := lemqP) (n := l.render.length) (s := l.queueText ++ l.tagText) l.head 0 (fun x b hx => hno _ _ _ (h.head.2 x (suffix_mem hx)).2)
    simpa [Lu.render] using this
  rw [hskip]
  cases hq : l.queue with
  | none =>
    rw [if_pos rfl]
    have e : l.queueText = [] := by simp [Lu.queueText, hq]
    rw [e, List.nil_append]
    apply findFrom_none
    · simp [lemqP, PRe.run, runSeq, one_nil]
    · intro x b hx
      apply hno
      have := suffix_mem hx
      unfold Lu.tagText at this
      obtain ⟨t, ht, hx⟩ := List.mem_flatMap.1 this
      simp only [List.cons_append, List.mem_cons, List.mem_append, List.not_mem_nil, or_false] at hx
      rcases hx with rfl | hx | rfl
      · decide
      · exact ((h.tags t ht).2.1 x hx).2.2
      · decide
  | some q =>
    rw [if_neg (by simp)]
    obtain ⟨c, r, rfl, h1, h2, h3⟩ := h.queue q hq
    have e : l.queueText = '#' :: c :: r := by simp [Lu.queueText, hq]
    have hrun : (lemqP.run l.render.length (l.queueText ++ l.tagText)).head? = some l.tagText := by
      rw [e]
      simp only [lemqP, PRe.run, runSeq, List.cons_append, one_cons, decide_true, if_true, List.flatMap_cons, List.flatMap_nil, List.append_nil, h1]
      simp only [List.flatMap_singleton']
      apply iter_chars
      · rcases tagText_head l with e | ⟨s, e⟩
        · rw [e]; exact one_nil _
        · rw [e]; simp [one_cons]
      · exact h2
      · simp
      · intro x b hx
        have : x ≠ '<' := by rintro rfl; exact h3 (suffix_mem hx)
        simp [one_cons, this]
    rw [findFrom_here hrun]
    simp

/-! ## What rules see -/

theorem matchText_of {re : Re} {a m b : Text} (h : re.find (a ++ m ++ b) = some (a.length, (a ++ m).length)) : re.matchText (a ++ m ++ b) = m := by
  simp only [Re.matchText, h]
  simp

theorem replace_of {re : Re} {a m b v : Text} (h : re.find (a ++ m ++ b) = some (a.length, (a ++ m).length)) : (re.replace (a ++ m ++ b) v).1 = a ++ v ++ b := by
  simp only [Re.replace, h]
  simp

/-- **C77.** Of a word, `lem` is the lemma (with the invariable part), `lemh` the lemma before the invariable part, `lemq` the invariable part, `tags` all tags, and
`whole` the whole word. -/
theorem C77_read_partial (h : l.Fine) (other : Text → Re) :
    (attrOf other t!"lem").matchText l.render = l.head ++ l.queueText ∧
    (attrOf other t!"lemh").matchText l.render = l.head ∧
    (attrOf other t!"lemq").matchText l.render = l.queueText ∧
    (attrOf other t!"tags").matchText l.render = l.tagText ∧
    (attrOf other t!"whole").matchText l.render = l.render := by
  have hne : l.render ≠ [] := by simp [Lu.render, h.head.1]
  refine ⟨?_, ?_, ?_, ?_, ?_⟩
  · show lemP.toRe.matchText _ = _
    have := matchText_of (re := lemP.toRe) (a := []) (m := l.head ++ l.queueText) (b := l.tagText) (find_lem h)
    exact this
  · show lemhP.toRe.matchText _ = _
    have e : l.render = [] ++ l.head ++ (l.queueText ++ l.tagText) := by simp [Lu.render]
    have hf := find_lemh h
    rw [e] at hf ⊢
    exact matchText_of hf
  · show lemqP.toRe.matchText _ = _
    have hf := find_lemq h
    by_cases hq : l.queue = none
    · rw [if_pos hq] at hf
      simp [Re.matchText, hf, Lu.queueText, hq]
    · rw [if_neg hq] at hf
      exact matchText_of hf
  · show tagsP.toRe.matchText _ = _
    have hf := find_tags h
    by_cases ht : l.tags = []
    · rw [if_pos ht] at hf
      simp [Re.matchText, hf, Lu.tagText, ht]
    · rw [if_neg ht] at hf
      have e : l.render = (l.head ++ l.queueText) ++ l.tagText ++ [] := by simp [Lu.render]
      rw [e] at hf ⊢
      exact matchText_of (by simpa using hf)
  · show wholeP.toRe.matchText _ = _
    simp [Re.matchText, find_whole hne]

/-- **C77.** Assigning a value to one of these parts replaces it and nothing else; assigning to an absent part changes nothing. -/
theorem C77_assign_partial (h : l.Fine) (other : Text → Re) (v : Text) :
    ((attrOf other t!"lem").replace l.render v).1 = v ++ l.tagText ∧
    ((attrOf other t!"lemh").replace l.render v).1 = v ++ l.queueText ++ l.tagText ∧
    ((attrOf other t!"lemq").replace l.render v).1 = (if l.queue = none then l.render else l.head ++ v ++ l.tagText) ∧
    ((attrOf other t!"tags").replace l.render v).1 = (if l.tags = [] then l.render else l.head ++ l.queueText ++ v) ∧
    ((attrOf other t!"whole").replace l.render v).1 = v := by
  have hne : l.render ≠ [] := by simp [Lu.render, h.head.1]
  refine ⟨?_, ?_, ?_, ?_, ?_⟩
  · show (lemP.toRe.replace _ _).1 = _
    exact replace_of (re := lemP.toRe) (a := []) (m := l.head ++ l.queueText) (b := l.tagText) (find_lem h)
  · show (lemhP.toRe.replace _ _).1 = _
    have e : l.render = [] ++ l.head ++ (l.queueText ++ l.tagText) := by simp [Lu.render]
    have hf := find_lemh h
    rw [e] at hf ⊢
    rw [replace_of hf]
    simp
  · show (lemqP.toRe.replace _ _).1 = _
    have hf := find_lemq h
    by_cases hq : l.queue = none
    · rw [if_pos hq] at hf ⊢
      simp [Re.replace, hf]
    · rw [if_neg hq] at hf ⊢
      exact replace_of hf
  · show (tagsP.toRe.replace _ _).1 = _
    have hf := find_tags h
    by_cases ht : l.tags = []
    · rw [if_pos ht] at hf ⊢
      simp [Re.replace, hf]
    · rw [if_neg ht] at hf ⊢
      have e : l.render = (l.head ++ l.queueText) ++ l.tagText ++ [] := by simp [Lu.render]
      rw [e] at hf ⊢
      rw [replace_of (by simpa using hf)]
      simp
  · show (wholeP.toRe.replace _ _).1 = _
    simp [Re.replace, find_whole hne]

/-- `take# out<vblex><past>` -/
def exLu : Lu := ⟨t!"take", some t!" out", [t!"vblex", t!"past"]⟩
theorem exLu_fine : exLu.Fine := ⟨by decide, by intro q hq; cases hq; exact ⟨_, _, rfl, by decide, by decide, by decide⟩, by decide⟩
example : (attrOf (fun _ => ⟨fun _ => none⟩) t!"lemh").matchText t!"take# out<vblex><past>" = t!"take" ∧
    ((attrOf (fun _ => ⟨fun _ => none⟩) t!"lemq").replace t!"take# out<vblex><past>" t!"# off").1 = t!"take# off<vblex><past>" :=
  ⟨(C77_read_partial exLu_fine _).2.1, (C77_assign_partial exLu_fine _ _).2.2.1⟩

/-! ## Chunks -/

theorem find_content_queue (q : Text) (h : q ≠ []) : contentP.toRe.find ('{' :: q) = some (0, ('{' :: q).length) := by
  have hrun : (contentP.run ('{' :: q).length ('{' :: q)).head? = some [] := by
    simp only [contentP, PRe.run, runSeq, one_cons, decide_true, if_true, List.flatMap_cons, List.flatMap_nil, List.append_nil]
    simp only [List.flatMap_singleton']
    have := iter_chars (f := one fun _ => true) (r := []) (one_nil _) q q.length h (Nat.le_refl _) (by intro x b _; simp [one_cons])
    rwa [List.append_nil] at this
  have := findFrom_here (i := 0) hrun
  show findFrom contentP _ 0 _ = _
  rw [this]
  simp

theorem find_content_none (t : Text) (h : '{' ∉ t) : contentP.toRe.find t = none := by
  apply findFrom_none
  · simp [contentP, PRe.run, runSeq, one_nil]
  · intro x b hx
    have : x ≠ '{' := by rintro rfl; exact h (suffix_mem hx)
    simp [contentP, PRe.run, runSeq, one_cons, this]

/-- **C77.** Of a chunk with at least one tag, `lem` and `tags` are those of the head, `whole` is the head with what is inside, and `content` is what is inside with its braces. -/
theorem C77_chunk_partial (h : l.Fine) (ht : l.tags ≠ []) (hb : '{' ∉ l.render) (other : Text → Re) (w : IWord) (hw : w.chunk = l.render) (c : Text) (hc : w.queue = '{' :: c ++ ['}']) :
    w.chunkPart (attrOf other t!"lem") = l.head ++ l.queueText ∧
    w.chunkPart (attrOf other t!"tags") = l.tagText ∧
    w.chunkPart (attrOf other t!"whole") = l.render ++ '{' :: c ++ ['}'] ∧
    w.chunkPart (attrOf other t!"content") = '{' :: c ++ ['}'] := by
  obtain ⟨h1, _, _, h4, h5⟩ := C77_read_partial h other
  have hne : l.render ≠ [] := by simp [Lu.render, h.head.1]
  have htag : 0 < l.tagText.length := by
    cases hh : l.tags with
    | nil => exact absurd hh ht
    | cons t ts => simp [Lu.tagText, hh]
  have hhead : 0 < l.head.length := List.length_pos_iff.2 h.head.1
  have hlen : l.render.length = l.head.length + l.queueText.length + l.tagText.length := by simp [Lu.render]; omega
  refine ⟨?_, ?_, ?_, ?_⟩
  · simp only [IWord.chunkPart, hw, h1]
    rw [if_neg (by simp [h.head.1]), if_neg (by rw [List.length_append]; omega)]
  · simp only [IWord.chunkPart, hw, h4]
    rw [if_neg (by omega), if_neg (by omega)]
  · simp only [IWord.chunkPart, hw, h5]
    rw [if_neg (by have := List.length_pos_iff.2 hne; omega), if_pos trivial, hc]
    show wholeP.toRe.matchText _ = _
    rw [List.cons_append, List.append_assoc, List.cons_append, Re.matchText, find_whole (by simp)]
    simp only [List.drop_zero, Nat.sub_zero, List.take_length]
  · have e1 : (attrOf other t!"content").matchText l.render = [] := by
      show contentP.toRe.matchText _ = _
      simp [Re.matchText, find_content_none _ hb]
    have e2 : (attrOf other t!"content").matchText ('{' :: c ++ ['}']) = '{' :: c ++ ['}'] := by
      show contentP.toRe.matchText _ = _
      simp only [List.cons_append, Re.matchText, find_content_queue (c ++ ['}']) (by simp), List.drop_zero, Nat.sub_zero, List.take_length]
    simp only [IWord.chunkPart, hw, hc, e1, e2]
    simp

/-! ## Where it fails -/

/-- **Finding.** An escaped `<` in a lemma is taken for the beginning of the tags: of `a\<b<n>`, `lem` is `a\` and `tags` is `<b<n>`. -/
theorem C77_escape_violation : lemP.toRe.matchText t!"a\\<b<n>" = t!"a\\" ∧ tagsP.toRe.matchText t!"a\\<b<n>" = t!"<b<n>" := by decide +kernel

/-- **Finding.** A `#` that does not begin an invariable part is in neither of the two parts of the lemma: of `C#<n>`, `lem` is `C#`, `lemh` is `C` and `lemq` is empty.  An escaped
one (`a\# b<n>`) is taken for the beginning of an invariable part. -/
theorem C77_hash_violation : lemP.toRe.matchText t!"C#<n>" = t!"C#" ∧ lemhP.toRe.matchText t!"C#<n>" = t!"C" ∧ lemqP.toRe.matchText t!"C#<n>" = [] ∧
    lemhP.toRe.matchText t!"a\\# b<n>" = t!"a\\" ∧ lemqP.toRe.matchText t!"a\\# b<n>" = t!"# b" := by decide +kernel

/-- **Finding.** An escaped brace in the name of a chunk is taken for the beginning of what is inside: `content` of `a\{b<SN>{^x$}` is `{b<SN>`. -/
theorem C77_brace_violation : ∃ w, IWord.init t!"a\\{b<SN>{^x$}" = .ok w ∧ w.chunk = t!"a\\{b<SN>" ∧ w.chunkPart contentP.toRe = t!"{b<SN>" := by
  refine ⟨⟨t!"a\\{b<SN>", t!"{^x$}", []⟩, by decide +kernel, rfl, by decide +kernel⟩

end Verif.Parts
