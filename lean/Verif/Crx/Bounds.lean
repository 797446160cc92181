import Verif.Crx.Props
import Verif.Caps.Props
/-!
# The compiled rules look no further back than the words that were read
-/
namespace Verif.Crx
open Verif.Caps (Mark Bounded)

inductive St where
  | between | inside | needMark | needRule | done | bad
  deriving DecidableEq

def St.next : St → Lab → St
  | .between, .inp a => if a = nullBoundary then .between else if a = wordBoundary then .bad else .inside
  | .between, .bound => .needRule
  | .inside, .inp a => if a = nullBoundary then .bad else if a = wordBoundary then .bad else .inside
  | .inside, .bound => .needMark
  | .needMark, .mark _ => .between
  | .needRule, .rule _ => .done
  | _, _ => .bad

def st (u : List Lab) : St := u.foldl St.next .between

theorem st_concat (u : List Lab) (a : Lab) : st (u ++ [a]) = (st u).next a := by unfold st; rw [List.foldl_append]; rfl

theorem next_bad (a : Lab) : St.bad.next a = .bad := by cases a <;> rfl

theorem fold_bad (v : List Lab) : v.foldl St.next .bad = .bad := by
  induction v with
  | nil => rfl
  | cons a v ih => rw [List.foldl_cons, next_bad, ih]

theorem inner_inside {w : List Lab} (h : ∀ l ∈ w, Inner l) : w.foldl St.next .inside = .inside := by
  induction w with
  | nil => rfl
  | cons a w ih =>
    obtain ⟨x, rfl, h1, h2⟩ := h a (by simp)
    rw [List.foldl_cons]
    simp only [St.next, if_neg h1, if_neg h2]
    exact ih (fun l hl => h l (by simp [hl]))

theorem Parts.st {x : List Lab} (h : Parts x) : Crx.st x = .between := by
  unfold Crx.st
  induction h with
  | nil => rfl
  | start _ ih => rw [List.foldl_cons]; simp only [St.next, if_pos]; exact ih
  | @word w s k h1 h2 _ ih =>
    cases w with
    | nil => exact absurd rfl h1
    | cons a w =>
      obtain ⟨x, rfl, h3, h4⟩ := h2 a (by simp)
      have e1 : (Lab.inp x :: w).foldl St.next .between = .inside := by
        rw [List.foldl_cons]
        simp only [St.next, if_neg h3, if_neg h4]
        exact inner_inside (fun l hl => h2 l (by simp [hl]))
      rw [List.foldl_append, e1]
      exact ih

theorem Full.st {u : List Lab} (h : Full u) : Crx.st u = .done := by
  obtain ⟨x, k, hx, rfl⟩ := h
  have := hx.st
  unfold Crx.st at this ⊢
  rw [List.foldl_append, this]
  rfl

theorem Good.st_ok {m : Trans} (h : Good m) {u : List Lab} {p : Nat} (hp : Path m.edges m.initial u p) : Crx.st u ≠ .bad := by
  rcases List.eq_nil_or_concat u with rfl | ⟨u, a, rfl⟩
  · intro hx; cases hx
  · rw [List.concat_eq_append] at hp ⊢
    obtain ⟨q, h1, h2⟩ := (path_append h.noEmpty).1 hp
    obtain ⟨r, h3, h4⟩ := (path_cons h.noEmpty).1 h2
    have h5 := path_nil h.noEmpty h4
    subst h5
    obtain ⟨_, v, f, _, h6, h7⟩ := h.useful _ h3
    have h8 := (h.full (u ++ [a] ++ v) ⟨f, h7, hp.append h6⟩).st
    intro hb
    unfold Crx.st at h8 hb
    rw [List.foldl_append, hb, fold_bad] at h8
    cases h8

/-- The marks, and those that must come. -/
def cnt (u : List Lab) : Nat := (marks u).length + if st u = .needMark then 1 else 0

/-- Marks for at most `n` words. -/
def Bound (m : Trans) (n : Nat) (S : List Thread) : Prop :=
  ∀ th ∈ S, ∃ u, Path m.edges m.initial u th.1 ∧ th.2 = outs u ∧ st u ≠ .inside ∧ cnt u ≤ n

/-- In a word. -/
def BoundI (m : Trans) (n : Nat) (S : List Thread) : Prop :=
  ∀ th ∈ S, ∃ u, Path m.edges m.initial u th.1 ∧ th.2 = outs u ∧ (marks u).length ≤ n

theorem Bound.inside {m : Trans} {n : Nat} {S : List Thread} (h : Bound m n S) : BoundI m n S := by
  intro th hth
  obtain ⟨u, h1, h2, _, h3⟩ := h th hth
  refine ⟨u, h1, h2, ?_⟩
  unfold cnt at h3
  omega

/-- A label without input changes nothing. -/
theorem silent_next {m : Trans} (h : Good m) {u : List Lab} {a : Lab} {p : Nat} (hp : Path m.edges m.initial (u ++ [a]) p) (ha : a.input = none) :
    st u ≠ .inside ∧ st (u ++ [a]) ≠ .inside ∧ cnt (u ++ [a]) = cnt u := by
  have hb := h.st_ok hp
  unfold cnt
  rw [marks_append, st_concat] at *
  cases hs : st u <;> cases a <;> simp_all [St.next, Lab.input, marks, markOfLab]

theorem silents_next {m : Trans} (h : Good m) {u v : List Lab} {p : Nat} (hp : Path m.edges m.initial (u ++ v) p) (hv : Silent v) :
    (v = [] ∨ st u ≠ .inside) ∧ (st u ≠ .inside → st (u ++ v) ≠ .inside) ∧ cnt (u ++ v) = cnt u := by
  induction v generalizing u with
  | nil => simp
  | cons a v ih =>
    have e : u ++ a :: v = (u ++ [a]) ++ v := by simp
    rw [e] at hp ⊢
    obtain ⟨q, h1, _⟩ := (path_append h.noEmpty).1 hp
    obtain ⟨h2, h3, h4⟩ := silent_next h h1 (hv a (by simp))
    obtain ⟨_, h6, h7⟩ := ih hp (fun b hb => hv b (by simp [hb]))
    exact ⟨Or.inr h2, fun _ => h6 h3, h7.trans h4⟩

theorem Bound.closure {m : Trans} (h : Good m) {n : Nat} {S : List Thread} (hS : Bound m n S) : Bound m n (closure m m.next S) := by
  intro th hth
  obtain ⟨th0, h0, v, h1, h2, h3⟩ := h.closure.1 hth
  obtain ⟨u, h4, h5, h6, h7⟩ := hS th0 h0
  obtain ⟨_, h8, h9⟩ := silents_next h (h4.append h2) h1
  exact ⟨u ++ v, h4.append h2, by rw [h3, h5, outs_append], h8 h6, by rw [h9]; exact h7⟩

theorem Bound.start {m : Trans} (h : Good m) : Bound m 0 (startState m) := by
  unfold startState
  apply Bound.closure h
  intro th hth
  rw [List.mem_singleton.1 hth]
  refine ⟨[], .nil _, rfl, ?_, ?_⟩
  · intro hx; cases hx
  · decide

theorem Bound.optional {m : Trans} (h : Good m) {n : Nat} {S : List Thread} (hS : Bound m n S) {b : Sym} (hb : b = nullBoundary ∨ b = wordBoundary) :
    Bound m n (stepOptional m b S) := by
  unfold stepOptional
  apply Bound.closure h
  intro th hth
  rcases List.mem_append.1 hth with h1 | h1
  · exact hS th h1
  · obtain ⟨th0, h2, a, h3, h4, h5⟩ := (mem_follow h.noEmpty).1 h1
    obtain ⟨u, h6, h7, h8, h9⟩ := hS th0 h2
    have hp : Path m.edges m.initial (u ++ [a]) th.1 := h6.append (.step h4 (.nil _))
    have hbad := h.st_ok hp
    refine ⟨u ++ [a], hp, by rw [h5, h7, outs_append]; simp [outs], ?_⟩
    unfold cnt at h9 ⊢
    rw [st_concat] at *
    rw [marks_append]
    simp only [Option.bind_some, Option.any_eq_true, decide_eq_true_eq] at h3
    obtain ⟨c, h10, rfl⟩ := h3
    have hm : marks [a] = [] := by cases a <;> simp [marks, markOfLab, Lab.input] at h10 ⊢
    rw [hm, List.append_nil]
    cases hs : st u <;> cases a <;> simp_all [St.next, Lab.input]
    · rename_i x
      rcases hb with rfl | rfl
      · simpa using h9
      · simp [nullBoundary, wordBoundary] at hbad

theorem BoundI.step {m : Trans} (h : Good m) {n : Nat} {S : List Thread} (hS : BoundI m n S) {as : List Sym} (ha : nullBoundary ∉ as ∧ wordBoundary ∉ as) :
    BoundI m n (stepOn m as S) := by
  intro th hth
  unfold stepOn at hth
  obtain ⟨th1, h1, v, h2, h3, h4⟩ := h.closure.1 hth
  obtain ⟨th0, h5, a, b, h6, h7, h8, h9⟩ := (follow_any h).1 h1
  obtain ⟨u, h10, h11, h12⟩ := hS th0 h5
  have hp : Path m.edges m.initial (u ++ [a]) th1.1 := h10.append (.step h8 (.nil _))
  have hbad := h.st_ok hp
  have hi : a = .inp b := by
    cases a with
    | inp x => injection h6 with h6; rw [h6]
    | bound => injection h6 with h6; exact absurd h7 (by rw [← h6]; exact ha.2)
    | mark _ => cases h6
    | rule _ => cases h6
  subst hi
  have hst : st (u ++ [.inp b]) = .inside := by
    have n1 : b ≠ nullBoundary := by rintro rfl; exact ha.1 h7
    have n2 : b ≠ wordBoundary := by rintro rfl; exact ha.2 h7
    rw [st_concat] at hbad ⊢
    cases hs : st u <;> simp_all [St.next]
  have hv : v = [] := ((silents_next h (hp.append h3) h2).1).resolve_right (fun hx => hx hst)
  subst hv
  have := path_nil h.noEmpty h3
  refine ⟨u ++ [.inp b], by rw [← this]; exact hp, by rw [h4, h9, h11, outs_append]; simp [outs], ?_⟩
  rw [marks_append, show marks [Lab.inp b] = [] from rfl, List.append_nil]
  exact h12

theorem BoundI.finish {m : Trans} (h : Good m) {n : Nat} {S : List Thread} (hS : BoundI m n S) : Bound m (n + 1) (stepOn m [wordBoundary] S) := by
  unfold stepOn
  apply Bound.closure h
  intro th hth
  obtain ⟨th0, h5, a, b, h6, h7, h8, h9⟩ := (follow_any h).1 hth
  obtain ⟨u, h10, h11, h12⟩ := hS th0 h5
  have hp : Path m.edges m.initial (u ++ [a]) th.1 := h10.append (.step h8 (.nil _))
  have hbad := h.st_ok hp
  refine ⟨u ++ [a], hp, by rw [h9, h11, outs_append]; simp [outs], ?_⟩
  rw [List.mem_singleton] at h7
  subst h7
  unfold cnt
  have hm : marks [a] = [] := by cases a <;> simp [marks, markOfLab, Lab.input] at h6 ⊢
  rw [marks_append, hm, List.append_nil]
  rw [st_concat] at *
  refine ⟨?_, ?_⟩
  · intro hx
    cases hs : st u <;> cases a <;> simp_all [St.next, Lab.input, nullBoundary, wordBoundary]
  · split <;> omega

theorem boundI_tok {upper : Nat → Bool} {m : Trans} (h : Good m) {n : Nat} {S : List Thread} (hS : BoundI m n S) (t : Tok) (ht : ∀ x ∈ [t!"<$>", t!"<$$>"], t ≠ .tag x) :
    BoundI m n (stepTok upper m t S) := by
  cases t with
  | tag t =>
    have h1 := ht t!"<$>" (by simp)
    have h2 := ht t!"<$$>" (by simp)
    refine hS.step h ⟨?_, ?_⟩
    · simp only [List.mem_cons, List.not_mem_nil, or_false, nullBoundary, anyTag, Sym.tag.injEq, not_or]
      exact ⟨fun h => h2 (by rw [h]), by simp⟩
    · simp only [List.mem_cons, List.not_mem_nil, or_false, wordBoundary, anyTag, Sym.tag.injEq, not_or]
      exact ⟨fun h => h1 (by rw [h]), by simp⟩
  | chr c =>
    unfold stepTok stepChr
    dsimp only
    split
    · exact hS.step h (by simp [nullBoundary, wordBoundary, anyTag])
    · split
      · exact hS.step h (by simp [nullBoundary, wordBoundary, anyChar, anyUpper])
      · exact hS.step h (by simp [nullBoundary, wordBoundary, anyChar, anyLower])

theorem boundI_toks {upper : Nat → Bool} {m : Trans} (h : Good m) {n : Nat} (ts : List Tok) (ht : ∀ x ∈ [t!"<$>", t!"<$$>"], Tok.tag x ∉ ts) {S : List Thread} (hS : BoundI m n S) :
    BoundI m n (ts.foldl (fun S t => stepTok upper m t S) S) := by
  induction ts generalizing S with
  | nil => exact hS
  | cons t ts ih => exact ih (fun x hx h => ht x hx (by simp [h])) (boundI_tok h hS t (fun x hx h => ht x hx (by simp [h])))

theorem boundI_caps {upper : Nat → Bool} {m : Trans} (h : Good m) {n : Nat} (ns : List Nat) {S : List Thread} (hS : BoundI m n S) :
    BoundI m n (ns.foldl (fun S k => stepCaps upper m k S) S) := by
  induction ns generalizing S with
  | nil => exact hS
  | cons k ns ih =>
    rw [List.foldl_cons]
    refine ih ?_
    unfold stepCaps
    split
    · exact hS.step h (by simp [nullBoundary, wordBoundary])
    · unfold stepChr
      split
      · exact hS.step h (by simp [nullBoundary, wordBoundary, anyTag])
      · split
        · exact hS.step h (by simp [nullBoundary, wordBoundary, anyChar, anyUpper])
        · exact hS.step h (by simp [nullBoundary, wordBoundary, anyChar, anyLower])

theorem bound_word {upper : Nat → Bool} {m : Trans} (h : Good m) {n : Nat} {S : List Thread} (hS : Bound m n S) (caps form surf : Text) (hw : NoBoundary form surf) :
    Bound m (n + 1) (stepWord upper m S caps form surf) := by
  unfold stepWord
  apply BoundI.finish h
  refine boundI_toks h _ (fun x hx h => hw x hx (by simp [h])) ?_
  refine BoundI.step h ?_ (by simp [nullBoundary, wordBoundary])
  refine boundI_toks h _ (fun x hx h => hw x hx (by simp [h])) ?_
  refine BoundI.step h ?_ (by simp [nullBoundary, wordBoundary])
  exact boundI_caps h _ hS.inside

theorem marks_rule (x : List Lab) (k : Nat) : marks (x ++ [.bound, .rule k]) = marks x := by rw [marks_append]; simp [marks, markOfLab]

theorem marks_outs (u : List Lab) : marks (outs u) = marks u := by
  induction u with
  | nil => rfl
  | cons a u ih =>
    have : outs (a :: u) = a.output ++ outs u := rfl
    rw [this, marks_append, ih]
    cases a <;> rfl

/-- The compiled rules give marks to the words that were read, and no others (as `Verif.Caps` assumes for its theorems C59 and C60): on words without the tags
`<$>` and `<$$>`, if the rules do not use the names of the program as tags. -/
theorem C73_bounded {upper : Nat → Bool} {one : Int} {minimize : Trans → Trans} (hm : ∀ t, Minimal t (minimize t)) {rs : List Rule} {s : RSt}
    (hc : compile upper one minimize rs = some s) (hn : ∀ r ∈ rs, AllEach Match.Named r.body) : Bounded (auto upper s) NoBoundary (Bound s.trans) := by
  have hg := compile_good hm hc hn
  refine ⟨?_, ?_, ?_, ?_, ?_, ?_, ?_⟩
  · intro n k q hnk hq th hth
    obtain ⟨u, h1, h2, h3, h4⟩ := hq th hth
    exact ⟨u, h1, h2, h3, Nat.le_trans h4 hnk⟩
  · exact Bound.start hg
  · exact (Bound.start hg).optional hg (Or.inl rfl)
  · intro n q c f w hw hq
    exact bound_word hg hq c f w hw
  · intro n q hq
    exact hq.optional hg (Or.inr rfl)
  · intro n q hq th hth
    rcases List.mem_append.1 hth with h | h
    · exact hq th h
    · obtain ⟨u, h1, h2, h3, h4⟩ := Bound.start hg th h
      exact ⟨u, h1, h2, h3, Nat.le_trans h4 (Nat.zero_le _)⟩
  · intro n q hq p hp
    simp only [auto, threadPaths, List.mem_map, List.mem_filter, decide_eq_true_eq] at hp
    obtain ⟨th, ⟨h1, h2⟩, rfl⟩ := hp
    obtain ⟨u, h3, h4, _, h5⟩ := hq th h1
    obtain ⟨x, k, h6, rfl⟩ := hg.full u ⟨_, h2, h3⟩
    have h7 := congrArg Prod.snd (cut_rule h6 k)
    rw [h4]
    simp only at h7 ⊢
    rw [h7]
    unfold cnt at h5
    rw [marks_rule] at h5
    omega

end Verif.Crx
