import Verif.Transfer.Loop
/-!
# C16: left-to-right, longest match
-/
namespace Verif.Transfer

variable {σ V : Type}

/-! ## Specification -/

/-- The tokens of a stream: a blank, then words each with the blank that follows it; the last blank is the end of the
input. -/
def tokensOf (b : Text) : List (Text × Text) → List Tok
  | [] => [.eof b]
  | (w, b') :: ws => .blank b :: .word w :: tokensOf b' ws

/-- The automaton after the words `w1 .. wk`, with the blanks between them. -/
def Matcher.after (m : Matcher σ) : List Text → σ
  | [] => m.init
  | w :: ws => ws.foldl (fun s w => m.word (m.blank s) w) (m.word m.init w)

/-- What is assumed of the pattern automaton: a dead state stays dead and accepts nothing; patterns are sequences of words
separated by blanks, so nothing is accepted at the start or after a blank, and no pattern starts with a blank; a banned
rule is not reported. -/
structure Matcher.Ok (m : Matcher σ) : Prop where
  deadWord : ∀ s w, m.dead s = true → m.dead (m.word s w) = true
  deadBlank : ∀ s, m.dead s = true → m.dead (m.blank s) = true
  deadClassify : ∀ s b, m.dead s = true → m.classify s b = none
  initAlive : m.dead m.init = false
  initBlank : m.dead (m.blank m.init) = true
  cleared : m.dead m.cleared = true
  initClassify : ∀ b, m.classify m.init b = none
  blankClassify : ∀ s b, m.classify (m.blank s) b = none

/-- `r` is the rule for the longest sequence of words, from the first of `ws`, that some rule (not banned) matches; `k`
is its length. -/
def Matcher.Longest (m : Matcher σ) (banned : List Nat) (ws : List Text) (k r : Nat) : Prop :=
  1 ≤ k ∧ k ≤ ws.length ∧ m.classify (m.after (ws.take k)) banned = some r ∧
    ∀ k', k < k' → k' ≤ ws.length → m.classify (m.after (ws.take k')) banned = none

/-- No rule that is not banned matches any sequence of words from the first of `ws`. -/
def Matcher.NoMatch (m : Matcher σ) (banned : List Nat) (ws : List Text) : Prop :=
  ∀ k, 1 ≤ k → k ≤ ws.length → m.classify (m.after (ws.take k)) banned = none

/-- Left-to-right longest-match translation of words (each with the following blank), in state `v`, with the rules in
`banned` not to be used at the first word.  A rule that gives a negative number has translated the words it matches; one that
gives 0 is rejected: it is banned and the match is tried again at the same word; one that gives `n > 0` is rejected and the
first `n` words are passed over, without output.

`shifted` says that the previous rule was rejected passing over fewer words than it matched.  With `strict` the derivations
where a rule is rejected right after that are left out. -/
inductive Greedy (m : Matcher σ) (a : Actions V) (strict : Bool) :
    Bool → List Nat → V → List (Text × Text) → Text → Prop
  | done {shifted v} : Greedy m a strict shifted [] v [] []
  | rule {shifted banned v ws k r n o v' out b} : m.Longest banned (ws.map (·.1)) k r →
      a.apply r ((ws.map (·.1)).take k) ((ws.map (·.2)).take (k - 1)) k v = .ok (n, o, v') → n < 0 →
      (ws.map (·.2))[k - 1]? = some b → Greedy m a strict false [] v' (ws.drop k) out →
      Greedy m a strict shifted banned v ws (o ++ b ++ out)
  | shift {shifted banned v ws k r o v' out b} {n : Nat} : m.Longest banned (ws.map (·.1)) k r →
      a.apply r ((ws.map (·.1)).take k) ((ws.map (·.2)).take (k - 1)) k v = .ok ((n : Int), o, v') → 1 ≤ n → n ≤ k →
      (strict = true → shifted = false) →
      (ws.map (·.2))[n - 1]? = some b → Greedy m a strict (decide (n < k)) [] v' (ws.drop n) out →
      Greedy m a strict shifted banned v ws (o ++ b ++ out)
  | reject {shifted banned v ws k r o v' out} : m.Longest banned (ws.map (·.1)) k r →
      a.apply r ((ws.map (·.1)).take k) ((ws.map (·.2)).take (k - 1)) k v = .ok (0, o, v') →
      (strict = true → shifted = false) →
      Greedy m a strict shifted (r :: banned) v' ws out → Greedy m a strict shifted banned v ws (o ++ out)
  | dflt {shifted banned v w b ws o out} : m.NoMatch banned (((w, b) :: ws).map (·.1)) → a.dflt w = .ok o →
      Greedy m a strict false [] v ws out → Greedy m a strict shifted banned v ((w, b) :: ws) (o ++ b ++ out)

/-- Rules look only at the words they match and the blanks between them. -/
def Actions.Local (a : Actions V) : Prop :=
  ∀ r ws bs k v, k ≤ ws.length → k - 1 ≤ bs.length → a.apply r ws bs k v = a.apply r (ws.take k) (bs.take (k - 1)) k v

/-- The same for the rules that are used on words with the property `P`: with the words that it has been chosen for, a rule does what it does with these alone. -/
def Actions.LocalFor (m : Matcher σ) (P : Text → Prop) (a : Actions V) : Prop :=
  ∀ r ws bs k v banned, (∀ w ∈ ws, P w) → 1 ≤ k → k ≤ ws.length → k - 1 ≤ bs.length → m.classify (m.after (ws.take k)) banned = some r →
    a.apply r ws bs k v = a.apply r (ws.take k) (bs.take (k - 1)) k v

theorem Actions.Local.localFor {a : Actions V} (h : a.Local) (m : Matcher σ) (P : Text → Prop) : a.LocalFor m P :=
  fun r ws bs k v _ _ _ h1 h2 _ => h r ws bs k v h1 h2

/-! ## Proof -/

/-- The loop, from this state, ends having written `t`. -/
inductive Ends (m : Matcher σ) (a : Actions V) (toks : List Tok) : LoopSt σ V → Text → Prop
  | stop {s t} : loopStep m a toks s = .ok (.inr t) → Ends m a toks s t
  | next {s s' t} : loopStep m a toks s = .ok (.inl s') → Ends m a toks s' t → Ends m a toks s t

theorem Ends.run {m : Matcher σ} {a : Actions V} {toks : List Tok} {s : LoopSt σ V} {t : Text} (h : Ends m a toks s t) :
    ∃ n, loopRun m a toks n s = some (.ok t) := by
  induction h with
  | stop h => exact ⟨1, by simp [loopRun, h]⟩
  | next h _ ih =>
    obtain ⟨n, hn⟩ := ih
    exact ⟨n + 1, by simp [loopRun, h, hn]⟩

theorem drop_cons {α : Type} {l : List α} {p : Nat} {x : α} {r : List α} (h : l.drop p = x :: r) :
    l[p]? = some x ∧ l.drop (p + 1) = r := by
  constructor
  · have := congrArg (·[0]?) h
    simpa using this
  · rw [← List.drop_drop, h]; rfl

theorem tokensOf_drop {toks : List Tok} {p : Nat} {w b : Text} {ws : List (Text × Text)}
    (h : toks.drop p = .word w :: tokensOf b ws) (k : Nat) (hk : k ≤ ws.length) :
    ∃ b', (((w, b) :: ws).map (·.2))[k]? = some b' ∧ toks.drop (p + 2 * k + 1) = tokensOf b' (ws.drop k) := by
  induction k generalizing p w b ws with
  | zero => exact ⟨b, by simp, by simpa using (drop_cons h).2⟩
  | succ k ih =>
    cases ws with
    | nil => simp at hk
    | cons x ws =>
      obtain ⟨w', b'⟩ := x
      have h1 := (drop_cons h).2
      simp only [tokensOf] at h1
      have h2 := (drop_cons h1).2
      obtain ⟨b2, e1, e2⟩ := ih h2 (by simpa using hk)
      refine ⟨b2, by simpa using e1, ?_⟩
      rw [show p + 2 * (k + 1) + 1 = p + 1 + 1 + 2 * k + 1 by omega, e2]
      simp

/-- The state before reading the first word of `ws`. -/
structure Start (m : Matcher σ) (toks : List Tok) (shifted : Bool) (banned : List Nat) (v : V) (o : Text) (w b : Text) (ws : List (Text × Text))
    (s : LoopSt σ V) : Prop where
  ms : s.ms = m.init
  tmpword : s.tmpword = []
  tmpblank : s.tmpblank = []
  last : s.last = s.pos
  prev : shifted = false → s.prev + 1 = s.pos
  rule : s.rule = none
  banned : s.banned = banned
  hi : s.pos ≤ s.hi
  vars : s.vars = v
  out : s.out = o
  toks : toks.drop s.pos = .word w :: tokensOf b ws

/-- The best match among the first `j` words is recorded in the state. -/
def Best (m : Matcher σ) (banned : List Nat) (all : List Text) (p j : Nat) (s : LoopSt σ V) : Prop :=
  (s.rule = none ∧ s.last = p ∧ ∀ k, 1 ≤ k → k ≤ j → m.classify (m.after (all.take k)) banned = none) ∨
  (∃ k r, 1 ≤ k ∧ k ≤ j ∧ s.rule = some r ∧ s.lastLword = k ∧ s.last = p + 2 * (k - 1) + 1 ∧
    m.classify (m.after (all.take k)) banned = some r ∧
    ∀ k', k < k' → k' ≤ j → m.classify (m.after (all.take k')) banned = none)

/-- What stays the same while words are read. -/
structure Scan (shifted : Bool) (banned : List Nat) (v : V) (o : Text) (all : List (Text × Text)) (p j : Nat)
    (s : LoopSt σ V) : Prop where
  j1 : 1 ≤ j
  jn : j ≤ all.length
  prev : shifted = false → s.prev + 1 = p
  banned : s.banned = banned
  vars : s.vars = v
  out : s.out = o
  tmpword : s.tmpword = (all.map (·.1)).take j
  hi : p + 2 * (j - 1) + 1 ≤ s.hi

/-- The state when the automaton has died after reading `j` words. -/
structure Found (m : Matcher σ) (shifted : Bool) (banned : List Nat) (v : V) (o : Text) (all : List (Text × Text)) (p : Nat)
    (s : LoopSt σ V) : Prop where
  scan : ∃ j, Scan shifted banned v o all p j s ∧ (∃ i, j - 1 ≤ i ∧ s.tmpblank = (all.map (·.2)).take i) ∧
    ((s.rule = none ∧ s.last = p ∧ m.NoMatch banned (all.map (·.1))) ∨
     ∃ k r, k ≤ j ∧ s.rule = some r ∧ s.lastLword = k ∧ s.last = p + 2 * (k - 1) + 1 ∧
      m.Longest banned (all.map (·.1)) k r)
  dead : m.dead s.ms = true

theorem after_snoc (m : Matcher σ) (ws : List Text) (w : Text) (h : ws ≠ []) :
    m.after (ws ++ [w]) = m.word (m.blank (m.after ws)) w := by
  cases ws with
  | nil => contradiction
  | cons x ws => simp [Matcher.after]

theorem take_succ_of_get {α : Type} {l : List α} {j : Nat} {x : α} (h : l[j]? = some x) : l.take (j + 1) = l.take j ++ [x] := by
  rw [List.take_succ, h]; rfl

theorem after_step (m : Matcher σ) (all : List Text) (j : Nat) (hj : 1 ≤ j) (w : Text) (h : all[j]? = some w) :
    m.after (all.take (j + 1)) = m.word (m.blank (m.after (all.take j))) w := by
  rw [take_succ_of_get h, after_snoc]
  intro e
  have := (List.getElem?_eq_some_iff.1 h).1
  cases all with
  | nil => simp at this
  | cons x all =>
    obtain ⟨j', rfl⟩ : ∃ j', j = j' + 1 := ⟨j - 1, by omega⟩
    simp at e

theorem dead_after {m : Matcher σ} (hm : m.Ok) (all : List Text) (j : Nat) (hj : 1 ≤ j)
    (hd : m.dead (m.blank (m.after (all.take j))) = true) (k : Nat) (hk : j < k) (hk2 : k ≤ all.length) :
    m.dead (m.after (all.take k)) = true := by
  induction k with
  | zero => omega
  | succ k ih =>
    have hg : all[k]? = some all[k] := List.getElem?_eq_getElem (by omega)
    rw [after_step m all k (by omega) _ hg]
    apply hm.deadWord
    by_cases h : k = j
    · subst h; exact hd
    · exact hm.deadBlank _ (ih (by omega) (by omega))

theorem Ends.of_handle {m : Matcher σ} {a : Actions V} {toks : List Tok} {s s1 : LoopSt σ V} {t : Text}
    (hd : m.dead s.ms = true) (hh : handleDead m a toks s = .ok s1) (hd1 : m.dead s1.ms = false) (h : Ends m a toks s1 t) :
    Ends m a toks s t := by
  have e : loopStep m a toks s = loopStep m a toks s1 := by
    simp [loopStep, hd, hd1, hh, Outcome.map]
  cases h with
  | stop h => exact .stop (by rw [e]; exact h)
  | next h h' => exact .next (by rw [e]; exact h) h'

theorem step_alive {m : Matcher σ} {a : Actions V} {toks : List Tok} {s : LoopSt σ V} (hd : m.dead s.ms = false) :
    loopStep m a toks s = .ok (readNext m toks s) := by simp [loopStep, hd, Outcome.map]

/-- After a unit has been handled (`P` says the rest of the loop is right for the words that are left): the blank that follows
is written. -/
theorem after_unit {m : Matcher σ} (hm : m.Ok) {a : Actions V} {toks : List Tok} {s : LoopSt σ V} {b t : Text}
    {ws : List (Text × Text)} {v : V} {o : Text} {shifted : Bool}
    (h1 : s.ms = m.init) (h2 : s.tmpword = []) (h3 : s.tmpblank = [] ∨ s.tmpblank.head? = some b) (h4 : s.rule = none)
    (h5 : s.banned = []) (h6 : s.vars = v) (h7 : s.out = o) (h8 : toks.drop s.pos = tokensOf b ws)
    (hl : shifted = false → s.last = s.pos)
    (hP : ∀ w b' ws' s', ws = (w, b') :: ws' → Start m toks shifted [] v (o ++ b) w b' ws' s' → Ends m a toks s' (o ++ b ++ t))
    (hnil : ws = [] → t = []) : Ends m a toks s (o ++ b ++ t) := by
  have hal : m.dead s.ms = false := by rw [h1]; exact hm.initAlive
  cases ws with
  | nil =>
    simp only [tokensOf] at h8
    obtain ⟨e1, _⟩ := drop_cons h8
    apply Ends.stop
    rw [step_alive hal]
    simp [readNext, h1, hm.initClassify, e1, h2, h7, hnil rfl]
  | cons x ws' =>
    obtain ⟨w, b'⟩ := x
    simp only [tokensOf] at h8
    obtain ⟨e1, e2⟩ := drop_cons h8
    have hr : readNext m toks s = .inl { s with pos := s.pos + 1, hi := max s.hi (s.pos + 1), ms := m.blank m.init, tmpblank := s.tmpblank ++ [b] } := by
      simp [readNext, h1, hm.initClassify, e1]
    apply Ends.next (by rw [step_alive hal, hr])
    have hh : (s.tmpblank ++ [b]).head? = some b := by
      rcases h3 with h3 | h3
      · simp [h3]
      · cases hb : s.tmpblank with
        | nil => simp
        | cons x y => rw [hb] at h3; simpa using h3
    obtain ⟨y, hy⟩ : ∃ y, s.tmpblank ++ [b] = b :: y := by
      cases hb : s.tmpblank ++ [b] with
      | nil => simp at hb
      | cons x y => rw [hb] at hh; simp at hh; exact ⟨y, by rw [hh]⟩
    refine Ends.of_handle (s1 := { s with pos := s.pos + 1, hi := max s.hi (s.pos + 1), ms := m.init, tmpblank := [], out := s.out ++ b, prev := s.last, last := s.pos + 1 })
      hm.initBlank ?_ hm.initAlive ?_
    · simp [handleDead, h4, h2, hy]
    · apply hP w b' ws' _ rfl
      exact ⟨rfl, h2, rfl, rfl, fun hsh => by simp [hl hsh], h4, h5, by simp; omega, h6, by simp [h7], by simpa using e2⟩

/-- What is recorded is the longest match once the automaton is dead. -/
theorem Best.found {m : Matcher σ} {banned : List Nat} {all : List Text} {p j : Nat} {s : LoopSt σ V}
    (hb : Best m banned all p j s) (hj : j ≤ all.length)
    (hmore : ∀ k, j < k → k ≤ all.length → m.classify (m.after (all.take k)) banned = none) :
    (s.rule = none ∧ s.last = p ∧ m.NoMatch banned all) ∨
     ∃ k r, k ≤ j ∧ s.rule = some r ∧ s.lastLword = k ∧ s.last = p + 2 * (k - 1) + 1 ∧ m.Longest banned all k r := by
  rcases hb with ⟨h1, h2, h3⟩ | ⟨k, r, h1, h2, h3, h4, h5, h6, h7⟩
  · refine Or.inl ⟨h1, h2, fun k hk hk2 => ?_⟩
    by_cases h : k ≤ j
    · exact h3 k hk h
    · exact hmore k (by omega) hk2
  · refine Or.inr ⟨k, r, h2, h3, h4, h5, h1, by omega, h6, fun k' hk hk2 => ?_⟩
    by_cases h : k' ≤ j
    · exact h7 k' hk h
    · exact hmore k' (by omega) hk2

/-- The state after `classifyFinals`. -/
def classified (m : Matcher σ) (s : LoopSt σ V) : LoopSt σ V :=
  match m.classify s.ms s.banned with
  | some r => { s with rule := some r, last := s.pos, lastLword := s.tmpword.length }
  | none => s

theorem classified_best {m : Matcher σ} {shifted : Bool} {banned : List Nat} {v : V} {o : Text} {all : List (Text × Text)} {p j : Nat} {s : LoopSt σ V}
    (hs : Scan shifted banned v o all p j s) (hms : s.ms = m.after ((all.map (·.1)).take j)) (hpos : s.pos = p + 2 * (j - 1) + 1)
    (hb : Best m banned (all.map (·.1)) p (j - 1) s) :
    Best m banned (all.map (·.1)) p j (classified m s) ∧ Scan shifted banned v o all p j (classified m s) ∧
      (classified m s).ms = s.ms ∧ (classified m s).pos = s.pos ∧ (classified m s).tmpblank = s.tmpblank ∧
      (classified m s).tmpword = s.tmpword ∧ (classified m s).hi = s.hi := by
  have hj := hs.j1
  have hjn := hs.jn
  unfold classified
  cases hc : m.classify (m.after ((all.map (·.1)).take j)) banned with
  | some r =>
    have hc' : m.classify s.ms s.banned = some r := by rw [hms, hs.banned, hc]
    rw [hc']
    refine ⟨Or.inr ⟨j, r, hj, Nat.le_refl _, rfl, ?_, hpos, hc, fun k' h1 h2 => by omega⟩, ?_, rfl, rfl, rfl, rfl, rfl⟩
    · simp [hs.tmpword]; omega
    · exact ⟨hj, hjn, hs.prev, hs.banned, hs.vars, hs.out, hs.tmpword, hs.hi⟩
  | none =>
    have hc' : m.classify s.ms s.banned = none := by rw [hms, hs.banned, hc]
    rw [hc']
    refine ⟨?_, hs, rfl, rfl, rfl, rfl, rfl⟩
    rcases hb with ⟨h1, h2, h3⟩ | ⟨k, r, h1, h2, h3, h4, h5, h6, h7⟩
    · refine Or.inl ⟨h1, h2, fun k hk hk2 => ?_⟩
      by_cases h : k = j
      · subst h; exact hc
      · exact h3 k hk (by omega)
    · refine Or.inr ⟨k, r, h1, by omega, h3, h4, h5, h6, fun k' hk hk2 => ?_⟩
      by_cases h : k' = j
      · subst h; exact hc
      · exact h7 k' hk (by omega)

theorem readNext_eq (m : Matcher σ) (toks : List Tok) (s : LoopSt σ V) :
    readNext m toks s = (match (toks[(classified m s).pos]?).getD (.eof []) with
      | .word w => .inl { classified m s with
          pos := (classified m s).pos + 1, hi := max (classified m s).hi ((classified m s).pos + 1),
          ms := m.word (classified m s).ms w, tmpword := (classified m s).tmpword ++ [w] }
      | .blank b => .inl { classified m s with
          pos := (classified m s).pos + 1, hi := max (classified m s).hi ((classified m s).pos + 1),
          ms := m.blank (classified m s).ms, tmpblank := (classified m s).tmpblank ++ [b] }
      | .eof e =>
        if (classified m s).tmpword ≠ [] then .inl { classified m s with
          pos := (classified m s).pos + 1, hi := max (classified m s).hi ((classified m s).pos + 1),
          tmpblank := (classified m s).tmpblank ++ [e], ms := m.cleared }
        else .inr ((classified m s).out ++ e)) := rfl

/-- Reading words from the `j`-th on, until the automaton dies. -/
theorem scan_from {m : Matcher σ} (hm : m.Ok) {a : Actions V} {toks : List Tok} {shifted : Bool} {banned : List Nat} {v : V}
    {o : Text} {w b : Text} {ws : List (Text × Text)} {p : Nat} (ht : toks.drop p = .word w :: tokensOf b ws)
    (d j : Nat) (s : LoopSt σ V) (hdj : d + j = ws.length + 1)
    (hs : Scan shifted banned v o ((w, b) :: ws) p j s) (hms : s.ms = m.after ((((w, b) :: ws).map (·.1)).take j))
    (hpos : s.pos = p + 2 * (j - 1) + 1)
    (htb : s.tmpblank = (((w, b) :: ws).map (·.2)).take (j - 1))
    (hb : Best m banned (((w, b) :: ws).map (·.1)) p (j - 1) s) :
    ∃ s', Found m shifted banned v o ((w, b) :: ws) p s' ∧ ∀ t, Ends m a toks s' t → Ends m a toks s t := by
  induction d generalizing j s with
  | zero =>
    have hj := hs.j1
    by_cases hd : m.dead s.ms = true
    · refine ⟨s, ⟨⟨j, hs, ⟨j - 1, Nat.le_refl _, htb⟩, ?_⟩, hd⟩, fun t h => h⟩
      refine (hb.found (by simp; omega) fun k h1 h2 => ?_).imp id ?_
      · apply hm.deadClassify
        have : k = j := by simp at h2; omega
        subst this; rw [← hms]; exact hd
      · rintro ⟨k, r, h1, h2⟩; exact ⟨k, r, by omega, h2⟩
    · have hal : m.dead s.ms = false := by simpa using hd
      obtain ⟨c1, c2, c3, c4, c5, c6, c7⟩ := classified_best hs hms hpos hb
      obtain ⟨b', hb', hdr⟩ := tokensOf_drop ht (j - 1) (by omega)
      have hnil : ws.drop (j - 1) = [] := List.drop_eq_nil_of_le (by omega)
      rw [hnil] at hdr
      simp only [tokensOf] at hdr
      obtain ⟨e1, _⟩ := drop_cons hdr
      have hne : (classified m s).tmpword ≠ [] := by
        rw [c2.tmpword]
        obtain ⟨j', rfl⟩ : ∃ j', j = j' + 1 := ⟨j - 1, by omega⟩
        simp
      have hr : loopStep m a toks s = .ok (.inl { classified m s with
          pos := (classified m s).pos + 1, hi := max (classified m s).hi ((classified m s).pos + 1),
          tmpblank := (classified m s).tmpblank ++ [b'], ms := m.cleared }) := by
        rw [step_alive hal, readNext_eq, c4, hpos, e1]
        simp only [Option.getD_some]
        rw [if_pos hne]
      refine ⟨_, ⟨⟨j, ?_, ⟨j, by omega, ?_⟩, ?_⟩, ?_⟩, fun t h => Ends.next hr h⟩
      · exact ⟨hj, hs.jn, c2.prev, c2.banned, c2.vars, c2.out, c2.tmpword, by have := c2.hi; simp only; omega⟩
      · obtain ⟨j', rfl⟩ : ∃ j', j = j' + 1 := ⟨j - 1, by omega⟩
        simp only [c5, htb]
        rw [take_succ_of_get (by simpa using hb')]
        simp
      · exact c1.found (by simp; omega) fun k h1 h2 => by simp at h2; omega
      · exact hm.cleared
  | succ d ih =>
    have hj := hs.j1
    by_cases hd : m.dead s.ms = true
    · refine ⟨s, ⟨⟨j, hs, ⟨j - 1, Nat.le_refl _, htb⟩, ?_⟩, hd⟩, fun t h => h⟩
      refine (hb.found (by simp; omega) fun k h1 h2 => ?_).imp id ?_
      · apply hm.deadClassify
        by_cases hk : k = j
        · subst hk; rw [← hms]; exact hd
        · exact dead_after hm _ j hj (by rw [← hms]; exact hm.deadBlank _ hd) k (by omega) h2
      · rintro ⟨k, r, h1, h2⟩; exact ⟨k, r, by omega, h2⟩
    · have hal : m.dead s.ms = false := by simpa using hd
      obtain ⟨c1, c2, c3, c4, c5, c6, c7⟩ := classified_best hs hms hpos hb
      obtain ⟨b', hb', hdr⟩ := tokensOf_drop ht (j - 1) (by omega)
      obtain ⟨⟨w2, b2⟩, ws2, hcons⟩ : ∃ x ws2, ws.drop (j - 1) = x :: ws2 := by
        cases h : ws.drop (j - 1) with
        | nil => have := congrArg List.length h; simp at this; omega
        | cons x y => exact ⟨x, y, rfl⟩
      rw [hcons] at hdr
      simp only [tokensOf] at hdr
      obtain ⟨e1, e2⟩ := drop_cons hdr
      obtain ⟨e3, _⟩ := drop_cons e2
      have hr : loopStep m a toks s = .ok (.inl { classified m s with
          pos := (classified m s).pos + 1, hi := max (classified m s).hi ((classified m s).pos + 1),
          tmpblank := (classified m s).tmpblank ++ [b'], ms := m.blank (classified m s).ms }) := by
        rw [step_alive hal, readNext_eq, c4, hpos, e1]
        simp only [Option.getD_some]
      generalize hs1 : ({ classified m s with
          pos := (classified m s).pos + 1, hi := max (classified m s).hi ((classified m s).pos + 1),
          tmpblank := (classified m s).tmpblank ++ [b'], ms := m.blank (classified m s).ms } : LoopSt σ V) = s1 at hr
      have hsc1 : Scan shifted banned v o ((w, b) :: ws) p j s1 := by
        subst hs1
        exact ⟨hj, hs.jn, c2.prev, c2.banned, c2.vars, c2.out, c2.tmpword, by have := c2.hi; simp only; omega⟩
      have htb1 : s1.tmpblank = (((w, b) :: ws).map (·.2)).take j := by
        subst hs1
        obtain ⟨j', rfl⟩ : ∃ j', j = j' + 1 := ⟨j - 1, by omega⟩
        simp only [c5, htb]
        rw [take_succ_of_get (by simpa using hb')]
        simp
      have hms1 : s1.ms = m.blank (m.after ((((w, b) :: ws).map (·.1)).take j)) := by
        subst hs1; simp only [c3, hms]
      have hb1 : Best m banned (((w, b) :: ws).map (·.1)) p j s1 := by subst hs1; exact c1
      have hpos1 : s1.pos = p + 2 * (j - 1) + 1 + 1 := by subst hs1; simp only [c4, hpos]
      by_cases hd1 : m.dead s1.ms = true
      · refine ⟨s1, ⟨⟨j, hsc1, ⟨j, by omega, htb1⟩, ?_⟩, hd1⟩, fun t h => Ends.next hr h⟩
        refine hb1.found (by simp; omega) fun k h1 h2 => ?_
        exact hm.deadClassify _ _ (dead_after hm _ j hj (by rw [← hms1]; exact hd1) k h1 h2)
      · have hal1 : m.dead s1.ms = false := by simpa using hd1
        have hcl : classified m s1 = s1 := by
          unfold classified; rw [hms1, hm.blankClassify]
        have hr1 : loopStep m a toks s1 = .ok (.inl { s1 with
            pos := s1.pos + 1, hi := max s1.hi (s1.pos + 1), ms := m.word s1.ms w2, tmpword := s1.tmpword ++ [w2] }) := by
          rw [step_alive hal1, readNext_eq, hcl, hpos1, e3]
          simp only [Option.getD_some]
        have hw2 : (((w, b) :: ws).map (·.1))[j]? = some w2 := by
          obtain ⟨j', rfl⟩ : ∃ j', j = j' + 1 := ⟨j - 1, by omega⟩
          have := (drop_cons (l := ws) (p := j') (by simpa using hcons)).1
          simp [this]
        obtain ⟨s', hf, hs'⟩ := ih (j + 1) { s1 with
            pos := s1.pos + 1, hi := max s1.hi (s1.pos + 1), ms := m.word s1.ms w2, tmpword := s1.tmpword ++ [w2] } (by omega)
          ⟨by omega, by simp; omega, hsc1.prev, hsc1.banned, hsc1.vars, hsc1.out,
            by simp only [hsc1.tmpword]; rw [take_succ_of_get hw2], by simp only [hpos1]; omega⟩
          (by simp only [hms1]; rw [after_step m _ j hj w2 hw2])
          (by simp only [hpos1]; omega)
          (by simpa using htb1) (show Best m banned _ p (j + 1 - 1) _ from hb1)
        exact ⟨s', hf, fun t h => Ends.next hr (Ends.next hr1 (hs' t h))⟩

/-- From the start of a word the loop reaches the point where the longest match is known. -/
theorem scan_start {m : Matcher σ} (hm : m.Ok) {a : Actions V} {toks : List Tok} {shifted : Bool} {banned : List Nat} {v : V}
    {o : Text} {w b : Text} {ws : List (Text × Text)} {s : LoopSt σ V} (h : Start m toks shifted banned v o w b ws s) :
    ∃ s', Found m shifted banned v o ((w, b) :: ws) s.pos s' ∧ ∀ t, Ends m a toks s' t → Ends m a toks s t := by
  have hal : m.dead s.ms = false := by rw [h.ms]; exact hm.initAlive
  have hr : loopStep m a toks s = .ok (.inl { s with
      pos := s.pos + 1, hi := max s.hi (s.pos + 1), ms := m.word m.init w, tmpword := [w] }) := by
    rw [step_alive hal]
    simp [readNext, h.ms, hm.initClassify, (drop_cons h.toks).1, h.tmpword]
  obtain ⟨s', hf, hs'⟩ := scan_from hm (a := a) (v := v) (o := o) (shifted := shifted) (banned := banned) h.toks ws.length 1 { s with
      pos := s.pos + 1, hi := max s.hi (s.pos + 1), ms := m.word m.init w, tmpword := [w] } rfl
      ⟨by omega, by simp, h.prev, h.banned, h.vars, h.out, by simp, by simp only; omega⟩ (by simp [Matcher.after]) (by simp)
      (by simp [h.tmpblank]) (Or.inl ⟨h.rule, h.last, fun k h1 h2 => by omega⟩)
  exact ⟨s', hf, fun t ht => Ends.next hr (hs' t ht)⟩

theorem Matcher.Longest.unique {m : Matcher σ} {banned : List Nat} {ws : List Text} {k k' r r' : Nat}
    (h : m.Longest banned ws k r) (h' : m.Longest banned ws k' r') : k' = k ∧ r' = r := by
  have hk : k' = k := by
    rcases Nat.lt_trichotomy k' k with hlt | hlt | hlt
    · have := h'.2.2.2 k hlt h.2.1
      rw [h.2.2.1] at this; simp at this
    · exact hlt
    · have := h.2.2.2 k' hlt h'.2.1
      rw [h'.2.2.1] at this; simp at this
  subst hk
  refine ⟨rfl, ?_⟩
  have := h'.2.2.1
  rw [h.2.2.1] at this
  exact (Option.some.inj this).symm

theorem Matcher.Longest.noMatch {m : Matcher σ} {banned : List Nat} {ws : List Text} {k r : Nat}
    (h : m.Longest banned ws k r) (h' : m.NoMatch banned ws) : False := by
  have := h' k h.1 h.2.1
  rw [h.2.2.1] at this; simp at this

theorem Greedy.nil {m : Matcher σ} {a : Actions V} {strict shifted : Bool} {banned : List Nat} {v : V} {out : Text}
    (h : Greedy m a strict shifted banned v [] out) :
    out = [] := by
  cases h with
  | done => rfl
  | rule hl _ _ _ _ => have h1 := hl.1; have h2 := hl.2.1; simp at h2; omega
  | shift hl _ _ _ _ _ _ => have h1 := hl.1; have h2 := hl.2.1; simp at h2; omega
  | reject hl _ _ _ => have h1 := hl.1; have h2 := hl.2.1; simp at h2; omega

/-- The call of `applyRule` at the point where the automaton has died, as the specification sees it. -/
theorem Found.apply {m : Matcher σ} {P : Text → Prop} {a : Actions V} (ha : a.LocalFor m P) {shifted : Bool} {banned : List Nat} {v : V}
    {o : Text} {all : List (Text × Text)} {p k r : Nat} {s : LoopSt σ V} (hP : ∀ x ∈ all, P x.1) (hf : Found m shifted banned v o all p s)
    (hl : m.Longest banned (all.map (·.1)) k r) :
    s.rule = some r ∧ s.last = p + 2 * (k - 1) + 1 ∧ (shifted = false → s.prev + 1 = p) ∧ s.banned = banned ∧ s.out = o ∧
    p + 2 * (k - 1) + 1 ≤ s.hi ∧
    a.apply r s.tmpword s.tmpblank s.lastLword s.vars =
      a.apply r ((all.map (·.1)).take k) ((all.map (·.2)).take (k - 1)) k v := by
  obtain ⟨⟨j, hs, ⟨i, hi, hb⟩, hr⟩, hd⟩ := hf
  rcases hr with ⟨_, _, hno⟩ | ⟨k', r', h1, h2, h3, h4, h5⟩
  · exact absurd hno (fun h => hl.noMatch h)
  · obtain ⟨rfl, rfl⟩ := Matcher.Longest.unique hl h5
    have hj := hs.jn
    have hk := hl.2.1
    simp only [List.length_map] at hk
    refine ⟨h2, h4, hs.prev, hs.banned, hs.out, by have := hs.hi; omega, ?_⟩
    have hcl := hl.2.2.1
    rw [h3, hs.vars, hs.tmpword, hb, ha _ _ _ _ _ banned (fun w hw => by
        obtain ⟨x, hx, rfl⟩ := List.mem_map.1 (List.mem_of_mem_take hw)
        exact hP x hx) hl.1 (by simp; omega) (by simp; omega)
      (by rw [List.take_take, Nat.min_eq_left h1]; exact hcl), List.take_take, List.take_take,
      Nat.min_eq_left h1, Nat.min_eq_left (by omega)]

theorem consumeWords_zero (toks : List Tok) (hi fuel pos : Nat) : consumeWords toks hi fuel pos 0 = pos := by
  cases fuel <;> rfl

/-- Passing over `n` words. -/
theorem consumeWords_eq {toks : List Tok} {p : Nat} {w b : Text} {ws : List (Text × Text)}
    (h : toks.drop p = .word w :: tokensOf b ws) (n hi fuel : Nat) (hn : 1 ≤ n) (hw : n ≤ ws.length + 1)
    (hhi : p + 2 * (n - 1) + 1 ≤ hi) (hf : 2 * (n - 1) + 1 ≤ fuel) :
    consumeWords toks hi fuel p n = p + 2 * (n - 1) + 1 := by
  induction n generalizing p w b ws fuel with
  | zero => omega
  | succ n ih =>
    obtain ⟨fuel, rfl⟩ : ∃ f, fuel = f + 1 := ⟨fuel - 1, by omega⟩
    rw [consumeWords, if_neg (by omega), (drop_cons h).1]
    simp only
    cases n with
    | zero => rw [consumeWords_zero]
    | succ n =>
      cases ws with
      | nil => simp at hw
      | cons x ws =>
        obtain ⟨w', b'⟩ := x
        have h1 := (drop_cons h).2
        simp only [tokensOf] at h1
        obtain ⟨fuel, rfl⟩ : ∃ f, fuel = f + 1 := ⟨fuel - 1, by omega⟩
        rw [consumeWords, if_neg (by omega), (drop_cons h1).1]
        simp only
        rw [ih (drop_cons h1).2 fuel (by omega) (by simpa using hw) (by omega) (by omega)]
        omega

theorem greedy_ends {m : Matcher σ} (hm : m.Ok) {P : Text → Prop} {a : Actions V} (ha : a.LocalFor m P) {toks : List Tok} {shifted : Bool} {banned : List Nat}
    {v : V} {all : List (Text × Text)} {out : Text} (hg : Greedy m a true shifted banned v all out) (hP : ∀ x ∈ all, P x.1) (w b : Text) (ws : List (Text × Text))
    (he : all = (w, b) :: ws) (o : Text) (s : LoopSt σ V) (hst : Start m toks shifted banned v o w b ws s) :
    Ends m a toks s (o ++ out) := by
  induction hg generalizing w b ws o s with
  | done => simp at he
  | @rule shifted banned v all k r n o1 v' out b1 hl hap hn hb1 hg' ih =>
    subst he
    obtain ⟨s', hf, hs'⟩ := scan_start hm (a := a) hst
    apply hs'
    obtain ⟨f1, f2, f3, f4, f5, f6, f7⟩ := hf.apply ha hP hl
    have hk1 := hl.1
    have hk2 := hl.2.1
    simp only [List.length_map, List.length_cons] at hk2
    refine Ends.of_handle (s1 := { s' with
      tmpword := [], tmpblank := [], ms := m.init, rule := none, vars := v', out := s'.out ++ o1, banned := [], pos := s'.last })
      hf.dead ?_ hm.initAlive ?_
    · simp only [handleDead, f1]
      rw [f7, hap]
      simp [Outcome.map, hn]
    · obtain ⟨b', hb', hdr⟩ := tokensOf_drop hst.toks (k - 1) (by omega)
      have hbb : b' = b1 := by rw [hb1] at hb'; exact (Option.some.inj hb').symm
      subst hbb
      have e : o ++ (o1 ++ b' ++ out) = (o ++ o1) ++ b' ++ out := by simp
      have hdrop : ((w, b) :: ws).drop k = ws.drop (k - 1) := by
        obtain ⟨k', rfl⟩ : ∃ k', k = k' + 1 := ⟨k - 1, by omega⟩
        simp
      rw [e]
      refine after_unit hm (shifted := false) (v := v') (ws := ws.drop (k - 1)) rfl rfl (Or.inl rfl) rfl rfl rfl (by simp [f5]) ?_ (fun _ => rfl) ?_ ?_
      · simp only [f2]; exact hdr
      · intro w' b2 ws' s2 he2 hst2
        exact ih (fun x hx => hP x (List.mem_of_mem_drop hx)) w' b2 ws' (by rw [hdrop, he2]) _ s2 hst2
      · intro hnil
        rw [hdrop, hnil] at hg'
        exact hg'.nil
  | @shift shifted banned v all k r o1 v' out b1 n hl hap hn1 hnk hsh hb1 hg' ih =>
    subst he
    obtain ⟨s', hf, hs'⟩ := scan_start hm (a := a) hst
    apply hs'
    obtain ⟨f1, f2, f3, f4, f5, f6, f7⟩ := hf.apply ha hP hl
    have hk1 := hl.1
    have hk2 := hl.2.1
    simp only [List.length_map, List.length_cons] at hk2
    have hcons : consumeWords toks s'.hi s'.hi (s'.prev + 1) n = s.pos + 2 * (n - 1) + 1 := by
      rw [f3 (hsh rfl)]
      exact consumeWords_eq hst.toks n s'.hi s'.hi hn1 (by omega) (by omega) (by omega)
    refine Ends.of_handle (s1 := { s' with
      tmpword := [], tmpblank := [], ms := m.init, rule := none, vars := v', out := s'.out ++ o1, banned := [],
      pos := s.pos + 2 * (n - 1) + 1 })
      hf.dead ?_ hm.initAlive ?_
    · simp only [handleDead, f1]
      rw [f7, hap]
      have h1 : ¬ (n : Int) < 0 := by omega
      have h2 : 0 < n := hn1
      simp [Outcome.map, h1, h2, hcons]
    · obtain ⟨b', hb', hdr⟩ := tokensOf_drop hst.toks (n - 1) (by omega)
      have hbb : b' = b1 := by rw [hb1] at hb'; exact (Option.some.inj hb').symm
      subst hbb
      have e : o ++ (o1 ++ b' ++ out) = (o ++ o1) ++ b' ++ out := by simp
      have hdrop : ((w, b) :: ws).drop n = ws.drop (n - 1) := by
        obtain ⟨k', rfl⟩ : ∃ k', n = k' + 1 := ⟨n - 1, by omega⟩
        simp
      rw [e]
      refine after_unit hm (shifted := decide (n < k)) (v := v') (ws := ws.drop (n - 1)) rfl rfl (Or.inl rfl) rfl rfl rfl
        (by simp [f5]) hdr ?_ ?_ ?_
      · intro hsf
        have : n = k := by simp at hsf; omega
        subst this
        exact f2
      · intro w' b2 ws' s2 he2 hst2
        exact ih (fun x hx => hP x (List.mem_of_mem_drop hx)) w' b2 ws' (by rw [hdrop, he2]) _ s2 hst2
      · intro hnil
        rw [hdrop, hnil] at hg'
        exact hg'.nil
  | @reject shifted banned v all k r o1 v' out hl hap hsh hg' ih =>
    subst he
    obtain ⟨s', hf, hs'⟩ := scan_start hm (a := a) hst
    apply hs'
    obtain ⟨f1, f2, f3, f4, f5, f6, f7⟩ := hf.apply ha hP hl
    have hnext : bufNext s'.prev s'.hi = s.pos := by
      have := f3 (hsh rfl)
      rw [bufNext, if_neg (by omega), this]
    refine Ends.of_handle (s1 := { s' with
      tmpword := [], tmpblank := [], ms := m.init, rule := none, vars := v', out := s'.out ++ o1, banned := r :: s'.banned,
      pos := s.pos, last := s.pos })
      hf.dead ?_ hm.initAlive ?_
    · simp only [handleDead, f1]
      rw [f7, hap]
      simp [Outcome.map, hnext]
    · have e : o ++ (o1 ++ out) = (o ++ o1) ++ out := by simp
      rw [e]
      apply ih hP w b ws rfl
      exact ⟨rfl, rfl, rfl, rfl, f3, rfl, by simp [f4], by simp only; omega, rfl, by simp [f5], hst.toks⟩
  | @dflt shifted banned v w0 b0 ws0 o0 out hno hdo hg' ih =>
    obtain ⟨⟨rfl, rfl⟩, rfl⟩ : (w0 = w ∧ b0 = b) ∧ ws0 = ws := by simpa using he
    obtain ⟨s', hf, hs'⟩ := scan_start hm (a := a) hst
    apply hs'
    obtain ⟨⟨j, hs, ⟨i, hi, hb⟩, hr⟩, hd⟩ := hf
    rcases hr with ⟨r1, r2, _⟩ | ⟨k', r', h1, h2, h3, h4, h5⟩
    · have hw : s'.tmpword = w0 :: ((ws0.map (·.1)).take (j - 1)) := by
        rw [hs.tmpword]
        obtain ⟨j', rfl⟩ : ∃ j', j = j' + 1 := ⟨j - 1, by have := hs.j1; omega⟩
        simp
      have hnext : bufNext s'.last s'.hi = s.pos + 1 := by
        have := hs.hi
        rw [bufNext, r2, if_neg (by omega)]
      refine Ends.of_handle (s1 := { s' with
        out := s'.out ++ o0, banned := [], tmpword := [], prev := s'.last, last := s.pos + 1, pos := s.pos + 1,
        ms := m.init }) hd ?_ hm.initAlive ?_
      · simp [handleDead, r1, hw, hnext, hdo]
      · have e : o ++ (o0 ++ b0 ++ out) = (o ++ o0) ++ b0 ++ out := by simp
        rw [e]
        refine after_unit hm (shifted := false) (v := v) (ws := ws0) rfl rfl ?_ r1 rfl hs.vars (by simp [hs.out]) ?_ (fun _ => rfl) ?_ ?_
        · rw [hb]
          cases i with
          | zero => left; simp
          | succ i => right; simp
        · exact (drop_cons hst.toks).2
        · intro w' b' ws' s2 he2 hst2
          exact ih (fun x hx => hP x (List.mem_cons_of_mem _ hx)) w' b' ws' he2 _ s2 hst2
        · intro hnil
          subst hnil
          exact hg'.nil
    · exact absurd hno (fun h => h5.noMatch h)

theorem greedy_runs {m : Matcher σ} (hm : m.Ok) {P : Text → Prop} {a : Actions V} (ha : a.LocalFor m P) (b : Text) (ws : List (Text × Text))
    (hP : ∀ x ∈ ws, P x.1) (v : V) {out : Text} (h : Greedy m a true false [] v ws out) :
    ∃ n, loopRun m a (tokensOf b ws) n (loopInit m v) = some (.ok (b ++ out)) := by
  apply Ends.run
  have := after_unit hm (shifted := false) (a := a) (toks := tokensOf b ws) (s := loopInit m v) (b := b) (t := out) (ws := ws) (v := v) (o := [])
    rfl rfl (Or.inl rfl) rfl rfl rfl rfl rfl (fun _ => rfl)
    (fun w' b' ws' s' he hst => greedy_ends hm ha h hP w' b' ws' he _ s' hst)
    (fun hnil => by subst hnil; exact h.nil)
  simpa using this

/-- **C16** (part: the cases where a rule is rejected right after a rule that was rejected passing over fewer words than it
matched are left out; there the code departs from the property, see below).  The loop writes the blank at the start and then
the left-to-right longest-match translation. -/
theorem C16_longest_match_partial {m : Matcher σ} (hm : m.Ok) {a : Actions V} (ha : a.Local) (b : Text) (ws : List (Text × Text)) (v : V)
    {out : Text} (h : Greedy m a true false [] v ws out) :
    ∃ n, loopRun m a (tokensOf b ws) n (loopInit m v) = some (.ok (b ++ out)) :=
  greedy_runs hm (ha.localFor m (fun _ => True)) b ws (fun _ _ => trivial) v h

/-- Either some rule matches, and there is a longest match, or none does. -/
theorem longest_or_none (m : Matcher σ) (banned : List Nat) (ws : List Text) :
    (∃ k r, m.Longest banned ws k r) ∨ m.NoMatch banned ws := by
  have key : ∀ d, d ≤ ws.length → (∃ k r, m.Longest banned ws k r) ∨
      ∀ k, ws.length - d < k → 1 ≤ k → k ≤ ws.length → m.classify (m.after (ws.take k)) banned = none := by
    intro d
    induction d with
    | zero => intro _; exact Or.inr fun k h1 _ h2 => by omega
    | succ d ih =>
      intro hd
      rcases ih (by omega) with h | h
      · exact Or.inl h
      · cases hc : m.classify (m.after (ws.take (ws.length - d))) banned with
        | none =>
          refine Or.inr fun k h1 h2 h3 => ?_
          by_cases hk : k = ws.length - d
          · subst hk; exact hc
          · exact h k (by omega) h2 h3
        | some r =>
          exact Or.inl ⟨ws.length - d, r, by omega, by omega, hc, fun k' h1 h2 => h k' h1 (by omega) h2⟩
  rcases key ws.length (Nat.le_refl _) with h | h
  · exact Or.inl h
  · exact Or.inr fun k h1 h2 => h k (by omega) h1 h2

theorem exists_greedy (m : Matcher σ) (a : Actions V) (N : Nat)
    (hban : ∀ s banned r, m.classify s banned = some r → r < N ∧ r ∉ banned)
    (hap : ∀ r ws bs k v, ∃ n o v', a.apply r ws bs k v = .ok (n, o, v') ∧ n ≤ 0)
    (hdf : ∀ w, ∃ o, a.dflt w = .ok o) (L : Nat) (ws : List (Text × Text)) (hL : ws.length ≤ L) (M : Nat) (banned : List Nat) (v : V)
    (hM : M + banned.length = N) (hnd : banned.Nodup ∧ ∀ r ∈ banned, r < N) (hnil : ws = [] → banned = []) :
    ∃ out, Greedy m a true false banned v ws out := by
  induction L generalizing ws M banned v with
  | zero =>
    have : ws = [] := by cases ws <;> simp_all
    subst this
    rw [hnil rfl]
    exact ⟨[], .done⟩
  | succ L ihL =>
    cases ws with
    | nil => rw [hnil rfl]; exact ⟨[], .done⟩
    | cons x ws =>
      have ih0 : ∀ ws' v', ws'.length ≤ L → ∃ out, Greedy m a true false [] v' ws' out :=
        fun ws' v' h => ihL ws' h N [] v' (by simp) (by simp) (fun _ => rfl)
      induction M generalizing banned v with
      | zero =>
        -- every rule is banned
        refine (longest_or_none m banned ((x :: ws).map (·.1))).elim ?_ ?_
        · rintro ⟨k, r, hl⟩
          obtain ⟨h1, h2⟩ := hban _ _ _ hl.2.2.1
          exfalso
          have hsub : (r :: banned) ⊆ List.range N := by
            intro y hy
            rcases List.mem_cons.1 hy with rfl | hy
            · exact List.mem_range.2 h1
            · exact List.mem_range.2 (hnd.2 y hy)
          have := (List.nodup_cons.2 ⟨h2, hnd.1⟩).length_le_of_subset hsub
          simp at this
          omega
        · intro hno
          obtain ⟨out, h⟩ := ih0 ws v (by simpa using hL)
          obtain ⟨o, ho⟩ := hdf x.1
          exact ⟨_, .dflt hno ho h⟩
      | succ M ihM =>
        refine (longest_or_none m banned ((x :: ws).map (·.1))).elim ?_ ?_
        · rintro ⟨k, r, hl⟩
          obtain ⟨n, o, v', hapr, hn⟩ := hap r (((x :: ws).map (·.1)).take k) (((x :: ws).map (·.2)).take (k - 1)) k v
          by_cases hn0 : n = 0
          · subst hn0
            obtain ⟨h1, h2⟩ := hban _ _ _ hl.2.2.1
            obtain ⟨out, h⟩ := ihM (r :: banned) v' (by simp; omega)
              ⟨List.nodup_cons.2 ⟨h2, hnd.1⟩, fun y hy => by
                rcases List.mem_cons.1 hy with rfl | hy
                · exact h1
                · exact hnd.2 y hy⟩ (by simp)
            exact ⟨_, .reject hl hapr (fun _ => rfl) h⟩
          · have hk1 := hl.1
            have hk2 := hl.2.1
            have hb : (((x :: ws).map (·.2))[k - 1]?) = some (((x :: ws).map (·.2))[k - 1]'(by simp at hk2 ⊢; omega)) :=
              List.getElem?_eq_getElem _
            obtain ⟨out, h⟩ := ih0 ((x :: ws).drop k) v' (by simp at hL ⊢; omega)
            exact ⟨_, .rule hl hapr (by omega) hb h⟩
        · intro hno
          obtain ⟨out, h⟩ := ih0 ws v (by simpa using hL)
          obtain ⟨o, ho⟩ := hdf x.1
          exact ⟨_, .dflt hno ho h⟩

/-- **C16** (part, termination): with finitely many rules, none of which stops with an error or asks for words to be passed over,
the loop ends on every input, and what it writes is a left-to-right longest-match translation. -/
theorem C16_total_partial {m : Matcher σ} (hm : m.Ok) {a : Actions V} (ha : a.Local) (N : Nat)
    (hban : ∀ s banned r, m.classify s banned = some r → r < N ∧ r ∉ banned)
    (hap : ∀ r ws bs k v, ∃ n o v', a.apply r ws bs k v = .ok (n, o, v') ∧ n ≤ 0) (hdf : ∀ w, ∃ o, a.dflt w = .ok o)
    (b : Text) (ws : List (Text × Text)) (v : V) :
    ∃ out n, Greedy m a true false [] v ws out ∧ loopRun m a (tokensOf b ws) n (loopInit m v) = some (.ok (b ++ out)) := by
  obtain ⟨out, h⟩ := exists_greedy m a N hban hap hdf ws.length ws (Nat.le_refl _) N [] v (by simp) (by simp) (fun _ => rfl)
  obtain ⟨n, hn⟩ := C16_longest_match_partial hm ha b ws v h
  exact ⟨out, n, h, hn⟩

/-! ## An instance, and two cases where the code departs from the property -/

/-- A matcher for patterns that are lists of words. -/
def patMatcher (rules : List (List Text)) : Matcher (Option (List Text × Bool)) where
  init := some ([], true)
  cleared := none
  word
    | some (ws, true), w => if rules.any (fun p => (ws ++ [w]).isPrefixOf p) then some (ws ++ [w], false) else none
    | _, _ => none
  blank
    | some (ws, false) => if rules.any (fun p => ws.isPrefixOf p && decide (p ≠ ws)) then some (ws, true) else none
    | _ => none
  dead s := s.isNone
  classify
    | some (ws, false), banned => (List.range rules.length).find? fun i => decide (i ∉ banned) && decide (rules[i]? = some ws)
    | _, _ => none

theorem patMatcher_ok (rules : List (List Text)) : (patMatcher rules).Ok where
  deadWord s w h := by cases s <;> simp_all [patMatcher]
  deadBlank s h := by cases s <;> simp_all [patMatcher]
  deadClassify s b h := by cases s <;> simp_all [patMatcher]
  initAlive := rfl
  initBlank := rfl
  cleared := rfl
  initClassify b := rfl
  blankClassify s b := by
    rcases s with _ | ⟨ws, _ | _⟩
    · rfl
    · simp only [patMatcher]
      split <;> simp_all
    · rfl

theorem patMatcher_banned (rules : List (List Text)) (s : Option (List Text × Bool)) (banned : List Nat) (r : Nat)
    (h : (patMatcher rules).classify s banned = some r) : r < rules.length ∧ r ∉ banned := by
  rcases s with _ | ⟨ws, _ | _⟩
  · simp [patMatcher] at h
  · simp only [patMatcher] at h
    have h1 := List.find?_some h
    have h2 := List.mem_of_find?_eq_some h
    simp at h1 h2
    exact ⟨h2, h1.1⟩
  · simp [patMatcher] at h

/-- Rules over `a b c`: rule 0 on `a b c` is rejected with 0, rule 1 on `a b` writes the words swapped, rule 2 on `b` is never
the longest match here. -/
def exActions : Actions Unit where
  dflt w := .ok ('^' :: w ++ ['$'])
  apply r ws bs k _ :=
    if r = 0 then .ok (0, [], ())
    else .ok (-1, '{' :: (ws.take k).reverse.flatten ++ (bs.take (k - 1)).flatten ++ ['}'], ())

theorem exActions_local : exActions.Local := by
  intro r ws bs k v _ _
  simp [exActions, List.take_take]

def exRules : List (List Text) := [["a".toList, "b".toList, "c".toList], ["a".toList, "b".toList], ["b".toList]]

/-- The hypotheses of `C16_total_partial` hold of a non-trivial set of rules and actions. -/
example : ∃ out n, Greedy (patMatcher exRules) exActions
      true false [] ()
      [("a".toList, " ".toList), ("b".toList, "_".toList), ("c".toList, "!".toList)] out ∧
    loopRun (patMatcher exRules) exActions
      (tokensOf "~".toList [("a".toList, " ".toList), ("b".toList, "_".toList), ("c".toList, "!".toList)]) n
      (loopInit (patMatcher exRules) ()) = some (.ok ("~".toList ++ out)) :=
  C16_total_partial (patMatcher_ok _) exActions_local 3 (fun s banned r h => patMatcher_banned exRules s banned r h)
    (fun r ws bs k v => by by_cases h : r = 0 <;> simp [exActions, h]) (fun _ => ⟨_, rfl⟩) _ _ _

/-- What is written in that case: rule 0 is the longest match but is rejected, so rule 1 is used; `c` is written as it is. -/
example : loopRun (patMatcher exRules) exActions
      (tokensOf "~".toList [("a".toList, " ".toList), ("b".toList, "_".toList), ("c".toList, "!".toList)]) 20
      (loopInit (patMatcher exRules) ()) = some (.ok "~{ba }_^c$!".toList) := by decide +kernel

/-- Rule 0, on `a b`, is rejected passing over one word; rule 1, on `b c`, is rejected with `n`. -/
def shiftActions (n : Int) : Actions Unit where
  dflt w := .ok ('^' :: w ++ ['$'])
  apply r _ _ _ _ := if r = 0 then .ok (1, [], ()) else .ok (n, [], ())

theorem shiftActions_local (n : Int) : (shiftActions n).Local := by
  intro r ws bs k v _ _
  simp [shiftActions]

def shiftRules : List (List Text) := [["a".toList, "b".toList], ["b".toList, "c".toList]]

/-- **C16 does not hold** after a rule that is rejected passing over fewer words than it matched: `prev_last` still is the end
of that rule, so when the next rule is rejected too (with 0) the match is not tried again at its first word: the words
`b` and the blank after it are lost. -/
theorem C16_reject_after_shift_violation :
    ∃ out, Greedy (patMatcher shiftRules) (shiftActions 0) false false [] ()
        [("a".toList, " ".toList), ("b".toList, "_".toList), ("c".toList, "!".toList)] out ∧
      out = " ^b$_^c$!".toList ∧
      loopRun (patMatcher shiftRules) (shiftActions 0)
        (tokensOf [] [("a".toList, " ".toList), ("b".toList, "_".toList), ("c".toList, "!".toList)]) 20
        (loopInit (patMatcher shiftRules) ())
        = some (.ok " ^c$!".toList) := by
  refine ⟨_, ?_, rfl, by decide +kernel⟩
  refine Greedy.shift (k := 2) (r := 0) (n := 1) (o := []) (v' := ()) (b := " ".toList) (out := "^b$_^c$!".toList)
    ⟨by decide, by decide, by decide +kernel, ?_⟩ rfl (by decide) (by decide) (by simp) rfl ?_
  · intro k' h1 h2
    have : k' = 3 := by simp at h2; omega
    subst this; decide +kernel
  refine Greedy.reject (k := 2) (r := 1) (o := []) (v' := ()) (out := "^b$_^c$!".toList)
    ⟨by decide, by decide, by decide +kernel, ?_⟩ rfl (by simp) ?_
  · intro k' h1 h2
    simp at h2; omega
  refine Greedy.dflt (w := "b".toList) (b := "_".toList) (o := "^b$".toList) (out := "^c$!".toList) ?_ (by rfl) ?_
  · intro k' h1 h2
    have : k' = 1 ∨ k' = 2 := by simp at h2; omega
    rcases this with rfl | rfl <;> decide +kernel
  refine Greedy.dflt (w := "c".toList) (b := "!".toList) (o := "^c$".toList) (out := []) ?_ (by rfl) .done
  intro k' h1 h2
  have : k' = 1 := by simp at h2; omega
  subst this; decide +kernel

/-- **C16 does not hold** either when the second rule is rejected passing over one word: `c` is lost. -/
theorem C16_shift_after_shift_violation :
    ∃ out, Greedy (patMatcher shiftRules) (shiftActions 1) false false [] ()
        [("a".toList, " ".toList), ("b".toList, "_".toList), ("c".toList, "!".toList)] out ∧
      out = " _^c$!".toList ∧
      loopRun (patMatcher shiftRules) (shiftActions 1)
        (tokensOf [] [("a".toList, " ".toList), ("b".toList, "_".toList), ("c".toList, "!".toList)]) 20
        (loopInit (patMatcher shiftRules) ())
        = some (.ok " !".toList) := by
  refine ⟨_, ?_, rfl, by decide +kernel⟩
  refine Greedy.shift (k := 2) (r := 0) (n := 1) (o := []) (v' := ()) (b := " ".toList) (out := "_^c$!".toList)
    ⟨by decide, by decide, by decide +kernel, ?_⟩ rfl (by decide) (by decide) (by simp) rfl ?_
  · intro k' h1 h2
    have : k' = 3 := by simp at h2; omega
    subst this; decide +kernel
  refine Greedy.shift (k := 2) (r := 1) (n := 1) (o := []) (v' := ()) (b := "_".toList) (out := "^c$!".toList)
    ⟨by decide, by decide, by decide +kernel, ?_⟩ rfl (by decide) (by decide) (by simp) rfl ?_
  · intro k' h1 h2
    simp at h2; omega
  refine Greedy.dflt (w := "c".toList) (b := "!".toList) (o := "^c$".toList) (out := []) ?_ (by rfl) .done
  intro k' h1 h2
  have : k' = 1 := by simp at h2; omega
  subst this; decide +kernel

end Verif.Transfer
