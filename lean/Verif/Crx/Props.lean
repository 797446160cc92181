import Verif.Crx.Run
/-!
# The rules that match (C73)
-/
namespace Verif.Crx
open Verif.Caps (Mark)
section
variable {upper : Nat → Bool}

/-! ## The compiled rules -/

theorem compile_some {one : Int} {minimize : Trans → Trans} {rs : List Rule} {s : RSt} (h : compile upper one minimize rs = some s) :
    ∃ s0, compileRules upper one rs {} = some s0 ∧ s.trans = minimize s0.trans ∧ s.weights = s0.weights := by
  unfold compile at h
  obtain ⟨s0, h1, rfl⟩ := Option.map_eq_some_iff.1 h
  exact ⟨s0, h1, rfl, rfl⟩

theorem compile_accepts {one : Int} {minimize : Trans → Trans} {rs : List Rule} {s : RSt} (hm : ∀ t, Minimal t (minimize t))
    (h : compile upper one minimize rs = some s) (u : List Lab) : s.trans.Accepts u ↔ ∃ k r, rs[k]? = some r ∧ ruleLang upper k r u := by
  obtain ⟨s0, h1, h2, _⟩ := compile_some h
  rw [h2, (hm s0.trans).same, (compileRules_accepts h1).1]

theorem compile_good {one : Int} {minimize : Trans → Trans} {rs : List Rule} {s : RSt} (hm : ∀ t, Minimal t (minimize t))
    (h : compile upper one minimize rs = some s) (hn : ∀ r ∈ rs, AllEach Match.Named r.body) : Good s.trans := by
  obtain ⟨s0, h1, h2, _⟩ := compile_some h
  have hm' := hm s0.trans
  rw [← h2] at hm'
  refine ⟨?_, hm'.noEmpty, hm'.useful, ?_⟩
  · have := hm'.initial
    omega
  · intro u hu
    obtain ⟨k, r, h3, x, h4, h5⟩ := (compile_accepts hm h u).1 hu
    exact ⟨x, k, seq_parts r.body (hn r (List.mem_of_getElem? h3)) x h4, h5⟩

mutual
theorem each_named : (c : Node) → c.Each Match.Plain → c.Each Match.Named
  | .word m, h => by rw [Node.Each] at h ⊢; exact h.names
  | .start, _ => by rw [Node.Each]; trivial
  | .or cs, h => by rw [Node.Each] at h ⊢; exact allEach_named cs h
  | .rep _ _ cs, h => by rw [Node.Each] at h ⊢; exact allEach_named cs h

theorem allEach_named : (cs : List Node) → AllEach Match.Plain cs → AllEach Match.Named cs
  | [], _ => by rw [AllEach]; trivial
  | c :: cs, h => by rw [AllEach] at h ⊢; exact ⟨each_named c h.1, allEach_named cs h.2⟩
end

/-! ## Output -/

theorem outs_inner {w : List Lab} (h : ∀ l ∈ w, Inner l) : outs w = [] := by
  unfold outs
  rw [List.flatMap_eq_nil_iff]
  intro l hl
  obtain ⟨a, rfl, _⟩ := h l hl
  rfl

theorem marks_inner' {w : List Lab} (h : ∀ l ∈ w, Inner l) : marks w = [] := marks_inner (fun l hl => by obtain ⟨a, h1, _⟩ := h l hl; exact ⟨a, h1⟩)

theorem cut_parts {x : List Lab} (h : Parts x) (k : Nat) (cur : Text) : cutOutput cur (outs (x ++ [.bound, .rule k])) =
    (ruleId k, (if cur = [] then [] else [cur]) ++ (marks x).map (fun m => outText (.mark m))) := by
  induction h generalizing cur with
  | nil =>
    simp only [outs, List.nil_append, List.flatMap_cons, List.flatMap_nil, Lab.output, List.cons_append, cutOutput, if_pos, marks, List.filterMap_nil, List.map_nil, List.append_nil]
    simp only [reduceCtorEq, if_false, outText]
  | start _ ih =>
    rw [List.cons_append]
    exact ih cur
  | @word w s m h1 h2 _ ih =>
    have e : outs ((w ++ .bound :: .mark m :: s) ++ [.bound, .rule k]) = .bound :: .mark m :: outs (s ++ [.bound, .rule k]) := by
      rw [List.append_assoc, outs_append, outs_inner h2]; rfl
    have hne : outText (.mark m) ≠ [] := by cases m <;> simp [outText]
    rw [e, marks_append, marks_inner' h2]
    simp only [cutOutput, if_pos, reduceCtorEq, if_false, List.nil_append]
    rw [ih, if_neg hne]
    simp only [marks, markOfLab, List.filterMap_cons, List.map_cons]
    split <;> simp

theorem markOf_outText (m : Mark) : markOf (outText (.mark m)) = m := by cases m <;> simp [markOf, outText]

theorem cut_rule {x : List Lab} (h : Parts x) (k : Nat) :
    ((cutOutput [] (outs (x ++ [.bound, .rule k]))).1, (cutOutput [] (outs (x ++ [.bound, .rule k]))).2.map markOf) = (ruleId k, marks x) := by
  rw [cut_parts h]
  have : markOf ∘ (fun m => outText (.mark m)) = id := funext markOf_outText
  simp [this]

/-! ## The histories -/

/-- The codes of the items; `none` is the additional end. -/
def code : Option Ev → List Rd
  | none => [.wb]
  | some e => e.events

theorem split_sep {a b x y : List Rd} (ha : Rd.sep ∉ a) (hb : Rd.sep ∉ b) (h : a ++ .sep :: x = b ++ .sep :: y) : a = b ∧ x = y := by
  induction a generalizing b with
  | nil =>
    cases b with
    | nil => simp at h; exact ⟨rfl, h⟩
    | cons c b => simp at h; exact absurd h.1 (fun h => hb (by simp [h]))
  | cons c a ih =>
    cases b with
    | nil => simp at h; exact absurd h.1 (fun h => ha (by simp [h]))
    | cons d b =>
      simp only [List.cons_append, List.cons.injEq] at h
      obtain ⟨rfl, h⟩ := h
      obtain ⟨rfl, rfl⟩ := ih (fun h => ha (by simp [h])) (fun h => hb (by simp [h])) h
      exact ⟨rfl, rfl⟩

theorem split_wb {a b x y : List Rd} (ha : Rd.wb ∉ a) (hb : Rd.wb ∉ b) (h : a ++ .wb :: x = b ++ .wb :: y) : a = b ∧ x = y := by
  induction a generalizing b with
  | nil =>
    cases b with
    | nil => simp at h; exact ⟨rfl, h⟩
    | cons c b => simp at h; exact absurd h.1 (fun h => hb (by simp [h]))
  | cons c a ih =>
    cases b with
    | nil => simp at h; exact absurd h.1 (fun h => ha (by simp [h]))
    | cons d b =>
      simp only [List.cons_append, List.cons.injEq] at h
      obtain ⟨rfl, h⟩ := h
      obtain ⟨rfl, rfl⟩ := ih (fun h => ha (by simp [h])) (fun h => hb (by simp [h])) h
      exact ⟨rfl, rfl⟩

theorem chars_inj {s t : Text} (h : chars s = chars t) : s = t := by
  unfold chars at h
  exact (List.map_inj_right (fun a b h => by simpa using h)).1 h

theorem toks_inj {s t : List Tok} (h : toks s = toks t) : s = t := by
  unfold toks at h
  exact (List.map_inj_right (fun a b h => by simpa using h)).1 h

theorem chars_sep (t : Text) : Rd.sep ∉ chars t := by simp [chars]
theorem toks_sep (t : List Tok) : Rd.sep ∉ toks t := by simp [toks]

theorem events_split {w v : Seen} {x y : List Rd} (h : w.events ++ x = v.events ++ y) : w = v ∧ x = y := by
  unfold Seen.events Seen.body at h
  simp only [List.append_assoc, List.cons_append, List.nil_append] at h
  obtain ⟨h1, h⟩ := split_sep (chars_sep _) (chars_sep _) h
  obtain ⟨h2, h⟩ := split_sep (chars_sep _) (chars_sep _) h
  obtain ⟨h3, h⟩ := split_sep (toks_sep _) (toks_sep _) h
  obtain ⟨h4, h5⟩ := split_wb (by simp [toks]) (by simp [toks]) h
  obtain ⟨a, b, c, d⟩ := w
  obtain ⟨a', b', c', d'⟩ := v
  have h1 : a = a' := chars_inj h1
  have h2 : b = b' := chars_inj h2
  have h3 : c = c' := toks_inj h3
  have h4 : d = d' := toks_inj h4
  rw [h1, h2, h3, h4]
  exact ⟨rfl, h5⟩

theorem events_head (w : Seen) : ∃ e r, w.events = e :: r ∧ (e = .sep ∨ ∃ t, e = .tok t) := by
  unfold Seen.events Seen.body
  cases w.srcSurf with
  | nil => exact ⟨_, _, rfl, Or.inl rfl⟩
  | cons c t => exact ⟨_, _, rfl, Or.inr ⟨_, rfl⟩⟩

theorem code_split {a b : Option Ev} {x y : List Rd} (h : code a ++ x = code b ++ y) : a = b ∧ x = y := by
  cases a with
  | none =>
    cases b with
    | none => simp [code] at h; exact ⟨rfl, h⟩
    | some b =>
      cases b with
      | start => simp [code, Ev.events] at h
      | word v =>
        obtain ⟨e, r, h1, h2⟩ := events_head v
        simp only [code, Ev.events, h1, List.cons_append, List.cons.injEq] at h
        rcases h2 with h2 | ⟨t, h2⟩ <;> rw [h2] at h <;> cases h.1
  | some a =>
    cases a with
    | start =>
      cases b with
      | none => simp [code, Ev.events] at h
      | some b =>
        cases b with
        | start => simp [code, Ev.events] at h; exact ⟨rfl, h⟩
        | word v =>
          obtain ⟨e, r, h1, h2⟩ := events_head v
          simp only [code, Ev.events, h1, List.cons_append, List.cons.injEq] at h
          rcases h2 with h2 | ⟨t, h2⟩ <;> rw [h2] at h <;> cases h.1
    | word w =>
      obtain ⟨e, r, h1, h2⟩ := events_head w
      cases b with
      | none =>
        simp only [code, Ev.events, h1, List.cons_append, List.cons.injEq] at h
        rcases h2 with h2 | ⟨t, h2⟩ <;> rw [h2] at h <;> cases h.1
      | some b =>
        cases b with
        | start =>
          simp only [code, Ev.events, h1, List.cons_append, List.cons.injEq] at h
          rcases h2 with h2 | ⟨t, h2⟩ <;> rw [h2] at h <;> cases h.1
        | word v =>
          obtain ⟨rfl, rfl⟩ := events_split h
          exact ⟨rfl, rfl⟩

theorem code_ne (a : Option Ev) : code a ≠ [] := by
  cases a with
  | none => simp [code]
  | some a =>
    cases a with
    | start => simp [code, Ev.events]
    | word w => obtain ⟨e, r, h, _⟩ := events_head w; simp [code, Ev.events, h]

theorem code_inj {a b : List (Option Ev)} (h : a.flatMap code = b.flatMap code) : a = b := by
  induction a generalizing b with
  | nil =>
    cases b with
    | nil => rfl
    | cons x b => simp at h; exact absurd h.1 (code_ne x)
  | cons x a ih =>
    cases b with
    | nil => simp at h; exact absurd h.1 (code_ne x)
    | cons y b =>
      rw [List.flatMap_cons, List.flatMap_cons] at h
      obtain ⟨rfl, h1⟩ := code_split h
      rw [ih h1]

theorem code_some (es : List Ev) : (es.map some).flatMap code = es.flatMap Ev.events := by
  induction es with
  | nil => rfl
  | cons e es ih => simp only [List.map_cons, List.flatMap_cons, ih]; rfl

/-- The sequences that can have been read (the last word is the first in the list). -/
def Hist : List Seen → List (Option Ev) → Prop
  | [], i => i = [] ∨ i = [some .start]
  | w :: ws, i => i = [] ∨ ∃ j, Hist ws j ∧ (i = j ++ [some (.word w)] ∨ i = j ++ [some (.word w), none])

theorem hist_nil (ws : List Seen) : Hist ws [] := by
  cases ws with
  | nil => exact Or.inl rfl
  | cons w ws => exact Or.inl rfl

theorem suffix_concat {α : Type} {l m : List α} {a : α} (h : l <:+ m ++ [a]) : l = [] ∨ ∃ k, l = k ++ [a] ∧ k <:+ m := by
  rcases List.eq_nil_or_concat l with rfl | ⟨k, b, rfl⟩
  · exact Or.inl rfl
  · obtain ⟨p, hp⟩ := h
    rw [List.concat_eq_append, ← List.append_assoc] at hp
    obtain ⟨h1, h2⟩ := List.append_inj' hp rfl
    injection h2 with h2
    subst h2
    exact Or.inr ⟨k, List.concat_eq_append .., p, h1⟩

theorem hist_some (ws : List Seen) (es : List Ev) : Hist ws (es.map some) ↔ es <:+ Ev.start :: ws.reverse.map Ev.word := by
  induction ws generalizing es with
  | nil =>
    unfold Hist
    constructor
    · rintro (h | h)
      · rw [List.map_eq_nil_iff.1 h]; exact List.nil_suffix
      · cases es with
        | nil => exact List.nil_suffix
        | cons e es =>
          simp at h
          obtain ⟨rfl, rfl⟩ := h
          exact List.suffix_refl _
    · intro h
      rcases suffix_concat (m := []) h with rfl | ⟨k, rfl, hk⟩
      · exact Or.inl rfl
      · rw [List.suffix_nil.1 hk]; exact Or.inr rfl
  | cons w ws ih =>
    unfold Hist
    have e : Ev.start :: (w :: ws).reverse.map Ev.word = (Ev.start :: ws.reverse.map Ev.word) ++ [.word w] := by simp
    rw [e]
    constructor
    · rintro (h | ⟨j, h1, h | h⟩)
      · rw [List.map_eq_nil_iff.1 h]; exact List.nil_suffix
      · obtain ⟨a, b, rfl, rfl, h4⟩ := List.map_eq_append_iff.1 h
        obtain ⟨c, rfl, h5⟩ := List.map_eq_singleton_iff.1 h4
        injection h5 with h5
        subst h5
        obtain ⟨p, hp⟩ := (ih a).1 h1
        exact ⟨p, by rw [← hp, List.append_assoc]⟩
      · have : none ∈ es.map some := by rw [h]; simp
        simp at this
    · intro h
      rcases suffix_concat h with rfl | ⟨k, rfl, hk⟩
      · exact Or.inl rfl
      · exact Or.inr ⟨k.map some, (ih k).2 hk, Or.inl (by simp)⟩

theorem body_clean {w : Seen} (h : w.Plain) : Clean w.events := by
  obtain ⟨_, _, s1, s2⟩ := h.src
  obtain ⟨c1, c2⟩ := h.chars
  refine ⟨fun hx => ?_, fun hx => ?_, fun t ht hx => ?_⟩
  · simp only [Seen.events, Seen.body, chars, toks, List.mem_append, List.mem_cons, List.mem_map, Rd.tok.injEq, Tok.chr.injEq, exists_eq_right, reduceCtorEq, false_or,
      List.not_mem_nil, or_false] at hx s1 c1
    rcases hx with h | h | h | h
    · exact s1 (Or.inl h)
    · exact s1 (Or.inr h)
    · exact c1 (Or.inl h)
    · exact c1 (Or.inr h)
  · simp only [Seen.events, Seen.body, chars, toks, List.mem_append, List.mem_cons, List.mem_map, Rd.tok.injEq, Tok.chr.injEq, exists_eq_right, reduceCtorEq, false_or,
      List.not_mem_nil, or_false] at hx s2 c2
    rcases hx with h | h | h | h
    · exact s2 (Or.inl h)
    · exact s2 (Or.inr h)
    · exact c2 (Or.inl h)
    · exact c2 (Or.inr h)
  · have ct := h.tags t ht
    simp only [Seen.events, Seen.body, chars, toks, List.mem_append, List.mem_cons, List.mem_map, Rd.tok.injEq, exists_eq_right, reduceCtorEq, false_or, and_false,
      exists_false, List.not_mem_nil, or_false] at hx ct
    rcases hx with h | h
    · exact ct (Or.inl h)
    · exact ct (Or.inr h)

theorem Clean.append {x y : List Rd} (h : Clean x) (h' : Clean y) : Clean (x ++ y) :=
  ⟨fun hx => (List.mem_append.1 hx).elim h.slash h'.slash, fun hx => (List.mem_append.1 hx).elim h.nul h'.nul, fun t ht hx => (List.mem_append.1 hx).elim (h.tags t ht) (h'.tags t ht)⟩

theorem clean_wb : Clean [.wb] := ⟨by simp, by simp, by simp⟩
theorem clean_nb : Clean [.nb] := ⟨by simp, by simp, by simp⟩
theorem clean_nil : Clean [] := ⟨by simp, by simp, by simp⟩

theorem hist_clean (ws : List Seen) (hw : ∀ w ∈ ws, w.Plain) (i : List (Option Ev)) (h : Hist ws i) : Clean (i.flatMap code) := by
  induction ws generalizing i with
  | nil =>
    rcases h with rfl | rfl
    · exact clean_nil
    · exact clean_nb
  | cons w ws ih =>
    have hc := body_clean (hw w (by simp))
    rcases h with rfl | ⟨j, h1, rfl | rfl⟩
    · exact clean_nil
    · have := (ih (fun w h => hw w (by simp [h])) j h1).append hc
      simpa [code, Ev.events] using this
    · have := (ih (fun w h => hw w (by simp [h])) j h1).append (hc.append clean_wb)
      simpa [code, Ev.events] using this

/-! ## The rules that match -/

theorem mem_threadPaths {m : Trans} {E : List Rd → Prop} {S : List Thread} (hS : Thr upper m E S) (p : Text × List Mark) :
    p ∈ threadPaths m S ↔ ∃ u es, m.Accepts u ∧ ReadsL upper u es ∧ E es ∧ p = ((cutOutput [] (outs u)).1, (cutOutput [] (outs u)).2.map markOf) := by
  unfold threadPaths
  simp only [List.mem_map, List.mem_filter, decide_eq_true_eq]
  constructor
  · rintro ⟨th, ⟨h1, h2⟩, rfl⟩
    obtain ⟨u, es, h3, h4, h5, h6⟩ := (hS th).1 h1
    exact ⟨u, es, ⟨th.1, h2, h3⟩, h5, h6, by rw [h4]⟩
  · rintro ⟨u, es, ⟨f, h1, h2⟩, h3, h4, rfl⟩
    exact ⟨(f, outs u), ⟨(hS _).2 ⟨u, es, h2, rfl, h3, h4⟩, h1⟩, rfl⟩

/-- What has been read, in the state before a word. -/
def Known (upper : Nat → Bool) (m : Trans) (done : List Seen) (S : List Thread) : Prop :=
  Thr upper m (fun es => ∃ i, Hist done i ∧ es = i.flatMap code) S

theorem known_start {m : Trans} (h : Good m) : Known upper m [] (stepOptional m nullBoundary (startState m)) :=
  (h.optional h.start (e := .nb) (b := nullBoundary) (fun a => by simp [Can])).congr (fun es => by
    constructor
    · rintro (rfl | ⟨_, rfl, rfl⟩)
      · exact ⟨[], Or.inl rfl, rfl⟩
      · exact ⟨[some .start], Or.inr rfl, rfl⟩
    · rintro ⟨i, rfl | rfl, rfl⟩
      · exact Or.inl rfl
      · exact Or.inr ⟨[], rfl, rfl⟩)

/-- After a word, before `merge`. -/
def KnownW (upper : Nat → Bool) (m : Trans) (done : List Seen) (w : Seen) (S : List Thread) : Prop :=
  Thr upper m (fun es => ∃ j, Hist done j ∧ (es = (j ++ [some (Ev.word w)]).flatMap code ∨ es = (j ++ [some (Ev.word w), none]).flatMap code)) S

theorem known_word {m : Trans} (h : Good m) {done : List Seen} {S : List Thread} (hS : Known upper m done S) {w : Seen} {caps form surf : Text} (hr : Reads w caps form surf)
    (hp : w.Plain) : KnownW upper m done w (stepOptional m wordBoundary (stepWord upper m S caps form surf)) :=
  (h.optional (word_thr h hr hp hS) (e := .wb) (b := wordBoundary) (fun a => by simp [Can])).congr (fun es => by
    constructor
    · rintro (⟨_, ⟨j, hj, rfl⟩, rfl⟩ | ⟨_, ⟨_, ⟨j, hj, rfl⟩, rfl⟩, rfl⟩)
      · exact ⟨j, hj, Or.inl (by simp [code, Ev.events])⟩
      · exact ⟨j, hj, Or.inr (by simp [code, Ev.events])⟩
    · rintro ⟨j, hj, rfl | rfl⟩
      · exact Or.inl ⟨_, ⟨j, hj, rfl⟩, by simp [code, Ev.events]⟩
      · exact Or.inr ⟨_, ⟨_, ⟨j, hj, rfl⟩, rfl⟩, by simp [code, Ev.events]⟩)

theorem known_next {m : Trans} (h : Good m) {done : List Seen} {w : Seen} {S : List Thread} (hS : KnownW upper m done w S) :
    Known upper m (w :: done) (if decide (S = []) = true then startState m else S ++ startState m) := by
  have e : (if decide (S = []) = true then startState m else S ++ startState m) = S ++ startState m := by
    by_cases hx : S = []
    · simp [hx]
    · simp [hx]
  rw [e]
  exact (Thr.restart h hS).congr (fun es => by
    constructor
    · rintro (rfl | ⟨j, hj, rfl | rfl⟩)
      · exact ⟨[], Or.inl rfl, rfl⟩
      · exact ⟨_, Or.inr ⟨j, hj, Or.inl rfl⟩, rfl⟩
      · exact ⟨_, Or.inr ⟨j, hj, Or.inr rfl⟩, rfl⟩
    · rintro ⟨i, rfl | ⟨j, hj, rfl | rfl⟩, rfl⟩
      · exact Or.inl rfl
      · exact Or.inr ⟨j, hj, Or.inl rfl⟩
      · exact Or.inr ⟨j, hj, Or.inr rfl⟩)

variable {one : Int} {minimize : Trans → Trans} {rs : List Rule} {s : RSt}

theorem paths_iff (hm : ∀ t, Minimal t (minimize t)) (hc : compile upper one minimize rs = some s) (hp : ∀ r ∈ rs, AllEach Match.Plain r.body) {done : List Seen}
    (hd : ∀ w ∈ done, w.Plain) {w : Seen} (hw : w.Plain) {S : List Thread} (hS : KnownW upper s.trans done w S) (p : Text × List Mark) :
    p ∈ threadPaths s.trans S ↔ ∃ k ms, p = (ruleId k, ms) ∧ MatchesAt upper rs (done.reverse ++ [w]) k ms := by
  have hok : ∀ r ∈ rs, AllOk r.body := (C73_compiles upper one minimize rs).1 (by rw [hc]; rfl)
  have hws : ∀ v ∈ w :: done, v.Plain := by
    intro v hv
    rcases List.mem_cons.1 hv with rfl | hv
    · exact hw
    · exact hd v hv
  have erev : done.reverse ++ [w] = (w :: done).reverse := by simp
  rw [mem_threadPaths hS]
  constructor
  · rintro ⟨u, es, h1, h2, h3, rfl⟩
    obtain ⟨k, r, h4, x, h5, rfl⟩ := (compile_accepts hm hc u).1 h1
    have hr := List.mem_of_getElem? h4
    refine ⟨k, marks x, cut_rule (seq_parts r.body (allEach_named _ (hp r hr)) x h5) k, r, h4, ?_⟩
    have hcl : Clean es := by
      obtain ⟨j, hj, rfl | rfl⟩ := h3
      · exact hist_clean (w :: done) hws _ (Or.inr ⟨j, hj, Or.inl rfl⟩)
      · exact hist_clean (w :: done) hws _ (Or.inr ⟨j, hj, Or.inr rfl⟩)
    obtain ⟨y, z, rfl, h6, h7⟩ := h2.split
    obtain ⟨e, v, rfl, h8, h9⟩ := (readsL_cons (b := wordBoundary) rfl).1 h7
    rw [readsL_silent rfl, readsL_nil] at h9
    subst h9
    rw [can_bound (hcl.event (by simp))] at h8
    subst h8
    obtain ⟨evs, rfl, h10⟩ := seq_sound r.body (hp r hr) (hok r hr) x y h5 h6 hcl.left
    have hx : evs.flatMap Ev.events ++ [.wb] = (evs.map some ++ [none]).flatMap code := by
      rw [List.flatMap_append, code_some]; rfl
    rw [hx] at h3
    obtain ⟨j, hj, h3 | h3⟩ := h3
    · have := code_inj h3
      obtain ⟨_, h⟩ := List.append_inj' this rfl
      cases h
    · have := code_inj h3
      rw [show j ++ [some (Ev.word w), none] = (j ++ [some (Ev.word w)]) ++ [none] by simp] at this
      have hj' := List.append_cancel_right this
      refine ⟨evs, ?_, ?_, h10⟩
      · rintro rfl; simp at hj'
      · rw [erev, ← hist_some, hj']
        exact Or.inr ⟨j, hj, Or.inl rfl⟩
  · rintro ⟨k, ms, rfl, r, h1, es, h2, h3, h4⟩
    have hr := List.mem_of_getElem? h1
    rw [erev, ← hist_some] at h3
    have hcl := hist_clean (w :: done) hws _ h3
    rw [code_some] at hcl
    obtain ⟨x, h5, h6, rfl⟩ := seq_complete r.body (hp r hr) (hok r hr) es ms h4 hcl
    refine ⟨x ++ [.bound, .rule k], es.flatMap Ev.events ++ [.wb], (compile_accepts hm hc _).2 ⟨k, r, h1, x, h5, rfl⟩,
      h6.append ((readsL_cons (b := wordBoundary) rfl).2 ⟨.wb, [], rfl, rfl, .silent rfl .nil⟩), ?_, (cut_rule (seq_parts r.body (allEach_named _ (hp r hr)) x h5) k).symm⟩
    rcases h3 with h3 | ⟨j, hj, h3 | h3⟩
    · exact absurd (List.map_eq_nil_iff.1 h3) h2
    · refine ⟨j, hj, Or.inr ?_⟩
      rw [← code_some, h3]
      simp [code]
    · have : none ∈ es.map some := by rw [h3]; simp
      simp at this

end
end Verif.Crx
