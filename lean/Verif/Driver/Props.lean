import Verif.Driver.Spec
/-!
# C81: apertium-tagger does what its usage says
-/
namespace Verif.Driver

/-! ### Numbers -/

theorem takeWhile_all {α : Type} (p : α → Bool) (l : List α) (h : ∀ x ∈ l, p x = true) : l.takeWhile p = l := by
  induction l with
  | nil => rfl
  | cons a l ih => rw [List.takeWhile_cons, if_pos (h a (by simp)), ih (fun x hx => h x (by simp [hx]))]

theorem dropWhile_all {α : Type} (p : α → Bool) (l : List α) (h : ∀ x ∈ l, p x = true) : l.dropWhile p = [] := by
  induction l with
  | nil => rfl
  | cons a l ih => rw [List.dropWhile_cons, if_pos (h a (by simp)), ih (fun x hx => h x (by simp [hx]))]

/-- The digits from left to right give the same number as from right to left. -/
theorem decimal_digitsVal (t : Text) : decimal t.reverse = digitsVal t := by
  have h (r : Text) : decimal r = digitsVal r.reverse := by
    induction r with
    | nil => rfl
    | cons c cs ih =>
      simp only [decimal, digitsVal, List.reverse_cons, List.foldl_append, List.foldl_cons, List.foldl_nil] at ih ⊢
      rw [ih, show '0'.toNat = 48 from rfl]
      omega
  rw [h, List.reverse_reverse]

theorem Numeral.parse {t : Text} {n : Nat} (h : Numeral t n) : parseUnsignedLong t = if n < 2 ^ 64 then some n else none := by
  obtain ⟨h1, h2, rfl⟩ := h
  rw [decimal_digitsVal]
  obtain ⟨c, cs, rfl⟩ : ∃ c cs, t = c :: cs := by cases t with
    | nil => exact absurd rfl h1
    | cons c cs => exact ⟨c, cs, rfl⟩
  have hd : ∀ x ∈ c :: cs, isDigit x = true := fun x hx => by simp [isDigit, h2 x hx]
  have hc := h2 c (by simp)
  have hsp : isSpace c = false := by
    simp only [isSpace, List.mem_cons, List.not_mem_nil, or_false, decide_eq_false_iff_not, not_or]
    refine ⟨?_, ?_, ?_, ?_, ?_, ?_⟩ <;> (rintro rfl; revert hc; decide)
  have hm : c ≠ '-' := by rintro rfl; revert hc; decide
  have hp : c ≠ '+' := by rintro rfl; revert hc; decide
  have hdw : (c :: cs).dropWhile isSpace = c :: cs := by simp [List.dropWhile, hsp]
  have htw : (c :: cs).takeWhile isDigit = c :: cs := by
    exact takeWhile_all _ _ hd
  have hdd : (c :: cs).dropWhile isDigit = [] := by
    exact dropWhile_all _ _ hd
  have hs : strtoul (c :: cs) = if digitsVal (c :: cs) > ulongMax then (ulongMax, [], true) else (digitsVal (c :: cs), [], false) := by
    unfold strtoul
    simp only [hdw]
    split
    · rename_i r hr; cases hr; exact absurd rfl hm
    · rename_i r hr; cases hr; exact absurd rfl hp
    · simp only [htw, hdd]
      simp
  unfold parseUnsignedLong
  rw [hs]
  by_cases hb : digitsVal (c :: cs) > ulongMax
  · have : ¬ digitsVal (c :: cs) < 2 ^ 64 := by simp only [ulongMax] at hb; omega
    simp [hb, this]
  · have : digitsVal (c :: cs) < 2 ^ 64 := by simp only [ulongMax] at hb; omega
    simp [hb, this]

/-! ### Options -/

/-- What the fields are after the options `os`. -/
structure Holds (os : List Sem) (s : St) : Prop where
  flag : ∀ f, s.flags f = decide (Sem.flag f ∈ os)
  unigram : ∀ m, Sem.unigram m ∈ os → s.kind = some .unigram ∧ s.model = some m
  window : Sem.slidingWindow ∈ os → s.kind = some .slidingWindow
  perceptron : Sem.perceptron ∈ os → s.kind = some .perceptron
  noKind : (∀ o ∈ os, o.slot ≠ .kind) → s.kind = none
  tagger : Sem.tagger ∈ os → s.func = some .tagger
  retrain : ∀ n, Sem.retrain n ∈ os → s.func = some .retrain ∧ s.iters = n
  supervised : ∀ n, Sem.supervised n ∈ os → s.func = some .supervised ∧ s.iters = n
  train : ∀ n, Sem.train n ∈ os → s.func = some .train ∧ s.iters = n
  noFunc : (∀ o ∈ os, o.slot ≠ .func) → s.func = none

theorem Holds.kind_of {os : List Sem} {s : St} (h : Holds os s) (hk : ∃ o ∈ os, o.slot = .kind) : s.kind.isSome = true := by
  obtain ⟨o, ho, hk⟩ := hk
  cases o with
  | unigram m => rw [(h.unigram m ho).1]; rfl
  | slidingWindow => rw [h.window ho]; rfl
  | perceptron => rw [h.perceptron ho]; rfl
  | flag f => cases hk
  | tagger => cases hk
  | retrain n => cases hk
  | supervised n => cases hk
  | train n => cases hk

theorem Holds.func_of {os : List Sem} {s : St} (h : Holds os s) (hk : ∃ o ∈ os, o.slot = .func) : s.func.isSome = true := by
  obtain ⟨o, ho, hk⟩ := hk
  cases o with
  | tagger => rw [h.tagger ho]; rfl
  | retrain n => rw [(h.retrain n ho).1]; rfl
  | supervised n => rw [(h.supervised n ho).1]; rfl
  | train n => rw [(h.train n ho).1]; rfl
  | unigram m => cases hk
  | slidingWindow => cases hk
  | perceptron => cases hk
  | flag f => cases hk

/-- The effect of an option on the fields. -/
def Sem.apply : Sem → St → Option St
  | .flag f, s => flagCase f s
  | .unigram m, s => (kindCase .unigram s).map (fun s => { s with model := some m })
  | .slidingWindow, s => kindCase .slidingWindow s
  | .perceptron, s => kindCase .perceptron s
  | .tagger, s => funcCase .tagger s
  | .retrain n, s => (funcCase .retrain s).map (fun s => { s with iters := n })
  | .supervised n, s => (funcCase .supervised s).map (fun s => { s with iters := n })
  | .train n, s => (funcCase .train s).map (fun s => { s with iters := n })

theorem itersCase_of {t : Text} {n : Nat} (h : Numeral t n) (hn : n < 2 ^ 64) (s : St) : itersCase t s = some { s with iters := n } := by
  simp only [itersCase, h.parse, if_pos hn, Option.map_some]

theorem Spells.val {a : Arg} {o : Sem} (h : Spells a o) : a.val.1 ≠ 'h' ∧ ∀ s, optionCase a.val.1 a.val.2 s = o.apply s := by
  have hv (c : Char) (hc : c ∈ shortOpts) (t : Text) : (Arg.short c t).val = (c, t) := by simp [Arg.val, hc]
  have hu (s : St) (m : Nat) (arg : Text) (ha : arg = (m + 48 |> Char.ofNat) :: []) (hm : m = 1 ∨ m = 2 ∨ m = 3) : unigramCase arg s = (Sem.unigram m).apply s := by
    unfold Sem.apply unigramCase kindCase
    by_cases hk : s.kind.isSome = true
    · simp only [if_pos hk]; rfl
    · simp only [if_neg hk]
      rcases hm with rfl | rfl | rfl <;> (subst ha; rfl)
  cases h with
  | b t => rw [hv _ (by decide)]; exact ⟨by show _ ≠ _; simp, fun s => rfl⟩
  | d t => rw [hv _ (by decide)]; exact ⟨by show _ ≠ _; simp, fun s => rfl⟩
  | e t => rw [hv _ (by decide)]; exact ⟨by show _ ≠ _; simp, fun s => rfl⟩
  | f t => rw [hv _ (by decide)]; exact ⟨by show _ ≠ _; simp, fun s => rfl⟩
  | m t => rw [hv _ (by decide)]; exact ⟨by show _ ≠ _; simp, fun s => rfl⟩
  | p t => rw [hv _ (by decide)]; exact ⟨by show _ ≠ _; simp, fun s => rfl⟩
  | z t => rw [hv _ (by decide)]; exact ⟨by show _ ≠ _; simp, fun s => rfl⟩
  | w t => rw [hv _ (by decide)]; exact ⟨by show _ ≠ _; simp, fun s => rfl⟩
  | x t => rw [hv _ (by decide)]; exact ⟨by show _ ≠ _; simp, fun s => rfl⟩
  | g t => rw [hv _ (by decide)]; exact ⟨by show _ ≠ _; simp, fun s => rfl⟩
  | sentSeg t => exact ⟨show ¬ ('b' : Char) = 'h' by decide, fun s => rfl⟩
  | debug t => exact ⟨show ¬ ('d' : Char) = 'h' by decide, fun s => rfl⟩
  | skipErrors t => exact ⟨show ¬ ('e' : Char) = 'h' by decide, fun s => rfl⟩
  | first t => exact ⟨show ¬ ('f' : Char) = 'h' by decide, fun s => rfl⟩
  | mark t => exact ⟨show ¬ ('m' : Char) = 'h' by decide, fun s => rfl⟩
  | showSuperficial t => exact ⟨show ¬ ('p' : Char) = 'h' by decide, fun s => rfl⟩
  | nullFlush t => exact ⟨show ¬ ('z' : Char) = 'h' by decide, fun s => rfl⟩
  | slidingWindow t => exact ⟨show ¬ ('w' : Char) = 'h' by decide, fun s => rfl⟩
  | perceptron t => exact ⟨show ¬ ('x' : Char) = 'h' by decide, fun s => rfl⟩
  | tagger t => exact ⟨show ¬ ('g' : Char) = 'h' by decide, fun s => rfl⟩
  | u1 => exact ⟨by decide, fun s => hu s 1 _ rfl (by simp)⟩
  | u2 => exact ⟨by decide, fun s => hu s 2 _ rfl (by simp)⟩
  | u3 => exact ⟨by decide, fun s => hu s 3 _ rfl (by simp)⟩
  | unigram1 => exact ⟨by decide, fun s => hu s 1 _ rfl (by simp)⟩
  | unigram2 => exact ⟨by decide, fun s => hu s 2 _ rfl (by simp)⟩
  | unigram3 => exact ⟨by decide, fun s => hu s 3 _ rfl (by simp)⟩
  | r t n h1 h2 =>
    refine ⟨show ¬ ('r' : Char) = 'h' by decide, fun s => ?_⟩
    show (funcCase .retrain s).bind (itersCase _) = (funcCase .retrain s).map _
    cases funcCase .retrain s with
    | none => rfl
    | some s' => exact itersCase_of h1 h2 s'
  | retrain t n h1 h2 =>
    refine ⟨show ¬ ('r' : Char) = 'h' by decide, fun s => ?_⟩
    show (funcCase .retrain s).bind (itersCase _) = (funcCase .retrain s).map _
    cases funcCase .retrain s with
    | none => rfl
    | some s' => exact itersCase_of h1 h2 s'
  | s t n h1 h2 =>
    refine ⟨show ¬ ('s' : Char) = 'h' by decide, fun s => ?_⟩
    show (funcCase .supervised s).bind (itersCase _) = (funcCase .supervised s).map _
    cases funcCase .supervised s with
    | none => rfl
    | some s' => exact itersCase_of h1 h2 s'
  | supervised t n h1 h2 =>
    refine ⟨show ¬ ('s' : Char) = 'h' by decide, fun s => ?_⟩
    show (funcCase .supervised s).bind (itersCase _) = (funcCase .supervised s).map _
    cases funcCase .supervised s with
    | none => rfl
    | some s' => exact itersCase_of h1 h2 s'
  | t t n h1 h2 =>
    refine ⟨show ¬ ('t' : Char) = 'h' by decide, fun s => ?_⟩
    show (funcCase .train s).bind (itersCase _) = (funcCase .train s).map _
    cases funcCase .train s with
    | none => rfl
    | some s' => exact itersCase_of h1 h2 s'
  | train t n h1 h2 =>
    refine ⟨show ¬ ('t' : Char) = 'h' by decide, fun s => ?_⟩
    show (funcCase .train s).bind (itersCase _) = (funcCase .train s).map _
    cases funcCase .train s with
    | none => rfl
    | some s' => exact itersCase_of h1 h2 s'

/-- An option that says something new. -/
theorem Holds.step {os : List Sem} {s : St} (h : Holds os s) (o : Sem) (hn : ∀ p ∈ os, p.slot ≠ o.slot) : ∃ s', o.apply s = some s' ∧ Holds (os ++ [o]) s' := by
  have hflag (f : Flag) (ho : o.slot ≠ .flag f) : decide (Sem.flag f ∈ os) = decide (Sem.flag f ∈ os ++ [o]) := by
    have : ¬ Sem.flag f = o := by rintro rfl; exact ho rfl
    simp [this]
  have hnk (hk : o.slot = .kind) : s.kind = none := h.noKind (fun p hp => hk ▸ hn p hp)
  have hnf (hk : o.slot = .func) : s.func = none := h.noFunc (fun p hp => hk ▸ hn p hp)
  have hm (q : Sem) (hq : q ∈ os ++ [o]) : q ∈ os ∨ q = o := by simpa using hq
  have hold (q : Sem) (hq : q ∈ os ++ [o]) (hs : q.slot = o.slot) : q = o := by
    rcases hm q hq with h | h
    · exact absurd hs (hn q h)
    · exact h
  have hnew (q : Sem) (hq : q ∈ os ++ [o]) (hs : q.slot ≠ o.slot) : q ∈ os := by
    rcases hm q hq with h | h
    · exact h
    · exact absurd (congrArg Sem.slot h) hs
  have hno (k : Slot) (hk : ∀ p ∈ os ++ [o], p.slot ≠ k) : ∀ p ∈ os, p.slot ≠ k := fun p hp => hk p (by simp [hp])
  have hno' (k : Slot) (hk : ∀ p ∈ os ++ [o], p.slot ≠ k) : o.slot ≠ k := hk o (by simp)
  cases o with
  | flag f =>
    have hf : s.flags f = false := by
      rw [h.flag f]; simp only [decide_eq_false_iff_not]
      exact fun hx => hn _ hx rfl
    refine ⟨_, (if_neg (by simp [hf]) : flagCase f s = _), ?_⟩
    constructor
    · intro g
      dsimp only
      by_cases hg : g = f
      · subst hg; simp only [if_true]; simp
      · rw [if_neg hg, h.flag g, hflag g (by intro hx; simp only [Sem.slot, Slot.flag.injEq] at hx; exact hg hx.symm)]
    · exact fun m hq => h.unigram m (hnew _ hq (by simp [Sem.slot]))
    · exact fun hq => h.window (hnew _ hq (by simp [Sem.slot]))
    · exact fun hq => h.perceptron (hnew _ hq (by simp [Sem.slot]))
    · exact fun hq => h.noKind (hno _ hq)
    · exact fun hq => h.tagger (hnew _ hq (by simp [Sem.slot]))
    · exact fun m hq => h.retrain m (hnew _ hq (by simp [Sem.slot]))
    · exact fun m hq => h.supervised m (hnew _ hq (by simp [Sem.slot]))
    · exact fun m hq => h.train m (hnew _ hq (by simp [Sem.slot]))
    · exact fun hq => h.noFunc (hno _ hq)
  | _ =>
    first
    | (have hk := hnk rfl
       refine ⟨_, by simp only [Sem.apply, kindCase, hk, Option.isSome_none, Bool.false_eq_true, if_false] <;> rfl, ?_⟩
       constructor
       · exact fun f => (h.flag f).trans (hflag f (by simp [Sem.slot]))
       · intro m hq; have := hold _ hq rfl; cases this <;> exact ⟨rfl, rfl⟩
       · intro hq; have := hold _ hq rfl; cases this <;> rfl
       · intro hq; have := hold _ hq rfl; cases this <;> rfl
       · exact fun hq => absurd rfl (hno' _ hq)
       · exact fun hq => h.tagger (hnew _ hq (by simp [Sem.slot]))
       · exact fun m hq => h.retrain m (hnew _ hq (by simp [Sem.slot]))
       · exact fun m hq => h.supervised m (hnew _ hq (by simp [Sem.slot]))
       · exact fun m hq => h.train m (hnew _ hq (by simp [Sem.slot]))
       · exact fun hq => h.noFunc (hno _ hq))
    | (have hk := hnf rfl
       refine ⟨_, by simp only [Sem.apply, funcCase, hk, Option.isSome_none, Bool.false_eq_true, if_false] <;> rfl, ?_⟩
       constructor
       · exact fun f => (h.flag f).trans (hflag f (by simp [Sem.slot]))
       · exact fun m hq => h.unigram m (hnew _ hq (by simp [Sem.slot]))
       · exact fun hq => h.window (hnew _ hq (by simp [Sem.slot]))
       · exact fun hq => h.perceptron (hnew _ hq (by simp [Sem.slot]))
       · exact fun hq => h.noKind (hno _ hq)
       · intro hq; have := hold _ hq rfl; cases this <;> rfl
       · intro n hq; have := hold _ hq rfl; cases this <;> exact ⟨rfl, rfl⟩
       · intro n hq; have := hold _ hq rfl; cases this <;> exact ⟨rfl, rfl⟩
       · intro n hq; have := hold _ hq rfl; cases this <;> exact ⟨rfl, rfl⟩
       · exact fun hq => absurd rfl (hno' _ hq))

/-- An option about something that was said. -/
theorem Holds.again {os : List Sem} {s : St} (h : Holds os s) (o : Sem) (hn : ∃ p ∈ os, p.slot = o.slot) : o.apply s = none := by
  have hk (hs : o.slot = .kind) : s.kind.isSome = true := h.kind_of (by obtain ⟨p, hp, e⟩ := hn; exact ⟨p, hp, e.trans hs⟩)
  have hf (hs : o.slot = .func) : s.func.isSome = true := h.func_of (by obtain ⟨p, hp, e⟩ := hn; exact ⟨p, hp, e.trans hs⟩)
  cases o with
  | flag f =>
    obtain ⟨p, hp, e⟩ := hn
    have : p = .flag f := by cases p <;> simp_all [Sem.slot]
    subst this
    simp only [Sem.apply, flagCase, h.flag f, hp, decide_true, if_true]
  | _ =>
    first
    | (simp only [Sem.apply, kindCase, hk rfl, if_true] <;> rfl)
    | (simp only [Sem.apply, funcCase, hf rfl, if_true] <;> rfl)

theorem readOpts_all {args : List Arg} {os : List Sem} (hs : SpellsAll args os) : ∀ (done : List Sem) (s : St), Holds done s → ((done ++ os).map Sem.slot).Nodup →
    ∃ s', readOpts args s = .done s' ∧ Holds (done ++ os) s' := by
  induction hs with
  | nil => intro done s h _; exact ⟨s, rfl, by simpa using h⟩
  | cons ha hr ih =>
    rename_i a o as os
    intro done s h hn
    have hne : ∀ p ∈ done, p.slot ≠ o.slot := by
      intro p hp he
      simp only [List.map_append, List.map_cons, List.nodup_append] at hn
      exact hn.2.2 p.slot (List.mem_map.2 ⟨p, hp, rfl⟩) o.slot (by simp) he
    obtain ⟨s', e1, h1⟩ := h.step o hne
    obtain ⟨hv, ho⟩ := ha.val
    obtain ⟨s2, e2, h2⟩ := ih (done ++ [o]) s' h1 (by simpa using hn)
    refine ⟨s2, ?_, by simpa using h2⟩
    rw [readOpts, if_neg hv, ho, e1]
    exact e2

theorem readOpts_again {args : List Arg} {os : List Sem} (hs : SpellsAll args os) : ∀ (done : List Sem) (s : St), Holds done s → (done.map Sem.slot).Nodup →
    ¬ ((done ++ os).map Sem.slot).Nodup → readOpts args s = .error := by
  induction hs with
  | nil => intro done s _ h1 h2; exact absurd (by simpa using h1) h2
  | cons ha hr ih =>
    rename_i a o as os
    intro done s h hd hn
    obtain ⟨hv, ho⟩ := ha.val
    rw [readOpts, if_neg hv, ho]
    by_cases hex : ∃ p ∈ done, p.slot = o.slot
    · rw [h.again o hex]
    · have hne : ∀ p ∈ done, p.slot ≠ o.slot := fun p hp he => hex ⟨p, hp, he⟩
      obtain ⟨s', e1, h1⟩ := h.step o hne
      rw [e1]
      refine ih (done ++ [o]) s' h1 ?_ (by simpa using hn)
      rw [List.map_append, List.nodup_append]
      refine ⟨hd, by simp, ?_⟩
      intro x hx y hy
      obtain ⟨p, hp, rfl⟩ := List.mem_map.1 hx
      simp only [List.map_cons, List.map_nil, List.mem_singleton] at hy
      subst hy
      exact hne p hp

theorem holds_nil (junk : Flag → Bool) (h1 : junk .sentSeg = false) (h2 : junk .skipErrors = false) : Holds [] { flags := flags0 junk } := by
  constructor
  · intro f; cases f <;> simp [flags0, h1, h2]
  all_goals simp

/-- C81.  The options of a line of the usage, in any order and any of their spellings, with the files of that line, make the program do what the line says (`Job.acts`), with
just the flags that were given, if the two flags that the program does not initialise happen to be off. -/
theorem C81_run_partial (junk : Flag → Bool) (h1 : junk .sentSeg = false) (h2 : junk .skipErrors = false) (isPerceptron : Text → Bool) (job : Job) (flags : List Flag) (hf : flags.Nodup)
    (os : List Sem) (hp : os.Perm (job.sems ++ flags.map .flag)) (args : List Arg) (ha : SpellsAll args os) :
    (run junk isPerceptron args job.files).1 = .acts (job.acts isPerceptron) ∧ ∀ f, (run junk isPerceptron args job.files).2 f = decide (f ∈ flags) := by
  have hnd : (os.map Sem.slot).Nodup := by
    refine ((hp.map Sem.slot).nodup_iff).2 ?_
    rw [List.map_append, List.nodup_append]
    refine ⟨?_, ?_, ?_⟩
    · cases job with
      | retrain w => cases w <;> simp [Job.sems, windowAlgo, Algo.sems, Sem.slot]
      | train w => cases w <;> simp [Job.sems, windowAlgo, Algo.sems, Sem.slot]
      | tag a => cases a <;> simp [Job.sems, Algo.sems, Sem.slot]
      | tagFrom a => cases a <;> simp [Job.sems, Algo.sems, Sem.slot]
      | tagTo a => cases a <;> simp [Job.sems, Algo.sems, Sem.slot]
      | _ => simp [Job.sems, Sem.slot]
    · rw [List.map_map]
      refine List.Pairwise.map _ ?_ hf
      intro a b hab hx; cases hx; exact hab rfl
    · intro x hx y hy
      simp only [List.map_map, List.mem_map, Function.comp] at hy
      obtain ⟨f, _, rfl⟩ := hy
      intro hxy
      subst hxy
      cases job with
      | retrain w => cases w <;> revert hx <;> simp [Job.sems, windowAlgo, Algo.sems, Sem.slot]
      | train w => cases w <;> revert hx <;> simp [Job.sems, windowAlgo, Algo.sems, Sem.slot]
      | tag a => cases a <;> revert hx <;> simp [Job.sems, Algo.sems, Sem.slot]
      | tagFrom a => cases a <;> revert hx <;> simp [Job.sems, Algo.sems, Sem.slot]
      | tagTo a => cases a <;> revert hx <;> simp [Job.sems, Algo.sems, Sem.slot]
      | _ => revert hx; simp [Job.sems, Sem.slot]
  obtain ⟨s, e, h⟩ := readOpts_all ha [] _ (holds_nil junk h1 h2) (by simpa using hnd)
  simp only [List.nil_append] at h
  have hrun : run junk isPerceptron args job.files = (dispatch isPerceptron s job.files, s.flags) := by simp only [run, e]
  have hmem (o : Sem) (ho : o ∈ job.sems) : o ∈ os := hp.mem_iff.2 (by simp [ho])
  have hnok (hk : ∀ o ∈ job.sems, o.slot ≠ .kind) : s.kind = none := by
    refine h.noKind (fun o ho => ?_)
    rcases List.mem_append.1 (hp.mem_iff.1 ho) with h | h
    · exact hk o h
    · obtain ⟨f, _, rfl⟩ := List.mem_map.1 h; simp [Sem.slot]
  rw [hrun]
  refine ⟨?_, fun f => ?_⟩
  · have hka (a : Algo) (x : Sem) (hj : job.sems = x :: a.sems) (hx : x.slot ≠ .kind) : s.kind = (match a with | .hmm => none | .window => some .slidingWindow | .unigram _ => some .unigram | .perceptron => some .perceptron) ∧
        (∀ m, a = .unigram m → s.model = some m) := by
      cases a with
      | hmm => exact ⟨hnok (by rw [hj]; simpa [Algo.sems] using hx), fun m hm => by cases hm⟩
      | window => exact ⟨h.window (hmem _ (by simp [hj, Algo.sems])), fun m hm => by cases hm⟩
      | unigram m => have := h.unigram m (hmem _ (by simp [hj, Algo.sems])); exact ⟨this.1, fun k hk => by cases hk; exact this.2⟩
      | perceptron => exact ⟨h.perceptron (hmem _ (by simp [hj, Algo.sems])), fun m hm => by cases hm⟩
    cases job with
    | tag a t =>
      have hfn := h.tagger (hmem _ (by simp [Job.sems]))
      obtain ⟨hk, hmod⟩ := hka a .tagger rfl (by decide)
      cases a <;> simp [dispatch, hfn, hk, hmod, Job.files, Job.acts, loads, gStream, gFile, expect, arg]
      split <;> rfl
    | tagFrom a t i =>
      have hfn := h.tagger (hmem _ (by simp [Job.sems]))
      obtain ⟨hk, hmod⟩ := hka a .tagger rfl (by decide)
      cases a <;> simp [dispatch, hfn, hk, hmod, Job.files, Job.acts, loads, gStream, gFile, expect, arg]
      split <;> rfl
    | tagTo a t i o =>
      have hfn := h.tagger (hmem _ (by simp [Job.sems]))
      obtain ⟨hk, hmod⟩ := hka a .tagger rfl (by decide)
      cases a <;> simp [dispatch, hfn, hk, hmod, Job.files, Job.acts, loads, gStream, gFile, expect, arg, opens]
      split <;> rfl
    | retrain w n c t =>
      have hfn := h.retrain n (hmem _ (by simp [Job.sems]))
      obtain ⟨hk, hmod⟩ := hka (windowAlgo w) (.retrain n) rfl (by simp [Sem.slot])
      cases w <;> simp [windowAlgo] at hk <;> simp [dispatch, hfn, hk, Job.files, Job.acts, rFile, getFiles, expect, arg, setup, windowAlgo]
    | supervised n d c x t tg u =>
      have hfn := h.supervised n (hmem _ (by simp [Job.sems]))
      have hk := hnok (by simp [Job.sems, Sem.slot])
      simp only [dispatch, hfn, hk, sFile]
      split <;> simp [Job.files, Job.acts, getFiles, expect, arg, setup]
    | supervised0 d x t tg u =>
      have hfn := h.supervised 0 (hmem _ (by simp [Job.sems]))
      have hk := hnok (by simp [Job.sems, Sem.slot])
      simp [dispatch, hfn, hk, Job.files, Job.acts, sFile, getFiles, expect, arg, setup]
    | unigram m t tg =>
      have hfn := h.supervised 0 (hmem _ (by simp [Job.sems]))
      have hk := h.unigram m (hmem _ (by simp [Job.sems]))
      simp [dispatch, hfn, hk, Job.files, Job.acts, sStream, expect, arg]
    | perceptron n t tg u m =>
      have hfn := h.supervised n (hmem _ (by simp [Job.sems]))
      have hk := h.perceptron (hmem _ (by simp [Job.sems]))
      simp [dispatch, hfn, hk, Job.files, Job.acts, sStream, expect, arg]
    | train w n d c x t =>
      have hfn := h.train n (hmem _ (by simp [Job.sems]))
      obtain ⟨hk, hmod⟩ := hka (windowAlgo w) (.train n) rfl (by simp [Sem.slot])
      cases w <;> simp [windowAlgo] at hk <;> simp [dispatch, hfn, hk, Job.files, Job.acts, tFile, getFiles, expect, arg, setup, windowAlgo]
  · show s.flags f = _
    rw [h.flag f]
    have : Sem.flag f ∈ os ↔ f ∈ flags := by
      rw [hp.mem_iff, List.mem_append]
      constructor
      · rintro (h | h)
        · exfalso
          cases job with
          | retrain w => cases w <;> simp [Job.sems, windowAlgo, Algo.sems] at h
          | train w => cases w <;> simp [Job.sems, windowAlgo, Algo.sems] at h
          | tag a => cases a <;> simp [Job.sems, Algo.sems] at h
          | tagFrom a => cases a <;> simp [Job.sems, Algo.sems] at h
          | tagTo a => cases a <;> simp [Job.sems, Algo.sems] at h
          | _ => simp [Job.sems] at h
        · obtain ⟨g, hg, e⟩ := List.mem_map.1 h; cases e; exact hg
      · exact fun h => .inr (List.mem_map.2 ⟨f, h, rfl⟩)
    simp [this]

/-- C81.  Two functions, two algorithms, or a flag twice: the program ends with a message, and has done nothing. -/
theorem C81_reject_partial (junk : Flag → Bool) (h1 : junk .sentSeg = false) (h2 : junk .skipErrors = false) (isPerceptron : Text → Bool) (os : List Sem) (args : List Arg)
    (ha : SpellsAll args os) (hn : ¬ (os.map Sem.slot).Nodup) (files : List Text) : (run junk isPerceptron args files).1 = .error := by
  have := readOpts_again ha [] _ (holds_nil junk h1 h2) (by simp) (by simpa using hn)
  simp only [run, this]

theorem inj_of_nodup {os : List Sem} (h : (os.map Sem.slot).Nodup) {o p : Sem} (ho : o ∈ os) (hp : p ∈ os) (e : o.slot = p.slot) : o = p := by
  induction os with
  | nil => cases ho
  | cons a os ih =>
    rw [List.map_cons, List.nodup_cons] at h
    rcases List.mem_cons.1 ho with e1 | ho <;> rcases List.mem_cons.1 hp with e2 | hp
    · rw [e1, e2]
    · exact absurd (List.mem_map.2 ⟨p, hp, by rw [← e, e1]⟩) h.1
    · exact absurd (List.mem_map.2 ⟨o, ho, by rw [e, e2]⟩) h.1
    · exact ih h.2 ho hp

/-- The algorithm that the options choose, and the fields for it. -/
theorem Holds.kinds {os : List Sem} {s : St} (h : Holds os s) : (s.kind = none ∧ ∀ o ∈ os, o.slot ≠ .kind) ∨ (∃ m, s.kind = some .unigram ∧ s.model = some m ∧ Sem.unigram m ∈ os) ∨
    (s.kind = some .slidingWindow ∧ Sem.slidingWindow ∈ os) ∨ (s.kind = some .perceptron ∧ Sem.perceptron ∈ os) := by
  by_cases hk : ∀ o ∈ os, o.slot ≠ .kind
  · exact .inl ⟨h.noKind hk, hk⟩
  · simp only [ne_eq, Classical.not_forall, Classical.not_not] at hk
    obtain ⟨o, ho, hk⟩ := hk
    cases o with
    | unigram m => exact .inr (.inl ⟨m, (h.unigram m ho).1, (h.unigram m ho).2, ho⟩)
    | slidingWindow => exact .inr (.inr (.inl ⟨h.window ho, ho⟩))
    | perceptron => exact .inr (.inr (.inr ⟨h.perceptron ho, ho⟩))
    | _ => cases hk

theorem Holds.funcs {os : List Sem} {s : St} (h : Holds os s) : s.func = none ∨ (s.func = some .tagger ∧ Sem.tagger ∈ os) ∨ (∃ n, s.func = some .retrain ∧ s.iters = n ∧ Sem.retrain n ∈ os) ∨
    (∃ n, s.func = some .supervised ∧ s.iters = n ∧ Sem.supervised n ∈ os) ∨ (∃ n, s.func = some .train ∧ s.iters = n ∧ Sem.train n ∈ os) := by
  by_cases hk : ∀ o ∈ os, o.slot ≠ .func
  · exact .inl (h.noFunc hk)
  · simp only [ne_eq, Classical.not_forall, Classical.not_not] at hk
    obtain ⟨o, ho, hk⟩ := hk
    cases o with
    | tagger => exact .inr (.inl ⟨h.tagger ho, ho⟩)
    | retrain n => exact .inr (.inr (.inl ⟨n, (h.retrain n ho).1, (h.retrain n ho).2, ho⟩))
    | supervised n => exact .inr (.inr (.inr (.inl ⟨n, (h.supervised n ho).1, (h.supervised n ho).2, ho⟩)))
    | train n => exact .inr (.inr (.inr (.inr ⟨n, (h.train n ho).1, (h.train n ho).2, ho⟩)))
    | _ => cases hk

theorem expect_acts {files : List Text} {a b : Nat} {r : Res} {l : List Act} (h : expect files a b r = .acts l) : a ≤ files.length ∧ files.length < b ∧ r = .acts l := by
  unfold expect at h
  split at h
  · cases h
  · exact ⟨by omega, by omega, h⟩

/-- The lines of the usage for tagging. -/
def tagJob (a : Algo) : List Text → Option Job
  | [t] => some (.tag a t)
  | [t, i] => some (.tagFrom a t i)
  | [t, i, o] => some (.tagTo a t i o)
  | _ => none

theorem tagJob_of (a : Algo) (files : List Text) (h1 : 1 ≤ files.length) (h2 : files.length < 4) : ∃ job, tagJob a files = some job ∧ job.files = files ∧ job.sems = .tagger :: a.sems := by
  match files, h1, h2 with
  | [t], _, _ => exact ⟨_, rfl, rfl, rfl⟩
  | [t, i], _, _ => exact ⟨_, rfl, rfl, rfl⟩
  | [t, i, o], _, _ => exact ⟨_, rfl, rfl, rfl⟩
  | _ :: _ :: _ :: _ :: _, _, h => simp at h; omega

/-- C81.  The program does something only for a line of the usage: its options are those given (but for flags), its files are the files given, all of them, and what is done is what the
line says.  So a wrong number of files, options that do not go together, or a function that is missing end with a message (or, for `C81_abort_violation`, without one), and nothing is done. -/
theorem C81_only_partial (junk : Flag → Bool) (h1 : junk .sentSeg = false) (h2 : junk .skipErrors = false) (isPerceptron : Text → Bool) (os : List Sem) (args : List Arg)
    (ha : SpellsAll args os) (files : List Text) (l : List Act) (hr : (run junk isPerceptron args files).1 = .acts l) :
    ∃ job : Job, job.files = files ∧ (∀ o ∈ job.sems, o ∈ os) ∧ (∀ o ∈ os, o ∈ job.sems ∨ ∃ f, o = .flag f) ∧ l = job.acts isPerceptron := by
  by_cases hn : (os.map Sem.slot).Nodup
  case neg => rw [C81_reject_partial junk h1 h2 isPerceptron os args ha hn files] at hr; cases hr
  obtain ⟨s, e, h⟩ := readOpts_all ha [] _ (holds_nil junk h1 h2) (by simpa using hn)
  simp only [List.nil_append] at h
  have hrun : (run junk isPerceptron args files).1 = dispatch isPerceptron s files := by simp only [run, e]
  rw [hrun] at hr
  -- the options of the line are all options but flags
  have hall (f : Sem) (hf : f ∈ os) (hfs : f.slot = .func) (a : Algo) (hk : (a = .hmm ∧ ∀ o ∈ os, o.slot ≠ .kind) ∨ ∃ k, a.sems = [k] ∧ k ∈ os ∧ k.slot = .kind) :
      (∀ o ∈ f :: a.sems, o ∈ os) ∧ (∀ o ∈ os, o ∈ f :: a.sems ∨ ∃ f, o = .flag f) := by
    refine ⟨?_, ?_⟩
    · intro o ho
      rcases List.mem_cons.1 ho with rfl | ho
      · exact hf
      · rcases hk with ⟨rfl, _⟩ | ⟨k, e, hk, _⟩
        · cases ho
        · rw [e] at ho; simp at ho; subst ho; exact hk
    · intro o ho
      cases hs : o.slot with
      | flag g => cases o <;> simp [Sem.slot] at hs; exact .inr ⟨_, rfl⟩
      | func => exact .inl (by rw [inj_of_nodup hn ho hf (hs.trans hfs.symm)]; simp)
      | kind =>
        rcases hk with ⟨_, hk⟩ | ⟨k, e, hk, hks⟩
        · exact absurd hs (hk o ho)
        · exact .inl (by rw [inj_of_nodup hn ho hk (hs.trans hks.symm), e]; simp)
  -- it is enough to find the line
  have fin (f : Sem) (hf : f ∈ os) (hfs : f.slot = .func) (a : Algo) (hk : (a = .hmm ∧ ∀ o ∈ os, o.slot ≠ .kind) ∨ ∃ k, a.sems = [k] ∧ k ∈ os ∧ k.slot = .kind) (job : Job)
      (e1 : job.files = files) (e2 : job.sems = f :: a.sems) :
      ∃ job : Job, job.files = files ∧ (∀ o ∈ job.sems, o ∈ os) ∧ (∀ o ∈ os, o ∈ job.sems ∨ ∃ f, o = .flag f) ∧ l = job.acts isPerceptron := by
    obtain ⟨g1, g2⟩ := hall f hf hfs a hk
    refine ⟨job, e1, e2 ▸ g1, e2 ▸ g2, ?_⟩
    let flags : List Flag := ([.debug, .sentSeg, .skipErrors, .first, .mark, .showSuperficial, .nullFlush] : List Flag).filter (fun g => decide (Sem.flag g ∈ os))
    have hfl : flags.Nodup := List.Pairwise.filter _ (by decide)
    have hmf (g : Flag) : g ∈ flags ↔ Sem.flag g ∈ os := by
      simp only [flags, List.mem_filter, decide_eq_true_eq]
      exact ⟨fun h => h.2, fun h => ⟨by cases g <;> decide, h⟩⟩
    have hsn : (f :: a.sems).Nodup := by
      rcases hk with ⟨rfl, _⟩ | ⟨k, e, _, hks⟩
      · simp [Algo.sems]
      · rw [e]; simp only [List.nodup_cons, List.mem_singleton, List.not_mem_nil, not_false_eq_true, List.nodup_nil, and_true]
        rintro rfl; rw [hfs] at hks; cases hks
    have hnf : ∀ o ∈ f :: a.sems, ∀ g, o ≠ .flag g := by
      intro o ho g
      rintro rfl
      rcases List.mem_cons.1 ho with rfl | ho
      · cases hfs
      · rcases hk with ⟨rfl, _⟩ | ⟨k, e, _, hks⟩
        · cases ho
        · rw [e] at ho; simp at ho; subst ho; cases hks
    have hos : os.Nodup := (List.pairwise_map.1 hn).imp (fun h e => h (congrArg _ e))
    have hperm : os.Perm (job.sems ++ flags.map .flag) := by
      refine (List.perm_ext_iff_of_nodup hos ?_).2 ?_
      · rw [e2, List.nodup_append]
        refine ⟨hsn, ?_, ?_⟩
        · refine List.Pairwise.map _ ?_ hfl
          intro x y hxy hx; cases hx; exact hxy rfl
        · intro x hx y hy
          obtain ⟨g, _, rfl⟩ := List.mem_map.1 hy
          exact hnf x hx g
      · intro o
        rw [List.mem_append, e2]
        constructor
        · intro ho
          rcases g2 o ho with h | ⟨g, rfl⟩
          · exact .inl h
          · exact .inr (List.mem_map.2 ⟨g, (hmf g).2 ho, rfl⟩)
        · rintro (h | h)
          · exact g1 o h
          · obtain ⟨g, hg, rfl⟩ := List.mem_map.1 h
            exact (hmf g).1 hg
    have := (C81_run_partial junk h1 h2 isPerceptron job flags hfl os hperm args ha).1
    rw [e1, hrun, hr] at this
    injection this
  have fwd : ∀ a, expect files 1 4 a = .acts l → 1 ≤ files.length ∧ files.length < 4 := fun a h => ⟨(expect_acts h).1, (expect_acts h).2.1⟩
  have len2 (hl : files.length = 2) : ∃ a b, files = [a, b] := by match files, hl with | [a, b], _ => exact ⟨a, b, rfl⟩
  have len4 (hl : files.length = 4) : ∃ a b c d, files = [a, b, c, d] := by match files, hl with | [a, b, c, d], _ => exact ⟨a, b, c, d, rfl⟩
  have len5 (hl : files.length = 5) : ∃ a b c d e, files = [a, b, c, d, e] := by match files, hl with | [a, b, c, d, e], _ => exact ⟨a, b, c, d, e, rfl⟩
  have len6 (hl : files.length = 6) : ∃ a b c d e f, files = [a, b, c, d, e, f] := by match files, hl with | [a, b, c, d, e, f], _ => exact ⟨a, b, c, d, e, f, rfl⟩
  have tagFin (hft : Sem.tagger ∈ os) (a : Algo) (hk : (a = .hmm ∧ ∀ o ∈ os, o.slot ≠ .kind) ∨ ∃ k, a.sems = [k] ∧ k ∈ os ∧ k.slot = .kind) (hl : 1 ≤ files.length ∧ files.length < 4) :
      ∃ job : Job, job.files = files ∧ (∀ o ∈ job.sems, o ∈ os) ∧ (∀ o ∈ os, o ∈ job.sems ∨ ∃ f, o = .flag f) ∧ l = job.acts isPerceptron := by
    obtain ⟨job, _, e1, e2⟩ := tagJob_of a files hl.1 hl.2
    exact fin .tagger hft rfl a hk job e1 e2
  have hwk (hw : Sem.slidingWindow ∈ os) : ∃ k, (windowAlgo true).sems = [k] ∧ k ∈ os ∧ k.slot = .kind := ⟨_, rfl, hw, rfl⟩
  have hxk (hw : Sem.perceptron ∈ os) : ∃ k, Algo.perceptron.sems = [k] ∧ k ∈ os ∧ k.slot = .kind := ⟨_, rfl, hw, rfl⟩
  have huk (m : Nat) (hw : Sem.unigram m ∈ os) : ∃ k, (Algo.unigram m).sems = [k] ∧ k ∈ os ∧ k.slot = .kind := ⟨_, rfl, hw, rfl⟩
  unfold dispatch at hr
  rcases h.funcs with hf | ⟨hf, hfm⟩ | ⟨n, hf, hi, hfm⟩ | ⟨n, hf, hi, hfm⟩ | ⟨n, hf, hi, hfm⟩ <;>
    rcases h.kinds with ⟨hk, hkm⟩ | ⟨m, hk, hmo, hkm⟩ | ⟨hk, hkm⟩ | ⟨hk, hkm⟩ <;> simp only [hf, hk] at hr <;> try (cases hr; done)
  · refine tagFin hfm .hmm (.inl ⟨rfl, hkm⟩) ?_
    split at hr
    · exact fwd _ hr
    · exact fwd _ hr
  · exact tagFin hfm (.unigram m) (.inr (huk m hkm)) (fwd _ hr)
  · exact tagFin hfm .window (.inr (hwk hkm)) (fwd _ hr)
  · exact tagFin hfm .perceptron (.inr (hxk hkm)) (fwd _ hr)
  · obtain ⟨g1, g2, _⟩ := expect_acts hr
    obtain ⟨a, b, e⟩ := len2 (by omega)
    exact fin _ hfm rfl .hmm (.inl ⟨rfl, hkm⟩) (.retrain false n a b) e.symm rfl
  · obtain ⟨g1, g2, _⟩ := expect_acts hr
    obtain ⟨a, b, e⟩ := len2 (by omega)
    exact fin _ hfm rfl .window (.inr (hwk hkm)) (.retrain true n a b) e.symm rfl
  · by_cases h6 : files.length = 6
    · obtain ⟨a, b, c, d, x, y, e⟩ := len6 h6
      exact fin _ hfm rfl .hmm (.inl ⟨rfl, hkm⟩) (.supervised n a b c d x y) e.symm rfl
    · unfold sFile at hr
      rw [hi] at hr
      split at hr
      · rename_i hn0
        obtain ⟨g1, g2, _⟩ := expect_acts hr
        obtain ⟨a, b, c, d, x, e⟩ := len5 (by omega)
        exact fin _ hfm rfl .hmm (.inl ⟨rfl, hkm⟩) (.supervised0 a b c d x) e.symm (by rw [hn0]; rfl)
      · obtain ⟨g1, g2, _⟩ := expect_acts hr
        omega
  · unfold sStream at hr
    rw [hi, hmo] at hr
    by_cases hn0 : n = 0
    · simp only [hn0, ne_eq, not_true_eq_false, false_and, if_false, Option.getD_some, reduceCtorEq] at hr
      obtain ⟨g1, g2, _⟩ := expect_acts hr
      obtain ⟨a, b, e⟩ := len2 (by omega)
      exact fin _ hfm rfl (.unigram m) (.inr (huk m hkm)) (.unigram m a b) e.symm (by rw [hn0]; rfl)
    · simp [hn0] at hr
  · unfold sStream at hr
    simp only [ne_eq, not_true_eq_false, and_false, if_false, if_true] at hr
    obtain ⟨g1, g2, _⟩ := expect_acts hr
    obtain ⟨a, b, c, d, e⟩ := len4 (by omega)
    exact fin _ hfm rfl .perceptron (.inr (hxk hkm)) (.perceptron n a b c d) e.symm rfl
  · obtain ⟨g1, g2, _⟩ := expect_acts hr
    obtain ⟨a, b, c, d, e⟩ := len4 (by omega)
    exact fin _ hfm rfl .hmm (.inl ⟨rfl, hkm⟩) (.train false n a b c d) e.symm rfl
  · obtain ⟨g1, g2, _⟩ := expect_acts hr
    obtain ⟨a, b, c, d, e⟩ := len4 (by omega)
    exact fin _ hfm rfl .window (.inr (hwk hkm)) (.train true n a b c d) e.symm rfl

/-- The hypotheses of `C81_only_partial`: `-s 0` with five files, and with four nothing is done. -/
example : (run (fun _ => false) (fun _ => false) [.short 's' t!"0"] [t!"d", t!"x", t!"t", t!"tg", t!"u"]).1 = .acts ((Job.supervised0 t!"d" t!"x" t!"t" t!"tg" t!"u").acts (fun _ => false)) ∧
    (run (fun _ => false) (fun _ => false) [.short 's' t!"0"] [t!"d", t!"x", t!"t", t!"tg"]).1 = .error := by decide +kernel

end Verif.Driver
