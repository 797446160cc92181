import Verif.Driver.Props
/-!
# C82: what happens to the files

The actions of `apertium-tagger` on a file system.  What the algorithms do is given by a `Machine`; nothing is assumed about it, except that the memory for new probabilities
(`fresh`) depends on the ambiguity classes only.
-/
namespace Verif.Driver

/-- What the algorithms do: `K` are the definition of the tags and the ambiguity classes, `P` the probabilities, `D` the contents of files.  `none` is an error. -/
structure Machine (K P D : Type) where
  empty : D
  load : Algo → D → Option (K × P)
  /-- reading a definition; the probabilities are not there yet -/
  spec : Algo → D → Option (K × P)
  classes : K → D → Option K
  /-- hmm.cc:416-422 and tagger_data_hmm.cc:99-142: memory for the probabilities of these classes, with what happens to be in it -/
  fresh : K → P
  initTagged : K × P → D → D → Option P
  initKupiec : K × P → D → Option P
  iterate : K × P → D → Nat → Option P
  trainStream : Algo → D → Option D → Nat → Option (K × P)
  write : K × P → D
  tag : K × P → D → Option D

structure World (K P D : Type) where
  files : Text → Option D
  stdin : D
  mem : Option (K × P) := none
  inp : Option D := none

variable {K P D : Type}

def World.set (w : World K P D) (f : Text) (d : D) : World K P D := { w with files := fun g => if g = f then some d else w.files g }

/-- One action; `none`: the program ends with an error. -/
def act (M : Machine K P D) (w : World K P D) : Act → Option (World K P D)
  | .load a f => (w.files f).bind fun d => (M.load a d).map fun t => { w with mem := some t }
  | .tryLoad _ f => (w.files f).map fun _ => w
  | .input none => some { w with inp := some w.stdin }
  | .input (some f) => (w.files f).map fun d => { w with inp := some d }
  | .create f => some (w.set f M.empty)
  | .tag _ none => w.mem.bind fun t => w.inp.bind fun d => (M.tag t d).map fun _ => w
  | .tag _ (some f) => w.mem.bind fun t => w.inp.bind fun d => (M.tag t d).map fun o => w.set f o
  | .spec a f => (w.files f).bind fun d => (M.spec a d).map fun t => { w with mem := some t }
  | .look f => (w.files f).map fun _ => w
  | .dict none => w.mem.bind fun t => (M.classes t.1 w.stdin).map fun k => { w with mem := some (k, t.2) }
  | .dict (some f) => w.mem.bind fun t => (w.files f).bind fun d => (M.classes t.1 d).map fun k => { w with mem := some (k, t.2) }
  | .reset => w.mem.map fun t => { w with mem := some (t.1, M.fresh t.1) }
  | .initTagged a b => w.mem.bind fun t => (w.files a).bind fun d => (w.files b).bind fun e => (M.initTagged t d e).map fun p => { w with mem := some (t.1, p) }
  | .initKupiec f => w.mem.bind fun t => (w.files f).bind fun d => (M.initKupiec t d).map fun p => { w with mem := some (t.1, p) }
  | .iterate f n => w.mem.bind fun t => (w.files f).bind fun d => (M.iterate t d n).map fun p => { w with mem := some (t.1, p) }
  | .trainStream a f u n => (w.files f).bind fun d =>
      match u with
      | none => (M.trainStream a d none n).map fun t => { w with mem := some t }
      | some g => (w.files g).bind fun e => (M.trainStream a d (some e) n).map fun t => { w with mem := some t }
  | .save f => w.mem.map fun t => w.set f (M.write t)

/-- The actions in order, up to the first error: the files afterwards, and whether all were done. -/
def exec (M : Machine K P D) : List Act → World K P D → World K P D × Bool
  | [], w => (w, true)
  | a :: as, w =>
    match act M w a with
    | none => (w, false)
    | some w => exec M as w

/-- The actions that can change a file. -/
def Act.writes : Act → Option Text
  | .create f => some f
  | .save f => some f
  | .tag _ o => o
  | _ => none

theorem act_files {M : Machine K P D} {w w' : World K P D} {a : Act} (h : act M w a = some w') (g : Text) (hg : a.writes ≠ some g) : w'.files g = w.files g := by
  have hset (f : Text) (d : D) (hf : f ≠ g) : (w.set f d).files g = w.files g := by
    simp only [World.set]; rw [if_neg (fun e => hf e.symm)]
  cases a with
  | create f => simp only [act, Option.some.injEq] at h; subst h; exact hset f _ (fun e => hg (by rw [e]; rfl))
  | save f =>
    simp only [act, Option.map_eq_some_iff] at h
    obtain ⟨t, _, rfl⟩ := h
    exact hset f _ (fun e => hg (by rw [e]; rfl))
  | tag a o =>
    cases o with
    | none =>
      simp only [act, Option.bind_eq_some_iff, Option.map_eq_some_iff] at h
      obtain ⟨t, _, d, _, e, _, rfl⟩ := h; rfl
    | some f =>
      simp only [act, Option.bind_eq_some_iff, Option.map_eq_some_iff] at h
      obtain ⟨t, _, d, _, e, _, rfl⟩ := h
      exact hset f _ (fun e => hg (by rw [e]; rfl))
  | input o =>
    cases o with
    | none => simp only [act, Option.some.injEq] at h; subst h; rfl
    | some f => simp only [act, Option.map_eq_some_iff] at h; obtain ⟨t, _, rfl⟩ := h; rfl
  | dict o =>
    cases o with
    | none => simp only [act, Option.bind_eq_some_iff, Option.map_eq_some_iff] at h; obtain ⟨t, _, d, _, rfl⟩ := h; rfl
    | some f => simp only [act, Option.bind_eq_some_iff, Option.map_eq_some_iff] at h; obtain ⟨t, _, d, _, e, _, rfl⟩ := h; rfl
  | trainStream a f u n =>
    cases u with
    | none => simp only [act, Option.bind_eq_some_iff, Option.map_eq_some_iff] at h; obtain ⟨t, _, d, _, rfl⟩ := h; rfl
    | some u => simp only [act, Option.bind_eq_some_iff, Option.map_eq_some_iff] at h; obtain ⟨t, _, d, _, e, _, rfl⟩ := h; rfl
  | load a f => simp only [act, Option.bind_eq_some_iff, Option.map_eq_some_iff] at h; obtain ⟨t, _, d, _, rfl⟩ := h; rfl
  | spec a f => simp only [act, Option.bind_eq_some_iff, Option.map_eq_some_iff] at h; obtain ⟨t, _, d, _, rfl⟩ := h; rfl
  | tryLoad a f => simp only [act, Option.map_eq_some_iff] at h; obtain ⟨t, _, rfl⟩ := h; rfl
  | look f => simp only [act, Option.map_eq_some_iff] at h; obtain ⟨t, _, rfl⟩ := h; rfl
  | reset => simp only [act, Option.map_eq_some_iff] at h; obtain ⟨t, _, rfl⟩ := h; rfl
  | initTagged a b => simp only [act, Option.bind_eq_some_iff, Option.map_eq_some_iff] at h; obtain ⟨t, _, d, _, e, _, p, _, rfl⟩ := h; rfl
  | initKupiec f => simp only [act, Option.bind_eq_some_iff, Option.map_eq_some_iff] at h; obtain ⟨t, _, d, _, p, _, rfl⟩ := h; rfl
  | iterate f n => simp only [act, Option.bind_eq_some_iff, Option.map_eq_some_iff] at h; obtain ⟨t, _, d, _, p, _, rfl⟩ := h; rfl

theorem exec_files (M : Machine K P D) (g : Text) : ∀ (as : List Act) (w : World K P D), (∀ a ∈ as, a.writes ≠ some g) → (exec M as w).1.files g = w.files g := by
  intro as
  induction as with
  | nil => intro w _; rfl
  | cons a as ih =>
    intro w h
    rw [exec]
    split
    · rfl
    · rename_i w' hw
      rw [ih w' (fun b hb => h b (by simp [hb]))]
      exact act_files hw g (h a (by simp))

theorem mem_dropWhile {α : Type} {p : α → Bool} {l : List α} {a : α} (h : a ∈ l) (ha : p a = false) : a ∈ l.dropWhile p := by
  induction l with
  | nil => cases h
  | cons b l ih =>
    rw [List.dropWhile_cons]
    split
    · rename_i hb
      rcases List.mem_cons.1 h with rfl | h
      · rw [ha] at hb; cases hb
      · exact ih h
    · exact h

theorem Job.writes (isPerceptron : Text → Bool) (job : Job) : ∀ a ∈ job.acts isPerceptron, ∀ g, a.writes = some g → job.target = some g := by
  intro a ha g hg
  cases job with
  | tag b t =>
    simp only [Job.acts, loads] at ha
    split at ha
    · split at ha <;> (simp only [List.cons_append, List.nil_append, List.mem_cons, List.not_mem_nil, or_false] at ha; rcases ha with rfl | rfl | rfl | rfl <;> cases hg)
    · simp only [List.cons_append, List.nil_append, List.mem_cons, List.not_mem_nil, or_false] at ha; rcases ha with rfl | rfl | rfl <;> cases hg
  | tagFrom b t i =>
    simp only [Job.acts, loads] at ha
    split at ha
    · split at ha <;> (simp only [List.cons_append, List.nil_append, List.mem_cons, List.not_mem_nil, or_false] at ha; rcases ha with rfl | rfl | rfl | rfl <;> cases hg)
    · simp only [List.cons_append, List.nil_append, List.mem_cons, List.not_mem_nil, or_false] at ha; rcases ha with rfl | rfl | rfl <;> cases hg
  | tagTo b t i o =>
    have hl : ∀ a ∈ (loads isPerceptron b t).1, a.writes = none := by
      intro a ha
      simp only [loads] at ha
      split at ha
      · split at ha <;> simp at ha
        · subst ha; rfl
        · rcases ha with rfl | rfl <;> rfl
      · simp at ha; subst ha; rfl
    have ho : ∀ b, ∀ a ∈ opens b i o, a.writes = none ∨ a.writes = some o := by
      intro b a ha
      simp only [opens] at ha
      split at ha <;> (simp at ha; rcases ha with rfl | rfl <;> simp [Act.writes])
    simp only [Job.acts, List.append_assoc, List.mem_append, List.mem_singleton] at ha
    rcases ha with ha | ha | rfl
    · rw [hl a ha] at hg; cases hg
    · rcases ho _ a ha with h | h
      · rw [h] at hg; cases hg
      · rw [h] at hg; exact hg
    · exact hg
  | retrain w n c t => simp only [Job.acts, List.mem_cons, List.not_mem_nil, or_false] at ha; rcases ha with rfl | rfl | rfl | rfl | rfl | rfl | rfl <;> first | cases hg; done | exact hg
  | supervised n d c x t tg u => simp only [Job.acts, List.mem_cons, List.not_mem_nil, or_false] at ha; rcases ha with rfl | rfl | rfl | rfl | rfl | rfl | rfl | rfl <;> first | cases hg; done | exact hg
  | supervised0 d x t tg u => simp only [Job.acts, List.mem_cons, List.not_mem_nil, or_false] at ha; rcases ha with rfl | rfl | rfl | rfl | rfl | rfl | rfl <;> first | cases hg; done | exact hg
  | unigram m t tg => simp only [Job.acts, List.mem_cons, List.not_mem_nil, or_false] at ha; rcases ha with rfl | rfl | rfl | rfl <;> first | cases hg; done | exact hg
  | perceptron n t tg u m => simp only [Job.acts, List.mem_cons, List.not_mem_nil, or_false] at ha; rcases ha with rfl | rfl | rfl | rfl | rfl | rfl <;> first | cases hg; done | exact hg
  | train w n d c x t => simp only [Job.acts, List.mem_cons, List.not_mem_nil, or_false] at ha; rcases ha with rfl | rfl | rfl | rfl | rfl | rfl | rfl | rfl <;> first | cases hg; done | exact hg

/-- C82.  Whatever happens, and wherever the program ends, no file changes but the one that the line of the usage says: the output of tagging, or the tagger that is trained. -/
theorem C82_only_target (M : Machine K P D) (isPerceptron : Text → Bool) (job : Job) (k : Nat) (w : World K P D) (g : Text) (hg : job.target ≠ some g) :
    (exec M ((job.acts isPerceptron).take k) w).1.files g = w.files g :=
  exec_files M g _ w (fun a ha h => hg (job.writes isPerceptron a (List.mem_of_mem_take ha) g h))

/-- A job that trains a tagger. -/
def Job.trains : Job → Prop
  | .tag _ _ => False
  | .tagFrom _ _ _ => False
  | .tagTo _ _ _ _ => False
  | _ => True

/-- The action leaves a tagger in memory. -/
def Act.trained : Act → Prop
  | .iterate _ _ => True
  | .initTagged _ _ => True
  | .trainStream _ _ _ _ => True
  | _ => False

theorem act_trained {M : Machine K P D} {w w' : World K P D} {a : Act} (ht : a.trained) (h : act M w a = some w') : w'.mem.isSome = true := by
  cases a with
  | iterate f n => simp only [act, Option.bind_eq_some_iff, Option.map_eq_some_iff] at h; obtain ⟨t, _, d, _, p, _, rfl⟩ := h; rfl
  | initTagged a b => simp only [act, Option.bind_eq_some_iff, Option.map_eq_some_iff] at h; obtain ⟨t, _, d, _, e, _, p, _, rfl⟩ := h; rfl
  | trainStream a f u n =>
    cases u with
    | none => simp only [act, Option.bind_eq_some_iff, Option.map_eq_some_iff] at h; obtain ⟨t, _, d, _, rfl⟩ := h; rfl
    | some u => simp only [act, Option.bind_eq_some_iff, Option.map_eq_some_iff] at h; obtain ⟨t, _, d, _, e, _, rfl⟩ := h; rfl
  | _ => exact absurd ht (by simp [Act.trained])

theorem Job.trains_acts (isPerceptron : Text → Bool) (job : Job) (h : job.trains) : ∃ t as x, job.target = some t ∧ job.acts isPerceptron = as ++ [x] ++ [.create t, .save t] ∧
    (∀ a ∈ as ++ [x], a.writes = none) ∧ x.trained := by
  cases job with
  | tag b t => exact absurd h (by simp [Job.trains])
  | tagFrom b t i => exact absurd h (by simp [Job.trains])
  | tagTo b t i o => exact absurd h (by simp [Job.trains])
  | retrain w n c t => exact ⟨t, [_, _, _, _], _, rfl, rfl, by simp [Act.writes], trivial⟩
  | supervised n d c x t tg u => exact ⟨t, [_, _, _, _, _], _, rfl, rfl, by simp [Act.writes], trivial⟩
  | supervised0 d x t tg u => exact ⟨t, [_, _, _, _], _, rfl, rfl, by simp [Act.writes], trivial⟩
  | unigram m t tg => exact ⟨t, [_], _, rfl, rfl, by simp [Act.writes], trivial⟩
  | perceptron n t tg u m => exact ⟨t, [_, _, _], _, rfl, rfl, by simp [Act.writes], trivial⟩
  | train w n d c x t => exact ⟨t, [_, _, _, _, _], _, rfl, rfl, by simp [Act.writes], trivial⟩

theorem exec_cons_none {M : Machine K P D} {w : World K P D} {a : Act} (as : List Act) (h : act M w a = none) : exec M (a :: as) w = (w, false) := by rw [exec, h]

theorem exec_cons_some {M : Machine K P D} {w w' : World K P D} {a : Act} (as : List Act) (h : act M w a = some w') : exec M (a :: as) w = exec M as w' := by rw [exec, h]

theorem exec_append (M : Machine K P D) : ∀ (as bs : List Act) (w : World K P D), exec M (as ++ bs) w = if (exec M as w).2 then exec M bs (exec M as w).1 else exec M as w := by
  intro as
  induction as with
  | nil => intro bs w; rfl
  | cons a as ih =>
    intro bs w
    cases h : act M w a with
    | none => rw [List.cons_append, exec_cons_none _ h, exec_cons_none _ h]; rfl
    | some w' => rw [List.cons_append, exec_cons_some _ h, exec_cons_some _ h]; exact ih bs w'

theorem exec_mem (M : Machine K P D) (as : List Act) (x : Act) (hx : x.trained) (w : World K P D) (h : (exec M (as ++ [x]) w).2 = true) : (exec M (as ++ [x]) w).1.mem.isSome = true := by
  rw [exec_append] at h ⊢
  by_cases hb : (exec M as w).2 = true
  · rw [if_pos hb] at h ⊢
    simp only [exec] at h ⊢
    cases ha : act M (exec M as w).1 x with
    | none => rw [ha] at h; cases h
    | some w' => exact act_trained hx ha
  · rw [if_neg hb] at h; exact absurd h hb

/-- C82.  Training writes nothing before it has ended well: if the program is stopped before that, or ends with an error, then all files are as they were. -/
theorem C82_training_last (M : Machine K P D) (isPerceptron : Text → Bool) (job : Job) (h : job.trains) (w : World K P D) :
    (∀ k, k + 2 ≤ (job.acts isPerceptron).length → ∀ g, (exec M ((job.acts isPerceptron).take k) w).1.files g = w.files g) ∧
    ((exec M (job.acts isPerceptron) w).2 = false → ∀ g, (exec M (job.acts isPerceptron) w).1.files g = w.files g) := by
  obtain ⟨t, as, x, _, ea, hw, hx⟩ := job.trains_acts isPerceptron h
  rw [ea]
  refine ⟨fun k hk g => ?_, fun hf g => ?_⟩
  · have hk' : k ≤ (as ++ [x]).length := by simp at hk ⊢; omega
    rw [List.take_append_of_le_length hk']
    exact exec_files M g _ w (fun a ha => by rw [hw a (List.mem_of_mem_take ha)]; simp)
  · rw [exec_append] at hf ⊢
    by_cases hb : (exec M (as ++ [x]) w).2 = true
    · exfalso
      rw [if_pos hb] at hf
      obtain ⟨y, hy⟩ := Option.isSome_iff_exists.1 (exec_mem M as x hx w hb)
      simp [exec, act, World.set, hy] at hf
    · rw [if_neg hb]
      exact exec_files M g _ w (fun a ha => by rw [hw a ha]; simp)

/-- C82.  Training from a definition depends on the definition, the dictionary and the corpus only: not on what was in the file that is written, nor on standard input. -/
theorem C82_train_inputs (M : Machine K P D) (isPerceptron : Text → Bool) (win : Bool) (n : Nat) (d c x t : Text) (w w' : World K P D)
    (hd : w.files d = w'.files d) (hc : w.files c = w'.files c) (hx : w.files x = w'.files x) :
    (exec M ((Job.train win n d c x t).acts isPerceptron) w).2 = (exec M ((Job.train win n d c x t).acts isPerceptron) w').2 ∧
    ((exec M ((Job.train win n d c x t).acts isPerceptron) w).2 = true →
      (exec M ((Job.train win n d c x t).acts isPerceptron) w).1.files t = (exec M ((Job.train win n d c x t).acts isPerceptron) w').1.files t) := by
  cases hx1 : w.files x with
  | none => simp [Job.acts, exec, act, hx1, hx ▸ hx1]
  | some dx =>
    have hx2 := hx ▸ hx1
    cases hs : M.spec (windowAlgo win) dx with
    | none => simp [Job.acts, exec, act, hx1, hx2, hs]
    | some m =>
      cases hc1 : w.files c with
      | none => simp [Job.acts, exec, act, hx1, hx2, hs, hc1, hc ▸ hc1]
      | some dc =>
        have hc2 := hc ▸ hc1
        cases hd1 : w.files d with
        | none => simp [Job.acts, exec, act, hx1, hx2, hs, hc1, hc2, hd1, hd ▸ hd1]
        | some dd =>
          have hd2 := hd ▸ hd1
          cases hk : M.classes m.1 dd with
          | none => simp [Job.acts, exec, act, hx1, hx2, hs, hc1, hc2, hd1, hd2, hk]
          | some k =>
            cases hi : M.initKupiec (k, M.fresh k) dc with
            | none => simp [Job.acts, exec, act, hx1, hx2, hs, hc1, hc2, hd1, hd2, hk, hi]
            | some p =>
              cases hq : M.iterate (k, p) dc n with
              | none => simp [Job.acts, exec, act, hx1, hx2, hs, hc1, hc2, hd1, hd2, hk, hi, hq]
              | some q => simp [Job.acts, exec, act, hx1, hx2, hs, hc1, hc2, hd1, hd2, hk, hi, hq, World.set]

/-- C82 fails for retraining (`-r`), of which the usage says that the tagger is retrained: its probabilities are thrown away before the first iteration (tagger.cc:684-687,
`setup_untagged_morpho_stream`, `read_dictionary`, `setProbabilities`), so that two taggers with the same tags and classes, trained differently, give the same; what the iterations start from is
uninitialised memory. -/
theorem C82_retrain_violation (M : Machine K P D) (isPerceptron : Text → Bool) (win : Bool) (n : Nat) (c t : Text) (w w' : World K P D) (d d' : D) (k : K) (p p' : P)
    (hf : w.files c = w'.files c) (hi : w.stdin = w'.stdin) (hw : w.files t = some d) (hw' : w'.files t = some d')
    (hd : M.load (windowAlgo win) d = some (k, p)) (hd' : M.load (windowAlgo win) d' = some (k, p'))
    (h : (exec M ((Job.retrain win n c t).acts isPerceptron) w).2 = true) :
    (exec M ((Job.retrain win n c t).acts isPerceptron) w).1.files t = (exec M ((Job.retrain win n c t).acts isPerceptron) w').1.files t := by
  cases hc : w.files c with
  | none => simp [Job.acts, exec, act, hw, hd, hc] at h
  | some dc =>
    have hc2 := hf ▸ hc
    cases hk : M.classes k w.stdin with
    | none => simp [Job.acts, exec, act, hw, hd, hc, hk] at h
    | some k' =>
      have hk2 := hi ▸ hk
      cases hq : M.iterate (k', M.fresh k') dc n with
      | none => simp [Job.acts, exec, act, hw, hd, hc, hk, hq] at h
      | some q => simp [Job.acts, exec, act, hw, hd, hw', hd', hc, hc2, hk, hk2, hq, World.set]

/-- And what is on standard input is taken for the dictionary: words there that the corpus does not have change the tagger. -/
theorem C82_retrain_stdin_violation (M : Machine K P D) (isPerceptron : Text → Bool) (win : Bool) (n : Nat) (c t : Text) (w : World K P D) (d : D) (k : K) (p : P)
    (hw : w.files t = some d) (hd : M.load (windowAlgo win) d = some (k, p)) (hc : M.classes k w.stdin = none) :
    (exec M ((Job.retrain win n c t).acts isPerceptron) w).2 = false := by
  cases h : w.files c with
  | none => simp [Job.acts, exec, act, hw, hd, h]
  | some dc => simp [Job.acts, exec, act, hw, hd, h, hc]

/-! ### A tagger for examples -/

/-- Classes are numbers of words, probabilities are numbers; one iteration adds the corpus. -/
def toy : Machine Nat Nat (List Nat) where
  empty := []
  load _ d := match d with | [k, p] => some (k, p) | _ => none
  spec _ d := match d with | [k] => some (k, 0) | _ => none
  classes k d := some (k + d.length)
  fresh _ := 77
  initTagged _ a b := some (a.length + b.length)
  initKupiec _ d := some d.length
  iterate t d n := some (t.2 + n * d.sum)
  trainStream _ d _ n := some (n, d.sum)
  write t := [t.1, t.2]
  tag t d := some (t.2 :: d)

/-- A corpus `c` and a tagger `t` with 3 classes and the probability 40. -/
def toyWorld : World Nat Nat (List Nat) where
  files := fun f => if f = t!"c" then some [1, 2] else if f = t!"t" then some [3, 40] else if f = t!"x" then some [3] else if f = t!"d" then some [9, 9] else none
  stdin := []

/-- Ten iterations of training from the definition. -/
example : (exec toy ((Job.train false 10 t!"d" t!"c" t!"x" t!"t").acts (fun _ => false)) toyWorld).1.files t!"t" = some [5, 32] := by decide +kernel

/-- `-r 0`, no iteration at all, replaces the trained probability 40 by what was in memory; stopped between the opening of the file and the writing it leaves an empty file. -/
theorem C82_retrain_zero_violation :
    (exec toy ((Job.retrain false 0 t!"c" t!"t").acts (fun _ => false)) toyWorld).1.files t!"t" = some [3, 77] ∧
    (exec toy (((Job.retrain false 0 t!"c" t!"t").acts (fun _ => false)).take 6) toyWorld).1.files t!"t" = some [] := by decide +kernel

/-- The hypotheses of `C82_retrain_violation` hold of two taggers with the probabilities 40 and 50. -/
example : ∃ w w' : World Nat Nat (List Nat), w.files t!"c" = w'.files t!"c" ∧ w.stdin = w'.stdin ∧ w.files t!"t" = some [3, 40] ∧ w'.files t!"t" = some [3, 50] ∧
    toy.load .hmm [3, 40] = some (3, 40) ∧ toy.load .hmm [3, 50] = some (3, 50) ∧ (exec toy ((Job.retrain false 2 t!"c" t!"t").acts (fun _ => false)) w).2 = true :=
  ⟨toyWorld, toyWorld.set t!"t" [3, 50], by decide +kernel⟩

/-! ### Command lines that do something else -/

/-- The hypotheses of `C81_run_partial`: `-p -t 8 --first -w`. -/
example : SpellsAll [.short 'p', .short 't' t!"8", .long t!"first", .short 'w'] [.flag .showSuperficial, .train 8, .flag .first, .slidingWindow] ∧
    ([.flag .showSuperficial, .train 8, .flag .first, .slidingWindow] : List Sem).Perm ((Job.train true 8 t!"d" t!"c" t!"x" t!"t").sems ++ [Flag.showSuperficial, .first].map .flag) :=
  ⟨.cons (.p _) (.cons (.t _ _ ⟨by decide, by decide, by decide⟩ (by decide)) (.cons (.first _) (.cons (.w _) .nil))), by decide +kernel⟩

/-- Those of `C81_reject_partial`: `-g -t 8`. -/
example : SpellsAll [.short 'g', .short 't' t!"8"] [.tagger, .train 8] ∧ ¬ (([.tagger, .train 8] : List Sem).map Sem.slot).Nodup :=
  ⟨.cons (.g _) (.cons (.t _ _ ⟨by decide, by decide, by decide⟩ (by decide)) .nil), by decide⟩

/-- C81.  A number of iterations is any decimal number below 2^64; one that is too large, and a text with any other letter (but for signs and spaces), is an error. -/
theorem C81_iterations (t : Text) : (∀ n, Numeral t n → parseUnsignedLong t = if n < 2 ^ 64 then some n else none) ∧
    (∀ c ∈ t, isDigit c = false → isSpace c = false → c ≠ '+' → c ≠ '-' → parseUnsignedLong t = none) := by
  refine ⟨fun n h => h.parse, ?_⟩
  intro c hc h1 h2 h3 h4
  have hmem : c ∈ (strtoul t).2.1 := by
    have hs : c ∈ t.dropWhile isSpace := mem_dropWhile hc h2
    have fin (neg : Bool) (r : Text) (hr : c ∈ r) : c ∈ (if r.takeWhile isDigit = [] then (0, t, false)
        else if digitsVal (r.takeWhile isDigit) > ulongMax then (ulongMax, r.dropWhile isDigit, true)
        else ((if neg then (ulongMax + 1 - digitsVal (r.takeWhile isDigit)) % (ulongMax + 1) else digitsVal (r.takeWhile isDigit)), r.dropWhile isDigit, false) :
          Nat × Text × Bool).2.1 := by
      split
      · exact hc
      · split
        · exact mem_dropWhile hr h1
        · exact mem_dropWhile hr h1
    unfold strtoul
    dsimp only
    generalize t.dropWhile isSpace = s at hs ⊢
    match s, hs with
    | '-' :: r, hs => exact fin true r (by simpa [h4] using hs)
    | [], hs => cases hs
    | x :: r, hs =>
      by_cases e1 : x = '-'
      · subst e1; exact fin true r (by simpa [h4] using hs)
      · by_cases e2 : x = '+'
        · subst e2; exact fin false r (by simpa [h3] using hs)
        · split
          · rename_i y hy; cases hy; exact absurd rfl e1
          · rename_i y hy; cases hy; exact absurd rfl e2
          · exact fin false (x :: r) hs
  unfold parseUnsignedLong
  split
  rename_i n rest range heq
  rw [heq] at hmem
  dsimp only at hmem
  rw [if_pos (by intro e; rw [e] at hmem; cases hmem)]

/-- C81 fails for a negative number of iterations: `-1` is 2^64 - 1. -/
theorem C81_negative_violation : parseUnsignedLong t!"-1" = some 18446744073709551615 := by decide +kernel

/-- C81 fails for `-h`, which the usage names: it is not among the short options, and ends with an error. -/
theorem C81_help_violation (junk : Flag → Bool) (isPerceptron : Text → Bool) (files : List Text) :
    (run junk isPerceptron [.short 'h'] files).1 = .error ∧ (run junk isPerceptron [.long t!"help"] files).1 = .help := ⟨rfl, rfl⟩

/-- C81 fails for `-u 12`: any argument that begins with 1, 2 or 3 is accepted. -/
theorem C81_unigram_violation (junk : Flag → Bool) (isPerceptron : Text → Bool) :
    (run junk isPerceptron [.short 'g', .short 'u' t!"12"] [t!"t"]).1 = .acts [.load (.unigram 1) t!"t", .input none, .tag (.unigram 1) none] := rfl

/-- C81 fails for retraining and unsupervised training with `-x`: the program aborts, without a message. -/
theorem C81_abort_violation (junk : Flag → Bool) (isPerceptron : Text → Bool) (files : List Text) :
    (run junk isPerceptron [.short 'x', .short 'r' t!"8"] files).1 = .abort ∧ (run junk isPerceptron [.short 'x', .short 't' t!"8"] files).1 = .abort := ⟨rfl, rfl⟩

/-- C81 fails for `-b` and `-e`: the two flags are not initialised, so that `-b` given once can be taken for given twice, and a training without `-e` can be one with it. -/
theorem C81_flags_violation (junk : Flag → Bool) (h1 : junk .sentSeg = true) (h2 : junk .skipErrors = true) (isPerceptron : Text → Bool) :
    (run junk isPerceptron [.short 'g', .short 'b'] [t!"t"]).1 = .error ∧
    (run junk isPerceptron [.short 'x', .short 's' t!"8"] [t!"t", t!"a", t!"b", t!"m"]).2 .skipErrors = true := by
  refine ⟨?_, h2⟩
  have e : flagCase .sentSeg { flags := flags0 junk, func := some .tagger } = none := by simp [flagCase, flags0, h1]
  have r : readOpts [.short 'g', .short 'b'] { flags := flags0 junk } = .error := by
    show (match flagCase .sentSeg { flags := flags0 junk, func := some .tagger } with | none => Opts.error | some s => readOpts [] s) = .error
    rw [e]
  rw [run, r]

end Verif.Driver
