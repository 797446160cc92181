import Verif.Mode.GenProps
/-!
# C70: the files that `apertium-gen-modes` writes
-/
namespace Verif.GenModes
open Verif.Mode (hasSub join)

/-! ## Specification: how a shell reads a line -/

/-- The words of a text without quotes. -/
def words : Text → List Text
  | [] => []
  | c :: s =>
    if c = ' ' then words s
    else if s.head? = none ∨ s.head? = some ' ' then [c] :: words s
    else match words s with
      | [] => [[c]]
      | w :: ws => (c :: w) :: ws

/-- Characters that have a meaning in a shell, other than the blank, the bar, the single quote, the end of the line and `$` (the scripts put
the options of the user in place of `$1` and `$2`). -/
def special : Text := t!"\"\\`&;<>()*?[]#~={}!\t"

/-- What has been read: whole commands, whole words of this command, the word that is being read, whether it is in quotes. -/
structure Lex where
  done : List (List Text) := []
  ws : List Text := []
  cur : Option Text := none
  quoted : Bool := false

/-- The commands of a line, each with its words; `none`: it is not one line of commands with bars between them. -/
def shell : Text → Lex → Option (List (List Text))
  | [], _ => none
  | c :: s, L =>
    if L.quoted then
      if c = '\'' then shell s { L with quoted := false } else shell s { L with cur := some (L.cur.getD [] ++ [c]) }
    else if c = '\n' then
      if s = [] ∧ L.ws ++ L.cur.toList ≠ [] then some (L.done ++ [L.ws ++ L.cur.toList]) else none
    else if c = ' ' then shell s { L with ws := L.ws ++ L.cur.toList, cur := none }
    else if c = '|' then
      if L.ws ++ L.cur.toList ≠ [] then shell s { L with done := L.done ++ [L.ws ++ L.cur.toList], ws := [], cur := none } else none
    else if c = '\'' then shell s { L with quoted := true, cur := some (L.cur.getD []) }
    else if c ∈ special then none
    else shell s { L with cur := some (L.cur.getD [] ++ [c]) }

/-- No characters with a meaning. -/
def Ordinary (t : Text) : Prop := ∀ c ∈ t, c ∉ special ∧ c ≠ '|' ∧ c ≠ '\'' ∧ c ≠ '\n'

/-- The commands that a mode stands for: the words of each program and of its arguments; a file is one word. -/
def commandsOf (P : Paths) (dir : Text) (steps : List (Text × List (Text × Bool))) : List (List Text) :=
  steps.map (fun s => words s.1 ++ s.2.flatMap (fun a => if a.2 then [P.absolute dir a.1] else words a.1))

/-- The programs and arguments are ordinary, there is a word in each program, and no path has a quote in it. -/
structure Writable (P : Paths) (dir : Text) (steps : List (Text × List (Text × Bool))) : Prop where
  some : steps ≠ []
  program : ∀ s ∈ steps, Ordinary s.1 ∧ words s.1 ≠ []
  argument : ∀ s ∈ steps, ∀ a ∈ s.2, a.2 = false → Ordinary a.1
  file : ∀ s ∈ steps, ∀ a ∈ s.2, a.2 = true → '\'' ∉ P.absolute dir a.1

/-! ## The shell -/

/-- A beginning of the first word. -/
def attach (w : Text) : List Text → List Text
  | [] => [w]
  | x :: xs => (w ++ x) :: xs

/-- The words when one has been begun. -/
def glueSome (w t : Text) : List Text := if t.head? = none ∨ t.head? = some ' ' then w :: words t else attach w (words t)

/-- The words when one may have been begun. -/
def glue : Option Text → Text → List Text
  | none, t => words t
  | some w, t => glueSome w t

theorem glue_none_cons (c : Char) (s : Text) (h : c ≠ ' ') : words (c :: s) = glueSome [c] s := by
  unfold glueSome
  rw [words, if_neg h]
  cases words s <;> rfl

theorem attach_glue (w v s : Text) : attach w (glueSome v s) = glueSome (w ++ v) s := by
  unfold glueSome
  split
  · rfl
  · cases words s <;> simp [attach]

theorem glue_some_cons (w : Text) (c : Char) (s : Text) (h : c ≠ ' ') : glueSome w (c :: s) = glueSome (w ++ [c]) s := by
  rw [← attach_glue, ← glue_none_cons c s h]
  conv => lhs; unfold glueSome
  rw [if_neg (by simp [h])]

theorem shell_plain (a : Text) (ha : Ordinary a) (rest : Text) (d : List (List Text)) (ws : List Text) (cur : Option Text) :
    ∃ ws' cur', shell (a ++ rest) ⟨d, ws, cur, false⟩ = shell rest ⟨d, ws', cur', false⟩ ∧
      ws' ++ cur'.toList = ws ++ glue cur a := by
  induction a generalizing ws cur with
  | nil =>
    refine ⟨ws, cur, rfl, ?_⟩
    cases cur <;> simp [glue, glueSome, words]
  | cons c a ih =>
    have hc := ha c List.mem_cons_self
    have ha' : Ordinary a := fun x hx => ha x (List.mem_cons_of_mem _ hx)
    by_cases hs : c = ' '
    · subst hs
      obtain ⟨ws', cur', h1, h2⟩ := ih ha' (ws ++ cur.toList) none
      refine ⟨ws', cur', ?_, ?_⟩
      · rw [List.cons_append, ← h1]
        rfl
      · rw [h2]
        cases cur with
        | none => simp [glue, words]
        | some w => simp [glue, glueSome, words]
    · obtain ⟨ws', cur', h1, h2⟩ := ih ha' ws (some (cur.getD [] ++ [c]))
      refine ⟨ws', cur', ?_, ?_⟩
      · rw [List.cons_append, ← h1, shell]
        simp only [Bool.false_eq_true, if_false, if_neg hc.2.2.2, if_neg hs, if_neg hc.2.1, if_neg hc.2.2.1, if_neg hc.1]
      · rw [h2]
        cases cur with
        | none => simp only [Option.getD_none, List.nil_append, glue, glue_none_cons c a hs]
        | some w => simp only [glue, glue_some_cons w c a hs, Option.getD_some]

theorem shell_quote (p : Text) (hp : '\'' ∉ p) (rest : Text) (d : List (List Text)) (ws : List Text) (w : Text) :
    shell (p ++ '\'' :: rest) ⟨d, ws, some w, true⟩ = shell rest ⟨d, ws, some (w ++ p), false⟩ := by
  induction p generalizing w with
  | nil =>
    rw [List.nil_append, shell]
    simp
  | cons c p ih =>
    have hc : c ≠ '\'' := fun h => hp (by simp [h])
    rw [List.cons_append, shell]
    simp only [if_true, if_neg hc, Option.getD_some]
    rw [ih (fun h => hp (List.mem_cons_of_mem _ h))]
    simp

theorem shell_args (P : Paths) (dir : Text) (args : List (Text × Bool)) (h1 : ∀ a ∈ args, a.2 = false → Ordinary a.1)
    (h2 : ∀ a ∈ args, a.2 = true → '\'' ∉ P.absolute dir a.1) (rest : Text) (d : List (List Text)) (ws : List Text) (cur : Option Text) :
    ∃ ws' cur', shell (renderArgs P dir args ++ rest) ⟨d, ws, cur, false⟩ = shell rest ⟨d, ws', cur', false⟩ ∧
      ws' ++ cur'.toList = ws ++ cur.toList ++ args.flatMap (fun a => if a.2 then [P.absolute dir a.1] else words a.1) := by
  induction args generalizing ws cur with
  | nil => exact ⟨ws, cur, rfl, by simp⟩
  | cons a args ih =>
    have ih := ih (fun x hx => h1 x (List.mem_cons_of_mem _ hx)) (fun x hx => h2 x (List.mem_cons_of_mem _ hx))
    have hr : ∀ r, renderArgs P dir (a :: args) ++ r =
        (if a.2 then t!" '" ++ P.absolute dir a.1 ++ t!"'" else ' ' :: a.1) ++ (renderArgs P dir args ++ r) := by
      intro r; simp [renderArgs]
    rw [hr]
    by_cases hf : a.2 = true
    · obtain ⟨ws', cur', e1, e2⟩ := ih (ws ++ cur.toList) (some (P.absolute dir a.1))
      refine ⟨ws', cur', ?_, ?_⟩
      · rw [if_pos hf, ← e1]
        have e3 : t!" '" ++ P.absolute dir a.1 ++ t!"'" ++ (renderArgs P dir args ++ rest) =
            ' ' :: '\'' :: (P.absolute dir a.1 ++ '\'' :: (renderArgs P dir args ++ rest)) := by simp
        rw [e3]
        have e4 : ∀ x, shell (' ' :: '\'' :: x) ⟨d, ws, cur, false⟩ = shell x ⟨d, ws ++ cur.toList, some [], true⟩ := fun x => rfl
        rw [e4, shell_quote _ (h2 a List.mem_cons_self hf)]
        rfl
      · rw [e2]; simp [hf]
    · have hf' : a.2 = false := by cases h : a.2 <;> simp_all
      obtain ⟨ws1, cur1, e1, e2⟩ := shell_plain a.1 (h1 a List.mem_cons_self hf') (renderArgs P dir args ++ rest) d (ws ++ cur.toList) none
      obtain ⟨ws', cur', e3, e4⟩ := ih ws1 cur1
      refine ⟨ws', cur', ?_, ?_⟩
      · rw [if_neg hf, ← e3, ← e1]
        rfl
      · rw [e4, e2]; simp [hf', glue]

/-- The text of a mode by what counts of it. -/
def renderShown (P : Paths) (dir : Text) (steps : List (Text × List (Text × Bool))) : Text :=
  join (steps.map (fun s => s.1 ++ renderArgs P dir s.2)) ++ t!"\n"

theorem renderMode_shown (P : Paths) (dir : Text) (p : Pipeline) : renderMode P dir p = renderShown P dir p.shown.2.2.2 := by
  simp only [renderMode, renderShown, Pipeline.shown, List.map_map]
  rfl

theorem shell_render (P : Paths) (dir : Text) (steps : List (Text × List (Text × Bool))) (h : Writable P dir steps) (d : List (List Text)) :
    shell (renderShown P dir steps) ⟨d, [], none, false⟩ = some (d ++ commandsOf P dir steps) := by
  obtain ⟨hne, hprog, harg, hfile⟩ := h
  induction steps generalizing d with
  | nil => exact absurd rfl hne
  | cons s steps ih =>
    have hs := hprog s List.mem_cons_self
    have one : ∀ r, ∃ ws cur, shell (s.1 ++ (renderArgs P dir s.2 ++ r)) ⟨d, [], none, false⟩ = shell r ⟨d, ws, cur, false⟩ ∧
        ws ++ cur.toList = words s.1 ++ s.2.flatMap (fun a => if a.2 then [P.absolute dir a.1] else words a.1) := by
      intro r
      obtain ⟨w1, c1, e1, e2⟩ := shell_plain s.1 hs.1 (renderArgs P dir s.2 ++ r) d [] none
      obtain ⟨w2, c2, e3, e4⟩ := shell_args P dir s.2 (harg s List.mem_cons_self) (hfile s List.mem_cons_self) r d w1 c1
      exact ⟨w2, c2, by rw [e1, e3], by rw [e4, e2]; rfl⟩
    have hne2 : ∀ l : List Text, words s.1 ++ l ≠ [] := fun l hx => hs.2 (List.append_eq_nil_iff.1 hx).1
    cases steps with
    | nil =>
      obtain ⟨ws, cur, e1, e2⟩ := one t!"\n"
      have : renderShown P dir [s] = s.1 ++ (renderArgs P dir s.2 ++ t!"\n") := by
        simp [renderShown, join]
      rw [this, e1, shell]
      have hx : ws ++ cur.toList ≠ [] := by rw [e2]; exact hne2 _
      simp only [Bool.false_eq_true, if_false, if_true, true_and, if_pos hx, ne_eq]
      rw [e2]
      rfl
    | cons t steps =>
      obtain ⟨ws, cur, e1, e2⟩ := one (t!" | " ++ renderShown P dir (t :: steps))
      have : renderShown P dir (s :: t :: steps) = s.1 ++ (renderArgs P dir s.2 ++ (t!" | " ++ renderShown P dir (t :: steps))) := by
        simp [renderShown, join]
      rw [this, e1]
      have hx : ws ++ cur.toList ≠ [] := by rw [e2]; exact hne2 _
      have e3 : shell (t!" | " ++ renderShown P dir (t :: steps)) ⟨d, ws, cur, false⟩ =
          shell (renderShown P dir (t :: steps)) ⟨d ++ [ws ++ cur.toList], [], none, false⟩ := by
        have : ∀ y, shell (t!" | " ++ y) ⟨d, ws, cur, false⟩ =
            if ws ++ cur.toList ++ [] ≠ [] then shell y ⟨d ++ [ws ++ cur.toList ++ []], [] ++ [], none, false⟩ else none := fun y => rfl
        rw [this, List.append_nil, if_pos hx]
        rfl
      rw [e3, ih _ (by simp) (fun x hx => hprog x (List.mem_cons_of_mem _ hx)) (fun x hx => harg x (List.mem_cons_of_mem _ hx))
        (fun x hx => hfile x (List.mem_cons_of_mem _ hx)), e2]
      simp [commandsOf]

/-- **C70, the text.** A shell reads the text of a mode's file as the programs of the mode in their order, each with its arguments; each file is
one word, which is its absolute path, also if there are blanks in it. -/
theorem C70_text (P : Paths) (dir : Text) (p : Pipeline) (h : Writable P dir p.shown.2.2.2) :
    shell (renderMode P dir p) {} = some (commandsOf P dir p.shown.2.2.2) := by
  rw [renderMode_shown]
  exact shell_render P dir _ h []

/-! ## The files -/

theorem sorted_addE (e : Text × List Step) {ms : Modes} (h : Sorted ms) : Sorted (addE ms e) := by
  rw [addE_eq]
  have h1 : Sorted (put e.1 (mk e) ms) := sorted_put (mk e) ms h
  split
  · exact h
  · split
    · exact h1
    · exact sorted_put (mkU e) _ h1

theorem sorted_genDebug {ms : Modes} (h : Sorted ms) : Sorted (genDebug ms) := by
  rw [genDebug_fold h]
  have h1 := sorted_withSuffixes h
  generalize entriesOf (withSuffixes ms) = E
  generalize withSuffixes ms = m at h1 ⊢
  induction E generalizing m with
  | nil => exact h1
  | cons e E ih => exact ih _ (sorted_addE e h1)

theorem sorted_read (doc : Xml) (ms : Modes) (h : readModes doc = some ms) : Sorted ms := by
  obtain ⟨ps, _, rfl⟩ := readModes_eq doc ms h
  exact sorted_fold ps [] sorted_nil

theorem mem_genModes (P : Paths) (ms : Modes) (h : Sorted ms) (installDir devDir : Text) (f : Text × Text) :
    f ∈ genModes P ms installDir devDir ↔ ∃ n s, (get ms n).map (·.shown) = some s ∧ (installDir ≠ devDir → s.2.1 = true) ∧
      f = (P.slash (if installDir = devDir then P.slash devDir t!"modes" else devDir) (n ++ t!".mode"),
        renderShown P (if installDir = devDir then devDir else installDir) s.2.2.2) := by
  unfold genModes
  simp only [List.mem_map, List.mem_filter]
  constructor
  · rintro ⟨q, ⟨hq, hi⟩, rfl⟩
    refine ⟨q.1, q.2.shown, by rw [get_of_mem h hq]; rfl, ?_, ?_⟩
    · intro hne
      simp only [hne, decide_false, Bool.not_false, Bool.true_and, Bool.not_not] at hi
      exact hi
    · rw [h.names q hq, renderMode_shown]
      by_cases he : installDir = devDir <;> simp [he]
  · rintro ⟨n, s, hs, hi, rfl⟩
    obtain ⟨p, hp, rfl⟩ := Option.map_eq_some_iff.1 hs
    have hmem := mem_of_get hp
    refine ⟨(n, p), ⟨hmem, ?_⟩, ?_⟩
    · by_cases he : installDir = devDir
      · simp [he]
      · have : p.install = true := hi he
        simp [this]
    · rw [renderMode_shown, ← h.names _ hmem]
      by_cases he : installDir = devDir <;> simp [he]

/-- **C70, to install.** With `-f` and a prefix, the files are one for each mode with `install="yes"` in the file of modes, and for no debug mode;
they are in the directory of the file (in this one with `-l`), and the paths in them are below the prefix. -/
theorem C70_install (P : Paths) (loc : Bool) (xmlDir pre : Text) (doc : Xml) (ms : Modes) (files : List (Text × Text))
    (hpre : pre ≠ []) (hloc : loc = true → pre ≠ t!".")
    (h : readModes doc = some ms) (hat : ∀ p ∈ ms.map (·.2), p.name.head? ≠ some '@')
    (hr : genMain P true loc xmlDir pre doc = .ok files) (f : Text × Text) :
    f ∈ files ↔ ∃ p ∈ ms.map (·.2), p.install = true ∧
      f = (P.slash (if loc then t!"." else xmlDir) (p.name ++ t!".mode"), renderMode P pre p) := by
  have hs := sorted_genDebug (sorted_read doc ms h)
  have hne : pre ≠ xmlDir := by
    intro he
    subst he
    simp [genMain, hpre] at hr
  have hne2 : pre ≠ (if loc then t!"." else xmlDir) := by
    cases loc with
    | true => exact hloc rfl
    | false => exact hne
  have hfiles : files = genModes P (genDebug ms) pre (if loc then t!"." else xmlDir) := by
    unfold genMain at hr
    simp only [hne, and_false, if_false, h, hpre, ne_eq, not_false_eq_true, and_true, if_true, Outcome.ok.injEq] at hr
    exact hr.symm
  rw [hfiles, mem_genModes P _ hs]
  simp only [hne2, if_false, ne_eq, not_false_eq_true, forall_const]
  constructor
  · rintro ⟨n, s, h1, h2, rfl⟩
    rw [C69_modes doc ms h hat] at h1
    cases h1 with
    | @user p hp => exact ⟨p, hp, h2, by rw [renderMode_shown]⟩
    | debug => cases h2
    | untrimmed => cases h2
  · rintro ⟨p, hp, hi, rfl⟩
    exact ⟨p.name, p.shown, (C69_modes doc ms h hat _ _).2 (.user hp), hi, by rw [renderMode_shown]⟩

/-- **C70, to try.** Without options, the files are one for each mode of the file of modes and for each debug mode; they are in the directory
`modes` beside the file, and the paths in them are below the directory of the file. -/
theorem C70_dev (P : Paths) (xmlDir pre : Text) (doc : Xml) (ms : Modes) (files : List (Text × Text))
    (h : readModes doc = some ms) (hat : ∀ p ∈ ms.map (·.2), p.name.head? ≠ some '@')
    (hr : genMain P false false xmlDir pre doc = .ok files) (f : Text × Text) :
    f ∈ files ↔ ∃ n s, Made (ms.map (·.2)) n s ∧
      f = (P.slash (P.slash xmlDir t!"modes") (n ++ t!".mode"), renderShown P xmlDir s.2.2.2) := by
  have hs := sorted_genDebug (sorted_read doc ms h)
  have hfiles : files = genModes P (genDebug ms) xmlDir xmlDir := by
    unfold genMain at hr
    simp only [Bool.false_eq_true, false_and, if_false, h, Outcome.ok.injEq] at hr
    exact hr.symm
  rw [hfiles, mem_genModes P _ hs]
  simp only [if_true, ne_eq, not_true_eq_false, false_implies, true_and]
  constructor
  · rintro ⟨n, s, h1, rfl⟩
    exact ⟨n, s, (C69_modes doc ms h hat n s).1 h1, rfl⟩
  · rintro ⟨n, s, h1, rfl⟩
    exact ⟨n, s, (C69_modes doc ms h hat n s).2 h1, rfl⟩

/-- **C70, no file is written twice.** -/
theorem C70_once (P : Paths) (full loc : Bool) (xmlDir pre : Text) (doc : Xml) (files : List (Text × Text))
    (hinj : ∀ d a b, P.slash d a = P.slash d b → a = b) (hr : genMain P full loc xmlDir pre doc = .ok files) :
    (files.map (·.1)).Nodup := by
  unfold genMain at hr
  split at hr
  · cases hr
  · simp only at hr
    cases hm : readModes doc with
    | none => rw [hm] at hr; cases hr
    | some ms =>
      rw [hm] at hr
      simp only [Outcome.ok.injEq] at hr
      have hs := sorted_genDebug (sorted_read doc ms hm)
      generalize (if full = true ∧ pre ≠ [] then pre else xmlDir) = a at hr
      generalize (if loc = true then t!"." else xmlDir) = b at hr
      subst hr
      unfold genModes
      simp only
      rw [List.map_map]
      unfold List.Nodup
      rw [List.pairwise_map]
      refine (hs.order.filter _).imp_of_mem ?_
      intro x y hx hy hlt he
      have := hinj _ _ _ he
      have h3 := List.append_cancel_right this
      rw [← hs.names x (List.mem_filter.1 hx).1, ← hs.names y (List.mem_filter.1 hy).1] at h3
      rw [h3] at hlt
      exact List.lt_irrefl _ hlt

/-- A simple kind of paths. -/
def simplePaths : Paths := ⟨fun d a => d ++ '/' :: a, fun d a => if d = [] then a else d ++ '/' :: a⟩

/-- A mode `a-b` of one program with one file. -/
def smallMode (install : Text) : Xml :=
  .elem t!"mode" [(t!"name", t!"a-b"), (t!"install", install)]
    [.elem t!"pipeline" [] [.elem t!"program" [(t!"name", t!"lt-proc -w")] [.elem t!"file" [(t!"name", t!"a b.bin")] []]]]

/-- The hypotheses are met: a path with a blank is one word. -/
example : ∃ files, genMain simplePaths true false t!"src" t!"/usr/share" (.elem t!"modes" [] [smallMode t!"yes"]) = .ok files ∧
    files.map (·.1) = [t!"src/a-b.mode"] ∧
    (files.map (fun f => shell f.2 {})) = [some [[t!"lt-proc", t!"-w", t!"/usr/share/a b.bin"]]] := by
  refine ⟨_, rfl, rfl, ?_⟩
  decide +kernel

/-- **C70, violation.** A path with a single quote in it is not quoted: the line cannot be read. -/
theorem C70_quote_violation : ∃ files, genMain simplePaths true false t!"src" t!"/home/o'n" (.elem t!"modes" [] [smallMode t!"yes"]) = .ok files ∧
    files.map (fun f => shell f.2 {}) = [none] := by
  refine ⟨_, rfl, ?_⟩
  decide +kernel

/-- **C70, violation.** With `-l` and without `-f` the program thinks that it is installing: a mode without `install="yes"` is not written, and
another is, but not in `modes`. -/
theorem C70_local_violation :
    genMain simplePaths false true [] [] (.elem t!"modes" [] [smallMode t!"no"]) = .ok [] ∧
    ∃ files, genMain simplePaths false true [] [] (.elem t!"modes" [] [smallMode t!"yes"]) = .ok files ∧
      files.map (·.1) = [t!"./a-b.mode"] := by
  refine ⟨by decide +kernel, _, rfl, by decide +kernel⟩

/-- **C70, violation.** A second mode with the same name takes the place of the first, without a message. -/
theorem C70_same_name_violation : ∃ files, genMain simplePaths false false t!"x" [] (.elem t!"modes" [] [smallMode t!"no", smallMode t!"yes"]) = .ok files ∧
    files.length = 1 := by
  refine ⟨_, rfl, by decide +kernel⟩

end Verif.GenModes
