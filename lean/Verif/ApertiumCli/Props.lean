import Verif.ApertiumCli.Model
/-!
# C101: `apertium` does what its command line asks for
-/
namespace Verif.ApertiumCli

/-- An option, however it is written. -/
inductive Opt where
  | flag (c : Char)
  | arg (c : Char) (x : Text)
  deriving DecidableEq

/-- The argument of the last option of this letter. -/
def lastArg (c : Char) (os : List Opt) : Option Text :=
  (os.filterMap fun o => match o with
    | .arg d x => if d = c then some x else none
    | .flag _ => none).getLast?

/-- What the options ask for. -/
def meaning (os : List Opt) : Vars where
  format := (lastArg 'f' os).getD t!"txt"
  dataDir := lastArg 'd' os
  tm := (lastArg 'm' os).getD []
  tmDir := (lastArg 'o' os).getD []
  tmx := List.replicate (os.count (.flag 's')) t!"-s"
  noMarks := decide (.flag 'u' ∈ os)
  fmt := os.filterMap fun o => if o = .flag 'n' then some t!"-n" else if o = .flag 'H' then some t!"-o" else none
  tf := os.filterMap fun o => if o = .flag 'n' then some t!"--apertium-n" else if o = .flag 'H' then some t!"-H" else none
  tagger := decide (.flag 'a' ∈ os)
  list := decide (.flag 'l' ∈ os)
  flush := List.replicate (os.count (.flag 'z')) t!"-z"

/-- A way of writing options: some letters after one `-`, and then perhaps an option with an argument, which is in the same word or is the next one. -/
structure Word where
  flags : Text
  last : Option (Char × Text × Bool)

def Word.opts (w : Word) : List Opt := w.flags.map .flag ++ match w.last with
  | none => []
  | some (c, x, _) => [.arg c x]

def Word.text (w : Word) : List Text := match w.last with
  | none => ['-' :: w.flags]
  | some (c, x, true) => ['-' :: (w.flags ++ c :: x)]
  | some (c, x, false) => ['-' :: (w.flags ++ [c]), x]

def Word.Ok (w : Word) : Prop :=
  (∀ c ∈ w.flags, c ∈ t!"suanHlz") ∧
  match w.last with
  | none => w.flags ≠ []
  | some (c, x, j) => c ∈ t!"fdmo" ∧ (j = true → x ≠ [])

/-- A file name that cannot be taken for an option. -/
def File (f : Text) : Prop := f.head? ≠ some '-'

/-! ## the options -/

def app (v : Vars) : Opt → Vars
  | .flag c =>
    if c = 's' then { v with tmx := v.tmx ++ [t!"-s"] }
    else if c = 'u' then { v with noMarks := true }
    else if c = 'n' then { v with fmt := v.fmt ++ [t!"-n"], tf := v.tf ++ [t!"--apertium-n"] }
    else if c = 'H' then { v with fmt := v.fmt ++ [t!"-o"], tf := v.tf ++ [t!"-H"] }
    else if c = 'a' then { v with tagger := true }
    else if c = 'l' then { v with list := true }
    else { v with flush := v.flush ++ [t!"-z"] }
  | .arg c x => setArg c x v

theorem letters_flags (fs cs : Text) (v : Vars) (h : ∀ c ∈ fs, c ∈ t!"suanHlz") : letters (fs ++ cs) v = letters cs ((fs.map Opt.flag).foldl app v) := by
  induction fs generalizing v with
  | nil => rfl
  | cons c t ih =>
    have hc := h c (by simp)
    have ht : ∀ d ∈ t, d ∈ t!"suanHlz" := fun d hd => h d (by simp [hd])
    rw [List.cons_append, List.map_cons, List.foldl_cons, letters]
    simp only [List.mem_cons, List.not_mem_nil, or_false] at hc
    rcases hc with rfl | rfl | rfl | rfl | rfl | rfl | rfl <;> (rw [if_neg (by decide)]; exact ih _ ht)

theorem withArg_iff (c : Char) : c ∈ t!"fdmo" ↔ withArg c := by
  simp only [withArg, List.mem_cons, List.not_mem_nil, or_false]

theorem options_word (w : Word) (hw : w.Ok) (r : List Text) (v : Vars) : options (w.text ++ r) v = options r (w.opts.foldl app v) := by
  obtain ⟨flags, last⟩ := w
  obtain ⟨h1, h2⟩ := hw
  simp only at h1 h2
  have nd : ∀ c ∈ t!"suanHlz", c ≠ '-' := by decide
  have nd2 : ∀ c ∈ t!"fdmo", c ≠ '-' := by decide
  -- the word is `-` and a letter that is not `-`
  have key : ∀ (cs : Text) (r : List Text), (flags ++ cs) ≠ [] → (∀ c, cs.head? = some c → c ≠ '-') →
      options (('-' :: (flags ++ cs)) :: r) v = match letters cs ((flags.map Opt.flag).foldl app v) with
        | .next v' => options r v'
        | .stop x => .inl x
        | .needArg o v' => match r with
          | [] => .inl .usage
          | x :: r' => options r' (setArg o x v') := by
    intro cs r hne hd
    rw [← letters_flags flags cs v h1]
    cases hq : flags ++ cs with
    | nil => exact absurd hq hne
    | cons c t =>
      have hc : c ≠ '-' := by
        cases flags with
        | nil => exact hd c (by rw [List.nil_append] at hq; rw [hq]; rfl)
        | cons d s => rw [List.cons_append] at hq; cases hq; exact nd _ (h1 _ (by simp))
      rw [options, if_neg (by intro e; injection e with _ e; injection e with e _; exact hc e)]
      cases letters (c :: t) v with
      | needArg o v' => cases r <;> rfl
      | _ => rfl
  cases last with
  | none =>
    have := key [] r (by simpa using h2) (by simp)
    rw [List.append_nil] at this
    simpa [Word.text, Word.opts, letters] using this
  | some q =>
    obtain ⟨c, x, j⟩ := q
    obtain ⟨hc, hj⟩ := h2
    have hwc := (withArg_iff c).1 hc
    cases j with
    | true =>
      have := key (c :: x) r (by simp) (by intro d hd; cases hd; exact nd2 c hc)
      rw [letters, if_pos hwc, if_neg (hj rfl)] at this
      simpa [Word.text, Word.opts, app] using this
    | false =>
      have := key [c] (x :: r) (by simp) (by intro d hd; cases hd; exact nd2 c hc)
      rw [letters, if_pos hwc, if_pos rfl] at this
      simpa [Word.text, Word.opts, app] using this

theorem options_words (ws : List Word) (hw : ∀ w ∈ ws, w.Ok) (r : List Text) (v : Vars) :
    options (ws.flatMap Word.text ++ r) v = options r ((ws.flatMap Word.opts).foldl app v) := by
  induction ws generalizing v with
  | nil => rfl
  | cons w ws ih =>
    rw [List.flatMap_cons, List.flatMap_cons, List.append_assoc, options_word w (hw w (by simp)), ih (fun x hx => hw x (by simp [hx])), List.foldl_append]

/-- An option that `getopts` can give. -/
def Opt.Ok : Opt → Prop
  | .flag c => c ∈ t!"suanHlz"
  | .arg c _ => c ∈ t!"fdmo"

theorem lastArg_snoc (c : Char) (os : List Opt) (o : Opt) : lastArg c (os ++ [o]) = match o with
    | .arg d x => if d = c then some x else lastArg c os
    | .flag _ => lastArg c os := by
  cases o with
  | flag d => simp [lastArg]
  | arg d x =>
    by_cases h : d = c <;> simp [lastArg, h]

theorem meaning_snoc (os : List Opt) (o : Opt) (h : o.Ok) : meaning (os ++ [o]) = app (meaning os) o := by
  cases o with
  | flag c =>
    simp only [Opt.Ok, List.mem_cons, List.not_mem_nil, or_false] at h
    rcases h with rfl | rfl | rfl | rfl | rfl | rfl | rfl <;>
      simp [meaning, app, lastArg_snoc, List.count_append, List.replicate_succ', List.filterMap_append]
  | arg c x =>
    simp only [Opt.Ok, List.mem_cons, List.not_mem_nil, or_false] at h
    rcases h with rfl | rfl | rfl | rfl <;>
      simp [meaning, app, setArg, lastArg_snoc, List.count_append, List.filterMap_append]

theorem foldl_meaning (done os : List Opt) (h : ∀ o ∈ os, o.Ok) : os.foldl app (meaning done) = meaning (done ++ os) := by
  induction os generalizing done with
  | nil => simp
  | cons o os ih =>
    rw [List.foldl_cons, ← meaning_snoc done o (h o (by simp)), ih _ (fun x hx => h x (by simp [hx]))]
    simp

theorem opts_ok (ws : List Word) (hw : ∀ w ∈ ws, w.Ok) : ∀ o ∈ ws.flatMap Word.opts, o.Ok := by
  intro o ho
  rcases List.mem_flatMap.1 ho with ⟨w, h1, h2⟩
  obtain ⟨flags, last⟩ := w
  obtain ⟨h3, h4⟩ := hw _ h1
  simp only [Word.opts, List.mem_append, List.mem_map] at h2
  rcases h2 with ⟨c, hc, rfl⟩ | h2
  · exact h3 c hc
  · cases last with
    | none => cases h2
    | some q =>
      simp only [List.mem_singleton] at h2
      subst h2
      exact h4.1

theorem options_meaning (ws : List Word) (hw : ∀ w ∈ ws, w.Ok) (r : List Text) :
    options (ws.flatMap Word.text ++ r) {} = options r (meaning (ws.flatMap Word.opts)) := by
  have e : ({} : Vars) = meaning [] := rfl
  rw [options_words ws hw, e, foldl_meaning [] _ (opts_ok ws hw), List.nil_append]

theorem options_file (f : Text) (hf : File f) (r : List Text) (v : Vars) : options (f :: r) v = .inr (v, f :: r) := by
  have h1 : f ≠ t!"--" := by rintro rfl; exact hf rfl
  rw [options, if_neg h1]
  intro c cs e
  subst e
  exact hf rfl

/-- However the options are written, one by one or together, with their arguments in the same word or in the next: the last `-f`, `-d`, `-m` and `-o` count, and the others as often as they are given. -/
theorem C101_options (ws : List Word) (hw : ∀ w ∈ ws, w.Ok) (fs : List Text) (hf : ∀ f ∈ fs, File f) :
    options (ws.flatMap Word.text ++ fs) {} = .inr (meaning (ws.flatMap Word.opts), fs) := by
  rw [options_meaning ws hw]
  cases fs with
  | nil => rfl
  | cons f fs => exact options_file f (hf f (by simp)) fs _

/-! ## the program -/

theorem word_head (w : Word) : ∃ t r, w.text = ('-' :: t) :: r := by
  obtain ⟨flags, last⟩ := w
  cases last with
  | none => exact ⟨_, _, rfl⟩
  | some q =>
    obtain ⟨c, x, j⟩ := q
    cases j <;> exact ⟨_, _, rfl⟩

theorem split_files (pre : List Text) (hp : ∀ f ∈ pre, File f) (r : List Text) (hr : ∀ a, r.head? = some a → ¬File a) :
    (pre ++ r).takeWhile (fun a => a.head? ≠ some '-') = pre ∧ (pre ++ r).dropWhile (fun a => a.head? ≠ some '-') = r := by
  induction pre with
  | nil =>
    cases r with
    | nil => simp
    | cons a r =>
      have ha : a.head? = some '-' := by
        have := hr a rfl
        simpa [File] using this
      simp [List.takeWhile_cons, List.dropWhile_cons, ha]
  | cons f pre ih =>
    have := ih (fun x hx => hp x (by simp [hx]))
    have hf : f.head? ≠ some '-' := hp f (by simp)
    simpa [List.takeWhile_cons, List.dropWhile_cons, hf] using this

/-- What the files mean: the direction, the input (`/dev/stdin` without one) and the output, if there is one. -/
noncomputable def onFiles (w : World) (v : Vars) : List Text → Result
  | [p] => translate w v p t!"/dev/stdin" none
  | [p, i] => translate w v p i none
  | [p, i, o] => translate w v p i (some o)
  | _ => .usage

theorem run_files (w : World) (pre : List Text) (ws : List Word) (post : List Text) (hw : ∀ x ∈ ws, x.Ok) (h1 : ∀ f ∈ pre, File f) (h2 : ∀ f ∈ post, File f) :
    run w (pre ++ ws.flatMap Word.text ++ post) =
      if (meaning (ws.flatMap Word.opts)).list = true then .list (meaning (ws.flatMap Word.opts)).dataDir else onFiles w (meaning (ws.flatMap Word.opts)) (pre ++ post) := by
  cases ws with
  | nil =>
    have hs := split_files (pre ++ post) (by intro f hf; rcases List.mem_append.1 hf with h | h; exact h1 f h; exact h2 f h) [] (by simp)
    simp only [List.append_nil] at hs
    simp only [List.flatMap_nil, List.append_nil]
    unfold run
    rw [hs.1, hs.2]
    simp only [options, List.append_nil]
    rcases pre ++ post with _ | ⟨a, _ | ⟨b, _ | ⟨c, _ | ⟨d, e⟩⟩⟩⟩ <;> rfl
  | cons x ws =>
    obtain ⟨t, r, ht⟩ := word_head x
    have hs := split_files pre h1 ((x :: ws).flatMap Word.text ++ post) (by
      intro a ha
      rw [List.flatMap_cons, ht] at ha
      simp at ha
      subst ha
      simp [File])
    have ho := C101_options (x :: ws) hw post h2
    unfold run
    rw [List.append_assoc, hs.1, hs.2, ho]
    simp only
    rcases pre ++ post with _ | ⟨a, _ | ⟨b, _ | ⟨c, _ | ⟨d, e⟩⟩⟩⟩ <;> rfl

/-- The formats of the usage message. -/
def formats : List Text := [t!"txt", t!"html", t!"rtf", t!"odt", t!"odp", t!"docx", t!"wxml", t!"xlsx", t!"pptx", t!"xpresstag", t!"html-noent", t!"html-alt", t!"latex", t!"latex-raw", t!"line"]

/-- With files before or after the options (not more than three, all in all, the direction, the input and the output), and a format of the usage message: if the input can be read and the mode is there, the text is translated in that format, with these files,
    and with the marks of unknown words unless `-u` is given.  (Missing for the rest: options after a file that is after options, `C101_late_option_violation`; unknown formats, `C101_unknown_format_violation`; and the direction of the memory must be given, `C101_direction_violation`.) -/
theorem C101_translate_partial (w : World) (pre : List Text) (ws : List Word) (post : List Text) (hw : ∀ x ∈ ws, x.Ok) (h1 : ∀ f ∈ pre, File f) (h2 : ∀ f ∈ post, File f)
    (p : Text) (rest : List Text) (hpp : pre ++ post = p :: rest) (hn : rest.length ≤ 2) (hl : .flag 'l' ∉ ws.flatMap Word.opts)
    (hi : w.readable ((rest[0]?).getD t!"/dev/stdin")) (hm : w.mode (lastArg 'd' (ws.flatMap Word.opts)) p)
    (ht : ∀ m, lastArg 'm' (ws.flatMap Word.opts) = some m → ∃ d, lastArg 'o' (ws.flatMap Word.opts) = some d ∧ w.compiles d m)
    (hf : (lastArg 'f' (ws.flatMap Word.opts)).getD t!"txt" ∈ formats) :
    ∃ generic, run w (pre ++ ws.flatMap Word.text ++ post) =
      .translate generic (if (lastArg 'f' (ws.flatMap Word.opts)).getD t!"txt" = t!"odp" then t!"odt" else (lastArg 'f' (ws.flatMap Word.opts)).getD t!"txt")
        (if .flag 'u' ∈ ws.flatMap Word.opts then t!"-n" else t!"-g") p ((rest[0]?).getD t!"/dev/stdin") (rest[1]?) (meaning (ws.flatMap Word.opts)) := by
  rw [run_files w pre ws post hw h1 h2, hpp]
  have hl' : ¬(meaning (ws.flatMap Word.opts)).list = true := by simpa [meaning] using hl
  rw [if_neg hl']
  have e : onFiles w (meaning (ws.flatMap Word.opts)) (p :: rest) = translate w (meaning (ws.flatMap Word.opts)) p ((rest[0]?).getD t!"/dev/stdin") (rest[1]?) := by
    rcases rest with _ | ⟨b, _ | ⟨c, _ | ⟨d, r⟩⟩⟩
    · rfl
    · rfl
    · rfl
    · simp at hn
  rw [e]
  generalize ws.flatMap Word.opts = os at *
  have htm : ¬((meaning os).tm ≠ [] ∧ ¬w.compiles (meaning os).tmDir (meaning os).tm) := by
    rintro ⟨q1, q2⟩
    cases hq : lastArg 'm' os with
    | none => simp [meaning, hq] at q1
    | some m =>
      obtain ⟨d, hd, hc⟩ := ht m hq
      exact q2 (by simpa [meaning, hq, hd] using hc)
  have hmode : w.mode (meaning os).dataDir p := hm
  rw [translate, if_neg (by simpa using hi), if_neg htm, if_neg (by simpa using hmode)]
  have hfmt : ∀ f ∈ formats, ∀ u : Bool, (formatCase f u).2.1 = (if f = t!"odp" then t!"odt" else f) ∧ (formatCase f u).2.2 = (if u = true then t!"-n" else t!"-g") := by decide +kernel
  have hx := hfmt _ hf (meaning os).noMarks
  have hfm : (meaning os).format = (lastArg 'f' os).getD t!"txt" := rfl
  refine ⟨(formatCase (meaning os).format (meaning os).noMarks).1, ?_⟩
  rw [hfm, hx.1, hx.2]
  have hu : ((meaning os).noMarks = true) = (Opt.flag 'u' ∈ os) := by simp [meaning]
  simp only [hu]

/-- With no file, or more than three, there is only the usage message. -/
theorem C101_count (w : World) (pre : List Text) (ws : List Word) (post : List Text) (hw : ∀ x ∈ ws, x.Ok) (h1 : ∀ f ∈ pre, File f) (h2 : ∀ f ∈ post, File f)
    (hl : .flag 'l' ∉ ws.flatMap Word.opts) (hn : (pre ++ post).length = 0 ∨ 3 < (pre ++ post).length) : run w (pre ++ ws.flatMap Word.text ++ post) = .usage := by
  rw [run_files w pre ws post hw h1 h2, if_neg (by simpa [meaning] using hl)]
  rcases hq : pre ++ post with _ | ⟨a, _ | ⟨b, _ | ⟨c, _ | ⟨d, r⟩⟩⟩⟩ <;> rw [hq] at hn <;> simp at hn <;> rfl

/-- `-l` lists the modes of the last `-d`, whatever files there are. -/
theorem C101_list (w : World) (pre : List Text) (ws : List Word) (post : List Text) (hw : ∀ x ∈ ws, x.Ok) (h1 : ∀ f ∈ pre, File f) (h2 : ∀ f ∈ post, File f)
    (hl : .flag 'l' ∈ ws.flatMap Word.opts) : run w (pre ++ ws.flatMap Word.text ++ post) = .list (lastArg 'd' (ws.flatMap Word.opts)) := by
  rw [run_files w pre ws post hw h1 h2, if_pos (by simpa [meaning] using hl)]
  rfl

theorem stop_word (ws : List Word) (hw : ∀ x ∈ ws, x.Ok) (flags : Text) (hfl : ∀ c ∈ flags, c ∈ t!"suanHlz") (c : Char) (cs : Text) (r : List Text) (res : Result)
    (hd : c ≠ '-' ∨ flags ≠ [] ∨ cs ≠ []) (hc : ∀ v, letters (c :: cs) v = .stop res) :
    options (ws.flatMap Word.text ++ ('-' :: (flags ++ c :: cs)) :: r) {} = .inl res := by
  rw [options_meaning ws hw]
  have hne : '-' :: (flags ++ c :: cs) ≠ t!"--" := by
    intro e
    cases flags with
    | nil => simp at e; rcases hd with h | h | h; exact h e.1; exact h rfl; exact h e.2
    | cons x xs => simp at e
  have hl := letters_flags flags (c :: cs) (meaning (ws.flatMap Word.opts)) hfl
  rw [hc] at hl
  generalize flags ++ c :: cs = l at hl hne
  cases l with
  | nil => simp [letters] at hl
  | cons a b => rw [options, if_neg hne]; simp only [hl]

theorem run_stop (w : World) (pre : List Text) (h1 : ∀ f ∈ pre, File f) (ws : List Word) (hw : ∀ x ∈ ws, x.Ok) (flags : Text) (hfl : ∀ c ∈ flags, c ∈ t!"suanHlz") (c : Char) (cs : Text) (r : List Text) (res : Result)
    (hd : c ≠ '-' ∨ flags ≠ [] ∨ cs ≠ []) (hc : ∀ v, letters (c :: cs) v = .stop res) :
    run w (pre ++ (ws.flatMap Word.text ++ ('-' :: (flags ++ c :: cs)) :: r)) = res := by
  have hs := split_files pre h1 (ws.flatMap Word.text ++ ('-' :: (flags ++ c :: cs)) :: r) (by
    intro a ha
    cases ws with
    | nil => simp at ha; subst ha; simp [File]
    | cons x ws =>
      obtain ⟨t, q, ht⟩ := word_head x
      rw [List.flatMap_cons, ht] at ha
      simp at ha
      subst ha
      simp [File])
  unfold run
  rw [hs.2, stop_word ws hw flags hfl c cs r res hd hc]

/-- An option that is not known, `-h` too, gives the usage message, whatever comes after it. -/
theorem C101_unknown (w : World) (pre : List Text) (h1 : ∀ f ∈ pre, File f) (ws : List Word) (hw : ∀ x ∈ ws, x.Ok) (flags : Text) (hfl : ∀ c ∈ flags, c ∈ t!"suanHlz") (c : Char) (cs : Text) (r : List Text)
    (hd : c ≠ '-' ∨ flags ≠ [] ∨ cs ≠ []) (hc : c ∉ t!"suanHlzfdmoV") : run w (pre ++ (ws.flatMap Word.text ++ ('-' :: (flags ++ c :: cs)) :: r)) = .usage := by
  refine run_stop w pre h1 ws hw flags hfl c cs r _ hd ?_
  intro v
  simp only [List.mem_cons, List.not_mem_nil, or_false, not_or] at hc
  obtain ⟨a1, a2, a3, a4, a5, a6, a7, a8, a9, a10, a11, a12⟩ := hc
  have hwa : ¬withArg c := by rintro (h | h | h | h) <;> contradiction
  rw [letters, if_neg hwa, if_neg a1, if_neg a2, if_neg a4, if_neg a5, if_neg a3, if_neg a6, if_neg a12, if_neg a7]

/-- `-V` gives the version, if there is nothing wrong before it. -/
theorem C101_version (w : World) (pre : List Text) (h1 : ∀ f ∈ pre, File f) (ws : List Word) (hw : ∀ x ∈ ws, x.Ok) (flags : Text) (hfl : ∀ c ∈ flags, c ∈ t!"suanHlz") (cs : Text) (r : List Text) :
    run w (pre ++ (ws.flatMap Word.text ++ ('-' :: (flags ++ 'V' :: cs)) :: r)) = .version := by
  refine run_stop w pre h1 ws hw flags hfl 'V' cs r _ (Or.inl (by decide)) ?_
  intro v
  rw [letters]
  rfl

theorem translate_only (w : World) (v : Vars) (p i : Text) (o : Option Text) (g : Bool) (f opt p' i' : Text) (o' : Option Text) (v' : Vars)
    (h : translate w v p i o = .translate g f opt p' i' o' v') : w.readable i' ∧ w.mode v'.dataDir p' ∧ (v'.tm ≠ [] → w.compiles v'.tmDir v'.tm) := by
  unfold translate at h
  split at h
  · cases h
  · split at h
    · cases h
    · split at h
      · cases h
      · next h1 h2 h3 =>
        cases h
        refine ⟨by simpa using h1, by simpa using h3, fun q => ?_⟩
        exact Classical.byContradiction fun hq => h2 ⟨q, hq⟩

theorem letters_end (cs : Text) (v : Vars) (r : Result) (h : letters cs v = .stop r) : r = .usage ∨ r = .version := by
  induction cs generalizing v with
  | nil => cases h
  | cons c cs ih =>
    rw [letters] at h
    repeat' split at h
    all_goals first
      | exact ih _ h
      | (cases h; exact Or.inl rfl)
      | (cases h; exact Or.inr rfl)
      | cases h

theorem options_end (args : List Text) (v : Vars) (r : Result) (h : options args v = .inl r) : r = .usage ∨ r = .version := by
  have key : ∀ n (args : List Text) (v : Vars), args.length ≤ n → options args v = .inl r → r = .usage ∨ r = .version := by
    intro n
    induction n with
    | zero => intro args v hn h; cases args with
      | nil => rw [options] at h; cases h
      | cons a t => simp at hn
    | succ n ih =>
      intro args v hn h
      cases args with
      | nil => rw [options] at h; cases h
      | cons a t =>
        simp at hn
        by_cases ha : File a
        · rw [options_file a ha] at h; cases h
        · cases a with
          | nil => simp [File] at ha
          | cons d l =>
            have hd : d = '-' := by simpa [File] using ha
            subst hd
            cases l with
            | nil => simp [options] at h
            | cons c cs =>
              rw [options] at h
              split at h
              · cases h
              · split at h
                · exact ih _ _ hn h
                · next x hx => cases h; exact letters_end _ _ _ hx
                · split at h
                  · cases h; exact Or.inl rfl
                  · simp at hn; exact ih _ _ (by omega) h
  exact key _ args v (Nat.le_refl _) h

/-- Whatever the arguments are: nothing is translated unless the input can be read, the mode is there and the memory, if there is one, could be compiled. -/
theorem C101_only (w : World) (args : List Text) (g : Bool) (f opt p i : Text) (o : Option Text) (v : Vars) (h : run w args = .translate g f opt p i o v) : w.readable i ∧ w.mode v.dataDir p ∧ (v.tm ≠ [] → w.compiles v.tmDir v.tm) := by
  unfold run at h
  split at h
  · next r hr => rcases options_end _ _ r hr with rfl | rfl <;> cases h
  · split at h
    · cases h
    · split at h
      · exact translate_only _ _ _ _ _ _ _ _ _ _ _ _ h
      · exact translate_only _ _ _ _ _ _ _ _ _ _ _ _ h
      · exact translate_only _ _ _ _ _ _ _ _ _ _ _ _ h
      · cases h

/-- A world where everything is there. -/
def all : World := ⟨fun _ => True, fun _ _ => True, fun _ _ => True⟩

/-- The usage message says that the direction of the translation is used for a memory if `-o` is not given; but no direction at all is used, so that this ends with the usage message. -/
theorem C101_direction_violation : ∃ w : World, (∀ f, w.readable f) ∧ (∀ d p, w.mode d p) ∧ (∀ m, w.compiles t!"en-es" m) ∧
    run w [t!"-m", t!"memory.tmx", t!"en-es"] = .usage := by
  refine ⟨⟨fun _ => True, fun d _ => d = t!"en-es", fun _ _ => True⟩, fun _ => trivial, fun _ _ => trivial, fun _ => rfl, ?_⟩
  have := run_files ⟨fun _ => True, fun d _ => d = t!"en-es", fun _ _ => True⟩ [] [⟨[], some ('m', t!"memory.tmx", false)⟩] [t!"en-es"] (by simp [Word.Ok]) (by simp) (by simp [File])
  simp only [List.nil_append, List.flatMap_cons, List.flatMap_nil, List.append_nil, Word.text, List.cons_append] at this
  rw [this]
  simp [meaning, Word.opts, lastArg, onFiles, translate]

/-- With a format that is not known, which is treated as plain text, `-u` has no effect. -/
theorem C101_unknown_format_violation : ∃ v, run all [t!"-u", t!"-f", t!"text", t!"en-es"] = .translate true t!"txt" t!"-g" t!"en-es" t!"/dev/stdin" none v ∧ v.noMarks = true := by
  have := run_files all [] [⟨t!"u", none⟩, ⟨[], some ('f', t!"text", false)⟩] [t!"en-es"] (by simp [Word.Ok]) (by simp) (by simp [File])
  simp only [List.nil_append, List.flatMap_cons, List.flatMap_nil, List.append_nil, Word.text, List.cons_append] at this
  rw [this]
  refine ⟨meaning [.flag 'u', .arg 'f' t!"text"], ?_, by decide⟩
  simp [meaning, Word.opts, lastArg, onFiles, translate, all, formatCase]

/-- An option after files that are after options is taken for a file: the translation is written to a file with the name `-u`. -/
theorem C101_late_option_violation : ∃ v, run all [t!"-z", t!"en-es", t!"in.txt", t!"-u"] = .translate true t!"txt" t!"-g" t!"en-es" t!"in.txt" (some t!"-u") v ∧ v.noMarks = false := by
  have h : options (([t!"-z", t!"en-es", t!"in.txt", t!"-u"] : List Text).dropWhile fun a => a.head? ≠ some '-') {} = .inr (meaning [.flag 'z'], [t!"en-es", t!"in.txt", t!"-u"]) := by decide +kernel
  have h2 : ([t!"-z", t!"en-es", t!"in.txt", t!"-u"] : List Text).takeWhile (fun a => a.head? ≠ some '-') = [] := by decide +kernel
  refine ⟨meaning [.flag 'z'], ?_, by decide⟩
  unfold run
  rw [h, h2]
  simp [meaning, lastArg, translate, all, formatCase]

/-- The hypotheses of the theorems: `en-es -uf html -o es-en -mm.tmx in.html`. -/
example : ∃ ws : List Word, (∀ x ∈ ws, x.Ok) ∧ ws.flatMap Word.text = [t!"-uf", t!"html", t!"-o", t!"es-en", t!"-mm.tmx"] ∧
    (meaning (ws.flatMap Word.opts)).format = t!"html" ∧ (meaning (ws.flatMap Word.opts)).format ∈ formats ∧ (meaning (ws.flatMap Word.opts)).tmDir = t!"es-en" ∧ (meaning (ws.flatMap Word.opts)).noMarks = true ∧ .flag 'l' ∉ ws.flatMap Word.opts := by
  refine ⟨[⟨t!"u", some ('f', t!"html", false)⟩, ⟨[], some ('o', t!"es-en", false)⟩, ⟨[], some ('m', t!"m.tmx", true)⟩], ?_, ?_⟩
  · intro x hx
    simp at hx
    rcases hx with rfl | rfl | rfl <;> simp [Word.Ok]
  · decide +kernel

end Verif.ApertiumCli
