import Verif.TransferCli.Spec
/-!
# C99: proofs
-/
namespace Verif.TransferCli

theorem has_cons (a : Arg) (r : List Arg) (c : Char) : Has (a :: r) c ↔ a.val.1 = c ∨ Has r c := by simp [Has]

/-- The settings after some more options. -/
def after (s : Settings) (args : List Arg) : Settings :=
  { pre := s.pre || decide (Has args 'b'), bil := s.bil && decide (¬ Has args 'b' ∧ ¬ Has args 'n'), case := s.case || decide (Has args 'c'), dict := s.dict || decide (Has args 'w'),
    trace := s.trace || decide (Has args 't' ∨ Has args 'T'), att := s.att || decide (Has args 'T'), flush := s.flush || decide (Has args 'z') }

theorem readOpts_known (args : List Arg) (h : Known args) : ∀ s, readOpts args s = ((dictionaries args).map Act.ext, some (after s args)) := by
  induction args with
  | nil => intro s; simp [readOpts, dictionaries, after, Has]
  | cons a r ih =>
    intro s
    have ih := ih fun b hb => h b (by simp [hb])
    have ha := h a (by simp)
    simp only [List.mem_cons, List.not_mem_nil, or_false] at ha
    rw [readOpts]
    rcases ha with e | e | e | e | e | e | e | e <;>
      simp [e, ih, dictionaries, after, has_cons]

/-- What the options do. -/
theorem C99_options (args : List Arg) (h : Known args) : readOpts args settings0 = ((dictionaries args).map Act.ext, some (meaning args)) := by
  rw [readOpts_known args h]
  simp [after, settings0, meaning]

/-- With the files that the usage message asks for: the user dictionaries are loaded, output and input are opened, the files are read, and the text is translated with the
settings that the options mean, in whatever order they come. -/
theorem C99_usage (args : List Arg) (h : Known args) (f : Files) (hf : f.Right args) :
    plan args f.written = (dictionaries args).map Act.ext ++ f.output.toList.map Act.output ++ f.input.toList.map Act.input ++
      f.biltrans.toList.map Act.stat ++ [.stat f.preproc, .stat f.trules, .read f.trules f.preproc f.biltrans, .transfer (meaning args)] := by
  obtain ⟨t, p, b, i, o⟩ := f
  obtain ⟨h1, h2⟩ := hf
  simp only [] at h1 h2
  unfold plan
  rw [C99_options args h]
  have hb : ((meaning args).bil = false ∨ (meaning args).pre = true) ↔ (Has args 'b' ∨ Has args 'n') := by
    simp only [meaning, decide_eq_false_iff_not, decide_eq_true_eq]
    by_cases x : Has args 'b' <;> by_cases y : Has args 'n' <;> simp [x, y]
  have hb' := hb.trans h1.symm
  cases b with
  | none =>
    have c := hb'.2 rfl
    cases i with
    | none => simp [Files.written, h2 rfl, files, if_pos c]
    | some i => cases o with
      | none => simp [Files.written, files, if_pos c]
      | some o => simp [Files.written, files, if_pos c]
  | some b =>
    have c : ¬ ((meaning args).bil = false ∨ (meaning args).pre = true) := fun c => by simpa using hb'.1 c
    cases i with
    | none => simp [Files.written, h2 rfl, files, if_neg c]
    | some i => cases o with
      | none => simp [Files.written, files, if_neg c]
      | some o => simp [Files.written, files]

/-- The order of the options makes no difference for the settings. -/
theorem C99_order (a b : List Arg) (h : a.Perm b) : meaning a = meaning b := by
  have : ∀ c, Has a c ↔ Has b c := fun c => by simp only [Has, h.mem_iff]
  simp [meaning, this]

/-- The first option that is `-h` or not known ends the program with the usage message. -/
theorem C99_help (args rest : List Arg) (h : Known args) (x : Arg) (hx : x.val.1 ∉ ['b', 'n', 'x', 'c', 'w', 't', 'T', 'z']) (fs : List Text) :
    plan (args ++ x :: rest) fs = (dictionaries args).map Act.ext ++ [.help] := by
  have main : ∀ s, readOpts (args ++ x :: rest) s = ((dictionaries args).map Act.ext ++ [.help], none) := by
    induction args with
    | nil =>
      intro s
      simp only [List.mem_cons, List.not_mem_nil, or_false, not_or] at hx
      obtain ⟨h1, h2, h3, h4, h5, h6, h7, h8⟩ := hx
      simp [readOpts, dictionaries, h1, h2, h3, h4, h5, h6, h7, h8]
    | cons a r ih =>
      intro s
      have ih := ih fun b hb => h b (by simp [hb])
      have ha := h a (by simp)
      simp only [List.mem_cons, List.not_mem_nil, or_false] at ha
      rw [List.cons_append, readOpts]
      rcases ha with e | e | e | e | e | e | e | e <;> simp [e, ih, dictionaries]
  unfold plan
  rw [main]

/-- Files that are too few or too many end it with the usage message, but for five files with `-b` or `-n`. -/
theorem C99_count_partial (args : List Arg) (h : Known args) (fs : List Text) (hn : fs.length < 2 ∨ 5 < fs.length ∨ (fs.length = 2 ∧ ¬ Has args 'b' ∧ ¬ Has args 'n')) :
    plan args fs = (dictionaries args).map Act.ext ++ [.help] := by
  unfold plan
  rw [C99_options args h]
  simp only []
  congr 1
  match fs with
  | [] => rfl
  | [_] => rfl
  | [f1, f2] =>
    have : ¬ Has args 'b' ∧ ¬ Has args 'n' := by simpa using hn
    have c : ¬ ((meaning args).bil = false ∨ (meaning args).pre = true) := by simp [meaning, this]
    simp only [files, if_neg c]
  | [_, _, _] => simp at hn
  | [_, _, _, _] => simp at hn
  | [_, _, _, _, _] => simp at hn
  | _ :: _ :: _ :: _ :: _ :: _ :: _ => rfl

/-- Five files are taken for those of a translation with a bilingual dictionary, although the options say that there is none. -/
theorem C99_extra_violation (t p b i o : Text) : plan [.short 'n'] [t, p, b, i, o] =
    [.output o, .input i, .stat b, .stat p, .stat t, .read t p (some b), .transfer (meaning [.short 'n'])] := by
  unfold plan
  rw [C99_options _ (by unfold Known; decide)]
  rfl

/-- Nothing is translated unless everything before succeeded. -/
theorem C99_all (can : Act → Bool) (args : List Arg) (h : Known args) (f : Files) (hf : f.Right args) (s : Settings) (hs : Act.transfer s ∈ run can args f.written) :
    s = meaning args ∧ ∀ x ∈ plan args f.written, can x = true := by
  unfold run at hs
  rw [C99_usage args h f hf] at hs ⊢
  have main : ∀ l : List Act, (∀ x ∈ l, ∀ s, x ≠ Act.transfer s) → Act.transfer s ∈ (l ++ [Act.transfer (meaning args)]).takeWhile can →
      s = meaning args ∧ ∀ x ∈ l ++ [Act.transfer (meaning args)], can x = true := by
    intro l
    induction l with
    | nil =>
      intro _ hm
      rw [List.nil_append] at hm ⊢
      by_cases hc : can (Act.transfer (meaning args)) = true
      · rw [List.takeWhile_cons_of_pos hc] at hm
        simp only [List.takeWhile_nil, List.mem_singleton, Act.transfer.injEq] at hm
        exact ⟨hm, by simpa using hc⟩
      · rw [List.takeWhile_cons_of_neg hc] at hm
        simp at hm
    | cons y l ih =>
      intro hl hm
      rw [List.cons_append] at hm ⊢
      by_cases hc : can y = true
      · rw [List.takeWhile_cons_of_pos hc] at hm
        rcases List.mem_cons.1 hm with e | hm
        · exact absurd e.symm (hl y (by simp) s)
        · obtain ⟨g1, g2⟩ := ih (fun x hx => hl x (by simp [hx])) hm
          refine ⟨g1, fun x hx => ?_⟩
          rcases List.mem_cons.1 hx with rfl | hx
          · exact hc
          · exact g2 x hx
      · rw [List.takeWhile_cons_of_neg hc] at hm
        simp at hm
  have e : (dictionaries args).map Act.ext ++ f.output.toList.map Act.output ++ f.input.toList.map Act.input ++
      f.biltrans.toList.map Act.stat ++ [.stat f.preproc, .stat f.trules, .read f.trules f.preproc f.biltrans, .transfer (meaning args)] =
      ((dictionaries args).map Act.ext ++ f.output.toList.map Act.output ++ f.input.toList.map Act.input ++
      f.biltrans.toList.map Act.stat ++ [.stat f.preproc, .stat f.trules, .read f.trules f.preproc f.biltrans]) ++ [Act.transfer (meaning args)] := by simp
  rw [e] at hs ⊢
  refine main _ ?_ hs
  intro x hx s
  simp only [List.mem_append, List.mem_map, List.mem_cons, List.not_mem_nil, or_false] at hx
  rcases hx with (((⟨_, _, rfl⟩ | ⟨_, _, rfl⟩) | ⟨_, _, rfl⟩) | ⟨_, _, rfl⟩) | rfl | rfl | rfl <;> simp

/-- The output is opened, and what was in it is lost, before the input and the other files are known to be there. -/
theorem C99_output_violation (args : List Arg) (h : Known args) (hx : ¬ Has args 'x') (f : Files) (hf : f.Right args) (i o : Text) (hi : f.input = some i) (ho : f.output = some o)
    (can : Act → Bool) (c1 : can (.output o) = true) (c2 : can (.input i) = false) : run can args f.written = [.output o] := by
  have hd : dictionaries args = [] := by
    unfold dictionaries
    rw [List.filter_eq_nil_iff.2 (fun a ha e => hx ⟨a, ha, by simpa using e⟩)]
    rfl
  unfold run
  rw [C99_usage args h f hf, hd, hi, ho]
  simp [c1, c2]

/-! ## Cases -/

/-- `apertium-transfer -t --no-bilingual -x user.bin rules.t1x rules.bin in.txt out.txt` -/
def exArgs : List Arg := [.short 't', .long t!"no-bilingual", .short 'x' t!"user.bin"]
def exFiles : Files := ⟨t!"rules.t1x", t!"rules.bin", none, some t!"in.txt", some t!"out.txt"⟩

theorem ex_known : Known exArgs := by unfold Known; decide
theorem ex_right : exFiles.Right exArgs := ⟨by simp [exFiles]; decide, by simp [exFiles]⟩

example := C99_usage exArgs ex_known exFiles ex_right
example : plan exArgs exFiles.written = [.ext t!"user.bin", .output t!"out.txt", .input t!"in.txt", .stat t!"rules.bin", .stat t!"rules.t1x", .read t!"rules.t1x" t!"rules.bin" none,
    .transfer ⟨false, false, false, false, true, false, false⟩] := by decide
example := C99_all (fun _ => true) exArgs ex_known exFiles ex_right (meaning exArgs) (by decide)
example := C99_help exArgs [] ex_known (.short 'h') (by decide) [t!"a"]
example := C99_output_violation [.short 'b'] (by unfold Known; decide) (by decide) ⟨t!"t", t!"p", none, some t!"i", some t!"o"⟩ ⟨by simp; decide, by simp⟩ t!"i" t!"o" rfl rfl
  (fun a => decide (a ≠ .input t!"i")) (by decide) (by decide)

end Verif.TransferCli
