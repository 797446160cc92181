import Verif.Setvar.Model
/-!
# C100: the preferences of the user reach every request, and leave no trace
-/
namespace Verif.Setvar

/-- The requests of a stream with null flush: the texts between the NULs. -/
def requests (s : Text) : List Text := s.splitOn NUL

/-- The stream of these requests. -/
def stream (rs : List Text) : Text := [NUL].intercalate rs

/-- There is no `[<STREAMCMD:SETVAR:…>]` in the text, on one line. -/
def NoCommand (s : Text) : Prop := ∀ a b c : Text, (∀ d ∈ b, d ≠ '>' ∧ d ≠ NUL ∧ d ≠ '\n') → s ≠ a ++ (t!"[<STREAMCMD:SETVAR:" ++ b ++ t!">]") ++ c

/-- A setting that the command can hold. -/
def Plain (v : Text) : Prop := ∀ d ∈ v, d ≠ '>' ∧ d ≠ NUL ∧ d ≠ '\n'

/-! ## wrap -/

def ins (v s : Text) : Text := s.flatMap fun c => if c = NUL then NUL :: cmd v else [c]

theorem NUL_ne_nl : NUL ≠ '\n' := by decide

theorem wrapRecs_false (v s : Text) (hv : isSet v = true) : wrapRecs v false (records s) = ins v s := by
  induction s with
  | nil => rfl
  | cons c t ih =>
    rw [records]
    by_cases hc : c = NUL
    · subst hc
      rw [if_pos (Or.inl rfl)]
      simp only [wrapRecs, wrapRec, ins, List.flatMap_cons, hv, if_true, and_true]
      have := ih
      rw [ins] at this
      rw [this]; simp
    · by_cases hn : c = '\n'
      · subst hn
        rw [if_pos (Or.inr rfl)]
        simp only [wrapRecs, wrapRec, ins, List.flatMap_cons]
        have := ih
        rw [ins] at this
        rw [this]; simp [NUL_ne_nl.symm]
      · rw [if_neg (by simp [hc, hn])]
        have e : ins v (c :: t) = c :: ins v t := by simp [ins, hc]
        rw [e, ← ih]
        cases records t with
        | nil => simp [wrapRecs, wrapRec]
        | cons x xs => simp [wrapRecs, wrapRec]

theorem wrapRecs_true (v : Text) (x : Text × Text) (xs : List (Text × Text)) (hv : isSet v = true) :
    wrapRecs v true (x :: xs) = cmd v ++ wrapRecs v false (x :: xs) := by
  simp [wrapRecs, wrapRec, hv]

theorem records_ne (s : Text) (h : s ≠ []) : records s ≠ [] := by
  cases s with
  | nil => exact absurd rfl h
  | cons c t =>
    rw [records]
    split
    · simp
    · cases records t <;> simp

theorem wrap_eq (v s : Text) (hv : isSet v = true) (hs : s ≠ []) : wrap v s = cmd v ++ ins v s := by
  have h := records_ne s hs
  rw [wrap, ← wrapRecs_false v s hv]
  cases hr : records s with
  | nil => exact absurd hr h
  | cons x xs => exact wrapRecs_true v x xs hv

theorem records_flat (s : Text) : ((records s).flatMap fun x => x.1 ++ x.2) = s := by
  induction s with
  | nil => rfl
  | cons c t ih =>
    rw [records]
    split
    · simp [List.flatMap_cons, ih]
    · cases hr : records t with
      | nil => rw [hr] at ih; simp at ih; simp [← ih]
      | cons x xs => rw [hr] at ih; simp [List.flatMap_cons] at ih ⊢; exact ih

theorem wrapRecs_unset (v : Text) (hv : isSet v = false) (f : Bool) (xs : List (Text × Text)) : wrapRecs v f xs = xs.flatMap fun x => x.1 ++ x.2 := by
  induction xs generalizing f with
  | nil => rfl
  | cons x xs ih => simp [wrapRecs, wrapRec, hv, ih, List.flatMap_cons]

theorem inter_cons_cons (a b : Text) (l : List Text) : [NUL].intercalate (a :: b :: l) = a ++ NUL :: [NUL].intercalate (b :: l) := by
  simp [List.intercalate, List.intersperse]

theorem inter_head (p a : Text) (l : List Text) : [NUL].intercalate ((p ++ a) :: l) = p ++ [NUL].intercalate (a :: l) := by
  cases l with
  | nil => simp [List.intercalate, List.intersperse]
  | cons b l => rw [inter_cons_cons, inter_cons_cons, List.append_assoc]

theorem ins_stream (v : Text) (r : Text) (rs : List Text) (h : ∀ x ∈ r :: rs, NUL ∉ x) :
    cmd v ++ ins v (stream (r :: rs)) = stream ((r :: rs).map (cmd v ++ ·)) := by
  have plain : ∀ x : Text, NUL ∉ x → ∀ y, ins v (x ++ y) = x ++ ins v y := by
    intro x hx y
    induction x with
    | nil => rfl
    | cons c t ih =>
      have hc : c ≠ NUL := fun e => hx (by simp [e])
      have ht : NUL ∉ t := fun e => hx (by simp [e])
      have := ih ht
      simp only [ins, List.cons_append, List.flatMap_cons, if_neg hc] at this ⊢
      rw [this]; rfl
  induction rs generalizing r with
  | nil =>
    have := plain r (h r (by simp)) []
    simp [ins] at this
    simp [stream, List.intercalate, List.intersperse, ins, this]
  | cons b l ih =>
    rw [stream, inter_cons_cons, plain r (h r (by simp))]
    have e : ins v (NUL :: [NUL].intercalate (b :: l)) = NUL :: (cmd v ++ ins v (stream (b :: l))) := by
      simp [ins, stream, List.flatMap_cons]
    rw [e, ih b (fun x hx => h x (by simp at hx ⊢; exact Or.inr hx))]
    simp only [stream, List.map_cons]
    rw [inter_cons_cons, List.append_assoc]

theorem requests_ne (s : Text) : requests s ≠ [] := by
  unfold requests; exact List.splitOn_ne_nil _ _

theorem stream_requests (s : Text) : stream (requests s) = s := List.intercalate_splitOn NUL

theorem requests_nul (s : Text) : ∀ x ∈ requests s, NUL ∉ x := by
  induction s with
  | nil => simp [requests]
  | cons c t ih =>
    unfold requests at *
    rw [List.splitOn_cons_eq_if_modifyHead]
    by_cases hc : c = NUL
    · simp [hc]; simpa using ih
    · rw [if_neg (by simpa using hc)]
      cases hq : t.splitOn NUL with
      | nil => exact absurd hq (List.splitOn_ne_nil _ _)
      | cons a l =>
        rw [hq] at ih
        intro x hx
        simp at hx
        rcases hx with rfl | hx
        · intro hm
          rcases List.mem_cons.1 hm with e | e
          · exact hc e.symm
          · exact ih a (by simp) e
        · exact ih x (by simp [hx])

theorem wrap_stream (v s : Text) (hv : isSet v = true) (hs : s ≠ []) : wrap v s = stream ((requests s).map (cmd v ++ ·)) := by
  rw [wrap_eq v s hv hs]
  have h := requests_nul s
  have e := stream_requests s
  cases hr : requests s with
  | nil => exact absurd hr (requests_ne s)
  | cons a l =>
    rw [hr] at h e
    rw [← ins_stream v a l h, e]

/-- Every request that the programs of the mode are given, the last one included, begins with the settings of the user; nothing else is changed. -/
theorem C100_every_request (v s : Text) (hv : isSet v = true) (hn : NUL ∉ v) (hs : s ≠ []) :
    requests (wrap v s) = (requests s).map fun r => t!"[<STREAMCMD:SETVAR:" ++ v ++ t!">]" ++ r := by
  rw [wrap_stream v s hv hs]
  refine List.splitOn_intercalate _ ?_ (by simp [requests_ne])
  intro l hl
  rcases List.mem_map.1 hl with ⟨r, hr, rfl⟩
  have h1 := requests_nul s r hr
  have h2 : NUL ∉ pre := by decide
  have h3 : NUL ∉ t!">]" := by decide
  simp only [cmd, List.mem_append, not_or]
  exact ⟨⟨⟨h2, hn⟩, h3⟩, h1⟩

/-- Without settings nothing is changed, by either. -/
theorem C100_unset (v s : Text) (hv : isSet v = false) : wrap v s = s ∧ unwrap v s = s := by
  constructor
  · rw [wrap, wrapRecs_unset v hv, records_flat]
  · rw [unwrap]; simp [hv, records_flat]

/-! ## unwrap -/

theorem strip_none (c : Char) (t : Text) (h : matchHere (c :: t) = none) : strip (c :: t) = c :: strip t := by
  rw [strip]
  split
  · next r hr => rw [h] at hr; cases hr
  · rfl

theorem strip_some (s r : Text) (h : matchHere s = some r) : strip s = strip r := by
  cases s with
  | nil => revert h; decide +revert
  | cons c t =>
    rw [strip]
    split
    · next r' hr => rw [h] at hr; cases hr; rfl
    · next hr => rw [h] at hr; cases hr

theorem drop_gt (v r : Text) (hv : ∀ d ∈ v, d ≠ '>') : (v ++ ('>' :: r)).dropWhile (· ≠ '>') = '>' :: r := by
  induction v with
  | nil => simp
  | cons c t ih =>
    have := ih (fun d hd => hv d (by simp [hd]))
    have hc := hv c (by simp)
    simpa [List.dropWhile_cons, hc] using this

theorem matchHere_cmd (v r : Text) (hv : ∀ d ∈ v, d ≠ '>') : matchHere (cmd v ++ r) = some r := by
  have e : cmd v ++ r = pre ++ (v ++ ('>' :: ']' :: r)) := by simp [cmd]
  have h1 : (pre ++ (v ++ ('>' :: ']' :: r))).drop pre.length = v ++ ('>' :: ']' :: r) := List.drop_left
  have h2 : (pre ++ (v ++ ('>' :: ']' :: r))).take pre.length = pre := List.take_left
  rw [e, matchHere, if_pos h2, h1, drop_gt v _ hv]; rfl

theorem strip_cmd (v r : Text) (hv : ∀ d ∈ v, d ≠ '>') : strip (cmd v ++ r) = strip r := strip_some _ _ (matchHere_cmd v r hv)

/-- The text is on one line, and has no NUL. -/
def Line (r : Text) : Prop := ∀ d ∈ r, d ≠ NUL ∧ d ≠ '\n'

theorem takeWhile_mem (p : Char → Bool) (s : Text) : ∀ d ∈ s.takeWhile p, p d = true := by
  induction s with
  | nil => simp
  | cons c t ih =>
    intro d hd
    rw [List.takeWhile_cons] at hd
    split at hd
    · next h =>
      rcases List.mem_cons.1 hd with rfl | hd
      · exact h
      · exact ih d hd
    · cases hd

theorem matchHere_form (s r : Text) (h : matchHere s = some r) : ∃ b, s = pre ++ b ++ t!">]" ++ r ∧ ∀ d ∈ b, d ≠ '>' := by
  unfold matchHere at h
  split at h
  · next hp =>
    split at h
    · next q hd =>
      cases h
      refine ⟨(s.drop pre.length).takeWhile (· ≠ '>'), ?_, ?_⟩
      · have e1 : s = s.take pre.length ++ s.drop pre.length := (List.take_append_drop _ _).symm
        have e2 : s.drop pre.length = (s.drop pre.length).takeWhile (· ≠ '>') ++ (s.drop pre.length).dropWhile (· ≠ '>') := (List.takeWhile_append_dropWhile).symm
        rw [hd] at e2
        rw [hp] at e1
        generalize (s.drop pre.length).takeWhile (· ≠ '>') = b at e2 ⊢
        rw [e2] at e1
        rw [e1]; simp
      · intro d hd
        simpa using takeWhile_mem _ _ d hd
    · cases h
  · cases h

theorem strip_id (r : Text) (hl : Line r) (h : NoCommand r) : strip r = r := by
  induction r with
  | nil => rw [strip]
  | cons c t ih =>
    have hm : matchHere (c :: t) = none := by
      cases hq : matchHere (c :: t) with
      | none => rfl
      | some q =>
        rcases matchHere_form _ _ hq with ⟨b, e, hb⟩
        refine absurd ?_ (h [] b q ?_)
        · simpa [pre] using e
        · intro d hd
          have := hl d (by rw [e]; simp [hd])
          exact ⟨hb d hd, this.1, this.2⟩
    rw [strip_none c t hm, ih (fun d hd => hl d (by simp [hd]))]
    intro a b q hb e
    exact h (c :: a) b q hb (by rw [e]; rfl)

theorem by_lines (P : Text → Prop) (h1 : ∀ r, Line r → P r) (h2 : ∀ r e x, Line r → (e = NUL ∨ e = '\n') → P x → P (r ++ e :: x)) (s : Text) : P s := by
  have key : ∀ s, ∀ r, Line r → P (r ++ s) := by
    intro s
    induction s with
    | nil => intro r hr; simpa using h1 r hr
    | cons c t ih =>
      intro r hr
      by_cases hc : c = NUL ∨ c = '\n'
      · exact h2 r c t hr hc (by simpa using ih [] (by simp [Line]))
      · have : r ++ c :: t = (r ++ [c]) ++ t := by simp
        rw [this]
        refine ih _ ?_
        intro d hd
        simp at hd
        rcases hd with hd | rfl
        · exact hr d hd
        · simpa using hc
  simpa using key s [] (by simp [Line])

theorem records_line (r : Text) (hr : Line r) : records r = if r = [] then [] else [(r, [])] := by
  induction r with
  | nil => rfl
  | cons c t ih =>
    have hc := hr c (by simp)
    have := ih (fun d hd => hr d (by simp [hd]))
    rw [records, if_neg (by simp [hc]), this]
    cases t <;> simp

theorem records_sep (r : Text) (e : Char) (x : Text) (hr : Line r) (he : e = NUL ∨ e = '\n') : records (r ++ e :: x) = (r, [e]) :: records x := by
  induction r with
  | nil => rw [List.nil_append, records, if_pos he]
  | cons c t ih =>
    have hc := hr c (by simp)
    have := ih (fun d hd => hr d (by simp [hd]))
    rw [List.cons_append, records, if_neg (by simp [hc]), this]

theorem unwrap_line (v r : Text) (hv : isSet v = true) (hr : Line r) : unwrap v r = strip r := by
  rw [unwrap, records_line r hr]
  by_cases h : r = []
  · subst h; rw [strip]; rfl
  · rw [if_neg h]; simp [hv]

theorem unwrap_sep (v r : Text) (e : Char) (x : Text) (hv : isSet v = true) (hr : Line r) (he : e = NUL ∨ e = '\n') :
    unwrap v (r ++ e :: x) = strip r ++ e :: unwrap v x := by
  rw [unwrap, records_sep r e x hr he]
  simp [hv, unwrap]

theorem cmd_line (v : Text) (hv : Plain v) : Line (cmd v) := by
  intro d hd
  have h1 : ∀ d ∈ pre, d ≠ NUL ∧ d ≠ '\n' := by decide
  have h2 : ∀ d ∈ t!">]", d ≠ NUL ∧ d ≠ '\n' := by decide
  simp only [cmd, List.mem_append] at hd
  rcases hd with (hd | hd) | hd
  · exact h1 d hd
  · exact (hv d hd).2
  · exact h2 d hd

theorem unwrap_cmd (v s : Text) (hv : isSet v = true) (hp : Plain v) : unwrap v (cmd v ++ s) = unwrap v s := by
  have hg : ∀ d ∈ v, d ≠ '>' := fun d hd => (hp d hd).1
  have hc := cmd_line v hp
  have app : ∀ r, Line r → Line (cmd v ++ r) := by
    intro r hr d hd
    rcases List.mem_append.1 hd with h | h
    · exact hc d h
    · exact hr d h
  refine by_lines (fun s => unwrap v (cmd v ++ s) = unwrap v s) ?_ ?_ s
  · intro r hr
    show unwrap v (cmd v ++ r) = unwrap v r
    rw [unwrap_line v _ hv (app r hr), unwrap_line v r hv hr, strip_cmd v r hg]
  · intro r e x hr he _
    show unwrap v (cmd v ++ (r ++ e :: x)) = unwrap v (r ++ e :: x)
    rw [← List.append_assoc, unwrap_sep v _ e x hv (app r hr) he, unwrap_sep v r e x hv hr he, strip_cmd v r hg]

theorem unwrap_ins (v s : Text) (hv : isSet v = true) (hp : Plain v) : unwrap v (ins v s) = unwrap v s := by
  have insl : ∀ r, Line r → ∀ y, ins v (r ++ y) = r ++ ins v y := by
    intro r hr y
    induction r with
    | nil => rfl
    | cons c t ih =>
      have := ih (fun d hd => hr d (by simp [hd]))
      simp only [ins, List.cons_append, List.flatMap_cons, if_neg (hr c (by simp)).1] at this ⊢
      rw [this]; rfl
  refine by_lines (fun s => unwrap v (ins v s) = unwrap v s) ?_ ?_ s
  · intro r hr
    have := insl r hr []
    simp [ins] at this
    show unwrap v (ins v r) = _
    rw [show ins v r = r by simpa [ins] using this]
  · intro r e x hr he ih
    show unwrap v (ins v (r ++ e :: x)) = _
    rw [insl r hr, unwrap_sep v r e x hv hr he, ← ih]
    rcases he with rfl | rfl
    · rw [show ins v (NUL :: x) = NUL :: (cmd v ++ ins v x) by simp [ins], unwrap_sep v r _ _ hv hr (Or.inl rfl), unwrap_cmd v _ hv hp]
    · rw [show ins v ('\n' :: x) = '\n' :: ins v x by simp [ins, NUL_ne_nl.symm], unwrap_sep v r _ _ hv hr (Or.inr rfl)]

theorem unwrap_wrap (v s : Text) (hv : isSet v = true) (hp : Plain v) : unwrap v (wrap v s) = unwrap v s := by
  by_cases hs : s = []
  · subst hs; rfl
  · rw [wrap_eq v s hv hs, unwrap_cmd v _ hv hp, unwrap_ins v s hv hp]

theorem unwrap_id (v s : Text) (h : NoCommand s) : unwrap v s = s := by
  cases hv : isSet v with
  | false => exact (C100_unset v s hv).2
  | true =>
    revert h
    refine by_lines (fun s => NoCommand s → unwrap v s = s) ?_ ?_ s
    · intro r hr h
      rw [unwrap_line v r hv hr, strip_id r hr h]
    · intro r e x hr he ih h
      have h1 : NoCommand r := fun a b c hb q => h a b (c ++ e :: x) hb (by rw [q]; simp)
      have h2 : NoCommand x := fun a b c hb q => h (r ++ e :: a) b c hb (by rw [q]; simp)
      rw [unwrap_sep v r e x hv hr he, strip_id r hr h1, ih h2]

/-- A mode that changes nothing gives back the text of the user: the commands that were put in leave no trace. -/
theorem C100_no_trace_partial (v s : Text) (hp : Plain v) (h : NoCommand s) : unwrap v (wrap v s) = s := by
  cases hv : isSet v with
  | false => rw [(C100_unset v s hv).1, (C100_unset v s hv).2]
  | true => rw [unwrap_wrap v s hv hp, unwrap_id v s h]

/-- A mode that answers the requests one by one, and leaves the command where it is: the user gets the answers to the requests. -/
theorem C100_mode_partial (v s : Text) (mode : Text → Text) (f : Text → Text) (hv : isSet v = true) (hp : Plain v) (hs : s ≠ [])
    (hm : ∀ rs : List Text, (∀ r ∈ rs, NUL ∉ r) → mode (stream (rs.map fun r => cmd v ++ r)) = stream (rs.map fun r => cmd v ++ f r))
    (hf : ∀ r, NUL ∉ f r) (hc : NoCommand (stream ((requests s).map f))) :
    unwrap v (mode (wrap v s)) = stream ((requests s).map f) := by
  rw [wrap_stream v s hv hs, hm _ (requests_nul s)]
  cases hr : requests s with
  | nil => exact absurd hr (requests_ne s)
  | cons a l =>
    rw [hr] at hc
    have e := ins_stream v (f a) (l.map f) (by
      intro x hx
      rcases List.mem_cons.1 hx with rfl | hx
      · exact hf a
      · rcases List.mem_map.1 hx with ⟨y, _, rfl⟩; exact hf y)
    have e' : ((a :: l).map fun r => cmd v ++ f r) = (f a :: l.map f).map (cmd v ++ ·) := by simp [Function.comp_def]
    rw [e', ← e, unwrap_cmd v _ hv hp, unwrap_ins v _ hv hp]
    exact unwrap_id v _ hc

/-- A setting with a `>` is not taken out again: the user gets it in the translation. -/
theorem C100_greater_violation : ∃ v s : Text, NoCommand s ∧ unwrap v (wrap v s) ≠ s := by
  refine ⟨t!"a>b", t!"x", ?_, ?_⟩
  · intro a b c _ e
    have := congrArg List.length e
    simp at this
    omega
  · have e : wrap t!"a>b" t!"x" = t!"[<STREAMCMD:SETVAR:a>b>]x" := by decide +kernel
    rw [e, unwrap_line _ _ (by decide) (by unfold Line; decide)]
    have : ∀ s : Text, (∀ k < s.length, matchHere (s.drop k) = none) → strip s = s := by
      intro s
      induction s with
      | nil => intro _; rw [strip]
      | cons c t ih =>
        intro h
        rw [strip_none c t (h 0 (by simp)), ih (fun k hk => by simpa using h (k + 1) (by simpa using hk))]
    rw [this _ (by decide +kernel)]
    decide

/-- A command of the user's own, meant for the programs of the mode, is taken out of the text too, but only if there are settings. -/
theorem C100_own_command_violation : ∃ v s : Text, Plain v ∧ unwrap v (wrap v s) ≠ s ∧ unwrap [] (wrap [] s) = s := by
  refine ⟨t!"a", t!"[<STREAMCMD:SETVAR:b>]", by unfold Plain; decide, ?_, ?_⟩
  · rw [unwrap_wrap _ _ (by decide) (by unfold Plain; decide)]
    have := unwrap_cmd t!"b" [] (by decide) (by unfold Plain; decide)
    have e : unwrap t!"a" t!"[<STREAMCMD:SETVAR:b>]" = unwrap t!"b" (cmd t!"b" ++ []) := by
      simp [unwrap, isSet, cmd, pre]
    rw [e, this]
    decide
  · rw [(C100_unset _ _ (by decide)).1, (C100_unset _ _ (by decide)).2]

end Verif.Setvar
