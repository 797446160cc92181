import Verif.Setvar.Props
/-!
# C100: negated preferences become the other options
-/
namespace Verif.Setvar

/-- A preference as the user means it. -/
inductive Pref where
  /-- `key` -/
  | on (key : Text)
  /-- `key=value` -/
  | is (key value : Text)
  /-- `key=-a:b`: all the options but these -/
  | but (key a : Text) (more : List Text)
  deriving DecidableEq

def Pref.key : Pref → Text
  | .on k => k
  | .is k _ => k
  | .but k _ _ => k

/-- How it is written. -/
def Pref.text : Pref → Text
  | .on k => k
  | .is k v => k ++ t!"=" ++ v
  | .but k a m => k ++ t!"=-" ++ [':'].intercalate (a :: m)

/-- It can be written: nothing in it is taken for the punctuation. -/
def Pref.Ok : Pref → Prop
  | .on k => k ≠ [] ∧ ∀ d ∈ k, d ≠ ',' ∧ d ≠ '='
  | .is k v => (k ≠ [] ∧ ∀ d ∈ k, d ≠ ',' ∧ d ≠ '=') ∧ v ≠ [] ∧ v.head? ≠ some '-' ∧ v.getLast? ≠ some '=' ∧ ',' ∉ v
  | .but k a m => (k ≠ [] ∧ ∀ d ∈ k, d ≠ ',' ∧ d ≠ '=') ∧ a ≠ [] ∧ ∀ x ∈ a :: m, ∀ d ∈ x, d ≠ ',' ∧ d ≠ ':' ∧ d ≠ '='

/-- What the programs are told: the other options, in the order of the file of preferences. -/
def Pref.positive (opts : Text → List Text) : Pref → Text
  | .on k => k
  | .is k v => k ++ t!"=" ++ v
  | .but k a m => k ++ t!"=" ++ [':'].intercalate ((opts k).filter fun o => decide (o ∉ a :: m))

/-- A list of preferences. -/
def prefsText (l : List Text) : Text := [','].intercalate l

theorem inter_two (c : Char) (a b : Text) (l : List Text) : [c].intercalate (a :: b :: l) = a ++ c :: [c].intercalate (b :: l) := by
  simp [List.intercalate, List.intersperse]

theorem inter_snoc (c : Char) (x : Text) (l : List Text) : [c].intercalate (l ++ [x]) = (if l = [] then [] else [c].intercalate l ++ [c]) ++ x := by
  induction l with
  | nil => simp [List.intercalate, List.intersperse]
  | cons a l ih =>
    cases l with
    | nil => simp [List.intercalate, List.intersperse]
    | cons b l =>
      rw [List.cons_append, List.cons_append, inter_two, inter_two]
      rw [List.cons_append] at ih
      rw [ih]; simp

theorem inter_ne (c : Char) (l : List Text) (h : ∀ x ∈ l, x ≠ []) : [c].intercalate l = [] ↔ l = [] := by
  cases l with
  | nil => simp [List.intercalate, List.intersperse]
  | cons a l =>
    have ha := h a (by simp)
    cases l with
    | nil => simpa [List.intercalate, List.intersperse] using ha
    | cons b l => rw [inter_two]; simp

theorem keep_eq (skip : List Text) (done ids : List Text) (h : ∀ x ∈ ids, x ≠ []) (hd : ∀ x ∈ done, x ≠ []) :
    keep skip ([':'].intercalate done) ids = [':'].intercalate (done ++ ids.filter fun o => decide (o ∉ skip)) := by
  induction ids generalizing done with
  | nil => simp [keep]
  | cons x xs ih =>
    have hx := h x (by simp)
    have hxs : ∀ y ∈ xs, y ≠ [] := fun y hy => h y (by simp [hy])
    rw [keep]
    by_cases hm : x ∈ skip
    · rw [if_pos hm, ih done hxs hd]; simp [hm]
    · rw [if_neg hm]
      have e : (if [':'].intercalate done = [] then [] else [':'].intercalate done ++ [':']) ++ x = [':'].intercalate (done ++ [x]) := by
        rw [inter_snoc]
        by_cases hq : done = []
        · simp [hq, List.intercalate, List.intersperse]
        · rw [if_neg (fun q => hq ((inter_ne ':' done hd).1 q)), if_neg hq]
      rw [e, ih _ hxs (by intro y hy; rcases List.mem_append.1 hy with hy | hy; exact hd y hy; simp at hy; rw [hy]; exact hx)]
      simp [hm]

theorem invert_eq (ids : List Text) (a : Text) (m : List Text) (ha : a ≠ []) (hc : ∀ x ∈ a :: m, ':' ∉ x) (h : ∀ x ∈ ids, x ≠ []) :
    invertSetvar ids ([':'].intercalate (a :: m)) = [':'].intercalate (ids.filter fun o => decide (o ∉ a :: m)) := by
  have hn : [':'].intercalate (a :: m) ≠ [] := by
    cases m with
    | nil => simpa [List.intercalate, List.intersperse] using ha
    | cons b m => rw [inter_two]; simp
  have := keep_eq (a :: m) [] ids h (by simp)
  rw [invertSetvar, fields, if_neg hn, List.splitOn_intercalate ':' hc (by simp)]
  simpa [List.intercalate, List.intersperse] using this

theorem take_key (k r : Text) (hk : ∀ d ∈ k, d ≠ ',' ∧ d ≠ '=') : (k ++ '=' :: r).takeWhile (· ≠ '=') = k ∧ (k ++ '=' :: r).dropWhile (· ≠ '=') = '=' :: r := by
  induction k with
  | nil => simp
  | cons c t ih =>
    have := ih (fun d hd => hk d (by simp [hd]))
    have hc := (hk c (by simp)).2
    simpa [List.takeWhile_cons, List.dropWhile_cons, hc] using this

theorem take_all (k : Text) (hk : ∀ d ∈ k, d ≠ ',' ∧ d ≠ '=') : k.takeWhile (· ≠ '=') = k ∧ k.dropWhile (· ≠ '=') = [] := by
  induction k with
  | nil => simp
  | cons c t ih =>
    have := ih (fun d hd => hk d (by simp [hd]))
    have hc := (hk c (by simp)).2
    simpa [List.takeWhile_cons, List.dropWhile_cons, hc] using this

theorem inter_mem (c : Char) (l : List Text) (d : Char) (h : d ∈ [c].intercalate l) : d = c ∨ ∃ x ∈ l, d ∈ x := by
  induction l with
  | nil => simp [List.intercalate, List.intersperse] at h
  | cons a l ih =>
    cases l with
    | nil => exact Or.inr ⟨a, by simp, by simpa [List.intercalate, List.intersperse] using h⟩
    | cons b l =>
      rw [inter_two] at h
      rcases List.mem_append.1 h with h | h
      · exact Or.inr ⟨a, by simp, h⟩
      · rcases List.mem_cons.1 h with h | h
        · exact Or.inl h
        · rcases ih h with h | ⟨x, hx, h⟩
          · exact Or.inl h
          · exact Or.inr ⟨x, by simp at hx ⊢; exact Or.inr hx, h⟩

theorem item_eq (opts : Text → List Text) (p : Pref) (hp : p.Ok) (ho : ∀ x ∈ opts p.key, x ≠ []) :
    (readItem p.text).1 = p.key ∧ p.key ≠ [] ∧ (readItem p.text).1 ++ valueOf opts (readItem p.text).1 (readItem p.text).2 = p.positive opts := by
  cases p with
  | on k =>
    have h := take_all k hp.2
    refine ⟨h.1, hp.1, ?_⟩
    simp only [readItem, Pref.text, h.1, h.2, Pref.positive]
    simp [lastVar, valueOf]
  | is k v =>
    obtain ⟨⟨h1, h2⟩, h3, h4, h5, h6⟩ := hp
    have h := take_key k v h2
    have e : k ++ t!"=" ++ v = k ++ '=' :: v := by simp
    refine ⟨by simp only [readItem, Pref.text, e, h.1, Pref.key], h1, ?_⟩
    simp only [readItem, Pref.text, e, h.1, h.2, Pref.positive, List.drop_succ_cons, List.drop_zero]
    have hl : lastVar v = v := by rw [lastVar, if_neg (fun q => h5 q.1)]
    rw [hl]
    congr 1
    cases v with
    | nil => exact absurd rfl h3
    | cons c t =>
      have hc : c ≠ '-' := by simpa using h4
      rw [valueOf]
      · simp
      · intro q hq; cases hq; exact hc rfl
  | but k a m =>
    obtain ⟨⟨h1, h2⟩, h3, h4⟩ := hp
    have h := take_key k ('-' :: [':'].intercalate (a :: m)) h2
    have e : k ++ t!"=-" ++ [':'].intercalate (a :: m) = k ++ '=' :: '-' :: [':'].intercalate (a :: m) := by simp
    refine ⟨by simp only [readItem, Pref.text, e, h.1, Pref.key], h1, ?_⟩
    simp only [readItem, Pref.text, e, h.1, h.2, Pref.positive, List.drop_succ_cons, List.drop_zero]
    have hne : '=' ∉ '-' :: [':'].intercalate (a :: m) := by
      intro q
      rcases List.mem_cons.1 q with q | q
      · exact absurd q (by decide)
      · rcases inter_mem _ _ _ q with q | ⟨x, hx, q⟩
        · exact absurd q (by decide)
        · exact (h4 x hx _ q).2.2 rfl
    have hl : lastVar ('-' :: [':'].intercalate (a :: m)) = '-' :: [':'].intercalate (a :: m) := by
      rw [lastVar, if_neg]
      rintro ⟨q, _⟩
      exact hne (List.mem_of_getLast? q)
    rw [hl, valueOf, invert_eq (opts k) _ _ h3 (fun x hx q => (h4 x hx _ q).2.1 rfl) ho]
    simp

theorem positive_ne (opts : Text → List Text) (p : Pref) (h : p.key ≠ []) : p.positive opts ≠ [] := by
  cases p <;> simp_all [Pref.key, Pref.positive]

theorem loop_eq (opts : Text → List Text) (done : List Text) (hd : ∀ x ∈ done, x ≠ []) (l : List Pref) (hl : ∀ p ∈ l, p.Ok)
    (ho : ∀ p ∈ l, ∀ x ∈ opts p.key, x ≠ []) :
    loop opts (prefsText done) (l.map Pref.text) = prefsText (done ++ l.map (Pref.positive opts)) := by
  induction l generalizing done with
  | nil => rw [List.map_nil, List.map_nil, loop, List.append_nil]
  | cons p l ih =>
    obtain ⟨h1, h2, h3⟩ := item_eq opts p (hl p (by simp)) (ho p (by simp))
    rw [List.map_cons, loop, if_neg (by rw [h1]; exact h2), List.append_assoc, h3]
    have e : (if prefsText done = [] then [] else prefsText done ++ [',']) ++ p.positive opts = prefsText (done ++ [p.positive opts]) := by
      rw [prefsText, prefsText, inter_snoc]
      by_cases hq : done = []
      · simp [hq, List.intercalate, List.intersperse]
      · rw [if_neg (fun q => hq ((inter_ne ',' done hd).1 q)), if_neg hq]
    rw [e, ih _ _ (fun q hq => hl q (by simp [hq])) (fun q hq => ho q (by simp [hq]))]
    · simp
    · intro y hy
      rcases List.mem_append.1 hy with hy | hy
      · exact hd y hy
      · simp at hy; rw [hy]; exact positive_ne opts p h2

theorem no_comma (p : Pref) (hp : p.Ok) : ',' ∉ p.text := by
  intro h
  cases p with
  | on k => exact (hp.2 _ h).1 rfl
  | is k v =>
    obtain ⟨⟨_, h2⟩, _, _, _, h6⟩ := hp
    simp only [Pref.text, List.mem_append] at h
    rcases h with (h | h) | h
    · exact (h2 _ h).1 rfl
    · revert h; decide
    · exact h6 h
  | but k a m =>
    obtain ⟨⟨_, h2⟩, _, h4⟩ := hp
    simp only [Pref.text, List.mem_append] at h
    rcases h with (h | h) | h
    · exact (h2 _ h).1 rfl
    · revert h; decide
    · rcases inter_mem _ _ _ h with q | ⟨x, hx, q⟩
      · exact absurd q (by decide)
      · exact (h4 x hx _ q).1 rfl

theorem echo_id (x : Text) (h : x.head? ≠ some '-') : echo x = x := by
  unfold echo
  split
  · exact absurd rfl h
  · rfl

theorem subst_id (x : Text) (h : '\n' ∉ x) : subst x = x := by
  rw [subst]
  have h' : '\n' ∉ x.reverse := by simpa using h
  cases hr : x.reverse with
  | nil => simp at hr; simp [hr]
  | cons c t =>
    rw [hr] at h'
    have hc : c ≠ '\n' := fun e => h' (by simp [e])
    rw [List.dropWhile_cons]
    simp [hc, ← List.reverse_cons, ← hr]

/-- With a file of preferences, every negated preference that the user gives becomes the list of the other options, in the order of that file; the other preferences stay as they are, and so does the order. -/
theorem C100_preferences_partial (opts : Text → List Text) (l : List Pref) (hne : l ≠ []) (hl : ∀ p ∈ l, p.Ok) (ho : ∀ p ∈ l, ∀ x ∈ opts p.key, x ≠ [])
    (hnl : '\n' ∉ prefsText (l.map (Pref.positive opts))) (hd : (prefsText (l.map (Pref.positive opts))).head? ≠ some '-') :
    applyInvert (some opts) (prefsText (l.map Pref.text)) = prefsText (l.map (Pref.positive opts)) := by
  have hs : (prefsText (l.map Pref.text)).splitOn ',' = l.map Pref.text := by
    refine List.splitOn_intercalate _ ?_ (by simpa using hne)
    intro x hx
    rcases List.mem_map.1 hx with ⟨p, hp, rfl⟩
    exact no_comma p (hl p hp)
  have hloop := loop_eq opts [] (by simp) l hl ho
  simp only [List.nil_append] at hloop
  have e0 : prefsText [] = [] := by simp [prefsText, List.intercalate, List.intersperse]
  rw [e0] at hloop
  simp only [applyInvert]
  rw [hs, hloop, echo_id _ hd, subst_id _ hnl]

/-- Without a file of preferences they are all passed on as they are. -/
theorem C100_no_file_partial (v : Text) (hnl : '\n' ∉ v) (hd : v.head? ≠ some '-') : applyInvert none v = v := by
  simp only [applyInvert]
  rw [echo_id _ hd, subst_id _ hnl]

/-- Together: every request reaches the programs with the preferences, the negated ones inverted. -/
theorem C100_run_partial (opts : Text → List Text) (l : List Pref) (s : Text) (hne : l ≠ []) (hl : ∀ p ∈ l, p.Ok) (ho : ∀ p ∈ l, ∀ x ∈ opts p.key, x ≠ [])
    (hpl : Plain (prefsText (l.map (Pref.positive opts)))) (hd : (prefsText (l.map (Pref.positive opts))).head? ≠ some '-')
    (hset : isSet (prefsText (l.map (Pref.positive opts))) = true) (hs : s ≠ []) :
    ∀ mode, ∃ given, runMode (some opts) (prefsText (l.map Pref.text)) mode s = unwrap (prefsText (l.map (Pref.positive opts))) (mode given) ∧
      requests given = (requests s).map fun r => t!"[<STREAMCMD:SETVAR:" ++ prefsText (l.map (Pref.positive opts)) ++ t!">]" ++ r := by
  have e := C100_preferences_partial opts l hne hl ho (fun q => (hpl _ q).2.2 rfl) hd
  refine fun mode => ⟨wrap (prefsText (l.map (Pref.positive opts))) s, by simp only [runMode, e], ?_⟩
  exact C100_every_request _ s hset (fun q => (hpl _ q).2.1 rfl) hs

/-- If the user leaves out all the options of a preference, the programs are given it without a value, and applying this again (a mode that calls `apertium`) makes it a preference that is on. -/
theorem C100_none_left_violation : ∃ (opts : Text → List Text) (l : List Pref), (∀ p ∈ l, p.Ok) ∧
    applyInvert (some opts) (prefsText (l.map Pref.text)) = t!"k=" ∧ applyInvert (some opts) (applyInvert (some opts) (prefsText (l.map Pref.text))) = t!"k" := by
  have e : applyInvert (some fun _ => [t!"a"]) (prefsText [(Pref.but t!"k" t!"a" []).text]) = t!"k=" := by decide +kernel
  refine ⟨fun _ => [t!"a"], [.but t!"k" t!"a" []], ?_, e, ?_⟩
  · intro p hp
    simp at hp; subst hp
    simp [Pref.Ok]
  · rw [List.map_cons, List.map_nil, e]; decide +kernel

/-- A value that ends in `=` loses it (bash's `read`). -/
theorem C100_equals_violation : applyInvert (some fun _ => []) t!"k=a=" = t!"k=a" := by decide +kernel

/-- The example of the comment in the script (apertium-header.sh:101-104). -/
example : applyInvert (some fun _ => [t!"agonise", t!"idolise", t!"exorcise", t!"lionise"]) t!"ise_ize=-agonise:idolise,color_colour" = t!"ise_ize=exorcise:lionise,color_colour" := by
  decide +kernel

/-- The hypotheses of `C100_preferences_partial` and `C100_run_partial` hold for it. -/
example : ∃ l : List Pref, l ≠ [] ∧ (∀ p ∈ l, p.Ok) ∧ prefsText (l.map Pref.text) = t!"i=-a:b,c,d=e" ∧
    (∀ p ∈ l, ∀ x ∈ [t!"a", t!"x", t!"b"], x ≠ []) ∧ Plain (prefsText (l.map (Pref.positive fun _ => [t!"a", t!"x", t!"b"]))) ∧
    isSet (prefsText (l.map (Pref.positive fun _ => [t!"a", t!"x", t!"b"]))) = true := by
  refine ⟨[.but t!"i" t!"a" [t!"b"], .on t!"c", .is t!"d" t!"e"], by simp, ?_, by decide +kernel, by decide, ?_, by decide +kernel⟩
  · intro p hp
    simp at hp
    rcases hp with rfl | rfl | rfl <;> simp [Pref.Ok]
  · unfold Plain; decide +kernel

/-- Two requests, of two lines and one. -/
example : wrap t!"x" (t!"a\nb" ++ [NUL] ++ t!"c") = t!"[<STREAMCMD:SETVAR:x>]a\nb" ++ [NUL] ++ t!"[<STREAMCMD:SETVAR:x>]c" ∧ NoCommand t!"c" := by
  refine ⟨by decide +kernel, ?_⟩
  intro a b c _ e
  have := congrArg List.length e
  simp at this
  omega

end Verif.Setvar
