import Verif.Pattern.Words
/-!
# C72: what does not hold, and examples
-/
namespace Verif.Pattern
open Verif.Bil (Step)

theorem reads_one {e : Step} {s : List Sym} (h : Reads [e] s) : ∃ a, s = [a] ∧ Can e a := by
  cases h with
  | cons hc hr => cases hr; exact ⟨_, rfl, hc⟩

theorem can_self (c : Char) : Can (.char c) (.chr c) := Or.inl rfl

/-- Strings read on paths, from a table. -/
theorem table_sound {E : List Edge} (table : Nat → List (List Sym)) {i : Nat} (h0 : [] ∈ table i)
    (hs : ∀ e ∈ E, ∀ u ∈ table e.1, u ++ e.2.1.toList ∈ table e.2.2) {u : List Sym} {q : Nat} (h : Path E i u q) : u ∈ table q := by
  have key : ∀ {p q u}, Path E p u q → ∀ v ∈ table p, v ++ u ∈ table q := by
    intro p q u h
    induction h with
    | nil => simp
    | eps he _ ih => intro v hv; simpa using ih _ (hs _ he v hv)
    | step he _ ih => intro v hv; simpa using ih _ (hs _ he v hv)
  simpa using key h [] h0

/-- **Finding.** An escaped character in the lemma of an item does not match that character: `\*` does not match the word `*`. -/
theorem C72_escaped_violation (minimize : Trans → Trans) (hm : ∀ t, Minimal t (minimize t)) :
    ¬ AcceptsWord (defCat minimize [{ name := t!"\\*" }]) [.char '*'] := by
  rintro ⟨s, h1, h2⟩
  obtain ⟨a, rfl, _⟩ := reads_one h1
  obtain ⟨f, hf, hp⟩ := ((hm _).same _).1 h2
  have := table_sound (fun q => if q = 0 then [[]] else if q = 1 then [[.chr '\\']] else if q = 2 then [[.chr '\\', .chr '*']] else []) (by decide)
    (by decide +kernel) hp
  have e : f = 2 := by
    have : f ∈ ([2] : List Nat) := hf
    simpa using this
  subst e
  simp at this

/-- **Finding.** A lemma with a capital letter matches no word: words are read in lower case. -/
theorem C72_uppercase_violation (minimize : Trans → Trans) (hm : ∀ t, Minimal t (minimize t)) (es : List Step) (he : .char 'P' ∉ es ∧ .tag t!"<ANY_CHAR>" ∉ es) :
    ¬ AcceptsWord (defCat minimize [{ lem := t!"Paris", tags := [t!"np"] }]) es := by
  rw [C72_category_partial minimize hm _ _ es he.2]
  · rintro ⟨i, h1, w, rfl, h2⟩
    rw [List.mem_singleton.1 h1] at h2
    have h3 : Glob (lemmaPat t!"Paris") w.lem := h2.1
    apply he.1
    unfold Word.events
    generalize w.lem = l at h3
    cases h3 with
    | one h => simp
  · intro i hi
    rw [List.mem_singleton.1 hi]
    exact ⟨by decide, by decide, by decide⟩

/-- **Finding.** Two stars that follow each other are one: the tags `*.*` match a word with one tag. -/
theorem C72_stars_violation (minimize : Trans → Trans) (hm : ∀ t, Minimal t (minimize t)) :
    AcceptsWord (defCat minimize [{ lem := t!"a", tags := [t!"*", t!"*"] }]) [.char 'a', .tag t!"<n>"] ∧
    ¬ (CatItem.Fits { lem := t!"a", tags := [t!"*", t!"*"] } ⟨t!"a", [t!"<n>"]⟩) := by
  constructor
  · refine ⟨[.chr 'a', anyTag], .cons (Or.inl rfl) (.cons (Or.inr rfl) .nil), ((hm _).same _).2 ?_⟩
    refine ⟨2, by decide, .step (q := 1) (by decide +kernel) (.step (q := 2) (by decide +kernel) (.nil _))⟩
  · rintro ⟨_, h⟩
    have h : Glob [none, none] [t!"<n>"] := h
    generalize hx : [t!"<n>"] = x at h
    cases h with
    | @many p r s hr h =>
      cases r with
      | nil => exact hr rfl
      | cons a r =>
        simp only [List.cons_append, List.cons.injEq] at hx
        have h3 := List.append_eq_nil_iff.1 hx.2.symm
        rw [h3.2] at h
        generalize hy : ([] : List Text) = y at h
        cases h with
        | @many p r s hr h =>
          have h4 := List.append_eq_nil_iff.1 hy.symm
          exact hr h4.1

/-- **Finding.** In an item without tags, the lemma is not looked at: it matches every word that has no tags, and not the lemma with tags. -/
theorem C72_lemma_violation (minimize : Trans → Trans) (hm : ∀ t, Minimal t (minimize t)) :
    AcceptsWord (defCat minimize [{ lem := t!"a" }]) [.char 'b'] ∧ ¬ AcceptsWord (defCat minimize [{ lem := t!"a" }]) [.char 'a', .tag t!"<n>"] := by
  have hp : ∀ i ∈ [({ lem := t!"a" } : CatItem)], i.Plain := by
    intro i hi
    rw [List.mem_singleton.1 hi]
    exact ⟨by decide, by decide, by decide⟩
  rw [C72_category_partial minimize hm _ hp _ (by decide), C72_category_partial minimize hm _ hp _ (by decide)]
  constructor
  · refine ⟨_, List.mem_singleton.2 rfl, ⟨t!"b", []⟩, rfl, ?_, rfl⟩
    exact Glob.many (p := []) (r := ['b']) (s := []) (by simp) .nil
  · rintro ⟨i, h1, w, h2, h3⟩
    rw [List.mem_singleton.1 h1] at h3
    have h4 : w.tags = [] := h3.2
    unfold Word.events at h2
    rw [h4, List.map_nil, List.append_nil] at h2
    have : Step.tag t!"<n>" ∈ w.lem.map Step.char := by rw [← h2]; simp
    simp at this

def exA : CatItem := { name := t!"a" }
def exB : CatItem := { name := t!"b" }
def exCats : List (Text × List CatItem) := [(t!"A", [exA]), (t!"B", [exB])]

theorem exCats_plain : ∀ c ∈ exCats, ∀ i ∈ c.2, i.Plain := by
  intro c hc i hi
  simp only [exCats, List.mem_cons, List.not_mem_nil, or_false] at hc
  rcases hc with rfl | rfl
  · rw [List.mem_singleton.1 hi]; exact ⟨by decide, by decide, by decide⟩
  · rw [List.mem_singleton.1 hi]; exact ⟨by decide, by decide, by decide⟩

theorem accepts_name (minimize : Trans → Trans) (hm : ∀ t, Minimal t (minimize t)) (c : Char) (hc : c ≠ '\\' ∧ c ≠ '*') :
    (defCat minimize [{ name := [c] }]).Accepts [.chr c] := by
  refine ((hm _).same _).2 ⟨1, ?_, .step (q := 1) ?_ (.nil _)⟩
  · simp [catItem, insertCatItem, insertLemma, hc, insertSingle, insertTags, setFinal]
  · simp [catItem, insertCatItem, insertLemma, hc, insertSingle, insertTags, setFinal]

/-- **Finding.** Escaped `$` and `^` in a word are taken for the ends of words: the one word `a\$ \^b` is matched by a rule for the two words `a` and `b`. -/
theorem C72_dollar_violation (minimize : Trans → Trans) (hm : ∀ t, Minimal t (minimize t)) :
    ∃ m, compile minimize exCats [[t!"A", t!"B"]] = some m ∧
      (matcher m (alphabet exCats) (fun w => .ok (chunkWord id true 20 w))).classify ((matcher m (alphabet exCats) (fun w => .ok (chunkWord id true 20 w))).after [t!"a\\$ \\^b"]) [] = some 1 ∧
      ¬ FitsRead exCats [t!"A", t!"B"] [chunkWord id true 20 t!"a\\$ \\^b"] := by
  obtain ⟨m, hc⟩ := C72_compiles minimize hm exCats exCats_plain [[t!"A", t!"B"]] (by
    intro ns hns n hn
    rw [List.mem_singleton.1 hns] at hn
    simp only [List.mem_cons, List.not_mem_nil, or_false] at hn
    rcases hn with rfl | rfl
    · exact ⟨[exA], (lookupCat_iff _ _ _).1 rfl, by simp⟩
    · exact ⟨[exB], (lookupCat_iff _ _ _).1 rfl, by simp⟩)
  refine ⟨m, hc, ?_, ?_⟩
  · have hr := compile_runs minimize hm exCats exCats_plain _ m hc
    obtain ⟨t, h1, h2, h3⟩ := compile_accepts minimize hm exCats exCats_plain _ m hc
    rw [classify_some]
    have hw : [t!"a\\$ \\^b"].map (fun w => Outcome.ok (chunkWord id true 20 w)) = [[Step.char 'a', .char '$', .char ' ', .char '^', .char 'b']].map Outcome.ok := by
      simp only [List.map_cons, List.map_nil]
      refine congrArg (fun x => [Outcome.ok x]) ?_
      decide +kernel
    simp only [follows_iff hr _ _ _ hw]
    have low : ∀ r, Follows m [[Step.char 'a', .char '$', .char ' ', .char '^', .char 'b']] r → 1 ≤ r := by
      rintro r ⟨u, _, h4⟩
      obtain ⟨k, ns, v, _, _, h5⟩ := h2 _ ((h1.same _).1 h4)
      have := (List.append_inj' h5 rfl).2
      simp at this
      omega
    obtain ⟨r', h4, h5⟩ := h3 0 _ rfl
    have h6 := h5 ([] ++ [] ++ .chr '^' :: [.chr 'a'] ++ [.chr '$'] ++ [.chr ' '] ++ .chr '^' :: [.chr 'b'] ++ [.chr '$'])
      (.cons (.cons .nil ⟨[exA], rfl, accepts_name minimize hm 'a' (by decide)⟩ (Or.inl rfl)) ⟨[exB], rfl, accepts_name minimize hm 'b' (by decide)⟩ (Or.inr ⟨by simp, rfl⟩))
    have h7 : Follows m [[Step.char 'a', .char '$', .char ' ', .char '^', .char 'b']] r' := by
      refine ⟨_, ?_, (h1.same _).2 h6⟩
      exact ReadsAll.cons (s := [.chr 'a', .chr '$', .chr ' ', .chr '^', .chr 'b']) .nil
        (.cons (can_self 'a') (.cons (can_self '$') (.cons (can_self ' ') (.cons (can_self '^') (.cons (can_self 'b') .nil))))) rfl
    have h8 := low r' h7
    have e : r' = 1 := by omega
    exact ⟨e ▸ h7, low⟩
  · rintro ⟨ws, h1, h2, _⟩
    have := congrArg List.length h1
    simp at this h2
    omega

/-! ### A rule that is rejected hides a later one -/

def catA : Trans := { next := 2, edges := [(0, some (.chr 'a'), 1)], finals := [1] }

/-- The transducer of two rules for the same words. -/
def twoRules : Trans := ((procRules (fun _ => some catA) 1 {} [[t!"A"], [t!"C"]]).getD {}).trans

/-- The same, with one path. -/
def twoRulesMin : Trans where
  next := 5
  edges := [(0, some (.chr '^'), 1), (1, some (.chr 'a'), 2), (2, some (.chr '$'), 3), (3, some (.rule 2), 4), (3, some (.rule 1), 4)]
  finals := [4]

def exTable : Nat → List (List Sym)
  | 0 => [[]]
  | 1 | 2 | 6 => [[.chr '^']]
  | 3 | 7 => [[.chr '^', .chr 'a']]
  | 4 | 8 => [[.chr '^', .chr 'a', .chr '$']]
  | 5 => [[.chr '^', .chr 'a', .chr '$', .rule 1]]
  | 9 => [[.chr '^', .chr 'a', .chr '$', .rule 2]]
  | _ => []

def exTableMin : Nat → List (List Sym)
  | 0 => [[]]
  | 1 => [[.chr '^']]
  | 2 => [[.chr '^', .chr 'a']]
  | 3 => [[.chr '^', .chr 'a', .chr '$']]
  | 4 => [[.chr '^', .chr 'a', .chr '$', .rule 1], [.chr '^', .chr 'a', .chr '$', .rule 2]]
  | _ => []

theorem twoRules_minimal : Minimal twoRules twoRulesMin where
  same s := by
    have e : twoRules.edges = [(0, some (.chr '^'), 1), (1, none, 2), (2, some (.chr 'a'), 3), (3, some (.chr '$'), 4), (4, some (.rule 1), 5), (1, none, 6),
      (6, some (.chr 'a'), 7), (7, some (.chr '$'), 8), (8, some (.rule 2), 9)] := by decide +kernel
    have ef : twoRules.finals = [9, 5] := by decide +kernel
    have ei : twoRules.initial = 0 := by decide +kernel
    constructor
    · rintro ⟨f, h1, h2⟩
      have h3 := table_sound exTableMin (by decide) (by decide +kernel) h2
      have h4 : f = 4 := by simpa [twoRulesMin] using h1
      subst h4
      simp only [exTableMin, List.mem_cons, List.not_mem_nil, or_false] at h3
      rcases h3 with rfl | rfl
      · refine ⟨5, by rw [ef]; simp, ?_⟩
        rw [e, ei]
        exact .step (q := 1) (by simp) (.eps (q := 2) (by simp) (.step (q := 3) (by simp) (.step (q := 4) (by simp) (.step (q := 5) (by simp) (.nil _)))))
      · refine ⟨9, by rw [ef]; simp, ?_⟩
        rw [e, ei]
        exact .step (q := 1) (by simp) (.eps (q := 6) (by simp) (.step (q := 7) (by simp) (.step (q := 8) (by simp) (.step (q := 9) (by simp) (.nil _)))))
    · rintro ⟨f, h1, h2⟩
      rw [e, ei] at h2
      have h3 := table_sound exTable (by decide) (by decide +kernel) h2
      rw [ef] at h1
      simp only [List.mem_cons, List.not_mem_nil, or_false] at h1
      have path : ∀ r, r = 1 ∨ r = 2 → twoRulesMin.Accepts [.chr '^', .chr 'a', .chr '$', .rule r] := by
        intro r hr
        refine ⟨4, by simp [twoRulesMin], .step (q := 1) (by simp [twoRulesMin]) (.step (q := 2) (by simp [twoRulesMin]) (.step (q := 3) (by simp [twoRulesMin]) (.step (q := 4) ?_ (.nil _))))⟩
        rcases hr with rfl | rfl <;> simp [twoRulesMin]
      rcases h1 with rfl | rfl
      · simp only [exTable, List.mem_cons, List.not_mem_nil, or_false] at h3
        rw [h3]; exact path 2 (Or.inr rfl)
      · simp only [exTable, List.mem_cons, List.not_mem_nil, or_false] at h3
        rw [h3]; exact path 1 (Or.inl rfl)
  initial := by decide
  edges := by decide
  finals := by decide
  noEmpty := by decide
  useful e he := by
    have h1 : Path twoRulesMin.edges 0 [.chr '^'] 1 := .step (q := 1) (by simp [twoRulesMin]) (.nil _)
    have h2 : Path twoRulesMin.edges 1 [.chr 'a'] 2 := .step (q := 2) (by simp [twoRulesMin]) (.nil _)
    have h3 : Path twoRulesMin.edges 2 [.chr '$'] 3 := .step (q := 3) (by simp [twoRulesMin]) (.nil _)
    have h4 : Path twoRulesMin.edges 3 [.rule 1] 4 := .step (q := 4) (by simp [twoRulesMin]) (.nil _)
    simp only [twoRulesMin, List.mem_cons, List.not_mem_nil, or_false] at he
    rcases he with rfl | rfl | rfl | rfl | rfl
    · exact ⟨_, _, 4, .nil _, h2.append (h3.append h4), by simp [twoRulesMin]⟩
    · exact ⟨_, _, 4, h1, h3.append h4, by simp [twoRulesMin]⟩
    · exact ⟨_, _, 4, h1.append h2, h4, by simp [twoRulesMin]⟩
    · exact ⟨_, _, 4, h1.append (h2.append h3), .nil _, by simp [twoRulesMin]⟩
    · exact ⟨_, _, 4, h1.append (h2.append h3), .nil _, by simp [twoRulesMin]⟩

theorem catA_minimal : Minimal ([exA].foldl catItem {}) catA where
  same s := by
    have e : ([exA].foldl catItem {}).edges = catA.edges := by decide +kernel
    have ef : ([exA].foldl catItem {}).finals = catA.finals := by decide +kernel
    have ei : ([exA].foldl catItem {}).initial = catA.initial := by decide +kernel
    unfold Trans.Accepts
    rw [e, ef, ei]
  initial := by decide
  edges := by decide
  finals := by decide
  noEmpty := by decide
  useful e he := by
    simp only [catA, List.mem_cons, List.not_mem_nil, or_false] at he
    subst he
    exact ⟨_, _, 1, .nil _, .nil _, by simp [catA]⟩

/-- Two categories with the same item. -/
def exCats2 : List (Text × List CatItem) := [(t!"A", [exA]), (t!"C", [exA])]

open Classical in
/-- As `tidy`, but with one path where the labels are the same, in the two transducers of the example. -/
noncomputable def exMin (t : Trans) : Trans := if t = [exA].foldl catItem {} then catA else if t = twoRules then twoRulesMin else tidy t

theorem exMin_minimal (t : Trans) : Minimal t (exMin t) := by
  unfold exMin
  split
  · rename_i h; rw [h]; exact catA_minimal
  · split
    · rename_i h; rw [h]; exact twoRules_minimal
    · exact tidy_minimal t

theorem exMin_compile : compile exMin exCats2 [[t!"A"], [t!"C"]] = some twoRulesMin := by
  have hne : twoRules ≠ [exA].foldl catItem {} := by
    intro h
    have := congrArg Trans.next h
    revert this
    decide +kernel
  have hA : defCat exMin [exA] = catA := by unfold defCat exMin; rw [if_pos rfl]
  have hT : exMin twoRules = twoRulesMin := by unfold exMin; rw [if_neg hne, if_pos rfl]
  have hd : ∀ n, n = t!"A" ∨ n = t!"C" → (fun n => (lookupCat exCats2 n).map (defCat exMin)) n = some catA := by
    rintro n (rfl | rfl)
    · have : lookupCat exCats2 t!"A" = some [exA] := by rfl
      dsimp only
      rw [this, Option.map_some, hA]
    · have : lookupCat exCats2 t!"C" = some [exA] := by rfl
      dsimp only
      rw [this, Option.map_some, hA]
  have hpi : ∀ (cats : Text → Option Trans) (s : RSt) (p : Nat) (n : Text), cats n = some catA → patternItem cats s p n = patternItem (fun _ => some catA) s p n := by
    intro cats s p n h
    unfold patternItem
    rw [h]
  have hpr : ∀ cats : Text → Option Trans, (∀ n, n = t!"A" ∨ n = t!"C" → cats n = some catA) →
      procRules cats 1 {} [[t!"A"], [t!"C"]] = procRules (fun _ => some catA) 1 {} [[t!"A"], [t!"C"]] := by
    intro cats h
    simp only [procRules, pattern, patternItems]
    simp only [hpi cats _ _ _ (h t!"A" (Or.inl rfl)), hpi cats _ _ _ (h t!"C" (Or.inr rfl))]
  unfold compile
  rw [hpr _ hd]
  have hs : procRules (fun _ => some catA) 1 {} [[t!"A"], [t!"C"]] = some ((procRules (fun _ => some catA) 1 {} [[t!"A"], [t!"C"]]).getD {}) := by rfl
  rw [hs, Option.map_some]
  exact congrArg some hT

/-- **Finding.** A rule that rejects the words it matched hides a later rule, whose pattern they fit too: it is not tried. -/
theorem C72_rejected_violation : ∃ minimize : Trans → Trans, (∀ t, Minimal t (minimize t)) ∧ ∃ m, compile minimize exCats2 [[t!"A"], [t!"C"]] = some m ∧
    FitsRead exCats2 [t!"C"] [[.char 'a']] ∧
    ∀ events : Text → Outcome (List Step), events t!"a" = .ok [.char 'a'] →
      (matcher m (alphabet exCats2) events).classify ((matcher m (alphabet exCats2) events).after [t!"a"]) [1] = none := by
  refine ⟨exMin, exMin_minimal, twoRulesMin, exMin_compile, ?_, ?_⟩
  · exact ⟨[⟨t!"a", []⟩], rfl, rfl, fun i h h' => by
      have : i = 0 := by simpa using h
      subst this
      exact ⟨[exA], (lookupCat_iff _ _ _).1 rfl, exA, by simp, .one .nil, rfl⟩⟩
  · intro events he
    have h1 : (matcher twoRulesMin (alphabet exCats2) events).after [t!"a"] = [3] := by
      simp only [Transfer.Matcher.after, List.foldl_nil, matcher]
      rw [he]
      decide +kernel
    rw [h1]
    rfl

/-! ## Examples -/

/-- A category for nouns, and one for the adjectives `big` and `small…`. -/
def exNoun : CatItem := { tags := [t!"n", t!"*"] }
def exBig : CatItem := { lem := t!"big", tags := [t!"adj"] }
def exSmall : CatItem := { lem := t!"small*", tags := [t!"adj", t!"*"] }
def exCats3 : List (Text × List CatItem) := [(t!"noun", [exNoun]), (t!"adj", [exBig, exSmall])]
def exRules3 : List (List Text) := [[t!"noun"], [t!"adj", t!"noun"], [t!"noun", t!"noun"]]

theorem exCats3_plain : ∀ c ∈ exCats3, ∀ i ∈ c.2, i.Plain := by
  intro c hc i hi
  simp only [exCats3, List.mem_cons, List.not_mem_nil, or_false] at hc
  rcases hc with rfl | rfl
  · rw [List.mem_singleton.1 hi]; exact ⟨by decide, by decide, by decide⟩
  · simp only [List.mem_cons, List.not_mem_nil, or_false] at hi
    rcases hi with rfl | rfl
    · exact ⟨by decide, by decide, by decide⟩
    · exact ⟨by decide, by decide, by decide⟩

/-- The hypotheses can be met: the rule for `big<adj>` `cats<n><pl>` is the second one. -/
example : ∃ m, compile tidy exCats3 exRules3 = some m ∧
    (matcher m (alphabet exCats3) (fun w => .ok (chunkWord id true 40 w))).classify
      ((matcher m (alphabet exCats3) (fun w => .ok (chunkWord id true 40 w))).after [t!"big<adj>{}", t!"cat<n><pl>{}"]) [] = some 2 := by
  obtain ⟨m, hc⟩ := C72_compiles tidy tidy_minimal exCats3 exCats3_plain exRules3 (by
    intro ns hns n hn
    simp only [exRules3, List.mem_cons, List.not_mem_nil, or_false] at hns
    have : n = t!"noun" ∨ n = t!"adj" := by
      rcases hns with rfl | rfl | rfl
      · exact Or.inl (by simpa using hn)
      · simp only [List.mem_cons, List.not_mem_nil, or_false] at hn; exact hn.symm
      · exact Or.inl (by simpa using hn)
    rcases this with rfl | rfl
    · exact ⟨[exNoun], (lookupCat_iff _ _ _).1 rfl, by simp⟩
    · exact ⟨[exBig, exSmall], (lookupCat_iff _ _ _).1 rfl, by simp⟩)
  refine ⟨m, hc, ?_⟩
  have hw : [t!"big<adj>{}", t!"cat<n><pl>{}"].map (fun w => Outcome.ok (chunkWord id true 40 w)) =
      [Word.events ⟨t!"big", [t!"<adj>"]⟩, Word.events ⟨t!"cat", [t!"<n>", t!"<pl>"]⟩].map Outcome.ok := by
    simp only [List.map_cons, List.map_nil]
    have h1 : chunkWord id true 40 t!"big<adj>{}" = Word.events ⟨t!"big", [t!"<adj>"]⟩ := by decide +kernel
    have h2 : chunkWord id true 40 t!"cat<n><pl>{}" = Word.events ⟨t!"cat", [t!"<n>", t!"<pl>"]⟩ := by decide +kernel
    rw [h1, h2]
  refine ((C72_rule_partial tidy tidy_minimal exCats3 exCats3_plain exRules3 m hc _ _ _ hw (by decide +kernel)).1 2).2
    ⟨⟨1, _, rfl, rfl, ⟨[⟨t!"big", [t!"<adj>"]⟩, ⟨t!"cat", [t!"<n>", t!"<pl>"]⟩], rfl, rfl, ?_⟩⟩, ?_⟩
  · intro i h h'
    match i, h, h' with
    | 0, _, _ => exact ⟨[exBig, exSmall], (lookupCat_iff _ _ _).1 rfl, exBig, by simp, .one (.one (.one .nil)), .one .nil⟩
    | 1, _, _ => exact ⟨[exNoun], (lookupCat_iff _ _ _).1 rfl, exNoun, by simp, Glob.many (p := []) (r := t!"cat") (s := []) (by simp) .nil, .one (Glob.many (p := []) (r := [t!"<pl>"]) (s := []) (by simp) .nil)⟩
  · intro k ns hk hns
    have : k = 0 := by omega
    subst this
    injection hns with hns
    subst hns
    rintro ⟨ws, h1, h2, _⟩
    have := congrArg List.length h1
    simp at this h2
    omega

end Verif.Pattern
