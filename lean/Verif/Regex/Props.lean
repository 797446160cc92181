import Verif.Regex.Proofs
namespace Verif.Regex

variable {fold : Char → Char} {P : Char → Prop}

/-! ## Matching -/

/-- What is left after each prefix that satisfies `p`, the longest prefix first. -/
def prefRun (p : Text → Bool) : Text → List Text
  | [] => if p [] then [[]] else []
  | x :: s => prefRun (fun q => p (x :: q)) s ++ (if p [] then [x :: s] else [])

mutual
/-- The text is the rest, after the character of the node, of an entry. -/
def acc (fold : Char → Char) : Trie → Text → Bool
  | .node _ e _, [] => e
  | .node _ _ nx, x :: q => accL fold nx x q
def accL (fold : Char → Char) : List Trie → Char → Text → Bool
  | [], _, _ => false
  | t :: ts, x, q => if fold x = fold t.chr then acc fold t q else accL fold ts x q
end

theorem prefRun_false (s : Text) : prefRun (fun _ => false) s = [] := by
  induction s with
  | nil => rfl
  | cons x s ih => simp [prefRun, ih]

theorem prefRun_leaf (s : Text) (p : Text → Bool) (h0 : p [] = true) (h : ∀ x q, p (x :: q) = false) : prefRun p s = [s] := by
  cases s with
  | nil => simp [prefRun, h0]
  | cons x s => simp [prefRun, h0, h, prefRun_false]

theorem runSeq_single (fold : Char → Char) (r : Re) (s : Text) : runSeq fold [r] s = r.run fold s := by
  rw [runSeq]
  have : runSeq fold [] = fun s => [s] := by funext s; rw [runSeq]
  rw [this, List.flatMap_singleton']

theorem runAlt_append (fold : Char → Char) (a b : List (List Re)) (s : Text) :
    runAlt fold (a ++ b) s = runAlt fold a s ++ runAlt fold b s := by
  induction a with
  | nil => simp [runAlt]
  | cons x a ih => simp [runAlt, ih]

theorem run_opt (fold : Char → Char) (r : Re) (s : Text) : (Re.opt r).run fold s = r.run fold s ++ [s] := by rw [Re.run]
theorem run_alt (fold : Char → Char) (bs : List (List Re)) (s : Text) : (Re.alt bs).run fold s = runAlt fold bs s := by rw [Re.run]

theorem run_tail (e : Bool) (gs : List (Text × List Re)) (h : ∀ g ∈ gs, GroupOk g) (hne : gs ≠ []) (s : Text) :
    runSeq fold (tailRe e gs) s = runAlt fold (gs.map (·.2)) s ++ (if e then [s] else []) := by
  rcases gs with _ | ⟨⟨t, g⟩, _ | ⟨g2, gs⟩⟩
  · contradiction
  · have hg := h (t, g) (by simp)
    cases e with
    | false => simp [tailRe, runAlt]
    | true =>
      simp only [tailRe, if_true]
      by_cases hc : t.length > 1 ∧ t.head? ≠ some '('
      · rw [if_pos hc, runSeq_single, run_opt, run_alt]; rfl
      · rw [if_neg hc]
        have hl : t.length ≤ 1 := by
          have := hg.head
          simp only at this
          by_cases h' : t.length > 1
          · exact absurd ⟨h', this⟩ hc
          · omega
        obtain ⟨c, rfl⟩ := hg.short hl
        simp [runSeq_single, run_opt, runAlt]
  · cases e with
    | false => simp [tailRe, runSeq_single, run_alt]
    | true => simp [tailRe, runSeq_single, run_alt, run_opt]

theorem Char.le_antisymm' {a b : Char} (h1 : a ≤ b) (h2 : b ≤ a) : a = b := by
  apply Char.ext
  exact UInt32.le_antisymm h1 h2

theorem run_single_nil (cs : List Char) : runAlt fold ((singleRe cs).map (·.2)) [] = [] := by
  rcases cs with _ | ⟨c, _ | ⟨d, cs⟩⟩ <;> simp [singleRe, runAlt, runSeq, Re.run]

theorem run_single_cons (cs : List Char) (x : Char) (s : Text) :
    runAlt fold ((singleRe cs).map (·.2)) (x :: s) = if fold x ∈ cs.map fold then [s] else [] := by
  rcases cs with _ | ⟨c, _ | ⟨d, cs⟩⟩
  · simp [singleRe, runAlt]
  · simp only [singleRe, List.map_cons, List.map_nil, runAlt, runSeq_single, Re.run, List.append_nil, List.mem_singleton]
  · simp only [singleRe, List.map_cons, List.map_nil, runAlt, runSeq_single, Re.run, List.append_nil]
    have : ((c, c) :: (d, d) :: List.map (fun c => (c, c)) cs).any
        (fun p => decide (fold p.1 ≤ fold x ∧ fold x ≤ fold p.2)) = true ↔ fold x ∈ fold c :: fold d :: cs.map fold := by
      simp only [List.any_cons, List.any_map, Bool.or_eq_true, decide_eq_true_eq, List.any_eq_true, Function.comp, List.mem_cons,
        List.mem_map]
      constructor
      · rintro (h | h | ⟨y, hy, h⟩)
        · exact Or.inl (Char.le_antisymm' h.2 h.1)
        · exact Or.inr (Or.inl (Char.le_antisymm' h.2 h.1))
        · exact Or.inr (Or.inr ⟨y, hy, Char.le_antisymm' h.1 h.2⟩)
      · rintro (h | h | ⟨y, hy, h⟩)
        · left; rw [h]; exact ⟨Char.le_refl _, Char.le_refl _⟩
        · right; left; rw [h]; exact ⟨Char.le_refl _, Char.le_refl _⟩
        · right; right; refine ⟨y, hy, ?_⟩; rw [h]; exact ⟨Char.le_refl _, Char.le_refl _⟩
    by_cases hx : fold x ∈ fold c :: fold d :: cs.map fold
    · rw [if_pos (this.2 hx), if_pos hx]
    · rw [if_neg (fun h => hx (this.1 h)), if_neg hx]

theorem leaf_acc {t : Trie} (h : t.isLeaf = true) : acc fold t [] = true ∧ ∀ x q, acc fold t (x :: q) = false := by
  cases t with
  | node c e nx =>
    simp only [Trie.isLeaf, Bool.and_eq_true, List.isEmpty_iff] at h
    obtain ⟨rfl, rfl⟩ := h
    simp [acc, accL]

theorem accL_none {ts : List Trie} {x : Char} (h : ∀ t ∈ ts, fold x ≠ fold t.chr) (q : Text) : accL fold ts x q = false := by
  induction ts with
  | nil => rfl
  | cons t ts ih =>
    rw [accL, if_neg (h t (by simp)), ih (fun u hu => h u (by simp [hu]))]

mutual
theorem run_trie (hP : ∀ c, P c → Ordinary c) (t : Trie) (h : Good fold P t) (s : Text) :
    runSeq fold (trieRe t) s = (match s with
      | [] => []
      | x :: s => if fold x = fold t.chr then prefRun (acc fold t) s else []) := by
  cases t with
  | node c e nx =>
    rw [Good] at h
    obtain ⟨h1, h2, h3⟩ := h
    rw [trieRe, runSeq]
    cases s with
    | nil => simp [Re.run]
    | cons x s =>
      simp only [Re.run]
      show _ = if fold x = fold c then _ else _
      by_cases hxc : fold x = fold c
      · rw [if_pos hxc, if_pos hxc]
        simp only [List.flatMap_cons, List.flatMap_nil, List.append_nil]
        by_cases hn : nx = []
        · subst hn
          have he := h2 rfl
          subst he
          simp only [leaves, innerRe, singleRe, List.filter_nil, List.map_nil, List.append_nil, tailRe, runSeq]
          rw [prefRun_leaf]
          · simp [acc]
          · intro x q; simp [acc, accL]
        · have hok : ∀ g ∈ innerRe nx ++ singleRe (leaves nx), GroupOk g := by
            intro g hg
            rcases List.mem_append.1 hg with hg | hg
            · exact inner_ok hP nx h3 g hg
            · exact single_ok (fun c hc => hP c (leaves_P h3 c hc)) g hg
          have hne : innerRe nx ++ singleRe (leaves nx) ≠ [] := by
            cases nx with
            | nil => contradiction
            | cons u us =>
              rw [innerRe]
              by_cases hu : u.isLeaf
              · have : leaves (u :: us) = u.chr :: leaves us := by simp [leaves, hu]
                rw [this]
                cases hl2 : leaves us <;> simp [singleRe]
              · simp [hu]
          rw [run_tail e _ hok hne, List.map_append, runAlt_append]
          cases s with
          | nil =>
            rw [run_single_nil, run_inner_nil hP nx h3]
            cases e <;> simp [prefRun, acc]
          | cons y s =>
            rw [run_inner hP nx h3 y s]
            cases e <;> simp [prefRun, acc]
      · rw [if_neg hxc, if_neg hxc]; rfl
theorem run_inner_nil (hP : ∀ c, P c → Ordinary c) (ts : List Trie) (h : GoodL fold P ts) :
    runAlt fold ((innerRe ts).map (·.2)) [] = [] := by
  cases ts with
  | nil => simp [innerRe, runAlt]
  | cons t ts =>
    rw [GoodL] at h
    rw [innerRe]
    split
    · exact run_inner_nil hP ts h.2.2
    · simp only [List.map_cons, runAlt]
      rw [run_trie hP t h.1, run_inner_nil hP ts h.2.2]
      rfl
theorem run_inner (hP : ∀ c, P c → Ordinary c) (ts : List Trie) (h : GoodL fold P ts) (x : Char) (s : Text) :
    runAlt fold ((innerRe ts).map (·.2)) (x :: s) ++ runAlt fold ((singleRe (leaves ts)).map (·.2)) (x :: s)
      = prefRun (accL fold ts x) s := by
  rw [run_single_cons]
  cases ts with
  | nil =>
    have : accL fold [] x = fun _ => false := by funext q; rfl
    simp [innerRe, runAlt, leaves, this, prefRun_false]
  | cons t ts =>
    rw [GoodL] at h
    obtain ⟨h1, h2, h3⟩ := h
    have ih := run_inner hP ts h3 x s
    rw [run_single_cons] at ih
    by_cases hx : fold x = fold t.chr
    · have hno : ∀ u ∈ ts, fold x ≠ fold u.chr := fun u hu e => h2 u hu (by rw [← e, hx])
      have e0 : accL fold ts x = fun _ => false := by funext q; exact accL_none hno q
      have e1 : accL fold (t :: ts) x = acc fold t := by funext q; rw [accL, if_pos hx]
      rw [e0, prefRun_false] at ih
      obtain ⟨i1, i2⟩ := List.append_eq_nil_iff.1 ih
      rw [e1, innerRe]
      by_cases hl : t.isLeaf = true
      · rw [if_pos hl, i1]
        have : leaves (t :: ts) = t.chr :: leaves ts := by simp [leaves, hl]
        rw [this, if_pos (by simp [hx]), prefRun_leaf s _ (leaf_acc hl).1 (leaf_acc hl).2]
        rfl
      · rw [if_neg hl]
        have : leaves (t :: ts) = leaves ts := by simp [leaves, hl]
        rw [this, i2]
        simp only [List.map_cons, runAlt]
        rw [i1, run_trie hP t h1]
        simp [hx]
    · have e1 : accL fold (t :: ts) x = accL fold ts x := by funext q; rw [accL, if_neg hx]
      rw [e1, ← ih, innerRe]
      by_cases hl : t.isLeaf = true
      · have : leaves (t :: ts) = t.chr :: leaves ts := by simp [leaves, hl]
        rw [if_pos hl, this]
        simp [hx]
      · have : leaves (t :: ts) = leaves ts := by simp [leaves, hl]
        rw [if_neg hl, this]
        simp only [List.map_cons, runAlt]
        rw [run_trie hP t h1]
        simp [hx]
end

/-! ## Building the trie -/

theorem same_nil : decide (Same fold [] []) = true := by simp [Same]
theorem same_nil_cons (x : Char) (a : Text) : decide (Same fold [] (x :: a)) = false := by simp [Same]
theorem same_cons_nil (x : Char) (a : Text) : decide (Same fold (x :: a) []) = false := by simp [Same]
theorem same_cons (x y : Char) (a b : Text) :
    decide (Same fold (x :: a) (y :: b)) = (decide (fold x = fold y) && decide (Same fold a b)) := by
  rw [Bool.eq_iff_iff]
  simp only [Bool.and_eq_true, decide_eq_true_eq]
  simp [Same]

theorem accL_cons (c : Char) (e : Bool) (nx ts : List Trie) (x : Char) (q : Text) :
    accL fold (.node c e nx :: ts) x q = if fold x = fold c then acc fold (.node c e nx) q else accL fold ts x q := rfl

theorem accL_cons' (t : Trie) (ts : List Trie) (c x : Char) (h : t.chr = c) (q : Text) :
    accL fold (t :: ts) x q = if fold x = fold c then acc fold t q else accL fold ts x q := by
  subst h; rfl

theorem chain_good {P : Char → Prop} (x : Char) (p : Text) (hx : P x) (hp : ∀ c ∈ p, P c) : Good fold P (chain x p) := by
  induction p generalizing x with
  | nil => simp [chain, Good, GoodL, hx]
  | cons y p ih =>
    simp [chain, Good, GoodL, hx, ih y (hp y (by simp)) (fun c hc => hp c (by simp [hc]))]

theorem chain_chr (x : Char) (p : Text) : (chain x p).chr = x := by cases p <;> rfl

theorem chain_acc (x : Char) (p q : Text) : acc fold (chain x p) q = decide (Same fold q p) := by
  induction p generalizing x q with
  | nil =>
    cases q with
    | nil => simp [chain, acc, Same]
    | cons z q => rw [same_cons_nil]; simp [chain, acc, accL]
  | cons y p ih =>
    cases q with
    | nil => rw [same_nil_cons]; simp [chain, acc]
    | cons z q =>
      rw [chain, acc, accL_cons' _ _ _ _ (chain_chr y p), same_cons]
      by_cases h : fold z = fold y
      · rw [if_pos h, ih]
        simp [h]
      · rw [if_neg h]
        simp [accL, h]

theorem addPath_chr (t : Trie) (p : Text) : (addPath t p).chr = t.chr := by
  cases t; cases p <;> simp [addPath, Trie.chr]

theorem addChild_chr (ts : List Trie) (x : Char) (p : Text) : ∀ u ∈ addChild ts x p, u.chr = x ∨ ∃ t ∈ ts, u.chr = t.chr := by
  induction ts with
  | nil => simp [addChild, chain_chr]
  | cons t ts ih =>
    cases t with
    | node c e nx =>
      intro u hu
      rw [addChild] at hu
      split at hu
      · rcases List.mem_cons.1 hu with rfl | hu
        · exact Or.inr ⟨.node c e nx, by simp, by rw [addPath_chr]⟩
        · exact Or.inr ⟨u, by simp [hu], rfl⟩
      · rcases List.mem_cons.1 hu with rfl | hu
        · exact Or.inr ⟨_, by simp, rfl⟩
        · rcases ih u hu with h | ⟨t, ht, h⟩
          · exact Or.inl h
          · exact Or.inr ⟨t, by simp [ht], h⟩

theorem addChild_ne_nil (ts : List Trie) (x : Char) (p : Text) : addChild ts x p ≠ [] := by
  rcases ts with _ | ⟨⟨c, e, nx⟩, ts⟩
  · simp [addChild]
  · rw [addChild]; split <;> simp

mutual
theorem addPath_good (hf : ∀ c d, P c → P d → fold c = fold d → c = d) (t : Trie) (h : Good fold P t) (p : Text)
    (hp : ∀ c ∈ p, P c) :
    Good fold P (addPath t p) ∧ ∀ q, acc fold (addPath t p) q = (acc fold t q || decide (Same fold q p)) := by
  cases t with
  | node c e nx =>
    rw [Good] at h
    cases p with
    | nil =>
      rw [addPath]
      refine ⟨by rw [Good]; exact ⟨h.1, fun _ => rfl, h.2.2⟩, ?_⟩
      intro q
      cases q with
      | nil => simp [acc, Same]
      | cons y q => rw [same_cons_nil]; simp [acc]
    | cons x p =>
      obtain ⟨h1, h2⟩ := addChild_good hf nx h.2.2 x (hp x (by simp)) p (fun c hc => hp c (by simp [hc]))
      rw [addPath]
      refine ⟨by rw [Good]; exact ⟨h.1, fun hn => absurd hn (addChild_ne_nil nx x p), h1⟩, ?_⟩
      intro q
      cases q with
      | nil => rw [same_nil_cons]; simp [acc]
      | cons y q => rw [same_cons, acc, acc, h2, Bool.decide_and]
theorem addChild_good (hf : ∀ c d, P c → P d → fold c = fold d → c = d) (ts : List Trie) (h : GoodL fold P ts) (x : Char) (hx : P x)
    (p : Text) (hp : ∀ c ∈ p, P c) :
    GoodL fold P (addChild ts x p) ∧
      ∀ y q, accL fold (addChild ts x p) y q = (accL fold ts y q || decide (fold y = fold x ∧ Same fold q p)) := by
  cases ts with
  | nil =>
    rw [addChild]
    refine ⟨by simp [GoodL, chain_good x p hx hp], ?_⟩
    intro y q
    rw [accL_cons' _ _ _ _ (chain_chr x p)]
    by_cases hy : fold y = fold x
    · rw [if_pos hy, chain_acc]; simp [accL, hy]
    · rw [if_neg hy]; simp [accL, hy]
  | cons t ts =>
    cases t with
    | node c e nx =>
      rw [GoodL] at h
      obtain ⟨h1, h2, h3⟩ := h
      by_cases hc : c = x
      · subst hc
        obtain ⟨g1, g2⟩ := addPath_good hf (.node c e nx) h1 p hp
        rw [addChild, if_pos rfl]
        refine ⟨by rw [GoodL, addPath_chr]; exact ⟨g1, h2, h3⟩, ?_⟩
        intro y q
        rw [accL_cons' _ _ c _ (addPath_chr _ _), accL_cons, g2]
        by_cases hy : fold y = fold c
        · rw [if_pos hy, if_pos hy]; simp [hy]
        · rw [if_neg hy, if_neg hy]; simp [hy]
      · obtain ⟨g1, g2⟩ := addChild_good hf ts h3 x hx p hp
        have hcx : fold x ≠ fold c := fun e => hc (hf c x h1.chr hx e.symm)
        rw [addChild, if_neg hc]
        refine ⟨?_, ?_⟩
        · rw [GoodL]
          refine ⟨h1, ?_, g1⟩
          intro u hu
          rcases addChild_chr ts x p u hu with h | ⟨t, ht, h⟩
          · rw [h]; exact hcx
          · rw [h]; exact h2 t ht
        · intro y q
          rw [accL_cons, accL_cons, g2]
          by_cases hy : fold y = fold c
          · rw [if_pos hy, if_pos hy]
            have : fold y ≠ fold x := by rw [hy]; exact fun e => hcx e.symm
            simp [this]
          · rw [if_neg hy, if_neg hy]
end

/-! ## The whole expression -/

theorem trieOf_good (hf : ∀ c d, P c → P d → fold c = fold d → c = d) (options : List Text) (hne : options ≠ []) (hlt : P '<')
    (hp : ∀ o ∈ options, ∀ c ∈ pathOf false o, P c) :
    Good fold P (trieOf options) ∧ (trieOf options).chr = '<' ∧
      ∀ q, acc fold (trieOf options) q = true ↔ ∃ o ∈ options, Same fold q (pathOf false o) := by
  have key : ∀ (os : List Text) (t : Trie), Good fold P t → (∀ o ∈ os, ∀ c ∈ pathOf false o, P c) →
      Good fold P (os.foldl (fun t o => addPath t (pathOf false o)) t) ∧
      (os.foldl (fun t o => addPath t (pathOf false o)) t).chr = t.chr ∧
      ∀ q, acc fold (os.foldl (fun t o => addPath t (pathOf false o)) t) q = true ↔
        acc fold t q = true ∨ ∃ o ∈ os, Same fold q (pathOf false o) := by
    intro os
    induction os with
    | nil => intro t h _; simp [h]
    | cons o os ih =>
      intro t h hp
      obtain ⟨g1, g2⟩ := addPath_good hf t h (pathOf false o) (hp o (by simp))
      obtain ⟨i1, i2, i3⟩ := ih _ g1 (fun x hx => hp x (by simp [hx]))
      refine ⟨i1, by simp only [List.foldl_cons]; rw [i2, addPath_chr], fun q => ?_⟩
      simp only [List.foldl_cons]
      rw [i3, g2]
      simp only [Bool.or_eq_true, decide_eq_true_eq, List.mem_cons, exists_eq_or_imp, or_assoc]
  cases options with
  | nil => contradiction
  | cons o os =>
    have hfirst : Good fold P (addPath (.node '<' false []) (pathOf false o)) ∧
        ∀ q, acc fold (addPath (.node '<' false []) (pathOf false o)) q = decide (Same fold q (pathOf false o)) := by
      cases hpo : pathOf false o with
      | nil =>
        refine ⟨by simp [addPath, Good, GoodL, hlt], fun q => ?_⟩
        cases q with
        | nil => simp [addPath, acc, Same]
        | cons y q => rw [same_cons_nil]; simp [addPath, acc, accL]
      | cons x p =>
        have hx := hp o (by simp)
        rw [hpo] at hx
        refine ⟨?_, fun q => ?_⟩
        · simp [addPath, addChild, Good, GoodL, hlt, chain_good x p (hx x (by simp)) (fun c hc => hx c (by simp [hc]))]
        · cases q with
          | nil => rw [same_nil_cons]; simp [addPath, acc]
          | cons y q =>
            rw [addPath, acc, addChild, accL_cons' _ _ _ _ (chain_chr x p), chain_acc, same_cons]
            by_cases h : fold y = fold x
            · simp [h]
            · rw [if_neg h]; simp [accL, h]
    obtain ⟨g1, g2⟩ := hfirst
    obtain ⟨i1, i2, i3⟩ := key os _ g1 (fun x hx => hp x (by simp [hx]))
    refine ⟨i1, by simp only [trieOf, List.foldl_cons]; rw [i2, addPath_chr]; rfl, fun q => ?_⟩
    simp only [trieOf, List.foldl_cons]
    rw [i3, g2]
    simp

theorem runSeq_append (a b : List Re) (s : Text) : runSeq fold (a ++ b) s = (runSeq fold a s).flatMap (runSeq fold b) := by
  induction a generalizing s with
  | nil => simp [runSeq]
  | cons r a ih =>
    simp only [List.cons_append, runSeq]
    rw [List.flatMap_assoc]
    congr 1
    funext x
    exact ih x

/-- What `prefRun` gives. -/
theorem mem_prefRun {p : Text → Bool} {s t : Text} : t ∈ prefRun p s ↔ ∃ m, s = m ++ t ∧ p m = true := by
  induction s generalizing p with
  | nil =>
    rw [prefRun]
    constructor
    · intro h
      split at h
      · rename_i hp; simp at h; subst h; exact ⟨[], rfl, hp⟩
      · simp at h
    · rintro ⟨m, h, hp⟩
      obtain ⟨rfl, rfl⟩ : m = [] ∧ t = [] := by simpa using h
      simp [hp]
  | cons x s ih =>
    rw [prefRun, List.mem_append, ih]
    constructor
    · rintro (⟨m, rfl, hp⟩ | h)
      · exact ⟨x :: m, rfl, hp⟩
      · split at h
        · rename_i hp; simp at h; subst h; exact ⟨[], rfl, hp⟩
        · simp at h
    · rintro ⟨m, h, hp⟩
      cases m with
      | nil =>
        right
        simp at h
        simp [hp, h]
      | cons y m =>
        obtain ⟨rfl, rfl⟩ : x = y ∧ s = m ++ t := by simpa using h
        exact Or.inl ⟨m, rfl, hp⟩

/-- The longest prefixes come first. -/
theorem prefRun_sorted (p : Text → Bool) (s : Text) : (prefRun p s).Pairwise fun a b => a.length ≤ b.length := by
  induction s generalizing p with
  | nil => rw [prefRun]; split <;> simp
  | cons x s ih =>
    rw [prefRun, List.pairwise_append]
    refine ⟨ih _, by split <;> simp, ?_⟩
    intro a ha b hb
    obtain ⟨m, rfl, _⟩ := mem_prefRun.1 ha
    split at hb
    · simp at hb; subst hb; simp; omega
    · simp at hb

theorem reOf_optimize (hP : ∀ c, P c → Ordinary c) (hf : ∀ c d, P c → P d → fold c = fold d → c = d) (options : List Text)
    (hne : options ≠ []) (hlt : P '<') (hp : ∀ o ∈ options, ∀ c ∈ pathOf false o, P c) :
    reOf (optimizeRegex options) = some (.alt [[.alt [trieRe (trieOf options) ++ [.chr '>']]]]) := by
  obtain ⟨g1, g2, _⟩ := trieOf_good hf options hne hlt hp
  have hr := trie_reads hP _ g1
  have h1 : ∃ s, unbuild (trieOf options) = '<' :: s := by
    cases ht : trieOf options with
    | node c e nx =>
      rw [ht] at g2
      have : c = '<' := g2
      subst this
      rw [unbuild]
      exact ⟨_, rfl⟩
  obtain ⟨s, hs⟩ := h1
  have h2 : optimizeRegex options = '(' :: '<' :: (s ++ ['>', ')']) := by simp [optimizeRegex, hs]
  have h3 : '<' :: (s ++ ['>', ')']) = unbuild (trieOf options) ++ ['>', ')'] := by simp [hs]
  rw [reOf, h2, parse_open1 (by decide), h3, hr]
  have h4 := parse_esc (c := '>') (by decide) [')'] ⟨[], (trieRe (trieOf options)).reverse ++ []⟩ [⟨[], []⟩]
  have h5 : esc '>' ++ [')'] = ['>', ')'] := by decide
  rw [h5] at h4
  rw [h4, parse_close, parse.eq_def]
  simp [Frame.close, Frame.push]

theorem run_whole (hP : ∀ c, P c → Ordinary c) (hf : ∀ c d, P c → P d → fold c = fold d → c = d) (options : List Text)
    (hne : options ≠ []) (hlt : P '<') (hp : ∀ o ∈ options, ∀ c ∈ pathOf false o, P c) (s : Text) :
    (Re.alt [[.alt [trieRe (trieOf options) ++ [.chr '>']]]]).run fold s =
      (match s with
        | [] => []
        | x :: s => if fold x = fold '<' then (prefRun (acc fold (trieOf options)) s).flatMap ((Re.chr '>').run fold) else []) := by
  obtain ⟨g1, g2, _⟩ := trieOf_good hf options hne hlt hp
  have e : (Re.alt [[.alt [trieRe (trieOf options) ++ [.chr '>']]]]).run fold s =
      (runSeq fold (trieRe (trieOf options)) s).flatMap ((Re.chr '>').run fold) := by
    rw [run_alt, runAlt, runAlt, List.append_nil, runSeq_single, run_alt, runAlt, runAlt, List.append_nil, runSeq_append]
    congr 1
    funext x
    exact runSeq_single fold _ x
  rw [e, run_trie hP _ g1, g2]
  cases s with
  | nil => rfl
  | cons x s => simp only; split <;> rfl

/-- The text is one of the items. -/
def Listed (fold : Char → Char) (options : List Text) (m : Text) : Prop :=
  ∃ o ∈ options, Same fold m ('<' :: pathOf false o ++ ['>'])

theorem mem_run (hP : ∀ c, P c → Ordinary c) (hf : ∀ c d, P c → P d → fold c = fold d → c = d) (options : List Text)
    (hne : options ≠ []) (hlt : P '<') (hp : ∀ o ∈ options, ∀ c ∈ pathOf false o, P c) (s t : Text) :
    t ∈ (Re.alt [[.alt [trieRe (trieOf options) ++ [.chr '>']]]]).run fold s ↔ ∃ m, s = m ++ t ∧ Listed fold options m := by
  obtain ⟨_, _, g3⟩ := trieOf_good hf options hne hlt hp
  rw [run_whole hP hf options hne hlt hp]
  constructor
  · intro h
    cases s with
    | nil => simp at h
    | cons x s =>
      simp only at h
      split at h
      · rename_i hx
        obtain ⟨u, hu, ht⟩ := List.mem_flatMap.1 h
        obtain ⟨m, rfl, hm⟩ := mem_prefRun.1 hu
        obtain ⟨o, ho, hs⟩ := (g3 m).1 hm
        cases u with
        | nil => simp [Re.run] at ht
        | cons y u =>
          rw [Re.run] at ht
          split at ht
          · rename_i hy
            simp at ht
            subst ht
            refine ⟨x :: m ++ [y], by simp, o, ho, ?_⟩
            simp only [Same] at hs ⊢
            simp [hx, hy, hs]
          · simp at ht
      · simp at h
  · rintro ⟨m, rfl, o, ho, hs⟩
    have hlen : m.length = (pathOf false o).length + 2 := by
      have := congrArg List.length hs
      simpa using this
    cases m with
    | nil => simp at hlen
    | cons x m =>
      simp only [Same, List.map_cons, List.cons_append, List.cons.injEq] at hs
      obtain ⟨hx, hs⟩ := hs
      have hm : m ≠ [] := by intro h; subst h; simp at hlen
      obtain ⟨a, y, rfl⟩ : ∃ a y, m = a ++ [y] := ⟨_, _, (List.dropLast_concat_getLast hm).symm⟩
      simp only [List.map_append, List.map_cons, List.map_nil] at hs
      obtain ⟨h1, h2⟩ := List.append_inj' hs rfl
      simp only [List.cons.injEq, and_true] at h2
      simp only [List.cons_append, hx, if_true]
      apply List.mem_flatMap.2
      refine ⟨y :: t, mem_prefRun.2 ⟨a, by simp, (g3 _).2 ⟨o, ho, h1⟩⟩, ?_⟩
      simp [Re.run, h2]

theorem run_sorted (hP : ∀ c, P c → Ordinary c) (hf : ∀ c d, P c → P d → fold c = fold d → c = d) (options : List Text)
    (hne : options ≠ []) (hlt : P '<') (hp : ∀ o ∈ options, ∀ c ∈ pathOf false o, P c) (s : Text) :
    ((Re.alt [[.alt [trieRe (trieOf options) ++ [.chr '>']]]]).run fold s).Pairwise fun a b => a.length ≤ b.length := by
  rw [run_whole hP hf options hne hlt hp]
  cases s with
  | nil => simp
  | cons x s =>
    simp only
    split
    · have h := prefRun_sorted (acc fold (trieOf options)) s
      rw [List.pairwise_flatMap]
      constructor
      · intro u _
        cases u with
        | nil => simp [Re.run]
        | cons y u => rw [Re.run]; split <;> simp
      · refine h.imp ?_
        intro a b hab x hx y hy
        cases a with
        | nil => simp [Re.run] at hx
        | cons a1 a =>
          cases b with
          | nil => simp [Re.run] at hy
          | cons b1 b =>
            rw [Re.run] at hx hy
            split at hx
            · split at hy
              · simp at hx hy; subst hx; subst hy; simpa using hab
              · simp at hy
            · simp at hx
    · simp

/-- What `search` gives for an expression whose ways to match are those of `L`, the longest first. -/
theorem search_spec {r : Re} {L : Text → Prop} (hm : ∀ s t, t ∈ r.run fold s ↔ ∃ m, s = m ++ t ∧ L m)
    (hs : ∀ s, (r.run fold s).Pairwise fun a b => a.length ≤ b.length) (s : Text) :
    (search fold r s = none ∧ ∀ pre m post, s = pre ++ m ++ post → ¬ L m) ∨
    ∃ pre m post, search fold r s = some (pre, m, post) ∧ s = pre ++ m ++ post ∧ L m ∧
      ∀ pre' m' post', s = pre' ++ m' ++ post' → L m' →
        pre.length ≤ pre'.length ∧ (pre'.length = pre.length → m'.length ≤ m.length) := by
  induction s with
  | nil =>
    rw [search]
    cases hr : r.run fold [] with
    | nil =>
      left
      refine ⟨rfl, ?_⟩
      intro pre m post h hl
      have : [] ∈ r.run fold [] := (hm [] []).2 ⟨m, by simp at h; simp [h], hl⟩
      rw [hr] at this; simp at this
    | cons t ts =>
      right
      obtain ⟨m, h1, h2⟩ := (hm [] t).1 (by rw [hr]; simp)
      obtain ⟨rfl, rfl⟩ : m = [] ∧ t = [] := by simpa using h1
      refine ⟨[], [], [], rfl, rfl, h2, ?_⟩
      intro pre' m' post' h _
      have h := congrArg List.length h
      simp only [List.length_nil, List.length_append] at h
      simp only [List.length_nil]; omega
  | cons x s ih =>
    rw [search]
    cases hr : r.run fold (x :: s) with
    | cons t ts =>
      right
      obtain ⟨m, h1, h2⟩ := (hm (x :: s) t).1 (by rw [hr]; simp)
      have ht : (x :: s).take ((x :: s).length - t.length) = m := by
        rw [h1]; simp
      refine ⟨[], m, t, by simp only [ht], by simpa using h1, h2, ?_⟩
      intro pre' m' post' h hl
      refine ⟨by simp, fun hp => ?_⟩
      have hp' : pre' = [] := by simpa using hp
      subst hp'
      have hmem : post' ∈ r.run fold (x :: s) := (hm _ _).2 ⟨m', by simpa using h, hl⟩
      have hle : t.length ≤ post'.length := by
        have hsort := hs (x :: s)
        rw [hr] at hmem hsort
        rcases List.mem_cons.1 hmem with rfl | hmem
        · exact Nat.le_refl _
        · exact (List.pairwise_cons.1 hsort).1 _ hmem
      have e1 := congrArg List.length h1
      have e2 := congrArg List.length h
      simp at e1 e2
      omega
    | nil =>
      have hno : ∀ m post, x :: s = m ++ post → ¬ L m := by
        intro m post h hl
        have : post ∈ r.run fold (x :: s) := (hm _ _).2 ⟨m, h, hl⟩
        rw [hr] at this; simp at this
      rcases ih with ⟨h1, h2⟩ | ⟨pre, m, post, h1, h2, h3, h4⟩
      · left
        refine ⟨by simp [h1], ?_⟩
        intro pre m post h
        cases pre with
        | nil => exact hno m post (by simpa using h)
        | cons y pre =>
          simp only [List.cons_append, List.cons.injEq] at h
          exact h2 pre m post h.2
      · right
        refine ⟨x :: pre, m, post, by simp [h1], by simp [h2], h3, ?_⟩
        intro pre' m' post' h hl
        cases pre' with
        | nil => exact absurd hl (hno m' post' (by simpa using h))
        | cons y pre' =>
          simp only [List.cons_append, List.cons.injEq] at h
          obtain ⟨k1, k2⟩ := h4 pre' m' post' h.2 hl
          refine ⟨by simp; omega, fun e => k2 (by simpa using e)⟩

theorem pathOf_plain (a b : Text) (h : ∀ c ∈ a, c ≠ '.' ∧ c ≠ '\\') : pathOf false (a ++ b) = a ++ pathOf false b := by
  induction a with
  | nil => rfl
  | cons c a ih =>
    have hc := h c (by simp)
    simp [pathOf, hc.1, hc.2, ih (fun x hx => h x (by simp [hx]))]

/-- An item is read as its tags. -/
theorem pathOf_item (tags : List Text) (hne : tags ≠ []) (h : ∀ t ∈ tags, ∀ c ∈ t, c ≠ '.' ∧ c ≠ '\\') :
    '<' :: pathOf false (itemText tags) ++ ['>'] = tagText tags := by
  induction tags with
  | nil => contradiction
  | cons t ts ih =>
    cases ts with
    | nil =>
      have := pathOf_plain t [] (h t (by simp))
      simp only [List.append_nil] at this
      simp [itemText, tagText, this, pathOf]
    | cons u us =>
      have ih' := ih (by simp) (fun x hx => h x (by simp [hx]))
      have e : itemText (t :: u :: us) = t ++ '.' :: itemText (u :: us) := by
        simp [itemText, List.intercalate, List.intersperse]
      rw [e, pathOf_plain t _ (h t (by simp))]
      have e2 : pathOf false ('.' :: itemText (u :: us)) = '>' :: '<' :: pathOf false (itemText (u :: us)) := by simp [pathOf]
      rw [e2]
      have e3 : tagText (t :: u :: us) = '<' :: t ++ '>' :: tagText (u :: us) := by simp [tagText]
      rw [e3, ← ih']
      simp

/-- The items of an attribute that is compiled faithfully: none is empty, and no character of a tag has a
meaning in regular expressions, except `+`, `*` and `?`, which are escaped; `fold` does not confuse two characters
that are used. -/
structure PlainItems (fold : Char → Char) (items : List (List Text)) : Prop where
  some : items ≠ []
  ne : ∀ it ∈ items, it ≠ []
  chars : ∀ it ∈ items, ∀ t ∈ it, ∀ c ∈ t, c ≠ '.' ∧ Ordinary c
  fold : ∀ c d, (c = '<' ∨ c = '>' ∨ ∃ it ∈ items, ∃ t ∈ it, c ∈ t) → (d = '<' ∨ d = '>' ∨ ∃ it ∈ items, ∃ t ∈ it, d ∈ t) →
    fold c = fold d → c = d

theorem pathOf_chars (tags : List Text) (h : ∀ t ∈ tags, ∀ c ∈ t, c ≠ '.' ∧ c ≠ '\\') :
    ∀ c ∈ pathOf false (itemText tags), c = '<' ∨ c = '>' ∨ ∃ t ∈ tags, c ∈ t := by
  intro c hc
  by_cases hne : tags = []
  · subst hne; simp [itemText, pathOf, List.intercalate] at hc
  · have := pathOf_item tags hne h
    have hm : c ∈ tagText tags := by rw [← this]; simp [hc]
    simp only [tagText, List.mem_flatMap] at hm
    obtain ⟨t, ht, hc⟩ := hm
    simp at hc
    rcases hc with h | h | h
    · exact Or.inl h
    · exact Or.inr (Or.inr ⟨t, ht, h⟩)
    · exact Or.inr (Or.inl h)

theorem Ordinary.ne_backslash {c : Char} (h : Ordinary c) : c ≠ '\\' := by
  rintro rfl; simp [Ordinary] at h

theorem items_facts {items : List (List Text)} (h : PlainItems fold items) :
    ∃ re, reOf (optimizeRegex (items.map itemText)) = some re ∧
      (∀ s t, t ∈ re.run fold s ↔ ∃ m, s = m ++ t ∧ ∃ it ∈ items, Same fold m (tagText it)) ∧
      ∀ s, (re.run fold s).Pairwise fun a b => a.length ≤ b.length := by
  let P : Char → Prop := fun c => c = '<' ∨ c = '>' ∨ ∃ it ∈ items, ∃ t ∈ it, c ∈ t
  have hP : ∀ c, P c → Ordinary c := by
    rintro c (rfl | rfl | ⟨it, h1, t, h2, h3⟩)
    · decide
    · decide
    · exact (h.chars it h1 t h2 c h3).2
  have hplain : ∀ it ∈ items, ∀ t ∈ it, ∀ c ∈ t, c ≠ '.' ∧ c ≠ '\\' := fun it h1 t h2 c h3 =>
    ⟨(h.chars it h1 t h2 c h3).1, (h.chars it h1 t h2 c h3).2.ne_backslash⟩
  have hf : ∀ c d, P c → P d → fold c = fold d → c = d := h.fold
  have hne : items.map itemText ≠ [] := by simpa using h.some
  have hp : ∀ o ∈ items.map itemText, ∀ c ∈ pathOf false o, P c := by
    intro o ho c hc
    obtain ⟨it, hit, rfl⟩ := List.mem_map.1 ho
    rcases pathOf_chars it (hplain it hit) c hc with e | e | ⟨t, ht, e⟩
    · exact Or.inl e
    · exact Or.inr (Or.inl e)
    · exact Or.inr (Or.inr ⟨it, hit, t, ht, e⟩)
  refine ⟨_, reOf_optimize hP hf _ hne (Or.inl rfl) hp, ?_, run_sorted hP hf _ hne (Or.inl rfl) hp⟩
  intro s t
  rw [mem_run hP hf _ hne (Or.inl rfl) hp]
  constructor
  · rintro ⟨m, e, o, ho, hs⟩
    obtain ⟨it, hit, rfl⟩ := List.mem_map.1 ho
    rw [pathOf_item it (h.ne it hit) (hplain it hit)] at hs
    exact ⟨m, e, it, hit, hs⟩
  · rintro ⟨m, e, it, hit, hs⟩
    refine ⟨m, e, itemText it, List.mem_map.2 ⟨it, hit, rfl⟩, ?_⟩
    rw [pathOf_item it (h.ne it hit) (hplain it hit)]
    exact hs

/-- **C17** (part: for items whose tags have no character with a meaning in regular expressions but `+`, `*`, `?`).  The
expression compiled for an attribute is well formed, and it matches a whole text exactly when the text is one of the
listed sequences of tags (but for case). -/
theorem C17_exact_partial {items : List (List Text)} (h : PlainItems fold items) :
    ∃ re, reOf (optimizeRegex (items.map itemText)) = some re ∧
      ∀ m, [] ∈ re.run fold m ↔ ∃ it ∈ items, Same fold m (tagText it) := by
  obtain ⟨re, h1, h2, _⟩ := items_facts h
  refine ⟨re, h1, fun m => ?_⟩
  rw [h2]
  constructor
  · rintro ⟨m', e, hl⟩
    have : m = m' := by simpa using e
    subst this; exact hl
  · intro hl
    exact ⟨m, by simp, hl⟩

/-- **C17** (part, the same).  `ApertiumRE::match` and `replace` find the leftmost place where one of the listed
sequences of tags occurs, and there the longest one. -/
theorem C17_search_partial {items : List (List Text)} (h : PlainItems fold items) :
    ∃ re, reOf (optimizeRegex (items.map itemText)) = some re ∧ ∀ s,
      (search fold re s = none ∧ ∀ pre m post, s = pre ++ m ++ post → ¬ ∃ it ∈ items, Same fold m (tagText it)) ∨
      ∃ pre m post, search fold re s = some (pre, m, post) ∧ s = pre ++ m ++ post ∧
        (∃ it ∈ items, Same fold m (tagText it)) ∧
        ∀ pre' m' post', s = pre' ++ m' ++ post' → (∃ it ∈ items, Same fold m' (tagText it)) →
          pre.length ≤ pre'.length ∧ (pre'.length = pre.length → m'.length ≤ m.length) := by
  obtain ⟨re, h1, h2, h3⟩ := items_facts h
  exact ⟨re, h1, fun s => search_spec (L := fun m => ∃ it ∈ items, Same fold m (tagText it)) h2 h3 s⟩

/-- The hypotheses hold of an attribute with several items, some of them beginnings of others. -/
example : PlainItems id [[t!"sg"], [t!"sp"], [t!"pl"], [t!"pl", t!"def"], [t!"p*"]] := by
  refine ⟨by decide, by decide, by decide, fun c d _ _ h => h⟩

example : optimizeRegex ([[t!"sg"], [t!"sp"], [t!"pl"], [t!"pl", t!"def"], [t!"p*"]].map itemText)
    = t!"(<(?:s[gp]|p(?:l(?:><def)?|\\*))>)" := by decide +kernel

/-- **C17 does not hold** when a tag has a hyphen: it becomes a range. The tag `xb` is not listed. -/
theorem C17_hyphen_violation :
    ∃ re, reOf (optimizeRegex ([[t!"xa"], [t!"x-"], [t!"xz"]].map itemText)) = some re ∧
      [] ∈ re.run id t!"<xb>" ∧ [] ∉ re.run id t!"<x->" ∧ ∀ it ∈ [[t!"xa"], [t!"x-"], [t!"xz"]], ¬ Same id t!"<xb>" (tagText it) := by
  refine ⟨.alt [[.alt [[.chr '<', .chr 'x', .set [('a', 'z')], .chr '>']]]], by rfl, by decide +kernel, by decide +kernel, by decide +kernel⟩

/-- **C17 does not hold** when a tag has a vertical bar: a part of a tag is matched. -/
theorem C17_bar_violation :
    ∃ re, reOf (optimizeRegex ([[t!"a|b"]].map itemText)) = some re ∧
      [] ∈ re.run id t!"b>" ∧ ¬ Same id t!"b>" (tagText [t!"a|b"]) := by
  refine ⟨.alt [[.alt [[.chr '<', .chr 'a'], [.chr 'b', .chr '>']]]], by rfl, by decide +kernel, by decide +kernel⟩

end Verif.Regex
