import Verif.Glob.Match
import Verif.Tagger.DiscardProps
/-!
# C90: the table of expressions, and what is preferred
-/
namespace Verif.Glob
open Verif.Transfer Verif.Parts Verif.Tagger
open Verif.Regex (tagText)

/-! ## The table -/

section cache
variable {R : Type} {compile : Text → Outcome R} {found : R → Text → Text}

/-- Without a table: compile and search. -/
def matchNew (compile : Text → Outcome R) (found : R → Text → Text) (s pattern : Text) : Outcome Bool := (compile (expand pattern)).map fun r => decide (found r s ≠ [])

/-- All of them. -/
def matchEach (compile : Text → Outcome R) (found : R → Text → Text) : List (Text × Text) → Outcome (List Bool)
  | [] => .ok []
  | (s, p) :: cs => (matchNew compile found s p).bind fun b => (matchEach compile found cs).map (b :: ·)

/-- Every entry is what its key compiles to. -/
def GoodCache (compile : Text → Outcome R) (c : Text → Option R) : Prop := ∀ p r, c p = some r → compile (expand p) = .ok r

theorem matchAll_each : ∀ (cs : List (Text × Text)) {c : Text → Option R}, GoodCache compile c → matchAll compile found c cs = matchEach compile found cs
  | [], _, _ => rfl
  | (s, p) :: cs, c, hc => by
    simp only [matchAll, matchEach, matchC, matchNew]
    cases h : c p with
    | some r =>
      rw [hc p r h]
      simp only [Outcome.bind, Outcome.map, matchAll_each cs hc]
    | none =>
      cases h2 : compile (expand p) with
      | ok r =>
        have : GoodCache compile (fun q => if q = p then some r else c q) := fun q r' h' => by
          simp only at h'
          by_cases hq : q = p
          · subst hq
            simp only [if_true, Option.some.injEq] at h'
            rw [← h']; exact h2
          · rw [if_neg hq] at h'; exact hc q r' h'
        simp only [Outcome.bind, Outcome.map, matchAll_each cs this]
      | _ => rfl

/-- **C90**: whatever was looked for before, the table never changes the answer. -/
theorem C90_table (cs : List (Text × Text)) : matchAll compile found (fun _ => none) cs = matchEach compile found cs :=
  matchAll_each cs fun p r h => by cases h

end cache

/-! ## Prefer rules -/

/-- An analysis: its tag (the coarse one), its lemma and its (fine) tags. -/
structure Analysis where
  tag : Nat
  lem : Text
  fine : List Text

/-- As it is in the stream. -/
def Analysis.text (a : Analysis) : Text := a.lem ++ tagText a.fine

/-- The choice among some: the last of those that are preferred, but for the first one; the first one if there is none such. -/
def Chosen {α : Type} (P : α → Prop) : List α → α → Prop
  | [], _ => False
  | a :: rest, x => (x = a ∧ ∀ b ∈ rest, ¬ P b) ∨ ∃ r1 r2, rest = r1 ++ x :: r2 ∧ P x ∧ ∀ b ∈ r2, ¬ P b

/-- Some prefer rule fits. -/
def Preferred (fold : Char → Char) (rules : List (List Item)) (a : Analysis) : Prop := ∃ is ∈ rules, Within fold is a.fine

/-- The loop over the rules in `add_tag` (tagger_word.cc:110-117). -/
def prefers (fold : Char → Char) (rules : List (List Item)) (lf : Text) : Bool := rules.any fun is => hit fold (globRe is) lf

/-- All analyses of a word are added (e.g. file_morpho_stream.cc:180-240). -/
def addAll (fold : Char → Char) (rules : List (List Item)) (w : TW) (as : List Analysis) : TW :=
  as.foldl (fun w a => w.addTag (prefers fold rules) a.tag a.text) w

variable {fold : Char → Char} {rules : List (List Item)}

theorem prefers_iff (hf : Folds fold) (hr : ∀ is ∈ rules, PlainPattern is ∧ is ≠ []) {a : Analysis} (ha : Form a.lem a.fine) :
    prefers fold rules a.text = true ↔ Preferred fold rules a := by
  simp only [prefers, List.any_eq_true, Preferred]
  constructor
  · rintro ⟨is, h1, h2⟩; exact ⟨is, h1, (C90_match_partial hf (hr is h1).1 (hr is h1).2 ha).1 h2⟩
  · rintro ⟨is, h1, h2⟩; exact ⟨is, h1, (C90_match_partial hf (hr is h1).1 (hr is h1).2 ha).2 h2⟩

theorem mget_mset (k k' : Nat) (v : Text) : ∀ (l : List (Nat × Text)), mget k (mset k' v l) = if k = k' then v else mget k l
  | [] => by
    by_cases h : k = k'
    · simp [mset, mget, h]
    · simp [mset, mget, h, Ne.symm h]
  | (a, b) :: l => by
    have ih := mget_mset k k' v l
    simp only [mget] at ih ⊢
    simp only [mset]
    by_cases h1 : k' < a
    · rw [if_pos h1]
      by_cases h : k = k'
      · simp [h]
      · simp [h, Ne.symm h]
    · rw [if_neg h1]
      by_cases h2 : k' = a
      · subst h2
        rw [if_pos rfl]
        by_cases h : k = k'
        · simp [h]
        · simp [h, Ne.symm h]
      · rw [if_neg h2]
        by_cases h : k = a
        · subst h; simp [Ne.symm h2]
        · simp only [List.find?_cons, Ne.symm h, decide_false] at ih ⊢
          rw [ih]

theorem addTag_tags (p : Text → Bool) (w : TW) (t : Nat) (lf : Text) (k : Nat) : k ∈ (w.addTag p t lf).tags ↔ k = t ∨ k ∈ w.tags := by
  simp only [TW.addTag]
  by_cases h : t ∈ w.tags
  · rw [if_pos h]
    have : k = t ∨ k ∈ w.tags ↔ k ∈ w.tags := ⟨fun hk => hk.elim (fun e => e ▸ h) id, Or.inr⟩
    rw [this]; split <;> rfl
  · rw [if_neg h]; exact Coll.mem_sinsert _ _ _

/-- The tag is there: the last preferred analysis of it, or what there was. -/
theorem addAll_old (hf : Folds fold) (hr : ∀ is ∈ rules, PlainPattern is ∧ is ≠ []) (t : Nat) : ∀ (as : List Analysis) (w : TW), (∀ a ∈ as, Form a.lem a.fine) → t ∈ w.tags →
    (mget t (addAll fold rules w as).forms = mget t w.forms ∧ ∀ b ∈ as.filter (fun a => decide (a.tag = t)), ¬ Preferred fold rules b) ∨
    ∃ x r1 r2, as.filter (fun a => decide (a.tag = t)) = r1 ++ x :: r2 ∧ Preferred fold rules x ∧ (∀ b ∈ r2, ¬ Preferred fold rules b) ∧
      mget t (addAll fold rules w as).forms = x.text
  | [], w, _, _ => Or.inl ⟨rfl, by simp⟩
  | a :: as, w, ha, ht => by
    have hstep : addAll fold rules w (a :: as) = addAll fold rules (w.addTag (prefers fold rules) a.tag a.text) as := rfl
    have ih := addAll_old hf hr t as (w.addTag (prefers fold rules) a.tag a.text) (fun b hb => ha b (by simp [hb])) ((addTag_tags _ _ _ _ _).2 (Or.inr ht))
    rw [hstep]
    have hpi := prefers_iff hf hr (ha a (by simp))
    by_cases hat : a.tag = t
    · rw [List.filter_cons, if_pos (by simpa using hat)]
      have hw : (w.addTag (prefers fold rules) a.tag a.text) = if prefers fold rules a.text = true then { w with forms := mset a.tag a.text w.forms } else w := by
        simp only [TW.addTag]; rw [if_pos (hat ▸ ht)]
      by_cases hp : prefers fold rules a.text = true
      · rw [hw, if_pos hp] at ih ⊢
        have hm : mget t (mset a.tag a.text w.forms) = a.text := by rw [mget_mset, if_pos hat.symm]
        rcases ih with ⟨h1, h2⟩ | ⟨x, r1, r2, h1, h2, h3, h4⟩
        · exact Or.inr ⟨a, [], _, rfl, hpi.1 hp, h2, by rw [h1]; exact hm⟩
        · exact Or.inr ⟨x, a :: r1, r2, by rw [h1]; rfl, h2, h3, h4⟩
      · rw [hw, if_neg hp] at ih ⊢
        rcases ih with ⟨h1, h2⟩ | ⟨x, r1, r2, h1, h2, h3, h4⟩
        · refine Or.inl ⟨h1, fun b hb => ?_⟩
          rcases List.mem_cons.1 hb with rfl | hb
          · exact fun h => hp (hpi.2 h)
          · exact h2 b hb
        · exact Or.inr ⟨x, a :: r1, r2, by rw [h1]; rfl, h2, h3, h4⟩
    · rw [List.filter_cons, if_neg (by simpa using hat)]
      have hm : mget t (w.addTag (prefers fold rules) a.tag a.text).forms = mget t w.forms := by
        simp only [TW.addTag]
        split
        · split
          · simp only [mget_mset, if_neg (Ne.symm hat)]
          · rfl
        · simp only [mget_mset, if_neg (Ne.symm hat)]
      rw [hm] at ih
      exact ih

/-- **C90**: of the analyses of a word with the same (coarse) tag, the tagger keeps the last that a prefer rule fits, or else the first. -/
theorem C90_prefer_partial (hf : Folds fold) (hr : ∀ is ∈ rules, PlainPattern is ∧ is ≠ []) (t : Nat) : ∀ (as : List Analysis) (w : TW), (∀ a ∈ as, Form a.lem a.fine) →
    t ∉ w.tags → (∃ a ∈ as, a.tag = t) →
    ∃ x, Chosen (Preferred fold rules) (as.filter fun a => decide (a.tag = t)) x ∧ mget t (addAll fold rules w as).forms = x.text
  | [], _, _, _, h => by obtain ⟨a, h, _⟩ := h; cases h
  | a :: as, w, ha, ht, hex => by
    have hstep : addAll fold rules w (a :: as) = addAll fold rules (w.addTag (prefers fold rules) a.tag a.text) as := rfl
    rw [hstep]
    by_cases hat : a.tag = t
    · rw [List.filter_cons, if_pos (by simpa using hat)]
      have hw : (w.addTag (prefers fold rules) a.tag a.text) = { w with tags := sinsert a.tag w.tags, forms := mset a.tag a.text w.forms } := by
        simp only [TW.addTag]; rw [if_neg (hat ▸ ht)]
      have := addAll_old hf hr t as (w.addTag (prefers fold rules) a.tag a.text) (fun b hb => ha b (by simp [hb])) ((addTag_tags _ _ _ _ _).2 (Or.inl hat.symm))
      rcases this with ⟨h1, h2⟩ | ⟨x, r1, r2, h1, h2, h3, h4⟩
      · refine ⟨a, Or.inl ⟨rfl, h2⟩, ?_⟩
        rw [h1, hw]
        simp only [mget_mset, if_pos hat.symm]
      · exact ⟨x, Or.inr ⟨r1, r2, h1, h2, h3⟩, h4⟩
    · rw [List.filter_cons, if_neg (by simpa using hat)]
      refine C90_prefer_partial hf hr t as _ (fun b hb => ha b (by simp [hb])) (fun h => ?_) ?_
      · rcases (addTag_tags _ _ _ _ _).1 h with h | h
        · exact hat h.symm
        · exact ht h
      · obtain ⟨b, hb, hbt⟩ := hex
        rcases List.mem_cons.1 hb with rfl | hb
        · exact absurd hbt hat
        · exact ⟨b, hb, hbt⟩

/-- **C90**: a word loses exactly the analyses that a discard rule fits (as C23: the analysis of the lowest tag is not one of them, and the length of the text of the pattern is not
the number of those that stay). -/
theorem C90_discard_partial (hf : Folds fold) {is : List Item} (hp : PlainPattern is) (hn : is ≠ []) (w : TW) (a0 : Analysis) (r : List Analysis)
    (hw : w.forms = (a0 :: r).map fun a => (a.tag, a.text)) (hr : r ≠ []) (ha : ∀ a ∈ a0 :: r, Form a.lem a.fine) (h0 : ¬ Within fold is a0.fine)
    (hs : Sorted (keysOf w.forms)) (ht : w.tags = keysOf w.forms) (plen : Nat)
    (hl : plen ≠ ((a0 :: r).filter fun a => !hit fold (globRe is) a.text).length) :
    ∃ keep, List.Sublist keep (a0 :: r) ∧ (∀ a ∈ a0 :: r, a ∈ keep ↔ ¬ Within fold is a.fine) ∧
      w.discard (hit fold (globRe is)) plen = { w with forms := keep.map (fun a => (a.tag, a.text)), tags := keep.map (·.tag) } := by
  have hm : ∀ a ∈ a0 :: r, hit fold (globRe is) a.text = true ↔ Within fold is a.fine := fun a h => C90_match_partial hf hp hn (ha a h)
  have hfil : w.forms.filter (fun x => !hit fold (globRe is) x.2) = ((a0 :: r).filter fun a => !hit fold (globRe is) a.text).map fun a => (a.tag, a.text) := by
    rw [hw, List.filter_map]; rfl
  refine ⟨(a0 :: r).filter fun a => !hit fold (globRe is) a.text, List.filter_sublist, fun a h => ?_, ?_⟩
  · rw [List.mem_filter, ← hm a h]
    cases hit fold (globRe is) a.text <;> simp [h]
  · have h00 : hit fold (globRe is) a0.text = false := by
      cases h : hit fold (globRe is) a0.text with
      | false => rfl
      | true => exact absurd ((hm a0 (by simp)).1 h) h0
    have := C23_discard_partial (hit fold (globRe is)) plen w a0.tag a0.text (r.map fun a : Analysis => (a.tag, a.text)) hw (by simpa using hr) h00 hs ht
      (by rw [hfil, List.length_map]; exact hl)
    rw [this, hfil]
    simp [keysOf]

/-! ## Examples -/

/-- Nothing is folded. -/
example : Folds id := ⟨fun _ => Iff.rfl, fun _ => Iff.rfl⟩

example : PlainPattern [.tag t!"vblex", .star, .tag t!"sg"] ∧ expand t!"<vblex><*><sg>" = t!"<vblex>(<[^>]+>)+<sg>" := by
  refine ⟨fun t h c hc => ?_, by decide +kernel⟩
  have h : t = t!"vblex" ∨ t = t!"sg" := by simpa using h
  rcases h with rfl | rfl
  · have : ∀ c ∈ t!"vblex", PlainChar c := by unfold PlainChar; decide
    exact this c hc
  · have : ∀ c ∈ t!"sg", PlainChar c := by unfold PlainChar; decide
    exact this c hc

example : Form t!"house" [t!"n", t!"sg"] := ⟨by decide, by decide⟩

example : Within id [.tag t!"vblex", .star, .tag t!"sg"] [t!"vblex", t!"pri", t!"p3", t!"sg"] :=
  ⟨[], [t!"vblex", t!"pri", t!"p3", t!"sg"], [], by decide, .tag rfl (.star (vs := [t!"pri", t!"p3"]) (by decide) (.tag rfl .nil))⟩

/-- The analyses of one word with tag 3, of which the second is preferred; the third is of another tag. -/
example : (addAll id [[.tag t!"inf"]] {} [⟨3, t!"be", [t!"vb", t!"pri"]⟩, ⟨3, t!"be", [t!"vb", t!"inf"]⟩, ⟨4, t!"bee", [t!"n", t!"inf"]⟩]).forms =
    [(3, t!"be<vb><inf>"), (4, t!"bee<n><inf>")] := by decide +kernel

/-- **C90 is false** of tags with characters that mean something in expressions: a pattern with the tag `a+` does not fit a form that has this tag, and fits one that has not. -/
theorem C90_meta_violation : (∃ r : PRe, r.text = expand t!"<a+>" ∧ hit id r t!"x<a+>" = false ∧ hit id r t!"x<aa>" = true) ∧ expand t!"<*a>" = t!"<*a>" :=
  ⟨⟨.seq [.chr '<', .plus (.chr 'a'), .chr '>'], by decide +kernel⟩, by decide +kernel⟩

/-- **C90 is false** of lexical forms with escaped angle brackets in the lemma: a star stands for what they enclose. -/
theorem C90_lemma_violation : hit id (globRe [.star, .tag t!"pl"]) t!"a\\<b\\><pl>" = true ∧ ¬ Within id [.star, .tag t!"pl"] [t!"pl"] := by
  refine ⟨by decide +kernel, ?_⟩
  rintro ⟨tp, us, tq, h, hg⟩
  have hl : 2 ≤ us.length := by
    generalize his : [Item.star, .tag t!"pl"] = is at hg
    cases hg with
    | nil => cases his
    | tag => cases his
    | @star vs is us hv hg =>
      cases his
      cases hg with
      | @tag _ u _ us _ _ =>
        have := List.length_pos_iff.2 hv
        simp; omega
  have := congrArg List.length h
  simp only [List.length_append, List.length_singleton] at this
  omega

end Verif.Glob
