import Verif.Crx.Bounds
import Verif.Crx.Exist
import Verif.Caps.RestoreProps
/-!
# The rules of apertium-compile-caps decide which case is restored (C73)
-/
namespace Verif.Crx
open Verif.Stream (Item WF render)
open Verif.Caps

section
variable {upper : Nat → Bool} {one : Int} {minimize : Trans → Trans} {rs : List Rule} {s : RSt}

theorem matchesAt_length {σ : Type} (A : Auto σ) (q : σ) (ws : List SWord) : (Caps.matchesAt A q ws).length = ws.length := by
  induction ws generalizing q with
  | nil => rfl
  | cons w ws ih => simp [Caps.matchesAt, ih]

theorem matchesAt_iff (hm : ∀ t, Minimal t (minimize t)) (hc : compile upper one minimize rs = some s) (hp : ∀ r ∈ rs, AllEach Match.Plain r.body)
    (ws : List (SWord × Seen)) (hs : ∀ x ∈ ws, Sees x.1 x.2) (done : List Seen) (hd : ∀ w ∈ done, w.Plain) (q : List Thread) (hq : Known upper s.trans done q)
    (i : Nat) (l : List (Text × List Mark)) (hl : (Caps.matchesAt (auto upper s) q (ws.map Prod.fst))[i]? = some l) (p : Text × List Mark) :
    p ∈ l ↔ ∃ k ms, p = (ruleId k, ms) ∧ MatchesAt upper rs (done.reverse ++ (ws.map Prod.snd).take (i + 1)) k ms := by
  have hg := compile_good hm hc (fun r hr => allEach_named _ (hp r hr))
  induction ws generalizing done q i with
  | nil => simp [Caps.matchesAt] at hl
  | cons x ws ih =>
    have hx := hs x (by simp)
    have h1 := known_word hg hq hx.1 hx.2
    cases i with
    | zero =>
      simp only [List.map_cons, Caps.matchesAt, List.getElem?_cons_zero, Option.some.injEq] at hl
      rw [← hl]
      have := paths_iff hm hc hp hd hx.2 h1 p
      simpa [auto] using this
    | succ i =>
      simp only [List.map_cons, Caps.matchesAt, List.getElem?_cons_succ] at hl
      have h2 := ih (fun y hy => hs y (by simp [hy])) (x.2 :: done) (by
        intro v hv
        rcases List.mem_cons.1 hv with rfl | hv
        · exact hx.2
        · exact hd v hv) _ (known_next hg h1) i hl
      refine h2.trans ?_
      simp

/-- **C73** At each word of a section, the restorer with the compiled rules finds exactly the rules that match there, with the marks that they give to the last
words. -/
theorem C73_matches_partial (hm : ∀ t, Minimal t (minimize t)) (hc : compile upper one minimize rs = some s) (hp : ∀ r ∈ rs, AllEach Match.Plain r.body)
    (ws : List (SWord × Seen)) (hs : ∀ x ∈ ws, Sees x.1 x.2) (i : Nat) (l : List (Text × List Mark))
    (hl : (Caps.matchesAt (auto upper s) ((auto upper s).nullBoundary (auto upper s).start) (ws.map Prod.fst))[i]? = some l) (p : Text × List Mark) :
    p ∈ l ↔ ∃ k ms, p = (ruleId k, ms) ∧ MatchesAt upper rs ((ws.map Prod.snd).take (i + 1)) k ms := by
  have hg := compile_good hm hc (fun r hr => allEach_named _ (hp r hr))
  exact matchesAt_iff hm hc hp ws hs [] (by simp) _ (known_start hg) i l hl p

/-! ## Weights -/

theorem ruleId_inj {a b : Nat} (h : ruleId a = ruleId b) : a = b := by
  unfold ruleId at h
  have h1 := List.append_cancel_left (List.append_cancel_right h)
  have h2 : Nat.ofDigitChars 10 (Nat.toDigits 10 a) 0 = Nat.ofDigitChars 10 (Nat.toDigits 10 b) 0 := by rw [h1]
  rwa [Nat.ofDigitChars_toDigits (by omega) (by omega), Nat.ofDigitChars_toDigits (by omega) (by omega)] at h2

theorem weightOf_id (l : List Int) (k i : Nat) : weightOf k l (ruleId (k + i)) = l[i]?.getD 0 := by
  induction l generalizing k i with
  | nil => simp [weightOf]
  | cons w l ih =>
    cases i with
    | zero => simp [weightOf]
    | succ i =>
      have : ruleId (k + (i + 1)) ≠ ruleId k := fun h => by have := ruleId_inj h; omega
      simp only [weightOf, if_neg this]
      have := ih (k + 1) i
      rw [show k + 1 + i = k + (i + 1) by omega] at this
      simpa using this

theorem worth_value (one : Int) (r : Rule) : r.worth one = r.value one := by
  unfold Rule.worth Rule.value
  cases r.weight with
  | none => rfl
  | some w =>
    by_cases h : w ≤ -2147483647 * one
    · simp [Option.filter, h, Int.not_lt.2 h]
    · simp [Option.filter, h, Int.not_le.1 h]

/-- **C73** Different rules have different names, and the weight of a rule is the one in its attribute, or one. -/
theorem C73_weights (hc : compile upper one minimize rs = some s) (k : Nat) (r : Rule) (hr : rs[k]? = some r) :
    (auto upper s).weight (ruleId k) = r.worth one ∧ ∀ j, ruleId j = ruleId k → j = k := by
  refine ⟨?_, fun j h => ruleId_inj h⟩
  unfold compile at hc
  rw [Option.map_eq_some_iff] at hc
  obtain ⟨a, ha, rfl⟩ := hc
  have hw := (compileRules_accepts ha).2
  show weightOf 0 a.weights (ruleId k) = _
  have := weightOf_id a.weights 0 k
  rw [Nat.zero_add] at this
  rw [this, hw, worth_value]
  simp [hr]

/-! ## Sums -/

theorem sum_perm {l l' : List Int} (h : l.Perm l') : l.sum = l'.sum := by
  induction h with
  | nil => rfl
  | cons x _ ih => simp [ih]
  | swap x y l => simp only [List.sum_cons]; omega
  | trans _ _ h1 h2 => rw [h1, h2]

theorem sum_zero (n : Nat) (f : Nat → Int) (h : ∀ k, k < n → f k = 0) : ((List.range n).map f).sum = 0 := by
  induction n with
  | zero => rfl
  | succ n ih =>
    rw [List.range_succ, List.map_append, List.sum_append, ih (fun k hk => h k (by omega))]
    simp [h n (by omega)]

theorem sum_shift (i d : Nat) (f : Nat → Int) (h : ∀ k, k < i → f k = 0) :
    ((List.range (i + d)).map f).sum = ((List.range d).map fun t => f (i + t)).sum := by
  induction d with
  | zero => exact sum_zero i f h
  | succ d ih =>
    rw [← Nat.add_assoc, List.range_succ, List.map_append, List.sum_append, ih, List.range_succ, List.map_append, List.sum_append]
    rfl

theorem sum_filterMap (l : List Nat) (g : Nat → Option (Text × List Mark)) (F : Text × List Mark → Int) :
    ((l.filterMap g).map F).sum = (l.map fun k => ((g k).map F).getD 0).sum := by
  induction l with
  | nil => rfl
  | cons a l ih =>
    cases h : g a with
    | none => simp [h, ih]
    | some b => simp [h, ih]

/-! ## Each rule counts once -/

theorem firstPaths_nodup (seen : List Text) (ps : List (Text × List Mark)) :
    ((firstPaths seen ps).map Prod.fst).Nodup ∧ ∀ p ∈ firstPaths seen ps, p.1 ∉ seen := by
  induction ps generalizing seen with
  | nil => simp [firstPaths]
  | cons p ps ih =>
    obtain ⟨r, x⟩ := p
    simp only [firstPaths]
    split
    · exact ih seen
    · rename_i h
      obtain ⟨h1, h2⟩ := ih (r :: seen)
      refine ⟨?_, ?_⟩
      · simp only [List.map_cons, List.nodup_cons]
        refine ⟨?_, h1⟩
        intro hr
        obtain ⟨p, hp, rfl⟩ := List.mem_map.1 hr
        exact h2 p hp (by simp)
      · intro p hp
        rcases List.mem_cons.1 hp with rfl | hp
        · exact h
        · exact fun hx => h2 p hp (by simp [hx])

theorem firstPaths_covers (seen : List Text) (ps : List (Text × List Mark)) (p : Text × List Mark) (hp : p ∈ ps) (hs : p.1 ∉ seen) :
    ∃ x, (p.1, x) ∈ firstPaths seen ps := by
  induction ps generalizing seen with
  | nil => simp at hp
  | cons a ps ih =>
    obtain ⟨r, x⟩ := a
    simp only [firstPaths]
    split
    · rename_i hr
      rcases List.mem_cons.1 hp with rfl | hp
      · exact absurd hr hs
      · exact ih seen hp hs
    · by_cases he : p.1 = r
      · exact ⟨x, by simp [he]⟩
      · rcases List.mem_cons.1 hp with rfl | hp
        · exact absurd rfl he
        · obtain ⟨y, hy⟩ := ih (r :: seen) hp (by simp [he, hs])
          exact ⟨y, by simp [hy]⟩

theorem nodup_of_map {α β : Type} (f : α → β) {l : List α} (h : (l.map f).Nodup) : l.Nodup := by
  induction l with
  | nil => exact List.nodup_nil
  | cons a l ih =>
    simp only [List.map_cons, List.nodup_cons] at h ⊢
    exact ⟨fun ha => h.1 (List.mem_map_of_mem ha), ih h.2⟩

theorem nodup_rules (Q : Nat → Option (List Mark)) (n : Nat) : ((List.range n).filterMap fun k => (Q k).map fun ms => (ruleId k, ms)).Nodup := by
  induction n with
  | zero => exact List.nodup_nil
  | succ n ih =>
    rw [List.range_succ, List.filterMap_append, List.nodup_append]
    refine ⟨ih, ?_, ?_⟩
    · cases h : Q n <;> simp [h]
    · intro a ha b hb
      simp only [List.mem_filterMap, List.mem_range, Option.map_eq_some_iff, List.mem_singleton] at ha hb
      obtain ⟨k, hk, ms, _, rfl⟩ := ha
      obtain ⟨k', rfl, ms', _, rfl⟩ := hb
      intro h
      have := ruleId_inj (congrArg Prod.fst h)
      omega

theorem firstPaths_sum (K : Nat) (Q : Nat → Option (List Mark)) (hK : ∀ k ms, Q k = some ms → k < K) (l : List (Text × List Mark))
    (hl : ∀ p, p ∈ l ↔ ∃ k ms, p = (ruleId k, ms) ∧ Q k = some ms) (F : Text × List Mark → Int) :
    ((firstPaths [] l).map F).sum = ((List.range K).map fun k => ((Q k).map fun ms => F (ruleId k, ms)).getD 0).sum := by
  have hperm : (firstPaths [] l).Perm ((List.range K).filterMap fun k => (Q k).map fun ms => (ruleId k, ms)) := by
    apply (List.perm_ext_iff_of_nodup (nodup_of_map _ (firstPaths_nodup [] l).1) (nodup_rules Q K)).2
    intro p
    simp only [List.mem_filterMap, List.mem_range, Option.map_eq_some_iff]
    constructor
    · intro h
      obtain ⟨k, ms, rfl, h2⟩ := (hl p).1 (firstPaths_sub _ _ _ h)
      exact ⟨k, hK k ms h2, ms, h2, rfl⟩
    · rintro ⟨k, _, ms, h1, rfl⟩
      obtain ⟨x, hx⟩ := firstPaths_covers [] l (ruleId k, ms) ((hl _).2 ⟨k, ms, rfl, h1⟩) (by simp)
      obtain ⟨k', ms', h2, h3⟩ := (hl _).1 (firstPaths_sub _ _ _ hx)
      have h4 := ruleId_inj (congrArg Prod.fst h2)
      subst h4
      rw [h1] at h3
      injection h3 with h3
      subst h3
      rw [h2] at hx
      exact hx
  rw [sum_perm (hperm.map F), sum_filterMap]
  congr 1
  apply List.map_congr_left
  intro k _
  cases Q k <;> rfl

theorem credit_sum {σ : Type} (A : Auto σ) (m : Mark) (ls : List (List (Text × List Mark))) (j : Nat) :
    credit A m j ls = ((List.range ls.length).map fun t => (ls[t]?.map fun l => hits A m (j + t) (firstPaths [] l)).getD 0).sum := by
  induction ls generalizing j with
  | nil => rfl
  | cons l ls ih =>
    simp only [credit, List.length_cons, List.range_succ_eq_map, List.map_cons, List.sum_cons, List.map_map, List.getElem?_cons_zero, Option.map_some,
      Option.getD_some, Nat.add_zero]
    rw [ih]
    congr 2
    apply List.map_congr_left
    intro t _
    simp only [Function.comp, List.getElem?_cons_succ]
    rw [show j + 1 + t = j + (t + 1) by omega]

/-- The weight from the matches is the number of votes. -/
theorem credit_votes (hm : ∀ t, Minimal t (minimize t)) (hc : compile upper one minimize rs = some s) (hp : ∀ r ∈ rs, AllEach Match.Plain r.body)
    (ws : List (SWord × Seen)) (hs : ∀ x ∈ ws, Sees x.1 x.2) (M : Nat → Nat → Option (List Mark)) (hM : OneWay upper rs (ws.map Prod.snd) M) (i : Nat)
    (hi : i < ws.length) (m : Mark) :
    credit (auto upper s) m 0 ((Caps.matchesAt (auto upper s) ((auto upper s).nullBoundary (auto upper s).start) (ws.map Prod.fst)).drop i) =
      votes one rs M ws.length i m := by
  have hlen := matchesAt_length (auto upper s) ((auto upper s).nullBoundary (auto upper s).start) (ws.map Prod.fst)
  have hmt := C73_matches_partial hm hc hp ws hs
  generalize Caps.matchesAt (auto upper s) ((auto upper s).nullBoundary (auto upper s).start) (ws.map Prod.fst) = L at hlen hmt
  rw [List.length_map] at hlen
  rw [credit_sum, List.length_drop, hlen]
  unfold votes
  have e : ws.length = i + (ws.length - i) := by omega
  conv => rhs; rw [e]
  rw [sum_shift i (ws.length - i) _ (fun n hn => sum_zero _ _ (fun k _ => by
    unfold share
    rw [if_neg]
    rintro ⟨h, _⟩
    omega))]
  congr 1
  apply List.map_congr_left
  intro t ht
  have ht' : i + t < ws.length := by have := List.mem_range.1 ht; omega
  obtain ⟨l, hl⟩ : ∃ l, L[i + t]? = some l := ⟨_, List.getElem?_eq_getElem (by omega)⟩
  simp only [List.getElem?_drop, hl, Option.map_some, Option.getD_some, Nat.zero_add]
  have hl2 : ∀ p, p ∈ l ↔ ∃ k ms, p = (ruleId k, ms) ∧ M (i + t) k = some ms := by
    intro p
    rw [hmt (i + t) l hl p]
    constructor
    · rintro ⟨k, ms, h1, h2⟩
      exact ⟨k, ms, h1, (hM (i + t) k ms (by simpa using ht')).2 h2⟩
    · rintro ⟨k, ms, h1, h2⟩
      exact ⟨k, ms, h1, (hM (i + t) k ms (by simpa using ht')).1 h2⟩
  have hK : ∀ k ms, M (i + t) k = some ms → k < rs.length := by
    intro k ms h
    obtain ⟨r, hr, _⟩ := (hM (i + t) k ms (by simpa using ht')).1 h
    exact (List.getElem?_eq_some_iff.1 hr).1
  unfold hits
  rw [firstPaths_sum rs.length (M (i + t)) hK l hl2]
  congr 1
  apply List.map_congr_left
  intro k hk
  obtain ⟨r, hr⟩ : ∃ r, rs[k]? = some r := ⟨_, List.getElem?_eq_getElem (List.mem_range.1 hk)⟩
  have hw := (C73_weights hc k r hr).1
  unfold share
  rw [hr, Nat.add_sub_cancel_left]
  cases M (i + t) k with
  | none => simp
  | some ms => simp [hw]

/-! ## The output -/

theorem variants_congr (cs : Casing) (delete : Bool) (f g : Nat → Mark) (i : Nat) (ws : List SWord) (h : ∀ n, i ≤ n → f n = g n) :
    variants cs delete f i ws = variants cs delete g i ws := by
  induction ws generalizing i with
  | nil => rfl
  | cons w ws ih => simp only [variants]; rw [h i (Nat.le_refl _), ih (i + 1) (fun n hn => h n (by omega))]

theorem chosen_variants {σ : Type} (A : Auto σ) (cs : Casing) (delete : Bool) (L : List (List (Text × List Mark))) {ws : List SWord}
    {ls : List (List (Text × List Mark))} {o : Text} (h : Chosen A cs delete ws ls o) (i : Nat) (hL : ls = L.drop i) (hi : i ≤ L.length) :
    ∃ f, (∀ n, i ≤ n → n < L.length → IsBest (fun x => credit A x 0 (L.drop n)) (f n)) ∧ o = variants cs delete f i ws := by
  induction h generalizing i with
  | nil =>
    have := congrArg List.length hL
    simp at this
    exact ⟨fun _ => .skip, fun n h1 h2 => by omega, rfl⟩
  | @cons w ws l ls m o h1 _ ih =>
    have hlt : i < L.length := by
      have := congrArg List.length hL
      simp at this
      omega
    have hL' : ls = L.drop (i + 1) := by
      have := congrArg List.tail hL
      simpa using this
    obtain ⟨f, h2, rfl⟩ := ih (i + 1) hL' hlt
    refine ⟨fun n => if n = i then m else f n, ?_, ?_⟩
    · intro n hn hn2
      by_cases he : n = i
      · subst he
        simp only [if_true]
        rw [← hL]
        exact h1
      · simp only [if_neg he]
        exact h2 n (by omega) hn2
    · simp only [variants, if_true]
      rw [variants_congr cs delete f (fun n => if n = i then m else f n) (i + 1) ws (fun n hn => by rw [if_neg (by omega)])]

theorem sees_noBoundary {w : SWord} {v : Seen} (h : Sees w v) : NoBoundary (unitForm w.inside) (unitSurf w.inside) := by
  obtain ⟨h1, h2⟩ := h
  intro t ht
  rw [h1.form, h1.surf]
  exact h2.tags t (by simp [internal] at ht ⊢; rcases ht with rfl | rfl <;> simp)

theorem chosenAll_elected (hm : ∀ t, Minimal t (minimize t)) (hc : compile upper one minimize rs = some s) (hp : ∀ r ∈ rs, AllEach Match.Plain r.body)
    (cs : Casing) (delete : Bool) (secs : List (List (SWord × Seen))) (hs : ∀ ws ∈ secs, ∀ x ∈ ws, Sees x.1 x.2) (o : Text)
    (h : ChosenAll (auto upper s) cs delete (secs.map (List.map Prod.fst)) o) : ElectedAll upper one rs cs delete secs o := by
  induction secs generalizing o with
  | nil => cases h; exact .nil
  | cons ws secs ih =>
    cases h with
    | cons h1 h2 =>
      refine .cons ?_ (ih (fun x hx => hs x (by simp [hx])) _ h2)
      intro M hM
      obtain ⟨f, h3, h4⟩ := chosen_variants _ cs delete _ h1 0 rfl (Nat.zero_le _)
      refine ⟨f, fun i hi => ?_, h4⟩
      have h5 := h3 i (Nat.zero_le _) (by rw [matchesAt_length, List.length_map]; exact hi)
      have e : (fun x => credit (auto upper s) x 0 ((Caps.matchesAt (auto upper s) ((auto upper s).nullBoundary (auto upper s).start) (ws.map Prod.fst)).drop i)) =
          votes one rs M ws.length i := funext fun m => credit_votes hm hc hp ws (hs ws (by simp)) M hM i hi m
      rw [e] at h5
      exact h5

/-- The stream of sections that end with NUL. -/
def sections (secs : List (List (SWord × Seen))) : List Item := secs.flatMap fun ws => ws.flatMap (fun x => x.1.items) ++ [.nul]

theorem sections_eq (secs : List (List (SWord × Seen))) :
    sections secs = (secs.map (List.map Prod.fst)).flatMap fun s => s.flatMap SWord.items ++ [.nul] := by
  unfold sections
  rw [List.flatMap_map]
  congr 1
  funext ws
  rw [List.flatMap_map]

/-- **C73** Restoration with the compiled rules, on sections that end with NUL: every word is written as the variant for which the rules that match it have
the greatest total weight, where the rules match as they are written. -/
theorem C73_restore_partial (hm : ∀ t, Minimal t (minimize t)) (hc : compile upper one minimize rs = some s) (hp : ∀ r ∈ rs, AllEach Match.Plain r.body)
    (cs : Casing) (delete : Bool) (secs : List (List (SWord × Seen))) (hs : ∀ ws ∈ secs, ∀ x ∈ ws, x.1.ok ∧ Sees x.1 x.2)
    (hwf : WF (sections secs)) (htag : TagsOk (sections secs)) (hcl : AllCapsLast (sections secs)) :
    ∃ o, restore (auto upper s) cs delete (render (sections secs)) = .ok o ∧ ElectedAll upper one rs cs delete secs o := by
  rw [sections_eq] at hwf htag hcl ⊢
  have hb := C73_bounded hm hc (fun r hr => allEach_named _ (hp r hr))
  obtain ⟨o, h1, h2⟩ := C60_restore_choice_partial (auto upper s) cs delete hb (secs.map (List.map Prod.fst))
    (by
      intro x hx w hw
      obtain ⟨ws, hws, rfl⟩ := List.mem_map.1 hx
      obtain ⟨y, hy, rfl⟩ := List.mem_map.1 hw
      exact (hs ws hws y hy).1)
    (by
      intro x hx w hw
      obtain ⟨ws, hws, rfl⟩ := List.mem_map.1 hx
      obtain ⟨y, hy, rfl⟩ := List.mem_map.1 hw
      exact sees_noBoundary (hs ws hws y hy).2) hwf htag hcl
  exact ⟨o, h1, chosenAll_elected hm hc hp cs delete secs (fun ws hws x hx => (hs ws hws x hx).2) o h2⟩

/-- **C73** Restoration with compiled rules ends normally on every well-formed stream whose units do not have the tags `<$>` and `<$$>`, and changes nothing
but the case of the words. -/
theorem C73_text (hm : ∀ t, Minimal t (minimize t)) (hc : compile upper one minimize rs = some s) (hn : ∀ r ∈ rs, AllEach Match.Named r.body)
    (cs : Casing) (delete : Bool) (is : List Item) (hwf : WF is) (htag : TagsOk is) (hcl : AllCapsLast is)
    (hb : ∀ b, Item.lu b ∈ is → NoBoundary (unitForm b) (unitSurf b)) :
    ∃ o, restore (auto upper s) cs delete (render is) = .ok o ∧ Restored cs delete none is o :=
  C59_restore_text_partial (auto upper s) cs delete (C73_bounded hm hc hn) is hwf htag hcl hb

end
end Verif.Crx
