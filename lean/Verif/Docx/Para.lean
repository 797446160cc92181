/-
  The runs of a paragraph, and what a reader sees of it (C87).
-/
import Verif.Docx.Adjust

namespace Verif.Docx

open Spec

theorem isT_setT (s : Text) (y : Xml) : isT (setT s y) = isT y := by
  unfold setT
  split <;> simp [isT]

theorem setT_not {s : Text} {y : Xml} (h : isT y = false) : setT s y = y := by
  unfold setT
  split
  · simp [isT] at h
  · rfl

theorem filter_map_setT (s : Text) (kids : List Xml) :
    (kids.map (setT s)).filter isT = (kids.filter isT).map (setT s) := by
  rw [List.filter_map]
  congr 1
  apply List.filter_congr
  intro x _
  simp [isT_setT]

theorem dropWhile_head {p : Char → Bool} {s : Text} (h : ∀ c, s.head? = some c → p c = false) :
    s.dropWhile p = s := by
  cases s with
  | nil => rfl
  | cons a s => rw [List.dropWhile_cons_of_neg (by simp [h a rfl])]

theorem trim_id {s : Text} (h1 : s.head? ≠ some ' ') (h2 : s.getLast? ≠ some ' ') : trim s = s := by
  have e1 : s.dropWhile (fun x => decide (x = ' ')) = s := by
    apply dropWhile_head
    intro c hc
    simp only [decide_eq_false_iff_not]
    rintro rfl
    exact h1 hc
  have e2 : s.reverse.dropWhile (fun x => decide (x = ' ')) = s.reverse := by
    apply dropWhile_head
    intro c hc
    simp only [decide_eq_false_iff_not]
    rintro rfl
    rw [List.head?_reverse] at hc
    exact h2 hc
  unfold trim
  rw [e1, e2, List.reverse_reverse]

theorem textOf_set (s : Text) :
    textOf (decide (s.head? = some ' ') || decide (s.getLast? = some ' ')) [.text s] = s := by
  simp only [textOf, List.append_nil]
  split
  · rfl
  · rename_i h
    simp at h
    exact trim_id h.1 h.2

/-- The shape of a run with text. -/
theorem runText_some {inh : Bool} {x : Xml} {u : Text} (h : runText inh x = some u) :
    ∃ sp kids tsp tk, x = .elem "r" sp kids ∧ kids.filter isT = [.elem "t" tsp tk] ∧
      u = textOf (tsp.getD (sp.getD inh)) tk := by
  cases x with
  | text => simp [runText] at h
  | cdata => simp [runText] at h
  | note => simp [runText] at h
  | elem n sp kids =>
    simp only [runText] at h
    by_cases hn : n = "r"
    · subst hn
      simp only [if_true] at h
      split at h
      · rename_i n' tsp tk hf
        have hm : Xml.elem n' tsp tk ∈ kids.filter isT := by rw [hf]; simp
        have hn' : n' = "t" := by simpa [isT] using (List.mem_filter.1 hm).2
        subst hn'
        exact ⟨sp, kids, tsp, tk, rfl, hf, (Option.some.inj h).symm⟩
      · cases h
    · simp [hn] at h

/-- A run that is given a text has that text. -/
theorem runText_setText {inh : Bool} {x : Xml} {u s : Text} (h : runText inh x = some u) (ho : OneText x)
    (hu : u ≠ []) : runText inh (setText s x) = some s := by
  obtain ⟨sp, kids, tsp, tk, rfl, hf, rfl⟩ := runText_some h
  have ht : ∃ s0, tk = [.text s0] := by
    rcases ho sp kids _ tsp tk rfl hf with h | h
    · subst h; exact absurd rfl hu
    · exact h
  obtain ⟨s0, rfl⟩ := ht
  simp only [setText, runText, if_true, filter_map_setT, hf, List.map_cons, List.map_nil, setT]
  simp only [Option.getD_some, textOf_set]

/-- The pieces of the given lengths, without the empty ones. -/
def pieces : Text → List Nat → List Text
  | _, [] => []
  | join, l :: L => if l = 0 then pieces join L else join.take l :: pieces (join.drop l) L

theorem rewrite_texts {inh : Bool} : ∀ (kids : List Xml) (join : Text) (L : List Nat),
    (∀ x ∈ kids, OneText x) → (texts inh kids).length = L.length →
    (∀ k : Nat, (texts inh kids)[k]? = some [] → L[k]? = some 0) →
    texts inh (rewrite inh kids join L) = pieces join L := by
  intro kids
  induction kids with
  | nil =>
    intro join L _ hl _
    have : L = [] := by
      cases L with
      | nil => rfl
      | cons a L => simp [texts] at hl
    subst this
    rfl
  | cons x xs ih =>
    intro join L ho hl hz
    cases hx : runText inh x with
    | none =>
      have ht : texts inh (x :: xs) = texts inh xs := by simp [texts, hx]
      rw [ht] at hl hz
      simp only [rewrite, hx]
      have := ih join L (fun y hy => ho y (List.mem_cons_of_mem _ hy)) hl hz
      simp only [texts] at this ⊢
      rw [List.filterMap_cons_none hx, this]
    | some u =>
      have ht : texts inh (x :: xs) = u :: texts inh xs := by simp [texts, hx]
      rw [ht] at hl hz
      cases L with
      | nil => simp at hl
      | cons l L =>
        simp only [rewrite, hx, pieces]
        have hrec := ih
        by_cases h0 : l = 0
        · rw [if_pos h0, if_pos h0]
          exact ih join L (fun y hy => ho y (List.mem_cons_of_mem _ hy)) (by simpa using hl)
            (fun k hk => by simpa using hz (k + 1) (by simpa using hk))
        · rw [if_neg h0, if_neg h0]
          have hu : u ≠ [] := by
            rintro rfl
            have := hz 0 rfl
            simp at this
            exact h0 this
          have := ih (join.drop l) L (fun y hy => ho y (List.mem_cons_of_mem _ hy)) (by simpa using hl)
            (fun k hk => by simpa using hz (k + 1) (by simpa using hk))
          simp only [texts] at this ⊢
          rw [List.filterMap_cons_some (runText_setText hx (ho x (List.mem_cons_self ..)) hu), this]

theorem pieces_flatten : ∀ (L : List Nat) (join : Text), join.length ≤ L.sum → (pieces join L).flatten = join := by
  intro L
  induction L with
  | nil => intro join h; simp at h; simp [pieces, h]
  | cons l L ih =>
    intro join h
    simp only [pieces]
    simp at h
    split
    · rename_i h0
      exact ih join (by omega)
    · rw [List.flatten_cons, ih _ (by simp; omega), List.take_append_drop]

/-- Wherever the pieces are divided, it is at the end of one of them. -/
theorem pieces_split : ∀ (L : List Nat) (join : Text) (us vs : List Text), join.length = L.sum →
    pieces join L = us ++ vs → ∃ k, k ≤ L.length ∧ us.flatten = join.take (L.take k).sum ∧
      vs.flatten = join.drop (L.take k).sum := by
  intro L
  induction L with
  | nil =>
    intro join us vs h hp
    have : join = [] := by simpa using h
    subst this
    have := hp.symm
    simp [pieces] at this
    exact ⟨0, by simp, by simp [this.1], by simp [this.2]⟩
  | cons l L ih =>
    intro join us vs h hp
    simp only [pieces] at hp
    simp at h
    split at hp
    · rename_i h0
      obtain ⟨k, h1, h2, h3⟩ := ih join us vs (by omega) hp
      exact ⟨k + 1, by simpa using h1, by simpa [h0] using h2, by simpa [h0] using h3⟩
    · rename_i h0
      cases us with
      | nil =>
        refine ⟨0, by simp, by simp, ?_⟩
        simp at hp
        rw [← hp, List.flatten_cons, pieces_flatten _ _ (by simp; omega), List.take_append_drop]
        simp
      | cons u us =>
        simp only [List.cons_append, List.cons.injEq] at hp
        obtain ⟨rfl, hp⟩ := hp
        obtain ⟨k, h1, h2, h3⟩ := ih (join.drop l) us vs (by simp; omega) hp
        refine ⟨k + 1, by simpa using h1, ?_, ?_⟩
        · rw [List.flatten_cons, h2, List.take_succ_cons, List.sum_cons, List.take_add]
        · rw [h3, List.take_succ_cons, List.sum_cons, List.drop_drop]

theorem texts_split : ∀ (us vs : List Text),
    us.flatten.length = (((us ++ vs).map List.length).take us.length).sum := by
  intro us vs
  simp [List.length_flatten, List.map_append]

theorem sum_lengths (ts : List Text) : ts.flatten.length = (ts.map List.length).sum := by
  simp [List.length_flatten]

/-- A run that was empty stays empty. -/
theorem stays_zero {al : Char → Bool} {join : Text} {E L : List Nat} (hsum : join.length = E.sum)
    (hlen : L.length = E.length) (hLs : L.sum = E.sum)
    (hends : ∀ k, k + 1 < E.length → endOf L k = findBoundary al join (endOf E k)) (k : Nat)
    (hk : E[k]? = some 0) : L[k]? = some 0 := by
  have hkl : k < E.length := (List.getElem?_eq_some_iff.1 hk).1
  have hx : L[k]? = some L[k] := List.getElem?_eq_getElem (by omega)
  have hE := endOf_at E k 0 hk
  have hL := endOf_at L k _ hx
  have hprev : endOf L k = (L.take k).sum := by
    rcases Nat.eq_zero_or_pos k with h0 | h0
    · subst h0
      simp only [List.take_zero, List.sum_nil, Nat.add_zero] at hE ⊢
      by_cases h1 : 0 + 1 < E.length
      · rw [hends 0 h1, hE, findBoundary_zero]
      · rw [endOf_last L 0 (by omega), hLs, ← endOf_last E 0 (by omega), hE]
    · rw [take_sum_done h0] at hE ⊢
      by_cases h1 : k + 1 < E.length
      · rw [hends k h1, hends (k - 1) (by omega), hE, Nat.add_zero]
      · rw [hends (k - 1) (by omega), endOf_last L k (by omega), hLs]
        rw [endOf_last E k (by omega)] at hE
        rw [show endOf E (k - 1) = join.length by omega, findBoundary_end, hsum]
  rw [hx]
  congr 1
  omega

theorem texts_ne {inh : Bool} {kids : List Xml} (h : ¬ (texts inh kids).isEmpty = true) :
    (texts inh kids).map List.length ≠ [] := by
  intro hc
  apply h
  simpa using hc

theorem adaptPara_eq (al : Char → Bool) (inh : Bool) (kids : List Xml) :
    adaptPara al inh kids =
      if (texts inh kids).isEmpty then some kids
      else (adjust al (texts inh kids).flatten ((texts inh kids).map List.length)).map fun r =>
        match r with
        | none => kids
        | some L => rewrite inh kids (texts inh kids).flatten L := rfl

/-- Adapting a paragraph: it comes to an end, and its texts are the old ones or the pieces of the new
    lengths. -/
theorem adaptPara_spec {al : Char → Bool} (hlet : Letters al) (inh : Bool) (kids : List Xml) :
    ∃ kids', adaptPara al inh kids = some kids' ∧
      (kids' = kids ∨ ∃ L, kids' = rewrite inh kids (texts inh kids).flatten L ∧
        L.length = (texts inh kids).length ∧ L.sum = (texts inh kids).flatten.length ∧
        (∀ k, k + 1 < L.length → endOf L k =
          findBoundary al (texts inh kids).flatten (endOf ((texts inh kids).map List.length) k)) ∧
        (∀ k : Nat, (texts inh kids)[k]? = some [] → L[k]? = some 0)) := by
  rw [adaptPara_eq]
  by_cases he : (texts inh kids).isEmpty = true
  · exact ⟨kids, by rw [if_pos he], .inl rfl⟩
  · rw [if_neg he]
    obtain ⟨r, h1, h2, h3, h4, _⟩ := adjust_spec hlet (sum_lengths (texts inh kids)) (texts_ne he)
    rw [h1]
    cases r with
    | none => exact ⟨kids, rfl, .inl rfl⟩
    | some L =>
      refine ⟨_, rfl, .inr ⟨L, rfl, ?_, ?_, ?_, ?_⟩⟩
      · simpa using h2
      · rw [sum_lengths]; exact h3
      · intro k hk
        exact h4 k (by have : L.length = ((texts inh kids).map List.length).length := h2; omega)
      · intro k hk
        exact stays_zero (al := al) (sum_lengths (texts inh kids)) h2 h3 h4 k (by simp [hk])

/-! ### What a reader sees -/

theorem contentL_append (quiet : String → Bool) (inh : Bool) (xs ys : List Xml) :
    contentL quiet inh (xs ++ ys) = contentL quiet inh xs ++ contentL quiet inh ys := by
  induction xs with
  | nil => rfl
  | cons x xs ih => simp [contentL, ih]

theorem contentL_nil {quiet : String → Bool} {inh : Bool} {xs : List Xml}
    (h : ∀ x ∈ xs, content quiet inh x = []) : contentL quiet inh xs = [] := by
  induction xs with
  | nil => rfl
  | cons x xs ih =>
    simp only [contentL]
    rw [h x (List.mem_cons_self ..), ih (fun y hy => h y (List.mem_cons_of_mem _ hy))]
    rfl

theorem noRun_text {inh : Bool} {x : Xml} (h : NoRun x) : runText inh x = none := by
  cases hx : runText inh x with
  | none => rfl
  | some u =>
    obtain ⟨sp, kids, tsp, tk, rfl, hf, _⟩ := runText_some hx
    exact absurd (by rw [hf]; rfl) (h sp kids rfl)

theorem filter_none {xs : List Xml} (h : ∀ x ∈ xs, isT x = false) : xs.filter isT = [] := by
  rw [List.filter_eq_nil_iff]
  intro x hx
  simp [h x hx]

theorem simple_filter {before after : List Xml} {tsp : Option Bool} {tk : List Xml}
    (h : ∀ y ∈ before ++ after, isT y = false) :
    (before ++ .elem "t" tsp tk :: after).filter isT = [.elem "t" tsp tk] := by
  rw [List.filter_append, filter_none (fun y hy => h y (List.mem_append_left _ hy)), List.filter_cons_of_pos (by simp [isT]),
    filter_none (fun y hy => h y (List.mem_append_right _ hy))]
  rfl

/-- What a simple run shows is its text. -/
theorem simple_content {quiet : String → Bool} (hq : quiet "r" = false) {inh : Bool} {x : Xml}
    (h : Simple quiet inh x) :
    ∃ u, runText inh x = some u ∧ content quiet inh x = u.map .ch ∧
      (∀ s, u ≠ [] → content quiet inh (setText s x) = s.map .ch) := by
  obtain ⟨sp, before, tsp, tk, after, rfl, htk, ho⟩ := h
  refine ⟨textOf (tsp.getD (sp.getD inh)) tk, ?_, ?_, ?_⟩
  · simp only [runText, if_true, simple_filter (fun y hy => (ho y hy).1)]
  · have e : shown (tsp.getD (sp.getD inh)) tk = textOf (tsp.getD (sp.getD inh)) tk := by
      rcases htk with rfl | ⟨s, rfl⟩
      · cases tsp.getD (sp.getD inh) <;> rfl
      · cases tsp.getD (sp.getD inh) <;> simp [shown, rawText, textOf, strip, trim]
    simp only [content, hq, contentL_append, contentL]
    rw [contentL_nil (fun y hy => (ho y (List.mem_append_left _ hy)).2),
      contentL_nil (fun y hy => (ho y (List.mem_append_right _ hy)).2), e]
    simp
  · intro s hu
    have ht : ∃ s0, tk = [.text s0] := by
      rcases htk with h | h
      · subst h; exact absurd rfl hu
      · exact h
    obtain ⟨s0, rfl⟩ := ht
    have hb : before.map (setT s) = before := by
      rw [List.map_congr_left (f := setT s) (g := id) (fun y hy => setT_not (s := s) (ho y (List.mem_append_left _ hy)).1)]; simp
    have ha : after.map (setT s) = after := by
      rw [List.map_congr_left (f := setT s) (g := id) (fun y hy => setT_not (s := s) (ho y (List.mem_append_right _ hy)).1)]; simp
    have e : shown (decide (s.head? = some ' ') || decide (s.getLast? = some ' ')) [.text s] = s := by
      have := textOf_set s
      cases hb : (decide (s.head? = some ' ') || decide (s.getLast? = some ' ')) <;> rw [hb] at this
      · simpa [shown, rawText, textOf, strip, trim] using this
      · simp [shown, rawText]
    simp only [setText, List.map_append, List.map_cons, hb, ha, setT, content, hq, contentL_append, contentL,
      Option.getD_some]
    rw [contentL_nil (fun y hy => (ho y (List.mem_append_left _ hy)).2),
      contentL_nil (fun y hy => (ho y (List.mem_append_right _ hy)).2), e]
    simp

theorem texts_noRun {inh : Bool} {xs : List Xml} (h : ∀ x ∈ xs, NoRun x) : texts inh xs = [] := by
  simp only [texts, List.filterMap_eq_nil_iff]
  intro x hx
  exact noRun_text (h x hx)

theorem rewrite_noRun {inh : Bool} (xs ys : List Xml) (join : Text) (L : List Nat) (h : ∀ x ∈ xs, NoRun x) :
    rewrite inh (xs ++ ys) join L = xs ++ rewrite inh ys join L := by
  induction xs with
  | nil => rfl
  | cons x xs ih =>
    simp only [List.cons_append, rewrite, noRun_text (inh := inh) (h x (List.mem_cons_self ..))]
    rw [ih (fun y hy => h y (List.mem_cons_of_mem _ hy))]

theorem mid_content {quiet : String → Bool} (hq : quiet "r" = false) {inh : Bool} (mid : List Xml)
    (h : ∀ x ∈ mid, Simple quiet inh x ∨ (NoRun x ∧ content quiet inh x = [])) :
    contentL quiet inh mid = (texts inh mid).flatten.map .ch := by
  induction mid with
  | nil => rfl
  | cons x xs ih =>
    have hr := ih (fun y hy => h y (List.mem_cons_of_mem _ hy))
    simp only [contentL, hr]
    rcases h x (List.mem_cons_self ..) with hs | ⟨hn, hc⟩
    · obtain ⟨u, h1, h2, _⟩ := simple_content hq hs
      have : texts inh (x :: xs) = u :: texts inh xs := by simp [texts, h1]
      rw [this, h2]; simp
    · have : texts inh (x :: xs) = texts inh xs := by simp [texts, noRun_text (inh := inh) hn]
      rw [this, hc]; simp

theorem mid_rewrite {quiet : String → Bool} (hq : quiet "r" = false) {inh : Bool} (post : List Xml)
    (hp : ∀ x ∈ post, NoRun x) :
    ∀ (mid : List Xml) (join : Text) (L : List Nat),
    (∀ x ∈ mid, Simple quiet inh x ∨ (NoRun x ∧ content quiet inh x = [])) →
    (texts inh mid).length = L.length → (∀ k : Nat, (texts inh mid)[k]? = some [] → L[k]? = some 0) →
    join.length = L.sum →
    contentL quiet inh (rewrite inh (mid ++ post) join L) = join.map .ch ++ contentL quiet inh post := by
  intro mid
  induction mid with
  | nil =>
    intro join L _ hl _ hs
    have hL : L = [] := by
      cases L with
      | nil => rfl
      | cons a L => simp [texts] at hl
    subst hL
    have hj : join = [] := by simpa using hs
    subst hj
    have := rewrite_noRun (inh := inh) post [] [] [] hp
    rw [List.append_nil] at this
    rw [List.nil_append, this]
    simp [rewrite]
  | cons x xs ih =>
    intro join L h hl hz hs
    have hxs := fun y hy => h y (List.mem_cons_of_mem x hy)
    rcases h x (List.mem_cons_self ..) with hsimp | ⟨hn, hc⟩
    · obtain ⟨u, h1, h2, h3⟩ := simple_content hq hsimp
      have ht : texts inh (x :: xs) = u :: texts inh xs := by simp [texts, h1]
      rw [ht] at hl hz
      cases L with
      | nil => simp at hl
      | cons l L =>
        simp at hs
        simp only [List.cons_append, rewrite, h1]
        by_cases h0 : l = 0
        · rw [if_pos h0]
          exact ih join L hxs (by simpa using hl) (fun k hk => by simpa using hz (k + 1) (by simpa using hk)) (by omega)
        · rw [if_neg h0]
          have hu : u ≠ [] := by
            rintro rfl
            have := hz 0 rfl
            simp at this
            exact h0 this
          simp only [contentL]
          rw [h3 _ hu, ih (join.drop l) L hxs (by simpa using hl)
            (fun k hk => by simpa using hz (k + 1) (by simpa using hk)) (by simp; omega), ← List.append_assoc,
            ← List.map_append, List.take_append_drop]
    · have hnt := noRun_text (inh := inh) hn
      have ht : texts inh (x :: xs) = texts inh xs := by simp [texts, hnt]
      rw [ht] at hl hz
      simp only [List.cons_append, rewrite, hnt, contentL, hc, List.nil_append]
      exact ih join L hxs hl hz hs

/-- A tidy paragraph reads the same. -/
theorem para_content {al : Char → Bool} (hlet : Letters al) {quiet : String → Bool} (hq : quiet "r" = false)
    {inh : Bool} {kids : List Xml} (ht : Tidy quiet inh kids) :
    ∃ kids', adaptPara al inh kids = some kids' ∧ contentL quiet inh kids' = contentL quiet inh kids := by
  obtain ⟨kids', h1, h2⟩ := adaptPara_spec hlet inh kids
  refine ⟨kids', h1, ?_⟩
  rcases h2 with rfl | ⟨L, rfl, hl, hs, _, hz⟩
  · rfl
  · obtain ⟨pre, mid, post, rfl, hpre, hpost, hmid⟩ := ht
    have htx : texts inh (pre ++ mid ++ post) = texts inh mid := by
      have e1 := texts_noRun (inh := inh) hpre
      have e2 := texts_noRun (inh := inh) hpost
      simp only [texts] at e1 e2 ⊢
      rw [List.filterMap_append, List.filterMap_append, e1, e2]; simp
    rw [htx] at hl hs hz ⊢
    rw [List.append_assoc, rewrite_noRun _ _ _ _ hpre, contentL_append, contentL_append, contentL_append,
      mid_rewrite hq post hpost mid _ L hmid hl.symm hz hs.symm, mid_content hq mid hmid]

end Verif.Docx
