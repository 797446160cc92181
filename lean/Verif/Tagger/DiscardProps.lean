import Verif.Tagger.Stream
import Verif.Tagger.ClassesProps
/-!
# C23: discard-on-ambiguity
-/
namespace Verif.Tagger

theorem sinsert_of_mem (x : Nat) (s : Tags) (hs : Sorted s) (h : x ∈ s) : sinsert x s = s := by
  induction s with
  | nil => simp at h
  | cons y r ih =>
    have hp := List.pairwise_cons.1 hs
    unfold sinsert
    rcases List.mem_cons.1 h with rfl | hr
    · rw [if_neg (by omega), if_pos rfl]
    · have := hp.1 x hr
      rw [if_neg (by omega), if_neg (by omega), ih hp.2 hr]

/-- The keys of a listing, in increasing order. -/
def keysOf (l : List (Nat × Text)) : Tags := l.map (·.1)

/-- Scanning on from position `pos` with everything before it kept. -/
theorem discardLoop_scan (mt : Text → Bool) (kept todo : List (Nat × Text)) (hk : ∀ x ∈ kept, mt x.2 = false)
    (hs : Sorted (keysOf (kept ++ todo))) (hne : kept ≠ []) :
    ∀ (n : Nat) (l1 l2 : List (Nat × Text)), kept = l1 ++ l2 → l1 ≠ [] → todo.length * (kept.length + todo.length + 1) + l2.length < n →
      (∀ x ∈ todo, mt x.2 = true → 1 < (kept ++ todo).length) →
      discardLoop mt n (kept ++ todo) l1.length (keysOf kept) =
        ((kept ++ todo).filter (fun x => !mt x.2), keysOf ((kept ++ todo).filter (fun x => !mt x.2))) := by
  induction htl : todo.length generalizing kept todo with
  | zero =>
    have ht : todo = [] := List.length_eq_zero_iff.1 htl
    subst ht
    have hfil : kept.filter (fun x => !mt x.2) = kept := by
      rw [List.filter_eq_self]
      intro x hx
      simp [hk x hx]
    intro n l1 l2 hkl hl1 hn _
    simp only [List.append_nil, hfil]
    induction l2 generalizing l1 n with
    | nil =>
      simp at hkl
      subst hkl
      cases n with
      | zero => rfl
      | succ n => unfold discardLoop; simp
    | cons x r ih =>
      cases n with
      | zero => simp at hn
      | succ n =>
        unfold discardLoop
        have hx : kept[l1.length]? = some x := by rw [hkl]; simp
        have hmx : mt x.2 = false := hk x (by rw [hkl]; simp)
        have hxk : sinsert x.1 (keysOf kept) = keysOf kept :=
          sinsert_of_mem _ _ (by simpa using hs) (by rw [hkl]; simp [keysOf])
        simp only [hx, hmx, Bool.false_eq_true, if_false, hxk]
        split
        · cases l1 with
          | nil => exact absurd rfl hl1
          | cons a b => simp at hkl
        · have := ih n (l1 ++ [x]) (by simp [hkl]) (by simp) (by simp at hn ⊢; omega)
          simpa using this
  | succ m ihm =>
    intro n l1 l2 hkl hl1 hn hlen
    obtain ⟨y, todo', rfl⟩ : ∃ y t, todo = y :: t := by
      cases todo with
      | nil => simp at htl
      | cons y t => exact ⟨y, t, rfl⟩
    have hm : todo'.length = m := by simpa using htl
    have hpos1 : 1 ≤ kept.length := List.length_pos_iff.2 hne
    -- first scan the rest of `kept`
    induction l2 generalizing l1 n with
    | nil =>
      simp at hkl
      subst hkl
      cases n with
      | zero => simp at hn
      | succ n =>
        unfold discardLoop
        have hx : (kept ++ y :: todo')[kept.length]? = some y := by simp
        simp only [hx]
        by_cases hmy : mt y.2 = true
        · -- y is erased
          simp only [hmy, if_true]
          have her : (kept ++ y :: todo').eraseIdx kept.length = kept ++ todo' := by
            rw [List.eraseIdx_append_of_length_le (Nat.le_refl _)]
            simp
          have hfil : (kept ++ y :: todo').filter (fun x => !mt x.2) = (kept ++ todo').filter (fun x => !mt x.2) := by
            simp [hmy]
          have hs' : Sorted (keysOf (kept ++ todo')) := by
            unfold Sorted keysOf at hs ⊢
            refine hs.sublist ?_
            exact List.Sublist.map _ (List.Sublist.append_left (List.sublist_cons_self ..) _)
          rw [her, hfil]
          split
          · rename_i t1 f1 he
            have h1 : kept = [(t1, f1)] ∧ todo' = [] := by
              cases hkc : kept with
              | nil => exact absurd hkc hne
              | cons a b =>
                rw [hkc] at he
                simp at he
                exact ⟨by rw [he.1, he.2.1], he.2.2⟩
            obtain ⟨hk1, ht1⟩ := h1
            subst hk1 ht1
            have := hk (t1, f1) (by simp)
            simp at this
            simp [keysOf, sinsert, this]
          · -- restart at position 1
            cases hkc : kept with
            | nil => exact absurd hkc hne
            | cons a b =>
              have := ihm kept todo' hk hs' hne hm n [a] b (by simp [hkc]) (by simp) ?_ ?_
              · rw [hkc] at this
                exact this
              · simp only [List.length_nil, Nat.add_zero] at hn
                have hb : b.length + 1 = kept.length := by rw [hkc]; rfl
                have hmul : (m + 1) * (kept.length + (m + 1) + 1) = m * (kept.length + (m + 1) + 1) + (kept.length + (m + 1) + 1) := Nat.succ_mul _ _
                have hmono : m * (kept.length + m + 1) ≤ m * (kept.length + (m + 1) + 1) := Nat.mul_le_mul_left _ (by omega)
                omega
              · intro x hx hmx
                have := hlen x (List.mem_cons_of_mem _ hx) hmx
                simp at this ⊢
                have : 0 < todo'.length := List.length_pos_iff.2 (List.ne_nil_of_mem hx)
                omega
        · have hmy' : mt y.2 = false := by simpa using hmy
          simp only [hmy', Bool.false_eq_true, if_false]
          have hlt : ∀ z ∈ keysOf kept, z < y.1 := by
            intro z hz
            have h2 : Sorted (keysOf kept ++ y.1 :: keysOf todo') := by simpa [keysOf] using hs
            exact (List.pairwise_append.1 h2).2.2 z hz y.1 (List.mem_cons_self ..)
          rw [Coll.sinsert_append _ _ hlt]
          split
          · rename_i t1 f1 he
            cases hkc : kept with
            | nil => exact absurd hkc hne
            | cons a b => rw [hkc] at he; simp at he
          · have := ihm (kept ++ [y]) todo' (by
                intro x hx
                rcases List.mem_append.1 hx with hx | hx
                · exact hk x hx
                · rw [List.mem_singleton.1 hx]; exact hmy') (by simpa using hs) (by simp) hm n (kept ++ [y]) []
                (by simp) (by simp) ?_ ?_
            · simpa [keysOf] using this
            · simp only [List.length_nil, Nat.add_zero, List.length_append, List.length_singleton] at hn ⊢
              have hmul : (m + 1) * (kept.length + (m + 1) + 1) = m * (kept.length + (m + 1) + 1) + (kept.length + (m + 1) + 1) := Nat.succ_mul _ _
              have he2 : kept.length + 1 + m + 1 = kept.length + (m + 1) + 1 := by omega
              rw [he2]
              omega
            · intro x hx hmx
              have := hlen x (List.mem_cons_of_mem _ hx) hmx
              simpa using this
    | cons x r ih =>
      cases n with
      | zero => simp at hn
      | succ n =>
        unfold discardLoop
        have hx : (kept ++ y :: todo')[l1.length]? = some x := by rw [hkl]; simp
        have hmx : mt x.2 = false := hk x (by rw [hkl]; simp)
        have hsk : Sorted (keysOf kept) := by
          unfold Sorted keysOf at hs ⊢
          rw [List.map_append] at hs
          exact (List.pairwise_append.1 hs).1
        have hxk : sinsert x.1 (keysOf kept) = keysOf kept :=
          sinsert_of_mem _ _ hsk (by rw [hkl]; simp [keysOf])
        simp only [hx, hmx, Bool.false_eq_true, if_false, hxk]
        split
        · rename_i t1 f1 he
          rw [hkl] at he
          cases l1 with
          | nil => exact absurd rfl hl1
          | cons a b => simp at he
        · have := ih n (l1 ++ [x]) (by simp [hkl]) (by simp) (by simp at hn ⊢; omega)
          simpa using this

/-- **C23 (partial).**  Let the word be ambiguous with one analysis per tag, listed by increasing tag, and let the
analysis of the lowest tag *not* match the discard pattern.  Then exactly the matching analyses and their tags are
removed: what remains is the list of the analyses that do not match.  *Missing*: when the analysis of the lowest
tag matches, a wanted analysis can be lost (`C23_lost_violation`); `plen`, the length of the text of the pattern,
must differ from the number of analyses kept (`C23_length_violation`). -/
theorem C23_discard_partial (mt : Text → Bool) (plen : Nat) (w : TW) (t0 : Nat) (f0 : Text)
    (r : List (Nat × Text)) (hf : w.forms = (t0, f0) :: r) (hr : r ≠ []) (h0 : mt f0 = false)
    (hs : Sorted (keysOf w.forms)) (ht : w.tags = keysOf w.forms)
    (hp : plen ≠ (w.forms.filter (fun x => !mt x.2)).length) :
    w.discard mt plen = { w with forms := w.forms.filter (fun x => !mt x.2),
                                 tags := keysOf (w.forms.filter (fun x => !mt x.2)) } := by
  have hamb : w.isAmbiguous = true := by
    unfold TW.isAmbiguous
    have : 0 < r.length := List.length_pos_iff.2 hr
    rw [ht, hf]
    simp [keysOf]
    omega
  have hloop : discardLoop mt ((w.forms.length + 1) * (w.forms.length + 1)) w.forms 0 [] =
      (w.forms.filter (fun x => !mt x.2), keysOf (w.forms.filter (fun x => !mt x.2))) := by
    rw [hf]
    have hL : ((t0, f0) :: r).length + 1 = r.length + 2 := rfl
    rw [hL]
    obtain ⟨N, hN⟩ := Nat.exists_eq_succ_of_ne_zero
      (show (r.length + 2) * (r.length + 2) ≠ 0 from Nat.ne_of_gt (Nat.mul_pos (by omega) (by omega)))
    rw [hN]
    unfold discardLoop
    simp only [List.getElem?_cons_zero, h0, Bool.false_eq_true, if_false]
    split
    · rename_i t1 f1 he
      simp at he
      exact absurd he.2 hr
    · have := discardLoop_scan mt [(t0, f0)] r (by simpa using h0) (by rw [hf] at hs; simpa using hs) (by simp)
        N [(t0, f0)] [] (by simp) (by simp) (by
          have h1 : (r.length + 2) * (r.length + 2) = r.length * (r.length + 2) + 2 * (r.length + 2) := Nat.add_mul _ _ _
          have h2 : r.length * (1 + r.length + 1) = r.length * (r.length + 2) := by congr 1; omega
          simp only [List.length_singleton, List.length_nil, Nat.add_zero]
          rw [h2]
          omega) (by
          intro x _ _
          have : 0 < r.length := List.length_pos_iff.2 hr
          simp; omega)
      exact this
  unfold TW.discard
  rw [if_pos hamb]
  simp only [hloop]
  rw [if_pos (by simpa [keysOf] using hp)]

/-- three analyses, the second is discarded -/
example : let w : TW := { tags := [1, 4, 7], forms := [(1, t!"a<n>"), (4, t!"a<adj>"), (7, t!"a<vb>")] }
    (w.discard (fun f => f = t!"a<adj>") 5).tags = [1, 7] := by decide +kernel

/-- If the analysis of the lowest tag matches, the next analysis is skipped by the restarted loop and its tag is
lost although it does not match (tagger_word.cc:354-357, 368: the iterator is advanced after the restart). -/
theorem C23_lost_violation :
    ∃ (w : TW) (mt : Text → Bool), w.tags = keysOf w.forms ∧ Sorted w.tags ∧
      (∃ x ∈ w.forms, mt x.2 = false ∧ x.1 ∉ (w.discard mt 5).tags) :=
  ⟨{ tags := [1, 4, 7], forms := [(1, t!"a<adj>"), (4, t!"a<n>"), (7, t!"a<vb>")] }, fun f => f = t!"a<adj>",
    by decide, by decide, (4, t!"a<n>"), by decide +kernel⟩

/-- If the pattern has as many characters as analyses are kept, the discarded tag stays (the parameter `tags`
hides the member `tags`, tagger_word.cc:343, 370), and its lexical form is then empty. -/
theorem C23_length_violation :
    ∃ (w : TW) (mt : Text → Bool), w.tags = keysOf w.forms ∧
      (∃ x ∈ w.forms, mt x.2 = true ∧ x.1 ∈ (w.discard mt 5).tags ∧
        (w.discard mt 5).lexicalForm false 99 x.1 = t!"^$") :=
  ⟨{ tags := [1, 2, 3, 4, 5, 6], forms := [(1, t!"a<n>"), (2, t!"b<x>"), (3, t!"c"), (4, t!"d"), (5, t!"e"), (6, t!"f")] },
    fun f => f = t!"b<x>", by decide, (2, t!"b<x>"), by decide +kernel⟩

/-! ### what holds for every word -/

/-- Whatever matches, the loop keeps a sub-listing that is not empty, the new set of tags only has tags of kept analyses. -/
theorem discardLoop_kept (mt : Text → Bool) (n : Nat) (l : List (Nat × Text)) (pos : Nat) (new : Tags)
    (hl : l.length ≠ 1 ∨ mt ((l.head?.map (·.2)).getD []) = false ∨ 0 < pos)
    (hne : l ≠ []) (hnew : ∀ t ∈ new, ∃ f, (t, f) ∈ l ∧ mt f = false) :
    let r := discardLoop mt n l pos new
    r.1 ≠ [] ∧ List.Sublist r.1 l ∧
    (∀ t ∈ r.2, ∃ f, (t, f) ∈ r.1 ∧ (mt f = false ∨ r.1.length = 1)) := by
  induction n generalizing l pos new with
  | zero =>
    refine ⟨hne, List.Sublist.refl _, ?_⟩
    intro t ht
    obtain ⟨f, h1, h2⟩ := hnew t ht
    exact ⟨f, h1, .inl h2⟩
  | succ n ih =>
    unfold discardLoop
    cases hx : l[pos]? with
    | none =>
      refine ⟨hne, List.Sublist.refl _, ?_⟩
      intro t ht
      obtain ⟨f, h1, h2⟩ := hnew t ht
      exact ⟨f, h1, .inl h2⟩
    | some x =>
      obtain ⟨t, f⟩ := x
      have hlt : pos < l.length := (List.getElem?_eq_some_iff.1 hx).1
      have hmemx : (t, f) ∈ l := List.mem_of_getElem? hx
      by_cases hm : mt f = true
      · simp only [hm, if_true]
        have hsub : List.Sublist (l.eraseIdx pos) l := List.eraseIdx_sublist ..
        have hlen : (l.eraseIdx pos).length = l.length - 1 := List.length_eraseIdx_of_lt hlt
        have hne2 : l.length ≠ 1 := by
          intro h1
          have hp0 : pos = 0 := by omega
          subst hp0
          rcases hl with h | h | h
          · exact h h1
          · have : l.head? = some (t, f) := by rw [List.head?_eq_getElem?]; exact hx
            rw [this] at h
            simp [hm] at h
          · omega
        have hne' : l.eraseIdx pos ≠ [] := by
          intro h0
          rw [h0] at hlen
          simp at hlen
          have : 0 < l.length := List.length_pos_iff.2 hne
          omega
        have hnew' : ∀ t' ∈ new, ∃ f', (t', f') ∈ l.eraseIdx pos ∧ mt f' = false := by
          intro t' ht'
          obtain ⟨f', h1, h2⟩ := hnew t' ht'
          refine ⟨f', ?_, h2⟩
          obtain ⟨i, hi⟩ := List.mem_iff_getElem?.1 h1
          have hip : i ≠ pos := by
            rintro rfl
            rw [hx] at hi
            cases hi
            rw [hm] at h2
            cases h2
          rw [List.mem_eraseIdx_iff_getElem?]
          exact ⟨i, hip, hi⟩
        split
        · rename_i t1 f1 he
          refine ⟨hne', hsub, ?_⟩
          intro t' ht'
          rcases (Coll.mem_sinsert _ _ _).1 ht' with rfl | ht'
          · exact ⟨f1, by simp [he], .inr (by simp [he])⟩
          · obtain ⟨f', h1, h2⟩ := hnew' t' ht'
            exact ⟨f', h1, .inl h2⟩
        · rename_i hnot
          have := ih (l.eraseIdx pos) 1 new (.inr (.inr (by omega))) hne' hnew'
          exact ⟨this.1, this.2.1.trans hsub, this.2.2⟩
      · have hm' : mt f = false := by simpa using hm
        simp only [hm', Bool.false_eq_true, if_false]
        have hnew' : ∀ t' ∈ sinsert t new, ∃ f', (t', f') ∈ l ∧ mt f' = false := by
          intro t' ht'
          rcases (Coll.mem_sinsert _ _ _).1 ht' with rfl | ht'
          · exact ⟨f, hmemx, hm'⟩
          · exact hnew t' ht'
        split
        · rename_i t1 f1
          refine ⟨by simp, List.Sublist.refl _, ?_⟩
          intro t' ht'
          rcases (Coll.mem_sinsert _ _ _).1 ht' with rfl | ht'
          · exact ⟨f1, by simp, .inr rfl⟩
          · obtain ⟨f', h1, h2⟩ := hnew' t' ht'
            exact ⟨f', h1, .inl h2⟩
        · exact ih l (pos + 1) _ (.inr (.inr (by omega))) hne hnew'

/-- **C23, safety.**  For every ambiguous word with one analysis per tag and every pattern: an analysis always remains, the analyses that remain are analyses of the word, and
every tag that remains because of the pattern has an analysis that does not match, or is the only one left. -/
theorem C23_safe (mt : Text → Bool) (plen : Nat) (w : TW) (hf : 2 ≤ w.forms.length)
    (ht : w.tags = keysOf w.forms) :
    (w.discard mt plen).forms ≠ [] ∧ List.Sublist (w.discard mt plen).forms w.forms ∧
    ((w.discard mt plen).tags ≠ w.tags → ∀ t ∈ (w.discard mt plen).tags, ∃ f, (t, f) ∈ (w.discard mt plen).forms ∧
      (mt f = false ∨ (w.discard mt plen).forms.length = 1)) ∧
    (w.discard mt plen).sf = w.sf ∧ (w.discard mt plen).ignored = w.ignored := by
  have hamb : w.isAmbiguous = true := by
    unfold TW.isAmbiguous
    rw [ht]
    simp only [keysOf, List.length_map, decide_eq_true_eq]
    omega
  have hne : w.forms ≠ [] := by intro h; rw [h] at hf; simp at hf
  have h := discardLoop_kept mt ((w.forms.length + 1) * (w.forms.length + 1)) w.forms 0 []
    (.inl (by omega)) hne (by simp)
  unfold TW.discard
  rw [if_pos hamb]
  simp only []
  split
  · exact ⟨h.1, h.2.1, fun _ => h.2.2, rfl, rfl⟩
  · exact ⟨h.1, h.2.1, fun hc => absurd rfl hc, rfl, rfl⟩

end Verif.Tagger
