import Verif.Tagger.FilterSpec
import Verif.Tagger.StreamProps
import Verif.Tagger.StreamExamples
import Verif.Tagger.DiscardProps
/-!
# Filtering a corpus by ambiguity classes (C88)
-/
namespace Verif.Tagger
open Verif.Stream

theorem stream_one (cfg : MCfg) (r : TReq) (h : r.Wf cfg) :
    stream cfg false id r.render = .ok (r.lus.map (fun l => (l.word cfg, false)) ++ [(specWord cfg (.inr r.tail), true)]) := by
  have hl := lus_length r.lus
  unfold stream
  obtain ⟨m, hm⟩ : ∃ m, r.render.length + 1 = (m + 1) + r.lus.length :=
    ⟨r.render.length - r.lus.length, by simp only [TReq.render, List.length_append]; omega⟩
  rw [hm]
  have h2 := readWords_lus_exact cfg false r.lus h.lus (renderAtoms r.tail) (m + 1)
  have h4 := readWords_end_exact cfg false r.tail h.tail [] [] true rfl m
  rw [List.append_nil] at h4
  rw [TReq.render, h2, h4]
  rfl

theorem classes_one (cfg : MCfg) (r : TReq) (h : r.Wf cfg) :
    classes cfg r.render = .ok (r.lus.map (·.tags cfg) ++ [[cfg.keof]]) := by
  unfold classes
  rw [stream_one cfg r h]
  simp [Outcome.map, specWord, specWord_tags, TW.addTag, TW.addIgnored, sinsert]

theorem original_end (cfg : MCfg) (as : List Atom) : (specWord cfg (.inr as)).original = [] := by
  simp [specWord, TW.addTag, TW.addIgnored, mset, TW.original]

theorem cstr_id (s : Text) (h : '\x00' ∉ s) : cstr s = s := by
  unfold cstr
  induction s with
  | nil => rfl
  | cons c s ih =>
    obtain ⟨h1, h2⟩ := not_or.1 (fun x => h (List.mem_cons.2 x))
    rw [List.takeWhile_cons_of_pos (by simpa using Ne.symm h1), ih h2]

/-- The words that are kept. -/
def firsts (cfg : MCfg) : List Tags → List TLu → List TLu
  | _, [] => []
  | seen, l :: ls =>
    if l.tags cfg = [] ∨ l.tags cfg ∈ seen then firsts cfg seen ls else l :: firsts cfg (l.tags cfg :: seen) ls

theorem filterLoop_firsts (cfg : MCfg) (ls : List TLu) (tail : List Atom) : ∀ seen,
    filterLoop seen (ls.map (fun l => l.word cfg) ++ [specWord cfg (.inr tail)]) =
      (firsts cfg seen ls).flatMap fun l => (l.word cfg).original := by
  induction ls with
  | nil =>
    intro seen
    simp [filterLoop, original_end, firsts]
  | cons l ls ih =>
    intro seen
    simp only [List.map_cons, List.cons_append, filterLoop, specWord_tags, firsts, ih]
    by_cases h1 : l.tags cfg = []
    · simp [h1]
    · by_cases h2 : l.tags cfg ∈ seen
      · simp [h2]
      · simp [h1, h2, List.length_pos_iff.2]

theorem firsts_reps (cfg : MCfg) (ls : List TLu) : ∀ seen,
    (firsts cfg seen ls).Sublist ls ∧ ((firsts cfg seen ls).map (·.tags cfg)).Nodup ∧
    (∀ c : Tags, c ∈ (firsts cfg seen ls).map (·.tags cfg) ↔ c ≠ [] ∧ c ∉ seen ∧ c ∈ ls.map (·.tags cfg)) ∧
    ∀ k ∈ firsts cfg seen ls, ∃ pre post, ls = pre ++ k :: post ∧ ∀ l ∈ pre, l.tags cfg ≠ k.tags cfg := by
  induction ls with
  | nil => intro seen; simp [firsts]
  | cons l ls ih =>
    intro seen
    simp only [firsts]
    split
    · rename_i hc
      obtain ⟨a1, a2, a3, a4⟩ := ih seen
      refine ⟨a1.cons l, a2, ?_, ?_⟩
      · intro c
        rw [a3 c]
        constructor
        · rintro ⟨h1, h2, h3⟩
          exact ⟨h1, h2, List.mem_cons_of_mem _ h3⟩
        · rintro ⟨h1, h2, h3⟩
          refine ⟨h1, h2, ?_⟩
          rw [List.map_cons, List.mem_cons] at h3
          rcases h3 with rfl | h3
          · rcases hc with hc | hc
            · exact absurd hc h1
            · exact absurd hc h2
          · exact h3
      · intro k hk
        obtain ⟨pre, post, he, hp⟩ := a4 k hk
        refine ⟨l :: pre, post, by rw [he]; rfl, ?_⟩
        intro x hx
        have hkc := (a3 (k.tags cfg)).1 (List.mem_map_of_mem hk)
        rcases List.mem_cons.1 hx with rfl | hx
        · intro heq
          rcases hc with hc | hc
          · exact hkc.1 (heq ▸ hc)
          · exact hkc.2.1 (heq ▸ hc)
        · exact hp x hx
    · rename_i hc
      obtain ⟨hc1, hc2⟩ := not_or.1 hc
      obtain ⟨a1, a2, a3, a4⟩ := ih (l.tags cfg :: seen)
      refine ⟨a1.cons_cons l, ?_, ?_, ?_⟩
      · rw [List.map_cons, List.nodup_cons]
        refine ⟨?_, a2⟩
        intro hm
        exact ((a3 _).1 hm).2.1 (List.mem_cons_self ..)
      · intro c
        rw [List.map_cons, List.mem_cons, a3 c, List.map_cons]
        simp only [List.mem_cons, not_or]
        constructor
        · rintro (rfl | ⟨h1, h2, h3⟩)
          · exact ⟨hc1, hc2, .inl rfl⟩
          · exact ⟨h1, h2.2, .inr h3⟩
        · rintro ⟨h1, h2, h3⟩
          by_cases he : c = l.tags cfg
          · exact .inl he
          · exact .inr ⟨h1, ⟨he, h2⟩, h3.resolve_left he⟩
      · intro k hk
        rcases List.mem_cons.1 hk with rfl | hk
        · exact ⟨[], ls, rfl, by simp⟩
        · obtain ⟨pre, post, he, hp⟩ := a4 k hk
          refine ⟨l :: pre, post, by rw [he]; rfl, ?_⟩
          intro x hx
          rcases List.mem_cons.1 hx with rfl | hx
          · intro heq
            exact ((a3 (k.tags cfg)).1 (List.mem_map_of_mem hk)).2.1 (by simp [heq])
          · exact hp x hx

/-- The forms of a word come from analyses of the unit. -/
theorem forms_atoms (ans : List (List Atom)) (fs : List (Nat × Text))
    (h : ∀ x ∈ fs, ∃ a ∈ ans, x.2 = renderAtoms a) :
    ∃ as : List (List Atom), (∀ a ∈ as, a ∈ ans) ∧ fs.map (·.2) = as.map renderAtoms := by
  induction fs with
  | nil => exact ⟨[], by simp, rfl⟩
  | cons x fs ih =>
    obtain ⟨as, h1, h2⟩ := ih fun y hy => h y (List.mem_cons_of_mem _ hy)
    obtain ⟨a, ha, he⟩ := h x (List.mem_cons_self ..)
    refine ⟨a :: as, ?_, by simp [h2, he]⟩
    intro y hy
    rcases List.mem_cons.1 hy with rfl | hy
    · exact ha
    · exact h1 y hy

theorem word_keys (cfg : MCfg) (l : TLu) (hu : ¬ l.Unknown) : (l.word cfg).tags = (l.word cfg).forms.map (·.1) := by
  rw [l.word_known cfg hu]
  obtain ⟨hi, _⟩ := addAns_inv cfg l.ans
    (fun _ => True)
    { sf := renderAtoms l.sf, ignored := renderAtoms l.blank }
    { sf := renderAtoms l.sf, ignored := renderAtoms l.blank }
    ⟨rfl, rfl, rfl, rfl, rfl, by simp [Sorted], by simp⟩
    (fun a ha => trivial)
  exact hi.keys

theorem word_sf (cfg : MCfg) (l : TLu) : (l.word cfg).sf = renderAtoms l.sf := by
  by_cases hu : l.Unknown
  · rw [l.word_unknown cfg hu]
  · rw [l.word_known cfg hu]
    obtain ⟨hi, _⟩ := addAns_inv cfg l.ans
      (fun _ => True)
      { sf := renderAtoms l.sf, ignored := renderAtoms l.blank }
      { sf := renderAtoms l.sf, ignored := renderAtoms l.blank }
      ⟨rfl, rfl, rfl, rfl, rfl, by simp [Sorted], by simp⟩
      (fun a ha => trivial)
    exact hi.sf

theorem tags_unknown (cfg : MCfg) (l : TLu) (h : l.Unknown) : l.tags cfg = [] := by
  obtain ⟨a, h⟩ := h
  simp [TLu.tags, h]

/-- The line written for a word. -/
theorem word_original (cfg : MCfg) (l : TLu) (hne : l.tags cfg ≠ [])
    (hnul : '\x00' ∉ renderAtoms l.sf ∧ ∀ a ∈ l.ans, '\x00' ∉ renderAtoms a) (hn : ∀ a ∈ l.ans, a ≠ []) :
    ∃ as, Kept cfg l as ∧ (l.word cfg).forms.map (·.2) = as.map renderAtoms ∧ (l.word cfg).original = line l.sf as := by
  have hu : ¬ l.Unknown := fun h => hne (tags_unknown cfg l h)
  have hf := word_form cfg l hu
  obtain ⟨as, h1, h2⟩ := forms_atoms l.ans (l.word cfg).forms fun x hx => (hf x hx).2
  have hk : as.map (fun a => classOf cfg (renderAtoms a)) = l.tags cfg := by
    rw [← specWord_tags, word_keys cfg l hu,
      show (fun a => classOf cfg (renderAtoms a)) = classOf cfg ∘ renderAtoms from rfl, ← List.map_map, ← h2, List.map_map]
    apply List.map_congr_left
    intro x hx
    exact ((hf x hx).1).symm
  refine ⟨as, ⟨h1, hk⟩, h2, ?_⟩
  have hnr : ∀ a ∈ as, renderAtoms a ≠ [] := by
    intro a ha he
    have := hn a (h1 a ha)
    cases a with
    | nil => exact this rfl
    | cons x a => cases x <;> simp [Atom.render] at he
  have hfl : ((l.word cfg).forms.flatMap fun x => if x.2 = [] then [] else '/' :: x.2) =
      as.flatMap fun a => '/' :: renderAtoms a := by
    rw [show ((l.word cfg).forms.flatMap fun x => if x.2 = [] then [] else '/' :: x.2) =
      ((l.word cfg).forms.map (·.2)).flatMap fun x => if x = [] then [] else '/' :: x by rw [List.flatMap_map], h2, List.flatMap_map]
    clear h1 h2 hk
    induction as with
    | nil => rfl
    | cons a as ih =>
      rw [List.flatMap_cons, List.flatMap_cons, if_neg (hnr a (List.mem_cons_self ..)),
        ih fun x hx => hnr x (List.mem_cons_of_mem _ hx)]
  have has : as ≠ [] := by
    rintro rfl
    exact hne hk.symm
  simp only [TW.original, word_sf, hfl]
  rw [if_neg, cstr_id]
  · simp [line]
  · simp only [List.mem_append, List.mem_flatMap, List.mem_cons, not_or, not_exists, not_and]
    refine ⟨hnul.1, fun a ha => ⟨by decide, hnul.2 a (h1 a ha)⟩⟩
  · intro he
    obtain ⟨a, as', rfl⟩ := List.exists_cons_of_ne_nil has
    simp at he

theorem filterAmb_firsts (cfg : MCfg) (r : TReq) (h : r.Wf cfg) :
    filterAmb cfg id r.render = .ok ((firsts cfg [] r.lus).flatMap fun l => (l.word cfg).original) := by
  unfold filterAmb
  rw [stream_one cfg r h]
  simp only [Outcome.map, List.map_append, List.map_map, List.map_cons, List.map_nil]
  rw [← filterLoop_firsts cfg r.lus r.tail []]
  rfl

theorem lines_of (cfg : MCfg) (ks : List TLu) (h1 : ∀ k ∈ ks, k.tags cfg ≠ [])
    (h2 : ∀ l ∈ ks, '\x00' ∉ renderAtoms l.sf ∧ ∀ a ∈ l.ans, '\x00' ∉ renderAtoms a)
    (h3 : ∀ l ∈ ks, ∀ a ∈ l.ans, a ≠ []) :
    Lines cfg ks (ks.flatMap fun l => (l.word cfg).original) := by
  induction ks with
  | nil => exact .nil
  | cons k ks ih =>
    obtain ⟨as, ha, _, he⟩ := word_original cfg k (h1 k (List.mem_cons_self ..)) (h2 k (List.mem_cons_self ..))
      (h3 k (List.mem_cons_self ..))
    rw [List.flatMap_cons, he]
    exact .cons k ks as _ ha (ih (fun x hx => h1 x (List.mem_cons_of_mem _ hx))
      (fun x hx => h2 x (List.mem_cons_of_mem _ hx)) fun x hx => h3 x (List.mem_cons_of_mem _ hx))

/-- C88: the output has one line for each ambiguity class of the corpus, in the order of first appearance: the first word
of the class with one of its own analyses for each coarse tag. -/
theorem C88_output (cfg : MCfg) (r : TReq) (h : Corpus cfg r) :
    ∃ ks out, filterAmb cfg id r.render = .ok out ∧ Reps cfg r.lus ks ∧ Lines cfg ks out := by
  obtain ⟨a1, a2, a3, a4⟩ := firsts_reps cfg r.lus []
  refine ⟨firsts cfg [] r.lus, _, filterAmb_firsts cfg r h.wf, ⟨a1, a2, ?_, a4⟩, ?_⟩
  · intro c
    rw [a3 c]
    simp
  · refine lines_of cfg _ ?_ (fun l hl => h.nul l (a1.subset hl)) fun l hl => h.ne l (a1.subset hl)
    intro k hk
    exact ((a3 _).1 (List.mem_map_of_mem hk)).1

/-! ## reading the output back -/

theorem mset_last (k : Nat) (v : Text) (l : List (Nat × Text)) (h : ∀ x ∈ l, x.1 < k) : mset k v l = l ++ [(k, v)] := by
  induction l with
  | nil => rfl
  | cons x l ih =>
    have hx := h x (List.mem_cons_self ..)
    simp only [mset]
    rw [if_neg (by omega), if_neg (by omega), ih fun y hy => h y (List.mem_cons_of_mem _ hy)]
    rfl

/-- Analyses with increasing coarse tags are all kept. -/
theorem addAns_forms (cfg : MCfg) (as : List (List Atom)) : ∀ w : TW, w.tags = w.forms.map (·.1) →
    Sorted (w.tags ++ as.map (fun a => classOf cfg (renderAtoms a))) →
    (addAns cfg as w).forms = w.forms ++ as.map (fun a => (classOf cfg (renderAtoms a), renderAtoms a)) := by
  induction as with
  | nil => intro w _ _; simp [addAns]
  | cons a as ih =>
    intro w hk hs
    unfold Sorted at hs
    have hlt : ∀ t ∈ w.tags, t < classOf cfg (renderAtoms a) := by
      intro t ht
      exact (List.pairwise_append.1 hs).2.2 t ht _ (by simp)
    have hni : classOf cfg (renderAtoms a) ∉ w.tags := fun hm => Nat.lt_irrefl _ (hlt _ hm)
    have hsin : ∀ (s : Tags), (∀ t ∈ s, t < classOf cfg (renderAtoms a)) → sinsert (classOf cfg (renderAtoms a)) s = s ++ [classOf cfg (renderAtoms a)] := by
      intro s
      induction s with
      | nil => intro _; rfl
      | cons y s ih2 =>
        intro hy
        have := hy y (List.mem_cons_self ..)
        simp only [sinsert]
        rw [if_neg (by omega), if_neg (by omega), ih2 fun z hz => hy z (List.mem_cons_of_mem _ hz)]
        rfl
    have hw : w.addTag cfg.pref (classOf cfg (renderAtoms a)) (renderAtoms a) =
        { w with tags := w.tags ++ [classOf cfg (renderAtoms a)],
                 forms := w.forms ++ [(classOf cfg (renderAtoms a), renderAtoms a)] } := by
      unfold TW.addTag
      rw [if_neg hni, hsin _ hlt, mset_last]
      intro x hx
      exact hlt x.1 (by rw [hk]; exact List.mem_map_of_mem hx)
    have := ih (w.addTag cfg.pref (classOf cfg (renderAtoms a)) (renderAtoms a)) (by rw [hw]; simp [hk])
      (by rw [hw]; simpa [Sorted] using hs)
    unfold addAns at this ⊢
    rw [List.foldl_cons, this, hw]
    simp

structure Again (cfg : MCfg) (ks : List TLu) (b : List Atom) (out : Text) (r : TReq) : Prop where
  wf : r.Wf cfg
  render : r.render = renderAtoms b ++ out
  tags : r.lus.map (·.tags cfg) = ks.map (·.tags cfg)
  orig : (r.lus.flatMap fun l => (l.word cfg).original) = out

theorem lines_again (cfg : MCfg) (ks : List TLu) (out : Text) (h : Lines cfg ks out)
    (h0 : ∀ k ∈ ks, k.Wf cfg) (h1 : ∀ k ∈ ks, k.tags cfg ≠ [])
    (h2 : ∀ l ∈ ks, '\x00' ∉ renderAtoms l.sf ∧ ∀ a ∈ l.ans, '\x00' ∉ renderAtoms a)
    (h3 : ∀ l ∈ ks, ∀ a ∈ l.ans, a ≠ []) :
    ∀ b : List Atom, (∀ a ∈ b, a.wf ['^']) → ∃ r, Again cfg ks b out r := by
  induction h with
  | nil => intro b hb; exact ⟨⟨[], b⟩, ⟨by simp, hb⟩, by simp [TReq.render], rfl, rfl⟩
  | cons k ks as out hk _ ih =>
    intro b hb
    obtain ⟨r, hr⟩ := ih (fun x hx => h0 x (List.mem_cons_of_mem _ hx)) (fun x hx => h1 x (List.mem_cons_of_mem _ hx))
      (fun x hx => h2 x (List.mem_cons_of_mem _ hx)) (fun x hx => h3 x (List.mem_cons_of_mem _ hx))
      [.lit '\n'] (by simp [Atom.wf])
    have w := h0 k (List.mem_cons_self ..)
    have hne := h1 k (List.mem_cons_self ..)
    have hn := h2 k (List.mem_cons_self ..)
    have he := h3 k (List.mem_cons_self ..)
    have hu : ¬ k.Unknown := fun h => hne (tags_unknown cfg k h)
    have hst := w.star.resolve_left hu
    have has : as ≠ [] := by rintro rfl; exact hne hk.tags.symm
    have hu' : ¬ (⟨b, k.sf, as⟩ : TLu).Unknown := by
      rintro ⟨x, hx⟩
      have := (hst (.lit '*' :: x) (hk.own _ (by simp only [] at hx; rw [hx]; exact List.mem_cons_self ..))).1
      simp at this
    have hw' : (⟨b, k.sf, as⟩ : TLu).Wf cfg :=
      ⟨hb, w.sf, fun x hx => w.ans x (hk.own x hx), has, .inr fun x hx => hst x (hk.own x hx)⟩
    have hsort : Sorted (as.map (fun a => classOf cfg (renderAtoms a))) := by rw [hk.tags]; exact sorted_tags cfg k
    have hforms : ((⟨b, k.sf, as⟩ : TLu).word cfg).forms = as.map (fun a => (classOf cfg (renderAtoms a), renderAtoms a)) := by
      rw [TLu.word_known cfg _ hu', addAns_forms cfg as _ rfl (by simpa using hsort)]
      rfl
    have htags : (⟨b, k.sf, as⟩ : TLu).tags cfg = k.tags cfg := by
      rw [← specWord_tags, word_keys cfg _ hu', hforms, List.map_map, ← hk.tags]
      rfl
    obtain ⟨as2, _, hf2, ho⟩ := word_original cfg ⟨b, k.sf, as⟩ (by rw [htags]; exact hne)
      ⟨hn.1, fun a ha => hn.2 a (hk.own a ha)⟩ fun a ha => he a (hk.own a ha)
    rw [hforms, List.map_map] at hf2
    have horig : ((⟨b, k.sf, as⟩ : TLu).word cfg).original = line k.sf as := by
      rw [ho]
      unfold line
      rw [show (as2.flatMap fun a => '/' :: renderAtoms a) = (as2.map renderAtoms).flatMap (fun a => '/' :: a) by
        rw [List.flatMap_map], ← hf2, List.flatMap_map]
      rfl
    refine ⟨⟨⟨b, k.sf, as⟩ :: r.lus, r.tail⟩, ⟨?_, hr.wf.tail⟩, ?_, ?_, ?_⟩
    · intro l hl
      rcases List.mem_cons.1 hl with rfl | hl
      · exact hw'
      · exact hr.wf.lus l hl
    · have := hr.render
      simp only [TReq.render] at this
      simp only [TReq.render, List.flatMap_cons, List.append_assoc, this, TLu.render, line]
      simp [Atom.render]
    · simp only [List.map_cons, htags, hr.tags]
    · rw [List.flatMap_cons, horig, hr.orig]

/-- What the filter writes for a corpus, as a corpus. -/
theorem filter_again (cfg : MCfg) (r : TReq) (h : Corpus cfg r) :
    ∃ (ks : List TLu) (r' : TReq), Reps cfg r.lus ks ∧ filterAmb cfg id r.render = .ok r'.render ∧ r'.Wf cfg ∧
      r'.lus.map (·.tags cfg) = ks.map (·.tags cfg) ∧ ks = firsts cfg [] r.lus ∧
      (r'.lus.flatMap fun l => (l.word cfg).original) = r'.render := by
  obtain ⟨a1, a2, a3, a4⟩ := firsts_reps cfg r.lus []
  have hne : ∀ k ∈ firsts cfg [] r.lus, k.tags cfg ≠ [] := fun k hk => ((a3 _).1 (List.mem_map_of_mem hk)).1
  have hl := lines_of cfg _ hne (fun l hl => h.nul l (a1.subset hl)) fun l hl => h.ne l (a1.subset hl)
  obtain ⟨r', b⟩ := lines_again cfg _ _ hl (fun l hl => h.wf.lus l (a1.subset hl)) hne
    (fun l hl => h.nul l (a1.subset hl)) (fun l hl => h.ne l (a1.subset hl)) [] (by simp)
  have hren : r'.render = (firsts cfg [] r.lus).flatMap fun l => (l.word cfg).original := by
    rw [b.render]; rfl
  refine ⟨firsts cfg [] r.lus, r', ⟨a1, a2, ?_, a4⟩, ?_, b.wf, b.tags, rfl, ?_⟩
  · intro c; rw [a3 c]; simp
  · rw [filterAmb_firsts cfg r h.wf, hren]
  · rw [b.orig, hren]

/-- C88: read back, the output has exactly one word for each ambiguity class of the corpus, in the order of first
appearance. -/
theorem C88_classes (cfg : MCfg) (r : TReq) (h : Corpus cfg r) :
    ∃ ks out, filterAmb cfg id r.render = .ok out ∧ Reps cfg r.lus ks ∧
      classes cfg out = .ok (ks.map (·.tags cfg) ++ [[cfg.keof]]) := by
  obtain ⟨ks, r', h1, h2, h3, h4, _, _⟩ := filter_again cfg r h
  exact ⟨ks, _, h2, h1, by rw [classes_one cfg r' h3, h4]⟩

theorem firsts_self (cfg : MCfg) (ls : List TLu) : ∀ seen, (∀ l ∈ ls, l.tags cfg ≠ []) →
    (ls.map (·.tags cfg)).Nodup → (∀ l ∈ ls, l.tags cfg ∉ seen) → firsts cfg seen ls = ls := by
  induction ls with
  | nil => intro _ _ _ _; rfl
  | cons l ls ih =>
    intro seen h1 h2 h3
    rw [List.map_cons, List.nodup_cons] at h2
    simp only [firsts]
    rw [if_neg (by rw [not_or]; exact ⟨h1 l (List.mem_cons_self ..), h3 l (List.mem_cons_self ..)⟩),
      ih _ (fun x hx => h1 x (List.mem_cons_of_mem _ hx)) h2.2]
    intro x hx
    rw [List.mem_cons, not_or]
    refine ⟨?_, h3 x (List.mem_cons_of_mem _ hx)⟩
    intro he
    exact h2.1 (he ▸ List.mem_map_of_mem hx)

/-- C88: filtering a filtered corpus changes nothing. -/
theorem C88_idempotent (cfg : MCfg) (r : TReq) (h : Corpus cfg r) :
    ∃ out, filterAmb cfg id r.render = .ok out ∧ filterAmb cfg id out = .ok out := by
  obtain ⟨ks, r', h1, h2, h3, h4, _, h6⟩ := filter_again cfg r h
  refine ⟨_, h2, ?_⟩
  rw [filterAmb_firsts cfg r' h3, firsts_self, h6]
  · intro l hl he
    have hm : l.tags cfg ∈ ks.map (·.tags cfg) := by rw [← h4]; exact List.mem_map_of_mem hl
    exact ((h1.all _).1 hm).1 he
  · rw [h4]; exact h1.nodup
  · intro l _; simp

/-! ## the same classes for training -/

theorem add_known (c : Coll) (t : Tags) (h : (c.find t).isSome = true) : (c.add t).1 = c := by
  unfold Coll.add
  cases hf : c.find t with
  | none => rw [hf] at h; cases h
  | some n => rfl

theorem add_find (c : Coll) (t : Tags) : ((c.add t).1.find t).isSome = true := by
  unfold Coll.add
  cases hf : c.find t with
  | none => simp [Coll.find]
  | some n => simp [hf]

theorem add_find_mono (c : Coll) (t u : Tags) (h : (c.find u).isSome = true) : ((c.add t).1.find u).isSome = true := by
  unfold Coll.add
  cases hf : c.find t with
  | none =>
    simp only [Coll.find, Option.isSome_map] at h ⊢
    simp only [List.find?_isSome] at h ⊢
    obtain ⟨x, hx, he⟩ := h
    exact ⟨x, List.mem_cons_of_mem _ hx, he⟩
  | some n => simpa [hf] using h

theorem scan_firsts (cfg : MCfg) (ls : List TLu) : ∀ (seen : List Tags) (c : Coll),
    (∀ t ∈ seen, (c.find t).isSome = true) →
    (ls.map (·.tags cfg)).foldl (fun c t => if t = [] then c else (c.add t).1) c =
      ((firsts cfg seen ls).map (·.tags cfg)).foldl (fun c t => if t = [] then c else (c.add t).1) c := by
  induction ls with
  | nil => intro _ _ _; rfl
  | cons l ls ih =>
    intro seen c hs
    simp only [List.map_cons, List.foldl_cons, firsts]
    by_cases h1 : l.tags cfg = []
    · rw [if_pos h1, if_pos (.inl h1), ih seen c hs]
    · rw [if_neg h1]
      by_cases h2 : l.tags cfg ∈ seen
      · rw [if_pos (.inr h2), add_known _ _ (hs _ h2), ih seen c hs]
      · rw [if_neg (by rw [not_or]; exact ⟨h1, h2⟩)]
        simp only [List.map_cons, List.foldl_cons]
        rw [if_neg h1, ih (l.tags cfg :: seen)]
        intro t ht
        rcases List.mem_cons.1 ht with rfl | ht
        · exact add_find _ _
        · exact add_find_mono _ _ _ (hs t ht)

/-- C88: the filtered corpus gives the trainers the same ambiguity classes, with the same numbers, as the whole corpus. -/
theorem C88_training (cfg : MCfg) (r : TReq) (h : Corpus cfg r) (td : TD) :
    ∃ out ws ws', filterAmb cfg id r.render = .ok out ∧ classes cfg r.render = .ok ws ∧ classes cfg out = .ok ws' ∧
      scan td ws' = scan td ws := by
  obtain ⟨ks, r', h1, h2, h3, h4, h5, h6⟩ := filter_again cfg r h
  refine ⟨_, _, _, h2, classes_one cfg r h.wf, classes_one cfg r' h3, ?_⟩
  unfold scan
  rw [List.foldl_append, List.foldl_append, h4, h5, ← scan_firsts cfg r.lus [] td.output (by simp)]

/-! ## a case, and corpora where the property fails -/

/-- Two words of the class {1, 2}, one of the class {1}, an unknown word. -/
def exCorpus : TReq :=
  { lus := [⟨[], lits t!"casa", [lits t!"casar<vb>", lits t!"casa<n>"]⟩, ⟨lits t!" ", lits t!"xyz", [lits t!"*xyz"]⟩,
            ⟨lits t!" ", lits t!"vino", [lits t!"vino<n>", lits t!"venir<vb>"]⟩, ⟨lits t!" ", lits t!"gat", [lits t!"gat<n>"]⟩],
    tail := lits t!"." }

theorem exCorpus_ok : Corpus exCfg exCorpus := by
  refine ⟨⟨?_, by decide⟩, by decide +kernel, by decide +kernel⟩
  intro l hl
  simp only [exCorpus, List.mem_cons, List.not_mem_nil, or_false] at hl
  rcases hl with rfl | rfl | rfl | rfl
  · refine ⟨by decide, by decide, by decide, by simp, .inr ?_⟩
    intro x hx
    simp only [List.mem_cons, List.not_mem_nil, or_false] at hx
    rcases hx with rfl | rfl
    · exact ⟨by decide, .inr (by decide), by decide +kernel⟩
    · exact ⟨by decide, .inr (by decide), by decide +kernel⟩
  · exact ⟨by decide, by decide, by decide, by simp, .inl ⟨lits t!"xyz", rfl⟩⟩
  · refine ⟨by decide, by decide, by decide, by simp, .inr ?_⟩
    intro x hx
    simp only [List.mem_cons, List.not_mem_nil, or_false] at hx
    rcases hx with rfl | rfl
    · exact ⟨by decide, .inr (by decide), by decide +kernel⟩
    · exact ⟨by decide, .inr (by decide), by decide +kernel⟩
  · refine ⟨by decide, by decide, by decide, by simp, .inr ?_⟩
    intro x hx
    simp only [List.mem_cons, List.not_mem_nil, or_false] at hx
    subst hx
    exact ⟨by decide, .inr (by decide), by decide +kernel⟩

example := C88_output exCfg exCorpus exCorpus_ok
example := C88_classes exCfg exCorpus exCorpus_ok
example := C88_idempotent exCfg exCorpus exCorpus_ok
example := C88_training exCfg exCorpus exCorpus_ok exTD2

example : filterAmb exCfg id exCorpus.render = .ok t!"^casa/casa<n>/casar<vb>$\n^gat/gat<n>$\n" := by decide +kernel

/-- An empty analysis is left out of the line, so a word with no other is written without analyses; when the output
is read, that word swallows the next one, whose class is lost. -/
theorem C88_empty_violation :
    filterAmb exCfg id t!"^a/$ ^gat/gat<n>$ ^va/va<vb>$" = .ok t!"^a$\n^gat/gat<n>$\n^va/va<vb>$\n" ∧
    classes exCfg t!"^a/$ ^gat/gat<n>$ ^va/va<vb>$" = .ok [[4], [1], [2], [5]] ∧
    classes exCfg t!"^a$\n^gat/gat<n>$\n^va/va<vb>$\n" = .ok [[1, 4], [2], [5]] := by decide +kernel

/-- A NUL in a word ends the line early: what follows is lost. -/
theorem C88_nul_violation :
    filterAmb exCfg id (t!"^a" ++ '\x00' :: t!"b/gat<n>$") = .ok t!"^a$\n" := by decide +kernel

/-- A recogniser whose pronouns have the smallest number. -/
def prnCfg : MCfg :=
  { m := { S := Text, init := [], char := fun s c => s ++ [c], tag := fun s t => s ++ t, dead := fun _ => false,
           fin := fun s => if t!"<n>".isSuffixOf s = true then some 1 else if t!"<vb>".isSuffixOf s = true then some 2
             else if t!"<prn>".isSuffixOf s = true then some 0 else none },
    keof := 5, kundef := 4, pref := fun _ => false }

/-- With a discard rule a word can be written with analyses that are not in its class (see C23): the class [2] of the
corpus is not in the output, which has the class [1, 2] instead. -/
theorem C88_discard_violation :
    ∃ disc : TW → TW, disc = (fun w => w.discard (fun f => decide (f = t!"x<prn>")) 5) ∧
      (stream prnCfg false disc t!"^x/x<n>/x<prn>/x<vb>$").map (fun ws => ws.map (·.1.tags)) = .ok [[2], [5]] ∧
      filterAmb prnCfg disc t!"^x/x<n>/x<prn>/x<vb>$" = .ok t!"^x/x<n>/x<vb>$\n" ∧
      (stream prnCfg false disc t!"^x/x<n>/x<vb>$\n").map (fun ws => ws.map (·.1.tags)) = .ok [[1, 2], [5]] :=
  ⟨_, rfl, by decide +kernel⟩

end Verif.Tagger
