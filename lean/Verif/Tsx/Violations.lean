import Verif.Tsx.Any
/-!
# C80: definitions that are rejected, and definitions that are read as something else
-/
namespace Verif.Tsx

theorem Many.split {α : Type} {R : α → List Node → Prop} : ∀ (as : List α) (b : α) (bs : List α) (ns : List Node), Many R (as ++ b :: bs) ns →
    ∃ n1 nb r, ns = n1 ++ nb ++ r ∧ Many R as n1 ∧ R b nb := by
  intro as
  induction as with
  | nil =>
    intro b bs ns h
    generalize hq : [] ++ b :: bs = q at h
    cases h with
    | nil g hg => cases hq
    | cons a as g ns r hg ha hr => cases hq; exact ⟨g, ns, r, rfl, .nil g hg, ha⟩
  | cons a as ih =>
    intro b bs ns h
    generalize hq : a :: as ++ b :: bs = q at h
    cases h with
    | nil g hg => cases hq
    | cons a' as' g ns r hg ha hr =>
      cases hq
      obtain ⟨n1, nb, r', rfl, h1, h2⟩ := ih b bs r hr
      exact ⟨g ++ ns ++ n1, nb, r', by simp, .cons a as g ns n1 hg ha h1, h2⟩

/-- C80.  A tag that is defined again is rejected, and so is a definition of one of the seven fixed tags. -/
theorem C80_duplicate (d0 : Data) (doc : Doc) (pre post : List Def) (x : Def) (hdefs : doc.defs = pre ++ x :: post) (hpre : DefsOk fixedTags pre)
    (hx : x.name ∈ fixedTags ++ pre.map (·.name)) (ns : List Node) (hw : Writes doc ns) : parse d0 ns = .fail := by
  obtain ⟨g0, g1, g2, rest, tagset, forbid, enforce, prefer, discard, n, e, hg0, hn, hg1, hts, hf, he, hp, hd, hg2, hend⟩ := hw
  rw [hdefs] at hts
  obtain ⟨m, em, c, h1, _, h3, h4⟩ := hts
  obtain ⟨n1, nb, r, rfl, hm, hb⟩ := Many.split pre x post c h3
  obtain ⟨d1, ed1⟩ : ∃ d : Data, d = { d0 with openClass := [], forbid := [], tagIndex := idx fixedTags, arrayTags := fixedTags.map tagKey, enforce := [] } := ⟨_, rfl⟩
  have hhas : Has d1 fixedTags := ⟨by rw [ed1], by simp [ed1]⟩
  have hall := defs_pre pre fixedTags d1 hpre hhas
  generalize (fun l => (fixedTags ++ pre.map (·.name)).idxOf l) = num at hall
  have hhas2 := defs_has (num := num) pre fixedTags d1 hhas
  obtain ⟨c3, hc3, e3⟩ := loop_many tagsetBody_dec tagset_skips (f := defF num) (Pre := DefOk num) (fun a ns ha d cur tl hp hc => loop_def num a ns ha d cur tl hp hc)
    pre n1 hm d1 m (nb ++ r ++ em :: (forbid ++ enforce ++ prefer ++ discard ++ g2 ++ e :: rest)) hall (.inl h1.2)
  have hfind : (mapFind (pre.foldl (defF num) d1).tagIndex (tagKey x.name)).isSome = true := by rw [hhas2.index, find_idx, if_pos hx]; rfl
  have htag (k : Node) (q : List Node) (hk : k.attrib t!"name" = x.name) : defTag ⟨k, q, pre.foldl (defF num) d1⟩ = .fail := by
    simp only [defTag, newDefTag, hk, hfind, if_true]; rfl
  have hbody : loop (untilEnd t!"tagset") tagsetBody ⟨c3, nb ++ r ++ em :: (forbid ++ enforce ++ prefer ++ discard ++ g2 ++ e :: rest), pre.foldl (defF num) d1⟩ = .fail := by
    refine loop_fail (hc3.until _ _) ?_
    obtain ⟨name, closed, body⟩ := x
    cases body with
    | items is =>
      obtain ⟨k, ek, ck, k1, ⟨k2, _⟩, k3, k4⟩ := hb
      simp only [tagsetBody, List.cons_append, step, Outcome.bind_ok, k1.1, k1.2, if_true, Bool.false_eq_true, if_false, procDefLabel, htag k _ k2]
      rfl
    | seqs ss =>
      obtain ⟨k, ek, ck, k1, ⟨k2, _⟩, k3, k4⟩ := hb
      have hne : ¬ (t!"def-mult" = t!"def-label") := by decide
      simp only [tagsetBody, List.cons_append, step, Outcome.bind_ok, k1.1, k1.2, if_neg hne, if_true, Bool.false_eq_true, if_false, procDefMult, htag k _ k2]
      rfl
  simp only [parse, clearTagIndex_eq, Outcome.bind_ok]
  rw [show g0 ++ n :: (g1 ++ (m :: (n1 ++ nb ++ r) ++ [em]) ++ forbid ++ enforce ++ prefer ++ discard ++ g2 ++ e :: rest) =
      g0 ++ n :: (g1 ++ m :: (n1 ++ (nb ++ r ++ em :: (forbid ++ enforce ++ prefer ++ discard ++ g2 ++ e :: rest)))) by simp,
    read_head g0 g1 _ n m hg0 hn hg1 h1, ← ed1, e3, hbody]
  rfl

/-! ### A definition, and ways to write it -/

/-- `<x a="v" ...>` -/
def st (x : Text) (as : List (Text × Text) := []) : Node := { name := x, attrs := as }

/-- `</x>` -/
def en (x : Text) : Node := { name := x, isEnd := true }

def sp : Node := { name := t!"#text" }

/-- A noun, a verb (closed) and the sequence of a preposition and a noun; no verb after a noun. -/
def exDoc : Doc where
  defs := [⟨t!"NOUN", false, .items [⟨[], t!"n.*"⟩, ⟨t!"dog", t!"np"⟩]⟩, ⟨t!"VERB", true, .items [⟨[], t!"vblex.*"⟩]⟩,
    ⟨t!"PRNOUN", false, .seqs [[.item ⟨t!"de", t!"pr"⟩, .label t!"NOUN"]]⟩]
  forbid := some [(t!"NOUN", t!"VERB")]
  enforce := some [(t!"VERB", [t!"NOUN", t!"SENT"])]
  prefer := some [[t!"vblex", t!"inf"]]

def exNodes : List Node :=
  [sp] ++ st t!"tagger" :: ([] ++
    (st t!"tagset" :: ([sp] ++ (st t!"def-label" [(t!"name", t!"NOUN")] :: ([] ++ [st t!"tags-item" [(t!"tags", t!"n.*")]] ++
        ([] ++ [st t!"tags-item" [(t!"lemma", t!"dog"), (t!"tags", t!"np")]] ++ [])) ++ [en t!"def-label"]) ++
      ([] ++ (st t!"def-label" [(t!"name", t!"VERB"), (t!"closed", t!"true")] :: ([] ++ [st t!"tags-item" [(t!"tags", t!"vblex.*")]] ++ []) ++ [en t!"def-label"]) ++
      ([] ++ (st t!"def-mult" [(t!"name", t!"PRNOUN")] :: ([] ++ (st t!"sequence" :: ([] ++ [st t!"tags-item" [(t!"lemma", t!"de"), (t!"tags", t!"pr")]] ++
        ([] ++ (st t!"label-item" [(t!"label", t!"NOUN")] :: [sp] ++ [en t!"label-item"]) ++ [])) ++ [en t!"sequence"]) ++ []) ++ [en t!"def-mult"]) ++ []))) ++ [en t!"tagset"]) ++
    ([sp] ++ (st t!"forbid" :: ([] ++ (st t!"label-sequence" :: ([sp] ++ st t!"label-item" [(t!"label", t!"NOUN")] :: ([] ++ st t!"label-item" [(t!"label", t!"VERB")] :: [])) ++
      [en t!"label-sequence"]) ++ []) ++ [en t!"forbid"])) ++
    ([] ++ (st t!"enforce-rules" :: ([] ++ (st t!"enforce-after" [(t!"label", t!"VERB")] :: ([] ++ (st t!"label-set" :: ([] ++ [st t!"label-item" [(t!"label", t!"NOUN")]] ++
      ([] ++ [st t!"label-item" [(t!"label", t!"SENT")]] ++ [])) ++ [en t!"label-set"]) ++ []) ++ [en t!"enforce-after"]) ++ []) ++ [en t!"enforce-rules"])) ++
    ([] ++ (st t!"preferences" :: ([] ++ [st t!"prefer" [(t!"tags", t!"vblex.inf")]] ++ []) ++ [en t!"preferences"])) ++ [] ++ [] ++ en t!"tagger" :: [])

theorem exDoc_ok : exDoc.Ok := by
  constructor
  · simp only [exDoc, DefsOk, Body.labels]; decide
  · simp only [exDoc]; decide
  · simp only [exDoc]; decide
  · simp only [exDoc]; decide
  · simp only [exDoc]; decide

theorem gap_nil : Gap [] := by simp [Gap]
theorem gap_sp : Gap [sp] := by simp [Gap, sp]

theorem exNodes_writes : Writes exDoc exNodes := by
  refine .mk [sp] [] [] [] _ _ _ _ _ _ _ gap_sp ⟨rfl, rfl⟩ gap_nil (.mk _ _ _ ⟨rfl, rfl⟩ trivial ?_ ⟨rfl, rfl⟩) (.some _ _ _ gap_sp ?_) (.some _ _ _ gap_nil ?_)
    (.some _ _ _ gap_nil ?_) .none gap_nil ⟨rfl, rfl⟩
  · refine .cons _ _ _ _ _ gap_sp (.mk _ _ _ ⟨rfl, rfl⟩ (by decide) (.cons _ _ _ _ _ gap_nil (.short _ ⟨rfl, rfl⟩ (by decide))
        (.cons _ _ _ _ _ gap_nil (.short _ ⟨rfl, rfl⟩ (by decide)) (.nil _ gap_nil))) ⟨rfl, rfl⟩)
      (.cons _ _ _ _ _ gap_nil (.mk _ _ _ ⟨rfl, rfl⟩ (by decide) (.cons _ _ _ _ _ gap_nil (.short _ ⟨rfl, rfl⟩ (by decide)) (.nil _ gap_nil)) ⟨rfl, rfl⟩)
      (.cons _ _ _ _ _ gap_nil (.mk _ _ _ ⟨rfl, rfl⟩ (by decide) (.cons _ _ _ _ _ gap_nil (.mk _ _ _ ⟨rfl, rfl⟩ trivial (.cons _ _ _ _ _ gap_nil (.short _ ⟨rfl, rfl⟩ (by decide))
        (.cons _ _ _ _ _ gap_nil (.long _ _ _ ⟨rfl, rfl⟩ (by decide) gap_sp ⟨rfl, rfl⟩) (.nil _ gap_nil))) ⟨rfl, rfl⟩) (.nil _ gap_nil)) ⟨rfl, rfl⟩) (.nil _ gap_nil)))
  · exact .mk _ _ _ ⟨rfl, rfl⟩ trivial (.cons _ _ _ _ _ gap_nil (.mk _ _ _ ⟨rfl, rfl⟩ trivial
      (.mk _ _ _ _ _ gap_sp gap_nil gap_nil ⟨rfl, rfl⟩ (by decide) ⟨rfl, rfl⟩ (by decide)) ⟨rfl, rfl⟩) (.nil _ gap_nil)) ⟨rfl, rfl⟩
  · exact .mk _ _ _ ⟨rfl, rfl⟩ trivial (.cons _ _ _ _ _ gap_nil (.mk _ _ _ ⟨rfl, rfl⟩ (by decide) (.cons _ _ _ _ _ gap_nil (.mk _ _ _ ⟨rfl, rfl⟩ trivial
      (.cons _ _ _ _ _ gap_nil (.short _ ⟨rfl, rfl⟩ (by decide)) (.cons _ _ _ _ _ gap_nil (.short _ ⟨rfl, rfl⟩ (by decide)) (.nil _ gap_nil))) ⟨rfl, rfl⟩) (.nil _ gap_nil)) ⟨rfl, rfl⟩)
      (.nil _ gap_nil)) ⟨rfl, rfl⟩
  · exact .mk _ _ _ ⟨rfl, rfl⟩ trivial (.cons _ _ _ _ _ gap_nil (.short _ ⟨rfl, rfl⟩ (by decide)) (.nil _ gap_nil)) ⟨rfl, rfl⟩

/-- The hypotheses of `C80_read_partial` hold of it, and this is what is read. -/
example : ∃ d, parse {} exNodes = .ok d ∧ d.openClass = [7, 9] ∧ d.forbid = [(7, 8)] ∧ d.enforce = [(8, [7, 4])] ∧ d.prefer = [t!"<vblex><inf>"] ∧ d.arrayTags.length = 17 :=
  ⟨_, rfl, by decide +kernel⟩

/-- Those of `C80_duplicate` hold of a definition with `NOUN` twice. -/
example : ∃ doc : Doc, ∃ ns pre x, doc.defs = pre ++ x :: [] ∧ DefsOk fixedTags pre ∧ x.name ∈ fixedTags ++ pre.map (·.name) ∧ Writes doc ns :=
  ⟨{ defs := [⟨t!"NOUN", false, .items []⟩, ⟨t!"NOUN", false, .items []⟩] }, _, [⟨t!"NOUN", false, .items []⟩], ⟨t!"NOUN", false, .items []⟩, rfl,
    by simp only [DefsOk, Body.labels]; decide, by decide,
    .mk [] [] [] [] _ _ _ _ _ (st t!"tagger") (en t!"tagger") gap_nil ⟨rfl, rfl⟩ gap_nil
      (.mk (st t!"tagset") (en t!"tagset") _ ⟨rfl, rfl⟩ trivial
        (.cons _ _ _ _ _ gap_nil (.mk (st t!"def-label" [(t!"name", t!"NOUN")]) (en t!"def-label") [] ⟨rfl, rfl⟩ (by decide) (.nil _ gap_nil) ⟨rfl, rfl⟩)
          (.cons _ _ _ _ _ gap_nil (.mk (st t!"def-label" [(t!"name", t!"NOUN")]) (en t!"def-label") [] ⟨rfl, rfl⟩ (by decide) (.nil _ gap_nil) ⟨rfl, rfl⟩) (.nil _ gap_nil))) ⟨rfl, rfl⟩)
      .none .none .none .none gap_nil ⟨rfl, rfl⟩⟩

/-! ### What is read as something else -/

/-- A definition with the single tag `NOUN`, and these nodes after the tagset. -/
def withNoun (ns : List Node) : List Node :=
  st t!"tagger" :: st t!"tagset" :: st t!"def-label" [(t!"name", t!"NOUN")] :: st t!"tags-item" [(t!"tags", t!"n")] :: en t!"def-label" :: en t!"tagset" :: ns ++ [en t!"tagger"]

def pairOf (a b : Text) : List Node :=
  [st t!"label-sequence", st t!"label-item" [(t!"label", a)], st t!"label-item" [(t!"label", b)], en t!"label-sequence"]

/-- C80 fails for a label that no definition has (a misspelt one, say): nothing is reported, the rule is about the tag `LPAR`, and the tagger has one state more
(tsx_reader.cc:332, `(*tag_index)[..]`). -/
theorem C80_unknown_label_violation : ∃ ns d, parse {} ns = .ok d ∧
    ns = withNoun (st t!"forbid" :: pairOf t!"NOUN" t!"NUON" ++ [en t!"forbid"]) ∧ d.forbid = [(7, 0)] ∧ d.arrayTags[0]? = some t!"TAG_LPAR" ∧
    d.tagIndex.length = 9 ∧ mapFind d.tagIndex t!"TAG_NUON" = some 0 :=
  ⟨_, _, rfl, rfl, by decide +kernel⟩

/-- The same in a sequence of a `def-mult`; and a tag that is used in a sequence before it is defined cannot be defined any more. -/
theorem C80_forward_label_violation : parse {} [st t!"tagger", st t!"tagset",
      st t!"def-mult" [(t!"name", t!"PRN")], st t!"sequence", st t!"label-item" [(t!"label", t!"NOUN")], en t!"sequence", en t!"def-mult",
      st t!"def-label" [(t!"name", t!"NOUN")], st t!"tags-item" [(t!"tags", t!"n")], en t!"def-label", en t!"tagset", en t!"tagger"] = .fail := by decide +kernel

/-- C80 fails for another order of the sections (not admitted by the document type, which is not checked): a `forbid` after `preferences` is not read, and nothing is reported. -/
theorem C80_order_violation : ∃ d, parse {} (withNoun (st t!"preferences" :: st t!"prefer" [(t!"tags", t!"n.m")] :: en t!"preferences" ::
    st t!"forbid" :: pairOf t!"NOUN" t!"NOUN" ++ [en t!"forbid"])) = .ok d ∧ d.prefer = [t!"<n><m>"] ∧ d.forbid = [] :=
  ⟨_, rfl, by decide +kernel⟩

/-- An element that is not known after the tagset ends the reading: what follows is not read, and nothing is reported. -/
theorem C80_unknown_section_violation : ∃ d, parse {} (withNoun (st t!"forbids" :: pairOf t!"NOUN" t!"NOUN" ++ en t!"forbids" ::
    st t!"preferences" :: st t!"prefer" [(t!"tags", t!"n.m")] :: [en t!"preferences"])) = .ok d ∧ d.prefer = [] ∧ d.forbid = [] :=
  ⟨_, rfl, by decide +kernel⟩

/-- A definition without patterns, `<def-label .../>` (not admitted by the document type, which is not checked): the next definition is taken for its end, and lost. -/
theorem C80_empty_label_violation : ∃ d, parse {} [st t!"tagger", st t!"tagset", st t!"def-label" [(t!"name", t!"UNK")],
      st t!"def-label" [(t!"name", t!"NOUN")], en t!"def-label", en t!"tagset", en t!"tagger"] = .ok d ∧ mapFind d.tagIndex t!"TAG_UNK" = some 7 ∧
      mapFind d.tagIndex t!"TAG_NOUN" = none :=
  ⟨_, rfl, by decide +kernel⟩

/-- C80 fails for `<label-item ...></label-item>` in a `label-sequence`, which is the same XML as `<label-item .../>`: the end of the first is taken for the second, and the
file is rejected. -/
theorem C80_label_item_end_violation : parse {} (withNoun (st t!"forbid" :: st t!"label-sequence" :: st t!"label-item" [(t!"label", t!"NOUN")] :: en t!"label-item" ::
    st t!"label-item" [(t!"label", t!"NOUN")] :: en t!"label-item" :: en t!"label-sequence" :: [en t!"forbid"])) = .fail := by decide +kernel

/-- C80 fails for a reader that has read another file: it keeps the preferences of that (and its discards and patterns). -/
theorem C80_reread_violation : ∃ d1 d2, parse {} (withNoun [st t!"preferences", st t!"prefer" [(t!"tags", t!"n.m")], en t!"preferences"]) = .ok d1 ∧
    parse d1 (withNoun []) = .ok d2 ∧ d2.prefer = [t!"<n><m>"] :=
  ⟨_, _, rfl, rfl, by decide +kernel⟩

end Verif.Tsx
