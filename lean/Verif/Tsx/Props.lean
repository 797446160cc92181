import Verif.Tsx.Sections
import Verif.Tagger.ClassesProps
namespace Verif.Tsx
open Verif.Tagger (Tags sinsert Sorted)
open Verif.Tagger.Coll (mem_sinsert)

theorem idxOf_append_of_mem {a : Text} {K R : List Text} (h : a ∈ K) : (K ++ R).idxOf a = K.idxOf a := by simp [List.idxOf_append, h]
theorem idxOf_append_of_notMem {a : Text} {K R : List Text} (h : a ∉ K) : (K ++ R).idxOf a = R.idxOf a + K.length := by simp [List.idxOf_append, h]
theorem idxOf_cons_ne {a b : Text} (K : List Text) (h : a ≠ b) : (a :: K).idxOf b = K.idxOf b + 1 := by
  rw [List.idxOf_cons, beq_eq_false_iff_ne.2 h]; rfl

/-! ### The index -/

/-- The index of a list of tags. -/
def idx (K : List Text) : List (Text × Nat) := K.zipIdx.map (fun p => (tagKey p.1, p.2))

theorem idx_append (K : List Text) (n : Text) : idx (K ++ [n]) = idx K ++ [(tagKey n, K.length)] := by
  simp [idx, List.zipIdx_append]

theorem find_zipIdx (l : Text) : ∀ (K : List Text) (k : Nat), mapFind ((K.zipIdx k).map (fun p => (tagKey p.1, p.2))) (tagKey l) =
    if l ∈ K then some (k + K.idxOf l) else none := by
  intro K
  induction K with
  | nil => intro k; simp [mapFind]
  | cons a K ih =>
    intro k
    by_cases h : a = l
    · subst h; simp [mapFind]
    · have := ih (k + 1)
      simp only [mapFind] at this
      have h' : ¬ (l = a) := fun e => h e.symm
      simp only [List.zipIdx_cons, List.map_cons, mapFind, List.find?_cons, tagKey_inj, h, decide_false, this, List.mem_cons, h', false_or,
        idxOf_cons_ne _ h]
      split
      · congr 1; omega
      · rfl

theorem find_idx (K : List Text) (l : Text) : mapFind (idx K) (tagKey l) = if l ∈ K then some (K.idxOf l) else none := by
  have := find_zipIdx l K 0
  simpa [idx] using this

/-- The data know the tags `K`, with their places as numbers. -/
structure Has (d : Data) (K : List Text) : Prop where
  index : d.tagIndex = idx K
  length : d.arrayTags.length = K.length

theorem defF_has {num : Text → Nat} {d : Data} {K : List Text} (h : Has d K) (x : Def) : Has (defF num d x) (K ++ [x.name]) := by
  constructor
  · simp [defF, tagF, idx_append, h.index, h.length]
  · simp [defF, tagF, h.length]

theorem defs_pre : ∀ (defs : List Def) (K : List Text) (d : Data), DefsOk K defs → Has d K →
    PreAll (defF (fun l => (K ++ defs.map (·.name)).idxOf l)) (DefOk (fun l => (K ++ defs.map (·.name)).idxOf l)) d defs := by
  intro defs
  induction defs with
  | nil => intro K d _ _; trivial
  | cons x defs ih =>
    intro K d hok hh
    obtain ⟨h1, h2, h3⟩ := hok
    refine ⟨⟨?_, ?_⟩, ?_⟩
    · rw [hh.index, find_idx, if_neg h1]
    · intro l hl
      rw [hh.index, find_idx, if_pos (h2 l hl), idxOf_append_of_mem (h2 l hl)]
    · have := ih (K ++ [x.name]) (defF (fun l => (K ++ (x :: defs).map (·.name)).idxOf l) d x) h3 (defF_has hh x)
      simpa using this

theorem defs_has {num : Text → Nat} : ∀ (defs : List Def) (K : List Text) (d : Data), Has d K → Has (defs.foldl (defF num) d) (K ++ defs.map (·.name)) := by
  intro defs
  induction defs with
  | nil => intro K d h; simpa using h
  | cons x defs ih => intro K d h; simpa using ih _ _ (defF_has h x)

/-- What the definitions leave alone, and what they do. -/
structure AfterDefs (num : Text → Nat) (defs : List Def) (d d' : Data) : Prop where
  forbid : d'.forbid = d.forbid
  enforce : d'.enforce = d.enforce
  prefer : d'.prefer = d.prefer
  discard : d'.discard = d.discard
  constants : d'.constants = d.constants
  tags : d'.arrayTags = d.arrayTags ++ defs.map (·.name)

theorem defs_after (num : Text → Nat) : ∀ (defs : List Def) (d : Data), AfterDefs num defs d (defs.foldl (defF num) d) := by
  intro defs
  induction defs with
  | nil => intro d; exact ⟨rfl, rfl, rfl, rfl, rfl, by simp⟩
  | cons x defs ih =>
    intro d
    obtain ⟨h1, h2, h3, h4, h5, h6⟩ := ih (defF num d x)
    exact ⟨h1, h2, h3, h4, h5, by simp only [List.foldl_cons, h6]; simp [defF, tagF]⟩

theorem defs_ops : ∀ (defs : List Def) (K : List Text) (d : Data), DefsOk K defs → Has d K → ∀ (num : Text → Nat), num = (fun l => (K ++ defs.map (·.name)).idxOf l) →
    (defs.foldl (defF num) d).plist = d.plist ++ defs.flatMap (fun x => bodyOps num (num x.name) x.body) ∧
    (∀ i, i ∈ (defs.foldl (defF num) d).openClass ↔ i ∈ d.openClass ∨ ∃ x ∈ defs, x.closed = false ∧ i = num x.name) := by
  intro defs
  induction defs with
  | nil => intro K d _ _ num _; simp
  | cons x defs ih =>
    intro K d hok hh num hnum
    obtain ⟨h1, h2, h3⟩ := hok
    obtain ⟨q1, q2⟩ := ih (K ++ [x.name]) (defF num d x) h3 (defF_has hh x) num (by rw [hnum]; simp)
    have hx : num x.name = d.arrayTags.length := by
      rw [hnum, hh.length]
      simp [idxOf_append_of_notMem h1]
    constructor
    · rw [List.foldl_cons, q1]
      simp [defF, hx]
    · intro i
      rw [List.foldl_cons, q2 i]
      simp only [defF, tagF, List.mem_cons, exists_eq_or_imp, hx]
      cases hcl : x.closed
      · simp only [mem_sinsert, Bool.false_eq_true, if_false, true_and]
        constructor
        · rintro ((h | h) | h)
          · exact .inr (.inl h)
          · exact .inl h
          · exact .inr (.inr h)
        · rintro (h | h | h)
          · exact .inl (.inr h)
          · exact .inl (.inl h)
          · exact .inr h
      · simp

theorem sorted_sinsert (x : Nat) (s : Tags) (h : Sorted s) : Sorted (sinsert x s) := by
  induction s with
  | nil => simp [sinsert, Sorted]
  | cons y r ih =>
    have hr := (List.pairwise_cons.1 h)
    simp only [sinsert]
    split
    · rename_i hxy
      refine List.pairwise_cons.2 ⟨?_, h⟩
      intro z hz
      rcases List.mem_cons.1 hz with rfl | hz
      · exact hxy
      · exact Nat.lt_trans hxy (hr.1 z hz)
    · split
      · exact h
      · refine List.pairwise_cons.2 ⟨?_, ih hr.2⟩
        intro z hz
        rcases (mem_sinsert _ _ _).1 hz with rfl | hz
        · omega
        · exact hr.1 z hz

theorem defs_sorted (num : Text → Nat) : ∀ (defs : List Def) (d : Data), Sorted d.openClass → Sorted (defs.foldl (defF num) d).openClass := by
  intro defs
  induction defs with
  | nil => intro d h; exact h
  | cons x defs ih =>
    intro d h
    refine ih _ ?_
    simp only [defF, tagF]
    split
    · exact h
    · exact sorted_sinsert _ _ h

/-! ### The sections -/

theorem foldl_forbid (num : Text → Nat) (ps : List (Text × Text)) (d : Data) : ps.foldl (forbidF num) d =
    { d with forbid := d.forbid ++ ps.map (fun p => (num p.1, num p.2)) } := by
  induction ps generalizing d with
  | nil => simp
  | cons a ps ih => simp [ih, forbidF]

theorem foldl_enforce (num : Text → Nat) (rs : List (Text × List Text)) (d : Data) : rs.foldl (enforceF num) d =
    { d with enforce := d.enforce ++ rs.map (fun r => (num r.1, r.2.map num)) } := by
  induction rs generalizing d with
  | nil => simp
  | cons a ps ih => simp [ih, enforceF]

theorem foldl_prefer (rs : List (List Text)) (d : Data) : rs.foldl preferF d = { d with prefer := d.prefer ++ rs.map (fun ts => angled (dotted ts)) } := by
  induction rs generalizing d with
  | nil => simp
  | cons a ps ih => simp [ih, preferF]

theorem foldl_discard (rs : List (List Text)) (d : Data) : rs.foldl discardF d = { d with discard := d.discard ++ rs.map (fun ts => angled (dotted ts)) } := by
  induction rs generalizing d with
  | nil => simp
  | cons a ps ih => simp [ih, discardF]

theorem flatMap_nodot (t : Text) (h : '.' ∉ t) : t.flatMap (fun c => if c = '.' then t!"><" else [c]) = t := by
  induction t with
  | nil => rfl
  | cons c t ih =>
    simp only [List.mem_cons, not_or] at h
    have hc : ¬ c = '.' := fun e => h.1 e.symm
    simp [ih h.2, hc]

theorem angled_dotted : ∀ (ts : List Text), ts ≠ [] → (∀ t ∈ ts, '.' ∉ t) → angled (dotted ts) = tagString ts := by
  intro ts
  induction ts with
  | nil => intro h; exact absurd rfl h
  | cons t ts ih =>
    intro _ hd
    have ht := flatMap_nodot t (hd t (by simp))
    cases ts with
    | nil => simp [angled, dotted, tagString, ht]
    | cons u us =>
      have := ih (by simp) (fun x hx => hd x (by simp [hx]))
      simp only [angled, dotted, tagString, List.intercalate_cons_cons, List.flatMap_append, List.flatMap_cons, ht] at this ⊢
      simp only [List.cons_append, List.append_assoc] at this ⊢
      rw [← this]
      simp

/-- The next node that is not text. -/
def Leads (T : List Node) (m : Node) (T' : List Node) : Prop := ∃ g, Gap g ∧ T = g ++ m :: T' ∧ isText m = false

theorem Leads.next {T T' : List Node} {m : Node} (h : Leads T m T') (cur : Node) (d : Data) : nextTag ⟨cur, T, d⟩ = .ok ⟨m, T', d⟩ := by
  obtain ⟨g, hg, rfl, hm⟩ := h
  exact nextTag_gap g hg cur m T' d hm

/-- What a section that may be there does to the data. -/
def optF {α : Type} (F : Data → α → Data) (o : Option α) (d : Data) : Data :=
  match o with
  | some a => F d a
  | none => d

/-- A section that may be there, before the rest `T`. -/
theorem opt_section {α : Type} {x : Text} (hx1 : x ≠ t!"#text") (hx2 : x ≠ t!"#comment") {R : α → List Node → Prop} {proc : S → Outcome S} {d : Data} (F : Data → α → Data)
    {o : Option α} {ns : List Node} (ho : Opt R o ns)
    (hR : ∀ a, o = some a → ∀ ns, R a ns → ∃ n c, Start x n ∧ ns = n :: c ∧ ∀ tl, ∃ e, proc ⟨n, c ++ tl, d⟩ = .ok ⟨e, tl, F d a⟩)
    {T T' : List Node} {m : Node} (hT : Leads T m T') (hm : m.name ≠ x) :
    ∃ m1 T1, Leads (ns ++ T) m1 T1 ∧ (m1.name = x ∨ m1 = m) ∧ optSection x proc ⟨m1, T1, d⟩ = .ok ⟨m, T', optF F o d⟩ := by
  cases ho with
  | none => exact ⟨m, T', hT, .inr rfl, by simp [optSection, hm, optF]⟩
  | some a g ns hg ha =>
    obtain ⟨n, c, h1, rfl, h2⟩ := hR a rfl ns ha
    obtain ⟨e, he⟩ := h2 T
    refine ⟨n, c ++ T, ⟨g, hg, by simp, not_text h1.1 hx1 hx2⟩, .inl h1.1, ?_⟩
    simp only [optSection, h1.1, if_true, he, Outcome.bind_ok, hT.next, optF]

theorem opt_discard {d : Data} {o : Option (List (List Text))} {ns : List Node} (ho : Opt (WTags t!"discard-on-ambiguity" t!"discard") o ns)
    {T T' : List Node} {m : Node} (hT : Leads T m T') (hm : m.name ≠ t!"discard-on-ambiguity") :
    ∃ m1 T1, Leads (ns ++ T) m1 T1 ∧ (m1.name = t!"discard-on-ambiguity" ∨ m1 = m) ∧
      (discardSection ⟨m1, T1, d⟩).map (·.data) = .ok (optF (fun d rs => rs.foldl discardF d) o d) := by
  cases ho with
  | none => exact ⟨m, T', hT, .inr rfl, by simp [discardSection, hm, optF]⟩
  | some a g ns hg ha =>
    obtain ⟨n, c, h1, rfl, h2⟩ := loop_discard a ns ha d
    obtain ⟨e, he⟩ := h2 T
    refine ⟨n, c ++ T, ⟨g, hg, by simp, not_text h1.1 (by decide) (by decide)⟩, .inl h1.1, ?_⟩
    simp only [discardSection, h1.1, h1.2, if_true, he, Outcome.map_ok, Bool.false_eq_true, if_false, optF]

/-! ### The whole -/

theorem clearTagIndex_eq (d : Data) : clearTagIndex d = .ok { d with tagIndex := idx fixedTags, arrayTags := fixedTags.map tagKey } := by
  simp only [clearTagIndex]
  have h (d : Data) (K : List Text) (t : Text) (h1 : d.tagIndex = idx K) (h2 : d.arrayTags = K.map tagKey) (h3 : t ∉ K) :
      newTagIndex d t = .ok { d with tagIndex := idx (K ++ [t]), arrayTags := (K ++ [t]).map tagKey } := by
    simp [newTagIndex, h1, find_idx, h3, mapSet, h2, idx_append]
  rw [h _ [] _ rfl rfl (by decide), Outcome.bind_ok, h _ [t!"LPAR"] _ rfl rfl (by decide), Outcome.bind_ok, h _ [t!"LPAR", t!"RPAR"] _ rfl rfl (by decide),
    Outcome.bind_ok, h _ [t!"LPAR", t!"RPAR", t!"LQUEST"] _ rfl rfl (by decide), Outcome.bind_ok, h _ [t!"LPAR", t!"RPAR", t!"LQUEST", t!"CM"] _ rfl rfl (by decide),
    Outcome.bind_ok, h _ [t!"LPAR", t!"RPAR", t!"LQUEST", t!"CM", t!"SENT"] _ rfl rfl (by decide), Outcome.bind_ok,
    h _ [t!"LPAR", t!"RPAR", t!"LQUEST", t!"CM", t!"SENT", t!"kEOF"] _ rfl rfl (by decide)]
  rfl

theorem mapFind_set (m : List (Text × Nat)) (k j : Text) (v : Nat) : mapFind (mapSet m k v) j = if j = k then some v else mapFind m j := by
  unfold mapSet
  split
  · rename_i h
    induction m with
    | nil => simp [mapFind] at h
    | cons e m ih =>
      by_cases he : e.1 = k
      · by_cases hj : j = k
        · subst hj; simp [mapFind, he]
        · have hkj : ¬ k = j := fun x => hj x.symm
          have hej : ¬ e.1 = j := fun x => hj (x ▸ he)
          have : mapFind (List.map (fun e => if e.1 = k then (k, v) else e) m) j = mapFind m j := by
            clear ih h
            induction m with
            | nil => rfl
            | cons f m ih2 =>
              simp only [mapFind] at ih2
              by_cases hf : f.1 = k
              · have hfj : ¬ f.1 = j := fun x => hj (x ▸ hf)
                simp only [mapFind, List.map_cons, hf, if_true, List.find?_cons, hkj, decide_false, hfj]
                exact ih2
              · simp only [mapFind, List.map_cons, hf, if_false, List.find?_cons]
                by_cases hfj : f.1 = j
                · simp [hfj]
                · simp only [hfj, decide_false]; exact ih2
          simp only [mapFind] at this ⊢
          simp only [List.map_cons, he, if_true, List.find?_cons, hkj, decide_false, hj, if_false, this]
      · have h' : (mapFind m k).isSome := by
          simpa [mapFind, he] using h
        have := ih h'
        simp only [mapFind] at this ⊢
        simp only [List.map_cons, he, if_false, List.find?_cons]
        by_cases hej : e.1 = j
        · have hjk : ¬ j = k := fun x => he (hej.trans x)
          simp [hej, hjk]
        · simp only [hej, decide_false]; exact this
  · rename_i h
    have hn : mapFind m k = none := by simpa using h
    by_cases hj : j = k
    · subst hj; rw [find_append_none hn]; simp [mapFind]
    · rw [if_neg hj]
      cases hm : mapFind m j with
      | none => rw [find_append_none hm]; simpa [mapFind] using fun x => hj (Eq.symm x)
      | some i => exact find_append_some hm _

theorem foldl_constants (d : Data) (cs : List Text) : ∃ consts, cs.foldl newConstant d = { d with constants := consts, arrayTags := d.arrayTags ++ cs } ∧
    (cs.Nodup → ∀ i c, cs[i]? = some c → mapFind consts c = some (d.arrayTags.length + i)) ∧ (∀ c, c ∉ cs → mapFind consts c = mapFind d.constants c) := by
  induction cs generalizing d with
  | nil => exact ⟨d.constants, by simp, by simp, by simp⟩
  | cons c cs ih =>
    obtain ⟨consts, h1, h2, h3⟩ := ih (newConstant d c)
    refine ⟨consts, ?_, ?_, ?_⟩
    · rw [List.foldl_cons, h1]; simp [newConstant]
    · intro hn i x hi
      obtain ⟨hc, hn⟩ := List.nodup_cons.1 hn
      cases i with
      | zero =>
        simp only [List.getElem?_cons_zero, Option.some.injEq] at hi
        subst hi
        rw [h3 c hc]
        simp [newConstant, mapFind_set]
      | succ i =>
        simp only [List.getElem?_cons_succ] at hi
        rw [h2 hn i x hi]
        simp [newConstant]; omega
    · intro x hx
      simp only [List.mem_cons, not_or] at hx
      rw [h3 x hx.2]
      simp [newConstant, mapFind_set, hx.1]

theorem fixed_of_append {K : List Text} (t : Text) (ht : t ∈ fixedTags) {i : Nat} (hi : fixedTags.idxOf t = i) : mapFind (idx (fixedTags ++ K)) (tagKey t) = some i := by
  rw [find_idx, if_pos (by simp [ht]), idxOf_append_of_mem ht, hi]

theorem finish_eq (d : Data) (K : List Text) (h : d.tagIndex = idx (fixedTags ++ K)) : ∃ consts, finish d =
    { d with constants := consts, arrayTags := d.arrayTags ++ constantNames, plist := d.plist ++ fixedOps } ∧
    (∀ i c, constantNames[i]? = some c → mapFind consts c = some (d.arrayTags.length + i)) := by
  obtain ⟨consts, h1, h2, _⟩ := foldl_constants d constantNames
  refine ⟨consts, ?_, h2 (by decide)⟩
  have f (t x : Text) (i : Nat) (e : Data) (he : e.tagIndex = idx (fixedTags ++ K)) (ht : t ∈ fixedTags) (hi : fixedTags.idxOf t = i) :
      fixedItem e (t, x) = { e with plist := e.plist ++ [.item i [] x] } := by
    simp only [fixedItem, tagRef_some (he ▸ fixed_of_append t ht hi)]
  simp only [finish, h1, List.foldl_cons, List.foldl_nil]
  rw [f t!"LPAR" t!"lpar" 0 _ ?_ (by decide) (by decide), f t!"RPAR" t!"rpar" 1 _ ?_ (by decide) (by decide), f t!"LQUEST" t!"lquest" 2 _ ?_ (by decide) (by decide),
    f t!"CM" t!"cm" 3 _ ?_ (by decide) (by decide), f t!"SENT" t!"sent" 4 _ ?_ (by decide) (by decide)]
  all_goals first | exact h | skip
  simp [fixedOps]

/-- C80.  A definition in which every tag is defined once and every label is one of a tag is read as it is meant, however it is laid out: the tags have their places
as numbers, after the seven fixed ones; the open class is that of the tags that are not closed; the forbidden pairs, the enforced sequences, the preferences and
the patterns are those written, in order. -/
theorem C80_read_partial (d0 : Data) (doc : Doc) (hok : doc.Ok) (ns : List Node) (hw : Writes doc ns) : ∃ d, parse d0 ns = .ok d ∧ Means doc d0 d := by
  obtain ⟨g0, g1, g2, post, tagset, forbid, enforce, prefer, discard, n, e, hg0, hn, hg1, hts, hf, he, hp, hd, hg2, hend⟩ := hw
  have hnum : doc.num = fun l => (fixedTags ++ doc.defs.map (·.name)).idxOf l := rfl
  obtain ⟨d1, ed1⟩ : ∃ d : Data, d = { d0 with openClass := [], forbid := [], tagIndex := idx fixedTags, arrayTags := fixedTags.map tagKey, enforce := [] } := ⟨_, rfl⟩
  have hhas : Has d1 fixedTags := ⟨by rw [ed1], by simp [ed1]⟩
  have hpre := defs_pre doc.defs fixedTags d1 hok.defs hhas
  rw [← hnum] at hpre
  obtain ⟨e1, _, ets⟩ := read_tagset doc.num doc.defs g0 g1 tagset n hg0 hn hg1 hts (forbid ++ (enforce ++ (prefer ++ (discard ++ (g2 ++ e :: post))))) d1 hpre
  obtain ⟨d2, ed2⟩ : ∃ d, d = doc.defs.foldl (defF doc.num) d1 := ⟨_, rfl⟩
  have hhas2 : Has d2 doc.tags := ed2 ▸ defs_has doc.defs fixedTags d1 hhas
  have haft := defs_after doc.num doc.defs d1
  obtain ⟨hops, hopen⟩ := defs_ops doc.defs fixedTags d1 hok.defs hhas doc.num hnum
  have hsort := defs_sorted doc.num doc.defs d1 (by simp [ed1, Sorted])
  rw [← ed2] at haft hops hopen hsort ets
  have hfind (d : Data) (h : d.tagIndex = d2.tagIndex) (l : Text) (hl : l ∈ doc.tags) : mapFind d.tagIndex (tagKey l) = some (doc.num l) := by
    rw [h, hhas2.index, find_idx, if_pos hl]; rfl
  -- from the back
  have hT4 : Leads (g2 ++ e :: post) e post := ⟨g2, hg2, rfl, not_text hend.1 (by decide) (by decide)⟩
  obtain ⟨d3, ed3⟩ : ∃ d, d = optF (fun d a => a.foldl (forbidF doc.num) d) doc.forbid d2 := ⟨_, rfl⟩
  obtain ⟨d4, ed4⟩ : ∃ d, d = optF (fun d a => a.foldl (enforceF doc.num) d) doc.enforce d3 := ⟨_, rfl⟩
  obtain ⟨d5, ed5⟩ : ∃ d, d = optF (fun d a => a.foldl preferF d) doc.prefer d4 := ⟨_, rfl⟩
  have hd3 : d3 = { d2 with forbid := d2.forbid ++ (doc.forbid.getD []).map (fun p => (doc.num p.1, doc.num p.2)) } := by
    rw [ed3]; cases doc.forbid <;> simp [optF, foldl_forbid]
  have hd4 : d4 = { d3 with enforce := d3.enforce ++ (doc.enforce.getD []).map (fun r => (doc.num r.1, r.2.map doc.num)) } := by
    rw [ed4]; cases doc.enforce <;> simp [optF, foldl_enforce]
  have hd5 : d5 = { d4 with prefer := d4.prefer ++ (doc.prefer.getD []).map (fun ts => angled (dotted ts)) } := by
    rw [ed5]; cases doc.prefer <;> simp [optF, foldl_prefer]
  obtain ⟨d6, ed6⟩ : ∃ d, d = optF (fun d a => a.foldl discardF d) doc.discard d5 := ⟨_, rfl⟩
  have hd6 : d6 = { d5 with discard := d5.discard ++ (doc.discard.getD []).map (fun ts => angled (dotted ts)) } := by
    rw [ed6]; cases doc.discard <;> simp [optF, foldl_discard]
  obtain ⟨m3, T3, l3, n3, s3⟩ := opt_discard (d := d5) hd hT4 (by rw [hend.1]; decide)
  have hm3 : m3.name = t!"discard-on-ambiguity" ∨ m3.name = t!"tagger" := by
    rcases n3 with h | h
    · exact .inl h
    · exact .inr (by rw [h, hend.1])
  obtain ⟨m2, T2, l2, n2, s2⟩ := opt_section (x := t!"preferences") (proc := procPreferences) (d := d4) (by decide) (by decide) (fun d a => a.foldl preferF d) hp
    (fun a _ ns ha => loop_prefer a ns ha d4) l3 (by rcases hm3 with h | h <;> (rw [h]; decide))
  have hm2 : m2.name = t!"preferences" ∨ m2.name = t!"discard-on-ambiguity" ∨ m2.name = t!"tagger" := by
    rcases n2 with h | h
    · exact .inl h
    · exact .inr (by rw [h]; exact hm3)
  obtain ⟨m1, T1, l1, n1, s1⟩ := opt_section (x := t!"enforce-rules") (proc := procEnforce) (d := d3) (by decide) (by decide) (fun d a => a.foldl (enforceF doc.num) d) he
    (fun a ha ns hns => read_enforce doc.num a ns hns d3 (fun r hr => by
      have := hok.enforce r (by rw [ha]; exact hr)
      exact ⟨hfind d3 (by rw [hd3]) _ this.1, fun l hl => hfind d3 (by rw [hd3]) _ (this.2 l hl)⟩)) l2 (by rcases hm2 with h | h | h <;> (rw [h]; decide))
  have hm1 : m1.name = t!"enforce-rules" ∨ m1.name = t!"preferences" ∨ m1.name = t!"discard-on-ambiguity" ∨ m1.name = t!"tagger" := by
    rcases n1 with h | h
    · exact .inl h
    · exact .inr (by rw [h]; exact hm2)
  obtain ⟨m0, T0, l0, n0, s0⟩ := opt_section (x := t!"forbid") (proc := procForbid) (d := d2) (by decide) (by decide) (fun d a => a.foldl (forbidF doc.num) d) hf
    (fun a ha ns hns => loop_forbid doc.num a ns hns d2 (fun r hr => by
      have := hok.forbid r (by rw [ha]; exact hr)
      exact ⟨hfind d2 rfl _ this.1, hfind d2 rfl _ this.2⟩)) l1 (by rcases hm1 with h | h | h | h <;> (rw [h]; decide))
  have hidx : d6.tagIndex = idx (fixedTags ++ doc.names) := by rw [hd6, hd5, hd4, hd3]; exact hhas2.index
  obtain ⟨consts, hfin, hconst⟩ := finish_eq d6 doc.names hidx
  have htags6 : d6.arrayTags = fixedTags.map tagKey ++ doc.names := by rw [hd6, hd5, hd4, hd3]; show d2.arrayTags = _; rw [haft.tags, ed1]; rfl
  refine ⟨finish d6, ?_, ?_⟩
  · have e0 : parse d0 (g0 ++ n :: (g1 ++ tagset ++ forbid ++ enforce ++ prefer ++ discard ++ g2 ++ e :: post)) =
        (discardSection ⟨m3, T3, d5⟩).map (fun s => finish s.data) := by
      simp only [parse, clearTagIndex_eq, Outcome.bind_ok]
      rw [show g1 ++ tagset ++ forbid ++ enforce ++ prefer ++ discard ++ g2 ++ e :: post = g1 ++ (tagset ++ (forbid ++ (enforce ++ (prefer ++ (discard ++ (g2 ++ e :: post)))))) by simp]
      rw [← ed1, ets, Outcome.bind_ok, l0.next, Outcome.bind_ok, s0, Outcome.bind_ok, ← ed3, s1, Outcome.bind_ok, ← ed4, s2, Outcome.bind_ok, ← ed5]
      cases discardSection ⟨m3, T3, d5⟩ <;> rfl
    rw [e0]
    have : (discardSection ⟨m3, T3, d5⟩).map (fun s => finish s.data) = ((discardSection ⟨m3, T3, d5⟩).map (·.data)).map finish := by
      cases discardSection ⟨m3, T3, d5⟩ <;> rfl
    rw [this, s3, ← ed6]; rfl
  · have hang (l : List (List Text)) (h : ∀ ts ∈ l, ts ≠ [] ∧ ∀ t ∈ ts, '.' ∉ t) : l.map (fun ts => angled (dotted ts)) = l.map tagString :=
      List.map_congr_left (fun ts hts => angled_dotted ts (h ts hts).1 (h ts hts).2)
    rw [hfin]
    constructor
    · show d6.arrayTags ++ constantNames = _
      rw [htags6]; rfl
    · intro l
      show mapFind d6.tagIndex (tagKey l) = _
      rw [hidx, find_idx]; rfl
    · show d6.tagIndex.length = _
      rw [hidx]; simp [idx, Doc.tags]
    · intro i
      show i ∈ d6.openClass ↔ _
      have h6 : d6.openClass = d2.openClass := by rw [hd6, hd5, hd4, hd3]
      have h7 := hopen i
      rw [h6]
      refine h7.trans ?_
      simp [ed1]
    · show Sorted d6.openClass
      have h6 : d6.openClass = d2.openClass := by rw [hd6, hd5, hd4, hd3]
      rw [h6]; exact hsort
    · show d6.forbid = _
      have h6 : d6.forbid = d2.forbid ++ (doc.forbid.getD []).map (fun p => (doc.num p.1, doc.num p.2)) := by rw [hd6, hd5, hd4, hd3]
      have h7 : d2.forbid = [] := by rw [haft.forbid, ed1]
      rw [h6, h7, List.nil_append]
    · show d6.enforce = _
      have h6 : d6.enforce = d2.enforce ++ (doc.enforce.getD []).map (fun r => (doc.num r.1, r.2.map doc.num)) := by rw [hd6, hd5, hd4, hd3]
      have h7 : d2.enforce = [] := by rw [haft.enforce, ed1]
      rw [h6, h7, List.nil_append]
    · show d6.prefer = _
      have h6 : d6.prefer = d2.prefer ++ (doc.prefer.getD []).map (fun ts => angled (dotted ts)) := by rw [hd6, hd5, hd4, hd3]
      have h7 : d2.prefer = d0.prefer := by rw [haft.prefer, ed1]
      rw [h6, h7, hang _ hok.prefer]
    · show d6.discard = _
      have h6 : d6.discard = d2.discard ++ (doc.discard.getD []).map (fun ts => angled (dotted ts)) := by rw [hd6, hd5, hd4, hd3]
      have h7 : d2.discard = d0.discard := by rw [haft.discard, ed1]
      rw [h6, h7, hang _ hok.discard]
    · show d6.plist ++ fixedOps = _
      have h6 : d6.plist = d2.plist := by rw [hd6, hd5, hd4, hd3]
      have h7 : d2.plist = d0.plist ++ doc.defs.flatMap (fun x => bodyOps doc.num (doc.num x.name) x.body) := by rw [hops, ed1]
      rw [h6, h7]
      congr 2
    · intro i c hc
      show mapFind consts c = _
      rw [hconst i c hc, htags6]
      simp [Doc.tags]

end Verif.Tsx
