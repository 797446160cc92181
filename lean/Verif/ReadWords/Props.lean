import Verif.ReadWords.Model
import Verif.Tagger.FilterProps
/-!
# C93: what apertium-tagger-readwords writes
-/
namespace Verif.ReadWords
open Verif.Tagger (Tags Coll MCfg TW stream TReq TLu)
open Verif.Stream

/-! ### Specification -/

/-- The names of tags in braces: `{NOUN,VERB}`. -/
def braces (arr : List Text) (ts : Tags) : Text := t!"{" ++ t!",".intercalate (ts.map fun t => arr[t]?.getD []) ++ t!"}"

/-- The words of a corpus as they are read: the form and the coarse tags of every word, and then the end of the corpus, a word without form with the tag for it. -/
def wordsOf (cfg : MCfg) (r : TReq) : List (Text × Tags) := r.lus.map (fun l => (renderAtoms l.sf, l.tags cfg)) ++ [([], [cfg.keof])]

/-- One line. -/
def line (arr : List Text) (w : Text × Tags) : Text := w.1 ++ t!" " ++ braces arr w.2 ++ t!"\n"

/-- The first words of a list, as many as are wanted. -/
def wanted {α : Type} (limit : Option Nat) (l : List α) : List α := match limit with | none => l | some n => l.take n

/-! ### Proof -/

theorem names_eq (arr : List Text) (ts : Tags) (h : ∀ t ∈ ts, t < arr.length) : names arr ts = some (ts.map fun t => arr[t]?.getD []) := by
  induction ts with
  | nil => rfl
  | cons t ts ih =>
    have ht := h t (List.mem_cons_self ..)
    simp only [names, ih (fun x hx => h x (List.mem_cons_of_mem _ hx)), List.getElem?_eq_getElem ht, List.map_cons, Option.getD_some]

theorem joined_eq (xs : List Text) : joined xs = t!",".intercalate xs := by
  induction xs with
  | nil => rfl
  | cons x xs ih =>
    cases xs with
    | nil => simp [joined, List.intercalate, List.intersperse]
    | cons y ys =>
      simp only [joined] at ih ⊢
      rw [ih]
      simp [List.intercalate, List.intersperse]

theorem stringTags_eq (arr : List Text) (w : TW) (h : ∀ t ∈ w.tags, t < arr.length) : stringTags arr w = .ok (braces arr w.tags) := by
  unfold stringTags
  rw [names_eq arr w.tags h]
  simp [braces, joined_eq]

/-- The collection as it grows. -/
structure Grown (c d : Coll) : Prop where
  wf : Coll.WF d
  ext : ∃ e, d.element = c.element ++ e

theorem Grown.add {c d : Coll} (h : Grown c d) (t : Tags) : Grown c (d.add t).1 := by
  refine ⟨h.wf.add t, ?_⟩
  obtain ⟨e, he⟩ := h.ext
  unfold Coll.add
  cases d.find t with
  | some i => exact ⟨e, he⟩
  | none => exact ⟨e ++ [t], by simp [he]⟩

/-- The number that is given to a class is too great exactly if the class is not one of the first collection. -/
theorem Grown.number {c d : Coll} (h : Grown c d) (t : Tags) : c.size ≤ (d.add t).2 ↔ t ∉ c.element := by
  obtain ⟨e, he⟩ := h.ext
  unfold Coll.add Coll.size
  cases hf : d.find t with
  | some i =>
    have hi := (h.wf.iff t i).1 hf
    simp only []
    constructor
    · intro hge hm
      obtain ⟨j, hj, hj2⟩ := List.mem_iff_getElem.1 hm
      have h2 : d.element[j]? = some t := by rw [he, List.getElem?_append_left hj, List.getElem?_eq_getElem hj, hj2]
      have := (h.wf.iff t j).2 h2
      rw [hf] at this
      cases this
      omega
    · intro hn
      refine Nat.le_of_not_lt fun hlt => hn ?_
      rw [he, List.getElem?_append_left hlt] at hi
      exact List.mem_of_getElem? hi
  | none =>
    have hn := h.wf.ofFind t |>.1 hf
    simp only []
    constructor
    · intro _ hm
      exact hn (by rw [he]; exact List.mem_append_left _ hm)
    · intro _
      rw [h.wf.len, he, List.length_append]
      omega

theorem loop_eq (arr : List Text) (check : Bool) (c : Coll) (limit : Option Nat) (ws : List TW) : ∀ (k : Nat) (d : Coll), Grown c d →
    (∀ w ∈ ws, ∀ t ∈ w.tags, t < arr.length) → (∀ n, limit = some n → k < n) →
    loop arr check c.size limit k d ws = .ok
      { text := (wanted (limit.map (· - k)) ws).flatMap (fun w => line arr (w.sf, w.tags))
        errors := if check = true then ((wanted (limit.map (· - k)) ws).filter (fun w => decide (w.tags ∉ c.element))).map (fun w => (w.sf, w.tags)) else []
        n := k + (wanted (limit.map (· - k)) ws).length } := by
  induction ws with
  | nil => intro k d _ _ _; cases limit <;> simp [loop, wanted]
  | cons w ws ih =>
    intro k d hd ht hk
    simp only [loop, stringTags_eq arr w (ht w (List.mem_cons_self ..)), Outcome.bind]
    have hline : ∀ r : Text, w.sf ++ ' ' :: braces arr w.tags ++ '\n' :: r = line arr (w.sf, w.tags) ++ r := fun r => by simp [line]
    have herr : (if check = true ∧ (d.add w.tags).2 ≥ c.size then [(w.sf, w.tags)] else []) =
        if check = true then (if w.tags ∉ c.element then [(w.sf, w.tags)] else []) else [] := by
      by_cases h1 : check = true
      · by_cases h2 : w.tags ∈ c.element
        · rw [if_neg (fun h => (hd.number w.tags).1 h.2 h2), if_pos h1, if_neg (fun h => h h2)]
        · rw [if_pos ⟨h1, (hd.number w.tags).2 h2⟩, if_pos h1, if_pos h2]
      · rw [if_neg (fun h => h1 h.1), if_neg h1]
    have hgrown : Grown c (if check = true then (d.add w.tags).1 else d) := by
      by_cases h1 : check = true
      · rw [if_pos h1]; exact hd.add w.tags
      · rw [if_neg h1]; exact hd
    rw [herr]
    by_cases hl : limit = some (k + 1)
    · rw [if_pos hl]
      subst hl
      have e : k + 1 - k = 1 := by omega
      simp only [Outcome.map, hline, Option.map_some, wanted, e, List.take_succ_cons, List.take_zero]
      congr 1
      by_cases h1 : check = true <;> by_cases h2 : w.tags ∈ c.element <;> simp [h1, h2]
    · rw [if_neg hl, ih (k + 1) _ hgrown (fun x hx => ht x (List.mem_cons_of_mem _ hx))
        (fun n hn => by have := hk n hn; have : n ≠ k + 1 := fun e => hl (by rw [hn, e]); omega)]
      have hw : wanted (limit.map (· - k)) (w :: ws) = w :: wanted (limit.map (· - (k + 1))) ws := by
        cases limit with
        | none => rfl
        | some n =>
          have := hk n rfl
          simp only [Option.map_some, wanted]
          rw [show n - k = (n - (k + 1)) + 1 by omega, List.take_succ_cons]
      simp only [Outcome.map, hline, hw, List.flatMap_cons, List.length_cons, Outcome.ok.injEq, Out.mk.injEq, true_and]
      refine ⟨?_, by omega⟩
      by_cases h1 : check = true <;> by_cases h2 : w.tags ∈ c.element <;> simp [h1, h2]

/-- What is written for the words of a stream, whatever discard rules do. -/
theorem readwords_stream (cfg : MCfg) (disc : TW → TW) (arr : List Text) (check : Bool) (limit : Option Nat) (hl : ∀ n, limit = some n → 0 < n) (ts : List Tags) (t : Text)
    (ws : List (TW × Bool)) (hs : stream cfg false disc t = .ok ws) (ha : ∀ w ∈ ws, ∀ t ∈ w.1.tags, t < arr.length) :
    readwords cfg disc arr check (Coll.ofList ts).size limit (Coll.ofList ts) t = .ok
      { text := (wanted limit (ws.map fun w => (w.1.sf, w.1.tags))).flatMap (line arr)
        errors := if check = true then (wanted limit (ws.map fun w => (w.1.sf, w.1.tags))).filter (fun w => decide (w.2 ∉ ts)) else []
        n := (wanted limit ws).length } := by
  unfold readwords
  rw [hs]
  have hel : ∀ u : Tags, u ∈ (Coll.ofList ts).element ↔ u ∈ ts := fun u => by
    have := Coll.mem_foldl Coll.WF.empty ts u
    simpa [Coll.ofList] using this
  have := loop_eq arr check (Coll.ofList ts) limit (ws.map (·.1)) 0 (Coll.ofList ts) ⟨Coll.WF.ofList ts, [], by simp⟩
    (by intro w hw; obtain ⟨x, hx, rfl⟩ := List.mem_map.1 hw; exact ha x hx) hl
  simp only [Outcome.bind]
  rw [this]
  have e : limit.map (· - 0) = limit := by cases limit <;> simp
  have hw : ∀ {β : Type} (f : TW × Bool → β), wanted limit (ws.map f) = (wanted limit ws).map f := fun f => by
    cases limit <;> simp [wanted, List.map_take]
  simp only [e, hw, hel, List.flatMap_map, List.filter_map, List.map_map, List.length_map, Nat.zero_add]
  rfl

/-- C93.  Every word that is wanted has its line, in the order of the corpus, with the names of all its coarse tags; and the words that are reported are those with a set of tags
that is not one of the ambiguity classes of the parameters (`ts`), every time that one comes. -/
theorem C93_words_partial (cfg : MCfg) (arr : List Text) (check : Bool) (limit : Option Nat) (hl : ∀ n, limit = some n → 0 < n) (ts : List Tags) (r : TReq) (h : r.Wf cfg)
    (hk : cfg.keof < arr.length) (ha : ∀ l ∈ r.lus, ∀ t ∈ l.tags cfg, t < arr.length) :
    readwords cfg id arr check (Coll.ofList ts).size limit (Coll.ofList ts) r.render = .ok
      { text := (wanted limit (wordsOf cfg r)).flatMap (line arr)
        errors := if check = true then (wanted limit (wordsOf cfg r)).filter (fun w => decide (w.2 ∉ ts)) else []
        n := (wanted limit (wordsOf cfg r)).length } := by
  have hs := Tagger.stream_one cfg r h
  have hend : (Tagger.specWord cfg (.inr r.tail)).sf = [] ∧ (Tagger.specWord cfg (.inr r.tail)).tags = [cfg.keof] := by
    simp [Tagger.specWord, TW.addTag, TW.addIgnored, Tagger.sinsert]
  have hws : (r.lus.map (fun l => (l.word cfg, false)) ++ [(Tagger.specWord cfg (.inr r.tail), true)]).map (fun w => (w.1.sf, w.1.tags)) = wordsOf cfg r := by
    simp only [List.map_append, List.map_map, List.map_cons, List.map_nil, hend.1, hend.2, wordsOf]
    congr 1
    apply List.map_congr_left
    intro l _
    simp [Tagger.word_sf, Tagger.specWord_tags]
  have := readwords_stream cfg id arr check limit hl ts r.render _ hs (by
    intro w hw t ht
    rcases List.mem_append.1 hw with hw | hw
    · obtain ⟨l, hl, rfl⟩ := List.mem_map.1 hw
      exact ha l hl t (by simpa [Tagger.specWord_tags] using ht)
    · simp only [List.mem_cons, List.not_mem_nil, or_false] at hw
      subst hw
      rw [hend.2] at ht
      simp only [List.mem_cons, List.not_mem_nil, or_false] at ht
      subst ht
      exact hk)
  rw [this, hws]
  have hw : ∀ {α β : Type} (f : α → β) (l : List α), (wanted limit l).length = (wanted limit (l.map f)).length := fun f l => by
    cases limit <;> simp [wanted]
  rw [hw (fun w => (w.1.sf, w.1.tags)), hws]

/-! ### An example, and words that are reported for nothing -/

def exNames : List Text := [t!"SENT", t!"NOUN", t!"VERB", t!"ADJ", t!"kUNDEF", t!"kEOF"]

/-- The hypotheses of `C93_words_partial` hold of the corpus of C88, whose third word is unknown and whose second class is not in the parameters. -/
example : Tagger.exCorpus.Wf Tagger.exCfg ∧ Tagger.exCfg.keof < exNames.length ∧ (∀ l ∈ Tagger.exCorpus.lus, ∀ t ∈ l.tags Tagger.exCfg, t < exNames.length) :=
  ⟨Tagger.exCorpus_ok.wf, by decide, by decide +kernel⟩

example : readwords Tagger.exCfg id exNames true 2 (some 4) (Coll.ofList [[1, 2], [5]]) Tagger.exCorpus.render =
    .ok { text := t!"casa {NOUN,VERB}\nxyz {}\nvino {NOUN,VERB}\ngat {NOUN}\n", errors := [(t!"xyz", []), (t!"gat", [1])], n := 4 } := by decide +kernel

/-- C93: the tagger takes an unknown word for any of the open class.  With parameters that have all classes of a corpus and the open class among their ambiguity classes, unknown
words are reported all the same. -/
theorem C93_unknown_violation : ∃ (td : Tagger.TD) (r : TReq) (o : Out), r.Wf Tagger.exCfg ∧ td.openClass ∈ td.output.element ∧
    (∀ w ∈ wordsOf Tagger.exCfg r, w.2 ≠ [] → w.2 ∈ td.output.element) ∧
    readwords Tagger.exCfg id exNames true td.output.size none td.output r.render = .ok o ∧ o.errors ≠ [] :=
  ⟨⟨[1, 2], Coll.ofList [[1, 2], [1], [5]]⟩, Tagger.exCorpus, _, Tagger.exCorpus_ok.wf, by decide +kernel, by decide +kernel,
    C93_words_partial Tagger.exCfg exNames true none (by simp) [[1, 2], [1], [5]] Tagger.exCorpus Tagger.exCorpus_ok.wf (by decide) (by decide +kernel), by decide +kernel⟩

end Verif.ReadWords
