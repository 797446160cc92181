import Verif.TmxFile.Model
import Verif.TmxFile.Spec
import Verif.Tmx.BuilderProps
import Verif.TmxBuild.Spec
/-!
# C98: proofs
-/
namespace Verif.TmxFile
open Verif.Tmx (Item Ctype)

theorem content_chars {s t : Text} {l : List Node} (h : ∀ c ∈ s, xmlChar c ∧ c ≠ '<' ∧ c ≠ '&') (ht : Content t l) : Content (s ++ t) (chars s ++ l) := by
  induction s with
  | nil => exact ht
  | cons c s ih => exact .chr c _ _ (h c (by simp)).1 (h c (by simp)).2.1 (h c (by simp)).2.2 (ih fun d hd => h d (by simp [hd]))

theorem name_of {t : Text} (h : (t.headD ' ').isAlpha = true ∧ ∀ c ∈ t, c.isAlpha = true ∨ c = ':' ∨ c = '-') : IsName t := by
  cases t with
  | nil => exact absurd h.1 (by decide)
  | cons c r => exact ⟨⟨c, r, rfl, h.1⟩, h.2⟩

instance (t : Text) : Decidable (White t) := by unfold White; infer_instance
instance (t : Text) : Decidable (Value t) := by unfold Value; infer_instance

/-- The node of an item. -/
def node : Item → Node
  | .chr c => .chr c
  | .ph => .elem t!"ph" [] []

theorem content_items {l : List Item} (h : ∀ c, Item.chr c ∈ l → xmlChar c) {t : Text} {ns : List Node} (ht : Content t ns) : Content (l.flatMap Item.xml ++ t) (l.map node ++ ns) := by
  induction l with
  | nil => exact ht
  | cons x l ih =>
    have ih := ih fun c hc => h c (by simp [hc])
    rw [List.flatMap_cons, List.append_assoc, List.map_cons, List.cons_append]
    cases x with
    | ph =>
      have := Content.empty t!"ph" [] _ [] _ (name_of (by decide)) .nil ih
      simpa [Item.xml, node] using this
    | chr c =>
      simp only [Item.xml, node]
      by_cases h1 : c = '<'
      · subst h1; exact .lt _ _ ih
      · by_cases h2 : c = '>'
        · subst h2; exact .gt _ _ ih
        · by_cases h3 : c = '&'
          · subst h3; exact .amp _ _ ih
          · rw [if_neg h1, if_neg h2, if_neg h3]
            exact .chr c _ _ (h c (by simp)) h1 h3 ih

theorem attrs_one {name val : Text} (hn : IsName name) (hv : Value val) : Attrs (t!" " ++ name ++ t!"=\"" ++ val ++ t!"\"") [(name, val)] :=
  .cons t!" " name val [] [] (by decide) (by decide) hn hv (by simp) .nil

/-- A `tuv` element. -/
theorem content_tuv {lang seg t : Text} {s ns : List Node} (hl : Value lang) (hs : Content seg s) (ht : Content t ns) :
    Content (t!"<tuv xml:lang=\"" ++ lang ++ t!"\"><seg>" ++ seg ++ t!"</seg></tuv>" ++ t) (.elem t!"tuv" [(t!"xml:lang", lang)] [.elem t!"seg" [] s] :: ns) := by
  have h1 := Content.elem t!"seg" [] seg [] [] s [] (name_of (by decide)) .nil hs .nil
  have h2 := Content.elem t!"tuv" _ _ t _ _ ns (name_of (by decide)) (attrs_one (name := t!"xml:lang") (name_of (by decide)) hl) h1 ht
  simpa using h2

theorem content_unit {l1 l2 a b t : Text} {x y ns : List Node} (h1 : Value l1) (h2 : Value l2) (ha : Content a x) (hb : Content b y) (ht : Content t ns) :
    Content (unit l1 l2 (a, b) ++ t) (tu l1 l2 x y ++ ns) := by
  have k1 : Content t!"\n" (chars t!"\n") := by simpa [chars] using content_chars (s := t!"\n") (by decide) Content.nil
  have k2 := content_chars (s := t!"\n  ") (by decide) (content_tuv h2 hb k1)
  have k3 := content_chars (s := t!"\n  ") (by decide) (content_tuv h1 ha k2)
  have k4 := Content.elem t!"tu" [] _ _ [] _ _ (name_of (by decide)) .nil k3 (content_chars (s := t!"\n") (by decide) ht)
  simpa [unit, tu, chars] using k4

theorem content_units {l1 l2 : Text} (h1 : Value l1) (h2 : Value l2) {us : List (Text × Text)} {ns : List (List Node × List Node)}
    (h : List.Forall₂ (fun u n => Content u.1 n.1 ∧ Content u.2 n.2) us ns) : Content (us.flatMap (unit l1 l2)) (ns.flatMap fun u => tu l1 l2 u.1 u.2) := by
  induction h with
  | nil => exact .nil
  | cons h _ ih =>
    rw [List.flatMap_cons, List.flatMap_cons]
    exact content_unit h1 h2 h.1 h.2 ih

set_option maxRecDepth 8000 in
/-- The file is well-formed XML if the segments are, and the codes of the languages fit between quotes. -/
theorem C98_file (k : Ctype) (v l1 l2 : Text) (hv : Value v) (h1 : Value l1) (h2 : Value l2) (ps : List (Text × Text)) (ns : List (List Node × List Node))
    (h : List.Forall₂ (fun u n => Content u.1 n.1 ∧ Content u.2 n.2) (ps.filterMap fun p => Tmx.printTU k p.1 p.2) ns) :
    Document (file k v l1 l2 ps) t!"tmx" [(t!"version", t!"1.4")] (tmx v l1 l2 ns) := by
  have k1 : Content t!"\n" (chars t!"\n") := by simpa [chars] using content_chars (s := t!"\n") (by decide) Content.nil
  have k2 := Content.elem t!"body" [] _ _ [] _ _ (name_of (by decide)) .nil (content_chars (s := t!"\n") (by decide) (content_units h1 h2 h)) k1
  have hd : Attrs _ [(t!"creationtool", t!"Apertium TMX Builder"), (t!"creationtoolversion", v), (t!"segtype", t!"sentence"), (t!"srclang", l1), (t!"adminlang", l2),
    (t!"datatype", t!"plaintext"), (t!"o-tmf", t!"none")] :=
    .cons t!" " _ _ _ _ (by decide) (by decide) (name_of (by decide)) (by decide) (by simp) <|
    .cons t!"\n        " _ _ _ _ (by decide) (by decide) (name_of (by decide)) hv (by simp) <|
    .cons t!"\n        " _ _ _ _ (by decide) (by decide) (name_of (by decide)) (by decide) (by simp) <|
    .cons t!"\n        " _ _ _ _ (by decide) (by decide) (name_of (by decide)) h1 (by simp) <|
    .cons t!"\n        " _ _ _ _ (by decide) (by decide) (name_of (by decide)) h2 (by simp) <|
    .cons t!"\n        " _ _ _ _ (by decide) (by decide) (name_of (by decide)) (by decide) (by simp) <|
    .cons t!"\n        " _ _ _ _ (by decide) (by decide) (name_of (by decide)) (by decide) (by simp) .nil
  have k3 := Content.elem t!"header" _ _ _ _ _ _ (name_of (by decide)) hd k1 (content_chars (s := t!"\n") (by decide) k2)
  have k4 := Content.elem t!"tmx" _ _ _ _ _ _ (name_of (by decide)) (attrs_one (name := t!"version") (val := t!"1.4") (name_of (by decide)) (by decide))
    (content_chars (s := t!"\n") (by decide) k3) .nil
  have fin : ∀ b kids, Content b [.elem t!"tmx" [(t!"version", t!"1.4")] kids] → kids = tmx v l1 l2 ns → file k v l1 l2 ps = t!"<?xml version=\"1.0\"?>" ++ t!"\n" ++ b ++ t!"\n" →
      Document (file k v l1 l2 ps) t!"tmx" [(t!"version", t!"1.4")] (tmx v l1 l2 ns) := by
    intro b kids hb hk hf
    subst hk
    exact ⟨t!"\n", b, t!"\n", hf, by decide, by decide, hb⟩
  exact fin _ _ k4 (by simp [tmx, chars]) (by simp only [file, head, List.append_assoc, List.cons_append, List.nil_append])

/-! ## The segments -/

/-- A right column whose segment is right: what `C63_segment_partial` asks for, and no characters that XML does not have. -/
def Tidy (k : Ctype) (q : Text) (core : List Item) : Prop :=
  ∃ (pre post : List Item) (b : Nat) (x y : Item), q = (pre ++ core ++ post ++ List.replicate b Item.ph).flatMap Item.source ∧
    (∀ x ∈ pre, x.Removed k) ∧ (∀ x ∈ post, x.Removed k) ∧ core.head? = some x ∧ core.getLast? = some y ∧ x.Kept k ∧ y.Kept k ∧
    Tmx.NoFake (pre ++ core ++ post ++ List.replicate b Item.ph) ∧ ∀ c, Item.chr c ∈ core → xmlChar c

theorem mem_dropStops {l : List Item} {x : Item} (h : x ∈ Tmx.dropStops l) : x ∈ l := by
  have := (List.dropWhile_sublist (fun x => decide (x = Item.chr '.'))).subset (List.mem_reverse.1 h)
  exact List.mem_reverse.1 this

theorem tidy_segment {k : Ctype} (hk : k.Ok) {q : Text} {core : List Item} (h : Tidy k q core) :
    Tmx.xmlize k q = (Tmx.dropStops core).flatMap Item.xml ∧ Content (Tmx.xmlize k q) ((Tmx.dropStops core).map node) := by
  obtain ⟨pre, post, b, x, y, rfl, h1, h2, h3, h4, h5, h6, h7, h8⟩ := h
  have := Tmx.C63_segment_partial k hk 0 b pre core post h1 h2 x y h3 h4 h5 h6 (by simpa using h7)
  simp only [List.replicate_zero, List.nil_append] at this
  refine ⟨this, ?_⟩
  rw [this]
  simpa using content_items (l := Tmx.dropStops core) (fun c hc => h8 c (mem_dropStops hc)) Content.nil

theorem printTU_some {k : Ctype} {a b : Text} {u : Text × Text} (h : Tmx.printTU k a b = some u) : u = ([], Tmx.xmlize k b) := by
  simp only [Tmx.printTU] at h
  split at h
  · rename_i hc
    injection h with h
    simp only [Bool.and_eq_true, List.isEmpty_iff, Bool.not_eq_true'] at hc
    rw [← h, hc.1]
    have h2 := hc.2
    unfold Tmx.filter at h2 ⊢
    simp only [] at h2 ⊢
    split at h2
    · simp at h2
    · rename_i hn; rw [if_neg hn]
  · simp at h

/-- The file is well-formed if the segments that are written are: then its tree has them, as the text they stand for. -/
theorem C98_document_partial (k : Ctype) (hk : k.Ok) (v l1 l2 : Text) (hv : Value v) (h1 : Value l1) (h2 : Value l2) (ps : List ((Text × Text) × List Item))
    (h : ∀ x ∈ ps, (Tmx.printTU k x.1.1 x.1.2).isSome = true → Tidy k x.1.2 x.2) :
    Document (file k v l1 l2 (ps.map Prod.fst)) t!"tmx" [(t!"version", t!"1.4")]
      (tmx v l1 l2 ((ps.filter fun x => (Tmx.printTU k x.1.1 x.1.2).isSome).map fun x => ([], (Tmx.dropStops x.2).map node))) := by
  apply C98_file k v l1 l2 hv h1 h2
  induction ps with
  | nil => exact .nil
  | cons x ps ih =>
    have ih := ih fun y hy => h y (by simp [hy])
    cases hx : Tmx.printTU k x.1.1 x.1.2 with
    | none =>
      rw [List.map_cons, List.filterMap_cons_none (f := fun p : Text × Text => Tmx.printTU k p.1 p.2) hx, List.filter_cons_of_neg (by simp [hx])]
      exact ih
    | some u =>
      rw [List.map_cons, List.filterMap_cons_some (f := fun p : Text × Text => Tmx.printTU k p.1 p.2) hx, List.filter_cons_of_pos (by simp [hx]), List.map_cons]
      refine .cons ?_ ih
      rw [printTU_some hx]
      exact ⟨.nil, (tidy_segment hk (h x (by simp) (by simp [hx]))).2⟩

/-! ## What is no XML -/

/-- Within a tag there is no `<`: `true` within a tag, `none` for a `<` within one. -/
def scan : Bool → Text → Option Bool
  | i, [] => some i
  | false, c :: t => scan (decide (c = '<')) t
  | true, c :: t => if c = '<' then none else scan (decide (c ≠ '>')) t

theorem scan_append (i : Bool) (s t : Text) : scan i (s ++ t) = (scan i s).bind fun j => scan j t := by
  induction s generalizing i with
  | nil => rfl
  | cons c s ih =>
    cases i with
    | false => rw [List.cons_append, scan, scan, ih]
    | true =>
      rw [List.cons_append, scan, scan]
      split
      · rfl
      · exact ih _

theorem scan_plain {s : Text} (h : '<' ∉ s) : scan false s = some false := by
  induction s with
  | nil => rfl
  | cons c s ih =>
    simp only [List.mem_cons, not_or] at h
    rw [scan, decide_eq_false (fun e => h.1 e.symm)]
    exact ih h.2

theorem scan_tag {s : Text} (h : '<' ∉ s) : scan true (s ++ t!">") = some false := by
  induction s with
  | nil => rfl
  | cons c s ih =>
    simp only [List.mem_cons, not_or] at h
    rw [List.cons_append, scan, if_neg (fun e => h.1 e.symm)]
    by_cases hc : c = '>'
    · subst hc
      exact scan_plain (by simp [h.2])
    · rw [decide_eq_true hc]
      exact ih h.2

theorem name_plain {t : Text} (h : IsName t) : '<' ∉ t := by
  intro hm
  have := h.2 _ hm
  revert this; decide

theorem attrs_plain {t : Text} {l : List (Text × Text)} (h : Attrs t l) : '<' ∉ t := by
  induction h with
  | nil => simp
  | cons ws name val t l _ hw hn hv _ _ ih =>
    have h1 : '<' ∉ ws := fun hm => by have := hw _ hm; revert this; decide
    have h2 := name_plain hn
    have h3 : '<' ∉ val := fun hm => (hv _ hm).2.1 rfl
    simp [h1, h2, h3, ih]

theorem content_scan {t : Text} {l : List Node} (h : Content t l) : scan false t = some false := by
  induction h with
  | nil => rfl
  | chr c t l _ h1 _ _ ih => rw [scan, decide_eq_false h1]; exact ih
  | lt t l _ ih => rw [scan_append, scan_plain (by decide)]; exact ih
  | gt t l _ ih => rw [scan_append, scan_plain (by decide)]; exact ih
  | amp t l _ ih => rw [scan_append, scan_plain (by decide)]; exact ih
  | elem name a body t attrs kids l hn ha _ _ ih1 ih2 =>
    have e : '<' :: name ++ a ++ '>' :: body ++ t!"</" ++ name ++ '>' :: t = t!"<" ++ ((name ++ a) ++ t!">") ++ body ++ t!"<" ++ (('/' :: name) ++ t!">") ++ t := by simp
    have n1 := name_plain hn
    rw [e]
    simp only [scan_append _ _ t, scan_append _ _ (('/' :: name) ++ t!">"), scan_append _ _ t!"<", scan_append _ _ body, scan_append _ _ ((name ++ a) ++ t!">")]
    have s1 : scan false t!"<" = some true := rfl
    have s2 : scan true ((name ++ a) ++ t!">") = some false := scan_tag (by simp [n1, attrs_plain ha])
    have s3 : scan true (('/' :: name) ++ t!">") = some false := scan_tag (by simp [n1])
    simp only [s1, s2, s3, ih1, ih2, Option.bind_some]
  | empty name a t attrs l hn ha _ ih =>
    have e : '<' :: name ++ a ++ t!"/>" ++ t = t!"<" ++ ((name ++ a ++ t!"/") ++ t!">") ++ t := by simp
    have n1 := name_plain hn
    rw [e]
    simp only [scan_append _ _ t, scan_append _ _ ((name ++ a ++ t!"/") ++ t!">")]
    have s1 : scan false t!"<" = some true := rfl
    have s2 : scan true ((name ++ a ++ t!"/") ++ t!">") = some false := scan_tag (by simp [n1, attrs_plain ha])
    simp only [s1, s2, ih, Option.bind_some]

theorem document_scan {t name : Text} {attrs : List (Text × Text)} {kids : List Node} (h : Document t name attrs kids) : scan false t = some false := by
  obtain ⟨a, b, c, rfl, ha, hc, hb⟩ := h
  have w : ∀ t, White t → '<' ∉ t := fun t h hm => by have := h _ hm; revert this; decide
  have s1 : scan false t!"<?xml version=\"1.0\"?>" = some false := by decide
  simp only [scan_append _ _ c, scan_append _ _ b, scan_append _ _ a, s1, scan_plain (w a ha), scan_plain (w c hc), content_scan hb, Option.bind_some]

/-- Two placeholders at the end of a segment: `<ph/` is left of one of them, and the file is no XML document. -/
theorem C98_placeholder_violation (name : Text) (attrs : List (Text × Text)) (kids : List Node) :
    ¬ Document (file Tmx.ascii t!"3.9" t!"es" t!"ca" (TmxBuild.expected [([[t!"Si."]], [[t!"foo", t!"a", t!"b", t!"<ph/>", t!"<ph/>"]])])) name attrs kids := by
  intro h
  have := document_scan h
  have e : scan false (file Tmx.ascii t!"3.9" t!"es" t!"ca" (TmxBuild.expected [([[t!"Si."]], [[t!"foo", t!"a", t!"b", t!"<ph/>", t!"<ph/>"]])])) = none := by decide +kernel
  rw [e] at this
  exact absurd this (by simp)

/-- The codes of the languages are written as they are. -/
theorem C98_language_violation (name : Text) (attrs : List (Text × Text)) (kids : List Node) : ¬ Document (file Tmx.ascii t!"3.9" t!"<es>" t!"ca" []) name attrs kids := by
  intro h
  have := document_scan h
  have e : scan false (file Tmx.ascii t!"3.9" t!"<es>" t!"ca" []) = none := by decide +kernel
  rw [e] at this
  exact absurd this (by simp)

/-! ## Cases -/

/-- A column with an end of a sentence and a placeholder. -/
theorem ex_tidy : Tidy Tmx.ascii t!"\ta <b> &<ph/>c d e. " [.chr 'a', .chr ' ', .chr '<', .chr 'b', .chr '>', .chr ' ', .chr '&', .ph, .chr 'c', .chr ' ', .chr 'd', .chr ' ', .chr 'e', .chr '.'] := by
  refine ⟨[.chr '\t'], [.chr ' '], 0, .chr 'a', .chr '.', by decide, ?_, ?_, rfl, rfl, .inr (.inr (.inr (by decide))), .inr (.inr (.inr (by decide))), ?_, ?_⟩
  · intro x hx; simp only [List.mem_singleton] at hx; subst hx; exact ⟨by decide, by decide, by decide, by decide⟩
  · intro x hx; simp only [List.mem_singleton] at hx; subst hx; exact ⟨by decide, by decide, by decide, by decide⟩
  · intro a b e
    have : ∀ n, ((List.drop n ([.chr '\t'] ++ [.chr 'a', .chr ' ', .chr '<', .chr 'b', .chr '>', .chr ' ', .chr '&', .ph, .chr 'c', .chr ' ', .chr 'd', .chr ' ', .chr 'e', .chr '.'] ++ [.chr ' '] ++
        List.replicate 0 Item.ph : List Item)).take 2) ≠ [.chr '<', .chr 'p'] := by
      intro n
      by_cases hn : n < 17
      · revert n; decide
      · rw [List.drop_of_length_le (by simp; omega)]; simp
    apply this a.length
    rw [e]
    simp
  · intro c hc
    simp only [List.mem_cons, Item.chr.injEq, List.not_mem_nil, or_false, reduceCtorEq, false_or] at hc
    rcases hc with rfl | rfl | rfl | rfl | rfl | rfl | rfl | rfl | rfl | rfl | rfl | rfl | rfl <;> decide

example : Tmx.printTU Tmx.ascii t!"Si." t!"\ta <b> &<ph/>c d e. " = some ([], t!"a &lt;b&gt; &amp;<ph/>c d e") := by decide +kernel
example := C98_document_partial Tmx.ascii Tmx.ascii_ok t!"3.9" t!"es" t!"ca" (by decide) (by decide) (by decide)
  [((t!"Si.", t!"\ta <b> &<ph/>c d e. "), [.chr 'a', .chr ' ', .chr '<', .chr 'b', .chr '>', .chr ' ', .chr '&', .ph, .chr 'c', .chr ' ', .chr 'd', .chr ' ', .chr 'e', .chr '.'])]
  (by intro x hx _; simp only [List.mem_singleton] at hx; subst hx; exact ex_tidy)

end Verif.TmxFile
