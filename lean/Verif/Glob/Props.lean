import Verif.Glob.Spec
/-!
# C90: what a pattern of tags fits
-/
namespace Verif.Glob
open Verif.Transfer Verif.Parts
open Verif.Regex (tagText)

/-! ## The text of the expression -/

/-- The pattern as text. -/
def patText (is : List Item) : Text := is.flatMap fun i => '<' :: i.name ++ ['>']

/-- What an item becomes. -/
def Item.re : Item → List PRe
  | .tag t => .chr '<' :: t.map .chr ++ [.chr '>']
  | .star => [.plus (.grp (.seq [.chr '<', .plus (.nset ['>']), .chr '>']))]

/-- The expression of a pattern. -/
def globRe (is : List Item) : PRe := .seq (is.flatMap Item.re)

theorem textSeq_append : ∀ (a b : List PRe), textSeq (a ++ b) = textSeq a ++ textSeq b
  | [], b => by simp [textSeq]
  | r :: a, b => by simp [textSeq, textSeq_append a b]

theorem textSeq_chars : ∀ (t : Text), textSeq (t.map PRe.chr) = t
  | [] => rfl
  | c :: t => by simp [textSeq, PRe.text, textSeq_chars t]

theorem findStar_skip : ∀ (a r : Text), '<' ∉ a → findStar (a ++ r) = (findStar r).map fun p => (a ++ p.1, p.2)
  | [], r, _ => by simp
  | c :: a, r, h => by
    have hc : c ≠ '<' := fun hc => h (by simp [hc])
    rw [List.cons_append, findStar, if_neg (by simp [hc]), findStar_skip a r (fun hx => h (by simp [hx]))]
    cases findStar r <;> simp

/-- The text of one item after the loop. -/
def Item.out (i : Item) : Text := textSeq i.re

theorem out_tag (t : Text) : (Item.tag t).out = '<' :: t ++ ['>'] := by
  simp [Item.out, Item.re, textSeq, PRe.text, textSeq_append, textSeq_chars]

theorem out_star : Item.star.out = starText := by decide

theorem findStar_tag (t r : Text) (h : ∀ c ∈ t, PlainChar c) : findStar ((Item.tag t).out ++ r) = (findStar r).map fun p => ((Item.tag t).out ++ p.1, p.2) := by
  have h1 : '<' ∉ t := fun hx => (h _ hx).2.1 rfl
  have h2 : '*' ∉ t := fun hx => (h _ hx).1 (by decide)
  rw [out_tag, List.cons_append, List.cons_append, findStar, if_neg]
  · rw [List.append_assoc, findStar_skip t _ h1, List.singleton_append, findStar, if_neg (by simp)]
    cases findStar r <;> simp
  · cases t with
    | nil => simp
    | cons c t =>
      intro he
      simp only [List.cons_append, List.take_succ_cons, List.cons.injEq] at he
      exact h2 (by rw [← he.2.1]; simp)

theorem findStar_out (r : Text) : findStar (starText ++ r) = (findStar r).map fun p => (starText ++ p.1, p.2) := by
  have : starText = t!"(" ++ ('<' :: t!"[^>]+>)+") := by decide
  rw [this, List.append_assoc, findStar_skip _ _ (by decide), List.cons_append, findStar, if_neg (by simp), findStar_skip _ _ (by decide)]
  cases findStar r <;> simp

theorem findStar_outs (is : List Item) (hp : PlainPattern is) (r : Text) :
    findStar (is.flatMap Item.out ++ r) = (findStar r).map fun p => (is.flatMap Item.out ++ p.1, p.2) := by
  induction is with
  | nil => simp
  | cons i is ih =>
    have ih := ih fun t ht => hp t (List.mem_cons_of_mem _ ht)
    rw [List.flatMap_cons, List.append_assoc]
    cases i with
    | tag t =>
      rw [findStar_tag t _ (hp t (by simp)), ih]
      cases findStar r <;> simp
    | star =>
      rw [out_star, findStar_out, ih]
      cases findStar r <;> simp

/-- The number of stars. -/
def stars (is : List Item) : Nat := (is.filter fun i => decide (i = .star)).length

theorem patText_cons (i : Item) (is : List Item) : patText (i :: is) = '<' :: i.name ++ '>' :: patText is := by simp [patText]

theorem loop_outs : ∀ (todo done : List Item) (n : Nat), PlainPattern done → PlainPattern todo → stars todo ≤ n →
    expandLoop n (done.flatMap Item.out ++ patText todo) = (done ++ todo).flatMap Item.out
  | [], done, n, hd, _, _ => by
    have h : findStar (done.flatMap Item.out ++ patText []) = none := by
      rw [findStar_outs done hd]; rfl
    cases n with
    | zero => simp [expandLoop, patText]
    | succ n => rw [expandLoop, h]; simp [patText]
  | .tag t :: todo, done, n, hd, ht, hn => by
    have hd' : PlainPattern (done ++ [.tag t]) := fun u hu => by
      rcases List.mem_append.1 hu with hu | hu
      · exact hd u hu
      · have e : Item.tag u = Item.tag t := by simpa using hu
        cases e
        exact ht t (by simp)
    have := loop_outs todo (done ++ [.tag t]) n hd' (fun u hu => ht u (List.mem_cons_of_mem _ hu)) (by simpa [stars] using hn)
    rw [List.flatMap_append, List.flatMap_singleton, out_tag] at this
    rw [patText_cons]
    simpa [Item.name] using this
  | .star :: todo, done, n, hd, ht, hn => by
    cases n with
    | zero => simp [stars] at hn
    | succ n =>
      have hs : findStar (patText (.star :: todo)) = some ([], patText todo) := by
        rw [patText_cons]; simp [Item.name, findStar]
      rw [expandLoop, findStar_outs done hd, hs]
      simp only [Option.map_some, List.append_nil]
      have hd' : PlainPattern (done ++ [.star]) := fun u hu => by
        rcases List.mem_append.1 hu with hu | hu
        · exact hd u hu
        · exact absurd hu (by simp)
      have := loop_outs todo (done ++ [.star]) n hd' (fun u hu => ht u (List.mem_cons_of_mem _ hu)) (by simp only [stars, List.filter_cons, decide_true, if_true, List.length_cons] at hn; simp only [stars]; omega)
      rw [List.flatMap_append, List.flatMap_singleton, out_star] at this
      rw [this]
      simp

theorem stars_le (is : List Item) : stars is ≤ (patText is).length := by
  induction is with
  | nil => simp [stars]
  | cons i is ih =>
    rw [patText_cons]
    simp only [stars, List.filter_cons] at ih ⊢
    split <;> simp <;> omega

/-- C90: the expression that is compiled for a pattern is the one of its items. -/
theorem C90_expression {is : List Item} (hp : PlainPattern is) : expand (patText is) = (globRe is).text := by
  have := loop_outs is [] (patText is).length (fun t ht => by simp at ht) hp (stars_le is)
  simp only [List.flatMap_nil, List.nil_append] at this
  rw [expand, this, globRe, PRe.text]
  clear this
  induction is with
  | nil => rfl
  | cons i is ih =>
    rw [List.flatMap_cons, List.flatMap_cons, textSeq_append, ih fun t ht => hp t (List.mem_cons_of_mem _ ht)]
    rfl

/-- C90: the pattern is the one that the reader of the definition makes of the attribute. -/
theorem C90_attribute {is : List Item} (hp : PlainPattern is) (hn : is ≠ []) : Tsx.angled (Tsx.dotted (is.map Item.name)) = patText is := by
  have key : ∀ (is : List Item), PlainPattern is → is ≠ [] →
      (Tsx.dotted (is.map Item.name)).flatMap (fun c => if c = '.' then t!"><" else [c]) ++ t!">" = (patText is).drop 1 := by
    intro is
    induction is with
    | nil => intro _ h; exact absurd rfl h
    | cons i is ih =>
      intro hp _
      have hi : ∀ c ∈ i.name, c ≠ '.' := by
        intro c hc
        cases i with
        | tag t =>
          have := (hp t (by simp) c hc).1
          intro h; subst h; exact this (by decide)
        | star => 
          have : c = '*' := by simpa [Item.name] using hc
          subst this; decide
      have hsame : ∀ (l : Text), (∀ c ∈ l, c ≠ '.') → l.flatMap (fun c => if c = '.' then t!"><" else [c]) = l := by
        intro l
        induction l with
        | nil => intro _; rfl
        | cons c l ihl =>
          intro h
          rw [List.flatMap_cons, if_neg (h c (by simp)), ihl fun c hc => h c (by simp [hc])]; rfl
      cases is with
      | nil => 
        simp [Tsx.dotted, patText, List.intercalate, hsame _ hi]
      | cons j is =>
        have ih := ih (fun t ht => hp t (List.mem_cons_of_mem _ ht)) (by simp)
        have hd : Tsx.dotted ((i :: j :: is).map Item.name) = i.name ++ '.' :: Tsx.dotted ((j :: is).map Item.name) := by
          simp [Tsx.dotted, List.intercalate]
        rw [hd, List.flatMap_append, hsame _ hi, List.flatMap_cons, if_pos rfl, List.append_assoc, List.append_assoc, ih, patText_cons i, patText_cons j]
        simp
  rw [Tsx.angled, List.cons_append, key is hp hn]
  cases is with
  | nil => exact absurd rfl hn
  | cons i is => rw [patText_cons]; rfl

end Verif.Glob
