import Verif.Mtx.Spec
import Verif.Tsx.Props
import Verif.Driver.Props
/-!
# Steps of the reader
-/
namespace Verif.Mtx
open Verif.VM (Cell Op)
open Verif.Tsx (Node Gap Start End isText)

/-- Elements without content. -/
def bareNames : List Text := [t!"sentlen", t!"pathlen", t!"tokaddr", t!"wrdidx", t!"wrdaddr", t!"int", t!"var", t!"def-str", t!"coarse-tags"]

/-- A node where an expression can end. -/
def Stop (m : Node) : Prop := isText m = false ∧ (m.isEnd = true → m.name ∉ bareNames)

theorem isText_name {n : Node} {x : Text} (h : n.name = x) (hx : x ≠ t!"#text") (hy : x ≠ t!"#comment") : isText n = false := by
  simp [isText, h, hx, hy]

theorem gap_text {g : List Node} (h : Gap g) {n : Node} (hn : n ∈ g) : isText n = true := by
  rcases (h n hn).1 with e | e <;> simp [isText, e]

theorem skip_tag {n : Node} (h : isText n = false) (r : List Node) : skip n r = .ok (n, r) := by
  cases r <;> simp [skip, h]

theorem skip_gap {g : List Node} (hg : Gap g) {m : Node} (hm : isText m = false) {r : List Node} {a : Node} {b : List Node} (h : g ++ m :: r = a :: b) :
    skip a b = .ok (m, r) := by
  induction g generalizing a b with
  | nil => cases h; exact skip_tag hm r
  | cons x g ih =>
    simp only [List.cons_append, List.cons.injEq] at h
    obtain ⟨rfl, h⟩ := h
    have hx := gap_text hg (n := x) (by simp)
    have hg' : Gap g := fun y hy => hg y (by simp [hy])
    cases g with
    | nil =>
      simp only [List.nil_append] at h
      subst h
      simp only [skip, hx, if_true]
      exact skip_tag hm r
    | cons y g =>
      simp only [List.cons_append] at h
      subst h
      simp only [skip, hx, if_true]
      exact ih hg' (by rfl)

theorem toTag_tag {n : Node} (h : isText n = false) (r : List Node) (code : List Cell) (t : T) : S.toTag ⟨n, r, code, t⟩ = .ok ⟨n, r, code, t⟩ := by
  simp [S.toTag, skip_tag h]

theorem toTag_gap {g : List Node} (hg : Gap g) {m : Node} (hm : isText m = false) {r : List Node} {a : Node} {b : List Node} (h : g ++ m :: r = a :: b) (code : List Cell) (t : T) :
    S.toTag ⟨a, b, code, t⟩ = .ok ⟨m, r, code, t⟩ := by
  simp [S.toTag, skip_gap hg hm h]

theorem nextTag_gap {n : Node} (hn : isText n = false) {g : List Node} (hg : Gap g) {m : Node} (hm : isText m = false) (r : List Node) (code : List Cell) (t : T) :
    S.nextTag ⟨n, g ++ m :: r, code, t⟩ = .ok ⟨m, r, code, t⟩ := by
  obtain ⟨a, b, h⟩ : ∃ a b, g ++ m :: r = a :: b := by cases g <;> simp
  simp only [S.nextTag, toTag_tag hn, Outcome.bind_ok, h, S.step]
  exact toTag_gap hg hm h code t

theorem past_bare {x : Text} {p : Node → Prop} {n : Node} {r : List Node} (h : Bare x p (n :: r)) (hx : x ∈ bareNames) {g : List Node} (hg : Gap g) {m : Node} (hm : Stop m)
    (tl : List Node) (code : List Cell) (t : T) : S.past x ⟨n, r ++ (g ++ m :: tl), code, t⟩ = .ok ⟨m, tl, code, t⟩ := by
  obtain ⟨a, b, hab⟩ : ∃ a b, g ++ m :: tl = a :: b := by cases g <;> simp
  generalize hq : n :: r = q at h
  cases h with
  | short n' hs hp =>
    cases hq
    simp only [List.nil_append, hab, S.past, S.step, Outcome.bind_ok]
    have : ¬ (a.name = x ∧ a.isEnd = true) := by
      rintro ⟨e1, e2⟩
      cases g with
      | nil =>
        cases hab
        exact hm.2 e2 (e1 ▸ hx)
      | cons y g =>
        cases hab
        rw [(hg a (by simp)).2] at e2
        cases e2
    rw [if_neg this]
    simp only [Outcome.pure_eq, Outcome.bind_ok]
    exact toTag_gap hg hm.1 hab code t
  | long n' e hs hp he =>
    cases hq
    simp only [List.cons_append, List.nil_append, hab, S.past, S.step, Outcome.bind_ok]
    rw [if_pos (show e.name = x ∧ e.isEnd = true from he)]
    exact toTag_gap hg hm.1 hab code t

theorem atEnd_end {x : Text} {z : Node} (h : End x z) (r : List Node) (code : List Cell) (t : T) : S.atEnd x ⟨z, r, code, t⟩ = .ok ⟨z, r, code, t⟩ := by
  simp only [S.atEnd]
  rw [if_pos (show z.name = x ∧ z.isEnd = true from h)]

theorem atAnyEnd_end {x : Text} {z : Node} (h : End x z) (r : List Node) (code : List Cell) (t : T) : S.atAnyEnd ⟨z, r, code, t⟩ = .ok ⟨z, r, code, t⟩ := by
  simp only [S.atAnyEnd]
  rw [if_pos h.2]

/-! ### Attributes -/

theorem isSpace_iff (c : Char) : isSpace c = true ↔ c ∈ blanks := by simp [isSpace, blanks]

theorem splitWords_word (w r : Text) (hw : w ≠ []) (hn : ∀ c ∈ w, c ∉ blanks) (hr : r = [] ∨ ∃ c r', r = c :: r' ∧ c ∈ blanks) : splitWords (w ++ r) = w :: splitWords r := by
  induction w with
  | nil => exact absurd rfl hw
  | cons c w ih =>
    have hc : isSpace c = false := by
      cases h : isSpace c with
      | false => rfl
      | true => exact absurd ((isSpace_iff c).1 h) (hn c (by simp))
    cases w with
    | nil =>
      simp only [List.cons_append, List.nil_append]
      rcases hr with rfl | ⟨d, r', rfl, hd⟩
      · simp [splitWords, hc, addLetter]
      · have hd' := (isSpace_iff d).2 hd
        rw [splitWords, hc]
        simp only [Bool.false_eq_true, if_false]
        cases hsp : splitWords (d :: r') with
        | nil => rfl
        | cons w ws => simp [hd', addLetter]
    | cons d w =>
      have hd : isSpace d = false := by
        cases h : isSpace d with
        | false => rfl
        | true => exact absurd ((isSpace_iff d).1 h) (hn d (by simp))
      have := ih (by simp) (fun x hx => hn x (by simp [hx]))
      simp only [List.cons_append] at this ⊢
      rw [splitWords, hc]
      simp [this, hd, addLetter]

theorem splitWords_blank (b r : Text) (hb : ∀ c ∈ b, c ∈ blanks) : splitWords (b ++ r) = splitWords r := by
  induction b with
  | nil => rfl
  | cons c b ih =>
    simp only [List.cons_append, splitWords, (isSpace_iff c).2 (hb c (by simp)), if_true]
    exact ih (fun x hx => hb x (by simp [hx]))

theorem Words.split {ws : List Text} {t : Text} (h : Words ws t) : splitWords t = ws := by
  induction h with
  | nil b hb => simpa [splitWords] using splitWords_blank b [] hb
  | cons b w r ws hb hw hn hr _ ih => rw [List.append_assoc, splitWords_blank b _ hb, splitWords_word w r hw hn hr, ih]

theorem digits_all (d : Text) (h : ∀ c ∈ d, '0' ≤ c ∧ c ≤ '9') : digits d = d.map (fun c => c.toNat - 48) := by
  induction d with
  | nil => rfl
  | cons c d ih => simp [digits, digitVal, h c (by simp), ih (fun x hx => h x (by simp [hx]))]

theorem digits_val {d : Text} {n : Nat} (h : Driver.Numeral d n) : (digits d).foldl (fun n d => 10 * n + d) 0 = n := by
  obtain ⟨_, h2, rfl⟩ := h
  rw [digits_all d h2, Driver.decimal_digitsVal, Driver.digitsVal, List.foldl_map]

theorem IntLit.read {t : Text} {i : Int} (h : IntLit t i) : readInt t = i ∧ t ≠ [] := by
  obtain ⟨d, n, hn, h⟩ := h
  have hv := digits_val hn
  obtain ⟨h1, h2, _⟩ := hn
  rcases h with ⟨rfl, rfl⟩ | ⟨rfl, rfl⟩
  · refine ⟨?_, h1⟩
    obtain ⟨c, cs, rfl⟩ : ∃ c cs, t = c :: cs := by cases t with
      | nil => exact absurd rfl h1
      | cons c cs => exact ⟨c, cs, rfl⟩
    have hc := h2 c (by simp)
    have hsp : isSpace c = false := by
      simp only [isSpace, List.mem_cons, List.not_mem_nil, or_false, decide_eq_false_iff_not, not_or]
      refine ⟨?_, ?_, ?_, ?_, ?_, ?_⟩ <;> (rintro rfl; revert hc; decide)
    have hm : c ≠ '-' := by rintro rfl; revert hc; decide
    have hp : c ≠ '+' := by rintro rfl; revert hc; decide
    unfold readInt
    rw [List.dropWhile_cons, hsp]
    simp only [Bool.false_eq_true, if_false]
    split
    · rename_i r hr; cases hr; exact absurd rfl hm
    · rename_i r hr; cases hr; exact absurd rfl hp
    · rw [hv]
  · refine ⟨?_, by simp⟩
    unfold readInt
    rw [List.dropWhile_cons, show isSpace '-' = false from by decide]
    simp [hv]

theorem getInt_lit {n : Node} {x : Text} {i : Int} (h : IntLit (n.attrib x) i) (r : List Node) (code : List Cell) (t : T) : S.getInt ⟨n, r, code, t⟩ x = some i := by
  simp [S.getInt, h.read.1, h.read.2]

theorem getInt_attr {n : Node} {x : Text} {i : Int} (h : IntAttr (n.attrib x) i) (r : List Node) (code : List Cell) (t : T) : (S.getInt ⟨n, r, code, t⟩ x).getD 0 = i := by
  rcases h with ⟨h, rfl⟩ | h
  · simp [S.getInt, h]
  · simp [getInt_lit h]

end Verif.Mtx
