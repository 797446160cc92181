import Verif.Regex.Model
import Verif.Regex.Spec
namespace Verif.Regex

/-! ## Reading the generated expression -/

/-- A character that is written so that ICU reads it as itself. -/
def Ordinary (c : Char) : Prop := c ∉ ['(', ')', '[', ']', '{', '}', '^', '$', '|', '\\', '-', '&']

instance (c : Char) : Decidable (Ordinary c) := inferInstanceAs (Decidable (_ ∉ _))

theorem parse_esc {c : Char} (h : Ordinary c) (s : Text) (f : Frame) (st : List Frame) :
    parse none (esc c ++ s) (f :: st) = parse none s (f.push (.chr c) :: st) := by
  simp only [Ordinary, List.mem_cons, List.not_mem_nil, or_false, not_or] at h
  obtain ⟨h1, h2, h3, h4, h5, h6, h7, h8, h9, h10, h11, h12⟩ := h
  unfold esc
  split
  · rename_i hs
    rw [parse.eq_def]
    rcases hs with rfl | rfl | rfl | rfl <;> simp [Char.isAlphanum, Char.isAlpha, Char.isUpper, Char.isLower, Char.isDigit]
  · rename_i hs
    simp only [not_or] at hs
    obtain ⟨s1, s2, s3, s4⟩ := hs
    rw [List.singleton_append, parse.eq_def]
    simp [h1, h2, h3, h4, h5, h6, h7, h8, h9, h10, s1, s2, s3, s4, metaChars]

theorem parse_set_esc {c : Char} (h : Ordinary c) (l : List (Char × Char)) (s : Text) (f : Frame) (st : List Frame) :
    parse (some l) (esc c ++ s) (f :: st) = parse (some ((c, c) :: l)) s (f :: st) := by
  simp only [Ordinary, List.mem_cons, List.not_mem_nil, or_false, not_or] at h
  obtain ⟨h1, h2, h3, h4, h5, h6, h7, h8, h9, h10, h11, h12⟩ := h
  unfold esc
  split
  · rename_i hs
    rw [parse.eq_def]
    rcases hs with rfl | rfl | rfl | rfl <;> simp [Char.isAlphanum, Char.isAlpha, Char.isUpper, Char.isLower, Char.isDigit]
  · rename_i hs
    rw [List.singleton_append, parse.eq_def]
    simp [h3, h4, h7, h10, h11, h12]

theorem parse_set_chars (cs : List Char) (h : ∀ c ∈ cs, Ordinary c) (l : List (Char × Char)) (s : Text) (f : Frame)
    (st : List Frame) :
    parse (some l) (cs.flatMap esc ++ ']' :: s) (f :: st) =
      parse none s (f.push (.set (l.reverse ++ cs.map fun c => (c, c))) :: st) := by
  induction cs generalizing l with
  | nil =>
    rw [parse.eq_def]; simp
  | cons c cs ih =>
    have e : (c :: cs).flatMap esc ++ ']' :: s = esc c ++ (cs.flatMap esc ++ ']' :: s) := by simp
    rw [e, parse_set_esc (h c (by simp)), ih (fun x hx => h x (by simp [hx]))]
    simp

theorem parse_set (cs : List Char) (h : ∀ c ∈ cs, Ordinary c) (s : Text) (f : Frame) (st : List Frame) :
    parse none ('[' :: cs.flatMap esc ++ ']' :: s) (f :: st) = parse none s (f.push (.set (cs.map fun c => (c, c))) :: st) := by
  have := parse_set_chars cs h [] s f st
  rw [List.cons_append, parse.eq_def]
  simp only [List.reverse_nil, List.nil_append] at this
  simp [this]

theorem parse_open (s : Text) (f : Frame) (st : List Frame) :
    parse none ('(' :: '?' :: ':' :: s) (f :: st) = parse none s (⟨[], []⟩ :: f :: st) := by
  rw [parse.eq_def]; simp

theorem parse_open1 {d : Char} (h : d ≠ '?') (s : Text) (f : Frame) (st : List Frame) :
    parse none ('(' :: d :: s) (f :: st) = parse none (d :: s) (⟨[], []⟩ :: f :: st) := by
  rw [parse.eq_def]; simp [h]

theorem parse_close (s : Text) (f g : Frame) (st : List Frame) :
    parse none (')' :: s) (f :: g :: st) = parse none s (g.push f.close :: st) := by
  rw [parse.eq_def]; simp

theorem parse_bar (s : Text) (f : Frame) (st : List Frame) :
    parse none ('|' :: s) (f :: st) = parse none s (⟨f.cur.reverse :: f.alts, []⟩ :: st) := by
  rw [parse.eq_def]; simp

theorem parse_opt (s : Text) (a : List (List Re)) (r : Re) (rs : List Re) (st : List Frame) (h : r.isOpt = false) :
    parse none ('?' :: s) (⟨a, r :: rs⟩ :: st) = parse none s (⟨a, .opt r :: rs⟩ :: st) := by
  rw [parse.eq_def]; simp [h]

/-- `g` is read as the sequence `rs`, wherever it is. -/
def Reads (g : Text) (rs : List Re) : Prop :=
  ∀ s a cur st, parse none (g ++ s) (⟨a, cur⟩ :: st) = parse none s (⟨a, rs.reverse ++ cur⟩ :: st)

theorem Reads.append {g h : Text} {rs ss : List Re} (h1 : Reads g rs) (h2 : Reads h ss) : Reads (g ++ h) (rs ++ ss) := by
  intro s a cur st
  rw [List.append_assoc, h1, h2]
  simp

theorem Reads.esc {c : Char} (h : Ordinary c) : Reads (esc c) [.chr c] := by
  intro s a cur st
  rw [parse_esc h]; rfl

theorem Reads.nil : Reads [] [] := by
  intro s a cur st; rfl

theorem reads_alts (gs : List (Text × List Re)) (h : ∀ g ∈ gs, Reads g.1 g.2) (hne : gs ≠ []) (s : Text) (a : List (List Re))
    (st : List Frame) (f : Frame) :
    parse none (List.intercalate ['|'] (gs.map (·.1)) ++ ')' :: s) (⟨a, []⟩ :: f :: st) =
      parse none s (f.push (.alt (a.reverse ++ gs.map (·.2))) :: st) := by
  induction gs generalizing a with
  | nil => contradiction
  | cons g gs ih =>
    cases gs with
    | nil =>
      have h1 := h g (by simp)
      simp only [List.map_cons, List.map_nil, List.intercalate_singleton]
      rw [h1, parse_close]
      simp [Frame.close]
    | cons g2 gs =>
      have h1 := h g (by simp)
      have e : List.intercalate ['|'] ((g :: g2 :: gs).map (·.1)) ++ ')' :: s
          = g.1 ++ ('|' :: (List.intercalate ['|'] ((g2 :: gs).map (·.1)) ++ ')' :: s)) := by
        simp [List.intercalate, List.intersperse]
      rw [e, h1, parse_bar, ih (fun x hx => h x (List.mem_cons_of_mem _ hx)) (by simp)]
      simp

theorem reads_group (gs : List (Text × List Re)) (h : ∀ g ∈ gs, Reads g.1 g.2) (hne : gs ≠ []) :
    Reads (['(', '?', ':'] ++ List.intercalate ['|'] (gs.map (·.1)) ++ [')']) [.alt (gs.map (·.2))] := by
  intro s a cur st
  have e : (['(', '?', ':'] ++ List.intercalate ['|'] (gs.map (·.1)) ++ [')']) ++ s
      = '(' :: '?' :: ':' :: (List.intercalate ['|'] (gs.map (·.1)) ++ ')' :: s) := by simp
  rw [e, parse_open, reads_alts gs h hne]
  simp [Frame.push]

theorem Reads.opt {g : Text} {rs : List Re} {r : Re} (h : Reads g (rs ++ [r])) (hr : r.isOpt = false) :
    Reads (g ++ ['?']) (rs ++ [.opt r]) := by
  intro s a cur st
  rw [List.append_assoc, h, List.singleton_append]
  have e : (rs ++ [r]).reverse ++ cur = r :: (rs.reverse ++ cur) := by simp
  rw [e, parse_opt _ _ _ _ _ hr]
  simp

/-! ## The expression of a trie -/

/-- The sequence for the groups of a node. -/
def tailRe (e : Bool) : List (Text × List Re) → List Re
  | [] => []
  | [(t, g)] =>
    if e then
      if t.length > 1 ∧ t.head? ≠ some '(' then [.opt (.alt [g])]
      else
        match g.reverse with
        | [] => []
        | r :: rs => rs.reverse ++ [.opt r]
    else g
  | gs => if e then [.opt (.alt (gs.map (·.2)))] else [.alt (gs.map (·.2))]

def singleRe : List Char → List (Text × List Re)
  | [] => []
  | [c] => [(esc c, [.chr c])]
  | cs => [('[' :: cs.flatMap esc ++ [']'], [.set (cs.map fun c => (c, c))])]

mutual
def trieRe : Trie → List Re
  | .node c e nx => .chr c :: tailRe e (innerRe nx ++ singleRe (leaves nx))
def innerRe : List Trie → List (Text × List Re)
  | [] => []
  | t :: ts => if t.isLeaf then innerRe ts else (unbuild t, trieRe t) :: innerRe ts
end

mutual
/-- `P` holds of all characters; the children of a node differ after `fold`; a node with no children is the end of an entry. -/
def Good (fold : Char → Char) (P : Char → Prop) : Trie → Prop
  | .node c e nx => P c ∧ (nx = [] → e = true) ∧ GoodL fold P nx
def GoodL (fold : Char → Char) (P : Char → Prop) : List Trie → Prop
  | [] => True
  | t :: ts => Good fold P t ∧ (∀ u ∈ ts, fold u.chr ≠ fold t.chr) ∧ GoodL fold P ts
end

variable {fold : Char → Char} {P : Char → Prop}

theorem GoodL.mem {ts : List Trie} (h : GoodL fold P ts) {t : Trie} (ht : t ∈ ts) : Good fold P t := by
  induction ts with
  | nil => simp at ht
  | cons u us ih =>
    rw [GoodL] at h
    rcases List.mem_cons.1 ht with rfl | ht
    · exact h.1
    · exact ih h.2.2 ht

theorem Good.chr {t : Trie} (h : Good fold P t) : P t.chr := by
  cases t; rw [Good] at h; exact h.1

theorem leaves_P {ts : List Trie} (h : GoodL fold P ts) : ∀ c ∈ leaves ts, P c := by
  intro c hc
  simp only [leaves, List.mem_map, List.mem_filter] at hc
  obtain ⟨t, ⟨ht, _⟩, rfl⟩ := hc
  exact (h.mem ht).chr

theorem esc_ne_nil (c : Char) : esc c ≠ [] := by unfold esc; split <;> simp

theorem singleRe_map (cs : List Char) : (singleRe cs).map (·.1) = singleGroup cs := by
  rcases cs with _ | ⟨c, _ | ⟨d, cs⟩⟩ <;> rfl

mutual
theorem innerRe_map (ts : List Trie) : (innerRe ts).map (·.1) = unbuildInner ts := by
  cases ts with
  | nil => rfl
  | cons t ts =>
    rw [innerRe, unbuildInner]
    split
    · exact innerRe_map ts
    · simp [innerRe_map ts]
end

theorem esc_head {c : Char} (h : Ordinary c) (s : Text) : (esc c ++ s).head? ≠ some '(' := by
  unfold esc
  split
  · simp
  · simp only [List.cons_append, List.nil_append, List.head?_cons, ne_eq, Option.some.injEq]
    rintro rfl; simp [Ordinary] at h

theorem unbuild_ne_nil (t : Trie) : unbuild t ≠ [] := by
  cases t; rw [unbuild]; simp [esc_ne_nil]

theorem finish_ne_nil (e : Bool) (gs : List Text) (h : gs ≠ []) (hg : ∀ g ∈ gs, g ≠ []) : finish e gs ≠ [] := by
  rcases gs with _ | ⟨g, _ | ⟨g2, gs⟩⟩
  · contradiction
  · rw [finish]; split <;> simp [hg g (by simp)]
  · rw [finish] <;> simp

/-- What the two kinds of groups are: a text of one character is that character, and no text starts with a parenthesis. -/
structure GroupOk (g : Text × List Re) : Prop where
  reads : Reads g.1 g.2
  short : g.1.length ≤ 1 → ∃ c, g.2 = [.chr c]
  head : g.1.head? ≠ some '('
  ne : g.1 ≠ []

theorem reads_tail (e : Bool) (gs : List (Text × List Re)) (h : ∀ g ∈ gs, GroupOk g) :
    Reads (finish e (gs.map (·.1))) (tailRe e gs) := by
  rcases gs with _ | ⟨⟨t, g⟩, _ | ⟨g2, gs⟩⟩
  · exact Reads.nil
  · have hg := h (t, g) (by simp)
    cases e with
    | false => simpa [finish, tailRe] using hg.reads
    | true =>
      simp only [List.map_cons, List.map_nil, finish, tailRe, true_and, if_true]
      by_cases hc : t.length > 1 ∧ t.head? ≠ some '('
      · rw [if_pos hc, if_pos hc]
        have := reads_group [(t, g)] (by simpa using hg.reads) (by simp)
        simp only [List.map_cons, List.map_nil, List.intercalate_singleton] at this
        exact Reads.opt (rs := []) this rfl
      · rw [if_neg hc, if_neg hc]
        have hl : t.length ≤ 1 := by
          have := hg.head
          simp only at this
          by_cases h' : t.length > 1
          · exact absurd ⟨h', this⟩ hc
          · omega
        obtain ⟨c, rfl⟩ := hg.short hl
        exact Reads.opt (rs := []) hg.reads rfl
  · have := reads_group ((t, g) :: g2 :: gs) (fun x hx => (h x hx).reads) (by simp)
    cases e with
    | false => simpa [finish, tailRe] using this
    | true =>
      have := Reads.opt (rs := []) this rfl
      simpa [finish, tailRe] using this

theorem single_ok {cs : List Char} (h : ∀ c ∈ cs, Ordinary c) : ∀ g ∈ singleRe cs, GroupOk g := by
  rcases cs with _ | ⟨c, _ | ⟨d, cs⟩⟩
  · simp [singleRe]
  · intro g hg
    simp only [singleRe, List.mem_singleton] at hg
    subst hg
    exact ⟨Reads.esc (h c (by simp)), fun _ => ⟨c, rfl⟩, by simpa using esc_head (h c (by simp)) [], esc_ne_nil c⟩
  · intro g hg
    simp only [singleRe, List.mem_singleton] at hg
    subst hg
    refine ⟨?_, ?_, by simp, by simp⟩
    · intro s a cur st
      have := parse_set (c :: d :: cs) h s ⟨a, cur⟩ st
      simp only [List.cons_append, List.append_assoc, List.nil_append] at this ⊢
      rw [this]; rfl
    · intro hl
      simp at hl

mutual
theorem trie_reads (hP : ∀ c, P c → Ordinary c) (t : Trie) (h : Good fold P t) : Reads (unbuild t) (trieRe t) := by
  cases t with
  | node c e nx =>
    rw [Good] at h
    rw [unbuild, trieRe]
    have h2 := reads_tail e (innerRe nx ++ singleRe (leaves nx)) (by
      intro g hg
      rcases List.mem_append.1 hg with hg | hg
      · exact inner_ok hP nx h.2.2 g hg
      · exact single_ok (fun c hc => hP c (leaves_P h.2.2 c hc)) g hg)
    rw [List.map_append, innerRe_map, singleRe_map] at h2
    exact (Reads.esc (hP c h.1)).append h2
theorem inner_ok (hP : ∀ c, P c → Ordinary c) (ts : List Trie) (h : GoodL fold P ts) : ∀ g ∈ innerRe ts, GroupOk g := by
  cases ts with
  | nil => simp [innerRe]
  | cons t ts =>
    rw [GoodL] at h
    intro g hg
    rw [innerRe] at hg
    split at hg
    · exact inner_ok hP ts h.2.2 g hg
    · rename_i hleaf
      rcases List.mem_cons.1 hg with rfl | hg
      · refine ⟨trie_reads hP t h.1, ?_, ?_, unbuild_ne_nil t⟩
        · intro hl
          exfalso
          cases t with
          | node c e nx =>
            rw [Good] at h
            have hnx : nx ≠ [] := by
              intro hn
              have := h.1.2.1 hn
              simp [Trie.isLeaf, hn, this] at hleaf
            simp only [unbuild, List.length_append] at hl
            have h1 : 1 ≤ (esc c).length := List.length_pos_iff.2 (esc_ne_nil c)
            have h2 : finish e (unbuildInner nx ++ singleGroup (leaves nx)) ≠ [] := by
              apply finish_ne_nil
              · cases nx with
                | nil => contradiction
                | cons u us =>
                  rw [unbuildInner]
                  by_cases hu : u.isLeaf
                  · have : leaves (u :: us) = u.chr :: leaves us := by simp [leaves, hu]
                    rw [this]
                    cases hl2 : leaves us <;> simp [singleGroup]
                  · simp [hu]
              · rw [← innerRe_map, ← singleRe_map, ← List.map_append]
                intro g hg
                obtain ⟨g', hg', rfl⟩ := List.mem_map.1 hg
                rcases List.mem_append.1 hg' with hg' | hg'
                · exact (inner_ok hP nx h.1.2.2 g' hg').ne
                · exact (single_ok (fun c hc => hP c (leaves_P h.1.2.2 c hc)) g' hg').ne
            have h3 := List.length_pos_iff.2 h2
            omega
        · cases t with
          | node c e nx =>
            rw [Good] at h
            simp only [unbuild]
            exact esc_head (hP c h.1.1) _
      · exact inner_ok hP ts h.2.2 g hg
end

end Verif.Regex
