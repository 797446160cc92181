import Verif.Dom.Attrs
/-!
# What apertium-interchunk and apertium-postchunk keep in `evalStringCache`

The two programs decode elements alike; positions are counted from `off` (1 in interchunk.cc, 0 in postchunk.cc, where position 0 is the head of the chunk).
-/
namespace Verif.Dom.C
open Verif.Transfer

def partKeys : List Text := [t!"part", t!"pos"]

/-- `pos`, less `off`; 0 without the attribute. -/
def posOf (off : Int) (o : Option Text) : Int := match o with | some p => atoi p - off | none => 0

/-- `processClip` (interchunk.cc:103-116, postchunk.cc:112-125) and the left side of `processLet` (interchunk.cc:243-276, postchunk.cc:321-345). -/
def clipEntry (off : Int) (as : List (Text × Text)) : Outcome Entry :=
  (attrLoop partKeys as fun _ => none).map fun m => { ty := .clip .tl, content := (m t!"part").getD [], pos := posOf off (m t!"pos") }

/-- `processCaseOf` (interchunk.cc:154-167, postchunk.cc:144-157). -/
def caseOfEntry (off : Int) (as : List (Text × Text)) : Outcome Entry :=
  (attrLoop partKeys as fun _ => none).map fun m => { ty := .caseOf .tl, content := (m t!"part").getD [], pos := posOf off (m t!"pos") }

/-- `processBlank` (interchunk.cc:118-127, postchunk.cc:127-136). -/
def blankEntry : List (Text × Text) → Outcome Entry
  | [] => .ok { ty := .b, content := [' '], pos := -1 }
  | (_, v) :: _ => .ok { ty := .b, content := [], pos := atoi v - 1 }

/-- The elements that are put in the cache, and what is put there (transfer_base.cc:211-231; `processLuCount` postchunk.cc:138-142: not in interchunk). -/
def decode (off : Int) (lc : Bool) (k : EK) (as : List (Text × Text)) (ks : List XNode) : Option (Outcome Entry) :=
  match k with
  | .clip => some (clipEntry off as)
  | .litTag => some (.ok { ty := .litTag, content := tagsText (getattr as t!"v"), pos := 0 })
  | .lit => some (.ok { ty := .lit, content := getattr as t!"v", pos := 0 })
  | .b => some (blankEntry as)
  | .getCaseFrom => some ((firstAttr as).map fun p => { ty := .getCaseFrom, content := t!"lem", pos := atoi p - 1, ptr := (elems ks).head? })
  | .var => some (.ok { ty := .var, content := getattr as t!"n", pos := 0 })
  | .luCount => if lc then some (.ok { ty := .luCount, content := [], pos := 0 }) else none
  | .caseOf => some (caseOfEntry off as)
  | _ => none

/-- What `processLet` puts in the cache for its left side. -/
def LeftEntry (off : Int) (n : XNode) (e : Entry) : Prop :=
  (EK.of n.name = .var ∧ ∃ v, firstAttr n.attrs = .ok v ∧ e = { ty := .var, content := v, pos := 0 }) ∨
  (EK.of n.name = .clip ∧ clipEntry off n.attrs = .ok e)

/-- Every entry of the cache is what its element says, read in the role it has. -/
def Good (off : Int) (lc : Bool) (D : List (XNode × Role)) (c : Cache) : Prop :=
  ∀ i e, c i = some e → ∃ n, n.id = i ∧
    (((n, Role.value) ∈ D ∧ decode off lc (EK.of n.name) n.attrs n.kids = some (.ok e)) ∨ ((n, Role.target) ∈ D ∧ LeftEntry off n e))

variable {off : Int} {lc : Bool} {D : List (XNode × Role)}

/-- The empty cache, with which the program starts. -/
theorem Good.empty (off : Int) (lc : Bool) (D : List (XNode × Role)) : Good off lc D fun _ => none := by
  intro i e h; cases h

theorem Good.put_value {c : Cache} (h : Good off lc D c) {n : XNode} {e : Entry} (hn : (n, Role.value) ∈ D)
    (hd : decode off lc (EK.of n.name) n.attrs n.kids = some (.ok e)) : Good off lc D (c.put n.id e) := by
  intro i e' he
  simp only [Cache.put] at he
  split at he
  · rename_i hi
    cases he
    exact ⟨n, hi.symm, Or.inl ⟨hn, hd⟩⟩
  · exact h i e' he

theorem Good.put_target {c : Cache} (h : Good off lc D c) {n : XNode} {e : Entry} (hn : (n, Role.target) ∈ D)
    (hd : LeftEntry off n e) : Good off lc D (c.put n.id e) := by
  intro i e' he
  simp only [Cache.put] at he
  split at he
  · rename_i hi
    cases he
    exact ⟨n, hi.symm, Or.inr ⟨hn, hd⟩⟩
  · exact h i e' he

/-- What the cache holds for an element that is evaluated. -/
theorem Good.get_value (U : Unique D) {c : Cache} (h : Good off lc D c) {n : XNode} {e : Entry} (hn : (n, Role.value) ∈ D) (he : c n.id = some e) :
    decode off lc (EK.of n.name) n.attrs n.kids = some (.ok e) := by
  obtain ⟨n', hi, h1 | h1⟩ := h _ _ he
  · have := U.eq h1.1 hn hi
    cases this; exact h1.2
  · have := U.eq h1.1 hn hi
    cases this

theorem Good.get_target (U : Unique D) {c : Cache} (h : Good off lc D c) {n : XNode} {e : Entry} (hn : (n, Role.target) ∈ D) (he : c n.id = some e) :
    LeftEntry off n e := by
  obtain ⟨n', hi, h1 | h1⟩ := h _ _ he
  · have := U.eq h1.1 hn hi
    cases this
  · have := U.eq h1.1 hn hi
    cases this; exact h1.2

/-- What the specification and the loop find in a `<clip>`. -/
theorem clip_fields {as : List (Text × Text)} {sm : Simple} (h : absClip as = some sm) :
    ∃ p q sd qu to, clipEntry off as = .ok { ty := .clip .tl, content := q, pos := atoi p - off } ∧
      (∃ m, attrLoop partKeys as (fun _ => none) = .ok m ∧ m t!"pos" = some p ∧ m t!"part" = some q) ∧ sm = .clip (atoi p) sd q qu to := by
  simp only [absClip] at h
  split at h
  · rename_i hf
    obtain ⟨m, hm, hl⟩ := attrLoop_distinct partKeys hf
    split at h
    · rename_i p q hp hq
      cases h
      refine ⟨p, q, _, _, _, ?_, ⟨m, hm, by rw [hl _ (by decide), hp], by rw [hl _ (by decide), hq]⟩, rfl⟩
      simp only [clipEntry, hm, Outcome.map, hl t!"pos" (by decide), hl t!"part" (by decide), hp, hq, posOf, Option.getD_some]
    · cases h
  · cases h

theorem case_fields {as : List (Text × Text)} {e : Expr} (h : absCaseOf as = some e) :
    ∃ p q sd, caseOfEntry off as = .ok { ty := .caseOf .tl, content := q, pos := atoi p - off } ∧ e = .caseOf (atoi p) sd q := by
  simp only [absCaseOf] at h
  split at h
  · rename_i hf
    obtain ⟨m, hm, hl⟩ := attrLoop_distinct partKeys hf
    split at h
    · rename_i p q hp hq
      cases h
      refine ⟨p, q, _, ?_, rfl⟩
      simp only [caseOfEntry, hm, Outcome.map, hl t!"pos" (by decide), hl t!"part" (by decide), hp, hq, posOf, Option.getD_some]
    · cases h
  · cases h

theorem blank_fields {as : List (Text × Text)} {e : Expr} (h : some Expr.blank = some e) :
    e = .blank ∧ ∃ c p, blankEntry as = .ok { ty := .b, content := c, pos := p } := by
  cases as with
  | nil => cases h; exact ⟨rfl, [' '], -1, rfl⟩
  | cons a as =>
    obtain ⟨_, v⟩ := a
    cases h
    exact ⟨rfl, [], atoi v - 1, rfl⟩

/-- A left side is a variable or a clip. -/
theorem left_cases {a : XNode} {l : Expr} (h : absLeft a = some l) :
    (EK.of a.name = .var ∧ ∃ v, firstAttr a.attrs = .ok v ∧ l = .simple (.var v)) ∨
    (EK.of a.name = .clip ∧ ∃ p q sd qu to, clipEntry off a.attrs = .ok { ty := .clip .tl, content := q, pos := atoi p - off } ∧
      l = .simple (.clip (atoi p) sd q qu to)) := by
  cases a with
  | text t => simp [absLeft] at h
  | elem i n as ks =>
    simp only [absLeft] at h
    cases hk : EK.of n <;> simp only [hk] at h <;> try (cases h; done)
    · right
      obtain ⟨sm, hsm, rfl⟩ := Option.map_eq_some_iff.1 h
      obtain ⟨p, q, sd, qu, to, hc, _, rfl⟩ := clip_fields hsm
      exact ⟨hk, p, q, sd, qu, to, hc, rfl⟩
    · left
      obtain ⟨v, hv, rfl⟩ := Option.map_eq_some_iff.1 h
      exact ⟨hk, v, firstAttr_only hv, rfl⟩

/-- The two sides of `<let>` and `<modify-case>` among the children. -/
theorem sides_some {ks : List XNode} {l r : Expr} (h : absSides ks = some (l, r)) :
    ∃ a b rest, elems ks = a :: b :: rest ∧ absLeft a = some l ∧ absExpr b = some r := by
  simp only [absSides] at h
  obtain ⟨⟨a, b⟩, h2, h⟩ := Option.bind_eq_some_iff.1 h
  obtain ⟨l', hl, h⟩ := Option.bind_eq_some_iff.1 h
  obtain ⟨r', hr, h⟩ := Option.map_eq_some_iff.1 h
  cases h
  obtain ⟨rest, he⟩ := two_some h2
  exact ⟨a, b, rest, he, hl, hr⟩

end Verif.Dom.C
