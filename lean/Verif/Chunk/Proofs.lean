import Verif.Chunk.Spec
namespace Verif.Chunk
open Verif.Stream

/-! ## The head -/

theorem getVecTags_lem (as : List Atom) (h : ∀ a ∈ as, a.wf ['<', '{']) (r : Text) :
    getVecTags none (renderAtoms as ++ r) = getVecTags none r := by
  induction as with
  | nil => rfl
  | cons a as ih =>
    have ha := h a (by simp)
    have ih := ih (fun x hx => h x (by simp [hx]))
    cases a with
    | esc c => rw [getVecTags.eq_def]; simp [Atom.render, ih]
    | lit c =>
      obtain ⟨h1, _, h3⟩ := ha
      simp only [List.mem_cons, List.not_mem_nil, or_false, not_or] at h3
      rw [getVecTags.eq_def]; simp [Atom.render, ih, h1, h3]

theorem getVecTags_name (n t r : Text) (h : '>' ∉ n) :
    getVecTags (some t) (n ++ '>' :: r) = (getVecTags none r).map ((t ++ n ++ ['>']) :: ·) := by
  induction n generalizing t with
  | nil => rw [getVecTags.eq_def]; simp
  | cons c n ih =>
    have h1 : c ≠ '>' := by intro e; subst e; simp at h
    have h2 : '>' ∉ n := fun e => h (by simp [e])
    rw [getVecTags.eq_def]
    simp [h1, ih _ h2]

theorem getVecTags_tags (tags : List Text) (h : ∀ t ∈ tags, ∀ x ∈ t, x ∉ ['>', '{', '\\']) (r : Text) :
    getVecTags none (tags.flatMap tagText ++ '{' :: r) = .ok (tags.map tagText) := by
  induction tags with
  | nil => rw [getVecTags.eq_def]; simp
  | cons t ts ih =>
    have ht : '>' ∉ t := fun hm => absurd (h t (by simp) _ hm) (by simp)
    have ih := ih (fun x hx => h x (by simp [hx]))
    have e : (t :: ts).flatMap tagText ++ '{' :: r = '<' :: (t ++ '>' :: (ts.flatMap tagText ++ '{' :: r)) := by simp [tagText]
    rw [e, getVecTags.eq_def]
    simp only [Char.reduceEq, if_false, if_true]
    rw [getVecTags_name _ _ _ ht, ih]
    simp [tagText]

theorem beginChunk_lem (as : List Atom) (h : ∀ a ∈ as, a.wf ['<', '{']) (r : Text) :
    beginChunk (renderAtoms as ++ r) = beginChunk r := by
  induction as with
  | nil => rfl
  | cons a as ih =>
    have ha := h a (by simp)
    have ih := ih (fun x hx => h x (by simp [hx]))
    cases a with
    | esc c => rw [beginChunk.eq_def]; simp [Atom.render, ih]
    | lit c =>
      obtain ⟨h1, _, h3⟩ := ha
      simp only [List.mem_cons, List.not_mem_nil, or_false, not_or] at h3
      rw [beginChunk.eq_def]; simp [Atom.render, ih, h1, h3]

theorem beginChunk_plain (s r : Text) (h : ∀ c ∈ s, c ≠ '\\' ∧ c ≠ '{') : beginChunk (s ++ r) = beginChunk r := by
  induction s with
  | nil => rfl
  | cons c s ih =>
    have hc := h c (by simp)
    rw [List.cons_append, beginChunk.eq_def]; simp [hc.1, hc.2, ih (fun x hx => h x (by simp [hx]))]

theorem tags_plain (tags : List Text) (h : ∀ t ∈ tags, ∀ x ∈ t, x ∉ ['>', '{', '\\']) :
    ∀ c ∈ tags.flatMap tagText, c ≠ '\\' ∧ c ≠ '{' := by
  intro c hc
  obtain ⟨t, ht, hc⟩ := List.mem_flatMap.1 hc
  simp only [tagText, List.cons_append, List.mem_cons, List.mem_append, List.not_mem_nil, or_false] at hc
  rcases hc with rfl | hc | rfl
  · decide
  · have := h t ht c hc
    simp only [List.mem_cons, List.not_mem_nil, or_false, not_or] at this
    exact ⟨this.2.2, this.2.1⟩
  · decide

theorem beginChunk_head (c : Chunk) {u : Uni} (h : c.wf u) (r : Text) : beginChunk (c.head ++ '{' :: r) = .ok r := by
  rw [Chunk.head, List.append_assoc, beginChunk_lem _ h.lem, beginChunk_plain _ _ (tags_plain _ h.tags), beginChunk.eq_def]
  simp

theorem before_lem (stop : List Char) (as : List Atom) (h : ∀ a ∈ as, a.wf ['<', '{']) (hs : ∀ c ∈ stop, c = '<' ∨ c = '{')
    (acc r : Text) : before stop acc (renderAtoms as ++ r) = before stop (acc ++ renderAtoms as) r := by
  induction as generalizing acc with
  | nil => simp
  | cons a as ih =>
    have ha := h a (by simp)
    have ih := fun acc => ih (fun x hx => h x (by simp [hx])) acc
    cases a with
    | esc c => rw [before.eq_def]; simp [Atom.render, ih]
    | lit c =>
      obtain ⟨h1, _, h3⟩ := ha
      simp only [List.mem_cons, List.not_mem_nil, or_false, not_or] at h3
      have : c ∉ stop := fun hm => by rcases hs c hm with e | e <;> simp_all
      rw [before.eq_def]; simp [Atom.render, ih, h1, this]

theorem before_plain (stop : List Char) (s acc r : Text) (h : ∀ c ∈ s, c ≠ '\\' ∧ c ∉ stop) :
    before stop acc (s ++ r) = before stop (acc ++ s) r := by
  induction s generalizing acc with
  | nil => simp
  | cons c s ih =>
    have hc := h c (by simp)
    rw [List.cons_append, before.eq_def]; simp [hc.1, hc.2, ih _ (fun x hx => h x (by simp [hx]))]

theorem wordzero_head (c : Chunk) {u : Uni} (h : c.wf u) (r : Text) : wordzero (c.head ++ '{' :: r) = .ok c.head := by
  rw [wordzero, Chunk.head, List.append_assoc, before_lem _ _ h.lem (by simp)]
  rw [before_plain _ _ _ _ (fun c hc => by have := tags_plain _ h.tags c hc; simpa using this), before.eq_def]
  simp

theorem pseudolemma_head (c : Chunk) {u : Uni} (h : c.wf u) (r : Text) :
    pseudolemma (c.head ++ '{' :: r) = .ok (renderAtoms c.lem) := by
  rw [pseudolemma, Chunk.head, List.append_assoc, before_lem _ _ h.lem (by simp)]
  cases c.tags with
  | nil => rw [List.flatMap_nil, List.nil_append, before.eq_def]; simp
  | cons t ts => rw [List.flatMap_cons, tagText, List.cons_append, List.cons_append, List.cons_append, before.eq_def]; simp

theorem vecTags_head (c : Chunk) {u : Uni} (h : c.wf u) (r : Text) :
    getVecTags none (c.head ++ '{' :: r) = .ok (c.tags.map tagText) := by
  rw [Chunk.head, List.append_assoc, getVecTags_lem _ h.lem, getVecTags_tags _ h.tags]

/-! ## A word -/

theorem tagRef_eq (u : Uni) (tags : List Text) (d : Text) : tagRef u (tags.map tagText) d = kthTag tags (u.stoi d) := by
  unfold tagRef kthTag
  split
  · rename_i h
    have : (u.stoi d - 1).toNat = (u.stoi d).toNat - 1 := by omega
    rw [this]
  · rfl

theorem wordBody_tag (u : Uni) (tags : List Text) (all first : Bool) (n r : Text) (h : '>' ∉ n) :
    wordBody u tags all .tag first (n ++ '>' :: r) =
      (wordBody u tags all .text first r).map fun (o, f, t) => (n ++ '>' :: o, f, t) := by
  induction n with
  | nil => rw [List.nil_append, wordBody.eq_def]; simp
  | cons c n ih =>
    have h1 : c ≠ '>' := by intro e; subst e; simp at h
    have h2 : '>' ∉ n := fun e => h (by simp [e])
    rw [List.cons_append, wordBody.eq_def]
    simp only [h1, if_false]
    rw [ih h2, Outcome.map_map]
    rfl

theorem wordBody_ref (u : Uni) (tags : List Text) (all first : Bool) (ds n r : Text) (h : '>' ∉ n) :
    wordBody u tags all (.ref ds) first (n ++ '>' :: r) =
      (wordBody u tags all .text first r).map fun (o, f, t) => (tagRef u tags (ds ++ n) ++ o, f, t) := by
  induction n generalizing ds with
  | nil => rw [List.nil_append, wordBody.eq_def]; simp
  | cons c n ih =>
    have h1 : c ≠ '>' := by intro e; subst e; simp at h
    have h2 : '>' ∉ n := fun e => h (by simp [e])
    rw [List.cons_append, wordBody.eq_def]
    simp only [h1, if_false]
    rw [ih _ h2]
    simp

/-- What the loop gives for a word. -/
def body (u : Uni) (all : Bool) : Bool → List Sym → Text × Bool
  | first, [] => ([], first)
  | first, .raw t :: ss => (t ++ (body u all first ss).1, (body u all first ss).2)
  | first, .lit c :: ss =>
    if all then (u.toupper c :: (body u all first ss).1, (body u all first ss).2)
    else if first = true ∧ u.isalnum c = true then (u.toupper c :: (body u all false ss).1, (body u all false ss).2)
    else (c :: (body u all first ss).1, (body u all first ss).2)

theorem wordBody_pieces (u : Uni) (hd : u.isdigit '>' = false) (tags : List Text) (all first : Bool) (ps : List Piece)
    (h : ∀ p ∈ ps, p.wf u) (r : Text) :
    wordBody u (tags.map tagText) all .text first (ps.flatMap Piece.render ++ '$' :: r) =
      .ok ((body u all first (ps.map (Piece.sym u tags))).1, (body u all first (ps.map (Piece.sym u tags))).2, r) := by
  induction ps generalizing first with
  | nil => rw [List.flatMap_nil, List.nil_append, wordBody.eq_def]; simp [body]
  | cons p ps ih =>
    have hp := h p (by simp)
    have ih := fun first => ih first (fun x hx => h x (by simp [hx]))
    cases p with
    | lit c =>
      simp only [Piece.wf, List.mem_cons, List.not_mem_nil, or_false, not_or] at hp
      have e : (Piece.lit c :: ps).flatMap Piece.render ++ '$' :: r = c :: (ps.flatMap Piece.render ++ '$' :: r) := by
        simp [Piece.render]
      rw [e, wordBody.eq_def]
      simp only [hp, if_false, List.map_cons, Piece.sym, body]
      cases all with
      | true => simp [ih]
      | false =>
        by_cases hc : first = true ∧ u.isalnum c = true
        · simp [hc, ih]
        · rw [if_neg hc]; simp [hc, ih]
    | esc c =>
      have e : (Piece.esc c :: ps).flatMap Piece.render ++ '$' :: r = '\\' :: c :: (ps.flatMap Piece.render ++ '$' :: r) := by
        simp [Piece.render]
      rw [e, wordBody.eq_def]
      simp [ih, Piece.sym, body]
    | tag n =>
      obtain ⟨h1, h2⟩ := hp
      have e : (Piece.tag n :: ps).flatMap Piece.render ++ '$' :: r = '<' :: (n ++ '>' :: (ps.flatMap Piece.render ++ '$' :: r)) := by
        simp [Piece.render]
      obtain ⟨d, r', hr⟩ : ∃ d r', n ++ '>' :: (ps.flatMap Piece.render ++ '$' :: r) = d :: r' := by
        cases n <;> exact ⟨_, _, rfl⟩
      have hdig : u.isdigit d = false := by
        cases n with
        | nil => simp at hr; rw [← hr.1]; exact hd
        | cons x n => simp at hr; rw [← hr.1]; exact h2 x (by simp)
      rw [e, wordBody.eq_def]
      simp only [Char.reduceEq, if_false, if_true]
      rw [hr]
      simp only [hdig, Bool.false_eq_true, if_false]
      rw [← hr, wordBody_tag _ _ _ _ _ _ h1, ih]
      simp [Piece.sym, body, tagText]
    | ref n =>
      obtain ⟨h1, c, n', rfl, hc⟩ := hp
      have e : (Piece.ref (c :: n') :: ps).flatMap Piece.render ++ '$' :: r
          = '<' :: c :: (n' ++ '>' :: (ps.flatMap Piece.render ++ '$' :: r)) := by
        simp [Piece.render]
      rw [e, wordBody.eq_def]
      simp only [Char.reduceEq, if_false, if_true, hc]
      rw [wordBody_ref _ _ _ _ _ _ _ (fun hm => h1 (by simp [hm])), ih, tagRef_eq]
      simp [Piece.sym, body]

theorem body_AA (u : Uni) (first : Bool) (ss : List Sym) :
    body u true first ss = ((ss.map (·.upper u)).flatMap Sym.text, first) := by
  induction ss with
  | nil => rfl
  | cons s ss ih => cases s <;> simp [body, ih, Sym.upper, Sym.text]

theorem body_aa (u : Uni) (ss : List Sym) : body u false false ss = (ss.flatMap Sym.text, false) := by
  induction ss with
  | nil => rfl
  | cons s ss ih => cases s <;> simp [body, ih, Sym.text]

theorem body_Aa (u : Uni) (ss : List Sym) :
    body u false true ss = ((upperFirst u ss).flatMap Sym.text, !ss.any (·.isAlnum u)) := by
  induction ss with
  | nil => rfl
  | cons s ss ih =>
    cases s with
    | raw t => simp [body, ih, upperFirst, Sym.isAlnum, Sym.text]
    | lit c =>
      by_cases hc : u.isalnum c = true
      · simp [body, hc, upperFirst, Sym.isAlnum, Sym.text, Sym.upper, body_aa]
      · simp only [Bool.not_eq_true] at hc
        simp [body, hc, ih, upperFirst, Sym.isAlnum, Sym.text]

/-- The words with what the loop does to `uppercase_first`. -/
def bodies (u : Uni) (all : Bool) : Bool → List (List Sym) → List Text
  | _, [] => []
  | first, w :: ws => (body u all first w).1 :: bodies u all (body u all first w).2 ws

theorem bodies_eq (u : Uni) (k : Case) (ws : List (List Sym)) :
    bodies u (decide (k = .AA)) (decide (k = .Aa)) ws = (withCase u k ws).map fun w => w.flatMap Sym.text := by
  have h0 : ∀ ws, bodies u false false ws = ws.map fun w => w.flatMap Sym.text := by
    intro ws
    induction ws with
    | nil => rfl
    | cons w ws ih => simp [bodies, body_aa, ih]
  cases k with
  | aa => simpa [withCase] using h0 ws
  | AA =>
    simp only [decide_true, reduceCtorEq, decide_false, withCase]
    induction ws with
    | nil => rfl
    | cons w ws ih => simp [bodies, body_AA, ih]
  | Aa =>
    simp only [decide_true, reduceCtorEq, decide_false]
    induction ws with
    | nil => rfl
    | cons w ws ih =>
      simp only [bodies, body_Aa, withCase]
      by_cases hw : w.any (·.isAlnum u) = true
      · rw [if_pos hw, hw, Bool.not_true, h0]; rfl
      · rw [if_neg hw]
        simp only [Bool.not_eq_true] at hw
        rw [hw, Bool.not_false, ih]
        have : ∀ ss : List Sym, ss.any (·.isAlnum u) = false → upperFirst u ss = ss := by
          intro ss
          induction ss with
          | nil => intro _; rfl
          | cons s ss ih2 =>
            intro hh
            simp only [List.any_cons, Bool.or_eq_false_iff] at hh
            simp [upperFirst, hh.1, ih2 hh.2]
        rw [this w hw]; rfl

theorem supBody_atoms (b : List Atom) (h : ∀ a ∈ b, a.wf ['[', ']']) (r : Text) :
    supBody (renderAtoms b ++ ']' :: r) = .ok (renderAtoms b, r) := by
  induction b with
  | nil => rw [renderAtoms_nil, List.nil_append, supBody.eq_def]; simp
  | cons a as ih =>
    have ha := h a (by simp)
    have ih := ih (fun x hx => h x (by simp [hx]))
    cases a with
    | esc c => rw [supBody.eq_def]; simp [Atom.render, ih]
    | lit c =>
      obtain ⟨h1, _, h3⟩ := ha
      simp only [List.mem_cons, List.not_mem_nil, or_false, not_or] at h3
      rw [supBody.eq_def]; simp [Atom.render, ih, h1, h3]

end Verif.Chunk
