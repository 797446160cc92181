import Verif.Format.Reformat
import Verif.Format.Spec
/-!
# The reformatter on a stream of pieces
-/
namespace Verif.Format

theorem reTurn_len (f : Fmt) (b : UInt8) (r : Bytes) : (reTurn f (b :: r)).1.length ≤ r.length := by
  simp only [reTurn, reOpen]
  split
  · split
    · simp
    · split <;> simp
  · split
    · simp
    · split
      · simp
      · split
        · cases r with
          | nil => simp [reSlash]
          | cons c r => simp only [reSlash]; split <;> simp
        · simp

theorem reLoop_fuel (f : Fmt) (n m : Nat) (x : Bytes) (s : ReOut) (hn : x.length ≤ n) (hm : x.length ≤ m) :
    reLoop f n x s = reLoop f m x s := by
  induction n generalizing m x s with
  | zero =>
    have : x = [] := by cases x <;> simp_all
    subst this; cases m <;> rfl
  | succ n ih =>
    cases x with
    | nil => cases m <;> rfl
    | cons b r =>
      cases m with
      | zero => simp at hm
      | succ m =>
        have hl := reTurn_len f b r
        simp only [List.length_cons] at hn hm
        simp only [reLoop]
        cases ht : reTurn f (b :: r) with
        | mk rest a =>
          rw [ht] at hl
          cases a with
          | put t => exact ih _ _ _ (by simp only at hl ⊢; omega) (by simp only at hl ⊢; omega)
          | file nm =>
            simp only
            cases readFile s.files (cstr nm) with
            | none => rfl
            | some c => exact ih _ _ _ (by simp only at hl ⊢; omega) (by simp only at hl ⊢; omega)

/-- The reformatter without the fuel. -/
def reGo (f : Fmt) (x : Bytes) (s : ReOut) : ReOut := reLoop f x.length x s

theorem reGo_put {f : Fmt} {x rest t : Bytes} {s : ReOut} (hx : x ≠ []) (h : reTurn f x = (rest, .put t)) :
    reGo f x s = reGo f rest { s with out := s.out ++ t } := by
  cases x with
  | nil => exact absurd rfl hx
  | cons b r =>
    have hl := reTurn_len f b r
    rw [h] at hl
    unfold reGo
    simp only [List.length_cons, reLoop, h]
    exact reLoop_fuel f _ _ _ _ (by simpa using hl) (Nat.le_refl _)

theorem reGo_file {f : Fmt} {x rest nm c : Bytes} {s : ReOut} (hx : x ≠ []) (h : reTurn f x = (rest, .file nm))
    (hc : readFile s.files (cstr nm) = some c) :
    reGo f x s = reGo f rest { s with out := s.out ++ c, files := unlink s.files (cstr nm) } := by
  cases x with
  | nil => exact absurd rfl hx
  | cons b r =>
    have hl := reTurn_len f b r
    rw [h] at hl
    unfold reGo
    simp only [List.length_cons, reLoop, h, hc]
    exact reLoop_fuel f _ _ _ _ (by simpa using hl) (Nat.le_refl _)

theorem reByte_plain {f : Fmt} (hf : f.Plain) (b : UInt8) (h0 : b ≠ 0) : reByte f b = [b] := by
  have hc : cstr [b] = [b] := by simp [cstr, h0]
  unfold reByte
  rw [hc]
  split
  · rename_i q hq
    obtain ⟨p, hp, hpq⟩ := List.exists_of_findSome?_eq_some hq
    have h1 := List.find?_some hpq
    have h2 : q ∈ p.table := by simpa using List.mem_of_find?_eq_some hpq
    have h3 := of_decide_eq_true h1
    have h4 := (hf.repls p hp q h2).2 h3.1
    rw [h3.2] at h4
    rcases h4 with h4 | h4
    · simp at h4
    · exact h4
  · rfl

/-- An ordinary byte, if it is not a full stop before an empty superblank. -/
theorem reTurn_chr {f : Fmt} (hf : f.Plain) {b : UInt8} (he : f.escape b = false) (h0 : b ≠ 0) (X : Bytes)
    (hd : b = 0x2E → ∀ y, X ≠ 0x5B :: 0x5D :: y) : reTurn f (b :: X) = (X, .put [b]) := by
  have h1 : b ≠ 0x5B := fun h => by rw [h, hf.lb] at he; cases he
  have h2 : b ≠ 0x5D := fun h => by rw [h, hf.rb] at he; cases he
  have h3 : b ≠ 0x5C := fun h => by rw [h, hf.bs] at he; cases he
  simp only [reTurn]
  rw [if_neg h1, if_neg h2, if_neg ?_, if_neg h3, reByte_plain hf b h0]
  rintro ⟨h4, h5⟩
  apply hd h4 (X.drop 2)
  have := List.take_append_drop 2 X
  rw [h5] at this
  exact this.symm

theorem reTurn_esc {f : Fmt} {b : UInt8} (he : f.escape b = true) (X : Bytes) :
    reTurn f (0x5C :: b :: X) = (X, .put [b]) := by
  simp [reTurn, reSlash, he]

theorem reTurn_rb {f : Fmt} (X : Bytes) : reTurn f (0x5D :: X) = (X, .put []) := by simp [reTurn]

theorem reTurn_at {f : Fmt} (X : Bytes) : reTurn f (0x5B :: 0x5C :: 0x40 :: X) = (X, .put [0x40]) := by
  simp [reTurn, reOpen]

theorem reTurn_mark {f : Fmt} (X : Bytes) : reTurn f (0x2E :: 0x5B :: 0x5D :: X) = (X, .put []) := by simp [reTurn]

theorem reTurn_lb {f : Fmt} (X : Bytes) (h1 : ∀ y, X ≠ 0x40 :: y) (h2 : ∀ y, X ≠ 0x5C :: 0x40 :: y) :
    reTurn f (0x5B :: X) = (X, .put []) := by
  simp only [reTurn, if_true, reOpen]
  rw [if_neg, if_neg]
  · intro h5
    have := List.take_append_drop 2 X
    rw [h5] at this
    exact h2 _ this.symm
  · rintro ⟨h, _⟩
    cases X with
    | nil => simp at h
    | cons a X => simp at h; exact h1 X (by rw [h])

/-- The rest of a superblank. -/
theorem reGo_tail {f : Fmt} (hf : f.Plain) (w X : Bytes) (s : ReOut) (h0 : 0 ∉ w) :
    reGo f (w.flatMap (fun c => if f.escape c then [0x5C, c] else [c]) ++ 0x5D :: X) s =
      reGo f X { s with out := s.out ++ w } := by
  induction w generalizing s with
  | nil =>
    simp only [List.flatMap_nil, List.nil_append, List.append_nil]
    rw [reGo_put (by simp) (reTurn_rb _)]
    simp
  | cons c w ih =>
    simp only [List.mem_cons, not_or] at h0
    simp only [List.flatMap_cons, List.append_assoc]
    by_cases he : f.escape c = true
    · rw [if_pos he]
      simp only [List.cons_append, List.nil_append]
      rw [reGo_put (by simp) (reTurn_esc he _), ih _ h0.2]
      simp
    · rw [if_neg he]
      simp only [List.cons_append, List.nil_append]
      rw [reGo_put (by simp) (reTurn_chr hf (by simpa using he) (Ne.symm h0.1) _ ?_), ih _ h0.2]
      · simp
      · intro _ y hy
        cases w with
        | nil => simp at hy
        | cons d w =>
          simp only [List.flatMap_cons] at hy
          by_cases hd : f.escape d = true
          · rw [if_pos hd] at hy; simp at hy
          · rw [if_neg hd] at hy
            simp at hy
            rw [hy.1, hf.lb] at hd; exact hd rfl

theorem reGo_blank {f : Fmt} (hf : f.Plain) (w X : Bytes) (s : ReOut) (hw : w ≠ []) (h0 : 0 ∉ w) :
    reGo f ([0x5B] ++ quoted f w ++ [0x5D] ++ X) s = reGo f X { s with out := s.out ++ w } := by
  cases w with
  | nil => exact absurd rfl hw
  | cons b w =>
    simp only [List.mem_cons, not_or] at h0
    simp only [quoted, List.append_assoc, List.cons_append, List.nil_append]
    by_cases ha : b = 0x40
    · subst ha
      rw [if_pos (Or.inr rfl)]
      simp only [List.cons_append, List.nil_append]
      rw [reGo_put (by simp) (reTurn_at _), reGo_tail hf _ _ _ h0.2]
      simp
    · by_cases he : f.escape b = true
      · rw [if_pos (Or.inl he)]
        simp only [List.cons_append, List.nil_append]
        rw [reGo_put (by simp) (reTurn_lb _ (by simp) (by simp [ha])), reGo_put (by simp) (reTurn_esc he _),
          reGo_tail hf _ _ _ h0.2]
        simp
      · rw [if_neg (by simp [he, ha])]
        simp only [List.cons_append, List.nil_append]
        have h3 : b ≠ 0x5C := fun h => by rw [h, hf.bs] at he; exact he rfl
        rw [reGo_put (by simp) (reTurn_lb _ (by simp [ha]) (by simp [h3]))]
        have := reGo_tail hf (b :: w) X { s with out := s.out ++ [] } (by simp [h0.1, h0.2])
        simp only [List.flatMap_cons, he, List.append_assoc, List.nil_append] at this
        simpa using this

theorem takeWhile_app (n X : Bytes) (h : 0x5D ∉ n) :
    (n ++ 0x5D :: X).takeWhile (fun b => decide (b ≠ 0x5D)) = n ∧
    (n ++ 0x5D :: X).dropWhile (fun b => decide (b ≠ 0x5D)) = 0x5D :: X := by
  induction n with
  | nil => simp
  | cons a n ih =>
    simp only [List.mem_cons, not_or] at h
    have := ih h.2
    simp only [List.cons_append, List.takeWhile, List.dropWhile]
    rw [decide_eq_true (Ne.symm h.1)]
    exact ⟨by simp only; rw [this.1], this.2⟩

theorem cstr_eq {s : Bytes} (h : 0 ∉ s) : cstr s = s := by
  unfold cstr
  induction s with
  | nil => rfl
  | cons a s ih =>
    simp only [List.mem_cons, not_or] at h
    simp only [List.takeWhile, decide_eq_true (Ne.symm h.1), ih h.2]

theorem reGo_big {f : Fmt} (n c X : Bytes) (s : ReOut) (hn : n ≠ []) (hb : 0x5D ∉ n) (h0 : 0 ∉ n)
    (hr : readFile s.files n = some c) :
    reGo f ([0x5B, 0x40] ++ n ++ [0x5D] ++ X) s = reGo f X { s with out := s.out ++ c, files := unlink s.files n } := by
  have hc : cstr n = n := cstr_eq h0
  have ht : reTurn f ([0x5B, 0x40] ++ n ++ [0x5D] ++ X) = (X, .file n) := by
    simp only [List.append_assoc, List.cons_append, List.nil_append]
    have := (takeWhile_app n X hb).1
    simp only [reTurn, if_true, reOpen, List.head?_cons, List.drop_one, List.tail_cons]
    rw [this, if_pos ⟨trivial, hn, by simp⟩]
    simp
  rw [reGo_file (by simp) ht (c := c) (by rw [hc]; exact hr), hc]

/-- No piece begins with an empty superblank, unless it is a mark written for `-n`. -/
theorem render_head {f : Fmt} (hf : f.Plain) (o : Opts) (ho : o.noDot = false) (p : Piece) (hp : p.Good f)
    (hh : p ≠ .hmark) (X y : Bytes) :
    p.render f o ++ X ≠ 0x5B :: 0x5D :: y := by
  cases p with
  | chr b =>
    intro h
    simp [Piece.render] at h
    have := hp.1
    rw [h.1, hf.lb] at this; cases this
  | esc b => simp [Piece.render]
  | mark => simp [Piece.render, ho]
  | hmark => exact absurd rfl hh
  | blank w =>
    cases w with
    | nil => exact absurd rfl hp.1
    | cons b w =>
      simp only [Piece.render, quoted]
      split
      · simp
      · rename_i h
        simp only [not_or] at h
        intro h2
        simp at h2
        rw [h2.1, hf.rb] at h
        exact h.1 rfl
  | big n c => simp [Piece.render]

theorem renderAll_head {f : Fmt} (hf : f.Plain) (o : Opts) (ho : o.noDot = false) (ps : List Piece)
    (hp : ∀ p ∈ ps, p.Good f) (hh : Piece.hmark ∉ ps) (y : Bytes) : renderAll f o ps ≠ 0x5B :: 0x5D :: y := by
  cases ps with
  | nil => simp [renderAll]
  | cons p ps =>
    simp only [renderAll, List.flatMap_cons]
    exact render_head hf o ho p (hp p (by simp)) (fun h => hh (by simp [h])) _ _

/-- The files: different names. -/
theorem readFile_head (n c : Bytes) (fs : List (Bytes × Bytes)) : readFile ((n, c) :: fs) n = some c := by
  simp [readFile]

theorem unlink_head (n c : Bytes) (fs : List (Bytes × Bytes)) (h : n ∉ fs.map (·.1)) : unlink ((n, c) :: fs) n = fs := by
  simp only [unlink, List.filter_cons]
  simp only [ne_eq, not_true_eq_false, decide_false, Bool.false_eq_true, if_false]
  rw [List.filter_eq_self]
  intro p hp
  apply decide_eq_true
  intro he
  exact h (List.mem_map.2 ⟨p, hp, he⟩)

/-- The names of the files of the large blocks. -/
theorem filesAll_names (ps : List Piece) (n : Bytes) :
    n ∈ (filesAll ps).map (·.1) ↔ ∃ c, Piece.big n c ∈ ps := by
  simp only [filesAll, List.mem_map, List.mem_flatMap]
  constructor
  · rintro ⟨⟨m, c⟩, ⟨p, hp, hx⟩, rfl⟩
    cases p <;> simp [Piece.file] at hx
    obtain ⟨rfl, rfl⟩ := hx
    exact ⟨_, hp⟩
  · rintro ⟨c, hc⟩
    exact ⟨(n, c), ⟨_, hc, by simp [Piece.file]⟩, rfl⟩

theorem readFile_unlink (fs : List (Bytes × Bytes)) (n m : Bytes) (h : m ≠ n) : readFile (unlink fs n) m = readFile fs m := by
  unfold readFile unlink
  induction fs with
  | nil => rfl
  | cons p fs ih =>
    rw [List.filter_cons]
    by_cases h1 : p.1 = n
    · have h2 : ¬ p.1 = m := fun h3 => h (h3.symm.trans h1)
      simp only [h1, ne_eq, not_true_eq_false, decide_false, Bool.false_eq_true, if_false]
      rw [ih, List.find?_cons_of_neg (by simpa using h2)]
    · simp only [h1, ne_eq, not_false_eq_true, decide_true, if_true]
      by_cases h2 : p.1 = m
      · rw [List.find?_cons_of_pos (by simpa using h2), List.find?_cons_of_pos (by simpa using h2)]
      · rw [List.find?_cons_of_neg (by simpa using h2), List.find?_cons_of_neg (by simpa using h2), ih]

/-- **The reformatter gives back what the pieces stand for** and removes the files, in whatever order the pieces are.  With `-n`
(`noDot`), this is so when there is no full stop. -/
theorem reGo_pieces {f : Fmt} (hf : f.Plain) (o : Opts) (ps : List Piece) (fs : List (Bytes × Bytes)) (hp : ∀ p ∈ ps, p.Good f)
    (hd : o.noDot = false ∨ Piece.chr 0x2E ∉ ps) (hh : Piece.hmark ∉ ps) (hn : ((filesAll ps).map (·.1)).Nodup)
    (hfs : ∀ n c, Piece.big n c ∈ ps → readFile fs n = some c) (out : Bytes) :
    reGo f (renderAll f o ps) ⟨out, fs, true⟩ =
      ⟨out ++ plainAll ps, fs.filter (fun p => !((filesAll ps).map (·.1)).contains p.1), true⟩ := by
  induction ps generalizing out fs with
  | nil =>
    have : fs.filter (fun _ => true) = fs := List.filter_eq_self.2 (by simp)
    simp [renderAll, filesAll, plainAll, reGo, reLoop]
    exact this.symm
  | cons p ps ih =>
    have hp1 := hp p (by simp)
    have hps : ∀ q ∈ ps, q.Good f := fun q hq => hp q (by simp [hq])
    have hd2 : o.noDot = false ∨ Piece.chr 0x2E ∉ ps := hd.imp id (fun h hq => h (by simp [hq]))
    have hh2 : Piece.hmark ∉ ps := fun h => hh (by simp [h])
    have hfs2 : ∀ n c, Piece.big n c ∈ ps → readFile fs n = some c := fun n c h => hfs n c (by simp [h])
    have e1 : renderAll f o (p :: ps) = p.render f o ++ renderAll f o ps := by simp [renderAll]
    have e2 : plainAll (p :: ps) = p.plain ++ plainAll ps := by simp [plainAll]
    have e3 : filesAll (p :: ps) = p.file ++ filesAll ps := by simp [filesAll]
    rw [e1, e2, e3]
    rw [e3] at hn
    have hn2 : ((filesAll ps).map (·.1)).Nodup := by
      rw [List.map_append, List.nodup_append] at hn; exact hn.2.1
    have ih2 := fun out => ih fs hps hd2 hh2 hn2 hfs2 out
    cases p with
    | chr b =>
      simp only [Piece.render, Piece.plain, Piece.file, List.cons_append, List.nil_append]
      rw [reGo_put (by simp) (reTurn_chr hf hp1.1 hp1.2 _ ?_), ih2]
      · simp only [List.append_assoc, List.cons_append, List.nil_append]
      · intro hb y
        rcases hd with ho | hq
        · exact renderAll_head hf o ho ps hps hh2 y
        · exact absurd (by simp [hb]) hq
    | esc b =>
      simp only [Piece.render, Piece.plain, Piece.file, List.cons_append, List.nil_append]
      rw [reGo_put (by simp) (reTurn_esc hp1 _), ih2]
      simp only [List.append_assoc, List.cons_append, List.nil_append]
    | mark =>
      simp only [Piece.render, Piece.plain, Piece.file, List.nil_append]
      cases ho : o.noDot with
      | true =>
        simp only [if_true, List.cons_append, List.nil_append]
        rw [reGo_put (by simp) (reTurn_lb _ (by simp) (by simp)), reGo_put (by simp) (reTurn_rb _)]
        simp only [List.append_nil]
        exact ih2 out
      | false =>
        simp only [Bool.false_eq_true, if_false, List.cons_append, List.nil_append]
        rw [reGo_put (by simp) (reTurn_mark _)]
        simp only [List.append_nil]
        exact ih2 out
    | hmark => exact absurd (by simp) hh
    | blank w =>
      simp only [Piece.render, Piece.plain, Piece.file, List.nil_append]
      rw [reGo_blank hf w _ _ hp1.1 hp1.2, ih2]
      simp only [List.append_assoc]
    | big n c =>
      simp only [Piece.render, Piece.plain, Piece.file]
      simp only [Piece.file, List.map_cons, List.cons_append, List.nil_append, List.nodup_cons] at hn
      rw [reGo_big n c _ _ hp1.1 hp1.2.1 hp1.2.2.2.2 (hfs n c (by simp))]
      rw [ih (unlink fs n) hps hd2 hh2 hn2]
      · simp only [List.append_assoc, ReOut.mk.injEq, true_and, and_true]
        rw [unlink, List.filter_filter]
        apply List.filter_congr
        intro p _
        by_cases h1 : p.1 = n <;> simp [h1]
      · intro m d hm
        have hne : m ≠ n := by
          intro he
          subst he
          exact hn.1 ((filesAll_names ps m).2 ⟨d, hm⟩)
        rw [readFile_unlink fs n m hne]
        exact hfs2 m d hm

end Verif.Format
