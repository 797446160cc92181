import Verif.Mult.Model
import Verif.Transfer.LoopProps
/-!
# C71: `apertium-multiple-translations` writes every combination of translations
-/
namespace Verif.Mult
open Verif.Transfer (Tok tokensOf)

/-! ## Specification -/

/-- What can be inside of brackets: everything but a closing bracket, which can be escaped. -/
inductive Inner : Text → Prop where
  | nil : Inner []
  | esc (d : Char) {t : Text} : Inner t → Inner ('\\' :: d :: t)
  | plain {c : Char} {t : Text} : c ∉ ['\\', ']'] → Inner t → Inner (c :: t)

/-- A text of plain and escaped characters and blanks in brackets. -/
inductive Quiet : Text → Prop where
  | nil : Quiet []
  | esc (d : Char) {t : Text} : Quiet t → Quiet ('\\' :: d :: t)
  | plain {c : Char} {t : Text} : c ∉ ['\\', '[', '$', '^'] → Quiet t → Quiet (c :: t)
  | block {x t : Text} : Inner x → Quiet t → Quiet ('[' :: x ++ ']' :: t)

/-- A stream: a blank, and words each with a blank after it. -/
def stream (b : Text) (ws : List (Text × Text)) : Text := b ++ ws.flatMap (fun w => t!"^" ++ w.1 ++ t!"$" ++ w.2)

/-- One of several translations: no `/` that is not escaped. -/
inductive Piece : Text → Prop where
  | nil : Piece []
  | esc (d : Char) {t : Text} : Piece t → Piece ('\\' :: d :: t)
  | plain {c : Char} {t : Text} : c ∉ ['\\', '/'] → Piece t → Piece (c :: t)

/-- The translation that is to come first. -/
def Default (t : Text) : Prop := t!" D<" <:+: t
/-- A translation whose sense is marked. -/
def Marked (t : Text) : Prop := t!"__" <:+: t

/-- All ways to take one of each. -/
def choices : List (List Text) → List (List Text)
  | [] => [[]]
  | l :: ls => l.flatMap (fun x => (choices ls).map (fun c => x :: c))

/-- Words and the blanks between them. -/
def renderWords : List Text → List Text → Text
  | [], _ => []
  | w :: ws, bs => t!"^" ++ w ++ t!"$" ++ (if ws = [] then [] else bs.headD []) ++ renderWords ws (bs.drop 1)

/-- One or several variants. -/
def written : List Text → Text
  | [a] => a
  | as => t!"[{]" ++ List.intercalate t!"[|]" as ++ t!".[][}]"

/-! ## Tokens -/

theorem readToken_step (i : Bool) (c : Char) (hc : c ≠ '\\') (s a : Text) : readToken i (c :: s) a =
    if i then (if c = ']' then readToken false s (a ++ [']']) else readToken true s (a ++ [c]))
    else if c = '[' then readToken true s (a ++ ['['])
    else if c = '$' then .ok (.word a, s)
    else if c = '^' then .ok (.blank a, s)
    else readToken false s (a ++ [c]) := by
  rw [readToken.eq_def]
  simp only [if_neg hc]

theorem readToken_esc (i : Bool) (d : Char) (s a : Text) : readToken i ('\\' :: d :: s) a = readToken i s (a ++ ['\\', d]) := by
  rw [readToken.eq_def]
  simp only [if_true]

theorem readToken_inner {x : Text} (h : Inner x) (r acc : Text) : readToken true (x ++ r) acc = readToken true r (acc ++ x) := by
  induction h generalizing acc with
  | nil => simp
  | esc d _ ih =>
    rw [List.cons_append, List.cons_append, readToken_esc, ih]
    simp
  | plain hc _ ih =>
    simp only [List.mem_cons, List.not_mem_nil, or_false, not_or] at hc
    rw [List.cons_append, readToken_step _ _ hc.1]
    simp only [if_true, if_neg hc.2, ih]
    simp

theorem readToken_quiet {x : Text} (h : Quiet x) (r acc : Text) : readToken false (x ++ r) acc = readToken false r (acc ++ x) := by
  induction h generalizing acc with
  | nil => simp
  | esc d _ ih =>
    rw [List.cons_append, List.cons_append, readToken_esc, ih]
    simp
  | plain hc _ ih =>
    simp only [List.mem_cons, List.not_mem_nil, or_false, not_or] at hc
    rw [List.cons_append, readToken_step _ _ hc.1]
    simp only [Bool.false_eq_true, if_false, if_neg hc.2.1, if_neg hc.2.2.1, if_neg hc.2.2.2, ih]
    simp
  | @block y t hy _ ih =>
    have e : '[' :: y ++ ']' :: t ++ r = '[' :: (y ++ ']' :: (t ++ r)) := by simp
    rw [e]
    have e1 : ∀ z a, readToken false ('[' :: z) a = readToken true z (a ++ ['[']) := by
      intro z a; rw [readToken_step _ _ (by decide)]; simp
    have e2 : ∀ z a, readToken true (']' :: z) a = readToken false z (a ++ [']']) := by
      intro z a; rw [readToken_step _ _ (by decide)]; simp
    rw [e1, readToken_inner hy, e2, ih]
    simp

/-- **C71, the words.** A stream is read as its words and blanks. -/
theorem C71_tokens (b : Text) (ws : List (Text × Text)) (hb : Quiet b) (hws : ∀ w ∈ ws, Quiet w.1 ∧ Quiet w.2) :
    readTokens ((stream b ws).length + 1) (stream b ws) = .ok (tokensOf b ws) := by
  have key : ∀ n, ∀ b ws, Quiet b → (∀ w ∈ ws, Quiet w.1 ∧ Quiet w.2) → 2 * ws.length + 1 ≤ n →
      readTokens n (stream b ws) = .ok (tokensOf b ws) := by
    intro n
    induction n using Nat.strongRecOn with
    | _ n ih =>
      intro b ws hb hws hn
      cases ws with
      | nil =>
        obtain ⟨n, rfl⟩ : ∃ k, n = k + 1 := ⟨n - 1, by omega⟩
        have : readToken false (stream b []) [] = .ok (.eof b, []) := by
          have := readToken_quiet hb [] []
          simp only [List.append_nil, List.nil_append] at this
          simp only [stream, List.flatMap_nil, List.append_nil, this]
          rfl
        simp only [readTokens, this, tokensOf]
        rfl
      | cons w ws =>
        simp only [List.length_cons] at hn
        obtain ⟨n, rfl⟩ : ∃ k, n = k + 2 := ⟨n - 2, by omega⟩
        have hw := hws w List.mem_cons_self
        have e1 : readToken false (stream b (w :: ws)) [] = .ok (.blank b, w.1 ++ '$' :: stream w.2 ws) := by
          have : stream b (w :: ws) = b ++ '^' :: (w.1 ++ '$' :: stream w.2 ws) := by simp [stream]
          rw [this, readToken_quiet hb, readToken_step _ _ (by decide)]
          simp
        have e2 : readToken false (w.1 ++ '$' :: stream w.2 ws) [] = .ok (.word w.1, stream w.2 ws) := by
          rw [readToken_quiet hw.1, readToken_step _ _ (by decide)]
          simp
        have e3 := ih n (by omega) w.2 ws hw.2 (fun x hx => hws x (List.mem_cons_of_mem _ hx)) (by omega)
        simp only [readTokens, e1, Outcome.bind_ok, e2, e3, tokensOf, Outcome.pure_eq]
  apply key _ b ws hb hws
  have : ∀ ws : List (Text × Text), 2 * ws.length ≤ (ws.flatMap (fun w => t!"^" ++ w.1 ++ t!"$" ++ w.2)).length := by
    intro ws
    induction ws with
    | nil => simp
    | cons w ws ih => simp at ih ⊢; omega
  have := this ws
  simp only [stream, List.length_append]
  omega

/-! ## The translations of a word -/

theorem isDefault_iff (t : Text) : isDefault t = true ↔ Default t := by
  unfold Default
  induction t with
  | nil => simp [isDefault]
  | cons c t ih =>
    simp only [isDefault, Bool.or_eq_true, decide_eq_true_eq, ih]
    rw [List.infix_cons_iff, List.prefix_iff_eq_take]
    simp only [List.length_cons, List.length_nil]
    exact or_congr eq_comm Iff.rfl

theorem isMarked_iff (t : Text) : isMarked t = true ↔ Marked t := by
  unfold Marked
  induction t with
  | nil => simp [isMarked]
  | cons c t ih =>
    simp only [isMarked, Bool.or_eq_true, decide_eq_true_eq, ih]
    rw [List.infix_cons_iff, List.prefix_iff_eq_take]
    simp only [List.length_cons, List.length_nil]
    exact or_congr eq_comm Iff.rfl

theorem hasBar_iff (t : Text) : hasBar t = true ↔ t!"[|]" <:+: t := by
  induction t with
  | nil => simp [hasBar]
  | cons c t ih =>
    simp only [hasBar, Bool.or_eq_true, decide_eq_true_eq, ih]
    rw [List.infix_cons_iff, List.prefix_iff_eq_take]
    simp only [List.length_cons, List.length_nil]
    exact or_congr eq_comm Iff.rfl

theorem push_perm (n : Nat) (res : List Text) (w : Text) : (push n res w).Perm (res ++ [w]) := by
  unfold push
  split
  · cases res with
    | nil => simp
    | cons r rs =>
      simp only [List.cons_append]
      calc w :: (rs ++ [r]) |>.Perm (w :: ([r] ++ rs)) := List.Perm.cons _ List.perm_append_comm
        _ |>.Perm (r :: w :: rs) := List.Perm.swap _ _ _
        _ |>.Perm (r :: (rs ++ [w])) := List.Perm.cons _ (List.perm_append_comm (l₁ := [w]))
  · exact List.Perm.refl _

theorem splitLoop_step (c : Char) (hc : c ≠ '\\') (s cur : Text) (res : List Text) : splitLoop (c :: s) cur res =
    if c = '/' then splitLoop s [] (push 1 res cur) else splitLoop s (cur ++ [c]) res := by
  rw [splitLoop.eq_def]
  simp only [if_neg hc]

theorem splitLoop_piece {x : Text} (h : Piece x) (r cur : Text) (res : List Text) :
    splitLoop (x ++ r) cur res = splitLoop r (cur ++ x) res := by
  induction h generalizing cur with
  | nil => simp
  | esc d _ ih =>
    rw [List.cons_append, List.cons_append, splitLoop]
    simp only [if_true, ih]
    simp
  | plain hc _ ih =>
    simp only [List.mem_cons, List.not_mem_nil, or_false, not_or] at hc
    rw [List.cons_append, splitLoop_step _ hc.1, if_neg hc.2, ih]
    simp

theorem splitLoop_eq (ps : List Text) (p : Text) (hp : Piece p) (h : ∀ q ∈ ps, Piece q) (res : List Text) :
    splitLoop (ps.flatMap (fun q => q ++ ['/']) ++ p) [] res = .ok (push 0 (ps.foldl (push 1) res) p) := by
  induction ps generalizing res with
  | nil =>
    have := splitLoop_piece hp [] [] res
    simp only [List.append_nil, List.nil_append] at this
    simp only [List.flatMap_nil, List.nil_append, this, List.foldl_nil]
    rfl
  | cons q ps ih =>
    have e : (q :: ps).flatMap (fun q => q ++ ['/']) ++ p = q ++ '/' :: (ps.flatMap (fun q => q ++ ['/']) ++ p) := by simp
    rw [e, splitLoop_piece (h q List.mem_cons_self), splitLoop_step _ (by decide), if_pos rfl, List.nil_append]
    rw [ih (fun x hx => h x (List.mem_cons_of_mem _ hx))]
    rfl

theorem intercalate_snoc (ps : List Text) (p : Text) :
    List.intercalate ['/'] (ps ++ [p]) = ps.flatMap (fun q => q ++ ['/']) ++ p := by
  induction ps with
  | nil => simp [List.intercalate]
  | cons q ps ih =>
    cases ps with
    | nil => simp [List.intercalate]
    | cons r ps =>
      have : List.intercalate ['/'] (q :: r :: ps ++ [p]) = q ++ ['/'] ++ List.intercalate ['/'] (r :: ps ++ [p]) := by
        simp [List.intercalate, List.intersperse]
      rw [this, ih]
      simp

/-- After the pieces `ps`. -/
structure Kept (ps R : List Text) : Prop where
  perm : R.Perm ps
  same : (∀ p ∈ ps, ¬ Default p) → R = ps
  first : (∃ i p, ps[i]? = some p ∧ Default p ∧ i ≠ 1) → ∃ d r, R = d :: r ∧ Default d

theorem push_head (n : Nat) (R : List Text) (w d : Text) (r : List Text) (h : R = d :: r) (hd : Default d) :
    ∃ d r, push n R w = d :: r ∧ Default d := by
  subst h
  unfold push
  split
  · rename_i h
    exact ⟨w, _, rfl, (isDefault_iff w).1 h.2⟩
  · exact ⟨d, _, rfl, hd⟩

theorem Kept.push {ps R : List Text} (h : Kept ps R) (n : Nat) (hn : n ≤ 1) (w : Text) : Kept (ps ++ [w]) (push n R w) := by
  have hlen := h.perm.length_eq
  refine ⟨?_, ?_, ?_⟩
  · exact (push_perm n R w).trans (h.perm.append_right [w])
  · intro hno
    have h1 := h.same (fun p hp => hno p (by simp [hp]))
    subst h1
    have hw : isDefault w = false := by
      cases hx : isDefault w with
      | false => rfl
      | true => exact absurd ((isDefault_iff w).1 hx) (hno w (by simp))
    unfold Mult.push
    rw [if_neg (by simp [hw])]
  · rintro ⟨i, p, h1, h2, h3⟩
    by_cases hi : i < ps.length
    · obtain ⟨d, r, h4, h5⟩ := h.first ⟨i, p, by rw [← h1, List.getElem?_append_left hi], h2, h3⟩
      exact push_head n R w d r h4 h5
    · have hi2 : i = ps.length := by
        have := (List.getElem?_eq_some_iff.1 h1).1
        simp at this; omega
      subst hi2
      rw [List.getElem?_append_right (Nat.le_refl _)] at h1
      simp only [Nat.sub_self, List.getElem?_cons_zero, Option.some.injEq] at h1
      subst h1
      unfold Mult.push
      split
      · cases R with
        | nil => exact ⟨w, [], rfl, h2⟩
        | cons r rs => exact ⟨w, _, rfl, h2⟩
      · rename_i hx
        have : R.length ≤ n := by
          rcases Nat.lt_or_ge n R.length with hl | hl
          · exact absurd ⟨hl, (isDefault_iff w).2 h2⟩ hx
          · exact hl
        have hR : R = [] := by
          cases R with
          | nil => rfl
          | cons r rs =>
            simp only [List.length_cons] at this hlen
            omega
        subst hR
        exact ⟨w, [], rfl, h2⟩

/-- The same when the last piece is the second: then it is moved, too. -/
theorem Kept.push_last {ps R : List Text} (h : Kept ps R) (w : Text)
    (hd : ∃ i p, (ps ++ [w])[i]? = some p ∧ Default p ∧ (i ≠ 1 ∨ ps.length = 1)) : ∃ d r, Mult.push 0 R w = d :: r ∧ Default d := by
  obtain ⟨i, p, h1, h2, h3⟩ := hd
  by_cases hi : i = 1
  · have hl : ps.length = 1 := h3.resolve_left (fun hx => hx hi)
    subst hi
    rw [List.getElem?_append_right (by omega), hl] at h1
    simp only [Nat.sub_self, List.getElem?_cons_zero, Option.some.injEq] at h1
    subst h1
    have hlen := h.perm.length_eq
    unfold Mult.push
    rw [if_pos ⟨by omega, (isDefault_iff w).2 h2⟩]
    cases R with
    | nil => exact ⟨w, [], rfl, h2⟩
    | cons r rs => exact ⟨w, _, rfl, h2⟩
  · exact (h.push 0 (by omega) w).first ⟨i, p, h1, h2, hi⟩

instance : DecidablePred Marked := fun t => decidable_of_iff _ (isMarked_iff t)

theorem keepMarked_eq (R : List Text) : keepMarked R = if 2 ≤ (R.filter isMarked).length then R.filter isMarked else R := by
  unfold keepMarked
  split
  · rfl
  · rename_i h
    have := List.length_filter_le isMarked R
    rw [if_neg (by omega)]

/-- **C71, the translations** (part: a default translation that is the second of three or more is not moved to the front).  The
translations of a word are those that the dictionary gives, separated by `/`; a default translation comes first; if two or more are marked, only
the marked ones are kept. -/
theorem C71_acceptions_partial (str : Text) (ps : List Text) (hne : ps ≠ []) (hps : ∀ p ∈ ps, Piece p)
    (hstr : str = '@' :: List.intercalate ['/'] ps ∨ (str = List.intercalate ['/'] ps ∧ str.head? ≠ some '@')) :
    ∃ R, R.Perm ps ∧ ((∀ p ∈ ps, ¬ Default p) → R = ps) ∧
      ((∃ i p, ps[i]? = some p ∧ Default p ∧ (i ≠ 1 ∨ ps.length = 2)) → ∃ d r, R = d :: r ∧ Default d) ∧
      acceptions str = .ok (if 2 ≤ (R.filter (fun p => decide (Marked p))).length then R.filter (fun p => decide (Marked p)) else R) := by
  have hbody : (if str.head? = some '@' then str.drop 1 else str) = List.intercalate ['/'] ps := by
    rcases hstr with rfl | ⟨h1, h2⟩
    · simp
    · rw [if_neg h2, h1]
  obtain ⟨init, p, rfl⟩ : ∃ init p, ps = init ++ [p] := ⟨ps.dropLast, ps.getLast hne, (List.dropLast_concat_getLast hne).symm⟩
  have hk : ∀ (l done R : List Text), Kept done R → Kept (done ++ l) (l.foldl (push 1) R) := by
    intro l
    induction l with
    | nil => intro done R h; simpa using h
    | cons q l ih =>
      intro done R h
      have := ih (done ++ [q]) (push 1 R q) (h.push 1 (Nat.le_refl _) q)
      simpa using this
  have h0 : Kept [] [] := ⟨List.Perm.refl _, fun _ => rfl, by rintro ⟨i, p, h, _⟩; simp at h⟩
  have h1 := hk init [] [] h0
  rw [List.nil_append] at h1
  have h2 := h1.push 0 (by omega) p
  refine ⟨push 0 (init.foldl (push 1) []) p, h2.perm, h2.same, ?_, ?_⟩
  · rintro ⟨i, q, a1, a2, a3⟩
    exact h1.push_last p ⟨i, q, a1, a2, a3.imp_right (fun h => by simpa using h)⟩
  · unfold acceptions
    rw [hbody, intercalate_snoc, splitLoop_eq init p (hps p (by simp)) (fun q hq => hps q (by simp [hq]))]
    rw [Outcome.map_ok, keepMarked_eq]
    have he : isMarked = fun p => decide (Marked p) := by
      funext p
      cases h : isMarked p with
      | true => exact (decide_eq_true ((isMarked_iff p).1 h)).symm
      | false => exact (decide_eq_false (fun hx => by rw [(isMarked_iff p).2 hx] at h; cases h)).symm
    rw [he]

/-- **C71, violation.** The default translation is not put first if it is the second of three. -/
theorem C71_second_violation : acceptions t!"a/b D<n>/c" = .ok [t!"a", t!"b D<n>", t!"c"] := by
  decide +kernel

/-- … whereas it is if it is the second of two, or the third. -/
example : acceptions t!"@a/b D<n>" = .ok [t!"b D<n>", t!"a"] ∧ acceptions t!"a/c/b D<n>/d__1" = .ok [t!"b D<n>", t!"c", t!"a", t!"d__1"] := by
  decide +kernel

/-! ## The combinations -/

/-- **C71, the combinations.** `choices` has exactly the ways to take one of each. -/
theorem C71_choices (ls : List (List Text)) (c : List Text) : c ∈ choices ls ↔ c.length = ls.length ∧
    ∀ i (h : i < c.length) (h' : i < ls.length), c[i] ∈ ls[i] := by
  induction ls generalizing c with
  | nil => simp [choices]
  | cons l ls ih =>
    simp only [choices, List.mem_flatMap, List.mem_map]
    constructor
    · rintro ⟨x, hx, d, hd, rfl⟩
      obtain ⟨h1, h2⟩ := (ih d).1 hd
      refine ⟨by simp [h1], ?_⟩
      intro i hi hi'
      cases i with
      | zero => simpa using hx
      | succ i => simpa using h2 i (by simpa using hi) (by simpa using hi')
    · rintro ⟨h1, h2⟩
      cases c with
      | nil => simp at h1
      | cons x d =>
        refine ⟨x, h2 0 (by simp) (by simp), d, (ih d).2 ⟨by simpa using h1, ?_⟩, rfl⟩
        intro i hi hi'
        exact h2 (i + 1) (by simpa using hi) (by simpa using hi')

/-- **C71, their number.** There are as many as the product of the numbers of translations. -/
theorem C71_number (ls : List (List Text)) : (choices ls).length = (ls.map (·.length)).foldr (· * ·) 1 := by
  induction ls with
  | nil => rfl
  | cons l ls ih =>
    simp only [choices, List.length_flatMap, List.length_map, List.map_cons, List.foldr_cons, ← ih]
    clear ih
    induction l with
    | nil => simp
    | cons x l ih => simp [ih, Nat.succ_mul]; omega

/-- Each with a bar before it. -/
def barred (as : List Text) : Text := as.flatMap (fun a => t!"[|]" ++ a)

theorem barred_append (a b : List Text) : barred (a ++ b) = barred a ++ barred b := by simp [barred]

theorem barred_intercalate (as : List Text) (h : as ≠ []) : barred as = t!"[|]" ++ List.intercalate t!"[|]" as := by
  induction as with
  | nil => exact absurd rfl h
  | cons a as ih =>
    cases as with
    | nil => simp [barred, List.intercalate]
    | cons b as =>
      have e : List.intercalate t!"[|]" (a :: b :: as) = a ++ (t!"[|]" ++ List.intercalate t!"[|]" (b :: as)) := by
        simp [List.intercalate, List.intersperse]
      rw [e, ← ih (by simp)]
      simp [barred]

theorem choices_ne (ls : List (List Text)) (h : ∀ l ∈ ls, l ≠ []) : choices ls ≠ [] := by
  induction ls with
  | nil => simp [choices]
  | cons l ls ih =>
    have ih := ih (fun x hx => h x (List.mem_cons_of_mem _ hx))
    cases l with
    | nil => exact absurd rfl (h [] List.mem_cons_self)
    | cons x l =>
      cases hc : choices ls with
      | nil => exact absurd hc ih
      | cons c cs => simp [choices, hc]

theorem zipIdx_flatMap (f : Text → Bool → Text) (l : List Text) (k : Nat) (m : Bool) :
    (l.zipIdx (k + 1)).flatMap (fun x => f x.1 (m || decide (0 < x.2))) = l.flatMap (fun x => f x true) := by
  induction l generalizing k with
  | nil => rfl
  | cons x l ih =>
    rw [List.zipIdx_cons, List.flatMap_cons, List.flatMap_cons, ih]
    simp

theorem writeMultiple_eq (ls : List (List Text)) (h : ∀ l ∈ ls, l ≠ []) (bs : List Text) (acum : Text) (m : Bool) :
    writeMultiple ls bs acum m =
      (if m then t!"[|]" else []) ++ List.intercalate t!"[|]" ((choices ls).map (fun c => acum ++ renderWords c bs)) := by
  suffices hs : ∀ m, writeMultiple ls bs acum m =
      (barred ((choices ls).map (fun c => acum ++ renderWords c bs))).drop (if m then 0 else 3) by
    rw [hs, barred_intercalate _ (by simpa using choices_ne ls h)]
    cases m <;> simp
  -- what is common to the two cases of a word
  have common : ∀ (w : List Text) (f : Text → Bool → Text) (g : Text → List Text) (m : Bool), w ≠ [] → (∀ x ∈ w, g x ≠ []) →
      (∀ x ∈ w, ∀ m, f x m = (barred (g x)).drop (if m then 0 else 3)) →
      w.zipIdx.flatMap (fun x => f x.1 (m || decide (0 < x.2))) = (barred (w.flatMap g)).drop (if m then 0 else 3) := by
    intro w f g m hw hg hf
    cases w with
    | nil => exact absurd rfl hw
    | cons x w =>
      rw [List.zipIdx_cons, List.flatMap_cons, zipIdx_flatMap]
      simp only [Nat.lt_irrefl, decide_false, Bool.or_false, List.flatMap_cons, barred_append]
      rw [hf x List.mem_cons_self]
      have h3 : 3 ≤ (barred (g x)).length := by
        rw [barred_intercalate _ (hg x List.mem_cons_self)]
        simp
      rw [List.drop_append_of_le_length (by cases m <;> simp; exact h3)]
      congr 1
      have : ∀ y ∈ w, f y true = barred (g y) := fun y hy => by rw [hf y (List.mem_cons_of_mem _ hy)]; rfl
      clear hf hg hw
      induction w with
      | nil => rfl
      | cons y w ih =>
        rw [List.flatMap_cons, List.flatMap_cons, barred_append, this y List.mem_cons_self,
          ih (fun z hz => this z (List.mem_cons_of_mem _ hz))]
  induction ls generalizing bs acum with
  | nil => intro m; cases m <;> simp [writeMultiple, choices, renderWords, barred]
  | cons w ls ih =>
    intro m
    have hw := h w List.mem_cons_self
    have hrest : ∀ l ∈ ls, l ≠ [] := fun x hx => h x (List.mem_cons_of_mem _ hx)
    have hmap : ∀ acum : Text, (choices (w :: ls)).map (fun c => acum ++ renderWords c bs) =
        w.flatMap (fun x => (choices ls).map (fun c => acum ++ renderWords (x :: c) bs)) := by
      intro acum
      simp [choices, List.map_flatMap, Function.comp_def]
    rw [hmap]
    cases ls with
    | nil =>
      simp only [writeMultiple]
      refine common w (fun x m => (if m = true then t!"[|]" else []) ++ (acum ++ t!"^" ++ x ++ t!"$")) _ m hw (by simp [choices]) ?_
      intro x _ m
      cases m <;> simp [choices, barred, renderWords]
    | cons w' ls =>
      simp only [writeMultiple]
      refine common w (fun x m => writeMultiple (w' :: ls) (bs.drop 1) (acum ++ t!"^" ++ x ++ t!"$" ++ bs.headD []) m) _ m hw
        (fun x _ => by simpa using choices_ne _ hrest) ?_
      intro x _ m
      rw [ih hrest]
      congr 2
      apply List.map_congr_left
      intro c hc
      have : c ≠ [] := by
        intro hn
        subst hn
        have := ((C71_choices _ _).1 hc).1
        simp at this
      simp [renderWords, this]

end Verif.Mult
