import Verif.Caps.Extract
import Verif.Caps.Spec
/-!
# Extraction of capitalisation (C31)
-/
namespace Verif.Caps
open Verif.Stream

/-! ## The readers -/

theorem readBlank_esc (m : Bool) (d : Char) (t : Text) : readBlank m ('\\' :: d :: t) = cat ['\\', d] (readBlank m t) := by
  cases m <;> simp [readBlank]

theorem readBlank_in (c : Char) (h : c ≠ '\\') (t : Text) :
    readBlank true (c :: t) = cat [c] (readBlank (decide (c ≠ ']')) t) := by
  rw [readBlank.eq_def]
  split <;> simp_all

theorem readBlank_out (c : Char) (h : c ≠ '\\') (t : Text) :
    readBlank false (c :: t) = if c = '^' ∨ c = '\x00' then ([], ⟨c :: t, false⟩)
      else if c = '[' then
        if t.head? = some '[' then ([], ⟨c :: t, false⟩) else cat [c] (readBlank true t)
      else cat [c] (readBlank false t) := by
  rw [readBlank.eq_def]
  split <;> simp_all

theorem cat_cat (a b : Text) (p : Text × In) : cat a (cat b p) = cat (a ++ b) p := by simp [cat]

theorem readBlank_txt (a : Atom) (h : a.wf ['[', '^', '$']) (t : Text) :
    readBlank false (a.render ++ t) = cat a.render (readBlank false t) := by
  cases a with
  | esc d => simp [Atom.render, readBlank_esc]
  | lit c =>
    obtain ⟨h1, h2, h3⟩ := h
    simp at h3
    simp [Atom.render, readBlank_out c h1, h2, h3]

theorem readBlank_inner (b : List Atom) (h : ∀ a ∈ b, a.wf ['[', ']']) (t : Text) :
    readBlank true (renderAtoms b ++ ']' :: t) = cat (renderAtoms b ++ [']']) (readBlank false t) := by
  induction b with
  | nil => simp [readBlank_in]
  | cons a b ih =>
    have ih := ih (fun x hx => h x (by simp [hx]))
    have ha := h a (by simp)
    cases a with
    | esc d => simp [Atom.render, readBlank_esc, ih, cat_cat]
    | lit c =>
      obtain ⟨h1, h2, h3⟩ := ha
      simp at h3
      simp [Atom.render, readBlank_in c h1, h3, ih, cat_cat]

theorem renderAtoms_head (b : List Atom) (f : List Char) (c : Char) (hc : c ≠ '\\') (hf : c ∈ f) (h : ∀ a ∈ b, a.wf f) (e : Char) (he : e ≠ c)
    (t : Text) : (renderAtoms b ++ e :: t).head? ≠ some c := by
  cases b with
  | nil => simp [he]
  | cons a b =>
    have ha := h a (by simp)
    cases a with
    | esc d => simp [Atom.render]; exact fun h => hc h.symm
    | lit x =>
      obtain ⟨_, _, h3⟩ := ha
      simp [Atom.render]
      rintro rfl
      exact h3 hf

theorem readBlank_blank (b : List Atom) (h : ∀ a ∈ b, a.wf ['[', ']']) (t : Text) :
    readBlank false ((Item.blank b).render ++ t) = cat (Item.blank b).render (readBlank false t) := by
  have hh := renderAtoms_head b _ '[' (by decide) (by decide) h ']' (by decide) t
  simp only [Item.render, List.cons_append, List.append_assoc, List.nil_append]
  rw [readBlank_out _ (by decide), if_neg (by decide), if_pos rfl, if_neg hh, readBlank_inner b h, cat_cat]
  simp

theorem readBlank_nil : readBlank false [] = ([], ⟨[], true⟩) := rfl
theorem readBlank_hat (t : Text) : readBlank false ('^' :: t) = ([], ⟨'^' :: t, false⟩) := by
  rw [readBlank_out _ (by decide)]; rfl
theorem readBlank_nul (t : Text) : readBlank false ('\x00' :: t) = ([], ⟨'\x00' :: t, false⟩) := by
  rw [readBlank_out _ (by decide)]; rfl
theorem readBlank_wb (t : Text) : readBlank false ('[' :: '[' :: t) = ([], ⟨'[' :: '[' :: t, false⟩) := by
  rw [readBlank_out _ (by decide)]; simp

theorem finishWBlank_esc (d : Char) (t : Text) : finishWBlank ('\\' :: d :: t) = cat ['\\', d] (finishWBlank t) := by
  simp [finishWBlank]

theorem finishWBlank_lit (c : Char) (h : c ≠ '\\') (t : Text) : finishWBlank (c :: t) =
    if c = ']' ∧ t.head? = some ']' then ([']', ']'], ⟨t.tail, false⟩) else cat [c] (finishWBlank t) := by
  rw [finishWBlank.eq_def]
  split <;> simp_all

theorem finishWBlank_ok (b : List Atom) (h : ∀ a ∈ b, a.wf ['[', ']']) (t : Text) :
    finishWBlank (renderAtoms b ++ ']' :: ']' :: t) = (renderAtoms b ++ [']', ']'], ⟨t, false⟩) := by
  induction b with
  | nil => simp [finishWBlank_lit]
  | cons a b ih =>
    have ih := ih (fun x hx => h x (by simp [hx]))
    have ha := h a (by simp)
    cases a with
    | esc d => simp [Atom.render, finishWBlank_esc, ih, cat]
    | lit c =>
      obtain ⟨h1, h2, h3⟩ := ha
      simp at h3
      simp [Atom.render, finishWBlank_lit c h1, h3, ih, cat]

theorem readUntilSlash_esc (d : Char) (t : Text) : readUntilSlash ('\\' :: d :: t) = cat ['\\', d] (readUntilSlash t) := by
  simp [readUntilSlash]

theorem readUntilSlash_lit (c : Char) (h : c ≠ '\\') (t : Text) : readUntilSlash (c :: t) =
    if c = '/' ∨ c = '$' ∨ c = '\x00' then ([], ⟨c :: t, false⟩) else cat [c] (readUntilSlash t) := by
  rw [readUntilSlash.eq_def]
  split <;> simp_all

/-- The atoms of a part of a unit. -/
theorem readUntilSlash_ok (s : List Atom) (h : ∀ a ∈ s, a.wf ['^', '$', '/']) (e : Char) (he : e = '/' ∨ e = '$') (t : Text) :
    readUntilSlash (renderAtoms s ++ e :: t) = (renderAtoms s, ⟨e :: t, false⟩) := by
  induction s with
  | nil => rcases he with rfl | rfl <;> simp [readUntilSlash_lit]
  | cons a s ih =>
    have ih := ih (fun x hx => h x (by simp [hx]))
    have ha := h a (by simp)
    cases a with
    | esc d => simp [Atom.render, readUntilSlash_esc, ih, cat]
    | lit c =>
      obtain ⟨h1, h2, h3⟩ := ha
      simp at h3
      simp [Atom.render, readUntilSlash_lit c h1, h2, h3, ih, cat]

/-! ## The parts of a unit -/

theorem segs_ne (b : List Atom) : segs b ≠ [] := by
  cases b with
  | nil => simp [segs]
  | cons a b => simp only [segs]; split; · simp
                split <;> simp

/-- The unit is its parts, joined by `/`. -/
theorem segs_join (b : List Atom) : renderAtoms b = List.intercalate ['/'] ((segs b).map renderAtoms) := by
  induction b with
  | nil => rfl
  | cons a b ih =>
    rw [renderAtoms_cons, ih, segs]
    obtain ⟨s, ss, hs⟩ := List.exists_cons_of_ne_nil (segs_ne b)
    by_cases ha : a = .lit '/'
    · subst ha
      simp [hs, Atom.render, List.intercalate]
    · rw [if_neg ha, hs]
      cases ss <;> simp [List.intercalate]

theorem segs_wf (b : List Atom) (h : ∀ a ∈ b, a.wf ['^', '$']) : ∀ s ∈ segs b, ∀ a ∈ s, a.wf ['^', '$', '/'] := by
  induction b with
  | nil => simp [segs]
  | cons a b ih =>
    have ih := ih (fun x hx => h x (by simp [hx]))
    have ha := h a (by simp)
    rw [segs]
    by_cases hs : a = .lit '/'
    · rw [if_pos hs]; intro s hs'; simp at hs'; rcases hs' with rfl | hs'; · simp
      exact ih s hs'
    · rw [if_neg hs]
      obtain ⟨s, ss, he⟩ := List.exists_cons_of_ne_nil (segs_ne b)
      rw [he] at ih ⊢
      have hw : a.wf ['^', '$', '/'] := by
        cases a with
        | esc d => exact ha
        | lit c => obtain ⟨h1, h2, h3⟩ := ha; refine ⟨h1, h2, ?_⟩; simp at h3 hs ⊢; simp [h3, hs]
      intro x hx
      simp at hx
      rcases hx with rfl | hx
      · intro y hy
        simp at hy
        rcases hy with rfl | hy
        · exact hw
        · exact ih s (by simp) y hy
      · exact ih x (by simp [hx])

/-- The text of the parts after the first. -/
theorem intercalate_cons (x : Text) (xs : List Text) :
    List.intercalate ['/'] (x :: xs) = x ++ xs.flatMap (fun y => '/' :: y) := by
  induction xs generalizing x with
  | nil => simp [List.intercalate]
  | cons y ys ih =>
    have := ih y
    simp only [List.intercalate, List.intersperse] at *
    simp [List.flatten, this]

theorem skipReadings_ok (ss : List (List Atom)) (h : ∀ s ∈ ss, ∀ a ∈ s, a.wf ['^', '$', '/']) (t : Text) (n : Nat) (hn : ss.length < n) :
    skipReadings n ⟨ss.flatMap (fun s => '/' :: renderAtoms s) ++ '$' :: t, false⟩ = ⟨'$' :: t, false⟩ := by
  induction ss generalizing n with
  | nil => obtain ⟨n, rfl⟩ : ∃ k, n = k + 1 := ⟨n - 1, by simp at hn; omega⟩
           simp [skipReadings]
  | cons s ss ih =>
    obtain ⟨n, rfl⟩ : ∃ k, n = k + 1 := ⟨n - 1, by simp at hn; omega⟩
    have ih := ih (fun x hx => h x (by simp [hx])) n (by simp at hn; omega)
    have hs := h s (by simp)
    simp only [skipReadings, List.flatMap_cons, List.cons_append, List.append_assoc]
    have : (readUntilSlash (renderAtoms s ++ (ss.flatMap (fun s => '/' :: renderAtoms s) ++ '$' :: t))).2
        = ⟨ss.flatMap (fun s => '/' :: renderAtoms s) ++ '$' :: t, false⟩ := by
      cases ss with
      | nil => simp [readUntilSlash_ok s hs '$' (Or.inr rfl)]
      | cons s' ss => simp [readUntilSlash_ok s hs '/' (Or.inl rfl)]
    simp [this, ih]

/-- `read_lu` on the inside of a unit: the first part, and the second (nothing, if there is none). -/
theorem readLu_ok (b : List Atom) (h : ∀ a ∈ b, a.wf ['^', '$']) (t : Text) :
    readLu (renderAtoms b ++ '$' :: t) =
      (renderAtoms ((segs b).headD []), renderAtoms ((segs b).tail.headD []), ⟨t, false⟩) := by
  have hw := segs_wf b h
  rw [segs_join]
  obtain ⟨s, ss, hs⟩ := List.exists_cons_of_ne_nil (segs_ne b)
  rw [hs] at hw ⊢
  have h0 := hw s (by simp)
  cases ss with
  | nil =>
    simp [readLu, readReading, skipDollar, List.intercalate, readUntilSlash_ok s h0 '$' (Or.inr rfl)]
  | cons r rs =>
    have h1 := hw r (by simp)
    have h2 : ∀ x ∈ rs, ∀ a ∈ x, a.wf ['^', '$', '/'] := fun x hx => hw x (by simp [hx])
    rw [List.map_cons, intercalate_cons]
    simp only [List.map_cons, List.flatMap_cons, List.append_assoc, List.cons_append]
    have e : (List.map renderAtoms rs).flatMap (fun y => '/' :: y) = rs.flatMap (fun s => '/' :: renderAtoms s) := by
      rw [List.flatMap_map]
    rw [e]
    unfold readLu
    rw [readUntilSlash_ok s h0 '/' (Or.inl rfl)]
    have e2 : readUntilSlash (renderAtoms r ++ (rs.flatMap (fun s => '/' :: renderAtoms s) ++ '$' :: t))
        = (renderAtoms r, ⟨rs.flatMap (fun s => '/' :: renderAtoms s) ++ '$' :: t, false⟩) := by
      cases rs with
      | nil => simp [readUntilSlash_ok r h1 '$' (Or.inr rfl)]
      | cons s' ss => simp [readUntilSlash_ok r h1 '/' (Or.inl rfl)]
    have hl : rs.length ≤ (rs.flatMap (fun s => '/' :: renderAtoms s)).length := by
      clear h2 e2 e hw hs
      induction rs with
      | nil => simp
      | cons x xs ih => simp only [List.flatMap_cons, List.length_append, List.length_cons]; omega
    have e3 := skipReadings_ok rs h2 t ((rs.flatMap (fun s => '/' :: renderAtoms s) ++ '$' :: t).length + 1)
      (by simp only [List.length_append, List.length_cons]; omega)
    simp only [readReading, e2, e3, skipDollar]
    simp

/-! ## The text whose case is recorded -/

theorem takeLt_zero (t : Text) : '<' ∉ takeLt 0 t ∧ (t = takeLt 0 t ∨ ∃ r, t = takeLt 0 t ++ '<' :: r) := by
  induction t with
  | nil => simp [takeLt]
  | cons c t ih =>
    simp only [takeLt]
    by_cases hc : c = '<'
    · simp [hc]
    · rw [if_neg hc]
      obtain ⟨h1, h2⟩ := ih
      refine ⟨by simp [h1, Ne.symm hc], ?_⟩
      rcases h2 with h2 | ⟨r, h2⟩
      · left; rw [← h2]
      · right; exact ⟨r, by rw [List.cons_append, ← h2]⟩

theorem takeLt_add (k : Nat) (t : Text) (h : k ≤ t.length) : takeLt k t = t.take k ++ takeLt 0 (t.drop k) := by
  induction k generalizing t with
  | zero => simp
  | succ k ih =>
    cases t with
    | nil => simp at h
    | cons c t => simp [takeLt, ih t (by simpa using h)]

theorem infix_cons {s : Text} {c : Char} {t : Text} (h : s <:+: t) : s <:+: c :: t := by
  obtain ⟨a, b, rfl⟩ := h
  exact ⟨c :: a, b, by simp⟩

theorem infix_two (c d : Char) (t : Text) : t!">+" <:+: c :: d :: t ↔ (c = '>' ∧ d = '+') ∨ t!">+" <:+: d :: t := by
  constructor
  · rintro ⟨a, b, h⟩
    cases a with
    | nil => simp at h; left; exact ⟨h.1.symm, h.2.1.symm⟩
    | cons x a => simp at h; right; exact ⟨a, b, by simpa using h.2⟩
  · rintro (⟨rfl, rfl⟩ | h)
    · exact ⟨[], t, rfl⟩
    · exact infix_cons h

theorem rfindPlus_none (t : Text) : rfindPlus t = none ↔ ¬ t!">+" <:+: t := by
  fun_induction rfindPlus t with
  | case1 => simp
  | case2 c =>
    simp
    rintro ⟨a, b, h⟩
    have := congrArg List.length h
    simp at this
    omega
  | case3 c d r k hk ih =>
    simp only [hk] at ih
    rw [infix_two]
    simp at ih ⊢
    simp [ih]
  | case4 c d r hk hcd ih =>
    rw [infix_two]; simp [hcd]
  | case5 c d r hk hcd ih =>
    rw [infix_two]; simp [hcd]; simpa using ih.1 hk

theorem rfindPlus_some (t : Text) (k : Nat) (h : rfindPlus t = some k) :
    ∃ f r, t = f ++ t!">+" ++ r ∧ f.length = k ∧ ¬ t!">+" <:+: r := by
  fun_induction rfindPlus t generalizing k with
  | case1 => simp at h
  | case2 c => simp at h
  | case3 c d r j hj ih =>
    simp at h
    obtain ⟨f, r', h1, h2, h3⟩ := ih j hj
    exact ⟨c :: f, r', by simp [h1], by simp [h2, h], h3⟩
  | case4 c d r hk hcd ih =>
    simp at h
    refine ⟨[], r, by simp [hcd], by simp [h], ?_⟩
    have := (rfindPlus_none _).1 hk
    exact fun hi => this (infix_cons hi)
  | case5 c d r hk hcd ih => simp at h

/-- `lemma_case` looks at the analysis up to the tags of its last word. -/
theorem C31_lemmaPrefix_spec (reading : Text) : UpToLastTags reading (lemmaPrefix reading) := by
  unfold lemmaPrefix
  cases hr : rfindPlus reading with
  | none =>
    obtain ⟨h1, h2⟩ := takeLt_zero reading
    exact ⟨[], takeLt 0 reading, by simp, h1, by simpa using h2, Or.inl ⟨rfl, (rfindPlus_none _).1 hr⟩⟩
  | some k =>
    obtain ⟨f, r, h1, h2, h3⟩ := rfindPlus_some _ _ hr
    have e : takeLt k reading = (f ++ t!">+") ++ takeLt 0 r := by
      rw [takeLt_add k reading (by rw [h1, ← h2]; simp)]
      subst h2
      rw [h1]
      simp [takeLt]
    obtain ⟨h4, h5⟩ := takeLt_zero r
    refine ⟨f ++ t!">+", takeLt 0 r, by simpa using e, h4, ?_, Or.inr ⟨f, r, rfl, h1, h3⟩⟩
    simp only [Option.getD_some, e]
    rcases h5 with h5 | ⟨x, h5⟩
    · left; rw [← h5, h1]
    · right; exact ⟨x, by rw [List.append_assoc, ← h5, h1]⟩

/-- There is only one such text. -/
theorem C31_upToLastTags_unique {reading p q : Text} (hp : UpToLastTags reading p) (hq : UpToLastTags reading q) : p = q := by
  have key : ∀ (a b r s : Text), '<' ∉ a → '<' ∉ b → (r = a ∨ ∃ x, r = a ++ '<' :: x) → (r = b ∨ ∃ x, r = b ++ '<' :: x) → a = b := by
    intro a
    induction a with
    | nil =>
      intro b r _ _ hb h1 h2
      cases b with
      | nil => rfl
      | cons c b =>
        exfalso
        rcases h1 with rfl | ⟨x, rfl⟩ <;> rcases h2 with h2 | ⟨y, h2⟩ <;> simp at h2
        all_goals exact hb (by rw [← h2.1]; simp)
    | cons c a ih =>
      intro b r s ha hb h1 h2
      cases b with
      | nil =>
        exfalso
        rcases h1 with rfl | ⟨x, rfl⟩ <;> rcases h2 with h2 | ⟨y, h2⟩ <;> simp at h2
        all_goals exact ha (by simp [h2.1])
      | cons d b =>
        have : ∃ r', r = c :: r' ∧ (r' = a ∨ ∃ x, r' = a ++ '<' :: x) := by
          rcases h1 with rfl | ⟨x, rfl⟩
          · exact ⟨a, rfl, Or.inl rfl⟩
          · exact ⟨_, rfl, Or.inr ⟨x, rfl⟩⟩
        obtain ⟨r', rfl, h1'⟩ := this
        have : c = d ∧ (r' = b ∨ ∃ x, r' = b ++ '<' :: x) := by
          rcases h2 with h2 | ⟨x, h2⟩ <;> simp at h2
          · exact ⟨h2.1, Or.inl h2.2⟩
          · exact ⟨h2.1, Or.inr ⟨x, h2.2⟩⟩
        obtain ⟨rfl, h2'⟩ := this
        rw [ih b r' s (by simp at ha; exact ha.2) (by simp at hb; exact hb.2) h1' h2']
  have hfr : ∀ (f g r s : Text), f ++ t!">+" ++ r = g ++ t!">+" ++ s → ¬ t!">+" <:+: r → ¬ t!">+" <:+: s → f = g ∧ r = s := by
    intro f
    induction f with
    | nil =>
      intro g r s h hr hs
      cases g with
      | nil => simp at h; simp [h]
      | cons c g =>
        exfalso
        cases g with
        | nil => simp at h
        | cons d g => simp at h; exact hr ⟨g, s, by simp [h]⟩
    | cons c f ih =>
      intro g r s h hr hs
      cases g with
      | nil =>
        exfalso
        cases f with
        | nil => simp at h
        | cons d f => simp at h; exact hs ⟨f, r, by simp [h]⟩
      | cons d g =>
        simp at h
        obtain ⟨rfl, h⟩ := h
        obtain ⟨h1, h2⟩ := ih g r s (by simpa using h) hr hs
        simp [h1, h2]
  obtain ⟨f1, l1, rfl, hl1, hr1, h1⟩ := hp
  obtain ⟨f2, l2, rfl, hl2, hr2, h2⟩ := hq
  have cut : ∀ (f l r : Text), reading = f ++ r → (reading = f ++ l ∨ ∃ x, reading = f ++ l ++ '<' :: x) →
      (r = l ∨ ∃ x, r = l ++ '<' :: x) := by
    rintro f l r rfl (h | ⟨x, h⟩)
    · left; simpa using h
    · right; exact ⟨x, by simpa using h⟩
  rcases h1 with ⟨rfl, n1⟩ | ⟨g1, r1, rfl, e1, n1⟩ <;> rcases h2 with ⟨rfl, n2⟩ | ⟨g2, r2, rfl, e2, n2⟩
  · exact key _ _ reading [] hl1 hl2 (by simpa using hr1) (by simpa using hr2)
  · exact absurd ⟨g2, r2, by rw [e2]⟩ n1
  · exact absurd ⟨g1, r1, by rw [e1]⟩ n2
  · obtain ⟨rfl, rfl⟩ := hfr g1 g2 r1 r2 (by rw [← e1, ← e2]) n1 n2
    rw [key l1 l2 r1 [] hl1 hl2 (cut _ _ _ e1 hr1) (cut _ _ _ e1 hr2)]

/-! ## The loop -/

section
variable (getcase : Text → Text) (keep : Bool)

/-- Blanks are copied. -/
theorem extractLoop_blank (x t : Text) (h : readBlank false (x ++ t) = cat x (readBlank false t)) (n : Nat) :
    extractLoop getcase keep (n + 1) ⟨x ++ t, false⟩ = (extractLoop getcase keep (n + 1) ⟨t, false⟩).map fun o => x ++ o := by
  simp only [extractLoop, h]
  simp only [Bool.false_eq_true, if_false, cat_fst, cat_snd]
  split
  · simp
  · split
    · simp [Function.comp_def]
    · split
      · simp [Function.comp_def]
      · simp
      · simp [Function.comp_def]

theorem extractLoop_nil (n : Nat) : extractLoop getcase keep (n + 1) ⟨[], false⟩ = .ok [] := by
  simp [extractLoop, readBlank_nil]

theorem extractLoop_nul (n : Nat) (t : Text) :
    extractLoop getcase keep (n + 1) ⟨'\x00' :: t, false⟩ = (extractLoop getcase keep n ⟨t, false⟩).map fun o => '\x00' :: o := by
  simp [extractLoop, readBlank_nul]

theorem extractLoop_unit (n : Nat) (b : List Atom) (h : ∀ a ∈ b, a.wf ['^', '$']) (t : Text) :
    extractLoop getcase keep (n + 1) ⟨(Item.lu b).render ++ t, false⟩ = (extractLoop getcase keep n ⟨t, false⟩).map fun o =>
      writeUnit getcase keep [] (renderAtoms ((segs b).headD [])) (renderAtoms ((segs b).tail.headD [])) ++ o := by
  simp only [Item.render, List.cons_append, List.append_assoc, List.nil_append]
  simp [extractLoop, readBlank_hat, readLu_ok b h t]

theorem extractLoop_wbUnit (n : Nat) (w : List Atom) (hw : ∀ a ∈ w, a.wf ['[', ']']) (b : List Atom) (h : ∀ a ∈ b, a.wf ['^', '$'])
    (t : Text) :
    extractLoop getcase keep (n + 1) ⟨t!"[[" ++ renderAtoms w ++ t!"]]" ++ ((Item.lu b).render ++ t), false⟩ =
      (extractLoop getcase keep n ⟨t, false⟩).map fun o =>
      writeUnit getcase keep (t!"[[" ++ renderAtoms w ++ t!"]]") (renderAtoms ((segs b).headD []))
        (renderAtoms ((segs b).tail.headD [])) ++ o := by
  simp only [Item.render, List.cons_append, List.append_assoc, List.nil_append]
  simp [extractLoop, readBlank_wb, finishWBlank_ok w hw, readLu_ok b h t]

theorem extractLoop_wb (n : Nat) (w : List Atom) (hw : ∀ a ∈ w, a.wf ['[', ']']) (t : Text) (ht : t.head? ≠ some '^') :
    extractLoop getcase keep (n + 2) ⟨t!"[[" ++ renderAtoms w ++ t!"]]" ++ t, false⟩ =
      (extractLoop getcase keep (n + 1) ⟨t, false⟩).map fun o => t!"[[" ++ renderAtoms w ++ t!"]]" ++ o := by
  simp only [List.cons_append, List.append_assoc, List.nil_append]
  rw [extractLoop]
  simp only [readBlank_wb, List.tail_cons, finishWBlank_ok w hw]
  cases t with
  | nil => simp [extractLoop_nil]
  | cons c t =>
    have hc : c ≠ '^' := by simpa using ht
    simp
    split
    · rename_i h; simp at h; exact absurd h.1 hc
    · rename_i h; simp at h
    · simp
end

theorem writeUnit_eq (getcase : Text → Text) (keep : Bool) (w : Option (List Atom)) (mark : Text → Text → Text)
    (s r : Text) (hm : ∀ s r p, UpToLastTags r p → mark s r = t!"c:" ++ getcase s ++ ['/'] ++ getcase p) :
    writeUnit getcase keep ((w.map fun x => (Item.wopen x).render).getD []) s r =
      t!"[[" ++ (w.map fun x => renderAtoms x ++ t!"; ").getD [] ++ mark s r ++ t!"]]" ++
          ['^'] ++ (if keep then s ++ ['/'] else []) ++ r ++ ['$'] := by
  rw [hm s r _ (C31_lemmaPrefix_spec r)]
  cases w with
  | none => simp [writeUnit, mergeWblanks]
  | some x =>
    have e : (t!"[[" ++ renderAtoms x ++ t!"]]").take ((t!"[[" ++ renderAtoms x ++ t!"]]").length - 2) = t!"[[" ++ renderAtoms x := by
      rw [List.take_append_of_le_length (by simp)]
      simp
    have e2 : (Item.wopen x).render = t!"[[" ++ renderAtoms x ++ t!"]]" := by simp [Item.render]
    simp only [Option.map_some, Option.getD_some, e2]
    unfold writeUnit mergeWblanks
    rw [if_neg (by simp), if_neg (by simp), e]
    simp

theorem NoCloseUnit.tail {i : Item} {is : List Item} (h : NoCloseUnit (i :: is)) : NoCloseUnit is := by
  cases is with
  | nil => trivial
  | cons j is => exact h.2

theorem AllAnalysed.tail {i : Item} {is : List Item} (h : AllAnalysed (i :: is)) : AllAnalysed is :=
  fun b hb => h b (by simp [hb])

theorem extracted_pending (mark : Text → Text → Text) (keep : Bool) (x : List Atom) (is : List Item) (h : ∀ b, is.head? ≠ some (.lu b)) :
    extracted mark keep (some x) is = (Item.wopen x).render ++ extracted mark keep none is := by
  cases is with
  | nil => simp [extracted]
  | cons i is => cases i <;> simp [extracted]; simp at h

theorem render_head (is : List Item) (hwf : WF is) (h : ∀ b, is.head? ≠ some (.lu b)) : (render is).head? ≠ some '^' := by
  cases is with
  | nil => simp
  | cons i is =>
    have hi := hwf i (by simp)
    cases i with
    | lu b => simp at h
    | txt a => cases a with
      | esc d => simp [Item.render, Atom.render]
      | lit c => simp [Item.render, Atom.render]; rintro rfl; exact hi.2.2 (by decide)
    | _ => simp [Item.render]

/-- **C31** Extraction on every well-formed stream in which every unit has an analysis: the text outside the units, the word-bound
blanks and the first analysis of every unit stay as they are and in the same order; each unit gets one more piece in its word-bound
blank, with the case of its surface form and of its analysis up to the tags of the last word. -/
theorem C31_extract_exact_partial (getcase : Text → Text) (keep : Bool) (mark : Text → Text → Text)
    (hm : ∀ s r p, UpToLastTags r p → mark s r = t!"c:" ++ getcase s ++ ['/'] ++ getcase p)
    (is : List Item) (hwf : WF is) (hc : NoCloseUnit is) (ha : AllAnalysed is) :
    extract getcase keep (render is) = .ok (extracted mark keep none is) := by
  have main : ∀ (k : Nat) (is : List Item), is.length ≤ k → WF is → NoCloseUnit is → AllAnalysed is →
      ∀ n, is.length < n → extractLoop getcase keep n ⟨render is, false⟩ = .ok (extracted mark keep none is) := by
    intro k
    induction k with
    | zero =>
      intro is hl _ _ _ n hn
      have : is = [] := by simpa using hl
      subst this
      obtain ⟨n, rfl⟩ : ∃ m, n = m + 1 := ⟨n - 1, by omega⟩
      simp [extractLoop_nil, extracted]
    | succ k ih =>
      intro is hl hwf hc ha n hn
      cases is with
      | nil =>
        obtain ⟨n, rfl⟩ : ∃ m, n = m + 1 := ⟨n - 1, by omega⟩
        simp [extractLoop_nil, extracted]
      | cons i is =>
        obtain ⟨n, rfl⟩ : ∃ m, n = m + 1 := ⟨n - 1, by omega⟩
        simp at hl hn
        have hwi := hwf i (by simp)
        have hwt : WF is := (WF_cons.1 hwf).2
        have ih1 := ih is hl hwt hc.tail ha.tail
        have unit : ∀ (w : Option (List Atom)) (b : List Atom), analysed b → ∀ o,
            writeUnit getcase keep ((w.map fun x => (Item.wopen x).render).getD []) (renderAtoms ((segs b).headD []))
              (renderAtoms ((segs b).tail.headD [])) ++ o =
            extractedUnit mark keep w b ++ o := by
          intro w b hb o
          rw [writeUnit_eq getcase keep w mark _ _ hm]
          unfold analysed at hb
          unfold extractedUnit
          match hs : segs b with
          | [] => simp [hs] at hb
          | [s] => simp [hs] at hb
          | s :: r :: rs => simp
        cases i with
        | txt a =>
          simp only [render_cons, Item.render]
          rw [extractLoop_blank _ _ _ _ (readBlank_txt a hwi _), ih1 _ (by omega)]
          simp [extracted, Item.render]
        | blank b =>
          simp only [render_cons]
          rw [extractLoop_blank _ _ _ _ (readBlank_blank b hwi _), ih1 _ (by omega)]
          simp [extracted]
        | nul =>
          simp only [render_cons, Item.render, List.cons_append, List.nil_append]
          rw [extractLoop_nul, ih1 _ (by omega)]
          simp [extracted, Item.render]
        | lu b =>
          simp only [render_cons]
          rw [extractLoop_unit _ _ _ b hwi, ih1 _ (by omega)]
          have := unit none b (ha b (by simp)) (extracted mark keep none is)
          simp only [Option.map_none, Option.getD_none] at this
          simp only [Outcome.map_ok, extracted, this]
        | wclose =>
          obtain ⟨n, rfl⟩ : ∃ m, n = m + 1 := ⟨n - 1, by omega⟩
          have hh : ∀ b, is.head? ≠ some (.lu b) := by
            intro b hb
            cases is with
            | nil => simp at hb
            | cons j is => simp at hb; exact hc.1 rfl b hb
          have e : Item.wclose.render = t!"[[" ++ renderAtoms [.lit '/'] ++ t!"]]" := rfl
          simp only [render_cons, e]
          rw [extractLoop_wb _ _ _ _ (by decide) _ (render_head is hwt hh), ih1 _ (by omega)]
          simp [extracted, Item.render, Atom.render]
        | wopen x =>
          obtain ⟨n, rfl⟩ : ∃ m, n = m + 1 := ⟨n - 1, by omega⟩
          have e : (Item.wopen x).render = t!"[[" ++ renderAtoms x ++ t!"]]" := by simp [Item.render]
          by_cases hh : ∀ b, is.head? ≠ some (.lu b)
          · simp only [render_cons, e]
            rw [extractLoop_wb _ _ _ _ hwi.1 _ (render_head is hwt hh), ih1 _ (by omega)]
            simp only [extracted, extracted_pending mark keep x is hh, e]
            simp
          · simp only [Classical.not_forall, ne_eq, Classical.not_not] at hh
            obtain ⟨b, hb⟩ := hh
            obtain ⟨is, rfl⟩ : ∃ js, is = .lu b :: js := by
              cases is with
              | nil => simp at hb
              | cons j js => simp at hb; exact ⟨js, by rw [hb]⟩
            simp at hl hn
            have hwb := hwt (.lu b) (by simp)
            have ih2 := ih is (by omega) (WF_cons.1 hwt).2 hc.tail.tail ha.tail.tail
            simp only [render_cons]
            have hab := ha b (by simp)
            rw [e, extractLoop_wbUnit _ _ _ x hwi.1 b hwb, ih2 _ (by omega)]
            have := unit (some x) b hab (extracted mark keep none is)
            simp only [Option.map_some, Option.getD_some, e] at this
            simp only [Outcome.map_ok, extracted, this]
            simp
  have hlen : is.length ≤ (render is).length := by
    clear main hc ha hwf
    induction is with
    | nil => simp
    | cons i is ih =>
      have : 1 ≤ i.render.length := by
        cases i with
        | txt a => cases a <;> simp [Item.render, Atom.render]
        | _ => simp [Item.render]
      simp; omega
  exact main is.length is (Nat.le_refl _) hwf hc ha _ (by omega)

/-! ## It always ends -/

theorem readBlank_le (m : Bool) (t : Text) : (readBlank m t).2.rest.length ≤ t.length := by
  fun_induction readBlank m t <;> simp_all <;> omega

theorem finishWBlank_le (t : Text) : (finishWBlank t).2.rest.length ≤ t.length := by
  fun_induction finishWBlank t <;> simp_all <;> omega

theorem readUntilSlash_le (t : Text) : (readUntilSlash t).2.rest.length ≤ t.length := by
  fun_induction readUntilSlash t <;> simp_all <;> omega

theorem skipReadings_le (n : Nat) (i : In) : (skipReadings n i).rest.length ≤ i.rest.length := by
  induction n generalizing i with
  | zero => simp [skipReadings]
  | succ n ih =>
    simp only [skipReadings]
    split
    · simp
    · split
      · simp
      · rename_i c r hr
        split
        · simp
        · have h1 := ih (readUntilSlash r).2
          have h2 := readUntilSlash_le r
          rw [hr]
          simp only [List.length_cons]
          omega

theorem readReading_le (i : In) : (readReading i).2.rest.length ≤ i.rest.length := by
  unfold readReading
  split
  · rename_i r hr
    have h3 := readUntilSlash_le r
    have h4 := skipReadings_le ((readUntilSlash r).2.rest.length + 1) (readUntilSlash r).2
    rw [hr]
    simp only [List.length_cons]
    omega
  · exact Nat.le_refl _

theorem skipDollar_le (i : In) : (skipDollar i).rest.length ≤ i.rest.length := by
  unfold skipDollar
  split
  · rename_i r hr
    rw [hr]; simp
  · exact Nat.le_refl _

theorem readLu_le (t : Text) : (readLu t).2.2.rest.length ≤ t.length :=
  Nat.le_trans (skipDollar_le _) (Nat.le_trans (readReading_le _) (readUntilSlash_le t))

theorem readBlank_stop (m : Bool) (t : Text) (c : Char) (r : Text) (h : (readBlank m t).2.rest = c :: r) :
    c = '^' ∨ c = '\x00' ∨ c = '[' := by
  fun_induction readBlank m t <;> simp_all
  · rcases ‹_ ∨ _› with h' | h' <;> simp [h']
  · simp [← h.1]

/-- **C31** On every input, also a broken one, extraction ends normally. -/
theorem C31_extract_total (getcase : Text → Text) (keep : Bool) (t : Text) : ∃ o, extract getcase keep t = .ok o := by
  have main : ∀ (n : Nat) (i : In), i.rest.length < n → ∃ o, extractLoop getcase keep n i = .ok o := by
    intro n
    induction n with
    | zero => intro i h; omega
    | succ n ih =>
      intro i h
      rw [extractLoop]
      split
      · exact ⟨_, rfl⟩
      · have h1 := readBlank_le false i.rest
        have h0 := readBlank_stop false i.rest
        generalize readBlank false i.rest = p at h1 h0
        obtain ⟨b, i1⟩ := p
        simp only at h1 ⊢
        split
        · exact ⟨_, rfl⟩
        · rename_i c r hr
          rw [hr] at h1
          simp only [List.length_cons] at h1
          split
          · obtain ⟨o, ho⟩ := ih ⟨r, false⟩ (by simp only; omega)
            exact ⟨_, by rw [ho]; rfl⟩
          · have h2 : (if c = '[' then (t!"[[" ++ (finishWBlank r.tail).1, (finishWBlank r.tail).2) else (([] : Text), i1)).2.rest.length
                ≤ (if c = '[' then r.length else r.length + 1) := by
              split
              · have h3 := finishWBlank_le r.tail
                simp only [List.length_tail] at h3
                simp only
                omega
              · simp [hr]
            have h2' : c ≠ '[' → (if c = '[' then (t!"[[" ++ (finishWBlank r.tail).1, (finishWBlank r.tail).2) else (([] : Text), i1)).2.rest = c :: r := by
              intro hc; simp [hc, hr]
            have hstop : c ≠ '[' → c = '^' := by
              intro hc
              rcases h0 c r hr with h | h | h
              · exact h
              · exact absurd h (by assumption)
              · exact absurd h hc
            revert h2 h2'
            generalize (if c = '[' then (t!"[[" ++ (finishWBlank r.tail).1, (finishWBlank r.tail).2) else (([] : Text), i1)) = q
            obtain ⟨w, i2⟩ := q
            intro h2 h2'
            simp only at h2 h2' ⊢
            split
            · rename_i r' hr'
              have h4 := readLu_le r'
              rw [hr'] at h2
              simp only [List.length_cons] at h2
              generalize readLu r' = z at h4
              obtain ⟨surf, reading, i3⟩ := z
              simp only at h4 ⊢
              obtain ⟨o, ho⟩ := ih i3 (by split at h2 <;> omega)
              exact ⟨_, by rw [ho]; rfl⟩
            · exact ⟨_, rfl⟩
            · rename_i hne _
              obtain ⟨o, ho⟩ := ih i2 (by
                by_cases hc : c = '['
                · rw [if_pos hc] at h2; omega
                · exact absurd (by rw [h2' hc, hstop hc]) (hne r))
              exact ⟨_, by rw [ho]; rfl⟩
  exact main _ _ (Nat.lt_succ_self _)

end Verif.Caps
