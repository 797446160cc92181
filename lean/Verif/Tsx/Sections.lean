import Verif.Tsx.Read
namespace Verif.Tsx
open Verif.Tagger (Tags sinsert)

/-! ### Forbidden sequences -/

theorem forbid_skips : SkipsText forbidBody := by
  intro n r cur d h
  rcases h with h | h <;> simp [forbidBody, step, isText, h]

def forbidF (num : Text → Nat) (d : Data) (p : Text × Text) : Data := { d with forbid := d.forbid ++ [(num p.1, num p.2)] }

theorem labelItem_gap (g : List Node) (hg : Gap g) (n cur : Node) (tl : List Node) (d : Data) (l : Text) (i : Nat) (hn : Start t!"label-item" n) (hl : n.attrib t!"label" = l)
    (hi : mapFind d.tagIndex (tagKey l) = some i) : labelItem ⟨cur, g ++ n :: tl, d⟩ = .ok (⟨n, tl, d⟩, i) := by
  have h := nextTag_gap g hg cur n tl d (not_text hn.1 (by decide) (by decide))
  obtain ⟨t, h1, h2⟩ := bind_eq_ok h
  simp [labelItem, h1, h2, hn.1, hl, tagRef_some hi]

theorem loop_forbid (num : Text → Nat) (ps : List (Text × Text)) (ns : List Node) (hw : WForbid ps ns) (d : Data)
    (hl : ∀ p ∈ ps, mapFind d.tagIndex (tagKey p.1) = some (num p.1) ∧ mapFind d.tagIndex (tagKey p.2) = some (num p.2)) :
    ∃ n c, Start t!"forbid" n ∧ ns = n :: c ∧ ∀ tl, ∃ e, procForbid ⟨n, c ++ tl, d⟩ = .ok ⟨e, tl, ps.foldl (forbidF num) d⟩ := by
  obtain ⟨n, e, c, h1, _, h3, h4⟩ := hw
  refine ⟨n, c ++ [e], h1, rfl, fun tl => ⟨e, ?_⟩⟩
  have hR : ∀ (a : Text × Text) (ns : List Node), Elem t!"label-sequence" (fun _ => True) (WPair a) ns → ∀ d cur tl,
      (mapFind d.tagIndex (tagKey a.1) = some (num a.1) ∧ mapFind d.tagIndex (tagKey a.2) = some (num a.2)) → Going t!"forbid" cur → ∃ cur', Going t!"forbid" cur' ∧
      loop (untilEnd t!"forbid") forbidBody ⟨cur, ns ++ tl, d⟩ = loop (untilEnd t!"forbid") forbidBody ⟨cur', tl, forbidF num d a⟩ := by
    rintro ⟨x, y⟩ ns hw d cur tl ⟨hx, hy⟩ hc
    obtain ⟨m, e, c, k1, _, k3, k4⟩ := hw
    obtain ⟨n1, n2, g1, g2, g3, hg1, hg2, hg3, a1, a2, b1, b2⟩ := k3
    have e1 : loop (untilEnd t!"forbid") forbidBody ⟨cur, m :: (g1 ++ n1 :: (g2 ++ n2 :: (g3 ++ e :: tl))), d⟩ =
        loop (untilEnd t!"forbid") forbidBody ⟨n2, g3 ++ e :: tl, forbidF num d (x, y)⟩ := by
      refine loop_step forbidBody_dec (hc.until _ _) ?_
      have q1 := labelItem_gap g1 hg1 n1 m (g2 ++ n2 :: (g3 ++ e :: tl)) d x _ a1 a2 hx
      have q2 := labelItem_gap g2 hg2 n2 n1 (g3 ++ e :: tl) d y _ b1 b2 hy
      simp [forbidBody, step, k1.1, k1.2, procLabelSequence, q1, q2, forbidF]
    obtain ⟨c2, hc2, e2⟩ := loop_gap forbidBody_dec forbid_skips g3 hg3 n2 (e :: tl) (forbidF num d (x, y)) (x := t!"forbid") (.inl b1.2)
    refine ⟨e, .inr (by rw [k4.1]; decide), ?_⟩
    rw [show m :: (g1 ++ n1 :: (g2 ++ n2 :: g3)) ++ [e] ++ tl = m :: (g1 ++ n1 :: (g2 ++ n2 :: (g3 ++ e :: tl))) by simp, e1, e2]
    refine loop_step forbidBody_dec (hc2.until _ _) ?_
    simp [forbidBody, step, k4.1, k4.2]
  obtain ⟨c', hc', h⟩ := loop_many forbidBody_dec forbid_skips (f := forbidF num) hR ps c h3 d n
    (e :: tl) (.of_inv (fun d' => d'.tagIndex = d.tagIndex) ps d rfl (fun d' a ha h => ⟨by rw [h]; exact hl a ha, h⟩)) (.inl h1.2)
  rw [show c ++ [e] ++ tl = c ++ e :: tl by simp, procForbid, h]
  refine loop_break (hc'.until _ _) ?_
  simp [forbidBody, step, h4.1, h4.2, isText]

/-! ### Preferences and discards -/

theorem prefer_skips : SkipsText preferBody := by
  intro n r cur d h
  rcases h with h | h <;> simp [preferBody, step, isText, h]

def preferF (d : Data) (ts : List Text) : Data := { d with prefer := d.prefer ++ [angled (dotted ts)] }

theorem loop_prefer (rs : List (List Text)) (ns : List Node) (hw : WTags t!"preferences" t!"prefer" rs ns) (d : Data) :
    ∃ n c, Start t!"preferences" n ∧ ns = n :: c ∧ ∀ tl, ∃ e, procPreferences ⟨n, c ++ tl, d⟩ = .ok ⟨e, tl, rs.foldl preferF d⟩ := by
  obtain ⟨n, e, c, h1, _, h3, h4⟩ := hw
  refine ⟨n, c ++ [e], h1, rfl, fun tl => ⟨e, ?_⟩⟩
  obtain ⟨c', hc', h⟩ := loop_many (x := t!"preferences") preferBody_dec prefer_skips (f := preferF) (Pre := fun _ _ => True) (by
      intro a ns hw d cur tl _ hc
      refine loop_empty preferBody_dec prefer_skips (by decide) ?_ ?_ hw cur tl hc
      · intro n r cur k1 k2
        have k2' : n.attrib t!"tags" = dotted a := k2
        simp [preferBody, step, k1.1, k1.2, preferF, k2']
      · intro n r cur k1
        simp [preferBody, step, k1.1, k1.2]) rs c h3 d n
    (e :: tl) (.of_inv (fun _ => True) rs d trivial (fun d' a ha h => ⟨trivial, trivial⟩)) (.inl h1.2)
  rw [show c ++ [e] ++ tl = c ++ e :: tl by simp, procPreferences, h]
  refine loop_break (hc'.until _ _) ?_
  simp [preferBody, step, h4.1, h4.2, isText]

theorem discard_skips : SkipsText discardBody := by
  intro n r cur d h
  rcases h with h | h <;> simp [discardBody, step, isText, h]

def discardF (d : Data) (ts : List Text) : Data := { d with discard := d.discard ++ [angled (dotted ts)] }

theorem loop_discard (rs : List (List Text)) (ns : List Node) (hw : WTags t!"discard-on-ambiguity" t!"discard" rs ns) (d : Data) :
    ∃ n c, Start t!"discard-on-ambiguity" n ∧ ns = n :: c ∧ ∀ tl, ∃ e, procDiscard ⟨n, c ++ tl, d⟩ = .ok ⟨e, tl, rs.foldl discardF d⟩ := by
  obtain ⟨n, e, c, h1, _, h3, h4⟩ := hw
  refine ⟨n, c ++ [e], h1, rfl, fun tl => ⟨e, ?_⟩⟩
  obtain ⟨c', hc', h⟩ := loop_many (x := t!"discard-on-ambiguity") discardBody_dec discard_skips (f := discardF) (Pre := fun _ _ => True) (by
      intro a ns hw d cur tl _ hc
      refine loop_empty discardBody_dec discard_skips (by decide) ?_ ?_ hw cur tl hc
      · intro n r cur k1 k2
        have k2' : n.attrib t!"tags" = dotted a := k2
        simp [discardBody, step, k1.1, k1.2, discardF, k2']
      · intro n r cur k1
        simp [discardBody, step, k1.1, k1.2]) rs c h3 d n
    (e :: tl) (.of_inv (fun _ => True) rs d trivial (fun d' a ha h => ⟨trivial, trivial⟩)) (.inl h1.2)
  rw [show c ++ [e] ++ tl = c ++ e :: tl by simp, procDiscard, h]
  refine loop_break (hc'.until _ _) ?_
  simp [discardBody, step, h4.1, h4.2, isText]

/-! ### Enforced sequences -/

def GoingE (n : Node) : Prop := Going t!"enforce-rules" n

theorem enforce_gap : ∀ (g : List Node), Gap g → ∀ aux cur tl d, GoingE cur → ∃ cur', GoingE cur' ∧
    enforceFrom aux ⟨cur, g ++ tl, d⟩ = enforceFrom aux ⟨cur', tl, d⟩ := by
  intro g
  induction g with
  | nil => intro _ aux cur tl d hg; exact ⟨cur, hg, rfl⟩
  | cons n g ih =>
    intro hgap aux cur tl d hg
    obtain ⟨h1, h2⟩ := hgap n (by simp)
    obtain ⟨cur', hg', he⟩ := ih (fun m hm => hgap m (by simp [hm])) aux n tl d (.inl h2)
    refine ⟨cur', hg', Eq.trans ?_ he⟩
    refine enforce_step (hg.until _ _) (step_cons _ _ _ _) ?_
    rcases h1 with h | h <;> simp [enforceNode, isText, h]

/-- Going through a list, `f` being what a thing does to the rule under construction and `F` to the data. -/
theorem enforce_many {α : Type} {R : α → List Node → Prop} {f : Nat × List Nat → α → Nat × List Nat} {F : Data → α → Data} {Ok : Data → α → Prop}
    (hok : ∀ d a b, Ok d a → Ok (F d b) a) {C : Nat × List Nat → Prop} (hC : ∀ aux a, C aux → C (f aux a))
    (hR : ∀ a ns, R a ns → ∀ aux d cur tl, C aux → Ok d a → GoingE cur → ∃ cur', GoingE cur' ∧
      enforceFrom aux ⟨cur, ns ++ tl, d⟩ = enforceFrom (f aux a) ⟨cur', tl, F d a⟩) :
    ∀ as ns, Many R as ns → ∀ aux d cur tl, C aux → (∀ a ∈ as, Ok d a) → GoingE cur → ∃ cur', GoingE cur' ∧
      enforceFrom aux ⟨cur, ns ++ tl, d⟩ = enforceFrom (as.foldl f aux) ⟨cur', tl, as.foldl F d⟩ := by
  intro as ns hm
  induction hm with
  | nil g hg => intro aux d cur tl _ _ hc; exact enforce_gap g hg aux cur tl d hc
  | cons a as g ns r hg ha _ ih =>
    intro aux d cur tl hx hp hc
    obtain ⟨c1, hc1, e1⟩ := enforce_gap g hg aux cur (ns ++ (r ++ tl)) d hc
    obtain ⟨c2, hc2, e2⟩ := hR a ns ha aux d c1 (r ++ tl) hx (hp a (by simp)) hc1
    obtain ⟨c3, hc3, e3⟩ := ih (f aux a) (F d a) c2 tl (hC _ _ hx) (fun b hb => hok _ _ _ (hp b (by simp [hb]))) hc2
    refine ⟨c3, hc3, ?_⟩
    rw [show g ++ ns ++ r ++ tl = g ++ (ns ++ (r ++ tl)) by simp]
    exact e1.trans (e2.trans e3)

theorem enforce_label (num : Text → Nat) (l : Text) (ns : List Node) (hw : WLabel l ns) (aux : Nat × List Nat) (d : Data) (cur : Node) (tl : List Node)
    (hl : mapFind d.tagIndex (tagKey l) = some (num l)) (hc : GoingE cur) :
    ∃ cur', GoingE cur' ∧ enforceFrom aux ⟨cur, ns ++ tl, d⟩ = enforceFrom (aux.1, aux.2 ++ [num l]) ⟨cur', tl, d⟩ := by
  cases hw with
  | short n h1 h2 =>
    refine ⟨n, .inl h1.2, enforce_step (hc.until _ _) (step_cons _ _ _ _) ?_⟩
    simp [enforceNode, h1.1, h1.2, h2, tagRef_some hl]
  | long n e g h1 h2 hg h3 =>
    obtain ⟨c, hc', e1⟩ := enforce_gap g hg (aux.1, aux.2 ++ [num l]) n (e :: tl) d (.inl h1.2)
    refine ⟨e, .inr (by rw [h3.1]; decide), ?_⟩
    rw [show n :: g ++ [e] ++ tl = n :: (g ++ e :: tl) by simp]
    refine (enforce_step (hc.until _ _) (step_cons _ _ _ _) (u := ⟨n, g ++ e :: tl, d⟩) (aux' := (aux.1, aux.2 ++ [num l])) ?_).trans
      (e1.trans (enforce_step (hc'.until _ _) (step_cons _ _ _ _) ?_))
    · simp [enforceNode, h1.1, h1.2, h2, tagRef_some hl]
    · simp [enforceNode, h3.1, h3.2]

theorem foldl_labels (num : Text → Nat) (ls : List Text) (aux : Nat × List Nat) :
    ls.foldl (fun (aux : Nat × List Nat) l => (aux.1, aux.2 ++ [num l])) aux = (aux.1, aux.2 ++ ls.map num) := by
  induction ls generalizing aux with
  | nil => simp
  | cons l ls ih => simp [ih]

theorem foldl_same {α β : Type} (as : List α) (d : β) : as.foldl (fun d _ => d) d = d := by
  induction as with
  | nil => rfl
  | cons a as ih => exact ih

theorem enforce_set (num : Text → Nat) (ls : List Text) (ns : List Node) (hw : Elem t!"label-set" (fun _ => True) (Many WLabel ls) ns) (aux : Nat × List Nat) (d : Data)
    (cur : Node) (tl : List Node) (hl : ∀ l ∈ ls, mapFind d.tagIndex (tagKey l) = some (num l)) (hc : GoingE cur) :
    ∃ cur', GoingE cur' ∧ enforceFrom aux ⟨cur, ns ++ tl, d⟩ = enforceFrom (aux.1, aux.2 ++ ls.map num) ⟨cur', tl, d⟩ := by
  obtain ⟨n, e, c, h1, _, h3, h4⟩ := hw
  obtain ⟨c2, hc2, e2⟩ := enforce_many (f := fun aux l => (aux.1, aux.2 ++ [num l])) (F := fun d _ => d) (Ok := fun d l => mapFind d.tagIndex (tagKey l) = some (num l))
    (fun _ _ _ h => h) (C := fun _ => True) (fun _ _ h => h) (fun a ns ha aux d cur tl _ hp hc => enforce_label num a ns ha aux d cur tl hp hc) ls c h3 aux d n (e :: tl) trivial hl (.inl h1.2)
  rw [foldl_labels, foldl_same] at e2
  refine ⟨e, .inr (by rw [h4.1]; decide), ?_⟩
  rw [show n :: c ++ [e] ++ tl = n :: (c ++ e :: tl) by simp]
  refine (enforce_step (hc.until _ _) (step_cons _ _ _ _) (u := ⟨n, c ++ e :: tl, d⟩) (aux' := aux) ?_).trans (e2.trans (enforce_step (hc2.until _ _) (step_cons _ _ _ _) ?_))
  · simp [enforceNode, h1.1]
  · simp [enforceNode, h4.1]

def enforceF (num : Text → Nat) (d : Data) (r : Text × List Text) : Data := { d with enforce := d.enforce ++ [(num r.1, r.2.map num)] }

def EnforceOk (num : Text → Nat) (d : Data) (r : Text × List Text) : Prop :=
  mapFind d.tagIndex (tagKey r.1) = some (num r.1) ∧ ∀ l ∈ r.2, mapFind d.tagIndex (tagKey l) = some (num l)

theorem enforce_rule (num : Text → Nat) (r : Text × List Text) (ns : List Node) (hw : Elem t!"enforce-after" (fun n => n.attrib t!"label" = r.1)
      (Many (fun ls => Elem t!"label-set" (fun _ => True) (Many WLabel ls)) [r.2]) ns) (aux : Nat × List Nat) (d : Data)
    (cur : Node) (tl : List Node) (ha : aux.2 = []) (hl : EnforceOk num d r) (hc : GoingE cur) :
    ∃ cur', GoingE cur' ∧ enforceFrom aux ⟨cur, ns ++ tl, d⟩ = enforceFrom (num r.1, []) ⟨cur', tl, enforceF num d r⟩ := by
  obtain ⟨n, e, c, h1, h2, h3, h4⟩ := hw
  obtain ⟨k, aux2⟩ := aux
  subst ha
  obtain ⟨c2, hc2, e2⟩ := enforce_many (f := fun aux ls => (aux.1, aux.2 ++ ls.map num)) (F := fun d _ => d)
    (Ok := fun d ls => ∀ l ∈ ls, mapFind d.tagIndex (tagKey l) = some (num l))
    (fun _ _ _ h => h) (C := fun _ => True) (fun _ _ h => h) (fun a ns ha aux d cur tl _ hp hc => enforce_set num a ns ha aux d cur tl hp hc) [r.2] c h3 (num r.1, []) d n (e :: tl)
    trivial (by simpa using hl.2) (.inl h1.2)
  refine ⟨e, .inr (by rw [h4.1]; decide), ?_⟩
  rw [show n :: c ++ [e] ++ tl = n :: (c ++ e :: tl) by simp]
  refine (enforce_step (hc.until _ _) (step_cons _ _ _ _) (u := ⟨n, c ++ e :: tl, d⟩) (aux' := (num r.1, [])) ?_).trans (e2.trans (enforce_step (hc2.until _ _) (step_cons _ _ _ _) ?_))
  · simp [enforceNode, h1.1, h1.2, h2, tagRef_some hl.1]
  · simp [enforceNode, h4.1, h4.2, enforceF]

theorem read_enforce (num : Text → Nat) (rs : List (Text × List Text)) (ns : List Node) (hw : WEnforce rs ns) (d : Data) (hl : ∀ r ∈ rs, EnforceOk num d r) :
    ∃ n c, Start t!"enforce-rules" n ∧ ns = n :: c ∧ ∀ tl, ∃ e, procEnforce ⟨n, c ++ tl, d⟩ = .ok ⟨e, tl, rs.foldl (enforceF num) d⟩ := by
  obtain ⟨n, e, c, h1, _, h3, h4⟩ := hw
  refine ⟨n, c ++ [e], h1, rfl, fun tl => ⟨e, ?_⟩⟩
  obtain ⟨c2, hc2, e2⟩ := enforce_many (f := fun _ (r : Text × List Text) => (num r.1, [])) (F := enforceF num) (Ok := EnforceOk num)
    (fun _ _ _ h => h) (C := fun aux => aux.2 = []) (fun _ _ _ => rfl) (fun a ns ha aux d cur tl hx hp hc => enforce_rule num a ns ha aux d cur tl hx hp hc) rs c h3 (0, []) d n
    (e :: tl) rfl hl (.inl h1.2)
  show enforceFrom (0, []) _ = _
  rw [show c ++ [e] ++ tl = c ++ e :: tl by simp, e2]
  refine enforce_break (hc2.until _ _) (step_cons _ _ _ _) ?_
  simp [enforceNode, h4.1, h4.2, isText]

end Verif.Tsx
