import Verif.Tsx.Props
/-!
# Any file

What holds of every sequence of nodes the reader accepts, whatever it is, and what it does with definitions that are wrong.
-/
namespace Verif.Tsx
open Verif.Tagger (Tags sinsert Sorted)
open Verif.Tagger.Coll (mem_sinsert)

/-- The numbers in a call of `PatternList`. -/
def PatOp.nums : PatOp → List Nat
  | .item i _ _ => [i]
  | .label i j => [i, j]
  | .beginSeq => []
  | .endSeq => []

/-- C80: reading always ends, with the data or with an error, whatever the file is. -/
theorem C80_terminates (d0 : Data) (ns : List Node) : parse d0 ns = .fail ∨ ∃ d, parse d0 ns = .ok d := by
  show Ends _
  unfold parse
  refine (clearTagIndex_ends _).bind fun _ _ => (procTagset_ends _).bind fun _ _ => (nextTag_ends _).bind fun _ _ =>
    (optSection_ends (fun s => loop_ends forbidBody_dec forbidBody_ends s) _).bind fun _ _ => (optSection_ends procEnforce_ends _).bind fun _ _ =>
    (optSection_ends (fun s => loop_ends preferBody_dec preferBody_ends s) _).bind fun s _ => Ends.bind ?_ (fun _ _ => .ok _)
  unfold discardSection
  repeat' split
  · exact .ok _
  · exact loop_ends discardBody_dec discardBody_ends _
  · exact .ok _

/-- What holds of the data while a file is read: `names` are the tags defined so far. -/
structure Inv (d0 : Data) (names : List Text) (d : Data) : Prop where
  tags : d.arrayTags = fixedTags.map tagKey ++ names
  nodup : (fixedTags ++ names).Nodup
  index : ∀ l ∈ fixedTags ++ names, mapFind d.tagIndex (tagKey l) = some ((fixedTags ++ names).idxOf l)
  other : ∀ l, l ∉ fixedTags ++ names → ∀ i, mapFind d.tagIndex (tagKey l) = some i → i = 0
  openClass : ∀ i ∈ d.openClass, i < 7 + names.length
  openSet : Sorted d.openClass
  forbid : ∀ p ∈ d.forbid, p.1 < 7 + names.length ∧ p.2 < 7 + names.length
  enforce : ∀ r ∈ d.enforce, r.1 < 7 + names.length ∧ ∀ j ∈ r.2, j < 7 + names.length
  plist : ∃ ops, d.plist = d0.plist ++ ops ∧ ∀ o ∈ ops, ∀ i ∈ o.nums, i < 7 + names.length
  states : 7 + names.length ≤ d.tagIndex.length

def Good (d0 : Data) (s : S) : Prop := ∃ names, Inv d0 names s.data

theorem Inv.ref_lt {d0 d : Data} {names : List Text} (h : Inv d0 names d) (l : Text) : (tagRef d l).2 < 7 + names.length := by
  unfold tagRef
  split
  · rename_i i hi
    by_cases hl : l ∈ fixedTags ++ names
    · rw [h.index l hl, Option.some.injEq] at hi
      have := List.idxOf_lt_length_of_mem hl
      simp [fixedTags] at this hi ⊢
      omega
    · have := h.other l hl i hi
      subst this; show 0 < _; omega
  · show 0 < _; omega

theorem Inv.ref {d0 d : Data} {names : List Text} (h : Inv d0 names d) (l : Text) : Inv d0 names (tagRef d l).1 := by
  unfold tagRef
  split
  · exact h
  · rename_i hn
    refine { h with index := ?_, other := ?_, states := ?_ }
    · intro k hk
      exact find_append_some (h.index k hk) _
    · intro k hk i hi
      cases hm : mapFind d.tagIndex (tagKey k) with
      | some j =>
        have h1 := find_append_some hm [(tagKey l, 0)]
        have : some j = some i := h1.symm.trans hi
        cases this
        exact h.other k hk _ hm
      | none =>
        have h1 : mapFind (d.tagIndex ++ [(tagKey l, 0)]) (tagKey k) = some i := hi
        rw [find_append_none hm] at h1
        by_cases hlk : tagKey l = tagKey k
        · simp only [mapFind, List.find?_cons, hlk, decide_true, Option.map_some, Option.some.injEq] at h1
          exact h1.symm
        · simp [mapFind, hlk] at h1
    · show _ ≤ (d.tagIndex ++ [(tagKey l, 0)]).length
      have := h.states
      simp only [List.length_append, List.length_cons, List.length_nil]; omega

theorem Inv.op {d0 d : Data} {names : List Text} (h : Inv d0 names d) (o : PatOp) (ho : ∀ i ∈ o.nums, i < 7 + names.length) :
    Inv d0 names { d with plist := d.plist ++ [o] } := by
  obtain ⟨ops, h1, h2⟩ := h.plist
  refine { h with plist := ⟨ops ++ [o], by simp [h1], ?_⟩ }
  intro x hx
  rcases List.mem_append.1 hx with hx | hx
  · exact h2 x hx
  · rw [List.mem_singleton.1 hx]; exact ho

theorem Good.same {d0 : Data} {s s' : S} (h : Good d0 s) (e : s'.data = s.data) : Good d0 s' := by
  obtain ⟨n, h⟩ := h; exact ⟨n, by rw [e]; exact h⟩

theorem Good.step {d0 : Data} {s s' : S} (h : Good d0 s) (e : step s = .ok s') : Good d0 s' := h.same (step_data e)

theorem Good.item {d0 : Data} {s : S} (h : Good d0 s) (n : Text) : Good d0 (addItem n s) := by
  obtain ⟨ns, h⟩ := h
  exact ⟨ns, (h.ref n).op _ (by intro i hi; rw [List.mem_singleton.1 hi]; exact h.ref_lt n)⟩

theorem Good.label {d0 : Data} {s : S} (h : Good d0 s) (n : Text) : Good d0 (addLabel n s) := by
  obtain ⟨ns, h⟩ := h
  refine ⟨ns, ((h.ref n).ref _).op _ ?_⟩
  intro i hi
  simp only [PatOp.nums, List.mem_cons, List.not_mem_nil, or_false] at hi
  rcases hi with rfl | rfl
  · exact h.ref_lt n
  · exact (h.ref n).ref_lt _

theorem Good.addOp {d0 : Data} {s : S} (h : Good d0 s) (o : PatOp) (ho : o.nums = []) : Good d0 (addOp o s) := by
  obtain ⟨ns, h⟩ := h
  exact ⟨ns, h.op o (by rw [ho]; intro i hi; cases hi)⟩

theorem Inv.grow {d0 d d' : Data} {names : List Text} (h : Inv d0 names d) (name : Text) (hd : newDefTag d name = .ok d') :
    Inv d0 (names ++ [name]) d' := by
  unfold newDefTag at hd
  split at hd
  · cases hd
  · rename_i hn
    cases hd
    have hn' : mapFind d.tagIndex (tagKey name) = none := by simpa using hn
    have hnew : name ∉ fixedTags ++ names := by
      intro hx
      rw [h.index name hx] at hn'; cases hn'
    have hlen : d.arrayTags.length = (fixedTags ++ names).length := by rw [h.tags]; simp
    have hset : mapSet d.tagIndex (tagKey name) d.arrayTags.length = d.tagIndex ++ [(tagKey name, d.arrayTags.length)] := by simp [mapSet, hn']
    have h7 : fixedTags.length = 7 := rfl
    constructor
    · simp [h.tags]
    · rw [← List.append_assoc]
      exact List.nodup_append.2 ⟨h.nodup, by simp, by intro a ha b hb; rw [List.mem_singleton.1 hb]; intro e; exact hnew (e ▸ ha)⟩
    · intro l hl
      show mapFind (mapSet _ _ _) _ = _
      rw [hset]
      rw [← List.append_assoc] at hl ⊢
      rcases List.mem_append.1 hl with hl | hl
      · rw [idxOf_append_of_mem hl]
        exact find_append_some (h.index l hl) _
      · rw [List.mem_singleton.1 hl, find_append_none hn', idxOf_append_of_notMem hnew, hlen]
        simp [mapFind]
    · intro l hl i hi
      change mapFind (mapSet _ _ _) _ = _ at hi
      rw [hset] at hi
      rw [← List.append_assoc, List.mem_append, not_or, List.mem_singleton] at hl
      cases hm : mapFind d.tagIndex (tagKey l) with
      | some j =>
        have := (find_append_some hm [(tagKey name, d.arrayTags.length)]).symm.trans hi
        cases this
        exact h.other l hl.1 _ hm
      | none =>
        rw [find_append_none hm] at hi
        have : ¬ name = l := fun e => hl.2 e.symm
        simp [mapFind, tagKey_inj, this] at hi
    · intro i hi
      have := h.openClass i hi
      simp only [List.length_append, List.length_cons, List.length_nil]; omega
    · exact h.openSet
    · intro p hp
      have := h.forbid p hp
      simp only [List.length_append, List.length_cons, List.length_nil]; omega
    · intro r hr
      have := h.enforce r hr
      refine ⟨by simp only [List.length_append, List.length_cons, List.length_nil]; omega, fun j hj => ?_⟩
      have := this.2 j hj
      simp only [List.length_append, List.length_cons, List.length_nil]; omega
    · obtain ⟨ops, h1, h2⟩ := h.plist
      refine ⟨ops, h1, fun o ho i hi => ?_⟩
      have := h2 o ho i hi
      simp only [List.length_append, List.length_cons, List.length_nil]; omega
    · show _ ≤ (mapSet _ _ _).length
      rw [hset]
      have := h.states
      simp only [List.length_append, List.length_cons, List.length_nil]; omega

theorem Good.defTag {d0 : Data} {s s' : S} (h : Good d0 s) (e : defTag s = .ok s') : Good d0 s' := by
  obtain ⟨ns, h⟩ := h
  unfold Tsx.defTag at e
  obtain ⟨d, h1, e⟩ := bind_eq_ok e
  have hd := h.grow _ h1
  split at e
  · cases e; exact ⟨_, hd⟩
  · cases e
    refine ⟨ns ++ [s.cur.attrib t!"name"], ?_⟩
    have hr := hd.ref (s.cur.attrib t!"name")
    have hl := hd.ref_lt (s.cur.attrib t!"name")
    refine { hr with openClass := ?_, openSet := ?_ }
    · intro i hi
      rcases (mem_sinsert _ _ _).1 hi with rfl | hi
      · exact hl
      · exact hr.openClass i hi
    · exact sorted_sinsert _ _ hr.openSet

theorem map_false' {o : Outcome S} {x : S × Bool} (h : o.map (·, false) = .ok x) : o = .ok x.1 := by
  cases o <;> simp [Outcome.map] at h
  subst h; rfl

theorem Good.proc_label {d0 : Data} {s s' : S} (h : Good d0 s) (e : procDefLabel s = .ok s') : Good d0 s' := by
  obtain ⟨t, h1, e⟩ := bind_eq_ok e
  refine loop_inv (Good d0) ?_ (h.defTag h1) e
  intro a a' b ha hb
  obtain ⟨c, h2, hb⟩ := bind_eq_ok hb
  have hc := ha.step h2
  repeat' split at hb
  all_goals first
    | (cases hb; exact hc)
    | (cases hb; exact hc.item _)
    | cases hb

theorem Good.proc_mult {d0 : Data} {s s' : S} (h : Good d0 s) (e : procDefMult s = .ok s') : Good d0 s' := by
  obtain ⟨t, h1, e⟩ := bind_eq_ok e
  refine loop_inv (Good d0) ?_ (h.defTag h1) e
  intro a a' b ha hb
  obtain ⟨c, h2, hb⟩ := bind_eq_ok hb
  have hc := ha.step h2
  split at hb
  · split at hb
    · cases hb; exact hc
    · obtain ⟨u, h3, hb⟩ := bind_eq_ok hb
      cases hb
      refine Good.addOp ?_ _ rfl
      refine loop_inv (Good d0) ?_ (hc.addOp .beginSeq rfl) h3
      intro a a' b ha hb
      obtain ⟨c, h2, hb⟩ := bind_eq_ok hb
      have hc := ha.step h2
      repeat' split at hb
      all_goals first
        | (cases hb; exact hc)
        | (cases hb; exact hc.item _)
        | (cases hb; exact hc.label _)
        | cases hb
  · repeat' split at hb
    all_goals first
      | (cases hb; exact hc)
      | cases hb

theorem Good.tagset {d0 : Data} {s s' : S} (h : Good d0 s) (e : procTagset s = .ok s') : Good d0 s' := by
  obtain ⟨t, h1, e⟩ := bind_eq_ok e
  have ht : Good d0 t := by
    refine loop_inv (Good d0) ?_ h h1
    intro a a' b ha hb
    obtain ⟨c, h2, hb⟩ := bind_eq_ok hb
    have hc := ha.step h2
    split at hb
    · cases hb; exact hc
    · cases hb
  refine loop_inv (Good d0) ?_ ht e
  intro a a' b ha hb
  obtain ⟨c, h2, hb⟩ := bind_eq_ok hb
  have hc := ha.step h2
  split at hb
  · split at hb
    · cases hb; exact hc
    · exact hc.proc_label (map_false hb).1
  · split at hb
    · split at hb
      · cases hb; exact hc
      · exact hc.proc_mult (map_false hb).1
    · repeat' split at hb
      all_goals first
        | (cases hb; exact hc)
        | cases hb

theorem Good.skip {d0 : Data} {s s' : S} (h : Good d0 s) (e : skipText s = .ok s') : Good d0 s' :=
  loop_inv (Good d0) (fun _ _ _ ha hb => ha.step (map_false hb).1) h e

theorem Good.next {d0 : Data} {s s' : S} (h : Good d0 s) (e : nextTag s = .ok s') : Good d0 s' := by
  obtain ⟨t, h1, e⟩ := bind_eq_ok e
  exact (h.step h1).skip e

theorem inv_labelItem {d0 : Data} {s s' : S} {i : Nat} {ns : List Text} (h : Inv d0 ns s.data) (e : labelItem s = .ok (s', i)) :
    Inv d0 ns s'.data ∧ i < 7 + ns.length := by
  obtain ⟨t, h1, e⟩ := bind_eq_ok e
  obtain ⟨u, h2, e⟩ := bind_eq_ok e
  have ht : Inv d0 ns t.data := step_data h1 ▸ h
  have hu : Inv d0 ns u.data := loop_inv (fun s => Inv d0 ns s.data) (fun a b _ ha hb => by show Inv d0 ns b.data; rw [step_data (map_false hb).1]; exact ha) ht h2
  split at e
  · cases e; exact ⟨hu.ref _, hu.ref_lt _⟩
  · cases e

theorem Good.seq {d0 : Data} {s s' : S} (h : Good d0 s) (e : procLabelSequence s = .ok s') : Good d0 s' := by
  obtain ⟨ns, h⟩ := h
  obtain ⟨⟨t, i⟩, h1, e⟩ := bind_eq_ok e
  obtain ⟨⟨u, j⟩, h2, e⟩ := bind_eq_ok e
  obtain ⟨ht, hi⟩ := inv_labelItem h h1
  obtain ⟨hu, hj⟩ := inv_labelItem ht h2
  cases e
  refine ⟨ns, { hu with forbid := ?_ }⟩
  intro p hp
  rcases List.mem_append.1 hp with hp | hp
  · exact hu.forbid p hp
  · rw [List.mem_singleton.1 hp]; exact ⟨hi, hj⟩

theorem Good.proc_forbid {d0 : Data} {s s' : S} (h : Good d0 s) (e : procForbid s = .ok s') : Good d0 s' := by
  refine loop_inv (Good d0) ?_ h e
  intro a a' b ha hb
  obtain ⟨c, h2, hb⟩ := bind_eq_ok hb
  have hc := ha.step h2
  split at hb
  · split at hb
    · cases hb; exact hc
    · exact hc.seq (map_false hb).1
  · repeat' split at hb
    all_goals first
      | (cases hb; exact hc)
      | cases hb

theorem Good.prefer {d0 : Data} {s s' : S} (h : Good d0 s) (e : procPreferences s = .ok s') : Good d0 s' := by
  refine loop_inv (Good d0) ?_ h e
  intro a a' b ha hb
  obtain ⟨c, h2, hb⟩ := bind_eq_ok hb
  have hc := ha.step h2
  repeat' split at hb
  all_goals first
    | (cases hb; exact hc)
    | (cases hb; obtain ⟨ns, hn⟩ := hc; exact ⟨ns, { hn with }⟩)
    | cases hb

theorem Good.proc_discard {d0 : Data} {s s' : S} (h : Good d0 s) (e : procDiscard s = .ok s') : Good d0 s' := by
  refine loop_inv (Good d0) ?_ h e
  intro a a' b ha hb
  obtain ⟨c, h2, hb⟩ := bind_eq_ok hb
  have hc := ha.step h2
  repeat' split at hb
  all_goals first
    | (cases hb; exact hc)
    | (cases hb; obtain ⟨ns, hn⟩ := hc; exact ⟨ns, { hn with }⟩)
    | cases hb

theorem Good.proc_enforce {d0 : Data} {s s' : S} (h : Good d0 s) (e : procEnforce s = .ok s') : Good d0 s' := by
  obtain ⟨ns, h⟩ := h
  have h' : Inv d0 ns s.data ∧ ((0, []) : Nat × List Nat).1 < 7 + ns.length ∧ ∀ j ∈ ((0, []) : Nat × List Nat).2, j < 7 + ns.length :=
    ⟨h, by show 0 < _; omega, by intro j hj; cases hj⟩
  refine enforce_inv (fun aux s => Inv d0 ns s.data ∧ aux.1 < 7 + ns.length ∧ ∀ j ∈ aux.2, j < 7 + ns.length) ?_ (fun s => Good d0 s) ?_ ?_ h' e
  · rintro aux s t aux' u ⟨hs, h1, h2⟩ hst hn
    have ht : Inv d0 ns t.data := by rw [step_data hst]; exact hs
    simp only [enforceNode] at hn
    split at hn
    · split at hn
      · cases hn
        refine ⟨{ ht with enforce := ?_ }, h1, by intro j hj; cases hj⟩
        intro r hr
        rcases List.mem_append.1 hr with hr | hr
        · exact ht.enforce r hr
        · rw [List.mem_singleton.1 hr]; exact ⟨h1, h2⟩
      · cases hn; exact ⟨ht.ref _, ht.ref_lt _, h2⟩
    · split at hn
      · cases hn; exact ⟨ht, h1, h2⟩
      · split at hn
        · split at hn
          · cases hn; exact ⟨ht, h1, h2⟩
          · cases hn
            refine ⟨ht.ref _, h1, ?_⟩
            intro j hj
            rcases List.mem_append.1 hj with hj | hj
            · exact h2 j hj
            · rw [List.mem_singleton.1 hj]; exact ht.ref_lt _
        · split at hn
          · cases hn; exact ⟨ht, h1, h2⟩
          · repeat' split at hn
            all_goals cases hn
  · rintro aux s t u ⟨hs, _⟩ hst hn
    have ht : Inv d0 ns t.data := by rw [step_data hst]; exact hs
    refine ⟨ns, ?_⟩
    simp only [enforceNode] at hn
    repeat' split at hn
    all_goals first
      | (cases hn; exact ht)
      | cases hn
  · rintro aux s ⟨hs, _⟩
    exact ⟨ns, hs⟩

theorem Good.opt {d0 : Data} {x : Text} {p : S → Outcome S} (hp : ∀ s s', Good d0 s → p s = .ok s' → Good d0 s') {s s' : S} (h : Good d0 s)
    (e : optSection x p s = .ok s') : Good d0 s' := by
  unfold optSection at e
  split at e
  · obtain ⟨t, h1, e⟩ := bind_eq_ok e
    exact (hp _ _ h h1).next e
  · cases e; exact h

/-- C80: whatever the file is, if the reader accepts it, then there are tags `names`, each defined once and none of them one of the fixed ones, such that every
tag has its place as its number, and every number in the open class, in the forbidden pairs, in the enforced sequences and in the patterns is the number of a tag.
The number of states of the tagger (the size of the index) is at least the number of tags. -/
theorem C80_numbers (d0 d : Data) (ns : List Node) (h : parse d0 ns = .ok d) : ∃ names : List Text,
    (fixedTags ++ names).Nodup ∧ d.arrayTags = fixedTags.map (t!"TAG_" ++ ·) ++ names ++ constantNames ∧
    (∀ l ∈ fixedTags ++ names, mapFind d.tagIndex (t!"TAG_" ++ l) = some ((fixedTags ++ names).idxOf l)) ∧
    (∀ i ∈ d.openClass, i < 7 + names.length) ∧ Sorted d.openClass ∧
    (∀ p ∈ d.forbid, p.1 < 7 + names.length ∧ p.2 < 7 + names.length) ∧
    (∀ r ∈ d.enforce, r.1 < 7 + names.length ∧ ∀ j ∈ r.2, j < 7 + names.length) ∧
    (∃ ops, d.plist = d0.plist ++ ops ∧ ∀ o ∈ ops, ∀ i ∈ o.nums, i < 7 + names.length) ∧
    7 + names.length ≤ d.tagIndex.length := by
  unfold parse at h
  rw [clearTagIndex_eq, Outcome.bind_ok] at h
  obtain ⟨s1, h1, h⟩ := bind_eq_ok h
  obtain ⟨s2, h2, h⟩ := bind_eq_ok h
  obtain ⟨s3, h3, h⟩ := bind_eq_ok h
  obtain ⟨s4, h4, h⟩ := bind_eq_ok h
  obtain ⟨s5, h5, h⟩ := bind_eq_ok h
  obtain ⟨s6, h6, h⟩ := bind_eq_ok h
  have g0 : Good d0 (⟨{ name := [] }, ns, { d0 with openClass := [], forbid := [], tagIndex := idx fixedTags, arrayTags := fixedTags.map tagKey, enforce := [] }⟩ : S) := by
    refine ⟨[], ?_⟩
    constructor
    · simp
    · decide
    · intro l hl
      simp only [List.append_nil] at hl ⊢
      show mapFind (idx fixedTags) _ = _
      rw [find_idx, if_pos hl]
    · intro l hl i hi
      simp only [List.append_nil] at hl
      change mapFind (idx fixedTags) _ = _ at hi
      rw [find_idx, if_neg hl] at hi; cases hi
    · intro i hi; cases hi
    · exact List.Pairwise.nil
    · intro i hi; cases hi
    · intro i hi; cases hi
    · exact ⟨[], by simp, by intro o ho; cases ho⟩
    · show 7 + 0 ≤ (idx fixedTags).length
      decide
  have g1 := g0.tagset h1
  have g2 := g1.next h2
  have g3 := Good.opt (fun _ _ h e => h.proc_forbid e) g2 h3
  have g4 := Good.opt (fun _ _ h e => h.proc_enforce e) g3 h4
  have g5 := Good.opt (fun _ _ h e => h.prefer e) g4 h5
  have g6 : Good d0 s6 := by
    unfold discardSection at h6
    split at h6
    · split at h6
      · cases h6; exact g5
      · exact g5.proc_discard h6
    · cases h6; exact g5
  cases h
  obtain ⟨names, hi⟩ := g6
  obtain ⟨consts, hc, _⟩ := foldl_constants s6.data constantNames
  refine ⟨names, ?_⟩
  have fl (l : Text) (i : Nat) (hl : l ∈ fixedTags) (hx : fixedTags.idxOf l = i) : mapFind s6.data.tagIndex (tagKey l) = some i := by
    rw [hi.index l (by simp [hl]), idxOf_append_of_mem hl, hx]
  have f (t x : Text) (i : Nat) (e : Data) (he : e.tagIndex = s6.data.tagIndex) (ht : t ∈ fixedTags) (hi : fixedTags.idxOf t = i) :
      fixedItem e (t, x) = { e with plist := e.plist ++ [.item i [] x] } := by
    simp only [fixedItem, tagRef_some (he ▸ fl t i ht hi)]
  have hfin : finish s6.data = { s6.data with constants := consts, arrayTags := s6.data.arrayTags ++ constantNames, plist := s6.data.plist ++ fixedOps } := by
    simp only [finish, hc, List.foldl_cons, List.foldl_nil]
    rw [f t!"LPAR" t!"lpar" 0 _ ?_ (by decide) (by decide), f t!"RPAR" t!"rpar" 1 _ ?_ (by decide) (by decide), f t!"LQUEST" t!"lquest" 2 _ ?_ (by decide) (by decide),
      f t!"CM" t!"cm" 3 _ ?_ (by decide) (by decide), f t!"SENT" t!"sent" 4 _ ?_ (by decide) (by decide)]
    all_goals first | rfl | skip
    simp [fixedOps]
  rw [hfin]
  refine ⟨hi.nodup, ?_, hi.index, hi.openClass, hi.openSet, hi.forbid, hi.enforce, ?_, hi.states⟩
  · show s6.data.arrayTags ++ constantNames = _
    rw [hi.tags]; rfl
  · obtain ⟨ops, o1, o2⟩ := hi.plist
    refine ⟨ops ++ fixedOps, by simp [o1], ?_⟩
    intro o ho i hio
    rcases List.mem_append.1 ho with ho | ho
    · exact o2 o ho i hio
    · have : ∀ o ∈ fixedOps, ∀ i ∈ o.nums, i < 7 := by decide
      have := this o ho i hio
      omega

end Verif.Tsx
