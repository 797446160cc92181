import Verif.NewRules.Model
/-!
# C92: what apertium-tagger-apply-new-rules does to a tagger
-/
namespace Verif.NewRules
open Verif.Serial (UStr Bytes Matrix PatternFormat)
open Verif.Tagger.Train (Rules applyRules Banned ZERO sumTo C21_rules_partial)
open Verif.Tsx (Doc Node Writes Means tagString)

variable {P : Type}

/-! ### Specification -/

/-- The definition says that no word with the tag `l` is followed by one with the tag `k`. -/
def Excludes (doc : Doc) (l k : Text) : Prop := (l, k) ∈ doc.forbid.getD [] ∨ ∃ r ∈ doc.enforce.getD [], r.1 = l ∧ k ∉ r.2

/-- `x` is a tagger for the tags of a definition: one state for each. -/
def For (x : Serial.Hmm P) (doc : Doc) : Prop := x.n = doc.tags.length

/-- The row `q` of probabilities (indexed by the tags, `w` before) is what it should be after the tag `l`: it is a distribution (or there was nothing in the row before, and
nothing is excluded), an excluded tag has at most 1e-10 divided by the weight of any tag that is not, and the tags that are not excluded keep their proportions. -/
def Row (doc : Doc) (l : Text) (w q : Text → ℚ) : Prop :=
  (∀ k ∈ doc.tags, 0 ≤ q k) ∧
  ((doc.tags.map q).sum = 1 ∨ (∀ k ∈ doc.tags, q k = 0 ∧ w k = 0 ∧ ¬ Excludes doc l k)) ∧
  (∀ k ∈ doc.tags, Excludes doc l k → ∀ k' ∈ doc.tags, ¬ Excludes doc l k' → 0 < w k' → q k ≤ (1 / 10000000000) / w k') ∧
  (∀ k ∈ doc.tags, ∀ k' ∈ doc.tags, ¬ Excludes doc l k → ¬ Excludes doc l k' → q k * w k' = q k' * w k)

/-! ### The numbers of the tags -/

theorem num_lt (doc : Doc) {l : Text} (h : l ∈ doc.tags) : doc.num l < doc.tags.length := List.idxOf_lt_length_of_mem h

theorem num_inj (doc : Doc) {l k : Text} (h : l ∈ doc.tags) (e : doc.num l = doc.num k) : l = k := (List.idxOf_inj h).1 e

theorem defs_nodup : ∀ (known : List Text) (ds : List Tsx.Def), known.Nodup → Tsx.DefsOk known ds → (known ++ ds.map (·.name)).Nodup := by
  intro known ds
  induction ds generalizing known with
  | nil => intro h _; simpa using h
  | cons d ds ih =>
    intro h hd
    obtain ⟨h1, _, h3⟩ := hd
    have := ih (known ++ [d.name]) (by
      rw [List.nodup_append]
      exact ⟨h, by simp, fun a ha b hb => by simp at hb; subst hb; intro e; exact h1 (e ▸ ha)⟩) h3
    simpa using this

theorem tags_nodup (doc : Doc) (h : doc.Ok) : doc.tags.Nodup := defs_nodup _ _ (by decide) h.defs

theorem sumTo_eq (n : Nat) (f : Nat → ℚ) : sumTo n f = ((List.range n).map f).sum := by
  induction n with
  | zero => rfl
  | succ n ih => rw [List.range_succ, List.map_append, List.sum_append, ← ih]; simp [sumTo]

theorem nums (doc : Doc) (h : doc.Ok) : doc.tags.map doc.num = List.range doc.tags.length := by
  apply List.ext_getElem (by simp)
  intro i h1 h2
  simp only [List.getElem_map, List.getElem_range, Tsx.Doc.num]
  exact (tags_nodup doc h).idxOf_getElem i (by simpa using h1)

theorem banned_iff (doc : Doc) (hok : doc.Ok) (l k : Text) (hk : k ∈ doc.tags) :
    Banned ⟨(doc.forbid.getD []).map (fun p => (doc.num p.1, doc.num p.2)), (doc.enforce.getD []).map (fun r => (doc.num r.1, r.2.map doc.num))⟩ (doc.num l) (doc.num k) ↔
      Excludes doc l k := by
  unfold Banned Excludes
  simp only [List.mem_map, Prod.mk.injEq]
  constructor
  · rintro (⟨p, h1, h2, h3⟩ | ⟨e, ⟨r, h1, rfl⟩, h2, h3⟩)
    · have e1 := num_inj doc (hok.forbid p h1).1 h2
      have e2 := num_inj doc (hok.forbid p h1).2 h3
      exact .inl (by rw [← e1, ← e2]; exact h1)
    · exact .inr ⟨r, h1, num_inj doc (hok.enforce r h1).1 h2, fun hm => h3 (List.mem_map_of_mem hm)⟩
  · rintro (h | ⟨r, h1, h2, h3⟩)
    · exact .inl ⟨_, h, rfl, rfl⟩
    · refine .inr ⟨_, ⟨r, h1, rfl⟩, by rw [h2], ?_⟩
      intro hm
      obtain ⟨k', hk', e⟩ := List.mem_map.1 hm
      exact h3 (num_inj doc hk e.symm ▸ hk')

/-! ### What comes out -/

/-- The result depends on the cells of the matrix only. -/
theorem applyRules_congr (n : Nat) (r : Rules) (a a' : Nat → Nat → ℚ) (h : ∀ i j, i < n → j < n → a i j = a' i j) (i j : Nat) (hi : i < n) (hj : j < n) :
    applyRules n r a i j = applyRules n r a' i j := by
  have hr : ∀ k < n, Tagger.Train.ruled r a i k = Tagger.Train.ruled r a' i k := fun k hk => by
    unfold Tagger.Train.ruled
    rw [h i k hi hk]
  have form : ∀ b : Nat → Nat → ℚ, applyRules n r b i j =
      if sumTo n (Tagger.Train.ruled r b i) > 0 then Tagger.Train.ruled r b i j / sumTo n (Tagger.Train.ruled r b i) else 0 := fun b => by
    unfold applyRules Tagger.Train.normalize
    rw [if_pos ⟨hi, hj⟩, Tagger.Train.beforeNorm_spec n r b i j hj,
      Tagger.Train.sumTo_congr n _ (Tagger.Train.ruled r b i) (fun k hk => Tagger.Train.beforeNorm_spec n r b i k hk)]
  rw [form, form, Tagger.Train.sumTo_congr n _ _ hr, hr j hj]

/-- What is in the new file, for any definition that does not have more tags than the tagger. -/
theorem prog_exact (pf : PatternFormat P) (big big' : Bool) (zeroBits : Nat) (p0 : P) (fp : Doubles) (x : Serial.Hmm P) (hv : x.data.Valid)
    (ha : ∀ i j, x.a i j < 2 ^ 64) (hb : ∀ i j, x.b i j < 2 ^ 64) (hz : zeroBits < 2 ^ 64) (big0 : Bool) (file : Bytes) (hfile : x.write pf big0 = some file)
    (doc : Doc) (hok : doc.Ok) (ns : List Node) (hw : Writes doc ns) (hn : doc.tags.length ≤ x.n) (hm : 0 < x.m) :
    prog pf big zeroBits p0 fp file ns = .fail ∨ ∃ bs y, prog pf big zeroBits p0 fp file ns = .ok bs ∧
      Serial.Hmm.read pf big' zeroBits (Serial.Data.new p0) bs = some (y, []) ∧
      y.data = { x.data with
        forbid := (doc.forbid.getD []).map (fun p => (doc.num p.1, doc.num p.2))
        enforce := (doc.enforce.getD []).map (fun r => (doc.num r.1, r.2.map doc.num))
        prefer := ((doc.prefer.getD []).map tagString).map units
        discard := [] } ∧ y.n = x.n ∧ y.m = x.m ∧
      (∀ i j, i < x.n → j < x.n → y.a i j = fp.round (applyRules x.n ⟨(doc.forbid.getD []).map (fun p => (doc.num p.1, doc.num p.2)),
        (doc.enforce.getD []).map (fun r => (doc.num r.1, r.2.map doc.num))⟩ (fun i j => fp.val (x.a i j)) i j)) ∧
      (∀ i j, i < x.n → j < x.m → y.b i j = if i ∈ (x.data.output.element[j]?).getD [] then x.b i j else zeroBits) := by
  obtain ⟨h, hr, h1, h2, h3, h4, h5, h6⟩ : ∃ h, Serial.Hmm.read pf big zeroBits (Serial.Data.new p0) file = some (h, []) ∧ h.data = x.data ∧ h.n = x.n ∧ h.m = x.m ∧
      (∀ i j, i < x.n → j < x.n → h.a i j = x.a i j) ∧
      (∀ i j, i < x.n → j < x.m → h.b i j = if i ∈ (x.data.output.element[j]?).getD [] then x.b i j else zeroBits) ∧ ∀ i j, h.b i j < 2 ^ 64 := by
    obtain ⟨h, e, h1, h2, h3, h4, h5⟩ := Serial.C29_hmm pf big0 big zeroBits p0 x hv ha hb file hfile
    refine ⟨h, e, h1, h2, h3, h4, h5, fun i j => ?_⟩
    have e2 := Serial.hmm_read pf big0 big zeroBits p0 x hv ha hb file hfile
    rw [e] at e2
    have e3 := congrArg (fun (r : Option (Serial.Hmm P × Bytes)) => (r.map (fun q => q.1.b i j)).getD 0) e2
    simp only [Option.map_some, Option.getD_some, Serial.foldl_put] at e3
    rw [e3]
    split
    · exact hb i j
    · exact hz
  obtain ⟨d, hd, hmn⟩ := Tsx.C80_read_partial {} doc hok ns hw
  have hrange : inRange h.n ⟨d.forbid, d.enforce⟩ = true := by
    rw [h2, hmn.forbid, hmn.enforce]
    unfold inRange
    simp only [Bool.and_eq_true, List.all_eq_true, decide_eq_true_eq, List.mem_map, forall_exists_index, and_imp]
    refine ⟨?_, ?_⟩
    · rintro _ p hp rfl
      exact ⟨lt_of_lt_of_le (num_lt doc (hok.forbid p hp).1) hn, lt_of_lt_of_le (num_lt doc (hok.forbid p hp).2) hn⟩
    · rintro _ r hr rfl
      exact lt_of_lt_of_le (num_lt doc (hok.enforce r hr).1) hn
  have hpos : 0 < x.n := lt_of_lt_of_le (by simp [Tsx.Doc.tags, Tsx.fixedTags]) hn
  obtain ⟨y, hy⟩ : ∃ y, applied fp (copied p0 (setRules h d)) = .ok y ∧ y.data = (Serial.Data.new p0).copy (setRules h d).data ∧ y.n = h.n ∧ y.m = h.m ∧
      y.a = (fun i j => fp.round (applyRules h.n ⟨d.forbid, d.enforce⟩ (fun i j => fp.val (h.a i j)) i j)) ∧ y.b = h.b := by
    unfold applied copied setRules
    refine ⟨_, if_pos ⟨?_, ?_, ?_⟩, rfl, rfl, rfl, rfl, rfl⟩
    · exact h2 ▸ hpos
    · exact h3 ▸ hm
    · exact hrange
  obtain ⟨hap, y1, y2, y3, y4, y5⟩ := hy
  have hprog : prog pf big zeroBits p0 fp file ns = match y.write pf big with | none => .fail | some bs => .ok bs := by
    unfold prog
    rw [hr]
    simp only [hd]
    show ((applied fp (copied p0 (setRules h d))).bind _) = _
    rw [hap]
    rfl
  cases hwr : y.write pf big with
  | none => left; rw [hprog, hwr]
  | some bs =>
    right
    have hyv : y.data.Valid := by
      rw [y1]
      simp only [setRules, h1, Serial.Data.copy]
      exact ⟨hv.openClass, hv.tagIndex, hv.constants, hv.output⟩
    have hya : ∀ i j, y.a i j < 2 ^ 64 := fun i j => by rw [y4]; exact fp.fits _
    have hyb : ∀ i j, y.b i j < 2 ^ 64 := fun i j => by rw [y5]; exact h6 i j
    obtain ⟨z, hz, z1, z2, z3, z4, z5⟩ := Serial.C29_hmm pf big big' zeroBits p0 y hyv hya hyb bs hwr
    refine ⟨bs, z, by rw [hprog, hwr], hz, ?_, by rw [z2, y2, h2], by rw [z3, y3, h3], ?_, ?_⟩
    · rw [z1, y1]
      simp only [setRules, h1, Serial.Data.copy, Serial.Data.new, hmn.forbid, hmn.enforce, hmn.prefer, List.nil_append]
    · intro i j hi hj
      rw [z4 i j (by rw [y2, h2]; exact hi) (by rw [y2, h2]; exact hj), y4, h2, hmn.forbid, hmn.enforce]
      exact congrArg fp.round (applyRules_congr _ _ _ _ (fun i j hi hj => by rw [h4 i j hi hj]) i j hi hj)
    · intro i j hi hj
      rw [z5 i j (by rw [y2, h2]; exact hi) (by rw [y3, h3]; exact hj), y1, y5, h5 i j hi hj]
      simp only [setRules, h1, Serial.Data.copy]
      split
      · rfl
      · rfl

/-- C92 (partial).  A tagger that was made for a definition with the same tags in the same order gets the rules of the new definition: nothing else of it changes, but for the
discards, which are gone, and the probabilities of a tag after another, whose rows are as they should be (up to rounding).
*Missing*: definitions with other tags, or the tags in another order (`C92_order_violation`), the discards (`C92_discard_violation`), and probability zero (see C21). -/
theorem C92_rules_partial (pf : PatternFormat P) (big big' : Bool) (zeroBits : Nat) (p0 : P) (fp : Doubles) (x : Serial.Hmm P) (hv : x.data.Valid)
    (ha : ∀ i j, x.a i j < 2 ^ 64 ∧ 0 ≤ fp.val (x.a i j)) (hb : ∀ i j, x.b i j < 2 ^ 64) (hz : zeroBits < 2 ^ 64) (big0 : Bool) (file : Bytes)
    (hfile : x.write pf big0 = some file) (old doc : Doc) (hx : For x old) (hm : 0 < x.m) (hsame : doc.tags = old.tags) (hok : doc.Ok) (ns : List Node) (hw : Writes doc ns)
    (bs : Bytes) (hbs : prog pf big zeroBits p0 fp file ns = .ok bs) :
    ∃ y, Serial.Hmm.read pf big' zeroBits (Serial.Data.new p0) bs = some (y, []) ∧
      y.data = { x.data with
        forbid := (doc.forbid.getD []).map (fun p => (old.num p.1, old.num p.2))
        enforce := (doc.enforce.getD []).map (fun r => (old.num r.1, r.2.map old.num))
        prefer := ((doc.prefer.getD []).map tagString).map units
        discard := [] } ∧ y.n = x.n ∧ y.m = x.m ∧
      (∀ i j, i < x.n → j < x.m → y.b i j = if i ∈ (x.data.output.element[j]?).getD [] then x.b i j else zeroBits) ∧
      ∀ l ∈ doc.tags, ∃ q, Row doc l (fun k => fp.val (x.a (old.num l) (old.num k))) q ∧ ∀ k ∈ doc.tags, y.a (old.num l) (old.num k) = fp.round (q k) := by
  have hnum : old.num = doc.num := by funext l; unfold Tsx.Doc.num; rw [hsame]
  have hn : x.n = doc.tags.length := by rw [hx, hsame]
  rw [hnum]
  rcases prog_exact pf big big' zeroBits p0 fp x hv (fun i j => (ha i j).1) hb hz big0 file hfile doc hok ns hw (le_of_eq hn.symm) hm with e | ⟨bs', y, e, hy, h1, h2, h3, h4, h5⟩
  · rw [e] at hbs; cases hbs
  rw [e] at hbs
  cases hbs
  refine ⟨y, hy, h1, h2, h3, h5, fun l hl => ?_⟩
  generalize hrl : (⟨(doc.forbid.getD []).map (fun p => (doc.num p.1, doc.num p.2)), (doc.enforce.getD []).map (fun r => (doc.num r.1, r.2.map doc.num))⟩ : Rules) = rules at h4
  have hban : ∀ k ∈ doc.tags, (Banned rules (doc.num l) (doc.num k) ↔ Excludes doc l k) := fun k hk => by rw [← hrl]; exact banned_iff doc hok l k hk
  have hlt : ∀ k ∈ doc.tags, doc.num k < x.n := fun k hk => hn ▸ num_lt doc hk
  obtain ⟨⟨r1, r2⟩, r3, r4⟩ := C21_rules_partial x.n rules (fun i j => fp.val (x.a i j)) (fun i _ j _ => (ha i j).2) (doc.num l) (hlt l hl)
  refine ⟨fun k => applyRules x.n rules (fun i j => fp.val (x.a i j)) (doc.num l) (doc.num k), ⟨fun k hk => r1 _ (hlt k hk), ?_, ?_, ?_⟩, fun k hk => h4 _ _ (hlt l hl) (hlt k hk)⟩
  · rcases r2 with r2 | ⟨r2, r5⟩
    · left
      rw [sumTo_eq, hn, ← nums doc hok, List.map_map] at r2
      rw [hn]
      exact r2
    · right
      exact fun k hk => ⟨r2 _ (hlt k hk), (r5 _ (hlt k hk)).1, fun hx => (r5 _ (hlt k hk)).2 ((hban k hk).2 hx)⟩
  · exact fun k hk hb k' hk' hb' hp => r3 _ (hlt k hk) ((hban k hk).2 hb) _ (hlt k' hk') (fun hx => hb' ((hban k' hk').1 hx)) hp
  · exact fun k hk k' hk' hb hb' => r4 _ (hlt k hk) _ (hlt k' hk') (fun hx => hb ((hban k hk).1 hx)) (fun hx => hb' ((hban k' hk').1 hx))


/-- The code points that UTF-16 units stand for. -/
def points : UStr → List Nat
  | [] => []
  | u :: r =>
    if 0xD800 ≤ u ∧ u < 0xDC00 then
      match r with
      | [] => [u]
      | v :: r' => (0x10000 + (u - 0xD800) * 0x400 + (v - 0xDC00)) :: points r'
    else u :: points r

theorem points_one {u : Nat} {r : UStr} (h : ¬ (0xD800 ≤ u ∧ u < 0xDC00)) : points (u :: r) = u :: points r := by
  cases r with
  | nil => simp [points]
  | cons v r => rw [points, if_neg h]

theorem points_two {u v : Nat} {r : UStr} (h : 0xD800 ≤ u ∧ u < 0xDC00) :
    points (u :: v :: r) = (0x10000 + (u - 0xD800) * 0x400 + (v - 0xDC00)) :: points r := by
  rw [points, if_pos h]

/-- The texts of the prefer rules are written as UTF-16: the units stand for the characters of the text, and each fits in sixteen bits. -/
theorem C92_units (t : Text) : points (units t) = t.map (fun c => c.val.toNat) ∧ ∀ u ∈ units t, u < 0x10000 := by
  induction t with
  | nil => simp [units, points]
  | cons c t ih =>
    have hu : units (c :: t) = units [c] ++ units t := by simp [units]
    have hc : c.val.toNat < 0xD800 ∨ 0xDFFF < c.val.toNat ∧ c.val.toNat < 0x110000 := c.valid
    rw [hu]
    by_cases h : c.val.toNat < 0x10000
    · have h1 : units [c] = [c.val.toNat] := by
        simp only [units, List.flatMap_cons, List.flatMap_nil, List.append_nil, if_pos h]
      rw [h1]
      refine ⟨?_, ?_⟩
      · have : ¬ (0xD800 ≤ c.val.toNat ∧ c.val.toNat < 0xDC00) := by omega
        rw [List.cons_append, List.nil_append, points_one this, ih.1, List.map_cons]
      · intro u hu
        rcases List.mem_append.1 hu with h2 | h2
        · simp only [List.mem_singleton] at h2; omega
        · exact ih.2 u h2
    · have h1 : units [c] = [0xD800 + (c.val.toNat - 0x10000) / 0x400, 0xDC00 + (c.val.toNat - 0x10000) % 0x400] := by
        simp only [units, List.flatMap_cons, List.flatMap_nil, List.append_nil, if_neg h]
      rw [h1]
      refine ⟨?_, ?_⟩
      · have h2 : 0xD800 ≤ 0xD800 + (c.val.toNat - 0x10000) / 0x400 ∧ 0xD800 + (c.val.toNat - 0x10000) / 0x400 < 0xDC00 := by omega
        rw [List.cons_append, List.cons_append, List.nil_append, points_two h2, ih.1, List.map_cons]
        have e : 0x10000 + (0xD800 + (c.val.toNat - 0x10000) / 0x400 - 0xD800) * 0x400 +
            (0xDC00 + (c.val.toNat - 0x10000) % 0x400 - 0xDC00) = c.val.toNat := by omega
        rw [e]
      · intro u hu
        rcases List.mem_append.1 hu with h2 | h2
        · simp only [List.mem_cons, List.not_mem_nil, or_false] at h2; omega
        · exact ih.2 u h2

end Verif.NewRules
