import Verif.Serial.Props
/-!
# C29: a tagger read back from its file tags as before
-/
namespace Verif.Serial
open Verif.Tagger

variable {P W α : Type}

theorem foldl_congr_mem {β γ : Type} {f g : β → γ → β} (l : List γ) (b : β) (h : ∀ b, ∀ x ∈ l, f b x = g b x) : l.foldl f b = l.foldl g b := by
  induction l generalizing b with
  | nil => rfl
  | cons x l ih =>
    rw [List.foldl_cons, List.foldl_cons, h b x (List.mem_cons_self ..), ih _ (fun b y hy => h b y (List.mem_cons_of_mem _ hy))]

theorem induct_congr [Weight W] (p p' : Params W) (k : Nat) (first : Bool) (pa : Nat → W) (pb : Nat → List Nat) (tags pre : Tags)
    (ha : ∀ i ∈ tags, ∀ j ∈ pre, p.A j i = p'.A j i) (hb : ∀ i ∈ tags, p.B i k = p'.B i k) :
    induct p k first pa pb tags pre = induct p' k first pa pb tags pre := by
  unfold induct
  apply foldl_congr_mem
  intro ab i hi
  apply foldl_congr_mem
  intro ab j hj
  unfold relax
  rw [ha i hi j hj, hb i hi]

theorem resolve_known (td : TD) (tags : Tags) (h : td.output.WF) (ho : td.openClass ∈ td.output.element)
    (hk : tags = [] ∨ tags ∈ td.output.element) :
    ∃ k, resolve td tags = (td, (if tags = [] then td.openClass else tags), k) ∧
      td.output.element[k]? = some (if tags = [] then td.openClass else tags) := by
  have hmem : (if tags = [] then td.openClass else tags) ∈ td.output.element := by
    rcases hk with h0 | h0
    · rw [if_pos h0]; exact ho
    · split
      · exact ho
      · exact h0
  obtain ⟨k, hk1⟩ := List.mem_iff_getElem?.1 hmem
  have hf := (h.iff _ k).2 hk1
  refine ⟨k, ?_, hk1⟩
  unfold resolve requireSimilar Coll.hasNot
  simp only [hf, Option.isNone_some, Bool.false_eq_true, if_false]
  unfold Coll.add
  rw [hf]

/-- The state after a step keeps the tagger data, and its tags are a class or the end-of-sentence tag. -/
theorem hmmStep_congr [Weight W] (p p' : Params W) (nf : Bool) (s : HSt W α) (it : Item α) (n : Nat) (td : TD)
    (htd : s.td = td) (h : td.output.WF) (ho : td.openClass ∈ td.output.element) (hk : it.tags = [] ∨ it.tags ∈ td.output.element)
    (hlt : ∀ c ∈ td.output.element, ∀ t ∈ c, t < n) (hs : ∀ t ∈ s.tags, t < n) (heos : p.eos = p'.eos) (hen : p.eos < n)
    (ha : ∀ i j, i < n → j < n → p.A i j = p'.A i j)
    (hb : ∀ i k c, td.output.element[k]? = some c → i ∈ c → p.B i k = p'.B i k) :
    hmmStep p nf s it = hmmStep p' nf s it ∧ ∀ s', hmmStep p nf s it = some s' → s'.td = td ∧ ∀ t ∈ s'.tags, t < n := by
  obtain ⟨k, hres, hel⟩ := resolve_known td it.tags h ho hk
  rw [← htd] at hres
  generalize ht : (if it.tags = [] then td.openClass else it.tags) = tags at hres hel
  rw [htd, ht] at hres
  have hin : ∀ t ∈ tags, t < n := hlt tags (List.mem_of_getElem? hel)
  have hc : ∀ first pa pb, induct p k first pa pb tags s.tags = induct p' k first pa pb tags s.tags :=
    fun first pa pb => induct_congr p p' k first pa pb tags s.tags (fun i hi j hj => ha j i (hs j hj) (hin i hi)) (fun i hi => hb i k tags hel hi)
  constructor
  · unfold hmmStep
    simp only [htd, hres, hc, heos]
  · intro s' hs'
    unfold hmmStep at hs'
    simp only [htd, hres] at hs'
    rw [Option.map_eq_some_iff] at hs'
    obtain ⟨s1, h1, h2⟩ := hs'
    have h3 : s1.td = td ∧ s1.tags = tags := by
      split at h1
      · rw [Option.map_eq_some_iff] at h1
        obtain ⟨o, _, rfl⟩ := h1
        exact ⟨rfl, rfl⟩
      · cases h1
        exact ⟨rfl, rfl⟩
    subst h2
    split
    · refine ⟨h3.1, ?_⟩
      intro t ht
      rw [List.mem_singleton.1 ht]
      exact hen
    · exact ⟨h3.1, by rw [h3.2]; exact hin⟩

theorem hmmRun_congr [Weight W] (p p' : Params W) (nf : Bool) (n : Nat) (td : TD) (h : td.output.WF) (ho : td.openClass ∈ td.output.element)
    (hlt : ∀ c ∈ td.output.element, ∀ t ∈ c, t < n) (heos : p.eos = p'.eos) (hen : p.eos < n)
    (ha : ∀ i j, i < n → j < n → p.A i j = p'.A i j) (hb : ∀ i k c, td.output.element[k]? = some c → i ∈ c → p.B i k = p'.B i k)
    (items : List (Item α)) (hk : ∀ it ∈ items, it.tags = [] ∨ it.tags ∈ td.output.element) (s : HSt W α) (htd : s.td = td)
    (hs : ∀ t ∈ s.tags, t < n) : hmmRun p nf s items = hmmRun p' nf s items := by
  induction items generalizing s with
  | nil => rfl
  | cons it r ih =>
    obtain ⟨h1, h2⟩ := hmmStep_congr p p' nf s it n td htd h ho (hk it (List.mem_cons_self ..)) hlt hs heos hen ha hb
    unfold hmmRun
    rw [← h1]
    cases e : hmmStep p nf s it with
    | none => rfl
    | some s' =>
      obtain ⟨h3, h4⟩ := h2 s' e
      exact ih (fun x hx => hk x (List.mem_cons_of_mem _ hx)) s' h3 h4

/-- The tagger with the data `x`; `val` is the weight with these bits. -/
def Hmm.params (val : Nat → W) (eos : Nat) (x : Hmm P) : Params W := ⟨fun i j => val (x.a i j), fun i j => val (x.b i j), eos⟩

/-- The part of the data that tagging uses. -/
def Hmm.td (x : Hmm P) : TD := ⟨x.data.openClass, x.data.output⟩

/-- **C29 (tagging).**  A tagger written to a file and read back tags every text as before (same words, same tags, same flushes), if the tags of every word
of the text are a known ambiguity class or the word is unknown, the open class is a class, every class is within the dimensions, and so is the
end-of-sentence tag. -/
theorem C29_hmm_tags [Weight W] (val : Nat → W) (eos : Nat) (nf : Bool) (pf : PatternFormat P) (big big' : Bool) (zeroBits : Nat) (p0 : P) (x : Hmm P)
    (hv : x.data.Valid) (ha : ∀ i j, x.a i j < 2 ^ 64) (hb : ∀ i j, x.b i j < 2 ^ 64) (bs : Bytes) (h : x.write pf big = some bs)
    (hm : x.m = x.data.output.element.length) (hn : ∀ c ∈ x.data.output.element, ∀ t ∈ c, t < x.n) (hen : eos < x.n)
    (ho : x.data.openClass ∈ x.data.output.element)
    (items : List (Item α)) (hk : ∀ it ∈ items, it.tags = [] ∨ it.tags ∈ x.data.output.element) :
    ∃ y, Hmm.read pf big' zeroBits (Data.new p0) bs = some (y, []) ∧
      hmmOut (y.params val eos) nf y.td items = hmmOut (x.params val eos) nf x.td items := by
  obtain ⟨y, hy, hd, h1, h2, hA, hB⟩ := C29_hmm pf big big' zeroBits p0 x hv ha hb bs h
  refine ⟨y, hy, ?_⟩
  have htd : y.td = x.td := by unfold Hmm.td; rw [hd]
  have hwf : x.data.output.WF := by
    obtain ⟨ts, _, he⟩ := hv.output
    rw [he]
    exact Coll.WF.ofList ts
  rw [htd]
  unfold hmmOut
  congr 1
  refine hmmRun_congr (y.params val eos) (x.params val eos) nf x.n x.td hwf ho hn rfl hen ?_ ?_ items hk _ rfl ?_
  · intro i j hi hj
    exact congrArg val (hA i j hi hj)
  · intro i k c hc hi
    have hc' : x.data.output.element[k]? = some c := hc
    have hkm : k < x.m := by rw [hm]; exact (List.getElem?_eq_some_iff.1 hc').1
    have := hB i k (hn c (List.mem_of_getElem? hc') i hi) hkm
    rw [hc', Option.getD_some, if_pos hi] at this
    exact congrArg val this
  · intro t ht
    rw [List.mem_singleton.1 ht]
    exact hen

/-- the sample: every class within the dimensions, the open class a class -/
example : sample.m = sample.data.output.element.length ∧ (∀ c ∈ sample.data.output.element, ∀ t ∈ c, t < sample.n) ∧
    sample.data.openClass ∈ sample.data.output.element := ⟨by decide +kernel, by decide +kernel, by decide +kernel⟩

end Verif.Serial
