import Verif.Crx.Main
import Verif.Caps.Props
/-!
# Examples for C73, and where it fails

The examples that are computed use the transducer as it is before `minimize`.
-/
namespace Verif.Crx
open Verif.Stream (Item WF render)
open Verif.Caps

/-- Capitals, for the examples. -/
def up (n : Nat) : Bool := decide (65 ≤ n ∧ n ≤ 90)

/-- `tests/caps/begin-repeat.crx`; weights in tenths. -/
def beginRepeat : List Rule := [
  { weight := some 12, body := [.rep 3 5 [.word { srcsurf := t!"AA", select := t!"AA" }]] },
  { weight := some 5, body := [.or [.start, .word { tags := [t!"sent", t!"*"] }], .word { select := t!"Aa" }] },
  { weight := some 10, body := [.word { trglem := t!"*aA", select := t!"dix" }] }]

/-- `tests/caps/basic.crx`. -/
def basic : List Rule := [
  { weight := some 1, body := [.word { select := t!"aa" }] },
  { weight := some 10, body := [.or [.word { lem := t!"iPhone", select := t!"dix" }, .word { lem := t!"iPod", select := t!"dix" }]] },
  { weight := some 9, body := [.word { tags := [t!"np", t!"*"], select := t!"Aa" }] }]

/-- Compile the rules and restore the case. -/
def run (rs : List Rule) (t : Text) : Option (Outcome Text) := (compile up 10 id rs).map fun s => restore (auto up s) ascii false t

example : run basic t!"[[c:AA/AA]]^xyz<vblex>/XyZ$ ^qry<adj>/Qry$" = some (.ok t!"[[c:AA/AA]]xyz[[/]] qry") := by decide +kernel
example : run basic t!"^iPhone<np><top>/iPhone$" = some (.ok t!"iPhone") := by decide +kernel
example : run basic t!"^Daniel<np><top>/Daniel$" = some (.ok t!"Daniel") := by decide +kernel
example : run beginRepeat t!"[3] ^something<n>/something$^.<sent>/.$ [[c:AA/aa]]^the<det><def>/the$" =
    some (.ok t!"[3] Something. [[c:AA/aa]]The[[/]]") := by decide +kernel

/-! ## The hypotheses can be met -/

/-- Two rules: small letters; names with a capital. -/
def two : List Rule := [
  { weight := some 1, body := [.word { select := t!"aa" }] },
  { weight := some 9, body := [.word { tags := [t!"np", t!"*"], select := t!"Aa" }] }]

theorem basic_star : Basic t!"*" := by intro c hc; simp at hc; subst hc; decide

theorem two_plain : ∀ r ∈ two, AllEach Match.Plain r.body := by
  intro r hr
  simp only [two, List.mem_cons, List.not_mem_nil, or_false] at hr
  rcases hr with rfl | rfl <;> refine ⟨⟨?_, ?_, ?_, ?_, ?_, ?_⟩, trivial⟩
  all_goals first
    | (intro t ht; simp at ht; subst ht; exact basic_star)
    | (simp [NoDouble]; done)
    | (simp [TagsPlain]; done)
    | (unfold internal; decide)
    | decide

theorem two_ok : ∀ r ∈ two, AllOk r.body := by
  intro r hr
  simp only [two, List.mem_cons, List.not_mem_nil, or_false] at hr
  rcases hr with rfl | rfl
  · exact ⟨⟨Or.inl rfl, Or.inl rfl, .aa, by simp [Selects]⟩, trivial⟩
  · exact ⟨⟨Or.inl rfl, Or.inl rfl, .Aa, by simp [Selects]⟩, trivial⟩

/-- `^dan<np>/dan$` as the rules see it. -/
def dan : Seen := ⟨t!"aa", t!"aa", t!"dan".map .chr ++ [.tag t!"<np>"], t!"dan".map .chr⟩
/-- `^x<n>/x$`. -/
def ex : Seen := ⟨t!"aa", t!"aa", [.chr 'x', .tag t!"<n>"], [.chr 'x']⟩

def exSec : List (SWord × Seen) := [(⟨[], none, lits t!"dan<np>/dan"⟩, dan), (⟨[.txt (.lit ' ')], none, lits t!"x<n>/x"⟩, ex)]

theorem exSec_sees : ∀ x ∈ exSec, x.1.ok ∧ Sees x.1 x.2 := by
  intro x hx
  simp only [exSec, List.mem_cons, List.not_mem_nil, or_false] at hx
  rcases hx with rfl | rfl
  · refine ⟨by simp [SWord.ok], ⟨by decide +kernel, by decide +kernel, by decide +kernel⟩, ⟨?_, by decide +kernel, ?_⟩⟩
    · refine ⟨?_, ?_, by decide, by decide⟩ <;> (intro c hc; simp [dan] at hc; subst hc; decide)
    · intro t ht; simp [dan, internal] at ht ⊢; rcases ht with rfl | rfl | rfl | rfl | rfl | rfl <;> simp
  · refine ⟨by simp [SWord.ok], ⟨by decide +kernel, by decide +kernel, by decide +kernel⟩, ⟨?_, by decide +kernel, ?_⟩⟩
    · refine ⟨?_, ?_, by decide, by decide⟩ <;> (intro c hc; simp [ex] at hc; subst hc; decide)
    · intro t ht; simp [ex, internal] at ht ⊢; rcases ht with rfl | rfl | rfl | rfl | rfl | rfl <;> simp

/-- A rule of one `match` matches at a word exactly if the word fits it. -/
theorem matchesAt_one {upper : Nat → Bool} {rs : List Rule} {ws : List Seen} {w : Seen} {k : Nat} {ms : List Mark} {r : Rule} {m : Match} (hr : rs[k]? = some r)
    (hb : r.body = [.word m]) : MatchesAt upper rs (ws ++ [w]) k ms ↔ m.Fits upper w ∧ ∃ x, Selects m.select x ∧ ms = [x] := by
  unfold MatchesAt
  constructor
  · rintro ⟨r', h1, es, _, h2, h3⟩
    rw [hr] at h1
    injection h1 with h1
    subst h1
    rw [hb] at h3
    simp only [SeqFits, Node.Fits] at h3
    obtain ⟨e1, e2, m1, m2, rfl, rfl, ⟨v, x, rfl, rfl, h4, h5⟩, rfl, rfl⟩ := h3
    obtain ⟨pre, h6⟩ := h2
    have : v = w := by
      have h7 := congrArg List.getLast? h6
      have e : Ev.start :: (ws ++ [w]).map Ev.word = (Ev.start :: ws.map Ev.word) ++ [Ev.word w] := by simp
      rw [e, List.append_nil, List.getLast?_concat, List.getLast?_concat] at h7
      injection h7 with h7
      injection h7
    subst this
    exact ⟨h4, x, h5, rfl⟩
  · rintro ⟨h1, x, h2, rfl⟩
    refine ⟨r, hr, [.word w], by simp, ⟨.start :: ws.map .word, by simp⟩, ?_⟩
    rw [hb]
    simp only [SeqFits, Node.Fits]
    exact ⟨[.word w], [], [x], [], rfl, rfl, ⟨w, x, rfl, rfl, h1, h2⟩, rfl, rfl⟩

theorem caseFits_star (upper : Nat → Bool) {t : Text} (h : t ≠ []) : CaseFits upper t!"*" t := by
  have := Runs.cons (upper := upper) (k := .any) (ks := []) (s := []) h (fun _ _ => trivial) .nil
  rw [List.append_nil] at this
  exact this

theorem textFits_star (upper : Nat → Bool) {t : Text} (h : t ≠ []) : TextFits upper t!"*" t!"*" t := by
  unfold TextFits
  rw [if_pos rfl]
  have := Glob.many (p := []) (s := []) h .nil
  rw [List.append_nil] at this
  exact this

theorem star_fits (w : Seen) (h1 : w.srcSurf ≠ []) (h2 : w.srcLem ≠ []) (lem : Text) (tags : List Text) (h3 : w.form = lem.map .chr ++ tags.map .tag)
    (h4 : lem ≠ []) (sf : Text) (h5 : w.surf = sf.map .chr) (h6 : sf ≠ []) (p : List Text) (hp : TagsFit p tags) (sel : Text) :
    Match.Fits up { tags := p, select := sel } w :=
  ⟨caseFits_star up h1, caseFits_star up h2, ⟨lem, tags, h3, textFits_star up h4, hp⟩, ⟨sf, h5, textFits_star up h6⟩⟩

theorem tagsFit_any (x : List Text) : TagsFit [t!"*"] x := by
  have := TagsFit.star (p := []) (r := x) (s := []) .nil
  rwa [List.append_nil] at this

theorem dan_np : TagsFit [t!"np", t!"*"] [t!"<np>"] := TagsFit.one (t := t!"np") (s := []) (by decide) (tagsFit_any [])

theorem ex_np (w : Match.Fits up { tags := [t!"np", t!"*"], select := t!"Aa" } ex) : False := by
  obtain ⟨lem, tags, h1, _, h2⟩ := w.form
  generalize hq : [t!"np", t!"*"] = q at h2
  cases h2 with
  | nil => cases hq
  | empty => cases hq
  | any => cases hq
  | plus => cases hq
  | star => cases hq
  | one ht h3 =>
    injection hq with h4 h5
    subst h4
    have : Tok.tag t!"<np>" ∈ ex.form := by rw [h1]; simp
    simp [ex] at this

/-- What the rules give: both words get `aa`, the name gets `Aa` as well. -/
def exM (n k : Nat) : Option (List Mark) := if k = 0 then some [.aa] else if k = 1 ∧ n = 0 then some [.Aa] else none

theorem exM_oneWay : OneWay up two (exSec.map Prod.snd) exM := by
  intro n k ms hn
  have hk : ∀ j, 2 ≤ j → two[j]? = none := by intro j hj; simp [two]; omega
  have fDan : ∀ p sel, TagsFit p [t!"<np>"] → Match.Fits up { tags := p, select := sel } dan := fun p sel h =>
    star_fits dan (by simp [dan]) (by simp [dan]) t!"dan" [t!"<np>"] rfl (by simp) t!"dan" rfl (by simp) p h sel
  have fEx : ∀ p sel, TagsFit p [t!"<n>"] → Match.Fits up { tags := p, select := sel } ex := fun p sel h =>
    star_fits ex (by simp [ex]) (by simp [ex]) t!"x" [t!"<n>"] rfl (by simp) t!"x" rfl (by simp) p h sel
  have sAa : ∀ x, Selects t!"aa" x → x = .aa := by intro x h; simpa [Selects] using h
  have sAA : ∀ x, Selects t!"Aa" x → x = .Aa := by intro x h; simpa [Selects] using h
  have hw : (exSec.map Prod.snd).take (n + 1) = (if n = 0 then [] else [dan]) ++ [if n = 0 then dan else ex] := by
    have : n = 0 ∨ n = 1 := by simp [exSec] at hn; omega
    rcases this with rfl | rfl <;> rfl
  rw [hw]
  by_cases h0 : k = 0
  · subst h0
    rw [matchesAt_one (r := two[0]) (m := { select := t!"aa" }) rfl rfl]
    simp only [exM, if_true]
    constructor
    · intro h
      injection h with h
      subst h
      refine ⟨?_, .aa, by simp [Selects], rfl⟩
      split
      · exact fDan _ _ (tagsFit_any _)
      · exact fEx _ _ (tagsFit_any _)
    · rintro ⟨_, x, hx, rfl⟩
      rw [sAa x hx]
  · by_cases h1 : k = 1
    · subst h1
      rw [matchesAt_one (r := two[1]) (m := { tags := [t!"np", t!"*"], select := t!"Aa" }) rfl rfl]
      simp only [exM]
      by_cases hn0 : n = 0
      · subst hn0
        simp only [and_self, if_true]
        constructor
        · intro h
          simp at h
          subst h
          exact ⟨fDan _ _ dan_np, .Aa, by simp [Selects], rfl⟩
        · rintro ⟨_, x, hx, rfl⟩
          rw [sAA x hx]
          simp
      · simp only [hn0, and_false, if_false]
        constructor
        · intro h; simp at h
        · rintro ⟨h, _⟩; exact (ex_np h).elim
    · simp only [exM, if_neg h0, h1, false_and, if_false]
      constructor
      · intro h; cases h
      · rintro ⟨r, hr, _⟩
        rw [hk k (by omega)] at hr
        cases hr

/-- Both words against two rules, with a transducer for which everything that is assumed is true: the name gets a capital. -/
example : ∃ s, compile up 10 tidy two = some s ∧ restore (auto up s) ascii false (render (sections [exSec])) = .ok t!"Dan x\x00" := by
  obtain ⟨s, hc⟩ := Option.isSome_iff_exists.1 ((C73_compiles up 10 tidy two).2 two_ok)
  obtain ⟨o, h1, h2⟩ := C73_restore_partial tidy_minimal hc two_plain ascii false [exSec] (fun ws h => by simp at h; subst h; exact exSec_sees) (by decide +kernel)
    (by intro b hb
        simp [sections, exSec, SWord.items] at hb
        rcases hb with rfl | rfl <;> decide +kernel)
    (by intro x hx
        simp [sections, exSec, SWord.items] at hx)
  refine ⟨s, hc, ?_⟩
  rw [h1]
  cases h2 with
  | cons h3 h4 =>
    cases h4
    obtain ⟨f, h5, rfl⟩ := h3 exM exM_oneWay
    have v : ∀ i x, votes 10 two exM exSec.length i x = if i < 2 ∧ x = .aa then 1 else if i = 0 ∧ x = .Aa then 9 else 0 := by
      intro i x
      rcases i with _ | _ | i
      · cases x <;> decide +kernel
      · cases x <;> decide +kernel
      · have e : exSec.length = 2 := rfl
        rw [e, if_neg (by omega), if_neg (by omega)]
        unfold votes
        exact sum_zero _ _ (fun n hn => sum_zero _ _ (fun k _ => by unfold share; rw [if_neg]; omega))
    have e0 : f 0 = .Aa := by
      obtain ⟨b, a, hl, h6, h7⟩ := h5 0 (by decide)
      have hin : Mark.Aa ∈ b ++ f 0 :: a := by rw [← hl]; simp
      rcases List.mem_append.1 hin with hin | hin
      · have := h6 _ hin
        rw [v, v] at this
        revert this
        cases f 0 <;> simp
      · rcases List.mem_cons.1 hin with hin | hin
        · exact hin.symm
        · have := h7 _ hin
          rw [v, v] at this
          revert this
          cases f 0 <;> simp
    have e1 : f 1 = .aa := by
      obtain ⟨b, a, hl, h6, h7⟩ := h5 1 (by decide)
      have hin : Mark.aa ∈ b ++ f 1 :: a := by rw [← hl]; simp
      rcases List.mem_append.1 hin with hin | hin
      · have := h6 _ hin
        rw [v, v] at this
        revert this
        cases f 1 <;> simp
      · rcases List.mem_cons.1 hin with hin | hin
        · exact hin.symm
        · have := h7 _ hin
          rw [v, v] at this
          revert this
          cases f 1 <;> simp
    simp only [exSec, List.map_cons, List.map_nil, variants, e0, e1]
    decide +kernel

/-! ## Where the meaning is another one -/

/-- In the tags, `*.?` is the same as `*`, and `+.?` the same as `+`: a word without tags is matched by `*.?`, although `?` stands for a tag. -/
theorem C73_tags_violation :
    run [{ body := [.word { tags := [t!"*", t!"?"], select := t!"AA" }] }] t!"^a/a$ " = some (.ok t!"A ") ∧
    run [{ body := [.word { tags := [t!"?"], select := t!"AA" }] }] t!"^a/a$ " = some (.ok t!"a ") ∧
    run [{ body := [.word { tags := [t!"+", t!"?"], select := t!"AA" }] }] t!"^a<n>/a$ " = some (.ok t!"A ") := by decide +kernel

/-- A `/` that is escaped in the stream is not distinguished from the one that the program puts between the parts of a word: the word with the form `a<n>/x` and the
surface form `b` is matched by a rule for the lemma `a` with the tag `n` and the surface form `x/b`. -/
theorem C73_slash_violation :
    run [{ body := [.word { lem := t!"a", tags := [t!"n"], surf := t!"x/b", select := t!"AA" }] }] t!"^a<n>\\/x/b$ " = some (.ok t!"B ") := by decide +kernel

/-- The compiler takes the UTF-16 code units of a lemma, the restorer steps through code points: a lemma with characters outside the basic multilingual plane is never
matched. -/
theorem C73_plane_violation :
    run [{ body := [.word { lem := t!"a𝒜", select := t!"AA" }] }] t!"^a𝒜<n>/x$ " = some (.ok t!"x ") ∧
    run [{ body := [.word { lem := t!"aà", select := t!"AA" }] }] t!"^aà<n>/x$ " = some (.ok t!"X ") := by decide +kernel

/-- A unit without analysis is matched by no rule in which the lemma is not given. -/
theorem C73_noform_violation :
    run [{ body := [.word { select := t!"AA" }] }] t!"^x$ " = some (.ok t!"x ") ∧
    run [{ body := [.word { lem := [], select := t!"AA" }] }] t!"^x$ " = some (.ok t!"X ") := by decide +kernel

/-- Two words can be read in one unit of the stream that has the tag `<$>`: then a rule gives marks to more words than there are, and the program reads
and writes before the start of its array. -/
theorem C73_boundary_violation :
    run [{ body := [.word { select := t!"AA" }, .word { select := t!"AA" }] }] t!"^a\\/a<$>aa\\/aa\\/a/x$ " = some .ub := by decide +kernel

end Verif.Crx
