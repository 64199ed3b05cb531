import Verif.Lemmas.Gps
/-!
# C17, C62: GPS broadcast ephemeris (common/ephemeris/gps.cxx)
-/
namespace Verif.Props.Gps
open Verif.Gps Verif.GpsSpec

/-! ### C62 subframe fields -/

/-- **C62.** Whatever the state of the object, a correct subframe 1, 2 or 3 puts exactly the
quantities IS-GPS-200 places in it into the object, and any other message of any length and content
leaves all of them alone. -/
theorem C62_subframe_fields (m : List Nat) (hw : Words32 m) (e e' : Eph) (r : Bool)
    (h : parse m e = some (r, e')) :
    e'.s1 = (if IsSub 1 m then sub1 m else e.s1) ∧
    e'.s2 = (if IsSub 2 m then sub2 m else e.s2) ∧
    e'.s3 = (if IsSub 3 m then sub3 m else e.s3) ∧
    e'.iode = (if IsSub 1 m then iod1 m else if IsSub 2 m then iod2 m else e.iode) := by
  have key : (taken m e).s1 = (if IsSub 1 m then sub1 m else e.s1) ∧
      (taken m e).s2 = (if IsSub 2 m then sub2 m else e.s2) ∧
      (taken m e).s3 = (if IsSub 3 m then sub3 m else e.s3) ∧
      (taken m e).iode = (if IsSub 1 m then iod1 m else if IsSub 2 m then iod2 m else e.iode) := by
    unfold taken
    by_cases c1 : IsSub 1 m
    · have c2 : ¬ IsSub 2 m := fun x => by have := isSub_unique c1 x; omega
      have c3 : ¬ IsSub 3 m := fun x => by have := isSub_unique c1 x; omega
      simp [c1, c2, c3, take]
    · by_cases c2 : IsSub 2 m
      · have c3 : ¬ IsSub 3 m := fun x => by have := isSub_unique c2 x; omega
        simp [c1, c2, c3, take]
      · by_cases c3 : IsSub 3 m <;> simp [c1, c2, c3, take]
  have hp := parse_taken m hw e
  by_cases rel : Relevant m
  · rw [hp.1 rel] at h
    by_cases c : Ready (taken m e)
    · unfold finish at h
      obtain ⟨a, b, c', d⟩ := c
      rw [if_neg (by rw [a]; decide), if_neg (by rw [← b, ← c', ← d]; simp)] at h
      cases h1 : Utc.fromGPS (taken m e).s1.week ((taken m e).s2.toes * 1000) with
      | none => rw [h1] at h; simp at h
      | some t1 =>
        cases h2 : Utc.fromGPS (taken m e).s1.week ((taken m e).s1.tocs * 1000) with
        | none => rw [h1, h2] at h; simp at h
        | some t2 =>
          rw [h1, h2] at h
          simp only [Option.bind_eq_bind, Option.bind_some, Option.some.injEq, Prod.mk.injEq] at h
          rw [← h.2]; exact key
    · rw [finish_not c] at h
      simp only [Option.some.injEq, Prod.mk.injEq] at h
      rw [← h.2]; exact key
  · have := hp.2 rel
    rw [this.1] at h
    simp only [Option.some.injEq, Prod.mk.injEq] at h
    rw [← h.2]
    rw [this.2] at key
    exact key

/-- A subframe 2 with IODE 5, a negative Crs and a mean anomaly spanning two words. -/
def f2 : List Nat :=
  [0x8B * 2 ^ 22, 2 * 2 ^ 8, 5 * 2 ^ 22 + 0xFFFE * 2 ^ 6, 0x81 * 2 ^ 6, 0x000001 * 2 ^ 6, 0, 0, 0, 0, 0]
/-- A subframe 1 with IODC 0x205. -/
def f1 : List Nat :=
  [0x8B * 2 ^ 22, 1 * 2 ^ 8, (100 * 2 ^ 14 + 2) * 2 ^ 6, 0, 0, 0, 0x80 * 2 ^ 6, 5 * 2 ^ 22, 0, 0]
/-- A subframe 3 with the given IODE. -/
def f3 (iode : Nat) : List Nat :=
  [0x8B * 2 ^ 22, 3 * 2 ^ 8, 0, 0, 0, 0, 0, 0, 0, iode * 2 ^ 22]
/-- A subframe with number 3 whose preamble is damaged. -/
def junk : List Nat := [0x8A * 2 ^ 22, 3 * 2 ^ 8, 0, 0, 0, 0, 0, 0, 0, 0]

/-- An object as constructed. -/
def e0 : Eph :=
  ⟨⟨0, 0, 0, 0, 0, 0, 0, 0, 0, 0, 0, 0⟩, ⟨0, 0, 0, 0, 0, 0, 0, 0, 0⟩, ⟨0, 0, 0, 0, 0, 0, 0, 0⟩,
    ⟨0, 0⟩, ⟨0, 0⟩, 0, 0, 0, 0, 0⟩

theorem f1_words : Words32 f1 := by unfold Words32 f1; decide
theorem f2_words : Words32 f2 := by unfold Words32 f2; decide
theorem f3_words (i : Nat) (h : i < 256) : Words32 (f3 i) := by
  intro w hw
  simp only [f3, List.mem_cons, List.not_mem_nil, or_false] at hw
  omega
theorem junk_words : Words32 junk := by unfold Words32 junk; decide

example : IsSub 2 f2 ∧ (sub2 f2).crs = -2 ∧ (sub2 f2).m0 = -2130706431 ∧ iod2 f2 = 5 := by
  decide +kernel
example : IsSub 1 f1 ∧ (sub1 f1).week = 2148 ∧ (sub1 f1).iodc = 0x205 ∧ (sub1 f1).tgd = 0 := by
  decide +kernel

/-! ### C17 assembly -/

/-- **C17 (full statement, false).** Every report is backed by subframes 1, 2 and 3 received since
the last report, all with one issue of data, and every field comes from them. -/
def C17_statement : Prop :=
  ∀ (e0 : Eph) (h : List (List Nat)) (m : List Nat) (e e' : Eph) (cur : List (List Nat)),
    Fresh e0 → (∀ x ∈ h ++ [m], Words32 x) → observe e0 h = some (e, cur) →
    parse m e = some (true, e') →
    ∃ g1 ∈ cur ++ [m], ∃ g2 ∈ cur ++ [m], ∃ g3 ∈ cur ++ [m],
      IsSub 1 g1 ∧ IsSub 2 g2 ∧ IsSub 3 g3 ∧ iod1 g1 = iod2 g2 ∧ iod2 g2 = iod3 g3 ∧
      e'.s1 = sub1 g1 ∧ e'.s2 = sub2 g2 ∧ e'.s3 = sub3 g3

/-- **C17 violated** (1): subframes with issues of data 5, 5 and 9 are reported as one ephemeris
(`frame3` overwrites the issue it has read, gps.cxx 181). -/
theorem C17_mixed_issue_violated :
    ∃ e cur e', observe e0 [f1, f2] = some (e, cur) ∧ parse (f3 9) e = some (true, e') ∧
      IsSub 3 (f3 9) ∧ iod1 f1 = 5 ∧ iod2 f2 = 5 ∧ iod3 (f3 9) = 9 ∧ e'.s3 = sub3 (f3 9) := by
  have o := observe_sim (e0 := e0) (by unfold Fresh; decide) [f1, f2] (by
    intro m hm
    simp only [List.mem_cons, List.not_mem_nil, or_false] at hm
    rcases hm with rfl | rfl
    exacts [f1_words, f2_words])
  have p := parse_sim o.2 (f3 9) (f3_words 9 (by omega))
  have r : (sim (f3 9) (simAll [f1, f2] e0).1).1 = true := by decide +kernel
  refine ⟨_, _, (sim (f3 9) (simAll [f1, f2] e0).1).2, o.1, p.1.trans ?_, by decide +kernel,
    by decide +kernel, by decide +kernel, by decide +kernel, by decide +kernel⟩
  rw [← r]

/-- **C17 violated** (2): right after a report, a message with a damaged preamble reports the old
ephemeris again, with nothing received in between. -/
theorem C17_repeat_violated :
    ∃ e e', observe e0 [f1, f2, f3 5] = some (e, []) ∧ parse junk e = some (true, e') ∧
      ¬ IsSub 1 junk ∧ ¬ IsSub 2 junk ∧ ¬ IsSub 3 junk := by
  have o := observe_sim (e0 := e0) (by unfold Fresh; decide) [f1, f2, f3 5] (by
    intro m hm
    simp only [List.mem_cons, List.not_mem_nil, or_false] at hm
    rcases hm with rfl | rfl | rfl
    exacts [f1_words, f2_words, f3_words 5 (by omega)])
  have p := parse_sim o.2 junk junk_words
  refine ⟨(simAll [f1, f2, f3 5] e0).1, (sim junk (simAll [f1, f2, f3 5] e0).1).2, ?_, ?_,
    by decide +kernel, by decide +kernel, by decide +kernel⟩
  · have : (simAll [f1, f2, f3 5] e0).2 = [] := by decide +kernel
    exact o.1.trans (congrArg some (Prod.ext rfl this))
  · rw [p.1]
    have : (sim junk (simAll [f1, f2, f3 5] e0).1).1 = true := by decide +kernel
    rw [← this]

theorem C17_statement_false : ¬ C17_statement := by
  intro hs
  obtain ⟨e, e', o, p, n1, -, -⟩ := C17_repeat_violated
  obtain ⟨g1, m1, -, -, -, -, s1, -⟩ := hs e0 [f1, f2, f3 5] junk e e' [] (by unfold Fresh; decide)
    (by
      intro m hm
      simp only [List.cons_append, List.nil_append, List.mem_cons, List.not_mem_nil, or_false] at hm
      rcases hm with rfl | rfl | rfl | rfl
      exacts [f1_words, f2_words, f3_words 5 (by omega), junk_words]) o p
  simp only [List.nil_append, List.mem_singleton] at m1
  subst m1
  exact n1 s1

/-- No history of messages makes the parser misbehave. -/
theorem C17_total (e0 : Eph) (h0 : Fresh e0) (h : List (List Nat)) (hw : ∀ x ∈ h, Words32 x) :
    ∃ e cur, observe e0 h = some (e, cur) :=
  ⟨_, _, (observe_sim h0 h hw).1⟩

theorem lastSub_isSub {n : Nat} {h : List (List Nat)} {f : List Nat} (e : lastSub n h = some f) :
    f ∈ h ∧ IsSub n f := by
  unfold lastSub at e
  have a := List.mem_of_find?_eq_some e
  have b := List.find?_some e
  exact ⟨List.mem_reverse.1 a, by simpa using b⟩

/-- **C17 partial.** On every report, for every history: each group of fields is that of the most
recent correct subframe of its type (all three exist), the reference times are those of these
subframes, the issue of the clock subframe is the `iode` reported.  When the report is triggered by
a correct subframe and the reported issue is not 0, all three have been received since the last
report, and subframes 1 and 2 carry the reported issue.  Missing: the issue carried by subframe 3 is
never compared, and reports triggered by messages with a damaged preamble, or with issue 0, may
repeat an old ephemeris (both violated above). -/
theorem C17_assembly_partial (e0 : Eph) (h0 : Fresh e0) (h : List (List Nat)) (m : List Nat)
    (hw : ∀ x ∈ h ++ [m], Words32 x) (e e' : Eph) (cur : List (List Nat))
    (ho : observe e0 h = some (e, cur)) (hp : parse m e = some (true, e')) :
    ∃ g1 g2 g3, lastSub 1 (h ++ [m]) = some g1 ∧ lastSub 2 (h ++ [m]) = some g2 ∧
      lastSub 3 (h ++ [m]) = some g3 ∧
      e'.s1 = sub1 g1 ∧ e'.s2 = sub2 g2 ∧ e'.s3 = sub3 g3 ∧ e'.iode = iod1 g1 ∧
      e'.toe = ⟨gpsSecond (sub1 g1).week (sub2 g2).toes, 0⟩ ∧
      e'.toc = ⟨gpsSecond (sub1 g1).week (sub1 g1).tocs, 0⟩ ∧
      ((IsSub 1 m ∨ IsSub 2 m ∨ IsSub 3 m) → e'.iode ≠ 0 →
        ∃ k1 k2 k3, lastSub 1 (cur ++ [m]) = some k1 ∧ lastSub 2 (cur ++ [m]) = some k2 ∧
          lastSub 3 (cur ++ [m]) = some k3 ∧ iod1 k1 = e'.iode ∧ iod2 k2 = e'.iode) := by
  obtain ⟨oe, oi⟩ := observe_sim h0 h (fun x hx => hw x (by simp [hx]))
  rw [oe] at ho
  simp only [Option.some.injEq] at ho
  rw [ho] at oi
  simp only at oi
  rcases step oi m (hw m (by simp)) with ⟨a, b, c, d⟩ | ⟨a, -, -⟩
  swap
  · rw [a] at hp; simp at hp
  rw [a] at hp
  simp only [Option.some.injEq, Prod.mk.injEq, true_and] at hp
  subst hp
  have ti := inv_taken oi m
  obtain ⟨g1, g2, g3, e1, e2, e3⟩ := inv_all ti c.1
  have x1 := ti.s1 _ e1
  have x2 := ti.s2 _ e2
  have x3 := ti.s3 _ e3
  have hi : (taken m e).iode = iod1 g1 := by rw [c.2.2.2, x1, iodc_low]
  refine ⟨g1, g2, g3, e1, e2, e3, x1, x2, x3, hi, ?_, ?_, ?_⟩
  · rw [← x1, ← x2]; rfl
  · rw [← x1]; rfl
  · intro hs hne
    have hne' : (taken m e).iode ≠ 0 := hne
    have c12 := c.2.1
    have c13 := c.2.2.1
    have eq1 : (taken m e).iode1 = (taken m e).iode := by
      by_cases c1 : IsSub 1 m
      · unfold taken; rw [if_pos c1]; rfl
      by_cases c2 : IsSub 2 m
      · rw [c12]; unfold taken; rw [if_neg c1, if_pos c2]; rfl
      have c3 : IsSub 3 m := by tauto
      rw [c13]; unfold taken; rw [if_neg c1, if_neg c2, if_pos c3]; rfl
    have i1 := ti.i1
    have i2 := ti.i2
    have i3 := ti.i3
    have n1 : lastSub 1 (cur ++ [m]) ≠ none := by
      intro x; rw [x] at i1; simp at i1; omega
    have n2 : lastSub 2 (cur ++ [m]) ≠ none := by
      intro x; rw [x] at i2; simp at i2; omega
    have n3 : lastSub 3 (cur ++ [m]) ≠ none := by
      intro x; have := i3 x; omega
    obtain ⟨k1, y1⟩ := Option.ne_none_iff_exists'.1 n1
    obtain ⟨k2, y2⟩ := Option.ne_none_iff_exists'.1 n2
    obtain ⟨k3, y3⟩ := Option.ne_none_iff_exists'.1 n3
    refine ⟨k1, k2, k3, y1, y2, y3, ?_, ?_⟩
    · rw [y1] at i1; simp only [Option.map_some, Option.getD_some] at i1
      rw [← i1, eq1]; rfl
    · rw [y2] at i2; simp only [Option.map_some, Option.getD_some] at i2
      rw [← i2, ← c12, eq1]; rfl

/-- **C17**, the other direction: whatever has happened before, three correct subframes 1, 2, 3 with
one issue of data produce a report on at least one of them. -/
theorem C17_complete (e0 : Eph) (h0 : Fresh e0) (h : List (List Nat)) (g1 g2 g3 : List Nat)
    (hw : ∀ x ∈ h ++ [g1, g2, g3], Words32 x) (s1 : IsSub 1 g1) (s2 : IsSub 2 g2) (s3 : IsSub 3 g3)
    (hi : iod1 g1 = iod2 g2) :
    ∃ e cur r1 e1 r2 e2 r3 e3, observe e0 h = some (e, cur) ∧ parse g1 e = some (r1, e1) ∧
      parse g2 e1 = some (r2, e2) ∧ parse g3 e2 = some (r3, e3) ∧
      (r1 = true ∨ r2 = true ∨ r3 = true) := by
  obtain ⟨oe, oi⟩ := observe_sim h0 h (fun x hx => hw x (by simp [hx]))
  have w1 : Words32 g1 := hw g1 (by simp)
  have w2 : Words32 g2 := hw g2 (by simp)
  have w3 : Words32 g3 := hw g3 (by simp)
  have p1 := parse_sim oi g1 w1
  have p2 := parse_sim p1.2 g2 w2
  have p3 := parse_sim p2.2 g3 w3
  refine ⟨_, _, _, _, _, _, _, _, oe, p1.1, p2.1, p3.1, ?_⟩
  have n12 : ¬ IsSub 1 g2 := fun x => by have := isSub_unique s2 x; omega
  have n13 : ¬ IsSub 1 g3 := fun x => by have := isSub_unique s3 x; omega
  have n23 : ¬ IsSub 2 g3 := fun x => by have := isSub_unique s3 x; omega
  have rel : Relevant g3 := ⟨s3.1, by rw [s3.2.2]; omega, by rw [s3.2.2]⟩
  generalize (simAll h e0).1 = e at *
  generalize (simAll h e0).2 = cur at *
  have sf : ∀ m x, (sim m x).1 = false → (sim m x).2 = taken m x ∧
      ¬ (Relevant m ∧ Ready (taken m x)) := by
    intro m x hx
    unfold sim at *
    by_cases c : Relevant m ∧ Ready (taken m x)
    · rw [if_pos c] at hx; simp at hx
    · rw [if_neg c]; exact ⟨rfl, c⟩
  by_contra hc
  simp only [not_or, Bool.not_eq_true] at hc
  obtain ⟨c1, c2, c3⟩ := hc
  have q1 := sf _ _ c1
  rw [q1.1] at c2 c3
  have q2 := sf _ _ c2
  rw [q2.1] at c3
  have q3 := sf _ _ c3
  apply q3.2
  refine ⟨rel, ?_⟩
  have ti := inv_taken (inv_taken (inv_taken oi g1) g2) g3
  have t1 : taken g1 e = take 1 g1 e := by unfold taken; rw [if_pos s1]
  have t2 : ∀ x, taken g2 x = take 2 g2 x := by
    intro x; unfold taken; rw [if_neg n12, if_pos s2]
  have t3 : ∀ x, taken g3 x = take 3 g3 x := by
    intro x; unfold taken; rw [if_neg n13, if_neg n23, if_pos s3]
  refine ⟨?_, ?_, ?_, ?_⟩
  · rw [ti.coll]
    simp only [lastSub_append, if_pos s1, if_pos s2, if_pos s3, if_neg n12, if_neg n13, if_neg n23]
    rfl
  · rw [t1, t2, t3]; exact hi
  · rw [t1, t2, t3]; exact hi
  · rw [t1, t2, t3]
    show iod2 g2 = (sub1 g1).iodc &&& 0xFF
    rw [iodc_low, hi]

/-- **C17 violated** (3): the same three subframes with subframe 3 first are never reported. -/
theorem C17_order_violated :
    ∃ e, observe e0 [f3 5, f1, f2] = some (e, [f3 5, f1, f2]) ∧
      IsSub 1 f1 ∧ IsSub 2 f2 ∧ IsSub 3 (f3 5) ∧ iod1 f1 = 5 ∧ iod2 f2 = 5 ∧ iod3 (f3 5) = 5 := by
  have o := observe_sim (e0 := e0) (by unfold Fresh; decide) [f3 5, f1, f2] (by
    intro m hm
    simp only [List.mem_cons, List.not_mem_nil, or_false] at hm
    rcases hm with rfl | rfl | rfl
    exacts [f3_words 5 (by omega), f1_words, f2_words])
  refine ⟨(simAll [f3 5, f1, f2] e0).1, ?_, by decide +kernel, by decide +kernel,
    by decide +kernel, by decide +kernel, by decide +kernel, by decide +kernel⟩
  have : (simAll [f3 5, f1, f2] e0).2 = [f3 5, f1, f2] := by decide +kernel
  exact o.1.trans (congrArg some (Prod.ext rfl this))

/-- The hypotheses of `C17_assembly_partial` and `C17_complete` are met by the messages above: the
third one is reported with issue 5 and the week of subframe 1. -/
example : (sim (f3 5) (simAll [f1, f2] e0).1).1 = true ∧
    (sim (f3 5) (simAll [f1, f2] e0).1).2.iode = 5 ∧
    (sim (f3 5) (simAll [f1, f2] e0).1).2.toe = ⟨2148 * 604800 + 315964818, 0⟩ := by
  decide +kernel

end Verif.Props.Gps
