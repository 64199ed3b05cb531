import Verif.Lemmas.Glonass
/-!
# C19, C64, C66: GLONASS broadcast ephemeris (common/ephemeris/glonass.cxx)
-/
namespace Verif.Props.Glonass
open Verif.Glonass Verif.GlonassSpec

/-- String 1: 10:30:30, x velocity -5. -/
def g1 : List UInt8 := [0x0, 0xec, 0x29, 0x8, 0x0, 0x0, 0x28, 0x0, 0x0, 0xa0, 0x6a, 0x2, 0x0, 0x0, 0x3, 0x1]
/-- String 2: interval 42. -/
def g2 : List UInt8 := [0x0, 0x0, 0x2a, 0x10, 0x0, 0x0, 0x0, 0x0, 0x0, 0x80, 0x2c, 0x0, 0x0, 0x0, 0x3, 0x1]
/-- String 3. -/
def g3 : List UInt8 := [0x0, 0x80, 0x1, 0x1a, 0x0, 0x0, 0x0, 0x0, 0x0, 0x70, 0x6, 0x0, 0x0, 0x0, 0x3, 0x1]
/-- String 4: day 1000. -/
def g4 : List UInt8 := [0x0, 0x0, 0x0, 0x20, 0xf, 0x0, 0x0, 0x0, 0x0, 0x18, 0xe6, 0xa0, 0x0, 0x0, 0x3, 0x1]
/-- String 5: almanac day 999 of interval 6. -/
def g5 : List UInt8 := [0x0, 0x0, 0xe7, 0x2b, 0x0, 0x18, 0x0, 0x0, 0x0, 0x48, 0x0, 0x0, 0x0, 0x0, 0x3, 0x1]
/-- String 5 in interval 19. -/
def g5late : List UInt8 := [0x0, 0x0, 0x1, 0x28, 0x0, 0x4c, 0x0, 0x0, 0x0, 0x30, 0x3, 0x0, 0x0, 0x0, 0x3, 0x1]

/-- An object as constructed. -/
def e0 : Eph :=
  ⟨⟨0, 0, 0, 0, 0, 0⟩, ⟨0, 0, 0, 0, 0, 0⟩, ⟨0, 0, 0, 0⟩, ⟨0, 0, 0, 0, 0, 0⟩, ⟨0, 0⟩, ⟨0, 0⟩, ⟨0, 0⟩, 0, 0⟩

/-! ### C64 string fields -/

/-- **C64.** Whatever the state of the object, a valid string 1..5 puts exactly the quantities the
ICD places in it into the object, and every other message leaves the whole object alone. -/
theorem C64_string_fields (m : List UInt8) (e e' : Eph) (r : Bool)
    (h : parse m e = some (r, e')) :
    (¬ Valid m → e' = e ∧ r = false) ∧
    (Valid m → e'.s1 = (if num m = 1 then str1 m else e.s1) ∧
      e'.s2 = (if num m = 2 then str2 m else e.s2) ∧
      e'.s3 = (if num m = 3 then str3 m else e.s3) ∧
      e'.s4 = (if num m = 4 then str4 m else e.s4) ∧
      e'.s5 = (if num m = 5 then str5 m else e.s5)) := by
  rw [parse_eq] at h
  constructor
  · intro hv
    rw [if_neg hv] at h
    simp only [Option.some.injEq, Prod.mk.injEq] at h
    exact ⟨h.2.symm, h.1.symm⟩
  · intro hv
    rw [if_pos hv] at h
    have hm : (mid m e).s1 = (if num m = 1 then str1 m else e.s1) ∧
        (mid m e).s2 = (if num m = 2 then str2 m else e.s2) ∧
        (mid m e).s3 = (if num m = 3 then str3 m else e.s3) ∧
        (mid m e).s4 = (if num m = 4 then str4 m else e.s4) ∧
        (mid m e).s5 = (if num m = 5 then str5 m else e.s5) := by
      obtain ⟨-, -, h1, h5⟩ := hv
      unfold mid
      have : num m = 1 ∨ num m = 2 ∨ num m = 3 ∨ num m = 4 ∨ num m = 5 := by omega
      rcases this with x | x | x | x | x <;> simp [x]
    have hc : ∀ x y : Eph, convertTime x = some y →
        y.s1 = x.s1 ∧ y.s2 = x.s2 ∧ y.s3 = x.s3 ∧ y.s4 = x.s4 ∧ y.s5 = x.s5 := by
      intro x y hxy
      unfold convertTime at hxy
      split at hxy
      · simp only [Option.some.injEq] at hxy; rw [hxy]; exact ⟨rfl, rfl, rfl, rfl, rfl⟩
      · simp only [Option.bind_eq_bind, Option.bind_eq_some_iff] at hxy
        obtain ⟨_, _, _, _, _, _, _, _, _, _, _, _, _, _, hy⟩ := hxy
        simp only [Option.some.injEq] at hy
        rw [← hy]; exact ⟨rfl, rfl, rfl, rfl, rfl⟩
    rw [Option.map_eq_some_iff] at h
    obtain ⟨x, hx, he⟩ := h
    simp only [Prod.mk.injEq] at he
    rw [← he.2]
    split at hx
    · simp only [Option.some.injEq] at hx; rw [← hx]; exact hm
    · obtain ⟨a, b, c, d, f⟩ := hc _ _ hx
      rw [a, b, c, d, f]; exact hm

example : Valid g1 ∧ num g1 = 1 ∧ str1 g1 = ⟨10, 30, 30, -5, 0, 77⟩ := by decide +kernel
example : Valid g4 ∧ num g4 = 4 ∧ (str4 g4).NT = 1000 ∧ (str4 g4).slot = 7 := by decide +kernel

/-! ### C19 assembly -/

/-- What C19 says of one message `m` after the history `h`. -/
def ReportsRight (e0 : Eph) (h : List (List UInt8)) (m : List UInt8) : Prop :=
  ∃ e r e', observe e0 h = some e ∧ parse m e = some (r, e') ∧
    (r = true ↔ Valid m ∧ num m = 5 ∧
      ∀ k, 1 ≤ k → k ≤ 5 → ∃ x ∈ (era (h ++ [m])).2, num x = k) ∧
    (r = true → ∃ f1 f2 f3 f4 f5, lastStr 1 (era (h ++ [m])).2 = some f1 ∧
      lastStr 2 (era (h ++ [m])).2 = some f2 ∧ lastStr 3 (era (h ++ [m])).2 = some f3 ∧
      lastStr 4 (era (h ++ [m])).2 = some f4 ∧ lastStr 5 (era (h ++ [m])).2 = some f5 ∧
      e'.s1 = str1 f1 ∧ e'.s2 = str2 f2 ∧ e'.s3 = str3 f3 ∧ e'.s4 = str4 f4 ∧ e'.s5 = str5 f5) ∧
    (¬ Valid m → r = false ∧ e' = e)

/-- **C19 (full statement, false).** -/
def C19_statement : Prop :=
  ∀ (e0 : Eph) (h : List (List UInt8)) (m : List UInt8), Fresh e0 → ReportsRight e0 h m

/-- **C19 partial.** For every history in which the announced four-year intervals are below 19 (until
the end of 2067): the parser reports exactly on a valid string 5 completing the strings 1..5 of the
current time mark, every field is that of the latest string of the era, and invalid messages change
nothing.  Missing: intervals 19..31, where the conversion overflows (violated below). -/
theorem C19_assembly_partial (e0 : Eph) (h0 : Fresh e0) (h : List (List UInt8)) (m : List UInt8)
    (he : ∀ x ∈ h ++ [m], Valid x → num x = 5 → (str5 x).N4 < 19) : ReportsRight e0 h m := by
  obtain ⟨ho, hi⟩ := observe_sim h0 h (fun x hx => he x (by simp [hx]))
  obtain ⟨hp, hn⟩ := parse_step hi m he
  refine ⟨_, _, _, ho, hp, ?_, ?_, ?_⟩
  · have hl : ∀ k, (∃ x ∈ (era (h ++ [m])).2, num x = k) ↔ ind (lastStr k (era (h ++ [m])).2) = 1 := by
      intro k
      constructor
      · rintro ⟨x, hx, hk⟩
        cases hf : lastStr k (era (h ++ [m])).2 with
        | none =>
          unfold lastStr at hf
          have := List.find?_eq_none.1 hf x (List.mem_reverse.2 hx)
          simp [hk] at this
        | some f => rfl
      · intro hk
        obtain ⟨f, hf⟩ := ind_some _ hk
        exact ⟨f, lastStr_mem hf⟩
    have hfl := hn.flags
    unfold flagsOf at hfl
    have a1 := ind_lt (lastStr 1 (era (h ++ [m])).2)
    have a2 := ind_lt (lastStr 2 (era (h ++ [m])).2)
    have a3 := ind_lt (lastStr 3 (era (h ++ [m])).2)
    have a4 := ind_lt (lastStr 4 (era (h ++ [m])).2)
    have a5 := ind_lt (lastStr 5 (era (h ++ [m])).2)
    rw [decide_eq_true_eq]
    constructor
    · rintro ⟨b, c, d⟩
      refine ⟨b, d, ?_⟩
      intro k k1 k5
      rw [hl]
      have : k = 1 ∨ k = 2 ∨ k = 3 ∨ k = 4 ∨ k = 5 := by omega
      rcases this with rfl | rfl | rfl | rfl | rfl <;> omega
    · rintro ⟨b, c, d⟩
      refine ⟨b, ?_, c⟩
      rw [hfl, (hl 1).1 (d 1 (by omega) (by omega)), (hl 2).1 (d 2 (by omega) (by omega)),
        (hl 3).1 (d 3 (by omega) (by omega)), (hl 4).1 (d 4 (by omega) (by omega)),
        (hl 5).1 (d 5 (by omega) (by omega))]
  · intro hr
    rw [decide_eq_true_eq] at hr
    have hfl := hn.flags
    unfold flagsOf at hfl
    have a1 := ind_lt (lastStr 1 (era (h ++ [m])).2)
    have a2 := ind_lt (lastStr 2 (era (h ++ [m])).2)
    have a3 := ind_lt (lastStr 3 (era (h ++ [m])).2)
    have a4 := ind_lt (lastStr 4 (era (h ++ [m])).2)
    have a5 := ind_lt (lastStr 5 (era (h ++ [m])).2)
    obtain ⟨f1, e1⟩ := ind_some (lastStr 1 (era (h ++ [m])).2) (by omega)
    obtain ⟨f2, e2⟩ := ind_some (lastStr 2 (era (h ++ [m])).2) (by omega)
    obtain ⟨f3, e3⟩ := ind_some (lastStr 3 (era (h ++ [m])).2) (by omega)
    obtain ⟨f4, e4⟩ := ind_some (lastStr 4 (era (h ++ [m])).2) (by omega)
    obtain ⟨f5, e5⟩ := ind_some (lastStr 5 (era (h ++ [m])).2) (by omega)
    exact ⟨f1, f2, f3, f4, f5, e1, e2, e3, e4, e5, hn.s1 _ e1, hn.s2 _ e2, hn.s3 _ e3, hn.s4 _ e4,
      hn.s5 _ e5⟩
  · intro hv
    refine ⟨by simp [hv], ?_⟩
    unfold next; rw [if_neg hv]

/-- Five strings of one era: the fifth reports, and so does a repetition of it. -/
example : (∀ x ∈ [g1, g2, g3, g4] ++ [g5], Valid x → num x = 5 → (str5 x).N4 < 19) ∧
    (next g5 (simAll [g1, g2, g3, g4] e0)).flags = 31 ∧ Valid g5 ∧ num g5 = 5 ∧
    (era [g1, g2, g3, g4, g5]) = (0x103, [g1, g2, g3, g4, g5]) := by
  decide +kernel

/-- **C19 violated**: a valid string 5 announcing a four-year interval from 19 on, after a string 4
of the same era, overflows the `int` product of glonass.cxx 200. -/
theorem C19_interval_violated (m : List UInt8) (e : Eph) (hv : Valid m) (h5 : num m = 5)
    (hm : mark m = e.mark) (h4 : got e 4 = true) (hN : 19 ≤ (str5 m).N4) : parse m e = none := by
  rw [parse_eq, if_pos hv, if_neg (by omega)]
  have hmid : mid m e = { e with mark := mark m, s5 := str5 m, flags := e.flags ||| 16 } := by
    unfold mid
    simp [h5, hm]
  have : convertTime (mid m e) = none := by
    rw [hmid]
    unfold convertTime
    rw [if_neg]
    · have : Utc.i32 ((((str5 m).N4 : Int) - 1) * (3 * 31536000 + 31622400)) = none := by
        unfold Utc.i32; rw [if_neg (by omega)]
      simp only [this]; rfl
    · unfold got at *
      simp only [Nat.testBit_or, h4, Bool.true_or, not_true, false_or]
      simp only [show (16 : Nat).testBit (5 - 1) = true by decide, Bool.or_true, not_true]
      simp
  rw [this]; rfl

theorem C19_statement_false : ¬ C19_statement := by
  intro hs
  obtain ⟨e, r, e', ho, hp, -⟩ := hs e0 [g4] g5late (by unfold Fresh; decide)
  have o := (observe_sim (e0 := e0) (by unfold Fresh; decide) [g4] (by
    intro x hx _ h5
    simp only [List.mem_singleton] at hx
    subst hx
    exact absurd h5 (by decide +kernel))).1
  rw [o] at ho
  simp only [Option.some.injEq] at ho
  have : parse g5late e = none := by
    apply C19_interval_violated
    · decide +kernel
    · decide +kernel
    · rw [← ho]; decide +kernel
    · rw [← ho]; decide +kernel
    · decide +kernel
  rw [this] at hp
  simp at hp

/-! ### C66 reference time -/

/-- **C66 (full statement, false).** The reference time of a reported ephemeris is the instant
announced by its own strings: interval `tb` of 15 minutes on day `NT` of the four-year interval
`N4`. -/
def C66_statement : Prop :=
  ∀ (e0 : Eph) (h : List (List UInt8)) (m : List UInt8) (e e' : Eph), Fresh e0 →
    (∀ x ∈ h ++ [m], Valid x → num x = 5 → (str5 x).N4 < 19) →
    observe e0 h = some e → parse m e = some (true, e') →
    e'.toe = ⟨dayStart e'.s5.N4 e'.s4.NT + e'.s2.tb * 900, 0⟩

/-- **C66 partial.** The reported reference time and frame time are those of the *almanac* day `NA`
of string 5; hence they are right exactly when the almanac day is the current day. -/
theorem C66_reference_time_partial (e0 : Eph) (h0 : Fresh e0) (h : List (List UInt8))
    (m : List UInt8) (he : ∀ x ∈ h ++ [m], Valid x → num x = 5 → (str5 x).N4 < 19)
    (e e' : Eph) (ho : observe e0 h = some e) (hp : parse m e = some (true, e')) :
    e'.toe = ⟨dayStart e'.s5.N4 e'.s5.NA + e'.s2.tb * 900, 0⟩ ∧
    e'.tof = ⟨dayStart e'.s5.N4 e'.s5.NA +
      (e'.s1.tk_h * 3600 + e'.s1.tk_m * 60 + e'.s1.tk_s), 0⟩ ∧
    (e'.toe = ⟨dayStart e'.s5.N4 e'.s4.NT + e'.s2.tb * 900, 0⟩ ↔ e'.s5.NA = e'.s4.NT) := by
  obtain ⟨ho', hi⟩ := observe_sim h0 h (fun x hx => he x (by simp [hx]))
  rw [ho'] at ho
  simp only [Option.some.injEq] at ho
  rw [ho] at hi
  obtain ⟨hp', hn⟩ := parse_step hi m he
  rw [hp'] at hp
  simp only [Option.some.injEq, Prod.mk.injEq, decide_eq_true_eq] at hp
  obtain ⟨⟨hv, hf, h5⟩, rfl⟩ := hp
  have hc : next m e = conv (mid m e) := by
    unfold next; rw [if_pos hv, if_neg (by omega)]
  have hg : ∀ k, 1 ≤ k → k ≤ 5 → got (mid m e) k = true := by
    have : (mid m e).flags = 31 := by
      rw [hc] at hf
      unfold conv at hf
      split at hf <;> exact hf
    intro k k1 k5
    unfold got
    rw [this]
    have : k = 1 ∨ k = 2 ∨ k = 3 ∨ k = 4 ∨ k = 5 := by omega
    rcases this with rfl | rfl | rfl | rfl | rfl <;> decide
  have hcv : next m e = { mid m e with
      tof := ⟨dayStart (mid m e).s5.N4 (mid m e).s5.NA +
        ((mid m e).s1.tk_h * 3600 + (mid m e).s1.tk_m * 60 + (mid m e).s1.tk_s), 0⟩,
      toe := ⟨dayStart (mid m e).s5.N4 (mid m e).s5.NA + (mid m e).s2.tb * 900, 0⟩ } := by
    rw [hc]
    unfold conv
    rw [if_pos ⟨hg 4 (by omega) (by omega), hg 5 (by omega) (by omega)⟩,
      if_pos (hg 1 (by omega) (by omega)), if_pos (hg 2 (by omega) (by omega))]
  rw [hcv]
  refine ⟨rfl, rfl, ?_⟩
  simp only [dayStart, Utc.Time.mk.injEq, and_true]
  omega

/-- **C66 violated**: strings of day 1000 with an almanac of day 999 give a reference time one day
early. -/
theorem C66_almanac_day_violated :
    ∃ e e', observe e0 [g1, g2, g3, g4] = some e ∧ parse g5 e = some (true, e') ∧
      e'.s4.NT = 1000 ∧ e'.toe = ⟨dayStart 6 1000 + 42 * 900 - 86400, 0⟩ := by
  have ea : ∀ x ∈ [g1, g2, g3, g4] ++ [g5], Valid x → num x = 5 → (str5 x).N4 < 19 := by
    decide +kernel
  obtain ⟨ho, hi⟩ := observe_sim (e0 := e0) (by unfold Fresh; decide) [g1, g2, g3, g4]
    (fun x hx => ea x (by simp only [List.mem_append]; exact Or.inl hx))
  obtain ⟨hp, -⟩ := parse_step hi g5 ea
  refine ⟨simAll [g1, g2, g3, g4] e0, next g5 (simAll [g1, g2, g3, g4] e0), ho, hp.trans ?_,
    by decide +kernel, by decide +kernel⟩
  have : decide (Valid g5 ∧ (next g5 (simAll [g1, g2, g3, g4] e0)).flags = 31 ∧ num g5 = 5)
      = true := by decide +kernel
  rw [this]

theorem C66_statement_false : ¬ C66_statement := by
  intro hs
  obtain ⟨e, e', ho, hp, hN, ht⟩ := C66_almanac_day_violated
  have ea : ∀ x ∈ [g1, g2, g3, g4] ++ [g5], Valid x → num x = 5 → (str5 x).N4 < 19 := by
    decide +kernel
  have := (C66_reference_time_partial e0 (by unfold Fresh; decide) _ _ ea e e' ho hp).2.2.1
    (hs e0 _ _ e e' (by unfold Fresh; decide) ea ho hp)
  have k := (C64_string_fields g5 e e' true hp).2 (by decide +kernel)
  have : e'.s5.NA = 999 := by rw [k.2.2.2.2, if_pos (by decide +kernel)]; decide +kernel
  omega

end Verif.Props.Glonass
