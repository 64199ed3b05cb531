import Verif.Lemmas.Galileo
/-!
# C18, C63: Galileo broadcast ephemeris (common/ephemeris/galileo.cxx)
-/
namespace Verif.Props.Galileo
open Verif.Galileo Verif.GalileoSpec

/-- Word 2 with issue 300, Omega0 = -5 and idot = 100. -/
def p2 : List UInt8 :=
  [255, 63, 75, 2, 0, 192, 254, 255, 0, 0, 0, 0, 0, 0, 0, 0,
    0, 0, 100, 128, 0, 0, 0, 0, 207, 27, 0, 0, 0, 0, 192, 222]
/-- Word 4 of satellite 5 with af0 = 1000, toc = 7200 s. -/
def p4 : List UInt8 :=
  [0, 5, 75, 4, 1, 0, 0, 0, 31, 0, 0, 224, 0, 0, 0, 64,
    0, 0, 0, 128, 0, 0, 0, 0, 225, 38, 0, 0, 0, 0, 192, 164]
/-- Word 4 of satellite 9 with af0 = -777. -/
def p4x : List UInt8 :=
  [0, 9, 75, 4, 1, 0, 0, 0, 231, 255, 255, 227, 0, 0, 0, 184,
    0, 0, 0, 128, 0, 0, 0, 0, 178, 48, 0, 0, 0, 0, 128, 181]
/-- Word 0 with week 1200 and time of week 6000. -/
def p0 : List UInt8 :=
  [0, 0, 128, 0, 0, 0, 0, 0, 0, 0, 0, 0, 0, 0, 192, 18,
    0, 0, 220, 133, 0, 0, 0, 0, 178, 24, 0, 0, 0, 220, 5, 109]
/-- Word 1 with toe = 7200 s, sqrt(A) = 2852134400. -/
def p1 : List UInt8 :=
  [120, 0, 75, 1, 0, 0, 0, 0, 0, 0, 0, 0, 0, 0, 0, 170,
    0, 0, 0, 158, 0, 0, 0, 0, 215, 40, 0, 0, 0, 0, 64, 174]
/-- The same with other bits after the checksum. -/
def p1' : List UInt8 :=
  [120, 0, 75, 1, 0, 0, 0, 0, 0, 0, 0, 0, 0, 0, 0, 170,
    0, 0, 0, 158, 0, 0, 0, 0, 215, 40, 0, 0, 192, 255, 127, 174]
/-- Word 3. -/
def p3 : List UInt8 :=
  [0, 0, 75, 3, 64, 255, 63, 0, 0, 0, 0, 0, 0, 0, 0, 0,
    0, 0, 0, 128, 0, 0, 0, 0, 148, 27, 0, 0, 0, 0, 192, 253]
/-- Word 3 of another issue of data. -/
def p3x : List UInt8 :=
  [0, 64, 75, 3, 64, 255, 63, 0, 0, 0, 0, 0, 0, 0, 0, 0,
    0, 0, 0, 128, 0, 0, 0, 0, 59, 33, 0, 0, 0, 0, 0, 10]
/-- Word 5 with only the E1B data validity flag raised. -/
def p5 : List UInt8 :=
  [0, 0, 0, 5, 128, 125, 0, 0, 0, 0, 32, 0, 0, 0, 0, 0,
    0, 0, 0, 128, 0, 0, 0, 0, 6, 1, 0, 0, 0, 0, 192, 190]

/-- An object for satellite 5 as constructed. -/
def e0 : Eph :=
  ⟨5, ⟨0, 0⟩, ⟨0, 0, 0, 0, 0⟩, ⟨0, 0, 0, 0, 0⟩, ⟨0, 0, 0, 0, 0, 0, 0⟩, ⟨0, 0, 0, 0, 0, 0, 0⟩,
    ⟨0, 0, 0, 0, 0, 0⟩, 0, 0, 0, ⟨0, 0⟩, ⟨0, 0⟩, 0⟩

theorem valids_ok : Valid p0 ∧ Valid p1 ∧ Valid p1' ∧ Valid p2 ∧ Valid p3 ∧ Valid p3x ∧ Valid p4 ∧
    Valid p4x ∧ Valid p5 := by decide +kernel

/-! ### C63 word fields -/

/-- The word parameters of the object after `m` if the ICD is followed. -/
def icd (m : List UInt8) (e : Eph) : W0 × W1 × W2 × W3 × W4 × W5 :=
  let b := dataBit m
  (if Valid m ∧ type m = 0 then word0 b else e.w0, if Valid m ∧ type m = 1 then word1 b else e.w1,
    if Valid m ∧ type m = 2 then word2 b else e.w2, if Valid m ∧ type m = 3 then word3 b else e.w3,
    if Valid m ∧ type m = 4 then word4 b else e.w4, if Valid m ∧ type m = 5 then word5 b else e.w5)

/-- **C63 (full statement, false).** A valid word puts exactly the quantities the ICD places in it
into the object; any other message leaves them alone. -/
def C63_statement : Prop :=
  ∀ (m : List UInt8) (e e' : Eph) (r : Bool), 32 ≤ m.length → parse m e = some (r, e') →
    (e'.w0, e'.w1, e'.w2, e'.w3, e'.w4, e'.w5) = icd m e

/-- What the code reads for a word. -/
theorem words_taken (m : List UInt8) (hl : 32 ≤ m.length) (e e' : Eph) (r : Bool)
    (h : parse m e = some (r, e')) :
    e'.w0 = (if Valid m ∧ type m = 0 then word0 (codeBit m) else e.w0) ∧
    e'.w1 = (if Valid m ∧ type m = 1 then word1 (codeBit m) else e.w1) ∧
    e'.w2 = (if Valid m ∧ type m = 2 then word2 (codeBit m) else e.w2) ∧
    e'.w3 = (if Valid m ∧ type m = 3 then word3 (codeBit m) else e.w3) ∧
    e'.w4 = (if Valid m ∧ type m = 4 then word4 (codeBit m) else e.w4) ∧
    e'.w5 = (if Valid m ∧ type m = 5 then word5code (codeBit m) else e.w5) ∧
    e'.sat = e.sat := by
  rw [parse_eq m hl e] at h
  by_cases v : Valid m
  swap
  · rw [if_neg v] at h
    simp only [Option.some.injEq, Prod.mk.injEq] at h
    obtain ⟨rfl, rfl⟩ := h
    simp [v]
  rw [if_pos v] at h
  have hk : e'.w0 = (take m e).w0 ∧ e'.w1 = (take m e).w1 ∧ e'.w2 = (take m e).w2 ∧
      e'.w3 = (take m e).w3 ∧ e'.w4 = (take m e).w4 ∧ e'.w5 = (take m e).w5 ∧
      e'.sat = (take m e).sat := by
    generalize take m e = x at h
    by_cases c : Ready x
    · obtain ⟨a, b, c, d⟩ := c
      unfold finish at h
      rw [if_neg (by rw [a]; decide), if_neg (by rw [← b, ← c, ← d]; simp)] at h
      simp only [Option.bind_eq_bind, Option.bind_eq_some_iff, Option.some.injEq,
        Prod.mk.injEq] at h
      obtain ⟨-, -, -, -, -, -, -, -, -, -, -, rfl⟩ := h
      simp
    · rw [finish_not c] at h
      simp only [Option.some.injEq, Prod.mk.injEq] at h
      obtain ⟨rfl, rfl⟩ := h
      simp
  obtain ⟨k0, k1, k2, k3, k4, k5, k6⟩ := hk
  rw [k0, k1, k2, k3, k4, k5, k6]
  have ht : type m ≤ 5 := v.2.2.2.2.2
  have : type m = 0 ∨ type m = 1 ∨ type m = 2 ∨ type m = 3 ∨ type m = 4 ∨ type m = 5 := by omega
  unfold take
  rcases this with x | x | x | x | x | x <;> simp [x, v]

/-- A field that straddles data bit 112 keeps its leading bits. -/
theorem leading_bits (m : List UInt8) (pos a b : Nat) (h : pos + a = 112) :
    U (codeBit m) pos (a + b) / 2 ^ b = U (dataBit m) pos a := by
  have hs : ∀ b, U (codeBit m) pos (a + b) / 2 ^ b = U (codeBit m) pos a := by
    intro b
    induction b with
    | zero => simp
    | succ b ih =>
      have e : U (codeBit m) pos (a + (b + 1))
          = 2 * U (codeBit m) pos (a + b) + codeBit m (pos + (a + b)) := by
        unfold U
        rw [← Nat.add_assoc, List.range_succ, List.map_append, List.map_singleton, Bits.number_append]
      have hb := codeBit_lt m (pos + (a + b))
      rw [e, Nat.pow_succ, Nat.mul_comm (2 ^ b), ← Nat.div_div_eq_div_mul, ← ih]
      congr 1
      omega
  rw [hs, U_code m pos a (by omega)]

/-- **C63 partial.** Whatever the state of the object, messages that are not valid words leave every
parameter alone, and a valid word of each type changes only its own group, in which every
field that ends before data bit 112 is the broadcast one; of `tow`, `sqrta` the leading 4 and 18 bits
are.  Missing: the trailing bits of `tow`, `sqrta`, `crs`, `af1`, all of `idot` and `af2` (read from
behind the checksum), and the two data validity flags (read one bit early). -/
theorem C63_word_fields_partial (m : List UInt8) (hl : 32 ≤ m.length) (e e' : Eph) (r : Bool)
    (h : parse m e = some (r, e')) :
    (¬ (Valid m ∧ type m = 0) → e'.w0 = e.w0) ∧ (¬ (Valid m ∧ type m = 1) → e'.w1 = e.w1) ∧
    (¬ (Valid m ∧ type m = 2) → e'.w2 = e.w2) ∧ (¬ (Valid m ∧ type m = 3) → e'.w3 = e.w3) ∧
    (¬ (Valid m ∧ type m = 4) → e'.w4 = e.w4) ∧ (¬ (Valid m ∧ type m = 5) → e'.w5 = e.w5) ∧
    (Valid m → type m = 0 → e'.w0.time_f = (word0 (dataBit m)).time_f ∧
      e'.w0.tow / 2 ^ 16 = (word0 (dataBit m)).tow / 2 ^ 16) ∧
    (Valid m → type m = 1 → e'.w1.iod = (word1 (dataBit m)).iod ∧
      e'.w1.toes = (word1 (dataBit m)).toes ∧ e'.w1.m0 = (word1 (dataBit m)).m0 ∧
      e'.w1.ecc = (word1 (dataBit m)).ecc ∧
      e'.w1.sqrta / 2 ^ 14 = (word1 (dataBit m)).sqrta / 2 ^ 14) ∧
    (Valid m → type m = 2 → e'.w2.iod = (word2 (dataBit m)).iod ∧
      e'.w2.omega0 = (word2 (dataBit m)).omega0 ∧ e'.w2.i0 = (word2 (dataBit m)).i0 ∧
      e'.w2.w = (word2 (dataBit m)).w) ∧
    (Valid m → type m = 3 → e'.w3 = { word3 (dataBit m) with crs := e'.w3.crs }) ∧
    (Valid m → type m = 4 →
      e'.w4 = { word4 (dataBit m) with af1 := e'.w4.af1, af2 := e'.w4.af2 }) ∧
    (Valid m → type m = 5 → e'.w5 = { word5 (dataBit m) with
      e5b_dvs := e'.w5.e5b_dvs, e1b_dvs := e'.w5.e1b_dvs }) := by
  obtain ⟨k0, k1, k2, k3, k4, k5, -⟩ := words_taken m hl e e' r h
  have u := U_code m
  have s := S_code m
  have l2 : ∀ pos a b, pos + a = 112 → U (dataBit m) pos (a + b) / 2 ^ b = U (dataBit m) pos a := by
    intro pos a b _
    induction b with
    | zero => simp
    | succ b ih =>
      have e : U (dataBit m) pos (a + (b + 1))
          = 2 * U (dataBit m) pos (a + b) + dataBit m (pos + (a + b)) := by
        unfold U
        rw [← Nat.add_assoc, List.range_succ, List.map_append, List.map_singleton, Bits.number_append]
      have hb : dataBit m (pos + (a + b)) < 2 := by
        unfold dataBit; split <;> exact Nat.mod_lt _ (by omega)
      rw [e, Nat.pow_succ, Nat.mul_comm (2 ^ b), ← Nat.div_div_eq_div_mul, ← ih]
      congr 1
      omega
  refine ⟨fun c => ?_, fun c => ?_, fun c => ?_, fun c => ?_, fun c => ?_, fun c => ?_,
    fun v t => ?_, fun v t => ?_, fun v t => ?_, fun v t => ?_, fun v t => ?_, fun v t => ?_⟩
  · rw [k0, if_neg c]
  · rw [k1, if_neg c]
  · rw [k2, if_neg c]
  · rw [k3, if_neg c]
  · rw [k4, if_neg c]
  · rw [k5, if_neg c]
  · rw [k0, if_pos ⟨v, t⟩]
    exact ⟨u 6 2 (by omega), (leading_bits m 108 4 16 rfl).trans (l2 108 4 16 rfl).symm⟩
  · rw [k1, if_pos ⟨v, t⟩]
    exact ⟨u 6 10 (by omega), congrArg (60 * ·) (u 16 14 (by omega)), s 30 32 (by omega),
      u 62 32 (by omega), (leading_bits m 94 18 14 rfl).trans (l2 94 18 14 rfl).symm⟩
  · rw [k2, if_pos ⟨v, t⟩]
    exact ⟨u 6 10 (by omega), s 16 32 (by omega), s 48 32 (by omega), s 80 32 (by omega)⟩
  · rw [k3, if_pos ⟨v, t⟩]
    simp only [word3]
    rw [u 6 10 (by omega), s 16 24 (by omega), s 40 16 (by omega), s 56 16 (by omega),
      s 72 16 (by omega), s 88 16 (by omega)]
  · rw [k4, if_pos ⟨v, t⟩]
    simp only [word4]
    rw [u 6 10 (by omega), s 22 16 (by omega), s 38 16 (by omega), u 54 14 (by omega),
      s 68 31 (by omega)]
  · rw [k5, if_pos ⟨v, t⟩]
    simp only [word5, word5code]
    rw [s 47 10 (by omega), s 57 10 (by omega), u 67 2 (by omega), u 69 2 (by omega)]

/-- **C63 violated** (1): `idot` is broadcast as 100 and stored as 0. -/
theorem C63_idot_violated : ∃ e', parse p2 e0 = some (false, e') ∧ Valid p2 ∧ type p2 = 2 ∧
    (word2 (dataBit p2)).idot = 100 ∧ e'.w2.idot = 0 := by
  have : ((parse p2 e0).map fun r => (r.1, r.2.w2.idot)) = some (false, 0) := by decide +kernel
  rw [Option.map_eq_some_iff] at this
  obtain ⟨⟨r, e'⟩, h, hr⟩ := this
  simp only [Prod.mk.injEq] at hr
  obtain ⟨rfl, hi⟩ := hr
  exact ⟨e', h, valids_ok.2.2.2.1, by decide +kernel, by decide +kernel, hi⟩

/-- **C63 violated** (2): bits behind the checksum, which protects nothing there, decide the orbit:
two messages with the same 128 data bits give different `sqrta`. -/
theorem C63_unprotected_violated : ∃ e1 e2, parse p1 e0 = some (false, e1) ∧
    parse p1' e0 = some (false, e2) ∧ (∀ i, i < 128 → dataBit p1 i = dataBit p1' i) ∧
    e1.w1.sqrta ≠ e2.w1.sqrta := by
  have h1 : ((parse p1 e0).map fun r => (r.1, r.2.w1.sqrta)) = some (false, 2852126720) := by
    decide +kernel
  have h2 : ((parse p1' e0).map fun r => (r.1, r.2.w1.sqrta)) = some (false, 2852143103) := by
    decide +kernel
  rw [Option.map_eq_some_iff] at h1 h2
  obtain ⟨⟨r1, e1⟩, h1, hr1⟩ := h1
  obtain ⟨⟨r2, e2⟩, h2, hr2⟩ := h2
  simp only [Prod.mk.injEq] at hr1 hr2
  obtain ⟨rfl, x1⟩ := hr1
  obtain ⟨rfl, x2⟩ := hr2
  exact ⟨e1, e2, h1, h2, by decide +kernel, by rw [x1, x2]; decide⟩

/-- **C63 violated** (3): the E1B data validity flag is raised in the message and not in the object. -/
theorem C63_validity_violated : ∃ e', parse p5 e0 = some (false, e') ∧ Valid p5 ∧ type p5 = 5 ∧
    (word5 (dataBit p5)).e1b_dvs = 1 ∧ e'.w5.e1b_dvs = 0 ∧ e'.w5.e5b_dvs = 0 := by
  have : ((parse p5 e0).map fun r => (r.1, r.2.w5.e1b_dvs, r.2.w5.e5b_dvs)) = some (false, 0, 0) := by
    decide +kernel
  rw [Option.map_eq_some_iff] at this
  obtain ⟨⟨r, e'⟩, h, hr⟩ := this
  simp only [Prod.mk.injEq] at hr
  obtain ⟨rfl, hi, hj⟩ := hr
  exact ⟨e', h, valids_ok.2.2.2.2.2.2.2.2, by decide +kernel, by decide +kernel, hi, hj⟩

theorem C63_statement_false : ¬ C63_statement := by
  intro hs
  obtain ⟨e', h, v, t, a, b⟩ := C63_idot_violated
  have := hs p2 e0 e' false (by decide) h
  simp only [icd, Prod.mk.injEq] at this
  have h2 := this.2.2.1
  rw [if_pos ⟨v, t⟩] at h2
  rw [h2, a] at b
  exact absurd b (by decide)

example : Valid p2 ∧ type p2 = 2 ∧ (word2 (dataBit p2)).omega0 = -5 ∧
    (word2 (dataBit p2)).iod = 300 := by decide +kernel
example : ¬ Valid (p2.set 6 0) := by decide +kernel

/-! ### C18 assembly -/

/-- **C18 (full statement, false).** Every report is backed by valid words 0 to 5 received since the
last word 2, with one issue of data and naming this satellite, each group of fields comes from them,
and the week is the broadcast one. -/
def C18_statement : Prop :=
  ∀ (e0 : Eph) (h : List (List UInt8)) (m : List UInt8) (e e' : Eph) (cur : List (List UInt8)),
    Fresh e0 → (∀ x ∈ h ++ [m], 32 ≤ x.length) → observe e0 h = some (e, cur) →
    parse m e = some (true, e') →
    ∃ g0 ∈ era (h ++ [m]), ∃ g1 ∈ era (h ++ [m]), ∃ g2 ∈ era (h ++ [m]), ∃ g3 ∈ era (h ++ [m]),
      ∃ g4 ∈ era (h ++ [m]), ∃ g5 ∈ era (h ++ [m]),
      type g0 = 0 ∧ type g1 = 1 ∧ type g2 = 2 ∧ type g3 = 3 ∧ type g4 = 4 ∧ type g5 = 5 ∧
      (word1 (dataBit g1)).iod = (word2 (dataBit g2)).iod ∧
      (word1 (dataBit g1)).iod = (word3 (dataBit g3)).iod ∧
      (word1 (dataBit g1)).iod = (word4 (dataBit g4)).iod ∧ svid4 (dataBit g4) = e0.sat ∧
      e'.w4.af0 = (word4 (dataBit g4)).af0 ∧
      (e'.week : Int) = gpsWeek (week0 (dataBit g0)) (word1 (dataBit g1)).toes e'.w0.tow

/-- **C18 violated** (1): after word 4 of satellite 9, satellite 5 is reported with the clock of
satellite 9. -/
theorem C18_foreign_clock_violated :
    ∃ e cur e', observe e0 [p2, p4, p0, p1, p3, p4x] = some (e, cur) ∧
      parse p5 e = some (true, e') ∧ e'.sat = 5 ∧ svid4 (dataBit p4x) = 9 ∧ e'.w4.af0 = -777 ∧
      (word4 (dataBit p4x)).af0 = -777 ∧ (word4 (dataBit p4)).af0 = 1000 := by
  have : ((observe e0 [p2, p4, p0, p1, p3, p4x]).bind fun s => (parse p5 s.1).map fun r =>
      (r.1, r.2.sat, r.2.w4.af0)) = some (true, 5, -777) := by decide +kernel
  rw [Option.bind_eq_some_iff] at this
  obtain ⟨⟨e, cur⟩, h1, h2⟩ := this
  rw [Option.map_eq_some_iff] at h2
  obtain ⟨⟨r, e'⟩, h2, hr⟩ := h2
  simp only [Prod.mk.injEq] at hr
  obtain ⟨rfl, a, b⟩ := hr
  exact ⟨e, cur, e', h1, h2, a, by decide +kernel, b, by decide +kernel, by decide +kernel⟩

/-- **C18 violated** (2): a repeated word 5 after a report yields a second report, 1024 weeks
later; the broadcast week 1200 is GPS week 2224. -/
theorem C18_week_drift_violated :
    ∃ e e', observe e0 [p2, p4, p0, p1, p3, p5] = some (e, []) ∧ e.week = 2224 ∧
      parse p5 e = some (true, e') ∧ e'.week = 3248 := by
  have : ((observe e0 [p2, p4, p0, p1, p3, p5]).bind fun s => (parse p5 s.1).map fun r =>
      (s.2, s.1.week, r.1, r.2.week)) = some ([], 2224, true, 3248) := by decide +kernel
  rw [Option.bind_eq_some_iff] at this
  obtain ⟨⟨e, cur⟩, h1, h2⟩ := this
  rw [Option.map_eq_some_iff] at h2
  obtain ⟨⟨r, e'⟩, h2, hr⟩ := h2
  simp only [Prod.mk.injEq] at hr
  obtain ⟨rfl, a, rfl, b⟩ := hr
  exact ⟨e, e', h1, a, h2, b⟩

/-- **C18 violated** (3): the next repetition overflows the `int` product in the time conversion. -/
theorem C18_overflow_violated :
    observe e0 [p2, p4, p0, p1, p3, p5, p5] ≠ none ∧
    observe e0 [p2, p4, p0, p1, p3, p5, p5, p5] = none := by
  constructor
  · intro h
    have : (observe e0 [p2, p4, p0, p1, p3, p5, p5]).isSome = true := by decide +kernel
    rw [h] at this
    exact absurd this (by decide)
  · decide +kernel

theorem C18_statement_false : ¬ C18_statement := by
  intro hs
  obtain ⟨e, e', ho, -, hp, hw⟩ := C18_week_drift_violated
  obtain ⟨g0, m0, g1, m1, -, -, -, -, -, -, -, -, t0, t1, -, -, -, -, -, -, -, -, -, hk⟩ :=
    hs e0 [p2, p4, p0, p1, p3, p5] p5 e e' [] (by unfold Fresh; decide) (by decide) ho hp
  have he : era ([p2, p4, p0, p1, p3, p5] ++ [p5]) = [p2, p4, p0, p1, p3, p5, p5] := by
    decide +kernel
  rw [he] at m0 m1
  have ty : type p2 = 2 ∧ type p4 = 4 ∧ type p0 = 0 ∧ type p1 = 1 ∧ type p3 = 3 ∧ type p5 = 5 := by
    decide +kernel
  obtain ⟨y2, y4, y0, y1, y3, y5⟩ := ty
  have x0 : g0 = p0 := by
    simp only [List.mem_cons, List.not_mem_nil, or_false] at m0
    rcases m0 with rfl | rfl | rfl | rfl | rfl | rfl | rfl
    · exact absurd (y2.symm.trans t0) (by decide)
    · exact absurd (y4.symm.trans t0) (by decide)
    · rfl
    · exact absurd (y1.symm.trans t0) (by decide)
    · exact absurd (y3.symm.trans t0) (by decide)
    · exact absurd (y5.symm.trans t0) (by decide)
    · exact absurd (y5.symm.trans t0) (by decide)
  subst x0
  have hw0 : week0 (dataBit p0) = 1200 := by decide +kernel
  rw [hw, hw0] at hk
  unfold gpsWeek at hk
  split at hk <;> (try split at hk) <;> omega

/-- **C18 partial.** For every history: a report is made exactly on a valid word when words 0, 1, 2,
3 and 5 and a word 4 naming this satellite have been received since the last word 2, and the most
recent words 1 to 4 carry one issue of data.  Then every group of fields is that of the most recent
word of its type, the issue of data is the common one, and the reference times are the broadcast
seconds in the reported week; if a word 0 has come since the last report, that week is the
broadcast one, moved to GPS weeks and to the nearest reference time (as judged from the stored time
of week).  Missing: the most recent word 4 may name another satellite, the week of repeated
reports without a new word 0 drifts and can overflow (violated above; hence `parse` is assumed
defined here), and the fields are those the code reads (C63). -/
theorem C18_assembly_partial (e0 : Eph) (h0 : Fresh e0) (h : List (List UInt8)) (m : List UInt8)
    (hl : ∀ x ∈ h ++ [m], 32 ≤ x.length) (e e' : Eph) (cur : List (List UInt8)) (r : Bool)
    (ho : observe e0 h = some (e, cur)) (hp : parse m e = some (r, e')) :
    (r = true ↔ Valid m ∧ ∃ g0 g1 g2 g3 g4 o4 g5,
      lastWord 0 (era (h ++ [m])) = some g0 ∧ lastWord 1 (era (h ++ [m])) = some g1 ∧
      lastWord 2 (era (h ++ [m])) = some g2 ∧ lastWord 3 (era (h ++ [m])) = some g3 ∧
      lastWord 4 (era (h ++ [m])) = some g4 ∧ ownWord e0.sat (era (h ++ [m])) = some o4 ∧
      lastWord 5 (era (h ++ [m])) = some g5 ∧
      (word1 (dataBit g1)).iod = (word2 (dataBit g2)).iod ∧
      (word1 (dataBit g1)).iod = (word3 (dataBit g3)).iod ∧
      (word1 (dataBit g1)).iod = (word4 (dataBit g4)).iod) ∧
    (r = true → ∃ g0 g1 g2 g3 g4 g5, lastWord 0 (era (h ++ [m])) = some g0 ∧
      lastWord 1 (era (h ++ [m])) = some g1 ∧ lastWord 2 (era (h ++ [m])) = some g2 ∧
      lastWord 3 (era (h ++ [m])) = some g3 ∧ lastWord 4 (era (h ++ [m])) = some g4 ∧
      lastWord 5 (era (h ++ [m])) = some g5 ∧
      e'.w0 = word0 (codeBit g0) ∧ e'.w1 = word1 (codeBit g1) ∧ e'.w2 = word2 (codeBit g2) ∧
      e'.w3 = word3 (codeBit g3) ∧ e'.w4 = word4 (codeBit g4) ∧ e'.w5 = word5code (codeBit g5) ∧
      e'.iodc = (word1 (dataBit g1)).iod ∧ e'.iode = (word1 (dataBit g1)).iod % 256 ∧
      e'.toe = ⟨gpsSecond e'.week (word1 (dataBit g1)).toes, 0⟩ ∧
      e'.toc = ⟨gpsSecond e'.week (word4 (dataBit g4)).tocs, 0⟩ ∧
      (∀ z, lastWord 0 (valids (cur ++ [m])) = some z →
        (e'.week : Int) = gpsWeek (week0 (dataBit z)) (word1 (dataBit g1)).toes e'.w0.tow)) := by
  have hi := observe_inv h0 h (fun x hx => hl x (by simp [hx])) e cur ho
  have hlm : 32 ≤ m.length := hl m (by simp)
  obtain ⟨-, hr⟩ := step hi m hlm hp
  have ht := inv_taken hi m
  have iod1 : ∀ g, (word1 (codeBit g)).iod = (word1 (dataBit g)).iod :=
    fun g => U_code g 6 10 (by omega)
  have iod2 : ∀ g, (word2 (codeBit g)).iod = (word2 (dataBit g)).iod :=
    fun g => U_code g 6 10 (by omega)
  have iod3 : ∀ g, (word3 (codeBit g)).iod = (word3 (dataBit g)).iod :=
    fun g => U_code g 6 10 (by omega)
  have iod4 : ∀ g, (word4 (codeBit g)).iod = (word4 (dataBit g)).iod :=
    fun g => U_code g 6 10 (by omega)
  have toes : ∀ g, (word1 (codeBit g)).toes = (word1 (dataBit g)).toes :=
    fun g => congrArg (60 * ·) (U_code g 16 14 (by omega))
  have tocs : ∀ g, (word4 (codeBit g)).tocs = (word4 (dataBit g)).tocs :=
    fun g => congrArg (60 * ·) (U_code g 54 14 (by omega))
  have wk : ∀ g, week0 (codeBit g) = week0 (dataBit g) := fun g => U_code g 96 12 (by omega)
  constructor
  · rw [hr]
    constructor
    · rintro ⟨v, c⟩
      obtain ⟨f0, f1, f2, f3, f4, f5, x0, x1, x2, x3, x4, x5⟩ := ready_inv ht c.1
      obtain ⟨m4, t4, -⟩ := ownWord_mem x4
      obtain ⟨g4, y4⟩ := lastWord_exists m4 t4
      refine ⟨v, f0, f1, f2, f3, g4, f4, f5, x0, x1, x2, x3, y4, x4, x5, ?_, ?_, ?_⟩
      · rw [← iod1, ← iod2, ← ht.w1 _ x1, ← ht.w2 _ x2]; exact c.2.1
      · rw [← iod1, ← iod3, ← ht.w1 _ x1, ← ht.w3 _ x3]; exact c.2.2.1
      · rw [← iod1, ← iod4, ← ht.w1 _ x1, ← ht.w4 _ y4]; exact c.2.2.2
    · rintro ⟨v, g0, g1, g2, g3, g4, o4, g5, x0, x1, x2, x3, x4, y4, x5, i2, i3, i4⟩
      refine ⟨v, collected_full ht.lt ?_, ?_, ?_, ?_⟩
      · intro k hk
        have : k = 0 ∨ k = 1 ∨ k = 2 ∨ k = 3 ∨ k = 4 ∨ k = 5 := by omega
        rcases this with rfl | rfl | rfl | rfl | rfl | rfl
        · rw [ht.b0, x0]; rfl
        · rw [ht.b1, x1]; rfl
        · rw [ht.b2, x2]; rfl
        · rw [ht.b3, x3]; rfl
        · rw [ht.b4, y4]; rfl
        · rw [ht.b5, x5]; rfl
      · rw [ht.w1 _ x1, ht.w2 _ x2, iod1, iod2]; exact i2
      · rw [ht.w1 _ x1, ht.w3 _ x3, iod1, iod3]; exact i3
      · rw [ht.w1 _ x1, ht.w4 _ x4, iod1, iod4]; exact i4
  · intro hrt
    obtain ⟨v, c⟩ := hr.1 hrt
    obtain ⟨f0, f1, f2, f3, f4, f5, x0, x1, x2, x3, x4, x5⟩ := ready_inv ht c.1
    obtain ⟨m4, t4, -⟩ := ownWord_mem x4
    obtain ⟨g4, y4⟩ := lastWord_exists m4 t4
    have hb := ready_bounds ht c
    rw [parse_taken m hlm e, if_pos v] at hp
    obtain ⟨-, -, w, hw, -, rfl⟩ := finish_true c hp hb.1 hb.2.1
    refine ⟨f0, f1, f2, f3, g4, f5, x0, x1, x2, x3, y4, x5, ht.w0 _ x0, ht.w1 _ x1, ht.w2 _ x2,
      ht.w3 _ x3, ht.w4 _ y4, ht.w5 _ x5, ?_, ?_, ?_, ?_, ?_⟩
    · show (taken m e).w1.iod = _
      rw [ht.w1 _ x1, iod1]
    · show (taken m e).w1.iod % 256 = _
      rw [ht.w1 _ x1, iod1]
    · show Utc.Time.mk (gpsSecond w (taken m e).w1.toes) 0 = _
      rw [ht.w1 _ x1, toes]
    · show Utc.Time.mk (gpsSecond w (taken m e).w4.tocs) 0 = _
      rw [ht.w4 _ y4, tocs]
    · intro z hz
      show (w : Int) = gpsWeek _ _ (taken m e).w0.tow
      rw [hw, ht.week _ hz, wk, ht.w1 _ x1, toes]

/-- **C18**: as long as every report is preceded by a word 0 with a week below 2500, no history
misbehaves: if the week stored before the message is below 2500 and so is that of a word 0, the
message is handled. -/
theorem C18_defined (e0 : Eph) (h0 : Fresh e0) (h : List (List UInt8)) (m : List UInt8)
    (hl : ∀ x ∈ h ++ [m], 32 ≤ x.length) (e : Eph) (cur : List (List UInt8))
    (ho : observe e0 h = some (e, cur)) (hw : e.week < 2500)
    (hm : Valid m → type m = 0 → week0 (dataBit m) < 2500) :
    ∃ r e', parse m e = some (r, e') := by
  have hi := observe_inv h0 h (fun x hx => hl x (by simp [hx])) e cur ho
  have ht := inv_taken hi m
  rw [parse_taken m (hl m (by simp)) e]
  by_cases v : Valid m
  swap
  · rw [if_neg v]; exact ⟨_, _, rfl⟩
  rw [if_pos v]
  by_cases c : Ready (taken m e)
  swap
  · exact ⟨_, _, finish_not c⟩
  have hb := ready_bounds ht c
  refine finish_defined ?_ hb.1 hb.2.1 hb.2.2
  unfold taken
  rw [if_pos v]
  unfold take
  by_cases t : type m = 0
  · rw [if_pos t]
    have := hm v t
    rw [week0, ← U_code m 96 12 (by omega : 96 + 12 ≤ 112)] at this
    exact this
  · rw [if_neg t]
    split
    · exact hw
    · split
      · exact hw
      · split
        · exact hw
        · split <;> exact hw

/-- A message shorter than 32 bytes is read beyond its end: `size` is not looked at. -/
theorem C18_short_message_violated (m : List UInt8) (hm : m.length < 32) (e : Eph) :
    parse m e = none := by
  unfold parse; rw [if_pos hm]

/-- Words of two issues of data are not combined. -/
example : ((observe e0 [p2, p4, p0, p1, p3x, p5]).map fun s => s.2.length) = some 6 := by
  decide +kernel
/-- A complete set. -/
example : ((observe e0 [p2, p4, p0, p1, p3, p5]).map fun s =>
    (s.2.length, s.1.week, s.1.iodc, s.1.iode, s.1.toe)) =
    some (0, 2224, 300, 44, ⟨2224 * 604800 + 7200 + 315964818, 0⟩) := by
  decide +kernel

end Verif.Props.Galileo
