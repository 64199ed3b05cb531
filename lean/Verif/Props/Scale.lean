import Verif.Lemmas.Scale
/-!
# C147: the fields of broadcast ephemerides in doubles

`r` is any rounding to the nearest `double`.  The fields are integers times a unit which is a power of two, times `π`
for angles and times `1000` for kilometres (`Spec/Scale`).  An integer of at most 32 bits times a power of two is a
`double`, so only angles need be inexact; but the powers of two are written in eph.h as decimal literals of 16 digits,
and eight of the fifteen are rounded to a neighbour of the power of two.
-/
namespace Verif.Props.Scale
open Verif Verif.Scale Verif.Spec.Scale Verif.Binary64 Verif.Bits

variable {r : ℚ → ℚ}

/-! ### The integers -/

theorem getBit_small {mem : Mem} {pos len v : Nat} (hl : len ≤ 32) (h : getBit mem pos len = some v) :
    v < 2 ^ 32 := by
  have hw : width len ≤ 32 := by unfold width; split_ifs <;> omega
  unfold getBit getRaw at h
  cases hm : mem (pos / 8) with
  | none => simp [hm] at h
  | some b =>
    simp only [hm, Option.map_eq_some_iff] at h
    obtain ⟨tmp, -, rfl⟩ := h
    exact lt_of_lt_of_le (Nat.mod_lt _ (by positivity)) (Nat.pow_le_pow_right (by norm_num) hw)

theorem nat_small {v : Nat} (h : v < 2 ^ 32) : |(v : Int)| ≤ 2 ^ 32 := by
  rw [abs_of_nonneg (by omega)]; exact_mod_cast h.le

theorem getBitSigned_small {mem : Mem} {pos len : Nat} {v : Int} (hl : len ≤ 32)
    (h : getBitSigned mem pos len = some v) : |v| ≤ 2 ^ 32 := by
  unfold getBitSigned at h
  rw [Option.map_eq_some_iff] at h
  obtain ⟨x, hx, rfl⟩ := h
  have hs := getBit_small hl hx
  have hw : width len ≤ 32 := by unfold width; split_ifs <;> omega
  have hp : (2 : Nat) ^ width len ≤ 2 ^ 32 := Nat.pow_le_pow_right (by norm_num) hw
  unfold signExtend
  split
  · unfold asSigned
    have := Nat.mod_lt (x ||| (2 ^ width (len + 8) - 1) <<< len % 2 ^ max (width (len + 8)) 32)
      (by positivity : 0 < 2 ^ width len)
    generalize (x ||| (2 ^ width (len + 8) - 1) <<< len % 2 ^ max (width (len + 8)) 32) % 2 ^ width len = y at *
    have hz : ((2 : Int) ^ width len) = ((2 ^ width len : Nat) : Int) := by push_cast; rfl
    rw [abs_le, hz]
    split <;> omega
  · exact nat_small hs

theorem getBitGlo_small {mem : Mem} {pos len : Nat} {v : Int} (hl : len ≤ 32)
    (h : getBitGlo mem pos len = some v) : |v| ≤ 2 ^ 32 := by
  simp only [getBitGlo, Option.bind_eq_bind, Option.bind_eq_some_iff] at h
  obtain ⟨x, hx, s, -, h⟩ := h
  have hs := nat_small (getBit_small (by omega) hx)
  simp only [Option.some.injEq] at h
  subst h
  split
  · rwa [abs_neg]
  · exact hs

/-- The integers of a GPS ephemeris. -/
theorem gps_small {b1 b2 b3 : Mem} {s1 s2 s3} {i1 i2 i3 : Nat} (h1 : Gps.decode1 b1 = some (s1, i1))
    (h2 : Gps.decode2 b2 = some (s2, i2)) (h3 : Gps.decode3 b3 = some (s3, i3)) (f : GpsField) :
    |gpsRaw s1 s2 s3 f| ≤ 2 ^ 32 := by
  simp only [Gps.decode1, Option.bind_eq_bind, Option.bind_eq_some_iff, Option.some.injEq, Prod.mk.injEq] at h1
  simp only [Gps.decode2, Option.bind_eq_bind, Option.bind_eq_some_iff, Option.some.injEq, Prod.mk.injEq] at h2
  simp only [Gps.decode3, Option.bind_eq_bind, Option.bind_eq_some_iff, Option.some.injEq, Prod.mk.injEq] at h3
  obtain ⟨_, -, _, -, _, -, _, -, _, -, _, -, tgd, a1, _, -, _, -, _, a2, _, a3, _, a4, rfl, -⟩ := h1
  obtain ⟨_, -, _, b1, _, b2, _, b3, _, b4, _, b5, _, b6, _, b7, _, -, _, -, rfl, -⟩ := h2
  obtain ⟨_, c1, _, c2, _, c3, _, c4, _, c5, _, c6, _, c7, _, -, _, c8, rfl, -⟩ := h3
  cases f
  case tgd =>
    simp only [gpsRaw]
    split
    · norm_num
    · exact getBitSigned_small (by norm_num) a1
  case ecc => exact nat_small (getBit_small (by norm_num) b5)
  case sqrta => exact nat_small (getBit_small (by norm_num) b7)
  all_goals
    simp only [gpsRaw]
    first | exact getBitSigned_small (by norm_num) a2 | exact getBitSigned_small (by norm_num) a3 | exact getBitSigned_small (by norm_num) a4 | exact getBitSigned_small (by norm_num) b1 | exact getBitSigned_small (by norm_num) b2 | exact getBitSigned_small (by norm_num) b3 | exact getBitSigned_small (by norm_num) b4 | exact getBitSigned_small (by norm_num) b6 | exact getBitSigned_small (by norm_num) c1 | exact getBitSigned_small (by norm_num) c2 | exact getBitSigned_small (by norm_num) c3 | exact getBitSigned_small (by norm_num) c4 | exact getBitSigned_small (by norm_num) c5 | exact getBitSigned_small (by norm_num) c6 | exact getBitSigned_small (by norm_num) c7 | exact getBitSigned_small (by norm_num) c8

/-- The integers of a Galileo ephemeris. -/
theorem gal_small {b1 b2 b3 b4 b5 : Mem} {w1 w2 w3 w4 w5} {sv : Nat} (h1 : Galileo.decode1 b1 = some w1)
    (h2 : Galileo.decode2 b2 = some w2) (h3 : Galileo.decode3 b3 = some w3) (h4 : Galileo.decode4 b4 = some (w4, sv))
    (h5 : Galileo.decode5 b5 = some w5) (f : GalField) : |galRaw w1 w2 w3 w4 w5 f| ≤ 2 ^ 32 := by
  simp only [Galileo.decode1, Option.bind_eq_bind, Option.bind_eq_some_iff, Option.some.injEq] at h1
  simp only [Galileo.decode2, Option.bind_eq_bind, Option.bind_eq_some_iff, Option.some.injEq] at h2
  simp only [Galileo.decode3, Option.bind_eq_bind, Option.bind_eq_some_iff, Option.some.injEq] at h3
  simp only [Galileo.decode4, Option.bind_eq_bind, Option.bind_eq_some_iff, Option.some.injEq, Prod.mk.injEq] at h4
  simp only [Galileo.decode5, Option.bind_eq_bind, Option.bind_eq_some_iff, Option.some.injEq] at h5
  obtain ⟨_, -, _, -, _, a1, _, a2, _, a3, rfl⟩ := h1
  obtain ⟨_, -, _, b1, _, b2, _, b3, _, b4, rfl⟩ := h2
  obtain ⟨_, -, _, c1, _, c2, _, c3, _, c4, _, c5, _, c6, rfl⟩ := h3
  obtain ⟨_, -, _, -, _, d1, _, d2, _, -, _, d3, _, d4, _, d5, rfl, -⟩ := h4
  obtain ⟨_, e1, _, e2, _, -, _, -, _, -, _, -, rfl⟩ := h5
  cases f
  case ecc => exact nat_small (getBit_small (by norm_num) a2)
  case sqrta => exact nat_small (getBit_small (by norm_num) a3)
  all_goals
    simp only [galRaw]
    first | exact getBitSigned_small (by norm_num) a1 | exact getBitSigned_small (by norm_num) b1 | exact getBitSigned_small (by norm_num) b2 | exact getBitSigned_small (by norm_num) b3 | exact getBitSigned_small (by norm_num) b4 | exact getBitSigned_small (by norm_num) c1 | exact getBitSigned_small (by norm_num) c2 | exact getBitSigned_small (by norm_num) c3 | exact getBitSigned_small (by norm_num) c4 | exact getBitSigned_small (by norm_num) c5 | exact getBitSigned_small (by norm_num) c6 | exact getBitSigned_small (by norm_num) d1 | exact getBitSigned_small (by norm_num) d2 | exact getBitSigned_small (by norm_num) d3 | exact getBitSigned_small (by norm_num) d4 | exact getBitSigned_small (by norm_num) d5 | exact getBitSigned_small (by norm_num) e1 | exact getBitSigned_small (by norm_num) e2

/-- The numbers of a GLONASS ephemeris. -/
theorem glo_small {b1 b2 b3 b4 : Mem} {s1 s2 s3 s4} (h1 : Glonass.decode1 b1 = some s1)
    (h2 : Glonass.decode2 b2 = some s2) (h3 : Glonass.decode3 b3 = some s3) (h4 : Glonass.decode4 b4 = some s4)
    (f : GloField) : |gloRaw s1 s2 s3 s4 f| ≤ 2 ^ 32 := by
  simp only [Glonass.decode1, Option.bind_eq_bind, Option.bind_eq_some_iff, Option.some.injEq] at h1
  simp only [Glonass.decode2, Option.bind_eq_bind, Option.bind_eq_some_iff, Option.some.injEq] at h2
  simp only [Glonass.decode3, Option.bind_eq_bind, Option.bind_eq_some_iff, Option.some.injEq] at h3
  simp only [Glonass.decode4, Option.bind_eq_bind, Option.bind_eq_some_iff, Option.some.injEq] at h4
  obtain ⟨_, -, _, -, _, -, _, a1, _, a2, _, a3, rfl⟩ := h1
  obtain ⟨_, -, _, -, _, b1, _, b2, _, b3, rfl⟩ := h2
  obtain ⟨_, c1, _, c2, _, c3, _, c4, rfl⟩ := h3
  obtain ⟨_, d1, _, d2, _, -, _, -, _, -, _, -, rfl⟩ := h4
  rcases f with i | i | i | _ | _ | _
  case vel | acc | pos =>
    obtain ⟨i, hi⟩ := i
    obtain rfl | rfl | rfl : i = 0 ∨ i = 1 ∨ i = 2 := by omega
    all_goals first | exact getBitGlo_small (by norm_num) a1 | exact getBitGlo_small (by norm_num) a2 | exact getBitGlo_small (by norm_num) a3 | exact getBitGlo_small (by norm_num) b1 | exact getBitGlo_small (by norm_num) b2 | exact getBitGlo_small (by norm_num) b3 | exact getBitGlo_small (by norm_num) c1 | exact getBitGlo_small (by norm_num) c2 | exact getBitGlo_small (by norm_num) c3 | exact getBitGlo_small (by norm_num) c4 | exact getBitGlo_small (by norm_num) d1 | exact getBitGlo_small (by norm_num) d2
  all_goals
    simp only [gloRaw]
    first | exact getBitGlo_small (by norm_num) a1 | exact getBitGlo_small (by norm_num) a2 | exact getBitGlo_small (by norm_num) a3 | exact getBitGlo_small (by norm_num) b1 | exact getBitGlo_small (by norm_num) b2 | exact getBitGlo_small (by norm_num) b3 | exact getBitGlo_small (by norm_num) c1 | exact getBitGlo_small (by norm_num) c2 | exact getBitGlo_small (by norm_num) c3 | exact getBitGlo_small (by norm_num) c4 | exact getBitGlo_small (by norm_num) d1 | exact getBitGlo_small (by norm_num) d2

/-! ### One field -/

theorem cast_eq {x : ℚ} {k : ℕ} {m : Int} (h : x = m * (1 / 2 ^ k)) : (x : ℝ) = m * p2 k := by
  rw [h]; unfold p2; push_cast; rfl

theorem cast_eq_km {x : ℚ} {k : ℕ} {m : Int} (h : x = m * (1 / 2 ^ k * 1000)) : (x : ℝ) = m * (p2 k * 1000) := by
  rw [h]; unfold p2; push_cast; rfl

theorem cast_ne {x : ℚ} {k : ℕ} {m : Int} (h : x ≠ m * (1 / 2 ^ k)) : (x : ℝ) ≠ m * p2 k := by
  intro e
  apply h
  apply Rat.cast_injective (α := ℝ)
  rw [e]; unfold p2; push_cast; rfl

theorem cast_rel {ε : ℚ} {x : ℚ} {k : ℕ} {m : Int} (h : Scale.Rel ε (m * (1 / 2 ^ k)) x) :
    |(x : ℝ) - m * p2 k| ≤ (ε : ℝ) * |(m * p2 k : ℝ)| := by
  unfold Scale.Rel at h
  have h' := (Rat.cast_le (K := ℝ)).2 h
  unfold p2
  push_cast at h' ⊢
  exact h'

/-- `0 ≤` the bound, for fields kept exactly. -/
theorem rel_of_eq {x y ε : ℝ} (hε : 0 ≤ ε) (h : x = y) : |x - y| ≤ ε * |y| := by
  rw [h, sub_self, abs_zero]; positivity

/-- A field scaled with a constant off by `d`. -/
theorem scale_near (hr : Nearest r) {c d ε : ℚ} {k : ℕ} (hk : k ≤ 100) (hc : r c = 1 / 2 ^ k * (1 + d))
    (hd : |d| ≤ 1 / 2 ^ 49) (hε : |d| + 1 / 2 ^ 53 + |d| * (1 / 2 ^ 53) ≤ ε) {m : Int} (hm : |m| ≤ 2 ^ 32) :
    |((scale r c m : ℚ) : ℝ) - m * p2 k| ≤ (ε : ℝ) * |(m * p2 k : ℝ)| :=
  cast_rel (le_trans (scale_rel hr hk hc hd hm) (mul_le_mul_of_nonneg_right hε (abs_nonneg _)))

theorem scale_near53 (hr : Nearest r) {c : ℚ} {k : ℕ} (hk : k ≤ 100) (hc : r c = 1 / 2 ^ k * (1 - 1 / 2 ^ 53))
    {m : Int} (hm : |m| ≤ 2 ^ 32) :
    |((scale r c m : ℚ) : ℝ) - m * p2 k| ≤ (1 / 2 ^ 50 : ℝ) * |(m * p2 k : ℝ)| := by
  have := scale_near hr (d := -(1 / 2 ^ 53)) (ε := 1 / 2 ^ 50) hk (by rw [hc]; ring)
    (by rw [abs_neg, abs_of_pos (by norm_num)]; norm_num) (by rw [abs_neg, abs_of_pos (by norm_num)]; norm_num) hm
  push_cast at this
  exact this

theorem scale_near52 (hr : Nearest r) {c : ℚ} {k : ℕ} (hk : k ≤ 100) (hc : r c = 1 / 2 ^ k * (1 - 1 / 2 ^ 52))
    {m : Int} (hm : |m| ≤ 2 ^ 32) :
    |((scale r c m : ℚ) : ℝ) - m * p2 k| ≤ (1 / 2 ^ 50 : ℝ) * |(m * p2 k : ℝ)| := by
  have := scale_near hr (d := -(1 / 2 ^ 52)) (ε := 1 / 2 ^ 50) hk (by rw [hc]; ring)
    (by rw [abs_neg, abs_of_pos (by norm_num)]; norm_num) (by rw [abs_neg, abs_of_pos (by norm_num)]; norm_num) hm
  push_cast at this
  exact this

theorem scale_near49 (hr : Nearest r) {m : Int} (hm : |m| ≤ 2 ^ 32) :
    |((scale r P2_59 m : ℚ) : ℝ) - m * p2 59| ≤ (1 / 2 ^ 48 : ℝ) * |(m * p2 59 : ℝ)| := by
  have := scale_near hr (d := 1 / 2 ^ 49) (ε := 1 / 2 ^ 48) (by norm_num) (lit59 hr)
    (by rw [abs_of_pos (by norm_num)]) (by rw [abs_of_pos (by norm_num)]; norm_num) hm
  push_cast at this
  exact this

theorem angle31 (hr : Nearest r) {q : ℚ} (hq : r q = 884279719003555 / 2 ^ 48) {m : Int} (hm : |m| ≤ 2 ^ 32) :
    |((scale2 r P2_31 q m : ℚ) : ℝ) - m * (p2 31 * Real.pi)| ≤ 1 / 2 ^ 50 * |(m * (p2 31 * Real.pi) : ℝ)| :=
  scale2_rel hr (d := 0) (by norm_num) (by rw [lit31 hr]; ring) (by norm_num) hq hm

theorem angle43 (hr : Nearest r) {q : ℚ} (hq : r q = 884279719003555 / 2 ^ 48) {m : Int} (hm : |m| ≤ 2 ^ 32) :
    |((scale2 r P2_43 q m : ℚ) : ℝ) - m * (p2 43 * Real.pi)| ≤ 1 / 2 ^ 50 * |(m * (p2 43 * Real.pi) : ℝ)| :=
  scale2_rel hr (d := -(1 / 2 ^ 52)) (by norm_num) (by rw [lit43 hr]; ring)
    (by rw [abs_neg, abs_of_pos (by norm_num)]) hq hm

theorem gps_near (hr : Nearest r) (f : GpsField) {m : Int} (hm : |m| ≤ 2 ^ 32) :
    |((gpsScale r f m : ℚ) : ℝ) - m * gpsUnit f| ≤ 1 / 2 ^ 50 * |(m * gpsUnit f : ℝ)| := by
  have e0 : (0 : ℝ) ≤ 1 / 2 ^ 50 := by positivity
  cases f
  case af2 => exact scale_near53 hr (by norm_num) (lit55 hr) hm
  case af1 => exact scale_near52 hr (by norm_num) (lit43 hr) hm
  case ecc => exact scale_near53 hr (by norm_num) (lit33 hr) hm
  case af0 | tgd => exact rel_of_eq e0 (cast_eq (scale_exact hr (by norm_num) (lit31 hr) hm))
  case crs | crc => exact rel_of_eq e0 (cast_eq (scale_exact hr (by norm_num) (lit5 hr) hm))
  case cuc | cus | cic | cis => exact rel_of_eq e0 (cast_eq (scale_exact hr (by norm_num) (lit29 hr) hm))
  case sqrta => exact rel_of_eq e0 (cast_eq (scale_exact hr (by norm_num) (lit19 hr) hm))
  case m0 | omega0 | i0 | w => exact angle31 hr (litPI hr) hm
  case deltaN | omegadot | idot => exact angle43 hr (litPI hr) hm

theorem gal_near (hr : Nearest r) (f : GalField) {m : Int} (hm : |m| ≤ 2 ^ 32) :
    |((galScale r f m : ℚ) : ℝ) - m * galUnit f|
      ≤ (if f = .af2 then 1 / 2 ^ 48 else 1 / 2 ^ 50) * |(m * galUnit f : ℝ)| := by
  have e0 : (0 : ℝ) ≤ 1 / 2 ^ 50 := by positivity
  cases f
  case af2 => rw [if_pos rfl]; exact scale_near49 hr hm
  all_goals rw [if_neg (by decide)]
  case af1 => exact scale_near52 hr (by norm_num) (lit46 hr) hm
  case af0 => exact scale_near53 hr (by norm_num) (lit34 hr) hm
  case ecc => exact scale_near53 hr (by norm_num) (lit33 hr) hm
  case bgdA | bgdB => exact scale_near53 hr (by norm_num) (lit32 hr) hm
  case crs | crc => exact rel_of_eq e0 (cast_eq (scale_exact hr (by norm_num) (lit5 hr) hm))
  case cuc | cus | cic | cis => exact rel_of_eq e0 (cast_eq (scale_exact hr (by norm_num) (lit29 hr) hm))
  case sqrta => exact rel_of_eq e0 (cast_eq (scale_exact hr (by norm_num) (lit19 hr) hm))
  case m0 | omega0 | i0 | w => exact angle31 hr (litM_PI hr) hm
  case deltaN | omegadot | idot => exact angle43 hr (litM_PI hr) hm

theorem glo_exact (hr : Nearest r) (f : GloField) (hf : f ≠ .gamn) {m : Int} (hm : |m| ≤ 2 ^ 32) :
    ((gloScale r f m : ℚ) : ℝ) = m * gloUnit f := by
  cases f
  case gamn => exact absurd rfl hf
  case vel => exact cast_eq_km (scale2_exact hr (by norm_num) (lit20 hr) hm)
  case acc => exact cast_eq_km (scale2_exact hr (by norm_num) (lit30 hr) hm)
  case pos => exact cast_eq_km (scale2_exact hr (by norm_num) (lit11 hr) hm)
  case taun | dtaun => exact cast_eq (scale_exact hr (by norm_num) (lit30 hr) hm)

theorem glo_near (hr : Nearest r) (f : GloField) {m : Int} (hm : |m| ≤ 2 ^ 32) :
    |((gloScale r f m : ℚ) : ℝ) - m * gloUnit f| ≤ 1 / 2 ^ 50 * |(m * gloUnit f : ℝ)| := by
  by_cases h : f = .gamn
  · subst h; exact scale_near52 hr (by norm_num) (lit40 hr) hm
  · exact rel_of_eq (by positivity) (glo_exact hr f h hm)

/-! ### The claims -/

/-- **C147.** Every scaled member of a GPS ephemeris decoded from any three subframes is within `2^-50` (relative) of
the number the message stands for. -/
theorem C147_gps (hr : Nearest r) {b1 b2 b3 : Mem} {s1 s2 s3} {i1 i2 i3 : Nat} (h1 : Gps.decode1 b1 = some (s1, i1))
    (h2 : Gps.decode2 b2 = some (s2, i2)) (h3 : Gps.decode3 b3 = some (s3, i3)) (f : GpsField) :
    |((gpsScale r f (gpsRaw s1 s2 s3 f) : ℚ) : ℝ) - gpsRaw s1 s2 s3 f * gpsUnit f|
      ≤ 1 / 2 ^ 50 * |(gpsRaw s1 s2 s3 f * gpsUnit f : ℝ)| :=
  gps_near hr f (gps_small h1 h2 h3 f)

/-- **C147.** Of a Galileo ephemeris: `2^-50`, but `2^-48` for the drift rate `af2`. -/
theorem C147_galileo (hr : Nearest r) {b1 b2 b3 b4 b5 : Mem} {w1 w2 w3 w4 w5} {sv : Nat}
    (h1 : Galileo.decode1 b1 = some w1) (h2 : Galileo.decode2 b2 = some w2) (h3 : Galileo.decode3 b3 = some w3)
    (h4 : Galileo.decode4 b4 = some (w4, sv)) (h5 : Galileo.decode5 b5 = some w5) (f : GalField) :
    |((galScale r f (galRaw w1 w2 w3 w4 w5 f) : ℚ) : ℝ) - galRaw w1 w2 w3 w4 w5 f * galUnit f|
      ≤ (if f = .af2 then 1 / 2 ^ 48 else 1 / 2 ^ 50) * |(galRaw w1 w2 w3 w4 w5 f * galUnit f : ℝ)| :=
  gal_near hr f (gal_small h1 h2 h3 h4 h5 f)

/-- **C147.** A GLONASS ephemeris is kept exactly, but for the frequency deviation `gamn`. -/
theorem C147_glonass (hr : Nearest r) {b1 b2 b3 b4 : Mem} {s1 s2 s3 s4} (h1 : Glonass.decode1 b1 = some s1)
    (h2 : Glonass.decode2 b2 = some s2) (h3 : Glonass.decode3 b3 = some s3) (h4 : Glonass.decode4 b4 = some s4) :
    (∀ f, f ≠ .gamn → ((gloScale r f (gloRaw s1 s2 s3 s4 f) : ℚ) : ℝ) = gloRaw s1 s2 s3 s4 f * gloUnit f) ∧
    |((gloScale r .gamn (gloRaw s1 s2 s3 s4 .gamn) : ℚ) : ℝ) - gloRaw s1 s2 s3 s4 .gamn * gloUnit .gamn|
      ≤ 1 / 2 ^ 50 * |(gloRaw s1 s2 s3 s4 .gamn * gloUnit .gamn : ℝ)| :=
  ⟨fun f hf => glo_exact hr f hf (glo_small h1 h2 h3 h4 f), glo_near hr .gamn (glo_small h1 h2 h3 h4 .gamn)⟩

/-- Full statement: what can be represented is represented, for all three systems. -/
def C147_statement : Prop :=
  ∀ r : ℚ → ℚ, Nearest r → ∀ m : Int, |m| ≤ 2 ^ 32 →
    (∀ f ∈ gpsDyadic, ((gpsScale r f m : ℚ) : ℝ) = m * gpsUnit f) ∧
    (∀ f ∈ galDyadic, ((galScale r f m : ℚ) : ℝ) = m * galUnit f) ∧
    (∀ f, ((gloScale r f m : ℚ) : ℝ) = m * gloUnit f)

/-- **C147.** What holds of it: the fields in `2^-5`, `2^-19`, `2^-29`, `2^-31` are exact. -/
theorem C147_exact_partial (hr : Nearest r) {m : Int} (hm : |m| ≤ 2 ^ 32) :
    (∀ f ∈ gpsExact, ((gpsScale r f m : ℚ) : ℝ) = m * gpsUnit f) ∧
    (∀ f ∈ galExact, ((galScale r f m : ℚ) : ℝ) = m * galUnit f) := by
  have h5 := cast_eq (scale_exact hr (by norm_num) (lit5 hr) hm)
  have h19 := cast_eq (scale_exact hr (by norm_num) (lit19 hr) hm)
  have h29 := cast_eq (scale_exact hr (by norm_num) (lit29 hr) hm)
  have h31 := cast_eq (scale_exact hr (by norm_num) (lit31 hr) hm)
  constructor
  · intro f hf
    simp only [gpsExact, List.mem_cons, List.not_mem_nil, or_false] at hf
    rcases hf with rfl | rfl | rfl | rfl | rfl | rfl | rfl | rfl | rfl <;> assumption
  · intro f hf
    simp only [galExact, List.mem_cons, List.not_mem_nil, or_false] at hf
    rcases hf with rfl | rfl | rfl | rfl | rfl | rfl | rfl <;> assumption

/-- **C147.** The other fields are never exact: no eccentricity, no clock drift and drift rate, no Galileo clock offset
and group delay, no GLONASS frequency deviation is decoded exactly, except zero. -/
theorem C147_never_exact_violated (hr : Nearest r) {m : Int} (h0 : m ≠ 0) (hm : |m| ≤ 2 ^ 32) :
    (∀ f ∈ gpsDyadic, f ∉ gpsExact → ((gpsScale r f m : ℚ) : ℝ) ≠ m * gpsUnit f) ∧
    (∀ f ∈ galDyadic, f ∉ galExact → ((galScale r f m : ℚ) : ℝ) ≠ m * galUnit f) ∧
    ((gloScale r .gamn m : ℚ) : ℝ) ≠ m * gloUnit .gamn := by
  have n53 : ∀ {c : ℚ} {k : ℕ}, k ≤ 100 → r c = 1 / 2 ^ k * (1 - 1 / 2 ^ 53) →
      ((scale r c m : ℚ) : ℝ) ≠ m * p2 k := fun hk hc =>
    cast_ne (never hr (d := -(1 / 2 ^ 53)) hk (by rw [hc]; ring) (Or.inl rfl) h0 hm)
  have n52 : ∀ {c : ℚ} {k : ℕ}, k ≤ 100 → r c = 1 / 2 ^ k * (1 - 1 / 2 ^ 52) →
      ((scale r c m : ℚ) : ℝ) ≠ m * p2 k := fun hk hc =>
    cast_ne (never hr (d := -(1 / 2 ^ 52)) hk (by rw [hc]; ring) (Or.inr (Or.inl rfl)) h0 hm)
  have n59 : ((scale r P2_59 m : ℚ) : ℝ) ≠ m * p2 59 :=
    cast_ne (never hr (d := 1 / 2 ^ 49) (by norm_num) (lit59 hr) (Or.inr (Or.inr rfl)) h0 hm)
  refine ⟨?_, ?_, n52 (by norm_num) (lit40 hr)⟩
  · intro f hf hn
    cases f
    case af2 => exact n53 (by norm_num) (lit55 hr)
    case af1 => exact n52 (by norm_num) (lit43 hr)
    case ecc => exact n53 (by norm_num) (lit33 hr)
    all_goals first | exact absurd (by decide) hn | exact absurd hf (by decide)
  · intro f hf hn
    cases f
    case af2 => exact n59
    case af1 => exact n52 (by norm_num) (lit46 hr)
    case af0 => exact n53 (by norm_num) (lit34 hr)
    case ecc => exact n53 (by norm_num) (lit33 hr)
    case bgdA | bgdB => exact n53 (by norm_num) (lit32 hr)
    all_goals first | exact absurd (by decide) hn | exact absurd hf (by decide)

/-- The full statement fails: the eccentricity `2^-33`. -/
theorem C147_statement_false : ¬ C147_statement := by
  intro h
  exact (C147_never_exact_violated rnd_nearest (m := 1) (by norm_num) (by norm_num)).1 .ecc (by decide) (by decide)
    ((h _ rnd_nearest 1 (by norm_num)).1 .ecc (by decide))

/-- Errors small against one unit keep the order. -/
theorem order_of_near {g : Int → ℚ} {u ε : ℝ} (hu : 0 < u) (hε : ε ≤ 1 / 2 ^ 48)
    (h : ∀ m : Int, |m| ≤ 2 ^ 32 → |((g m : ℚ) : ℝ) - m * u| ≤ ε * |(m * u : ℝ)|) {m n : Int}
    (hm : |m| ≤ 2 ^ 32) (hn : |n| ≤ 2 ^ 32) (hl : m < n) : g m < g n := by
  have b : ∀ k : Int, |k| ≤ 2 ^ 32 → |((g k : ℚ) : ℝ) - k * u| ≤ 1 / 2 ^ 16 * u := by
    intro k hk
    have hk' : |(k : ℝ)| ≤ 2 ^ 32 := by exact_mod_cast hk
    refine le_trans (h k hk) ?_
    rw [abs_mul, abs_of_pos hu, ← mul_assoc]
    refine mul_le_mul_of_nonneg_right ?_ hu.le
    refine le_trans (mul_le_mul hε hk' (abs_nonneg _) (by positivity)) ?_
    norm_num
  have h1 := (abs_le.1 (b m hm)).2
  have h2 := (abs_le.1 (b n hn)).1
  have hl' : (m : ℝ) + 1 ≤ n := by exact_mod_cast hl
  have : ((g m : ℚ) : ℝ) < ((g n : ℚ) : ℝ) := by nlinarith
  exact_mod_cast this

theorem p2_pos (k : ℕ) : 0 < p2 k := by unfold p2; positivity

/-- **C147.** Different messages give different numbers, in the order of the fields. -/
theorem C147_order (hr : Nearest r) {m n : Int} (hm : |m| ≤ 2 ^ 32) (hn : |n| ≤ 2 ^ 32) (hl : m < n) :
    (∀ f, gpsScale r f m < gpsScale r f n) ∧ (∀ f, galScale r f m < galScale r f n) ∧
    (∀ f, gloScale r f m < gloScale r f n) := by
  refine ⟨fun f => ?_, fun f => ?_, fun f => ?_⟩
  · refine order_of_near (u := gpsUnit f) (ε := 1 / 2 ^ 50) ?_ (by norm_num)
      (fun m hm => gps_near hr f hm) hm hn hl
    cases f <;> first | exact p2_pos _ | exact mul_pos (p2_pos _) Real.pi_pos
  · refine order_of_near (u := galUnit f) (ε := if f = .af2 then 1 / 2 ^ 48 else 1 / 2 ^ 50) ?_ ?_
      (fun m hm => gal_near hr f hm) hm hn hl
    · cases f <;> first | exact p2_pos _ | exact mul_pos (p2_pos _) Real.pi_pos
    · split <;> norm_num
  · refine order_of_near (u := gloUnit f) (ε := 1 / 2 ^ 50) ?_ (by norm_num)
      (fun m hm => glo_near hr f hm) hm hn hl
    cases f <;> first | exact p2_pos _ | exact mul_pos (p2_pos _) (by norm_num)

/-- **C147.** Both programs round the same `π`; a zero field is zero; the eccentricity stays below one. -/
theorem C147_ends (hr : Nearest r) :
    r PI = r M_PI ∧ (∀ f, gpsScale r f 0 = 0) ∧ (∀ f, galScale r f 0 = 0) ∧ (∀ f, gloScale r f 0 = 0) ∧
    (∀ m : Int, 0 ≤ m → m < 2 ^ 32 → 0 ≤ gpsScale r .ecc m ∧ gpsScale r .ecc m < 1 / 2) := by
  have z : ∀ c, scale r c 0 = 0 := fun c => by simp [scale, r_zero hr]
  have z2 : ∀ c q, scale2 r c q 0 = 0 := fun c q => by simp [scale2, z, r_zero hr]
  refine ⟨by rw [litPI hr, litM_PI hr], fun f => ?_, fun f => ?_, fun f => ?_, fun m h0 h1 => ?_⟩
  · cases f <;> first | exact z _ | exact z2 _ _
  · cases f <;> first | exact z _ | exact z2 _ _
  · cases f <;> first | exact z _ | exact z2 _ _
  · have hm : |m| ≤ 2 ^ 32 := by rw [abs_of_nonneg h0]; exact h1.le
    constructor
    · have hz : gpsScale r .ecc 0 = 0 := z _
      rcases eq_or_lt_of_le h0 with e | l
      · rw [← e, hz]
      · rw [← hz]; exact ((C147_order hr (by norm_num) hm l).1 .ecc).le
    · have := ((C147_order hr hm (n := 2 ^ 32) (by norm_num) h1).1 .ecc)
      refine lt_of_lt_of_le this ?_
      have e : gpsScale r .ecc (2 ^ 32) = scale r P2_33 (2 ^ 32) := rfl
      rw [e, scale_eq hr _ (by norm_num), lit33 hr]
      have hF := F_of_le (m := 1) (e := -1) (by norm_num) (by norm_num)
      norm_num at hF
      rw [show (1 : ℚ) / 2 = 2⁻¹ by norm_num]
      refine hr.le_of_le (by simpa using hF) ?_
      norm_num

/-- The concrete numbers: an eccentricity field of one, and a Galileo drift rate field of one. -/
example : gpsScale FTime.rnd .ecc 1 = 1 / 2 ^ 33 * (1 - 1 / 2 ^ 53) := by
  change scale FTime.rnd P2_33 1 = _
  rw [scale_eq rnd_nearest _ (by norm_num), lit33 rnd_nearest]
  have := rnd_nearest.exact (f := 1 / 2 ^ 33 * (1 - 1 / 2 ^ 53)) ⟨2 ^ 53 - 1, -86, by norm_num, by norm_num, by norm_num⟩
  simpa using this

example : ((Gps.decode2 (ofList (List.replicate 30 0x8B))).map fun x => (x.1.ecc, x.1.m0))
    = some (0x8B8B8B8B, -0x74747475) := by
  decide +kernel

end Verif.Props.Scale
