import Verif.Lemmas.Crc
import Verif.Lemmas.Glo
/-!
# C15, C16: CRC-24Q and the GLONASS Hamming check (utils/crc.cxx)
-/
namespace Verif.Props.Crc
open Polynomial Verif.BitSpec Verif.CrcSpec Verif.Crc

/-- **C15.** For every message, `crc24` never leaves its table and returns the 24-bit remainder
of `message * x^24` modulo the CRC-24Q polynomial. -/
theorem C15_crc_is_remainder (l : List UInt8) :
    ∃ c, crc24 l = some c ∧ c < 2 ^ 24 ∧ numPoly c = (msgPoly l * X ^ 24) %ₘ P := by
  obtain ⟨c, h1, h2, h3⟩ := crc24_spec l
  refine ⟨c, h1, h2, ?_⟩
  have hd : (numPoly c).degree < P.degree := by
    rw [degree_eq_natDegree P_monic.ne_zero, P_degree]
    exact numPoly_degree c 24 h2
  have := (modByMonic_eq_self_iff P_monic).2 hd
  rw [← this]
  exact (modByMonic_eq_of_dvd_sub P_monic h3).symm

/-- The three bytes of a 24-bit number, most significant first. -/
def be24 (c : Nat) : List UInt8 := [UInt8.ofNat (c / 2 ^ 16), UInt8.ofNat (c / 2 ^ 8), UInt8.ofNat c]

/-- **C15.** A received frame (message followed by a 24-bit check field) satisfies the check
`crc24(message) == field` exactly when the CRC of the whole frame is zero; in particular a
message followed by its own CRC checks. -/
theorem C15_frame_check (l : List UInt8) (c : Nat) (hc : c < 2 ^ 24) :
    crc24 (l ++ be24 c) = some 0 ↔ crc24 l = some c := by
  have hp : msgPoly (l ++ be24 c) = msgPoly l * X ^ 24 + numPoly c := by
    have e : l ++ be24 c = ((l ++ [UInt8.ofNat (c / 2 ^ 16)]) ++ [UInt8.ofNat (c / 2 ^ 8)])
        ++ [UInt8.ofNat c] := by simp [be24]
    rw [e, msgPoly_snoc, msgPoly_snoc, msgPoly_snoc]
    simp only [UInt8.toNat_ofNat']
    have e2 : numPoly c = X ^ 16 * numPoly (c / 2 ^ 16 % 2 ^ 8)
        + (X ^ 8 * numPoly (c / 2 ^ 8 % 2 ^ 8) + numPoly (c % 2 ^ 8)) := by
      rw [← numPoly_add_shift _ _ 8 (by omega) (by omega),
        ← numPoly_add_shift _ _ 16 (by omega) (by omega)]
      refine congrArg numPoly ?_
      omega
    rw [e2]; ring
  rw [crc_eq_zero_iff, hp]
  obtain ⟨d, h1, h2, h3⟩ := crc24_spec l
  rw [h1, Option.some.injEq]
  have hsum : ∀ a b : (ZMod 2)[X], a + b = a - b := fun a b => by
    have := char2 b; linear_combination this
  constructor
  · intro h
    rw [hsum] at h
    have h4 : P ∣ numPoly d - numPoly c := by
      have := dvd_sub h h3
      convert this using 1; ring
    have h5 : numPoly d - numPoly c = 0 := by
      refine dvd_small _ h4 (lt_of_le_of_lt (degree_sub_le _ _) (max_lt ?_ ?_))
      · exact numPoly_degree d 24 h2
      · exact numPoly_degree c 24 hc
    exact numPoly_inj _ _ (by omega) (by omega) (sub_eq_zero.1 h5)
  · rintro rfl
    rw [hsum]; exact h3

/-- **C15.** Any error confined to 24 consecutive bits, at any place of a message of any length,
changes the CRC. -/
theorem C15_burst_detected (l₁ l₂ : List UInt8) (hlen : l₁.length = l₂.length) (hne : l₁ ≠ l₂)
    (k : Nat) (hb : ∀ i, i < 8 * l₁.length → ¬ (k ≤ i ∧ i < k + 24) →
      bit (bytes l₁) i = bit (bytes l₂) i) :
    crc24 l₁ ≠ crc24 l₂ := by
  rw [Ne, crc_eq_iff, msgPoly_sub l₁ l₂ hlen]
  set L := 8 * l₁.length with hL
  set d : Nat → ZMod 2 := fun i => (bit (bytes l₁) i : ZMod 2) - (bit (bytes l₂) i : ZMod 2) with hd
  have d0 : ∀ i, i < L → ¬ (k ≤ i ∧ i < k + 24) → d i = 0 := by
    intro i h1 h2; rw [hd]; simp only; rw [hb i h1 h2, sub_self]
  intro hdvd
  -- last position of the window inside the message
  set e := min (k + 24) L with he
  have hfac : ∑ i ∈ Finset.range L, C (d i) * X ^ (L - 1 - i)
      = X ^ (L - e) * ∑ i ∈ Finset.range e, C (d i) * X ^ (e - 1 - i) := by
    obtain ⟨g, hg⟩ : ∃ g, L = e + g := ⟨L - e, by omega⟩
    rw [hg, Finset.sum_range_add, Finset.mul_sum]
    rw [show e + g - e = g by omega]
    have z : ∑ x ∈ Finset.range g, C (d (e + x)) * X ^ (e + g - 1 - (e + x)) = 0 := by
      refine Finset.sum_eq_zero fun i hi => ?_
      rw [Finset.mem_range] at hi
      rw [d0 _ (by omega) (by omega)]; simp
    rw [z, add_zero]
    refine Finset.sum_congr rfl fun i hi => ?_
    rw [Finset.mem_range] at hi
    rw [show e + g - 1 - i = g + (e - 1 - i) by omega, pow_add]; ring
  rw [hfac] at hdvd
  have h2 := (P_coprime_X_pow (L - e)).dvd_of_dvd_mul_left hdvd
  have h3 : (∑ i ∈ Finset.range e, C (d i) * X ^ (e - 1 - i)).degree < 24 := by
    refine lt_of_le_of_lt (degree_sum_le _ _) ?_
    rw [Finset.sup_lt_iff (by exact WithBot.bot_lt_coe 24)]
    intro i hi
    rw [Finset.mem_range] at hi
    by_cases hk : k ≤ i
    · refine lt_of_le_of_lt (degree_C_mul_X_pow_le _ _) ?_
      exact_mod_cast (show e - 1 - i < 24 by omega)
    · rw [d0 i (by omega) (by omega)]; simp only [C_0, zero_mul, degree_zero]; exact WithBot.bot_lt_coe 24
  have h4 := dvd_small _ h2 h3
  apply hne
  apply bytes_ext _ _ hlen
  intro i hi
  by_cases hw : k ≤ i ∧ i < k + 24
  · have h5 : d i = 0 := by
      have h6 := congrArg (fun p => coeff p (e - 1 - i)) h4
      simp only [finsetSum_coeff, coeff_zero] at h6
      rw [Finset.sum_eq_single i] at h6
      · simpa using h6
      · intro j hj hji
        rw [Finset.mem_range] at hj
        rw [coeff_C_mul, coeff_X_pow, if_neg (by omega), mul_zero]
      · intro h7; exact absurd (Finset.mem_range.2 (by omega)) h7
    exact bit_sub_eq_zero _ _ (Bits.bit_lt _ _) (Bits.bit_lt _ _) h5
  · exact hb i hi hw

/-- **C15.** Any error in an odd number of bits, of any message of any length, changes the CRC. -/
theorem C15_odd_errors_detected (l₁ l₂ : List UInt8) (hlen : l₁.length = l₂.length)
    (hodd : ((Finset.range (8 * l₁.length)).filter
      fun i => bit (bytes l₁) i ≠ bit (bytes l₂) i).card % 2 = 1) :
    crc24 l₁ ≠ crc24 l₂ := by
  rw [Ne, crc_eq_iff, msgPoly_sub l₁ l₂ hlen]
  rintro ⟨Q, hQ⟩
  have h1 := congrArg (eval 1) hQ
  have hP : eval 1 P = 0 := by
    unfold P
    simp only [eval_add, eval_pow, eval_X, one_pow, eval_one]
    decide
  rw [eval_mul, hP, zero_mul, eval_finsetSum] at h1
  simp only [eval_mul, eval_C, eval_pow, eval_X, one_pow, mul_one] at h1
  have h2 : ∀ i ∈ Finset.range (8 * l₁.length),
      (bit (bytes l₁) i : ZMod 2) - (bit (bytes l₂) i : ZMod 2)
        = if bit (bytes l₁) i ≠ bit (bytes l₂) i then 1 else 0 := by
    intro i _
    have hx := Bits.bit_lt (bytes l₁) i
    have hy := Bits.bit_lt (bytes l₂) i
    generalize bit (bytes l₁) i = x at *
    generalize bit (bytes l₂) i = y at *
    have hx' : x = 0 ∨ x = 1 := by omega
    have hy' : y = 0 ∨ y = 1 := by omega
    rcases hx' with rfl | rfl <;> rcases hy' with rfl | rfl <;> decide
  rw [Finset.sum_congr rfl h2, Finset.sum_boole] at h1
  have h3 := (ZMod.natCast_eq_zero_iff _ 2).1 h1
  omega

/-- The CRC of a real three-byte message, and a one-bit corruption. -/
example : crc24 [0x8B, 0x01, 0xFF] = some 0x28f002 ∧ crc24 [0x8B, 0x01, 0xFE] ≠ crc24 [0x8B, 0x01, 0xFF] := by
  decide +kernel

/-! ### C16 -/

/-- The bits in which two strings differ. -/
def errors (buf buf' : Nat → UInt8) : Finset Nat :=
  (Finset.range 85).filter fun k => bit buf' k ≠ bit buf k

/-- **C16.** `gloTest` accepts exactly the strings with all eight parities right, and those in
which the overall parity and exactly one of the seven check sums fail (the pattern left by a
wrong check bit). -/
theorem C16_accepts_iff (buf : Nat → UInt8) :
    gloTest buf = true ↔ Valid buf ∨
      (overall buf = 1 ∧ ∃ r, r < 7 ∧ checksum buf r = 1 ∧ ∀ s, s < 7 → s ≠ r → checksum buf s = 0) := by
  rw [gloTest_accept]
  exact accept_iff (checksum buf) (overall buf)
    (fun r => by have : checksum buf r < 2 := Nat.mod_lt _ (by omega)
                 omega)
    (by have : overall buf < 2 := Nat.mod_lt _ (by omega)
        omega)

/-- **C16.** Starting from a correctly coded string, a corrupted string with one wrong bit is
accepted exactly when the wrong bit is one of the seven check bits (positions 78..84), so the
77 data bits of an accepted string are right; a string with exactly two wrong bits is never
accepted. -/
theorem C16_errors_detected (buf buf' : Nat → UInt8) (hv : Valid buf) :
    ((errors buf buf').card = 0 → gloTest buf' = true) ∧
    ((errors buf buf').card = 1 → (gloTest buf' = true ↔ errors buf buf' ⊆ Finset.Ico 78 85)) ∧
    ((errors buf buf').card = 2 → gloTest buf' = false) := by
  obtain ⟨hc, ho⟩ := hv
  have hE : ∀ k, k < 85 → (bit buf' k ≠ bit buf k ↔ k ∈ errors buf buf') := by
    intro k hk; unfold errors; rw [Finset.mem_filter, Finset.mem_range]; simp [hk]
  refine ⟨?_, ?_, ?_⟩
  · intro h0
    rw [Finset.card_eq_zero] at h0
    have same : ∀ k, k < 85 → bit buf' k = bit buf k := by
      intro k hk; by_contra h; have := (hE k hk).1 h; rw [h0] at this; simp at this
    have hw : ∀ w, wsum buf' w = wsum buf w := by
      intro w; unfold wsum
      refine Finset.sum_congr rfl fun k hk => ?_
      rw [Finset.mem_range] at hk; rw [same k hk]
    rw [C16_accepts_iff]
    left
    refine ⟨?_, ?_⟩
    · intro r hr; rw [checksum_wsum, hw, ← checksum_wsum]; exact hc r hr
    · rw [overall_wsum, hw, ← overall_wsum]; exact ho
  · intro h1
    obtain ⟨p, hp⟩ := Finset.card_eq_one.1 h1
    have hpm : p ∈ errors buf buf' := by rw [hp]; exact Finset.mem_singleton_self p
    have hp85 : p < 85 := by
      unfold errors at hpm; exact Finset.mem_range.1 (Finset.mem_filter.1 hpm).1
    have hne := (hE p hp85).2 hpm
    have heq : ∀ k, k < 85 → k ≠ p → bit buf' k = bit buf k := by
      intro k hk hkp; by_contra h
      have := (hE k hk).1 h; rw [hp, Finset.mem_singleton] at this; exact hkp this
    have c1 : ∀ r, r < 7 → checksum buf' r = if (label (85 - p)).testBit r then 1 else 0 := by
      intro r hr
      rw [checksum_wsum, wsum_one buf buf' _ p hp85 hne heq]
      have := hc r hr
      rw [checksum_wsum] at this
      split <;> omega
    have c2 : overall buf' = 1 := by
      rw [overall_wsum, wsum_one buf buf' _ p hp85 hne heq]
      rw [overall_wsum] at ho
      simp only [if_true]; omega
    have acc := accept_single ⟨p, hp85⟩
    simp only at acc
    rw [gloTest_accept, hp, Finset.singleton_subset_iff, Finset.mem_Ico]
    have : accept (checksum buf') (overall buf')
        = accept (fun r => if (label (85 - p)).testBit r then 1 else 0) 1 := by
      unfold accept
      simp only [c1 0 (by omega), c1 1 (by omega), c1 2 (by omega), c1 3 (by omega),
        c1 4 (by omega), c1 5 (by omega), c1 6 (by omega), c2]
    rw [this, acc, decide_eq_true_eq]
    constructor
    · intro h; exact ⟨h, hp85⟩
    · intro h; exact h.1
  · intro h2
    obtain ⟨p, q, hpq, hp⟩ := Finset.card_eq_two.1 h2
    have hpm : p ∈ errors buf buf' := by rw [hp]; simp
    have hqm : q ∈ errors buf buf' := by rw [hp]; simp
    have hp85 : p < 85 := by
      unfold errors at hpm; exact Finset.mem_range.1 (Finset.mem_filter.1 hpm).1
    have hq85 : q < 85 := by
      unfold errors at hqm; exact Finset.mem_range.1 (Finset.mem_filter.1 hqm).1
    have hnp := (hE p hp85).2 hpm
    have hnq := (hE q hq85).2 hqm
    have heq : ∀ k, k < 85 → k ≠ p → k ≠ q → bit buf' k = bit buf k := by
      intro k hk hkp hkq; by_contra h
      have := (hE k hk).1 h; rw [hp] at this
      simp only [Finset.mem_insert, Finset.mem_singleton] at this
      omega
    have c1 : ∀ r, r < 7 → checksum buf' r = ((if (label (85 - p)).testBit r then 1 else 0)
        + if (label (85 - q)).testBit r then 1 else 0) % 2 := by
      intro r hr
      rw [checksum_wsum, wsum_two buf buf' _ p q hp85 hq85 hpq hnp hnq heq]
      have := hc r hr
      rw [checksum_wsum] at this
      split <;> split <;> omega
    have c2 : overall buf' = 0 := by
      rw [overall_wsum, wsum_two buf buf' _ p q hp85 hq85 hpq hnp hnq heq]
      rw [overall_wsum] at ho
      simp only [if_true]; omega
    have acc := accept_double ⟨p, hp85⟩ ⟨q, hq85⟩ (by simpa using hpq)
    simp only at acc
    rw [gloTest_accept, ← acc]
    unfold accept
    simp only [c1 0 (by omega), c1 1 (by omega), c1 2 (by omega), c1 3 (by omega),
      c1 4 (by omega), c1 5 (by omega), c1 6 (by omega), c2]

/-- A correctly coded non-zero string (data bit `β9` set, check bits 1, 2 and overall set). -/
example : Valid (bytes [0, 0, 0, 0, 0, 0, 0, 0, 0, 0x0C, 0x18]) ∧
    gloTest (bytes [0, 0, 0, 0, 0, 0, 0, 0, 0, 0x0C, 0x18]) = true := by
  unfold Valid; decide +kernel

end Verif.Props.Crc
