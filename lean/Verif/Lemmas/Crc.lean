import Verif.Model.Crc
import Verif.Spec.Crc
import Verif.Lemmas.BitTools
import Mathlib.Tactic.LinearCombination
import Mathlib.Algebra.Polynomial.RingDivision
import Mathlib.Tactic.ComputeDegree
import Mathlib.RingTheory.Coprime.Lemmas
/-! Lemmas for utils/crc.cxx: CRC-24Q -/
namespace Verif.Crc
open Polynomial Verif.BitSpec Verif.CrcSpec

theorem char2 (a : (ZMod 2)[X]) : a + a = 0 := by
  have : (2 : (ZMod 2)[X]) = 0 := by
    have h : ((2 : ℕ) : (ZMod 2)[X]) = 0 := CharP.cast_eq_zero _ 2
    exact_mod_cast h
  rw [← two_mul, this, zero_mul]

theorem cast_xor (a b : Bool) : (((a ^^ b).toNat : ZMod 2)) = (a.toNat : ZMod 2) + (b.toNat : ZMod 2) := by
  cases a <;> cases b <;> decide

theorem numPoly_xor (a b : Nat) : numPoly (a ^^^ b) = numPoly a + numPoly b := by
  unfold numPoly
  rw [← Finset.sum_add_distrib]
  refine Finset.sum_congr rfl fun i _ => ?_
  rw [Nat.testBit_xor, cast_xor, C_add, add_mul]

theorem numPoly_double (n : Nat) (h : n < 2 ^ 63) : numPoly (2 * n) = X * numPoly n := by
  unfold numPoly
  rw [Finset.sum_range_succ', Finset.sum_range_succ _ 63]
  have h0 : (2 * n).testBit 0 = false := by simp [Nat.testBit_zero]
  have h63 : n.testBit 63 = false := Nat.testBit_lt_two_pow h
  rw [h0, h63]
  simp only [Bool.toNat_false, Nat.cast_zero, C_0, zero_mul, add_zero]
  rw [Finset.mul_sum]
  refine Finset.sum_congr rfl fun i _ => ?_
  have : (2 * n).testBit (i + 1) = n.testBit i := by
    rw [Nat.testBit_succ]; congr 1; omega
  rw [this, pow_succ]; ring

theorem numPoly_mul_pow (n k : Nat) (h : n * 2 ^ k < 2 ^ 64) :
    numPoly (n * 2 ^ k) = X ^ k * numPoly n := by
  induction k with
  | zero => simp
  | succ k ih =>
    have e : n * 2 ^ (k + 1) = 2 * (n * 2 ^ k) := by rw [pow_succ]; ring
    rw [e] at h ⊢
    rw [numPoly_double _ (by omega), ih (by omega), pow_succ]; ring

theorem numPoly_add_shift (a b k : Nat) (hb : b < 2 ^ k) (h : a * 2 ^ k < 2 ^ 64) :
    numPoly (2 ^ k * a + b) = X ^ k * numPoly a + numPoly b := by
  rw [Nat.two_pow_add_eq_or_of_lt hb]
  have : (2 ^ k * a ||| b) = (2 ^ k * a) ^^^ b := by
    apply Nat.eq_of_testBit_eq
    intro i
    rw [Nat.testBit_or, Nat.testBit_xor, Nat.testBit_two_pow_mul]
    by_cases hi : k ≤ i
    · have : b.testBit i = false :=
        Nat.testBit_lt_two_pow (lt_of_lt_of_le hb (Nat.pow_le_pow_right (by omega) hi))
      simp [this]
    · simp [hi]
  rw [this, numPoly_xor, mul_comm (2 ^ k) a, numPoly_mul_pow _ _ h]

theorem numPoly_G : numPoly 0x1864CFB = P := by
  unfold numPoly P
  simp only [Finset.sum_range_succ, Finset.sum_range_zero]
  simp [Nat.testBit, Nat.shiftRight_eq_div_pow]
  ring

/-- One step of the bit-serial register. -/
def lfsr (r : Nat) : Nat := if r.testBit 23 then (2 * r) ^^^ 0x1864CFB else 2 * r

theorem lfsr_lt (r : Nat) (h : r < 2 ^ 24) : lfsr r < 2 ^ 24 := by
  unfold lfsr
  split
  · rename_i hb
    have h2 : (2 * r) ^^^ 0x1864CFB < 2 ^ 25 := Nat.xor_lt_two_pow (by omega) (by omega)
    apply Nat.lt_pow_two_of_testBit
    intro i hi
    by_cases h24 : i = 24
    · subst h24
      rw [Nat.testBit_xor, Nat.testBit_succ, show 2 * r / 2 = r by omega, hb]
      decide
    · exact Nat.testBit_lt_two_pow (lt_of_lt_of_le h2 (Nat.pow_le_pow_right (by omega) (by omega)))
  · rename_i hb
    have : r < 2 ^ 23 := by
      by_contra hc
      apply hb
      rw [Nat.testBit_eq_decide_div_mod_eq]
      simp; omega
    omega

theorem lfsr_poly (r : Nat) (h : r < 2 ^ 24) : P ∣ X * numPoly r - numPoly (lfsr r) := by
  unfold lfsr
  split
  · rw [numPoly_xor, numPoly_double r (by omega), numPoly_G]
    exact ⟨-1, by ring⟩
  · rw [numPoly_double r (by omega)]; simp

theorem lfsr_iter (n r : Nat) (h : r < 2 ^ 24) :
    lfsr^[n] r < 2 ^ 24 ∧ P ∣ X ^ n * numPoly r - numPoly (lfsr^[n] r) := by
  induction n with
  | zero => simpa using h
  | succ n ih =>
    rw [Function.iterate_succ_apply']
    refine ⟨lfsr_lt _ ih.1, ?_⟩
    have h1 := lfsr_poly _ ih.1
    have h2 := Dvd.dvd.mul_left ih.2 X
    have := dvd_add h1 h2
    convert this using 1
    rw [pow_succ]; ring

/-- The whole table against the bit-serial register. -/
theorem table_lfsr : ∀ i : Fin 256, table[i.val]? = some (lfsr^[8] (i.val * 2 ^ 16)) := by
  decide +kernel

theorem table_spec (i : Nat) (h : i < 256) :
    ∃ t, table[i]? = some t ∧ t < 2 ^ 24 ∧ P ∣ X ^ 24 * numPoly i - numPoly t := by
  refine ⟨_, table_lfsr ⟨i, h⟩, (lfsr_iter 8 (i * 2 ^ 16) (by omega)).1, ?_⟩
  have := (lfsr_iter 8 (i * 2 ^ 16) (by omega)).2
  rw [numPoly_mul_pow _ _ (by omega)] at this
  convert this using 1
  ring

theorem numPoly_byte_bits (b : Nat) (h : b < 256) :
    numPoly b = ∑ i ∈ Finset.range 8, C ((b.testBit i).toNat : ZMod 2) * X ^ i := by
  unfold numPoly
  rw [show 64 = 8 + 56 from rfl, Finset.sum_range_add, add_eq_left]
  refine Finset.sum_eq_zero fun i _ => ?_
  have : b.testBit (8 + i) = false :=
    Nat.testBit_lt_two_pow (lt_of_lt_of_le (show b < 2 ^ 8 from h) (Nat.pow_le_pow_right (by omega) (by omega)))
  rw [this]; simp

theorem bytes_append_left (l : List UInt8) (x : UInt8) (i : Nat) (h : i < l.length) :
    bytes (l ++ [x]) i = bytes l i := by
  unfold bytes; simp [List.getElem?_append_left h]

theorem sum_byte (f : Nat → (ZMod 2)[X]) (n : Nat) :
    ∑ i ∈ Finset.range (n + 8), f i = ∑ i ∈ Finset.range n, f i + ∑ i ∈ Finset.range 8, f (n + (7 - i)) := by
  rw [Finset.sum_range_add, ← Finset.sum_range_reflect (fun i => f (n + i))]

theorem msgPoly_snoc (l : List UInt8) (x : UInt8) :
    msgPoly (l ++ [x]) = msgPoly l * X ^ 8 + numPoly x.toNat := by
  have hx : x.toNat < 256 := x.toNat_lt
  have hlen : 8 * (l ++ [x]).length = 8 * l.length + 8 := by
    rw [List.length_append, List.length_singleton]; ring
  have e1 : msgPoly (l ++ [x]) = ∑ i ∈ Finset.range (8 * l.length + 8),
      C (bit (bytes (l ++ [x])) i : ZMod 2) * X ^ (8 * l.length + 7 - i) := by
    unfold msgPoly
    rw [hlen]
    refine Finset.sum_congr rfl fun i _ => ?_
    rw [show 8 * l.length + 8 - 1 - i = 8 * l.length + 7 - i by omega]
  rw [e1, sum_byte, numPoly_byte_bits _ hx]
  generalize hn : l.length = n
  refine congrArg₂ (· + ·) ?_ ?_
  · unfold msgPoly
    rw [Finset.sum_mul, hn]
    refine Finset.sum_congr rfl fun i hi => ?_
    rw [Finset.mem_range] at hi
    have : bit (bytes (l ++ [x])) i = bit (bytes l) i := by
      unfold bit; rw [bytes_append_left _ _ _ (by omega)]
    rw [this, mul_assoc, ← pow_add, show 8 * n - 1 - i + 8 = 8 * n + 7 - i by omega]
  · refine Finset.sum_congr rfl fun i hi => ?_
    rw [Finset.mem_range] at hi
    have hb : bytes (l ++ [x]) ((8 * n + (7 - i)) / 8) = x := by
      unfold bytes
      rw [show (8 * n + (7 - i)) / 8 = l.length by omega]; simp
    rw [Bits.bit_eq_testBit, hb, show 7 - (8 * n + (7 - i)) % 8 = i by omega,
      show 8 * n + 7 - (8 * n + (7 - i)) = i by omega]

theorem crc24From_append (l₁ l₂ : List UInt8) (c : Nat) :
    crc24From c (l₁ ++ l₂) = (crc24From c l₁).bind fun c' => crc24From c' l₂ := by
  induction l₁ generalizing c with
  | nil => rfl
  | cons b l ih =>
    simp only [List.cons_append, crc24From, Option.bind_assoc]
    congr 1; funext c'; exact ih c'

theorem crcStep_spec (c : Nat) (hc : c < 2 ^ 24) (x : UInt8) (M : (ZMod 2)[X])
    (hM : P ∣ M * X ^ 24 - numPoly c) :
    ∃ c', crcStep c x = some c' ∧ c' < 2 ^ 24 ∧
      P ∣ (M * X ^ 8 + numPoly x.toNat) * X ^ 24 - numPoly c' := by
  have hx : x.toNat < 256 := x.toNat_lt
  have hh : c >>> 16 < 2 ^ 8 := by rw [Nat.shiftRight_eq_div_pow]; omega
  have hidx : (c >>> 16) ^^^ x.toNat < 256 := Nat.xor_lt_two_pow (n := 8) hh hx
  obtain ⟨t, ht, htl, hp⟩ := table_spec _ hidx
  have hsh : (c <<< 8) &&& 0xFFFFFF = (c % 2 ^ 16) * 2 ^ 8 := by
    rw [show 0xFFFFFF = 2 ^ 24 - 1 by rfl, Nat.and_two_pow_sub_one_eq_mod, Nat.shiftLeft_eq]
    omega
  refine ⟨((c % 2 ^ 16) * 2 ^ 8) ^^^ t, ?_, ?_, ?_⟩
  · unfold crcStep; rw [ht, hsh]; rfl
  · exact Nat.xor_lt_two_pow (by omega) htl
  · have hc' : numPoly c = X ^ 16 * numPoly (c >>> 16) + numPoly (c % 2 ^ 16) := by
      rw [← numPoly_add_shift _ _ _ (Nat.mod_lt _ (by norm_num)) (by omega)]
      refine congrArg numPoly ?_
      rw [Nat.shiftRight_eq_div_pow]; omega
    rw [numPoly_xor, numPoly_mul_pow _ _ (by omega)]
    rw [numPoly_xor] at hp
    rw [hc'] at hM
    have := dvd_add (Dvd.dvd.mul_left hM (X ^ 8)) hp
    convert this using 1
    ring

theorem crc24_spec (l : List UInt8) :
    ∃ c, crc24 l = some c ∧ c < 2 ^ 24 ∧ P ∣ msgPoly l * X ^ 24 - numPoly c := by
  induction l using List.reverseRecOn with
  | nil => exact ⟨0, rfl, by norm_num, by simp [msgPoly, numPoly]⟩
  | append_singleton l x ih =>
    obtain ⟨c, h1, h2, h3⟩ := ih
    obtain ⟨c', k1, k2, k3⟩ := crcStep_spec c h2 x _ h3
    refine ⟨c', ?_, k2, ?_⟩
    · unfold crc24 at *
      rw [crc24From_append, h1, Option.bind_some]
      simp [crc24From, k1]
    · rw [msgPoly_snoc]; exact k3

end Verif.Crc

namespace Verif.Crc
open Polynomial Verif.BitSpec Verif.CrcSpec

theorem numPoly_coeff (n i : Nat) (h : i < 64) :
    (numPoly n).coeff i = ((n.testBit i).toNat : ZMod 2) := by
  unfold numPoly
  rw [finsetSum_coeff, Finset.sum_eq_single i]
  · simp
  · intro j _ hj; rw [coeff_C_mul, coeff_X_pow, if_neg (by omega), mul_zero]
  · intro hi; exact absurd (Finset.mem_range.2 h) hi

theorem numPoly_degree (n k : Nat) (h : n < 2 ^ k) : (numPoly n).degree < k := by
  rw [degree_lt_iff_coeff_zero]
  intro m hm
  by_cases hm64 : m < 64
  · rw [numPoly_coeff _ _ hm64, Nat.testBit_lt_two_pow
      (lt_of_lt_of_le h (Nat.pow_le_pow_right (by omega) hm))]; simp
  · unfold numPoly
    rw [finsetSum_coeff]
    refine Finset.sum_eq_zero fun j hj => ?_
    rw [Finset.mem_range] at hj
    rw [coeff_C_mul, coeff_X_pow, if_neg (by omega), mul_zero]

theorem numPoly_zero : numPoly 0 = 0 := by simp [numPoly]

theorem numPoly_eq_zero (n : Nat) (h : n < 2 ^ 64) (h0 : numPoly n = 0) : n = 0 := by
  apply Nat.eq_of_testBit_eq
  intro i
  rw [Nat.zero_testBit]
  by_cases hi : i < 64
  · have := numPoly_coeff n i hi
    rw [h0, coeff_zero] at this
    cases hb : n.testBit i
    · rfl
    · rw [hb] at this; exact absurd this (by decide)
  · exact Nat.testBit_lt_two_pow (lt_of_lt_of_le h (Nat.pow_le_pow_right (by omega) (by omega)))

theorem numPoly_inj (a b : Nat) (ha : a < 2 ^ 64) (hb : b < 2 ^ 64) (h : numPoly a = numPoly b) :
    a = b := by
  have : numPoly (a ^^^ b) = 0 := by rw [numPoly_xor, h, char2]
  have := numPoly_eq_zero _ (Nat.xor_lt_two_pow ha hb) this
  exact Nat.xor_eq_zero_iff.1 this

theorem P_degree : P.natDegree = 24 := by
  unfold P
  compute_degree!

theorem P_monic : P.Monic := by
  unfold P
  monicity!

theorem P_ne_one : P ≠ 1 := by
  intro h
  have := P_degree
  rw [h, natDegree_one] at this
  omega

theorem P_coprime_X_pow (k : Nat) : IsCoprime P (X ^ k : (ZMod 2)[X]) := by
  apply IsCoprime.pow_right
  refine ⟨1, -(X ^ 23 + X ^ 22 + X ^ 17 + X ^ 16 + X ^ 13 + X ^ 10 + X ^ 9 + X ^ 6 + X ^ 5 + X ^ 4
    + X ^ 3 + X ^ 2 + 1), ?_⟩
  unfold P; ring

theorem dvd_small (D : (ZMod 2)[X]) (h : P ∣ D) (hd : D.degree < 24) : D = 0 := by
  by_contra hD
  have h1 := degree_le_of_dvd h hD
  rw [degree_eq_natDegree P_monic.ne_zero, P_degree] at h1
  exact absurd (lt_of_le_of_lt h1 hd) (by norm_num)

theorem crc_eq_iff (l₁ l₂ : List UInt8) :
    crc24 l₁ = crc24 l₂ ↔ P ∣ msgPoly l₁ - msgPoly l₂ := by
  obtain ⟨c, h1, h2, h3⟩ := crc24_spec l₁
  obtain ⟨d, k1, k2, k3⟩ := crc24_spec l₂
  rw [h1, k1, Option.some.injEq]
  constructor
  · intro e
    subst e
    have : P ∣ (msgPoly l₁ - msgPoly l₂) * X ^ 24 := by
      have := dvd_sub h3 k3
      convert this using 1; ring
    exact (P_coprime_X_pow 24).dvd_of_dvd_mul_right this
  · intro e
    have h4 : P ∣ numPoly c - numPoly d := by
      have := dvd_sub (dvd_add (Dvd.dvd.mul_right e (X ^ 24)) k3) h3
      convert this using 1; ring
    have h5 : numPoly c - numPoly d = 0 := by
      refine dvd_small _ h4 (lt_of_le_of_lt (degree_sub_le _ _) (max_lt ?_ ?_))
      · exact numPoly_degree c 24 h2
      · exact numPoly_degree d 24 k2
    exact numPoly_inj _ _ (by omega) (by omega) (sub_eq_zero.1 h5)

theorem crc_eq_zero_iff (l : List UInt8) : crc24 l = some 0 ↔ P ∣ msgPoly l := by
  have := crc_eq_iff l []
  rw [show crc24 [] = some 0 from rfl] at this
  rw [this]; simp [msgPoly]

theorem msgPoly_sub (l₁ l₂ : List UInt8) (h : l₁.length = l₂.length) :
    msgPoly l₁ - msgPoly l₂ = ∑ i ∈ Finset.range (8 * l₁.length),
      C ((bit (bytes l₁) i : ZMod 2) - (bit (bytes l₂) i : ZMod 2)) * X ^ (8 * l₁.length - 1 - i) := by
  unfold msgPoly
  rw [← h, ← Finset.sum_sub_distrib]
  refine Finset.sum_congr rfl fun i _ => ?_
  rw [C_sub]; ring

theorem bytes_ext (l₁ l₂ : List UInt8) (h : l₁.length = l₂.length)
    (hb : ∀ i, i < 8 * l₁.length → bit (bytes l₁) i = bit (bytes l₂) i) : l₁ = l₂ := by
  apply List.ext_getElem h
  intro i h1 h2
  have e : ∀ (l : List UInt8) (hi : i < l.length), bytes l i = l[i] := by
    intro l hi; unfold bytes; simp [hi]
  rw [← e l₁ h1, ← e l₂ h2]
  apply UInt8.toNat_inj.1
  rw [← Bits.field_byte, ← Bits.field_byte]
  have : ∀ k, k ≤ 8 → field (bytes l₁) (8 * i) k = field (bytes l₂) (8 * i) k := by
    intro k
    induction k with
    | zero => intro _; rfl
    | succ k ih =>
      intro hk
      rw [field, field, ih (by omega), hb _ (by omega)]
  exact this 8 (by omega)

theorem bit_sub_eq_zero (x y : Nat) (hx : x < 2) (hy : y < 2) (h : (x : ZMod 2) - (y : ZMod 2) = 0) :
    x = y := by
  have hx' : x = 0 ∨ x = 1 := by omega
  have hy' : y = 0 ∨ y = 1 := by omega
  rcases hx' with rfl | rfl <;> rcases hy' with rfl | rfl <;> revert h <;> decide

end Verif.Crc
