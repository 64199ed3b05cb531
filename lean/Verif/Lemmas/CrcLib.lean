import Mathlib.RingTheory.Ideal.Quotient.Basic
import Mathlib.RingTheory.Ideal.Quotient.Defs
import Mathlib.Tactic.LinearCombination
import Verif.Model.CrcLib
import Verif.Spec.CrcLib

/-!
# Registers and polynomials
-/

namespace Verif.Lemmas.CrcLib
open Polynomial Verif.Model.CrcLib Verif.Spec.CrcLib

theorem b2_xor (a b : Bool) : b2 (a ^^ b) = b2 a + b2 b := by revert a b; decide

theorem b2_and (a b : Bool) : b2 (a && b) = b2 a * b2 b := by revert a b; decide

theorem b2_inj (a b : Bool) (h : b2 a = b2 b) : a = b := by revert a b; decide

theorem b2_false : b2 false = 0 := rfl

theorem double (a : ZMod 2) : a + a = 0 := by revert a; decide

theorem poly_coeff (n r k : Nat) :
    (poly n r).coeff k = if k < n then b2 (r.testBit k) else 0 := by
  unfold poly
  rw [finset_sum_coeff]
  simp only [coeff_C_mul_X_pow]
  rw [Finset.sum_ite_eq]
  simp

theorem rpoly_coeff (n r k : Nat) :
    (rpoly n r).coeff k = if k < n then b2 (r.testBit (n - 1 - k)) else 0 := by
  unfold rpoly
  rw [finset_sum_coeff]
  simp only [coeff_C_mul_X_pow]
  rw [Finset.sum_ite_eq]
  simp

theorem poly_xor (n a b : Nat) : poly n (a ^^^ b) = poly n a + poly n b := by
  ext k
  simp only [coeff_add, poly_coeff, Nat.testBit_xor, b2_xor]
  split <;> simp

theorem rpoly_xor (n a b : Nat) : rpoly n (a ^^^ b) = rpoly n a + rpoly n b := by
  ext k
  simp only [coeff_add, rpoly_coeff, Nat.testBit_xor, b2_xor]
  split <;> simp

theorem bitsOf_xor (r : Bool) (n a b : Nat) : bitsOf r n (a ^^^ b) = bitsOf r n a + bitsOf r n b := by
  unfold bitsOf
  split
  · exact rpoly_xor n a b
  · exact poly_xor n a b

theorem poly_congr {n a b : Nat} (h : ∀ k < n, a.testBit k = b.testBit k) : poly n a = poly n b := by
  ext k
  simp only [poly_coeff]
  split
  · rename_i hk; rw [h k hk]
  · rfl

theorem rpoly_congr {n a b : Nat} (h : ∀ k < n, a.testBit k = b.testBit k) :
    rpoly n a = rpoly n b := by
  ext k
  simp only [rpoly_coeff]
  split
  · rename_i hk; rw [h _ (by omega)]
  · rfl

theorem poly_trunc {n bits : Nat} (h : n ≤ bits) (x : Nat) : poly n (trunc bits x) = poly n x :=
  poly_congr fun k hk => by
    unfold trunc
    rw [Nat.testBit_mod_two_pow]
    simp [show k < bits by omega]

theorem rpoly_trunc {n bits : Nat} (h : n ≤ bits) (x : Nat) : rpoly n (trunc bits x) = rpoly n x :=
  rpoly_congr fun k hk => by
    unfold trunc
    rw [Nat.testBit_mod_two_pow]
    simp [show k < bits by omega]

theorem trunc_eq {bits x : Nat} (h : x < 2 ^ bits) : trunc bits x = x := Nat.mod_eq_of_lt h

theorem poly_inj {n a b : Nat} (ha : a < 2 ^ n) (hb : b < 2 ^ n) (h : poly n a = poly n b) :
    a = b := by
  refine Nat.eq_of_testBit_eq fun k => ?_
  by_cases hk : k < n
  · have := congrArg (fun p => p.coeff k) h
    simp only [poly_coeff, hk, if_true] at this
    exact b2_inj _ _ this
  · have hp : 2 ^ n ≤ 2 ^ k := Nat.pow_le_pow_right (by omega) (by omega)
    rw [Nat.testBit_lt_two_pow (by omega), Nat.testBit_lt_two_pow (by omega)]

theorem rpoly_inj {n a b : Nat} (ha : a < 2 ^ n) (hb : b < 2 ^ n) (h : rpoly n a = rpoly n b) :
    a = b := by
  refine Nat.eq_of_testBit_eq fun k => ?_
  by_cases hk : k < n
  · have := congrArg (fun p => p.coeff (n - 1 - k)) h
    simp only [rpoly_coeff, show n - 1 - k < n by omega, if_true,
      show n - 1 - (n - 1 - k) = k by omega] at this
    exact b2_inj _ _ this
  · have hp : 2 ^ n ≤ 2 ^ k := Nat.pow_le_pow_right (by omega) (by omega)
    rw [Nat.testBit_lt_two_pow (by omega), Nat.testBit_lt_two_pow (by omega)]

theorem poly_degree (n r : Nat) : (poly n r).degree < n := by
  rw [degree_lt_iff_coeff_zero]
  intro m hm
  rw [poly_coeff, if_neg (by omega)]

theorem rpoly_degree (n r : Nat) : (rpoly n r).degree < n := by
  rw [degree_lt_iff_coeff_zero]
  intro m hm
  rw [rpoly_coeff, if_neg (by omega)]

theorem bitsOf_degree (b : Bool) (n r : Nat) : (bitsOf b n r).degree < n := by
  unfold bitsOf
  split
  · exact rpoly_degree n r
  · exact poly_degree n r

theorem gen_monic (w p : Nat) : (gen w p).Monic := by
  unfold gen
  exact monic_X_pow_add (poly_degree w p)

theorem gen_degree (w p : Nat) : (gen w p).degree = w := by
  unfold gen
  rw [degree_add_eq_left_of_degree_lt]
  · exact degree_X_pow w
  · rw [degree_X_pow]; exact poly_degree w p

/-! ## Bits of the steps -/

theorem and_one (r : Nat) : (r &&& 1 ≠ 0) ↔ r.testBit 0 = true := by
  rw [Nat.and_one_is_mod, Nat.testBit_zero]
  simp

theorem and_top (r top : Nat) : (r &&& (1 <<< top) ≠ 0) ↔ r.testBit top = true := by
  rw [Nat.one_shiftLeft, Nat.and_two_pow]
  cases r.testBit top <;> simp

theorem stepL_testBit {bits k : Nat} (h : k < bits) (top q r : Nat) :
    (stepL bits top q r).testBit k =
      ((decide (1 ≤ k) && r.testBit (k - 1)) ^^ (r.testBit top && q.testBit k)) := by
  unfold stepL trunc
  rw [Nat.testBit_mod_two_pow]
  simp only [h, decide_true, Bool.true_and]
  by_cases ht : r.testBit top = true
  · rw [if_pos ((and_top r top).2 ht), Nat.testBit_xor, Nat.testBit_shiftLeft, ht]
    simp
  · rw [if_neg (fun h' => ht ((and_top r top).1 h')), Nat.testBit_shiftLeft]
    simp [Bool.not_eq_true _ ▸ ht]

theorem stepR_testBit {bits k : Nat} (h : k < bits) (q r : Nat) :
    (stepR bits q r).testBit k = (r.testBit (k + 1) ^^ (r.testBit 0 && q.testBit k)) := by
  unfold stepR trunc
  rw [Nat.testBit_mod_two_pow]
  simp only [h, decide_true, Bool.true_and]
  by_cases ht : r.testBit 0 = true
  · rw [if_pos ((and_one r).2 ht), Nat.testBit_xor, Nat.testBit_shiftRight, ht, Nat.add_comm 1 k]
    simp
  · rw [if_neg (fun h' => ht ((and_one r).1 h')), Nat.testBit_shiftRight, Nat.add_comm 1 k]
    simp [Bool.not_eq_true _ ▸ ht]

theorem stepR_lt {bits n q r : Nat} (hq : q < 2 ^ n) (hr : r < 2 ^ n) : stepR bits q r < 2 ^ n := by
  unfold stepR trunc
  have h1 : r >>> 1 < 2 ^ n := lt_of_le_of_lt (by rw [Nat.shiftRight_one]; omega) hr
  refine lt_of_le_of_lt (Nat.mod_le _ _) ?_
  split
  · exact Nat.xor_lt_two_pow h1 hq
  · exact h1

theorem stepL_poly {bits n : Nat} (hn : 0 < n) (h : n ≤ bits) (q r : Nat) :
    X * poly n r = C (b2 (r.testBit (n - 1))) * (X ^ n + poly n q) + poly n (stepL bits (n - 1) q r) := by
  ext k
  rw [coeff_add, coeff_C_mul, coeff_add, coeff_X_pow, poly_coeff, poly_coeff]
  cases k with
  | zero =>
    rw [coeff_X_mul_zero, if_pos hn, if_pos hn, stepL_testBit (by omega)]
    simp only [b2_xor, b2_and, show ¬ (0 = n) by omega, if_false, zero_add]
    simp [b2_false, double]
  | succ k =>
    rw [coeff_X_mul, poly_coeff]
    by_cases hk : k + 1 < n
    · rw [if_pos (by omega), if_pos hk, if_pos hk, stepL_testBit (by omega)]
      simp only [b2_xor, b2_and, show ¬ (k + 1 = n) by omega, if_false, zero_add]
      simp only [Nat.le_add_left, decide_true, Bool.true_and, Nat.add_sub_cancel,
        show b2 true = 1 from rfl, one_mul]
      rw [add_left_comm, double, add_zero]
    · rw [if_neg hk, if_neg hk]
      by_cases he : k + 1 = n
      · rw [if_pos (by omega), if_pos he, show n - 1 = k by omega]
        simp
      · rw [if_neg (by omega), if_neg he]
        simp

theorem stepR_poly {bits n : Nat} (hn : 0 < n) (h : n ≤ bits) (q r : Nat) (hr : r < 2 ^ n) :
    X * rpoly n r = C (b2 (r.testBit 0)) * (X ^ n + rpoly n q) + rpoly n (stepR bits q r) := by
  ext k
  rw [coeff_add, coeff_C_mul, coeff_add, coeff_X_pow, rpoly_coeff, rpoly_coeff]
  cases k with
  | zero =>
    rw [coeff_X_mul_zero, if_pos hn, if_pos hn, stepR_testBit (by omega)]
    simp only [b2_xor, b2_and, show ¬ (0 = n) by omega, if_false, zero_add, Nat.sub_zero]
    rw [show n - 1 + 1 = n by omega, Nat.testBit_lt_two_pow hr, b2_false, zero_add, double]
  | succ k =>
    rw [coeff_X_mul, rpoly_coeff]
    by_cases hk : k + 1 < n
    · rw [if_pos (by omega), if_pos hk, if_pos hk, stepR_testBit (by omega)]
      simp only [b2_xor, b2_and, show ¬ (k + 1 = n) by omega, if_false, zero_add]
      rw [show n - 1 - (k + 1) + 1 = n - 1 - k by omega, add_left_comm, double, add_zero]
    · rw [if_neg hk, if_neg hk]
      by_cases he : k + 1 = n
      · rw [if_pos (by omega), if_pos he, show n - 1 - k = 0 by omega]
        simp
      · rw [if_neg (by omega), if_neg he]
        simp

/-! ## Modulo the generator -/

/-- Residue classes. -/
noncomputable abbrev mk (g : (ZMod 2)[X]) := Ideal.Quotient.mk (Ideal.span {g})

theorem mk_eq {g a b : (ZMod 2)[X]} : mk g a = mk g b ↔ g ∣ a - b := by
  rw [Ideal.Quotient.mk_eq_mk_iff_sub_mem, Ideal.mem_span_singleton]

theorem mk_self (g : (ZMod 2)[X]) : mk g g = 0 := by
  rw [← map_zero (mk g), mk_eq, sub_zero]

theorem iterL {bits n : Nat} (hn : 0 < n) (h : n ≤ bits) (q r m : Nat) :
    mk (X ^ n + poly n q) (poly n ((stepL bits (n - 1) q)^[m] r)) =
      mk (X ^ n + poly n q) (X ^ m * poly n r) := by
  induction m generalizing r with
  | zero => simp
  | succ m ih =>
    rw [Function.iterate_succ_apply, ih, pow_succ, mul_assoc, stepL_poly hn h q r]
    simp only [map_mul, map_add, mk_self]
    rw [← map_add, mk_self]
    ring

theorem iterR {bits n : Nat} (hn : 0 < n) (h : n ≤ bits) (q r m : Nat) (hq : q < 2 ^ n)
    (hr : r < 2 ^ n) :
    (stepR bits q)^[m] r < 2 ^ n ∧
    mk (X ^ n + rpoly n q) (rpoly n ((stepR bits q)^[m] r)) =
      mk (X ^ n + rpoly n q) (X ^ m * rpoly n r) := by
  induction m generalizing r with
  | zero => exact ⟨hr, by simp⟩
  | succ m ih =>
    rw [Function.iterate_succ_apply]
    obtain ⟨h1, h2⟩ := ih _ (stepR_lt hq hr)
    refine ⟨h1, ?_⟩
    rw [h2, pow_succ, mul_assoc, stepR_poly hn h q r hr]
    simp only [map_mul, map_add, mk_self]
    rw [← map_add, mk_self]
    ring

/-- The loop over the bytes. -/
theorem fold_mk {f : Nat → UInt8 → Nat} {φ : Nat → (ZMod 2)[X]} {refl : Bool} {n : Nat}
    {g : (ZMod 2)[X]} {inv : Nat → Prop}
    (hf : ∀ r b, inv r → inv (f r b) ∧
      mk g (φ (f r b)) = mk g (X ^ 8 * φ r + X ^ n * bitsOf refl 8 b.toNat))
    (l : List UInt8) (r : Nat) (hr : inv r) :
    inv (l.foldl f r) ∧
      mk g (φ (l.foldl f r)) = mk g (φ r * X ^ (8 * l.length) + X ^ n * message refl l) := by
  induction l using List.reverseRecOn with
  | nil => exact ⟨hr, by simp [message]⟩
  | append_singleton l b ih =>
    obtain ⟨h1, h2⟩ := ih
    obtain ⟨h3, h4⟩ := hf _ b h1
    rw [List.foldl_append, List.foldl_cons, List.foldl_nil]
    refine ⟨h3, ?_⟩
    have hm : message refl (l ++ [b]) = message refl l * X ^ 8 + bitsOf refl 8 b.toNat := by
      simp [message]
    rw [h4, map_add, map_mul, h2, hm, List.length_append, List.length_singleton, Nat.mul_add,
      pow_add]
    simp only [map_add, map_mul, map_pow]
    ring

/-! ## Shifts -/

theorem poly_shl (m k x : Nat) : poly (m + k) (x <<< k) = X ^ k * poly m x := by
  ext i
  rw [coeff_X_pow_mul', poly_coeff, poly_coeff, Nat.testBit_shiftLeft]
  by_cases hk : k ≤ i
  · rw [if_pos hk]
    by_cases hi : i < m + k
    · rw [if_pos hi, if_pos (by omega)]; simp [hk]
    · rw [if_neg hi, if_neg (by omega)]
  · rw [if_neg hk]
    have : decide (i ≥ k) = false := by simpa using hk
    rw [this]
    simp [b2_false]

theorem poly_shr {m k x : Nat} (h : X ^ k ∣ poly (m + k) x) :
    poly (m + k) x = X ^ k * poly m (x >>> k) := by
  ext i
  rw [X_pow_dvd_iff] at h
  rw [coeff_X_pow_mul']
  by_cases hk : k ≤ i
  · rw [if_pos hk, poly_coeff, poly_coeff, Nat.testBit_shiftRight, show k + (i - k) = i by omega]
    by_cases hi : i < m + k
    · rw [if_pos hi, if_pos (by omega)]
    · rw [if_neg hi, if_neg (by omega)]
  · rw [if_neg hk]; exact h i (by omega)

theorem rpoly_ext {m k x : Nat} (hx : x < 2 ^ m) : rpoly (m + k) x = X ^ k * rpoly m x := by
  ext i
  rw [coeff_X_pow_mul', rpoly_coeff, rpoly_coeff]
  by_cases hk : k ≤ i
  · rw [if_pos hk]
    by_cases hi : i < m + k
    · rw [if_pos hi, if_pos (by omega), show m + k - 1 - i = m - 1 - (i - k) by omega]
    · rw [if_neg hi, if_neg (by omega)]
  · rw [if_neg hk]
    split
    · rw [Nat.testBit_lt_two_pow (lt_of_lt_of_le hx (Nat.pow_le_pow_right (by omega) (by omega)))]
      rfl
    · rfl

theorem lt_of_testBit {n x : Nat} (h : ∀ k, n ≤ k → x.testBit k = false) : x < 2 ^ n :=
  Nat.lt_pow_two_of_testBit x h

theorem rpoly_dvd {m k x : Nat} (hx : x < 2 ^ (m + k)) (h : X ^ k ∣ rpoly (m + k) x) :
    x < 2 ^ m := by
  rw [X_pow_dvd_iff] at h
  refine lt_of_testBit fun i hi => ?_
  by_cases hk : i < m + k
  · have := h (m + k - 1 - i) (by omega)
    rw [rpoly_coeff, if_pos (by omega), show m + k - 1 - (m + k - 1 - i) = i by omega] at this
    exact b2_inj _ _ this
  · exact Nat.testBit_lt_two_pow (lt_of_lt_of_le hx (Nat.pow_le_pow_right (by omega) (by omega)))

/-- The bits of a reflected number. -/
theorem reflectLoop_testBit {bits : Nat} (n rev v : Nat) (i : Nat) (hi : i < bits) :
    (reflectLoop bits n rev v).testBit i =
      if i < n then v.testBit (n - 1 - i) else rev.testBit (i - n) := by
  induction n generalizing rev v with
  | zero => simp [reflectLoop]
  | succ n ih =>
    rw [reflectLoop, ih]
    by_cases h1 : i < n
    · rw [if_pos h1, if_pos (by omega), Nat.testBit_shiftRight]
      congr 1
      omega
    · rw [if_neg h1]
      unfold trunc
      rw [Nat.testBit_mod_two_pow, Nat.testBit_or, Nat.testBit_shiftLeft, Nat.testBit_and]
      simp only [show i - n < bits by omega, decide_true, Bool.true_and]
      by_cases h2 : i = n
      · subst h2
        simp
      · rw [if_neg (by omega)]
        have h3 : Nat.testBit 1 (i - n) = false :=
          Nat.testBit_lt_two_pow (by
            calc 1 < 2 ^ 1 := by decide
              _ ≤ 2 ^ (i - n) := Nat.pow_le_pow_right (by omega) (by omega))
        rw [h3, show i - (n + 1) = i - n - 1 by omega]
        simp [show 1 ≤ i - n by omega]

theorem reflectLoop_lt {bits : Nat} (n m rev v : Nat) (h : rev < 2 ^ m) :
    reflectLoop bits n rev v < 2 ^ (m + n) := by
  induction n generalizing m rev v with
  | zero => exact h
  | succ n ih =>
    rw [reflectLoop]
    have : trunc bits ((rev <<< 1) ||| (v &&& 1)) < 2 ^ (m + 1) := by
      refine lt_of_le_of_lt (Nat.mod_le _ _) (Nat.or_lt_two_pow ?_ ?_)
      · rw [Nat.shiftLeft_eq, pow_succ]; omega
      · rw [Nat.and_one_is_mod, pow_succ]
        have : 0 < 2 ^ m := by positivity
        omega
    have := ih (m + 1) _ (v >>> 1) this
    rwa [show m + 1 + n = m + (n + 1) by omega] at this

theorem reflect_lt (bits v n : Nat) : mirror bits v n < 2 ^ n := by
  have := reflectLoop_lt (bits := bits) n 0 0 v (by norm_num)
  simpa [mirror] using this

theorem reflect_testBit {bits : Nat} (v n i : Nat) (hn : n ≤ bits) (hi : i < n) :
    (mirror bits v n).testBit i = v.testBit (n - 1 - i) := by
  unfold mirror
  rw [reflectLoop_testBit n 0 v i (by omega), if_pos hi]

theorem poly_reflect {bits n : Nat} (hn : n ≤ bits) (v : Nat) :
    poly n (mirror bits v n) = rpoly n v := by
  ext i
  rw [poly_coeff, rpoly_coeff]
  split
  · rw [reflect_testBit v n i hn (by assumption)]
  · rfl

theorem rpoly_reflect {bits n : Nat} (hn : n ≤ bits) (v : Nat) :
    rpoly n (mirror bits v n) = poly n v := by
  ext i
  rw [poly_coeff, rpoly_coeff]
  split
  · rw [reflect_testBit v n _ hn (by omega)]
    congr 2
    omega
  · rfl

theorem bitMask_eq {w : Nat} (hw : 1 ≤ w) : bitMask w = 2 ^ w - 1 := by
  unfold bitMask
  rw [Nat.one_shiftLeft]
  refine Nat.eq_of_testBit_eq fun i => ?_
  rw [Nat.testBit_or, Nat.testBit_two_pow_sub_one, Nat.testBit_two_pow_sub_one, Nat.testBit_two_pow]
  by_cases h : i < w
  · by_cases h2 : i = w - 1
    · simp [h2, h, show w - 1 < w by omega]
    · simp [h, show i < w - 1 by omega]
  · simp [h, show ¬ (w - 1 = i) by omega, show ¬ i < w - 1 by omega]

theorem and_bitMask {w : Nat} (hw : 1 ≤ w) (x : Nat) : x &&& bitMask w = x % 2 ^ w := by
  rw [bitMask_eq hw, Nat.and_two_pow_sub_one_eq_mod]

/-! ## The remainders -/

/-- From the register of `w + k` bits to the remainder. -/
theorem finish {w k p : Nat} {φ ψ i m : (ZMod 2)[X]} (n : Nat)
    (h : mk (X ^ k * gen w p) φ = mk (X ^ k * gen w p) (X ^ k * i * X ^ n + X ^ (w + k) * m))
    (hφ : φ = X ^ k * ψ) (hψ : ψ.degree < w) : ψ = (i * X ^ n + m * X ^ w) %ₘ gen w p := by
  rw [mk_eq, hφ] at h
  have e : X ^ k * ψ - (X ^ k * i * X ^ n + X ^ (w + k) * m) =
      X ^ k * (ψ - (i * X ^ n + m * X ^ w)) := by rw [pow_add]; ring
  rw [e] at h
  have h := (mul_dvd_mul_iff_left (pow_ne_zero k X_ne_zero)).1 h
  rw [← modByMonic_eq_of_dvd_sub (gen_monic w p) h,
    (modByMonic_eq_self_iff (gen_monic w p)).2 (by rw [gen_degree]; exact hψ)]

theorem dvd_of_mk {w k p : Nat} {φ i m : (ZMod 2)[X]} (n : Nat)
    (h : mk (X ^ k * gen w p) φ = mk (X ^ k * gen w p) (X ^ k * i * X ^ n + X ^ (w + k) * m)) :
    X ^ k ∣ φ := by
  rw [mk_eq] at h
  have h1 : (X : (ZMod 2)[X]) ^ k ∣ X ^ k * i * X ^ n + X ^ (w + k) * m := by
    refine Dvd.dvd.add ?_ ?_
    · exact (dvd_mul_right _ _).mul_right _
    · exact (pow_dvd_pow X (by omega)).mul_right _
  have h2 := (dvd_mul_right ((X : (ZMod 2)[X]) ^ k) (gen w p)).trans h
  have := dvd_add h2 h1
  simpa using this

/-- Parameters that are numbers of the width, in a type that holds them. -/
structure Fits (p : Params) : Prop where
  one : 1 ≤ p.width
  le : p.width ≤ p.bits
  eight : 8 ≤ p.bits
  poly : p.poly < 2 ^ p.width
  init : p.init < 2 ^ p.width
  xorOut : p.xorOut < 2 ^ p.width

/-- A function that computes remainders. -/
def Rem (p : Params) (f : List UInt8 → Nat → Nat) : Prop :=
  ∀ l r, (p.refIn = true → r < 2 ^ p.width) →
    (p.refIn = true → f l r < 2 ^ p.width) ∧
    bitsOf p.refIn p.width (f l r) =
      (bitsOf p.refIn p.width r * X ^ (8 * l.length) + message p.refIn l * X ^ p.width) %ₘ
        gen p.width p.poly

/-- The generator times a power, of degree at least 8. -/
theorem gen_shl (w k q : Nat) : (X : (ZMod 2)[X]) ^ (w + k) + poly (w + k) (q <<< k) =
    X ^ k * gen w q := by
  rw [poly_shl, gen, pow_add]; ring

/-- Rounds of the loops give remainders: reflected. -/
theorem rem_refl {p : Params} (hr : p.refIn = true) {k : Nat}
    {f : Nat → UInt8 → Nat}
    (hf : ∀ r b, r < 2 ^ (p.width + k) → f r b < 2 ^ (p.width + k) ∧
      mk (X ^ k * gen p.width p.poly) (rpoly (p.width + k) (f r b)) =
        mk (X ^ k * gen p.width p.poly) (X ^ 8 * rpoly (p.width + k) r +
          X ^ (p.width + k) * bitsOf true 8 b.toNat)) :
    Rem p (fun l r => l.foldl f r) := by
  intro l r h
  have h := h hr
  obtain ⟨h1, h2⟩ := fold_mk (φ := rpoly (p.width + k)) (refl := true) hf l r
    (lt_of_lt_of_le h (Nat.pow_le_pow_right (by omega) (by omega)))
  rw [rpoly_ext h] at h2
  have h3 := rpoly_dvd h1 (dvd_of_mk _ h2)
  refine ⟨fun _ => h3, ?_⟩
  rw [hr]
  exact finish _ h2 (rpoly_ext h3) (rpoly_degree _ _)

/-- Not reflected; the register is shifted by `k`. -/
theorem rem_plain {p : Params} (hr : p.refIn = false) {k : Nat}
    {f : Nat → UInt8 → Nat}
    (hf : ∀ r b,
      mk (X ^ k * gen p.width p.poly) (poly (p.width + k) (f r b)) =
        mk (X ^ k * gen p.width p.poly) (X ^ 8 * poly (p.width + k) r +
          X ^ (p.width + k) * bitsOf false 8 b.toNat)) {bits : Nat} (hb : p.width + k ≤ bits) :
    Rem p (fun l r => trunc bits (l.foldl f (trunc bits (r <<< k)) >>> k)) := by
  intro l r _
  refine ⟨fun h => by simp [hr] at h, ?_⟩
  obtain ⟨-, h2⟩ := fold_mk (φ := poly (p.width + k)) (refl := false) (inv := fun _ => True)
    (fun r b _ => ⟨trivial, hf r b⟩) l (trunc bits (r <<< k)) trivial
  rw [poly_trunc hb, poly_shl] at h2
  rw [hr]
  have := finish _ h2 (poly_shr (dvd_of_mk _ h2)) (poly_degree _ _)
  simp only [bitsOf, Bool.false_eq_true, if_false]
  rw [poly_trunc (by omega)]
  exact this

theorem rem_congr {p : Params} {f g : List UInt8 → Nat → Nat} (hf : Rem p f)
    (h : ∀ l r, f l r = g l r) : Rem p g := by
  have : f = g := by funext l r; exact h l r
  rwa [← this]

theorem byte_lt (b : UInt8) : b.toNat < 2 ^ 8 := b.toNat_lt

/-- Bit by bit. -/
theorem remainder_rem {p : Params} (h : Fits p) : Rem p (remainder p) := by
  have hw := h.one
  have hle := h.le
  have h8 := h.eight
  by_cases hr : p.refIn = true
  · have hq := reflect_lt p.bits p.poly p.width
    obtain ⟨k, hk8, hkb, hk⟩ : ∃ k, 8 ≤ p.width + k ∧ p.width + k ≤ p.bits ∧ True :=
      ⟨8 - p.width, by omega, by omega, trivial⟩
    have hq' : mirror p.bits p.poly p.width < 2 ^ (p.width + k) :=
      lt_of_lt_of_le hq (Nat.pow_le_pow_right (by omega) (by omega))
    have hg : (X : (ZMod 2)[X]) ^ (p.width + k) +
        rpoly (p.width + k) (mirror p.bits p.poly p.width) = X ^ k * gen p.width p.poly := by
      rw [rpoly_ext hq, rpoly_reflect hle, gen, pow_add]; ring
    refine rem_congr (rem_refl hr (k := k)
      (f := byteR p.bits (mirror p.bits p.poly p.width)) ?_) ?_
    · intro r b hlt
      unfold byteR
      have hb : b.toNat < 2 ^ (p.width + k) :=
        lt_of_lt_of_le (byte_lt b) (Nat.pow_le_pow_right (by omega) (by omega))
      have hx : r ^^^ b.toNat < 2 ^ (p.width + k) := Nat.xor_lt_two_pow hlt hb
      rw [trunc_eq (lt_of_lt_of_le hx (Nat.pow_le_pow_right (by omega) hkb))]
      obtain ⟨h1, h2⟩ := iterR (bits := p.bits) (by omega) hkb _ _ 8 hq' hx
      refine ⟨h1, ?_⟩
      rw [hg] at h2
      rw [h2, rpoly_xor]
      have : rpoly (p.width + k) b.toNat = X ^ (p.width + k - 8) * rpoly 8 b.toNat := by
        have := rpoly_ext (k := p.width + k - 8) (byte_lt b)
        rwa [show 8 + (p.width + k - 8) = p.width + k by omega] at this
      rw [this, mul_add, ← mul_assoc, ← pow_add, show 8 + (p.width + k - 8) = p.width + k by omega]
      rfl
    · intro l r
      unfold remainder
      rw [if_pos hr]
  · have hr : p.refIn = false := by simpa using hr
    by_cases hw8 : 8 ≤ p.width
    · have key : ∀ r b, mk (X ^ 0 * gen p.width p.poly) (poly (p.width + 0) (byteL p r b)) =
          mk (X ^ 0 * gen p.width p.poly) (X ^ 8 * poly (p.width + 0) r +
            X ^ (p.width + 0) * bitsOf false 8 b.toNat) := by
        intro r b
        unfold byteL
        rw [show (X : (ZMod 2)[X]) ^ 0 * gen p.width p.poly = gen p.width p.poly by simp]
        simp only [Nat.add_zero]
        have := iterL (bits := p.bits) (by omega) hle p.poly
          (trunc p.bits (r ^^^ (trunc p.bits b.toNat <<< (p.width - 8)))) 8
        rw [show (X : (ZMod 2)[X]) ^ p.width + poly p.width p.poly = gen p.width p.poly from rfl]
          at this
        rw [this, poly_trunc hle, poly_xor,
          trunc_eq (lt_of_lt_of_le (byte_lt b) (Nat.pow_le_pow_right (by omega) h8))]
        have e := poly_shl 8 (p.width - 8) b.toNat
        rw [show 8 + (p.width - 8) = p.width by omega] at e
        rw [e, mul_add, ← mul_assoc, ← pow_add, show 8 + (p.width - 8) = p.width by omega]
        rfl
      intro l r _
      refine ⟨fun h => by simp [hr] at h, ?_⟩
      obtain ⟨-, h2⟩ := fold_mk (φ := poly (p.width + 0)) (refl := false) (inv := fun _ => True)
        (fun r b _ => ⟨trivial, key r b⟩) l r trivial
      have e : remainder p l r = l.foldl (byteL p) r := by
        unfold remainder
        rw [hr, if_neg (by simp), if_pos hw8]
      rw [hr, e]
      refine finish (k := 0) (φ := poly (p.width + 0) (l.foldl (byteL p) r)) _ ?_ (by simp [bitsOf])
        (poly_degree _ _)
      rw [h2]
      simp [bitsOf]
    · obtain ⟨k, hk⟩ : ∃ k, p.width + k = 8 := ⟨8 - p.width, by omega⟩
      refine rem_congr (rem_plain hr (k := k)
        (f := byteS p.bits (trunc p.bits (p.poly <<< k))) ?_ (bits := p.bits) (by omega)) ?_
      · intro r b
        have hg : (X : (ZMod 2)[X]) ^ 8 + poly 8 (trunc p.bits (p.poly <<< k)) =
            X ^ k * gen p.width p.poly := by
          rw [poly_trunc h8, ← gen_shl, hk]
        unfold byteS
        have := iterL (bits := p.bits) (n := 8) (by omega) h8 (trunc p.bits (p.poly <<< k))
          (trunc p.bits (r ^^^ b.toNat)) 8
        rw [hg] at this
        rw [hk]
        refine this.trans ?_
        rw [poly_trunc h8, poly_xor, mul_add]
        rfl
      · intro l r
        unfold remainder
        rw [hr, if_neg (by simp), if_neg hw8, show 8 - p.width = k by omega]

/-! ## With a table -/

theorem mk_of_mod {w k p : Nat} {ψ m : (ZMod 2)[X]} (h : ψ = (m * X ^ w) %ₘ gen w p) :
    mk (X ^ k * gen w p) (X ^ k * ψ) = mk (X ^ k * gen w p) (X ^ (w + k) * m) := by
  rw [mk_eq]
  have e := modByMonic_add_div (m * X ^ w) (gen w p)
  refine ⟨-(m * X ^ w /ₘ gen w p), ?_⟩
  rw [h, pow_add]
  linear_combination X ^ k * e

theorem message_one (refl : Bool) (b : UInt8) : message refl [b] = bitsOf refl 8 b.toNat := by
  simp [message]

theorem entry_refl {p : Params} (h : Fits p) (hr : p.refIn = true) (b : UInt8) (k : Nat) :
    entry p b < 2 ^ p.width ∧
    mk (X ^ k * gen p.width p.poly) (rpoly (p.width + k) (entry p b)) =
      mk (X ^ k * gen p.width p.poly) (X ^ (p.width + k) * rpoly 8 b.toNat) := by
  obtain ⟨h1, h2⟩ := remainder_rem h [b] 0 (fun _ => by positivity)
  have e : entry p b = remainder p [b] 0 := by
    unfold entry
    simp only [hr, Bool.not_true, Bool.false_eq_true, false_and, if_false]
    rw [and_bitMask h.one, Nat.mod_eq_of_lt (h1 hr)]
  rw [e]
  refine ⟨h1 hr, ?_⟩
  rw [rpoly_ext (h1 hr)]
  refine mk_of_mod ?_
  rw [hr, message_one] at h2
  have hz : bitsOf true p.width 0 = 0 := by
    ext i; simp [bitsOf, rpoly_coeff, b2_false]
  rw [hz, zero_mul, zero_add] at h2
  exact h2

theorem entry_plain {p : Params} (h : Fits p) (hr : p.refIn = false) (b : UInt8) (k : Nat)
    (hk : p.width + k = 8 ∧ p.width < 8 ∨ k = 0 ∧ 8 ≤ p.width) :
    mk (X ^ k * gen p.width p.poly) (poly (p.width + k) (entry p b)) =
      mk (X ^ k * gen p.width p.poly) (X ^ (p.width + k) * poly 8 b.toNat) := by
  obtain ⟨-, h2⟩ := remainder_rem h [b] 0 (fun _ => by positivity)
  rw [hr, message_one] at h2
  have hz : bitsOf false p.width 0 = 0 := by
    ext i; simp [bitsOf, poly_coeff, b2_false]
  rw [hz, zero_mul, zero_add] at h2
  have hm : poly p.width (remainder p [b] 0 &&& bitMask p.width) =
      poly p.width (remainder p [b] 0) := by
    rw [and_bitMask h.one]
    exact poly_trunc le_rfl _
  have e : poly (p.width + k) (entry p b) = X ^ k * poly p.width (remainder p [b] 0) := by
    unfold entry
    rcases hk with ⟨h1, h3⟩ | ⟨rfl, h3⟩
    · simp only [hr, Bool.not_false, true_and, h3, if_true]
      rw [poly_trunc (by have := h.eight; omega), show 8 - p.width = k by omega, poly_shl, hm]
    · simp only [show ¬ p.width < 8 by omega, and_false, if_false]
      rw [Nat.add_zero, hm, pow_zero, one_mul]
  rw [e]
  exact mk_of_mod h2

theorem uchar_toNat (x : Nat) : (uchar x).toNat = x % 2 ^ 8 := by
  unfold uchar
  exact UInt8.toNat_ofNat'

theorem rpoly_uchar (x : Nat) : rpoly 8 (uchar x).toNat = rpoly 8 x := by
  rw [uchar_toNat]; exact rpoly_trunc le_rfl x

theorem poly_uchar (x : Nat) : poly 8 (uchar x).toNat = poly 8 x := by
  rw [uchar_toNat]; exact poly_trunc le_rfl x

theorem rpoly_shr8 {n r : Nat} (hn : 8 ≤ n) (hr : r < 2 ^ n) :
    rpoly n (r >>> 8) = X ^ 8 * rpoly n r + X ^ n * rpoly 8 r := by
  ext i
  rw [coeff_add, coeff_X_pow_mul', coeff_X_pow_mul', rpoly_coeff, rpoly_coeff, rpoly_coeff,
    Nat.testBit_shiftRight]
  by_cases h1 : i < n
  · rw [if_pos h1, if_neg (show ¬ n ≤ i by omega), add_zero]
    by_cases h2 : 8 ≤ i
    · rw [if_pos h2, if_pos (by omega)]
      congr 2
      omega
    · rw [if_neg h2,
        Nat.testBit_lt_two_pow (lt_of_lt_of_le hr (Nat.pow_le_pow_right (by omega) (by omega)))]
      rfl
  · rw [if_neg h1, if_pos (show 8 ≤ i by omega), if_pos (show n ≤ i by omega)]
    by_cases h3 : i - n < 8
    · rw [if_pos (by omega), if_pos h3, show n - 1 - (i - 8) = 8 - 1 - (i - n) by omega, double]
    · rw [if_neg (by omega), if_neg h3, add_zero]

theorem poly_shl8 {n r : Nat} (hn : 8 ≤ n) :
    poly n (r <<< 8) = X ^ 8 * poly n r + X ^ n * poly 8 (r >>> (n - 8)) := by
  ext i
  rw [coeff_add, coeff_X_pow_mul', coeff_X_pow_mul', poly_coeff, poly_coeff, poly_coeff,
    Nat.testBit_shiftRight, Nat.testBit_shiftLeft]
  by_cases h1 : i < n
  · rw [if_pos h1, if_neg (show ¬ n ≤ i by omega), add_zero]
    by_cases h2 : 8 ≤ i
    · rw [if_pos h2, if_pos (by omega)]
      simp [h2]
    · rw [if_neg h2]
      have : decide (i ≥ 8) = false := by simpa using h2
      rw [this]
      simp [b2_false]
  · rw [if_neg h1, if_pos (show 8 ≤ i by omega), if_pos (show n ≤ i by omega)]
    by_cases h3 : i - n < 8
    · rw [if_pos (by omega), if_pos h3, show n - 8 + (i - n) = i - 8 by omega, double]
    · rw [if_neg (by omega), if_neg h3, add_zero]

theorem remainderT_rem {p : Params} (h : Fits p) : Rem p (remainderT p) := by
  have hw := h.one
  have hle := h.le
  have h8 := h.eight
  by_cases hr : p.refIn = true
  · obtain ⟨k, hk8, hkb⟩ : ∃ k, 8 ≤ p.width + k ∧ p.width + k ≤ p.bits :=
      ⟨8 - p.width, by omega, by omega⟩
    refine rem_congr (rem_refl hr (k := k) (f := tableR p) ?_) ?_
    · intro r b hlt
      unfold tableR
      obtain ⟨h1, h2⟩ := entry_refl h hr (uchar (r ^^^ b.toNat)) k
      have h3 : r >>> 8 < 2 ^ (p.width + k) := lt_of_le_of_lt (Nat.shiftRight_le r 8) hlt
      have h4 : (r >>> 8) ^^^ entry p (uchar (r ^^^ b.toNat)) < 2 ^ (p.width + k) :=
        Nat.xor_lt_two_pow h3 (lt_of_lt_of_le h1 (Nat.pow_le_pow_right (by omega) (by omega)))
      rw [trunc_eq (lt_of_lt_of_le h4 (Nat.pow_le_pow_right (by omega) hkb))]
      refine ⟨h4, ?_⟩
      rw [rpoly_xor, map_add, h2, rpoly_shr8 hk8 hlt, rpoly_uchar, rpoly_xor]
      rw [← map_add]
      refine congrArg (mk _) ?_
      have hd : rpoly 8 r + rpoly 8 r = 0 := by ext i; rw [coeff_add, double, coeff_zero]
      simp only [bitsOf, if_true]
      linear_combination X ^ (p.width + k) * hd
    · intro l r
      unfold remainderT
      rw [if_pos hr]
  · have hr : p.refIn = false := by simpa using hr
    by_cases hw8 : 8 ≤ p.width
    · have key : ∀ r b, mk (X ^ 0 * gen p.width p.poly) (poly (p.width + 0) (tableL p r b)) =
          mk (X ^ 0 * gen p.width p.poly) (X ^ 8 * poly (p.width + 0) r +
            X ^ (p.width + 0) * bitsOf false 8 b.toNat) := by
        intro r b
        unfold tableL
        rw [poly_trunc (by omega), poly_xor, map_add,
          entry_plain h hr _ 0 (.inr ⟨rfl, hw8⟩), poly_shl8 (by omega), poly_uchar, poly_xor,
          ← map_add]
        refine congrArg (mk _) ?_
        have hd : poly 8 (r >>> (p.width - 8)) + poly 8 (r >>> (p.width - 8)) = 0 := by
          ext i; rw [coeff_add, double, coeff_zero]
        simp only [bitsOf, Bool.false_eq_true, if_false, Nat.add_zero]
        linear_combination X ^ p.width * hd
      intro l r _
      refine ⟨fun h => by simp [hr] at h, ?_⟩
      obtain ⟨-, h2⟩ := fold_mk (φ := poly (p.width + 0)) (refl := false) (inv := fun _ => True)
        (fun r b _ => ⟨trivial, key r b⟩) l r trivial
      have e : remainderT p l r = l.foldl (tableL p) r := by
        unfold remainderT
        rw [hr, if_neg (by simp), if_pos hw8]
      rw [hr, e]
      refine finish (k := 0) (φ := poly (p.width + 0) (l.foldl (tableL p) r)) _ ?_
        (by simp [bitsOf]) (poly_degree _ _)
      rw [h2]
      simp [bitsOf]
    · obtain ⟨k, hk⟩ : ∃ k, p.width + k = 8 := ⟨8 - p.width, by omega⟩
      refine rem_congr (rem_plain hr (k := k) (f := tableS p) ?_ (bits := p.bits) (by omega)) ?_
      · intro r b
        unfold tableS
        rw [entry_plain h hr _ k (.inl ⟨hk, by omega⟩), poly_uchar, poly_xor]
        refine congrArg (mk _) ?_
        rw [hk, mul_add]
        rfl
      · intro l r
        unfold remainderT
        rw [hr, if_neg (by simp), if_neg hw8, show 8 - p.width = k by omega]

end Verif.Lemmas.CrcLib
