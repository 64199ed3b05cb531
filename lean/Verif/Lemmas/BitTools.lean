import Verif.Model.BitTools
import Verif.Spec.Bits
import Mathlib.Data.Nat.Bitwise
import Mathlib.Tactic.Ring
import Mathlib.Tactic.NormNum
import Mathlib.Tactic.IntervalCases
/-! Lemmas for bit_tools.h -/
namespace Verif.Bits
open Verif.BitSpec

theorem bit_lt (b : Nat → UInt8) (i : Nat) : bit b i < 2 := Nat.mod_lt _ (by omega)

theorem field_lt (b : Nat → UInt8) (pos len : Nat) : field b pos len < 2 ^ len := by
  induction len with
  | zero => simp [field]
  | succ n ih =>
    have := bit_lt b (pos + n)
    simp only [field, Nat.pow_succ]; omega

theorem field_add (b : Nat → UInt8) (pos n m : Nat) :
    field b pos (n + m) = field b pos n * 2 ^ m + field b (pos + n) m := by
  induction m with
  | zero => simp [field]
  | succ m ih =>
    rw [← Nat.add_assoc]
    simp only [field, ih, Nat.pow_succ, Nat.add_assoc]
    ring_nf

theorem field_one (b : Nat → UInt8) (pos : Nat) : field b pos 1 = bit b pos := by simp [field]

theorem number_append (l : List Nat) (x : Nat) : number (l ++ [x]) = 2 * number l + x := by
  simp [number]

theorem field_eq_number (b : Nat → UInt8) (pos len : Nat) :
    field b pos len = number ((List.range len).map fun i => bit b (pos + i)) := by
  induction len with
  | zero => rfl
  | succ n ih => rw [List.range_succ, List.map_append, List.map_singleton, number_append, ← ih]; rfl

theorem field_byte (b : Nat → UInt8) (p : Nat) : field b (8 * p) 8 = (b p).toNat := by
  have h : (b p).toNat < 256 := (b p).toNat_lt
  have e : ∀ k, k < 8 → bit b (8 * p + k) = (b p).toNat / 2 ^ (7 - k) % 2 := by
    intro k hk
    unfold bit
    rw [show (8 * p + k) / 8 = p by omega, show (8 * p + k) % 8 = k by omega]
  have e0 := e 0 (by omega)
  simp only [Nat.add_zero] at e0
  simp only [field, Nat.add_zero, e0, e 1 (by omega), e 2 (by omega), e 3 (by omega),
    e 4 (by omega), e 5 (by omega), e 6 (by omega), e 7 (by omega)]
  simp
  omega

/-- The read loop accumulates bytes big-endian. -/
theorem getLoop_spec (W : Nat) (hW : 8 ≤ W) (mem : Mem) (b : Nat → UInt8) (len : Nat)
    (i p n tmp : Nat) (q : Nat)
    (hm : ∀ r, p < r → r ≤ q → mem r = some (b r))
    (hq : len ≤ i + 8 * (q - p)) (hpq : p ≤ q) (hq' : i + 8 * (q - p) < len + 8)
    (ht : tmp = field b (8 * (p + 1 - n)) (8 * n) % 2 ^ W) (hn : n ≤ p + 1) :
    getLoop W mem len i tmp p =
      some (field b (8 * (p + 1 - n)) (8 * (n + (q - p))) % 2 ^ W) := by
  generalize hd : q - p = d at *
  induction d generalizing i p n tmp with
  | zero =>
    unfold getLoop
    rw [if_neg (by omega), ht]; simp
  | succ d ih =>
    unfold getLoop
    rw [if_pos (by omega), hm (p + 1) (by omega) (by omega)]
    simp only
    rw [ih (i := i + 8) (p := p + 1) (n := n + 1)
      (tmp := (tmp * 2 ^ 8) % 2 ^ W ||| (b (p + 1)).toNat)]
    · rw [show p + 1 + 1 - (n + 1) = p + 1 - n by omega,
        show n + 1 + d = n + (d + 1) by omega]
    · intro r h1 h2; exact hm r (by omega) h2
    · omega
    · have hb : (b (p + 1)).toNat < 2 ^ 8 := (b (p + 1)).toNat_lt
      rw [show p + 1 + 1 - (n + 1) = p + 1 - n by omega, show 8 * (n + 1) = 8 * n + 8 by omega,
        field_add, show 8 * (p + 1 - n) + 8 * n = 8 * (p + 1) by omega, field_byte, ht]
      obtain ⟨w, rfl⟩ : ∃ w, W = w + 8 := ⟨W - 8, by omega⟩
      generalize field b (8 * (p + 1 - n)) (8 * n) = F
      have e1 : F % 2 ^ (w + 8) * 2 ^ 8 % 2 ^ (w + 8) = 2 ^ 8 * (F % 2 ^ w) := by
        rw [Nat.mod_mul_mod, Nat.pow_add, Nat.mul_mod_mul_right, Nat.mul_comm]
      rw [e1, ← Nat.two_pow_add_eq_or_of_lt hb]
      rw [Nat.mul_comm F, Nat.pow_add, Nat.mul_comm (2 ^ w)]
      rw [Nat.mod_mul, Nat.mul_add_mod, Nat.mod_eq_of_lt hb, Nat.mul_add_div (by norm_num),
        Nat.div_eq_of_lt hb]
      simp only [Nat.add_zero]; omega
    · omega
    · omega
    · omega
    · omega
where
  _root_.Nat.mod_mul_mod (a k m : Nat) : a % m * k % m = a * k % m := by
    rw [Nat.mul_mod, Nat.mod_mod, ← Nat.mul_mod]

theorem maskOf_eq {W len : Nat} (h : len < W) (hl : len ≠ 64) : maskOf W len = 2 ^ len - 1 := by
  unfold maskOf
  rw [if_neg hl, Nat.mod_eq_of_lt]
  have := Nat.pow_lt_pow_right (a := 2) (by omega) h
  have := Nat.two_pow_pos len
  omega

theorem mod_shift_mod (x W s len : Nat) (h : s + len ≤ W) :
    (x % 2 ^ W) / 2 ^ s % 2 ^ len = x / 2 ^ s % 2 ^ len := by
  obtain ⟨k, rfl⟩ : ∃ k, W = s + len + k := ⟨W - (s + len), by omega⟩
  rw [Nat.pow_add, Nat.pow_add, Nat.mul_assoc, Nat.mod_mul_right_div_self, Nat.mod_mul_right_mod]

theorem getRaw_spec (W R : Nat) (mem : Mem) (b : Nat → UInt8) (pos len : Nat)
    (hlen : 0 < len) (hW : len + 8 ≤ W) (hR : len ≤ R) (h64 : len ≠ 64)
    (hm : ∀ r, pos / 8 ≤ r → r ≤ (pos + len - 1) / 8 → mem r = some (b r)) :
    getRaw W R mem pos len = some (field b pos len) := by
  unfold getRaw
  simp only
  rw [hm (pos / 8) (by omega) (by omega)]
  simp only
  rw [getLoop_spec W (by omega) mem b len (8 - pos % 8) (pos / 8) 1 (b (pos / 8)).toNat
    ((pos + len - 1) / 8) (fun r h1 h2 => hm r (by omega) h2) (by omega) (by omega) (by omega)
    (by
      rw [show 8 * (pos / 8 + 1 - 1) = 8 * (pos / 8) by omega, show 8 * 1 = 8 by omega, field_byte]
      rw [Nat.mod_eq_of_lt]
      have h1 : (b (pos / 8)).toNat < 2 ^ 8 := (b (pos / 8)).toNat_lt
      have h2 := Nat.pow_le_pow_right (n := 2) (by omega) (show 8 ≤ W by omega)
      omega) (by omega)]
  simp only [Option.map_some, Option.some.injEq]
  rw [maskOf_eq (by omega) h64, Nat.and_two_pow_sub_one_eq_mod, Nat.shiftRight_eq_div_pow,
    mod_shift_mod _ _ _ _ (by omega)]
  generalize hs : 7 - (pos + len - 1) % 8 = s
  have hL : 8 * (1 + ((pos + len - 1) / 8 - pos / 8)) = (pos % 8 + len) + s := by omega
  rw [hL, field_add, Nat.add_comm (pos % 8) len, Nat.add_comm len, field_add]
  rw [show 8 * (pos / 8 + 1 - 1) + pos % 8 = pos by omega]
  have h1 := field_lt b (8 * (pos / 8 + 1 - 1) + (pos % 8 + len)) s
  have h2 := field_lt b pos len
  rw [Nat.mul_comm _ (2 ^ s), Nat.mul_add_div (Nat.two_pow_pos s), Nat.div_eq_of_lt h1,
    Nat.add_zero, Nat.mul_comm, Nat.mul_add_mod, Nat.mod_eq_of_lt h2]
  exact Nat.mod_eq_of_lt (lt_of_lt_of_le h2 (Nat.pow_le_pow_right (by omega) hR))

theorem width_ge (n : Nat) (h : n ≤ 64) : n ≤ width n := by
  unfold width; split <;> [omega; split <;> [omega; split <;> omega]]

theorem signExtend_spec (W R len v : Nat) (hlen : 0 < len) (hW : len + 8 ≤ W) (hR : len ≤ R)
    (hRW : R ≤ max W 32) (hRl : R ≤ len + W) (hv : v < 2 ^ len) : signExtend W R len v = twos len v := by
  have hp : 2 ^ len = 2 * 2 ^ (len - 1) := by
    obtain ⟨k, rfl⟩ : ∃ k, len = k + 1 := ⟨len - 1, by omega⟩
    simp [Nat.pow_succ, Nat.mul_comm]
  have h1 : (1 <<< (len - 1)) % 2 ^ W = 2 ^ (len - 1) := by
    rw [Nat.one_shiftLeft, Nat.mod_eq_of_lt]
    exact Nat.pow_lt_pow_right (by omega) (by omega)
  have hb : (v &&& 2 ^ (len - 1) ≠ 0) ↔ 2 ^ (len - 1) ≤ v := by
    rw [Nat.and_two_pow]
    have hpos := Nat.two_pow_pos (len - 1)
    rw [Nat.testBit_eq_decide_div_mod_eq]
    have hd : v / 2 ^ (len - 1) < 2 := by rw [Nat.div_lt_iff_lt_mul hpos]; omega
    rw [Nat.mod_eq_of_lt hd]
    constructor
    · intro h
      by_contra hlt
      rw [Nat.div_eq_of_lt (by omega)] at h
      simp at h
    · intro h
      have : v / 2 ^ (len - 1) = 1 := by
        have := Nat.div_pos h hpos
        omega
      rw [this]; simp
  unfold signExtend twos
  rw [h1]
  by_cases hs : 2 ^ (len - 1) ≤ v
  · rw [if_pos (hb.2 hs), if_neg (by omega)]
    -- the upper bits are all set
    have hx : (v ||| (((2 ^ W - 1) <<< len) % 2 ^ (max W 32))) % 2 ^ R = 2 ^ R - 2 ^ len + v := by
      apply Nat.eq_of_testBit_eq
      intro i
      have hRl2 : 2 ^ len ≤ 2 ^ R := Nat.pow_le_pow_right (by omega) hR
      have e : 2 ^ R - 2 ^ len + v = 2 ^ len * (2 ^ (R - len) - 1) + v := by
        rw [Nat.mul_sub, ← Nat.pow_add, Nat.mul_one]
        congr 3; omega
      rw [e, Nat.testBit_two_pow_mul_add _ hv, Nat.testBit_mod_two_pow, Nat.testBit_or,
        Nat.testBit_mod_two_pow, Nat.testBit_shiftLeft, Nat.testBit_two_pow_sub_one,
        Nat.testBit_two_pow_sub_one]
      by_cases hi : i < len
      · have : i < R := by omega
        simp [hi, this, show ¬ len ≤ i by omega]
      · have hvi : v.testBit i = false :=
          Nat.testBit_lt_two_pow (lt_of_lt_of_le hv (Nat.pow_le_pow_right (by omega) (by omega)))
        rw [hvi]
        by_cases hiR : i < R
        · simp [hi, hiR, show len ≤ i by omega, show i < max W 32 by omega, show i - len < W by omega,
            show i - len < R - len by omega]
        · simp [hi, hiR, show ¬ (i - len < R - len) by omega]
    rw [hx]
    unfold asSigned
    have hRp : 2 ^ R = 2 * 2 ^ (R - 1) := by
      obtain ⟨k, rfl⟩ : ∃ k, R = k + 1 := ⟨R - 1, by omega⟩
      simp [Nat.pow_succ, Nat.mul_comm]
    have hle : 2 ^ len ≤ 2 ^ R := Nat.pow_le_pow_right (by omega) hR
    have hle' : 2 ^ (len - 1) ≤ 2 ^ (R - 1) := Nat.pow_le_pow_right (by omega) (by omega)
    rw [if_neg (by omega)]
    have h2 : ((2 ^ R - 2 ^ len + v : Nat) : Int) = (2 ^ R : Int) - 2 ^ len + v := by
      push_cast [Nat.cast_sub hle]; rfl
    rw [h2]; omega
  · rw [if_neg (fun h => hs (hb.1 h)), if_pos (by omega)]

theorem blend_testBit (wm m t : Nat) (b : UInt8) (ht : t < 8) :
    (blend wm m b).toNat.testBit t = ((b.toNat.testBit t && wm.testBit t) || m.testBit t) := by
  unfold blend
  rw [UInt8.toNat_ofNat', Nat.testBit_mod_two_pow, Nat.testBit_or, show 256 = 2 ^ 8 by rfl,
    Nat.testBit_mod_two_pow, Nat.testBit_and]
  simp [ht]

theorem modify_eq {mem : Mem} {p : Nat} {x : UInt8} (h : mem p = some x) (f : UInt8 → UInt8) :
    modify mem p f = some fun q => if q = p then some (f x) else mem q := by
  unfold modify; rw [h]

theorem setLoop_spec (len d : Nat) (b : Nat → UInt8) :
    ∀ (mem : Mem) (i m wm p : Nat), len ≤ i + 8 * d → (d ≠ 0 → i + 8 * d < len + 8) → d ≤ p →
    (∀ r, p - d ≤ r → r < p → mem r = some (b r)) →
    ∃ mem', setLoop mem len i m wm p = some mem' ∧
      ∀ r, mem' r = if p - d ≤ r ∧ r < p then
        some (blend (wm / 2 ^ (8 * (p - r))) (m / 2 ^ (8 * (p - r))) (b r)) else mem r := by
  induction d with
  | zero =>
    intro mem i m wm p h1 _ _ _
    refine ⟨mem, ?_, ?_⟩
    · unfold setLoop; rw [if_neg (by omega)]
    · intro r; rw [if_neg (by omega)]
  | succ d ih =>
    intro mem i m wm p h1 h2 h3 hm
    have h2 := h2 (by omega)
    obtain ⟨p, rfl⟩ : ∃ q, p = q + 1 := ⟨p - 1, by omega⟩
    unfold setLoop
    rw [if_pos (by omega)]
    simp only
    rw [modify_eq (hm p (by omega) (by omega))]
    simp only
    obtain ⟨mem', e, hr⟩ := ih (fun q => if q = p then
        some (blend (wm / 2 ^ 8) (m / 2 ^ 8) (b p)) else mem q) (i + 8) (m / 2 ^ 8) (wm / 2 ^ 8) p
      (by omega) (by omega) (by omega)
      (by
        intro r h4 h5
        rw [if_neg (by omega)]; exact hm r (by omega) (by omega))
    refine ⟨mem', e, ?_⟩
    intro r
    rw [hr r]
    by_cases c1 : p - d ≤ r ∧ r < p
    · rw [if_pos c1, if_pos (by omega)]
      rw [Nat.div_div_eq_div_mul, Nat.div_div_eq_div_mul, ← Nat.pow_add,
        show 8 + 8 * (p - r) = 8 * (p + 1 - r) by omega]
    · rw [if_neg c1]
      by_cases c2 : r = p
      · subst c2
        simp only [if_true]
        rw [if_pos (by omega), show 8 * (r + 1 - r) = 8 by omega]
      · rw [if_neg c2, if_neg (by omega)]

theorem bit_eq_testBit (b : Nat → UInt8) (i : Nat) :
    bit b i = ((b (i / 8)).toNat.testBit (7 - i % 8)).toNat := by
  unfold bit
  rw [Nat.testBit_eq_decide_div_mod_eq]
  have := Nat.mod_lt ((b (i / 8)).toNat / 2 ^ (7 - i % 8)) (show 2 > 0 by omega)
  by_cases h : (b (i / 8)).toNat / 2 ^ (7 - i % 8) % 2 = 1
  · simp [h]
  · simp [h]; omega

theorem setRaw_spec (W : Nat) (mem : Mem) (b : Nat → UInt8) (pos len v : Nat)
    (hlen : 0 < len) (hW : len + 8 ≤ W) (hW8 : W % 8 = 0) (h64 : len ≠ 64) (hv : v < 2 ^ 32)
    (hb : ∀ r x, mem r = some x → b r = x)
    (hm : ∀ r, pos / 8 ≤ r → r ≤ (pos + len - 1) / 8 → (mem r).isSome) :
    ∃ mem' b', setRaw W mem pos len v = some mem' ∧
      (∀ r, mem' r = (mem r).map fun _ => b' r) ∧
      ∀ i, bit b' i = if pos ≤ i ∧ i < pos + len then v / 2 ^ (pos + len - 1 - i) % 2
        else bit b i := by
  have hm' : ∀ r, pos / 8 ≤ r → r ≤ (pos + len - 1) / 8 → mem r = some (b r) := by
    intro r h1 h2
    have := hm r h1 h2
    obtain ⟨x, hx⟩ := Option.isSome_iff_exists.1 this
    rw [hx, hb r x hx]
  unfold setRaw
  simp only
  rw [maskOf_eq (by omega) h64, Nat.mod_eq_of_lt hv, Nat.and_two_pow_sub_one_eq_mod]
  generalize hs : 7 - (pos + len - 1) % 8 = s
  have hls : (2 ^ len - 1) <<< s < 2 ^ W := by
    rw [Nat.shiftLeft_eq]
    calc (2 ^ len - 1) * 2 ^ s < 2 ^ len * 2 ^ s := by
          apply Nat.mul_lt_mul_of_pos_right _ (Nat.two_pow_pos s)
          have := Nat.two_pow_pos len; omega
      _ = 2 ^ (len + s) := (Nat.pow_add ..).symm
      _ ≤ 2 ^ W := Nat.pow_le_pow_right (by omega) (by omega)
  rw [Nat.mod_eq_of_lt hls]
  generalize hwm : 2 ^ W - 1 - (2 ^ len - 1) <<< s = wm
  generalize hmm : ((v % 2 ^ len) <<< s) % 2 ^ W = m
  have twm : ∀ x, x < W → wm.testBit x = !(decide (s ≤ x) && decide (x < s + len)) := by
    intro x hx
    rw [← hwm, show 2 ^ W - 1 - (2 ^ len - 1) <<< s = 2 ^ W - ((2 ^ len - 1) <<< s + 1) by omega,
      Nat.testBit_two_pow_sub_succ hls, Nat.testBit_shiftLeft, Nat.testBit_two_pow_sub_one]
    simp only [hx, decide_true, Bool.true_and]
    congr 1
    by_cases h : s ≤ x
    · simp [h]; omega
    · simp [h]
  have tm : ∀ x, x < W → m.testBit x = (decide (s ≤ x) && (decide (x < s + len) && v.testBit (x - s))) := by
    intro x hx
    rw [← hmm, Nat.testBit_mod_two_pow, Nat.testBit_shiftLeft, Nat.testBit_mod_two_pow]
    simp only [hx, decide_true, Bool.true_and]
    by_cases h : s ≤ x
    · simp only [h, decide_true, Bool.true_and]
      congr 1
      exact decide_eq_decide.2 (by omega)
    · simp [h]
  rw [modify_eq (hm' _ (by omega) (by omega))]
  simp only
  generalize hP : (pos + len - 1) / 8 = P at *
  obtain ⟨mem', e, hr⟩ := setLoop_spec len (P - pos / 8) b
    (fun q => if q = P then some (blend wm m (b P)) else mem q) ((pos + len - 1) % 8 + 1) m wm P
    (by omega) (by omega) (by omega)
    (by intro r h1 h2; rw [if_neg (by omega)]; exact hm' r (by omega) (by omega))
  refine ⟨mem', fun r => if pos / 8 ≤ r ∧ r ≤ P then
    blend (wm / 2 ^ (8 * (P - r))) (m / 2 ^ (8 * (P - r))) (b r) else b r, e, ?_, ?_⟩
  · intro r
    rw [hr r]
    beta_reduce
    by_cases c1 : P - (P - pos / 8) ≤ r ∧ r < P
    · rw [if_pos c1, if_pos (by omega), hm' r (by omega) (by omega)]; rfl
    · rw [if_neg c1]
      by_cases c2 : r = P
      · subst c2
        rw [if_pos rfl, if_pos (by omega), hm' r (by omega) (by omega)]; simp
      · rw [if_neg c2, if_neg (by omega)]
        cases hx : mem r with
        | none => rfl
        | some x => simp [hb r x hx]
  · intro i
    rw [bit_eq_testBit]
    by_cases c : pos / 8 ≤ i / 8 ∧ i / 8 ≤ P
    · rw [if_pos c, blend_testBit _ _ _ _ (by omega), Nat.testBit_div_two_pow,
        Nat.testBit_div_two_pow, Nat.add_comm (7 - i % 8),
        twm _ (by omega), tm _ (by omega)]
      by_cases c3 : pos ≤ i ∧ i < pos + len
      · rw [if_pos c3]
        have x1 : s ≤ 8 * (P - i / 8) + (7 - i % 8) := by omega
        have x2 : 8 * (P - i / 8) + (7 - i % 8) < s + len := by omega
        simp only [x1, x2, decide_true, Bool.true_and, Bool.not_true, Bool.and_false,
          Bool.false_or]
        rw [show 8 * (P - i / 8) + (7 - i % 8) - s = pos + len - 1 - i by omega,
          Nat.testBit_eq_decide_div_mod_eq]
        have := Nat.mod_lt (v / 2 ^ (pos + len - 1 - i)) (show 2 > 0 by omega)
        by_cases h : v / 2 ^ (pos + len - 1 - i) % 2 = 1
        · simp [h]
        · simp [h]; omega
      · rw [if_neg c3, bit_eq_testBit]
        congr 1
        have : ¬ (s ≤ 8 * (P - i / 8) + (7 - i % 8) ∧
            8 * (P - i / 8) + (7 - i % 8) < s + len) := by omega
        by_cases x1 : s ≤ 8 * (P - i / 8) + (7 - i % 8)
        · have x2 : ¬ 8 * (P - i / 8) + (7 - i % 8) < s + len := fun h => this ⟨x1, h⟩
          simp [x1, x2]
        · simp [x1]
    · rw [if_neg c, if_neg (by omega), bit_eq_testBit]

theorem field_of_bits (b : Nat → UInt8) (pos len v : Nat)
    (h : ∀ k, k < len → bit b (pos + k) = v / 2 ^ (len - 1 - k) % 2) :
    field b pos len = v % 2 ^ len := by
  induction len generalizing v with
  | zero => simp [field, Nat.mod_one]
  | succ n ih =>
    rw [field, ih (v / 2), h n (by omega)]
    · simp only [Nat.add_sub_cancel, Nat.sub_self, Nat.pow_zero, Nat.div_one]
      rw [Nat.pow_succ, Nat.mul_comm (2 ^ n), Nat.mod_mul]; omega
    · intro k hk
      rw [h k (by omega), Nat.div_div_eq_div_mul, ← Nat.pow_succ', 
        show (n - 1 - k).succ = n + 1 - 1 - k by omega]

theorem width_mono8 (n : Nat) : width n ≤ width (n + 8) := by
  unfold width
  repeat' split
  all_goals omega

theorem width_mod (n : Nat) : width n % 8 = 0 := by
  unfold width; split <;> [omega; split <;> [omega; split <;> omega]]

/-! ### Messages of 32-bit words -/

theorem word_bit (a b c d q : Nat) (ha : a < 256) (hb : b < 256) (hc : c < 256) (hd : d < 256)
    (hq : q < 32) :
    (a + 2 ^ 8 * b + 2 ^ 16 * c + 2 ^ 24 * d) / 2 ^ (31 - q) % 2 =
      (if q < 8 then d else if q < 16 then c else if q < 24 then b else a) / 2 ^ (7 - q % 8) % 2 := by
  interval_cases q <;> simp <;> omega

theorem bit_msg (m : List UInt8) (p : Nat) : bit (byteAt m) p = msgBit m p := by
  unfold msgBit word
  rw [word_bit _ _ _ _ _ (UInt8.toNat_lt _) (UInt8.toNat_lt _) (UInt8.toNat_lt _)
    (UInt8.toNat_lt _) (by omega)]
  unfold bit byteAt
  have h8 : p % 8 = p % 32 % 8 := by omega
  rw [h8]
  congr 2
  have h4 : p / 8 / 4 = p / 32 := by omega
  rw [h4]
  split
  · rw [show p / 8 % 4 = 0 by omega]
  · split
    · rw [show p / 8 % 4 = 1 by omega]
    · split
      · rw [show p / 8 % 4 = 2 by omega]
      · rw [show p / 8 % 4 = 3 by omega]; rfl

end Verif.Bits
