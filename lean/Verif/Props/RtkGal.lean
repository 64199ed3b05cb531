import Mathlib.Analysis.Real.Pi.Bounds
import Verif.Model.RtkGal
import Verif.Model.Galileo
import Verif.Props.BitTools
import Verif.Props.Calendar
import Verif.Lemmas.Time
/-!
# C130: Galileo words and calendar dates as in the reference RTKLIB
-/
namespace Verif.Props.RtkGal

open Verif.Bits Verif.BitSpec Verif.RtkGal Verif.Galileo Verif.Calendar Verif.Props.Calendar Verif.Props.BitTools

/-! ### Bit fields -/

theorem loop_spec (mem : Mem) (b : Nat → UInt8) (pos : Nat) : ∀ n k, k + n ≤ 32 →
    (∀ i, pos + k ≤ i → i < pos + k + n → mem (i / 8) = some (b (i / 8))) →
    getbituLoop mem n (pos + k) (field b pos k) = some (field b pos (k + n)) := by
  intro n
  induction n with
  | zero => intro k _ _; rfl
  | succ n ih =>
    intro k hk hm
    have hlt : field b pos (k + 1) < 2 ^ 32 :=
      lt_of_lt_of_le (field_lt b pos (k + 1)) (Nat.pow_le_pow_right (by norm_num) (by omega))
    have hf : field b pos (k + 1) = 2 * field b pos k + bit b (pos + k) := rfl
    unfold getbituLoop
    rw [hm (pos + k) (by omega) (by omega)]
    simp only [Option.bind_eq_bind, Option.bind_some]
    have hb : (b ((pos + k) / 8)).toNat / 2 ^ (7 - (pos + k) % 8) % 2 = bit b (pos + k) := rfl
    rw [hb]
    have he : (field b pos k * 2 % 2 ^ 32 + bit b (pos + k)) % 2 ^ 32 = field b pos (k + 1) := by
      rw [Nat.mod_eq_of_lt (show field b pos k * 2 < 2 ^ 32 by omega), ← Nat.mod_eq_of_lt hlt, hf]
      congr 1
      ring
    rw [he]
    have := ih (k + 1) (by omega) (fun i h1 h2 => hm i (by omega) (by omega))
    rw [show k + 1 + n = k + (n + 1) by ring, ← add_assoc] at this
    exact this

theorem getbitu_eq (mem : Mem) (b : Nat → UInt8) (pos len : Nat) (h2 : len ≤ 32)
    (hm : Mapped mem b (pos / 8) ((pos + len - 1) / 8)) : getbitu mem pos len = some (field b pos len) := by
  have := loop_spec mem b pos len 0 (by omega) (fun i h1 h3 => hm _ (by omega) (by omega))
  simpa [getbitu, field] using this

theorem getbits_eq (mem : Mem) (b : Nat → UInt8) (pos len : Nat) (h1 : 1 ≤ len) (h2 : len ≤ 32)
    (hm : Mapped mem b (pos / 8) ((pos + len - 1) / 8)) : getbits mem pos len = some (twos len (field b pos len)) := by
  have hlt := field_lt b pos len
  unfold getbits
  rw [getbitu_eq mem b pos len h2 hm]
  simp only [Option.bind_eq_bind, Option.bind_some]
  generalize field b pos len = v at hlt
  by_cases h32 : 32 ≤ len
  · have : len = 32 := by omega
    subst this
    rw [if_pos (by right; left; exact le_rfl)]
    rfl
  · by_cases hv : v < 2 ^ (len - 1)
    · have h0 : v &&& 2 ^ (len - 1) = 0 := by
        rw [Nat.and_two_pow]
        rw [Nat.testBit_lt_two_pow hv]
        simp
      rw [if_pos (by right; right; exact h0)]
      unfold asSigned twos
      have hle : 2 ^ (len - 1) ≤ 2 ^ 31 := Nat.pow_le_pow_right (by norm_num) (by omega)
      rw [if_pos (by norm_num at hle ⊢; omega), if_pos hv]
    · have ht : v.testBit (len - 1) = true := by
        rw [Nat.testBit_eq_decide_div_mod_eq]
        have hp : 2 ^ len = 2 * 2 ^ (len - 1) := by
          rw [← pow_succ']; congr 1; omega
        have : v / 2 ^ (len - 1) = 1 := by
          apply Nat.div_eq_of_lt_le <;> omega
        simp [this]
      rw [if_neg]
      · have hsh : ((2 ^ 32 - 1) <<< len) % 2 ^ 32 = 2 ^ 32 - 2 ^ len := by
          rw [Nat.shiftLeft_eq]
          have hs : 2 ^ 32 = 2 ^ (32 - len) * 2 ^ len := by rw [← pow_add]; congr 1; omega
          have hge : 2 ^ len ≤ 2 ^ 32 := Nat.pow_le_pow_right (by norm_num) (by omega)
          have hpos : 0 < 2 ^ len := by positivity
          have : (2 ^ 32 - 1) * 2 ^ len = (2 ^ 32 - 2 ^ len) + 2 ^ 32 * (2 ^ len - 1) := by
            zify [hge, hpos]
            ring
          rw [this, Nat.add_mul_mod_self_left, Nat.mod_eq_of_lt (by omega)]
        rw [hsh]
        have hs : 2 ^ 32 - 2 ^ len = 2 ^ len * (2 ^ (32 - len) - 1) := by
          rw [Nat.mul_sub, ← pow_add, show len + (32 - len) = 32 by omega, mul_one]
        have hor : v ||| (2 ^ 32 - 2 ^ len) = v + (2 ^ 32 - 2 ^ len) := by
          rw [hs, Nat.or_comm, ← Nat.two_pow_add_eq_or_of_lt hlt, Nat.add_comm]
        rw [hor]
        have hge : 2 ^ len ≤ 2 ^ 31 := Nat.pow_le_pow_right (by norm_num) (by omega)
        unfold asSigned twos
        have hp : 2 ^ len = 2 * 2 ^ (len - 1) := by
          rw [← pow_succ']; congr 1; omega
        rw [if_neg (by norm_num at hge ⊢; omega), if_neg hv]
        have hle : 2 ^ len ≤ 2 ^ 32 := hge.trans (by norm_num)
        rw [Nat.cast_add, Nat.cast_sub hle]
        push_cast
        ring
      · rw [Nat.and_two_pow, ht]
        have : 0 < 2 ^ (len - 1) := by positivity
        simp
        omega

/-- The two programs read every field of up to 32 bits alike. -/
theorem C130_bits (mem : Mem) (b : Nat → UInt8) (pos len : Nat) (h1 : 1 ≤ len) (h2 : len ≤ 32)
    (hm : Mapped mem b (pos / 8) ((pos + len - 1) / 8)) :
    getbitu mem pos len = getBit mem pos len ∧ getbits mem pos len = getBitSigned mem pos len ∧
    getbitu mem pos len = some (field b pos len) := by
  obtain ⟨e1, e2⟩ := C12_getBit mem b pos len h1 (by omega) hm
  exact ⟨by rw [e1, getbitu_eq mem b pos len h2 hm], by rw [e2, getbits_eq mem b pos len h1 h2 hm],
    getbitu_eq mem b pos len h2 hm⟩

theorem field_shift (b : Nat → UInt8) (n p : Nat) : ∀ l, field (fun i => b (n + i)) p l = field b (8 * n + p) l := by
  intro l
  induction l with
  | zero => rfl
  | succ l ih =>
    have hb : bit (fun i => b (n + i)) (p + l) = bit b (8 * n + p + l) := by
      unfold bit
      rw [show (8 * n + p + l) / 8 = n + (p + l) / 8 by omega, show (8 * n + p + l) % 8 = (p + l) % 8 by omega]
    simp only [field, ih, hb]

/-! ### The words -/

theorem bs {α β : Type} {x : Option α} {a : α} (h : x = some a) (f : α → Option β) : (x >>= f) = f a := by
  subst h; rfl

/-- What the reference computes, by the fields of the buffer. -/
theorem decode_eq (mem : Mem) (b : Nat → UInt8) (hm : Mapped mem b 0 95) :
    decode mem = some (
      if field b 0 6 ≠ 0 ∨ field b 128 6 ≠ 1 ∨ field b 256 6 ≠ 2 ∨ field b 384 6 ≠ 3 ∨ field b 512 6 ≠ 4 ∨
        field b 640 6 ≠ 5 then none
      else if field b 6 2 ≠ 2 then none
      else if field b 134 10 ≠ field b 262 10 ∨ field b 134 10 ≠ field b 390 10 ∨ field b 134 10 ≠ field b 518 10 then none
      else
        let ttr := gst2time (field b 96 12) (field b 108 20)
        let w := RtkGal.adjust (field b 96 12) (gst2time (field b 96 12) (field b 144 14 * 60 : Nat) - ttr)
        some ⟨field b 144 14 * 60, twos 32 (field b 158 32), field b 190 32, field b 222 32, twos 32 (field b 272 32),
          twos 32 (field b 304 32), twos 32 (field b 336 32), twos 14 (field b 368 14), twos 24 (field b 400 24),
          twos 16 (field b 424 16), twos 16 (field b 440 16), twos 16 (field b 456 16), twos 16 (field b 472 16),
          twos 16 (field b 488 16), field b 504 8, twos 16 (field b 534 16), twos 16 (field b 550 16),
          twos 31 (field b 580 31), twos 21 (field b 611 21), twos 6 (field b 632 6), twos 10 (field b 687 10),
          twos 10 (field b 697 10), field b 134 10, field b 134 10,
          field b 707 2 <<< 7 ||| field b 711 1 <<< 6 ||| field b 709 2 <<< 1 ||| field b 712 1, ttr,
          gst2time w (field b 144 14 * 60 : Nat), gst2time w (field b 566 14 * 60 : Nat), w + 1024⟩) := by
  have gu : ∀ pos len, pos + len ≤ 768 → 1 ≤ len → len ≤ 32 → getbitu mem pos len = some (field b pos len) :=
    fun pos len h1 h2 h3 => getbitu_eq mem b pos len h3 (fun r _ h5 => hm r (by omega) (by omega))
  have gs : ∀ pos len, pos + len ≤ 768 → 1 ≤ len → len ≤ 32 → getbits mem pos len = some (twos len (field b pos len)) :=
    fun pos len h1 h2 h3 => getbits_eq mem b pos len h2 h3 (fun r _ h5 => hm r (by omega) (by omega))
  unfold decode
  rw [bs (gu 0 6 (by norm_num) (by norm_num) (by norm_num)),
    bs (gu 6 2 (by norm_num) (by norm_num) (by norm_num)),
    bs (gu 96 12 (by norm_num) (by norm_num) (by norm_num)),
    bs (gu 108 20 (by norm_num) (by norm_num) (by norm_num)),
    bs (gu 128 6 (by norm_num) (by norm_num) (by norm_num)),
    bs (gu 134 10 (by norm_num) (by norm_num) (by norm_num)),
    bs (gu 144 14 (by norm_num) (by norm_num) (by norm_num)),
    bs (gs 158 32 (by norm_num) (by norm_num) (by norm_num)),
    bs (gu 190 32 (by norm_num) (by norm_num) (by norm_num)),
    bs (gu 222 32 (by norm_num) (by norm_num) (by norm_num)),
    bs (gu 256 6 (by norm_num) (by norm_num) (by norm_num)),
    bs (gu 262 10 (by norm_num) (by norm_num) (by norm_num)),
    bs (gs 272 32 (by norm_num) (by norm_num) (by norm_num)),
    bs (gs 304 32 (by norm_num) (by norm_num) (by norm_num)),
    bs (gs 336 32 (by norm_num) (by norm_num) (by norm_num)),
    bs (gs 368 14 (by norm_num) (by norm_num) (by norm_num)),
    bs (gu 384 6 (by norm_num) (by norm_num) (by norm_num)),
    bs (gu 390 10 (by norm_num) (by norm_num) (by norm_num)),
    bs (gs 400 24 (by norm_num) (by norm_num) (by norm_num)),
    bs (gs 424 16 (by norm_num) (by norm_num) (by norm_num)),
    bs (gs 440 16 (by norm_num) (by norm_num) (by norm_num)),
    bs (gs 456 16 (by norm_num) (by norm_num) (by norm_num)),
    bs (gs 472 16 (by norm_num) (by norm_num) (by norm_num)),
    bs (gs 488 16 (by norm_num) (by norm_num) (by norm_num)),
    bs (gu 504 8 (by norm_num) (by norm_num) (by norm_num)),
    bs (gu 512 6 (by norm_num) (by norm_num) (by norm_num)),
    bs (gu 518 10 (by norm_num) (by norm_num) (by norm_num)),
    bs (gs 534 16 (by norm_num) (by norm_num) (by norm_num)),
    bs (gs 550 16 (by norm_num) (by norm_num) (by norm_num)),
    bs (gu 566 14 (by norm_num) (by norm_num) (by norm_num)),
    bs (gs 580 31 (by norm_num) (by norm_num) (by norm_num)),
    bs (gs 611 21 (by norm_num) (by norm_num) (by norm_num)),
    bs (gs 632 6 (by norm_num) (by norm_num) (by norm_num)),
    bs (gu 640 6 (by norm_num) (by norm_num) (by norm_num)),
    bs (gs 687 10 (by norm_num) (by norm_num) (by norm_num)),
    bs (gs 697 10 (by norm_num) (by norm_num) (by norm_num)),
    bs (gu 707 2 (by norm_num) (by norm_num) (by norm_num)),
    bs (gu 709 2 (by norm_num) (by norm_num) (by norm_num)),
    bs (gu 711 1 (by norm_num) (by norm_num) (by norm_num)),
    bs (gu 712 1 (by norm_num) (by norm_num) (by norm_num))]
  split_ifs <;> rfl

/-- The six words decoded by the code, in turn. -/
def words (mem : Mem) (e : Galileo.Eph) : Option Galileo.Eph := do
  let e ← frame 0 (offset 0 mem) e
  let e ← frame 1 (offset 16 mem) e
  let e ← frame 2 (offset 32 mem) e
  let e ← frame 3 (offset 48 mem) e
  let e ← frame 4 (offset 64 mem) e
  frame 5 (offset 80 mem) e

/-- What the code computes, by the fields of the buffer. -/
theorem words_eq (mem : Mem) (b : Nat → UInt8) (hm : Mapped mem b 0 95) (e : Galileo.Eph) :
    ∃ c, words mem e = some { e with
        w0 := ⟨field b 6 2, field b 108 20⟩, week := field b 96 12
        w1 := ⟨field b 134 10, field b 144 14 * 60, twos 32 (field b 158 32), field b 190 32, field b 222 32⟩
        w2 := ⟨field b 262 10, twos 32 (field b 272 32), twos 32 (field b 304 32), twos 32 (field b 336 32),
          twos 14 (field b 368 14)⟩
        w3 := ⟨field b 390 10, twos 24 (field b 400 24), twos 16 (field b 424 16), twos 16 (field b 440 16),
          twos 16 (field b 456 16), twos 16 (field b 472 16), twos 16 (field b 488 16)⟩
        w4 := ⟨field b 518 10, twos 16 (field b 534 16), twos 16 (field b 550 16), field b 566 14 * 60,
          twos 31 (field b 580 31), twos 21 (field b 611 21), twos 6 (field b 632 6)⟩
        w5 := ⟨twos 10 (field b 687 10), twos 10 (field b 697 10), field b 707 2, field b 709 2, field b 710 1,
          field b 711 1⟩
        collected := c } ∧
      (e.collected = 0 → (c = 63 ↔ (field b 0 6 = 0 ∧ field b 128 6 = 1 ∧ field b 256 6 = 2 ∧ field b 384 6 = 3 ∧
        (field b 512 6 = 4 ∧ field b 528 6 = e.sat) ∧ field b 640 6 = 5))) := by
  have gu : ∀ n pos len, 8 * n + pos + len ≤ 768 → 1 ≤ len → len ≤ 32 →
      getBit (offset n mem) pos len = some (field b (8 * n + pos) len) := by
    intro n pos len h1 h2 h3
    rw [← field_shift]
    exact (C12_getBit (offset n mem) (fun i => b (n + i)) pos len h2 (by omega)
      (fun r h4 h5 => hm (n + r) (by omega) (by omega))).1
  have gs : ∀ n pos len, 8 * n + pos + len ≤ 768 → 1 ≤ len → len ≤ 32 →
      getBitSigned (offset n mem) pos len = some (twos len (field b (8 * n + pos) len)) := by
    intro n pos len h1 h2 h3
    rw [← field_shift]
    exact (C12_getBit (offset n mem) (fun i => b (n + i)) pos len h2 (by omega)
      (fun r h4 h5 => hm (n + r) (by omega) (by omega))).2
  have d0 : decode0 (offset 0 mem) = some (⟨field b 6 2, field b 108 20⟩, field b 96 12) := by
    unfold decode0
    rw [bs (gu 0 6 2 (by norm_num) (by norm_num) (by norm_num)),
      bs (gu 0 96 12 (by norm_num) (by norm_num) (by norm_num)),
      bs (gu 0 108 20 (by norm_num) (by norm_num) (by norm_num))]
  have d1 : decode1 (offset 16 mem) = some ⟨field b 134 10, field b 144 14 * 60, twos 32 (field b 158 32), field b 190 32, field b 222 32⟩ := by
    unfold decode1
    rw [bs (gu 16 6 10 (by norm_num) (by norm_num) (by norm_num)),
      bs (gu 16 16 14 (by norm_num) (by norm_num) (by norm_num)),
      bs (gs 16 30 32 (by norm_num) (by norm_num) (by norm_num)),
      bs (gu 16 62 32 (by norm_num) (by norm_num) (by norm_num)),
      bs (gu 16 94 32 (by norm_num) (by norm_num) (by norm_num))]
  have d2 : decode2 (offset 32 mem) = some ⟨field b 262 10, twos 32 (field b 272 32), twos 32 (field b 304 32), twos 32 (field b 336 32),
      twos 14 (field b 368 14)⟩ := by
    unfold decode2
    rw [bs (gu 32 6 10 (by norm_num) (by norm_num) (by norm_num)),
      bs (gs 32 16 32 (by norm_num) (by norm_num) (by norm_num)),
      bs (gs 32 48 32 (by norm_num) (by norm_num) (by norm_num)),
      bs (gs 32 80 32 (by norm_num) (by norm_num) (by norm_num)),
      bs (gs 32 112 14 (by norm_num) (by norm_num) (by norm_num))]
  have d3 : decode3 (offset 48 mem) = some ⟨field b 390 10, twos 24 (field b 400 24), twos 16 (field b 424 16), twos 16 (field b 440 16),
      twos 16 (field b 456 16), twos 16 (field b 472 16), twos 16 (field b 488 16)⟩ := by
    unfold decode3
    rw [bs (gu 48 6 10 (by norm_num) (by norm_num) (by norm_num)),
      bs (gs 48 16 24 (by norm_num) (by norm_num) (by norm_num)),
      bs (gs 48 40 16 (by norm_num) (by norm_num) (by norm_num)),
      bs (gs 48 56 16 (by norm_num) (by norm_num) (by norm_num)),
      bs (gs 48 72 16 (by norm_num) (by norm_num) (by norm_num)),
      bs (gs 48 88 16 (by norm_num) (by norm_num) (by norm_num)),
      bs (gs 48 104 16 (by norm_num) (by norm_num) (by norm_num))]
  have d4 : decode4 (offset 64 mem) = some (⟨field b 518 10, twos 16 (field b 534 16), twos 16 (field b 550 16), field b 566 14 * 60,
      twos 31 (field b 580 31), twos 21 (field b 611 21), twos 6 (field b 632 6)⟩, field b 528 6) := by
    unfold decode4
    rw [bs (gu 64 6 10 (by norm_num) (by norm_num) (by norm_num)),
      bs (gu 64 16 6 (by norm_num) (by norm_num) (by norm_num)),
      bs (gs 64 22 16 (by norm_num) (by norm_num) (by norm_num)),
      bs (gs 64 38 16 (by norm_num) (by norm_num) (by norm_num)),
      bs (gu 64 54 14 (by norm_num) (by norm_num) (by norm_num)),
      bs (gs 64 68 31 (by norm_num) (by norm_num) (by norm_num)),
      bs (gs 64 99 21 (by norm_num) (by norm_num) (by norm_num)),
      bs (gs 64 120 6 (by norm_num) (by norm_num) (by norm_num))]
  have d5 : decode5 (offset 80 mem) = some ⟨twos 10 (field b 687 10), twos 10 (field b 697 10), field b 707 2, field b 709 2, field b 710 1,
      field b 711 1⟩ := by
    unfold decode5
    rw [bs (gs 80 47 10 (by norm_num) (by norm_num) (by norm_num)),
      bs (gs 80 57 10 (by norm_num) (by norm_num) (by norm_num)),
      bs (gu 80 67 2 (by norm_num) (by norm_num) (by norm_num)),
      bs (gu 80 69 2 (by norm_num) (by norm_num) (by norm_num)),
      bs (gu 80 70 1 (by norm_num) (by norm_num) (by norm_num)),
      bs (gu 80 71 1 (by norm_num) (by norm_num) (by norm_num))]
  have ty : ∀ n, 8 * n + 6 ≤ 768 → getBit (offset n mem) 0 6 = some (field b (8 * n + 0) 6) :=
    fun n h => gu n 0 6 (by omega) (by norm_num) (by norm_num)
  have f0 : ∀ e : Galileo.Eph, frame 0 (offset 0 mem) e = some { e with
      w0 := ⟨field b 6 2, field b 108 20⟩
      week := field b 96 12
      collected := if field b 0 6 = 0 then e.collected ||| 2 ^ 0 else e.collected } := fun e => by
    unfold frame
    rw [bs (ty 0 (by norm_num))]
    rw [if_pos rfl, bs d0]
  have f1 : ∀ e : Galileo.Eph, frame 1 (offset 16 mem) e = some { e with
      w1 := ⟨field b 134 10, field b 144 14 * 60, twos 32 (field b 158 32), field b 190 32, field b 222 32⟩
      collected := if field b 128 6 = 1 then e.collected ||| 2 ^ 1 else e.collected } := fun e => by
    unfold frame
    rw [bs (ty 16 (by norm_num))]
    rw [if_neg (by norm_num), if_pos rfl, bs d1]
  have f2 : ∀ e : Galileo.Eph, frame 2 (offset 32 mem) e = some { e with
      w2 := ⟨field b 262 10, twos 32 (field b 272 32), twos 32 (field b 304 32), twos 32 (field b 336 32),
      twos 14 (field b 368 14)⟩
      collected := if field b 256 6 = 2 then e.collected ||| 2 ^ 2 else e.collected } := fun e => by
    unfold frame
    rw [bs (ty 32 (by norm_num))]
    rw [if_neg (by norm_num), if_neg (by norm_num), if_pos rfl, bs d2]
  have f3 : ∀ e : Galileo.Eph, frame 3 (offset 48 mem) e = some { e with
      w3 := ⟨field b 390 10, twos 24 (field b 400 24), twos 16 (field b 424 16), twos 16 (field b 440 16),
      twos 16 (field b 456 16), twos 16 (field b 472 16), twos 16 (field b 488 16)⟩
      collected := if field b 384 6 = 3 then e.collected ||| 2 ^ 3 else e.collected } := fun e => by
    unfold frame
    rw [bs (ty 48 (by norm_num))]
    rw [if_neg (by norm_num), if_neg (by norm_num), if_neg (by norm_num), if_pos rfl, bs d3]
  have f4 : ∀ e : Galileo.Eph, frame 4 (offset 64 mem) e = some { e with
      w4 := ⟨field b 518 10, twos 16 (field b 534 16), twos 16 (field b 550 16), field b 566 14 * 60,
      twos 31 (field b 580 31), twos 21 (field b 611 21), twos 6 (field b 632 6)⟩
      collected := if field b 512 6 = 4 ∧ field b 528 6 = e.sat then e.collected ||| 2 ^ 4 else e.collected } := fun e => by
    unfold frame
    rw [bs (ty 64 (by norm_num))]
    rw [if_neg (by norm_num), if_neg (by norm_num), if_neg (by norm_num), if_neg (by norm_num), if_pos rfl, bs d4]
  have f5 : ∀ e : Galileo.Eph, frame 5 (offset 80 mem) e = some { e with
      w5 := ⟨twos 10 (field b 687 10), twos 10 (field b 697 10), field b 707 2, field b 709 2, field b 710 1,
      field b 711 1⟩
      collected := if field b 640 6 = 5 then e.collected ||| 2 ^ 5 else e.collected } := fun e => by
    unfold frame
    rw [bs (ty 80 (by norm_num))]
    rw [if_neg (by norm_num), if_neg (by norm_num), if_neg (by norm_num), if_neg (by norm_num), if_neg (by norm_num), bs d5]
  unfold words
  rw [bs (f0 _), bs (f1 _), bs (f2 _), bs (f3 _), bs (f4 _), f5]
  refine ⟨_, rfl, ?_⟩
  intro h0
  simp only [h0]
  by_cases t0 : field b 0 6 = 0 <;> by_cases t1 : field b 128 6 = 1 <;> by_cases t2 : field b 256 6 = 2 <;>
    by_cases t3 : field b 384 6 = 3 <;> by_cases t4 : field b 512 6 = 4 ∧ field b 528 6 = e.sat <;>
    by_cases t5 : field b 640 6 = 5 <;> simp [t0, t1, t2, t3, t4, t5]

/-! ### Weeks and times -/

theorem gst_eq (w s : Int) (h0 : 0 ≤ s) (h1 : s ≤ 1000000000) : gst2time w s = 935280000 + 604800 * w + s := by
  have : epoch2time 1999 8 22 0 0 0 = 935280000 := by decide +kernel
  unfold gst2time
  rw [if_neg (by omega), this]
  ring

theorem gps_eq (w s : Int) (h0 : 0 ≤ w) (h1 : 0 ≤ s) (h2 : w * 604800 + s < 2 ^ 31) (h3 : s < 2 ^ 21) :
    Utc.fromGPS w (s * 1000) = some ⟨w * 604800 + s + 315964818, 0⟩ := by
  have hi : ∀ x : Int, -2 ^ 63 ≤ x → x < 2 ^ 63 → Utc.i64 x = some x := fun x a b => if_pos ⟨a, b⟩
  have hj : ∀ x : Int, -2 ^ 31 ≤ x → x < 2 ^ 31 → Utc.i32 x = some x := fun x a b => if_pos ⟨a, b⟩
  unfold Utc.fromGPS
  have e : (s * 1000).tdiv 1000 = s := by rw [Int.mul_tdiv_cancel _ (by norm_num)]
  have e' : (s * 1000).tmod 1000 = 0 := Int.mul_tmod_left _ _
  simp only [Utc.SEC_IN_WEEK, Utc.GPS_UTC_OFFSET, Utc.E9, e, e']
  rw [bs (hj _ (by omega) (by omega)), bs (hj _ (by omega) (by omega)), bs (hi _ (by omega) (by omega))]
  simp [Utc.wrapNsec, Utc.E9, add_assoc]

theorem sub_eq (a b : Int) (h1 : -2 ^ 40 < a) (h2 : a < 2 ^ 40) (h3 : -2 ^ 40 < b) (h4 : b < 2 ^ 40) :
    Utc.sub ⟨a, 0⟩ ⟨b, 0⟩ = some ⟨a - b, 0⟩ := by
  have hi : ∀ x : Int, -2 ^ 63 ≤ x → x < 2 ^ 63 → Utc.i64 x = some x := fun x a b => if_pos ⟨a, b⟩
  unfold Utc.sub
  simp only
  rw [bs (hi _ (by omega) (by omega)), bs (hi _ (by omega) (by omega))]
  simp [Utc.wrapNsec, Utc.E9]

theorem adjust_eq (w : Nat) (tt : Int) (h : w ≤ 2524) :
    ((Galileo.adjust w (tt * 1000000000) : Nat) : Int) = RtkGal.adjust w tt + 1024 := by
  unfold Galileo.adjust RtkGal.adjust
  by_cases h1 : tt > 302400
  · rw [if_pos (by omega), if_pos h1]; omega
  · by_cases h2 : tt < -302400
    · rw [if_neg (by omega), if_pos (by omega), if_neg h1, if_pos h2]; omega
    · rw [if_neg (by omega), if_neg (by omega), if_neg h1, if_neg h2]; omega

/-- The members that both programs assign are equal; the reference counts seconds without the 18 leap seconds. -/
structure Same (n : Nav) (e : Galileo.Eph) : Prop where
  toes : n.toes = e.w1.toes
  M0 : n.M0 = e.w1.m0
  ecc : n.e = e.w1.ecc
  sqrtA : n.sqrtA = e.w1.sqrta
  OMG0 : n.OMG0 = e.w2.omega0
  i0 : n.i0 = e.w2.i0
  omg : n.omg = e.w2.w
  idot : n.idot = e.w2.idot
  OMGd : n.OMGd = e.w3.omegadot
  deln : n.deln = e.w3.delta_n
  cuc : n.cuc = e.w3.cuc
  cus : n.cus = e.w3.cus
  crc : n.crc = e.w3.crc
  crs : n.crs = e.w3.crs
  cic : n.cic = e.w4.cic
  cis : n.cis = e.w4.cis
  f0 : n.f0 = e.w4.af0
  f1 : n.f1 = e.w4.af1
  f2 : n.f2 = e.w4.af2
  tgd0 : n.tgd0 = e.w5.bgd_e1_e5a
  tgd1 : n.tgd1 = e.w5.bgd_e1_e5b
  iodc : n.iodc = e.iodc
  week : n.week = e.week
  toe : e.toe = ⟨n.toe + 18, 0⟩
  toc : e.toc = ⟨n.toc + 18, 0⟩

theorem bit_split (b : Nat → UInt8) (p : Nat) : field b p 2 = 2 * field b p 1 + field b (p + 1) 1 := by
  simp [field]

theorem svh_eq (a b c d : Nat) (hb : b < 2) (hc : c < 4) (hd : d < 2) :
    a <<< 7 ||| b <<< 6 ||| c <<< 1 ||| d = 128 * a + 64 * b + 2 * c + d := by
  have e1 : a <<< 7 ||| b <<< 6 = 128 * a + 64 * b := by
    rw [Nat.shiftLeft_eq, Nat.mul_comm a, ← Nat.two_pow_add_eq_or_of_lt (by rw [Nat.shiftLeft_eq]; omega), Nat.shiftLeft_eq]
    omega
  have e2 : 128 * a + 64 * b ||| c <<< 1 = 128 * a + 64 * b + 2 * c := by
    rw [show 128 * a + 64 * b = 2 ^ 3 * (16 * a + 8 * b) by omega,
      ← Nat.two_pow_add_eq_or_of_lt (by rw [Nat.shiftLeft_eq]; omega), Nat.shiftLeft_eq]
    omega
  rw [e1, e2, show 128 * a + 64 * b + 2 * c = 2 ^ 1 * (64 * a + 32 * b + c) by omega,
    ← Nat.two_pow_add_eq_or_of_lt (by omega)]

/-- `finish` up to the week from which on its times overflow. -/
theorem finish_eq (e : Galileo.Eph) (hw : e.week ≤ 2524) (h1 : e.w0.tow < 2 ^ 20) (h2 : e.w1.toes ≤ 982980)
    (h3 : e.w4.tocs ≤ 982980) :
    finish e = some (if e.collected = 63 ∧ e.w1.iod = e.w2.iod ∧ e.w1.iod = e.w3.iod ∧ e.w1.iod = e.w4.iod then
      (true, { e with
        iode := e.w1.iod % 256, iodc := e.w1.iod
        week := Galileo.adjust e.week (((e.w1.toes : Int) - e.w0.tow) * 1000000000)
        toe := ⟨(Galileo.adjust e.week (((e.w1.toes : Int) - e.w0.tow) * 1000000000) : Int) * 604800 + e.w1.toes + 315964818, 0⟩
        toc := ⟨(Galileo.adjust e.week (((e.w1.toes : Int) - e.w0.tow) * 1000000000) : Int) * 604800 + e.w4.tocs + 315964818, 0⟩ })
      else (false, e)) := by
  unfold finish
  by_cases hc : e.collected ≠ 63
  · rw [if_pos hc, if_neg (fun h => hc h.1)]
  · rw [if_neg hc]
    by_cases hi : e.w1.iod ≠ e.w2.iod ∨ e.w1.iod ≠ e.w3.iod ∨ e.w1.iod ≠ e.w4.iod
    · rw [if_pos hi, if_neg (by tauto)]
    · rw [if_neg hi, if_pos (by push Not at hi hc; exact ⟨hc, hi⟩)]
      have g1 := gps_eq e.week e.w0.tow (by omega) (by omega) (by omega) (by omega)
      have g2 := gps_eq e.week e.w1.toes (by omega) (by omega) (by omega) (by omega)
      rw [bs g1, bs g2, bs (sub_eq _ _ (by omega) (by omega) (by omega) (by omega))]
      have hn : Utc.toSecNs ⟨(e.week : Int) * 604800 + e.w1.toes + 315964818 - ((e.week : Int) * 604800 + e.w0.tow + 315964818), 0⟩
          = ((e.w1.toes : Int) - e.w0.tow) * 1000000000 := by
        unfold Utc.toSecNs
        simp only
        ring
      simp only [hn]
      have ha : Galileo.adjust e.week (((e.w1.toes : Int) - e.w0.tow) * 1000000000) ≤ 3549 := by
        have := adjust_eq e.week ((e.w1.toes : Int) - e.w0.tow) hw
        unfold RtkGal.adjust at this
        split_ifs at this <;> omega
      generalize Galileo.adjust e.week (((e.w1.toes : Int) - e.w0.tow) * 1000000000) = a at ha
      rw [bs (gps_eq a e.w1.toes (by omega) (by omega) (by omega) (by omega)),
        bs (gps_eq a e.w4.tocs (by omega) (by omega) (by omega) (by omega))]

/-- For every six words, up to the week from which on the time of the code overflows: whatever the reference accepts the
code accepts (if it is for the satellite), with the same values; what the code accepts and the reference does not is a
word 0 with another time field.  The health is that of the reference; the code takes the bit before the right one for
each of the two validities, and keeps eight bits of the issue of data. -/
theorem C130_words_partial (mem : Mem) (b : Nat → UInt8) (hm : Mapped mem b 0 95) (e : Galileo.Eph)
    (h0 : e.collected = 0) (hs : field b 528 6 = e.sat) (hw : field b 96 12 ≤ 2524) :
    ∃ r ok e', decode mem = some r ∧ (words mem e).bind finish = some (ok, e') ∧
      (ok = true ↔ r.isSome = true ∨ (field b 6 2 ≠ 2 ∧ e'.collected = 63 ∧ field b 134 10 = field b 262 10 ∧
        field b 134 10 = field b 390 10 ∧ field b 134 10 = field b 518 10)) ∧
      (∀ n, r = some n → Same n e' ∧ e'.iode = n.iode % 256 ∧ e'.w5.e5b_dvs = e'.w5.e1b_hs % 2 ∧
        n.svh = 128 * e'.w5.e5b_hs + 64 * e'.w5.e1b_dvs + 2 * e'.w5.e1b_hs + field b 712 1) := by
  obtain ⟨c, hwe, hc⟩ := words_eq mem b hm e
  have hc := hc h0
  have hd := decode_eq mem b hm
  rw [hwe, Option.bind_some, hd]
  have l1 : field b 108 20 < 2 ^ 20 := field_lt b 108 20
  have l2 : field b 144 14 < 2 ^ 14 := field_lt b 144 14
  have l3 : field b 566 14 < 2 ^ 14 := field_lt b 566 14
  have b1 : field b 711 1 < 2 := field_lt b 711 1
  have b2 : field b 709 2 < 4 := field_lt b 709 2
  have b3 : field b 712 1 < 2 := field_lt b 712 1
  have b4 : field b 709 2 = 2 * field b 709 1 + field b 710 1 := bit_split b 709
  have b5 : field b 710 1 < 2 := field_lt b 710 1
  rw [finish_eq _ (by simpa using hw) (by simpa using l1) (by simp only; omega) (by simp only; omega)]
  by_cases hcol : c = 63
  · obtain ⟨t0, t1, t2, t3, t4, t5⟩ := hc.1 hcol
    rw [if_neg (show ¬ (field b 0 6 ≠ 0 ∨ field b 128 6 ≠ 1 ∨ field b 256 6 ≠ 2 ∨ field b 384 6 ≠ 3 ∨ field b 512 6 ≠ 4 ∨
        field b 640 6 ≠ 5) by simp [t0, t1, t2, t3, t4, t5])]
    by_cases hi : field b 134 10 ≠ field b 262 10 ∨ field b 134 10 ≠ field b 390 10 ∨ field b 134 10 ≠ field b 518 10
    · rw [if_pos hi]
      refine ⟨_, _, _, rfl, by rw [if_neg (by simp only; tauto)], ?_, ?_⟩
      · constructor
        · intro h; cases h
        · rintro (h | ⟨-, -, h1, h2, h3⟩)
          · split_ifs at h <;> simp at h
          · tauto
      · intro n hn
        split_ifs at hn
    · rw [if_neg hi]
      push Not at hi
      refine ⟨_, _, _, rfl, by rw [if_pos ⟨hcol, hi⟩], ?_, ?_⟩
      · refine ⟨fun _ => ?_, fun _ => rfl⟩
        by_cases ht : field b 6 2 ≠ 2
        · exact Or.inr ⟨ht, hcol, hi⟩
        · left; rw [if_neg ht]; rfl
      · intro n hn
        split_ifs at hn with ht
        simp only [Option.some.injEq] at hn
        have htt : gst2time (field b 96 12) (field b 144 14 * 60 : Nat) - gst2time (field b 96 12) (field b 108 20)
            = ((field b 144 14 * 60 : Nat) : Int) - (field b 108 20 : Nat) := by
          rw [gst_eq _ _ (by omega) (by omega), gst_eq _ _ (by omega) (by omega)]
          ring
        rw [htt] at hn
        have ha := adjust_eq (field b 96 12) (((field b 144 14 * 60 : Nat) : Int) - (field b 108 20 : Nat)) hw
        subst hn
        refine ⟨⟨rfl, rfl, rfl, rfl, rfl, rfl, rfl, rfl, rfl, rfl, rfl, rfl, rfl, rfl, rfl, rfl, rfl, rfl, rfl, rfl, rfl, rfl,
          ha.symm, ?_, ?_⟩, rfl, ?_, ?_⟩
        · show Utc.Time.mk ((Galileo.adjust (field b 96 12) ((((field b 144 14 * 60 : Nat) : Int) - (field b 108 20 : Nat))
              * 1000000000) : Int) * 604800 + (field b 144 14 * 60 : Nat) + 315964818) 0 = Utc.Time.mk (gst2time _ _ + 18) 0
          rw [gst_eq _ _ (by omega) (by omega), ha]
          congr 1
          ring
        · show Utc.Time.mk ((Galileo.adjust (field b 96 12) ((((field b 144 14 * 60 : Nat) : Int) - (field b 108 20 : Nat))
              * 1000000000) : Int) * 604800 + (field b 566 14 * 60 : Nat) + 315964818) 0 = Utc.Time.mk (gst2time _ _ + 18) 0
          rw [gst_eq _ _ (by omega) (by omega), ha]
          congr 1
          ring
        · show field b 710 1 = field b 709 2 % 2
          omega
        · exact svh_eq _ _ _ _ b1 b2 b3
  · refine ⟨_, _, _, rfl, by rw [if_neg (fun h => hcol h.1)], ?_, ?_⟩
    · constructor
      · intro h; cases h
      · rintro (h | ⟨-, h, -⟩)
        · rw [if_pos (by by_contra hx; push Not at hx; exact hcol (hc.2 (by tauto)))] at h
          cases h
        · exact absurd h hcol
    · intro n hn
      rw [if_pos (by by_contra hx; push Not at hx; exact hcol (hc.2 (by tauto)))] at hn
      cases hn

/-- The six words of test_galileo.cxx. -/
def known : List UInt8 :=
  [2, 85, 85, 85, 85, 85, 85, 85, 85, 85, 85, 85, 65, 228, 253, 0, 4, 74, 71, 144, 139, 216, 171, 20,
   0, 41, 140, 162, 168, 19, 253, 0, 8, 74, 89, 166, 184, 47, 39, 17, 119, 103, 78, 234, 247, 205, 253, 0,
   12, 74, 255, 196, 61, 32, 156, 251, 141, 25, 98, 9, 192, 250, 253, 0, 16, 74, 76, 0, 32, 0, 109, 30,
   79, 255, 230, 116, 32, 0, 253, 0, 20, 54, 131, 176, 34, 65, 243, 252, 192, 32, 242, 27, 43, 170, 253, 0]

/-- The bytes with one changed. -/
def change (l : List UInt8) (i : Nat) (v : UInt8) : List UInt8 := l.set i v

/-- A new ephemeris of satellite 19. -/
def fresh : Galileo.Eph :=
  ⟨19, ⟨0, 0⟩, ⟨0, 0, 0, 0, 0⟩, ⟨0, 0, 0, 0, 0⟩, ⟨0, 0, 0, 0, 0, 0, 0⟩, ⟨0, 0, 0, 0, 0, 0, 0⟩, ⟨0, 0, 0, 0, 0, 0⟩, 0, 0, 0,
    ⟨0, 0⟩, ⟨0, 0⟩, 0⟩

/-- The hypotheses hold for the words of the test, and both programs accept them. -/
example : (decode (ofList known)).map Option.isSome = some true ∧
    ((words (ofList known) fresh).bind finish).map Prod.fst = some true ∧
    field (fun i => known.getD i 0) 528 6 = fresh.sat ∧ field (fun i => known.getD i 0) 96 12 = 1054 := by
  decide +kernel

example : Mapped (ofList known) (fun i => known.getD i 0) 0 95 := by
  intro r _ h
  have hl : r < known.length := lt_of_le_of_lt h (by decide)
  simp [ofList, hl]

/-- The claim: the code accepts the words the reference accepts, with the same values, issue of data and health. -/
def C130_statement : Prop :=
  ∀ (mem : Mem) (b : Nat → UInt8), Mapped mem b 0 95 → ∀ e : Galileo.Eph, e.collected = 0 → field b 528 6 = e.sat →
    ∃ r ok e', decode mem = some r ∧ (words mem e).bind finish = some (ok, e') ∧ ok = r.isSome ∧
      ∀ n, r = some n → Same n e' ∧ e'.iode = n.iode ∧
        n.svh = 128 * e'.w5.e5b_hs + 64 * e'.w5.e5b_dvs + 2 * e'.w5.e1b_hs + e'.w5.e1b_dvs

/-- A satellite whose E1 signal is out of service: the code takes a bit of that for the validity of E5b. -/
theorem C130_health_violated :
    ∃ n e', decode (ofList (change known 88 194)) = some (some n) ∧
      (words (ofList (change known 88 194)) fresh).bind finish = some (true, e') ∧
      n.svh / 64 % 2 = 0 ∧ e'.w5.e5b_dvs = 1 := by
  have h : ∀ n e', decode (ofList (change known 88 194)) = some (some n) ∧
      (words (ofList (change known 88 194)) fresh).bind finish = some (true, e') →
      n.svh / 64 % 2 = 0 ∧ e'.w5.e5b_dvs = 1 := by
    intro n e' ⟨h1, h2⟩
    have g1 : (decode (ofList (change known 88 194))).map (Option.map fun n => n.svh / 64 % 2) = some (some 0) := by
      decide +kernel
    have g2 : ((words (ofList (change known 88 194)) fresh).bind finish).map (fun p => p.2.w5.e5b_dvs) = some 1 := by
      decide +kernel
    rw [h1] at g1
    rw [h2] at g2
    simpa using And.intro g1 g2
  have e1 : ∃ n, decode (ofList (change known 88 194)) = some (some n) := by
    have : ((decode (ofList (change known 88 194))).bind id).isSome := by decide +kernel
    obtain ⟨n, hn⟩ := Option.isSome_iff_exists.1 this
    refine ⟨n, ?_⟩
    cases hx : decode (ofList (change known 88 194)) with
    | none => rw [hx] at hn; cases hn
    | some x => rw [hx] at hn; simpa using hn
  have e2 : ∃ e', (words (ofList (change known 88 194)) fresh).bind finish = some (true, e') := by
    have : ((words (ofList (change known 88 194)) fresh).bind finish).map Prod.fst = some true := by decide +kernel
    rw [Option.map_eq_some_iff] at this
    obtain ⟨⟨o, e'⟩, h1, h2⟩ := this
    exact ⟨e', by rw [h1]; simp only at h2; rw [h2]⟩
  obtain ⟨n, hn⟩ := e1
  obtain ⟨e', he⟩ := e2
  exact ⟨n, e', hn, he, h n e' ⟨hn, he⟩⟩

/-- A word 0 whose time is not valid (the time field is 1): the reference refuses it, the code takes the week and the
time from it. -/
theorem C130_time_violated : decode (ofList (change known 0 1)) = some none ∧
    ((words (ofList (change known 0 1)) fresh).bind finish).map Prod.fst = some true := by decide +kernel

/-- An issue of data of 330 is 74 for the code. -/
theorem C130_issue_violated :
    let l := change (change (change (change known 16 5) 32 9) 48 13) 64 17
    (decode (ofList l)).map (Option.map Nav.iode) = some (some 330) ∧
    ((words (ofList l) fresh).bind finish).map (fun p => (p.1, p.2.iode)) = some (true, 74) := by decide +kernel

/-- From week 2528 on (February 2048) every complete set of words makes the code overflow; the reference decodes them. -/
theorem C130_overflow_violated (e : Galileo.Eph) (hc : e.collected = 63)
    (hi : e.w1.iod = e.w2.iod ∧ e.w1.iod = e.w3.iod ∧ e.w1.iod = e.w4.iod) (h1 : 2528 ≤ e.week) (h2 : e.week ≤ 4095) :
    finish e = none := by
  unfold finish
  rw [if_neg (by simpa using hc), if_neg (by simp [hi.1.symm, hi.2.1.symm, hi.2.2.symm])]
  rw [Option.eq_none_iff_forall_ne_some]
  intro r hr
  simp only [Option.bind_eq_bind, Option.bind_eq_some_iff] at hr
  obtain ⟨ttr, -, t, -, d, -, toe, htoe, -⟩ := hr
  unfold Utc.fromGPS at htoe
  simp only [Option.bind_eq_bind, Option.bind_eq_some_iff] at htoe
  obtain ⟨a, ha, -⟩ := htoe
  unfold Utc.i32 Galileo.adjust at ha
  rw [if_neg] at ha
  · cases ha
  · simp only [Utc.SEC_IN_WEEK]
    split_ifs <;> omega

/-- Such words: those of the test with week 3000. -/
example : (decode (ofList (change (change known 12 187) 13 132))).map (Option.map Nav.week) = some (some 4024) ∧
    (words (ofList (change (change known 12 187) 13 132)) fresh).map (fun e => (e.collected, e.week)) = some (63, 3000) := by
  decide +kernel

theorem C130_statement_false : ¬ C130_statement := by
  intro h
  obtain ⟨h1, h2⟩ := C130_time_violated
  have hm : Mapped (ofList (change known 0 1)) (fun i => (change known 0 1).getD i 0) 0 95 := by
    intro r _ hr
    have hl : r < (change known 0 1).length := lt_of_le_of_lt hr (by decide)
    simp [ofList, hl]
  obtain ⟨r, ok, e', a1, a2, a3, -⟩ := h _ _ hm fresh rfl (by decide +kernel)
  rw [h1] at a1
  rw [a2] at h2
  simp only [Option.some.injEq] at a1
  simp only [Option.map_some, Option.some.injEq] at h2
  rw [← a1, h2] at a3
  cases a3

/-- The reference has 14 digits of the circle number: a half-turn differs by less than `7e-15`. -/
theorem C130_half_turn : |(3.1415926535898 : ℝ) - Real.pi| < 7e-15 := by
  have h1 := Real.pi_gt_d20
  have h2 := Real.pi_lt_d20
  rw [abs_lt]
  constructor <;> linarith

/-! ### The calendar -/

theorem leap_short (y : Int) (h1 : 1901 ≤ y) (h2 : y ≤ 2099) : isLeap y = decide (y % 4 = 0) := by
  rw [Bool.eq_iff_iff, leap_iff, decide_eq_true_iff]
  unfold Leap
  omega

/-- The reference counts the days of the calendar from 1970 to 2099. -/
theorem C130_dates (x : Date) (hx : x.Valid) (h1 : 1970 ≤ x.y) (h2 : x.y ≤ 2099) (k : Int) (hk : DayNo x k) :
    epochDays x.y x.m x.d = some k := by
  rw [dayNo_iff hx] at hk
  obtain ⟨y, m, d⟩ := x
  obtain ⟨m1, m2, d1, d2⟩ := hx
  simp only at *
  unfold epochDays
  rw [if_neg (by omega), ← hk]
  unfold dayNum
  simp only
  rw [leap_short y (by omega) h2]
  congr 1
  have hy : yearStart y = (y - 1970) * 365 + (y - 1969) / 4 := by
    unfold yearStart leaps
    omega
  rw [hy, Int.tdiv_eq_ediv_of_nonneg (by omega), Int.tmod_eq_emod_of_nonneg (by omega)]
  interval_cases m <;> simp [doy, cum] <;> (try split_ifs) <;> omega

theorem table : ∀ r : Fin 1461,
    let p := monthLoop mday 0 (r.val : Int)
    0 ≤ p.1 ∧ p.1 < 48 ∧ (r.val < 730 → p.1 < 24) ∧ (⟨1970 + p.1 / 12, p.1 % 12 + 1, p.2 + 1⟩ : Date).Valid ∧
      dayNum ⟨1970 + p.1 / 12, p.1 % 12 + 1, p.2 + 1⟩ = r.val := by
  decide +kernel

theorem years4 (y q m d : Int) (h1 : 1970 ≤ y) (h2 : y < 1974) (hq : 0 ≤ q) (h3 : y + 4 * q ≤ 2099) :
    dayNum ⟨y + 4 * q, m, d⟩ = dayNum ⟨y, m, d⟩ + 1461 * q ∧ ((⟨y, m, d⟩ : Date).Valid → (⟨y + 4 * q, m, d⟩ : Date).Valid) := by
  have hl : isLeap (y + 4 * q) = isLeap y := by
    rw [leap_short _ (by omega) (by omega), leap_short _ (by omega) (by omega)]
    congr 1
    rw [eq_iff_iff]
    omega
  constructor
  · unfold dayNum
    simp only [hl]
    have : yearStart (y + 4 * q) = yearStart y + 1461 * q := by
      unfold yearStart leaps
      omega
    rw [this]
    ring
  · intro h
    unfold Date.Valid at *
    simp only at *
    rw [mlen_eq] at *
    rw [hl]
    exact h

/-- Before 2100 the reference gives the date and time of day of a time, and the time of that date is the time again. -/
theorem C130_epoch (t : Int) (h0 : 0 ≤ t) (h1 : t < 4102444800) :
    ∃ y m d h mi s, time2epoch t = (y, m, d, h, mi, s) ∧ (⟨y, m, d⟩ : Date).Valid ∧ DayNo ⟨y, m, d⟩ (t / 86400) ∧
      0 ≤ h ∧ h < 24 ∧ 0 ≤ mi ∧ mi < 60 ∧ 0 ≤ s ∧ s < 60 ∧ t % 86400 = 3600 * h + 60 * mi + s ∧
      epoch2time y m d h mi s = t := by
  unfold time2epoch
  simp only
  rw [Int.tdiv_eq_ediv_of_nonneg h0]
  have hd0 : 0 ≤ t / 86400 := by omega
  have hd1 : t / 86400 < 47482 := by omega
  have hs : t - t / 86400 * 86400 = t % 86400 := by omega
  rw [hs, Int.tmod_eq_emod_of_nonneg hd0, Int.tdiv_eq_ediv_of_nonneg hd0]
  generalize hD : t / 86400 = D at *
  obtain ⟨r, hr⟩ := Int.eq_ofNat_of_zero_le (show 0 ≤ D % 1461 by omega)
  have ht := table ⟨r, by omega⟩
  simp only at ht
  rw [show D % 1461 = (r : Int) by rw [hr]]
  generalize monthLoop mday 0 (r : Int) = p at ht
  obtain ⟨p1, p2, p5, p3, p4⟩ := ht
  rw [Int.tdiv_eq_ediv_of_nonneg p1, Int.tmod_eq_emod_of_nonneg p1,
    Int.tdiv_eq_ediv_of_nonneg (show 0 ≤ t % 86400 by omega), Int.tmod_eq_emod_of_nonneg (show 0 ≤ t % 86400 by omega),
    Int.tdiv_eq_ediv_of_nonneg (show 0 ≤ t % 86400 % 3600 by omega), Int.tmod_eq_emod_of_nonneg (show 0 ≤ t % 86400 by omega)]
  obtain ⟨y1, y2⟩ := years4 (1970 + p.1 / 12) (D / 1461) (p.1 % 12 + 1) (p.2 + 1) (by omega) (by omega) (by omega) (by omega)
  have hv := y2 p3
  rw [show 1970 + D / 1461 * 4 + p.1 / 12 = 1970 + p.1 / 12 + 4 * (D / 1461) by ring]
  have hn : DayNo ⟨1970 + p.1 / 12 + 4 * (D / 1461), p.1 % 12 + 1, p.2 + 1⟩ D := by
    rw [dayNo_iff hv, y1, p4]
    omega
  refine ⟨_, _, _, _, _, _, rfl, hv, hn, by omega, by omega, by omega, by omega, by omega, by omega, by omega, ?_⟩
  unfold epoch2time
  rw [C130_dates _ hv (by simp only; omega) (by simp only; omega) D hn]
  simp only
  omega

/-- In 2100, which is no leap year, the reference has a 29 February. -/
theorem C130_2100_violated : time2epoch 4107542400 = (2100, 2, 29, 0, 0, 0) ∧ ¬ (⟨2100, 2, 29⟩ : Date).Valid ∧
    epoch2time 2100 3 1 0 0 0 = 0 := by decide +kernel

/-- The calendars of the code and of the reference agree for whole seconds from 1970 to 2099. -/
theorem C130_calendars (x : Date) (hx : x.Valid) (h1 : 1970 ≤ x.y) (h2 : x.y ≤ 2099) (h m s : Int) (hh : 0 ≤ h ∧ h < 24)
    (hm : 0 ≤ m ∧ m < 60) (hs : 0 ≤ s ∧ s < 60) :
    fromCalendar x.y x.m x.d h m (s : ℚ) = some ⟨epoch2time x.y x.m x.d h m s, 0⟩ := by
  have hk := (dayNo_iff hx (dayNum x)).2 rfl
  have hy : YearFits x.y := by unfold YearFits; omega
  obtain ⟨t, ht, hn, hi⟩ := C128_calendar x hx hy h m s hh hm (by exact_mod_cast hs.1) (by exact_mod_cast hs.2) _ hk
  rw [ht]
  have he : epoch2time x.y x.m x.d h m s = dayNum x * 86400 + h * 3600 + m * 60 + s := by
    unfold epoch2time
    rw [C130_dates x hx h1 h2 _ hk]
  have hz : TimeSpec.instant t = (dayNum x * 86400 + h * 3600 + m * 60 + s) * 10 ^ 9 := by
    have : |((TimeSpec.instant t - (dayNum x * 86400 + h * 3600 + m * 60 + s) * 10 ^ 9 : Int) : ℚ)| < 1 := by
      push_cast
      push_cast at hi
      linarith
    have h3 : |TimeSpec.instant t - (dayNum x * 86400 + h * 3600 + m * 60 + s) * 10 ^ 9| < 1 := by exact_mod_cast this
    rw [Int.abs_lt_one_iff] at h3
    omega
  congr 1
  rw [he]
  apply Utc.norm_ext hn
  · constructor <;> simp
  · rw [hz]
    unfold TimeSpec.instant
    simp

end Verif.Props.RtkGal
