import Verif.Lemmas.BitTools
/-!
# C12-C14: bit fields (common/ephemeris/bit_tools.h)

`Mapped mem b lo hi`: the bytes at addresses `lo..hi` are readable and have the contents `b`.
Nothing is assumed about the other addresses, so a successful result also says that no other
byte is touched.
-/
namespace Verif.Props.BitTools
open Verif.Bits Verif.BitSpec

/-- The bytes `lo..hi` are accessible and contain `b`. -/
def Mapped (mem : Mem) (b : Nat → UInt8) (lo hi : Nat) : Prop :=
  ∀ r, lo ≤ r → r ≤ hi → mem r = some (b r)

/-- **C12.** For every buffer, position and length 1..56, `getBit` returns the big-endian number
formed by bits `pos..pos+len-1`, the signed variant its two's-complement value, reading only the
bytes that contain the field. -/
theorem C12_getBit (mem : Mem) (b : Nat → UInt8) (pos len : Nat) (h1 : 1 ≤ len) (h2 : len ≤ 56)
    (hm : Mapped mem b (pos / 8) ((pos + len - 1) / 8)) :
    getBit mem pos len = some (field b pos len) ∧
    getBitSigned mem pos len = some (twos len (field b pos len)) := by
  have e : getBit mem pos len = some (field b pos len) :=
    getRaw_spec _ _ mem b pos len (by omega) (width_ge _ (by omega)) (width_ge _ (by omega))
      (by omega) hm
  refine ⟨e, ?_⟩
  unfold getBitSigned
  rw [e, Option.map_some, signExtend_spec _ _ _ _ (by omega) (width_ge _ (by omega))
    (width_ge _ (by omega)) ?_ ?_ (field_lt b pos len)]
  · unfold width
    by_cases c1 : len ≤ 8
    · simp [c1, show ¬ len + 8 ≤ 8 by omega, show len + 8 ≤ 16 by omega]
    · by_cases c2 : len ≤ 16
      · simp [c1, c2, show ¬ len + 8 ≤ 8 by omega, show ¬ len + 8 ≤ 16 by omega]
      · by_cases c3 : len ≤ 32
        · simp [c1, c2, c3]
        · simp [c1, c2, c3, show ¬ len + 8 ≤ 8 by omega, show ¬ len + 8 ≤ 16 by omega,
            show ¬ len + 8 ≤ 32 by omega]
  · have := width_mono8 len; omega

/-- **C12**, the overload with a run-time length, for lengths 1..32. -/
theorem C12_getBit_runtime (mem : Mem) (b : Nat → UInt8) (pos len : Nat) (h1 : 1 ≤ len)
    (h2 : len ≤ 32) (hm : Mapped mem b (pos / 8) ((pos + len - 1) / 8)) :
    getBitRt mem pos len = some (field b pos len) ∧
    getBitRtSigned mem pos len = some (twos len (field b pos len)) := by
  have e : getBitRt mem pos len = some (field b pos len) :=
    getRaw_spec _ _ mem b pos len (by omega) (by omega) (by omega) (by omega) hm
  refine ⟨e, ?_⟩
  unfold getBitRtSigned
  rw [e, Option.map_some, signExtend_spec _ _ _ _ (by omega) (by omega) (by omega) (by decide)
    (by omega) (field_lt b pos len)]

/-- An 11-bit field crossing two byte boundaries, with sign bit set. -/
example : getBit (ofList [0x01, 0xA5, 0xC0, 0x00]) 7 11 = some 0b11010010111 ∧
    getBitSigned (ofList [0x01, 0xA5, 0xC0, 0x00]) 7 11 = some (-361) ∧
    field (fun i => ([0x01, 0xA5, 0xC0, 0x00] : List UInt8).getD i 0) 7 11 = 0b11010010111 := by
  have e : getBit (ofList [0x01, 0xA5, 0xC0, 0x00]) 7 11 = some 0b11010010111 := by
    rw [(C12_getBit (ofList [0x01, 0xA5, 0xC0, 0x00])
      (fun i => ([0x01, 0xA5, 0xC0, 0x00] : List UInt8).getD i 0) 7 11 (by omega) (by omega) ?_).1]
    · decide
    · intro r h1 h2
      have : r = 0 ∨ r = 1 ∨ r = 2 := by omega
      rcases this with rfl | rfl | rfl <;> rfl
  refine ⟨e, ?_, by decide⟩
  unfold getBitSigned; rw [e]; decide

/-- Reading past the mapped bytes is reported, so the hypothesis matters. -/
example : getBit (ofList [0x01]) 4 8 = none := by
  simp [getBit, getRaw, getLoop, ofList]

/-- **C13.** After `setBit(buf, pos, v)` exactly the bits `pos..pos+len-1` have changed, they hold
`v` modulo `2^len` (most significant first), and `getBit` reads that value back.  `b` is the
content before, `b'` the content after. -/
theorem C13_setBit (mem : Mem) (b : Nat → UInt8) (pos len v : Nat) (h1 : 1 ≤ len) (h2 : len ≤ 56)
    (hv : v < 2 ^ 32) (hb : ∀ r x, mem r = some x → b r = x)
    (hm : ∀ r, pos / 8 ≤ r → r ≤ (pos + len - 1) / 8 → (mem r).isSome) :
    ∃ mem' b', setBit mem pos len v = some mem' ∧
      (∀ r, mem' r = (mem r).map fun _ => b' r) ∧
      (∀ i, i < pos ∨ pos + len ≤ i → bit b' i = bit b i) ∧
      (∀ i, i < len → bit b' (pos + i) = v / 2 ^ (len - 1 - i) % 2) ∧
      getBit mem' pos len = some (v % 2 ^ len) := by
  obtain ⟨mem', b', e, hr, hbit⟩ := setRaw_spec (width (len + 8)) mem b pos len v (by omega)
    (width_ge _ (by omega)) (width_mod _) (by omega) hv hb hm
  have hset : ∀ i, i < len → bit b' (pos + i) = v / 2 ^ (len - 1 - i) % 2 := by
    intro i hi
    rw [hbit, if_pos (by omega), show pos + len - 1 - (pos + i) = len - 1 - i by omega]
  refine ⟨mem', b', e, hr, ?_, hset, ?_⟩
  · intro i hi; rw [hbit, if_neg (by omega)]
  · rw [(C12_getBit mem' b' pos len h1 h2 ?_).1, field_of_bits b' pos len v hset]
    intro r a c
    rw [hr]
    obtain ⟨x, hx⟩ := Option.isSome_iff_exists.1 (hm r a c)
    rw [hx]; rfl

/-- **C13**, the overload with a run-time length. -/
theorem C13_setBit_runtime (mem : Mem) (b : Nat → UInt8) (pos len v : Nat) (h1 : 1 ≤ len)
    (h2 : len ≤ 32) (hv : v < 2 ^ 32) (hb : ∀ r x, mem r = some x → b r = x)
    (hm : ∀ r, pos / 8 ≤ r → r ≤ (pos + len - 1) / 8 → (mem r).isSome) :
    ∃ mem' b', setBitRt mem pos len v = some mem' ∧
      (∀ r, mem' r = (mem r).map fun _ => b' r) ∧
      (∀ i, i < pos ∨ pos + len ≤ i → bit b' i = bit b i) ∧
      getBitRt mem' pos len = some (v % 2 ^ len) := by
  obtain ⟨mem', b', e, hr, hbit⟩ := setRaw_spec 64 mem b pos len v (by omega)
    (by omega) (by omega) (by omega) hv hb hm
  have hset : ∀ i, i < len → bit b' (pos + i) = v / 2 ^ (len - 1 - i) % 2 := by
    intro i hi
    rw [hbit, if_pos (by omega), show pos + len - 1 - (pos + i) = len - 1 - i by omega]
  refine ⟨mem', b', e, hr, ?_, ?_⟩
  · intro i hi; rw [hbit, if_neg (by omega)]
  · rw [(C12_getBit_runtime mem' b' pos len h1 h2 ?_).1, field_of_bits b' pos len v hset]
    intro r a c
    rw [hr]
    obtain ⟨x, hx⟩ := Option.isSome_iff_exists.1 (hm r a c)
    rw [hx]; rfl

/-- Writing 11 bits across three bytes leaves the neighbours alone. -/
example : ((setBit (ofList [0xFF, 0xFF, 0xFF]) 7 11 0).bind fun m =>
    do some [← m 0, ← m 1, ← m 2]) = some [0xFE, 0x00, 0x3F] := by
  simp [setBit, setRaw, width, maskOf, setLoop, Bits.modify, blend, ofList]

/-- **C14.** Sign-magnitude fields of 2..57 bits. -/
theorem C14_getBitGlo (mem : Mem) (b : Nat → UInt8) (pos len : Nat) (h1 : 2 ≤ len) (h2 : len ≤ 57)
    (hm : Mapped mem b (pos / 8) ((pos + len - 1) / 8)) :
    getBitGlo mem pos len =
      some (if bit b pos = 1 then -(field b (pos + 1) (len - 1) : Int)
        else (field b (pos + 1) (len - 1) : Int)) := by
  unfold getBitGlo
  have e1 := (C12_getBit mem b (pos + 1) (len - 1) (by omega) (by omega)
    (fun r a c => hm r (by omega) (by omega))).1
  have e2 := (C12_getBit mem b pos 1 (by omega) (by omega)
    (fun r a c => hm r (by omega) (by omega))).1
  rw [e1, e2, field_one]
  have := bit_lt b pos
  by_cases h : bit b pos = 1
  · simp [h]
  · simp [show bit b pos = 0 by omega]

example : field (fun _ => 0x85) 1 7 = 5 ∧ bit (fun _ => 0x85) 0 = 1 := by decide

end Verif.Props.BitTools
