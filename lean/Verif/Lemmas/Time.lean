import Verif.Spec.Time
import Mathlib.Tactic.Linarith
import Mathlib.Tactic.Positivity
import Mathlib.Tactic.Ring
/-! Helper lemmas about timestamps. -/
namespace Verif.Utc
open Verif.TimeSpec

theorem sub_defined (a b : Time) (ha : Norm a) (hb : Norm b)
    (hs : -2 ^ 63 < a.sec - b.sec ∧ a.sec - b.sec < 2 ^ 63) :
    ∃ d, sub a b = some d ∧ Norm d ∧ instant d = instant a - instant b := by
  obtain ⟨a1, a2⟩ := ha
  obtain ⟨b1, b2⟩ := hb
  unfold sub i64
  rw [if_pos ⟨by omega, hs.2⟩, if_pos (by constructor <;> omega)]
  simp only [Option.bind_eq_bind, Option.bind_some, wrapNsec, i64, E9]
  by_cases h1 : a.nsec - b.nsec < 0
  · rw [if_pos h1, if_pos ⟨by omega, by omega⟩]
    refine ⟨_, rfl, ⟨by simp; omega, by simp; omega⟩, by simp [instant]; omega⟩
  · rw [if_neg h1, if_neg (by omega)]
    refine ⟨_, rfl, ⟨by simp; omega, by simp; omega⟩, by simp [instant]; omega⟩

theorem add_defined (a b : Time) (ha : Norm a) (hb : Norm b)
    (hs : -2 ^ 63 ≤ a.sec + b.sec ∧ a.sec + b.sec < 2 ^ 63 - 1) :
    ∃ d, add a b = some d ∧ Norm d ∧ instant d = instant a + instant b := by
  obtain ⟨a1, a2⟩ := ha
  obtain ⟨b1, b2⟩ := hb
  unfold add i64
  rw [if_pos ⟨hs.1, by omega⟩, if_pos (by constructor <;> omega)]
  simp only [Option.bind_eq_bind, Option.bind_some, wrapNsec, i64, E9]
  by_cases h1 : a.nsec + b.nsec ≥ 1000000000
  · rw [if_neg (by omega), if_pos h1, if_pos ⟨by omega, by omega⟩]
    refine ⟨_, rfl, ⟨by simp; omega, by simp; omega⟩, by simp [instant]; omega⟩
  · rw [if_neg (by omega), if_neg h1]
    refine ⟨_, rfl, ⟨by simp; omega, by simp; omega⟩, by simp [instant]; omega⟩

theorem norm_ext {a b : Time} (ha : Norm a) (hb : Norm b) (h : instant a = instant b) : a = b := by
  obtain ⟨a1, a2⟩ := ha
  obtain ⟨b1, b2⟩ := hb
  unfold instant at h
  cases a; cases b
  simp only [Time.mk.injEq] at *
  omega

theorem trunc_scale (s : ℚ) : trunc s = (trunc (s * 1000000000)).tdiv 1000000000 := by
  unfold trunc
  by_cases h : 0 ≤ s
  · rw [if_pos h, if_pos (by positivity)]
    have h1 : 0 ≤ ⌊s * 1000000000⌋ := Int.floor_nonneg.2 (by positivity)
    rw [Int.tdiv_eq_ediv_of_nonneg h1]
    symm
    rw [Int.ediv_eq_iff_of_pos (by norm_num)]
    have f1 := Int.floor_le (s * 1000000000)
    have f2 := Int.lt_floor_add_one (s * 1000000000)
    have g1 := Int.floor_le s
    have g2 := Int.lt_floor_add_one s
    constructor
    · rw [Int.le_floor]; push_cast; linarith
    · rw [Int.floor_lt]; push_cast; linarith
  · push Not at h
    rw [if_neg (by linarith), if_neg (by push Not; linarith)]
    have h1 : ⌈s * 1000000000⌉ ≤ 0 := Int.ceil_le.2 (by push_cast; linarith)
    have h2 : 0 ≤ -⌈s * 1000000000⌉ := by omega
    have : (⌈s * 1000000000⌉).tdiv 1000000000 = -((-⌈s * 1000000000⌉) / 1000000000) := by
      rw [← Int.tdiv_eq_ediv_of_nonneg h2, Int.neg_tdiv, neg_neg]
    rw [this]
    have e : (-⌈s * 1000000000⌉) / 1000000000 = -⌈s⌉ := by
      rw [Int.ediv_eq_iff_of_pos (by norm_num), ← Int.floor_neg, ← Int.floor_neg]
      have f1 := Int.floor_le (-(s * 1000000000))
      have f2 := Int.lt_floor_add_one (-(s * 1000000000))
      have g1 := Int.floor_le (-s)
      have g2 := Int.lt_floor_add_one (-s)
      constructor
      · rw [Int.le_floor]; push_cast; linarith
      · rw [Int.floor_lt]; push_cast; linarith
    omega

theorem wrap_defined (s n : Int) (h : -10 ^ 9 < n ∧ n < 2 * 10 ^ 9)
    (hs : -2 ^ 63 < s ∧ s < 2 ^ 63 - 1) :
    ∃ d, wrapNsec ⟨s, n⟩ = some d ∧ Norm d ∧ instant d = s * 10 ^ 9 + n := by
  unfold wrapNsec
  simp only [E9, i64]
  by_cases h1 : n < 0
  · rw [if_pos h1, if_pos ⟨by omega, by omega⟩]
    exact ⟨_, rfl, ⟨by simp; omega, by simp; omega⟩, by simp [instant]; omega⟩
  · by_cases h2 : n ≥ 1000000000
    · rw [if_neg h1, if_pos h2, if_pos ⟨by omega, by omega⟩]
      exact ⟨_, rfl, ⟨by simp; omega, by simp; omega⟩, by simp [instant]; omega⟩
    · rw [if_neg h1, if_neg h2]
      exact ⟨_, rfl, ⟨by simp; omega, by simp; omega⟩, by simp [instant]⟩

theorem trunc_mono {a b : ℚ} (h : a ≤ b) : trunc a ≤ trunc b := by
  unfold trunc
  by_cases ha : 0 ≤ a
  · rw [if_pos ha, if_pos (le_trans ha h)]; exact Int.floor_le_floor h
  · rw [if_neg ha]
    push Not at ha
    by_cases hb : 0 ≤ b
    · rw [if_pos hb]
      have h1 : ⌈a⌉ ≤ 0 := Int.ceil_le.2 (by push_cast; linarith)
      have h2 : 0 ≤ ⌊b⌋ := Int.floor_nonneg.2 hb
      omega
    · rw [if_neg hb]; exact Int.ceil_le_ceil h

theorem wrap_instant {t d : Time} (h : wrapNsec t = some d) : instant d = instant t := by
  have e9 : E9 = 1000000000 := rfl
  unfold wrapNsec i64 at h
  split at h
  · split at h
    · simp only [Option.bind_eq_bind, Option.bind_some, Option.some.injEq] at h
      subst h; unfold instant; simp only; omega
    · simp at h
  · split at h
    · split at h
      · simp only [Option.bind_eq_bind, Option.bind_some, Option.some.injEq] at h
        subst h; unfold instant; simp only; omega
      · simp at h
    · injection h with h; subst h; rfl

theorem s32_of {x : Int} (h0 : 0 ≤ x) (h1 : x < 2 ^ 31) : s32 x = x := by
  unfold s32; rw [if_pos (by omega)]; omega
theorem u32_of {x : Int} (h0 : 0 ≤ x) (h1 : x < 2 ^ 32) : u32 x = x := by
  unfold u32; omega

theorem tmod_bounds (k : Int) :
    -1000000000 < k.tmod 1000000000 ∧ k.tmod 1000000000 < 1000000000 :=
  ⟨by have := Int.lt_tmod_of_pos k (by omega : (0:Int) < 1000000000); omega,
   Int.tmod_lt_of_pos k (by omega)⟩

end Verif.Utc
