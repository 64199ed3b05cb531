import Verif.Model.Rtklib
import Mathlib.Tactic.Linarith
import Mathlib.Tactic.NormNum
import Mathlib.Tactic.IntervalCases

/-!
# C129: the accuracies of the reference
-/

namespace Verif.Props.RtklibAccuracy

open Verif Verif.Model.Rtklib

/-- **C129**: the accuracy of Galileo starts at zero and grows by 1, 2, 4 and 16 centimetres a step in the four parts of
the table of the interface document. -/
theorem C129_sisa : sisaValue 0 = 0 ∧ ∀ n : ℤ, 0 ≤ n → n < 125 →
    (sisaValue (n + 1) - sisaValue n) * 100 = if n < 50 then 1 else if n < 75 then 2 else if n < 100 then 4 else 16 := by
  refine ⟨by norm_num [sisaValue], fun n h0 h1 => ?_⟩
  interval_cases n <;> norm_num [sisaValue]

example : sisaValue 107 = 3.12 := by norm_num [sisaValue]

/-- **C129**: for the other systems the variance grows with the index, and is the largest one for an index above the
table. -/
theorem C129_ura (sys : Sys) (hs : sys ≠ .gal) (i j : ℤ) (h0 : 0 ≤ i) (hi : i < j) :
    ∃ v w, varUraeph sys i = some v ∧ varUraeph sys j = some w ∧ v ≤ w ∧ w ≤ 6144 ^ 2 := by
  have top : ∀ k : ℤ, 14 < k → varUraeph sys k = some (6144.0 * 6144.0) := by
    intro k hk
    unfold varUraeph
    rw [if_neg hs, if_pos (Or.inr hk)]
  have mid : ∀ k : ℤ, 0 ≤ k → k ≤ 14 → varUraeph sys k = (uraValue[k.toNat]?).map fun v => v * v := by
    intro k hk hk'
    unfold varUraeph
    rw [if_neg hs, if_neg (by omega)]
  by_cases hj : 14 < j
  · rw [top j hj]
    by_cases hi' : 14 < i
    · rw [top i hi']
      exact ⟨_, _, rfl, rfl, le_refl _, by norm_num⟩
    · rw [mid i h0 (by omega)]
      have : i ≤ 14 := by omega
      interval_cases i <;> exact ⟨_, _, rfl, rfl, by norm_num, by norm_num⟩
  · have : j ≤ 14 := by omega
    rw [mid i h0 (by omega), mid j (by omega) this]
    have h1 : 0 < j := by omega
    interval_cases j <;> interval_cases i <;> exact ⟨_, _, rfl, rfl, by norm_num, by norm_num⟩

/-- **C129** (violated for Galileo): an accuracy that is not known is the value −1, whose square is a variance of one
square metre, less than the variance of a satellite known to be good to six metres. -/
theorem C129_unknown_violated (n : ℤ) (h : 125 < n) :
    varUraeph .gal n = some 1 ∧ varUraeph .gal 125 = some 36 := by
  unfold varUraeph
  rw [if_pos rfl, if_pos rfl]
  unfold sisaValue
  rw [if_neg (by omega), if_neg (by omega), if_neg (by omega), if_neg (by omega)]
  norm_num

/-- The index 255 of the interface document: no accuracy is predicted. -/
example : varUraeph .gal 255 = some 1 := (C129_unknown_violated 255 (by norm_num)).1

/-- **C129**: the rotation by five degrees for the BeiDou satellites in geostationary orbit is a rotation down to, for
the numbers written in the code, a part in 10¹⁵. -/
theorem C129_tilt : SIN_5 < 0 ∧ 0 < COS_5 ∧ |SIN_5 ^ 2 + COS_5 ^ 2 - 1| < 1e-15 := by
  refine ⟨by norm_num [SIN_5], by norm_num [COS_5], ?_⟩
  rw [abs_lt]
  constructor <;> norm_num [SIN_5, COS_5]

end Verif.Props.RtklibAccuracy
