import Verif.Spec.Binary64
import Verif.Model.FloatTime
import Mathlib.Tactic.Linarith
import Mathlib.Tactic.Positivity
import Mathlib.Tactic.Ring
import Mathlib.Tactic.FieldSimp
/-! Helper lemmas about rounding to nearest. -/
namespace Verif.Binary64
open Verif.FTime

theorem two_zpow_pos (e : Int) : (0 : ℚ) < 2 ^ e := zpow_pos (by norm_num) e

/-- `2 ^ 53` itself may be a significand. -/
theorem F_of_le {m e : Int} (hm : |m| ≤ 2 ^ 53) (he : -1074 ≤ e) : F (m * (2 : ℚ) ^ e) := by
  rcases lt_or_eq_of_le hm with h | h
  · exact ⟨m, e, h, he, rfl⟩
  · rcases abs_cases m with ⟨h1, -⟩ | ⟨h1, -⟩
    · refine ⟨2 ^ 52, e + 1, by norm_num, by omega, ?_⟩
      rw [zpow_add₀ (by norm_num), show m = 2 ^ 53 by omega]; push_cast; ring
    · refine ⟨-2 ^ 52, e + 1, by norm_num, by omega, ?_⟩
      rw [zpow_add₀ (by norm_num), show m = -2 ^ 53 by omega]; push_cast; ring

theorem F_int {n : Int} (h : |n| ≤ 2 ^ 53) : F (n : ℚ) := by
  simpa using F_of_le h (by norm_num : (-1074 : Int) ≤ 0)

theorem F_neg {x : ℚ} (h : F x) : F (-x) := by
  obtain ⟨m, e, h1, h2, h3⟩ := h
  exact ⟨-m, e, by rwa [abs_neg], h2, by rw [h3]; push_cast; ring⟩

theorem Nearest.exact {r : ℚ → ℚ} (hr : Nearest r) {f : ℚ} (hf : F f) : r f = f := by
  have := hr.near f f hf
  rw [sub_self, abs_zero] at this
  exact sub_eq_zero.1 (abs_nonpos_iff.1 this)

theorem Nearest.mono {r : ℚ → ℚ} (hr : Nearest r) {x y : ℚ} (h : x ≤ y) : r x ≤ r y := by
  by_contra hc
  push Not at hc
  rcases eq_or_lt_of_le h with e | e
  · subst e; exact lt_irrefl _ hc
  have a := hr.near x (r y) (hr.mem y)
  have b := hr.near y (r x) (hr.mem x)
  have a' := sq_le_sq.2 a
  have b' := sq_le_sq.2 b
  nlinarith

theorem Nearest.le_of_le {r : ℚ → ℚ} (hr : Nearest r) {x f : ℚ} (hf : F f) (h : x ≤ f) : r x ≤ f := by
  rw [← hr.exact hf]; exact hr.mono h

theorem Nearest.ge_of_ge {r : ℚ → ℚ} (hr : Nearest r) {x f : ℚ} (hf : F f) (h : f ≤ x) : f ≤ r x := by
  rw [← hr.exact hf]; exact hr.mono h

/-- The mirror image of a rounding to nearest is one. -/
theorem Nearest.neg {r : ℚ → ℚ} (hr : Nearest r) : Nearest (fun x => -r (-x)) where
  mem x := F_neg (hr.mem (-x))
  near x f hf := by
    have := hr.near (-x) (-f) (F_neg hf)
    rw [show -r (-x) - x = -(r (-x) - -x) by ring, show f - x = -(-f - -x) by ring, abs_neg, abs_neg]
    exact this

/-- No `double` lies between two neighbours. -/
theorem gap {m e : Int} (hm : 2 ^ 52 ≤ m) {g : ℚ} (hg : F g)
    (h1 : m * (2 : ℚ) ^ e < g) (h2 : g < (m + 1) * (2 : ℚ) ^ e) : False := by
  obtain ⟨m', e', hm', -, rfl⟩ := hg
  have p := two_zpow_pos e
  have p' := two_zpow_pos e'
  have hq : (2 ^ 52 : ℚ) ≤ m := by exact_mod_cast hm
  rw [abs_lt] at hm'
  have hq' : (m' : ℚ) < 2 ^ 53 := by exact_mod_cast hm'.2
  rcases le_or_gt e e' with h | h
  · obtain ⟨k, rfl⟩ : ∃ k : ℕ, e' = e + k := ⟨(e' - e).toNat, by omega⟩
    rw [zpow_add₀ (by norm_num), zpow_natCast] at h1 h2
    have a : (m : ℚ) < ((m' * 2 ^ k : Int) : ℚ) := by push_cast; nlinarith
    have b : ((m' * 2 ^ k : Int) : ℚ) < ((m + 1 : Int) : ℚ) := by push_cast; nlinarith
    have a' : m < m' * 2 ^ k := by exact_mod_cast a
    have b' : m' * 2 ^ k < m + 1 := by exact_mod_cast b
    omega
  · have : (2 : ℚ) ^ e' ≤ 2 ^ (e - 1) := zpow_le_zpow_right₀ (by norm_num) (by omega)
    rw [zpow_sub₀ (by norm_num), zpow_one] at this
    nlinarith

/-- How the rounding of a given number is found. -/
theorem Nearest.eq_of {r : ℚ → ℚ} (hr : Nearest r) {m e : Int} (h1 : 2 ^ 52 < m) (h2 : m ≤ 2 ^ 53)
    (he : -1074 ≤ e) {x : ℚ} (hx : |m * (2 : ℚ) ^ e - x| < 2 ^ e / 2) : r x = m * (2 : ℚ) ^ e := by
  have hF : F (m * (2 : ℚ) ^ e) := F_of_le (by rw [abs_of_pos (by omega)]; exact h2) he
  have h := hr.near x _ hF
  have hm := hr.mem x
  rw [abs_lt] at hx
  have h' := lt_of_le_of_lt h (abs_lt.2 hx)
  rw [abs_lt] at h'
  by_contra hc
  rcases lt_or_gt_of_ne hc with a | a
  · refine gap (m := m - 1) (e := e) (by omega) hm ?_ ?_
    · push_cast; linarith
    · push_cast; linarith
  · refine gap (m := m) (e := e) (by omega) hm a ?_
    linarith

/-- The error of a rounding. -/
theorem Nearest.err {r : ℚ → ℚ} (hr : Nearest r) (x : ℚ) (hx : x ≠ 0) :
    |r x - x| ≤ (2 : ℚ) ^ expo x / 2 := by
  have p := two_zpow_pos (expo x)
  have hx0 : 0 < |x| := abs_pos.2 hx
  have hl := Int.lt_zpow_succ_log_self (b := 2) (by norm_num) |x|
  have hlt : |x| < (2 : ℚ) ^ (expo x + 53) := by
    refine lt_of_lt_of_le (by exact_mod_cast hl) (zpow_le_zpow_right₀ (by norm_num) ?_)
    unfold expo; omega
  rw [zpow_add₀ (by norm_num)] at hlt
  have hz : |x / 2 ^ expo x| < 2 ^ 53 := by
    rw [abs_div, abs_of_pos p, div_lt_iff₀ p, mul_comm]; exact_mod_cast hlt
  rw [abs_lt] at hz
  have f1 := Int.floor_le (x / 2 ^ expo x + 1 / 2)
  have f2 := Int.lt_floor_add_one (x / 2 ^ expo x + 1 / 2)
  generalize hk : ⌊x / 2 ^ expo x + 1 / 2⌋ = k at *
  have k1 : -2 ^ 53 ≤ k := by
    have : (-2 ^ 53 : ℚ) - 1 < k := by linarith
    have : (-2 ^ 53 - 1 : Int) < k := by exact_mod_cast this
    omega
  have k2 : k ≤ 2 ^ 53 := by
    have : (k : ℚ) < 2 ^ 53 + 1 := by linarith
    have : k < (2 ^ 53 + 1 : Int) := by exact_mod_cast this
    omega
  refine le_trans (hr.near x _ (F_of_le (m := k) (e := expo x) (abs_le.2 ⟨k1, k2⟩) (by unfold expo; omega))) ?_
  have e1 : (k : ℚ) * 2 ^ expo x - x = (k - x / 2 ^ expo x) * 2 ^ expo x := by field_simp
  rw [e1, abs_mul, abs_of_pos p]
  have : |(k : ℚ) - x / 2 ^ expo x| ≤ 1 / 2 := by rw [abs_le]; constructor <;> linarith
  nlinarith

/-- The relative error of a rounding. -/
theorem Nearest.rel {r : ℚ → ℚ} (hr : Nearest r) (x : ℚ) (hx : 1 / 2 ^ 1000 ≤ |x|) :
    |r x - x| ≤ |x| / 2 ^ 53 := by
  have hx0 : 0 < |x| := lt_of_lt_of_le (by positivity) hx
  have h := hr.err x (abs_pos.1 hx0)
  have hl : (2 : ℚ) ^ Int.log 2 |x| ≤ |x| := by
    exact_mod_cast Int.zpow_log_le_self (b := 2) (by norm_num) hx0
  have h2 : (-1000 : Int) ≤ Int.log 2 |x| := by
    rw [← Int.zpow_le_iff_le_log (by norm_num) hx0]
    refine le_trans (le_of_eq ?_) hx
    rw [zpow_neg]; norm_num
  have he : expo x = Int.log 2 |x| - 52 := by unfold expo; omega
  rw [he, zpow_sub₀ (by norm_num)] at h
  refine le_trans h ?_
  have : (2 : ℚ) ^ (52 : Int) = 2 ^ 52 := by norm_cast
  rw [this]
  linarith

/-- An upper bound of the error. -/
theorem Nearest.abs_err {r : ℚ → ℚ} (hr : Nearest r) (x b : ℚ) (hb : 1 / 2 ^ 900 ≤ b) (hx : |x| ≤ b) :
    |r x - x| ≤ b / 2 ^ 53 := by
  rcases le_or_gt (1 / 2 ^ 1000) |x| with h | h
  · exact le_trans (hr.rel x h) (by gcongr)
  · have h0 : F 0 := by simpa using F_int (n := 0) (by norm_num)
    refine le_trans (hr.near x 0 h0) ?_
    rw [zero_sub, abs_neg]
    refine le_trans h.le ?_
    rw [le_div_iff₀ (by norm_num)]
    refine le_trans ?_ hb
    rw [div_mul_eq_mul_div, one_mul, div_le_div_iff₀ (by positivity) (by positivity), one_mul,
      ← pow_add]
    exact pow_le_pow_right₀ (by norm_num) (by norm_num)

theorem rint_near (q : ℚ) (k : Int) : |(rint q : ℚ) - q| ≤ |(k : ℚ) - q| := by
  have f1 := Int.floor_le q
  have f2 := Int.lt_floor_add_one q
  have hk : k ≤ ⌊q⌋ ∨ ⌊q⌋ + 1 ≤ k := by omega
  have hk' : (k : ℚ) ≤ ⌊q⌋ ∨ (⌊q⌋ : ℚ) + 1 ≤ k := by
    rcases hk with h | h
    · left; exact_mod_cast h
    · right; exact_mod_cast h
  have key : ∀ a : ℚ, |a - q| ≤ q - ⌊q⌋ → |a - q| ≤ ⌊q⌋ + 1 - q → |a - q| ≤ |(k : ℚ) - q| := by
    intro a h1 h2
    rcases hk' with h | h
    · rw [abs_of_nonpos (by linarith : (k : ℚ) - q ≤ 0)]; linarith
    · rw [abs_of_nonneg (by linarith : (0 : ℚ) ≤ k - q)]; linarith
  unfold rint
  split
  · apply key <;> rw [abs_of_nonpos (by linarith)] <;> linarith
  · split
    · push_cast; apply key <;> rw [abs_of_nonneg (by linarith)] <;> linarith
    · split
      · apply key <;> rw [abs_of_nonpos (by linarith)] <;> linarith
      · push_cast; apply key <;> rw [abs_of_nonneg (by linarith)] <;> linarith

/-- The rounding of the hardware is a rounding to nearest. -/
theorem rnd_nearest : Nearest rnd where
  mem x := by
    have p := two_zpow_pos (expo x)
    have hl := Int.lt_zpow_succ_log_self (b := 2) (by norm_num) |x|
    have hlt : |x| < (2 : ℚ) ^ (expo x + 53) := by
      refine lt_of_lt_of_le (by exact_mod_cast hl) (zpow_le_zpow_right₀ (by norm_num) ?_)
      unfold expo; omega
    rw [zpow_add₀ (by norm_num)] at hlt
    have hz : |x / 2 ^ expo x| < 2 ^ 53 := by
      rw [abs_div, abs_of_pos p, div_lt_iff₀ p, mul_comm]; exact_mod_cast hlt
    have f1 := Int.floor_le (x / 2 ^ expo x)
    have f2 := Int.lt_floor_add_one (x / 2 ^ expo x)
    rw [abs_lt] at hz
    have k1 : -2 ^ 53 ≤ ⌊x / 2 ^ expo x⌋ := by
      rw [Int.le_floor]; push_cast; linarith
    have k2 : ⌊x / 2 ^ expo x⌋ < 2 ^ 53 := by
      rw [Int.floor_lt]; push_cast; linarith
    unfold rnd
    apply F_of_le
    · rw [abs_le]; unfold rint; split <;> [skip; (split <;> [skip; split])] <;> omega
    · unfold expo; omega
  near x f hf := by
    obtain ⟨m, e, hm, he, rfl⟩ := hf
    have p := two_zpow_pos (expo x)
    have key : ∀ k : Int, |rnd x - x| ≤ |(k : ℚ) * 2 ^ expo x - x| := by
      intro k
      have h := rint_near (x / 2 ^ expo x) k
      have e1 : ∀ a : ℚ, a * 2 ^ expo x - x = (a - x / 2 ^ expo x) * 2 ^ expo x := by
        intro a; field_simp
      unfold rnd
      rw [e1, e1, abs_mul, abs_mul]
      exact mul_le_mul_of_nonneg_right h (abs_nonneg _)
    rcases le_or_gt (expo x) e with h | h
    · obtain ⟨k, rfl⟩ : ∃ k : ℕ, e = expo x + k := ⟨(e - expo x).toNat, by omega⟩
      have := key (m * 2 ^ k)
      rw [zpow_add₀ (by norm_num), zpow_natCast]
      push_cast at this
      rw [show (m : ℚ) * (2 ^ expo x * 2 ^ k) = m * 2 ^ k * 2 ^ expo x by ring]
      exact this
    · have hE : expo x = Int.log 2 |x| - 52 := by unfold expo at h ⊢; omega
      have hm' : |(m : ℚ) * 2 ^ e| ≤ 2 ^ 52 * 2 ^ expo x := by
        rw [abs_mul, abs_of_pos (two_zpow_pos e)]
        have h1 : (2 : ℚ) ^ e ≤ 2 ^ (expo x - 1) := zpow_le_zpow_right₀ (by norm_num) (by omega)
        rw [zpow_sub₀ (by norm_num), zpow_one] at h1
        have h2 : |(m : ℚ)| ≤ 2 ^ 53 := by exact_mod_cast hm.le
        have h3 := two_zpow_pos e
        calc |(m : ℚ)| * 2 ^ e ≤ 2 ^ 53 * (2 ^ expo x / 2) := by gcongr
          _ = 2 ^ 52 * 2 ^ expo x := by ring
      rcases eq_or_ne x 0 with hx | hx
      · have := key 0
        rw [hx] at this ⊢
        simp only [Int.cast_zero, zero_mul, sub_self, abs_zero] at this
        exact le_trans this (abs_nonneg _)
      have hx0 : 0 < |x| := abs_pos.2 hx
      have hl : (2 : ℚ) ^ Int.log 2 |x| ≤ |x| := by
        exact_mod_cast Int.zpow_log_le_self (b := 2) (by norm_num) hx0
      have hl' : 2 ^ 52 * 2 ^ expo x ≤ |x| := by
        rw [hE, zpow_sub₀ (by norm_num)]
        have e2 : (2 : ℚ) ^ (52 : Int) = 2 ^ 52 := by norm_cast
        rw [e2]
        refine le_trans (le_of_eq ?_) hl
        field_simp
      rw [abs_le] at hm'
      rcases abs_cases x with ⟨hx1, hx2⟩ | ⟨hx1, hx2⟩
      · have h1 := key (2 ^ 52)
        push_cast at h1
        rw [abs_of_nonpos (by linarith : (4503599627370496 : ℚ) * 2 ^ expo x - x ≤ 0)] at h1
        rw [abs_of_nonpos (by linarith : (m : ℚ) * 2 ^ e - x ≤ 0)]
        linarith
      · have h1 := key (-2 ^ 52)
        push_cast at h1
        rw [abs_of_nonneg (by linarith : (0 : ℚ) ≤ -4503599627370496 * 2 ^ expo x - x)] at h1
        rw [abs_of_nonneg (by linarith : (0 : ℚ) ≤ (m : ℚ) * 2 ^ e - x)]
        linarith

end Verif.Binary64
