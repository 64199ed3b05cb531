import Verif.Props.FloatLambda
import Mathlib.Algebra.BigOperators.Group.Finset.Basic
import Mathlib.Algebra.Order.Floor.Semiring
import Mathlib.Tactic.LinearCombination
/-!
# C148: the search for the nearest ambiguities ends in doubles

The loop of `search` has no limit on its iterations.  In doubles it ends if the conditional variances are below `2^20`, the
factors are at most one and the ambiguities below `2^41`, for up to 512 of them; there is one of `2^60` for which it does not.
-/
namespace Verif.Props.FloatSearch
open Verif Verif.FLambda Verif.Binary64

/-! ### A measure: the integers left on each level, the highest level first -/

theorem weight_lt (b n : ℕ) (c : ℕ → ℕ) (h : ∀ j, j < n → c j < b) : ∑ j ∈ Finset.range n, c j * b ^ j < b ^ n := by
  induction n with
  | zero => simp
  | succ n ih =>
    rw [Finset.sum_range_succ, pow_succ]
    have h1 := ih fun j hj => h j (by omega)
    have h2 : (c n + 1) * b ^ n ≤ b * b ^ n := Nat.mul_le_mul_right _ (h n (by omega))
    have : (c n + 1) * b ^ n = c n * b ^ n + b ^ n := by ring
    have : b * b ^ n = b ^ n * b := by ring
    omega

theorem weight_dec (b n i : ℕ) (c d : ℕ → ℕ) (hi : i < n) (h1 : c i < d i) (h2 : ∀ j, i < j → j < n → c j = d j)
    (h3 : ∀ j, j < i → c j < b) : ∑ j ∈ Finset.range n, c j * b ^ j < ∑ j ∈ Finset.range n, d j * b ^ j := by
  induction n with
  | zero => omega
  | succ n ih =>
    rw [Finset.sum_range_succ, Finset.sum_range_succ]
    rcases Nat.lt_or_ge i n with h | h
    · rw [h2 n h (by omega)]
      have := ih h fun j hj hj' => h2 j hj (by omega)
      omega
    · have e : i = n := by omega
      subst e
      have h4 := weight_lt b i c h3
      have h5 : (c i + 1) * b ^ i ≤ d i * b ^ i := Nat.mul_le_mul_right _ h1
      have : (c i + 1) * b ^ i = c i * b ^ i + b ^ i := by ring
      omega

/-! ### One level: the integers around a number, in turn on both sides -/

/-- `z` is an integer reached from the one nearest to `a`, `t` the next step. -/
def Level (a z t : ℚ) : Prop := ∃ z0 x y : Int, z = x ∧ t = y ∧ y ≠ 0 ∧ |a - z0| ≤ 1 / 2 ∧
  (2 * (x - z0) + y = 0 ∨ 2 * (x - z0) + y = y.sign)

theorem qround_half (a : ℚ) : ∃ z : Int, qround a = z ∧ |a - z| ≤ 1 / 2 := by
  unfold qround Lambda.round
  split
  · refine ⟨_, rfl, ?_⟩
    have h1 := Int.floor_le (a + 1 / 2)
    have h2 := Int.lt_floor_add_one (a + 1 / 2)
    rw [abs_le]; constructor <;> linarith
  · refine ⟨_, rfl, ?_⟩
    have h1 := Int.le_ceil (a - 1 / 2)
    have h2 := Int.ceil_lt_add_one (a - 1 / 2)
    rw [abs_le]; constructor <;> linarith

theorem firstStep_cases (r : ℚ → ℚ) (l : ℚ) : firstStep (dsops r) l = 1 ∨ firstStep (dsops r) l = -1 := by
  unfold firstStep
  split
  · left; rfl
  · show qsign l = 1 ∨ qsign l = -1
    unfold qsign
    split
    · left; rfl
    · right; rfl

theorem level_start (r : ℚ → ℚ) (a l : ℚ) : Level a (qround a) (firstStep (dsops r) l) ∧ |firstStep (dsops r) l| = 1 := by
  obtain ⟨z, h1, h2⟩ := qround_half a
  rcases firstStep_cases r l with h | h
  · rw [h]
    exact ⟨⟨z, z, 1, h1, by norm_num, by norm_num, h2, Or.inr (by simp)⟩, by norm_num⟩
  · rw [h]
    exact ⟨⟨z, z, -1, h1, by norm_num, by norm_num, h2, Or.inr (by simp)⟩, by norm_num⟩

theorem level_next {r : ℚ → ℚ} (hr : Nearest r) {a z t : ℚ} (h : Level a z t) (ha : |a| ≤ 2 ^ 50) (hp : |a - z| ≤ 2 ^ 41) :
    Level a (r (z + t)) (r (-t - qsign t)) ∧ |r (-t - qsign t)| = |t| + 1 ∧ |t| ≤ 2 ^ 42 + 2 := by
  obtain ⟨z0, x, y, rfl, rfl, hy, hz, hw⟩ := h
  have hz' := abs_le.1 hz
  have hp' := abs_le.1 hp
  have ha' := abs_le.1 ha
  have b1 : x - z0 ≤ 2 ^ 41 := by
    have : ((x - z0 : Int) : ℚ) < ((2 ^ 41 + 1 : Int) : ℚ) := by push_cast; linarith [hz'.1, hz'.2, hp'.1, hp'.2]
    have := Int.cast_lt.1 this
    omega
  have b2 : -2 ^ 41 ≤ x - z0 := by
    have : ((-2 ^ 41 - 1 : Int) : ℚ) < ((x - z0 : Int) : ℚ) := by push_cast; linarith [hz'.1, hz'.2, hp'.1, hp'.2]
    have := Int.cast_lt.1 this
    omega
  have b3 : x ≤ 2 ^ 51 := by
    have : ((x : Int) : ℚ) ≤ ((2 ^ 51 : Int) : ℚ) := by push_cast; linarith [hp'.1, hp'.2, ha'.1, ha'.2]
    exact Int.cast_le.1 this
  have b4 : -2 ^ 51 ≤ x := by
    have : ((-2 ^ 51 : Int) : ℚ) ≤ ((x : Int) : ℚ) := by push_cast; linarith [hp'.1, hp'.2, ha'.1, ha'.2]
    exact Int.cast_le.1 this
  have b5 : |y| ≤ 2 ^ 42 + 2 := by
    rw [abs_le]
    rcases lt_trichotomy y 0 with h | h | h
    · rw [Int.sign_eq_neg_one_of_neg h] at hw; constructor <;> omega
    · exact absurd h hy
    · rw [Int.sign_eq_one_of_pos h] at hw; constructor <;> omega
  have b6 := abs_le.1 b5
  have e1 : r ((x : ℚ) + y) = ((x + y : Int) : ℚ) := by
    rw [show (x : ℚ) + y = ((x + y : Int) : ℚ) by push_cast; ring]
    exact hr.exact (F_int (by rw [abs_le]; constructor <;> omega))
  have e2 : (-(y : ℚ) - qsign y) = ((-y - y.sign : Int) : ℚ) := by
    unfold qsign
    rcases lt_trichotomy y 0 with h | h | h
    · rw [if_neg (by simpa using h), Int.sign_eq_neg_one_of_neg h]; push_cast; ring
    · exact absurd h hy
    · rw [if_pos (by exact_mod_cast h.le), Int.sign_eq_one_of_pos h]; push_cast; ring
  have e3 : r (-(y : ℚ) - qsign y) = ((-y - y.sign : Int) : ℚ) := by
    rw [e2]
    refine hr.exact (F_int ?_)
    have : |y.sign| ≤ 1 := by
      rcases lt_trichotomy y 0 with h | h | h
      · rw [Int.sign_eq_neg_one_of_neg h]; decide
      · exact absurd h hy
      · rw [Int.sign_eq_one_of_pos h]; decide
    have := abs_le.1 this
    rw [abs_le]; constructor <;> omega
  rw [e1, e3]
  have e4 : |(-y - y.sign : Int)| = |y| + 1 := by
    rcases lt_trichotomy y 0 with h | h | h
    · rw [Int.sign_eq_neg_one_of_neg h, abs_of_neg h, abs_of_pos (by omega)]; ring
    · exact absurd h hy
    · rw [Int.sign_eq_one_of_pos h, abs_of_pos h, abs_of_neg (by omega)]; ring
  refine ⟨⟨z0, x + y, -y - y.sign, rfl, rfl, ?_, hz, ?_⟩, ?_, by exact_mod_cast b5⟩
  · intro h0; rw [h0, abs_zero] at e4; have := abs_nonneg y; omega
  · rcases lt_trichotomy y 0 with h | h | h
    · rw [Int.sign_eq_neg_one_of_neg h] at hw ⊢
      rcases Int.lt_or_le (-y - -1) 1 with h' | h'
      · omega
      · rw [Int.sign_eq_one_of_pos (by omega)]; omega
    · exact absurd h hy
    · rw [Int.sign_eq_one_of_pos h] at hw ⊢
      rw [Int.sign_eq_neg_one_of_neg (by omega)]; omega
  · exact_mod_cast e4

/-- A node within the bound is near. -/
theorem near_of_pass {r : ℚ → ℚ} (hr : Nearest r) {d D a z chi : ℚ} (hd : 0 ≤ d) (hD : 0 < D) (hD' : D ≤ 2 ^ 20)
    (hc : chi ≤ 10 ^ 18) (h : r (d + r (r (r (a - z) * r (a - z)) / D)) < chi) : |a - z| ≤ 2 ^ 41 := by
  by_contra hn
  rw [not_le] at hn
  have F1 : F ((2 : ℚ) ^ 41) := by
    have := F_int (n := 2 ^ 41) (by norm_num); push_cast at this; exact this
  have F2 : F ((2 : ℚ) ^ 82) := ⟨1, 82, by norm_num, by norm_num, by norm_num⟩
  have F3 : F ((2 : ℚ) ^ 62) := ⟨1, 62, by norm_num, by norm_num, by norm_num⟩
  have h1 : (2 : ℚ) ^ 82 ≤ r (a - z) * r (a - z) := by
    have : (2 : ℚ) ^ 41 ≤ |r (a - z)| := by
      rcases abs_cases (a - z) with ⟨e, -⟩ | ⟨e, -⟩
      · rw [e] at hn
        exact (hr.ge_of_ge F1 hn.le).trans (le_abs_self _)
      · rw [e] at hn
        have := hr.le_of_le (F_neg F1) (x := a - z) (by linarith)
        exact (by linarith : (2 : ℚ) ^ 41 ≤ -r (a - z)).trans (neg_le_abs _)
    rw [← abs_mul_abs_self (r (a - z))]
    calc (2 : ℚ) ^ 82 = 2 ^ 41 * 2 ^ 41 := by norm_num
      _ ≤ _ := mul_le_mul this this (by positivity) (abs_nonneg _)
  have h2 := hr.ge_of_ge F2 h1
  have h3 : (2 : ℚ) ^ 62 ≤ r (r (a - z) * r (a - z)) / D := by
    rw [le_div_iff₀ hD]
    calc (2 : ℚ) ^ 62 * D ≤ 2 ^ 62 * 2 ^ 20 := by gcongr
      _ = 2 ^ 82 := by norm_num
      _ ≤ _ := h2
  have h4 := hr.ge_of_ge F3 h3
  have h5 := hr.ge_of_ge F3 (show (2 : ℚ) ^ 62 ≤ d + r (r (r (a - z) * r (a - z)) / D) by linarith)
  norm_num at hc h5
  linarith

theorem dist_nonneg {r : ℚ → ℚ} (hr : Nearest r) {d D l : ℚ} (hd : 0 ≤ d) (hD : 0 < D) :
    0 ≤ r (d + r (r (l * l) / D)) := by
  have F0 : F (0 : ℚ) := by have := F_int (n := 0) (by norm_num); simpa using this
  have h1 := hr.ge_of_ge F0 (mul_self_nonneg l)
  have h2 := hr.ge_of_ge F0 (div_nonneg h1 hD.le)
  exact hr.ge_of_ge F0 (add_nonneg hd h2)

/-! ### The loop -/

/-- The largest step. -/
def B : ℕ := 2 ^ 42 + 3

/-- The integers left on a level. -/
def rest (k : ℕ) (step : Vec ℚ) (j : ℕ) : ℕ := if j < k then B + 1 else B + 1 - ⌊|step j|⌋₊

def weight (n k : ℕ) (step : Vec ℚ) : ℕ := ∑ j ∈ Finset.range n, rest k step j * (B + 2) ^ j

structure Inv (r : ℚ → ℚ) (n : ℕ) (s : Search ℚ) : Prop where
  hk : s.k < n
  chi : s.chi2 ≤ 10 ^ 18
  norms : ∀ j, s.norms j ≤ 10 ^ 18
  left : s.left = r (s.acond s.k - s.zcond s.k)
  lev : ∀ j, s.k ≤ j → j < n → Level (s.acond j) (s.zcond j) (s.step j)
  acond : ∀ j, s.k ≤ j → j < n → |s.acond j| ≤ 2 ^ 50
  dist : ∀ j, s.k ≤ j → j < n → 0 ≤ s.dist j
  step : ∀ j, s.k ≤ j → j < n → |s.step j| ≤ 2 ^ 42 + 3
  pass : ∀ j, s.k < j → j < n → |s.acond j - s.zcond j| ≤ 2 ^ 41
  S : ∀ j c, s.k ≤ j → j < n → c ≤ j → |s.S j c| ≤ (n - 1 - j : ℕ) * 2 ^ 41

theorem floor_step {t : ℚ} {a z : ℚ} (h : Level a z t) : ((⌊|t|⌋₊ : ℕ) : ℚ) = |t| := by
  obtain ⟨_, _, y, -, rfl, -⟩ := h
  rw [show |(y : ℚ)| = ((y.natAbs : ℕ) : ℚ) by rw [Nat.cast_natAbs]; push_cast; rfl, Nat.floor_natCast]

theorem rest_lt (k : ℕ) (step : Vec ℚ) (j : ℕ) : rest k step j < B + 2 := by
  unfold rest; split <;> omega

section
variable {r : ℚ → ℚ} (hr : Nearest r) {n : ℕ} {s : Search ℚ}

include hr in
theorem next_inv (h : Inv r n s) (k' : ℕ) (hk : s.k ≤ k') (hk' : k' < n) (hp : |s.acond k' - s.zcond k'| ≤ 2 ^ 41) :
    Inv r n (nextInt (dsops r) k' s) ∧
      weight n (nextInt (dsops r) k' s).k (nextInt (dsops r) k' s).step < weight n s.k s.step := by
  obtain ⟨l1, l2, l3⟩ := level_next hr (h.lev k' hk hk') (h.acond k' hk hk') hp
  constructor
  · refine ⟨hk', h.chi, h.norms, ?_, ?_, fun j hj => h.acond j (hk.trans hj), fun j hj => h.dist j (hk.trans hj), ?_, ?_,
      fun j c hj => h.S j c (hk.trans hj)⟩
    · simp [nextInt, dsops, put]
    · intro j hj hj'
      by_cases e : j = k'
      · subst e; simpa [nextInt, dsops, put] using l1
      · simpa [nextInt, dsops, put, e] using h.lev j (hk.trans hj) hj'
    · intro j hj hj'
      by_cases e : j = k'
      · subst e
        simp only [nextInt, dsops, put, if_true]
        rw [l2]; linarith
      · simpa [nextInt, dsops, put, e] using h.step j (hk.trans hj) hj'
    · intro j hj hj'
      have hj : k' < j := hj
      have e : j ≠ k' := by omega
      simpa [nextInt, dsops, put, e] using h.pass j (by omega) hj'
  · refine weight_dec _ n k' _ _ hk' ?_ ?_ fun j _ => rest_lt _ _ _
    · unfold rest
      have e1 : (nextInt (dsops r) k' s).k = k' := rfl
      have e2 : (nextInt (dsops r) k' s).step k' = r (-s.step k' - qsign (s.step k')) := by simp [nextInt, dsops, put]
      rw [e1, e2, if_neg (by omega), if_neg (by omega)]
      have f1 := floor_step l1
      have f2 := floor_step (h.lev k' hk hk')
      have f3 : ⌊|r (-s.step k' - qsign (s.step k'))|⌋₊ = ⌊|s.step k'|⌋₊ + 1 := by
        have : ((⌊|r (-s.step k' - qsign (s.step k'))|⌋₊ : ℕ) : ℚ) = ((⌊|s.step k'|⌋₊ + 1 : ℕ) : ℚ) := by
          rw [f1, l2]; push_cast; rw [f2]
        exact_mod_cast this
      have f4 : ⌊|s.step k'|⌋₊ ≤ 2 ^ 42 + 2 := by
        have : ((⌊|s.step k'|⌋₊ : ℕ) : ℚ) ≤ ((2 ^ 42 + 2 : ℕ) : ℚ) := by
          rw [f2]; push_cast; norm_num at l3 ⊢; exact l3
        exact_mod_cast this
      rw [f3]
      unfold B
      omega
    · intro j hj hj'
      have e : j ≠ k' := by omega
      unfold rest
      have e1 : (nextInt (dsops r) k' s).k = k' := rfl
      have e2 : (nextInt (dsops r) k' s).step j = s.step j := by simp [nextInt, dsops, put, e]
      rw [e1, e2, if_neg (by omega), if_neg (by omega)]

theorem store_inv (m : ℕ) (d : ℚ) (hd : d ≤ 10 ^ 18) (h : Inv r n s) : Inv r n (store (dsops r) m d s) := by
  unfold store
  split
  · exact ⟨h.hk, h.chi, fun j => by dsimp only [put]; split; exacts [hd, h.norms j], h.left, h.lev, h.acond, h.dist, h.step,
      h.pass, h.S⟩
  · refine ⟨h.hk, ?_, fun j => by dsimp only [put]; split; exacts [hd, h.norms j], h.left, h.lev, h.acond, h.dist, h.step,
      h.pass, h.S⟩
    dsimp only [put]; split; exacts [hd, h.norms _]

theorem store_same (m : ℕ) (d : ℚ) : (store (dsops r) m d s).k = s.k ∧ (store (dsops r) m d s).step = s.step ∧
    (store (dsops r) m d s).acond = s.acond ∧ (store (dsops r) m d s).zcond = s.zcond := by
  unfold store; split <;> exact ⟨rfl, rfl, rfl, rfl⟩

include hr in
theorem down_inv (hn : n ≤ 512) {L : Mat ℚ} {ahat : Vec ℚ} (hL : ∀ i j, j < i → i < n → |L i j| ≤ 1)
    (ha : ∀ j, j < n → |ahat j| ≤ 2 ^ 41) (h : Inv r n s) {d : ℚ} (hd : 0 ≤ d) (hk : s.k ≠ 0)
    (hp : |s.acond s.k - s.zcond s.k| ≤ 2 ^ 41) :
    Inv r n (goDown (dsops r) L ahat d s) ∧
      weight n (goDown (dsops r) L ahat d s).k (goDown (dsops r) L ahat d s).step < weight n s.k s.step := by
  have hkn := h.hk
  have FP : ∀ q : ℕ, q ≤ 512 → F ((q : ℚ) * 2 ^ 41) := by
    intro q hq
    have := F_int (n := q * 2 ^ 41) (by rw [abs_of_nonneg (by positivity)]; omega)
    push_cast at this; exact this
  have bound : ∀ (q : ℕ) (x : ℚ), q ≤ 512 → |x| ≤ q * 2 ^ 41 → |r x| ≤ q * 2 ^ 41 := by
    intro q x hq hx
    have := abs_le.1 hx
    rw [abs_le]
    exact ⟨hr.ge_of_ge (F_neg (FP q hq)) this.1, hr.le_of_le (FP q hq) this.2⟩
  have hS : ∀ c, c ≤ s.k - 1 → |r (s.S s.k c + r (r (s.zcond s.k - s.acond s.k) * L s.k c))| ≤
      (n - 1 - (s.k - 1) : ℕ) * 2 ^ 41 := by
    intro c hc
    refine bound _ _ (by omega) ?_
    have h1 := h.S s.k c le_rfl hkn (by omega)
    have h2 : |r (s.zcond s.k - s.acond s.k)| ≤ (1 : ℕ) * 2 ^ 41 := bound 1 _ (by omega) (by
      rw [abs_sub_comm, Nat.cast_one, one_mul]; exact hp)
    have h3 : |r (r (s.zcond s.k - s.acond s.k) * L s.k c)| ≤ (1 : ℕ) * 2 ^ 41 := by
      refine bound 1 _ (by omega) ?_
      rw [abs_mul]
      calc _ ≤ ((1 : ℕ) * 2 ^ 41 : ℚ) * 1 := mul_le_mul h2 (hL _ _ (by omega) hkn) (abs_nonneg _) (by positivity)
        _ = _ := mul_one _
    have e : ((n - 1 - (s.k - 1) : ℕ) : ℚ) = (n - 1 - s.k : ℕ) + 1 := by
      rw [show n - 1 - (s.k - 1) = (n - 1 - s.k) + 1 by omega]; push_cast; rfl
    rw [e]
    have := abs_add_le (s.S s.k c) (r (r (s.zcond s.k - s.acond s.k) * L s.k c))
    push_cast at h3
    linarith
  set s' := goDown (dsops r) L ahat d s with hs'
  have ek : s'.k = s.k - 1 := rfl
  have eS : ∀ c, c ≤ s.k - 1 → s'.S (s.k - 1) c = r (s.S s.k c + r (r (s.zcond s.k - s.acond s.k) * L s.k c)) := by
    intro c hc
    have : s.k - 1 + 1 = s.k := by omega
    simp only [hs', goDown, dsops, this]
    rw [if_pos ⟨trivial, hc⟩]
  have eS' : ∀ j c, j ≠ s.k - 1 → s'.S j c = s.S j c := by
    intro j c hj
    simp only [hs', goDown, dsops]
    rw [if_neg (fun e => hj e.1)]
  have ea : s'.acond (s.k - 1) = r (ahat (s.k - 1) + s'.S (s.k - 1) (s.k - 1)) := by simp [hs', goDown, dsops, put]
  have ez : s'.zcond (s.k - 1) = qround (s'.acond (s.k - 1)) := by rw [ea]; simp [hs', goDown, dsops, put]
  have et : ∃ l, s'.step (s.k - 1) = firstStep (dsops r) l := by
    refine ⟨s'.left, ?_⟩; simp [hs', goDown, put]
  have oa : ∀ j, j ≠ s.k - 1 → s'.acond j = s.acond j := fun j hj => by simp [hs', goDown, put, hj]
  have oz : ∀ j, j ≠ s.k - 1 → s'.zcond j = s.zcond j := fun j hj => by simp [hs', goDown, put, hj]
  have ot : ∀ j, j ≠ s.k - 1 → s'.step j = s.step j := fun j hj => by simp [hs', goDown, put, hj]
  obtain ⟨l, et⟩ := et
  have hlev : Level (s'.acond (s.k - 1)) (s'.zcond (s.k - 1)) (s'.step (s.k - 1)) := by
    rw [ez, et]; exact (level_start r _ l).1
  have hst : |s'.step (s.k - 1)| = 1 := by rw [et]; exact (level_start r 0 l).2
  have hac : |s'.acond (s.k - 1)| ≤ 2 ^ 50 := by
    rw [ea, show (2 : ℚ) ^ 50 = (512 : ℕ) * 2 ^ 41 by norm_num]
    refine bound 512 _ le_rfl ?_
    have h1 := ha (s.k - 1) (by omega)
    have h2 := hS (s.k - 1) le_rfl
    rw [← eS _ le_rfl] at h2
    have h3 : ((n - 1 - (s.k - 1) : ℕ) : ℚ) ≤ 511 := by
      have : n - 1 - (s.k - 1) ≤ 511 := by omega
      exact_mod_cast this
    have := abs_add_le (ahat (s.k - 1)) (s'.S (s.k - 1) (s.k - 1))
    have h4 : ((n - 1 - (s.k - 1) : ℕ) : ℚ) * 2 ^ 41 ≤ 511 * 2 ^ 41 := by gcongr
    push_cast
    linarith
  constructor
  · refine ⟨by omega, h.chi, h.norms, ?_, ?_, ?_, ?_, ?_, ?_, ?_⟩
    · rw [ek, ez, ea]; simp [hs', goDown, dsops]
    · intro j hj hj'
      by_cases e : j = s.k - 1
      · rw [e]; exact hlev
      · rw [oa j e, oz j e, ot j e]; exact h.lev j (by omega) hj'
    · intro j hj hj'
      by_cases e : j = s.k - 1
      · rw [e]; exact hac
      · rw [oa j e]; exact h.acond j (by omega) hj'
    · intro j hj hj'
      by_cases e : j = s.k - 1
      · simpa [hs', goDown, put, e] using hd
      · simpa [hs', goDown, put, e] using h.dist j (by omega) hj'
    · intro j hj hj'
      by_cases e : j = s.k - 1
      · rw [e, hst]; norm_num
      · rw [ot j e]; exact h.step j (by omega) hj'
    · intro j hj hj'
      rw [oa j (by omega), oz j (by omega)]
      by_cases e : j = s.k
      · rw [e]; exact hp
      · exact h.pass j (by omega) hj'
    · intro j c hj hj' hc
      by_cases e : j = s.k - 1
      · subst e; rw [eS c hc]; exact hS c hc
      · rw [eS' j c e]; exact h.S j c (by omega) hj' hc
  · refine weight_dec _ n (s.k - 1) _ _ (by omega) ?_ ?_ fun j _ => rest_lt _ _ _
    · unfold rest
      rw [ek, if_neg (by omega), if_pos (by omega), hst, Nat.floor_one]
      unfold B; omega
    · intro j hj hj'
      unfold rest
      rw [ek, if_neg (by omega), if_neg (by omega), ot j (by omega)]

end

/-- More iterations than needed change nothing. -/
theorem loop_mono (o : SOps ℚ) (n m : ℕ) (L : Mat ℚ) (D ahat : Vec ℚ) (f : ℕ) (s t : Search ℚ)
    (h : searchLoop o n m L D ahat f s = some t) : ∀ g, f ≤ g → searchLoop o n m L D ahat g s = some t := by
  induction f generalizing s with
  | zero => cases h
  | succ f ih =>
    intro g hg
    obtain ⟨g, rfl⟩ : ∃ g', g = g' + 1 := ⟨g - 1, by omega⟩
    unfold searchLoop at h ⊢
    dsimp only at h ⊢
    split_ifs at h ⊢ with h1 h2 h3
    · exact ih _ h g (by omega)
    · exact ih _ h g (by omega)
    · exact h
    · exact ih _ h g (by omega)

/-- **C148.** The search ends in doubles, whatever the rounding to nearest does with ties. -/
theorem C148_search_ends {r : ℚ → ℚ} (hr : Nearest r) (n m : ℕ) (hn : 0 < n) (hn' : n ≤ 512) (L : Mat ℚ) (D ahat : Vec ℚ)
    (hD : ∀ j, j < n → 0 < D j ∧ D j ≤ 2 ^ 20) (hL : ∀ i j, j < i → i < n → |L i j| ≤ 1)
    (ha : ∀ j, j < n → |ahat j| ≤ 2 ^ 41) :
    ∃ c N, ∀ fuel, N ≤ fuel → search (dsops r) n m L D ahat fuel = some c := by
  have key : ∀ N (s : Search ℚ), Inv r n s → weight n s.k s.step < N →
      (searchLoop (dsops r) n m L D ahat N s).isSome := by
    intro N
    induction N with
    | zero => intro s _ h; omega
    | succ N ih =>
      intro s h hw
      have hkn := h.hk
      have hd := h.dist s.k le_rfl hkn
      unfold searchLoop
      dsimp only
      have enew : (dsops r).dist (s.dist s.k) s.left (D s.k) = r (s.dist s.k + r (r (s.left * s.left) / D s.k)) := rfl
      rw [enew]
      set d := r (s.dist s.k + r (r (s.left * s.left) / D s.k)) with hd'
      split_ifs with h1 h2 h3
      · have hp := near_of_pass hr hd (hD _ hkn).1 (hD _ hkn).2 h.chi (by
          rw [← h.left]; simpa [dsops] using h1)
        have hd0 : 0 ≤ d := dist_nonneg hr hd (hD _ hkn).1
        have := down_inv hr hn' hL ha h hd0 h2 hp
        exact ih _ this.1 (by omega)
      · have h1' : d < s.chi2 := by simpa [dsops] using h1
        have hp := near_of_pass hr hd (hD _ hkn).1 (hD _ hkn).2 h.chi (by rw [← h.left]; exact h1')
        rw [not_not] at h2
        have hs := store_inv m d (h1'.le.trans h.chi) h
        obtain ⟨e1, e2, e3, e4⟩ := store_same (r := r) (s := s) m d
        have := next_inv hr hs 0 (by rw [e1, h2]) hn (by rw [e3, e4, ← h2]; exact hp)
        rw [e1, e2] at this
        exact ih _ this.1 (by omega)
      · rfl
      · have hk1 : s.k + 1 < n := by omega
        have := next_inv hr h (s.k + 1) (by omega) hk1 (h.pass _ (by omega) hk1)
        exact ih _ this.1 (by omega)
  have hinit : Inv r n (searchInit (dsops r) n m ahat) := by
    have hz : ∀ j, n - 1 ≤ j → j < n → j = n - 1 := by omega
    refine ⟨by show n - 1 < n; omega, le_rfl, fun j => by show (0 : ℚ) ≤ 10 ^ 18; norm_num, ?_, ?_, ?_, ?_, ?_, ?_, ?_⟩
    · simp [searchInit, dsops, put]
    · intro j hj hj'
      rw [hz j hj hj']
      simp only [searchInit, put, if_true]
      exact (level_start r (ahat (n - 1)) ((dsops r).sub (ahat (n - 1)) ((dsops r).round (ahat (n - 1))))).1
    · intro j hj hj'
      rw [hz j hj hj']
      have := ha (n - 1) (by omega)
      simp only [searchInit, put, if_true]
      exact this.trans (by norm_num)
    · intro j _ _; exact le_rfl
    · intro j hj hj'
      rw [hz j hj hj']
      have := (level_start r 0 ((dsops r).sub (ahat (n - 1)) ((dsops r).round (ahat (n - 1))))).2
      simp only [searchInit, put, if_true]
      rw [this]; norm_num
    · intro j hj hj'
      have hj : n - 1 < j := hj
      omega
    · intro j c _ _ _
      show |(0 : ℚ)| ≤ _
      rw [abs_zero]; positivity
  have := key (weight n (searchInit (dsops r) n m ahat).k (searchInit (dsops r) n m ahat).step + 1) _ hinit (by omega)
  obtain ⟨t, ht⟩ := Option.isSome_iff_exists.1 this
  refine ⟨t.cands, weight n (searchInit (dsops r) n m ahat).k (searchInit (dsops r) n m ahat).step + 1, fun fuel hf => ?_⟩
  unfold search
  rw [loop_mono _ _ _ _ _ _ _ _ _ ht fuel hf]
  rfl

/-- Two correlated ambiguities, the second far off. -/
example : ∃ c N, ∀ fuel, N ≤ fuel → search (dsops Verif.FTime.rnd) 2 2 (fun i j => if i = j then 1 else 1 / 3)
    (fun i => if i = 0 then 1 / 100 else 40) (fun i => if i = 0 then 7 / 3 else 10 ^ 9) fuel = some c :=
  C148_search_ends rnd_nearest 2 2 (by norm_num) (by norm_num) _ _ _
    (fun j _ => by split <;> norm_num)
    (fun i j _ _ => by split <;> norm_num [abs_of_pos])
    (fun j _ => by split <;> norm_num [abs_of_pos])

/-! ### Without a limit on the ambiguities it need not end -/

/-- The states of the search of `C148_search_beyond`. -/
structure Stuck (r : ℚ → ℚ) (s : Search ℚ) : Prop where
  a1 : s.acond 1 = 2 ^ 120
  z1 : s.zcond 1 = 2 ^ 120
  t1 : |s.step 1| ≤ 2 ^ 54
  d1 : s.dist 1 = 0
  S1 : s.S 1 0 = 0
  chi : 0 < s.chi2
  norm : s.count = 0 ∨ 0 < s.norms 0
  imax : s.count = 0 → s.imax = 1
  here : (s.k = 1 ∧ s.left = 0) ∨ (s.k = 0 ∧ s.acond 0 = 1 / 4 ∧ (∃ z : Int, s.zcond 0 = z) ∧ (∃ t : Int, s.step 0 = t) ∧
    s.dist 0 = 0 ∧ s.left = r (1 / 4 - s.zcond 0))

theorem argmax_two (r : ℚ → ℚ) (v : Vec ℚ) : v 0 ≤ v (argmax (dsops r) v 2) := by
  simp only [argmax, dsops]
  norm_num
  split_ifs with h
  · exact h.le
  · exact le_rfl

/-- **C148.** With an ambiguity of `2^120` the search never ends: the steps on the upper level are lost in the rounding, so
that every round finds distance zero there and starts over on the lower level. -/
theorem C148_search_beyond {r : ℚ → ℚ} (hr : Nearest r) (L : Mat ℚ) (fuel : ℕ) :
    search (dsops r) 2 2 L (fun _ => 1) (fun i => if i = 0 then 1 / 4 else 2 ^ 120) fuel = none := by
  have F0 : F (0 : ℚ) := by have := F_int (n := 0) (by norm_num); simpa using this
  have r0 : r 0 = 0 := hr.exact F0
  have F14 : F (1 / 4 : ℚ) := ⟨1, -2, by norm_num, by norm_num, by norm_num⟩
  have F16 : F (1 / 16 : ℚ) := ⟨1, -4, by norm_num, by norm_num, by norm_num⟩
  have r54 : r (2 ^ 54 + 1) = 2 ^ 54 := by
    have := hr.eq_of (m := 2 ^ 53) (e := 1) (by norm_num) le_rfl (by norm_num) (x := 2 ^ 54 + 1)
    have h : |((2 ^ 53 : Int) : ℚ) * 2 ^ (1 : Int) - (2 ^ 54 + 1)| = 1 := by norm_num
    have h1 := hr.near (2 ^ 54 + 1) (2 ^ 54) ⟨1, 54, by norm_num, by norm_num, by norm_num⟩
    by_contra hc
    obtain ⟨m, e, hm, he, hx⟩ := hr.mem (2 ^ 54 + 1)
    norm_num at h1
    have h2 := abs_le.1 h1
    have hgt : (2 : ℚ) ^ 54 < r (2 ^ 54 + 1) := lt_of_le_of_ne (by norm_num at h2 ⊢; linarith [h2.1]) (Ne.symm hc)
    exact gap (m := 2 ^ 52) (e := 2) le_rfl (hr.mem (2 ^ 54 + 1)) (by norm_num at hgt ⊢; linarith)
      (by norm_num at h2 ⊢; linarith [h2.2])
  have r54' : r (-(2 ^ 54 + 1)) = -2 ^ 54 := by
    have h1 := hr.near (-(2 ^ 54 + 1)) (-2 ^ 54) ⟨-1, 54, by norm_num, by norm_num, by norm_num⟩
    by_contra hc
    norm_num at h1
    have h2 := abs_le.1 h1
    have hlt : r (-(2 ^ 54 + 1)) < -(2 : ℚ) ^ 54 := lt_of_le_of_ne (by norm_num at h2 ⊢; linarith [h2.2]) hc
    exact gap (m := 2 ^ 52) (e := 2) le_rfl (F_neg (hr.mem (-(2 ^ 54 + 1)))) (by norm_num at hlt ⊢; linarith)
      (by norm_num at h2 ⊢; linarith [h2.1])
  have rz : ∀ t : ℚ, |t| ≤ 2 ^ 54 → r (2 ^ 120 + t) = 2 ^ 120 := by
    intro t ht
    have := hr.eq_of (m := 2 ^ 53) (e := 67) (by norm_num) le_rfl (by norm_num) (x := 2 ^ 120 + t) (by
      rw [show (((2 ^ 53 : Int) : ℚ) * 2 ^ (67 : Int) - (2 ^ 120 + t)) = -t by norm_num, abs_neg]
      exact lt_of_le_of_lt ht (by norm_num))
    rw [this]; norm_num
  have rt : ∀ t : ℚ, |t| ≤ 2 ^ 54 → |r (-t - qsign t)| ≤ 2 ^ 54 := by
    intro t ht
    have h := abs_le.1 ht
    have hq : qsign t = 1 ∨ qsign t = -1 := by unfold qsign; split; exacts [Or.inl rfl, Or.inr rfl]
    rw [abs_le, ← r54', ← r54]
    constructor <;> refine hr.mono ?_ <;> rcases hq with e | e <;> rw [e] <;> linarith [h.1, h.2]
  have hpos : ∀ z : Int, 0 < r (0 + r (r (r (1 / 4 - z) * r (1 / 4 - z)) / 1)) := by
    intro z
    have h1 : (1 : ℚ) / 4 ≤ |r (1 / 4 - z)| := by
      rcases le_or_gt z 0 with h | h
      · have : (z : ℚ) ≤ 0 := by exact_mod_cast h
        exact (hr.ge_of_ge F14 (by linarith)).trans (le_abs_self _)
      · have : (1 : ℚ) ≤ z := by exact_mod_cast h
        have := hr.le_of_le (F_neg F14) (x := 1 / 4 - z) (by linarith)
        exact (by linarith : (1 : ℚ) / 4 ≤ -r (1 / 4 - z)).trans (neg_le_abs _)
    have h2 : (1 : ℚ) / 16 ≤ r (1 / 4 - z) * r (1 / 4 - z) := by
      rw [← abs_mul_abs_self (r (1 / 4 - z))]; nlinarith
    have h3 := hr.ge_of_ge F16 h2
    rw [div_one, zero_add]
    have := hr.ge_of_ge F16 (hr.ge_of_ge F16 h3)
    linarith
  have key : ∀ fuel (s : Search ℚ), Stuck r s →
      searchLoop (dsops r) 2 2 L (fun _ => 1) (fun i => if i = 0 then 1 / 4 else 2 ^ 120) fuel s = none := by
    intro fuel
    induction fuel with
    | zero => intro s _; rfl
    | succ fuel ih =>
      intro s h
      have up : ∀ s : Search ℚ, Stuck r s → Stuck r (nextInt (dsops r) 1 s) := by
        intro s h
        refine ⟨h.a1, ?_, ?_, h.d1, h.S1, h.chi, h.norm, h.imax, Or.inl ⟨rfl, ?_⟩⟩
        · simp [nextInt, dsops, put, h.z1, rz _ h.t1]
        · simpa [nextInt, dsops, put] using rt _ h.t1
        · simp [nextInt, dsops, h.z1, rz _ h.t1, h.a1, r0]
      unfold searchLoop
      dsimp only
      rcases h.here with ⟨hk, hl⟩ | ⟨hk, ha, ⟨z, hz⟩, ⟨t, ht⟩, hd, hl⟩
      · have e : (dsops r).dist (s.dist s.k) s.left 1 = 0 := by simp [dsops, hk, h.d1, hl, r0]
        rw [e, if_pos (by simpa [dsops] using h.chi), if_pos (by omega)]
        refine ih _ ?_
        have eS : r (s.S 1 0 + r (r (s.zcond 1 - s.acond 1) * L 1 0)) = 0 := by rw [h.S1, h.z1, h.a1]; simp [r0]
        have ea : r (4⁻¹ : ℚ) = 4⁻¹ := hr.exact (by simpa using F14)
        refine ⟨by simp [goDown, put, hk, h.a1], by simp [goDown, put, hk, h.z1], by simpa [goDown, put, hk] using h.t1,
          by simp [goDown, put, hk, h.d1], by simp [goDown, hk, h.S1], h.chi, h.norm, h.imax, Or.inr ⟨by simp [goDown, hk], ?_, ?_, ?_,
          by simp [goDown, put, hk], ?_⟩⟩
        · simp [goDown, dsops, put, hk] at eS ⊢; rw [eS]; simp [ea]
        · simp only [goDown, dsops, put, hk]; exact qround_int _
        · have eq : (goDown (dsops r) L (fun i => if i = 0 then 1 / 4 else 2 ^ 120) 0 s).step 0 = firstStep (dsops r)
              (goDown (dsops r) L (fun i => if i = 0 then 1 / 4 else 2 ^ 120) 0 s).left := by simp [goDown, put, hk]
          rcases firstStep_cases r (goDown (dsops r) L (fun i => if i = 0 then 1 / 4 else 2 ^ 120) 0 s).left with q | q
          · exact ⟨1, by rw [eq, q]; norm_num⟩
          · exact ⟨-1, by rw [eq, q]; norm_num⟩
        · simp [goDown, dsops, put, hk] at eS ⊢; rw [eS]; simp [ea]
      · have e : (dsops r).dist (s.dist s.k) s.left 1 = r (0 + r (r (r (1 / 4 - z) * r (1 / 4 - z)) / 1)) := by
          simp [dsops, hk, hd, hl, hz]
        have hp := hpos z
        rw [e]
        generalize r (0 + r (r (r (1 / 4 - z) * r (1 / 4 - z)) / 1)) = d at hp
        split_ifs with c1 c2 c3
        · exact absurd hk c2
        · refine ih _ ?_
          have hs : Stuck r (store (dsops r) 2 d s) := by
            unfold store
            split
            · rename_i hc
              have hc0 : s.count = 0 := by omega
              exact ⟨h.a1, h.z1, h.t1, h.d1, h.S1, h.chi, Or.inr (by simpa [put, hc0] using hp), fun q => absurd q (by simp), h.here⟩
            · rename_i hc
              have hc0 : s.count ≠ 0 := by omega
              have hn : 0 < put s.norms s.imax d 0 := by
                unfold put; split; exacts [hp, h.norm.resolve_left hc0]
              exact ⟨h.a1, h.z1, h.t1, h.d1, h.S1, lt_of_lt_of_le hn (argmax_two r _), Or.inr hn, fun q => absurd q hc0, h.here⟩
          obtain ⟨e1, e2, e3, e4⟩ := store_same (r := r) (s := s) 2 d
          generalize store (dsops r) 2 d s = s2 at hs e1 e2 e3 e4
          refine ⟨hs.a1, by simpa [nextInt, put] using hs.z1, by simpa [nextInt, put] using hs.t1, hs.d1, hs.S1, hs.chi, hs.norm,
            hs.imax, Or.inr ⟨rfl, by rw [← e3] at ha; exact ha, ?_, ?_, ?_, ?_⟩⟩
          · simp only [nextInt, dsops, put, if_true, e4, e2, hz, ht]
            have := r_int hr (z + t); push_cast at this; exact this
          · simp only [nextInt, dsops, put, if_true, e2, ht]
            have : ∃ k : Int, -(t : ℚ) - qsign t = k := by
              unfold qsign; split
              · exact ⟨-t - 1, by push_cast; ring⟩
              · exact ⟨-t + 1, by push_cast; ring⟩
            obtain ⟨k, hk⟩ := this
            rw [hk]; exact r_int hr k
          · rcases hs.here with ⟨q, -⟩ | ⟨-, -, -, -, q, -⟩
            · rw [e1, hk] at q; omega
            · exact q
          · have : s2.acond 0 = 1 / 4 := by rw [e3]; exact ha
            simp [nextInt, dsops, put, this]
        · omega
        · rw [hk]; exact ih _ (up s h)
  unfold search
  rw [key fuel]
  · rfl
  · have h1 : qround (2 ^ 120) = 2 ^ 120 := by
      have := qround_near (x := 2 ^ 120) (k := 2 ^ 120) (by norm_num)
      rw [this]; norm_num
    refine ⟨by simp [searchInit, put], by simpa [searchInit, put, dsops] using h1, ?_, rfl, rfl, by
      show (0 : ℚ) < 10 ^ 18; norm_num, Or.inl rfl, fun _ => rfl, Or.inl ⟨rfl, ?_⟩⟩
    · rcases firstStep_cases r (searchInit (dsops r) 2 2 (fun i => if i = 0 then 1 / 4 else 2 ^ 120)).left with q | q
      · have : (searchInit (dsops r) 2 2 (fun i => if i = 0 then 1 / 4 else 2 ^ 120)).step 1 = 1 := by
          rw [← q]; simp [searchInit, put]
        rw [this]; norm_num
      · have : (searchInit (dsops r) 2 2 (fun i => if i = 0 then 1 / 4 else 2 ^ 120)).step 1 = -1 := by
          rw [← q]; simp [searchInit, put]
        rw [this]; norm_num
    · simp [searchInit, dsops, h1, r0]

/-! ### The decorrelation gives small factors and no larger variances -/

theorem F_qround {x : ℚ} (h : F x) : F (qround x) := by
  obtain ⟨z, hz, hn⟩ := qround_half x
  rcases le_or_gt |x| (2 ^ 52) with hx | hx
  · rw [hz]
    refine F_int ?_
    have : ((|z| : Int) : ℚ) ≤ ((2 ^ 53 : Int) : ℚ) := by
      push_cast
      have := abs_sub_abs_le_abs_sub (z : ℚ) x
      rw [abs_sub_comm] at this
      norm_num at hx ⊢; linarith
    exact_mod_cast this
  · obtain ⟨m, e, hm, -, rfl⟩ := id h
    have he : 0 ≤ e := by
      by_contra hc
      have h1 : (2 : ℚ) ^ e ≤ 2 ^ (-1 : Int) := zpow_le_zpow_right₀ (by norm_num) (by omega)
      have h2 : |(m : ℚ)| ≤ 2 ^ 53 := by exact_mod_cast hm.le
      rw [abs_mul, abs_of_pos (two_zpow_pos e)] at hx
      have : |(m : ℚ)| * 2 ^ e ≤ 2 ^ 53 * 2 ^ (-1 : Int) := mul_le_mul h2 h1 (two_zpow_pos e).le (by norm_num)
      norm_num at this hx; linarith
    obtain ⟨q, rfl⟩ := Int.eq_ofNat_of_zero_le he
    have e1 : (m : ℚ) * 2 ^ ((q : ℕ) : Int) = ((m * 2 ^ q : Int) : ℚ) := by push_cast; rw [zpow_natCast]
    rw [e1, qround_near (k := m * 2 ^ q) (by norm_num), ← e1]
    exact h

/-- What holds throughout the decorrelation: doubles, ones on the diagonal, variances up to `M`. -/
structure Sound (N : ℕ) (M : ℚ) (s : Red ℚ ℚ) : Prop where
  L : ∀ i j, i < N → j < N → F (s.L i j)
  diag : ∀ i, i < N → s.L i i = 1
  D : ∀ i, i < N → F (s.D i) ∧ 0 ≤ s.D i ∧ s.D i ≤ M

section
variable {r : ℚ → ℚ} (hr : Nearest r) {N : ℕ} {M : ℚ}

include hr in
theorem gauss_sound {s : Red ℚ ℚ} (h : Sound N M s) (i j : ℕ) (hj : j < i) :
    Sound N M (gauss (dops r) i j s) := by
  unfold gauss
  dsimp only
  split
  · refine ⟨fun a b ha hb => ?_, fun a ha => ?_, h.D⟩
    · dsimp only
      split
      · exact hr.mem _
      · exact h.L a b ha hb
    · dsimp only
      rw [if_neg (by omega)]
      exact h.diag a ha
  · exact h

include hr in
theorem gauss_small {s : Red ℚ ℚ} (h : Sound N M s) (i j : ℕ) (hj : j < i) (hi : i < N) :
    |(gauss (dops r) i j s).L i j| ≤ 1 / 2 ∧ ∀ a, a < i → (gauss (dops r) i j s).L a j = s.L a j := by
  have F2 : F (1 / 2 : ℚ) := ⟨1, -1, by norm_num, by norm_num, by norm_num⟩
  have hF := h.L i j hi (by omega)
  unfold gauss
  dsimp only
  split
  · refine ⟨?_, fun a ha => ?_⟩
    · dsimp only
      rw [if_pos ⟨rfl, le_rfl⟩, h.diag i hi]
      show |r (s.L i j - r (qround (s.L i j) * 1))| ≤ 1 / 2
      rw [mul_one, hr.exact (F_qround hF)]
      obtain ⟨z, hz, hn⟩ := qround_half (s.L i j)
      rw [hz]
      have := abs_le.1 hn
      exact abs_le.2 ⟨hr.ge_of_ge (F_neg F2) this.1, hr.le_of_le F2 this.2⟩
    · dsimp only
      rw [if_neg (by omega)]
  · rename_i h0
    refine ⟨?_, fun a _ => rfl⟩
    have h0 : qround (s.L i j) = 0 := by simpa [dops] using h0
    obtain ⟨z, hz, hn⟩ := qround_half (s.L i j)
    rw [← hz, h0, sub_zero] at hn
    exact hn

include hr in
theorem column_small {s : Red ℚ ℚ} (h : Sound N M s) (k : ℕ) :
    Sound N M (gaussColumn (dops r) N k s) ∧ ∀ a, k < a → a < N → |(gaussColumn (dops r) N k s).L a k| ≤ 1 / 2 := by
  unfold gaussColumn
  have key : ∀ m, m ≤ N - (k + 1) →
      Sound N M ((List.range m).foldl (fun s i => gauss (dops r) (k + 1 + i) k s) s) ∧
      ∀ a, k < a → a < k + 1 + m → |((List.range m).foldl (fun s i => gauss (dops r) (k + 1 + i) k s) s).L a k| ≤ 1 / 2 := by
    intro m
    induction m with
    | zero => intro _; exact ⟨h, fun a h1 h2 => by omega⟩
    | succ m ih =>
      intro hm
      obtain ⟨h1, h2⟩ := ih (by omega)
      rw [List.range_succ, List.foldl_append, List.foldl_cons, List.foldl_nil]
      refine ⟨gauss_sound hr h1 _ _ (by omega), fun a ha ha' => ?_⟩
      obtain ⟨g1, g2⟩ := gauss_small hr h1 (k + 1 + m) k (by omega) (by omega)
      rcases Nat.lt_or_ge a (k + 1 + m) with q | q
      · rw [g2 a q]; exact h2 a ha q
      · rw [show a = k + 1 + m by omega]; exact g1
  obtain ⟨h1, h2⟩ := key _ le_rfl
  exact ⟨h1, fun a ha ha' => h2 a ha (by omega)⟩

include hr in
theorem permute_sound {s : Red ℚ ℚ} (h : Sound N M s) (k : ℕ) (hk : k + 1 < N)
    (hlt : deltaAt (dops r) k s < s.D (k + 1)) : Sound N M (permute (dops r) k (deltaAt (dops r) k s) s) := by
  have F0 : F (0 : ℚ) := by have := F_int (n := 0) (by norm_num); simpa using this
  have F1 : F (1 : ℚ) := by have := F_int (n := 1) (by norm_num); simpa using this
  obtain ⟨d1, d2, d3⟩ := h.D k (by omega)
  obtain ⟨e1, e2, e3⟩ := h.D (k + 1) hk
  have n1 : 0 ≤ r (r (s.L (k + 1) k * s.L (k + 1) k) * s.D (k + 1)) :=
    hr.ge_of_ge F0 (mul_nonneg (hr.ge_of_ge F0 (mul_self_nonneg _)) e2)
  have hde : s.D k ≤ deltaAt (dops r) k s := hr.ge_of_ge d1 (by linarith)
  have hd0 : 0 ≤ deltaAt (dops r) k s := d2.trans hde
  refine ⟨fun i j hi hj => ?_, fun i hi => ?_, fun i hi => ?_⟩
  · unfold permute
    dsimp only
    split_ifs
    · exact hr.mem _
    · exact hr.mem _
    · exact hr.mem _
    · exact h.L i (k + 1) hi hk
    · exact h.L i k hi (by omega)
    · exact h.L i j hi hj
  · unfold permute
    dsimp only
    rw [if_neg (by omega), if_neg (by omega), if_neg (by omega), if_neg (by omega), if_neg (by omega)]
    exact h.diag i hi
  · unfold permute put
    dsimp only
    split_ifs
    · exact ⟨hr.mem _, hd0, hlt.le.trans e3⟩
    · have hq : s.D k / deltaAt (dops r) k s ≤ 1 := div_le_one_of_le₀ hde hd0
      have q1 : 0 ≤ r (s.D k / deltaAt (dops r) k s) := hr.ge_of_ge F0 (div_nonneg d2 hd0)
      have q2 : r (s.D k / deltaAt (dops r) k s) ≤ 1 := hr.le_of_le F1 hq
      refine ⟨hr.mem _, hr.ge_of_ge F0 (mul_nonneg q1 e2), le_trans (hr.le_of_le e1 ?_) e3⟩
      exact mul_le_of_le_one_left e2 q2
    · exact h.D i hi

include hr in
theorem sweep_small (k1 n : ℕ) (hn : n < N) (s : Red ℚ ℚ) (h : Sound N M s)
    (hc : ∀ c a, n ≤ c ∨ k1 < c → c < a → a < N → |s.L a c| ≤ 1 / 2) (o : Option ℕ) (t : Red ℚ ℚ)
    (e : sweep (dops r) N k1 n s = (o, t)) : Sound N M t ∧
      ∀ c a, (∀ k, o = some k → k < c) → c < a → a < N → |t.L a c| ≤ 1 / 2 := by
  induction n generalizing s with
  | zero =>
    simp only [sweep, Prod.mk.injEq] at e
    obtain ⟨rfl, rfl⟩ := e
    exact ⟨h, fun c a _ => hc c a (Or.inl (Nat.zero_le _))⟩
  | succ k ih =>
    unfold sweep at e
    have h' : Sound N M (if k ≤ k1 then gaussColumn (dops r) N k s else s) := by
      split
      · exact (column_small hr h k).1
      · exact h
    have hc' : ∀ c a, k ≤ c ∨ k1 < c → c < a → a < N →
        |(if k ≤ k1 then gaussColumn (dops r) N k s else s).L a c| ≤ 1 / 2 := by
      intro c a h1 h2 h3
      split
      · by_cases q : c = k
        · subst q; exact (column_small hr h c).2 a h2 h3
        · rw [column_L _ _ _ _ _ _ q]; exact hc c a (by omega) h2 h3
      · exact hc c a (by omega) h2 h3
    generalize (if k ≤ k1 then gaussColumn (dops r) N k s else s) = u at e h' hc'
    dsimp only at e
    split at e
    · rename_i hlt
      simp only [Prod.mk.injEq] at e
      obtain ⟨rfl, rfl⟩ := e
      have hlt : deltaAt (dops r) k u < u.D (k + 1) := by simpa [dops] using hlt
      refine ⟨permute_sound hr h' k hn hlt, fun c a hk h2 h3 => ?_⟩
      have hk := hk k rfl
      unfold permute
      dsimp only
      rw [if_neg (by omega), if_neg (by omega), if_neg (by omega), if_neg (by omega)]
      split
      · rename_i q; exact hc' k a (Or.inl le_rfl) (by omega) h3
      · exact hc' c a (Or.inl (by omega)) h2 h3
    · exact ih (by omega) u h' hc' e

include hr in
/-- **C148.** In doubles the decorrelation leaves factors of at most one half and makes no variance larger than the largest
of them was. -/
theorem C148_factors (hN : 0 < N) (fuel : ℕ) (s t : Red ℚ ℚ) (h : Sound N M s)
    (e : reduceLoop (dops r) N fuel (N - 2) s = some t) :
    (∀ c a, c < a → a < N → |t.L a c| ≤ 1 / 2) ∧ ∀ i, i < N → 0 ≤ t.D i ∧ t.D i ≤ M := by
  have key : ∀ fuel k1 s, Sound N M s → (∀ c a, k1 < c → c < a → a < N → |s.L a c| ≤ 1 / 2) →
      reduceLoop (dops r) N fuel k1 s = some t → Sound N M t ∧ ∀ c a, c < a → a < N → |t.L a c| ≤ 1 / 2 := by
    intro fuel
    induction fuel with
    | zero => intro k1 s _ _ e; cases e
    | succ f ih =>
      intro k1 s h hc e
      unfold reduceLoop at e
      have hs := sweep_small hr k1 (N - 1) (by omega) s h fun c a h1 h2 h3 => hc c a (by omega) h2 h3
      rcases hw : sweep (dops r) N k1 (N - 1) s with ⟨_ | k, u⟩
      · obtain ⟨h1, h2⟩ := hs _ _ hw
        rw [hw] at e
        simp only [Option.some.injEq] at e
        subst e
        exact ⟨h1, fun c a => h2 c a fun k q => by cases q⟩
      · obtain ⟨h1, h2⟩ := hs _ _ hw
        rw [hw] at e
        exact ih k u h1 (fun c a q => h2 c a fun k' q' => by simp only [Option.some.injEq] at q'; omega) e
  obtain ⟨h1, h2⟩ := key fuel (N - 2) s h (fun c a _ _ _ => by omega) e
  exact ⟨h2, fun i hi => (h1.D i hi).2⟩

include hr in
/-- **C148.** Decorrelation and search together end in doubles, for factors with ones on the diagonal and variances up to
`2^20`, unless a variance has vanished or an ambiguity has exceeded `2^41` in between. -/
theorem C148_lambda_ends (m : ℕ) (hN : 0 < N) (hN' : N ≤ 512) (s : Red ℚ ℚ) (h : Sound N (2 ^ 20) s)
    (hD : ∀ i, F (s.D i) ∧ 0 ≤ s.D i) :
    ∃ fuel t, reduceLoop (dops r) N fuel (N - 2) s = some t ∧
      ((∀ j, j < N → t.D j ≠ 0 ∧ |t.a j| ≤ 2 ^ 41) →
        ∃ c K, ∀ f, K ≤ f → search (dsops r) N m t.L t.D t.a f = some c) := by
  obtain ⟨fuel, t, e⟩ := Verif.Props.FloatLambda.C148_terminates_doubles hr N (N - 2) s hD
  obtain ⟨h1, h2⟩ := C148_factors hr hN fuel s t h e
  refine ⟨fuel, t, e, fun hj => ?_⟩
  exact C148_search_ends hr N m hN hN' t.L t.D t.a
    (fun j q => ⟨lt_of_le_of_ne (h2 j q).1 (Ne.symm (hj j q).1), (h2 j q).2⟩)
    (fun i j q q' => (h1 j i q q').trans (by norm_num)) (fun j q => (hj j q).2)

end

/-- Three ambiguities, strongly correlated. -/
example : Sound 3 (2 ^ 20) ⟨fun i j => if i = j then 1 else 5.5, fun i => if i = 0 then 1 / 1024 else 90, fun _ => 1 / 4,
    fun i j => if i = j then 1 else 0⟩ := by
  refine ⟨fun i j _ _ => ?_, fun i _ => by simp, fun i _ => ?_⟩
  · dsimp only; split
    · exact ⟨1, 0, by norm_num, by norm_num, by norm_num⟩
    · exact ⟨11, -1, by norm_num, by norm_num, by norm_num⟩
  · dsimp only; split
    · exact ⟨⟨1, -10, by norm_num, by norm_num, by norm_num⟩, by norm_num, by norm_num⟩
    · exact ⟨⟨90, 0, by norm_num, by norm_num, by norm_num⟩, by norm_num, by norm_num⟩

end Verif.Props.FloatSearch
