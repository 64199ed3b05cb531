import Verif.Lemmas.Reduction
import Mathlib.Algebra.Order.Archimedean.Basic
/-! # Lemmas about the integer least squares search -/
namespace Verif.Lambda
open Finset

variable {K : Type} [Field K] [LinearOrder K] [IsStrictOrderedRing K] [FloorRing K]

/-! ### The zigzag order of the integers around a number -/

/-- 0, 1, -1, 2, -2, ... -/
def cz (t : Nat) : Int := if t % 2 = 1 then (t + 1) / 2 else -(t / 2)

def sgn (a : K) : K := sign (a - round a)

/-- The `t`-th integer visited around `a`. -/
def zig (a : K) (t : Nat) : K := round a + sgn a * (cz t : K)

/-- The step to the next one. -/
def zstep (a : K) (t : Nat) : K := sgn a * ((cz (t + 1) - cz t : Int) : K)

theorem sgn_cases (a : K) : sgn a = 1 ∨ sgn a = -1 := by
  unfold sgn sign; split <;> simp

theorem sgn_mul_abs (a : K) : a - round a = sgn a * |a - round a| := by
  unfold sgn sign
  split
  · rename_i h; rw [abs_of_nonneg h]; ring
  · rename_i h; rw [abs_of_neg (not_le.1 h)]; ring

theorem cz_diff (t : Nat) : cz (t + 1) - cz t = if t % 2 = 0 then (t : Int) + 1 else -((t : Int) + 1) := by
  unfold cz
  rcases Nat.mod_two_eq_zero_or_one t with h | h
  · have h1 : (t + 1) % 2 = 1 := by omega
    have h0 : ¬ t % 2 = 1 := by omega
    rw [if_pos h1, if_neg h0, if_pos h]; push_cast; omega
  · have h1 : ¬ (t + 1) % 2 = 1 := by omega
    have h0 : ¬ t % 2 = 0 := by omega
    rw [if_neg h1, if_pos h, if_neg h0]; push_cast; omega

theorem cz_inj {s t : Nat} (h : cz s = cz t) : s = t := by
  unfold cz at h; split_ifs at h <;> omega

theorem cz_surj (z : Int) : ∃ t, cz t = z := by
  rcases lt_or_ge 0 z with h | h
  · refine ⟨(2 * z - 1).toNat, ?_⟩
    unfold cz; rw [if_pos (by omega)]; omega
  · refine ⟨(-2 * z).toNat, ?_⟩
    unfold cz; rw [if_neg (by omega)]; omega

theorem zig_zero (a : K) : zig a 0 = round a := by
  unfold zig cz; simp

theorem zstep_zero (a : K) : zstep a 0 = sgn a := by
  unfold zstep; rw [cz_diff]; simp

theorem zig_succ (a : K) (t : Nat) : zig a (t + 1) = zig a t + zstep a t := by
  unfold zig zstep; push_cast; ring

theorem zstep_succ (a : K) (t : Nat) : zstep a (t + 1) = -zstep a t - sign (zstep a t) := by
  have ht : (0 : K) < (t : K) + 1 := by positivity
  unfold zstep
  rw [cz_diff, cz_diff]
  rcases Nat.mod_two_eq_zero_or_one t with h | h
  · have h1 : ¬ (t + 1) % 2 = 0 := by omega
    rw [if_pos h, if_neg h1]; push_cast
    rcases sgn_cases a with e | e <;> rw [e] <;> unfold sign
    · rw [if_pos (by linarith)]; ring
    · rw [if_neg (by linarith)]; ring
  · have h1 : (t + 1) % 2 = 0 := by omega
    have h0 : ¬ t % 2 = 0 := by omega
    rw [if_neg h0, if_pos h1]; push_cast
    rcases sgn_cases a with e | e <;> rw [e] <;> unfold sign
    · rw [if_neg (by linarith)]; ring
    · rw [if_pos (by linarith)]; ring

theorem zig_surj (a : K) (z : Int) : ∃ t, (z : K) = zig a t := by
  unfold zig
  rcases sgn_cases a with e | e
  · obtain ⟨t, ht⟩ := cz_surj (z - roundZ a)
    exact ⟨t, by rw [ht, e, round_eq]; push_cast; ring⟩
  · obtain ⟨t, ht⟩ := cz_surj (roundZ a - z)
    exact ⟨t, by rw [ht, e, round_eq]; push_cast; ring⟩

theorem zig_inj {a : K} {s t : Nat} (h : zig a s = zig a t) : s = t := by
  unfold zig at h
  have : (cz s : K) = (cz t : K) := by
    rcases sgn_cases a with e | e <;> rw [e] at h <;> linarith
  exact cz_inj (by exact_mod_cast this)

theorem zig_int (a : K) (t : Nat) : ∃ z : Int, zig a t = (z : K) := by
  unfold zig
  rcases sgn_cases a with e | e
  · exact ⟨roundZ a + cz t, by rw [e, round_eq]; push_cast; ring⟩
  · exact ⟨roundZ a - cz t, by rw [e, round_eq]; push_cast; ring⟩

theorem abs_zig (a : K) (t : Nat) : |a - zig a t| = |(|a - round a|) - (cz t : K)| := by
  have : a - zig a t = sgn a * (|a - round a| - (cz t : K)) := by
    unfold zig
    have := sgn_mul_abs a
    calc a - (round a + sgn a * (cz t : K)) = (a - round a) - sgn a * (cz t : K) := by ring
      _ = sgn a * |a - round a| - sgn a * (cz t : K) := by rw [← this]
      _ = _ := by ring
  rw [this, abs_mul]
  rcases sgn_cases a with e | e <;> rw [e] <;> simp

/-- The distance of the `t`-th integer. -/
theorem abs_zig_eq (a : K) (t : Nat) : |a - zig a t| =
    if t % 2 = 1 then ((t : K) + 1) / 2 - |a - round a| else (t : K) / 2 + |a - round a| := by
  rw [abs_zig]
  have h1 := abs_sub_round a
  have h0 := abs_nonneg (a - round a)
  generalize |a - round a| = d at *
  unfold cz
  split_ifs with h
  · have e : (((t : Int) + 1) / 2 : Int) = ((t + 1) / 2 : Nat) := by push_cast; rfl
    obtain ⟨u, hu⟩ : ∃ u, t = 2 * u + 1 := ⟨t / 2, by omega⟩
    have e2 : (((t : Int) + 1) / 2 : Int) = (u : Int) + 1 := by omega
    rw [e2, hu]; push_cast
    rw [abs_of_nonpos (by have : (0 : K) ≤ u := Nat.cast_nonneg u; linarith)]; ring
  · obtain ⟨u, hu⟩ : ∃ u, t = 2 * u := ⟨t / 2, by omega⟩
    have e2 : (-((t : Int) / 2) : Int) = -(u : Int) := by omega
    rw [e2, hu]; push_cast
    have : (0 : K) ≤ u := Nat.cast_nonneg u
    rw [abs_of_nonneg (by linarith)]; ring

theorem abs_zig_mono_succ (a : K) (t : Nat) : |a - zig a t| ≤ |a - zig a (t + 1)| := by
  rw [abs_zig_eq, abs_zig_eq]
  have h1 := abs_sub_round a
  have h0 := abs_nonneg (a - round a)
  rcases Nat.mod_two_eq_zero_or_one t with h | h
  · rw [if_neg (by omega), if_pos (by omega)]; push_cast; linarith
  · rw [if_pos h, if_neg (by omega)]; push_cast; linarith

theorem abs_zig_mono (a : K) {s t : Nat} (h : s ≤ t) : |a - zig a s| ≤ |a - zig a t| := by
  induction h with
  | refl => exact le_rfl
  | step _ ih => exact ih.trans (abs_zig_mono_succ a _)

theorem half_le_abs_zig (a : K) (t : Nat) : (t : K) / 2 ≤ |a - zig a t| := by
  rw [abs_zig_eq]
  have h1 := abs_sub_round a
  have h0 := abs_nonneg (a - round a)
  split_ifs <;> linarith

theorem zig_sq_mono (a : K) {s t : Nat} (h : s ≤ t) :
    (a - zig a s) * (a - zig a s) ≤ (a - zig a t) * (a - zig a t) := by
  rw [← abs_mul_abs_self, ← abs_mul_abs_self (a - zig a t)]
  exact mul_self_le_mul_self (abs_nonneg _) (abs_zig_mono a h)

/-! ### Conditional estimates and distances -/

/-- The estimate of level `j` once the integers above it are fixed. -/
def cond (n : Nat) (a : Vec K) (L : Mat K) (z : Nat → Int) (j : Nat) : K :=
  a j + ∑ i ∈ (Ico (j + 1) n).attach, ((z i.1 : K) - cond n a L z i.1) * L i.1 j
termination_by n - j
decreasing_by
  have := mem_Ico.1 i.2
  omega

theorem cond_eq (n : Nat) (a : Vec K) (L : Mat K) (z : Nat → Int) (j : Nat) :
    cond n a L z j = a j + ∑ i ∈ Ico (j + 1) n, ((z i : K) - cond n a L z i) * L i j := by
  rw [cond]
  congr 1
  exact sum_attach (Ico (j + 1) n) fun i => ((z i : K) - cond n a L z i) * L i j

theorem cond_congr (n : Nat) (a : Vec K) (L : Mat K) (z z' : Nat → Int) : ∀ (m j : Nat), n - j ≤ m →
    (∀ i, j < i → i < n → z i = z' i) → cond n a L z j = cond n a L z' j := by
  intro m
  induction m with
  | zero =>
    intro j hj _
    rw [cond_eq, cond_eq, Ico_eq_empty (by omega)]; rfl
  | succ m ih =>
    intro j hj h
    rw [cond_eq, cond_eq]
    congr 1
    apply sum_congr rfl
    intro i hi
    have hi := mem_Ico.1 hi
    rw [h i (by omega) hi.2, ih i (by omega) fun i' h1 h2 => h i' (by omega) h2]

/-- The squared distance the search minimises. -/
def fdist (n : Nat) (a : Vec K) (L : Mat K) (D : Vec K) (z : Nat → Int) : K :=
  ∑ j ∈ range n, (cond n a L z j - z j) * (cond n a L z j - z j) / D j

/-- The part of it above level `k`. -/
def above (n : Nat) (a : Vec K) (L : Mat K) (D : Vec K) (z : Nat → Int) (k : Nat) : K :=
  ∑ j ∈ Ico (k + 1) n, (cond n a L z j - z j) * (cond n a L z j - z j) / D j

theorem above_pred (n : Nat) (a : Vec K) (L : Mat K) (D : Vec K) (z : Nat → Int) {k : Nat} (hk : k + 1 < n) :
    above n a L D z k = above n a L D z (k + 1) +
      (cond n a L z (k + 1) - z (k + 1)) * (cond n a L z (k + 1) - z (k + 1)) / D (k + 1) := by
  unfold above
  rw [sum_eq_sum_Ico_succ_bot (by omega : k + 1 < n), add_comm]

theorem fdist_zero (n : Nat) (a : Vec K) (L : Mat K) (D : Vec K) (z : Nat → Int) (hn : 0 < n) :
    fdist n a L D z = above n a L D z 0 + (cond n a L z 0 - z 0) * (cond n a L z 0 - z 0) / D 0 := by
  unfold fdist above
  rw [range_eq_Ico, sum_eq_sum_Ico_succ_bot hn, add_comm]

theorem above_congr (n : Nat) (a : Vec K) (L : Mat K) (D : Vec K) (z z' : Nat → Int) (k : Nat)
    (h : ∀ i, k < i → i < n → z i = z' i) : above n a L D z k = above n a L D z' k := by
  unfold above
  apply sum_congr rfl
  intro j hj
  have hj := mem_Ico.1 hj
  rw [h j (by omega) hj.2, cond_congr n a L z z' _ j le_rfl fun i h1 h2 => h i (by omega) h2]

theorem fdist_congr {n : Nat} {a : Vec K} {L : Mat K} {D : Vec K} {z z' : Nat → Int}
    (h : ∀ i < n, z i = z' i) : fdist n a L D z = fdist n a L D z' := by
  unfold fdist
  apply sum_congr rfl
  intro j hj
  have hj := mem_range.1 hj
  rw [h j hj, cond_congr n a L z z' _ j le_rfl fun i _ h2 => h i h2]

theorem le_fdist (n : Nat) (a : Vec K) (L : Mat K) (D : Vec K) (z : Nat → Int) (hd : ∀ i < n, 0 < D i)
    {k : Nat} (hk : k < n) :
    above n a L D z k + (cond n a L z k - z k) * (cond n a L z k - z k) / D k ≤ fdist n a L D z := by
  unfold above fdist
  rw [add_comm, ← sum_eq_sum_Ico_succ_bot hk
    (fun j => (cond n a L z j - z j) * (cond n a L z j - z j) / D j), range_eq_Ico]
  apply sum_le_sum_of_subset_of_nonneg
  · intro j hj; have := mem_Ico.1 hj; exact mem_Ico.2 ⟨by omega, this.2⟩
  · intro j hj _
    exact div_nonneg (mul_self_nonneg _) (hd j (mem_Ico.1 hj).2).le

/-! ### What has been visited -/

/-- The points the search has dealt with: those that differ from the current one first, from the top,
on a level where they come earlier in zigzag order. -/
def Before (n : Nat) (a : Vec K) (L : Mat K) (y : Nat → Int) (t : Nat → Nat) (k : Nat) (z : Nat → Int) : Prop :=
  ∃ j, k ≤ j ∧ j < n ∧ (∀ i, j < i → i < n → z i = y i) ∧
    ∃ s < t j, (z j : K) = zig (cond n a L y j) s

theorem Before.congr {n : Nat} {a : Vec K} {L : Mat K} {y : Nat → Int} {t : Nat → Nat} {k : Nat}
    {z z' : Nat → Int} (h : Before n a L y t k z) (he : ∀ i < n, z i = z' i) :
    Before n a L y t k z' := by
  obtain ⟨j, h1, h2, h3, s, h4, h5⟩ := h
  exact ⟨j, h1, h2, fun i hi hin => by rw [← he i hin]; exact h3 i hi hin, s, h4, by rw [← he j h2]; exact h5⟩

/-- The candidates stored so far. -/
structure CInv (n m : Nat) (a : Vec K) (L : Mat K) (D : Vec K) (B : (Nat → Int) → Prop) (s : Search K)
    (full : Bool) : Prop where
  pt : ∀ c < (if full then m else s.count), ∃ z : Nat → Int, B z ∧
    (∀ r < n, s.cands c r = (z r : K)) ∧ s.norms c = fdist n a L D z
  ne : ∀ c < (if full then m else s.count), ∀ c' < (if full then m else s.count), c ≠ c' →
    ∃ r < n, s.cands c r ≠ s.cands c' r
  filling : full = false → s.chi2 = 10 ^ 18 ∧ s.count < m ∧ s.imax = m - 1
  filled : full = true → s.count + 1 = m ∧ s.imax < m ∧ s.chi2 = s.norms s.imax ∧
    ∀ c < m, s.norms c ≤ s.chi2
  small : s.chi2 ≤ 10 ^ 18
  normle : ∀ c < (if full then m else s.count), s.norms c ≤ s.chi2
  cover : ∀ z : Nat → Int, B z → (∃ c < (if full then m else s.count), ∀ r < n, s.cands c r = (z r : K)) ∨
    s.chi2 ≤ fdist n a L D z

theorem CInv.mono {n m : Nat} {a : Vec K} {L : Mat K} {D : Vec K} {B B' : (Nat → Int) → Prop} {s : Search K}
    {full : Bool} (h : CInv n m a L D B s full) (h1 : ∀ z, B z → B' z)
    (h2 : ∀ z, B' z → B z ∨ s.chi2 ≤ fdist n a L D z) : CInv n m a L D B' s full where
  pt := fun c hc => by
    obtain ⟨z, hz, h3, h4⟩ := h.pt c hc
    exact ⟨z, h1 z hz, h3, h4⟩
  ne := h.ne
  filling := h.filling
  filled := h.filled
  small := h.small
  normle := h.normle
  cover := fun z hz => by
    rcases h2 z hz with h3 | h3
    · exact h.cover z h3
    · exact Or.inr h3

theorem argmax_spec (v : Vec K) : ∀ n, 0 < n → argmax v n < n ∧ ∀ c < n, v c ≤ v (argmax v n) := by
  intro n
  induction n with
  | zero => intro h; omega
  | succ n ih =>
    intro _
    unfold argmax
    by_cases h0 : n = 0
    · subst h0
      simp only [if_true]
      exact ⟨by omega, fun c hc => by have : c = 0 := by omega
                                      rw [this]⟩
    · rw [if_neg h0]
      obtain ⟨i1, i2⟩ := ih (by omega)
      split_ifs with h
      · refine ⟨by omega, fun c hc => ?_⟩
        rcases Nat.lt_succ_iff_lt_or_eq.1 hc with hc | hc
        · exact (i2 c hc).trans h.le
        · rw [hc]
      · refine ⟨by omega, fun c hc => ?_⟩
        rcases Nat.lt_succ_iff_lt_or_eq.1 hc with hc | hc
        · exact i2 c hc
        · rw [hc]; exact not_lt.1 h

theorem setV_same (v : Vec K) (i : Nat) (x : K) : setV v i x i = x := by simp [setV]
theorem setV_ne (v : Vec K) {i j : Nat} (x : K) (h : j ≠ i) : setV v i x j = v j := by simp [setV, h]

/-- Storing a new point. -/
theorem CInv.store {n m : Nat} {a : Vec K} {L : Mat K} {D : Vec K} {B B' : (Nat → Int) → Prop} {s : Search K}
    {full : Bool} (hm : 0 < m) (h : CInv n m a L D B s full) (y : Nat → Int) (hy : ∀ r < n, s.zcond r = (y r : K))
    (hB' : ∀ z, B' z ↔ B z ∨ ∀ r < n, z r = y r) (hnew : ∀ z, B z → ∃ r < n, z r ≠ y r)
    (newdist : K) (hd : newdist = fdist n a L D y)
    (hlt : newdist < s.chi2) :
    ∃ full', CInv n m a L D B' (Lambda.store m newdist s) full' := by
  have hdiff : ∀ c < (if full then m else s.count), ∃ r < n, s.cands c r ≠ s.zcond r := by
    intro c hc
    obtain ⟨z, hz, h1, _⟩ := h.pt c hc
    obtain ⟨r, hr, hne⟩ := hnew z hz
    refine ⟨r, hr, ?_⟩
    rw [h1 r hr, hy r hr]; exact_mod_cast hne
  by_cases hc : s.count < m - 1
  · -- an empty slot
    have hf : full = false := by
      cases full with
      | false => rfl
      | true => have := (h.filled rfl).1; omega
    subst hf
    simp only [Bool.false_eq_true, if_false] at hdiff
    obtain ⟨f1, f2, f3⟩ := h.filling rfl
    have hpt := h.pt
    have hne := h.ne
    have hcov := h.cover
    simp only [Bool.false_eq_true, if_false] at hpt hne hcov
    refine ⟨false, ?_⟩
    unfold Lambda.store; rw [if_pos hc]
    constructor
    · simp only [Bool.false_eq_true, if_false]
      intro c hcc
      by_cases hcs : c = s.count
      · subst hcs
        exact ⟨y, (hB' y).2 (Or.inr fun _ _ => rfl), fun r hr => by simp [hy r hr],
          by rw [setV_same, hd]⟩
      · obtain ⟨z, hz, h1, h2⟩ := hpt c (by omega)
        exact ⟨z, (hB' z).2 (Or.inl hz), fun r hr => by simp only [if_neg hcs]; exact h1 r hr,
          by rw [setV_ne _ _ hcs]; exact h2⟩
    · simp only [Bool.false_eq_true, if_false]
      intro c hcc c' hcc' hcne
      by_cases e : c = s.count
      · have e' : ¬ c' = s.count := by omega
        simp only [if_pos e, if_neg e']
        obtain ⟨r, hr, h1⟩ := hdiff c' (by omega)
        exact ⟨r, hr, h1.symm⟩
      · by_cases e' : c' = s.count
        · simp only [if_neg e, if_pos e']
          exact hdiff c (by omega)
        · simp only [if_neg e, if_neg e']
          exact hne c (by omega) c' (by omega) hcne
    · intro _; exact ⟨f1, by dsimp only; omega, f3⟩
    · intro hc; cases hc
    · exact h.small
    · simp only [Bool.false_eq_true, if_false]
      have hnl := h.normle
      simp only [Bool.false_eq_true, if_false] at hnl
      intro c hcc
      by_cases e : c = s.count
      · rw [e, setV_same]; exact hlt.le
      · rw [setV_ne _ _ e]; exact hnl c (by omega)
    · simp only [Bool.false_eq_true, if_false]
      intro z hz
      rcases (hB' z).1 hz with hz | hz
      · rcases hcov z hz with ⟨c, h1, h2⟩ | h1
        · exact Or.inl ⟨c, by omega, fun r hr => by
            have : ¬ c = s.count := by omega
            simp only [if_neg this]; exact h2 r hr⟩
        · exact Or.inr h1
      · exact Or.inl ⟨s.count, by omega, fun r hr => by
          simp only [if_true]; rw [hz r hr]; exact hy r hr⟩
  · -- the slot of the worst candidate
    have hcount : s.count + 1 = m := by
      cases full with
      | false => have := (h.filling rfl).2.1; omega
      | true => exact (h.filled rfl).1
    have himax : s.imax < m := by
      cases full with
      | false => rw [(h.filling rfl).2.2]; omega
      | true => exact (h.filled rfl).2.1
    -- the other slots are in use
    have huse : ∀ c < m, c ≠ s.imax → c < (if full then m else s.count) := by
      intro c hc hci
      cases full with
      | false =>
        have := (h.filling rfl).2.2
        simp only [Bool.false_eq_true, if_false]; omega
      | true => simpa using hc
    have hinuse : ∀ c, c < (if full then m else s.count) → c < m := by
      intro c hc
      cases full with
      | false => simp only [Bool.false_eq_true, if_false] at hc; omega
      | true => simpa using hc
    refine ⟨true, ?_⟩
    unfold Lambda.store; rw [if_neg hc]
    dsimp only
    set norms' := setV s.norms s.imax newdist with hn'
    obtain ⟨m1, m2⟩ := argmax_spec norms' m hm
    have hle : ∀ c < m, norms' c ≤ s.chi2 := by
      intro c hc
      by_cases e : c = s.imax
      · rw [e, hn', setV_same]; exact hlt.le
      · rw [hn', setV_ne _ _ e]; exact h.normle c (huse c hc e)
    have hchi : norms' (argmax norms' m) ≤ s.chi2 := hle _ m1
    constructor
    · simp only [if_true]
      intro c hcc
      by_cases hcs : c = s.imax
      · subst hcs
        exact ⟨y, (hB' y).2 (Or.inr fun _ _ => rfl), fun r hr => by simp [hy r hr],
          by rw [hn', setV_same, hd]⟩
      · obtain ⟨z, hz, h1, h2⟩ := h.pt c (huse c hcc hcs)
        exact ⟨z, (hB' z).2 (Or.inl hz), fun r hr => by simp only [if_neg hcs]; exact h1 r hr,
          by rw [hn', setV_ne _ _ hcs]; exact h2⟩
    · simp only [if_true]
      intro c hcc c' hcc' hcne
      by_cases e : c = s.imax
      · have e' : ¬ c' = s.imax := by omega
        simp only [if_pos e, if_neg e']
        obtain ⟨r, hr, h1⟩ := hdiff c' (huse c' hcc' e')
        exact ⟨r, hr, h1.symm⟩
      · by_cases e' : c' = s.imax
        · simp only [if_neg e, if_pos e']
          exact hdiff c (huse c hcc e)
        · simp only [if_neg e, if_neg e']
          exact h.ne c (huse c hcc e) c' (huse c' hcc' e') hcne
    · intro hc; cases hc
    · intro _; exact ⟨hcount, m1, rfl, m2⟩
    · exact hchi.trans h.small
    · simp only [if_true]; exact m2
    · simp only [if_true]
      intro z hz
      rcases (hB' z).1 hz with hz | hz
      · rcases h.cover z hz with ⟨c, h1, h2⟩ | h1
        · by_cases e : c = s.imax
          · -- the candidate that is given up
            have hft : full = true := by
              cases full with
              | true => rfl
              | false =>
                have := (h.filling rfl).2.2
                simp only [Bool.false_eq_true, if_false] at h1; omega
            obtain ⟨-, -, f3, -⟩ := h.filled hft
            obtain ⟨z', -, g2, g3⟩ := h.pt c h1
            have hzz : fdist n a L D z = fdist n a L D z' := by
              apply fdist_congr
              intro i hi
              have := (h2 i hi).symm.trans (g2 i hi)
              exact_mod_cast this
            right
            rw [hzz, ← g3, e, ← f3]; exact hchi
          · exact Or.inl ⟨c, hinuse c h1, fun r hr => by simp only [if_neg e]; exact h2 r hr⟩
        · exact Or.inr (hchi.trans h1)
      · exact Or.inl ⟨s.imax, himax, fun r hr => by simp only [if_true]; rw [hz r hr]; exact hy r hr⟩

end Verif.Lambda
