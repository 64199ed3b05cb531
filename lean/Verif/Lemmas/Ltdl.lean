import Verif.Model.Lambda
import Mathlib.Algebra.BigOperators.Intervals
import Mathlib.Algebra.BigOperators.Field
import Mathlib.Tactic.Ring
import Mathlib.Tactic.Linarith
import Mathlib.Tactic.FieldSimp
/-! # Lemmas about the LTDL factorisation -/
namespace Verif.Lambda
open Finset

/-- `xᵀ S x` on the first `n` indices. -/
noncomputable def quad (n : Nat) (S : Mat ℝ) (x : Vec ℝ) : ℝ :=
  ∑ a ∈ range n, ∑ b ∈ range n, x a * S a b * x b

/-- Entry `(a, b)` of `Lᵀ D L`. -/
noncomputable def gram {K : Type} [Field K] (n : Nat) (L : Mat K) (D : Vec K) (a b : Nat) : K :=
  ∑ r ∈ range n, L r a * D r * L r b

def SymmOn (n : Nat) (S : Mat ℝ) : Prop := ∀ a < n, ∀ b < n, S a b = S b a

def PosDefOn (n : Nat) (S : Mat ℝ) : Prop := ∀ x : Vec ℝ, (∃ i < n, x i ≠ 0) → 0 < quad n S x

/-- The Schur complement of the last row. -/
noncomputable def schur (m : Nat) (S : Mat ℝ) : Mat ℝ := fun a b => S a b - S m a * S m b / S m m

theorem quad_schur (m : Nat) (S : Mat ℝ) (x : Vec ℝ) (hs : SymmOn (m + 1) S) (hm : S m m ≠ 0) :
    quad (m + 1) S x =
      quad m (schur m S) x + S m m * (x m + (∑ b ∈ range m, S m b * x b) / S m m) ^ 2 := by
  unfold quad schur
  rw [sum_range_succ]
  simp only [sum_range_succ _ m]
  set T := ∑ b ∈ range m, S m b * x b with hT
  have e1 : ∑ a ∈ range m, (∑ b ∈ range m, x a * S a b * x b + x a * S a m * x m) =
      ∑ a ∈ range m, ∑ b ∈ range m, x a * S a b * x b + T * x m := by
    rw [sum_add_distrib]; congr 1
    rw [hT, sum_mul]; apply sum_congr rfl; intro a ha
    rw [hs a (by have := mem_range.1 ha; omega) m (by omega)]; ring
  have e2 : ∑ b ∈ range m, x m * S m b * x b = T * x m := by
    rw [hT, sum_mul]; apply sum_congr rfl; intro a _; ring
  have e3 : ∑ a ∈ range m, ∑ b ∈ range m, x a * (S a b - S m a * S m b / S m m) * x b =
      ∑ a ∈ range m, ∑ b ∈ range m, x a * S a b * x b - T * T / S m m := by
    have : T * T / S m m = ∑ a ∈ range m, ∑ b ∈ range m, x a * (S m a * S m b / S m m) * x b := by
      rw [hT, sum_mul_sum, sum_div]; apply sum_congr rfl; intro a _
      rw [sum_div]; apply sum_congr rfl; intro b _; ring
    rw [this, ← sum_sub_distrib]; apply sum_congr rfl; intro a _
    rw [← sum_sub_distrib]; apply sum_congr rfl; intro b _; ring
  rw [e1, e2, e3]; field_simp; ring

theorem posDef_last {m : Nat} {S : Mat ℝ} (h : PosDefOn (m + 1) S) : 0 < S m m := by
  have := h (fun i => if i = m then 1 else 0) ⟨m, by omega, by simp⟩
  unfold quad at this
  simpa using this

theorem posDef_schur {m : Nat} {S : Mat ℝ} (hs : SymmOn (m + 1) S) (h : PosDefOn (m + 1) S) :
    PosDefOn m (schur m S) := by
  intro x ⟨i, hi, hx⟩
  have hm := posDef_last h
  set y : Vec ℝ := fun j => if j = m then -(∑ b ∈ range m, S m b * x b) / S m m else x j with hy
  have h1 := h y ⟨i, by omega, by rw [hy]; simp only [if_neg (by omega : ¬ i = m)]; exact hx⟩
  have hyx : ∀ j ∈ range m, y j = x j := by
    intro j hj; have := mem_range.1 hj; rw [hy]; simp only [if_neg (by omega : ¬ j = m)]
  rw [quad_schur m S y hs hm.ne'] at h1
  have e1 : ∑ b ∈ range m, S m b * y b = ∑ b ∈ range m, S m b * x b :=
    sum_congr rfl fun b hb => by rw [hyx b hb]
  have e2 : y m = -(∑ b ∈ range m, S m b * x b) / S m m := by rw [hy]; simp
  have e3 : quad m (schur m S) y = quad m (schur m S) x := by
    unfold quad
    exact sum_congr rfl fun a ha => sum_congr rfl fun b hb => by rw [hyx a ha, hyx b hb]
  rw [e1, e2, e3] at h1
  have : (-(∑ b ∈ range m, S m b * x b) / S m m + (∑ b ∈ range m, S m b * x b) / S m m) = 0 := by
    ring
  rw [this] at h1; simpa using h1

theorem symm_schur {m : Nat} {S : Mat ℝ} (hs : SymmOn (m + 1) S) : SymmOn m (schur m S) := by
  intro a ha b hb
  unfold schur; rw [hs a (by omega) b (by omega)]; ring

/-- Rows from `m` on are not touched by the rest of the loop. -/
theorem ltdlLoop_rows (m : Nat) : ∀ (Q L : Mat ℝ) (D : Vec ℝ) (r : Nat), m ≤ r →
    (∀ c, (ltdlLoop m Q L D).1 r c = L r c) ∧ (ltdlLoop m Q L D).2 r = D r := by
  induction m with
  | zero => intro Q L D r _; exact ⟨fun _ => rfl, rfl⟩
  | succ m ih =>
    intro Q L D r hr
    unfold ltdlLoop
    obtain ⟨h1, h2⟩ := ih (ltdlRow m Q L D).1 (ltdlRow m Q L D).2.1 (ltdlRow m Q L D).2.2 r (by omega)
    have hne : ¬ r = m := by omega
    refine ⟨fun c => ?_, ?_⟩
    · rw [h1 c]; simp [ltdlRow, hne]
    · rw [h2]; simp [ltdlRow, setV, hne]

/-- The strict upper triangle stays zero. -/
theorem ltdlLoop_upper (m : Nat) : ∀ (Q L : Mat ℝ) (D : Vec ℝ), (∀ r c, r < c → L r c = 0) →
    ∀ r c, r < c → (ltdlLoop m Q L D).1 r c = 0 := by
  induction m with
  | zero => intro Q L D h; exact h
  | succ m ih =>
    intro Q L D h
    unfold ltdlLoop
    apply ih
    intro r c hrc
    have : ¬ (r = m ∧ c ≤ m) := by omega
    simp only [ltdlRow, if_neg this]; exact h r c hrc

/-- The row computed at step `m`, when the pivot is positive. -/
theorem ltdlRow_row {m : Nat} {Q L : Mat ℝ} {D : Vec ℝ} (hm : 0 < Q m m) {c : Nat} (hc : c ≤ m) :
    (ltdlRow m Q L D).2.1 m c = Q m c / Q m m := by
  have h0 : Real.sqrt (Q m m) ≠ 0 := (Real.sqrt_pos.2 hm).ne'
  simp only [ltdlRow, true_and, if_pos hc]
  field_simp

theorem ltdlRow_Q {m : Nat} {Q L : Mat ℝ} {D : Vec ℝ} (hm : 0 < Q m m) {a b : Nat} (ha : a < m)
    (hb : b ≤ a) : (ltdlRow m Q L D).1 a b = Q a b - Q m b * Q m a / Q m m := by
  have h0 := Real.mul_self_sqrt hm.le
  have h1 : Real.sqrt (Q m m) ≠ 0 := (Real.sqrt_pos.2 hm).ne'
  simp only [ltdlRow, if_pos (⟨ha, hb⟩ : a < m ∧ b ≤ a)]
  rw [div_mul_div_comm, h0]

/-- If the pivots come out positive, the factors multiply to the matrix. -/
theorem ltdlLoop_factor (m : Nat) : ∀ (S Q L : Mat ℝ) (D : Vec ℝ), SymmOn m S →
    (∀ a < m, ∀ b ≤ a, Q a b = S a b) → (∀ r c, r < c → L r c = 0) →
    (∀ i < m, 0 < (ltdlLoop m Q L D).2 i) →
    (∀ i < m, (ltdlLoop m Q L D).1 i i = 1) ∧
    (∀ a < m, ∀ b < m, gram m (ltdlLoop m Q L D).1 (ltdlLoop m Q L D).2 a b = S a b) := by
  induction m with
  | zero => intro S Q L D _ _ _ _; exact ⟨fun i hi => by omega, fun a ha => by omega⟩
  | succ m ih =>
    intro S Q L D hs hq hu hd
    have hup := ltdlLoop_upper (m + 1) Q L D hu
    unfold ltdlLoop at hd hup ⊢
    set R := ltdlRow m Q L D with hR
    have hrows := ltdlLoop_rows m R.1 R.2.1 R.2.2 m le_rfl
    have hDm : (ltdlLoop m R.1 R.2.1 R.2.2).2 m = Q m m := by
      rw [hrows.2, hR]; simp [ltdlRow, setV]
    have hQm : 0 < Q m m := hDm ▸ hd m (by omega)
    have hSm : Q m m = S m m := hq m (by omega) m le_rfl
    have hLm : ∀ c ≤ m, (ltdlLoop m R.1 R.2.1 R.2.2).1 m c = S m c / S m m := by
      intro c hc
      rw [hrows.1 c, hR, ltdlRow_row hQm hc, hSm, hq m (by omega) c hc]
    have hS0 : S m m ≠ 0 := hSm ▸ hQm.ne'
    obtain ⟨i1, i2⟩ := ih (schur m S) R.1 R.2.1 R.2.2 (symm_schur hs)
      (by
        intro a ha b hb
        rw [hR, ltdlRow_Q hQm ha hb, hSm, hq a (by omega) b hb, hq m (by omega) b (by omega),
          hq m (by omega) a (by omega)]
        unfold schur; ring)
      (by
        intro r c hrc
        have : ¬ (r = m ∧ c ≤ m) := by omega
        rw [hR]; simp only [ltdlRow, if_neg this]; exact hu r c hrc)
      (fun i hi => hd i (by omega))
    refine ⟨fun i hi => ?_, fun a ha b hb => ?_⟩
    · rcases Nat.lt_succ_iff_lt_or_eq.1 hi with h | h
      · exact i1 i h
      · subst h; rw [hLm i le_rfl]; exact div_self hS0
    · unfold gram
      rw [sum_range_succ, hLm a (by omega), hLm b (by omega), hDm, hSm]
      by_cases hab : a < m ∧ b < m
      · have := i2 a hab.1 b hab.2
        unfold gram at this; rw [this]; unfold schur; field_simp; ring
      · have hz : ∑ r ∈ range m, (ltdlLoop m R.1 R.2.1 R.2.2).1 r a *
            (ltdlLoop m R.1 R.2.1 R.2.2).2 r * (ltdlLoop m R.1 R.2.1 R.2.2).1 r b = 0 := by
          apply sum_eq_zero; intro r hr
          have hr := mem_range.1 hr
          by_cases h : a < m
          · rw [hup r b (by omega)]; ring
          · rw [hup r a (by omega)]; ring
        rw [hz]
        by_cases h : a < m
        · have : b = m := by omega
          subst this; rw [hs a ha b (by omega)]; field_simp; ring
        · have : a = m := by omega
          subst this; field_simp; ring

/-- A positive definite matrix has positive pivots. -/
theorem ltdlLoop_pos (m : Nat) : ∀ (S Q L : Mat ℝ) (D : Vec ℝ), SymmOn m S → PosDefOn m S →
    (∀ a < m, ∀ b ≤ a, Q a b = S a b) → ∀ i < m, 0 < (ltdlLoop m Q L D).2 i := by
  induction m with
  | zero => intro S Q L D _ _ _ i hi; omega
  | succ m ih =>
    intro S Q L D hs hp hq i hi
    have hSm : Q m m = S m m := hq m (by omega) m le_rfl
    have hQm : 0 < Q m m := hSm ▸ posDef_last hp
    unfold ltdlLoop
    rcases Nat.lt_succ_iff_lt_or_eq.1 hi with h | h
    · refine ih (schur m S) _ _ _ (symm_schur hs) (posDef_schur hs hp) ?_ i h
      intro a ha b hb
      rw [ltdlRow_Q hQm ha hb, hSm, hq a (by omega) b hb, hq m (by omega) b (by omega),
        hq m (by omega) a (by omega)]
      unfold schur; ring
    · subst h
      rw [(ltdlLoop_rows i _ _ _ i le_rfl).2]
      simpa [ltdlRow, setV] using hQm

/-- `xᵀ Lᵀ D L x` as a sum of squares. -/
theorem quad_gram (n : Nat) (L : Mat ℝ) (D : Vec ℝ) (S : Mat ℝ) (x : Vec ℝ)
    (h : ∀ a < n, ∀ b < n, gram n L D a b = S a b) :
    quad n S x = ∑ r ∈ range n, D r * (∑ a ∈ range n, L r a * x a) ^ 2 := by
  unfold quad
  have : ∀ a ∈ range n, ∀ b ∈ range n, x a * S a b * x b = ∑ r ∈ range n, D r * (L r a * x a) * (L r b * x b) := by
    intro a ha b hb
    rw [← h a (mem_range.1 ha) b (mem_range.1 hb), gram, mul_sum, sum_mul]
    apply sum_congr rfl; intro r _; ring
  rw [sum_congr rfl fun a ha => sum_congr rfl (this a ha)]
  rw [sum_congr rfl fun a (_ : a ∈ range n) => sum_comm, sum_comm]
  apply sum_congr rfl; intro r _
  rw [pow_two, sum_mul_sum, mul_sum]
  apply sum_congr rfl; intro a _
  rw [mul_sum]
  apply sum_congr rfl; intro b _; ring

/-- Unit lower triangular factors with positive pivots give a positive definite matrix. -/
theorem posDef_of_gram (n : Nat) (L : Mat ℝ) (D : Vec ℝ) (S : Mat ℝ) (hd : ∀ i < n, 0 < D i)
    (h1 : ∀ i < n, L i i = 1) (hu : ∀ r c, r < c → L r c = 0)
    (h : ∀ a < n, ∀ b < n, gram n L D a b = S a b) : PosDefOn n S := by
  intro x ⟨i, hi, hx⟩
  rw [quad_gram n L D S x h]
  -- the first index with a nonzero entry gives a nonzero row
  classical
  have hex : ∃ j, j < n ∧ x j ≠ 0 := ⟨i, hi, hx⟩
  set j := Nat.find hex with hj
  obtain ⟨hjn, hxj⟩ := Nat.find_spec hex
  have hmin : ∀ k < j, x k = 0 := by
    intro k hk
    have := Nat.find_min hex hk
    by_contra hc
    exact this ⟨by omega, hc⟩
  have hrow : ∑ a ∈ range n, L j a * x a = x j := by
    rw [sum_eq_single j]
    · rw [h1 j hjn, one_mul]
    · intro b hb hbj
      rcases Nat.lt_or_ge b j with h | h
      · rw [hmin b h, mul_zero]
      · rw [hu j b (by omega), zero_mul]
    · intro hc; exact absurd (mem_range.2 hjn) hc
  calc 0 < D j * (∑ a ∈ range n, L j a * x a) ^ 2 := by
        rw [hrow]; exact mul_pos (hd j hjn) (by positivity)
    _ ≤ _ := single_le_sum (f := fun r => D r * (∑ a ∈ range n, L r a * x a) ^ 2)
        (fun r hr => mul_nonneg (hd r (mem_range.1 hr)).le (sq_nonneg _)) (mem_range.2 hjn)

end Verif.Lambda
