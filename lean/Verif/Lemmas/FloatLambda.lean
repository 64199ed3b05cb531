import Verif.Model.FloatLambda
import Verif.Lemmas.Binary64
import Mathlib.Data.DFinsupp.WellFounded
import Mathlib.LinearAlgebra.Matrix.Determinant.Basic
/-! Helper lemmas for the ambiguity resolution with rounding. -/
namespace Verif.FLambda
open Verif.Binary64

variable {V W : Type}

theorem gauss_D (o : Ops V W) (i j : Nat) (s : Red V W) : (gauss o i j s).D = s.D := by
  unfold gauss; dsimp only; split <;> rfl

theorem gauss_L (o : Ops V W) (i j : Nat) (s : Red V W) (r c : Nat) (h : c ≠ j) : (gauss o i j s).L r c = s.L r c := by
  unfold gauss; dsimp only; split
  · simp [h]
  · rfl

theorem column_inv (o : Ops V W) (N k : Nat) (P : Red V W → Prop) (s : Red V W) (h0 : P s)
    (h : ∀ i s, k < i → i < N → P s → P (gauss o i k s)) : P (gaussColumn o N k s) := by
  unfold gaussColumn
  have : ∀ l : List Nat, (∀ i ∈ l, i < N - (k + 1)) → ∀ s, P s → P (l.foldl (fun s i => gauss o (k + 1 + i) k s) s) := by
    intro l
    induction l with
    | nil => intro _ s hs; exact hs
    | cons i l ih =>
      intro hl s hs
      have hi := hl i (List.mem_cons_self ..)
      exact ih (fun x hx => hl x (List.mem_cons_of_mem _ hx)) _ (h _ _ (by omega) (by omega) hs)
  exact this _ (fun i hi => List.mem_range.1 hi) s h0

theorem column_D (o : Ops V W) (N k : Nat) (s : Red V W) : (gaussColumn o N k s).D = s.D :=
  column_inv o N k (fun t => t.D = s.D) s rfl fun i t _ _ ht => by rw [gauss_D, ht]

theorem column_L (o : Ops V W) (N k : Nat) (s : Red V W) (r c : Nat) (h : c ≠ k) :
    (gaussColumn o N k s).L r c = s.L r c :=
  column_inv o N k (fun t => t.L r c = s.L r c) s rfl fun i t _ _ ht => by rw [gauss_L o i k t r c h, ht]

/-- An invariant of the single steps is one of a sweep. -/
theorem sweep_inv (o : Ops V W) (N k1 : Nat) (P : Red V W → Prop)
    (hg : ∀ i j s, j < i → i < N → P s → P (gauss o i j s))
    (hp : ∀ k d s, k + 1 < N → P s → P (permute o k d s)) (n : Nat) (hn : n < N) (s : Red V W) (h : P s) :
    P (sweep o N k1 n s).2 := by
  induction n generalizing s with
  | zero => exact h
  | succ k ih =>
    unfold sweep
    have h' : P (if k ≤ k1 then gaussColumn o N k s else s) := by
      split
      · exact column_inv o N k P s h fun i s a b => hg i k s a b
      · exact h
    generalize (if k ≤ k1 then gaussColumn o N k s else s) = t at *
    dsimp only
    split
    · exact hp k _ t hn h'
    · exact ih (by omega) t h'

theorem reduce_inv (o : Ops V W) (N : Nat) (hN : 0 < N) (P : Red V W → Prop)
    (hg : ∀ i j s, j < i → i < N → P s → P (gauss o i j s))
    (hp : ∀ k d s, k + 1 < N → P s → P (permute o k d s)) (fuel k1 : Nat) (s t : Red V W) (h : P s)
    (e : reduceLoop o N fuel k1 s = some t) : P t := by
  induction fuel generalizing k1 s with
  | zero => simp [reduceLoop] at e
  | succ n ih =>
    have hs := sweep_inv o N k1 P hg hp (N - 1) (by omega) s h
    unfold reduceLoop at e
    rcases hw : sweep o N k1 (N - 1) s with ⟨_ | k, u⟩
    · rw [hw] at e hs; simp only [Option.some.injEq] at e; rw [← e]; exact hs
    · rw [hw] at e hs; exact ih _ _ hs e

/-- What a swap does with `D`. -/
theorem sweep_swap (o : Ops V W) (N k1 n : Nat) (s t : Red V W) (k : Nat) (e : sweep o N k1 n s = (some k, t)) :
    k < n ∧ (∀ j, k + 1 < j → t.D j = s.D j) ∧ o.lt (t.D (k + 1)) (s.D (k + 1)) = true ∧
      (∃ l, t.D (k + 1) = o.delta (s.D k) l (s.D (k + 1))) ∧
      t.D k = o.mul (o.eta (s.D k) (t.D (k + 1))) (s.D (k + 1)) ∧ (∀ j, j < k → t.D j = s.D j) := by
  induction n generalizing s with
  | zero => simp [sweep] at e
  | succ n ih =>
    unfold sweep at e
    have hD : (if n ≤ k1 then gaussColumn o N n s else s).D = s.D := by
      split
      · exact column_D o N n s
      · rfl
    generalize (if n ≤ k1 then gaussColumn o N n s else s) = u at *
    dsimp only at e
    split at e
    · rename_i hl
      simp only [Prod.mk.injEq, Option.some.injEq] at e
      obtain ⟨rfl, rfl⟩ := e
      have h1 : (permute o n (deltaAt o n u) u).D (n + 1) = deltaAt o n u := by simp [permute, put]
      have h0 : (permute o n (deltaAt o n u) u).D n = o.mul (o.eta (u.D n) (deltaAt o n u)) (u.D (n + 1)) := by
        simp [permute, put]
      refine ⟨by omega, ?_, ?_, ?_, ?_, ?_⟩
      · intro j hj
        rw [← hD]
        simp [permute, put, show j ≠ n + 1 by omega, show j ≠ n by omega]
      · rw [h1, ← hD]; exact hl
      · rw [h1, ← hD]; exact ⟨_, rfl⟩
      · rw [h1, h0, ← hD]
      · intro j hj
        rw [← hD]
        simp [permute, put, show j ≠ n + 1 by omega, show j ≠ n by omega]
    · obtain ⟨h1, h2, h3, h4, h5, h6⟩ := ih u e
      rw [hD] at h2 h3 h4 h5 h6
      exact ⟨by omega, h2, h3, h4, h5, h6⟩

/-- Where a sweep ends without a swap nothing more is to be swapped. -/
theorem sweep_none (o : Ops V W) (N k1 n : Nat) (s t : Red V W) (e : sweep o N k1 n s = (none, t)) :
    t.D = s.D ∧ (∀ r c, n ≤ c → t.L r c = s.L r c) ∧
      ∀ k, k < n → o.lt (deltaAt o k t) (t.D (k + 1)) = false := by
  induction n generalizing s with
  | zero => simp [sweep] at e; subst e; exact ⟨rfl, fun _ _ _ => rfl, fun k hk => by omega⟩
  | succ n ih =>
    unfold sweep at e
    have hD : (if n ≤ k1 then gaussColumn o N n s else s).D = s.D := by
      split
      · exact column_D o N n s
      · rfl
    have hL : ∀ r c, n < c → (if n ≤ k1 then gaussColumn o N n s else s).L r c = s.L r c := by
      intro r c hc
      split
      · exact column_L o N n s r c (by omega)
      · rfl
    generalize (if n ≤ k1 then gaussColumn o N n s else s) = u at *
    dsimp only at e
    split at e
    · simp at e
    · rename_i hl
      obtain ⟨h1, h2, h3⟩ := ih u e
      refine ⟨by rw [h1, hD], fun r c hc => by rw [h2 r c (by omega), hL r c (by omega)], fun k hk => ?_⟩
      rcases Nat.lt_or_ge k n with h | h
      · exact h3 k h
      · obtain rfl : k = n := by omega
        have : deltaAt o k t = deltaAt o k u := by
          unfold deltaAt; rw [h1, h2 (k + 1) k le_rfl]
        rw [this, h1]
        simpa using hl

/-! ### Integers in doubles -/

/-- A rounded integer is an integer. -/
theorem r_int {r : ℚ → ℚ} (hr : Nearest r) (n : Int) : ∃ k : Int, r n = k := by
  rcases le_or_gt |n| (2 ^ 53) with h | h
  · exact ⟨n, hr.exact (F_int h)⟩
  · obtain ⟨m, e, hm, he, hx⟩ := hr.mem n
    have big : (2 : ℚ) ^ 53 ≤ |r n| := by
      have F1 : F ((2 : ℚ) ^ 53) := by
        have := F_int (n := 2 ^ 53) (by norm_num); push_cast at this; norm_num at this ⊢; exact this
      rcases lt_abs.1 h with h | h
      · have : (2 : ℚ) ^ 53 ≤ n := by exact_mod_cast h.le
        exact le_trans (hr.ge_of_ge F1 this) (le_abs_self _)
      · have : (n : ℚ) ≤ -(2 : ℚ) ^ 53 := by
          have : (2 : ℚ) ^ 53 ≤ -n := by exact_mod_cast h.le
          linarith
        have h2 := hr.le_of_le (F_neg F1) this
        exact le_trans (by linarith) (neg_le_abs _)
    have e0 : 0 ≤ e := by
      by_contra hc
      push Not at hc
      rw [hx, abs_mul, abs_of_pos (two_zpow_pos e)] at big
      have h1 : (2 : ℚ) ^ e ≤ 1 := zpow_le_one_of_nonpos₀ (by norm_num) hc.le
      have h2 : |(m : ℚ)| < 2 ^ 53 := by exact_mod_cast hm
      have h3 := two_zpow_pos e
      have h4 : |(m : ℚ)| * 2 ^ e ≤ |(m : ℚ)| * 1 := mul_le_mul_of_nonneg_left h1 (abs_nonneg _)
      linarith
    obtain ⟨j, rfl⟩ : ∃ j : ℕ, e = j := ⟨e.toNat, by omega⟩
    refine ⟨m * 2 ^ j, ?_⟩
    rw [hx, zpow_natCast]; push_cast; rfl

/-- `std::round` gives an integer. -/
theorem qround_int (x : ℚ) : ∃ k : Int, qround x = k := by
  unfold qround Lambda.round
  split
  · exact ⟨_, rfl⟩
  · exact ⟨_, rfl⟩

theorem qround_near {x : ℚ} {k : Int} (h : |x - k| < 1 / 2) : qround x = k := by
  rw [abs_lt] at h
  unfold qround Lambda.round
  split
  · congr 1
    rw [Int.floor_eq_iff]; constructor <;> linarith
  · congr 1
    rw [Int.ceil_eq_iff]; constructor <;> linarith

end Verif.FLambda
