import Verif.Model.FloatQuat
import Verif.Lemmas.RealRounding
import Verif.Props.Quat
import Mathlib.Analysis.Quaternion
/-!
# C150: rotations in `double`s (common/math/quat.h, models/imu_state.cxx)
-/
namespace Verif.Props.FloatQuat
open Verif.Model.Lie Verif.Binary64 Verif.FQuat Verif.Spec.Lie
open Verif.Props.Quat (toH C43_hamilton)

/-- Half a place of the numbers up to two. -/
noncomputable def u : ℝ := 1 / 2 ^ 53

theorem rerr {r : ℝ → ℝ} (hr : NearestR r) {x : ℝ} (hx : |x| ≤ 2) : |r x - x| ≤ u := by
  have := hr.err 1 (by norm_num) (x := x) (by simpa using hx)
  refine this.trans (le_of_eq ?_)
  unfold u
  norm_num

theorem term_err {r : ℝ → ℝ} (hr : NearestR r) (fma : Bool) {acc s a b X n : ℝ} (hs : |s| = 1) (hn : n ≤ 10)
    (hacc : |acc - X| ≤ n * u) (hX : |X + s * (a * b)| ≤ 3 / 2) (hab : |a * b| ≤ 3 / 2) :
    |term r fma acc s a b - (X + s * (a * b))| ≤ (n + 2) * u := by
  have hu : u ≤ 1 / 1000 := by unfold u; norm_num
  have hu0 : 0 < u := by unfold u; norm_num
  have hnu : n * u ≤ 1 / 100 := by nlinarith
  have a1 := abs_le.1 hacc
  have a2 := abs_le.1 hX
  unfold term
  split
  · have h := abs_le.1 (rerr hr (x := acc + s * (a * b)) (by rw [abs_le]; constructor <;> linarith [a1.1, a1.2, a2.1, a2.2]))
    rw [abs_le]; constructor <;> linarith [h.1, h.2, a1.1, a1.2]
  · have h1 := rerr hr (x := a * b) (by linarith)
    have h2 : |s * r (a * b) - s * (a * b)| ≤ u := by rw [← mul_sub, abs_mul, hs, one_mul]; exact h1
    have h3 := abs_le.1 h2
    have h := abs_le.1 (rerr hr (x := acc + s * r (a * b)) (by
      rw [abs_le]; constructor <;> linarith [a1.1, a1.2, a2.1, a2.2, h3.1, h3.2]))
    rw [abs_le]; constructor <;> linarith [h.1, h.2, a1.1, a1.2, h3.1, h3.2]

theorem sum4_err {r : ℝ → ℝ} (hr : NearestR r) (fma : Bool) {a0 b0 s1 a1 b1 s2 a2 b2 s3 a3 b3 : ℝ} (h1 : |s1| = 1)
    (h2 : |s2| = 1) (h3 : |s3| = 1) (ha : a0 ^ 2 + a1 ^ 2 + a2 ^ 2 + a3 ^ 2 ≤ 3 / 2)
    (hb : b0 ^ 2 + b1 ^ 2 + b2 ^ 2 + b3 ^ 2 ≤ 3 / 2) :
    |sum4 r fma a0 b0 s1 a1 b1 s2 a2 b2 s3 a3 b3 - (a0 * b0 + s1 * (a1 * b1) + s2 * (a2 * b2) + s3 * (a3 * b3))| ≤ 7 * u := by
  have k : ∀ a b : ℝ, |a * b| ≤ (a ^ 2 + b ^ 2) / 2 := by
    intro a b
    rw [abs_le]; constructor <;> nlinarith [sq_nonneg (a - b), sq_nonneg (a + b)]
  have k0 := k a0 b0
  have k1 := k a1 b1
  have k2 := k a2 b2
  have k3 := k a3 b3
  have m : ∀ s x : ℝ, |s| = 1 → |s * x| = |x| := fun s x h => by rw [abs_mul, h, one_mul]
  have p0 := sq_nonneg a0
  have p1 := sq_nonneg a1
  have p2 := sq_nonneg a2
  have p3 := sq_nonneg a3
  have q0 := sq_nonneg b0
  have q1 := sq_nonneg b1
  have q2 := sq_nonneg b2
  have q3 := sq_nonneg b3
  have m1 := m s1 (a1 * b1) h1
  have m2 := m s2 (a2 * b2) h2
  have m3 := m s3 (a3 * b3) h3
  have t1 := abs_add_le (a0 * b0) (s1 * (a1 * b1))
  have t2 := abs_add_le (a0 * b0 + s1 * (a1 * b1)) (s2 * (a2 * b2))
  have t3 := abs_add_le (a0 * b0 + s1 * (a1 * b1) + s2 * (a2 * b2)) (s3 * (a3 * b3))
  have e0 := rerr hr (x := a0 * b0) (by linarith)
  unfold sum4
  have e1 := term_err hr fma (n := 1) h1 (by norm_num) (by rw [one_mul]; exact e0) (by linarith) (by linarith : |a1 * b1| ≤ 3 / 2)
  have e2 := term_err hr fma h2 (by norm_num) e1 (by linarith) (by linarith : |a2 * b2| ≤ 3 / 2)
  have e3 := term_err hr fma h3 (by norm_num) e2 (by linarith) (by linarith : |a3 * b3| ≤ 3 / 2)
  refine e3.trans (le_of_eq (by ring))

theorem norm_toH_sq (q : Quat) : ‖toH q‖ ^ 2 = q.w ^ 2 + q.x ^ 2 + q.y ^ 2 + q.z ^ 2 := by
  rw [sq, ← Quaternion.normSq_eq_norm_mul_self, Quaternion.normSq_def']
  rfl

theorem norm_le_of {q : Quat} {c : ℝ} (hc : 0 ≤ c) (hw : |q.w| ≤ c) (hx : |q.x| ≤ c) (hy : |q.y| ≤ c) (hz : |q.z| ≤ c) :
    ‖toH q‖ ≤ 2 * c := by
  rw [← pow_le_pow_iff_left₀ (norm_nonneg _) (by linarith) (two_ne_zero)]
  rw [norm_toH_sq, mul_pow]
  have s : ∀ x : ℝ, |x| ≤ c → x ^ 2 ≤ c ^ 2 := fun x h => by rw [← sq_abs x]; gcongr
  linarith [s _ hw, s _ hx, s _ hy, s _ hz]

/-- **C150.** A product in `double`s of quaternions that are nearly of length one differs from the product by at most
`7 / 2 ^ 52`. -/
theorem C150_product {r : ℝ → ℝ} (hr : NearestR r) (fma : Bool) (p q : Quat) (hp : ‖toH p‖ ^ 2 ≤ 3 / 2) (hq : ‖toH q‖ ^ 2 ≤ 3 / 2) :
    ‖toH (FQuat.mul r fma p q) - toH p * toH q‖ ≤ 7 / 2 ^ 52 := by
  rw [norm_toH_sq] at hp hq
  have e : toH (FQuat.mul r fma p q) - toH p * toH q = toH ((FQuat.mul r fma p q).sub (p.otimes q)) := by
    rw [(C43_hamilton (FQuat.mul r fma p q) (p.otimes q) 1).2.2.2.2.1, (C43_hamilton p q 1).1]
  rw [e]
  have n1 : |(-1 : ℝ)| = 1 := by norm_num
  have n2 : |(1 : ℝ)| = 1 := by norm_num
  have := norm_le_of (q := (FQuat.mul r fma p q).sub (p.otimes q)) (c := 7 * u) (by unfold u; norm_num)
    (by
      have := sum4_err hr fma n1 n1 n1 (a0 := p.w) (b0 := q.w) (a1 := p.x) (b1 := q.x) (a2 := p.y) (b2 := q.y) (a3 := p.z) (b3 := q.z)
        (by linarith) (by linarith)
      convert this using 2
      simp only [Quat.sub, Quat.otimes, FQuat.mul]; ring)
    (by
      have := sum4_err hr fma n2 n2 n1 (a0 := p.w) (b0 := q.x) (a1 := p.x) (b1 := q.w) (a2 := p.y) (b2 := q.z) (a3 := p.z) (b3 := q.y)
        (by linarith) (by linarith)
      convert this using 2
      simp only [Quat.sub, Quat.otimes, FQuat.mul]; ring)
    (by
      have := sum4_err hr fma n1 n2 n2 (a0 := p.w) (b0 := q.y) (a1 := p.x) (b1 := q.z) (a2 := p.y) (b2 := q.w) (a3 := p.z) (b3 := q.x)
        (by linarith) (by linarith)
      convert this using 2
      simp only [Quat.sub, Quat.otimes, FQuat.mul]; ring)
    (by
      have := sum4_err hr fma n2 n1 n2 (a0 := p.w) (b0 := q.z) (a1 := p.x) (b1 := q.y) (a2 := p.y) (b2 := q.x) (a3 := p.z) (b3 := q.w)
        (by linarith) (by linarith)
      convert this using 2
      simp only [Quat.sub, Quat.otimes, FQuat.mul]; ring)
  refine this.trans (le_of_eq ?_)
  unfold u
  norm_num

theorem split_err (A Q P E : Quaternion ℝ) {d : ℝ} (h : ‖A - Q * E‖ ≤ d) : ‖A - P * E‖ ≤ d + ‖Q - P‖ * ‖E‖ := by
  have h1 : ‖Q * E - P * E‖ = ‖Q - P‖ * ‖E‖ := by rw [← sub_mul]; exact norm_mul (Q - P) E
  have h2 := norm_add_le (A - Q * E) (Q * E - P * E)
  rw [sub_add_sub_cancel, h1] at h2
  linarith

theorem length_err (A B : Quaternion ℝ) {d d' : ℝ} (h : ‖A - B‖ ≤ d) (h' : |‖B‖ - 1| ≤ d') : |‖A‖ - 1| ≤ d + d' := by
  have t5 := abs_norm_sub_norm_le A B
  have t7 := abs_add_le (‖A‖ - ‖B‖) (‖B‖ - 1)
  rw [sub_add_sub_cancel] at t7
  linarith

theorem grow {n D E q : ℝ} (h0 : 0 ≤ n) (h1 : n ≤ 2 ^ 40) (hE0 : 0 ≤ E) (hE : E ≤ 1 + 1 / 2 ^ 48) (hq : q ≤ n / 2 ^ 48)
    (hD : D ≤ 7 / 2 ^ 52 + q * E) : D ≤ (n + 1) / 2 ^ 48 := by
  have : q * E ≤ n / 2 ^ 48 * (1 + 1 / 2 ^ 48) := by
    calc q * E ≤ n / 2 ^ 48 * E := by gcongr
      _ ≤ _ := by gcongr
  norm_num at *
  linarith

theorem growP {n P E : ℝ} (h0 : 0 ≤ n) (h1 : n ≤ 2 ^ 40) (hE0 : 0 ≤ E) (hE : |E - 1| ≤ 1 / 2 ^ 48) (hP : |P - 1| ≤ n / 2 ^ 47) :
    |P * E - 1| ≤ (n + 1) / 2 ^ 47 := by
  rw [abs_le] at hE
  have b1 : |(P - 1) * E| ≤ n / 2 ^ 47 * (1 + 1 / 2 ^ 48) := by
    rw [abs_mul, abs_of_nonneg hE0]
    apply mul_le_mul hP (by linarith) hE0 (by positivity)
  rw [abs_le] at b1 ⊢
  norm_num at *
  constructor <;> linarith

theorem len_sq {x c : ℝ} (h0 : 0 ≤ x) (h : |x - 1| ≤ c) (hc : c ≤ 1 / 5) : x ^ 2 ≤ 3 / 2 := by
  have := (abs_le.1 h).2
  nlinarith

theorem one_more {r : ℝ → ℝ} (hr : NearestR r) (fma : Bool) (c e : Quat) (P : Quaternion ℝ) (n : ℝ) (hL0 : 0 ≤ n) (hL : n ≤ 2 ^ 40)
    (hee : |‖toH e‖ - 1| ≤ 1 / 2 ^ 48) (i1 : ‖toH c - P‖ ≤ n / 2 ^ 48) (i2 : |‖P‖ - 1| ≤ n / 2 ^ 47)
    (i3 : |‖toH c‖ - 1| ≤ n / 2 ^ 46) :
    ‖toH (FQuat.mul r fma c e) - P * toH e‖ ≤ (n + 1) / 2 ^ 48 ∧ |‖P * toH e‖ - 1| ≤ (n + 1) / 2 ^ 47 ∧
      |‖toH (FQuat.mul r fma c e)‖ - 1| ≤ (n + 1) / 2 ^ 46 := by
  have hc : n / 2 ^ 46 ≤ 1 / 5 := by
    rw [div_le_div_iff₀ (by norm_num) (by norm_num)]
    linarith
  have pr := C150_product hr fma c e (len_sq (norm_nonneg _) i3 hc) (len_sq (norm_nonneg _) hee (by norm_num))
  have t1 := split_err _ (toH c) P (toH e) pr
  have j := (abs_le.1 hee).2
  have t3 := grow hL0 hL (norm_nonneg (toH e)) (by linarith) i1 t1
  have hPE : ‖P * toH e‖ = ‖P‖ * ‖toH e‖ := norm_mul P (toH e)
  have t4 : |‖P * toH e‖ - 1| ≤ (n + 1) / 2 ^ 47 := by
    rw [hPE]
    exact growP hL0 hL (norm_nonneg (toH e)) hee i2
  refine ⟨t3, t4, ?_⟩
  refine (length_err _ _ t3 t4).trans ?_
  have t8 : (n + 1) / 2 ^ 46 = (n + 1) / 2 ^ 48 + (n + 1) / 2 ^ 47 + (n + 1) / 2 ^ 48 := by ring
  have t9 : 0 ≤ (n + 1) / 2 ^ 48 := by positivity
  linarith

/-- **C150.** However many rotations are composed in `double`s, up to `2 ^ 40` of them and without any normalisation, the result
is within `n / 2 ^ 48` of the product of the quaternions and its length within `n / 2 ^ 46` of one.  The factors may miss the length
one by `2 ^ -48`. -/
theorem C150_compose {r : ℝ → ℝ} (hr : NearestR r) (fma : Bool) (es : List Quat) (hn : es.length ≤ 2 ^ 40)
    (he : ∀ e ∈ es, |‖toH e‖ - 1| ≤ 1 / 2 ^ 48) :
    ‖toH (compose r fma es) - (es.map toH).prod‖ ≤ es.length / 2 ^ 48 ∧
    |‖toH (compose r fma es)‖ - 1| ≤ es.length / 2 ^ 46 := by
  have key : ∀ es : List Quat, es.length ≤ 2 ^ 40 → (∀ e ∈ es, |‖toH e‖ - 1| ≤ 1 / 2 ^ 48) →
      ‖toH (compose r fma es) - (es.map toH).prod‖ ≤ es.length / 2 ^ 48 ∧
      |‖(es.map toH).prod‖ - 1| ≤ es.length / 2 ^ 47 ∧ |‖toH (compose r fma es)‖ - 1| ≤ es.length / 2 ^ 46 := by
    intro es
    induction es using List.reverseRecOn with
    | nil =>
      intro _ _
      have e : toH (compose r fma []) = 1 := by
        unfold compose; exact (C43_hamilton Quat.identity Quat.identity 1).2.2.2.2.2.2
      rw [e]
      simp
    | append_singleton es e ih =>
      intro hl hm
      rw [List.length_append, List.length_singleton] at hl
      obtain ⟨i1, i2, i3⟩ := ih (by omega) (fun x hx => hm x (by simp [hx]))
      have hee := hm e (by simp)
      have hc : compose r fma (es ++ [e]) = FQuat.mul r fma (compose r fma es) e := by
        unfold compose; rw [List.foldl_append]; rfl
      have hp : ((es ++ [e]).map toH).prod = (es.map toH).prod * toH e := by
        rw [List.map_append, List.prod_append]; simp
      have hL : (es.length : ℝ) ≤ 2 ^ 40 := by exact_mod_cast (by omega : es.length ≤ 2 ^ 40)
      have hL0 : (0 : ℝ) ≤ es.length := Nat.cast_nonneg _
      rw [hc, hp, List.length_append, List.length_singleton]
      push_cast
      exact one_more hr fma _ e _ _ hL0 hL hee i1 i2 i3
  exact ⟨(key es hn he).1, (key es hn he).2.2⟩

/-! ### Vectors -/

section
variable {r : ℝ → ℝ} (hr : NearestR r) (M : Int) (hM : -900 ≤ M)
include hr hM

/-- Half a place of the numbers up to `2 ^ (M + j)`. -/
theorem verr (j : ℕ) {x : ℝ} (hx : |x| ≤ 2 ^ j * 2 ^ M) : |r x - x| ≤ 2 ^ j * 2 ^ (M - 54) := by
  have e1 : (2 : ℝ) ^ j * 2 ^ M = 2 ^ (M + j) := by rw [zpow_add₀ (by norm_num), zpow_natCast]; ring
  have e2 : (2 : ℝ) ^ j * 2 ^ (M - 54) = 2 ^ (M + j - 54) := by
    rw [show M + j - 54 = M - 54 + j by ring, zpow_add₀ (by norm_num) (M - 54), zpow_natCast]; ring
  rw [e2]
  rw [e1] at hx
  exact hr.err (M + j) (by omega) hx

end

theorem scale (M : Int) : (2 : ℝ) ^ M = 2 ^ 54 * 2 ^ (M - 54) := by
  rw [← zpow_natCast, ← zpow_add₀ (by norm_num)]; congr 1; push_cast; ring

/-- A term with operands that have errors. -/
theorem vterm {r : ℝ → ℝ} (hr : NearestR r) (M : Int) (hM : -900 ≤ M) (fma : Bool) (j i : ℕ) {acc s a b X B n m : ℝ} (hs : |s| = 1)
    (hacc : |acc - X| ≤ n * 2 ^ (M - 54)) (hb : |b - B| ≤ m * 2 ^ (M - 54)) (ha : |a| ≤ 5 / 4)
    (h1 : |acc + s * (a * b)| ≤ 2 ^ j * 2 ^ M - 2 ^ i * 2 ^ (M - 54)) (h2 : |a * b| ≤ 2 ^ i * 2 ^ M) :
    |term r fma acc s a b - (X + s * (a * B))| ≤ (n + 5 / 4 * m + 2 ^ i + 2 ^ j) * 2 ^ (M - 54) := by
  have p : (0 : ℝ) < 2 ^ (M - 54) := two_zpow_posR _
  have hab : |s * (a * b) - s * (a * B)| ≤ 5 / 4 * m * 2 ^ (M - 54) := by
    rw [← mul_sub, ← mul_sub, abs_mul, abs_mul, hs, one_mul, mul_assoc]
    exact mul_le_mul ha hb (abs_nonneg _) (by norm_num)
  have c1 := abs_le.1 hacc
  have c2 := abs_le.1 hab
  have q : (0 : ℝ) ≤ 2 ^ i * 2 ^ (M - 54) := by positivity
  unfold term
  split
  · have h := abs_le.1 (verr hr M hM j (h1.trans (by linarith)))
    rw [abs_le]; constructor <;> linarith [h.1, h.2, c1.1, c1.2, c2.1, c2.2]
  · have g : |s * r (a * b) - s * (a * b)| ≤ 2 ^ i * 2 ^ (M - 54) := by
      rw [← mul_sub, abs_mul, hs, one_mul]; exact verr hr M hM i h2
    have g' := abs_le.1 g
    have h1' := abs_le.1 h1
    have h := abs_le.1 (verr hr M hM j (x := acc + s * r (a * b)) (by
      rw [abs_le]; constructor <;> linarith [g'.1, g'.2, h1'.1, h1'.2]))
    rw [abs_le]; constructor <;> linarith [h.1, h.2, c1.1, c1.2, c2.1, c2.2, g'.1, g'.2]

theorem det2_err {r : ℝ → ℝ} (hr : NearestR r) (M : Int) (hM : -900 ≤ M) (fma : Bool) (i j : ℕ) {a b c d A C W m : ℝ}
    (ha : |a - A| ≤ m * 2 ^ (M - 54)) (hc : |c - C| ≤ m * 2 ^ (M - 54)) (hA : |A| ≤ W * 2 ^ M) (hC : |C| ≤ W * 2 ^ M)
    (hb : |b| ≤ 5 / 4) (hd : |d| ≤ 5 / 4) (h1 : 5 / 4 * (W * 2 ^ M + m * 2 ^ (M - 54)) ≤ 2 ^ i * 2 ^ M)
    (h2 : 5 / 2 * (W * 2 ^ M + m * 2 ^ (M - 54)) + 2 * 2 ^ i * 2 ^ (M - 54) ≤ 2 ^ j * 2 ^ M) :
    |det2 r fma a b c d - (A * b - C * d)| ≤ (5 / 2 * m + 2 * 2 ^ i + 2 ^ j) * 2 ^ (M - 54) := by
  have k : ∀ x X y : ℝ, |x - X| ≤ m * 2 ^ (M - 54) → |X| ≤ W * 2 ^ M → |y| ≤ 5 / 4 →
      |x * y| ≤ 5 / 4 * (W * 2 ^ M + m * 2 ^ (M - 54)) ∧ |x * y - X * y| ≤ 5 / 4 * m * 2 ^ (M - 54) := by
    intro x X y hx hX hy
    have hx' : |x| ≤ W * 2 ^ M + m * 2 ^ (M - 54) := by
      have := abs_add_le X (x - X)
      rw [add_sub_cancel] at this
      linarith
    constructor
    · rw [abs_mul, mul_comm]
      exact mul_le_mul hy hx' (abs_nonneg _) (by norm_num)
    · rw [← sub_mul, abs_mul, mul_comm, mul_assoc]
      exact mul_le_mul hy hx (abs_nonneg _) (by norm_num)
  obtain ⟨a1, a2⟩ := k a A b ha hA hb
  obtain ⟨c1, c2⟩ := k c C d hc hC hd
  have e := verr hr M hM i (a1.trans h1)
  have hacc : |r (a * b) - A * b| ≤ (5 / 4 * m + 2 ^ i) * 2 ^ (M - 54) := by
    have := abs_add_le (r (a * b) - a * b) (a * b - A * b)
    rw [sub_add_sub_cancel] at this
    linarith
  have e' := abs_le.1 e
  have a1' := abs_le.1 a1
  have c1' := abs_le.1 c1
  have := vterm hr M hM fma j i (s := -1) (a := d) (b := c) (B := C) (by norm_num) hacc hc hd (by
    rw [mul_comm d c, abs_le]
    constructor <;> linarith [e'.1, e'.2, a1'.1, a1'.2, c1'.1, c1'.2]) (by rw [mul_comm]; exact c1.trans h1)
  unfold det2
  have t : term r fma (r (a * b)) (-1) c d = term r fma (r (a * b)) (-1) d c := by unfold term; rw [mul_comm c d]
  rw [t, show A * b - C * d = A * b + -1 * (d * C) by ring]
  refine this.trans (le_of_eq (by ring))

/-- Three differences of products, whose factors may have errors. -/
theorem cross_err {r : ℝ → ℝ} (hr : NearestR r) (M : Int) (hM : -900 ≤ M) (fma : Bool) (i j : ℕ) {v V b : V3} {W m : ℝ}
    (hv : ∀ k, |v k - V k| ≤ m * 2 ^ (M - 54)) (hV : ∀ k, |V k| ≤ W * 2 ^ M) (hb : ∀ k, |b k| ≤ 5 / 4)
    (h1 : 5 / 4 * (W * 2 ^ M + m * 2 ^ (M - 54)) ≤ 2 ^ i * 2 ^ M)
    (h2 : 5 / 2 * (W * 2 ^ M + m * 2 ^ (M - 54)) + 2 * 2 ^ i * 2 ^ (M - 54) ≤ 2 ^ j * 2 ^ M) (k : Fin 3) :
    |FQuat.cross r fma v b k - Verif.Model.Lie.cross V b k| ≤ (5 / 2 * m + 2 * 2 ^ i + 2 ^ j) * 2 ^ (M - 54) ∧
      |Verif.Model.Lie.cross V b k| ≤ 5 / 2 * (W * 2 ^ M) := by
  have q : ∀ x y z w : ℝ, |x| ≤ W * 2 ^ M → |z| ≤ W * 2 ^ M → |y| ≤ 5 / 4 → |w| ≤ 5 / 4 →
      |x * y - z * w| ≤ 5 / 2 * (W * 2 ^ M) := by
    intro x y z w hx hz hy hw
    have a := abs_sub (x * y) (z * w)
    have b : |x * y| ≤ W * 2 ^ M * (5 / 4) := by
      rw [abs_mul]; exact mul_le_mul hx hy (abs_nonneg _) ((abs_nonneg _).trans hx)
    have c : |z * w| ≤ W * 2 ^ M * (5 / 4) := by
      rw [abs_mul]; exact mul_le_mul hz hw (abs_nonneg _) ((abs_nonneg _).trans hx)
    linarith
  fin_cases k
  · exact ⟨det2_err hr M hM fma i j (hv 1) (hv 2) (hV 1) (hV 2) (hb 2) (hb 1) h1 h2, q _ _ _ _ (hV 1) (hV 2) (hb 2) (hb 1)⟩
  · exact ⟨det2_err hr M hM fma i j (hv 2) (hv 0) (hV 2) (hV 0) (hb 0) (hb 2) h1 h2, q _ _ _ _ (hV 2) (hV 0) (hb 0) (hb 2)⟩
  · exact ⟨det2_err hr M hM fma i j (hv 0) (hv 1) (hV 0) (hV 1) (hb 1) (hb 0) h1 h2, q _ _ _ _ (hV 0) (hV 1) (hb 1) (hb 0)⟩

theorem rot_err {r : ℝ → ℝ} (hr : NearestR r) (M : Int) (hM : -900 ≤ M) (fma : Bool) {s : ℝ} (hs : |s| = 1) (q : Quat)
    (hq : ‖toH q‖ ^ 2 ≤ 3 / 2) (v : V3) (hv : ∀ k, |v k| ≤ 2 ^ M) (k : Fin 3) :
    |rot r fma s q v k - (v k + s * (q.w * (2 * Verif.Model.Lie.cross v q.bar k)) +
      Verif.Model.Lie.cross ((2 : ℝ) • Verif.Model.Lie.cross v q.bar) q.bar k)| ≤ 2 ^ (M - 46) := by
  rw [norm_toH_sq] at hq
  have hE : (0 : ℝ) < 2 ^ (M - 54) := two_zpow_posR _
  have hS := scale M
  have e46 : (2 : ℝ) ^ (M - 46) = 256 * 2 ^ (M - 54) := by
    rw [show M - 46 = M - 54 + 8 by ring, zpow_add₀ (by norm_num)]; norm_num [mul_comm]
  rw [e46]
  have small : ∀ x : ℝ, x ^ 2 ≤ 3 / 2 → |x| ≤ 5 / 4 := fun x h => by
    apply abs_le_of_sq_le_sq' _ (by norm_num) |> abs_le.2
    linarith
  have hw : |q.w| ≤ 5 / 4 := small _ (by linarith [sq_nonneg q.x, sq_nonneg q.y, sq_nonneg q.z])
  have hb : ∀ k, |q.bar k| ≤ 5 / 4 := by
    intro k
    fin_cases k
    · exact small q.x (by linarith [sq_nonneg q.w, sq_nonneg q.y, sq_nonneg q.z])
    · exact small q.y (by linarith [sq_nonneg q.w, sq_nonneg q.x, sq_nonneg q.z])
    · exact small q.z (by linarith [sq_nonneg q.w, sq_nonneg q.x, sq_nonneg q.y])
  unfold rot
  simp only
  generalize q.bar = b at *
  have c1 : ∀ k, |FQuat.cross r fma v b k - Verif.Model.Lie.cross v b k| ≤ 8 * 2 ^ (M - 54) ∧
      |Verif.Model.Lie.cross v b k| ≤ 5 / 2 * 2 ^ M := by
    intro k
    have := cross_err hr M hM fma 1 2 (v := v) (V := v) (b := b) (W := 1) (m := 0) (by simp) (by simpa using hv) hb
      (by rw [hS]; linarith) (by rw [hS]; linarith) k
    refine ⟨this.1.trans (le_of_eq (by ring)), this.2.trans (le_of_eq (by ring))⟩
  generalize hT : ((2 : ℝ) • Verif.Model.Lie.cross v b) = T at *
  have hTk : ∀ k, T k = 2 * Verif.Model.Lie.cross v b k := fun k => by rw [← hT]; rfl
  have hTb : ∀ k, |T k| ≤ 5 * 2 ^ M := fun k => by
    rw [hTk, abs_mul, abs_of_pos (by norm_num : (0 : ℝ) < 2)]; linarith [(c1 k).2]
  have t1 : ∀ k, |r (2 * FQuat.cross r fma v b k) - T k| ≤ 24 * 2 ^ (M - 54) := by
    intro k
    have d := abs_le.1 (c1 k).1
    have f := abs_le.1 (c1 k).2
    have g := abs_le.1 (verr hr M hM 3 (x := 2 * FQuat.cross r fma v b k) (by
      rw [abs_le]; rw [hS] at *; constructor <;> linarith [d.1, d.2, f.1, f.2]))
    rw [hTk, abs_le]
    constructor <;> linarith [g.1, g.2, d.1, d.2]
  rw [← hTk k]
  have t2 : ∀ k, |(fun i => r (2 * FQuat.cross r fma v b i)) k - T k| ≤ 24 * 2 ^ (M - 54) := t1
  show |r (term r fma (v k) s q.w ((fun i => r (2 * FQuat.cross r fma v b i)) k) +
    FQuat.cross r fma (fun i => r (2 * FQuat.cross r fma v b i)) b k) - _| ≤ _
  clear t1
  generalize (fun i => r (2 * FQuat.cross r fma v b i)) = t at *
  rename' t2 => t1
  have ht : ∀ k, |t k| ≤ 5 * 2 ^ M + 24 * 2 ^ (M - 54) := fun k => by
    have := abs_add_le (T k) (t k - T k)
    rw [add_sub_cancel] at this
    linarith [t1 k, hTb k]
  have hwt : |q.w * t k| ≤ 5 / 4 * (5 * 2 ^ M + 24 * 2 ^ (M - 54)) := by
    rw [abs_mul]; exact mul_le_mul hw (ht k) (abs_nonneg _) (by norm_num)
  have hswt : |s * (q.w * t k)| ≤ 5 / 4 * (5 * 2 ^ M + 24 * 2 ^ (M - 54)) := by rw [abs_mul, hs, one_mul]; exact hwt
  have x1 := vterm hr M hM fma 3 3 (acc := v k) (X := v k) (n := 0) hs (by simp) (t1 k) hw (by
    have := abs_add_le (v k) (s * (q.w * t k))
    have := hv k
    rw [hS] at *
    linarith) (by rw [hS] at *; linarith)
  have x2 := cross_err hr M hM fma 3 4 (v := t) (V := T) (b := b) (W := 5) (m := 24) t1 hTb hb
    (by rw [hS]; linarith) (by rw [hS]; linarith) k
  have hwT : |s * (q.w * T k)| ≤ 5 / 4 * (5 * 2 ^ M) := by
    rw [abs_mul, hs, one_mul, abs_mul]; exact mul_le_mul hw (hTb k) (abs_nonneg _) (by norm_num)
  have y1 := abs_le.1 x1
  have y2 := abs_le.1 x2.1
  have y3 := abs_le.1 x2.2
  have y4 := abs_le.1 hwT
  have y5 := abs_le.1 (hv k)
  have g := abs_le.1 (verr hr M hM 5 (x := term r fma (v k) s q.w (t k) + FQuat.cross r fma t b k) (by
      rw [abs_le]; rw [hS] at *; constructor <;> linarith [y1.1, y1.2, y2.1, y2.2, y3.1, y3.2, y4.1, y4.2, y5.1, y5.2]))
  rw [abs_le]
  constructor <;> linarith [g.1, g.2, y1.1, y1.2, y2.1, y2.2]

/-- **C150.** A vector with coordinates up to `2 ^ M` is rotated in `double`s with an error of at most `2 ^ (M - 46)` in each
coordinate, in both directions: less than a micrometre for the position of a satellite (`M = 25`). -/
theorem C150_rotate {r : ℝ → ℝ} (hr : NearestR r) (M : Int) (hM : -900 ≤ M) (fma : Bool) (q : Quat) (hq : ‖toH q‖ ^ 2 ≤ 3 / 2)
    (v : V3) (hv : ∀ k, |v k| ≤ 2 ^ M) (k : Fin 3) :
    |rot r fma 1 q v k - q.rotp v k| ≤ 2 ^ (M - 46) ∧ |rot r fma (-1) q v k - q.rota v k| ≤ 2 ^ (M - 46) := by
  have a := rot_err hr M hM fma (s := 1) (by norm_num) q hq v hv k
  have b := rot_err hr M hM fma (s := -1) (by norm_num) q hq v hv k
  constructor
  · convert a using 2
    simp [Quat.rotp]
  · convert b using 2
    simp [Quat.rota]
    ring

/-- Factors that meet the hypothesis, and are not of length one in `double`s. -/
example : |‖toH ⟨1, 1 / 2 ^ 27, 0, 0⟩‖ - 1| ≤ 1 / 2 ^ 48 ∧ ∃ r, NearestR r := by
  refine ⟨?_, exists_nearestR⟩
  have h := norm_toH_sq ⟨1, 1 / 2 ^ 27, 0, 0⟩
  have p := norm_nonneg (toH ⟨1, 1 / 2 ^ 27, 0, 0⟩)
  generalize ‖toH ⟨1, 1 / 2 ^ 27, 0, 0⟩‖ = x at *
  norm_num at h
  rw [abs_le]
  norm_num
  constructor <;> nlinarith

end Verif.Props.FloatQuat
