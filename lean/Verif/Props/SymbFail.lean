import Verif.Props.SymbGuard
import Verif.Props.SymbDense

/-!
C53: where the symbolic block algebra does not mean matrix algebra.
-/

namespace Verif.Props.Symb

open Verif.Model.Symb Verif.Model.Symb.Blk Verif.Spec.Symb Verif.Lemmas.Symb

/-- Named square blocks, named scalars, sums and products. -/
def mat (k : ℕ) : Blk := .const false (.sym k) (.num 3) (.num 3)
def scal (k : ℕ) : Blk := .const false (.sym k) (.num 1) (.num 1)
def vmat (k : ℕ) : Blk := .const false (.sym k) (.var 0) (.var 0)
def sumOf (l : List Blk) : Blk := .add false (.num 3) (.num 3) l
def prodOf (l : List Blk) : Blk := .mul false false (.num 3) (.num 3) l
def sprodOf (l : List Blk) : Blk := .mul false true (.num 3) (.num 3) l

/-- A valuation in which every name is a multiple of the identity. -/
def V₀ : Val 2 := ⟨fun _ => 3, fun k _ _ => ((k : ℝ) + 1) • 1⟩

theorem proj_three : proj V₀ (.num 3) = 1 := by
  rw [proj, ← Matrix.diagonal_one]
  congr 1
  funext i
  exact if_pos i.isLt

theorem den_mat (k : ℕ) : den V₀ (mat k) = ((k : ℝ) + 1) • 1 := by
  rw [mat, den, denName, if_neg (by decide), proj_three, one_mul, mul_one, show sgn false = 1 from rfl, one_smul]
  rfl

theorem den_scal (k : ℕ) : den V₀ (scal k) = ((k : ℝ) + 1) • 1 := by
  rw [scal, den, denName, if_pos rfl, show sgn false = 1 from rfl, one_smul]
  simp [V₀]

theorem den_sumOf (l : List Blk) : den V₀ (sumOf l) = tot V₀ l := den_add _ _ _

theorem den_prodOf (l : List Blk) : den V₀ (prodOf l) = prods V₀ l := by
  rw [prodOf, den, show sgn false = 1 from rfl, one_smul, norm_of_ne (by decide)]

theorem den_sprodOf (l : List Blk) : den V₀ (sprodOf l) = prods V₀ l := by
  rw [sprodOf, den, show sgn false = 1 from rfl, one_smul, norm_of_ne (by decide)]

theorem smul_one_ne {x y : ℝ} (h : x ≠ y) : (x • 1 : M 2) ≠ y • 1 := by
  intro he
  have := congrFun (congrFun he 0) 0
  simp at this
  exact h this

theorem good_mat (k : ℕ) : good (mat k) := by
  simp [mat, good]

theorem good_scal (k : ℕ) : good (scal k) := by
  simp [scal, good]

theorem mul_smul_one (x y : ℝ) : (x • 1 : M 2) * (y • 1) = (x * y) • 1 := by
  rw [smul_mul_assoc, one_mul, smul_smul]

/-- Subtracting a transpose adds it: A - Bᵀ is A + Bᵀ. -/
theorem C53_minus_transpose_violated :
    ∃ a b c : Blk, good a ∧ good b ∧ minus a b = some c ∧ den V₀ c ≠ den V₀ a - den V₀ b := by
  refine ⟨mat 0, (mat 1).transpose, sumOf [mat 0, .tr true (mat 1)], good_mat 0, (C53_tr_partial (good_mat 1)).1, rfl, ?_⟩
  rw [(C53_tr_partial (good_mat 1)).2.2, den_sumOf, tot, tot, tot, den, den_mat, den_mat, Matrix.transpose_smul,
    Matrix.transpose_one, add_zero, ← add_smul, ← sub_smul]
  exact smul_one_ne (by norm_num)

/-- Subtracting a sum adds it: A - (B + C) is A + B + C; and 0 - (B + C) is B - C. -/
theorem C53_minus_sum_violated :
    (∃ c : Blk, plus (mat 1) (mat 2) = some (sumOf [mat 1, mat 2]) ∧ minus (mat 0) (sumOf [mat 1, mat 2]) = some c ∧
      den V₀ c ≠ den V₀ (mat 0) - den V₀ (sumOf [mat 1, mat 2])) ∧
    ∃ c : Blk, minus (c0 (.num 3) (.num 3)) (sumOf [mat 1, mat 2]) = some c ∧ den V₀ c ≠ - den V₀ (sumOf [mat 1, mat 2]) := by
  refine ⟨⟨sumOf [mat 0, mat 1, mat 2], rfl, rfl, ?_⟩, ⟨.add true (.num 3) (.num 3) [mat 1, mat 2], rfl, ?_⟩⟩
  · simp only [den_sumOf, tot, den_mat, add_zero, ← add_smul, ← sub_smul]
    exact smul_one_ne (by norm_num)
  · simp only [den, sums, den_sumOf, tot, den_mat, add_zero, ← add_smul, ← neg_smul, sgn, if_true, smul_smul]
    exact smul_one_ne (by norm_num)

/-- Subtracting a negative block does not add it: with D = 0 - B, A - D is A - B. -/
theorem C53_minus_minus_violated :
    ∃ d c : Blk, minus (c0 (.num 3) (.num 3)) (mat 1) = some d ∧ good d ∧ minus (mat 0) d = some c ∧
      den V₀ c ≠ den V₀ (mat 0) - den V₀ d := by
  refine ⟨.const true (.sym 1) (.num 3) (.num 3), sumOf [mat 0, .const true (.sym 1) (.num 3) (.num 3)], rfl, ?_, rfl, ?_⟩
  · simp [good]
  · have hd : den V₀ (.const true (.sym 1) (.num 3) (.num 3)) = (-2 : ℝ) • 1 := by
      rw [den, denName, if_neg (by decide), proj_three, one_mul, mul_one, show sgn true = -1 from rfl]
      show (-1 : ℝ) • ((((1 : ℕ) : ℝ) + 1) • (1 : M 2)) = _
      rw [smul_smul]
      norm_num
    simp only [den_sumOf, tot, den_mat, hd, add_zero, ← add_smul, ← sub_smul]
    exact smul_one_ne (by norm_num)

/-- The sign of an identity and of a product is lost in a product: (0 - I) * B is B, and (0 - A * B) * C is A * B * C. -/
theorem C53_minus_product_violated :
    (∃ i : Blk, minus (c0 (.num 3) (.num 3)) (cI (.num 3)) = some i ∧ times i (mat 1) = some (mat 1) ∧
      den V₀ (mat 1) ≠ den V₀ i * den V₀ (mat 1)) ∧
    ∃ p q c : Blk, times (mat 1) (mat 2) = some p ∧ minus (c0 (.num 3) (.num 3)) p = some q ∧ times q (mat 3) = some c ∧
      den V₀ q = - den V₀ p ∧ den V₀ c ≠ den V₀ q * den V₀ (mat 3) := by
  refine ⟨⟨.const true .ident (.num 3) (.num 3), rfl, rfl, ?_⟩, ⟨prodOf [mat 1, mat 2],
    .mul true false (.num 3) (.num 3) [mat 1, mat 2], prodOf [mat 1, mat 2, mat 3], rfl, rfl, rfl, ?_, ?_⟩⟩
  · rw [den, denName, if_neg (by decide), proj_three, show sgn true = -1 from rfl, den_mat, mul_smul_one]
    exact smul_one_ne (by norm_num)
  · rw [den_prodOf, den, norm_of_ne (by decide), show sgn true = -1 from rfl, neg_one_smul]
  · rw [den_prodOf, den, norm_of_ne (by decide), show sgn true = -1 from rfl]
    simp only [prods, den_mat, mul_one, mul_smul_one, smul_smul]
    exact smul_one_ne (by norm_num)

/-- Products with an identity or a zero of any size are accepted, and products with a scalar on the right raise. -/
theorem C53_shapes_violated :
    (¬ Conform (cI (.num 3)) (.const false (.sym 0) (.num 5) (.num 6)) ∧
      times (cI (.num 3)) (.const false (.sym 0) (.num 5) (.num 6)) = some (.const false (.sym 0) (.num 5) (.num 6))) ∧
    (¬ Conform (c0 (.num 3) (.num 4)) (.const false (.sym 0) (.num 5) (.num 6)) ∧
      times (c0 (.num 3) (.num 4)) (.const false (.sym 0) (.num 5) (.num 6)) = some (c0 (.num 3) (.num 6))) ∧
    (Conform (mat 0) (scal 0) ∧ times (mat 0) (scal 0) = none) ∧ Conform (scal 0) (scal 1) ∧ times (scal 0) (scal 1) = none := by
  refine ⟨⟨?_, rfl⟩, ⟨?_, rfl⟩, ⟨Or.inr (Or.inl rfl), rfl⟩, Or.inl rfl, rfl⟩
  · rintro (h | h | h) <;> simp [Blk.isScalar, cI, shape, Blk.rows, Blk.cols] at h
  · rintro (h | h | h) <;> simp [Blk.isScalar, c0, shape, Blk.rows, Blk.cols] at h

theorem good_sum {l : List Blk} (h : goods l) (h' : l ≠ []) (hs : ∀ t ∈ l, t.shape = (.num 3, .num 3)) :
    good (sumOf l) := by
  rw [sumOf, good]
  exact ⟨rfl, h, h', hs⟩

/-- Factoring out the first term takes a scalar for it: A + A + A * C becomes 2 * (A + C). -/
theorem C53_first_violated :
    ∃ e e' : Blk, good e ∧ reduce (code 9) 9 e = some e' ∧ den V₀ e' ≠ den V₀ e := by
  refine ⟨sumOf [mat 0, mat 0, prodOf [mat 0, mat 2]],
    sprodOf [.const false (.num 2) (.num 1) (.num 1), sumOf [mat 0, mat 2]], ?_, rfl, ?_⟩
  · refine good_sum ?_ (by simp) (by simp [mat, prodOf, shape])
    simp [goods, good_mat]
    simp [prodOf, good, goods, chain, nonScalar, mat, Blk.isScalar, shape, Blk.rows, Blk.cols]
  · simp only [den_sumOf, den_sprodOf, den_prodOf, tot, prods, den_num, den_mat, add_zero, mul_one, ← add_smul, mul_smul_one]
    exact smul_one_ne (by norm_num)

/-- Without repeated terms: s * A + A * B becomes s * (A + B). -/
theorem C53_scalar_first_violated :
    ∃ e e' : Blk, good e ∧ reduce (code 9) 9 e = some e' ∧ den V₀ e' ≠ den V₀ e := by
  refine ⟨sumOf [sprodOf [scal 4, mat 0], prodOf [mat 0, mat 1]],
    sprodOf [scal 4, sumOf [mat 0, mat 1]], ?_, rfl, ?_⟩
  · refine good_sum ?_ (by simp) (by simp [sprodOf, prodOf, shape])
    simp [goods, prodOf, sprodOf, good, chain, nonScalar, mat, scal, Blk.isScalar, shape, Blk.rows, Blk.cols]
  · simp only [den_sumOf, den_sprodOf, den_prodOf, tot, prods, den_scal, den_mat, add_zero, mul_one, ← add_smul, mul_smul_one]
    exact smul_one_ne (by norm_num)

/-- Products are compared without counting the scalars: s * s * t * A + s * t * t * A becomes 2 * s * s * t * A. -/
theorem C53_equal_violated :
    ∃ e e' : Blk, good e ∧ reduce (code 9) 9 e = some e' ∧ den V₀ e' ≠ den V₀ e := by
  refine ⟨sumOf [sprodOf [scal 4, scal 4, scal 5, mat 0], sprodOf [scal 4, scal 5, scal 5, mat 0]],
    sumOf [sprodOf [.const false (.num 2) (.num 1) (.num 1), scal 4, scal 4, scal 5, mat 0]], ?_, rfl, ?_⟩
  · refine good_sum ?_ (by simp) (by simp [sprodOf, shape])
    simp [goods, sprodOf, good, chain, nonScalar, mat, scal, Blk.isScalar, shape, Blk.rows, Blk.cols]
  · simp only [den_sumOf, den_sprodOf, den_prodOf, tot, prods, den_num, den_scal, den_mat, add_zero, mul_one, ← add_smul,
      mul_smul_one]
    exact smul_one_ne (by norm_num)

/-- Sums are compared without counting the terms: (A + B) * C + (A + A + B) * C becomes 2 * (A + B) * C. -/
theorem C53_equal_sums_violated :
    ∃ e e' : Blk, good e ∧ reduce (code 9) 9 e = some e' ∧ den V₀ e' ≠ den V₀ e := by
  refine ⟨sumOf [prodOf [sumOf [mat 0, mat 1], mat 2], prodOf [sumOf [mat 0, mat 0, mat 1], mat 2]],
    sumOf [sprodOf [.const false (.num 2) (.num 1) (.num 1), sumOf [mat 0, mat 1], mat 2]], ?_, rfl, ?_⟩
  · refine good_sum ?_ (by simp) (by simp [prodOf, shape])
    simp [goods, prodOf, sumOf, good, chain, nonScalar, mat, Blk.isScalar, shape, Blk.rows, Blk.cols]
  · simp only [den_sumOf, den_sprodOf, den_prodOf, tot, prods, den_num, den_scal, den_mat, add_zero, mul_one, ← add_smul,
      mul_smul_one]
    exact smul_one_ne (by norm_num)

/-- With any fuel there is no outcome for a sum with a transpose, for A * Bᵀ + A * Cᵀ, or for s * t * A + s * t * B. -/
theorem C53_no_outcome_violated (n m : ℕ) :
    reduce (code n) m (sumOf [mat 0, .tr false (mat 1)]) = none ∧
    reduce (code n) m (sumOf [prodOf [mat 0, .tr false (mat 1)], prodOf [mat 0, .tr false (mat 2)]]) = none ∧
    reduce (code n) m (sumOf [sprodOf [scal 4, scal 5, mat 0], sprodOf [scal 4, scal 5, mat 1]]) = none ∧
    reduce (code n) m (.add false (.var 0) (.var 0) [vmat 0, .mul false false (.var 0) (.var 0) [vmat 1, vmat 0]]) = none := by
  rcases n with _ | _ | _ | n <;> rcases m with _ | _ | _ | _ | _ | _ | _ | _ | _ | m <;> exact ⟨rfl, rfl, rfl, rfl⟩

/-- The steps keep the meaning on expressions of the generator's kind: the guarded functions have an outcome. -/
example : reduce (guarded 9) 9 (sumOf [prodOf [mat 0, mat 1, mat 2], prodOf [mat 0, mat 1, mat 3]]) =
    some (prodOf [mat 0, mat 1, sumOf [mat 2, mat 3]]) := rfl
example : reduce (guarded 9) 9 (sumOf [prodOf [mat 0, mat 1], prodOf [mat 0, mat 2], prodOf [mat 3, mat 1],
    prodOf [mat 3, mat 2]]) = some (prodOf [sumOf [mat 0, mat 3], sumOf [mat 1, mat 2]]) := rfl
example : reduce (guarded 9) 9 (sumOf [mat 0, mat 1, mat 0]) =
    some (sumOf [sprodOf [.const false (.num 2) (.num 1) (.num 1), mat 0], mat 1]) := rfl

/-- The expected results of the project's tests (symb_matrix_test.py 204-214, 230-254, 256-268), with products of scalars
written as lists, because `d*t` raises. -/
example : reduce (code 9) 19 (sumOf ([1, 0, 1, 1, 2, 2, 2, 0, 2, 0, 1, 2].map mat)) =
    some (sumOf [sprodOf [.const false (.num 4) (.num 1) (.num 1), mat 1], sprodOf [.const false (.num 3) (.num 1) (.num 1), mat 0],
      sprodOf [.const false (.num 5) (.num 1) (.num 1), mat 2]]) := rfl
example : factorFirst (code 9) 9 (sumOf [prodOf [mat 0, mat 1, mat 2, mat 3, mat 4], prodOf [mat 0, mat 1, mat 0, mat 1, mat 2],
    prodOf [mat 0, mat 1], prodOf [mat 1, mat 2, mat 2, mat 3], prodOf [mat 1, mat 2, mat 0, mat 3]]) =
    some (sumOf [prodOf [mat 0, mat 1, sumOf [prodOf [mat 2, mat 3, mat 4], prodOf [mat 0, mat 1, mat 2], cI (.num 3)]],
      prodOf [mat 1, mat 2, sumOf [prodOf [mat 2, mat 3], prodOf [mat 0, mat 3]]]]) := rfl
example : factorLast (code 9) 9 (sumOf [prodOf [mat 2, mat 3, mat 4, mat 0], prodOf [mat 0, mat 2, mat 0], mat 0,
    prodOf [mat 2, mat 3, mat 1], prodOf [mat 0, mat 3, mat 1]]) =
    some (sumOf [prodOf [sumOf [prodOf [mat 2, mat 3, mat 4], prodOf [mat 0, mat 2], cI (.num 3)], mat 0],
      prodOf [sumOf [prodOf [mat 2, mat 3], prodOf [mat 0, mat 3]], mat 1]]) := rfl

/-- The property for the code as it is. -/
def C53_statement : Prop :=
  (∀ a b c, good a → good b → plus a b = some c → ∀ (N : ℕ) (V : Val N), den V c = den V a + den V b) ∧
  (∀ a b c, good a → good b → minus a b = some c → ∀ (N : ℕ) (V : Val N), den V c = den V a - den V b) ∧
  (∀ a b c, good a → good b → times a b = some c →
    Conform a b ∧ ∀ (N : ℕ) (V : Val N), den V c = norm c.shape (den V a * den V b)) ∧
  (∀ a, good a → ∀ (N : ℕ) (V : Val N), den V a.transpose = (den V a).transpose) ∧
  ∀ n m e e', good e → reduce (code n) m e = some e' → ∀ (N : ℕ) (V : Val N), den V e' = den V e

theorem C53_statement_false : ¬ C53_statement := by
  rintro ⟨-, -, -, -, h⟩
  obtain ⟨e, e', h1, h2, h3⟩ := C53_first_violated
  exact h3 (h 9 9 e e' h1 h2 2 V₀)

end Verif.Props.Symb
