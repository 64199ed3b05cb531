import Verif.Spec.Symb
import Mathlib.LinearAlgebra.Matrix.Notation
import Mathlib.Tactic.Linarith
import Mathlib.Tactic.Abel
import Mathlib.Tactic.Module

/-!
Lemmas about the meaning of symbolic blocks.
-/

namespace Verif.Lemmas.Symb

open Verif.Model.Symb Verif.Model.Symb.Blk Verif.Spec.Symb

variable {N : ℕ} {V : Val N}

/-! ### The stored matrices -/

theorem proj_idem (d : Dim) : proj V d * proj V d = proj V d := by
  rw [proj, Matrix.diagonal_mul_diagonal]
  congr 1
  funext i
  split_ifs <;> simp

theorem proj_tr (d : Dim) : (proj V d).transpose = proj V d := by
  rw [proj, Matrix.diagonal_transpose]

theorem size_one : V.size (.num 1) = 1 := rfl

theorem fin_lt_one {i : Fin (N + 1)} : i.val < 1 ↔ i = 0 := by
  constructor
  · intro h
    exact Fin.ext (by rw [Fin.val_zero]; omega)
  · rintro rfl
    simp

theorem proj_one (X : M N) : proj V (.num 1) * X * proj V (.num 1) = X 0 0 • proj V (.num 1) := by
  ext i j
  rw [proj, Matrix.mul_diagonal, Matrix.diagonal_mul, Matrix.smul_apply, Matrix.diagonal_apply, size_one]
  by_cases hi : i = 0 <;> by_cases hj : j = 0
  · subst hi hj
    simp
  · subst hi
    have : ¬ j.val < 1 := fun h => hj (fin_lt_one.1 h)
    simp [this, Ne.symm hj]
  · subst hj
    have : ¬ i.val < 1 := fun h => hi (fin_lt_one.1 h)
    simp [this, hi]
  · have : ¬ i.val < 1 := fun h => hi (fin_lt_one.1 h)
    simp [this]

theorem norm_smul' (s : Dim × Dim) (x : ℝ) (X : M N) : norm s (x • X) = x • norm s X := by
  unfold norm
  split_ifs
  · rw [Matrix.smul_apply, smul_smul, smul_eq_mul]
  · rfl

theorem norm_zero' (s : Dim × Dim) : norm s (0 : M N) = 0 := by
  unfold norm
  split_ifs <;> simp

theorem norm_add' (s : Dim × Dim) (X Y : M N) : norm s (X + Y) = norm s X + norm s Y := by
  unfold norm
  split_ifs
  · rw [Matrix.add_apply, add_smul]
  · rfl

theorem norm_of_ne {s : Dim × Dim} (h : s ≠ one1) (X : M N) : norm s X = X := if_neg h

theorem norm_one_smul (x : ℝ) : norm one1 (x • 1 : M N) = x • 1 := by
  unfold norm
  rw [if_pos rfl]
  simp

theorem norm_one_proj (x : ℝ) : norm one1 (x • proj V (.num 1)) = (x • 1 : M N) := by
  unfold norm
  rw [if_pos rfl]
  simp [proj, size_one]

/-- A stored matrix has the size of its block. -/
def PFit (V : Val N) (d e : Dim) (X : M N) : Prop := proj V d * X = X ∧ X * proj V e = X

def Fit (V : Val N) (s : Dim × Dim) (X : M N) : Prop := if s = one1 then ∃ x : ℝ, X = x • 1 else PFit V s.1 s.2 X

theorem pfit_mul {d e f g : Dim} {X Y : M N} (hX : PFit V d e X) (hY : PFit V f g Y) : PFit V d g (X * Y) :=
  ⟨by rw [← mul_assoc, hX.1], by rw [mul_assoc, hY.2]⟩

theorem pfit_smul {d e : Dim} {X : M N} (x : ℝ) (hX : PFit V d e X) : PFit V d e (x • X) :=
  ⟨by rw [mul_smul_comm, hX.1], by rw [smul_mul_assoc, hX.2]⟩

theorem pfit_one {X : M N} (hX : PFit V (.num 1) (.num 1) X) : ∃ x : ℝ, X = x • proj V (.num 1) :=
  ⟨X 0 0, by rw [← proj_one, hX.1, hX.2]⟩

theorem fit_scalar {s : Dim × Dim} {X : M N} (h : s = one1) : Fit V s X ↔ ∃ x : ℝ, X = x • 1 := by
  unfold Fit
  rw [if_pos h]

theorem fit_plain {s : Dim × Dim} {X : M N} (h : s ≠ one1) : Fit V s X ↔ PFit V s.1 s.2 X := by
  unfold Fit
  rw [if_neg h]

theorem fit_norm {s : Dim × Dim} {X : M N} (h : Fit V s X) : norm s X = X := by
  by_cases hs : s = one1
  · obtain ⟨x, rfl⟩ := (fit_scalar hs).1 h
    rw [hs, norm_one_smul]
  · exact norm_of_ne hs X

theorem fit_of_pfit {d e : Dim} {X : M N} (h : PFit V d e X) : Fit V (d, e) (norm (d, e) X) := by
  by_cases hs : (d, e) = one1
  · rw [fit_scalar hs]
    exact ⟨X 0 0, if_pos hs⟩
  · rw [fit_plain hs, norm_of_ne hs]
    exact h

theorem fit_zero (s : Dim × Dim) : Fit V s 0 := by
  by_cases hs : s = one1
  · rw [fit_scalar hs]
    exact ⟨0, by simp⟩
  · rw [fit_plain hs]
    exact ⟨by simp, by simp⟩

theorem fit_add {s : Dim × Dim} {X Y : M N} (hX : Fit V s X) (hY : Fit V s Y) : Fit V s (X + Y) := by
  by_cases hs : s = one1
  · rw [fit_scalar hs] at *
    obtain ⟨x, rfl⟩ := hX
    obtain ⟨y, rfl⟩ := hY
    exact ⟨x + y, by rw [add_smul]⟩
  · rw [fit_plain hs] at *
    exact ⟨by rw [mul_add, hX.1, hY.1], by rw [add_mul, hX.2, hY.2]⟩

theorem fit_smul {s : Dim × Dim} {X : M N} (x : ℝ) (hX : Fit V s X) : Fit V s (x • X) := by
  by_cases hs : s = one1
  · rw [fit_scalar hs] at *
    obtain ⟨y, rfl⟩ := hX
    exact ⟨x * y, by rw [smul_smul]⟩
  · rw [fit_plain hs] at *
    exact pfit_smul x hX

theorem isScalar_iff {b : Blk} : b.isScalar = true ↔ b.shape = one1 := by
  unfold isScalar
  simp

theorem not_scalar {b : Blk} : b.isScalar = false ↔ b.shape ≠ one1 := by
  unfold isScalar
  simp

/-! ### Lists of factors -/

theorem goods_iff : ∀ {ts : List Blk}, goods ts ↔ ∀ t ∈ ts, good t
  | [] => by simp [goods]
  | t :: ts => by simp [goods, goods_iff (ts := ts)]

theorem goods_append {l m : List Blk} : goods (l ++ m) ↔ goods l ∧ goods m := by
  rw [goods_iff, goods_iff, goods_iff]
  constructor
  · intro h
    exact ⟨fun t ht => h t (List.mem_append_left _ ht), fun t ht => h t (List.mem_append_right _ ht)⟩
  · rintro ⟨h1, h2⟩ t ht
    exact (List.mem_append.1 ht).elim (h1 t) (h2 t)

theorem prods_append (l m : List Blk) : prods V (l ++ m) = prods V l * prods V m := by
  induction l with
  | nil => simp [prods]
  | cons t l ih => rw [List.cons_append, prods, prods, ih, mul_assoc]

theorem tot_append (l m : List Blk) : tot V (l ++ m) = tot V l + tot V m := by
  induction l with
  | nil => simp [tot]
  | cons t l ih => rw [List.cons_append, tot, tot, ih, add_assoc]

theorem sums_one : ∀ ts : List Blk, sums V 1 ts = tot V ts
  | [] => rfl
  | t :: ts => by rw [sums, tot, one_smul]

theorem chain_append {d e : Dim} {l m : List Blk} : chain d (l ++ m) e ↔ ∃ k, chain d l k ∧ chain k m e := by
  induction l generalizing d with
  | nil => simp [chain]
  | cons t l ih =>
    rw [List.cons_append, chain]
    simp only [chain]
    split_ifs
    · exact ih
    · rw [ih]
      constructor
      · rintro ⟨h, k, h1, h2⟩
        exact ⟨k, ⟨h, h1⟩, h2⟩
      · rintro ⟨k, ⟨h, h1⟩, h2⟩
        exact ⟨h, k, h1, h2⟩

theorem nonScalar_append (l m : List Blk) : nonScalar (l ++ m) = nonScalar l ++ nonScalar m := List.filter_append ..

theorem nonScalar_cons_of_scalar {t : Blk} (h : t.isScalar = true) (l : List Blk) : nonScalar (t :: l) = nonScalar l := by
  unfold nonScalar
  rw [List.filter_cons_of_neg (by simp [h])]

theorem nonScalar_cons_of_not {t : Blk} (h : t.isScalar = false) (l : List Blk) :
    nonScalar (t :: l) = t :: nonScalar l := by
  unfold nonScalar
  rw [List.filter_cons_of_pos (by simp [h])]

/-- Without non-scalars the number of rows and of columns is the same. -/
theorem chain_scalars {d e : Dim} {l : List Blk} (hl : nonScalar l = []) (h : chain d l e) : d = e := by
  induction l with
  | nil => exact h
  | cons t l ih =>
    cases ht : t.isScalar
    · rw [nonScalar_cons_of_not ht] at hl
      exact absurd hl (by simp)
    · rw [nonScalar_cons_of_scalar ht] at hl
      rw [chain, if_pos ht] at h
      exact ih hl h

theorem chain_of_scalars {l : List Blk} (hl : nonScalar l = []) (d : Dim) : chain d l d := by
  induction l with
  | nil => rfl
  | cons t l ih =>
    cases ht : t.isScalar
    · rw [nonScalar_cons_of_not ht] at hl
      exact absurd hl (by simp)
    · rw [nonScalar_cons_of_scalar ht] at hl
      rw [chain, if_pos ht]
      exact ih hl

theorem prods_scalars {l : List Blk} (hf : ∀ t ∈ l, Fit V t.shape (den V t)) (hl : nonScalar l = []) :
    ∃ x : ℝ, prods V l = x • 1 := by
  induction l with
  | nil => exact ⟨1, by rw [prods, one_smul]⟩
  | cons t l ih =>
    cases ht : t.isScalar
    · rw [nonScalar_cons_of_not ht] at hl
      exact absurd hl (by simp)
    · rw [nonScalar_cons_of_scalar ht] at hl
      obtain ⟨x, hx⟩ := ih (fun u hu => hf u (List.mem_cons_of_mem _ hu)) hl
      obtain ⟨y, hy⟩ := (fit_scalar (isScalar_iff.1 ht)).1 (hf t (List.mem_cons_self ..))
      refine ⟨y * x, ?_⟩
      rw [prods, hx, hy, smul_mul_assoc, one_mul, smul_smul]

theorem prods_fit {l : List Blk} {d e : Dim} (hf : ∀ t ∈ l, Fit V t.shape (den V t)) (hl : nonScalar l ≠ [])
    (hc : chain d l e) : PFit V d e (prods V l) := by
  induction l generalizing d with
  | nil => exact absurd rfl hl
  | cons t l ih =>
    have hf' : ∀ u ∈ l, Fit V u.shape (den V u) := fun u hu => hf u (List.mem_cons_of_mem _ hu)
    have htf := hf t (List.mem_cons_self ..)
    cases ht : t.isScalar
    · rw [fit_plain (not_scalar.1 ht)] at htf
      rw [chain, if_neg (by simp [ht])] at hc
      obtain ⟨rfl, hc⟩ := hc
      rw [prods]
      by_cases hn : nonScalar l = []
      · obtain ⟨x, hx⟩ := prods_scalars hf' hn
        have he := chain_scalars hn hc
        rw [hx, mul_smul_comm, mul_one, ← he]
        exact pfit_smul x htf
      · exact pfit_mul htf (ih hf' hn hc)
    · rw [nonScalar_cons_of_scalar ht] at hl
      rw [chain, if_pos ht] at hc
      obtain ⟨y, hy⟩ := (fit_scalar (isScalar_iff.1 ht)).1 htf
      rw [prods, hy, smul_mul_assoc, one_mul]
      exact pfit_smul y (ih hf' hl hc)

theorem tot_fit {l : List Blk} {s : Dim × Dim} (hf : ∀ t ∈ l, Fit V t.shape (den V t)) (hs : ∀ t ∈ l, t.shape = s) :
    Fit V s (tot V l) := by
  induction l with
  | nil => exact fit_zero s
  | cons t l ih =>
    rw [tot]
    refine fit_add ?_ (ih (fun u hu => hf u (List.mem_cons_of_mem _ hu)) (fun u hu => hs u (List.mem_cons_of_mem _ hu)))
    have h := hf t (List.mem_cons_self ..)
    rw [hs t (List.mem_cons_self ..)] at h
    exact h

theorem denName_fit {r c : Dim} {nm : Name} (h1 : nm = .ident → r = c) (h2 : (∃ n, nm = .num n) → (r, c) = one1) :
    Fit V (r, c) (denName V r c nm) := by
  cases nm with
  | zero => exact fit_zero _
  | ident =>
    obtain rfl := h1 rfl
    rw [denName]
    by_cases hs : (r, r) = one1
    · rw [if_pos hs, fit_scalar hs]
      exact ⟨1, by rw [one_smul]⟩
    · rw [if_neg hs, fit_plain hs]
      exact ⟨proj_idem r, proj_idem r⟩
  | num n =>
    rw [fit_scalar (h2 ⟨n, rfl⟩)]
    exact ⟨n, rfl⟩
  | sym k =>
    rw [denName]
    by_cases hs : (r, c) = one1
    · rw [if_pos hs, fit_scalar hs]
      exact ⟨_, rfl⟩
    · rw [if_neg hs, fit_plain hs]
      exact ⟨by rw [← mul_assoc, ← mul_assoc, proj_idem], by rw [mul_assoc, proj_idem]⟩

theorem fit_tr {s : Dim × Dim} {X : M N} (hs : s ≠ one1) (h : Fit V s X) : Fit V s.swap X.transpose := by
  have hs' : s.swap ≠ one1 := by
    intro he
    apply hs
    rw [← Prod.swap_swap s, he]
    rfl
  rw [fit_plain hs] at h
  rw [fit_plain hs']
  refine ⟨?_, ?_⟩
  · show proj V s.2 * _ = _
    rw [← proj_tr s.2, ← Matrix.transpose_mul, h.2]
  · show _ * proj V s.1 = _
    rw [← proj_tr s.1, ← Matrix.transpose_mul, h.1]

mutual
/-- The meaning of an expression has the size of the expression. -/
theorem fit : ∀ (b : Blk), good b → Fit V b.shape (den V b)
  | .const neg nm r c, h => by
    rw [good] at h
    rw [den]
    exact fit_smul _ (denName_fit h.2.1 h.2.2)
  | .tr neg b, h => by
    rw [good] at h
    rw [den]
    exact fit_tr (not_scalar.1 h.2.2) (fit b h.2.1)
  | .mul neg cm r c ts, h => by
    rw [good] at h
    rw [den]
    exact fit_smul _ (fit_of_pfit (prods_fit (fits ts h.2.1) h.2.2.1 h.2.2.2))
  | .add neg r c ts, h => by
    rw [good] at h
    obtain ⟨rfl, h1, h2, h3⟩ := h
    rw [den, show sgn false = 1 from rfl, sums_one]
    exact tot_fit (fits ts h1) h3
theorem fits : ∀ (ts : List Blk), goods ts → ∀ t ∈ ts, Fit V t.shape (den V t)
  | [], _, t, ht => absurd ht (by simp)
  | u :: us, h, t, ht => by
    rw [goods] at h
    rcases List.mem_cons.1 ht with he | ht
    · rw [he]
      exact fit u h.1
    · exact fits us h.2 t ht
end

theorem norm_den {b : Blk} (h : good b) : norm b.shape (den V b) = den V b := fit_norm (fit b h)

theorem den_scalar {b : Blk} (h : good b) (hs : b.isScalar = true) : ∃ x : ℝ, den V b = x • 1 :=
  (fit_scalar (isScalar_iff.1 hs)).1 (fit b h)

theorem den_plain {b : Blk} (h : good b) (hs : b.isScalar = false) : PFit V b.rows b.cols (den V b) :=
  (fit_plain (not_scalar.1 hs)).1 (fit b h)

end Verif.Lemmas.Symb
