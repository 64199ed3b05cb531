import Mathlib.Tactic.FinCases
import Verif.Model.Ekf
import Verif.Lemmas.Lie
import Mathlib.LinearAlgebra.Matrix.PosDef
import Mathlib.Data.Real.StarOrdered

/-! The covariance of the generated Kalman filter, rejected updates, and copies of the state (C40-C42). -/

namespace Verif.Props.Ekf

open Verif.Model.Lie Verif.Model.Ekf Matrix

section filter
variable {n : ℕ} {d : Fin n → ℕ}

/-- What is read back is symmetric exactly when the diagonal blocks are. -/
theorem full_apply (S : Stored d) (p q : Idx d) : full S p q = if p.1 ≤ q.1 then S p q else S q p := rfl

theorem sym_at {M : Matrix (Idx d) (Idx d) ℝ} (h : M.IsSymm) (p q : Idx d) : M q p = M p q := h.apply p q

theorem full_commit {M : Matrix (Idx d) (Idx d) ℝ} (h : M.IsSymm) (S : Stored d) :
    full (commitSym M S) = M := by
  ext p q
  simp only [full_apply, commitSym, of_apply]
  by_cases h1 : p.1 ≤ q.1
  · simp [h1]
  · have h2 : q.1 ≤ p.1 := le_of_not_ge h1
    simp [h1, h2, sym_at h p q]

theorem full_add {M : Matrix (Idx d) (Idx d) ℝ} (h : M.IsSymm) (S : Stored d) :
    full (addSym M S) = full S + M := by
  ext p q
  simp only [full_apply, addSym, of_apply, Matrix.add_apply]
  by_cases h1 : p.1 ≤ q.1
  · simp [h1]
  · have h2 : q.1 ≤ p.1 := le_of_not_ge h1
    simp [h1, h2, sym_at h p q]

theorem full_sub {M : Matrix (Idx d) (Idx d) ℝ} (h : M.IsSymm) (S : Stored d) :
    full (subSym M S) = full S - M := by
  ext p q
  simp only [full_apply, subSym, of_apply, Matrix.sub_apply]
  by_cases h1 : p.1 ≤ q.1
  · simp [h1]
  · have h2 : q.1 ≤ p.1 := le_of_not_ge h1
    simp [h1, h2, sym_at h p q]

theorem psd_symm {ι : Type} [Fintype ι] {M : Matrix ι ι ℝ} (h : M.PosSemidef) : M.IsSymm := by
  have := h.isHermitian
  rwa [Matrix.IsHermitian, conjTranspose_eq_transpose_of_trivial] at this

theorem psd_sandwich {ι κ : Type} [Fintype ι] [Fintype κ] {M : Matrix ι ι ℝ} (h : M.PosSemidef)
    (A : Matrix κ ι ℝ) : (A * M * Aᵀ).PosSemidef := by
  have := h.mul_mul_conjTranspose_same A
  rwa [conjTranspose_eq_transpose_of_trivial] at this

theorem psd_diag {ι : Type} [Fintype ι] [DecidableEq ι] {v : ι → ℝ} (h : ∀ i, 0 ≤ v i) :
    (diagonal v).PosSemidef := PosSemidef.diagonal h

/-- A covariance as required below: the identity. -/
example : (full (commitSym (1 : Matrix (Idx d) (Idx d) ℝ) 0)).PosSemidef := by
  rw [full_commit Matrix.isSymm_one]; exact PosSemidef.one

/-- **C40**, prediction: every dynamics and input Jacobian, step and non-negative noise maps a symmetric
positive semidefinite covariance to a symmetric positive semidefinite one, whatever the output memory
held; and the result is the textbook one. -/
theorem C40_predict {m : ℕ} (A : Matrix (Idx d) (Idx d) ℝ) (B : Matrix (Idx d) (Fin m) ℝ) (dt : ℝ)
    (Qx : Idx d → ℝ) (Qu : Fin m → ℝ) (P out : Stored d) (hP : (full P).PosSemidef)
    (hx : ∀ i, 0 ≤ Qx i) (hu : ∀ i, 0 ≤ Qu i) :
    (full (predictCov A B dt Qx Qu P out)).PosSemidef ∧
      full (predictCov A B dt Qx Qu P out)
        = (1 + dt • A + (dt ^ 2 / 2) • A ^ 2) * full P * (1 + dt • A + (dt ^ 2 / 2) • A ^ 2)ᵀ
          + (dt • B + (dt ^ 2 / 2) • (A * B)) * diagonal Qu * (dt • B + (dt ^ 2 / 2) • (A * B))ᵀ
          + diagonal Qx := by
  have h1 := (psd_sandwich hP (abar A dt)).add (psd_sandwich (psd_diag hu) (bbar A B dt))
  have e : full (predictCov A B dt Qx Qu P out)
      = abar A dt * full P * (abar A dt)ᵀ + bbar A B dt * diagonal Qu * (bbar A B dt)ᵀ + diagonal Qx := by
    unfold predictCov
    rw [full_add (psd_symm (psd_diag hx)), full_commit (psd_symm h1)]
  refine ⟨?_, ?_⟩
  · rw [e]; exact h1.add (psd_diag hx)
  · have ea : abar A dt = 1 + dt • A + (dt ^ 2 / 2) • A ^ 2 := by
      unfold abar; rw [sq A]; congr 2; ring
    have eb : bbar A B dt = dt • B + (dt ^ 2 / 2) • (A * B) := by
      unfold bbar
      rw [Matrix.add_mul, Matrix.one_mul, smul_add, Matrix.smul_mul, smul_smul]
      congr 2; ring
    rw [e, ea, eb]

theorem innov_symm {m : ℕ} {P : Matrix (Idx d) (Idx d) ℝ} (hP : P.PosSemidef) (H : Matrix (Fin m) (Idx d) ℝ)
    {R : Fin m → ℝ} (hR : ∀ i, 0 ≤ R i) : (innov P H R).PosSemidef := by
  unfold innov
  rw [← Matrix.mul_assoc]
  exact (psd_sandwich hP H).add (psd_diag hR)

/-- The Kalman update in Joseph's form. -/
theorem joseph {m : ℕ} {P : Matrix (Idx d) (Idx d) ℝ} (hP : P.PosSemidef) (H : Matrix (Fin m) (Idx d) ℝ)
    {R : Fin m → ℝ} (hR : ∀ i, 0 ≤ R i) (hdet : (innov P H R).det ≠ 0) :
    P - gain P H R * (P * Hᵀ)ᵀ
      = (1 - gain P H R * H) * P * (1 - gain P H R * H)ᵀ + gain P H R * diagonal R * (gain P H R)ᵀ := by
  have hs : Pᵀ = P := psd_symm hP
  have hS : (innov P H R)ᵀ = innov P H R := psd_symm (innov_symm hP H hR)
  have hu : IsUnit (innov P H R).det := isUnit_iff_ne_zero.2 hdet
  have hK : gain P H R * innov P H R = P * Hᵀ := by
    unfold gain; rw [Matrix.mul_assoc, nonsing_inv_mul _ hu, Matrix.mul_one]
  have hKT : innov P H R * (gain P H R)ᵀ = H * P := by
    have := congrArg Matrix.transpose hK
    rwa [transpose_mul, hS, transpose_mul, transpose_transpose, hs] at this
  have hS' : innov P H R = H * P * Hᵀ + diagonal R := by unfold innov; rw [Matrix.mul_assoc]
  have e1 : (P * Hᵀ)ᵀ = H * P := by rw [transpose_mul, transpose_transpose, hs]
  have hR' : diagonal R = innov P H R - H * P * Hᵀ := by rw [hS']; abel
  rw [e1, hR']
  have hsplit : gain P H R * (innov P H R - H * P * Hᵀ) * (gain P H R)ᵀ
      = gain P H R * (H * P) - gain P H R * H * P * (Hᵀ * (gain P H R)ᵀ) := by
    rw [Matrix.mul_sub, Matrix.sub_mul, Matrix.mul_assoc _ (innov P H R), hKT]
    simp only [Matrix.mul_assoc]
  have hPHK : P * (Hᵀ * (gain P H R)ᵀ) = gain P H R * (H * P) := by
    rw [← Matrix.mul_assoc, ← hK, Matrix.mul_assoc, hKT]
  rw [hsplit, transpose_sub, transpose_one, transpose_mul]
  simp only [Matrix.sub_mul, Matrix.mul_sub, Matrix.one_mul, Matrix.mul_one, Matrix.mul_assoc]
  rw [hPHK]
  abel

variable {X : Type} (plus : X → (Idx d → ℝ) → X) (ty : MeasType) {m M : ℕ} (h : m ≤ M)

/-- An update either leaves the snapshot alone or applies the Kalman correction. -/
theorem update_cases (H : Matrix (Fin m) (Idx d) ℝ) (R : Fin m → ℝ) (res : Fin M → ℝ)
    (junk : Matrix (Fin M) (Fin M) ℝ) (s : Snap X d) :
    (doUpdate plus ty h H R res junk s).1 = s ∨
    ((innov (full s.cov) H R).det ≠ 0 ∧ ty.disabled = false ∧
      doUpdate plus ty h H R res junk s
        = (⟨plus s.x ((gain (full s.cov) H R).mulVec (head h res)),
            subSym (gain (full s.cov) H R * (full s.cov * Hᵀ)ᵀ) s.cov⟩, .ok)) := by
  unfold doUpdate
  split_ifs with h1 h2 h3 h4
  · exact Or.inl rfl
  · exact Or.inl rfl
  · exact Or.inl rfl
  · exact Or.inl rfl
  · exact Or.inr ⟨h2, by simpa using h4, rfl⟩

/-- **C40**, update: whatever the measurement type, Jacobian, residual and non-negative noise, a symmetric
positive semidefinite covariance stays one, and the difference of the old and the new one is positive
semidefinite (nothing becomes less certain). -/
theorem C40_update (H : Matrix (Fin m) (Idx d) ℝ) (R : Fin m → ℝ) (res : Fin M → ℝ)
    (junk : Matrix (Fin M) (Fin M) ℝ) (s : Snap X d) (hP : (full s.cov).PosSemidef) (hR : ∀ i, 0 ≤ R i) :
    (full (doUpdate plus ty h H R res junk s).1.cov).PosSemidef ∧
      (full s.cov - full (doUpdate plus ty h H R res junk s).1.cov).PosSemidef := by
  rcases update_cases plus ty h H R res junk s with e | ⟨hd, -, e⟩
  · rw [e, sub_self]; exact ⟨hP, PosSemidef.zero⟩
  · rw [e]
    have hs : (full s.cov)ᵀ = full s.cov := psd_symm hP
    have hSi := (innov_symm hP H hR).inv
    have e2 : gain (full s.cov) H R * (full s.cov * Hᵀ)ᵀ
        = (full s.cov * Hᵀ) * (innov (full s.cov) H R)⁻¹ * (full s.cov * Hᵀ)ᵀ := rfl
    have hd2 : (gain (full s.cov) H R * (full s.cov * Hᵀ)ᵀ).PosSemidef := by
      rw [e2]; exact psd_sandwich hSi _
    dsimp only
    rw [full_sub (psd_symm hd2)]
    refine ⟨?_, ?_⟩
    · rw [joseph hP H hR hd]
      exact (psd_sandwich hP _).add (psd_sandwich (psd_diag hR) _)
    · rw [sub_sub_cancel]; exact hd2

/-- **C41**: whenever `doUpdate` reports an error, and whenever the measurement type is disabled or the
measurement is empty, the state and the covariance are what they were. -/
theorem C41_rejected (H : Matrix (Fin m) (Idx d) ℝ) (R : Fin m → ℝ) (res : Fin M → ℝ)
    (junk : Matrix (Fin M) (Fin M) ℝ) (s : Snap X d)
    (hrej : (doUpdate plus ty h H R res junk s).2 ≠ .ok ∨ ty.disabled = true ∨ (ty.varSize = true ∧ m = 0)) :
    (doUpdate plus ty h H R res junk s).1 = s := by
  rcases update_cases plus ty h H R res junk s with e | ⟨hd, hdis, e⟩
  · exact e
  · rcases hrej with h1 | h1 | h1
    · rw [e] at h1; exact absurd rfl h1
    · rw [hdis] at h1; exact absurd h1 (by simp)
    · unfold doUpdate; rw [if_pos h1]

/-- **C41**: an empty measurement of variable size is reported as such. -/
theorem C41_empty (H : Matrix (Fin m) (Idx d) ℝ) (R : Fin m → ℝ) (res : Fin M → ℝ)
    (junk : Matrix (Fin M) (Fin M) ℝ) (s : Snap X d) (h1 : ty.varSize = true) (h2 : m = 0) :
    doUpdate plus ty h H R res junk s = (s, .empty) := by
  unfold doUpdate; rw [if_pos ⟨h1, h2⟩]

/-- The squared Mahalanobis distance of a residual with respect to a covariance. -/
noncomputable def mahalSpec {m : ℕ} (S : Matrix (Fin m) (Fin m) ℝ) (r : Fin m → ℝ) : ℝ :=
  ∑ i, ∑ j, r i * S⁻¹ i j * r j

theorem sinvMem_full (S junk : Matrix (Fin m) (Fin m) ℝ) : sinvMem S junk = S := by
  ext i j; simp [sinvMem, i.2, j.2]

theorem mahal_fixed (S junk : Matrix (Fin m) (Fin m) ℝ) (r : Fin m → ℝ) :
    mahal S⁻¹ junk r = mahalSpec S r := by
  unfold mahal mahalSpec
  rw [sinvMem_full]
  simp only [dotProduct, mulVec, Finset.mul_sum]
  exact Finset.sum_congr rfl fun i _ => Finset.sum_congr rfl fun j _ => by ring

/-- **C41**, fixed-size measurements (or a variable-size measurement of maximal size): it is reported gated
exactly when its squared Mahalanobis distance exceeds the limit.  For variable-size measurements below the
maximal size this fails, see `C77_gate_violated`. -/
theorem C41_gated_partial (H : Matrix (Fin m) (Idx d) ℝ) (R : Fin m → ℝ) (res : Fin m → ℝ)
    (junk : Matrix (Fin m) (Fin m) ℝ) (s : Snap X d) (hm : 0 < m)
    (hd : (innov (full s.cov) H R).det ≠ 0) :
    (doUpdate plus ty le_rfl H R res junk s).2 = .gated ↔
      ty.maxMahal < mahalSpec (innov (full s.cov) H R) res := by
  unfold doUpdate
  rw [if_neg (by omega), if_neg hd, mahal_fixed]
  split_ifs with h1 h2 <;> simp [h1]

/-! ### Gating of measurements of variable size (C77) -/

/-- A residual whose first `m` entries are `r` and whose other entries are `c`. -/
noncomputable def padded (r : Fin m → ℝ) (c : ℝ) : Fin M → ℝ := fun i => if h : i.1 < m then r ⟨i.1, h⟩ else c

theorem head_padded (r : Fin m → ℝ) (c : ℝ) : head h (padded r c) = r := by
  ext i; simp [head, padded]

/-- The value compared with the limit, with a single non-zero entry in the part of `Sinv` that is never
assigned. -/
theorem mahal_junk (S : Matrix (Fin m) (Fin m) ℝ) (r : Fin m → ℝ) (l : Fin M) (hl : m ≤ l.1) (c : ℝ) :
    mahal S (Matrix.single l l c) (padded r 1) = mahal S (0 : Matrix (Fin M) (Fin M) ℝ) (padded r 1) + c := by
  have e : sinvMem S (Matrix.single l l c) = sinvMem S (0 : Matrix (Fin M) (Fin M) ℝ) + Matrix.single l l c := by
    ext i j
    simp only [sinvMem, of_apply, Matrix.add_apply, Matrix.zero_apply]
    by_cases h1 : i.1 < m ∧ j.1 < m
    · have : ¬ (l = i ∧ l = j) := by
        rintro ⟨e1, -⟩; rw [e1] at hl; omega
      simp [h1, Matrix.single, this]
    · simp [h1]
  unfold mahal
  rw [e, add_mulVec, dotProduct_add]
  congr 1
  have : ¬ l.1 < m := by omega
  have e2 : padded r 1 l = 1 := by simp [padded, this]
  rw [Matrix.single_mulVec, e2]
  show padded r 1 ⬝ᵥ Pi.single l (c * 1) = c
  rw [dotProduct_single, e2]
  ring

/-- **C77**, violated: for a measurement type of variable size with fewer entries than the maximum, and for
every residual, state, covariance and limit, there are contents of the uninitialised memory for which the
measurement is reported gated and others for which it is not. -/
theorem C77_gate_violated (hlt : m < M) (hm : 0 < m) (H : Matrix (Fin m) (Idx d) ℝ) (R r : Fin m → ℝ)
    (s : Snap X d) (hd : (innov (full s.cov) H R).det ≠ 0) :
    ∃ (res : Fin M → ℝ) (j1 j2 : Matrix (Fin M) (Fin M) ℝ), head h res = r ∧
      (doUpdate plus ty h H R res j1 s).2 = .gated ∧ (doUpdate plus ty h H R res j2 s).2 = .ok := by
  set T := mahal (innov (full s.cov) H R)⁻¹ (0 : Matrix (Fin M) (Fin M) ℝ) (padded r 1) with hT
  refine ⟨padded r 1, Matrix.single ⟨m, hlt⟩ ⟨m, hlt⟩ (ty.maxMahal - T + 1),
    Matrix.single ⟨m, hlt⟩ ⟨m, hlt⟩ (ty.maxMahal - T), head_padded h r 1, ?_, ?_⟩
  · unfold doUpdate
    rw [if_neg (by omega), if_neg hd, mahal_junk _ r (⟨m, hlt⟩ : Fin M) le_rfl, ← hT, if_pos (by linarith)]
  · unfold doUpdate
    rw [if_neg (by omega), if_neg hd, mahal_junk _ r (⟨m, hlt⟩ : Fin M) le_rfl, ← hT, if_neg (by linarith)]
    split_ifs <;> rfl

/-! ### The direction of the correction (C73) -/

theorem mahalSpec_eq (S : Matrix (Fin m) (Fin m) ℝ) (r : Fin m → ℝ) :
    mahalSpec S r = r ⬝ᵥ S⁻¹.mulVec r := by
  unfold mahalSpec
  simp only [dotProduct, mulVec, Finset.mul_sum]
  exact Finset.sum_congr rfl fun i _ => Finset.sum_congr rfl fun j _ => by ring

theorem dot_nonneg {ι : Type} [Fintype ι] {M : Matrix ι ι ℝ} (hM : M.PosSemidef) (v : ι → ℝ) :
    0 ≤ v ⬝ᵥ M.mulVec v := by
  have := hM.dotProduct_mulVec_nonneg v
  simpa using this

theorem dot_symm {S : Matrix (Fin m) (Fin m) ℝ} (hS : Sᵀ = S) (u v : Fin m → ℝ) :
    u ⬝ᵥ S.mulVec v = v ⬝ᵥ S.mulVec u := by
  rw [dotProduct_mulVec, dotProduct_comm, ← mulVec_transpose, hS]

/-- When `H` is the Jacobian of the residual, `H dx` with `dx = K r` is `H P Hᵀ S⁻¹ r`: the residual moves
away from zero. -/
theorem H_gain (P : Matrix (Idx d) (Idx d) ℝ) (H : Matrix (Fin m) (Idx d) ℝ) (R r : Fin m → ℝ) :
    H.mulVec ((gain P H R).mulVec r) = (H * P * Hᵀ).mulVec ((innov P H R)⁻¹.mulVec r) := by
  unfold gain
  simp only [mulVec_mulVec, Matrix.mul_assoc]

/-- The residual `r + H dx` after an update with `H` the Jacobian of the *residual* is, in the metric of the
innovation, at least as long as before. -/
theorem grows {P : Matrix (Idx d) (Idx d) ℝ} (hP : P.PosSemidef) (H : Matrix (Fin m) (Idx d) ℝ)
    {R : Fin m → ℝ} (hR : ∀ i, 0 ≤ R i) (r : Fin m → ℝ) :
    mahalSpec (innov P H R) r
        + 2 * ((innov P H R)⁻¹.mulVec r ⬝ᵥ (H * P * Hᵀ).mulVec ((innov P H R)⁻¹.mulVec r))
      ≤ mahalSpec (innov P H R) (r + H.mulVec ((gain P H R).mulVec r)) := by
  have hSi := (innov_symm hP H hR).inv
  have hs := psd_symm hSi
  rw [mahalSpec_eq, mahalSpec_eq, H_gain, mulVec_add, dotProduct_add, add_dotProduct, add_dotProduct]
  set y := (innov P H R)⁻¹.mulVec r with hy
  set w := (H * P * Hᵀ).mulVec y with hw
  have h1 : r ⬝ᵥ (innov P H R)⁻¹.mulVec w = w ⬝ᵥ y := by rw [dot_symm hs]
  have h2 := dot_nonneg hSi w
  have h3 : y ⬝ᵥ w = w ⬝ᵥ y := dotProduct_comm _ _
  rw [h1, h3]
  linarith

/-- With the Jacobian of the *prediction* (the opposite sign) the residual `r - H dx` is at most as long as
before: this is what the update is for. -/
theorem C73_prediction_sign_partial {P : Matrix (Idx d) (Idx d) ℝ} (hP : P.PosSemidef)
    (H : Matrix (Fin m) (Idx d) ℝ) {R : Fin m → ℝ} (hR : ∀ i, 0 ≤ R i) (hd : (innov P H R).det ≠ 0)
    (r : Fin m → ℝ) :
    mahalSpec (innov P H R) (r - H.mulVec ((gain P H R).mulVec r)) ≤ mahalSpec (innov P H R) r := by
  have hSi := (innov_symm hP H hR).inv
  have hs := psd_symm hSi
  have hu : IsUnit (innov P H R).det := isUnit_iff_ne_zero.2 hd
  rw [mahalSpec_eq, mahalSpec_eq, H_gain]
  set y := (innov P H R)⁻¹.mulVec r with hy
  have hr : r = (innov P H R).mulVec y := by
    rw [hy, mulVec_mulVec, mul_nonsing_inv _ hu, one_mulVec]
  set w := (H * P * Hᵀ).mulVec y with hw
  have hS' : innov P H R = H * P * Hᵀ + diagonal R := by unfold innov; rw [Matrix.mul_assoc]
  -- r - w = R y
  have hrw : r - w = (diagonal R).mulVec y := by
    rw [hr, hw, hS', add_mulVec]; abel
  have hPs := psd_sandwich hP H
  -- yᵀ w ≥ 0 and (w, S⁻¹ (r - w)) ≥ 0
  have e1 : (r - w) ⬝ᵥ (innov P H R)⁻¹.mulVec (r - w)
      = r ⬝ᵥ y - w ⬝ᵥ y - w ⬝ᵥ (innov P H R)⁻¹.mulVec (r - w) := by
    rw [sub_dotProduct, dot_symm hs r (r - w), ← hy, sub_dotProduct]
  have hwy : 0 ≤ w ⬝ᵥ y := by rw [dotProduct_comm]; exact dot_nonneg hPs y
  -- with v = S⁻¹ w : w = S v, so (w, S⁻¹ (r - w)) = (w, y) - (w, S⁻¹ w), and (w, S⁻¹ w) ≤ (w, y)
  set v := (innov P H R)⁻¹.mulVec w with hv
  have hwv : w = (innov P H R).mulVec v := by
    rw [hv, mulVec_mulVec, mul_nonsing_inv _ hu, one_mulVec]
  have e2 : w ⬝ᵥ (innov P H R)⁻¹.mulVec (r - w) = w ⬝ᵥ y - w ⬝ᵥ v := by
    rw [mulVec_sub, dotProduct_sub]
  -- (y - v)ᵀ A (y - v) ≥ 0 and vᵀ R v ≥ 0, where A = H P Hᵀ, A y = w = A v + R v
  have hA : (H * P * Hᵀ)ᵀ = H * P * Hᵀ := psd_symm hPs
  have q1 := dot_nonneg hPs (y - v)
  have q2 := dot_nonneg (psd_diag hR) v
  have e3 : (H * P * Hᵀ).mulVec v = w - (diagonal R).mulVec v := by
    conv_rhs => rw [hwv, hS', add_mulVec]
    abel
  have e4 : (y - v) ⬝ᵥ (H * P * Hᵀ).mulVec (y - v)
      = w ⬝ᵥ y - w ⬝ᵥ v - (y ⬝ᵥ w - y ⬝ᵥ (diagonal R).mulVec v)
        + (v ⬝ᵥ w - v ⬝ᵥ (diagonal R).mulVec v) := by
    rw [mulVec_sub, ← hw, e3, sub_dotProduct, dotProduct_sub, dotProduct_sub, dotProduct_sub, dotProduct_sub,
      dotProduct_comm y w, dotProduct_comm v w]
    ring
  have e5 : y ⬝ᵥ (H * P * Hᵀ).mulVec v = v ⬝ᵥ w := by rw [dot_symm hA, ← hw]
  have e6 : y ⬝ᵥ (diagonal R).mulVec v = y ⬝ᵥ w - v ⬝ᵥ w := by
    have := e5
    rw [e3, dotProduct_sub] at this
    linarith
  have e7 : y ⬝ᵥ w = w ⬝ᵥ y := dotProduct_comm _ _
  have e8 : v ⬝ᵥ w = w ⬝ᵥ v := dotProduct_comm _ _
  rw [e1, e2]
  nlinarith

end filter

/-! ### The fix-and-hold update -/

/-- Index `i` of the single differences. -/
def sdIdx {k : ℕ} (i : Fin k) : Idx (dims k) := ⟨7, i⟩

theorem fixHoldH_mulVec {k : ℕ} (v : Idx (dims k) → ℝ) (i : Fin k) :
    (fixHoldH k).mulVec v i = -v (sdIdx i) := by
  simp only [mulVec, dotProduct]
  rw [Finset.sum_eq_single (sdIdx i)]
  · simp only [fixHoldH, of_apply, sdIdx, if_true, fixHoldJac, Matrix.neg_apply]
    rw [dif_pos i.2, Matrix.one_apply_eq]
    ring
  · rintro ⟨c, j⟩ - hne
    simp only [fixHoldH, of_apply, fixHoldJac, Matrix.neg_apply]
    by_cases hc : c = 7
    · subst hc
      have hj : j.1 < k := j.2
      have hij : i ≠ ⟨j.1, hj⟩ := by
        rintro rfl; exact hne rfl
      rw [if_pos rfl, dif_pos hj, Matrix.one_apply_ne hij]
      ring
    · rw [if_neg hc]; ring
  · intro hx; exact absurd (Finset.mem_univ _) hx

theorem comp_sd {k : ℕ} (v : Idx (dims k) → ℝ) (i : Fin k) : comp v 7 i.1 = v (sdIdx i) := by
  unfold Verif.Model.Ekf.comp
  have h : i.1 < dims k 7 := i.2
  rw [dif_pos h]
  rfl

/-- **C41.** With no single differences in the state, fix-and-hold is skipped, reported as such, and changes nothing. -/
theorem C41_fix_hold_empty (R : ℝ) (resJunk : Fin 30 → ℝ) (junk : Matrix (Fin 30) (Fin 30) ℝ) (s : Snap State (dims 0))
    (hn : s.x.numSd = 0) : updateFixHold [] R resJunk junk (Nat.zero_le 30) s = some (s, .empty) := by
  unfold updateFixHold hFixHold
  rw [if_pos (by rw [hn]; rfl)]
  simp [doUpdate, fixHoldType]

/-- **C41.** Ambiguities of another number than the state's single differences stop the program. -/
theorem C41_fix_hold_sizes (z : List ℝ) (R : ℝ) (resJunk : Fin 30 → ℝ) (junk : Matrix (Fin 30) (Fin 30) ℝ) {k : ℕ}
    (hk : k ≤ 30) (s : Snap State (dims k)) :
    (updateFixHold z R resJunk junk hk s).isSome ↔ z.length = s.x.numSd := by
  unfold updateFixHold hFixHold
  split_ifs with h
  · simpa using h.symm
  · simpa using fun h' => h h'.symm

/-- **C73**, violated for the fix-and-hold update (the one the estimator uses to hold the ambiguities):
for every number of single differences, state, symmetric positive semidefinite covariance and noise, an
accepted update leaves residuals at least as long as before, in the metric of the innovation, growing by
twice the variance of the weighted residual. -/
theorem C73_fix_hold_violated {k : ℕ} (hk : k ≤ 30) (z : List ℝ) (R : ℝ) (resJunk : Fin 30 → ℝ)
    (junk : Matrix (Fin 30) (Fin 30) ℝ) (s s' : Snap State (dims k)) (hn : s.x.numSd = k) (hR : 0 ≤ R)
    (hP : (full s.cov).PosSemidef)
    (hup : updateFixHold z R resJunk junk hk s = some (s', .ok)) :
    mahalSpec (innov (full s.cov) (fixHoldH k) fun _ => R) (fun i => z.getD i.1 0 - s.x.sd i.1)
      ≤ mahalSpec (innov (full s.cov) (fixHoldH k) fun _ => R) (fun i => z.getD i.1 0 - s'.x.sd i.1) := by
  unfold updateFixHold hFixHold at hup
  split_ifs at hup with hz
  · simp only [Option.map_some, Option.some.injEq] at hup
    set res : Fin 30 → ℝ := fun i => if i.1 < s.x.numSd then z.getD i.1 0 - s.x.sd i.1 else resJunk i with hres
    have hhead : head hk res = fun i : Fin k => z.getD i.1 0 - s.x.sd i.1 := by
      ext i
      have : (Fin.castLE hk i).1 < s.x.numSd := by rw [hn]; exact i.2
      simp only [head, hres]
      rw [if_pos this]
      rfl
    rcases update_cases (fun x v => x.plusAssign (.ofVec v)) fixHoldType hk (fixHoldH k) (fun _ => R) res
      junk s with e | ⟨hd, -, e⟩
    · rw [hup] at e
      dsimp only at e
      rw [e]
    · rw [e] at hup
      have hs : s' = _ := (congrArg Prod.fst hup).symm
      rw [hs, ← hhead]
      have hnew : (fun i : Fin k => z.getD i.1 0 - (s.x.plusAssign (.ofVec
            ((gain (full s.cov) (fixHoldH k) fun _ => R).mulVec (head hk res)))).sd i.1)
          = head hk res + (fixHoldH k).mulVec ((gain (full s.cov) (fixHoldH k) fun _ => R).mulVec (head hk res)) := by
        ext i
        rw [Pi.add_apply, fixHoldH_mulVec, hhead]
        simp only [State.plusAssign, ErrorState.ofVec]
        rw [if_pos (by rw [hn]; exact i.2), comp_sd]
        ring
      dsimp only
      rw [hnew]
      have hg := grows hP (fixHoldH k) (R := fun _ => R) (fun _ => hR) (head hk res)
      have hq := dot_nonneg (psd_sandwich hP (fixHoldH k))
        ((innov (full s.cov) (fixHoldH k) fun _ => R)⁻¹.mulVec (head hk res))
      linarith
  · simp at hup

theorem fixHold_HPH {k : ℕ} (P : Matrix (Idx (dims k)) (Idx (dims k)) ℝ) (i j : Fin k) :
    (fixHoldH k * P * (fixHoldH k)ᵀ) i j = P (sdIdx i) (sdIdx j) := by
  have e : (fixHoldH k * P * (fixHoldH k)ᵀ) i j
      = (fixHoldH k).mulVec (fun p => (fixHoldH k).mulVec (fun q => P q p) i) j := by
    simp only [Matrix.mul_apply, transpose_apply, mulVec, dotProduct]
    exact Finset.sum_congr rfl fun p _ => by ring
  rw [e, fixHoldH_mulVec, fixHoldH_mulVec]
  ring

/-- **C73**, violated, one ambiguity: with variance `P` and noise `R` (not both zero) the fix-and-hold
update multiplies the distance between the ambiguity and the integer it should be held at by
`1 + P / (P + R)`, where the Kalman filter would multiply it by `R / (P + R)`. -/
theorem C73_fix_hold_one_violated (z R : ℝ) (resJunk : Fin 30 → ℝ) (junk : Matrix (Fin 30) (Fin 30) ℝ)
    (s s' : Snap State (dims 1)) (hn : s.x.numSd = 1)
    (hS : 0 < full s.cov (sdIdx 0) (sdIdx 0) + R)
    (hup : updateFixHold [z] R resJunk junk (by decide) s = some (s', .ok)) :
    z - s'.x.sd 0 = (1 + full s.cov (sdIdx 0) (sdIdx 0) / (full s.cov (sdIdx 0) (sdIdx 0) + R))
      * (z - s.x.sd 0) := by
  have hk : (1 : ℕ) ≤ 30 := by decide
  have hS1 : innov (full s.cov) (fixHoldH 1) (fun _ => R) = fun _ _ => full s.cov (sdIdx 0) (sdIdx 0) + R := by
    ext i j
    have hi := Subsingleton.elim i 0
    have hj := Subsingleton.elim j 0
    subst hi hj
    unfold innov
    rw [← Matrix.mul_assoc, Matrix.add_apply, fixHold_HPH, diagonal_apply_eq]
  have hdet : (innov (full s.cov) (fixHoldH 1) (fun _ => R)).det ≠ 0 := by
    rw [Matrix.det_fin_one, hS1]; exact hS.ne'
  have hinv : (innov (full s.cov) (fixHoldH 1) (fun _ => R))⁻¹ 0 0
      = (full s.cov (sdIdx 0) (sdIdx 0) + R)⁻¹ := by
    rw [Matrix.inv_def, Matrix.adjugate_fin_one, Matrix.smul_apply, Matrix.one_apply_eq, Matrix.det_fin_one, hS1,
      Ring.inverse_eq_inv', smul_eq_mul, mul_one]
  unfold updateFixHold hFixHold at hup
  rw [if_pos (by rw [hn]; rfl), Option.map_some, Option.some.injEq] at hup
  set res : Fin 30 → ℝ := fun i => if i.1 < s.x.numSd then [z].getD i.1 0 - s.x.sd i.1 else resJunk i with hres
  have hhead : head hk res = fun _ : Fin 1 => z - s.x.sd 0 := by
    ext i
    have hi := Subsingleton.elim i 0
    subst hi
    simp [head, hres, hn]
  unfold doUpdate at hup
  rw [if_neg (by simp), if_neg hdet] at hup
  split_ifs at hup with h1 h2
  · exact absurd (congrArg Prod.snd hup) (by simp)
  · exact absurd h2 (by simp [fixHoldType])
  · have hs : s' = _ := (congrArg Prod.fst hup).symm
    have e1 := congrFun (H_gain (full s.cov) (fixHoldH 1) (fun _ => R) (head hk res)) 0
    rw [fixHoldH_mulVec] at e1
    have e2 : ((innov (full s.cov) (fixHoldH 1) fun _ => R)⁻¹.mulVec (head hk res))
        = fun _ => (full s.cov (sdIdx 0) (sdIdx 0) + R)⁻¹ * (z - s.x.sd 0) := by
      ext i
      have hi := Subsingleton.elim i 0
      subst hi
      simp only [mulVec, dotProduct, Fin.sum_univ_one, hinv, hhead]
    have e3 : (fixHoldH 1 * full s.cov * (fixHoldH 1)ᵀ).mulVec
        (fun _ => (full s.cov (sdIdx 0) (sdIdx 0) + R)⁻¹ * (z - s.x.sd 0)) 0
        = full s.cov (sdIdx 0) (sdIdx 0) * ((full s.cov (sdIdx 0) (sdIdx 0) + R)⁻¹ * (z - s.x.sd 0)) := by
      simp only [mulVec, dotProduct, Fin.sum_univ_one, fixHold_HPH]
    rw [e2, e3] at e1
    rw [hs]
    dsimp only
    have hsd : (s.x.plusAssign (.ofVec ((gain (full s.cov) (fixHoldH 1) fun _ => R).mulVec (head hk res)))).sd 0
        = s.x.sd 0 + (gain (full s.cov) (fixHoldH 1) fun _ => R).mulVec (head hk res) (sdIdx 0) := by
      simp only [State.plusAssign, ErrorState.ofVec]
      rw [if_pos (by rw [hn]; exact one_pos)]
      exact congrArg _ (comp_sd _ (0 : Fin 1))
    rw [hsd, div_eq_mul_inv]
    linear_combination e1

/-- The property: an accepted fix-and-hold update brings the single differences closer to the values they
are to be held at. -/
def C73_statement : Prop :=
  ∀ (k : ℕ) (hk : k ≤ 30) (z : List ℝ) (R : ℝ) (resJunk : Fin 30 → ℝ) (junk : Matrix (Fin 30) (Fin 30) ℝ)
    (s s' : Snap State (dims k)), s.x.numSd = k → 0 < R → (full s.cov).PosSemidef →
    updateFixHold z R resJunk junk hk s = some (s', .ok) →
    ∑ i : Fin k, (z.getD i.1 0 - s'.x.sd i.1) ^ 2 ≤ ∑ i : Fin k, (z.getD i.1 0 - s.x.sd i.1) ^ 2

/-- One single difference, estimated at zero with variance one. -/
noncomputable def one : Snap State (dims 1) :=
  ⟨⟨0, .identity, 0, 0, 0, 0, 0, 0, 0, .identity, 1, fun _ => 0⟩, 1⟩

theorem full_one {n : ℕ} {d : Fin n → ℕ} : full (1 : Stored d) = 1 := by
  ext p q
  rw [full_apply]
  split_ifs
  · rfl
  · exact sym_at (transpose_one) p q

theorem det_one : (innov (full one.cov) (fixHoldH 1) (fun _ => 1)).det = 2 := by
  rw [Matrix.det_fin_one]
  unfold innov
  rw [← Matrix.mul_assoc, Matrix.add_apply, fixHold_HPH, diagonal_apply_eq]
  show full 1 _ _ + 1 = (2 : ℝ)
  rw [full_one, Matrix.one_apply_eq]
  norm_num

/-- The update of `one` towards 1 is accepted (for suitable contents of the uninitialised memory). -/
theorem one_accepted : ∃ (junk : Matrix (Fin 30) (Fin 30) ℝ) (s' : Snap State (dims 1)),
    updateFixHold [1] 1 (fun _ => 1) junk (by decide) one = some (s', .ok) := by
  have hd : (innov (full one.cov) (fixHoldH 1) (fun _ => 1)).det ≠ 0 := by rw [det_one]; norm_num
  have hm : hFixHold [1] one.x (fun _ => 1) = some (fun _ => 1) := by
    unfold hFixHold
    rw [if_pos (show one.x.numSd = ([1] : List ℝ).length from rfl)]
    congr 1
    ext i
    by_cases h : i.1 < one.x.numSd
    · have h0 : i.1 = 0 := by have : i.1 < 1 := h; omega
      rw [if_pos h, h0]
      show (1 : ℝ) - 0 = 1
      ring
    · rw [if_neg h]
  have hpad : padded (fun _ : Fin 1 => (1 : ℝ)) 1 = (fun _ : Fin 30 => (1 : ℝ)) := by
    ext i; simp [padded]
  let T := mahal (innov (full one.cov) (fixHoldH 1) (fun _ => 1))⁻¹
    (0 : Matrix (Fin 30) (Fin 30) ℝ) (padded (fun _ : Fin 1 => (1 : ℝ)) 1)
  have key : (doUpdate (fun x v => State.plusAssign x (.ofVec v)) fixHoldType (by decide : 1 ≤ 30)
      (fixHoldH 1) (fun _ => 1) (fun _ : Fin 30 => (1 : ℝ)) (Matrix.single 1 1 (-T)) one).2 = .ok := by
    unfold doUpdate
    rw [if_neg (by simp), if_neg hd, ← hpad, mahal_junk _ _ (1 : Fin 30) (by decide),
      if_neg (by show ¬ _ < T + -T; rw [add_neg_cancel]; norm_num [fixHoldType]),
      if_neg (by simp [fixHoldType])]
  refine ⟨Matrix.single 1 1 (-T), (doUpdate (fun x v => State.plusAssign x (.ofVec v)) fixHoldType
    (by decide : 1 ≤ 30) (fixHoldH 1) (fun _ => 1) (fun _ : Fin 30 => (1 : ℝ)) (Matrix.single 1 1 (-T)) one).1, ?_⟩
  unfold updateFixHold
  rw [hm, Option.map_some, ← key]

theorem C73_statement_false : ¬ C73_statement := by
  intro h
  obtain ⟨junk, s', hup⟩ := one_accepted
  have h1 := h 1 (by decide) [1] 1 (fun _ => 1) junk one s' rfl one_pos
    (by show (full 1).PosSemidef; rw [full_one]; exact PosSemidef.one) hup
  have hv : full one.cov (sdIdx 0) (sdIdx 0) = 1 := by
    show full 1 _ _ = (1 : ℝ)
    rw [full_one, Matrix.one_apply_eq]
  have h2 := C73_fix_hold_one_violated 1 1 (fun _ => 1) junk one s' rfl (by rw [hv]; norm_num) hup
  rw [hv] at h2
  have h0 : one.x.sd 0 = 0 := rfl
  rw [h0] at h2
  simp only [Fin.sum_univ_one, Fin.val_zero] at h1
  have e : ([1] : List ℝ).getD 0 0 = 1 := rfl
  rw [e, h0, h2] at h1
  norm_num at h1

/-! ### Copies (C42) -/

/-- **C42**, without the time: assignment and copy construction preserve every component, the number of
single differences and each one in use. -/
theorem C42_components_partial (self other : State) :
    (∀ y ∈ [self.assign other, self.copy other],
      y.pose = other.pose ∧ y.vel = other.vel ∧ y.accBias = other.accBias ∧ y.gyroBias = other.gyroBias ∧
      y.gpsClk = other.gpsClk ∧ y.galClk = other.galClk ∧ y.gloClk = other.gloClk ∧ y.pB2g = other.pB2g ∧
      y.TI2e = other.TI2e ∧ y.numSd = other.numSd ∧ ∀ i < other.numSd, y.sd i = other.sd i) := by
  intro y hy
  simp only [List.mem_cons, List.not_mem_nil, or_false] at hy
  rcases hy with rfl | rfl <;>
    exact ⟨rfl, rfl, rfl, rfl, rfl, rfl, rfl, rfl, rfl, rfl, fun i hi => if_pos hi⟩

/-- The full property: the copy has the time of the original too. -/
def C42_statement : Prop := ∀ fresh self other : State,
  (State.copy fresh other).t = other.t ∧ (self.assign other).t = other.t

/-- **C42**, violated: a copy always has time zero, an assignment keeps the time of the target. -/
theorem C42_time_violated (fresh self other : State) :
    (State.copy fresh other).t = 0 ∧ (self.assign other).t = self.t := ⟨rfl, rfl⟩

/-- A state at rest at the origin with time `t`. -/
def rest (t : ℝ) : State := ⟨t, .identity, 0, 0, 0, 0, 0, 0, 0, .identity, 0, fun _ => 0⟩

theorem C42_statement_false : ¬ C42_statement := by
  intro h
  have := (h (rest 0) (rest 0) (rest 1)).1
  rw [(C42_time_violated (rest 0) (rest 0) (rest 1)).1] at this
  exact zero_ne_one this

/-- A prediction started from a copy takes the whole time since the epoch as its step: with a copy made at
time `t` the propagation to `tNew > 0` moves the state by `tNew` seconds instead of `tNew - t`. -/
theorem C42_predict_copy_violated (out fresh x : State) (tNew : ℝ) (xdot : ErrorState) (h0 : 0 < tNew) :
    predictState out fresh (State.copy fresh x) tNew xdot
      = some { State.assign out (State.plus fresh (State.copy fresh x) (xdot.scale tNew)) with t := tNew } := by
  unfold predictState
  have ht : (State.copy fresh x).t = 0 := rfl
  rw [ht, if_pos h0, sub_zero, zero_add]

/-- **C42**, what the filter itself does: a prediction writes the new time explicitly. -/
theorem C42_predict_time (out fresh x y : State) (tNew : ℝ) (xdot : ErrorState)
    (h : predictState out fresh x tNew xdot = some y) : x.t < tNew ∧ y.t = tNew ∧
      y.vel = x.vel + (tNew - x.t) • xdot.vel ∧ y.pose = x.pose.otimes (DQuat.exp (xdot.scale (tNew - x.t)).pose) := by
  unfold predictState at h
  split_ifs at h with h1
  · rw [Option.some.injEq] at h
    subst h
    exact ⟨h1, by ring, rfl, rfl⟩

/-- **C42**, the other components of a prediction: each is moved along its own derivative for the time of
the step, the number of single differences stays, and nothing is taken from the memory of the result or of
the intermediate object. -/
theorem C42_predict_components (out fresh x y : State) (tNew : ℝ) (xdot : ErrorState)
    (h : predictState out fresh x tNew xdot = some y) :
    y.accBias = x.accBias + (tNew - x.t) • xdot.accBias ∧ y.gyroBias = x.gyroBias + (tNew - x.t) • xdot.gyroBias ∧
    y.gpsClk = x.gpsClk + (tNew - x.t) • xdot.gpsClk ∧ y.galClk = x.galClk + (tNew - x.t) • xdot.galClk ∧
    y.gloClk = x.gloClk + (tNew - x.t) • xdot.gloClk ∧ y.pB2g = x.pB2g + (tNew - x.t) • xdot.pB2g ∧
    y.TI2e = x.TI2e.otimes (DQuat.exp ⟨(tNew - x.t) • xdot.TI2e.w, (tNew - x.t) • xdot.TI2e.v⟩) ∧
    y.pose = x.pose.otimes (DQuat.exp ⟨(tNew - x.t) • xdot.pose.w, (tNew - x.t) • xdot.pose.v⟩) ∧
    y.numSd = x.numSd ∧ ∀ i < x.numSd, y.sd i = x.sd i + (tNew - x.t) * xdot.sd i := by
  unfold predictState at h
  split_ifs at h with h1
  · rw [Option.some.injEq] at h
    subst h
    refine ⟨rfl, rfl, rfl, rfl, rfl, rfl, rfl, rfl, rfl, fun i hi => ?_⟩
    show (if i < x.numSd then (if i < x.numSd then x.sd i + xdot.sd i * (tNew - x.t) else fresh.sd i) else out.sd i) = _
    rw [if_pos hi, if_pos hi, mul_comm]

/-! ### The order of the error coordinates (C73) -/

/-- Where the coordinates of a component begin in a vector of all of them. -/
def start (k : ℕ) (c : Fin 10) : ℕ := ∑ j : Fin 10, if j < c then dims k j else 0

/-- **C73**, the correction is distributed in the order of `rtk_ekf.yaml`: rotation and translation of the
pose, velocity, the two biases, the three clocks, the single differences, the lever arm and the frame. -/
theorem C73_order {k : ℕ} (f : ℕ → ℝ) :
    let dx := ErrorState.ofVec (k := k) fun p => f (start k p.1 + p.2.1)
    (∀ i : Fin 3, dx.pose.w i = f i ∧ dx.pose.v i = f (3 + i) ∧ dx.vel i = f (6 + i) ∧
      dx.accBias i = f (9 + i) ∧ dx.gyroBias i = f (12 + i) ∧ dx.pB2g i = f (21 + k + i) ∧
      dx.TI2e.w i = f (24 + k + i) ∧ dx.TI2e.v i = f (27 + k + i)) ∧
    (∀ i : Fin 2, dx.gpsClk i = f (15 + i) ∧ dx.galClk i = f (17 + i) ∧ dx.gloClk i = f (19 + i)) ∧
    (∀ i < k, dx.sd i = f (21 + i)) ∧ ∀ i ≥ k, dx.sd i = 0 := by
  have s : ∀ c : Fin 10, start k c = ![0, 6, 9, 12, 15, 17, 19, 21, 21 + k, 24 + k] c := by
    intro c
    fin_cases c <;> simp [start, Fin.sum_univ_succ, dims, Fin.lt_def] <;> omega
  have cc : ∀ (c : Fin 10) (i : ℕ), i < dims k c →
      Model.Ekf.comp (k := k) (fun p => f (start k p.1 + p.2.1)) c i = f (start k c + i) := by
    intro c i h
    unfold Model.Ekf.comp
    rw [dif_pos h]
  intro dx
  refine ⟨fun i => ⟨?_, ?_, ?_, ?_, ?_, ?_, ?_, ?_⟩, fun i => ⟨?_, ?_, ?_⟩, fun i hi => ?_, fun i hi => ?_⟩
  · show Model.Ekf.comp (k := k) (fun p => f (start k p.1 + p.2.1)) 0 i = _
    rw [cc 0 i (show i.1 < 6 by omega), s]; exact congrArg f (by simp)
  · show Model.Ekf.comp (k := k) (fun p => f (start k p.1 + p.2.1)) 0 (3 + i) = _
    rw [cc 0 (3 + i) (show 3 + i.1 < 6 by omega), s]; exact congrArg f (by simp)
  · show Model.Ekf.comp (k := k) (fun p => f (start k p.1 + p.2.1)) 1 i = _
    rw [cc 1 i i.2, s]; rfl
  · show Model.Ekf.comp (k := k) (fun p => f (start k p.1 + p.2.1)) 2 i = _
    rw [cc 2 i i.2, s]; rfl
  · show Model.Ekf.comp (k := k) (fun p => f (start k p.1 + p.2.1)) 3 i = _
    rw [cc 3 i i.2, s]; rfl
  · show Model.Ekf.comp (k := k) (fun p => f (start k p.1 + p.2.1)) 8 i = _
    rw [cc 8 i i.2, s]; rfl
  · show Model.Ekf.comp (k := k) (fun p => f (start k p.1 + p.2.1)) 9 i = _
    rw [cc 9 i (show i.1 < 6 by omega), s]; rfl
  · show Model.Ekf.comp (k := k) (fun p => f (start k p.1 + p.2.1)) 9 (3 + i) = _
    rw [cc 9 (3 + i) (show 3 + i.1 < 6 by omega), s]
    exact congrArg f (show 24 + k + (3 + i.1) = 27 + k + i.1 by omega)
  · show Model.Ekf.comp (k := k) (fun p => f (start k p.1 + p.2.1)) 4 i = _
    rw [cc 4 i i.2, s]; rfl
  · show Model.Ekf.comp (k := k) (fun p => f (start k p.1 + p.2.1)) 5 i = _
    rw [cc 5 i i.2, s]; rfl
  · show Model.Ekf.comp (k := k) (fun p => f (start k p.1 + p.2.1)) 6 i = _
    rw [cc 6 i i.2, s]; rfl
  · show Model.Ekf.comp (k := k) (fun p => f (start k p.1 + p.2.1)) 7 i = _
    rw [cc 7 i hi, s]; rfl
  · show Model.Ekf.comp (k := k) (fun p => f (start k p.1 + p.2.1)) 7 i = _
    unfold Model.Ekf.comp
    exact dif_neg (Nat.not_lt.2 hi)

end Verif.Props.Ekf
