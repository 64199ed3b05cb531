import Verif.Spec.EkfPsd
import Verif.Props.EkfGenOk
import Mathlib.Algebra.Order.Star.Real

/-!
The generated filter keeps covariances: symmetric, with a quadratic form that is not negative.
-/

namespace Verif.Props.EkfGen

open Verif.Model.Symb Verif.Model.Symb.Blk Verif.Model.EkfGen Verif.Spec.Symb Verif.Spec.EkfGen Verif.Lemmas.Symb
open Verif.Props.Symb Matrix

variable {C : Cfg} {N m n k : ℕ}

theorem flat_mul (X : BM N m k) (Y : BM N k n) : flat (X * Y) = flat X * flat Y := by
  ext ⟨i, a⟩ ⟨j, b⟩
  simp only [flat, Matrix.mul_apply, Matrix.sum_apply, Fintype.sum_prod_type]

theorem flat_add (X Y : BM N m n) : flat (X + Y) = flat X + flat Y := rfl
theorem flat_sub (X Y : BM N m n) : flat (X - Y) = flat X - flat Y := rfl
theorem flat_tb (X : BM N m n) : flat (tb X) = (flat X)ᴴ := by
  ext i j
  simp [flat, tb]

theorem psd_tb {X : BM N n n} (h : Psd X) : tb X = X := by
  have := h.isHermitian
  unfold Matrix.IsHermitian at this
  rw [← flat_tb] at this
  funext r c
  ext a b
  exact congrFun (congrFun this (r, a)) (c, b)

theorem psd_add {X Y : BM N n n} (h : Psd X) (h' : Psd Y) : Psd (X + Y) := by
  unfold Psd
  rw [flat_add]
  exact h.add h'

theorem psd_conj {X : BM N n n} (h : Psd X) (A : BM N m n) : Psd (A * X * tb A) := by
  unfold Psd
  rw [flat_mul, flat_mul, flat_tb]
  exact h.mul_mul_conjTranspose_same (flat A)

theorem psd_single {X : M N} (h : X.PosSemidef) : Psd (single X) := by
  have : flat (single X) = X.submatrix Prod.snd Prod.snd := rfl
  unfold Psd
  rw [this]
  exact h.submatrix _

theorem single_psd {X : BM N 1 1} (h : Psd X) : (X 0 0).PosSemidef := by
  have : X 0 0 = (flat X).submatrix (fun a => (0, a)) (fun a => (0, a)) := rfl
  rw [this]
  exact Matrix.PosSemidef.submatrix h _

/-- The prediction of a covariance is a covariance. -/
theorem psd_predicted {V : Val N} (h : Psd (covOf C V .cov)) (hu : Psd (noiseU C V)) (hx : Psd (noiseX C V)) :
    Psd (predicted C V) := psd_add (psd_add (psd_conj h _) (psd_conj hu _)) hx

/-! ### The update -/

section

variable {V : Val N} {D : MCfg C}

theorem noise_psd (h : NoisePos V D) : (blockOf V .noise 0 0 D.dim D.dim).PosSemidef := by
  have hf := blockOf_fit V .noise 0 0 D.dim D.dim
  have := h.posSemidef.mul_mul_conjTranspose_same (proj V D.dim)
  rwa [Matrix.conjTranspose_eq_transpose_of_trivial, proj_tr, mul_add, hf.1, add_mul, hf.2, mul_sub, mul_one, proj_idem, sub_self,
    zero_mul, add_zero] at this

theorem innovation_pos (hP : Psd (covOf C V .cov)) (h : NoisePos V D) : (innovation V D + (1 - proj V D.dim)).PosDef := by
  unfold innovation
  rw [add_assoc]
  exact Matrix.PosDef.posSemidef_add (single_psd (psd_conj hP _)) h

/-- What the inverse of the innovation does. -/
theorem inverse_ok (hP : Psd (covOf C V .cov)) (h : NoisePos V D) :
    (blockInv V D.dim (innovation V D)).PosSemidef ∧ blockInv V D.dim (innovation V D) * innovation V D = proj V D.dim := by
  have hd := innovation_pos hP h
  have hS := innovation_fit V D
  have hc := inv_comm (proj_comm V hS)
  have hu : IsUnit (innovation V D + (1 - proj V D.dim)).det := (Matrix.isUnit_iff_isUnit_det _).mp hd.isUnit
  constructor
  · have := hd.posSemidef.inv.mul_mul_conjTranspose_same (proj V D.dim)
    rw [Matrix.conjTranspose_eq_transpose_of_trivial, proj_tr, ← hc, mul_assoc, proj_idem] at this
    exact this
  · unfold blockInv
    have h1 : innovation V D = (innovation V D + (1 - proj V D.dim)) * proj V D.dim := by
      rw [add_mul, sub_mul, one_mul, proj_idem, sub_self, add_zero, hS.2]
    have h2 := congrArg (fun X => (innovation V D + (1 - proj V D.dim))⁻¹ * X) h1
    simp only [← mul_assoc, Matrix.nonsing_inv_mul _ hu, one_mul] at h2
    rw [mul_assoc, hS.1, h2]

theorem jz_fit (V : Val N) (D : MCfg C) : tb (jz V D) * single (proj V D.dim) = tb (jz V D) := by
  funext c r
  rw [Matrix.mul_apply, Fintype.sum_unique]
  show (jz V D 0 c).transpose * proj V D.dim = (jz V D r c).transpose
  rw [Subsingleton.elim r 0]
  unfold jz
  split_ifs
  · have := congrArg Matrix.transpose (blockOf_fit V .dzdx (0 : Fin 1) c D.dim (C.dim c)).1
    rwa [Matrix.transpose_mul, proj_tr] at this
  · rw [Matrix.transpose_zero, zero_mul]

theorem single_mul (X Y : M N) : single (X * Y) = single X * single Y := by
  funext r c
  rw [Matrix.mul_apply, Fintype.sum_unique]
  rfl

/-- `K S = P Hᵀ`. -/
theorem gain_innovation (hP : Psd (covOf C V .cov)) (h : NoisePos V D) :
    gain V D * single (innovation V D) = covOf C V .cov * tb (jz V D) := by
  unfold gain
  rw [Matrix.mul_assoc, ← single_mul, (inverse_ok hP h).2, Matrix.mul_assoc, jz_fit]

theorem innovation_eq (V : Val N) (D : MCfg C) :
    single (innovation V D) = jz V D * covOf C V .cov * tb (jz V D) + single (blockOf V .noise 0 0 D.dim D.dim) := by
  funext r c
  rw [Subsingleton.elim r 0, Subsingleton.elim c 0]
  rfl

/-- The form of Joseph. -/
theorem joseph (hP : Psd (covOf C V .cov)) (h : NoisePos V D) :
    updated V D = (1 - gain V D * jz V D) * covOf C V .cov * tb (1 - gain V D * jz V D) +
      gain V D * single (blockOf V .noise 0 0 D.dim D.dim) * tb (gain V D) := by
  have h1 := gain_innovation hP h
  rw [innovation_eq, Matrix.mul_add] at h1
  have h2 : gain V D * single (blockOf V .noise 0 0 D.dim D.dim) =
      covOf C V .cov * tb (jz V D) - gain V D * (jz V D * covOf C V .cov * tb (jz V D)) := by
    rw [← h1, add_sub_cancel_left]
  have t1 : tb (1 : BM N (C.n + 1) (C.n + 1)) = 1 := by
    funext r c
    unfold tb
    by_cases e : r = c
    · rw [e, Matrix.one_apply_eq, Matrix.transpose_one]
    · rw [Matrix.one_apply_ne e, Matrix.one_apply_ne (fun x => e x.symm), Matrix.transpose_zero]
  rw [h2, tb_sub, t1, tb_mul]
  unfold updated
  simp only [Matrix.sub_mul, Matrix.mul_sub, Matrix.one_mul, Matrix.mul_one, Matrix.mul_assoc]
  abel

theorem psd_updated (hP : Psd (covOf C V .cov)) (h : NoisePos V D) : Psd (updated V D) := by
  rw [joseph hP h]
  exact psd_add (psd_conj hP _) (psd_conj (psd_single (noise_psd h)) _)

/-- The update takes a covariance off. -/
theorem psd_less (hP : Psd (covOf C V .cov)) (h : NoisePos V D) : Psd (covOf C V .cov - updated V D) := by
  have hT := psd_single (inverse_ok hP h).1
  have := psd_conj hT (covOf C V .cov * tb (jz V D))
  rw [tb_mul, tb_tb, psd_tb hP] at this
  unfold updated gain
  rw [sub_sub_cancel]
  simpa only [Matrix.mul_assoc] using this

end

/-! ### The generated code -/

theorem full_of_sym {V : Val N} (h : Symmetric (C := C) V) : fullOf C V .cov = covOf C V .cov := by
  funext r c
  unfold fullOf
  split_ifs
  · rfl
  · exact congrFun (congrFun h r) c

/-- The generated prediction stores a covariance. -/
theorem C109_predict (hC : NoOne C) (hF : Fixed C) {q f : ℕ} (hf : 2 * C.n + C.m + 12 ≤ f) {p : List Stmt}
    (h : propagate C (code (q + 6)) f = some p) {V : Val N} (hh : numOf V .half = 1 / 2) (hP : Psd (covOf C V .cov))
    (hu : Psd (noiseU C V)) (hx : Psd (noiseX C V)) : Psd (fullOf C (run V p) .covOut) := by
  obtain ⟨p', hp, hv⟩ := C107_every_propagate hC hF (q := q) hf
  rw [h, Option.some.injEq] at hp
  subst hp
  rw [hv N V hh (psd_tb hP) (psd_tb hu) (psd_tb hx)]
  exact psd_predicted hP hu hx

/-- The generated update stores a covariance, and none of the variances, along any direction, is larger than before. -/
theorem C109_update (hC : NoOne C) {D : MCfg C} (hD : D.dim ≠ .num 1) (hz : ∃ c, D.used c = true) {q f : ℕ} (hf : C.n + 4 ≤ f)
    {p : List Stmt} (h : measUpdate (code (q + 2)) f D = some p) {V : Val N} (hP : Psd (covOf C V .cov)) (hn : NoisePos V D) :
    Psd (fullOf C (run V p) .cov) ∧ Psd (covOf C V .cov - fullOf C (run V p) .cov) := by
  obtain ⟨p', hp, hv⟩ := C107_every_update hC hD hz (q := q) hf
  rw [h, Option.some.injEq] at hp
  subst hp
  have hs : (blockOf V .noise 0 0 D.dim D.dim).transpose = blockOf V .noise 0 0 D.dim D.dim := by
    have := (noise_psd hn).isHermitian
    rwa [Matrix.IsHermitian, Matrix.conjTranspose_eq_transpose_of_trivial] at this
  rw [(hv N V (psd_tb hP) hs).2]
  exact ⟨psd_updated hP hn, psd_less hP hn⟩

/-- All through a run of the filter the covariance is one. -/
theorem C109_reached (hC : NoOne C) (hF : Fixed C) {q f : ℕ} (hf : 2 * C.n + C.m + 12 ≤ f) {P : BM N (C.n + 1) (C.n + 1)}
    (h : Reached C (code (q + 6)) f N P) : Psd P := by
  induction h with
  | start h => exact h
  | predict _ hp hh hs hu hx ih =>
    rw [full_of_sym hs] at ih
    exact C109_predict hC hF hf hp hh ih hu hx
  | update _ hp hD hz hs hn ih =>
    rw [full_of_sym hs] at ih
    exact (C109_update (q := q + 4) hC hD hz (by omega) hp ih hn).1

/-! ### Values that meet the conditions -/

theorem halves_block (k : Kind) (r c : ℕ) (a b : Dim) : blockOf (halves N) k r c a b = (1 / 2 : ℝ) • (proj (halves N) a * proj (halves N) b) := by
  unfold blockOf
  show proj (halves N) a * ((1 / 2 : ℝ) • 1) * proj (halves N) b = _
  rw [Matrix.mul_smul, mul_one, Matrix.smul_mul]

theorem psd_diag {d : Fin n → M N} (h : ∀ r, ∃ e : Fin (N + 1) → ℝ, (∀ a, 0 ≤ e a) ∧ d r = Matrix.diagonal e) :
    Psd (fun r c => if c = r then d r else 0 : BM N n n) := by
  choose e he hd using h
  have : flat (fun r c => if c = r then d r else 0 : BM N n n) = Matrix.diagonal fun i => e i.1 i.2 := by
    ext ⟨r, a⟩ ⟨c, b⟩
    unfold flat
    by_cases h : c = r
    · subst h
      simp [hd, Matrix.diagonal_apply]
    · have h' : ¬ r = c := fun e => h e.symm
      simp [h, h']
  unfold Psd
  rw [this]
  exact Matrix.PosSemidef.diagonal fun i => he i.1 i.2

theorem halves_diag (k : Kind) (r : ℕ) (a : Dim) : ∃ e : Fin (N + 1) → ℝ, (∀ i, 0 ≤ e i) ∧
    blockOf (halves N) k r r a a = Matrix.diagonal e := by
  refine ⟨fun i => (1 / 2) * if i.val < (halves N).size a then 1 else 0, fun i => ?_, ?_⟩
  · show (0 : ℝ) ≤ (1 / 2) * if i.val < (halves N).size a then 1 else 0
    split_ifs <;> norm_num
  · rw [halves_block, proj_idem]
    unfold proj
    rw [← Matrix.diagonal_smul]
    rfl

theorem halves_cov (C : Cfg) (N : ℕ) : Psd (covOf C (halves N) .cov) := by
  have h : Psd (Spec.EkfGen.single ((1 / 2 : ℝ) • (1 : M N))) := psd_single (Matrix.PosSemidef.one.smul (by norm_num))
  have e : covOf C (halves N) .cov = (Matrix.of fun r _ => proj (halves N) (C.dim r) : BM N (C.n + 1) 1) *
      Spec.EkfGen.single ((1 / 2 : ℝ) • (1 : M N)) * tb (Matrix.of fun r _ => proj (halves N) (C.dim r) : BM N (C.n + 1) 1) := by
    funext r c
    unfold covOf
    rw [Matrix.mul_apply, Fintype.sum_unique, Matrix.mul_apply, Fintype.sum_unique, halves_block]
    simp [Spec.EkfGen.single, tb, proj_tr]
  rw [e]
  exact psd_conj h _

theorem halves_noiseU (C : Cfg) (N : ℕ) : Psd (noiseU C (halves N)) := by
  have e : noiseU C (halves N) = fun (r c : Fin (C.m + 1)) => if c = r then blockOf (halves N) .qu r r (C.inp r) (C.inp r) else 0 := by
    funext r c
    unfold noiseU
    split_ifs with h
    · rw [h]
    · rfl
  rw [e]
  exact psd_diag fun r => halves_diag .qu r (C.inp r)

theorem halves_noiseX (C : Cfg) (N : ℕ) : Psd (noiseX C (halves N)) := by
  have e : noiseX C (halves N) = fun (r c : Fin (C.n + 1)) => if c = r then blockOf (halves N) .qx r r (C.dim r) (C.dim r) else 0 := by
    funext r c
    unfold noiseX
    split_ifs with h
    · rw [h]
    · rfl
  rw [e]
  exact psd_diag fun r => halves_diag .qx r (C.dim r)

theorem halves_noise (D : MCfg C) (N : ℕ) : NoisePos (halves N) D := by
  unfold NoisePos
  rw [halves_block, proj_idem]
  have : (1 / 2 : ℝ) • proj (halves N) D.dim + (1 - proj (halves N) D.dim) =
      Matrix.diagonal fun i : Fin (N + 1) => if i.val < (halves N).size D.dim then 1 / 2 else 1 := by
    unfold proj
    ext i j
    by_cases e : i = j
    · subst e
      simp only [Matrix.add_apply, Matrix.sub_apply, Matrix.smul_apply, Matrix.diagonal_apply_eq, Matrix.one_apply_eq, smul_eq_mul]
      split_ifs <;> norm_num
    · simp [e]
  rw [this]
  refine Matrix.PosDef.diagonal fun i => ?_
  split_ifs <;> norm_num

example : NoOne rtk ∧ Psd (covOf rtk (halves 6) .cov) ∧ Psd (noiseU rtk (halves 6)) ∧ Psd (noiseX rtk (halves 6)) ∧
    NoisePos (halves 6) rtkObs ∧ (∃ c, rtkObs.used c = true) ∧
      ∃ p, propagate rtk (code 24) 40 = some p ∧ Reached rtk (code 24) 40 6 (fullOf rtk (run (halves 6) p) .covOut) := by
  have hs : Symmetric (C := rtk) (halves 6) := psd_tb (halves_cov rtk 6)
  obtain ⟨p, hp, -⟩ := C107_every_propagate noOne_rtk fixed_rtk (q := 18) (f := 40) (by decide)
  refine ⟨noOne_rtk, halves_cov _ _, halves_noiseU _ _, halves_noiseX _ _, halves_noise _ _, ⟨0, by decide⟩, p, hp, ?_⟩
  refine .predict (.start ?_) hp (by simp [numOf, halves]) hs (halves_noiseU _ _) (halves_noiseX _ _)
  rw [full_of_sym hs]
  exact halves_cov _ _

end Verif.Props.EkfGen
