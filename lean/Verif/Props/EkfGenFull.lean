import Verif.Props.EkfGenProp

/-!
The whole matrices computed by the generated code, and the configurations of the project.
-/

namespace Verif.Props.EkfGen

open Verif.Model.Symb Verif.Model.Symb.Blk Verif.Model.EkfGen Verif.Spec.Symb Verif.Spec.EkfGen Verif.Lemmas.Symb
open Verif.Props.Symb

variable {C : Cfg}

theorem tb_add {N m n : ℕ} (X Y : BM N m n) : tb (X + Y) = tb X + tb Y := by
  funext r c
  exact Matrix.transpose_add _ _

theorem tb_sub {N m n : ℕ} (X Y : BM N m n) : tb (X - Y) = tb X - tb Y := by
  funext r c
  exact Matrix.transpose_sub _ _

theorem tb_predicted {N : ℕ} {V : Val N} (h : Symmetric (C := C) V) (hu : tb (noiseU C V) = noiseU C V)
    (hx : tb (noiseX C V) = noiseX C V) : tb (predicted C V) = predicted C V := by
  unfold predicted
  rw [tb_add, tb_add, tb_mul, tb_mul, tb_mul, tb_mul, tb_tb, tb_tb, hu, hx, h, Matrix.mul_assoc, Matrix.mul_assoc]

theorem proj_tr {N : ℕ} (V : Val N) (d : Dim) : (proj V d).transpose = proj V d := by
  unfold proj
  rw [Matrix.diagonal_transpose]

theorem blockInv_tr {N : ℕ} (V : Val N) {d : Dim} {S : M N} (hS : PFit V d d S) (hs : S.transpose = S) :
    (blockInv V d S).transpose = blockInv V d S := by
  unfold blockInv
  rw [Matrix.transpose_mul, Matrix.transpose_nonsing_inv, Matrix.transpose_add, Matrix.transpose_sub, proj_tr,
    Matrix.transpose_one, hs]
  exact (inv_comm (proj_comm V hS)).symm

theorem innovation_fit {N : ℕ} (V : Val N) (D : MCfg C) : PFit V D.dim D.dim (innovation V D) := by
  have hl : ∀ c, proj V D.dim * jz V D 0 c = jz V D 0 c := by
    intro c
    unfold jz
    split_ifs
    · exact (blockOf_fit V _ _ _ _ _).1
    · exact mul_zero _
  have hn := blockOf_fit V .noise 0 0 D.dim D.dim
  have hr : ∀ c, tb (jz V D) c 0 * proj V D.dim = tb (jz V D) c 0 := by
    intro c
    have := congrArg Matrix.transpose (hl c)
    rwa [Matrix.transpose_mul, proj_tr] at this
  unfold innovation
  constructor
  · rw [mul_add, hn.1, Matrix.mul_assoc, Matrix.mul_apply, Finset.mul_sum]
    congr 1
    exact Finset.sum_congr rfl fun c _ => by rw [← mul_assoc, hl c]
  · rw [add_mul, hn.2, Matrix.mul_apply, Finset.sum_mul]
    congr 1
    exact Finset.sum_congr rfl fun c _ => by rw [mul_assoc, hr c]

theorem tb_updated {N : ℕ} {V : Val N} (h : Symmetric (C := C) V) (D : MCfg C)
    (hn : (blockOf V .noise 0 0 D.dim D.dim).transpose = blockOf V .noise 0 0 D.dim D.dim) :
    tb (updated V D) = updated V D := by
  have hs : (innovation V D).transpose = innovation V D := by
    have e : tb (jz V D * covOf C V .cov * tb (jz V D)) = jz V D * covOf C V .cov * tb (jz V D) := by
      rw [tb_mul, tb_mul, tb_tb, h, Matrix.mul_assoc]
    unfold innovation
    rw [Matrix.transpose_add, hn]
    congr 1
    exact congrFun (congrFun e 0) 0
  have hi : tb (single (blockInv V D.dim (innovation V D))) = single (blockInv V D.dim (innovation V D)) := by
    funext r c
    exact blockInv_tr V (innovation_fit V D) hs
  unfold updated gain
  rw [tb_sub, tb_mul, tb_mul, tb_mul, tb_mul, tb_tb, hi, h]
  simp only [Matrix.mul_assoc]

/-- The whole covariance after the generated propagation is the predicted one. -/
theorem C107_propagate_full {q f : ℕ} (hC : NoOne C) {p : List Stmt} (h : propagate C (guarded q) f = some p) {N : ℕ}
    {V : Val N} (hh : numOf V .half = 1 / 2) (hs : Symmetric (C := C) V) (hu : tb (noiseU C V) = noiseU C V)
    (hx : tb (noiseX C V) = noiseX C V) : fullOf C (run V p) .covOut = predicted C V := by
  have hp := (C107_propagate hC h).2 N V hh
  funext r c
  unfold fullOf
  split_ifs with hrc
  · exact hp r c hrc
  · rw [← tb_predicted hs hu hx]
    show _ = (predicted C V c r).transpose
    rw [← hp c r (le_of_not_ge hrc)]
    rfl

/-- The whole covariance after the generated update is the one of the Kalman filter. -/
theorem C107_update_full {q f : ℕ} (hC : NoOne C) {D : MCfg C} (hD : D.dim ≠ .num 1) {p : List Stmt}
    (h : measUpdate (guarded q) f D = some p) {N : ℕ} {V : Val N} (hs : Symmetric (C := C) V)
    (hn : (blockOf V .noise 0 0 D.dim D.dim).transpose = blockOf V .noise 0 0 D.dim D.dim) :
    fullOf C (run V p) .cov = updated V D := by
  have hp := ((C107_update hC hD h).2 N V hs).2
  funext r c
  unfold fullOf
  split_ifs with hrc
  · exact hp r c hrc
  · rw [← tb_updated hs D hn]
    show _ = (updated V D c r).transpose
    rw [← hp c r (le_of_not_ge hrc)]
    rfl

/-! ### The configurations of the project -/

theorem noOne_rtk : NoOne rtk := by
  constructor <;> decide

theorem noOne_sample : NoOne sample := by
  constructor <;> decide

/-- What the generated propagation of a configuration should do. -/
def Predicts (C : Cfg) : Prop := ∃ p, propagate C (code 24) 24 = some p ∧ ∀ (N : ℕ) (V : Val N), numOf V .half = 1 / 2 →
  Symmetric (C := C) V → tb (noiseU C V) = noiseU C V → tb (noiseX C V) = noiseX C V →
    fullOf C (run V p) .covOut = predicted C V

/-- What the generated update of a measurement should do. -/
def Updates {C : Cfg} (D : MCfg C) : Prop := ∃ p, measUpdate (code 24) 24 D = some p ∧ ∀ (N : ℕ) (V : Val N),
  Symmetric (C := C) V → (blockOf V .noise 0 0 D.dim D.dim).transpose = blockOf V .noise 0 0 D.dim D.dim →
    (∀ r : Fin (C.n + 1), blockOf (run V p) .dx r 0 (C.dim r) (.num 1) = correction V D r 0) ∧
      fullOf C (run V p) .cov = updated V D

theorem predicts_of (hC : NoOne C) (h : (propagate C (guarded 24) 24).isSome = true) : Predicts C := by
  obtain ⟨p, hp⟩ := Option.isSome_iff_exists.mp h
  exact ⟨p, (C107_propagate hC hp).1, fun N V hh hs hu hx => C107_propagate_full hC hp hh hs hu hx⟩

theorem updates_of (hC : NoOne C) {D : MCfg C} (hD : D.dim ≠ .num 1) (h : (measUpdate (guarded 24) 24 D).isSome = true) :
    Updates D := by
  obtain ⟨p, hp⟩ := Option.isSome_iff_exists.mp h
  exact ⟨p, (C107_update hC hD hp).1, fun N V hs hn =>
    ⟨((C107_update hC hD hp).2 N V hs).1, C107_update_full hC hD hp hs hn⟩⟩

/-- The filter of the project. -/
theorem C107_rtk_propagate : Predicts rtk := predicts_of noOne_rtk (by decide +kernel)
theorem C107_rtk_pointPos : Updates rtkPointPos := updates_of noOne_rtk (by decide) (by decide +kernel)
theorem C107_rtk_obs : Updates rtkObs := updates_of noOne_rtk (by decide) (by decide +kernel)
theorem C107_rtk_fixAndHold : Updates rtkFixAndHold := updates_of noOne_rtk (by decide) (by decide +kernel)

/-- The example of the generator. -/
theorem C107_sample_propagate : Predicts sample := predicts_of noOne_sample (by decide +kernel)
theorem C107_sample_vector : Updates sampleVector := updates_of noOne_sample (by decide) (by decide +kernel)
theorem C107_sample_varState : Updates sampleVarState := updates_of noOne_sample (by decide) (by decide +kernel)
theorem C107_sample_variable : Updates sampleVariable := updates_of noOne_sample (by decide) (by decide +kernel)

/-- The inverse in the gain is the one of the innovation covariance. -/
theorem C107_inverse {N : ℕ} (V : Val N) (D : MCfg C) {T : M N} (hT : PFit V D.dim D.dim T)
    (h : innovation V D * T = proj V D.dim) : blockInv V D.dim (innovation V D) = T :=
  blockInv_eq V (innovation_fit V D) hT h

/-- Values that meet the conditions: every block is half an identity. -/
noncomputable def halves (N : ℕ) : Val N := ⟨fun _ => 2, fun _ _ _ => (1 / 2 : ℝ) • 1⟩

theorem halves_tr {N : ℕ} (k : Kind) (r c : ℕ) (a b : Dim) :
    (blockOf (halves N) k r c a b).transpose = blockOf (halves N) k c r b a := by
  unfold blockOf halves
  rw [Matrix.transpose_mul, Matrix.transpose_mul, proj_tr, proj_tr, Matrix.transpose_smul, Matrix.transpose_one, mul_assoc]

example : numOf (halves 6) .half = 1 / 2 ∧ Symmetric (C := rtk) (halves 6) ∧ tb (noiseU rtk (halves 6)) = noiseU rtk (halves 6) ∧
    tb (noiseX rtk (halves 6)) = noiseX rtk (halves 6) ∧
      (blockOf (halves 6) .noise 0 0 rtkObs.dim rtkObs.dim).transpose = blockOf (halves 6) .noise 0 0 rtkObs.dim rtkObs.dim ∧
        jx rtk (halves 6) 0 1 0 0 = 1 / 2 := by
  refine ⟨by simp [numOf, halves], ?_, ?_, ?_, halves_tr _ _ _ _ _, ?_⟩
  · funext r c
    exact halves_tr .cov c r _ _
  · funext r c
    unfold tb noiseU
    by_cases h : c = r
    · rw [if_pos h, if_pos h.symm, halves_tr]
    · rw [if_neg h, if_neg (fun e => h e.symm), Matrix.transpose_zero]
  · funext r c
    unfold tb noiseX
    by_cases h : c = r
    · rw [if_pos h, if_pos h.symm, halves_tr]
    · rw [if_neg h, if_neg (fun e => h e.symm), Matrix.transpose_zero]
  · unfold jx
    rw [if_pos (by decide)]
    simp [blockOf, halves, proj, rtk, Val.size]

end Verif.Props.EkfGen
