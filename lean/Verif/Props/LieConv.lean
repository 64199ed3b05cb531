import Verif.Props.So3

/-!
C69: the conversions and constructors of `SO3`, `SE3`, `Quat` and `DQuat` describe the same rotations
and rigid motions.
-/

namespace Verif.Props.LieConv

open Verif.Model.Lie Verif.Spec.Lie Verif.Lemmas.Lie Verif.Props.Quat Verif.Props.DQuat
  Verif.Props.So3 Matrix

theorem mat_of_apply {M N : M3} (h : ∀ v, M.mulVec v = N.mulVec v) : M = N :=
  Matrix.ext_of_mulVec_single fun _ => h _

theorem turn_neg (n : V3) (θ : ℝ) (v : V3) : turn (-n) (-θ) v = turn n θ v := by
  unfold turn
  rw [Real.cos_neg, Real.sin_neg]
  apply vec_ext <;> comps <;> ring

theorem turn_neg' (n : V3) (θ : ℝ) (v : V3) : turn (-n) θ v = turn n (-θ) v := by
  rw [← turn_neg n (-θ), neg_neg]

theorem sqNorm_smul (θ : ℝ) (n : V3) : sqNorm (θ • n) = θ ^ 2 * sqNorm n := by
  simp only [sqNorm_at, Pi.smul_apply, smul_eq_mul]; ring

theorem sqNorm_inner (n : V3) : sqNorm n = inner n n := by rw [inner_at]; rfl

/-- The exponential of `θ n` turns by `θ` about the unit vector `n`. -/
theorem exp_turn {n : V3} (hn : inner n n = 1) {θ : ℝ} (h : 4e-6 ≤ θ ^ 2) (v : V3) :
    (SO3.exp (θ • n)).mulVec v = turn n θ v := by
  have hs : sqNorm (θ • n) = θ ^ 2 := by rw [sqNorm_smul, sqNorm_inner, hn, mul_one]
  have hv : vnorm (θ • n) = |θ| := by unfold vnorm; rw [hs, Real.sqrt_sq_eq_abs]
  rw [(C48_exp_partial (θ • n) (by rw [hs]; exact h)).2, hv, smul_smul]
  rcases lt_trichotomy θ 0 with h0 | h0 | h0
  · rw [abs_of_neg h0, inv_neg, neg_mul, inv_mul_cancel₀ h0.ne, neg_one_smul, turn_neg]
  · rw [h0] at h; norm_num at h
  · rw [abs_of_pos h0, inv_mul_cancel₀ h0.ne', one_smul]

/-- C69: the matrix of a quaternion acts like the quaternion, the order of products is reversed, and
going back gives the quaternion up to sign; every rotation comes from its quaternion. -/
theorem C69_so3_quat (p q : Quat) (hp : UnitQ p) (hq : UnitQ q) (m : M3) (hm : IsRot m) (v : V3) :
    SO3.rotp q.R v = q.rotp v ∧ SO3.rota q.R v = q.rota v ∧
    SO3.times q.R p.R = (p.otimes q).R ∧ SO3.inverse q.R = q.inverse.R ∧
    (Quat.fromR q.R = q ∨ Quat.fromR q.R = Quat.smul (-1) q) ∧
    (Quat.fromR m).rotp v = SO3.rotp m v := by
  refine ⟨(rotp_eq q v).symm, (rota_eq q v).symm, ?_, ?_, C44_fromR_R q hq, ?_⟩
  · exact (R_mul p q hp hq).symm
  · unfold SO3.inverse
    apply mat_ext <;> simp only [Quat.inverse] <;> comps <;> ring
  · rw [rotp_eq, (fromR_spec hm).2]; rfl

/-- C69: the exponential of `SO3` is the inverse of the rotation of the exponential of `Quat`. -/
theorem C69_exp (w : V3) (h : 4e-6 ≤ sqNorm w) :
    SO3.exp w = SO3.inverse (Quat.exp w).R ∧ SO3.exp (-w) = (Quat.exp w).R := by
  have h0 := pos_of_le h
  have hs := sqNorm_eq w
  have hn : 4e-6 < vnorm w := by
    by_contra hc
    rw [hs] at h
    nlinarith
  have hneg : sqNorm (-w) = sqNorm w := by
    simp only [sqNorm_at, Pi.neg_apply]; ring
  have hvn : vnorm (-w) = vnorm w := by unfold vnorm; rw [hneg]
  constructor
  · apply mat_of_apply
    intro v
    rw [(C48_exp_partial w h).2, ← (C45_exp w v hn).2.1, rota_eq]
    rfl
  · apply mat_of_apply
    intro v
    rw [(C48_exp_partial (-w) (by rw [hneg]; exact h)).2, ← rotp_eq, (C45_exp w v hn).2.2, hvn,
      smul_neg, turn_neg']

/-- C69: `from_axis_angle` of `SO3` and of `Quat` agree. -/
theorem C69_axis_angle (n : V3) (hn : inner n n = 1) (θ : ℝ) (h : 4e-6 ≤ θ ^ 2) :
    ∃ q, Quat.fromAxisAngle n θ = some q ∧ SO3.fromAxisAngle n θ = q.R := by
  obtain ⟨q, h1, -, -, h3⟩ := C45_axis_angle n hn θ
  refine ⟨q, h1, mat_of_apply fun v => ?_⟩
  have hn1 : normalized n = n := by
    unfold normalized vnorm
    rw [sqNorm_inner, hn, Real.sqrt_one, inv_one, one_smul, if_pos one_pos]
  unfold SO3.fromAxisAngle
  rw [hn1, exp_turn (by rw [inner_at] at hn ⊢; comps; linarith) h, ← rotp_eq, h3, turn_neg']

/-- C69: `from_two_unit_vectors(u, v)` of `SO3` maps `u` to `v` for unit vectors that are neither
opposite nor closer than `2e-3` (where the exponential is an approximation). -/
theorem C69_two_vectors_partial (u v : V3) (hu : inner u u = 1) (hv : inner v v = 1)
    (hne : v ≠ -u) (hfar : inner u v ≤ 1 - 2e-6) :
    SO3.rotp (SO3.fromTwoUnitVectors u v) u = v ∧ IsRot (SO3.fromTwoUnitVectors u v) := by
  have hL := cross_sq u v
  rw [hu, hv] at hL
  have hc2 : -1 < inner u v := by
    by_contra hc
    have hle : inner u v ≤ -1 := not_lt.mp hc
    apply hne
    have hz : inner (u + v) (u + v) ≤ 0 := by
      have : inner (u + v) (u + v) = inner u u + 2 * inner u v + inner v v := by
        simp only [inner_at, Pi.add_apply]; ring
      rw [this, hu, hv]; linarith
    rw [inner_at] at hz
    have a0 := mul_self_nonneg ((u + v) 0)
    have a1 := mul_self_nonneg ((u + v) 1)
    have a2 := mul_self_nonneg ((u + v) 2)
    have z0 : (u + v) 0 = 0 := mul_self_eq_zero.mp (by linarith)
    have z1 : (u + v) 1 = 0 := mul_self_eq_zero.mp (by linarith)
    have z2 : (u + v) 2 = 0 := mul_self_eq_zero.mp (by linarith)
    rw [Pi.add_apply] at z0 z1 z2
    apply vec_ext <;> rw [Pi.neg_apply] <;> linarith
  have nu : normalized u = u := by
    unfold normalized vnorm
    rw [sqNorm_inner, hu, Real.sqrt_one, inv_one, one_smul, if_pos one_pos]
  have nv : normalized v = v := by
    unfold normalized vnorm
    rw [sqNorm_inner, hv, Real.sqrt_one, inv_one, one_smul, if_pos one_pos]
  have hcos : Real.cos (Real.arccos (inner u v)) = inner u v :=
    Real.cos_arccos (by linarith) (by linarith)
  have hcp : 0 < sqNorm (cross u v) := by
    rw [sqNorm_inner, hL]; nlinarith
  have hsin : Real.sin (Real.arccos (inner u v)) = vnorm (cross u v) := by
    rw [Real.sin_arccos]
    unfold vnorm
    rw [sqNorm_inner, hL]
    congr 1
    ring
  have h0 : 0 < vnorm (cross u v) := Real.sqrt_pos.mpr hcp
  have hax := unit_axis h0
  have hθ : 4e-6 ≤ Real.arccos (inner u v) ^ 2 := by
    have := Real.one_sub_sq_div_two_le_cos (x := Real.arccos (inner u v))
    rw [hcos] at this
    norm_num at hfar ⊢
    linarith
  have hf : SO3.fromTwoUnitVectors u v
      = SO3.exp (Real.arccos (inner u v) • ((vnorm (cross u v))⁻¹ • cross u v)) := by
    unfold SO3.fromTwoUnitVectors
    rw [nu, nv]
    dsimp only
    rw [dot_eq]
    unfold normalized
    rw [if_pos hcp]
  rw [hf]
  constructor
  · unfold SO3.rotp
    rw [exp_turn hax hθ]
    unfold turn
    rw [hcos, hsin]
    have hi : vnorm (cross u v) * (vnorm (cross u v))⁻¹ = 1 := mul_inv_cancel₀ h0.ne'
    rw [inner_at] at hu
    generalize (vnorm (cross u v))⁻¹ = k at *
    generalize vnorm (cross u v) = n at *
    apply vec_ext <;> comps
    · linear_combination v 0 * hu
        + ((u 2 * v 0 - u 0 * v 2) * u 2 - (u 0 * v 1 - u 1 * v 0) * u 1) * hi
    · linear_combination v 1 * hu
        + ((u 0 * v 1 - u 1 * v 0) * u 0 - (u 1 * v 2 - u 2 * v 1) * u 2) * hi
    · linear_combination v 2 * hu
        + ((u 1 * v 2 - u 2 * v 1) * u 1 - (u 2 * v 0 - u 0 * v 2) * u 0) * hi
  · refine (C48_exp_partial _ ?_).1
    rw [sqNorm_smul, sqNorm_inner, hax, mul_one]
    exact hθ

/-- The statement of C69 for `from_two_unit_vectors`: it maps the first vector to the second. -/
def C69_two_vectors_statement : Prop := ∀ u v : V3, inner u u = 1 → inner v v = 1 →
  SO3.rotp (SO3.fromTwoUnitVectors u v) u = v

/-- C69: for opposite vectors the result is the identity. -/
theorem C69_opposite_violated (u : V3) (hu : inner u u = 1) :
    SO3.fromTwoUnitVectors u (-u) = 1 := by
  have hu' : inner (-u) (-u) = 1 := by rw [inner_at] at hu ⊢; comps; linarith
  have nu : normalized u = u := by
    unfold normalized vnorm
    rw [sqNorm_inner, hu, Real.sqrt_one, inv_one, one_smul, if_pos one_pos]
  have nv : normalized (-u) = -u := by
    unfold normalized vnorm
    rw [sqNorm_inner, hu', Real.sqrt_one, inv_one, one_smul, if_pos one_pos]
  have hc : cross u (-u) = 0 := by
    apply vec_ext <;> comps <;> ring
  have h0 : sqNorm (0 : V3) = 0 := by simp [sqNorm, dot]
  have hn0 : normalized (0 : V3) = 0 := by
    unfold normalized
    rw [h0, if_neg (lt_irrefl _)]
  unfold SO3.fromTwoUnitVectors
  rw [nu, nv]
  dsimp only
  rw [hc, hn0, smul_zero]
  unfold SO3.exp rodrigues
  have hs : skew (0 : V3) = 0 := by
    apply mat_ext <;> comps <;> simp
  rw [hs]
  simp

theorem C69_two_vectors_statement_false : ¬ C69_two_vectors_statement := by
  intro h
  have hu : inner (![1, 0, 0] : V3) ![1, 0, 0] = 1 := by
    rw [inner_at, vec_0, vec_1, vec_2]; norm_num
  have hu' : inner (-(![1, 0, 0] : V3)) (-![1, 0, 0]) = 1 := by
    rw [inner_at]; comps; norm_num
  have := h _ _ hu hu'
  rw [C69_opposite_violated _ hu] at this
  unfold SO3.rotp at this
  rw [one_mulVec] at this
  have := congrFun this 0
  rw [Pi.neg_apply, vec_0] at this
  norm_num at this

/-- C69, the statement for `DQuat::from_4x4`: in one of the two directions the dual quaternion made
from a homogeneous matrix acts like that matrix or like its inverse. -/
def C69_from4x4_statement : Prop :=
  (∀ m p v, IsRot m → (DQuat.from4x4 m p).transformp v = (SE3.mk m p).transformp v) ∨
  (∀ m p v, IsRot m → (DQuat.from4x4 m p).transformp v = (SE3.mk m p).transforma v) ∨
  (∀ m p v, IsRot m → (DQuat.from4x4 m p).transforma v = (SE3.mk m p).transformp v) ∨
  (∀ m p v, IsRot m → (DQuat.from4x4 m p).transforma v = (SE3.mk m p).transforma v)

/-- C69: `from_4x4` has the rotation of the matrix, but the translation with the wrong sign:
its `transformp` is `m v - p` where that of `SE3` is `m v + p`, and its `transforma` is `mᵀ (v + p)`
where that of `SE3` is `mᵀ (v - p)`. -/
theorem C69_from4x4_violated (m : M3) (p v : V3) (hm : IsRot m) :
    (DQuat.from4x4 m p).transformp v = m.mulVec v - p ∧
    (DQuat.from4x4 m p).transforma v = m.transpose.mulVec (v + p) ∧
    (SE3.mk m p).transformp v = m.mulVec v + p ∧
    (SE3.mk m p).transforma v = m.transpose.mulVec (v - p) := by
  obtain ⟨hu, hR⟩ := fromR_spec hm
  have hr : (DQuat.from4x4 m p).r = Quat.fromR m := rfl
  have ht : (DQuat.from4x4 m p).translation = m.transpose.mulVec p := by
    unfold DQuat.from4x4
    have := (C46_translation (Quat.fromR m) ((Quat.fromR m).rota p) DQuat.identity hu
      ⟨by norm_num [UnitQ, DQuat.identity, Quat.identity], by norm_num [DQuat.identity, Quat.identity]⟩).2.2.1
    dsimp only
    rw [this, rota_eq, hR]
  refine ⟨?_, ?_, rfl, rfl⟩
  · unfold DQuat.transformp
    rw [hr, ht, rotp_eq, hR, mulVec_sub, mulVec_mulVec, hm.1, one_mulVec]
  · unfold DQuat.transforma
    rw [hr, ht, rota_eq, hR, mulVec_add]

theorem C69_from4x4_statement_false : ¬ C69_from4x4_statement := by
  have key := C69_from4x4_violated 1 ![1, 0, 0] 0 isRot_one
  obtain ⟨h1, h2, h3, h4⟩ := key
  -- a turn that is not an involution separates the mixed cases
  have hz : IsRot (Quat.R ⟨3 / 5, 0, 0, 4 / 5⟩) := R_isRot _ (by norm_num [UnitQ])
  have k2 := C69_from4x4_violated _ ![0, 0, 0] ![1, 0, 0] hz
  obtain ⟨g1, g2, g3, g4⟩ := k2
  rintro (h | h | h | h)
  · have := h 1 ![1, 0, 0] 0 isRot_one
    rw [h1, h3] at this
    have := congrFun this 0
    simp only [one_mulVec, Pi.sub_apply, Pi.add_apply, Pi.zero_apply, vec_0] at this
    norm_num at this
  · have := h _ ![0, 0, 0] ![1, 0, 0] hz
    rw [g1, g4] at this
    have := congrFun this 1
    revert this
    comps
    norm_num
  · have := h _ ![0, 0, 0] ![1, 0, 0] hz
    rw [g2, g3] at this
    have := congrFun this 1
    revert this
    comps
    norm_num
  · have := h 1 ![1, 0, 0] 0 isRot_one
    rw [h2, h4] at this
    have := congrFun this 0
    simp only [transpose_one, one_mulVec, Pi.sub_apply, Pi.add_apply, Pi.zero_apply, vec_0] at this
    norm_num at this

end Verif.Props.LieConv
