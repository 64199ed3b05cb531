import Verif.Props.Se3Jac

/-!
Derivatives at zero of curves of vectors, quaternions and rigid motions, in particular of a motion
perturbed from the right by the exponential of `t ξ`.
-/

namespace Verif.Lemmas.LieCurve

open Verif.Model.Lie Verif.Lemmas.Lie Verif.Lemmas.LieDeriv Verif.Props.Quat Verif.Props.DQuat
  Verif.Props.So3 Verif.Props.LieJac Verif.Props.Se3Jac Matrix

/-- The derivative at zero of a curve of vectors. -/
def HasVecDeriv (f : ℝ → V3) (d : V3) : Prop := ∀ i, HasDerivAt (fun t => f t i) (d i) 0

theorem HasVecDeriv.add {f g : ℝ → V3} {a b : V3} (hf : HasVecDeriv f a) (hg : HasVecDeriv g b) :
    HasVecDeriv (fun t => f t + g t) (a + b) := fun i => (hf i).add (hg i)

theorem HasVecDeriv.sub {f g : ℝ → V3} {a b : V3} (hf : HasVecDeriv f a) (hg : HasVecDeriv g b) :
    HasVecDeriv (fun t => f t - g t) (a - b) := fun i => (hf i).sub (hg i)

theorem vconst (a : V3) : HasVecDeriv (fun _ => a) 0 := fun i => hasDerivAt_const (0 : ℝ) (a i)

theorem vline (a δ : V3) : HasVecDeriv (fun t => a + t • δ) δ := fun i => line_deriv a δ i

theorem HasVecDeriv.congr {f : ℝ → V3} {a b : V3} (hf : HasVecDeriv f a) (h : a = b) : HasVecDeriv f b := h ▸ hf

theorem HasVecDeriv.cross_left {f : ℝ → V3} {a : V3} (hf : HasVecDeriv f a) (u : V3) :
    HasVecDeriv (fun t => cross u (f t)) (cross u a) := by
  intro i
  fin_cases i
  · exact ((hf 2).const_mul (u 1)).sub ((hf 1).const_mul (u 2))
  · exact ((hf 0).const_mul (u 2)).sub ((hf 2).const_mul (u 0))
  · exact ((hf 1).const_mul (u 0)).sub ((hf 0).const_mul (u 1))

/-- The derivative of the entries of the rotation matrix of a quaternion moving with rate `e`. -/
def dR (q e : Quat) : M3 :=
  !![-4 * (q.y * e.y) - 4 * (q.z * e.z), 2 * (e.x * q.y + q.x * e.y) + 2 * (e.w * q.z + q.w * e.z),
       2 * (e.x * q.z + q.x * e.z) - 2 * (e.w * q.y + q.w * e.y);
     2 * (e.x * q.y + q.x * e.y) - 2 * (e.w * q.z + q.w * e.z), -4 * (q.x * e.x) - 4 * (q.z * e.z),
       2 * (e.y * q.z + q.y * e.z) + 2 * (e.w * q.x + q.w * e.x);
     2 * (e.x * q.z + q.x * e.z) + 2 * (e.w * q.y + q.w * e.y),
       2 * (e.y * q.z + q.y * e.z) - 2 * (e.w * q.x + q.w * e.x), -4 * (q.x * e.x) - 4 * (q.y * e.y)]

section
variable (q e : Quat)
theorem dR_00 : dR q e 0 0 = -4 * (q.y * e.y) - 4 * (q.z * e.z) := rfl
theorem dR_01 : dR q e 0 1 = 2 * (e.x * q.y + q.x * e.y) + 2 * (e.w * q.z + q.w * e.z) := rfl
theorem dR_02 : dR q e 0 2 = 2 * (e.x * q.z + q.x * e.z) - 2 * (e.w * q.y + q.w * e.y) := rfl
theorem dR_10 : dR q e 1 0 = 2 * (e.x * q.y + q.x * e.y) - 2 * (e.w * q.z + q.w * e.z) := rfl
theorem dR_11 : dR q e 1 1 = -4 * (q.x * e.x) - 4 * (q.z * e.z) := rfl
theorem dR_12 : dR q e 1 2 = 2 * (e.y * q.z + q.y * e.z) + 2 * (e.w * q.x + q.w * e.x) := rfl
theorem dR_20 : dR q e 2 0 = 2 * (e.x * q.z + q.x * e.z) + 2 * (e.w * q.y + q.w * e.y) := rfl
theorem dR_21 : dR q e 2 1 = 2 * (e.y * q.z + q.y * e.z) - 2 * (e.w * q.x + q.w * e.x) := rfl
theorem dR_22 : dR q e 2 2 = -4 * (q.x * e.x) - 4 * (q.y * e.y) := rfl
end

theorem mat_cases {P : Fin 3 → Fin 3 → Prop} (h00 : P 0 0) (h01 : P 0 1) (h02 : P 0 2)
    (h10 : P 1 0) (h11 : P 1 1) (h12 : P 1 2) (h20 : P 2 0) (h21 : P 2 1) (h22 : P 2 2) :
    ∀ i j, P i j := by
  intro i j
  fin_cases i <;> fin_cases j
  · exact h00
  · exact h01
  · exact h02
  · exact h10
  · exact h11
  · exact h12
  · exact h20
  · exact h21
  · exact h22

theorem R_deriv {q : ℝ → Quat} {e : Quat} (h : HasQuatDeriv q e) :
    ∀ i j, HasDerivAt (fun t => (q t).R i j) (dR (q 0) e i j) 0 := by
  obtain ⟨hw, hx, hy, hz⟩ := h
  have sq : ∀ {f g : ℝ → ℝ} {a b : ℝ}, HasDerivAt f a 0 → HasDerivAt g b 0 →
      HasDerivAt (fun t => 1 - 2 * (f t * f t) - 2 * (g t * g t)) (-4 * (f 0 * a) - 4 * (g 0 * b)) 0 := by
    intro f g a b hf hg
    refine ((((hf.mul hf).const_mul 2).const_sub 1).sub ((hg.mul hg).const_mul 2)).congr_deriv ?_
    ring
  have ad : ∀ {f g k l : ℝ → ℝ} {a b c d : ℝ}, HasDerivAt f a 0 → HasDerivAt g b 0 → HasDerivAt k c 0 →
      HasDerivAt l d 0 → HasDerivAt (fun t => 2 * (f t * g t) + 2 * (k t * l t))
        (2 * (a * g 0 + f 0 * b) + 2 * (c * l 0 + k 0 * d)) 0 := by
    intro f g k l a b c d hf hg hk hl
    exact ((hf.mul hg).const_mul 2).add ((hk.mul hl).const_mul 2)
  have sb : ∀ {f g k l : ℝ → ℝ} {a b c d : ℝ}, HasDerivAt f a 0 → HasDerivAt g b 0 → HasDerivAt k c 0 →
      HasDerivAt l d 0 → HasDerivAt (fun t => 2 * (f t * g t) - 2 * (k t * l t))
        (2 * (a * g 0 + f 0 * b) - 2 * (c * l 0 + k 0 * d)) 0 := by
    intro f g k l a b c d hf hg hk hl
    exact ((hf.mul hg).const_mul 2).sub ((hk.mul hl).const_mul 2)
  exact mat_cases (sq hy hz) (ad hx hy hw hz) (sb hx hz hw hy) (sb hx hy hw hz) (sq hx hz) (ad hy hz hw hx)
    (ad hx hz hw hy) (sb hy hz hw hx) (sq hx hy)

theorem mulVec_deriv {M : ℝ → M3} {dM : M3} {f : ℝ → V3} {a : V3}
    (hM : ∀ i j, HasDerivAt (fun t => M t i j) (dM i j) 0) (hf : HasVecDeriv f a) :
    HasVecDeriv (fun t => (M t).mulVec (f t)) (dM.mulVec (f 0) + (M 0).mulVec a) := by
  intro i
  have := (((hM i 0).mul (hf 0)).add ((hM i 1).mul (hf 1))).add ((hM i 2).mul (hf 2))
  refine (this.congr_of_eventuallyEq (Filter.Eventually.of_forall fun t => mulVec_at (M t) (f t) i)).congr_deriv ?_
  rw [Pi.add_apply, mulVec_at, mulVec_at]
  ring

theorem rotp_deriv {q : ℝ → Quat} {e : Quat} (h : HasQuatDeriv q e) {f : ℝ → V3} {a : V3}
    (hf : HasVecDeriv f a) :
    HasVecDeriv (fun t => (q t).rotp (f t)) ((dR (q 0) e).mulVec (f 0) + (q 0).rotp a) := by
  simp only [rotp_eq]
  exact mulVec_deriv (R_deriv h) hf

theorem rota_deriv {q : ℝ → Quat} {e : Quat} (h : HasQuatDeriv q e) {f : ℝ → V3} {a : V3}
    (hf : HasVecDeriv f a) :
    HasVecDeriv (fun t => (q t).rota (f t)) ((dR (q 0) e)ᵀ.mulVec (f 0) + (q 0).rota a) := by
  simp only [rota_eq]
  exact mulVec_deriv (M := fun t => (q t).Rᵀ) (dM := (dR (q 0) e)ᵀ) (fun i j => R_deriv h j i) hf

/-- A unit quaternion turned from the right at rate `w`. -/
theorem dR_right (q : Quat) (hq : UnitQ q) (w : V3) : dR q (rightRate q w) = -(skew w * q.R) := by
  simp only [UnitQ] at hq
  apply mat_ext <;> rw [Matrix.neg_apply, mul_at] <;> comps <;>
    simp only [dR_00, dR_01, dR_02, dR_10, dR_11, dR_12, dR_20, dR_21, dR_22, rightRate, Quat.smul, Quat.otimes,
      Quat.pure]
  · ring
  · linear_combination (w 2) * hq
  · linear_combination (-w 1) * hq
  · linear_combination (-w 2) * hq
  · ring
  · linear_combination (w 0) * hq
  · linear_combination (w 1) * hq
  · linear_combination (-w 0) * hq
  · ring

/-- A unit quaternion turned from the left at rate `w`. -/
theorem dR_left (q : Quat) (hq : UnitQ q) (w : V3) : dR q (leftRate w q) = -(q.R * skew w) := by
  simp only [UnitQ] at hq
  apply mat_ext <;> rw [Matrix.neg_apply, mul_at] <;> comps <;>
    simp only [dR_00, dR_01, dR_02, dR_10, dR_11, dR_12, dR_20, dR_21, dR_22, leftRate, Quat.smul, Quat.otimes,
      Quat.pure]
  · ring
  · linear_combination (w 2) * hq
  · linear_combination (-w 1) * hq
  · linear_combination (-w 2) * hq
  · ring
  · linear_combination (w 0) * hq
  · linear_combination (w 1) * hq
  · linear_combination (-w 0) * hq
  · ring

theorem dR_add (q e f : Quat) : dR q (e.add f) = dR q e + dR q f := by
  apply mat_ext <;> rw [Matrix.add_apply] <;>
    simp only [dR_00, dR_01, dR_02, dR_10, dR_11, dR_12, dR_20, dR_21, dR_22, Quat.add] <;> ring

theorem dR_neg (q e : Quat) : dR q (Quat.smul (-1) e) = -dR q e := by
  apply mat_ext <;> rw [Matrix.neg_apply] <;>
    simp only [dR_00, dR_01, dR_02, dR_10, dR_11, dR_12, dR_20, dR_21, dR_22, Quat.smul] <;> ring

theorem otimes_deriv {p q : ℝ → Quat} {a b : Quat} (hp : HasQuatDeriv p a) (hq : HasQuatDeriv q b) :
    HasQuatDeriv (fun t => (p t).otimes (q t)) ((a.otimes (q 0)).add ((p 0).otimes b)) := by
  obtain ⟨hw, hx, hy, hz⟩ := hp
  obtain ⟨kw, kx, ky, kz⟩ := hq
  refine ⟨?_, ?_, ?_, ?_⟩
  · refine ((((hw.mul kw).sub (hx.mul kx)).sub (hy.mul ky)).sub (hz.mul kz)).congr_deriv ?_
    simp only [Quat.add, Quat.otimes]; ring
  · refine ((((hw.mul kx).add (hx.mul kw)).add (hy.mul kz)).sub (hz.mul ky)).congr_deriv ?_
    simp only [Quat.add, Quat.otimes]; ring
  · refine ((((hw.mul ky).sub (hx.mul kz)).add (hy.mul kw)).add (hz.mul kx)).congr_deriv ?_
    simp only [Quat.add, Quat.otimes]; ring
  · refine ((((hw.mul kz).add (hx.mul ky)).sub (hy.mul kx)).add (hz.mul kw)).congr_deriv ?_
    simp only [Quat.add, Quat.otimes]; ring

theorem add_deriv {p q : ℝ → Quat} {a b : Quat} (hp : HasQuatDeriv p a) (hq : HasQuatDeriv q b) :
    HasQuatDeriv (fun t => (p t).add (q t)) (a.add b) :=
  ⟨hp.1.add hq.1, hp.2.1.add hq.2.1, hp.2.2.1.add hq.2.2.1, hp.2.2.2.add hq.2.2.2⟩

theorem inverse_deriv {p : ℝ → Quat} {a : Quat} (hp : HasQuatDeriv p a) :
    HasQuatDeriv (fun t => (p t).inverse) a.inverse :=
  ⟨hp.1, hp.2.1.neg, hp.2.2.1.neg, hp.2.2.2.neg⟩

theorem const_deriv (p : Quat) : HasQuatDeriv (fun _ => p) ⟨0, 0, 0, 0⟩ :=
  ⟨hasDerivAt_const _ _, hasDerivAt_const _ _, hasDerivAt_const _ _, hasDerivAt_const _ _⟩

theorem qd_congr {f : ℝ → Quat} {a b : Quat} (hf : HasQuatDeriv f a) (h : a = b) : HasQuatDeriv f b := h ▸ hf

/-! ### The exponential at zero -/

theorem sqNorm_scale (w : V3) (t : ℝ) : sqNorm (t • w) = t * t * sqNorm w := by
  simp only [sqNorm, dot, Pi.smul_apply, smul_eq_mul]; ring

theorem cos_half (w : V3) (t : ℝ) :
    Real.cos (Real.sqrt (sqNorm (t • w)) / 2) = Real.cos (t * (vnorm w / 2)) := by
  rw [sqNorm_scale, Real.sqrt_mul (mul_self_nonneg t), Real.sqrt_mul_self_eq_abs]
  have e : |t| * Real.sqrt (sqNorm w) / 2 = |t * (vnorm w / 2)| := by
    rw [abs_mul, abs_of_nonneg (by have : 0 ≤ vnorm w := Real.sqrt_nonneg _; positivity : 0 ≤ vnorm w / 2)]
    unfold vnorm; ring
  rw [e, Real.cos_abs]

theorem small_near (w : V3) : ∀ᶠ t in nhds (0 : ℝ), ¬ sqNorm (t • w) > 4e-6 := by
  have hc : Filter.Tendsto (fun t : ℝ => t * t * sqNorm w) (nhds 0) (nhds (0 * 0 * sqNorm w)) :=
    (Filter.Tendsto.mul (Filter.tendsto_id.mul Filter.tendsto_id) tendsto_const_nhds)
  rw [zero_mul, zero_mul] at hc
  have := hc.eventually (gt_mem_nhds (show (0 : ℝ) < 4e-6 by norm_num))
  filter_upwards [this] with t ht
  rw [sqNorm_scale]
  exact not_lt.mpr ht.le

/-- A polynomial `t (a + t b(t))` has slope `a`. -/
theorem slope {f : ℝ → ℝ} {a : ℝ} (hf : HasDerivAt f a 0) (v : ℝ) :
    HasDerivAt (fun t => f t * (t * v)) (f 0 * v) 0 := by
  have h1 : HasDerivAt (fun t : ℝ => t * v) (1 * v) 0 := (hasDerivAt_id (0 : ℝ)).mul_const v
  refine (hf.mul h1).congr_deriv ?_
  ring

theorem poly_deriv (S : ℝ) : HasDerivAt (fun t : ℝ => 0.5 - 1 / 48 * (t * t * S)
    + 1 / 3840 * (t * t * S * (t * t * S))) 0 0 := by
  have h2 : HasDerivAt (fun t : ℝ => t * t * S) ((1 * 0 + 0 * 1) * S) 0 :=
    ((hasDerivAt_id (0 : ℝ)).mul (hasDerivAt_id (0 : ℝ))).mul_const S
  refine (((h2.const_mul (1 / 48)).const_sub 0.5).add ((h2.mul h2).const_mul (1 / 3840))).congr_deriv ?_
  ring

theorem poly2_deriv (S G : ℝ) : HasDerivAt (fun t : ℝ => t * t * G * (-1 / 24 + 1 / 960 * (t * t * S)
    - 1 / 107520 * (t * t * S * (t * t * S)))) 0 0 := by
  have h2 : ∀ S : ℝ, HasDerivAt (fun t : ℝ => t * t * S) ((1 * 0 + 0 * 1) * S) 0 := fun S =>
    ((hasDerivAt_id (0 : ℝ)).mul (hasDerivAt_id (0 : ℝ))).mul_const S
  refine ((h2 G).mul ((((h2 S).const_mul (1 / 960)).const_add (-1 / 24)).sub
    (((h2 S).mul (h2 S)).const_mul (1 / 107520)))).congr_deriv ?_
  ring

/-- The exponential leaves the identity with rate `ξ / 2`. -/
theorem exp_zero_deriv (ξ : V6) :
    HasQuatDeriv (fun t => (DQuat.exp ⟨t • ξ.w, t • ξ.v⟩).r) (Quat.smul (1 / 2) (Quat.pure ξ.w)) ∧
    HasQuatDeriv (fun t => (DQuat.exp ⟨t • ξ.w, t • ξ.v⟩).d) (Quat.smul (1 / 2) (Quat.pure ξ.v)) := by
  set S := sqNorm ξ.w with hS
  set G := dot ξ.w ξ.v with hG
  have hdot : ∀ t : ℝ, dot (t • ξ.w) (t • ξ.v) = t * t * G := by
    intro t; simp only [hG, dot, Pi.smul_apply, smul_eq_mul]; ring
  have hev := small_near ξ.w
  have e : ∀ᶠ t in nhds (0 : ℝ), DQuat.exp ⟨t • ξ.w, t • ξ.v⟩ =
      (let s := 0.5 - 1 / 48 * (t * t * S) + 1 / 3840 * (t * t * S * (t * t * S))
       let g := t * t * G * (-1 / 24 + 1 / 960 * (t * t * S) - 1 / 107520 * (t * t * S * (t * t * S)))
       ⟨⟨Real.cos (t * (vnorm ξ.w / 2)), s * (t * ξ.w 0), s * (t * ξ.w 1), s * (t * ξ.w 2)⟩,
        ⟨-(t * t * G) / 2 * s, g * (t * ξ.w 0) + s * (t * ξ.v 0), g * (t * ξ.w 1) + s * (t * ξ.v 1),
          g * (t * ξ.w 2) + s * (t * ξ.v 2)⟩⟩) := by
    filter_upwards [hev] with t ht
    unfold DQuat.exp DQuat.expCoeffs
    dsimp only
    rw [if_neg ht, cos_half, hdot, sqNorm_scale, ← hS]
    simp only [Pi.smul_apply, smul_eq_mul]
  have hs := poly_deriv S
  have hg := poly2_deriv S G
  have hcos : HasDerivAt (fun t : ℝ => Real.cos (t * (vnorm ξ.w / 2))) 0 0 := by
    have := ((hasDerivAt_id (0 : ℝ)).mul_const (vnorm ξ.w / 2)).cos
    refine this.congr_deriv ?_
    simp
  have hsw : ∀ v : ℝ, HasDerivAt (fun t : ℝ => (0.5 - 1 / 48 * (t * t * S)
      + 1 / 3840 * (t * t * S * (t * t * S))) * (t * v)) (1 / 2 * v) 0 := by
    intro v
    refine (slope hs v).congr_deriv ?_
    norm_num
  have hgw : ∀ v : ℝ, HasDerivAt (fun t : ℝ => t * t * G * (-1 / 24 + 1 / 960 * (t * t * S)
      - 1 / 107520 * (t * t * S * (t * t * S))) * (t * v)) 0 0 := by
    intro v
    refine (slope hg v).congr_deriv ?_
    norm_num
  have hd0 : HasDerivAt (fun t : ℝ => -(t * t * G) / 2 * (0.5 - 1 / 48 * (t * t * S)
      + 1 / 3840 * (t * t * S * (t * t * S)))) 0 0 := by
    have h2 : HasDerivAt (fun t : ℝ => t * t * G) ((1 * 0 + 0 * 1) * G) 0 :=
      ((hasDerivAt_id (0 : ℝ)).mul (hasDerivAt_id (0 : ℝ))).mul_const G
    refine ((h2.neg.div_const 2).mul hs).congr_deriv ?_
    simp
  have hdv : ∀ u v : ℝ, HasDerivAt (fun t : ℝ => t * t * G * (-1 / 24 + 1 / 960 * (t * t * S)
      - 1 / 107520 * (t * t * S * (t * t * S))) * (t * u) + (0.5 - 1 / 48 * (t * t * S)
      + 1 / 3840 * (t * t * S * (t * t * S))) * (t * v)) (1 / 2 * v) 0 := by
    intro u v
    refine ((hgw u).add (hsw v)).congr_deriv ?_
    ring
  refine ⟨⟨?_, ?_, ?_, ?_⟩, ⟨?_, ?_, ?_, ?_⟩⟩
  · exact (hcos.congr_of_eventuallyEq (e.mono fun t h => congrArg (fun p : DQuat => p.r.w) h)).congr_deriv
      (mul_zero _).symm
  · exact (hsw (ξ.w 0)).congr_of_eventuallyEq (e.mono fun t h => congrArg (fun p : DQuat => p.r.x) h)
  · exact (hsw (ξ.w 1)).congr_of_eventuallyEq (e.mono fun t h => congrArg (fun p : DQuat => p.r.y) h)
  · exact (hsw (ξ.w 2)).congr_of_eventuallyEq (e.mono fun t h => congrArg (fun p : DQuat => p.r.z) h)
  · exact (hd0.congr_of_eventuallyEq (e.mono fun t h => congrArg (fun p : DQuat => p.d.w) h)).congr_deriv
      (mul_zero _).symm
  · exact (hdv (ξ.w 0) (ξ.v 0)).congr_of_eventuallyEq (e.mono fun t h => congrArg (fun p : DQuat => p.d.x) h)
  · exact (hdv (ξ.w 1) (ξ.v 1)).congr_of_eventuallyEq (e.mono fun t h => congrArg (fun p : DQuat => p.d.y) h)
  · exact (hdv (ξ.w 2) (ξ.v 2)).congr_of_eventuallyEq (e.mono fun t h => congrArg (fun p : DQuat => p.d.z) h)

theorem exp_zero : DQuat.exp ⟨0, 0⟩ = DQuat.identity := by
  have hS : sqNorm (0 : V3) = 0 := by simp [sqNorm, dot]
  have hG : dot (0 : V3) 0 = 0 := by simp [dot]
  unfold DQuat.exp DQuat.expCoeffs DQuat.identity Quat.identity
  dsimp only
  rw [hS, hG, if_neg (by norm_num)]
  simp

/-- The curve `p exp(t ξ)` of a motion perturbed from the right. -/
noncomputable def pert (p : DQuat) (ξ : V6) (t : ℝ) : DQuat := p.otimes (DQuat.exp ⟨t • ξ.w, t • ξ.v⟩)

theorem pert_zero (p : DQuat) (ξ : V6) : pert p ξ 0 = p := by
  unfold pert
  rw [zero_smul, zero_smul, exp_zero]
  unfold DQuat.otimes DQuat.identity Quat.identity Quat.otimes Quat.add
  apply DQuat.ext <;> apply Quat.ext <;> simp

theorem pert_r (p : DQuat) (ξ : V6) : HasQuatDeriv (fun t => (pert p ξ t).r) (rightRate p.r ξ.w) := by
  refine qd_congr (otimes_deriv (const_deriv p.r) (exp_zero_deriv ξ).1) ?_
  apply Quat.ext <;> simp only [rightRate, Quat.smul, Quat.otimes, Quat.pure, Quat.add] <;> ring

theorem pert_d (p : DQuat) (ξ : V6) :
    HasQuatDeriv (fun t => (pert p ξ t).d) ((rightRate p.r ξ.v).add (rightRate p.d ξ.w)) := by
  have e0 : DQuat.exp ⟨(0 : ℝ) • ξ.w, (0 : ℝ) • ξ.v⟩ = DQuat.identity := by
    rw [zero_smul, zero_smul, exp_zero]
  refine qd_congr (add_deriv (otimes_deriv (const_deriv p.r) (exp_zero_deriv ξ).2)
    (otimes_deriv (const_deriv p.d) (exp_zero_deriv ξ).1)) ?_
  apply Quat.ext <;> simp only [e0, DQuat.identity, rightRate, Quat.smul, Quat.otimes, Quat.pure, Quat.add] <;> ring

/-- The translation of the perturbed motion moves with the rotated translation rate. -/
theorem pert_trans (p : DQuat) (hp : UnitQ p.r) (ξ : V6) :
    HasVecDeriv (fun t => (pert p ξ t).translation) (p.r.rota ξ.v) := by
  have h := otimes_deriv (pert_d p ξ) (inverse_deriv (pert_r p ξ))
  rw [pert_zero] at h
  have hq := hp
  simp only [UnitQ] at hq
  have h0 : HasDerivAt (fun t => (pert p ξ t).translation 0) ((p.r.rota ξ.v) 0) 0 := by
    refine (h.2.1.const_mul 2).congr_deriv ?_
    rw [rota_eq]
    comps
    simp only [rightRate, Quat.smul, Quat.otimes, Quat.pure, Quat.add, Quat.inverse]
    linear_combination (ξ.v 0) * hq
  have h1 : HasDerivAt (fun t => (pert p ξ t).translation 1) ((p.r.rota ξ.v) 1) 0 := by
    refine (h.2.2.1.const_mul 2).congr_deriv ?_
    rw [rota_eq]
    comps
    simp only [rightRate, Quat.smul, Quat.otimes, Quat.pure, Quat.add, Quat.inverse]
    linear_combination (ξ.v 1) * hq
  have h2 : HasDerivAt (fun t => (pert p ξ t).translation 2) ((p.r.rota ξ.v) 2) 0 := by
    refine (h.2.2.2.const_mul 2).congr_deriv ?_
    rw [rota_eq]
    comps
    simp only [rightRate, Quat.smul, Quat.otimes, Quat.pure, Quat.add, Quat.inverse]
    linear_combination (ξ.v 2) * hq
  intro i
  fin_cases i
  · exact h0
  · exact h1
  · exact h2

theorem pert_rotp (p : DQuat) (hp : UnitQ p.r) (ξ : V6) {f : ℝ → V3} {a : V3} (hf : HasVecDeriv f a) :
    HasVecDeriv (fun t => (pert p ξ t).r.rotp (f t)) (-cross ξ.w (p.r.rotp (f 0)) + p.r.rotp a) := by
  refine (rotp_deriv (pert_r p ξ) hf).congr ?_
  rw [pert_zero, dR_right _ hp, neg_mulVec, ← mulVec_mulVec, skew_mulVec, ← rotp_eq]

theorem pert_rota (p : DQuat) (hp : UnitQ p.r) (ξ : V6) {f : ℝ → V3} {a : V3} (hf : HasVecDeriv f a) :
    HasVecDeriv (fun t => (pert p ξ t).r.rota (f t)) (p.r.rota (cross ξ.w (f 0)) + p.r.rota a) := by
  refine (rota_deriv (pert_r p ξ) hf).congr ?_
  have hsk : (skew ξ.w)ᵀ = -skew ξ.w := by
    apply mat_ext <;> rw [Matrix.neg_apply, transpose_apply] <;> comps <;> ring
  rw [pert_zero, dR_right _ hp, transpose_neg, transpose_mul, hsk, Matrix.mul_neg, neg_neg, ← mulVec_mulVec,
    skew_mulVec, ← rota_eq]

end Verif.Lemmas.LieCurve
