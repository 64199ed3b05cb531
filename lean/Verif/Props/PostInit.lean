import Verif.Model.PostInit
import Verif.Props.Ned
import Verif.Props.Sim

/-!
C115: the state the post processor starts from (tools/post_process.cxx 59-111).
-/

namespace Verif.Props.PostInit

open Verif.Model.Lie Verif.Model.Wgs84 Verif.Model.Sim Verif.Model.Imu Verif.Post Verif.Lemmas.Lie
  Verif.Props.Quat Verif.Props.DQuat Verif.Props.Wgs84 Verif.Props.Ned Matrix

/-! ### A dual quaternion whose real part was replaced -/

/-- `q⁻¹ v q`. -/
theorem conj_rotp (q : Quat) (hq : UnitQ q) (v : V3) :
    (q.inverse.otimes (Quat.pure v)).otimes q = Quat.pure (q.rotp v) := by
  simp only [UnitQ] at hq
  ext <;> simp only [Quat.otimes, Quat.inverse, Quat.pure, rotp_eq, mulVec_at, R_00, R_01, R_02, R_10, R_11, R_12,
        R_20, R_21, R_22]
  · ring
  · linear_combination v 0 * hq
  · linear_combination v 1 * hq
  · linear_combination v 2 * hq

/-- The real part of the inverse of `(q, p)` is multiplied by `h` from the left; the dual part stays. -/
noncomputable def turned (h q : Quat) (p : V3) : DQuat := ⟨h.otimes q.inverse, (DQuat.ofQT q p).inverse.d⟩

theorem turned_prod (h q : Quat) (p : V3) (hq : UnitQ q) :
    (turned h q p).d.otimes (turned h q p).r.inverse =
      Quat.smul (-(1 / 2)) ((Quat.pure (q.rotp p)).otimes h.inverse) := by
  rw [← conj_rotp q hq]
  ext <;> simp only [turned, DQuat.ofQT, DQuat.inverse, Quat.otimes, Quat.inverse, Quat.pure, Quat.smul] <;> ring

theorem turned_trans (h q : Quat) (p : V3) (hq : UnitQ q) :
    (turned h q p).translation = -((Quat.pure (q.rotp p)).otimes h.inverse).bar := by
  rw [DQuat.translation, turned_prod h q p hq]
  apply vec_ext <;> simp [Quat.smul, Quat.bar] <;> ring

theorem sq_rotp (q : Quat) (hq : UnitQ q) (v : V3) : sqNorm (q.rotp v) = sqNorm v := by
  have := dot_R q hq v v
  rw [inner_at, inner_at] at this
  simp only [sqNorm, dot]
  linarith

theorem turned_unitQ (h q : Quat) (hh : UnitQ h) (hq : UnitQ q) : UnitQ (h.otimes q.inverse) := by
  simp only [UnitQ] at *
  simp only [Quat.otimes, Quat.inverse]
  linear_combination (q.w ^ 2 + q.x ^ 2 + q.y ^ 2 + q.z ^ 2) * hh + hq

theorem turned_origin (h q : Quat) (p : V3) (hh : UnitQ h) (hq : UnitQ q) :
    sqNorm ((turned h q p).transformp 0) = sqNorm p - dot h.bar (q.rotp p) ^ 2 := by
  rw [DQuat.transformp, sq_rotp _ (show UnitQ (turned h q p).r from turned_unitQ h q hh hq), turned_trans h q p hq, ← sq_rotp q hq p]
  generalize q.rotp p = n
  simp only [UnitQ] at hh
  simp [sqNorm, dot, Quat.otimes, Quat.pure, Quat.inverse, Quat.bar]
  linear_combination (n 0 ^ 2 + n 1 ^ 2 + n 2 ^ 2) * hh

theorem turned_unit (h q : Quat) (p : V3) (hh : UnitQ h) (hq : UnitQ q) :
    UnitD (turned h q p) ↔ dot h.bar (q.rotp p) = 0 := by
  have e : (turned h q p).r.w * (turned h q p).d.w + (turned h q p).r.x * (turned h q p).d.x +
      (turned h q p).r.y * (turned h q p).d.y + (turned h q p).r.z * (turned h q p).d.z =
      ((turned h q p).d.otimes (turned h q p).r.inverse).w := by
    simp only [Quat.otimes, Quat.inverse]; ring
  rw [UnitD, e, turned_prod h q p hq]
  have : (Quat.smul (-(1 / 2)) ((Quat.pure (q.rotp p)).otimes h.inverse)).w = -(1 / 2) * dot h.bar (q.rotp p) := by
    simp [Quat.smul, Quat.otimes, Quat.pure, Quat.inverse, Quat.bar, dot]; ring
  rw [this]
  constructor
  · rintro ⟨-, h2⟩; linarith
  · intro h2; exact ⟨turned_unitQ h q hh hq, by rw [h2]; ring⟩

/-! ### The transform -/

theorem euler_yaw (y : ℝ) : Quat.fromEuler 0 0 y = ⟨Real.cos (y / 2), 0, 0, Real.sin (y / 2)⟩ := by
  simp [Quat.fromEuler]

/-- For places outside of the core of the earth there is a transform, made from the coordinates `l`
that were found for the place. -/
theorem initT_eq (n : ℕ) (hn : 6 ≤ n) (lla : V3) (hdg : ℝ) (hfar : 6.3e6 ≤ vnorm (lla2ecef lla)) :
    ∃ l q, ecef2lla n (lla2ecef lla) = some l ∧ qE2n l = some q ∧
      initT n lla hdg = some (turned (Quat.fromEuler 0 0 hdg) q (lla2ecef lla)) := by
  obtain ⟨l, hl⟩ := C102_ends _ hfar n hn
  obtain ⟨q, hq, -⟩ := C103_frame l
  refine ⟨l, q, hl, hq, ?_⟩
  simp only [initT, dqEcef2ned, hl]
  change Option.map _ ((qE2n l).bind fun q => some (DQuat.ofQT q (lla2ecef lla))) = _
  rw [hq]
  rfl

theorem dp_le (a b : V3) (hb : sqNorm b = 1) : dp a b ^ 2 ≤ sqNorm a := by
  simp only [sqNorm, dot, dp] at *
  nlinarith [sq_nonneg (a 0 * b 1 - a 1 * b 0), sq_nonneg (a 0 * b 2 - a 2 * b 0), sq_nonneg (a 1 * b 2 - a 2 * b 1)]

theorem north_sq (φ lon : ℝ) : sqNorm (north φ lon) = 1 := by
  simp [sqNorm, dot, north]
  have h1 := Real.sin_sq_add_cos_sq φ
  have h2 := Real.sin_sq_add_cos_sq lon
  linear_combination Real.sin φ ^ 2 * h2 + h1

theorem east_sq (lon : ℝ) : sqNorm (east lon) = 1 := by
  simp [sqNorm, dot, east]
  have h2 := Real.sin_sq_add_cos_sq lon
  linear_combination h2

theorem sq_vnorm (v : V3) : vnorm v ^ 2 = sqNorm v := by
  rw [vnorm, Real.sq_sqrt]
  simp only [sqNorm, dot]
  nlinarith [mul_self_nonneg (v 0), mul_self_nonneg (v 1), mul_self_nonneg (v 2)]

/-- Nearly the whole distance from the centre of the earth is vertical. -/
theorem vertical (n : ℕ) (lla l : V3) (hfar : 6.3e6 ≤ vnorm (lla2ecef lla)) (hl : ecef2lla n (lla2ecef lla) = some l) :
    6.2e6 ^ 2 ≤ dp (lla2ecef lla) (up (l 0) (l 1)) ^ 2 := by
  have hr := C102_roundtrip _ hfar n l hl
  set p := lla2ecef lla
  obtain ⟨q, -, hu, -, hq⟩ := C103_frame l
  have hs : sqNorm p = dp p (north (l 0) (l 1)) ^ 2 + dp p (east (l 1)) ^ 2 + dp p (up (l 0) (l 1)) ^ 2 := by
    rw [← sq_rotp q hu, hq]
    simp [sqNorm, dot]; ring
  have hd : sqNorm (lla2ecef l - p) ≤ 1 := by
    rw [← sq_vnorm]
    have := Verif.Props.Quat.norm_nonneg
    nlinarith [Real.sqrt_nonneg (sqNorm (lla2ecef l - p)), show vnorm (lla2ecef l - p) = √(sqNorm (lla2ecef l - p)) from rfl]
  have hN := dp_le (lla2ecef l - p) _ (north_sq (l 0) (l 1))
  have hE := dp_le (lla2ecef l - p) _ (east_sq (l 1))
  have e1 : dp (lla2ecef l - p) (north (l 0) (l 1)) = -(gv (Real.sin (l 0)) * Real.cos (l 0)) - dp p (north (l 0) (l 1)) := by
    have h2 := Real.sin_sq_add_cos_sq (l 1)
    simp only [dp, Pi.sub_apply, lla2ecef, north, vec_0, vec_1, vec_2, gv, rv, E2]
    linear_combination -((A / √(1 - F * (2 - F) * Real.sin (l 0) * Real.sin (l 0)) + l 2) * Real.cos (l 0) * Real.sin (l 0)) * h2
  have e2 : dp (lla2ecef l - p) (east (l 1)) = - dp p (east (l 1)) := by
    simp only [dp, Pi.sub_apply, lla2ecef, east, vec_0, vec_1, vec_2]
    ring
  have hg := gv_le (Real.sin (l 0)) (Real.sin_sq_le_one _)
  have hc := Real.abs_cos_le_one (l 0)
  have hgc : |gv (Real.sin (l 0)) * Real.cos (l 0)| ≤ 43200 := by
    rw [abs_mul]; nlinarith [abs_nonneg (gv (Real.sin (l 0))), abs_nonneg (Real.cos (l 0))]
  have hN2 : |dp p (north (l 0) (l 1))| ≤ 43201 := by
    have h1 : |dp (lla2ecef l - p) (north (l 0) (l 1))| ≤ 1 := by
      rw [← sq_le_one_iff_abs_le_one]; linarith
    rw [e1] at h1
    rw [abs_le] at *
    constructor <;> linarith
  have hN3 : dp p (north (l 0) (l 1)) ^ 2 ≤ 43201 ^ 2 := by
    rw [← sq_abs]; nlinarith [abs_nonneg (dp p (north (l 0) (l 1)))]
  have hE3 : dp p (east (l 1)) ^ 2 ≤ 1 := by
    rw [e2, neg_sq] at hE; linarith
  have hp : 6.3e6 ^ 2 ≤ sqNorm p := by
    rw [← sq_vnorm]; nlinarith
  nlinarith

theorem inverse_rotp (q : Quat) (v : V3) : q.inverse.rotp v = q.rota v := by
  rw [rotp_eq, rota_eq]
  apply vec_ext <;> comps <;> simp only [Matrix.transpose_apply, R_00, R_01, R_02, R_10, R_11, R_12, R_20, R_21, R_22,
    Quat.inverse] <;> ring

theorem inverse_unit (q : Quat) (hq : UnitQ q) : UnitQ q.inverse := by
  simp only [UnitQ, Quat.inverse] at *
  linear_combination hq

theorem turned_at (h q : Quat) (p v : V3) (hh : UnitQ h) (hq : UnitQ q) :
    (turned h q p).transformp v = q.rota (h.rotp v) +
      q.rota (h.rotp ((Quat.pure (q.rotp p)).otimes h.inverse).bar) := by
  rw [DQuat.transformp, turned_trans h q p hq, sub_neg_eq_add, rotp_eq]
  change (h.otimes q.inverse).R.mulVec _ = _
  rw [R_mul h _ hh (inverse_unit q hq), ← mulVec_mulVec, ← rotp_eq, ← rotp_eq, inverse_rotp, rotp_add, Quat.rota_add]

theorem yaw_rotp (y a b c : ℝ) : (Quat.fromEuler 0 0 y).rotp ![a, b, c] =
    ![a * Real.cos y + b * Real.sin y, b * Real.cos y - a * Real.sin y, c] := by
  have hc : Real.cos y = 1 - 2 * Real.sin (y / 2) ^ 2 := by
    have h1 := Real.cos_two_mul (y / 2)
    rw [mul_div_cancel₀ y two_ne_zero] at h1
    have h2 := Real.sin_sq_add_cos_sq (y / 2)
    linarith
  have hs : Real.sin y = 2 * Real.sin (y / 2) * Real.cos (y / 2) := by
    have h1 := Real.sin_two_mul (y / 2)
    rwa [mul_div_cancel₀ y two_ne_zero] at h1
  rw [euler_yaw, rotp_eq, hc, hs]
  apply vec_ext <;> comps <;> ring

/-- The vector with the given components to the north, to the east and upwards. -/
noncomputable def inFrame (l : V3) (a b c : ℝ) : V3 := a • north (l 0) (l 1) + b • east (l 1) + c • up (l 0) (l 1)

theorem inFrame_self (l p : V3) :
    p = inFrame l (dp p (north (l 0) (l 1))) (dp p (east (l 1))) (dp p (up (l 0) (l 1))) := by
  obtain ⟨q, -, hu, hra, hrp⟩ := C103_frame l
  have := rota_rotp q hu p
  rw [hrp, hra, neg_smul, sub_neg_eq_add] at this
  exact this.symm

theorem inFrame_dp (l : V3) (a b c : ℝ) : dp (inFrame l a b c) (up (l 0) (l 1)) = c := by
  have h1 := Real.sin_sq_add_cos_sq (l 0)
  have h2 := Real.sin_sq_add_cos_sq (l 1)
  simp only [dp, inFrame, north, east, up, Pi.add_apply, Pi.smul_apply, smul_eq_mul, vec_0, vec_1, vec_2]
  linear_combination (c * Real.cos (l 0) ^ 2 - a * Real.sin (l 0) * Real.cos (l 0)) * h2 + c * h1

/-- **C115.** What the transform does to the point with coordinates `a`, `b`, `d`, exactly: with the components
`N`, `E`, `U` of the configured place, seen from the centre of the earth, the coordinates are turned by the heading
(from east towards north), but the place only by half of it, and its vertical component shrinks by the cosine of
half of the heading. -/
theorem C115_exact (n : ℕ) (hn : 6 ≤ n) (lla : V3) (y : ℝ) (hfar : 6.3e6 ≤ vnorm (lla2ecef lla)) :
    ∃ T l, initT n lla y = some T ∧ ecef2lla n (lla2ecef lla) = some l ∧
      (UnitD T ↔ Real.sin (y / 2) = 0) ∧
      ∀ N E U, lla2ecef lla = inFrame l N E U → ∀ a b d : ℝ, T.transformp ![a, b, d] = inFrame l
        (a * Real.cos y + b * Real.sin y + (N * Real.cos (y / 2) + E * Real.sin (y / 2)))
        (b * Real.cos y - a * Real.sin y + (E * Real.cos (y / 2) - N * Real.sin (y / 2)))
        (U * Real.cos (y / 2) - d) := by
  obtain ⟨l, q, hl, hq, hT⟩ := initT_eq n hn lla y hfar
  obtain ⟨q', hq', hu, hra, hrp⟩ := C103_frame l
  obtain rfl : q = q' := by rw [hq] at hq'; exact Option.some.inj hq'
  have hh := (C45_euler 0 0 y).1
  refine ⟨_, l, hT, hl, ?_, fun N E U hp a b d => ?_⟩
  · rw [turned_unit _ _ _ hh hu, hrp, euler_yaw]
    have hv := vertical n lla l hfar hl
    have : dp (lla2ecef lla) (up (l 0) (l 1)) ≠ 0 := by
      intro h; rw [h] at hv; norm_num at hv
    simp [dot, Quat.bar, this]
  · have hn : q.rotp (lla2ecef lla) = ![N, E, -U] := by
      rw [hp, show inFrame l N E U = q.rota ![N, E, -U] by rw [hra, inFrame, neg_smul, sub_neg_eq_add], rotp_rota q hu]
    have hm : ((Quat.pure (q.rotp (lla2ecef lla))).otimes (Quat.fromEuler 0 0 y).inverse).bar =
        ![N * Real.cos (y / 2) - E * Real.sin (y / 2), N * Real.sin (y / 2) + E * Real.cos (y / 2),
          -U * Real.cos (y / 2)] := by
      rw [hn, euler_yaw]
      apply vec_ext <;> simp [Quat.bar, Quat.otimes, Quat.pure, Quat.inverse] <;> ring
    have hc : Real.cos y = 1 - 2 * Real.sin (y / 2) ^ 2 := by
      have h1 := Real.cos_two_mul (y / 2)
      rw [mul_div_cancel₀ y two_ne_zero] at h1
      have h2 := Real.sin_sq_add_cos_sq (y / 2)
      linarith
    have hs : Real.sin y = 2 * Real.sin (y / 2) * Real.cos (y / 2) := by
      have h1 := Real.sin_two_mul (y / 2)
      rwa [mul_div_cancel₀ y two_ne_zero] at h1
    have hsc := Real.sin_sq_add_cos_sq (y / 2)
    rw [turned_at _ _ _ _ hh hu, hm, yaw_rotp, yaw_rotp, ← Quat.rota_add, vec3_add, hra, inFrame]
    rw [sub_eq_add_neg, ← neg_smul]
    congr 1
    · congr 1
      · congr 1
        rw [hc, hs]
        linear_combination (2 * E * Real.sin (y / 2)) * hsc
      · congr 1
        rw [hc, hs]
        linear_combination (-2 * N * Real.sin (y / 2)) * hsc
    · congr 1
      ring

/-- **C115, partial** (heading zero).  The transform takes local coordinates north, east, down at the configured place
to earth-fixed ones. -/
theorem C115_place_partial (n : ℕ) (hn : 6 ≤ n) (lla : V3) (y : ℝ) (hfar : 6.3e6 ≤ vnorm (lla2ecef lla))
    (h0 : Real.cos (y / 2) = 1) :
    ∃ T l, initT n lla y = some T ∧ ecef2lla n (lla2ecef lla) = some l ∧ UnitD T ∧
      ∀ a b d : ℝ, T.transformp ![a, b, d] =
        lla2ecef lla + (a • north (l 0) (l 1) + b • east (l 1) - d • up (l 0) (l 1)) := by
  obtain ⟨T, l, h1, h2, h3, h4⟩ := C115_exact n hn lla y hfar
  have hs : Real.sin (y / 2) = 0 := by
    have := Real.sin_sq_add_cos_sq (y / 2)
    rw [h0] at this
    exact pow_eq_zero_iff two_ne_zero |>.mp (by linarith)
  have hc : Real.cos y = 1 := by
    have h1 := Real.cos_two_mul (y / 2)
    rw [mul_div_cancel₀ y two_ne_zero, h0] at h1
    linarith
  have hy : Real.sin y = 0 := by
    have h1 := Real.sin_two_mul (y / 2)
    rw [mul_div_cancel₀ y two_ne_zero, hs] at h1
    linarith
  refine ⟨T, l, h1, h2, h3.mpr hs, fun a b d => ?_⟩
  rw [h4 _ _ _ (inFrame_self l _), hs, hc, hy, h0]
  conv_rhs => rw [inFrame_self l (lla2ecef lla)]
  simp only [inFrame]
  module

/-- **C115, violated.** For every other heading the origin of the local frame is not at the configured place: it is
missed by at least 6200 km times `1 - cos (heading / 2)`, that is by 236 m for one degree and 1800 km for
90 degrees.  Moreover the transform is not a unit dual quaternion, unless the heading is a multiple of the full turn. -/
theorem C115_place_violated (n : ℕ) (hn : 6 ≤ n) (lla : V3) (y : ℝ) (hfar : 6.3e6 ≤ vnorm (lla2ecef lla)) :
    ∃ T, initT n lla y = some T ∧ (UnitD T ↔ Real.sin (y / 2) = 0) ∧
      6.2e6 * (1 - Real.cos (y / 2)) ≤ vnorm (T.transformp 0 - lla2ecef lla) := by
  obtain ⟨T, l, h1, h2, h3, h4⟩ := C115_exact n hn lla y hfar
  refine ⟨T, h1, h3, ?_⟩
  have hv := vertical n lla l hfar h2
  set U := dp (lla2ecef lla) (up (l 0) (l 1)) with hU
  have e : dp (T.transformp 0 - lla2ecef lla) (up (l 0) (l 1)) = U * (Real.cos (y / 2) - 1) := by
    have h5 : (0 : V3) = ![0, 0, 0] := by apply vec_ext <;> rfl
    have h6 : dp (T.transformp 0) (up (l 0) (l 1)) = U * Real.cos (y / 2) := by
      rw [h5, h4 _ _ _ (inFrame_self l _), inFrame_dp, sub_zero]
    have h7 : ∀ a b c : V3, dp (a - b) c = dp a c - dp b c := by
      intro a b c; simp only [dp, Pi.sub_apply]; ring
    rw [h7, h6]; ring
  have hle := dp_le (T.transformp 0 - lla2ecef lla) _ (by rw [sqNorm]; exact up_unit (l 0) (l 1))
  rw [e] at hle
  have hc := Real.cos_le_one (y / 2)
  apply Real.le_sqrt_of_sq_le
  refine le_trans ?_ hle
  have : (6.2e6 * (1 - Real.cos (y / 2))) ^ 2 = 6.2e6 ^ 2 * (1 - Real.cos (y / 2)) ^ 2 := by ring
  rw [this, show (U * (Real.cos (y / 2) - 1)) ^ 2 = U ^ 2 * (1 - Real.cos (y / 2)) ^ 2 by ring]
  exact mul_le_mul_of_nonneg_right hv (sq_nonneg _)

/-- The full property: the local frame has its origin at the configured place. -/
def C115_statement : Prop :=
  ∀ (n : ℕ) (lla : V3) (y : ℝ), 6 ≤ n → 6.3e6 ≤ vnorm (lla2ecef lla) →
    ∃ T, initT n lla y = some T ∧ T.transformp 0 = lla2ecef lla

theorem equator : lla2ecef ![0, 0, 0] = ![A, 0, 0] := by
  simp [lla2ecef]

theorem equator_far : 6.3e6 ≤ vnorm (lla2ecef ![0, 0, 0]) := by
  rw [equator, vnorm, sqNorm, dot]
  apply Real.le_sqrt_of_sq_le
  simp [A]; norm_num

theorem C115_statement_false : ¬ C115_statement := by
  intro h
  obtain ⟨T, h1, h2⟩ := h 6 ![0, 0, 0] Real.pi le_rfl equator_far
  obtain ⟨T', h3, -, h4⟩ := C115_place_violated 6 le_rfl ![0, 0, 0] Real.pi equator_far
  rw [h1] at h3
  obtain rfl := Option.some.inj h3
  rw [h2, sub_self, Real.cos_pi_div_two] at h4
  simp [vnorm, sqNorm, dot] at h4
  norm_num at h4

/-- **C115, violated.** A full turn as heading puts the origin on the opposite side of the earth. -/
theorem C115_full_turn_violated (n : ℕ) (hn : 6 ≤ n) (lla : V3) (hfar : 6.3e6 ≤ vnorm (lla2ecef lla)) :
    ∃ T, initT n lla (2 * Real.pi) = some T ∧ T.transformp 0 = -lla2ecef lla := by
  obtain ⟨T, l, h1, h2, h3, h4⟩ := C115_exact n hn lla (2 * Real.pi) hfar
  refine ⟨T, h1, ?_⟩
  rw [show (0 : V3) = ![0, 0, 0] by apply vec_ext <;> rfl, h4 _ _ _ (inFrame_self l _)]
  rw [mul_div_cancel_left₀ _ two_ne_zero, Real.cos_pi, Real.sin_pi]
  conv_rhs => rw [inFrame_self l (lla2ecef lla)]
  simp only [inFrame]
  module

/-! ### The input -/

/-- **C115.** The acceleration of the initial input is the simulated measurement exactly when the attitude leaves the
vertical alone. -/
theorem C115_input (j : Jet) : initAccel j = imuAccel j ↔ j.x.r.rota GRAVITY = GRAVITY := by
  have hG : GRAVITY = ![0, 0, 9.80665] := by
    apply vec_ext <;> simp [GRAVITY]
  rw [initAccel, imuAccel, hG]
  constructor
  · intro h
    have := congrArg (fun v => j.d2x.v - v) h
    simpa using this.symm
  · intro h
    rw [h]

/-- **C115, violated.** A body at rest, rolled by 180 degrees: the input is off by twice the gravity. -/
theorem C115_input_violated : ∃ j : Jet, UnitD j.x ∧ initAccel j - imuAccel j = ![0, 0, -2 * 9.80665] := by
  refine ⟨⟨⟨⟨0, 1, 0, 0⟩, ⟨0, 0, 0, 0⟩⟩, ⟨0, 0⟩, ⟨0, 0⟩⟩, by simp [UnitD, UnitQ], ?_⟩
  rw [initAccel, imuAccel, rota_eq]
  apply vec_ext <;> simp only [Pi.sub_apply] <;> comps <;> simp [GRAVITY, R_02, R_12, R_22] <;> norm_num

/-- Level attitudes (any heading) meet the condition of `C115_input`, and a place near the ground that of
`C115_exact`. -/
example : (⟨4 / 5, 0, 0, 3 / 5⟩ : Quat).rota GRAVITY = GRAVITY ∧ 6.3e6 ≤ vnorm (lla2ecef ![0, 0, 0]) :=
  ⟨(Sim.yaw_gravity _ rfl rfl).1, equator_far⟩

end Verif.Props.PostInit
