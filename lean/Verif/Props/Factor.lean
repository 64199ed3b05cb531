import Verif.Model.Factor
import Verif.Props.EkfModels

/-!
The factors of `models/`: the relative carrier phase at the truth (C51), the clock dynamics (C52), the Jacobians of
the relative carrier phase (C86) and of the pseudorange factor (C87).
-/

namespace Verif.Props.Factor

open Verif.Model.Lie Verif.Model.Ekf Verif.Model.Factor Verif.Lemmas.Lie Verif.Lemmas.LieDeriv
  Verif.Lemmas.LieCurve Verif.Props.Quat Verif.Props.DQuat Verif.Props.So3 Verif.Props.LieJac
  Verif.Props.Se3Jac Verif.Props.EkfModels Matrix

theorem v3_2 (a b c : ℝ) : (![a, b, c] : V3) 2 = c := rfl

/-! ### C52: the clock dynamics factor -/

/-- The clock and the switch of `GnssDynamics` agree with a clock of constant rate over `dt`. -/
def Steady (dt : ℝ) (c1 c2 : V2) (sw1 sw2 : ℝ) : Prop :=
  c2 0 = c1 0 + c1 1 * dt ∧ c2 1 = c1 1 ∧ sw2 = sw1

/-- **C52**: with nonzero weights the residual vanishes exactly for a clock of constant rate and a constant
switch. -/
theorem C52_zero (f : Dyn) (h0 : f.Xi 0 ≠ 0) (h1 : f.Xi 1 ≠ 0) (h2 : f.Xi 2 ≠ 0) (c1 c2 : V2) (sw1 sw2 : ℝ) :
    f.residual c1 c2 sw1 sw2 = 0 ↔ Steady f.dt c1 c2 sw1 sw2 := by
  unfold Steady
  constructor
  · intro h
    have e0 : f.Xi 0 * (c2 0 - (c1 0 + (c1 1 + c2 1) / 2 * f.dt)) = 0 := congrFun h 0
    have e1 : f.Xi 1 * (c2 1 - c1 1) = 0 := congrFun h 1
    have e2 : f.Xi 2 * (sw2 - sw1) = 0 := congrFun h 2
    have k0 := (mul_eq_zero.mp e0).resolve_left h0
    have k1 := (mul_eq_zero.mp e1).resolve_left h1
    have k2 := (mul_eq_zero.mp e2).resolve_left h2
    refine ⟨?_, by linarith, by linarith⟩
    linear_combination k0 + f.dt / 2 * k1
  · rintro ⟨k0, k1, k2⟩
    apply vec_ext
    · show f.Xi 0 * (c2 0 - (c1 0 + (c1 1 + c2 1) / 2 * f.dt)) = 0
      rw [k0, k1]; ring
    · show f.Xi 1 * (c2 1 - c1 1) = 0
      rw [k1]; ring
    · show f.Xi 2 * (sw2 - sw1) = 0
      rw [k2]; ring

/-- **C52**: the reported Jacobians are the derivatives; the residual is affine, so they describe the change of the
residual exactly for steps of every size. -/
theorem C52_jacobians (f : Dyn) (c1 c2 d1 d2 : V2) (sw1 sw2 s1 s2 : ℝ) :
    f.residual (c1 + d1) (c2 + d2) (sw1 + s1) (sw2 + s2) = f.residual c1 c2 sw1 sw2
      + f.jacClk1.mulVec d1 + f.jacClk2.mulVec d2 + s1 • f.jacSw1 + s2 • f.jacSw2 := by
  ext i
  fin_cases i <;>
    simp [Dyn.residual, Dyn.jacClk1, Dyn.jacClk2, Dyn.jacSw1, Dyn.jacSw2, mulVec, dotProduct, Fin.sum_univ_two] <;>
    ring

/-- **C52**: a chain of factors over consecutive intervals is satisfied at every link exactly if every clock is the
first one extrapolated to its own time. -/
theorem C52_chain (c : ℕ → V2) (sw : ℕ → ℝ) (dt : ℕ → ℝ) (Xi : V3) (h0 : Xi 0 ≠ 0) (h1 : Xi 1 ≠ 0)
    (h2 : Xi 2 ≠ 0) (n : ℕ) :
    (∀ k < n, (Dyn.mk (dt k) Xi).residual (c k) (c (k + 1)) (sw k) (sw (k + 1)) = 0) ↔
      ∀ k ≤ n, Steady (∑ j ∈ Finset.range k, dt j) (c 0) (c k) (sw 0) (sw k) := by
  have hz : ∀ k, (Dyn.mk (dt k) Xi).residual (c k) (c (k + 1)) (sw k) (sw (k + 1)) = 0 ↔
      Steady (dt k) (c k) (c (k + 1)) (sw k) (sw (k + 1)) := fun k =>
    C52_zero (Dyn.mk (dt k) Xi) h0 h1 h2 (c k) (c (k + 1)) (sw k) (sw (k + 1))
  simp only [hz]
  unfold Steady
  constructor
  · intro h k
    induction k with
    | zero => intro _; simp
    | succ k ih =>
      intro hk
      obtain ⟨a0, a1, a2⟩ := ih (by omega)
      obtain ⟨b0, b1, b2⟩ := h k (by omega)
      refine ⟨?_, by rw [b1, a1], by rw [b2, a2]⟩
      rw [b0, a0, a1, Finset.sum_range_succ]
      ring
  · intro h k hk
    obtain ⟨a0, a1, a2⟩ := h k (by omega)
    obtain ⟨b0, b1, b2⟩ := h (k + 1) (by omega)
    refine ⟨?_, by rw [b1, a1], by rw [b2, a2]⟩
    rw [b0, a0, a1, Finset.sum_range_succ]
    ring

/-- A clock that drifts by 3 ns/s, seen two seconds later. -/
example : (Dyn.mk 2 ![10, 20, 30]).residual ![5, 3] ![11, 3] 1 1 = 0 :=
  (C52_zero _ (by simp) (by simp) (by simp) _ _ _ _).mpr ⟨by norm_num [Dyn], rfl, rfl⟩

/-! ### C51: the relative carrier phase at the truth -/

/-- A carrier phase in cycles: range and clocks in metres divided by the wavelength, plus the ambiguity. -/
noncomputable def truePhase (s : SatState) (p : V3) (clk : V2) (lambda amb : ℝ) : ℝ :=
  (vnorm (s.pos - p) + omegaEarth * (s.pos 0 * p 1 - s.pos 1 * p 0) / cLight
    + cLight * (clk 0 / 1e9 - s.clk 0)) / lambda + amb

/-- The factor built from exact phases at the states `x`. -/
noncomputable def truth (lambda Xi amb : ℝ) (Te2r : DQuat) (s1 s2 : SatState) (x : RelArg) : RelCP :=
  RelCP.new (truePhase s1 (antenna Te2r x.Tr2n x.T1 x.p) x.clk1 lambda amb)
    (truePhase s2 (antenna Te2r x.Tr2n x.T2 x.p) x.clk2 lambda amb) lambda Xi Te2r s1 s2

/-- The full property: with exact phases the residual is zero at the true states. -/
def C51_statement : Prop := ∀ (lambda Xi amb : ℝ) (Te2r : DQuat) (s1 s2 : SatState) (x : RelArg), 0 < lambda →
  (truth lambda Xi amb Te2r s1 s2 x).residual x = 0

/-- The change of the predicted phase in metres between the two epochs. -/
noncomputable def change (f : RelCP) (x : RelArg) : ℝ :=
  estPhase f.sat2 (f.ant2 x) x.clk2 - estPhase f.sat1 (f.ant1 x) x.clk1

theorem truth_residual (lambda Xi amb : ℝ) (Te2r : DQuat) (s1 s2 : SatState) (x : RelArg) :
    (truth lambda Xi amb Te2r s1 s2 x).residual x
      = Xi * x.sw1 * x.sw2 * ((1 / lambda - lambda) * change (truth lambda Xi amb Te2r s1 s2 x) x) := by
  show Xi * x.sw1 * x.sw2 * (truePhase s2 (antenna Te2r x.Tr2n x.T2 x.p) x.clk2 lambda amb
    - truePhase s1 (antenna Te2r x.Tr2n x.T1 x.p) x.clk1 lambda amb
    - lambda * (estPhase s2 (antenna Te2r x.Tr2n x.T2 x.p) x.clk2
      - estPhase s1 (antenna Te2r x.Tr2n x.T1 x.p) x.clk1))
    = Xi * x.sw1 * x.sw2 * ((1 / lambda - lambda) * (estPhase s2 (antenna Te2r x.Tr2n x.T2 x.p) x.clk2
      - estPhase s1 (antenna Te2r x.Tr2n x.T1 x.p) x.clk1))
  unfold truePhase estPhase sagnac
  ring

/-- **C51**, what is true: the ambiguity cancels, and at the truth the residual vanishes exactly if the factor is
switched off, or the predicted phase did not change, or the wavelength is one metre.  Missing for the full property:
the prediction is multiplied by the wavelength (relative_carrier_phase_model.cxx 115) and has to be divided by it. -/
theorem C51_truth_partial (lambda Xi amb : ℝ) (Te2r : DQuat) (s1 s2 : SatState) (x : RelArg) (h : 0 < lambda) :
    (truth lambda Xi amb Te2r s1 s2 x).residual x = 0 ↔
      Xi * x.sw1 * x.sw2 = 0 ∨ lambda = 1 ∨ change (truth lambda Xi amb Te2r s1 s2 x) x = 0 := by
  rw [truth_residual, mul_eq_zero, mul_eq_zero (a := 1 / lambda - lambda)]
  have e : 1 / lambda - lambda = 0 ↔ lambda = 1 := by
    rw [sub_eq_zero, div_eq_iff h.ne']
    constructor
    · intro k; nlinarith
    · rintro rfl; ring
  rw [e]

/-- **C51**: were the factor given the reciprocal of the wavelength, the residual would be zero at the truth for every
geometry, clock and ambiguity.  Missing: the code passes the wavelength. -/
theorem C51_reciprocal_partial (lambda Xi amb : ℝ) (Te2r : DQuat) (s1 s2 : SatState) (x : RelArg) :
    ({ truth lambda Xi amb Te2r s1 s2 x with lambda := lambda⁻¹ } : RelCP).residual x = 0 := by
  show Xi * x.sw1 * x.sw2 * (truePhase s2 (antenna Te2r x.Tr2n x.T2 x.p) x.clk2 lambda amb
    - truePhase s1 (antenna Te2r x.Tr2n x.T1 x.p) x.clk1 lambda amb
    - lambda⁻¹ * (estPhase s2 (antenna Te2r x.Tr2n x.T2 x.p) x.clk2
      - estPhase s1 (antenna Te2r x.Tr2n x.T1 x.p) x.clk1)) = 0
  unfold truePhase estPhase sagnac
  ring

/-- The poses are the identity, the switches are on, and the second clock is one nanosecond ahead. -/
def still : RelArg := ⟨DQuat.identity, DQuat.identity, 0, ![1, 0], 1, 1, DQuat.identity, 0⟩

/-- A satellite at rest on the first axis. -/
def fixedSat : SatState := ⟨![20000000, 0, 0], 0, 0⟩

/-- **C51** is violated: for the wavelength of GPS L1 (0.19 m) a clock that gains one nanosecond (0.3 m) leaves a
residual of more than one cycle at the truth. -/
theorem C51_violated (amb : ℝ) : 1 < (truth 0.19 1 amb DQuat.identity fixedSat fixedSat still).residual still := by
  rw [truth_residual]
  have e : change (truth 0.19 1 amb DQuat.identity fixedSat fixedSat still) still = cLight / 1e9 := by
    show (vnorm _ + sagnac _ _ + cLight * ((1 : ℝ) / 1e9 - 0)) - (vnorm _ + sagnac _ _ + cLight * ((0 : ℝ) / 1e9 - 0))
      = _
    show (vnorm (fixedSat.pos - antenna DQuat.identity DQuat.identity DQuat.identity 0)
      + sagnac fixedSat.pos (antenna DQuat.identity DQuat.identity DQuat.identity 0) + cLight * ((1 : ℝ) / 1e9 - 0))
      - (vnorm (fixedSat.pos - antenna DQuat.identity DQuat.identity DQuat.identity 0)
      + sagnac fixedSat.pos (antenna DQuat.identity DQuat.identity DQuat.identity 0) + cLight * ((0 : ℝ) / 1e9 - 0))
      = _
    ring
  rw [e]
  unfold still cLight
  norm_num

theorem C51_statement_false : ¬ C51_statement := by
  intro h
  have := h 0.19 1 0 DQuat.identity fixedSat fixedSat still (by norm_num)
  have k := C51_violated 0
  rw [this] at k
  norm_num at k

/-! ### How the antenna moves -/

/-- The velocity of the antenna under errors of the body pose, the reference and the lever arm. -/
def antRate (Te2r Tr2n Tn2b : DQuat) (p : V3) (ξ ξr : V6) (δ : V3) : V3 :=
  Te2r.r.rota (Tr2n.r.rota (cross ξr.w (Tn2b.translation + Tn2b.r.rota p))
    + Tr2n.r.rota (Tn2b.r.rota (ξ.v + cross ξ.w p + δ)) + Tr2n.r.rota ξr.v)

theorem rota_curve (q : Quat) {f : ℝ → V3} {a : V3} (hf : HasVecDeriv f a) :
    HasVecDeriv (fun t => q.rota (f t)) (q.rota a) := by
  simp only [rota_eq]
  refine (mulVec_deriv (M := fun _ => q.Rᵀ) (dM := 0) (fun i j => hasDerivAt_const _ _) hf).congr ?_
  rw [zero_mulVec, zero_add]

theorem antenna_deriv (Te2r Tr2n Tn2b : DQuat) (hr : UnitQ Tr2n.r) (hn : UnitQ Tn2b.r) (p : V3) (ξ ξr : V6) (δ : V3) :
    HasVecDeriv (fun t => antenna Te2r (pert Tr2n ξr t) (pert Tn2b ξ t) (p + t • δ))
      (antRate Te2r Tr2n Tn2b p ξ ξr δ) := by
  have h1 := (pert_trans Tn2b hn ξ).add (pert_rota Tn2b hn ξ (vline p δ))
  have h2 := (pert_rota Tr2n hr ξr h1).add (pert_trans Tr2n hr ξr)
  have h3 := (rota_curve Te2r.r h2).add (vconst Te2r.translation)
  refine h3.congr ?_
  rw [zero_smul, add_zero, pert_zero, add_zero]
  unfold antRate
  rw [rota_add Tn2b.r (ξ.v + cross ξ.w p), rota_add Tn2b.r ξ.v, add_assoc (Tn2b.r.rota ξ.v)]

theorem antenna_zero (Te2r Tr2n Tn2b : DQuat) (p : V3) (ξ ξr : V6) (δ : V3) :
    antenna Te2r (pert Tr2n ξr 0) (pert Tn2b ξ 0) (p + (0 : ℝ) • δ) = antenna Te2r Tr2n Tn2b p := by
  rw [pert_zero, pert_zero, zero_smul, add_zero]

theorem dotp_eq (a b : V3) : a ⬝ᵥ b = dot a b := by
  simp [dotProduct, Fin.sum_univ_three, dot]

theorem vecMul_dot (e : V3) (M : M3) (w : V3) : vecMul e M ⬝ᵥ w = dot e (M.mulVec w) := by
  rw [← dotProduct_mulVec, dotp_eq]

theorem smul_dotp (c : ℝ) (a b : V3) : (c • a) ⬝ᵥ b = c * (a ⬝ᵥ b) := by
  rw [smul_dotProduct, smul_eq_mul]

theorem neg_dot (a b : V3) : dot (-a) b = -dot a b := by
  simp only [dot, Pi.neg_apply]; ring

theorem line2 (c dc : V2) (i : Fin 2) : HasDerivAt (fun t : ℝ => (c + t • dc) i) (dc i) 0 := by
  have h : HasDerivAt (fun t : ℝ => c i + t * dc i) (1 * dc i) 0 :=
    ((hasDerivAt_id (0 : ℝ)).mul_const (dc i)).const_add (c i)
  rw [one_mul] at h
  exact h

theorem line1 (s ds : ℝ) : HasDerivAt (fun t : ℝ => s + t * ds) ds 0 := by
  have h := ((hasDerivAt_id (0 : ℝ)).mul_const ds).const_add s
  rw [one_mul] at h
  exact h

/-- The product of the rotations in a row of a Jacobian. -/
theorem chain_rota (A B C : Quat) (v : V3) : ((B.R * A.R)ᵀ * C.Rᵀ).mulVec v = A.rota (B.rota (C.rota v)) := by
  rw [transpose_mul, ← mulVec_mulVec, ← mulVec_mulVec, rota_eq, rota_eq, rota_eq]

theorem chain_rota2 (A B : Quat) (v : V3) : (B.R * A.R)ᵀ.mulVec v = A.rota (B.rota v) := by
  rw [transpose_mul, ← mulVec_mulVec, rota_eq, rota_eq]

theorem chain_rota3 (A B C : Quat) (v : V3) : (A.Rᵀ * B.Rᵀ * C.Rᵀ).mulVec v = A.rota (B.rota (C.rota v)) := by
  rw [← mulVec_mulVec, ← mulVec_mulVec, rota_eq, rota_eq, rota_eq]

theorem chain_rota4 (A B : Quat) (v : V3) : (A.Rᵀ * B.Rᵀ).mulVec v = A.rota (B.rota v) := by
  rw [← mulVec_mulVec, rota_eq, rota_eq]

/-- The predicted carrier phase in metres along a motion of the antenna. -/
theorem estPhase_deriv (s : SatState) {f : ℝ → V3} {a : V3} (hf : HasVecDeriv f a)
    (h0 : 0 < vnorm (s.pos - f 0)) (c dc : V2) :
    HasDerivAt (fun t => estPhase s (f t) (c + t • dc))
      (-dot (sight s.pos (f 0)) a + sagnac s.pos a + cLight / 1e9 * dc 0) 0 := by
  have h1 := vnorm_curve ((vconst s.pos).sub hf) h0
  have h2 := (((hf 1).const_mul (s.pos 0)).sub ((hf 0).const_mul (s.pos 1))).const_mul omegaEarth
  have h3 := (h1.add (h2.div_const cLight)).add
    ((((line2 c dc 0).div_const 1e9).sub_const (s.clk 0)).const_mul cLight)
  refine h3.congr_deriv ?_
  rw [zero_sub, dot_neg]
  unfold sight sagnac
  ring

/-! ### C86: the Jacobians of the relative carrier phase -/

/-- A change of all parameter blocks. -/
structure RelDir where
  T1 : V6
  T2 : V6
  clk1 : V2
  clk2 : V2
  sw1 : ℝ
  sw2 : ℝ
  Tr2n : V6
  p : V3

/-- The parameters moved by `t d`; poses are perturbed on the manifold. -/
noncomputable def moveRel (x : RelArg) (d : RelDir) (t : ℝ) : RelArg :=
  ⟨pert x.T1 d.T1 t, pert x.T2 d.T2 t, x.clk1 + t • d.clk1, x.clk2 + t • d.clk2, x.sw1 + t * d.sw1,
    x.sw2 + t * d.sw2, pert x.Tr2n d.Tr2n t, x.p + t • d.p⟩

/-- The reported change: all Jacobian blocks applied. -/
noncomputable def reportedRel (f : RelCP) (x : RelArg) (d : RelDir) : ℝ :=
  ((f.jacT1 x).w ⬝ᵥ d.T1.w + (f.jacT1 x).v ⬝ᵥ d.T1.v) + ((f.jacT2 x).w ⬝ᵥ d.T2.w + (f.jacT2 x).v ⬝ᵥ d.T2.v)
    + f.jacClk1 x ⬝ᵥ d.clk1 + f.jacClk2 x ⬝ᵥ d.clk2 + f.jacSw1 x * d.sw1 + f.jacSw2 x * d.sw2
    + ((f.jacTr2n x).w ⬝ᵥ d.Tr2n.w + (f.jacTr2n x).v ⬝ᵥ d.Tr2n.v) + f.jacP x ⬝ᵥ d.p

/-- The velocities of the antenna at the two epochs. -/
def rate1 (f : RelCP) (x : RelArg) (d : RelDir) : V3 := antRate f.Te2r x.Tr2n x.T1 x.p d.T1 d.Tr2n d.p
def rate2 (f : RelCP) (x : RelArg) (d : RelDir) : V3 := antRate f.Te2r x.Tr2n x.T2 x.p d.T2 d.Tr2n d.p

/-- Unit poses, and an antenna away from the satellites. -/
structure Regular (f : RelCP) (x : RelArg) : Prop where
  u1 : UnitQ x.T1.r
  u2 : UnitQ x.T2.r
  ur : UnitQ x.Tr2n.r
  s1 : 0 < vnorm (f.sat1.pos - f.ant1 x)
  s2 : 0 < vnorm (f.sat2.pos - f.ant2 x)

/-- The full property: the Jacobians are the derivative of the residual. -/
def C86_statement : Prop := ∀ (f : RelCP) (x : RelArg) (d : RelDir), Regular f x →
  HasDerivAt (fun t => f.residual (moveRel x d t)) (reportedRel f x d) 0

theorem reportedRel_eq (f : RelCP) (x : RelArg) (d : RelDir) : reportedRel f x d
    = f.gain x * f.lambda * (dot (f.e2 x) (rate2 f x d) - dot (f.e1 x) (rate1 f x d)
        - cLight / 1e9 * (d.clk2 0 - d.clk1 0))
      + f.Xi * (d.sw1 * x.sw2 + x.sw1 * d.sw2) * f.delta x := by
  unfold reportedRel RelCP.jacT1 RelCP.jacT2 RelCP.jacTr2n RelCP.jacP RelCP.jacClk1 RelCP.jacClk2 RelCP.jacSw1
    RelCP.jacSw2 RelCP.RE2n
  have hc : ∀ (a : ℝ) (c : V2), ![a, 0] ⬝ᵥ c = a * c 0 := fun a c => by
    simp [dotProduct, Fin.sum_univ_two]
  rw [hc, hc]
  simp only [smul_dotp, sub_dotProduct, vecMul_dot, neg_dot, ← mulVec_mulVec, skew_mulVec]
  simp only [← rota_eq, transpose_mul, ← mulVec_mulVec]
  have e : ∀ (T : DQuat) (ξ : V6) (u : V3), dot u (antRate f.Te2r x.Tr2n T x.p ξ d.Tr2n d.p)
      = -dot u (f.Te2r.r.rota (x.Tr2n.r.rota (cross (T.translation + T.r.rota x.p) d.Tr2n.w)))
        + dot u (f.Te2r.r.rota (x.Tr2n.r.rota (T.r.rota ξ.v)))
        - dot u (f.Te2r.r.rota (x.Tr2n.r.rota (T.r.rota (cross x.p ξ.w))))
        + dot u (f.Te2r.r.rota (x.Tr2n.r.rota (T.r.rota d.p)))
        + dot u (f.Te2r.r.rota (x.Tr2n.r.rota d.Tr2n.v)) := by
    intro T ξ u
    unfold antRate
    rw [cross_comm d.Tr2n.w, cross_comm ξ.w]
    simp only [rota_add, rota_neg, dot_add, dot_neg]
    ring
  unfold rate1 rate2
  rw [e, e]
  ring

/-- **C86**, the derivative: the reported Jacobians lack the derivative of the Sagnac correction, which the residual
evaluates at the moving antenna (relative_carrier_phase_model.cxx 107-108), and nothing else. -/
theorem rel_deriv (f : RelCP) (x : RelArg) (d : RelDir) (h : Regular f x) :
    HasDerivAt (fun t => f.residual (moveRel x d t)) (reportedRel f x d
      - f.gain x * f.lambda * (sagnac f.sat2.pos (rate2 f x d) - sagnac f.sat1.pos (rate1 f x d))) 0 := by
  have h1 := antenna_deriv f.Te2r x.Tr2n x.T1 h.ur h.u1 x.p d.T1 d.Tr2n d.p
  have h2 := antenna_deriv f.Te2r x.Tr2n x.T2 h.ur h.u2 x.p d.T2 d.Tr2n d.p
  have z1 := antenna_zero f.Te2r x.Tr2n x.T1 x.p d.T1 d.Tr2n d.p
  have z2 := antenna_zero f.Te2r x.Tr2n x.T2 x.p d.T2 d.Tr2n d.p
  have k1 := estPhase_deriv f.sat1 h1 (by rw [z1]; exact h.s1) x.clk1 d.clk1
  have k2 := estPhase_deriv f.sat2 h2 (by rw [z2]; exact h.s2) x.clk2 d.clk2
  have k3 := ((k2.sub k1).const_mul f.lambda).const_sub f.dPhi
  have k4 := ((line1 x.sw1 d.sw1).const_mul f.Xi).mul (line1 x.sw2 d.sw2)
  refine (k4.mul k3).congr_deriv ?_
  rw [reportedRel_eq]
  unfold RelCP.delta RelCP.gain RelCP.e1 RelCP.e2 RelCP.ant1 RelCP.ant2 rate1 rate2
  simp only [pert_zero, zero_smul, add_zero, zero_mul, Pi.sub_apply, Pi.mul_apply]
  ring

/-- **C86**, what is true: the Jacobians for the clocks and the switches are exact, and the others for every motion
for which the two Sagnac corrections change by the same amount.  Missing: that change, see `rel_deriv`. -/
theorem C86_jacobians_partial (f : RelCP) (x : RelArg) (d : RelDir) (h : Regular f x) :
    HasDerivAt (fun t => f.residual (moveRel x d t)) (reportedRel f x d) 0 ↔
      f.gain x * f.lambda = 0 ∨ sagnac f.sat2.pos (rate2 f x d) = sagnac f.sat1.pos (rate1 f x d) := by
  have k := rel_deriv f x d h
  constructor
  · intro k'
    have e := k'.unique k
    have e2 : f.gain x * f.lambda * (sagnac f.sat2.pos (rate2 f x d) - sagnac f.sat1.pos (rate1 f x d)) = 0 := by
      linarith
    rcases mul_eq_zero.mp e2 with e3 | e3
    · exact Or.inl e3
    · exact Or.inr (sub_eq_zero.mp e3)
  · intro e
    refine k.congr_deriv ?_
    rcases e with e | e
    · rw [e, zero_mul, sub_zero]
    · rw [e, sub_self, mul_zero, sub_zero]

/-- **C86**: clocks and switches. -/
theorem C86_clock_switch_partial (f : RelCP) (x : RelArg) (h : Regular f x) (c1 c2 : V2) (s1 s2 : ℝ) :
    HasDerivAt (fun t => f.residual (moveRel x ⟨⟨0, 0⟩, ⟨0, 0⟩, c1, c2, s1, s2, ⟨0, 0⟩, 0⟩ t))
      (f.jacClk1 x ⬝ᵥ c1 + f.jacClk2 x ⬝ᵥ c2 + f.jacSw1 x * s1 + f.jacSw2 x * s2) 0 := by
  have k := (C86_jacobians_partial f x ⟨⟨0, 0⟩, ⟨0, 0⟩, c1, c2, s1, s2, ⟨0, 0⟩, 0⟩ h).mpr (Or.inr ?_)
  · refine k.congr_deriv ?_
    unfold reportedRel
    simp only [dotProduct_zero]
    ring
  · have e : ∀ T : DQuat, antRate f.Te2r x.Tr2n T x.p ⟨0, 0⟩ ⟨0, 0⟩ 0 = 0 := by
      intro T
      unfold antRate
      dsimp only
      rw [cross_zero_l, cross_zero_l]
      simp only [rota_eq, mulVec_zero, add_zero]
    unfold rate1 rate2
    dsimp only
    rw [e, e]
    simp [sagnac]

/-- The second pose pushed along the second axis. -/
def push2 : RelDir := ⟨⟨0, 0⟩, ⟨0, ![0, 1, 0]⟩, 0, 0, 0, 0, ⟨0, 0⟩, 0⟩

noncomputable def relWit : RelCP := ⟨0, 0.19, 1, DQuat.identity, fixedSat, fixedSat⟩

theorem id_unit : UnitQ DQuat.identity.r := by norm_num [UnitQ, DQuat.identity, Quat.identity]

theorem antenna_id (p : V3) : antenna DQuat.identity DQuat.identity DQuat.identity p = p := by
  unfold antenna DQuat.transforma
  rw [translation_id]
  show Quat.identity.rota (Quat.identity.rota (0 + Quat.identity.rota p) + 0) + 0 = p
  simp only [rota_id, zero_add, add_zero]

theorem fixed_pos : 0 < vnorm (fixedSat.pos - 0) := by
  rw [sub_zero]
  apply Real.sqrt_pos.mpr
  norm_num [sqNorm, dot, fixedSat, v3_2]

theorem relWit_regular : Regular relWit still := by
  have e : antenna DQuat.identity DQuat.identity DQuat.identity 0 = 0 := antenna_id 0
  refine ⟨id_unit, id_unit, id_unit, ?_, ?_⟩
  · show 0 < vnorm (fixedSat.pos - antenna DQuat.identity DQuat.identity DQuat.identity 0)
    rw [e]; exact fixed_pos
  · show 0 < vnorm (fixedSat.pos - antenna DQuat.identity DQuat.identity DQuat.identity 0)
    rw [e]; exact fixed_pos

theorem antRate_id (ξ : V6) : antRate DQuat.identity DQuat.identity DQuat.identity 0 ξ ⟨0, 0⟩ 0 = ξ.v := by
  unfold antRate
  show Quat.identity.rota (Quat.identity.rota (cross 0 _) + Quat.identity.rota (Quat.identity.rota (ξ.v + cross ξ.w 0
    + 0)) + Quat.identity.rota 0) = ξ.v
  simp only [rota_id, cross_zero_l, cross_zero_r, add_zero, zero_add]

/-- **C86** is violated: pushing the second pose across the line of sight. -/
theorem C86_violated : ¬ HasDerivAt (fun t => relWit.residual (moveRel still push2 t))
    (reportedRel relWit still push2) 0 := by
  rw [C86_jacobians_partial _ _ _ relWit_regular]
  have e1 : rate1 relWit still push2 = 0 := antRate_id ⟨0, 0⟩
  have e2 : rate2 relWit still push2 = ![0, 1, 0] := antRate_id ⟨0, ![0, 1, 0]⟩
  rw [e1, e2]
  rintro (h | h)
  · norm_num [RelCP.gain, relWit, still] at h
  · norm_num [sagnac, relWit, fixedSat, omegaEarth, cLight] at h

theorem C86_statement_false : ¬ C86_statement := fun h => C86_violated (h _ _ _ relWit_regular)

/-! ### C87: the Jacobians of the pseudorange factor -/

/-- A change of all parameter blocks. -/
structure PrDir where
  T : V6
  vel : V3
  clk : V2
  Tr2n : V6
  sw : ℝ
  p : V3

noncomputable def movePr (x : PrArg) (d : PrDir) (t : ℝ) : PrArg :=
  ⟨pert x.T d.T t, x.vel + t • d.vel, x.clk + t • d.clk, pert x.Tr2n d.Tr2n t, x.sw + t * d.sw, x.p + t • d.p⟩

/-- The reported change: all Jacobian blocks applied. -/
noncomputable def reportedPr (f : Prange) (x : PrArg) (d : PrDir) : V3 :=
  f.jacT x d.T + f.jacVel x d.vel + f.jacClk x d.clk + f.jacTr2n x d.Tr2n + d.sw • f.jacSw x + f.jacP x d.p

structure RegularPr (f : Prange) (x : PrArg) : Prop where
  u : UnitQ x.T.r
  ur : UnitQ x.Tr2n.r
  s : 0 < vnorm (f.sat.pos - f.pos x)
  rng : vnorm (f.sat.pos - f.pos x) + f.sat.sagnac ≠ 0

/-- The full property: the Jacobians are the derivative of the residual. -/
def C87_statement : Prop := ∀ (f : Prange) (x : PrArg) (d : PrDir) (i : Fin 3), RegularPr f x →
  HasDerivAt (fun t => f.residual (movePr x d t) i) (reportedPr f x d i) 0

/-- The rates of the position and the velocity of the antenna. -/
def posRate (f : Prange) (x : PrArg) (d : PrDir) : V3 := antRate f.Te2r x.Tr2n x.T x.p d.T d.Tr2n d.p
def velRate (f : Prange) (x : PrArg) (d : PrDir) : V3 :=
  f.Te2r.r.rota (x.Tr2n.r.rota (cross d.Tr2n.w (x.T.r.rota x.vel))
    + x.Tr2n.r.rota (x.T.r.rota (cross d.T.w x.vel + d.vel)))

theorem pos_deriv (f : Prange) (x : PrArg) (d : PrDir) (h : RegularPr f x) :
    HasVecDeriv (fun t => f.pos (movePr x d t)) (posRate f x d) :=
  antenna_deriv f.Te2r x.Tr2n x.T h.ur h.u x.p d.T d.Tr2n d.p

theorem vel_deriv (f : Prange) (x : PrArg) (d : PrDir) (h : RegularPr f x) :
    HasVecDeriv (fun t => f.velE (movePr x d t)) (velRate f x d) := by
  refine (rota_curve f.Te2r.r (pert_rota x.Tr2n h.ur d.Tr2n (pert_rota x.T h.u d.T (vline x.vel d.vel)))).congr ?_
  rw [zero_smul, add_zero, pert_zero]
  unfold velRate
  rw [rota_add x.T.r]

theorem pos_zero (f : Prange) (x : PrArg) (d : PrDir) : f.pos (movePr x d 0) = f.pos x :=
  antenna_zero f.Te2r x.Tr2n x.T x.p d.T d.Tr2n d.p

theorem move_zero (x : PrArg) (d : PrDir) : movePr x d 0 = x := by
  unfold movePr
  rw [pert_zero, pert_zero, zero_smul, zero_smul, zero_smul, zero_mul, add_zero, add_zero, add_zero, add_zero]

/-- What the Jacobians of the Doppler leave out: the Sagnac correction in the denominator, the turning of the line of
sight as the antenna moves, and the Sagnac correction of the Doppler. -/
noncomputable def dopRest (f : Prange) (x : PrArg) (d : PrDir) : ℝ :=
  let N := vnorm (f.sat.pos - f.pos x)
  dot (f.e x) (velRate f x d) * (f.sat.sagnac / (N + f.sat.sagnac))
    + (dot (f.sat.vel - f.velE x) (f.e x) * dot (f.e x) (posRate f x d) * (N / (N + f.sat.sagnac))
      - dot (f.sat.vel - f.velE x) (posRate f x d)) / (N + f.sat.sagnac)
    + omegaEarth / cLight * (f.sat.vel 1 * posRate f x d 0 + f.sat.pos 1 * velRate f x d 0
      - f.sat.vel 0 * posRate f x d 1 - f.sat.pos 0 * velRate f x d 1)

/-- The derivative of the residual before weighting. -/
noncomputable def trueRaw (f : Prange) (x : PrArg) (d : PrDir) : V3 :=
  ![x.sw * (-dot (f.e x) (posRate f x d) + cLight / 1e9 * d.clk 0) + d.sw * (f.estP x - f.pseudorange),
    x.sw * (-dot (f.e x) (velRate f x d) + cLight / 1e9 * d.clk 1 + dopRest f x d) + d.sw * (f.estD x - f.doppler),
    -d.sw]

theorem estP_deriv (f : Prange) (x : PrArg) (d : PrDir) (h : RegularPr f x) :
    HasDerivAt (fun t => f.estP (movePr x d t)) (-dot (f.e x) (posRate f x d) + cLight / 1e9 * d.clk 0) 0 := by
  have h1 := vnorm_curve ((vconst f.sat.pos).sub (pos_deriv f x d h)) (by rw [pos_zero]; exact h.s)
  rw [pos_zero, zero_sub, dot_neg] at h1
  have h3 := (((h1.add_const f.sat.sagnac).add_const f.sat.iono).add_const f.sat.tropo).add
    ((((line2 x.clk d.clk 0).mul_const 1e-9).sub_const (f.sat.clk 0)).const_mul cLight)
  refine h3.congr_deriv ?_
  unfold Prange.e sight
  norm_num
  ring

theorem vscale {g : ℝ → ℝ} {b : ℝ} (hg : HasDerivAt g b 0) {f : ℝ → V3} {a : V3} (hf : HasVecDeriv f a) :
    HasVecDeriv (fun t => g t • f t) (b • f 0 + g 0 • a) := fun i => hg.mul (hf i)

theorem estD_deriv (f : Prange) (x : PrArg) (d : PrDir) (h : RegularPr f x) :
    HasDerivAt (fun t => f.estD (movePr x d t))
      (-dot (f.e x) (velRate f x d) + cLight / 1e9 * d.clk 1 + dopRest f x d) 0 := by
  have hp := pos_deriv f x d h
  have hv := vel_deriv f x d h
  have hl := (vconst f.sat.pos).sub hp
  have hN := (vnorm_curve hl (by rw [pos_zero]; exact h.s)).add_const f.sat.sagnac
  have hI := hN.inv (by rw [pos_zero]; exact h.rng)
  have hu := dot_deriv ((vconst f.sat.vel).sub hv) (vscale hI hl)
  have h5 := ((((hp 0).const_mul (f.sat.vel 1)).add ((hv 0).const_mul (f.sat.pos 1))).sub
    ((hp 1).const_mul (f.sat.vel 0))).sub ((hv 1).const_mul (f.sat.pos 0))
  have h3 := (hu.add (h5.const_mul (omegaEarth / cLight))).add
    ((((line2 x.clk d.clk 1).mul_const 1e-9).sub_const (f.sat.clk 1)).const_mul cLight)
  refine h3.congr_deriv ?_
  simp only [Pi.inv_apply]
  rw [move_zero]
  have hs := h.s.ne'
  have hr := h.rng
  unfold dopRest Prange.e sight
  dsimp only
  generalize vnorm (f.sat.pos - f.pos x) = N at *
  generalize posRate f x d = P
  generalize velRate f x d = V
  generalize f.sat.pos - f.pos x = L
  generalize f.sat.vel - f.velE x = U
  simp only [dot, Pi.smul_apply, Pi.sub_apply, Pi.add_apply, Pi.zero_apply, smul_eq_mul, zero_sub]
  norm_num
  field_simp
  ring

theorem raw_deriv (f : Prange) (x : PrArg) (d : PrDir) (h : RegularPr f x) :
    HasVecDeriv (fun t => f.raw (movePr x d t)) (trueRaw f x d) := by
  have hs := line1 x.sw d.sw
  intro i
  fin_cases i
  · refine (hs.mul ((estP_deriv f x d h).sub_const f.pseudorange)).congr_deriv ?_
    rw [move_zero, zero_mul, add_zero]
    show _ = x.sw * (-dot (f.e x) (posRate f x d) + cLight / 1e9 * d.clk 0) + d.sw * (f.estP x - f.pseudorange)
    ring
  · refine (hs.mul ((estD_deriv f x d h).sub_const f.doppler)).congr_deriv ?_
    rw [move_zero, zero_mul, add_zero]
    show _ = x.sw * (-dot (f.e x) (velRate f x d) + cLight / 1e9 * d.clk 1 + dopRest f x d)
      + d.sw * (f.estD x - f.doppler)
    ring
  · exact hs.const_sub 1

theorem residual_deriv (f : Prange) (x : PrArg) (d : PrDir) (h : RegularPr f x) :
    HasVecDeriv (fun t => f.residual (movePr x d t)) (f.W.mulVec (trueRaw f x d)) := by
  refine (mulVec_deriv (M := fun _ => f.W) (dM := 0) (fun i j => hasDerivAt_const _ _) (raw_deriv f x d h)).congr ?_
  rw [zero_mulVec, zero_add]

/-- Pose blocks of the reported change before weighting. -/
noncomputable def poseRaw (f : Prange) (x : PrArg) (d : PrDir) : V3 :=
  ![x.sw * -dot (f.e x) (antRate f.Te2r x.Tr2n x.T x.p d.T d.Tr2n 0),
    x.sw * -dot (f.e x) (f.Te2r.r.rota (x.Tr2n.r.rota (cross d.Tr2n.w (x.T.r.rota x.vel))
      + x.Tr2n.r.rota (x.T.r.rota (cross d.T.w x.vel)))), 0]

theorem vec3_add (a b c a' b' c' : ℝ) : ![a, b, c] + ![a', b', c'] = (![a + a', b + b', c + c'] : V3) := by
  apply vec_ext <;> rfl

theorem reportedPr_eq (f : Prange) (x : PrArg) (d : PrDir) : reportedPr f x d
    = f.W.mulVec (poseRaw f x d)
      + ![f.W 0 0 * (x.sw * (-dot (f.e x) (f.Te2r.r.rota (x.Tr2n.r.rota (x.T.r.rota d.p))) + cLight / 1e9 * d.clk 0)
          + d.sw * (f.estP x - f.pseudorange)),
        f.W 1 1 * (x.sw * (-dot (f.e x) (f.Te2r.r.rota (x.Tr2n.r.rota (x.T.r.rota d.vel))) + cLight / 1e9 * d.clk 1)
          + d.sw * (f.estD x - f.doppler)),
        f.W 2 2 * -d.sw] := by
  have e : f.jacT x d.T + f.jacTr2n x d.Tr2n = f.W.mulVec (poseRaw f x d) := by
    unfold Prange.jacT Prange.jacTr2n Prange.RE2n poseRaw
    rw [← mulVec_add, vec3_add]
    simp only [smul_dotp, vecMul_dot, neg_dot, ← mulVec_mulVec, skew_mulVec]
    simp only [← rota_eq, transpose_mul, ← mulVec_mulVec]
    unfold antRate
    rw [cross_comm d.Tr2n.w, cross_comm d.T.w, cross_comm d.Tr2n.w, cross_comm d.T.w]
    simp only [rota_add, rota_neg, dot_add, dot_neg, add_zero]
    congr 1
    apply vec_ext
    · show _ = _
      simp only [cons_val_zero]
      ring
    · simp only [cons_val_one, cons_val_zero]
      ring
    · rfl
  have e2 : reportedPr f x d = f.jacT x d.T + f.jacTr2n x d.Tr2n
      + (f.jacVel x d.vel + f.jacClk x d.clk + d.sw • f.jacSw x + f.jacP x d.p) := by
    unfold reportedPr
    abel
  rw [e2, e]
  congr 1
  unfold Prange.jacVel Prange.jacClk Prange.jacSw Prange.jacP Prange.RE2n
  simp only [smul_dotp, vecMul_dot, neg_dot, smul_mulVec, chain_rota, chain_rota3]
  have hsm : ∀ (c : ℝ) (a b : V3), dot a (c • b) = c * dot a b := fun c a b => by
    simp only [dot, Pi.smul_apply, smul_eq_mul]; ring
  rw [hsm]
  apply vec_ext
  · simp only [Pi.add_apply, Pi.smul_apply, cons_val_zero, smul_eq_mul]
    ring
  · simp only [Pi.add_apply, Pi.smul_apply, cons_val_zero, cons_val_one, smul_eq_mul]
    ring
  · simp only [Pi.add_apply, Pi.smul_apply, smul_eq_mul, cons_val]
    ring

theorem rota_zero' (q : Quat) : q.rota 0 = 0 := by rw [rota_eq, mulVec_zero]

theorem posRate_split (f : Prange) (x : PrArg) (d : PrDir) : posRate f x d
    = antRate f.Te2r x.Tr2n x.T x.p d.T d.Tr2n 0 + f.Te2r.r.rota (x.Tr2n.r.rota (x.T.r.rota d.p)) := by
  unfold posRate antRate
  simp only [rota_add, add_zero]
  abel

theorem velRate_split (f : Prange) (x : PrArg) (d : PrDir) : velRate f x d
    = f.Te2r.r.rota (x.Tr2n.r.rota (cross d.Tr2n.w (x.T.r.rota x.vel)) + x.Tr2n.r.rota (x.T.r.rota (cross d.T.w x.vel)))
      + f.Te2r.r.rota (x.Tr2n.r.rota (x.T.r.rota d.vel)) := by
  unfold velRate
  simp only [rota_add]
  abel

/-- **C87**, what is true of the reported Jacobians when the weight is diagonal: they differ from the derivative only
in the row of the Doppler, by exactly `dopRest`.  Missing for the full property: that term, and correlated weights. -/
theorem C87_diagonal_partial (f : Prange) (x : PrArg) (d : PrDir) (h : RegularPr f x)
    (hW : ∀ i j, i ≠ j → f.W i j = 0) :
    HasVecDeriv (fun t => f.residual (movePr x d t))
      (reportedPr f x d + ![0, f.W 1 1 * x.sw * dopRest f x d, 0]) := by
  refine (residual_deriv f x d h).congr ?_
  rw [reportedPr_eq]
  have h01 := hW 0 1 (by decide)
  have h02 := hW 0 2 (by decide)
  have h10 := hW 1 0 (by decide)
  have h12 := hW 1 2 (by decide)
  have h20 := hW 2 0 (by decide)
  have h21 := hW 2 1 (by decide)
  apply vec_ext
  · simp only [Pi.add_apply, mulVec_at, h01, h02, zero_mul, add_zero, trueRaw, poseRaw, cons_val_zero]
    rw [posRate_split, dot_add]
    ring
  · simp only [Pi.add_apply, mulVec_at, h10, h12, zero_mul, add_zero, zero_add, trueRaw, poseRaw, cons_val_zero,
      cons_val_one]
    rw [velRate_split, dot_add]
    ring
  · simp only [Pi.add_apply, mulVec_at, h20, h21, zero_mul, add_zero, zero_add, trueRaw, poseRaw, cons_val]
    ring

/-- **C87**: with a diagonal weight the rows of the range and of the switch are the derivatives, in every direction. -/
theorem C87_range_switch_partial (f : Prange) (x : PrArg) (d : PrDir) (h : RegularPr f x)
    (hW : ∀ i j, i ≠ j → f.W i j = 0) (i : Fin 3) (hi : i ≠ 1) :
    HasDerivAt (fun t => f.residual (movePr x d t) i) (reportedPr f x d i) 0 := by
  refine (C87_diagonal_partial f x d h hW i).congr_deriv ?_
  fin_cases i
  · show reportedPr f x d 0 + 0 = _
    rw [add_zero]
    rfl
  · exact absurd rfl hi
  · show reportedPr f x d 2 + 0 = _
    rw [add_zero]
    rfl

/-- **C87**: with a diagonal weight all three rows are exact for clock and switch. -/
theorem C87_clock_switch_partial (f : Prange) (x : PrArg) (h : RegularPr f x) (hW : ∀ i j, i ≠ j → f.W i j = 0)
    (c : V2) (s : ℝ) (i : Fin 3) :
    HasDerivAt (fun t => f.residual (movePr x ⟨⟨0, 0⟩, 0, c, ⟨0, 0⟩, s, 0⟩ t) i)
      ((f.jacClk x c + s • f.jacSw x) i) 0 := by
  set d : PrDir := ⟨⟨0, 0⟩, 0, c, ⟨0, 0⟩, s, 0⟩ with hd
  have eP : posRate f x d = 0 := by
    show antRate f.Te2r x.Tr2n x.T x.p ⟨0, 0⟩ ⟨0, 0⟩ 0 = 0
    unfold antRate
    dsimp only
    rw [cross_zero_l, cross_zero_l]
    simp only [rota_zero', add_zero]
  have eV : velRate f x d = 0 := by
    show f.Te2r.r.rota (x.Tr2n.r.rota (cross 0 _) + x.Tr2n.r.rota (x.T.r.rota (cross 0 x.vel + 0))) = 0
    rw [cross_zero_l, cross_zero_l]
    simp only [rota_zero', add_zero]
  have hz : ∀ a : V3, dot a 0 = 0 := fun a => by simp [dot]
  have eR : dopRest f x d = 0 := by
    unfold dopRest
    rw [eP, eV, hz, hz]
    simp
  refine (C87_diagonal_partial f x d h hW i).congr_deriv ?_
  rw [eR, mul_zero]
  have e0 : (![0, 0, 0] : V3) = 0 := by apply vec_ext <;> rfl
  rw [e0, add_zero]
  unfold reportedPr
  have eT : f.jacT x d.T = 0 := by
    have : (![0, 0, 0] : V3) = 0 := e0
    simp only [hd, Prange.jacT, dotProduct_zero, add_zero]
    rw [this, mulVec_zero]
  have eTr : f.jacTr2n x d.Tr2n = 0 := by
    have : (![0, 0, 0] : V3) = 0 := e0
    simp only [hd, Prange.jacTr2n, dotProduct_zero, add_zero]
    rw [this, mulVec_zero]
  have eVe : f.jacVel x d.vel = 0 := by
    simp only [hd, Prange.jacVel, dotProduct_zero]
    exact e0
  have ePp : f.jacP x d.p = 0 := by
    simp only [hd, Prange.jacP, dotProduct_zero]
    exact e0
  rw [eT, eTr, eVe, ePp]
  simp [hd]

/-- The clock rate alone. -/
def clkRate : PrDir := ⟨⟨0, 0⟩, 0, ![0, 1], ⟨0, 0⟩, 0, 0⟩

/-- **C87** is violated for every weight that couples range and Doppler: the derivative of the first residual with
respect to the rate of the clock is not zero, the reported one is. -/
theorem C87_weight_violated (f : Prange) (x : PrArg) (h : RegularPr f x) (hW : f.W 0 1 ≠ 0) (hs : x.sw ≠ 0) :
    reportedPr f x clkRate 0 = 0 ∧
      ¬ HasDerivAt (fun t => f.residual (movePr x clkRate t) 0) (reportedPr f x clkRate 0) 0 := by
  have hz : ∀ a : V3, dot a 0 = 0 := fun a => by simp [dot]
  have eA : antRate f.Te2r x.Tr2n x.T x.p ⟨0, 0⟩ ⟨0, 0⟩ 0 = 0 := by
    unfold antRate
    dsimp only
    rw [cross_zero_l, cross_zero_l]
    simp only [rota_zero', add_zero]
  have eP : posRate f x clkRate = 0 := eA
  have eV : velRate f x clkRate = 0 := by
    show f.Te2r.r.rota (x.Tr2n.r.rota (cross 0 _) + x.Tr2n.r.rota (x.T.r.rota (cross 0 x.vel + 0))) = 0
    rw [cross_zero_l, cross_zero_l]
    simp only [rota_zero', add_zero]
  have eR : dopRest f x clkRate = 0 := by
    unfold dopRest
    rw [eP, eV, hz, hz]
    simp
  have e0 : (![0, 0, 0] : V3) = 0 := by apply vec_ext <;> rfl
  have e : reportedPr f x clkRate 0 = 0 := by
    rw [reportedPr_eq]
    have ep : poseRaw f x clkRate = 0 := by
      unfold poseRaw
      show ![x.sw * -dot (f.e x) (antRate f.Te2r x.Tr2n x.T x.p ⟨0, 0⟩ ⟨0, 0⟩ 0), x.sw * -dot (f.e x) (f.Te2r.r.rota
        (x.Tr2n.r.rota (cross 0 _) + x.Tr2n.r.rota (x.T.r.rota (cross 0 x.vel)))), 0] = 0
      rw [eA, cross_zero_l, cross_zero_l]
      simp only [rota_zero', add_zero, hz, neg_zero, mul_zero]
      exact e0
    rw [ep, mulVec_zero, zero_add]
    show f.W 0 0 * (x.sw * (-dot (f.e x) (f.Te2r.r.rota (x.Tr2n.r.rota (x.T.r.rota 0))) + cLight / 1e9 * 0)
          + 0 * (f.estP x - f.pseudorange)) = 0
    simp only [rota_zero', hz]
    ring
  refine ⟨e, fun k => ?_⟩
  have u := k.unique (residual_deriv f x clkRate h 0)
  rw [e] at u
  have et : trueRaw f x clkRate = ![0, x.sw * (cLight / 1e9), 0] := by
    unfold trueRaw
    rw [eP, eV, eR, hz]
    apply vec_ext
    · show x.sw * (-0 + cLight / 1e9 * 0) + 0 * (f.estP x - f.pseudorange) = 0
      ring
    · show x.sw * (-0 + cLight / 1e9 * 1 + 0) + 0 * (f.estD x - f.doppler) = x.sw * (cLight / 1e9)
      ring
    · show -(0 : ℝ) = 0
      ring
  rw [et, mulVec_at] at u
  simp only [cons_val_zero, cons_val_one, cons_val, mul_zero, zero_add, add_zero] at u
  have hc : cLight / 1e9 ≠ 0 := by norm_num [cLight]
  exact mul_ne_zero hW (mul_ne_zero hs hc) u.symm

/-- A satellite one unit away that moves across the line of sight, and an antenna at rest. -/
noncomputable def prWit : Prange := ⟨⟨![1, 0, 0], ![0, 1, 0], 0, 0, 0, 0⟩, 0, 0, DQuat.identity, 1⟩
def prStill : PrArg := ⟨DQuat.identity, 0, 0, DQuat.identity, 1, 0⟩
def prPush : PrDir := ⟨⟨0, ![0, 1, 0]⟩, 0, 0, ⟨0, 0⟩, 0, 0⟩

theorem prWit_pos : prWit.pos prStill = 0 := antenna_id 0
theorem prWit_norm : vnorm (prWit.sat.pos - prWit.pos prStill) = 1 := by
  rw [prWit_pos, sub_zero]
  show Real.sqrt _ = 1
  rw [Real.sqrt_eq_one]
  norm_num [sqNorm, dot, prWit, v3_2]

theorem prWit_regular : RegularPr prWit prStill := by
  refine ⟨id_unit, id_unit, ?_, ?_⟩
  · rw [prWit_norm]; norm_num
  · rw [prWit_norm]; norm_num [prWit]

/-- **C87** is violated with the identity as weight: moving the antenna across the line of sight changes the Doppler,
the reported Jacobian of the position is zero. -/
theorem C87_doppler_violated : ¬ HasDerivAt (fun t => prWit.residual (movePr prStill prPush t) 1)
    (reportedPr prWit prStill prPush 1) 0 := by
  intro k
  have u := k.unique (C87_diagonal_partial prWit prStill prPush prWit_regular (fun i j hij => one_apply_ne hij) 1)
  have eP : posRate prWit prStill prPush = ![0, 1, 0] := antRate_id ⟨0, ![0, 1, 0]⟩
  have eV : velRate prWit prStill prPush = 0 := by
    show Quat.identity.rota (Quat.identity.rota (cross 0 _) + Quat.identity.rota (Quat.identity.rota (cross 0 0 + 0)))
      = 0
    rw [cross_zero_l, cross_zero_l]
    simp only [rota_zero', add_zero]
  have eE : prWit.e prStill = ![1, 0, 0] := by
    unfold Prange.e sight
    rw [prWit_norm, prWit_pos, sub_zero, inv_one, one_smul]
    rfl
  have eW : prWit.velE prStill = 0 := by
    show Quat.identity.rota (Quat.identity.rota (Quat.identity.rota 0)) = 0
    simp only [rota_zero']
  have w : prWit.W 1 1 * prStill.sw * dopRest prWit prStill prPush = 0 := by
    have : reportedPr prWit prStill prPush 1 = reportedPr prWit prStill prPush 1
      + prWit.W 1 1 * prStill.sw * dopRest prWit prStill prPush := u
    linarith
  unfold dopRest at w
  rw [eP, eV, eE, eW, prWit_norm] at w
  have eW1 : prWit.W 1 1 = 1 := one_apply_eq 1
  rw [eW1] at w
  norm_num [prWit, prStill, dot, v3_2] at w

theorem C87_statement_false : ¬ C87_statement := fun h => C87_doppler_violated (h _ _ _ _ prWit_regular)

end Verif.Props.Factor
