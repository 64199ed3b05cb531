import Verif.Props.ImuCov

/-! C82: accuracy of the preintegration.  C83: its derivative with respect to the bias. -/

namespace Verif.Props.ImuBias

open Verif.Model.Lie Verif.Model.Imu Verif.Lemmas.Lie Verif.Lemmas.LieDeriv Verif.Lemmas.LieCurve
  Verif.Props.Quat Verif.Props.DQuat Verif.Props.So3 Verif.Props.LieJac Verif.Props.Se3Jac Verif.Props.EkfModels
  Verif.Props.LogDeriv Verif.Props.Imu Verif.Props.ImuJac Verif.Props.ImuRun Verif.Props.ImuCov Matrix

/-! ### C82 -/

/-- The sum of the squared sampling intervals after the time `t`. -/
noncomputable def sumSq (t : ℤ) : List Sample → ℝ
  | [] => 0
  | z :: l => toSec (z.t - t) ^ 2 + sumSq z.t l

theorem sumSq_cons (t : ℤ) (z : Sample) (l : List Sample) :
    sumSq t (z :: l) = toSec (z.t - t) ^ 2 + sumSq z.t l := rfl

theorem sumSq_pos {t : ℤ} {l : List Sample} (hl : l ≠ []) (hs : Spaced t l) : 0 < sumSq t l := by
  have nonneg : ∀ (l : List Sample) (t : ℤ), 0 ≤ sumSq t l := by
    intro l
    induction l with
    | nil => exact fun _ => le_refl _
    | cons z l ih => exact fun t => add_nonneg (sq_nonneg _) (ih _)
  match l, hl, hs with
  | z :: l, _, hs =>
    have : 0 < toSec (z.t - t) := toSec_pos (by have := hs.1; unfold QUANT at this; omega)
    exact add_pos_of_pos_of_nonneg (by positivity) (nonneg _ _)

theorem half_add (a : V3) : (1 / 2 : ℝ) • (a + a) = a := by
  rw [← two_smul ℝ a, smul_smul]; norm_num

theorem rota_identity (v : V3) : Quat.identity.rota v = v := rota_id v

theorem step_const (bias : Bias) (R : I6 → ℝ) (h : History) (z : Sample) (a : V3) (hh : h.z.accel = a)
    (hg : h.z.gyro = bias.gyro) (hz : z.accel = a) (hzg : z.gyro = bias.gyro) (hu : h.state.gamma = Quat.identity) :
    (step bias R h z).state = ⟨h.state.alpha + toSec (z.t - h.z.t) • h.state.beta,
      h.state.beta + toSec (z.t - h.z.t) • (a - bias.accel), Quat.identity⟩ := by
  unfold step IState.plus dynamics IErr.scale
  dsimp only
  rw [hh, hg, hz, hzg, half_add, half_add, sub_self, smul_zero, exp_zero3, hu, otimes_id, rota_identity]

theorem final_const (bias : Bias) (R : I6 → ℝ) (a : V3) (l : List Sample) (h : History) (hh : h.z.accel = a)
    (hg : h.z.gyro = bias.gyro) (hl : ∀ z ∈ l, z.accel = a ∧ z.gyro = bias.gyro)
    (hu : h.state.gamma = Quat.identity) :
    (final bias R h l).state =
      let T := toSec ((final bias R h l).z.t - h.z.t)
      ⟨h.state.alpha + T • h.state.beta + ((T ^ 2 - sumSq h.z.t l) / 2) • (a - bias.accel),
        h.state.beta + T • (a - bias.accel), Quat.identity⟩ := by
  dsimp only
  induction l generalizing h with
  | nil =>
    have e : (final bias R h []) = h := rfl
    have e0 : toSec (h.z.t - h.z.t) = 0 := by rw [sub_self]; unfold toSec; simp
    rw [e, e0, zero_smul, zero_smul]
    unfold sumSq
    rw [← hu]
    norm_num
  | cons z l ih =>
    obtain ⟨h1, h2⟩ := hl z (List.mem_cons_self ..)
    have e := step_const bias R h z a hh hg h1 h2 hu
    have := ih (step bias R h z) h1 h2 (fun y hy => hl y (List.mem_cons_of_mem _ hy)) (by rw [e])
    have ef : final bias R h (z :: l) = final bias R (step bias R h z) l := rfl
    rw [ef, this, e, step_z]
    dsimp only
    set u := a - bias.accel
    set f := (final bias R (step bias R h z) l).z.t
    have eT : toSec (f - h.z.t) = toSec (z.t - h.z.t) + toSec (f - z.t) := by
      rw [← toSec_add]; congr 1; ring
    rw [eT, sumSq_cons]
    congr 1
    · simp only [smul_add, add_smul, smul_smul]
      have hc : ((toSec (z.t - h.z.t) + toSec (f - z.t)) ^ 2 - (toSec (z.t - h.z.t) ^ 2 + sumSq z.t l)) / 2
          = toSec (f - z.t) * toSec (z.t - h.z.t) + (toSec (f - z.t) ^ 2 - sumSq z.t l) / 2 := by ring
      rw [hc, add_smul]
      abel
    · rw [add_smul]; abel

/-- **C82**, in part: for constant readings without rotation the velocity and the rotation are exact and the
position is too small by half the specific force times the sum of the squared intervals, however many samples
there are.  Missing: `C82_violated`. -/
theorem C82_constant_partial (z0 : Sample) (bias : Bias) (R : I6 → ℝ) (l : List Sample) (m : Model) (p : Pre) (a : V3)
    (hm : (Model.new z0 bias R).integrateAll l = some m) (hp : m.pre = some p)
    (hc : ∀ z ∈ z0 :: l, z.accel = a ∧ z.gyro = bias.gyro) :
    p.state.gamma = Quat.identity ∧ p.state.beta = p.dt • (a - bias.accel) ∧
    p.state.alpha = (1 / 2 * p.dt ^ 2) • (a - bias.accel) - (1 / 2 * sumSq z0.t l) • (a - bias.accel) := by
  obtain ⟨-, rfl⟩ := (new_integrateAll z0 bias R l m).1 hm
  rw [pre_run] at hp
  obtain rfl := Option.some.inj hp
  have h := final_const bias R a l ⟨z0, IState.identity, 0, 0⟩ (hc z0 (List.mem_cons_self ..)).1
    (hc z0 (List.mem_cons_self ..)).2 (fun z hz => hc z (List.mem_cons_of_mem _ hz)) rfl
  dsimp only at h
  unfold Pre.dt
  dsimp only
  rw [h]
  refine ⟨rfl, ?_, ?_⟩
  · exact zero_add _
  · show (0 : V3) + _ • (0 : V3) + _ = _
    rw [smul_zero, zero_add, zero_add, ← sub_smul]
    congr 1; ring

/-- **C82** in full: constant readings without rotation give the position of uniform acceleration. -/
def C82_statement : Prop :=
  ∀ (z0 : Sample) (bias : Bias) (R : I6 → ℝ) (l : List Sample) (m : Model) (p : Pre) (a : V3),
    (Model.new z0 bias R).integrateAll l = some m → m.pre = some p →
    (∀ z ∈ z0 :: l, z.accel = a ∧ z.gyro = bias.gyro) →
    p.state = ⟨(1 / 2 * p.dt ^ 2) • (a - bias.accel), p.dt • (a - bias.accel), Quat.identity⟩

/-- **C82** fails whenever there is any acceleration and any sample. -/
theorem C82_violated (z0 : Sample) (bias : Bias) (R : I6 → ℝ) (l : List Sample) (m : Model) (p : Pre) (a : V3)
    (hm : (Model.new z0 bias R).integrateAll l = some m) (hp : m.pre = some p)
    (hc : ∀ z ∈ z0 :: l, z.accel = a ∧ z.gyro = bias.gyro) (hl : l ≠ []) (ha : a ≠ bias.accel) :
    p.state.alpha ≠ (1 / 2 * p.dt ^ 2) • (a - bias.accel) := by
  rw [(C82_constant_partial z0 bias R l m p a hm hp hc).2.2]
  intro h
  rw [sub_eq_self, smul_eq_zero] at h
  rcases h with h | h
  · have := sumSq_pos hl ((new_integrateAll z0 bias R l m).1 hm).1
    linarith
  · exact ha (sub_eq_zero.1 h)

theorem one_second : ∃ m p, (Model.new ⟨0, ![1, 0, 0], 0⟩ ⟨0, 0⟩ 0).integrateAll [⟨1000000000, ![1, 0, 0], 0⟩] = some m ∧
    m.pre = some p := by
  refine ⟨_, _, (new_integrateAll _ ⟨0, 0⟩ 0 _ _).2 ⟨?_, rfl⟩, pre_run ..⟩
  show _ ∧ True
  norm_num [QUANT]

theorem C82_statement_false : ¬ C82_statement := by
  intro h
  obtain ⟨m, p, hm, hp⟩ := one_second
  have hc : ∀ z ∈ [(⟨0, ![1, 0, 0], 0⟩ : Sample), ⟨1000000000, ![1, 0, 0], 0⟩],
      z.accel = ![1, 0, 0] ∧ z.gyro = (⟨0, 0⟩ : Bias).gyro := by
    intro z hz
    simp only [List.mem_cons, List.not_mem_nil, or_false] at hz
    rcases hz with rfl | rfl <;> exact ⟨rfl, rfl⟩
  refine C82_violated _ _ _ _ m p ![1, 0, 0] hm hp hc (by simp) ?_ (congrArg IState.alpha (h _ _ _ _ m p _ hm hp hc))
  intro e
  have := congrFun e 0
  norm_num at this

/-! ### C83 -/

/-- The change of the state `dStatedBias` predicts. -/
noncomputable def lin (D : Matrix I9 I6 ℝ) (e : Bias) : IErr := IErr.ofVec (D.mulVec e.toVec)

theorem lin_vec (D : Matrix I9 I6 ℝ) (e : Bias) : D.mulVec e.toVec = (lin D e).toVec := (toVec_ofVec _).symm

theorem lin_step (bias : Bias) (R : I6 → ℝ) (b : History) (z : Sample) (e : Bias) :
    lin (step bias R b z).dbias e =
      let dt := toSec (z.t - b.z.t)
      let a := (1 / 2 : ℝ) • (z.accel + b.z.accel) - bias.accel
      let w := (1 / 2 : ℝ) • (z.gyro + b.z.gyro) - bias.gyro
      let d := lin b.dbias e
      ⟨d.alpha + dt • (d.beta + (0.5 : ℝ) • dt • -b.state.gamma.rota (cross a d.gamma)) + 0,
        d.beta + dt • -b.state.gamma.rota (cross a (d.gamma + (0.5 : ℝ) • dt • -cross w d.gamma))
          + -(dt • b.state.gamma.rota e.accel),
        d.gamma + dt • -cross w (d.gamma + (0.5 : ℝ) • dt • -cross w d.gamma) + -(dt • e.gyro)⟩ := by
  dsimp only
  unfold lin
  rw [step_dbias, add_mulVec, ← mulVec_mulVec, B_apply bias, lin_vec, trans_apply]
  dsimp only
  rw [add_toVec, ofVec_toVec]
  rfl

/-- The state of `x` moved by `d`, the rotation untouched. -/
def shift (x : IState) (d : IErr) : IState := ⟨x.alpha + d.alpha, x.beta + d.beta, x.gamma⟩

theorem rota_sub' (q : Quat) (u v : V3) : q.rota (u - v) = q.rota u - q.rota v := by
  rw [rota_eq, rota_eq, rota_eq, mulVec_sub]

theorem final_accel (bias : Bias) (R : I6 → ℝ) (e : V3) (l : List Sample) (h k : History) (hz : k.z = h.z)
    (hs : k.state = shift h.state (lin h.dbias ⟨e, 0⟩)) (hg : (lin h.dbias ⟨e, 0⟩).gamma = 0) :
    (final ⟨bias.accel + e, bias.gyro⟩ R k l).state
      = shift (final bias R h l).state (lin (final bias R h l).dbias ⟨e, 0⟩) ∧
    (lin (final bias R h l).dbias ⟨e, 0⟩).gamma = 0 := by
  induction l generalizing h k with
  | nil => exact ⟨hs, hg⟩
  | cons z l ih =>
    have hl := lin_step bias R h z ⟨e, 0⟩
    dsimp only at hl
    rw [hg] at hl
    simp only [cross_zero, neg_zero, smul_zero, add_zero, rota_zero] at hl
    refine ih (step bias R h z) (step _ R k z) rfl ?_ (by rw [hl])
    rw [hl]
    unfold step shift IState.plus dynamics IErr.scale
    dsimp only
    rw [hz, hs]
    unfold shift
    dsimp only
    congr 1
    · rw [smul_add]; abel
    · rw [← sub_sub, rota_sub', smul_sub]; abel

/-- **C83**, accelerometer columns: the state reported for any other accelerometer bias is exactly the one
predicted by `dStatedBias`, for every history. -/
theorem C83_accel_partial (z0 : Sample) (bias : Bias) (R : I6 → ℝ) (l : List Sample) (m : Model) (p : Pre)
    (hm : (Model.new z0 bias R).integrateAll l = some m) (hp : m.pre = some p) (e : V3) :
    ∃ m' p', (Model.new z0 ⟨bias.accel + e, bias.gyro⟩ R).integrateAll l = some m' ∧ m'.pre = some p' ∧
      p'.state = p.state.plus (IErr.ofVec (p.dbias.mulVec (Bias.toVec ⟨e, 0⟩))) := by
  obtain ⟨hs, rfl⟩ := (new_integrateAll z0 bias R l m).1 hm
  rw [pre_run] at hp
  obtain rfl := Option.some.inj hp
  refine ⟨_, _, (new_integrateAll z0 ⟨bias.accel + e, bias.gyro⟩ R l _).2 ⟨hs, rfl⟩, pre_run .., ?_⟩
  have h0 : lin (0 : Matrix I9 I6 ℝ) ⟨e, 0⟩ = ⟨0, 0, 0⟩ := by
    unfold lin; rw [zero_mulVec]; rfl
  obtain ⟨h1, h2⟩ := final_accel bias R e l ⟨z0, IState.identity, 0, 0⟩ ⟨z0, IState.identity, 0, 0⟩ rfl
    (by dsimp only; rw [h0]; unfold shift IState.identity; simp) (by dsimp only; rw [h0])
  dsimp only
  rw [h1]
  unfold IState.plus shift
  unfold lin at h2 ⊢
  rw [h2, exp_zero3, otimes_id]

/-- How a family of states moves: velocity and rotation. -/
def Moves (s : ℝ → IState) (x : IState) (d : IErr) : Prop :=
  s 0 = x ∧ HasVecDeriv (fun t => (s t).alpha) d.alpha ∧ HasVecDeriv (fun t => (s t).beta) d.beta ∧
    HasQuatDeriv (fun t => (s t).gamma) (rightRate x.gamma d.gamma)

/-- The derivative of the position, which `dStatedBias` approximates. -/
noncomputable def dAlpha (bias : Bias) (R : I6 → ℝ) (e : Bias) (d : V3) (h : History) : List Sample → V3
  | [] => d
  | z :: l => dAlpha bias R e (d + toSec (z.t - h.z.t) • (lin h.dbias e).beta) (step bias R h z) l

theorem biasLine_zero (b e : Bias) : biasLine b e 0 = b := by
  unfold biasLine; rw [zero_smul, zero_smul, add_zero, add_zero]

theorem final_still (bias : Bias) (R : I6 → ℝ) (e : Bias) (l : List Sample) (h : History) (k : ℝ → History) (d : V3)
    (hz : ∀ t, (k t).z = h.z) (hu : UnitQ h.state.gamma) (hg : h.z.gyro = bias.gyro)
    (hl : ∀ z ∈ l, z.gyro = bias.gyro)
    (hm : Moves (fun t => (k t).state) h.state ⟨d, (lin h.dbias e).beta, (lin h.dbias e).gamma⟩) :
    Moves (fun t => (final (biasLine bias e t) R (k t) l).state) (final bias R h l).state
      ⟨dAlpha bias R e d h l, (lin (final bias R h l).dbias e).beta, (lin (final bias R h l).dbias e).gamma⟩ := by
  induction l generalizing h k d with
  | nil => exact hm
  | cons z l ih =>
    have hzg : z.gyro = bias.gyro := hl z (List.mem_cons_self ..)
    refine ih (step bias R h z) (fun t => step (biasLine bias e t) R (k t) z) _ (fun _ => rfl)
      (step_unit _ _ _ _ hu) hzg (fun y hy => hl y (List.mem_cons_of_mem _ hy)) ?_
    have hs := lin_step bias R h z e
    dsimp only at hs
    have hw : (1 / 2 : ℝ) • (z.gyro + h.z.gyro) - bias.gyro = 0 := by rw [hzg, hg, half_add, sub_self]
    have hc : ∀ v : V3, cross 0 v = 0 := fun v => by ext i; fin_cases i <;> simp [cross]
    rw [hw] at hs
    simp only [hc, neg_zero, smul_zero, add_zero] at hs
    obtain ⟨h0, h1, h2, h3⟩ := hm
    set dt := toSec (z.t - h.z.t) with hdt
    set a := (1 / 2 : ℝ) • (z.accel + h.z.accel) with ha
    have hγ0 : (k 0).state.gamma = h.state.gamma := congrArg IState.gamma h0
    rw [hs]
    refine ⟨?_, ?_, ?_, ?_⟩
    · show (step (biasLine bias e 0) R (k 0) z).state = _
      unfold step
      dsimp only
      rw [biasLine_zero, hz 0, show (k 0).state = h.state from h0]
    · have : HasVecDeriv (fun t => (k t).state.alpha + dt • (k t).state.beta) _ := h1.add (vsmul dt h2)
      refine (show HasVecDeriv (fun t => (step (biasLine bias e t) R (k t) z).state.alpha) _ from ?_)
      have e1 : (fun t => (step (biasLine bias e t) R (k t) z).state.alpha)
          = fun t => (k t).state.alpha + dt • (k t).state.beta := by
        funext t
        unfold step IState.plus dynamics IErr.scale
        dsimp only
        rw [hz t]
      rw [e1]
      exact this
    · have e1 : (fun t => (step (biasLine bias e t) R (k t) z).state.beta)
          = fun t => (k t).state.beta + dt • (k t).state.gamma.rota ((a - bias.accel) + t • (-e.accel)) := by
        funext t
        unfold step IState.plus dynamics IErr.scale biasLine
        dsimp only
        rw [hz t, ← sub_sub, smul_neg, ← sub_eq_add_neg]
      show HasVecDeriv (fun t => (step (biasLine bias e t) R (k t) z).state.beta) _
      rw [e1]
      have := h2.add (vsmul dt (rota_deriv h3 (vline (a - bias.accel) (-e.accel))))
      refine this.congr ?_
      have hsk : ∀ w : V3, (skew w)ᵀ = -skew w := fun w => by
        apply mat_ext <;> rw [Matrix.neg_apply, transpose_apply] <;> comps <;> ring
      rw [hγ0, zero_smul, add_zero, dR_right _ hu, transpose_neg, transpose_mul, hsk, Matrix.mul_neg, neg_neg,
        ← mulVec_mulVec, skew_mulVec, ← rota_eq, cross_comm (lin h.dbias e).gamma, rota_eq _ (-cross _ _), mulVec_neg,
        ← rota_eq, rota_eq _ (-e.accel), mulVec_neg, ← rota_eq, smul_add, smul_neg dt (h.state.gamma.rota e.accel)]
      abel_nf
    · have e1 : (fun t => (step (biasLine bias e t) R (k t) z).state.gamma)
          = fun t => (k t).state.gamma.otimes (Quat.exp (0 + t • (-(dt • e.gyro)))) := by
        funext t
        unfold step IState.plus dynamics IErr.scale biasLine
        dsimp only
        rw [hz t, ← sub_sub, hw, zero_sub, zero_add, ← hdt, smul_neg, smul_neg, smul_comm]
      show HasQuatDeriv (fun t => (step (biasLine bias e t) R (k t) z).state.gamma) _
      rw [e1]
      have hx := exp_line 0 (-(dt • e.gyro)) (Or.inl rfl)
      rw [expJac_zero, transpose_one, one_mulVec] at hx
      have := otimes_deriv h3 hx
      refine qd_congr this ?_
      have hstep : (step bias R h z).state.gamma = h.state.gamma := by
        unfold step IState.plus dynamics IErr.scale
        dsimp only
        rw [hw, smul_zero, exp_zero3, otimes_id]
      rw [hstep, hγ0, zero_smul, add_zero, exp_zero3, otimes_id, otimes_rightRate, otimes_id]
      ext <;> simp only [Quat.add, rightRate, Quat.smul, Quat.otimes, Quat.pure, Pi.add_apply, Pi.neg_apply] <;> ring

/-- **C83**, gyroscope columns: without rotation the velocity and rotation rows of `dStatedBias` are the derivative
of the state with respect to the bias, for every history and every direction.  Missing: the position row,
`C83_gyro_violated`, and rotation. -/
theorem C83_still_partial (z0 : Sample) (bias : Bias) (R : I6 → ℝ) (l : List Sample) (m : Model) (p : Pre)
    (hm : (Model.new z0 bias R).integrateAll l = some m) (hp : m.pre = some p)
    (hg : ∀ z ∈ z0 :: l, z.gyro = bias.gyro) (e : Bias) :
    ∃ p' : ℝ → Pre, (∀ t, ∃ m', (Model.new z0 (biasLine bias e t) R).integrateAll l = some m' ∧
        m'.pre = some (p' t)) ∧
      HasVecDeriv (fun t => (p' t).state.beta) (IErr.ofVec (p.dbias.mulVec e.toVec)).beta ∧
      HasQuatDeriv (fun t => (p' t).state.gamma)
        (rightRate p.state.gamma (IErr.ofVec (p.dbias.mulVec e.toVec)).gamma) := by
  obtain ⟨hs, rfl⟩ := (new_integrateAll z0 bias R l m).1 hm
  rw [pre_run] at hp
  obtain rfl := Option.some.inj hp
  refine ⟨_, fun t => ⟨_, (new_integrateAll z0 (biasLine bias e t) R l _).2 ⟨hs, rfl⟩, pre_run ..⟩, ?_⟩
  have h0 : lin (0 : Matrix I9 I6 ℝ) e = ⟨0, 0, 0⟩ := by
    unfold lin; rw [zero_mulVec]; rfl
  have h := final_still bias R e l ⟨z0, IState.identity, 0, 0⟩ (fun _ => ⟨z0, IState.identity, 0, 0⟩) 0
    (fun _ => rfl) id_unit (hg z0 (List.mem_cons_self ..)) (fun z hz => hg z (List.mem_cons_of_mem _ hz))
    ⟨rfl, vconst _, by dsimp only; rw [h0]; exact vconst _, by
      dsimp only; rw [h0]
      refine qd_congr (const_deriv _) ?_
      ext <;> simp [rightRate, Quat.smul, Quat.otimes, Quat.pure]⟩
  exact ⟨h.2.2.1, h.2.2.2⟩

/-- **C83** in full: `dStatedBias` is the derivative of the preintegrated state with respect to the bias. -/
def C83_statement : Prop :=
  ∀ (z0 : Sample) (bias : Bias) (R : I6 → ℝ) (l : List Sample) (m : Model) (p : Pre),
    (Model.new z0 bias R).integrateAll l = some m → m.pre = some p → ∀ (e : Bias) (p' : ℝ → Pre),
    (∀ t, ∃ m', (Model.new z0 (biasLine bias e t) R).integrateAll l = some m' ∧ m'.pre = some (p' t)) →
    HasVecDeriv (fun t => (p' t).state.alpha) (IErr.ofVec (p.dbias.mulVec e.toVec)).alpha ∧
    HasVecDeriv (fun t => (p' t).state.beta) (IErr.ofVec (p.dbias.mulVec e.toVec)).beta ∧
    HasQuatDeriv (fun t => (p' t).state.gamma)
      (rightRate p.state.gamma (IErr.ofVec (p.dbias.mulVec e.toVec)).gamma)

/-- Three samples, a second apart, of the specific force `a`. -/
def still (a : V3) (t : ℤ) : Sample := ⟨t, a, 0⟩

theorem still_spaced (a : V3) : Spaced (still a 0).t [still a 1000000000, still a 2000000000] := by
  show QUANT ≤ 1000000000 - 0 ∧ QUANT ≤ 2000000000 - 1000000000 ∧ True
  norm_num [QUANT]

/-- **C83** fails in the position row of the gyroscope columns, whenever the specific force is not parallel to the
change of the bias: the position of the third sample does not depend on the gyroscope bias at all, and `dStatedBias`
says it does. -/
theorem C83_gyro_violated (a e : V3) (R : I6 → ℝ) :
    ∃ (m : Model) (p : Pre) (p' : ℝ → Pre),
      (Model.new (still a 0) ⟨0, 0⟩ R).integrateAll [still a 1000000000, still a 2000000000] = some m ∧
      m.pre = some p ∧
      (∀ t, ∃ m', (Model.new (still a 0) (biasLine ⟨0, 0⟩ ⟨0, e⟩ t) R).integrateAll
        [still a 1000000000, still a 2000000000] = some m' ∧ m'.pre = some (p' t)) ∧
      HasVecDeriv (fun t => (p' t).state.alpha) 0 ∧
      (IErr.ofVec (p.dbias.mulVec (Bias.toVec ⟨0, e⟩))).alpha = (1 / 2 : ℝ) • cross a e := by
  refine ⟨_, _, _, (new_integrateAll _ ⟨0, 0⟩ R _ _).2 ⟨still_spaced a, rfl⟩, pre_run ..,
    fun t => ⟨_, (new_integrateAll _ (biasLine ⟨0, 0⟩ ⟨0, e⟩ t) R _ _).2 ⟨still_spaced a, rfl⟩, pre_run ..⟩, ?_, ?_⟩
  · have h0 : lin (0 : Matrix I9 I6 ℝ) ⟨0, e⟩ = ⟨0, 0, 0⟩ := by
      unfold lin; rw [zero_mulVec]; rfl
    have h := final_still ⟨0, 0⟩ R ⟨0, e⟩ [still a 1000000000, still a 2000000000]
      ⟨still a 0, IState.identity, 0, 0⟩ (fun _ => ⟨still a 0, IState.identity, 0, 0⟩) 0
      (fun _ => rfl) id_unit rfl (by
        intro z hz
        simp only [List.mem_cons, List.not_mem_nil, or_false] at hz
        rcases hz with rfl | rfl <;> rfl)
      ⟨rfl, vconst _, by dsimp only; rw [h0]; exact vconst _, by
        dsimp only; rw [h0]
        refine qd_congr (const_deriv _) ?_
        ext <;> simp [rightRate, Quat.smul, Quat.otimes, Quat.pure]⟩
    refine h.2.1.congr ?_
    show dAlpha _ _ _ _ _ _ = 0
    have h1 := lin_step ⟨0, 0⟩ R ⟨still a 0, IState.identity, 0, 0⟩ (still a 1000000000) ⟨0, e⟩
    dsimp only at h1
    rw [h0] at h1
    unfold dAlpha dAlpha dAlpha
    dsimp only
    rw [h0, h1]
    dsimp only
    simp only [cross_zero, rota_zero, neg_zero, smul_zero, add_zero]
  · show (lin _ ⟨0, e⟩).alpha = _
    have h0 : lin (0 : Matrix I9 I6 ℝ) ⟨0, e⟩ = ⟨0, 0, 0⟩ := by
      unfold lin; rw [zero_mulVec]; rfl
    have ef : final ⟨0, 0⟩ R ⟨still a 0, IState.identity, 0, 0⟩ [still a 1000000000, still a 2000000000]
        = step ⟨0, 0⟩ R (step ⟨0, 0⟩ R ⟨still a 0, IState.identity, 0, 0⟩ (still a 1000000000))
          (still a 2000000000) := rfl
    have h1 := lin_step ⟨0, 0⟩ R ⟨still a 0, IState.identity, 0, 0⟩ (still a 1000000000) ⟨0, e⟩
    dsimp only at h1
    rw [h0] at h1
    have t1 : toSec ((still a 1000000000).t - (still a 0).t) = 1 := by
      show toSec (1000000000 - 0) = 1; unfold toSec; norm_num
    have t2 : toSec ((still a 2000000000).t - (still a 1000000000).t) = 1 := by
      show toSec (2000000000 - 1000000000) = 1; unfold toSec; norm_num
    simp only [cross_zero, rota_zero, neg_zero, smul_zero, add_zero, zero_add, t1, one_smul] at h1
    have hs := step_const ⟨0, 0⟩ R ⟨still a 0, IState.identity, 0, 0⟩ (still a 1000000000) a rfl rfl rfl rfl rfl
    rw [ef, lin_step]
    dsimp only
    rw [h1, hs, step_z, t2]
    dsimp only
    rw [rota_identity, show (still a 2000000000).accel = a from rfl, show (still a 1000000000).accel = a from rfl,
      half_add, sub_zero, add_zero, zero_add, zero_add, one_smul, one_smul]
    ext i
    fin_cases i <;> simp [cross] <;> ring

theorem C83_statement_false : ¬ C83_statement := by
  intro h
  obtain ⟨m, p, p', h1, h2, h3, h4, h5⟩ := C83_gyro_violated ![1, 0, 0] ![0, 1, 0] 0
  have := vunique (h _ _ _ _ m p h1 h2 ⟨0, ![0, 1, 0]⟩ p' h3).1 h4
  rw [h5] at this
  have h6 : (1 / 2 : ℝ) * cross ![1, 0, 0] ![0, 1, 0] 2 = 0 := congrFun this 2
  have h7 : cross ![1, 0, 0] ![0, 1, 0] 2 = 1 := by comps; simp
  rw [h7] at h6
  norm_num at h6

end Verif.Props.ImuBias
