import Verif.Model.Imu
import Verif.Lemmas.LieCurve
import Verif.Props.EkfModels

/-! IMU preintegration (`models/imu_model.cxx`): C49, C50, C80-C84. -/

namespace Verif.Props.Imu

open Verif.Model.Lie Verif.Model.Imu Verif.Lemmas.Lie Verif.Lemmas.LieDeriv Verif.Lemmas.LieCurve
  Verif.Props.Quat Verif.Props.DQuat Verif.Props.EkfModels Matrix

/-! ### C49 -/

theorem norm_unit {q : Quat} (h : UnitQ q) : q.norm = 1 := by
  unfold Quat.norm Quat.sqNorm
  rw [show q.w * q.w + q.x * q.x + q.y * q.y + q.z * q.z = 1 by simp only [UnitQ] at h; linear_combination h,
    Real.sqrt_one]

/-- With unit quaternions and a non-empty interval `computeEndState` succeeds, and this is what it gives. -/
theorem endState_eq (p : Pre) (start : DQuat) (v : V3) (hg : UnitQ p.state.gamma) (hs : UnitQ start.r)
    (ht : p.t0 < p.tf) : p.computeEndState start v = some
      (pose (start.r.otimes p.state.gamma)
        (start.translation + start.r.rota (p.dt • v + p.state.alpha) + (0.5 * p.dt * p.dt) • GRAVITY),
        p.state.gamma.rotp (v + p.dt • start.r.rotp GRAVITY + p.state.beta), true) := by
  unfold Pre.computeEndState
  rw [norm_unit hg, norm_unit hs, sub_self, abs_zero, if_pos ⟨by norm_num, by norm_num, ht.le⟩, if_neg ht.ne']

theorem exp_zero3 : Quat.exp 0 = Quat.identity := by
  have h0 : vnorm (0 : V3) = 0 := by unfold vnorm sqNorm dot; simp
  unfold Quat.exp
  dsimp only
  rw [h0, if_neg (by norm_num)]
  unfold Quat.normalize Quat.norm Quat.sqNorm Quat.identity
  simp

theorem otimes_id (q : Quat) : q.otimes Quat.identity = q := by
  unfold Quat.otimes Quat.identity
  apply Quat.ext <;> simp

theorem logJ_id : Quat.identity.logJ = 0 := by
  have h0 : vnorm Quat.identity.bar = 0 := by unfold vnorm sqNorm dot Quat.bar Quat.identity; simp
  unfold Quat.logJ
  dsimp only
  rw [h0, if_neg (by norm_num), if_pos rfl]
  simp

theorem inverse_otimes {q : Quat} (h : UnitQ q) : q.inverse.otimes q = Quat.identity := by
  simp only [UnitQ] at h
  unfold Quat.inverse Quat.otimes Quat.identity
  apply Quat.ext <;> dsimp only
  · linear_combination h
  all_goals ring

theorem otimes_assoc (p q r : Quat) : (p.otimes q).otimes r = p.otimes (q.otimes r) := by
  unfold Quat.otimes
  apply Quat.ext <;> dsimp only <;> ring

theorem id_otimes (q : Quat) : Quat.identity.otimes q = q := by
  unfold Quat.otimes Quat.identity
  apply Quat.ext <;> simp

theorem rotError_end {g s : Quat} (hg : UnitQ g) (hs : UnitQ s) :
    g.inverse.otimes (s.inverse.otimes (s.otimes g)) = Quat.identity := by
  rw [← otimes_assoc s.inverse, inverse_otimes hs, id_otimes, inverse_otimes hg]

theorem ofQT_translation {q : Quat} (hq : UnitQ q) (t : V3) : (pose q t).translation = t :=
  (C46_translation q t DQuat.identity hq ⟨by norm_num [UnitQ, DQuat.identity, Quat.identity],
    by norm_num [DQuat.identity, Quat.identity]⟩).2.2.1

theorem plus_zero (s : IState) : s.plus ⟨0, 0, 0⟩ = s := by
  unfold IState.plus
  rw [exp_zero3, otimes_id, add_zero, add_zero]

/-- **C49**: the residual at the computed end state vanishes whenever the bias adjustment does.  Missing: the
adjustment vanishes at the bias used for integration, `C49_bias_violated`. -/
theorem C49_residual_partial (p : Pre) (start e : DQuat) (v v' : V3) (ok : Bool) (b : Bias)
    (hg : UnitQ p.state.gamma) (hs : UnitQ start.r) (ht : p.t0 < p.tf) (hb : p.dbias.mulVec b.toVec = 0)
    (he : p.computeEndState start v = some (e, v', ok)) : p.residual start e v v' b = ⟨0, 0, 0⟩ := by
  rw [endState_eq p start v hg hs ht] at he
  obtain ⟨rfl, rfl, rfl⟩ : pose _ _ = e ∧ _ = v' ∧ true = ok := by
    simpa only [Option.some.injEq, Prod.mk.injEq] using he
  have ha : p.adjusted b = p.state := by
    unfold Pre.adjusted Pre.adjustment
    rw [hb]
    exact plus_zero _
  unfold Pre.residual
  dsimp only
  rw [ha, ofQT_translation (otimes_unit hs hg), rota_rotp _ hg]
  have hr : rotError p.state.gamma start (pose (start.r.otimes p.state.gamma)
      (start.translation + start.r.rota (p.dt • v + p.state.alpha) + (0.5 * p.dt * p.dt) • GRAVITY))
      = Quat.identity := rotError_end hg hs
  rw [hr, logJ_id, show start.translation + start.r.rota (p.dt • v + p.state.alpha) + (0.5 * p.dt * p.dt) • GRAVITY
    - start.translation - (0.5 * p.dt * p.dt) • GRAVITY = start.r.rota (p.dt • v + p.state.alpha) by abel,
    rotp_rota _ hs]
  congr 1
  · abel
  · abel

/-- In particular for a zero bias. -/
theorem C49_zero_bias_partial (p : Pre) (start e : DQuat) (v v' : V3) (ok : Bool)
    (hg : UnitQ p.state.gamma) (hs : UnitQ start.r) (ht : p.t0 < p.tf)
    (he : p.computeEndState start v = some (e, v', ok)) : p.residual start e v v' ⟨0, 0⟩ = ⟨0, 0, 0⟩ := by
  refine C49_residual_partial p start e v v' ok ⟨0, 0⟩ hg hs ht ?_ he
  have : Bias.toVec ⟨0, 0⟩ = 0 := by
    ext ⟨i, j⟩; fin_cases i <;> rfl
  rw [this, mulVec_zero]

/-- **C49** in full: for every model reached by integrating samples, at the bias it was integrated with. -/
def C49_statement : Prop :=
  ∀ (z0 : Sample) (b : Bias) (R : I6 → ℝ) (l : List Sample) (m : Model) (p : Pre) (start e : DQuat) (v v' : V3),
    (Model.new z0 b R).integrateAll l = some m → m.pre = some p → UnitQ start.r →
    p.computeEndState start v = some (e, v', true) → p.residual start e v v' b = ⟨0, 0, 0⟩

/-- A model at rest integrated over one second, with an accelerometer bias of one metre per second squared
along the first axis, which the samples show. -/
noncomputable def biased : Model := ⟨⟨![1, 0, 0], 0⟩, 0,
  [⟨⟨0, ![1, 0, 0], 0⟩, IState.identity, 0, 0⟩,
    step ⟨![1, 0, 0], 0⟩ 0 ⟨⟨0, ![1, 0, 0], 0⟩, IState.identity, 0, 0⟩ ⟨1000000000, ![1, 0, 0], 0⟩]⟩

theorem biased_reached : (Model.new ⟨0, ![1, 0, 0], 0⟩ ⟨![1, 0, 0], 0⟩ 0).integrateAll
    [⟨1000000000, ![1, 0, 0], 0⟩] = some biased := by
  unfold Model.integrateAll
  rw [List.foldlM_cons]
  unfold Model.integrate Model.new
  rfl

theorem residual_alpha (p : Pre) (start e : DQuat) (v v' : V3) (ok : Bool) (b : Bias)
    (hg : UnitQ p.state.gamma) (hs : UnitQ start.r) (ht : p.t0 < p.tf)
    (he : p.computeEndState start v = some (e, v', ok)) :
    (p.residual start e v v' b).alpha = -(p.adjustment b).alpha := by
  rw [endState_eq p start v hg hs ht] at he
  obtain ⟨rfl, rfl, rfl⟩ : pose _ _ = e ∧ _ = v' ∧ true = ok := by
    simpa only [Option.some.injEq, Prod.mk.injEq] using he
  unfold Pre.residual Pre.adjusted IState.plus
  dsimp only
  rw [ofQT_translation (otimes_unit hs hg), show start.translation + start.r.rota (p.dt • v + p.state.alpha)
    + (0.5 * p.dt * p.dt) • GRAVITY
    - start.translation - (0.5 * p.dt * p.dt) • GRAVITY = start.r.rota (p.dt • v + p.state.alpha) by abel,
    rotp_rota _ hs]
  abel

theorem residual_beta (p : Pre) (start e : DQuat) (v v' : V3) (ok : Bool) (b : Bias)
    (hg : UnitQ p.state.gamma) (hs : UnitQ start.r) (ht : p.t0 < p.tf) (h0 : (p.adjustment b).gamma = 0)
    (he : p.computeEndState start v = some (e, v', ok)) :
    (p.residual start e v v' b).beta = -(p.adjustment b).beta := by
  rw [endState_eq p start v hg hs ht] at he
  obtain ⟨rfl, rfl, rfl⟩ : pose _ _ = e ∧ _ = v' ∧ true = ok := by
    simpa only [Option.some.injEq, Prod.mk.injEq] using he
  unfold Pre.residual Pre.adjusted IState.plus
  dsimp only
  rw [h0, exp_zero3, otimes_id, rota_rotp _ hg]
  abel

theorem block6 (M : Fin 3 → Fin 2 → M3) (b : Bias) (i : Fin 3) :
    (fun k => (of fun (p : I9) (q : I6) => M p.1 q.1 p.2 q.2).mulVec b.toVec (i, k))
      = (M i 0).mulVec b.accel + (M i 1).mulVec b.gyro := by
  funext k
  simp only [Pi.add_apply, mulVec, dotProduct, of_apply, Fintype.sum_prod_type, Fin.sum_univ_three, Fin.sum_univ_two]
  rfl

theorem dynB_apply (s : IState) (n : Bias) :
    IErr.ofVec ((dynB s).mulVec n.toVec) = ⟨0, -(s.gamma.R.transpose.mulVec n.accel), -n.gyro⟩ := by
  unfold IErr.ofVec dynB
  rw [block6, block6, block6]
  simp only [Matrix.cons_val, zero_mulVec, neg_mulVec, one_mulVec, add_zero, zero_add]

theorem toSec_1 : toSec (1000000000 - 0) = 1 := by unfold toSec; norm_num

/-- What the filter of `biased` reads. -/
noncomputable def biasedPre : Pre := ⟨0, 1000000000, ⟨0, 0, Quat.identity⟩, dynB IState.identity⟩

theorem biased_step : step ⟨![1, 0, 0], 0⟩ 0 ⟨⟨0, ![1, 0, 0], 0⟩, IState.identity, 0, 0⟩
    ⟨1000000000, ![1, 0, 0], 0⟩ = ⟨⟨1000000000, ![1, 0, 0], 0⟩, ⟨0, 0, Quat.identity⟩,
      0, dynB IState.identity⟩ := by
  unfold step
  dsimp only
  rw [toSec_1]
  congr 1
  · unfold IState.plus dynamics IErr.scale IState.identity
    dsimp only
    have h1 : (1 : ℝ) • ((1 / 2 : ℝ) • ((0 : V3) + 0) - 0) = 0 := by simp
    have h2 : (1 / 2 : ℝ) • ((![1, 0, 0] : V3) + ![1, 0, 0]) - ![1, 0, 0] = 0 := by
      ext i; fin_cases i <;> norm_num
    rw [h1, h2, exp_zero3, otimes_id, rota_id, smul_zero, add_zero]
  · simp
  · rw [Matrix.mul_zero, zero_add, one_smul]

theorem biased_pre : biased.pre = some biasedPre := by
  unfold biased
  rw [biased_step]
  rfl

/-- **C49** fails: with the bias the model was integrated with, the velocity residual at the computed end state
is the bias times the interval, because `Evaluate` adjusts for the whole bias and not for its difference to the
bias used for integration. -/
theorem C49_bias_violated : ∃ (e : DQuat) (v' : V3), biased.pre = some biasedPre ∧
    biasedPre.computeEndState DQuat.identity 0 = some (e, v', true) ∧
    (biasedPre.residual DQuat.identity e 0 v' biased.bias).beta = ![1, 0, 0] := by
  have hg : UnitQ biasedPre.state.gamma := by norm_num [UnitQ, biasedPre, Quat.identity]
  have hs : UnitQ DQuat.identity.r := by norm_num [UnitQ, DQuat.identity, Quat.identity]
  have ht : biasedPre.t0 < biasedPre.tf := by norm_num [biasedPre]
  have he := endState_eq biasedPre DQuat.identity 0 hg hs ht
  refine ⟨_, _, biased_pre, he, ?_⟩
  have hadj : biasedPre.adjustment biased.bias = ⟨0, -![1, 0, 0], 0⟩ := by
    show IErr.ofVec ((dynB IState.identity).mulVec (Bias.toVec ⟨![1, 0, 0], 0⟩)) = _
    rw [dynB_apply, neg_zero]
    congr 2
    exact (rota_eq _ _).symm.trans (rota_id _)
  rw [residual_beta biasedPre _ _ 0 _ true _ hg hs ht (by rw [hadj]) he, hadj, neg_neg]

theorem C49_statement_false : ¬ C49_statement := by
  intro h
  obtain ⟨e, v', h1, h2, h3⟩ := C49_bias_violated
  have := h ⟨0, ![1, 0, 0], 0⟩ ⟨![1, 0, 0], 0⟩ 0 _ biased biasedPre DQuat.identity e 0 v' biased_reached h1
    (by norm_num [UnitQ, DQuat.identity, Quat.identity]) h2
  have h4 : (![1, 0, 0] : V3) = 0 := by
    rw [← h3]
    exact congrArg IErr.beta this
  have := congrFun h4 0
  norm_num at this

/-! ### Histories -/

/-- The entries pushed while integrating `l` after the entry `b`, with `b` itself. -/
noncomputable def run (bias : Bias) (R : I6 → ℝ) (b : History) : List Sample → List History
  | [] => [b]
  | z :: l => b :: run bias R (step bias R b z) l

/-- Consecutive times are at least the quantum apart. -/
def Spaced : ℤ → List Sample → Prop
  | _, [] => True
  | t, z :: l => QUANT ≤ z.t - t ∧ Spaced z.t l

theorem step_z (bias : Bias) (R : I6 → ℝ) (b : History) (z : Sample) : (step bias R b z).z = z := rfl

theorem run_map (bias : Bias) (R : I6 → ℝ) (b : History) (l : List Sample) :
    (run bias R b l).map (·.z) = b.z :: l := by
  induction l generalizing b with
  | nil => rfl
  | cons z l ih => rw [run, List.map_cons, ih, step_z]

theorem run_ne (bias : Bias) (R : I6 → ℝ) (b : History) (l : List Sample) : run bias R b l ≠ [] := by
  cases l <;> simp [run]

/-- The last entry. -/
noncomputable def final (bias : Bias) (R : I6 → ℝ) (b : History) (l : List Sample) : History :=
  l.foldl (step bias R) b

theorem run_last (bias : Bias) (R : I6 → ℝ) (b : History) (l : List Sample) :
    (run bias R b l).getLast? = some (final bias R b l) := by
  induction l generalizing b with
  | nil => rfl
  | cons z l ih =>
    rw [run, List.getLast?_cons, ih]; rfl

theorem run_head (bias : Bias) (R : I6 → ℝ) (b : History) (l : List Sample) :
    (run bias R b l).head? = some b := by
  cases l <;> rfl

theorem run_append (bias : Bias) (R : I6 → ℝ) (b : History) (l k : List Sample) :
    run bias R b (l ++ k) = run bias R b l ++ (run bias R (final bias R b l) k).tail := by
  induction l generalizing b with
  | nil => cases k <;> rfl
  | cons z l ih =>
    rw [List.cons_append, run, ih, run, List.cons_append]; rfl

theorem final_z (bias : Bias) (R : I6 → ℝ) (b : History) (l : List Sample) :
    (final bias R b l).z = (b.z :: l).getLast (List.cons_ne_nil _ _) := by
  have h := run_last bias R b l
  have h2 : ((run bias R b l).map (·.z)).getLast? = some (final bias R b l).z := by
    rw [List.getLast?_map, h]; rfl
  rw [run_map, List.getLast?_eq_some_getLast (List.cons_ne_nil _ _)] at h2
  exact (Option.some.inj h2).symm

/-- Integrating succeeds exactly for spaced samples, and pushes one entry each. -/
theorem integrateAll_iff (bias : Bias) (R : I6 → ℝ) (l : List Sample) (pre : List History) (b : History)
    (m : Model) :
    (⟨bias, R, pre ++ [b]⟩ : Model).integrateAll l = some m ↔
      Spaced b.z.t l ∧ m = ⟨bias, R, pre ++ run bias R b l⟩ := by
  induction l generalizing pre b with
  | nil =>
    unfold Model.integrateAll
    constructor
    · intro h
      have h' := Option.some.inj h
      exact ⟨trivial, h'.symm⟩
    · rintro ⟨-, rfl⟩; rfl
  | cons z l ih =>
    unfold Model.integrateAll
    rw [List.foldlM_cons]
    have hb : (pre ++ [b]).getLast? = some b := List.getLast?_concat ..
    have hi : (⟨bias, R, pre ++ [b]⟩ : Model).integrate z
        = if QUANT ≤ z.t - b.z.t then some ⟨bias, R, (pre ++ [b]) ++ [step bias R b z]⟩ else none := by
      unfold Model.integrate
      dsimp only
      rw [hb]
    rw [hi]
    by_cases hq : QUANT ≤ z.t - b.z.t
    · rw [if_pos hq]
      have := ih (pre ++ [b]) (step bias R b z)
      unfold Model.integrateAll at this
      change List.foldlM Model.integrate _ l = some m ↔ _
      rw [this, List.append_assoc]
      simp only [Spaced, hq, true_and, run, step_z, List.singleton_append]
    · rw [if_neg hq]
      simp only [Spaced, hq, false_and, iff_false]
      exact fun h => nomatch h

/-- Everything reached from the constructor. -/
theorem new_integrateAll (z0 : Sample) (bias : Bias) (R : I6 → ℝ) (l : List Sample) (m : Model) :
    (Model.new z0 bias R).integrateAll l = some m ↔
      Spaced z0.t l ∧ m = ⟨bias, R, run bias R ⟨z0, IState.identity, 0, 0⟩ l⟩ :=
  integrateAll_iff bias R l [] _ m

theorem spaced_append {t : ℤ} {l k : List Sample} {z : Sample} (h : Spaced t (l ++ z :: k)) :
    Spaced t (l ++ [z]) ∧ Spaced z.t k := by
  induction l generalizing t with
  | nil => exact ⟨⟨h.1, trivial⟩, h.2⟩
  | cons y l ih => exact ⟨⟨h.1, (ih h.2).1⟩, (ih h.2).2⟩

theorem spaced_le {t : ℤ} {l : List Sample} (h : Spaced t l) {z : Sample} (hz : z ∈ l) : t + QUANT ≤ z.t := by
  induction l generalizing t with
  | nil => cases hz
  | cons y l ih =>
    rcases List.mem_cons.1 hz with rfl | hz
    · have := h.1; omega
    · have h1 := h.1; have := ih h.2 hz; unfold QUANT at *; omega

/-! ### C50 -/

theorem take_run (bias : Bias) (R : I6 → ℝ) (p : Sample → Bool) (b : History) (l : List Sample) (hb : p b.z = true) :
    (run bias R b l).takeWhile (fun h => p h.z) = run bias R b (l.takeWhile p) := by
  induction l generalizing b with
  | nil => simp [run, hb]
  | cons z l ih =>
    rw [run, List.takeWhile_cons, if_pos hb, List.takeWhile_cons]
    by_cases hz : p z = true
    · rw [if_pos hz, ih _ (by rw [step_z]; exact hz), run]
    · rw [if_neg hz, run]
      have : ∀ k, (run bias R (step bias R b z) k).takeWhile (fun h => p h.z) = [] := by
        intro k
        cases k with
        | nil => rw [run, List.takeWhile_cons, if_neg (by rw [step_z]; exact hz)]
        | cons y k => rw [run, List.takeWhile_cons, if_neg (by rw [step_z]; exact hz)]
      rw [this]

theorem drop_run (bias : Bias) (R : I6 → ℝ) (p : Sample → Bool) (b : History) (l : List Sample) (hb : p b.z = true) :
    ((run bias R b l).dropWhile (fun h => p h.z)).map (·.z) = l.dropWhile p := by
  have h1 : (run bias R b l).map (·.z) = b.z :: l := run_map ..
  have h2 : ((run bias R b l).map (·.z)).dropWhile p = ((run bias R b l).dropWhile (fun h => p h.z)).map (·.z) := by
    rw [List.dropWhile_map]; rfl
  rw [← h2, h1, List.dropWhile_cons, if_pos hb]

/-- The boundary sample of `split`: linear interpolation between its neighbours. -/
noncomputable def boundary (t : ℤ) (a b : Sample) : Sample :=
  let s := toSec (t - a.t) / toSec (b.t - a.t)
  ⟨t, s • b.accel + (1 - s) • a.accel, s • b.gyro + (1 - s) • a.gyro⟩

/-- Not after `t`, in the sense of `QuantizedTime`. -/
def before (t : ℤ) (z : Sample) : Bool := z.t - t ≤ HALF

/-- The last sample of a history. -/
def lastZ (z0 : Sample) (l : List Sample) : Sample := (z0 :: l).getLast (List.cons_ne_nil _ _)

theorem lastZ_mem (z0 : Sample) (l : List Sample) : lastZ z0 l ∈ z0 :: l := List.getLast_mem _

theorem dropWhile_nil (p : Sample → Bool) : ∀ l : List Sample, l.dropWhile p = [] → ∀ z ∈ l, p z = true
  | [], _, z, hz => by cases hz
  | a :: l, h, z, hz => by
      rw [List.dropWhile_cons] at h
      split_ifs at h with ha
      rcases List.mem_cons.1 hz with rfl | hz
      · exact ha
      · exact dropWhile_nil p l h z hz

theorem dropWhile_head (p : Sample → Bool) : ∀ (l : List Sample) (a : Sample) (r : List Sample),
    l.dropWhile p = a :: r → p a = false
  | [], _, _, h => by cases h
  | b :: l, a, r, h => by
      rw [List.dropWhile_cons] at h
      split_ifs at h with hb
      · exact dropWhile_head p l a r h
      · obtain ⟨rfl, -⟩ := List.cons_eq_cons.1 h
        exact Bool.eq_false_iff.2 hb

theorem takeWhile_mem (p : Sample → Bool) : ∀ (l : List Sample) (z : Sample), z ∈ l.takeWhile p → p z = true
  | [], _, h => by cases h
  | b :: l, z, h => by
      rw [List.takeWhile_cons] at h
      split_ifs at h with hb
      · rcases List.mem_cons.1 h with rfl | h
        · exact hb
        · exact takeWhile_mem p l z h
      · cases h

theorem dropWhile_ne {p : Sample → Bool} {z0 : Sample} {l : List Sample} (h0 : p z0 = true)
    (hl : p (lastZ z0 l) = false) : l.dropWhile p ≠ [] := by
  intro h
  have hall := dropWhile_nil p l h
  rcases List.mem_cons.1 (lastZ_mem z0 l) with e | e
  · rw [e, h0] at hl; cases hl
  · rw [hall _ e] at hl; cases hl

/-- What `split` computes on a model built by integration. -/
theorem split_eq (bias : Bias) (R : I6 → ℝ) (h0 : History) (l : List Sample) (t : ℤ)
    (ha : t - h0.z.t > HALF) (hb : (lastZ h0.z l).t - t > HALF) :
    ∃ it rest, l.dropWhile (before t) = it :: rest ∧ it.t - t > HALF ∧
      let l1 := l.takeWhile (before t)
      let zs := boundary t (lastZ h0.z l1) it
      (⟨bias, R, run bias R h0 l⟩ : Model).split t =
        match (Model.new zs bias R).integrateAll (it :: rest) with
        | none => none
        | some second =>
          if HALF < |t - (lastZ h0.z l1).t| then
            match (⟨bias, R, run bias R h0 l1⟩ : Model).integrate zs with
            | none => none
            | some first => some (first, second)
          else some (⟨bias, R, run bias R h0 l1⟩, second) := by
  have p0 : before t h0.z = true := by unfold before; unfold HALF at *; rw [decide_eq_true_eq]; omega
  have pl : before t (lastZ h0.z l) = false := by unfold before; rw [decide_eq_false_iff_not]; omega
  obtain ⟨it, rest, hd⟩ := List.exists_cons_of_ne_nil (dropWhile_ne p0 pl)
  have hit := dropWhile_head _ _ _ _ hd
  have hit' : it.t - t > HALF := by
    unfold before at hit; rw [decide_eq_false_iff_not] at hit; omega
  refine ⟨it, rest, hd, hit', ?_⟩
  intro l1 zs
  have e1 := take_run bias R (before t) h0 l p0
  have e2 := drop_run bias R (before t) h0 l p0
  obtain ⟨hi, post, hp⟩ : ∃ hi post, (run bias R h0 l).dropWhile (fun h => before t h.z) = hi :: post := by
    apply List.exists_cons_of_ne_nil
    intro h
    rw [h, hd] at e2; cases e2
  have hiz : hi.z = it ∧ post.map (·.z) = rest := by
    rw [hp, hd, List.map_cons] at e2
    exact List.cons_eq_cons.1 e2
  have h1 : (⟨bias, R, run bias R h0 l⟩ : Model).t0 = some h0.z.t := by
    unfold Model.t0; rw [run_head]; rfl
  have h2 : (⟨bias, R, run bias R h0 l⟩ : Model).tf = some (lastZ h0.z l).t := by
    unfold Model.tf; rw [run_last, Option.map_some, final_z]; rfl
  have h3 : (run bias R h0 l).takeWhile (fun h => decide (h.z.t - t ≤ HALF)) = run bias R h0 l1 := e1
  have h4 : (run bias R h0 l).dropWhile (fun h => decide (h.z.t - t ≤ HALF)) = hi :: post := hp
  unfold Model.split
  rw [h1, h2]
  dsimp only
  rw [if_pos ⟨ha, hb⟩, h3, h4, run_last, List.head?_cons]
  dsimp only
  rw [List.map_cons, hiz.1, hiz.2, final_z]
  rfl

theorem mem_takeWhile_before {t : ℤ} {l : List Sample} {z : Sample} (h : z ∈ l.takeWhile (before t)) :
    z.t - t ≤ HALF := by
  have := takeWhile_mem _ _ _ h
  unfold before at this; exact of_decide_eq_true this

theorem integrate_eq (bias : Bias) (R : I6 → ℝ) (h0 : History) (l : List Sample) (z : Sample)
    (h : QUANT ≤ z.t - (lastZ h0.z l).t) :
    (⟨bias, R, run bias R h0 l⟩ : Model).integrate z = some ⟨bias, R, run bias R h0 (l ++ [z])⟩ := by
  unfold Model.integrate
  dsimp only
  rw [run_last]
  dsimp only
  have h' : QUANT ≤ z.t - (final bias R h0 l).z.t := by rw [final_z]; exact h
  rw [if_pos h', run_append]
  rfl

/-- **C50**: when no sample is between 50 µs and 100 µs from the split time, `split` succeeds.  The samples of the
two parts are those of the model up to 50 µs after `t` and the later ones, with one interpolated sample at `t`
in front of the second part, and at the end of the first unless a sample within 50 µs of `t` is there.
Missing: split times near a sample, `C50_abort_violated`. -/
theorem C50_split_partial (z0 : Sample) (bias : Bias) (R : I6 → ℝ) (l : List Sample) (m : Model) (t : ℤ)
    (hm : (Model.new z0 bias R).integrateAll l = some m)
    (ha : t - z0.t > 50000) (hb : (lastZ z0 l).t - t > 50000)
    (hn : ∀ z ∈ l, |z.t - t| ≤ 50000 ∨ 100000 ≤ |z.t - t|) (hn0 : 100000 ≤ t - z0.t) :
    ∃ (first second : Model) (l1 l2 : List Sample) (zs : Sample), m.split t = some (first, second) ∧
      l = l1 ++ l2 ∧ (∀ z ∈ l1, z.t ≤ t + 50000) ∧ (∀ z ∈ l2, t + 100000 ≤ z.t) ∧ zs.t = t ∧
      first.hist.map (·.z) = z0 :: (l1 ++ if |t - (lastZ z0 l1).t| ≤ 50000 then [] else [zs]) ∧
      second.hist.map (·.z) = zs :: l2 ∧ l2 ≠ [] := by
  obtain ⟨hsp, rfl⟩ := (new_integrateAll z0 bias R l m).1 hm
  obtain ⟨it, rest, hd, hit, hs⟩ := split_eq bias R ⟨z0, IState.identity, 0, 0⟩ l t ha hb
  dsimp only at hs
  set l1 := l.takeWhile (before t) with hl1
  have hl : l = l1 ++ it :: rest := by rw [hl1, ← hd, List.takeWhile_append_dropWhile]
  have hmem : it ∈ l := by rw [hl]; simp
  have hsp' := spaced_append (hl ▸ hsp)
  have hit2 : 100000 ≤ it.t - t := by
    unfold HALF at hit
    rcases hn it hmem with h | h
    · rw [abs_le] at h; omega
    · rw [abs_of_pos (by omega)] at h; exact h
  have hrest : ∀ z ∈ it :: rest, t + 100000 ≤ z.t := by
    intro z hz
    rcases List.mem_cons.1 hz with rfl | hz
    · omega
    · have := spaced_le hsp'.2 hz; unfold QUANT at this; omega
  set zs := boundary t (lastZ z0 l1) it with hzs
  have h2 : (Model.new zs bias R).integrateAll (it :: rest)
      = some ⟨bias, R, run bias R ⟨zs, IState.identity, 0, 0⟩ (it :: rest)⟩ :=
    (new_integrateAll zs bias R _ _).2 ⟨⟨hit2, hsp'.2⟩, rfl⟩
  rw [h2] at hs
  dsimp only at hs
  have hpre : ∀ z ∈ l1, z.t ≤ t + 50000 := by
    intro z hz
    have := mem_takeWhile_before hz
    unfold HALF at this; omega
  by_cases hc : |t - (lastZ z0 l1).t| ≤ 50000
  · rw [if_neg (by unfold HALF; omega)] at hs
    refine ⟨_, _, l1, it :: rest, zs, hs, hl, hpre, hrest, rfl, ?_, run_map .., by simp⟩
    rw [if_pos hc, List.append_nil]; exact run_map ..
  · have hlast : 100000 ≤ t - (lastZ z0 l1).t := by
      rcases List.mem_cons.1 (lastZ_mem z0 l1) with e | e
      · rw [e]; exact hn0
      · have h5 := hpre _ e
        have h6 : lastZ z0 l1 ∈ l := by rw [hl]; exact List.mem_append_left _ e
        rcases hn _ h6 with h | h
        · rw [abs_sub_comm] at h; exact absurd h hc
        · rw [abs_sub_comm] at h
          rcases le_or_gt 0 (t - (lastZ z0 l1).t) with h7 | h7
          · rwa [abs_of_nonneg h7] at h
          · rw [abs_of_neg h7] at h; omega
    rw [if_pos (by unfold HALF; omega), integrate_eq bias R ⟨z0, IState.identity, 0, 0⟩ l1 zs hlast] at hs
    refine ⟨_, _, l1, it :: rest, zs, hs, hl, hpre, hrest, rfl, ?_, run_map .., by simp⟩
    rw [if_neg hc]; exact run_map ..

/-- The hypotheses are met by samples a millisecond apart, split half way between two of them. -/
example : (Model.new ⟨0, 0, 0⟩ ⟨0, 0⟩ 0).integrateAll [⟨1000000, 0, 0⟩, ⟨2000000, 0, 0⟩] ≠ none ∧
    (1500000 : ℤ) - 0 > 50000 ∧ (2000000 : ℤ) - 1500000 > 50000 ∧ 100000 ≤ |(1000000 : ℤ) - 1500000| ∧
    100000 ≤ |(2000000 : ℤ) - 1500000| := by
  refine ⟨?_, by norm_num, by norm_num, by norm_num, by norm_num⟩
  rw [(new_integrateAll ⟨0, 0, 0⟩ ⟨0, 0⟩ 0 [⟨1000000, 0, 0⟩, ⟨2000000, 0, 0⟩] _).2
    ⟨⟨by norm_num [QUANT], by norm_num [QUANT], trivial⟩, rfl⟩]
  simp

/-- **C50** fails: `split` aborts whenever a sample lies more than 50 µs and less than 100 µs after the split
time. -/
theorem C50_abort_violated (z0 : Sample) (bias : Bias) (R : I6 → ℝ) (l : List Sample) (m : Model) (t : ℤ)
    (hm : (Model.new z0 bias R).integrateAll l = some m) (ha : t - z0.t > 50000)
    (hb : (lastZ z0 l).t - t > 50000) (z : Sample) (hz : z ∈ l) (h1 : 50000 < z.t - t) (h2 : z.t - t < 100000) :
    m.split t = none := by
  obtain ⟨hsp, rfl⟩ := (new_integrateAll z0 bias R l m).1 hm
  obtain ⟨it, rest, hd, hit, hs⟩ := split_eq bias R ⟨z0, IState.identity, 0, 0⟩ l t ha hb
  dsimp only at hs
  set l1 := l.takeWhile (before t) with hl1
  have hl : l = l1 ++ it :: rest := by rw [hl1, ← hd, List.takeWhile_append_dropWhile]
  have hsp' := spaced_append (hl ▸ hsp)
  have hz' : z ∈ it :: rest := by
    rw [hl] at hz
    rcases List.mem_append.1 hz with h | h
    · have := mem_takeWhile_before h; unfold HALF at this; omega
    · exact h
  have hle : it.t ≤ z.t := by
    rcases List.mem_cons.1 hz' with rfl | h
    · exact le_refl _
    · have := spaced_le hsp'.2 h; unfold QUANT at this; omega
  have h3 : (Model.new (boundary t (lastZ z0 l1) it) bias R).integrateAll (it :: rest) = none := by
    by_contra hne
    obtain ⟨m', hm'⟩ := Option.ne_none_iff_exists'.1 hne
    have := ((new_integrateAll _ bias R _ m').1 hm').1.1
    have e : (boundary t (lastZ z0 l1) it).t = t := rfl
    rw [e] at this
    unfold QUANT at this; omega
  rw [hs, h3]

/-- Three samples a millisecond apart. -/
noncomputable def three : Model :=
  ⟨⟨0, 0⟩, 0, run ⟨0, 0⟩ 0 ⟨⟨0, 0, 0⟩, IState.identity, 0, 0⟩ [⟨1000000, 0, 0⟩, ⟨2000000, 0, 0⟩]⟩

theorem three_reached : (Model.new ⟨0, 0, 0⟩ ⟨0, 0⟩ 0).integrateAll [⟨1000000, 0, 0⟩, ⟨2000000, 0, 0⟩]
    = some three :=
  (new_integrateAll ⟨0, 0, 0⟩ ⟨0, 0⟩ 0 _ _).2 ⟨⟨by norm_num [QUANT], by norm_num [QUANT], trivial⟩, rfl⟩

/-- The statement: for every split time strictly inside, `split` succeeds, the first part ends where the second
begins, at `t`. -/
def C50_statement : Prop :=
  ∀ (z0 : Sample) (bias : Bias) (R : I6 → ℝ) (l : List Sample) (m : Model) (t : ℤ),
    (Model.new z0 bias R).integrateAll l = some m → z0.t < t → t < (lastZ z0 l).t →
    ∃ first second, m.split t = some (first, second) ∧ first.tf = some t ∧ second.t0 = some t

theorem C50_statement_false : ¬ C50_statement := by
  intro h
  obtain ⟨f, s, hs, -⟩ := h _ _ _ _ three 930000 three_reached (by norm_num) (by norm_num [lastZ])
  rw [C50_abort_violated _ _ _ _ three 930000 three_reached (by norm_num) (by norm_num [lastZ]) ⟨1000000, 0, 0⟩
    (by simp) (by norm_num) (by norm_num)] at hs
  cases hs

/-- **C50** also fails when `split` succeeds: 40 µs after a sample, the first part ends at the sample and the
second starts 40 µs later, so that part of the interval is in neither. -/
theorem C50_gap_violated : ∃ first second, three.split 1040000 = some (first, second) ∧
    first.tf = some 1000000 ∧ second.t0 = some 1040000 := by
  obtain ⟨it, rest, hd, hit, hs⟩ := split_eq ⟨0, 0⟩ 0 ⟨⟨0, 0, 0⟩, IState.identity, 0, 0⟩
    [⟨1000000, 0, 0⟩, ⟨2000000, 0, 0⟩] 1040000 (by norm_num [HALF]) (by norm_num [HALF, lastZ])
  dsimp only at hs
  have b1 : before 1040000 ⟨1000000, 0, 0⟩ = true := by decide
  have b2 : before 1040000 ⟨2000000, 0, 0⟩ = false := by decide
  rw [List.dropWhile_cons, if_pos b1, List.dropWhile_cons, if_neg (by rw [b2]; simp)] at hd
  obtain ⟨rfl, rfl⟩ := List.cons_eq_cons.1 hd
  rw [List.takeWhile_cons, if_pos b1, List.takeWhile_cons, if_neg (by rw [b2]; simp)] at hs
  have hl : lastZ ⟨0, 0, 0⟩ [⟨1000000, 0, 0⟩] = ⟨1000000, 0, 0⟩ := rfl
  rw [hl, (new_integrateAll _ ⟨0, 0⟩ 0 [⟨2000000, 0, 0⟩] _).2 ⟨⟨by norm_num [QUANT, boundary], trivial⟩, rfl⟩] at hs
  dsimp only at hs
  rw [if_neg (by norm_num [HALF])] at hs
  exact ⟨_, _, hs, rfl, rfl⟩

end Verif.Props.Imu
