import Verif.Model.Sim
import Verif.Props.Factor
import Mathlib.Data.List.Chain
import Mathlib.Data.List.ReduceOption

/-!
C59, C60 and C96-C100: the simulator.
-/

namespace Verif.Props.Sim

open Verif.Model.Lie Verif.Model.Imu Verif.Model.Sim Verif.Utc Verif.Lemmas.Lie Verif.Lemmas.LieCurve
  Verif.Props.Quat Verif.Props.DQuat Verif.Props.EkfModels Verif.Props.Factor Matrix

/-! ### Ephemeris replay -/

section replay
variable {E : Type}

theorem replay_cons (q : List (Time × E)) (t : Time) (ts : List Time) : replay q (t :: ts) =
    (sampleEph q t).bind fun r => (replay r.1 ts).bind fun rest => some (r.2 :: rest) := rfl

theorem sample_cons (t0 : Time) (e : E) (q : List (Time × E)) (t : Time) : sampleEph ((t0, e) :: q) t =
    if ge t0 t = true then some (q, some e) else some ((t0, e) :: q, none) := rfl

theorem ge_iff (a b : Time) : ge a b = true ↔ a.sec ≥ b.sec := by
  unfold ge
  split_ifs <;> simp <;> omega

/-- What is handed out is an initial part of the log, in order: nothing twice, nothing skipped. -/
theorem C59_order_partial (ts : List Time) : ∀ (q : List (Time × E)) (out : List (Option E)),
    replay q ts = some out → out.reduceOption <+: q.map Prod.snd := by
  induction ts with
  | nil => intro q out h; cases h; simp [List.reduceOption]
  | cons t ts ih =>
    intro q out h
    rw [replay_cons] at h
    obtain ⟨r, h1, h2⟩ := Option.bind_eq_some_iff.mp h
    obtain ⟨rest, h3, h4⟩ := Option.bind_eq_some_iff.mp h2
    cases h4
    have hr := ih _ _ h3
    cases q with
    | nil => cases h1
    | cons a q =>
      obtain ⟨t0, e⟩ := a
      rw [sample_cons] at h1
      split_ifs at h1 with hg
      · cases h1
        rw [List.reduceOption_cons_of_some, List.map_cons]
        exact List.prefix_cons_inj _ |>.mpr hr
      · cases h1
        rw [List.reduceOption_cons_of_none]
        exact hr

/-- The claim: with the log and the calls in the order of time, nothing is undefined, the ephemerides are handed out in
their order and at most once, none before its time, and each that has enough calls at or after its time is. -/
def C59_statement : Prop := ∀ (q : List (Time × ℕ)) (ts : List Time),
  List.IsChain (fun a b => a.1.sec ≤ b.1.sec) q → List.IsChain (fun a b => a.sec ≤ b.sec) ts →
  ∃ out, replay q ts = some out ∧ out.reduceOption <+: q.map Prod.snd ∧
    (∀ p ∈ q, q.length ≤ (ts.filter fun t => p.1.sec ≤ t.sec).length → some p.2 ∈ out) ∧
    ∀ p ∈ out.zip ts, ∀ e, p.1 = some e → ∃ t0, (t0, e) ∈ q ∧ t0.sec ≤ p.2.sec

/-- An ephemeris is handed out at a time `t` only if it was logged in the second of `t` or later: always too early, and
never once its time has passed. -/
theorem C59_early_violated (t0 t : Time) (e : E) (q : List (Time × E)) :
    sampleEph ((t0, e) :: q) t = some (q, some e) ↔ t.sec ≤ t0.sec := by
  rw [sample_cons]
  constructor
  · intro h
    split_ifs at h with hg
    · exact (ge_iff _ _).mp hg
    · cases h
  · intro h
    rw [if_pos ((ge_iff _ _).mpr h)]

/-- Once the time of the first ephemeris left has passed nothing is handed out any more. -/
theorem C59_blocked_violated (t0 : Time) (e : E) (q : List (Time × E)) (ts : List Time) (h : ∀ t ∈ ts, t0.sec < t.sec) :
    replay ((t0, e) :: q) ts = some (ts.map fun _ => none) := by
  induction ts with
  | nil => rfl
  | cons t ts ih =>
    have ht := h t List.mem_cons_self
    have hs : sampleEph ((t0, e) :: q) t = some ((t0, e) :: q, none) := by
      rw [sample_cons, if_neg]
      intro hg
      have := (ge_iff _ _).mp hg
      omega
    rw [replay_cons, hs]
    simp only [Option.bind_some]
    rw [ih (fun t ht => h t (List.mem_cons_of_mem _ ht))]
    rfl

/-- A receiver system without ephemerides in the log, or all of them handed out: the first element of an empty vector
is read. -/
theorem C59_empty_violated (t : Time) (ts : List Time) : replay ([] : List (Time × E)) (t :: ts) = none := rfl

theorem C59_statement_false : ¬ C59_statement := by
  intro h
  obtain ⟨out, h1, -⟩ := h [] [⟨0, 0⟩] (by simp) (by simp)
  cases h1

/-- A log whose ephemerides are handed out in one go at the start. -/
example : replay [(⟨10, 0⟩, 1), (⟨20, 0⟩, 2), (⟨30, 0⟩, 3)] [⟨10, 0⟩, ⟨11, 0⟩, ⟨12, 0⟩] = some [some 1, some 2, some 3] := by
  decide

end replay

/-! ### Rate limiting -/

theorem samples_cons (rate prev t : ℝ) (ts : List ℝ) : samples rate prev (t :: ts) =
    if t - prev ≥ 1 / rate then t :: samples rate t ts else samples rate prev ts := by
  simp only [samples, rateStep]
  split_ifs <;> simp_all

/-- Two samples are at least a period apart, whatever the calls. -/
theorem C60_spacing (rate : ℝ) (ts : List ℝ) : ∀ prev, List.IsChain (fun a b => 1 / rate ≤ b - a)
    (prev :: samples rate prev ts) := by
  induction ts with
  | nil => intro prev; simp [samples]
  | cons t ts ih =>
    intro prev
    rw [samples_cons]
    split_ifs with h
    · exact List.IsChain.cons_cons h (ih t)
    · exact ih prev

theorem gap_aux (rate h : ℝ) (ts : List ℝ) : ∀ prev c, c - prev < 1 / rate → 0 < 1 / rate →
    List.IsChain (fun a b => b - a ≤ h) (c :: ts) →
    List.IsChain (fun a b => b - a < 1 / rate + h) (prev :: samples rate prev ts) ∧
      (c :: ts).getLast (by simp) - (prev :: samples rate prev ts).getLast (by simp) < 1 / rate := by
  induction ts with
  | nil => intro prev c hc _ _; simpa [samples] using hc
  | cons t ts ih =>
    intro prev c hc hr hch
    rw [List.isChain_cons_cons] at hch
    by_cases hs : t - prev ≥ 1 / rate
    · obtain ⟨h1, h2⟩ := ih t t (by simpa using hr) hr hch.2
      have he : samples rate prev (t :: ts) = t :: samples rate t ts := by rw [samples_cons, if_pos hs]
      simp only [he]
      refine ⟨List.IsChain.cons_cons (by linarith [hch.1]) h1, ?_⟩
      simpa using h2
    · obtain ⟨h1, h2⟩ := ih prev t (by push Not at hs; exact hs) hr hch.2
      have he : samples rate prev (t :: ts) = samples rate prev ts := by rw [samples_cons, if_neg hs]
      simp only [he]
      refine ⟨h1, ?_⟩
      rw [List.getLast_cons (by simp)]
      exact h2

/-- If calls are at most `h` apart, samples are less than a period and `h` apart. -/
theorem C60_gap (rate h prev : ℝ) (ts : List ℝ) (hr : 0 < rate)
    (hch : List.IsChain (fun a b => b - a ≤ h) (prev :: ts)) :
    List.IsChain (fun a b => b - a < 1 / rate + h) (prev :: samples rate prev ts) :=
  (gap_aux rate h ts prev prev (by simpa using hr) (by positivity) hch).1

/-- And the last call is less than a period after the last sample. -/
theorem C60_last (rate h prev : ℝ) (ts : List ℝ) (hr : 0 < rate)
    (hch : List.IsChain (fun a b => b - a ≤ h) (prev :: ts)) :
    (prev :: ts).getLast (by simp) - (prev :: samples rate prev ts).getLast (by simp) < 1 / rate :=
  (gap_aux rate h ts prev prev (by simpa using hr) (by positivity) hch).2

/-- Samples are taken at calls only. -/
theorem C60_sub (rate : ℝ) (ts : List ℝ) : ∀ prev, (samples rate prev ts).Sublist ts := by
  induction ts with
  | nil => intro prev; simp [samples]
  | cons t ts ih =>
    intro prev
    rw [samples_cons]
    split_ifs
    · exact (ih t).cons_cons t
    · exact (ih prev).cons t

/-- Half a second between calls at one sample per second: every second call gives a sample. -/
example : samples 1 0 [0.5, 1, 1.5, 2] = [1, 2] := by
  simp only [samples_cons]
  norm_num [samples]

/-! ### The antenna -/

/-- The simulated velocity of the antenna is the derivative of its simulated position. -/
theorem C96_velocity (Te2n : DQuat) (hT : UnitQ Te2n.r) (j : Jet) (hj : UnitQ j.x.r) (p : V3) :
    HasVecDeriv (fun t => antPos Te2n p (pert j.x j.dx t)) (antVel Te2n p j) := by
  have h1 := (pert_rota j.x hj j.dx (vconst p)).add (pert_trans j.x hj j.dx)
  have h2 := (rota_curve Te2n.r h1).add (vconst Te2n.translation)
  refine h2.congr ?_
  unfold antVel
  rw [rotp_eq, R_mul _ _ (inverse_unit hj) (inverse_unit hT), inverse_R, inverse_R, ← mulVec_mulVec, rota_eq,
    rota_eq, rota_eq, rota_eq, add_zero, mulVec_zero, add_zero, ← mulVec_add]

/-! ### The accelerometer -/

/-- The velocity in the world frame of a body that moves with the jet. -/
noncomputable def worldVel (j : Jet) (t : ℝ) : V3 := (pert j.x j.dx t).r.rota (j.dx.v + t • j.d2x.v)

/-- An accelerometer measures the specific force: the acceleration in the world frame is its reading, turned into that
frame, plus gravity. -/
def Ideal (j : Jet) (f : V3) : Prop := HasVecDeriv (worldVel j) (j.x.r.rota f + GRAVITY)

theorem vd_unique {f : ℝ → V3} {a b : V3} (ha : HasVecDeriv f a) (hb : HasVecDeriv f b) : a = b :=
  funext fun i => (ha i).unique (hb i)

theorem rota_add (q : Quat) (a b : V3) : q.rota (a + b) = q.rota a + q.rota b := by
  rw [rota_eq, rota_eq, rota_eq, mulVec_add]

theorem rota_sub (q : Quat) (a b : V3) : q.rota (a - b) = q.rota a - q.rota b := by
  rw [rota_eq, rota_eq, rota_eq, mulVec_sub]

theorem world_deriv (j : Jet) (hj : UnitQ j.x.r) :
    HasVecDeriv (worldVel j) (j.x.r.rota (cross j.dx.w j.dx.v + j.d2x.v)) := by
  refine (pert_rota j.x hj j.dx (vline j.dx.v j.d2x.v)).congr ?_
  rw [rota_add, zero_smul, add_zero]

/-- The reading of an ideal accelerometer. -/
theorem ideal_iff (j : Jet) (hj : UnitQ j.x.r) (f : V3) :
    Ideal j f ↔ f = cross j.dx.w j.dx.v + j.d2x.v - j.x.r.rotp GRAVITY := by
  have hw := world_deriv j hj
  constructor
  · intro h
    have he := vd_unique h hw
    have h2 : j.x.r.rotp (j.x.r.rota f + GRAVITY) = j.x.r.rotp (j.x.r.rota (cross j.dx.w j.dx.v + j.d2x.v)) := by
      rw [he]
    rw [rotp_rota _ hj, rotp_eq, mulVec_add, ← rotp_eq, ← rotp_eq, rotp_rota _ hj] at h2
    rw [← h2, add_sub_cancel_right]
  · rintro rfl
    refine hw.congr ?_
    rw [rota_sub, rota_rotp _ hj, sub_add_cancel]

/-- The claim. -/
def C97_statement : Prop := ∀ j : Jet, UnitQ j.x.r → Ideal j (imuAccel j)

/-- The simulated accelerometer is ideal exactly when the missing part of the acceleration, the turn of the velocity,
makes up for the wrong direction of gravity. -/
theorem C97_iff_partial (j : Jet) (hj : UnitQ j.x.r) :
    Ideal j (imuAccel j) ↔ cross j.dx.w j.dx.v = j.x.r.rotp GRAVITY - j.x.r.rota GRAVITY := by
  rw [ideal_iff j hj]
  unfold imuAccel
  constructor
  · intro h
    funext i
    have := congrFun h i
    simp only [Pi.sub_apply, Pi.add_apply] at this ⊢
    linarith
  · intro h
    rw [h]
    funext i
    simp only [Pi.sub_apply, Pi.add_apply]
    ring

theorem yaw_gravity (q : Quat) (hx : q.x = 0) (hy : q.y = 0) :
    q.rota GRAVITY = GRAVITY ∧ q.rotp GRAVITY = GRAVITY := by
  constructor
  · rw [rota_eq]
    apply vec_ext <;> comps <;> simp only [GRAVITY, hx, hy] <;> simp
  · rw [rotp_eq]
    apply vec_ext <;> comps <;> simp only [GRAVITY, hx, hy] <;> simp

/-- A level body that does not turn while it moves: the simulated accelerometer is ideal. -/
theorem C97_level_partial (j : Jet) (hj : UnitQ j.x.r) (hx : j.x.r.x = 0) (hy : j.x.r.y = 0)
    (hc : cross j.dx.w j.dx.v = 0) : Ideal j (imuAccel j) := by
  obtain ⟨h1, h2⟩ := yaw_gravity j.x.r hx hy
  rw [C97_iff_partial j hj, hc, h1, h2, sub_self]

/-- A car in a steady turn: the centripetal acceleration is not measured. -/
theorem C97_turn_violated (v w : ℝ) (hv : v ≠ 0) (hw : w ≠ 0) :
    ¬ Ideal ⟨DQuat.identity, ⟨![0, 0, w], ![v, 0, 0]⟩, ⟨0, 0⟩⟩
      (imuAccel ⟨DQuat.identity, ⟨![0, 0, w], ![v, 0, 0]⟩, ⟨0, 0⟩⟩) := by
  have hu : UnitQ DQuat.identity.r := by simp [UnitQ, DQuat.identity, Quat.identity]
  rw [C97_iff_partial _ hu]
  obtain ⟨h1, h2⟩ := yaw_gravity DQuat.identity.r rfl rfl
  simp only [h1, h2, sub_self]
  intro h
  have := congrFun h 1
  simp [cross] at this
  tauto

/-- A body at rest on its side: gravity appears on the wrong end of the axis. -/
theorem C97_tilt_violated : ∃ q : Quat, UnitQ q ∧ ¬ Ideal ⟨⟨q, ⟨0, 0, 0, 0⟩⟩, ⟨0, 0⟩, ⟨0, 0⟩⟩
    (imuAccel ⟨⟨q, ⟨0, 0, 0, 0⟩⟩, ⟨0, 0⟩, ⟨0, 0⟩⟩) := by
  have hu : UnitQ ⟨3 / 5, 4 / 5, 0, 0⟩ := by norm_num [UnitQ]
  refine ⟨⟨3 / 5, 4 / 5, 0, 0⟩, hu, ?_⟩
  rw [C97_iff_partial _ hu]
  intro h
  have := congrFun h 1
  simp only [rotp_eq, rota_eq, Pi.sub_apply] at this
  revert this
  comps
  simp only [GRAVITY]
  simp
  norm_num

theorem C97_statement_false : ¬ C97_statement := fun h =>
  C97_turn_violated 1 1 one_ne_zero one_ne_zero
    (h _ (by simp [UnitQ, DQuat.identity, Quat.identity]))

/-- A level car that drives and brakes on a straight line. -/
example : ∃ j : Jet, UnitQ j.x.r ∧ j.x.r.x = 0 ∧ j.x.r.y = 0 ∧ cross j.dx.w j.dx.v = 0 ∧ j.dx.v ≠ 0 ∧ j.d2x.v ≠ 0 :=
  ⟨⟨⟨⟨3 / 5, 0, 0, 4 / 5⟩, ⟨0, 0, 0, 0⟩⟩, ⟨0, ![5, 0, 0]⟩, ⟨0, ![-2, 0, 0]⟩⟩, by norm_num [UnitQ], rfl, rfl,
    by apply vec_ext <;> simp [cross], fun h => by simpa using congrFun h 0, fun h => by simpa using congrFun h 0⟩

/-! ### The integration of the motion -/

theorem exp_trans (u : V3) : DQuat.exp ⟨0, u⟩ = ⟨⟨1, 0, 0, 0⟩, ⟨0, u 0 / 2, u 1 / 2, u 2 / 2⟩⟩ := by
  have h1 : sqNorm (0 : V3) = 0 := by simp [sqNorm, dot]
  have h2 : dot (0 : V3) u = 0 := by simp [dot]
  unfold DQuat.exp DQuat.expCoeffs
  dsimp only
  rw [h1, h2, if_neg (by norm_num)]
  apply dext <;> ext <;> norm_num <;> ring

theorem shift_r (p : DQuat) (u : V3) : (p.otimes (DQuat.exp ⟨0, u⟩)).r = p.r := by
  rw [exp_trans]
  ext <;> simp [DQuat.otimes, Quat.otimes]

theorem shift_unit {p : DQuat} (hp : UnitD p) (u : V3) : UnitD (p.otimes (DQuat.exp ⟨0, u⟩)) := by
  obtain ⟨h1, h2⟩ := hp
  refine ⟨by rw [shift_r]; exact h1, ?_⟩
  rw [shift_r, exp_trans]
  simp only [DQuat.otimes, Quat.otimes, Quat.add]
  linear_combination h2

theorem shift_trans {p : DQuat} (hp : UnitD p) (u : V3) :
    (p.otimes (DQuat.exp ⟨0, u⟩)).translation = p.r.rota u + p.translation := by
  have hu : UnitD (DQuat.exp ⟨0, u⟩) := by rw [exp_trans]; exact ⟨by norm_num [UnitQ], by norm_num⟩
  have ht : (DQuat.exp ⟨0, u⟩).translation = u := by
    rw [exp_trans]
    apply vec_ext <;> simp only [trans_0, trans_1, trans_2] <;> ring
  rw [trans_mul p _ hp hu, ht]

/-- The state after `n` steps of length `dt` with the acceleration `a`. -/
noncomputable def run (j : Jet) (a : V3) (dt : ℝ) : ℕ → Jet
  | 0 => j
  | n + 1 => plus (run j a dt n) ⟨0, a⟩ dt

theorem run_straight (j : Jet) (hj : UnitD j.x) (hw : j.dx.w = 0) (hw2 : j.d2x.w = 0) (a : V3) (dt : ℝ) (n : ℕ) :
    UnitD (run j a dt n).x ∧ (run j a dt n).x.r = j.x.r ∧ (run j a dt n).dx = ⟨0, j.dx.v + (n * dt) • a⟩ ∧
      (run j a dt n).d2x = ⟨0, if n = 0 then j.d2x.v else a⟩ ∧ (run j a dt n).x.translation = j.x.translation +
        j.x.r.rota ((n * dt) • j.dx.v + ((n * dt) ^ 2 / 2) • a + (if n = 0 then 0 else dt ^ 2 / 2) • (j.d2x.v - a)) := by
  induction n with
  | zero =>
    refine ⟨hj, rfl, ?_, ?_, ?_⟩
    · apply V6.ext
      · exact hw
      · simp [run]
    · apply V6.ext
      · exact hw2
      · simp [run]
    · rw [rota_eq]; simp [run]
  | succ n ih =>
    obtain ⟨h1, h2, h3, h4, h5⟩ := ih
    have he : (run j a dt (n + 1)).x = (run j a dt n).x.otimes (DQuat.exp ⟨0, dt • (j.dx.v + (n * dt) • a) +
        (dt * dt * 0.5) • (if n = 0 then j.d2x.v else a)⟩) := by
      simp only [run, plus, h3, h4, smul_zero, add_zero]
    refine ⟨by rw [he]; exact shift_unit h1 _, by rw [he, shift_r, h2], ?_, ?_, ?_⟩
    · simp only [run, plus, h3, smul_zero, add_zero]
      apply V6.ext
      · rfl
      · apply vec_ext <;> simp only [Pi.add_apply, Pi.smul_apply, smul_eq_mul] <;> push_cast <;> ring
    · simp [run, plus]
    · rw [he, shift_trans h1, h2, h5, add_left_comm, ← rota_add, if_neg (Nat.succ_ne_zero n)]
      congr 2
      cases n with
      | zero =>
        apply vec_ext <;> simp only [Pi.add_apply, Pi.sub_apply, Pi.smul_apply, smul_eq_mul, if_true] <;> push_cast <;> ring
      | succ n =>
        apply vec_ext <;> simp only [Pi.add_apply, Pi.sub_apply, Pi.smul_apply, smul_eq_mul, if_neg (Nat.succ_ne_zero n)] <;>
          push_cast <;> ring

/-- The claim: motion with a constant acceleration on a straight line is integrated exactly, with any step. -/
def C98_statement : Prop := ∀ (j : Jet), UnitD j.x → j.dx.w = 0 → j.d2x.w = 0 → ∀ (a : V3) (dt : ℝ) (n : ℕ),
  (run j a dt n).x.translation = j.x.translation + j.x.r.rota ((n * dt) • j.dx.v + ((n * dt) ^ 2 / 2) • a)

/-- The velocity is exact, the attitude does not change. -/
theorem C98_velocity_partial (j : Jet) (hj : UnitD j.x) (hw : j.dx.w = 0) (hw2 : j.d2x.w = 0) (a : V3) (dt : ℝ) (n : ℕ) :
    (run j a dt n).x.r = j.x.r ∧ (run j a dt n).dx = ⟨0, j.dx.v + (n * dt) • a⟩ :=
  ⟨(run_straight j hj hw hw2 a dt n).2.1, (run_straight j hj hw hw2 a dt n).2.2.1⟩

/-- The position is exact if the acceleration was the same before. -/
theorem C98_position_partial (j : Jet) (hj : UnitD j.x) (hw : j.dx.w = 0) (hw2 : j.d2x.w = 0) (a : V3) (dt : ℝ) (n : ℕ)
    (ha : j.d2x.v = a) :
    (run j a dt n).x.translation = j.x.translation + j.x.r.rota ((n * dt) • j.dx.v + ((n * dt) ^ 2 / 2) • a) := by
  rw [(run_straight j hj hw hw2 a dt n).2.2.2.2, ha, sub_self, smul_zero, add_zero]

/-- The position is advanced with the acceleration of the step before, so that a change of the acceleration leaves
an error of half of the change times the square of the step, that stays for ever. -/
theorem C98_lag_violated (j : Jet) (hj : UnitD j.x) (hw : j.dx.w = 0) (hw2 : j.d2x.w = 0) (a : V3) (dt : ℝ) (n : ℕ)
    (hn : n ≠ 0) :
    (run j a dt n).x.translation = j.x.translation + j.x.r.rota ((n * dt) • j.dx.v + ((n * dt) ^ 2 / 2) • a) -
      j.x.r.rota ((dt ^ 2 / 2) • (a - j.d2x.v)) := by
  rw [(run_straight j hj hw hw2 a dt n).2.2.2.2, if_neg hn, add_sub_assoc, ← rota_sub]
  congr 2
  rw [← neg_sub a, smul_neg, ← sub_eq_add_neg]

theorem C98_statement_false : ¬ C98_statement := by
  intro h
  have hu : UnitD DQuat.identity := by simp [UnitD, UnitQ, DQuat.identity, Quat.identity]
  have h1 := h ⟨DQuat.identity, ⟨0, 0⟩, ⟨0, 0⟩⟩ hu rfl rfl ![2, 0, 0] 1 1
  rw [C98_lag_violated _ hu rfl rfl _ _ _ one_ne_zero, sub_eq_self] at h1
  have := congrFun h1 0
  rw [rota_eq] at this
  revert this
  comps
  simp [DQuat.identity, Quat.identity]

/-! ### Following waypoints -/

theorem lagrange (e f : V3) : dot e f ^ 2 + cross e f 2 ^ 2 ≤ dot e e * dot f f := by
  have : dot e e * dot f f = dot e f ^ 2 + cross e f 0 ^ 2 + cross e f 1 ^ 2 + cross e f 2 ^ 2 := by
    simp only [dot, cross]
    comps
    ring
  nlinarith [sq_nonneg (cross e f 0), sq_nonneg (cross e f 1)]

/-- The commanded turning rate is in its bound and the commanded speed is between zero and its bound, or 1 if that
is more. -/
theorem C99_bounds_partial (ms mo : ℝ) (hs : 0 ≤ ms) (ho : 0 ≤ mo) (e f : V3) (he : dot e e ≤ 1) (hf : dot f f = 1) :
    0 ≤ (command ms mo e f).1 ∧ (command ms mo e f).1 ≤ max 1 ms ∧ |(command ms mo e f).2| ≤ mo := by
  have hl := lagrange e f
  rw [hf, mul_one] at hl
  have hd : dot e f ^ 2 ≤ 1 := by nlinarith [sq_nonneg (cross e f 2)]
  have hx : |cross e f 2| ≤ 1 := by
    rw [← sq_le_one_iff_abs_le_one]
    nlinarith [sq_nonneg (dot e f)]
  have h8 : dot e f ^ 8 = (dot e f ^ 2) ^ 4 := by ring
  have h8' : 0 ≤ dot e f ^ 8 ∧ dot e f ^ 8 ≤ 1 := by
    rw [h8]
    exact ⟨by positivity, pow_le_one₀ (sq_nonneg _) hd⟩
  have hw : |-mo * cross e f 2| ≤ mo := by
    rw [abs_mul, abs_neg, abs_of_nonneg ho]
    nlinarith
  unfold command
  dsimp only
  split_ifs
  · exact ⟨zero_le_one, le_max_left _ _, hw⟩
  · exact ⟨mul_nonneg hs h8'.1, le_trans (by nlinarith [h8'.1, h8'.2]) (le_max_right _ _), hw⟩

/-- The commanded turn brings the forward direction closer to the target, unless the target is exactly ahead or
exactly behind. -/
theorem C99_turn_partial (ms mo : ℝ) (ho : 0 < mo) (e f : V3) :
    0 ≤ dot e (cross ![0, 0, (command ms mo e f).2] f) ∧
      (cross e f 2 ≠ 0 → 0 < dot e (cross ![0, 0, (command ms mo e f).2] f)) := by
  have h : (command ms mo e f).2 = -mo * cross e f 2 := by
    unfold command
    dsimp only
    split_ifs <;> rfl
  have h2 : dot e (cross ![0, 0, (command ms mo e f).2] f) = mo * cross e f 2 ^ 2 := by
    rw [h]
    simp only [dot, cross]
    comps
    simp
    ring
  rw [h2]
  exact ⟨by positivity, fun hx => by positivity⟩

/-- The claim: from every pose away from the target the command does not lead away from it on a straight line. -/
def C99_statement : Prop := ∀ (w : List V3) (i : ℕ) (x : DQuat), w ≠ [] → UnitD x →
  0.5 ≤ vnorm (w.getD (i % w.length) 0 - x.translation) →
  (follow w 0.5 10 1 i x).2.2 = 0 → 0 ≤ dot (w.getD (i % w.length) 0 - x.translation) (x.r.rota ![1, 0, 0])

/-- A car that has the waypoint exactly behind drives away from it at full speed, for as long as it likes. -/
theorem C99_behind_violated (s ms mo : ℝ) (hs : 0.5 ≤ s) :
    follow [0] 0.5 ms mo 0 ⟨⟨1, 0, 0, 0⟩, ⟨0, s / 2, 0, 0⟩⟩ = (0, (ms, 0)) := by
  have ht : DQuat.translation ⟨⟨1, 0, 0, 0⟩, ⟨0, s / 2, 0, 0⟩⟩ = ![s, 0, 0] := by
    apply vec_ext <;> simp only [trans_0, trans_1, trans_2] <;> simp <;> ring
  have hr : Quat.rota ⟨1, 0, 0, 0⟩ ![1, 0, 0] = ![1, 0, 0] := by
    rw [rota_eq]
    apply vec_ext <;> comps <;> simp
  have hp : (0 : ℝ) < s := lt_of_lt_of_le (by norm_num) hs
  have he : (0 : V3) - ![s, 0, 0] = ![-s, 0, 0] := by apply vec_ext <;> simp
  have hn : vnorm ![-s, 0, 0] = s := by
    unfold vnorm
    have : sqNorm ![-s, 0, 0] = s ^ 2 := by simp [sqNorm, dot]; ring
    rw [this, Real.sqrt_sq hp.le]
  have hnl : ¬ s < 0.5 := not_lt.mpr hs
  have hd : s⁻¹ • (![-s, 0, 0] : V3) = ![-1, 0, 0] := by
    apply vec_ext <;> simp [hp.ne']
  have hc : command ms mo ![-1, 0, 0] ![1, 0, 0] = (ms, 0) := by
    have h1 : cross ![-1, 0, 0] ![1, 0, 0] 2 = 0 := by simp [cross]
    have h2 : dot ![-1, 0, 0] ![1, 0, 0] = -1 := by simp [dot]
    unfold command
    dsimp only
    rw [h1, h2, abs_zero, if_neg]
    · norm_num
    · push Not
      exact Real.arcsin_nonneg.mpr (by positivity)
  unfold follow
  simp only [List.length_singleton, Nat.zero_mod, List.getD_cons_zero, ht, he, hn, if_neg hnl, hr, hd, hc]

theorem C99_statement_false : ¬ C99_statement := by
  intro h
  have ht : DQuat.translation ⟨⟨1, 0, 0, 0⟩, ⟨0, 1 / 2, 0, 0⟩⟩ = ![1, 0, 0] := by
    apply vec_ext <;> simp only [trans_0, trans_1, trans_2] <;> simp <;> ring
  have hr : Quat.rota ⟨1, 0, 0, 0⟩ ![1, 0, 0] = ![1, 0, 0] := by
    rw [rota_eq]
    apply vec_ext <;> comps <;> simp
  have h1 := h [0] 0 ⟨⟨1, 0, 0, 0⟩, ⟨0, 1 / 2, 0, 0⟩⟩ (by simp) ⟨by norm_num [UnitQ], by norm_num⟩
    (by
      simp only [List.length_singleton, Nat.zero_mod, List.getD_cons_zero, ht, vnorm]
      have : sqNorm (0 - ![1, 0, 0]) = 1 := by simp [sqNorm, dot]
      rw [this]
      norm_num)
    (by rw [C99_behind_violated 1 10 1 (by norm_num)])
  simp only [List.length_singleton, Nat.zero_mod, List.getD_cons_zero, ht, hr] at h1
  norm_num [dot, v3_2] at h1

/-- A target ahead to the left, seen from a level pose. -/
example : dot ![3 / 5, 4 / 5, 0] ![3 / 5, 4 / 5, 0] ≤ (1 : ℝ) ∧ dot ![1, 0, 0] ![1, 0, 0] = (1 : ℝ) ∧
    cross ![3 / 5, 4 / 5, 0] ![1, 0, 0] 2 ≠ (0 : ℝ) := by
  refine ⟨?_, ?_, ?_⟩ <;> norm_num [dot, cross, v3_2]

/-! ### The controller of the car -/

/-- The claim: the torques the controller computes give the accelerations it asks for, for every car. -/
def C100_statement : Prop := ∀ (o : Car), 0 < o.mass → 0 < o.inertia 2 → 0 < o.wheelRadius → 0 < o.axleWidth →
  ∀ acc alp : ℝ, (accel o (invert o acc alp).1 (invert o acc alp).2).v 0 = acc ∧
    (accel o (invert o acc alp).1 (invert o acc alp).2).w 2 = alp

/-- What they give: the forward acceleration over the mass and half of the turning acceleration over the inertia, and
nothing on the other axes. -/
theorem C100_gives_violated (o : Car) (hr : o.wheelRadius ≠ 0) (ha : o.axleWidth ≠ 0) (acc alp : ℝ) :
    accel o (invert o acc alp).1 (invert o acc alp).2 =
      { v := ![acc / o.mass, 0, 0], w := ![0, 0, alp / (2 * o.inertia 2)] } := by
  unfold accel invert wrench
  apply V6.ext
  · apply vec_ext
    · simp [cross]
    · simp [cross]
    · simp only [Pi.add_apply, cross, v3_2, Matrix.cons_val_zero, Matrix.cons_val_one]
      field_simp
      ring
  · apply vec_ext
    · simp only [Pi.add_apply, Matrix.cons_val_zero]
      field_simp
      ring
    · simp
    · simp [v3_2]

/-- The forward acceleration is right for a car of unit mass, the default. -/
theorem C100_forward_partial (o : Car) (hm : o.mass = 1) (hr : o.wheelRadius ≠ 0) (ha : o.axleWidth ≠ 0) (acc alp : ℝ) :
    (accel o (invert o acc alp).1 (invert o acc alp).2).v 0 = acc := by
  rw [C100_gives_violated o hr ha, hm]
  simp

/-- The turning acceleration is right only for half the default inertia. -/
theorem C100_turn_iff_partial (o : Car) (hr : o.wheelRadius ≠ 0) (ha : o.axleWidth ≠ 0) (hi : o.inertia 2 ≠ 0)
    (acc alp : ℝ) (hz : alp ≠ 0) :
    (accel o (invert o acc alp).1 (invert o acc alp).2).w 2 = alp ↔ o.inertia 2 = 1 / 2 := by
  rw [C100_gives_violated o hr ha]
  simp only [Matrix.cons_val]
  rw [div_eq_iff (by simpa using hi)]
  constructor
  · intro h
    have : alp * (2 * o.inertia 2 - 1) = 0 := by linear_combination -h
    rcases mul_eq_zero.mp this with h | h
    · exact absurd h hz
    · linarith
  · intro h
    rw [h]
    ring

/-- The car with the default options (car.h 21-23, dynamics.h 17-18). -/
noncomputable def dflt : Car := ⟨1, ![1, 1, 1], 0.1, 1.3, 2⟩

theorem C100_statement_false : ¬ C100_statement := by
  intro h
  have h1 := (h dflt (by norm_num [dflt, v3_2]) (by norm_num [dflt, v3_2]) (by norm_num [dflt, v3_2]) (by norm_num [dflt, v3_2]) 0 1).2
  rw [C100_turn_iff_partial dflt (by norm_num [dflt, v3_2]) (by norm_num [dflt, v3_2]) (by norm_num [dflt, v3_2]) 0 1 one_ne_zero] at h1
  norm_num [dflt, v3_2] at h1

/-- `Sim::step` passes the controllers a time step of zero, so that each is a saturated proportional controller
whatever its other gains, and its state never holds a rate. -/
theorem C100_proportional_violated (o : Verif.Utils.PidOpt ℝ) (s : Verif.Utils.Pid ℝ) (t x xc : ℝ) (hm : 0 ≤ o.max) :
    Verif.Utils.pidRun o 0.0001 s (controlDt t) x xc false =
      ({ s with prevX := x }, max (-o.max) (min o.max ((xc - x) * o.kp))) := by
  have hdt : ¬ ((0.0001 : ℝ) < 0) := by norm_num
  simp only [Verif.Utils.pidRun, Verif.Utils.pidRun5, controlDt, sub_self, gt_iff_lt, hdt, if_false, mul_zero, ite_self,
    Bool.false_eq_true, and_false, sub_zero, add_zero, abs_zero]
  generalize (xc - x) * o.kp = u
  refine Prod.ext ?_ ?_
  · simp only [lt_irrefl, false_and, and_false, if_false]
  · dsimp only
    split_ifs with h1 h2
    · rw [min_eq_left h1.le, max_eq_right (by linarith)]
    · rw [min_eq_right (by linarith), max_eq_left (by linarith)]; ring
    · rw [min_eq_right (by linarith), max_eq_right (by linarith)]

end Verif.Props.Sim
