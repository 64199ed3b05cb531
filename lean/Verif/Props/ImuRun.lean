import Verif.Props.ImuJac
import Verif.Props.Ekf

/-!
C81-C84: covariance and linearisation of the preintegration, its accuracy, its derivative with respect to the bias,
and how it composes.
-/

namespace Verif.Props.ImuRun

open Verif.Model.Lie Verif.Model.Imu Verif.Lemmas.Lie Verif.Lemmas.LieDeriv Verif.Lemmas.LieCurve
  Verif.Props.Quat Verif.Props.DQuat Verif.Props.So3 Verif.Props.LieJac Verif.Props.Se3Jac Verif.Props.EkfModels
  Verif.Props.LogDeriv Verif.Props.Imu Verif.Props.ImuJac Matrix

/-! ### C84: composition -/

/-- The state after `s` followed, for a time `T`, by the motion `r` seen from `s`. -/
def comp (s : IState) (T : ℝ) (r : IState) : IState :=
  ⟨s.alpha + T • s.beta + s.gamma.rota r.alpha, s.beta + s.gamma.rota r.beta, s.gamma.otimes r.gamma⟩

theorem rota_add' (q : Quat) (u v : V3) : q.rota (u + v) = q.rota u + q.rota v := by
  rw [rota_eq, rota_eq, rota_eq, mulVec_add]
theorem rota_smul' (q : Quat) (c : ℝ) (v : V3) : q.rota (c • v) = c • q.rota v := by
  rw [rota_eq, rota_eq, mulVec_smul]
theorem rotp_add' (q : Quat) (u v : V3) : q.rotp (u + v) = q.rotp u + q.rotp v := by
  rw [rotp_eq, rotp_eq, rotp_eq, mulVec_add]
theorem rotp_smul' (q : Quat) (c : ℝ) (v : V3) : q.rotp (c • v) = c • q.rotp v := by
  rw [rotp_eq, rotp_eq, mulVec_smul]

theorem comp_step (s r : IState) (T dt : ℝ) (b : Bias) (a w : V3) (hs : UnitQ s.gamma) (hr : UnitQ r.gamma) :
    (comp s T r).plus ((dynamics b (comp s T r) a w).scale dt)
      = comp s (T + dt) (r.plus ((dynamics b r a w).scale dt)) := by
  unfold IState.plus comp dynamics IErr.scale
  dsimp only
  rw [(C43_R_mul s.gamma r.gamma hs hr _).2.2, rota_add', rota_add', rota_smul', rota_smul', otimes_assoc]
  congr 1
  · rw [smul_add, add_smul]; abel
  · abel

theorem step_unit (bias : Bias) (R : I6 → ℝ) (h : History) (z : Sample) (hu : UnitQ h.state.gamma) :
    UnitQ (step bias R h z).state.gamma := otimes_unit hu (Verif.Props.Quat.C45_exp_unit _).1

theorem final_unit (bias : Bias) (R : I6 → ℝ) (h : History) (l : List Sample) (hu : UnitQ h.state.gamma) :
    UnitQ (final bias R h l).state.gamma := by
  induction l generalizing h with
  | nil => exact hu
  | cons z l ih => exact ih _ (step_unit bias R h z hu)

theorem toSec_add (a b : ℤ) : toSec (a + b) = toSec a + toSec b := by
  unfold toSec; push_cast; ring

/-- Two runs through the same samples: if the states at the start differ by a motion, so do those at the end. -/
theorem final_comp (bias : Bias) (R R' : I6 → ℝ) (h k : History) (l : List Sample) (s : IState) (T : ℝ)
    (hs : UnitQ s.gamma) (hk : UnitQ k.state.gamma) (hz : h.z = k.z) (hh : h.state = comp s T k.state) :
    (final bias R h l).state =
      comp s (T + toSec ((final bias R' k l).z.t - k.z.t)) (final bias R' k l).state := by
  induction l generalizing h k T with
  | nil =>
    show h.state = comp s (T + toSec (k.z.t - k.z.t)) k.state
    rw [sub_self, hh, show toSec 0 = 0 by unfold toSec; simp, add_zero]
  | cons z l ih =>
    have h1 : (step bias R h z).state = comp s (T + toSec (z.t - k.z.t)) (step bias R' k z).state := by
      unfold step
      dsimp only
      rw [hh, hz]
      exact comp_step s k.state T _ bias _ _ hs hk
    have := ih (step bias R h z) (step bias R' k z) (T + toSec (z.t - k.z.t)) (step_unit _ _ _ _ hk) rfl h1
    show (final bias R (step bias R h z) l).state = comp s (T + toSec ((final bias R' (step bias R' k z) l).z.t
      - k.z.t)) (final bias R' (step bias R' k z) l).state
    rw [this, step_z, add_assoc, ← toSec_add]
    congr 3
    ring

theorem comp_id (s : IState) : comp s 0 IState.identity = s := by
  unfold comp IState.identity
  have h0 : s.gamma.rota 0 = 0 := by rw [rota_eq, mulVec_zero]
  dsimp only
  rw [h0, zero_smul, add_zero, add_zero, add_zero, otimes_id]

theorem boundary_exact (a b : Sample) (h : a.t < b.t) : boundary a.t a b = a := by
  have h0 : toSec (a.t - a.t) = 0 := by rw [sub_self]; unfold toSec; simp
  unfold boundary
  dsimp only
  rw [h0, zero_div, zero_smul, zero_smul, sub_zero, one_smul, one_smul, zero_add, zero_add]

theorem pre_run (bias : Bias) (R : I6 → ℝ) (h : History) (l : List Sample) :
    (⟨bias, R, run bias R h l⟩ : Model).pre =
      some ⟨h.z.t, (final bias R h l).z.t, (final bias R h l).state, (final bias R h l).dbias⟩ := by
  unfold Model.pre
  dsimp only
  rw [run_head, run_last]

theorem spaced_pair {t : ℤ} {l : List Sample} {a b : Sample} {r : List Sample} (h : Spaced t (l ++ a :: b :: r)) :
    a.t + QUANT ≤ b.t := spaced_le (spaced_append h).2 (List.mem_cons_self ..)

/-- The parts of a split at an inner sample `a`: they cover the interval, meet at `a`, and the state of the whole
is that of the first followed by that of the second. -/
theorem C84_split (z0 a c : Sample) (bias : Bias) (R : I6 → ℝ) (l r : List Sample) (m : Model)
    (hm : (Model.new z0 bias R).integrateAll (l ++ a :: c :: r) = some m) :
    ∃ (first second : Model) (p p1 p2 : Pre), m.split a.t = some (first, second) ∧ m.pre = some p ∧
      first.pre = some p1 ∧ second.pre = some p2 ∧ p1.t0 = p.t0 ∧ p1.tf = a.t ∧ p2.t0 = a.t ∧ p2.tf = p.tf ∧
      p.t0 < a.t ∧ a.t < p.tf ∧ UnitQ p1.state.gamma ∧ UnitQ p2.state.gamma ∧
      p.state = comp p1.state p2.dt p2.state := by
  obtain ⟨hsp, rfl⟩ := (new_integrateAll z0 bias R _ m).1 hm
  set h0 : History := ⟨z0, IState.identity, 0, 0⟩ with hh0
  have hac : a.t + QUANT ≤ c.t := spaced_pair hsp
  have hza : z0.t + QUANT ≤ a.t := spaced_le hsp (by simp)
  have hsp2 : Spaced a.t (c :: r) := (spaced_append hsp).2
  have hlast : a.t + QUANT ≤ (lastZ z0 (l ++ a :: c :: r)).t := by
    have : lastZ z0 (l ++ a :: c :: r) = lastZ a (c :: r) := by
      unfold lastZ
      rw [List.getLast_cons (by simp), List.getLast_append_of_right_ne_nil _ _ (by simp)]
    rw [this]
    rcases List.mem_cons.1 (lastZ_mem a (c :: r)) with e | e
    · exfalso
      have h1 : lastZ a (c :: r) ∈ c :: r := by
        unfold lastZ
        rw [List.getLast_cons (by simp)]
        exact List.getLast_mem _
      rw [e] at h1
      have := spaced_le hsp2 h1
      unfold QUANT at this; omega
    · exact spaced_le hsp2 e
  obtain ⟨it, rest, hd, hit, hs⟩ := split_eq bias R h0 (l ++ a :: c :: r) a.t
    (by unfold HALF; unfold QUANT at hza; show a.t - z0.t > _; omega)
    (by unfold HALF; unfold QUANT at hlast; show (lastZ z0 _).t - a.t > _; omega)
  have hbefore : ∀ (l : List Sample) (t : ℤ), Spaced t (l ++ a :: c :: r) → (∀ z ∈ l, before a.t z = true) := by
    intro l
    induction l with
    | nil => intro t _ z hz; cases hz
    | cons y l ih =>
      intro t h z hz
      rcases List.mem_cons.1 hz with rfl | hz
      · have := spaced_le h.2 (z := a) (by simp)
        unfold before; rw [decide_eq_true_eq]; unfold HALF QUANT at *; omega
      · exact ih _ h.2 z hz
  have hba : before a.t a = true := by unfold before HALF; rw [decide_eq_true_eq]; omega
  have hbc : before a.t c = false := by
    unfold before; rw [decide_eq_false_iff_not]; unfold HALF QUANT at *; omega
  have htake : (l ++ a :: c :: r).takeWhile (before a.t) = l ++ [a] := by
    rw [List.takeWhile_append_of_pos (hbefore l _ hsp), List.takeWhile_cons, if_pos hba, List.takeWhile_cons,
      if_neg (by rw [hbc]; simp)]
  have hdrop : (l ++ a :: c :: r).dropWhile (before a.t) = c :: r := by
    rw [List.dropWhile_append_of_pos (hbefore l _ hsp), List.dropWhile_cons, if_pos hba, List.dropWhile_cons,
      if_neg (by rw [hbc]; simp)]
  rw [hdrop] at hd
  obtain ⟨rfl, rfl⟩ := List.cons_eq_cons.1 hd
  have hl1 : lastZ z0 (l ++ [a]) = a := by
    unfold lastZ
    rw [List.getLast_cons (by simp), List.getLast_append_of_right_ne_nil _ _ (by simp)]; rfl
  dsimp only at hs
  rw [htake, show h0.z = z0 from rfl, hl1, boundary_exact a c (by unfold QUANT at hac; omega),
    (new_integrateAll a bias R (c :: r) _).2 ⟨hsp2, rfl⟩] at hs
  dsimp only at hs
  rw [if_neg (by rw [sub_self, abs_zero]; unfold HALF; omega)] at hs
  set k0 : History := ⟨a, IState.identity, 0, 0⟩ with hk0
  have hz1 : (final bias R h0 (l ++ [a])).z = a := by
    rw [final_z]; exact hl1
  have hz2 : (final bias R h0 (l ++ a :: c :: r)).z = (final bias R k0 (c :: r)).z := by
    rw [final_z, final_z]
    rw [List.getLast_cons (by simp), List.getLast_append_of_right_ne_nil _ _ (by simp)]
  have hfin : final bias R h0 (l ++ a :: c :: r) = final bias R (final bias R h0 (l ++ [a])) (c :: r) := by
    unfold final
    rw [← List.foldl_append, List.append_assoc]; rfl
  have hu1 : UnitQ (final bias R h0 (l ++ [a])).state.gamma := final_unit _ _ _ _ id_unit
  refine ⟨_, _, _, _, _, hs, pre_run .., pre_run .., pre_run .., rfl, ?_, rfl, ?_, ?_, ?_, hu1,
    final_unit _ _ _ _ id_unit, ?_⟩
  · rw [hz1]
  · dsimp only; rw [hz2]
  · show z0.t < a.t; unfold QUANT at hza; omega
  · show a.t < (final bias R h0 (l ++ a :: c :: r)).z.t
    have : (final bias R h0 (l ++ a :: c :: r)).z = lastZ z0 (l ++ a :: c :: r) := final_z ..
    rw [this]; unfold QUANT at hlast; omega
  · have hc := final_comp bias R R (final bias R h0 (l ++ [a])) k0 (c :: r) (final bias R h0 (l ++ [a])).state 0 hu1
      id_unit hz1 (comp_id _).symm
    rw [zero_add] at hc
    dsimp only
    rw [hfin]
    exact hc

/-- **C84**: predicting through the two halves gives what the whole predicts, for every start. -/
theorem comp_endState (p p1 p2 : Pre) (start : DQuat) (v : V3) (hs : UnitQ start.r) (h1 : UnitQ p1.state.gamma)
    (h2 : UnitQ p2.state.gamma) (ht0 : p1.t0 = p.t0) (ht : p1.tf = p2.t0) (htf : p2.tf = p.tf) (hl1 : p1.t0 < p1.tf)
    (hl2 : p2.t0 < p2.tf) (hc : p.state = comp p1.state p2.dt p2.state) :
    ∃ (e1 : DQuat) (v1 : V3) (e : DQuat) (v' : V3), p1.computeEndState start v = some (e1, v1, true) ∧
      p2.computeEndState e1 v1 = some (e, v', true) ∧ p.computeEndState start v = some (e, v', true) := by
  have hr1 : UnitQ (start.r.otimes p1.state.gamma) := otimes_unit hs h1
  have hg : UnitQ p.state.gamma := by rw [hc]; exact otimes_unit h1 h2
  refine ⟨_, _, _, _, endState_eq p1 start v h1 hs hl1, endState_eq p2 _ _ h2 hr1 hl2, ?_⟩
  rw [endState_eq p start v hg hs (by omega)]
  have hdt : p.dt = p1.dt + p2.dt := by
    unfold Pre.dt
    rw [← toSec_add]
    congr 1; omega
  rw [ofQT_translation hr1]
  have er : (pose (start.r.otimes p1.state.gamma) (start.translation + start.r.rota (p1.dt • v + p1.state.alpha)
      + (0.5 * p1.dt * p1.dt) • GRAVITY)).r = start.r.otimes p1.state.gamma := rfl
  rw [er, hc, hdt]
  unfold comp
  dsimp only
  have hgr : start.r.rota (start.r.rotp GRAVITY) = GRAVITY := rota_rotp _ hs _
  congr 2
  · rw [otimes_assoc]
    congr 1
    rw [(C43_R_mul start.r p1.state.gamma hs h1 _).2.2, rota_add' p1.state.gamma, rota_smul' p1.state.gamma,
      rota_rotp _ h1]
    simp only [rota_add', rota_smul', smul_add, add_smul, hgr]
    rw [show (0.5 * (p1.dt + p2.dt) * (p1.dt + p2.dt)) = 0.5 * p1.dt * p1.dt + p2.dt * p1.dt + 0.5 * p2.dt * p2.dt by ring,
      add_smul, add_smul, smul_smul]
    abel
  · congr 1
    rw [(C43_R_mul p1.state.gamma p2.state.gamma h1 h2 _).2.1, (C43_R_mul start.r p1.state.gamma hs h1 _).2.1]
    congr 1
    simp only [rotp_add', rotp_smul', add_smul, rotp_rota _ h1]
    abel

/-- **C84**: a model split at one of its samples predicts, through its halves, what the whole predicts. -/
theorem C84_end_state (z0 a c : Sample) (bias : Bias) (R : I6 → ℝ) (l r : List Sample) (m : Model)
    (hm : (Model.new z0 bias R).integrateAll (l ++ a :: c :: r) = some m) (start : DQuat) (v : V3)
    (hs : UnitQ start.r) :
    ∃ (first second : Model) (p p1 p2 : Pre) (e1 : DQuat) (v1 : V3) (e : DQuat) (v' : V3),
      m.split a.t = some (first, second) ∧ m.pre = some p ∧ first.pre = some p1 ∧ second.pre = some p2 ∧
      p1.computeEndState start v = some (e1, v1, true) ∧ p2.computeEndState e1 v1 = some (e, v', true) ∧
      p.computeEndState start v = some (e, v', true) := by
  obtain ⟨first, second, p, p1, p2, h, hp, hp1, hp2, t1, t2, t3, t4, t5, t6, u1, u2, hc⟩ :=
    C84_split z0 a c bias R l r m hm
  obtain ⟨e1, v1, e, v', k1, k2, k3⟩ := comp_endState p p1 p2 start v hs u1 u2 t1 (t2.trans t3.symm) t4
    (by omega) (by omega) hc
  exact ⟨first, second, p, p1, p2, e1, v1, e, v', h, hp, hp1, hp2, k1, k2, k3⟩

/-- Three turning samples meet the hypothesis. -/
example : ∃ m, (Model.new ⟨0, ![0, 0, 1], ![1, 0, 0]⟩ ⟨0, 0⟩ 0).integrateAll
    ([] ++ ⟨1000000, ![1, 0, 0], ![0, 1, 0]⟩ :: ⟨2000000, ![0, 2, 0], ![0, 0, 1]⟩ :: []) = some m := by
  refine ⟨_, (new_integrateAll _ ⟨0, 0⟩ 0 _ _).2 ⟨?_, rfl⟩⟩
  show _ ∧ _ ∧ True
  norm_num [QUANT]

end Verif.Props.ImuRun
