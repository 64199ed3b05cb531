import Verif.Model.ImuState
import Verif.Props.EkfState

/-!
C127: states of the preintegration and their differences.
-/

namespace Verif.Props.ImuState

open Verif.Model.Imu Verif.Model.Lie Verif.Spec.Lie Verif.Lemmas.Lie Verif.Props.Quat Verif.Props.EkfState

/-- Two differences are close: equal in position and velocity, in rotation up to a relative error of 3e-8. -/
def Close (e d : IErr) : Prop := e.alpha = d.alpha ∧ e.beta = d.beta ∧ vnorm (e.gamma - d.gamma) ≤ 3e-8 * vnorm d.gamma

/-- The difference of nothing. -/
def none9 : IErr := ⟨0, 0, 0⟩

/-- **C127, adding.**  Both additions of a difference to a state with a unit quaternion give the same state, with a
unit quaternion; adding nothing gives the state itself. -/
theorem C127_plus (x : IState) (d : IErr) (hx : UnitQ x.gamma) :
    x.plusAssign d = x.plus d ∧ UnitQ (x.plus d).gamma ∧ x.plus none9 = x ∧
      (x.plus d).alpha - x.alpha = d.alpha ∧ (x.plus d).beta - x.beta = d.beta := by
  refine ⟨rfl, (C43_group _ _ x.gamma hx (C45_exp_unit d.gamma).1).1, ?_, add_sub_cancel_left _ _, add_sub_cancel_left _ _⟩
  unfold IState.plus none9
  rw [add_zero, add_zero, (C45_exp_unit 0).2.2]
  have : x.gamma.otimes Quat.identity = x.gamma := by ext <;> simp [Quat.otimes, Quat.identity]
  rw [this]

/-- **C127, there and back.**  What was added to a state is the difference to the state before, if the rotation added is
at most 3.14 radians. -/
theorem C127_round (x : IState) (d : IErr) (hx : UnitQ x.gamma) (hd : vnorm d.gamma ≤ 3.14) :
    Close ((x.plus d).minus x) d :=
  ⟨add_sub_cancel_left _ _, add_sub_cancel_left _ _, quat_round x.gamma d.gamma hx hd⟩

/-- **C127, a state minus itself** is nothing. -/
theorem C127_self (x : IState) (hx : UnitQ x.gamma) : x.minus x = none9 := by
  obtain ⟨h1, h2, h3⟩ := C127_round x none9 hx (by unfold none9; rw [vnorm_zero]; norm_num)
  rw [(C127_plus x none9 hx).2.2.1] at h1 h2 h3
  have h4 := vn0 _ h3
  cases hm : x.minus x with
  | mk a b g =>
    rw [hm] at h1 h2 h4
    simp only [none9] at *
    rw [h1, h2, h4]

/-- **C127, from one state to the other (part).**  Adding the difference of two states to the second gives the first, if the
rotation between them is above the threshold of the logarithm. -/
theorem C127_back_partial (x y : IState) (hx : UnitQ x.gamma) (hy : UnitQ y.gamma)
    (h : 4e-6 < vnorm (y.gamma.inverse.otimes x.gamma).bar) : y.plus (x.minus y) = x := by
  obtain ⟨e, h1, h2⟩ := apart_el .quat x.gamma y.gamma hx hy h
  have h1' : Quat.log (Quat.otimes (Quat.inverse y.gamma) x.gamma) = e := Option.some.inj h1
  subst h1'
  unfold IState.plus IState.minus
  dsimp only
  rw [add_sub_cancel, add_sub_cancel]
  have h3 : y.gamma.otimes (Quat.exp (y.gamma.inverse.otimes x.gamma).log) = x.gamma := h2
  rw [h3]

/-- The property without the hypothesis. -/
def C127_back_statement : Prop := ∀ x y : IState, UnitQ x.gamma → UnitQ y.gamma → y.plus (x.minus y) = x

/-- The quaternion of the same rotation with the other sign. -/
def opposite (q : Quat) : Quat := ⟨-q.w, -q.x, -q.y, -q.z⟩

theorem opposite_log (q : Quat) (hq : UnitQ q) : (q.inverse.otimes (opposite q)).log = 0 := by
  have e : q.inverse.otimes (opposite q) = ⟨-1, 0, 0, 0⟩ := by
    simp only [UnitQ] at hq
    ext <;> simp only [Quat.otimes, Quat.inverse, opposite] <;> linarith
  rw [e]
  have hz : Quat.bar ⟨-1, 0, 0, 0⟩ = 0 := by apply vec_ext <;> rfl
  unfold Quat.log
  simp only [hz, vnorm_zero, gt_iff_lt]
  split_ifs <;> simp

/-- **C127, the other sign.**  Two states whose quaternions are the same rotation with opposite signs have no difference in
rotation; the sum keeps the sign of the second. -/
theorem C127_back_violated (x : IState) (hx : UnitQ x.gamma) :
    let y : IState := ⟨x.alpha, x.beta, opposite x.gamma⟩
    UnitQ y.gamma ∧ (∀ v, y.gamma.rota v = x.gamma.rota v) ∧ y.minus x = none9 ∧ x.plus (y.minus x) = x ∧ x ≠ y := by
  intro y
  have hm : y.minus x = none9 := by
    change IErr.mk (x.alpha - x.alpha) (x.beta - x.beta) ((x.gamma.inverse.otimes (opposite x.gamma)).log) = _
    rw [opposite_log _ hx, sub_self, sub_self]
    rfl
  refine ⟨by simp only [UnitQ, y, opposite] at *; linarith, fun v => ?_, hm, ?_, fun h => ?_⟩
  · rw [rota_eq, rota_eq]
    congr 2
    apply mat_ext <;> simp only [Quat.R, y, opposite] <;> simp
  · rw [hm, (C127_plus x none9 hx).2.2.1]
  · have h1 := congrArg IState.gamma h
    have hw := congrArg Quat.w h1
    have hxx := congrArg Quat.x h1
    have hyy := congrArg Quat.y h1
    have hzz := congrArg Quat.z h1
    simp only [y, opposite] at hw hxx hyy hzz
    have a1 : x.gamma.w = 0 := by linarith
    have a2 : x.gamma.x = 0 := by linarith
    have a3 : x.gamma.y = 0 := by linarith
    have a4 : x.gamma.z = 0 := by linarith
    simp [UnitQ, a1, a2, a3, a4] at hx

theorem C127_back_statement_false : ¬ C127_back_statement := by
  intro h
  obtain ⟨h1, -, -, h4, h5⟩ := C127_back_violated ⟨0, 0, Quat.identity⟩ (by simp [UnitQ, Quat.identity])
  exact h5 (h4.symm.trans (h _ _ h1 (by simp [UnitQ, Quat.identity])))

/-- **C127, ten numbers.**  A state made of ten numbers has these numbers, in this order; there are no others. -/
theorem C127_index (v : Fin 10 → ℝ) (i : ℤ) :
    (IState.ofVec v).at i = if h : 0 ≤ i ∧ i < 10 then some (v ⟨i.toNat, by omega⟩) else none := by
  by_cases h : 0 ≤ i ∧ i < 10
  · rw [dif_pos h]
    obtain ⟨n, rfl⟩ := Int.eq_ofNat_of_zero_le h.1
    have hn : n < 10 := by have := h.2; omega
    interval_cases n <;> simp [IState.at, IState.ofVec, arr]
  · rw [dif_neg h]
    unfold IState.at
    by_cases h0 : 0 ≤ i
    · rw [if_pos h0, if_neg fun h1 => h ⟨h0, h1⟩]
    · rw [if_neg h0]

/-- Nine numbers. -/
theorem C127_coordinates (e : IErr) (v : I9 → ℝ) : IErr.ofVec e.toVec = e ∧ (IErr.ofVec v).toVec = v ∧
    (∀ i : Fin 3, e.toVec (0, i) = e.alpha i ∧ e.toVec (1, i) = e.beta i ∧ e.toVec (2, i) = e.gamma i) := by
  refine ⟨rfl, ?_, fun i => ⟨rfl, rfl, rfl⟩⟩
  funext ⟨a, b⟩
  fin_cases a <;> rfl

/-- A state that is turned by half a radian and pushed. -/
example : ∃ (x : IState) (d : IErr), UnitQ x.gamma ∧ x.alpha ≠ 0 ∧ 0 < vnorm d.gamma ∧ vnorm d.gamma ≤ 3.14 ∧ d.beta ≠ 0 :=
  ⟨⟨![1, 2, 3], 0, ⟨3 / 5, 0, 4 / 5, 0⟩⟩, ⟨0, ![0, 1, 0], ![1 / 2, 0, 0]⟩, by norm_num [UnitQ],
    fun h => by simpa using congrFun h 0, by
      have : vnorm ![(1 / 2 : ℝ), 0, 0] = 1 / 2 := by
        rw [show vnorm ![(1 / 2 : ℝ), 0, 0] = √((1 / 2) ^ 2) by
          unfold vnorm sqNorm dot; congr 1; simp; norm_num, Real.sqrt_sq (by norm_num)]
      dsimp only
      rw [this]
      exact ⟨by norm_num, by norm_num, fun h => by simpa using congrFun h 1⟩⟩

/-- Two states a quarter of a turn apart. -/
example : ∃ x y : IState, UnitQ x.gamma ∧ UnitQ y.gamma ∧ 4e-6 < vnorm (y.gamma.inverse.otimes x.gamma).bar := by
  refine ⟨⟨0, 0, ⟨3 / 5, 4 / 5, 0, 0⟩⟩, ⟨0, 0, Quat.identity⟩, by norm_num [UnitQ], by norm_num [UnitQ, Quat.identity], ?_⟩
  apply Real.lt_sqrt_of_sq_lt
  simp [sqNorm, dot, Quat.bar, Quat.otimes, Quat.inverse, Quat.identity]
  norm_num

end Verif.Props.ImuState
