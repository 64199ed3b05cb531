import Verif.Model.QuatInPlace
import Verif.Props.QuatMem

/-!
C154: quaternions changed in place.
-/

namespace Verif.Props.QuatInPlace

open Verif.QuatMem Verif.QuatInPlace Verif.Model.Lie Verif.Props.Quat Verif.Props.QuatMem

/-- **C154.**  `normalize` of a quaternion that is not zero gives length one, a positive multiple of the quaternion, changes nothing but the
memory the quaternion is mapped to, and a second one changes nothing. -/
theorem C154_normalize (m : Mem) (p : Obj) (s : Quat) (hs : p.val m = some s) (h0 : s ≠ ⟨0, 0, 0, 0⟩) :
    ∃ m' u, normalize m p = some m' ∧ Only m m' p.map 4 ∧ p.val m' = some u ∧ UnitQ u ∧
      (∃ k : ℝ, 0 < k ∧ s.w = k * u.w ∧ s.x = k * u.x ∧ s.y = k * u.y ∧ s.z = k * u.z) ∧ normalize m' p = some m' := by
  have hsum : 0 < s.sqNorm := by
    unfold Quat.sqNorm
    by_contra h
    apply h0
    have a := mul_self_nonneg s.w
    have b := mul_self_nonneg s.x
    have c := mul_self_nonneg s.y
    have d := mul_self_nonneg s.z
    have e0 := mul_self_eq_zero.1 (show s.w * s.w = 0 by linarith)
    have e1 := mul_self_eq_zero.1 (show s.x * s.x = 0 by linarith)
    have e2 := mul_self_eq_zero.1 (show s.y * s.y = 0 by linarith)
    have e3 := mul_self_eq_zero.1 (show s.z * s.z = 0 by linarith)
    cases s
    simp_all
  have hn : 0 < s.norm := Real.sqrt_pos.2 hsum
  have hnn : s.norm * s.norm = s.sqNorm := Real.mul_self_sqrt hsum.le
  have step : ∀ (m : Mem) (s : Quat), p.val m = some s →
      normalize m p = some (alloc4 m p.map ⟨s.w / s.norm, s.x / s.norm, s.y / s.norm, s.z / s.norm⟩) := by
    intro m s hs
    obtain ⟨a, b, c, d⟩ := rd4_eq.1 hs
    unfold QuatInPlace.normalize
    rw [hs, Option.bind_some]
    unfold divide
    rw [a, Option.bind_some, wr_some a, Option.bind_some, upd_ne (by omega), b, Option.bind_some,
      wr_some (x := s.x) (by rw [upd_ne (by omega), b]), Option.bind_some, upd_ne (by omega), upd_ne (by omega), c, Option.bind_some,
      wr_some (x := s.y) (by rw [upd_ne (by omega), upd_ne (by omega), c]), Option.bind_some, upd_ne (by omega), upd_ne (by omega),
      upd_ne (by omega), d, Option.bind_some, wr_some (x := s.z) (by rw [upd_ne (by omega), upd_ne (by omega), upd_ne (by omega), d])]
    exact congrArg some (upd4 m p.map ⟨s.w / s.norm, s.x / s.norm, s.y / s.norm, s.z / s.norm⟩)
  set u : Quat := ⟨s.w / s.norm, s.x / s.norm, s.y / s.norm, s.z / s.norm⟩ with hu
  have hU : u.w ^ 2 + u.x ^ 2 + u.y ^ 2 + u.z ^ 2 = 1 := by
    have e : s.w ^ 2 + s.x ^ 2 + s.y ^ 2 + s.z ^ 2 = s.norm ^ 2 := by
      rw [pow_two s.norm, hnn, Quat.sqNorm]; ring
    simp only [hu, div_pow]
    rw [← add_div, ← add_div, ← add_div, e, div_self (by positivity)]
  have h1 : u.norm = 1 := by
    unfold Quat.norm Quat.sqNorm
    rw [show u.w * u.w + u.x * u.x + u.y * u.y + u.z * u.z = 1 by linarith, Real.sqrt_one]
  have hv : p.val (alloc4 m p.map u) = some u := alloc_val _ _ _
  refine ⟨alloc4 m p.map u, u, step m s hs, alloc_only _ _ _, hv, hU, ⟨s.norm, hn, ?_, ?_, ?_, ?_⟩, ?_⟩
  · simp only [hu]; field_simp
  · simp only [hu]; field_simp
  · simp only [hu]; field_simp
  · simp only [hu]; field_simp
  · rw [step _ u hv, h1]
    simp only [div_one]
    congr 1
    funext i
    unfold alloc4
    split_ifs <;> rfl

/-- The property of `invert`: the object comes to hold its inverse and is returned. -/
def C154_invert_statement : Prop := ∀ (m : Mem) (p : Obj) (s : Quat), p.val m = some s →
  ∃ m', invert m p = some (m', p) ∧ Only m m' p.map 4 ∧ p.val m' = some s.inverse

/-- **C154, restricted.**  Where the body of `invert` ends, the memory is right: the product with the former value is `|q|²`, and nothing
else is changed.  What is missing is the `return`. -/
theorem C154_invert_partial (m : Mem) (p : Obj) (s : Quat) (hs : p.val m = some s) :
    ∃ m' u, invertBody m p = some (m', .offTheEnd) ∧ Only m m' p.map 4 ∧ p.val m' = some u ∧
      s.otimes u = ⟨s.w ^ 2 + s.x ^ 2 + s.y ^ 2 + s.z ^ 2, 0, 0, 0⟩ ∧ u = s.inverse := by
  obtain ⟨a, b, c, d⟩ := rd4_eq.1 hs
  have e : invertBody m p = some (alloc4 m p.map s.inverse, .offTheEnd) := by
    unfold invertBody scale
    rw [b, Option.bind_some, wr_some b, Option.bind_some, upd_ne (by omega), c, Option.bind_some,
      wr_some (x := s.y) (by rw [upd_ne (by omega), c]), Option.bind_some, upd_ne (by omega), upd_ne (by omega), d, Option.bind_some,
      wr_some (x := s.z) (by rw [upd_ne (by omega), upd_ne (by omega), d]), Option.map_some]
    congr 2
    have h := upd4 m p.map s.inverse
    rw [← h]
    have hw : Function.update m p.map (some s.inverse.w) = m := by
      rw [show some s.inverse.w = m p.map from a.symm]; exact Function.update_eq_self _ _
    rw [hw]
    simp [Quat.inverse]
  refine ⟨_, s.inverse, e, alloc_only _ _ _, alloc_val _ _ _, ?_, rfl⟩
  unfold Quat.otimes Quat.inverse
  congr 1 <;> ring

/-- **C154, violated.**  Every call of `invert` of a quaternion in live memory is undefined: the body always runs through and reaches the
end of the function. -/
theorem C154_invert_violated (m : Mem) (p : Obj) (s : Quat) (hs : p.val m = some s) :
    (invertBody m p).isSome ∧ invert m p = none := by
  obtain ⟨m', u, h, -⟩ := C154_invert_partial m p s hs
  unfold invert
  rw [h]
  exact ⟨rfl, rfl⟩

theorem C154_invert_statement_false : ¬ C154_invert_statement := by
  intro h
  have hv := alloc_val (fun _ => none) 0 ⟨0, 1, 0, 0⟩
  obtain ⟨m', h1, -⟩ := h _ ⟨0, 0⟩ _ hv
  rw [(C154_invert_violated _ ⟨0, 0⟩ _ hv).2] at h1
  cases h1

/-- A quaternion of length five, mapped to memory outside its own buffer. -/
example : ∃ m', normalize (alloc4 (fun _ => none) 8 ⟨3, 0, 4, 0⟩) ⟨0, 8⟩ = some m' := by
  obtain ⟨m', -, h, -⟩ := C154_normalize (alloc4 (fun _ => none) 8 ⟨3, 0, 4, 0⟩) ⟨0, 8⟩ ⟨3, 0, 4, 0⟩ (alloc_val _ _ _)
    (fun h => by have := congrArg Quat.w h; norm_num at this)
  exact ⟨m', h⟩

end Verif.Props.QuatInPlace
