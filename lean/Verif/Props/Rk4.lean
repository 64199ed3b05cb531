import Verif.Model.Orbit
import Mathlib.Analysis.Calculus.MeanValue
import Mathlib.Analysis.Calculus.Deriv.Pow
import Mathlib.Analysis.Calculus.Deriv.Add
import Mathlib.Analysis.Calculus.Deriv.Mul

/-!
C58: the Runge-Kutta step of `common/math/rk4.h`.
-/

namespace Verif.Props.Rk4

open Verif.Model.Orbit

section algebra
variable {E : Type*} [AddCommGroup E] [Module ℝ E]

/-- The degree four Taylor polynomial of `exp (dt A) x`. -/
noncomputable def taylor4 (A : E →ₗ[ℝ] E) (dt : ℝ) (x : E) : E :=
  ∑ k ∈ Finset.range 5, (dt ^ k / (k.factorial : ℝ)) • ((A ^ k) x)

/-- An equilibrium stays where it is, for every step size. -/
theorem C58_equilibrium (f : E → E) (dt : ℝ) (x : E) (h : f x = 0) : rk4 f dt x = x := by
  simp [rk4, h]

/-- A linear system is advanced by the degree four Taylor polynomial of its exponential. -/
theorem C58_linear (A : E →ₗ[ℝ] E) (dt : ℝ) (x : E) : rk4 A dt x = taylor4 A dt x := by
  simp only [rk4, taylor4, Finset.sum_range_succ, Finset.sum_range_zero, pow_succ, pow_zero, one_mul, zero_add,
    Module.End.mul_apply, Module.End.one_apply, map_add, map_smul, Nat.factorial]
  push_cast
  module

/-- A step of size zero does nothing. -/
theorem C58_zero_step (f : E → E) (x : E) : rk4 f 0 x = x := by simp [rk4]

/-- Linear changes of the state commute with the step. -/
theorem C58_equivariant {F : Type*} [AddCommGroup F] [Module ℝ F] (T : E →ₗ[ℝ] F) (f : E → E) (g : F → F)
    (h : ∀ x, T (f x) = g (T x)) (dt : ℝ) (x : E) : T (rk4 f dt x) = rk4 g dt (T x) := by
  simp only [rk4, map_add, map_smul, h]

/-- A linear quantity that the flow preserves is preserved by the step. -/
theorem C58_invariant (L : E →ₗ[ℝ] ℝ) (f : E → E) (h : ∀ x, L (f x) = 0) (dt : ℝ) (x : E) :
    L (rk4 f dt x) = L x := by
  simp only [rk4, map_add, map_smul, h]; simp

end algebra

section cubic
variable {E : Type*} [NormedAddCommGroup E] [NormedSpace ℝ E]

/-- A cubic polynomial in time. -/
noncomputable def cubic (c0 c1 c2 c3 : E) (t : ℝ) : E := c0 + t • c1 + t ^ 2 • c2 + t ^ 3 • c3

theorem prim_deriv (c0 c1 c2 c3 : E) (t : ℝ) :
    HasDerivAt (fun t : ℝ => t • c0 + (t ^ 2 / 2) • c1 + (t ^ 3 / 3) • c2 + (t ^ 4 / 4) • c3)
      (cubic c0 c1 c2 c3 t) t := by
  have h1 := (hasDerivAt_id t).smul_const c0
  have h2 := ((hasDerivAt_pow 2 t).div_const 2).smul_const c1
  have h3 := ((hasDerivAt_pow 3 t).div_const 3).smul_const c2
  have h4 := ((hasDerivAt_pow 4 t).div_const 4).smul_const c3
  have h := ((h1.add h2).add h3).add h4
  refine h.congr_deriv ?_
  simp only [cubic]
  push_cast
  module

/-- The state carries the time along. A curve whose velocity is a cubic polynomial in time is followed exactly, for
every step size, forwards or backwards. -/
theorem C58_cubic (c0 c1 c2 c3 : E) (X : ℝ → E) (hX : ∀ t, HasDerivAt X (cubic c0 c1 c2 c3 t) t) (t0 dt : ℝ) :
    rk4 (fun s : E × ℝ => (cubic c0 c1 c2 c3 s.2, (1 : ℝ))) dt (X t0, t0) = (X (t0 + dt), t0 + dt) := by
  have hc : ∀ a b : ℝ, X a - (a • c0 + (a ^ 2 / 2) • c1 + (a ^ 3 / 3) • c2 + (a ^ 4 / 4) • c3)
      = X b - (b • c0 + (b ^ 2 / 2) • c1 + (b ^ 3 / 3) • c2 + (b ^ 4 / 4) • c3) := by
    have hd : ∀ t : ℝ, HasDerivAt
        (fun t : ℝ => X t - (t • c0 + (t ^ 2 / 2) • c1 + (t ^ 3 / 3) • c2 + (t ^ 4 / 4) • c3)) 0 t := by
      intro t
      have := (hX t).sub (prim_deriv c0 c1 c2 c3 t)
      rw [sub_self] at this
      exact this
    intro a b
    exact is_const_of_deriv_eq_zero (fun t => (hd t).differentiableAt) (fun t => (hd t).deriv) a b
  have h := hc (t0 + dt) t0
  have hx : X (t0 + dt) = X t0 - (t0 • c0 + (t0 ^ 2 / 2) • c1 + (t0 ^ 3 / 3) • c2 + (t0 ^ 4 / 4) • c3)
      + ((t0 + dt) • c0 + ((t0 + dt) ^ 2 / 2) • c1 + ((t0 + dt) ^ 3 / 3) • c2 + ((t0 + dt) ^ 4 / 4) • c3) := by
    rw [← h]; abel
  rw [hx]
  simp only [rk4, cubic, Prod.mk.injEq, Prod.fst_add, Prod.snd_add, Prod.smul_fst, Prod.smul_snd, smul_eq_mul,
    Prod.ext_iff]
  constructor
  · module
  · ring

/-- Degree four is not exact: the quartic right hand side `t ^ 4` is missed, so the degree in `C58_cubic` is sharp. -/
theorem C58_quartic_not_exact :
    (rk4 (fun s : ℝ × ℝ => (s.2 ^ 4, (1 : ℝ))) 1 ((0 : ℝ), (0 : ℝ))).1 ≠ 1 / 5 := by
  simp only [rk4, Prod.fst_add, Prod.snd_add, Prod.smul_fst, Prod.smul_snd, smul_eq_mul]
  norm_num

/-- An instance of the hypotheses: a particle with acceleration growing linearly. -/
example : rk4 (fun s : ℝ × ℝ => (cubic (1 : ℝ) 0 0 4 s.2, (1 : ℝ))) 2 ((1 : ℝ) + 1 ^ 4, (1 : ℝ))
    = ((3 : ℝ) + 3 ^ 4, (3 : ℝ)) := by
  have := C58_cubic (1 : ℝ) 0 0 4 (fun t => t + t ^ 4) (fun t => by
    have := (hasDerivAt_id t).add (hasDerivAt_pow 4 t)
    refine this.congr_deriv ?_
    simp [cubic]; ring) 1 2
  norm_num at this ⊢
  exact this

end cubic

end Verif.Props.Rk4
