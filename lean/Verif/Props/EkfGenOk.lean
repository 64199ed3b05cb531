import Verif.Props.EkfGenMeas
import Verif.Props.EkfGenFail

/-!
The filter is generated, and right, for every configuration without scalars.
-/

namespace Verif.Props.EkfGen

open Verif.Model.Symb Verif.Model.Symb.Blk Verif.Model.EkfGen Verif.Spec.Symb Verif.Spec.EkfGen Verif.Lemmas.Symb
open Verif.Props.Symb

variable {C : Cfg}

/-- Every configuration without scalars in which no state of variable size depends both on itself and on another state gets the
code for its propagation, and that code stores the propagated covariance. -/
theorem C107_every_propagate (hC : NoOne C) (hF : Fixed C) {q f : ℕ} (hf : 2 * C.n + C.m + 12 ≤ f) :
    ∃ p, propagate C (code (q + 6)) f = some p ∧ ∀ (N : ℕ) (V : Val N), numOf V .half = 1 / 2 → Symmetric (C := C) V →
      tb (noiseU C V) = noiseU C V → tb (noiseX C V) = noiseX C V → fullOf C (run V p) .covOut = predicted C V := by
  obtain ⟨p, hp⟩ := Option.isSome_iff_exists.mp (propagate_some hC hF (q := q) hf)
  exact ⟨p, (C107_propagate hC hp).1, fun N V hh hs hu hx => C107_propagate_full hC hp hh hs hu hx⟩

/-- Every measurement that has more than one dimension and depends on some state gets the code for its update, and that code
stores the correction and the updated covariance. -/
theorem C107_every_update (hC : NoOne C) {D : MCfg C} (hD : D.dim ≠ .num 1) (hu : ∃ c, D.used c = true) {q f : ℕ}
    (hf : C.n + 4 ≤ f) :
    ∃ p, measUpdate (code (q + 2)) f D = some p ∧ ∀ (N : ℕ) (V : Val N), Symmetric (C := C) V →
      (blockOf V .noise 0 0 D.dim D.dim).transpose = blockOf V .noise 0 0 D.dim D.dim →
        (∀ r : Fin (C.n + 1), blockOf (run V p) .dx r 0 (C.dim r) (.num 1) = correction V D r 0) ∧
          fullOf C (run V p) .cov = updated V D := by
  obtain ⟨p, hp⟩ := Option.isSome_iff_exists.mp (measUpdate_some hC hD hu (q := q) hf)
  exact ⟨p, (C107_update hC hD hp).1, fun N V hs hn =>
    ⟨((C107_update hC hD hp).2 N V hs).1, C107_update_full hC hD hp hs hn⟩⟩

/-- What holds of `C108_statement`: states, inputs and measurements of more than one dimension, no state of variable size that
depends both on itself and on another state, and no measurement without states. Each of the three conditions is needed:
`C108_one_violated`, `C108_coupled_violated`, `C108_no_states_violated`. -/
theorem C108_generated_partial (hC : NoOne C) :
    (Fixed C → ∃ q f, (propagate C (code q) f).isSome = true) ∧
      ∀ D : MCfg C, D.dim ≠ .num 1 → (∃ c, D.used c = true) → ∃ q f, (measUpdate (code q) f D).isSome = true := by
  constructor
  · intro hF
    obtain ⟨p, hp, -⟩ := C107_every_propagate hC hF (q := 0) (le_refl _)
    exact ⟨_, _, by rw [hp]; rfl⟩
  · intro D hD hu
    obtain ⟨p, hp, -⟩ := C107_every_update hC hD hu (q := 0) (le_refl _)
    exact ⟨_, _, by rw [hp]; rfl⟩

/-- A chain of `n + 1` states, each but the last one the integral of the next, with as many sizes as there are states. -/
def chain (n : ℕ) : Cfg where
  n := n
  m := 0
  dim r := .num (r.val + 2)
  inp _ := .num 3
  fx r c := r.val + 1 == c.val
  fu r _ := r.val == n

theorem noOne_chain (n : ℕ) : NoOne (chain n) := by
  constructor
  · intro r h
    have : r.val + 2 = 1 := Dim.num.inj h
    omega
  · intro r h
    exact absurd (Dim.num.inj h) (by decide)

theorem fixed_chain (n : ℕ) : Fixed (chain n) := fun r _ _ _ _ => ⟨r.val + 2, rfl⟩

theorem fixed_rtk : Fixed rtk := by
  have h : ∀ r c, rtk.fx r r = true → rtk.fx r c = true → r ≠ c → (match rtk.dim r with | .num _ => true | _ => false) = true := by
    decide +kernel
  intro r c h1 h2 h3
  have := h r c h1 h2 h3
  cases hd : rtk.dim r with
  | num d => exact ⟨d, rfl⟩
  | var d => simp [hd] at this

/-- The conditions hold for the filter of the project and for chains of any length. -/
example : NoOne rtk ∧ Fixed rtk ∧ (∃ c, rtkObs.used c = true) ∧ ¬ Fixed coupled ∧
    ∀ n, ∃ q f, (propagate (chain n) (code q) f).isSome = true := by
  refine ⟨noOne_rtk, fixed_rtk, ⟨0, by decide⟩, ?_, fun n => (C108_generated_partial (noOne_chain n)).1 (fixed_chain n)⟩
  intro h
  obtain ⟨d, hd⟩ := h 1 0 (by decide) (by decide) (by decide)
  exact Dim.noConfusion (show Dim.var 0 = Dim.num d from hd)

end Verif.Props.EkfGen
